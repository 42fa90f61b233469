#!/usr/bin/env python3
"""Regenerate the generated part of DESIGN.md (status, findings) from MANIFEST.json and properties.jsonl."""
import json, pathlib
root = pathlib.Path(__file__).resolve().parent.parent
props = {p["id"]: p for p in map(json.loads, filter(None, (root/"properties.jsonl").read_text().splitlines()))}
claims = json.loads((root/"MANIFEST.json").read_text())["claims"]
mark = "<!-- generated by tools/gen_design.py, do not edit below -->"
text = (root/"DESIGN.md").read_text().split(mark)[0].rstrip() + "\n\n" + mark + "\n\n"
text += "## Status of each property\n\n"
text += "Theorems whose name ends in `_false` prove, with a concrete state or for all states, that (part of) the\n"
text += "English claim does not hold of the code; `_partial` marks theorems that need an extra hypothesis. Names are\n"
text += "given without their namespace; the full names are in MANIFEST.json.\n\n"
for c in claims:
    p = props[c["property"]]
    text += f"### {c['property']} {p['title']} ({c['status']})\n\n"
    text += f"{p['statement']}\n\n"
    mods = sorted({".".join(t.split(".")[:2]).replace("Verif.", "") for t in c["theorems"]})
    text += f"* modules: {', '.join('`'+m+'`' for m in mods)}\n"
    pos = [t.split(".")[-1] for t in c["theorems"] if not t.endswith("_false")]
    neg = [t.split(".")[-1] for t in c["theorems"] if t.endswith("_false")]
    text += f"* proved: {', '.join('`'+t+'`' for t in pos)}\n"
    if neg: text += f"* refuted: {', '.join('`'+t+'`' for t in neg)}\n"
    if c["note"]: text += f"* note: {c['note']}\n"
    text += "\n"
(root/"DESIGN.md").write_text(text)
