import json,sys
# usage: addnotes.py < json {"props":[...], "notes":{...}}
d=json.load(sys.stdin)
ids={json.loads(l)["id"] for l in open('/verif/properties.jsonl')}
with open('/verif/properties.jsonl','a') as f:
    for p in d.get("props",[]):
        assert p["id"] not in ids
        f.write(json.dumps(p,ensure_ascii=False)+"\n")
n=json.load(open('/verif/tools/notes.json'))
n.update(d.get("notes",{}))
json.dump(n,open('/verif/tools/notes.json','w'),indent=1,ensure_ascii=False)
