#!/usr/bin/env python3
"""Regenerates MANIFEST.json: statuses and notes come from this table, theorem names from the sources
(every `theorem Cnn_...` under lean/Verif/Props)."""
import json,re,glob,os
root=os.path.dirname(os.path.dirname(os.path.abspath(__file__)))
ids=[json.loads(l)["id"] for l in open(f"{root}/properties.jsonl")]
thms={}
for f in sorted(glob.glob(f"{root}/lean/Verif/Props/*.lean")):
    ns="BCash"
    for m in re.finditer(r"^theorem (C\d\d+\w*)",open(f).read(),re.M):
        thms.setdefault(m.group(1).split('_')[0],[]).append(f"{ns}.{m.group(1)}")
notes=json.load(open(f"{root}/tools/notes.json"))
claims=[]
for i in ids:
    ts=thms.get(i,[])
    n=notes.get(i,{})
    if not ts:
        claims.append({"property":i,"status":n.get("status","partial"),"theorems":[],"note":n.get("note","not yet proved")})
        continue
    st=n.get("status") or ("partial" if any("_partial" in t for t in ts) else "proved")
    claims.append({"property":i,"status":st,"theorems":ts,"note":n.get("note","")})
json.dump({"claims":claims},open(f"{root}/MANIFEST.json","w"),indent=1)
for c in claims:
    print(c["property"],c["status"],len(c["theorems"]))
