#!/usr/bin/env python3
"""Writes MANIFEST.json and a Lean file that prints the axioms of every theorem named in it (to stdout dir /tmp)."""
import json
claims=[]
def c(prop,status,theorems,note=""):
    claims.append({"property":prop,"status":status,"theorems":theorems,"note":note})
T="Verif.Txlogs."
def t(ns,*names): return [ns+n for n in names]
exec(open('/verif/tools/claims.py').read())
ids=[json.loads(l)["id"] for l in open('/verif/properties.jsonl')]
have={x["property"] for x in claims}
for x in have: assert x in ids,x
for i in ids:
    if i not in have: print("no claim for",i)
claims.sort(key=lambda x:ids.index(x["property"]))
json.dump({"claims":claims},open('/verif/MANIFEST.json','w'),indent=1,ensure_ascii=False)
with open('/tmp/axioms.lean','w') as f:
    f.write("import Verif\n")
    for x in claims:
        for n in x["theorems"]: f.write(f"#print axioms {n}\n")
