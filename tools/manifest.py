#!/usr/bin/env python3
# Generates /verif/MANIFEST.json; theorem names are collected from the Props files by their C<nn>_ prefix.
import json,os,re,glob
root=os.path.join(os.path.dirname(os.path.abspath(__file__)),"..")
th={}
for f in sorted(glob.glob(root+"/lean/Verif/**/Props*.lean",recursive=True)):
    ns=[]
    for line in open(f):
        m=re.match(r"namespace (\S+)",line)
        if m: ns.append(m.group(1))
        m=re.match(r"end (\S+)\s*$",line)
        if m and ns and ns[-1]==m.group(1): ns.pop()
        m=re.match(r"theorem (C(\d+)_\S+)",line)
        if m: th.setdefault("C"+m.group(2),[]).append(".".join(ns+[m.group(1)]))
props=[json.loads(l) for l in open(root+"/properties.jsonl")]
exec(open(os.path.join(os.path.dirname(os.path.abspath(__file__)),"status.py")).read())
claims=[]
for p in props:
    i=p["id"]
    if i not in th: 
        print("no theorems for",i)
        continue
    st,note=STATUS.get(i,("partial",""))
    claims.append(dict(property=i,status=st,theorems=th[i],note=note))
json.dump({"claims":claims},open(root+"/MANIFEST.json","w"),indent=1)
for i in th:
    if i not in [p["id"] for p in props]: print("unknown property",i)
    if i not in STATUS: print("no status for",i)
