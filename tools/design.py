#!/usr/bin/env python3
# Generates DESIGN.md from the head below, properties.jsonl and MANIFEST.json.
import json,os,re,glob
here=os.path.dirname(os.path.abspath(__file__)); root=here+"/.."
head=open(here+"/design_head.md").read()
props={}
for l in open(root+"/properties.jsonl"):
    p=json.loads(l); props[p["id"]]=p
man={c["property"]:c for c in json.load(open(root+"/MANIFEST.json"))["claims"]}
exec(open(here+"/design_plan.py").read())
where={}
for f in sorted(glob.glob(root+"/lean/Verif/**/Props*.lean",recursive=True)):
    for m in re.finditer(r"^theorem (C\d+_\S+)",open(f).read(),re.M): where[m.group(1)]=os.path.relpath(f,root+"/lean/Verif")
out=[head,"\n## The properties: model, proof, state\n"]
for i in sorted(props,key=lambda x:int(x[1:])):
    c=man.get(i)
    out.append(f"### {i} {props[i]['title']} - {c['status'] if c else 'open'}")
    out.append(f"*Plan.* {PLAN.get(i,'')}")
    if c:
        files=sorted(set(where[t.split('.')[-1]] for t in c['theorems']))
        out.append(f"*Theorems* ({', '.join(files)}): "+", ".join("`"+t.split('.')[-1]+"`" for t in c['theorems'])+".")
        if c['note']: out.append(f"*State.* {c['note']}")
    out.append("")
open(root+"/DESIGN.md","w").write("\n".join(out))
for i in props:
    if i not in PLAN: print("no plan for",i)
