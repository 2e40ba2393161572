#!/usr/bin/env python3
# Writes notes/COVERAGE.md: for every file of /repo the line ranges cited by the definitions of the model.
import re,glob,os
root=os.path.join(os.path.dirname(os.path.abspath(__file__)),"..")
idx={}
for r,_,fs in os.walk("/repo/amelie"):
    for f in fs:
        if f.endswith((".c",".h")): idx.setdefault(f,[]).append(os.path.relpath(os.path.join(r,f),"/repo"))
cov={}
for p in sorted(glob.glob(root+"/lean/Verif/**/*.lean",recursive=True)):
    src=open(p).read()
    head=src[:1500]
    # every doc comment followed by a definition
    for m in re.finditer(r"/--(.*?)-/\s*(?:@\[[^\]]*\]\s*)?(?:def|abbrev|structure|inductive)\s+(\S+)",src,re.S):
        for c in re.finditer(r"([A-Za-z_0-9/]+\.[ch]):([0-9][0-9,\- ]*)",m.group(1)):
            name=c.group(1).split("/")[-1]
            cand=[x for x in idx.get(name,[]) if x.endswith(c.group(1))] or idx.get(name,[])
            if len(cand)>1:
                h=[x for x in cand if os.path.dirname(x).split("/")[-1] in head] 
                cand=h or cand
            f=cand[0] if cand else name
            cov.setdefault(f,[]).append((c.group(2).strip(" ,-"),m.group(2).rstrip(":"),os.path.relpath(p,root+"/lean/Verif")))
out=["# Lines of /repo cited by the model","","Generated by tools/coverage.py from the comments of the definitions.",""]
for f in sorted(cov):
    out.append(f"## {f}")
    for l,d,p in sorted(set(cov[f]),key=lambda t:int(re.match(r"\d+",t[0]).group())):
        out.append(f"- {l}: `{d}` ({p})")
    out.append("")
open(root+"/notes/COVERAGE.md","w").write("\n".join(out))
print(len(cov),"files",sum(len(set(v)) for v in cov.values()),"citations")
