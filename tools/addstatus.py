#!/usr/bin/env python3
# usage: addstatus.py <<< lines "C06|partial|note"
import sys,os,re
p=os.path.join(os.path.dirname(os.path.abspath(__file__)),"status.py")
ns={}
exec(open(p).read(),ns)
S=ns["STATUS"]
for l in sys.stdin:
    l=l.strip()
    if not l: continue
    a,b,c=l.split("|",2)
    S[a]=(b,c)
with open(p,"w") as f:
    f.write("STATUS={\n")
    for k in sorted(S): f.write("%r:%r,\n"%(k,S[k]))
    f.write("}\n")
