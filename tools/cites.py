#!/usr/bin/env python3
"""List the citations file.py:a-b of the model with the first line cited (reading aid)."""
import re,glob,os,sys
repo='/repo/sfepy'
idx={}
for root,_,fs in os.walk('/repo'):
    for f in fs:
        idx.setdefault(f,[]).append(os.path.join(root,f))
sel=sys.argv[1] if len(sys.argv)>1 else ''
for p in sorted(glob.glob('/verif/lean/Verif/**/*.lean',recursive=True)):
    if sel not in p: continue
    for n,l in enumerate(open(p),1):
        for m in re.finditer(r'([\w/]+\.(?:py|pyx|c|h|pxd)):(\d+)(?:-(\d+))?((?:, \d+(?:-\d+)?)*)',l):
            f=os.path.basename(m.group(1)); a=int(m.group(2))
            c=[q for q in idx.get(f,[]) if q.endswith('/'+m.group(1).replace("/repo/","").lstrip("/"))]
            if len(c)!=1: print(os.path.basename(p),n,'AMBIG',m.group(0),c[:3]); continue
            L=open(c[0]).read().split('\n')
            print(f"{p[18:]}:{n} {m.group(0)} | {L[a-1].strip()[:60] if a<=len(L) else 'OUT'}   <<< {l.strip()[:70]}")
