#!/usr/bin/env python3
"""For every doc comment in Model/*.lean that cites FILE.py:A-B and names functions in backticks, report those whose
def line in /repo is outside [A-3, B+3] of every citation of that comment."""
import re, glob
defs={}
for f in glob.glob('/repo/dill/*.py'):
    n=f.split('/')[-1]
    for i,l in enumerate(open(f),1):
        m=re.match(r'\s*(?:def|class)\s+(\w+)',l)
        if m: defs.setdefault(m.group(1),[]).append((n,i))
for f in sorted(glob.glob('/verif/lean/Verif/Model/*.lean')):
    s=open(f).read()
    for m in re.finditer(r'/-[-!]?(.*?)-/',s,re.S):
        c=m.group(1)
        cites=[]
        for x in re.finditer(r'(\w+\.py):?\s*([\d,\s-]+)',c):
            for r in re.finditer(r'(\d+)(?:-(\d+))?',x.group(2)):
                a=int(r.group(1)); b=int(r.group(2) or a); cites.append((x.group(1),a,b))
        if not cites: continue
        names=set(re.findall(r'`(?:\w+\.)?(\w+)\s*(?:\(|`)',c))
        first=re.search(r'`(?:\w+\.)?(\w+)',c)
        if not first: continue
        nm=first.group(1)
        if nm not in defs: continue
        ok=any(n==cf and a-3<=i<=b+3 for n,i in defs[nm] for cf,a,b in cites) or \
           any(n==cf and i<=a<=i+140 for n,i in defs[nm] for cf,a,b in cites)
        if not ok:
            print(f.split('/')[-1], s[:m.start()].count('\n')+1, nm, defs[nm], cites)
    # length check
