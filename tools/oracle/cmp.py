import json
from collections import Counter
exp=json.load(open("exp.json")); got=[json.loads(l) for l in open("got.txt")]
bad=Counter(); shown=Counter(); tot=Counter()
for (f,a,e),g in zip(exp,got):
    tot[f]+=1
    if isinstance(e,list) and e and e[0]=="soft":
        ok = g is None or g==e[1]
    elif isinstance(e,list) and e and e[0]=="softutf":
        ok = g==e[1] or e[1] is None
    elif isinstance(e,list) and e and e[0]=="op":
        if e[1] is None: ok = g is None
        elif g is None: ok=False
        else:
            ok = g[0]==e[1][0] and (e[1][2] is None or len(e[2])-len(g[2])==e[1][2]) and (g[1]==[] or g[1]==[ord(c) for c in e[1][1]])
    else: ok = g==e
    if not ok:
        bad[f]+=1
        if shown[f]<4: shown[f]+=1; print(f,a,"exp",e,"got",g)
print(len(exp),len(got),dict(bad)); print(dict(tot))
