#!/usr/bin/env python3
"""addprop.py FILE.json: append properties, DESIGN.md plan rows, modelled-part paragraphs, disagreements and notes."""
import json, sys
root='/verif/'
spec=json.load(open(sys.argv[1]))
with open(root+'properties.jsonl','a') as f:
    for p in spec.get('properties',[]):
        assert set(p)=={'id','title','statement','quantifier','why_tests_cant','anchors'}, p['id']
        f.write(json.dumps(p, ensure_ascii=False)+'\n')
d=open(root+'DESIGN.md').read().split('\n')
last=max(i for i,l in enumerate(d) if l.startswith('| C'))
for r in reversed(spec.get('rows',[])): d.insert(last+1, r)
i=next(i for i,l in enumerate(d) if l.startswith('`Source`: the alias'))
for r in reversed(spec.get('parts',[])): d[i:i]=[r,'']
i=next(i for i,l in enumerate(d) if l.startswith('* C06: an object whose'))
for r in reversed(spec.get('bugs',[])): d.insert(i, '* '+r)
open(root+'DESIGN.md','w').write('\n'.join(d))
n=json.load(open(root+'tools/notes.json')); n.update(spec.get('notes',{}))
json.dump(n, open(root+'tools/notes.json','w'), indent=1, ensure_ascii=False)
