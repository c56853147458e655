"""Regenerates MANIFEST.json: collects theorems named Cnn_* from lean/Verif/Props, plus notes/status below."""
import re, json, glob, os
root = os.path.dirname(os.path.dirname(os.path.abspath(__file__)))
thms = {}
for f in sorted(glob.glob(root + '/lean/Verif/**/*.lean', recursive=True)):
    ns = []
    for line in open(f):
        m = re.match(r'namespace (\S+)', line)
        if m: ns.append(m.group(1))
        m = re.match(r'end (\S+)', line)
        if m and ns and ns[-1] == m.group(1): ns.pop()
        m = re.match(r'(?:@\[[^\]]*\] )?(?:protected |private )?theorem (C(\d\d+)_\S+)', line)
        if m:
            thms.setdefault('C' + m.group(2), []).append('.'.join(ns + [m.group(1)]))
notes = json.load(open(root + '/tools/notes.json'))
claims = []
for l in open(root + '/properties.jsonl'):
    if not l.strip(): continue
    pid = json.loads(l)['id']
    n = notes.get(pid, {})
    t = thms.get(pid, []) + n.get('extra', [])
    status = n.get('status') or ('proved' if t else 'not_applicable')
    if not t: status = n.get('status', 'partial'); 
    if not t: continue
    claims.append({'property': pid, 'status': status, 'theorems': t, 'note': n.get('note', '')})
json.dump({'claims': claims}, open(root + '/MANIFEST.json', 'w'), indent=1)
print(len(claims), 'claims', sum(len(c['theorems']) for c in claims), 'theorems')
