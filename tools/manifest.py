#!/usr/bin/env python3
"""Generates /verif/MANIFEST.json: theorem names are collected from lean/Verif/Props by their Cxx_ prefix."""
import json, re, glob, os
root = os.path.dirname(os.path.dirname(os.path.abspath(__file__)))
names = {}
for f in sorted(glob.glob(root + '/lean/Verif/Props/*.lean')):
    for m in re.finditer(r'^theorem (C(\d\d+)_\w+)', open(f).read(), re.M):
        names.setdefault('C' + m.group(2), []).append('HGQ.' + m.group(1))
notes = json.load(open(root + '/tools/notes.json'))
props = [json.loads(l)['id'] for l in open(root + '/properties.jsonl')]
claims = []
for p in props:
    st, note = notes.get(p, [None, ''])
    if st is None and p not in names:
        continue
    if st is None:
        st = 'partial' if any('_partial' in n for n in names[p]) else 'proved'
    claims.append(dict(property=p, status=st, theorems=names.get(p, []), note=note))
json.dump({'claims': claims}, open(root + '/MANIFEST.json', 'w'), indent=1)
print({s: sum(c['status'] == s for c in claims) for s in ('proved', 'partial', 'not_applicable')}, 'missing', [p for p in props if p not in {c['property'] for c in claims}])
