#!/usr/bin/env python3
"""Writes MANIFEST.json: gen_manifest.py (in /verif).  Theorem names are found by their Cnn_ prefix."""
import json, re, glob, os
root = os.path.dirname(os.path.dirname(os.path.abspath(__file__)))
props = [json.loads(l) for l in open(root + '/properties.jsonl')]
notes = json.load(open(root + '/tools/notes.json'))
thms = {}
for f in sorted(glob.glob(root + '/lean/Verif/Props/*.lean')):
    for m in re.finditer(r'^theorem (C\d\d+)_(\w+)', open(f).read(), re.M):
        thms.setdefault(m.group(1), []).append('Verif.Props.' + m.group(1) + '_' + m.group(2))
claims = []
for p in props:
    i = p['id']
    n = notes.get(i, {})
    ts = thms.get(i, [])
    st = n.get('status') or ('proved' if ts else None)
    if st is None: continue
    claims.append({'property': i, 'status': st, 'theorems': ts, 'note': n.get('note', '')})
json.dump({'claims': claims}, open(root + '/MANIFEST.json', 'w'), indent=1)
print(len(claims), 'claims; missing:', [p['id'] for p in props if p['id'] not in [c['property'] for c in claims]])
