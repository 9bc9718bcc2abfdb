#!/usr/bin/env python3
"""Rewrites MANIFEST.json. A theorem `Cnn_...` in Verif/Props belongs to property Cnn; statuses and notes are below."""
import json, re, glob, os
root = os.path.dirname(os.path.dirname(os.path.abspath(__file__)))
notes = json.load(open(os.path.join(root, 'tools', 'notes.json')))
thms = {}
for f in sorted(glob.glob(os.path.join(root, 'lean/Verif/Props/*.lean'))):
    for m in re.finditer(r'^theorem (C(\d\d)_\w+)', open(f).read(), re.M):
        thms.setdefault('C' + m.group(2), []).append('Verif.' + m.group(1))
claims = []
for line in open(os.path.join(root, 'properties.jsonl')):
    p = json.loads(line)['id']
    if p in thms:
        n = notes.get(p, {})
        claims.append({'property': p, 'status': n.get('status', 'proved'), 'theorems': thms[p], 'note': n.get('note', '')})
    elif p in notes and notes[p].get('status') == 'not_applicable':
        claims.append({'property': p, 'status': 'not_applicable', 'theorems': [], 'note': notes[p]['note']})
json.dump({'claims': claims}, open(os.path.join(root, 'MANIFEST.json'), 'w'), indent=1, ensure_ascii=False)
print(len(claims), 'claims')
