#!/usr/bin/env python3
"""Regenerates MANIFEST.json from the theorem names in lean/Verif/Props and the notes below."""
import json, re, glob, os
os.chdir(os.path.join(os.path.dirname(__file__), '..'))
NOTES = json.load(open('tools/notes.json'))
thms = {}
for f in sorted(glob.glob('lean/Verif/Props/*.lean')):
    for m in re.finditer(r'^theorem (C\d+)(_\w+)', open(f).read(), re.M):
        thms.setdefault(m.group(1), []).append('GitDB.Props.' + m.group(1) + m.group(2))
claims = []
for l in open('properties.jsonl'):
    p = json.loads(l)['id']
    if p not in thms:
        continue
    n = NOTES.get(p, {})
    claims.append({'property': p, 'status': n.get('status', 'proved'), 'theorems': thms[p],
                   'note': n.get('note', '')})
json.dump({'claims': claims}, open('MANIFEST.json', 'w'), indent=1)
print(len(claims), 'claims', sum(len(c['theorems']) for c in claims), 'theorems')
