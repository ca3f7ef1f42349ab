#!/usr/bin/env python3
"""Merge results of seed.py into seeded/LOG.jsonl.

usage: seedlog.py --seeds seeds.json ... --results out.jsonl ... [--tightened tightened.json]

The seed descriptions are kept in seeded/seeds.json so that every attempt can be repeated.  `tightened.json` maps a
seed id to the theorems added or strengthened because of it.  `claim_as_written` is the label a seed had before its
property number was corrected.  One line of the log per seed; later results replace earlier ones.
`seeded/notes.json` maps the id of a survivor to what is known about it.
"""
import argparse, json, os, re
os.chdir(os.path.join(os.path.dirname(__file__), '..'))
a = argparse.ArgumentParser()
a.add_argument('--seeds', nargs='*', default=[])
a.add_argument('--results', nargs='*', default=[])
a.add_argument('--tightened')
o = a.parse_args()
seeds = {}
if os.path.exists('seeded/seeds.json'):
    seeds = {s['id']: s for s in json.load(open('seeded/seeds.json'))}
for f in o.seeds:
    for s in json.load(open(f)):
        seeds[s['id']] = s
json.dump(list(seeds.values()), open('seeded/seeds.json', 'w'), indent=1, ensure_ascii=False)
log = {}
if os.path.exists('seeded/LOG.jsonl'):
    for l in open('seeded/LOG.jsonl'):
        if l.strip():
            e = json.loads(l)
            log[e['id']] = e
tight = json.load(open(o.tightened)) if o.tightened else {}
for f in o.results:
    for l in open(f):
        if not l.strip():
            continue
        r = json.loads(l)
        if 'error' in r:
            print(r['id'], r['error'][:200])
            continue
        s = seeds[r['id']]
        old = log.get(r['id'], {})
        log[r['id']] = {'id': r['id'], 'definition': 'GitDB.' + s['definition'], 'file': 'lean/' + s['file'], 'edit': s['edit'],
                        'old': s['old'], 'new': s['new'], 'claim': s['claim'],
                        **({'claim_as_written': s['claim_as_written']} if 'claim_as_written' in s else {}),
                        'theorems_failed': r['broken'], 'first_failures': r['failed'],
                        'theorems_tightened': tight.get(r['id'], old.get('theorems_tightened', []))}
for i, t in tight.items():
    if i in log:
        log[i]['theorems_tightened'] = t
if os.path.exists('seeded/notes.json'):
    for i, t in json.load(open('seeded/notes.json')).items():
        if i in log:
            log[i]['note'] = t
with open('seeded/LOG.jsonl', 'w') as f:
    for e in log.values():
        f.write(json.dumps(e, ensure_ascii=False) + '\n')
print(len(log), 'attempts; survivors:', [e['id'] for e in log.values() if not e['theorems_failed']])
for e in log.values():
    for c in re.findall(r'C\d+', e['claim']):
        if not any(t.split('.')[-1].startswith(c + '_') for t in e['theorems_failed']):
            print('claim not hit:', e['id'], c, e['definition'], e['edit'], e['theorems_failed'][:6])
