#!/usr/bin/env python3
"""Writes seeded/LOG.jsonl from the results of tools/seed.py (first argument) and tools/tightened.json."""
import json, os, sys
top = os.path.dirname(os.path.dirname(os.path.abspath(__file__)))
tight = json.load(open(os.path.join(top, 'tools/tightened.json')))
notes = json.load(open(os.path.join(top, 'tools/seed_notes.json')))
rows = {}
for f in sys.argv[1:]:
    for l in open(f):
        d = json.loads(l)
        rows.setdefault(d['id'], []).append(d)
with open(os.path.join(top, 'seeded/LOG.jsonl'), 'w') as o:
    for i, ds in rows.items():
        for n, d in enumerate(ds):
            last = n == len(ds) - 1
            r = {'id': i, 'file': d['file'], 'definition': d['definition'], 'edit': d['edit'], 'old': d['old'], 'new': d['new'], 'claim': d['claim'],
                 'theorems_failed': d['broken'], 'lemmas_failed': d['failed'], 'theorems_tightened': tight.get(i, []) if n == 0 else []}
            if d.get('also'):
                r['lemmas_adapted'] = sorted({a[0] for a in d['also']})
            if i in tight and len(ds) == 1:
                r['note'] = 'An earlier run, not in this log, led to the tightening. This is the run after it.'
            if i in notes and not d['broken']:
                r['note'] = notes[i]
            o.write(json.dumps(r, ensure_ascii=False) + '\n')
