#!/usr/bin/env python3
"""Adds or replaces properties: reads JSON objects (id, title, …, and status, note) from stdin, one per line."""
import json, os, sys
root = os.path.dirname(os.path.dirname(os.path.abspath(__file__)))
P, S = root + '/properties.jsonl', root + '/tools/status.json'
props = [json.loads(l) for l in open(P) if l.strip()]
status = json.load(open(S))
for line in sys.stdin:
    if not line.strip():
        continue
    d = json.loads(line)
    status[d['id']] = [d.pop('status'), d.pop('note')]
    if 'title' in d:
        props = [p for p in props if p['id'] != d['id']] + [d]
props.sort(key=lambda p: int(p['id'][1:]))
open(P, 'w').write(''.join(json.dumps(p) + '\n' for p in props))
json.dump(status, open(S, 'w'), indent=1)
