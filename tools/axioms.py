#!/usr/bin/env python3
"""Writes AXIOMS.md: the axioms on which each property theorem depends, as Lean reports them.
Usage: axioms.py [lean directory with a finished build]"""
import collections, glob, os, re, subprocess, sys, tempfile
top = os.path.dirname(os.path.dirname(os.path.abspath(__file__)))
lean = sys.argv[1] if len(sys.argv) > 1 else os.path.join(top, 'lean')
names = []
for f in sorted(glob.glob(os.path.join(lean, 'Verif/Props/*.lean'))):
    names += re.findall(r'^theorem (C\d\d_\w+)', open(f).read(), re.M)
with tempfile.NamedTemporaryFile('w', suffix='.lean', delete=False) as t:
    t.write('import Verif\nopen Verif\n' + ''.join(f'#print axioms {n}\n' for n in names))
out = subprocess.run(['lake', 'env', 'lean', t.name], cwd=lean, capture_output=True, text=True).stdout
os.unlink(t.name)
sets = collections.defaultdict(list)
for n, a in re.findall(r"'Verif\.(\w+)' depends on axioms: \[([^\]]*)\]", out):
    sets[', '.join(sorted(a.replace('\n', ' ').split(', ')))].append(n)
for n in re.findall(r"'Verif\.(\w+)' does not depend on any axioms", out):
    sets['no axioms'].append(n)
found = sum(map(len, sets.values()))
assert found == len(names), (found, len(names), out[:500])
with open(os.path.join(top, 'AXIOMS.md'), 'w') as o:
    o.write(f'# Axioms the theorems depend on\n\nMade by `tools/axioms.py` with `#print axioms`; {len(names)} theorems.\n')
    for a in sorted(sets, key=lambda a: (a != 'no axioms', a.count(','), a)):
        o.write(f'\n## {a}\n\n' + ''.join(f'* {n}\n' for n in sorted(sets[a])))
print({a: len(v) for a, v in sets.items()})
