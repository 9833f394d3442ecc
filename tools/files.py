"""Write FILES.md: each Lean file with the first sentence of its description and the properties it has theorems of."""
import glob, os, re

ROOT = os.path.dirname(os.path.dirname(os.path.abspath(__file__)))
out = ['# The Lean files', '', 'Generated by `tools/files.py` from the description at the beginning of each file.', '']
for d in ['Std', 'Model', 'Spec', 'Proofs', 'Props', 'Tests']:
    out += [f'## {d}', '', '| file | what it is about | properties |', '|---|---|---|']
    for f in sorted(glob.glob(f'{ROOT}/lean/Verif/{d}/*.lean')):
        s = open(f).read()
        m = re.search(r'/-!(.*?)-/', s, re.S)
        t = ' '.join(m.group(1).split()) if m else ''
        t = re.sub(r'^#+ ', '', t)
        t = re.split(r'(?<=[a-z)`\]])\. (?=[A-Z`])', t)[0].rstrip('.').replace('|', '\\|')
        ids = sorted(set(re.findall(r'^theorem (C\d\d)_', s, re.M))) if d == 'Props' else []
        out.append(f"| `{os.path.basename(f)}` | {t} | {', '.join(ids)} |")
    out.append('')
open(f'{ROOT}/FILES.md', 'w').write('\n'.join(out))
