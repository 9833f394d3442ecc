#!/usr/bin/env python3
"""Apply one wrong edit to the model in a scratch copy, rebuild, and report which theorems no longer hold.

usage: seed.py SCRATCH < mutants.jsonl   (each line: id, file, old, new, definition, edit, claim and possibly also, a list of
further edits [file, old, new], for lemmas that only restate the edited definition)

The scratch copy is a copy of /verif/lean without Verif/Tests. After the edit the project is built; every theorem whose proof no longer
compiles gets `sorry` for a proof and the build is repeated, until it passes. The property theorems that then depend on
`sorryAx` are those that the edit breaks.
"""
import json, os, re, subprocess, sys, shutil, glob, time

SRC = '/verif/lean'
DECL = re.compile(r'^(?:@\[[^\]]*\]\s*)?(?:private |protected |noncomputable )*(theorem|lemma|def|instance|example|inductive|structure|abbrev|class)\b\s*(\S*)')
TOP = re.compile(r'^(?:@\[|private |protected |noncomputable |theorem|lemma|def|instance|example|inductive|structure|abbrev|class|/--|/-!|end\b|namespace\b|section\b|variable\b|open\b|omit\b|macro|syntax|set_option|mutual)')

# `decide +kernel` without the attempt to say why it failed, which for a computation of some length takes all memory
KDECIDE = '''import Lean.Elab.Tactic.ElabTerm
import Lean.Meta.Closure

open Lean Meta Elab Tactic in
elab "kdecide" : tactic => do
  let p ← instantiateMVars (← getMainTarget)
  if p.hasFVar || p.hasMVar then
    evalTactic (← `(tactic| decide +kernel))
    return
  closeMainGoalUsing `kdecide fun _ _ => do
    let s ← synthInstance (mkApp (mkConst ``Decidable) p)
    let pf := mkApp3 (mkConst ``of_decide_eq_true) p s (mkApp2 (mkConst ``Eq.refl [1]) (mkConst ``Bool) (mkConst ``Bool.true))
    let levels := (collectLevelParams {} p).params.toList
    let n ← mkAuxLemma levels p pf
    return mkConst n (levels.map mkLevelParam)
'''

def quick(s):
    return 'import Verif.KDecide\n' + s.replace('decide +kernel', 'kdecide') if 'decide +kernel' in s else s

def reset(scratch, skip=()):
    t = os.path.join(scratch, 'Verif/KDecide.lean')
    if not os.path.exists(t):
        open(t, 'w').write(KDECIDE)
    for f in glob.glob(SRC + '/**/*.lean', recursive=True):
        rel = os.path.relpath(f, SRC)
        if rel.startswith('.lake') or rel.startswith('Verif/Tests'):
            continue
        t = os.path.join(scratch, rel)
        s = re.sub(r'(?m)^import Verif\.Tests\..*\n', '', quick(open(f).read()))
        if not os.path.exists(t) or open(t).read() != s:
            os.makedirs(os.path.dirname(t), exist_ok=True)
            open(t, 'w').write(s)

def block(lines, i):
    """the declaration that line i (0-based) is in: kind, name, start, end"""
    if lines[i].startswith('/--'):
        while i < len(lines) - 1 and not DECL.match(lines[i]):
            i += 1
    k = i
    while k >= 0 and not DECL.match(lines[k]):
        k -= 1
    if k < 0:
        return None
    m = DECL.match(lines[k])
    e = k + 1
    while e < len(lines) and not TOP.match(lines[e]):
        e += 1
    return m.group(1), m.group(2), k, e

def drop(lines, k, e):
    """blank out a declaration and the doc comment before it; the number of lines may only change at or after k"""
    lines[k:e] = ['']
    j = k - 1
    while j >= 0 and lines[j].strip() == '':
        j -= 1
    if j >= 0 and lines[j].rstrip().endswith('-/'):
        t = j
        while not lines[t].startswith('/-'):
            t -= 1
        if lines[t].startswith('/--'):
            lines[t:j + 1] = [''] * (j + 1 - t)

def cut(text):
    """position of the := at depth 0"""
    d = 0
    for j, c in enumerate(text):
        if c in '([{⟨':
            d += 1
        elif c in ')]}⟩':
            d -= 1
        elif c == ':' and text[j:j + 2] == ':=' and d == 0:
            return j
    return None

def namespace_of(lines, k):
    st = []
    for l in lines[:k]:
        m = re.match(r'^namespace (\S+)', l)
        if m:
            st.append(m.group(1))
        m = re.match(r'^(section|mutual)\b', l)
        if m:
            st.append(None)
        if re.match(r'^end( \S+)?\s*$', l) and st:
            st.pop()
    return '.'.join(x for x in st if x)

LIMIT = 'echo 1000 > /proc/self/oom_score_adj; nice '

def culprit(scratch, f):
    """the line of the first declaration with which lean is killed (a concrete computation that runs out of memory)"""
    path = os.path.join(scratch, f)
    lines = open(path).read().split('\n')
    starts = [i for i, l in enumerate(lines) if DECL.match(l)]
    def dies(n):
        t = os.path.join(scratch, 'Prefix.lean')
        open(t, 'w').write('\n'.join(lines[:block(lines, starts[n])[3]]) + '\n')
        r = subprocess.run(['bash', '-c', LIMIT + 'timeout 600 lake env lean Prefix.lean'], cwd=scratch, capture_output=True, text=True)
        os.remove(t)
        return r.returncode not in (0, 1)
    lo, hi = 0, len(starts) - 1
    if not dies(hi):
        return None
    while lo < hi:
        mid = (lo + hi) // 2
        if dies(mid):
            hi = mid
        else:
            lo = mid + 1
    return starts[lo]

def run(mut, scratch):
    reset(scratch)
    p = os.path.join(scratch, mut['file'])
    s = open(p).read()
    if s.count(mut['old']) != 1:
        return {'error': 'old text found %d times' % s.count(mut['old'])}
    open(p, 'w').write(s.replace(mut['old'], mut['new']))
    for f, old, new in mut.get('also', []):
        p = os.path.join(scratch, f)
        s = open(p).read()
        if s.count(old) != 1:
            return {'error': 'also: old text found %d times' % s.count(old)}
        open(p, 'w').write(s.replace(old, new))
    failed, removed, sorried = [], [], set()
    for rnd in range(30):
        r = subprocess.run(['bash', '-c', LIMIT + 'lake build'], cwd=scratch, capture_output=True, text=True)
        out = r.stdout + r.stderr
        errs = set(re.findall(r'error: (Verif/\S+?\.lean):(\d+):\d+:', out))
        if r.returncode == 0:
            break
        if not errs:
            for f in re.findall(r'lean (?:\S*/)?(Verif/\S+?\.lean) -o', out):
                l = culprit(scratch, f)
                if l is not None:
                    errs.add((f, str(l + 1)))
        if not errs:
            return {'error': 'build failed: ' + out[-500:]}
        byfile = {}
        for f, l in errs:
            byfile.setdefault(f, set()).add(int(l) - 1)
        for f, ls in byfile.items():
            path = os.path.join(scratch, f)
            lines = open(path).read().split('\n')
            blocks = {}
            for l in ls:
                b = block(lines, min(l, len(lines) - 1))
                if b is None:
                    return {'error': 'no declaration at %s:%d' % (f, l + 1)}
                blocks[b[2]] = b
            for kind, name, k, e in sorted(blocks.values(), key=lambda b: -b[2]):
                ns = namespace_of(lines, k)
                full = (ns + '.' if ns else '') + name
                if kind == 'example':
                    failed.append('example in %s' % f)
                    drop(lines, k, e)
                elif kind in ('theorem', 'lemma'):
                    text = '\n'.join(lines[k:e])
                    if (f, full) in sorried:
                        removed.append(full)
                        drop(lines, k, e)
                        continue
                    c = cut(text)
                    if c is None:
                        m = re.search(r'\n  \| ', text)
                        c = m.start() if m else None
                    if c is None:
                        return {'error': 'cannot cut %s' % full}
                    sorried.add((f, full))
                    failed.append(full)
                    new = (text[:c] + ':= by sorry\n').split('\n')
                    lines[k:e] = new
                else:
                    if f == mut['file'] or '/Model/' in f or '/Std/' in f or '/Spec/' in f:
                        return {'error': 'definition %s in %s: %s' % (full, f, out[-600:])}
                    failed.append(full)
                    drop(lines, k, e)
            open(path, 'w').write('\n'.join(lines))
    else:
        return {'error': 'too many rounds', 'failed': failed}
    names = []
    for f in sorted(glob.glob(SRC + '/Verif/Props/*.lean')):
        lines = open(f).read().split('\n')
        for i, l in enumerate(lines):
            m = re.match(r'^theorem (C\d\d_\S+)', l)
            if m:
                ns = namespace_of(lines, i)
                names.append((ns + '.' if ns else '') + m.group(1))
    chk = os.path.join(scratch, 'Chk.lean')
    open(chk, 'w').write('import Verif\n' + '\n'.join('#print axioms ' + n for n in names) + '\n')
    r = subprocess.run(['nice', 'lake', 'env', 'lean', 'Chk.lean'], cwd=scratch, capture_output=True, text=True)
    os.remove(chk)
    out = r.stdout + r.stderr
    broken = []
    for n in names:
        m = re.search(r"'%s' (depends on axioms: \[[^\]]*\]|does not depend)" % re.escape(n), out)
        if m is None or 'sorryAx' in m.group(1):
            broken.append(n)
    strip = lambda n: n[len('Verif.'):] if n.startswith('Verif.') else n
    return {'failed': [strip(x) for x in failed], 'removed': [strip(x) for x in removed], 'broken': [strip(x) for x in broken], 'total': len(names)}

if __name__ == '__main__':
    scratch = sys.argv[1]
    for line in sys.stdin:
        mut = json.loads(line)
        t = time.time()
        res = run(mut, scratch)
        res['secs'] = round(time.time() - t)
        print(json.dumps({**mut, **res}), flush=True)
