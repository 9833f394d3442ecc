#!/usr/bin/env python3
"""Wrong programs made mechanically: small edits at every place of the model, in a scratch copy, to find edits that no theorem notices.

usage: automut.py SCRATCH OUT [FILE…]

SCRATCH is a built copy of /verif/lean without Verif/Tests. Each edit is built until the first error outside of Verif/Model and
Verif/Std; OUT gets a JSON line for each edit: file, line, old, new and verdict (`killed`, with the file where; `invalid`, if the model itself no longer
compiles; `survived`). An edit that survives is either the same program, or shows that a claim is missing. Edits that are already in OUT are left out.
"""
import json, os, re, shutil, signal, subprocess, sys

import seed

SRC = '/verif/lean'
OPS = [
    (r' < ', [' ≤ ']), (r' ≤ ', [' < ']), (r' > ', [' ≥ ']), (r' ≥ ', [' > ']),
    (r' = (?!>)', [' ≠ ']), (r' ≠ ', [' = ']), (r' == ', [' != ']), (r' != ', [' == ']),
    (r' && ', [' || ']), (r' \|\| ', [' && ']), (r' ∧ ', [' ∨ ']), (r' ∨ ', [' ∧ ']),
    (r'\btrue\b', ['false']), (r'\bfalse\b', ['true']),
    (r' \+ 1\b', ['', ' + 2']), (r' - 1\b', ['']),
    (r'(?<=[ (])\d+\b(?! \+)', None),
    (r'\.drop\b', ['.take']), (r'\.take\b', ['.drop']),
    (r'\.keep\b', ['.drop']), (r'(?<=[( ])\.drop(?=,)', ['.keep']),
    (r'\.reading\b', ['.leaving']),
    (r'\.leaving\b', ['.reading']),
    (r'\.wouldBlock\b', ['.other']), (r'\.unexpectedEof\b', ['.other', '.wouldBlock']), (r'\.connectionAborted\b', ['.other']), (r'\.interrupted\b', ['.other']), (r'\.invalidData\b', ['.other']),
    (r'\.isEmpty\b', ['.isEmpty.not']), (r'\.isSome\b', ['.isNone']), (r'\.isNone\b', ['.isSome']),
    (r'\.perr \.\w+', ['.perr .invalidUtf8']),
    (r'\.error \.\w+', ['.error .invalidUtf8']),
    (r'\bnone\b', []),
    (r' \+\+ (?:[\w.]+|\[[^\[\]]*\])', ['']), (r'(?:[\w.]+|\[[^\[\]]*\]) \+\+ ', ['']),
    (r'\bsome (?:[\w.]+|\([^()]*\))', ['none']),
    (r'\.live\b', ['.gone']), (r'\.gone\b', ['.live']), (r'\.poisoned\b', ['.gone']),
    (r'\.set \w+ \([^()]*\)', ['']),
    (r'(?<=, )s\b', []),
    (r'\.tail\b', ['']), (r'\.filter\b', []),
    (r'\.length\b', ['.length.pred']),
    (r'\.getD \(?\d+\)?', []),
    (r' :: \w+', []),
    (r'\.any\b', ['.all']), (r'\.all\b', ['.any']),
    (r'\.head\?', ['.getLast?']),
    (r'\.reverse\b', ['']),
    (r'\.ok \(\)', []),
    (r'\{ (\w+) with [^{}]*\}', 'record'),
    (r'if (.*?) then (.*?) else (.*)$', 'branches'),
]

def code_lines(path):
    """the numbers of the lines of definitions: no comments, no signatures, no types"""
    lines = open(path).read().split('\n')
    inc = False
    out = []
    indef = False
    for i, l in enumerate(lines):
        if l.startswith('/-'):
            inc = True
        if inc:
            if '-/' in l:
                inc = False
            continue
        if re.match(r'(def|abbrev|instance|@\[\w+\] def)', l):
            indef = True
        elif l and not l[0].isspace():
            indef = False
        if indef and not re.match(r'\s*(deriving|termination_by|decreasing_by)', l):
            out.append(i)
    return lines, out

def edits(path):
    lines, nums = code_lines(path)
    for i in nums:
        l = lines[i]
        start = 0
        if re.match(r'(def|abbrev|instance)', l):
            k = l.find(':=')
            if k < 0:
                continue
            start = k + 2
        elif l.lstrip().startswith('|'):
            start = l.find('=>') + 2 if '=>' in l else len(l)
        for pat, news in OPS:
            for m in re.finditer(pat, l):
                if m.start() < start:
                    continue
                if news is None:
                    v = int(m.group(0))
                    rs = [str(v + 1)] + ([str(v - 1)] if v > 0 else [])
                elif news == 'record':
                    rs = [m.group(1)]
                elif news == 'branches':
                    rs = [m.group(2), m.group(3)]
                else:
                    rs = news
                for r in rs:
                    n = l[:m.start()] + r + l[m.end():]
                    if n != l:
                        yield i, l, n

def build(scratch):
    p = subprocess.Popen(['nice', '-n', '10', 'lake', 'build'], cwd=scratch, stdout=subprocess.PIPE, stderr=subprocess.STDOUT, text=True, start_new_session=True, env=dict(os.environ, LEAN_NUM_THREADS='2'))
    verdict = ('survived', '')
    for line in p.stdout:
        m = re.match(r'error: (Verif/\S+?\.lean|\./\S+\.lean):(\d+)', line)
        if m:
            f = m.group(1)
            verdict = ('invalid', f) if '/Model/' in f or '/Std/' in f else ('killed', '%s:%s' % (f, m.group(2)))
            os.killpg(p.pid, signal.SIGKILL)
            break
        if line.startswith('error'):
            verdict = ('failed', line.strip()) if verdict[0] == 'survived' else verdict
    p.wait()
    return verdict

def main():
    scratch, out = sys.argv[1:3]
    files = sys.argv[3:] or ['Parse', 'Server', 'Writer', 'Net', 'Client', 'ThreadPool', 'ClientPool', 'ClientPoolAny', 'Slab', 'Router', 'Header', 'Message', 'Shared', 'NetAny', 'BufStream', 'Tls', 'ClientAny', 'ClientNew', 'Lifecycle', 'AcceptLoop', 'FileServer', 'TestServer']
    done = set()
    if os.path.exists(out):
        for l in open(out):
            d = json.loads(l)
            done.add((d['file'], d['old'], d['new']))
    seed.reset(scratch)
    subprocess.run(['lake', 'build'], cwd=scratch, check=True, capture_output=True)
    build_dir = os.path.join(scratch, '.lake/build')
    keep = scratch.rstrip('/') + '-build'
    shutil.rmtree(keep, ignore_errors=True)
    shutil.copytree(build_dir, keep)
    for f in files:
        shutil.rmtree(build_dir)
        subprocess.run(['cp', '-a', keep, build_dir], check=True)
        rel = 'Verif/Model/%s.lean' % f
        src = os.path.join(SRC, rel)
        text = open(src).read()
        assert seed.quick(text) == text
        for i, old, new in edits(src):
            key = (rel, old, new)
            if key in done:
                continue
            done.add(key)
            ls = text.split('\n')
            ls[i] = new
            open(os.path.join(scratch, rel), 'w').write('\n'.join(ls))
            v, where = build(scratch)
            with open(out, 'a') as o:
                o.write(json.dumps(dict(file=rel, line=i + 1, old=old, new=new, verdict=v, where=where), ensure_ascii=False) + '\n')
        open(os.path.join(scratch, rel), 'w').write(text)

if __name__ == '__main__':
    main()
