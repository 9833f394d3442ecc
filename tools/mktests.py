"""Write lean/Verif/Tests/{Line,Headers,Body,Message,Request,Response,Server}.lean: the unit tests of the project, as
statements about the model. Usage: mktests.py REPO OUT_DIR. What cannot be translated is listed on standard error; such
tests are translated by hand in lean/Verif/Tests/{ByHand,Endless,Router}.lean."""
import re, sys, os

REPO, OUT = sys.argv[1], sys.argv[2]


# ---- a small part of Rust's expressions -------------------------------------------------------------------------

TOKEN = re.compile(r'''\s+|//[^\n]*|(?P<str>b?"(?:\\.|[^"\\])*")|(?P<num>\d+)|(?P<id>[A-Za-z_]\w*(?:::[A-Za-z_]\w*)*!?)'''
                   r'''|(?P<p>=>|->|\.\.|[-(){}\[\],;:&.=<>|!*?'])''', re.S)


def tokens(src):
    pos, out = 0, []
    while pos < len(src):
        m = TOKEN.match(src, pos)
        if not m:
            raise ValueError('cannot read: ' + src[pos:pos + 30])
        if m.lastgroup:
            out.append((m.lastgroup, m.group(m.lastgroup)))
        pos = m.end()
    return out


def unescape(lit):
    s = lit[lit.index('"') + 1:-1]
    s = re.sub(r'\\\n\s*', '', s)
    def one(m):
        c = m.group(1)
        return {'n': '\n', 'r': '\r', 't': '\t', '\\': '\\', '"': '"', "'": "'", '0': '\0'}[c]
    return re.sub(r'\\(.)', one, s).encode()


class P:
    def __init__(self, toks):
        self.t, self.i = toks, 0

    def peek(self, k=0):
        return self.t[self.i + k] if self.i + k < len(self.t) else (None, None)

    def eat(self, v=None):
        tok = self.peek()
        if v is not None and tok[1] != v:
            raise ValueError(f'expected {v}, found {tok[1]}')
        self.i += 1
        return tok

    def many(self, close):
        out = []
        while self.peek()[1] != close:
            out.append(self.expr())
            if self.peek()[1] == ',':
                self.eat()
            elif self.peek()[1] == ';':        # vec![x; n]
                raise ValueError('repetition')
        self.eat(close)
        return out

    def expr(self):
        e = self.primary()
        while self.peek()[1] == '.':
            self.eat()
            name = self.eat()[1]
            if self.peek()[1] == '(':
                self.eat()
                e = ('method', name, e, self.many(')'))
            else:
                e = ('field', name, e)
        return e

    def primary(self):
        kind, v = self.peek()
        if v == '&':
            self.eat()
            return self.expr()
        if kind == 'str':
            self.eat()
            return ('str', unescape(v))
        if kind == 'num':
            self.eat()
            return ('num', int(v))
        if v == '(':
            self.eat()
            xs = self.many(')')
            return xs[0] if len(xs) == 1 else ('tuple', xs)
        if kind == 'id':
            self.eat()
            nxt = self.peek()[1]
            if v.endswith('!') and nxt in ('[', '('):
                self.eat()
                return ('macro', v[:-1], self.many({'[': ']', '(': ')'}[nxt]))
            if nxt == '(':
                self.eat()
                return ('call', v, self.many(')'))
            if nxt == '{' and v in ('Request', 'Response', 'Status'):
                self.eat()
                fields = {}
                while self.peek()[1] != '}':
                    name = self.eat()[1]
                    self.eat(':')
                    fields[name] = self.expr()
                    if self.peek()[1] == ',':
                        self.eat()
                self.eat('}')
                return ('struct', v, fields)
            return ('path', v)
        raise ValueError(f'unexpected {v}')

    def body(self):
        lets, stmts = [], []
        while self.peek()[0] is not None:
            if self.peek()[1] == 'let':
                self.eat()
                if self.peek()[1] == 'mut':
                    raise ValueError('let mut')
                name = self.eat()[1]
                self.eat('=')
                lets.append((name, self.expr()))
            else:
                stmts.append(self.expr())
            if self.peek()[1] == ';':
                self.eat()
        return lets, stmts


# ---- to Lean ----------------------------------------------------------------------------------------------------

def camel(const):
    parts = const.lower().split('_')
    return parts[0] + ''.join(p.capitalize() for p in parts[1:])


STATUS = {m[0]: (int(m[1]), m[2]) for m in re.findall(r'\((\w+), *(\d+), *"([^"]*)"\)', open(REPO + '/src/common/status.rs').read())}
HEADERS = {m[0]: m[1] for m in re.findall(r'\((\w+), "([^"]*)"\);', open(REPO + '/src/common/header.rs').read().split('#[cfg(test)]')[0])}
IOERR = {'WouldBlock': '.wouldBlock', 'UnexpectedEof': '.unexpectedEof'}


def lit(bs):
    def ch(b):
        c = chr(b)
        return {'\n': '\\n', '\r': '\\r', '\t': '\\t', '\\': '\\\\', '"': '\\"'}.get(c, c)
    if any(b < 9 or b > 126 for b in bs):
        return '[' + ', '.join(str(b) for b in bs) + ']'
    return 'b!"' + ''.join(ch(b) for b in bs) + '"'


def long_lit(bs):
    parts = [bs[i:i + 80] for i in range(0, len(bs), 80)]
    return '[\n  ' + ',\n  '.join(lit(p) for p in parts) + '].flatten'


class Tr:
    def __init__(self, name):
        self.name, self.env, self.defs = name, {}, []

    def bytes(self, e):
        if e[0] == 'str':
            return lit(e[1])
        if e[0] == 'method' and e[1] in ('to_vec', 'to_string', 'as_bytes', 'into', 'as_str', 'to_owned'):
            return self.bytes(e[2])
        if e[0] == 'call' and e[1] in ('String::from', 'String::from_utf8_lossy', 'Vec::from'):
            return self.bytes(e[2][0])
        if e[0] == 'macro' and e[1] == 'vec':
            return '[' + ', '.join(str(x[1]) for x in e[2]) + ']'
        if e[0] == 'path' and e[1] in self.env:
            return self.env[e[1]]
        raise ValueError(f'bytes: {e}')

    def pieces(self, e):
        assert e[0] == 'macro' and e[1] == 'vec', e
        return '[' + ', '.join(self.bytes(x) for x in e[2]) + ']'

    def header(self, e):
        if e[0] == 'path':
            n = e[1].split('::')[-1]
            return f'.standard b!"{HEADERS[n]}"'
        if e[0] == 'str':
            return f'.ofStr {lit(e[1])}'
        if e[0] == 'call' and e[1] == 'Header::Custom':
            return f'.custom {self.bytes(e[2][0])}'
        raise ValueError(f'header: {e}')

    def headers(self, e):
        if e[0] == 'call' and e[1] in ('HeaderMap::new', 'Default::default', 'HashMap::new'):
            return '[]'
        if e[0] == 'macro' and e[1] == 'header_map':
            ps = e[2]
        elif e[0] == 'call' and e[1] == 'HeaderMap::from_pairs':
            ps = e[2][0][2]
        else:
            raise ValueError(f'headers: {e}')
        if not ps:
            return '[]'
        return '.fromPairs [' + ', '.join(f'({self.header(p[1][0])}, {self.bytes(p[1][1])})' for p in ps) + ']'

    def status(self, e):
        assert e[0] == 'path' and e[1].startswith('status::'), e
        code, reason = STATUS[e[1][8:]]
        return f'⟨{code}, b!"{reason}"⟩'

    def request(self, e):
        f = e[2]
        assert e[1] == 'Request' and f['method'][0] == 'path', e
        m = f['method'][1].split('::')[1].lower()
        return f'⟨{self.bytes(f["uri"])}, .{m}, {self.headers(f["headers"])}, {self.bytes(f["body"])}⟩'

    def response(self, e):
        f = e[2]
        return f'⟨{self.status(f["status"])}, {self.headers(f["headers"])}, {self.bytes(f["body"])}⟩'

    def message(self, e):
        a, b, c = e[1]
        return f'({self.bytes(a)}, {self.headers(b)}, {self.bytes(c)})'

    def expect(self, e, value):
        if e[0] == 'call' and e[1] == 'Value':
            v = value(e[2][0])
            return f'.value {v}' if v[0] in 'b[(⟨' and ' ' not in v or v[0] in '(⟨' else f'.value ({v})'
        if e[0] == 'call' and e[1] == 'ParseErr':
            n = e[2][0][1].split('::')[-1]
            return f'.parseErr .{n[0].lower() + n[1:]}'
        if e[0] == 'call' and e[1] == 'IoErr':
            return self.ioerr(e[2][0])
        if e[0] == 'method' and e[1] == 'into':
            return self.ioerr(e[2])
        raise ValueError(f'expect: {e}')

    def ioerr(self, e):
        if e[0] == 'path' and e[1].startswith('ErrorKind::'):
            return '.ioErr ' + IOERR[e[1][11:]]
        if e[0] == 'call' and e[1] == 'Error::from':
            return self.ioerr(e[2][0])
        if e[0] == 'call' and e[1] == 'Error::new':
            assert e[2][0] == ('path', 'ErrorKind::Other') and e[2][1] == ('str', b'read limit reached'), e
            return '.ioErr .limitReached'
        raise ValueError(f'ioerr: {e}')

    def steps(self, e, value):
        rows = [f'({self.pieces(x[1][0])}, {self.expect(x[1][1], value)})' for x in e[2]]
        return '[\n    ' + ',\n    '.join(rows) + ']'

    def requests(self, e):
        return '[' + ', '.join(self.request(x) for x in e[2]) + ']'

    def bool(self, e):
        return {'true': 'true', 'false': 'false'}[e[1]]


def calls(kind, t, e):
    assert e[0] == 'call', e
    f, a = e[1], e[2]
    if kind == 'Line' and f == 'test':
        return f'line {t.steps(a[0], t.bytes)}'
    if kind == 'Headers' and f == 'test_read':
        return f'headers {t.steps(a[0], t.headers)}'
    if kind == 'Body':
        if f == 'test_sized':
            return f'sized {a[0][1]} {t.steps(a[1], t.bytes)}'
        if f == 'test_until_eof':
            return f'untilEof {t.steps(a[0], t.bytes)}'
        if f == 'test_chunked':
            return f'chunked {t.steps(a[0], t.bytes)}'
    if kind == 'Message':
        if f == 'test_with_eof':
            return f'messageEof {t.pieces(a[0])} {t.bool(a[1])}\n    ({t.expect(a[2], t.message)})'
        if f == 'test_endless':
            return f'messageEndless {t.pieces(a[0])} {t.bytes(a[1])} {t.bool(a[2])}\n    ({t.expect(a[3], t.message)})'
        if f == 'test_blocking':
            return f'messageBlocking {t.bool(a[0])} {t.steps(a[1], t.message)}'
    if kind == 'Request' and f == 'test_with_eof':
        return f'requestEof {t.pieces(a[0])}\n    ({t.expect(a[1], t.request)})'
    if kind == 'Response' and f == 'test_with_eof':
        return f'responseEof {t.pieces(a[0])}\n    ({t.expect(a[1], t.response)})'
    if kind == 'Server':
        if f == 'test_respond_to_requests':
            assert not a[1][2]
            return f'respond {t.pieces(a[0])} [] {t.requests(a[2])} {t.bytes(a[3])}'
        if f == 'test_respond_to_requests_no_bad':
            return f'respondNoBad {t.pieces(a[0])}\n    {t.requests(a[1])}'
        if f == 'test_respond_to_requests_with_last_response':
            return f'respondLast {t.pieces(a[0])} {t.requests(a[1])}\n    {t.bytes(a[2])}'
    raise ValueError(f'call of {f}')


# Too large for the kernel to run: bodies of 3 MiB. These are proved in ByHand.lean.
LARGE = {('Message', 'endless_body')}

FILES = [('Line', 'parse/crlf_line.rs'), ('Headers', 'parse/headers.rs'), ('Body', 'parse/body.rs'),
         ('Message', 'parse/message.rs'), ('Request', 'parse/request.rs'), ('Response', 'parse/response.rs'),
         ('Server', 'server/server.rs')]

for kind, path in FILES:
    src = open(f'{REPO}/src/{path}').read()
    out, done = [], 0
    for m in re.finditer(r'#\[test\]\n    fn (\w+)\(\) \{\n(.*?)\n    \}\n', src, re.S):
        name, text = m.group(1), m.group(2)
        first = src.count('\n', 0, m.start()) + 1
        last = src.count('\n', 0, m.end())
        try:
            if (kind, name) in LARGE:
                raise ValueError('too large to run')
            lets, stmts = P(tokens(text)).body()
            t = Tr(name)
            defs = []
            for x, e in lets:
                if e[0] == 'str' and len(e[1]) > 60:
                    d = f'{name}_{x}'
                    defs.append(f'/-- `{x}` of the next test. -/\ndef {d} : Bytes := {long_lit(e[1])}\n')
                    t.env[x] = d
                else:
                    t.env[x] = t.bytes(e)
            claims = [calls(kind, t, e) for e in stmts]
            if not claims:
                raise ValueError('no call')
        except (ValueError, KeyError, AssertionError, TypeError, IndexError) as err:
            print(f'{path}: {name}: {str(err)[:90]}', file=sys.stderr)
            continue
        done += 1
        out += defs
        doc = f'/-- {path.split("/")[-1]} {first}-{last}. -/\n'
        if len(claims) == 1:
            out.append(f'{doc}theorem {name} : {claims[0]} := by decide +kernel\n')
        else:
            body = ' ∧\n    '.join(claims)
            out.append(f'{doc}theorem {name} :\n    {body} := by decide +kernel\n')
    with open(f'{OUT}/{kind}.lean', 'w') as f:
        f.write(f'import Verif.Tests.Harness\n\n/-!\nThe unit tests of `src/{path}`, written by `tools/mktests.py`.\n-/\n\n'
                f'namespace Verif.Tests.{kind}\n\n' + '\n'.join(out) + f'\nend Verif.Tests.{kind}\n')
    print(f'{path}: {done} of {len(re.findall(r"#.test.", src))}', file=sys.stderr)
