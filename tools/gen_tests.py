#!/usr/bin/env python3
"""Translates the unit tests of /repo into Lean.

* lean/Verif/Tests/Go.lean: the tests of package ast and astutil, and the short ones of the parser, as `example`s that
  the kernel checks;
* tools/go_tests.txt: all tests of the parser, run by tools/conformance.src.

These are tests of the model, not proofs of properties."""
import json, glob, os
ROOT = os.path.dirname(os.path.dirname(os.path.abspath(__file__)))
REPO = '/repo/'

def toks(s):
    i = 0; out = []
    while i < len(s):
        c = s[i]
        if c == '`':
            j = s.index('`', i + 1); out.append(('str', s[i+1:j].replace('\r', ''))); i = j + 1
        elif c == '"':
            j = i + 1
            while s[j] != '"': j += 2 if s[j] == '\\' else 1
            out.append(('str', json.loads(s[i:j+1]))); i = j + 1
        elif c == "'":
            j = i + 1
            while s[j] != "'": j += 2 if s[j] == '\\' else 1
            out.append(('chr', s[i:j+1])); i = j + 1
        elif s.startswith('//', i): i = s.index('\n', i)
        elif c.isalnum() or c == '_':
            j = i
            while s[j].isalnum() or s[j] in '_.': j += 1
            out.append(('id', s[i:j])); i = j
        elif c.isspace(): i += 1
        else: out.append(('p', c)); i += 1
    return out

def read(f): return open(REPO + f, newline='').read()
def func(name, src):
    i = src.index('func ' + name + '('); j = src.find('\nfunc ', i + 1)
    return src[i:j if j > 0 else None]

class P:
    """Composite literals and calls: values are ('str',s), ('id',x), ('call',f,args), ('lit',T,[(key,val)])."""
    def __init__(self, t): self.t = t; self.i = 0
    def peek(self): return self.t[self.i]
    def next(self): self.i += 1; return self.t[self.i - 1]
    def val(self):
        v = self.atom()
        while self.peek() == ('p', '+'):
            self.next(); w = self.atom(); v = ('str', v[1] + w[1])
        return v
    def atom(self):
        k, x = self.peek()
        if k == 'str': self.next(); return ('str', x)
        if k == 'chr': self.next(); return ('chr', x)
        if (k, x) == ('p', '{'): return ('lit', '', self.body())
        if (k, x) == ('p', '['):
            self.next(); assert self.next() == ('p', ']'); return self.atom()
        if k == 'id':
            self.next()
            if x == 'map':
                assert self.next() == ('p', '['); self.next(); assert self.next() == ('p', ']'); return self.atom()
            if self.peek() == ('p', '('):
                self.next(); args = []
                while self.peek() != ('p', ')'):
                    args.append(self.val())
                    if self.peek() == ('p', ','): self.next()
                self.next(); return ('call', x, args)
            if self.peek() == ('p', '{'): return ('lit', x, self.body())
            return ('id', x)
        raise Exception((k, x, self.t[self.i-5:self.i+5]))
    def body(self):
        self.next(); out = []
        while self.peek() != ('p', '}'):
            v = self.val(); key = None
            if self.peek() == ('p', ':'): self.next(); key = v; v = self.val()
            if self.peek() == ('p', ','): self.next()
            out.append((key, v))
        self.next(); return out

def table(name, f, var=None):
    """The list of test cases of a test function, as dictionaries."""
    src = read(f); s = func(name, src) if var is None else src[src.index(var):]
    t = toks(s); i = 0
    # skip to the struct type, then to the literal behind it
    while t[i] != ('id', 'struct'): i += 1
    d = 0; i += 1
    while True:
        if t[i] == ('p', '{'): d += 1
        if t[i] == ('p', '}'):
            d -= 1
            if d == 0: break
        i += 1
    p = P(t); p.i = i + 1
    return [{k[1]: v for k, v in c[1][2] if k} if True else None for c in [(0, ('lit', '', b[2])) for _, b in p.body()] for c in [(None, c[1])]]

def B(s):
    out = ''
    for ch in s:
        if ch == '\n': out += '\\n'
        elif ch == '\t': out += '\\t'
        elif ch == '\r': out += '\\r'
        elif ch in '"\\': out += '\\' + ch
        else: out += ch
    return '[]' if s == '' else 'b!"' + out + '"'

OPS = dict(NoOperator='.noOp', And='.and', Or='.or', Nand='.nand', Xor='.xor', Equal='.eq', NotEqual='.ne', LessOrEqual='.le',
  GreaterOrEqual='.ge', LessThan='.lt', GreaterThan='.gt', RegexpMatch='.match', RegexpNotMatch='.notMatch',
  DoubleQuoted='.doubleQuoted', SingleQuoted='.singleQuoted', Bareword='.bareword', Input='.input', Filter='.filter', Output='.output')
def num(x): return '(((parseFloat %s).getD default))' % B(x)
def lst(f, xs): return '[' + ', '.join(f(x) for x in xs) + ']'
def plug(v): return '(New.plugin %s %s)' % (B(v[2][0][1]), lst(attr, v[2][1:]))
def strA(v): return '(New.stringAttribute %s %s %s)' % (B(v[2][0][1]), B(v[2][1][1]), OPS[v[2][2][1].split('.')[-1]])
def numA(v): return '(New.numberAttribute %s %s)' % (B(v[2][0][1]), num(v[2][1][1]))
def name(v): return v[1].split('.')[-1]
def attr(v):
    if v == ('id', 'nil'): return '.nil'
    n = name(v)
    if n == 'NewStringAttribute': return '(.str %s)' % strA(v)
    if n == 'NewNumberAttribute': return '(.num %s)' % numA(v)
    if n == 'NewArrayAttribute': return '(New.arrayAttribute %s %s)' % (B(v[2][0][1]), lst(attr, v[2][1:]))
    if n == 'NewHashAttribute': return '(New.hashAttribute %s %s)' % (B(v[2][0][1]), lst(entry, v[2][1:]))
    if n == 'NewPluginAttribute': return '(New.pluginAttribute %s %s)' % (B(v[2][0][1]), plug(v[2][1]))
    raise Exception(v)
def entry(v): return '(New.hashEntry %s %s)' % (attr(v[2][0]), attr(v[2][1]))
def rval(v):
    if v == ('id', 'nil'): return '.nil'
    n = name(v)
    if n == 'NewStringAttribute': return '(.str %s)' % strA(v)
    if n == 'NewNumberAttribute': return '(.num %s)' % numA(v)
    if n == 'NewSelectorFromNames': return '(.sel %s)' % sel(v)
    if n == 'NewRegexp': return '(.re (New.regexp %s))' % B(v[2][0][1])
    if n == 'NewArrayAttribute': return '(New.arrayRvalue %s %s)' % (B(v[2][0][1]), lst(attr, v[2][1:]))
    raise Exception(v)
def sel(v): return '(New.selectorFromNames %s)' % lst(lambda x: B(x[1]), v[2])
def op(v): return '⟨%s, Pos.zero⟩' % OPS[v[2][0][1][1].split('.')[-1]]
def expr(v):
    if v == ('id', 'nil'): return '.nil'
    n = name(v); a = v[2]
    f = n[3].lower() + n[4:]
    if n in ('NewConditionExpression', 'NewNegativeConditionExpression'): return '(New.%s %s %s)' % (f, op(a[0]), cond(a[1]))
    if n == 'NewNegativeSelectorExpression': return '(New.%s %s %s)' % (f, op(a[0]), sel(a[1]))
    if n in ('NewInExpression', 'NewNotInExpression'): return '(New.%s %s %s %s)' % (f, op(a[0]), rval(a[1]), rval(a[2]))
    if n == 'NewRvalueExpression': return '(New.%s %s %s)' % (f, op(a[0]), rval(a[1]))
    if n in ('NewCompareExpression', 'NewRegexpExpression'): return '(New.%s %s %s %s %s)' % (f, op(a[0]), rval(a[1]), op(a[2]), rval(a[3]))
    raise Exception(v)
def cond(v): return '(New.condition %s)' % lst(expr, v[2])
def bop(v):
    if v == ('id', 'nil'): return '.nil'
    n = name(v); a = v[2]
    if n == 'NewPlugin': return '(.plugin %s)' % plug(v)
    if n == 'NewBranch':
        return '(New.branch (New.ifBlock %s %s) (New.elseBlock %s) %s)' % (cond(a[0][2][0]), lst(bop, a[0][2][1:]), lst(bop, a[1][2]),
          lst(lambda e: '(New.elseIfBlock %s %s)' % (cond(e[2][0]), lst(bop, e[2][1:])), a[2:]))
    raise Exception(v)
def sections(v):
    if v == ('id', 'nil'): return '[]'
    return '(New.pluginSections %s %s)' % (OPS[v[2][0][1]], lst(bop, v[2][1:]))
def config(v):
    if v[0] == 'lit': return '(New.config [] [] [])'
    return '(New.config %s)' % ' '.join(sections(a) for a in v[2])

L = []
def ex(src, n, stmt, proof='by decide +kernel'):
    L.append('/-- %s: %s -/\nexample : %s := %s\n' % (src, n.replace('-/', '- /'), stmt, proof))

for c in table('TestAst', 'ast/ast_test.go'):
    ex('TestAst', c['name'][1], '(%s : Config).str = %s' % (config(c['config']), B(c['expected'][1])))
for c in table('TestPluginID', 'ast/ast_test.go'):
    w = c['wantID'][1]
    if c.get('wantErr') == ('id', 'true'): s = 'match (%s : Plugin).id with | .id _ => false | _ => true' % plug(c['plugin']); ex('TestPluginID', c['name'][1], '(%s) = true' % s)
    else: ex('TestPluginID', c['name'][1], '(%s : Plugin).id = .id %s' % (plug(c['plugin']), B(w)))
for c in table('TestPrefix', 'ast/ast_helper_test.go'):
    ex('TestPrefix', c['name'][1], 'prefixS %s %s = %s' % (B(c.get('input', ('str', ''))[1]), c.get('emptyNewline', ('id', 'false'))[1], B(c.get('want', ('str', ''))[1])))
for c in table('TestQuote', 'ast/astutil/quote_test.go'):
    err = {k[1].split('.')[-1]: v[1] == 'true' for k, v in c['wantErr'][2]}
    for k, v in c['want'][2]:
        s = k[1].split('.')[-1]
        ex('TestQuote', c['name'][1] + ', ' + s, 'quote %s %s = %s' % (B(c['in'][1]), OPS[s], '.err' if err[s] else '.ok ' + B(v[1])))
for c in table('TestQuoteWithEscape', 'ast/astutil/quote_test.go'):
    for k, v in c['wantEscaped'][2]:
        s = k[1].split('.')[-1]
        ex('TestQuoteWithEscape', c['name'][1] + ', ' + s, 'quoteWithEscape %s %s = some %s' % (B(c['in'][1]), OPS[s], B(v[1])))
for c in table(None, 'ast/astutil/escape_test.go', 'var tt'):
    ex('TestEscape', c['name'][1], 'escape %s = %s' % (B(c['unescaped'][1]), B(c['escaped'][1])))
    ex('TestUnescape', c['name'][1], 'unescape %s = %s' % (B(c['escaped'][1]), B(c['unescaped'][1])))
for c in table('TestEscapeQuotes', 'ast/astutil/quote_internal_test.go'):
    ex('TestEscapeQuotes', c['name'][1], 'escapeQuotes %s 34 = %s' % (B(c['name'][1]), B(c['wantDouble'][1])))
    ex('TestEscapeQuotes', c['name'][1], 'escapeQuotes %s 39 = %s' % (B(c['name'][1]), B(c['wantSingle'][1])))
for c in table('TestEscapeBareword', 'ast/astutil/quote_internal_test.go'):
    ex('TestEscapeBareword', c['name'][1], 'escapeBareword %s = %s' % (B(c['name'][1]), B(c['want'][1])))

SHORT = 48
T = []
def big(k, n, i, e): T.append('\t'.join([k, n.replace('\t', ' '), i.encode().hex() or '-', e.encode().hex() or '-']))
F = 'logstash_config_test.go'
for f in ('TestParserIdentic', 'TestParser'):
    for c in table(f, F):
        i = c['input'][1]; e = c['expected'][1] if 'expected' in c else i
        big('print', c['name'][1], i, e)
        if len(i) <= SHORT: ex(f, c['name'][1], 'prints %s %s = true' % (B(i), B(e)))
for c in table('TestParseErrors', F):
    i = c['input'][1]; e = c['expectedError'][1]
    big('error', c['name'][1], i, e)
    if len(i) <= SHORT: ex('TestParseErrors', c['name'][1], 'rejects %s %s = true' % (B(i), B(e)))
for f in sorted(glob.glob(REPO + 'testdata/identic/*.conf')):
    s = read(f[len(REPO):]); big('print', os.path.basename(f), s, s)
big('print', 'TestParserFile', read('testdata/parser/comments_everywhere.conf'), read('testdata/parser/comments_everywhere.expected.conf'))
big('ignore', 'TestParseIgnoreComments', read('testdata/ignore_comments/comments_everywhere.conf'), read('testdata/ignore_comments/comments_everywhere.expected.conf'))
s = read('testdata/exceptional_comments/comments_everywhere.conf'); big('warn', 'TestParseExceptionalComments', s, str(s.count('exceptional_comment')))
for c in table('TestPos', 'logstash_config_pos_test.go'):
    types = ' '.join(sorted(k[2][0][1].split('.')[-1] for k, v in c['recordForTypes'][2]))
    want = ' '.join('%s:%s:%s' % tuple(dict((a[1], b[1]) for a, b in v[2])[x] for x in ('Line', 'Column', 'Offset')) for _, v in c['want'][2])
    T.append('\t'.join(['pos', c['name'][1], c['input'][1].encode().hex(), types, want]))

open(ROOT + '/tools/go_tests.txt', 'w').write('\n'.join(T) + '\n')
open(ROOT + '/lean/Verif/Tests/Go.lean', 'w').write('''import Verif.Model.Construct
import Verif.Model.Print
import Verif.Model.AstUtil
import Verif.Model.Parse
import Verif.Model.Errors
/-
Generated by tools/gen_tests.py from the unit tests of the project.  These are tests of the model, not proofs.
-/
namespace Verif.Tests
open Verif

/-- `Parse` accepts `i`, and the result prints as `e`. -/
def prints (i e : Bytes) : Bool :=
  match (parse {} [] i []).1 with
  | .done (.config c) [] => c.str == e
  | _ => false

/-- Does `e` occur in `m`? -/
def occurs (e m : Bytes) : Bool := (List.range (m.length + 1)).any fun k => e.isPrefixOf (m.drop k)

/-- `Parse` rejects `i`, and `GetFarthestFailure`, or else the error, contains `e`. -/
def rejects (i e : Bytes) : Bool :=
  let r := parse {} [] i []
  match r.1 with
  | .done _ es =>
    let m := getFarthestFailure r.2
    !es.isEmpty && occurs e (if m.2 then m.1 else es.flatMap PErr.msg)
  | _ => false

''' + '\n'.join(L) + '\nend Verif.Tests\n')
print(len(L), 'examples', len(T), 'lines')
