#!/usr/bin/env python3
"""Transcribe `var g = &grammar{...}` of /repo/logstash_config.go (lines 22-8060)
and the `onX`/`callonX` methods it refers to into Lean.  Output:
/verif/lean/Verif/Model/GrammarGo.lean.  Re-run to regenerate."""
import re, sys, ast
sys.path.insert(0, '/verif/tools')
from parse_go import g, calls, binds

def gostr(tok):
    assert tok[0] == '"'
    return ast.literal_eval(tok)
def gochr(tok):
    return ord(ast.literal_eval(tok))
def lb(s):   # Lean bytes literal
    return 'b!"' + s.replace('\\', '\\\\').replace('"', '\\"').replace('\n', '\\n').replace('\r', '\\r').replace('\t', '\\t') + '"'

LBL = {'str': 'str'}
def lbl(x): return '.' + x

def act(fn):
    key = fn[4:]
    params, ret, body = calls[key]
    b = binds[key]
    # the wrapper must pass stack[label] for each parameter, in order
    ps = [p.strip() for p in params.replace(' interface{}', '').split(',')] if params else []
    bs = re.findall(r'stack\["(\w+)"\]', b)
    assert ps == bs, (key, ps, bs)
    m = re.fullmatch(r'return ast\.(Input|Filter|Output), nil', body)
    if m: return '(.ptype .%s)' % m.group(1).lower()
    if body == 'return ast.NewConfig(nil, nil, nil), nil': return '.newConfig'
    m = re.fullmatch(r'return c\.string\(ast\.(DoubleQuoted|SingleQuoted|Bareword)\)', body)
    if m: return '(.string .%s)' % (m.group(1)[0].lower() + m.group(1)[1:])
    m = re.fullmatch(r'return c\.(\w+)\(([^)"]*)\)', body)
    assert m, body
    args = [a.strip() for a in m.group(2).split(',')] if m.group(2) else []
    out = []
    for a in args:
        if a in ('true', 'false'): out.append(a)
        else:
            assert a in ps, (body, ps)
            out.append(lbl(a))
    if not out: return '.' + m.group(1)
    return '(.%s %s)' % (m.group(1), ' '.join(out))

def code(fn):
    params, ret, body = calls[fn[4:]]
    m = re.fullmatch(r'return c\.(pushError|fatalError)\((".*")\)', body)
    if m: return '(.%s %s)' % (m.group(1), lb(gostr(m.group(2))))
    assert body == 'return c.initParser()'
    return '.initParser'

def stcode(fn):
    params, ret, body = calls[fn[4:]]
    m = re.fullmatch(r'return c\.(warnComment|initState)\(\)', body)
    return '.' + m.group(1)

def conv(v, ind):
    p = '  ' * ind
    ty = v[0]; d = v[1]
    if ty == 'actionExpr':
        return p + '.action %s (\n%s)' % (act(d['run'][1]), conv(d['expr'], ind + 1))
    if ty == 'andCodeExpr': return p + '.andCode %s' % code(d['run'][1])
    if ty == 'stateCodeExpr': return p + '.state %s' % stcode(d['run'][1])
    if ty == 'anyMatcher': return p + '.any'
    if ty == 'charClassMatcher':
        assert d['ignoreCase'][1] == 'false' and 'classes' not in d
        chars = [gochr(c[1]) for c in d['chars'][2]] if 'chars' in d else []
        rs = [gochr(c[1]) for c in d['ranges'][2]] if 'ranges' in d else []
        rs = list(zip(rs[::2], rs[1::2]))
        return p + '.cls %s %s [%s] [%s]' % (lb(gostr(d['val'][1])), d['inverted'][1],
            ', '.join(map(str, chars)), ', '.join('(%d, %d)' % r for r in rs))
    if ty == 'choiceExpr':
        return p + '.choice [\n%s]' % ',\n'.join(conv(e, ind + 1) for e in d['alternatives'][2])
    if ty == 'seqExpr':
        return p + '.seq [\n%s]' % ',\n'.join(conv(e, ind + 1) for e in d['exprs'][2])
    if ty == 'labeledExpr':
        return p + '.labeled %s (\n%s)' % (lbl(gostr(d['label'][1])), conv(d['expr'], ind + 1))
    if ty == 'litMatcher':
        assert d['ignoreCase'][1] == 'false'
        val = gostr(d['val'][1])
        assert all(ord(c) < 128 for c in val)
        return p + '.lit %s' % lb(val)
    one = {'notExpr': 'not', 'zeroOrMoreExpr': 'star', 'oneOrMoreExpr': 'plus', 'zeroOrOneExpr': 'opt'}
    if ty in one: return p + '.%s (\n%s)' % (one[ty], conv(d['expr'], ind + 1))
    if ty == 'ruleRefExpr': return p + '.ref .%s' % gostr(d['name'][1])
    raise Exception(ty)

out = ['import Verif.Model.Syntax',
 '/-', 'GENERATED by /verif/tools/gen_grammar.py from /repo/logstash_config.go:22-8060 (the',
 'grammar `g`) and the `onX` / `callonX` methods at :8062-11833.  Do not edit.',
 'The structured definition in Grammar.lean is proved equal to this transcript', 'in Grammar.lean (`gram_eq_go`).', '-/',
 'namespace Verif.Go', '']
names = []
for r in g[1]['rules'][2]:
    n = gostr(r[1]['name'][1]); names.append(n)
    ln = r[1]['pos'][1]['line'][1]
    out.append('/-- Rule `%s` (logstash_config.peg:%d) as found in logstash_config.go. -/' % (n, ln))
    out.append('def r_%s : Ex :=' % n)
    out.append(conv(r[1]['expr'], 1)); out.append('')
out.append('/-- The grammar `g` (logstash_config.go:22-8060). -/')
out.append('def gram : Gram')
for n in names: out.append('  | .%s => r_%s' % (n, n))
out += ['', '/-- The rules in the order of `g.rules`; the first is the entry point. -/',
  'def ruleOrder : List Rule := [%s]' % ', '.join('.' + n for n in names), '', 'end Verif.Go', '']
open('/verif/lean/Verif/Model/GrammarGo.lean', 'w').write('\n'.join(out))
