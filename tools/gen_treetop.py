#!/usr/bin/env python3
"""Generate lean/Verif/Spec/TreetopFile.lean from /repo/grammar.treetop.

The rules are translated mechanically: comments, node class annotations <...> and labels are dropped;
strings in double quotes and classes have the escapes of Ruby, strings in single quotes only \\\\ and \\'.
"""
import re
src = open('/repo/grammar.treetop').read()
src = '\n'.join(l for l in src.split('\n') if not re.match(r'\s*#', l))
names = {'_': 'gap', 'attribute': 'attr', 'if': 'ifBlock', 'else': 'elseBlock'}
def rule(n):
    if n in names: return names[n]
    p = n.split('_')
    return p[0] + ''.join(x.capitalize() for x in p[1:])
ESC = {'r': '\r', 'n': '\n', 't': '\t'}
def dq(s):
    return re.sub(r'\\(.)', lambda m: ESC.get(m.group(1), m.group(1)), s, flags=re.S)
def sq(s):
    return re.sub(r"\\([\\'])", r'\1', s)
def ch(c):
    return {"\n": r"'\n'", "\r": r"'\r'", "\t": r"'\t'", "'": r"'\''", "\\": r"'\\'"}.get(c, "'%s'" % c)
TOK = re.compile(r'''\s*(?:(?P<dq>"(?:\\.|[^"\\])*")|(?P<sq>'(?:\\.|[^'\\])*')|(?P<cls>\[(?:\\.|[^\]\\])*\])|'''
                 r'''(?P<node><[A-Za-z:]+>)|(?P<id>[a-z_]+)|(?P<p>[()/*+?!.:]))''', re.S)
def lex(s):
    out, i = [], 0
    s = s.rstrip()
    while i < len(s):
        m = TOK.match(s, i)
        assert m, s[i:i+40]
        i = m.end()
        k = m.lastgroup
        if k != 'node': out.append((k, m.group(k)))
    return out
def parse(toks):
    pos = 0
    def peek(): return toks[pos] if pos < len(toks) else (None, None)
    def alt():
        nonlocal pos
        xs = [seq()]
        while peek() == ('p', '/'):
            pos += 1; xs.append(seq())
        r = xs[-1]
        for x in reversed(xs[:-1]): r = '(.alt %s %s)' % (x, r)
        return r
    def seq():
        xs = []
        while peek()[0] and peek() not in (('p', '/'), ('p', ')')): xs.append(item())
        r = xs[-1]
        for x in reversed(xs[:-1]): r = '(.seq %s %s)' % (x, r)
        return r
    def item():
        nonlocal pos
        if peek() == ('p', '!'):
            pos += 1; return '(.not %s)' % item()
        if peek()[0] == 'id' and toks[pos+1:pos+2] == [('p', ':')]:
            pos += 2
        k, v = peek(); pos += 1
        if k == 'dq': r = '(.lit [%s])' % ', '.join(map(ch, dq(v[1:-1])))
        elif k == 'sq': r = '(.lit [%s])' % ', '.join(map(ch, sq(v[1:-1])))
        elif k == 'id': r = '(.ref .%s)' % rule(v)
        elif (k, v) == ('p', '.'): r = '.any'
        elif (k, v) == ('p', '('):
            r = alt(); assert peek() == ('p', ')'); pos += 1
        elif k == 'cls':
            b = v[1:-1]; neg = b.startswith('^')
            if neg: b = b[1:]
            cs = [ESC.get(m[1:], m[1:]) if m[0] == '\\' else m for m in re.findall(r'\\.|[^\\]', b, re.S)]
            raw = re.findall(r'\\.|[^\\]', b, re.S)
            chars, ranges, i = [], [], 0
            while i < len(cs):
                if i + 2 < len(cs) and raw[i+1] == '-':
                    ranges.append((cs[i], cs[i+2])); i += 3
                else:
                    chars.append(cs[i]); i += 1
            r = '(.cls %s [%s] [%s])' % (str(neg).lower(), ', '.join(map(ch, chars)),
                ', '.join('(%s, %s)' % (ch(a), ch(z)) for a, z in ranges))
        else: raise Exception((k, v))
        while peek() in (('p', '*'), ('p', '+'), ('p', '?')):
            r = '(.%s %s)' % ({'*': 'star', '+': 'plus', '?': 'opt'}[peek()[1]], r); pos += 1
        return r
    r = alt(); assert pos == len(toks), toks[pos:]
    return r
rules = re.findall(r'^  rule (\S+) *\n(.*?)^  end', src, re.S | re.M)
skip = ['plugins', 'array_value']
used = set(re.findall(r'[a-z_]+', ' '.join(' '.join(v for k, v in lex(b) if k == 'id') for n, b in rules)))
assert not used & set(skip)
out = ['import Verif.Spec.Treetop', '/-', 'GENERATED by /verif/tools/gen_treetop.py from /repo/grammar.treetop.  Do not edit.', '-/',
       'namespace Verif.Spec.Treetop', '', '/-- grammar.treetop, translated mechanically; the rules `plugins` and `array_value`, which no rule', 'uses, are left out. -/', 'def fileGrammar : TRule → PEx TRule']
for n, b in rules:
    if n in skip: continue
    out.append('  | .%s => %s' % (rule(n), parse(lex(b))))
out += ['', '/-- The transcription in Treetop.lean is the grammar of the file. -/', 'theorem treetop_eq_file : treetop = fileGrammar := by', '  funext r', '  cases r <;> rfl', '', 'end Verif.Spec.Treetop', '']
open('/verif/lean/Verif/Spec/TreetopFile.lean', 'w').write('\n'.join(out))
