#!/usr/bin/env python3
"""Transcribe the positions of the ordered choices of `var g = &grammar{...}` (/repo/logstash_config.go:22-8060) into
Lean.  Output: /verif/lean/Verif/Model/ChoiceSpots.lean.  Re-run to regenerate."""
import sys, ast
sys.path.insert(0, '/verif/tools')
from parse_go import g

def walk(v, path, out):
    ty, d = v[0], v[1]
    if ty == 'choiceExpr':
        p = d['pos'][1]
        out.append((path, p['line'][1], p['col'][1]))
        kids = d['alternatives'][2]
    elif ty == 'seqExpr': kids = d['exprs'][2]
    elif 'expr' in d: kids = [d['expr']]
    else: kids = []
    for i, k in enumerate(kids): walk(k, [i] + path, out)

L = ['import Verif.Model.Syntax', '/-',
  'GENERATED by /verif/tools/gen_choices.py from the grammar `g` (/repo/logstash_config.go:22-8060).  Do not edit.', '-/',
  'namespace Verif.Go', '',
  '/-- The field `pos` (line and column in logstash_config.peg) of the `choiceExpr` nodes of a rule in `g`',
  '(logstash_config.go:22-8060).  A node is named by the path to it from the expression of the rule, last step first; the',
  'alternatives of a choice and the elements of a sequence are numbered from 0, a single subexpression is number 0. -/',
  'def choiceSpots : Rule → List (List Nat × Nat × Nat)']
for r in g[1]['rules'][2]:
    n = ast.literal_eval(r[1]['name'][1]); out = []
    walk(r[1]['expr'], [], out)
    items = ['([%s], %d, %d)' % (', '.join(map(str, p)), l, c) for p, l, c in out]
    L.append('  | .%s => [' % n)
    cur = '    '
    for i, it in enumerate(items):
        it += ',' if i + 1 < len(items) else ']'
        if len(cur) + len(it) > 118: L.append(cur.rstrip()); cur = '    '
        cur += it + ' '
    if not items: cur = '    ]'
    L.append(cur.rstrip())
L += ['', 'end Verif.Go', '']
open('/verif/lean/Verif/Model/ChoiceSpots.lean', 'w').write('\n'.join(L))
