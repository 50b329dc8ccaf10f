import Verif.Spec.Treetop
/-
GENERATED by /verif/tools/gen_treetop.py from /repo/grammar.treetop.  Do not edit.
-/
namespace Verif.Spec.Treetop

/-- grammar.treetop, translated mechanically; the rules `plugins` and `array_value`, which no rule
uses, are left out. -/
def fileGrammar : TRule → PEx TRule
  | .config => (.seq (.ref .gap) (.seq (.ref .pluginSection) (.seq (.ref .gap) (.seq (.star (.seq (.ref .gap) (.ref .pluginSection))) (.ref .gap)))))
  | .comment => (.plus (.seq (.opt (.ref .whitespace)) (.seq (.lit ['#']) (.seq (.star (.cls true ['\r', '\n'] [])) (.seq (.opt (.lit ['\r'])) (.lit ['\n']))))))
  | .gap => (.star (.alt (.ref .comment) (.ref .whitespace)))
  | .whitespace => (.plus (.cls false [' ', '\t', '\r', '\n'] []))
  | .pluginSection => (.seq (.ref .pluginType) (.seq (.ref .gap) (.seq (.lit ['{']) (.seq (.ref .gap) (.seq (.star (.seq (.ref .branchOrPlugin) (.ref .gap))) (.lit ['}']))))))
  | .branchOrPlugin => (.alt (.ref .branch) (.ref .plugin))
  | .pluginType => (.alt (.lit ['i', 'n', 'p', 'u', 't']) (.alt (.lit ['f', 'i', 'l', 't', 'e', 'r']) (.lit ['o', 'u', 't', 'p', 'u', 't'])))
  | .plugin => (.seq (.ref .name) (.seq (.ref .gap) (.seq (.lit ['{']) (.seq (.ref .gap) (.seq (.opt (.seq (.ref .attr) (.star (.seq (.ref .whitespace) (.seq (.ref .gap) (.ref .attr)))))) (.seq (.ref .gap) (.lit ['}'])))))))
  | .name => (.alt (.plus (.cls false ['_', '-'] [('A', 'Z'), ('a', 'z'), ('0', '9')])) (.ref .string))
  | .attr => (.seq (.ref .name) (.seq (.ref .gap) (.seq (.lit ['=', '>']) (.seq (.ref .gap) (.ref .value)))))
  | .value => (.alt (.ref .plugin) (.alt (.ref .bareword) (.alt (.ref .string) (.alt (.ref .number) (.alt (.ref .array) (.ref .hash))))))
  | .bareword => (.seq (.cls false ['_'] [('A', 'Z'), ('a', 'z')]) (.plus (.cls false ['_'] [('A', 'Z'), ('a', 'z'), ('0', '9')])))
  | .doubleQuotedString => (.seq (.lit ['"']) (.seq (.star (.alt (.lit ['\\', '"']) (.seq (.not (.lit ['"'])) .any))) (.lit ['"'])))
  | .singleQuotedString => (.seq (.lit ['\'']) (.seq (.star (.alt (.lit ['\\', '\'']) (.seq (.not (.lit ['\''])) .any))) (.lit ['\''])))
  | .string => (.alt (.ref .doubleQuotedString) (.ref .singleQuotedString))
  | .regexp => (.seq (.lit ['/']) (.seq (.star (.alt (.lit ['\\', '/']) (.seq (.not (.lit ['/'])) .any))) (.lit ['/'])))
  | .number => (.seq (.opt (.lit ['-'])) (.seq (.plus (.cls false [] [('0', '9')])) (.opt (.seq (.lit ['.']) (.star (.cls false [] [('0', '9')]))))))
  | .array => (.seq (.lit ['[']) (.seq (.ref .gap) (.seq (.opt (.seq (.ref .value) (.star (.seq (.ref .gap) (.seq (.lit [',']) (.seq (.ref .gap) (.ref .value))))))) (.seq (.ref .gap) (.lit [']'])))))
  | .hash => (.seq (.lit ['{']) (.seq (.ref .gap) (.seq (.opt (.ref .hashentries)) (.seq (.ref .gap) (.lit ['}'])))))
  | .hashentries => (.seq (.ref .hashentry) (.star (.seq (.ref .whitespace) (.ref .hashentry))))
  | .hashentry => (.seq (.alt (.ref .number) (.alt (.ref .bareword) (.ref .string))) (.seq (.ref .gap) (.seq (.lit ['=', '>']) (.seq (.ref .gap) (.ref .value)))))
  | .branch => (.seq (.ref .ifBlock) (.seq (.star (.seq (.ref .gap) (.ref .elseIf))) (.opt (.seq (.ref .gap) (.ref .elseBlock)))))
  | .ifBlock => (.seq (.lit ['i', 'f']) (.seq (.ref .gap) (.seq (.ref .condition) (.seq (.ref .gap) (.seq (.lit ['{']) (.seq (.ref .gap) (.seq (.star (.seq (.ref .branchOrPlugin) (.ref .gap))) (.lit ['}']))))))))
  | .elseIf => (.seq (.lit ['e', 'l', 's', 'e']) (.seq (.ref .gap) (.seq (.lit ['i', 'f']) (.seq (.ref .gap) (.seq (.ref .condition) (.seq (.ref .gap) (.seq (.lit ['{']) (.seq (.ref .gap) (.seq (.star (.seq (.ref .branchOrPlugin) (.ref .gap))) (.lit ['}']))))))))))
  | .elseBlock => (.seq (.lit ['e', 'l', 's', 'e']) (.seq (.ref .gap) (.seq (.lit ['{']) (.seq (.ref .gap) (.seq (.star (.seq (.ref .branchOrPlugin) (.ref .gap))) (.lit ['}']))))))
  | .condition => (.seq (.ref .expression) (.star (.seq (.ref .gap) (.seq (.ref .booleanOperator) (.seq (.ref .gap) (.ref .expression))))))
  | .expression => (.alt (.seq (.lit ['(']) (.seq (.ref .gap) (.seq (.ref .condition) (.seq (.ref .gap) (.lit [')']))))) (.alt (.ref .negativeExpression) (.alt (.ref .inExpression) (.alt (.ref .notInExpression) (.alt (.ref .compareExpression) (.alt (.ref .regexpExpression) (.ref .rvalue)))))))
  | .negativeExpression => (.alt (.seq (.lit ['!']) (.seq (.ref .gap) (.seq (.lit ['(']) (.seq (.ref .gap) (.seq (.ref .condition) (.seq (.ref .gap) (.lit [')']))))))) (.seq (.lit ['!']) (.seq (.ref .gap) (.ref .selector))))
  | .inExpression => (.seq (.ref .rvalue) (.seq (.ref .gap) (.seq (.ref .inOperator) (.seq (.ref .gap) (.ref .rvalue)))))
  | .notInExpression => (.seq (.ref .rvalue) (.seq (.ref .gap) (.seq (.ref .notInOperator) (.seq (.ref .gap) (.ref .rvalue)))))
  | .inOperator => (.lit ['i', 'n'])
  | .notInOperator => (.seq (.lit ['n', 'o', 't', ' ']) (.seq (.ref .gap) (.lit ['i', 'n'])))
  | .rvalue => (.alt (.ref .string) (.alt (.ref .number) (.alt (.ref .selector) (.alt (.ref .array) (.alt (.ref .methodCall) (.ref .regexp))))))
  | .methodCall => (.seq (.ref .method) (.seq (.ref .gap) (.seq (.lit ['(']) (.seq (.ref .gap) (.seq (.opt (.seq (.ref .rvalue) (.star (.seq (.ref .gap) (.seq (.lit [',']) (.seq (.ref .gap) (.ref .rvalue))))))) (.seq (.ref .gap) (.lit [')'])))))))
  | .method => (.ref .bareword)
  | .compareExpression => (.seq (.ref .rvalue) (.seq (.ref .gap) (.seq (.ref .compareOperator) (.seq (.ref .gap) (.ref .rvalue)))))
  | .compareOperator => (.alt (.lit ['=', '=']) (.alt (.lit ['!', '=']) (.alt (.lit ['<', '=']) (.alt (.lit ['>', '=']) (.alt (.lit ['<']) (.lit ['>']))))))
  | .regexpExpression => (.seq (.ref .rvalue) (.seq (.ref .gap) (.seq (.ref .regexpOperator) (.seq (.ref .gap) (.alt (.ref .string) (.ref .regexp))))))
  | .regexpOperator => (.alt (.lit ['=', '~']) (.lit ['!', '~']))
  | .booleanOperator => (.alt (.lit ['a', 'n', 'd']) (.alt (.lit ['o', 'r']) (.alt (.lit ['x', 'o', 'r']) (.lit ['n', 'a', 'n', 'd']))))
  | .selector => (.plus (.ref .selectorElement))
  | .selectorElement => (.seq (.lit ['[']) (.seq (.plus (.cls true [']', ','] [])) (.lit [']'])))

/-- The transcription in Treetop.lean is the grammar of the file. -/
theorem treetop_eq_file : treetop = fileGrammar := by
  funext r
  cases r <;> rfl

end Verif.Spec.Treetop
