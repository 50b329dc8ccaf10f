import Verif.Model.Syntax
/-
GENERATED by /verif/tools/gen_choices.py from the grammar `g` (/repo/logstash_config.go:22-8060).  Do not edit.
-/
namespace Verif.Go

/-- The field `pos` (line and column in logstash_config.peg) of the `choiceExpr` nodes of a rule in `g`
(logstash_config.go:22-8060).  A node is named by the path to it from the expression of the rule, last step first; the
alternatives of a choice and the elements of a sequence are numbered from 0, a single subexpression is number 0. -/
def choiceSpots : Rule → List (List Nat × Nat × Nat)
  | .init => [
    ([0, 2, 0], 14, 9), ([0, 0, 0, 1, 0, 2, 0], 52, 6), ([4, 0, 0, 0, 0, 0, 0, 1, 0, 2, 0], 43, 38)]
  | .config => [
    ([0, 0, 0, 0], 52, 6), ([4, 0, 0, 0, 0, 0, 0, 0], 43, 38), ([0, 0, 0, 0, 0, 0, 2, 0], 52, 6),
    ([4, 0, 0, 0, 0, 0, 0, 0, 0, 0, 2, 0], 43, 38), ([0, 0, 3, 0], 52, 6), ([4, 0, 0, 0, 0, 0, 3, 0], 43, 38)]
  | .pluginSection => [
    ([0, 0, 0], 108, 5), ([0, 0, 1, 0], 58, 8), ([4, 0, 0, 0, 0, 0, 1, 0], 43, 38), ([0, 0, 5, 0], 52, 6),
    ([4, 0, 0, 0, 0, 0, 5, 0], 43, 38), ([6, 0], 89, 9)]
  | .branchOrPlugin => [
    ([], 101, 5)]
  | .plugin => [
    ([0, 0, 0, 0], 52, 6), ([4, 0, 0, 0, 0, 0, 0, 0], 43, 38), ([0, 1, 0], 159, 7),
    ([0, 0, 0, 0, 1, 0, 1, 0], 234, 11), ([0, 1, 0, 0, 0, 0, 0, 0, 0, 0, 1, 0, 1, 0], 208, 13),
    ([2, 0, 0, 0, 0, 0, 0, 0, 0, 1, 0, 1, 0], 209, 9), ([0, 1, 0, 0, 0, 1, 0, 0, 0, 0, 1, 0, 1, 0], 221, 13),
    ([2, 0, 0, 0, 1, 0, 0, 0, 0, 1, 0, 1, 0], 222, 9), ([0, 0, 2, 0], 58, 8), ([4, 0, 0, 0, 0, 0, 2, 0], 43, 38),
    ([0, 0, 0, 0, 0, 0, 5, 0], 52, 6), ([4, 0, 0, 0, 0, 0, 0, 0, 0, 0, 5, 0], 43, 38),
    ([0, 0, 1, 0, 0, 0, 2, 0, 0, 0, 5, 0], 52, 6), ([4, 0, 0, 0, 0, 0, 1, 0, 0, 0, 2, 0, 0, 0, 5, 0], 43, 38),
    ([0, 0, 6, 0], 52, 6), ([4, 0, 0, 0, 0, 0, 6, 0], 43, 38), ([7, 0], 144, 9)]
  | .attribute => [
    ([0, 0, 0], 159, 7), ([0, 0, 0, 0, 1, 0, 0, 0], 234, 11), ([0, 1, 0, 0, 0, 0, 0, 0, 0, 0, 1, 0, 0, 0], 208, 13),
    ([2, 0, 0, 0, 0, 0, 0, 0, 0, 1, 0, 0, 0], 209, 9), ([0, 1, 0, 0, 0, 1, 0, 0, 0, 0, 1, 0, 0, 0], 221, 13),
    ([2, 0, 0, 0, 1, 0, 0, 0, 0, 1, 0, 0, 0], 222, 9), ([0, 0, 1, 0], 58, 8), ([4, 0, 0, 0, 0, 0, 1, 0], 43, 38),
    ([0, 0, 4, 0], 58, 8), ([4, 0, 0, 0, 0, 0, 4, 0], 43, 38)]
  | .value => [
    ([], 180, 5), ([0, 0, 2], 234, 11), ([0, 1, 0, 0, 0, 0, 0, 0, 2], 208, 13), ([2, 0, 0, 0, 0, 0, 0, 2], 209, 9),
    ([0, 1, 0, 0, 0, 1, 0, 0, 2], 221, 13), ([2, 0, 0, 0, 1, 0, 0, 2], 222, 9)]
  | .array => [
    ([0, 0, 0, 0, 0, 0, 1, 0], 52, 6), ([4, 0, 0, 0, 0, 0, 0, 0, 0, 0, 1, 0], 43, 38),
    ([0, 0, 0, 0, 0, 0, 2, 0, 0, 0, 1, 0], 58, 8), ([4, 0, 0, 0, 0, 0, 0, 0, 0, 0, 2, 0, 0, 0, 1, 0], 43, 38),
    ([0, 0, 3, 0, 0, 0, 2, 0, 0, 0, 1, 0], 52, 6), ([4, 0, 0, 0, 0, 0, 3, 0, 0, 0, 2, 0, 0, 0, 1, 0], 43, 38),
    ([0, 0, 2, 0], 52, 6), ([4, 0, 0, 0, 0, 0, 2, 0], 43, 38), ([3, 0], 290, 9)]
  | .hash => [
    ([0, 0, 2, 0], 52, 6), ([4, 0, 0, 0, 0, 0, 2, 0], 43, 38), ([3, 0], 310, 9)]
  | .hashentries => [
    ]
  | .hashentry => [
    ([0, 0, 0, 0], 52, 6), ([4, 0, 0, 0, 0, 0, 0, 0], 43, 38), ([0, 1, 0], 337, 21), ([0, 0, 2, 0, 1, 0], 234, 11),
    ([0, 1, 0, 0, 0, 0, 0, 0, 2, 0, 1, 0], 208, 13), ([2, 0, 0, 0, 0, 0, 0, 2, 0, 1, 0], 209, 9),
    ([0, 1, 0, 0, 0, 1, 0, 0, 2, 0, 1, 0], 221, 13), ([2, 0, 0, 0, 1, 0, 0, 2, 0, 1, 0], 222, 9),
    ([0, 0, 2, 0], 58, 8), ([4, 0, 0, 0, 0, 0, 2, 0], 43, 38), ([0, 0, 5, 0], 58, 8),
    ([4, 0, 0, 0, 0, 0, 5, 0], 43, 38)]
  | .branch => [
    ([0, 0, 0, 0], 52, 6), ([4, 0, 0, 0, 0, 0, 0, 0], 43, 38), ([0, 0, 0, 0, 0, 0, 2, 0], 52, 6),
    ([4, 0, 0, 0, 0, 0, 0, 0, 0, 0, 2, 0], 43, 38), ([0, 0, 0, 0, 0, 0, 3, 0], 52, 6),
    ([4, 0, 0, 0, 0, 0, 0, 0, 0, 0, 3, 0], 43, 38)]
  | .ifCond => [
    ([0, 0, 1, 0], 58, 8), ([4, 0, 0, 0, 0, 0, 1, 0], 43, 38), ([0, 0, 4, 0], 58, 8),
    ([4, 0, 0, 0, 0, 0, 4, 0], 43, 38), ([0, 0, 0, 0, 0, 0, 7, 0], 52, 6),
    ([4, 0, 0, 0, 0, 0, 0, 0, 0, 0, 7, 0], 43, 38), ([0, 0, 8, 0], 52, 6), ([4, 0, 0, 0, 0, 0, 8, 0], 43, 38),
    ([9, 0], 377, 13)]
  | .elseIf => [
    ([0, 0, 1, 0], 58, 8), ([4, 0, 0, 0, 0, 0, 1, 0], 43, 38), ([0, 0, 4, 0], 58, 8),
    ([4, 0, 0, 0, 0, 0, 4, 0], 43, 38), ([0, 0, 7, 0], 58, 8), ([4, 0, 0, 0, 0, 0, 7, 0], 43, 38),
    ([0, 0, 0, 0, 0, 0, 10, 0], 52, 6), ([4, 0, 0, 0, 0, 0, 0, 0, 0, 0, 10, 0], 43, 38), ([0, 0, 11, 0], 52, 6),
    ([4, 0, 0, 0, 0, 0, 11, 0], 43, 38), ([12, 0], 398, 9)]
  | .elseCond => [
    ([0, 0, 1, 0], 58, 8), ([4, 0, 0, 0, 0, 0, 1, 0], 43, 38), ([0, 0, 0, 0, 0, 0, 4, 0], 52, 6),
    ([4, 0, 0, 0, 0, 0, 0, 0, 0, 0, 4, 0], 43, 38), ([0, 0, 5, 0], 52, 6), ([4, 0, 0, 0, 0, 0, 5, 0], 43, 38),
    ([6, 0], 419, 9)]
  | .condition => [
    ([0, 0, 0, 0, 0, 0, 1, 0], 58, 8), ([4, 0, 0, 0, 0, 0, 0, 0, 0, 0, 1, 0], 43, 38),
    ([0, 0, 2, 0, 0, 0, 1, 0], 619, 6), ([0, 0, 3, 0, 0, 0, 1, 0], 58, 8),
    ([4, 0, 0, 0, 0, 0, 3, 0, 0, 0, 1, 0], 43, 38)]
  | .expression => [
    ([], 454, 9), ([0, 0, 1, 0, 0], 58, 8), ([4, 0, 0, 0, 0, 0, 1, 0, 0], 43, 38), ([0, 0, 4, 0, 0], 58, 8),
    ([4, 0, 0, 0, 0, 0, 4, 0, 0], 43, 38)]
  | .negativeExpression => [
    ([], 479, 9), ([0, 0, 1, 0, 0], 58, 8), ([4, 0, 0, 0, 0, 0, 1, 0, 0], 43, 38), ([0, 0, 4, 0, 0], 58, 8),
    ([4, 0, 0, 0, 0, 0, 4, 0, 0], 43, 38), ([0, 0, 7, 0, 0], 58, 8), ([4, 0, 0, 0, 0, 0, 7, 0, 0], 43, 38),
    ([9, 0, 0], 481, 17), ([0, 0, 1, 0, 1], 58, 8), ([4, 0, 0, 0, 0, 0, 1, 0, 1], 43, 38),
    ([2, 0, 0, 0, 0, 0, 3, 0, 1], 642, 9)]
  | .inExpression => [
    ([0, 0, 1, 0], 58, 8), ([4, 0, 0, 0, 0, 0, 1, 0], 43, 38), ([3, 0], 520, 5), ([0, 0, 4, 0], 58, 8),
    ([4, 0, 0, 0, 0, 0, 4, 0], 43, 38)]
  | .notInExpression => [
    ([0, 0, 1, 0], 58, 8), ([4, 0, 0, 0, 0, 0, 1, 0], 43, 38), ([3, 0], 529, 5), ([0, 0, 1, 0, 3, 0], 58, 8),
    ([4, 0, 0, 0, 0, 0, 1, 0, 3, 0], 43, 38), ([0, 0, 4, 0], 58, 8), ([4, 0, 0, 0, 0, 0, 4, 0], 43, 38)]
  | .rvalue => [
    ([], 541, 5), ([0, 0, 0], 234, 11), ([0, 1, 0, 0, 0, 0, 0, 0, 0], 208, 13), ([2, 0, 0, 0, 0, 0, 0, 0], 209, 9),
    ([0, 1, 0, 0, 0, 1, 0, 0, 0], 221, 13), ([2, 0, 0, 0, 1, 0, 0, 0], 222, 9), ([2, 0, 0, 0, 0, 2], 642, 9),
    ([0, 1, 0, 4], 247, 13), ([2, 0, 4], 248, 9)]
  | .compareExpression => [
    ([0, 0, 1, 0], 58, 8), ([4, 0, 0, 0, 0, 0, 1, 0], 43, 38), ([0, 0, 3, 0], 586, 6), ([0, 0, 4, 0], 58, 8),
    ([4, 0, 0, 0, 0, 0, 4, 0], 43, 38)]
  | .regexpExpression => [
    ([0, 0, 1, 0], 58, 8), ([4, 0, 0, 0, 0, 0, 1, 0], 43, 38), ([0, 0, 3, 0], 607, 6), ([0, 0, 4, 0], 58, 8),
    ([4, 0, 0, 0, 0, 0, 4, 0], 43, 38), ([0, 6, 0], 598, 44), ([0, 0, 0, 0, 6, 0], 234, 11),
    ([0, 1, 0, 0, 0, 0, 0, 0, 0, 0, 6, 0], 208, 13), ([2, 0, 0, 0, 0, 0, 0, 0, 0, 6, 0], 209, 9),
    ([0, 1, 0, 0, 0, 1, 0, 0, 0, 0, 6, 0], 221, 13), ([2, 0, 0, 0, 1, 0, 0, 0, 0, 6, 0], 222, 9),
    ([0, 1, 0, 1, 0, 6, 0], 247, 13), ([2, 0, 1, 0, 6, 0], 248, 9)]

end Verif.Go
