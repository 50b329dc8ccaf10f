import Verif.Tests.Go
/-
Runs the unit tests of the parser (tools/go_tests.txt, written by tools/gen_tests.py) on the model.
In /verif/lean: `lake env lean --run ../tools/conformance.src ../tools/go_tests.txt`
-/
open Verif Verif.Tests

def unhex (s : String) : Bytes :=
  let rec go : List Char → Bytes
    | a :: b :: r => (UInt8.ofNat ((dig a) * 16 + dig b)) :: go r
    | _ => []
  if s == "-" then [] else go s.toList
where dig (c : Char) : Nat := if c.isDigit then c.toNat - 48 else c.toNat - 87

/-! `positionWalker.walk` (logstash_config_pos_test.go:1007-1121): types and positions, in order. -/
abbrev Walk := List (String × Pos)

def wSel (s : Selector) : Walk := ("Selector", s.start) :: s.elems.map fun e => ("SelectorElement", e.start)

mutual
partial def wAttr : Attr → Walk
  | .nil => []
  | .str a => [("StringAttribute", a.start)]
  | .num a => [("NumberAttribute", a.start)]
  | .arr p _ as _ _ => ("ArrayAttribute", p) :: as.flatMap wAttr
  | .hash p _ es _ _ => ("HashAttribute", p) :: es.flatMap fun
    | e@(.mk _ k v _) => ("HashEntry", e.pos) :: ((match k with | .str a => wAttr (.str a) | .num a => wAttr (.num a)) ++ wAttr v)
  | .plug p _ _ _ => [("PluginAttribute", p)]
end

def wPlugin : Plugin → Walk
  | .mk p _ as _ _ => ("Plugin", p) :: as.flatMap wAttr

def wRval : Rvalue → Walk
  | .nil => []
  | .str a => wAttr (.str a)
  | .num a => wAttr (.num a)
  | .sel s => wSel s
  | .arr p n as c f => wAttr (.arr p n as c f)
  | .re r => [("Regexp", r.start)]

def wBool (b : BoolExpr) : Walk := if b.op.op = .noOp then [] else [("BooleanOperator", b.op.start)]

mutual
partial def wExpr : Expr → Walk
  | .nil => []
  | .cond p b c => wBool b ++ ("ConditionExpression", p) :: wCond c
  | .negCond p b c => wBool b ++ ("NegativeConditionExpression", p) :: wCond c
  | .negSel p b s => wBool b ++ ("NegativeSelectorExpression", p) :: wSel s
  | .inE p b l r => wBool b ++ ("InExpression", p) :: (wRval l ++ wRval r)
  | .notIn p b l r => wBool b ++ ("NotInExpression", p) :: (wRval l ++ wRval r)
  | .rval p b r => wBool b ++ ("RvalueExpression", p) :: wRval r
  | .cmp p b l o r => wBool b ++ ("CompareExpression", p) :: (wRval l ++ ("CompareOperator", o.start) :: wRval r)
  | .re p b l o r => wBool b ++ ("RegexpExpression", p) :: (wRval l ++ ("RegexpOperator", o.start) :: wRval r)
partial def wCond (c : Condition) : Walk := ("Condition", (condPos c).getD default) :: c.flatMap wExpr
end

partial def wBop : BOP → Walk
  | .nil => []
  | .plugin p => wPlugin p
  | .pluginPtr p => wPlugin p
  | .branch p c b _ _ ei (.mk q eb _ _) =>
    ("Branch", p) :: ("IfBlock", p) :: (wCond c ++ b.flatMap wBop ++
      ei.flatMap (fun | .mk p c b _ _ => ("ElseIfBlock", p) :: (wCond c ++ b.flatMap wBop)) ++ ("ElseBlock", q) :: eb.flatMap wBop)

def wConfig (c : Config) : Walk :=
  ("Config", ⟨1, 1, 0⟩) :: (c.input ++ c.filter ++ c.output).flatMap fun s => ("PluginSection", s.start) :: s.bops.flatMap wBop

def main (args : List String) : IO Unit := do
  let ls ← IO.FS.lines args[0]!
  let mut ok := 0
  let mut bad := 0
  for l in ls do
    let good : Bool := match l.splitOn "\t" with
      | ["print", _, i, e] => prints (unhex i) (unhex e)
      | ["error", _, i, e] => rejects (unhex i) (unhex e)
      | ["ignore", _, i, e] => match (parse { ignoreComments := true } [] (unhex i) []).1 with
        | .done (.config c) [] => c.str == unhex e
        | _ => false
      | ["warn", _, i, e] => match (parse { excWarn := true } [] (unhex i) []).1 with
        | .done (.config c) [] => (toString c.warnings.length).toUTF8.toList == unhex e
        | _ => false
      | ["pos", _, i, types, want] => match (parse {} [] (unhex i) []).1 with
        | .done (.config c) [] =>
          let w := (wConfig c).filter fun x => (types.splitOn " ").contains x.1
          " ".intercalate (w.map fun x => s!"{x.2.line}:{x.2.col}:{x.2.offset}") == want
        | _ => false
      | _ => false
    if good then ok := ok + 1 else
      bad := bad + 1
      IO.println s!"BAD {(l.splitOn "\t").take 2}"
  IO.println s!"{ok} ok, {bad} bad"
