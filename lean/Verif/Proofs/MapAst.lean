import Verif.Spec.MapAst
import Verif.Proofs.Sim
/-
The simulation between runs with different comment and warning options.
-/
namespace Verif
open Spec

theorem AMap.attrs_eq (m : AMap) (l : List Attr) : m.attrs l = l.map m.attr := by
  induction l with
  | nil => rfl
  | cons a l ih => simp [AMap.attrs, ih]
theorem AMap.hentries_eq (m : AMap) (l : List HEntry) : m.hentries l = l.map m.hentry := by
  induction l with
  | nil => rfl
  | cons a l ih => simp [AMap.hentries, ih]
theorem AMap.cond_eq (m : AMap) (l : List Expr) : m.cond l = l.map m.expr := by
  induction l with
  | nil => rfl
  | cons a l ih => simp [AMap.cond, ih]
theorem AMap.bops_eq (m : AMap) (l : List BOP) : m.bops l = l.map m.bop := by
  induction l with
  | nil => rfl
  | cons a l ih => simp [AMap.bops, ih]
theorem AMap.elifs_eq (m : AMap) (l : List Elif) : m.elifs l = l.map m.elif := by
  induction l with
  | nil => rfl
  | cons a l ih => simp [AMap.elifs, ih]

/-- The map on parser values: `fc` on comment blocks, `ft` on the comments of a comment
value, `fw` on the warnings of a configuration. -/
def valMap (m : AMap) (fw : List Bytes → List Bytes) : Val → Val
  | .nil => .nil
  | .bytes b => .bytes b
  | .list l => .list (valMapL l)
  | .str b => .str b
  | .ptype t => .ptype t
  | .ws => .ws
  | .comments c => .comments (m.com c)
  | .attr a => .attr (m.attr a)
  | .attrs l => .attrs (m.attrs l)
  | .hentry h => .hentry (m.hentry h)
  | .hentries l => .hentries (m.hentries l)
  | .plugin p => .plugin (m.plugin p)
  | .ifBlock p c b cm f => .ifBlock (m.pos p) (m.cond c) (m.bops b) (m.com cm) (m.com f)
  | .elif e => .elif (m.elif e)
  | .elseB e => .elseB (m.elseB e)
  | .branch p c b cm f ei el =>
    .branch (m.pos p) (m.cond c) (m.bops b) (m.com cm) (m.com f) (m.elifs ei) (m.elseB el)
  | .cond c => .cond (m.cond c)
  | .expr e => .expr (m.expr e)
  | .selElem s => .selElem (m.selElem s)
  | .selector s => .selector (m.selector s)
  | .regexp r => .regexp (m.regexp r)
  | .boolOp b => .boolOp (m.boolOp b)
  | .cmpOp b => .cmpOp (m.cmpOp b)
  | .reOp b => .reOp (m.reOp b)
  | .sect s => .sect (m.sect s)
  | .config c => .config { m.config c with warnings := fw c.warnings }
where
  valMapL : List Val → List Val
  | [] => []
  | v :: l => valMap m fw v :: valMapL l

theorem valMapL_eq (m : AMap) (fw : List Bytes → List Bytes) (l : List Val) :
    valMap.valMapL m fw l = l.map (valMap m fw) := by
  induction l with
  | nil => rfl
  | cons a l ih => simp [valMap.valMapL, ih]

/-- As a value map for the simulation. -/
def valVMap (m : AMap) (fw : List Bytes → List Bytes) : VMap where
  g := valMap m fw
  w := fw
  g_nil := rfl
  g_bytes _ := rfl
  g_list l := by rw [valMap, valMapL_eq]

/-- The comment function commutes with the construction of comment blocks. -/
structure ComOk (m : AMap) : Prop where
  zero : m.pos Pos.zero = Pos.zero
  nil : m.com [] = []
  block : ∀ fw v a b, commentBlock (valMap m fw v) a b = m.com (commentBlock v a b)
  first : ∀ b c, setFirstSpaceBefore b (m.com c) = m.com (setFirstSpaceBefore b c)

section
variable {m : AMap} (hm : ComOk m) (fw : List Bytes → List Bytes)

theorem toIfaceSlice_map (m : AMap) (v : Val) :
    toIfaceSlice (valMap m fw v) = (toIfaceSlice v).map (valMap m fw) := by
  cases v <;> simp [toIfaceSlice, valMap, valMapL_eq]

theorem collectAttrs_map (m : AMap) (l : List Val) :
    collectAttrs (l.map (valMap m fw)) = (collectAttrs l).map m.attrs := by
  induction l with
  | nil => rfl
  | cons v l ih =>
    cases v <;> simp [collectAttrs, valMap]
    rw [ih]; cases collectAttrs l <;> simp [AMap.attrs]

theorem collectHEntries_map (m : AMap) (l : List Val) :
    collectHEntries (l.map (valMap m fw)) = (collectHEntries l).map m.hentries := by
  induction l with
  | nil => rfl
  | cons v l ih =>
    cases v <;> simp [collectHEntries, valMap]
    rw [ih]; cases collectHEntries l <;> simp [AMap.hentries]

theorem collectElifs_map (m : AMap) (l : List Val) :
    collectElifs (l.map (valMap m fw)) = (collectElifs l).map m.elifs := by
  induction l with
  | nil => rfl
  | cons v l ih =>
    cases v <;> simp [collectElifs, valMap]
    rw [ih]; cases collectElifs l <;> simp [AMap.elifs]

theorem collectExprs_map (m : AMap) (l : List Val) :
    collectExprs (l.map (valMap m fw)) = (collectExprs l).map m.cond := by
  induction l with
  | nil => rfl
  | cons v l ih =>
    cases v <;> simp [collectExprs, valMap]
    rw [ih]; cases collectExprs l <;> simp [AMap.cond]

theorem collectSelElems_map (m : AMap) (l : List Val) :
    collectSelElems (l.map (valMap m fw)) = (collectSelElems l).map (List.map m.selElem) := by
  induction l with
  | nil => rfl
  | cons v l ih =>
    cases v <;> simp [collectSelElems, valMap]
    rw [ih]; cases collectSelElems l <;> simp

theorem toBOP_map (m : AMap) (v : Val) : toBOP (valMap m fw v) = (toBOP v).map m.bop := by
  cases v <;> simp [toBOP, valMap, AMap.bop]

theorem collectBOPs_map (m : AMap) (l : List Val) :
    collectBOPs (l.map (valMap m fw)) = (collectBOPs l).map m.bops := by
  induction l with
  | nil => rfl
  | cons v l ih =>
    simp only [List.map_cons, collectBOPs, toBOP_map]
    cases toBOP v with
    | none => rfl
    | some b => simp only [Option.map_some]; rw [ih]; cases collectBOPs l <;> simp [AMap.bops]

theorem branchOrPlugins_map (m : AMap) (v : Val) :
    branchOrPlugins (valMap m fw v) = m.bops (branchOrPlugins v) := by
  unfold branchOrPlugins
  rw [toIfaceSlice_map, collectBOPs_map]
  cases collectBOPs (toIfaceSlice v) <;> simp [AMap.bops]

theorem toRvalue_map (m : AMap) (v : Val) : toRvalue (valMap m fw v) = (toRvalue v).map m.rvalue := by
  cases v <;> try rfl
  case attr a => cases a <;> rfl

theorem toSOR_map (m : AMap) (v : Val) :
    toStringOrRegexp (valMap m fw v) = (toStringOrRegexp v).map m.rvalue := by
  cases v <;> try rfl
  case attr a => cases a <;> rfl

theorem toHKey_map (m : AMap) (v : Val) : toHKey (valMap m fw v) = (toHKey v).map m.hkey := by
  cases v <;> try rfl
  case attr a => cases a <;> rfl

theorem toAttr_map (m : AMap) (v : Val) : toAttr (valMap m fw v) = (toAttr v).map m.attr := by
  cases v <;> rfl

include hm in
theorem attributeComment_map (a c : Val) (sb : Bool) :
    attributeComment (valMap m fw a) (valMap m fw c) sb = (attributeComment a c sb).map m.attr := by
  unfold attributeComment
  simp only [hm.block]
  cases a <;> try rfl
  case attr a => cases a <;> rfl

include hm in
theorem attributeAction_map (pos : Pos) (n v : Val) :
    attributeAction (m.pos pos) (valMap m fw n) (valMap m fw v) =
      (valVMap m fw).act (attributeAction pos n v) := by
  have hs : ∀ s : StrAttr, (m.str s).valueStr = s.valueStr := fun s => rfl
  unfold attributeAction
  cases n <;> simp only [valMap, VMap.act, valVMap]
  case attr a =>
    cases a <;> simp only [AMap.attr, VMap.act, valMap, hs]
    case str s =>
      cases v <;> simp only [valMap, VMap.act]
      case attr b => cases b <;> simp [AMap.attr, valMap, AMap.str, AMap.num, hm.nil]
      case plugin p => simp [AMap.attr, hm.nil]
  case str s =>
    cases v <;> simp only [valMap, VMap.act]
    case attr b => cases b <;> simp [AMap.attr, valMap, AMap.str, AMap.num, hm.nil]
    case plugin p => simp [AMap.attr, hm.nil]

theorem configLoop_map (m : AMap) (psc : CommentBlock) (first : Bool) (l : List Val) (c : Config)
    (hc : c.warnings = []) :
    configLoop (m.com psc) first (l.map (valMap m fw)) (m.config c) =
      (configLoop psc first l c).map m.config := by
  induction l generalizing first c with
  | nil => rfl
  | cons v l ih =>
    cases v <;> try rfl
    case sect s =>
      simp only [List.map_cons, valMap, configLoop]
      have e1 : (if first = true then { m.sect s with comment := m.com psc } else m.sect s) =
          m.sect (if first = true then { s with comment := psc } else s) := by
        cases first <;> rfl
      rw [e1]
      generalize (if first = true then { s with comment := psc } else s) = s'
      have e2 : (m.sect s').ptype = s'.ptype := rfl
      rw [e2]
      cases s'.ptype with
      | undefined => rfl
      | input =>
        have := ih false { c with input := c.input ++ [s'] } hc
        simpa [AMap.config] using this
      | filter =>
        have := ih false { c with filter := c.filter ++ [s'] } hc
        simpa [AMap.config] using this
      | output =>
        have := ih false { c with output := c.output ++ [s'] } hc
        simpa [AMap.config] using this

theorem configLoop_warnings (psc : CommentBlock) (first : Bool) (l : List Val) (c c' : Config)
    (h : configLoop psc first l c = some c') : c'.warnings = c.warnings := by
  induction l generalizing first c with
  | nil => simp [configLoop] at h; rw [h]
  | cons v l ih =>
    cases v <;> try (simp [configLoop] at h; done)
    case sect s =>
      simp only [configLoop] at h
      split at h
      · have := ih _ _ h; exact this
      · have := ih _ _ h; exact this
      · have := ih _ _ h; exact this
      · cases h

theorem Expr.setBool_map (b : BoolOp) (e : Expr) :
    (m.expr e).setBool (m.boolOp b) = m.expr (e.setBool b) := by
  cases e <;> simp [Expr.setBool, AMap.expr, AMap.boolExpr, AMap.boolOp]


theorem noOp_map (hp : m.pos Pos.zero = Pos.zero) : m.boolExpr noOp = noOp := by
  simp [noOp, AMap.boolExpr, AMap.boolOp, hp]

include hm in
/-- Every action commutes with the map. -/
theorem runAct_map (hw : fw [] = []) {o1 o2 : Opts}
    (hc : ∀ text, commentAction o2 text = m.com (commentAction o1 text)) (a : Act) (fr : Frame)
    (pos : Pos) (text : Bytes) (warns : List Bytes) :
    runAct o2 a ((valVMap m fw).fr fr) (m.pos pos) text (fw warns) =
      (valVMap m fw).act (runAct o1 a fr pos text warns) := by
  have hget : ∀ l, Frame.get ((valVMap m fw).fr fr) l = valMap m fw (Frame.get fr l) :=
    fun l => (valVMap m fw).get fr l
  have hact : ∀ r, (valVMap m fw).act r = match r with
    | .val v => .val (valMap m fw v) | .err v e => .err (valMap m fw v) e | .panic e => .panic e := by
    intro r; cases r <;> rfl
  have hz : m.config Config.empty = Config.empty := by simp [AMap.config, Config.empty, hm.nil]
  have he : m.elseB ElseB.zero = ElseB.zero := by
    simp [ElseB.zero, AMap.elseB, AMap.bops, hm.zero, hm.nil]
  cases a with
  | retConfig l =>
    simp only [runAct, hget]
    cases fr.get l <;> simp [valMap, hact, hz] <;> simp [Config.empty, AMap.config, hm.nil]
  | ret l => simp [runAct, hget, hact]
  | newConfig => simp [runAct, hact, valMap, AMap.config, hm.nil, hw, Config.empty]
  | config ps pss psc f =>
    simp only [runAct, hget, toIfaceSlice_map, hm.block, ← List.map_append]
    have h0 := configLoop_map fw m (commentBlock (fr.get psc) false true) true
      (toIfaceSlice (fr.get ps) ++ toIfaceSlice (fr.get pss)) Config.empty rfl
    have h1 := fun c' => configLoop_warnings (commentBlock (fr.get psc) false true) true
      (toIfaceSlice (fr.get ps) ++ toIfaceSlice (fr.get pss)) Config.empty c'
    rw [hz] at h0
    rw [h0]
    cases hcl : configLoop (commentBlock (fr.get psc) false true) true
      (toIfaceSlice (fr.get ps) ++ toIfaceSlice (fr.get pss)) Config.empty with
    | none => simp [hact, valMap, AMap.config, hm.nil, Config.empty, hw]
    | some c =>
      have := h1 c hcl
      simp [hact, valMap, AMap.config, this, Config.empty, hw]
  | configSection ps psc =>
    simp only [runAct, hget, hm.block]
    cases fr.get ps <;> simp [valMap, hact, AMap.sect, hm.zero, hm.nil, AMap.bops]
  | comment => simp [runAct, hact, valMap, hc]
  | whitespace => simp [runAct, hact, valMap]
  | str => simp [runAct, hact, valMap]
  | ptype t => simp [runAct, hact, valMap]
  | pluginSection pt bops f =>
    simp only [runAct, hget, toIfaceSlice_map, collectBOPs_map, hm.block, badAssert]
    cases fr.get pt <;> simp [valMap, hact]
    cases collectBOPs (toIfaceSlice (fr.get bops)) <;> simp [valMap, AMap.sect, hm.zero, hm.nil]
  | plugin name as c f =>
    simp only [runAct, hget, hm.block, badAssert]
    cases fr.get as <;> simp [valMap, hact]
    · cases fr.get name <;> simp [valMap]
      case attr x => cases x <;> simp [AMap.attr, AMap.plugin, AMap.attrs, AMap.str, hm.zero, valMap]; rfl
    · cases fr.get name <;> simp [valMap]
      case attr x => cases x <;> simp [AMap.attr, AMap.plugin, AMap.attrs, AMap.str, hm.zero, valMap]; rfl
  | attributes x xs c =>
    simp only [runAct, hget, attributeComment_map hm fw, toIfaceSlice_map]
    cases attributeComment (fr.get x) (fr.get c) false with
    | none =>
      simp only [Option.map_none, List.nil_append, collectAttrs_map]
      cases collectAttrs (toIfaceSlice (fr.get xs)) <;> simp [hact, valMap, AMap.attrs]
    | some y =>
      simp only [Option.map_some, List.cons_append, List.nil_append, collectAttrs, collectAttrs_map]
      cases collectAttrs (toIfaceSlice (fr.get xs)) <;> simp [hact, valMap, AMap.attrs]
  | attributeComment x c sb =>
    simp only [runAct, hget, attributeComment_map hm fw]
    cases attributeComment (fr.get x) (fr.get c) sb <;> simp [hact, valMap]
  | «attribute» n v => simp only [runAct, hget, attributeAction_map hm fw]
  | string sat => simp [runAct, hact, valMap, AMap.attr, AMap.str, hm.zero, hm.nil]
  | enclosedValue => simp [runAct, hact, valMap]
  | regexp => simp [runAct, hact, valMap, AMap.regexp, hm.zero]
  | number =>
    simp only [runAct]
    cases parseFloat text <;> simp [hact, valMap, AMap.attr, AMap.num, hm.zero, hm.nil]
  | array v f =>
    simp only [runAct, hget, hm.block, badAssert]
    cases fr.get v <;> simp [valMap, hact, AMap.attr, hm.zero, hm.nil, AMap.attrs]
  | hash v f =>
    simp only [runAct, hget, hm.block, badAssert]
    cases fr.get v <;> simp [valMap, hact, AMap.attr, hm.zero, hm.nil, AMap.hentries]
  | hashentries x xs =>
    simp only [runAct, hget, badAssert, toIfaceSlice_map]
    cases fr.get x <;> simp [valMap, hact]
    case hentry h =>
      obtain ⟨p, k, v, c⟩ := h
      simp only [AMap.hentry, hm.first]
      have : (Val.hentry (.mk (m.pos p) (m.hkey k) (m.attr v) (m.com (setFirstSpaceBefore false c))) ::
          List.map (valMap m fw) (toIfaceSlice (fr.get xs))) =
          List.map (valMap m fw) (.hentry (.mk p k v (setFirstSpaceBefore false c)) ::
            toIfaceSlice (fr.get xs)) := by
        simp [valMap, AMap.hentry]
      rw [this, collectHEntries_map]
      cases collectHEntries (.hentry (.mk p k v (setFirstSpaceBefore false c)) ::
            toIfaceSlice (fr.get xs)) <;> simp [valMap, AMap.hentries]
  | hashentry n v c =>
    simp only [runAct, hget, toHKey_map, toAttr_map, hm.block, badAssert]
    cases toHKey (fr.get n) <;> simp [hact]
    cases toAttr (fr.get v) <;> simp [valMap, AMap.hentry, hm.zero]
  | elseIfComment x c =>
    simp only [runAct, hget, hm.block, badAssert]
    cases fr.get x <;> simp [valMap, hact]
    case elif e => obtain ⟨p, cc, b, cm, f⟩ := e; simp [AMap.elif, valMap]
  | elseComment x c =>
    simp only [runAct, hget, hm.block, badAssert]
    cases fr.get x <;> simp [valMap, hact]
    case elseB e => obtain ⟨p, b, cm, f⟩ := e; simp [AMap.elseB, valMap]
  | branch i ei el c =>
    simp only [runAct, hget, hm.block, badAssert, toIfaceSlice_map, collectElifs_map]
    cases collectElifs (toIfaceSlice (fr.get ei)) with
    | none => simp [hact, valMap, hm.zero, hm.nil, AMap.cond, AMap.bops, AMap.elifs, he]
    | some eis =>
      simp only [Option.map_some]
      cases fr.get el <;> simp [valMap, hact]
      all_goals cases fr.get i <;> simp [valMap, he]
  | branchOrPluginComment x c =>
    simp only [runAct, hget, hm.block]
    cases fr.get x <;> simp [valMap, hact]
    case plugin p => obtain ⟨p, n, as, cm, f⟩ := p; simp [AMap.plugin, valMap]
  | ifBlock c b f =>
    simp only [runAct, hget, hm.block, branchOrPlugins_map, badAssert]
    cases fr.get c <;> simp [valMap, hact, hm.zero, hm.nil]
  | elseIfBlock c b f =>
    simp only [runAct, hget, hm.block, branchOrPlugins_map, badAssert]
    cases fr.get c <;> simp [valMap, hact, hm.zero, hm.nil, AMap.elif]
  | elseBlock b f =>
    simp only [runAct, hget, hm.block, branchOrPlugins_map]
    simp [valMap, hact, hm.zero, hm.nil, AMap.elseB]
  | condition c cs =>
    simp only [runAct, hget, toIfaceSlice_map, ← List.map_append, collectExprs_map]
    cases collectExprs (toIfaceSlice (fr.get c) ++ toIfaceSlice (fr.get cs)) <;>
      simp [valMap, hact, AMap.cond]
  | expression bo c =>
    simp only [runAct, hget, badAssert]
    cases fr.get c <;> simp [valMap, hact]
    cases fr.get bo <;> simp [valMap, Expr.setBool_map]
  | conditionExpression c =>
    simp only [runAct, hget, badAssert]
    cases fr.get c <;> simp [valMap, hact, AMap.expr, hm.zero, noOp_map hm.zero]
  | negativeExpression c =>
    simp only [runAct, hget, badAssert]
    cases fr.get c <;> simp [valMap, hact, AMap.expr, hm.zero, noOp_map hm.zero]
  | negativeSelector c =>
    simp only [runAct, hget, badAssert]
    cases fr.get c <;> simp [valMap, hact, AMap.expr, hm.zero, noOp_map hm.zero]
  | inExpression l r =>
    simp only [runAct, hget, badAssert, toRvalue_map]
    cases toRvalue (fr.get l) <;> simp [hact]
    cases toRvalue (fr.get r) <;> simp [valMap, AMap.expr, hm.zero, noOp_map hm.zero]
  | notInExpression l r =>
    simp only [runAct, hget, badAssert, toRvalue_map]
    cases toRvalue (fr.get l) <;> simp [hact]
    cases toRvalue (fr.get r) <;> simp [valMap, AMap.expr, hm.zero, noOp_map hm.zero]
  | compareExpression l co r =>
    simp only [runAct, hget, badAssert, toRvalue_map]
    cases toRvalue (fr.get l) <;> simp [hact]
    cases fr.get co <;> simp [valMap]
    cases toRvalue (fr.get r) <;> simp [valMap, AMap.expr, hm.zero, noOp_map hm.zero]
  | regexpExpression l co r =>
    simp only [runAct, hget, badAssert, toRvalue_map, toSOR_map]
    cases toRvalue (fr.get l) <;> simp [hact]
    cases fr.get co <;> simp [valMap]
    cases toStringOrRegexp (fr.get r) <;> simp [valMap, AMap.expr, hm.zero, noOp_map hm.zero]
  | rvalue r =>
    simp only [runAct, hget, badAssert, toRvalue_map]
    cases toRvalue (fr.get r) <;> simp [hact, valMap, AMap.expr, hm.zero, noOp_map hm.zero]
  | compareOperator => simp [runAct, hact, valMap, AMap.cmpOp, hm.zero]
  | regexpOperator => simp [runAct, hact, valMap, AMap.reOp, hm.zero]
  | booleanOperator => simp [runAct, hact, valMap, AMap.boolOp, hm.zero]
  | selector s =>
    simp only [runAct, hget, badAssert, toIfaceSlice_map, collectSelElems_map]
    cases collectSelElems (toIfaceSlice (fr.get s)) <;> simp [hact, valMap, AMap.selector, hm.zero]
  | selectorElement => simp [runAct, hact, valMap, AMap.selElem, hm.zero]


include hm in
/-- The map relates runs whose options differ in the treatment of comments and warnings. -/
theorem valVMap_compat (hw : fw [] = []) {o1 o2 : Opts}
    (hc : ∀ text, commentAction o2 text = m.com (commentAction o1 text))
    (hs : ∀ c s, runState o2 c ((valVMap m fw).st s) = (valVMap m fw).st (runState o1 c s))
    (hi : o2.allowInvalid = o1.allowInvalid) (hx : o2.maxExpr = o1.maxExpr)
    (hp : ∀ p, m.pos p = p) :
    (valVMap m fw).Compat o1 o2 :=
  ⟨fun a fr pos text warns => by
    have := runAct_map hm fw hw hc a fr pos text warns
    rwa [hp] at this, hs, hi, fun c => by simp only [tooMany, hx]; rfl⟩

end

/-! ### The identity and the erasure of comments -/

theorem AMap.str_id (a : StrAttr) : AMap.id.str a = a := rfl
theorem AMap.num_id (a : NumAttr) : AMap.id.num a = a := rfl
theorem AMap.hkey_id (a : HKey) : AMap.id.hkey a = a := by cases a <;> rfl

mutual
theorem AMap.attr_id : ∀ a, AMap.id.attr a = a
  | .nil => rfl
  | .str _ => rfl
  | .num _ => rfl
  | .arr p n as c f => by
    show Attr.arr p n (AMap.id.attrs as) c f = _
    rw [AMap.attrs_id]
  | .hash p n es c f => by
    show Attr.hash p n (AMap.id.hentries es) c f = _
    rw [AMap.hentries_id]
  | .plug p n v c => by
    show Attr.plug p n (AMap.id.plugin v) c = _
    rw [AMap.plugin_id]
theorem AMap.attrs_id : ∀ l, AMap.id.attrs l = l
  | [] => rfl
  | a :: l => by rw [AMap.attrs, AMap.attr_id, AMap.attrs_id]
theorem AMap.hentry_id : ∀ e, AMap.id.hentry e = e
  | .mk p k v c => by rw [AMap.hentry, AMap.attr_id, AMap.hkey_id]; rfl
theorem AMap.hentries_id : ∀ l, AMap.id.hentries l = l
  | [] => rfl
  | a :: l => by rw [AMap.hentries, AMap.hentry_id, AMap.hentries_id]
theorem AMap.plugin_id : ∀ p, AMap.id.plugin p = p
  | .mk p n as c f => by rw [AMap.plugin, AMap.attrs_id]; rfl
end

theorem AMap.selector_id (s : Selector) : AMap.id.selector s = s := by
  obtain ⟨p, l⟩ := s
  have : AMap.id.selElem = fun x => x := by funext x; rfl
  unfold AMap.selector; rw [this]; simp [AMap.id]

theorem AMap.rvalue_id (r : Rvalue) : AMap.id.rvalue r = r := by
  cases r <;> try rfl
  · simp [AMap.rvalue, AMap.selector_id]
  · simp [AMap.rvalue, AMap.attrs_id]; exact ⟨rfl, rfl, rfl⟩

mutual
theorem AMap.expr_id : ∀ e, AMap.id.expr e = e
  | .nil => rfl
  | .cond p b c => by rw [AMap.expr, AMap.cond_id]; rfl
  | .negCond p b c => by rw [AMap.expr, AMap.cond_id]; rfl
  | .negSel p b s => by rw [AMap.expr, AMap.selector_id]; rfl
  | .inE p b l r => by rw [AMap.expr, AMap.rvalue_id, AMap.rvalue_id]; rfl
  | .notIn p b l r => by rw [AMap.expr, AMap.rvalue_id, AMap.rvalue_id]; rfl
  | .rval p b r => by rw [AMap.expr, AMap.rvalue_id]; rfl
  | .cmp p b l o r => by rw [AMap.expr, AMap.rvalue_id, AMap.rvalue_id]; rfl
  | .re p b l o r => by rw [AMap.expr, AMap.rvalue_id, AMap.rvalue_id]; rfl
theorem AMap.cond_id : ∀ l, AMap.id.cond l = l
  | [] => rfl
  | e :: l => by rw [AMap.cond, AMap.expr_id, AMap.cond_id]
end

mutual
theorem AMap.bop_id : ∀ b, AMap.id.bop b = b
  | .nil => rfl
  | .plugin p => by rw [AMap.bop, AMap.plugin_id]
  | .pluginPtr p => by rw [AMap.bop, AMap.plugin_id]
  | .branch p c b cm f ei el => by
    rw [AMap.bop, AMap.cond_id, AMap.bops_id, AMap.elifs_id, AMap.elseB_id]; rfl
theorem AMap.bops_id : ∀ l, AMap.id.bops l = l
  | [] => rfl
  | b :: l => by rw [AMap.bops, AMap.bop_id, AMap.bops_id]
theorem AMap.elif_id : ∀ e, AMap.id.elif e = e
  | .mk p c b cm f => by rw [AMap.elif, AMap.cond_id, AMap.bops_id]; rfl
theorem AMap.elifs_id : ∀ l, AMap.id.elifs l = l
  | [] => rfl
  | b :: l => by rw [AMap.elifs, AMap.elif_id, AMap.elifs_id]
theorem AMap.elseB_id : ∀ e, AMap.id.elseB e = e
  | .mk p b cm f => by rw [AMap.elseB, AMap.bops_id]; rfl
end

theorem AMap.sect_id (s : Section) : AMap.id.sect s = s := by
  unfold AMap.sect; rw [AMap.bops_id]; rfl

theorem AMap.config_id (c : Config) : AMap.id.config c = c := by
  have : AMap.id.sect = fun x => x := by funext x; exact AMap.sect_id x
  unfold AMap.config; rw [this]; simp [AMap.id]

theorem commentBlockLoop_id (fw : List Bytes → List Bytes) (a b : Bool) (l : List Val) (acc : List Comment) :
    commentBlockLoop a b (l.map (valMap .id fw)) acc = commentBlockLoop a b l acc := by
  induction l generalizing acc with
  | nil => rfl
  | cons v l ih => cases v <;> simp [commentBlockLoop, valMap, ih] <;> rfl

/-- The identity is compatible with comments. -/
theorem comOk_id : ComOk .id where
  zero := rfl
  nil := rfl
  block fw v a b := by
    unfold commentBlock
    rw [toIfaceSlice_map, commentBlockLoop_id]; rfl
  first _ _ := rfl

theorem commentBlockLoop_none (fw : List Bytes → List Bytes) (a b : Bool) (l : List Val) :
    commentBlockLoop a b (l.map (valMap .noComments fw)) [] = [] := by
  induction l with
  | nil => rfl
  | cons v l ih =>
    cases v <;> simp [commentBlockLoop, valMap, ih, AMap.noComments]
    all_goals try exact ih
    rw [show (if a = true then setFirstSpaceBefore true [] else []) = [] by cases a <;> rfl]
    exact ih

/-- Erasing comments is compatible with comments. -/
theorem comOk_noComments : ComOk .noComments where
  zero := rfl
  nil := rfl
  block fw v a b := by
    unfold commentBlock
    rw [toIfaceSlice_map, commentBlockLoop_none]; rfl
  first _ _ := rfl

theorem commentBlockLoop_noPos (fw : List Bytes → List Bytes) (a b : Bool) (l : List Val) (acc : List Comment) :
    commentBlockLoop a b (l.map (valMap .noPos fw)) acc = commentBlockLoop a b l acc := by
  induction l generalizing acc with
  | nil => rfl
  | cons v l ih => cases v <;> simp [commentBlockLoop, valMap, ih] <;> rfl

/-- Erasing positions is compatible with comments. -/
theorem comOk_noPos : ComOk .noPos where
  zero := rfl
  nil := rfl
  block fw v a b := by
    unfold commentBlock
    rw [toIfaceSlice_map, commentBlockLoop_noPos]; rfl
  first _ _ := rfl

end Verif
