import Verif.Spec.Built
import Verif.Proofs.TextsPrint
import Verif.Proofs.ClearIff
/-
Configurations built with the constructors (`Spec.Built`): they are printable, their text is valid UTF-8, and nothing of
them changes by formatting.
-/
namespace Verif
open Spec Spec.Built

namespace Bld

theorem ascii_of {b : Bytes} {p : UInt8 → Bool} (hp : ∀ c, p c = true → c < 128) (h : ∀ c ∈ b, p c = true) : ValidUTF8 b := by
  apply validUTF8_ascii
  simp only [asciiB, List.all_eq_true, decide_eq_true_eq]
  exact fun c hc => hp c (h c hc)

theorem nameChar_lt : ∀ c, isNameChar c = true → c < 128 := by decide +kernel
theorem wordChar_lt : ∀ c, isWordChar c = true → c < 128 := by decide +kernel

theorem name_ok {n : Bytes} (h : Name n) : NameOk n ∧ ValidUTF8 n :=
  ⟨⟨⟨.bareword, n⟩, .inl ⟨rfl, h.1, by simpa using h.2⟩, by simp [StrLit.text, StrLit.quote]⟩, ascii_of nameChar_lt h.2⟩

theorem text_ok {v : Bytes} {sat : Sat} (h : Text v sat) : (⟨sat, v⟩ : StrLit).Value ∧ ValidUTF8 v := by
  rcases h with ⟨h1, h2⟩ | ⟨h1, h2, h3, h4⟩
  · exact ⟨.inr h2, h1⟩
  · refine ⟨.inl ⟨h1, ?_⟩, ascii_of wordChar_lt h3⟩
    cases v with
    | nil => simp at h2
    | cons c r =>
      refine ⟨c, r, rfl, h4 c rfl, ?_, ?_⟩
      · rintro rfl; simp at h2
      · simpa using fun x hx => h3 x (by simp [hx])

theorem plain_ok {v : Bytes} (h : Plain v) : Balanced v ∧ ValidUTF8 v := ⟨h.2, h.1⟩

theorem names_eq (names : List Bytes) : New.selectorFromNames names = selAst names := by
  have h : ∀ (acc : List SelElem), names.foldl (fun e n => e ++ [New.selectorElement n]) acc
      = acc ++ names.map fun n => ⟨Pos.zero, n⟩ := by
    induction names with
    | nil => simp
    | cons n ns ih => intro acc; rw [List.foldl_cons, ih]; simp [New.selectorElement]
  simp [New.selectorFromNames, New.selector, h, selAst]

theorem fields_ok {names : List Bytes} (h : Fields names) :
    SelOk ((New.selectorFromNames names).elems.map (·.name)) ∧ (∀ e ∈ (New.selectorFromNames names).elems, Balanced e.name) ∧
    SelTx (New.selectorFromNames names) ∧ AMap.noPos.selector (New.selectorFromNames names) = New.selectorFromNames names := by
  rw [names_eq]
  have hm : ((selAst names).elems.map (·.name)) = names := by simp [selAst, Function.comp_def]
  rw [hm]
  refine ⟨⟨h.1, fun n hn => ⟨(h.2 n hn).1, by simpa using (h.2 n hn).2.2⟩⟩, ?_, ?_, ?_⟩
  · intro e he
    simp only [selAst, List.mem_map] at he
    obtain ⟨n, hn, rfl⟩ := he
    exact (plain_ok (h.2 n hn).2.1).1
  · intro e he
    simp only [selAst, List.mem_map] at he
    obtain ⟨n, hn, rfl⟩ := he
    exact (plain_ok (h.2 n hn).2.1).2
  · simp [AMap.selector, selAst, AMap.selElem, AMap.noPos]

theorem nocoms : CommentsOk [] := fun _ h => nomatch h
theorem nocomsTx : ComsTx [] := fun _ h => nomatch h

/-- What is needed of a value. -/
structure Good (n : Bytes) (a : Attr) : Prop where
  ok : ValueOk true a
  name : a.name = n
  com : a.comment = []
  tx : ValTx a
  set : settleVal a = a

theorem Good.setC {n : Bytes} {a : Attr} (h : Good n a) (b : Bool) : withComment (markFirst b a.comment) (settleVal a) = a := by
  rw [h.com, h.set]
  have := h.com
  cases a <;> simp_all [withComment, markFirst, Attr.comment]
  all_goals rename_i x; cases x; simp_all

theorem elems_ok : ∀ {l : List Attr}, (∀ a ∈ l, Good [] a ∧ a.isPlug = false) →
    ElemsOk true l ∧ AttrsTx l ∧ ∀ b, settleAttrs b l = l
  | [], _ => by simp [ElemsOk, AttrsTx, settleAttrs]
  | a :: l, h => by
    obtain ⟨h1, h2, h3⟩ := elems_ok (l := l) fun x hx => h x (List.mem_cons_of_mem _ hx)
    obtain ⟨g, gp⟩ := h a List.mem_cons_self
    refine ⟨?_, ?_, fun b => ?_⟩
    · rw [ElemsOk]; exact ⟨g.ok, gp, g.name, by rw [g.com]; exact nocoms, h1⟩
    · rw [AttrsTx]; exact ⟨by rw [g.name]; exact validUTF8_nil, by rw [g.com]; exact nocomsTx, g.tx, h2⟩
    · rw [settleAttrs, g.setC, h3]

theorem attrs_ok : ∀ {l : List Attr}, (∀ a ∈ l, ∃ n, Name n ∧ Good n a) →
    AttrsOk true l ∧ AttrsTx l ∧ ∀ b, settleAttrs b l = l
  | [], _ => by simp [AttrsOk, AttrsTx, settleAttrs]
  | a :: l, h => by
    obtain ⟨h1, h2, h3⟩ := attrs_ok (l := l) fun x hx => h x (List.mem_cons_of_mem _ hx)
    obtain ⟨n, hn, g⟩ := h a List.mem_cons_self
    refine ⟨?_, ?_, fun b => ?_⟩
    · rw [AttrsOk]; exact ⟨g.ok, by rw [g.name]; exact (name_ok hn).1, by rw [g.com]; exact nocoms, h1⟩
    · rw [AttrsTx]; exact ⟨by rw [g.name]; exact (name_ok hn).2, by rw [g.com]; exact nocomsTx, g.tx, h2⟩
    · rw [settleAttrs, g.setC, h3]

theorem key_ok {k : HKey} (h : Key k) : KeyOk true k ∧ KeyTx k ∧ AMap.noPos.hkey k = k := by
  cases h with
  | str h => exact ⟨⟨(text_ok h).1, rfl, rfl⟩, (text_ok h).2, rfl⟩
  | num h => exact ⟨⟨fun _ => h, rfl, rfl⟩, trivial, rfl⟩

theorem entries_ok : ∀ {l : List HEntry},
    (∀ e ∈ l, ∃ k v, e = New.hashEntry k v ∧ Key k ∧ Good [] v ∧ v.isPlug = false) →
    EntriesOk true l ∧ EntriesTx l ∧ ∀ b, settleEntries b l = l
  | [], _ => by simp [EntriesOk, EntriesTx, settleEntries]
  | e :: l, h => by
    obtain ⟨h1, h2, h3⟩ := entries_ok (l := l) fun x hx => h x (List.mem_cons_of_mem _ hx)
    obtain ⟨k, v, rfl, hk, g, gp⟩ := h e List.mem_cons_self
    obtain ⟨k1, k2, k3⟩ := key_ok hk
    refine ⟨?_, ?_, fun b => ?_⟩
    · rw [New.hashEntry, EntriesOk]; exact ⟨k1, g.ok, gp, g.name, g.com, nocoms, h1⟩
    · rw [New.hashEntry, EntriesTx]; exact ⟨k2, g.tx, nocomsTx, h2⟩
    · rw [New.hashEntry, settleEntries, g.set, k3, h3]; rfl

mutual
theorem value_ok : ∀ {n a}, Value n a → Good n a ∧ a.isPlug = false
  | _, _, .str h => ⟨⟨by rw [ValueOk]; exact (text_ok h).1, rfl, rfl, by rw [ValTx]; exact (text_ok h).2, by rw [settleVal]; rfl⟩, rfl⟩
  | _, _, .num h => ⟨⟨by rw [ValueOk]; exact fun _ => h, rfl, rfl, by rw [ValTx]; trivial, by rw [settleVal]; rfl⟩, rfl⟩
  | _, _, .arr (l := l) h => by
    obtain ⟨h1, h2, h3⟩ := elems_ok (l := l) fun a ha => value_ok (h a ha)
    refine ⟨⟨?_, rfl, rfl, ?_, ?_⟩, rfl⟩
    · rw [New.arrayAttribute, ValueOk]; exact ⟨h1, nocoms⟩
    · rw [New.arrayAttribute, ValTx]; exact ⟨h2, nocomsTx⟩
    · rw [New.arrayAttribute, settleVal, h3]; rfl
  | _, _, .hash (l := l) h => by
    obtain ⟨h1, h2, h3⟩ := entries_ok (l := l) fun a ha => entry_ok (h a ha)
    refine ⟨⟨?_, rfl, rfl, ?_, ?_⟩, rfl⟩
    · rw [New.hashAttribute, ValueOk]; exact ⟨h1, nocoms⟩
    · rw [New.hashAttribute, ValTx]; exact ⟨h2, nocomsTx⟩
    · rw [New.hashAttribute, settleVal, h3]; rfl
theorem entry_ok : ∀ {e}, Entry e → ∃ k v, e = New.hashEntry k v ∧ Key k ∧ Good [] v ∧ v.isPlug = false
  | _, .mk hk hv => ⟨_, _, rfl, hk, value_ok hv⟩
end

/-- What is needed of a plugin. -/
structure GoodP (p : Plugin) : Prop where
  ok : PluginOk true p
  com : p.comment = []
  tx : PlugTx p
  set : settlePlugin p = p

mutual
theorem setting_ok : ∀ {a}, Setting a → ∃ n, Name n ∧ Good n a
  | _, .value hn h => ⟨_, hn, (value_ok h).1⟩
  | _, .plugin hn h => by
    obtain ⟨h1, h2, h3, h4⟩ := plug_ok h
    refine ⟨_, hn, ⟨?_, rfl, rfl, ?_, ?_⟩⟩
    · rw [New.pluginAttribute, ValueOk]; exact ⟨h1, h2⟩
    · rw [New.pluginAttribute, ValTx]; exact h3
    · rw [New.pluginAttribute, settleVal, h4]
theorem plug_ok : ∀ {p}, Plug p → GoodP p
  | _, .mk (l := l) hn h => by
    obtain ⟨h1, h2, h3⟩ := attrs_ok (l := l) fun a ha => setting_ok (h a ha)
    refine ⟨?_, rfl, ?_, ?_⟩
    · rw [New.plugin, PluginOk]; exact ⟨(name_ok hn).1, h1, nocoms, nocoms⟩
    · rw [New.plugin, PlugTx]; exact ⟨(name_ok hn).2, h2, nocomsTx, nocomsTx⟩
    · rw [New.plugin, settlePlugin, h3]; rfl
end

/-- What is needed of a value in a condition. -/
structure GoodR (r : Rvalue) : Prop where
  ok : RvalueOk true r
  tx : RvTx r
  set : settleRvalue r = r

theorem operand_ok {r : Rvalue} (h : Operand r) : GoodR r := by
  cases h with
  | str h => exact ⟨⟨h.2, rfl, rfl⟩, h.1, rfl⟩
  | num h => exact ⟨⟨fun _ => h, rfl, rfl⟩, trivial, rfl⟩
  | sel h =>
    obtain ⟨h1, h2, h3, h4⟩ := fields_ok h
    exact ⟨⟨h1, fun _ => h2⟩, h3, by simp only [settleRvalue, AMap.rvalue]; rw [h4]⟩
  | re h hb => exact ⟨⟨hb, fun _ => (plain_ok h).1⟩, (plain_ok h).2, rfl⟩
  | arr h hs =>
    obtain ⟨h1, h2, h3⟩ := elems_ok fun a ha => value_ok (h a ha)
    exact ⟨⟨h1, nocoms, rfl, rfl, fun _ => hs⟩, ⟨h2, nocomsTx⟩, by simp only [settleRvalue, New.arrayRvalue]; rw [h3]; rfl⟩

theorem pattern_ok {r : Rvalue} (h : Pattern r) : GoodR r ∧ IsPattern r := by
  cases h with
  | str h => exact ⟨⟨⟨h.2, rfl, rfl⟩, h.1, rfl⟩, trivial⟩
  | re h hb => exact ⟨⟨⟨hb, fun _ => (plain_ok h).1⟩, (plain_ok h).2, rfl⟩, trivial⟩

/-- What is needed of an expression. -/
structure GoodE (first : Bool) (e : Expr) : Prop where
  ok : Spec.ExprOk true first e
  tx : ExprTx e
  set : settleExpr e = e

theorem join_ok {k : BoolOpKind} {first : Bool} (h : if first then k = .noOp else k ≠ .noOp ∧ k ≠ .undefined) :
    JoinOk first (New.boolExpr (op k)) := by
  simpa [JoinOk, New.boolExpr, op] using h

theorem conds_ok : ∀ {l : List Expr}, (∀ x ∈ l, GoodE false x) → Spec.CondOk true false l ∧ CondTx l ∧ settleCond l = l
  | [], _ => by simp [Spec.CondOk, CondTx, settleCond]
  | e :: l, h => by
    obtain ⟨h1, h2, h3⟩ := conds_ok (l := l) fun x hx => h x (List.mem_cons_of_mem _ hx)
    have g := h e List.mem_cons_self
    exact ⟨by rw [Spec.CondOk]; exact ⟨g.ok, h1⟩, by rw [CondTx]; exact ⟨g.tx, h2⟩, by rw [settleCond, g.set, h3]⟩

/-- What is needed of a condition. -/
structure GoodC (c : Condition) : Prop where
  ok : Spec.CondOk true true c
  tx : CondTx c
  set : settleCond c = c

mutual
theorem test_ok : ∀ {k e}, Test k e → ∀ {first : Bool}, (if first then k = .noOp else k ≠ .noOp ∧ k ≠ .undefined) → GoodE first e
  | _, _, .cond h, _, hk => by
    have g := cond_ok h
    exact ⟨by rw [New.conditionExpression, Spec.ExprOk]; exact ⟨join_ok hk, g.ok⟩, by rw [New.conditionExpression, ExprTx]; exact g.tx,
      by rw [New.conditionExpression, settleExpr, g.set]; rfl⟩
  | _, _, .negCond h, _, hk => by
    have g := cond_ok h
    exact ⟨by rw [New.negativeConditionExpression, Spec.ExprOk]; exact ⟨join_ok hk, g.ok⟩,
      by rw [New.negativeConditionExpression, ExprTx]; exact g.tx,
      by rw [New.negativeConditionExpression, settleExpr, g.set]; rfl⟩
  | _, _, .negSel h, _, hk => by
    obtain ⟨h1, h2, h3, h4⟩ := fields_ok h
    exact ⟨by rw [New.negativeSelectorExpression, Spec.ExprOk]; exact ⟨join_ok hk, h1, fun _ => h2⟩,
      by rw [New.negativeSelectorExpression, ExprTx]; exact h3,
      by rw [New.negativeSelectorExpression, settleExpr, h4]; rfl⟩
  | _, _, .inE hl hr, _, hk => by
    have l := operand_ok hl
    have r := operand_ok hr
    exact ⟨by rw [New.inExpression, Spec.ExprOk]; exact ⟨join_ok hk, l.ok, r.ok⟩,
      by rw [New.inExpression, ExprTx]; exact ⟨l.tx, r.tx⟩, by rw [New.inExpression, settleExpr, l.set, r.set]; rfl⟩
  | _, _, .notIn hl hr, _, hk => by
    have l := operand_ok hl
    have r := operand_ok hr
    exact ⟨by rw [New.notInExpression, Spec.ExprOk]; exact ⟨join_ok hk, l.ok, r.ok⟩,
      by rw [New.notInExpression, ExprTx]; exact ⟨l.tx, r.tx⟩, by rw [New.notInExpression, settleExpr, l.set, r.set]; rfl⟩
  | _, _, .rval hr, _, hk => by
    have r := operand_ok hr
    exact ⟨by rw [New.rvalueExpression, Spec.ExprOk]; exact ⟨join_ok hk, r.ok⟩,
      by rw [New.rvalueExpression, ExprTx]; exact r.tx, by rw [New.rvalueExpression, settleExpr, r.set]; rfl⟩
  | _, _, .cmp hl hc hr, _, hk => by
    have l := operand_ok hl
    have r := operand_ok hr
    exact ⟨by rw [New.compareExpression, Spec.ExprOk]; exact ⟨join_ok hk, l.ok, hc, r.ok⟩,
      by rw [New.compareExpression, ExprTx]; exact ⟨l.tx, r.tx⟩, by rw [New.compareExpression, settleExpr, l.set, r.set]; rfl⟩
  | _, _, .re hl hc hr, _, hk => by
    have l := operand_ok hl
    have r := pattern_ok hr
    exact ⟨by rw [New.regexpExpression, Spec.ExprOk]; exact ⟨join_ok hk, l.ok, hc, r.1.ok, r.2⟩,
      by rw [New.regexpExpression, ExprTx]; exact ⟨l.tx, r.1.tx⟩, by rw [New.regexpExpression, settleExpr, l.set, r.1.set]; rfl⟩
theorem cond_ok : ∀ {c}, Cond c → GoodC c
  | _, .mk (l := l) he hl => by
    have g := test_ok he (first := true) rfl
    obtain ⟨h1, h2, h3⟩ := conds_ok (l := l) fun x hx => joined_ok (hl x hx)
    exact ⟨by rw [New.condition, Spec.CondOk]; exact ⟨g.ok, h1⟩, by rw [New.condition, CondTx]; exact ⟨g.tx, h2⟩,
      by rw [New.condition, settleCond, g.set, h3]⟩
theorem joined_ok : ∀ {e}, Joined e → GoodE false e
  | _, .mk h1 h2 h => test_ok h ⟨h1, h2⟩
end

/-- What is needed of an element of a block. -/
structure GoodB (b : BOP) : Prop where
  ok : BopOk true b
  tx : BopTx b
  set : settleBop b = b
  noElse : ∀ bs, NoElse (b :: bs)

theorem block_ok : ∀ {l : List BOP}, (∀ x ∈ l, GoodB x) → BlockOk true l ∧ BlockTx l ∧ settleBlock l = l ∧ NoElse l
  | [], _ => by simp [BlockOk, BlockTx, settleBlock, NoElse]
  | b :: l, h => by
    obtain ⟨h1, h2, h3, h4⟩ := block_ok (l := l) fun x hx => h x (List.mem_cons_of_mem _ hx)
    have g := h b List.mem_cons_self
    exact ⟨by rw [BlockOk]; exact ⟨g.ok, fun _ _ => h4, h1⟩, by rw [BlockTx]; exact ⟨g.tx, h2⟩, by rw [settleBlock, g.set, h3],
      g.noElse l⟩

theorem elifs_ok : ∀ {l : List Elif}, (∀ x ∈ l, ∃ c b, x = New.elseIfBlock c b ∧ GoodC c ∧ ∀ y ∈ b, GoodB y) →
    ElifsOk true l ∧ ElifsTx l ∧ settleElifs l = l
  | [], _ => by simp [ElifsOk, ElifsTx, settleElifs]
  | e :: l, h => by
    obtain ⟨h1, h2, h3⟩ := elifs_ok (l := l) fun x hx => h x (List.mem_cons_of_mem _ hx)
    obtain ⟨c, b, rfl, gc, gb⟩ := h e List.mem_cons_self
    obtain ⟨b1, b2, b3, -⟩ := block_ok gb
    refine ⟨?_, ?_, ?_⟩
    · rw [New.elseIfBlock, ElifsOk]; exact ⟨gc.ok, b1, nocoms, nocoms, h1⟩
    · rw [New.elseIfBlock, ElifsTx]; exact ⟨gc.tx, b2, nocomsTx, nocomsTx, h2⟩
    · rw [New.elseIfBlock, settleElifs, gc.set, b3, h3]; rfl

theorem ifNumber_of {t : Bytes} (h : IfLike t) : ifNumber t = true := by
  obtain ⟨c, r, hc, rfl, -⟩ := h
  obtain ⟨s, d, f, h1, h2, h3, h4, -⟩ := hc.1 c.first.l (by simp [NumCond.nums, NumExpr.nums])
  cases d with
  | nil => exact absurd rfl h3
  | cons d ds =>
    rw [List.all_cons, Bool.and_eq_true] at h4
    have hd : d ≠ 45 := by rintro rfl; exact absurd h4.1 (by decide)
    rcases h2 with rfl | rfl
    · simp only [NumCond.text, NumExpr.text, h1, List.nil_append, List.cons_append, List.append_assoc]
      show ifNumber (105 :: 102 :: d :: _) = true
      unfold ifNumber
      split <;> simp_all
    · simp only [NumCond.text, NumExpr.text, h1, List.nil_append, List.cons_append, List.append_assoc]
      exact h4.1

theorem pname_ok {n : Bytes} (h : PluginName n) : ¬ IfLike n ∧ ¬ ElseName n := by
  refine ⟨fun hi => ?_, ?_⟩
  · have := ifNumber_of hi
    rw [h.2.1] at this
    cases this
  · rintro (rfl | ⟨t, ht, rfl⟩)
    · exact h.2.2.1 rfl
    · have := ifNumber_of ht
      rw [h.2.2.2 t rfl] at this
      cases this

mutual
theorem item_ok : ∀ {b}, Item b → GoodB b
  | _, .plugin hp hn => by
    have g := plug_ok hp
    have n := pname_ok hn
    exact ⟨by rw [BopOk]; exact ⟨g.ok, fun _ => n.1⟩, by rw [BopTx]; exact g.tx, by rw [settleBop, g.set], fun _ => n.2⟩
  | _, .branch (c := c) (b := b) (e := e) (l := l) hc hb he hl => by
    have gc := cond_ok hc
    obtain ⟨b1, b2, b3, -⟩ := block_ok (l := b) fun x hx => item_ok (hb x hx)
    obtain ⟨e1, e2, e3, -⟩ := block_ok (l := e) fun x hx => item_ok (he x hx)
    obtain ⟨l1, l2, l3⟩ := elifs_ok (l := l) fun x hx => elif_ok (hl x hx)
    refine ⟨?_, ?_, ?_, fun _ => trivial⟩
    · simp only [New.branch, New.ifBlock, New.elseBlock]; rw [BopOk, ElseOk]
      exact ⟨gc.ok, b1, nocoms, nocoms, l1, e1, nocoms, nocoms⟩
    · simp only [New.branch, New.ifBlock, New.elseBlock]; rw [BopTx, ElseTx]
      exact ⟨gc.tx, b2, nocomsTx, nocomsTx, l2, e2, nocomsTx, nocomsTx⟩
    · simp only [New.branch, New.ifBlock, New.elseBlock]; rw [settleBop, settleElse, gc.set, b3, e3, l3]; rfl
theorem elif_ok : ∀ {x}, ElseIf x → ∃ c b, x = New.elseIfBlock c b ∧ GoodC c ∧ ∀ y ∈ b, GoodB y
  | _, .mk hc hb => ⟨_, _, rfl, cond_ok hc, fun y hy => item_ok (hb y hy)⟩
end

theorem sections_ok {pt : PluginType} {l : List Section} (h : Sections pt l) :
    SectionsOk true pt l ∧ (∀ s ∈ l, SectTx s) ∧ ∀ b, settleSections b l = l := by
  have key : ∀ s ∈ l, s.ptype = pt ∧ s.comment = [] ∧ s.footer = [] ∧ s.start = Pos.zero ∧ BlockOk true s.bops ∧ BlockTx s.bops ∧
      settleBlock s.bops = s.bops := by
    intro s hs
    obtain ⟨b, rfl, hb⟩ := h s hs
    obtain ⟨b1, b2, b3, -⟩ := block_ok fun x hx => item_ok (hb x hx)
    exact ⟨rfl, rfl, rfl, rfl, b1, b2, b3⟩
  have hset : ∀ s ∈ l, ∀ b, settleSection b [] s = s := by
    intro s hs b
    obtain ⟨-, k2, k3, k4, -, -, k7⟩ := key s hs
    cases s
    simp only at k2 k3 k4 k7
    subst k2 k3 k4
    simp only [settleSection, k7]
    cases b <;> rfl
  refine ⟨?_, ?_, ?_⟩
  · intro s hs
    obtain ⟨k1, k2, k3, -, k5, -, -⟩ := key s hs
    refine ⟨k1, k5, ?_, ?_⟩
    · rw [k2]; exact ⟨fun _ h => (nomatch h), fun _ h => (nomatch h)⟩
    · rw [k3]; exact nocoms
  · intro s hs
    obtain ⟨-, k2, k3, -, -, k6, -⟩ := key s hs
    exact ⟨k6, by rw [k2]; exact nocomsTx, by rw [k3]; exact nocomsTx⟩
  · intro b
    cases l with
    | nil => rfl
    | cons s ss =>
      have hc := (key s List.mem_cons_self).2.1
      rw [settleSections, hc, hset s List.mem_cons_self]
      congr 1
      conv => rhs; rw [← List.map_id ss]
      exact List.map_congr_left fun x hx => hset x (List.mem_cons_of_mem _ hx) false

theorem config_ok {c : Config} (h : IsConfig c) : Printable c ∧ ConfigTx c ∧ settle c = c := by
  obtain ⟨i, f, o, rfl, hi, hf, ho⟩ := h
  obtain ⟨i1, i2, i3⟩ := sections_ok hi
  obtain ⟨f1, f2, f3⟩ := sections_ok hf
  obtain ⟨o1, o2, o3⟩ := sections_ok ho
  refine ⟨⟨i1, f1, o1, nocoms⟩, ⟨i2, f2, o2, nocomsTx⟩, ?_⟩
  simp only [settle, New.config, i3, f3, o3]
  simp [markFirst]

/-! ### There are neither positions nor comments -/

local notation "S" => AMap.skeleton

theorem attrs_skel : ∀ {l : List Attr}, (∀ a ∈ l, AMap.attr S a = a) → AMap.attrs S l = l
  | [], _ => by rw [AMap.attrs]
  | a :: l, h => by rw [AMap.attrs, h a List.mem_cons_self, attrs_skel fun x hx => h x (List.mem_cons_of_mem _ hx)]

theorem hentries_skel : ∀ {l : List HEntry}, (∀ a ∈ l, AMap.hentry S a = a) → AMap.hentries S l = l
  | [], _ => by rw [AMap.hentries]
  | a :: l, h => by rw [AMap.hentries, h a List.mem_cons_self, hentries_skel fun x hx => h x (List.mem_cons_of_mem _ hx)]

mutual
theorem value_skel : ∀ {n a}, Value n a → AMap.attr S a = a
  | _, _, .str h => by rw [AMap.attr]; rfl
  | _, _, .num h => by rw [AMap.attr]; rfl
  | _, _, .arr (l := l) h => by
    rw [New.arrayAttribute, AMap.attr, attrs_skel fun a ha => value_skel (h a ha)]; rfl
  | _, _, .hash (l := l) h => by
    rw [New.hashAttribute, AMap.attr, hentries_skel fun a ha => entry_skel (h a ha)]; rfl
theorem entry_skel : ∀ {e}, Entry e → AMap.hentry S e = e
  | _, .mk hk hv => by
    rw [New.hashEntry, AMap.hentry, value_skel hv]
    cases hk <;> rfl
end

mutual
theorem setting_skel : ∀ {a}, Setting a → AMap.attr S a = a
  | _, .value _ h => value_skel h
  | _, .plugin _ h => by rw [New.pluginAttribute, AMap.attr, plug_skel h]; rfl
theorem plug_skel : ∀ {p}, Plug p → AMap.plugin S p = p
  | _, .mk (l := l) _ h => by rw [New.plugin, AMap.plugin, attrs_skel fun a ha => setting_skel (h a ha)]; rfl
end

theorem sel_skel (names : List Bytes) : AMap.selector S (New.selectorFromNames names) = New.selectorFromNames names := by
  rw [names_eq]
  simp [AMap.selector, selAst, AMap.selElem, AMap.skeleton]

theorem operand_skel {r : Rvalue} (h : Operand r) : AMap.rvalue S r = r := by
  cases h with
  | str h => rfl
  | num h => rfl
  | sel h => simp only [AMap.rvalue]; rw [sel_skel]
  | re h hb => rfl
  | arr h hs =>
    rw [New.arrayRvalue, AMap.rvalue, attrs_skel fun a ha => value_skel (h a ha)]; rfl

theorem pattern_skel {r : Rvalue} (h : Pattern r) : AMap.rvalue S r = r := by
  cases h <;> rfl

theorem cond_skel' : ∀ {l : List Expr}, (∀ x ∈ l, AMap.expr S x = x) → AMap.cond S l = l
  | [], _ => by rw [AMap.cond]
  | a :: l, h => by rw [AMap.cond, h a List.mem_cons_self, cond_skel' fun x hx => h x (List.mem_cons_of_mem _ hx)]

mutual
theorem test_skel : ∀ {k e}, Test k e → AMap.expr S e = e
  | _, _, .cond h => by rw [New.conditionExpression, AMap.expr, cond_skel h]; rfl
  | _, _, .negCond h => by rw [New.negativeConditionExpression, AMap.expr, cond_skel h]; rfl
  | _, _, .negSel h => by rw [New.negativeSelectorExpression, AMap.expr, sel_skel]; rfl
  | _, _, .inE hl hr => by rw [New.inExpression, AMap.expr, operand_skel hl, operand_skel hr]; rfl
  | _, _, .notIn hl hr => by rw [New.notInExpression, AMap.expr, operand_skel hl, operand_skel hr]; rfl
  | _, _, .rval hr => by rw [New.rvalueExpression, AMap.expr, operand_skel hr]; rfl
  | _, _, .cmp hl hc hr => by rw [New.compareExpression, AMap.expr, operand_skel hl, operand_skel hr]; rfl
  | _, _, .re hl hc hr => by rw [New.regexpExpression, AMap.expr, operand_skel hl, pattern_skel hr]; rfl
theorem cond_skel : ∀ {c}, Cond c → AMap.cond S c = c
  | _, .mk (l := l) he hl => by rw [New.condition, AMap.cond, test_skel he, cond_skel' fun x hx => joined_skel (hl x hx)]
theorem joined_skel : ∀ {e}, Joined e → AMap.expr S e = e
  | _, .mk _ _ h => test_skel h
end

theorem bops_skel : ∀ {l : List BOP}, (∀ x ∈ l, AMap.bop S x = x) → AMap.bops S l = l
  | [], _ => by rw [AMap.bops]
  | a :: l, h => by rw [AMap.bops, h a List.mem_cons_self, bops_skel fun x hx => h x (List.mem_cons_of_mem _ hx)]

theorem elifs_skel : ∀ {l : List Elif}, (∀ x ∈ l, AMap.elif S x = x) → AMap.elifs S l = l
  | [], _ => by rw [AMap.elifs]
  | a :: l, h => by rw [AMap.elifs, h a List.mem_cons_self, elifs_skel fun x hx => h x (List.mem_cons_of_mem _ hx)]

mutual
theorem item_skel : ∀ {b}, Item b → AMap.bop S b = b
  | _, .plugin hp _ => by rw [AMap.bop, plug_skel hp]
  | _, .branch (b := b) (e := e) (l := l) hc hb he hl => by
    simp only [New.branch, New.ifBlock, New.elseBlock]
    rw [AMap.bop, AMap.elseB, cond_skel hc, bops_skel fun x hx => item_skel (hb x hx), bops_skel fun x hx => item_skel (he x hx),
      elifs_skel fun x hx => elif_skel (hl x hx)]
    rfl
theorem elif_skel : ∀ {x}, ElseIf x → AMap.elif S x = x
  | _, .mk (b := b) hc hb => by
    rw [New.elseIfBlock, AMap.elif, cond_skel hc, bops_skel fun x hx => item_skel (hb x hx)]; rfl
end

theorem sections_skel' {pt : PluginType} {l : List Section} (h : Sections pt l) : l.map (AMap.sect S) = l := by
  conv => rhs; rw [← List.map_id l]
  refine List.map_congr_left fun s hs => ?_
  obtain ⟨b, rfl, hb⟩ := h s hs
  simp only [AMap.sect, New.pluginSection, bops_skel fun x hx => item_skel (hb x hx)]
  rfl

theorem config_skel {c : Config} (h : IsConfig c) : skeleton c = c := by
  obtain ⟨i, f, o, rfl, hi, hf, ho⟩ := h
  simp only [skeleton, AMap.config, New.config, sections_skel' hi, sections_skel' hf, sections_skel' ho]
  rfl

end Bld
end Verif
