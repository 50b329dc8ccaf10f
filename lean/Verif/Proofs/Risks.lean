import Verif.Spec.Risks
import Verif.Proofs.FixIDs
import Verif.Proofs.Shape
/-
A configuration is printable if it has the shape of a parsed one and nothing goes wrong at the places
where formatting can go wrong.
-/
namespace Verif
open Verif.Spec

/-- Nothing goes wrong at these places. -/
def AllFine (l : List Risk) : Prop := ∀ r ∈ l, r.Fine

theorem fine_nil : AllFine [] ↔ True := by simp [AllFine]
theorem fine_append {a b : List Risk} : AllFine (a ++ b) ↔ AllFine a ∧ AllFine b := by
  simp only [AllFine, List.mem_append]
  exact ⟨fun h => ⟨fun r hr => h r (.inl hr), fun r hr => h r (.inr hr)⟩, fun h r hr => hr.elim (h.1 r) (h.2 r)⟩
theorem fine_cons {a : Risk} {b : List Risk} : AllFine (a :: b) ↔ a.Fine ∧ AllFine b := by simp [AllFine]

theorem keyRisks_iff (k : HKey) : KeyOk true k ↔ KeyOk false k ∧ AllFine (keyRisks k) := by
  cases k <;> simp only [KeyOk, keyRisks, fine_nil, fine_cons, Risk.Fine] <;> grind

mutual
theorem valRisks_iff : ∀ a : Attr, ValueOk true a ↔ ValueOk false a ∧ AllFine (valRisks a)
  | .nil => by simp only [ValueOk, valRisks, fine_nil]; grind
  | .str a => by simp only [ValueOk, valRisks, fine_nil]; grind
  | .num a => by simp only [ValueOk, valRisks, fine_nil, fine_cons, Risk.Fine]; grind
  | .arr _ _ as _ f => by simp only [ValueOk, valRisks, elemsRisks_iff as]; grind
  | .hash _ _ es _ f => by simp only [ValueOk, valRisks, entriesRisks_iff es]; grind
  | .plug _ _ p _ => by simp only [ValueOk, valRisks, pluginRisks_iff p]; grind
theorem elemsRisks_iff : ∀ as : List Attr, ElemsOk true as ↔ ElemsOk false as ∧ AllFine (attrsRisks as)
  | [] => by simp only [ElemsOk, attrsRisks, fine_nil]; grind
  | a :: as => by simp only [ElemsOk, attrsRisks, fine_append, valRisks_iff a, elemsRisks_iff as]; grind
theorem entriesRisks_iff : ∀ es : List HEntry, EntriesOk true es ↔ EntriesOk false es ∧ AllFine (entriesRisks es)
  | [] => by simp only [EntriesOk, entriesRisks, fine_nil]; grind
  | .mk _ k v c :: es => by
    simp only [EntriesOk, entriesRisks, fine_append, keyRisks_iff k, valRisks_iff v, entriesRisks_iff es]; grind
theorem pluginRisks_iff : ∀ p : Plugin, PluginOk true p ↔ PluginOk false p ∧ AllFine (pluginRisks p)
  | .mk _ n as c f => by simp only [PluginOk, pluginRisks, attrsRisks_iff as]; grind
theorem attrsRisks_iff : ∀ as : List Attr, AttrsOk true as ↔ AttrsOk false as ∧ AllFine (attrsRisks as)
  | [] => by simp only [AttrsOk, attrsRisks, fine_nil]; grind
  | a :: as => by simp only [AttrsOk, attrsRisks, fine_append, valRisks_iff a, attrsRisks_iff as]; grind
end

theorem selRisks_iff (s : Selector) : AllFine (selRisks s) ↔ ∀ e ∈ s.elems, Balanced e.name := by
  simp [AllFine, selRisks, Risk.Fine]

theorem rvalueRisks_iff (r : Rvalue) : RvalueOk true r ↔ RvalueOk false r ∧ AllFine (rvalueRisks r) := by
  cases r with
  | arr p n as c f => simp only [RvalueOk, rvalueRisks, fine_cons, Risk.Fine, elemsRisks_iff as]; grind
  | _ => simp only [RvalueOk, rvalueRisks, fine_nil, fine_cons, Risk.Fine, selRisks_iff]; grind

mutual
theorem exprRisks_iff : ∀ (e : Expr) (first : Bool), ExprOk true first e ↔ ExprOk false first e ∧ AllFine (exprRisks e)
  | .nil, first => by simp only [ExprOk]; grind
  | .cond _ b c, first => by simp only [ExprOk, exprRisks, condRisks_iff c]; grind
  | .negCond _ b c, first => by simp only [ExprOk, exprRisks, condRisks_iff c]; grind
  | .negSel _ b s, first => by simp only [ExprOk, exprRisks, selRisks_iff]; grind
  | .inE _ b l r, first => by simp only [ExprOk, exprRisks, fine_append, rvalueRisks_iff l, rvalueRisks_iff r]; grind
  | .notIn _ b l r, first => by simp only [ExprOk, exprRisks, fine_append, rvalueRisks_iff l, rvalueRisks_iff r]; grind
  | .rval _ b r, first => by simp only [ExprOk, exprRisks, rvalueRisks_iff r]; grind
  | .cmp _ b l o r, first => by simp only [ExprOk, exprRisks, fine_append, rvalueRisks_iff l, rvalueRisks_iff r]; grind
  | .re _ b l o r, first => by simp only [ExprOk, exprRisks, fine_append, rvalueRisks_iff l, rvalueRisks_iff r]; grind
theorem condRisks_iff : ∀ (es : List Expr) (first : Bool), CondOk true first es ↔ CondOk false first es ∧ AllFine (condRisks es)
  | [], first => by simp only [CondOk, condRisks, fine_nil]; grind
  | e :: es, first => by simp only [CondOk, condRisks, fine_append, exprRisks_iff e, condRisks_iff es]; grind
end

/-- No plugin of the list has a name like that of a branch. -/
def NoIf (ps : List Plugin) : Prop := ∀ p ∈ ps, ¬ IfLike p.name

theorem noIf_append {a b : List Plugin} : NoIf (a ++ b) ↔ NoIf a ∧ NoIf b := by
  simp only [NoIf, List.mem_append]
  exact ⟨fun h => ⟨fun r hr => h r (.inl hr), fun r hr => h r (.inr hr)⟩, fun h r hr => hr.elim (h.1 r) (h.2 r)⟩

theorem headRisk_iff (bs : List BOP) : AllFine (headRisk bs) ↔ NoElse bs := by
  unfold headRisk NoElse
  split <;> simp [AllFine, Risk.Fine]

mutual
theorem bopRisks_iff : ∀ b : BOP, BopOk true b ↔ BopOk false b ∧ AllFine (bopRisks b) ∧ NoIf (pluginsOne b)
  | .nil => by simp only [BopOk]; grind
  | .plugin p => by
    simp only [BopOk, bopRisks, pluginRisks_iff p, pluginsOne, NoIf, List.mem_singleton, forall_eq]; grind
  | .pluginPtr p => by
    simp only [BopOk, bopRisks, pluginRisks_iff p, pluginsOne, NoIf, List.mem_singleton, forall_eq]; grind
  | .branch _ c b cm f ei (.mk q eb ec ef) => by
    simp only [BopOk, ElseOk, bopRisks, elseRisks, pluginsOne, fine_append, noIf_append, condRisks_iff c, blockRisks_iff b,
      elifsRisks_iff ei, blockRisks_iff eb]; grind
theorem blockRisks_iff : ∀ bs : List BOP, BlockOk true bs ↔ BlockOk false bs ∧ AllFine (blockRisks bs) ∧ NoIf (pluginsList bs)
  | [] => by simp [BlockOk, blockRisks, fine_nil, pluginsList, NoIf]
  | b :: bs => by
    simp only [BlockOk, blockRisks, pluginsList, fine_append, noIf_append, bopRisks_iff b, blockRisks_iff bs]
    cases b.isOpen <;> simp [fine_nil, headRisk_iff] <;> grind
theorem elifsRisks_iff : ∀ es : List Elif, ElifsOk true es ↔ ElifsOk false es ∧ AllFine (elifsRisks es) ∧ NoIf (pluginsElifs es)
  | [] => by simp [ElifsOk, elifsRisks, fine_nil, pluginsElifs, NoIf]
  | .mk _ c b cm f :: es => by
    simp only [ElifsOk, elifsRisks, pluginsElifs, fine_append, noIf_append, condRisks_iff c, blockRisks_iff b, elifsRisks_iff es]
    grind
end

theorem sectionsRisks_iff (t : PluginType) (l : List Section) :
    SectionsOk true t l ↔ SectionsOk false t l ∧ AllFine (sectionsRisks l) ∧ NoIf (pluginsSections l) := by
  induction l with
  | nil => simp [SectionsOk, AllFine, NoIf, sectionsRisks, pluginsSections]
  | cons s l ih =>
    have h1 : ∀ b, SectionsOk b t (s :: l) ↔
        (s.ptype = t ∧ BlockOk b s.bops ∧ SectionCommentsOk s.comment ∧ CommentsOk s.footer) ∧ SectionsOk b t l := by
      intro b; simp [SectionsOk]
    have h2 : sectionsRisks (s :: l) = blockRisks s.bops ++ sectionsRisks l := rfl
    have h3 : pluginsSections (s :: l) = pluginsList s.bops ++ pluginsSections l := rfl
    rw [h1, h1, h2, h3, fine_append, noIf_append, ih, blockRisks_iff]
    grind

/-- A configuration is printable if it has the shape of a parsed one, nothing goes wrong at the places
where formatting can go wrong, and no plugin has a name like that of a branch. -/
theorem printable_iff (c : Config) :
    Printable c ↔ Shaped c ∧ (∀ r ∈ risks c, r.Fine) ∧ ∀ p ∈ plugins c, ¬ IfLike p.name := by
  show _ ↔ _ ∧ AllFine (risks c) ∧ NoIf (plugins c)
  simp only [Printable, Shaped, ConfigOk, risks, plugins, fine_append, noIf_append, sectionsRisks_iff]
  grind

/-! ### Parsed configurations -/

theorem ast_name_clear (ign : Bool) (cm : CommentBlock) (p : CPlugin) : (p.ast ign cm).name = p.name := by
  cases p; simp [CPlugin.ast, CPlugin.name, Plugin.name]

mutual
theorem noIf_item (ign : Bool) : ∀ i : CItem, i.Clear → NoIf (pluginsOne (i.ast ign))
  | .plugin com p, h => by
    simp only [CItem.ast, pluginsOne, NoIf, List.mem_singleton, forall_eq, ast_name_clear]
    exact h
  | .branch com g1 c g2 items foot elifs els, h => by
    simp only [CItem.Clear] at h
    simp only [CItem.ast]
    have h3 := noIf_else ign els h.2.2
    cases he : els.ast ign with
    | mk q eb ec ef =>
      rw [he] at h3
      simp only [pluginsOne, noIf_append]
      exact ⟨⟨noIf_items ign items h.1, noIf_elifs ign elifs h.2.1⟩, h3⟩
theorem noIf_items (ign : Bool) : ∀ l : List CItem, itemsClear l → NoIf (pluginsList (itemsAst ign l))
  | [], _ => by simp [itemsAst, pluginsList, NoIf]
  | i :: r, h => by
    simp only [itemsClear] at h
    simp only [itemsAst, pluginsList, noIf_append]
    exact ⟨noIf_item ign i h.1, noIf_items ign r h.2.2⟩
theorem noIf_elifs (ign : Bool) : ∀ l : List CElif, elifsClear l → NoIf (pluginsElifs (elifsAst ign l))
  | [], _ => by simp [elifsAst, pluginsElifs, NoIf]
  | .mk com g0 g1 c g2 items foot :: r, h => by
    simp only [elifsClear] at h
    simp only [elifsAst, pluginsElifs, noIf_append]
    exact ⟨noIf_items ign items h.1, noIf_elifs ign r h.2⟩
theorem noIf_else (ign : Bool) : ∀ e : CElse, e.Clear → (match e.ast ign with | .mk _ eb _ _ => NoIf (pluginsList eb))
  | .none, _ => by simp [CElse.ast, pluginsList, NoIf]
  | .mk com g items foot, h => by
    simp only [CElse.Clear] at h
    simp only [CElse.ast]
    exact noIf_items ign items h
end

theorem noIf_file (ign : Bool) (k : CFile) (h : k.Clear) : NoIf (plugins (k.ast ign)) := by
  have hall : ∀ s ∈ k.sections ign, NoIf (pluginsList s.bops) := by
    intro s hs
    cases k with
    | empty g => simp [CFile.sections] at hs
    | config a ss foot =>
      rcases List.mem_cons.1 hs with rfl | hs
      · exact noIf_items ign _ h.1
      · obtain ⟨t, ht, rfl⟩ := List.mem_map.1 hs
        exact noIf_items ign _ (h.2 t ht)
  intro p hp
  simp only [plugins, pluginsSections, CFile.ast, List.mem_append, List.mem_flatMap, List.mem_filter] at hp
  rcases hp with (⟨s, hs, hp⟩ | ⟨s, hs, hp⟩) | ⟨s, hs, hp⟩ <;> exact hall s hs.1 p hp

theorem noIf_content (c : Config) (h : NoIf (plugins (content c))) : NoIf (plugins c) := by
  have h1 := plugins_map AMap.noPos c []
  have h2 : plugins (content c) = (plugins c).map AMap.noPos.plugin := h1
  intro p hp
  have := h (AMap.noPos.plugin p) (by rw [h2]; exact List.mem_map_of_mem hp)
  rwa [plugin_name_map] at this

end Verif
