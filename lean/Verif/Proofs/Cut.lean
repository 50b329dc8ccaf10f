import Verif.Proofs.Concat
import Verif.Proofs.NodePos
import Verif.Proofs.PosMap
import Verif.Proofs.CompletePosBlock
import Verif.Proofs.RunPosDet
import Verif.Spec.Positions
import Verif.Spec.Positioned
/-
A file and a longer file that starts with it: their syntax trees have the same sections where both have one.
-/
namespace Verif
open Verif.Spec

/-- Two sections that denote the same. -/
structure SameSect (ign : Bool) (s t : CSection) : Prop where
  text : s.text = t.text
  com : s.com = t.com
  ptype : s.ptype = t.ptype
  placed : ∀ pos k b, s.astAt ign pos k b = t.astAt ign pos k b

/-- Section by section the same. -/
inductive SameSects (ign : Bool) : List CSection → List CSection → Prop
  | nil : SameSects ign [] []
  | cons {s t L M} : SameSect ign s t → SameSects ign L M → SameSects ign (s :: L) (t :: M)

theorem section_same (ign : Bool) {s t : CSection} (hs : s.Ok) (ht : t.Ok) (hsc : itemsClear s.items) (htc : itemsClear t.items) {X Y : Bytes}
    (h : s.text ++ X = t.text ++ Y) : SameSect ign s t ∧ X = Y := by
  have hX := section_cancel hs ht hsc htc h
  subst hX
  have htext : s.text = t.text := List.append_cancel_right h
  rw [CSection.text_tail, CSection.text_tail] at h
  have h1 := congrArg gapOf h
  rw [gapOf_text hs.1 (CSection.tail_stop hs X), gapOf_text ht.1 (CSection.tail_stop ht X)] at h1
  injection h1 with h0 h1
  simp only [CSection.tail, List.append_assoc] at h1
  have h2 := section_complete (o := { ignoreComments := ign }) hs hsc X
  have h3 := section_complete (o := { ignoreComments := ign }) ht htc X
  rw [h1] at h2
  have h4 := (h2.det h3).1
  injection h4 with h4
  injection h4 with _ h5 h6 _ h7
  refine ⟨⟨htext, h0, h5, fun pos k b => ?_⟩, rfl⟩
  let D := k + s.com.text.length + (ptypeText s.ptype ++ (s.g.text ++ (b!"{" ++ (itemsText s.items ++ (s.foot.text ++ (b!"}" ++ X)))))).length
  have hp : PosFn (fun b => pos (D - b.length)) pos D := fun k b hk => by
    show pos (D - b.length) = pos k
    congr 1
    omega
  have q2 := sectionQ (o := { ignoreComments := ign }) hp hs hsc X (k + s.com.text.length) rfl []
  have q3 := sectionQ (o := { ignoreComments := ign }) hp ht htc X (k + s.com.text.length) (by rw [← h1]) []
  rw [h1] at q2
  have q4 := (q2.det q3).1
  injection q4 with q4
  injection q4 with _ _ q6 _ _
  simp only [CSection.astAt]
  rw [← h0]
  have key : ∀ {x x' : PluginType} {y y' : List BOP} {z z' : CommentBlock}, x = x' → y = y' → z = z' →
      (⟨pos (k + s.com.text.length), x, y, s.com.block ign false b, z⟩ : Section) =
        ⟨pos (k + s.com.text.length), x', y', s.com.block ign false b, z'⟩ := by
    intro _ _ _ _ _ _ h1 h2 h3; rw [h1, h2, h3]
  exact key h5 q6 h7

/-- The sections of a file that starts with another file. -/
theorem file_prefix (ign : Bool) (Q : Bytes) (F F' : Gap) (hF : F.OkEnd) (hF' : F'.OkEnd) : ∀ (L L' : List CSection),
    (∀ s ∈ L, s.Ok ∧ itemsClear s.items) → (∀ s ∈ L', s.Ok ∧ itemsClear s.items) → fileText L F ++ Q = fileText L' F' →
    ∃ L0 L1, L' = L0 ++ L1 ∧ SameSects ign L L0 ∧
      ∀ t M, L1 = t :: M → (fileText L F).length ≤ (L0.flatMap CSection.text).length + t.com.text.length
  | [], [], _, _, _ => ⟨[], [], rfl, .nil, fun _ _ h => (nomatch h)⟩
  | [], t :: L', _, h', h => by
    refine ⟨[], t :: L', rfl, .nil, fun t' M hM => ?_⟩
    injection hM with h1 _
    subst h1
    have ht := h' t (List.mem_cons_self ..)
    simp only [fileText, List.flatMap_nil, List.nil_append, List.flatMap_cons, List.append_assoc] at h ⊢
    rw [CSection.text_tail] at h
    simp only [List.length_nil, Nat.zero_add]
    rcases List.append_eq_append_iff.1 h with ⟨y, h1, h2⟩ | ⟨y, h1, h2⟩
    · rw [h1, List.length_append]; omega
    · cases y with
      | nil => rw [h1]; simp
      | cons c y =>
        exfalso
        have h3 : Stop (c :: y) := by
          have h4 := CSection.tail_stop ht.1 (L'.flatMap CSection.text ++ F'.text)
          rw [h2] at h4
          refine ⟨?_, ?_⟩
          · have := h4.1
            rw [List.cons_append, List.takeWhile_cons] at this
            rw [List.takeWhile_cons]
            split at this
            · cases this
            · next hc => rw [if_neg hc]
          · obtain ⟨z, hz⟩ : ∃ z, CSection.tail t = ptypeText t.ptype ++ z := ⟨_, rfl⟩
            rw [hz] at h2
            have hc : isStop c = true := by
              have := ht.1.2.1
              cases hp : t.ptype <;> rw [hp] at h2 this
              · exact absurd rfl this
              all_goals
                injection h2 with h2 _
                rw [← h2]; decide
            exact (stop_cons (t := y) hc).2
        have h5 := gapOf_text ht.1.1 h3
        rw [← h1, gapOf_end hF] at h5
        injection h5 with _ h5
        cases h5
  | s :: L, [], h0, _, h => by
    exfalso
    have hs := h0 s (List.mem_cons_self ..)
    simp only [fileText, List.flatMap_nil, List.nil_append, List.flatMap_cons, List.append_assoc] at h
    rw [CSection.text_tail] at h
    have h1 := congrArg gapOf h
    rw [gapOf_text hs.1.1 (CSection.tail_stop hs.1 _), gapOf_end hF'] at h1
    injection h1 with _ h1
    exact CSection.tail_ne (List.append_eq_nil_iff.1 h1).1
  | s :: L, t :: L', h0, h', h => by
    have hs := h0 s (List.mem_cons_self ..)
    have ht := h' t (List.mem_cons_self ..)
    simp only [fileText, List.flatMap_cons, List.append_assoc] at h
    obtain ⟨h1, h2⟩ := section_same ign hs.1 ht.1 hs.2 ht.2 h
    obtain ⟨L0, L1, h3, h4, h5⟩ := file_prefix ign Q F F' hF hF' L L' (fun x hx => h0 x (List.mem_cons_of_mem _ hx))
      (fun x hx => h' x (List.mem_cons_of_mem _ hx)) (by simpa [fileText] using h2)
    refine ⟨t :: L0, L1, by rw [h3]; rfl, .cons h1 h4, fun u M hM => ?_⟩
    have := h5 u M hM
    have ht2 := congrArg List.length h1.text
    simp only [fileText, List.flatMap_cons, List.length_append] at this ⊢
    omega

/-! ### The sections that start in the first file -/

theorem posAt_offset (data : Bytes) (k : Nat) : (posAt data k).offset = k := by
  unfold posAt; split <;> rfl

/-- All sections with their positions; the flag marks the first. -/
def listAt (ign : Bool) (pos : Nat → Pos) : Bool → Nat → List CSection → List Section
  | _, _, [] => []
  | b, k, s :: r => s.astAt ign pos k b :: listAt ign pos false (k + s.text.length) r

theorem listAt_rest (ign : Bool) (pos : Nat → Pos) : ∀ k L, listAt ign pos false k L = sectionsAt ign pos k L
  | _, [] => rfl
  | k, s :: L => by rw [listAt, sectionsAt, listAt_rest]

theorem listAt_file (ign : Bool) (pos : Nat → Pos) (k : CFile) : k.sectionsAt ign pos = listAt ign pos true 0 (CFile.secList k) := by
  cases k with
  | empty => rfl
  | config s ss f => simp only [CFile.sectionsAt, CFile.secList, listAt, listAt_rest, Nat.zero_add]

theorem listAt_none (ign : Bool) (data : Bytes) (n : Nat) : ∀ (L : List CSection) (b : Bool) (k : Nat),
    (∀ t M, L = t :: M → n ≤ k + t.com.text.length) →
    (listAt ign (posAt data) b k L).filter (fun s => s.start.offset < (n : Int)) = []
  | [], _, _, _ => rfl
  | t :: M, b, k, h => by
    have h1 := h t M rfl
    have hlen : t.com.text.length < t.text.length := by
      simp only [CSection.text, List.length_append, List.length_cons, List.length_nil]; omega
    rw [listAt, List.filter_cons, if_neg]
    · exact listAt_none ign data n M false _ fun u N _ => by omega
    · simp only [CSection.astAt, posAt_offset, decide_eq_true_eq]; omega

theorem listAt_filter (ign : Bool) (data : Bytes) (n : Nat) : ∀ (L0 L1 : List CSection) (b : Bool) (k : Nat),
    (∀ s ∈ L0, s.ptype ≠ .undefined) → k + (L0.flatMap CSection.text).length ≤ n →
    (∀ t M, L1 = t :: M → n ≤ k + (L0.flatMap CSection.text).length + t.com.text.length) →
    (listAt ign (posAt data) b k (L0 ++ L1)).filter (fun s => s.start.offset < (n : Int)) = listAt ign (posAt data) b k L0
  | [], L1, b, k, _, h, h' => by
    simp only [List.flatMap_nil, List.length_nil, Nat.add_zero, List.nil_append] at h h' ⊢
    exact listAt_none ign data n L1 b k h'
  | s :: L0, L1, b, k, h0, h, h' => by
    simp only [List.flatMap_cons, List.length_append] at h h'
    have hs := h0 s (List.mem_cons_self ..)
    have hlen : s.com.text.length < s.text.length := by
      simp only [CSection.text, List.length_append, List.length_cons, List.length_nil]; omega
    rw [List.cons_append, listAt, List.filter_cons, if_pos, listAt, listAt_filter ign data n L0 L1 false _ (fun x hx => h0 x (List.mem_cons_of_mem _ hx)) (by omega)]
    · intro t M hM
      have := h' t M hM
      omega
    · simp only [CSection.astAt, posAt_offset, decide_eq_true_eq]; omega

theorem listAt_map {g : Pos → Pos} (hg : g Pos.zero = Pos.zero) (ign : Bool) (pos : Nat → Pos) : ∀ b k L,
    (listAt ign pos b k L).map (AMap.onPos g).sect = listAt ign (g ∘ pos) b k L
  | _, _, [] => rfl
  | b, k, s :: r => by rw [listAt, listAt, List.map_cons, gp_sect hg, listAt_map hg]

theorem same_listAt {ign : Bool} (pos : Nat → Pos) {L K : List CSection} (h : SameSects ign L K) : ∀ b k,
    listAt ign pos b k L = listAt ign pos b k K := by
  induction h with
  | nil => exact fun _ _ => rfl
  | cons h1 _ ih => intro b k; rw [listAt, listAt, ih, h1.placed, h1.text]

theorem same_length {ign : Bool} {L M : List CSection} (h : SameSects ign L M) :
    (L.flatMap CSection.text).length = (M.flatMap CSection.text).length := by
  induction h with
  | nil => rfl
  | cons h1 _ ih => rw [List.flatMap_cons, List.flatMap_cons, List.length_append, List.length_append, ih, h1.text]

theorem relocate_posAt (d d' : Bytes) : relocate d ∘ posAt d' = posAt d := by
  funext k
  have h1 : posAt d' k ≠ Pos.zero := by
    unfold posAt Pos.zero
    split
    · intro h; injection h with h _ _; omega
    · intro h; injection h with h _ _; omega
  show (if posAt d' k = Pos.zero then posAt d' k else posAt d (posAt d' k).offset.toNat) = posAt d k
  rw [if_neg h1, posAt_offset]
  rfl

theorem filter_sect (g : Pos → Pos) (t : PluginType) (l : List Section) :
    (l.filter (·.ptype = t)).map (AMap.onPos g).sect = (l.map (AMap.onPos g).sect).filter (·.ptype = t) := by
  rw [List.filter_map]; rfl

/-- The trees of a file and a longer file. -/
theorem tree_prefix (ign : Bool) {k m : CFile} {Q : Bytes} (hk : k.Ok) (hkc : k.Clear) (hm : m.Ok) (hmc : m.Clear) (h : k.text ++ Q = m.text) :
    ((m.sectionsAt ign (posAt m.text)).filter (fun s => s.start.offset < (k.text.length : Int))).map (AMap.onPos (relocate k.text)).sect =
      k.sectionsAt ign (posAt k.text) := by
  obtain ⟨L0, L1, h1, h2, h3⟩ := file_prefix ign Q _ _ (CFile.foot_ok hk) (CFile.foot_ok hm) _ _ (CFile.secs_ok hk hkc) (CFile.secs_ok hm hmc)
    (by rw [← CFile.text_secs, ← CFile.text_secs]; exact h)
  rw [← CFile.text_secs] at h3
  have hlen := same_length h2
  have hkt : (CFile.secList k).flatMap CSection.text ++ (CFile.foot k).text = k.text := (CFile.text_secs k).symm
  have hl2 := congrArg List.length hkt
  rw [List.length_append] at hl2
  rw [listAt_file, listAt_file, h1, listAt_filter ign m.text k.text.length L0 L1 true 0
    (fun s hs => (CFile.secs_ok hm hmc s (h1 ▸ List.mem_append_left _ hs)).1.2.1) (by omega) (fun t M hM => by have := h3 t M hM; omega),
    listAt_map rfl, relocate_posAt, same_listAt _ h2]

end Verif
