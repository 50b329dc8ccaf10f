import Verif.Proofs.Prefix
import Verif.Proofs.FloatFmt
import Verif.Spec.Printable
/-
Composing pieces of text that are laid out in lines: what one more level of indentation does to
them.
-/
namespace Verif
open Spec

/-- The state of a line: at its start, or in code. -/
def lineSt : Bool → LineSt
  | true => .fresh
  | false => .mid

/-- Reading `X` from state `s` ends in state `t`, and one more level of indentation turns it into
`X'`. -/
def Tr (s t : Bool) (X X' : List Piece) : Prop :=
  (∀ p ∈ X, p.Ok) ∧ (∀ R, indent s (X ++ R) = X' ++ indent t R) ∧ (∀ R, scan (lineSt s) (X ++ R) = scan (lineSt t) R)

theorem Tr.app {s t u : Bool} {X X' Y Y' : List Piece} (h : Tr s t X X') (k : Tr t u Y Y') : Tr s u (X ++ Y) (X' ++ Y') := by
  refine ⟨fun p hp => ?_, fun R => ?_, fun R => ?_⟩
  · rcases List.mem_append.1 hp with hp | hp
    · exact h.1 p hp
    · exact k.1 p hp
  · rw [List.append_assoc, h.2.1, k.2.1, List.append_assoc]
  · rw [List.append_assoc, h.2.2, k.2.2]

theorem Tr.nil (s : Bool) : Tr s s [] [] := ⟨by simp, fun _ => rfl, fun _ => rfl⟩

theorem Tr.nl (s : Bool) : Tr s true [.nl] [.nl] := by
  refine ⟨by simp [Piece.Ok], fun R => ?_, fun R => ?_⟩
  · rw [List.singleton_append, indent]; rfl
  · cases s <;> simp [lineSt, scan]

theorem Tr.code {b : Bytes} (hne : b ≠ []) (hb : Balanced b) : Tr false false [.code b] [.code b] := by
  refine ⟨by simp [Piece.Ok, hne, hb], fun R => ?_, fun R => ?_⟩
  · rw [List.singleton_append, indent]
    · rfl
    · exact (fun h => nomatch h)
  · simp [lineSt, scan]

/-- Indentation of `d` levels. -/
def ind (d : Nat) : List Piece := List.replicate d .sp

theorem indent_mid_sp (d : Nat) (R : List Piece) : indent false (ind d ++ R) = ind d ++ indent false R := by
  induction d with
  | zero => rfl
  | succ d ih =>
    rw [ind, List.replicate_succ, List.cons_append, indent]
    · rw [show List.replicate d Piece.sp = ind d from rfl, ih]; rfl
    · exact (fun h => nomatch h)

theorem indent_ind {d : Nat} {p : Piece} (hp : p ≠ .nl) (R : List Piece) :
    indent true (ind d ++ p :: R) = ind (d + 1) ++ p :: indent false R := by
  cases d with
  | zero =>
    rw [ind, List.replicate_zero, List.nil_append, indent]
    · rfl
    · exact hp
  | succ d =>
    rw [ind, List.replicate_succ, List.cons_append, indent]
    · rw [show List.replicate d Piece.sp = ind d from rfl, indent_mid_sp, indent]
      · rw [ind, ind, List.replicate_succ, List.replicate_succ]; rfl
      · exact hp
    · exact (fun h => nomatch h)

theorem scan_ind (d : Nat) (R : List Piece) (st : LineSt) (h : st = .fresh ∨ st = .spaced) :
    ∃ st', (st' = .fresh ∨ st' = .spaced) ∧ scan st (ind d ++ R) = scan st' R := by
  induction d generalizing st with
  | zero => exact ⟨st, h, rfl⟩
  | succ d ih =>
    obtain ⟨st', h1, h2⟩ := ih .spaced (.inr rfl)
    refine ⟨st', h1, ?_⟩
    rw [ind, List.replicate_succ, List.cons_append, show List.replicate d Piece.sp = ind d from rfl, ← h2]
    rcases h with rfl | rfl <;> rw [scan]

/-- A line that starts with code. -/
theorem Tr.lead {b : Bytes} {X X' : List Piece} (d : Nat) (h : Tr false false (.code b :: X) (.code b :: X')) (hs : codeStart b = true) :
    Tr true false (ind d ++ .code b :: X) (ind (d + 1) ++ .code b :: X') := by
  refine ⟨fun p hp => ?_, fun R => ?_, fun R => ?_⟩
  · rcases List.mem_append.1 hp with hp | hp
    · rw [(List.mem_replicate.1 hp).2]; trivial
    · exact h.1 p hp
  · rw [List.append_assoc, List.cons_append, indent_ind (p := .code b) (fun h => nomatch h)]
    have := h.2.1 R
    rw [List.cons_append, indent] at this
    · rw [List.cons_append] at this
      injection this with _ this
      rw [this]; simp
    · exact (fun h => nomatch h)
  · have := h.2.2 R
    simp only [lineSt, List.cons_append, scan] at this
    obtain ⟨st', h1, h2⟩ := scan_ind d (.code b :: X ++ R) .fresh (.inl rfl)
    rw [List.append_assoc, lineSt, h2]
    rcases h1 with rfl | rfl <;> simp [scan, hs, this, lineSt]

/-- A comment line. -/
theorem Tr.comment {b : Bytes} (d : Nat) (hb : 10 ∉ b) : Tr true true (ind d ++ [.com b, .nl]) (ind (d + 1) ++ [.com b, .nl]) := by
  refine ⟨fun p hp => ?_, fun R => ?_, fun R => ?_⟩
  · rcases List.mem_append.1 hp with hp | hp
    · rw [(List.mem_replicate.1 hp).2]; trivial
    · simp at hp; rcases hp with rfl | rfl
      · exact hb
      · trivial
  · rw [List.append_assoc, List.cons_append, indent_ind (p := .com b) (fun h => nomatch h), List.cons_append, indent]; simp
  · obtain ⟨st', h1, h2⟩ := scan_ind d ([.com b, .nl] ++ R) .fresh (.inl rfl)
    rw [List.append_assoc, lineSt, h2]
    rcases h1 with rfl | rfl <;> simp [scan]

/-! ### Comments -/

/-- The lines of a comment block at indentation `d`. -/
def comsP (d : Nat) : CommentBlock → List Piece
  | [] => []
  | c :: cs => (if c.spaceBefore then [.nl] else []) ++ (ind d ++ [.com (32 :: c.text), .nl]) ++
      (if c.spaceAfter then [.nl] else []) ++ comsP d cs

theorem Tr.opt (s b : Bool) : Tr true true (if b then [.nl] else []) (if b then [.nl] else []) := by
  cases b
  · exact Tr.nil true
  · exact Tr.nl true

theorem Tr.coms {d : Nat} {cs : CommentBlock} (h : ∀ c ∈ cs, CommentText c.text) : Tr true true (comsP d cs) (comsP (d + 1) cs) := by
  induction cs with
  | nil => exact Tr.nil true
  | cons c cs ih =>
    have hc := h c (List.mem_cons_self ..)
    refine Tr.app (Tr.app (Tr.app (Tr.opt true _) (Tr.comment d ?_)) (Tr.opt true _)) (ih fun c' h' => h c' (List.mem_cons_of_mem _ h'))
    intro h10
    rcases List.mem_cons.1 h10 with h10 | h10
    · exact absurd h10 (by decide)
    · exact (hc.1 _ h10).1 rfl

theorem render_ind0 : render (ind 0) = [] := rfl

theorem commentsStr_render (cs : CommentBlock) : commentsStr cs = render (comsP 0 cs) := by
  induction cs with
  | nil => rfl
  | cons c cs ih =>
    rw [show commentsStr (c :: cs) = c.str ++ commentsStr cs from rfl, ih, comsP]
    unfold Comment.str
    rw [render_append, render_append, render_append]
    cases c.spaceBefore <;> cases c.spaceAfter <;> simp [render, ind, Piece.text]

/-! ### Re-indentation -/

theorem scan_append (X Y : List Piece) (a : LineSt) : scan a (X ++ Y) = (scan a X).bind (fun b => scan b Y) := by
  induction X generalizing a with
  | nil => simp [scan]
  | cons p X ih =>
    rw [List.cons_append]
    cases a <;> cases p <;> simp only [scan, ih] <;> first | rfl | (split <;> simp)

theorem ends_of_scan {X : List Piece} {a : LineSt} (h : scan a X = some .mid) (ha : a ≠ .mid) : ∃ qs p, X = qs ++ [p] ∧ p ≠ .nl := by
  rcases List.eq_nil_or_concat X with rfl | ⟨qs, p, rfl⟩
  · simp [scan] at h; exact absurd h ha
  · refine ⟨qs, p, by simp, fun hp => ?_⟩
    subst hp
    rw [List.concat_eq_append, scan_append] at h
    cases hq : scan a qs with
    | none => rw [hq] at h; simp at h
    | some b =>
      rw [hq] at h
      cases b <;> simp [scan] at h

theorem prefix_tr {X X' : List Piece} (h : Tr true false X X') (k : Nat) (e : Bool) :
    prefixS (render X ++ List.replicate k 10) e = 10 :: render (X' ++ [.nl]) := by
  have hs := h.2.2 []
  rw [List.append_nil] at hs
  obtain ⟨qs, p, e1, hp⟩ := ends_of_scan (a := .fresh) (hs.trans (by rfl)) (by decide)
  have hnl : X ++ [.nl] = qs ++ [p, .nl] := by rw [e1]; simp
  have := prefix_pieces qs p k e (by rw [← e1]; exact h.1) hp (by rw [← hnl]; exact (h.2.2 [.nl]).trans rfl)
  rw [← hnl, h.2.1, ← e1] at this
  exact this

theorem prefix_tr_nl {X X' : List Piece} {qs : List Piece} {p : Piece} (h : Tr true true X X') (hX : X = qs ++ [p, .nl]) (hp : p ≠ .nl) (k : Nat)
    (e : Bool) : prefixS (render X ++ List.replicate k 10) e = 10 :: render X' := by
  have h1 : render X ++ List.replicate k 10 = render (qs ++ [p]) ++ List.replicate (k + 1) 10 := by
    rw [hX, render_append, render_append, List.replicate_succ]
    simp [render, Piece.text]
  have h2 := h.2.2 []
  rw [List.append_nil] at h2
  have := prefix_pieces qs p (k + 1) e (fun q hq => h.1 q (by rw [hX]; simp at hq ⊢; grind)) hp (by rw [← hX]; exact h2.trans rfl)
  rw [h1, this, ← hX]
  have h3 := h.2.1 []
  rw [List.append_nil] at h3
  rw [h3]; simp [indent]

theorem comsP_last {d : Nat} {cs : CommentBlock} (hne : cs ≠ []) (h : ∀ c ∈ cs, c.spaceAfter = false) :
    ∃ qs t, comsP d cs = qs ++ [.com t, .nl] := by
  induction cs with
  | nil => exact absurd rfl hne
  | cons c cs ih =>
    have hc := h c (List.mem_cons_self ..)
    by_cases hcs : cs = []
    · subst hcs
      exact ⟨(if c.spaceBefore then [.nl] else []) ++ ind d, 32 :: c.text, by simp [comsP, hc]⟩
    · obtain ⟨qs, t, e⟩ := ih hcs fun c' h' => h c' (List.mem_cons_of_mem _ h')
      exact ⟨(if c.spaceBefore then [.nl] else []) ++ (ind d ++ [.com (32 :: c.text), .nl]) ++ (if c.spaceAfter then [.nl] else []) ++ qs, t,
        by rw [comsP, e]; simp⟩

/-! ### Blocks -/

/-- A block with its closing bracket: the lines of the body (at indentation `n + 1`), a blank line,
the comments at the end.  `e`: an empty block contains a newline. -/
def blockP (n : Nat) (e : Bool) (close : Bytes) (body : List Piece) (foot : CommentBlock) : List Piece :=
  (if body.isEmpty && foot.isEmpty then (if e then .nl :: ind n else [])
  else .nl :: (body ++ (if body.isEmpty then [] else [.nl]) ++
    (if foot.isEmpty then [] else (if body.isEmpty then [] else [.nl]) ++ comsP (n + 1) foot) ++ ind n)) ++ [.code close]

/-- The body of a block: nothing, or lines. -/
def Body (X X' : List Piece) : Prop := (X = [] ∧ X' = []) ∨ (X ≠ [] ∧ X' ≠ [] ∧ Tr true false X X')

theorem Tr.close {n : Nat} {close : Bytes} (hc : close ≠ [] ∧ Balanced close ∧ codeStart close = true) :
    Tr true false (ind n ++ [.code close]) (ind (n + 1) ++ [.code close]) :=
  Tr.lead n (Tr.code hc.1 hc.2.1) hc.2.2

theorem Tr.block {n : Nat} {e : Bool} {close : Bytes} {X X' : List Piece} {foot : CommentBlock}
    (hc : close ≠ [] ∧ Balanced close ∧ codeStart close = true) (hb : Body X X') (hf : CommentsOk foot) :
    Tr false false (blockP n e close X foot) (blockP (n + 1) e close X' foot) := by
  have hcl := Tr.close (n := n) hc
  have hcode := Tr.code hc.1 hc.2.1
  have hcoms : Tr true true (comsP (n + 1) foot) (comsP (n + 1 + 1) foot) := Tr.coms fun c h => (hf c h).1
  have key := fun (Y Y' : List Piece) (hY : Tr false true Y Y') => Tr.app hY hcl
  unfold blockP
  rcases hb with ⟨rfl, rfl⟩ | ⟨h1, h2, h3⟩
  · cases foot with
    | nil =>
      cases e
      · simpa using hcode
      · simpa using Tr.app (Tr.nl false) hcl
    | cons c cs => simpa using Tr.app (Tr.app (Tr.nl false) hcoms) hcl
  · have e1 : X.isEmpty = false := by simp [h1]
    have e2 : X'.isEmpty = false := by simp [h2]
    cases foot with
    | nil => simpa [e1, e2] using Tr.app (Tr.app (Tr.app (Tr.nl false) h3) (Tr.nl false)) hcl
    | cons c cs => simpa [e1, e2] using Tr.app (Tr.app (Tr.app (Tr.app (Tr.app (Tr.nl false) h3) (Tr.nl false)) (Tr.nl true)) hcoms) hcl

/-- Printing a block: the body and the comments at the end are re-indented. -/
theorem prefix_block {e : Bool} {close ss : Bytes} {X X' : List Piece} {foot : CommentBlock} (hb : Body X X') (hf : CommentsOk foot)
    (hss : ss = render X ++ (if X.isEmpty then [] else [10, 10])) :
    prefixS (ss ++ commentsStr foot) e ++ close = render (blockP 0 e close X' foot) := by
  subst hss
  unfold blockP
  have hcoms : Tr true true (comsP 0 foot) (comsP 1 foot) := Tr.coms fun c h => (hf c h).1
  rcases hb with ⟨rfl, rfl⟩ | ⟨h1, h2, h3⟩
  · cases hfe : foot with
    | nil => cases e <;> simp [render, commentsStr, prefixS, Piece.text, ind]
    | cons c cs =>
      obtain ⟨qs, t, hl⟩ := comsP_last (d := 0) (cs := foot) (by simp [hfe]) (fun c h => (hf c h).2)
      have := prefix_tr_nl hcoms hl (fun h => nomatch h) 0 e
      rw [← hfe, commentsStr_render]
      simp at this
      simp only [show render ([] : List Piece) = [] from rfl, List.isEmpty_nil, if_true, List.nil_append, this]
      simp [render_cons, show render ([] : List Piece) = [] from rfl, hfe, render_append, Piece.text, ind]
  · have e1 : X.isEmpty = false := by simp [h1]
    have e2 : X'.isEmpty = false := by simp [h2]
    cases hfe : foot with
    | nil =>
      have := prefix_tr h3 2 e
      simp only [e1, e2, commentsStr, List.flatMap_nil, List.append_nil, Bool.false_eq_true, if_false]
      rw [show ([10, 10] : Bytes) = List.replicate 2 10 from rfl, this]
      simp [render_cons, render_append, Piece.text, ind, show render ([] : List Piece) = [] from rfl]
    | cons c cs =>
      obtain ⟨qs, t, hl⟩ := comsP_last (d := 0) (cs := foot) (by simp [hfe]) (fun c h => (hf c h).2)
      have hT := Tr.app (Tr.app (Tr.app h3 (Tr.nl false)) (Tr.nl true)) hcoms
      have := prefix_tr_nl (qs := X ++ [.nl] ++ [.nl] ++ qs) hT (p := .com t) (by rw [hl]; simp) (fun h => nomatch h) 0 e
      rw [← hfe, commentsStr_render]
      simp [render_append, render_cons, show render ([] : List Piece) = [] from rfl, Piece.text] at this
      simp [render_append, render_cons, show render ([] : List Piece) = [] from rfl, Piece.text, e1, e2, hfe, ind] at this ⊢
      rw [this]; simp

end Verif
