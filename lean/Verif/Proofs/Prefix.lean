import Verif.Spec.Pieces
import Verif.Model.Regex
/-
What `prefixS` does to well laid out text.
-/
namespace Verif
open Spec

/-! ### The regular expression -/

theorem alt_some {α : Type} {f : Option α} {g : Unit → Option α} {a : α} (h : f = some a) : alt f g = some a := by
  rw [h]; rfl
theorem alt_none {α : Type} {f : Option α} {g : Unit → Option α} (h : f = none) : alt f g = g () := by
  rw [h]; rfl

/-- `[class]*` takes all it can when the continuation accepts what follows. -/
theorem reStar_all {α : Type} {p : UInt8 → Bool} {k : Bytes → Option α} {a : α} :
    ∀ (u r : Bytes), u.all p = true → (∀ c t, r = c :: t → p c = false) → k r = some a →
      reStar p (u ++ r) k = some a
  | [], r, _, hr, hk => by
    cases r with
    | nil => exact hk
    | cons c t => rw [List.nil_append, reStar, if_neg (by simp [hr c t rfl])]; exact hk
  | c :: u, r, hu, hr, hk => by
    rw [List.all_cons, Bool.and_eq_true] at hu
    rw [List.cons_append, reStar, if_pos hu.1]
    exact alt_some (reStar_all u r hu.2 hr hk)

/-- `[class]*` fails when the continuation fails on every suffix it can be given. -/
theorem reStar_none {α : Type} {p : UInt8 → Bool} {k : Bytes → Option α} :
    ∀ (s : Bytes), (∀ u r, s = u ++ r → u.all p = true → k r = none) → reStar p s k = none
  | [], h => h [] [] rfl rfl
  | c :: t, h => by
    rw [reStar]
    split
    · next hc =>
      rw [alt_none (reStar_none t fun u r e hu => h (c :: u) r (by rw [e]; rfl) (by simp [hc, hu]))]
      exact h [] (c :: t) rfl rfl
    · exact h [] (c :: t) rfl rfl

theorem reByte_self {α : Type} {c : UInt8} {t : Bytes} {k : Bytes → Option α} : reByte c (c :: t) k = k t := by
  simp [reByte]

/-- The body of a string literal is matched to its closing quote. -/
theorem reBody_all {α : Type} {q : UInt8} (hq : q ≠ 92) {k : Bytes → Option α} {a : α} (r : Bytes) (hk : k (q :: r) = some a) :
    ∀ (n : Nat) (body : Bytes), body.length ≤ n → StringBody q body → reBody q (body ++ q :: r) k = some a
  | _, [], _, _ => by
    cases r with
    | nil => simp [reBody, hk]
    | cons c t =>
      rw [List.nil_append, reBody, if_neg (by rintro ⟨h, -⟩; exact hq h)]
      simp only [alt, if_pos]; exact hk
  | 0, _ :: _, h, _ => by simp at h
  | n + 1, [b], _, hb => by
    have h1 : b ≠ q := by
      rintro rfl
      obtain ⟨l', h⟩ := hb.1 [] [] rfl
      simp at h
    have h2 : b ≠ 92 := by
      intro h; apply hb.2; simp [h]
    rw [show [b] ++ q :: r = b :: q :: r from rfl, reBody, if_neg (by rintro ⟨h, -⟩; exact h2 h), if_neg h1]
    simp only [alt]
    rw [show q :: r = [] ++ q :: r from rfl, reBody_all hq r hk n [] (by simp) ⟨by simp [QuotesEscaped], by simp⟩]
  | n + 1, b :: c :: t, hn, hb => by
    have h1 : b ≠ q := by
      rintro rfl
      obtain ⟨l', h⟩ := hb.1 [] (c :: t) rfl
      simp at h
    simp only [List.length_cons] at hn
    rw [show b :: c :: t ++ q :: r = b :: c :: (t ++ q :: r) from rfl, reBody]
    by_cases h2 : b = 92 ∧ c = q
    · rw [if_pos h2]
      refine alt_some (reBody_all hq r hk n t (by omega) ⟨?_, ?_⟩)
      · intro l u e
        obtain ⟨l', h3⟩ := hb.1 (b :: c :: l) u (by rw [e]; rfl)
        cases l with
        | nil =>
          have h4 : [b, c] = l' ++ [92] := h3
          have : c = 92 := by
            have := congrArg List.getLast? h4; simpa using this
          exact absurd (h2.2.symm.trans this) hq
        | cons x l =>
          have := congrArg List.getLast? h3
          have h5 : (x :: l).getLast? = some 92 := by simpa using this
          exact List.getLast?_eq_some_iff.1 h5
      · cases t with
        | nil => simp
        | cons x t => have := hb.2; simpa using this
    · rw [if_neg h2, if_neg h1]
      simp only [alt]
      rw [show c :: (t ++ q :: r) = (c :: t) ++ q :: r from rfl, reBody_all hq r hk n (c :: t) (by simp; omega) ⟨?_, ?_⟩]
      · intro l u e
        obtain ⟨l', h3⟩ := hb.1 (b :: l) u (by rw [e]; rfl)
        cases l with
        | nil =>
          have h4 : [b] = l' ++ [92] := h3
          have hb92 : b = 92 := by
            have := congrArg List.getLast? h4; simpa using this
          have : c = q := by injection e
          exact absurd ⟨hb92, this⟩ h2
        | cons x l =>
          have := congrArg List.getLast? h3
          have h5 : (x :: l).getLast? = some 92 := by simpa using this
          exact List.getLast?_eq_some_iff.1 h5
      · have := hb.2; simpa using this

/-- A quoted string is matched as a whole. -/
theorem reQuoted_all {α : Type} {q : UInt8} (hq : q ≠ 92) {k : Bytes → Option α} {a : α} {body r : Bytes} (hb : StringBody q body)
    (hk : k r = some a) : reQuoted q (q :: body ++ q :: r) k = some a := by
  unfold reQuoted
  rw [List.cons_append, reByte_self]
  exact reBody_all hq r (by rw [reByte_self]; exact hk) _ body (Nat.le_refl _) hb

theorem reQuoted_none {α : Type} {q : UInt8} {k : Bytes → Option α} {s : Bytes} (h : s.head? ≠ some q) : reQuoted q s k = none := by
  unfold reQuoted reByte
  cases s with
  | nil => rfl
  | cons c t =>
    have : c ≠ q := by simpa using h
    simp [this]

/-- Balanced text: plain text, or plain text, a quoted string, and balanced text. -/
theorem balanced_split {b : Bytes} (h : Balanced b) :
    b.all plainByte = true ∨ ∃ u q body r, b = u ++ (q :: body ++ q :: r) ∧ u.all plainByte = true ∧ (q = 34 ∨ q = 39) ∧ StringBody q body ∧ Balanced r := by
  induction h with
  | nil => exact .inl rfl
  | plain c r h1 h2 h3 _ ih =>
    have hc : plainByte c = true := by simp [plainByte, h1, h2, h3]
    rcases ih with h | ⟨u, q, body, r', rfl, h4, h5, h6, h7⟩
    · left; simp [hc, h]
    · right; exact ⟨c :: u, q, body, r', rfl, by simp [hc, h4], h5, h6, h7⟩
  | quoted q body r hq hb hr _ => right; exact ⟨[], q, body, r, rfl, rfl, hq, hb, hr⟩

theorem plainByte_quote {q : UInt8} (h : q = 34 ∨ q = 39) : plainByte q = false := by rcases h with rfl | rfl <;> rfl

/-- Maximal plain prefix of balanced text. -/
theorem balanced_plain {b : Bytes} (h : Balanced b) :
    ∃ u r, b = u ++ r ∧ u.all plainByte = true ∧ Balanced r ∧ (r = [] ∨ ∃ q t, r = q :: t ∧ (q = 34 ∨ q = 39)) := by
  rcases balanced_split h with h | ⟨u, q, body, r, rfl, h1, h2, h3, h4⟩
  · exact ⟨b, [], by simp, h, .nil, .inl rfl⟩
  · exact ⟨u, _, rfl, h1, .quoted q body r h2 h3 h4, .inr ⟨q, _, rfl, h2⟩⟩

theorem reQSegs_all {a : Bytes} (rest : Bytes) : ∀ (n : Nat) (b : Bytes), b.length ≤ n → Balanced b →
    (b = [] ∨ b.all plainByte = false) → ∀ (m : Nat), n ≤ m → (a = rest) → reQSegs m (b ++ 10 :: rest) (fun s => reByte 10 s some) = some a
  | _, [], _, _, _, m, _, ha => by
    cases m with
    | zero => rw [List.nil_append, reQSegs, reByte_self, ha]
    | succ m =>
      have : reQSeg (10 :: rest) (fun s' => reQSegs m s' (fun s => reByte 10 s some)) = none := by
        unfold reQSeg
        refine reStar_none _ ?_
        intro u r e hu
        have hu' : u = [] := by
          cases u with
          | nil => rfl
          | cons c u =>
            injection e with e1 e2
            subst e1
            simp [plainByte] at hu
        subst hu'
        rw [List.nil_append] at e
        rw [← e, alt_none (reQuoted_none (by simp)), reQuoted_none (by simp)]
      rw [List.nil_append, reQSegs, alt_none this, reByte_self, ha]
  | 0, _ :: _, h, _, _, _, _, _ => by simp at h
  | n + 1, c :: b, hn, hb, hp, m, hm, ha => by
    rcases balanced_split hb with h | ⟨u, q, body, r, h1, h2, h3, h4, h5⟩
    · rcases hp with hp | hp
      · simp at hp
      · rw [h] at hp; simp at hp
    · rw [h1]
      cases m with
      | zero => omega
      | succ m =>
        rw [reQSegs]
        apply alt_some
        obtain ⟨v, r', e1, e2, e3, e4⟩ := balanced_plain h5
        have hlen : r'.length ≤ n := by
          have := congrArg List.length h1
          subst e1
          simp at this hn; omega
        have hrec := reQSegs_all (a := a) rest n r' hlen e3 (by
          rcases e4 with rfl | ⟨q', t, rfl, hq'⟩
          · exact .inl rfl
          · right; simp [plainByte_quote hq']) m (by omega) ha
        have hk : reStar plainByte (r ++ 10 :: rest) (fun s' => reQSegs m s' (fun s => reByte 10 s some)) = some a := by
          rw [e1, List.append_assoc]
          refine reStar_all v _ e2 ?_ hrec
          rcases e4 with rfl | ⟨q', t, rfl, hq'⟩
          · intro c' t' e; injection e with e _; subst e; rfl
          · intro c' t' e; injection e with e _; subst e; exact plainByte_quote hq'
        unfold reQSeg
        rw [List.append_assoc]
        refine reStar_all u _ h2 ?_ ?_
        · intro c' t' e; injection e with e _; subst e; exact plainByte_quote h3
        · rw [show q :: body ++ q :: r ++ 10 :: rest = q :: body ++ q :: (r ++ 10 :: rest) by simp]
          rcases h3 with rfl | rfl
          · exact alt_some (reQuoted_all (by decide) h4 hk)
          · rw [alt_none (reQuoted_none (by simp))]
            exact reQuoted_all (by decide) h4 hk

/-- White space before code is not a comment. -/
theorem comment_none {s : Bytes} {k : Bytes → Option Bytes} (hs : ∀ u r, s = u ++ r → u.all reSpace = true → r.head? ≠ some 35) :
    reStar reSpace s (fun s => reByte 35 s k) = none := by
  refine reStar_none _ fun u r e hu => ?_
  have := hs u r e hu
  cases r with
  | nil => rfl
  | cons c t =>
    have : c ≠ 35 := by simpa using this
    simp [reByte, this]

theorem lineMatch_nl (r : Bytes) : lineMatch (10 :: r) = some r := by
  unfold lineMatch
  exact alt_some reByte_self

theorem head_line {u b : Bytes} (hu : ∀ c ∈ u, c = 32) (h : ∃ c t, b = c :: t ∧ c ≠ 10) (rest : Bytes) :
    reByte 10 (u ++ (b ++ rest)) some = none := by
  obtain ⟨c, t, rfl, hc⟩ := h
  cases u with
  | nil => simp [reByte, hc]
  | cons x u =>
    have : x = 32 := hu x (by simp)
    subst this
    simp [reByte]

theorem lineMatch_com {u c : Bytes} (hu : ∀ c ∈ u, c = 32) (hc : 10 ∉ c) (r : Bytes) :
    lineMatch (u ++ (35 :: c ++ 10 :: r)) = some r := by
  unfold lineMatch
  rw [alt_none (head_line hu ⟨35, c, rfl, by decide⟩ _)]
  apply alt_some
  refine reStar_all u _ (by rw [List.all_eq_true]; intro x hx; rw [hu x hx]; rfl) (by rintro x t e; injection e with e _; subst e; rfl) ?_
  rw [List.cons_append, reByte_self]
  refine reStar_all c _ (by rw [List.all_eq_true]; intro x hx; simp; rintro rfl; exact hc hx) (by rintro x t e; injection e with e _; subst e; rfl) ?_
  exact reByte_self

theorem balanced_blanks {u b : Bytes} (hu : ∀ c ∈ u, c = 32) (hb : Balanced b) : Balanced (u ++ b) := by
  induction u with
  | nil => exact hb
  | cons c u ih =>
    have : c = 32 := hu c (by simp)
    subst this
    exact .plain _ _ (by decide) (by decide) (by decide) (ih fun c hc => hu c (by simp [hc]))

theorem codeStart_cons {b : Bytes} (h : codeStart b = true) : ∃ c t, b = c :: t ∧ c ≠ 10 ∧ c ≠ 35 ∧ reSpace c = false := by
  cases b with
  | nil => simp [codeStart] at h
  | cons c t =>
    simp only [codeStart, Bool.and_eq_true, bne_iff_ne] at h
    obtain ⟨⟨⟨⟨⟨h1, h2⟩, h3⟩, h4⟩, h5⟩, h6⟩ := h
    exact ⟨c, t, rfl, h2, h6, by simp [reSpace, h1, h2, h3, h4, h5]⟩

theorem lineMatch_code {u b : Bytes} (hu : ∀ c ∈ u, c = 32) (hb : Balanced b) (hs : codeStart b = true) (r : Bytes) :
    lineMatch (u ++ (b ++ 10 :: r)) = some r := by
  obtain ⟨c, t, hb', h1, h2, h3⟩ := codeStart_cons hs
  unfold lineMatch
  rw [alt_none (head_line hu ⟨c, t, hb', h1⟩ _)]
  rw [alt_none (comment_none ?_)]
  · have hbal := balanced_blanks hu hb
    rw [← List.append_assoc]
    rcases Bool.eq_false_or_eq_true ((u ++ b).all plainByte) with hp | hp
    · apply alt_some
      exact reStar_all (u ++ b) _ hp (by rintro x t e; injection e with e _; subst e; rfl) reByte_self
    · rw [alt_none (reStar_none _ ?_)]
      · exact reQSegs_all r _ (u ++ b) (Nat.le_refl _) hbal (.inr hp) _ (by simp) rfl
      · intro v w e hv
        rcases balanced_split hbal with h | ⟨v', q, body, r', h4, h5, h6, h7, h8⟩
        · rw [h] at hp; simp at hp
        · rw [h4, List.append_assoc] at e
          cases w with
          | nil => rfl
          | cons x w =>
            have hx : x ≠ 10 := by
              rintro rfl
              rcases List.append_eq_append_iff.1 e with ⟨a, ha1, ha2⟩ | ⟨a, ha1, ha2⟩
              · cases a with
                | nil => injection ha2 with ha2 _; rcases h6 with rfl | rfl <;> simp at ha2
                | cons y a =>
                  injection ha2 with ha2 _
                  subst ha2
                  subst ha1
                  rw [List.all_append, List.all_cons, plainByte_quote h6] at hv
                  simp at hv
              · cases a with
                | nil => injection ha2 with ha2 _; rcases h6 with rfl | rfl <;> simp at ha2
                | cons y a =>
                  injection ha2 with ha2 _
                  subst ha2
                  subst ha1
                  simp [plainByte] at h5
            simp [reByte, hx]
  · intro v w e hv hw
    subst hb'
    rcases List.append_eq_append_iff.1 e with ⟨a, ha1, ha2⟩ | ⟨a, ha1, ha2⟩
    · cases a with
      | nil => rw [← List.nil_append w, ← ha2] at hw; simp at hw; exact h2 hw
      | cons y a =>
        injection ha2 with ha2 _
        subst ha2
        subst ha1
        simp [h3] at hv
    · cases a with
      | nil => rw [show w = _ from ha2] at hw; simp at hw; exact h2 hw
      | cons y a =>
        have : w.head? = some y := by rw [ha2]; rfl
        rw [this] at hw
        injection hw with hw
        have := hu y (by rw [ha1]; simp)
        rw [hw] at this; simp at this

/-! ### Lines of pieces -/

theorem render_cons (p : Piece) (ps : List Piece) : render (p :: ps) = p.text ++ render ps := rfl
theorem render_append (a b : List Piece) : render (a ++ b) = render a ++ render b := List.flatMap_append ..

theorem balanced_append {a b : Bytes} (ha : Balanced a) (hb : Balanced b) : Balanced (a ++ b) := by
  induction ha with
  | nil => exact hb
  | plain c r h1 h2 h3 _ ih => exact .plain c _ h1 h2 h3 ih
  | quoted q body r hq h1 _ ih =>
    rw [show q :: body ++ q :: r ++ b = q :: body ++ q :: (r ++ b) by simp]
    exact .quoted q body _ hq h1 ih

/-- The rest of a line, in code. -/
theorem line_mid : ∀ ps : List Piece, (∀ p ∈ ps, p.Ok) → scan .mid ps = some .fresh →
    ∃ b R, render ps = b ++ 10 :: render R ∧ Balanced b ∧ (∀ p ∈ R, p.Ok) ∧ scan .fresh R = some .fresh ∧
      render (indent false ps) = b ++ 10 :: render (indent true R)
  | [], _, h => by simp [scan] at h
  | .nl :: r, hok, h => ⟨[], r, rfl, .nil, fun p hp => hok p (by simp [hp]), by simpa [scan] using h, rfl⟩
  | .code b :: r, hok, h => by
    obtain ⟨b', R, h1, h2, h3, h4, h5⟩ := line_mid r (fun p hp => hok p (by simp [hp])) (by simpa [scan] using h)
    refine ⟨b ++ b', R, by rw [render_cons, h1]; simp [Piece.text], balanced_append (hok (.code b) (by simp)).2 h2, h3, h4, ?_⟩
    rw [indent, render_cons, h5]
    · simp [Piece.text]
    · exact (fun h => nomatch h)
  | .sp :: r, _, h => by simp [scan] at h
  | .com b :: r, _, h => by simp [scan] at h

/-- A line that starts with code or a comment, after some blanks. -/
def LineOf (u b : Bytes) : Prop := (∀ c ∈ u, c = 32) ∧ ((Balanced b ∧ codeStart b = true) ∨ ∃ c, b = 35 :: c ∧ 10 ∉ c)

theorem codeStart_append {a b : Bytes} (h : codeStart a = true) : codeStart (a ++ b) = true := by
  cases a with
  | nil => simp [codeStart] at h
  | cons c t => exact h

theorem line_spaced (st : LineSt) (hst : st = .fresh ∨ st = .spaced) : ∀ (ps : List Piece), (∀ p ∈ ps, p.Ok) →
    scan st ps = some .fresh → (∃ p r, ps = p :: r ∧ p ≠ .nl) →
    ∃ u b R, render ps = u ++ (b ++ 10 :: render R) ∧ LineOf u b ∧ (∀ p ∈ R, p.Ok) ∧ scan .fresh R = some .fresh ∧
      render (indent false ps) = u ++ (b ++ 10 :: render (indent true R))
  | [], _, _, h => by obtain ⟨p, r, h, _⟩ := h; simp at h
  | .nl :: r, _, _, h => by obtain ⟨p, r', h, h'⟩ := h; injection h with h _; exact absurd h.symm h'
  | .code b :: r, hok, h, _ => by
    have h' : codeStart b = true ∧ scan .mid r = some .fresh := by
      rcases hst with rfl | rfl <;> (rw [scan] at h; split at h <;> simp_all)
    obtain ⟨b', R, h1, h2, h3, h4, h5⟩ := line_mid r (fun p hp => hok p (by simp [hp])) h'.2
    refine ⟨[], b ++ b', R, by rw [render_cons, h1]; simp [Piece.text], ⟨by simp, .inl ⟨balanced_append (hok (.code b) (by simp)).2 h2,
      codeStart_append h'.1⟩⟩, h3, h4, ?_⟩
    rw [indent, render_cons, h5]
    · simp [Piece.text]
    · exact (fun h => nomatch h)
  | .com b :: r, hok, h, _ => by
    have h' : scan .closed r = some .fresh := by
      rcases hst with rfl | rfl <;> (rw [scan] at h; exact h)
    cases r with
    | nil => simp [scan] at h'
    | cons p r =>
      cases p with
      | nl => exact ⟨[], 35 :: b, r, rfl, ⟨by simp, .inr ⟨b, rfl, hok (.com b) (by simp)⟩⟩, fun p hp => hok p (by simp [hp]),
          by simpa [scan] using h', rfl⟩
      | _ => simp [scan] at h'
  | .sp :: r, hok, h, _ => by
    have h' : scan .spaced r = some .fresh := by
      rcases hst with rfl | rfl <;> (rw [scan] at h; exact h)
    have hne : ∃ p r', r = p :: r' ∧ p ≠ .nl := by
      cases r with
      | nil => simp [scan] at h'
      | cons p r =>
        cases p with
        | nl => simp [scan] at h'
        | _ => exact ⟨_, _, rfl, (fun h => nomatch h)⟩
    obtain ⟨u, b, R, h1, h2, h3, h4, h5⟩ := line_spaced .spaced (.inr rfl) r (fun p hp => hok p (by simp [hp])) h' hne
    refine ⟨32 :: 32 :: u, b, R, by rw [render_cons, h1]; rfl, ⟨by simpa using h2.1, h2.2⟩, h3, h4, ?_⟩
    rw [indent, render_cons, h5]
    · rfl
    · exact (fun h => nomatch h)

theorem lineMatch_line {u b : Bytes} (h : LineOf u b) (r : Bytes) : lineMatch (u ++ (b ++ 10 :: r)) = some r := by
  rcases h.2 with ⟨h1, h2⟩ | ⟨c, rfl, h1⟩
  · exact lineMatch_code h.1 h1 h2 r
  · exact lineMatch_com h.1 h1 r

theorem line_nonblank {u b : Bytes} (h : LineOf u b) :
    (trimLeftBy (fun b => b == 32 || b == 10) (u ++ (b ++ [10]))).isEmpty = false := by
  have hb : ∃ c t, b = c :: t ∧ (c == 32 || c == 10) = false := by
    rcases h.2 with ⟨_, h2⟩ | ⟨c, rfl, _⟩
    · obtain ⟨c, t, hb, h3, _, h4⟩ := codeStart_cons h2
      refine ⟨c, t, hb, ?_⟩
      simp only [reSpace, Bool.or_eq_false_iff, beq_eq_false_iff_ne] at h4
      simp [h4.2, h3]
    · exact ⟨35, c, rfl, rfl⟩
  obtain ⟨c, t, rfl, hc⟩ := hb
  obtain ⟨hu, -⟩ := h
  unfold trimLeftBy
  induction u with
  | nil => simp only [List.nil_append, List.cons_append]; rw [List.dropWhile_cons, hc]; rfl
  | cons x u ih =>
    have : x = 32 := hu x (by simp)
    subst this
    rw [List.cons_append, List.dropWhile_cons]
    exact ih (fun c hc => hu c (by simp [hc]))

theorem findLines_pieces : ∀ (n : Nat) (ps : List Piece), (render ps).length < n → (∀ p ∈ ps, p.Ok) → scan .fresh ps = some .fresh →
    ((findLinesAux n (render ps)).flatMap fun l =>
      if (trimLeftBy (fun b => b == 32 || b == 10) l).isEmpty then [10] else [32, 32] ++ l) = render (indent true ps)
  | 0, _, h, _, _ => by omega
  | n + 1, [], _, _, _ => by
    have h1 : lineMatch ([] : Bytes) = none := rfl
    show ((findLinesAux (n + 1) ([] : Bytes)).flatMap _) = _
    rw [findLinesAux, h1]; rfl
  | n + 1, .nl :: r, h, hok, hs => by
    have hr : (render r).length < n := by rw [render_cons] at h; simp [Piece.text] at h; omega
    have := findLines_pieces n r hr (fun p hp => hok p (by simp [hp])) (by simpa [scan] using hs)
    rw [render_cons, show Piece.text .nl ++ render r = 10 :: render r from rfl, findLinesAux, lineMatch_nl]
    simp only [List.flatMap_cons, this]
    rw [show (10 :: render r).length - (render r).length = 1 by simp]
    rfl
  | n + 1, .sp :: r, h, hok, hs => findLines_step n (.sp) r h hok hs (fun h => nomatch h)
  | n + 1, .code b :: r, h, hok, hs => findLines_step n (.code b) r h hok hs (fun h => nomatch h)
  | n + 1, .com b :: r, h, hok, hs => findLines_step n (.com b) r h hok hs (fun h => nomatch h)
where
  findLines_step (n : Nat) (p : Piece) (r : List Piece) (h : (render (p :: r)).length < n + 1) (hok : ∀ q ∈ p :: r, q.Ok)
      (hs : scan .fresh (p :: r) = some .fresh) (hp : p ≠ .nl) :
      ((findLinesAux (n + 1) (render (p :: r))).flatMap fun l =>
        if (trimLeftBy (fun b => b == 32 || b == 10) l).isEmpty then [10] else [32, 32] ++ l) = render (indent true (p :: r)) := by
    obtain ⟨u, b, R, h1, h2, h3, h4, h5⟩ := line_spaced .fresh (.inl rfl) (p :: r) hok hs ⟨p, r, rfl, hp⟩
    have hlen : (render R).length < n := by rw [h1] at h; simp at h; omega
    have ih := findLines_pieces n R hlen h3 h4
    have hne := line_nonblank h2
    have htake : (u ++ (b ++ 10 :: render R)).take ((u ++ (b ++ 10 :: render R)).length - (render R).length) = u ++ (b ++ [10]) := by
      rw [show u ++ (b ++ 10 :: render R) = (u ++ (b ++ [10])) ++ render R by simp]
      rw [List.length_append, Nat.add_sub_cancel, List.take_left]
    have hi : indent true (p :: r) = .sp :: indent false (p :: r) := by
      cases p <;> first | exact absurd rfl hp | rfl
    rw [h1]
    unfold findLinesAux
    rw [lineMatch_line h2]
    simp only [List.flatMap_cons, ih, htake, hne]
    rw [hi, render_cons, h5]
    simp [Piece.text]

/-- A piece does not end with a newline. -/
theorem balanced_last {b : Bytes} (h : Balanced b) (hne : b ≠ []) : b.getLast? ≠ some 10 := by
  induction h with
  | nil => exact absurd rfl hne
  | plain c r h1 h2 h3 hr ih =>
    cases r with
    | nil => simpa using h3
    | cons x r => have := ih (by simp); simpa using this
  | quoted q body r hq _ hr ih =>
    cases r with
    | nil =>
      rw [List.getLast?_append]
      rcases hq with rfl | rfl <;> simp
    | cons x r =>
      have := ih (by simp)
      rw [show q :: body ++ q :: x :: r = (q :: body ++ [q]) ++ (x :: r) by simp, List.getLast?_append]
      simp only [Option.or]
      split <;> simp_all

theorem trimRight_last {s : Bytes} {k : Nat} (h : s.getLast? ≠ some 10) : trimRight 10 (s ++ List.replicate k 10) = s := by
  unfold trimRight
  rw [List.reverse_append, List.reverse_replicate]
  have : ∀ k, (List.replicate k (10 : UInt8) ++ s.reverse).dropWhile (· == 10) = s.reverse.dropWhile (· == 10) := by
    intro k
    induction k with
    | zero => rfl
    | succ k ih => rw [List.replicate_succ, List.cons_append, List.dropWhile_cons]; simpa using ih
  rw [this]
  cases hr : s.reverse with
  | nil => simp at hr; simp [hr]
  | cons c t =>
    have hc : s.getLast? = some c := by rw [List.getLast?_eq_head?_reverse, hr]; rfl
    have hc' : c ≠ 10 := by rintro rfl; exact h hc
    rw [List.dropWhile_cons, if_neg (by simpa using hc')]
    rw [← hr, List.reverse_reverse]

theorem piece_last {p : Piece} (hok : p.Ok) (hp : p ≠ .nl) (a : Bytes) : (a ++ p.text).getLast? ≠ some 10 := by
  rw [List.getLast?_append]
  have key : p.text ≠ [] ∧ p.text.getLast? ≠ some 10 := by
    cases p with
    | sp => simp [Piece.text]
    | nl => exact absurd rfl hp
    | code b => exact ⟨hok.1, balanced_last hok.2 hok.1⟩
    | com b =>
      refine ⟨by simp [Piece.text], fun h => ?_⟩
      have := List.mem_of_getLast? h
      simp only [Piece.text, List.mem_cons] at this
      rcases this with h | h
      · exact absurd h (by decide)
      · exact hok h
  cases h : p.text.getLast? with
  | none => simp at h; exact absurd h key.1
  | some x => rw [h] at key; simpa using key.2

/-- `prefix` on lines followed by newlines: the last of them is kept. -/
theorem prefix_pieces (qs : List Piece) (p : Piece) (k : Nat) (e : Bool) (hok : ∀ q ∈ qs ++ [p], q.Ok) (hp : p ≠ .nl)
    (hs : scan .fresh (qs ++ [p, .nl]) = some .fresh) :
    prefixS (render (qs ++ [p]) ++ List.replicate k 10) e = 10 :: render (indent true (qs ++ [p, .nl])) := by
  have h1 : render (qs ++ [p]) = render qs ++ p.text := by rw [render_append]; simp [render]
  have hl : (render (qs ++ [p])).getLast? ≠ some 10 := by
    rw [h1]; exact piece_last (hok p (by simp)) hp _
  have hne : render (qs ++ [p]) ≠ [] := by
    rw [h1]
    cases p with
    | nl => exact absurd rfl hp
    | code b => have := (hok (.code b) (by simp)).1; simp [Piece.text, this]
    | _ => simp [Piece.text]
  unfold prefixS
  rw [if_neg (by simp [hne]), trimRight_last hl]
  have : render (qs ++ [p]) ++ [10] = render (qs ++ [p, .nl]) := by simp [render, Piece.text]
  rw [this]
  congr 1
  exact findLines_pieces _ _ (by omega) (by
    intro q hq
    rw [show qs ++ [p, .nl] = (qs ++ [p]) ++ [.nl] by simp, List.mem_append] at hq
    rcases hq with hq | hq
    · exact hok q hq
    · simp at hq; subst hq; trivial) hs

end Verif
