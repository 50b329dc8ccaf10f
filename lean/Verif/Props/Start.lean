import Verif.Props.Language
/-
Property C81: how an accepted file begins and ends.
-/
namespace Verif.Props
open Verif Spec

theorem ws_head {w r ws rest : Bytes} {b c : UInt8} (hw : w.all isWs = true) (hc : isWs c = false) (hws : ws.all isWs = true) (hb : isWs b = false)
    (h : w ++ c :: r = ws ++ b :: rest) : w = ws ∧ c :: r = b :: rest := by
  induction w generalizing ws with
  | nil =>
    cases ws with
    | nil => exact ⟨rfl, h⟩
    | cons x t =>
      simp only [List.nil_append, List.cons_append] at h
      injection h with h1 h2
      subst h1
      simp [hc] at hws
  | cons x t ih =>
    cases ws with
    | nil =>
      simp only [List.nil_append, List.cons_append] at h
      injection h with h1 h2
      subst h1
      simp [hb] at hw
    | cons y u =>
      simp only [List.cons_append] at h
      injection h with h1 h2
      subst h1
      simp only [List.all_cons, Bool.and_eq_true] at hw hws
      obtain ⟨e, e'⟩ := ih hw.2 hws.2 h2
      exact ⟨by rw [e], e'⟩

theorem ws_none {w ws rest : Bytes} {b : UInt8} (hw : w.all isWs = true) (hb : isWs b = false) : w ≠ ws ++ b :: rest := by
  rintro rfl
  simp [hb] at hw

/-- A comment line followed by anything has `#` as first byte that is not blank. -/
theorem line_head {l : CommentLine} {X ws rest : Bytes} {b : UInt8} (hl : l.OkEnd) (hws : ws.all isWs = true) (hb : isWs b = false)
    (h : l.text ++ X = ws ++ b :: rest) : b = 35 := by
  have : l.ws ++ 35 :: (l.body ++ (if l.cr then [13] else []) ++ (if l.lf then [10] else []) ++ X) = ws ++ b :: rest := by
    rw [← h]; simp [CommentLine.text]
  obtain ⟨-, e⟩ := ws_head hl.1 (by decide) hws hb this
  injection e with e _
  exact e.symm

/-- A gap and code behind it: the first byte that is not blank is `#`, or the gap is blank. -/
theorem gap_head {g : Gap} {X ws rest : Bytes} {b : UInt8} (hg : g.Ok) (hws : ws.all isWs = true) (hb : isWs b = false)
    (h : g.text ++ X = ws ++ b :: rest) : b = 35 ∨ (g.lines = [] ∧ g.tail ++ X = ws ++ b :: rest) := by
  cases hl : g.lines with
  | nil => exact .inr ⟨rfl, by simpa [Gap.text, hl] using h⟩
  | cons l ls =>
    left
    refine line_head (l := l) (X := ls.flatMap CommentLine.text ++ g.tail ++ X) (rest := rest) (hg.1 l (by simp [hl])).1 hws hb ?_
    rw [← h]; simp [Gap.text, hl]

/-- **C81** Of an accepted file the first thing that is not blank is a comment or the keyword of a section. -/
theorem C81_first (o : Opts) (filename data : Bytes) (ff : List FF) (h : (parse o filename data ff).1.errs = [])
    (ws rest : Bytes) (b : UInt8) (hd : data = ws ++ b :: rest) (hws : ws.all isWs = true) (hb : isWs b = false) :
    b = 35 ∨ b!"input" <+: b :: rest ∨ b!"filter" <+: b :: rest ∨ b!"output" <+: b :: rest := by
  obtain ⟨k, c, k1, k2, -, -⟩ := C02_sentence o filename data ff h
  rw [hd] at k2
  cases k with
  | empty g =>
    left
    rcases k1 with hg | ⟨ls, l, rfl, h1, h2, -⟩
    · rcases gap_head (X := []) hg hws hb (by simpa [CFile.text] using k2) with e | ⟨-, e⟩
      · exact e
      · rw [List.append_nil] at e
        exact absurd e (ws_none hg.2 hb)
    · cases ls with
      | nil => exact line_head (X := []) h2 hws hb (by simpa [CFile.text, Gap.text] using k2)
      | cons m ms =>
        exact line_head (l := m) (X := ms.flatMap CommentLine.text ++ l.text) (h1 m (by simp)).1 hws hb
          (by rw [← k2]; simp [CFile.text, Gap.text])
  | config s ss foot =>
    obtain ⟨⟨s1, s2, -, -, -⟩, -, -⟩ := k1
    obtain ⟨X, hX⟩ : ∃ X, CFile.text (.config s ss foot) = s.com.text ++ (ptypeText s.ptype ++ X) :=
      ⟨s.g.text ++ (b!"{" ++ (itemsText s.items ++ (s.foot.text ++ (b!"}" ++ (ss.flatMap CSection.text ++ foot.text))))), by
        simp only [CFile.text, CSection.text, List.append_assoc]⟩
    rw [hX] at k2
    rcases gap_head s1 hws hb k2 with e | ⟨-, e⟩
    · exact .inl e
    · right
      have key : ∀ (c : UInt8) (t : Bytes), isWs c = false → ptypeText s.ptype = c :: t → c :: t <+: b :: rest := by
        intro c t hc ht
        rw [ht] at e
        obtain ⟨-, e⟩ := ws_head s1.2 hc hws hb e
        rw [← e]
        exact ⟨X, rfl⟩
      cases hp : s.ptype with
      | undefined => exact absurd hp s2
      | input => exact .inl (key _ _ (by decide) (by rw [hp]; rfl))
      | filter => exact .inr (.inl (key _ _ (by decide) (by rw [hp]; rfl)))
      | output => exact .inr (.inr (key _ _ (by decide) (by rw [hp]; rfl)))

/-- **C81** A file that begins with a byte order mark is rejected, whatever follows and with every option. -/
theorem C81_bom (o : Opts) (filename rest : Bytes) (ff : List FF) : (parse o filename (0xEF :: 0xBB :: 0xBF :: rest) ff).1.errs ≠ [] := by
  intro h
  rcases C81_first o filename _ ff h [] _ _ rfl rfl (by decide) with h | ⟨t, h⟩ | ⟨t, h⟩ | ⟨t, h⟩
  · exact absurd h (by decide)
  all_goals
    injection h with h _
    exact absurd h (by decide)

-- The hypotheses hold for a file with blanks in front of a section; without the mark the file is accepted, with it not.
example : (parse {} [] b!"\r\n input { }" []).1.errs = [] ∧
    b!"\r\n input { }" = b!"\r\n " ++ 105 :: b!"nput { }" ∧ (b!"\r\n ").all isWs = true ∧
    (parse {} [] ([0xEF, 0xBB, 0xBF] ++ b!"input { }") []).1.errs.map (fun e => e.pos.offset) = [(0 : Int)] := by
  refine ⟨?_, ?_, ?_, ?_⟩ <;> decide +kernel

/-! ### The end -/

theorem ws_last {x y w ws : Bytes} {b c : UInt8} (hw : w.all isWs = true) (hc : isWs c = false) (hws : ws.all isWs = true) (hb : isWs b = false)
    (h : x ++ c :: w = y ++ b :: ws) : x = y ∧ c = b := by
  have h' : w.reverse ++ c :: x.reverse = ws.reverse ++ b :: y.reverse := by
    have := congrArg List.reverse h
    simpa using this
  obtain ⟨-, e⟩ := ws_head (by simpa using hw) hc (by simpa using hws) hb h'
  injection e with e1 e2
  exact ⟨List.reverse_inj.1 e2, e1⟩

/-- Everything that has a byte that is not blank has a last one. -/
theorem last_black (c : UInt8) (hc : isWs c = false) (body : Bytes) :
    ∃ u b w, c :: body = u ++ b :: w ∧ isWs b = false ∧ w.all isWs = true := by
  induction body generalizing c with
  | nil => exact ⟨[], c, [], rfl, hc, rfl⟩
  | cons d r ih =>
    cases hd : isWs d with
    | false =>
      obtain ⟨u, b, w, e, h1, h2⟩ := ih d hd
      exact ⟨c :: u, b, w, by rw [e]; rfl, h1, h2⟩
    | true =>
      obtain ⟨u, b, w, e, h1, h2⟩ := ih c hc
      cases u with
      | nil =>
        injection e with e1 e2
        subst e1
        subst e2
        exact ⟨[], c, d :: r, rfl, hc, by simp [hd, h2]⟩
      | cons x t =>
        injection e with e1 e2
        subst e1
        subst e2
        exact ⟨c :: d :: t, b, w, rfl, h1, h2⟩

/-- Text that ends in a comment line and blanks: the last thing that is not blank stands behind the `#` of that line. -/
theorem line_last {l : CommentLine} {X ws front w : Bytes} {b : UInt8} (hl : l.OkEnd) (hw : w.all isWs = true) (hws : ws.all isWs = true)
    (hb : isWs b = false) (h : X ++ l.text ++ w = front ++ b :: ws) :
    ∃ pre line, front ++ [b] = pre ++ 35 :: line ∧ (10 : UInt8) ∉ line ∧ (13 : UInt8) ∉ line := by
  obtain ⟨u, c, v, e, hc, hv⟩ := last_black 35 (by decide) l.body
  have e2 : (X ++ l.ws ++ u) ++ c :: (v ++ (if l.cr then [13] else []) ++ (if l.lf then [10] else []) ++ w) = front ++ b :: ws := by
    rw [← h]
    have : l.text = l.ws ++ (35 :: l.body) ++ (if l.cr then [13] else []) ++ (if l.lf then [10] else []) := by simp [CommentLine.text]
    rw [this, e]
    simp
  obtain ⟨h1, rfl⟩ := ws_last (by cases l.cr <;> cases l.lf <;> simp_all [isWs]) hc hws hb e2
  have hno : ∀ d ∈ l.body, d ≠ 13 ∧ d ≠ 10 := by
    intro d hd
    have := List.all_eq_true.1 hl.2 d hd
    simpa using this
  have hpre : ∃ line, u ++ [c] = 35 :: line ∧ ∀ d ∈ line, d ∈ l.body := by
    cases u with
    | nil =>
      injection e with e1 e2
      exact ⟨[], by rw [e1]; rfl, fun _ h => nomatch h⟩
    | cons x t =>
      injection e with e1 e2
      refine ⟨t ++ [c], by rw [← e1]; rfl, fun d hd => ?_⟩
      rw [e2]
      refine List.mem_append.2 ?_
      rcases List.mem_append.1 hd with hd | hd
      · exact .inl hd
      · exact .inr (List.mem_cons.2 (.inl (List.mem_singleton.1 hd)))
  obtain ⟨line, h2, h3⟩ := hpre
  refine ⟨X ++ l.ws, line, ?_, fun h => (hno _ (h3 _ h)).2 rfl, fun h => (hno _ (h3 _ h)).1 rfl⟩
  rw [← h1, ← h2]
  simp

/-- **C81** Of an accepted file the last thing that is not blank is a closing bracket or belongs to a comment: from some `#` on there is
no line end up to it. -/
theorem C81_last (o : Opts) (filename data : Bytes) (ff : List FF) (h : (parse o filename data ff).1.errs = [])
    (front ws : Bytes) (b : UInt8) (hd : data = front ++ b :: ws) (hws : ws.all isWs = true) (hb : isWs b = false) :
    b = 125 ∨ ∃ pre line, front ++ [b] = pre ++ 35 :: line ∧ (10 : UInt8) ∉ line ∧ (13 : UInt8) ∉ line := by
  obtain ⟨k, c, k1, k2, -, -⟩ := C02_sentence o filename data ff h
  rw [hd] at k2
  have gapcase : ∀ (X : Bytes) (g : Gap), g.OkEnd → X ++ g.text = front ++ b :: ws →
      (g.lines = [] ∧ g.tail.all isWs = true ∧ X ++ g.tail = front ++ b :: ws) ∨
      ∃ pre line, front ++ [b] = pre ++ 35 :: line ∧ (10 : UInt8) ∉ line ∧ (13 : UInt8) ∉ line := by
    intro X g hg e
    rcases hg with hg | ⟨ls, l, rfl, -, h2, -⟩
    · rcases List.eq_nil_or_concat g.lines with hl | ⟨ls, l, hl⟩
      · exact .inl ⟨hl, hg.2, by simpa [Gap.text, hl] using e⟩
      · right
        refine line_last (l := l) (X := X ++ ls.flatMap CommentLine.text) (w := g.tail) (hg.1 l (by simp [hl])).1 hg.2 hws hb ?_
        rw [← e]; simp [Gap.text, hl]
    · right
      refine line_last (l := l) (X := X ++ ls.flatMap CommentLine.text) (w := []) h2 rfl hws hb ?_
      rw [← e]; simp [Gap.text]
  cases k with
  | empty g =>
    rcases gapcase [] g k1 (by simpa [CFile.text] using k2) with ⟨-, h1, h2⟩ | h1
    · exact absurd h2 (ws_none h1 hb)
    · exact .inr h1
  | config s ss foot =>
    obtain ⟨-, -, k1⟩ := k1
    have hX : ∃ X, s.text ++ ss.flatMap CSection.text = X ++ [125] := by
      have hs : ∀ t : CSection, ∃ X, t.text = X ++ [125] := fun t => ⟨_, rfl⟩
      rcases List.eq_nil_or_concat ss with rfl | ⟨ts, t, rfl⟩
      · obtain ⟨X, e⟩ := hs s
        exact ⟨X, by simp [e]⟩
      · obtain ⟨X, e⟩ := hs t
        exact ⟨s.text ++ ts.flatMap CSection.text ++ X, by simp [e]⟩
    obtain ⟨X, hX⟩ := hX
    rcases gapcase _ foot k1 (by simpa only [CFile.text] using k2) with ⟨-, h1, h2⟩ | h1
    · left
      rw [hX, List.append_assoc] at h2
      exact (ws_last h1 (by decide) hws hb h2).2.symm
    · exact .inr h1

-- Both cases occur.
example : (parse {} [] b!"input { } \n" []).1.errs = [] ∧ b!"input { } \n" = b!"input { " ++ 125 :: b!" \n" ∧ (b!" \n").all isWs = true ∧
    (parse {} [] b!"input { }\n # end \r\n" []).1.errs = [] ∧
    b!"input { }\n # end \r\n" = b!"input { }\n # en" ++ 100 :: b!" \r\n" ∧ (b!" \r\n").all isWs = true := by
  refine ⟨?_, ?_, ?_, ?_, ?_, ?_⟩ <;> decide +kernel

end Verif.Props
