import Verif.Spec.Errors
import Verif.Proofs.ErrInv
import Verif.Props.Engine
/-
Properties C51 (error locations) and C52 (no error is reported twice).
-/
namespace Verif.Props
open Verif Spec

/-- For valid input: all positions are accurate. -/
def invValid (o : Opts) (data : Bytes) : ErrInv o data where
  I := PtOk data
  R := Located data
  E e := Located data e.pos ∧ e.msg ≠ invalidEncoding
  adv _ _ h ha := h.adv ha
  le _ h := h.le
  rest _ h := h.rest
  pos p h := .inr ⟨p.offset, h.le, h.pos⟩
  inval p r h hi _ := by
    exfalso
    have h2 := h.valid
    obtain ⟨cs, hcs⟩ := h2
    simp only [Pt.invalid, Pt.rn, Pt.w, hcs, Bool.and_eq_true, beq_iff_eq] at hi
    cases cs with
    | nil => simp [encode, decodeRune] at hi
    | cons c cs =>
      rw [show encode (c :: cs) = String.utf8EncodeChar c ++ encode cs from rfl, decodeRune_encode] at hi
      simp only at hi
      have : c.val.toNat = 65533 := hi.1
      have h3 := hi.2
      unfold String.utf8EncodeChar at h3
      rw [this] at h3
      simp at h3
  other p r m hp hm := ⟨hp, hm⟩

/-- For any input: offsets are in the input, and the message about the encoding stands where the
encoding is wrong. -/
def invAny (o : Opts) (data : Bytes) : ErrInv o data where
  I p := p.offset ≤ data.length ∧ p.rest = data.drop p.offset
  R p := 0 ≤ p.offset ∧ p.offset.toNat ≤ data.length
  E e := (0 ≤ e.pos.offset ∧ e.pos.offset.toNat ≤ data.length) ∧
    (e.msg = invalidEncoding → o.allowInvalid = false ∧ NotUtf8At data e.pos.offset.toNat)
  adv p q h ha := by
    obtain ⟨h1, h2, h3⟩ := ha.offset_le
    obtain ⟨h4, h5⟩ := h
    rw [h5, List.length_drop] at h2
    refine ⟨by omega, ?_⟩
    rw [h3, h5, List.drop_drop]; congr 1; omega
  le _ h := h.1
  rest _ h := h.2
  pos p h := by simpa [Pt.pos] using h.1
  inval p r h hi ho := by
    refine ⟨by simpa [Pt.pos] using h.1, fun _ => ⟨ho, ?_⟩⟩
    simp only [Pt.invalid, Pt.rn, Pt.w, Bool.and_eq_true, beq_iff_eq] at hi
    have hl := decodeRune_width_le p.rest
    have hlen : p.rest.length = data.length - p.offset := by rw [h.2, List.length_drop]
    refine ⟨by simp only [Pt.pos, Int.toNat_natCast]; omega, ?_⟩
    intro c ⟨t, ht⟩
    simp only [Pt.pos, Int.toNat_natCast] at ht
    rw [h.2, ← ht, decodeRune_encode] at hi
    simp only at hi
    have : c.val.toNat = 65533 := hi.1
    have h3 := hi.2
    unfold String.utf8EncodeChar at h3
    rw [this] at h3
    simp at h3
  other p r m hp hm := ⟨hp, fun h => absurd h hm⟩

theorem noMatch_ne (l : List Bytes) : noMatchMsg l ≠ invalidEncoding := by
  intro h
  have := congrArg (fun x => x.take 2) h
  simp only [noMatchMsg, invalidEncoding] at this
  revert this
  simp

/-- The invariant at the end of a parse. -/
theorem parse_inv {o : Opts} {data : Bytes} (V : ErrInv o data) (filename : Bytes) (ff : List FF)
    (hI : V.I (initSt o data ff).pt) (h1 : V.R ⟨1, 1, 0⟩) (hff : ∀ e ∈ ff, FFQuote V.R data e) :
    (∀ e ∈ (parse o filename data ff).1.errs, V.E e) ∧ ∀ e ∈ (parse o filename data ff).2, FFQuote V.R data e := by
  have := V.eval_ok gram (parseFuel data) G.init (initSt o data ff) (V.init_ok ff hI h1 hff)
  have hT := evalInit_term (parseFuel data) o data ff (Nat.le_refl _)
  rw [parse_finish]
  rw [evalInit_eq] at hT ⊢
  cases h : eval o gram (parseFuel data) G.init (initSt o data ff) with
  | timeout => rw [h] at hT; exact absurd rfl hT
  | ok v t =>
    rw [h] at this
    exact ⟨fun e he => this.errs e (dedupe_mem he), this.ff⟩
  | fail t =>
    rw [h] at this
    simp only [finish, ParseRes.errs]
    split
    · refine ⟨fun e he => ?_, this.ff⟩
      have he := dedupe_mem he
      simp only [St.addErrAt, List.mem_append, List.mem_singleton] at he
      rcases he with he | rfl
      · exact this.errs e he
      · exact V.other _ _ _ this.mf (noMatch_ne _)
    · exact ⟨fun e he => this.errs e (dedupe_mem he), this.ff⟩
  | panic m t =>
    rw [h] at this
    simp only [finish, ParseRes.errs]
    refine ⟨fun e he => ?_, this.1.ff⟩
    have he := dedupe_mem he
    simp only [St.addErr, St.addErrAt, List.mem_append, List.mem_singleton] at he
    rcases he with he | rfl
    · exact this.1.errs e he
    · exact V.other _ _ _ (V.pos _ this.1.pt) this.2

/-- **C51** The line, column and offset of every error returned for a valid UTF-8 input are those of
a byte of the input (or its end), by counting; and no such error is about the encoding. -/
theorem C51_positions (o : Opts) (filename data : Bytes) (ff : List FF) (hv : ValidUTF8 data) :
    ∀ e ∈ (parse o filename data ff).1.errs, Located data e.pos ∧ e.msg ≠ b!"invalid encoding" := by
  rw [C05_result o filename data ff []]
  exact (parse_inv (invValid o data) filename [] (PtOk.init o data [] hv) (.inl rfl) (by simp)).1

/-- **C51** For any input the offset of every error lies in the input, and an error about the
encoding is only reported without `AllowInvalidUTF8`, and its offset is one where the input does not
continue with a UTF-8 encoded character. -/
theorem C51_encoding (o : Opts) (filename data : Bytes) (ff : List FF) :
    ∀ e ∈ (parse o filename data ff).1.errs, (0 ≤ e.pos.offset ∧ e.pos.offset.toNat ≤ data.length) ∧
      (e.msg = b!"invalid encoding" → o.allowInvalid = false ∧ NotUtf8At data e.pos.offset.toNat) := by
  rw [C05_result o filename data ff []]
  refine (parse_inv (invAny o data) filename [] ?_ ⟨by simp, by simp⟩ (by simp)).1
  have hpt : (initSt o data []).pt = (⟨1, 0, 0, data⟩ : Pt).moveTo 0 data := (firstRead_fields o _).1
  rw [hpt]
  have ho : ((⟨1, 0, 0, data⟩ : Pt).moveTo 0 data).offset = 0 := by
    unfold Pt.moveTo; split <;> rfl
  exact ⟨by rw [ho]; omega, by rw [ho, Pt.moveTo_rest]; rfl⟩

/-- **C51** The failure report quotes the input: every entry shows a position of the input (or the
zero position, when nothing has been read), the offset it names is in the input, and the text it
shows is exactly the input from that position to that offset. -/
theorem C51_report (o : Opts) (filename data : Bytes) (ff : List FF) (hv : ValidUTF8 data)
    (hm : o.maxExpr = none ∨ ∃ m, o.maxExpr = some m ∧ 4 ≤ m) :
    ∀ e ∈ (parse o filename data ff).2, (Located data e.cpos ∨ e.cpos = Pos.zero) ∧
      Quotes data e.ctext e.cpos.offset.toNat e.pos := by
  rw [C05_report o filename data ff [] hm]
  intro e he
  obtain ⟨⟨h1, h2, h3, h4⟩, h5⟩ :=
    (parse_inv (invValid o data) filename [] (PtOk.init o data [] hv) (.inl rfl) (by simp)).2 e he
  refine ⟨h1, by omega, by omega, ?_⟩
  rw [show e.pos - e.cpos.offset.toNat = e.ctext.length by omega]
  exact h4

/-- An unclosed string in the second line: the error is located there, and the report quotes it. -/
example : ((parse {} [] b!"# ü\ninput { aa { bb => \"c } }" []).1.errs.map PErr.pos,
    (parse {} [] b!"# ü\ninput { aa { bb => \"c } }" []).2.map FF.cpos) =
    ([⟨2, 26, 30⟩], [⟨2, 19, 23⟩]) := by decide +kernel

/-- A stray byte: reported at its offset (once for each rule that tries to read it: the texts differ
in the name of the rule). -/
example : (parse {} [] (b!"filter { # " ++ [0x80] ++ b!"\n}") []).1.errs.map (fun e => (e.pos.offset, e.msg)) =
    [(11, b!"invalid encoding"), (11, b!"invalid encoding"), (11, b!"invalid encoding")] := by
  decide +kernel

/-! ### C52 -/

theorem dedupe_nodup (filename : Bytes) (es : List PErr) (seen : List Bytes) :
    ((dedupe filename seen es).map (PErr.text filename)).Nodup ∧
      ∀ t ∈ (dedupe filename seen es).map (PErr.text filename), t ∉ seen := by
  induction es generalizing seen with
  | nil => simp [dedupe]
  | cons e es ih =>
    unfold dedupe
    split
    · exact ih seen
    · rename_i hs
      have hs : e.text filename ∉ seen := by simpa using hs
      obtain ⟨h1, h2⟩ := ih (e.text filename :: seen)
      constructor
      · rw [List.map_cons, List.nodup_cons]
        exact ⟨fun h => h2 _ h (by simp), h1⟩
      · intro t ht
        rw [List.map_cons, List.mem_cons] at ht
        rcases ht with rfl | ht
        · exact hs
        · exact fun h => h2 t ht (by simp [h])

/-- **C52** No two errors of a parse have the same text. -/
theorem C52_distinct (o : Opts) (filename data : Bytes) (ff : List FF) :
    ((parse o filename data ff).1.errs.map (PErr.text filename)).Nodup := by
  rw [parse_finish]
  cases evalInit (parseFuel data) o data ff with
  | timeout => simp [finish, ParseRes.errs]
  | ok v t => exact (dedupe_nodup filename t.errs []).1
  | fail t =>
    simp only [finish, ParseRes.errs]
    exact (dedupe_nodup filename _ []).1
  | panic m t => exact (dedupe_nodup filename _ []).1

theorem dedupe_spec (filename : Bytes) (es : List PErr) (seen : List Bytes) :
    (dedupe filename seen es).Sublist es ∧
      (∀ e ∈ es, e.text filename ∈ seen ∨ e.text filename ∈ (dedupe filename seen es).map (PErr.text filename)) ∧
      ∀ a e b, es = a ++ e :: b → e.text filename ∉ seen → e.text filename ∉ a.map (PErr.text filename) →
        e ∈ dedupe filename seen es := by
  induction es generalizing seen with
  | nil => simp [dedupe]
  | cons x es ih =>
    unfold dedupe
    split
    · rename_i hs
      have hs : x.text filename ∈ seen := by simpa using hs
      obtain ⟨h1, h2, h3⟩ := ih seen
      refine ⟨h1.cons x, ?_, ?_⟩
      · intro e he
        rcases List.mem_cons.1 he with rfl | he
        · exact .inl hs
        · exact h2 e he
      · intro a e b hab hes hea
        cases a with
        | nil =>
          simp only [List.nil_append, List.cons.injEq] at hab
          exact absurd (hab.1 ▸ hs) hes
        | cons y a =>
          simp only [List.cons_append, List.cons.injEq] at hab
          rw [List.map_cons, List.mem_cons, not_or] at hea
          exact h3 a e b hab.2 hes hea.2
    · rename_i hs
      obtain ⟨h1, h2, h3⟩ := ih (x.text filename :: seen)
      refine ⟨h1.cons_cons x, ?_, ?_⟩
      · intro e he
        rw [List.map_cons, List.mem_cons]
        rcases List.mem_cons.1 he with rfl | he
        · exact .inr (.inl rfl)
        · rcases h2 e he with h | h
          · rcases List.mem_cons.1 h with h | h
            · exact .inr (.inl h)
            · exact .inl h
          · exact .inr (.inr h)
      · intro a e b hab hes hea
        cases a with
        | nil =>
          simp only [List.nil_append, List.cons.injEq] at hab
          rw [hab.1]; simp
        | cons y a =>
          simp only [List.cons_append, List.cons.injEq] at hab
          rw [List.map_cons, List.mem_cons, not_or] at hea
          refine List.mem_cons_of_mem _ (h3 a e b hab.2 ?_ hea.2)
          rw [List.mem_cons, not_or]
          exact ⟨hab.1 ▸ hea.1, hes⟩

/-- **C52** Removing duplicates from a list of errors keeps the order, keeps the first error of each
text, and loses no text. -/
theorem C52_keeps (filename : Bytes) (es : List PErr) :
    (dedupe filename [] es).Sublist es ∧
      (∀ e ∈ es, e.text filename ∈ (dedupe filename [] es).map (PErr.text filename)) ∧
      ∀ a e b, es = a ++ e :: b → e.text filename ∉ a.map (PErr.text filename) → e ∈ dedupe filename [] es := by
  obtain ⟨h1, h2, h3⟩ := dedupe_spec filename es []
  exact ⟨h1, fun e he => (h2 e he).resolve_left (by simp), fun a e b h ha => h3 a e b h (by simp) ha⟩

/-- Three errors raised, two texts. -/
example : let e (m : Bytes) : PErr := ⟨⟨1, 2, 3⟩, none, m⟩
    (dedupe [] [] [e b!"a", e b!"b", e b!"a"]).map PErr.msg = [b!"a", b!"b"] := by decide +kernel

end Verif.Props
