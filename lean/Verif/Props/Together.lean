import Verif.Props.Concat
import Verif.Props.Format
import Verif.Props.App
import Verif.Props.Session
/-
Property C82: what `mustache format` prints for several files is one configuration.
-/
namespace Verif.Props
open Verif Spec

/-- Empty, or ends in a newline. -/
def Lines (t : Bytes) : Prop := t = [] ∨ t.getLast? = some 10

theorem Lines.append {x y : Bytes} (hx : Lines x) (hy : Lines y) : Lines (x ++ y) := by
  rcases hy with rfl | hy
  · simpa using hx
  · right
    rw [List.getLast?_append, hy]; rfl

theorem lines_newline (x : Bytes) : Lines (x ++ [10]) := .inr (by simp)

theorem commentStr_lines (c : Comment) : Lines c.str := by
  unfold Comment.str
  have h : ∀ x : Bytes, Lines (x ++ b!"\n") := lines_newline
  refine Lines.append (h _) ?_
  split
  · exact .inr rfl
  · exact .inl rfl

theorem commentsStr_lines (cb : CommentBlock) : Lines (commentsStr cb) := by
  induction cb with
  | nil => exact .inl rfl
  | cons c r ih => exact (commentStr_lines c).append ih

theorem sectionsLoop_lines (pt : Bytes) (c0 : CommentBlock) (l : List Section) : Lines (sectionsLoop pt c0 l) := by
  induction l with
  | nil => exact .inl rfl
  | cons p ps ih =>
    unfold sectionsLoop
    refine Lines.append (Lines.append (.inr ?_) ?_) ih
    · rw [List.getLast?_append]; rfl
    · split
      · exact .inl rfl
      · exact .inr rfl

theorem sectionsStr_lines (pt : Bytes) (l : List Section) : Lines (sectionsStr pt l) := by
  cases l with
  | nil => exact .inl rfl
  | cons p ps => exact sectionsLoop_lines _ _ _

/-- **C82** The text of a configuration, also of one that was not read from a file, is empty or ends in a newline. -/
theorem C82_newline (c : Config) : c.str = [] ∨ c.str.getLast? = some 10 :=
  (((sectionsStr_lines _ c.input).append (sectionsStr_lines _ c.filter)).append (sectionsStr_lines _ c.output)).append
    (commentsStr_lines _)

/-- A section without positions and comments. -/
def skelSect (s : Section) : Section := AMap.skeleton.sect s

theorem skelSect_bare (s : Section) : skelSect (bare s) = skelSect s := by
  have h := comp_sect AMap.skeleton AMap.noPos s
  have h2 : skelSect (bare s) = AMap.skeleton.sect (AMap.noPos.sect s) := rfl
  rw [h2, h]; rfl

theorem skel_of_bare {l l' : List Section} (h : l.map bare = l'.map bare) : l.map skelSect = l'.map skelSect := by
  have := congrArg (List.map skelSect) h
  simpa only [List.map_map, Function.comp_def, skelSect_bare] using this

/-- The texts of configurations that were read from files, one after the other. -/
theorem texts_join (o : Opts) (hm : o.maxExpr = none) (l : List Config)
    (h : ∀ c ∈ l, Printable c ∧ ∃ f data ff, (parse o f data ff).1 = .done (.config c) []) (f : Bytes) (ff : List FF) :
    ∃ c, (parse o f (l.flatMap Config.str) ff).1 = .done (.config c) [] ∧
      c.input.map skelSect = l.flatMap (fun x => x.input.map skelSect) ∧
      c.filter.map skelSect = l.flatMap (fun x => x.filter.map skelSect) ∧
      c.output.map skelSect = l.flatMap (fun x => x.output.map skelSect) := by
  induction l generalizing f ff with
  | nil =>
    obtain ⟨c, h1, h2, h3, h4⟩ := C77_files o hm [] (fun _ h => (nomatch h)) f ff
    simp only [List.flatMap_nil, List.map_eq_nil_iff] at h1 h2 h3 h4
    exact ⟨c, h1, by simp [h2], by simp [h3], by simp [h4]⟩
  | cons x r ih =>
    obtain ⟨hp, g, data, gg, hx⟩ := h x (List.mem_cons_self ..)
    have hr := fun c hc => h c (List.mem_cons_of_mem _ hc)
    obtain ⟨x', x1, x2⟩ := C16_file o g [] data gg [] x hm hx hp
    have k1 : x'.input.map skelSect = x.input.map skelSect := congrArg Config.input x2
    have k2 : x'.filter.map skelSect = x.filter.map skelSect := congrArg Config.filter x2
    have k3 : x'.output.map skelSect = x.output.map skelSect := congrArg Config.output x2
    simp only [List.flatMap_cons]
    rw [← k1, ← k2, ← k3]
    rcases C82_newline x with e | e
    · rw [e] at x1 ⊢
      obtain ⟨y, y1, y2, y3, y4⟩ := C77_files o hm [] (fun _ h => (nomatch h)) [] []
      simp only [List.flatMap_nil, List.map_eq_nil_iff] at y1 y2 y3 y4
      rw [y1] at x1
      injection x1 with x1
      injection x1 with x1
      subst x1
      obtain ⟨c, c1, c2, c3, c4⟩ := ih hr f ff
      exact ⟨c, c1, by simp [c2, y2], by simp [c3, y3], by simp [c4, y4]⟩
    · obtain ⟨y, y1, y2, y3, y4⟩ := ih hr [] []
      obtain ⟨c, c1, ⟨c2, c3, c4⟩, -⟩ := C77_newline o [] [] f _ _ [] [] ff x' y hm x1 y1 e
      refine ⟨c, c1, ?_, ?_, ?_⟩
      · rw [← y2, ← List.map_append]; exact skel_of_bare (by rw [c2, List.map_append])
      · rw [← y3, ← List.map_append]; exact skel_of_bare (by rw [c3, List.map_append])
      · rw [← y4, ← List.map_append]; exact skel_of_bare (by rw [c4, List.map_append])

/-- The configuration in a file; none for a directory. -/
def readFrom (fs : FS) (name : Bytes) : List Config :=
  match fs name with
  | .file content _ => (configOf content).toList
  | _ => []

theorem printed_readFrom (fs : FS) (name : Bytes) : printed fs name = (readFrom fs name).flatMap Config.str := by
  unfold printed readFrom
  cases hf : fs name with
  | missing e => rfl
  | dir => rfl
  | file content acc => cases h : configOf content <;> simp [h]

theorem readFrom_parse {fs : FS} {name : Bytes} {c : Config} (h : c ∈ readFrom fs name) :
    ∃ f data ff, (parse {} f data ff).1 = .done (.config c) [] := by
  unfold readFrom at h
  split at h
  · rename_i content _ _
    rw [Option.mem_toList] at h
    unfold configOf at h
    split at h
    · rename_i d hd
      injection h with h
      subst h
      exact ⟨[], content, [], hd⟩
    · cases h
  · cases h

/-- **C82** What `mustache format` prints for several files, none of which fails, is itself a configuration that is read without
error, and it has the sections of all the files, in their order. -/
theorem C82_stdout (args : List Bytes) (w : World) (h : ∀ n ∈ args, fails w.fs n = false)
    (hp : ∀ n ∈ args, ∀ c ∈ readFrom w.fs n, Printable c) :
    ∃ out ff, formatRun false args w = (.ret [], { w with ff := ff, out := w.out ++ out }) ∧
      ∀ (f : Bytes) (gg : List FF), ∃ c, (parse {} f out gg).1 = .done (.config c) [] ∧
        c.input.map skelSect = (args.flatMap (readFrom w.fs)).flatMap (fun x => x.input.map skelSect) ∧
        c.filter.map skelSect = (args.flatMap (readFrom w.fs)).flatMap (fun x => x.filter.map skelSect) ∧
        c.output.map skelSect = (args.flatMap (readFrom w.fs)).flatMap (fun x => x.output.map skelSect) := by
  obtain ⟨ff, hr⟩ := C41_prints_all args w h
  refine ⟨_, ff, hr, fun f gg => ?_⟩
  have e : args.flatMap (printed w.fs) = (args.flatMap (readFrom w.fs)).flatMap Config.str := by
    rw [List.flatMap_assoc]
    congr 1
    funext n
    exact printed_readFrom _ _
  rw [e]
  refine texts_join {} rfl _ (fun c hc => ?_) f gg
  obtain ⟨n, hn, hc⟩ := List.mem_flatMap.1 hc
  exact ⟨hp n hn c hc, readFrom_parse hc⟩

/-- The hypotheses are met by a file, a directory and the file again; the text printed is accepted and has two input sections. -/
example : let w : World := ⟨sessionFS, [], [], []⟩
    (∀ n ∈ [b!"f", b!"d", b!"f"], fails w.fs n = false) ∧
    (∀ n ∈ [b!"f", b!"d", b!"f"], ∀ c ∈ readFrom w.fs n, Printable c) ∧
    (match configOf (formatRun false [b!"f", b!"d", b!"f"] w).2.out with
      | some c => c.input.length | none => 0) = 2 := by
  refine ⟨by decide +kernel, ?_, by decide +kernel⟩
  have hf : ∀ c ∈ readFrom sessionFS b!"f", Printable c := by
    obtain ⟨-, c, hc, hP⟩ := session_sample.2.2
    intro d hd
    have : readFrom sessionFS b!"f" = (configOf sessionText).toList := rfl
    rw [this, hc, Option.mem_toList] at hd
    injection hd with hd
    exact hd ▸ hP
  intro n hn c hc
  simp only [List.mem_cons, List.not_mem_nil, or_false] at hn
  rcases hn with rfl | rfl | rfl
  · exact hf c hc
  · have : readFrom sessionFS b!"d" = [] := rfl
    rw [this] at hc
    cases hc
  · exact hf c hc

end Verif.Props
