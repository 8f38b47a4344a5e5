import Verif.Tools.Setup
import Verif.Py.StripLemmas
import Verif.Props.Totality

/-!
# README generation (C51, C52, C58, C59)
-/

namespace Verif.Props

open Verif Py Tools

/-! ## Lines -/

theorem splitlines_cons {c : Char} (h : c ≠ '\r') (s : Str) :
    splitlines (c :: s) = if isLineBreak c then [] :: splitlines s else consLine c (splitlines s) := by
  rw [splitlines]
  intro t h1 _
  exact h h1

/-- the pairs of corresponding lines agree, apart from white space at their ends -/
def Agree (a b : List Str) : Prop := ∀ p ∈ a.zip b, rstrip p.1 = rstrip p.2

theorem Agree.nil (b : List Str) : Agree [] b := by simp [Agree]

theorem Agree.cons {x y : Str} {a b : List Str} (h : rstrip x = rstrip y) (hab : Agree a b) : Agree (x :: a) (y :: b) := by
  intro p hp
  rw [List.zip_cons_cons] at hp
  rcases List.mem_cons.mp hp with rfl | hp
  · exact h
  · exact hab p hp

theorem rstrip_cons {c : Char} {x y : Str} (h : rstrip x = rstrip y) : rstrip (c :: x) = rstrip (c :: y) := by
  unfold rstrip at h ⊢
  unfold dropEndWhile
  rw [h]

theorem Agree.consLine {c : Char} {a b : List Str} (h : Agree a b) (ha : a ≠ []) (hb : b ≠ []) :
    Agree (consLine c a) (consLine c b) := by
  cases a with
  | nil => exact absurd rfl ha
  | cons x a =>
    cases b with
    | nil => exact absurd rfl hb
    | cons y b =>
      have h1 : rstrip x = rstrip y := h (x, y) (by simp)
      exact Agree.cons (rstrip_cons h1) (fun p hp => h p (by simp [hp]))

theorem consLine_ne (c : Char) (l : List Str) : consLine c l ≠ [] := by cases l <;> simp [consLine]

theorem splitlines_ne {s : Str} (h : s ≠ []) : splitlines s ≠ [] := by
  cases s with
  | nil => exact absurd rfl h
  | cons c s =>
    rw [splitlines.eq_def]
    split
    · rename_i hh; simp at hh
    · simp
    · split
      · simp
      · exact consLine_ne _ _

theorem fileLines_ne {s : Str} (h : s ≠ []) : fileLines s ≠ [] := by
  cases s with
  | nil => exact absurd rfl h
  | cons c s =>
    unfold fileLines
    split
    · simp
    · exact consLine_ne _ _

/-- the text contains no line end but line feeds -/
def PlainLines (s : Str) : Prop := ∀ c ∈ s, isLineBreak c = true → c = '\n'

theorem PlainLines.no_cr {s : Str} (h : PlainLines s) : '\r' ∉ s := fun hm => absurd (h _ hm (by decide)) (by decide)

theorem agree_extended (t : Str) : ∀ s : Str, PlainLines s → Agree (splitlines s) (fileLines (s ++ '\n' :: t))
  | [], _ => Agree.nil _
  | c :: s, h => by
    have hs : PlainLines s := fun d hd => h d (by simp [hd])
    have hr : c ≠ '\r' := fun hh => h.no_cr (by simp [hh])
    have ih := agree_extended t s hs
    rw [splitlines_cons hr, List.cons_append, fileLines]
    by_cases hb : isLineBreak c = true
    · have := h c (by simp) hb
      subst this
      rw [if_pos hb, if_pos rfl]
      exact Agree.cons (by decide) ih
    · have hc : c ≠ '\n' := by rintro rfl; exact hb (by decide)
      rw [if_neg hb, if_neg hc]
      cases s with
      | nil =>
        refine Agree.cons (x := [c]) ?_ (Agree.nil _)
        exact rstrip_cons (by decide)
      | cons d s => exact ih.consLine (splitlines_ne (by simp)) (fileLines_ne (by simp))

theorem agree_prefix (more : Str) : ∀ s : Str, PlainLines s → (s = [] ∨ s.getLast? = some '\n') →
    Agree (splitlines (s ++ more)) (fileLines s)
  | [], _, _ => by intro p hp; simp [fileLines] at hp
  | c :: s, h, hl => by
    have hs : PlainLines s := fun d hd => h d (by simp [hd])
    have hr : c ≠ '\r' := fun hh => h.no_cr (by simp [hh])
    have hl' : s = [] ∨ s.getLast? = some '\n' := by
      cases s with
      | nil => exact .inl rfl
      | cons d s => right; simpa [List.getLast?_cons_cons] using hl
    have ih := agree_prefix more s hs hl'
    rw [List.cons_append, splitlines_cons hr, fileLines]
    by_cases hb : isLineBreak c = true
    · have := h c (by simp) hb
      subst this
      rw [if_pos hb, if_pos rfl]
      exact Agree.cons (by decide) ih
    · have hc : c ≠ '\n' := by rintro rfl; exact hb (by decide)
      rw [if_neg hb, if_neg hc]
      cases s with
      | nil => simp at hl; exact absurd hl hc
      | cons d s => exact ih.consLine (splitlines_ne (by simp)) (fileLines_ne (by simp))

theorem changed_false {new old : Str} (h : Agree (splitlines new) (fileLines (crlf old))) : changed new old = false := by
  unfold changed
  rw [← Bool.not_eq_true, List.any_eq_true]
  rintro ⟨p, hp, hd⟩
  have := h p hp
  simp at hd
  exact hd this

/-! ## The note -/

theorem splitChar_append_sep {c : Char} (a b : Str) : splitChar c (a ++ c :: b) = splitChar c a ++ splitChar c b := by
  induction a with
  | nil => simp [splitChar]
  | cons d a ih =>
    rw [List.cons_append, splitChar, splitChar, ih]
    by_cases h : d = c
    · simp [h]
    · have h' : (d == c) = false := by simpa using h
      rw [h']
      cases hs : splitChar c a with
      | nil => exact absurd hs (splitChar_ne_nil c a)
      | cons l ls => rfl

theorem rsplitHead_note (g x : Str) (hx : '\n' ∉ x) :
    rsplitHead 4 (g ++ c!"\n\n------------\n\n" ++ x) = g := by
  have h : splitChar '\n' (g ++ c!"\n\n------------\n\n" ++ x) =
      splitChar '\n' g ++ [c!"", c!"------------", c!"", x] := by
    have e : g ++ c!"\n\n------------\n\n" ++ x = g ++ '\n' :: ([] ++ '\n' :: (c!"------------" ++ '\n' :: ([] ++ '\n' :: x))) := by
      simp
    rw [e, splitChar_append_sep, splitChar_append_sep, splitChar_append_sep, splitChar_append_sep, splitChar_of_not_mem hx]
    rfl
  unfold rsplitHead
  simp only [h, List.length_append, List.length_cons, List.length_nil]
  have hp : 0 < (splitChar '\n' g).length := List.length_pos_iff.mpr (splitChar_ne_nil _ _)
  rw [show max 1 ((splitChar '\n' g).length + (0 + 1 + 1 + 1 + 1) - 4) = (splitChar '\n' g).length by omega,
    List.take_left' rfl]
  exact join_splitChar '\n' g

theorem rsplitHead_sub (n : Nat) (s : Str) : ∀ c ∈ rsplitHead n s, c ∈ s := by
  intro c hc
  have hj : ∀ (l : List Str) (k : Nat) (c : Char), c ∈ join c!"\n" (l.take k) → c ∈ join c!"\n" l := by
    intro l
    induction l with
    | nil => intro k c; simp
    | cons a l ih =>
      intro k c hc
      cases k with
      | zero => simp [join] at hc
      | succ k =>
        rw [List.take_succ_cons] at hc
        cases l with
        | nil => simpa [join] using hc
        | cons b l =>
          cases k with
          | zero => simp [join] at hc ⊢; exact .inl hc
          | succ k =>
            have h1 := ih (k + 1) c
            rw [List.take_succ_cons] at hc h1
            simp only [join, List.mem_append] at hc ⊢
            rcases hc with hc | hc
            · exact .inl hc
            · exact .inr (h1 hc)
  have := hj _ _ c hc
  rwa [join_splitChar] at this

/-- taking off lines makes a text shorter -/
theorem rsplitHead_short {s : Str} (h : '\n' ∈ s) : (rsplitHead 4 s).length < s.length := by
  have hj : ∀ (l : List Str) (k : Nat), 1 ≤ k → k < l.length → (join c!"\n" (l.take k)).length < (join c!"\n" l).length := by
    intro l
    induction l with
    | nil => intro k _ hk; simp at hk
    | cons a l ih =>
      intro k h1 hk
      cases l with
      | nil => simp at hk; omega
      | cons b l =>
        cases k with
        | zero => omega
        | succ k =>
          cases k with
          | zero => simp [join]
          | succ k =>
            have := ih (k + 1) (by omega) (by simpa using hk)
            rw [List.take_succ_cons] at this ⊢
            rw [List.take_succ_cons]
            simp only [join, List.length_append] at this ⊢
            omega
  have hlen : 2 ≤ (splitChar '\n' s).length := by
    obtain ⟨a, b, rfl⟩ := List.append_of_mem h
    rw [splitChar_append_sep, List.length_append]
    have h1 : 0 < (splitChar '\n' a).length := List.length_pos_iff.mpr (splitChar_ne_nil _ _)
    have h2 : 0 < (splitChar '\n' b).length := List.length_pos_iff.mpr (splitChar_ne_nil _ _)
    omega
  have := hj (splitChar '\n' s) (max 1 ((splitChar '\n' s).length - 4)) (by omega) (by omega)
  rw [join_splitChar] at this
  exact this

/-- the parts of the note that come from outside contain no line end -/
structure PlainNote (filename dt : Str) : Prop where
  file_lf : '\n' ∉ filename
  file_cr : '\r' ∉ filename
  dt_lf : '\n' ∉ dt
  dt_cr : '\r' ∉ dt

theorem PlainNote.lf {filename dt : Str} (h : PlainNote filename dt) : '\n' ∉ noteText filename dt := by
  simp [noteText, h.file_lf, h.dt_lf]

theorem PlainNote.cr {filename dt : Str} (h : PlainNote filename dt) : '\r' ∉ noteText filename dt := by
  simp [noteText, h.file_cr, h.dt_cr]

/-! ## The functions -/

/-- A generator reads the source and nothing else that the update changes, and leaves source and output alone. -/
structure Pure (gen : Gen) (creole out : Str) : Prop where
  keeps : ∀ fs g fs', gen fs = .ok (g, fs') → fs' out = fs out ∧ fs' creole = fs creole
  same : ∀ fs fs', fs creole = fs' creole → (gen fs).map (·.1) = (gen fs').map (·.1)

theorem pure_rst (renders : Str → Bool) (creole out : Str) : Pure (generateRst renders creole) creole out := by
  constructor
  · intro fs g fs' h
    unfold generateRst at h
    split at h
    · simp at h
    · simp only [bind, Except.bind, pure, Except.pure] at h
      repeat' split at h
      all_goals first | (simp at h; done) | (simp at h; obtain ⟨_, rfl⟩ := h; exact ⟨rfl, rfl⟩)
  · intro fs fs' h
    unfold generateRst
    rw [h]
    split
    · rfl
    · simp only [bind, Except.bind, pure, Except.pure]
      repeat' split
      all_goals first | rfl | simp_all [Except.map]

theorem pure_markdown (netlocOk : Str → Bool) {creole out html : Str} (h1 : html ≠ out) (h2 : html ≠ creole) :
    Pure (generateMarkdown netlocOk creole html) creole out := by
  constructor
  · intro fs g fs' h
    unfold generateMarkdown at h
    split at h
    · simp at h
    · simp only [bind, Except.bind, pure, Except.pure] at h
      repeat' split at h
      all_goals first
        | (simp at h; done)
        | (simp at h; obtain ⟨_, rfl⟩ := h; simp [Files.set, h1.symm, h2.symm])
  · intro fs fs' h
    unfold generateMarkdown
    rw [h]
    split
    · rfl
    · simp only [bind, Except.bind, pure, Except.pure]
      repeat' split
      all_goals first | rfl | simp_all [Except.map]

theorem update_inv {gen : Gen} {creole out filename dt : Str} (hp : Pure gen creole out) {fs fs' : Files} {b : Bool}
    (h : updateReadme gen creole out filename dt fs = .ok (b, fs')) :
    ∃ g fs1 old, gen fs = .ok (g, fs1) ∧ fs out = some old ∧ b = changed g old ∧
      fs' = if b then fs1.set out (newContent g filename dt) else fs1 := by
  unfold updateReadme at h
  split at h
  · simp at h
  · simp only [bind, Except.bind, pure, Except.pure] at h
    cases hg : gen fs with
    | error e => rw [hg] at h; simp at h
    | ok r =>
      obtain ⟨g, fs1⟩ := r
      rw [hg] at h
      simp only at h
      have hk := hp.keeps fs g fs1 hg
      rw [hk.1] at h
      cases ho : fs out with
      | none => rw [ho] at h; simp at h
      | some old =>
        rw [ho] at h
        simp only at h
        cases hc : changed g old with
        | true => rw [hc] at h; simp at h; obtain ⟨rfl, rfl⟩ := h; exact ⟨g, fs1, old, rfl, rfl, hc.symm, rfl⟩
        | false => rw [hc] at h; simp at h; obtain ⟨rfl, rfl⟩ := h; exact ⟨g, fs1, old, rfl, rfl, hc.symm, rfl⟩

theorem gen_again {gen : Gen} {creole out : Str} (hp : Pure gen creole out) {fs fs' : Files} {g : Str} {fs1 : Files}
    (h : gen fs = .ok (g, fs1)) (hc : fs' creole = fs creole) : ∃ fs2, gen fs' = .ok (g, fs2) := by
  have := hp.same fs' fs hc
  rw [h] at this
  cases hg : gen fs' with
  | error e => rw [hg] at this; simp [Except.map] at this
  | ok r =>
    rw [hg] at this
    simp [Except.map] at this
    exact ⟨r.2, by rw [← this]⟩

theorem assert_eq {gen : Gen} {creole out : Str} (hp : Pure gen creole out) {fs : Files} {g raw : Str} {fs1 : Files}
    (h : gen fs = .ok (g, fs1)) (ho : fs out = some raw) :
    (assertReadme gen out fs = .ok fs1 ↔ crlf raw ≠ [] ∧ g = rsplitHead 4 (crlf raw)) ∧
    (assertReadme gen out fs = .error .assertion ↔ ¬(crlf raw ≠ [] ∧ g = rsplitHead 4 (crlf raw))) := by
  have hk := hp.keeps fs g fs1 h
  unfold assertReadme
  simp only [h, bind, Except.bind, hk.1, ho, pure, Except.pure]
  by_cases h1 : crlf raw = []
  · simp [h1]
  · by_cases h2 : g = rsplitHead 4 (crlf raw)
    · rw [if_neg h1, if_neg (by simpa using h2)]; simp [h1, h2]
    · rw [if_neg h1, if_pos h2]; simp [h2]

theorem rewritten_accepted {g filename dt : Str} (hn : PlainNote filename dt) :
    (crlf (newContent g filename dt) ≠ [] ∧ g = rsplitHead 4 (crlf (newContent g filename dt))) ↔ '\r' ∉ g := by
  constructor
  · rintro ⟨_, h⟩ hr
    rw [h] at hr
    exact crlf_no_cr _ (rsplitHead_sub _ _ _ hr)
  · intro hr
    have : crlf (newContent g filename dt) = newContent g filename dt :=
      crlf_of_no_cr _ (by simp [newContent, hr, hn.cr])
    rw [this]
    refine ⟨by simp [newContent], ?_⟩
    exact (rsplitHead_note g _ hn.lf).symm

/-- What C51 says, for one pair of functions `update` and `check` that work with the files `creole` (source), `out`
(generated) and `extra` (other files they may write). -/
structure UpdateSpec (update : Files → Except SetupErr (Bool × Files)) (check : Files → Except SetupErr Files)
    (gen : Files → Except SetupErr (Str × Files)) (creole out filename dt : Str) (extra : List Str) : Prop where
  /-- a rewrite happens iff some line of the common prefix of lines differs (white space at line ends does not count) -/
  rewrites : ∀ fs fs' b, update fs = .ok (b, fs') → ∃ g old, (gen fs).map (·.1) = .ok g ∧ fs out = some old ∧
    (b = true ↔ ∃ (i : Nat) (new was : Str), (splitlines g)[i]? = some new ∧ (fileLines (crlf old))[i]? = some was ∧ rstrip new ≠ rstrip was) ∧
    (b = true → fs' out = some (g ++ c!"\n\n------------\n\n" ++
      (c!"``Note: this file is generated from " ++ filename ++ c!" " ++ dt ++ c!" with \"python-creole\"``"))) ∧ (b = false → fs' out = some old)
  /-- no other file changes -/
  others : ∀ fs fs' b, update fs = .ok (b, fs') → ∀ p, p ≠ out → p ∉ extra → fs' p = fs p
  /-- after a rewrite the check accepts the file iff the generated text contains no carriage return -/
  accepted : ∀ fs fs', update fs = .ok (true, fs') → ∃ g, (gen fs).map (·.1) = .ok g ∧
    (('\r' ∉ g ∧ ∃ fs'', check fs' = .ok fs'' ∧ fs'' out = fs' out) ∨ ('\r' ∈ g ∧ check fs' = .error .assertion))
  /-- after a rewrite of a text whose only line ends are line feeds, another update changes nothing -/
  stable : ∀ fs fs', update fs = .ok (true, fs') → (∀ g, (gen fs).map (·.1) = .ok g → PlainLines g) →
    ∃ fs'', update fs' = .ok (false, fs'') ∧ fs'' out = fs' out

theorem update_spec {gen : Gen} {creole out filename dt : Str} {extra : List Str} (hp : Pure gen creole out)
    (hx : ∀ fs g fs', gen fs = .ok (g, fs') → ∀ p, p ∉ extra → fs' p = fs p) (hco : creole ≠ out)
    (hn : PlainNote filename dt) :
    UpdateSpec (updateReadme gen creole out filename dt) (assertReadme gen out) gen creole out filename dt extra := by
  constructor
  · intro fs fs' b h
    obtain ⟨g, fs1, old, hg, ho, hb, hf⟩ := update_inv hp h
    have hk := hp.keeps fs g fs1 hg
    refine ⟨g, old, by rw [hg]; rfl, ho, ?_, ?_, ?_⟩
    · rw [hb]
      unfold changed
      rw [List.any_eq_true]
      constructor
      · rintro ⟨⟨a, b⟩, hm, hd⟩
        obtain ⟨i, hi⟩ := List.mem_iff_getElem?.mp hm
        rw [List.getElem?_zip_eq_some] at hi
        exact ⟨i, a, b, hi.1, hi.2, by simpa using hd⟩
      · rintro ⟨i, a, b, h1, h2, hd⟩
        refine ⟨(a, b), List.mem_iff_getElem?.mpr ⟨i, ?_⟩, by simpa using hd⟩
        rw [List.getElem?_zip_eq_some]
        exact ⟨h1, h2⟩
    · intro hb; subst hb; rw [hf, if_pos rfl]; simp [Files.set, newContent, noteText]
    · intro hb; subst hb; rw [hf, if_neg (by simp), hk.1, ho]
  · intro fs fs' b h p hpo hpx
    obtain ⟨g, fs1, old, hg, ho, hb, hf⟩ := update_inv hp h
    have := hx fs g fs1 hg p hpx
    rw [hf]
    split
    · simp [Files.set, hpo, this]
    · exact this
  · intro fs fs' h
    obtain ⟨g, fs1, old, hg, ho, hb, hf⟩ := update_inv hp h
    have hk := hp.keeps fs g fs1 hg
    rw [if_pos rfl] at hf
    obtain ⟨fs2, hg2⟩ := gen_again hp (fs' := fs') hg (by rw [hf]; simp [Files.set, hco, hk.2])
    have ho2 : fs' out = some (newContent g filename dt) := by rw [hf]; simp [Files.set]
    have ha := assert_eq hp hg2 ho2
    rw [rewritten_accepted hn] at ha
    refine ⟨g, by rw [hg]; rfl, ?_⟩
    by_cases hr : '\r' ∈ g
    · exact .inr ⟨hr, ha.2.mpr (by simpa using hr)⟩
    · exact .inl ⟨hr, fs2, ha.1.mpr hr, (hp.keeps fs' g fs2 hg2).1⟩
  · intro fs fs' h hpl
    obtain ⟨g, fs1, old, hg, ho, hb, hf⟩ := update_inv hp h
    have hk := hp.keeps fs g fs1 hg
    rw [if_pos rfl] at hf
    have hpl := hpl g (by rw [hg]; rfl)
    have hcre : fs' creole = fs creole := by rw [hf]; simp [Files.set, hco, hk.2]
    obtain ⟨fs2, hg2⟩ := gen_again hp (fs' := fs') hg hcre
    have ho2 : fs' out = some (newContent g filename dt) := by rw [hf]; simp [Files.set]
    have hk2 := hp.keeps fs' g fs2 hg2
    have hch : changed g (newContent g filename dt) = false := by
      apply changed_false
      rw [crlf_of_no_cr _ (by simp [newContent, hpl.no_cr, hn.cr])]
      have : newContent g filename dt = g ++ '\n' :: (c!"\n------------\n\n" ++ noteText filename dt) := by
        simp [newContent]
      rw [this]
      exact agree_extended _ g hpl
    refine ⟨fs2, ?_, hk2.1⟩
    have hsome : ∃ x, fs' creole = some x := by
      unfold updateReadme at h
      rw [hcre]
      cases hcc : fs creole with
      | none => rw [hcc] at h; simp at h
      | some x => exact ⟨x, rfl⟩
    obtain ⟨x, hx⟩ := hsome
    unfold updateReadme
    rw [hx]
    simp only [bind, Except.bind, hg2, hk2.1, ho2, hch, pure, Except.pure]
    rfl

/-- C51 for `update_rst_readme` and `assert_rst_readme` -/
theorem C51_rst (renders : Str → Bool) (creole out filename dt : Str) (hco : creole ≠ out) (hn : PlainNote filename dt) :
    UpdateSpec (updateReadme (generateRst renders creole) creole out filename dt)
      (assertReadme (generateRst renders creole) out) (generateRst renders creole) creole out filename dt [] := by
  refine update_spec (pure_rst renders creole out) ?_ hco hn
  intro fs g fs' h p _
  exact ((pure_rst renders creole p).keeps fs g fs' h).1

/-- C51 for `update_markdown_readme` and `assert_markdown_readme`, which also write the HTML file -/
theorem C51_markdown (netlocOk : Str → Bool) (creole out html filename dt : Str) (hco : creole ≠ out) (h1 : html ≠ out)
    (h2 : html ≠ creole) (hn : PlainNote filename dt) :
    UpdateSpec (updateReadme (generateMarkdown netlocOk creole html) creole out filename dt)
      (assertReadme (generateMarkdown netlocOk creole html) out) (generateMarkdown netlocOk creole html) creole out
      filename dt [html] := by
  refine update_spec (pure_markdown netlocOk h1 h2) ?_ hco hn
  intro fs g fs' h p hp
  have hp : html ≠ p := by simp at hp; exact fun hh => hp hh.symm
  exact ((pure_markdown netlocOk hp h2).keeps fs g fs' h).1

/-- C51: the generated text is the reStructuredText of the HTML of the source, if docutils accepts it; nothing is written. -/
theorem C51_generated_rst (renders : Str → Bool) (creole : Str) (fs fs' : Files) (g : Str) :
    generateRst renders creole fs = .ok (g, fs') ↔ ∃ raw html, fs creole = some raw ∧
      Creole.creole2html {} (strip (crlf raw)) = .ok html ∧ Emit.html2rest html .raise = .ok g ∧ renders g = true ∧ fs' = fs := by
  unfold generateRst
  cases fs creole with
  | none => simp
  | some raw =>
    cases h1 : Creole.creole2html {} (strip (crlf raw)) with
    | error e => simp [h1, liftPy, bind, Except.bind]
    | ok html =>
      cases h2 : Emit.html2rest html .raise with
      | error e => simp [h1, h2, liftPy, bind, Except.bind]
      | ok rest =>
        by_cases h3 : renders rest = true
        · simp [h1, h2, h3, liftPy, bind, Except.bind, pure, Except.pure]
          rintro rfl
          exact ⟨fun h => ⟨h3, h.symm⟩, fun h => h.2.symm⟩
        · simp [h1, h2, h3, liftPy, bind, Except.bind]
          rintro rfl h
          exact absurd h h3

/-- C51: the generated text is the markdown of the HTML of the source; the HTML is written as well. -/
theorem C51_generated_markdown (netlocOk : Str → Bool) (creole html : Str) (fs fs' : Files) (g : Str) :
    generateMarkdown netlocOk creole html fs = .ok (g, fs') ↔ ∃ raw text, fs creole = some raw ∧
      Creole.creole2html {} (strip (crlf raw)) = .ok text ∧ Emit.html2markdown netlocOk text .raise = .ok g ∧
      fs' = fun p => if p = html then some text else fs p := by
  unfold generateMarkdown
  cases fs creole with
  | none => simp
  | some raw =>
    cases h1 : Creole.creole2html {} (strip (crlf raw)) with
    | error e => simp [h1, liftPy, bind, Except.bind]
    | ok text =>
      cases h2 : Emit.html2markdown netlocOk text .raise with
      | error e => simp [h1, h2, liftPy, bind, Except.bind]
      | ok md =>
        simp [h1, h2, liftPy, bind, Except.bind, pure, Except.pure]
        rintro rfl
        exact ⟨fun h => h.symm, fun h => h.symm⟩

/-- What C52 says: if the generated file is a proper beginning of the generated text (whole lines), the update leaves it as
it is, and the check fails afterwards. -/
theorem stale_prefix {gen : Gen} {creole out filename dt : Str} (hp : Pure gen creole out) {fs fs1 : Files} {g old more : Str}
    (hc : fs creole ≠ none) (hg : gen fs = .ok (g, fs1)) (ho : fs out = some old) (hold : g = old ++ more)
    (hpl : PlainLines old) (hl : old = [] ∨ old.getLast? = some '\n') :
    updateReadme gen creole out filename dt fs = .ok (false, fs1) ∧ fs1 out = some old ∧
      assertReadme gen out fs = .error .assertion := by
  have hk := hp.keeps fs g fs1 hg
  have hcr : crlf old = old := crlf_of_no_cr _ hpl.no_cr
  refine ⟨?_, by rw [hk.1, ho], ?_⟩
  · have hch : changed g old = false := by
      apply changed_false
      rw [hcr, hold]
      exact agree_prefix more old hpl hl
    unfold updateReadme
    cases hcc : fs creole with
    | none => exact absurd hcc hc
    | some x =>
      simp only [bind, Except.bind, hg, hk.1, ho, hch, pure, Except.pure]
      rfl
  · rw [(assert_eq hp hg ho).2, hcr]
    rintro ⟨hne, he⟩
    rcases hl with hl | hl
    · exact hne hl
    · have hm : '\n' ∈ old := List.mem_of_getLast? hl
      have h1 := rsplitHead_short hm
      rw [← he, hold] at h1
      simp at h1
      omega

/-- C52 for `update_rst_readme` -/
theorem C52_stale_prefix (renders : Str → Bool) (creole out filename dt : Str) (fs fs1 : Files) (g old more : Str)
    (hc : fs creole ≠ none) (hg : generateRst renders creole fs = .ok (g, fs1)) (ho : fs out = some old)
    (hold : g = old ++ more) (hpl : PlainLines old) (hl : old = [] ∨ old.getLast? = some '\n') :
    updateReadme (generateRst renders creole) creole out filename dt fs = .ok (false, fs1) ∧ fs1 out = some old ∧
      assertReadme (generateRst renders creole) out fs = .error .assertion :=
  stale_prefix (pure_rst renders creole out) hc hg ho hold hpl hl

/-- C52, crash: if a rewrite is interrupted after whole lines of the generated text were written, the next update takes
the incomplete file for an up-to-date one. -/
theorem C52_interrupted (renders : Str → Bool) (creole out filename dt : Str) (fs fs' fs1 : Files) (g written more : Str)
    (hco : creole ≠ out) (hc : fs creole ≠ none) (hg : generateRst renders creole fs = .ok (g, fs1))
    (hi : fs' = fs.set out written) (hw : g = written ++ more) (hpl : PlainLines written)
    (hl : written = [] ∨ written.getLast? = some '\n') :
    Interrupted fs out g filename dt fs' ∧
    ∃ fs2, updateReadme (generateRst renders creole) creole out filename dt fs' = .ok (false, fs2) ∧
      fs2 out = some written ∧ assertReadme (generateRst renders creole) out fs' = .error .assertion := by
  have hp := pure_rst renders creole out
  refine ⟨⟨written, ?_, hi⟩, ?_⟩
  · rw [newContent, hw, List.append_assoc, List.append_assoc]; exact List.prefix_append _ _
  · have hcre : fs' creole = fs creole := by rw [hi]; simp [Files.set, hco]
    obtain ⟨fs2, hg2⟩ := gen_again hp (fs' := fs') hg hcre
    exact ⟨fs2, stale_prefix hp (by rw [hcre]; exact hc) hg2 (by rw [hi]; simp [Files.set]) hw hpl hl⟩

/-- files for the examples: a source whose reStructuredText is `a\n\nb`, and some old content -/
def someFiles (old : Str) : Files := fun p =>
  if p = c!"README.creole" then some c!"a\r\n\r\nb\n" else if p = c!"README.rst" then some old else none

example : PlainNote c!"README.creole" c!"2020-01-01 00:00:00" := ⟨by decide, by decide, by decide, by decide⟩

example : (generateRst (fun _ => true) c!"README.creole" (someFiles c!"")).toOption.map (·.1) = some c!"a\n\nb" := by
  decide +kernel

-- an update that rewrites, and one that does not although the file is incomplete
example : (updateReadme (generateRst (fun _ => true) c!"README.creole") c!"README.creole" c!"README.rst" c!"README.creole"
    c!"2020-01-01 00:00:00" (someFiles c!"x\n")).toOption.map (fun r => (r.1, r.2 c!"README.rst")) =
    some (true, some c!"a\n\nb\n\n------------\n\n``Note: this file is generated from README.creole 2020-01-01 00:00:00 with \"python-creole\"``") := by
  decide +kernel

example : (updateReadme (generateRst (fun _ => true) c!"README.creole") c!"README.creole" c!"README.rst" c!"README.creole"
    c!"2020-01-01 00:00:00" (someFiles c!"a\n\n")).toOption.map (fun r => (r.1, r.2 c!"README.rst")) =
    some (false, some c!"a\n\n") := by
  decide +kernel

/-! ## C58 -/

/-- C58: checking the markdown README writes a file: after a successful check the HTML file holds the HTML of the source. -/
theorem C58_check_writes (netlocOk : Str → Bool) (creole out html : Str) (fs fs' : Files)
    (h : assertReadme (generateMarkdown netlocOk creole html) out fs = .ok fs') :
    ∃ raw text, fs creole = some raw ∧ Creole.creole2html {} (strip (crlf raw)) = .ok text ∧ fs' html = some text ∧
      ∀ p, p ≠ html → fs' p = fs p := by
  unfold assertReadme at h
  cases hg : generateMarkdown netlocOk creole html fs with
  | error e => rw [hg] at h; simp [bind, Except.bind] at h
  | ok r =>
    obtain ⟨g, fs1⟩ := r
    have hfs : fs' = fs1 := by
      simp only [hg, bind, Except.bind, pure, Except.pure] at h
      repeat' split at h
      all_goals first | (simp at h; done) | (simp at h; exact h.symm)
    subst hfs
    unfold generateMarkdown at hg
    cases hc : fs creole with
    | none => rw [hc] at hg; simp at hg
    | some raw =>
      rw [hc] at hg
      simp only [bind, Except.bind] at hg
      cases ht : Creole.creole2html {} (strip (crlf raw)) with
      | error e => rw [ht] at hg; simp [liftPy] at hg
      | ok text =>
        rw [ht] at hg
        simp only [liftPy] at hg
        cases hm : Emit.html2markdown netlocOk text .raise with
        | error e => rw [hm] at hg; simp at hg
        | ok md =>
          rw [hm] at hg
          simp [pure, Except.pure] at hg
          obtain ⟨_, rfl⟩ := hg
          refine ⟨raw, text, rfl, ht, by simp [Files.set], ?_⟩
          intro p hp
          simp [Files.set, hp]

/-! ## C59 -/

/-- C59: `get_long_description` never returns a converted README: it raises if it was told to raise errors, and otherwise
returns an error message followed by the unconverted text. -/
theorem C59_never_converts (str : SetupErr → Str) (content : Option Str) :
    (∃ e, getLongDescription str true content = .error e) ∧
    (∃ e, getLongDescription str false content = .ok (c!"[Error: " ++ str e ++ c!"]\n" ++ strip (content.getD []))) := by
  unfold getLongDescription
  cases content with
  | none => exact ⟨⟨_, rfl⟩, ⟨_, rfl⟩⟩
  | some text =>
    simp only [Option.getD_some]
    cases Creole.creole2html {} (strip text) with
    | error e => exact ⟨⟨_, rfl⟩, ⟨_, rfl⟩⟩
    | ok html => exact ⟨⟨_, rfl⟩, ⟨_, rfl⟩⟩

/-- C59: for a README that `creole2html` can convert (see C01), the error is always the same `TypeError`. -/
theorem C59_reason (str : SetupErr → Str) (text : Str) (h : Spec.mayCall c!"toc" (strip text) = false) :
    getLongDescription str true (some text) = .error (.py (.typeError c!"html2rest() got an unexpected keyword argument 'emitter_kwargs'")) ∧
    getLongDescription str false (some text) =
      .ok (c!"[Error: " ++ str (.py (.typeError c!"html2rest() got an unexpected keyword argument 'emitter_kwargs'")) ++ c!"]\n" ++ strip text) := by
  obtain ⟨html, hh⟩ := C01_creole2html_total {} (strip text) h
  unfold getLongDescription
  simp only [Option.getD_some, hh]
  exact ⟨rfl, rfl⟩

example : Spec.mayCall c!"toc" (strip c!"= Title\n\n * item\n") = false := by
  decide +kernel

/-- `should_raise_errors`: without arguments, or with one of the listed ones -/
theorem C59_when (argv : List Str) : shouldRaiseErrors argv = true ↔
    argv.length = 1 ∨ ∃ a ∈ [c!"check", c!"register", c!"sdist", c!"bdist", c!"upload", c!"--long-description",
      c!"--restructuredtext"], a ∈ argv := by
  unfold shouldRaiseErrors
  split
  · rename_i h; simp [h]
  · rename_i h
    rw [List.any_eq_true]
    simp only [h, false_or, List.contains_iff_mem]
    rfl

end Verif.Props
