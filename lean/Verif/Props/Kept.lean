import Verif.Creole.KeptEmit
import Verif.Html.StripMatch
import Verif.Props.Totality

/-!
# C70: creole2html loses no text

`letters text` are the characters of a text that are neither blanks nor markup characters; `reading html` is what one reads
in a HTML text, including the values of attributes (`Verif/Spec/Kept.lean`).
-/

namespace Verif.Props

open Verif Py Creole Spec.Kp

theorem crlf_letters (s : Str) : letters (crlf s) = letters s := by
  have hn : keeps '\n' = false := by decide +kernel
  have hr : keeps '\r' = false := by decide +kernel
  fun_induction crlf s with
  | case1 => rfl
  | case2 s ih =>
    show List.filter keeps ('\n' :: crlf s) = List.filter keeps ('\r' :: '\n' :: s)
    rw [List.filter_cons, List.filter_cons, List.filter_cons, if_neg (by simp [hn]), if_neg (by simp [hr]), if_neg (by simp [hn])]
    exact ih
  | case3 s h ih =>
    show List.filter keeps ('\n' :: crlf s) = List.filter keeps ('\r' :: s)
    rw [List.filter_cons, List.filter_cons, if_neg (by simp [hn]), if_neg (by simp [hr])]
    exact ih
  | case4 c s _ ih =>
    show List.filter keeps (c :: crlf s) = List.filter keeps (c :: s)
    rw [List.filter_cons, List.filter_cons, show List.filter keeps (crlf s) = List.filter keeps s from ih]

/-! ## Blanks around HTML -/

theorem visible_blanks {sp : Str} (h : ∀ c ∈ sp, isSpace c = true) : ∀ (s : Str) (w : Where), ∃ sp', (∀ c ∈ sp', isSpace c = true) ∧
    visible w (s ++ sp) = visible w s ++ sp' := by
  have lt : ∀ c, isSpace c = true → c ≠ '<' ∧ c ≠ '>' ∧ c ≠ '"' := by
    intro c hc
    refine ⟨?_, ?_, ?_⟩ <;> (rintro rfl; revert hc; decide +kernel)
  intro s
  induction s with
  | nil =>
    intro w
    have nil : visible w [] = [] := by cases w <;> rfl
    rw [nil, List.nil_append]
    cases w with
    | text =>
      refine ⟨sp, h, ?_⟩
      have := visible_text (s := sp) (fun hc => (lt _ (h _ hc)).1 rfl) []
      simpa [visible] using this
    | tag =>
      refine ⟨[], by simp, ?_⟩
      have := visible_tag (s := sp) (fun hc => (lt _ (h _ hc)).2.2 rfl) (fun hc => (lt _ (h _ hc)).2.1 rfl) []
      simpa [visible] using this
    | value =>
      refine ⟨sp, h, ?_⟩
      rw [List.nil_append]
      clear nil
      induction sp with
      | nil => rfl
      | cons c sp ih =>
        rw [visible, if_neg (lt c (h c (by simp))).2.2, ih fun x hx => h x (by simp [hx])]
  | cons c s ih =>
    intro w
    cases w <;> simp only [List.cons_append, visible]
    · split
      · exact ih _
      · obtain ⟨sp', h1, h2⟩ := ih .text
        exact ⟨sp', h1, by rw [h2]; rfl⟩
    · split
      · exact ih _
      · split
        · exact ih _
        · exact ih _
    · split
      · exact ih _
      · obtain ⟨sp', h1, h2⟩ := ih .value
        exact ⟨sp', h1, by rw [h2]; rfl⟩

theorem letters_blank {sp : Str} (h : ∀ c ∈ sp, isSpace c = true) : letters sp = [] := by
  rw [letters, List.filter_eq_nil_iff]
  intro c hc
  rw [keeps, h c hc]
  simp

theorem reading_blanks {sp : Str} (h : ∀ c ∈ sp, isSpace c = true) (s : Str) : letters (reading (s ++ sp)) = letters (reading s) := by
  unfold reading
  obtain ⟨sp', h1, h2⟩ := visible_blanks h s .text
  rw [h2]
  cases sp' with
  | nil => rw [List.append_nil]
  | cons c sp' =>
    have hc : c ∉ c!"amp;ltgquo&" := by
      intro hm
      have := h1 c (by simp)
      have key : ∀ d ∈ c!"amp;ltgquo&", isSpace d = false := by decide +kernel
      rw [key c hm] at this
      cases this
    have ha : '&' ∉ sp' := by
      intro hm
      have := h1 '&' (by simp [hm])
      revert this
      decide +kernel
    rw [decode_stop hc _ 0 (by simp), letters_append]
    have := decode_plain ha []
    rw [List.append_nil] at this
    rw [this]
    have h3 := letters_blank h1
    rw [show decode 0 [] = [] from rfl, List.append_nil, h3, List.append_nil]

theorem strip_parts (s : Str) : ∃ a b, s = a ++ strip s ++ b ∧ (∀ c ∈ a, isSpace c = true) ∧ ∀ c ∈ b, isSpace c = true := by
  obtain ⟨b, h1, h2⟩ := Html.lstrip_strip s
  refine ⟨s.takeWhile isSpace, b, ?_, ?_, h2⟩
  · rw [List.append_assoc, ← h1, lstrip, List.takeWhile_append_dropWhile]
  · intro c hc
    have := List.all_takeWhile (p := isSpace) (l := s)
    exact List.all_eq_true.mp this c hc

theorem letters_reading_strip (s : Str) : letters (reading (strip s)) = letters (reading s) := by
  obtain ⟨a, b, h1, h2, h3⟩ := strip_parts s
  conv => rhs; rw [h1]
  rw [reading_blanks h3]
  have hf : Frag a a := by
    refine Frag.plain ?_ ?_
    · intro hc; have := h2 _ hc; revert this; decide +kernel
    · intro hc; have := h2 _ hc; revert this; decide +kernel
  rw [hf, letters_append, letters_blank h2, List.nil_append]

theorem infix_append_left {w a b : Str} (ha : ∀ c ∈ a, isSpace c = true) (hw : ∃ c t, w = c :: t ∧ isSpace c = false)
    (h : w <:+: a ++ b) : w <:+: b := by
  induction a with
  | nil => exact h
  | cons d a ih =>
    rw [List.cons_append, List.infix_cons_iff] at h
    rcases h with h | h
    · obtain ⟨c, t, rfl, hc⟩ := hw
      rw [List.cons_prefix_cons] at h
      have := ha d (by simp)
      rw [← h.1, hc] at this
      cases this
    · exact ih (fun c hc => ha c (by simp [hc])) h

theorem infix_strip {w s : Str} (hw : ∃ c t, w = c :: t ∧ isSpace c = false) (hw' : ∃ c t, w.reverse = c :: t ∧ isSpace c = false)
    (h : w <:+: s) : w <:+: strip s := by
  obtain ⟨a, b, h1, h2, h3⟩ := strip_parts s
  rw [h1, List.append_assoc] at h
  have h4 := infix_append_left h2 hw h
  rw [← List.reverse_infix, List.reverse_append] at h4
  have h5 := infix_append_left (a := b.reverse) (by simpa using h3) hw' h4
  exact List.reverse_infix.mp h5

theorem HasMedia.strip {s : Str} (h : HasMedia s) : HasMedia (strip s) := by
  rcases h with h | h
  · exact .inl (infix_strip ⟨'<', _, rfl, by decide +kernel⟩ ⟨'=', _, rfl, by decide +kernel⟩ h)
  · exact .inr (infix_strip ⟨'<', _, rfl, by decide +kernel⟩ ⟨'=', _, rfl, by decide +kernel⟩ h)

/-! ## Results -/

/-- what is known about a conversion of a text without macros -/
theorem converted (o : Opts) (macros : Macros) (markup : Str) (h : ¬ c!"<<" <:+: markup) : ∃ html ms d s,
    creole2htmlM o macros markup = .ok (html, ms) ∧ html = strip s ∧ Kin (letters markup) d ∧
    ∀ K : Char → Bool, (∀ c, K c = true → keeps c = true) → Renders K o.strict d s := by
  have hno : ¬ c!"<<" <:+: normNewlines markup := by
    intro hi
    rw [normNewlines, crlf_eq] at hi
    exact h (infix_of_infix_crlf (by decide) hi)
  obtain ⟨d, h1, h2, h3⟩ := parse_ok (p := InfoOK False) (blog := o.blog) (raw := markup)
    (by have := allows_infoOK False; exact { this with macros := fun _ hm => absurd hm.mark hno })
  have hu : d.used.contains c!"toc" = false := by
    cases hc : d.used.contains c!"toc" with
    | false => rfl
    | true => exact absurd (h3 c!"toc" (by simpa using hc)).mark hno
  have hk := parse_letters hno h1
  rw [normNewlines, crlf_eq, crlf_letters] at hk
  have hg := emitNode_good (mac := False) (Inv := fun _ => True) (E := fun _ => False)
    (env := { verbose := o.verbose, strict := o.strict, useToc := false })
    (fun i ms h => h.elim) (fun n s ms h => headerEmit_noToc rfl _ _ _ h) d.root { kind := .document } macros
    trivial h2 trivial
  cases hr : emitNode { verbose := o.verbose, strict := o.strict, useToc := false } { kind := .document } d.root macros with
  | error e => rw [hr] at hg; exact hg.elim
  | ok x =>
    obtain ⟨s, ms⟩ := x
    refine ⟨strip s, ms, d.root.shown, s, ?_, rfl, hk, ?_⟩
    · unfold creole2htmlM
      rw [h1, ok_bind]
      unfold emitDoc
      simp only [hu, Bool.false_and, Bool.false_eq_true, if_false, hr, ok_bind]
      rfl
    · intro K hK
      exact emitNode_renders hK (env := { verbose := o.verbose, strict := o.strict, useToc := false }) rfl d.root _ macros s ms h2 hr

theorem lettersNoSize_noSize (c : Char) (h : (keeps c && !ofSize c) = true) : ¬ sizeChar c := by
  rintro (hs | hs | hs)
  · simp [keeps, hs] at h
  · have : ∀ d ∈ c!"_+-x", (keeps d && !ofSize d) = false := by decide +kernel
    rw [this c hs] at h
    cases h
  · simp [ofSize, hs] at h

/-- **C70, nothing is lost, added or moved.**  If there is no `<<` in a text then the conversion succeeds, for all options and
macros.  If the HTML has no links and no pictures then one reads exactly the characters of the text in it, in the same
order (apart from blanks and the characters markup is made of). -/
theorem C70_letters_kept (o : Opts) (macros : Macros) (markup : Str) (h : ¬ c!"<<" <:+: markup) :
    ∃ html ms, creole2htmlM o macros markup = .ok (html, ms) ∧
      (¬ c!"<a href=" <:+: html → ¬ c!"<img src=" <:+: html → letters (reading html) = letters markup) := by
  obtain ⟨html, ms, d, s, h1, rfl, hk, hr⟩ := converted o macros markup h
  refine ⟨_, ms, h1, fun ha hi => ?_⟩
  have hm : medium ∉ d := by
    intro hm
    rcases HasMedia.strip ((hr keeps fun _ h => h).media hm) with h | h
    · exact ha h
    · exact hi h
  obtain ⟨v, b1, b2, b3⟩ := (hr keeps fun _ h => h).read (.inl hm)
  have := b1 []
  rw [List.append_nil, show reading [] = [] from rfl, List.append_nil] at this
  rw [letters_reading_strip, this, b3 hm, hk.same hm]

/-- **C70, links and pictures.**  In strict mode all characters can be read in the HTML, in the order of the text, also if there
are links and pictures (whose addresses may be repeated). -/
theorem C70_links_and_pictures (o : Opts) (macros : Macros) (markup : Str) (h : ¬ c!"<<" <:+: markup) (ho : o.strict = true) :
    ∃ html ms, creole2htmlM o macros markup = .ok (html, ms) ∧ (letters markup).Sublist (letters (reading html)) := by
  obtain ⟨html, ms, d, s, h1, rfl, hk, hr⟩ := converted o macros markup h
  refine ⟨_, ms, h1, ?_⟩
  obtain ⟨v, b1, b2, _⟩ := (hr keeps fun _ h => h).read (.inr (.inl ho))
  have := b1 []
  rw [List.append_nil, show reading [] = [] from rfl, List.append_nil] at this
  rw [letters_reading_strip, this]
  have h2 := (hk.sub.filter keeps).trans b2
  have h3 := h2.filter keeps
  have h4 : ((letters markup).filter keeps).filter keeps = letters markup := by
    simp [letters, List.filter_filter]
  rwa [h4] at h3

/-- **C70, sizes.**  By default the size of a picture is not a part of its text; in texts without quotes all other characters
can be read. -/
theorem C70_sizes (o : Opts) (macros : Macros) (markup : Str) (h : ¬ c!"<<" <:+: markup) (hq : '"' ∉ markup) :
    ∃ html ms, creole2htmlM o macros markup = .ok (html, ms) ∧ (lettersNoSize markup).Sublist (letters (reading html)) := by
  obtain ⟨html, ms, d, s, h1, rfl, hk, hr⟩ := converted o macros markup h
  refine ⟨_, ms, h1, ?_⟩
  have hK : ∀ c, (keeps c && !ofSize c) = true → keeps c = true := by
    intro c hc
    rw [Bool.and_eq_true] at hc
    exact hc.1
  have hd : '"' ∉ d := by
    intro hd
    rcases hk.only _ hd with h | h
    · revert h; decide
    · exact hq (List.mem_filter.mp h).1
  obtain ⟨v, b1, b2, _⟩ := (hr (fun c => keeps c && !ofSize c) hK).read (.inr (.inr ⟨lettersNoSize_noSize, hd⟩))
  have := b1 []
  rw [List.append_nil, show reading [] = [] from rfl, List.append_nil] at this
  rw [letters_reading_strip, this]
  have h2 := ((hk.sub.filter fun c => keeps c && !ofSize c).trans b2).filter keeps
  have h4 : ((letters markup).filter fun c => keeps c && !ofSize c).filter keeps = lettersNoSize markup := by
    rw [letters, lettersNoSize, List.filter_filter, List.filter_filter]
    congr 1
    funext c
    cases keeps c <;> simp
  rwa [h4] at h2

/-! ## Examples -/

/-- what one reads in the HTML of a text -/
def readOf (o : Opts) (markup : Str) : Option Str := (creole2html o markup).toOption.map reading

example : ¬ c!"<<" <:+: c!"= A & B\n* **x** //y\n* \"z\" <w>\n\n|=h|c|\n{{{\ncode\n}}}" := by decide
example : readOf {} c!"= A & B\n* **x** //y\n* \"z\" <w>" = some c!"A & B\n\n\tx //y\n\t\"z\" <w>\n" := by decide +kernel
example : letters c!"= A & B\n* **x** //y\n* \"z\" <w>" = c!"A&Bxy\"z\"<w>" := by decide +kernel
example : readOf { strict := true } c!"a [[b|c]] {{d|e}} f" = some c!"a bc dee f" := by decide +kernel
example : letters c!"a [[b|c]] {{d|e}} f" = c!"abcdef" := by decide +kernel

/-- The `x` of a size is lost; with `<<` text can be lost (an unknown macro with `verbose` 0); and with a quote in the address
and no text a sized picture spoils the HTML after it. -/
theorem C70_limits :
    readOf {} c!"{{a|b|3x4}}" = some c!"abb34" ∧ letters c!"{{a|b|3x4}}" = c!"ab3x4" ∧
    readOf { verbose := 0 } c!"a <<b>>" = some c!"a " ∧
    readOf {} c!"{{\">\"<||9x9}} say \"hello\" you" = some c!"\">\"<\" alt=> width= height= /> say  you</p>" := by
  decide +kernel

end Verif.Props
