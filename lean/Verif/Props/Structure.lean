import Verif.Creole.Render
import Verif.Props.Safety
import Verif.Props.Options

/-!
# C78: the structure of converted documents
-/

namespace Verif.Props

open Verif Py Creole Spec Spec.Hd Spec.Gr

/-! ## Line endings -/

theorem crlf_chars (s : Str) : ∀ c ∈ crlf s, c = '\n' ∨ c ∈ s := by
  fun_induction crlf s with
  | case1 => simp
  | case2 s ih =>
    intro c hc
    simp only [List.mem_cons] at hc ⊢
    rcases hc with rfl | hc
    · exact .inl rfl
    · exact (ih c hc).imp id fun h => .inr (.inr h)
  | case3 s h ih =>
    intro c hc
    simp only [List.mem_cons] at hc ⊢
    rcases hc with rfl | hc
    · exact .inl rfl
    · exact (ih c hc).imp id fun h => .inr h
  | case4 c s h1 ih =>
    intro d hd
    simp only [List.mem_cons] at hd ⊢
    rcases hd with rfl | hd
    · exact .inr (.inl rfl)
    · exact (ih d hd).imp id fun h => .inr h

/-- blanks and a bar at the beginning of a text -/
theorem crlf_blanks (s : Str) : ∀ w, (∀ d ∈ w, isSpace d = true) → (w ++ ['|']) <+: crlf s →
    ∃ w', (∀ d ∈ w', isSpace d = true) ∧ (w' ++ ['|']) <+: s := by
  have hn : isSpace '\n' = true := by decide
  have hr : isSpace '\r' = true := by decide
  have cut : ∀ {t : Str} {w : Str}, (∀ d ∈ w, isSpace d = true) → (w ++ ['|']) <+: '\n' :: t →
      ∃ w', (∀ d ∈ w', isSpace d = true) ∧ (w' ++ ['|']) <+: t := by
    intro t w hw hp
    cases w with
    | nil =>
      obtain ⟨r, h⟩ := hp
      exact absurd (List.cons.inj h).1 (by decide)
    | cons d w =>
      refine ⟨w, fun x hx => hw x (by simp [hx]), ?_⟩
      rw [List.cons_append] at hp
      exact (List.cons_prefix_cons.1 hp).2
  fun_induction crlf s with
  | case1 =>
    intro w _ h
    rw [List.prefix_nil] at h
    simp at h
  | case2 s ih =>
    intro w hw hp
    obtain ⟨w1, h1, h2⟩ := cut hw hp
    obtain ⟨w2, h3, h4⟩ := ih w1 h1 h2
    exact ⟨'\r' :: '\n' :: w2, by simpa [hn, hr] using h3, by simpa using h4⟩
  | case3 s h ih =>
    intro w hw hp
    obtain ⟨w1, h1, h2⟩ := cut hw hp
    obtain ⟨w2, h3, h4⟩ := ih w1 h1 h2
    exact ⟨'\r' :: w2, by simpa [hr] using h3, by simpa using h4⟩
  | case4 c s h1 ih =>
    intro w hw hp
    cases w with
    | nil =>
      rw [List.nil_append] at hp
      refine ⟨[], by simp, ?_⟩
      obtain ⟨r, h⟩ := hp
      exact ⟨s, by rw [(List.cons.inj h).1]; rfl⟩
    | cons d w =>
      rw [List.cons_append] at hp
      obtain ⟨rfl, hx⟩ := List.cons_prefix_cons.1 hp
      obtain ⟨w1, h3, h4⟩ := ih w (fun x hx => hw x (by simp [hx])) hx
      refine ⟨d :: w1, ?_, by simpa using h4⟩
      intro x hx
      simp only [List.mem_cons] at hx
      rcases hx with rfl | hx
      · exact hw _ (by simp)
      · exact h3 x hx

theorem crlf_bar {s : Str} (h : BarAfter (crlf s)) : BarAfter s := by
  have key : ∀ (s : Str) (c : Char) (w : Str), (c = '|' ∨ c = '{') → (∀ d ∈ w, isSpace d = true) → (c :: (w ++ ['|'])) <:+: crlf s →
      ∃ w', (∀ d ∈ w', isSpace d = true) ∧ (c :: (w' ++ ['|'])) <:+: s := by
    intro s c w hc hw
    have hcn : c ≠ '\n' := by rcases hc with rfl | rfl <;> decide
    fun_induction crlf s with
    | case1 => intro h; simp at h
    | case2 s ih =>
      intro h
      rcases List.infix_cons_iff.1 h with h | h
      · exact absurd (List.cons_prefix_cons.1 h).1 hcn
      · obtain ⟨w', h1, h2⟩ := ih h
        exact ⟨w', h1, h2.trans ((List.suffix_cons _ _).trans (List.suffix_cons _ _)).isInfix⟩
    | case3 s hs ih =>
      intro h
      rcases List.infix_cons_iff.1 h with h | h
      · exact absurd (List.cons_prefix_cons.1 h).1 hcn
      · obtain ⟨w', h1, h2⟩ := ih h
        exact ⟨w', h1, h2.trans (List.suffix_cons _ _).isInfix⟩
    | case4 d s h1 ih =>
      intro h
      rcases List.infix_cons_iff.1 h with h | h
      · obtain ⟨rfl, hx⟩ := List.cons_prefix_cons.1 h
        obtain ⟨w', h3, h4⟩ := crlf_blanks s w hw hx
        exact ⟨w', h3, (List.cons_prefix_cons.2 ⟨rfl, h4⟩).isInfix⟩
      · obtain ⟨w', h3, h4⟩ := ih h
        exact ⟨w', h3, h4.trans (List.suffix_cons _ _).isInfix⟩
  obtain ⟨c, w, h1, h2, h3⟩ := h
  obtain ⟨w', h4, h5⟩ := key s c w h1 h2 h3
  exact ⟨c, w', h1, h4, h5⟩

/-- what the theorems below need to know about a text -/
def Plain (o : Opts) (markup : Str) : Prop :=
  o.strict = true ∨ ¬ MayLackTitle markup ∨ (∀ c ∈ markup, marked c = false) ∨
    ∀ html, (creole2html o markup) = .ok html → ¬ c!"<img src=" <:+: html

theorem plain_src {o : Opts} {markup : Str} (h : o.strict = true ∨ ¬ MayLackTitle markup ∨ ∀ c ∈ markup, marked c = false) :
    ∃ q : Src, q.Has (normNewlines markup) ∧ q.chars ' ' ∧ Safe q o.strict := by
  rcases h with h | h | h
  · exact ⟨⟨fun _ => True, True⟩, ⟨fun _ _ => trivial, fun _ => trivial⟩, trivial, .inl h⟩
  · refine ⟨⟨fun _ => True, False⟩, ⟨fun _ _ => trivial, ?_⟩, trivial, .inr fun h => h.elim⟩
    rintro ⟨h1, h2⟩
    rw [normNewlines, crlf_eq] at h1 h2
    exact h ⟨infix_of_infix_crlf (by decide) h1, crlf_bar h2⟩
  · refine ⟨⟨fun c => marked c = false, True⟩, ⟨?_, fun _ => trivial⟩, by decide, .inr fun _ c hc => hc⟩
    intro c hc
    rw [normNewlines, crlf_eq] at hc
    rcases crlf_chars _ c hc with rfl | hc
    · decide
    · exact h c hc

/-- the parsed document of a text without macros, and its HTML -/
theorem converted_ht' (o : Opts) (macros : Macros) (markup : Str) (h : ¬ c!"<<" <:+: markup)
    (hp : o.strict = true ∨ ¬ MayLackTitle markup ∨ ∀ c ∈ markup, marked c = false) :
    ∃ d q w l w', parse o.blog markup = .ok d ∧ d.root.Sound q ∧ d.root.All (InfoOK False) ∧ d.root.info.kind = .document ∧
      creole2htmlM o macros markup = .ok (written l, macros) ∧ fineL .doc l = true ∧
      ht o.strict { kind := .document } d.root = w ++ l ++ w' ∧ (∀ x ∈ w, blankPiece x = true) ∧ (∀ x ∈ w', blankPiece x = true) := by
  have hno : ¬ c!"<<" <:+: normNewlines markup := fun hc => h (by
    rw [normNewlines, crlf_eq] at hc
    exact infix_of_infix_crlf (by decide) hc)
  obtain ⟨d, h1, h2, h3⟩ := parse_ok (p := InfoOK False) (blog := o.blog) (raw := markup)
    (by have := allows_infoOK False; exact { this with macros := fun _ hc => absurd hc.mark hno })
  have hu : d.used.contains c!"toc" = false := by
    cases hc : d.used.contains c!"toc" with
    | false => rfl
    | true => exact absurd (h3 _ (by simpa using hc)).mark hno
  obtain ⟨q, hq1, hq2, hq3⟩ := plain_src hp
  obtain ⟨hs, hk⟩ := parse_sound hq1 hq2 h1
  have he := emitNode_ht (env := { verbose := o.verbose, strict := o.strict, useToc := false }) hq3 rfl d.root { kind := .document } macros
    hs h2 trivial
  have hf : fineL .doc (ht o.strict { kind := .document } d.root) = true := by
    cases hd : d.root with
    | mk i cs =>
      rw [hd] at hs hk
      cases hs with
      | mk hg hun hch =>
      have hk : i.kind = .document := hk
      have := fine_htL (strict := o.strict) cs i hch fun n hn => (hun n hn).takes
      rw [hk] at this
      rw [ht]
      simp only [hk]
      exact this
  obtain ⟨w, l, w', h4, h5, h6, h7⟩ := strip_fine hf
  refine ⟨d, q, w, l, w', h1, hs, h2, hk, ?_, ?_, h4, h5, h6⟩
  · unfold creole2htmlM
    rw [h1]
    show emitDoc _ _ _ _ = _
    unfold emitDoc
    simp only [hu, Bool.false_and, Bool.false_eq_true, if_false]
    rw [he]
    show Except.ok (strip _, macros) = _
    rw [h7]
  · rw [h4, fineL_append, fineL_append, Bool.and_eq_true, Bool.and_eq_true] at hf
    exact hf.1.2

theorem converted_ht (o : Opts) (macros : Macros) (markup : Str) (h : ¬ c!"<<" <:+: markup) (hp : Plain o markup) :
    ∃ d q w l w' strict, parse o.blog markup = .ok d ∧ d.root.Sound q ∧ d.root.All (InfoOK False) ∧ d.root.info.kind = .document ∧
      creole2htmlM o macros markup = .ok (written l, macros) ∧ fineL .doc l = true ∧
      ht strict { kind := .document } d.root = w ++ l ++ w' ∧ (∀ x ∈ w, blankPiece x = true) ∧ (∀ x ∈ w', blankPiece x = true) := by
  have hp' : (o.strict = true ∨ ¬ MayLackTitle markup ∨ ∀ c ∈ markup, marked c = false) ∨
      ∀ html, (creole2html o markup) = .ok html → ¬ c!"<img src=" <:+: html := by
    rcases hp with h | h | h | h
    · exact .inl (.inl h)
    · exact .inl (.inr (.inl h))
    · exact .inl (.inr (.inr h))
    · exact .inr h
  rcases hp' with hp | hp
  · obtain ⟨d, q, w, l, w', h1⟩ := converted_ht' o macros markup h hp
    exact ⟨d, q, w, l, w', _, h1⟩
  · obtain ⟨html, hh⟩ := C82_options o markup h
    obtain ⟨d, q, w, l, w', h1, h2, h3, h4, h5, h6⟩ := converted_ht' { o with strict := true } macros markup h (.inl rfl)
    have e0 := hh o.verbose o.strict [] (.inl rfl)
    have hi := hp html (by unfold creole2html; rw [show o = { o with } from rfl, e0]; rfl)
    have e1 := hh o.verbose true macros (.inr hi)
    have e2 := hh o.verbose o.strict macros (.inl rfl)
    rw [show ({ o with strict := true } : Opts) = { o with verbose := o.verbose, strict := true } from rfl, e1] at h5
    refine ⟨d, q, w, l, w', _, h1, h2, h3, h4, ?_, h6⟩
    rw [← h5]
    exact e2

/-- **C78.**  The HTML of every text without `<<` is structured: it consists of the elements creole stands for, each where it
may stand, with the attributes it has, and of text where text may stand.  In the default mode this needs that no picture has a
size without a title, or that the text has no characters that are special in HTML, or that there are no pictures. -/
theorem C78_structured (o : Opts) (macros : Macros) (markup : Str) (h : ¬ c!"<<" <:+: markup)
    (hp : o.strict = true ∨ ¬ MayLackTitle markup ∨ (∀ c ∈ markup, marked c = false) ∨
      ∀ html, creole2html o markup = .ok html → ¬ c!"<img src=" <:+: html) :
    ∃ html, creole2htmlM o macros markup = .ok (html, macros) ∧ Structured html := by
  obtain ⟨d, q, w, l, w', _, _, _, _, _, h1, h2, _⟩ := converted_ht o macros markup h hp
  exact ⟨_, h1, l, rfl, h2⟩

/-! ## Examples and limits -/

/-- `BarAfter` as a program -/
def bars : Str → Bool
  | [] => false
  | c :: s => ((c == '|' || c == '{') && (s.dropWhile isSpace).head? == some '|') || bars s

theorem bars_of {s : Str} (h : BarAfter s) : bars s = true := by
  obtain ⟨c, w, hc, hw, u, v, rfl⟩ := h
  induction u with
  | nil =>
    have : ((w ++ '|' :: v).dropWhile isSpace).head? = some '|' := by
      clear hc
      induction w with
      | nil => rw [List.nil_append, List.dropWhile_cons, if_neg (by decide)]; rfl
      | cons d w ih =>
        rw [List.cons_append, List.dropWhile_cons, if_pos (hw d (by simp))]
        exact ih fun x hx => hw x (by simp [hx])
    rcases hc with rfl | rfl <;> simp [bars, this]
  | cons d u ih => simp only [List.cons_append, bars, Bool.or_eq_true]; exact .inr (by simpa using ih)

/-- a text with pictures, special characters, a list, a table and preformatted text meets the hypotheses -/
example : ¬ c!"<<" <:+: c!"* {{a.png|A & B|10x20}} <b>\n{{{\n<\n}}}\n|[[x|y]]\\\\|" ∧
    ¬ MayLackTitle c!"* {{a.png|A & B|10x20}} <b>\n{{{\n<\n}}}\n|[[x|y]]\\\\|" ∧
    creole2html {} c!"* {{a.png|A & B|10x20}} <b>\n{{{\n<\n}}}\n|[[x|y]]\\\\|" =
      .ok c!"<ul>\n\t<li><img src=\"a.png\" title=\"A &amp; B\" alt=\"A &amp; B\" width=\"10\" height=\"20\" /> &lt;b&gt;</li>\n</ul><pre>\n&lt;\n</pre>\n<table>\n<tr>\n\t<td><a href=\"x\">y</a><br />\n\t\t</td>\n</tr>\n</table>" :=
  ⟨by decide, fun h => absurd (bars_of h.2) (by decide), by decide +kernel⟩

/-- The limit: the name of a picture with a size but without a title becomes its title unescaped. -/
theorem C78_limit : creole2html {} c!"{{\"><b>||1x1}}" =
    .ok c!"<p><img src=\"&quot&gt;&lt;b&gt;\" title=\"\"><b>\" alt=\"\"><b>\" width=\"1\" height=\"1\" /></p>" := by
  decide +kernel

end Verif.Props
