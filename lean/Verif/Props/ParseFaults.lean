import Verif.Spec.ParseFaults
import Verif.Html.TokenErrors
import Verif.Html.ReadDoc
import Verif.Props.Faults

/-!
# C66: which texts the HTML parser refuses
-/

namespace Verif.Props

open Verif Py Html Emit Spec

theorem runEvents_fault {bd : List Str} {t : Str} {e : PyErr} (h : runEvents bd (tokens t).1 (tokens t).2 = .error e) :
    ParseFault t e := by
  rcases runEvents_error h with (⟨rfl, h0⟩ | ⟨rfl, ds, h1, h2, h3⟩) | h | h
  · exact .marked h0
  · exact .number ds h1 h2 h3
  · exact .placeholder _ _ (.inl rfl) h
  · exact .placeholder _ _ (.inr rfl) h

/-- **C66**: whatever the text is, the parser raises an exception only if the text, after the `<pre>` areas have been cut
out and the white space has been cleaned up, contains one of three things. -/
theorem C66_parser_exceptions (raw : Str) (e : PyErr) (h : parseHtml raw = .error e) : ParseFault (preprocess raw).1 e :=
  runEvents_fault h

theorem infix_solid {a b : Str} (h : a <:+: b) : solid a <:+: solid b := List.IsInfix.filter _ h

theorem solid_of_no_space {a : Str} (h : ∀ c ∈ a, isSpace c = false) : solid a = a := by
  rw [solid, List.filter_eq_self]
  intro c hc
  rw [h c hc]
  rfl

theorem isSpace_lower (c : Char) : isSpace (lowerAscii c) = isSpace c := by
  unfold lowerAscii
  split
  · next h =>
    have h1 : 65 ≤ c.toNat := h.1
    have h2 : c.toNat ≤ 90 := h.2
    have hc : c = Char.ofNat c.toNat := (Char.ofNat_toNat c).symm
    have : ∀ n, 65 ≤ n → n ≤ 90 → isSpace (Char.ofNat (n + 32)) = isSpace (Char.ofNat n) := by
      intro n h1 h2
      have key : ∀ k : Fin 26, isSpace (Char.ofNat (k.val + 65 + 32)) = isSpace (Char.ofNat (k.val + 65)) := by decide +kernel
      have := key ⟨n - 65, by omega⟩
      simpa only [Nat.sub_add_cancel h1] using this
    rw [this _ h1 h2, ← hc]
  · rfl

theorem solid_lower (s : Str) : solid (s.map lowerAscii) = (solid s).map lowerAscii := by
  rw [solid, solid, List.filter_map]
  congr 1
  apply List.filter_congr
  intro c _
  simp only [Function.comp, isSpace_lower]

theorem digit_no_space {d : Char} (h : d.isDigit = true) : isSpace d = false := by
  simp only [Char.isDigit, ge_iff_le, Bool.and_eq_true, decide_eq_true_eq] at h
  have h1 : 48 ≤ d.toNat := h.1
  have h2 : d.toNat ≤ 57 := h.2
  have hc : d = Char.ofNat d.toNat := (Char.ofNat_toNat d).symm
  have key : ∀ k : Fin 10, isSpace (Char.ofNat (k.val + 48)) = false := by decide +kernel
  have := key ⟨d.toNat - 48, by omega⟩
  rw [show (⟨d.toNat - 48, by omega⟩ : Fin 10).val + 48 = d.toNat from Nat.sub_add_cancel h1, ← hc] at this
  exact this

theorem parseFault_solid {t : Str} {e : PyErr} (h : ParseFault t e) : ParseFault (Props.solid t) e := by
  cases h with
  | marked h => exact .marked (infix_solid h)
  | number ds h1 h2 h3 =>
    refine .number ds h1 h2 ?_
    have := infix_solid h3
    rwa [solid_append, solid_of_no_space (a := ds) (fun c hc => digit_no_space (h2 c hc))] at this
  | placeholder tag e h1 h2 =>
    refine .placeholder tag _ h1 ?_
    have := infix_solid h2
    rw [solid_lower] at this
    rcases h1 with rfl | rfl
    · exact this
    · exact this

/-- the preprocessing of a text without `<pre>` changes nothing but white space -/
theorem preprocess_solid {raw : Str} (h : ¬ c!"<pre>" <:+: raw) : solid (preprocess raw).1 = solid raw := by
  have hn : ∀ u r, strip raw ≠ u ++ (c!"<pre>" ++ r) := by
    intro u r e
    apply h
    have h1 : c!"<pre>" <:+: strip raw := ⟨u, r, by rw [e, List.append_assoc]⟩
    obtain ⟨w, hw, _⟩ := dropEndWhile_tail (p := isSpace) (lstrip raw)
    have h2 : strip raw <:+: lstrip raw := ⟨[], w, hw.symm⟩
    exact h1.trans (h2.trans (List.dropWhile_suffix _).isInfix)
  unfold preprocess
  have hb : cutSegs (blockRe.scan (strip raw)) [] = (strip raw, []) :=
    cutSegs_none (by decide) _ _ _ fun u t p e => blockRe_none fun r hr => hn u r (by rw [e, hr])
  have hi : cutSegs (inlineRe.scan (strip raw)) [] = (strip raw, []) :=
    cutSegs_none (by decide) _ _ _ fun u t p e => inlineRe_none fun r hr => hn u r (by rw [e, hr])
  simp only [hb, hi]
  rw [C30_strip_html_solid, solid_strip]

/-- **C66**: if there is no `<pre>` in a text then, up to white space, it is the text itself that contains one of the three
things. -/
theorem C66_without_pre (raw : Str) (e : PyErr) (hp : ¬ c!"<pre>" <:+: raw) (h : parseHtml raw = .error e) :
    ParseFault (raw.filter fun c => !isSpace c) e := by
  have := parseFault_solid (C66_parser_exceptions raw e h)
  rw [preprocess_solid hp] at this
  exact this

/-- **C66**: any other text without `<pre>` is parsed, however ill-formed it is. -/
theorem C66_parses (raw : Str) (hp : ¬ c!"<pre>" <:+: raw) (h : ∀ e, ¬ ParseFault (raw.filter fun c => !isSpace c) e) :
    ∃ root, parseHtml raw = .ok root := by
  cases hr : parseHtml raw with
  | ok root => exact ⟨root, rfl⟩
  | error e => exact (h e (C66_without_pre raw e hp hr)).elim

/-- **C66**: the same holds without the preprocessing. -/
theorem C66_raw (raw : Str) (e : PyErr) (h : parseRaw raw = .error e) : ParseFault (strip raw) e := runEvents_fault h

/-- **C66**: an exception of a converter comes from the parser, and the text contains one of the three things, or it comes
from a node of the document that cannot be converted. -/
theorem C66_converter_exceptions (cfg : Cfg) (raw : Str) (e : PyErr) (h : convert cfg raw = .error e) :
    ParseFault (preprocess raw).1 e ∨
    ∃ root anc i, parseHtml raw = .ok root ∧ (anc, i) ∈ contexts [] root ∧ Fault cfg (visited root) anc i e := by
  unfold convert at h
  cases hr : parseHtml raw with
  | error e' =>
    rw [hr] at h
    cases h
    exact .inl (C66_parser_exceptions raw _ hr)
  | ok root =>
    rw [hr] at h
    obtain ⟨anc, i, h1, h2⟩ := C65_only_faulty_nodes_fail cfg root e h
    exact .inr ⟨root, anc, i, rfl, h1, h2⟩

/-- witnesses: the three things, and some texts that are ill-formed but parsed -/
theorem C66_witnesses :
    html2creole c!"<p>a<![foo[b</p>" = .error .assertionError ∧
    html2creole c!"a <BlockData id=0 /> b" = .error .keyError ∧
    html2creole c!"<inlinedata type=x id=0 />" = .error .indexError ∧
    (parseHtml c!"<p <b>>>a</i></p></p> <!x & &# </ <![CDATA[x]]>").isOk ∧
    (parseHtml c!"<a b='c").isOk ∧ (parseHtml c!"<?x <! &#x; &#zz;").isOk := by
  decide +kernel

example : ¬ c!"<pre>" <:+: c!"<p <b>>>a</i></p>" := by decide +kernel

end Verif.Props
