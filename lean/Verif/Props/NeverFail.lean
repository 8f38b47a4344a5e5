import Verif.Html.FineRead
import Verif.Props.Structure
import Verif.Props.Faults

/-!
# C80: what was made from creole can be converted back
-/

namespace Verif.Props

open Verif Py Html Emit Spec Spec.Hd Spec.Gr Creole

/-! ## Preformatted areas in the HTML of a document tree -/

/-- every area is followed by a line break -/
def preClosed : List Ht → Bool
  | [] => true
  | x :: xs => areaOk x && (notPre x || followed xs) && preClosed xs

theorem followed_append {a : List Ht} (b : List Ht) (h : followed a = true) : followed (a ++ b) = true := by
  unfold followed at h
  split at h
  · rfl
  · cases h

theorem preClosed_append {a b : List Ht} (ha : preClosed a = true) (hb : preClosed b = true) : preClosed (a ++ b) = true := by
  induction a with
  | nil => exact hb
  | cons x a ih =>
    rw [preClosed, Bool.and_eq_true, Bool.and_eq_true] at ha
    rw [List.cons_append, preClosed, ih ha.2, ha.1.1]
    rw [Bool.or_eq_true] at ha
    rcases ha.1.2 with h | h
    · simp [h]
    · simp [followed_append b h]

theorem preClosed_right {a b : List Ht} (h : preClosed (a ++ b) = true) : preClosed b = true := by
  induction a with
  | nil => exact h
  | cons x a ih =>
    rw [List.cons_append, preClosed, Bool.and_eq_true] at h
    exact ih h.2

theorem preLines_left {a b : List Ht} (h : preClosed (a ++ b) = true) : preLines a = true := by
  induction a with
  | nil => rfl
  | cons x a ih =>
    rw [List.cons_append, preClosed, Bool.and_eq_true, Bool.and_eq_true] at h
    rw [preLines, ih h.2, h.1.1]
    cases a with
    | nil => simp
    | cons y a =>
      have : followed ((y :: a) ++ b) = followed (y :: a) := by
        simp only [List.cons_append]
        unfold followed
        split <;> simp_all
      rw [this] at h
      rw [Bool.or_eq_true] at h
      rcases h.1.2 with h | h <;> simp [h]

theorem preClosed_calm {l : List Ht} (h : ∀ x ∈ l, notPre x = true) : preClosed l = true := by
  induction l with
  | nil => rfl
  | cons x l ih =>
    rw [preClosed, ih fun y hy => h y (by simp [hy]), areaOk, h x (by simp)]
    rfl

mutual
theorem ht_closed {q : Src} {strict : Bool} : ∀ (n : Node) (p : Info), n.Sound q → preClosed (ht strict p n) = true
  | .mk i cs, p, h => by
    cases h with
    | mk hg hun hch =>
    rw [ht]
    have hcalm : ∀ {tag : Str} {a : List (Str × Str)} {ch ws : List Ht}, tag ≠ c!"pre" → (∀ x ∈ ws, notPre x = true) → preClosed (.el tag a ch :: ws) = true := by
      intro tag a ch ws ht hw
      refine preClosed_calm ?_
      intro x hx
      rcases List.mem_cons.1 hx with rfl | hx
      · simpa [notPre] using ht
      · exact hw x hx
    have hlist : ∀ (k : Kind) (m : Nat) (tag : Str) (inner : List Ht), tag ≠ c!"pre" → preClosed (listHt k m tag inner) = true := by
      intro k m tag inner ht
      refine preClosed_calm ?_
      intro x hx
      unfold listHt at hx
      simp only [List.mem_append, List.mem_cons, List.not_mem_nil, or_false] at hx
      rcases hx with hx | rfl | rfl
      · split at hx
        · cases hx
        · rw [List.mem_singleton] at hx; subst hx; rfl
      · rfl
      · simpa [notPre] using ht
    split
    case h_1 => exact htL_closed cs i hch
    case h_27 =>
      rename_i hk
      unfold Info.good at hg
      rw [hk] at hg
      obtain ⟨s, h1, h2, h3⟩ := hg
      rw [h1]
      simp [preClosed, areaOk, followed, preText, notPre, h2, h3]
    all_goals first
      | exact hlist _ _ _ _ (by decide)
      | exact hcalm (by decide) (by simp [notPre])
      | rfl
      | exact hcalm (by simp) (by simp [notPre])
      | exact preClosed_calm (by simp [notPre])
theorem htL_closed {q : Src} {strict : Bool} : ∀ (ns : List Node) (p : Info), (∀ n ∈ ns, n.Sound q) → preClosed (htL strict p ns) = true
  | [], _, _ => rfl
  | n :: ns, p, h => by
    rw [htL]
    exact preClosed_append (ht_closed n p (h n (by simp))) (htL_closed ns p fun x hx => h x (by simp [hx]))
end

/-- the HTML of a text, with its preformatted areas in order -/
theorem converted_lines (o : Opts) (macros : Macros) (markup : Str) (h : ¬ c!"<<" <:+: markup) (hp : Plain o markup) :
    ∃ l, creole2htmlM o macros markup = .ok (written l, macros) ∧ fineL .doc l = true ∧ preLines l = true := by
  obtain ⟨d, q, w, l, w', strict, h1, h2, h3, h4, h5, h6, h7, _, _⟩ := converted_ht o macros markup h hp
  have := ht_closed (strict := strict) d.root { kind := .document } h2
  rw [h7, List.append_assoc] at this
  exact ⟨l, h5, h6, preLines_left (preClosed_right this)⟩

/-! ## The theorems -/

/-- **C80.**  The HTML of every text without `<<` can be converted to each of the four languages, except that: tags which the
language has no markup for raise NotImplementedError if unknown tags are to raise; html2markdown may raise ValueError for an
address it cannot parse; html2rest may raise Html2restException for links or pictures that are in conflict.  (`hp` is the
condition of C78.  The number of areas must be one that Python can convert from a string.) -/
theorem C80_converts_back (o : Opts) (macros : Macros) (markup : Str) (h : ¬ c!"<<" <:+: markup)
    (hp : o.strict = true ∨ ¬ MayLackTitle markup ∨ (∀ c ∈ markup, marked c = false) ∨
      ∀ html, creole2html o markup = .ok html → ¬ c!"<img src=" <:+: html) (cfg : Cfg) :
    ∃ html, creole2htmlM o macros markup = .ok (html, macros) ∧ (html.length ≤ 10 ^ maxIntDigits →
      (∃ text, convert cfg html = .ok text) ∨
      cfg.policy = .raise ∧ convert cfg html = .error .notImplementedError ∨
      cfg.lang = .markdown ∧ convert cfg html = .error .valueError ∨
      cfg.lang = .rest ∧ convert cfg html = .error .html2rest) := by
  obtain ⟨l, h1, h2, h3⟩ := converted_lines o macros markup h hp
  refine ⟨_, h1, fun hlen => ?_⟩
  obtain ⟨root, _, _, h4, _, _, _, _, h5⟩ := parse_structured h2 h3 hlen
  have h5 := h5 false (fun e => by cases e)
  have hc : convert cfg (written l) = emit cfg root := by
    unfold convert
    rw [h4]
    rfl
  rw [hc]
  cases hr : emit cfg root with
  | ok t => exact .inl ⟨t, rfl⟩
  | error e =>
    obtain ⟨anc, i, h6, h7⟩ := C65_only_faulty_nodes_fail cfg root e hr
    rcases (h5 _ h6).fault h7 with ⟨h8, rfl, _⟩ | ⟨h8, rfl, _⟩ | ⟨h8, rfl⟩
    · exact .inr (.inl ⟨h8, rfl⟩)
    · exact .inr (.inr (.inl ⟨h8, rfl⟩))
    · exact .inr (.inr (.inr ⟨h8, rfl⟩))

/-- **C80.**  Creole converted to HTML can always be converted back to creole, and to textile, unless unknown tags are to
raise. -/
theorem C80_creole_back (o : Opts) (macros : Macros) (markup : Str) (h : ¬ c!"<<" <:+: markup)
    (hp : o.strict = true ∨ ¬ MayLackTitle markup ∨ (∀ c ∈ markup, marked c = false) ∨
      ∀ html, creole2html o markup = .ok html → ¬ c!"<img src=" <:+: html) (policy : Policy) (hpol : policy ≠ .raise)
    (strict : Bool) :
    ∃ html, creole2htmlM o macros markup = .ok (html, macros) ∧ (html.length ≤ 10 ^ maxIntDigits →
      (∃ text, html2creole html policy strict = .ok text) ∧ ∃ text, html2textile html policy = .ok text) := by
  obtain ⟨html, h1, h2⟩ := C80_converts_back o macros markup h hp { lang := .creole, policy, strict }
  obtain ⟨html', h1', h2'⟩ := C80_converts_back o macros markup h hp { lang := .textile, policy }
  rw [h1] at h1'
  cases h1'
  refine ⟨html, h1, fun hlen => ⟨?_, ?_⟩⟩
  · rcases h2 hlen with h | h | h | h
    · exact h
    · exact absurd h.1 hpol
    · exact absurd h.1 (by simp)
    · exact absurd h.1 (by simp)
  · rcases h2' hlen with h | h | h | h
    · exact h
    · exact absurd h.1 hpol
    · exact absurd h.1 (by simp)
    · exact absurd h.1 (by simp)

/-! ## Examples and limits -/

/-- the way from creole to HTML and back -/
def thereAndBack (markup : Str) : Except PyErr Str := do html2creole (← creole2html {} markup)

/-- a text with a list, a picture, preformatted text, a table and a heading -/
example : ¬ c!"<<" <:+: c!"= A\n* [[a|b]] **c\n\nd\n{{{\n&lt;\n}}}\n|=d|{{e}}" ∧ ¬ MayLackTitle c!"= A\n* [[a|b]] **c\n\nd\n{{{\n&lt;\n}}}\n|=d|{{e}}" ∧
    thereAndBack c!"= A\n* [[a|b]] **c\n\nd\n{{{\n&lt;\n}}}\n|=d|{{e}}" =
      .ok c!"= A\n\n\n\n* [[a|b]] **c\n\nd\n\n{{{\n&lt;\n}}}\n|= d | {{e|e}} |" :=
  ⟨by decide, fun h => absurd (bars_of h.2) (by decide), by decide +kernel⟩

/-- Each of the exceptions does occur. -/
theorem C80_exceptions :
    creole2html {} c!"a {{{b}}}" = .ok c!"<p>a <code>b</code></p>" ∧
    html2creole c!"<p>a <code>b</code></p>" .raise = .error .notImplementedError ∧
    creole2html {} c!"[[//[x|a]]" = .ok c!"<p><a href=\"//[x\">a</a></p>" ∧
    html2markdown (fun _ => true) c!"<p><a href=\"//[x\">a</a></p>" = .error .valueError ∧
    creole2html {} c!"[[a|x]] [[b|x]]" = .ok c!"<p><a href=\"a\">x</a> <a href=\"b\">x</a></p>" ∧
    html2rest c!"<p><a href=\"a\">x</a> <a href=\"b\">x</a></p>" = .error .html2rest := by
  decide +kernel

/-- Being convertible does not mean that the text stays the same: behind a list, the line break after a preformatted text is
lost, and the table is none any more. -/
theorem C80_not_the_same :
    creole2html {} c!"* a\n{{{\nb\n}}}\n|c|" =
      .ok c!"<ul>\n\t<li>a</li>\n</ul><pre>\nb\n</pre>\n<table>\n<tr>\n\t<td>c</td>\n</tr>\n</table>" ∧
    thereAndBack c!"* a\n{{{\nb\n}}}\n|c|" = .ok c!"* a\n\n{{{\nb\n}}} | c |" ∧
    creole2html {} c!"* a\n\n{{{\nb\n}}} | c |" = .ok c!"<ul>\n\t<li>a</li>\n</ul>\n<pre>\nb\n</pre>\n<p> | c |</p>" := by
  decide +kernel

end Verif.Props
