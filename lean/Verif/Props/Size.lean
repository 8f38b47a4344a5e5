import Verif.Creole.EmitSize
import Verif.Props.Documents
import Verif.Props.Firewall
import Verif.Props.LineEndings
import Verif.Props.Totality

/-!
# Theorems: C96, how large the HTML becomes
-/

namespace Verif.Props

open Verif Py Creole Spec Spec.Cr

theorem crlf_len (s : Str) : (crlf s).length ≤ s.length := by
  induction s using crlf.induct with
  | case1 => simp [crlf]
  | case2 s ih => simp only [crlf, if_true, List.length_cons]; omega
  | case3 s hs ih => unfold crlf; split <;> simp_all <;> omega
  | case4 c s hc ih => unfold crlf; split <;> simp_all

/-- the largest number of list marks (`*` and `#`) that stand one after the other -/
def marksInARow : Str → Nat
  | [] => 0
  | c :: s => max ((c :: s).takeWhile fun c => c == '*' || c == '#').length (marksInARow s)

theorem marks_prefix {w s : Str} (hw : ∀ c ∈ w, c = '*' ∨ c = '#') (h : w <+: s) :
    w.length ≤ (s.takeWhile fun c => c == '*' || c == '#').length := by
  obtain ⟨t, rfl⟩ := h
  rw [List.takeWhile_append_of_pos (by intro c hc; simpa using hw c hc), List.length_append]
  omega

theorem marks_infix {w : Str} (hw : ∀ c ∈ w, c = '*' ∨ c = '#') : ∀ {s : Str}, w <:+: s → w.length ≤ marksInARow s
  | [], h => by rw [List.infix_nil.mp h]; exact Nat.le_refl _
  | c :: s, h => by
    rw [marksInARow]
    rcases List.infix_cons_iff.mp h with h | h
    · exact Nat.le_trans (marks_prefix hw h) (Nat.le_max_left _ _)
    · exact Nat.le_trans (marks_infix hw h) (Nat.le_max_right _ _)

theorem marks_le : ∀ s : Str, marksInARow s ≤ s.length
  | [] => Nat.le_refl _
  | c :: s => by
    rw [marksInARow]
    refine Nat.max_le.mpr ⟨(List.takeWhile_sublist _).length_le, Nat.le_trans (marks_le s) (by simp)⟩

theorem size_all {o : Opts} {markup html : Str} (h : creole2html o markup = .ok html) :
    ∃ doc, parse o.blog markup = .ok doc ∧
      html.length ≤ 1920 * (marksInARow markup + 1) * (markup.length + 1) +
        (if doc.used.contains c!"toc" then 11264 * (markup.length + 1) * (markup.length + 1) else 0) := by
  unfold creole2html creole2htmlM at h
  cases hp : parse o.blog markup with
  | error e => rw [hp] at h; cases h
  | ok doc =>
    rw [hp] at h
    refine ⟨doc, rfl, ?_⟩
    cases he : emitDoc o.verbose o.strict doc [] with
    | error e => rw [show (Except.ok doc >>= fun d => emitDoc o.verbose o.strict d []) = emitDoc o.verbose o.strict doc [] from rfl, he] at h; cases h
    | ok x =>
      rw [show (Except.ok doc >>= fun d => emitDoc o.verbose o.strict d []) = emitDoc o.verbose o.strict doc [] from rfl, he] at h
      cases h
      obtain ⟨html, ms⟩ := x
      have hr : MarkRuns (marksInARow markup) (normNewlines markup) := by
        intro w hw hc
        rw [normNewlines, crlf_eq] at hw
        refine marks_infix hc (infix_of_infix_crlf ?_ hw)
        intro hn
        rcases hc _ hn with h | h <;> cases h
      obtain ⟨h1, h2⟩ := parse_weight hr hp
      have h3 := emitDoc_size h1 he
      have h4 : (normNewlines markup).length ≤ markup.length := by rw [normNewlines, crlf_eq]; exact crlf_len markup
      have h5 : doc.root.weight + 1 ≤ 16 * (markup.length + 1) := by omega
      generalize marksInARow markup = d at *
      have h6 : bound d doc.root.weight ≤ 1920 * (d + 1) * (markup.length + 1) := by
        unfold bound
        have : 120 * (d + 1) * doc.root.weight ≤ 120 * (d + 1) * (16 * (markup.length + 1)) := Nat.mul_le_mul_left _ (by omega)
        refine Nat.le_trans this (Nat.le_of_eq ?_)
        rw [← Nat.mul_assoc, Nat.mul_right_comm 120 (d + 1) 16]
      have h7 : 44 * (doc.root.weight + 1) * (doc.root.weight + 1) ≤ 11264 * (markup.length + 1) * (markup.length + 1) := by
        refine Nat.le_trans (Nat.mul_le_mul (Nat.mul_le_mul_left 44 h5) h5) (Nat.le_of_eq ?_)
        generalize markup.length + 1 = n
        rw [show 44 * (16 * n) = 704 * n by omega, Nat.mul_left_comm, ← Nat.mul_assoc, show 16 * (704 * n) = 11264 * n by omega]
      refine Nat.le_trans h3 ?_
      split <;> omega

/-- **C96.** Without a table of contents the HTML is at most as long as the text, times a constant, times the largest number of
list marks in a row. -/
theorem C96_size (o : Opts) (markup html : Str) (ht : mayCall c!"toc" markup = false) (h : creole2html o markup = .ok html) :
    html.length ≤ 1920 * (marksInARow markup + 1) * (markup.length + 1) := by
  obtain ⟨doc, h1, h2⟩ := size_all h
  obtain ⟨doc', h3, -, h4⟩ := parse_used (o := o) ht
  rw [h1] at h3
  cases h3
  rw [h4] at h2
  simpa using h2

example : marksInARow c!"* a\n*#* b\\\\c **d**" = 3 ∧ mayCall c!"toc" c!"* a\n*#* b\\\\c **d**" = false ∧
    creole2html {} c!"* a\n*#* b\\\\c **d**" = .ok c!"<ul>\n\t<li>a\n\t\t<ul>\n\t\t\t<li>b<br />\n\t\t\tc <strong>d</strong></li>\n\t\t</ul></li>\n</ul>" := by
  decide +kernel

/-- **C96.** The length of the HTML is at most quadratic in the length of the text, for every text. -/
theorem C96_size_quadratic (o : Opts) (markup html : Str) (h : creole2html o markup = .ok html) :
    html.length ≤ 13184 * (markup.length + 1) * (markup.length + 1) := by
  obtain ⟨doc, h1, h2⟩ := size_all h
  have : 13184 * (markup.length + 1) * (markup.length + 1) =
      1920 * (markup.length + 1) * (markup.length + 1) + 11264 * (markup.length + 1) * (markup.length + 1) := by
    generalize markup.length + 1 = n
    simp only [Nat.mul_assoc]
    omega
  have hm : 1920 * (marksInARow markup + 1) * (markup.length + 1) ≤ 1920 * (markup.length + 1) * (markup.length + 1) :=
    Nat.mul_le_mul_right _ (Nat.mul_le_mul_left _ (by have := marks_le markup; omega))
  rw [this]
  refine Nat.le_trans h2 (Nat.add_le_add hm ?_)
  split
  · exact Nat.le_refl _
  · exact Nat.zero_le _

example : creole2html {} c!"<<toc>>\n=== a\n= b" = .ok
    c!"<ul>\n\t<ul>\n\t\t<ul>\n\t\t\t<li><a href=\"#a\">a</a></li>\n\t\t</ul>\n\t</ul>\n\t<li><a href=\"#b\">b</a></li>\n</ul>\n<a name=\"a\"><h3>a</h3></a>\n<a name=\"b\"><h1>b</h1></a>" := by
  decide +kernel

/-- an item with many marks and many line breaks -/
def brokenLines : Nat → List Cr.Inl
  | 0 => []
  | n + 1 => .br :: .chr 'a' :: brokenLines n

theorem broken_prints : ∀ n, prints (brokenLines n) = (List.replicate n c!"\\\\a").flatten
  | 0 => rfl
  | n + 1 => by
    rw [List.replicate_succ, List.flatten_cons, ← broken_prints n]
    rfl

theorem broken_head (n : Nat) : prints (brokenLines n) = [] ∨ ∃ t, prints (brokenLines n) = '\\' :: t := by
  cases n with
  | zero => exact .inl rfl
  | succ n => exact .inr ⟨_, rfl⟩

theorem broken_wfs (cx : Ctx) : ∀ (n : Nat) (p : Option Char), wfs cx p (brokenLines n) = true
  | 0, p => rfl
  | n + 1, p => by
    have ih := broken_wfs cx n
    have h1 : atWord (Inl.print .br).getLast? = false := by decide
    have h2 : doubled.contains 'a' = false := by decide
    simp only [brokenLines, wfs, Inl.wf, ih, pairHere, urlHere, h1, h2]
    rfl

/-- the second item of the list below -/
def brokenItem (n : Nat) : Item := ⟨List.replicate n '*', .bullet, .chr 'a' :: brokenLines n⟩

theorem replicate_flatten_mem {x : Char} {w : Str} {n : Nat} (h : x ∈ (List.replicate n w).flatten) : x ∈ w := by
  obtain ⟨l, h1, h2⟩ := List.mem_flatten.mp h
  rw [(List.mem_replicate.mp h1).2] at h2
  exact h2

theorem brokenItem_ok (cx : Ctx) (n : Nat) : (brokenItem n).ok cx = true := by
  have h1 : atWord (none : Option Char) = true := rfl
  have h2 : doubled.contains 'a' = false := by decide
  have h3 : ∀ t, startsUrl ('a' :: t) = false := by
    intro t
    simp [startsUrl, protocols, List.isPrefixOf]
  have hl : ((brokenItem n).text.getLast?) = some (.chr 'a') := by
    show (Inl.chr 'a' :: brokenLines n).getLast? = _
    induction n with
    | zero => rfl
    | succ n ih => rw [brokenLines, List.getLast?_cons_cons, List.getLast?_cons_cons]; exact ih
  have hp : prints (brokenItem n).text = 'a' :: (List.replicate n c!"\\\\a").flatten := by
    rw [← broken_prints]; rfl
  have hla : ('a' :: (List.replicate n c!"\\\\a").flatten).getLast? = some 'a' := by
    induction n with
    | zero => rfl
    | succ n ih => rw [List.replicate_succ', List.flatten_append, ← List.cons_append, List.getLast?_append]; rfl
  have hmem : ∀ x, x ∈ 'a' :: (List.replicate n c!"\\\\a").flatten → x = 'a' ∨ x = '\\' := by
    intro x hx
    rcases List.mem_cons.mp hx with h | h
    · exact .inl h
    · have := replicate_flatten_mem h
      simp at this
      rcases this with h | h
      · exact .inr h
      · exact .inl h
  unfold Item.ok
  rw [hl, hp]
  simp only [Bool.and_eq_true]
  refine ⟨⟨⟨?_, ?_⟩, ?_⟩, rfl⟩
  · simp [brokenItem]
  · show wfs cx none (.chr 'a' :: brokenLines n) = true
    simp only [wfs, broken_wfs, Inl.wf, pairHere, urlHere, h1, h2, h3]
    rfl
  · unfold trimmed
    simp only [hla, Bool.and_eq_true, Bool.not_eq_true']
    refine ⟨⟨by decide, by decide⟩, ?_⟩
    rw [← Bool.not_eq_true, List.contains_iff_mem]
    intro h
    rcases hmem _ h with h | h <;> cases h

theorem broken_htmls (cx : Ctx) (br : Str) : ∀ n, n * br.length ≤ (htmls cx br (brokenLines n)).length
  | 0 => by simp
  | n + 1 => by
    have := broken_htmls cx br n
    simp only [brokenLines, htmls, List.length_append, Nat.add_mul, Inl.html]
    omega

theorem mayCall_lt {n s : Str} (h : '<' ∉ s) : mayCall n s = false := by
  cases hc : mayCall n s with
  | false => rfl
  | true =>
    obtain ⟨a, b, hs⟩ := mayCall_mark hc
    exact absurd (by rw [← hs]; simp) h

theorem itemsHtml_one (cx : Ctx) (opened : List (Mark × Nat)) (j : Item) : ∃ a b, itemsHtml cx opened [j] = a ++ (j.html cx ++ b) := by
  unfold itemsHtml
  split
  · split
    · exact ⟨_, _, List.append_assoc _ _ _⟩
    · exact ⟨_, _, List.append_assoc _ _ _⟩
  · exact ⟨_, _, List.append_assoc _ _ _⟩

/-- **C96.** Linear would be wrong: there are texts of at most `4 * n + 7` characters whose HTML has at least `n * n` characters. -/
theorem C96_size_limits (o : Opts) (n : Nat) : ∃ markup html, markup.length ≤ 4 * n + 7 ∧ mayCall c!"toc" markup = false ∧
    creole2html o markup = .ok html ∧ n * n ≤ html.length := by
  let i : Item := ⟨[], .bullet, [.chr 'a']⟩
  have hl1 : i.line = c!"* a" := rfl
  have hl2 : (brokenItem n).line = List.replicate n '*' ++ (c!"* a" ++ (List.replicate n c!"\\\\a").flatten) := by rw [← broken_prints]; rfl
  have hmem : ∀ l ∈ [i.line, (brokenItem n).line], ∀ c ∈ l, c ∈ c!"* a\\" := by
    intro l hl c hc
    simp only [List.mem_cons, List.not_mem_nil, or_false] at hl
    rcases hl with rfl | rfl
    · rw [hl1] at hc; simp at hc ⊢; rcases hc with h | h | h <;> simp [h]
    · rw [hl2] at hc
      simp only [List.mem_append] at hc
      rcases hc with h | h | h
      · rw [(List.mem_replicate.mp h).2]; decide
      · simp at h ⊢; rcases h with h | h | h <;> simp [h]
      · have := replicate_flatten_mem h
        simp at this ⊢; rcases this with h | h <;> simp [h]
  refine ⟨joinLines c!"\n" [i.line, (brokenItem n).line], listHtml { strict := o.strict } i [brokenItem n], ?_, ?_, ?_, ?_⟩
  · have : ((List.replicate n c!"\\\\a").flatten).length = n * 3 := by simp
    simp only [joinLines, hl1, hl2, List.length_append, List.length_replicate, this, List.length_cons, List.length_nil]
    omega
  · refine mayCall_lt fun h => ?_
    simp only [joinLines, List.mem_append] at h
    rcases h with (h | h) | h
    · exact absurd (hmem _ (by simp) _ h) (by decide)
    · exact absurd h (by decide)
    · exact absurd (hmem _ (by simp) _ h) (by decide)
  · have := C15_list o [] (joinLines c!"\n" [i.line, (brokenItem n).line]) i [brokenItem n] [] { strict := o.strict } (ReadWith.plain o []) rfl
      (by
        rw [List.all_cons, List.all_cons, brokenItem_ok]
        have : ∀ b, i.ok { strict := b } = true := by decide
        rw [this]; rfl) rfl (by
        rw [textLines_joinLines _ (.inl rfl) _ (by simp)]
        · rfl
        · intro l hl c hc
          have := hmem l hl c hc
          constructor <;> rintro rfl <;> exact absurd this (by decide))
    unfold creole2html
    rw [this]
    rfl
  · have h1 := broken_htmls { strict := o.strict } (c!"<br />\n" ++ indentTabs (n + 1)) n
    have h2 : n * n ≤ n * (c!"<br />\n" ++ indentTabs (n + 1)).length := Nat.mul_le_mul_left _ (by simp [indentTabs]; omega)
    have h3 : ∃ a b, listHtml { strict := o.strict } i [brokenItem n] =
        a ++ (htmls { strict := o.strict } (c!"<br />\n" ++ indentTabs (n + 1)) (brokenLines n) ++ b) := by
      obtain ⟨a, b, h⟩ := itemsHtml_one { strict := o.strict } [(i.kind, i.level)] (brokenItem n)
      have e : (brokenItem n).html { strict := o.strict } = c!"\n" ++ indentTabs (n + 1) ++ c!"<li>" ++
          (textHtml c!"a" ++ htmls { strict := o.strict } (c!"<br />\n" ++ indentTabs (n + 1)) (brokenLines n)) := by
        simp only [Item.html, Item.level, brokenItem, List.length_replicate, htmls, Inl.html]
      refine ⟨c!"<" ++ i.kind.tag ++ c!">" ++ i.html { strict := o.strict } ++ a ++ (c!"\n" ++ indentTabs (n + 1) ++ c!"<li>" ++ textHtml c!"a"), b, ?_⟩
      rw [listHtml, h, e]
      simp only [List.append_assoc]
    obtain ⟨a, b, h3⟩ := h3
    rw [h3, List.length_append, List.length_append]
    omega

end Verif.Props
