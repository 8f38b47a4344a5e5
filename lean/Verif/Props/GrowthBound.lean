import Verif.Emit.GrowCut
import Verif.Emit.GrowRest
import Verif.Props.Growth
import Verif.Props.ParseFaults

/-!
# C98: how large the results of the converters from HTML can become at most
-/

namespace Verif.Emit.Gr

open Verif Py Html

theorem strip_len (s : Str) : (strip s).length ≤ s.length := (Props.strip_sublist s).length_le

theorem stripTag_len (m : Match SG) : (stripTag m).length ≤ m.text.length + 2 := by
  have h := strip_len m.text
  unfold stripTag
  dsimp only
  (repeat' split) <;> (try simp only [List.length_append, List.length_cons, List.length_nil]) <;> omega

/-- the text a segment is replaced with -/
def segText {γ : Type} (f : Match γ → Str) : Seg γ → Str
  | .skip c => [c]
  | .hit m => f m

theorem sub_eq {γ : Type} [DecidableEq γ] (r : Re γ) (f : Match γ → Str) (s : Str) : r.sub f s = (r.scan s).flatMap (segText f) := by
  rfl

theorem flat_len {γ : Type} (f : Match γ → Str) : ∀ l : List (Seg γ), (∀ m, Seg.hit m ∈ l → (f m).length ≤ 3 * m.text.length) →
    (l.flatMap (segText f)).length ≤ 3 * (l.flatMap Seg.text).length
  | [], _ => Nat.le_refl _
  | .skip c :: l, h => by
    have := flat_len f l fun m hm => h m (by simp [hm])
    simp only [List.flatMap_cons, List.length_append, Seg.text, segText, List.length_cons, List.length_nil]
    omega
  | .hit m :: l, h => by
    have := flat_len f l fun m hm => h m (by simp [hm])
    have := h m (by simp)
    simp only [List.flatMap_cons, List.length_append, Seg.text, segText]
    omega

theorem splitChar_len (c : Char) : ∀ s : Str, ((splitChar c s).map (fun t => t.length + 1)).sum = s.length + 1
  | [] => rfl
  | d :: s => by
    have ih := splitChar_len c s
    rw [splitChar]
    split
    · rw [List.map_cons, List.sum_cons, ih, List.length_cons, List.length_nil]; omega
    · split
      · next h => rw [h] at ih; simp at ih
      · next l ls h =>
        rw [h] at ih
        simp only [List.map_cons, List.sum_cons, List.length_cons] at *
        omega

theorem joinStripped_len (s : Str) : (joinStripped s).length ≤ s.length + 1 := by
  unfold joinStripped
  refine Nat.le_trans (join_len (k := 1) (by decide) _) ?_
  rw [← splitChar_len '\n' s, List.map_map]
  generalize splitChar '\n' s = l
  induction l with
  | nil => exact Nat.le_refl _
  | cons a l ih =>
    have := strip_len a
    simp only [List.map_cons, List.sum_cons, Function.comp] at *
    omega

theorem stripHtml_len (s : Str) : (stripHtml s).length ≤ 3 * (s.length + 1) := by
  unfold stripHtml
  rw [sub_eq]
  have h1 := joinStripped_len (strip s)
  have h2 := strip_len s
  have h3 := flat_len stripTag (stripRe.scan (joinStripped (strip s))) (by
    intro m hm
    have hf : m ∈ stripRe.findAll (joinStripped (strip s)) := by
      unfold Re.findAll
      rw [List.mem_filterMap]
      exact ⟨_, hm, rfl⟩
    obtain ⟨pre, rest, prev, s', h1, h2, h3, h4, h5⟩ := (Re.findAll_hit hf).ex
    have hr := Re.res_room (b := fun _ => none) (by decide) h2
    have e : stripRe.spare (fun _ => none) = 3 := by decide
    have h0 := capSum_nonneg (b := fun _ : SG => none) (by intro g x h; cases h) s'.caps
    rw [e, h4] at hr
    simp only [capSum, List.length_append] at hr
    have := stripTag_len m
    omega)
  rw [Re.scan_text] at h3
  omega

/-- a text without `<pre>` has no preformatted parts -/
theorem preprocess_plain {raw : Str} (h : ¬ c!"<pre>" <:+: raw) : preprocess raw = (stripHtml (strip raw), []) := by
  have hn : ∀ u r, strip raw ≠ u ++ (c!"<pre>" ++ r) := by
    intro u r e
    apply h
    have h1 : c!"<pre>" <:+: strip raw := ⟨u, r, by rw [e, List.append_assoc]⟩
    obtain ⟨w, hw, _⟩ := dropEndWhile_tail (p := isSpace) (lstrip raw)
    have h2 : strip raw <:+: lstrip raw := ⟨[], w, hw.symm⟩
    exact h1.trans (h2.trans (List.dropWhile_suffix _).isInfix)
  unfold preprocess
  have hb : cutSegs (blockRe.scan (strip raw)) [] = (strip raw, []) :=
    cutSegs_none (by decide) _ _ _ fun u t p e => blockRe_none fun r hr => hn u r (by rw [e, hr])
  have hi : cutSegs (inlineRe.scan (strip raw)) [] = (strip raw, []) :=
    cutSegs_none (by decide) _ _ _ fun u t p e => inlineRe_none fun r hr => hn u r (by rw [e, hr])
  simp only [hb, hi]

theorem blockRe_cut {s : Str} (m : Match PG) (h : Seg.hit m ∈ blockRe.scan s) : Cut m := cut_hit (by decide) (by decide) (by decide) h
theorem inlineRe_cut {s : Str} (m : Match PG) (h : Seg.hit m ∈ inlineRe.scan s) : Cut m := cut_hit (by decide) (by decide) (by decide) h

/-- the preprocessed text and the preformatted parts -/
theorem preprocess_size (raw : Str) : ∃ D, 1 ≤ D ∧ D * D ≤ 4 * (raw.length + 1) ∧
    (preprocess raw).1.length ≤ 3 * (raw.length + raw.length * (35 + D) + 1) ∧
    ∀ c ∈ (preprocess raw).2, c.length ≤ raw.length + raw.length * (35 + D) := by
  obtain ⟨D, d1, d2, d3⟩ := digits_root raw.length
  refine ⟨D, d1, d3, ?_⟩
  have hD : ∀ j, j ≤ raw.length → (natDigits j).length ≤ D := fun j hj => Creole.natDigits_len d1 (Nat.lt_of_le_of_lt hj d2)
  unfold preprocess
  have h0 := strip_len raw
  have hcnt : (strip raw).count '<' ≤ (strip raw).length := List.count_le_length
  dsimp only
  cases e1 : cutSegs (blockRe.scan (strip raw)) [] with
  | mk s1 b1 =>
    dsimp only
    cases e2 : cutSegs (inlineRe.scan s1) b1 with
    | mk s2 b2 =>
      dsimp only
      have t1 := Re.scan_text blockRe (strip raw)
      have t2 := Re.scan_text inlineRe s1
      obtain ⟨p1, p2, p3⟩ := cutSegs_size hD blockRe_cut e1 (by rw [t1, List.length_nil]; omega)
      rw [t1, List.length_nil] at p1
      rw [t1, List.length_nil] at p2
      rw [t1] at p3
      obtain ⟨q1, q2, q3⟩ := cutSegs_size hD inlineRe_cut e2 (by rw [t2]; omega)
      rw [t2] at q1 q2 q3
      have m1 : b1.length * (35 + D) ≤ raw.length * (35 + D) := Nat.mul_le_mul_right _ (by omega)
      have m2 : b2.length * (35 + D) ≤ raw.length * (35 + D) := Nat.mul_le_mul_right _ (by omega)
      refine ⟨?_, ?_⟩
      · have := stripHtml_len s2
        omega
      · intro c hc
        rcases q3 c hc with h | h
        · rcases p3 c h with h | h
          · cases h
          · omega
        · omega

theorem cube_room {n D : Nat} (h1 : 1 ≤ D) (h2 : D * D ≤ 4 * (n + 1)) :
    250 * (9 + (10 + (n + n * (35 + D))) * (9 * (n + n * (35 + D) + 1))) ≤ (300 * (n + 1)) ^ 3 := by
  have a1 : n + n * (35 + D) + 1 ≤ 37 * (D * (n + 1)) := by
    have : n * (35 + D) ≤ n * (36 * D) := Nat.mul_le_mul_left _ (by omega)
    have e1 : n * (36 * D) = 36 * (D * n) := by rw [Nat.mul_left_comm, Nat.mul_comm n D]
    have e2 : D * (n + 1) = D * n + D := by rw [Nat.mul_add, Nat.mul_one]
    have : n ≤ D * n := Nat.le_mul_of_pos_left _ h1
    omega
  have a2 : 10 + (n + n * (35 + D)) ≤ 47 * (D * (n + 1)) := by
    have : 1 ≤ D * (n + 1) := Nat.mul_pos h1 (Nat.succ_pos n)
    omega
  have a3 : (10 + (n + n * (35 + D))) * (9 * (n + n * (35 + D) + 1)) ≤ (47 * (D * (n + 1))) * (9 * (37 * (D * (n + 1)))) :=
    Nat.mul_le_mul a2 (Nat.mul_le_mul_left _ a1)
  have a4 : (47 * (D * (n + 1))) * (9 * (37 * (D * (n + 1)))) = 15651 * ((D * D) * ((n + 1) * (n + 1))) := by
    rw [show D * D * ((n + 1) * (n + 1)) = (D * (n + 1)) * (D * (n + 1)) by ac_rfl]
    generalize D * (n + 1) = x
    rw [show 47 * x * (9 * (37 * x)) = (47 * 9 * 37) * (x * x) by ac_rfl]
  have a5 : (D * D) * ((n + 1) * (n + 1)) ≤ (4 * (n + 1)) * ((n + 1) * (n + 1)) := Nat.mul_le_mul_right _ h2
  have a6 : (4 * (n + 1)) * ((n + 1) * (n + 1)) = 4 * ((n + 1) * ((n + 1) * (n + 1))) := Nat.mul_assoc _ _ _
  have a7 : (300 * (n + 1)) ^ 3 = 27000000 * ((n + 1) * ((n + 1) * (n + 1))) := by
    generalize n + 1 = x
    rw [Nat.pow_succ, Nat.pow_succ, Nat.pow_succ, Nat.pow_zero, Nat.one_mul, show 300 * x * (300 * x) * (300 * x) = (300 * 300 * 300) * (x * (x * x)) by ac_rfl]
  have a8 : 1 ≤ (n + 1) * ((n + 1) * (n + 1)) := Nat.mul_pos (Nat.succ_pos n) (Nat.mul_pos (Nat.succ_pos n) (Nat.succ_pos n))
  rw [a7]
  generalize (n + 1) * ((n + 1) * (n + 1)) = y at *
  omega

/-! ## The root of a parsed text -/

/-- the first node is the document -/
def Headed (s : PSt) : Prop := ∃ l, s.col (fun i => [i]) = ({ kind := c!"document" } : HInfo) :: l

theorem headed_leaf {s : PSt} (h : Headed s) (n : HNode) : Headed (s.leaf n) := by
  cases hl : s.lost with
  | true => rw [leaf_lost hl]; exact h
  | false =>
    obtain ⟨l, hs⟩ := h
    exact ⟨_, by rw [col_leaf _ hl, hs, List.cons_append]⟩

theorem headed_open {s : PSt} (h : Headed s) (i : HInfo) : Headed (s.open i) := by
  cases hl : s.lost with
  | true => rw [open_lost hl]; exact h
  | false =>
    obtain ⟨l, hs⟩ := h
    exact ⟨_, by rw [col_open _ hl, hs, List.cons_append]⟩

theorem headed_up {s : PSt} (h : Headed s) : Headed s.up := by
  unfold Headed; rw [col_up]; exact h
theorem headed_goUp {s : PSt} (h : Headed s) : Headed s.goUp := by
  unfold Headed; rw [col_goUp]; exact h

theorem headed_handle {bd : List Str} {s s' : PSt} (h : Headed s) {e : Event} (he : handle bd s e = .ok s') : Headed s' := by
  cases e with
  | start tag attrs =>
    cases he
    by_cases h1 : tag = c!"tbody"
    · subst h1; rw [handleStart_ignore]; exact h
    · by_cases h2 : tag = c!"img" ∨ tag = c!"br"
      · rw [handleStart_leaf _ _ _ h2]; exact headed_leaf h _
      · rw [handleStart_open _ _ _ (by
          rintro (e | e)
          · exact h1 e
          · exact h2 e)]
        exact headed_open (s := { s with listLevel := if isList tag then s.listLevel + 1 else s.listLevel }) h _
  | end_ tag =>
    cases he
    rw [handleEnd_eq]
    split
    · exact h
    · split
      · exact headed_goUp (s := { s with listLevel := if isList tag then s.listLevel - 1 else s.listLevel }) h
      · exact headed_up h
  | data d => cases he; exact headed_leaf h _
  | charref d => cases he; exact headed_leaf h _
  | entityref d => cases he; exact headed_leaf h _
  | startend tag attrs =>
    rw [handle, handleStartEnd] at he
    split at he
    · obtain ⟨i, hi, he⟩ := ex_bind he
      cases he
      exact headed_leaf h _
    · cases he
      exact headed_leaf h _

theorem headed_events {bd : List Str} : ∀ {evs : List Event} {s s' : PSt}, Headed s → evs.foldlM (handle bd) s = .ok s' → Headed s'
  | [], s, s', h, he => by cases he; exact h
  | e :: evs, s, s', h, he => by
    rw [List.foldlM_cons] at he
    obtain ⟨s1, h1, h2⟩ := ex_bind he
    exact headed_events (headed_handle h h1) h2

/-- the root of a parsed text is the document -/
theorem root_document {bd : List Str} {evs : List Event} {err : Option PyErr} {root : HNode} (h : runEvents bd evs err = .ok root) :
    ∃ i kids, root = .mk i kids ∧ i.kind = c!"document" := by
  unfold runEvents at h
  obtain ⟨s, hs, h⟩ := ex_bind h
  split at h
  · cases h
  · cases h
    obtain ⟨l, hl⟩ := headed_events (s := {}) ⟨[], rfl⟩ hs
    rw [← col_root] at hl
    cases hr : s.root with
    | mk i kids =>
      rw [hr, coll] at hl
      refine ⟨i, kids, rfl, ?_⟩
      have : i = { kind := c!"document" } := (List.cons.inj hl).1
      rw [this]

end Verif.Emit.Gr

namespace Verif.Props

open Verif Py Html Emit Spec.Gw Emit.Gr

/-- **C98**: nested tables are the only cause of the growth of Creole, Textile and Markdown texts: if at most `d` tables are
around each other then a result has at most the size of a polynomial of degree `3 * (d + 2)` in the size of the HTML text, with
any number of headings, lists, links, preformatted parts, unknown tags, ..., in any nesting. -/
theorem C98_polynomial (cfg : Cfg) (html : Str) (root : HNode) (text : Str) (hl : cfg.lang ≠ .rest)
    (hr : parseHtml html = .ok root) (h : convert cfg html = .ok text) :
    text.length ≤ (300 * (html.length + 1)) ^ (3 * (tableDepth root + 2)) := by
  unfold convert at h
  rw [hr] at h
  unfold parseHtml at hr
  obtain ⟨D, d1, d2, d3, d4⟩ := preprocess_size html
  dsimp only at hr
  obtain ⟨h1, h2⟩ := run_size (W := 10 + (html.length + html.length * (35 + D))) (fun c hc => by have := d4 c hc; omega) (Nat.le_add_right _ _) hr
  have h3 : evsSize (tokens (preprocess html).1).1 ≤ 9 * (html.length + html.length * (35 + D) + 1) := by
    have := tokens_len (preprocess html).1
    omega
  have h4 := Nat.mul_le_mul_left (10 + (html.length + html.length * (35 + D))) h3
  refine Nat.le_trans (emit_size hl h1 h2 h) ?_
  rw [Nat.pow_mul]
  refine Nat.pow_le_pow_left (Nat.le_trans ?_ (cube_room d1 d2)) _
  exact Nat.mul_le_mul_left _ (Nat.add_le_add_left h4 _)

/-- **C98**: without preformatted parts the degree is `d + 2`. -/
theorem C98_polynomial_plain (cfg : Cfg) (html : Str) (root : HNode) (text : Str) (hl : cfg.lang ≠ .rest) (hp : ¬ c!"<pre>" <:+: html)
    (hr : parseHtml html = .ok root) (h : convert cfg html = .ok text) :
    text.length ≤ (25000 * (html.length + 1)) ^ (tableDepth root + 2) := by
  unfold convert at h
  rw [hr] at h
  unfold parseHtml at hr
  rw [preprocess_plain hp] at hr
  obtain ⟨h1, h2⟩ := run_size (W := 10) (by simp) (Nat.le_refl _) hr
  have h3 : evsSize (tokens (stripHtml (strip html))).1 ≤ _ := tokens_len (stripHtml (strip html))
  unfold tokens at h3
  have h4 := stripHtml_len (strip html)
  have h5 := strip_len html
  refine Nat.le_trans (emit_size hl h1 h2 h) (Nat.pow_le_pow_left ?_ _)
  omega

/-- a case: a table in a list -/
example : ¬ c!"<pre>" <:+: c!"<ul><li><table><tr><td>a</td></tr></table></li></ul>" ∧
    (∃ root, parseHtml c!"<ul><li><table><tr><td>a</td></tr></table></li></ul>" = .ok root ∧ tableDepth root = 1) ∧
    ∃ text, convert { lang := .creole } c!"<ul><li><table><tr><td>a</td></tr></table></li></ul>" = .ok text ∧ text ≠ [] := by
  refine ⟨fun h => absurd (h.subset (show 'p' ∈ c!"<pre>" by decide)) (by decide), ⟨_, rfl, by decide +kernel⟩, ⟨c!"* | a |", by decide +kernel, by decide⟩⟩

/-- a case with preformatted parts, one of which is used twice -/
example : (∃ root, parseHtml c!"a <pre>x &lt;</pre> b <inlinedata type=pre id=0 />" = .ok root ∧ tableDepth root = 0) ∧
    convert { lang := .textile } c!"a <pre>x &lt;</pre> b <inlinedata type=pre id=0 />" = .ok c!"a <pre>x <</pre> b <pre>x <</pre>" :=
  ⟨⟨_, rfl, by decide +kernel⟩, by decide +kernel⟩

/-- **C98**: what makes ReStructuredText grow are tables, headings (underlined with as many characters as the text has) and lists:
if at most `d` of them (of the lists only those in no other list) are around each other then the result has at most the size of a
polynomial of degree `3 * (d + 3)` in the size of the HTML text, for all HTML texts without tags `<document>`. -/
theorem C98_polynomial_rest (cfg : Cfg) (html : Str) (root : HNode) (text : Str) (hl : cfg.lang = .rest)
    (hr : parseHtml html = .ok root) (hd : noDocumentL root.children = true) (h : convert cfg html = .ok text) :
    text.length ≤ (300 * (html.length + 1)) ^ (3 * (repeatDepth root + 3)) := by
  unfold convert at h
  rw [hr] at h
  unfold parseHtml at hr
  obtain ⟨D, d1, d2, d3, d4⟩ := preprocess_size html
  dsimp only at hr
  obtain ⟨i, kids, rfl, hi⟩ := root_document hr
  obtain ⟨h1, h2⟩ := run_size (W := 10 + (html.length + html.length * (35 + D))) (fun c hc => by have := d4 c hc; omega) (Nat.le_add_right _ _) hr
  have h3 : evsSize (tokens (preprocess html).1).1 ≤ 9 * (html.length + html.length * (35 + D) + 1) := by
    have := tokens_len (preprocess html).1
    omega
  have h4 := Nat.mul_le_mul_left (10 + (html.length + html.length * (35 + D))) h3
  refine Nat.le_trans (emit_size_rest hl hi h1 h2 hd h) ?_
  rw [Nat.pow_mul]
  refine Nat.pow_le_pow_left (Nat.le_trans ?_ (cube_room d1 d2)) _
  exact Nat.mul_le_mul_left _ (Nat.add_le_add_left h4 _)

/-- **C98**: without preformatted parts the degree is `d + 3`. -/
theorem C98_polynomial_rest_plain (cfg : Cfg) (html : Str) (root : HNode) (text : Str) (hl : cfg.lang = .rest) (hp : ¬ c!"<pre>" <:+: html)
    (hr : parseHtml html = .ok root) (hd : noDocumentL root.children = true) (h : convert cfg html = .ok text) :
    text.length ≤ (25000 * (html.length + 1)) ^ (repeatDepth root + 3) := by
  unfold convert at h
  rw [hr] at h
  unfold parseHtml at hr
  rw [preprocess_plain hp] at hr
  obtain ⟨i, kids, rfl, hi⟩ := root_document hr
  obtain ⟨h1, h2⟩ := run_size (W := 10) (by simp) (Nat.le_refl _) hr
  have h3 : evsSize (tokens (stripHtml (strip html))).1 ≤ _ := tokens_len (stripHtml (strip html))
  unfold tokens at h3
  have h4 := stripHtml_len (strip html)
  have h5 := strip_len html
  refine Nat.le_trans (emit_size_rest hl hi h1 h2 hd h) (Nat.pow_le_pow_left ?_ _)
  omega

/-- a case: a heading in the cell of a table, with a link, and a picture in a list -/
example : (∃ root, parseHtml c!"<table><tr><td><h1><a href=\"x\">ab</a></h1></td></tr></table><ul><li><img src=\"y\" alt=\"c\" /></li></ul>" = .ok root ∧
      repeatDepth root = 2 ∧ noDocumentL root.children = true) ∧
    convert { lang := .rest } c!"<table><tr><td><h1><a href=\"x\">ab</a></h1></td></tr></table><ul><li><img src=\"y\" alt=\"c\" /></li></ul>" =
      .ok c!"+---------------------+\n| =====\\\\`ab`_\\\\===== |\n+---------------------+\n\n.. _ab: x\n\n* |c|\n\n.. |c| image:: y" :=
  ⟨⟨_, rfl, by decide +kernel, by decide +kernel⟩, by decide +kernel⟩

end Verif.Props
