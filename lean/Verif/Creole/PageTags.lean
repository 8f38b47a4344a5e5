import Verif.Creole.PageToc
import Verif.Props.Toc

/-!
# The placeholder of the table of contents occurs once
-/

namespace Verif.Creole

open Verif Re Py Spec Spec.Cr

variable {cx : Ctx}

theorem noDouble_append : ∀ {a b : Str}, noDouble a = true → noDouble b = true → noDouble (a ++ b) = true
  | [], _, _, hb => hb
  | [c], b, ha, hb => by
    simp only [noDouble, List.head?_nil, Option.any_none, Bool.and_true, Bool.or_false] at ha
    rw [List.cons_append, noDouble, ha, Bool.true_or, Bool.true_and]
    exact hb
  | c :: d :: a, b, ha, hb => by
    rw [noDouble, Bool.and_eq_true] at ha
    rw [List.cons_append, noDouble, Bool.and_eq_true]
    exact ⟨ha.1, noDouble_append ha.2 hb⟩

theorem noDouble_of {s : Str} (h : '<' ∉ s) : noDouble s = true := by
  induction s with
  | nil => rfl
  | cons c s ih =>
    simp only [List.mem_cons, not_or] at h
    rw [noDouble, ih h.2, Bool.and_true, Bool.or_eq_true]
    left
    simp only [bne_iff_ne, ne_eq]
    exact fun e => h.1 e.symm

theorem noDouble_tail {c : Char} {s : Str} (h : noDouble (c :: s) = true) : noDouble s = true := by
  rw [noDouble, Bool.and_eq_true] at h; exact h.2

theorem noDouble_flatMap {α : Type} {f : α → Str} : ∀ {l : List α}, (∀ x ∈ l, noDouble (f x) = true) → noDouble (l.flatMap f) = true
  | [], _ => rfl
  | x :: l, h => by
    rw [List.flatMap_cons]
    exact noDouble_append (h x (by simp)) (noDouble_flatMap fun y hy => h y (by simp [hy]))

theorem textHtml_lt (s : Str) : '<' ∉ textHtml s := by
  unfold textHtml
  intro h
  rw [List.mem_flatMap] at h
  obtain ⟨c, _, h⟩ := h
  revert h
  unfold textChar
  split
  · decide
  · split
    · decide
    · split
      · decide
      · rename_i h1 h2
        simp only [List.mem_singleton]
        exact fun h => h1 h.symm

theorem attrHtml_lt (s : Str) : '<' ∉ attrHtml s := by
  unfold attrHtml
  intro h
  rw [List.mem_flatMap] at h
  obtain ⟨c, _, h⟩ := h
  split at h
  · revert h; decide
  · have := textHtml_lt [c]
    simp only [textHtml, List.flatMap_cons, List.flatMap_nil, List.append_nil] at this
    exact this h

theorem decimal_lt (n : Nat) : '<' ∉ decimal n := by
  intro h
  have := natDigits_all n '<' h
  exact absurd this (by decide)

theorem nd_text (s : Str) : noDouble (textHtml s) = true := noDouble_of (textHtml_lt s)
theorem nd_attr (s : Str) : noDouble (attrHtml s) = true := noDouble_of (attrHtml_lt s)
theorem nd_dec (n : Nat) : noDouble (decimal n) = true := noDouble_of (decimal_lt n)
theorem nd_tabs (n : Nat) : noDouble (indentTabs n) = true := noDouble_of (by
  intro h; unfold indentTabs at h; rw [List.mem_replicate] at h; exact absurd h.2 (by decide))

/-- `<` before a text that begins with another character and contains no further `<` -/
theorem nd_lt {s : Str} (h : ∀ c, s.head? = some c → c ≠ '<') (hne : s ≠ []) (hs : noDouble s = true) : noDouble ('<' :: s) = true := by
  cases s with
  | nil => exact absurd rfl hne
  | cons c s =>
    rw [noDouble, hs, Bool.and_true, Bool.or_eq_true]
    right
    simpa using h c rfl

macro "nd" : tactic => `(tactic| (repeat (first | exact nd_text _ | exact nd_attr _ | exact nd_dec _ | exact nd_tabs _ | assumption | decide | refine noDouble_append ?_ ?_)))

theorem nd_link {t i : Str} (h : noDouble i = true) : noDouble (linkHtml t i) = true := by unfold linkHtml; nd

theorem nd_img {t i s : Str} (h : noDouble s = true) : noDouble (imgHtml t i s) = true := by unfold imgHtml; nd

theorem nd_call (hm : ∀ c s, cx.mac c = some s → noDouble s = true) (c : Call) : noDouble (cx.call c) = true := by
  unfold Ctx.call
  cases h : cx.mac c with
  | none => rfl
  | some s => exact hm c s h

mutual
theorem nd_html (hm : ∀ c s, cx.mac c = some s → noDouble s = true) : ∀ (i : Inl) {br : Str}, noDouble br = true → noDouble (i.html cx br) = true
  | .chr c, _, _ => nd_text _
  | .esc c, _, _ => nd_text _
  | .face f l, _, _ => by
    have := nd_htmls hm l (br := c!"<br />\n") (by decide)
    rw [Inl.html]
    have e : c!"<" ++ f.tag ++ c!">" ++ htmls cx c!"<br />\n" l ++ c!"</" ++ f.tag ++ c!">" =
      (c!"<" ++ f.tag ++ c!">") ++ (htmls cx c!"<br />\n" l ++ (c!"</" ++ f.tag ++ c!">")) := by simp
    rw [e]
    refine noDouble_append ?_ (noDouble_append this ?_)
    · cases f <;> decide
    · cases f <;> decide
  | .link t [], _, _ => nd_link (nd_text _)
  | .link t (i :: l), _, _ => nd_link (noDouble_append (nd_html hm i (by decide)) (nd_htmls hm l (by decide)))
  | .image t [], _, _ => nd_img rfl
  | .image t (c :: s), _, _ => nd_img rfl
  | .sized t s w h, _, _ => by
    rw [Inl.html]
    split
    · exact nd_img rfl
    · refine nd_img ?_; nd
  | .nowiki s, _, _ => by rw [Inl.html]; nd
  | .br, _, h => h
  | .url s, _, _ => nd_link (nd_text _)
  | .escUrl s, _, _ => nd_text _
  | .mac n a, _, _ => nd_call hm _
  | .macText n a t, _, _ => nd_call hm _
theorem nd_htmls (hm : ∀ c s, cx.mac c = some s → noDouble s = true) : ∀ (l : List Inl) {br : Str}, noDouble br = true → noDouble (htmls cx br l) = true
  | [], _, _ => rfl
  | i :: l, _, h => noDouble_append (nd_html hm i h) (nd_htmls hm l h)
end

theorem nd_para (hm : ∀ c s, cx.mac c = some s → noDouble s = true) {nl : Str} (h : noDouble nl = true) : ∀ ls : List (List Inl), noDouble (paraHtml cx nl ls) = true
  | [] => rfl
  | [l] => nd_htmls hm l (by decide)
  | l :: m :: ls => by
    rw [paraHtml]
    refine noDouble_append (noDouble_append (nd_htmls hm l (by decide)) ?_) (nd_para hm h (m :: ls))
    split
    · rfl
    · exact h

theorem nd_item (hm : ∀ c s, cx.mac c = some s → noDouble s = true) (i : Item) : noDouble (i.html cx) = true := by
  unfold Item.html
  have : noDouble (htmls cx (c!"<br />\n" ++ indentTabs (i.level + 1)) i.text) = true := nd_htmls hm _ (by nd)
  nd

theorem nd_endList (x : Mark × Nat) : noDouble (endList x) = true := by
  obtain ⟨m, n⟩ := x
  unfold endList
  simp only [List.append_assoc]
  refine noDouble_append (by decide) (noDouble_append (nd_tabs _) ?_)
  cases m <;> decide

theorem nd_items (hm : ∀ c s, cx.mac c = some s → noDouble s = true) : ∀ (l : List Item) (S : List (Mark × Nat)), noDouble (itemsHtml cx S l) = true
  | [], S => by rw [itemsHtml]; exact noDouble_flatMap fun x _ => nd_endList x
  | i :: l, S => by
    have h := nd_item hm i
    have ho : noDouble (c!"<" ++ (i.kind.tag ++ (c!">" ++ (i.html cx ++ itemsHtml cx ((i.kind, i.level) :: S) l)))) = true := by
      have h2 := nd_items hm l ((i.kind, i.level) :: S)
      rw [← List.append_assoc, ← List.append_assoc]
      refine noDouble_append ?_ (noDouble_append h h2)
      cases i.kind <;> decide
    rw [itemsHtml]
    split
    · split
      · have h2 := nd_items hm l
        refine noDouble_append (noDouble_append (noDouble_append (noDouble_flatMap fun x _ => nd_endList x) (by decide)) h) (h2 _)
      · simp only [List.append_assoc]
        exact noDouble_append (by decide) (noDouble_append (nd_tabs _) ho)
    · simp only [List.append_assoc]
      exact noDouble_append (by decide) (noDouble_append (nd_tabs _) ho)

theorem nd_cell (hm : ∀ c s, cx.mac c = some s → noDouble s = true) (c : Cell) : noDouble (c.html cx) = true := by
  cases c with
  | td l text r =>
    have : noDouble (htmls cx c!"<br />\n\t\t" text) = true := nd_htmls hm _ (by decide)
    unfold Cell.html; nd
  | th l m text r =>
    have : noDouble (htmls cx c!"<br />\n\t\t" text) = true := nd_htmls hm _ (by decide)
    unfold Cell.html; nd

theorem nd_head (b : Bool) (n : Nat) (title : Str) : noDouble (headHtml b n title) = true := by
  have h : noDouble (c!"<h" ++ decimal n ++ c!">" ++ textHtml title ++ c!"</h" ++ decimal n ++ c!">") = true := by nd
  unfold headHtml
  cases b
  · exact h
  · simp only [if_true]
    refine noDouble_append (noDouble_append ?_ h) (by decide)
    nd

theorem nd_block (hm : ∀ c s, cx.mac c = some s → noDouble s = true) (blog : Bool) (b : Block) : noDouble (b.html cx blog) = true := by
  cases b with
  | para ls =>
    have : noDouble (paraHtml cx (if blog then c!"<br />\n" else c!" ") ls) = true := nd_para hm (by cases blog <;> decide) ls
    unfold Block.html; nd
  | head n pad title tail => exact nd_head _ _ _
  | hr => rw [Block.html]; decide
  | pre ls =>
    have : noDouble (ls.flatMap (fun l => textHtml (preLine l) ++ c!"\n")) = true := noDouble_flatMap fun l _ => by nd
    unfold Block.html; nd
  | list i l =>
    unfold Block.html listHtml
    have h1 := nd_item hm i
    have h2 := nd_items hm l [(i.kind, i.level)]
    refine noDouble_append (noDouble_append ?_ h1) h2
    cases i.kind <;> decide
  | table rows =>
    have : noDouble (rows.flatMap (rowHtml cx)) = true := noDouble_flatMap fun r _ => by
      have : noDouble (r.flatMap (Cell.html cx)) = true := noDouble_flatMap fun c _ => nd_cell hm c
      unfold rowHtml; nd
    unfold Block.html; nd
  | mac n a ts => exact nd_call hm _

theorem nd_gap (b : Block) (gap : List Str) : noDouble (gapHtml b gap) = true := by
  cases b <;> simp only [gapHtml] <;> (repeat' split) <;> decide

theorem nd_chunk (hm : ∀ c s, cx.mac c = some s → noDouble s = true) (blog : Bool) (toc : Str) {c : Chunk} (h : c.isToc = false) : noDouble (c.html cx blog toc) = true := by
  cases c with
  | block b => exact nd_block hm blog b
  | call n a =>
    have hn : n ≠ c!"toc" := by simpa [Chunk.isToc] using h
    have := nd_call hm (lineCall n a)
    simp only [Chunk.html, if_neg hn]; nd

/-- the HTML before the first call for the table of contents, and the HTML behind it -/
theorem tail_split (blog : Bool) {gap : List Str} {a : Str} {d2 : Page} : ∀ {d1 : Page} {b : Block}, hasToc d1 = false → ∃ pre post : Str,
    (∀ toc, pageTail cx blog toc b (d1 ++ (gap, .call c!"toc" a) :: d2) = pre ++ toc ++ post) ∧
    ((∀ c s, cx.mac c = some s → noDouble s = true) → noDouble pre = true)
  | [], b, _ => by
    refine ⟨gapHtml b gap, pageTail cx blog tocAgain (.para [[.chr 'x']]) d2, ?_, fun _ => nd_gap b gap⟩
    intro toc
    rw [List.nil_append, pageTail]
    simp only [Chunk.html, Chunk.isToc, if_true, beq_self_eq_true, Chunk.like]
  | (g, c) :: d1, b, h => by
    simp only [hasToc, List.any_cons, Bool.or_eq_false_iff] at h
    obtain ⟨pre, post, h1, h2⟩ := tail_split blog (gap := gap) (a := a) (d2 := d2) (d1 := d1) (b := c.like) h.2
    have hx : ∀ toc, c.html cx blog toc = c.html cx blog [] := by
      intro toc
      cases c with
      | block b => rfl
      | call n a =>
        have hn : n ≠ c!"toc" := by simpa [Chunk.isToc] using h.1
        simp only [Chunk.html, if_neg hn]
    refine ⟨gapHtml b g ++ c.html cx blog [] ++ pre, post, ?_, fun hm => noDouble_append (noDouble_append (nd_gap b g) (nd_chunk hm blog _ h.1)) (h2 hm)⟩
    intro toc
    rw [List.cons_append, pageTail, h.1, hx]
    simp only [Bool.false_eq_true, if_false, h1]
    simp

theorem body_split (blog : Bool) {gap : List Str} {a : Str} {d1 d2 : Page} (h : hasToc d1 = false) : ∃ pre post : Str,
    (∀ toc, pageBody cx blog toc (d1 ++ (gap, .call c!"toc" a) :: d2) = pre ++ toc ++ post) ∧
    ((∀ c s, cx.mac c = some s → noDouble s = true) → noDouble pre = true) := by
  cases d1 with
  | nil =>
    refine ⟨[], pageTail cx blog tocAgain (.para [[.chr 'x']]) d2, ?_, fun _ => rfl⟩
    intro toc
    rw [List.nil_append, pageBody]
    simp only [Chunk.html, Chunk.isToc, if_true, beq_self_eq_true, Chunk.like]
    rfl
  | cons x d1 =>
    obtain ⟨g, c⟩ := x
    simp only [hasToc, List.any_cons, Bool.or_eq_false_iff] at h
    obtain ⟨pre, post, h1, h2⟩ := tail_split (cx := cx) blog (gap := gap) (a := a) (d2 := d2) (d1 := d1) (b := c.like) h.2
    have hx : ∀ toc, c.html cx blog toc = c.html cx blog [] := by
      intro toc
      cases c with
      | block b => rfl
      | call n a =>
        have hn : n ≠ c!"toc" := by simpa [Chunk.isToc] using h.1
        simp only [Chunk.html, if_neg hn]
    refine ⟨c.html cx blog [] ++ pre, post, ?_, fun hm => noDouble_append (nd_chunk hm blog _ h.1) (h2 hm)⟩
    intro toc
    rw [List.cons_append, pageBody, h.1, hx]
    simp only [Bool.false_eq_true, if_false, h1]
    simp

/-- stripping a text with something between -/
theorem strip_mid {pre post : Str} : ∃ pre' post' : Str, (∀ m : Str, (∃ c d, m.head? = some c ∧ m.getLast? = some d ∧ isSpace c = false ∧ isSpace d = false) →
    strip (pre ++ m ++ post) = pre' ++ m ++ post') ∧ (∃ w, pre = w ++ pre') := by
  refine ⟨pre.dropWhile isSpace, dropEndWhile isSpace post, ?_, ⟨pre.takeWhile isSpace, (List.takeWhile_append_dropWhile).symm⟩⟩
  rintro m ⟨c, d, hc, hd, hcs, hds⟩
  obtain ⟨r, hr, hrs⟩ := dropEnd_parts post
  have hne : m ≠ [] := by rintro rfl; simp at hc
  have e : pre ++ m ++ post = pre.takeWhile isSpace ++ (pre.dropWhile isSpace ++ m ++ dropEndWhile isSpace post) ++ r := by
    rw [show pre.takeWhile isSpace ++ (pre.dropWhile isSpace ++ m ++ dropEndWhile isSpace post) ++ r =
      (pre.takeWhile isSpace ++ pre.dropWhile isSpace) ++ m ++ (dropEndWhile isSpace post ++ r) by simp only [List.append_assoc], List.takeWhile_append_dropWhile, ← hr]
  rw [e, strip_pad (fun c hc => takeWhile_true hc) hrs]
  refine strip_id ?_ ?_
  · intro x hx
    cases hp : pre.dropWhile isSpace with
    | nil =>
      rw [hp, List.nil_append] at hx
      cases m with
      | nil => exact absurd rfl hne
      | cons y m =>
        simp only [List.cons_append, List.head?_cons, Option.some.injEq] at hx hc
        rw [← hx, hc]; exact hcs
    | cons y p =>
      rw [hp] at hx
      simp only [List.cons_append, List.head?_cons, Option.some.injEq] at hx
      rw [← hx]
      exact dropWhile_head_false (p := isSpace) _ y (by rw [hp]; rfl)
  · intro x hx
    rw [List.getLast?_append] at hx
    cases hp : (dropEndWhile isSpace post).getLast? with
    | none =>
      rw [hp, Option.none_or, List.getLast?_append, hd] at hx
      simp only [Option.some_or, Option.some.injEq] at hx
      rw [← hx]; exact hds
    | some y =>
      rw [hp] at hx
      simp only [Option.some_or, Option.some.injEq] at hx
      rw [← hx]
      exact dropEndWhile_getLast post y hp

theorem noDouble_suffix {w s : Str} (h : noDouble (w ++ s) = true) : noDouble s = true := by
  induction w with
  | nil => exact h
  | cons c w ih => exact ih (noDouble_tail h)

theorem replace_here {html post : Str} : ∀ {pre : Str}, noDouble pre = true → replaceFirst tocHere html (pre ++ tocHere ++ post) = pre ++ html ++ post
  | [], _ => by
    have : (tocHere).isPrefixOf ([] ++ tocHere ++ post) = true := by rw [List.isPrefixOf_iff_prefix, List.nil_append]; exact List.prefix_append _ _
    have e : [] ++ tocHere ++ post = '<' :: (c!"p><<toc>></p>" ++ post) := rfl
    rw [e] at this ⊢
    unfold replaceFirst
    rw [if_pos this]
    rfl
  | c :: pre, h => by
    have hn : ¬ (tocHere).isPrefixOf (c :: (pre ++ tocHere ++ post)) = true := by
      intro hp
      rw [List.isPrefixOf_iff_prefix] at hp
      obtain ⟨t, ht⟩ := hp
      simp only [tocHere] at ht
      match pre, h, ht with
      | [], h, ht => simp at ht
      | [a], h, ht => simp at ht
      | [a, b], h, ht => simp at ht
      | [a, b, d], h, ht => simp at ht
      | a :: b :: d :: e :: pre, h, ht => simp at ht; obtain ⟨rfl, rfl, rfl, rfl, rfl, _⟩ := ht; simp [noDouble] at h
    rw [List.cons_append, List.cons_append]
    unfold replaceFirst
    rw [if_neg hn]
    rw [replace_here (noDouble_tail h)]
    rfl

end Verif.Creole
