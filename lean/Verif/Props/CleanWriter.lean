import Verif.Tools.CleanWriter
import Verif.Props.RestTools

/-!
# C93: images and sections in the clean HTML writer
-/

namespace Verif.Props

open Verif Py Tools

theorem replaceAux_none {old new : Str} {d : Char} (hd : d ∈ old) : ∀ {s : Str}, d ∉ s → replaceAux old new s 0 = s
  | [], _ => rfl
  | c :: s, h => by
    rw [List.mem_cons, not_or] at h
    rw [replaceAux, if_neg ?_, replaceAux_none hd h.2]
    intro hp
    rw [List.isPrefixOf_iff_prefix] at hp
    rcases List.mem_cons.mp (hp.subset hd) with he | hm
    · exact h.1 he
    · exact h.2 hm

theorem replaceAux_skip {old new : Str} : ∀ (a b : Str), replaceAux old new (a ++ b) a.length = replaceAux old new b 0
  | [], b => by simp
  | _ :: a, b => by rw [List.cons_append, List.length_cons, replaceAux]; exact replaceAux_skip a b

/-- ` />` is found at the end of a text without `>`, if it is not in what follows -/
theorem replace_tail {new : Str} {post : Str} (hpost : '>' ∉ post) : ∀ {pre : Str}, '>' ∉ pre →
    replace c!" />" new (pre ++ c!" />" ++ post) = pre ++ new ++ post
  | [], _ => by
    unfold replace
    show replaceAux c!" />" new (' ' :: (c!"/>" ++ post)) 0 = _
    rw [replaceAux, if_pos (by simp [List.isPrefixOf])]
    rw [show (c!" />").length - 1 = (c!"/>").length from rfl, replaceAux_skip, replaceAux_none (d := '>') (by simp) hpost]
    simp
  | c :: pre, h => by
    rw [List.mem_cons, not_or] at h
    have ih := replace_tail (new := new) hpost h.2
    unfold replace at ih ⊢
    rw [show c :: pre ++ c!" />" ++ post = c :: (pre ++ c!" />" ++ post) by simp, replaceAux, if_neg ?_, ih]
    · simp
    · intro hp
      rw [List.isPrefixOf_iff_prefix] at hp
      obtain ⟨t, ht⟩ := hp
      cases pre with
      | nil =>
        simp only [List.nil_append, List.cons_append, List.cons.injEq] at ht
        exact absurd ht.2.1 (by decide)
      | cons d pre =>
        cases pre with
        | nil =>
          simp only [List.nil_append, List.cons_append, List.cons.injEq] at ht
          exact absurd ht.2.2.1 (by decide)
        | cons e pre =>
          simp only [List.cons_append, List.cons.injEq] at ht
          exact h.2 (ht.2.2.1 ▸ by simp)

/-- C93: an image with an alignment (its own, or that of the figure it is in) is written as without it, with the attribute
` align="..."` at the end of its tag.  `attval` of docutils writes no `>`, and the names of the attributes have none.  What was
written before stays as it is. -/
theorem C93_image (attval : Str → Str) (suffix : Str) (attributes : List (Str × AttrVal)) (tag : Str) (before : List Str)
    (n : ImageNode) (align : Str) (hv : ∀ s, '>' ∉ attval s) (hs : '>' ∉ suffix) (hn : ∀ a ∈ attributes, '>' ∉ lowerName a.1)
    (ht : starttag attval c!"img" suffix true attributes = some tag)
    (ha : n.align = some align ∨ n.align = none ∧ n.parentTag = c!"figure" ∧ n.parentAlign = some align) (hne : align ≠ []) :
    ∃ inner, tag = c!"<" ++ inner ++ c!" />" ++ suffix ∧
      visitImage n (tag :: before) = (c!"<" ++ inner ++ c!" align=\"" ++ align ++ c!"\" />" ++ suffix) :: before := by
  have hall : ∀ a ∈ attributes, a.2 ≠ .none := fun a hm he => by
    rw [(C54_starttag attval c!"img" suffix true attributes).2.1 (by decide) ⟨a, hm, he⟩] at ht
    cases ht
  obtain ⟨kept, _, hp, he⟩ := (C54_starttag attval c!"img" suffix true attributes).2.2 (by decide) hall
  rw [he] at ht
  cases ht
  have hk : '>' ∉ kept.flatMap (fun a => c!" " ++ attrText attval a) := by
    intro hm
    obtain ⟨a, ha', hm⟩ := List.mem_flatMap.mp hm
    have hma : a ∈ attributes := (List.mem_filter.mp (hp.mem_iff.mp ha')).1
    unfold attrText at hm
    simp only [List.mem_append, List.mem_cons, List.not_mem_nil, or_false] at hm
    rcases hm with hm | ((hm | hm) | hm) | hm
    · exact absurd hm (by decide)
    · exact hn a hma hm
    · rcases hm with hm | hm <;> exact absurd hm (by decide)
    · exact hv _ hm
    · exact absurd hm (by decide)
  refine ⟨c!"img" ++ kept.flatMap (fun a => c!" " ++ attrText attval a), ?_, ?_⟩
  · simp
  · have hal : n.alignment = some align := by
      unfold ImageNode.alignment
      rcases ha with ha | ⟨h1, h2, h3⟩
      · rw [ha]; simp [hne]
      · rw [h1, h2, h3]; simp [hne]
    unfold visitImage
    dsimp only
    rw [if_pos (by simp [List.isPrefixOf]), hal]
    dsimp only
    rw [if_pos rfl, replace_tail hs (pre := c!"<" ++ c!"img" ++ kept.flatMap (fun a => c!" " ++ attrText attval a)) ?_]
    · simp
    · intro hm
      rcases List.mem_append.mp hm with hm | hm
      · exact absurd hm (by decide)
      · exact hk hm

/-- C93: without an alignment, or if docutils has written something else than `<img`, nothing is changed. -/
theorem C93_image_unchanged (n : ImageNode) (body : List Str)
    (h : (∀ a, n.align = some a → a = []) ∧ (n.align = none → n.parentTag = c!"figure" → ∀ a, n.parentAlign = some a → a = []) ∨
      ∀ last, body.head? = some last → ¬ c!"<img" <+: last) : visitImage n body = body := by
  unfold visitImage
  cases body with
  | nil => rfl
  | cons last rest =>
    dsimp only
    split
    · next hp =>
      rcases h with ⟨h1, h2⟩ | h
      · have : n.alignment = none := by
          unfold ImageNode.alignment
          cases hn : n.align with
          | some a => simp [h1 a hn]
          | none =>
            dsimp only
            split
            · next hf =>
              cases hpa : n.parentAlign with
              | none => rfl
              | some a => simp [h2 hn hf a hpa]
            · rfl
        rw [this]
      · exact absurd (List.isPrefixOf_iff_prefix.mp hp) (h last rfl)
    · rfl

mutual

/-- how many sections there are around each title -/
def titleDepths (depth : Int) : DocPart → List Int
  | .section parts => titleDepthsL (depth + 1) parts
  | .title => [depth]
  | .other parts => titleDepthsL depth parts

def titleDepthsL (depth : Int) : List DocPart → List Int
  | [] => []
  | p :: ps => titleDepths depth p ++ titleDepthsL depth ps

end

mutual

theorem walk_depths : ∀ (level : Int) (p : DocPart), walkPart level p = (titleDepths level p, level)
  | level, .section parts => by
    rw [walkPart, walks_depths (level + 1) parts, titleDepths]
    simp
  | level, .title => by rw [walkPart, titleDepths]
  | level, .other parts => by rw [walkPart, walks_depths level parts, titleDepths]

theorem walks_depths : ∀ (level : Int) (ps : List DocPart), walkParts level ps = (titleDepthsL level ps, level)
  | level, [] => by rw [walkParts, titleDepthsL]
  | level, p :: ps => by rw [walkParts, walk_depths level p, titleDepthsL]; dsimp only; rw [walks_depths level ps]

end

/-- C93: while docutils writes the title of a section, `section_level` (from which the level of the heading is computed) is
the number of the sections around the title, and after the document it is what it was before. -/
theorem C93_sections (document : DocPart) : walkPart 0 document = (titleDepths 0 document, 0) := walk_depths 0 document

example : walkPart 0 (.other [.section [.title, .section [.title], .other [.section [.title]]], .section [.title]]) = ([1, 2, 2, 1], 0) := by
  decide +kernel
example : starttag (fun s => s.filter (· ≠ '>')) c!"img" c!"\n" true [(c!"src", .str c!"a /> b")] = some c!"<img src=\"a / b\" />\n" ∧
    visitImage { align := some c!"right", parentTag := c!"p", parentAlign := none } [c!"<img src=\"a / b\" />\n"] =
      [c!"<img src=\"a / b\" align=\"right\" />\n"] := by decide +kernel

end Verif.Props
