import Verif.Spec.HtmlTree

/-!
# Lemmas about the HTML parser
-/

namespace Verif.Html

open Verif Py Spec

variable {α : Type}

mutual

/-- collect a list from every node, in document order -/
def coll (own : HInfo → List α) : HNode → List α
  | .mk i ch => own i ++ collL own ch

def collL (own : HInfo → List α) : List HNode → List α
  | [] => []
  | n :: ns => coll own n ++ collL own ns

end

theorem collL_append (own : HInfo → List α) (a b : List HNode) : collL own (a ++ b) = collL own a ++ collL own b := by
  induction a with
  | nil => simp [collL]
  | cons n ns ih => simp [collL, ih]

def frameC (own : HInfo → List α) (f : Frame) : List α := own f.info ++ collL own f.done.reverse

def chain (own : HInfo → List α) : Frame → List Frame → List α
  | top, [] => frameC own top
  | top, f :: below => chain own f below ++ frameC own top

theorem frameC_close (own : HInfo → List α) (top f : Frame) : frameC own (top.close f) = frameC own f ++ frameC own top := by
  simp [frameC, Frame.close, collL_append, collL, Frame.node, coll]

theorem chain_close (own : HInfo → List α) (top f : Frame) (below : List Frame) :
    chain own (top.close f) below = chain own f below ++ frameC own top := by
  cases below <;> simp [chain, frameC_close]

theorem coll_closeAll (own : HInfo → List α) (top : Frame) (below : List Frame) :
    coll own (closeAll top below) = chain own top below := by
  induction below generalizing top with
  | nil => simp [closeAll, chain, Frame.node, coll, frameC]
  | cons f below ih => simp [closeAll, ih, chain, chain_close]

theorem chain_push (own : HInfo → List α) (top : Frame) (below : List Frame) (n : HNode) :
    chain own { top with done := n :: top.done } below = chain own top below ++ coll own n := by
  cases below <;> simp [chain, frameC, collL_append, collL]

theorem chain_upto (own : HInfo → List α) (top : Frame) (below : List Frame) :
    chain own (uptoFrames top below).1 (uptoFrames top below).2 = chain own top below := by
  induction below generalizing top with
  | nil => rfl
  | cons f below ih =>
    simp only [uptoFrames]
    split
    · simp [chain, chain_close]
    · rw [ih]; simp [chain, chain_close]

/-! ## The state never leaves the root -/

/-- the kinds of the open elements, without the root -/
def PSt.stack (s : PSt) : List Str := ((s.top :: s.below).map (·.info.kind)).dropLast

/-- the state is connected with the root, whose kind is `document` -/
structure Good (s : PSt) : Prop where
  notLost : s.lost = false
  root : ((s.top :: s.below).map (·.info.kind)).getLast? = some c!"document"

theorem blockTags_eq : blockTags = blockNames := by rfl

theorem upKinds_contains (k : Str) : upKinds.contains k = stops k := by
  simp only [upKinds, stops, List.contains_eq_mem, List.mem_append, List.mem_singleton, blockTags_eq]
  by_cases h : k ∈ blockNames <;> by_cases h' : k = c!"document" <;> simp [h, h']

theorem headlineLevel_eq (tag : Str) : headlineLevel tag = headline? tag := by
  unfold headlineLevel headline?
  rfl

theorem stops_document : stops c!"document" = true := by decide +kernel

theorem kinds_close (top f : Frame) (below : List Frame) :
    ((top.close f :: below).map (·.info.kind)) = ((f :: below).map (·.info.kind)) := by
  simp [Frame.close]

theorem uptoFrames_kinds (top : Frame) (below : List Frame)
    (h : ((top :: below).map (·.info.kind)).getLast? = some c!"document") :
    (((uptoFrames top below).1 :: (uptoFrames top below).2).map (·.info.kind)).getLast? = some c!"document" ∧
      (((uptoFrames top below).1 :: (uptoFrames top below).2).map (·.info.kind)).dropLast =
        (((top :: below).map (·.info.kind)).dropLast.tail.dropWhile (!stops ·)) := by
  induction below generalizing top with
  | nil => simpa [uptoFrames] using h
  | cons f below ih =>
    have h' : ((top.close f :: below).map (·.info.kind)).getLast? = some c!"document" := by
      rw [kinds_close]; simpa [List.getLast?_cons] using h
    simp only [uptoFrames, upKinds_contains]
    have hk : (top.close f).info.kind = f.info.kind := rfl
    rw [hk]
    cases hs : stops f.info.kind
    · simp only [Bool.false_eq_true, if_false]
      obtain ⟨i1, i2⟩ := ih (top.close f) h'
      refine ⟨i1, ?_⟩
      rw [i2, kinds_close]
      cases below with
      | nil =>
        simp at h
        rw [h, stops_document] at hs
        simp at hs
      | cons g below =>
        simp [List.dropLast_cons_cons, hs]
    · simp only [if_true]
      refine ⟨h', ?_⟩
      rw [kinds_close]
      cases below with
      | nil => simp
      | cons g below => simp [List.dropLast_cons_cons, hs]

theorem Good.leaf {s : PSt} (h : Good s) (n : HNode) : Good (s.leaf n) ∧ (s.leaf n).stack = s.stack := by
  obtain ⟨h1, h2⟩ := h
  constructor
  · constructor
    · simp [PSt.leaf, h1]
    · simpa [PSt.leaf, h1] using h2
  · simp [PSt.leaf, h1, PSt.stack]

theorem Good.open {s : PSt} (h : Good s) (i : HInfo) : Good (s.open i) ∧ (s.open i).stack = i.kind :: s.stack := by
  obtain ⟨h1, h2⟩ := h
  constructor
  · constructor
    · simp [PSt.open, h1]
    · simpa [PSt.open, h1, List.getLast?_cons] using h2
  · simp [PSt.open, h1, PSt.stack]

theorem Good.goUp {s : PSt} (h : Good s) : Good s.goUp ∧ s.goUp.stack = s.stack.tail.dropWhile (!stops ·) := by
  obtain ⟨h1, h2⟩ := h
  have h3 := uptoFrames_kinds s.top s.below h2
  constructor
  · constructor
    · simp [PSt.goUp, h1]
    · simpa [PSt.goUp, h1] using h3.1
  · simpa [PSt.goUp, h1, PSt.stack] using h3.2

theorem Good.up {s : PSt} (h : Good s) :
    (s.stack = [] ∧ s.up.lost = true ∧ s.up.root = s.root) ∨
      ∃ k st, s.stack = k :: st ∧ Good s.up ∧ s.up.stack = st := by
  obtain ⟨h1, h2⟩ := h
  cases hb : s.below with
  | nil => left; simp [PSt.stack, PSt.up, PSt.root, h1, hb]
  | cons f below =>
    right
    refine ⟨s.top.info.kind, ((f :: below).map (·.info.kind)).dropLast, by simp [PSt.stack, hb], ?_, ?_⟩
    · constructor
      · simp [PSt.up, h1, hb]
      · simpa [PSt.up, h1, hb, List.getLast?_cons, Frame.close] using h2
    · simp [PSt.up, h1, hb, PSt.stack, Frame.close]

theorem setLevel_good {s : PSt} (h : Good s) (n : Int) : Good { s with listLevel := n } := ⟨h.notLost, h.root⟩

/-! ## What a step collects -/

variable (own : HInfo → List α)

def PSt.col (s : PSt) : List α := chain own s.top s.below

theorem col_leaf {s : PSt} (h : s.lost = false) (n : HNode) : (s.leaf n).col own = s.col own ++ coll own n := by
  simp [PSt.leaf, h, PSt.col, chain_push]

theorem col_open {s : PSt} (h : s.lost = false) (i : HInfo) : (s.open i).col own = s.col own ++ own i := by
  simp [PSt.open, h, PSt.col, chain, frameC, collL]

theorem col_up {s : PSt} : s.up.col own = s.col own := by
  unfold PSt.up PSt.col
  split
  · rfl
  · cases hb : s.below <;> simp [chain, chain_close]

theorem col_goUp {s : PSt} : s.goUp.col own = s.col own := by
  unfold PSt.goUp PSt.col
  split
  · rfl
  · exact chain_upto own s.top s.below

theorem col_root (s : PSt) : coll own s.root = s.col own := coll_closeAll own s.top s.below

/-- the node a start tag creates -/
def startInfo (level : Int) (tag : Str) (attrs : List (Str × Option Str)) : HInfo :=
  match headline? tag with
  | some n => { kind := c!"headline", level := some n }
  | none =>
    if tag = c!"li" ∨ tag = c!"ul" ∨ tag = c!"ol" then { kind := tag, attrs := dictOf attrs, level := some level }
    else { kind := tag, attrs := dictOf attrs }

theorem startInfo_kind (level : Int) (tag : Str) (attrs : List (Str × Option Str)) :
    (startInfo level tag attrs).kind = kindOf tag := by
  unfold startInfo kindOf
  cases headline? tag with
  | some n => simp
  | none =>
    simp only [Option.isSome_none, Bool.false_eq_true, if_false]
    split <;> rfl

def isList (tag : Str) : Bool := tag = c!"ul" || tag = c!"ol"

theorem headline_none {tag : Str} (h : tag = c!"img" ∨ tag = c!"br" ∨ tag = c!"ul" ∨ tag = c!"ol" ∨ tag = c!"li" ∨
    tag = c!"tbody") : headline? tag = none := by
  rcases h with h | h | h | h | h | h <;> subst h <;> rfl

theorem isList_iff (tag : Str) : isList tag = true ↔ tag = c!"ul" ∨ tag = c!"ol" := by simp [isList]

theorem handleStart_ignore (s : PSt) (attrs : List (Str × Option Str)) : handleStart s c!"tbody" attrs = s := rfl

theorem handleStart_leaf (s : PSt) (tag : Str) (attrs : List (Str × Option Str)) (h : tag = c!"img" ∨ tag = c!"br") :
    handleStart s tag attrs = s.leaf (.mk { kind := tag, attrs := dictOf attrs } []) := by
  rcases h with rfl | rfl <;> rfl

theorem handleStart_open (s : PSt) (tag : Str) (attrs : List (Str × Option Str))
    (h : ¬(tag = c!"tbody" ∨ tag = c!"img" ∨ tag = c!"br")) :
    handleStart s tag attrs =
      { s with listLevel := if isList tag then s.listLevel + 1 else s.listLevel }.open
        (startInfo (if isList tag then s.listLevel + 1 else s.listLevel) tag attrs) := by
  have h0 : ignoreTags.contains tag = false := by
    simp only [ignoreTags, List.contains_eq_mem, List.mem_singleton, decide_eq_false_iff_not]
    intro hh; exact h (Or.inl hh)
  unfold handleStart startInfo
  rw [h0, headlineLevel_eq]
  simp only [Bool.false_eq_true, if_false]
  have hl : tag = c!"ul" ∨ tag = c!"ol" → headline? tag = none := fun hh => by
    apply headline_none; rcases hh with hh | hh <;> simp [hh]
  cases hh : headline? tag with
  | some n =>
    have hnl : isList tag = false := by
      cases hi : isList tag
      · rfl
      · rw [isList_iff] at hi; rw [hl hi] at hh; simp at hh
    simp [hnl]
  | none =>
    by_cases h1 : tag = c!"li"
    · subst h1; rfl
    · by_cases h2 : tag = c!"ul"
      · subst h2; rfl
      · by_cases h3 : tag = c!"ol"
        · subst h3; rfl
        · have : isList tag = false := by simp [isList, h2, h3]
          have h4 : tag ≠ c!"img" := fun e => h (Or.inr (Or.inl e))
          have h5 : tag ≠ c!"br" := fun e => h (Or.inr (Or.inr e))
          simp [h1, h2, h3, h4, h5, this]

theorem handleEnd_eq (s : PSt) (tag : Str) :
    handleEnd s tag =
      if tag = c!"tbody" ∨ tag = c!"br" then s
      else if blockNames.contains tag then
        { s with listLevel := if isList tag then s.listLevel - 1 else s.listLevel }.goUp
      else s.up := by
  unfold handleEnd
  have h0 : ignoreTags.contains tag = decide (tag = c!"tbody") := by
    simp [ignoreTags]
  rw [h0, blockTags_eq]
  by_cases h1 : tag = c!"tbody"
  · simp [h1]
  · by_cases h2 : tag = c!"br"
    · simp [h2]
    · by_cases h3 : tag = c!"ul"
      · subst h3; rfl
      · by_cases h4 : tag = c!"ol"
        · subst h4; rfl
        · simp [h1, h2, h3, h4, isList]

end Verif.Html
