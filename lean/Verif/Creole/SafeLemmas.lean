import Verif.Spec.Html
import Verif.Creole.EmitterLemmas
import Verif.Py.StrLemmas

/-!
# Helper lemmas: escaping and safe HTML
-/

namespace Verif.Creole

open Verif Py Spec

/-- `escape` on one character -/
def escChar (c : Char) : Str :=
  if c = '&' then c!"&amp;" else if c = '<' then c!"&lt;" else if c = '>' then c!"&gt;" else [c]

theorem htmlEscape_eq (s : Str) : htmlEscape s = s.flatMap escChar := by
  unfold htmlEscape
  rw [replace_single, replace_single, replace_single]
  induction s with
  | nil => rfl
  | cons c s ih =>
    simp only [List.flatMap_cons, List.flatMap_append, ih]
    congr 1
    unfold escChar
    by_cases h1 : c = '&'
    · subst h1; decide
    · by_cases h2 : c = '<'
      · subst h2; decide
      · by_cases h3 : c = '>'
        · subst h3; decide
        · simp [h1, h2, h3]

/-- `attr_escape` on one character -/
def attrChar (c : Char) : Str := if c = '"' then c!"&quot" else escChar c

theorem attrEscape_eq (s : Str) : attrEscape s = s.flatMap attrChar := by
  unfold attrEscape
  rw [htmlEscape_eq, replace_single]
  induction s with
  | nil => rfl
  | cons c s ih =>
    simp only [List.flatMap_cons, List.flatMap_append, ih]
    congr 1
    unfold attrChar escChar
    by_cases h1 : c = '&'
    · subst h1; decide
    · by_cases h2 : c = '<'
      · subst h2; decide
      · by_cases h3 : c = '>'
        · subst h3; decide
        · by_cases h4 : c = '"'
          · subst h4; decide
          · simp [h1, h2, h3, h4]

theorem htmlEscape_cons (c : Char) (s : Str) : htmlEscape (c :: s) = escChar c ++ htmlEscape s := by
  rw [htmlEscape_eq, htmlEscape_eq]; rfl

theorem htmlEscape_append (a b : Str) : htmlEscape (a ++ b) = htmlEscape a ++ htmlEscape b := by
  simp [htmlEscape_eq]

theorem htmlEscape_nil : htmlEscape [] = [] := rfl

theorem attrEscape_cons (c : Char) (s : Str) : attrEscape (c :: s) = attrChar c ++ attrEscape s := by
  rw [attrEscape_eq, attrEscape_eq]; rfl

theorem isAttrValue_attrEscape (s : Str) : IsAttrValue (attrEscape s) := by
  rw [attrEscape_eq]
  have key : ∀ c, '"' ∉ attrChar c ∧ '<' ∉ attrChar c ∧ '>' ∉ attrChar c := by
    intro c
    unfold attrChar escChar
    by_cases h1 : c = '&'
    · subst h1; decide
    · by_cases h2 : c = '<'
      · subst h2; decide
      · by_cases h3 : c = '>'
        · subst h3; decide
        · by_cases h4 : c = '"'
          · subst h4; decide
          · simp only [h1, h2, h3, h4, if_false, List.mem_singleton]
            exact ⟨fun h => h4 h.symm, fun h => h2 h.symm, fun h => h3 h.symm⟩
  refine ⟨?_, ?_, ?_⟩ <;> intro h <;> rw [List.mem_flatMap] at h <;> obtain ⟨c, -, hc⟩ := h
  · exact (key c).1 hc
  · exact (key c).2.1 hc
  · exact (key c).2.2 hc

/-! ## Safe HTML -/

theorem _root_.Verif.Spec.SafeHtml.append {a b : Str} (ha : SafeHtml a) (hb : SafeHtml b) : SafeHtml (a ++ b) := by
  induction ha with
  | nil => exact hb
  | char h1 h2 h3 _ ih => exact .char h1 h2 h3 ih
  | entity h _ ih => rw [List.append_assoc]; exact .entity h ih
  | void h _ ih => rw [List.append_assoc]; exact .void h ih
  | elem h h1 _ _ ih => rw [List.append_assoc]; exact .elem h h1 ih
  | link h h1 _ _ ih => rw [List.append_assoc]; exact .link h h1 ih
  | image h h' _ ih => rw [List.append_assoc]; exact .image h h' ih

theorem _root_.Verif.Spec.SafeHtml.elem' {tag a : Str} (h : tag ∈ plainTags ∨ IsHeadingTag tag) (ha : SafeHtml a) :
    SafeHtml (c!"<" ++ tag ++ c!">" ++ a ++ c!"</" ++ tag ++ c!">") := by
  have := SafeHtml.elem h ha .nil
  rwa [List.append_nil] at this

theorem _root_.Verif.Spec.SafeHtml.link' {href a : Str} (h : IsAttrValue href) (ha : SafeHtml a) :
    SafeHtml (c!"<a href=\"" ++ href ++ c!"\">" ++ a ++ c!"</a>") := by
  have := SafeHtml.link h ha .nil
  rwa [List.append_nil] at this

theorem _root_.Verif.Spec.SafeHtml.void' {e : Str} (h : e ∈ [c!"<hr />", c!"<br />"]) : SafeHtml e := by
  have := SafeHtml.void h .nil
  rwa [List.append_nil] at this

/-- text consisting of harmless characters -/
theorem _root_.Verif.Spec.SafeHtml.chars {s : Str} (h : ∀ c ∈ s, c ≠ '<' ∧ c ≠ '>' ∧ c ≠ '&') : SafeHtml s := by
  induction s with
  | nil => exact .nil
  | cons c s ih =>
    have := h c (by simp)
    exact .char this.1 this.2.1 this.2.2 (ih (fun d hd => h d (by simp [hd])))

theorem _root_.Verif.Spec.SafeHtml.tabs (n : Nat) : SafeHtml (Creole.tabs n) := by
  refine .chars ?_
  intro c hc
  have := List.eq_of_mem_replicate hc
  subst this; decide

theorem safe_htmlEscape (s : Str) : SafeHtml (htmlEscape s) := by
  rw [htmlEscape_eq]
  induction s with
  | nil => exact .nil
  | cons c s ih =>
    rw [List.flatMap_cons]
    unfold escChar
    by_cases h1 : c = '&'
    · subst h1; exact .entity (by decide) ih
    · by_cases h2 : c = '<'
      · subst h2; exact .entity (by decide) ih
      · by_cases h3 : c = '>'
        · subst h3; exact .entity (by decide) ih
        · simp only [h1, h2, h3, if_false]; exact .char h2 h3 h1 ih

theorem _root_.Verif.Spec.SafeHtml.tail_space {c : Char} {s : Str} (hc : isSpace c = true) (h : SafeHtml (c :: s)) : SafeHtml s := by
  have hne : c ≠ '<' ∧ c ≠ '&' := by
    constructor <;> rintro rfl <;> exact absurd hc (by decide)
  generalize hx : c :: s = x at h
  cases h with
  | nil => simp at hx
  | char _ _ _ h => simp at hx; rw [hx.2]; exact h
  | entity h _ =>
    simp only [List.mem_cons, List.not_mem_nil, or_false] at h
    rcases h with rfl | rfl | rfl <;> simp at hx <;> exact absurd hx.1 hne.2
  | void h _ =>
    simp only [List.mem_cons, List.not_mem_nil, or_false] at h
    rcases h with rfl | rfl <;> simp at hx <;> exact absurd hx.1 hne.1
  | elem _ _ _ => simp at hx; exact absurd hx.1 hne.1
  | link _ _ _ => simp at hx; exact absurd hx.1 hne.1
  | image _ _ _ => simp at hx; exact absurd hx.1 hne.1

theorem _root_.Verif.Spec.SafeHtml.lstrip {s : Str} (h : SafeHtml s) : SafeHtml (Py.lstrip s) := by
  unfold Py.lstrip
  induction s with
  | nil => exact h
  | cons c s ih =>
    rw [List.dropWhile_cons]
    split
    · rename_i hc; exact ih (h.tail_space hc)
    · exact h

theorem append_eq_concat {a b s : Str} {c : Char} (h : a ++ b = s ++ [c]) (hb : b ≠ []) :
    ∃ t, b = t ++ [c] ∧ s = a ++ t := by
  obtain ⟨t, d, rfl⟩ : ∃ t d, b = t ++ [d] := ⟨b.dropLast, b.getLast hb, (List.dropLast_concat_getLast hb).symm⟩
  rw [← List.append_assoc] at h
  have h1 := List.append_inj' h rfl
  simp at h1
  exact ⟨t, by rw [h1.2], h1.1.symm⟩

theorem _root_.Verif.Spec.SafeHtml.dropLast_space {x : Str} (h : SafeHtml x) : ∀ {s : Str} {c : Char}, isSpace c = true → x = s ++ [c] →
    SafeHtml s := by
  have ends : ∀ {a b s : Str} {c : Char} (pre : Str) (e : Char), isSpace c = true → isSpace e = false →
      a = pre ++ [e] → a ++ b = s ++ [c] → ∃ t, b = t ++ [c] ∧ s = a ++ t := by
    intro a b s c pre e hc he ha h
    by_cases hb : b = []
    · subst hb
      rw [List.append_nil, ha] at h
      have := (List.append_inj' h rfl).2
      simp at this
      subst this
      rw [hc] at he; exact absurd he (by simp)
    · exact append_eq_concat h hb
  induction h with
  | nil => intro s c _ hx; simp at hx
  | @char d r h1 h2 h3 hr ih =>
    intro s c hc hx
    cases r with
    | nil =>
      cases s with
      | nil => exact .nil
      | cons a s => simp at hx
    | cons e r =>
      obtain ⟨t, h4, h5⟩ := append_eq_concat (a := [d]) (b := e :: r) hx (by simp)
      rw [h5]; exact .char h1 h2 h3 (ih hc h4)
  | @entity e r he hr ih =>
    intro s c hc hx
    simp only [List.mem_cons, List.not_mem_nil, or_false] at he
    have : ∃ p, e = p ++ [';'] := by
      rcases he with rfl | rfl | rfl
      · exact ⟨c!"&amp", rfl⟩
      · exact ⟨c!"&lt", rfl⟩
      · exact ⟨c!"&gt", rfl⟩
    obtain ⟨p, hp⟩ := this
    obtain ⟨t, h4, h5⟩ := ends p ';' hc (by decide) hp hx
    rw [h5]; exact .entity (by simpa using he) (ih hc h4)
  | @void e r he hr ih =>
    intro s c hc hx
    simp only [List.mem_cons, List.not_mem_nil, or_false] at he
    have : ∃ p, e = p ++ ['>'] := by
      rcases he with rfl | rfl
      · exact ⟨c!"<hr /", rfl⟩
      · exact ⟨c!"<br /", rfl⟩
    obtain ⟨p, hp⟩ := this
    obtain ⟨t, h4, h5⟩ := ends p '>' hc (by decide) hp hx
    rw [h5]; exact .void (by simpa using he) (ih hc h4)
  | @elem tag a b ht ha hb iha ihb =>
    intro s c hc hx
    obtain ⟨t, h4, h5⟩ := ends (c!"<" ++ tag ++ c!">" ++ a ++ c!"</" ++ tag) '>' hc (by decide) rfl hx
    rw [h5]; exact .elem ht ha (ihb hc h4)
  | @link href a b ht ha hb iha ihb =>
    intro s c hc hx
    obtain ⟨t, h4, h5⟩ := ends (c!"<a href=\"" ++ href ++ c!"\">" ++ a ++ c!"</a") '>' hc (by decide) (by simp) hx
    rw [h5]; exact .link ht ha (ihb hc h4)
  | @image src text b h1 h2 hb ihb =>
    intro s c hc hx
    obtain ⟨t, h4, h5⟩ := ends (c!"<img src=\"" ++ src ++ c!"\" title=\"" ++ text ++ c!"\" alt=\"" ++ text ++ c!"\" /")
      '>' hc (by decide) (by simp) hx
    rw [h5]; exact .image h1 h2 (ihb hc h4)

theorem dropEndWhile_cases (q : Char → Bool) (s : Str) :
    dropEndWhile q s = s ∨ ∃ t c, s = t ++ [c] ∧ q c = true ∧ dropEndWhile q s = dropEndWhile q t := by
  induction s with
  | nil => exact .inl rfl
  | cons c s ih =>
    rcases ih with ih | ⟨t, d, h1, h2, h3⟩
    · cases s with
      | nil =>
        by_cases hq : q c = true
        · exact .inr ⟨[], c, rfl, hq, by simp [dropEndWhile, hq]⟩
        · exact .inl (by simp [dropEndWhile, hq])
      | cons e s =>
        left
        rw [dropEndWhile, ih]
    · refine .inr ⟨c :: t, d, by rw [h1]; rfl, h2, ?_⟩
      rw [dropEndWhile, dropEndWhile, h3]

theorem _root_.Verif.Spec.SafeHtml.rstrip : ∀ {s : Str}, SafeHtml s → SafeHtml (Py.rstrip s) := by
  intro s
  unfold Py.rstrip
  induction hn : s.length using Nat.strongRecOn generalizing s with
  | _ n ih =>
    intro h
    rcases dropEndWhile_cases isSpace s with h1 | ⟨t, c, h1, h2, h3⟩
    · rw [h1]; exact h
    · rw [h3]
      refine ih t.length ?_ rfl (h.dropLast_space h2 h1)
      rw [← hn, h1]; simp

theorem _root_.Verif.Spec.SafeHtml.strip {s : Str} (h : SafeHtml s) : SafeHtml (Py.strip s) := h.lstrip.rstrip

theorem natDigits_digit (n : Nat) : natDigits n ≠ [] ∧ ∀ d ∈ natDigits n, d.isDigit = true := by
  unfold natDigits
  exact ⟨Nat.toDigits_ne_nil, fun d hd => Nat.isDigit_of_mem_toDigits (by omega) (by omega) hd⟩

theorem isHeadingTag (n : Nat) : IsHeadingTag ('h' :: natDigits n) := ⟨_, rfl, natDigits_digit n⟩

/-! ## The emitter writes safe HTML -/

/-- if the emission succeeds, the text is safe, and the macro table satisfies the invariant -/
def SafeR (Inv : Macros → Prop) (r : EM) : Prop := ∀ s ms, r = .ok (s, ms) → SafeHtml s ∧ Inv ms

theorem SafeR.emap {Inv : Macros → Prop} {r : EM} {f : Str → Str} (h : SafeR Inv r)
    (hf : ∀ s, SafeHtml s → SafeHtml (f s)) : SafeR Inv (Creole.emap f r) := by
  intro s ms he
  cases r with
  | error e => simp [Creole.emap, Except.map] at he
  | ok x =>
    simp only [Creole.emap, Except.map, Except.ok.injEq, Prod.mk.injEq] at he
    rw [← he.1, ← he.2]; exact ⟨hf _ (h x.1 x.2 rfl).1, (h x.1 x.2 rfl).2⟩

theorem safeR_pureText {Inv : Macros → Prop} {r : Except PyErr Str} {ms : Macros} (hi : Inv ms)
    (h : ∀ s, r = .ok s → SafeHtml s) : SafeR Inv (pureText r ms) := by
  intro s ms' he
  cases r with
  | error e => simp [pureText, Except.map] at he
  | ok x =>
    simp only [pureText, Except.map, Except.ok.injEq, Prod.mk.injEq] at he
    rw [← he.1, ← he.2]; exact ⟨h x rfl, hi⟩

theorem safeR_ok {Inv : Macros → Prop} {s : Str} {ms : Macros} (hi : Inv ms) (h : SafeHtml s) :
    SafeR Inv (.ok (s, ms)) := by
  intro s' ms' he
  simp only [Except.ok.injEq, Prod.mk.injEq] at he
  rw [← he.1, ← he.2]; exact ⟨h, hi⟩

theorem safeR_error {Inv : Macros → Prop} {e : PyErr} : SafeR Inv (.error e) := by intro s ms h; simp at h

theorem safe_typeface {tag s : Str} (ht : tag ∈ plainTags) (h : SafeHtml s) : SafeHtml (typeface tag s) := by
  have := SafeHtml.elem' (.inl ht) h
  simpa [typeface] using this

theorem safe_nl : SafeHtml c!"\n" := .chars (by decide)

theorem safe_listEmit {k : Kind} {n : Nat} {tag : Str} {b : Bool} {s : Str} (ht : tag ∈ plainTags)
    (h : SafeHtml s) : SafeHtml (listEmit k n tag b s) := by
  unfold listEmit
  have h1 : SafeHtml (if k = .document then [] else c!"\n") := by
    split
    · exact .nil
    · exact safe_nl
  refine h1.append ?_
  split
  · have := (SafeHtml.tabs n).append (SafeHtml.elem' (.inl ht) h)
    simpa using this
  · have := (SafeHtml.tabs n).append (SafeHtml.elem' (.inl ht) ((h.append safe_nl).append (SafeHtml.tabs n)))
    simpa using this

theorem safe_wrap {pre tag post s : Str} (h1 : SafeHtml pre) (ht : tag ∈ plainTags) (h2 : SafeHtml post)
    (h : SafeHtml s) : SafeHtml (pre ++ (c!"<" ++ tag ++ c!">" ++ s ++ c!"</" ++ tag ++ c!">") ++ post) :=
  (h1.append (SafeHtml.elem' (.inl ht) h)).append h2

theorem safe_tab : SafeHtml c!"\t" := .chars (by decide)

theorem safe_break {i : Info} {s : Str} (h : breakEmit i = .ok s) : SafeHtml s := by
  unfold breakEmit at h
  split at h
  · cases hl : i.levelE with
    | error e => rw [hl] at h; simp [Except.map] at h
    | ok n =>
      rw [hl] at h
      simp only [Except.map, Except.ok.injEq] at h
      rw [← h]
      exact ((SafeHtml.void' (e := c!"<br />") (by decide)).append safe_nl).append (.tabs n)
  · split at h <;> simp only [Except.ok.injEq] at h <;> rw [← h]
    · exact (SafeHtml.void' (e := c!"<br />") (by decide)).append (.chars (s := c!"\n\t\t") (by decide))
    · exact (SafeHtml.void' (e := c!"<br />") (by decide)).append safe_nl

theorem safe_image {env : Env} (hs : env.strict = true) (target text : Str) : SafeHtml (imageEmit env target text) := by
  unfold imageEmit
  simp only [hs, if_true]
  have := SafeHtml.image (isAttrValue_attrEscape target) (isAttrValue_attrEscape text) .nil
  simpa [imgOpen] using this

theorem safe_header {env : Env} (hu : env.useToc = false) {Inv : Macros → Prop} (n : Nat) (s : Str) (ms : Macros) (hi : Inv ms) :
    SafeR Inv (headerEmit env n s ms) := by
  unfold headerEmit
  simp only [hu]
  have := (SafeHtml.elem' (.inr (isHeadingTag n)) (safe_htmlEscape s)).append safe_nl
  refine safeR_ok hi ?_
  simpa using this

theorem map_ok {α β : Type} {r : Except PyErr α} {f : α → β} {b : β} (h : r.map f = .ok b) :
    ∃ a, r = .ok a ∧ f a = b := by
  cases r with
  | error e => simp [Except.map] at h
  | ok a => simp only [Except.map, Except.ok.injEq] at h; exact ⟨a, rfl, h⟩

section
variable {mac : Prop} {env : Env} {Inv : Macros → Prop}

mutual
theorem emitNode_safe (hs : env.strict = true) (hu : env.useToc = false)
    (hmac : ∀ i ms, mac → Inv ms → SafeR Inv (macroEmit env i ms)) :
    ∀ (n : Node) (parent : Info) (ms : Macros), n.All (InfoOK mac) → Inv ms → SafeR Inv (emitNode env parent n ms)
  | .mk i cs, parent, ms, hn, hi => by
    have hcs := emitNodes_safe hs hu hmac cs i ms hn.children hi
    have hinfo := hn.info
    unfold InfoOK at hinfo
    unfold emitNode
    split <;> rename_i hk <;> simp only [hk] at hinfo
    case _ => exact hcs
    case _ =>
      refine safeR_pureText hi (fun s h => ?_)
      obtain ⟨a, -, rfl⟩ := map_ok h
      exact safe_htmlEscape a
    case _ => exact safeR_ok hi ((SafeHtml.void' (e := c!"<hr />") (by decide)).append safe_nl)
    case _ => exact hcs.emap (fun s h => by simpa using safe_wrap (tag := c!"p") .nil (by decide) safe_nl h)
    case _ =>
      split
      · exact hcs.emap (fun s h => safe_listEmit (by decide) h)
      · exact safeR_error
    case _ =>
      split
      · exact hcs.emap (fun s h => safe_listEmit (by decide) h)
      · exact safeR_error
    case _ =>
      split
      · exact hcs.emap (fun s h => safe_listEmit (by decide) h)
      · exact safeR_error
    case _ => exact hcs.emap (fun s h => by
      simpa using safe_wrap (tag := c!"table") .nil (by decide) safe_nl (safe_nl.append h))
    case _ => exact hcs.emap (fun s h => by
      simpa using safe_wrap (tag := c!"tr") .nil (by decide) safe_nl (safe_nl.append h))
    case _ => exact hcs.emap (fun s h => by simpa using safe_wrap (tag := c!"td") safe_tab (by decide) safe_nl h)
    case _ => exact hcs.emap (fun s h => by simpa using safe_wrap (tag := c!"th") safe_tab (by decide) safe_nl h)
    case _ => exact hcs.emap (fun s h => safe_typeface (by decide) h)
    case _ => exact hcs.emap (fun s h => safe_typeface (by decide) h)
    case _ => exact hcs.emap (fun s h => safe_typeface (by decide) h)
    case _ => exact hcs.emap (fun s h => safe_typeface (by decide) h)
    case _ => exact hcs.emap (fun s h => safe_typeface (by decide) h)
    case _ => exact hcs.emap (fun s h => safe_typeface (by decide) h)
    case _ => exact hcs.emap (fun s h => safe_typeface (by decide) h)
    case _ => exact hcs.emap (fun s h => safe_typeface (by decide) h)
    case _ =>
      split
      · exact safe_header hu _ _ _ hi
      · exact safeR_error
      · exact safeR_error
    case _ =>
      split
      · exact safeR_error
      · rename_i target _
        split
        · exact safeR_ok hi (.link' (isAttrValue_attrEscape target) (safe_htmlEscape target))
        · exact hcs.emap (fun s h => .link' (isAttrValue_attrEscape target) h)
    case _ =>
      refine safeR_pureText hi (fun s h => ?_)
      obtain ⟨a, -, rfl⟩ := map_ok h
      exact safe_image hs _ _
    case _ => exact hmac i ms hinfo hi
    case _ => exact hmac i ms hinfo hi
    case _ => exact safeR_pureText hi (fun s h => safe_break h)
    case _ => exact safeR_ok hi safe_nl
    case _ =>
      refine safeR_pureText hi (fun s h => ?_)
      obtain ⟨a, -, rfl⟩ := map_ok h
      simpa using safe_wrap (tag := c!"pre") .nil (by decide) safe_nl (safe_htmlEscape a)
    case _ =>
      refine safeR_pureText hi (fun s h => ?_)
      obtain ⟨a, -, rfl⟩ := map_ok h
      simpa using safe_wrap (tag := c!"code") .nil (by decide) .nil (safe_htmlEscape a)

theorem emitNodes_safe (hs : env.strict = true) (hu : env.useToc = false)
    (hmac : ∀ i ms, mac → Inv ms → SafeR Inv (macroEmit env i ms)) :
    ∀ (ns : List Node) (parent : Info) (ms : Macros), (∀ n ∈ ns, n.All (InfoOK mac)) → Inv ms →
      SafeR Inv (emitNodes env parent ns ms)
  | [], parent, ms, _, hi => by unfold emitNodes; exact safeR_ok hi .nil
  | n :: ns, parent, ms, hn, hi => by
    have h1 := emitNode_safe hs hu hmac n parent ms (hn n (by simp)) hi
    unfold emitNodes
    cases hr : emitNode env parent n ms with
    | error e => exact safeR_error
    | ok x =>
      obtain ⟨s, ms1⟩ := x
      have h2 := emitNodes_safe hs hu hmac ns parent ms1 (fun m hm => hn m (by simp [hm])) (h1 s ms1 hr).2
      simp only
      cases hr2 : emitNodes env parent ns ms1 with
      | error e => exact safeR_error
      | ok y => exact safeR_ok (h2 y.1 y.2 hr2).2 ((h1 s ms1 hr).1.append (h2 y.1 y.2 hr2).1)
end
end

end Verif.Creole
