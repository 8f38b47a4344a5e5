import Verif.Creole.BlockScan

/-!
# How a block is entered, and what is matched there
-/

namespace Verif.Creole

open Verif Re Py Spec Spec.Cr

/-! ## Text -/

/-- a text that begins with a blank line -/
def BlankLine (s : Str) : Prop := ∃ w r, s = w ++ r ∧ (∀ c ∈ w, isSpace c = true) ∧ atEol true r = true

theorem BlankLine.spsEol {s : Str} (h : BlankLine s) (p : Option Char) (caps : List (G × Str)) :
    (Re.seq sps (.eol true) : R).res ⟨p, s, caps⟩ ≠ [] := by
  obtain ⟨w, r, rfl, hw, hr⟩ := h
  have e : ∀ s, (Re.seq sps (.eol true) : R).res s = (sps.res s).flatMap (Re.eol true : R).res := fun _ => rfl
  induction w generalizing p with
  | nil =>
    rw [List.nil_append, e]
    unfold sps
    cases r with
    | nil => rw [greedy_nil]; simp [Re.res, atEol]
    | cons c r =>
      rw [greedy_unfold (Verif.Step.cls .space), List.flatMap_append, Ne, List.append_eq_nil_iff, not_and]
      intro _
      simp [Re.res, hr]
  | cons c w ih =>
    have := ih (some c) (fun d hd => hw d (by simp [hd]))
    rw [e] at this ⊢
    rw [List.cons_append]
    unfold sps at this ⊢
    rw [greedy_unfold (Verif.Step.cls .space), if_pos (by simpa [CSet.mem] using hw c (by simp)), List.flatMap_append, Ne,
      List.append_eq_nil_iff]
    exact fun hh => this hh.1

/-- the line ends here and is not continued: it ends with a backslash, or the next line is blank, or there is none -/
def Hard (p : Option Char) (r : Str) : Prop := p = some '\\' ∨ r = [] ∨ ∃ s, r = '\n' :: s ∧ BlankLine s

theorem soft_behind {p : Option Char} (hp : p ≠ some '\\') (r : Str) (caps : List (G × Str)) :
    (Re.behind true (.chr '\\') : R).res ⟨p, r, caps⟩ = [⟨p, r, caps⟩] := by
  cases p with
  | none => simp [Re.res]
  | some c => simp [Re.res, CSet.mem]; rintro rfl; exact absurd rfl hp

theorem soft_yes {p : Option Char} {s : Str} {caps : List (G × Str)} (hp : p ≠ some '\\') (hs : Nonblank s) :
    softBreak.res ⟨p, '\n' :: s, caps⟩ = [⟨some '\n', s, caps⟩] := by
  unfold softBreak cat
  rw [res_seq_one (soft_behind hp _ _)]
  unfold cat
  rw [res_seq_one (eol_yes rfl)]
  unfold cat
  rw [res_seq_one (x := ⟨some '\n', s, caps⟩) (by simp [Re.res, ch, CSet.mem])]
  have := hs.spsEol (some '\n') caps
  simp only [cat, Re.res] at this ⊢
  simp [this]

theorem soft_no {p : Option Char} {r : Str} {caps : List (G × Str)} (h : Hard p r) : softBreak.res ⟨p, r, caps⟩ = [] := by
  unfold softBreak cat
  by_cases hp : p = some '\\'
  · subst hp
    refine Re.res_seq_nil ?_
    simp [Re.res, CSet.mem]
  · rw [res_seq_one (soft_behind hp _ _)]
    rcases h with h | rfl | ⟨s, rfl, hs⟩
    · exact absurd h hp
    · simp [cat, Re.res, ch]
    · unfold cat
      rw [res_seq_one (eol_yes rfl)]
      unfold cat
      rw [res_seq_one (x := ⟨some '\n', s, caps⟩) (by simp [Re.res, ch, CSet.mem])]
      have := hs.spsEol (some '\n') caps
      simp only [cat, Re.res] at this ⊢
      simp [this]

theorem dots_head {gt : G} {p : Option Char} {line r : Str} {caps : List (G × Str)} (hne : line ≠ []) (hnl : '\n' ∉ line) (hr : atEol true r = true) :
    ((Re.grp gt (.plus true dot)).res ⟨p, line ++ r, caps⟩).head? = some ⟨line.getLast?, r, (gt, line) :: caps⟩ := by
  cases line with
  | nil => exact absurd rfl hne
  | cons c l =>
    have := Re.head_grp (g := gt) (Re.head_plus_cls (γ := G) (cs := .dot) (caps := caps) (rest := r) (c := c) (w := l) (p := p)
      (by
        rintro d t rfl
        simp [atEol] at hr
        simp [CSet.mem, hr])
      (by
        intro d hd
        simp only [CSet.mem, bne_iff_ne, ne_eq]
        rintro rfl; exact hnl hd))
    have hc : consumed (c :: (l ++ r)) r = c :: l := consumed_append (c :: l) r
    simp only [hc] at this
    exact this

theorem text_blog_soft {p : Option Char} {line s : Str} (hne : line ≠ []) (hnl : '\n' ∉ line) (hb : line.getLast? ≠ some '\\') (hs : Nonblank s) :
    ((textRule true).res ⟨p, line ++ '\n' :: s, []⟩).head? = some ⟨some '\n', s, [(.brk, c!"\n"), (.text, line)]⟩ := by
  have h1 := dots_head (gt := .text) (p := p) (caps := []) hne hnl (r := '\n' :: s) rfl
  refine Re.head_seq h1 (Re.head_alt_left ?_)
  have h2 : (softBreak.res ⟨line.getLast?, '\n' :: s, [(.text, line)]⟩).head? = some ⟨some '\n', s, [(.text, line)]⟩ := by
    rw [soft_yes hb hs]; rfl
  have := Re.head_grp (g := G.brk) h2
  have hc : consumed ('\n' :: s) s = c!"\n" := consumed_append c!"\n" s
  simp only [hc] at this
  exact this

theorem text_blog_hard {p : Option Char} {line r : Str} (hne : line ≠ []) (hnl : '\n' ∉ line) (hr : atEol true r = true) (hh : Hard line.getLast? r) :
    ((textRule true).res ⟨p, line ++ r, []⟩).head? = some ⟨line.getLast?, r, [(.text, line)]⟩ := by
  have h1 := dots_head (gt := .text) (p := p) (caps := []) hne hnl hr
  refine Re.head_seq h1 ?_
  unfold opt
  rw [Re.res_alt_right (res_grp_nil (soft_no hh))]
  simp [Re.res]

theorem text_wiki_at {p : Option Char} {line r : Str} (hne : line ≠ []) (hnl : '\n' ∉ line) (hr : atEol true r = true) :
    ((textRule false).res ⟨p, line ++ r, []⟩).head? = some ⟨line.getLast?, r, [(.text, line)]⟩ := by
  have h1 := dots_head (gt := .text) (p := p) (caps := []) hne hnl hr
  show ((Re.seq (opt (.grp .space softBreak)) (.grp .text (.plus true dot))).res _).head? = _
  rw [res_opt_seq]
  have : (Re.grp G.space softBreak).res ⟨p, line ++ r, []⟩ = [] := by
    refine res_grp_nil ?_
    unfold softBreak cat
    by_cases hp : p = some '\\'
    · subst hp
      refine Re.res_seq_nil ?_
      simp [Re.res, CSet.mem]
    · rw [res_seq_one (soft_behind hp _ _)]
      refine Re.res_seq_nil (eol_no ?_)
      cases line with
      | nil => exact absurd rfl hne
      | cons c l => simp [atEol]; rintro rfl; simp at hnl
  rw [Re.res_seq_nil this, List.nil_append]
  exact h1

theorem text_wiki_lead {p : Option Char} {line r : Str} (hl : lineText line = true) (hp : p ≠ some '\\') (hr : atEol true r = true) :
    ((textRule false).res ⟨p, '\n' :: (line ++ r), []⟩).head? = some ⟨line.getLast?, r, [(.text, line), (.space, c!"\n")]⟩ := by
  have hs := nonblank_of_lineText hl r
  have hl' := hl
  simp only [lineText, Bool.and_eq_true, Bool.not_eq_true', List.contains_eq_mem, decide_eq_false_iff_not] at hl'
  have hne : line ≠ [] := by rintro rfl; simp at hl'
  show ((Re.seq (opt (.grp .space softBreak)) (.grp .text (.plus true dot))).res _).head? = _
  have h2 : (softBreak.res ⟨p, '\n' :: (line ++ r), []⟩).head? = some ⟨some '\n', line ++ r, []⟩ := by
    rw [soft_yes hp hs]; rfl
  have h3 := Re.head_grp (g := G.space) h2
  have hc : consumed ('\n' :: (line ++ r)) (line ++ r) = c!"\n" := consumed_append c!"\n" (line ++ r)
  simp only [hc] at h3
  exact Re.head_seq (Re.head_alt_left h3) (dots_head hne hl'.2 hr)

theorem text_nl_nil {blog : Bool} {p : Option Char} {s : Str} (h : blog = true ∨ Hard p ('\n' :: s)) :
    (textRule blog).res ⟨p, '\n' :: s, []⟩ = [] := by
  have hd : ∀ (g : G) (b : R), (Re.grp g (.plus true dot)).res ⟨p, '\n' :: s, []⟩ = [] := by
    intro g b
    exact res_grp_nil (fail_start (by decide) (by decide))
  cases blog with
  | true => exact Re.res_seq_nil (hd _ .eps)
  | false =>
    show (Re.seq (opt (.grp .space softBreak)) (.grp .text (.plus true dot))).res _ = _
    rw [res_opt_seq, hd _ .eps, List.append_nil]
    exact Re.res_seq_nil (res_grp_nil (soft_no (by simpa using h)))

/-! ## The rules one after the other -/

theorem block_rule {blog : Bool} {l₁ l₂ : List R} {a : R} (he : blockRules blog = l₁ ++ a :: l₂) {p : Option Char} {s : Str} {x : St G}
    (hf : ∀ q ∈ l₁, q.res ⟨p, s, []⟩ = []) (ha : (a.res ⟨p, s, []⟩).head? = some x) :
    (blockRe blog).matchAt false p s = some x := by
  rw [Re.matchAt_false]
  unfold blockRe
  rw [he]
  exact alts_head hf ha

theorem alts_nil {l : List R} {s : St G} (hl : l ≠ []) (h : ∀ q ∈ l, q.res s = []) : (alts l).res s = [] := by
  cases hr : (alts l).res s with
  | nil => rfl
  | cons x xs =>
    exfalso
    obtain ⟨q, hq, hx⟩ := mem_alts hl (x := x) (s := s) (by rw [hr]; simp)
    rw [h q hq] at hx; simp at hx

theorem block_none {blog : Bool} {p : Option Char} {s : Str} (h : ∀ q ∈ blockRules blog, q.res ⟨p, s, []⟩ = []) :
    (blockRe blog).matchAt false p s = none := by
  rw [Re.matchAt_false]
  unfold blockRe
  rw [alts_nil (by simp [blockRules]) h]
  rfl

/-- a newline that is not at the beginning of a line is skipped (if it does not continue a paragraph) -/
theorem skip_mid {blog : Bool} {h : G → Match G → PS → PM} {p : Option Char} {s : Str} {st : PS} (hp : atBol true p = false)
    (hh : blog = true ∨ Hard p ('\n' :: s)) : runR (blockRe blog) h p ('\n' :: s) st = runR (blockRe blog) h (some '\n') s st := by
  refine runR_skip (block_none ?_)
  intro q hq
  rw [blockRules_eq] at hq
  simp only [List.mem_cons, List.mem_append, List.not_mem_nil, or_false] at hq
  rcases hq with rfl | hq | rfl
  · exact macro_nil_head (by decide)
  · exact bolRules_nil hp q hq
  · exact text_nl_nil hh

theorem plainStart_indented {line : Str} (h : plainStart .all line = true) : plainStart .indented line = true := by
  simp only [plainStart, Bool.and_eq_true, Bool.or_eq_true] at h ⊢
  refine ⟨.inl (by decide), ?_⟩
  rcases h.2 with h | h
  · exact absurd h (by decide)
  · exact .inr h

/-- the rules before a text, at the newline before a plain line -/
theorem lead_empty {p : Option Char} {line r : Str} (hl : lineText line = true) (hs : plainStart .indented line = true)
    (hr : atEol true r = true) (hp : atBol true p = true) :
    ∀ q ∈ macroBlockRule :: bolRules, ∀ y ∈ q.res ⟨p, '\n' :: (line ++ r), []⟩, (y.rest.length != ('\n' :: (line ++ r)).length) = false := by
  obtain ⟨h1, h2, h3⟩ := plain_indented (p := p) (caps := []) (b := .indented) (w := c!"\n") (by simp)
    (by intro c hc; simp at hc; subst hc; decide) hl hs hr
  intro q hq y hy
  simp only [bolRules, List.mem_cons, List.not_mem_nil, or_false] at hq
  rcases hq with rfl | rfl | rfl | rfl | rfl | rfl | rfl
  · rw [macro_nil_head (by decide)] at hy; simp at hy
  · rw [line_lead (nonblank_of_lineText hl r) hp] at hy
    simp only [List.mem_cons, List.not_mem_nil, or_false] at hy
    rw [hy]; simp
  · rw [head_nil (by simp)] at hy; simp at hy
  · rw [show '\n' :: (line ++ r) = c!"\n" ++ (line ++ r) from rfl, h1] at hy; simp at hy
  · rw [preBlock_nil (by intro t ht; simp at ht)] at hy; simp at hy
  · rw [show '\n' :: (line ++ r) = c!"\n" ++ (line ++ r) from rfl, h2] at hy; simp at hy
  · rw [show '\n' :: (line ++ r) = c!"\n" ++ (line ++ r) from rfl, h3] at hy; simp at hy

/-- after an empty match the newline before a plain line is skipped (blog style) -/
theorem skip_forced {h : G → Match G → PS → PM} {p : Option Char} {line r : Str} {st : PS} (hl : lineText line = true)
    (hs : plainStart .indented line = true) (hr : atEol true r = true) (hp : atBol true p = true) :
    runT (blockRe true) h p ('\n' :: (line ++ r)) st = runR (blockRe true) h (some '\n') (line ++ r) st := by
  refine runT_skip ?_
  rw [Re.matchAt_true, List.find?_eq_none]
  intro y hy
  obtain ⟨q, hq, hy⟩ := mem_alts (by simp [blockRules]) hy
  rw [blockRules_eq, ← List.cons_append, List.mem_append, List.mem_singleton] at hq
  rcases hq with hq | rfl
  · simpa using lead_empty hl hs hr hp q hq y hy
  · rw [text_nl_nil (.inl rfl)] at hy; simp at hy

/-! ## Entering a block -/

/-- the parser is about to read `s`; `b` says which blocks can begin there -/
inductive Entry (blog : Bool) : Start → Str → (PS → PM) → Prop
  /-- at the beginning of a line -/
  | bol {p : Option Char} {s : Str} (hp : atBol true p = true) : Entry blog .all s (runR (blockRe blog) blockRepl p s)
  /-- at the newline before it, after an empty match -/
  | forced {p : Option Char} {s : Str} (hp : atBol true p = true) :
      Entry blog (if blog then .all else .indented) s (runT (blockRe blog) blockRepl p ('\n' :: s))
  /-- at the newline before it, not at the beginning of a line -/
  | mid {p : Option Char} {s : Str} (hp : atBol true p = false) (hb : blog = true ∨ p ≠ some '\\') :
      Entry blog (if blog then .all else .none) s (runR (blockRe blog) blockRepl p ('\n' :: s))

/-- where all blocks can begin, those that may not be indented begin at the beginning of the line -/
theorem Entry.start {blog : Bool} {line r : Str} {run : PS → PM} (h : Entry blog .all (line ++ r) run) (hl : lineText line = true)
    (hs : plainStart .indented line = true) (hr : atEol true r = true) :
    ∃ p, atBol true p = true ∧ run = runR (blockRe blog) blockRepl p (line ++ r) := by
  generalize hb : Start.all = b at h
  generalize he : line ++ r = s at h
  cases h with
  | @bol p _ hp => exact ⟨p, hp, rfl⟩
  | @forced p _ hp =>
    cases blog with
    | false => simp at hb
    | true =>
      refine ⟨some '\n', rfl, ?_⟩
      funext st
      rw [← he]
      exact skip_forced hl hs hr hp
  | mid hp hh =>
    cases blog with
    | false => simp at hb
    | true =>
      refine ⟨some '\n', rfl, ?_⟩
      funext st
      exact skip_mid hp (.inl rfl)

/-- at the beginning of a line, or at the newline before it after an empty match -/
def runL (blog lead : Bool) (p : Option Char) (s : Str) (st : PS) : PM :=
  if lead then runT (blockRe blog) blockRepl p ('\n' :: s) st else runR (blockRe blog) blockRepl p s st

def leadStr (lead : Bool) : Str := if lead then c!"\n" else []

theorem leadStr_space (lead : Bool) : ∀ c ∈ leadStr lead, isSpace c = true := by
  cases lead
  · simp [leadStr]
  · intro c hc; simp [leadStr] at hc; subst hc; decide

/-- blocks that may be indented begin at the beginning of the line or at the newline before it -/
theorem Entry.lead {blog : Bool} {b : Start} {s : Str} {run : PS → PM} (h : Entry blog b s run) (hb : b ≠ .none) :
    ∃ p lead, atBol true p = true ∧ run = runL blog lead p s := by
  cases h with
  | @bol p _ hp => exact ⟨p, false, hp, rfl⟩
  | @forced p _ hp => exact ⟨p, true, hp, rfl⟩
  | mid hp hh =>
    cases blog with
    | false => simp at hb
    | true =>
      refine ⟨some '\n', false, rfl, ?_⟩
      funext st
      exact skip_mid hp (.inl rfl)

/-- a rule for blocks that may be indented -/
theorem runL_take {blog lead : Bool} {l₁ l₂ : List R} {a : R} (he : blockRules blog = l₁ ++ a :: l₂) {p p' : Option Char} {s w rest : Str}
    {caps : List (G × Str)} {st : PS}
    (hf : lead = false → ∀ q ∈ l₁, q.res ⟨p, s, []⟩ = [])
    (hf' : lead = true → ∀ q ∈ l₁, ∀ y ∈ q.res ⟨p, '\n' :: s, []⟩, y.rest.length = ('\n' :: s).length)
    (ha : (a.res ⟨p, leadStr lead ++ s, []⟩).head? = some ⟨p', rest, caps⟩) (hs : leadStr lead ++ s = w ++ rest) (hw : w ≠ []) :
    runL blog lead p s st = (onHit (blockRe blog) blockRepl st ⟨w, caps⟩ >>= runR (blockRe blog) blockRepl w.getLast? rest) := by
  cases lead with
  | false =>
    unfold runL
    simp only [Bool.false_eq_true, if_false]
    simp only [leadStr, Bool.false_eq_true, if_false, List.nil_append] at ha hs
    subst hs
    exact runR_take hw (block_rule he (hf rfl) ha)
  | true =>
    unfold runL
    simp only [if_true]
    simp only [leadStr, if_true, List.cons_append, List.nil_append] at ha hs
    refine runT_take hs (p := p') ?_
    rw [Re.matchAt_true]
    unfold blockRe
    rw [he]
    refine alts_find ?_ ha ?_
    · intro q hq y hy
      simpa using hf' rfl q hq y hy
    · rw [hs]
      have : w.length ≠ 0 := by simp [hw]
      simp only [List.length_append, bne_iff_ne, ne_eq]
      omega

end Verif.Creole
