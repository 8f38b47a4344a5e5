import Verif.Creole.InlineScan
import Verif.Spec.CreoleDoc
import Verif.Py.StripLemmas

/-!
# What the block expression matches
-/

namespace Verif.Creole

open Verif Re Py Spec Spec.Cr

/-! ## Scanning after an empty match -/

section
variable {r : R} {h : G → Match G → PS → PM} {prev : Option Char} {st : PS}

/-- the rest of a scan from a position where an empty match was reported: the next match must advance -/
def runT (r : R) (h : G → Match G → PS → PM) (prev : Option Char) (s : Str) (st : PS) : PM :=
  match r.matchAt true prev s with
  | some x => onHit r h st ⟨consumed s x.rest, x.caps⟩ >>= runR r h (consumed s x.rest).getLast? x.rest
  | none => match s with
    | [] => .ok st
    | c :: cs => runR r h (some c) cs st

theorem runR_empty {c : Char} {cs : Str} {p : Option Char} {caps : List (G × Str)}
    (hm : r.matchAt false prev (c :: cs) = some ⟨p, c :: cs, caps⟩) :
    runR r h prev (c :: cs) st = (onHit r h st ⟨[], caps⟩ >>= runT r h prev (c :: cs)) := by
  have e : (runT r h prev (c :: cs)) = fun st =>
      ((match r.matchAt true prev (c :: cs) with
           | none => .skip c :: r.scanAux (some c) cs 0
           | some s'' =>
             .hit ⟨consumed (c :: cs) s''.rest, s''.caps⟩ ::
               r.scanAux (some c) cs ((c :: cs).length - s''.rest.length - 1) : List (Seg G)).filterMap
        fun | .skip _ => none | .hit m => some m).foldlM (init := st) (onHit r h) := by
    funext st
    unfold runT
    cases hm' : r.matchAt true prev (c :: cs) with
    | none => rfl
    | some x =>
      simp only [List.filterMap_cons, List.foldlM_cons]
      congr 1
      funext st'
      unfold runR
      have hn : ¬ (c :: cs).length - x.rest.length = 0 ∧ ∃ w, c :: cs = w ++ x.rest := by
        rw [Re.matchAt_true] at hm'
        have := List.find?_some hm'
        obtain ⟨w, hr⟩ := Re.res_reach (List.mem_of_find?_eq_some hm')
        have hrest := hr.rest
        simp only at hrest
        have hlen := congrArg List.length hrest
        simp at this hlen ⊢
        exact ⟨by omega, w, hrest⟩
      obtain ⟨hn, w, hw⟩ := hn
      rw [hw, consumed_append]
      have hlen : w.length = (c :: cs).length - x.rest.length := by rw [hw]; simp
      have hwne : w ≠ [] := by rintro rfl; simp at hlen; simp at hn; omega
      have := Re.scanAux_drop r x.rest w none hwne
      rw [← this]
      have hl2 : (w ++ x.rest).length - x.rest.length - 1 = w.length - 1 := by simp
      rw [hl2]
      cases w with
      | nil => exact absurd rfl hwne
      | cons d w =>
        simp only [List.cons_append, List.cons.injEq] at hw
        obtain ⟨rfl, rfl⟩ := hw
        rfl
  unfold runR
  rw [e]
  simp only [Re.scanAux, hm, Nat.sub_self, if_true, List.filterMap_cons, List.foldlM_cons]
  congr 1
  funext st'
  cases r.matchAt true prev (c :: cs) <;> rfl

theorem runR_empty_nil {p : Option Char} {caps : List (G × Str)} {t : Str} (hm : r.matchAt false prev [] = some ⟨p, t, caps⟩) :
    runR r h prev [] st = onHit r h st ⟨[], caps⟩ := by
  unfold runR
  simp only [Re.scanAux, hm, List.filterMap_cons, List.filterMap_nil, List.foldlM_cons, List.foldlM_nil]
  cases onHit r h st ⟨[], caps⟩ <;> rfl

theorem runR_nil' (hm : r.matchAt false prev [] = none) : runR r h prev [] st = .ok st := by
  unfold runR
  simp only [Re.scanAux, hm]
  rfl

theorem runT_take {s w rest : Str} {p : Option Char} {caps : List (G × Str)} (hs : s = w ++ rest)
    (hm : r.matchAt true prev s = some ⟨p, rest, caps⟩) :
    runT r h prev s st = (onHit r h st ⟨w, caps⟩ >>= runR r h w.getLast? rest) := by
  subst hs
  unfold runT
  simp only [hm, consumed_append]

theorem runT_skip {c : Char} {cs : Str} (hm : r.matchAt true prev (c :: cs) = none) :
    runT r h prev (c :: cs) st = runR r h (some c) cs st := by
  unfold runT
  simp only [hm]

end

/-- the first result of an ordered choice that consumes something -/
theorem alts_find {l₁ l₂ : List R} {a : R} {s x : St G} {f : St G → Bool} (hf : ∀ q ∈ l₁, ∀ y ∈ q.res s, f y = false)
    (ha : (a.res s).head? = some x) (hx : f x = true) : ((alts (l₁ ++ a :: l₂)).res s).find? f = some x := by
  have h1 : (a.res s).find? f = some x := by
    cases hl : a.res s with
    | nil => rw [hl] at ha; simp at ha
    | cons y l =>
      rw [hl] at ha
      simp only [List.head?_cons, Option.some.injEq] at ha
      subst ha
      simp [hx]
  induction l₁ with
  | nil =>
    cases l₂ with
    | nil => exact h1
    | cons b l₂ =>
      show ((Re.alt a (alts (b :: l₂))).res s).find? f = some x
      simp only [Re.res, List.find?_append, h1, Option.some_or]
  | cons q l₁ ih =>
    have hne : ∃ b l, l₁ ++ a :: l₂ = b :: l := by cases l₁ <;> exact ⟨_, _, rfl⟩
    obtain ⟨b, l, hbl⟩ := hne
    rw [List.cons_append, hbl]
    show ((Re.alt q (alts (b :: l))).res s).find? f = some x
    have hq : (q.res s).find? f = none := by
      rw [List.find?_eq_none]
      intro y hy
      simp [hf q (by simp) y hy]
    simp only [Re.res, List.find?_append, hq, Option.none_or]
    rw [← hbl]
    exact ih fun q hq => hf q (by simp [hq])

theorem mem_alts {l : List R} {s x : St G} (hl : l ≠ []) (h : x ∈ (alts l).res s) : ∃ q ∈ l, x ∈ q.res s := by
  obtain ⟨q, hq, hx⟩ := mem_res_alts hl h
  exact ⟨q, hq, hx⟩

/-! ## Greedy repetition -/

theorem greedy_unfold {b : R} {m : Char → Bool} (hb : Verif.Step b m) (p : Option Char) (c : Char) (r : Str) (caps : List (G × Str)) :
    (Re.star true b).res ⟨p, c :: r, caps⟩ =
      (if m c then (Re.star true b).res ⟨some c, r, caps⟩ else []) ++ [⟨p, c :: r, caps⟩] := by
  simp only [Re.res, List.length_cons, starR, if_true, hb.cons]
  split <;> simp

theorem greedy_nil {b : R} (p : Option Char) (caps : List (G × Str)) :
    (Re.star true b).res ⟨p, [], caps⟩ = [⟨p, [], caps⟩] := by
  simp [Re.res, starR]

/-- after `\s*` an expression that does not begin with a blank can only begin behind all the blanks -/
theorem sps_seq {Y : R} (hn : Y.nullable = false) (hs : ∀ c, isSpace c = true → Y.starts c = false) {t : Str} {caps : List (G × Str)}
    (ht : ∀ c t', t = c :: t' → isSpace c = false) : ∀ {w : Str} {p : Option Char}, (∀ c ∈ w, isSpace c = true) →
    (Re.seq sps Y).res ⟨p, w ++ t, caps⟩ = Y.res ⟨(w.getLast?).or p, t, caps⟩ := by
  intro w
  induction w with
  | nil =>
    intro p _
    rw [List.nil_append, res_seq_one (sps_none ht)]
    rfl
  | cons c w ih =>
    intro p hw
    have e : (Re.seq sps Y).res ⟨p, (c :: w) ++ t, caps⟩ = (sps.res ⟨p, (c :: w) ++ t, caps⟩).flatMap Y.res := rfl
    have e2 : (Re.seq sps Y).res ⟨some c, w ++ t, caps⟩ = (sps.res ⟨some c, w ++ t, caps⟩).flatMap Y.res := rfl
    rw [e, List.cons_append]
    unfold sps
    rw [greedy_unfold (Verif.Step.cls .space)]
    rw [if_pos (by simpa [CSet.mem] using hw c (by simp))]
    rw [List.flatMap_append]
    have h1 : Y.res ⟨p, c :: (w ++ t), caps⟩ = [] := fail_start hn (hs c (hw c (by simp)))
    simp only [List.flatMap_cons, h1, List.flatMap_nil, List.append_nil]
    have := ih (p := some c) (fun d hd => hw d (by simp [hd]))
    rw [e2] at this
    rw [← lastOr w p c]
    exact this

/-- `\s*$` without a newline among the blanks -/
theorem spsEol_nil {t : Str} {caps : List (G × Str)} (ht : t ≠ []) (ht' : ∀ c t', t = c :: t' → isSpace c = false) :
    ∀ {w : Str} {p : Option Char}, (∀ c ∈ w, isSpace c = true) → '\n' ∉ w →
    (Re.seq sps (.eol true) : R).res ⟨p, w ++ t, caps⟩ = [] := by
  intro w
  induction w with
  | nil =>
    intro p _ _
    rw [List.nil_append, res_seq_one (sps_none ht')]
    cases t with
    | nil => exact absurd rfl ht
    | cons c t =>
      have : c ≠ '\n' := by rintro rfl; exact absurd (ht' _ _ rfl) (by decide)
      simp [Re.res, atEol, this]
  | cons c w ih =>
    intro p hw hnl
    have e : ∀ s, (Re.seq sps (.eol true) : R).res s = (sps.res s).flatMap (Re.eol true : R).res := fun _ => rfl
    have := ih (p := some c) (fun d hd => hw d (by simp [hd])) (by simp at hnl; exact hnl.2)
    rw [e] at this ⊢
    rw [List.cons_append]
    unfold sps at this ⊢
    rw [greedy_unfold (Verif.Step.cls .space), if_pos (by simpa [CSet.mem] using hw c (by simp)), List.flatMap_append, this]
    have hc : c ≠ '\n' := by rintro rfl; simp at hnl
    simp [Re.res, atEol, hc]

/-- `\s*$` before the last newline among the blanks -/
theorem spsEol_nl {t b : Str} {caps : List (G × Str)} (ht : t ≠ []) (ht' : ∀ c t', t = c :: t' → isSpace c = false)
    (hb : ∀ c ∈ b, isSpace c = true) (hbn : '\n' ∉ b) :
    ∀ {a : Str} {p : Option Char}, (∀ c ∈ a, isSpace c = true) →
    ∃ l, (Re.seq sps (.eol true) : R).res ⟨p, a ++ '\n' :: (b ++ t), caps⟩ = ⟨(a.getLast?).or p, '\n' :: (b ++ t), caps⟩ :: l ∧
      (a = [] → l = []) := by
  have e : ∀ s, (Re.seq sps (.eol true) : R).res s = (sps.res s).flatMap (Re.eol true : R).res := fun _ => rfl
  intro a
  induction a with
  | nil =>
    intro p _
    refine ⟨[], ?_, fun _ => rfl⟩
    rw [e, List.nil_append]
    have := spsEol_nil (p := some '\n') (caps := caps) ht ht' hb hbn
    rw [e] at this
    unfold sps at this ⊢
    rw [greedy_unfold (Verif.Step.cls .space), if_pos (by decide), List.flatMap_append, this]
    simp [Re.res, atEol]
  | cons c a ih =>
    intro p ha
    obtain ⟨l, hl, _⟩ := ih (p := some c) (fun d hd => ha d (by simp [hd]))
    rw [e] at hl ⊢
    refine ⟨l ++ (Re.eol true : R).res ⟨p, c :: (a ++ '\n' :: (b ++ t)), caps⟩, ?_, by simp⟩
    rw [List.cons_append]
    unfold sps at hl ⊢
    rw [greedy_unfold (Verif.Step.cls .space), if_pos (by simpa [CSet.mem] using ha c (by simp)), List.flatMap_append, hl, lastOr a p c]
    simp

/-- `\s*$` at the end of the text -/
theorem spsEol_end {caps : List (G × Str)} :
    ∀ {a : Str} {p : Option Char}, (∀ c ∈ a, isSpace c = true) →
    ((Re.seq sps (.eol true) : R).res ⟨p, a, caps⟩).head? = some ⟨(a.getLast?).or p, [], caps⟩ := by
  intro a p ha
  have h1 : (sps.res ⟨p, a ++ [], caps⟩).head? = some ⟨(a.getLast?).or p, [], caps⟩ :=
    Re.head_star_cls (cs := .space) (by simp) a p (fun c hc => ha c hc)
  rw [List.append_nil] at h1
  refine Re.head_seq h1 ?_
  simp [Re.res, atEol]

/-! ## Lines -/

/-- a text whose first line is not blank -/
def Nonblank (s : Str) : Prop := ∃ u c v, s = u ++ c :: v ∧ (∀ d ∈ u, isSpace d = true) ∧ '\n' ∉ u ∧ isSpace c = false

theorem nonblank_of_lineText {s : Str} (h : lineText s = true) (r : Str) : Nonblank (s ++ r) := by
  simp only [lineText, Bool.and_eq_true, Bool.not_eq_true', List.contains_eq_mem, decide_eq_false_iff_not] at h
  refine ⟨s.takeWhile isSpace, ?_⟩
  cases hd : s.dropWhile isSpace with
  | nil =>
    exfalso
    have : s.all isSpace = true := by
      rw [List.all_eq_true]; exact dropWhile_nil_iff.1 hd
    rw [this] at h; simp at h
  | cons c v =>
    refine ⟨c, v ++ r, ?_, ?_, ?_, ?_⟩
    · conv => lhs; rw [← List.takeWhile_append_dropWhile (p := isSpace) (l := s), hd]
      simp
    · intro d hd'
      exact List.all_eq_true.1 (List.all_takeWhile (p := isSpace) (l := s)) d hd'
    · intro hm
      exact h.2 ((List.takeWhile_prefix isSpace).subset hm)
    · exact dropWhile_head_false s c (by rw [hd]; rfl)

theorem nonblank_cons {c : Char} {s : Str} (h : isSpace c = false) : Nonblank (c :: s) := ⟨[], c, s, rfl, by simp, by simp, h⟩

theorem Nonblank.ne_nil {s : Str} (h : Nonblank s) : s ≠ [] := by
  obtain ⟨u, c, v, rfl, _⟩ := h; simp

/-- `^\s*$` does not match on a line with something on it -/
theorem Nonblank.spsEol {s : Str} (h : Nonblank s) (p : Option Char) (caps : List (G × Str)) :
    (Re.seq sps (.eol true) : R).res ⟨p, s, caps⟩ = [] := by
  obtain ⟨u, c, v, rfl, h1, h2, h3⟩ := h
  refine spsEol_nil (by simp) ?_ h1 h2
  intro d t hd
  simp only [List.cons.injEq] at hd
  rw [← hd.1]; exact h3

theorem Nonblank.spsEol_lead {s : Str} (h : Nonblank s) (p : Option Char) (caps : List (G × Str)) :
    (Re.seq sps (.eol true) : R).res ⟨p, '\n' :: s, caps⟩ = [⟨p, '\n' :: s, caps⟩] := by
  obtain ⟨u, c, v, rfl, h1, h2, h3⟩ := h
  obtain ⟨l, hl, hl'⟩ := spsEol_nl (t := c :: v) (b := u) (caps := caps) (a := []) (p := p) (by simp) (by
    intro d t hd
    simp only [List.cons.injEq] at hd
    rw [← hd.1]; exact h3) h1 h2 (by simp)
  rw [hl' rfl] at hl
  simpa using hl

theorem Nonblank.spsEol_gap {s w : Str} (h : Nonblank s) (p : Option Char) (caps : List (G × Str)) (hw : ∀ c ∈ w, isSpace c = true) :
    ((Re.seq sps (.eol true) : R).res ⟨p, w ++ '\n' :: s, caps⟩).head? = some ⟨(w.getLast?).or p, '\n' :: s, caps⟩ := by
  obtain ⟨u, c, v, rfl, h1, h2, h3⟩ := h
  obtain ⟨l, hl, _⟩ := spsEol_nl (t := c :: v) (b := u) (caps := caps) (a := w) (p := p) (by simp) (by
    intro d t hd
    simp only [List.cons.injEq] at hd
    rw [← hd.1]; exact h3) h1 h2 hw
  rw [hl]; rfl

theorem bol_yes {p : Option Char} (h : atBol true p = true) {s : Str} {caps : List (G × Str)} :
    (Re.bol true : R).res ⟨p, s, caps⟩ = [⟨p, s, caps⟩] := by simp [Re.res, h]

theorem bol_no {p : Option Char} (h : atBol true p = false) {s : Str} {caps : List (G × Str)} :
    (Re.bol true : R).res ⟨p, s, caps⟩ = [] := by simp [Re.res, h]

theorem eol_yes {s : Str} (h : atEol true s = true) {p : Option Char} {caps : List (G × Str)} :
    (Re.eol true : R).res ⟨p, s, caps⟩ = [⟨p, s, caps⟩] := by simp [Re.res, h]

theorem eol_no {s : Str} (h : atEol true s = false) {p : Option Char} {caps : List (G × Str)} :
    (Re.eol true : R).res ⟨p, s, caps⟩ = [] := by simp [Re.res, h]

/-! ## Rules that do not match -/

/-- the rules that begin with `^` -/
def bolRules : List R := [lineRule, headRule, separatorRule, preBlockRule, listRule, tableRule]

theorem blockRules_eq (blog : Bool) : blockRules blog = macroBlockRule :: (bolRules ++ [textRule blog]) := rfl

theorem bolRules_nil {p : Option Char} (h : atBol true p = false) {s : Str} {caps : List (G × Str)} :
    ∀ q ∈ bolRules, q.res ⟨p, s, caps⟩ = [] := by
  have hb : ∀ (b : R), (Re.seq (.bol true) b).res ⟨p, s, caps⟩ = [] := fun b => Re.res_seq_nil (bol_no h)
  intro q hq
  simp only [bolRules, List.mem_cons, List.not_mem_nil, or_false] at hq
  rcases hq with rfl | rfl | rfl | rfl | rfl | rfl
  · exact res_grp_nil (hb _)
  · exact res_grp_nil (hb _)
  · exact Re.res_seq_nil (res_grp_nil (hb _))
  · exact res_grp_nil (hb _)
  · exact res_grp_nil (Re.res_seq_nil (hb _))
  · exact hb _

theorem macro_nil {p : Option Char} {s : Str} {caps : List (G × Str)} (h : (c!"<<").isPrefixOf s = false) :
    macroBlockRule.res ⟨p, s, caps⟩ = [] := by
  refine grp_lit_nil ?_
  rintro t rfl
  simp at h

theorem macro_nil_head {p : Option Char} {c : Char} {s : Str} {caps : List (G × Str)} (h : c ≠ '<') :
    macroBlockRule.res ⟨p, c :: s, caps⟩ = [] := macro_nil (by simp only [List.isPrefixOf]; simp [Ne.symm h])

theorem line_res (p : Option Char) (s : Str) (caps : List (G × Str)) (hp : atBol true p = true) :
    lineRule.res ⟨p, s, caps⟩ = ((Re.seq sps (.eol true) : R).res ⟨p, s, caps⟩).map
      fun x => { x with caps := (.line, consumed s x.rest) :: x.caps } := by
  have : (Re.seq (.bol true) (.seq sps (.eol true)) : R).res ⟨p, s, caps⟩ = (Re.seq sps (.eol true) : R).res ⟨p, s, caps⟩ :=
    res_seq_one (bol_yes hp)
  show ((Re.seq (.bol true) (.seq sps (.eol true)) : R).res ⟨p, s, caps⟩).map _ = _
  rw [this]

theorem line_nil {p : Option Char} {s : Str} {caps : List (G × Str)} (h : Nonblank s) : lineRule.res ⟨p, s, caps⟩ = [] := by
  cases hp : atBol true p with
  | false => exact bolRules_nil hp _ (by simp [bolRules])
  | true => rw [line_res _ _ _ hp, h.spsEol]; rfl

theorem line_lead {p : Option Char} {s : Str} {caps : List (G × Str)} (h : Nonblank s) (hp : atBol true p = true) :
    lineRule.res ⟨p, '\n' :: s, caps⟩ = [⟨p, '\n' :: s, (.line, []) :: caps⟩] := by
  rw [line_res _ _ _ hp, h.spsEol_lead]
  simp [consumed]

theorem head_nil {p : Option Char} {s : Str} {caps : List (G × Str)} (h : s.head? ≠ some '=') : headRule.res ⟨p, s, caps⟩ = [] := by
  refine res_grp_nil ?_
  cases hp : atBol true p with
  | false => exact Re.res_seq_nil (bol_no hp)
  | true =>
    refine (res_seq_one (bol_yes hp)).trans ?_
    refine Re.res_seq_nil (res_grp_nil (Re.res_nil_of_noStart (by decide) ?_))
    rintro c t rfl
    simp at h
    simp [Re.plus, Re.starts, Re.nullable, ch, CSet.mem, h]

/-- what separators, lists and tables begin with: `^\s*` and then no blank -/
theorem bolSps {Y : R} (hn : Y.nullable = false) (hs : ∀ c, isSpace c = true → Y.starts c = false) {w t : Str} {caps : List (G × Str)}
    {p : Option Char} (hp : atBol true p = true) (hw : ∀ c ∈ w, isSpace c = true) (ht : ∀ c t', t = c :: t' → isSpace c = false) :
    (Re.seq (.bol true) (.seq sps Y)).res ⟨p, w ++ t, caps⟩ = Y.res ⟨(w.getLast?).or p, t, caps⟩ := by
  rw [res_seq_one (bol_yes hp), sps_seq hn hs ht hw]

/-- a repetition of a class before `$` fails if neither a member of the class nor a newline comes next -/
theorem starEol_nil {cs : CSet} {t : Str} {caps : List (G × Str)} (ht : ∃ c t', t = c :: t' ∧ cs.mem c = false ∧ c ≠ '\n') :
    ∀ {w : Str} {p : Option Char}, (∀ c ∈ w, cs.mem c = true) → '\n' ∉ w →
    (Re.seq (.star true (.cls cs)) (.eol true) : R).res ⟨p, w ++ t, caps⟩ = [] := by
  have e : ∀ s, (Re.seq (.star true (.cls cs)) (.eol true) : R).res s = ((Re.star true (.cls cs)).res s).flatMap (Re.eol true : R).res := fun _ => rfl
  intro w
  induction w with
  | nil =>
    intro p _ _
    obtain ⟨c, t', rfl, h1, h2⟩ := ht
    rw [e, List.nil_append, greedy_unfold (Verif.Step.cls cs), h1]
    simp [Re.res, atEol, h2]
  | cons c w ih =>
    intro p hw hnl
    have := ih (p := some c) (fun d hd => hw d (by simp [hd])) (by simp at hnl; exact hnl.2)
    rw [e] at this ⊢
    rw [List.cons_append, greedy_unfold (Verif.Step.cls cs), if_pos (hw c (by simp)), List.flatMap_append, this]
    have hc : c ≠ '\n' := by rintro rfl; simp at hnl
    simp [Re.res, atEol, hc]

theorem atEol_cases {r : Str} (h : atEol true r = true) : r = [] ∨ ∃ t, r = '\n' :: t := by
  cases r with
  | nil => exact .inl rfl
  | cons c t => simp [atEol] at h; exact .inr ⟨t, by rw [h]⟩

/-- a character that is neither at the end of a line nor in the first part comes first -/
theorem prefix_line {p line r t : Str} (hp : '\n' ∉ p) (hr : atEol true r = true) (h : line ++ r = p ++ t) :
    ∃ q, line = p ++ q ∧ t = q ++ r := by
  rw [List.append_eq_append_iff] at h
  rcases h with ⟨a, rfl, ha⟩ | ⟨a, rfl, ha⟩
  · cases a with
    | nil => exact ⟨[], by simp, by simpa using ha.symm⟩
    | cons c a =>
      rcases atEol_cases hr with rfl | ⟨u, rfl⟩
      · simp at ha
      · simp only [List.cons_append, List.cons.injEq] at ha
        rw [← ha.1] at hp; simp at hp
  · exact ⟨a, rfl, ha⟩

theorem sep_starts (c : Char) (h : isSpace c = true) : (lit c!"----" : R).starts c = false := by
  have : c ≠ '-' := by rintro rfl; exact absurd h (by decide)
  simp [Re.lit, Re.starts, Re.nullable, CSet.mem, this]

theorem sep_res {p : Option Char} (hp : atBol true p = true) {w t : Str} {caps : List (G × Str)} (hw : ∀ c ∈ w, isSpace c = true)
    (ht : ∀ c t', t = c :: t' → isSpace c = false) :
    separatorRule.res ⟨p, w ++ t, caps⟩ = (((lit c!"----" : R).res ⟨(w.getLast?).or p, t, caps⟩).map
      fun x => { x with caps := (G.separator, consumed (w ++ t) x.rest) :: x.caps }).flatMap (Re.seq blanks (.eol true) : R).res := by
  show (((Re.seq (.bol true) (.seq sps (lit c!"----")) : R).res ⟨p, w ++ t, caps⟩).map _).flatMap _ = _
  rw [bolSps (by decide) sep_starts hp hw ht]
  rfl

theorem sep_nil {p : Option Char} {w line r : Str} {caps : List (G × Str)} (hw : ∀ c ∈ w, isSpace c = true)
    (hl : ∀ c t', line = c :: t' → isSpace c = false) (hne : line ≠ []) (hnl : '\n' ∉ line) (hr : atEol true r = true)
    (h : ((c!"----").isPrefixOf line && (line.drop 4).all (fun c => c == ' ' || c == '\t')) = false) :
    separatorRule.res ⟨p, w ++ (line ++ r), caps⟩ = [] := by
  cases hp : atBol true p with
  | false => exact bolRules_nil hp _ (by simp [bolRules])
  | true =>
    rw [sep_res hp hw (by
      intro c t' hc
      cases line with
      | nil => exact absurd rfl hne
      | cons d l => simp only [List.cons_append, List.cons.injEq] at hc; rw [← hc.1]; exact hl d l rfl)]
    by_cases hx : ∃ t, line ++ r = c!"----" ++ t
    · obtain ⟨t, ht⟩ := hx
      obtain ⟨q, rfl, rfl⟩ := prefix_line (by decide) hr ht
      rw [ht, Re.res_lit]
      simp only [List.map_cons, List.map_nil, List.flatMap_cons, List.flatMap_nil, List.append_nil]
      have hq : q.all (fun c => c == ' ' || c == '\t') = false := by simpa using h
      have hd : q = q.takeWhile (fun c => c == ' ' || c == '\t') ++ q.dropWhile (fun c => c == ' ' || c == '\t') :=
        (List.takeWhile_append_dropWhile ..).symm
      cases hdw : q.dropWhile (fun c => c == ' ' || c == '\t') with
      | nil =>
        rw [dropWhile_nil_iff] at hdw
        rw [List.all_eq_true.2 hdw] at hq; simp at hq
      | cons c v =>
        rw [hdw] at hd
        have hc : (c == ' ' || c == '\t') = false := dropWhile_head_false q c (by rw [hdw]; rfl)
        rw [hd, List.append_assoc]
        refine starEol_nil (cs := .union (.chr ' ') (.chr '\t')) ⟨c, v ++ r, rfl, ?_, ?_⟩ ?_ ?_
        · simpa [CSet.mem] using hc
        · rintro rfl
          apply hnl; rw [hd]; simp
        · intro x hx
          have := List.all_eq_true.1 (List.all_takeWhile (p := (fun c => c == ' ' || c == '\t')) (l := q)) x hx
          simpa [CSet.mem] using this
        · intro hm
          apply hnl
          rw [hd]
          simp only [List.mem_append]
          right; left; exact hm
    · rw [Re.res_lit_nil _ _ _ _ (fun t ht => hx ⟨t, ht⟩)]
      rfl

/-- the part of a list that begins with its first mark -/
def listHead : R := cat [.alt (.seq (ch '*') (.cls (.compl (.union (.chr '*') (.chr '#')))))
      (.seq (ch '#') (.cls (.compl (.union (.chr '#') (.chr '*'))))),
    .star true dot, .eol true]

theorem list_starts (c : Char) (h : isSpace c = true) : listHead.starts c = false := by
  have h1 : c ≠ '*' := by rintro rfl; exact absurd h (by decide)
  have h2 : c ≠ '#' := by rintro rfl; exact absurd h (by decide)
  simp [listHead, cat, ch, Re.starts, Re.nullable, CSet.mem, h1, h2]

theorem list_res {p : Option Char} (hp : atBol true p = true) {w t : Str} {caps : List (G × Str)} (hw : ∀ c ∈ w, isSpace c = true)
    (ht : ∀ c t', t = c :: t' → isSpace c = false) :
    listRule.res ⟨p, w ++ t, caps⟩ = ((listHead.res ⟨(w.getLast?).or p, t, caps⟩).flatMap (Re.star true listMore).res).map
      fun x => { x with caps := (G.list, consumed (w ++ t) x.rest) :: x.caps } := by
  show (((Re.seq (.bol true) (.seq sps listHead) : R).res ⟨p, w ++ t, caps⟩).flatMap _).map _ = _
  rw [bolSps (by decide) list_starts hp hw ht]

theorem list_nil {p : Option Char} {w line r : Str} {caps : List (G × Str)} (hw : ∀ c ∈ w, isSpace c = true)
    (h : (match line with
      | c :: d :: _ => !(c == '*' || c == '#') || d == '*' || d == '#'
      | c :: [] => !(c == '*' || c == '#')
      | [] => true) = true)
    (hl : ∀ c t', line = c :: t' → isSpace c = false) (hne : line ≠ []) :
    listRule.res ⟨p, w ++ (line ++ r), caps⟩ = [] := by
  cases hp : atBol true p with
  | false => exact bolRules_nil hp _ (by simp [bolRules])
  | true =>
    cases line with
    | nil => exact absurd rfl hne
    | cons c l =>
      rw [list_res hp hw (by
        intro d t' hc
        simp only [List.cons_append, List.cons.injEq] at hc; rw [← hc.1]; exact hl c l rfl)]
      have : listHead.res ⟨(w.getLast?).or p, (c :: l) ++ r, caps⟩ = [] := by
        refine Re.res_seq_nil ?_
        by_cases hc : c = '*' ∨ c = '#'
        · cases l with
          | nil => rcases hc with rfl | rfl <;> simp at h
          | cons d l =>
            have hd : d = '*' ∨ d = '#' := by
              rcases hc with rfl | rfl <;> simpa using h
            rcases hc with rfl | rfl <;> rcases hd with rfl | rfl <;> simp [Re.res, ch, CSet.mem]
        · simp only [not_or] at hc
          simp [Re.res, ch, CSet.mem, hc]
      rw [this]; rfl

/-- the part of a table row that begins with its first bar -/
def tableHead : R := .seq (.grp .table (cat [ch '|', anyDots, sps, opt (ch '|')])) (.seq sps (.eol true))

theorem table_starts (c : Char) (h : isSpace c = true) : tableHead.starts c = false := by
  have h1 : c ≠ '|' := by rintro rfl; exact absurd h (by decide)
  simp [tableHead, cat, ch, Re.starts, Re.nullable, CSet.mem, h1]

theorem table_res {p : Option Char} (hp : atBol true p = true) {w t : Str} {caps : List (G × Str)} (hw : ∀ c ∈ w, isSpace c = true)
    (ht : ∀ c t', t = c :: t' → isSpace c = false) :
    tableRule.res ⟨p, w ++ t, caps⟩ = tableHead.res ⟨(w.getLast?).or p, t, caps⟩ :=
  bolSps (by decide) table_starts hp hw ht

theorem table_nil {p : Option Char} {w t : Str} {caps : List (G × Str)} (hw : ∀ c ∈ w, isSpace c = true)
    (ht : ∀ c t', t = c :: t' → isSpace c = false) (h : t.head? ≠ some '|') : tableRule.res ⟨p, w ++ t, caps⟩ = [] := by
  cases hp : atBol true p with
  | false => exact bolRules_nil hp _ (by simp [bolRules])
  | true =>
    rw [table_res hp hw ht]
    refine Re.res_nil_of_noStart (by decide) ?_
    rintro c t' rfl
    simp at h
    simp [tableHead, cat, ch, Re.starts, Re.nullable, CSet.mem, h]

theorem preBlock_nil {p : Option Char} {s : Str} {caps : List (G × Str)} (h : ∀ t, s = c!"{{{" ++ t → Nonblank t) :
    preBlockRule.res ⟨p, s, caps⟩ = [] := by
  refine res_grp_nil ?_
  cases hp : atBol true p with
  | false => exact Re.res_seq_nil (bol_no hp)
  | true =>
    refine (res_seq_one (bol_yes hp)).trans ?_
    by_cases hx : ∃ t, s = c!"{{{" ++ t
    · obtain ⟨t, rfl⟩ := hx
      refine (res_seq_one (Re.res_lit _ _ _ _)).trans ?_
      have := (h t rfl).spsEol (((c!"{{{").getLast?).or p) caps
      refine (res_seq_assoc sps (.eol true) _ _).symm.trans ?_
      exact Re.res_seq_nil this
    · exact Re.res_seq_nil (Re.res_lit_nil _ _ _ _ (fun t ht => hx ⟨t, ht⟩))

/-! ## Plain lines -/

theorem line_parts {line : Str} (h : lineText line = true) : ∃ u t, line = u ++ t ∧ (∀ c ∈ u, isSpace c = true) ∧ '\n' ∉ u ∧
    t = line.dropWhile isSpace ∧ t ≠ [] ∧ (∀ c t', t = c :: t' → isSpace c = false) ∧ '\n' ∉ t := by
  simp only [lineText, Bool.and_eq_true, Bool.not_eq_true', List.contains_eq_mem, decide_eq_false_iff_not] at h
  have hd := (List.takeWhile_append_dropWhile (p := isSpace) (l := line)).symm
  refine ⟨line.takeWhile isSpace, line.dropWhile isSpace, hd, ?_, ?_, rfl, ?_, ?_, ?_⟩
  · intro d hd'
    exact List.all_eq_true.1 (List.all_takeWhile (p := isSpace) (l := line)) d hd'
  · intro hm
    exact h.2 ((List.takeWhile_prefix isSpace).subset hm)
  · intro hn
    rw [List.all_eq_true.2 (dropWhile_nil_iff.1 hn)] at h; simp at h
  · intro c t' hc
    exact dropWhile_head_false line c (by rw [hc]; rfl)
  · intro hm
    exact h.2 ((List.dropWhile_suffix isSpace).subset hm)

/-- no block that may be indented begins on a plain line; `w`: a newline before it, or nothing -/
theorem plain_indented {b : Start} (hb : b ≠ .none) {p : Option Char} {w line r : Str} {caps : List (G × Str)}
    (hw : ∀ c ∈ w, isSpace c = true) (h : lineText line = true) (hs : plainStart b line = true) (hr : atEol true r = true) :
    separatorRule.res ⟨p, w ++ (line ++ r), caps⟩ = [] ∧ listRule.res ⟨p, w ++ (line ++ r), caps⟩ = [] ∧
      tableRule.res ⟨p, w ++ (line ++ r), caps⟩ = [] := by
  obtain ⟨u, t, rfl, hu, hun, ht, htne, htf, htn⟩ := line_parts h
  simp only [plainStart, ← ht, Bool.and_eq_true, Bool.or_eq_true, Bool.not_eq_true', beq_iff_eq, hb, false_or,
    bne_iff_ne] at hs
  obtain ⟨_, ⟨h1, h2⟩, h3⟩ := hs
  have hwu : ∀ c ∈ w ++ u, isSpace c = true := by
    intro c hc
    rw [List.mem_append] at hc
    exact hc.elim (hw c) (hu c)
  have e : w ++ (u ++ t ++ r) = (w ++ u) ++ (t ++ r) := by simp
  rw [e]
  refine ⟨sep_nil hwu htf htne htn hr h1, list_nil hwu h3 htf htne, table_nil hwu ?_ ?_⟩
  · intro c t' hc
    cases t with
    | nil => exact absurd rfl htne
    | cons d l => simp only [List.cons_append, List.cons.injEq] at hc; rw [← hc.1]; exact htf d l rfl
  · cases t with
    | nil => exact absurd rfl htne
    | cons d l => simpa using h2

/-- no block but text begins on a plain line -/
theorem plain_all {p : Option Char} {line r : Str} {caps : List (G × Str)} (h : lineText line = true)
    (hs : plainStart .all line = true) (hr : atEol true r = true) :
    ∀ q ∈ macroBlockRule :: bolRules, q.res ⟨p, line ++ r, caps⟩ = [] := by
  obtain ⟨h1, h2, h3⟩ := plain_indented (p := p) (caps := caps) (w := []) (by simp) (by simp) h hs hr
  simp only [plainStart, Bool.and_eq_true, Bool.or_eq_true, Bool.not_eq_true', bne_self_eq_false, false_or, Bool.false_eq_true,
    bne_iff_ne, ne_eq] at hs
  obtain ⟨⟨⟨h4, h5⟩, h6⟩, _⟩ := hs
  have hl := h
  simp only [lineText, Bool.and_eq_true, Bool.not_eq_true', List.contains_eq_mem, decide_eq_false_iff_not] at hl
  have hne : line ≠ [] := by rintro rfl; simp at hl
  intro q hq
  simp only [bolRules, List.mem_cons, List.not_mem_nil, or_false] at hq
  rcases hq with rfl | rfl | rfl | rfl | rfl | rfl | rfl
  · refine macro_nil ?_
    cases hx : (c!"<<").isPrefixOf (line ++ r) with
    | false => rfl
    | true =>
      rw [List.isPrefixOf_iff_prefix] at hx
      obtain ⟨t, ht⟩ := hx
      obtain ⟨q, rfl, _⟩ := prefix_line (by decide) hr ht.symm
      simp at h4
  · exact line_nil (nonblank_of_lineText h r)
  · refine head_nil ?_
    cases line with
    | nil => exact absurd rfl hne
    | cons c l => simpa using h5
  · exact h1
  · refine preBlock_nil ?_
    intro t ht
    obtain ⟨q, rfl, rfl⟩ := prefix_line (by decide) hr ht
    refine nonblank_of_lineText ?_ r
    have : q.all isSpace = false := by simpa using h6
    simp only [lineText, this, Bool.not_false, Bool.true_and, Bool.not_eq_true', List.contains_eq_mem, decide_eq_false_iff_not]
    intro hm; apply hl.2; simp [hm]
  · exact h2
  · exact h3

end Verif.Creole
