import Verif.Creole.BlockCut
import Verif.Creole.BlockHits

/-!
# Reading on after a blank line
-/

namespace Verif.Creole

open Verif Re Py Spec Spec.Cr

/-! ## The beginning of the text and the beginning of a line -/

/-- `^` with `re.MULTILINE` only, and look-behind only for the absence of characters other than the newline -/
def lineLook : R → Bool
  | .seq a b | .alt a b => lineLook a && lineLook b
  | .star _ a | .grp _ a | .notAhead a => lineLook a
  | .bol m => m
  | .behind n cs => n && !cs.mem '\n'
  | _ => true

/-- the beginning of the text as the beginning of a line -/
def atLine (s : St G) : St G := { s with prev := some (s.prev.getD '\n') }

theorem flatMap_atLine {f : St G → List (St G)} (h : ∀ x, f (atLine x) = (f x).map atLine) :
    ∀ l : List (St G), (l.map atLine).flatMap f = (l.flatMap f).map atLine
  | [] => rfl
  | x :: l => by
    rw [List.map_cons, List.flatMap_cons, List.flatMap_cons, List.map_append, h, flatMap_atLine h l]

theorem res_atLine {r : R} : lineLook r = true → ∀ s : St G, r.res (atLine s) = (r.res s).map atLine := by
  induction r with
  | eps => intro _ s; rfl
  | cls cs =>
    intro _ s
    obtain ⟨p, rest, caps⟩ := s
    cases rest with
    | nil => rfl
    | cons c rest =>
      simp only [Re.res, atLine]
      cases cs.mem c <;> rfl
  | seq a b iha ihb =>
    intro h s
    simp only [lineLook, Bool.and_eq_true] at h
    simp only [Re.res]
    rw [iha h.1, flatMap_atLine (ihb h.2)]
  | alt a b iha ihb =>
    intro h s
    simp only [lineLook, Bool.and_eq_true] at h
    simp only [Re.res, iha h.1, ihb h.2, List.map_append]
  | star g a iha =>
    intro h s
    simp only [Re.res]
    show starR g a.res s.rest.length (atLine s) = _
    generalize s.rest.length = n
    induction n generalizing s with
    | zero => rfl
    | succ n ih =>
      simp only [starR]
      rw [iha h, flatMap_atLine ih]
      split <;> simp
  | grp g a iha =>
    intro h s
    simp only [Re.res]
    rw [iha h, List.map_map, List.map_map]
    rfl
  | bref g =>
    intro _ s
    have e : ∀ (w : Str) (p : Option Char) (r : Str), eatStr w (some (p.getD '\n')) r =
        (eatStr w p r).map fun x => (some (x.1.getD '\n'), x.2) := by
      intro w
      induction w with
      | nil => intro p r; rfl
      | cons c w ih =>
        intro p r
        cases r with
        | nil => rfl
        | cons d r =>
          simp only [eatStr]
          by_cases hd : (d == c) = true
          · rw [if_pos hd, ← ih]; rfl
          · rw [if_neg hd]; rfl
    simp only [Re.res]
    show (match capGet g s.caps with | none => [] | some w => _) = _
    cases hc : capGet g s.caps with
    | none => rfl
    | some w =>
      have := e w s.prev s.rest
      simp only [atLine, this]
      cases eatStr w s.prev s.rest with
      | none => rfl
      | some x => rfl
  | bol m =>
    intro h s
    simp only [lineLook] at h
    subst h
    obtain ⟨p, rest, caps⟩ := s
    cases p with
    | none => rfl
    | some c =>
      show (Re.bol true : R).res ⟨some c, rest, caps⟩ = _
      simp only [Re.res]
      split <;> rfl
  | eol m =>
    intro _ s
    simp only [Re.res]
    by_cases h : atEol m s.rest = true
    · rw [if_pos h, if_pos (show atEol m (atLine s).rest = true from h)]; rfl
    · rw [if_neg h, if_neg (show ¬ atEol m (atLine s).rest = true from h)]; rfl
  | behind n cs =>
    intro h s
    simp only [lineLook, Bool.and_eq_true, Bool.not_eq_true'] at h
    obtain ⟨rfl, h⟩ := h
    obtain ⟨p, rest, caps⟩ := s
    cases p with
    | none =>
      show (Re.behind true cs : R).res ⟨some '\n', rest, caps⟩ = _
      simp [Re.res, h, atLine]
    | some c =>
      show (Re.behind true cs : R).res ⟨some c, rest, caps⟩ = _
      simp only [Re.res]
      cases cs.mem c <;> rfl
  | notAhead a iha =>
    intro h s
    simp only [Re.res]
    rw [iha h, List.isEmpty_map]
    cases (a.res s).isEmpty <;> rfl

theorem matchAt_atLine {r : R} (h : lineLook r = true) (adv : Bool) (s : Str) :
    (r.matchAt adv (some '\n') s).map St.core = (r.matchAt adv none s).map St.core := by
  have e := res_atLine h ⟨none, s, []⟩
  have e' : r.res ⟨some '\n', s, []⟩ = (r.res ⟨none, s, []⟩).map atLine := e
  cases adv with
  | false =>
    rw [Re.matchAt_false, Re.matchAt_false, e', List.head?_map, Option.map_map]
    rfl
  | true =>
    rw [Re.matchAt_true, Re.matchAt_true, e', List.find?_map, Option.map_map]
    rfl

theorem scanAux_atLine {r : R} (h : lineLook r = true) (s : Str) : r.scanAux (some '\n') s 0 = r.scanAux none s 0 := by
  have h0 := matchAt_atLine h false s
  have h1 := matchAt_atLine h true s
  cases s with
  | nil =>
    simp only [Re.scanAux]
    cases h2 : r.matchAt false (some '\n') [] <;> cases h3 : r.matchAt false none [] <;> simp_all [St.core]
  | cons c cs =>
    simp only [Re.scanAux]
    cases h2 : r.matchAt false (some '\n') (c :: cs) <;> cases h3 : r.matchAt false none (c :: cs) <;>
      rw [h2, h3] at h0 <;> simp only [Option.map_none, Option.map_some, reduceCtorEq, Option.some.injEq, St.core,
        Prod.mk.injEq] at h0
    · rename_i x y
      simp only [h0.1, h0.2]
      cases h4 : r.matchAt true (some '\n') (c :: cs) <;> cases h5 : r.matchAt true none (c :: cs) <;>
        rw [h4, h5] at h1 <;> simp only [Option.map_none, Option.map_some, reduceCtorEq, Option.some.injEq, St.core,
          Prod.mk.injEq] at h1
      · rename_i u v
        simp only [h1.1, h1.2]

theorem runR_atLine {r : R} (h : lineLook r = true) (hd : G → Match G → PS → PM) (s : Str) (st : PS) :
    runR r hd (some '\n') s st = runR r hd none s st := by
  unfold runR
  rw [scanAux_atLine h]

/-! ## A newline before a list -/

theorem itemTail_starts (c : Char) (h : isSpace c = true) :
    (Re.seq (.grp .item (cat [.grp .item_head (.plus true (.cls (.union (.chr '#') (.chr '*')))), sps, .grp .item_text anyDots]))
      (.seq sps (.eol true)) : R).starts c = false := by
  have h1 : c ≠ '*' := by rintro rfl; exact absurd h (by decide)
  have h2 : c ≠ '#' := by rintro rfl; exact absurd h (by decide)
  simp [cat, Re.plus, Re.starts, Re.nullable, CSet.mem, h1, h2]

/-- a handler that only looks at the groups -/
def OfCaps (hd : G → Match G → PS → PM) : Prop := ∀ g w w' caps st, hd g ⟨w, caps⟩ st = hd g ⟨w', caps⟩ st

theorem OfCaps.onHit {hd : G → Match G → PS → PM} (h : OfCaps hd) (r : R) (w w' : Str) (caps : List (G × Str)) (st : PS) :
    onHit r hd st ⟨w, caps⟩ = onHit r hd st ⟨w', caps⟩ := by
  have e : dispatch (groupOrder r) ⟨w, caps⟩ = dispatch (groupOrder r) ⟨w', caps⟩ := rfl
  unfold Creole.onHit
  rw [e]
  cases dispatch (groupOrder r) ⟨w', caps⟩ with
  | none => rfl
  | some g => exact h g w w' caps st

theorem block_ofCaps : OfCaps blockRepl := by
  intro g w w' caps st
  cases g <;> rfl

theorem item_ofCaps : OfCaps fun g m st => match g with
    | .item | .item_head | .item_text => itemRepl m st
    | _ => .error .attributeError := by
  intro g w w' caps st
  cases g <;> rfl

theorem items_lead {hd : G → Match G → PS → PM} (hoc : OfCaps hd) {i t : Str} {c : Char} (hi : ∀ c ∈ i, isSpace c = true) (hc : isSpace c = false) (st : PS) :
    subAll itemRe hd ('\n' :: (i ++ c :: t)) st = subAll itemRe hd (i ++ c :: t) st := by
  rw [subAll_eq, subAll_eq]
  have hct : ∀ d t', c :: t = d :: t' → isSpace d = false := by
    intro d t' hd
    simp only [List.cons.injEq] at hd
    rw [← hd.1]; exact hc
  have hi' : ∀ d ∈ '\n' :: i, isSpace d = true := by
    intro d hd
    simp only [List.mem_cons] at hd
    rcases hd with rfl | hd
    · decide
    · exact hi d hd
  have e1 := bolSps (p := none) (caps := []) (by decide) itemTail_starts rfl hi hct
  have e2 := bolSps (p := none) (caps := []) (by decide) itemTail_starts rfl hi' hct
  have e1' : itemRe.res ⟨none, i ++ c :: t, []⟩ = _ := e1
  have e2' : itemRe.res ⟨none, ('\n' :: i) ++ c :: t, []⟩ = _ := e2
  have hcore := Re.res_core (r := (Re.seq (.grp .item (cat [.grp .item_head (.plus true (.cls (.union (.chr '#') (.chr '*')))), sps, .grp .item_text anyDots]))
      (.seq sps (.eol true)) : R)) (by decide) (s := ⟨(('\n' :: i).getLast?).or none, c :: t, []⟩) (t := ⟨(i.getLast?).or none, c :: t, []⟩) rfl
  rw [← e1', ← e2'] at hcore
  have hh := congrArg List.head? hcore
  rw [List.head?_map, List.head?_map, ← Re.matchAt_false, ← Re.matchAt_false] at hh
  cases h1 : itemRe.matchAt false none (i ++ c :: t) with
  | none =>
    rw [h1] at hh
    simp only [Option.map_none, Option.map_eq_none_iff] at hh
    rw [List.cons_append] at hh
    rw [runR_skip hh, runR_atLine (by decide)]
  | some x =>
    rw [h1] at hh
    simp only [Option.map_some, Option.map_eq_some_iff] at hh
    obtain ⟨y, hy, hxy⟩ := hh
    obtain ⟨px, rx, cx⟩ := x
    obtain ⟨py, ry, cy⟩ := y
    simp only [St.core, Prod.mk.injEq] at hxy
    obtain ⟨rfl, rfl⟩ := hxy
    -- the item ends behind its first mark
    have hmem : (⟨px, ry, cy⟩ : St G) ∈ itemRe.res ⟨none, i ++ c :: t, []⟩ := Re.matchAt_mem h1
    rw [e1'] at hmem
    obtain ⟨w, hw⟩ := Re.res_reach hmem
    have hlt := Re.res_lt (by decide) hmem
    have hrest := hw.rest
    simp only at hrest hlt
    have hwn : w ≠ [] := by
      rintro rfl
      rw [List.nil_append] at hrest
      rw [hrest] at hlt
      omega
    have s1 : i ++ c :: t = (i ++ w) ++ ry := by rw [hrest]; simp
    rw [List.cons_append] at hy
    rw [s1] at h1 hy ⊢
    rw [runR_take (by simp [hwn]) h1]
    rw [show '\n' :: (i ++ w ++ ry) = ('\n' :: (i ++ w)) ++ ry from rfl] at hy ⊢
    rw [runR_take (by simp) hy]
    have hl : ('\n' :: (i ++ w)).getLast? = (i ++ w).getLast? := by
      rw [← List.singleton_append, List.getLast?_append]
      cases hx : (i ++ w).getLast? with
      | none => rw [List.getLast?_eq_none_iff] at hx; simp [hwn] at hx
      | some d => rfl
    rw [hl, hoc.onHit]

/-! ## The newline before a block -/

theorem seqEol_caps {cs : CSet} (k : List (G × Str)) : ∀ (r : Str) (p : Option Char),
    (Re.seq (.star true (.cls cs)) (.eol true) : R).res ⟨p, r, k⟩ =
      ((Re.seq (.star true (.cls cs)) (.eol true) : R).res ⟨p, r, []⟩).map fun x => { x with caps := k } := by
  have e : ∀ s, (Re.seq (.star true (.cls cs)) (.eol true) : R).res s = ((Re.star true (.cls cs)).res s).flatMap (Re.eol true : R).res := fun _ => rfl
  intro r
  induction r with
  | nil =>
    intro p
    rw [e, e, greedy_nil, greedy_nil]
    rfl
  | cons c r ih =>
    intro p
    have := ih (some c)
    rw [e, e] at this ⊢
    rw [greedy_unfold (Verif.Step.cls cs), greedy_unfold (Verif.Step.cls cs), List.flatMap_append, List.flatMap_append, List.map_append]
    have h2 : (Re.eol true : R).res ⟨p, c :: r, k⟩ = ((Re.eol true : R).res ⟨p, c :: r, []⟩).map fun x => { x with caps := k } := by
      simp only [Re.res]
      split <;> rfl
    simp only [List.flatMap_cons, List.flatMap_nil, List.append_nil]
    rw [h2]
    congr 1
    cases cs.mem c with
    | false => rfl
    | true => exact this

/-- separators: the newline belongs to the group, which is not used -/
theorem sep_lead {p : Option Char} (hp : atBol true p = true) {i t : Str} (hi : ∀ c ∈ i, isSpace c = true)
    (ht : ∀ c t', t = c :: t' → isSpace c = false) :
    (separatorRule.res ⟨p, '\n' :: (i ++ t), []⟩).head?.map (fun x => x.rest) =
      (separatorRule.res ⟨some '\n', i ++ t, []⟩).head?.map (fun x => x.rest) := by
  have hi' : ∀ d ∈ '\n' :: i, isSpace d = true := by
    intro d hd
    simp only [List.mem_cons] at hd
    rcases hd with rfl | hd
    · decide
    · exact hi d hd
  have e2 := sep_res (caps := []) hp hi' ht
  rw [List.cons_append] at e2
  rw [e2, sep_res (p := some '\n') (caps := []) rfl hi ht, ← lastOr i p '\n']
  by_cases hx : ∃ z, t = c!"----" ++ z
  · obtain ⟨z, rfl⟩ := hx
    rw [Re.res_lit]
    simp only [List.map_cons, List.map_nil, List.flatMap_cons, List.flatMap_nil, List.append_nil]
    unfold blanks
    rw [seqEol_caps [_], seqEol_caps [(G.separator, consumed (i ++ _) _)], List.head?_map, List.head?_map, Option.map_map, Option.map_map]
    rfl
  · rw [Re.res_lit_nil _ _ _ _ (fun z hz => hx ⟨z, hz⟩)]
    rfl

theorem sep_caps {s x : St G} (hs : s.caps = []) (h : x ∈ separatorRule.res s) : ∃ w, x.caps = [(.separator, w)] := by
  unfold separatorRule at h
  rw [cat, mem_res_seq] at h
  obtain ⟨y, h1, h2⟩ := h
  rw [mem_res_grp] at h1
  obtain ⟨z, h1, rfl⟩ := h1
  have e1 := Re.res_caps_eq (by decide) h2
  have e2 := Re.res_caps_eq (by decide) h1
  simp only at e1
  exact ⟨_, by rw [e1, e2, hs]⟩

/-- the rules whose blocks may not be indented do not match before blanks or other characters -/
theorem unindented_nil {p : Option Char} {i v : Str} {c : Char} (hi : ∀ c ∈ i, isSpace c = true) (h1 : c ≠ '<') (h2 : c ≠ '=') (h3 : c ≠ '{') :
    macroBlockRule.res ⟨p, i ++ c :: v, []⟩ = [] ∧ headRule.res ⟨p, i ++ c :: v, []⟩ = [] ∧ preBlockRule.res ⟨p, i ++ c :: v, []⟩ = [] := by
  have key : ∃ d r, i ++ c :: v = d :: r ∧ d ≠ '<' ∧ d ≠ '=' ∧ d ≠ '{' := by
    cases i with
    | nil => exact ⟨c, v, rfl, h1, h2, h3⟩
    | cons d i =>
      refine ⟨d, i ++ c :: v, rfl, ?_⟩
      have := hi d (by simp)
      exact ⟨by rintro rfl; exact absurd this (by decide), by rintro rfl; exact absurd this (by decide), by rintro rfl; exact absurd this (by decide)⟩
  obtain ⟨d, r, he, d1, d2, d3⟩ := key
  rw [he]
  refine ⟨macro_nil_head d1, head_nil (by simpa using d2), preBlock_nil ?_⟩
  intro t ht
  simp only [List.cons_append, List.nil_append, List.cons.injEq] at ht
  exact absurd ht.1 d3

theorem getLast?_lead {w : Str} (hw : w ≠ []) : ('\n' :: w).getLast? = w.getLast? := by
  rw [← List.singleton_append, List.getLast?_append]
  cases hx : w.getLast? with
  | none => rw [List.getLast?_eq_none_iff] at hx; exact absurd hx hw
  | some d => rfl

theorem head?_cases {l : List (St G)} : l = [] ∨ ∃ x, l.head? = some x := by
  cases l with
  | nil => exact .inl rfl
  | cons x l => exact .inr ⟨x, rfl⟩

/-- one rule for both -/
theorem lead_step {l₁ l₂ : List R} {a : R} (he : blockRules true = l₁ ++ a :: l₂) (hnn : a.nullable = false) {p : Option Char} {s : Str} {x y : St G} {st : PS}
    (hl : ∀ q ∈ l₁, ∀ z ∈ q.res ⟨p, '\n' :: s, []⟩, z.rest.length = ('\n' :: s).length) (hb : ∀ q ∈ l₁, q.res ⟨some '\n', s, []⟩ = [])
    (hx : (a.res ⟨p, '\n' :: s, []⟩).head? = some x) (hy : (a.res ⟨some '\n', s, []⟩).head? = some y) (hr : x.rest = y.rest)
    (hh : ∀ w, s = w ++ y.rest → onHit (blockRe true) blockRepl st ⟨'\n' :: w, x.caps⟩ = onHit (blockRe true) blockRepl st ⟨w, y.caps⟩) :
    runT (blockRe true) blockRepl p ('\n' :: s) st = runR (blockRe true) blockRepl (some '\n') s st := by
  obtain ⟨px, rx, cx⟩ := x
  obtain ⟨py, ry, cy⟩ := y
  simp only at hr hh
  subst hr
  have hmem := List.mem_of_head? hy
  obtain ⟨w, hw⟩ := Re.res_reach hmem
  have hlt := Re.res_lt hnn hmem
  have hrest := hw.rest
  simp only at hrest hlt
  have hwn : w ≠ [] := by
    rintro rfl
    rw [List.nil_append] at hrest
    rw [hrest] at hlt
    omega
  have h1 : (blockRe true).matchAt false (some '\n') s = some ⟨py, rx, cy⟩ := block_rule he hb hy
  have h2 : (blockRe true).matchAt true p ('\n' :: s) = some ⟨px, rx, cx⟩ := by
    rw [Re.matchAt_true]
    unfold blockRe
    rw [he]
    refine alts_find ?_ hx ?_
    · intro q hq z hz
      simpa using hl q hq z hz
    · have := congrArg List.length hrest
      simp only [List.length_append] at this
      simp only [List.length_cons, bne_iff_ne, ne_eq]
      omega
  have hs2 : '\n' :: s = ('\n' :: w) ++ rx := by rw [hrest]; rfl
  rw [runT_take hs2 h2, hh w hrest]
  rw [hrest] at h1 ⊢
  rw [runR_take hwn h1, getLast?_lead hwn]

/-- **after a blank line a block is read as at the beginning of the text** -/
theorem lead_run {p : Option Char} (hp : atBol true p = true) {s : Str} (hs : Nonblank s) (st : PS) :
    runT (blockRe true) blockRepl p ('\n' :: s) st = runR (blockRe true) blockRepl (some '\n') s st := by
  have hline := line_lead (p := p) (caps := []) hs hp
  have hlineb := line_nil (p := some '\n') (caps := []) hs
  obtain ⟨i, c, v, rfl, hi, hin, hc⟩ := hs
  have hct : ∀ d t', c :: v = d :: t' → isSpace d = false := by
    intro d t' hd
    simp only [List.cons.injEq] at hd
    rw [← hd.1]; exact hc
  have hi' : ∀ d ∈ '\n' :: i, isSpace d = true := by
    intro d hd
    simp only [List.mem_cons] at hd
    rcases hd with rfl | hd
    · decide
    · exact hi d hd
  have hmac : macroBlockRule.res ⟨p, '\n' :: (i ++ c :: v), []⟩ = [] := macro_nil_head (by decide)
  have hhead : headRule.res ⟨p, '\n' :: (i ++ c :: v), []⟩ = [] := head_nil (by simp)
  have hpre : preBlockRule.res ⟨p, '\n' :: (i ++ c :: v), []⟩ = [] := preBlock_nil (by intro t ht; simp at ht)
  have hlineq : ∀ z ∈ lineRule.res ⟨p, '\n' :: (i ++ c :: v), []⟩, z.rest.length = ('\n' :: (i ++ c :: v)).length := by
    intro z hz
    rw [hline] at hz
    simp only [List.mem_cons, List.not_mem_nil, or_false] at hz
    rw [hz]
  have hsep := sep_lead hp hi hct
  rcases head?_cases (l := separatorRule.res ⟨p, '\n' :: (i ++ c :: v), []⟩) with hsl | ⟨x, hx⟩
  · have hsb : separatorRule.res ⟨some '\n', i ++ c :: v, []⟩ = [] := by
      rw [hsl] at hsep
      rcases head?_cases (l := separatorRule.res ⟨some '\n', i ++ c :: v, []⟩) with h | ⟨y, hy⟩
      · exact h
      · rw [hy] at hsep; simp at hsep
    have hlist2 := list_res (caps := []) hp hi' hct
    rw [List.cons_append, ← lastOr i p '\n'] at hlist2
    have hlist := list_res (p := some '\n') (caps := []) rfl hi hct
    rcases head?_cases (l := (listHead.res ⟨(i.getLast?).or (some '\n'), c :: v, []⟩).flatMap (Re.star true listMore).res) with hl | ⟨x, hx⟩
    · rw [hl, List.map_nil] at hlist hlist2
      have htab2 := table_res (caps := []) hp hi' hct
      rw [List.cons_append, ← lastOr i p '\n'] at htab2
      have htab := table_res (p := some '\n') (caps := []) rfl hi hct
      rcases head?_cases (l := tableHead.res ⟨(i.getLast?).or (some '\n'), c :: v, []⟩) with ht | ⟨x, hx⟩
      · rw [ht] at htab2
        refine runT_skip ?_
        rw [Re.matchAt_true, List.find?_eq_none]
        intro y hy
        obtain ⟨q, hq, hy⟩ := mem_alts (by simp [blockRules]) hy
        simp only [blockRules, List.mem_cons, List.not_mem_nil, or_false] at hq
        rcases hq with rfl | rfl | rfl | rfl | rfl | rfl | rfl | rfl
        · rw [hmac] at hy; simp at hy
        · simpa using hlineq y hy
        · rw [hhead] at hy; simp at hy
        · rw [hsl] at hy; simp at hy
        · rw [hpre] at hy; simp at hy
        · rw [hlist2] at hy; simp at hy
        · rw [htab2] at hy; simp at hy
        · rw [text_nl_nil (.inl rfl)] at hy; simp at hy
      · -- a table
        have hcb : c = '|' := by
          refine Classical.byContradiction fun hne => ?_
          have : tableHead.res ⟨(i.getLast?).or (some '\n'), c :: v, []⟩ = [] := by
            rw [← htab]
            exact table_nil hi hct (by simpa using hne)
          rw [this] at hx; simp at hx
        obtain ⟨u1, u2, u3⟩ := unindented_nil (p := some '\n') (v := v) (c := c) hi (by rw [hcb]; decide) (by rw [hcb]; decide) (by rw [hcb]; decide)
        refine lead_step (l₁ := [macroBlockRule, lineRule, headRule, separatorRule, preBlockRule, listRule]) (l₂ := [textRule true]) (a := tableRule) rfl
          (by decide) ?_ ?_ (by rw [htab2]; exact hx) (by rw [htab]; exact hx) rfl ?_
        · intro q hq
          simp only [List.mem_cons, List.not_mem_nil, or_false] at hq
          rcases hq with rfl | rfl | rfl | rfl | rfl | rfl
          · rw [hmac]; simp
          · exact hlineq
          · rw [hhead]; simp
          · rw [hsl]; simp
          · rw [hpre]; simp
          · rw [hlist2]; simp
        · intro q hq
          simp only [List.mem_cons, List.not_mem_nil, or_false] at hq
          rcases hq with rfl | rfl | rfl | rfl | rfl | rfl
          · exact u1
          · exact hlineb
          · exact u2
          · exact hsb
          · exact u3
          · exact hlist
        · intro w _
          exact block_ofCaps.onHit _ _ _ _ _
    · -- a list
      have hcb : c = '*' ∨ c = '#' := by
        refine Classical.byContradiction fun hne => ?_
        simp only [not_or] at hne
        have : listHead.res ⟨(i.getLast?).or (some '\n'), c :: v, []⟩ = [] :=
          fail_start (by decide) (by simp [listHead, cat, ch, Re.starts, Re.nullable, CSet.mem, hne])
        rw [this] at hx; simp at hx
      obtain ⟨u1, u2, u3⟩ := unindented_nil (p := some '\n') (v := v) (c := c) hi (by rcases hcb with rfl | rfl <;> decide)
        (by rcases hcb with rfl | rfl <;> decide) (by rcases hcb with rfl | rfl <;> decide)
      have hmem : x ∈ (Re.seq listHead (Re.star true listMore)).res ⟨(i.getLast?).or (some '\n'), c :: v, []⟩ := List.mem_of_head? hx
      have hcaps : x.caps = [] := Re.res_caps_eq (by decide) hmem
      have hlt := Re.res_lt (by decide) hmem
      obtain ⟨u, hu⟩ := Re.res_reach hmem
      have hur := hu.rest
      simp only at hur hlt
      refine lead_step (l₁ := [macroBlockRule, lineRule, headRule, separatorRule, preBlockRule]) (l₂ := [tableRule, textRule true]) (a := listRule) rfl
        (x := ⟨x.prev, x.rest, (.list, consumed ('\n' :: (i ++ c :: v)) x.rest) :: x.caps⟩)
        (y := ⟨x.prev, x.rest, (.list, consumed (i ++ c :: v) x.rest) :: x.caps⟩)
        (by decide) ?_ ?_ (by rw [hlist2, List.head?_map, hx]; rfl) (by rw [hlist, List.head?_map, hx]; rfl) rfl ?_
      · intro q hq
        simp only [List.mem_cons, List.not_mem_nil, or_false] at hq
        rcases hq with rfl | rfl | rfl | rfl | rfl
        · rw [hmac]; simp
        · exact hlineq
        · rw [hhead]; simp
        · rw [hsl]; simp
        · rw [hpre]; simp
      · intro q hq
        simp only [List.mem_cons, List.not_mem_nil, or_false] at hq
        rcases hq with rfl | rfl | rfl | rfl | rfl
        · exact u1
        · exact hlineb
        · exact u2
        · exact hsb
        · exact u3
      · intro w hw
        simp only at hw
        rw [hcaps, onHitB_list, onHitB_list]
        have e1 : consumed (i ++ c :: v) x.rest = w := by rw [hw, consumed_append]
        have e2 : consumed ('\n' :: (i ++ c :: v)) x.rest = '\n' :: w := by
          rw [hw]
          exact consumed_append ('\n' :: w) x.rest
        rw [e1, e2]
        cases u with
        | nil =>
          rw [List.nil_append] at hur
          rw [hur] at hlt
          omega
        | cons d u =>
          simp only [List.cons_append, List.cons.injEq] at hur
          obtain ⟨rfl, rfl⟩ := hur
          have e3 : w = i ++ c :: u := by
            have : (i ++ c :: u) ++ x.rest = w ++ x.rest := by rw [← hw]; simp
            exact (List.append_cancel_right this).symm
          rw [e3]
          exact items_lead item_ofCaps hi hc st
  · -- a separator
    rw [hx] at hsep
    rcases head?_cases (l := separatorRule.res ⟨some '\n', i ++ c :: v, []⟩) with h | ⟨y, hy⟩
    · rw [h] at hsep; simp at hsep
    · rw [hy] at hsep
      simp only [Option.map_some, Option.some.injEq] at hsep
      have hcb : c = '-' := by
        refine Classical.byContradiction fun hne => ?_
        have : separatorRule.res ⟨some '\n', i ++ c :: v, []⟩ = [] := by
          rw [sep_res (p := some '\n') (caps := []) rfl hi hct, Re.res_lit_nil _ _ _ _ (by
            intro t ht
            simp only [List.cons_append, List.nil_append, List.cons.injEq] at ht
            exact hne ht.1)]
          rfl
        rw [this] at hy; simp at hy
      obtain ⟨u1, u2, u3⟩ := unindented_nil (p := some '\n') (v := v) (c := c) hi (by rw [hcb]; decide) (by rw [hcb]; decide) (by rw [hcb]; decide)
      refine lead_step (l₁ := [macroBlockRule, lineRule, headRule]) (l₂ := [preBlockRule, listRule, tableRule, textRule true]) (a := separatorRule) rfl
        (by decide) ?_ ?_ hx hy hsep ?_
      · intro q hq
        simp only [List.mem_cons, List.not_mem_nil, or_false] at hq
        rcases hq with rfl | rfl | rfl
        · rw [hmac]; simp
        · exact hlineq
        · rw [hhead]; simp
      · intro q hq
        simp only [List.mem_cons, List.not_mem_nil, or_false] at hq
        rcases hq with rfl | rfl | rfl
        · exact u1
        · exact hlineb
        · exact u2
      · intro w _
        obtain ⟨w1, e1⟩ := sep_caps rfl (List.mem_of_head? hx)
        obtain ⟨w2, e2⟩ := sep_caps rfl (List.mem_of_head? hy)
        rw [e1, e2, onHitB_sep, onHitB_sep]
        rfl

/-- the blank line itself -/
theorem gap_run {p : Option Char} (hp : atBol true p = false) {s : Str} (hs : Nonblank s) (st : PS) :
    runR (blockRe true) blockRepl p ('\n' :: '\n' :: s) st = (lineRepl st >>= runR (blockRe true) blockRepl none s) := by
  rw [skip_mid hp (.inl rfl)]
  have h := gap_match (blog := true) (p := some '\n') (w := []) rfl (by simp) hs
  rw [List.nil_append] at h
  rw [runR_empty h, onHitB_line]
  refine bind_congr_right fun st' => ?_
  rw [lead_run rfl hs, runR_atLine (by decide)]

end Verif.Creole
