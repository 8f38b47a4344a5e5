import Verif.Creole.BlockMatch

/-!
# Matches of headings, rules, preformatted blocks and blank lines
-/

namespace Verif.Creole

open Verif Re Py Spec Spec.Cr

/-! ## Dispatch -/

section
variable (h : G → Match G → PS → PM) (st : PS) (w : Str) (blog : Bool)

theorem onHitB_line (x : Str) : onHit (blockRe blog) h st ⟨w, [(.line, x)]⟩ = h .line ⟨w, [(.line, x)]⟩ st := by cases blog <;> rfl
theorem onHitB_head (x y z : Str) : onHit (blockRe blog) h st ⟨w, [(.head, x), (.head_text, y), (.head_head, z)]⟩ =
    h .head ⟨w, [(.head, x), (.head_text, y), (.head_head, z)]⟩ st := by cases blog <;> rfl
theorem onHitB_sep (x : Str) : onHit (blockRe blog) h st ⟨w, [(.separator, x)]⟩ = h .separator ⟨w, [(.separator, x)]⟩ st := by
  cases blog <;> rfl
theorem onHitB_pre (x y : Str) : onHit (blockRe blog) h st ⟨w, [(.pre_block, x), (.pre_block_text, y)]⟩ =
    h .pre_block ⟨w, [(.pre_block, x), (.pre_block_text, y)]⟩ st := by cases blog <;> rfl
theorem onHitB_list (x : Str) : onHit (blockRe blog) h st ⟨w, [(.list, x)]⟩ = h .list ⟨w, [(.list, x)]⟩ st := by cases blog <;> rfl
theorem onHitB_table (x : Str) : onHit (blockRe blog) h st ⟨w, [(.table, x)]⟩ = h .table ⟨w, [(.table, x)]⟩ st := by cases blog <;> rfl
theorem onHitB_text (x : Str) : onHit (blockRe blog) h st ⟨w, [(.text, x)]⟩ =
    h .text ⟨w, [(.text, x)]⟩ st := by cases blog <;> rfl
theorem onHitB_brk (x y : Str) : onHit (blockRe true) h st ⟨w, [(.brk, y), (.text, x)]⟩ =
    h .text ⟨w, [(.brk, y), (.text, x)]⟩ st := rfl
theorem onHitB_space (x y : Str) : onHit (blockRe false) h st ⟨w, [(.text, x), (.space, y)]⟩ =
    h .space ⟨w, [(.text, x), (.space, y)]⟩ st := rfl
end

/-! ## Rules -/

theorem blanks_none {p : Option Char} {r : Str} {caps : List (G × Str)} (hr : atEol true r = true) :
    ((Re.seq blanks (.eol true) : R).res ⟨p, r, caps⟩).head? = some ⟨p, r, caps⟩ := by
  refine Re.head_seq (x := ⟨p, r, caps⟩) ?_ (by rw [eol_yes hr]; rfl)
  have := Re.head_star_cls (γ := G) (cs := .union (.chr ' ') (.chr '\t')) (caps := caps) (rest := r) (by
    rintro c t rfl
    simp [atEol] at hr
    subst hr; decide) [] p (by simp)
  exact this

/-- the rules before that for horizontal lines, at a block that may be indented -/
theorem first_rules {lead : Bool} {p : Option Char} {c : Char} {s : Str} (hp : atBol true p = true) (hc : isSpace c = false) (h1 : c ≠ '<') (h2 : c ≠ '=') :
    (lead = false → ∀ q ∈ [macroBlockRule, lineRule, headRule], q.res ⟨p, c :: s, []⟩ = []) ∧
    (lead = true → ∀ q ∈ [macroBlockRule, lineRule, headRule], ∀ y ∈ q.res ⟨p, '\n' :: c :: s, []⟩, y.rest.length = ('\n' :: c :: s).length) := by
  constructor
  · rintro - q hq
    simp only [List.mem_cons, List.not_mem_nil, or_false] at hq
    rcases hq with rfl | rfl | rfl
    · exact macro_nil_head h1
    · exact line_nil (nonblank_cons hc)
    · exact head_nil (by simpa using h2)
  · rintro - q hq y hy
    simp only [List.mem_cons, List.not_mem_nil, or_false] at hq
    rcases hq with rfl | rfl | rfl
    · rw [macro_nil_head (by decide)] at hy; simp at hy
    · rw [line_lead (nonblank_cons hc) hp] at hy
      simp only [List.mem_cons, List.not_mem_nil, or_false] at hy
      rw [hy]
    · rw [head_nil (by simp)] at hy; simp at hy

theorem hr_hit {blog lead : Bool} {p : Option Char} {r : Str} {st : PS} (hp : atBol true p = true) (hr : atEol true r = true) :
    runL blog lead p (c!"----" ++ r) st = (separatorRepl st >>= runR (blockRe blog) blockRepl (some '-') r) := by
  obtain ⟨h1, h2⟩ := first_rules (lead := lead) (p := p) (c := '-') (s := c!"---" ++ r) hp (by decide) (by decide) (by decide)
  have e := runL_take (blog := blog) (lead := lead) (l₁ := [macroBlockRule, lineRule, headRule])
    (l₂ := [preBlockRule, listRule, tableRule, textRule blog]) (a := separatorRule) rfl (p := p) (s := c!"----" ++ r)
    (w := leadStr lead ++ c!"----") (rest := r) (caps := [(.separator, leadStr lead ++ c!"----")]) (st := st) (p' := some '-') h1 h2 ?_
    (by simp) (by simp)
  · rw [e, onHitB_sep]
    have : (leadStr lead ++ c!"----").getLast? = some '-' := by simp [List.getLast?_append]
    rw [this]
    rfl
  · rw [sep_res hp (leadStr_space lead) (by
      intro c t' h
      simp only [List.cons_append, List.cons.injEq] at h
      rw [← h.1]; decide), Re.res_lit]
    simp only [List.map_cons, List.map_nil, List.flatMap_cons, List.flatMap_nil, List.append_nil]
    have := blanks_none (p := some '-') (caps := [(.separator, leadStr lead ++ c!"----")]) hr
    have hc : consumed (leadStr lead ++ (c!"----" ++ r)) r = leadStr lead ++ c!"----" := by
      rw [← List.append_assoc]; exact consumed_append _ _
    rw [hc]
    exact this

/-! ## Headings -/

theorem step_headTail : Verif.Step (.alt (ch '=') (.cls .space) : R) (fun c => c == '=' || isSpace c) := by
  refine ⟨fun _ _ => rfl, fun p c r caps => ?_⟩
  by_cases h : c = '='
  · subst h
    have : isSpace '=' = false := by decide
    simp [Re.res, ch, CSet.mem, this]
  · simp [Re.res, ch, CSet.mem, h]
    rfl

theorem trimmed_iff {s : Str} (h : trimmed s = true) : s ≠ [] ∧ (∀ c t, s = c :: t → isSpace c = false) ∧
    (∀ c, s.getLast? = some c → isSpace c = false) ∧ '\n' ∉ s := by
  cases s with
  | nil => simp [trimmed] at h
  | cons c t =>
    simp only [trimmed, Bool.and_eq_true, Bool.not_eq_true', List.contains_eq_mem, decide_eq_false_iff_not] at h
    refine ⟨by simp, ?_, ?_, h.2⟩
    · intro d t' hd
      simp only [List.cons.injEq] at hd
      rw [← hd.1]; exact h.1.1
    · intro d hd
      have := h.1.2
      rw [hd] at this
      simpa using this

theorem head_match {blog : Bool} {p : Option Char} {n : Nat} {pad title tail r : Str} (hp : atBol true p = true) (hn : n ≥ 1)
    (hpad : ∀ c ∈ pad, isSpace c = true) (ht : trimmed title = true) (hh : title.head? ≠ some '=')
    (hl : title.getLast? ≠ some '=') (htail : ∀ c ∈ tail, (c == '=' || isSpace c) = true) (hnl : '\n' ∉ tail) (hr : atEol true r = true) :
    (blockRe blog).matchAt false p ((List.replicate n '=' ++ pad ++ title ++ tail) ++ r) =
      some ⟨((List.replicate n '=' ++ pad ++ title ++ tail).getLast?), r,
        [(.head, List.replicate n '=' ++ pad ++ title ++ tail), (.head_text, title), (.head_head, List.replicate n '=')]⟩ := by
  obtain ⟨hne, hfst, hlst, htnl⟩ := trimmed_iff ht
  have hpt : ∀ c t, title ++ (tail ++ r) = c :: t → isSpace c = false := by
    intro c t h
    cases title with
    | nil => exact absurd rfl hne
    | cons d ti =>
      simp only [List.cons_append, List.cons.injEq] at h
      rw [← h.1]; exact hfst d ti rfl
  obtain ⟨m, rfl⟩ : ∃ m, n = m + 1 := ⟨n - 1, by omega⟩
  have hrep : List.replicate (m + 1) '=' = '=' :: List.replicate m '=' := rfl
  refine block_rule (l₁ := [macroBlockRule, lineRule]) (l₂ := [separatorRule, preBlockRule, listRule, tableRule, textRule blog]) rfl ?_ ?_
  · intro q hq
    simp only [List.mem_cons, List.not_mem_nil, or_false] at hq
    rw [hrep]
    rcases hq with rfl | rfl
    · exact macro_nil_head (by decide)
    · exact line_nil (nonblank_cons (by decide))
  · have e : (List.replicate (m + 1) '=' ++ pad ++ title ++ tail) ++ r = List.replicate (m + 1) '=' ++ (pad ++ (title ++ (tail ++ r))) := by simp
    have h1 : ((Re.grp G.head_head (.plus true (ch '='))).res ⟨p, List.replicate (m + 1) '=' ++ (pad ++ (title ++ (tail ++ r))), []⟩).head? =
        some ⟨some '=', pad ++ (title ++ (tail ++ r)), [(.head_head, List.replicate (m + 1) '=')]⟩ := by
      have := Re.head_grp (g := G.head_head) (Re.head_plus_cls (γ := G) (cs := .chr '=') (caps := []) (rest := pad ++ (title ++ (tail ++ r)))
        (c := '=') (w := List.replicate m '=') (p := p) (by
          intro c t h
          simp only [CSet.mem, beq_eq_false_iff_ne, ne_eq]
          rintro rfl
          cases pad with
          | nil =>
            rw [List.nil_append] at h
            cases title with
            | nil => exact hne rfl
            | cons d ti =>
              simp only [List.cons_append, List.cons.injEq] at h
              exact hh (by rw [h.1]; rfl)
          | cons d pad =>
            simp only [List.cons_append, List.cons.injEq] at h
            have := hpad d (by simp)
            rw [h.1] at this
            exact absurd this (by decide)) (by
          intro d hd
          simp only [List.mem_cons, List.mem_replicate] at hd
          have : d = '=' := by rcases hd with rfl | ⟨_, rfl⟩ <;> rfl
          subst this; rfl))
      have hc : consumed ('=' :: (List.replicate m '=' ++ (pad ++ (title ++ (tail ++ r))))) (pad ++ (title ++ (tail ++ r))) = List.replicate (m + 1) '=' :=
        consumed_append (List.replicate (m + 1) '=') _
      have hlast : ('=' :: List.replicate m '=').getLast? = some '=' := by
        rw [← List.replicate_succ, List.getLast?_replicate]; simp
      simp only [hc, hlast] at this
      exact this
    have h2 : ((sps : R).res ⟨some '=', pad ++ (title ++ (tail ++ r)), [(.head_head, List.replicate (m + 1) '=')]⟩).head? =
        some ⟨(pad.getLast?).or (some '='), title ++ (tail ++ r), [(.head_head, List.replicate (m + 1) '=')]⟩ :=
      Re.head_star_cls (γ := G) (cs := .space) (by
        intro c t h
        simp only [CSet.mem]
        exact hpt c t h) pad _ (by intro c hc; simp only [CSet.mem]; exact hpad c hc)
    have h3 : ∀ (q : Option Char) (caps : List (G × Str)),
        ((Re.seq (.star false (.alt (ch '=') (.cls .space))) (.eol true) : R).res ⟨q, tail ++ r, caps⟩).head? = some ⟨(tail.getLast?).or q, r, caps⟩ := by
      intro q caps
      refine Re.head_lazy step_headTail tail q htail ?_ ?_
      · intro u v huv hv
        refine eol_no ?_
        cases v with
        | nil => exact absurd rfl hv
        | cons c v =>
          simp only [List.cons_append, atEol, Bool.true_or, Bool.and_true, beq_eq_false_iff_ne, ne_eq]
          rintro rfl
          apply hnl; rw [huv]; simp
      · rw [eol_yes hr]; rfl
    have h4 : ((Re.seq (.grp .head_text anyDots) (.seq (.star false (.alt (ch '=') (.cls .space))) (.eol true)) : R).res
        ⟨(pad.getLast?).or (some '='), title ++ (tail ++ r), [(.head_head, List.replicate (m + 1) '=')]⟩).head? =
        some ⟨(tail.getLast?).or ((title.getLast?).or ((pad.getLast?).or (some '='))), r, [(.head_text, title), (.head_head, List.replicate (m + 1) '=')]⟩ := by
      refine head_anyDots htnl ?_ (h3 _ _)
      intro u v huv hv
      refine Re.lazy_nil step_headTail _ _ ?_
      intro a b hab ha
      refine eol_no ?_
      rw [List.append_eq_append_iff] at hab
      have hvl : ∀ c ∈ v.getLast?, (c == '=' || isSpace c) = false := by
        intro c hc
        have : title.getLast? = some c := by
          rw [huv, List.getLast?_append, hc]; rfl
        rw [hlst c this]
        simp only [Bool.or_false, beq_eq_false_iff_ne, ne_eq]
        rintro rfl
        exact hl this
      rcases hab with ⟨x, rfl, hx⟩ | ⟨x, hx, rfl⟩
      · exfalso
        have hvg := List.getLast?_eq_some_getLast hv
        have hm : v.getLast hv ∈ v ++ x := by simp
        have h5 := ha _ hm
        have h6 := hvl _ hvg
        rw [h6] at h5; simp at h5
      · cases x with
        | nil =>
          exfalso
          have hva : v = a := by simpa using hx
          have hvg := List.getLast?_eq_some_getLast hv
          have hm : v.getLast hv ∈ a := by rw [← hva]; simp
          have h5 := ha _ hm
          have h6 := hvl _ hvg
          rw [h6] at h5; simp at h5
        | cons c x =>
          simp only [List.cons_append, atEol, Bool.true_or, Bool.and_true, beq_eq_false_iff_ne, ne_eq]
          rintro rfl
          apply htnl; rw [huv, hx]; simp
    have h5 := Re.head_grp (g := G.head) (Re.head_seq (a := .bol true) (b := cat [.grp .head_head (.plus true (ch '=')), sps,
      .grp .head_text anyDots, .star false (.alt (ch '=') (.cls .space)), .eol true])
      (s := ⟨p, (List.replicate (m + 1) '=' ++ pad ++ title ++ tail) ++ r, []⟩) (by rw [bol_yes hp]; rfl) (by
        rw [e]
        exact Re.head_seq h1 (Re.head_seq h2 h4)))
    simp only [consumed_append] at h5
    have hlast : (List.replicate (m + 1) '=' ++ pad ++ title ++ tail).getLast? =
        (tail.getLast?).or ((title.getLast?).or ((pad.getLast?).or (some '='))) := by
      have : (List.replicate (m + 1) '=').getLast? = some '=' := by rw [List.getLast?_replicate]; simp
      rw [List.getLast?_append, List.getLast?_append, List.getLast?_append, this]
    rw [hlast]
    exact h5

/-! ## Preformatted blocks -/

theorem step_anyChar : Verif.Step (anyChar : R) (fun _ => true) := by
  refine ⟨fun _ _ => rfl, fun p c r caps => ?_⟩
  by_cases h : c = '\n' <;> simp [anyChar, dot, ch, Re.res, CSet.mem, h]

/-- lines, each one ended -/
def ended (ls : List Str) : Str := ls.flatMap (· ++ c!"\n")

theorem ended_cons (l : Str) (ls : List Str) : ended (l :: ls) = l ++ '\n' :: ended ls := by simp [ended]

/-- a text of one line that is at the beginning of one of these lines begins that line -/
theorem ended_start {w X : Str} (hw : '\n' ∉ w) : ∀ {ls : List Str}, (∀ l ∈ ls, '\n' ∉ l) → (∀ l ∈ ls, ∀ t, l ≠ w ++ t) →
    ∀ u v, ended ls = u ++ v → v ≠ [] → (u = [] ∨ u.getLast? = some '\n') → ∀ t, v ++ X ≠ w ++ t := by
  intro ls
  induction ls with
  | nil =>
    intro _ _ u v h hv
    simp [ended] at h
    exact absurd h.2 hv
  | cons l ls ih =>
    intro hnl hs u v h hv hu t ht
    rw [ended_cons] at h
    cases u with
    | nil =>
      rw [List.nil_append] at h
      subst h
      rw [List.append_assoc] at ht
      obtain ⟨q, hq, _⟩ := prefix_line (line := l) hw (r := '\n' :: ended ls ++ X) rfl ht
      exact hs l (by simp) q hq
    | cons c u =>
      have hu' : (c :: u).getLast? = some '\n' := by simpa using hu
      rw [List.append_eq_append_iff] at h
      rcases h with ⟨x, hx, hy⟩ | ⟨x, hx, hy⟩
      · cases x with
        | nil =>
          rw [List.append_nil] at hx
          rw [hx] at hu'
          exact hnl l (by simp) (List.mem_of_getLast? hu')
        | cons d x =>
          simp only [List.cons_append, List.cons.injEq] at hy
          obtain ⟨rfl, hy⟩ := hy
          refine ih (fun l hl => hnl l (by simp [hl])) (fun l hl => hs l (by simp [hl])) x v hy hv ?_ t ht
          cases x with
          | nil => exact .inl rfl
          | cons d x =>
            rw [hx, List.getLast?_append, List.getLast?_cons_cons] at hu'
            right
            rw [List.getLast?_eq_some_getLast (by simp)] at hu' ⊢
            simpa using hu'
      · exfalso
        have : '\n' ∈ c :: u := List.mem_of_getLast? hu'
        exact hnl l (by simp) (by rw [hx]; exact List.mem_append_left _ this)

theorem pre_match {blog : Bool} {p : Option Char} {l : Str} {ls : List Str} {r : Str} (hp : atBol true p = true) (h0 : lineText l = true)
    (hnl : ∀ x ∈ l :: ls, '\n' ∉ x) (hs : ∀ x ∈ l :: ls, ∀ t, x ≠ c!"}}}" ++ t) :
    (blockRe blog).matchAt false p (c!"{{{" ++ ('\n' :: ended (l :: ls)) ++ c!"}}}" ++ r) =
      some ⟨some '}', r, [(.pre_block, c!"{{{" ++ ('\n' :: ended (l :: ls)) ++ c!"}}}"), (.pre_block_text, '\n' :: ended (l :: ls))]⟩ := by
  refine block_rule (l₁ := [macroBlockRule, lineRule, headRule, separatorRule]) (l₂ := [listRule, tableRule, textRule blog]) rfl ?_ ?_
  · intro q hq
    simp only [List.mem_cons, List.not_mem_nil, or_false] at hq
    rcases hq with rfl | rfl | rfl | rfl
    · exact macro_nil_head (by decide)
    · exact line_nil (nonblank_cons (by decide))
    · exact head_nil (by simp)
    · have := sep_nil (p := p) (w := []) (line := c!"{{{") (r := '\n' :: ended (l :: ls) ++ c!"}}}" ++ r) (caps := []) (by simp)
        (by intro c t h; simp at h; rw [← h.1]; decide) (by simp) (by decide) rfl (by decide)
      simpa using this
  · generalize hE : ended (l :: ls) = E
    have hNb : Nonblank (E ++ (c!"}}}" ++ r)) := by
      rw [← hE, ended_cons, List.append_assoc]
      exact nonblank_of_lineText h0 _
    have e : c!"{{{" ++ ('\n' :: E) ++ c!"}}}" ++ r = c!"{{{" ++ ('\n' :: (E ++ (c!"}}}" ++ r))) := by simp
    -- the text
    have h1 : ∀ q : Option Char, ((Re.seq (.grp .pre_block_text (cat [
        opt (cat [ch '#', ch '!', .grp .pre_block_kind (.star false (.cls .word)),
          opt (.seq (.plus true (.cls .space)) (.star true dot)), .eol true]),
        .plus false anyChar])) (.seq (.bol true) (lit c!"}}}")) : R).res ⟨q, '\n' :: (E ++ (c!"}}}" ++ r)), []⟩).head? =
        some ⟨some '}', r, [(.pre_block_text, '\n' :: E)]⟩ := by
      intro q
      have hopt : (cat [opt (cat [ch '#', ch '!', .grp .pre_block_kind (.star false (.cls .word)),
          opt (.seq (.plus true (.cls .space)) (.star true dot)), .eol true]),
        .plus false anyChar] : R).res ⟨q, '\n' :: (E ++ (c!"}}}" ++ r)), []⟩ =
          (Re.star false anyChar : R).res ⟨some '\n', E ++ (c!"}}}" ++ r), []⟩ := by
        show (Re.seq (opt (cat [ch '#', ch '!', .grp .pre_block_kind (.star false (.cls .word)),
          opt (.seq (.plus true (.cls .space)) (.star true dot)), .eol true])) (.plus false anyChar) : R).res _ = _
        rw [res_opt_seq]
        have : (cat [ch '#', ch '!', .grp .pre_block_kind (.star false (.cls .word)),
          opt (.seq (.plus true (.cls .space)) (.star true dot)), .eol true] : R).res ⟨q, '\n' :: (E ++ (c!"}}}" ++ r)), []⟩ = [] :=
          fail_start (by decide) (by decide)
        rw [Re.res_seq_nil this, List.nil_append]
        exact res_seq_one (a := anyChar) (by simp [anyChar, dot, ch, Re.res, CSet.mem])
      have hflat : ∀ (a b : R) (g : G) s, (Re.seq (.grp g a) b).res s =
          (a.res s).flatMap fun s' => b.res { s' with caps := (g, consumed s.rest s'.rest) :: s'.caps } := by
        intro a b g s
        have h3 : ∀ (a b : R) s, (Re.seq a b).res s = (a.res s).flatMap b.res := fun _ _ _ => rfl
        have h4 : ∀ (g : G) (a : R) s, (Re.grp g a).res s =
          (a.res s).map fun s' => { s' with caps := (g, consumed s.rest s'.rest) :: s'.caps } := fun _ _ _ => rfl
        rw [h3, h4, List.flatMap_map]
      rw [hflat, hopt]
      refine Re.head_lazy step_anyChar E (some '\n') (by simp) ?_ ?_
      · intro u v huv hv
        by_cases hb : u = [] ∨ u.getLast? = some '\n'
        · have := ended_start (w := c!"}}}") (X := c!"}}}" ++ r) (by decide) hnl hs u v (hE.trans huv) hv hb
          have hbol : atBol true ((u.getLast?).or (some '\n')) = true := by
            rcases hb with rfl | hb
            · rfl
            · rw [hb]; rfl
          refine (res_seq_one (bol_yes hbol)).trans ?_
          exact Re.res_lit_nil _ _ _ _ this
        · refine Re.res_seq_nil (bol_no ?_)
          rw [not_or] at hb
          rw [List.getLast?_eq_some_getLast hb.1, Option.some_or]
          simp only [atBol, Bool.true_and, beq_eq_false_iff_ne, ne_eq]
          intro hx
          apply hb.2
          rw [List.getLast?_eq_some_getLast hb.1, hx]
      · have hbol : atBol true ((E.getLast?).or (some '\n')) = true := by
          rw [← hE, ended_cons]
          have : ∀ ls : List Str, ((ended ls).getLast?).or (some '\n') = some '\n' := by
            intro ls
            induction ls with
            | nil => rfl
            | cons x ls ih =>
              rw [ended_cons, List.getLast?_append, ← List.singleton_append, List.getLast?_append]
              cases hx : (ended ls).getLast? with
              | none => rfl
              | some c => rw [hx] at ih; simpa using ih
          rw [← ended_cons, this]; rfl
        rw [res_seq_one (bol_yes hbol), Re.res_lit]
        have hc : consumed ('\n' :: (E ++ (c!"}}}" ++ r))) (c!"}}}" ++ r) = '\n' :: E := consumed_append ('\n' :: E) _
        simp only [hc]
        rfl
    have h2 : (preBlockRule.res ⟨p, c!"{{{" ++ ('\n' :: E) ++ c!"}}}" ++ r, []⟩).head? =
        some ⟨some '}', r, [(.pre_block, consumed (c!"{{{" ++ ('\n' :: E) ++ c!"}}}" ++ r) r), (.pre_block_text, '\n' :: E)]⟩ := by
      refine Re.head_grp (g := G.pre_block) (s := ⟨p, c!"{{{" ++ ('\n' :: E) ++ c!"}}}" ++ r, []⟩) (x := ⟨some '}', r, [(.pre_block_text, '\n' :: E)]⟩) ?_
      rw [e]
      refine (congrArg List.head? (res_seq_one (bol_yes hp))).trans ?_
      refine (congrArg List.head? (res_seq_one (Re.res_lit _ _ _ _))).trans ?_
      refine (congrArg List.head? (res_seq_assoc sps (.eol true) _ _).symm).trans ?_
      refine (congrArg List.head? (res_seq_one (hNb.spsEol_lead _ _))).trans ?_
      exact h1 _
    rw [consumed_append] at h2
    exact h2

/-! ## Blank lines -/

theorem line_head {p : Option Char} {s w r : Str} {q : Option Char} (hp : atBol true p = true) (hs : s = w ++ r)
    (h : ((Re.seq sps (.eol true) : R).res ⟨p, s, []⟩).head? = some ⟨q, r, []⟩) (hlt : ∀ t, s ≠ c!"<<" ++ t) (blog : Bool) :
    (blockRe blog).matchAt false p s = some ⟨q, r, [(.line, w)]⟩ := by
  refine block_rule (l₁ := [macroBlockRule]) (l₂ := [headRule, separatorRule, preBlockRule, listRule, tableRule, textRule blog]) rfl ?_ ?_
  · intro q hq
    simp only [List.mem_cons, List.not_mem_nil, or_false] at hq
    subst hq
    exact grp_lit_nil hlt
  · rw [line_res _ _ _ hp, List.head?_map, h]
    subst hs
    simp [consumed_append]

theorem spaces_lt {w : Str} (h : ∀ c ∈ w, isSpace c = true) {r : Str} (hr : atEol true r = true) : ∀ t, w ++ r ≠ c!"<<" ++ t := by
  intro t ht
  cases w with
  | nil =>
    rcases atEol_cases hr with rfl | ⟨x, rfl⟩ <;> simp at ht
  | cons c w =>
    simp only [List.cons_append, List.nil_append, List.cons.injEq] at ht
    have := h c (by simp)
    rw [ht.1] at this
    exact absurd this (by decide)

/-- blank lines before a line with something on it -/
theorem gap_match {blog : Bool} {p : Option Char} {w s : Str} (hp : atBol true p = true) (hw : ∀ c ∈ w, isSpace c = true) (hs : Nonblank s) :
    (blockRe blog).matchAt false p (w ++ '\n' :: s) = some ⟨(w.getLast?).or p, '\n' :: s, [(.line, w)]⟩ :=
  line_head hp rfl (hs.spsEol_gap p [] hw) (spaces_lt hw rfl) blog

/-- blanks at the end of the text -/
theorem end_match {blog : Bool} {p : Option Char} {w : Str} (hp : atBol true p = true) (hw : ∀ c ∈ w, isSpace c = true) :
    (blockRe blog).matchAt false p w = some ⟨(w.getLast?).or p, [], [(.line, w)]⟩ :=
  line_head hp (by simp) (spsEol_end hw) (by have := spaces_lt hw (r := []) rfl; simpa using this) blog

/-- nothing is matched at the end of a text that does not end with a newline -/
theorem nil_match {blog : Bool} {p : Option Char} (hp : atBol true p = false) : (blockRe blog).matchAt false p [] = none := by
  refine block_none ?_
  intro q hq
  rw [blockRules_eq] at hq
  simp only [List.mem_cons, List.mem_append, List.not_mem_nil, or_false] at hq
  rcases hq with rfl | hq | rfl
  · exact grp_lit_nil (by simp)
  · exact bolRules_nil hp q hq
  · have hd : ∀ (g : G) (a : List (G × Str)), (Re.grp g (.plus true dot)).res ⟨p, [], a⟩ = [] := by
      intro g a
      exact res_grp_nil (by simp [Re.plus, Re.res, dot])
    cases blog with
    | true => exact Re.res_seq_nil (hd _ _)
    | false =>
      show (Re.seq (opt (.grp .space softBreak)) (.grp .text (.plus true dot))).res _ = _
      rw [res_opt_seq, hd, List.append_nil]
      exact Re.res_seq_nil (res_grp_nil (soft_no (.inr (.inl rfl))))

end Verif.Creole
