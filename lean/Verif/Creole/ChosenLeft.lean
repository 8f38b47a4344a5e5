import Verif.Creole.ChosenLemmas
import Verif.Creole.Shape
import Verif.Props.Firewall

/-!
# Rules that never match
-/

namespace Verif.Creole

open Verif Py Re Spec Spec.Ch

/-! ## Leaving out an alternative -/

theorem alts_res {l : List R} (hl : l ≠ []) (s : St G) : (alts l).res s = l.flatMap fun r => r.res s := by
  induction l with
  | nil => exact absurd rfl hl
  | cons a l ih =>
    cases l with
    | nil => simp [alts]
    | cons b l => rw [alts, Re.res, ih (by simp)]; rfl

theorem scanAux_same {a b : R} {whole : Str} (h : ∀ pre rest, whole = pre ++ rest → ∀ adv, a.matchAt adv pre.getLast? rest = b.matchAt adv pre.getLast? rest) :
    ∀ (rest pre : Str) (k : Nat), whole = pre ++ rest → a.scanAux pre.getLast? rest k = b.scanAux pre.getLast? rest k := by
  intro rest
  induction rest with
  | nil =>
    intro pre k hw
    rw [Re.scanAux, Re.scanAux, h pre [] hw]
  | cons c cs ih =>
    intro pre k hw
    have hn : ∀ k, a.scanAux (some c) cs k = b.scanAux (some c) cs k := by
      intro k
      have := ih (pre ++ [c]) k (by simp [hw])
      simpa using this
    cases k with
    | succ k => rw [Re.scanAux, Re.scanAux, hn]
    | zero =>
      rw [Re.scanAux, Re.scanAux, h pre _ hw, h pre _ hw]
      simp only [hn]

theorem findAll_same {a b : R} {whole : Str} (h : ∀ pre rest, whole = pre ++ rest → a.res ⟨pre.getLast?, rest, []⟩ = b.res ⟨pre.getLast?, rest, []⟩) :
    a.findAll whole = b.findAll whole := by
  unfold Re.findAll Re.scan
  have := scanAux_same (a := a) (b := b) (whole := whole) (fun pre rest hw adv => by
    unfold Re.matchAt
    rw [Re.m_eq, Re.m_eq, h pre rest hw]) whole [] 0 rfl
  rw [show (none : Option Char) = ([] : Str).getLast? from rfl, this]

/-- the rule never matches -/
def Idle (r : R) (whole : Str) : Prop := ∀ pre rest, whole = pre ++ rest → r.res ⟨pre.getLast?, rest, []⟩ = []

theorem subAll_same {a b : R} {hd : G → Match G → PS → PM} {raw : Str} (h1 : a.findAll raw = b.findAll raw)
    (h2 : ∀ m ∈ b.findAll raw, dispatch (groupOrder a) m = dispatch (groupOrder b) m) (st : PS) : subAll a hd raw st = subAll b hd raw st := by
  unfold subAll
  rw [h1]
  revert h2
  generalize b.findAll raw = l
  intro h2
  induction l generalizing st with
  | nil => rfl
  | cons m l ih =>
    rw [List.foldlM_cons, List.foldlM_cons, h2 m (by simp)]
    congr 1
    funext st'
    exact ih st' fun m hm => h2 m (by simp [hm])

theorem subAll_idle {l₁ l₂ : List BRule} {r : BRule} (hn : ((l₁ ++ r :: l₂).map BRule.name).Nodup) {raw : Str} (hi : Idle r.re raw)
    (hd : G → Match G → PS → PM) (st : PS) :
    subAll (chosenRe (l₁ ++ r :: l₂)) hd raw st = subAll (chosenRe (l₁ ++ l₂)) hd raw st := by
  have hn' : ((l₁ ++ l₂).map BRule.name).Nodup := by
    refine hn.sublist (List.Sublist.map _ ?_)
    exact List.Sublist.append (List.Sublist.refl _) (List.sublist_cons_self _ _)
  by_cases hne : l₁ ++ l₂ = []
  · rw [hne, subAll_chosen_nil]
    obtain ⟨rfl, rfl⟩ := List.append_eq_nil_iff.mp hne
    unfold subAll
    have : (chosenRe ([] ++ r :: [])).findAll raw = [] := by
      cases h : (chosenRe ([] ++ r :: [])).findAll raw with
      | nil => rfl
      | cons m l =>
        obtain ⟨r', hr, s', pre, rest, hh, _⟩ := chosen_hit hn (by simp) (m := m) (by rw [h]; simp)
        simp at hr
        subst hr
        have := hh.mem
        rw [hi pre rest hh.raw] at this
        cases this
    rw [this]
    rfl
  · have e : (chosenRe (l₁ ++ r :: l₂)).findAll raw = (chosenRe (l₁ ++ l₂)).findAll raw := by
      refine findAll_same fun pre rest hw => ?_
      unfold chosenRe
      rw [alts_res (by simp), alts_res (by simpa using hne)]
      simp [List.flatMap_append, hi pre rest hw]
    refine subAll_same e ?_ st
    intro m hm
    obtain ⟨r', hr, s', pre, rest, hh, e'⟩ := chosen_hit hn' hne hm
    rw [e']
    have hr' : r' ∈ l₁ ++ r :: l₂ := by
      simp only [List.mem_append, List.mem_cons] at hr ⊢
      rcases hr with h | h
      · exact .inl h
      · exact .inr (.inr h)
    refine hh.dispatch_alts (List.mem_map.mpr ⟨r', hr', rfl⟩) ?_
    intro x hx
    obtain ⟨y, hy, rfl⟩ := List.mem_map.mp hx
    by_cases h : r'.name = y.name
    · exact .inl (by rw [nodup_name hn hr' hy h])
    · exact .inr (BRule.apart r' y h)

/-! ## Lines -/

/-- the part of a text after its last line end -/
def tailLine (u : Str) : Str := (u.reverse.takeWhile (· ≠ '\n')).reverse

theorem tailLine_plain {u : Str} (h : '\n' ∉ u) : tailLine u = u := by
  have key : ∀ {v : Str}, '\n' ∉ v → v.takeWhile (· ≠ '\n') = v := by
    intro v
    induction v with
    | nil => intro _; rfl
    | cons c v ih =>
      intro hv
      have : c ≠ '\n' := fun e => hv (by simp [e])
      rw [List.takeWhile_cons, if_pos (by simpa using this), ih fun hc => hv (by simp [hc])]
  unfold tailLine
  rw [key (by simpa using h), List.reverse_reverse]

theorem tailLine_after (a b : Str) : tailLine (a ++ '\n' :: b) = tailLine b := by
  unfold tailLine
  rw [List.reverse_append, List.reverse_cons, List.append_assoc]
  congr 1
  generalize b.reverse = c
  induction c with
  | nil => simp
  | cons d c ih =>
    rw [List.cons_append, List.takeWhile_cons, List.takeWhile_cons]
    split
    · rw [ih]
    · rfl

theorem takeWhile_line {a r : Str} (h : '\n' ∉ a) (hr : r = [] ∨ ∃ t, r = '\n' :: t) : (a ++ r).takeWhile (· ≠ '\n') = a := by
  induction a with
  | nil => rcases hr with rfl | ⟨t, rfl⟩ <;> simp
  | cons c a ih =>
    have : c ≠ '\n' := fun e => h (by simp [e])
    rw [List.cons_append, List.takeWhile_cons, if_pos (by simpa using this), ih fun hc => h (by simp [hc])]

theorem line_at_join : ∀ {L : List Str}, L ≠ [] → (∀ l ∈ L, '\n' ∉ l) → ∀ {u v : Str}, joinLines c!"\n" L = u ++ v →
    tailLine u ++ v.takeWhile (· ≠ '\n') ∈ L
  | [], h, _, _, _, _ => absurd rfl h
  | [l], _, hc, u, v, e => by
    have e : l = u ++ v := e
    have hl := hc l (by simp)
    rw [e] at hl
    simp only [List.mem_append, not_or] at hl
    rw [tailLine_plain hl.1, show v = v ++ [] by simp, takeWhile_line hl.2 (.inl rfl), ← e]
    simp
  | l :: m :: L, _, hc, u, v, e => by
    have hl := hc l (by simp)
    have e : l ++ '\n' :: joinLines c!"\n" (m :: L) = u ++ v := by rw [← e]; simp [joinLines]
    rcases List.append_eq_append_iff.mp e with ⟨a, rfl, h2⟩ | ⟨a, rfl, h2⟩
    · cases a with
      | nil =>
        rw [List.append_nil]
        rw [List.nil_append] at h2
        rw [tailLine_plain hl, ← h2, List.takeWhile_cons, if_neg (by simp)]
        simp
      | cons c a =>
        rw [List.cons_append] at h2
        obtain ⟨rfl, h3⟩ := List.cons.inj h2
        rw [tailLine_after]
        exact List.mem_cons_of_mem _ (line_at_join (by simp) (fun l hl => hc l (by simp [hl])) h3)
    · simp only [List.mem_append, not_or] at hl
      rw [tailLine_plain hl.1, h2, takeWhile_line hl.2 (.inr ⟨_, rfl⟩)]
      simp

/-- the line around a place of the text -/
theorem line_at {markup u v : Str} (h : normNewlines markup = u ++ v) : tailLine u ++ v.takeWhile (· ≠ '\n') ∈ textLines markup := by
  rw [normNewlines, crlf_eq, Props.crlf_textLines] at h
  exact line_at_join (Props.textLines_ne _) (Props.textLines_clean _) h

theorem tailLine_bol {pre w : Str} (hb : atBol true pre.getLast? = true) : ∃ a, w = a ++ tailLine (pre ++ w) := by
  by_cases hn : '\n' ∈ w
  · obtain ⟨a, b, rfl⟩ := List.append_of_mem hn
    rw [← List.append_assoc, tailLine_after]
    have : ∃ x, b = x ++ tailLine b := by
      unfold tailLine
      refine ⟨(b.reverse.dropWhile (· ≠ '\n')).reverse, ?_⟩
      rw [← List.reverse_append, List.takeWhile_append_dropWhile, List.reverse_reverse]
    obtain ⟨x, hx⟩ := this
    refine ⟨a ++ '\n' :: x, ?_⟩
    rw [List.append_assoc, List.cons_append, ← hx]
  · refine ⟨[], ?_⟩
    rw [List.nil_append]
    cases hp : pre.getLast? with
    | none =>
      rw [List.getLast?_eq_none_iff] at hp
      rw [hp, List.nil_append, tailLine_plain hn]
    | some c =>
      rw [hp] at hb
      have : c = '\n' := by simpa [atBol] using hb
      subst this
      obtain ⟨ys, rfl⟩ := List.getLast?_eq_some_iff.mp hp
      rw [List.append_assoc, List.singleton_append, tailLine_after, tailLine_plain hn]

/-- a line that begins with blanks and `x` -/
theorem line_begins {markup pre w x v : Str} (h : normNewlines markup = pre ++ (w ++ (x ++ v))) (hb : atBol true pre.getLast? = true)
    (hw : ∀ c ∈ w, isSpace c = true) (hx : '\n' ∉ x) :
    ∃ l ∈ textLines markup, ∃ w', (∀ c ∈ w', isSpace c = true) ∧ (∃ a, w = a ++ w') ∧ l = w' ++ x ++ v.takeWhile (· ≠ '\n') := by
  rw [← List.append_assoc] at h
  refine ⟨_, line_at h, tailLine (pre ++ w), ?_, tailLine_bol hb, ?_⟩
  · obtain ⟨a, ha⟩ := tailLine_bol (w := w) hb
    intro c hc
    exact hw c (by rw [ha]; simp [hc])
  · rw [List.append_assoc]
    congr 1
    clear h
    induction x with
    | nil => rfl
    | cons c x ih =>
      have : c ≠ '\n' := fun e => hx (by simp [e])
      rw [List.cons_append, List.takeWhile_cons, if_pos (by simpa using this), ih fun hc => hx (by simp [hc]), List.cons_append]

theorem after_of {w x t : Str} (hw : ∀ c ∈ w, isSpace c = true) (hx : ∃ c y, x = c :: y ∧ isSpace c = false) : after x (w ++ x ++ t) = true := by
  unfold after
  have : (w ++ x ++ t).dropWhile isSpace = x ++ t := by
    induction w with
    | nil =>
      obtain ⟨c, y, rfl, hc⟩ := hx
      rw [List.nil_append, List.cons_append, List.dropWhile_cons, if_neg (by simp [hc])]
    | cons d w ih =>
      rw [List.cons_append, List.cons_append, List.dropWhile_cons, if_pos (hw d (by simp))]
      exact ih fun c hc => hw c (by simp [hc])
  rw [this, List.isPrefixOf_iff_prefix]
  exact List.prefix_append _ _

theorem takeWhile_blank {w v : Str} (hw : ∀ c ∈ w, isSpace c = true) (he : atEol true v = true) :
    ∀ c ∈ (w ++ v).takeWhile (· ≠ '\n'), isSpace c = true := by
  induction w with
  | nil =>
    cases v with
    | nil => simp
    | cons c v =>
      have : c = '\n' := by simpa [atEol] using he
      subst this
      simp
  | cons d w ih =>
    rw [List.cons_append, List.takeWhile_cons]
    split
    · intro c hc
      rcases List.mem_cons.mp hc with rfl | hc
      · exact hw _ (by simp)
      · exact ih (fun c hc => hw c (by simp [hc])) c hc
    · simp

/-! ## The rules -/

/-- what the expressions for lines begin with -/
theorem bol_sps_lit {x : Str} {s s' t : St G} (h1 : t ∈ (sps : R).res s) (h2 : s' ∈ (lit x : R).res t) :
    ∃ w, s.rest = w ++ (x ++ s'.rest) ∧ ∀ c ∈ w, isSpace c = true := by
  obtain ⟨w, e1, e2, _⟩ := sps_blanks h1
  exact ⟨w, by rw [e1, (mem_res_lit h2).1], e2⟩

theorem idle_of_not_needs {r : BRule} {markup : Str} (h : ¬ Needs r markup) : Idle r.re (normNewlines markup) := by
  intro pre rest hw
  rw [List.eq_nil_iff_forall_not_mem]
  intro x hx
  apply h
  cases r with
  | macro_block =>
    unfold BRule.re macroBlockRule at hx
    obtain ⟨t, ht, -⟩ := mem_res_grp.mp hx
    obtain ⟨t1, h1, -⟩ := mem_res_seq.mp ht
    have := (mem_res_lit h1).1
    have hi : c!"<<" <:+: normNewlines markup := by
      rw [hw]
      exact ⟨pre, t1.rest, by rw [show rest = _ from this]; simp⟩
    rw [normNewlines, crlf_eq] at hi
    exact infix_of_infix_crlf (by decide) hi
  | line =>
    unfold BRule.re lineRule at hx
    obtain ⟨t, ht, -⟩ := mem_res_grp.mp hx
    obtain ⟨t1, h1, h2⟩ := mem_res_seq.mp ht
    obtain ⟨hb, rfl⟩ := mem_res_bol.mp h1
    obtain ⟨t2, h3, h4⟩ := mem_res_seq.mp h2
    obtain ⟨he, rfl⟩ := mem_res_eol.mp h4
    obtain ⟨w, e1, e2, _⟩ := sps_blanks h3
    have e1 : rest = w ++ t.rest := e1
    obtain ⟨l, hl, w', g1, -, g3⟩ := line_begins (x := []) (w := []) (v := rest) hw hb (by simp) (by simp)
    refine ⟨l, hl, ?_⟩
    rw [g3, List.all_eq_true, e1]
    intro c hc
    simp only [List.mem_append, List.not_mem_nil, or_false] at hc
    rcases hc with hc | hc
    · exact g1 c hc
    · exact takeWhile_blank e2 he c hc
  | head =>
    unfold BRule.re headRule at hx
    obtain ⟨t, ht, -⟩ := mem_res_grp.mp hx
    obtain ⟨t1, h1, h2⟩ := mem_res_seq.mp ht
    obtain ⟨hb, rfl⟩ := mem_res_bol.mp h1
    obtain ⟨t2, h3, h4⟩ := mem_res_seq.mp h2
    obtain ⟨t3, h5, -⟩ := mem_res_grp.mp h3
    obtain ⟨t4, h6, -⟩ := mem_res_seq.mp h5
    obtain ⟨c, r, e1, e2, -⟩ := mem_res_cls.mp h6
    have e2 : c = '=' := by simpa [CSet.mem] using e2
    subst e2
    have e1 : rest = '=' :: r := e1
    obtain ⟨l, hl, w', g1, ⟨a, ga⟩, g3⟩ := line_begins (x := c!"=") (w := []) (v := r) (by rw [hw, e1]; rfl) hb (by simp) (by simp)
    refine ⟨l, hl, ?_⟩
    obtain ⟨_, rfl⟩ := List.append_eq_nil_iff.mp ga.symm
    rw [g3]
    simp
  | separator =>
    unfold BRule.re separatorRule at hx
    obtain ⟨t, ht, -⟩ := mem_res_seq.mp hx
    obtain ⟨t0, ht, -⟩ := mem_res_grp.mp ht
    obtain ⟨t1, h1, h2⟩ := mem_res_seq.mp ht
    obtain ⟨hb, rfl⟩ := mem_res_bol.mp h1
    obtain ⟨t2, h3, h4⟩ := mem_res_seq.mp h2
    obtain ⟨w, e1, e2⟩ := bol_sps_lit h3 h4
    obtain ⟨l, hl, w', g1, -, g3⟩ := line_begins (x := c!"----") (by rw [hw]; exact congrArg _ e1) hb e2 (by simp)
    exact ⟨l, hl, by rw [g3]; exact after_of g1 ⟨'-', _, rfl, by decide +kernel⟩⟩
  | pre_block =>
    unfold BRule.re preBlockRule at hx
    obtain ⟨t, ht, -⟩ := mem_res_grp.mp hx
    obtain ⟨t1, h1, h2⟩ := mem_res_seq.mp ht
    obtain ⟨hb, rfl⟩ := mem_res_bol.mp h1
    obtain ⟨t2, h3, h4⟩ := mem_res_seq.mp h2
    obtain ⟨t3, h5, h6⟩ := mem_res_seq.mp h4
    obtain ⟨t4, h7, -⟩ := mem_res_seq.mp h6
    obtain ⟨he, rfl⟩ := mem_res_eol.mp h7
    have e1 := (mem_res_lit h3).1
    have e1 : rest = c!"{{{" ++ t2.rest := e1
    obtain ⟨w, e2, e3, _⟩ := sps_blanks h5
    obtain ⟨l, hl, w', g1, ⟨a, ga⟩, g3⟩ := line_begins (x := c!"{{{") (w := []) (v := t2.rest) (by rw [hw, e1]; rfl) hb (by simp) (by simp)
    obtain ⟨_, rfl⟩ := List.append_eq_nil_iff.mp ga.symm
    refine ⟨l, hl, _, by rw [g3]; rfl, ?_⟩
    rw [List.all_eq_true, e2]
    exact takeWhile_blank e3 he
  | list =>
    unfold BRule.re listRule at hx
    obtain ⟨t, ht, -⟩ := mem_res_grp.mp hx
    obtain ⟨t0, ht, -⟩ := mem_res_seq.mp ht
    obtain ⟨t1, h1, h2⟩ := mem_res_seq.mp ht
    obtain ⟨hb, rfl⟩ := mem_res_bol.mp h1
    obtain ⟨t2, h3, h4⟩ := mem_res_seq.mp h2
    obtain ⟨t3, h5, -⟩ := mem_res_seq.mp h4
    rcases mem_res_alt.mp h5 with h5 | h5 <;> obtain ⟨t4, h6, -⟩ := mem_res_seq.mp h5
    · obtain ⟨w, e1, e2⟩ := bol_sps_lit (x := c!"*") h3 h6
      obtain ⟨l, hl, w', g1, -, g3⟩ := line_begins (x := c!"*") (by rw [hw]; exact congrArg _ e1) hb e2 (by simp)
      exact ⟨l, hl, .inl (by rw [g3]; exact after_of g1 ⟨'*', _, rfl, by decide +kernel⟩)⟩
    · obtain ⟨w, e1, e2⟩ := bol_sps_lit (x := c!"#") h3 h6
      obtain ⟨l, hl, w', g1, -, g3⟩ := line_begins (x := c!"#") (by rw [hw]; exact congrArg _ e1) hb e2 (by simp)
      exact ⟨l, hl, .inr (by rw [g3]; exact after_of g1 ⟨'#', _, rfl, by decide +kernel⟩)⟩
  | table =>
    unfold BRule.re tableRule at hx
    obtain ⟨t1, h1, h2⟩ := mem_res_seq.mp hx
    obtain ⟨hb, rfl⟩ := mem_res_bol.mp h1
    obtain ⟨t2, h3, h4⟩ := mem_res_seq.mp h2
    obtain ⟨t3, h5, -⟩ := mem_res_seq.mp h4
    obtain ⟨t4, h6, -⟩ := mem_res_grp.mp h5
    obtain ⟨t5, h7, -⟩ := mem_res_seq.mp h6
    obtain ⟨w, e1, e2⟩ := bol_sps_lit (x := c!"|") h3 h7
    obtain ⟨l, hl, w', g1, -, g3⟩ := line_begins (x := c!"|") (by rw [hw]; exact congrArg _ e1) hb e2 (by simp)
    exact ⟨l, hl, by rw [g3]; exact after_of g1 ⟨'|', _, rfl, by decide +kernel⟩⟩
  | text blog =>
    have key : ∀ {s t : St G}, t ∈ (Re.grp G.text (.plus true dot) : R).res s → ∃ c r, s.rest = c :: r ∧ c ≠ '\n' := by
      intro s t h
      obtain ⟨t3, h5, -⟩ := mem_res_grp.mp h
      obtain ⟨t4, h6, -⟩ := mem_res_seq.mp h5
      obtain ⟨c, r, e1, e2, -⟩ := mem_res_cls.mp h6
      exact ⟨c, r, e1, by simpa [CSet.mem] using e2⟩
    have : ∃ u c r, normNewlines markup = u ++ c :: r ∧ c ≠ '\n' := by
      have hx : x ∈ (textRule blog).res _ := hx
      unfold textRule at hx
      cases blog with
      | true =>
        rw [if_pos rfl] at hx
        obtain ⟨t1, h1, -⟩ := mem_res_seq.mp hx
        obtain ⟨c, r, e, hc⟩ := key h1
        exact ⟨pre, c, r, by rw [hw]; exact congrArg _ e, hc⟩
      | false =>
        rw [if_neg (by simp)] at hx
        obtain ⟨t1, h1, h2⟩ := mem_res_seq.mp hx
        obtain ⟨c, r, e, hc⟩ := key h2
        obtain ⟨w, hr⟩ := Re.res_reach h1
        have e2 : rest = w ++ t1.rest := hr.rest
        exact ⟨pre ++ w, c, r, by rw [hw, e2, e]; simp, hc⟩
    obtain ⟨u, c, r, e, hc⟩ := this
    refine ⟨_, line_at e, ?_⟩
    rw [List.takeWhile_cons, if_pos (by simpa using hc)]
    simp

theorem parseRules_left {l₁ l₂ : List BRule} {r : BRule} (hn : ((l₁ ++ r :: l₂).map BRule.name).Nodup) {raw : Str} (h : ¬ Needs r raw) :
    parseRules (l₁ ++ r :: l₂) raw = parseRules (l₁ ++ l₂) raw := by
  unfold parseRules
  rw [subAll_idle hn (idle_of_not_needs h)]

end Verif.Creole
