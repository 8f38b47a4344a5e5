import Verif.Creole.BlockLocal

/-!
# Reading a text up to a blank line
-/

namespace Verif.Creole

open Verif Re Py Spec Spec.Cr

/-- both the first match and the first match that is not empty are the same -/
def LocalM (r : R) (T : Str) (s : St G) : Prop := LocalH r T s ∧
  (r.res (shift T s)).find? (fun x => x.rest.length != (s.rest ++ T).length) =
    ((r.res s).find? fun x => x.rest.length != s.rest.length).map (shift T)

theorem Local.both {r : R} {T : Str} {s : St G} (h : Local r T s) : LocalM r T s := by
  refine ⟨h.head, ?_⟩
  unfold Local at h
  rw [h, List.find?_map]
  congr 2
  funext x
  rw [Bool.eq_iff_iff]
  simp [Function.comp, shift]

theorem LocalH.both {r : R} {T : Str} {s : St G} (h : LocalH r T s) (hn : r.nullable = false) : LocalM r T s := by
  refine ⟨h, ?_⟩
  have e : ∀ s : St G, (r.res s).find? (fun x => x.rest.length != s.rest.length) = (r.res s).head? := by
    intro s
    cases hl : r.res s with
    | nil => rfl
    | cons x l =>
      have := Re.res_lt hn (s := s) (s' := x) (by rw [hl]; simp)
      have : (x.rest.length != s.rest.length) = true := by simp; omega
      simp [this]
  rw [e s]
  exact (e (shift T s)).trans h

theorem LocalM.alts {T : Str} {s : St G} : ∀ {l : List R}, l ≠ [] → (∀ q ∈ l, LocalM q T s) → LocalM (Re.alts l) T s
  | [], h, _ => absurd rfl h
  | [q], _, h => h q (by simp)
  | q :: q' :: l, _, h => by
    obtain ⟨h1, h2⟩ := h q (by simp)
    obtain ⟨h3, h4⟩ := LocalM.alts (l := q' :: l) (by simp) fun x hx => h x (by simp only [List.mem_cons] at hx ⊢; exact .inr hx)
    unfold LocalH at *
    constructor
    · show ((q.res (shift T s)) ++ (Re.alts (q' :: l)).res (shift T s)).head? = ((q.res s) ++ (Re.alts (q' :: l)).res s).head?.map (shift T)
      rw [List.head?_append, List.head?_append, h1, h3]
      cases (q.res s).head? <;> rfl
    · show ((q.res (shift T s)) ++ (Re.alts (q' :: l)).res (shift T s)).find? _ = (((q.res s) ++ (Re.alts (q' :: l)).res s).find? _).map (shift T)
      rw [List.find?_append, List.find?_append, h2, h4]
      cases (q.res s).find? (fun x => x.rest.length != s.rest.length) <;> rfl

/-- a text that can be read without looking at what comes after the blank line behind it -/
structure Closed (a : Str) : Prop where
  core : Core a
  macros : ¬ c!"<<" <:+: a
  pre : ∀ u v, a = u ++ (c!"{{{" ++ v) → atBol true u.getLast? = true → Nonblank v

/-- a position in a text -/
def Pos (a : Str) (p : Option Char) (u : Str) : Prop := ∃ pre, a = pre ++ u ∧ p = pre.getLast?

variable {a u b : Str} {p : Option Char}

theorem getLast?_nl {l : Str} (h : atBol true l.getLast? = true) : l = [] ∨ ∃ m, l = m ++ c!"\n" := by
  cases hl : l.getLast? with
  | none => rw [List.getLast?_eq_none_iff] at hl; exact .inl hl
  | some c =>
    rw [hl] at h
    simp [atBol] at h
    subst h
    rw [List.getLast?_eq_some_iff] at hl
    exact .inr hl

theorem Core.suffix (h : Core a) (hp : Pos a p u) (hb : atBol true p = true) : Core u := by
  obtain ⟨pre, ha, rfl⟩ := hp
  obtain ⟨v, i, k, K, hu, hv, hi, hk, hbar, hnl, hd⟩ := h
  rw [ha] at hu
  rcases getLast?_nl hb with rfl | ⟨pre', rfl⟩
  · rw [List.nil_append] at hu
    exact ⟨v, i, k, K, hu, hv, hi, hk, hbar, hnl, hd⟩
  · rw [List.append_eq_append_iff] at hu
    rcases hu with ⟨e, he, hr⟩ | ⟨e, he, hr⟩
    · refine ⟨e, i, k, K, hr, ?_, hi, hk, hbar, hnl, hd⟩
      rcases hv with rfl | ⟨v', rfl⟩
      · simp at he
      · rcases List.eq_nil_or_concat e with rfl | ⟨e, c, rfl⟩
        · exact .inl rfl
        · rw [List.concat_eq_append] at he ⊢
          rw [← List.append_assoc] at he
          have := List.append_inj_right' he rfl
          simp at this
          exact .inr ⟨e, by rw [this]⟩
    · rcases List.eq_nil_or_concat e with rfl | ⟨e, c, rfl⟩
      · rw [List.nil_append] at hr
        exact ⟨[], i, k, K, hr.symm, .inl rfl, hi, hk, hbar, hnl, hd⟩
      · exfalso
        rw [List.concat_eq_append] at he hr
        rw [← List.append_assoc] at he
        have := List.append_inj_right' he rfl
        simp at this
        rw [hr, ← this] at hnl
        simp at hnl

theorem Core.after_nl (h : Core a) (hp : Pos a p u) : ∀ w y, u = w ++ '\n' :: y → ∃ d ∈ y, isSpace d = false := by
  rintro w y rfl
  obtain ⟨pre, ha, rfl⟩ := hp
  have : Core y := h.suffix (p := some '\n') ⟨pre ++ (w ++ c!"\n"), by rw [ha]; simp, by simp [← List.append_assoc]⟩ rfl
  obtain ⟨d, hd, hs, _⟩ := this.solid
  exact ⟨d, hd, hs⟩

theorem Closed.rules (h : Closed a) (hp : Pos a p u) : ∀ q ∈ blockRules true, LocalM q ('\n' :: '\n' :: b) ⟨p, u, []⟩ := by
  intro q hq
  rw [blockRules_eq] at hq
  simp only [List.mem_cons, List.mem_append, List.not_mem_nil, or_false] at hq
  have hnil : ∀ {q : R}, q.res ⟨p, u, []⟩ = [] → q.res ⟨p, u ++ '\n' :: '\n' :: b, []⟩ = [] → LocalM q ('\n' :: '\n' :: b) ⟨p, u, []⟩ := by
    intro q h1 h2
    refine Local.both ?_
    unfold Local
    rw [h1]
    exact h2
  have hpre : u <:+ a := by obtain ⟨pre, ha, _⟩ := hp; exact ⟨pre, ha.symm⟩
  rcases hq with rfl | hq | rfl
  · -- macros
    have h1 : (c!"<<").isPrefixOf u = false := by
      cases hx : (c!"<<").isPrefixOf u with
      | false => rfl
      | true =>
        rw [List.isPrefixOf_iff_prefix] at hx
        exact absurd (hx.isInfix.trans hpre.isInfix) h.macros
    refine hnil (macro_nil h1) (macro_nil ?_)
    cases u with
    | nil => rfl
    | cons c u =>
      cases u with
      | nil => simp [List.isPrefixOf]
      | cons d u => simpa [List.isPrefixOf] using h1
  · cases hb : atBol true p with
    | false => exact hnil (bolRules_nil hb q hq) (bolRules_nil hb q hq)
    | true =>
      have hc : Core u := h.core.suffix hp hb
      obtain ⟨d, hd, hs, _⟩ := hc.solid
      simp only [bolRules, List.mem_cons, List.not_mem_nil, or_false] at hq
      rcases hq with rfl | rfl | rfl | rfl | rfl | rfl
      · exact (line_local ⟨d, hd, hs⟩).both
      · exact (head_localH hc).both (by decide)
      · exact (sep_local ⟨d, hd, hs⟩).both
      · have h1 : ∀ t, u = c!"{{{" ++ t → Nonblank t := by
          rintro t rfl
          obtain ⟨pre, ha, rfl⟩ := hp
          exact h.pre pre t ha hb
        refine hnil (preBlock_nil h1) (preBlock_nil ?_)
        intro t ht
        have : ∃ t', u = c!"{{{" ++ t' ∧ t = t' ++ '\n' :: '\n' :: b := by
          rw [List.append_eq_append_iff] at ht
          rcases ht with ⟨e, he, hr⟩ | ⟨e, he, hr⟩
          · cases e with
            | nil => exact ⟨[], by rw [he]; simp, by simpa using hr.symm⟩
            | cons c e =>
              simp only [List.cons_append, List.cons.injEq] at hr
              have : '\n' ∈ c!"{{{" := by rw [he, ← hr.1]; simp
              exact absurd this (by decide)
          · exact ⟨e, he, hr⟩
        obtain ⟨t', rfl, rfl⟩ := this
        obtain ⟨w, c, v, rfl, h2, h3, h4⟩ := h1 t' rfl
        exact ⟨w, c, v ++ '\n' :: '\n' :: b, by simp, h2, h3, h4⟩
      · exact (list_local hc).both
      · exact (table_local hc).both
  · exact (text_local (h.core.after_nl hp)).both

theorem Closed.matches (h : Closed a) (hp : Pos a p u) :
    (blockRe true).matchAt false p (u ++ '\n' :: '\n' :: b) = ((blockRe true).matchAt false p u).map (shift ('\n' :: '\n' :: b)) ∧
    (blockRe true).matchAt true p (u ++ '\n' :: '\n' :: b) = ((blockRe true).matchAt true p u).map (shift ('\n' :: '\n' :: b)) := by
  have := LocalM.alts (l := blockRules true) (by simp [blockRules]) (h.rules (b := b) hp)
  rw [Re.matchAt_false, Re.matchAt_false, Re.matchAt_true, Re.matchAt_true]
  exact this

theorem nil_none (hb : atBol true p = false) : (blockRe true).matchAt false p [] = none := by
  refine block_none ?_
  intro q hq
  rw [blockRules_eq] at hq
  simp only [List.mem_cons, List.mem_append, List.not_mem_nil, or_false] at hq
  rcases hq with rfl | hq | rfl
  · exact macro_nil rfl
  · exact bolRules_nil hb q hq
  · exact Re.res_seq_nil (res_grp_nil rfl)

theorem Pos.next {w r : Str} (h : Pos a p (w ++ r)) (hw : w ≠ []) : Pos a w.getLast? r := by
  obtain ⟨pre, ha, rfl⟩ := h
  refine ⟨pre ++ w, by rw [ha]; simp, ?_⟩
  rw [List.getLast?_append]
  cases hl : w.getLast? with
  | none => rw [List.getLast?_eq_none_iff] at hl; exact absurd hl hw
  | some c => rfl

theorem bind_congr_right {m : PM} {f g : PS → PM} (h : ∀ x, f x = g x) : (m >>= f) = (m >>= g) := by
  cases m with
  | error e => rfl
  | ok x => exact h x

theorem Closed.last (h : Closed a) : atBol true a.getLast? = false := by
  obtain ⟨v, i, k, K, rfl, _, _, _, _, hnl, _⟩ := h.core
  cases hl : (v ++ (i ++ k :: K)).getLast? with
  | none => simp at hl
  | some c =>
    have : c ∈ i ++ k :: K := by
      rw [List.getLast?_append, List.getLast?_append] at hl
      have h2 : (k :: K).getLast? = some ((k :: K).getLast (by simp)) := List.getLast?_eq_some_getLast (by simp)
      rw [h2] at hl
      simp only [Option.some_or, Option.some.injEq] at hl
      rw [List.mem_append]
      right
      rw [← hl]
      exact List.getLast_mem _
    have : c ≠ '\n' := by rintro rfl; exact hnl this
    simp [atBol, this]

/-- **the text before a blank line is read first, as if it were alone** -/
theorem Closed.run (h : Closed a) (hd : G → Match G → PS → PM) : ∀ (n : Nat) (u : Str) (p : Option Char) (st : PS), u.length ≤ n → Pos a p u →
    runR (blockRe true) hd p (u ++ '\n' :: '\n' :: b) st =
      (runR (blockRe true) hd p u st >>= runR (blockRe true) hd a.getLast? ('\n' :: '\n' :: b)) := by
  have hlast := h.last
  intro n
  induction n with
  | zero =>
    intro u p st hu hp
    have : u = [] := List.length_eq_zero_iff.1 (by omega)
    subst this
    have hpa : p = a.getLast? := by
      obtain ⟨pre, ha, rfl⟩ := hp
      rw [ha]; simp
    subst hpa
    rw [runR_nil' (nil_none hlast)]
    rfl
  | succ n ih =>
    intro u p st hu hp
    cases u with
    | nil => exact ih [] p st (by simp) hp
    | cons c cs =>
      obtain ⟨h1, h2⟩ := h.matches (b := b) hp
      cases hm : (blockRe true).matchAt false p (c :: cs) with
      | none =>
        rw [hm, List.cons_append] at h1
        rw [runR_skip hm, List.cons_append, runR_skip h1]
        exact ih cs (some c) st (by simp at hu; omega) (hp.next (w := [c]) (by simp))
      | some x =>
        rw [hm] at h1
        obtain ⟨w, hw⟩ := Re.res_reach (Re.matchAt_mem hm)
        have hrest := hw.rest
        simp only at hrest
        obtain ⟨q, r, caps⟩ := x
        simp only at hrest
        by_cases hwn : w = []
        · subst hwn
          rw [List.nil_append] at hrest
          subst hrest
          rw [runR_empty hm]
          rw [List.cons_append] at h1 h2 ⊢
          rw [runR_empty (caps := caps) (p := q) h1]
          rw [bind_assoc]
          refine bind_congr_right fun st' => ?_
          unfold runT
          cases hm' : (blockRe true).matchAt true p (c :: cs) with
          | none =>
            rw [hm'] at h2
            rw [h2]
            exact ih cs (some c) st' (by simp at hu; omega) (hp.next (w := [c]) (by simp))
          | some y =>
            rw [hm'] at h2
            rw [h2]
            have hne := hm'
            rw [Re.matchAt_true] at hne
            have hne := List.find?_some hne
            obtain ⟨w', hw'⟩ := Re.res_reach (Re.matchAt_mem hm')
            have hrest' := hw'.rest
            simp only at hrest'
            have hwn' : w' ≠ [] := by
              rintro rfl
              rw [List.nil_append] at hrest'
              rw [← hrest'] at hne
              simp at hne
            have hlen : w'.length ≠ 0 := by simp [hwn']
            have hlen2 := congrArg List.length hrest'
            simp only [List.length_append] at hlen2
            have e1 : consumed (c :: cs) y.rest = w' := by rw [hrest', consumed_append]
            have e2 : consumed (c :: (cs ++ '\n' :: '\n' :: b)) (shift ('\n' :: '\n' :: b) y).rest = w' := by
              have : c :: (cs ++ '\n' :: '\n' :: b) = w' ++ (y.rest ++ '\n' :: '\n' :: b) := by
                rw [← List.cons_append, hrest']; simp
              rw [this]
              exact consumed_append _ _
            simp only [Option.map_some, e1, e2]
            rw [bind_assoc]
            refine bind_congr_right fun st'' => ?_
            rw [hrest'] at hp
            exact ih y.rest w'.getLast? st'' (by omega) (hp.next hwn')
        · have hlen : w.length ≠ 0 := by simp [hwn]
          have hlen2 := congrArg List.length hrest
          simp only [List.length_append] at hlen2
          rw [hrest] at hm h1 hp ⊢
          rw [runR_take hwn hm]
          rw [List.append_assoc] at h1 ⊢
          rw [runR_take hwn (p := q) (caps := caps) h1]
          rw [bind_assoc]
          refine bind_congr_right fun st' => ?_
          exact ih r w.getLast? st' (by omega) (hp.next hwn)

end Verif.Creole
