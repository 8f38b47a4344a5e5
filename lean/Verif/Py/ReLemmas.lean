import Verif.Py.Re

/-!
# Lemmas about the regular expression matcher
-/

set_option linter.unusedSectionVars false

namespace Verif

open Py

variable {γ : Type} [DecidableEq γ]

/-! ## Inversion -/

theorem mem_res_eps {s s' : St γ} : s' ∈ (Re.eps : Re γ).res s ↔ s' = s := by simp [Re.res]

theorem mem_res_cls {cs : CSet} {s s' : St γ} :
    s' ∈ (Re.cls cs : Re γ).res s ↔
      ∃ c r, s.rest = c :: r ∧ cs.mem c = true ∧ s' = { s with prev := some c, rest := r } := by
  simp only [Re.res]
  split
  · rename_i h; simp [h]
  · rename_i c r h
    split
    · rename_i hm
      constructor
      · intro hh; simp at hh; exact ⟨c, r, h, hm, hh⟩
      · rintro ⟨c', r', h1, _, h3⟩
        rw [h] at h1; simp at h1; obtain ⟨rfl, rfl⟩ := h1; simp [h3]
    · rename_i hm
      constructor
      · intro hh; simp at hh
      · rintro ⟨c', r', h1, h2, _⟩
        rw [h] at h1; simp at h1; obtain ⟨rfl, rfl⟩ := h1; exact absurd h2 hm

theorem mem_res_seq {a b : Re γ} {s s' : St γ} :
    s' ∈ (Re.seq a b).res s ↔ ∃ t, t ∈ a.res s ∧ s' ∈ b.res t := by
  simp [Re.res, List.mem_flatMap]

theorem mem_res_alt {a b : Re γ} {s s' : St γ} :
    s' ∈ (Re.alt a b).res s ↔ s' ∈ a.res s ∨ s' ∈ b.res s := by simp [Re.res]

theorem mem_res_grp {g : γ} {a : Re γ} {s s' : St γ} :
    s' ∈ (Re.grp g a).res s ↔
      ∃ t, t ∈ a.res s ∧ s' = { t with caps := (g, consumed s.rest t.rest) :: t.caps } := by
  simp only [Re.res, List.mem_map]
  constructor
  · rintro ⟨t, ht, rfl⟩; exact ⟨t, ht, rfl⟩
  · rintro ⟨t, ht, rfl⟩; exact ⟨t, ht, rfl⟩

theorem mem_res_bol {mu : Bool} {s s' : St γ} :
    s' ∈ (Re.bol mu : Re γ).res s ↔ atBol mu s.prev = true ∧ s' = s := by
  simp only [Re.res]; split <;> simp_all

theorem mem_res_eol {mu : Bool} {s s' : St γ} :
    s' ∈ (Re.eol mu : Re γ).res s ↔ atEol mu s.rest = true ∧ s' = s := by
  simp only [Re.res]; split <;> simp_all

theorem mem_res_behind {neg : Bool} {cs : CSet} {s s' : St γ} :
    s' ∈ (Re.behind neg cs : Re γ).res s ↔
      ((s.prev = none ∧ neg = true) ∨ ∃ c, s.prev = some c ∧ (cs.mem c != neg) = true) ∧ s' = s := by
  simp only [Re.res]
  split
  · rename_i h; cases neg <;> simp [h]
  · rename_i c h
    split
    · rename_i hm
      constructor
      · intro hh; simp at hh; exact ⟨.inr ⟨c, h, hm⟩, hh⟩
      · rintro ⟨_, h3⟩; simp [h3]
    · rename_i hm
      constructor
      · intro hh; simp at hh
      · rintro ⟨h1 | ⟨c', h1, h2⟩, _⟩
        · rw [h] at h1; simp at h1
        · rw [h] at h1; simp at h1; subst h1; exact absurd h2 hm

theorem mem_res_notAhead {a : Re γ} {s s' : St γ} :
    s' ∈ (Re.notAhead a).res s ↔ a.res s = [] ∧ s' = s := by
  simp only [Re.res]
  cases h : a.res s <;> simp

theorem eatStr_some {w : Str} {p : Option Char} {r : Str} {p' : Option Char} {r' : Str}
    (h : eatStr w p r = some (p', r')) : r = w ++ r' := by
  induction w generalizing p r with
  | nil => simp [eatStr] at h; simp [h.2]
  | cons a w ih =>
    cases r with
    | nil => simp [eatStr] at h
    | cons c r =>
      simp only [eatStr] at h
      split at h
      · rename_i hc; simp at hc; subst hc; simp [ih h]
      · simp at h

theorem mem_res_bref {g : γ} {s s' : St γ} :
    s' ∈ (Re.bref g : Re γ).res s ↔
      ∃ w p r, capGet g s.caps = some w ∧ eatStr w s.prev s.rest = some (p, r) ∧
        s' = { s with prev := p, rest := r } := by
  simp only [Re.res]
  split
  · rename_i h; simp [h]
  · rename_i w h
    split
    · rename_i h2; simp [h, h2]
    · rename_i p r h2
      constructor
      · intro hh; simp at hh; exact ⟨w, p, r, h, h2, hh⟩
      · rintro ⟨w', p', r', h1, h3, h4⟩
        rw [h] at h1; simp at h1; subst h1
        rw [h2] at h3; simp at h3; obtain ⟨rfl, rfl⟩ := h3; simp [h4]

omit [DecidableEq γ] in
theorem mem_starR_zero {g : Bool} {f : St γ → List (St γ)} {s s' : St γ} :
    s' ∈ starR g f 0 s ↔ s' = s := by simp [starR]

omit [DecidableEq γ] in
theorem mem_starR_succ {g : Bool} {f : St γ → List (St γ)} {n : Nat} {s s' : St γ} :
    s' ∈ starR g f (n + 1) s ↔ s' = s ∨ ∃ t, t ∈ f s ∧ s' ∈ starR g f n t := by
  simp only [starR]
  cases g <;> simp [List.mem_flatMap, or_comm]

/-- Induction principle for repetitions: a property that holds without iteration and is preserved by one
more iteration of the body (in front) holds of every result. -/
theorem mem_starR_induct {g : Bool} {f : St γ → List (St γ)} {s' : St γ} {P : St γ → Prop}
    (base : P s') (step : ∀ s t, t ∈ f s → P t → P s) :
    ∀ {n : Nat} {s : St γ}, s' ∈ starR g f n s → P s := by
  intro n
  induction n with
  | zero => intro s h; rw [mem_starR_zero] at h; subst h; exact base
  | succ n ih =>
    intro s h
    rw [mem_starR_succ] at h
    rcases h with rfl | ⟨t, ht, h⟩
    · exact base
    · exact step s t ht (ih h)

/-! ## Soundness: results are reached by consuming input and adding captures -/

/-- `s'` is reached from `s` by consuming the text `w`. -/
structure Reach (s s' : St γ) (w : Str) : Prop where
  rest : s.rest = w ++ s'.rest
  prev : s'.prev = (if w = [] then s.prev else w.getLast?)
  caps : ∃ new, s'.caps = new ++ s.caps

omit [DecidableEq γ] in
theorem Reach.refl (s : St γ) : Reach s s [] := ⟨rfl, rfl, [], rfl⟩

omit [DecidableEq γ] in
theorem Reach.trans {s t u : St γ} {w v : Str} (h : Reach s t w) (h' : Reach t u v) : Reach s u (w ++ v) := by
  refine ⟨by rw [h.rest, h'.rest, List.append_assoc], ?_, ?_⟩
  · rw [h'.prev, h.prev]
    by_cases hv : v = []
    · subst hv; simp
    · rw [if_neg hv, if_neg (by simp [hv])]
      rw [List.getLast?_append]
      cases hg : v.getLast? with
      | none => simp at hg; exact absurd hg hv
      | some x => rfl
  · obtain ⟨n1, h1⟩ := h.caps
    obtain ⟨n2, h2⟩ := h'.caps
    exact ⟨n2 ++ n1, by rw [h2, h1, List.append_assoc]⟩

theorem eatStr_prev {w : Str} {p : Option Char} {r : Str} {p' : Option Char} {r' : Str}
    (h : eatStr w p r = some (p', r')) : p' = if w = [] then p else w.getLast? := by
  induction w generalizing p r with
  | nil => simp [eatStr] at h; simp [h.1]
  | cons a w ih =>
    cases r with
    | nil => simp [eatStr] at h
    | cons c r =>
      simp only [eatStr] at h
      split at h
      · rename_i hc; simp at hc; subst hc
        rw [ih h]
        cases w with
        | nil => simp
        | cons b w => simp
      · simp at h

theorem Re.res_reach {r : Re γ} : ∀ {s s' : St γ}, s' ∈ r.res s → ∃ w, Reach s s' w := by
  induction r with
  | eps => intro s s' h; rw [mem_res_eps] at h; subst h; exact ⟨[], Reach.refl s'⟩
  | cls cs =>
    intro s s' h
    rw [mem_res_cls] at h
    obtain ⟨c, r, h1, _, rfl⟩ := h
    exact ⟨[c], by simp [h1], by simp, [], by simp⟩
  | seq a b iha ihb =>
    intro s s' h
    rw [mem_res_seq] at h
    obtain ⟨t, h1, h2⟩ := h
    obtain ⟨w, hw⟩ := iha h1
    obtain ⟨v, hv⟩ := ihb h2
    exact ⟨w ++ v, hw.trans hv⟩
  | alt a b iha ihb =>
    intro s s' h
    rw [mem_res_alt] at h
    rcases h with h | h
    · exact iha h
    · exact ihb h
  | star g a iha =>
    intro s s' h
    exact mem_starR_induct (P := fun s => ∃ w, Reach s s' w) ⟨[], Reach.refl s'⟩
      (fun s t ht ⟨w, hw⟩ => by
        obtain ⟨v, hv⟩ := iha ht
        exact ⟨v ++ w, hv.trans hw⟩) h
  | grp g a iha =>
    intro s s' h
    rw [mem_res_grp] at h
    obtain ⟨t, ht, rfl⟩ := h
    obtain ⟨w, hw⟩ := iha ht
    obtain ⟨new, hn⟩ := hw.caps
    exact ⟨w, hw.rest, hw.prev, (g, consumed s.rest t.rest) :: new, by simp [hn]⟩
  | bref g =>
    intro s s' h
    rw [mem_res_bref] at h
    obtain ⟨w, p, r, _, h2, rfl⟩ := h
    exact ⟨w, eatStr_some h2, eatStr_prev h2, [], by simp⟩
  | bol mu =>
    intro s s' h; rw [mem_res_bol] at h; obtain ⟨_, rfl⟩ := h; exact ⟨[], Reach.refl s'⟩
  | eol mu =>
    intro s s' h; rw [mem_res_eol] at h; obtain ⟨_, rfl⟩ := h; exact ⟨[], Reach.refl s'⟩
  | behind neg cs =>
    intro s s' h; rw [mem_res_behind] at h; obtain ⟨_, rfl⟩ := h; exact ⟨[], Reach.refl s'⟩
  | notAhead a _ =>
    intro s s' h; rw [mem_res_notAhead] at h; obtain ⟨_, rfl⟩ := h; exact ⟨[], Reach.refl s'⟩

omit [DecidableEq γ] in
theorem Reach.consumed_eq {s s' : St γ} {w : Str} (h : Reach s s' w) : consumed s.rest s'.rest = w := by
  unfold consumed
  rw [h.rest]; simp

/-! ## Captured groups -/

/-- groups that take part in every match -/
def Re.must : Re γ → List γ
  | .seq a b => a.must ++ b.must
  | .grp g a => g :: a.must
  | _ => []

/-- names of all groups, in the order of their opening parentheses -/
def Re.names : Re γ → List γ
  | .grp g a => g :: a.names
  | .seq a b | .alt a b => a.names ++ b.names
  | .star _ a | .notAhead a => a.names
  | _ => []

theorem capGet_isSome_iff {g : γ} {caps : List (γ × Str)} :
    (capGet g caps).isSome ↔ g ∈ caps.map (·.1) := by
  unfold capGet
  induction caps with
  | nil => simp
  | cons x l ih =>
    obtain ⟨a, b⟩ := x
    simp only [List.lookup_cons, List.map_cons, List.mem_cons]
    by_cases h : g = a
    · simp [h]
    · have : (g == a) = false := by simp [h]
      simp [this, h, ih]

theorem Re.res_caps_mono {r : Re γ} {s s' : St γ} (h : s' ∈ r.res s) {g : γ}
    (hg : g ∈ s.caps.map (·.1)) : g ∈ s'.caps.map (·.1) := by
  obtain ⟨w, hw⟩ := Re.res_reach h
  obtain ⟨new, hn⟩ := hw.caps
  rw [hn]; simp; right; simpa using hg

theorem Re.res_must {r : Re γ} : ∀ {s s' : St γ}, s' ∈ r.res s → ∀ g ∈ r.must, g ∈ s'.caps.map (·.1) := by
  induction r with
  | seq a b iha ihb =>
    intro s s' h g hg
    rw [mem_res_seq] at h
    obtain ⟨t, h1, h2⟩ := h
    simp only [Re.must, List.mem_append] at hg
    rcases hg with hg | hg
    · exact Re.res_caps_mono h2 (iha h1 g hg)
    · exact ihb h2 g hg
  | grp g' a iha =>
    intro s s' h g hg
    rw [mem_res_grp] at h
    obtain ⟨t, ht, rfl⟩ := h
    simp only [Re.must, List.mem_cons] at hg
    rcases hg with rfl | hg
    · simp
    · have := iha ht g hg
      simp only [List.map_cons, List.mem_cons]; right; exact this
  | _ => intro s s' _ g hg; simp [Re.must] at hg

theorem Re.res_names {r : Re γ} : ∀ {s s' : St γ}, s' ∈ r.res s →
    ∀ g ∈ s'.caps.map (·.1), g ∈ r.names ∨ g ∈ s.caps.map (·.1) := by
  induction r with
  | eps => intro s s' h g hg; rw [mem_res_eps] at h; subst h; exact .inr hg
  | cls cs =>
    intro s s' h g hg
    rw [mem_res_cls] at h
    obtain ⟨c, r, h1, _, rfl⟩ := h
    exact .inr hg
  | seq a b iha ihb =>
    intro s s' h g hg
    rw [mem_res_seq] at h
    obtain ⟨t, h1, h2⟩ := h
    simp only [Re.names, List.mem_append]
    rcases ihb h2 g hg with hg | hg
    · exact .inl (.inr hg)
    · rcases iha h1 g hg with hg | hg
      · exact .inl (.inl hg)
      · exact .inr hg
  | alt a b iha ihb =>
    intro s s' h g hg
    rw [mem_res_alt] at h
    simp only [Re.names, List.mem_append]
    rcases h with h | h
    · rcases iha h g hg with hg | hg
      · exact .inl (.inl hg)
      · exact .inr hg
    · rcases ihb h g hg with hg | hg
      · exact .inl (.inr hg)
      · exact .inr hg
  | star g' a iha =>
    intro s s' h
    have := mem_starR_induct
      (P := fun s => ∀ g ∈ s'.caps.map (·.1), g ∈ a.names ∨ g ∈ s.caps.map (·.1))
      (fun g hg => .inr hg)
      (fun s t ht hp g hg => by
        rcases hp g hg with h | h
        · exact .inl h
        · exact iha ht g h) h
    exact this
  | grp g' a iha =>
    intro s s' h g hg
    rw [mem_res_grp] at h
    obtain ⟨t, ht, rfl⟩ := h
    simp only [List.map_cons, List.mem_cons] at hg
    simp only [Re.names, List.mem_cons]
    rcases hg with rfl | hg
    · exact .inl (.inl rfl)
    · rcases iha ht g hg with h | h
      · exact .inl (.inr h)
      · exact .inr h
  | bref g' =>
    intro s s' h g hg
    rw [mem_res_bref] at h
    obtain ⟨w, p, r, _, h2, rfl⟩ := h
    exact .inr hg
  | bol mu => intro s s' h g hg; rw [mem_res_bol] at h; obtain ⟨_, rfl⟩ := h; exact .inr hg
  | eol mu => intro s s' h g hg; rw [mem_res_eol] at h; obtain ⟨_, rfl⟩ := h; exact .inr hg
  | behind neg cs => intro s s' h g hg; rw [mem_res_behind] at h; obtain ⟨_, rfl⟩ := h; exact .inr hg
  | notAhead a _ => intro s s' h g hg; rw [mem_res_notAhead] at h; obtain ⟨_, rfl⟩ := h; exact .inr hg

/-! ## Matching at a position and scanning -/

theorem Re.matchAt_mem {r : Re γ} {adv : Bool} {prev : Option Char} {rest : Str} {s' : St γ}
    (h : r.matchAt adv prev rest = some s') : s' ∈ r.res ⟨prev, rest, []⟩ := by
  unfold Re.matchAt at h
  rw [Re.m_eq] at h
  rw [List.findSome?_eq_some_iff] at h
  obtain ⟨l1, a, l2, h1, h2, _⟩ := h
  split at h2
  · simp at h2
  · simp at h2; subst h2; rw [h1]; simp

theorem Re.matchAt_false {r : Re γ} {prev : Option Char} {rest : Str} :
    r.matchAt false prev rest = (r.res ⟨prev, rest, []⟩).head? := by
  unfold Re.matchAt
  rw [Re.m_eq]
  cases r.res ⟨prev, rest, []⟩ <;> simp

theorem Re.matchAt_true {r : Re γ} {prev : Option Char} {rest : Str} :
    r.matchAt true prev rest =
      (r.res ⟨prev, rest, []⟩).find? fun s' => s'.rest.length != rest.length := by
  unfold Re.matchAt
  rw [Re.m_eq]
  induction r.res ⟨prev, rest, []⟩ with
  | nil => rfl
  | cons a l ih =>
    rw [List.findSome?_cons, List.find?_cons]
    by_cases h : a.rest.length = rest.length
    · simp [h]; simpa using ih
    · have : (a.rest.length != rest.length) = true := by simp [h]
      simp [this, h]

/-- Where a reported match comes from: a position of the scanned string and a result of the expression there. -/
structure HitAt (r : Re γ) (whole : Str) (m : Match γ) : Prop where
  ex : ∃ pre rest prev s', whole = pre ++ rest ∧ s' ∈ r.res ⟨prev, rest, []⟩ ∧ m.caps = s'.caps ∧
    rest = m.text ++ s'.rest ∧ prev = pre.getLast?

theorem Re.scanAux_hit {r : Re γ} {whole : Str} : ∀ {rest : Str} {pre : Str} {k : Nat}
    {prev : Option Char}, whole = pre ++ rest → prev = pre.getLast? →
    ∀ m, Seg.hit m ∈ r.scanAux prev rest k → HitAt r whole m := by
  intro rest
  induction rest with
  | nil =>
    intro pre k prev hw hp m hm
    simp only [Re.scanAux] at hm
    split at hm
    · simp at hm
    · rename_i s' hs
      simp only [List.mem_singleton, Seg.hit.injEq] at hm
      subst hm
      have hmem := Re.matchAt_mem hs
      obtain ⟨w, hr⟩ := Re.res_reach hmem
      refine ⟨pre, [], prev, s', hw, hmem, rfl, ?_, hp⟩
      have := hr.rest
      simp at this
      simp [this.2]
  | cons c cs ih =>
    intro pre k prev hw hp m hm
    have hw' : whole = (pre ++ [c]) ++ cs := by simp [hw]
    have hp' : some c = (pre ++ [c]).getLast? := by simp
    cases k with
    | succ k =>
      simp only [Re.scanAux] at hm
      exact ih hw' hp' m hm
    | zero =>
      simp only [Re.scanAux] at hm
      split at hm
      · simp only [List.mem_cons, reduceCtorEq, false_or] at hm
        exact ih hw' hp' m hm
      · rename_i s' hs
        have hmem := Re.matchAt_mem hs
        obtain ⟨w, hr⟩ := Re.res_reach hmem
        split at hm
        · rename_i hn
          simp only [List.mem_cons, Seg.hit.injEq] at hm
          rcases hm with rfl | hm
          · refine ⟨pre, c :: cs, prev, s', hw, hmem, rfl, ?_, hp⟩
            have h1 := hr.rest
            simp only at h1
            have : w = [] := by
              rw [h1] at hn
              simp at hn
              exact hn
            rw [h1, this]
          · split at hm
            · simp only [List.mem_cons, reduceCtorEq, false_or] at hm
              exact ih hw' hp' m hm
            · rename_i s'' hs'
              simp only [List.mem_cons, Seg.hit.injEq] at hm
              rcases hm with rfl | hm
              · have hmem' := Re.matchAt_mem hs'
                obtain ⟨w', hr'⟩ := Re.res_reach hmem'
                refine ⟨pre, c :: cs, prev, s'', hw, hmem', rfl, ?_, hp⟩
                have := hr'.consumed_eq
                simp only at this ⊢
                rw [this]; exact hr'.rest
              · exact ih hw' hp' m hm
        · simp only [List.mem_cons, Seg.hit.injEq] at hm
          rcases hm with rfl | hm
          · refine ⟨pre, c :: cs, prev, s', hw, hmem, rfl, ?_, hp⟩
            have := hr.consumed_eq
            simp only at this ⊢
            rw [this]; exact hr.rest
          · exact ih hw' hp' m hm

theorem Re.findAll_hit {r : Re γ} {whole : Str} {m : Match γ} (h : m ∈ r.findAll whole) :
    HitAt r whole m := by
  unfold Re.findAll at h
  rw [List.mem_filterMap] at h
  obtain ⟨seg, hs, hm⟩ := h
  cases seg with
  | skip c => simp at hm
  | hit m' =>
    simp at hm; subst hm
    exact Re.scanAux_hit (pre := []) rfl rfl m' hs

/-! ## First characters -/

/-- can the expression succeed without consuming anything? (over-approximation) -/
def Re.nullable : Re γ → Bool
  | .eps => true
  | .cls _ => false
  | .seq a b => a.nullable && b.nullable
  | .alt a b => a.nullable || b.nullable
  | .star _ _ => true
  | .grp _ a => a.nullable
  | .bref _ => true
  | .bol _ | .eol _ | .behind _ _ | .notAhead _ => true

/-- can a match that consumes something start with this character? (over-approximation) -/
def Re.starts : Re γ → Char → Bool
  | .eps, _ => false
  | .cls s, c => s.mem c
  | .seq a b, c => a.starts c || (a.nullable && b.starts c)
  | .alt a b, c => a.starts c || b.starts c
  | .star _ a, c => a.starts c
  | .grp _ a, c => a.starts c
  | .bref _, _ => true
  | .bol _, _ | .eol _, _ | .behind _ _, _ | .notAhead _, _ => false

/-- If no match can start with the next character, results consume nothing. -/
theorem Re.res_noStart {r : Re γ} : ∀ {s s' : St γ}, s' ∈ r.res s →
    (∀ c t, s.rest = c :: t → r.starts c = false) →
    s'.rest = s.rest ∧ s'.prev = s.prev ∧ r.nullable = true := by
  induction r with
  | eps => intro s s' h _; rw [mem_res_eps] at h; subst h; simp [Re.nullable]
  | cls cs =>
    intro s s' h hs
    rw [mem_res_cls] at h
    obtain ⟨c, r, h1, h2, rfl⟩ := h
    have := hs c r h1
    simp [Re.starts, h2] at this
  | seq a b iha ihb =>
    intro s s' h hs
    rw [mem_res_seq] at h
    obtain ⟨t, h1, h2⟩ := h
    obtain ⟨e1, e2, e3⟩ := iha h1 (fun c t hc => by
      have := hs c t hc; simp [Re.starts] at this; exact this.1)
    obtain ⟨f1, f2, f3⟩ := ihb h2 (fun c u hc => by
      rw [e1] at hc
      have := hs c u hc; simp [Re.starts] at this
      cases hb : b.starts c with
      | false => rfl
      | true => have := this.2 e3; rw [hb] at this; exact absurd this (by simp))
    exact ⟨by rw [f1, e1], by rw [f2, e2], by simp [Re.nullable, e3, f3]⟩
  | alt a b iha ihb =>
    intro s s' h hs
    rw [mem_res_alt] at h
    rcases h with h | h
    · obtain ⟨e1, e2, e3⟩ := iha h (fun c t hc => by
        have := hs c t hc; simp [Re.starts] at this; exact this.1)
      exact ⟨e1, e2, by simp [Re.nullable, e3]⟩
    · obtain ⟨e1, e2, e3⟩ := ihb h (fun c t hc => by
        have := hs c t hc; simp [Re.starts] at this; exact this.2)
      exact ⟨e1, e2, by simp [Re.nullable, e3]⟩
  | star g a iha =>
    intro s s' h hs
    have key := mem_starR_induct
      (P := fun s => (∀ c t, s.rest = c :: t → a.starts c = false) → s'.rest = s.rest ∧ s'.prev = s.prev)
      (fun _ => ⟨rfl, rfl⟩)
      (fun s t ht hp hst => by
        obtain ⟨e1, e2, _⟩ := iha ht hst
        have := hp (fun c u hc => hst c u (by rw [← e1]; exact hc))
        exact ⟨by rw [this.1, e1], by rw [this.2, e2]⟩) h
      (fun c t hc => hs c t hc)
    exact ⟨key.1, key.2, rfl⟩
  | grp g a iha =>
    intro s s' h hs
    rw [mem_res_grp] at h
    obtain ⟨t, ht, rfl⟩ := h
    obtain ⟨e1, e2, e3⟩ := iha ht (fun c t hc => hs c t hc)
    exact ⟨e1, e2, e3⟩
  | bref g =>
    intro s s' h hs
    rw [mem_res_bref] at h
    obtain ⟨w, p, r, _, h2, rfl⟩ := h
    cases hr : s.rest with
    | cons c t => have := hs c t hr; simp [Re.starts] at this
    | nil =>
      have := eatStr_some h2
      rw [hr] at this
      simp at this
      obtain ⟨rfl, rfl⟩ := this
      simp [eatStr] at h2
      simp [h2.1, Re.nullable]
  | bol mu => intro s s' h _; rw [mem_res_bol] at h; obtain ⟨_, rfl⟩ := h; simp [Re.nullable]
  | eol mu => intro s s' h _; rw [mem_res_eol] at h; obtain ⟨_, rfl⟩ := h; simp [Re.nullable]
  | behind neg cs => intro s s' h _; rw [mem_res_behind] at h; obtain ⟨_, rfl⟩ := h; simp [Re.nullable]
  | notAhead a _ => intro s s' h _; rw [mem_res_notAhead] at h; obtain ⟨_, rfl⟩ := h; simp [Re.nullable]

/-- An expression that must consume a character fails when the next character cannot start it. -/
theorem Re.res_nil_of_noStart {r : Re γ} (hn : r.nullable = false) {s : St γ}
    (hs : ∀ c t, s.rest = c :: t → r.starts c = false) : r.res s = [] := by
  cases h : r.res s with
  | nil => rfl
  | cons s' l =>
    have := (Re.res_noStart (r := r) (s := s) (s' := s') (by rw [h]; simp) hs).2.2
    rw [hn] at this; exact absurd this (by simp)

end Verif
