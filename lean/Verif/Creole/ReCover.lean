import Verif.Py.ReHead
import Verif.Creole.ParserLemmas
import Verif.Spec.Kept

/-!
# Which characters are captured by groups
-/

namespace Verif

open Py Spec.Kp Creole

variable {γ : Type} [DecidableEq γ]

/-- the characters of the set are blanks or markup -/
def CSet.dry : CSet → Bool
  | .chr c => !keeps c
  | .space => true
  | .union a b => a.dry && b.dry
  | _ => false

theorem CSet.dry_mem {cs : CSet} (h : cs.dry = true) {c : Char} (hc : cs.mem c = true) : keeps c = false := by
  induction cs with
  | chr d =>
    simp only [CSet.mem, beq_iff_eq] at hc
    subst hc
    simpa [CSet.dry] using h
  | space =>
    simp only [CSet.mem] at hc
    simp [keeps, hc]
  | union a b iha ihb =>
    simp only [CSet.dry, Bool.and_eq_true] at h
    simp only [CSet.mem, Bool.or_eq_true] at hc
    rcases hc with hc | hc
    · exact iha h.1 hc
    · exact ihb h.2 hc
  | _ => simp [CSet.dry] at h

/-- Outside of the groups `gs` only blanks and markup are matched; the groups `gs` are not nested and not repeated. -/
def Re.covers (gs : List γ) : Re γ → Bool
  | .eps | .bol _ | .eol _ | .behind _ _ | .notAhead _ => true
  | .cls cs => cs.dry
  | .seq a b | .alt a b => a.covers gs && b.covers gs
  | .star _ a => a.covers gs && a.names.all fun g => !gs.contains g
  | .grp g a => if gs.contains g then a.names.all fun g => !gs.contains g else a.covers gs
  | .bref _ => false

/-- the possible sequences of captures of the groups `gs`, the latest one first -/
def Re.seqs (gs : List γ) : Re γ → List (List γ)
  | .seq a b => (a.seqs gs).flatMap fun x => (b.seqs gs).map fun y => y ++ x
  | .alt a b => a.seqs gs ++ b.seqs gs
  | .grp g a => if gs.contains g then [[g]] else a.seqs gs
  | _ => [[]]

/-- the captures of `gs` -/
def pick (gs : List γ) (caps : List (γ × Str)) : List (γ × Str) := caps.filter fun x => gs.contains x.1

/-- the letters of the captures, the latest one last -/
def capLetters : List (γ × Str) → Str
  | [] => []
  | x :: l => capLetters l ++ letters x.2

omit [DecidableEq γ] in
theorem capLetters_append (a b : List (γ × Str)) : capLetters (a ++ b) = capLetters b ++ capLetters a := by
  induction a with
  | nil => simp [capLetters]
  | cons x a ih => rw [List.cons_append, capLetters, capLetters, ih, List.append_assoc]

theorem letters_append (a b : Str) : letters (a ++ b) = letters a ++ letters b := List.filter_append ..

theorem Re.res_new {r : Re γ} {s s' : St γ} (h : s' ∈ r.res s) : ∃ new, s'.caps = new ++ s.caps ∧ ∀ x ∈ new, x.1 ∈ r.names := by
  induction r generalizing s s' with
  | eps => rw [mem_res_eps] at h; subst h; exact ⟨[], rfl, by simp⟩
  | cls cs => rw [mem_res_cls] at h; obtain ⟨c, r, h1, _, rfl⟩ := h; exact ⟨[], rfl, by simp⟩
  | seq a b iha ihb =>
    rw [mem_res_seq] at h
    obtain ⟨t, h1, h2⟩ := h
    obtain ⟨n1, e1, m1⟩ := iha h1
    obtain ⟨n2, e2, m2⟩ := ihb h2
    refine ⟨n2 ++ n1, by rw [e2, e1, List.append_assoc], ?_⟩
    intro x hx
    rw [Re.names, List.mem_append]
    rcases List.mem_append.mp hx with hx | hx
    · exact .inr (m2 x hx)
    · exact .inl (m1 x hx)
  | alt a b iha ihb =>
    rw [mem_res_alt] at h
    rcases h with h | h
    · obtain ⟨n, e, m⟩ := iha h
      exact ⟨n, e, fun x hx => by rw [Re.names, List.mem_append]; exact .inl (m x hx)⟩
    · obtain ⟨n, e, m⟩ := ihb h
      exact ⟨n, e, fun x hx => by rw [Re.names, List.mem_append]; exact .inr (m x hx)⟩
  | star g a iha =>
    exact mem_starR_induct (P := fun s => ∃ new, s'.caps = new ++ s.caps ∧ ∀ x ∈ new, x.1 ∈ (Re.star g a).names)
      ⟨[], rfl, by simp⟩
      (fun s t ht hp => by
        obtain ⟨n1, e1, m1⟩ := iha ht
        obtain ⟨n2, e2, m2⟩ := hp
        refine ⟨n2 ++ n1, by rw [e2, e1, List.append_assoc], ?_⟩
        intro x hx
        rcases List.mem_append.mp hx with hx | hx
        · exact m2 x hx
        · rw [Re.names]; exact m1 x hx) h
  | grp g a iha =>
    rw [mem_res_grp] at h
    obtain ⟨t, ht, rfl⟩ := h
    obtain ⟨n, e, m⟩ := iha ht
    refine ⟨(g, consumed s.rest t.rest) :: n, by simp [e], ?_⟩
    intro x hx
    rw [Re.names]
    rcases List.mem_cons.mp hx with rfl | hx
    · simp
    · exact List.mem_cons_of_mem _ (m x hx)
  | bref g => rw [mem_res_bref] at h; obtain ⟨w, p, r, _, h2, rfl⟩ := h; exact ⟨[], rfl, by simp⟩
  | bol mu => rw [mem_res_bol] at h; obtain ⟨_, rfl⟩ := h; exact ⟨[], rfl, by simp⟩
  | eol mu => rw [mem_res_eol] at h; obtain ⟨_, rfl⟩ := h; exact ⟨[], rfl, by simp⟩
  | behind neg cs => rw [mem_res_behind] at h; obtain ⟨_, rfl⟩ := h; exact ⟨[], rfl, by simp⟩
  | notAhead a _ => rw [mem_res_notAhead] at h; obtain ⟨_, rfl⟩ := h; exact ⟨[], rfl, by simp⟩

theorem pick_none {gs : List γ} {new : List (γ × Str)} {ns : List γ} (hm : ∀ x ∈ new, x.1 ∈ ns)
    (h : (ns.all fun g => !gs.contains g) = true) : pick gs new = [] := by
  rw [pick, List.filter_eq_nil_iff]
  intro x hx
  have := (List.all_eq_true.mp h) _ (hm x hx)
  simpa using this

/-- what the groups `gs` capture of the text matched by an expression that is covered by them -/
theorem Re.res_covers {gs : List γ} {r : Re γ} (hc : r.covers gs = true) {s s' : St γ} {w : Str} (h : s' ∈ r.res s)
    (hw : Reach s s' w) : ∃ new, s'.caps = new ++ s.caps ∧ letters w = capLetters (pick gs new) ∧
      (pick gs new).map (·.1) ∈ r.seqs gs := by
  have nothing : ∀ {s : St γ} {w : Str}, Reach s s w → w = [] := by
    intro s w h
    have := h.rest
    have := congrArg List.length this
    simp at this
    exact this
  induction r generalizing s s' w with
  | eps =>
    rw [mem_res_eps] at h; subst h
    rw [nothing hw]
    exact ⟨[], rfl, rfl, by simp [Re.seqs, pick]⟩
  | cls cs =>
    rw [mem_res_cls] at h
    obtain ⟨c, r, h1, h2, rfl⟩ := h
    have h3 := hw.rest
    rw [h1] at h3
    have : w = [c] := List.append_cancel_right (as := w) (bs := r) (cs := [c]) h3.symm
    subst this
    refine ⟨[], rfl, ?_, by simp [Re.seqs, pick]⟩
    simp [letters, CSet.dry_mem hc h2, pick, capLetters]
  | seq a b iha ihb =>
    rw [mem_res_seq] at h
    obtain ⟨t, h1, h2⟩ := h
    rw [Re.covers, Bool.and_eq_true] at hc
    obtain ⟨w1, r1⟩ := Re.res_reach h1
    obtain ⟨w2, r2⟩ := Re.res_reach h2
    have hww : w = w1 ++ w2 := by
      have e1 := hw.rest
      rw [r1.rest, r2.rest, ← List.append_assoc] at e1
      exact (List.append_cancel_right e1).symm
    obtain ⟨n1, e1, l1, m1⟩ := iha hc.1 h1 r1
    obtain ⟨n2, e2, l2, m2⟩ := ihb hc.2 h2 r2
    refine ⟨n2 ++ n1, by rw [e2, e1, List.append_assoc], ?_, ?_⟩
    · rw [hww, letters_append, l1, l2, pick, pick, pick, List.filter_append, capLetters_append]
    · rw [pick, List.filter_append, List.map_append, Re.seqs, List.mem_flatMap]
      exact ⟨_, m1, List.mem_map.mpr ⟨_, m2, rfl⟩⟩
  | alt a b iha ihb =>
    rw [mem_res_alt] at h
    rw [Re.covers, Bool.and_eq_true] at hc
    rcases h with h | h
    · obtain ⟨n, e, l, m⟩ := iha hc.1 h hw
      exact ⟨n, e, l, by rw [Re.seqs, List.mem_append]; exact .inl m⟩
    · obtain ⟨n, e, l, m⟩ := ihb hc.2 h hw
      exact ⟨n, e, l, by rw [Re.seqs, List.mem_append]; exact .inr m⟩
  | star g a iha =>
    rw [Re.covers, Bool.and_eq_true] at hc
    have key : ∃ w, s.rest = w ++ s'.rest ∧ letters w = [] := by
      refine mem_starR_induct (P := fun s => ∃ w, s.rest = w ++ s'.rest ∧ letters w = []) ⟨[], rfl, rfl⟩ ?_ h
      intro s t ht ⟨w2, h2, l2⟩
      obtain ⟨w1, r1⟩ := Re.res_reach ht
      obtain ⟨n1, e1, l1, m1⟩ := iha hc.1 ht r1
      obtain ⟨n1', e1', m1'⟩ := Re.res_new ht
      have hn : n1' = n1 := List.append_cancel_right (e1'.symm.trans e1)
      subst hn
      rw [pick_none m1' hc.2] at l1
      exact ⟨w1 ++ w2, by rw [r1.rest, h2, List.append_assoc], by rw [letters_append, l1, l2]; rfl⟩
    obtain ⟨w', hw1, hw2⟩ := key
    have hww : w = w' := List.append_cancel_right (hw.rest.symm.trans hw1)
    obtain ⟨n, e, m⟩ := Re.res_new h
    refine ⟨n, e, ?_, ?_⟩
    · rw [hww, hw2, pick_none m (by rw [Re.names]; exact hc.2)]; rfl
    · rw [pick_none m (by rw [Re.names]; exact hc.2)]; simp [Re.seqs]
  | grp g a iha =>
    rw [mem_res_grp] at h
    obtain ⟨t, ht, rfl⟩ := h
    have hw' : Reach s t w := ⟨hw.rest, hw.prev, by
      obtain ⟨w1, r1⟩ := Re.res_reach ht
      exact r1.caps⟩
    rw [Re.covers] at hc
    by_cases hg : gs.contains g = true
    · rw [if_pos hg] at hc
      obtain ⟨n, e, m⟩ := Re.res_new ht
      have hp : pick gs ((g, consumed s.rest t.rest) :: n) = [(g, w)] := by
        have := pick_none m hc
        rw [pick] at this
        rw [pick, List.filter_cons, if_pos hg, this, hw'.consumed_eq]
      refine ⟨(g, consumed s.rest t.rest) :: n, by simp [e], ?_, ?_⟩
      · rw [hp]; rfl
      · rw [hp, Re.seqs, if_pos hg]; simp
    · rw [if_neg hg] at hc
      obtain ⟨n, e, l, m⟩ := iha hc ht hw'
      have hp : pick gs ((g, consumed s.rest t.rest) :: n) = pick gs n := by
        rw [pick, List.filter_cons, if_neg hg, pick]
      refine ⟨(g, consumed s.rest t.rest) :: n, by simp [e], ?_, ?_⟩
      · rw [hp]; exact l
      · rw [hp, Re.seqs, if_neg hg]; exact m
  | bref g => simp [Re.covers] at hc
  | bol mu =>
    rw [mem_res_bol] at h; obtain ⟨_, rfl⟩ := h
    rw [nothing hw]
    exact ⟨[], rfl, rfl, by simp [Re.seqs, pick]⟩
  | eol mu =>
    rw [mem_res_eol] at h; obtain ⟨_, rfl⟩ := h
    rw [nothing hw]
    exact ⟨[], rfl, rfl, by simp [Re.seqs, pick]⟩
  | behind neg cs =>
    rw [mem_res_behind] at h; obtain ⟨_, rfl⟩ := h
    rw [nothing hw]
    exact ⟨[], rfl, rfl, by simp [Re.seqs, pick]⟩
  | notAhead a _ =>
    rw [mem_res_notAhead] at h; obtain ⟨_, rfl⟩ := h
    rw [nothing hw]
    exact ⟨[], rfl, rfl, by simp [Re.seqs, pick]⟩

/-! ## Nothing is skipped -/

/-- an expression that matches at every letter skips no letter -/
theorem Re.scanAux_noSkip {r : Re γ}
    (hk : ∀ p c cs, keeps c = true → ∃ s' ∈ r.res ⟨p, c :: cs, []⟩, s'.rest.length ≠ (c :: cs).length) :
    ∀ (s : Str) (p : Option Char) (k : Nat) (c : Char), Seg.skip c ∈ r.scanAux p s k → keeps c = false := by
  intro s
  induction s with
  | nil =>
    intro p k c h
    simp only [Re.scanAux] at h
    split at h <;> simp at h
  | cons d cs ih =>
    intro p k c h
    cases k with
    | succ k => simp only [Re.scanAux] at h; exact ih _ _ _ h
    | zero =>
      have main : ∀ e, (e = false ∨ e = true) → r.matchAt e p (d :: cs) = none → keeps d = false := by
        intro e _ he
        cases hd : keeps d with
        | false => rfl
        | true =>
          obtain ⟨s', h1, h2⟩ := hk p d cs hd
          unfold Re.matchAt at he
          rw [Re.m_eq, List.findSome?_eq_none_iff] at he
          have := he s' h1
          simp at h2
          simp [h2] at this
      simp only [Re.scanAux] at h
      split at h
      · rename_i hm
        rcases List.mem_cons.mp h with h | h
        · cases h; exact main false (.inl rfl) hm
        · exact ih _ _ _ h
      · split at h
        · rcases List.mem_cons.mp h with h | h
          · cases h
          · split at h
            · rename_i hm
              rcases List.mem_cons.mp h with h | h
              · cases h; exact main true (.inr rfl) hm
              · exact ih _ _ _ h
            · rcases List.mem_cons.mp h with h | h
              · cases h
              · exact ih _ _ _ h
        · rcases List.mem_cons.mp h with h | h
          · cases h
          · exact ih _ _ _ h

/-- the same with a property of positions that a scan keeps -/
theorem Re.scanAux_noSkip_inv {r : Re γ} (hn : r.nullable = false) {Inv : Option Char → Str → Prop}
    (hskip : ∀ p c cs, Inv p (c :: cs) → r.matchAt false p (c :: cs) = none → keeps c = false ∧ Inv (some c) cs)
    (hhit : ∀ p s w s', Inv p s → w ≠ [] → s = w ++ s'.rest → r.matchAt false p s = some s' → Inv w.getLast? s'.rest) :
    ∀ (n : Nat) (s : Str), s.length = n → ∀ (p : Option Char), Inv p s → ∀ c, Seg.skip c ∈ r.scanAux p s 0 → keeps c = false := by
  intro n
  induction n using Nat.strongRecOn with
  | _ n ih =>
    intro s hs p hi c h
    cases s with
    | nil => rw [Re.scanAux_nil hn] at h; simp at h
    | cons d cs =>
      cases hm : r.matchAt false p (d :: cs) with
      | none =>
        rw [Re.scanAux_skip hm] at h
        obtain ⟨h1, h2⟩ := hskip p d cs hi hm
        rcases List.mem_cons.mp h with h | h
        · cases h; exact h1
        · exact ih cs.length (by simp at hs; omega) cs rfl _ h2 c h
      | some s' =>
        have hmem := Re.matchAt_mem hm
        obtain ⟨w, hw⟩ := Re.res_reach hmem
        have hlt := Re.res_lt hn hmem
        have hw0 : w ≠ [] := by
          intro h0
          have := hw.rest
          rw [h0] at this
          simp only [List.nil_append] at this
          rw [← this] at hlt
          simp at hlt
        have hrest : d :: cs = w ++ s'.rest := hw.rest
        rw [hrest] at hm h hi
        rw [Re.scanAux_take hw0 hm] at h
        rcases List.mem_cons.mp h with h | h
        · cases h
        · have := hhit p _ w s' hi hw0 rfl hm
          refine ih s'.rest.length ?_ s'.rest rfl _ this c h
          rw [← hs]
          simpa using hlt

/-- the letters of a text are those of the matches in it -/
theorem Re.scan_letters {r : Re γ} {s : Str} (h : ∀ c, Seg.skip c ∈ r.scan s → keeps c = false) :
    letters s = (r.findAll s).flatMap fun m => letters m.text := by
  conv => lhs; rw [← Re.scan_text r s]
  rw [Re.findAll]
  generalize r.scan s = l at h
  induction l with
  | nil => rfl
  | cons x l ih =>
    have ih := ih fun c hc => h c (List.mem_cons_of_mem _ hc)
    rw [List.flatMap_cons, letters_append, ih]
    cases x with
    | skip c =>
      have := h c List.mem_cons_self
      rw [List.filterMap_cons]
      simp [Seg.text, letters, this]
    | hit m =>
      rw [List.filterMap_cons]
      simp [Seg.text]

end Verif
