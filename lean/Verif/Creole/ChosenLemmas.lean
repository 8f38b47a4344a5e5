import Verif.Spec.Chosen
import Verif.Creole.KeptBlock
import Verif.Creole.ShapeBlock

/-!
# Parsing with chosen block rules
-/

namespace Verif.Creole

open Verif Py Re Spec.Kp Spec.Ch

/-- all rules -/
def BRule.all : List BRule :=
  [.macro_block, .line, .head, .separator, .pre_block, .list, .table, .text true, .text false]

theorem BRule.mem_all (r : BRule) : r ∈ BRule.all := by
  cases r with
  | text b => cases b <;> decide
  | _ => decide

theorem BRule.mem_blockRules (r : BRule) : ∃ blog, r.re ∈ blockRules blog := by
  cases r with
  | text b => exact ⟨b, by simp [BRule.re, blockRules]⟩
  | _ => exact ⟨true, by simp [BRule.re, blockRules]⟩

theorem BRule.apart (r x : BRule) (h : r.name ≠ x.name) : ∀ g ∈ groupOrder x.re, g ∉ r.re.names := by
  have key : ∀ r ∈ BRule.all, ∀ x ∈ BRule.all, r.name ≠ x.name → ∀ g ∈ groupOrder x.re, g ∉ r.re.names := by decide +kernel
  exact key r r.mem_all x x.mem_all h

theorem BRule.name_mem (r : BRule) : r.name ∈ groupOrder r.re := by
  have key : ∀ r ∈ BRule.all, r.name ∈ groupOrder r.re := by decide +kernel
  exact key r r.mem_all

theorem BRule.order_nodup (r : BRule) : (groupOrder r.re).Nodup := by
  have key : ∀ r ∈ BRule.all, (groupOrder r.re).Nodup := by decide +kernel
  exact key r r.mem_all

theorem BRule.order_names (r : BRule) : ∀ g ∈ groupOrder r.re, g ∈ r.re.names := by
  have key : ∀ r ∈ BRule.all, ∀ g ∈ groupOrder r.re, g ∈ r.re.names := by decide +kernel
  exact key r r.mem_all

/-- no group is defined twice iff no rule is given twice -/
theorem groups_nodup (rules : List BRule) : (rules.flatMap fun r => groupOrder r.re).Nodup ↔ (rules.map BRule.name).Nodup := by
  induction rules with
  | nil => simp
  | cons a l ih =>
    rw [List.flatMap_cons, List.nodup_append, List.map_cons, List.nodup_cons, ih]
    constructor
    · rintro ⟨_, h1, h2⟩
      refine ⟨?_, h1⟩
      intro h
      obtain ⟨b, hb, e⟩ := List.mem_map.mp h
      exact h2 a.name a.name_mem a.name (List.mem_flatMap.mpr ⟨b, hb, e ▸ b.name_mem⟩) rfl
    · rintro ⟨h1, h2⟩
      refine ⟨a.order_nodup, h2, ?_⟩
      rintro g hg g' hg' rfl
      obtain ⟨b, hb, hgb⟩ := List.mem_flatMap.mp hg'
      have hne : a.name ≠ b.name := fun e => h1 (List.mem_map.mpr ⟨b, hb, e.symm⟩)
      exact BRule.apart a b hne g hgb (a.order_names g hg)

theorem nodup_name {rules : List BRule} (hn : (rules.map BRule.name).Nodup) {a b : BRule} (ha : a ∈ rules) (hb : b ∈ rules)
    (h : a.name = b.name) : a = b := by
  induction rules with
  | nil => cases ha
  | cons c l ih =>
    rw [List.map_cons, List.nodup_cons] at hn
    rcases List.mem_cons.mp ha with ea | ha' <;> rcases List.mem_cons.mp hb with eb | hb'
    · rw [ea, eb]
    · exact absurd (List.mem_map.mpr ⟨b, hb', by rw [← h, ea]⟩) hn.1
    · exact absurd (List.mem_map.mpr ⟨a, ha', by rw [h, eb]⟩) hn.1
    · exact ih hn.2 ha' hb'

/-- a match of the chosen rules is a match of one of them, which selects the method -/
theorem chosen_hit {rules : List BRule} (hn : (rules.map BRule.name).Nodup) (hne : rules ≠ []) {raw : Str} {m : Match G}
    (hm : m ∈ (chosenRe rules).findAll raw) : ∃ r ∈ rules, ∃ s' pre rest, RuleHit r.re raw m s' pre rest ∧
      dispatch (groupOrder (chosenRe rules)) m = dispatch (groupOrder r.re) m := by
  obtain ⟨rule, hr0, s', pre, rest, hh⟩ := findAll_alts (by simpa using hne) hm
  obtain ⟨r, hr, rfl⟩ := List.mem_map.mp hr0
  refine ⟨r, hr, s', pre, rest, hh, ?_⟩
  refine hh.dispatch_alts (List.mem_map.mpr ⟨r, hr, rfl⟩) ?_
  intro x hx
  obtain ⟨y, hy, rfl⟩ := List.mem_map.mp hx
  by_cases h : r.name = y.name
  · exact .inl (by rw [nodup_name hn hr hy h])
  · exact .inr (BRule.apart r y h)

/-- without rules nothing is parsed -/
theorem subAll_chosen_nil (h : G → Match G → PS → PM) (raw : Str) (st : PS) : subAll (chosenRe []) h raw st = .ok st := by
  unfold subAll
  generalize (chosenRe []).findAll raw = l
  induction l with
  | nil => rfl
  | cons m l ih => rw [List.foldlM_cons]; exact ih

/-! ## What holds for all rules -/

theorem parseRules_ok {p : Info → Prop} {rules : List BRule} (hn : (rules.map BRule.name).Nodup) {raw : Str}
    (hp : Allows p (Called · (normNewlines raw))) :
    ∃ d, parseRules rules raw = .ok d ∧ d.root.All p ∧ ∀ n ∈ d.used, Called n (normNewlines raw) := by
  have h0 : PS.init.All p := ⟨⟨hp.plain _ (by simp), by simp [PS.init]⟩, by simp [PS.init]⟩
  have : BOk p (normNewlines raw) PS.init (subAll (chosenRe rules) blockRepl (normNewlines raw) PS.init) := by
    by_cases hne : rules = []
    · subst hne
      exact ⟨_, subAll_chosen_nil _ _ _, rfl, h0, fun _ h => .inl h⟩
    · refine subAll_bstep hp rfl h0 ?_
      intro m hm st ht ha
      obtain ⟨r, hr, s', pre, rest, hh, e⟩ := chosen_hit hn hne hm
      obtain ⟨blog, hb⟩ := r.mem_blockRules
      rw [e]
      exact blockRepl_rule hp ht ha (SubOf.refl _) hb hh
  obtain ⟨st, h1, h2⟩ := this
  refine ⟨st.finish, by unfold parseRules; rw [h1]; rfl, (climb_all h2.all.cur h2.all.up).1.close, ?_⟩
  intro n hn
  rcases h2.used n hn with h | h
  · simp [PS.init] at h
  · exact h

theorem parseRules_sound {q : Src} {rules : List BRule} (hn : (rules.map BRule.name).Nodup) {raw : Str} {d : Doc}
    (hq : q.Has (normNewlines raw)) (hs : q.chars ' ') (h : parseRules rules raw = .ok d) :
    d.root.Sound q ∧ d.root.info.kind = .document := by
  unfold parseRules at h
  cases hb : subAll (chosenRe rules) blockRepl (normNewlines raw) PS.init with
  | error e => rw [hb] at h; cases h
  | ok st =>
    rw [hb] at h
    cases h
    have h0 : Rests q PS.init := ⟨⟨.root ⟨trivial, by simp [PS.init], by simp [PS.init]⟩ rfl, textOK_of_false rfl⟩, rfl, by decide⟩
    have h1 : Rests q st := by
      by_cases hne : rules = []
      · subst hne
        rw [subAll_chosen_nil] at hb
        cases hb
        exact h0
      · refine subAll_rests h0 hb fun m hm => ?_
        obtain ⟨r, hr, s', pre, rest, hh, e⟩ := chosen_hit hn hne hm
        obtain ⟨blog, hb⟩ := r.mem_blockRules
        rw [e]
        exact blockRepl_rests_rule hq hs hb hh
    obtain ⟨c1, c2⟩ := h1.sane.path.climb (stop := fun _ => false)
    refine ⟨c1.sound.close, ?_⟩
    rcases c2 with h | h
    · cases h
    · exact h

theorem parseRules_letters {rules : List BRule} (hn : (rules.map BRule.name).Nodup) {blog : Bool} (ht : .text blog ∈ rules) {raw : Str}
    (hno : ¬ c!"<<" <:+: normNewlines raw) {d : Doc} (h : parseRules rules raw = .ok d) :
    Kin (letters (normNewlines raw)) d.root.shown := by
  have hne : rules ≠ [] := by rintro rfl; cases ht
  unfold parseRules at h
  cases hb : subAll (chosenRe rules) blockRepl (normNewlines raw) PS.init with
  | error e => rw [hb] at h; cases h
  | ok st =>
    rw [hb] at h
    cases h
    have h0 : Calm PS.init := ⟨⟨rfl, by simp [PS.init], by intro h; cases h⟩, rfl⟩
    have h1 : Adds0 (letters (normNewlines raw)) PS.init st := by
      refine subAll_adds0 h0 (noSkip_rules (blog := blog) (List.mem_map.mpr ⟨_, ht, rfl⟩)) hb fun m hm => ?_
      obtain ⟨r, hr, s', pre, rest, hh, e⟩ := chosen_hit hn hne hm
      obtain ⟨blog, hb⟩ := r.mem_blockRules
      change ∃ g, dispatch (groupOrder (chosenRe rules)) m = some g ∧ _
      rw [e]
      exact blockRepl_adds_rule hno hb hh
    exact finish_letters h1

end Verif.Creole
