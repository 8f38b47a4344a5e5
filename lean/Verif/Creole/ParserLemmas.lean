import Verif.Creole.Parser
import Verif.Py.ReLemmas

/-!
# The creole parser never fails: invariants

Helper lemmas for the properties about `parse`.
-/

namespace Verif.Creole

open Verif

/-! ## Matches of the combined expressions -/

theorem groupOrder_eq (r : R) : groupOrder r = r.names := by
  induction r <;> simp_all [groupOrder, Re.names]

theorem mem_res_alts {γ : Type} [DecidableEq γ] {l : List (Re γ)} {s s' : St γ} (hl : l ≠ [])
    (h : s' ∈ (Re.alts l).res s) : ∃ r ∈ l, s' ∈ r.res s := by
  induction l with
  | nil => exact absurd rfl hl
  | cons a l ih =>
    cases l with
    | nil => exact ⟨a, by simp, h⟩
    | cons b l =>
      simp only [Re.alts] at h
      rw [mem_res_alt] at h
      rcases h with h | h
      · exact ⟨a, by simp, h⟩
      · obtain ⟨r, hr, h⟩ := ih (by simp) h
        exact ⟨r, by simp only [List.mem_cons] at hr ⊢; right; exact hr, h⟩

theorem find?_sub {α : Type} {l : List α} {p q : α → Bool} {g : α} (hpq : ∀ x, q x = true → p x = true)
    (h : l.find? p = some g) (hq : q g = true) : l.find? q = some g := by
  induction l with
  | nil => simp at h
  | cons a l ih =>
    rw [List.find?_cons] at h ⊢
    cases hp : p a with
    | true => rw [hp] at h; simp at h; subst h; simp [hq]
    | false =>
      rw [hp] at h
      have : q a = false := by
        cases hqa : q a with
        | false => rfl
        | true => rw [hpq a hqa] at hp; exact absurd hp (by simp)
      simp only [this]; exact ih h

/-- A rule that always captures `g`, where `g` is the first of its groups in the order of the combined
expression, is dispatched to `g`. -/
theorem dispatch_eq {r rule : R} {g : G} {m : Match G} {prev : Option Char} {rest : Str} {s' : St G}
    (hm : m.caps = s'.caps) (hs : s' ∈ rule.res ⟨prev, rest, []⟩) (hg : g ∈ rule.must)
    (hfirst : (groupOrder r).find? (fun x => rule.names.contains x) = some g) :
    dispatch (groupOrder r) m = some g := by
  refine find?_sub (p := fun x => rule.names.contains x) ?_ hfirst ?_
  · intro x hx
    simp only [Match.get, hm] at hx
    rw [capGet_isSome_iff] at hx
    have := Re.res_names hs x hx
    simpa using this
  · simp only [Match.get, hm]
    rw [capGet_isSome_iff]
    exact Re.res_must hs g hg

theorem get_of_must {rule : R} {g : G} {m : Match G} {s s' : St G}
    (hm : m.caps = s'.caps) (hs : s' ∈ rule.res s) (hg : g ∈ rule.must) : ∃ w, m.get g = some w := by
  have := Re.res_must hs g hg
  rw [← capGet_isSome_iff, ← hm] at this
  exact Option.isSome_iff_exists.mp this

theorem need_of_get {m : Match G} {g : G} {w : Str} (h : m.get g = some w) : need m g = .ok w := by
  simp [need, h]

/-- Every captured text is an infix of the text scanned. -/
theorem Re.res_cap_infix {γ : Type} [DecidableEq γ] {r : Re γ} : ∀ {s s' : St γ} {whole : Str},
    s' ∈ r.res s → s.rest <:+: whole → (∀ x ∈ s.caps, x.2 <:+: whole) → ∀ x ∈ s'.caps, x.2 <:+: whole := by
  induction r with
  | eps => intro s s' whole h _ hc; rw [mem_res_eps] at h; subst h; exact hc
  | cls cs =>
    intro s s' whole h _ hc
    rw [mem_res_cls] at h
    obtain ⟨c, r, h1, _, rfl⟩ := h
    exact hc
  | seq a b iha ihb =>
    intro s s' whole h hr hc
    rw [mem_res_seq] at h
    obtain ⟨t, h1, h2⟩ := h
    refine ihb h2 ?_ (iha h1 hr hc)
    obtain ⟨w, hw⟩ := Re.res_reach h1
    exact List.IsInfix.trans ⟨w, [], by simp [hw.rest]⟩ hr
  | alt a b iha ihb =>
    intro s s' whole h hr hc
    rw [mem_res_alt] at h
    rcases h with h | h
    · exact iha h hr hc
    · exact ihb h hr hc
  | star g a iha =>
    intro s s' whole h hr hc
    exact mem_starR_induct
      (P := fun s => s.rest <:+: whole → (∀ x ∈ s.caps, x.2 <:+: whole) → ∀ x ∈ s'.caps, x.2 <:+: whole)
      (fun _ h => h)
      (fun s t ht hp hr hc => by
        obtain ⟨w, hw⟩ := Re.res_reach ht
        exact hp (List.IsInfix.trans ⟨w, [], by simp [hw.rest]⟩ hr) (iha ht hr hc)) h hr hc
  | grp g a iha =>
    intro s s' whole h hr hc
    rw [mem_res_grp] at h
    obtain ⟨t, ht, rfl⟩ := h
    obtain ⟨w, hw⟩ := Re.res_reach ht
    intro x hx
    simp only [List.mem_cons] at hx
    rcases hx with rfl | hx
    · simp only [hw.consumed_eq]
      exact List.IsInfix.trans ⟨[], t.rest, by simp [hw.rest]⟩ hr
    · exact iha ht hr hc x hx
  | bref g =>
    intro s s' whole h hr hc
    rw [mem_res_bref] at h
    obtain ⟨w, p, r, _, h2, rfl⟩ := h
    exact hc
  | bol mu => intro s s' whole h _ hc; rw [mem_res_bol] at h; obtain ⟨_, rfl⟩ := h; exact hc
  | eol mu => intro s s' whole h _ hc; rw [mem_res_eol] at h; obtain ⟨_, rfl⟩ := h; exact hc
  | behind neg cs => intro s s' whole h _ hc; rw [mem_res_behind] at h; obtain ⟨_, rfl⟩ := h; exact hc
  | notAhead a _ => intro s s' whole h _ hc; rw [mem_res_notAhead] at h; obtain ⟨_, rfl⟩ := h; exact hc

theorem capGet_mem {γ : Type} [DecidableEq γ] {g : γ} {caps : List (γ × Str)} {w : Str}
    (h : capGet g caps = some w) : (g, w) ∈ caps := by
  unfold capGet at h
  induction caps with
  | nil => simp at h
  | cons x l ih =>
    obtain ⟨a, b⟩ := x
    simp only [List.lookup_cons] at h
    split at h
    · rename_i hb; simp at hb h; subst hb; subst h; simp
    · simp [ih h]

theorem HitAt.get_infix {r : R} {whole : Str} {m : Match G} (h : HitAt r whole m) {g : G} {w : Str}
    (hg : m.get g = some w) : w <:+: whole := by
  obtain ⟨pre, rest, prev, s', h1, h2, h3, h4, _⟩ := h.ex
  unfold Match.get at hg
  rw [h3] at hg
  exact Re.res_cap_infix h2 ⟨pre, [], by simp [h1]⟩ (by simp) _ (capGet_mem hg)

theorem HitAt.text_infix {r : R} {whole : Str} {m : Match G} (h : HitAt r whole m) : m.text <:+: whole := by
  obtain ⟨pre, rest, prev, s', h1, h2, h3, h4, _⟩ := h.ex
  exact ⟨pre, s'.rest, by rw [h1, h4]; simp⟩

theorem mem_res_lit {γ : Type} [DecidableEq γ] {w : Str} {s s' : St γ} (h : s' ∈ (Re.lit w : Re γ).res s) :
    s.rest = w ++ s'.rest ∧ s'.caps = s.caps := by
  induction w generalizing s with
  | nil => simp only [Re.lit] at h; rw [mem_res_eps] at h; subst h; simp
  | cons c w ih =>
    cases w with
    | nil =>
      simp only [Re.lit] at h
      rw [mem_res_cls] at h
      obtain ⟨d, r, h1, h2, rfl⟩ := h
      simp only [CSet.mem, beq_iff_eq] at h2
      subst h2; simp [h1]
    | cons d w =>
      simp only [Re.lit] at h
      rw [mem_res_seq] at h
      obtain ⟨t, h1, h2⟩ := h
      rw [mem_res_cls] at h1
      obtain ⟨e, r, h3, h4, rfl⟩ := h1
      simp only [CSet.mem, beq_iff_eq] at h4
      subst h4
      obtain ⟨h5, h6⟩ := ih h2
      simp only at h5 h6
      exact ⟨by rw [h3, h5]; rfl, h6⟩

/-- An expression without groups captures nothing. -/
theorem Re.res_caps_eq {γ : Type} [DecidableEq γ] {r : Re γ} : r.names = [] → ∀ {s s' : St γ},
    s' ∈ r.res s → s'.caps = s.caps := by
  induction r with
  | eps => intro _ s s' h; rw [mem_res_eps] at h; subst h; rfl
  | cls cs => intro _ s s' h; rw [mem_res_cls] at h; obtain ⟨c, r, h1, _, rfl⟩ := h; rfl
  | seq a b iha ihb =>
    intro hn s s' h
    simp only [Re.names, List.append_eq_nil_iff] at hn
    rw [mem_res_seq] at h
    obtain ⟨t, h1, h2⟩ := h
    rw [ihb hn.2 h2, iha hn.1 h1]
  | alt a b iha ihb =>
    intro hn s s' h
    simp only [Re.names, List.append_eq_nil_iff] at hn
    rw [mem_res_alt] at h
    rcases h with h | h
    · exact iha hn.1 h
    · exact ihb hn.2 h
  | star g a iha =>
    intro hn s s' h
    exact mem_starR_induct (P := fun s => s'.caps = s.caps) rfl
      (fun s t ht hp => by rw [hp, iha hn ht]) h
  | grp g a iha => intro hn; simp [Re.names] at hn
  | bref g => intro _ s s' h; rw [mem_res_bref] at h; obtain ⟨w, p, r, _, h2, rfl⟩ := h; rfl
  | bol mu => intro _ s s' h; rw [mem_res_bol] at h; obtain ⟨_, rfl⟩ := h; rfl
  | eol mu => intro _ s s' h; rw [mem_res_eol] at h; obtain ⟨_, rfl⟩ := h; rfl
  | behind neg cs => intro _ s s' h; rw [mem_res_behind] at h; obtain ⟨_, rfl⟩ := h; rfl
  | notAhead a _ => intro _ s s' h; rw [mem_res_notAhead] at h; obtain ⟨_, rfl⟩ := h; rfl

/-- An expression does not change the groups it does not contain. -/
theorem capGet_keep {γ : Type} [DecidableEq γ] {r : Re γ} {g : γ} : g ∉ r.names → ∀ {s s' : St γ},
    s' ∈ r.res s → capGet g s'.caps = capGet g s.caps := by
  induction r with
  | eps => intro _ s s' h; rw [mem_res_eps] at h; subst h; rfl
  | cls cs => intro _ s s' h; rw [mem_res_cls] at h; obtain ⟨c, r, h1, _, rfl⟩ := h; rfl
  | seq a b iha ihb =>
    intro hn s s' h
    simp only [Re.names, List.mem_append, not_or] at hn
    rw [mem_res_seq] at h
    obtain ⟨t, h1, h2⟩ := h
    rw [ihb hn.2 h2, iha hn.1 h1]
  | alt a b iha ihb =>
    intro hn s s' h
    simp only [Re.names, List.mem_append, not_or] at hn
    rw [mem_res_alt] at h
    rcases h with h | h
    · exact iha hn.1 h
    · exact ihb hn.2 h
  | star gr a iha =>
    intro hn s s' h
    exact mem_starR_induct (P := fun s => capGet g s'.caps = capGet g s.caps) rfl
      (fun s t ht hp => by rw [hp, iha hn ht]) h
  | grp k a iha =>
    intro hn s s' h
    simp only [Re.names, List.mem_cons, not_or] at hn
    rw [mem_res_grp] at h
    obtain ⟨t, ht, rfl⟩ := h
    have : (g == k) = false := by simpa using hn.1
    rw [← iha hn.2 ht]
    unfold capGet
    rw [List.lookup_cons, this]
  | bref g => intro _ s s' h; rw [mem_res_bref] at h; obtain ⟨w, p, r, _, h2, rfl⟩ := h; rfl
  | bol mu => intro _ s s' h; rw [mem_res_bol] at h; obtain ⟨_, rfl⟩ := h; rfl
  | eol mu => intro _ s s' h; rw [mem_res_eol] at h; obtain ⟨_, rfl⟩ := h; rfl
  | behind neg cs => intro _ s s' h; rw [mem_res_behind] at h; obtain ⟨_, rfl⟩ := h; rfl
  | notAhead a _ => intro _ s s' h; rw [mem_res_notAhead] at h; obtain ⟨_, rfl⟩ := h; rfl

/-- the groups of an expression with the expressions they enclose -/
def _root_.Verif.Re.bodies {γ : Type} : Re γ → List (γ × Re γ)
  | .grp g a => (g, a) :: a.bodies
  | .seq a b | .alt a b => a.bodies ++ b.bodies
  | .star _ a | .notAhead a => a.bodies
  | _ => []

/-- A captured text was consumed by the expression enclosed by the group. -/
theorem Re.res_cap_body {γ : Type} [DecidableEq γ] {r : Re γ} : ∀ {s s' : St γ}, s' ∈ r.res s →
    ∀ x ∈ s'.caps, x ∈ s.caps ∨ ∃ b s1 s2, (x.1, b) ∈ r.bodies ∧ s2 ∈ b.res s1 ∧ Reach s1 s2 x.2 := by
  induction r with
  | eps => intro s s' h; rw [mem_res_eps] at h; subst h; exact fun x hx => .inl hx
  | cls cs => intro s s' h; rw [mem_res_cls] at h; obtain ⟨c, r, h1, _, rfl⟩ := h; exact fun x hx => .inl hx
  | seq a b iha ihb =>
    intro s s' h x hx
    rw [mem_res_seq] at h
    obtain ⟨t, h1, h2⟩ := h
    rcases ihb h2 x hx with h | ⟨c, s1, s2, hc, h⟩
    · rcases iha h1 x h with h | ⟨c, s1, s2, hc, h⟩
      · exact .inl h
      · exact .inr ⟨c, s1, s2, by simp [Re.bodies, hc], h⟩
    · exact .inr ⟨c, s1, s2, by simp [Re.bodies, hc], h⟩
  | alt a b iha ihb =>
    intro s s' h x hx
    rw [mem_res_alt] at h
    rcases h with h | h
    · rcases iha h x hx with h | ⟨c, s1, s2, hc, h⟩
      · exact .inl h
      · exact .inr ⟨c, s1, s2, by simp [Re.bodies, hc], h⟩
    · rcases ihb h x hx with h | ⟨c, s1, s2, hc, h⟩
      · exact .inl h
      · exact .inr ⟨c, s1, s2, by simp [Re.bodies, hc], h⟩
  | star g a iha =>
    intro s s' h x hx
    refine mem_starR_induct (P := fun s => x ∈ s.caps ∨ ∃ b s1 s2, (x.1, b) ∈ (Re.star g a).bodies ∧
      s2 ∈ b.res s1 ∧ Reach s1 s2 x.2) (.inl hx) ?_ h
    rintro s t ht (hp | hp)
    · exact iha ht x hp
    · exact .inr hp
  | grp g a iha =>
    intro s s' h x hx
    rw [mem_res_grp] at h
    obtain ⟨t, ht, rfl⟩ := h
    simp only [List.mem_cons] at hx
    rcases hx with rfl | hx
    · obtain ⟨w, hw⟩ := Re.res_reach ht
      exact .inr ⟨a, s, t, by simp [Re.bodies], ht, by rw [hw.consumed_eq]; exact hw⟩
    · rcases iha ht x hx with h | ⟨c, s1, s2, hc, h⟩
      · exact .inl h
      · exact .inr ⟨c, s1, s2, by simp [Re.bodies, hc], h⟩
  | bref g => intro s s' h; rw [mem_res_bref] at h; obtain ⟨w, p, r, _, h2, rfl⟩ := h; exact fun x hx => .inl hx
  | bol mu => intro s s' h; rw [mem_res_bol] at h; obtain ⟨_, rfl⟩ := h; exact fun x hx => .inl hx
  | eol mu => intro s s' h; rw [mem_res_eol] at h; obtain ⟨_, rfl⟩ := h; exact fun x hx => .inl hx
  | behind neg cs => intro s s' h; rw [mem_res_behind] at h; obtain ⟨_, rfl⟩ := h; exact fun x hx => .inl hx
  | notAhead a _ => intro s s' h; rw [mem_res_notAhead] at h; obtain ⟨_, rfl⟩ := h; exact fun x hx => .inl hx

theorem capGet_body {γ : Type} [DecidableEq γ] {r : Re γ} {prev : Option Char} {rest : Str} {s' : St γ} {g : γ}
    {w : Str} (h : s' ∈ r.res ⟨prev, rest, []⟩) (hg : capGet g s'.caps = some w) :
    ∃ b s1 s2, (g, b) ∈ r.bodies ∧ s2 ∈ b.res s1 ∧ Reach s1 s2 w := by
  rcases Re.res_cap_body h _ (capGet_mem hg) with h | h
  · simp at h
  · exact h

/-- An expression that is not nullable consumes something. -/
theorem Re.res_lt {γ : Type} [DecidableEq γ] {r : Re γ} : r.nullable = false → ∀ {s s' : St γ}, s' ∈ r.res s →
    s'.rest.length < s.rest.length := by
  have le : ∀ {r : Re γ} {s s' : St γ}, s' ∈ r.res s → s'.rest.length ≤ s.rest.length := by
    intro r s s' h
    obtain ⟨w, hw⟩ := Re.res_reach h
    rw [hw.rest]; simp
  induction r with
  | cls cs =>
    intro _ s s' h
    rw [mem_res_cls] at h
    obtain ⟨c, r, h1, _, rfl⟩ := h
    rw [h1]; simp
  | seq a b iha ihb =>
    intro hn s s' h
    rw [mem_res_seq] at h
    obtain ⟨t, h1, h2⟩ := h
    simp only [Re.nullable, Bool.and_eq_false_iff] at hn
    have l1 := le h1
    have l2 := le h2
    rcases hn with hn | hn
    · have := iha hn h1; omega
    · have := ihb hn h2; omega
  | alt a b iha ihb =>
    intro hn s s' h
    simp only [Re.nullable, Bool.or_eq_false_iff] at hn
    rw [mem_res_alt] at h
    rcases h with h | h
    · exact iha hn.1 h
    · exact ihb hn.2 h
  | grp g a iha =>
    intro hn s s' h
    rw [mem_res_grp] at h
    obtain ⟨t, ht, rfl⟩ := h
    exact iha (s := s) (s' := t) hn ht
  | _ => intro hn; simp [Re.nullable] at hn

/-- a repetition of a class consumes characters of the class only -/
theorem star_cls_all {γ : Type} [DecidableEq γ] {g : Bool} {cs : CSet} {s s' : St γ} {w : Str}
    (h : s' ∈ (Re.star g (.cls cs)).res s) (hw : Reach s s' w) : ∀ c ∈ w, cs.mem c = true := by
  have key : ∀ w, s.rest = w ++ s'.rest → ∀ c ∈ w, cs.mem c = true := by
    refine mem_starR_induct (P := fun s => ∀ w, s.rest = w ++ s'.rest → ∀ c ∈ w, cs.mem c = true) ?_ ?_ h
    · intro w hw c hc; simp at hw; simp [hw] at hc
    · intro s t ht ih w hw c hc
      rw [mem_res_cls] at ht
      obtain ⟨d, r, h1, h2, rfl⟩ := ht
      cases w with
      | nil => simp at hc
      | cons e w =>
        rw [h1] at hw
        simp only [List.cons_append, List.cons.injEq] at hw
        simp only [List.mem_cons] at hc
        rcases hc with rfl | hc
        · rw [← hw.1]; exact h2
        · exact ih w hw.2 c hc
  exact key w hw.rest

theorem plus_cls_all {γ : Type} [DecidableEq γ] {g : Bool} {cs : CSet} {s s' : St γ} {w : Str}
    (h : s' ∈ (Re.plus g (.cls cs)).res s) (hw : Reach s s' w) : w ≠ [] ∧ ∀ c ∈ w, cs.mem c = true := by
  unfold Re.plus at h
  rw [mem_res_seq] at h
  obtain ⟨t, h1, h2⟩ := h
  rw [mem_res_cls] at h1
  obtain ⟨d, r, h3, h4, rfl⟩ := h1
  obtain ⟨v, hv⟩ := Re.res_reach h2
  have e : w = d :: v := by
    have h5 := hw.rest
    rw [h3] at h5
    have h6 := hv.rest
    simp only at h6
    rw [h6, ← List.cons_append] at h5
    exact (List.append_cancel_right h5).symm
  subst e
  refine ⟨by simp, ?_⟩
  intro c hc
  simp only [List.mem_cons] at hc
  rcases hc with rfl | hc
  · exact h4
  · exact star_cls_all h2 hv c hc

/-- the typeface rules: the text between the delimiters is captured -/
theorem markRule_inv {g gt : G} {d : Str} (hg : g ≠ gt) {prev : Option Char} {rest : Str} {s' : St G}
    (h : s' ∈ (markRule g gt d).res ⟨prev, rest, []⟩) :
    ∃ w, capGet gt s'.caps = some w ∧ rest = d ++ w ++ d ++ s'.rest := by
  unfold markRule at h
  rw [mem_res_grp] at h
  obtain ⟨t, ht, rfl⟩ := h
  simp only [Re.cat] at ht
  rw [mem_res_seq] at ht
  obtain ⟨t1, h1, h2⟩ := ht
  rw [mem_res_seq] at h2
  obtain ⟨t2, h2, h3⟩ := h2
  rw [mem_res_grp] at h2
  obtain ⟨t3, h2, rfl⟩ := h2
  obtain ⟨w, hw⟩ := Re.res_reach h2
  obtain ⟨e1, e2⟩ := mem_res_lit h1
  obtain ⟨e3, e4⟩ := mem_res_lit h3
  simp only at e1 e3 e4
  refine ⟨w, ?_, ?_⟩
  · unfold capGet
    have : (gt == g) = false := by simp [Ne.symm hg]
    simp [List.lookup_cons, e4, hw.consumed_eq, this]
  · rw [e1, hw.rest, e3]; simp

theorem emphasisRule_inv {prev : Option Char} {rest : Str} {s' : St G}
    (h : s' ∈ emphasisRule.res ⟨prev, rest, []⟩) :
    ∃ w, capGet .emphasis_text s'.caps = some w ∧ rest = c!"//" ++ w ++ c!"//" ++ s'.rest := by
  unfold emphasisRule at h
  rw [mem_res_grp] at h
  obtain ⟨t, ht, rfl⟩ := h
  simp only [Re.cat] at ht
  rw [mem_res_seq] at ht
  obtain ⟨t0, h0, ht⟩ := ht
  rw [mem_res_behind] at h0
  obtain ⟨_, rfl⟩ := h0
  rw [mem_res_seq] at ht
  obtain ⟨t1, h1, h2⟩ := ht
  rw [mem_res_seq] at h2
  obtain ⟨t2, h2, h3⟩ := h2
  rw [mem_res_grp] at h2
  obtain ⟨t3, h2, rfl⟩ := h2
  rw [mem_res_seq] at h3
  obtain ⟨t4, h4, h3⟩ := h3
  rw [mem_res_behind] at h4
  obtain ⟨_, rfl⟩ := h4
  obtain ⟨w, hw⟩ := Re.res_reach h2
  obtain ⟨e1, e2⟩ := mem_res_lit h1
  obtain ⟨e3, e4⟩ := mem_res_lit h3
  simp only at e1 e3 e4
  refine ⟨w, ?_, ?_⟩
  · unfold capGet
    have : (G.emphasis_text == G.emphasis) = false := rfl
    simp [List.lookup_cons, e4, hw.consumed_eq, this]
  · rw [e1, hw.rest, e3]; simp

/-! ## Trees all of whose nodes satisfy a predicate -/

/-- every node of the tree satisfies `p` -/
inductive Node.All (p : Info → Prop) : Node → Prop where
  | mk {i : Info} {cs : List Node} : p i → (∀ n ∈ cs, n.All p) → (Node.mk i cs).All p

theorem Node.All.info {p : Info → Prop} {i : Info} {cs : List Node} (h : (Node.mk i cs).All p) : p i := by
  cases h; assumption

theorem Node.All.children {p : Info → Prop} {i : Info} {cs : List Node} (h : (Node.mk i cs).All p) :
    ∀ n ∈ cs, n.All p := by
  cases h; assumption

structure Frame.All (p : Info → Prop) (f : Frame) : Prop where
  info : p f.info
  children : ∀ n ∈ f.children, n.All p

structure PS.All (p : Info → Prop) (st : PS) : Prop where
  cur : st.cur.All p
  up : ∀ f ∈ st.up, f.All p

theorem Frame.All.close {p : Info → Prop} {f : Frame} (h : f.All p) : f.close.All p :=
  .mk h.info h.children

theorem Frame.All.add {p : Info → Prop} {f : Frame} {n : Node} (h : f.All p) (hn : n.All p) :
    (f.add n).All p :=
  ⟨h.info, fun x hx => by
    simp only [Frame.add, List.mem_append, List.mem_singleton] at hx
    rcases hx with hx | rfl
    · exact h.children x hx
    · exact hn⟩

/-- The nodes the parser creates satisfy `p`; nodes for macros only under the condition `mac`. -/
structure Allows (p : Info → Prop) (mac : Str → Prop) : Prop where
  text : ∀ s, p { kind := .text, content := some s }
  link : ∀ s, p { kind := .link, content := some s }
  image : ∀ s, p { kind := .image, content := some s }
  preInline : ∀ s, p { kind := .pre_inline, content := some s }
  preBlock : ∀ s, p { kind := .pre_block, content := some s }
  brk : ∀ c, p { kind := .brk, content := c }
  line : p { kind := .line, content := some [] }
  plain : ∀ k, k ∈ [Kind.document, .paragraph, .separator, .table, .table_row, .table_cell, .table_head,
    .emphasis, .strong, .monospace, .superscript, .subscript, .underline, .small, .delete] → p { kind := k }
  list : ∀ k n, k = .number_list ∨ k = .bullet_list → p { kind := k, level := some n }
  item : ∀ n, p { kind := .list_item, level := some (n + 1) }
  header : ∀ s n, p { kind := .header, content := some s, level := some (n + 1) }
  macros : ∀ nm, mac nm → ∀ k c a, k = .macro_inline ∨ k = .macro_block →
    p { kind := k, content := c, macroName := nm, macroArgs := a }

/-- the text under construction, if any, is the last child of the cursor node -/
def TextOK (st : PS) : Prop :=
  st.text = true → ∃ init s, st.cur.children = init ++ [.mk { kind := .text, content := some s } []]

/-- infixes of `raw` that do not begin with a blank are infixes of `src` -/
def SubOf (raw src : Str) : Prop := ∀ w, w ≠ [] → w.head? ≠ some ' ' → w <:+: raw → w <:+: src

/-- `src` contains `<<`, blanks and the name -/
def Called (n src : Str) : Prop := n ≠ [] ∧ (∀ c ∈ n, Py.isSpace c = false) ∧ ∃ w, w.all Py.isSpace = true ∧ c!"<<" ++ w ++ n <:+: src

theorem Called.mark {n src : Str} (h : Called n src) : c!"<<" <:+: src := by
  obtain ⟨_, _, w, _, a, b, h⟩ := h
  exact ⟨a, w ++ n ++ b, by simpa using h⟩

theorem Called.name {n src : Str} (h : Called n src) : n <:+: src := by
  obtain ⟨_, _, w, _, a, b, h⟩ := h
  exact ⟨a ++ c!"<<" ++ w, b, by simpa using h⟩

theorem SubOf.refl (s : Str) : SubOf s s := fun _ _ _ h => h

theorem SubOf.infix {a b c : Str} (h : SubOf b c) (hi : a <:+: b) : SubOf a c :=
  fun w h1 h2 h3 => h w h1 h2 (h3.trans hi)

theorem SubOf.cons_space {a b : Str} (h : SubOf a b) : SubOf (' ' :: a) b := by
  intro w h1 h2 h3
  refine h w h1 h2 ?_
  obtain ⟨x, y, hxy⟩ := h3
  cases x with
  | nil =>
    cases w with
    | nil => exact absurd rfl h1
    | cons c w => simp at hxy; exact absurd hxy.1 (by rintro rfl; simp at h2)
  | cons c x =>
    simp at hxy
    exact ⟨x, y, by simp [hxy.2]⟩

/-- What inline parsing (of text from `src`) guarantees about the states before and after. -/
structure Step (p : Info → Prop) (src : Str) (st st' : PS) : Prop where
  up : st'.up = st.up
  info : st'.cur.info = st.cur.info
  text : TextOK st'
  all : st'.All p
  used : ∀ n ∈ st'.used, n ∈ st.used ∨ Called n src

theorem Step.refl {p : Info → Prop} {src : Str} {st : PS} (ht : TextOK st) (ha : st.All p) :
    Step p src st st := ⟨rfl, rfl, ht, ha, fun _ h => .inl h⟩

theorem Step.trans {p : Info → Prop} {src : Str} {a b c : PS} (h : Step p src a b) (h' : Step p src b c) :
    Step p src a c :=
  ⟨by rw [h'.up, h.up], by rw [h'.info, h.info], h'.text, h'.all, fun n hn => by
    rcases h'.used n hn with h1 | h1
    · exact h.used n h1
    · exact .inr h1⟩

/-- A computation succeeds with a state related by `Step`. -/
def OkStep (p : Info → Prop) (src : Str) (st : PS) (r : PM) : Prop := ∃ st', r = .ok st' ∧ Step p src st st'

theorem ok_bind {α β : Type} (a : α) (f : α → Except PyErr β) : (Except.ok a >>= f) = f a := rfl

theorem foldlM_ok {α : Type} {l : List α} {f : PS → α → PM} {I : PS → Prop} :
    ∀ {st : PS}, I st → (∀ st x, x ∈ l → I st → ∃ st', f st x = .ok st' ∧ I st') →
    ∃ st', l.foldlM f st = .ok st' ∧ I st' := by
  induction l with
  | nil => intro st h0 _; exact ⟨st, rfl, h0⟩
  | cons a l ih =>
    intro st h0 hs
    obtain ⟨st1, h1, h2⟩ := hs st a (by simp) h0
    obtain ⟨st2, h3, h4⟩ := ih h2 (fun st x hx => hs st x (by simp [hx]))
    exact ⟨st2, by simp only [List.foldlM_cons, h1]; exact h3, h4⟩

variable {p : Info → Prop} {src : Str} {st : PS}

theorem addNode_step {n : Node} (ha : st.All p) (hn : n.All p) : Step p src st ((st.addNode n).noText) :=
  ⟨rfl, rfl, by intro h; simp [PS.noText] at h, ⟨ha.cur.add hn, ha.up⟩, fun _ h => .inl h⟩

theorem leaf_step {i : Info} (ha : st.All p) (hi : p i) : Step p src st ((st.leaf i).noText) :=
  addNode_step ha (.mk hi (by simp))

theorem addChars_step {mac : Str → Prop} (hp : Allows p mac) (ht : TextOK st) (ha : st.All p) (s : Str) :
    OkStep p src st (st.addChars s) := by
  unfold PS.addChars
  cases htx : st.text with
  | true =>
    obtain ⟨init, s0, hc⟩ := ht htx
    refine ⟨{ st with cur := { st.cur with children := init ++
      [.mk { kind := .text, content := some (s0 ++ s) } []] } }, ?_, rfl, rfl, ?_, ⟨⟨ha.cur.info, ?_⟩, ha.up⟩,
      fun _ h => .inl h⟩
    · simp only [if_true, PS.appendText, hc, List.getLast?_append, List.getLast?_singleton, Option.some_or,
        List.dropLast_concat, Option.getD_some]
    · intro _; exact ⟨init, s0 ++ s, rfl⟩
    · intro n hn
      simp only [List.mem_append, List.mem_singleton] at hn
      rcases hn with hn | rfl
      · exact ha.cur.children n (by rw [hc]; simp [hn])
      · exact .mk (hp.text _) (by simp)
  | false =>
    refine ⟨{ st with cur := { st.cur with children := st.cur.children ++
      [.mk { kind := .text, content := some s } []] }, text := true }, ?_, rfl, rfl, ?_,
      ⟨⟨ha.cur.info, ?_⟩, ha.up⟩, fun _ h => .inl h⟩
    · simp [PS.appendText, PS.leaf, Frame.add]
    · intro _; exact ⟨st.cur.children, s, rfl⟩
    · intro n hn
      simp only [List.mem_append, List.mem_singleton] at hn
      rcases hn with hn | rfl
      · exact ha.cur.children n hn
      · exact .mk (hp.text _) (by simp)

/-! ## The single handlers -/

section
variable {mac : Str → Prop} (hp : Allows p mac) (ht : TextOK st) (ha : st.All p) {m : Match G}
include hp ht ha

theorem urlRepl_ok {w : Str} (h : m.get .url_target = some w) : OkStep p src st (urlRepl m st) := by
  unfold urlRepl
  split
  · exact ⟨_, by rw [need_of_get h]; rfl, addNode_step ha (.mk (hp.link _) (by
      intro n hn; simp only [List.mem_singleton] at hn; subst hn; exact .mk (hp.text _) (by simp)))⟩
  · obtain ⟨st', h1, h2⟩ := addChars_step (src := src) hp ht ha w
    exact ⟨st', by rw [need_of_get h]; exact h1, h2⟩

omit ht in
theorem imageRepl_ok {w : Str} (h : m.get .image_target = some w) : OkStep p src st (imageRepl m st) := by
  unfold imageRepl
  exact ⟨_, by rw [need_of_get h]; rfl, addNode_step ha (.mk (hp.image _) (by
    intro n hn; simp only [List.mem_singleton] at hn; subst hn; exact .mk (hp.text _) (by simp)))⟩

omit ht in
theorem preInlineRepl_ok {w : Str} (h : m.get .pre_inline_text = some w) :
    OkStep p src st (preInlineRepl m st) := by
  unfold preInlineRepl
  exact ⟨_, by rw [need_of_get h]; rfl, leaf_step ha (hp.preInline _)⟩

omit ht in
theorem linebreakRepl_ok : OkStep p src st (linebreakRepl st) :=
  ⟨_, rfl, leaf_step ha (hp.brk _)⟩

theorem escapeRepl_ok {w : Str} (h : m.get .escaped_char = some w) : OkStep p src st (escapeRepl m st) := by
  unfold escapeRepl
  rw [need_of_get h]
  exact addChars_step hp ht ha w

theorem charRepl_ok {w : Str} (h : m.get .char = some w) : OkStep p src st (charRepl m st) := by
  unfold charRepl
  rw [need_of_get h]
  exact addChars_step hp ht ha w

omit ht in
theorem addMacro_ok {k : Kind} {nk ak : G} {tk : Option G} (hk : k = .macro_inline ∨ k = .macro_block)
    {nm args : Str} (hm : mac nm) (h1 : m.get nk = some nm) (h2 : m.get ak = some args)
    (h3 : ∀ g, tk = some g → ∃ w, m.get g = some w) (hs : Called nm src) :
    OkStep p src st (addMacro k nk ak tk m st) := by
  have key : ∀ c, Step p src st { st.leaf { kind := k, content := c, macroName := nm, macroArgs := Py.strip args } with
      used := nm :: st.used, text := false } := by
    intro c
    refine ⟨rfl, rfl, by intro h; simp at h, ⟨ha.cur.add (.mk (hp.macros _ hm _ _ _ hk) (by simp)), ha.up⟩, ?_⟩
    intro n hn
    simp only [List.mem_cons] at hn
    rcases hn with rfl | hn
    · exact .inr hs
    · exact .inl hn
  unfold addMacro
  cases tk with
  | none =>
    exact ⟨_, by simp only [need_of_get h1, need_of_get h2]; rfl, key none⟩
  | some g =>
    obtain ⟨w, hw⟩ := h3 g rfl
    exact ⟨_, by simp only [need_of_get hw, need_of_get h1, need_of_get h2]; rfl, key (some (Py.strip w))⟩

end

/-! ## Inline parsing -/

/-- what a hit of a combined expression means -/
structure RuleHit (rule : R) (raw : Str) (m : Match G) (s' : St G) (pre rest : Str) : Prop where
  raw : raw = pre ++ rest
  mem : s' ∈ rule.res ⟨pre.getLast?, rest, []⟩
  caps : m.caps = s'.caps
  text : rest = m.text ++ s'.rest

theorem findAll_alts {l : List R} (hl : l ≠ []) {raw : Str} {m : Match G} (h : m ∈ (Re.alts l).findAll raw) :
    ∃ rule ∈ l, ∃ s' pre rest, RuleHit rule raw m s' pre rest := by
  obtain ⟨pre, rest, prev, s', h1, h2, h3, h4, h5⟩ := (Re.findAll_hit h).ex
  obtain ⟨rule, hr, h6⟩ := mem_res_alts hl h2
  exact ⟨rule, hr, s', pre, rest, h1, h5 ▸ h6, h3, h4⟩

theorem RuleHit.get {rule : R} {raw : Str} {m : Match G} {s' : St G} {pre rest : Str}
    (h : RuleHit rule raw m s' pre rest) {g : G} (hg : g ∈ rule.must) : ∃ w, m.get g = some w :=
  get_of_must h.caps h.mem hg

theorem RuleHit.dispatch {rule : R} {raw : Str} {m : Match G} {s' : St G} {pre rest : Str}
    (h : RuleHit rule raw m s' pre rest) {r : R} {g : G} (hg : g ∈ rule.must)
    (hf : (groupOrder r).find? (fun x => rule.names.contains x) = some g) :
    dispatch (groupOrder r) m = some g := dispatch_eq h.caps h.mem hg hf

theorem groupOrder_alts : ∀ l : List R, groupOrder (Re.alts l) = l.flatMap groupOrder
  | [] => rfl
  | [a] => by simp [Re.alts]
  | a :: b :: l => by
    rw [Re.alts, groupOrder, groupOrder_alts (b :: l)]
    rfl

/-- the method is selected by the groups of the rule that has matched, if the other rules have other groups -/
theorem RuleHit.dispatch_alts {rule : R} {raw : Str} {m : Match G} {s' : St G} {pre rest : Str}
    (h : RuleHit rule raw m s' pre rest) {l : List R} (hr : rule ∈ l)
    (ho : ∀ x ∈ l, x = rule ∨ ∀ g ∈ groupOrder x, g ∉ rule.names) :
    Creole.dispatch (groupOrder (Re.alts l)) m = Creole.dispatch (groupOrder rule) m := by
  have hn : ∀ g, (m.get g).isSome = true → g ∈ rule.names := by
    intro g hg
    simp only [Match.get, h.caps] at hg
    rw [capGet_isSome_iff] at hg
    simpa using Re.res_names h.mem g hg
  have hx : ∀ x : R, (∀ g ∈ groupOrder x, g ∉ rule.names) → Creole.dispatch (groupOrder x) m = none := by
    intro x hx
    unfold Creole.dispatch
    rw [List.find?_eq_none]
    intro g hg hs
    exact hx g hg (hn g hs)
  have key : ∀ l : List R, (∀ x ∈ l, x = rule ∨ ∀ g ∈ groupOrder x, g ∉ rule.names) →
      (rule ∉ l ∧ Creole.dispatch (l.flatMap groupOrder) m = none) ∨
        Creole.dispatch (l.flatMap groupOrder) m = Creole.dispatch (groupOrder rule) m := by
    intro l
    induction l with
    | nil => intro _; exact .inl ⟨by simp, rfl⟩
    | cons a l ih =>
      intro ho
      have e : Creole.dispatch ((a :: l).flatMap groupOrder) m = (Creole.dispatch (groupOrder a) m).or (Creole.dispatch (l.flatMap groupOrder) m) := by
        unfold Creole.dispatch
        rw [List.flatMap_cons, List.find?_append]
      have ih := ih fun x hx => ho x (by simp [hx])
      rw [e]
      by_cases ha : a = rule
      · subst ha
        right
        cases hd : Creole.dispatch (groupOrder a) m with
        | some g => rfl
        | none =>
          rw [Option.none_or]
          rcases ih with ⟨_, h⟩ | h
          · exact h
          · rw [h, hd]
      · rw [hx a ((ho a (by simp)).resolve_left ha), Option.none_or]
        rcases ih with ⟨h1, h2⟩ | h
        · exact .inl ⟨by simp [Ne.symm ha, h1], h2⟩
        · exact .inr h
  rw [groupOrder_alts]
  rcases key l ho with ⟨h1, _⟩ | h1
  · exact absurd hr h1
  · exact h1

/-- the rules have different groups -/
theorem blockRules_apart (blog : Bool) : ∀ rule ∈ blockRules blog, ∀ x ∈ blockRules blog, x = rule ∨ ∀ g ∈ groupOrder x, g ∉ rule.names := by
  cases blog <;> decide +kernel

theorem RuleHit.infix {rule : R} {raw : Str} {m : Match G} {s' : St G} {pre rest : Str}
    (h : RuleHit rule raw m s' pre rest) {g : G} {w : Str} (hg : m.get g = some w) : w <:+: raw := by
  unfold Match.get at hg
  rw [h.caps] at hg
  exact Re.res_cap_infix h.mem ⟨pre, [], by simp [h.raw]⟩ (by simp) _ (capGet_mem hg)

theorem word_not_space {c : Char} (h : Py.isWord c = true) : Py.isSpace c = false := by
  cases hs : Py.isSpace c with
  | false => rfl
  | true =>
    exfalso
    have hm : c.toNat ∈ [9, 10, 11, 12, 13, 28, 29, 30, 31, 32, 0x85, 0xA0, 0x1680, 0x2000, 0x2001, 0x2002, 0x2003,
        0x2004, 0x2005, 0x2006, 0x2007, 0x2008, 0x2009, 0x200A, 0x2028, 0x2029, 0x202F, 0x205F, 0x3000] := by
      simp only [Py.isSpace, Bool.or_eq_true, Bool.and_eq_true, decide_eq_true_eq, beq_iff_eq] at hs
      simp only [List.mem_cons, List.not_mem_nil, or_false]
      omega
    have key : ∀ n ∈ [9, 10, 11, 12, 13, 28, 29, 30, 31, 32, 0x85, 0xA0, 0x1680, 0x2000, 0x2001, 0x2002, 0x2003,
        0x2004, 0x2005, 0x2006, 0x2007, 0x2008, 0x2009, 0x200A, 0x2028, 0x2029, 0x202F, 0x205F, 0x3000],
        (if n < 128 then (48 ≤ n && n ≤ 57) || (65 ≤ n && n ≤ 90) || n == 95 || (97 ≤ n && n ≤ 122)
          else Py.alnumRanges.any fun r => r.1 ≤ n && n ≤ r.2) = false := by decide +kernel
    have := key _ hm
    unfold Py.isWord at h
    simp only at h
    rw [h] at this
    cases this

/-- a macro name in the text of a macro rule -/
theorem RuleHit.macroName {rule body : R} {g : G} {raw src : Str} {m : Match G} {s' : St G} {pre rest : Str}
    (h : RuleHit rule raw m s' pre rest) {k : G} {gap : R}
    (hrule : rule = .grp k (.seq (Re.lit c!"<<") (.seq gap (.seq (.grp g (.plus true (.cls .word))) body))))
    (hgap : gap = .eps ∨ gap = sps) (hk : k ≠ g) (hb : g ∉ body.names) (hsub : SubOf raw src)
    {w : Str} (hg : m.get g = some w) : Called w src := by
  have hm := h.mem
  unfold Match.get at hg
  rw [h.caps] at hg
  rw [hrule, mem_res_grp] at hm
  obtain ⟨t, ht, rfl⟩ := hm
  rw [mem_res_seq] at ht
  obtain ⟨t1, h1, ht⟩ := ht
  rw [mem_res_seq] at ht
  obtain ⟨t2, h2, ht⟩ := ht
  rw [mem_res_seq] at ht
  obtain ⟨t3, h3, ht⟩ := ht
  rw [mem_res_grp] at h3
  obtain ⟨t4, h3, rfl⟩ := h3
  obtain ⟨v, hv⟩ := Re.res_reach h3
  obtain ⟨u, hu⟩ := Re.res_reach h2
  have hus : u.all Py.isSpace = true := by
    rcases hgap with rfl | rfl
    · rw [mem_res_eps] at h2
      subst h2
      have := hu.rest
      have : u = [] := by simpa using this
      rw [this]; rfl
    · rw [List.all_eq_true]
      intro c hc
      exact star_cls_all h2 hu c hc
  have hw : w = v := by
    have e1 := capGet_keep hb ht
    have hkg : (g == k) = false := by simpa using hk.symm
    unfold capGet at hg e1
    rw [List.lookup_cons, hkg] at hg
    simp only [List.lookup_cons, beq_self_eq_true] at e1
    rw [e1, hv.consumed_eq] at hg
    exact (Option.some.inj hg).symm
  subst hw
  obtain ⟨h4, h5⟩ := plus_cls_all h3 hv
  refine ⟨h4, fun c hc => word_not_space (h5 c hc), u, hus, ?_⟩
  obtain ⟨e1, _⟩ := mem_res_lit h1
  refine hsub _ (by simp) (by simp) ⟨pre, t4.rest, ?_⟩
  simp only at e1
  rw [h.raw, e1, hu.rest, hv.rest]
  simp

theorem RuleHit.tagName {raw src : Str} {m : Match G} {s' : St G} {pre rest : Str} (h : RuleHit macroTagRule raw m s' pre rest)
    (hsub : SubOf raw src) {w : Str} (hg : m.get .macro_tag_name = some w) : Called w src := by
  have hm := h.mem
  unfold macroTagRule at hm
  rw [mem_res_grp] at hm
  obtain ⟨t, ht, e⟩ := hm
  simp only [Re.cat] at ht
  rw [mem_res_seq] at ht
  obtain ⟨t1, h1, ht⟩ := ht
  have h2 : RuleHit (.grp .macro_tag (.seq (Re.lit c!"<<") (.seq .eps (.seq (.grp .macro_tag_name (.plus true (.cls .word)))
      (Re.cat [.grp .macro_tag_args anyDots, sps, .star true (ch '/'), Re.lit c!">>"]))))) raw m s' pre rest := by
    refine ⟨h.raw, ?_, h.caps, h.text⟩
    rw [mem_res_grp]
    refine ⟨t, ?_, e⟩
    rw [mem_res_seq]
    refine ⟨t1, h1, ?_⟩
    rw [mem_res_seq]
    exact ⟨t1, by rw [mem_res_eps], ht⟩
  exact h2.macroName rfl (.inl rfl) (by decide) (by decide) hsub hg

/-- `self.cur` goes back to where it was -/
theorem popTo_push {st st' : PS} {i : Info} (h : Step p src (st.push i).noText st') (ha : st.All p) :
    ∃ st'', st'.popTo st.up.length = .ok st'' ∧ Step p src st st''.noText := by
  have hup : st'.up = st.cur :: st.up := h.up
  refine ⟨{ st' with cur := st.cur.add st'.cur.close, up := st.up }, ?_, rfl, rfl, ?_, ⟨?_, ha.up⟩, ?_⟩
  · unfold PS.popTo
    rw [hup]
    have h1 : popToAux st.up.length st'.cur (st.cur :: st.up) = some (st.cur.add st'.cur.close, st.up) := by
      unfold popToAux
      rw [if_neg (by simp)]
      cases hu : st.up with
      | nil => simp [popToAux]
      | cons q qs => unfold popToAux; simp
    rw [h1]
  · intro hh; simp [PS.noText] at hh
  · exact ha.cur.add h.all.cur.close
  · intro n hn; exact h.used n hn

theorem push_all {i : Info} (ha : st.All p) (hi : p i) : (st.push i).noText.All p :=
  ⟨⟨hi, by simp [PS.push, PS.noText]⟩, by
    intro f hf
    simp only [PS.push, PS.noText, List.mem_cons] at hf
    rcases hf with rfl | hf
    · exact ha.cur
    · exact ha.up f hf⟩

theorem noText_textOK (st : PS) : TextOK st.noText := by intro h; simp [PS.noText] at h

theorem subAll_step {r : R} {h : G → Match G → PS → PM} {raw : Str} (ht : TextOK st) (ha : st.All p)
    (hh : ∀ m ∈ r.findAll raw, ∀ st, TextOK st → st.All p →
      ∃ g, dispatch (groupOrder r) m = some g ∧ OkStep p src st (h g m st)) :
    OkStep p src st (subAll r h raw st) := by
  unfold subAll
  obtain ⟨st', h1, h2⟩ := foldlM_ok (l := r.findAll raw) (I := fun s => Step p src st s)
    (f := fun st m => match dispatch (groupOrder r) m with
      | some g => h g m st
      | none => .ok st) (Step.refl ht ha) (by
    intro s m hm hs
    obtain ⟨g, hd, s', hs', hst⟩ := hh m hm s hs.text hs.all
    exact ⟨s', by simp only [hd]; exact hs', hs.trans hst⟩)
  exact ⟨st', h1, h2⟩

variable {mac : Str → Prop}

theorem linkRe_ok (hp : Allows p mac) {raw : Str} (ht : TextOK st) (ha : st.All p) :
    OkStep p src st (subAll linkRe leafRepl raw st) := by
  refine subAll_step ht ha ?_
  intro m hm st ht ha
  obtain ⟨rule, hr, s', pre, rest, hh⟩ := findAll_alts (by simp) hm
  simp only [List.mem_cons, List.not_mem_nil, or_false] at hr
  rcases hr with rfl | rfl | rfl
  · obtain ⟨w, hw⟩ := hh.get (g := .image_target) (by decide)
    exact ⟨.image, hh.dispatch (by decide) (by decide), imageRepl_ok hp ha hw⟩
  · exact ⟨.linebreak, hh.dispatch (by decide) (by decide), linebreakRepl_ok hp ha⟩
  · obtain ⟨w, hw⟩ := hh.get (g := .char) (by decide)
    exact ⟨.char, hh.dispatch (by decide) (by decide), charRepl_ok hp ht ha hw⟩

theorem linkRepl_ok (hp : Allows p mac) {m : Match G} {w : Str} (hw : m.get .link_target = some w)
    (ha : st.All p) : OkStep p src st (linkRepl m st) := by
  obtain ⟨st1, h1, h2⟩ := linkRe_ok (src := src) (raw := Py.strip ((m.get .link_text).getD [])) hp
    (noText_textOK _) (push_all ha (hp.link w))
  obtain ⟨st2, h3, h4⟩ := popTo_push h2 ha
  refine ⟨st2.noText, ?_, h4⟩
  unfold linkRepl
  simp only [need_of_get hw]
  simp only [bind, Except.bind, h1, h3]
  rfl

theorem cleanupBreak_props (ha : st.All p) : st.cleanupBreak.All p ∧ st.cleanupBreak.up = st.up ∧
    st.cleanupBreak.cur.info = st.cur.info ∧ st.cleanupBreak.used = st.used ∧
    st.cleanupBreak.text = st.text := by
  unfold PS.cleanupBreak
  split
  · split
    · refine ⟨⟨⟨ha.cur.info, ?_⟩, ha.up⟩, rfl, rfl, rfl, rfl⟩
      intro n hn
      exact ha.cur.children n (List.dropLast_subset _ hn)
    · exact ⟨ha, rfl, rfl, rfl, rfl⟩
  · exact ⟨ha, rfl, rfl, rfl, rfl⟩

theorem inlineMark_ok {pi : Str → PS → PM} {k : Kind} {gt : G} {m : Match G} {w : Str}
    (hw : m.get gt = some w) (hk : p { kind := k }) (ha : st.All p)
    (hpi : ∀ st, TextOK st → st.All p → OkStep p src st (pi w st)) :
    OkStep p src st (inlineMark pi k gt m st) := by
  obtain ⟨st1, h1, h2⟩ := hpi (st.push { kind := k }).noText (noText_textOK _) (push_all ha hk)
  obtain ⟨c1, c2, c3, c4, c5⟩ := cleanupBreak_props h2.all
  have hup : st1.cleanupBreak.up = st.cur :: st.up := by rw [c2, h2.up]; rfl
  have hkind : st1.cleanupBreak.cur.kind = k := by unfold Frame.kind; rw [c3, h2.info]; rfl
  refine ⟨({ st1.cleanupBreak with cur := st.cur.add st1.cleanupBreak.cur.close, up := st.up }).noText, ?_, rfl, rfl,
    noText_textOK _, ⟨ha.cur.add c1.cur.close, ha.up⟩, ?_⟩
  · unfold inlineMark
    simp only [need_of_get hw, bind, Except.bind, h1]
    unfold PS.upto
    simp only [hup]
    unfold climb
    simp only [hkind, decide_true, if_true]
    unfold PS.pop
    simp only
    rfl
  · intro n hn
    have : n ∈ st1.used := by rw [← c4]; exact hn
    exact h2.used n this

theorem inlineRepl_ok (hp : Allows p (Called · src)) {raw : Str} (hsub : SubOf raw src) {pi : Str → PS → PM}
    (hpi : ∀ w, w.length < raw.length → SubOf w src → ∀ st, TextOK st → st.All p → OkStep p src st (pi w st))
    {m : Match G} (hm : m ∈ inlineRe.findAll raw) (ht : TextOK st) (ha : st.All p) :
    ∃ g, dispatch (groupOrder inlineRe) m = some g ∧ OkStep p src st (inlineRepl pi g m st) := by
  obtain ⟨rule, hr, s', pre, rest, hh⟩ := findAll_alts (by simp [inlineRules]) hm
  have mark : ∀ k g gt d, d ≠ [] → rule = markRule g gt d → g ≠ gt → p { kind := k } →
      OkStep p src st (inlineMark pi k gt m st) := by
    rintro k g gt d hd rfl hg hk
    obtain ⟨w, h1, h2⟩ := markRule_inv hg hh.mem
    rw [← hh.caps] at h1
    refine inlineMark_ok h1 hk ha (hpi w ?_ ?_)
    · rw [hh.raw, h2]; simp only [List.length_append]
      have : 0 < d.length := List.length_pos_iff.mpr hd
      omega
    · exact hsub.infix (hh.infix h1)
  simp only [inlineRules, List.mem_cons, List.not_mem_nil, or_false] at hr
  rcases hr with rfl | rfl | rfl | rfl | rfl | rfl | rfl | rfl | rfl | rfl | rfl | rfl | rfl | rfl | rfl | rfl | rfl
  · obtain ⟨w, hw⟩ := hh.get (g := .link_target) (by decide)
    exact ⟨.link, hh.dispatch (by decide) (by decide), linkRepl_ok hp hw ha⟩
  · obtain ⟨w, hw⟩ := hh.get (g := .url_target) (by decide)
    exact ⟨.url, hh.dispatch (by decide) (by decide), urlRepl_ok hp ht ha hw⟩
  · obtain ⟨w1, h1⟩ := hh.get (g := .macro_inline_start) (by decide)
    obtain ⟨w2, h2⟩ := hh.get (g := .macro_inline_args) (by decide)
    have h3 := hh.get (g := .macro_inline_text) (by decide)
    have h4 := hh.macroName (gap := sps) rfl (.inr rfl) (by decide) (by decide) hsub h1
    exact ⟨.macro_inline, hh.dispatch (by decide) (by decide),
      addMacro_ok (tk := some .macro_inline_text) hp ha (.inl rfl) h4 h1 h2 (by rintro g ⟨⟩; exact h3) h4⟩
  · obtain ⟨w1, h1⟩ := hh.get (g := .macro_tag_name) (by decide)
    obtain ⟨w2, h2⟩ := hh.get (g := .macro_tag_args) (by decide)
    have h4 := hh.tagName hsub h1
    exact ⟨.macro_tag, hh.dispatch (by decide) (by decide),
      addMacro_ok (tk := none) hp ha (.inl rfl) h4 h1 h2 (by rintro g ⟨⟩) h4⟩
  · obtain ⟨w, hw⟩ := hh.get (g := .pre_inline_text) (by decide)
    exact ⟨.pre_inline, hh.dispatch (by decide) (by decide), preInlineRepl_ok hp ha hw⟩
  · obtain ⟨w, hw⟩ := hh.get (g := .image_target) (by decide)
    exact ⟨.image, hh.dispatch (by decide) (by decide), imageRepl_ok hp ha hw⟩
  · exact ⟨.strong, hh.dispatch (by decide) (by decide), mark _ _ _ _ (by simp) rfl (by decide) (hp.plain _ (by simp))⟩
  · refine ⟨.emphasis, hh.dispatch (by decide) (by decide), ?_⟩
    obtain ⟨w, h1, h2⟩ := emphasisRule_inv hh.mem
    rw [← hh.caps] at h1
    refine inlineMark_ok h1 (hp.plain _ (by simp)) ha (hpi w ?_ ?_)
    · rw [hh.raw, h2]; simp only [List.length_append, List.length_cons]; omega
    · exact hsub.infix (hh.infix h1)
  · exact ⟨.monospace, hh.dispatch (by decide) (by decide), mark _ _ _ _ (by simp) rfl (by decide) (hp.plain _ (by simp))⟩
  · exact ⟨.underline, hh.dispatch (by decide) (by decide), mark _ _ _ _ (by simp) rfl (by decide) (hp.plain _ (by simp))⟩
  · exact ⟨.superscript, hh.dispatch (by decide) (by decide), mark _ _ _ _ (by simp) rfl (by decide) (hp.plain _ (by simp))⟩
  · exact ⟨.subscript, hh.dispatch (by decide) (by decide), mark _ _ _ _ (by simp) rfl (by decide) (hp.plain _ (by simp))⟩
  · exact ⟨.small, hh.dispatch (by decide) (by decide), mark _ _ _ _ (by simp) rfl (by decide) (hp.plain _ (by simp))⟩
  · exact ⟨.delete, hh.dispatch (by decide) (by decide), mark _ _ _ _ (by simp) rfl (by decide) (hp.plain _ (by simp))⟩
  · exact ⟨.linebreak, hh.dispatch (by decide) (by decide), linebreakRepl_ok hp ha⟩
  · obtain ⟨w, hw⟩ := hh.get (g := .escaped_char) (by decide)
    exact ⟨.escape, hh.dispatch (by decide) (by decide), escapeRepl_ok hp ht ha hw⟩
  · obtain ⟨w, hw⟩ := hh.get (g := .char) (by decide)
    exact ⟨.char, hh.dispatch (by decide) (by decide), charRepl_ok hp ht ha hw⟩

theorem parseInlineN_ok (hp : Allows p (Called · src)) : ∀ (n : Nat) (raw : Str), raw.length < n →
    SubOf raw src → ∀ st, TextOK st → st.All p → OkStep p src st (parseInlineN n raw st) := by
  intro n
  induction n with
  | zero => intro raw h; omega
  | succ n ih =>
    intro raw hl hsub st ht ha
    unfold parseInlineN
    refine subAll_step ht ha ?_
    intro m hm st ht ha
    exact inlineRepl_ok hp hsub (fun w hw => ih w (by omega)) hm ht ha

theorem parseInline_ok (hp : Allows p (Called · src)) {raw : Str} (hsub : SubOf raw src) (ht : TextOK st)
    (ha : st.All p) : OkStep p src st (parseInline raw st) :=
  parseInlineN_ok hp _ raw (by omega) hsub st ht ha

/-! ## Block parsing -/

theorem _root_.Verif.Py.dropWhile_infix (q : Char → Bool) (s : Str) : s.dropWhile q <:+: s :=
  (List.dropWhile_suffix q).isInfix

theorem _root_.Verif.Py.dropEndWhile_infix (q : Char → Bool) (s : Str) : Py.dropEndWhile q s <:+: s := by
  induction s with
  | nil => simp [Py.dropEndWhile]
  | cons c cs ih =>
    unfold Py.dropEndWhile
    have hpre : Py.dropEndWhile q cs <+: cs := by
      clear ih
      induction cs with
      | nil => simp [Py.dropEndWhile]
      | cons d ds ih =>
        unfold Py.dropEndWhile
        split
        · split <;> simp
        · rename_i e es he; rw [he] at ih; exact List.prefix_cons_inj d |>.mpr ih
    split
    · split
      · exact List.nil_infix
      · exact ⟨[], cs, by simp⟩
    · rename_i d ds hd
      rw [hd] at hpre
      exact (List.prefix_cons_inj c |>.mpr hpre).isInfix

theorem _root_.Verif.Py.strip_infix (s : Str) : Py.strip s <:+: s := by
  unfold Py.strip Py.rstrip Py.lstrip
  exact (Py.dropEndWhile_infix _ _).trans (Py.dropWhile_infix _ _)

theorem _root_.Verif.Py.stripP_infix (q : Char → Bool) (s : Str) : Py.stripP q s <:+: s := by
  unfold Py.stripP
  exact (Py.dropEndWhile_infix _ _).trans (Py.dropWhile_infix _ _)

/-- What a block guarantees: between blocks no text node is under construction. -/
structure BStep (p : Info → Prop) (src : Str) (st st' : PS) : Prop where
  text : st'.text = false
  all : st'.All p
  used : ∀ n ∈ st'.used, n ∈ st.used ∨ Called n src

def BOk (p : Info → Prop) (src : Str) (st : PS) (r : PM) : Prop := ∃ st', r = .ok st' ∧ BStep p src st st'

theorem BStep.trans {a b c : PS} (h : BStep p src a b) (h' : BStep p src b c) : BStep p src a c :=
  ⟨h'.text, h'.all, fun n hn => by
    rcases h'.used n hn with h1 | h1
    · exact h.used n h1
    · exact .inr h1⟩

theorem Step.noText {a b : PS} (h : Step p src a b) : BStep p src a b.noText :=
  ⟨rfl, ⟨h.all.cur, h.all.up⟩, h.used⟩

theorem climb_all {stop : Kind → Bool} : ∀ {up : List Frame} {f : Frame}, f.All p → (∀ g ∈ up, g.All p) →
    (climb stop f up).1.All p ∧ ∀ g ∈ (climb stop f up).2, g.All p := by
  intro up
  induction up with
  | nil => intro f hf _; exact ⟨hf, by simp [climb]⟩
  | cons q up ih =>
    intro f hf hup
    unfold climb
    split
    · exact ⟨hf, hup⟩
    · exact ih ((hup q (by simp)).add hf.close) (fun g hg => hup g (by simp [hg]))

theorem upto_props (ha : st.All p) (stop : Kind → Bool) :
    (st.upto stop).All p ∧ (st.upto stop).used = st.used ∧ (st.upto stop).text = st.text := by
  obtain ⟨c1, c2, c3, c4, c5⟩ := cleanupBreak_props ha
  unfold PS.upto
  exact ⟨⟨(climb_all c1.cur c1.up).1, (climb_all c1.cur c1.up).2⟩, c4, c5⟩

theorem textOK_of_false (h : st.text = false) : TextOK st := by intro h'; rw [h] at h'; simp at h'

theorem dispatch_names {r rule : R} {raw : Str} {m : Match G} {s' : St G} {pre rest : Str}
    (h : RuleHit rule raw m s' pre rest) {g0 : G} (hg : g0 ∈ rule.must) (ho : g0 ∈ groupOrder r) :
    ∃ g, dispatch (groupOrder r) m = some g ∧ g ∈ rule.names := by
  obtain ⟨w, hw⟩ := h.get hg
  have : (dispatch (groupOrder r) m).isSome := by
    unfold dispatch
    rw [List.find?_isSome]
    exact ⟨g0, ho, by simp [hw]⟩
  obtain ⟨g, hd⟩ := Option.isSome_iff_exists.mp this
  refine ⟨g, hd, ?_⟩
  have h1 := List.find?_some hd
  simp only [Match.get, h.caps] at h1
  rw [capGet_isSome_iff] at h1
  simpa using Re.res_names h.mem g h1

set_option linter.unusedSectionVars false

section
variable (hp : Allows p (Called · src)) {raw : Str} (hsub : SubOf raw src)
  (ht : st.text = false) (ha : st.All p) {m : Match G}
include hp ha

theorem leaf_bstep {st' : PS} {i : Info} (ha' : st'.All p) (hu : st'.used = st.used) (ht' : st'.text = false)
    (hi : p i) : BStep p src st (st'.leaf i) :=
  ⟨ht', ⟨ha'.cur.add (.mk hi (by simp)), ha'.up⟩, fun n hn => .inl (hu ▸ hn)⟩

theorem leaf_noText_bstep {st' : PS} {i : Info} (ha' : st'.All p) (hu : st'.used = st.used)
    (hi : p i) : BStep p src st (st'.leaf i).noText :=
  ⟨rfl, ⟨ha'.cur.add (.mk hi (by simp)), ha'.up⟩, fun n hn => .inl (hu ▸ hn)⟩

include ht

theorem lineRepl_ok : BOk p src st (lineRepl st) := by
  obtain ⟨h1, h2, h3⟩ := upto_props ha isDoc
  refine ⟨st.uptoBlock.leaf { kind := .line, content := some [] }, ?_,
    leaf_bstep hp ha h1 h2 (h3.trans ht) hp.line⟩
  simp [lineRepl, PS.checkText, ht, bind, Except.bind, pure, Except.pure]

theorem separatorRepl_ok : BOk p src st (separatorRepl st) := by
  obtain ⟨h1, h2, h3⟩ := upto_props ha isDoc
  refine ⟨st.uptoBlock.leaf { kind := .separator }, ?_,
    leaf_bstep hp ha h1 h2 (h3.trans ht) (hp.plain _ (by simp))⟩
  simp [separatorRepl, PS.checkText, ht, bind, Except.bind, pure, Except.pure]

omit ht in
theorem preBlockRepl_ok {w : Str} (hw : m.get .pre_block_text = some w) : BOk p src st (preBlockRepl m st) := by
  obtain ⟨h1, h2, h3⟩ := upto_props ha isDoc
  exact ⟨_, by unfold preBlockRepl; rw [need_of_get hw]; rfl, leaf_noText_bstep hp ha h1 h2 (hp.preBlock _)⟩

omit ht in
theorem headRepl_ok {w v : Str} (hw : m.get .head_text = some w) (hv : m.get .head_head = some v)
    (hv0 : v ≠ []) : BOk p src st (headRepl m st) := by
  obtain ⟨h1, h2, h3⟩ := upto_props ha isDoc
  refine ⟨_, by unfold headRepl; rw [need_of_get hw, need_of_get hv]; rfl, leaf_noText_bstep hp ha h1 h2 ?_⟩
  obtain ⟨n, hn⟩ : ∃ n, v.length = n + 1 := ⟨v.length - 1, by
    have : 0 < v.length := List.length_pos_iff.mpr hv0
    omega⟩
  rw [hn]
  exact hp.header _ _

omit ht in
theorem macroBlockRepl_ok {nm args txt : Str} (h1 : m.get .macro_block_start = some nm)
    (h2 : m.get .macro_block_args = some args) (h3 : m.get .macro_block_text = some txt)
    (hs : Called nm src) : BOk p src st (macroBlockRepl m st) := by
  obtain ⟨a1, a2, a3⟩ := upto_props ha isDoc
  have hc := climb_all (stop := fun _ => false) a1.cur a1.up
  obtain ⟨st', e, hst⟩ := addMacro_ok (st := { st.uptoBlock with
      cur := (climb (fun _ => false) st.uptoBlock.cur st.uptoBlock.up).1,
      up := (climb (fun _ => false) st.uptoBlock.cur st.uptoBlock.up).2 }) (src := src) (m := m)
    (k := .macro_block) (tk := some .macro_block_text) hp ⟨hc.1, hc.2⟩
    (.inr rfl) hs h1 h2 (by rintro g ⟨⟩; exact ⟨txt, h3⟩) hs
  refine ⟨st', e, ?_, hst.all, ?_⟩
  · unfold addMacro at e
    simp only [need_of_get h1, need_of_get h2, need_of_get h3] at e
    simp only [Except.map, bind, Except.bind, pure, Except.pure, Except.ok.injEq] at e
    rw [← e]
  · intro n hn
    rcases hst.used n hn with h | h
    · exact .inl (by rw [← a2]; exact h)
    · exact .inr h

omit ht in
theorem push_all' {i : Info} (hi : p i) : (st.push i).All p := by
  have := push_all ha hi
  exact ⟨this.cur, this.up⟩

theorem inlineIn_ok {st1 : PS} {w : Str} (hw : SubOf w src) (ha1 : st1.All p) (ht1 : TextOK st1)
    (hu : st1.used = st.used) : ∃ st2, parseInline w st1 = .ok st2 ∧ Step p src st1 st2 ∧
      BStep p src st st2.noText := by
  obtain ⟨st2, h1, h2⟩ := parseInline_ok hp hw ht1 ha1
  refine ⟨st2, h1, h2, rfl, ⟨h2.all.cur, h2.all.up⟩, ?_⟩
  intro n hn
  have := h2.used n hn
  rw [hu] at this
  exact this

theorem textRepl_ok {w : Str} (hw : m.get .text = some w) (hsub : SubOf w src) : BOk p src st (textRepl m st) := by
  unfold textRepl
  simp only [PS.checkText, ht, Bool.false_eq_true, if_false, bind, Except.bind]
  generalize hs1 : (if (decide (st.cur.kind = Kind.table) || decide (st.cur.kind = Kind.table_row) ||
    decide (st.cur.kind = Kind.bullet_list) || decide (st.cur.kind = Kind.number_list)) = true
    then st.uptoBlock else st) = st1
  have h1 : st1.All p ∧ st1.used = st.used ∧ st1.text = false := by
    rw [← hs1]
    split
    · obtain ⟨a1, a2, a3⟩ := upto_props ha isDoc
      exact ⟨a1, a2, by rw [← ht, ← a3]; rfl⟩
    · exact ⟨ha, rfl, ht⟩
  clear hs1
  generalize hs2 : (if isDoc st1.cur.kind = true then st1.push { kind := Kind.paragraph } else st1) = st2
  have h2 : st2.All p ∧ st2.used = st.used ∧ st2.text = false := by
    rw [← hs2]
    split
    · exact ⟨push_all' hp h1.1 (hp.plain _ (by simp)), h1.2.1, h1.2.2⟩
    · exact h1
  clear hs2
  simp only [need_of_get hw]
  generalize hs3 : (if (decide ((m.get G.space).getD [] ≠ []) && !st2.cur.children.isEmpty) = true
    then ' ' :: w else w) = w'
  have hsub' : SubOf w' src := by
    rw [← hs3]
    split
    · exact hsub.cons_space
    · exact hsub
  obtain ⟨st3, e1, e2, e3⟩ := inlineIn_ok hp ht ha hsub' h2.1 (textOK_of_false h2.2.2) h2.2.1
  rw [e1]
  refine ⟨_, rfl, ?_⟩
  split
  · exact ⟨rfl, ⟨e3.all.cur.add (.mk (hp.brk _) (by simp)), e3.all.up⟩, e3.used⟩
  · exact e3

omit ha in
theorem findList_all {level : Nat} : ∀ {up : List Frame} {f : Frame} {f' : Frame} {up' : List Frame}, f.All p →
    (∀ g ∈ up, g.All p) → findList level f up = some (f', up') → f'.All p ∧ ∀ g ∈ up', g.All p := by
  intro up
  induction up with
  | nil =>
    intro f f' up' hf hup h
    unfold findList at h
    split at h
    · simp at h; rw [← h.1, h.2]; exact ⟨hf, by simp⟩
    · simp at h
  | cons q up ih =>
    intro f f' up' hf hup h
    unfold findList at h
    split at h
    · simp at h; rw [← h.1, ← h.2]; exact ⟨hf, hup⟩
    · exact ih ((hup q (by simp)).add hf.close) (fun g hg => hup g (by simp [hg])) h

theorem itemRepl_ok {w v : Str} (hv : m.get .item_head = some v) (hv0 : v ≠ [])
    (hw : m.get .item_text = some w) (hsub : SubOf w src) : BOk p src st (itemRepl m st) := by
  unfold itemRepl
  simp only [PS.checkText, ht, Bool.false_eq_true, if_false, ok_bind, need_of_get hv, need_of_get hw]
  rw [List.getLast?_eq_some_getLast hv0]
  simp only
  generalize hk : (if v.getLast hv0 = '#' then Kind.number_list else Kind.bullet_list) = k
  have hk' : k = .number_list ∨ k = .bullet_list := by rw [← hk]; split <;> simp
  generalize hn : (st.upto fun k => decide (k = Kind.list_item) || isDoc k).push
    { kind := k, level := some (v.length - 1) } = nl
  have hnl : nl.All p ∧ nl.used = st.used ∧ nl.text = false := by
    obtain ⟨a1, a2, a3⟩ := upto_props ha (fun k => decide (k = Kind.list_item) || isDoc k)
    rw [← hn]
    exact ⟨push_all' hp a1 (hp.list _ _ hk'), a2, by rw [← ht, ← a3]; rfl⟩
  have key : ∀ st1 : PS, st1.All p ∧ st1.used = st.used ∧ st1.text = false → BOk p src st
      (parseInline w (st1.push { kind := Kind.list_item, level := some (v.length - 1 + 1) }) >>=
        fun st => pure st.noText) := by
    intro st1 h1
    have h2 := push_all' hp h1.1 (hp.item (v.length - 1))
    obtain ⟨st3, e1, e2, e3⟩ := inlineIn_ok hp ht ha hsub h2 (textOK_of_false h1.2.2) h1.2.1
    rw [e1]
    exact ⟨_, rfl, e3⟩
  cases hf : findList (v.length - 1) st.cur st.up with
  | none => exact key _ hnl
  | some fu =>
    obtain ⟨f, up⟩ := fu
    simp only
    split
    · obtain ⟨b1, b2⟩ := findList_all hp ht ha.cur ha.up hf
      exact key { cur := f, up := up, used := st.used } ⟨⟨b1, b2⟩, rfl, rfl⟩
    · exact key _ hnl

theorem subAll_bstep {r : R} {h : G → Match G → PS → PM} {raw : Str}
    (hh : ∀ m ∈ r.findAll raw, ∀ st : PS, st.text = false → st.All p →
      ∃ g, dispatch (groupOrder r) m = some g ∧ BOk p src st (h g m st)) :
    BOk p src st (subAll r h raw st) := by
  unfold subAll
  exact foldlM_ok (l := r.findAll raw) (I := fun s => BStep p src st s)
    (f := fun st m => match dispatch (groupOrder r) m with
      | some g => h g m st
      | none => .ok st) ⟨ht, ha, fun _ h => .inl h⟩ (by
    intro s m hm hs
    obtain ⟨g, hd, s', hs', hst⟩ := hh m hm s hs.text hs.all
    exact ⟨s', by simp only [hd]; exact hs', hs.trans hst⟩)

theorem listRepl_ok {w : Str} (hw : m.get .list = some w) (hsub : SubOf w src) : BOk p src st (listRepl m st) := by
  unfold listRepl
  simp only [need_of_get hw]
  refine subAll_bstep hp ht ha ?_
  intro m hm st ht ha
  have hm' : m ∈ (Re.alts [itemRe]).findAll w := hm
  obtain ⟨rule, hr, s', pre, rest, hh⟩ := findAll_alts (by simp) hm'
  simp only [List.mem_cons, List.not_mem_nil, or_false] at hr
  subst hr
  obtain ⟨v, hv⟩ := hh.get (g := .item_head) (by decide)
  obtain ⟨x, hx⟩ := hh.get (g := .item_text) (by decide)
  refine ⟨.item, hh.dispatch (by decide) (by decide), itemRepl_ok hp ht ha hv ?_ hx (hsub.infix (hh.infix hx))⟩
  have hg := hv
  unfold Match.get at hg
  rw [hh.caps] at hg
  obtain ⟨b, s1, s2, h1, h2, h3⟩ := capGet_body hh.mem hg
  simp [itemRe, Re.bodies, Re.cat, sps, Re.plus, anyDots, dot] at h1
  subst h1
  exact (plus_cls_all (g := true) h2 h3).1

omit ht in
theorem cellRepl_ok {row : Str} (hsub : SubOf row src) (hm : m ∈ cellRe.findAll row) :
    OkStep p src st (cellRepl st m) := by
  obtain ⟨rule, hr, s', pre, rest, hh⟩ := findAll_alts (l := [cellRe]) (by simp) hm
  simp only [List.mem_cons, List.not_mem_nil, or_false] at hr
  subst hr
  unfold cellRepl
  simp only
  split
  · rename_i hc
    have hsub' : SubOf (Py.strip ((m.get G.cell).getD [])) src := by
      cases hg : m.get G.cell with
      | none => simp [hg] at hc
      | some w => exact hsub.infix ((Py.strip_infix _).trans (hh.infix hg))
    obtain ⟨st1, h1, h2⟩ := parseInline_ok hp hsub' (noText_textOK _) (push_all ha (hp.plain .table_cell (by simp)))
    obtain ⟨st2, h3, h4⟩ := popTo_push h2 ha
    refine ⟨st2.noText, ?_, h4⟩
    simp only [bind, Except.bind, h1, h3]
    rfl
  · rename_i hc
    have hhead : ∃ w, m.get .head = some w := by
      have hmem := hh.mem
      unfold cellRe at hmem
      simp only [Re.cat] at hmem
      rw [mem_res_seq] at hmem
      obtain ⟨t1, q1, hmem⟩ := hmem
      rw [mem_res_seq] at hmem
      obtain ⟨t2, q2, hmem⟩ := hmem
      rw [mem_res_seq] at hmem
      obtain ⟨t3, q3, hmem⟩ := hmem
      rw [mem_res_alt] at q3
      rcases q3 with q3 | q3
      · have := Re.res_must q3 .head (by simp [Re.must])
        have := Re.res_caps_mono hmem this
        rw [← hh.caps, ← capGet_isSome_iff] at this
        exact Option.isSome_iff_exists.mp this
      · exfalso
        have := Re.res_must q3 .cell (by simp [Re.must])
        have := Re.res_caps_mono hmem this
        rw [← hh.caps, ← capGet_isSome_iff] at this
        obtain ⟨w, hw⟩ := Option.isSome_iff_exists.mp this
        have hw' := hw
        rw [hh.caps] at hw'
        obtain ⟨b, s1, s2, b1, b2, b3⟩ := capGet_body hh.mem hw'
        have hnn : b.nullable = false := by
          have : ∀ x ∈ cellRe.bodies, x.1 = .cell → x.2.nullable = false := by decide +kernel
          exact this _ b1 rfl
        have := Re.res_lt hnn b2
        have e := b3.rest
        have hg : m.get G.cell = some w := hw
        simp only [hg, Option.getD_some, ne_eq, Decidable.not_not] at hc
        rw [hc] at e
        simp at e
        rw [e] at this
        omega
    obtain ⟨w, hw⟩ := hhead
    simp only [need_of_get hw, bind, Except.bind]
    have hsub' : SubOf (Py.stripP (fun c => decide (c = '=') || decide (c = ' ')) w) src :=
      hsub.infix ((Py.stripP_infix _ _).trans (hh.infix hw))
    have ha1 : ({ (st.push { kind := .table_head }).leaf { kind := .text, content := some [] } with text := true } : PS).All p := by
      have := push_all' hp ha (hp.plain .table_head (by simp))
      exact ⟨this.cur.add (.mk (hp.text _) (by simp)), this.up⟩
    obtain ⟨st1, h1, h2⟩ := parseInline_ok hp hsub' (by intro _; exact ⟨[], [], rfl⟩) ha1
    have h2' : Step p src (st.push { kind := .table_head }).noText st1 :=
      ⟨h2.up, h2.info, h2.text, h2.all, h2.used⟩
    obtain ⟨st2, h3, h4⟩ := popTo_push h2' ha
    refine ⟨st2.noText, ?_, h4⟩
    rw [h1]
    simp only [h3]
    rfl

omit ht in
theorem tableRepl_ok {w : Str} (hw : m.get .table = some w) (hsub : SubOf w src) :
    BOk p src st (tableRepl m st) := by
  unfold tableRepl
  simp only [need_of_get hw, bind, Except.bind]
  obtain ⟨a1, a2, a3⟩ := upto_props ha (fun k => decide (k = Kind.table) || isDoc k)
  generalize (st.upto fun k => decide (k = Kind.table) || isDoc k) = st0 at a1 a2 a3
  generalize hs : (if st0.cur.kind = Kind.table then st0 else st0.push { kind := Kind.table }) = st1
  have h1 : st1.All p ∧ st1.used = st.used := by
    rw [← hs]
    split
    · exact ⟨a1, a2⟩
    · exact ⟨push_all' hp a1 (hp.plain _ (by simp)), a2⟩
  have ha1 := push_all h1.1 (hp.plain .table_row (by simp))
  -- the row: the text flag is reset before the first cell is filled
  have hfold : ∃ st2, (cellRe.findAll (Py.strip w)).foldlM cellRepl (st1.push { kind := .table_row }) = .ok st2 ∧
      (st2.up = (st1.push { kind := .table_row }).up ∧
       st2.cur.info = (st1.push { kind := .table_row }).cur.info ∧ st2.All p ∧
       ∀ n ∈ st2.used, n ∈ st1.used ∨ Called n src) := by
    refine foldlM_ok (I := fun s => s.up = (st1.push { kind := .table_row }).up ∧
       s.cur.info = (st1.push { kind := .table_row }).cur.info ∧ s.All p ∧
       ∀ n ∈ s.used, n ∈ st1.used ∨ Called n src) ?_ ?_
    · exact ⟨rfl, rfl, push_all' hp h1.1 (hp.plain _ (by simp)), fun _ h => .inl h⟩
    · rintro s m hm ⟨i1, i2, i3, i4⟩
      obtain ⟨s', e1, e2⟩ := cellRepl_ok hp i3 (hsub.infix (Py.strip_infix w)) hm
      refine ⟨s', e1, by rw [e2.up, i1], by rw [e2.info, i2], e2.all, ?_⟩
      intro n hn
      rcases e2.used n hn with h | h
      · exact i4 n h
      · exact .inr h
  obtain ⟨st2, e1, i1, i2, i3, i4⟩ := hfold
  have hst2 : Step p src (st1.push { kind := .table_row }).noText st2.noText :=
    ⟨i1, i2, noText_textOK _, ⟨i3.cur, i3.up⟩, i4⟩
  obtain ⟨st3, e3, e4⟩ := popTo_push hst2 h1.1
  have e5 : ∃ st4, st2.popTo st1.up.length = .ok st4 ∧ st4.noText = st3.noText := by
    have hn : st2.noText.popTo st1.up.length = (st2.popTo st1.up.length).map PS.noText := by
      unfold PS.popTo
      change (match popToAux st1.up.length st2.cur st2.up with | none => _ | some (f, up) => _) = _
      cases popToAux st1.up.length st2.cur st2.up <;> rfl
    rw [hn] at e3
    cases h : st2.popTo st1.up.length with
    | error e => rw [h] at e3; simp [Except.map] at e3
    | ok st4 =>
      rw [h] at e3
      simp only [Except.map, Except.ok.injEq] at e3
      exact ⟨st4, rfl, by rw [← e3]; rfl⟩
  obtain ⟨st4, e6, e7⟩ := e5
  refine ⟨st4.noText, ?_, ?_⟩
  · simp only [e1, e6]; rfl
  · rw [e7]
    exact ⟨rfl, e4.all, fun n hn => by
      rcases e4.used n hn with h | h
      · exact .inl (h1.2 ▸ h)
      · exact .inr h⟩

theorem blockRepl_rule {blog : Bool} {raw : Str} (hsub : SubOf raw src) {rule : R} (hr : rule ∈ blockRules blog) {s' : St G}
    {pre rest : Str} (hh : RuleHit rule raw m s' pre rest) :
    ∃ g, dispatch (groupOrder rule) m = some g ∧ BOk p src st (blockRepl g m st) := by
  simp only [blockRules, List.mem_cons, List.not_mem_nil, or_false] at hr
  rcases hr with rfl | rfl | rfl | rfl | rfl | rfl | rfl | rfl
  · obtain ⟨w1, h1⟩ := hh.get (g := .macro_block_start) (by decide)
    obtain ⟨w2, h2⟩ := hh.get (g := .macro_block_args) (by decide)
    obtain ⟨w3, h3⟩ := hh.get (g := .macro_block_text) (by decide)
    have h4 := hh.macroName (gap := sps) rfl (.inr rfl) (by decide) (by decide) hsub h1
    exact ⟨.macro_block, hh.dispatch (by decide) (by cases blog <;> decide), macroBlockRepl_ok hp ha h1 h2 h3 h4⟩
  · exact ⟨.line, hh.dispatch (by decide) (by cases blog <;> decide), lineRepl_ok hp ht ha⟩
  · obtain ⟨w, hw⟩ := hh.get (g := .head_text) (by decide)
    obtain ⟨v, hv⟩ := hh.get (g := .head_head) (by decide)
    refine ⟨.head, hh.dispatch (by decide) (by cases blog <;> decide), headRepl_ok hp ha hw hv ?_⟩
    have hg := hv
    unfold Match.get at hg
    rw [hh.caps] at hg
    obtain ⟨b, s1, s2, h1, h2, h3⟩ := capGet_body hh.mem hg
    simp [headRule, Re.bodies, Re.cat, sps, Re.plus, anyDots, dot, ch] at h1
    subst h1
    exact (plus_cls_all (g := true) h2 h3).1
  · exact ⟨.separator, hh.dispatch (by decide) (by cases blog <;> decide), separatorRepl_ok hp ht ha⟩
  · obtain ⟨w, hw⟩ := hh.get (g := .pre_block_text) (by decide)
    exact ⟨.pre_block, hh.dispatch (by decide) (by cases blog <;> decide), preBlockRepl_ok hp ha hw⟩
  · obtain ⟨w, hw⟩ := hh.get (g := .list) (by decide)
    exact ⟨.list, hh.dispatch (by decide) (by cases blog <;> decide), listRepl_ok hp ht ha hw (hsub.infix (hh.infix hw))⟩
  · obtain ⟨w, hw⟩ := hh.get (g := .table) (by decide)
    exact ⟨.table, hh.dispatch (by decide) (by cases blog <;> decide), tableRepl_ok hp ha hw (hsub.infix (hh.infix hw))⟩
  · obtain ⟨w, hw⟩ := hh.get (g := .text) (by cases blog <;> decide)
    obtain ⟨g, hd, hg⟩ := dispatch_names (r := textRule blog) hh (g0 := .text) (by cases blog <;> decide)
      (by cases blog <;> decide)
    refine ⟨g, hd, ?_⟩
    have h := textRepl_ok (src := src) hp ht ha hw (hsub.infix (hh.infix hw))
    have : g = .text ∨ g = .brk ∨ g = .space := by
      have h : ∀ x ∈ (textRule blog).names, x = .text ∨ x = .brk ∨ x = .space := by cases blog <;> decide
      exact h g hg
    rcases this with rfl | rfl | rfl <;> exact h

theorem blockRepl_ok {blog : Bool} {raw : Str} (hsub : SubOf raw src) (hm : m ∈ (blockRe blog).findAll raw) :
    ∃ g, dispatch (groupOrder (blockRe blog)) m = some g ∧ BOk p src st (blockRepl g m st) := by
  obtain ⟨rule, hr, s', pre, rest, hh⟩ := findAll_alts (by simp [blockRules]) hm
  rw [blockRe, hh.dispatch_alts hr (blockRules_apart blog rule hr)]
  exact blockRepl_rule hp ht ha hsub hr hh

theorem parseBlock_ok {blog : Bool} {raw : Str} (hsub : SubOf raw src) : BOk p src st (parseBlock blog raw st) := by
  unfold parseBlock
  refine subAll_bstep hp ht ha ?_
  intro m hm st ht ha
  exact blockRepl_ok hp ht ha hsub hm

end

/-- Parsing succeeds, every node of the tree satisfies `p`, and every macro name used occurs in the text. -/
theorem parse_ok {p : Info → Prop} {blog : Bool} {raw : Str} (hp : Allows p (Called · (normNewlines raw))) :
    ∃ d, parse blog raw = .ok d ∧ d.root.All p ∧
      ∀ n ∈ d.used, Called n (normNewlines raw) := by
  have h0 : PS.init.All p := ⟨⟨hp.plain _ (by simp), by simp [PS.init]⟩, by simp [PS.init]⟩
  obtain ⟨st, h1, h2⟩ := parseBlock_ok (blog := blog) hp rfl h0 (SubOf.refl (normNewlines raw))
  refine ⟨st.finish, by unfold parse; rw [h1]; rfl, (climb_all h2.all.cur h2.all.up).1.close, ?_⟩
  intro n hn
  rcases h2.used n hn with h | h
  · simp [PS.init] at h
  · exact h

end Verif.Creole
