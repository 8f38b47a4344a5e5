import Verif.Creole.ReCover

/-!
# How much the groups capture

The groups of a match stand next to each other in the text, with the markup between them.
-/

namespace Verif

open Py Creole

variable {γ : Type} [DecidableEq γ]

/-- `b g = some x`: the group `g` is counted, and `x` characters more -/
def Re.spare (b : γ → Option Int) : Re γ → Int
  | .cls _ => 1
  | .seq r q => r.spare b + q.spare b
  | .alt r q => min (r.spare b) (q.spare b)
  | .grp g r => match b g with | some x => -x | none => r.spare b
  | .eps | .bref _ | .bol _ | .eol _ | .behind _ _ | .notAhead _ | .star _ _ => 0

/-- the counted groups are neither inside of each other nor repeated -/
def Re.fair (b : γ → Option Int) : Re γ → Bool
  | .seq r q | .alt r q => r.fair b && q.fair b
  | .star _ r => r.names.all fun g => (b g).isNone
  | .grp g r => if (b g).isSome then r.names.all fun g => (b g).isNone else r.fair b
  | _ => true

/-- what the counted groups have captured -/
def capSum (b : γ → Option Int) : List (γ × Str) → Int
  | [] => 0
  | (g, w) :: l => (match b g with | some x => x + w.length | none => 0) + capSum b l

omit [DecidableEq γ] in
theorem capSum_none {b : γ → Option Int} {new : List (γ × Str)} {ns : List γ} (hm : ∀ x ∈ new, x.1 ∈ ns)
    (h : (ns.all fun g => (b g).isNone) = true) (caps : List (γ × Str)) : capSum b (new ++ caps) = capSum b caps := by
  induction new with
  | nil => rfl
  | cons x new ih =>
    obtain ⟨g, w⟩ := x
    have h1 := (List.all_eq_true.mp h) g (hm (g, w) List.mem_cons_self)
    rw [Option.isNone_iff_eq_none] at h1
    rw [List.cons_append, capSum, h1, ih fun x hx => hm x (List.mem_cons_of_mem _ hx)]
    simp

theorem Re.res_le {r : Re γ} {s s' : St γ} (h : s' ∈ r.res s) : s'.rest.length ≤ s.rest.length := by
  obtain ⟨w, hw⟩ := Re.res_reach h
  rw [hw.rest]; simp

/-- the counted groups capture no more than there is -/
theorem Re.res_room {b : γ → Option Int} {r : Re γ} (hf : r.fair b = true) {s s' : St γ} (h : s' ∈ r.res s) :
    capSum b s'.caps + r.spare b ≤ capSum b s.caps + (s.rest.length - s'.rest.length : Int) := by
  have plain : ∀ {q : Re γ} {s s' : St γ}, s' ∈ q.res s → (q.names.all fun g => (b g).isNone) = true →
      capSum b s'.caps = capSum b s.caps := by
    intro q s s' h hq
    obtain ⟨new, h1, h2⟩ := Re.res_new h
    rw [h1]
    exact capSum_none h2 hq _
  induction r generalizing s s' with
  | cls cs =>
    rw [mem_res_cls] at h
    obtain ⟨c, r, h1, _, rfl⟩ := h
    rw [Re.spare, h1]
    simp only [List.length_cons]
    omega
  | seq p q ihp ihq =>
    rw [mem_res_seq] at h
    obtain ⟨t, h1, h2⟩ := h
    rw [Re.fair, Bool.and_eq_true] at hf
    have := ihp hf.1 h1
    have := ihq hf.2 h2
    rw [Re.spare]
    omega
  | alt p q ihp ihq =>
    rw [Re.fair, Bool.and_eq_true] at hf
    rw [Re.spare]
    rw [mem_res_alt] at h
    rcases h with h | h
    · have := ihp hf.1 h; omega
    · have := ihq hf.2 h; omega
  | star g p ih =>
    rw [Re.fair] at hf
    have h1 := plain h hf
    have h2 := Re.res_le h
    rw [Re.spare, h1]
    omega
  | grp g p ih =>
    rw [mem_res_grp] at h
    obtain ⟨t, ht, rfl⟩ := h
    rw [Re.fair] at hf
    rw [Re.spare, capSum]
    have h2 := Re.res_le ht
    cases hb : b g with
    | none =>
      rw [hb] at hf
      have := ih (by simpa using hf) ht
      simp only
      omega
    | some x =>
      rw [hb] at hf
      have h1 := plain ht (by simpa using hf)
      rw [h1]
      have h3 : (consumed s.rest t.rest).length = s.rest.length - t.rest.length := by
        rw [consumed, List.length_take]; omega
      simp only [h3]
      omega
  | eps => have := plain h rfl; have := Re.res_le h; rw [Re.spare]; omega
  | bref g => have := plain h rfl; have := Re.res_le h; rw [Re.spare]; omega
  | bol mu => have := plain h rfl; have := Re.res_le h; rw [Re.spare]; omega
  | eol mu => have := plain h rfl; have := Re.res_le h; rw [Re.spare]; omega
  | behind neg cs => have := plain h rfl; have := Re.res_le h; rw [Re.spare]; omega
  | notAhead p _ =>
    rw [mem_res_notAhead] at h
    obtain ⟨_, rfl⟩ := h
    rw [Re.spare]; omega

/-- the counted groups of a match -/
theorem Re.findAll_room {b : γ → Option Int} {r : Re γ} (hf : r.fair b = true) (hs : 0 ≤ r.spare b) {raw : Str} {m : Match γ}
    (h : m ∈ r.findAll raw) : capSum b m.caps ≤ m.text.length := by
  obtain ⟨pre, rest, prev, s', h1, h2, h3, h4, h5⟩ := (Re.findAll_hit h).ex
  have := Re.res_room hf h2
  rw [h3]
  simp only [capSum, h4, List.length_append] at this
  omega


omit [DecidableEq γ] in
theorem capSum_nonneg {b : γ → Option Int} (hb : ∀ g x, b g = some x → 0 ≤ x) : ∀ caps : List (γ × Str), 0 ≤ capSum b caps
  | [] => Int.le_refl 0
  | (g, w) :: l => by
    have := capSum_nonneg hb l
    rw [capSum]
    cases h : b g with
    | none => simp only; omega
    | some x => have := hb g x h; simp only; omega

theorem capSum_get {b : γ → Option Int} (hb : ∀ g x, b g = some x → 0 ≤ x) {g : γ} {x : Int} (hg : b g = some x) {w : Str} :
    ∀ {caps : List (γ × Str)}, capGet g caps = some w → x + w.length ≤ capSum b caps
  | [], h => by cases h
  | (k, v) :: l, h => by
    have h0 := capSum_nonneg hb l
    rw [capGet, List.lookup_cons] at h
    rw [capSum]
    split at h
    · next he =>
      rw [beq_iff_eq] at he
      cases h
      rw [← he, hg]
      simp only; omega
    · have := capSum_get hb hg (w := w) (caps := l) h
      cases hk : b k with
      | none => simp only; omega
      | some y => have := hb k y hk; simp only; omega

theorem capSum_get₂ {b : γ → Option Int} (hb : ∀ g x, b g = some x → 0 ≤ x) {g g' : γ} (hne : g ≠ g') {x x' : Int} (hg : b g = some x)
    (hg' : b g' = some x') {w w' : Str} :
    ∀ {caps : List (γ × Str)}, capGet g caps = some w → capGet g' caps = some w' → x + w.length + (x' + w'.length) ≤ capSum b caps
  | [], h, _ => by cases h
  | (k, v) :: l, h, h' => by
    have h0 := capSum_nonneg hb l
    have e := h
    have e' := h'
    rw [capGet, List.lookup_cons] at h h'
    rw [capSum]
    by_cases h1 : g = k
    · subst h1
      simp only [beq_self_eq_true] at h
      cases h
      have h2 : (g' == g) = false := by simpa using Ne.symm hne
      rw [h2] at h'
      have := capSum_get hb hg' (w := w') (caps := l) h'
      rw [hg]; simp only; omega
    · have h2 : (g == k) = false := by simpa using h1
      rw [h2] at h
      by_cases h3 : g' = k
      · subst h3
        simp only [beq_self_eq_true] at h'
        cases h'
        have := capSum_get hb hg (w := w) (caps := l) h
        rw [hg']; simp only; omega
      · have h4 : (g' == k) = false := by simpa using h3
        rw [h4] at h'
        have := capSum_get₂ hb hne hg hg' (w := w) (w' := w') (caps := l) h h'
        cases hk : b k with
        | none => simp only; omega
        | some y => have := hb k y hk; simp only; omega

theorem capSum_get₃ {b : γ → Option Int} (hb : ∀ g x, b g = some x → 0 ≤ x) {g g' g'' : γ} (hne : g ≠ g') (hne' : g ≠ g'') (hne'' : g' ≠ g'')
    {x x' x'' : Int} (hg : b g = some x) (hg' : b g' = some x') (hg'' : b g'' = some x'') {w w' w'' : Str} :
    ∀ {caps : List (γ × Str)}, capGet g caps = some w → capGet g' caps = some w' → capGet g'' caps = some w'' →
      x + w.length + (x' + w'.length) + (x'' + w''.length) ≤ capSum b caps
  | [], h, _, _ => by cases h
  | (k, v) :: l, h, h', h'' => by
    rw [capGet, List.lookup_cons] at h h' h''
    rw [capSum]
    by_cases h1 : g = k
    · subst h1
      simp only [beq_self_eq_true] at h
      cases h
      rw [show (g' == g) = false by simpa using Ne.symm hne] at h'
      rw [show (g'' == g) = false by simpa using Ne.symm hne'] at h''
      have := capSum_get₂ hb hne'' hg' hg'' (caps := l) h' h''
      rw [hg]; simp only; omega
    · rw [show (g == k) = false by simpa using h1] at h
      by_cases h3 : g' = k
      · subst h3
        simp only [beq_self_eq_true] at h'
        cases h'
        rw [show (g'' == g') = false by simpa using Ne.symm hne''] at h''
        have := capSum_get₂ hb hne' hg hg'' (caps := l) h h''
        rw [hg']; simp only; omega
      · rw [show (g' == k) = false by simpa using h3] at h'
        by_cases h5 : g'' = k
        · subst h5
          simp only [beq_self_eq_true] at h''
          cases h''
          have := capSum_get₂ hb hne hg hg' (caps := l) h h'
          rw [hg'']; simp only; omega
        · rw [show (g'' == k) = false by simpa using h5] at h''
          have := capSum_get₃ hb hne hne' hne'' hg hg' hg'' (caps := l) h h' h''
          cases hk : b k with
          | none => simp only; omega
          | some y => have := hb k y hk; simp only; omega

/-! ## The matches of a text -/

omit [DecidableEq γ] in
theorem sum_hits (k : Match γ → Nat) (l : List (Seg γ)) (hk : ∀ m, k m ≤ m.text.length) :
    ((l.filterMap fun | .skip _ => none | .hit m => some m).map k).sum ≤ (l.flatMap Seg.text).length := by
  induction l with
  | nil => simp
  | cons x l ih =>
    cases x with
    | skip c => simp only [List.filterMap_cons, List.flatMap_cons, List.length_append]; omega
    | hit m =>
      have := hk m
      simp only [List.filterMap_cons, List.flatMap_cons, List.length_append, List.map_cons, List.sum_cons, Seg.text]; omega

/-- the matches stand one after the other in the text -/
theorem Re.findAll_sum (r : Re γ) (raw : Str) : ((r.findAll raw).map fun m => m.text.length).sum ≤ raw.length := by
  have := sum_hits (fun m => m.text.length) (r.scan raw) (fun _ => Nat.le_refl _)
  rw [Re.scan_text] at this
  exact this

theorem Re.scanAux_count (r : Re γ) : ∀ (rest : Str) (prev : Option Char) (k : Nat),
    ((r.scanAux prev rest k).filterMap fun | .skip _ => none | .hit m => some m).length ≤ 2 * rest.length + 1 := by
  intro rest
  induction rest with
  | nil =>
    intro prev k
    simp only [Re.scanAux]
    split <;> simp
  | cons c cs ih =>
    intro prev k
    cases k with
    | succ k => simp only [Re.scanAux, List.length_cons]; have := ih (some c) k; omega
    | zero =>
      simp only [Re.scanAux]
      split
      · have := ih (some c) 0; simp only [List.filterMap_cons, List.length_cons]; omega
      · split
        · split
          · have := ih (some c) 0; simp only [List.filterMap_cons, List.length_cons]; omega
          · next s'' _ =>
            have := ih (some c) ((c :: cs).length - s''.rest.length - 1)
            simp only [List.filterMap_cons, List.length_cons] at this ⊢; omega
        · next s' _ _ =>
          have := ih (some c) ((c :: cs).length - s'.rest.length - 1)
          simp only [List.filterMap_cons, List.length_cons] at this ⊢; omega

/-- there are not many matches -/
theorem Re.findAll_count (r : Re γ) (raw : Str) : (r.findAll raw).length ≤ 2 * raw.length + 1 := Re.scanAux_count r raw none 0

/-- a match of an expression that is not nullable is not empty -/
theorem Re.findAll_pos {r : Re γ} (hn : r.nullable = false) {raw : Str} {m : Match γ} (h : m ∈ r.findAll raw) : 0 < m.text.length := by
  obtain ⟨pre, rest, prev, s', h1, h2, h3, h4, h5⟩ := (Re.findAll_hit h).ex
  have := Re.res_lt hn h2
  simp only [h4, List.length_append] at this
  omega

end Verif
