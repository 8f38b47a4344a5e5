import Verif.Creole.BlockMatch

/-!
# Expressions that do not look beyond a part of the text

`Local r T s`: whether the text `T` follows or not, `r` matches in the same ways in the state `s`.
-/

namespace Verif.Creole

open Verif Re Py Spec Spec.Cr

/-- the same state with more text after it -/
def shift (T : Str) (s : St G) : St G := { s with rest := s.rest ++ T }

/-- all the ways to match are the same -/
def Local (r : R) (T : Str) (s : St G) : Prop := r.res (shift T s) = (r.res s).map (shift T)

/-- the first way to match is the same -/
def LocalH (r : R) (T : Str) (s : St G) : Prop := (r.res (shift T s)).head? = (r.res s).head?.map (shift T)

variable {T : Str} {s : St G}

theorem Local.head {r : R} (h : Local r T s) : LocalH r T s := by
  unfold Local at h
  unfold LocalH
  rw [h, List.head?_map]

theorem Local.seq {a b : R} (ha : Local a T s) (hb : ∀ x ∈ a.res s, Local b T x) : Local (.seq a b) T s := by
  unfold Local at *
  simp only [Re.res]
  rw [ha]
  generalize a.res s = l at hb
  induction l with
  | nil => rfl
  | cons x l ih =>
    simp only [List.map_cons, List.flatMap_cons, List.map_append]
    rw [hb x (by simp), ih fun y hy => hb y (by simp [hy])]

theorem Local.seqH {a b : R} (ha : Local a T s) (hb : ∀ x ∈ a.res s, LocalH b T x) : LocalH (.seq a b) T s := by
  unfold Local at ha
  unfold LocalH at *
  simp only [Re.res]
  rw [ha]
  generalize a.res s = l at hb
  induction l with
  | nil => rfl
  | cons x l ih =>
    simp only [List.map_cons, List.flatMap_cons, List.head?_append]
    rw [hb x (by simp), ih fun y hy => hb y (by simp [hy])]
    cases (b.res x).head? <;> rfl

theorem Local.alt {a b : R} (ha : Local a T s) (hb : Local b T s) : Local (.alt a b) T s := by
  unfold Local at *
  simp only [Re.res, ha, hb, List.map_append]

theorem consumed_shift {r : R} {x : St G} (h : x ∈ r.res s) :
    consumed (s.rest ++ T) (x.rest ++ T) = consumed s.rest x.rest := by
  obtain ⟨w, hw⟩ := Re.res_reach h
  rw [hw.rest, List.append_assoc, consumed_append, consumed_append]

theorem Local.grp {g : G} {a : R} (ha : Local a T s) : Local (.grp g a) T s := by
  unfold Local at *
  simp only [Re.res, ha, List.map_map]
  refine List.map_congr_left fun x hx => ?_
  simp only [Function.comp, shift]
  rw [consumed_shift hx]

theorem LocalH.grp {g : G} {a : R} (ha : LocalH a T s) : LocalH (.grp g a) T s := by
  unfold LocalH at *
  simp only [Re.res, List.head?_map, ha]
  cases h : (a.res s).head? with
  | none => rfl
  | some x =>
    simp only [Option.map_some, shift]
    rw [consumed_shift (r := a) (List.mem_of_head? h)]

theorem Local.eps : Local .eps T s := rfl

theorem Local.bol {m : Bool} : Local (.bol m) T s := by
  unfold Local
  simp only [Re.res]
  by_cases h : atBol m s.prev = true
  · rw [if_pos h, if_pos (show atBol m (shift T s).prev = true from h)]; rfl
  · rw [if_neg h, if_neg (show ¬ atBol m (shift T s).prev = true from h)]; rfl

theorem Local.behind {n : Bool} {cs : CSet} : Local (.behind n cs) T s := by
  unfold Local
  simp only [Re.res, shift]
  split <;> split <;> rfl

theorem Local.eol (hT : atEol true T = true) : Local (.eol true) T s := by
  unfold Local
  obtain ⟨p, r, caps⟩ := s
  cases r with
  | nil =>
    have h0 : atEol true [] = true := rfl
    simp [Re.res, shift, hT, h0]
  | cons c r =>
    simp only [Re.res, shift, List.cons_append, atEol, Bool.true_or, Bool.and_true]
    split <;> rfl

/-- there is a character before `T`, or `T` does not begin with a character of the class -/
theorem Local.cls {cs : CSet} (h : s.rest ≠ [] ∨ ∀ c t, T = c :: t → cs.mem c = false) : Local (.cls cs) T s := by
  unfold Local
  obtain ⟨p, r, caps⟩ := s
  cases r with
  | nil =>
    rcases h with h | h
    · exact absurd rfl h
    · cases T with
      | nil => rfl
      | cons c t => simp [Re.res, shift, h c t rfl]
  | cons c r =>
    simp only [Re.res, shift, List.cons_append]
    split <;> rfl

theorem Local.notAhead {a : R} (ha : Local a T s) : Local (.notAhead a) T s := by
  unfold Local at *
  simp only [Re.res, ha, List.isEmpty_map]
  split <;> rfl

theorem Local.lit (hT : atEol true T = true) : ∀ (w : Str), '\n' ∉ w → ∀ {s : St G}, Local (Re.lit w) T s
  | [], _, _ => .eps
  | [c], h, s => by
    refine .cls (.inr ?_)
    rintro d t rfl
    simp [atEol] at hT
    subst hT
    simp at h
    simp [CSet.mem, h]
  | c :: d :: w, h, s => by
    refine .seq (.cls (.inr ?_)) fun x _ => Local.lit hT (d :: w) (by simp at h ⊢; exact ⟨h.2.1, h.2.2⟩)
    rintro e t rfl
    simp [atEol] at hT
    subst hT
    simp at h
    simp [CSet.mem, h]

/-! ## Repetition -/

theorem starR_fuel {g : Bool} {b : R} (hn : b.nullable = false) : ∀ (n m : Nat) (s : St G), s.rest.length ≤ n → s.rest.length ≤ m →
    starR g b.res n s = starR g b.res m s := by
  intro n
  induction n with
  | zero =>
    intro m s h1 _
    cases m with
    | zero => rfl
    | succ m =>
      have : b.res s = [] := by
        cases hr : b.res s with
        | nil => rfl
        | cons x l =>
          have := Re.res_lt hn (s := s) (s' := x) (by rw [hr]; simp)
          omega
      simp [starR, this]
  | succ n ih =>
    intro m s h1 h2
    cases m with
    | zero =>
      have : b.res s = [] := by
        cases hr : b.res s with
        | nil => rfl
        | cons x l =>
          have := Re.res_lt hn (s := s) (s' := x) (by rw [hr]; simp)
          omega
      simp [starR, this]
    | succ m =>
      have : (b.res s).flatMap (starR g b.res n) = (b.res s).flatMap (starR g b.res m) := by
        have hlt : ∀ x ∈ b.res s, x.rest.length < s.rest.length := fun x hx => Re.res_lt hn hx
        generalize b.res s = l at hlt
        induction l with
        | nil => rfl
        | cons x l ihl =>
          rw [List.flatMap_cons, List.flatMap_cons, ihl fun y hy => hlt y (by simp [hy])]
          have := hlt x (by simp)
          rw [ih m x (by omega) (by omega)]
      simp [starR, this]

theorem star_unfold {g : Bool} {b : R} (hn : b.nullable = false) (s : St G) :
    (Re.star g b).res s = if g then (b.res s).flatMap (Re.star g b).res ++ [s] else s :: (b.res s).flatMap (Re.star g b).res := by
  have e : (Re.star g b).res s = starR g b.res (s.rest.length + 1) s := starR_fuel hn _ _ s (by omega) (by omega)
  have e2 : (b.res s).flatMap (starR g b.res s.rest.length) = (b.res s).flatMap (Re.star g b).res := by
    have hlt : ∀ x ∈ b.res s, x.rest.length < s.rest.length := fun x hx => Re.res_lt hn hx
    generalize b.res s = l at hlt
    induction l with
    | nil => rfl
    | cons x l ihl =>
      rw [List.flatMap_cons, List.flatMap_cons, ihl fun y hy => hlt y (by simp [hy])]
      have := hlt x (by simp)
      rw [starR_fuel hn _ x.rest.length x (by omega) (by omega)]
      rfl
  rw [e]
  simp only [starR, e2]

/-- a repetition is local if its body is, wherever the repetition can lead to -/
theorem Local.star {g : Bool} {b : R} (hn : b.nullable = false) (P : St G → Prop) (hP : ∀ x, P x → Local b T x)
    (hc : ∀ x, P x → ∀ y ∈ b.res x, P y) : ∀ {s : St G}, P s → Local (.star g b) T s := by
  have key : ∀ (n : Nat) (s : St G), s.rest.length ≤ n → P s → Local (.star g b) T s := by
    intro n
    induction n with
    | zero =>
      intro s hs hp
      have h0 : b.res s = [] := by
        cases hr : b.res s with
        | nil => rfl
        | cons x l =>
          have := Re.res_lt hn (s := s) (s' := x) (by rw [hr]; simp)
          omega
      have h1 := hP s hp
      unfold Local at h1 ⊢
      rw [star_unfold hn, star_unfold hn, h1, h0]
      cases g <;> rfl
    | succ n ih =>
      intro s hs hp
      have h1 := hP s hp
      unfold Local at h1 ⊢
      rw [star_unfold hn, star_unfold hn, h1]
      have h2 : ((b.res s).map (shift T)).flatMap (Re.star g b).res = ((b.res s).flatMap (Re.star g b).res).map (shift T) := by
        have hl : ∀ x ∈ b.res s, Local (.star g b) T x := by
          intro x hx
          have := Re.res_lt hn hx
          exact ih x (by omega) (hc s hp x hx)
        generalize b.res s = l at hl
        induction l with
        | nil => rfl
        | cons x l ihl =>
          rw [List.map_cons, List.flatMap_cons, List.flatMap_cons, List.map_append, ihl fun y hy => hl y (by simp [hy])]
          have := hl x (by simp)
          unfold Local at this
          rw [this]
      rw [h2]
      cases g <;> simp
  intro s hs
  exact key _ s (Nat.le_refl _) hs

/-- repetition of a class that does not contain the newline -/
theorem Local.starLine {g : Bool} {cs : CSet} (hT : atEol true T = true) (hcs : cs.mem '\n' = false) : Local (.star g (.cls cs)) T s := by
  refine Local.star rfl (fun _ => True) (fun x _ => .cls (.inr ?_)) (fun _ _ _ _ => trivial) trivial
  rintro c t rfl
  simp [atEol] at hT
  rw [hT]; exact hcs

/-- repetition of a class, if a character of another class comes before `T` -/
theorem Local.starStop {g : Bool} {cs : CSet} (h : ∃ d ∈ s.rest, cs.mem d = false) : Local (.star g (.cls cs)) T s := by
  refine Local.star rfl (fun x => ∃ d ∈ x.rest, cs.mem d = false) (fun x hx => .cls (.inl ?_)) ?_ h
  · obtain ⟨d, hd, _⟩ := hx
    intro h0; rw [h0] at hd; simp at hd
  · rintro x ⟨d, hd, hm⟩ y hy
    rw [mem_res_cls] at hy
    obtain ⟨c, r, h1, h2, rfl⟩ := hy
    rw [h1] at hd
    simp only [List.mem_cons] at hd
    rcases hd with rfl | hd
    · rw [h2] at hm; simp at hm
    · exact ⟨d, hd, hm⟩

theorem Local.dots {g : Bool} (hT : atEol true T = true) : Local (.star g dot) T s := .starLine hT (by decide)

theorem Local.plusDots (hT : atEol true T = true) : Local (.plus true dot) T s := by
  refine .seq (.cls (.inr ?_)) fun _ _ => .dots hT
  rintro c t rfl
  simp [atEol] at hT
  rw [hT]; decide

theorem Local.sps (h : ∃ d ∈ s.rest, isSpace d = false) : Local sps T s := .starStop h

theorem Local.opt {a : R} (ha : Local a T s) : Local (Re.opt a) T s := .alt ha .eps

end Verif.Creole
