import Verif.Creole.EmitterLemmas

/-!
# Helper lemmas about the table of contents
-/

namespace Verif.Creole

open Verif Py

/-! ## Specification: reading a nested list -/

mutual
/-- the strings of a nested list in order, each with the number of lists around it -/
def Nest.read (depth : Nat) : Nest → List (Nat × Str)
  | .str s => [(depth, s)]
  | .list l => Nest.reads (depth + 1) l
def Nest.reads (depth : Nat) : List Nest → List (Nat × Str)
  | [] => []
  | a :: l => a.read depth ++ Nest.reads depth l
end

def Nest.isList : Nest → Bool
  | .list _ => true
  | .str _ => false

/-- no list directly follows another list: consecutive entries share as many lists as they can -/
def Nest.noTwoLists : List Nest → Bool
  | a :: b :: l => !(a.isList && b.isList) && Nest.noTwoLists (b :: l)
  | _ => true

mutual
/-- everywhere inside: lists are not empty, and no list directly follows another list -/
def Nest.tidy : Nest → Bool
  | .str _ => true
  | .list l => !l.isEmpty && Nest.noTwoLists l && Nest.tidys l
def Nest.tidys : List Nest → Bool
  | [] => true
  | a :: l => a.tidy && Nest.tidys l
end

/-! ## The loop -/

theorem reads_append (d : Nat) (a b : List Nest) : Nest.reads d (a ++ b) = Nest.reads d a ++ Nest.reads d b := by
  induction a with
  | nil => simp [Nest.reads]
  | cons x a ih => simp [Nest.reads, ih]

theorem tidys_append (a b : List Nest) : Nest.tidys (a ++ b) = (Nest.tidys a && Nest.tidys b) := by
  induction a with
  | nil => simp [Nest.tidys]
  | cons x a ih => simp [Nest.tidys, ih, Bool.and_assoc]

/-- the last element is not a list -/
def lastNoList (a : List Nest) : Prop := ∀ x, a.getLast? = some x → x.isList = false

theorem noTwoLists_concat {a : List Nest} {x : Nest} (h : Nest.noTwoLists a = true)
    (hl : lastNoList a ∨ x.isList = false) : Nest.noTwoLists (a ++ [x]) = true := by
  induction a with
  | nil => simp [Nest.noTwoLists]
  | cons b a ih =>
    cases a with
    | nil =>
      simp only [List.cons_append, List.nil_append, Nest.noTwoLists, Bool.and_true, Bool.not_eq_true',
        Bool.and_eq_false_iff]
      rcases hl with hl | hl
      · exact .inl (hl b rfl)
      · exact .inr hl
    | cons c a =>
      simp only [Nest.noTwoLists, Bool.and_eq_true] at h
      simp only [List.cons_append, Nest.noTwoLists, Bool.and_eq_true]
      refine ⟨h.1, ih h.2 ?_⟩
      rcases hl with hl | hl
      · exact .inl (fun y hy => hl y (by simpa using hy))
      · exact .inr hl

/-- reading the lists on the stack, outermost first -/
def readStack : NestStack → List (Nat × Str)
  | [] => []
  | a :: s => readStack s ++ Nest.reads (s.length + 1) a

/-- lists below the innermost one end in a string; all contents are tidy -/
structure StackOK (s : NestStack) : Prop where
  tidy : ∀ a ∈ s, Nest.noTwoLists a = true ∧ Nest.tidys a = true
  last : ∀ a ∈ s.tail, lastNoList a

theorem nestOpen_props : ∀ (k : Nat) (s : NestStack), s ≠ [] → StackOK s → (∀ a ∈ s, lastNoList a) →
    (nestOpen k s).length = s.length + k ∧ readStack (nestOpen k s) = readStack s ∧
    StackOK (nestOpen k s) ∧ (∀ a ∈ nestOpen k s, lastNoList a) := by
  intro k
  induction k with
  | zero => intro s _ h1 h2; simp [nestOpen]; exact ⟨h1, h2⟩
  | succ k ih =>
    intro s hs h1 h2
    have h3 : StackOK ([] :: s) := ⟨by
      intro a ha
      simp only [List.mem_cons] at ha
      rcases ha with rfl | ha
      · simp [Nest.noTwoLists, Nest.tidys]
      · exact h1.tidy a ha, fun a ha => h2 a (by simpa using ha)⟩
    have h4 : ∀ a ∈ ([] : List Nest) :: s, lastNoList a := by
      intro a ha
      simp only [List.mem_cons] at ha
      rcases ha with rfl | ha
      · intro x hx; simp at hx
      · exact h2 a ha
    obtain ⟨e1, e2, e3, e4⟩ := ih ([] :: s) (by simp) h3 h4
    unfold nestOpen
    refine ⟨by rw [e1]; simp; omega, by rw [e2]; simp [readStack, Nest.reads], e3, e4⟩

theorem nestClose_props : ∀ (k : Nat) (s : NestStack), k < s.length → StackOK s → (∀ a, s.head? = some a → s.length > 1 → a ≠ []) →
    (nestClose k s).length = s.length - k ∧ readStack (nestClose k s) = readStack s ∧ StackOK (nestClose k s) := by
  intro k
  induction k with
  | zero => intro s _ h1 _; simp [nestClose]; exact h1
  | succ k ih =>
    intro s hk h1 h2
    match s, hk, h1, h2 with
    | a :: b :: s, hk, h1, h2 =>
      have hne : a ≠ [] := h2 a rfl (by simp)
      have ha := h1.tidy a (by simp)
      have hb := h1.tidy b (by simp)
      have h3 : StackOK ((b ++ [Nest.list a]) :: s) := by
        constructor
        · intro c hc
          simp only [List.mem_cons] at hc
          rcases hc with rfl | hc
          · refine ⟨noTwoLists_concat hb.1 (.inl (h1.last b (by simp))), ?_⟩
            rw [tidys_append, hb.2]
            simp [Nest.tidys, Nest.tidy, ha.1, ha.2, hne]
          · exact h1.tidy c (by simp [hc])
        · intro c hc
          exact h1.last c (by simp only [List.tail_cons] at hc ⊢; simp [hc])
      obtain ⟨e1, e2, e3⟩ := ih ((b ++ [Nest.list a]) :: s) (by simp at hk ⊢; omega) h3 (by
        intro c hc _; simp at hc; subst hc; simp)
      unfold nestClose
      refine ⟨by rw [e1]; simp, ?_, e3⟩
      rw [e2]
      simp only [readStack, reads_append, Nest.reads, Nest.read, List.length_cons, List.append_nil, List.append_assoc]

/-- the state of the loop after some headlines -/
structure LoopOK (s : NestStack) (l : List (Nat × Str)) : Prop where
  ne : s ≠ []
  ok : StackOK s
  last : ∀ a ∈ s, lastNoList a
  top : ∀ a, s.head? = some a → s.length > 1 → a ≠ []
  read : readStack s = l

theorem nestStep_ok {s : NestStack} {l : List (Nat × Str)} {x : Nat × Str} (h : LoopOK s l) (hx : 1 ≤ x.1) :
    ∃ s', nestStep s x = .ok s' ∧ LoopOK s' (l ++ [x]) := by
  have hlen : 0 < s.length := List.length_pos_iff.mpr h.ne
  -- the stack after adjusting the depth
  have key : ∃ t, (if x.1 > s.length then nestOpen (x.1 - s.length) s
      else if x.1 < s.length then nestClose (s.length - x.1) s else s) = t ∧ t.length = x.1 ∧
      readStack t = l ∧ StackOK t := by
    refine ⟨_, rfl, ?_⟩
    split
    · obtain ⟨e1, e2, e3, _⟩ := nestOpen_props (x.1 - s.length) s h.ne h.ok h.last
      exact ⟨by rw [e1]; omega, by rw [e2, h.read], e3⟩
    · split
      · obtain ⟨e1, e2, e3⟩ := nestClose_props (s.length - x.1) s (by omega) h.ok h.top
        exact ⟨by rw [e1]; omega, by rw [e2, h.read], e3⟩
      · exact ⟨by omega, h.read, h.ok⟩
  obtain ⟨t, e1, e2, e3, e4⟩ := key
  unfold nestStep
  rw [if_neg (by omega)]
  simp only [e1]
  match t, e2, e3, e4 with
  | [], e2, _, _ => simp at e2; omega
  | a :: t, e2, e3, e4 =>
    refine ⟨(a ++ [.str x.2]) :: t, rfl, by simp, ⟨?_, ?_⟩, ?_, ?_, ?_⟩
    · intro c hc
      simp only [List.mem_cons] at hc
      rcases hc with rfl | hc
      · have := e4.tidy a (by simp)
        exact ⟨noTwoLists_concat this.1 (.inr rfl), by rw [tidys_append, this.2]; simp [Nest.tidys, Nest.tidy]⟩
      · exact e4.tidy c (by simp [hc])
    · intro c hc; exact e4.last c (by simpa using hc)
    · intro c hc
      simp only [List.mem_cons] at hc
      rcases hc with rfl | hc
      · intro y hy; simp at hy; subst hy; rfl
      · exact e4.last c (by simpa using hc)
    · intro c hc _; simp at hc; subst hc; simp
    · simp only [readStack, reads_append, Nest.reads, Nest.read, List.append_nil] at e3 ⊢
      simp at e2
      rw [← List.append_assoc, e3, e2]

theorem foldlM_nestStep : ∀ (l : List (Nat × Str)) {s : NestStack} {l0 : List (Nat × Str)}, LoopOK s l0 →
    (∀ x ∈ l, 1 ≤ x.1) → ∃ s', l.foldlM nestStep s = .ok s' ∧ LoopOK s' (l0 ++ l) := by
  intro l
  induction l with
  | nil => intro s l0 h _; exact ⟨s, rfl, by simpa using h⟩
  | cons x l ih =>
    intro s l0 h hx
    obtain ⟨s1, e1, e2⟩ := nestStep_ok h (hx x (by simp))
    obtain ⟨s2, e3, e4⟩ := ih e2 (fun y hy => hx y (by simp [hy]))
    refine ⟨s2, ?_, by simpa using e4⟩
    rw [List.foldlM_cons, e1]; exact e3

/-- `flat_list2nest_list` on levels ≥ 1 -/
theorem flatToNest_spec (l : List (Nat × Str)) (hl : ∀ x ∈ l, 1 ≤ x.1) :
    ∃ a, flatToNest l = .ok (.list a) ∧ Nest.read 0 (.list a) = l ∧ Nest.noTwoLists a = true ∧
      Nest.tidys a = true := by
  have h0 : LoopOK [[]] [] := by
    refine ⟨by simp, ⟨?_, by simp⟩, ?_, ?_, rfl⟩
    · intro a ha; simp at ha; subst ha; simp [Nest.noTwoLists, Nest.tidys]
    · intro a ha; simp at ha; subst ha; intro x hx; simp at hx
    · intro a _ h; simp at h
  obtain ⟨s, e1, e2⟩ := foldlM_nestStep l h0 hl
  have hlen : 0 < s.length := List.length_pos_iff.mpr e2.ne
  obtain ⟨c1, c2, c3⟩ := nestClose_props (s.length - 1) s (by omega) e2.ok e2.top
  unfold flatToNest
  simp only [e1, bind, Except.bind]
  match hm : nestClose (s.length - 1) s, c1, c2, c3 with
  | [], c1, _, _ => simp at c1; omega
  | [a], c1, c2, c3 =>
    refine ⟨a, rfl, ?_, c3.tidy a (by simp)⟩
    rw [e2.read] at c2
    simpa [readStack, Nest.read] using c2
  | a :: b :: t, c1, _, _ => simp at c1; omega

end Verif.Creole
