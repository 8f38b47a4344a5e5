import Verif.Emit.GrowParse

/-!
# How large the document tree becomes (2)
-/

namespace Verif.Emit.Gr

open Verif Py Html

/-! ## Sizes as collected lists -/

def marks (i : HInfo) : List Unit := List.replicate (ownSize i) ()

mutual
theorem treeSize_coll : ∀ n : HNode, (coll marks n).length = treeSize n
  | .mk i ch => by rw [coll, treeSize, List.length_append, treesSize_coll ch, marks, List.length_replicate]
theorem treesSize_coll : ∀ ns : List HNode, (collL marks ns).length = treesSize ns
  | [] => rfl
  | n :: ns => by rw [collL, treesSize, List.length_append, treeSize_coll n, treesSize_coll ns]
end

/-- the level of a node is at most `M` -/
def FineI (M : Nat) (i : HInfo) : Prop := ∀ l, i.level = some l → l.natAbs ≤ M

mutual
/-- the levels of the nodes are at most `M` -/
def Fine (M : Nat) : HNode → Prop
  | .mk i ch => FineI M i ∧ FineL M ch
def FineL (M : Nat) : List HNode → Prop
  | [] => True
  | n :: ns => Fine M n ∧ FineL M ns
end

mutual
theorem fine_coll {M : Nat} : ∀ n : HNode, (∀ i ∈ coll (fun i => [i]) n, FineI M i) → Fine M n
  | .mk i ch, h => by
    rw [Fine]
    rw [coll] at h
    exact ⟨h i (by simp), fineL_coll ch fun j hj => h j (by simp [hj])⟩
theorem fineL_coll {M : Nat} : ∀ ns : List HNode, (∀ i ∈ collL (fun i => [i]) ns, FineI M i) → FineL M ns
  | [], _ => trivial
  | n :: ns, h => by
    rw [FineL]
    rw [collL] at h
    exact ⟨fine_coll n fun j hj => h j (by simp [hj]), fineL_coll ns fun j hj => h j (by simp [hj])⟩
end

theorem ex_bind {α β : Type} {x : Except PyErr α} {f : α → Except PyErr β} {b : β} (h : x >>= f = .ok b) : ∃ a, x = .ok a ∧ f a = .ok b := by
  cases x with
  | error e => cases h
  | ok a => exact ⟨a, rfl, h⟩

theorem dictSet_size (k : Str) (v : Option Str) : ∀ d : Dict (Option Str), attrSize (dictSet k v d) ≤ attrSize d + (k.length + (v.getD []).length + 1)
  | [] => by simp only [dictSet, attrSize]; omega
  | (k', v') :: d => by
    rw [dictSet]
    split
    · simp only [attrSize]; omega
    · have := dictSet_size k v d
      simp only [attrSize]; omega

theorem dictOf_size (l : List (Str × Option Str)) : attrSize (dictOf l) ≤ attrSize l := by
  have : ∀ (l : List (Str × Option Str)) (d : Dict (Option Str)), attrSize (l.foldl (fun d (k, v) => dictSet k v d) d) ≤ attrSize d + attrSize l := by
    intro l
    induction l with
    | nil => intro d; exact Nat.le_refl _
    | cons x l ih =>
      obtain ⟨k, v⟩ := x
      intro d
      have h1 := ih (dictSet k v d)
      have h2 := dictSet_size k v d
      rw [List.foldl_cons, attrSize]
      dsimp only at *
      omega
  have h := this l []
  rw [attrSize, Nat.zero_add] at h
  exact h

/-! ## The state of the parser -/

/-- after handler calls of total size `k`; a call adds at most `W` for each unit -/
structure Held (W k : Nat) (s : PSt) : Prop where
  size : (s.col marks).length ≤ 9 + W * k
  level : s.listLevel.natAbs ≤ k
  fine : ∀ i ∈ s.col (fun i => [i]), FineI (k + 9) i

theorem FineI.mono {a b : Nat} {i : HInfo} (h : FineI a i) (hab : a ≤ b) : FineI b i := fun l hl => Nat.le_trans (h l hl) hab

variable {W : Nat}

theorem Held.mono {a b : Nat} {s : PSt} (h : Held W a s) (hab : a ≤ b) : Held W b s :=
  ⟨by have := h.size; have := Nat.mul_le_mul_left W hab; omega, Nat.le_trans h.level hab, fun i hi => (h.fine i hi).mono (by omega)⟩

theorem leaf_lost {s : PSt} (h : s.lost = true) (n : HNode) : s.leaf n = s := by simp [PSt.leaf, h]
theorem open_lost {s : PSt} (h : s.lost = true) (i : HInfo) : s.open i = s := by simp [PSt.open, h]
theorem leaf_level (s : PSt) (n : HNode) : (s.leaf n).listLevel = s.listLevel := by unfold PSt.leaf; split <;> rfl
theorem open_level (s : PSt) (i : HInfo) : (s.open i).listLevel = s.listLevel := by unfold PSt.open; split <;> rfl
theorem up_level (s : PSt) : s.up.listLevel = s.listLevel := by
  unfold PSt.up; split
  · rfl
  · split <;> rfl
theorem goUp_level (s : PSt) : s.goUp.listLevel = s.listLevel := by unfold PSt.goUp; split <;> rfl

theorem held_leaf {k e : Nat} {s : PSt} {i : HInfo} (h : Held W k s) (ho : ownSize i ≤ W * e) (hf : FineI (k + e + 9) i) :
    Held W (k + e) (s.addLeaf i) := by
  unfold PSt.addLeaf
  cases hl : s.lost with
  | true => rw [leaf_lost hl]; exact h.mono (by omega)
  | false =>
    refine ⟨?_, ?_, ?_⟩
    · rw [col_leaf _ hl, List.length_append, coll, collL, List.append_nil, marks, List.length_replicate, Nat.mul_add]
      have := h.size; omega
    · rw [leaf_level]; have := h.level; omega
    · rw [col_leaf _ hl]
      intro j hj
      rw [List.mem_append, coll, collL, List.append_nil, List.mem_singleton] at hj
      rcases hj with hj | rfl
      · exact (h.fine j hj).mono (by omega)
      · exact hf

theorem held_open {k e : Nat} {s : PSt} {i : HInfo} (h : Held W k s) (ho : ownSize i ≤ W * e) (hf : FineI (k + e + 9) i) (n : Int)
    (hn : n.natAbs ≤ k + e) : Held W (k + e) ({ s with listLevel := n }.open i) := by
  by_cases hl : s.lost = true
  · rw [open_lost (by exact hl)]
    exact ⟨(h.mono (Nat.le_add_right k e)).size, hn, fun j hj => (h.fine j hj).mono (by omega)⟩
  · have hl' : ({ s with listLevel := n } : PSt).lost = false := by simpa using hl
    refine ⟨?_, ?_, ?_⟩
    · rw [col_open _ hl', List.length_append, marks, List.length_replicate, Nat.mul_add]
      have := h.size; simp only [PSt.col] at *; omega
    · rw [open_level]; exact hn
    · rw [col_open _ hl']
      intro j hj
      rw [List.mem_append, List.mem_singleton] at hj
      rcases hj with hj | rfl
      · exact (h.fine j hj).mono (by omega)
      · exact hf

theorem room10 (hW : 10 ≤ W) {x e : Nat} (h : x ≤ 10 * e) : x ≤ W * e := Nat.le_trans h (Nat.mul_le_mul_right e hW)

theorem held_start (hW : 10 ≤ W) {k : Nat} {s : PSt} (h : Held W k s) (tag : Str) (attrs : List (Str × Option Str)) :
    Held W (k + (1 + tag.length + attrSize attrs)) (handleStart s tag attrs) := by
  have hd := dictOf_size attrs
  by_cases h1 : tag = c!"tbody"
  · subst h1; rw [handleStart_ignore]; exact h.mono (by omega)
  · by_cases h2 : tag = c!"img" ∨ tag = c!"br"
    · rw [handleStart_leaf _ _ _ h2]
      refine held_leaf h (room10 hW ?_) (by intro l hl; cases hl)
      simp only [ownSize, Option.getD_none, List.length_nil]; omega
    · rw [handleStart_open _ _ _ (by
        rintro (e | e)
        · exact h1 e
        · exact h2 e)]
      have hlev := h.level
      have hn : (if isList tag = true then s.listLevel + 1 else s.listLevel).natAbs ≤ k + (1 + tag.length + attrSize attrs) := by
        split <;> omega
      refine held_open h (room10 hW ?_) ?_ _ hn
      · unfold startInfo
        split
        · simp only [ownSize, Option.getD_none, List.length_nil, attrSize]
          have : (c!"headline" : Str).length = 8 := rfl
          omega
        · split <;> (simp only [ownSize, Option.getD_none, List.length_nil]; omega)
      · intro l hl
        unfold startInfo at hl
        split at hl
        · next m hm =>
          cases hl
          have : m < 10 := by
            unfold Spec.headline? at hm
            split at hm
            · exact Creole.decimal_small hm
            · cases hm
          show m ≤ _
          omega
        · split at hl
          · cases hl; omega
          · cases hl

theorem held_end {k : Nat} {s : PSt} (h : Held W k s) (tag : Str) : Held W (k + 1) (handleEnd s tag) := by
  have hlev := h.level
  rw [handleEnd_eq]
  split
  · exact h.mono (by omega)
  · split
    · refine ⟨?_, ?_, ?_⟩
      · rw [col_goUp]; exact (h.mono (Nat.le_succ k)).size
      · rw [goUp_level]; dsimp only; split <;> omega
      · rw [col_goUp]; intro j hj; exact (h.fine j hj).mono (by omega)
    · refine ⟨?_, ?_, ?_⟩
      · rw [col_up]; exact (h.mono (Nat.le_succ k)).size
      · rw [up_level]; omega
      · rw [col_up]; intro j hj; exact (h.fine j hj).mono (by omega)

theorem held_text (hW : 10 ≤ W) {k : Nat} {s : PSt} (h : Held W k s) (kind t : Str) (hk : kind.length ≤ 9) :
    Held W (k + (1 + t.length)) (s.addLeaf { kind := kind, content := some t }) := by
  refine held_leaf h (room10 hW ?_) (by intro l hl; cases hl)
  simp only [ownSize, Option.getD_some, attrSize]; omega

theorem pyIndex_mem {l : List Str} {n : Int} {x : Str} (h : pyIndex l n = .ok x) : x ∈ l := by
  cases n with
  | ofNat n =>
    rw [pyIndex] at h
    split at h
    · next hx => cases h; exact List.mem_of_getElem? hx
    · cases h
  | negSucc n =>
    rw [pyIndex] at h
    split at h
    · next hx => cases h; exact List.mem_reverse.mp (List.mem_of_getElem? hx)
    · cases h

/-- the node of a placeholder -/
theorem placeholder_node {bd : List Str} {tag : Str} {attrs : Dict (Option Str)} {i : HInfo} (h : placeholderNode bd tag attrs = .ok i) :
    ∃ typ c, c ∈ bd ∧ typ.length ≤ attrSize attrs + 4 ∧ i = { kind := tag ++ '_' :: typ, content := some c } := by
  have key : ∀ (id : Int) (typ : Str), typ.length ≤ attrSize attrs + 4 → (do
      let content ← pyIndex bd id
      pure ({ kind := tag ++ '_' :: typ, content := some content } : HInfo)) = Except.ok (ε := PyErr) i →
      ∃ typ c, c ∈ bd ∧ typ.length ≤ attrSize attrs + 4 ∧ i = { kind := tag ++ '_' :: typ, content := some c } := by
    intro id typ ht h
    obtain ⟨c, hc, h⟩ := ex_bind h
    cases h
    exact ⟨typ, c, pyIndex_mem hc, ht, rfl⟩
  have key2 : ∀ id : Int, (match dictGet c!"type" attrs with
      | none => do
        let typ ← Except.error PyErr.keyError
        (do let content ← pyIndex bd id; pure ({ kind := tag ++ '_' :: typ, content := some content } : HInfo))
      | some none => do
        let typ ← Except.ok c!"None"
        (do let content ← pyIndex bd id; pure ({ kind := tag ++ '_' :: typ, content := some content } : HInfo))
      | some (some v) => do
        let typ ← Except.ok v
        (do let content ← pyIndex bd id; pure ({ kind := tag ++ '_' :: typ, content := some content } : HInfo))) = Except.ok i →
      ∃ typ c, c ∈ bd ∧ typ.length ≤ attrSize attrs + 4 ∧ i = { kind := tag ++ '_' :: typ, content := some c } := by
    intro id h
    split at h
    · cases h
    · exact key _ _ (Nat.le_add_left _ _) h
    · next v hv =>
      have := dictGet_size hv
      exact key _ v (by simp only [Option.getD_some] at this; omega) h
  unfold placeholderNode at h
  dsimp only at h
  split at h
  · cases h
  · cases h
  · split at h
    · exact key2 _ h
    · cases h

theorem held_handle {bd : List Str} (hW : ∀ c ∈ bd, 10 + c.length ≤ W) (hW0 : 10 ≤ W) {k : Nat} {s s' : PSt} (h : Held W k s) {e : Event}
    (he : handle bd s e = .ok s') : Held W (k + evSize e) s' := by
  cases e with
  | start tag attrs => cases he; exact held_start hW0 h tag attrs
  | end_ tag => cases he; exact held_end h tag
  | data d => cases he; exact held_text hW0 h _ d (by decide)
  | charref d => cases he; exact held_text hW0 h _ d (by decide)
  | entityref d => cases he; exact held_text hW0 h _ d (by decide)
  | startend tag attrs =>
    rw [handle, handleStartEnd] at he
    have hd := dictOf_size attrs
    split at he
    · obtain ⟨i, hi, he⟩ := ex_bind he
      cases he
      obtain ⟨typ, c, hc, ht, rfl⟩ := placeholder_node hi
      refine held_leaf h ?_ (by intro l hl; cases hl)
      have hw := hW c hc
      have h1 : (10 + c.length) * (1 + tag.length + attrSize attrs) ≤ W * (1 + tag.length + attrSize attrs) := Nat.mul_le_mul_right _ hw
      have h2 : c.length ≤ c.length * (1 + tag.length + attrSize attrs) := Nat.le_mul_of_pos_right _ (by omega)
      rw [Nat.add_mul] at h1
      simp only [ownSize, evSize, Option.getD_some, List.length_append, List.length_cons, attrSize]
      omega
    · cases he
      refine held_leaf h (room10 hW0 ?_) (by intro l hl; cases hl)
      simp only [ownSize, evSize, Option.getD_none, List.length_nil]; omega

theorem held_events {bd : List Str} (hW : ∀ c ∈ bd, 10 + c.length ≤ W) (hW0 : 10 ≤ W) :
    ∀ {evs : List Event} {k : Nat} {s s' : PSt}, Held W k s → evs.foldlM (handle bd) s = .ok s' → Held W (k + evsSize evs) s'
  | [], k, s, s', h, he => by cases he; exact h
  | e :: evs, k, s, s', h, he => by
    rw [List.foldlM_cons] at he
    obtain ⟨s1, h1, h2⟩ := ex_bind he
    have := held_events hW hW0 (held_handle hW hW0 h h1) h2
    rw [evsSize, ← Nat.add_assoc]
    exact this

/-- the size of the tree of a text -/
theorem run_size {bd : List Str} (hW : ∀ c ∈ bd, 10 + c.length ≤ W) (hW0 : 10 ≤ W) {evs : List Event} {err : Option PyErr} {root : HNode}
    (h : runEvents bd evs err = .ok root) : treeSize root ≤ 9 + W * evsSize evs ∧ Fine (9 + W * evsSize evs) root := by
  unfold runEvents at h
  obtain ⟨s, hs, h⟩ := ex_bind h
  have h0 : Held W 0 ({} : PSt) := by
    refine ⟨?_, Nat.le_refl _, ?_⟩
    · exact Nat.le_trans (show (PSt.col marks {}).length ≤ 9 by decide) (Nat.le_add_right _ _)
    · intro i hi
      have : i = { kind := c!"document" } := by simpa [PSt.col, chain, frameC, collL] using hi
      subst this
      intro l hl; cases hl
  have hh := held_events hW hW0 h0 hs
  rw [Nat.zero_add] at hh
  split at h
  · cases h
  · cases h
    constructor
    · rw [← treeSize_coll, col_root]; exact hh.size
    · refine fine_coll _ fun i hi => ?_
      rw [col_root] at hi
      have := room10 hW0 (x := evsSize evs) (e := evsSize evs) (by omega)
      exact (hh.fine i hi).mono (by omega)

/-- the size of a tree without preprocessing -/
theorem parseRaw_size {s : Str} {root : HNode} (h : parseRaw s = .ok root) : treeSize root ≤ 9 + 30 * s.length := by
  have h1 := (run_size (W := 10) (bd := []) (by simp) (Nat.le_refl _) h).1
  have h2 := tokens_len (strip s)
  have h3 : (strip s).length ≤ s.length := ((dropEnd_sublist _ _).trans (List.dropWhile_sublist _)).length_le
  unfold tokens at h2
  omega

end Verif.Emit.Gr
