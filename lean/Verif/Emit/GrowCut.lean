import Verif.Emit.GrowMeth

/-!
# How large the preprocessed text becomes
-/

namespace Verif

open Py

variable {γ : Type} [DecidableEq γ]

/-- how often the character `c` occurs at least in a match -/
def Re.musts (c : Char) : Re γ → Nat
  | .cls (.chr d) => if d = c then 1 else 0
  | .seq r q => r.musts c + q.musts c
  | .alt r q => min (r.musts c) (q.musts c)
  | .grp _ r => r.musts c
  | _ => 0

theorem Re.res_musts {c : Char} {r : Re γ} {s s' : St γ} (h : s' ∈ r.res s) : s'.rest.count c + r.musts c ≤ s.rest.count c := by
  have mono : ∀ {r : Re γ} {s s' : St γ}, s' ∈ r.res s → s'.rest.count c ≤ s.rest.count c := by
    intro r s s' h
    obtain ⟨w, hw⟩ := Re.res_reach h
    rw [hw.rest, List.count_append]; omega
  induction r generalizing s s' with
  | cls cs =>
    have h0 := mono h
    rw [mem_res_cls] at h
    obtain ⟨d, t, h1, h2, rfl⟩ := h
    rw [h1, List.count_cons] at *
    cases cs with
    | chr e =>
      rw [Re.musts]
      simp only [CSet.mem, beq_iff_eq] at h2
      subst h2
      split
      · next he => subst he; simp
      · split <;> simp
    | _ => exact h0
  | seq p q ihp ihq =>
    rw [mem_res_seq] at h
    obtain ⟨t, h1, h2⟩ := h
    have := ihp h1
    have := ihq h2
    rw [Re.musts]
    omega
  | alt p q ihp ihq =>
    rw [Re.musts]
    rw [mem_res_alt] at h
    rcases h with h | h
    · have := ihp h; omega
    · have := ihq h; omega
  | grp g p ih =>
    rw [mem_res_grp] at h
    obtain ⟨t, ht, rfl⟩ := h
    exact ih (s' := t) ht
  | star g p ih => exact mono h
  | eps => exact mono h
  | bref g => exact mono h
  | bol mu => exact mono h
  | eol mu => exact mono h
  | behind neg cs => exact mono h
  | notAhead p _ => exact mono h

end Verif

namespace Verif.Emit.Gr

open Verif Py Html

/-! ## Preformatted parts -/

/-- what is known of a match that is cut out -/
structure Cut (m : Match PG) : Prop where
  count : 2 ≤ m.text.count '<'
  block : ∀ c, m.get .pre_block = some c → c.length ≤ m.text.length
  inline : ∀ c, m.get .pre_inline = some c → c.length ≤ m.text.length

theorem cut_hit {r : Re PG} (hm : 2 ≤ r.musts '<') (hf : r.fair (fun _ => some 0) = true) (hs : 0 ≤ r.spare (fun _ => some 0)) {s : Str}
    {m : Match PG} (h : Seg.hit m ∈ r.scan s) : Cut m := by
  have hm' : m ∈ r.findAll s := by
    unfold Re.findAll
    rw [List.mem_filterMap]
    exact ⟨_, h, rfl⟩
  have room := Re.findAll_room hf hs hm'
  have nn : ∀ (g : PG) (x : Int), (fun _ : PG => some (0 : Int)) g = some x → 0 ≤ x := by
    intro g x h; cases h; exact Int.le_refl 0
  refine ⟨?_, ?_, ?_⟩
  · obtain ⟨pre, rest, prev, s', h1, h2, h3, h4, h5⟩ := (Re.findAll_hit hm').ex
    have := Re.res_musts (c := '<') h2
    rw [h4] at this
    simp only [List.count_append] at this
    omega
  · intro c hc
    have := capSum_get nn (g := .pre_block) (x := 0) rfl hc
    omega
  · intro c hc
    have := capSum_get nn (g := .pre_inline) (x := 0) rfl hc
    omega

theorem digits_lt (n : Nat) : (natDigits n).count '<' = 0 := by
  rw [List.count_eq_zero]
  intro h
  have := natDigits_all n _ h
  exact absurd this (by decide)

/-- the text of a placeholder -/
theorem preCut_size {bd : List Str} {data p : Str} (hp : p = blockPlaceholder ∨ p = inlinePlaceholder) :
    (preCut bd data c!"pre" p).1.count '<' = 1 ∧ (preCut bd data c!"pre" p).1.length ≤ 35 + (natDigits bd.length).length := by
  have h := digits_lt bd.length
  rcases hp with rfl | rfl
  · simp only [preCut, blockPlaceholder]
    constructor
    · simp only [List.count_append, List.count_cons, h]; decide
    · simp only [List.length_append, List.length_cons, List.length_nil]; omega
  · simp only [preCut, inlinePlaceholder]
    constructor
    · simp only [List.count_append, List.count_cons, h]; decide
    · simp only [List.length_append, List.length_cons, List.length_nil]; omega

/-- what cutting out one part does -/
theorem preCutOut_size {bd : List Str} {m : Match PG} (hm : Cut m) {D : Nat} (hD : (natDigits bd.length).length ≤ D) :
    ((preCutOut bd m).2.length ≤ bd.length + 1 ∧ bd.length ≤ (preCutOut bd m).2.length) ∧
    (preCutOut bd m).1.count '<' + (preCutOut bd m).2.length ≤ m.text.count '<' + bd.length ∧
    (preCutOut bd m).1.length + bd.length * (35 + D) ≤ (preCutOut bd m).2.length * (35 + D) ∧
    ∀ c ∈ (preCutOut bd m).2, c ∈ bd ∨ c.length ≤ m.text.length := by
  have key : ∀ (t p : Str), (p = blockPlaceholder ∨ p = inlinePlaceholder) → t.length ≤ m.text.length →
      ((preCut bd t c!"pre" p).2.length ≤ bd.length + 1 ∧ bd.length ≤ (preCut bd t c!"pre" p).2.length) ∧
      (preCut bd t c!"pre" p).1.count '<' + (preCut bd t c!"pre" p).2.length ≤ m.text.count '<' + bd.length ∧
      (preCut bd t c!"pre" p).1.length + bd.length * (35 + D) ≤ (preCut bd t c!"pre" p).2.length * (35 + D) ∧
      ∀ c ∈ (preCut bd t c!"pre" p).2, c ∈ bd ∨ c.length ≤ m.text.length := by
    intro t p hp ht
    obtain ⟨h1, h2⟩ := preCut_size (bd := bd) (data := t) hp
    have h3 : (preCut bd t c!"pre" p).2 = bd ++ [t] := rfl
    have h4 := hm.count
    rw [h3, h1, List.length_append, List.length_singleton]
    refine ⟨⟨Nat.le_refl _, Nat.le_succ _⟩, by omega, ?_, ?_⟩
    · rw [Nat.add_mul, Nat.one_mul]; omega
    · intro c hc
      rw [List.mem_append, List.mem_singleton] at hc
      rcases hc with hc | rfl
      · exact .inl hc
      · exact .inr ht
  unfold preCutOut
  split
  · next t h => exact key t _ (.inr rfl) (hm.inline t h)
  · next t _ h => exact key t _ (.inl rfl) (hm.block t h)
  · refine ⟨⟨Nat.le_succ _, Nat.le_refl _⟩, ?_, ?_, fun c hc => .inl hc⟩
    · simp
    · simp

theorem cutSegs_size {D N : Nat} (hD : ∀ j, j ≤ N → (natDigits j).length ≤ D) : ∀ {segs : List (Seg PG)} {bd bd' : List Str} {out : Str},
    (∀ m, Seg.hit m ∈ segs → Cut m) → cutSegs segs bd = (out, bd') → (segs.flatMap Seg.text).count '<' + bd.length ≤ N →
    out.count '<' + bd'.length ≤ (segs.flatMap Seg.text).count '<' + bd.length ∧
    out.length + bd.length * (35 + D) ≤ (segs.flatMap Seg.text).length + bd'.length * (35 + D) ∧
    ∀ c ∈ bd', c ∈ bd ∨ c.length ≤ (segs.flatMap Seg.text).length
  | [], bd, bd', out, _, h, _ => by
    cases h
    exact ⟨Nat.le_refl _, Nat.le_refl _, fun c hc => .inl hc⟩
  | .skip c :: segs, bd, bd', out, hm, h, hN => by
    rw [cutSegs] at h
    simp only [List.flatMap_cons, Seg.text, List.count_append, List.length_append, List.length_singleton] at *
    cases hc : cutSegs segs bd with
    | mk s b =>
      rw [hc] at h
      dsimp only at h
      obtain ⟨rfl, rfl⟩ := Prod.mk.inj h
      obtain ⟨h1, h2, h3⟩ := cutSegs_size hD (fun m h => hm m (by simp [h])) hc (by omega)
      refine ⟨?_, ?_, ?_⟩
      · rw [List.count_cons]
        have : List.count '<' [c] = if c == '<' then 1 else 0 := by rw [List.count_cons]; simp
        rw [this]; omega
      · rw [List.length_cons]; omega
      · intro d hd
        rcases h3 d hd with h | h
        · exact .inl h
        · exact .inr (by omega)
  | .hit m :: segs, bd, bd', out, hm, h, hN => by
    rw [cutSegs] at h
    simp only [List.flatMap_cons, Seg.text, List.count_append, List.length_append] at *
    have hcut := hm m (by simp)
    obtain ⟨⟨p1, p2⟩, p3, p4, p5⟩ := preCutOut_size (bd := bd) hcut (hD _ (by omega))
    generalize preCutOut bd m = q at *
    obtain ⟨a, b1⟩ := q
    dsimp only at *
    cases hc : cutSegs segs b1 with
    | mk s b =>
      rw [hc] at h
      dsimp only at h
      obtain ⟨rfl, rfl⟩ := Prod.mk.inj h
      obtain ⟨h1, h2, h3⟩ := cutSegs_size hD (fun m h => hm m (by simp [h])) hc (by omega)
      refine ⟨?_, ?_, ?_⟩
      · rw [List.count_append]; omega
      · rw [List.length_append]; omega
      · intro d hd
        rcases h3 d hd with h | h
        · rcases p5 d h with h | h
          · exact .inl h
          · exact .inr (by omega)
        · exact .inr (by omega)

theorem digits_root : ∀ n : Nat, ∃ D, 1 ≤ D ∧ n < 10 ^ D ∧ D * D ≤ 4 * (n + 1) := by
  intro n
  induction n using Nat.strongRecOn with
  | ind n ih =>
    by_cases h : n < 10
    · exact ⟨1, Nat.le_refl _, by omega, by omega⟩
    · obtain ⟨D, h1, h2, h3⟩ := ih (n / 10) (by omega)
      refine ⟨D + 1, by omega, ?_, ?_⟩
      · rw [Nat.pow_succ]; omega
      · have h4 : D ≤ D * D := Nat.le_mul_of_pos_left _ h1
        have h5 : (D + 1) * (D + 1) = D * D + 2 * D + 1 := by
          rw [Nat.add_mul, Nat.mul_add]; omega
        omega

end Verif.Emit.Gr
