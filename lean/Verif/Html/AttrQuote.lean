import Verif.Html.TagLemmas
import Verif.Spec.Held

/-!
# Quotes in the values of attributes
-/

namespace Verif.Html

open Verif Py Spec Spec.Cr Spec.Hd

/-- a name as a number: the last characters are the last digits -/
theorem strKey_append (a b : Str) : strKey (a ++ b) = strKey a * 0x110000 ^ b.length + strKey b := by
  have key : ∀ (b : Str) (n : Nat), b.foldl (fun n c => n * 0x110000 + c.toNat) n = n * 0x110000 ^ b.length + strKey b := by
    intro b
    induction b with
    | nil => intro n; simp [strKey]
    | cons c b ih =>
      intro n
      simp only [List.foldl_cons, strKey]
      rw [ih, ih (0 * 0x110000 + c.toNat)]
      simp only [List.length_cons, Nat.pow_succ]
      rw [Nat.add_mul, Nat.mul_assoc, Nat.mul_comm (1114112 ^ b.length) 1114112, Nat.zero_mul, Nat.zero_add, Nat.add_assoc]
  unfold strKey
  rw [List.foldl_append, key]
  rfl

theorem char_lt (c : Char) : c.toNat < 0x110000 := by
  have := c.valid
  unfold UInt32.isValidChar Nat.isValidChar at this
  unfold Char.toNat
  omega

theorem strKey_lt : ∀ (b : Str), strKey b < 0x110000 ^ b.length
  | [] => by simp [strKey]
  | c :: b => by
    have h1 := strKey_append [c] b
    rw [List.singleton_append] at h1
    have h2 := strKey_lt b
    have h3 := char_lt c
    have h4 : strKey [c] = c.toNat := by simp [strKey]
    rw [h1, h4, List.length_cons, Nat.pow_succ]
    have : (c.toNat + 1) * 0x110000 ^ b.length ≤ 0x110000 * 0x110000 ^ b.length := Nat.mul_le_mul_right _ h3
    rw [Nat.add_mul] at this
    rw [Nat.mul_comm (1114112 ^ b.length)]
    omega

/-- no other name begins with `quot` -/
theorem quot_table : (html5Table.all fun e => (List.range 34).all fun n =>
    n == 0 || e.1 / 0x110000 ^ n != strKey c!"quot" || (n == 1 && e.1 == strKey c!"quot;")) = true := by decide +kernel

theorem lookup_none {k : Nat} : ∀ {l : List (Nat × Nat)}, (∀ e ∈ l, e.1 ≠ k) → l.lookup k = none
  | [], _ => rfl
  | (a, b) :: l, h => by
    have := h (a, b) (by simp)
    rw [List.lookup_cons]
    have hne : (k == a) = false := by simpa using fun e => this e.symm
    rw [hne]
    exact lookup_none fun e he => h e (by simp [he])

theorem html5_quot {t : Str} (h1 : t ≠ []) (h2 : t.length < 34) (h3 : t ≠ [';']) : html5? (c!"quot" ++ t) = none := by
  unfold html5?
  rw [lookup_none]; rfl
  intro e he hk
  have := List.all_eq_true.1 quot_table e he
  have := List.all_eq_true.1 this t.length (by simpa using h2)
  have hlen : t.length ≠ 0 := by cases t with | nil => exact absurd rfl h1 | cons => simp
  rw [strKey_append] at hk
  have hlt := strKey_lt t
  have hdiv : e.1 / 0x110000 ^ t.length = strKey c!"quot" := by
    rw [hk, Nat.mul_comm, Nat.mul_add_div (by exact Nat.pow_pos (by decide)), Nat.div_eq_of_lt hlt, Nat.add_zero]
  simp only [hlen, hdiv, Bool.or_eq_true, beq_iff_eq, bne_self_eq_false, Bool.and_eq_true, or_self, false_or,
    Bool.false_eq_true] at this
  obtain ⟨h4, h5⟩ := this
  match t, h4 with
  | [c], _ =>
    rw [hk, show strKey c!"quot;" = strKey c!"quot" * 0x110000 ^ 1 + 59 from by decide] at h5
    simp only [List.length_singleton] at h5
    have : strKey [c] = 59 := by omega
    have h6 : c.toNat = 59 := by simpa [strKey] using this
    have : c = ';' := by
      apply Char.ext
      apply UInt32.toNat_inj.1
      exact h6
    exact h3 (by rw [this])

theorem html5_quot0 : html5? c!"quot" = some c!"\"" := by decide +kernel

theorem html5_quot1 : html5? c!"quot;" = some c!"\"" := by decide +kernel

theorem longest_quot {s : Str} (hs : s.length < 34) (hs' : s ≠ [] → s.head? ≠ some ';') :
    ∀ (k : Nat), longestName (c!"quot" ++ s) (k + 4) = '"' :: s := by
  intro k
  induction k with
  | zero =>
    rw [show 0 + 4 = 2 + 2 from rfl, longestName]
    have : (c!"quot" ++ s).take (2 + 2) = c!"quot" := by simp
    rw [this, html5_quot0]
    simp
  | succ k ih =>
    rw [show k + 1 + 4 = (k + 3) + 2 from rfl, longestName]
    have h1 : (c!"quot" ++ s).take (k + 3 + 2) = c!"quot" ++ s.take (k + 1) := by
      rw [show k + 3 + 2 = (k + 1) + 1 + 1 + 1 + 1 from by omega]; rfl
    rw [h1]
    cases s with
    | nil =>
      rw [List.take_nil, List.append_nil, html5_quot0]
      simp
    | cons c s =>
      have hc := hs' (by simp)
      rw [html5_quot]
      · exact ih
      · simp
      · simp only [List.length_take]; omega
      · simp only [List.take_succ_cons, ne_eq, List.cons.injEq, not_and]
        intro e; subst e; simp at hc

theorem named_quot {s : Str} (hs : s.length < 34) (hs' : s ≠ [] → s.head? ≠ some ';') : unescapeNamed (c!"quot" ++ s) = '"' :: s := by
  unfold unescapeNamed
  cases s with
  | nil => rw [List.append_nil, html5_quot0]
  | cons c s =>
    rw [html5_quot (by simp) hs (by have := hs' (by simp); intro e; cases e; simp at this)]
    have : (c!"quot" ++ c :: s).length - 1 = s.length + 4 := by simp
    rw [this]
    exact longest_quot hs hs' s.length

/-- text without references -/
theorem unescapeAux_plain : ∀ (x : Str) (r : Str), (∀ c ∈ x, c ≠ '&') → unescapeAux (x ++ r) 0 = (unescapeAux r 0).map (x ++ ·)
  | [], r, _ => by rw [List.nil_append]; cases unescapeAux r 0 <;> rfl
  | c :: x, r, h => by
    rw [List.cons_append, unescapeAux, if_neg (h c (by simp)), unescapeAux_plain x r fun d hd => h d (by simp [hd])]
    cases unescapeAux r 0 <;> rfl

theorem unescapeAux_skip : ∀ (n : Nat) (s : Str), unescapeAux s n = unescapeAux (s.drop n) 0
  | 0, s => rfl
  | n + 1, [] => by simp [unescapeAux]
  | n + 1, c :: s => by rw [unescapeAux, unescapeAux_skip n s]; rfl

/-- characters of names -/
def nameCh (c : Char) : Bool :=
  !(c = '\t' || c = '\n' || c = Char.ofNat 12 || c = ' ' || c = '<' || c = '&' || c = '#' || c = ';')

theorem takeWhile_all {p : Char → Bool} {c : Char} : ∀ {s : Str}, c ∈ s.takeWhile p → p c = true
  | d :: s, h => by
    rw [List.takeWhile_cons] at h
    split at h
    · rename_i hd
      simp only [List.mem_cons] at h
      rcases h with rfl | h
      · exact hd
      · exact takeWhile_all h
    · simp at h

theorem takeWhile_prefix (p : Char → Bool) (s : Str) : ∃ r, s = s.takeWhile p ++ r := ⟨s.dropWhile p, (List.takeWhile_append_dropWhile).symm⟩

theorem ref_quot (r : Str) : ∃ x r', r = x ++ r' ∧ (∀ c ∈ x, c ≠ '&') ∧
    (r.head? ≠ some ';' → unescapeRef (c!"quot" ++ r) = .ok (some ('"' :: x, 4 + x.length))) ∧
    (r.head? = some ';' → x = [] ∧ unescapeRef (c!"quot" ++ r) = .ok (some (c!"\"", 5))) := by
  have hname : ((c!"quot" ++ r).take 32).takeWhile nameCh = c!"quot" ++ (r.take 28).takeWhile nameCh := by
    have : (c!"quot" ++ r).take 32 = c!"quot" ++ r.take 28 := by simp
    rw [this, List.takeWhile_append_of_pos (by decide)]
  have href : ∀ (name : Str), ((c!"quot" ++ r).take 32).takeWhile nameCh = name → unescapeRef (c!"quot" ++ r) =
      if name.isEmpty then .ok none else
        .ok (some (unescapeNamed ((c!"quot" ++ r).take (name.length + optSemi ((c!"quot" ++ r).drop name.length))),
          name.length + optSemi ((c!"quot" ++ r).drop name.length))) := by
    rintro _ rfl
    rfl
  rw [href _ hname]
  clear href
  obtain ⟨r1, h1⟩ : ∃ r1, r = (r.take 28).takeWhile nameCh ++ r1 := by
    obtain ⟨u, hu⟩ := takeWhile_prefix nameCh (r.take 28)
    refine ⟨u ++ r.drop 28, ?_⟩
    rw [← List.append_assoc, ← hu, List.take_append_drop]
  have hnm : ∀ c ∈ (r.take 28).takeWhile nameCh, nameCh c = true := fun c hc => takeWhile_all hc
  have hlen : ((r.take 28).takeWhile nameCh).length ≤ 28 :=
    Nat.le_trans (List.takeWhile_prefix nameCh).length_le (by simp; omega)
  generalize (r.take 28).takeWhile nameCh = nm at h1 hnm hlen
  subst h1
  have hamp : ∀ c ∈ nm, c ≠ '&' := by
    rintro c hc rfl
    exact absurd (hnm _ hc) (by decide)
  have hsemi : ∀ c ∈ nm, c ≠ ';' := by
    rintro c hc rfl
    exact absurd (hnm _ hc) (by decide)
  have hd : (c!"quot" ++ (nm ++ r1)).drop (c!"quot" ++ nm).length = r1 := by
    rw [← List.append_assoc, List.drop_left]
  rw [hd]
  have hne : (c!"quot" ++ nm).isEmpty = false := rfl
  rw [hne]
  simp only [Bool.false_eq_true, if_false]
  by_cases hs : ∃ r2, r1 = ';' :: r2
  · obtain ⟨r2, rfl⟩ := hs
    have ht : (c!"quot" ++ (nm ++ ';' :: r2)).take ((c!"quot" ++ nm).length + optSemi (';' :: r2)) = c!"quot" ++ (nm ++ [';']) := by
      rw [optSemi]
      rw [show c!"quot" ++ (nm ++ ';' :: r2) = (c!"quot" ++ nm ++ [';']) ++ r2 from by simp]
      rw [show (c!"quot" ++ nm).length + 1 = (c!"quot" ++ nm ++ [';']).length from by simp, List.take_left]
      simp
    rw [ht, optSemi]
    cases nm with
    | nil =>
      refine ⟨[], ';' :: r2, rfl, by simp, by simp, fun _ => ⟨rfl, ?_⟩⟩
      have : unescapeNamed c!"quot;" = c!"\"" := by unfold unescapeNamed; rw [html5_quot1]
      rw [show c!"quot" ++ ([] ++ [';']) = c!"quot;" from rfl, this]; rfl
    | cons c nm =>
      refine ⟨c :: nm ++ [';'], r2, by simp, ?_, ?_, ?_⟩
      · intro d hd
        rcases List.mem_append.1 hd with hd | hd
        · exact hamp d hd
        · simp only [List.mem_singleton] at hd; subst hd; decide
      · intro _
        rw [named_quot]
        · congr 3; simp; omega
        · simp at hlen ⊢; omega
        · intro _; simp; exact hsemi c (by simp)
      · intro h; simp at h; exact absurd h (hsemi c (by simp))
  · have ho : optSemi r1 = 0 := by
      unfold optSemi
      split
      · rename_i r2; exact absurd ⟨r2, rfl⟩ hs
      · rfl
    have ht : (c!"quot" ++ (nm ++ r1)).take ((c!"quot" ++ nm).length + 0) = c!"quot" ++ nm := by
      rw [← List.append_assoc, Nat.add_zero, List.take_left]
    rw [ho, ht]
    refine ⟨nm, r1, rfl, hamp, ?_, ?_⟩
    · intro _
      rw [named_quot (by omega)]
      · congr 3; simp; omega
      · intro hne h
        cases nm with
        | nil => exact hne rfl
        | cons c nm => simp at h; exact hsemi c (by simp) h
    · intro h
      cases nm with
      | nil =>
        cases r1 with
        | nil => simp at h
        | cons c r1 => simp at h; subst h; exact absurd ⟨r1, rfl⟩ hs
      | cons c nm => simp at h; exact absurd h (hsemi c (by simp))

/-- a value after it has been written and read -/
theorem unescape_held : ∀ (v : Str), unescape (attrHtml v) = .ok (held v) := by
  have amp : unescapeNamed c!"amp;" = c!"&" := by decide +kernel
  have lt : unescapeNamed c!"lt;" = c!"<" := by decide +kernel
  have gt : unescapeNamed c!"gt;" = c!">" := by decide +kernel
  have plain : ∀ (c : Char) (v : Str), c ≠ '"' → attrHtml (c :: v) = textChar c ++ attrHtml v := by
    intro c v h
    simp [attrHtml, h]
  have key : ∀ (n : Nat) (v : Str), v.length ≤ n → unescapeAux (attrHtml v) 0 = .ok (held v) := by
    intro n
    induction n with
    | zero =>
      intro v hv
      cases v with
      | nil => rfl
      | cons c v => simp at hv
    | succ n ih =>
      intro v hv
      cases v with
      | nil => rfl
      | cons c v =>
        have ihv := ih v (by simpa using hv)
        by_cases hq : c = '"'
        · subst hq
          rw [show attrHtml ('"' :: v) = '&' :: (c!"quot" ++ attrHtml v) from rfl, unescapeAux, if_pos rfl]
          obtain ⟨x, r', h1, h2, h3, h4⟩ := ref_quot (attrHtml v)
          by_cases hv' : (attrHtml v).head? = some ';'
          · obtain ⟨rfl, h5⟩ := h4 hv'
            rw [h5]
            simp only
            cases v with
            | nil => simp [attrHtml] at hv'
            | cons d v =>
              have hd : d = ';' := by
                by_cases hdq : d = '"'
                · subst hdq; simp [attrHtml] at hv'
                · rw [plain d v hdq] at hv'
                  unfold textChar at hv'
                  split at hv'
                  · simp at hv'
                  · split at hv'
                    · simp at hv'
                    · split at hv'
                      · simp at hv'
                      · simpa using hv'
              subst hd
              rw [unescapeAux_skip]
              have : (c!"quot" ++ attrHtml (';' :: v)).drop 5 = attrHtml v := by
                rw [plain _ _ (by decide), show textChar ';' = [';'] from rfl]; rfl
              rw [this, ih v (by simp at hv; omega)]
              rfl
          · rw [h3 hv']
            simp only
            rw [unescapeAux_skip]
            have : (c!"quot" ++ attrHtml v).drop (4 + x.length) = r' := by
              rw [h1, show c!"quot" ++ (x ++ r') = (c!"quot" ++ x) ++ r' from by simp,
                show 4 + x.length = (c!"quot" ++ x).length from by simp; omega, List.drop_left]
            rw [this]
            rw [h1, unescapeAux_plain x r' h2] at ihv
            have hh : held ('"' :: v) = '"' :: held v := by
              cases v with
              | nil => rfl
              | cons d v =>
                by_cases hd : d = ';'
                · subst hd
                  rw [plain _ _ (by decide)] at hv'
                  exact absurd rfl hv'
                · rw [held]
                  rintro s _ e
                  exact hd (List.cons.inj e).1
            rw [hh]
            cases hr : unescapeAux r' 0 with
            | error e => rw [hr] at ihv; cases ihv
            | ok y =>
              rw [hr] at ihv
              simp only [Except.map, Except.ok.injEq] at ihv
              simp only [Except.map, List.cons_append, ihv]
        · have hh : held (c :: v) = c :: held v := by
            rw [held]
            rintro _ rfl _
            exact hq rfl
          rw [plain c v hq, hh]
          generalize attrHtml v = r at ihv
          unfold textChar
          by_cases h1 : c = '&'
          · subst h1
            simp [unescapeAux, unescapeRef, optSemi, amp, ihv, Except.map]
          · by_cases h2 : c = '<'
            · subst h2
              simp [unescapeAux, unescapeRef, optSemi, lt, ihv, Except.map]
            · by_cases h3 : c = '>'
              · subst h3
                simp [unescapeAux, unescapeRef, optSemi, gt, ihv, Except.map]
              · simp [h1, h2, h3, unescapeAux, ihv, Except.map]
  exact fun v => key v.length v (Nat.le_refl _)

end Verif.Html
