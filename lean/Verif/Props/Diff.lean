import Verif.Tools.Diff
import Verif.Spec.Patch

/-!
# C72: unified diffs

`Spec.Patch.patch` applies a diff to a text (`Verif/Spec/Patch.lean`).
-/

namespace Verif.Props

open Verif Py Tools Spec.Patch

/-! ## Numbers -/

theorem foldl_digits (l : Str) (n : Nat) :
    l.foldl (fun n c => 10 * n + (c.toNat - '0'.toNat)) n = Nat.ofDigitChars 10 l n := rfl

theorem number_digits (n : Nat) : number (natDigits n) = some n := by
  unfold number natDigits
  rw [if_pos ⟨Nat.toDigits_ne_nil, List.all_eq_true.mpr fun c hc => Nat.isDigit_of_mem_toDigits (by decide) (by decide) hc⟩,
    foldl_digits, Nat.ofDigitChars_toDigits (by decide) (by decide)]

theorem digits_mem {n : Nat} {c : Char} (h : c ∈ natDigits n) : c.isDigit = true :=
  Nat.isDigit_of_mem_toDigits (by decide) (by decide) h

theorem take_all {p : Char → Bool} {a b : Str} {c : Char} (ha : ∀ x ∈ a, p x = true) (hc : p c = false) :
    (a ++ c :: b).takeWhile p = a ∧ (a ++ c :: b).dropWhile p = c :: b := by
  rw [List.takeWhile_append_of_pos ha, List.dropWhile_append_of_pos ha, List.takeWhile_cons_of_neg (by simp [hc]),
    List.dropWhile_cons_of_neg (by simp [hc]), List.append_nil]
  exact ⟨rfl, rfl⟩

theorem take_nil {p : Char → Bool} {a : Str} (ha : ∀ x ∈ a, p x = true) : a.takeWhile p = a ∧ a.dropWhile p = [] := by
  have h1 := List.takeWhile_append_of_pos (l₂ := []) ha
  have h2 := List.dropWhile_append_of_pos (l₂ := []) ha
  simp only [List.append_nil, List.takeWhile_nil, List.dropWhile_nil] at h1 h2
  exact ⟨h1, h2⟩

theorem after_append (p s : Str) : after p (p ++ s) = some s := by
  unfold after
  rw [if_pos (by simp), List.drop_left]

theorem range_format {i k : Nat} (h : i ≤ k) : range (formatRange i k) = some (i, k - i) := by
  have hd : ∀ n, ∀ x ∈ natDigits n, (decide (x ≠ ',')) = true := by
    intro n x hx
    have := digits_mem hx
    rw [decide_eq_true_eq]
    rintro rfl
    revert this; decide
  unfold formatRange
  dsimp only
  by_cases h1 : k - i = 1
  · rw [if_pos h1]
    unfold range
    rw [(take_nil (hd _)).1, (take_nil (hd _)).2, number_digits, h1]
    rfl
  · rw [if_neg h1]
    unfold range
    rw [(take_all (hd _) (by decide)).1, (take_all (hd _) (by decide)).2, number_digits]
    dsimp only
    rw [number_digits]
    dsimp only [Option.map_some]
    split <;> rfl

theorem range_solid (i k : Nat) : ∀ x ∈ formatRange i k, (decide (x ≠ ' ')) = true := by
  intro x hx
  rw [decide_eq_true_eq]
  have hd : ∀ n, ' ' ∉ natDigits n := fun n h => by have := digits_mem h; revert this; decide
  rintro rfl
  unfold formatRange at hx
  dsimp only at hx
  split at hx
  · exact hd _ hx
  · rcases List.mem_append.mp hx with hx | hx
    · exact hd _ hx
    · rcases List.mem_cons.mp hx with hx | hx
      · cases hx
      · exact hd _ hx

theorem header_format {i ie j je : Nat} (h : i ≤ ie) (h' : j ≤ je) :
    header (c!"@@ -" ++ formatRange i ie ++ c!" +" ++ formatRange j je ++ c!" @@\n") = some ((i, ie - i), (j, je - j)) := by
  unfold header
  rw [List.append_assoc, List.append_assoc, List.append_assoc, after_append]
  dsimp only [Option.bind_eq_bind, Option.bind_some]
  have e : c!" +" ++ (formatRange j je ++ c!" @@\n") = ' ' :: ('+' :: (formatRange j je ++ c!" @@\n")) := rfl
  rw [e, (take_all (range_solid i ie) (by decide)).1, (take_all (range_solid i ie) (by decide)).2, range_format h, ← e, after_append]
  dsimp only [Option.bind_some]
  have e' : formatRange j je ++ c!" @@\n" = formatRange j je ++ ' ' :: c!"@@\n" := rfl
  rw [e', (take_all (range_solid j je) (by decide)).1, (take_all (range_solid j je) (by decide)).2, range_format h']
  rfl

/-! ## Slices -/

theorem slice_length {l : List Str} {i j : Nat} (hj : j ≤ l.length) : (slice l i j).length = j - i := by
  unfold slice
  rw [List.length_take, List.length_drop]
  omega

theorem slice_drop {l : List Str} {i j : Nat} (h : i ≤ j) : slice l i j ++ l.drop j = l.drop i := by
  unfold slice
  have : l.drop j = (l.drop i).drop (j - i) := by rw [List.drop_drop]; congr 1; omega
  rw [this, List.take_append_drop]

theorem slice_append {l : List Str} {i j k : Nat} (h : i ≤ j) (h' : j ≤ k) : slice l i j ++ slice l j k = slice l i k := by
  unfold slice
  have : l.drop j = (l.drop i).drop (j - i) := by rw [List.drop_drop]; congr 1; omega
  rw [this]
  have e : k - i = (j - i) + (k - j) := by omega
  rw [e, List.take_add]

theorem slice_self (l : List Str) (i : Nat) : slice l i i = [] := by simp [slice]

/-- equal slices have equal parts -/
theorem slice_part {a b : List Str} {i j k l : Nat} (h : slice a i k = slice b j l) (e : k - i = l - j) {x y : Nat}
    (hxy : x ≤ y) (hy : y ≤ k - i) : slice a (i + x) (i + y) = slice b (j + x) (j + y) := by
  have key : ∀ (c : List Str) (i k : Nat), y ≤ k - i → slice c (i + x) (i + y) = ((slice c i k).take y).drop x := by
    intro c i k hy
    unfold slice
    rw [List.take_take, Nat.min_eq_left hy, ← List.drop_drop, show i + y - (i + x) = y - x by omega, List.drop_take]
  rw [key a i k hy, key b j l (by omega), h]

/-! ## Codes -/

/-- codes that lead from `(i, j)` to `(ie, je)` -/
def Run (a b : List Str) : Nat → Nat → List Code → Nat → Nat → Prop
  | i, j, [], ie, je => i = ie ∧ j = je
  | i, j, c :: cs, ie, je => c.i1 = i ∧ c.j1 = j ∧ c.i1 ≤ c.i2 ∧ c.j1 ≤ c.j2 ∧ c.i2 ≤ a.length ∧ c.j2 ≤ b.length ∧
      (c.tag = .equal → c.i2 - c.i1 = c.j2 - c.j1 ∧ slice a c.i1 c.i2 = slice b c.j1 c.j2) ∧
      (c.tag = .delete → c.j1 = c.j2) ∧ (c.tag = .insert → c.i1 = c.i2) ∧ Run a b c.i2 c.j2 cs ie je

theorem Run.append {a b : List Str} : ∀ {cs cs' : List Code} {i j k l ie je : Nat}, Run a b i j cs k l → Run a b k l cs' ie je →
    Run a b i j (cs ++ cs') ie je
  | [], cs', i, j, k, l, ie, je, ⟨h1, h2⟩, h' => by subst h1 h2; exact h'
  | c :: cs, cs', i, j, k, l, ie, je, h, h' =>
    ⟨h.1, h.2.1, h.2.2.1, h.2.2.2.1, h.2.2.2.2.1, h.2.2.2.2.2.1, h.2.2.2.2.2.2.1, h.2.2.2.2.2.2.2.1, h.2.2.2.2.2.2.2.2.1,
      h.2.2.2.2.2.2.2.2.2.append h'⟩

theorem Run.le {a b : List Str} : ∀ {cs : List Code} {i j ie je : Nat}, Run a b i j cs ie je → i ≤ ie ∧ j ≤ je
  | [], i, j, ie, je, ⟨h1, h2⟩ => ⟨Nat.le_of_eq h1, Nat.le_of_eq h2⟩
  | c :: cs, i, j, ie, je, ⟨h1, h2, h3, h4, _, _, _, _, _, h⟩ => by
    have := h.le
    omega

theorem run_keep : ∀ (xs ls old : List Str) (p q m n : Nat),
    run (xs.map (' ' :: ·) ++ ls) (xs ++ old) p q (xs.length + m) (xs.length + n) =
      (run ls old (p + xs.length) (q + xs.length) m n).map (xs ++ ·)
  | [], ls, old, p, q, m, n => by
    simp only [List.map_nil, List.nil_append, List.length_nil, Nat.zero_add, Nat.add_zero]
    cases run ls old p q m n <;> rfl
  | x :: xs, ls, old, p, q, m, n => by
    show run ((' ' :: x) :: (xs.map (' ' :: ·) ++ ls)) (x :: (xs ++ old)) p q _ _ = _
    rw [run, if_neg (by decide), if_pos rfl]
    simp only [List.head?_cons, List.tail_cons, List.length_cons, true_and]
    rw [if_pos (by omega), show xs.length + 1 + m - 1 = xs.length + m by omega,
      show xs.length + 1 + n - 1 = xs.length + n by omega, run_keep xs ls old (p + 1) (q + 1) m n,
      show p + 1 + xs.length = p + (xs.length + 1) by omega, show q + 1 + xs.length = q + (xs.length + 1) by omega]
    cases run ls old (p + (xs.length + 1)) (q + (xs.length + 1)) m n <;> rfl

theorem run_drop : ∀ (xs ls old : List Str) (p q m n : Nat),
    run (xs.map ('-' :: ·) ++ ls) (xs ++ old) p q (xs.length + m) n = run ls old (p + xs.length) q m n
  | [], ls, old, p, q, m, n => by simp
  | x :: xs, ls, old, p, q, m, n => by
    show run (('-' :: x) :: (xs.map ('-' :: ·) ++ ls)) (x :: (xs ++ old)) p q _ _ = _
    rw [run, if_neg (by decide), if_neg (by decide), if_pos rfl]
    simp only [List.head?_cons, List.tail_cons, List.length_cons, true_and]
    rw [if_pos (by omega), show xs.length + 1 + m - 1 = xs.length + m by omega, run_drop xs ls old (p + 1) q m n,
      show p + 1 + xs.length = p + (xs.length + 1) by omega]

theorem run_new : ∀ (xs ls old : List Str) (p q m n : Nat),
    run (xs.map ('+' :: ·) ++ ls) old p q m (xs.length + n) = (run ls old p (q + xs.length) m n).map (xs ++ ·)
  | [], ls, old, p, q, m, n => by
    simp only [List.map_nil, List.nil_append, List.length_nil, Nat.zero_add, Nat.add_zero]
    cases run ls old p q m n <;> rfl
  | x :: xs, ls, old, p, q, m, n => by
    show run (('+' :: x) :: (xs.map ('+' :: ·) ++ ls)) old p q _ _ = _
    rw [run, if_neg (by decide), if_neg (by decide), if_neg (by decide), if_pos rfl]
    simp only [List.length_cons]
    rw [if_pos (by omega), show xs.length + 1 + n - 1 = xs.length + n by omega, run_new xs ls old p (q + 1) m n,
      show q + 1 + xs.length = q + (xs.length + 1) by omega]
    cases run ls old p (q + (xs.length + 1)) m n <;> rfl

theorem run_code {a b : List Str} {c : Code} {i2 j2 : Nat} (h : Run a b c.i1 c.j1 [c] i2 j2) (ls : List Str) (m n : Nat) :
    run (codeLines a b c ++ ls) (a.drop c.i1) c.i1 c.j1 ((i2 - c.i1) + m) ((j2 - c.j1) + n) =
      (run ls (a.drop i2) i2 j2 m n).map (slice b c.j1 j2 ++ ·) := by
  obtain ⟨_, _, hi, hj, hla, hlb, heq, hdel, hins, rfl, rfl⟩ := h
  have hmap : ∀ (f g : List Str → List Str) (o : Option (List Str)), (o.map f).map g = o.map fun x => g (f x) := by
    intro f g o; cases o <;> rfl
  unfold codeLines
  have la := slice_length (i := c.i1) hla
  have lb := slice_length (i := c.j1) hlb
  rw [← slice_drop hi]
  cases ht : c.tag with
  | equal =>
    obtain ⟨e1, e2⟩ := heq ht
    rw [if_pos rfl, ← e1, ← e2]
    have := run_keep (slice a c.i1 c.i2) ls (a.drop c.i2) c.i1 c.j1 m n
    rw [la, show c.i1 + (c.i2 - c.i1) = c.i2 by omega, show c.j1 + (c.i2 - c.i1) = c.j2 by omega] at this
    exact this
  | replace =>
    rw [if_neg (by decide), if_pos (.inl rfl), if_pos (.inl rfl), List.append_assoc]
    have := run_drop (slice a c.i1 c.i2) ((slice b c.j1 c.j2).map ('+' :: ·) ++ ls) (a.drop c.i2) c.i1 c.j1 m (c.j2 - c.j1 + n)
    rw [la, show c.i1 + (c.i2 - c.i1) = c.i2 by omega] at this
    rw [this]
    have := run_new (slice b c.j1 c.j2) ls (a.drop c.i2) c.i2 c.j1 m n
    rw [lb, show c.j1 + (c.j2 - c.j1) = c.j2 by omega] at this
    exact this
  | delete =>
    rw [if_neg (by decide), if_pos (.inr rfl), if_neg (by decide), List.append_nil]
    have hd := hdel ht
    have := run_drop (slice a c.i1 c.i2) ls (a.drop c.i2) c.i1 c.j1 m n
    rw [la, show c.i1 + (c.i2 - c.i1) = c.i2 by omega] at this
    rw [← hd, slice_self, Nat.sub_self, Nat.zero_add, this]
    cases run ls (a.drop c.i2) c.i2 c.j1 m n <;> rfl
  | insert =>
    rw [if_neg (by decide), if_neg (by decide), if_pos (.inr rfl), List.nil_append]
    have hd := hins ht
    have := run_new (slice b c.j1 c.j2) ls (a.drop c.i2) c.i1 c.j1 m n
    rw [lb, show c.j1 + (c.j2 - c.j1) = c.j2 by omega] at this
    rw [hd, slice_self, List.nil_append, Nat.sub_self, Nat.zero_add]
    rw [hd] at this
    exact this

theorem run_codes {a b : List Str} (ls : List Str) : ∀ {g : List Code} {i j ie je : Nat} (m n : Nat), Run a b i j g ie je →
    run (g.flatMap (codeLines a b) ++ ls) (a.drop i) i j ((ie - i) + m) ((je - j) + n) =
      (run ls (a.drop ie) ie je m n).map (slice b j je ++ ·)
  | [], i, j, ie, je, m, n, ⟨h1, h2⟩ => by
    subst h1 h2
    simp only [List.flatMap_nil, List.nil_append, Nat.sub_self, Nat.zero_add, slice_self]
    cases run ls (a.drop i) i j m n <;> rfl
  | c :: g, i, j, ie, je, m, n, h => by
    obtain ⟨rfl, rfl, h3, h4, h5, h6, h7, h8, h9, hr⟩ := h
    have hle := hr.le
    rw [List.flatMap_cons, List.append_assoc, show ie - c.i1 + m = (c.i2 - c.i1) + ((ie - c.i2) + m) by omega,
      show je - c.j1 + n = (c.j2 - c.j1) + ((je - c.j2) + n) by omega,
      run_code (c := c) ⟨rfl, rfl, h3, h4, h5, h6, h7, h8, h9, rfl, rfl⟩, run_codes ls m n hr, ← slice_append h4 hle.2]
    cases run ls (a.drop ie) ie je m n with
    | none => rfl
    | some r => simp

theorem head_run {a b : List Str} {g : List Code} {i j ie je : Nat} (h : Run a b i j g ie je) (hg : g ≠ []) :
    ∃ f l, g.head? = some f ∧ g.getLast? = some l ∧ f.i1 = i ∧ f.j1 = j ∧ l.i2 = ie ∧ l.j2 = je := by
  cases g with
  | nil => exact absurd rfl hg
  | cons c g =>
    have hlast : ∀ (g : List Code) (c : Code) (i j : Nat), Run a b i j (c :: g) ie je →
        ∃ l, (c :: g).getLast? = some l ∧ l.i2 = ie ∧ l.j2 = je := by
      intro g
      induction g with
      | nil => exact fun c i j h => ⟨c, rfl, h.2.2.2.2.2.2.2.2.2⟩
      | cons d g ih =>
        intro c i j h
        obtain ⟨l, h1, h2⟩ := ih d _ _ h.2.2.2.2.2.2.2.2.2
        exact ⟨l, by rw [List.getLast?_cons_cons]; exact h1, h2⟩
    obtain ⟨l, h1, h2⟩ := hlast g c i j h
    exact ⟨c, l, rfl, h1, h.1, h.2.1, h2⟩

theorem run_hunk {a b : List Str} {g : List Code} {i j ie je p q : Nat} (h : Run a b i j g ie je) (hg : g ≠ [])
    (hp : p ≤ i) (hi : i ≤ a.length) (hq : q ≤ j) (he : i - p = j - q) (hgap : slice a p i = slice b q j) (ls : List Str) :
    run (hunkLines a b g ++ ls) (a.drop p) p q 0 0 = (run ls (a.drop ie) ie je 0 0).map (slice b q je ++ ·) := by
  obtain ⟨f, l, h1, h2, rfl, rfl, rfl, rfl⟩ := head_run h hg
  have hle := h.le
  unfold hunkLines
  rw [h1, h2]
  dsimp only
  rw [List.cons_append]
  have hh := header_format hle.1 hle.2
  have e : ∀ r : Str, c!"@@ -" ++ r = '@' :: (c!"@ -" ++ r) := fun _ => rfl
  rw [List.append_assoc, List.append_assoc, List.append_assoc] at hh ⊢
  rw [e] at hh ⊢
  rw [run, if_pos rfl, hh]
  dsimp only [Option.bind_some]
  rw [if_pos ⟨rfl, rfl, hp, by rw [List.length_drop]; omega, by omega⟩, List.drop_drop, show p + (f.i1 - p) = f.i1 by omega]
  have := run_codes ls 0 0 h
  rw [Nat.add_zero, Nat.add_zero] at this
  rw [this, ← slice_append hq hle.2, ← hgap]
  cases run ls (a.drop l.i2) l.i2 l.j2 0 0 with
  | none => rfl
  | some r => simp [slice]

/-! ## Groups -/

theorem run_groups {a b : List Str} {ie je : Nat} (htail : a.drop ie = b.drop je) (k : Nat) : ∀ (cs g : List Code)
    {i j ci cj p q : Nat}, Run a b i j g ci cj → Run a b ci cj cs ie je → p ≤ i → q ≤ j → i - p = j - q →
    i ≤ a.length → slice a p i = slice b q j → run ((groups k cs g).flatMap (hunkLines a b)) (a.drop p) p q 0 0 = some (b.drop q)
  | [], g, i, j, ci, cj, p, q, hg, hc, hp, hq, he, hi, hgap => by
    obtain ⟨rfl, rfl⟩ := hc
    have hle := hg.le
    rw [groups]
    split
    · next hy =>
      rw [List.flatMap_cons, List.flatMap_nil, run_hunk hg hy.1 hp hi hq he hgap []]
      show some (slice b q cj ++ a.drop ci) = _
      rw [htail, slice_drop (by omega)]
    · next hn =>
      show some (a.drop p) = _
      have key : slice a i ci = slice b j cj := by
        cases g with
        | nil => obtain ⟨rfl, rfl⟩ := hg; rw [slice_self, slice_self]
        | cons c g =>
          simp only [ne_eq, reduceCtorEq, not_false_eq_true, List.length_cons, List.head?_cons, Option.map_some, true_and,
            Option.some.injEq, Classical.not_not] at hn
          have hnil : g = [] := List.eq_nil_of_length_eq_zero (by omega)
          subst hnil
          obtain ⟨rfl, rfl, _, _, _, _, heq, _, _, rfl, rfl⟩ := hg
          exact (heq hn.2).2
      rw [← slice_drop (l := a) (show p ≤ ci by omega), ← slice_drop (l := b) (show q ≤ cj by omega), htail,
        ← slice_append hp hle.1, ← slice_append hq hle.2, hgap, key]
  | c :: cs, g, i, j, ci, cj, p, q, hg, hc, hp, hq, he, hi, hgap => by
    have hle := hg.le
    obtain ⟨rfl, rfl, h3, h4, h5, h6, h7, h8, h9, hr⟩ := hc
    rw [groups]
    split
    · next hbig =>
      obtain ⟨e1, e2⟩ := h7 hbig.1
      have m1 : min c.i2 (c.i1 + k) = c.i1 + k := by omega
      have m2 : min c.j2 (c.j1 + k) = c.j1 + k := by omega
      have m3 : max c.i1 (c.i2 - k) = c.i2 - k := by omega
      have m4 : max c.j1 (c.j2 - k) = c.j2 - k := by omega
      rw [m1, m2, m3, m4, hbig.1, List.flatMap_cons]
      have hpart := fun {x y : Nat} => slice_part e2 e1 (x := x) (y := y)
      have hg' : Run a b i j (g ++ [⟨.equal, c.i1, c.i1 + k, c.j1, c.j1 + k⟩]) (c.i1 + k) (c.j1 + k) := by
        refine hg.append ⟨rfl, rfl, by dsimp only; omega, by dsimp only; omega, by dsimp only; omega, by dsimp only; omega, fun _ => ⟨by dsimp only; omega, ?_⟩, (fun h => by cases h), (fun h => by cases h), rfl, rfl⟩
        exact hpart (Nat.zero_le k) (by omega)
      rw [run_hunk hg' (by simp) hp hi hq he hgap]
      have := run_groups htail k cs [⟨.equal, c.i2 - k, c.i2, c.j2 - k, c.j2⟩] (i := c.i2 - k) (j := c.j2 - k) (ci := c.i2) (cj := c.j2)
        (p := c.i1 + k) (q := c.j1 + k)
        ⟨rfl, rfl, by dsimp only; omega, by dsimp only; omega, h5, h6, fun _ => ⟨by dsimp only; omega, ?_⟩, fun h => (by cases h), fun h => (by cases h), rfl, rfl⟩ hr (by omega)
        (by omega) (by omega) (by omega) ?_
      · rw [this, Option.map_some, slice_drop (by omega)]
      · have := hpart (x := c.i2 - k - c.i1) (y := c.i2 - c.i1) (by omega) (by omega)
        rw [show c.i1 + (c.i2 - k - c.i1) = c.i2 - k by omega, show c.i1 + (c.i2 - c.i1) = c.i2 by omega,
          show c.j1 + (c.i2 - k - c.i1) = c.j2 - k by omega, show c.j1 + (c.i2 - c.i1) = c.j2 by omega] at this
        exact this
      · have := hpart (x := k) (y := c.i2 - k - c.i1) (by omega) (by omega)
        rw [show c.i1 + (c.i2 - k - c.i1) = c.i2 - k by omega, show c.j1 + (c.i2 - k - c.i1) = c.j2 - k by omega] at this
        exact this
    · exact run_groups htail k cs (g ++ [c]) (hg.append ⟨rfl, rfl, h3, h4, h5, h6, h7, h8, h9, rfl, rfl⟩) hr hp hq he hi hgap

/-! ## Opcodes -/

theorem run_opcodes {a b : List Str} : ∀ {bs : List Block} {i j : Nat}, i ≤ a.length → j ≤ b.length → Matching a b i j bs →
    Run a b i j (opcodes i j bs) a.length b.length
  | [], i, j, _, _, h => h
  | (x, y, k) :: bs, i, j, hi, hj, h => by
    obtain ⟨h1, h2, h3, h4, h5, h6⟩ := h
    rw [opcodes]
    refine Run.append (k := x + k) (l := y + k) ?_ (run_opcodes h3 h4 h6)
    refine Run.append (k := x) (l := y) ?_ ?_
    · split
      · exact ⟨rfl, rfl, h1, h2, (by dsimp only; omega), (by dsimp only; omega), (fun h => by cases h), (fun h => by cases h), (fun h => by cases h), rfl, rfl⟩
      · split
        · exact ⟨rfl, rfl, h1, h2, (by dsimp only; omega), (by dsimp only; omega), (fun h => by cases h), (fun _ => by dsimp only; omega), (fun h => by cases h), rfl, rfl⟩
        · split
          · exact ⟨rfl, rfl, h1, h2, (by dsimp only; omega), (by dsimp only; omega), (fun h => by cases h), (fun h => by cases h), (fun _ => by dsimp only; omega), rfl, rfl⟩
          · exact ⟨by omega, by omega⟩
    · split
      · refine ⟨rfl, rfl, (by dsimp only; omega), (by dsimp only; omega), h3, h4, fun _ => ⟨by dsimp only; omega, ?_⟩, (fun h => by cases h), (fun h => by cases h), rfl, rfl⟩
        unfold slice
        dsimp only
        rw [Nat.add_sub_cancel_left, Nat.add_sub_cancel_left]
        exact h5
      · exact ⟨by omega, by omega⟩

/-- codes without the lines at the beginning and the end that are the same -/
theorem run_trim {a b : List Str} (k : Nat) : ∀ {cs : List Code} {i j : Nat}, i ≤ a.length → Run a b i j cs a.length b.length →
    ∃ i' j', Run a b i' j' (trimFirst k cs) a.length b.length ∧ i ≤ i' ∧ j ≤ j' ∧ i' - i = j' - j ∧ i' ≤ a.length ∧
      slice a i i' = slice b j j'
  | [], i, j, hi, h => ⟨i, j, h, Nat.le_refl _, Nat.le_refl _, by omega, hi, by rw [slice_self, slice_self]⟩
  | c :: cs, i, j, hi, h => by
    rw [trimFirst]
    split
    · next ht =>
      obtain ⟨rfl, rfl, h3, h4, h5, h6, h7, h8, h9, hr⟩ := h
      obtain ⟨e1, e2⟩ := h7 ht
      have hpart := fun {x y : Nat} => slice_part e2 e1 (x := x) (y := y)
      refine ⟨max c.i1 (c.i2 - k), max c.j1 (c.j2 - k), ?_, by omega, by omega, by omega, by omega, ?_⟩
      · refine ⟨rfl, rfl, (by dsimp only; omega), (by dsimp only; omega), h5, h6, fun _ => ⟨by dsimp only; omega, ?_⟩, ?_, ?_, hr⟩
        · dsimp only
          have := hpart (x := max c.i1 (c.i2 - k) - c.i1) (y := c.i2 - c.i1) (by omega) (by omega)
          rw [show c.i1 + (max c.i1 (c.i2 - k) - c.i1) = max c.i1 (c.i2 - k) by omega, show c.i1 + (c.i2 - c.i1) = c.i2 by omega,
            show c.j1 + (max c.i1 (c.i2 - k) - c.i1) = max c.j1 (c.j2 - k) by omega, show c.j1 + (c.i2 - c.i1) = c.j2 by omega] at this
          exact this
        · intro h; rw [show c.tag = .delete from h] at ht; cases ht
        · intro h; rw [show c.tag = .insert from h] at ht; cases ht
      · have := hpart (x := 0) (y := max c.i1 (c.i2 - k) - c.i1) (by omega) (by omega)
        rw [show c.i1 + (max c.i1 (c.i2 - k) - c.i1) = max c.i1 (c.i2 - k) by omega,
          show c.j1 + (max c.i1 (c.i2 - k) - c.i1) = max c.j1 (c.j2 - k) by omega] at this
        exact this
    · exact ⟨i, j, h, Nat.le_refl _, Nat.le_refl _, by omega, hi, by rw [slice_self, slice_self]⟩

theorem run_trimLast {a b : List Str} (k : Nat) : ∀ {cs : List Code} {i j : Nat}, Run a b i j cs a.length b.length →
    ∃ ie je, Run a b i j (trimLast k cs) ie je ∧ a.drop ie = b.drop je
  | [], i, j, h => ⟨i, j, ⟨rfl, rfl⟩, by rw [h.1, h.2, List.drop_length, List.drop_length]⟩
  | [c], i, j, h => by
    rw [trimLast]
    split
    · next ht =>
      obtain ⟨rfl, rfl, h3, h4, h5, h6, h7, h8, h9, hr1, hr2⟩ := h
      obtain ⟨e1, e2⟩ := h7 ht
      have hpart := fun {x y : Nat} => slice_part e2 e1 (x := x) (y := y)
      refine ⟨min c.i2 (c.i1 + k), min c.j2 (c.j1 + k), ?_, ?_⟩
      · refine ⟨rfl, rfl, (by dsimp only; omega), (by dsimp only; omega), (by dsimp only; omega), (by dsimp only; omega),
          fun _ => ⟨by dsimp only; omega, ?_⟩, ?_, ?_, rfl, rfl⟩
        · dsimp only
          have := hpart (x := 0) (y := min c.i2 (c.i1 + k) - c.i1) (by omega) (by omega)
          rw [show c.i1 + (min c.i2 (c.i1 + k) - c.i1) = min c.i2 (c.i1 + k) by omega,
            show c.j1 + (min c.i2 (c.i1 + k) - c.i1) = min c.j2 (c.j1 + k) by omega] at this
          exact this
        · intro h; rw [show c.tag = .delete from h] at ht; cases ht
        · intro h; rw [show c.tag = .insert from h] at ht; cases ht
      · rw [← slice_drop (l := a) (show min c.i2 (c.i1 + k) ≤ c.i2 by omega), ← slice_drop (l := b) (show min c.j2 (c.j1 + k) ≤ c.j2 by omega),
          hr1, hr2, List.drop_length, List.drop_length]
        have := hpart (x := min c.i2 (c.i1 + k) - c.i1) (y := c.i2 - c.i1) (by omega) (by omega)
        rw [show c.i1 + (min c.i2 (c.i1 + k) - c.i1) = min c.i2 (c.i1 + k) by omega,
          show c.j1 + (min c.i2 (c.i1 + k) - c.i1) = min c.j2 (c.j1 + k) by omega, show c.i1 + (c.i2 - c.i1) = c.i2 by omega,
          show c.j1 + (c.i2 - c.i1) = c.j2 by omega, hr1, hr2] at this
        rw [this]
    · exact ⟨_, _, h, by rw [List.drop_length, List.drop_length]⟩
  | c :: d :: cs, i, j, h => by
    rw [trimLast]
    · obtain ⟨ie, je, h1, h2⟩ := run_trimLast k h.2.2.2.2.2.2.2.2.2
      exact ⟨ie, je, ⟨h.1, h.2.1, h.2.2.1, h.2.2.2.1, h.2.2.2.2.1, h.2.2.2.2.2.1, h.2.2.2.2.2.2.1, h.2.2.2.2.2.2.2.1,
        h.2.2.2.2.2.2.2.2.1, h1⟩, h2⟩
    · intro h; cases h

theorem run_difflib {a b : List Str} {bs : List Block} (h : Matching a b 0 0 bs) :
    run ((groupedOpcodes 3 (opcodes 0 0 bs)).flatMap (hunkLines a b)) a 0 0 0 0 = some b := by
  have hr := run_opcodes (Nat.zero_le _) (Nat.zero_le _) h
  unfold groupedOpcodes
  dsimp only
  split
  · next hn =>
    rw [hn] at hr
    have ha := List.eq_nil_of_length_eq_zero hr.1.symm
    have hb := List.eq_nil_of_length_eq_zero hr.2.symm
    subst ha hb
    rfl
  · obtain ⟨i, j, h1, _, _, h4, h5, h6⟩ := run_trim 3 (Nat.zero_le _) hr
    obtain ⟨ie, je, h7, h8⟩ := run_trimLast 3 h1
    exact run_groups h8 3 _ [] (i := i) (j := j) ⟨rfl, rfl⟩ h7 (Nat.zero_le _) (Nat.zero_le _) h4 h5 h6

theorem apply_difflib {a b : List Str} {bs : List Block} (h : Matching a b 0 0 bs) (f t : Str) :
    apply (difflibLines bs a b f t) a = some b := by
  have := run_difflib h
  unfold difflibLines
  cases hg : groupedOpcodes 3 (opcodes 0 0 bs) with
  | nil =>
    rw [hg] at this
    exact this
  | cons g gs =>
    rw [hg] at this
    dsimp only
    unfold apply
    dsimp only
    rw [if_pos ⟨by simp [List.isPrefixOf], by simp [List.isPrefixOf]⟩]
    exact this

/-! ## Texts -/

theorem flatten_consLine (c : Char) (l : List Str) : (consLine c l).flatten = c :: l.flatten := by cases l <;> rfl

theorem flatten_splitKeep (s : Str) : (splitKeep s).flatten = s := by
  fun_induction splitKeep s with
  | case1 => rfl
  | case2 s ih => rw [List.flatten_cons, ih]; rfl
  | case3 c s _ h ih => rw [List.flatten_cons, ih]; rfl
  | case4 c s _ h ih => rw [flatten_consLine, ih]

/-- **C72.**  The lines that make up the diff of two texts, applied to the lines of the old text, give the lines of the new
text. -/
theorem C72_lines (match' : List Str → List Str → List Block) (old new : Str) (filename : Option Str)
    (hm : Matching (splitKeep old) (splitKeep new) 0 0 (match' (splitKeep old) (splitKeep new))) :
    apply (diffLines match' old new filename) (splitKeep old) = some (splitKeep new) := apply_difflib hm _ _

theorem addDiffLine_ne (text line : Str) (h : text ++ line ≠ []) : addDiffLine text line ≠ [] := by
  unfold addDiffLine
  dsimp only
  split
  · simp
  · exact h

/-- **C72.**  The diff of two different texts is not empty. -/
theorem C72_not_empty (match' : List Str → List Str → List Block) (old new : Str) (filename : Option Str)
    (hm : Matching (splitKeep old) (splitKeep new) 0 0 (match' (splitKeep old) (splitKeep new))) (h : old ≠ new) :
    unifiedDiff match' old new filename ≠ [] := by
  have ha := C72_lines match' old new filename hm
  unfold unifiedDiff
  have key : ∀ (ls : List Str) (t : Str), t ≠ [] → ls.foldl addDiffLine t ≠ [] := by
    intro ls
    induction ls with
    | nil => exact fun t h => h
    | cons l ls ih => exact fun t h => ih _ (addDiffLine_ne _ _ (by simp [h]))
  cases hd : diffLines match' old new filename with
  | nil =>
    rw [hd] at ha
    refine absurd ?_ h
    rw [← flatten_splitKeep old, ← flatten_splitKeep new]
    exact congrArg List.flatten (Option.some.inj ha)
  | cons l ls =>
    refine key ls _ (addDiffLine_ne _ _ ?_)
    unfold diffLines difflibLines at hd
    split at hd
    · cases hd
    · rw [← (List.cons.inj hd).1]
      simp

/-- a line: its only line feed is at its end -/
def OneLine (l : Str) : Prop := ∃ t, l = t ++ c!"\n" ∧ '\n' ∉ t

theorem lines_cons {l : Str} (h : OneLine l) (s : Str) : lines (l ++ s) = l :: lines s := by
  obtain ⟨t, rfl, ht⟩ := h
  induction t with
  | nil => rw [List.nil_append]; show lines ('\n' :: s) = _; rw [lines, if_pos rfl]
  | cons c t ih =>
    rw [List.cons_append, List.cons_append, lines, if_neg (show ¬ c = '\n' from by rintro rfl; exact ht List.mem_cons_self), ih fun h => ht (List.mem_cons_of_mem _ h)]

theorem lines_flatten : ∀ {ls : List Str}, (∀ l ∈ ls, OneLine l) → lines ls.flatten = ls
  | [], _ => rfl
  | l :: ls, h => by
    rw [List.flatten_cons, lines_cons (h l List.mem_cons_self), lines_flatten fun x hx => h x (List.mem_cons_of_mem _ hx)]

theorem glue_flatten : ∀ {ls : List Str} (t : Str), (∀ l ∈ ls, OneLine l) → ls.foldl addDiffLine t = t ++ ls.flatten
  | [], t, _ => by simp
  | l :: ls, t, h => by
    obtain ⟨u, rfl, _⟩ := h l List.mem_cons_self
    rw [List.foldl_cons, glue_flatten _ fun x hx => h x (List.mem_cons_of_mem _ hx)]
    unfold addDiffLine
    dsimp only
    rw [if_neg (by simp), List.flatten_cons, List.append_assoc]

theorem splitKeep_plain : ∀ {s : Str}, plainLines s = true → ∀ l ∈ splitKeep s, OneLine l := by
  intro s
  suffices H : s.all (fun c => !isLineBreak c || c = '\n') = true → (s = [] ∨ s.getLast? = some '\n') → ∀ l ∈ splitKeep s, OneLine l by
    intro h
    simp only [plainLines, Bool.and_eq_true, Bool.or_eq_true, decide_eq_true_eq] at h
    refine H (List.all_eq_true.mpr fun c hc => ?_) h.2
    have := List.all_eq_true.mp h.1 c hc
    simp only [isLineBreak, Bool.not_eq_true', Bool.or_eq_true, Bool.or_eq_false_iff, decide_eq_false_iff_not, decide_eq_true_eq] at this ⊢
    simp only [this]
    by_cases hn : c = '\n' <;> simp [hn]
  fun_induction splitKeep s with
  | case1 => intro _ _ l h; cases h
  | case2 s ih => intro h; exfalso; revert h; simp [isLineBreak]
  | case3 c s _ hb ih =>
    intro ha hl l hm
    rw [List.all_cons, Bool.and_eq_true] at ha
    have hc : c = '\n' := by simpa [hb] using ha.1
    subst hc
    rcases List.mem_cons.mp hm with rfl | hm
    · exact ⟨[], rfl, by simp⟩
    · refine ih ha.2 ?_ l hm
      cases s with
      | nil => exact .inl rfl
      | cons d s => exact .inr (by simpa using hl)
  | case4 c s _ hb ih =>
    intro ha hl l hm
    rw [List.all_cons, Bool.and_eq_true] at ha
    have hcn : c ≠ '\n' := by rintro rfl; exact hb (by decide)
    have hs : s ≠ [] := by
      rintro rfl
      rcases hl with h | h
      · cases h
      · exact hcn (by simpa using h)
    have hl' : s.getLast? = some '\n' := by
      cases s with
      | nil => exact absurd rfl hs
      | cons d s => simpa using hl
    have ih' := ih ha.2 (.inr hl')
    cases hk : splitKeep s with
    | nil =>
      have := flatten_splitKeep s
      rw [hk] at this
      exact absurd this.symm hs
    | cons a as =>
      rw [hk] at hm ih'
      rcases List.mem_cons.mp hm with rfl | hm
      · obtain ⟨t, rfl, ht⟩ := ih' a List.mem_cons_self
        exact ⟨c :: t, rfl, by simp [ht, hcn.symm]⟩
      · exact ih' l (List.mem_cons_of_mem _ hm)

theorem OneLine.pre {l : Str} (h : OneLine l) {p : Str} (hp : '\n' ∉ p) : OneLine (p ++ l) := by
  obtain ⟨t, rfl, ht⟩ := h
  exact ⟨p ++ t, by simp, by simp [hp, ht]⟩

theorem slice_mem {l : List Str} {i j : Nat} {x : Str} (h : x ∈ slice l i j) : x ∈ l :=
  List.mem_of_mem_drop (List.mem_of_mem_take h)

theorem oneLine_codes {a b : List Str} (ha : ∀ l ∈ a, OneLine l) (hb : ∀ l ∈ b, OneLine l) (c : Code) :
    ∀ l ∈ codeLines a b c, OneLine l := by
  intro l hl
  have key : ∀ (x : Char) (xs : List Str), x ≠ '\n' → (∀ l ∈ xs, OneLine l) → ∀ l ∈ xs.map (x :: ·), OneLine l := by
    intro x xs hx h l hl
    obtain ⟨t, ht, rfl⟩ := List.mem_map.mp hl
    exact (h t ht).pre (p := [x]) (by simp [hx.symm])
  unfold codeLines at hl
  split at hl
  · exact key _ _ (by decide) (fun l h => ha l (slice_mem h)) l hl
  · rcases List.mem_append.mp hl with hl | hl
    · split at hl
      · exact key _ _ (by decide) (fun l h => ha l (slice_mem h)) l hl
      · cases hl
    · split at hl
      · exact key _ _ (by decide) (fun l h => hb l (slice_mem h)) l hl
      · cases hl

theorem range_line (i k : Nat) : '\n' ∉ formatRange i k := by
  have hd : ∀ n, '\n' ∉ natDigits n := fun n h => by have := digits_mem h; revert this; decide
  unfold formatRange
  dsimp only
  split
  · exact hd _
  · simp [hd]

theorem oneLine_diff {bs : List Block} {a b : List Str} {f t : Str} (ha : ∀ l ∈ a, OneLine l) (hb : ∀ l ∈ b, OneLine l)
    (hf : '\n' ∉ f) (ht : '\n' ∉ t) : ∀ l ∈ difflibLines bs a b f t, OneLine l := by
  intro l hl
  unfold difflibLines at hl
  split at hl
  · cases hl
  · rcases List.mem_cons.mp hl with rfl | hl
    · exact ⟨c!"--- " ++ f, rfl, by simp [hf]⟩
    · rcases List.mem_cons.mp hl with rfl | hl
      · exact ⟨c!"+++ " ++ t, rfl, by simp [ht]⟩
      · obtain ⟨g, _, hl⟩ := List.mem_flatMap.mp hl
        unfold hunkLines at hl
        split at hl
        · next first last _ _ =>
          rcases List.mem_cons.mp hl with rfl | hl
          · exact ⟨c!"@@ -" ++ formatRange first.i1 last.i2 ++ c!" +" ++ formatRange first.j1 last.j2 ++ c!" @@", by simp,
              by simp [range_line]⟩
          · obtain ⟨c, _, hl⟩ := List.mem_flatMap.mp hl
            exact oneLine_codes ha hb c l hl
        · cases hl

theorem lines_splitKeep {s : Str} (h : plainLines s = true) : lines s = splitKeep s := by
  conv => lhs; rw [← flatten_splitKeep s]
  exact lines_flatten (splitKeep_plain h)

/-- **C72.**  The diff of two texts whose lines all end in a line feed, applied to the old text, gives the new one. -/
theorem C72_patch (match' : List Str → List Str → List Block) (old new : Str) (filename : Option Str)
    (ho : plainLines old = true) (hn : plainLines new = true) (hf : ∀ f ∈ filename, '\n' ∉ f)
    (hm : Matching (splitKeep old) (splitKeep new) 0 0 (match' (splitKeep old) (splitKeep new))) :
    patch (unifiedDiff match' old new filename) old = some new := by
  have hd : ∀ l ∈ diffLines match' old new filename, OneLine l := by
    refine oneLine_diff (splitKeep_plain ho) (splitKeep_plain hn) ?_ ?_ <;> cases filename with
    | none => decide
    | some f => simp [diffNames, hf f rfl]
  unfold patch unifiedDiff
  rw [glue_flatten [] hd, List.nil_append, lines_flatten hd, lines_splitKeep ho, C72_lines match' old new filename hm,
    Option.map_some, flatten_splitKeep]

/-! ## Examples -/

/-- blocks as `difflib` finds them for the texts below -/
def someBlocks : List Str → List Str → List Block := fun _ _ => [(0, 0, 1), (2, 1, 8), (10, 10, 1), (11, 11, 0)]

def oldText : Str := c!"1\n2\n3\n4\n5\n6\n7\n8\n9\n10\n11\n"
def newText : Str := c!"1\n3\n4\n5\n6\n7\n8\n9\n10\nnew\n11\n"

/-- the hypotheses of the theorems are met -/
example : plainLines oldText = true ∧ plainLines newText = true := by decide

example : Matching (splitKeep oldText) (splitKeep newText) 0 0 (someBlocks (splitKeep oldText) (splitKeep newText)) := by
  refine ⟨by decide, by decide, by decide, by decide, by decide, by decide, by decide, by decide, by decide, by decide,
    by decide, by decide, by decide, by decide, by decide, by decide, by decide, by decide, by decide, by decide, by decide, by decide⟩

example : unifiedDiff someBlocks oldText newText (some c!"README.rst") =
    c!"--- old / README.rst\n+++ new / README.rst\n@@ -1,5 +1,4 @@\n 1\n-2\n 3\n 4\n 5\n@@ -8,4 +7,5 @@\n 8\n 9\n 10\n+new\n 11\n" := by
  decide +kernel

/-- **C72, what is missing:** if a text does not end in a line feed — the case in which the project uses diffs — the
message `n\ No newline at end of file` becomes a part of the line, and the diff cannot be applied. -/
theorem C72_no_newline :
    unifiedDiff (fun _ _ => [(1, 1, 0)]) c!"a" c!"b" none =
      c!"--- old\n+++ new\n@@ -1 +1 @@\n-an\\ No newline at end of file\n+bn\\ No newline at end of file\n" ∧
    patch (unifiedDiff (fun _ _ => [(1, 1, 0)]) c!"a" c!"b" none) c!"a" = none := by
  decide +kernel

end Verif.Props
