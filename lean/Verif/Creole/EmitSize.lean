import Verif.Creole.Weight
import Verif.Creole.KeptEmit
import Verif.Py.DictLemmas

/-!
# How large the HTML becomes
-/

namespace Verif.Creole

open Verif Py

/-! ## Texts -/

theorem flatMap_len {f : Char → Str} {k : Nat} (h : ∀ c, (f c).length ≤ k) (s : Str) : (s.flatMap f).length ≤ k * s.length := by
  induction s with
  | nil => simp
  | cons c s ih =>
    have := h c
    simp only [List.flatMap_cons, List.length_append, List.length_cons, Nat.mul_add]
    omega

theorem escChar_len (c : Char) : (escChar c).length ≤ 5 := by
  unfold escChar
  (repeat' split) <;> simp

theorem htmlEscape_len (s : Str) : (htmlEscape s).length ≤ 5 * s.length := by
  rw [htmlEscape_eq]; exact flatMap_len escChar_len s

theorem attrEscape_len (s : Str) : (attrEscape s).length ≤ 5 * s.length := by
  rw [attrEscape_eq]
  refine flatMap_len (fun c => ?_) s
  unfold attrChar
  split
  · simp
  · exact escChar_len c

theorem jsonStr_len (s : Str) : (jsonStr s).length ≤ 12 * s.length + 2 := by
  have := flatMap_len (f := jsonChar) (k := 12) (fun c => by
    unfold jsonChar
    (repeat' split) <;> simp [hex4]) s
  simp only [jsonStr, List.cons_append, List.length_cons, List.length_append, List.length_nil]
  omega

theorem natDigits_len {n k : Nat} (hk : 0 < k) (h : n < 10 ^ k) : (natDigits n).length ≤ k :=
  (Nat.length_toDigits_le_iff (by decide) hk).mpr h

theorem natDigits_level (n : Nat) : (natDigits n).length ≤ n + 1 := by
  refine natDigits_len (Nat.succ_pos n) ?_
  exact Nat.lt_of_lt_of_le (Nat.lt_pow_self (by decide)) (Nat.pow_le_pow_right (by decide) (Nat.le_succ n))

theorem decimal_small {c : Char} {n : Nat} (h : decimal? c = some n) : n < 10 := by
  unfold decimal? at h
  dsimp only at h
  split at h
  · split at h
    · next hb =>
      cases h
      simp only [Bool.and_eq_true, decide_eq_true_eq] at hb
      omega
    · cases h
  · cases hf : zeroDigits.find? fun z => z ≤ c.toNat && c.toNat ≤ z + 9 with
    | none => rw [hf] at h; cases h
    | some z =>
      rw [hf] at h
      cases h
      have := List.find?_some hf
      simp only [Bool.and_eq_true, decide_eq_true_eq] at this
      show c.toNat - z < 10
      omega

theorem intDigits_lt : ∀ (s : Str) {acc cnt : Nat} {sep : Bool} {n k : Nat}, intDigits acc cnt sep s = some (n, k) → acc < 10 ^ cnt →
    n < 10 ^ k ∧ k ≤ cnt + s.length
  | [], acc, cnt, sep, n, k, h, ha => by
    rw [intDigits] at h
    split at h
    · cases h
    · cases h; exact ⟨ha, Nat.le_add_right _ _⟩
  | c :: s, acc, cnt, sep, n, k, h, ha => by
    rw [intDigits] at h
    split at h
    · split at h
      · cases h
      · have := intDigits_lt s h ha
        rw [List.length_cons]
        exact ⟨this.1, by omega⟩
    · cases hd : decimal? c with
      | none => rw [hd] at h; cases h
      | some x =>
        rw [hd] at h
        have hx := decimal_small hd
        have := intDigits_lt s h (by rw [Nat.pow_succ]; omega)
        rw [List.length_cons]
        exact ⟨this.1, by omega⟩

theorem natOf_len {s : Str} {n : Nat} (h : natOf s = some n) : (natDigits n).length ≤ s.length := by
  unfold natOf at h
  cases s with
  | nil => cases h
  | cons c s =>
    dsimp only at h
    cases hd : decimal? c with
    | none => rw [hd] at h; cases h
    | some x =>
      rw [hd] at h
      dsimp only at h
      have hx := decimal_small hd
      cases hi : intDigits x 1 false s with
      | none => rw [hi] at h; cases h
      | some p =>
        obtain ⟨v, k⟩ := p
        rw [hi] at h
        dsimp only at h
        have := intDigits_lt s hi (by omega)
        split at h
        · cases h
          refine natDigits_len (by simp) (Nat.lt_of_lt_of_le this.1 (Nat.pow_le_pow_right (by decide) ?_))
          rw [List.length_cons]; omega
        · cases h

theorem intStr_neg (n : Nat) : (intStr (-(n : Int))).length ≤ (natDigits n).length + 1 := by
  cases n with
  | zero => decide
  | succ n => show ('-' :: natDigits (n + 1)).length ≤ _; simp

theorem pyInt_len {s : Str} {i : Int} (h : pyInt s = some i) : (intStr i).length ≤ s.length := by
  have hs := stripP_len isIntSpace s
  unfold pyInt at h
  split at h
  · rename_i r hr
    rw [hr, List.length_cons] at hs
    cases hn : natOf r with
    | none => rw [hn] at h; cases h
    | some n =>
      rw [hn] at h; cases h
      have := natOf_len hn
      have := intStr_neg n
      show (intStr (-(n : Int))).length ≤ _
      omega
  · rename_i r hr
    rw [hr, List.length_cons] at hs
    cases hn : natOf r with
    | none => rw [hn] at h; cases h
    | some n =>
      rw [hn] at h; cases h
      have := natOf_len hn
      show (natDigits n).length ≤ _
      omega
  · cases hn : natOf (stripP isIntSpace s) with
    | none => rw [hn] at h; cases h
    | some n =>
      rw [hn] at h; cases h
      have := natOf_len hn
      show (natDigits n).length ≤ _
      omega

theorem splitOnce_len {c : Char} : ∀ {s a b : Str}, splitOnce c s = some (a, b) → a.length + b.length ≤ s.length
  | [], a, b, h => by cases h
  | x :: s, a, b, h => by
    rw [splitOnce] at h
    split at h
    · cases h; simp
    · cases hs : splitOnce c s with
      | none => rw [hs] at h; cases h
      | some p =>
        obtain ⟨a', b'⟩ := p
        rw [hs] at h
        cases h
        have := splitOnce_len hs
        simp only [List.length_cons]
        omega

theorem imageSize_len {x y title : Str} {w h : Int} (hi : imageSize x y = some (title, w, h)) :
    title.length ≤ x.length + y.length ∧ (intStr w).length ≤ y.length ∧ (intStr h).length ≤ y.length := by
  unfold imageSize at hi
  cases h1 : splitOnce '|' y with
  | none => rw [h1] at hi; cases hi
  | some p =>
    obtain ⟨t, size⟩ := p
    rw [h1] at hi
    have l1 := splitOnce_len h1
    simp only [Option.bind_eq_bind, Option.bind_some] at hi
    cases h2 : splitOnce 'x' size with
    | none => rw [h2] at hi; cases hi
    | some q =>
      obtain ⟨a, b⟩ := q
      rw [h2] at hi
      have l2 := splitOnce_len h2
      simp only [Option.bind_some] at hi
      cases h3 : pyInt (strip a) with
      | none => rw [h3] at hi; cases hi
      | some u =>
        rw [h3] at hi
        simp only [Option.bind_some] at hi
        cases h4 : pyInt (strip b) with
        | none => rw [h4] at hi; cases hi
        | some v =>
          rw [h4] at hi
          cases hi
          have := pyInt_len h3
          have := pyInt_len h4
          have := strip_len a
          have := strip_len b
          refine ⟨?_, by omega, by omega⟩
          split <;> omega

theorem imageEmit_len (env : Env) (x y : Str) : (imageEmit env x y).length ≤ 110 + 20 * x.length + 20 * y.length := by
  have h1 := attrEscape_len x
  have h2 := attrEscape_len y
  have hp : (imgOpen x (attrEscape y) ++ c!" />").length ≤ 110 + 20 * x.length + 20 * y.length := by
    simp [imgOpen]; omega
  unfold imageEmit
  dsimp only
  split
  · exact hp
  · split
    · rename_i t w h hi
      have := imageSize_len hi
      simp [imgOpen]
      omega
    · exact hp

/-! ## The dict -/

/-- the headings noted for the table of contents -/
def headSum : List (Nat × Str) → Nat
  | [] => 0
  | (n, s) :: l => n + s.length + 1 + headSum l

theorem headSum_append : ∀ a b : List (Nat × Str), headSum (a ++ b) = headSum a + headSum b
  | [], b => by simp [headSum]
  | (n, s) :: a, b => by rw [List.cons_append, headSum, headSum, headSum_append a b]; omega

/-- no macros but the table of contents -/
def TocOnly (h : Nat) (ms : Macros) : Prop := ms = [] ∨ ∃ t, ms = [(c!"toc", .toc t)] ∧ headSum t.headlines ≤ h

theorem TocOnly.mono {h h' : Nat} {ms : Macros} (hm : TocOnly h ms) (hh : h ≤ h') : TocOnly h' ms := by
  rcases hm with rfl | ⟨t, rfl, ht⟩
  · exact .inl rfl
  · exact .inr ⟨t, rfl, by omega⟩

variable {d h : Nat} {env : Env} {ms ms' : Macros} {s : Str}

theorem errorText_len (env : Env) (s : Str) : (errorText env s).length ≤ s.length + 10 := by
  unfold errorText
  split <;> simp

theorem macroEmit_size {i : Info} (hm : TocOnly h ms) (he : macroEmit env i ms = .ok (s, ms')) :
    TocOnly h ms' ∧ s.length ≤ 120 * i.weight := by
  have hw : 1 + i.macroName.length + i.macroArgs.length ≤ i.weight := by unfold Info.weight; omega
  unfold macroEmit at he
  dsimp only at he
  split at he
  · cases he
    refine ⟨hm, Nat.le_trans (errorText_len _ _) ?_⟩
    have := jsonStr_len i.macroArgs
    simp
    omega
  · cases he
  · rcases hm with rfl | ⟨t, rfl, ht⟩
    · cases he
      refine ⟨.inl rfl, Nat.le_trans (errorText_len _ _) ?_⟩
      simp
      omega
    · split at he
      · cases he
        refine ⟨.inr ⟨t, rfl, ht⟩, Nat.le_trans (errorText_len _ _) ?_⟩
        simp
        omega
      · rename_i kw _ mac hg
        have hn : i.macroName = c!"toc" ∧ mac = .toc t := by
          simp only [dictGet, List.lookup_cons] at hg
          split at hg
          · next h => cases hg; exact ⟨eq_of_beq h, rfl⟩
          · cases hg
        obtain ⟨hn, rfl⟩ := hn
        rw [hn] at he hw
        rename_i kwargs
        generalize hkw : dictSet c!"text" (optVal i.content) _ = kwargs at he
        by_cases hself : (dictGet c!"self" kwargs).isSome = true
        · have hc : callMacro c!"toc" (.toc t) kwargs [(c!"toc", .toc t)] = (.typeError tocSelfMsg, [(c!"toc", .toc t)]) := by
            unfold callMacro; dsimp only; rw [if_pos hself]
          rw [hc] at he
          dsimp only at he
          split at he
          · cases he
          · cases he
            refine ⟨.inr ⟨t, rfl, ht⟩, Nat.le_trans (errorText_len _ _) ?_⟩
            have : tocSelfMsg.length ≤ 80 := by decide
            simp
            omega
        · generalize hdp : (dictGet c!"depth" kwargs).getD PVal.none = dp
          have hc : callMacro c!"toc" (.toc t) kwargs [(c!"toc", .toc t)] = (.ret (t.call dp).1, [(c!"toc", .toc (t.call dp).2)]) := by
            unfold callMacro; dsimp only; rw [if_neg hself, hdp]; rfl
          rw [hc] at he
          cases he
          have h1 : headSum (t.call dp).2.headlines ≤ h := by
            unfold Toc.call
            split
            · exact ht
            · dsimp only; split <;> exact ht
          have h2 : (t.call dp).1.length ≤ 20 := by
            unfold Toc.call
            split <;> simp
          refine ⟨.inr ⟨_, rfl, h1⟩, ?_⟩
          split
          · simp; omega
          · omega

theorem headerEmit_size {n : Nat} {c : Str} (hm : TocOnly h ms) (he : headerEmit env n c ms = .ok (s, ms')) :
    TocOnly (h + (n + c.length + 1)) ms' ∧ s.length ≤ 120 * (n + c.length + 1) := by
  have h1 := htmlEscape_len c
  have h2 := natDigits_level n
  unfold headerEmit at he
  dsimp only at he
  split at he
  · rcases hm with rfl | ⟨t, rfl, ht⟩
    · cases he
    · have hg : dictGet c!"toc" [(c!"toc", Macro.toc t)] = some (.toc t) := rfl
      rw [hg] at he
      dsimp only at he
      obtain ⟨t', ha, hb⟩ := bind_ok_inv he
      cases hb
      have : headSum t'.headlines ≤ h + (n + c.length + 1) := by
        unfold Toc.addHeadline at ha
        split at ha
        · cases ha
          rw [headSum_append, headSum, headSum]; omega
        · obtain ⟨b, _, hc⟩ := bind_ok_inv ha
          cases hc
          split
          · dsimp only; rw [headSum_append, headSum, headSum]; omega
          · omega
      refine ⟨.inr ⟨t', rfl, this⟩, ?_⟩
      simp
      omega
  · cases he
    refine ⟨hm.mono (by omega), ?_⟩
    simp
    omega

/-! ## The tree -/

theorem tabs_len (n : Nat) : (tabs n).length = n := List.length_replicate

theorem listEmit_len (k : Kind) (n : Nat) (tag : Str) (ht : tag.length = 2) (b : Bool) (t : Str) :
    (listEmit k n tag b t).length ≤ t.length + 20 + 2 * n := by
  unfold listEmit
  split <;> split <;> simp [tabs_len, ht] <;> omega

theorem levelE_inv {i : Info} {n : Nat} (h : i.levelE = .ok n) : i.level = some n := by
  unfold Info.levelE at h
  split at h
  · cases h; assumption
  · cases h

theorem contentE_ok {i : Info} {c : Str} (h : i.contentE = .ok c) : i.content = some c := by
  unfold Info.contentE at h
  split at h
  · cases h; assumption
  · cases h

theorem Info.weight_pos (i : Info) : 1 ≤ i.weight := by unfold Info.weight; omega
theorem Info.content_weight {i : Info} {c : Str} (h : i.content = some c) : 1 + c.length ≤ i.weight := by
  unfold Info.weight; rw [h, Option.getD_some]; omega

theorem getText_len (i : Info) (cs : List Node) : (getText i cs).length + 1 ≤ i.weight + weightL cs := by
  unfold getText
  split
  · rename_i c cs
    obtain ⟨j, ds⟩ := c
    rw [weightL, Node.weight]
    have : ((Node.mk j ds).info.content.getD []).length + 1 ≤ j.weight := by
      show (j.content.getD []).length + 1 ≤ _
      unfold Info.weight; omega
    have := i.weight_pos
    omega
  · unfold Info.weight; omega

/-- the bound on the text of a node -/
def bound (d w : Nat) : Nat := 120 * (d + 1) * w

theorem bound_add (d a b : Nat) : bound d (a + b) = bound d a + bound d b := Nat.mul_add _ _ _
theorem bound_own (d : Nat) {a : Nat} (ha : 1 ≤ a) : 120 * a + 120 * d ≤ bound d a := by
  unfold bound
  obtain ⟨b, rfl⟩ : ∃ b, a = b + 1 := ⟨a - 1, by omega⟩
  have : 120 * (d + 1) * (b + 1) = 120 * (d * b) + 120 * b + 120 * d + 120 := by
    rw [Nat.mul_assoc, Nat.add_mul, Nat.mul_add d, Nat.one_mul]; omega
  omega

/-- what is shown about a text -/
def Sized (d h w : Nat) (s : Str) (ms' : Macros) : Prop := TocOnly (h + w) ms' ∧ s.length ≤ bound d w

theorem Sized.wrap {i : Info} {cs : List Node} {f : Str → Str} {r : EM}
    (hf : ∀ t, (f t).length ≤ t.length + 20 + 2 * d + 20 * (i.content.getD []).length)
    (hr : ∀ t ms', r = .ok (t, ms') → Sized d h (weightL cs) t ms') (he : emap f r = .ok (s, ms')) :
    Sized d h (i.weight + weightL cs) s ms' := by
  obtain ⟨t, h1, rfl⟩ := emap_inv he
  obtain ⟨h2, h3⟩ := hr t ms' h1
  refine ⟨h2.mono (by omega), ?_⟩
  have := hf t
  have h4 := bound_own d i.weight_pos
  have h5 : 1 + (i.content.getD []).length ≤ i.weight := by unfold Info.weight; omega
  rw [bound_add]
  omega

theorem Sized.leaf {i : Info} {cs : List Node} (hm : TocOnly h ms) (hs : s.length ≤ 120 * (i.weight + weightL cs) + 120 * d) :
    Sized d h (i.weight + weightL cs) s ms :=
  ⟨hm.mono (by omega), Nat.le_trans hs (bound_own d (by have := i.weight_pos; omega))⟩

theorem pureText_both {r : Except PyErr Str} (h : pureText r ms = .ok (s, ms')) : r = .ok s ∧ ms' = ms := by
  cases r with
  | error e => cases h
  | ok x => cases h; exact ⟨rfl, rfl⟩

mutual
theorem emitNode_size {d : Nat} {env : Env} : ∀ (n : Node) {parent : Info} {h : Nat} {ms ms' : Macros} {s : Str}, TocOnly h ms → parent.low d → n.low d →
    emitNode env parent n ms = .ok (s, ms') → Sized d h n.weight s ms'
  | .mk i cs, parent, h, ms, ms', s, hm, hp, hl, he => by
    rw [Node.low] at hl
    rw [Node.weight]
    have ih : ∀ t ms', emitNodes env i cs ms = .ok (t, ms') → Sized d h (weightL cs) t ms' :=
      fun t ms' => emitNodes_size cs hm hl.1 hl.2
    have hlev : i.kind ≠ .header → ∀ n, i.levelE = .ok n → n ≤ d := fun hk n hn => by
      rcases hl.1 with h | h
      · exact absurd h hk
      · exact h n (levelE_inv hn)
    unfold emitNode at he
    cases hk : i.kind <;> simp only [hk] at he
    case document =>
      obtain ⟨h1, h2⟩ := ih s ms' he
      exact ⟨h1.mono (by omega), by rw [bound_add]; omega⟩
    case text =>
      obtain ⟨h1, rfl⟩ := pureText_both he
      obtain ⟨c, hc, rfl⟩ := contentE_inv h1
      have := htmlEscape_len c
      have := Info.content_weight hc
      exact Sized.leaf hm (by omega)
    case pre_block =>
      obtain ⟨h1, rfl⟩ := pureText_both he
      obtain ⟨c, hc, rfl⟩ := contentE_inv h1
      have := htmlEscape_len c
      have := Info.content_weight hc
      exact Sized.leaf hm (by simp; omega)
    case pre_inline =>
      obtain ⟨h1, rfl⟩ := pureText_both he
      obtain ⟨c, hc, rfl⟩ := contentE_inv h1
      have := htmlEscape_len c
      have := Info.content_weight hc
      exact Sized.leaf hm (by simp; omega)
    case image =>
      obtain ⟨h1, rfl⟩ := pureText_both he
      obtain ⟨c, hc, rfl⟩ := contentE_inv h1
      have := imageEmit_len env c (getText i cs)
      have := getText_len i cs
      have := Info.content_weight hc
      exact Sized.leaf hm (by omega)
    case separator => cases he; have := i.weight_pos; exact Sized.leaf hm (by simp; omega)
    case line => cases he; have := i.weight_pos; exact Sized.leaf hm (by simp; omega)
    case brk =>
      obtain ⟨h1, rfl⟩ := pureText_both he
      refine Sized.leaf hm ?_
      have := i.weight_pos
      unfold breakEmit at h1
      split at h1
      · next hk =>
        cases hq : parent.levelE with
        | error e => rw [hq] at h1; cases h1
        | ok n =>
          rw [hq] at h1; cases h1
          have : n ≤ d := by
            rcases hp with hp | hp
            · rw [hk] at hp; cases hp
            · exact hp n (levelE_inv hq)
          simp [tabs_len]
          omega
      · split at h1 <;> cases h1 <;> simp <;> omega
    case macro_inline =>
      obtain ⟨h1, h2⟩ := macroEmit_size hm he
      exact ⟨h1.mono (by omega), by have := bound_own d i.weight_pos; rw [bound_add]; omega⟩
    case macro_block =>
      obtain ⟨h1, h2⟩ := macroEmit_size hm he
      exact ⟨h1.mono (by omega), by have := bound_own d i.weight_pos; rw [bound_add]; omega⟩
    case header =>
      split at he
      · next n c hn hc =>
        obtain ⟨h1, h2⟩ := headerEmit_size hm he
        have : n + c.length + 1 ≤ i.weight := by
          unfold Info.weight
          rw [contentE_ok hc, levelE_inv hn, if_pos hk, Option.getD_some, Option.getD_some]; omega
        exact ⟨h1.mono (by omega), by have := bound_own d i.weight_pos; rw [bound_add]; omega⟩
      · cases he
      · cases he
    case link =>
      split at he
      · cases he
      · next c hc =>
        have hc := contentE_ok hc
        have h1 := htmlEscape_len c
        have h2 := attrEscape_len c
        split at he
        · cases he
          have := Info.content_weight hc
          exact Sized.leaf hm (by simp; omega)
        · refine Sized.wrap ?_ ih he
          intro t
          rw [hc]
          simp
          omega
    case bullet_list =>
      split at he
      · next n hn =>
        have := hlev (by rw [hk]; decide) n hn
        refine Sized.wrap ?_ ih he
        intro t
        have := listEmit_len parent.kind n c!"ul" rfl false t
        omega
      · cases he
    case number_list =>
      split at he
      · next n hn =>
        have := hlev (by rw [hk]; decide) n hn
        refine Sized.wrap ?_ ih he
        intro t
        have := listEmit_len parent.kind n c!"ol" rfl false t
        omega
      · cases he
    case list_item =>
      split at he
      · next n hn =>
        have := hlev (by rw [hk]; decide) n hn
        refine Sized.wrap ?_ ih he
        intro t
        have := listEmit_len parent.kind n c!"li" rfl true t
        omega
      · cases he
    all_goals
      refine Sized.wrap ?_ ih he
      intro t
      simp [typeface]
      try omega
theorem emitNodes_size {d : Nat} {env : Env} : ∀ (ns : List Node) {parent : Info} {h : Nat} {ms ms' : Macros} {s : Str}, TocOnly h ms → parent.low d → lowL d ns →
    emitNodes env parent ns ms = .ok (s, ms') → Sized d h (weightL ns) s ms'
  | [], parent, h, ms, ms', s, hm, hp, hl, he => by
    rw [emitNodes] at he
    cases he
    exact ⟨hm, Nat.zero_le _⟩
  | n :: ns, parent, h, ms, ms', s, hm, hp, hl, he => by
    rw [lowL] at hl
    rw [emitNodes] at he
    cases h1 : emitNode env parent n ms with
    | error e => rw [h1] at he; cases he
    | ok x =>
      obtain ⟨a, ms1⟩ := x
      rw [h1] at he
      dsimp only at he
      have h2 := emitNode_size n hm hp hl.1 h1
      cases h3 : emitNodes env parent ns ms1 with
      | error e => rw [h3] at he; cases he
      | ok y =>
        obtain ⟨b, ms2⟩ := y
        rw [h3] at he
        cases he
        have h4 := emitNodes_size ns h2.1 hp hl.2 h3
        have := h2.2
        have := h4.2
        rw [weightL]
        exact ⟨h4.1.mono (by omega), by rw [bound_add, List.length_append]; omega⟩
end

/-! ## The table of contents -/

mutual
/-- the number of items and lists -/
def Nest.count : Nest → Nat
  | .str _ => 1
  | .list l => 1 + countL l
def countL : List Nest → Nat
  | [] => 0
  | a :: l => a.count + countL l
end

mutual
/-- the length of the texts -/
def Nest.chars : Nest → Nat
  | .str s => s.length
  | .list l => charsL l
def charsL : List Nest → Nat
  | [] => 0
  | a :: l => a.chars + charsL l
end

theorem countL_append : ∀ a b : List Nest, countL (a ++ b) = countL a + countL b
  | [], b => by simp [countL]
  | n :: a, b => by rw [List.cons_append, countL, countL, countL_append a b]; omega
theorem charsL_append : ∀ a b : List Nest, charsL (a ++ b) = charsL a + charsL b
  | [], b => by simp [charsL]
  | n :: a, b => by rw [List.cons_append, charsL, charsL, charsL_append a b]; omega

mutual
/-- a list inside of `level` lists is at most as deep as there are items and lists -/
theorem nestHtml_len : ∀ (n : Nest) (level top : Nat), level + n.count ≤ top + 1 → (nestHtml level n).length ≤ (2 * top + 40) * n.count + 2 * n.chars
  | .str s, level, top, h => by
    rw [Nest.count] at h ⊢
    rw [Nest.chars, nestHtml]
    simp [tabs_len]
    omega
  | .list l, level, top, h => by
    rw [Nest.count] at h ⊢
    have := nestHtmls_len l (level + 1) top (by omega)
    rw [Nest.chars, nestHtml, Nat.mul_add]
    have : (if level > 0 then c!"\n" else ([] : Str)).length ≤ 1 := by split <;> simp
    simp only [List.length_append, tabs_len, List.length_cons, List.length_nil]
    omega
theorem nestHtmls_len : ∀ (l : List Nest) (level top : Nat), level + countL l ≤ top + 1 → (nestHtmls level l).length ≤ (2 * top + 40) * countL l + 2 * charsL l
  | [], level, top, h => by rw [nestHtmls]; exact Nat.zero_le _
  | a :: l, level, top, h => by
    rw [countL] at h ⊢
    have h1 := nestHtml_len a level top (by omega)
    have h2 := nestHtmls_len l level top (by omega)
    rw [charsL, nestHtmls, List.length_append, Nat.mul_add]
    omega
end

def stackCount : NestStack → Nat
  | [] => 0
  | a :: s => 1 + countL a + stackCount s
def stackChars : NestStack → Nat
  | [] => 0
  | a :: s => charsL a + stackChars s

theorem nestClose_size : ∀ (k : Nat) (s : NestStack), stackCount (nestClose k s) = stackCount s ∧ stackChars (nestClose k s) = stackChars s
  | 0, s => by rw [nestClose]; exact ⟨rfl, rfl⟩
  | k + 1, [] => by rw [nestClose]; exact ⟨rfl, rfl⟩; simp
  | k + 1, [a] => by rw [nestClose]; exact ⟨rfl, rfl⟩; simp
  | k + 1, a :: b :: s => by
    rw [nestClose]
    have := nestClose_size k ((b ++ [.list a]) :: s)
    simp only [stackCount, stackChars, countL_append, charsL_append, countL, charsL, Nest.count, Nest.chars] at this ⊢
    omega

theorem nestOpen_size : ∀ (k : Nat) (s : NestStack), stackCount (nestOpen k s) = stackCount s + k ∧ stackChars (nestOpen k s) = stackChars s
  | 0, s => by rw [nestOpen]; exact ⟨rfl, rfl⟩
  | k + 1, s => by
    rw [nestOpen]
    have := nestOpen_size k ([] :: s)
    simp only [stackCount, stackChars, countL, charsL] at this
    omega

theorem nestStep_size {s s' : NestStack} {x : Nat × Str} (h : nestStep s x = .ok s') :
    stackCount s' ≤ stackCount s + x.1 + 1 ∧ stackChars s' = stackChars s + x.2.length := by
  unfold nestStep at h
  split at h
  · cases h
  · dsimp only at h
    have key : ∀ st : NestStack, (match st with | [] => .error .indexError | a :: s => .ok ((a ++ [.str x.2]) :: s) : Except PyErr NestStack) = .ok s' →
        stackCount s' = stackCount st + 1 ∧ stackChars s' = stackChars st + x.2.length := by
      intro st h
      cases st with
      | nil => cases h
      | cons a s =>
        cases h
        simp only [stackCount, stackChars, countL_append, charsL_append, countL, charsL, Nest.count, Nest.chars]
        omega
    have := key _ h
    split at this
    · next hn =>
      have h2 := nestOpen_size (x.1 - s.length) s
      omega
    · split at this
      · have h2 := nestClose_size (s.length - x.1) s
        omega
      · omega

theorem nestSteps_size : ∀ (l : List (Nat × Str)) {s s' : NestStack}, l.foldlM nestStep s = .ok s' →
    stackCount s' ≤ stackCount s + headSum l ∧ stackChars s' ≤ stackChars s + headSum l
  | [], s, s', h => by cases h; exact ⟨Nat.le_refl _, Nat.le_refl _⟩
  | (n, t) :: l, s, s', h => by
    rw [List.foldlM_cons] at h
    obtain ⟨s1, h1, h2⟩ := bind_ok_inv h
    have := nestStep_size h1
    dsimp only at this
    have := nestSteps_size l h2
    rw [headSum]
    omega

theorem flatToNest_size {l : List (Nat × Str)} {n : Nest} (h : flatToNest l = .ok n) : n.count ≤ headSum l + 1 ∧ n.chars ≤ headSum l := by
  unfold flatToNest at h
  obtain ⟨s, h1, h2⟩ := bind_ok_inv h
  have := nestSteps_size l h1
  have h3 := nestClose_size (s.length - 1) s
  split at h2
  · next a r heq =>
    cases h2
    rw [heq] at h3
    simp only [stackCount, stackChars, countL, charsL, Nest.count, Nest.chars] at *
    omega
  · cases h2

theorem replaceFirst_len (old new : Str) : ∀ s : Str, (replaceFirst old new s).length ≤ s.length + new.length
  | [] => by rw [replaceFirst]; simp
  | c :: s => by
    rw [replaceFirst]
    split
    · simp only [List.length_append, List.length_drop]; omega
    · have := replaceFirst_len old new s
      simp only [List.length_cons]; omega

theorem tocEmit_size {t : Toc} {s html : Str} (h : t.emit s = .ok html) : html.length ≤ s.length + 44 * (headSum t.headlines + 1) * (headSum t.headlines + 1) := by
  unfold Toc.emit at h
  obtain ⟨n, h1, h2⟩ := bind_ok_inv h
  have h3 := flatToNest_size h1
  have h4 := nestHtml_len n 0 (headSum t.headlines) (by omega)
  have h5 : (nestHtml 0 n).length ≤ 44 * (headSum t.headlines + 1) * (headSum t.headlines + 1) := by
    generalize headSum t.headlines = H at *
    have h6 : (2 * H + 40) * n.count ≤ (2 * H + 40) * (H + 1) := Nat.mul_le_mul_left _ h3.1
    have h7 : 44 * (H + 1) * (H + 1) = (2 * H + 40) * (H + 1) + 42 * (H * (H + 1)) + 4 * (H + 1) := by
      rw [← Nat.mul_assoc, ← Nat.add_mul, ← Nat.add_mul]
      congr 1
      omega
    have h8 : H + 1 ≤ H * (H + 1) + (H + 1) := Nat.le_add_left _ _
    omega
  dsimp only at h2
  split at h2 <;> cases h2
  · have := replaceFirst_len c!"<p><<toc>></p>" (nestHtml 0 n) s
    omega
  · have := replaceFirst_len c!"<<toc>>" (nestHtml 0 n) s
    omega

/-- `emit` without macros -/
theorem emitDoc_size {verbose : Int} {strict : Bool} {doc : Doc} (hl : doc.root.low d) (he : emitDoc verbose strict doc [] = .ok (s, ms')) :
    s.length ≤ bound d doc.root.weight + (if doc.used.contains c!"toc" then 44 * (doc.root.weight + 1) * (doc.root.weight + 1) else 0) := by
  unfold emitDoc at he
  dsimp only at he
  obtain ⟨x, h1, h2⟩ := bind_ok_inv he
  obtain ⟨a, ms1⟩ := x
  have hm : TocOnly 0 (if (doc.used.contains c!"toc" && (dictGet c!"toc" ([] : Macros)).isNone) = true then dictSet c!"toc" (.toc {}) [] else []) := by
    split
    · exact .inr ⟨{}, rfl, Nat.le_refl _⟩
    · exact .inl rfl
  have h3 := emitNode_size doc.root hm (Info.low_none rfl) hl h1
  have h4 := strip_len a
  dsimp only at h2
  split at h2
  · next hu =>
    rw [if_pos hu]
    rcases h3.1 with rfl | ⟨t, rfl, ht⟩
    · cases h2
    · have hg : dictGet c!"toc" [(c!"toc", Macro.toc t)] = some (.toc t) := rfl
      rw [hg] at h2
      dsimp only at h2
      obtain ⟨y, h5, h6⟩ := bind_ok_inv h2
      cases h6
      have h7 := tocEmit_size h5
      have h8 : 44 * (headSum t.headlines + 1) * (headSum t.headlines + 1) ≤ 44 * (doc.root.weight + 1) * (doc.root.weight + 1) :=
        Nat.mul_le_mul (Nat.mul_le_mul_left _ (by omega)) (by omega)
      have := h3.2
      omega
  · next hu =>
    cases h2
    rw [if_neg hu]
    have := h3.2
    omega

end Verif.Creole
