import Verif.Emit.Grow
import Verif.Html.TokenErrors
import Verif.Html.ParserLemmas
import Verif.Html.ReadDoc

/-!
# How large the document tree becomes
-/

namespace Verif.Emit.Gr

open Verif Py Html

/-! ## References in attributes -/

theorem keyStr_len (n : Nat) : (keyStr n).length ≤ 2 := by
  unfold keyStr; split <;> simp

theorem html5_len {s r : Str} (h : html5? s = some r) : r.length ≤ 2 := by
  unfold html5? at h
  cases hl : html5Table.lookup (strKey s) with
  | none => rw [hl] at h; cases h
  | some n => rw [hl] at h; cases h; exact keyStr_len n

theorem unescapeNum_len (n : Nat) : (unescapeNum n).length ≤ 1 := by
  unfold unescapeNum
  (repeat' split) <;> simp

theorem longestName_len {s : Str} (hs : 1 ≤ s.length) : ∀ x, (longestName s x).length ≤ s.length + 1
  | 0 => by rw [longestName]; simp
  | 1 => by rw [longestName]; simp
  | x + 2 => by
    rw [longestName]
    split
    · next r hr =>
      have := html5_len hr
      rw [List.length_append, List.length_drop]; omega
    · exact longestName_len hs (x + 1)

theorem unescapeNamed_len {s : Str} (hs : 1 ≤ s.length) : (unescapeNamed s).length ≤ s.length + 1 := by
  unfold unescapeNamed
  split
  · next r hr => have := html5_len hr; omega
  · exact longestName_len hs _

theorem optSemi_len (s : Str) : optSemi s ≤ s.length := by
  unfold optSemi; split <;> simp

theorem takeWhile_len (p : Char → Bool) (s : Str) : (s.takeWhile p).length ≤ s.length := (List.takeWhile_sublist p).length_le

theorem unescapeRef_len {rest r : Str} {n : Nat} (h : unescapeRef rest = .ok (some (r, n))) : r.length ≤ n + 1 ∧ n ≤ rest.length := by
  unfold unescapeRef at h
  split at h
  · next t =>
    split at h
    · next x hh =>
      dsimp only at h
      split at h
      · split at h
        · cases h
        · cases h
          have h1 := unescapeNum_len (hexNat (hh.takeWhile isHexA))
          have h2 := takeWhile_len isHexA hh
          have h3 := optSemi_len (hh.drop (hh.takeWhile isHexA).length)
          rw [List.length_drop] at h3
          simp only [List.length_cons]
          omega
      · split at h
        · cases h
        · split at h
          · next m hm =>
            cases h
            have h1 := unescapeNum_len m
            have h2 := takeWhile_len isDigitA (x :: hh)
            have h3 := optSemi_len ((x :: hh).drop ((x :: hh).takeWhile isDigitA).length)
            rw [List.length_drop] at h3
            simp only [List.length_cons] at *
            omega
          · cases h
    · cases h
  · dsimp only at h
    split at h
    · cases h
    · next hne =>
      cases h
      generalize hn : (rest.take 32).takeWhile (fun c =>
        !(c = '\t' || c = '\n' || c = Char.ofNat 12 || c = ' ' || c = '<' || c = '&' || c = '#' || c = ';')) = name at hne ⊢
      have h1 : name.length ≤ rest.length := by
        rw [← hn]
        exact Nat.le_trans (takeWhile_len _ _) (by rw [List.length_take]; omega)
      have h0 : 1 ≤ name.length := by
        cases name with
        | nil => simp at hne
        | cons => simp
      have h2 := optSemi_len (rest.drop name.length)
      rw [List.length_drop] at h2
      have h3 : name.length + optSemi (rest.drop name.length) ≤ rest.length := by omega
      refine ⟨?_, h3⟩
      have h4 : (rest.take (name.length + optSemi (rest.drop name.length))).length = name.length + optSemi (rest.drop name.length) := by
        rw [List.length_take]; omega
      have h5 := unescapeNamed_len (s := rest.take (name.length + optSemi (rest.drop name.length))) (by omega)
      omega

theorem map_ok {α β : Type} {f : α → β} {x : Except PyErr α} {b : β} (h : x.map f = .ok b) : ∃ a, x = .ok a ∧ b = f a := by
  cases x with
  | error e => cases h
  | ok a => cases h; exact ⟨a, rfl, rfl⟩

theorem unescapeAux_len : ∀ {s : Str} {k : Nat} {t : Str}, unescapeAux s k = .ok t → t.length ≤ s.length - k
  | [], _, _, h => by rw [unescapeAux] at h; cases h; exact Nat.zero_le _
  | c :: cs, k + 1, t, h => by
    rw [unescapeAux] at h
    have := unescapeAux_len h
    rw [List.length_cons]; omega
  | c :: cs, 0, t, h => by
    rw [unescapeAux] at h
    have skip : (unescapeAux cs 0).map (c :: ·) = .ok t → t.length ≤ (c :: cs).length - 0 := by
      intro h
      obtain ⟨a, ha, rfl⟩ := map_ok h
      have := unescapeAux_len ha
      simp only [List.length_cons]; omega
    split at h
    · split at h
      · cases h
      · exact skip h
      · next r n hr =>
        obtain ⟨a, ha, rfl⟩ := map_ok h
        have h1 := unescapeAux_len ha
        have h2 := unescapeRef_len hr
        simp only [List.length_append, List.length_cons]; omega
    · exact skip h

theorem attrVal_len {rest value : Option Str} {v : Option Str} (h : attrVal rest value = .ok v) :
    (v.getD []).length ≤ (value.getD []).length := by
  unfold attrVal at h
  split at h
  · cases h; exact Nat.zero_le _
  · split at h
    · cases h; exact Nat.zero_le _
    · split at h
      · cases h; exact Nat.zero_le _
      · next w =>
        dsimp only at h
        split at h
        · split at h
          · cases h; simp only [Option.getD_some, List.length_dropLast, List.length_tail]; omega
          · obtain ⟨a, ha, rfl⟩ := map_ok h
            have h1 := unescapeAux_len ha
            simp only [Option.getD_some, List.length_dropLast, List.length_tail] at *
            omega
        · split at h
          · cases h; exact Nat.le_refl _
          · obtain ⟨a, ha, rfl⟩ := map_ok h
            have h1 := unescapeAux_len ha
            simp only [Option.getD_some] at *
            omega

/-! ## Tags -/

def tagB : TG → Option Int
  | .name | .value => some 0
  | .rest => none

theorem tagB_nonneg : ∀ g x, tagB g = some x → 0 ≤ x := by
  intro g x h
  cases g <;> cases h <;> decide

theorem tagPair (caps : List (TG × Str)) :
    (((capGet .name caps).getD []).length : Int) + ((capGet .value caps).getD []).length ≤ capSum tagB caps := by
  have h0 := capSum_nonneg tagB_nonneg caps
  cases hn : capGet .name caps with
  | none =>
    cases hv : capGet .value caps with
    | none => simpa using h0
    | some v => have := capSum_get tagB_nonneg (g := .value) (x := 0) rfl hv; simp; omega
  | some w =>
    cases hv : capGet .value caps with
    | none => have := capSum_get tagB_nonneg (g := .name) (x := 0) rfl hn; simp; omega
    | some v =>
      have := capSum_get₂ tagB_nonneg (g := .name) (g' := .value) (by decide) (x := 0) (x' := 0) rfl rfl hn hv
      simp; omega

theorem attrLoop_len : ∀ {fuel : Nat} {prev : Option Char} {s : Str} {k : Nat} {l : List (Str × Option Str)} {r : Str},
    attrLoop fuel prev s k = .ok (l, r) → attrSize l + 2 * r.length ≤ 2 * s.length
  | 0, prev, s, k, l, r, h => by rw [attrLoop] at h; cases h; simp [attrSize]
  | fuel + 1, prev, s, k, l, r, h => by
    rw [attrLoop] at h
    split at h
    · cases h; simp [attrSize]
    · split at h
      · cases h; simp [attrSize]
      · next st hst =>
        have hm := Re.matchAt_mem hst
        have room := Re.res_room (b := tagB) (by decide) hm
        have one := Re.res_room (b := fun _ => none) (by decide) hm
        have hle := Re.res_le hm
        cases hv : attrVal (capGet .rest st.caps) (capGet .value st.caps) with
        | error e => rw [hv] at h; cases h
        | ok v =>
          rw [hv] at h
          cases hr : attrLoop fuel st.prev st.rest k with
          | error e => simp only [hr] at h; cases h
          | ok p =>
            obtain ⟨l', r'⟩ := p
            simp only [hr] at h
            cases h
            have ih := attrLoop_len hr
            have h1 := attrVal_len hv
            have pair := tagPair st.caps
            rw [attrSize, lower, List.length_map]
            have e1 : attrfindRe.spare tagB = 0 := by decide
            have e2 : attrfindRe.spare (fun _ => none) = 1 := by decide
            rw [e1] at room
            rw [e2] at one
            simp only [capSum] at room one
            have one' := capSum_nonneg (b := fun _ : TG => none) (by intro g x h; cases h) st.caps
            dsimp only at *
            omega

/-! ## Handler calls -/

def evSize : Event → Nat
  | .start t a => 1 + t.length + attrSize a
  | .startend t a => 1 + t.length + attrSize a
  | .end_ _ => 1
  | .data t => 1 + t.length
  | .charref t => 1 + t.length
  | .entityref t => 1 + t.length

def evsSize : List Event → Nat
  | [] => 0
  | e :: l => evSize e + evsSize l

theorem evsSize_append : ∀ l r : List Event, evsSize (l ++ r) = evsSize l + evsSize r
  | [], r => by simp [evsSize]
  | e :: l, r => by rw [List.cons_append, evsSize, evsSize, evsSize_append l r]; omega

/-- a step at `s` reports no more than it reads -/
def Fair (s : Str) : Html.Step → Prop
  | .go evs n _ => evsSize evs ≤ 3 * max n 1 ∧ evsSize evs ≤ 3 * s.length
  | .stop evs => evsSize evs ≤ 3 * s.length
  | .fail _ => True

theorem fair_nil (s : Str) (n : Nat) (c : Option Str) : Fair s (.go [] n c) := ⟨Nat.zero_le _, Nat.zero_le _⟩
theorem fair_stop (s : Str) : Fair s (.stop []) := Nat.zero_le _

theorem fair_data {s t : Str} {n : Nat} (c : Option Str) (hs : s ≠ []) (h1 : t.length ≤ n) (h2 : t.length ≤ s.length) : Fair s (.go [.data t] n c) := by
  have := List.length_pos_iff.mpr hs
  refine ⟨?_, ?_⟩ <;> simp only [evsSize, evSize] <;> omega

theorem fair_end {s t : Str} {n : Nat} (c : Option Str) (hs : s ≠ []) : Fair s (.go [.end_ t] n c) := by
  have := List.length_pos_iff.mpr hs
  refine ⟨?_, ?_⟩ <;> simp only [evsSize, evSize] <;> omega

theorem fair_start {s : Str} (hs : s ≠ []) : Fair s (parseStart s) := by
  have h0 := List.length_pos_iff.mpr hs
  unfold parseStart
  split
  · exact fair_stop s
  · next n hn =>
    split
    · trivial
    · next st hst =>
      dsimp only
      split
      · trivial
      · next attrs r hr =>
        have hm := Re.matchAt_mem hst
        have room := Re.res_room (b := tagB) (by decide) hm
        have e1 : tagfindRe.spare tagB = 0 := by decide
        have hle := Re.res_le hm
        have pair := tagPair st.caps
        have hl := attrLoop_len hr
        rw [e1] at room
        simp only [capSum, List.length_tail] at room hle
        have tag : (lower ((capGet .name st.caps).getD [])).length = ((capGet .name st.caps).getD []).length := by
          rw [lower, List.length_map]
        have key : ∀ e : Str, e ≠ [] → strip (r.take (r.length - (s.length - n))) = e →
            1 + ((capGet .name st.caps).getD []).length + attrSize attrs ≤ 3 * max n 1 ∧
            1 + ((capGet .name st.caps).getD []).length + attrSize attrs ≤ 3 * s.length := by
          intro e he h
          have : 0 < r.length - (s.length - n) := by
            rcases Nat.eq_zero_or_pos (r.length - (s.length - n)) with hz | hp
            · rw [hz, List.take_zero] at h
              exact absurd (by rw [← h]; rfl) he
            · exact hp
          omega
        split
        · next he =>
          have := key _ (by decide) he
          simp only [Fair, evsSize, evSize, tag, Nat.add_zero]; exact this
        · split
          · next he =>
            have := key _ (by decide) he
            simp only [Fair, evsSize, evSize, tag, Nat.add_zero]; exact this
          · exact fair_data _ hs (by rw [List.length_take]; omega) (by rw [List.length_take]; omega)

theorem fair_parseEnd {s : Str} (cdata : Option Str) (hs : s ≠ []) : Fair s (parseEnd cdata s) := by
  have hd : ∀ g c, Fair s (.go [.data (s.take g)] g c) := fun g c =>
    fair_data c hs (by rw [List.length_take]; omega) (by rw [List.length_take]; omega)
  unfold parseEnd
  split
  · exact fair_stop s
  · split
    · dsimp only
      split
      · split
        · exact hd _ _
        · exact fair_end _ hs
      · exact fair_end _ hs
    · split
      · exact hd _ _
      · split
        · split
          · exact fair_nil _ _ _
          · split
            · exact fair_stop s
            · exact fair_nil _ _ _
        · split
          · trivial
          · exact fair_end _ hs

theorem fair_close (r : TR) (off : Nat) (s : Str) : Fair s (closeAt r off s) := by
  unfold closeAt
  split
  · exact fair_stop s
  · exact fair_nil _ _ _

theorem fair_skip (off : Nat) (s : Str) : Fair s (skipTo off s) := by
  unfold skipTo
  split
  · exact fair_stop s
  · exact fair_nil _ _ _

theorem fair_decl (s : Str) : Fair s (parseDecl s) := by
  unfold parseDecl
  split
  · unfold parseSection
    split
    · trivial
    · exact fair_stop s
    · split
      · exact fair_close _ _ _
      · split
        · exact fair_close _ _ _
        · trivial
  · split <;> exact fair_skip _ _

theorem consumed_len (s r : Str) : (consumed s r).length ≤ s.length := by
  rw [consumed, List.length_take]; omega

theorem fair_charref {s : Str} (hs : s ≠ []) : Fair s (parseCharref s) := by
  have h0 := List.length_pos_iff.mpr hs
  unfold parseCharref
  split
  · next st hst =>
    have h1 := consumed_len s st.rest
    have h2 : ((consumed s st.rest).drop 2).dropLast.length = (consumed s st.rest).length - 3 := by
      rw [List.length_dropLast, List.length_drop]; omega
    dsimp only [Fair]
    simp only [evsSize, evSize, h2]
    constructor
    · split <;> omega
    · omega
  · split
    · simp only [Fair, evsSize, evSize, List.length_take]; omega
    · exact fair_stop s

theorem fair_entity {s : Str} (hs : s ≠ []) : Fair s (parseEntity s) := by
  have h0 := List.length_pos_iff.mpr hs
  unfold parseEntity
  split
  · next st hst =>
    have hm := Re.matchAt_mem hst
    have room := Re.res_room (b := tagB) (by decide) hm
    have e1 : 0 ≤ entityRe.spare tagB := by decide
    have hle := Re.res_le hm
    have pair := tagPair st.caps
    simp only [capSum] at room hle
    have h1 : (consumed s st.rest).length = s.length - st.rest.length := by
      rw [consumed, List.length_take]; omega
    dsimp only [Fair]
    simp only [evsSize, evSize, h1]
    constructor
    · split <;> omega
    · omega
  · split
    · split
      · exact fair_stop _
      · exact fair_data _ hs (by simp) (by simp)
    · exact fair_stop _

theorem searchRe_len {r : TR} : ∀ {s : Str} {prev : Option Char} {a b t : Str}, searchRe r prev s = some (a, b, t) → a.length ≤ s.length
  | [], prev, a, b, t, h => by
    rw [searchRe, Option.map_eq_some_iff] at h
    obtain ⟨_, _, h⟩ := h
    cases h; exact Nat.le_refl _
  | c :: cs, prev, a, b, t, h => by
    rw [searchRe] at h
    split at h
    · cases h; exact Nat.zero_le _
    · rw [Option.map_eq_some_iff] at h
      obtain ⟨⟨a', b', t'⟩, h1, h⟩ := h
      cases h
      have := searchRe_len h1
      simp only [List.length_cons]; omega

theorem fair_step (cdata : Option Str) (prev : Option Char) {s : Str} (hs : s ≠ []) : Fair s (step cdata prev s) := by
  unfold step
  split
  · split
    · exact fair_stop s
    · exact fair_parseEnd _ hs
    · next h => exact fair_data _ hs (Nat.le_refl _) (searchRe_len h)
  · dsimp only
    split
    · exact fair_data _ hs (Nat.le_refl _) (takeWhile_len _ _)
    · split
      · split
        · split
          · exact fair_start hs
          · split
            · exact fair_parseEnd _ hs
            · split
              · exact fair_close _ _ _
              · split
                · exact fair_skip _ _
                · split
                  · exact fair_decl _
                  · exact fair_data _ hs (by simp) (by simp)
        · exact fair_stop _
      · exact fair_charref hs
      · exact fair_entity hs
      · trivial

theorem goahead_len : ∀ (s : Str) (cdata : Option Str) (prev : Option Char) (k : Nat),
    evsSize (goahead cdata prev s k).1 ≤ 3 * (s.length - k)
  | [], cdata, prev, k => by simp [goahead, evsSize]
  | c :: cs, cdata, prev, k + 1 => by
    rw [goahead, List.length_cons]
    have := goahead_len cs cdata (some c) k
    omega
  | c :: cs, cdata, prev, 0 => by
    have hf := fair_step cdata prev (s := c :: cs) (by simp)
    rw [goahead]
    split
    · next evs h => rw [h] at hf; exact hf
    · exact Nat.zero_le _
    · next evs n cdata' h =>
      rw [h] at hf
      have ih := goahead_len cs cdata' (some c) (n - 1)
      obtain ⟨h1, h2⟩ := hf
      dsimp only
      rw [evsSize_append]
      simp only [List.length_cons] at *
      omega

/-- what the tokenizer reports about a text -/
theorem tokens_len (s : Str) : evsSize (tokens s).1 ≤ 3 * s.length := goahead_len s none none 0

end Verif.Emit.Gr
