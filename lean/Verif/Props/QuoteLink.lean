import Verif.Spec.Url
import Verif.Props.Faults

/-!
# C67: `quote_link`
-/

namespace Verif.Props

open Verif Py Html Emit Spec

/-! ## The path -/

theorem flatMap_congr' {α β : Type} {l : List α} {f g : α → List β} (h : ∀ a ∈ l, f a = g a) : l.flatMap f = l.flatMap g := by
  rw [List.flatMap_def, List.flatMap_def, List.map_congr_left h]

theorem utf8_eq (c : Char) : (String.utf8EncodeChar c).map UInt8.toNat = utf8 c := by
  have hv : c.toNat < 1114112 := by
    have := c.valid
    unfold UInt32.isValidChar Nat.isValidChar at this
    show c.val.toNat < _
    omega
  unfold String.utf8EncodeChar utf8
  dsimp only [Char.toNat] at hv ⊢
  generalize c.val.toNat = v at hv
  repeat' split
  all_goals first
    | (exfalso; omega)
    | (simp only [List.map_cons, List.map_nil, UInt8.toNat_ofNat']
       congr 1 <;> first | omega | (congr 1 <;> first | omega | (congr 1 <;> first | omega | (congr 1; omega))))

theorem isUrlSafe_byte (n : Nat) (h : n < 128) : isUrlSafe n = unreserved (Char.ofNat n) := by
  have key : ∀ k : Fin 128, isUrlSafe k.val = unreserved (Char.ofNat k.val) := by decide +kernel
  exact key ⟨n, h⟩

theorem isUrlSafe_large (n : Nat) (h : 128 ≤ n) : isUrlSafe n = false := by
  unfold isUrlSafe
  simp
  omega

theorem unreserved_small {c : Char} (h : unreserved c = true) : c.toNat < 128 := by
  unfold unreserved Char.isAlphanum Char.isAlpha Char.isUpper Char.isLower Char.isDigit at h
  simp only [ge_iff_le, Bool.or_eq_true, Bool.and_eq_true, decide_eq_true_eq] at h
  have e : ∀ k : UInt32, c.val ≤ k → c.toNat ≤ k.toNat := fun k h => h
  rcases h with ((((((h | h) | h) | h) | h) | h) | h) | h
  · have := e _ h.2; simp at this; omega
  · have := e _ h.2; simp at this; omega
  · have := e _ h.2; simp at this; omega
  all_goals (subst h; decide)

theorem upHexDigit_eq (n : Nat) : upHexDigit n = upDigit n := by
  unfold upHexDigit upDigit
  split <;> rfl

theorem quoteByte_unsafe {b : UInt8} (h : isUrlSafe b.toNat = false) : quoteByte b.toNat = percentByte b := by
  rw [quoteByte, h, percentByte, upHexDigit_eq, upHexDigit_eq]
  rfl

theorem utf8_small {c : Char} (h : c.toNat < 128) : utf8 c = [c.toNat] := by
  unfold utf8
  dsimp only
  rw [if_pos h]

theorem utf8_large {c : Char} (h : ¬ c.toNat < 128) : ∀ n ∈ utf8 c, 128 ≤ n := by
  unfold utf8
  dsimp only
  rw [if_neg h]
  intro n hn
  repeat' split at hn
  all_goals
    simp only [List.mem_cons, List.not_mem_nil, or_false] at hn
    omega

theorem quoteChar_eq (c : Char) : (utf8 c).flatMap quoteByte =
    if unreserved c then [c] else (String.utf8EncodeChar c).flatMap percentByte := by
  by_cases hs : c.toNat < 128
  · have hc : Char.ofNat c.toNat = c := Char.ofNat_toNat c
    split
    · next hu =>
      rw [utf8_small hs, List.flatMap_cons, List.flatMap_nil, List.append_nil, quoteByte, isUrlSafe_byte _ hs, hc, hu, if_pos rfl]
    · next hu =>
      rw [← utf8_eq, List.flatMap_map]
      apply flatMap_congr'
      intro b hb
      apply quoteByte_unsafe
      have : b.toNat ∈ utf8 c := by rw [← utf8_eq]; exact List.mem_map.mpr ⟨b, hb, rfl⟩
      rw [utf8_small hs, List.mem_singleton] at this
      rw [this, isUrlSafe_byte _ hs, hc]
      simpa using hu
  · rw [if_neg fun h => hs (unreserved_small h), ← utf8_eq, List.flatMap_map]
    apply flatMap_congr'
    intro b hb
    apply quoteByte_unsafe
    exact isUrlSafe_large _ (utf8_large hs _ (by rw [← utf8_eq]; exact List.mem_map.mpr ⟨b, hb, rfl⟩))

theorem quote_eq (s : Str) : quote s = percent s := by
  unfold quote percent
  apply flatMap_congr'
  intro c _
  exact quoteChar_eq c

/-! ## The parts -/

theorem splitAtChar_none {c : Char} {s : Str} (h : c ∉ s) : splitAtChar c s = (s, []) := by
  have : splitOnce c s = none := by
    induction s with
    | nil => rfl
    | cons d s ih =>
      simp only [List.mem_cons, not_or] at h
      rw [splitOnce, if_neg (by simp; exact fun e => h.1 e.symm), ih h.2]
      rfl
  rw [splitAtChar, this]

theorem splitAtChar_some {c : Char} {a b : Str} (h : c ∉ a) : splitAtChar c (a ++ c :: b) = (a, b) := by
  rw [splitAtChar, splitOnce_append a b h]

/-- a part that may be missing is split off -/
theorem splitAtChar_part {c : Char} {a b : Str} (h : c ∉ a) : splitAtChar c (a ++ if b = [] then [] else [c] ++ b) = (a, b) := by
  split
  · next hb => rw [List.append_nil, hb, splitAtChar_none h]
  · exact splitAtChar_some h

/-- what follows the scheme -/
def Address.rest (a : Address) : Str :=
  (if a.host = [] then [] else c!"//" ++ a.host) ++ a.path ++
    (if a.query = [] then [] else c!"?" ++ a.query) ++ (if a.fragment = [] then [] else c!"#" ++ a.fragment)

theorem Address.text_eq (a : Address) : a.text = (if a.scheme = [] then [] else a.scheme ++ c!":") ++ Address.rest a := by
  simp [Address.text, Address.rest]

theorem schemeChar_lower {c : Char} (h : schemeChar c = true) : lowerAscii c = c ∧ isSchemeChar c = true ∧ c ≠ ':' := by
  unfold schemeChar at h
  simp only [Bool.or_eq_true, Bool.and_eq_true, decide_eq_true_eq] at h
  refine ⟨?_, ?_, ?_⟩
  · unfold lowerAscii
    rw [if_neg]
    rintro ⟨h1, h2⟩
    rcases h with (((h | h) | rfl) | rfl) | rfl
    · exact absurd (Char.le_trans h.1 h2) (by decide)
    · unfold Char.isDigit at h
      simp only [Bool.and_eq_true, decide_eq_true_eq] at h
      exact absurd (Char.le_trans h1 (show c ≤ '9' from h.2)) (by decide)
    · exact absurd h1 (by decide)
    · exact absurd h1 (by decide)
    · exact absurd h1 (by decide)
  · unfold isSchemeChar isAlphaA isDigitA
    rcases h with (((h | h) | rfl) | rfl) | rfl
    · simp [h]
    · unfold Char.isDigit at h
      simp only [Bool.and_eq_true, decide_eq_true_eq] at h
      have h1 : '0' ≤ c := h.1
      have h2 : c ≤ '9' := h.2
      simp [h1, h2]
    · decide
    · decide
    · decide
  · rintro rfl
    revert h
    decide

theorem lower_schemeChar {c : Char} (h : isSchemeChar c = true) : schemeChar (lowerAscii c) = true := by
  unfold lowerAscii
  split
  · next hu =>
    have h1 : 65 ≤ c.toNat := hu.1
    have h2 : c.toNat ≤ 90 := hu.2
    have key : ∀ k : Fin 26, schemeChar (Char.ofNat (k.val + 65 + 32)) = true := by decide +kernel
    have := key ⟨c.toNat - 65, by omega⟩
    simpa only [Nat.sub_add_cancel h1] using this
  · next hu =>
    unfold isSchemeChar isAlphaA isDigitA at h
    unfold schemeChar Char.isDigit
    simp only [Bool.or_eq_true, Bool.and_eq_true, decide_eq_true_eq] at h ⊢
    rcases h with (((((h | h) | h) | h) | h) | h)
    · exact .inl (.inl (.inl (.inl h)))
    · exact (hu h).elim
    · exact .inl (.inl (.inl (.inr h)))
    · exact .inl (.inl (.inr h))
    · exact .inl (.inr h)
    · exact .inr h

theorem splitOnce_mem {c : Char} : ∀ {s : Str} {p : Str × Str}, splitOnce c s = some p → c ∈ s
  | [], _, h => by cases h
  | d :: s, p, h => by
    rw [splitOnce] at h
    split at h
    · next hd => rw [beq_iff_eq] at hd; rw [hd]; exact List.mem_cons_self
    · cases hs : splitOnce c s with
      | none => rw [hs] at h; cases h
      | some q => exact List.mem_cons_of_mem _ (splitOnce_mem hs)

theorem urlSplitOnce_none {c : Char} : ∀ {s : Str}, splitOnce c s = none → c ∉ s
  | [], _ => by simp
  | d :: s, h => by
    rw [splitOnce] at h
    split at h
    · cases h
    · next hd =>
      cases hs : splitOnce c s with
      | some p => rw [hs] at h; cases h
      | none =>
        simp only [List.mem_cons, not_or]
        exact ⟨fun e => hd (by simp [e]), urlSplitOnce_none hs⟩

theorem splitOnce_takeWhile {c : Char} : ∀ {s a b : Str}, splitOnce c s = some (a, b) → s.takeWhile (· ≠ c) = a
  | [], _, _, h => by cases h
  | d :: s, a, b, h => by
    rw [splitOnce] at h
    split at h
    · next hd =>
      cases h
      rw [List.takeWhile_cons, if_neg]
      simpa using hd
    · next hd =>
      cases hs : splitOnce c s with
      | none => rw [hs] at h; cases h
      | some p =>
        rw [hs] at h
        cases h
        rw [List.takeWhile_cons, if_pos (by simpa using hd), splitOnce_takeWhile (b := p.2) hs]

theorem schemePart_text {a : Address} (h : a.Ok) : schemePart a.text = (a.scheme, Address.rest a) := by
  rw [schemePart]
  by_cases hs : a.scheme = []
  · have hn := h.noScheme hs
    rw [Address.text_eq, if_pos hs, List.nil_append] at hn ⊢
    rw [hs]
    cases hso : splitOnce ':' (Address.rest a) with
    | none => rfl
    | some p =>
      obtain ⟨x, y⟩ := p
      dsimp only
      cases x with
      | nil => rfl
      | cons c x =>
        dsimp only
        rw [if_neg]
        intro hall
        rw [Bool.and_eq_true] at hall
        unfold Spec.noScheme at hn
        rw [Bool.or_eq_true] at hn
        rcases hn with hn | hn
        · have : ':' ∈ Address.rest a := splitOnce_mem hso
          simp at hn
          exact hn this
        · rw [splitOnce_takeWhile hso, List.any_eq_true] at hn
          obtain ⟨d, hd, hd'⟩ := hn
          have := List.all_eq_true.mp hall.2 d hd
          rw [lower_schemeChar this] at hd'
          cases hd'
  · rw [Address.text_eq, if_neg hs, List.append_assoc, List.singleton_append,
      splitOnce_append _ _ fun hc => (schemeChar_lower (h.scheme.1 _ hc)).2.2 rfl]
    dsimp only
    cases hsc : a.scheme with
    | nil => exact (hs hsc).elim
    | cons c x =>
      dsimp only
      rw [if_pos]
      · congr 1
        rw [← hsc, lower]
        conv => rhs; rw [← List.map_id a.scheme]
        apply List.map_congr_left
        intro d hd
        exact (schemeChar_lower (h.scheme.1 d hd)).1
      · rw [Bool.and_eq_true]
        refine ⟨?_, ?_⟩
        · have := h.scheme.2 c (by rw [hsc]; rfl)
          unfold isAlphaA
          simp [this]
        · rw [List.all_eq_true, ← hsc]
          intro d hd
          exact (schemeChar_lower (h.scheme.1 d hd)).2.1

theorem netlocPart_rest {a : Address} (h : a.Ok) : netlocPart (Address.rest a) = (a.host, a.path ++
    (if a.query = [] then [] else c!"?" ++ a.query) ++ (if a.fragment = [] then [] else c!"#" ++ a.fragment)) := by
  rw [netlocPart, Address.rest]
  by_cases hh : a.host = []
  · rw [if_pos hh, hh, List.nil_append, if_neg]
    intro hp
    rw [List.isPrefixOf_iff_prefix] at hp
    have := (h.noHost hh).2
    have hq : ∀ c ∈ a.path, c ≠ '?' ∧ c ≠ '#' := by
      intro c hc
      have := h.path c hc
      simp only [List.mem_cons, List.not_mem_nil, or_false, not_or] at this
      exact ⟨this.1, this.2.1⟩
    match hpa : a.path with
    | [] =>
      rw [hpa, List.nil_append] at hp
      by_cases h1 : a.query = []
      · rw [if_pos h1, List.nil_append] at hp
        by_cases h2 : a.fragment = []
        · rw [if_pos h2] at hp; simp at hp
        · rw [if_neg h2] at hp; simp at hp
      · rw [if_neg h1] at hp; simp at hp
    | [x] =>
      rw [hpa] at hp
      by_cases h1 : a.query = []
      · rw [if_pos h1, List.append_nil] at hp
        by_cases h2 : a.fragment = []
        · rw [if_pos h2] at hp; simp at hp
        · rw [if_neg h2] at hp; simp at hp
      · rw [if_neg h1] at hp; simp at hp
    | x :: y :: r =>
      rw [hpa] at hp this
      simp only [List.cons_append, List.cons_prefix_cons, List.nil_prefix, and_true] at hp this
      exact this hp
  · rw [if_neg hh, if_pos (by simp [List.isPrefixOf])]
    have hd : ∀ X : Str, (c!"//" ++ a.host ++ X).drop 2 = a.host ++ X := fun X => rfl
    have ht : (a.host ++ (a.path ++ (if a.query = [] then [] else c!"?" ++ a.query) ++
        (if a.fragment = [] then [] else c!"#" ++ a.fragment))).takeWhile (fun c => !(c = '/' || c = '?' || c = '#')) = a.host := by
      have hhost : ∀ c ∈ a.host, (!(c = '/' || c = '?' || c = '#')) = true := by
        intro c hc
        have := h.host c hc
        simp only [List.mem_cons, List.not_mem_nil, or_false, not_or] at this
        simp [this]
      rw [List.takeWhile_append_of_pos hhost]
      conv => rhs; rw [← List.append_nil a.host]
      congr 1
      rcases h.slash hh with hp | hp
      · rw [hp, List.nil_append]
        by_cases h1 : a.query = []
        · rw [if_pos h1, List.nil_append]
          by_cases h2 : a.fragment = []
          · rw [if_pos h2]; rfl
          · rw [if_neg h2]; simp
        · rw [if_neg h1]; simp
      · cases hpa : a.path with
        | nil => rw [hpa] at hp; cases hp
        | cons x r =>
          rw [hpa] at hp
          simp only [List.head?_cons, Option.some.injEq] at hp
          simp [hp]
    rw [List.append_assoc, List.append_assoc, ← List.append_assoc a.path, hd, ht]
    dsimp only
    rw [List.drop_left]

/-- the parts of a URL -/
def urlOfText (u : Str) : Url :=
  let r := (netlocPart (schemePart u).2).2
  let a := splitAtChar '#' r
  let b := splitAtChar '?' a.1
  let c := if usesParams.contains (schemePart u).1 && b.1.contains ';' then
      ((splitLastSlash b.1).1 ++ (splitAtChar ';' (splitLastSlash b.1).2).1, (splitAtChar ';' (splitLastSlash b.1).2).2)
    else (b.1, [])
  ⟨(schemePart u).1, (netlocPart (schemePart u).2).1, c.1, c.2, b.2, a.2⟩

theorem urlparse_parts (ok : Str → Bool) (url : Str) : urlparse ok url =
    (fun u => if (netlocPart (schemePart u).2).1.contains '[' != (netlocPart (schemePart u).2).1.contains ']' then .error .valueError
      else if !ok (netlocPart (schemePart u).2).1 then .error .valueError else .ok (urlOfText u))
    ((url.dropWhile fun c => c.toNat ≤ 32).filter fun c => !(c = '\t' || c = '\r' || c = '\n')) := rfl

theorem urlparse_text {ok : Str → Bool} {a : Address} (h : a.Ok) (hok : ok a.host = true) :
    urlparse ok a.text = .ok ⟨a.scheme, a.host, a.path, [], a.query, a.fragment⟩ := by
  have h1 : (a.text.dropWhile fun c => c.toNat ≤ 32) = a.text := by
    cases ht : a.text with
    | nil => rfl
    | cons c t =>
      have := h.start c (by rw [ht]; rfl)
      rw [List.dropWhile_cons, if_neg (by simp; omega)]
  have h2 : (a.text.filter fun c => !(c = '\t' || c = '\r' || c = '\n')) = a.text := by
    rw [List.filter_eq_self]
    intro c hc
    have := h.oneLine c hc
    simp [this]
  have hb : ∀ c, c = '[' ∨ c = ']' → a.host.contains c = false := by
    intro c hc
    cases hx : a.host.contains c with
    | false => rfl
    | true =>
      rw [List.contains_iff_mem] at hx
      exact absurd (by rcases hc with rfl | rfl <;> simp) (h.host c hx)
  have hmem : ∀ {c : Char}, c = '?' ∨ c = '#' ∨ c = ';' → c ∉ a.path := fun hc hm =>
    h.path _ hm (by rcases hc with rfl | rfl | rfl <;> simp)
  rw [urlparse_parts, h1, h2]
  dsimp only
  rw [urlOfText]
  rw [schemePart_text h]
  dsimp only
  rw [netlocPart_rest h]
  dsimp only
  rw [splitAtChar_part (c := '#'), splitAtChar_part (c := '?') (hmem (.inl rfl))]
  · dsimp only
    rw [hb _ (.inl rfl), hb _ (.inr rfl), hok, show a.path.contains ';' = false from ?_]
    · simp
    · cases hx : a.path.contains ';' with
      | false => rfl
      | true =>
        rw [List.contains_iff_mem] at hx
        exact absurd hx (hmem (.inr (.inr rfl)))
  · intro hm
    rcases List.mem_append.mp hm with hm | hm
    · exact hmem (.inr (.inl rfl)) hm
    · split at hm
      · cases hm
      · rcases List.mem_cons.mp hm with hm | hm
        · exact absurd hm (by decide)
        · exact h.query _ hm rfl

theorem unparse_address {a : Address} (hs : a.host ≠ [] → a.path = [] ∨ a.path.head? = some '/')
    (hh : a.host = [] → a.scheme ∉ hostSchemes ∧ ¬ c!"//" <+: a.path) :
    urlunparse ⟨a.scheme, a.host, a.path, [], a.query, a.fragment⟩ = a.text := by
  have hu : ∀ s : Str, s ≠ [] → (usesNetloc.contains s = true ↔ s ∈ hostSchemes) := by
    intro s hne
    rw [List.contains_iff_mem, show usesNetloc = [] :: hostSchemes from rfl, List.mem_cons]
    simp [hne]
  have hbody : (if a.host ≠ [] || (a.scheme ≠ [] && usesNetloc.contains a.scheme) || c!"//".isPrefixOf a.path then
      c!"//" ++ a.host ++ (if a.path ≠ [] && a.path.head? ≠ some '/' then '/' :: a.path else a.path) else a.path) =
      (if a.host = [] then [] else c!"//" ++ a.host) ++ a.path := by
    by_cases h0 : a.host = []
    · obtain ⟨h1, h2⟩ := hh h0
      rw [if_neg, if_pos h0]
      · rfl
      · simp only [h0, ne_eq, not_true_eq_false, decide_false, Bool.false_or, Bool.or_eq_true, Bool.and_eq_true, decide_eq_true_eq,
          not_or, List.isPrefixOf_iff_prefix]
        exact ⟨fun h => h1 ((hu _ h.1).mp h.2), h2⟩
    · rw [if_pos (by simp [h0]), if_neg h0]
      congr 1
      rw [if_neg]
      rcases hs h0 with h | h <;> simp [h]
  have key : urlunparse ⟨a.scheme, a.host, a.path, [], a.query, a.fragment⟩ = (fun url : Str =>
      let url := if a.scheme ≠ [] then a.scheme ++ ':' :: url else url
      let url := if a.query ≠ [] then url ++ '?' :: a.query else url
      if a.fragment ≠ [] then url ++ '#' :: a.fragment else url)
      (if a.host ≠ [] || (a.scheme ≠ [] && usesNetloc.contains a.scheme) || c!"//".isPrefixOf a.path then
      c!"//" ++ a.host ++ (if a.path ≠ [] && a.path.head? ≠ some '/' then '/' :: a.path else a.path) else a.path) := rfl
  rw [key, hbody, Address.text]
  by_cases hq : a.query = [] <;> by_cases hf : a.fragment = [] <;> by_cases hsc : a.scheme = [] <;> simp [hq, hf, hsc]

theorem unreserved_slash : unreserved '/' = true := by decide

/-- **C67**: quote_link encodes the path of an address and keeps everything else. -/
theorem C67_address (netlocOk : Str → Bool) (a : Address) (h : a.Ok) (hok : netlocOk a.host = true) :
    quoteLink netlocOk a.text = .ok { a with path := percent a.path }.text := by
  unfold quoteLink
  rw [urlparse_text h hok]
  show Except.ok (urlunparse ⟨a.scheme, a.host, quote a.path, [], a.query, a.fragment⟩) = _
  rw [quote_eq]
  congr 1
  refine unparse_address (a := { a with path := percent a.path }) ?_ ?_
  · intro h0
    rcases h.slash h0 with hp | hp
    · left
      show percent a.path = []
      rw [hp]; rfl
    · right
      show (percent a.path).head? = _
      cases hpa : a.path with
      | nil => rw [hpa] at hp; cases hp
      | cons c r =>
        rw [hpa] at hp
        simp only [List.head?_cons, Option.some.injEq] at hp
        rw [hp, percent, List.flatMap_cons, if_pos unreserved_slash]
        rfl
  · intro h0
    refine ⟨(h.noHost h0).1, ?_⟩
    intro hp
    apply (h.noHost h0).2
    have key : ∀ {c : Char} {r t : Str}, percent (c :: r) = '/' :: t → c = '/' ∧ t = percent r := by
      intro c r t e
      rw [percent, List.flatMap_cons] at e
      by_cases hu : unreserved c = true
      · rw [if_pos hu] at e
        simp only [List.cons_append, List.nil_append, List.cons.injEq] at e
        exact ⟨e.1, e.2.symm⟩
      · rw [if_neg hu] at e
        exfalso
        cases hc : String.utf8EncodeChar c with
        | nil => simp at hc
        | cons b bs =>
          rw [hc, List.flatMap_cons, percentByte] at e
          simp at e
    obtain ⟨t, ht⟩ := hp
    change c!"//" ++ t = percent a.path at ht
    cases hpa : a.path with
    | nil => rw [hpa] at ht; simp [percent] at ht
    | cons c r =>
      rw [hpa] at ht
      obtain ⟨rfl, h2⟩ := key ht.symm
      cases r with
      | nil => simp [percent] at h2
      | cons d r =>
        obtain ⟨rfl, _⟩ := key h2.symm
        exact ⟨r, rfl⟩

theorem byte_digits (b : UInt8) : UInt8.ofNat (16 * digitValue (upDigit (b.toNat / 16)) + digitValue (upDigit (b.toNat % 16))) = b := by
  have key : ∀ k : Fin 16, digitValue (upDigit k.val) = k.val := by decide +kernel
  have h := b.toNat_lt
  have h1 := key ⟨b.toNat / 16, by omega⟩
  have h2 := key ⟨b.toNat % 16, by omega⟩
  dsimp only at h1 h2
  rw [h1, h2, Nat.div_add_mod]
  exact UInt8.ofNat_toNat

theorem unpercent_bytes (bs : List UInt8) (s : Str) : unpercent (bs.flatMap percentByte ++ s) = bs ++ unpercent s := by
  induction bs with
  | nil => rfl
  | cons b bs ih =>
    rw [List.flatMap_cons, percentByte, List.append_assoc]
    show unpercent ('%' :: upDigit (b.toNat / 16) :: upDigit (b.toNat % 16) :: (bs.flatMap percentByte ++ s)) = _
    rw [unpercent, byte_digits, ih]
    rfl

/-- **C67**: the encoded path stands for the same text. -/
theorem C67_decodes (s : Str) : unpercent (percent s) = s.flatMap String.utf8EncodeChar := by
  induction s with
  | nil => rfl
  | cons c s ih =>
    rw [percent, List.flatMap_cons, List.flatMap_cons, ← ih]
    split
    · next hu =>
      rw [List.singleton_append, unpercent]
      · rfl
      · rintro a b r rfl
        cases hu
    · exact unpercent_bytes _ _

/-- **C67**: an address with nothing to encode is kept. -/
theorem C67_unchanged (netlocOk : Str → Bool) (a : Address) (h : a.Ok) (hok : netlocOk a.host = true)
    (hp : ∀ c ∈ a.path, unreserved c = true) : quoteLink netlocOk a.text = .ok a.text := by
  have : percent a.path = a.path := by
    rw [percent]
    conv => rhs; rw [← List.flatMap_singleton' a.path]
    exact flatMap_congr' fun c hc => by rw [if_pos (hp c hc)]
  rw [C67_address netlocOk a h hok, this]

/-- **C67**: but a percent sign is encoded like any other character, -/
theorem C67_percent_sign (s t : Str) : percent (s ++ c!"%" ++ t) = percent s ++ c!"%25" ++ percent t := by
  rw [percent, List.flatMap_append, List.flatMap_append]
  rfl

/-- **C67**: so an address that is encoded already is encoded again. -/
theorem C67_encoded_twice : quoteLink (fun _ => true) c!"http://x.org/a%20b" = .ok c!"http://x.org/a%2520b" ∧
    html2markdown (fun _ => true) c!"<a href='http://x.org/a%20b'>y</a>" = .ok c!"[y](http://x.org/a%2520b)" := by
  decide +kernel

/-- an address that meets the conditions -/
def someAddress : Address := { scheme := c!"https", host := c!"foo.tld", path := c!"/a image.png", query := c!"bar=1", fragment := c!"anchor" }

example : someAddress.text = c!"https://foo.tld/a image.png?bar=1#anchor" ∧
    { someAddress with path := percent someAddress.path }.text = c!"https://foo.tld/a%20image.png?bar=1#anchor" := by decide +kernel

example : someAddress.Ok where
  scheme := by decide
  noScheme := by decide
  host := by decide
  path := by decide
  slash := by decide
  noHost := by decide
  query := by decide
  oneLine := by decide
  start := by decide

end Verif.Props
