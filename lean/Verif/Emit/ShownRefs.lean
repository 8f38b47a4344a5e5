import Verif.Spec.Shown

/-!
# Decoding of references, exactly

`Deentity.replace_all` gives the text with the references replaced that the specification `unref` describes.
-/

namespace Verif.Props

open Verif Py Html Re Spec Spec.Sh

theorem letter_mem (c : Char) : nameSet.mem c = isLetter c := rfl

theorem pyChr_ok {n : Nat} {c : Char} (h : pyChr n = .ok c) : c = Char.ofNat n := by
  unfold pyChr at h
  split at h
  · cases h
  · split at h
    · cases h
    · split at h
      · cases h
      · exact (Except.ok.inj h).symm

theorem replaceHex_ok {hs t : Str} (h : replaceHex hs = .ok t) (ha : ∀ c ∈ hs, isHexDigit c = true) :
    t = [Char.ofNat (hexValue hs)] ∧ hs ≠ [] := by
  unfold replaceHex at h
  split at h
  · cases h
  · next hc =>
    rw [hexNat_eq ha] at h
    cases hp : pyChr (hexValue hs) with
    | error e => rw [hp] at h; cases h
    | ok c =>
      rw [hp] at h
      cases h
      refine ⟨by rw [pyChr_ok hp], ?_⟩
      rintro rfl
      exact hc rfl

theorem replaceNumber_ok {ds t : Str} (h : replaceNumber ds = .ok t) (hne : ds ≠ []) (ha : ∀ c ∈ ds, (decimal? c).isSome = true) :
    t = [Char.ofNat (decValue ds)] := by
  unfold replaceNumber at h
  rw [pyInt_dec hne ha] at h
  split at h
  · cases h
  · next n hn =>
    split at hn
    · cases hn
      change (pyChr (decValue ds)).map (fun c => [c]) = .ok t at h
      cases hp : pyChr (decValue ds) with
      | error e => rw [hp] at h; cases h
      | ok c =>
        rw [hp] at h
        cases h
        rw [pyChr_ok hp]
    · cases hn

theorem replaceNamed_ok {w t : Str} (h : replaceNamed w = .ok t) : ∃ c, named w = some c ∧ t = [c] := by
  unfold replaceNamed at h
  unfold named
  split at h
  · next hn => cases h; exact ⟨' ', by rw [if_pos hn], rfl⟩
  · next hn =>
    rw [if_neg hn]
    split at h
    · next n hl => cases h; exact ⟨_, by rw [hl]; rfl, rfl⟩
    · cases h

theorem replaceNamed_error {w : Str} {e : PyErr} (h : replaceNamed w = .error e) : named w = none := by
  unfold replaceNamed at h
  unfold named
  split at h
  · cases h
  · next hn =>
    rw [if_neg hn]
    split at h
    · cases h
    · next hl => rw [hl]; rfl

theorem numbered_dec {ds : Str} (hne : ds ≠ []) (ha : ∀ c ∈ ds, (decimal? c).isSome = true) :
    numbered ds = some (Char.ofNat (decValue ds)) := by
  unfold numbered
  split
  · exact absurd (ha 'x' (by simp)) (by decide)
  · rw [if_pos ⟨hne, List.all_eq_true.mpr ha⟩]

theorem numbered_hex {hs : Str} (hne : hs ≠ []) (ha : ∀ c ∈ hs, isHexDigit c = true) :
    numbered ('x' :: hs) = some (Char.ofNat (hexValue hs)) := by
  show (if hs ≠ [] ∧ hs.all isHexDigit = true then some (Char.ofNat (hexValue hs)) else none) = _
  rw [if_pos ⟨hne, List.all_eq_true.mpr ha⟩]

theorem takeWhile_semi {w rest : Str} (h : ';' ∉ w) : (w ++ ';' :: rest).takeWhile (· ≠ ';') = w := by
  rw [List.takeWhile_append_of_pos (by intro c hc; simp; rintro rfl; exact h hc)]
  simp

theorem dropWhile_semi {w rest : Str} (h : ';' ∉ w) : (w ++ ';' :: rest).dropWhile (· ≠ ';') = ';' :: rest := by
  rw [List.dropWhile_append_of_pos (by intro c hc; simp; rintro rfl; exact h hc)]
  simp

theorem split_semi {s rest : Str} (h : s.dropWhile (· ≠ ';') = ';' :: rest) :
    s = s.takeWhile (· ≠ ';') ++ ';' :: rest := by
  rw [← h, List.takeWhile_append_dropWhile]

/-- the three forms of a reference -/
theorem entities_inv {prev : Option Char} {s : Str} {s1 : St DG} (h : entitiesRe.matchAt false prev ('&' :: s) = some s1) :
    (∃ w rest, s = '#' :: (w ++ ';' :: rest) ∧ w ≠ [] ∧ ∀ c ∈ w, CSet.digit.mem c = true) ∨
    (∃ w rest, s = '#' :: 'x' :: (w ++ ';' :: rest) ∧ w ≠ [] ∧ ∀ c ∈ w, hexSet.mem c = true) ∨
    (∃ w rest, s = w ++ ';' :: rest ∧ w ≠ [] ∧ ∀ c ∈ w, nameSet.mem c = true) := by
  rw [Re.matchAt_false] at h
  have hm := List.mem_of_mem_head? (by rw [h]; rfl : s1 ∈ (entitiesRe.res ⟨prev, '&' :: s, []⟩).head?)
  rw [entitiesRe_eq, mem_res_alt, mem_res_alt] at hm
  rcases hm with h | h | h
  · obtain ⟨r1, e1, h⟩ := lit_cls_inv h
    obtain ⟨r2, e2, h⟩ := lit_cls_inv h
    obtain ⟨w, hne, hall, e3, e4⟩ := plus_grp_inv h
    simp only [List.cons.injEq, true_and] at e1 e2 e3
    subst e1
    exact .inl ⟨w, s1.rest, by rw [e2, e3], hne, hall⟩
  · obtain ⟨r1, e1, h⟩ := lit_cls_inv h
    obtain ⟨r2, e2, h⟩ := lit_cls_inv h
    obtain ⟨r3, e2', h⟩ := lit_cls_inv h
    obtain ⟨w, hne, hall, e3, e4⟩ := plus_grp_inv h
    simp only [List.cons.injEq, true_and] at e1 e2 e3 e2'
    subst e1
    exact .inr (.inl ⟨w, s1.rest, by rw [e2, e2', e3], hne, hall⟩)
  · obtain ⟨r1, e1, h⟩ := lit_cls_inv h
    obtain ⟨w, hne, hall, e3, e4⟩ := plus_grp_inv h
    simp only [List.cons.injEq, true_and] at e1 e3
    subst e1
    exact .inr (.inr ⟨w, s1.rest, e3, hne, hall⟩)

/-- a character that begins no reference -/
theorem repl_skip {prev : Option Char} {c : Char} {s : Str} (h : entitiesRe.matchAt false prev (c :: s) = none) :
    repl prev (c :: s) = (repl (some c) s).map (c :: ·) := by
  unfold repl
  rw [Re.scanAux_skip h]
  simp only [replSegs]
  cases replSegs (entitiesRe.scanAux (some c) s 0) <;> rfl

theorem map_ok {α β : Type} {x : Except PyErr α} {f : α → β} {b : β} (h : x.map f = .ok b) : ∃ a, x = .ok a ∧ b = f a := by
  cases x with
  | error e => cases h
  | ok a => exact ⟨a, rfl, (Except.ok.inj h).symm⟩

theorem bind_map_ok {x : Except PyErr Str} {y : Except PyErr Str} {t : Str} (h : (x.bind fun a => y.map (a ++ ·)) = .ok t) :
    ∃ a b, x = .ok a ∧ y = .ok b ∧ t = a ++ b := by
  cases x with
  | error e => cases h
  | ok a =>
    obtain ⟨b, hb, ht⟩ := map_ok h
    exact ⟨a, b, rfl, hb, ht⟩

theorem hexSet_semi {w : Str} (h : ∀ c ∈ w, hexSet.mem c = true) : ';' ∉ w := fun hm => absurd (h _ hm) (by decide)
theorem digit_semi {w : Str} (h : ∀ c ∈ w, CSet.digit.mem c = true) : ';' ∉ w := fun hm => absurd (h _ hm) (by decide)
theorem name_semi {w : Str} (h : ∀ c ∈ w, nameSet.mem c = true) : ';' ∉ w := fun hm => absurd (h _ hm) (by decide)

theorem referred_some {name : Str} {c : Char} (h : referred name = some c) :
    (∃ w, name = '#' :: w ∧ w ≠ [] ∧ ∀ c ∈ w, CSet.digit.mem c = true) ∨
    (∃ w, name = '#' :: 'x' :: w ∧ w ≠ [] ∧ ∀ c ∈ w, hexSet.mem c = true) ∨
    (name ≠ [] ∧ ∀ c ∈ name, nameSet.mem c = true) := by
  unfold referred at h
  split at h
  · next n =>
    unfold numbered at h
    split at h
    · next hs =>
      split at h
      · next hc => exact .inr (.inl ⟨hs, rfl, hc.1, fun d hd => (hexDigit_mem (List.all_eq_true.mp hc.2 d hd)).1⟩)
      · cases h
    · split at h
      · next hc => exact .inl ⟨n, rfl, hc.1, fun d hd => List.all_eq_true.mp hc.2 d hd⟩
      · cases h
  · split at h
    · next hc => exact .inr (.inr ⟨hc.1, fun d hd => List.all_eq_true.mp hc.2 d hd⟩)
    · cases h

theorem unrefAux_amp (n : Nat) (s : Str) : unrefAux (n + 1) ('&' :: s) =
    match referred (s.takeWhile (· ≠ ';')), s.dropWhile (· ≠ ';') with
    | some c, ';' :: rest => c :: unrefAux n rest
    | _, _ => '&' :: unrefAux n s := by rw [unrefAux]; rfl

theorem unrefAux_other {n : Nat} {c : Char} {s : Str} (h : c ≠ '&') : unrefAux (n + 1) (c :: s) = c :: unrefAux n s := by
  rw [unrefAux]
  exact h

theorem repl_unref : ∀ (n : Nat) (s : Str) (prev : Option Char) (t : Str), s.length ≤ n → repl prev s = .ok t → t = unrefAux n s
  | 0, s, prev, t, hn, h => by
    have : s = [] := List.length_eq_zero_iff.mp (by omega)
    subst this
    rw [repl_nil] at h
    cases h
    rfl
  | n + 1, [], prev, t, hn, h => by
    rw [repl_nil] at h
    cases h
    rfl
  | n + 1, c :: s, prev, t, hn, h => by
    simp only [List.length_cons] at hn
    by_cases hc : c = '&'
    · subst hc
      rw [unrefAux_amp]
      cases hm : entitiesRe.matchAt false prev ('&' :: s) with
      | none =>
        rw [repl_skip hm] at h
        obtain ⟨b, hb, rfl⟩ := map_ok h
        rw [repl_unref n s _ b (by omega) hb]
        split
        · next c rest hr hd =>
          exfalso
          have hs := split_semi hd
          generalize s.takeWhile (· ≠ ';') = name at hr hs
          subst hs
          rcases referred_some hr with ⟨w, rfl, h1, h2⟩ | ⟨w, rfl, h1, h2⟩ | ⟨h1, h2⟩
          · have := matchAt_number (prev := prev) (rest := rest) h1 h2
            simp only [List.append_assoc, List.cons_append, List.nil_append] at this hm
            rw [hm] at this
            cases this
          · have := matchAt_hex (prev := prev) (rest := rest) h1 h2
            simp only [List.append_assoc, List.cons_append, List.nil_append] at this hm
            rw [hm] at this
            cases this
          · have := matchAt_named (prev := prev) (rest := rest) h1 h2
            simp only [List.append_assoc, List.cons_append, List.nil_append] at this hm
            rw [hm] at this
            cases this
        · rfl
      | some s1 =>
        rcases entities_inv hm with ⟨w, rest, rfl, h1, h2⟩ | ⟨w, rest, rfl, h1, h2⟩ | ⟨w, rest, rfl, h1, h2⟩
        · have hr := repl_number (prev := prev) (rest := rest) h1 h2
          simp only [List.append_assoc, List.cons_append, List.nil_append] at hr
          rw [hr] at h
          obtain ⟨a, b, ha, hb, rfl⟩ := bind_map_ok h
          have hsemi : ';' ∉ '#' :: w := by
            intro hm; rcases List.mem_cons.mp hm with h | h
            · cases h
            · exact digit_semi h2 h
          have e1 := takeWhile_semi (rest := rest) hsemi
          have e2 := dropWhile_semi (rest := rest) hsemi
          rw [List.cons_append] at e1 e2
          have h2' : ∀ c ∈ w, (decimal? c).isSome = true := fun c hc => h2 c hc
          rw [e1, e2, referred, numbered_dec h1 h2', replaceNumber_ok ha h1 h2']
          show _ = _ :: unrefAux n rest
          rw [← repl_unref n rest _ b (by simp only [List.length_cons, List.length_append] at hn; omega) hb]
          rfl
        · have hr := repl_hex (prev := prev) (rest := rest) h1 h2
          simp only [List.append_assoc, List.cons_append, List.nil_append] at hr
          rw [hr] at h
          obtain ⟨a, b, ha, hb, rfl⟩ := bind_map_ok h
          have hsemi : ';' ∉ '#' :: 'x' :: w := by
            intro hm; rcases List.mem_cons.mp hm with h | h
            · cases h
            · rcases List.mem_cons.mp h with h | h
              · cases h
              · exact hexSet_semi h2 h
          have e1 := takeWhile_semi (rest := rest) hsemi
          have e2 := dropWhile_semi (rest := rest) hsemi
          rw [List.cons_append, List.cons_append] at e1 e2
          have h2' : ∀ c ∈ w, isHexDigit c = true := fun c hc => hexSet_hex (h2 c hc)
          rw [e1, e2, referred, numbered_hex h1 h2', (replaceHex_ok ha h2').1]
          show _ = _ :: unrefAux n rest
          rw [← repl_unref n rest _ b (by simp only [List.length_cons, List.length_append] at hn; omega) hb]
          rfl
        · have hr := repl_named (prev := prev) (rest := rest) h1 h2
          simp only [List.append_assoc, List.cons_append, List.nil_append] at hr
          rw [hr] at h
          obtain ⟨a, b, ha, hb, rfl⟩ := bind_map_ok h
          have hsemi : ';' ∉ w := name_semi h2
          obtain ⟨c, hc1, rfl⟩ := replaceNamed_ok ha
          have href : referred w = some c := by
            unfold referred
            split
            · exact absurd (h2 '#' (by simp)) (by decide)
            · rw [if_pos ⟨h1, List.all_eq_true.mpr h2⟩, hc1]
          rw [takeWhile_semi hsemi, dropWhile_semi hsemi, href]
          show _ = _ :: unrefAux n rest
          rw [← repl_unref n rest _ b (by simp only [List.length_cons, List.length_append] at hn; omega) hb]
          rfl
    · rw [repl_noAmp hc] at h
      obtain ⟨b, hb, rfl⟩ := map_ok h
      rw [unrefAux_other hc, repl_unref n s _ b (by omega) hb]

/-- decoding replaces exactly the references -/
theorem replaceAll_unref {s t : Str} (h : replaceAll s = .ok t) : t = unref s := by
  rw [replaceAll_repl] at h
  exact repl_unref _ _ _ _ (Nat.le_refl _) h

end Verif.Props
