import Verif.Emit.Back

/-!
# html2creole on the HTML of inline markup and of lists
-/

namespace Verif.Emit

open Verif Py Html Spec Spec.Hd Spec.Rt Props

/-! ## Sequences of pieces -/

variable {p : Policy}

theorem elsL_foldr (l : List Ht) : elsL l = l.foldr Ht.els [] := by
  induction l with
  | nil => rfl
  | cons x l ih => rw [elsL, ih]; rfl

theorem elsL_append (a b : List Ht) : elsL (a ++ b) = a.foldr Ht.els (elsL b) := by
  rw [elsL_foldr, elsL_foldr, List.foldr_append]

theorem creEs_cons {m : Str} {e : El} {a : Str} (h : creE p m e = some a) (l : List El) :
    creEs p m (e :: l) = (creEs p m l).map (a ++ ·) := by
  rw [creEs, h]
  cases creEs p m l <;> rfl

theorem map_append (o : Option Str) (a b : Str) : (o.map (b ++ ·)).map (a ++ ·) = o.map (a ++ b ++ ·) := by
  cases o <;> simp

theorem creEs_addChar (m : Str) (c : Char) (l : List El) : creEs p m (addChar c l) = (creEs p m l).map ([c] ++ ·) := by
  unfold addChar
  cases h : entityOf c with
  | some name =>
    unfold entityOf at h
    dsimp only
    split at h
    · next hc =>
      cases h; subst hc
      exact creEs_cons (by rw [creE]; decide +kernel) l
    · split at h
      · next hc =>
        cases h; subst hc
        exact creEs_cons (by rw [creE]; decide +kernel) l
      · split at h
        · next hc =>
          cases h; subst hc
          exact creEs_cons (by rw [creE]; decide +kernel) l
        · cases h
  | none =>
    dsimp only
    split
    · next d l' =>
      rw [creEs_cons (a := c :: d) (by rw [creE]), creEs_cons (a := d) (by rw [creE]), map_append]
      rfl
    · exact creEs_cons (by rw [creE]) l

theorem creEs_text (m s : Str) (l : List El) : creEs p m (s.foldr addChar l) = (creEs p m l).map (s ++ ·) := by
  induction s with
  | nil => cases h : creEs p m l <;> simp [h]
  | cons c s ih =>
    rw [List.foldr_cons, creEs_addChar, ih, map_append]
    rfl

/-- a sequence of pieces gives a text, whatever follows it -/
def Gives (p : Policy) (m : Str) (x : List Ht) (t : Str) : Prop := ∀ l, creEs p m (x.foldr Ht.els l) = (creEs p m l).map (t ++ ·)

theorem Gives.nil (m : Str) : Gives p m [] [] := by
  intro l
  cases h : creEs p m l <;> simp [h]

theorem Gives.append {m : Str} {x y : List Ht} {t u : Str} (hx : Gives p m x t) (hy : Gives p m y u) : Gives p m (x ++ y) (t ++ u) := by
  intro l
  rw [List.foldr_append, hx, hy, map_append]

theorem Gives.text (m s : Str) : Gives p m [.text s] s := by
  intro l
  rw [List.foldr_cons, List.foldr_nil, Ht.els]
  exact creEs_text m s l

theorem Gives.white (m w : Str) : Gives p m [.white w] [] := Gives.nil m

theorem Gives.whole {m : Str} {x : List Ht} {t : Str} (h : Gives p m x t) : creEs p m (elsL x) = some t := by
  rw [elsL_foldr, h]
  simp [creEs]

theorem Gives.void {m tag t : Str} {attrs : List (Str × Str)} (h : creE p m (.void tag (attrs.map fun a => (a.1, some a.2))) = some t) :
    Gives p m [.void tag attrs] t := by
  intro l
  rw [List.foldr_cons, List.foldr_nil, Ht.els]
  exact creEs_cons h l

theorem Gives.el {m tag t : Str} {attrs : List (Str × Str)} {ch : List Ht} (ht : tag ≠ c!"tbody")
    (h : creE p m (.elem tag (attrs.map fun a => (a.1, some a.2)) (elsL ch)) = some t) : Gives p m [.el tag attrs ch] t := by
  intro l
  rw [List.foldr_cons, List.foldr_nil, Ht.els, if_neg (fun h => ht h.1)]
  exact creEs_cons h l

/-! ## Inline markup -/

theorem face_delimiters (f : Cr.Face) : delimiters .creole f.tag = some ([f.char, f.char], [f.char, f.char]) := by
  cases f <;> rfl

theorem gives_face {m t : Str} {ch : List Ht} (f : Cr.Face) (h : Gives p m ch t) :
    Gives p m [.el f.tag [] ch] ([f.char, f.char] ++ t ++ [f.char, f.char]) := by
  refine Gives.el (by cases f <;> decide) ?_
  rw [creE, (creole_face (m := m) (face_delimiters f)).2, h.whole, face_delimiters]

theorem gives_link {m t u : Str} {ch : List Ht} (h : Gives p m ch t) : Gives p m [linkHt u ch] (linkText u t) := by
  refine Gives.el (by decide) ?_
  rw [creE, show marksIn m c!"a" = m from rfl, h.whole]
  show some (creLink [(c!"href", some u)] t) = _
  rw [creLink, show dictGet c!"href" (dictOf [(c!"href", some u)]) = some (some u) from rfl]
  simp only [linkText, Option.some.injEq]
  split <;> simp [fmt]

theorem gives_image {m t s : Str} (hs : s ≠ []) : Gives p m [imageHt t s []] (imageText t s []) := by
  refine Gives.void ?_
  show (creImg [(c!"src", some t), (c!"title", some s), (c!"alt", some s)]) = _
  rw [creImg, creoleImg, bind_run]
  have hsrc : dictGet c!"src" (dictOf [(c!"src", some t), (c!"title", some s), (c!"alt", some s)]) = some (some t) := rfl
  have h0 := imgSrc_run hsrc {}
  unfold imageText
  by_cases hd : isDataUri t
  · rw [h0.1 hd, if_pos hd]; rfl
  · rw [h0.2 hd, if_neg hd]
    dsimp only
    have : imgText (dictOf [(c!"src", some t), (c!"title", some s), (c!"alt", some s)]) t {} = .ok (s, {}) := by
      rw [imgText, show dictGet c!"alt" (dictOf [(c!"src", some t), (c!"title", some s), (c!"alt", some s)]) = some (some s) from rfl,
        show dictGet c!"title" (dictOf [(c!"src", some t), (c!"title", some s), (c!"alt", some s)]) = some (some s) from rfl]
      simp [hs, pure_run]
    rw [bind_run, this]
    simp [dictOf, dictSet, dictGet, truthy, List.lookup, pure_run]

theorem decimal_ne (n : Nat) : Cr.decimal n ≠ [] := Nat.toDigits_ne_nil

theorem gives_sized {m t s w h : Str} (hs : s ≠ []) (hw : w ≠ []) (hh : h ≠ []) :
    Gives p m [imageHt t s [(c!"width", w), (c!"height", h)]] (imageText t s (c!"|" ++ h ++ c!"x" ++ w)) := by
  refine Gives.void ?_
  show (creImg [(c!"src", some t), (c!"title", some s), (c!"alt", some s), (c!"width", some w), (c!"height", some h)]) = _
  generalize hA : ([(c!"src", some t), (c!"title", some s), (c!"alt", some s), (c!"width", some w), (c!"height", some h)] : List (Str × Option Str)) = A
  have a1 : dictGet c!"src" (dictOf A) = some (some t) := by rw [← hA]; rfl
  have a2 : dictGet c!"title" (dictOf A) = some (some s) := by rw [← hA]; rfl
  have a3 : dictGet c!"alt" (dictOf A) = some (some s) := by rw [← hA]; rfl
  have a4 : truthy (dictGet c!"width" (dictOf A)) = some w := by
    rw [← hA]; show truthy (some (some w)) = _
    cases w with
    | nil => exact absurd rfl hw
    | cons c w => rfl
  have a5 : truthy (dictGet c!"height" (dictOf A)) = some h := by
    rw [← hA]; show truthy (some (some h)) = _
    cases h with
    | nil => exact absurd rfl hh
    | cons c w => rfl
  rw [creImg, creoleImg, bind_run]
  have h0 := imgSrc_run a1 {}
  unfold imageText
  by_cases hd : isDataUri t
  · rw [h0.1 hd, if_pos hd]; rfl
  · rw [h0.2 hd, if_neg hd]
    dsimp only
    have : imgText (dictOf A) t {} = .ok (s, {}) := by
      rw [imgText, a2, a3]
      simp [hs, pure_run]
    rw [bind_run, this, a4, a5]
    simp [pure_run]

/-- what a line break gives -/
def brk (m : Str) : Str := if m = [] then c!"\n" else c!"\\\\"

mutual
theorem gives_inl {p : Policy} (m : Str) : ∀ (i : Cr.Inl) (w : Str), Rt.Inl.decent i = true → (p = .transparent ∨ Rt.Inl.stable i = true) →
    Gives p m (inlHt w i) (inlBack (brk m) i)
  | .chr c, w, _, _ => by rw [inlHt, inlBack]; exact Gives.text m [c]
  | .esc c, w, _, _ => by rw [inlHt, inlBack]; exact Gives.text m [c]
  | .face f l, w, h, hp => by
    rw [Rt.Inl.decent] at h
    rw [inlHt, inlBack]
    exact gives_face f (gives_inls m l _ h (hp.imp id fun h => by rwa [Rt.Inl.stable] at h))
  | .link t [], w, h, hp => by rw [inlHt, inlBack]; exact gives_link (Gives.text m t)
  | .link t (i :: l), w, h, hp => by
    rw [Rt.Inl.decent, decents, Bool.and_eq_true] at h
    rw [inlHt, inlBack]
    have hp' : p = .transparent ∨ (Rt.Inl.stable i = true ∧ stables l = true) := hp.imp id fun h => by
      rw [Rt.Inl.stable, Bool.and_eq_true, Bool.and_eq_true] at h
      exact h.1
    exact gives_link ((gives_inl m i _ h.1 (hp'.imp id (·.1))).append (gives_inls m l _ h.2 (hp'.imp id (·.2))))
  | .image t [], w, h, hp => by
    rw [Rt.Inl.decent] at h
    rw [inlHt, inlBack]
    exact gives_image (by simpa using h)
  | .image t (c :: s), w, h, hp => by rw [inlHt, inlBack]; exact gives_image (by simp)
  | .sized t s x y, w, h, hp => by
    rw [Rt.Inl.decent] at h
    rw [inlHt, inlBack]
    exact gives_sized (by simpa using h) (decimal_ne _) (decimal_ne _)
  | .nowiki s, w, h, hp => by
    obtain rfl : p = .transparent := hp.resolve_right (by simp [Rt.Inl.stable])
    rw [inlHt, inlBack]
    refine Gives.el (by decide) ?_
    rw [creE, show marksIn m c!"code" = m from rfl, (Gives.text m s).whole]
    rfl
  | .br, w, h, hp => by
    rw [inlHt, inlBack]
    have := (Gives.void (p := p) (m := m) (tag := c!"br") (attrs := []) (t := brk m) (by rw [creE]; rfl)).append (Gives.white m w)
    rw [List.append_nil] at this
    exact this
  | .url s, w, h, hp => by rw [inlHt, inlBack]; exact gives_link (Gives.text m s)
  | .escUrl s, w, h, hp => by rw [inlHt, inlBack]; exact Gives.text m s
  | .mac _ _, w, h, hp => by simp [Rt.Inl.decent] at h
  | .macText _ _ _, w, h, hp => by simp [Rt.Inl.decent] at h
theorem gives_inls {p : Policy} (m : Str) : ∀ (l : List Cr.Inl) (w : Str), decents l = true → (p = .transparent ∨ stables l = true) →
    Gives p m (inlsHt w l) (inlsBack (brk m) l)
  | [], w, _, _ => by rw [inlsHt, inlsBack]; exact Gives.nil m
  | i :: l, w, h, hp => by
    rw [decents, Bool.and_eq_true] at h
    rw [inlsHt, inlsBack]
    have hp' : p = .transparent ∨ (Rt.Inl.stable i = true ∧ stables l = true) := hp.imp id fun h => by
      rw [stables, Bool.and_eq_true] at h
      exact h
    exact (gives_inl m i w h.1 (hp'.imp id (·.1))).append (gives_inls m l w h.2 (hp'.imp id (·.2)))
end

/-! ## Lists -/

theorem mark_tag (k : Cr.Mark) (m : Str) : marksIn m k.tag = m ++ [k.char] := by cases k <;> rfl

theorem mark_delimiters (k : Cr.Mark) : delimiters .creole k.tag = none := by cases k <;> rfl

mutual
theorem gives_branch {p : Policy} : ∀ (b : Cr.Branch) (n : Nat) (m : Str), m ≠ [] → branchDecent b = true →
    (p = .transparent ∨ branchStable m b = true) → Gives p m (branchHt n b) (newLines (branchBack m b))
  | .mk pre text kind sub, n, m, hm, h, hp => by
    have hp' : p = .transparent ∨ (stables text = true ∧ branchesStable (m ++ [kind.char]) sub = true) := hp.imp id fun h => by
      rw [branchStable, Bool.and_eq_true, Bool.and_eq_true] at h
      exact ⟨h.1.2, h.2⟩
    simp only [branchDecent, Bool.and_eq_true] at h
    have hbr : brk m = c!"\\\\" := by rw [brk, if_neg hm]
    have htext : ∀ w, Gives p m (inlsHt w text) (inlsBack c!"\\\\" text) := fun w => by rw [← hbr]; exact gives_inls m text w h.1.1 (hp'.imp id (·.1))
    rw [branchHt, branchBack]
    show Gives p m ([.white _] ++ [.el c!"li" [] _]) _
    rw [show newLines ((m ++ c!" " ++ inlsBack c!"\\\\" text) :: branchesBack (m ++ [kind.char]) sub) =
      [] ++ ('\n' :: m ++ ' ' :: (inlsBack c!"\\\\" text ++ newLines (branchesBack (m ++ [kind.char]) sub))) by simp [newLines]]
    refine (Gives.white m _).append (Gives.el (by decide) ?_)
    have hin : Gives p m (inlsHt (c!"\n" ++ Cr.indentTabs (n + 1)) text ++ (if sub.isEmpty = true then [] else
        [.white (c!"\n" ++ Cr.indentTabs (n + 1)), .el kind.tag [] (branchesHt (n + 1) sub ++ [.white (c!"\n" ++ Cr.indentTabs (n + 1))])]))
        (inlsBack c!"\\\\" text ++ newLines (branchesBack (m ++ [kind.char]) sub)) := by
      refine (htext _).append ?_
      cases sub with
      | nil => simp only [List.isEmpty_nil, if_true, branchesBack]; exact Gives.nil m
      | cons b bs =>
        simp only [List.isEmpty_cons, Bool.false_eq_true, if_false]
        show Gives p m ([.white _] ++ [.el kind.tag [] _]) ([] ++ _)
        refine (Gives.white m _).append (Gives.el (by cases kind <;> decide) ?_)
        have := (gives_branches (b :: bs) (n + 1) (m ++ [kind.char]) (by simp) h.2 (hp'.imp id (·.2))).append
          (Gives.white (m ++ [kind.char]) (c!"\n" ++ Cr.indentTabs (n + 1)))
        rw [List.append_nil] at this
        rw [creE, mark_tag, this.whole, mark_delimiters]
        dsimp only
        unfold creOther
        rw [if_neg (by cases kind <;> decide), if_neg (by cases kind <;> decide), if_neg hm, if_neg (by cases kind <;> decide),
          if_pos (by cases kind <;> decide)]
        simp [newLines, List.flatMap_def]
    rw [creE, show marksIn m c!"li" = m from rfl, hin.whole]
    show creOther p m c!"li" _ _ = _
    unfold creOther
    rw [if_neg (by decide), if_neg (by decide), if_neg hm, if_pos rfl]
theorem gives_branches {p : Policy} : ∀ (bs : List Cr.Branch) (n : Nat) (m : Str), m ≠ [] → branchesDecent bs = true →
    (p = .transparent ∨ branchesStable m bs = true) → Gives p m (branchesHt n bs) (newLines (branchesBack m bs))
  | [], n, m, hm, _, _ => by rw [branchesHt, branchesBack]; exact Gives.nil m
  | b :: bs, n, m, hm, h, hp => by
    have hp' : p = .transparent ∨ (branchStable m b = true ∧ branchesStable m bs = true) := hp.imp id fun h => by
      rw [branchesStable, Bool.and_eq_true] at h
      exact h
    rw [branchesDecent, Bool.and_eq_true] at h
    rw [branchesHt, branchesBack, newLines_append]
    exact (gives_branch b n m hm h.1 (hp'.imp id (·.1))).append (gives_branches bs n m hm h.2 (hp'.imp id (·.2)))
end

end Verif.Emit
