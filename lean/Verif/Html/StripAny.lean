import Verif.Html.StripWords

/-!
# `strip_html` on any properly written HTML

Whatever the blanks of a document look like: its tags and its other characters stay, in their order.
-/

namespace Verif.Html

open Verif Py Spec Spec.Cr Spec.Hd

/-- the same tags and the same characters, apart from white space -/
inductive Alike : List Bit → List Bit → Prop where
  | nil : Alike [] []
  | same {a b : List Bit} (x : Bit) : Alike a b → Alike (x :: a) (x :: b)
  | drop {a b : List Bit} {c : Char} : isSpace c = true → Alike a b → Alike (.chr c :: a) b
  | add {a b : List Bit} {c : Char} : isSpace c = true → Alike a b → Alike a (.chr c :: b)

theorem Alike.refl : ∀ (l : List Bit), Alike l l
  | [] => .nil
  | x :: l => .same x (Alike.refl l)

theorem Alike.append {a a' b b' : List Bit} (h : Alike a a') (h' : Alike b b') : Alike (a ++ b) (a' ++ b') := by
  induction h with
  | nil => exact h'
  | same x _ ih => exact .same x ih
  | drop hc _ ih => exact .drop hc ih
  | add hc _ ih => exact .add hc ih

theorem Alike.trans {a b c : List Bit} (h : Alike a b) (h' : Alike b c) : Alike a c := by
  induction h generalizing c with
  | nil => exact h'
  | drop hc _ ih => exact .drop hc (ih h')
  | same x hab ih =>
    rename_i a b
    clear hab
    generalize hz : x :: b = z at h'
    induction h' with
    | nil => cases hz
    | same y h2 _ => cases hz; exact .same _ (ih h2)
    | drop hd h2 _ => cases hz; exact .drop hd (ih h2)
    | add hd h2 ih2 => exact .add hd (ih2 hz)
  | add hc hab ih =>
    rename_i a b d
    clear hab
    generalize hz : Bit.chr d :: b = z at h'
    induction h' with
    | nil => cases hz
    | same y h2 _ => cases hz; exact .add hc (ih h2)
    | drop hd h2 _ => cases hz; exact ih h2
    | add hd h2 ih2 => exact .add hd (ih2 hz)

theorem Alike.dropAll {a b : List Bit} (h : Alike a b) : ∀ (w : Str), (∀ c ∈ w, isSpace c = true) → Alike (w.map .chr ++ a) b
  | [], _ => h
  | c :: w, hw => .drop (hw c (by simp)) (h.dropAll w fun d hd => hw d (by simp [hd]))

theorem Alike.addAll {a b : List Bit} (h : Alike a b) : ∀ (w : Str), (∀ c ∈ w, isSpace c = true) → Alike a (w.map .chr ++ b)
  | [], _ => h
  | c :: w, hw => .add (hw c (by simp)) (h.addAll w fun d hd => hw d (by simp [hd]))

/-- what is new is white space -/
theorem Alike.mem {a b : List Bit} (h : Alike a b) : ∀ x ∈ b, x ∈ a ∨ ∃ c, x = .chr c ∧ isSpace c = true := by
  induction h with
  | nil => simp
  | same x _ ih =>
    intro y hy
    simp only [List.mem_cons] at hy ⊢
    rcases hy with rfl | hy
    · exact .inl (.inl rfl)
    · rcases ih y hy with h | h
      · exact .inl (.inr h)
      · exact .inr h
  | drop hc _ ih =>
    intro y hy
    rcases ih y hy with h | h
    · exact .inl (by simp [h])
    · exact .inr h
  | add hc _ ih =>
    intro y hy
    simp only [List.mem_cons] at hy
    rcases hy with rfl | hy
    · exact .inr ⟨_, rfl, hc⟩
    · exact ih y hy

/-- characters and tags, without white space that lays out the document and without references -/
def plainBit : Bit → Prop
  | .chr _ => True
  | .white _ => False
  | .tag k T => TagOf k T
  | .ref _ => False

theorem Alike.plain {a b : List Bit} (h : Alike a b) (ha : ∀ x ∈ a, plainBit x) : ∀ x ∈ b, plainBit x := by
  intro x hx
  rcases h.mem x hx with h | ⟨c, rfl, _⟩
  · exact ha x h
  · trivial

theorem bitsText_append (a b : List Bit) : bitsText (a ++ b) = bitsText a ++ bitsText b := by simp [bitsText]

theorem bitsText_cons (a : Bit) (b : List Bit) : bitsText (a :: b) = a.text ++ bitsText b := by simp [bitsText]

theorem textChar_space {c : Char} (h : isSpace c = true) : textChar c = [c] := by
  unfold textChar
  split
  · rename_i e; subst e; exact absurd h (by decide)
  · split
    · rename_i e; subst e; exact absurd h (by decide)
    · split
      · rename_i e; subst e; exact absurd h (by decide)
      · rfl

theorem bitsText_space {w : Str} (h : ∀ c ∈ w, isSpace c = true) : bitsText (w.map .chr) = w := by
  induction w with
  | nil => rfl
  | cons c w ih =>
    rw [List.map_cons, bitsText_cons, ih fun d hd => h d (by simp [hd])]
    rw [show (Bit.chr c).text = textChar c from rfl, textChar_space (h c (by simp))]; rfl

/-- the first and the last character of a part -/
theorem TagOf.edges {k : TagKind} {T : Str} (h : TagOf k T) : T.head? = some '<' ∧ T.getLast? = some '>' := by
  cases h with
  | block h _ => exact ⟨by simpa using h.head (w2 := []), by simpa using h.last (w := [])⟩
  | opening h _ => exact ⟨by simpa using h.head (w2 := []), by simpa using h.last (w := [])⟩
  | closing h _ => exact ⟨by simpa using h.head (w2 := []), by simpa using h.last (w := [])⟩
  | single h _ => exact ⟨by simpa using h.head (w2 := []), by simpa using h.last (w := [])⟩

theorem TagOf.noLine {k : TagKind} {T : Str} (h : TagOf k T) : '\n' ∉ T := by
  have key : ∀ {T e name m se : Str}, Parts T e name m se → '\n' ∉ T := by
    intro T e name m se h hc
    rw [h.text] at hc
    simp only [List.mem_cons, List.mem_append, List.not_mem_nil, or_false] at hc
    rcases hc with hc | (((hc | hc) | hc) | hc) | hc
    · exact absurd hc (by decide)
    · rcases h.he with e | e <;> simp [e] at hc
    · exact (h.hname _ hc).2.2 rfl
    · exact (h.hm _ hc).2 rfl
    · rcases h.hse with e | e <;> simp [e] at hc
    · exact absurd hc (by decide)
  cases h with
  | block h _ => exact key h
  | opening h _ => exact key h
  | closing h _ => exact key h
  | single h _ => exact key h

theorem textChar_last {c : Char} (h : isSpace c = false) : ∀ d, (textChar c).getLast? = some d → isSpace d = false :=
  fun d hd => (textChar_solid h d (List.mem_of_getLast? hd)).1

/-- text without the white space at its beginning -/
theorem lstrip_any : ∀ (l : List Bit), (∀ x ∈ l, plainBit x) →
    ∃ l', Alike l l' ∧ l'.Sublist l ∧ lstrip (bitsText l) = bitsText l'
  | [], _ => ⟨[], .nil, .slnil, rfl⟩
  | .white s :: l, h => absurd (h (.white s) (by simp)) (by simp [plainBit])
  | .ref s :: l, h => absurd (h (.ref s) (by simp)) (by simp [plainBit])
  | .tag k T :: l, h => by
    refine ⟨_, .refl _, List.Sublist.refl _, ?_⟩
    have := (h (.tag k T) (by simp)).edges.1
    rw [bitsText_cons]
    unfold lstrip
    cases T with
    | nil => simp at this
    | cons c T =>
      simp only [List.head?_cons, Option.some.injEq] at this
      subst this
      rfl
  | .chr c :: l, h => by
    by_cases hc : isSpace c = true
    · obtain ⟨l', h1, h2, h3⟩ := lstrip_any l fun x hx => h x (by simp [hx])
      refine ⟨l', .drop hc h1, h2.cons _, ?_⟩
      rw [bitsText_cons, show (Bit.chr c).text = textChar c from rfl, textChar_space hc, ← h3]
      unfold lstrip
      simp [hc]
    · have hc : isSpace c = false := by simpa using hc
      refine ⟨_, .refl _, List.Sublist.refl _, ?_⟩
      rw [bitsText_cons, show (Bit.chr c).text = textChar c from rfl]
      have h1 := textChar_solid hc
      have h2 := textChar_ne c
      cases he : textChar c with
      | nil => exact absurd he h2
      | cons d t =>
        have := (h1 d (by rw [he]; simp)).1
        simp [lstrip, this]

theorem dropEnd_last {s : Str} (h : ∀ d, s.getLast? = some d → isSpace d = false) : dropEndWhile isSpace s = s := by
  obtain ⟨v, h1, h2⟩ := dropEndWhile_tail (p := isSpace) s
  rcases List.eq_nil_or_concat v with rfl | ⟨v, c, rfl⟩
  · simpa using h1.symm
  · rw [List.concat_eq_append] at h1 h2
    have := h c (by rw [h1, ← List.append_assoc, List.getLast?_concat])
    rw [h2 c (by simp)] at this
    cases this

/-- text without the white space at its end -/
theorem rstrip_any (l : List Bit) (h : ∀ x ∈ l, plainBit x) :
    ∃ l', Alike l l' ∧ l'.Sublist l ∧ dropEndWhile isSpace (bitsText l) = bitsText l' := by
  generalize hn : l.length = n
  induction n generalizing l with
  | zero => exact ⟨l, .refl _, List.Sublist.refl _, by cases l with | nil => rfl | cons => simp at hn⟩
  | succ n ih =>
    rcases List.eq_nil_or_concat l with rfl | ⟨l, x, rfl⟩
    · simp at hn
    · rw [List.concat_eq_append] at h hn ⊢
      have solid : (∀ d, x.text.getLast? = some d → isSpace d = false) → x.text ≠ [] →
          dropEndWhile isSpace (bitsText (l ++ [x])) = bitsText (l ++ [x]) := by
        intro h1 h2
        refine dropEnd_last ?_
        intro d hd
        rw [bitsText_append, bitsText_cons] at hd
        simp only [bitsText, List.flatMap_nil, List.append_nil] at hd
        rw [List.getLast?_append] at hd
        cases he : x.text.getLast? with
        | none => exact absurd (List.getLast?_eq_none_iff.1 he) h2
        | some y => rw [he] at hd; simp at hd; subst hd; exact h1 _ he
      cases x with
      | white s => exact absurd (h (.white s) (by simp)) (by simp [plainBit])
      | ref s => exact absurd (h (.ref s) (by simp)) (by simp [plainBit])
      | tag k T =>
        have ht := (show TagOf k T from h (.tag k T) (by simp)).edges
        refine ⟨_, .refl _, List.Sublist.refl _, solid ?_ ?_⟩
        · intro d hd
          rw [show (Bit.tag k T).text = T from rfl, ht.2] at hd
          cases hd; decide
        · intro e
          rw [show (Bit.tag k T).text = T from rfl] at e
          rw [e] at ht; simp at ht
      | chr c =>
        by_cases hc : isSpace c = true
        · obtain ⟨l', h1, h2, h3⟩ := ih l (fun x hx => h x (by simp [hx])) (by simpa using hn)
          refine ⟨l', ?_, h2.trans (List.sublist_append_left _ _), ?_⟩
          · have := h1.append (Alike.drop hc .nil)
            simpa using this
          · rw [bitsText_append, bitsText_cons, show (Bit.chr c).text = textChar c from rfl, textChar_space hc, ← h3]
            simp only [bitsText, List.flatMap_nil, List.append_nil]
            exact dropEndWhile_append (by simpa using hc) _
        · have hc : isSpace c = false := by simpa using hc
          exact ⟨_, .refl _, List.Sublist.refl _, solid (textChar_last hc) (textChar_ne c)⟩

/-- text without the white space around it -/
theorem strip_any (l : List Bit) (h : ∀ x ∈ l, plainBit x) :
    ∃ l', Alike l l' ∧ l'.Sublist l ∧ strip (bitsText l) = bitsText l' := by
  obtain ⟨l1, h1, h2, h3⟩ := lstrip_any l h
  obtain ⟨l2, k1, k2, k3⟩ := rstrip_any l1 (h1.plain h)
  refine ⟨l2, h1.trans k1, k2.trans h2, ?_⟩
  rw [← k3, ← h3]; rfl

/-! ## Lines -/

theorem noLine_bits {l : List Bit} (h : ∀ x ∈ l, plainBit x) (h' : Bit.chr '\n' ∉ l) : '\n' ∉ bitsText l := by
  intro hc
  rw [bitsText, List.mem_flatMap] at hc
  obtain ⟨x, hx, hc⟩ := hc
  cases x with
  | white s => exact h _ hx
  | ref s => exact h _ hx
  | tag k T => exact (show TagOf k T from h _ hx).noLine hc
  | chr c =>
    by_cases e : c = '\n'
    · subst e; exact h' hx
    · have : '\n' ∉ textChar c := by
        unfold textChar
        split <;> (try decide)
        split <;> (try decide)
        split <;> (try decide)
        simp only [List.mem_singleton]; exact fun h => e h.symm
      exact this hc

theorem first_mem {x : Bit} : ∀ {l : List Bit}, x ∈ l → ∃ a b, l = a ++ x :: b ∧ x ∉ a
  | y :: l, h => by
    by_cases e : x = y
    · exact ⟨[], l, by rw [e]; rfl, by simp⟩
    · obtain ⟨a, b, h1, h2⟩ := first_mem (by simpa [e] using h : x ∈ l)
      exact ⟨y :: a, b, by rw [h1]; rfl, by simp [e, h2]⟩

/-- joining the lines -/
theorem join_any (l : List Bit) (h : ∀ x ∈ l, plainBit x) : ∃ l', Alike l l' ∧ joinStripped (bitsText l) = bitsText l' := by
  generalize hn : l.length = n
  induction n using Nat.strongRecOn generalizing l with
  | _ n ih =>
    by_cases hl : Bit.chr '\n' ∈ l
    · obtain ⟨a, b, rfl, ha⟩ := first_mem hl
      obtain ⟨a', h1, h2, h3⟩ := strip_any a fun x hx => h x (by simp [hx])
      obtain ⟨b', k1, k2⟩ := ih b.length (by subst hn; simp; omega) b (fun x hx => h x (by simp [hx])) rfl
      refine ⟨a' ++ .chr ' ' :: b', h1.append (.drop (by decide) (.add (by decide) k1)), ?_⟩
      have hna : '\n' ∉ bitsText a := noLine_bits (fun x hx => h x (by simp [hx])) ha
      rw [bitsText_append, bitsText_cons, show (Bit.chr '\n').text = ['\n'] from by decide, List.singleton_append,
        join_lines hna, h3, k2, bitsText_append, bitsText_cons]
      rfl
    · obtain ⟨a', h1, h2, h3⟩ := strip_any l h
      exact ⟨a', h1, by rw [join_line (noLine_bits h hl), h3]⟩

/-! ## Tags with the white space around them -/

theorem stripTag_any {T e name m se w w2 : Str} (h : Parts T e name m se) (hw : ∀ c ∈ w, isSpace c = true)
    (hw2 : ∀ c ∈ w2, isSpace c = true) :
    ∃ a b, (∀ c ∈ a, isSpace c = true) ∧ (∀ c ∈ b, isSpace c = true) ∧
      stripTag ⟨w ++ T ++ w2, [(.startend, se), (.tag, name), (.end_, e)]⟩ = a ++ T ++ b := by
  unfold stripTag
  simp only [h.strip hw hw2]
  have sp : ∀ c ∈ [' '], isSpace c = true := by decide
  have no : ∀ c ∈ ([] : Str), isSpace c = true := by simp
  split
  · exact ⟨[], [], no, no, by simp⟩
  · split
    · split
      · exact ⟨[], [' '], no, sp, by simp⟩
      · exact ⟨[], [], no, no, by simp⟩
    · split
      · split
        · split
          · exact ⟨[' '], [' '], sp, sp, by simp⟩
          · exact ⟨[], [' '], no, sp, by simp⟩
        · split
          · exact ⟨[' '], [], sp, no, by simp⟩
          · exact ⟨[], [], no, no, by simp⟩
      · split
        · exact ⟨[' '], [], sp, no, by simp⟩
        · exact ⟨[], [], no, no, by simp⟩

/-- white space at the end -/
theorem Strips.blankEnd : ∀ (w : Str), (∀ c ∈ w, isSpace c = true) → Strips w w
  | [], _ => .nil
  | c :: w, hw => by
    refine Strips.skip (fun p => strip_none ?_) (Strips.blankEnd w fun d hd => hw d (by simp [hd]))
    intro u t hu _ ht
    cases t with
    | nil => simp at ht
    | cons d t =>
      simp only [List.head?_cons, Option.some.injEq] at ht
      subst ht
      exact absurd (hw '<' (by rw [hu]; simp)) (by decide)

/-- the white space at the beginning of a sequence -/
theorem split_space : ∀ (l : List Bit), ∃ (w : Str) (r : List Bit), l = w.map .chr ++ r ∧ (∀ c ∈ w, isSpace c = true) ∧
    ∀ c, r.head? = some (.chr c) → isSpace c = false
  | [] => ⟨[], [], rfl, by simp, by simp⟩
  | .white s :: l => ⟨[], .white s :: l, rfl, by simp, by simp⟩
  | .tag k T :: l => ⟨[], .tag k T :: l, rfl, by simp, by simp⟩
  | .ref s :: l => ⟨[], .ref s :: l, rfl, by simp, by simp⟩
  | .chr c :: l => by
    by_cases hc : isSpace c = true
    · obtain ⟨w, r, h1, h2, h3⟩ := split_space l
      refine ⟨c :: w, r, by rw [h1]; rfl, ?_, h3⟩
      intro d hd
      simp only [List.mem_cons] at hd
      rcases hd with rfl | hd
      · exact hc
      · exact h2 d hd
    · refine ⟨[], .chr c :: l, rfl, by simp, ?_⟩
      intro d hd
      simp only [List.head?_cons, Option.some.injEq, Bit.chr.injEq] at hd
      subst hd; simpa using hc

theorem noSp_bits {r : List Bit} (h : ∀ x ∈ r, plainBit x) (hr : ∀ c, r.head? = some (.chr c) → isSpace c = false) :
    noSp (bitsText r) = true := by
  cases r with
  | nil => rfl
  | cons x r =>
    cases x with
    | white s => exact absurd (h (.white s) (by simp)) (by simp [plainBit])
    | ref s => exact absurd (h (.ref s) (by simp)) (by simp [plainBit])
    | chr c => exact noSp_chr (hr c rfl) r
    | tag k T =>
      have := (show TagOf k T from h (.tag k T) (by simp)).edges.1
      rw [bitsText_cons]
      cases T with
      | nil => simp at this
      | cons c T => simp only [List.head?_cons, Option.some.injEq] at this; subst this; rfl

/-- replacing the tags -/
theorem tags_any (l : List Bit) (h : ∀ x ∈ l, plainBit x) : ∃ l', Alike l l' ∧ Strips (bitsText l) (bitsText l') := by
  generalize hn : l.length = n
  induction n using Nat.strongRecOn generalizing l with
  | _ n ih =>
    obtain ⟨w, r, rfl, hw, hr⟩ := split_space l
    have hwt := bitsText_space hw
    cases r with
    | nil =>
      refine ⟨w.map .chr, by simpa using Alike.refl _, ?_⟩
      rw [List.append_nil, hwt]
      exact Strips.blankEnd w hw
    | cons x r =>
      cases x with
      | white s => exact absurd (h (.white s) (by simp)) (by simp [plainBit])
      | ref s => exact absurd (h (.ref s) (by simp)) (by simp [plainBit])
      | chr c =>
        have hc := hr c rfl
        obtain ⟨r', k1, k2⟩ := ih r.length (by subst hn; simp; omega) r (fun x hx => h x (by simp [hx])) rfl
        refine ⟨w.map .chr ++ .chr c :: r', (Alike.refl _).append (.same _ k1), ?_⟩
        rw [bitsText_append, bitsText_append, hwt, bitsText_cons, bitsText_cons]
        have hs := k2.solid (textChar c) (textChar_solid hc)
        show Strips (w ++ (textChar c ++ bitsText r)) (w ++ (textChar c ++ bitsText r'))
        cases he : textChar c with
        | nil => exact absurd he (textChar_ne c)
        | cons d t =>
          rw [he] at hs
          have hd := textChar_solid hc d (by rw [he]; simp)
          exact Strips.gap hd.1 hd.2 hs w hw
      | tag k T =>
        obtain ⟨e, name, m, se, hp⟩ := (show TagOf k T from h (.tag k T) (by simp)).parts
        obtain ⟨w2, r2, rfl, hw2, hr2⟩ := split_space r
        obtain ⟨r', k1, k2⟩ := ih r2.length (by subst hn; simp; omega) r2 (fun x hx => h x (by simp [hx])) rfl
        obtain ⟨a, b, ha, hb, hst⟩ := stripTag_any hp hw hw2
        have hb' : Alike (w2.map .chr ++ r2) (b.map .chr ++ r') := (k1.dropAll w2 hw2).addAll b hb
        refine ⟨a.map .chr ++ .tag k T :: (b.map .chr ++ r'), ((Alike.same _ hb').addAll a ha).dropAll w hw, ?_⟩
        have hs := Strips.tag hp hw hw2 (noSp_bits (fun x hx => h x (by simp [hx])) hr2) k2
        rw [hst] at hs
        rw [bitsText_append, bitsText_append, hwt, bitsText_cons, bitsText_cons, bitsText_append, bitsText_append,
          bitsText_space hw2, bitsText_space ha, bitsText_space hb]
        simpa [Bit.text] using hs

/-- **`strip_html` on any written document**: only white space is changed. -/
theorem stripHtml_any (l : List Bit) (h : ∀ x ∈ l, plainBit x) : ∃ l', Alike l l' ∧ stripHtml (bitsText l) = bitsText l' := by
  obtain ⟨l1, h1, _, e1⟩ := strip_any l h
  obtain ⟨l2, h2, e2⟩ := join_any l1 (h1.plain h)
  obtain ⟨l3, h3, e3⟩ := tags_any l2 (h2.plain (h1.plain h))
  refine ⟨l3, (h1.trans h2).trans h3, ?_⟩
  unfold stripHtml
  rw [e1, e2]
  rw [← e3 none]
  unfold Re.sub Re.scan
  congr
  funext x
  cases x <;> rfl

end Verif.Html
