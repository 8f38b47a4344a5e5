import Verif.Creole.KeptBlock
import Verif.Creole.SafeLemmas

/-!
# The emitter keeps the letters of the tree
-/

namespace Verif.Creole

open Verif Py Spec.Kp

/-! ## Reading HTML -/

/-- a piece of HTML that ends outside of tags, and what one reads in it -/
def Frag (s v : Str) : Prop := ∀ t, reading (s ++ t) = v ++ reading t

theorem Frag.append {a b v w : Str} (h : Frag a v) (h' : Frag b w) : Frag (a ++ b) (v ++ w) := by
  intro t
  rw [List.append_assoc, h, h', List.append_assoc]

theorem Frag.nil : Frag [] [] := fun _ => rfl

/-- `visible` on characters that are kept -/
theorem visible_text {s : Str} (h : '<' ∉ s) (t : Str) : visible .text (s ++ t) = s ++ visible .text t := by
  induction s with
  | nil => rfl
  | cons c s ih =>
    rw [List.mem_cons, not_or] at h
    rw [List.cons_append, visible, if_neg (Ne.symm h.1), ih h.2, List.cons_append]

theorem visible_value {s : Str} (h : '"' ∉ s) (t : Str) : visible .value (s ++ '"' :: t) = s ++ visible .tag t := by
  induction s with
  | nil => simp [visible]
  | cons c s ih =>
    rw [List.mem_cons, not_or] at h
    rw [List.cons_append, visible, if_neg (Ne.symm h.1), ih h.2, List.cons_append]

theorem visible_tag {s : Str} (h : '"' ∉ s) (h' : '>' ∉ s) (t : Str) : visible .tag (s ++ t) = visible .tag t := by
  induction s with
  | nil => rfl
  | cons c s ih =>
    rw [List.mem_cons, not_or] at h h'
    rw [List.cons_append, visible, if_neg (Ne.symm h'.1), if_neg (Ne.symm h.1), ih h.2 h'.2]

theorem decode_plain {s : Str} (h : '&' ∉ s) (t : Str) : decode 0 (s ++ t) = s ++ decode 0 t := by
  induction s with
  | nil => rfl
  | cons c s ih =>
    rw [List.mem_cons, not_or] at h
    rw [List.cons_append, decode, if_neg (Ne.symm h.1), ih h.2, List.cons_append]

theorem decode_attrChar (c : Char) (t : Str) : decode 0 (attrChar c ++ t) = c :: decode 0 t := by
  unfold attrChar escChar
  by_cases hq : c = '"'
  · subst hq; simp [decode]
  by_cases ha : c = '&'
  · subst ha; simp [decode]
  by_cases hl : c = '<'
  · subst hl; simp [decode]
  by_cases hg : c = '>'
  · subst hg; simp [decode]
  simp [decode, hq, ha, hl, hg]

theorem decode_escChar (c : Char) (t : Str) : decode 0 (escChar c ++ t) = c :: decode 0 t := by
  by_cases hq : c = '"'
  · subst hq; rw [show escChar '"' = ['"'] from rfl]; simp [decode]
  · rw [← decode_attrChar, attrChar, if_neg hq]

theorem decode_attr (s t : Str) : decode 0 (attrEscape s ++ t) = s ++ decode 0 t := by
  induction s with
  | nil => rfl
  | cons c s ih => rw [attrEscape_cons, List.append_assoc, decode_attrChar, ih, List.cons_append]

theorem decode_html (s t : Str) : decode 0 (htmlEscape s ++ t) = s ++ decode 0 t := by
  induction s with
  | nil => rfl
  | cons c s ih => rw [htmlEscape_cons, List.append_assoc, decode_escChar, ih, List.cons_append]

theorem html_noLt (s : Str) : '<' ∉ htmlEscape s := by
  rw [htmlEscape_eq]
  intro h
  rw [List.mem_flatMap] at h
  obtain ⟨c, _, h⟩ := h
  unfold escChar at h
  repeat' split at h
  all_goals first
    | (revert h; decide)
    | (rename_i h1 _; exact h1 (List.mem_singleton.mp h).symm)

theorem Frag.html (s : Str) : Frag (htmlEscape s) s := by
  intro t
  unfold reading
  rw [visible_text (html_noLt s), decode_html]

theorem Frag.plain {s : Str} (h : '<' ∉ s) (h' : '&' ∉ s) : Frag s s := by
  intro t
  unfold reading
  rw [visible_text h, decode_plain h']

theorem Frag.tag {s : Str} (h : '"' ∉ s) (h' : '>' ∉ s) : Frag ('<' :: s ++ c!">") [] := by
  intro t
  unfold reading
  rw [List.cons_append, List.cons_append, visible, if_pos rfl, List.append_assoc, visible_tag h h']
  rfl

theorem Frag.href (x : Str) : Frag (c!"<a href=\"" ++ attrEscape x ++ c!"\">") x := by
  intro t
  unfold reading
  rw [List.append_assoc, List.append_assoc]
  show decode 0 (visible .value (attrEscape x ++ '"' :: '>' :: t)) = _
  rw [visible_value (isAttrValue_attrEscape x).1]
  show decode 0 (attrEscape x ++ visible .text t) = _
  rw [decode_attr]

theorem Frag.img (x y : Str) : Frag (imgOpen x (attrEscape y) ++ c!" />") (x ++ y ++ y) := by
  intro t
  unfold reading imgOpen
  simp only [List.append_assoc]
  show decode 0 (visible .value (attrEscape x ++ '"' :: (c!" title=\"" ++ (attrEscape y ++ '"' :: (c!" alt=\"" ++ (attrEscape y ++
    '"' :: (c!" />" ++ t))))))) = _
  rw [visible_value (isAttrValue_attrEscape x).1]
  show decode 0 (attrEscape x ++ visible .value (attrEscape y ++ '"' :: (c!" alt=\"" ++ (attrEscape y ++
    '"' :: (c!" />" ++ t))))) = _
  rw [visible_value (isAttrValue_attrEscape y).1]
  show decode 0 (attrEscape x ++ (attrEscape y ++ visible .value (attrEscape y ++ '"' :: (c!" />" ++ t)))) = _
  rw [visible_value (isAttrValue_attrEscape y).1]
  show decode 0 (attrEscape x ++ (attrEscape y ++ (attrEscape y ++ visible .text t))) = _
  rw [decode_attr, decode_attr, decode_attr]

/-! ### Values that have not been escaped -/

theorem prefix_stop {w a t : Str} {c : Char} (h : c ∉ w) : w <+: a ++ c :: t ↔ w <+: a := by
  constructor
  · intro hp
    induction w generalizing a with
    | nil => exact List.nil_prefix
    | cons d w ih =>
      rw [List.mem_cons, not_or] at h
      cases a with
      | nil =>
        rw [List.nil_append, List.cons_prefix_cons] at hp
        exact absurd hp.1.symm h.1
      | cons b a =>
        rw [List.cons_append, List.cons_prefix_cons] at hp
        rw [List.cons_prefix_cons]
        exact ⟨hp.1, ih h.2 hp.2⟩
  · intro hp
    exact hp.trans (List.prefix_append _ _)

theorem decode_stop {c : Char} (h : c ∉ c!"amp;ltgquo&") : ∀ (a : Str) (n : Nat), n ≤ a.length → ∀ t : Str,
    decode n (a ++ c :: t) = decode n a ++ c :: decode 0 t := by
  have hs : ∀ w : Str, (∀ x ∈ w, x ∈ c!"amp;ltgquo&") → c ∉ w := fun w hw hc => h (hw c hc)
  have hc : c ≠ '&' := fun e => h (by rw [e]; decide)
  intro a
  induction a with
  | nil =>
    intro n hn t
    have : n = 0 := by simpa using hn
    subst this
    simp [decode, hc]
  | cons b a ih =>
    intro n hn t
    cases n with
    | succ n =>
      rw [List.cons_append, decode, decode]
      exact ih n (by simpa using hn) t
    | zero =>
      rw [List.cons_append, decode, decode]
      by_cases hb : b = '&'
      · simp only [if_pos hb]
        simp only [prefix_stop (hs c!"amp;" (by decide)), prefix_stop (hs c!"lt;" (by decide)),
          prefix_stop (hs c!"gt;" (by decide)), prefix_stop (hs c!"quot" (by decide))]
        split
        · rename_i hp; rw [ih 4 hp.length_le t]; rfl
        split
        · rename_i hp; rw [ih 3 hp.length_le t]; rfl
        split
        · rename_i hp; rw [ih 3 hp.length_le t]; rfl
        split
        · rename_i hp; rw [ih 4 hp.length_le t]; rfl
        · rw [ih 0 (by simp) t]; rfl
      · simp only [if_neg hb]
        rw [ih 0 (by simp) t]; rfl

theorem intStr_chars (n : Int) : intStr n ≠ [] ∧ ∀ c ∈ intStr n, c = '-' ∨ c.isDigit = true := by
  cases n with
  | ofNat n => exact ⟨(natDigits_digit n).1, fun c hc => .inr ((natDigits_digit n).2 c hc)⟩
  | negSucc n =>
    refine ⟨by simp [intStr], fun c hc => ?_⟩
    simp only [intStr, List.mem_cons] at hc
    exact hc.imp id fun h => (natDigits_digit _).2 c h

theorem intStr_not (n : Int) {c : Char} (h : c ≠ '-' ∧ c.isDigit = false) : c ∉ intStr n := by
  intro hc
  rcases (intStr_chars n).2 c hc with h1 | h1
  · exact h.1 h1
  · rw [h.2] at h1; cases h1

/-- values without quotes, followed by numbers -/
theorem Frag.imgSized (x y : Str) (hy : '"' ∉ y) (w h : Int) :
    ∃ v, Frag (imgOpen x y ++ c!" width=\"" ++ intStr w ++ c!"\" height=\"" ++ intStr h ++ c!"\" />") (x ++ v) := by
  obtain ⟨hw, hw'⟩ := intStr_chars w
  obtain ⟨d, r, hd⟩ := List.exists_cons_of_ne_nil hw
  refine ⟨decode 0 (y ++ y) ++ intStr w ++ intStr h, fun t => ?_⟩
  unfold reading imgOpen
  simp only [List.append_assoc]
  show decode 0 (visible .value (attrEscape x ++ '"' :: (c!" title=\"" ++ (y ++ '"' :: (c!" alt=\"" ++ (y ++
    '"' :: (c!" width=\"" ++ (intStr w ++ '"' :: (c!" height=\"" ++ (intStr h ++ '"' :: (c!" />" ++ t)))))))))) ) = _
  rw [visible_value (isAttrValue_attrEscape x).1]
  show decode 0 (attrEscape x ++ visible .value (y ++ '"' :: (c!" alt=\"" ++ (y ++
    '"' :: (c!" width=\"" ++ (intStr w ++ '"' :: (c!" height=\"" ++ (intStr h ++ '"' :: (c!" />" ++ t)))))))) ) = _
  rw [visible_value hy]
  show decode 0 (attrEscape x ++ (y ++ visible .value (y ++
    '"' :: (c!" width=\"" ++ (intStr w ++ '"' :: (c!" height=\"" ++ (intStr h ++ '"' :: (c!" />" ++ t)))))))) = _
  rw [visible_value hy]
  show decode 0 (attrEscape x ++ (y ++ (y ++ visible .value (intStr w ++ '"' :: (c!" height=\"" ++ (intStr h ++ '"' :: (c!" />" ++ t))))))) = _
  rw [visible_value (intStr_not w (by decide))]
  show decode 0 (attrEscape x ++ (y ++ (y ++ (intStr w ++ visible .value (intStr h ++ '"' :: (c!" />" ++ t)))))) = _
  rw [visible_value (intStr_not h (by decide))]
  show decode 0 (attrEscape x ++ (y ++ (y ++ (intStr w ++ (intStr h ++ visible .text t))))) = _
  rw [decode_attr, ← List.append_assoc y y]
  congr 1
  have hdc : d ∉ c!"amp;ltgquo&" := by
    intro hm
    have := hw' d (by rw [hd]; simp)
    revert this
    have : ∀ d ∈ c!"amp;ltgquo&", ¬ (d = '-' ∨ d.isDigit = true) := by decide
    exact this d hm
  have hr : '&' ∉ r ∧ '&' ∉ intStr h := by
    have := intStr_not w (c := '&') (by decide)
    rw [hd, List.mem_cons, not_or] at this
    exact ⟨this.2, intStr_not h (by decide)⟩
  rw [hd, List.cons_append, decode_stop hdc _ 0 (by simp), decode_plain hr.1, decode_plain hr.2]
  simp

/-- the text of a sized image with an escaped title -/
theorem Frag.imgSizedEsc (x y : Str) (w h : Int) :
    ∃ v, Frag (imgOpen x (attrEscape y) ++ c!" width=\"" ++ intStr w ++ c!"\" height=\"" ++ intStr h ++ c!"\" />") (x ++ y ++ v) := by
  refine ⟨y ++ intStr w ++ intStr h, fun t => ?_⟩
  unfold reading imgOpen
  simp only [List.append_assoc]
  show decode 0 (visible .value (attrEscape x ++ '"' :: (c!" title=\"" ++ (attrEscape y ++ '"' :: (c!" alt=\"" ++ (attrEscape y ++
    '"' :: (c!" width=\"" ++ (intStr w ++ '"' :: (c!" height=\"" ++ (intStr h ++ '"' :: (c!" />" ++ t)))))))))) ) = _
  rw [visible_value (isAttrValue_attrEscape x).1]
  show decode 0 (attrEscape x ++ visible .value (attrEscape y ++ '"' :: (c!" alt=\"" ++ (attrEscape y ++
    '"' :: (c!" width=\"" ++ (intStr w ++ '"' :: (c!" height=\"" ++ (intStr h ++ '"' :: (c!" />" ++ t)))))))) ) = _
  rw [visible_value (isAttrValue_attrEscape y).1]
  show decode 0 (attrEscape x ++ (attrEscape y ++ visible .value (attrEscape y ++
    '"' :: (c!" width=\"" ++ (intStr w ++ '"' :: (c!" height=\"" ++ (intStr h ++ '"' :: (c!" />" ++ t)))))))) = _
  rw [visible_value (isAttrValue_attrEscape y).1]
  show decode 0 (attrEscape x ++ (attrEscape y ++ (attrEscape y ++ visible .value (intStr w ++ '"' :: (c!" height=\"" ++ (intStr h ++ '"' :: (c!" />" ++ t))))))) = _
  rw [visible_value (intStr_not w (by decide))]
  show decode 0 (attrEscape x ++ (attrEscape y ++ (attrEscape y ++ (intStr w ++ visible .value (intStr h ++ '"' :: (c!" />" ++ t)))))) = _
  rw [visible_value (intStr_not h (by decide))]
  show decode 0 (attrEscape x ++ (attrEscape y ++ (attrEscape y ++ (intStr w ++ (intStr h ++ visible .text t))))) = _
  rw [decode_attr, decode_attr, decode_attr, decode_plain (intStr_not w (by decide)), decode_plain (intStr_not h (by decide))]

/-! ## Sizes -/

/-- the characters of a size -/
def sizeChar (c : Char) : Prop := isSpace c = true ∨ c ∈ c!"_+-x" ∨ (decimal? c).isSome = true

theorem isIntSpace_space {c : Char} (h : isIntSpace c = true) : isSpace c = true := by
  unfold isIntSpace at h
  dsimp only at h
  split at h
  · unfold isSpace
    simp only [Bool.or_eq_true, Bool.and_eq_true, decide_eq_true_eq, beq_iff_eq] at h ⊢
    omega
  · exact h

theorem intDigits_chars : ∀ (s : Str) (acc cnt : Nat) (sep : Bool) {r}, intDigits acc cnt sep s = some r → ∀ c ∈ s, sizeChar c := by
  intro s
  induction s with
  | nil => intro _ _ _ _ _ c hc; cases hc
  | cons d s ih =>
    intro acc cnt sep r h c hc
    rw [intDigits] at h
    split at h
    · rename_i hd
      split at h
      · cases h
      · rcases List.mem_cons.mp hc with rfl | hc
        · exact .inr (.inl (by rw [hd]; decide))
        · exact ih _ _ _ h c hc
    · split at h
      · rename_i hd
        rcases List.mem_cons.mp hc with rfl | hc
        · exact .inr (.inr (by rw [hd]; rfl))
        · exact ih _ _ _ h c hc
      · cases h

theorem natOf_chars {s : Str} {n : Nat} (h : natOf s = some n) : ∀ c ∈ s, sizeChar c := by
  unfold natOf at h
  split at h
  · cases h
  · rename_i d s
    split at h
    · cases h
    · rename_i e he
      split at h
      · rename_i n cnt hi
        intro c hc
        rcases List.mem_cons.mp hc with rfl | hc
        · exact .inr (.inr (by rw [he]; rfl))
        · exact intDigits_chars _ _ _ _ hi c hc
      · cases h

theorem mem_of_stripP {p : Char → Bool} {s : Str} {c : Char} (h : c ∈ s) : c ∈ stripP p s ∨ p c = true := by
  by_cases hp : p c = true
  · exact .inr hp
  · left
    unfold stripP
    have hl : ∀ (s : Str), c ∈ s → c ∈ s.dropWhile p := by
      intro s
      induction s with
      | nil => intro h; exact h
      | cons d s ih =>
        intro h
        rw [List.dropWhile_cons]
        split
        · rename_i hd
          rcases List.mem_cons.mp h with rfl | h
          · exact absurd hd hp
          · exact ih h
        · exact h
    have hr : ∀ (s : Str), c ∈ s → c ∈ dropEndWhile p s := by
      intro s
      induction s with
      | nil => intro h; exact h
      | cons d s ih =>
        intro h
        rw [dropEndWhile]
        split
        · rename_i he
          rcases List.mem_cons.mp h with rfl | h
          · rw [if_neg hp]; simp
          · have := ih h; rw [he] at this; cases this
        · rename_i he
          rcases List.mem_cons.mp h with rfl | h
          · simp
          · exact List.mem_cons_of_mem _ (by first | exact ih h | (rw [← he]; exact ih h))
    first | exact hr _ (hl _ h) | exact hl _ (hr _ h)

theorem natOf_ok {r : Str} {f : Nat → Option Int} {g : Int → Int} {n : Int} (h : ((natOf r).bind f).map g = some n) : ∃ m, natOf r = some m := by
  cases hn : natOf r with
  | none => rw [hn] at h; cases h
  | some m => exact ⟨m, rfl⟩

theorem pyInt_chars {s : Str} {n : Int} (h : pyInt s = some n) : ∀ c ∈ s, sizeChar c := by
  intro c hc
  rcases mem_of_stripP (p := isIntSpace) hc with hc | hc
  · unfold pyInt at h
    split at h
    · rename_i r hr
      rw [hr] at hc
      obtain ⟨m, hm⟩ := natOf_ok h
      rcases List.mem_cons.mp hc with rfl | hc
      · exact .inr (.inl (by decide))
      · exact natOf_chars hm c hc
    · rename_i r hr
      rw [hr] at hc
      obtain ⟨m, hm⟩ := natOf_ok h
      rcases List.mem_cons.mp hc with rfl | hc
      · exact .inr (.inl (by decide))
      · exact natOf_chars hm c hc
    · obtain ⟨m, hm⟩ := natOf_ok h
      exact natOf_chars hm c hc
  · exact .inl (isIntSpace_space hc)

theorem strip_chars {s : Str} (h : ∀ c ∈ strip s, sizeChar c) : ∀ c ∈ s, sizeChar c := by
  intro c hc
  have hs : strip s = stripP isSpace s := rfl
  rcases mem_of_stripP (p := isSpace) hc with hc | hc
  · exact h c (by rw [hs]; exact hc)
  · exact .inl hc

theorem splitOnce_eq {c : Char} : ∀ {s a b : Str}, splitOnce c s = some (a, b) → s = a ++ c :: b
  | [], a, b, h => by cases h
  | d :: s, a, b, h => by
    rw [splitOnce] at h
    split at h
    · rename_i hd
      cases h
      rw [show d = c from by simpa using hd]
      rfl
    · obtain ⟨⟨x, y⟩, hx, he⟩ := Option.map_eq_some_iff.mp h
      cases he
      rw [splitOnce_eq hx]
      rfl

theorem splitOnce_attr : ∀ {y a b : Str}, splitOnce '|' (attrEscape y) = some (a, b) →
    ∃ y1 y2, y = y1 ++ '|' :: y2 ∧ a = attrEscape y1 ∧ b = attrEscape y2
  | [], a, b, h => by cases h
  | c :: y, a, b, h => by
    by_cases hc : c = '|'
    · subst hc
      rw [attrEscape_cons, show attrChar '|' = ['|'] from rfl] at h
      simp [splitOnce] at h
      obtain ⟨rfl, rfl⟩ := h
      exact ⟨[], y, rfl, rfl, rfl⟩
    · have key : ∀ (w t : Str), '|' ∉ w → splitOnce '|' (w ++ t) = (splitOnce '|' t).map fun (a, b) => (w ++ a, b) := by
        intro w t hw
        induction w with
        | nil => cases h : splitOnce '|' t <;> simp [h]
        | cons d w ih =>
          rw [List.mem_cons, not_or] at hw
          rw [List.cons_append, splitOnce, ih hw.2]
          rw [if_neg (by simpa using Ne.symm hw.1)]
          cases splitOnce '|' t <;> simp
      have hn : '|' ∉ attrChar c := by
        unfold attrChar escChar
        repeat' split
        all_goals first | decide | simpa using Ne.symm hc
      rw [attrEscape_cons, key _ _ hn] at h
      obtain ⟨⟨x, z⟩, hx, he⟩ := Option.map_eq_some_iff.mp h
      cases he
      obtain ⟨y1, y2, e1, e2, e3⟩ := splitOnce_attr hx
      refine ⟨c :: y1, y2, by rw [e1]; rfl, ?_, e3⟩
      rw [attrEscape_cons, e2]

theorem sizeChar_amp : ¬ sizeChar '&' := by unfold sizeChar; decide +kernel

/-- the text of an image with a size -/
theorem imageSize_inv {x y title : Str} {w h : Int} (hi : imageSize x (attrEscape y) = some (title, w, h)) :
    ∃ y1 y2, y = y1 ++ '|' :: y2 ∧ (title = if y1 = [] then x else attrEscape y1) ∧ ∀ c ∈ y2, sizeChar c := by
  unfold imageSize at hi
  cases h1 : splitOnce '|' (attrEscape y) with
  | none => rw [h1] at hi; cases hi
  | some p =>
    obtain ⟨a, b⟩ := p
    rw [h1] at hi
    simp only [Option.bind_eq_bind, Option.bind_some] at hi
    cases h2 : splitOnce 'x' b with
    | none => rw [h2] at hi; cases hi
    | some q =>
      obtain ⟨u, v⟩ := q
      rw [h2] at hi
      simp only [Option.bind_some] at hi
      cases h3 : pyInt (strip u) with
      | none => rw [h3] at hi; cases hi
      | some m =>
        rw [h3] at hi
        simp only [Option.bind_some] at hi
        cases h4 : pyInt (strip v) with
        | none => rw [h4] at hi; cases hi
        | some n =>
          rw [h4] at hi
          simp only [Option.bind_some, Option.pure_def, Option.some.injEq, Prod.mk.injEq] at hi
          obtain ⟨rfl, rfl, rfl⟩ := hi
          obtain ⟨y1, y2, e1, e2, e3⟩ := splitOnce_attr h1
          refine ⟨y1, y2, e1, ?_, ?_⟩
          · rw [e2]
            cases y1 with
            | nil => rfl
            | cons c l =>
              have : attrEscape (c :: l) ≠ [] := by
                rw [attrEscape_cons]
                unfold attrChar escChar
                repeat' split
                all_goals simp
              rw [if_neg this, if_neg (by simp)]
          · have hb : ∀ c ∈ b, sizeChar c := by
              rw [splitOnce_eq h2]
              intro c hc
              rw [List.mem_append, List.mem_cons] at hc
              rcases hc with hc | rfl | hc
              · exact strip_chars (pyInt_chars h3) c hc
              · exact .inr (.inl (by decide))
              · exact strip_chars (pyInt_chars h4) c hc
            intro c hc
            have hm : ∀ d ∈ attrChar c, d ∈ b := by
              intro d hd
              rw [e3, attrEscape_eq, List.mem_flatMap]
              exact ⟨c, hc, hd⟩
            have hamp : '&' ∉ attrChar c := fun hd => sizeChar_amp (hb _ (hm _ hd))
            have : attrChar c = [c] := by
              revert hamp
              unfold attrChar escChar
              repeat' split
              all_goals simp
            exact hb c (hm c (by rw [this]; simp))

/-! ## Trees -/

/-- there is a link or a picture in a HTML text -/
def HasMedia (s : Str) : Prop := c!"<a href=" <:+: s ∨ c!"<img src=" <:+: s

theorem HasMedia.mono {a b : Str} (h : HasMedia a) (hi : a <:+: b) : HasMedia b := h.imp (·.trans hi) (·.trans hi)

/-- what is known about the letters `t` of a tree: no pictures, or no sizes, or no quotes -/
def Mode (K : Char → Bool) (strict : Bool) (t : Str) : Prop :=
  medium ∉ t ∨ strict = true ∨ (∀ c, K c = true → ¬ sizeChar c) ∧ '"' ∉ t

theorem Mode.left {K : Char → Bool} {st : Bool} {a b : Str} (h : Mode K st (a ++ b)) : Mode K st a := by
  rcases h with h | h | ⟨h, h'⟩
  · exact .inl fun x => h (List.mem_append_left _ x)
  · exact .inr (.inl h)
  · exact .inr (.inr ⟨h, fun x => h' (List.mem_append_left _ x)⟩)

theorem Mode.right {K : Char → Bool} {st : Bool} {a b : Str} (h : Mode K st (a ++ b)) : Mode K st b := by
  rcases h with h | h | ⟨h, h'⟩
  · exact .inl fun x => h (List.mem_append_right _ x)
  · exact .inr (.inl h)
  · exact .inr (.inr ⟨h, fun x => h' (List.mem_append_right _ x)⟩)

/-- The HTML `s` of a tree with the letters `t`: links and pictures can be seen, and one reads the letters. -/
structure Renders (K : Char → Bool) (strict : Bool) (t s : Str) : Prop where
  media : medium ∈ t → HasMedia s
  read : Mode K strict t → ∃ v, Frag s v ∧ (t.filter K).Sublist v ∧ (medium ∉ t → letters v = t)

section
variable {K : Char → Bool} {st : Bool}

theorem Renders.nil : Renders K st [] [] := ⟨(fun h => by cases h), fun _ => ⟨[], Frag.nil, List.Sublist.refl _, fun _ => rfl⟩⟩

theorem Renders.append {t t' s s' : Str} (h : Renders K st t s) (h' : Renders K st t' s') : Renders K st (t ++ t') (s ++ s') := by
  refine ⟨fun hm => ?_, fun hm => ?_⟩
  · rcases List.mem_append.mp hm with hm | hm
    · exact (h.media hm).mono (List.prefix_append _ _).isInfix
    · exact (h'.media hm).mono (List.suffix_append _ _).isInfix
  · obtain ⟨v, a1, a2, a3⟩ := h.read hm.left
    obtain ⟨w, b1, b2, b3⟩ := h'.read hm.right
    refine ⟨v ++ w, a1.append b1, by rw [List.filter_append]; exact a2.append b2, fun hx => ?_⟩
    rw [List.mem_append, not_or] at hx
    rw [letters_append, a3 hx.1, b3 hx.2]

theorem Renders.plain {s v : Str} (h : Frag s v) (hv : letters v = []) : Renders K st [] s :=
  ⟨(fun h => by cases h), fun _ => ⟨v, h, List.nil_sublist _, fun _ => hv⟩⟩

theorem Renders.wrap {t s a b : Str} (h : Renders K st t s) (ha : Renders K st [] a) (hb : Renders K st [] b) :
    Renders K st t (a ++ s ++ b) := by
  have := (ha.append h).append hb
  rw [List.nil_append, List.append_nil] at this
  exact this

theorem letters_sub (s : Str) : (letters s).Sublist s := List.filter_sublist

theorem medium_letters (s : Str) : medium ∉ letters s := by
  intro h
  have := (List.mem_filter.mp h).2
  revert this
  decide +kernel

/-- texts -/
theorem Renders.html (s : Str) : Renders K st (letters s) (htmlEscape s) :=
  ⟨fun h => absurd h (medium_letters s), fun _ => ⟨s, Frag.html s, List.filter_sublist.trans (letters_sub s), fun _ => rfl⟩⟩

theorem filter_letters_sub (hK : ∀ c, K c = true → keeps c = true) (s : Str) : (letters s).filter K = s.filter K := by
  rw [letters, List.filter_filter]
  congr 1
  funext c
  cases h : K c with
  | false => rfl
  | true => simp [hK c h]

theorem filter_medium (hK : ∀ c, K c = true → keeps c = true) (t : Str) : (medium :: t).filter K = t.filter K := by
  rw [List.filter_cons, if_neg]
  intro h
  have := hK _ h
  revert this
  decide +kernel

theorem quote_letters {s : Str} (h : '"' ∉ letters s) : '"' ∉ s := by
  intro hs
  exact h (List.mem_filter.mpr ⟨hs, by decide +kernel⟩)

/-- pictures -/
theorem Renders.image (hK : ∀ c, K c = true → keeps c = true) {env : Env} (x y : Str) :
    Renders K env.strict (medium :: (letters x ++ letters y)) (imageEmit env x y) := by
  refine ⟨fun _ => .inr ?_, fun hm => ?_⟩
  · unfold imageEmit imgOpen
    dsimp only
    split
    · exact ⟨[], _, rfl⟩
    · split <;> exact ⟨[], _, rfl⟩
  · have hf : (medium :: (letters x ++ letters y)).filter K = x.filter K ++ y.filter K := by
      rw [filter_medium hK, List.filter_append, filter_letters_sub hK, filter_letters_sub hK]
    rw [hf]
    have plain : ∃ v, Frag (imgOpen x (attrEscape y) ++ c!" />") v ∧ (x.filter K ++ y.filter K).Sublist v ∧
        (medium ∉ medium :: (letters x ++ letters y) → letters v = medium :: (letters x ++ letters y)) :=
      ⟨_, Frag.img x y, (List.Sublist.append List.filter_sublist List.filter_sublist).trans (List.sublist_append_left _ _),
        fun h => absurd List.mem_cons_self h⟩
    unfold imageEmit
    dsimp only
    split
    · exact plain
    · rename_i hs
      split
      · rename_i title w h hi
        obtain ⟨y1, y2, rfl, ht, hy⟩ := imageSize_inv hi
        rcases hm with hm | hm | ⟨hk, hq⟩
        · exact absurd List.mem_cons_self hm
        · exact absurd hm hs
        have h2 : ('|' :: y2).filter K = [] := by
          rw [List.filter_eq_nil_iff]
          intro c hc hk'
          rcases List.mem_cons.mp hc with rfl | hc
          · have := hK _ hk'
            revert this
            decide +kernel
          · exact hk c hk' (hy c hc)
        rw [List.filter_append, h2, List.append_nil]
        have hx : '"' ∉ x := by
          refine quote_letters fun h => hq ?_
          simp [h]
        by_cases h1 : y1 = []
        · rw [if_pos h1] at ht
          subst ht
          obtain ⟨v, hv⟩ := Frag.imgSized title title hx w h
          refine ⟨_, hv, ?_, fun h => absurd List.mem_cons_self h⟩
          rw [h1]
          exact List.Sublist.append List.filter_sublist (List.nil_sublist _)
        · rw [if_neg h1] at ht
          subst ht
          obtain ⟨v, hv⟩ := Frag.imgSizedEsc x y1 w h
          refine ⟨_, hv, ?_, fun h => absurd List.mem_cons_self h⟩
          exact (List.Sublist.append List.filter_sublist List.filter_sublist).trans (List.sublist_append_left _ _)
      · exact plain

/-- links -/
theorem Renders.link (hK : ∀ c, K c = true → keeps c = true) {t s : Str} (x : Str)
    (h : Mode K st t → ∃ v, Frag s v ∧ (t.filter K).Sublist v) :
    Renders K st (medium :: (letters x ++ t)) (c!"<a href=\"" ++ attrEscape x ++ c!"\">" ++ s ++ c!"</a>") := by
  refine ⟨fun _ => .inl ⟨[], c!"\"" ++ attrEscape x ++ c!"\">" ++ s ++ c!"</a>", rfl⟩, fun hm => ?_⟩
  have hm' : Mode K st t := by
    have : medium :: (letters x ++ t) = (medium :: letters x) ++ t := rfl
    rw [this] at hm
    exact hm.right
  obtain ⟨v, a1, a2⟩ := h hm'
  refine ⟨x ++ v ++ [], ((Frag.href x).append a1).append (fun _ => rfl), ?_, fun h => absurd List.mem_cons_self h⟩
  rw [filter_medium hK, List.filter_append, filter_letters_sub hK, List.append_nil]
  exact List.filter_sublist.append a2

theorem Renders.tabs (n : Nat) : Renders K st [] (tabs n) := by
  have h : ∀ c ∈ Creole.tabs n, c = '\t' := fun c hc => List.eq_of_mem_replicate hc
  refine Renders.plain (Frag.plain ?_ ?_) ?_
  · intro hc; have := h _ hc; revert this; decide
  · intro hc; have := h _ hc; revert this; decide
  · rw [letters, List.filter_eq_nil_iff]
    intro c hc
    rw [h c hc]
    decide +kernel

theorem Renders.list {t s : Str} {k : Kind} {n : Nat} {tag : Str} {b : Bool} (h : Renders K st t s)
    (h1 : Renders K st [] ('<' :: tag ++ c!">")) (h2 : Renders K st [] (c!"</" ++ tag ++ c!">")) :
    Renders K st t (listEmit k n tag b s) := by
  have nl : Renders K st [] c!"\n" := .plain (v := c!"\n") (fun _ => rfl) (by decide +kernel)
  have ha : Renders K st [] (if k = Kind.document then [] else c!"\n") := by
    split
    · exact .nil
    · exact nl
  unfold listEmit
  cases b with
  | true =>
    have := h.wrap ((ha.append (Renders.tabs n)).append h1) h2
    simpa using this
  | false =>
    have := h.wrap ((ha.append (Renders.tabs n)).append h1) ((nl.append (Renders.tabs n)).append h2)
    simpa using this

theorem emap_inv {f : Str → Str} {r : EM} {s : Str} {ms : Macros} (h : emap f r = .ok (s, ms)) :
    ∃ s0, r = .ok (s0, ms) ∧ s = f s0 := by
  cases r with
  | error e => cases h
  | ok x =>
    obtain ⟨a, b⟩ := x
    cases h
    exact ⟨a, rfl, rfl⟩

theorem pureText_inv {r : Except PyErr Str} {s : Str} {ms ms' : Macros} (h : pureText r ms = .ok (s, ms')) : r = .ok s := by
  cases r with
  | error e => cases h
  | ok x => cases h; rfl

theorem contentE_inv {i : Info} {f : Str → Str} {s : Str} (h : i.contentE.map f = .ok s) : ∃ c, i.content = some c ∧ s = f c := by
  unfold Info.contentE at h
  cases hc : i.content with
  | none => rw [hc] at h; cases h
  | some c => rw [hc] at h; cases h; exact ⟨c, rfl, rfl⟩

theorem Renders.face {t s tag : Str} (h : Renders K st t s) (h1 : Renders K st [] ('<' :: tag ++ c!">"))
    (h2 : Renders K st [] (c!"</" ++ tag ++ c!">")) : Renders K st t (typeface tag s) := by
  have := h.wrap h1 h2
  unfold typeface
  simpa using this

/-- a constant piece -/
theorem Renders.const {a : Str} (v : Str) (h : ∀ t, reading (a ++ t) = v ++ reading t) (hv : letters v = []) : Renders K st [] a :=
  .plain h hv

theorem Renders.digits (n : Nat) (pre : Str) (h1 : '"' ∉ pre) (h2 : '>' ∉ pre) :
    Renders K st [] ('<' :: (pre ++ natDigits n) ++ c!">") := by
  refine .plain (Frag.tag ?_ ?_) rfl
  · rw [List.mem_append, not_or]
    exact ⟨h1, fun h => by have := (natDigits_digit n).2 _ h; revert this; decide⟩
  · rw [List.mem_append, not_or]
    exact ⟨h2, fun h => by have := (natDigits_digit n).2 _ h; revert this; decide⟩

theorem breakEmit_renders {p : Info} {s : Str} (h : breakEmit p = .ok s) : Renders K st [] s := by
  unfold breakEmit at h
  split at h
  · unfold Info.levelE at h
    split at h
    · cases h
      exact Renders.append (t := []) (t' := []) (.const c!"\n" (fun _ => rfl) (by decide +kernel)) (.tabs _)
    · cases h
  · split at h <;> cases h
    · exact .const c!"\n\t\t" (fun _ => rfl) (by decide +kernel)
    · exact .const c!"\n" (fun _ => rfl) (by decide +kernel)

mutual
theorem emitNode_renders (hK : ∀ c, K c = true → keeps c = true) {env : Env} (hu : env.useToc = false) :
    ∀ (n : Node) (p : Info) (ms : Macros) (s : Str) (ms' : Macros), n.All (InfoOK False) →
      emitNode env p n ms = .ok (s, ms') → Renders K env.strict n.shown s
  | .mk i cs, p, ms, s, ms', ha, h => by
    have hcs := fun s ms' => emitNodes_renders hK hu cs i ms s ms' ha.children
    have hinfo := ha.info
    unfold InfoOK at hinfo
    unfold emitNode at h
    have face : ∀ tag : Str, (Renders K env.strict [] ('<' :: tag ++ c!">")) → Renders K env.strict [] (c!"</" ++ tag ++ c!">") →
        emap (typeface tag) (emitNodes env i cs ms) = .ok (s, ms') → Renders K env.strict (shownL cs) s := by
      intro tag h1 h2 h
      obtain ⟨s0, e, rfl⟩ := emap_inv h
      exact (hcs _ _ e).face h1 h2
    have wrapped : ∀ (a b : Str), Renders K env.strict [] a → Renders K env.strict [] b →
        emap (fun s => a ++ s ++ b) (emitNodes env i cs ms) = .ok (s, ms') → Renders K env.strict (shownL cs) s := by
      intro a b h1 h2 h
      obtain ⟨s0, e, rfl⟩ := emap_inv h
      exact (hcs _ _ e).wrap h1 h2
    have listed : ∀ tag b, (Renders K env.strict [] ('<' :: tag ++ c!">")) → Renders K env.strict [] (c!"</" ++ tag ++ c!">") →
        (match i.levelE with
          | .ok n => emap (listEmit p.kind n tag b) (emitNodes env i cs ms)
          | .error e => .error e) = .ok (s, ms') → Renders K env.strict (shownL cs) s := by
      intro tag b h1 h2 h
      split at h
      · obtain ⟨s0, e, rfl⟩ := emap_inv h
        exact (hcs _ _ e).list h1 h2
      · cases h
    have e0 : i.kind ≠ .link → i.own = [] := fun hk => if_neg hk
    cases hk : i.kind <;> simp only [hk] at h hinfo <;> simp only [Node.shown, hk]
    case document =>
      rw [e0 (by rw [hk]; decide)]
      exact hcs _ _ h
    case text =>
      obtain ⟨c, hc, rfl⟩ := contentE_inv (pureText_inv h)
      rw [hc]
      exact .html c
    case separator => cases h; exact .const c!"\n" (fun _ => rfl) (by decide +kernel)
    case paragraph =>
      rw [e0 (by rw [hk]; decide)]
      exact wrapped c!"<p>" c!"</p>\n" (.const [] (fun _ => rfl) rfl) (.const c!"\n" (fun _ => rfl) (by decide +kernel)) h
    case bullet_list =>
      rw [e0 (by rw [hk]; decide)]
      exact listed c!"ul" false (.const [] (fun _ => rfl) rfl) (.const [] (fun _ => rfl) rfl) h
    case number_list =>
      rw [e0 (by rw [hk]; decide)]
      exact listed c!"ol" false (.const [] (fun _ => rfl) rfl) (.const [] (fun _ => rfl) rfl) h
    case list_item =>
      rw [e0 (by rw [hk]; decide)]
      exact listed c!"li" true (.const [] (fun _ => rfl) rfl) (.const [] (fun _ => rfl) rfl) h
    case table =>
      rw [e0 (by rw [hk]; decide)]
      exact wrapped c!"<table>\n" c!"</table>\n" (.const c!"\n" (fun _ => rfl) (by decide +kernel)) (.const c!"\n" (fun _ => rfl) (by decide +kernel)) h
    case table_row =>
      rw [e0 (by rw [hk]; decide)]
      exact wrapped c!"<tr>\n" c!"</tr>\n" (.const c!"\n" (fun _ => rfl) (by decide +kernel)) (.const c!"\n" (fun _ => rfl) (by decide +kernel)) h
    case table_cell =>
      rw [e0 (by rw [hk]; decide)]
      exact wrapped c!"\t<td>" c!"</td>\n" (.const c!"\t" (fun _ => rfl) (by decide +kernel)) (.const c!"\n" (fun _ => rfl) (by decide +kernel)) h
    case table_head =>
      rw [e0 (by rw [hk]; decide)]
      exact wrapped c!"\t<th>" c!"</th>\n" (.const c!"\t" (fun _ => rfl) (by decide +kernel)) (.const c!"\n" (fun _ => rfl) (by decide +kernel)) h
    case header =>
      obtain ⟨c, hc⟩ := Option.isSome_iff_exists.mp hinfo.1
      obtain ⟨n, hn⟩ := hinfo.2
      simp only [Info.levelE, Info.contentE, hc, hn, headerEmit, hu] at h
      cases h
      rw [hc]
      have := (Renders.html (K := K) (st := env.strict) c).wrap (Renders.digits (n + 1) c!"h" (by decide) (by decide))
        ((Renders.digits (n + 1) c!"/h" (by decide) (by decide)).append (.const (a := c!"\n") c!"\n" (fun _ => rfl) (by decide +kernel)))
      simpa using this
    case link =>
      obtain ⟨c, hc⟩ := Option.isSome_iff_exists.mp hinfo
      simp only [Info.contentE, hc] at h
      have ho : i.own = medium :: letters c := by rw [Info.own, if_pos hk, hc]; rfl
      rw [ho]
      split at h
      · rename_i he
        cases h
        have : cs = [] := by simpa using he
        subst this
        exact Renders.link hK c fun _ => ⟨c, Frag.html c, List.nil_sublist _⟩
      · obtain ⟨s0, e, rfl⟩ := emap_inv h
        exact Renders.link hK c fun hm => by
          obtain ⟨v, h1, h2, _⟩ := (hcs _ _ e).read hm
          exact ⟨v, h1, h2⟩
    case image =>
      obtain ⟨c, hc, rfl⟩ := contentE_inv (pureText_inv h)
      rw [hc]
      exact Renders.image hK c _
    case brk => exact breakEmit_renders (pureText_inv h)
    case line => cases h; exact .const c!"\n" (fun _ => rfl) (by decide +kernel)
    case pre_block =>
      obtain ⟨c, hc, rfl⟩ := contentE_inv (pureText_inv h)
      rw [hc]
      exact (Renders.html c).wrap (.const [] (fun _ => rfl) rfl) (.const c!"\n" (fun _ => rfl) (by decide +kernel))
    case pre_inline =>
      obtain ⟨c, hc, rfl⟩ := contentE_inv (pureText_inv h)
      rw [hc]
      exact (Renders.html c).wrap (.const [] (fun _ => rfl) rfl) (.const [] (fun _ => rfl) rfl)
    all_goals
      rw [e0 (by rw [hk]; decide)]
      exact face _ (.const [] (fun _ => rfl) rfl) (.const [] (fun _ => rfl) rfl) h
theorem emitNodes_renders (hK : ∀ c, K c = true → keeps c = true) {env : Env} (hu : env.useToc = false) :
    ∀ (ns : List Node) (p : Info) (ms : Macros) (s : Str) (ms' : Macros), (∀ n ∈ ns, n.All (InfoOK False)) →
      emitNodes env p ns ms = .ok (s, ms') → Renders K env.strict (shownL ns) s
  | [], p, ms, s, ms', _, h => by
    unfold emitNodes at h
    cases h
    exact .nil
  | n :: ns, p, ms, s, ms', ha, h => by
    unfold emitNodes at h
    cases hr : emitNode env p n ms with
    | error e => rw [hr] at h; cases h
    | ok x =>
      obtain ⟨s1, ms1⟩ := x
      rw [hr] at h
      have h1 := emitNode_renders hK hu n p ms s1 ms1 (ha n (by simp)) hr
      simp only at h
      cases hr2 : emitNodes env p ns ms1 with
      | error e => rw [hr2] at h; cases h
      | ok y =>
        obtain ⟨s2, ms2⟩ := y
        rw [hr2] at h
        have h2 := emitNodes_renders hK hu ns p ms1 s2 ms2 (fun m hm => ha m (by simp [hm])) hr2
        cases h
        exact h1.append h2
end

end

end Verif.Creole
