import Verif.Creole.DocMain
import Verif.Spec.Plain

/-!
# Plain text is markup that stands for itself
-/

namespace Verif.Creole

open Verif Py Spec Spec.Cr

theorem prints_append (l m : List Inl) : prints (l ++ m) = prints l ++ prints m := by
  induction l with
  | nil => rfl
  | cons i l ih => simp only [List.cons_append, prints, ih, List.append_assoc]

theorem htmls_append (cx : Ctx) (br : Str) (l m : List Inl) : htmls cx br (l ++ m) = htmls cx br l ++ htmls cx br m := by
  induction l with
  | nil => rfl
  | cons i l ih => simp only [List.cons_append, htmls, ih, List.append_assoc]

theorem prints_chars (s : Str) : prints (s.map .chr) = s := by
  induction s with
  | nil => rfl
  | cons c s ih => simp only [List.map_cons, prints, Inl.print, ih]; rfl

theorem htmls_chars (cx : Ctx) (br : Str) (s : Str) : htmls cx br (s.map .chr) = textHtml s := by
  induction s with
  | nil => rfl
  | cons c s ih =>
    simp only [List.map_cons, htmls, Inl.html, ih]
    simp [textHtml]

theorem last_chars {s : Str} : ((s.map Inl.chr).getLast?).all Inl.notBr = true := by
  rw [List.getLast?_map]
  cases s.getLast? <;> rfl

structure PlainText (s : Str) : Prop where
  nonl : '\n' ∉ s
  notilde : '~' ∉ s
  nopair : ∀ c ∈ doubled, occurs [c, c] s = false

theorem plainText_iff {s : Str} : plainText s = true ↔ PlainText s := by
  simp only [plainText, Bool.and_eq_true, Bool.not_eq_true', List.contains_eq_mem, decide_eq_false_iff_not, List.all_eq_true]
  exact ⟨fun h => ⟨h.1.1, h.1.2, h.2⟩, fun h => ⟨⟨h.1, h.2⟩, h.3⟩⟩

/-- what may follow a plain text `a`: nothing, or a markup character that does not continue `a` -/
def Joins (a : Str) : Str → Prop
  | [] => True
  | c :: _ => c ∈ c!"[{*#_^,-/~\\" ∧ a.getLast? ≠ some c ∧ ¬ (c = '/' ∧ a.getLast? = some ':')

theorem protocol_letters {p : Str} (hp : p ∈ protocols) : ∀ c ∈ p, c ∉ c!"[{*#_^,-/~\\:" ∧ c ≠ '/' ∧ isSpace c = false := by
  revert p; decide

theorem protocol_ne {p : Str} (hp : p ∈ protocols) : p ≠ [] := by
  rintro rfl; revert hp; decide

/-- no protocol begins in a plain text -/
theorem no_url {a x u v : Str} (ha : PlainText a) (hx : Joins a x) (hav : a = u ++ v) (hv : v ≠ []) : startsUrl (v ++ x) = false := by
  cases hs : startsUrl (v ++ x) with
  | false => rfl
  | true =>
    exfalso
    simp only [startsUrl, List.any_eq_true, List.isPrefixOf_iff_prefix] at hs
    obtain ⟨p, hp, t, ht⟩ := hs
    have hlet := protocol_letters hp
    have hno := not_occurs (p := c!"//") (by simp) (ha.nopair '/' (by decide))
    rw [List.append_eq_append_iff] at ht
    rcases ht with ⟨y, hy, _⟩ | ⟨y, hy, hy'⟩
    · exact hno (u ++ p ++ c!":") (c!"//" ++ y) (by rw [hav, hy]; simp) y rfl
    · cases y with
      | nil =>
        refine hno (u ++ p ++ c!":") c!"//" (by
          rw [List.append_nil] at hy
          rw [hav, ← hy]; simp) [] rfl
      | cons c y =>
        subst hy'
        obtain ⟨h1, h2, h3⟩ := hx
        have hmem : c ∈ p ++ c!"://" := by rw [hy]; simp
        have hl : a.getLast? = v.getLast? := by
          rw [hav, List.getLast?_append, List.getLast?_eq_some_getLast hv]; rfl
        rw [hl] at h2 h3
        have hc : c = '/' := by
          simp only [List.mem_append] at hmem
          rcases hmem with hm | hm
          · exfalso
            have := (hlet c hm).1
            exact this (List.mem_append_left c!":" h1)
          · simp only [List.mem_cons, List.not_mem_nil, or_false] at hm
            rcases hm with rfl | rfl | rfl
            · exfalso; revert h1; decide
            · rfl
            · rfl
        subst hc
        -- `v` is the protocol and `:` or `:/`
        rw [List.append_eq_append_iff] at hy
        rcases hy with ⟨z, rfl, hz⟩ | ⟨z, hz, _⟩
        · cases z with
          | nil => simp at hz
          | cons d z =>
            simp only [List.cons_append, List.cons.injEq] at hz
            obtain ⟨rfl, hz⟩ := hz
            cases z with
            | nil => exact h3 ⟨rfl, by simp⟩
            | cons d z =>
              simp only [List.cons_append, List.cons.injEq] at hz
              obtain ⟨rfl, hz⟩ := hz
              cases z with
              | nil => exact h2 (by simp)
              | cons d z => simp at hz
        · cases z with
          | nil =>
            rename_i h4
            simp at h4
          | cons d z =>
            rename_i h4
            simp only [List.cons_append, List.cons.injEq] at h4
            obtain ⟨rfl, _⟩ := h4
            exact (hlet '/' (by rw [hz]; simp)).2.1 rfl

/-- plain text before something else -/
theorem wfs_text {l : List Inl} {a : Str} (ha : PlainText a) (hx : Joins a (prints l)) :
    ∀ {v u : Str} {prev : Option Char}, a = u ++ v → wfs cx ((v.getLast?).or prev) l = true → wfs cx prev (v.map .chr ++ l) = true := by
  intro v
  induction v with
  | nil => intro u prev _ h; simpa using h
  | cons c v ih =>
    intro u prev hav h
    simp only [List.map_cons, List.cons_append, wfs, Bool.and_eq_true]
    refine ⟨?_, ?_⟩
    · have hp : prints (v.map Inl.chr ++ l) = v ++ prints l := by rw [prints_append, prints_chars]
      rw [hp]
      simp only [Inl.wf, Bool.and_eq_true, bne_iff_ne, ne_eq, Bool.not_eq_true']
      refine ⟨⟨⟨?_, ?_⟩, ?_⟩, ?_⟩
      · rintro rfl; exact ha.nonl (by rw [hav]; simp)
      · rintro rfl; exact ha.notilde (by rw [hav]; simp)
      · cases hpr : pairHere prev c (v ++ prints l) with
        | false => rfl
        | true =>
          exfalso
          simp only [pairHere, Bool.and_eq_true, List.contains_eq_mem, decide_eq_true_eq, beq_iff_eq] at hpr
          obtain ⟨⟨hd, hh⟩, _⟩ := hpr
          cases v with
          | nil =>
            rw [List.nil_append] at hh
            cases hpl : prints l with
            | nil => rw [hpl] at hh; simp at hh
            | cons d t =>
              rw [hpl] at hh hx
              simp only [List.head?_cons, Option.some.injEq] at hh
              subst hh
              exact hx.2.1 (by rw [hav]; simp)
          | cons d v =>
            simp only [List.cons_append, List.head?_cons, Option.some.injEq] at hh
            subst hh
            exact not_occurs (by simp) (ha.nopair d hd) u (d :: d :: v) hav v rfl
      · have hne : c ≠ '~' := by rintro rfl; exact ha.notilde (by rw [hav]; simp)
        have := no_url (v := c :: v) ha hx hav (by simp)
        rw [List.cons_append] at this
        unfold urlHere
        simp only [this, Bool.false_or]
        split
        · rename_i h; simp only [List.cons.injEq] at h; exact absurd h.1 hne
        · simp
    · refine ih (u := u ++ [c]) (by rw [hav]; simp) ?_
      rw [show (Inl.chr c).print.getLast? = some c from rfl]
      rw [← lastOr v prev c] at h
      exact h

theorem wfs_chars {a : Str} (ha : PlainText a) (prev : Option Char) : wfs cx prev (a.map .chr) = true := by
  have := wfs_text (cx := cx) (l := []) (a := a) ha (by simp [prints, Joins]) (v := a) (u := []) (prev := prev) rfl rfl
  simpa using this

/-- plain text on both sides of a piece -/
theorem wfs_between {a b : Str} {i : Inl} {prev : Option Char} (ha : PlainText a) (hb : PlainText b)
    (hj : Joins a (i.print ++ b)) (hi : i.wf cx ((a.getLast?).or prev) b = true) :
    wfs cx prev (a.map .chr ++ (i :: b.map .chr)) = true := by
  refine wfs_text (a := a) ha (by rw [prints, prints_chars]; exact hj) (v := a) (u := []) rfl ?_
  simp only [wfs, prints_chars, hi, Bool.true_and]
  exact wfs_chars hb _

/-- pairs at the beginning of a text that goes on with `x` -/
theorem no_pair_start {a x : Str} {c : Char} (ha : PlainText a) (hc : c ∈ doubled)
    (hx : x.head? ≠ some c) {u v : Str} (hav : a = u ++ v) : ∀ t, v ++ x ≠ c :: c :: t := by
  intro t ht
  cases v with
  | nil => simp at ht; rw [ht] at hx; simp at hx
  | cons d v =>
    simp only [List.cons_append, List.cons.injEq] at ht
    obtain ⟨rfl, ht⟩ := ht
    cases v with
    | nil => simp at ht; rw [ht] at hx; simp at hx
    | cons e v =>
      simp only [List.cons_append, List.cons.injEq] at ht
      obtain ⟨rfl, ht⟩ := ht
      exact not_occurs (by simp) (ha.nopair e hc) u (e :: e :: v) hav v rfl

theorem dropWhile_text (a x : Str) (hx : ∀ c t, x = c :: t → isSpace c = false) :
    ∃ u v, a = u ++ v ∧ (a ++ x).dropWhile isSpace = v ++ x ∧ v = a.dropWhile isSpace ∧ (∀ c t, v ++ x = c :: t → isSpace c = false) := by
  refine ⟨a.takeWhile isSpace, a.dropWhile isSpace, by rw [List.takeWhile_append_dropWhile], ?_, rfl, ?_⟩
  · cases hd : a.dropWhile isSpace with
    | nil =>
      have : ∀ c ∈ a, isSpace c = true := dropWhile_nil_iff.1 hd
      rw [List.dropWhile_append_of_pos this]
      cases x with
      | nil => rfl
      | cons c t => rw [List.dropWhile_cons_of_neg (by simp [hx c t rfl])]; rfl
    | cons c v =>
      have hc := dropWhile_head_false a c (by rw [hd]; rfl)
      have e : a = a.takeWhile isSpace ++ c :: v := by rw [← hd, List.takeWhile_append_dropWhile]
      have h2 : ∀ c ∈ a.takeWhile isSpace, isSpace c = true := List.all_eq_true.1 (List.all_takeWhile (p := isSpace) (l := a))
      conv => lhs; rw [e]
      rw [List.append_assoc, List.dropWhile_append_of_pos h2, List.cons_append, List.dropWhile_cons_of_neg (by simp [hc])]
  · intro c t h
    cases hd : a.dropWhile isSpace with
    | nil => rw [hd] at h; exact hx c t h
    | cons d v =>
      rw [hd] at h
      simp only [List.cons_append, List.cons.injEq] at h
      rw [← h.1]
      exact dropWhile_head_false a d (by rw [hd]; rfl)

/-- a line that begins with plain text and goes on with a link, an image or the like begins no block -/
theorem plainStart_text {a x : Str} (ha : PlainText a) (hh : plainHead a = true) (hx : x = [] ∨ x.head? = some '[' ∨ x.head? = some '{')
    (hpre : ∀ t, a ++ x = c!"{{{" ++ t → t.all isSpace = false) : plainStart .all (a ++ x) = true := by
  have hxs : ∀ c t, x = c :: t → c = '[' ∨ c = '{' := by
    rintro c t rfl
    simpa using hx
  have hxn : ∀ c, c ≠ '[' → c ≠ '{' → x.head? ≠ some c := by
    intro c h1 h2
    cases x with
    | nil => simp
    | cons d t =>
      simp only [List.head?_cons, ne_eq, Option.some.injEq]
      rcases hxs d t rfl with rfl | rfl
      · exact fun h => h1 h.symm
      · exact fun h => h2 h.symm
  obtain ⟨u, v, hav, hd, hv, hns⟩ := dropWhile_text a x (by
    intro c t h
    rcases hxs c t h with rfl | rfl <;> decide)
  have hvh : ∀ c t, v = c :: t → c ∉ c!"=*#|" := by
    intro c t h
    unfold plainHead at hh
    rw [← hv, h] at hh
    simpa using hh
  have hvx : ∀ c t, v ++ x = c :: t → c ∉ c!"=*#|" := by
    intro c t h
    cases hvv : v with
    | nil =>
      rw [hvv, List.nil_append] at h
      rcases hxs c t h with rfl | rfl <;> decide
    | cons d w =>
      rw [hvv] at h
      simp only [List.cons_append, List.cons.injEq] at h
      rw [← h.1]
      exact hvh d w hvv
  unfold plainStart
  simp only [show (Start.all != Start.all) = false from rfl, show (Start.all == Start.none) = false from rfl, Bool.false_or, Bool.and_eq_true,
    Bool.not_eq_true', bne_iff_ne, ne_eq]
  refine ⟨⟨⟨?_, ?_⟩, ?_⟩, ?_⟩
  · cases hp : (c!"<<").isPrefixOf (a ++ x) with
    | false => rfl
    | true =>
      exfalso
      rw [List.isPrefixOf_iff_prefix] at hp
      obtain ⟨t, ht⟩ := hp
      exact no_pair_start ha (c := '<') (by decide) (hxn _ (by decide) (by decide))
        (u := []) (v := a) rfl t ht.symm
  · intro h
    cases hs : a ++ x with
    | nil => rw [hs] at h; simp at h
    | cons c t =>
      rw [hs] at h
      simp only [List.head?_cons, Option.some.injEq] at h
      subst h
      have : (a ++ x).dropWhile isSpace = '=' :: t := by
        rw [hs, List.dropWhile_cons_of_neg (by decide)]
      rw [hd] at this
      exact hvx _ _ this (by decide)
  · cases hp : (c!"{{{").isPrefixOf (a ++ x) with
    | false => rfl
    | true =>
      rw [List.isPrefixOf_iff_prefix] at hp
      obtain ⟨t, ht⟩ := hp
      have := hpre t ht.symm
      rw [← ht, show (c!"{{{" ++ t).drop 3 = t from rfl, this]
      rfl
  · rw [hd]
    refine ⟨⟨?_, ?_⟩, ?_⟩
    · cases hp : (c!"----").isPrefixOf (v ++ x) with
      | false => rfl
      | true =>
        exfalso
        rw [List.isPrefixOf_iff_prefix] at hp
        obtain ⟨t, ht⟩ := hp
        exact no_pair_start ha (c := '-') (by decide) (hxn _ (by decide) (by decide))
          hav _ ht.symm
    · intro h
      cases hs : v ++ x with
      | nil => rw [hs] at h; simp at h
      | cons c t =>
        rw [hs] at h
        simp only [List.head?_cons, Option.some.injEq] at h
        subst h
        exact hvx _ _ hs (by decide)
    · have hcc : ∀ c t, v ++ x = c :: t → (c == '*' || c == '#') = false := by
        intro c t h
        have := hvx c t h
        cases hb : (c == '*' || c == '#') with
        | false => rfl
        | true =>
          exfalso
          simp only [Bool.or_eq_true, beq_iff_eq] at hb
          rcases hb with rfl | rfl <;> exact this (by decide)
      cases hs : v ++ x with
      | nil => rfl
      | cons c t =>
        have := hcc c t hs
        cases t <;> simp [this]

/-- a plain line as the only line of a paragraph or as one of several -/
theorem plainLine_parts {s : Str} (h : plainLine s = true) : wfs cx none (s.map .chr) = true ∧ lineText s = true ∧ plainStart .all s = true ∧
    s.getLast? ≠ some '\\' := by
  simp only [plainLine, Bool.and_eq_true, Bool.not_eq_true', bne_iff_ne, ne_eq] at h
  obtain ⟨⟨⟨h1, h2⟩, h3⟩, h4⟩ := h
  have hp := plainText_iff.1 h2
  refine ⟨wfs_chars hp none, ?_, ?_, h4⟩
  · unfold lineText
    simp only [h1, Bool.not_false, Bool.true_and, Bool.not_eq_true', List.contains_eq_mem, decide_eq_false_iff_not]
    exact hp.nonl
  · have := plainStart_text (x := []) hp h3 (.inl rfl) (by
      intro t ht
      exfalso
      rw [List.append_nil] at ht
      exact not_occurs (by simp) (hp.nopair '{' (by decide)) [] s rfl ('{' :: t) ht)
    rwa [List.append_nil] at this

end Verif.Creole
