import Verif.Html.TokenLemmas
import Verif.Py.StripLemmas

/-!
# Reading written start tags
-/

namespace Verif.Html

open Verif Py Spec.Cr Spec.Hd

/-- an expression that cannot be empty consumes something -/
theorem res_lt {γ : Type} [DecidableEq γ] {r : Re γ} : r.nullable = false → ∀ {s s' : St γ}, s' ∈ r.res s →
    s'.rest.length < s.rest.length := by
  have mono : ∀ {r : Re γ} {s s' : St γ}, s' ∈ r.res s → s'.rest.length ≤ s.rest.length := by
    intro r s s' h
    obtain ⟨w, hw⟩ := Re.res_reach h
    rw [hw.rest]; simp
  induction r with
  | cls cs =>
    intro _ s s' h
    rw [mem_res_cls] at h
    obtain ⟨c, t, h1, h2, h3⟩ := h
    simp_all
  | seq a b iha ihb =>
    intro hn s s' h
    rw [mem_res_seq] at h
    obtain ⟨t, h1, h2⟩ := h
    simp only [Re.nullable, Bool.and_eq_false_iff] at hn
    rcases hn with hn | hn
    · have := iha hn h1; have := mono h2; omega
    · have := ihb hn h2; have := mono h1; omega
  | alt a b iha ihb =>
    intro hn s s' h
    rw [mem_res_alt] at h
    simp only [Re.nullable, Bool.or_eq_false_iff] at hn
    rcases h with h | h
    · exact iha hn.1 h
    · exact ihb hn.2 h
  | grp g a iha =>
    intro hn s s' h
    rw [mem_res_grp] at h
    obtain ⟨t, h1, h2⟩ := h
    have := iha (by simpa [Re.nullable] using hn) h1
    subst h2
    exact this
  | _ => intro hn; simp [Re.nullable] at hn

/-! ## Pieces of the expressions -/

/-- the next character is not white space -/
def noSp (s : Str) : Bool := (s.head?).all fun c => !isSpace c

theorem noSp_cls {s : Str} (h : noSp s = true) : ∀ c t, s = c :: t → (CSet.space).mem c = false := by
  intro c t e
  subst e
  simpa [noSp, CSet.mem] using h

theorem head_ws0 {p : Option Char} {s : Str} {caps : List (TG × Str)} (h : noSp s = true) :
    ((wsp : TR).res ⟨p, s, caps⟩).head? = some ⟨p, s, caps⟩ :=
  head_star_stop (Re.res_cls_nil (noSp_cls h))

theorem head_ws1 {p : Option Char} {s : Str} {caps : List (TG × Str)} (h : noSp s = true) :
    ((wsp : TR).res ⟨p, ' ' :: s, caps⟩).head? = some ⟨some ' ', s, caps⟩ := by
  have := Re.head_star_cls (γ := TG) (caps := caps) (noSp_cls h) [' '] p (by intro c hc; simp at hc; subst hc; decide)
  simpa [wsp] using this

/-- where `(?:\s|/(?!>))*` stops: before the end of a tag or before a name -/
def tagEnd (s : Str) : Bool :=
  match s with
  | '/' :: '>' :: _ => true
  | c :: _ => c != '/' && !isSpace c
  | [] => true

theorem slash_nil {p : Option Char} {s : Str} {caps : List (TG × Str)} (h : tagEnd s = true) :
    ((.alt (.cls .space) (.seq (tch '/') (.notAhead (tch '>'))) : TR)).res ⟨p, s, caps⟩ = [] := by
  cases s with
  | nil => rfl
  | cons c t =>
    by_cases hc : c = '/'
    · subst hc
      unfold tagEnd at h
      split at h
      · rename_i t' e
        simp only [List.cons.injEq, true_and] at e
        subst e
        simp [Re.res, tch, CSet.mem, show isSpace '/' = false from by decide]
      · rename_i d t' h1 e; simp only [List.cons.injEq] at e; rw [← e.1] at h; simp at h
      · rename_i e; simp at e
    · unfold tagEnd at h
      split at h
      · rename_i e; simp only [List.cons.injEq] at e; exact absurd e.1 hc
      · rename_i d t' _ e
        simp only [List.cons.injEq] at e
        obtain ⟨e1, e2⟩ := e
        subst e1 e2
        simp only [Bool.and_eq_true, bne_iff_ne, ne_eq, Bool.not_eq_true'] at h
        simp [Re.res, tch, CSet.mem, h.1, h.2]
      · rename_i e; simp at e

theorem head_slash0 {p : Option Char} {s : Str} {caps : List (TG × Str)} (h : tagEnd s = true) :
    ((wsSlash : TR).res ⟨p, s, caps⟩).head? = some ⟨p, s, caps⟩ := head_star_stop (slash_nil h)

theorem head_slash1 {p : Option Char} {s : Str} {caps : List (TG × Str)} (h : tagEnd s = true) :
    ((wsSlash : TR).res ⟨p, ' ' :: s, caps⟩).head? = some ⟨some ' ', s, caps⟩ := by
  unfold wsSlash
  rw [head_star_step (x := ⟨some ' ', s, caps⟩) (Re.head_alt_left (Re.head_cls (by decide)))
    (fun s s' hs => res_lt (by decide) hs)]
  exact head_star_stop (slash_nil h)

/-- what follows the name of an attribute or the name of a tag -/
theorem head_attrName {c : Char} {w r : Str} {caps : List (TG × Str)} (hw : ∀ d ∈ c :: w, letter d = true) :
    ((attrName : TR).res ⟨some ' ', c :: (w ++ '=' :: r), caps⟩).head? = some ⟨(c :: w).getLast?, '=' :: r, caps⟩ := by
  unfold attrName
  simp only [Re.cat]
  refine Re.head_seq (x := ⟨some ' ', c :: (w ++ '=' :: r), caps⟩) (by
    have : CSet.mem ((((CSet.chr '\'').union (CSet.chr '"')).union CSet.space).union (CSet.chr '/')) ' ' = true := by decide
    simp [Re.res, this]) ?_
  refine Re.head_seq (x := ⟨some c, w ++ '=' :: r, caps⟩) (Re.head_cls (letter_all (P := CSet.mem _) (by decide) (hw c (by simp)))) ?_
  have := Re.head_star_cls (γ := TG) (cs := .compl (.union (.union (.union .space (.chr '/')) (.chr '=')) (.chr '>'))) (caps := caps)
    (rest := '=' :: r) (by intro d t e; simp only [List.cons.injEq] at e; rw [← e.1]; decide) w (some c)
    (fun d hd => letter_all (P := CSet.mem _) (by decide) (hw d (by simp [hd])))
  rw [this, lastOr w none c]
  simp

theorem head_attrValue {p : Option Char} {v r : Str} {caps : List (TG × Str)} (hv : ∀ c ∈ v, c ≠ '"') :
    ((attrValue : TR).res ⟨p, '"' :: (v ++ '"' :: r), caps⟩).head? = some ⟨some '"', r, caps⟩ := by
  unfold attrValue
  simp only [Re.alts, Re.cat]
  rw [Re.res_alt_right (by
    apply Re.res_nil_of_noStart (by decide)
    intro c t e
    simp only [List.cons.injEq] at e
    rw [← e.1]; decide)]
  refine Re.head_alt_left (Re.head_seq (Re.head_cls rfl) (Re.head_seq (x := ⟨(v.getLast?).or (some '"'), '"' :: r, caps⟩) ?_
    (Re.head_cls rfl)))
  exact Re.head_star_cls (by intro c t e; simp only [List.cons.injEq] at e; rw [← e.1]; decide) v _
    (fun c hc => by simp [CSet.mem, hv c hc])

/-! ## The parts of a tag -/

/-- an attribute without the blank before it, with the text of its value -/
def rawAttr (a : Str × Str) : Str := a.1 ++ c!"=\"" ++ a.2 ++ c!"\""

/-- the end of a tag: `>` or ` />` -/
def closer (void : Bool) : Str := if void then c!" />" else c!">"

/-- attributes and the end of the tag, without the blank at the beginning -/
def attrsTail (void : Bool) : List (Str × Str) → Str
  | [] => if void then c!"/>" else c!">"
  | a :: as => rawAttr a ++ (as.flatMap fun a => ' ' :: rawAttr a) ++ closer void

def rawOk (a : Str × Str) : Bool := !a.1.isEmpty && a.1.all letter && !a.2.contains '"'

theorem rawOk_parts {a : Str × Str} (h : rawOk a = true) : ∃ c w, a.1 = c :: w ∧ (∀ d ∈ c :: w, letter d = true) ∧
    ∀ d ∈ a.2, d ≠ '"' := by
  simp only [rawOk, Bool.and_eq_true, Bool.not_eq_true', List.isEmpty_eq_false_iff] at h
  obtain ⟨c, w, e⟩ : ∃ c w, a.1 = c :: w := by
    cases h1 : a.1 with
    | nil => exact absurd h1 h.1.1
    | cons c w => exact ⟨c, w, rfl⟩
  refine ⟨c, w, e, ?_, ?_⟩
  · rw [← e]; exact List.all_eq_true.1 h.1.2
  · rintro d hd rfl
    have : a.2.contains '"' = true := by simpa using hd
    rw [h.2] at this; simp at this

/-- what follows an attribute is a blank and the tail of the other ones, or the end of the tag -/
theorem tail_cases (void : Bool) (as : List (Str × Str)) (rest : Str) :
    (as = [] ∧ void = false ∧ (as.flatMap fun a => ' ' :: rawAttr a) ++ closer void ++ rest = attrsTail void as ++ rest) ∨
    ((as.flatMap fun a => ' ' :: rawAttr a) ++ closer void ++ rest = ' ' :: (attrsTail void as ++ rest)) := by
  cases as with
  | nil => cases void <;> simp [closer, attrsTail]
  | cons a as => right; simp [attrsTail]

theorem tagEnd_tail (void : Bool) (as : List (Str × Str)) (rest : Str) (h : ∀ a ∈ as, rawOk a = true) :
    tagEnd (attrsTail void as ++ rest) = true ∧ noSp (attrsTail void as ++ rest) = true := by
  cases as with
  | nil => cases void <;> simp [attrsTail, tagEnd, noSp] <;> decide
  | cons a as =>
    obtain ⟨c, w, e, hw, _⟩ := rawOk_parts (h a (by simp))
    simp only [attrsTail, rawAttr, e]
    have h1 := letter_all (P := fun c => c != '/' && !isSpace c) (by decide) (hw c (by simp))
    constructor
    · simp only [List.cons_append]
      unfold tagEnd
      split
      · rfl
      · rename_i e; simp only [List.cons.injEq] at e; rw [← e.1]; exact h1
      · rfl
    · simp only [Bool.and_eq_true] at h1
      simp [noSp, h1.2]

/-- the body of the loop of `locatestarttagend_tolerant` -/
def attrBody : TR := Re.cat [attrName, Re.opt (Re.cat [wsp, Re.plus true (tch '='), wsp, attrValue, wsp]), wsSlash]

theorem head_attrBody {void : Bool} {a : Str × Str} {as : List (Str × Str)} {rest : Str} {caps : List (TG × Str)}
    (ha : rawOk a = true) (has : ∀ a ∈ as, rawOk a = true) :
    (attrBody.res ⟨some ' ', attrsTail void (a :: as) ++ rest, caps⟩).head? =
      some ⟨some (if as = [] ∧ void = false then '"' else ' '), attrsTail void as ++ rest, caps⟩ := by
  obtain ⟨c, w, e, hw, hv⟩ := rawOk_parts ha
  have hs : attrsTail void (a :: as) ++ rest =
      c :: (w ++ '=' :: ('"' :: (a.2 ++ '"' :: ((as.flatMap fun a => ' ' :: rawAttr a) ++ closer void ++ rest)))) := by
    simp [attrsTail, rawAttr, e]
  rw [hs]
  obtain ⟨t1, t2⟩ := tagEnd_tail void as rest has
  unfold attrBody
  simp only [Re.cat]
  refine Re.head_seq (head_attrName hw) ?_
  have heq : ∀ r caps, ((Re.plus true (tch '=') : TR).res ⟨(c :: w).getLast?, '=' :: '"' :: r, caps⟩).head? = some ⟨some '=', '"' :: r, caps⟩ := by
    intro r caps
    have := Re.head_plus_cls (γ := TG) (cs := .chr '=') (caps := caps) (rest := '"' :: r)
      (by intro d t e; simp only [List.cons.injEq] at e; rw [← e.1]; decide) (c := '=') (w := []) (p := (c :: w).getLast?)
      (by intro d hd; simp at hd; subst hd; rfl)
    simpa [tch] using this
  rcases tail_cases void as rest with ⟨h1, h2, h3⟩ | h3
  · rw [h3]
    rw [if_pos ⟨h1, h2⟩]
    refine Re.head_seq (head_opt (Re.head_seq (head_ws0 (by simp [noSp]; decide)) (Re.head_seq (heq _ _) (Re.head_seq
      (head_ws0 (by simp [noSp]; decide)) (Re.head_seq (head_attrValue hv) (head_ws0 t2)))))) (head_slash0 t1)
  · rw [h3]
    refine Re.head_seq (head_opt (Re.head_seq (head_ws0 (by simp [noSp]; decide)) (Re.head_seq (heq _ _) (Re.head_seq
      (head_ws0 (by simp [noSp]; decide)) (Re.head_seq (head_attrValue hv) (head_ws1 t2)))))) ?_
    rw [head_slash0 t1]
    congr 2
    rw [if_neg]
    rintro ⟨rfl, rfl⟩
    simp [closer, attrsTail] at h3

theorem attrBody_nil {p : Option Char} {void : Bool} {rest : Str} {caps : List (TG × Str)} :
    attrBody.res ⟨p, attrsTail void [] ++ rest, caps⟩ = [] := by
  apply Re.res_nil_of_noStart (by decide)
  intro c t e
  cases void <;> simp [attrsTail] at e <;> rw [← e.1] <;> decide

theorem head_attrs {void : Bool} {rest : Str} {caps : List (TG × Str)} : ∀ (as : List (Str × Str)),
    (∀ a ∈ as, rawOk a = true) → as ≠ [] →
    ∃ p, ((Re.star true attrBody).res ⟨some ' ', attrsTail void as ++ rest, caps⟩).head? = some ⟨p, attrsTail void [] ++ rest, caps⟩
  | [], _, h => absurd rfl h
  | a :: as, h, _ => by
    have h1 := head_attrBody (void := void) (as := as) (rest := rest) (caps := caps) (h a (by simp)) (fun b hb => h b (by simp [hb]))
    rw [head_star_step h1 (fun s s' hs => res_lt (by decide) hs)]
    cases as with
    | nil => exact ⟨_, head_star_stop attrBody_nil⟩
    | cons b as =>
      rw [if_neg (by simp)]
      exact head_attrs (b :: as) (fun x hx => h x (by simp [hx])) (by simp)

/-- a written tag, with the texts of the values -/
def rawTag (void : Bool) (tag : Str) (as : List (Str × Str)) : Str :=
  '<' :: tag ++ (as.flatMap fun a => ' ' :: rawAttr a) ++ closer void

/-- a regular expression that finds the whole tag -/
theorem wholeStartTag_raw {void : Bool} {tag rest : Str} {as : List (Str × Str)} (ht : tagOk tag = true)
    (has : ∀ a ∈ as, rawOk a = true) : wholeStartTag (rawTag void tag as ++ rest) = some (rawTag void tag as).length := by
  obtain ⟨c, w, rfl, hc, hw⟩ := tagOk_cons ht
  have hs : rawTag void (c :: w) as ++ rest = '<' :: c :: (w ++ ((as.flatMap fun a => ' ' :: rawAttr a) ++ closer void ++ rest)) := by
    simp [rawTag]
  obtain ⟨t1, t2⟩ := tagEnd_tail void as rest has
  have htail : noSp ('>' :: rest) = true := by simp [noSp]; decide
  -- the result of the search
  have key : ∃ p u, locateRe.matchAt false none (rawTag void (c :: w) as ++ rest) = some ⟨p, u ++ rest, []⟩ ∧
      (u = c!">" ∨ u = c!"/>") := by
    rw [Re.matchAt_false, hs]
    unfold locateRe
    simp only [Re.cat]
    -- the name of the tag
    have hname : ∀ r, (∀ d t, r = d :: t → tagChar.mem d = false) →
        ((Re.star true (.cls tagChar) : TR).res ⟨some c, w ++ r, []⟩).head? = some ⟨(w.getLast?).or (some c), r, []⟩ := by
      intro r hr
      exact Re.head_star_cls hr w _ (fun d hd => nameChar_all (P := tagChar.mem) (by decide) (hw d (by simp [hd])))
    have hhead : ∀ {r : Str} {y : St TG} {b : TR}, (∀ d t, r = d :: t → tagChar.mem d = false) →
        (b.res ⟨(w.getLast?).or (some c), r, []⟩).head? = some y →
        ((Re.seq (tch '<') (.seq (.cls alpha) (.seq (.star true (.cls tagChar)) b)) : TR).res ⟨none, '<' :: c :: (w ++ r), []⟩).head? = some y := by
      intro r y b hr hb
      exact Re.head_seq (Re.head_cls rfl) (Re.head_seq (Re.head_cls (letter_all (P := alpha.mem) (by decide) hc))
        (Re.head_seq (hname r hr) hb))
    -- the blanks before the attributes
    have hsp : ∀ (r v : Str) (p : Option Char), (∀ d t, r = d :: t → (CSet.union .space (.chr '/')).mem d = false) →
        (∀ d ∈ v, (CSet.union .space (.chr '/')).mem d = true) →
        ((Re.star true (.cls (.union .space (.chr '/'))) : TR).res ⟨p, v ++ r, []⟩).head? = some ⟨(v.getLast?).or p, r, []⟩ := by
      intro r v p hr hv
      exact Re.head_star_cls hr v p hv
    cases as with
    | nil =>
      cases void with
      | false =>
        refine ⟨(w.getLast?).or (some c), c!">", hhead ?_ (Re.head_seq (x := ⟨(w.getLast?).or (some c), '>' :: rest, []⟩) (head_opt (Re.head_seq
          (x := ⟨(w.getLast?).or (some c), '>' :: rest, []⟩) ?_ ?_)) (head_ws0 htail)), Or.inl rfl⟩
        · intro d t e; simp [closer] at e; rw [← e.1]; decide
        · have := hsp ('>' :: rest) [] ((w.getLast?).or (some c)) (by intro d t e; simp only [List.cons.injEq] at e; rw [← e.1]; decide) (by simp)
          simpa [closer] using this
        · exact head_star_stop (attrBody_nil (void := false) (rest := rest))
      | true =>
        refine ⟨some '/', c!">", hhead ?_ (Re.head_seq (x := ⟨some '/', '>' :: rest, []⟩) (head_opt (Re.head_seq
          (x := ⟨some '/', '>' :: rest, []⟩) ?_ ?_)) (head_ws0 htail)), Or.inl rfl⟩
        · intro d t e; simp [closer] at e; rw [← e.1]; decide
        · have := hsp ('>' :: rest) [' ', '/'] ((w.getLast?).or (some c)) (by intro d t e; simp only [List.cons.injEq] at e; rw [← e.1]; decide)
            (by decide)
          simpa [closer] using this
        · exact head_star_stop (attrBody_nil (void := false) (rest := rest))
    | cons a as =>
      obtain ⟨p, hp⟩ := head_attrs (void := void) (rest := rest) (caps := []) (a :: as) has (by simp)
      rcases tail_cases void (a :: as) rest with ⟨h1, _⟩ | h3
      · simp at h1
      · rw [h3]
        refine ⟨p, attrsTail void [], hhead ?_ (Re.head_seq (head_opt (Re.head_seq
          (x := ⟨some ' ', attrsTail void (a :: as) ++ rest, []⟩) ?_ hp)) (head_ws0 ?_)), ?_⟩
        · intro d t e; simp only [List.cons.injEq] at e; rw [← e.1]; decide
        · obtain ⟨x, y, e, hx, _⟩ := rawOk_parts (has a (by simp))
          have := hsp (attrsTail void (a :: as) ++ rest) [' '] ((w.getLast?).or (some c)) (by
            intro d t e2
            simp only [attrsTail, rawAttr, e, List.cons_append, List.cons.injEq] at e2
            rw [← e2.1]
            have := letter_all (P := fun c => !(CSet.union .space (.chr '/')).mem c) (by decide) (hx x (by simp))
            simpa using this) (by decide)
          simpa using this
        · exact (tagEnd_tail void [] rest (by simp)).2
        · cases void <;> simp [attrsTail]
  obtain ⟨p, u, hm, hu⟩ := key
  unfold wholeStartTag
  rw [hm]
  have hl : 2 ≤ (rawTag void (c :: w) as).length := by simp [rawTag]
  rcases hu with rfl | rfl
  · simp only [List.cons_append, List.nil_append, List.length_append, List.length_cons, Option.some.injEq]
    omega
  · simp only [List.cons_append, List.nil_append, List.length_append, List.length_cons, Option.some.injEq]
    omega

/-! ## The attributes -/

theorem attrfind_raw {void : Bool} {a : Str × Str} {as : List (Str × Str)} {rest : Str}
    (ha : rawOk a = true) (has : ∀ a ∈ as, rawOk a = true) :
    attrfindRe.matchAt false (some ' ') (attrsTail void (a :: as) ++ rest) =
      some ⟨some (if as = [] ∧ void = false then '"' else ' '), attrsTail void as ++ rest,
        [(.rest, c!"=\"" ++ a.2 ++ c!"\""), (.value, c!"\"" ++ a.2 ++ c!"\""), (.name, a.1)]⟩ := by
  obtain ⟨c, w, e, hw, hv⟩ := rawOk_parts ha
  obtain ⟨t1, t2⟩ := tagEnd_tail void as rest has
  generalize hR : (as.flatMap fun a => ' ' :: rawAttr a) ++ closer void ++ rest = R
  have hs : attrsTail void (a :: as) ++ rest = c :: (w ++ '=' :: ('"' :: (a.2 ++ '"' :: R))) := by
    simp [attrsTail, rawAttr, e, ← hR]
  rw [hs, Re.matchAt_false]
  unfold attrfindRe
  simp only [Re.cat]
  have h1 := Re.head_grp (g := TG.name) (head_attrName (c := c) (w := w) (r := '"' :: (a.2 ++ '"' :: R)) (caps := []) hw)
  dsimp only at h1
  rw [show consumed (c :: (w ++ '=' :: '"' :: (a.2 ++ '"' :: R))) ('=' :: '"' :: (a.2 ++ '"' :: R)) = a.1 from by
    rw [e]; exact consumed_eq (c :: w) _] at h1
  refine Re.head_seq h1 ?_
  have heq : ((Re.plus true (tch '=') : TR).res ⟨(c :: w).getLast?, '=' :: '"' :: (a.2 ++ '"' :: R), [(.name, a.1)]⟩).head? =
      some ⟨some '=', '"' :: (a.2 ++ '"' :: R), [(.name, a.1)]⟩ := by
    have := Re.head_plus_cls (γ := TG) (cs := .chr '=') (caps := [(.name, a.1)]) (rest := '"' :: (a.2 ++ '"' :: R))
      (by intro d t e; simp only [List.cons.injEq] at e; rw [← e.1]; decide) (c := '=') (w := []) (p := (c :: w).getLast?)
      (by intro d hd; simp at hd; subst hd; rfl)
    simpa [tch] using this
  have h2 := Re.head_grp (g := TG.value) (head_attrValue (p := some '=') (v := a.2) (r := R) (caps := [(.name, a.1)]) hv)
  dsimp only at h2
  rw [show consumed ('"' :: (a.2 ++ '"' :: R)) R = c!"\"" ++ a.2 ++ c!"\"" from by
    have := consumed_eq (c!"\"" ++ a.2 ++ c!"\"") R
    simpa using this] at h2
  have h3 := Re.head_grp (g := TG.rest) (Re.head_seq (head_ws0 (s := '=' :: '"' :: (a.2 ++ '"' :: R)) (by simp [noSp]; decide))
    (Re.head_seq heq (Re.head_seq (head_ws0 (by simp [noSp]; decide)) h2)))
  dsimp only at h3
  rw [show consumed ('=' :: '"' :: (a.2 ++ '"' :: R)) R = c!"=\"" ++ a.2 ++ c!"\"" from by
    have := consumed_eq (c!"=\"" ++ a.2 ++ c!"\"") R
    simpa using this] at h3
  refine Re.head_seq (head_opt h3) ?_
  rcases tail_cases void as rest with ⟨e1, e2, e3⟩ | e3
  · rw [if_pos ⟨e1, e2⟩, ← hR, e3]
    exact head_slash0 t1
  · rw [← hR, e3, head_slash1 t1]
    congr 2
    rw [if_neg]
    rintro ⟨rfl, rfl⟩
    simp [closer, attrsTail] at e3

theorem attrVal_raw {v : Str} {x : Str} (h : unescape v = .ok x) :
    attrVal (some (c!"=\"" ++ v ++ c!"\"")) (some (c!"\"" ++ v ++ c!"\"")) = .ok (some x) := by
  unfold attrVal
  have h1 : (c!"\"" ++ v ++ c!"\"").tail.dropLast = v := by simp
  have h2 : (c!"\"" ++ v ++ c!"\"").getLast? = some '"' := by rw [List.getLast?_append]; rfl
  simp only [h1, h2]
  simp
  by_cases hv : v = []
  · subst hv
    have : x = [] := by simpa [unescape, unescapeAux] using h.symm
    simp [this]
  · simp [hv, h]; rfl

theorem attrfind_nil {p : Option Char} {void : Bool} {rest : Str} :
    attrfindRe.matchAt false p (attrsTail void [] ++ rest) = none := by
  rw [Re.matchAt_false, Re.res_nil_of_noStart (by decide)]
  · rfl
  intro c t e
  cases void <;> simp [attrsTail] at e <;> rw [← e.1] <;> decide

theorem attrLoop_end {n : Nat} {p : Option Char} {void : Bool} {rest : Str} :
    attrLoop n p (attrsTail void [] ++ rest) rest.length = .ok ([], attrsTail void [] ++ rest) := by
  cases n with
  | zero => rfl
  | succ n =>
    unfold attrLoop
    rw [attrfind_nil]
    split <;> rfl

/-- the values of attributes are unescaped -/
inductive Values : List (Str × Str) → List (Str × Str) → Prop where
  | nil : Values [] []
  | cons {a v : Str × Str} {as vs : List (Str × Str)} (h : a.1 = v.1 ∧ unescape a.2 = .ok v.2) (t : Values as vs) : Values (a :: as) (v :: vs)

theorem attrLoop_raw {void : Bool} {rest : Str} : ∀ (as : List (Str × Str)) (vs : List (Str × Str)) (n : Nat),
    (∀ a ∈ as, rawOk a = true) → Values as vs → as.length < n → as ≠ [] →
    attrLoop n (some ' ') (attrsTail void as ++ rest) rest.length =
      .ok (vs.map fun v => (v.1, some v.2), attrsTail void [] ++ rest)
  | [], _, _, _, _, _, h => absurd rfl h
  | a :: as, vs, n, h, hv, hn, _ => by
    cases hv with
    | cons h1 h2 =>
      rename_i v vs
      cases n with
      | zero => simp at hn
      | succ n =>
        unfold attrLoop
        rw [attrfind_raw (h a (by simp)) (fun b hb => h b (by simp [hb]))]
        rw [if_neg (by simp [attrsTail, rawAttr]; omega)]
        simp only [capGet, List.lookup, show (TG.rest == TG.rest) = true from rfl, show (TG.value == TG.rest) = false from rfl,
          show (TG.value == TG.value) = true from rfl, show (TG.name == TG.rest) = false from rfl, 
          show (TG.name == TG.value) = false from rfl, show (TG.name == TG.name) = true from rfl]
        rw [attrVal_raw h1.2]
        have hl : lower a.1 = v.1 := by
          rw [← h1.1]
          obtain ⟨c, w, e, hw, _⟩ := rawOk_parts (h a (by simp))
          rw [e]
          exact lower_name (fun d hd => by simp [hw d hd])
        cases as with
        | nil =>
          cases h2
          rw [attrLoop_end]
          simp [hl, bind, Except.bind, pure, Except.pure]
        | cons b as =>
          rw [if_neg (by simp)]
          rw [attrLoop_raw (b :: as) vs n (fun x hx => h x (by simp [hx])) h2 (by simp at hn ⊢; omega) (by simp)]
          simp [hl, bind, Except.bind, pure, Except.pure]

theorem parseStart_raw {void : Bool} {tag rest : Str} {as vs : List (Str × Str)} (ht : tagOk tag = true)
    (has : ∀ a ∈ as, rawOk a = true) (hv : Values as vs) :
    parseStart (rawTag void tag as ++ rest) = .go [if void then .startend tag (vs.map fun v => (v.1, some v.2)) else
      .start tag (vs.map fun v => (v.1, some v.2))] (rawTag void tag as).length none := by
  have hwhole := wholeStartTag_raw (void := void) (rest := rest) ht has
  have htag := ht
  obtain ⟨c, w, rfl, hc, hw⟩ := tagOk_cons ht
  obtain ⟨t1, t2⟩ := tagEnd_tail void as rest has
  have htail : (rawTag void (c :: w) as ++ rest).tail = c :: (w ++ ((as.flatMap fun a => ' ' :: rawAttr a) ++ closer void ++ rest)) := by
    simp [rawTag]
  generalize hR : (as.flatMap fun a => ' ' :: rawAttr a) ++ closer void ++ rest = R at htail
  have hR2 : (as = [] ∧ void = false ∧ R = attrsTail void as ++ rest) ∨ R = ' ' :: (attrsTail void as ++ rest) := by
    rw [← hR]; exact tail_cases void as rest
  have hmatch : ∃ p, tagfindRe.matchAt false (some '<') (c :: (w ++ R)) = some ⟨p, attrsTail void as ++ rest, [(.name, c :: w)]⟩ ∧
      (p = some ' ' ∨ as = []) := by
    rw [Re.matchAt_false]
    unfold tagfindRe
    have h1 : ((Re.seq (.cls alpha) (.star true (.cls tagChar)) : TR).res ⟨some '<', c :: (w ++ R), []⟩).head? =
        some ⟨(w.getLast?).or (some c), R, []⟩ := by
      refine Re.head_seq (Re.head_cls (letter_all (P := alpha.mem) (by decide) hc)) (Re.head_star_cls ?_ w (some c) ?_)
      · intro d t e
        rcases hR2 with ⟨rfl, rfl, h⟩ | h
        · rw [h] at e; simp [attrsTail] at e; rw [← e.1]; decide
        · rw [h] at e; simp only [List.cons.injEq] at e; rw [← e.1]; decide
      · intro d hd
        exact nameChar_all (P := tagChar.mem) (by decide) (hw d (by simp [hd]))
    have h2 := Re.head_grp (g := TG.name) h1
    dsimp only at h2
    rw [show consumed (c :: (w ++ R)) R = c :: w from consumed_eq (c :: w) R] at h2
    rcases hR2 with ⟨rfl, rfl, h⟩ | h
    · refine ⟨_, Re.head_seq h2 (by rw [h]; exact head_slash0 t1), Or.inr rfl⟩
    · refine ⟨_, Re.head_seq h2 (by rw [h]; exact head_slash1 t1), Or.inl rfl⟩
  obtain ⟨p, hm, hp⟩ := hmatch
  have hloop : attrLoop (rawTag void (c :: w) as ++ rest).length p (attrsTail void as ++ rest)
      ((rawTag void (c :: w) as ++ rest).length - (rawTag void (c :: w) as).length) =
      .ok (vs.map fun v => (v.1, some v.2), attrsTail void [] ++ rest) := by
    rw [show (rawTag void (c :: w) as ++ rest).length - (rawTag void (c :: w) as).length = rest.length from by simp]
    by_cases has0 : as = []
    · subst has0
      cases hv
      exact attrLoop_end
    · rcases hp with rfl | hp
      · refine attrLoop_raw as vs _ has hv ?_ has0
        have : ∀ l : List (Str × Str), l.length ≤ (l.flatMap fun a => ' ' :: rawAttr a).length := by
          intro l
          induction l with
          | nil => simp
          | cons x l ih => simp only [List.flatMap_cons, List.length_append, List.length_cons]; omega
        have := this as
        simp only [rawTag, List.length_append, List.length_cons]
        omega
      · exact absurd hp has0
  unfold parseStart
  rw [hwhole, htail]
  simp only [hm, hloop, capGet, List.lookup, show (TG.name == TG.name) = true from rfl, Option.getD_some, lower_name hw]
  have htake : strip ((attrsTail void [] ++ rest).take ((attrsTail void [] ++ rest).length -
      ((rawTag void (c :: w) as ++ rest).length - (rawTag void (c :: w) as).length))) = attrsTail void [] := by
    rw [show (attrsTail void [] ++ rest).length - ((rawTag void (c :: w) as ++ rest).length - (rawTag void (c :: w) as).length) =
      (attrsTail void []).length from by simp]
    rw [List.take_left]
    cases void <;> decide
  rw [htake]
  have hns : c :: w ≠ c!"script" ∧ c :: w ≠ c!"style" := by
    simp only [tagOk, Bool.and_eq_true, bne_iff_ne, ne_eq] at htag
    exact ⟨htag.1.1.2, htag.1.2⟩
  cases void with
  | false => simp only [attrsTail]; simp [hns.1, hns.2]
  | true => simp [attrsTail]

theorem tokens_tag {void : Bool} {tag rest : Str} {as vs : List (Str × Str)} (ht : tagOk tag = true)
    (has : ∀ a ∈ as, rawOk a = true) (hv : Values as vs) :
    tokens (rawTag void tag as ++ rest) = after [if void then .startend tag (vs.map fun v => (v.1, some v.2)) else
      .start tag (vs.map fun v => (v.1, some v.2))] (tokens rest) := by
  refine tokens_go (by simp [rawTag]) ?_
  rw [← parseStart_raw (rest := rest) ht has hv]
  obtain ⟨c, w, rfl, hc, hw⟩ := tagOk_cons ht
  have := letter_all (P := isAlphaA) (by decide) hc
  unfold step rawTag
  simp only [List.cons_append]
  rw [List.takeWhile_cons_of_neg (by simp)]
  simp [this]

/-! ## Values of attributes -/

theorem unescape_attrHtml : ∀ (v : Str), (∀ c ∈ v, c ≠ '"') → unescape (attrHtml v) = .ok v := by
  have amp : unescapeNamed c!"amp;" = c!"&" := by decide +kernel
  have lt : unescapeNamed c!"lt;" = c!"<" := by decide +kernel
  have gt : unescapeNamed c!"gt;" = c!">" := by decide +kernel
  have key : ∀ (v : Str), (∀ c ∈ v, c ≠ '"') → unescapeAux (attrHtml v) 0 = .ok v := by
    intro v
    induction v with
    | nil => intro _; rfl
    | cons c v ih =>
      intro h
      have ih := ih (fun x hx => h x (by simp [hx]))
      have hc := h c (by simp)
      simp only [attrHtml, List.flatMap_cons, if_neg hc] at ih ⊢
      generalize (v.flatMap fun c => if c = '"' then c!"&quot" else textChar c) = r at ih
      unfold textChar
      by_cases h1 : c = '&'
      · subst h1
        simp [unescapeAux, unescapeRef, optSemi, amp, ih, Except.map]
      · by_cases h2 : c = '<'
        · subst h2
          simp [unescapeAux, unescapeRef, optSemi, lt, ih, Except.map]
        · by_cases h3 : c = '>'
          · subst h3
            simp [unescapeAux, unescapeRef, optSemi, gt, ih, Except.map]
          · simp [h1, h2, h3, unescapeAux, ih, Except.map]
  exact key

theorem attrHtml_noQuote {v : Str} (h : ∀ c ∈ v, c ≠ '"') : ∀ c ∈ attrHtml v, c ≠ '"' := by
  rintro c hc rfl
  simp only [attrHtml, List.mem_flatMap] at hc
  obtain ⟨d, hd, hc⟩ := hc
  rw [if_neg (h d hd)] at hc
  unfold textChar at hc
  split at hc
  · simp at hc
  · split at hc
    · simp at hc
    · split at hc
      · simp at hc
      · simp at hc; exact h d hd hc.symm

theorem values_attrHtml : ∀ (as : List (Str × Str)), as.all attrOk = true →
    Values (as.map fun a => (a.1, attrHtml a.2)) as ∧ ∀ a ∈ as.map (fun a => (a.1, attrHtml a.2)), rawOk a = true
  | [], _ => ⟨.nil, by simp⟩
  | a :: as, h => by
    simp only [List.all_cons, Bool.and_eq_true] at h
    obtain ⟨h1, h2⟩ := values_attrHtml as h.2
    have hq : ∀ c ∈ a.2, c ≠ '"' := by
      rintro c hc rfl
      have := h.1
      simp only [attrOk, Bool.and_eq_true, Bool.not_eq_true'] at this
      have h3 : a.2.contains '"' = true := by simpa using hc
      rw [this.1.2] at h3; simp at h3
    refine ⟨.cons ⟨rfl, unescape_attrHtml _ hq⟩ h1, ?_⟩
    intro x hx
    simp only [List.map_cons, List.mem_cons] at hx
    rcases hx with rfl | hx
    · have := h.1
      simp only [attrOk, rawOk, Bool.and_eq_true, Bool.not_eq_true'] at this ⊢
      refine ⟨this.1.1, ?_⟩
      cases hh : (attrHtml a.2).contains '"' with
      | false => rfl
      | true => exact absurd rfl (attrHtml_noQuote hq '"' (by simpa using hh))
    · exact h2 x hx

theorem tagStart_raw (void : Bool) (tag : Str) (as : List (Str × Str)) :
    tagStart tag as ++ closer void = rawTag void tag (as.map fun a => (a.1, attrHtml a.2)) := by
  unfold tagStart rawTag
  congr 2
  induction as with
  | nil => rfl
  | cons a as ih => simp [attrPrint, rawAttr, ih]

/-- the attributes as the parser gets them -/
def evAttrs (as : List (Str × Str)) : List (Str × Option Str) := as.map fun v => (v.1, some v.2)

theorem tokens_start {tag rest : Str} {as : List (Str × Str)} (ht : tagOk tag = true) (has : as.all attrOk = true) :
    tokens (tagStart tag as ++ '>' :: rest) = after [.start tag (evAttrs as)] (tokens rest) := by
  obtain ⟨h1, h2⟩ := values_attrHtml as has
  have := tokens_tag (void := false) (rest := rest) ht h2 h1
  rw [← tagStart_raw] at this
  simpa [closer, evAttrs] using this

theorem tokens_void {tag rest : Str} {as : List (Str × Str)} (ht : tagOk tag = true) (has : as.all attrOk = true) :
    tokens (tagStart tag as ++ c!" />" ++ rest) = after [.startend tag (evAttrs as)] (tokens rest) := by
  obtain ⟨h1, h2⟩ := values_attrHtml as has
  have := tokens_tag (void := true) (rest := rest) ht h2 h1
  rw [← tagStart_raw] at this
  simpa [closer, evAttrs] using this

end Verif.Html
