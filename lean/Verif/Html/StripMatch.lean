import Verif.Html.Strip
import Verif.Html.TagLemmas
import Verif.Html.ParserLemmas

/-!
# Blanks in written HTML
-/

namespace Verif.Html

open Verif Py Spec.Cr Spec.Hd

/-! ## Where the expression matches -/

theorem mem_star_cls {γ : Type} [DecidableEq γ] {g : Bool} {cs : CSet} {s s' : St γ}
    (h : s' ∈ (Re.star g (.cls cs) : Re γ).res s) : ∃ u, s.rest = u ++ s'.rest ∧ ∀ c ∈ u, cs.mem c = true := by
  simp only [Re.res] at h
  refine mem_starR_induct (P := fun s => ∃ u, s.rest = u ++ s'.rest ∧ ∀ c ∈ u, cs.mem c = true) ⟨[], by simp⟩ ?_ h
  intro s t ht ⟨u, h1, h2⟩
  have := mem_res_cls.1 ht
  obtain ⟨c, r, h3, h4, rfl⟩ := this
  refine ⟨c :: u, by simp only at h1; rw [h3, h1]; rfl, ?_⟩
  intro d hd
  simp only [List.mem_cons] at hd
  rcases hd with rfl | hd
  · exact h4
  · exact h2 d hd

/-- nothing matches unless a `<` follows the blanks -/
theorem strip_none {p : Option Char} {s : Str}
    (h : ∀ u t, s = u ++ t → (∀ c ∈ u, isSpace c = true) → t.head? ≠ some '<') : stripRe.matchAt false p s = none := by
  rw [Re.matchAt_false, List.head?_eq_none_iff]
  cases hl : stripRe.res ⟨p, s, []⟩ with
  | nil => rfl
  | cons x l =>
    exfalso
    have hx : x ∈ stripRe.res ⟨p, s, []⟩ := by rw [hl]; simp
    unfold stripRe Re.cat Re.cat at hx
    rw [mem_res_seq] at hx
    obtain ⟨t, h1, h2⟩ := hx
    rw [mem_res_seq] at h2
    obtain ⟨t', h3, _⟩ := h2
    obtain ⟨u, h4, h5⟩ := mem_star_cls h1
    rw [mem_res_cls] at h3
    obtain ⟨c, r, h6, h7, _⟩ := h3
    simp only [CSet.mem, beq_iff_eq] at h7
    exact h u t.rest h4 h5 (by rw [h6, h7]; rfl)

/-- the parts of a tag, as the expression sees them -/
structure Parts (T e name m se : Str) : Prop where
  text : T = '<' :: (e ++ name ++ m ++ se ++ ['>'])
  he : e = [] ∨ e = ['/']
  hse : se = [] ∨ se = ['/']
  name_ne : name ≠ []
  hname : ∀ c ∈ name, c ≠ ' ' ∧ c ≠ '>' ∧ c ≠ '\n'
  slash : name.head? ≠ some '/'
  hm : ∀ c ∈ m, c ≠ '>' ∧ c ≠ '\n'
  mhead : m = [] ∧ se = [] ∨ m.head? = some ' '
  mlast : m.getLast? ≠ some '/'
  nolt : '<' ∉ name ++ m
  pre : name ≠ c!"pre"

theorem head_opt_cls {γ : Type} [DecidableEq γ] {d : Char} {p : Option Char} {r : Str} {caps : List (γ × Str)}
    (h : r.head? ≠ some d) :
    ((Re.opt (.cls (.chr d)) : Re γ).res ⟨p, r, caps⟩).head? = some ⟨p, r, caps⟩ := by
  unfold Re.opt
  rw [Re.res_alt_right]
  · simp [Re.res]
  · refine Re.res_cls_nil ?_
    intro c t e
    subst e
    simp only [List.head?_cons, ne_eq, Option.some.injEq] at h
    simp [CSet.mem, h]

theorem strip_match {T e name m se w w2 rest : Str} (h : Parts T e name m se) (p : Option Char)
    (hw : ∀ c ∈ w, isSpace c = true) (hw2 : ∀ c ∈ w2, isSpace c = true) (hr : noSp rest = true) :
    stripRe.matchAt false p (w ++ T ++ w2 ++ rest) =
      some ⟨(w2.getLast?).or (some '>'), rest, [(.startend, se), (.tag, name), (.end_, e)]⟩ := by
  rw [Re.matchAt_false]
  unfold stripRe
  simp only [Re.cat]
  have e0 : w ++ T ++ w2 ++ rest = w ++ '<' :: (e ++ (name ++ (m ++ (se ++ '>' :: (w2 ++ rest))))) := by
    rw [h.text]; simp
  rw [e0]
  refine Re.head_seq (Re.head_star_cls (cs := .space) (by intro c t hc; simp only [List.cons.injEq] at hc; rw [← hc.1]; rfl) w p hw) ?_
  refine Re.head_seq (Re.head_cls (by rfl)) ?_
  -- the slash of an end tag
  have hname : ∃ c n, name = c :: n := by
    cases name with
    | nil => exact absurd rfl h.name_ne
    | cons c n => exact ⟨c, n, rfl⟩
  obtain ⟨c, n, rfl⟩ := hname
  have h1 : ∀ p, ∃ q, ((Re.grp SG.end_ (Re.opt (.cls (.chr '/')))).res
      ⟨p, e ++ (c :: n ++ (m ++ (se ++ '>' :: (w2 ++ rest)))), []⟩).head? =
      some ⟨q, c :: n ++ (m ++ (se ++ '>' :: (w2 ++ rest))), [(.end_, e)]⟩ := by
    intro p
    rcases h.he with rfl | rfl
    · refine ⟨p, ?_⟩
      rw [List.nil_append, Re.head_grp (head_opt_cls (by simpa using h.slash))]
      simp [consumed]
    · refine ⟨some '/', ?_⟩
      unfold Re.opt
      have := Re.head_grp (g := SG.end_) (Re.head_alt_left (b := .eps) (Re.head_cls (γ := SG) (cs := .chr '/') (p := p) (c := '/')
        (r := c :: n ++ (m ++ (se ++ '>' :: (w2 ++ rest)))) (caps := []) (by rfl)))
      rw [show ['/'] ++ (c :: n ++ (m ++ (se ++ '>' :: (w2 ++ rest)))) = '/' :: (c :: n ++ (m ++ (se ++ '>' :: (w2 ++ rest)))) from rfl,
        this]
      simp only
      rw [show '/' :: (c :: n ++ (m ++ (se ++ '>' :: (w2 ++ rest)))) = ['/'] ++ (c :: n ++ (m ++ (se ++ '>' :: (w2 ++ rest)))) from rfl,
        consumed_eq]
  obtain ⟨q, hq⟩ := h1 (some '<')
  refine Re.head_seq hq ?_
  -- the name
  have hstop : ∀ d t, m ++ (se ++ '>' :: (w2 ++ rest)) = d :: t → (CSet.compl (.union (.chr ' ') (.chr '>'))).mem d = false := by
    intro d t hd
    have : d = ' ' ∨ d = '>' := by
      rcases h.mhead with ⟨rfl, rfl⟩ | hm
      · simp only [List.nil_append, List.cons.injEq] at hd; exact .inr hd.1.symm
      · cases m with
        | nil => simp at hm
        | cons x m =>
          simp only [List.head?_cons, Option.some.injEq] at hm
          simp only [List.cons_append, List.cons.injEq] at hd
          exact .inl (hd.1.symm.trans hm)
    rcases this with rfl | rfl <;> rfl
  have h2 := Re.head_plus_cls (γ := SG) (caps := [(.end_, e)]) hstop (c := c) (w := n) (p := q) (by
    intro d hd
    have := h.hname d hd
    simp [CSet.mem, this.1, this.2.1])
  refine Re.head_seq (Re.head_grp h2) ?_
  have hc : consumed (c :: (n ++ (m ++ (se ++ '>' :: (w2 ++ rest))))) (m ++ (se ++ '>' :: (w2 ++ rest))) = c :: n := by
    rw [show c :: (n ++ (m ++ (se ++ '>' :: (w2 ++ rest)))) = (c :: n) ++ (m ++ (se ++ '>' :: (w2 ++ rest))) from rfl, consumed_eq]
  simp only [List.cons_append]
  rw [hc]
  -- the rest of the tag
  rw [Re.res]
  refine Re.head_lazy (Step.cls .dot) m _ ?_ ?_ ?_
  · intro d hd; simp [CSet.mem, (h.hm d hd).2]
  · intro u v huv hv
    cases v with
    | nil => exact absurd rfl hv
    | cons d v =>
      have hd : d ≠ '>' := (h.hm d (by rw [huv]; simp)).1
      -- the expression wants `>` or `/>`
      cases hl : (Re.seq (Re.grp SG.startend (Re.opt (.cls (.chr '/')))) (Re.seq (.cls (.chr '>')) (Re.star true (.cls .space)))).res
          ⟨(u.getLast?).or (c :: n).getLast?, (d :: v) ++ (se ++ '>' :: (w2 ++ rest)), [(SG.tag, c :: n), (.end_, e)]⟩ with
      | nil => rfl
      | cons x l =>
        exfalso
        have hx : x ∈ (Re.seq (Re.grp SG.startend (Re.opt (.cls (.chr '/')))) (Re.seq (.cls (.chr '>')) (Re.star true (.cls .space)))).res
          ⟨(u.getLast?).or (c :: n).getLast?, (d :: v) ++ (se ++ '>' :: (w2 ++ rest)), [(SG.tag, c :: n), (.end_, e)]⟩ := by
            rw [hl]; simp
        rw [mem_res_seq] at hx
        obtain ⟨t, k1, k2⟩ := hx
        rw [mem_res_seq] at k2
        obtain ⟨t', k3, _⟩ := k2
        rw [mem_res_grp] at k1
        obtain ⟨t1, k4, rfl⟩ := k1
        unfold Re.opt at k4
        rw [mem_res_alt, mem_res_eps, mem_res_cls] at k4
        rw [mem_res_cls] at k3
        obtain ⟨x', r', k5, k6, _⟩ := k3
        simp only [CSet.mem, beq_iff_eq] at k6
        subst k6
        rcases k4 with ⟨y, r, k7, k8, rfl⟩ | rfl
        · simp only [CSet.mem, beq_iff_eq] at k8
          subst k8
          simp only [List.cons_append, List.cons.injEq] at k7
          obtain ⟨rfl, rfl⟩ := k7
          simp only at k5
          cases v with
          | nil =>
            exact h.mlast (by rw [huv]; simp)
          | cons z v =>
            simp only [List.cons_append, List.cons.injEq] at k5
            exact (h.hm z (by rw [huv]; simp)).1 k5.1
        · simp only [List.cons_append, List.cons.injEq] at k5
          exact hd k5.1
  · rcases h.hse with rfl | rfl
    · refine Re.head_seq (Re.head_grp (head_opt_cls (by simp))) ?_
      refine Re.head_seq (Re.head_cls (by rfl)) ?_
      rw [Re.head_star_cls (cs := .space) (noSp_cls hr) w2 _ hw2]
      simp [consumed]
    · refine Re.head_seq (Re.head_grp (Re.head_alt_left (Re.head_cls (by rfl)))) ?_
      refine Re.head_seq (Re.head_cls (by rfl)) ?_
      rw [Re.head_star_cls (cs := .space) (noSp_cls hr) w2 _ hw2]
      simp [consumed]

/-! ## What becomes of the text -/

/-- `s` becomes `t` -/
def Strips (s t : Str) : Prop := ∀ prev, ((stripRe.scanAux prev s 0).flatMap fun | .skip c => [c] | .hit m => stripTag m) = t

theorem Strips.nil : Strips [] [] := by
  intro prev
  rw [Re.scanAux_nil (by decide)]; rfl

theorem Strips.skip {c : Char} {s t : Str} (h : ∀ p, stripRe.matchAt false p (c :: s) = none) (hs : Strips s t) :
    Strips (c :: s) (c :: t) := by
  intro prev
  rw [Re.scanAux_skip (h prev), List.flatMap_cons, hs]; rfl

/-- characters that are neither blanks nor the beginning of a tag -/
theorem Strips.solid {s t : Str} (hs : Strips s t) : ∀ (w : Str), (∀ c ∈ w, isSpace c = false ∧ c ≠ '<') → Strips (w ++ s) (w ++ t)
  | [], _ => hs
  | c :: w, h => by
    refine Strips.skip (fun p => strip_none ?_) (Strips.solid hs w fun d hd => h d (by simp [hd]))
    intro u t hu hu'
    have hc := h c (by simp)
    cases u with
    | nil =>
      rw [List.nil_append] at hu
      rw [← hu]
      simpa using hc.2
    | cons d u =>
      simp only [List.cons_append, List.cons.injEq] at hu
      have := hu' d (by simp)
      rw [← hu.1, hc.1] at this
      simp at this

/-- a blank before a character -/
theorem Strips.blank {d : Char} {s t : Str} (hd : isSpace d = false) (hd' : d ≠ '<') (hs : Strips (d :: s) t) :
    Strips (' ' :: d :: s) (' ' :: t) := by
  refine Strips.skip (fun p => strip_none ?_) hs
  intro u t hu hu'
  cases u with
  | nil => rw [List.nil_append] at hu; rw [← hu]; simp
  | cons x u =>
    simp only [List.cons_append, List.cons.injEq] at hu
    cases u with
    | nil => simp only [List.nil_append] at hu; rw [← hu.2]; simpa using hd'
    | cons y u =>
      simp only [List.cons_append, List.cons.injEq] at hu
      have := hu' y (by simp)
      rw [← hu.2.1, hd] at this
      simp at this

/-- a tag with the blanks around it -/
theorem Strips.tag {T e name m se w w2 s t : Str} (h : Parts T e name m se)
    (hw : ∀ c ∈ w, isSpace c = true) (hw2 : ∀ c ∈ w2, isSpace c = true) (hr : noSp s = true) (hs : Strips s t) :
    Strips (w ++ T ++ w2 ++ s) (stripTag ⟨w ++ T ++ w2, [(.startend, se), (.tag, name), (.end_, e)]⟩ ++ t) := by
  intro prev
  have hne : w ++ T ++ w2 ≠ [] := by rw [h.text]; simp
  have := Re.scanAux_take (r := stripRe) (prev := prev) (s' := ⟨(w2.getLast?).or (some '>'), s, [(.startend, se), (.tag, name), (.end_, e)]⟩) hne
    (strip_match h prev hw hw2 hr)
  simp only at this
  rw [this, List.flatMap_cons, hs]

theorem Parts.strip {T e name m se w w2 : Str} (h : Parts T e name m se) (hw : ∀ c ∈ w, isSpace c = true)
    (hw2 : ∀ c ∈ w2, isSpace c = true) : strip (w ++ T ++ w2) = T := by
  rw [strip_pad hw hw2]
  refine strip_id ?_ ?_
  · intro c hc; rw [h.text] at hc; simp at hc; subst hc; rfl
  · intro c hc
    rw [h.text, show '<' :: (e ++ name ++ m ++ se ++ ['>']) = ('<' :: (e ++ name ++ m ++ se)) ++ ['>'] from by simp,
      List.getLast?_concat] at hc
    simp at hc; subst hc; rfl

theorem stripTag_block {T e name m se w w2 : Str} (h : Parts T e name m se) (hw : ∀ c ∈ w, isSpace c = true)
    (hw2 : ∀ c ∈ w2, isSpace c = true) (hb : isBlock name = true) :
    stripTag ⟨w ++ T ++ w2, [(.startend, se), (.tag, name), (.end_, e)]⟩ = T := by
  unfold stripTag
  have hn : Match.get (⟨w ++ T ++ w2, [(.startend, se), (.tag, name), (.end_, e)]⟩ : Match SG) .tag = some name := rfl
  simp only [hn, Option.getD_some, blockTags_eq]
  rw [if_pos (show Spec.blockNames.contains name = true from hb), h.strip hw hw2]

theorem Parts.head {T e name m se w2 : Str} (h : Parts T e name m se) : (T ++ w2).head? = some '<' := by rw [h.text]; rfl

theorem Parts.last {T e name m se w : Str} (h : Parts T e name m se) : (w ++ T).getLast? = some '>' := by
  rw [h.text, show w ++ '<' :: (e ++ name ++ m ++ se ++ ['>']) = (w ++ '<' :: (e ++ name ++ m ++ se)) ++ ['>'] from by simp,
    List.getLast?_concat]

theorem stripTag_inline {T e name m se : Str} (h : Parts T e name m se) (hb : isBlock name = false) {w w2 : Str}
    (hw : w = [] ∨ w = [' ']) (hw2 : w2 = [] ∨ w2 = [' ']) :
    stripTag ⟨w ++ T ++ w2, [(.startend, se), (.tag, name), (.end_, e)]⟩ =
      if e = ['/'] then (if w = [' '] ∨ w2 = [' '] then T ++ [' '] else T)
      else if se = ['/'] then w ++ T ++ w2
      else if w = [' '] ∨ w2 = [' '] then ' ' :: T else T := by
  have h1 : Match.get (⟨w ++ T ++ w2, [(.startend, se), (.tag, name), (.end_, e)]⟩ : Match SG) .tag = some name := rfl
  have h2 : Match.get (⟨w ++ T ++ w2, [(.startend, se), (.tag, name), (.end_, e)]⟩ : Match SG) .end_ = some e := rfl
  have h3 : Match.get (⟨w ++ T ++ w2, [(.startend, se), (.tag, name), (.end_, e)]⟩ : Match SG) .startend = some se := rfl
  have hs : strip (w ++ T ++ w2) = T := h.strip (by rcases hw with rfl | rfl <;> decide) (by rcases hw2 with rfl | rfl <;> decide)
  have h4 : ((w ++ T ++ w2).head? = some ' ') ↔ w = [' '] := by
    rcases hw with rfl | rfl
    · rw [List.nil_append, h.head]; decide
    · simp
  have h5 : ((w ++ T ++ w2).getLast? = some ' ') ↔ w2 = [' '] := by
    rcases hw2 with rfl | rfl
    · rw [List.append_nil, h.last]; decide
    · rw [List.getLast?_concat]; simp
  unfold stripTag
  simp only [h1, h2, h3, hs, Option.getD_some, blockTags_eq, h4, h5, Option.some.injEq]
  rw [if_neg (show ¬ Spec.blockNames.contains name = true from by rw [show Spec.blockNames.contains name = false from hb]; simp)]
  by_cases he : e = ['/']
  · simp [he]
  · by_cases hse : se = ['/']
    · simp only [he, hse, if_true, if_false]
      rcases hw with rfl | rfl <;> rcases hw2 with rfl | rfl <;> simp
    · simp [he, hse]

/-! ## Documents as sequences -/

/-- the text of a tag of a kind -/
inductive TagOf : TagKind → Str → Prop where
  | block {T e name m se} : Parts T e name m se → isBlock name = true → TagOf .block T
  | opening {T name m} : Parts T [] name m [] → isBlock name = false → TagOf .opening T
  | closing {T name m se} : Parts T ['/'] name m se → isBlock name = false → TagOf .closing T
  | single {T name m} : Parts T [] name m ['/'] → isBlock name = false → TagOf .single T

/-- a part of a document -/
def bitOk : Bit → Prop
  | .chr _ => True
  | .white s => ∀ c ∈ s, isSpace c = true
  | .tag k T => TagOf k T
  | .ref s => s ≠ [] ∧ ∀ d ∈ s, isSpace d = false ∧ d ≠ '<'

def bitsText (l : List Bit) : Str := l.flatMap Bit.text

/-- without the white space -/
def clean (l : List Bit) : List Bit := l.filter fun b => !b.isWhite

theorem TagOf.head {k : TagKind} {T s : Str} (h : TagOf k T) : (T ++ s).head? = some '<' := by
  cases h with
  | block h _ => exact h.head
  | opening h _ => exact h.head
  | closing h _ => exact h.head
  | single h _ => exact h.head

theorem textChar_solid {c : Char} (h : isSpace c = false) : ∀ d ∈ textChar c, isSpace d = false ∧ d ≠ '<' := by
  unfold textChar
  split <;> (try decide)
  split <;> (try decide)
  split <;> (try decide)
  intro d hd
  simp only [List.mem_singleton] at hd
  subst hd
  exact ⟨h, by assumption⟩

theorem textChar_blank : textChar ' ' = [' '] := by decide

theorem textChar_ne (c : Char) : textChar c ≠ [] := by
  unfold textChar
  split <;> (try simp)
  split <;> (try simp)
  split <;> simp

theorem noSp_chr {c : Char} (h : isSpace c = false) (l : List Bit) : noSp (bitsText (.chr c :: l)) = true := by
  unfold bitsText noSp
  rw [List.flatMap_cons, List.head?_append]
  cases hh : (Bit.chr c).text with
  | nil => exact absurd hh (textChar_ne c)
  | cons d t =>
    have := (textChar_solid h d (by rw [show textChar c = (Bit.chr c).text from rfl, hh]; simp)).1
    simp [this]

theorem noSp_tag {k : TagKind} {T : Str} (h : TagOf k T) (l : List Bit) : noSp (bitsText (.tag k T :: l)) = true := by
  unfold bitsText noSp
  rw [List.flatMap_cons, show (Bit.tag k T).text = T from rfl, h.head]
  decide

theorem noSp_ref {s : Str} (h : s ≠ [] ∧ ∀ d ∈ s, isSpace d = false ∧ d ≠ '<') (l : List Bit) : noSp (bitsText (.ref s :: l)) = true := by
  unfold bitsText noSp
  rw [List.flatMap_cons, List.head?_append]
  cases s with
  | nil => exact absurd rfl h.1
  | cons d t => simp [Bit.text, (h.2 d (by simp)).1]

/-- white space at the beginning -/
theorem whites_split : ∀ (l : List Bit), (∀ b ∈ l, bitOk b) → spaced .block l = true →
    ∃ w l3, bitsText l = w ++ bitsText l3 ∧ (∀ c ∈ w, isSpace c = true) ∧ clean l = clean l3 ∧ spaced .block l3 = true ∧
      noSp (bitsText l3) = true ∧ l3.length ≤ l.length ∧ (∀ b ∈ l3, bitOk b) ∧ ¬ (l3.head?).any Bit.isWhite = true
  | [], _, _ => ⟨[], [], rfl, by simp, rfl, rfl, rfl, by simp, by simp, by simp⟩
  | .chr c :: l, h, hs => by
    refine ⟨[], .chr c :: l, rfl, by simp, rfl, hs, ?_, by simp, h, by simp [Bit.isWhite]⟩
    refine noSp_chr ?_ l
    cases hc : isSpace c with
    | false => rfl
    | true => simp [spaced, hc] at hs
  | .tag k T :: l, h, hs => ⟨[], .tag k T :: l, rfl, by simp, rfl, hs, noSp_tag (h (.tag k T) (by simp)) l, by simp, h, by simp [Bit.isWhite]⟩
  | .ref s :: l, h, hs => ⟨[], .ref s :: l, rfl, by simp, rfl, hs, noSp_ref (h (.ref s) (by simp)) l, by simp, h, by simp [Bit.isWhite]⟩
  | .white s :: l, h, hs => by
    have hs' : spaced .block l = true := by simpa [spaced] using hs
    obtain ⟨w, l3, h1, h2, h3, h4, h5, h6, h7, h8⟩ := whites_split l (fun b hb => h b (by simp [hb])) hs'
    have hw : ∀ c ∈ s, isSpace c = true := h (.white s) (by simp)
    refine ⟨s ++ w, l3, ?_, ?_, ?_, h4, h5, by simp; omega, h7, h8⟩
    · simp only [bitsText, List.flatMap_cons, Bit.text] at h1 ⊢; rw [h1]; simp
    · intro c hc
      rcases List.mem_append.1 hc with hc | hc
      · exact hw c hc
      · exact h2 c hc
    · rw [← h3]; simp [clean, Bit.isWhite]

/-- white space before the tag of a block element -/
theorem whites_block : ∀ (l : List Bit) (b : Before), (∀ b ∈ l, bitOk b) → spaced b l = true → atBlock l = true →
    ∃ w T l3, bitsText l = w ++ T ++ bitsText l3 ∧ (∀ c ∈ w, isSpace c = true) ∧ clean l = .tag .block T :: clean l3 ∧
      spaced .block l3 = true ∧ l3.length < l.length ∧ (∀ b ∈ l3, bitOk b) ∧ TagOf .block T
  | [], _, _, _, h => by simp [atBlock] at h
  | .chr c :: l, _, _, _, h => by simp [atBlock] at h
  | .ref s :: l, _, _, _, h => by simp [atBlock] at h
  | .tag k T :: l, b, h, hs, ha => by
    have hk : k = .block := by cases k <;> simp [atBlock] at ha ⊢
    subst hk
    refine ⟨[], T, l, ?_, by simp, ?_, by simpa [spaced] using hs, by simp, fun b hb => h b (by simp [hb]), h (.tag .block T) (by simp)⟩
    · simp [bitsText, Bit.text]
    · simp [clean, Bit.isWhite]
  | .white s :: l, b, h, hs, ha => by
    have hs' : spaced b l = true := by simp only [spaced, Bool.and_eq_true] at hs; exact hs.2
    obtain ⟨w, T, l3, h1, h2, h3, h4, h5, h6, h7⟩ := whites_block l b (fun b hb => h b (by simp [hb])) hs' (by simpa [atBlock] using ha)
    have hw : ∀ c ∈ s, isSpace c = true := h (.white s) (by simp)
    refine ⟨s ++ w, T, l3, ?_, ?_, ?_, h4, by simp; omega, h6, h7⟩
    · simp only [bitsText, List.flatMap_cons, Bit.text] at h1 ⊢; rw [h1]; simp
    · intro c hc
      rcases List.mem_append.1 hc with hc | hc
      · exact hw c hc
      · exact h2 c hc
    · rw [← h3]; simp [clean, Bit.isWhite]

theorem afterBlank_noSp {l : List Bit} (h : ∀ b ∈ l, bitOk b) (ha : afterBlank l = true) :
    noSp (bitsText l) = true ∧ ¬ (l.head?).any Bit.isWhite = true := by
  cases l with
  | nil => simp [afterBlank] at ha
  | cons x l =>
    cases x with
    | chr c => exact ⟨noSp_chr (by simpa [afterBlank] using ha) l, by simp [Bit.isWhite]⟩
    | white s => simp [afterBlank] at ha
    | tag k T => exact ⟨noSp_tag (h (.tag k T) (by simp)) l, by simp [Bit.isWhite]⟩
    | ref s => exact ⟨noSp_ref (h (.ref s) (by simp)) l, by simp [Bit.isWhite]⟩

/-- `strip_html` removes the white space and nothing else -/
theorem strips_bits : ∀ (n : Nat) (l : List Bit), l.length ≤ n → ∀ b, (∀ b ∈ l, bitOk b) → spaced b l = true →
    (b = .block → ¬ (l.head?).any Bit.isWhite = true) → Strips (bitsText l) (bitsText (clean l)) := by
  intro n
  induction n with
  | zero =>
    intro l hl _ _ _ _
    have : l = [] := by cases l with | nil => rfl | cons x l => simp at hl
    subst this
    exact Strips.nil
  | succ n ih =>
    intro l hl b hok hs hb
    -- the tag of a block element with what follows
    have blockCase : ∀ (w T : Str) (l3 : List Bit), (∀ c ∈ w, isSpace c = true) → spaced .block l3 = true → l3.length ≤ n →
        (∀ b ∈ l3, bitOk b) → TagOf .block T → Strips (w ++ T ++ bitsText l3) (T ++ bitsText (clean l3)) := by
      intro w T l3 hw hs3 hl3 hok3 hT
      obtain ⟨w2, l4, k1, k2, k3, k4, k5, k6, k7, k8⟩ := whites_split l3 hok3 hs3
      have i := ih l4 (by omega) .block k7 k4 (fun _ => k8)
      cases hT with
      | block hp hbl =>
        have := Strips.tag hp hw k2 k5 i
        rw [stripTag_block hp hw k2 hbl] at this
        rw [k1, k3, ← List.append_assoc]
        exact this
    -- the tag of an inline element with what follows
    have inlineCase : ∀ (w T : Str) (k : TagKind) (l3 : List Bit), (w = [] ∨ w = [' '] ∧ k ≠ .closing) → k ≠ .block →
        spaced b (.tag k T :: l3) = true → l3.length ≤ n →
        (∀ b ∈ l3, bitOk b) → TagOf k T → Strips (w ++ T ++ bitsText l3) (w ++ T ++ bitsText (clean l3)) := by
      intro w T k l3 hw hk hs3 hl3 hok3 hT
      have hw' : ∀ c ∈ w, isSpace c = true := by rcases hw with rfl | ⟨rfl, _⟩ <;> decide
      have hw'' : w = [] ∨ w = [' '] := by rcases hw with h | h; exact .inl h; exact .inr h.1
      -- no blank follows
      have noBlank : ∀ b', (b' = .tight ∨ b' = .closed) → spaced b' l3 = true → (∀ l, l3 ≠ .chr ' ' :: l) →
          noSp (bitsText l3) = true ∧ Strips (bitsText l3) (bitsText (clean l3)) := by
        intro b' hb' hs' hne
        refine ⟨?_, ih l3 hl3 b' hok3 hs' (by rintro rfl; simp at hb')⟩
        cases l3 with
        | nil => rfl
        | cons x l3 =>
          cases x with
          | chr c =>
            refine noSp_chr ?_ l3
            cases hc : isSpace c with
            | false => rfl
            | true =>
              have : c = ' ' := by simp [spaced, hc] at hs'; exact hs'.1.1.1
              exact absurd rfl (this ▸ hne l3)
          | white s => rcases hb' with rfl | rfl <;> simp [spaced] at hs'
          | tag k' T' => exact noSp_tag (hok3 (.tag k' T') (by simp)) l3
          | ref s => exact noSp_ref (hok3 (.ref s) (by simp)) l3
      cases hT with
      | block => exact absurd rfl hk
      | opening hp hbl =>
        have hs' : spaced .tight l3 = true := by simpa [spaced] using hs3
        obtain ⟨k1, k2⟩ := noBlank .tight (.inl rfl) hs' (by rintro l rfl; simp [spaced, show isSpace ' ' = true from rfl] at hs')
        have := Strips.tag (w2 := []) hp hw' (by simp) k1 k2
        rw [stripTag_inline hp hbl hw'' (.inl rfl)] at this
        rcases hw with rfl | ⟨rfl, _⟩ <;> simpa using this
      | closing hp hbl =>
        have hw0 : w = [] := by rcases hw with h | h; exact h; exact absurd rfl h.2
        subst hw0
        have hs' : spaced .closed l3 = true := by simpa [spaced] using hs3
        by_cases hbk : ∃ l, l3 = .chr ' ' :: l
        · obtain ⟨l4, rfl⟩ := hbk
          simp [spaced, show isSpace ' ' = true from rfl] at hs'
          have hok4 : ∀ b ∈ l4, bitOk b := fun b hb => hok3 b (by simp [hb])
          obtain ⟨k1, k2⟩ := afterBlank_noSp hok4 hs'.1
          have i := ih l4 (by simp at hl3; omega) .tight hok4 hs'.2 (by intro h; cases h)
          have := Strips.tag (w := []) (w2 := [' ']) hp (by simp) (by decide) k1 i
          rw [stripTag_inline hp hbl (.inl rfl) (.inr rfl)] at this
          simpa [bitsText, clean, Bit.isWhite, Bit.text, textChar_blank] using this
        · obtain ⟨k1, k2⟩ := noBlank .closed (.inr rfl) hs' (fun l h => hbk ⟨l, h⟩)
          have := Strips.tag (w := []) (w2 := []) hp (by simp) (by simp) k1 k2
          rw [stripTag_inline hp hbl (.inl rfl) (.inl rfl)] at this
          simpa using this
      | single hp hbl =>
        have hs' : spaced .closed l3 = true := by simpa [spaced] using hs3
        by_cases hbk : ∃ l, l3 = .chr ' ' :: l
        · obtain ⟨l4, rfl⟩ := hbk
          simp [spaced, show isSpace ' ' = true from rfl] at hs'
          have hok4 : ∀ b ∈ l4, bitOk b := fun b hb => hok3 b (by simp [hb])
          obtain ⟨k1, k2⟩ := afterBlank_noSp hok4 hs'.1
          have i := ih l4 (by simp at hl3; omega) .tight hok4 hs'.2 (by intro h; cases h)
          have := Strips.tag (w2 := [' ']) hp hw' (by decide) k1 i
          rw [stripTag_inline hp hbl hw'' (.inr rfl)] at this
          simpa [bitsText, clean, Bit.isWhite, Bit.text, textChar_blank] using this
        · obtain ⟨k1, k2⟩ := noBlank .closed (.inr rfl) hs' (fun l h => hbk ⟨l, h⟩)
          have := Strips.tag (w2 := []) hp hw' (by simp) k1 k2
          rw [stripTag_inline hp hbl hw'' (.inl rfl)] at this
          simpa using this
    cases l with
    | nil => exact Strips.nil
    | cons x l =>
      simp only [List.length_cons, Nat.add_le_add_iff_right] at hl
      have hok' : ∀ b ∈ l, bitOk b := fun b hb => hok b (by simp [hb])
      cases x with
      | white s =>
        cases b with
        | block => simp [Bit.isWhite] at hb
        | tight => simp [spaced] at hs
        | closed => simp [spaced] at hs
        | solid =>
          have ha : atBlock (.white s :: l) = true := by simp [spaced] at hs; simpa [atBlock] using hs.1
          obtain ⟨w, T, l3, h1, h2, h3, h4, h5, h6, h7⟩ := whites_block _ _ hok hs ha
          have := blockCase w T l3 h2 h4 (by simp at h5; omega) h6 h7
          rw [h1, h3]
          simpa [bitsText, Bit.text] using this
      | tag k T =>
        have hT : TagOf k T := hok (.tag k T) (by simp)
        by_cases hk : k = .block
        · subst hk
          have := blockCase [] T l (by simp) (by simpa [spaced] using hs) hl hok' hT
          simpa [bitsText, Bit.text, clean, Bit.isWhite] using this
        · have := inlineCase [] T k l (.inl rfl) hk hs hl hok' hT
          simpa [bitsText, Bit.text, clean, Bit.isWhite] using this
      | ref s =>
        have hr : s ≠ [] ∧ ∀ d ∈ s, isSpace d = false ∧ d ≠ '<' := hok (.ref s) (by simp)
        have hs' : spaced .solid l = true := by simpa [spaced] using hs
        have i := ih l hl .solid hok' hs' (by intro h; cases h)
        have := Strips.solid i s hr.2
        simpa [bitsText, Bit.text, clean, Bit.isWhite] using this
      | chr c =>
        cases hc : isSpace c with
        | false =>
          have hs' : spaced .solid l = true := by simpa [spaced, hc] using hs
          have i := ih l hl .solid hok' hs' (by intro h; cases h)
          have := Strips.solid i (textChar c) (textChar_solid hc)
          simpa [bitsText, Bit.text, clean, Bit.isWhite] using this
        | true =>
          have hs' := hs
          simp only [spaced, hc, if_true, Bool.and_eq_true, beq_iff_eq] at hs'
          obtain ⟨⟨⟨rfl, _⟩, ha⟩, hs2⟩ := hs'
          have i := ih l hl .tight hok' hs2 (by intro h; cases h)
          cases l with
          | nil => simp [afterBlank] at ha
          | cons y l =>
            cases y with
            | white s => simp [afterBlank] at ha
            | ref s =>
              have hr : s ≠ [] ∧ ∀ d ∈ s, isSpace d = false ∧ d ≠ '<' := hok' (.ref s) (by simp)
              cases s with
              | nil => exact absurd rfl hr.1
              | cons x t =>
                have hx := hr.2 x (by simp)
                have i' : Strips (x :: (t ++ bitsText l)) (x :: (t ++ bitsText (clean l))) := by
                  simpa [bitsText, Bit.text, clean, Bit.isWhite] using i
                have := Strips.blank hx.1 hx.2 i'
                simpa [bitsText, Bit.text, clean, Bit.isWhite, textChar_blank] using this
            | chr d =>
              have hd : isSpace d = false := by simpa [afterBlank] using ha
              cases ht : textChar d with
              | nil => exact absurd ht (textChar_ne d)
              | cons x t =>
                have hx := textChar_solid hd x (by rw [ht]; simp)
                have i' : Strips (x :: (t ++ bitsText l)) (x :: (t ++ bitsText (clean l))) := by
                  simpa [bitsText, Bit.text, clean, Bit.isWhite, ht] using i
                have := Strips.blank hx.1 hx.2 i'
                simpa [bitsText, Bit.text, clean, Bit.isWhite, ht, textChar_blank] using this
            | tag k T =>
              have hk : k ≠ .block ∧ k ≠ .closing := by cases k <;> simp [afterBlank] at ha ⊢
              have hs3 : spaced b (.tag k T :: l) = true := by cases k <;> simpa [spaced] using hs2
              have := inlineCase [' '] T k l (.inr ⟨rfl, hk.2⟩) hk.1 hs3 (by simp at hl; omega)
                (fun b hb => hok' b (by simp [hb])) (hok' (.tag k T) (by simp))
              simpa [bitsText, Bit.text, clean, Bit.isWhite, textChar_blank] using this

/-! ## Lines -/

theorem TagOf.parts {k : TagKind} {T : Str} (h : TagOf k T) : ∃ e name m se, Parts T e name m se := by
  cases h with
  | block h _ => exact ⟨_, _, _, _, h⟩
  | opening h _ => exact ⟨_, _, _, _, h⟩
  | closing h _ => exact ⟨_, _, _, _, h⟩
  | single h _ => exact ⟨_, _, _, _, h⟩

theorem Parts.noLine {T e name m se : Str} (h : Parts T e name m se) : '\n' ∉ T := by
  rw [h.text]
  have h1 : '\n' ∉ e := by rcases h.he with rfl | rfl <;> decide
  have h2 : '\n' ∉ se := by rcases h.hse with rfl | rfl <;> decide
  have h3 : '\n' ∉ name := fun hc => (h.hname _ hc).2.2 rfl
  have h4 : '\n' ∉ m := fun hc => (h.hm _ hc).2 rfl
  simp [h1, h2, h3, h4]

/-- the same document with other white space -/
def shape : Bit → Bit
  | .white _ => .white []
  | b => b

theorem spaced_shape : ∀ (l : List Bit) (b : Before), spaced b (l.map shape) = spaced b l := by
  have ha : ∀ l : List Bit, atBlock (l.map shape) = atBlock l := by
    intro l
    induction l with
    | nil => rfl
    | cons x l ih => cases x with
      | chr c => rfl
      | white s => simpa [atBlock, shape] using ih
      | ref s => rfl
      | tag k T => cases k <;> rfl
  have hb : ∀ l : List Bit, afterBlank (l.map shape) = afterBlank l := by
    intro l
    cases l with
    | nil => rfl
    | cons x l => cases x with
      | chr c => rfl
      | white s => rfl
      | ref s => rfl
      | tag k T => cases k <;> rfl
  intro l
  induction l with
  | nil => intro b; rfl
  | cons x l ih =>
    intro b
    cases x with
    | chr c => simp only [List.map_cons, shape, spaced, ih, hb]
    | white s => simp only [List.map_cons, shape, spaced, ih, ha]
    | tag k T => cases k <;> simp only [List.map_cons, shape, spaced, ih]
    | ref s => simp only [List.map_cons, shape, spaced, ih]

theorem clean_shape (l : List Bit) : clean (l.map shape) = clean l := by
  induction l with
  | nil => rfl
  | cons x l ih =>
    unfold clean at ih ⊢
    cases x with
    | chr c => rw [List.map_cons, List.filter_cons_of_pos (by rfl), List.filter_cons_of_pos (by rfl), ih]; rfl
    | white s => rw [List.map_cons, List.filter_cons_of_neg (by simp [shape, Bit.isWhite]), List.filter_cons_of_neg (by simp [Bit.isWhite]), ih]
    | tag k T => rw [List.map_cons, List.filter_cons_of_pos (by rfl), List.filter_cons_of_pos (by rfl), ih]; rfl
    | ref s => rw [List.map_cons, List.filter_cons_of_pos (by rfl), List.filter_cons_of_pos (by rfl), ih]; rfl

theorem spaced_same {l l' : List Bit} (h : l.map shape = l'.map shape) (b : Before) : spaced b l = spaced b l' := by
  rw [← spaced_shape, h, spaced_shape]

theorem clean_same {l l' : List Bit} (h : l.map shape = l'.map shape) : clean l = clean l' := by
  rw [← clean_shape, h, clean_shape]

theorem spaced_atBlock : ∀ (l : List Bit) (b : Before), spaced b l = true → atBlock l = true → spaced .block l = true
  | [], _, _, h => by simp [atBlock] at h
  | .chr _ :: _, _, _, h => by simp [atBlock] at h
  | .ref _ :: _, _, _, h => by simp [atBlock] at h
  | .tag k T :: l, b, hs, h => by cases k <;> simp [atBlock, spaced] at h hs ⊢; exact hs
  | .white s :: l, b, hs, h => by
    simp only [spaced, Bool.and_eq_true] at hs
    have := spaced_atBlock l b hs.2 (by simpa [atBlock] using h)
    simp [spaced, this]

theorem lstrip_solid {a t : Str} (h : ∀ c, t.head? = some c → isSpace c = false) : lstrip (a ++ t) = lstrip a ++ t := by
  unfold lstrip
  induction a with
  | nil =>
    cases t with
    | nil => rfl
    | cons c t =>
      have := h c rfl
      simp [List.dropWhile, this]
  | cons c a ih =>
    simp only [List.cons_append, List.dropWhile_cons]
    split
    · exact ih
    · rfl

theorem lstrip_nonblank {a t : Str} (h : ∃ c ∈ a, isSpace c = false) : lstrip (a ++ t) = lstrip a ++ t := by
  unfold lstrip
  induction a with
  | nil => simp at h
  | cons c a ih =>
    simp only [List.cons_append, List.dropWhile_cons]
    split
    · rename_i hc
      refine ih ?_
      obtain ⟨d, hd, hd'⟩ := h
      simp only [List.mem_cons] at hd
      rcases hd with rfl | hd
      · rw [hc] at hd'; simp at hd'
      · exact ⟨d, hd, hd'⟩
    · rfl

theorem strip_blankEnd (a : Str) {v : Str} (hv : ∀ c ∈ v, isSpace c = true) : strip (a ++ v) = strip a := by
  have := strip_pad (w := []) (w' := v) (by simp) hv a
  simpa using this

theorem dropEndWhile_tail {p : Char → Bool} (s : Str) : ∃ v, s = dropEndWhile p s ++ v ∧ ∀ c ∈ v, p c = true := by
  induction s with
  | nil => exact ⟨[], rfl, by simp⟩
  | cons c s ih =>
    obtain ⟨v, h1, h2⟩ := ih
    rw [dropEndWhile]
    cases hd : dropEndWhile p s with
    | nil =>
      rw [hd] at h1
      by_cases hc : p c = true
      · refine ⟨c :: v, by simp only [hc, if_true]; rw [h1]; simp, ?_⟩
        intro d hd
        simp only [List.mem_cons] at hd
        rcases hd with rfl | hd
        · exact hc
        · exact h2 d hd
      · refine ⟨v, ?_, h2⟩
        simp only [hc]
        rw [h1]; simp
    | cons d ds =>
      rw [hd] at h1
      refine ⟨v, ?_, h2⟩
      simp only
      rw [List.cons_append, ← h1]

theorem lstrip_strip (a : Str) : ∃ v, lstrip a = strip a ++ v ∧ ∀ c ∈ v, isSpace c = true := dropEndWhile_tail (lstrip a)

/-- the first line break of a text -/
theorem split_line (s : Str) : '\n' ∉ s ∨ ∃ s1 s2, s = s1 ++ '\n' :: s2 ∧ '\n' ∉ s1 := by
  induction s with
  | nil => left; simp
  | cons c s ih =>
    by_cases hc : c = '\n'
    · right; exact ⟨[], s, by rw [hc]; rfl, by simp⟩
    · rcases ih with h | ⟨s1, s2, h1, h2⟩
      · left; simp only [List.mem_cons, not_or]; exact ⟨fun h => hc h.symm, h⟩
      · right
        refine ⟨c :: s1, s2, by rw [h1]; rfl, ?_⟩
        simp only [List.mem_cons, not_or]
        exact ⟨fun h => hc h.symm, h2⟩

theorem join_line {a : Str} (h : '\n' ∉ a) : joinStripped a = strip a := by
  unfold joinStripped
  rw [splitChar_of_not_mem h]; rfl

theorem join_lines {a b : Str} (h : '\n' ∉ a) : joinStripped (a ++ '\n' :: b) = strip a ++ ' ' :: joinStripped b := by
  unfold joinStripped
  rw [splitChar_append h, List.map_cons, join_cons _ (by simpa using splitChar_ne_nil '\n' b)]
  simp

/-- white space between two parts of a document -/
theorem join_white {T : Str} {R : List Bit → Prop}
    (h : ∀ a, '\n' ∉ a → ∃ v l', joinStripped (a ++ T) = strip a ++ v ++ bitsText l' ∧ (∀ c ∈ v, isSpace c = true) ∧ R l') :
    ∀ (n : Nat) (s : Str), s.length ≤ n → (∀ c ∈ s, isSpace c = true) → ∀ a, '\n' ∉ a →
      ∃ v l', joinStripped (a ++ s ++ T) = strip a ++ v ++ bitsText l' ∧ (∀ c ∈ v, isSpace c = true) ∧ R l' := by
  intro n
  induction n with
  | zero =>
    intro s hs _ a ha
    have : s = [] := by cases s with | nil => rfl | cons x l => simp at hs
    subst this
    simpa using h a ha
  | succ n ih =>
    intro s hs hsp a ha
    rcases split_line s with hn | ⟨s1, s2, rfl, hn⟩
    · have := h (a ++ s) (by simp [ha, hn])
      rwa [strip_blankEnd a hsp] at this
    · have hsp1 : ∀ c ∈ s1, isSpace c = true := fun c hc => hsp c (by simp [hc])
      have hsp2 : ∀ c ∈ s2, isSpace c = true := fun c hc => hsp c (by simp [hc])
      obtain ⟨v, l', h1, h2, h3⟩ := ih s2 (by simp at hs; omega) hsp2 [] (by simp)
      refine ⟨' ' :: v, l', ?_, ?_, h3⟩
      · have e : a ++ (s1 ++ '\n' :: s2) ++ T = (a ++ s1) ++ '\n' :: ([] ++ s2 ++ T) := by simp
        rw [e, join_lines (by simp [ha, hn]), h1, strip_blankEnd a hsp1]
        rw [show strip [] = [] from rfl]
        simp
      · intro c hc
        simp only [List.mem_cons] at hc
        rcases hc with rfl | hc
        · rfl
        · exact h2 c hc

/-- joining the lines changes the white space only -/
theorem join_bits : ∀ (l : List Bit) (b : Before) (a : Str), (∀ x ∈ l, bitOk x) → spaced b l = true →
    ¬ (l.getLast?).any Bit.isWhite = true → '\n' ∉ a → (b = .solid ∨ b = .closed → ∃ c ∈ a, isSpace c = false) →
    (l = [] → ∀ c, a.getLast? = some c → isSpace c = false) →
    ∃ l', l.map shape = l'.map shape ∧ (∀ x ∈ l', bitOk x) ∧
      joinStripped (a ++ bitsText l) = (if (l.head?).any Bit.isWhite then strip a else lstrip a) ++ bitsText l' := by
  intro l
  induction l with
  | nil =>
    intro b a _ _ _ ha _ he
    refine ⟨[], rfl, by simp, ?_⟩
    have he' := he rfl
    simp only [bitsText, List.flatMap_nil, List.append_nil, List.head?_nil, Option.any_none, Bool.false_eq_true, if_false]
    rw [join_line ha, strip, rstrip]
    refine dropEndWhile_last ?_
    intro c hc
    cases a with
    | nil => simp [lstrip] at hc
    | cons d a =>
      refine he' c ?_
      have : ∃ u, d :: a = u ++ lstrip (d :: a) := ⟨(d :: a).takeWhile isSpace, by unfold lstrip; rw [List.takeWhile_append_dropWhile]⟩
      obtain ⟨u, hu⟩ := this
      rw [hu, List.getLast?_append, hc]; rfl
  | cons x l ih =>
    intro b a hok hs hlast ha hsol _
    have hok' : ∀ y ∈ l, bitOk y := fun y hy => hok y (by simp [hy])
    have hlast' : ¬ (l.getLast?).any Bit.isWhite = true := by
      cases l with
      | nil => simp
      | cons y l => simpa using hlast
    -- a part whose text begins and ends with something else than a blank
    have solidCase : ∀ (t : Str) (b' : Before), t ≠ [] → (∀ c, t.head? = some c → isSpace c = false) →
        (∀ c, t.getLast? = some c → isSpace c = false) → '\n' ∉ t → x.text = t → x.isWhite = false → spaced b' l = true →
        ∃ l', (x :: l).map shape = l'.map shape ∧ (∀ x ∈ l', bitOk x) ∧
          joinStripped (a ++ bitsText (x :: l)) = (if ((x :: l).head?).any Bit.isWhite then strip a else lstrip a) ++ bitsText l' := by
      intro t b' hne h1 h2 h3 hx hw hs'
      have hex : ∃ c ∈ a ++ t, isSpace c = false := by
        cases t with
        | nil => exact absurd rfl hne
        | cons c t => exact ⟨c, by simp, h1 c rfl⟩
      obtain ⟨l', k1, k2, k3⟩ := ih b' (a ++ t) hok' hs' hlast' (by simp [ha, h3]) (fun _ => hex) (by
        intro _ c hc
        refine h2 c ?_
        rw [List.getLast?_append] at hc
        cases ht : t.getLast? with
        | none => simp at ht; exact absurd ht hne
        | some d => rw [ht] at hc; exact hc)
      have e : a ++ bitsText (x :: l) = (a ++ t) ++ bitsText l := by simp [bitsText, hx]
      simp only [List.head?_cons, Option.any_some, hw, Bool.false_eq_true, if_false]
      rw [e, k3]
      -- the white space that follows keeps what `strip` removes
      refine ⟨x :: l', by simp [k1], ?_, ?_⟩
      · intro y hy
        simp only [List.mem_cons] at hy
        rcases hy with rfl | hy
        · exact hok y (by simp)
        · exact k2 y hy
      · have hst : strip (a ++ t) = lstrip (a ++ t) := by
          rw [lstrip_solid h1, strip, rstrip, lstrip_solid h1]
          refine dropEndWhile_last ?_
          intro c hc
          refine h2 c ?_
          rw [List.getLast?_append] at hc
          cases ht : t.getLast? with
          | none => simp at ht; exact absurd ht hne
          | some d => rw [ht] at hc; exact hc
        have : (if (l.head?).any Bit.isWhite then strip (a ++ t) else lstrip (a ++ t)) = lstrip a ++ t := by
          rw [hst, lstrip_solid h1]; split <;> rfl
        rw [this]
        simp [bitsText, hx]
    cases x with
    | chr c =>
      cases hc : isSpace c with
      | false =>
        have hs' : spaced .solid l = true := by simpa [spaced, hc] using hs
        refine solidCase (textChar c) .solid (textChar_ne c) ?_ ?_ ?_ rfl rfl hs'
        · intro d hd; exact (textChar_solid hc d (List.mem_of_head? hd)).1
        · intro d hd; exact (textChar_solid hc d (List.mem_of_getLast? hd)).1
        · intro hn
          have := (textChar_solid hc _ hn).1
          simp [isSpace] at this
      | true =>
        have hs' := hs
        simp only [spaced, hc, if_true, Bool.and_eq_true, beq_iff_eq, Bool.or_eq_true] at hs'
        obtain ⟨⟨⟨rfl, hbb⟩, hab⟩, hs2⟩ := hs'
        have hex := hsol hbb
        have hw0 := (afterBlank_noSp hok' hab).2
        obtain ⟨l', k1, k2, k3⟩ := ih .tight (a ++ [' ']) hok' hs2 hlast' (by simp [ha]) (by simp)
          (by rintro rfl; simp [afterBlank] at hab)
        refine ⟨.chr ' ' :: l', by simp [k1], ?_, ?_⟩
        · intro y hy
          simp only [List.mem_cons] at hy
          rcases hy with rfl | hy
          · trivial
          · exact k2 y hy
        · have e : a ++ bitsText (.chr ' ' :: l) = (a ++ [' ']) ++ bitsText l := by simp [bitsText, Bit.text, textChar_blank]
          rw [e, k3]
          simp only [hw0, List.head?_cons, Option.any_some, Bit.isWhite, Bool.false_eq_true, if_false]
          rw [lstrip_nonblank hex]
          simp [bitsText, Bit.text, textChar_blank]
    | ref s =>
      have hr : s ≠ [] ∧ ∀ d ∈ s, isSpace d = false ∧ d ≠ '<' := hok (.ref s) (by simp)
      refine solidCase s .solid hr.1 ?_ ?_ ?_ rfl rfl (by simpa [spaced] using hs)
      · intro d hd; exact (hr.2 d (List.mem_of_head? hd)).1
      · intro d hd; exact (hr.2 d (List.mem_of_getLast? hd)).1
      · intro hn
        have := (hr.2 _ hn).1
        simp [isSpace] at this
    | tag k T =>
      obtain ⟨e, name, m, se, hp⟩ := TagOf.parts (hok (.tag k T) (by simp))
      have hs' : ∃ b', spaced b' l = true := by cases k <;> exact ⟨_, by simpa [spaced] using hs⟩
      obtain ⟨b', hs'⟩ := hs'
      refine solidCase T b' (by rw [hp.text]; simp) ?_ ?_ hp.noLine rfl rfl hs'
      · intro c hc
        have := hp.head (w2 := [])
        rw [List.append_nil, hc] at this
        simp at this; subst this; rfl
      · intro c hc
        have := hp.last (w := [])
        rw [List.nil_append, hc] at this
        simp at this; subst this; rfl
    | white s =>
      have hws : ∀ c ∈ s, isSpace c = true := hok (.white s) (by simp)
      have hne : l ≠ [] := by rintro rfl; simp [Bit.isWhite] at hlast
      have hs' : spaced .block l = true := by
        simp only [spaced, Bool.and_eq_true, Bool.or_eq_true, beq_iff_eq] at hs
        rcases hs.1 with rfl | h
        · exact hs.2
        · exact spaced_atBlock l b hs.2 h.2
      have key : ∀ a, '\n' ∉ a → ∃ v l', joinStripped (a ++ bitsText l) = strip a ++ v ++ bitsText l' ∧
          (∀ c ∈ v, isSpace c = true) ∧ (l.map shape = l'.map shape ∧ ∀ x ∈ l', bitOk x) := by
        intro a ha
        obtain ⟨l', k1, k2, k3⟩ := ih .block a hok' hs' hlast' ha (by simp) (fun h => absurd h hne)
        obtain ⟨v, h1, h2⟩ := lstrip_strip a
        by_cases hw : (l.head?).any Bit.isWhite = true
        · exact ⟨[], l', by rw [k3, if_pos hw]; simp, by simp, k1, k2⟩
        · exact ⟨v, l', by rw [k3, if_neg hw, h1], h2, k1, k2⟩
      obtain ⟨v, l', k1, k2, k3, k4⟩ := join_white key s.length s (Nat.le_refl _) hws a ha
      refine ⟨.white v :: l', by simp [shape, k3], ?_, ?_⟩
      · intro y hy
        simp only [List.mem_cons] at hy
        rcases hy with rfl | hy
        · exact k2
        · exact k4 y hy
      · have e : a ++ bitsText (.white s :: l) = a ++ s ++ bitsText l := by simp [bitsText, Bit.text]
        rw [e, k1]
        simp [Bit.isWhite, bitsText, Bit.text]

/-- a document begins and ends with something else than a blank -/
theorem strip_bits {l : List Bit} (hok : ∀ x ∈ l, bitOk x) (hs : spaced .block l = true) (ht : bareEdges l = true) :
    strip (bitsText l) = bitsText l := by
  simp only [bareEdges, Bool.and_eq_true, Bool.not_eq_true'] at ht
  refine strip_id ?_ ?_
  · intro c hc
    cases l with
    | nil => simp [bitsText] at hc
    | cons x l =>
      have : noSp (bitsText (x :: l)) = true := by
        cases x with
        | chr d =>
          refine noSp_chr ?_ l
          cases hd : isSpace d with
          | false => rfl
          | true => simp [spaced, hd] at hs
        | tag k T => exact noSp_tag (hok (.tag k T) (by simp)) l
        | ref s => exact noSp_ref (hok (.ref s) (by simp)) l
        | white s => simp [Bit.isWhite] at ht
      rw [noSp, hc] at this
      simpa using this
  · have key : ∀ (l : List Bit) (b : Before), (∀ x ∈ l, bitOk x) → spaced b l = true → (l.getLast?).any Bit.isWhite = false →
        ∀ c, (bitsText l).getLast? = some c → isSpace c = false := by
      intro l
      induction l with
      | nil => intro b _ _ _ c hc; simp [bitsText] at hc
      | cons x l ih =>
        intro b hok hs hl c hc
        have hc' : ((bitsText l).getLast?).or x.text.getLast? = some c := by
          rw [← hc, show bitsText (x :: l) = x.text ++ bitsText l from by simp [bitsText], List.getLast?_append]
        have hok' : ∀ y ∈ l, bitOk y := fun y hy => hok y (by simp [hy])
        cases hl' : (bitsText l).getLast? with
        | some d =>
          rw [hl'] at hc'
          simp at hc'
          subst hc'
          have hs' : ∃ b', spaced b' l = true := by
            cases x with
            | chr e =>
              by_cases he : isSpace e = true
              · simp [spaced, he] at hs; exact ⟨_, hs.2⟩
              · simp [spaced, he] at hs; exact ⟨_, hs⟩
            | white s => simp [spaced] at hs; exact ⟨_, hs.2⟩
            | tag k T => cases k <;> exact ⟨_, by simpa [spaced] using hs⟩
            | ref s => exact ⟨.solid, by simpa [spaced] using hs⟩
          obtain ⟨b', hs'⟩ := hs'
          refine ih b' hok' hs' ?_ d hl'
          cases l with
          | nil => rfl
          | cons y l => simpa using hl
        | none =>
          rw [hl'] at hc'
          simp only [Option.none_or] at hc'
          cases x with
          | chr e =>
            cases he : isSpace e with
            | false => exact (textChar_solid he c (List.mem_of_getLast? hc')).1
            | true =>
              exfalso
              simp [spaced, he] at hs
              have := (afterBlank_noSp hok' hs.1.2).2
              cases l with
              | nil => simp [afterBlank] at hs
              | cons y l =>
                cases y with
                | chr d =>
                  simp only [bitsText, List.flatMap_cons, List.getLast?_eq_none_iff, List.append_eq_nil_iff] at hl'
                  exact textChar_ne d hl'.1
                | white s => simp [afterBlank] at hs
                | ref s =>
                  simp only [bitsText, List.flatMap_cons, List.getLast?_eq_none_iff, List.append_eq_nil_iff] at hl'
                  exact (hok' (.ref s) (by simp) : s ≠ [] ∧ _).1 hl'.1
                | tag k T =>
                  simp only [bitsText, List.flatMap_cons, List.getLast?_eq_none_iff, List.append_eq_nil_iff] at hl'
                  have := (hok' (.tag k T) (by simp) : TagOf k T).head (s := [])
                  rw [show T = [] from hl'.1] at this
                  simp at this
          | ref s => exact ((hok (.ref s) (by simp) : s ≠ [] ∧ ∀ d ∈ s, isSpace d = false ∧ d ≠ '<').2 c (List.mem_of_getLast? hc')).1
          | tag k T =>
            obtain ⟨e, name, m, se, hp⟩ := TagOf.parts (hok (.tag k T) (by simp))
            have := hp.last (w := [])
            rw [List.nil_append, show T.getLast? = some c from hc'] at this
            simp at this; subst this; rfl
          | white s =>
            exfalso
            cases l with
            | nil => simp [Bit.isWhite] at hl
            | cons y l =>
              -- something follows the white space
              have : ∀ (l : List Bit), (∀ x ∈ l, bitOk x) → l ≠ [] → (l.getLast?).any Bit.isWhite = false → bitsText l ≠ [] := by
                intro l
                induction l with
                | nil => intro _ h; exact absurd rfl h
                | cons y l ih2 =>
                  intro hok _ hl h
                  simp only [bitsText, List.flatMap_cons, List.append_eq_nil_iff] at h
                  cases l with
                  | nil =>
                    cases y with
                    | chr d => exact textChar_ne d h.1
                    | white s => simp [Bit.isWhite] at hl
                    | ref s => exact (hok (.ref s) (by simp) : s ≠ [] ∧ _).1 h.1
                    | tag k T =>
                      have := (hok (.tag k T) (by simp) : TagOf k T).head (s := [])
                      rw [show T = [] from h.1] at this
                      simp at this
                  | cons z l => exact ih2 (fun x hx => hok x (by simp [hx])) (by simp) (by simpa using hl) h.2
              refine this (y :: l) hok' (by simp) (by simpa using hl) ?_
              simpa using hl'
    exact key l .block hok hs ht.2

/-- `strip_html` on a document whose blanks are in order -/
theorem stripHtml_bits {l : List Bit} (hok : ∀ x ∈ l, bitOk x) (hs : spaced .block l = true) (ht : bareEdges l = true) :
    stripHtml (bitsText l) = bitsText (clean l) := by
  unfold stripHtml
  rw [strip_bits hok hs ht]
  have ht' := ht
  simp only [bareEdges, Bool.and_eq_true, Bool.not_eq_true'] at ht'
  obtain ⟨l', k1, k2, k3⟩ := join_bits l .block [] hok hs (by simp [ht'.2]) (by simp) (by simp) (by simp)
  have e : joinStripped (bitsText l) = bitsText l' := by
    rw [List.nil_append] at k3
    rw [k3]
    have : (if (l.head?).any Bit.isWhite then strip [] else lstrip []) = [] := by split <;> rfl
    rw [this]; rfl
  rw [e, clean_same k1]
  have hw : ¬ (l'.head?).any Bit.isWhite = true := by
    have h1 := ht'.1
    cases l with
    | nil => cases l' with | nil => simp | cons y l' => simp at k1
    | cons x l =>
      cases l' with
      | nil => simp
      | cons y l' =>
        simp only [List.map_cons, List.cons.injEq] at k1
        cases x <;> cases y <;> simp [shape, Bit.isWhite] at k1 h1 ⊢
  have := strips_bits l'.length l' (Nat.le_refl _) .block k2 (by rw [← spaced_same k1]; exact hs) (fun _ => hw) none
  rw [← this]
  unfold Re.sub Re.scan
  congr
  funext x
  cases x <;> rfl

end Verif.Html
