import Verif.Creole.InlineScan
import Verif.Py.StripLemmas

/-!
# What the expressions for macros match
-/

namespace Verif.Creole

open Verif Re Py Spec Spec.Cr

theorem word_ne {c d : Char} (h : isWord c = true) (hd : isWord d = false) : c ≠ d := by
  rintro rfl; rw [h] at hd; cases hd

theorem takeWhile_true {p : Char → Bool} {s : Str} {c : Char} (hc : c ∈ s.takeWhile p) : p c = true :=
  List.all_eq_true.1 (List.all_takeWhile (p := p) (l := s)) c hc

/-- the expression of macros with a text -/
def macRule (g gs ga gt : G) : R := .grp g <| cat [
  lit c!"<<", sps, .grp gs (.plus true (.cls .word)), sps,
  .grp ga anyDots, sps, lit c!">>", .grp gt (.star false anyChar),
  lit c!"<</", sps, .bref gs, sps, lit c!">>"]

theorem macroInline_mac : macroInlineRule = macRule .macro_inline .macro_inline_start .macro_inline_args .macro_inline_text := rfl
theorem macroBlock_mac : macroBlockRule = macRule .macro_block .macro_block_start .macro_block_args .macro_block_text := rfl

/-- the expression of an end tag -/
def endRe (gs : G) : R := cat [lit c!"<</", sps, .bref gs, sps, lit c!">>"]

/-! ## End tags -/

/-- an end tag stands at the beginning of the text -/
def EndHere (n s : Str) : Prop := ∃ a b r, s = c!"<</" ++ (a ++ (n ++ (b ++ (c!">>" ++ r)))) ∧
  (∀ c ∈ a, isSpace c = true) ∧ (∀ c ∈ b, isSpace c = true)

theorem endTag_iff {n s : Str} (hn : ∀ c, n.head? = some c → isSpace c = false) (hne : n ≠ []) :
    endTag n s = true ↔ EndHere n s := by
  constructor
  · intro h
    simp only [endTag, Bool.and_eq_true, List.isPrefixOf_iff_prefix] at h
    obtain ⟨⟨⟨t, rfl⟩, h2⟩, h3⟩ := h
    have e : (c!"<</" ++ t).drop 3 = t := rfl
    rw [e] at h2 h3
    obtain ⟨u, hu⟩ := h2
    rw [← hu] at h3
    rw [List.drop_left] at h3
    obtain ⟨v, hv⟩ := h3
    refine ⟨t.takeWhile isSpace, u.takeWhile isSpace, v, ?_, ?_, ?_⟩
    · rw [hv, List.takeWhile_append_dropWhile, hu, List.takeWhile_append_dropWhile]
    · intro c hc; exact takeWhile_true hc
    · intro c hc; exact takeWhile_true hc
  · rintro ⟨a, b, r, rfl, ha, hb⟩
    have e : (c!"<</" ++ (a ++ (n ++ (b ++ (c!">>" ++ r))))).drop 3 = a ++ (n ++ (b ++ (c!">>" ++ r))) := rfl
    have e2 : (a ++ (n ++ (b ++ (c!">>" ++ r)))).dropWhile isSpace = n ++ (b ++ (c!">>" ++ r)) := by
      rw [dropWhile_all ha]
      cases n with
      | nil => exact absurd rfl hne
      | cons c n => simp [hn c rfl]
    have e3 : (b ++ (c!">>" ++ r)).dropWhile isSpace = c!">>" ++ r := by
      rw [dropWhile_all hb]; rfl
    simp only [endTag, e, e2, List.drop_left, e3, Bool.and_eq_true, List.isPrefixOf_iff_prefix]
    exact ⟨⟨⟨_, rfl⟩, ⟨_, rfl⟩⟩, ⟨_, rfl⟩⟩

theorem hasEnd_false {n : Str} (hn : ∀ c, n.head? = some c → isSpace c = false) (hne : n ≠ []) : ∀ {s : Str}, hasEnd n s = false →
    ∀ u v, s = u ++ v → ¬ EndHere n v := by
  intro s
  induction s with
  | nil =>
    rintro _ u v huv ⟨a, b, r, rfl, _⟩
    simp at huv
  | cons c s ih =>
    intro h u v huv hv
    simp only [hasEnd, Bool.or_eq_false_iff] at h
    cases u with
    | nil =>
      have := (endTag_iff hn hne).mpr hv
      rw [List.nil_append] at huv
      rw [← huv, h.1] at this; cases this
    | cons d u =>
      simp only [List.cons_append, List.cons.injEq] at huv
      exact ih h.2 u v huv.2 hv

/-- the end tag of a macro does not begin inside its text and end behind it -/
theorem endHere_inside {n v s : Str} (hw : ∀ c ∈ n, isWord c = true) (hv : v ≠ []) (h : EndHere n (v ++ (c!"<</" ++ s))) :
    EndHere n v := by
  obtain ⟨a, b, r, he, ha, hb⟩ := h
  have hx : ∀ c ∈ a ++ (n ++ (b ++ c!">>")), c ≠ '<' := by
    intro c hc
    simp only [List.mem_append, List.mem_cons, List.not_mem_nil, or_false, or_self] at hc
    rcases hc with hc | hc | hc | rfl
    · rintro rfl; exact absurd (ha _ hc) (by decide)
    · exact word_ne (hw c hc) (by decide)
    · rintro rfl; exact absurd (hb _ hc) (by decide)
    · decide
  have he' : v ++ (c!"<</" ++ s) = (c!"<</" ++ (a ++ (n ++ (b ++ c!">>")))) ++ r := by rw [he]; simp
  rw [List.append_eq_append_iff] at he'
  rcases he' with ⟨y, h1, h2⟩ | ⟨y, h1, h2⟩
  · -- the tag ends behind the text
    cases y with
    | nil =>
      rw [List.append_nil] at h1
      exact ⟨a, b, [], by rw [← h1]; simp, ha, hb⟩
    | cons c y =>
    exfalso
    simp only [List.cons_append, List.nil_append, List.cons.injEq] at h2
    obtain ⟨rfl, h2⟩ := h2
    match v, hv, h1 with
    | [x], _, h1 =>
      simp only [List.cons_append, List.nil_append, List.cons.injEq] at h1
      obtain ⟨rfl, _, rfl⟩ := h1
      simp at h2
    | [x, x'], _, h1 =>
      simp only [List.cons_append, List.nil_append, List.cons.injEq] at h1
      exact absurd h1.2.2.1 (by decide)
    | x :: x' :: x'' :: v, _, h1 =>
      simp only [List.cons_append, List.nil_append, List.cons.injEq] at h1
      exact hx '<' (by rw [h1.2.2.2]; simp) rfl
  · refine ⟨a, b, y, ?_, ha, hb⟩
    rw [h1]; simp

theorem lit_mem {w : Str} {s x : St G} (h : x ∈ (lit w : R).res s) : s.rest = w ++ x.rest ∧ x.caps = s.caps := by
  by_cases hp : ∃ t, s.rest = w ++ t
  · obtain ⟨t, ht⟩ := hp
    have e : s = ⟨s.prev, w ++ t, s.caps⟩ := by rw [← ht]
    rw [e, Re.res_lit] at h
    simp only [List.mem_singleton] at h
    subst h
    exact ⟨ht, rfl⟩
  · exfalso
    have e : s = ⟨s.prev, s.rest, s.caps⟩ := rfl
    rw [e, Re.res_lit_nil w s.prev s.rest s.caps (fun t ht => hp ⟨t, ht⟩)] at h
    simp at h

theorem endRe_mem {gs : G} {s x : St G} {n : Str} (hn : capGet gs s.caps = some n) (h : x ∈ (endRe gs).res s) :
    EndHere n s.rest := by
  replace h : x ∈ (Re.seq (lit c!"<</") (.seq sps (.seq (.bref gs) (.seq sps (lit c!">>")))) : R).res s := h
  rw [mem_res_seq] at h
  obtain ⟨s1, h1, h⟩ := h
  rw [mem_res_seq] at h
  obtain ⟨s2, h2, h⟩ := h
  rw [mem_res_seq] at h
  obtain ⟨s3, h3, h⟩ := h
  rw [mem_res_seq] at h
  obtain ⟨s4, h4, h⟩ := h
  obtain ⟨e1, c1⟩ := lit_mem h1
  obtain ⟨a, e2, ha, c2, _⟩ := mem_sps h2
  rw [mem_res_bref] at h3
  obtain ⟨w, p, r, h5, h6, rfl⟩ := h3
  have h7 := eatStr_some h6
  rw [c2, c1, hn] at h5
  simp only [Option.some.injEq] at h5
  subst h5
  obtain ⟨b, e4, hb, c4, _⟩ := mem_sps h4
  obtain ⟨e5, _⟩ := lit_mem h
  simp only at e4
  exact ⟨a, b, x.rest, by rw [e1, e2, h7, e4, e5], ha, hb⟩

theorem eatStr_self : ∀ (w : Str) (p : Option Char) (r : Str), eatStr w p (w ++ r) = some ((w.getLast?).or p, r) := by
  intro w
  induction w with
  | nil => intro p r; rfl
  | cons c w ih =>
    intro p r
    rw [List.cons_append, eatStr, if_pos (by simp), ih, lastOr w p c]

theorem endRe_head {gs : G} {n rest : Str} {p : Option Char} {caps : List (G × Str)} (hn : capGet gs caps = some n) (hne : n ≠ [])
    (hw : ∀ c ∈ n, isWord c = true) :
    ((endRe gs).res ⟨p, c!"<</" ++ (n ++ (c!">>" ++ rest)), caps⟩).head? = some ⟨some '>', rest, caps⟩ := by
  show ((Re.seq (lit c!"<</") (.seq sps (.seq (.bref gs) (.seq sps (lit c!">>")))) : R).res _).head? = _
  rw [res_seq_one (Re.res_lit _ _ _ _), res_seq_one (sps_none ?_)]
  · have hb : (Re.bref gs : R).res ⟨((c!"<</").getLast?).or p, n ++ (c!">>" ++ rest), caps⟩ =
        [⟨(n.getLast?).or (((c!"<</").getLast?).or p), c!">>" ++ rest, caps⟩] := by
      simp only [Re.res, hn, eatStr_self]
    rw [res_seq_one hb, res_seq_one (sps_none (by intro c t h; simp at h; rw [← h.1]; decide)), Re.res_lit]
    rfl
  · intro c t h
    cases n with
    | nil => exact absurd rfl hne
    | cons d n =>
      simp only [List.cons_append, List.cons.injEq] at h
      rw [← h.1]
      exact word_not_space (hw d (by simp))

/-! ## The name and the arguments -/

/-- a name and what stands between it and `>>` -/
structure NameArgs (n a : Str) : Prop where
  ne : n ≠ []
  word : ∀ c ∈ n, isWord c = true
  stop : ∀ c t, a = c :: t → isWord c = false
  nonl : '\n' ∉ a
  occ : ∀ u v, a = u ++ v → ∀ t, v ++ c!">" ≠ c!">>" ++ t

theorem nameArgs_iff {n a : Str} (hn : nameOk n = true) (ha : argsOk a = true) : NameArgs n a ∧ n ≠ c!"toc" := by
  simp only [nameOk, Bool.and_eq_true, Bool.not_eq_true', bne_iff_ne, ne_eq, List.all_eq_true] at hn
  simp only [argsOk, Bool.and_eq_true, Bool.not_eq_true', List.contains_eq_mem, decide_eq_false_iff_not] at ha
  refine ⟨⟨by rintro rfl; simp at hn, hn.1.2, ?_, ha.1.2, ?_⟩, hn.2⟩
  · rintro c t rfl
    have := ha.1.1
    simpa [nameChar] using this
  · intro u v huv t ht
    exact not_occurs (by simp) ha.2 u (v ++ c!">") (by rw [huv]; simp) t ht

theorem NameArgs.first {n a : Str} (h : NameArgs n a) : ∀ c, n.head? = some c → isSpace c = false := by
  intro c hc
  exact word_not_space (h.word c (List.mem_of_mem_head? hc))

theorem name_head {g : G} {n a rest : Str} {p : Option Char} {caps : List (G × Str)} (h : NameArgs n a) :
    ((Re.grp g (.plus true (.cls .word)) : R).res ⟨p, n ++ (a ++ (c!">>" ++ rest)), caps⟩).head? =
      some ⟨n.getLast?, a ++ (c!">>" ++ rest), (g, n) :: caps⟩ := by
  cases hn : n with
  | nil => exact absurd hn h.ne
  | cons c w =>
    have h1 := Re.head_plus_cls (γ := G) (cs := .word) (caps := caps) (rest := a ++ (c!">>" ++ rest)) (c := c) (w := w) (p := p) ?_
      (by intro d hd; exact h.word d (by rw [hn]; exact hd))
    · have h2 := Re.head_grp (g := g) h1
      have hc := consumed_append (c :: w) (a ++ (c!">>" ++ rest))
      simp only [List.cons_append] at hc h2 ⊢
      simp only [hc] at h2
      exact h2
    · intro d t hd
      cases ha : a with
      | nil =>
        rw [ha] at hd
        simp only [List.nil_append, List.cons_append, List.cons.injEq] at hd
        rw [← hd.1]; decide
      | cons e a' =>
        rw [ha] at hd
        simp only [List.cons_append, List.cons.injEq] at hd
        rw [← hd.1]; exact h.stop e a' ha

theorem step_anyChar : Verif.Step (anyChar : R) (fun _ => true) := by
  refine ⟨fun _ _ => rfl, fun p c r caps => ?_⟩
  by_cases h : c = '\n' <;> simp [Creole.anyChar, dot, ch, Re.res, CSet.mem, h]

/-- a lazy repetition of arbitrary characters in a group takes the shortest text after which the rest matches -/
theorem head_anyText {gt : G} {b : R} {r : Str} {caps : List (G × Str)} {p : Option Char} {y : St G} {w : Str}
    (hf : ∀ u v, w = u ++ v → v ≠ [] → b.res ⟨(u.getLast?).or p, v ++ r, (gt, u) :: caps⟩ = [])
    (hy : (b.res ⟨(w.getLast?).or p, r, (gt, w) :: caps⟩).head? = some y) :
    ((Re.seq (.grp gt (.star false anyChar)) b).res ⟨p, w ++ r, caps⟩).head? = some y := by
  have e : ((Re.seq (.grp gt (.star false anyChar)) b).res ⟨p, w ++ r, caps⟩) =
      ((Re.star false anyChar : R).res ⟨p, w ++ r, caps⟩).flatMap
        fun s' => b.res { s' with caps := (gt, consumed (w ++ r) s'.rest) :: s'.caps } := by
    have h3 : ∀ (a b : R) s, (Re.seq a b).res s = (a.res s).flatMap b.res := fun _ _ _ => rfl
    have h4 : ∀ (g : G) (a : R) s, (Re.grp g a).res s =
      (a.res s).map fun s' => { s' with caps := (g, consumed s.rest s'.rest) :: s'.caps } := fun _ _ _ => rfl
    rw [h3, h4, List.flatMap_map]
  rw [e]
  refine Re.head_lazy step_anyChar w p (fun _ _ => rfl) ?_ ?_
  · intro u v huv hv
    have := hf u v huv hv
    have hcons : consumed (w ++ r) (v ++ r) = u := by
      have := consumed_append u (v ++ r)
      rw [huv]; simpa using this
    simp only [hcons]
    exact this
  · simp only [consumed_append]
    exact hy

theorem dropEnd_parts (s : Str) : ∃ r, s = dropEndWhile isSpace s ++ r ∧ ∀ c ∈ r, isSpace c = true := by
  induction s with
  | nil => exact ⟨[], rfl, by simp⟩
  | cons c s ih =>
    obtain ⟨r, h1, h2⟩ := ih
    rw [dropEndWhile]
    cases hs : dropEndWhile isSpace s with
    | nil =>
      rw [hs, List.nil_append] at h1
      subst h1
      by_cases hc : isSpace c = true
      · simp only [hc, if_true]
        refine ⟨c :: s, rfl, ?_⟩
        intro d hd
        simp only [List.mem_cons] at hd
        rcases hd with rfl | hd
        · exact hc
        · exact h2 d hd
      · simp only [hc]
        exact ⟨s, rfl, h2⟩
    | cons d ds =>
      rw [hs] at h1
      exact ⟨r, by rw [h1]; rfl, h2⟩

/-- the parts of a text: the blanks at its beginning, the stripped text and the blanks at its end -/
theorem strip_parts (a : Str) : ∃ l r, a = l ++ (strip a ++ r) ∧ (∀ c ∈ l, isSpace c = true) ∧ (∀ c ∈ r, isSpace c = true) ∧
    (strip a = [] → r = []) := by
  obtain ⟨r, h1, h2⟩ := dropEnd_parts (a.dropWhile isSpace)
  have hs : strip a = dropEndWhile isSpace (a.dropWhile isSpace) := rfl
  refine ⟨a.takeWhile isSpace, r, ?_, fun c hc => takeWhile_true hc, h2, ?_⟩
  · rw [hs, ← h1, List.takeWhile_append_dropWhile]
  · intro h0
    rw [hs] at h0
    rw [h0, List.nil_append] at h1
    cases r with
    | nil => rfl
    | cons c r =>
      have := dropWhile_head_false (p := isSpace) a c (by rw [h1]; rfl)
      rw [h2 c (by simp)] at this; cases this

/-- what follows the arguments does not match inside them -/
theorem args_fail {q : R} {w v l2 next : Str} {p : Option Char} {caps : List (G × Str)} (hv : v ≠ [])
    (hlast : ∀ c, v.getLast? = some c → isSpace c = false) (hocc : ∀ u y, v ++ l2 = u ++ y → ∀ t, y ++ c!">" ≠ c!">>" ++ t)
    (hw : w = v ++ (l2 ++ (c!">>" ++ next))) :
    (Re.seq sps (.seq (lit c!">>") q) : R).res ⟨p, w, caps⟩ = [] := by
  have h3 : ∀ (a b : R) s, (Re.seq a b).res s = (a.res s).flatMap b.res := fun _ _ _ => rfl
  rw [h3, List.flatMap_eq_nil_iff]
  intro x hx
  obtain ⟨b, h1, h2, _, _⟩ := mem_sps hx
  simp only at h1
  refine Re.res_seq_nil (Re.res_lit_nil _ _ _ _ ?_)
  intro t ht
  rw [hw, List.append_eq_append_iff] at h1
  obtain ⟨l, hl⟩ : ∃ l, v.getLast? = some l := ⟨v.getLast hv, List.getLast?_eq_some_getLast hv⟩
  have hls := hlast l hl
  rcases h1 with ⟨y, rfl, _⟩ | ⟨y, hy, hyr⟩
  · have := h2 l (by simp [List.mem_of_getLast? hl])
    rw [hls] at this; cases this
  · cases hyn : y with
    | nil =>
      have hvb : v = b := by rw [hy, hyn]; simp
      have := h2 l (by rw [← hvb]; exact List.mem_of_getLast? hl)
      rw [hls] at this; cases this
    | cons c y' =>
      rw [hyr] at ht
      have ht' : (y ++ l2) ++ (c!">>" ++ next) = c!">>" ++ t := by rw [← ht]; simp
      obtain ⟨t', h'⟩ := prefix_dropLast (by rw [hyn]; simp) ht'
      exact hocc b (y ++ l2) (by rw [hy]; simp) t' h'

theorem macRule_head {g gs ga gt : G} {n a t rest : Str} {p : Option Char} (h : NameArgs n a) (hend : hasEnd n t = false)
    (h1 : gs ≠ gt) (h2 : gs ≠ ga) :
    ((macRule g gs ga gt).res ⟨p, c!"<<" ++ (n ++ (a ++ (c!">>" ++ (t ++ (c!"<</" ++ (n ++ (c!">>" ++ rest))))))), []⟩).head? =
      some ⟨some '>', rest, [(g, c!"<<" ++ n ++ a ++ c!">>" ++ t ++ c!"<</" ++ n ++ c!">>"), (gt, t), (ga, strip a), (gs, n)]⟩ := by
  have hcap : ∀ x y : Str, capGet gs [(gt, x), (ga, y), (gs, n)] = some n := by
    intro x y
    simp [capGet, List.lookup, beq_eq_false_iff_ne.mpr h1, beq_eq_false_iff_ne.mpr h2]
  obtain ⟨l, r, ha, hl, hr, hnil⟩ := strip_parts a
  -- the text and the end tag
  have hE : ∀ q : Option Char, ((Re.seq (.grp gt (.star false anyChar)) (endRe gs) : R).res
      ⟨q, t ++ (c!"<</" ++ (n ++ (c!">>" ++ rest))), [(ga, strip a), (gs, n)]⟩).head? =
      some ⟨some '>', rest, [(gt, t), (ga, strip a), (gs, n)]⟩ := by
    intro q
    refine head_anyText ?_ ?_
    · intro u v huv hv
      rw [List.eq_nil_iff_forall_not_mem]
      intro x hx
      have := endRe_mem (hcap _ _) hx
      exact hasEnd_false h.first h.ne hend u v huv (endHere_inside h.word hv this)
    · exact endRe_head (hcap _ _) h.ne h.word
  have hargs : ∀ q : Option Char, ((Re.seq (.grp ga anyDots) (.seq sps (.seq (lit c!">>") (.seq (.grp gt (.star false anyChar)) (endRe gs)))) : R).res
      ⟨q, strip a ++ (r ++ (c!">>" ++ (t ++ (c!"<</" ++ (n ++ (c!">>" ++ rest)))))), [(gs, n)]⟩).head? =
      some ⟨some '>', rest, [(gt, t), (ga, strip a), (gs, n)]⟩ := by
    intro q
    refine head_anyDots (fun hm => h.nonl (by rw [ha]; simp [hm])) ?_ ?_
    · intro u v huv hv
      refine args_fail (l2 := r) hv ?_ ?_ rfl
      · intro c hc
        exact stripP_last a c (last_suffix huv hc)
      · intro x y hxy tt
        refine h.occ (l ++ (u ++ x)) y ?_ tt
        rw [ha, huv, List.append_assoc u, hxy]; simp
    · refine Re.head_seq (Re.head_star_cls (cs := .space) ?_ r _ hr) ?_
      · intro c t hc
        simp only [List.cons_append, List.cons.injEq] at hc
        rw [← hc.1]; decide
      · rw [res_seq_one (Re.res_lit _ _ _ _)]
        exact hE _
  have h0 : ((lit c!"<<" : R).res ⟨p, c!"<<" ++ (n ++ (a ++ (c!">>" ++ (t ++ (c!"<</" ++ (n ++ (c!">>" ++ rest))))))), []⟩).head? =
      some ⟨some '<', n ++ (a ++ (c!">>" ++ (t ++ (c!"<</" ++ (n ++ (c!">>" ++ rest)))))), []⟩ := by rw [Re.res_lit]; rfl
  have hsp : ((sps : R).res ⟨some '<', n ++ (a ++ (c!">>" ++ (t ++ (c!"<</" ++ (n ++ (c!">>" ++ rest)))))), []⟩).head? =
      some ⟨some '<', n ++ (a ++ (c!">>" ++ (t ++ (c!"<</" ++ (n ++ (c!">>" ++ rest)))))), []⟩ := by
    rw [sps_none]; rfl
    intro c t' hc
    cases hn : n with
    | nil => exact absurd hn h.ne
    | cons d n' =>
      rw [hn] at hc
      simp only [List.cons_append, List.cons.injEq] at hc
      rw [← hc.1]; exact h.first d (by rw [hn]; rfl)
  have hsp2 : ∀ q : Option Char, ((sps : R).res ⟨q, a ++ (c!">>" ++ (t ++ (c!"<</" ++ (n ++ (c!">>" ++ rest))))), [(gs, n)]⟩).head? =
      some ⟨(l.getLast?).or q, strip a ++ (r ++ (c!">>" ++ (t ++ (c!"<</" ++ (n ++ (c!">>" ++ rest)))))), [(gs, n)]⟩ := by
    intro q
    have e : a ++ (c!">>" ++ (t ++ (c!"<</" ++ (n ++ (c!">>" ++ rest))))) =
        l ++ (strip a ++ (r ++ (c!">>" ++ (t ++ (c!"<</" ++ (n ++ (c!">>" ++ rest))))))) := by
      conv => lhs; rw [ha]
      simp
    rw [e]
    refine Re.head_star_cls (cs := .space) ?_ l q hl
    intro c t' hc
    cases hs : strip a with
    | nil =>
      rw [hs, hnil hs] at hc
      simp only [List.nil_append, List.cons_append, List.cons.injEq] at hc
      rw [← hc.1]; decide
    | cons d s' =>
      rw [hs] at hc
      simp only [List.cons_append, List.cons.injEq] at hc
      rw [← hc.1]; exact stripP_head (p := isSpace) a d (by rw [← strip_eq_stripP, hs]; rfl)
  have h3 := Re.head_grp (g := g) (Re.head_seq h0 (Re.head_seq hsp (Re.head_seq (name_head h) (Re.head_seq (hsp2 _) (hargs _)))))
  have hc := consumed_append (c!"<<" ++ n ++ a ++ c!">>" ++ t ++ c!"<</" ++ n ++ c!">>") rest
  simp only [List.append_assoc] at hc
  simp only [hc] at h3
  simpa [macRule, cat, endRe] using h3

/-- without an end tag there is no macro with a text -/
theorem macRule_nil {g gs ga gt : G} {n a next : Str} {p : Option Char} (h : NameArgs n a)
    (hend : ∀ k, k < n.length → hasEnd (n.take (k + 1)) next = false) (h1 : gs ≠ gt) (h2 : gs ≠ ga) :
    (macRule g gs ga gt).res ⟨p, c!"<<" ++ (n ++ (a ++ (c!">>" ++ next))), []⟩ = [] := by
  refine res_grp_nil ?_
  rw [List.eq_nil_iff_forall_not_mem]
  intro x hx
  replace hx : x ∈ (Re.seq (lit c!"<<") (.seq sps (.seq (.grp gs (.plus true (.cls .word))) (.seq sps
    (.seq (.grp ga anyDots) (.seq sps (.seq (lit c!">>") (.seq (.grp gt (.star false anyChar)) (endRe gs)))))))) : R).res _ := hx
  rw [mem_res_seq] at hx
  obtain ⟨s1, m1, hx⟩ := hx
  rw [mem_res_seq] at hx
  obtain ⟨s2, m2, hx⟩ := hx
  rw [mem_res_seq] at hx
  obtain ⟨s3, m3, hx⟩ := hx
  rw [mem_res_seq] at hx
  obtain ⟨s4, m4, hx⟩ := hx
  rw [mem_res_seq] at hx
  obtain ⟨s5, m5, hx⟩ := hx
  rw [mem_res_seq] at hx
  obtain ⟨s6, m6, hx⟩ := hx
  rw [mem_res_seq] at hx
  obtain ⟨s7, m7, hx⟩ := hx
  rw [mem_res_seq] at hx
  obtain ⟨s8, m8, hx⟩ := hx
  rw [Re.res_lit] at m1
  simp only [List.mem_singleton] at m1
  subst m1
  rw [sps_none] at m2
  · simp only [List.mem_singleton] at m2
    subst m2
    rw [mem_res_grp] at m3
    obtain ⟨u, hu, rfl⟩ := m3
    obtain ⟨w, hw1, hw2, hw3, hw4⟩ : ∃ w, n ++ (a ++ (c!">>" ++ next)) = w ++ u.rest ∧ w ≠ [] ∧ (∀ c ∈ w, isWord c = true) ∧ u.caps = [] := by
      replace hu : u ∈ (Re.seq (.cls .word) (.star true (.cls .word)) : R).res _ := hu
      rw [mem_res_seq] at hu
      obtain ⟨v, hv, hu⟩ := hu
      rw [mem_res_cls] at hv
      obtain ⟨c, r, e1, e2, rfl⟩ := hv
      simp only at e1
      have : ∀ {k : Nat} {s : St G}, u ∈ starR true (Re.cls .word : R).res k s →
          ∃ w, s.rest = w ++ u.rest ∧ (∀ c ∈ w, isWord c = true) ∧ u.caps = s.caps := by
        intro k s hm
        refine mem_starR_induct (P := fun s => ∃ w, s.rest = w ++ u.rest ∧ (∀ c ∈ w, isWord c = true) ∧ u.caps = s.caps)
          ⟨[], by simp⟩ ?_ hm
        intro s t ht hp
        rw [mem_res_cls] at ht
        obtain ⟨c, r, f1, f2, rfl⟩ := ht
        obtain ⟨w, f3, f4, f5⟩ := hp
        refine ⟨c :: w, by rw [f1, List.cons_append]; simp at f3; rw [f3], ?_, f5⟩
        intro d hd
        simp only [List.mem_cons] at hd
        rcases hd with rfl | hd
        · exact f2
        · exact f4 d hd
      obtain ⟨w, f1, f2, f3⟩ := this hu
      simp only at f1 f3
      refine ⟨c :: w, by rw [e1, f1]; rfl, by simp, ?_, f3⟩
      intro d hd
      simp only [List.mem_cons] at hd
      rcases hd with rfl | hd
      · exact e2
      · exact f2 d hd
    -- the name is a beginning of the name that is written
    obtain ⟨w', hw'⟩ : ∃ w', n = w ++ w' := by
      rw [List.append_eq_append_iff] at hw1
      rcases hw1 with ⟨y, e1, e2⟩ | ⟨y, e1, _⟩
      · cases y with
        | nil => exact ⟨[], by rw [e1]; simp⟩
        | cons c y =>
          exfalso
          have hc : isWord c = true := hw3 c (by rw [e1]; simp)
          cases ha : a with
          | nil =>
            rw [ha] at e2
            simp only [List.nil_append, List.cons_append, List.cons.injEq] at e2
            exact word_ne hc (d := '>') (by decide) e2.1.symm
          | cons e a' =>
            rw [ha] at e2
            simp only [List.cons_append, List.cons.injEq] at e2
            have := h.stop e a' ha
            rw [e2.1, hc] at this; cases this
      · exact ⟨y, e1⟩
    have hrest : u.rest = w' ++ (a ++ (c!">>" ++ next)) := by
      rw [hw'] at hw1
      simp only [List.append_assoc] at hw1
      exact (List.append_cancel_left hw1).symm
    -- what is read between the name and the first closing mark
    obtain ⟨b4, e4, _, c4, _⟩ := mem_sps m4
    rw [mem_res_grp] at m5
    obtain ⟨u5, hu5, rfl⟩ := m5
    obtain ⟨b5, e5⟩ := Re.res_reach hu5
    have c5 : u5.caps = s4.caps := by
      have : ∀ {k : Nat} {s : St G}, u5 ∈ starR false (Re.cls .dot : R).res k s → u5.caps = s.caps := by
        intro k s hm
        refine mem_starR_induct (P := fun s => u5.caps = s.caps) rfl ?_ hm
        intro s t ht hp
        rw [mem_res_cls] at ht
        obtain ⟨c, r, f1, f2, rfl⟩ := ht
        exact hp
      exact this hu5
    obtain ⟨b6, e6, _, c6, _⟩ := mem_sps m6
    obtain ⟨e7, c7⟩ := lit_mem m7
    rw [mem_res_grp] at m8
    obtain ⟨u8, hu8, rfl⟩ := m8
    obtain ⟨b8, e8⟩ := Re.res_reach hu8
    have c8 : u8.caps = s7.caps := by
      have : ∀ {k : Nat} {s : St G}, u8 ∈ starR false (anyChar : R).res k s → u8.caps = s.caps := by
        intro k s hm
        refine mem_starR_induct (P := fun s => u8.caps = s.caps) rfl ?_ hm
        intro s t ht hp
        obtain ⟨p, r, cp⟩ := s
        cases r with
        | nil => rw [step_anyChar.nil] at ht; simp at ht
        | cons c r =>
          rw [step_anyChar.cons] at ht
          simp only [if_true, List.mem_singleton] at ht
          subst ht
          exact hp
      exact this hu8
    have hcons : consumed (n ++ (a ++ (c!">>" ++ next))) u.rest = w := by rw [hw1, consumed_append]
    have hEnd := endRe_mem (n := w) (gs := gs) (by
      simp only [c8, c7, c6, c5, c4, hw4, hcons]
      simp [capGet, List.lookup, beq_eq_false_iff_ne.mpr h1, beq_eq_false_iff_ne.mpr h2]) hx
    simp only at hEnd
    have e8' := e8.rest
    have e5' := e5.rest
    simp only at e4 e6 e7
    -- everything read before the closing mark
    have hall : w' ++ (a ++ (c!">>" ++ next)) = (b4 ++ (b5 ++ b6)) ++ (c!">>" ++ (b8 ++ u8.rest)) := by
      rw [← hrest, e4, e5', e6, e7, e8']; simp
    obtain ⟨y, hy⟩ : ∃ y, next = y ++ u8.rest := by
      have hall' : (w' ++ a) ++ (c!">>" ++ next) = (b4 ++ (b5 ++ b6)) ++ (c!">>" ++ (b8 ++ u8.rest)) := by rw [← hall]; simp
      rw [List.append_eq_append_iff] at hall'
      rcases hall' with ⟨z, e1, e2⟩ | ⟨z, e1, e2⟩
      · -- the mark stands behind the arguments
        match z, e2 with
        | [], e2 =>
          simp only [List.nil_append, List.cons_append, List.cons.injEq, true_and] at e2
          exact ⟨b8, e2⟩
        | [c], e2 =>
          simp only [List.nil_append, List.cons_append, List.cons.injEq] at e2
          exact ⟨'>' :: b8, by rw [e2.2.2]; rfl⟩
        | c :: d :: z, e2 =>
          simp only [List.nil_append, List.cons_append, List.cons.injEq] at e2
          exact ⟨z ++ ('>' :: '>' :: b8), by rw [e2.2.2]; simp⟩
      · cases hz : z with
        | nil =>
          rw [hz] at e2
          simp only [List.nil_append, List.cons_append, List.cons.injEq, true_and] at e2
          exact ⟨b8, e2.symm⟩
        | cons c z' =>
          exfalso
          have hzne : z ≠ [] := by rw [hz]; simp
          obtain ⟨t', ht'⟩ := prefix_dropLast hzne e2.symm
          -- the mark begins in the name or in the arguments
          rw [List.append_eq_append_iff] at e1
          rcases e1 with ⟨q, _, f2⟩ | ⟨q, f1, f2⟩
          · exact h.occ q z f2 t' ht'
          · cases q with
            | nil =>
              rw [List.nil_append] at f2
              exact h.occ [] z (by rw [f2]; rfl) t' ht'
            | cons d q =>
              have hd : d = '>' := by
                rw [f2] at ht'
                simp only [List.cons_append, List.cons.injEq] at ht'
                exact ht'.1
              exact word_ne (h.word d (by rw [hw', f1]; simp)) (d := '>') (by decide) hd
    have hwlen : 0 < w.length := List.length_pos_iff.mpr hw2
    have hk := hend (w.length - 1) (by rw [hw', List.length_append]; omega)
    have htake : n.take (w.length - 1 + 1) = w := by
      rw [Nat.sub_add_cancel hwlen, hw']; simp
    rw [htake] at hk
    refine hasEnd_false ?_ hw2 hk y u8.rest hy hEnd
    intro c hc
    exact word_not_space (hw3 c (List.mem_of_mem_head? hc))
  · intro c t hc
    cases hn : n with
    | nil => exact absurd hn h.ne
    | cons d n' =>
      rw [hn] at hc
      simp only [List.cons_append, List.cons.injEq] at hc
      rw [← hc.1]; exact h.first d (by rw [hn]; rfl)

/-! ## Macros without a text -/

theorem dropSlashes_parts (a : Str) : ∃ w b sl, a = w ++ (b ++ sl) ∧ (∀ c ∈ b, isSpace c = true) ∧ (∀ c ∈ sl, c = '/') ∧
    (∀ c, w.getLast? = some c → isSpace c = false ∧ (b = [] → c ≠ '/')) ∧ strip w = strip (dropSlashes a) := by
  obtain ⟨b, h1, h2⟩ := dropEnd_parts (dropSlashes a)
  refine ⟨dropEndWhile isSpace (dropSlashes a), b, (a.reverse.takeWhile (· == '/')).reverse, ?_, h2, ?_, ?_, ?_⟩
  · have := List.takeWhile_append_dropWhile (p := (· == '/')) (l := a.reverse)
    have h3 := congrArg List.reverse this
    rw [List.reverse_append, List.reverse_reverse] at h3
    rw [← List.append_assoc, ← h1]
    exact h3.symm
  · intro c hc
    rw [List.mem_reverse] at hc
    simpa using takeWhile_true hc
  · intro c hc
    refine ⟨dropEndWhile_getLast _ c hc, ?_⟩
    rintro rfl rfl
    rw [List.append_nil] at h1
    rw [← h1] at hc
    unfold dropSlashes at hc
    rw [List.getLast?_reverse] at hc
    have := dropWhile_head_false (p := (· == '/')) _ _ hc
    simp at this
  · conv => rhs; rw [h1]
    exact (strip_pad (w := []) (by simp) h2 _).symm

theorem macroTag_head {n a rest : Str} {p : Option Char} (h : NameArgs n a) :
    ∃ w, strip w = strip (dropSlashes a) ∧ (macroTagRule.res ⟨p, c!"<<" ++ (n ++ (a ++ (c!">>" ++ rest))), []⟩).head? =
      some ⟨some '>', rest, [(.macro_tag, c!"<<" ++ n ++ a ++ c!">>"), (.macro_tag_args, w), (.macro_tag_name, n)]⟩ := by
  obtain ⟨w, b, sl, ha, hb, hsl, hlast, hstrip⟩ := dropSlashes_parts a
  refine ⟨w, hstrip, ?_⟩
  have h0 : ((lit c!"<<" : R).res ⟨p, c!"<<" ++ (n ++ (a ++ (c!">>" ++ rest))), []⟩).head? =
      some ⟨some '<', n ++ (a ++ (c!">>" ++ rest)), []⟩ := by rw [Re.res_lit]; rfl
  have hargs : ∀ q : Option Char, ((Re.seq (.grp .macro_tag_args anyDots) (.seq sps (.seq (.star true (ch '/')) (lit c!">>"))) : R).res
      ⟨q, a ++ (c!">>" ++ rest), [(.macro_tag_name, n)]⟩).head? =
      some ⟨some '>', rest, [(.macro_tag_args, w), (.macro_tag_name, n)]⟩ := by
    intro q
    have e : a ++ (c!">>" ++ rest) = w ++ (b ++ (sl ++ (c!">>" ++ rest))) := by
      conv => lhs; rw [ha]
      simp
    rw [e]
    refine head_anyDots (fun hm => h.nonl (by rw [ha]; simp [hm])) ?_ ?_
    · intro u v huv hv
      rw [List.eq_nil_iff_forall_not_mem]
      intro x hx
      rw [mem_res_seq] at hx
      obtain ⟨s1, m1, hx⟩ := hx
      rw [mem_res_seq] at hx
      obtain ⟨s2, m2, hx⟩ := hx
      obtain ⟨x1, e1, hx1, _, _⟩ := mem_sps m1
      obtain ⟨x2, e2, hx2⟩ : ∃ x2, s1.rest = x2 ++ s2.rest ∧ ∀ c ∈ x2, c = '/' := by
        have : ∀ {k : Nat} {s : St G}, s2 ∈ starR true (ch '/' : R).res k s →
            ∃ w, s.rest = w ++ s2.rest ∧ ∀ c ∈ w, c = '/' := by
          intro k s hm
          refine mem_starR_induct (P := fun s => ∃ w, s.rest = w ++ s2.rest ∧ ∀ c ∈ w, c = '/') ⟨[], by simp⟩ ?_ hm
          intro s t ht hp
          unfold ch at ht
          rw [mem_res_cls] at ht
          obtain ⟨c, r, f1, f2, rfl⟩ := ht
          obtain ⟨w, f3, f4⟩ := hp
          refine ⟨c :: w, by rw [f1, List.cons_append]; simp at f3; rw [f3], ?_⟩
          intro d hd
          simp only [List.mem_cons] at hd
          rcases hd with rfl | hd
          · simpa [CSet.mem] using f2
          · exact f4 d hd
        exact this m2
      obtain ⟨e3, _⟩ := lit_mem hx
      simp only at e1
      have hall : (v ++ (b ++ sl)) ++ (c!">>" ++ rest) = (x1 ++ x2) ++ (c!">>" ++ x.rest) := by
        rw [e2, e3] at e1
        simpa using e1
      have hvl : ∃ l, v.getLast? = some l := ⟨v.getLast hv, List.getLast?_eq_some_getLast hv⟩
      obtain ⟨l, hl⟩ := hvl
      obtain ⟨hls, hlb⟩ := hlast l (last_suffix huv hl)
      -- everything up to the closing mark consists of blanks and slashes
      obtain ⟨y, hy⟩ : ∃ y, x1 ++ x2 = (v ++ (b ++ sl)) ++ y := by
        rw [List.append_eq_append_iff] at hall
        rcases hall with ⟨z, f1, _⟩ | ⟨z, f1, f2⟩
        · exact ⟨z, f1⟩
        · by_cases hz : z = []
          · exact ⟨[], by rw [f1, hz]; simp⟩
          · exfalso
            obtain ⟨t', ht'⟩ := prefix_dropLast hz f2.symm
            exact h.occ (u ++ (x1 ++ x2)) z (by rw [ha, huv, List.append_assoc u, f1]; simp) t' ht'
      have hlv : l ∈ v := List.mem_of_getLast? hl
      have hl2 : l = '/' := by
        have : l ∈ x1 ++ x2 := by rw [hy]; simp [hlv]
        rw [List.mem_append] at this
        rcases this with hm | hm
        · have := hx1 l hm; rw [hls] at this; cases this
        · exact hx2 l hm
      -- behind a slash no blank follows
      have hbn : b = [] := by
        cases hbc : b with
        | nil => rfl
        | cons d b' =>
          exfalso
          have hd := hb d (by rw [hbc]; simp)
          -- `v = v' ++ [l]`
          obtain ⟨v', hv'⟩ : ∃ v', v = v' ++ [l] := by
            obtain ⟨v', hv'⟩ := List.getLast?_eq_some_iff.mp hl
            exact ⟨v', hv'⟩
          have hy' : x1 ++ x2 = v' ++ (l :: d :: (b' ++ (sl ++ y))) := by rw [hy, hv', hbc]; simp
          rw [List.append_eq_append_iff] at hy'
          rcases hy' with ⟨z, f1, f2⟩ | ⟨z, f1, f2⟩
          · have : d ∈ x2 := by rw [f2]; simp
            have := hx2 d this
            rw [this] at hd
            exact absurd hd (by decide)
          · cases z with
            | nil =>
              rw [List.nil_append] at f2
              have : d ∈ x2 := by rw [← f2]; simp
              have := hx2 d this
              rw [this] at hd
              exact absurd hd (by decide)
            | cons e z =>
              simp only [List.cons_append, List.cons.injEq] at f2
              have := hx1 e (by rw [f1]; simp)
              rw [← f2.1, hls] at this; cases this
      exact hlb hbn hl2
    · refine Re.head_seq (Re.head_star_cls (cs := .space) ?_ b _ hb) ?_
      · intro c t hc
        cases hs : sl with
        | nil =>
          rw [hs] at hc
          simp only [List.nil_append, List.cons_append, List.cons.injEq] at hc
          rw [← hc.1]; decide
        | cons d s' =>
          rw [hs] at hc
          simp only [List.cons_append, List.cons.injEq] at hc
          rw [← hc.1, hsl d (by rw [hs]; simp)]; decide
      · refine Re.head_seq (Re.head_star_cls (cs := .chr '/') ?_ sl _ ?_) ?_
        · intro c t hc
          simp only [List.cons_append, List.cons.injEq] at hc
          rw [← hc.1]; decide
        · intro c hc; rw [hsl c hc]; decide
        · rw [Re.res_lit]; rfl
  have h3 := Re.head_grp (g := G.macro_tag) (Re.head_seq h0 (Re.head_seq (name_head h) (hargs _)))
  have hc := consumed_append (c!"<<" ++ n ++ a ++ c!">>") rest
  simp only [List.append_assoc] at hc
  simp only [hc] at h3
  simpa [macroTagRule, cat] using h3

/-! ## The inline expression -/

theorem match_macText {n a t rest : Str} {p : Option Char} (h : NameArgs n a) (hend : hasEnd n t = false) :
    inlineRe.matchAt false p (c!"<<" ++ (n ++ (a ++ (c!">>" ++ (t ++ (c!"<</" ++ (n ++ (c!">>" ++ rest)))))))) =
      some ⟨some '>', rest, [(.macro_inline, c!"<<" ++ n ++ a ++ c!">>" ++ t ++ c!"<</" ++ n ++ c!">>"),
        (.macro_inline_text, t), (.macro_inline_args, strip a), (.macro_inline_start, n)]⟩ :=
  inline_rule (l₁ := inlineRules.take 2) (l₂ := inlineRules.drop 3) rfl (fails_start (by decide))
    (macRule_head h hend (by decide) (by decide))

theorem match_mac {n a rest : Str} {p : Option Char} (h : NameArgs n a)
    (hend : ∀ k, k < n.length → hasEnd (n.take (k + 1)) rest = false) :
    ∃ w, strip w = strip (dropSlashes a) ∧
    inlineRe.matchAt false p (c!"<<" ++ (n ++ (a ++ (c!">>" ++ rest)))) =
      some ⟨some '>', rest, [(.macro_tag, c!"<<" ++ n ++ a ++ c!">>"), (.macro_tag_args, w), (.macro_tag_name, n)]⟩ := by
  obtain ⟨w, hw, hm⟩ := macroTag_head (p := p) (rest := rest) h
  refine ⟨w, hw, inline_rule (l₁ := inlineRules.take 2 ++ [macroInlineRule]) (l₂ := inlineRules.drop 4) rfl ?_ hm⟩
  intro q hq
  rw [List.mem_append, List.mem_singleton] at hq
  rcases hq with hq | rfl
  · exact fails_start (by decide) q hq
  · exact macRule_nil h hend (by decide) (by decide)

end Verif.Creole
