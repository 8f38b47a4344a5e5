import Verif.Spec.PreAreas
import Verif.Html.Parser
import Verif.Py.ReHead
import Verif.Creole.ParserLemmas
import Verif.Py.DictLemmas

/-!
# Preformatted areas (C33)
-/

namespace Verif.Props

open Verif Py Html Re Spec

/-! ## Areas within a line -/

theorem inlineRe_eq : inlineRe = .seq (lit c!"<pre>") (.seq (.grp .pre_inline
    (.star false (.alt (.cls (.chr '\n')) (.cls .dot)))) (lit c!"</pre>")) := rfl

/-- a lazy repetition: where its first result comes from -/
theorem lazy_head_inv {γ : Type} [DecidableEq γ] {b : Re γ} {m : Char → Bool} (hb : Verif.Step b m)
    {f : St γ → List (St γ)} {caps : List (γ × Str)} {y : St γ} : ∀ (s : Str) (p : Option Char),
    (((Re.star false b).res ⟨p, s, caps⟩).flatMap f).head? = some y →
    ∃ u v, s = u ++ v ∧ (f ⟨(u.getLast?).or p, v, caps⟩).head? = some y ∧
      ∀ u' v', u = u' ++ v' → v' ≠ [] → f ⟨(u'.getLast?).or p, v' ++ v, caps⟩ = [] := by
  intro s
  induction s with
  | nil =>
    intro p h
    rw [lazy_unfold_nil] at h
    refine ⟨[], [], rfl, by simpa using h, ?_⟩
    intro u' v' h1 h2
    simp only [List.nil_eq, List.append_eq_nil_iff] at h1
    exact absurd h1.2 h2
  | cons c s ih =>
    intro p h
    rw [lazy_unfold hb, List.head?_append] at h
    cases hf : f ⟨p, c :: s, caps⟩ with
    | cons x l =>
      rw [hf] at h
      refine ⟨[], c :: s, rfl, ?_, ?_⟩
      · simp only [List.getLast?_nil, Option.none_or]; rw [hf]; simpa using h
      · intro u' v' h1 h2
        simp only [List.nil_eq, List.append_eq_nil_iff] at h1
        exact absurd h1.2 h2
    | nil =>
      rw [hf] at h
      split at h
      · simp only [List.head?_nil, Option.none_or] at h
        obtain ⟨u, v, h1, h2, h3⟩ := ih (some c) h
        refine ⟨c :: u, v, by rw [h1]; rfl, ?_, ?_⟩
        · rw [← lastOr u p c]; exact h2
        · intro u' v' h4 h5
          cases u' with
          | nil =>
            simp only [List.nil_append] at h4
            subst h4
            simp only [List.getLast?_nil, Option.none_or]
            rw [← hf, h1]; rfl
          | cons d u' =>
            simp only [List.cons_append, List.cons.injEq] at h4
            rw [← h4.1, ← lastOr u' p c]
            exact h3 u' v' h4.2 h5
      · simp at h

/-- a repetition can stop anywhere -/
theorem mem_star {γ : Type} [DecidableEq γ] {g : Bool} {b : Re γ} {m : Char → Bool} (hb : Verif.Step b m)
    {caps : List (γ × Str)} : ∀ (u : Str) (p : Option Char) (v : Str), (∀ c ∈ u, m c = true) →
    (⟨(u.getLast?).or p, v, caps⟩ : St γ) ∈ (Re.star g b).res ⟨p, u ++ v, caps⟩ := by
  have key : ∀ (u : Str) (p : Option Char) (v : Str) (n : Nat), u.length ≤ n → (∀ c ∈ u, m c = true) →
      (⟨(u.getLast?).or p, v, caps⟩ : St γ) ∈ starR g b.res n ⟨p, u ++ v, caps⟩ := by
    intro u
    induction u with
    | nil =>
      intro p v n _ _
      simp only [List.nil_append, List.getLast?_nil, Option.none_or]
      cases n with
      | zero => simp [starR]
      | succ n => rw [mem_starR_succ]; left; rfl
    | cons c u ih =>
      intro p v n hn hm
      cases n with
      | zero => simp at hn
      | succ n =>
        rw [mem_starR_succ]
        right
        refine ⟨⟨some c, u ++ v, caps⟩, ?_, ?_⟩
        · rw [List.cons_append, hb.cons, if_pos (hm c (by simp))]; simp
        · rw [← lastOr u p c]
          exact ih (some c) v n (by simpa using hn) (fun d hd => hm d (by simp [hd]))
  intro u p v hm
  exact key u p v _ (by simp) hm

theorem greedy_unfold {γ : Type} [DecidableEq γ] {b : Re γ} {m : Char → Bool} (hb : Verif.Step b m) (f : St γ → List (St γ))
    (p : Option Char) (c : Char) (r : Str) (caps : List (γ × Str)) :
    ((Re.star true b).res ⟨p, c :: r, caps⟩).flatMap f =
      (if m c then ((Re.star true b).res ⟨some c, r, caps⟩).flatMap f else []) ++ f ⟨p, c :: r, caps⟩ := by
  simp only [Re.res, List.length_cons, starR, if_true, hb.cons, List.flatMap_append]
  congr 1
  · split <;> simp
  · simp

/-- a greedy repetition: where its first result comes from -/
theorem greedy_head_inv {γ : Type} [DecidableEq γ] {b : Re γ} {m : Char → Bool} (hb : Verif.Step b m)
    {f : St γ → List (St γ)} {caps : List (γ × Str)} {y : St γ} : ∀ (s : Str) (p : Option Char),
    (((Re.star true b).res ⟨p, s, caps⟩).flatMap f).head? = some y →
    ∃ u v, s = u ++ v ∧ (∀ c ∈ u, m c = true) ∧ (f ⟨(u.getLast?).or p, v, caps⟩).head? = some y ∧
      ∀ u' v', s = u' ++ v' → (∀ c ∈ u', m c = true) → u.length < u'.length → f ⟨(u'.getLast?).or p, v', caps⟩ = [] := by
  intro s
  induction s with
  | nil =>
    intro p h
    refine ⟨[], [], rfl, by simp, by simpa [Re.res, starR] using h, ?_⟩
    intro u' v' h1 _ h3
    simp only [List.nil_eq, List.append_eq_nil_iff] at h1
    rw [h1.1] at h3
    simp at h3
  | cons c s ih =>
    intro p h
    rw [greedy_unfold hb, List.head?_append] at h
    by_cases hc : m c = true
    · rw [if_pos hc] at h
      cases hg : ((Re.star true b).res ⟨some c, s, caps⟩).flatMap f with
      | nil =>
        rw [hg] at h
        refine ⟨[], c :: s, rfl, by simp, by simpa using h, ?_⟩
        intro u' v' h1 h2 h3
        cases u' with
        | nil => simp at h3
        | cons d u' =>
          simp only [List.cons_append, List.cons.injEq] at h1
          obtain ⟨rfl, rfl⟩ := h1
          rw [List.flatMap_eq_nil_iff] at hg
          have := hg _ (mem_star hb u' (some c) v' fun x hx => h2 x (by simp [hx]))
          rw [← lastOr u' p c]
          exact this
      | cons x l =>
        rw [hg] at h
        obtain ⟨u, v, h1, h2, h3, h4⟩ := ih (some c) (by rw [hg]; simpa using h)
        refine ⟨c :: u, v, by rw [h1]; rfl, ?_, ?_, ?_⟩
        · intro d hd
          simp only [List.mem_cons] at hd
          rcases hd with rfl | hd
          · exact hc
          · exact h2 d hd
        · rw [← lastOr u p c]; exact h3
        · intro u' v' h5 h6 h7
          cases u' with
          | nil => simp at h7
          | cons d u' =>
            simp only [List.cons_append, List.cons.injEq] at h5
            obtain ⟨rfl, h5⟩ := h5
            rw [← lastOr u' p c]
            exact h4 u' v' h5 (fun x hx => h6 x (by simp [hx])) (by simpa using h7)
    · rw [if_neg hc] at h
      refine ⟨[], c :: s, rfl, by simp, by simpa using h, ?_⟩
      intro u' v' h1 h2 h3
      cases u' with
      | nil => simp at h3
      | cons d u' =>
        simp only [List.cons_append, List.cons.injEq] at h1
        obtain ⟨rfl, rfl⟩ := h1
        exact absurd (h2 c (by simp)) hc

theorem inline_res (p : Option Char) (t : Str) :
    inlineRe.res ⟨p, c!"<pre>" ++ t, []⟩ =
      ((Re.star false (.alt (.cls (.chr '\n')) (.cls .dot)) : Re PG).res ⟨some '>', t, []⟩).flatMap
        fun s => (lit c!"</pre>" : Re PG).res { s with caps := (.pre_inline, consumed t s.rest) :: s.caps } := by
  rw [inlineRe_eq, Re.res, Re.res_lit]
  simp only [List.flatMap_cons, List.flatMap_nil, List.append_nil]
  show Re.res (.seq (.grp PG.pre_inline (.star false (.alt (.cls (.chr '\n')) (.cls .dot)))) (lit c!"</pre>"))
    ⟨some '>', t, []⟩ = _
  rw [Re.res]
  have : ∀ (l : List (St PG)), List.flatMap (lit c!"</pre>" : Re PG).res (l.map fun s' =>
      ({ s' with caps := (.pre_inline, consumed t s'.rest) :: s'.caps } : St PG)) =
      l.flatMap fun s => (lit c!"</pre>" : Re PG).res { s with caps := (.pre_inline, consumed t s.rest) :: s.caps } :=
    fun l => List.flatMap_map _ _ l
  rw [← this]
  rfl

theorem inline_none {p : Option Char} {s : Str} (h : inlineRe.matchAt false p s = none) (content r : Str) :
    ¬ InlineArea s content r := by
  rintro rfl
  rw [Re.matchAt_false] at h
  rw [List.append_assoc, List.append_assoc, inline_res, List.head?_eq_none_iff, List.flatMap_eq_nil_iff] at h
  have := h _ (mem_star Step.any content (some '>') (c!"</pre>" ++ r) (fun _ _ => rfl))
  simp only at this
  rw [Re.res_lit] at this
  simp at this

theorem inline_some {p : Option Char} {s : Str} {st : St PG} (h : inlineRe.matchAt false p s = some st) :
    ∃ content, InlineArea s content st.rest ∧ st.caps = [(.pre_inline, content)] ∧
      ∀ content' r', InlineArea s content' r' → content.length ≤ content'.length := by
  have hmem := Re.matchAt_mem h
  rw [inlineRe_eq, mem_res_seq] at hmem
  obtain ⟨x, hx, _⟩ := hmem
  have hs := (Creole.mem_res_lit hx).1
  simp only at hs
  rw [hs] at h
  generalize x.rest = t at h hs
  rw [Re.matchAt_false, inline_res] at h
  obtain ⟨u, v, h1, h2, h3⟩ := lazy_head_inv Step.any t _ h
  have hl := List.mem_of_mem_head? h2
  obtain ⟨h4, h5⟩ := Creole.mem_res_lit hl
  simp only at h4 h5
  have hc : consumed t v = u := by rw [h1]; unfold consumed; simp
  rw [hc] at h5
  refine ⟨u, ?_, h5, ?_⟩
  · unfold InlineArea
    rw [hs, h1, h4]
    simp
  · intro c' r' h6
    unfold InlineArea at h6
    rw [hs] at h6
    have h7 : t = c' ++ (c!"</pre>" ++ r') := by
      rw [List.append_assoc, List.append_assoc] at h6
      exact List.append_cancel_left h6
    by_cases hlt : c'.length < u.length
    · exfalso
      rw [h1] at h7
      have hp : u = c' ++ u.drop c'.length := by
        have := congrArg (List.take c'.length) h7
        rw [List.take_append_of_le_length (by omega), List.take_left] at this
        have h8 := List.take_append_drop c'.length u
        rw [this] at h8
        exact h8.symm
      have hd : u.drop c'.length ++ v = c!"</pre>" ++ r' := by
        have h7' := h7
        rw [hp, List.append_assoc] at h7'
        exact List.append_cancel_left h7'
      have := h3 c' (u.drop c'.length) hp (by
        intro h0
        have := congrArg List.length h0
        simp only [List.length_drop, List.length_nil] at this
        omega)
      rw [hd, Re.res_lit] at this
      simp at this
    · omega

/-- the placeholder tag -/
def placeholderTag (tag : Str) (n : Nat) : Str :=
  c!"<" ++ tag ++ c!" type=\"pre\" id=\"" ++ natDigits n ++ c!"\" />"

theorem preCut_eq (bd : List Str) (data tag : Str) :
    preCut bd data c!"pre" tag = (placeholderTag tag bd.length, bd ++ [data]) := by
  simp [preCut, placeholderTag]

theorem cut_inline (s : Str) : ∀ (n : Nat), s.length ≤ n → ∀ (p : Option Char) (bd : List Str), ∃ ps, InlineAreas s ps ∧
    cutSegs (inlineRe.scanAux p s 0) bd =
      (withPlaceholders (placeholderTag inlinePlaceholder) bd.length ps, bd ++ contents ps) := by
  intro n
  induction n generalizing s with
  | zero =>
    intro hn p bd
    have : s = [] := by cases s <;> simp_all
    subst this
    refine ⟨[], .nil, ?_⟩
    rw [Re.scanAux_nil (by decide)]
    simp [cutSegs, withPlaceholders, contents]
  | succ n ih =>
    intro hn p bd
    cases s with
    | nil =>
      refine ⟨[], .nil, ?_⟩
      rw [Re.scanAux_nil (by decide)]
      simp [cutSegs, withPlaceholders, contents]
    | cons c s =>
      cases hm : inlineRe.matchAt false p (c :: s) with
      | none =>
        obtain ⟨ps, h1, h2⟩ := ih s (by simpa using hn) (some c) bd
        refine ⟨.chr c :: ps, .chr c s ps (inline_none hm) h1, ?_⟩
        rw [Re.scanAux_skip hm]
        simp only [cutSegs, h2, withPlaceholders, contents]
      | some st =>
        obtain ⟨content, h1, h2, h3⟩ := inline_some hm
        have h1' := h1
        unfold InlineArea at h1'
        have hlen : st.rest.length ≤ n := by
          have := congrArg List.length h1'
          simp at this hn
          omega
        obtain ⟨ps, h4, h5⟩ := ih st.rest hlen (some '>') (bd ++ [content])
        refine ⟨.area content :: ps, .area _ content st.rest ps h1 h3 h4, ?_⟩
        rw [h1'] at hm ⊢
        rw [Re.scanAux_take (by simp) hm]
        have hlast : (c!"<pre>" ++ content ++ c!"</pre>").getLast? = some '>' := by rw [List.getLast?_append]; rfl
        rw [hlast]
        have hcut : preCutOut bd ⟨c!"<pre>" ++ content ++ c!"</pre>", st.caps⟩ =
            (placeholderTag inlinePlaceholder bd.length, bd ++ [content]) := by
          unfold preCutOut
          have e1 : (⟨c!"<pre>" ++ content ++ c!"</pre>", st.caps⟩ : Match PG).get .pre_inline = some content := by
            unfold Match.get; rw [h2]; rfl
          rw [e1]
          exact preCut_eq bd content inlinePlaceholder
        rw [cutSegs, hcut]
        dsimp only
        rw [h5]
        simp only [withPlaceholders, contents, List.length_append, List.length_singleton, List.append_assoc,
          List.singleton_append]

/-! ## Areas on lines of their own -/

def blockTail : Re PG := cat [.bol true, lit c!"</pre>", .star true (.cls .space), .eol true,
  .star true (.cls (.union .space (.chr '\n')))]

theorem blockRe_eq : blockRe = .seq (.bol true) (.seq (lit c!"<pre>") (.seq (.star true (.cls .space)) (.seq (.eol true)
    (.seq (.grp .pre_block (.star false (.alt (.cls (.chr '\n')) (.cls .dot)))) blockTail)))) := rfl

theorem head_flatMap_inv {α β : Type} {l : List α} {f : α → List β} {y : β} (h : (l.flatMap f).head? = some y) :
    ∃ x ∈ l, (f x).head? = some y := by
  induction l with
  | nil => simp at h
  | cons a l ih =>
    rw [List.flatMap_cons, List.head?_append] at h
    cases hf : (f a).head? with
    | some z => rw [hf] at h; exact ⟨a, by simp, by rw [hf]; simpa using h⟩
    | none =>
      rw [hf] at h
      obtain ⟨x, hx, h1⟩ := ih (by simpa using h)
      exact ⟨x, by simp [hx], h1⟩

theorem atEol_iff {r : Str} : atEol true r = true ↔ r = [] ∨ r.head? = some '\n' := by
  cases r with
  | nil => simp [atEol]
  | cons c r => simp [atEol]

theorem atBol_iff {p : Option Char} : atBol true p = true ↔ p = none ∨ p = some '\n' := by
  cases p with
  | none => simp [atBol]
  | some c => simp [atBol]

/-- what follows the content -/
def AreaEnd (v r : Str) : Prop :=
  ∃ w', Blank w' ∧ (r = [] ∨ '\n' ∈ w') ∧ (∀ c, r.head? = some c → isSpace c = false) ∧ v = c!"</pre>" ++ w' ++ r

theorem blockTail_head {p : Option Char} {v : Str} {caps : List (PG × Str)} {s' : St PG}
    (h : (blockTail.res ⟨p, v, caps⟩).head? = some s') : (p = none ∨ p = some '\n') ∧ AreaEnd v s'.rest ∧ s'.caps = caps := by
  unfold blockTail cat cat cat cat cat at h
  rw [Re.res] at h
  obtain ⟨t1, h1, h⟩ := head_flatMap_inv h
  rw [mem_res_bol] at h1
  obtain ⟨hb, rfl⟩ := h1
  rw [Re.res] at h
  obtain ⟨t2, h2, h⟩ := head_flatMap_inv h
  obtain ⟨e2, c2⟩ := Creole.mem_res_lit h2
  rw [Re.res] at h
  obtain ⟨t3, h3, h⟩ := head_flatMap_inv h
  rw [Re.res] at h
  obtain ⟨t4, h4, hst⟩ := head_flatMap_inv h
  rw [mem_res_eol] at h4
  obtain ⟨he, rfl⟩ := h4
  obtain ⟨w2, r2⟩ := Re.res_reach h3
  have b2 := Creole.star_cls_all h3 r2
  have c3 := Creole.Re.res_caps_eq rfl h3
  obtain ⟨q, t, caps3⟩ := t4
  have hd := Re.head_star_cls (γ := PG) (cs := CSet.union .space (.chr '\n')) (caps := caps3) (rest := t.dropWhile isSpace)
    (by
      intro c u hu
      have := List.head?_dropWhile_not isSpace t
      rw [hu] at this
      simp only [List.head?_cons] at this
      simp only [CSet.mem, this, Bool.false_or, beq_eq_false_iff_ne]
      rintro rfl
      exact absurd this (by decide)) (t.takeWhile isSpace) q (by
      intro c hc
      have := List.all_takeWhile (p := isSpace) (l := t)
      rw [List.all_eq_true] at this
      simp only [CSet.mem, this c hc, Bool.true_or])
  rw [List.takeWhile_append_dropWhile] at hd
  rw [hd] at hst
  simp only [Option.some.injEq] at hst
  subst hst
  simp only at e2 c2 c3 he
  refine ⟨atBol_iff.1 hb, ⟨w2 ++ t.takeWhile isSpace, ?_, ?_, ?_, ?_⟩, by rw [c3, c2]⟩
  · intro c hc
    simp only [List.mem_append] at hc
    rcases hc with hc | hc
    · exact b2 c hc
    · have := List.all_takeWhile (p := isSpace) (l := t)
      rw [List.all_eq_true] at this
      exact this c hc
  · rw [atEol_iff] at he
    rcases he with rfl | he
    · exact .inl rfl
    · right
      cases t with
      | nil => simp at he
      | cons c t =>
        simp only [List.head?_cons, Option.some.injEq] at he
        subst he
        rw [List.takeWhile_cons, if_pos (by decide)]
        simp
  · intro c hc
    have := List.head?_dropWhile_not isSpace t
    rw [hc] at this
    simpa using this
  · rw [e2, r2.rest]
    simp [List.takeWhile_append_dropWhile]

theorem blockTail_ne {p : Option Char} {v r : Str} {caps : List (PG × Str)} (hp : p = none ∨ p = some '\n')
    (h : AreaEnd v r) : blockTail.res ⟨p, v, caps⟩ ≠ [] := by
  obtain ⟨w', hb, he, _, rfl⟩ := h
  have key : ∃ a b, w' ++ r = a ++ b ∧ Blank a ∧ atEol true b = true := by
    rcases he with rfl | he
    · exact ⟨w', [], by simp, hb, rfl⟩
    · obtain ⟨a, b, rfl⟩ := List.append_of_mem he
      exact ⟨a, '\n' :: b ++ r, by simp, fun c hc => hb c (by simp [hc]), by simp [atEol]⟩
  obtain ⟨a, b, hab, ha, hb'⟩ := key
  rw [List.append_assoc, hab]
  have h1 : (⟨p, c!"</pre>" ++ (a ++ b), caps⟩ : St PG) ∈ (Re.bol true : Re PG).res ⟨p, c!"</pre>" ++ (a ++ b), caps⟩ := by
    rw [mem_res_bol]; exact ⟨atBol_iff.2 hp, rfl⟩
  have h2 : (⟨some '>', a ++ b, caps⟩ : St PG) ∈ (lit c!"</pre>" : Re PG).res ⟨p, c!"</pre>" ++ (a ++ b), caps⟩ := by
    rw [Re.res_lit]; simp
  have h3 := mem_star (g := true) (Step.cls (γ := PG) CSet.space) (caps := caps) a (some '>') b ha
  have h4 : (⟨(a.getLast?).or (some '>'), b, caps⟩ : St PG) ∈ (Re.eol true : Re PG).res ⟨(a.getLast?).or (some '>'), b, caps⟩ := by
    rw [mem_res_eol]; exact ⟨hb', rfl⟩
  have h5 := mem_star (g := true) (Step.cls (γ := PG) (CSet.union .space (.chr '\n'))) (caps := caps) []
    ((a.getLast?).or (some '>')) b (by simp)
  have : _ ∈ blockTail.res ⟨p, c!"</pre>" ++ (a ++ b), caps⟩ :=
    mem_res_seq.2 ⟨_, h1, mem_res_seq.2 ⟨_, h2, mem_res_seq.2 ⟨_, h3, mem_res_seq.2 ⟨_, h4, h5⟩⟩⟩⟩
  exact List.ne_nil_of_mem this

theorem blockArea_iff {prev : Option Char} {s w content r : Str} : BlockArea prev s w content r ↔
    (prev = none ∨ prev = some '\n') ∧ Blank w ∧ content.head? = some '\n' ∧ content.getLast? = some '\n' ∧
      ∃ v, AreaEnd v r ∧ s = c!"<pre>" ++ w ++ content ++ v := by
  unfold BlockArea AreaEnd
  constructor
  · rintro ⟨h1, h2, h3, h4, w', h5, h6, h7, h8⟩
    exact ⟨h1, h2, h3, h4, _, ⟨w', h5, h6, h7, rfl⟩, by rw [h8]; simp⟩
  · rintro ⟨h1, h2, h3, h4, v, ⟨w', h5, h6, h7, rfl⟩, h8⟩
    exact ⟨h1, h2, h3, h4, w', h5, h6, h7, by rw [h8]; simp⟩

/-- what follows the blank text after `<pre>` -/
def blockRest : Re PG := .seq (.eol true) (.seq (.grp .pre_block (.star false (.alt (.cls (.chr '\n')) (.cls .dot)))) blockTail)

theorem blockRest_ne {q : Option Char} {content v r : Str} {caps : List (PG × Str)} (hh : content.head? = some '\n')
    (hl : content.getLast? = some '\n') (hv : AreaEnd v r) : blockRest.res ⟨q, content ++ v, caps⟩ ≠ [] := by
  have h4 : (⟨q, content ++ v, caps⟩ : St PG) ∈ (Re.eol true : Re PG).res ⟨q, content ++ v, caps⟩ := by
    rw [mem_res_eol, atEol_iff]
    refine ⟨.inr ?_, rfl⟩
    rw [List.head?_append, hh]; rfl
  have h5 := mem_star (g := false) (Step.any (γ := PG)) (caps := caps) content q v (fun _ _ => rfl)
  have h6 := (mem_res_grp (g := PG.pre_block)).2 ⟨_, h5, rfl⟩
  rw [hl] at h6
  obtain ⟨z, l, h7⟩ := List.exists_cons_of_ne_nil (blockTail_ne
    (caps := (PG.pre_block, consumed (content ++ v) v) :: caps) (p := some '\n') (.inr rfl) hv)
  have h8 : z ∈ blockTail.res ⟨some '\n', v, (PG.pre_block, consumed (content ++ v) v) :: caps⟩ := by rw [h7]; simp
  have : z ∈ blockRest.res ⟨q, content ++ v, caps⟩ := mem_res_seq.2 ⟨_, h4, mem_res_seq.2 ⟨_, h6, h8⟩⟩
  exact List.ne_nil_of_mem this

theorem block_none {p : Option Char} {s : Str} (h : blockRe.matchAt false p s = none) (w content r : Str) :
    ¬ BlockArea p s w content r := by
  rw [blockArea_iff]
  rintro ⟨hp, hw, hh, hl, v, hv, rfl⟩
  rw [Re.matchAt_false, List.head?_eq_none_iff] at h
  have e : c!"<pre>" ++ w ++ content ++ v = c!"<pre>" ++ (w ++ (content ++ v)) := by simp
  rw [e] at h
  have h1 : (⟨p, c!"<pre>" ++ (w ++ (content ++ v)), []⟩ : St PG) ∈
      (Re.bol true : Re PG).res ⟨p, c!"<pre>" ++ (w ++ (content ++ v)), []⟩ := by
    rw [mem_res_bol]; exact ⟨atBol_iff.2 hp, rfl⟩
  have h2 : (⟨some '>', w ++ (content ++ v), []⟩ : St PG) ∈ (lit c!"<pre>" : Re PG).res ⟨p, c!"<pre>" ++ (w ++ (content ++ v)), []⟩ := by
    rw [Re.res_lit]; simp
  have h3 := mem_star (g := true) (Step.cls (γ := PG) CSet.space) (caps := []) w (some '>') (content ++ v) hw
  obtain ⟨z, l, h7⟩ := List.exists_cons_of_ne_nil (blockRest_ne (q := (w.getLast?).or (some '>')) (caps := []) hh hl hv)
  have h8 : z ∈ blockRest.res ⟨(w.getLast?).or (some '>'), content ++ v, []⟩ := by rw [h7]; simp
  have : z ∈ blockRe.res ⟨p, c!"<pre>" ++ (w ++ (content ++ v)), []⟩ :=
    mem_res_seq.2 ⟨_, h1, mem_res_seq.2 ⟨_, h2, mem_res_seq.2 ⟨_, h3, h8⟩⟩⟩
  rw [h] at this
  simp at this

theorem block_some {p : Option Char} {s : Str} {st : St PG} (h : blockRe.matchAt false p s = some st) :
    ∃ w content, BlockArea p s w content st.rest ∧ st.caps = [(.pre_block, content)] ∧
      (∀ w' content' r', BlockArea p s w' content' r' → w'.length ≤ w.length) ∧
      ∀ content' r', BlockArea p s w content' r' → content.length ≤ content'.length := by
  rw [Re.matchAt_false, blockRe_eq, Re.res] at h
  obtain ⟨x1, m1, h⟩ := head_flatMap_inv h
  rw [mem_res_bol] at m1
  obtain ⟨hb, rfl⟩ := m1
  rw [Re.res] at h
  obtain ⟨x2, m2, h⟩ := head_flatMap_inv h
  obtain ⟨e2, c2⟩ := Creole.mem_res_lit m2
  rw [Re.res] at h
  obtain ⟨q2, s2, caps⟩ := x2
  simp only at e2 c2
  subst c2
  obtain ⟨w, t, hst, b3, h, hmax⟩ := greedy_head_inv (Step.cls (γ := PG) CSet.space) s2 q2 h
  rw [Re.res] at h
  obtain ⟨x4, m4, h'⟩ := head_flatMap_inv h
  rw [mem_res_eol] at m4
  obtain ⟨he, rfl⟩ := m4
  have hgrp : ∀ (a b : Re PG) (s : St PG), (Re.seq (.grp .pre_block a) b).res s =
      (a.res s).flatMap fun s' => b.res { s' with caps := (.pre_block, consumed s.rest s'.rest) :: s'.caps } := by
    intro a b s
    simp only [Re.res, List.flatMap_map]
  rw [hgrp] at h'
  simp only at he
  obtain ⟨u, v, h1, h2, h3⟩ := lazy_head_inv Step.any t _ h'
  obtain ⟨hp, hend, hcaps⟩ := blockTail_head h2
  simp only at hp hend hcaps
  have hcons : consumed t v = u := by rw [h1]; unfold consumed; simp
  rw [hcons] at hcaps
  have hs : s = c!"<pre>" ++ w ++ (u ++ v) := by rw [e2, hst, h1]; simp
  have hu : u.head? = some '\n' := by
    obtain ⟨w', _, _, _, hv⟩ := hend
    rw [atEol_iff, h1] at he
    cases u with
    | nil => rw [hv] at he; simp at he
    | cons c u => simpa using he
  have hlast : u.getLast? = some '\n' := by
    cases hu' : u.getLast? with
    | none => simp at hu'; subst hu'; simp at hu
    | some c =>
      rw [hu'] at hp
      simpa using hp
  refine ⟨w, u, ?_, hcaps, ?_, ?_⟩
  · rw [blockArea_iff]
    exact ⟨atBol_iff.1 hb, b3, hu, hlast, v, hend, by rw [hs]; simp⟩
  · intro w' c' r' hba
    rw [blockArea_iff] at hba
    obtain ⟨_, hw', hh', hl', v', hv', hs'⟩ := hba
    by_cases hlt : w.length < w'.length
    · exfalso
      have := hmax w' (c' ++ v') (by
        rw [e2, List.append_assoc, List.append_assoc] at hs'
        exact List.append_cancel_left hs') hw' hlt
      exact blockRest_ne hh' hl' hv' this
    · omega
  · intro c' r' hba
    rw [blockArea_iff] at hba
    obtain ⟨_, _, _, hl', v', hv', hs'⟩ := hba
    by_cases hlt : c'.length < u.length
    · exfalso
      have h7 : u ++ v = c' ++ v' := by
        rw [hs, List.append_assoc _ c' v'] at hs'
        exact List.append_cancel_left hs'
      have hpre : u = c' ++ u.drop c'.length := by
        have := congrArg (List.take c'.length) h7
        rw [List.take_append_of_le_length (by omega), List.take_left] at this
        have h8 := List.take_append_drop c'.length u
        rw [this] at h8
        exact h8.symm
      have hd : u.drop c'.length ++ v = v' := by
        have h7' := h7
        rw [hpre, List.append_assoc] at h7'
        exact List.append_cancel_left h7'
      have := h3 c' (u.drop c'.length) hpre (by
        intro h0
        have := congrArg List.length h0
        simp only [List.length_drop, List.length_nil] at this
        omega)
      rw [hd, hl'] at this
      exact blockTail_ne (.inr rfl) hv' this
    · omega

theorem blockRe_nullable : blockRe.nullable = false := by decide

theorem cut_block (s : Str) : ∀ (n : Nat), s.length ≤ n → ∀ (p : Option Char) (bd : List Str), ∃ ps, BlockAreas p s ps ∧
    cutSegs (blockRe.scanAux p s 0) bd =
      (withPlaceholders (placeholderTag blockPlaceholder) bd.length ps, bd ++ contents ps) := by
  intro n
  induction n generalizing s with
  | zero =>
    intro hn p bd
    have : s = [] := by cases s <;> simp_all
    subst this
    refine ⟨[], .nil p, ?_⟩
    rw [Re.scanAux_nil (by decide)]
    simp [cutSegs, withPlaceholders, contents]
  | succ n ih =>
    intro hn p bd
    cases s with
    | nil =>
      refine ⟨[], .nil p, ?_⟩
      rw [Re.scanAux_nil (by decide)]
      simp [cutSegs, withPlaceholders, contents]
    | cons c s =>
      cases hm : blockRe.matchAt false p (c :: s) with
      | none =>
        obtain ⟨ps, h1, h2⟩ := ih s (by simpa using hn) (some c) bd
        refine ⟨.chr c :: ps, .chr p c s ps (block_none hm) h1, ?_⟩
        rw [Re.scanAux_skip hm]
        simp only [cutSegs, h2, withPlaceholders, contents]
      | some st =>
        obtain ⟨w, content, h1, h2, h3m, h3⟩ := block_some hm
        have h1' := h1
        obtain ⟨_, _, _, _, w', _, _, _, hs⟩ := h1'
        have hlen : st.rest.length ≤ n := by
          have := congrArg List.length hs
          simp at this hn
          omega
        have hne : c!"<pre>" ++ w ++ content ++ c!"</pre>" ++ w' ≠ [] := by simp
        generalize c!"<pre>" ++ w ++ content ++ c!"</pre>" ++ w' = a at hs hne
        obtain ⟨ps, h4, h5⟩ := ih st.rest hlen a.getLast? (bd ++ [content])
        have hla : lastChar p a = a.getLast? := by
          unfold lastChar
          cases hl : a.getLast? with
          | none => simp at hl; exact absurd hl hne
          | some x => rfl
        refine ⟨.area content :: ps, .area p _ w content a st.rest ps h1 hs h3m h3 (by rw [hla]; exact h4), ?_⟩
        rw [hs] at hm ⊢
        rw [Re.scanAux_take hne hm]
        have hcut : preCutOut bd ⟨a, st.caps⟩ = (placeholderTag blockPlaceholder bd.length, bd ++ [content]) := by
          unfold preCutOut
          have e1 : (⟨a, st.caps⟩ : Match PG).get .pre_inline = none := by unfold Match.get; rw [h2]; rfl
          have e2 : (⟨a, st.caps⟩ : Match PG).get .pre_block = some content := by unfold Match.get; rw [h2]; rfl
          rw [e1, e2]
          exact preCut_eq bd content blockPlaceholder
        rw [cutSegs, hcut]
        dsimp only
        rw [h5]
        simp only [withPlaceholders, contents, List.length_append, List.length_singleton, List.append_assoc,
          List.singleton_append]

/-! ## C33 -/

/-- **C33**: the preprocessing of `feed` first replaces the areas whose tags stand on lines of their own, then the areas
that are left, by numbered placeholder tags, and stores the contents of the areas, verbatim and in order; then
`strip_html` is applied. -/
theorem C33_areas_cut_out (raw : Str) : ∃ blocks inlines,
    BlockAreas none (strip raw) blocks ∧
    InlineAreas (withPlaceholders (placeholderTag c!"blockdata") 0 blocks) inlines ∧
    preprocess raw = (stripHtml (withPlaceholders (placeholderTag c!"inlinedata") (contents blocks).length inlines),
      contents blocks ++ contents inlines) := by
  obtain ⟨ps1, h1, h2⟩ := cut_block (strip raw) _ (Nat.le_refl _) none []
  obtain ⟨ps2, h3, h4⟩ := cut_inline (withPlaceholders (placeholderTag c!"blockdata") 0 ps1) _ (Nat.le_refl _) none
    (contents ps1)
  refine ⟨ps1, ps2, h1, h3, ?_⟩
  unfold preprocess Re.scan
  simp only [h2, List.nil_append, List.length_nil]
  have e : blockPlaceholder = c!"blockdata" := rfl
  rw [e, h4]
  rfl

/-- **C33**: the placeholder with the number of an area becomes a node with the content of that area. -/
theorem C33_placeholder_resolves (bd : List Str) (s : PSt) (i : Nat) (h : i < bd.length) (hi : i < 10 ^ maxIntDigits) (tag : Str)
    (ht : tag = c!"blockdata" ∨ tag = c!"inlinedata") :
    handleStartEnd bd s tag [(c!"type", some c!"pre"), (c!"id", some (natDigits i))] =
      .ok (s.addLeaf { kind := tag ++ c!"_pre", content := some (bd[i]'h) }) := by
  unfold handleStartEnd
  have hc : (tag = blockPlaceholder || tag = inlinePlaceholder) = true := by
    rcases ht with rfl | rfl <;> decide
  rw [if_pos hc]
  have hd : dictOf [(c!"type", some c!"pre"), (c!"id", some (natDigits i))] =
      [(c!"type", some c!"pre"), (c!"id", some (natDigits i))] := rfl
  rw [hd]
  unfold placeholderNode
  have h1 : dictGet c!"id" [(c!"type", some c!"pre"), (c!"id", some (natDigits i))] = some (some (natDigits i)) := rfl
  have h2 : dictGet c!"type" [(c!"type", some c!"pre"), (c!"id", some (natDigits i))] = some (some c!"pre") := rfl
  have h3 : pyInt (natDigits i) = some (i : Int) := by
    have := pyInt_intStr (n := (i : Int)) (Nat.lt_of_le_of_lt (Nat.le_of_eq (Int.natAbs_natCast i)) hi)
    exact this
  rw [h1, h2]
  simp only [h3]
  have h4 : pyIndex bd (i : Int) = .ok (bd[i]'h) := by
    have : pyIndex bd (Int.ofNat i) = .ok (bd[i]'h) := by
      simp only [pyIndex, List.getElem?_eq_getElem h]
    exact this
  have hb : ∀ {α β : Type} (x : α) (f : α → Except PyErr β), (Except.ok x >>= f) = f x := fun _ _ => rfl
  rw [hb, hb, h4]
  rfl

set_option maxRecDepth 20000 in
example : preprocess c!"a <pre> x\n </pre> b\n<pre>\n c <b>\n</pre>\n<p>d</p>" =
    (c!"a <inlinedata type=\"pre\" id=\"1\" /> b <blockdata type=\"pre\" id=\"0\" /><p>d</p>",
      [c!"\n c <b>\n", c!" x\n "]) := by decide +kernel

end Verif.Props
