import Verif.Creole.KeptInline
import Verif.Creole.ListRun

/-!
# The parser keeps the letters of the text: items and cells

Every letter of a list belongs to an item and every letter of a row to a cell.
-/

namespace Verif

open Py

variable {γ : Type} [DecidableEq γ]

theorem star_head {b : Re γ} (hb : b.nullable = false) : ∀ (n : Nat) (s y : St γ), s.rest.length ≤ n →
    (starR true b.res n s).head? = some y → b.res y = [] := by
  intro n
  induction n with
  | zero =>
    intro s y hs h
    simp [starR] at h
    subst h
    cases hr : b.res s with
    | nil => rfl
    | cons z l =>
      have := Creole.Re.res_lt hb (s := s) (s' := z) (by rw [hr]; simp)
      omega
  | succ n ih =>
    intro s y hs h
    simp only [starR, if_true, List.head?_append] at h
    cases hr : b.res s with
    | nil =>
      rw [hr] at h
      simp at h
      subst h
      exact hr
    | cons z l =>
      rw [hr, List.flatMap_cons, List.head?_append] at h
      have hz := Creole.Re.res_lt hb (s := s) (s' := z) (by rw [hr]; simp)
      cases hq : (starR true b.res n z).head? with
      | none =>
        rw [List.head?_eq_none_iff] at hq
        cases n with
        | zero => simp [starR] at hq
        | succ n => simp [starR] at hq
      | some w =>
        rw [hq] at h
        simp at h
        subst h
        exact ih z w (by omega) hq

theorem head_of_mem {α : Type} {l : List α} {x : α} (h : x ∈ l) : ∃ y, l.head? = some y ∧ y ∈ l := by
  cases l with
  | nil => simp at h
  | cons y l => exact ⟨y, rfl, by simp⟩

/-- the first result of a non-empty greedy repetition: its body does not match there -/
theorem plus_head {b : Re γ} (hb : b.nullable = false) {s y : St γ} (h : ((Re.plus true b).res s).head? = some y) : b.res y = [] := by
  unfold Re.plus at h
  simp only [Re.res] at h
  cases hr : b.res s with
  | nil => rw [hr] at h; simp at h
  | cons z l =>
    rw [hr, List.flatMap_cons, List.head?_append] at h
    cases hq : (starR true b.res z.rest.length z).head? with
    | none =>
      rw [List.head?_eq_none_iff] at hq
      cases hn : z.rest.length with
      | zero => rw [hn] at hq; simp [starR] at hq
      | succ n => rw [hn] at hq; simp [starR] at hq
    | some w =>
      rw [hq] at h
      simp at h
      subst h
      exact star_head hb _ z w (Nat.le_refl _) hq

/-- the first result of a sequence -/
theorem seq_head {a b : Re γ} {s y : St γ} (h : ((Re.seq a b).res s).head? = some y) :
    ∃ x ∈ a.res s, (b.res x).head? = some y := by
  simp only [Re.res] at h
  generalize a.res s = l at h
  induction l with
  | nil => simp at h
  | cons z l ih =>
    rw [List.flatMap_cons, List.head?_append] at h
    cases hq : (b.res z).head? with
    | some w => rw [hq] at h; simp at h; subst h; exact ⟨z, by simp, hq⟩
    | none =>
      rw [hq] at h
      simp at h
      obtain ⟨x, hx, he⟩ := ih (by simpa using h)
      exact ⟨x, by simp [hx], he⟩

/-- results of a sequence, with the texts consumed -/
theorem seq_reach {a b : Re γ} {s s' : St γ} {w : Str} (h : s' ∈ (Re.seq a b).res s) (hw : Reach s s' w) :
    ∃ t u v, w = u ++ v ∧ t ∈ a.res s ∧ Reach s t u ∧ s' ∈ b.res t ∧ Reach t s' v := by
  rw [mem_res_seq] at h
  obtain ⟨t, h1, h2⟩ := h
  obtain ⟨u, hu⟩ := Re.res_reach h1
  obtain ⟨v, hv⟩ := Re.res_reach h2
  refine ⟨t, u, v, ?_, h1, hu, h2, hv⟩
  have := hw.rest
  rw [hu.rest, hv.rest, ← List.append_assoc] at this
  exact (List.append_cancel_right this).symm

end Verif

namespace Verif.Creole

open Verif Re Py Spec.Kp

/-! ## Cells -/

theorem not_bar {y : St G} (h : (Re.cls (.compl (.chr '|')) : R).res y = []) : y.rest = [] ∨ ∃ t, y.rest = '|' :: t := by
  cases hy : y.rest with
  | nil => exact .inl rfl
  | cons c t =>
    right
    simp only [Re.res, hy] at h
    split at h
    · simp at h
    · rename_i hc
      simp [CSet.mem] at hc
      subst hc
      exact ⟨t, rfl⟩

/-- what one cell is made of -/
def cellBody : R := alts [linkRule, macroInlineRule, macroTagRule, imageRule, preInlineRule, .cls (.compl (.chr '|'))]

theorem grp_head {g : G} {a : R} {s y : St G} (h : ((Re.grp g a).res s).head? = some y) :
    ∃ x, (a.res s).head? = some x ∧ y.rest = x.rest := by
  simp only [Re.res, List.head?_map] at h
  cases hq : (a.res s).head? with
  | none => rw [hq] at h; simp at h
  | some x => rw [hq] at h; simp at h; subst h; exact ⟨x, rfl, rfl⟩

theorem cell_end {s y : St G} (h : ((Re.alt (.grp .head (.seq (ch '=') (.plus true (.cls (.compl (.chr '|'))))))
    (.grp .cell (.plus true cellBody)) : R).res s).head? = some y) : y.rest = [] ∨ ∃ t, y.rest = '|' :: t := by
  have e : ∀ a b : R, (Re.alt a b).res s = a.res s ++ b.res s := fun _ _ => rfl
  rw [e, List.head?_append, Option.or_eq_some_iff] at h
  rcases h with h | ⟨_, h⟩
  · obtain ⟨x, hx, hr⟩ := grp_head h
    obtain ⟨z, _, hz⟩ := seq_head hx
    rw [hr]
    exact not_bar (plus_head (by decide) hz)
  · obtain ⟨x, hx, hr⟩ := grp_head h
    have := plus_head (by decide +kernel) hx
    rw [hr]
    refine not_bar ?_
    cases hq : (Re.cls (.compl (.chr '|')) : R).res x with
    | nil => rfl
    | cons z l =>
      have hz : z ∈ cellBody.res x := by
        unfold cellBody
        simp only [alts, mem_res_alt]
        exact .inr (.inr (.inr (.inr (.inr (by rw [hq]; simp)))))
      rw [this] at hz
      simp at hz

theorem sps_bar {y : St G} (h : y.rest = [] ∨ ∃ t, y.rest = '|' :: t) : (sps : R).res y = [y] := by
  obtain ⟨p, r, c⟩ := y
  refine sps_none ?_
  intro d t hd
  rcases h with h | ⟨t', h⟩
  · simp only at h; rw [h] at hd; cases hd
  · simp only at h; rw [h] at hd; cases hd; decide +kernel

theorem cell_noSkip {row : Str} (hrow : row = [] ∨ ∃ t, row = '|' :: t) :
    ∀ c, Seg.skip c ∈ cellRe.scan row → keeps c = false := by
  refine Re.scanAux_noSkip_inv (r := cellRe) (by decide +kernel) (Inv := fun _ s => s = [] ∨ ∃ t, s = '|' :: t) ?_ ?_ _ row rfl none hrow
  · intro p c cs hi hm
    rcases hi with hi | ⟨t, hi⟩
    · cases hi
    · cases hi
      refine ⟨by decide +kernel, ?_⟩
      cases cs with
      | nil => exact .inl rfl
      | cons d cs =>
        right
        by_cases hd : d = '|'
        · subst hd; exact ⟨cs, rfl⟩
        · exfalso
          rw [Re.matchAt_false, List.head?_eq_none_iff] at hm
          have hmem : (⟨some d, cs, [(G.cell, consumed (d :: cs) cs)]⟩ : St G) ∈ cellRe.res ⟨p, '|' :: d :: cs, []⟩ := by
            unfold cellRe
            simp only [cat]
            rw [mem_res_seq]
            refine ⟨⟨some '|', d :: cs, []⟩, ?_, ?_⟩
            · unfold ch; rw [mem_res_cls]; exact ⟨'|', d :: cs, rfl, by simp [CSet.mem], rfl⟩
            · rw [mem_res_seq]
              refine ⟨⟨some '|', d :: cs, []⟩, ?_, ?_⟩
              · show _ ∈ starR _ _ _ _
                simp only [List.length_cons]
                rw [mem_starR_succ]; exact .inl rfl
              · rw [mem_res_seq]
                refine ⟨⟨some d, cs, [(G.cell, consumed (d :: cs) cs)]⟩, ?_, ?_⟩
                · rw [mem_res_alt]
                  right
                  rw [mem_res_grp]
                  refine ⟨⟨some d, cs, []⟩, ?_, rfl⟩
                  unfold Re.plus
                  rw [mem_res_seq]
                  refine ⟨⟨some d, cs, []⟩, ?_, ?_⟩
                  · simp only [alts, mem_res_alt]
                    refine .inr (.inr (.inr (.inr (.inr ?_))))
                    rw [mem_res_cls]
                    exact ⟨d, cs, rfl, by simp [CSet.mem, hd], rfl⟩
                  · show _ ∈ starR _ _ _ _
                    cases cs.length with
                    | zero => rw [mem_starR_zero]
                    | succ n => rw [mem_starR_succ]; exact .inl rfl
                · show _ ∈ starR _ _ _ _
                  cases cs.length with
                  | zero => rw [mem_starR_zero]
                  | succ n => rw [mem_starR_succ]; exact .inl rfl
          rw [hm] at hmem
          simp at hmem
  · intro p s w s' _ _ _ hm
    rw [Re.matchAt_false] at hm
    unfold cellRe at hm
    simp only [cat] at hm
    obtain ⟨x, _, hm⟩ := seq_head hm
    obtain ⟨x, _, hm⟩ := seq_head hm
    have hm' : ((Re.seq (Re.alt (.grp .head (.seq (ch '=') (.plus true (.cls (.compl (.chr '|'))))))
      (.grp .cell (.plus true cellBody))) sps : R).res x).head? = some s' := hm
    cases hq : ((Re.alt (.grp .head (.seq (ch '=') (.plus true (.cls (.compl (.chr '|'))))))
      (.grp .cell (.plus true cellBody)) : R).res x).head? with
    | none =>
      rw [List.head?_eq_none_iff] at hq
      rw [Re.res_seq_nil hq] at hm'
      simp at hm'
    | some y =>
      have hy := cell_end hq
      have := Re.head_seq hq (b := sps) (y := y) (by rw [sps_bar hy]; rfl)
      rw [this] at hm'
      cases hm'
      exact hy

/-! ## Items -/

/-- after each line break there is a further item -/
def ItemsAhead (s : Str) : Prop := ∀ a b, s = a ++ '\n' :: b → ∃ bl c t, b = bl ++ c :: t ∧ (∀ x ∈ bl, isSpace x = true) ∧ (c = '*' ∨ c = '#')

theorem ItemsAhead.suffix {s t : Str} (h : ItemsAhead s) (hs : t <:+ s) : ItemsAhead t := by
  obtain ⟨u, rfl⟩ := hs
  intro a b e
  exact h (u ++ a) b (by rw [e, List.append_assoc])

theorem ItemsAhead.append {d s : Str} (hd : '\n' ∉ d) (h : ItemsAhead s) : ItemsAhead (d ++ s) := by
  intro a b e
  induction d generalizing a with
  | nil => exact h a b e
  | cons c d ih =>
    simp only [List.mem_cons, not_or] at hd
    cases a with
    | nil => simp at e; exact absurd e.1.symm hd.1
    | cons x a =>
      simp at e
      exact ih hd.2 a e.2

theorem itemsAhead_nil : ItemsAhead [] := by
  intro a b e
  have := congrArg List.length e
  simp at this

theorem dot_noNl {w : Str} (h : ∀ c ∈ w, CSet.dot.mem c = true) : '\n' ∉ w := by
  intro hc
  have := h _ hc
  simp [CSet.mem] at this

/-- the further lines of a list -/
theorem listMore_good {s s' : St G} {w : Str} (h : s' ∈ (Re.star true listMore : R).res s) (hw : Reach s s' w) : ItemsAhead w := by
  have key : ∀ {n : Nat} {s : St G}, s' ∈ starR true listMore.res n s → ∃ w, s.rest = w ++ s'.rest ∧ ItemsAhead w := by
    intro n s h
    refine mem_starR_induct (P := fun s => ∃ w, s.rest = w ++ s'.rest ∧ ItemsAhead w) ⟨[], rfl, itemsAhead_nil⟩ ?_ h
    rintro s t ht ⟨w, hw, hg⟩
    obtain ⟨v, hv⟩ := Re.res_reach ht
    refine ⟨v ++ w, by rw [hv.rest, hw, List.append_assoc], ?_⟩
    unfold listMore at ht
    simp only [cat] at ht
    obtain ⟨t1, u1, v1, rfl, a1, b1, ht, hv⟩ := seq_reach ht hv
    obtain ⟨t2, u2, v2, rfl, a2, b2, ht, hv⟩ := seq_reach ht hv
    obtain ⟨t3, u3, v3, rfl, a3, b3, ht, hv⟩ := seq_reach ht hv
    obtain ⟨t4, u4, v4, rfl, a4, b4, ht, hv⟩ := seq_reach ht hv
    rw [mem_res_eol] at ht
    obtain ⟨_, rfl⟩ := ht
    have e5 : v4 = [] := by
      have := hv.rest
      simpa using this
    subst e5
    have e1 : u1 = ['\n'] := by
      unfold ch at a1
      rw [mem_res_cls] at a1
      obtain ⟨c, r, h1, h2, rfl⟩ := a1
      have := b1.rest
      rw [h1] at this
      simp [CSet.mem] at h2
      subst h2
      have h3 : ['\n'] ++ r = u1 ++ r := this
      exact (List.append_cancel_right h3).symm
    subst e1
    have e2 := star_cls_all a2 b2
    obtain ⟨e3, e3'⟩ := plus_cls_all a3 b3
    have e4 := dot_noNl (star_cls_all a4 b4)
    obtain ⟨c, u3, rfl⟩ := List.exists_cons_of_ne_nil e3
    have hc : c = '*' ∨ c = '#' := by
      have := e3' c (by simp)
      simpa [bulletCls, CSet.mem] using this
    have hbl : ∀ x ∈ u2, isSpace x = true := by
      intro x hx
      have := e2 x hx
      simp [CSet.mem] at this
      rcases this with rfl | rfl <;> decide +kernel
    have hnl2 : '\n' ∉ u2 := by
      intro hx
      have := e2 _ hx
      simp [CSet.mem] at this
    have hnl3 : '\n' ∉ c :: u3 := by
      intro hx
      have := e3' _ hx
      simp [CSet.mem, bulletCls] at this
    have hrest : ItemsAhead (u2 ++ (c :: u3) ++ u4 ++ w) := by
      rw [List.append_assoc, List.append_assoc]
      exact ItemsAhead.append hnl2 (ItemsAhead.append hnl3 (ItemsAhead.append e4 hg))
    have he : ['\n'] ++ (u2 ++ (c :: u3 ++ (u4 ++ []))) ++ w = '\n' :: (u2 ++ (c :: u3) ++ u4 ++ w) := by simp
    rw [he]
    intro a b e
    cases a with
    | nil =>
      simp only [List.nil_append, List.cons.injEq, true_and] at e
      rw [← e]
      exact ⟨u2, c, u3 ++ u4 ++ w, by simp, hbl, hc⟩
    | cons x a =>
      simp only [List.cons_append, List.cons.injEq] at e
      exact hrest a b e.2
  obtain ⟨v, hv, hg⟩ := key h
  rw [hw.rest] at hv
  rw [List.append_cancel_right hv]
  exact hg

/-- the text of a list -/
structure ListText (w : Str) : Prop where
  ex : ∃ sp b x d L, w = sp ++ b :: x :: (d ++ L) ∧ (∀ c ∈ sp, isSpace c = true) ∧ (b = '*' ∨ b = '#') ∧ x ≠ '*' ∧ x ≠ '#' ∧
    '\n' ∉ d ∧ ItemsAhead L

theorem cls_reach {cs : CSet} {s s' : St G} {w : Str} (h : s' ∈ (Re.cls cs : R).res s) (hw : Reach s s' w) :
    ∃ c, w = [c] ∧ cs.mem c = true := by
  rw [mem_res_cls] at h
  obtain ⟨c, r, h1, h2, rfl⟩ := h
  refine ⟨c, ?_, h2⟩
  have := hw.rest
  rw [h1] at this
  have h3 : [c] ++ r = w ++ r := this
  exact (List.append_cancel_right h3).symm

theorem listText_of {s s' : St G} {w : Str} (h : s' ∈ (Re.seq listFirst (.star true listMore) : R).res s) (hw : Reach s s' w) :
    ListText w := by
  obtain ⟨t, u, L, rfl, a, b, h, hL⟩ := seq_reach h hw
  have hg := listMore_good h hL
  unfold listFirst at a
  simp only [cat] at a
  obtain ⟨t0, u0, v0, rfl, a0, b0, a, b⟩ := seq_reach a b
  obtain ⟨t1, u1, v1, rfl, a1, b1, a, b⟩ := seq_reach a b
  obtain ⟨t2, u2, v2, rfl, a2, b2, a, b⟩ := seq_reach a b
  obtain ⟨t3, u3, v3, rfl, a3, b3, a, b⟩ := seq_reach a b
  rw [mem_res_eol] at a
  obtain ⟨_, rfl⟩ := a
  have e : v3 = [] := by
    have := b.rest
    simpa using this
  subst e
  rw [mem_res_bol] at a0
  obtain ⟨_, rfl⟩ := a0
  have e : u0 = [] := by
    have := b0.rest
    simpa using this
  subst e
  have h1 := star_cls_all a1 b1
  have h3 := dot_noNl (star_cls_all a3 b3)
  have h2 : ∃ b x, u2 = [b, x] ∧ (b = '*' ∨ b = '#') ∧ x ≠ '*' ∧ x ≠ '#' := by
    rw [mem_res_alt] at a2
    rcases a2 with a2 | a2
    all_goals
      obtain ⟨q, y, z, rfl, c1, c2, c3, c4⟩ := seq_reach a2 b2
      unfold ch at c1
      obtain ⟨bu, rfl, hb⟩ := cls_reach c1 c2
      obtain ⟨x, rfl, hx⟩ := cls_reach c3 c4
      simp [CSet.mem] at hb hx
      exact ⟨bu, x, rfl, by simp [hb], by simp [hx], by simp [hx]⟩
  obtain ⟨b', x, rfl, hb, hx⟩ := h2
  exact ⟨u1, b', x, u3, L, by simp, fun c hc => h1 c hc, hb, hx.1, hx.2, h3, hg⟩

theorem mem_star_cls {g : Bool} {cs : CSet} {caps : List (G × Str)} {rest : Str} : ∀ (w : Str) (p : Option Char) (n : Nat),
    w.length ≤ n → (∀ c ∈ w, cs.mem c = true) →
    ∃ q, (⟨q, rest, caps⟩ : St G) ∈ starR g (Re.cls cs : R).res n ⟨p, w ++ rest, caps⟩ := by
  intro w
  induction w with
  | nil =>
    intro p n _ _
    refine ⟨p, ?_⟩
    cases n with
    | zero => rw [mem_starR_zero]; rfl
    | succ n => rw [mem_starR_succ]; exact .inl rfl
  | cons c w ih =>
    intro p n hn hw
    cases n with
    | zero => simp at hn
    | succ n =>
      obtain ⟨q, hq⟩ := ih (some c) n (by simpa using hn) fun d hd => hw d (by simp [hd])
      refine ⟨q, ?_⟩
      rw [mem_starR_succ]
      refine .inr ⟨⟨some c, w ++ rest, caps⟩, ?_, hq⟩
      rw [mem_res_cls]
      exact ⟨c, w ++ rest, rfl, hw c (by simp), rfl⟩

theorem itemBody_res (s : St G) : (Re.seq itemBodyRe (.seq sps (.eol true))).res s =
      ((Re.grp G.item_head (.plus true (.cls (.union (.chr '#') (.chr '*'))))).res s).flatMap fun a => (sps.res a).flatMap fun b =>
        ((Re.star false (.cls .dot) : R).res b).flatMap fun x =>
          (Re.seq sps (.eol true) : R).res ⟨x.prev, x.rest, (.item, consumed s.rest x.rest) :: (.item_text, consumed b.rest x.rest) :: x.caps⟩ := by
  show (((Re.seq (.grp .item_head (.plus true (.cls (.union (.chr '#') (.chr '*'))))) (.seq sps (.grp .item_text anyDots)) : R).res s).map _).flatMap _ = _
  rw [List.flatMap_map]
  show (List.flatMap _ (List.flatMap _ _)) = _
  rw [List.flatMap_assoc]
  congr 1
  funext a
  show (List.flatMap _ (List.flatMap _ _)) = _
  rw [List.flatMap_assoc]
  congr 1
  funext b
  show (List.flatMap _ (List.map _ _)) = _
  rw [List.flatMap_map]
  rfl

theorem split_while (q : Char → Bool) (r : Str) : ∃ a b, r = a ++ b ∧ (∀ c ∈ a, q c = true) ∧ ∀ c t, b = c :: t → q c = false := by
  induction r with
  | nil => exact ⟨[], [], rfl, by simp, by intro c t h; cases h⟩
  | cons c r ih =>
    cases hc : q c with
    | false => exact ⟨[], c :: r, rfl, by simp, by intro d t h; cases h; exact hc⟩
    | true =>
      obtain ⟨a, b, h1, h2, h3⟩ := ih
      refine ⟨c :: a, b, by rw [h1]; rfl, ?_, h3⟩
      intro d hd
      rcases List.mem_cons.mp hd with rfl | hd
      · exact hc
      · exact h2 d hd

theorem atEol_rest {s : Str} (h : atEol true s = true) : s = [] ∨ ∃ t, s = '\n' :: t := by
  cases s with
  | nil => exact .inl rfl
  | cons c t =>
    right
    simp [atEol] at h
    subst h
    exact ⟨t, rfl⟩

/-- where the match of an item ends -/
theorem item_some {p : Option Char} {sp r : Str} {b : Char} (hp : atBol true p = true) (hsp : ∀ c ∈ sp, isSpace c = true)
    (hb : b = '*' ∨ b = '#') : ∃ y, itemRe.matchAt false p (sp ++ b :: r) = some y ∧
      y.rest <:+ r ∧ (y.rest = [] ∨ ∃ t, y.rest = '\n' :: t) ∧ ∀ c t, r = c :: t → isSpace c = true → y.rest <:+ t := by
  rw [Re.matchAt_false]
  have hbm : isMark b = true := by rcases hb with rfl | rfl <;> decide
  have e0 : (itemRe.res ⟨p, sp ++ b :: r, []⟩).head? = ((Re.seq itemBodyRe (.seq sps (.eol true))).res ⟨(sp.getLast?).or p, b :: r, []⟩).head? := by
    show ((Re.seq (.bol true) (.seq sps (Re.seq itemBodyRe (.seq sps (.eol true))))).res _).head? = _
    rw [bolSps (by decide) item_starts hp hsp (by
      intro d t h
      simp only [List.cons.injEq] at h
      rw [← h.1]; exact isMark_space hbm)]
  rw [e0, itemBody_res]
  generalize (sp.getLast?).or p = q
  obtain ⟨bs, r1, hr, hbs, hr1⟩ := split_while (CSet.union (.chr '#') (.chr '*')).mem r
  obtain ⟨s1, r2, hr2, hs1, hr2'⟩ := split_while CSet.space.mem r1
  obtain ⟨tk, r3, hr3, htk, hr3'⟩ := split_while CSet.dot.mem r2
  have h1 := Re.head_grp (g := G.item_head) (Re.head_plus_cls (γ := G) (cs := .union (.chr '#') (.chr '*')) (caps := []) (rest := r1)
      hr1 (c := b) (w := bs) (p := q) (by
        intro d hd
        rcases List.mem_cons.mp hd with rfl | hd
        · rcases hb with rfl | rfl <;> decide
        · exact hbs d hd))
  rw [← hr] at h1
  have h2 := Re.head_star_cls (γ := G) (cs := .space) (caps := [(G.item_head, consumed (b :: r) r1)]) hr2' s1 ((b :: bs).getLast?) hs1
  rw [← hr2] at h2
  obtain ⟨q3, h3⟩ := mem_star_cls (g := false) (cs := .dot) (caps := [(G.item_head, consumed (b :: r) r1)]) (rest := r3) tk
    ((s1.getLast?).or (b :: bs).getLast?) r2.length (by rw [hr3]; simp) htk
  rw [← hr3] at h3
  have heol : atEol true r3 = true := by
    cases r3 with
    | nil => rfl
    | cons c t =>
      have := hr3' c t rfl
      simp [CSet.mem] at this
      subst this
      rfl
  have hin : (⟨q3, r3, (.item, consumed (b :: r) r3) :: (.item_text, consumed r2 r3) :: [(G.item_head, consumed (b :: r) r1)]⟩ : St G) ∈
      ((Re.star false (.cls .dot) : R).res ⟨(s1.getLast?).or (b :: bs).getLast?, r2, [(G.item_head, consumed (b :: r) r1)]⟩).flatMap fun x =>
          (Re.seq sps (.eol true) : R).res ⟨x.prev, x.rest, (.item, consumed (b :: r) x.rest) :: (.item_text, consumed r2 x.rest) :: x.caps⟩ := by
    refine List.mem_flatMap.mpr ⟨_, h3, ?_⟩
    rw [mem_res_seq]
    refine ⟨_, ?_, mem_res_eol.mpr ⟨heol, rfl⟩⟩
    show _ ∈ starR _ _ _ _
    cases r3 with
    | nil => exact mem_starR_zero.mpr rfl
    | cons c t => exact mem_starR_succ.mpr (.inl rfl)
  obtain ⟨y, hy, hym⟩ := head_of_mem hin
  refine ⟨y, head_flatMap h1 (head_flatMap h2 hy), ?_⟩
  obtain ⟨x, hx, hyx⟩ := List.mem_flatMap.mp hym
  obtain ⟨wx, hwx⟩ := Re.res_reach (r := (Re.star false (.cls .dot) : R)) hx
  obtain ⟨wy, hwy⟩ := Re.res_reach hyx
  have hsuf : y.rest <:+ r2 := by
    have h4 : r2 = wx ++ x.rest := hwx.rest
    have h5 : x.rest = wy ++ y.rest := hwy.rest
    exact ⟨wx ++ wy, by rw [h4, h5, List.append_assoc]⟩
  have hsr : y.rest <:+ r := hsuf.trans ⟨bs ++ s1, by rw [hr, hr2, List.append_assoc]⟩
  refine ⟨hsr, ?_, ?_⟩
  · rw [mem_res_seq] at hyx
    obtain ⟨z, _, hz⟩ := hyx
    rw [mem_res_eol] at hz
    obtain ⟨hz, rfl⟩ := hz
    exact atEol_rest hz
  · intro c t hrt hc
    have hb0 : bs = [] := by
      cases bs with
      | nil => rfl
      | cons d bs =>
        rw [hr] at hrt
        simp only [List.cons_append, List.cons.injEq] at hrt
        have := hbs d (by simp)
        rw [hrt.1] at this
        simp [CSet.mem] at this
        rcases this with rfl | rfl <;> exact absurd hc (by decide +kernel)
    subst hb0
    rw [List.nil_append] at hr
    rw [← hr, hrt] at hr2
    cases s1 with
    | nil =>
      have := hr2' c t hr2.symm
      rw [show CSet.space.mem c = isSpace c from rfl, hc] at this
      cases this
    | cons d s1 =>
      simp only [List.cons_append, List.cons.injEq] at hr2
      exact hsuf.trans ⟨s1, hr2.2.symm⟩

theorem item_noSkip {w : Str} (hw : ListText w) : ∀ c, Seg.skip c ∈ itemRe.scan w → keeps c = false := by
  refine Re.scanAux_noSkip_inv (r := itemRe) (by decide +kernel) (Inv := fun p s => (p = none ∧ ListText s) ∨
    (ItemsAhead s ∧ (s = [] ∨ ∃ t, s = '\n' :: t)) ∨
    (ItemsAhead s ∧ p = some '\n' ∧ ∃ sp b r, s = sp ++ b :: r ∧ (∀ c ∈ sp, isSpace c = true) ∧ (b = '*' ∨ b = '#'))) ?_ ?_ _ w rfl none (.inl ⟨rfl, hw⟩)
  · intro p c cs hi hm
    rcases hi with ⟨rfl, h⟩ | ⟨hg, h⟩ | ⟨_, rfl, sp, b, r, h, hsp, hb⟩
    · obtain ⟨sp, b, x, d, L, e, hsp, hb, _⟩ := h.ex
      obtain ⟨y, hy, _⟩ := item_some (p := none) (r := x :: (d ++ L)) rfl hsp hb
      rw [← e, hm] at hy
      cases hy
    · rcases h with h | ⟨t, h⟩
      · cases h
      · cases h
        refine ⟨by decide +kernel, .inr (.inr ⟨hg.suffix ⟨['\n'], rfl⟩, rfl, ?_⟩)⟩
        exact hg [] cs rfl
    · obtain ⟨y, hy, _⟩ := item_some (p := some '\n') (r := r) rfl hsp hb
      rw [← h, hm] at hy
      cases hy
  · intro p s v s' hi hv hs hm
    refine .inr (.inl ?_)
    rcases hi with ⟨rfl, h⟩ | ⟨hg, h⟩ | ⟨hg, rfl, sp, b, r, h, hsp, hb⟩
    · obtain ⟨sp, b, x, d, L, e, hsp, hb, hx1, hx2, hd, hL⟩ := h.ex
      obtain ⟨y, hy, h1, h2, h3⟩ := item_some (p := none) (r := x :: (d ++ L)) rfl hsp hb
      rw [← e, hm] at hy
      cases hy
      refine ⟨?_, h2⟩
      cases hx : isSpace x with
      | true => exact (ItemsAhead.append hd hL).suffix (h3 x _ rfl hx)
      | false =>
        refine ItemsAhead.suffix ?_ h1
        have : '\n' ∉ x :: d := by
          intro hc
          rcases List.mem_cons.mp hc with rfl | hc
          · exact absurd hx (by decide +kernel)
          · exact hd hc
        exact ItemsAhead.append (d := x :: d) this hL
    · have hsuf : s'.rest <:+ s := ⟨v, hs.symm⟩
      refine ⟨hg.suffix hsuf, ?_⟩
      have hmem := Re.matchAt_mem hm
      unfold itemRe at hmem
      simp only [cat] at hmem
      obtain ⟨_, _, hmem⟩ := mem_res_seq.mp hmem
      obtain ⟨_, _, hmem⟩ := mem_res_seq.mp hmem
      obtain ⟨_, _, hmem⟩ := mem_res_seq.mp hmem
      obtain ⟨_, _, hmem⟩ := mem_res_seq.mp hmem
      obtain ⟨hz, rfl⟩ := mem_res_eol.mp hmem
      exact atEol_rest hz
    · obtain ⟨y, hy, h1, h2, h3⟩ := item_some (p := some '\n') (r := r) rfl hsp hb
      rw [← h, hm] at hy
      cases hy
      exact ⟨hg.suffix ⟨v, hs.symm⟩, h2⟩

end Verif.Creole
