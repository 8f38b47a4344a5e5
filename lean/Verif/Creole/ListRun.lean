import Verif.Creole.ListTree

/-!
# Reading a list
-/

namespace Verif.Creole

open Verif Re Py Spec Spec.Cr

variable {env : Env} {sg : Stage} {ms : Macros} {cx : Ctx} [hcx : CxOk env ms cx]

/-! ## One item -/

theorem head_flatMap {α β : Type} {l : List α} {f : α → List β} {x : α} {y : β} (h1 : l.head? = some x) (h2 : (f x).head? = some y) :
    (l.flatMap f).head? = some y := by
  cases l with
  | nil => simp at h1
  | cons a l =>
    simp only [List.head?_cons, Option.some.injEq] at h1
    subst h1
    rw [List.flatMap_cons, List.head?_append, h2]; rfl

/-- marks of list items -/
def isMark (c : Char) : Bool := c == '*' || c == '#'

theorem isMark_space {c : Char} (h : isMark c = true) : isSpace c = false := by
  simp only [isMark, Bool.or_eq_true, beq_iff_eq] at h
  rcases h with rfl | rfl <;> decide

def itemBodyRe : R := .grp .item (cat [.grp .item_head (.plus true (.cls (.union (.chr '#') (.chr '*')))), sps, .grp .item_text anyDots])

theorem item_starts (c : Char) (h : isSpace c = true) : (Re.seq itemBodyRe (.seq sps (.eol true))).starts c = false := by
  have h1 : c ≠ '*' := by rintro rfl; exact absurd h (by decide)
  have h2 : c ≠ '#' := by rintro rfl; exact absurd h (by decide)
  simp [itemBodyRe, cat, plus, Re.starts, Re.nullable, CSet.mem, h1, h2]

/-- what may stand behind an item -/
def ItemEnd (r : Str) : Prop := r = [] ∨ ∃ s, r = '\n' :: s ∧ Nonblank s

theorem ItemEnd.eol {r : Str} (h : ItemEnd r) (p : Option Char) (caps : List (G × Str)) :
    ((Re.seq sps (.eol true) : R).res ⟨p, r, caps⟩).head? = some ⟨p, r, caps⟩ := by
  rcases h with rfl | ⟨s, rfl, hs⟩
  · have := spsEol_end (a := []) (p := p) (caps := caps) (by simp)
    simpa using this
  · rw [hs.spsEol_lead]; rfl

theorem item_match {p : Option Char} {w m text r : Str} (hp : atBol true p = true) (hw : ∀ c ∈ w, isSpace c = true) (hm : m ≠ [])
    (hmk : ∀ c ∈ m, isMark c = true) (ht : trimmed text = true) (hr : ItemEnd r) :
    itemRe.matchAt false p ((w ++ (m ++ ' ' :: text)) ++ r) =
      some ⟨text.getLast?, r, [(.item, m ++ ' ' :: text), (.item_text, text), (.item_head, m)]⟩ := by
  obtain ⟨hne, hfst, hlst, hnl⟩ := trimmed_iff ht
  rw [Re.matchAt_false, List.append_assoc]
  show ((Re.seq (.bol true) (.seq sps (Re.seq itemBodyRe (.seq sps (.eol true))))).res _).head? = _
  obtain ⟨c, m', rfl⟩ := List.exists_cons_of_ne_nil hm
  rw [bolSps (by decide) item_starts hp hw (by
    intro d t h
    simp only [List.cons_append, List.cons.injEq] at h
    rw [← h.1]; exact isMark_space (hmk c (by simp)))]
  generalize hq : (w.getLast?).or p = q
  have e : ∀ s, (Re.seq itemBodyRe (.seq sps (.eol true))).res s =
      ((Re.grp G.item_head (.plus true (.cls (.union (.chr '#') (.chr '*'))))).res s).flatMap fun a => (sps.res a).flatMap fun b =>
        ((Re.star false (.cls .dot) : R).res b).flatMap fun x =>
          (Re.seq sps (.eol true) : R).res ⟨x.prev, x.rest, (.item, consumed s.rest x.rest) :: (.item_text, consumed b.rest x.rest) :: x.caps⟩ := by
    intro s
    show (((Re.seq (.grp .item_head (.plus true (.cls (.union (.chr '#') (.chr '*'))))) (.seq sps (.grp .item_text anyDots)) : R).res s).map _).flatMap _ = _
    rw [List.flatMap_map]
    show (List.flatMap _ (List.flatMap _ _)) = _
    rw [List.flatMap_assoc]
    congr 1
    funext a
    show (List.flatMap _ (List.flatMap _ _)) = _
    rw [List.flatMap_assoc]
    congr 1
    funext b
    show (List.flatMap _ (List.map _ _)) = _
    rw [List.flatMap_map]
    rfl
  rw [e]
  have h1 : ((Re.grp G.item_head (.plus true (.cls (.union (.chr '#') (.chr '*'))))).res ⟨q, (c :: m') ++ ' ' :: text ++ r, []⟩).head? =
      some ⟨(c :: m').getLast?, ' ' :: (text ++ r), [(.item_head, c :: m')]⟩ := by
    have := Re.head_grp (g := G.item_head) (Re.head_plus_cls (γ := G) (cs := .union (.chr '#') (.chr '*')) (caps := []) (rest := ' ' :: (text ++ r))
      (by intro d t h; simp only [List.cons.injEq] at h; rw [← h.1]; decide) (c := c) (w := m') (p := q) (by
        intro d hd
        have := hmk d hd
        simp only [isMark, Bool.or_eq_true, beq_iff_eq] at this
        simp only [CSet.mem, Bool.or_eq_true, beq_iff_eq]
        exact this.symm))
    have hc : consumed (c :: (m' ++ ' ' :: (text ++ r))) (' ' :: (text ++ r)) = c :: m' := consumed_append (c :: m') _
    simp only [hc] at this
    simpa using this
  refine head_flatMap h1 ?_
  have hsp : ((sps : R).res ⟨(c :: m').getLast?, c!" " ++ (text ++ r), [(.item_head, c :: m')]⟩).head? =
      some ⟨some ' ', text ++ r, [(.item_head, c :: m')]⟩ := by
    have := Re.head_star_cls (γ := G) (cs := .space) (caps := [(.item_head, c :: m')]) (rest := text ++ r) (by
      intro d t h
      cases text with
      | nil => exact absurd rfl hne
      | cons d' t' =>
        simp only [List.cons_append, List.cons.injEq] at h
        rw [← h.1]; exact hfst d' t' rfl) c!" " ((c :: m').getLast?) (by intro d hd; simp at hd; subst hd; decide)
    exact this
  refine head_flatMap hsp ?_
  refine Re.head_lazy (Step.cls .dot) text (some ' ') ?_ ?_ ?_
  · intro d hd
    simp only [CSet.mem, bne_iff_ne, ne_eq]
    rintro rfl; exact hnl hd
  · intro u v huv hv
    have hvn : '\n' ∉ v := fun h => hnl (by rw [huv]; exact List.mem_append_right _ h)
    have hlt : lineText v = true := by
      simp only [lineText, Bool.and_eq_true, Bool.not_eq_true', List.contains_eq_mem, decide_eq_false_iff_not]
      refine ⟨?_, hvn⟩
      rw [Bool.eq_false_iff]
      intro hall
      have := hlst (v.getLast hv) (by rw [huv, List.getLast?_append, List.getLast?_eq_some_getLast hv]; rfl)
      rw [List.all_eq_true.1 hall _ (List.getLast_mem hv)] at this
      exact absurd this (by decide)
    exact (nonblank_of_lineText hlt r).spsEol _ _
  · have c1 : consumed ((c :: m') ++ ' ' :: text ++ r) r = (c :: m') ++ ' ' :: text := consumed_append _ _
    have c2 : consumed (text ++ r) r = text := consumed_append _ _
    have hl : (text.getLast?).or (some ' ') = text.getLast? := by
      rw [List.getLast?_eq_some_getLast hne]; rfl
    simp only [c1, c2, hl]
    exact hr.eol _ _

/-! ## All items -/

def hitLine (x : Str × Str) : Str := x.1 ++ ' ' :: x.2

def HitOk (x : Str × Str) : Prop := x.1 ≠ [] ∧ (∀ c ∈ x.1, isMark c = true) ∧ trimmed x.2 = true

def itemDispatch (g : G) (m : Match G) (st : PS) : PM :=
  match g with
  | .item | .item_head | .item_text => itemRepl m st
  | _ => .error .attributeError

theorem HitOk.nonblank {x : Str × Str} (h : HitOk x) (r : Str) : Nonblank (hitLine x ++ r) := by
  obtain ⟨h1, h2, _⟩ := h
  obtain ⟨c, m, hc⟩ := List.exists_cons_of_ne_nil h1
  unfold hitLine
  rw [hc]
  exact nonblank_cons (isMark_space (h2 c (by rw [hc]; simp)))

theorem HitOk.last {x : Str × Str} (h : HitOk x) : (hitLine x).getLast? = x.2.getLast? ∧ atBol true x.2.getLast? = false := by
  obtain ⟨_, _, h3⟩ := h
  obtain ⟨hne, _, _, hnl⟩ := trimmed_iff h3
  refine ⟨?_, atBol_last hnl hne⟩
  unfold hitLine
  rw [List.getLast?_append, List.getLast?_cons, List.getLast?_eq_some_getLast hne]
  rfl

theorem itemRe_nil : itemRe.nullable = false := by decide

theorem items_run : ∀ {L : List (Str × Str)} {x : Str × Str} {p : Option Char} {w : Str} {st : PS}, (∀ y ∈ x :: L, HitOk y) → atBol true p = true →
    (∀ c ∈ w, isSpace c = true) →
    runR itemRe itemDispatch p (w ++ (hitLine x ++ nls (L.map hitLine))) st = (x :: L).foldlM itemHit st := by
  intro L
  induction L with
  | nil =>
    intro x p w st hx hp hw
    have h := hx x (by simp)
    have hm := item_match (p := p) (w := w) (r := []) hp hw h.1 h.2.1 h.2.2 (.inl rfl)
    have := runR_take (h := itemDispatch) (st := st) (w := w ++ (x.1 ++ ' ' :: x.2)) (by simp) hm
    simp only [List.append_nil] at this
    simp only [List.map_nil, nls, List.flatMap_nil, List.append_nil, hitLine]
    rw [this]
    show (itemHit st x >>= _) = _
    simp only [List.foldlM_cons, List.foldlM_nil]
    congr 1
    funext st
    exact runR_nil itemRe_nil
  | cons y L ih =>
    intro x p w st hx hp hw
    have h := hx x (by simp)
    have hy := hx y (by simp)
    have hm := item_match (p := p) (w := w) (r := '\n' :: (hitLine y ++ nls (L.map hitLine))) hp hw h.1 h.2.1 h.2.2 (.inr ⟨_, rfl, hy.nonblank _⟩)
    have := runR_take (h := itemDispatch) (st := st) (w := w ++ (x.1 ++ ' ' :: x.2)) (by simp) hm
    rw [List.map_cons, nls_cons, ← List.append_assoc]
    show runR itemRe itemDispatch p (w ++ (x.1 ++ ' ' :: x.2) ++ _) st = _
    rw [this]
    show (itemHit st x >>= _) = _
    rw [List.foldlM_cons]
    congr 1
    funext st
    have hl : (w ++ (x.1 ++ ' ' :: x.2)).getLast? = x.2.getLast? := by
      have := h.last.1
      unfold hitLine at this
      rw [List.getLast?_append, this, List.getLast?_eq_some_getLast (trimmed_iff h.2.2).1]
      rfl
    rw [hl, runR_skip]
    · have := ih (x := y) (p := some '\n') (w := []) (st := st) (fun z hz => hx z (by simp at hz ⊢; exact .inr hz)) rfl (by simp)
      simpa using this
    · rw [Re.matchAt_false]
      show ((Re.seq (.bol true) _ : R).res _).head? = none
      rw [Re.res_seq_nil (bol_no h.last.2)]
      rfl

/-! ## The lines of a list -/

theorem items_lines (l : List Item) : l.map Item.line = (l.map hitOf).map hitLine := by
  rw [List.map_map]
  congr 1
  funext i
  simp [Item.line, hitLine, hitOf]

theorem item_hits {i : Item} (hok : i.ok cx = true) : HitOk (hitOf i) := by
  simp only [Item.ok, Bool.and_eq_true, List.all_eq_true] at hok
  obtain ⟨⟨⟨hpre, _⟩, htr⟩, _⟩ := hok
  refine ⟨by simp [hitOf], ?_, htr⟩
  intro c hc
  simp only [hitOf, List.mem_append, List.mem_singleton] at hc
  rcases hc with hc | rfl
  · exact hpre c hc
  · cases i.kind <;> rfl

/-! ## The rule for lists -/

/-- no mark of a list item comes after spaces and tabs -/
def NoMark (x : Str) : Prop := ∀ w c t, x = w ++ c :: t → (∀ d ∈ w, d = ' ' ∨ d = '\t') → isMark c = false

theorem noMark_blank {g r : Str} (hg : ∀ c ∈ g, isSpace c = true) (hr : atEol true r = true) : NoMark (g ++ r) := by
  intro w c t h hw
  induction g generalizing w with
  | nil =>
    rcases atEol_cases hr with rfl | ⟨t', rfl⟩
    · simp at h
    · cases w with
      | nil => simp only [List.nil_append, List.cons.injEq] at h; rw [← h.1]; decide
      | cons d w =>
        simp only [List.nil_append, List.cons_append, List.cons.injEq] at h
        have := hw d (by simp)
        rw [← h.1] at this
        exact absurd this (by decide)
  | cons a g ih =>
    cases w with
    | nil =>
      simp only [List.nil_append, List.cons_append, List.cons.injEq] at h
      have := hg a (by simp)
      rw [h.1] at this
      rw [Bool.eq_false_iff]
      intro hh
      rw [isMark_space hh] at this
      exact absurd this (by decide)
    | cons d w =>
      simp only [List.cons_append, List.cons.injEq] at h
      exact ih (fun c hc => hg c (by simp [hc])) w h.2 (fun e he => hw e (by simp [he]))

theorem noMark_cons {c : Char} {s : Str} (h1 : isSpace c = false) (h2 : isMark c = false) : NoMark (c :: s) := by
  intro w d t h hw
  cases w with
  | nil => simp only [List.nil_append, List.cons.injEq] at h; rw [← h.1]; exact h2
  | cons e w =>
    simp only [List.cons_append, List.cons.injEq] at h
    have := hw e (by simp)
    rw [← h.1] at this
    rcases this with rfl | rfl <;> exact absurd h1 (by decide)

/-- the results of `[ \t]*` -/
theorem mem_blanks {s s' : St G} (h : s' ∈ (blanks : R).res s) : ∃ w, s.rest = w ++ s'.rest ∧ ∀ c ∈ w, c = ' ' ∨ c = '\t' := by
  have : ∀ {n : Nat} {s : St G}, s' ∈ starR true (Re.cls (.union (.chr ' ') (.chr '\t')) : R).res n s →
      ∃ w, s.rest = w ++ s'.rest ∧ ∀ c ∈ w, c = ' ' ∨ c = '\t' := by
    intro n s h
    refine mem_starR_induct (P := fun s => ∃ w, s.rest = w ++ s'.rest ∧ ∀ c ∈ w, c = ' ' ∨ c = '\t') ⟨[], by simp⟩ ?_ h
    intro s t ht hp
    rw [mem_res_cls] at ht
    obtain ⟨c, r, h1, h2, rfl⟩ := ht
    obtain ⟨w, h3, h4⟩ := hp
    refine ⟨c :: w, by rw [h1, List.cons_append]; simp at h3; rw [h3], ?_⟩
    intro d hd
    simp only [List.mem_cons] at hd
    rcases hd with rfl | hd
    · simpa [CSet.mem] using h2
    · exact h4 d hd
  exact this h

theorem listMore_nil {p : Option Char} {x : Str} {caps : List (G × Str)} (h : x = [] ∨ ∃ y, x = '\n' :: y ∧ NoMark y) :
    listMore.res ⟨p, x, caps⟩ = [] := by
  rcases h with rfl | ⟨y, rfl, hy⟩
  · rfl
  · unfold listMore cat
    have h1 : (ch '\n' : R).res ⟨p, '\n' :: y, caps⟩ = [⟨some '\n', y, caps⟩] := by simp [ch, Re.res, CSet.mem]
    rw [res_seq_one h1]
    show (Re.seq blanks (cat [.plus true (.cls bulletCls), .star true dot, .eol true])).res ⟨some '\n', y, caps⟩ = []
    cases hl : (Re.seq blanks (cat [.plus true (.cls bulletCls), .star true dot, .eol true])).res ⟨some '\n', y, caps⟩ with
    | nil => rfl
    | cons z zs =>
      exfalso
      obtain ⟨a, ha, hz⟩ := res_seq_mem (x := z) (by rw [hl]; simp)
      obtain ⟨w, h2, h3⟩ := mem_blanks ha
      obtain ⟨b, hb, _⟩ := res_seq_mem hz
      obtain ⟨c', hc', _⟩ := res_seq_mem (show b ∈ (Re.seq (.cls bulletCls) (.star true (.cls bulletCls)) : R).res a from hb)
      rw [mem_res_cls] at hc'
      obtain ⟨c, r, h4, h5, _⟩ := hc'
      have := hy w c r (by rw [← h4]; exact h2) h3
      simp [bulletCls, CSet.mem] at h5
      simp [isMark] at this
      rcases h5 with h5 | h5
      · exact this.1 h5
      · exact this.2 h5

theorem dotsEol {p : Option Char} {w r : Str} {caps : List (G × Str)} (hw : '\n' ∉ w) (hr : atEol true r = true) :
    ((Re.seq (.star true dot) (.eol true) : R).res ⟨p, w ++ r, caps⟩).head? = some ⟨(w.getLast?).or p, r, caps⟩ := by
  refine Re.head_seq (Re.head_star_cls (cs := .dot) ?_ w p ?_) (by rw [eol_yes hr]; rfl)
  · intro c t h
    rcases atEol_cases hr with rfl | ⟨t', rfl⟩
    · simp at h
    · simp only [List.cons.injEq] at h; rw [← h.1]; decide
  · intro c hc
    simp only [CSet.mem, bne_iff_ne, ne_eq]
    rintro rfl; exact hw hc

theorem hitLine_nl {x : Str × Str} (h : HitOk x) : '\n' ∉ hitLine x := by
  obtain ⟨_, h2, h3⟩ := h
  unfold hitLine
  simp only [List.mem_append, List.mem_cons, not_or]
  refine ⟨fun hh => absurd (h2 _ hh) (by decide), by decide, (trimmed_iff h3).2.2.2⟩

theorem listMore_head {p : Option Char} {x : Str × Str} {r : Str} {caps : List (G × Str)} (hx : HitOk x) (hr : atEol true r = true) :
    (listMore.res ⟨p, '\n' :: (hitLine x ++ r), caps⟩).head? = some ⟨(hitLine x).getLast?, r, caps⟩ := by
  have hnl := hitLine_nl hx
  obtain ⟨h1, h2, h3⟩ := hx
  unfold listMore cat
  have e1 : (ch '\n' : R).res ⟨p, '\n' :: (hitLine x ++ r), caps⟩ = [⟨some '\n', hitLine x ++ r, caps⟩] := by simp [ch, Re.res, CSet.mem]
  rw [res_seq_one e1]
  obtain ⟨c, m, hc⟩ := List.exists_cons_of_ne_nil h1
  unfold hitLine at hnl ⊢
  rw [hc] at h2 hnl ⊢
  have e2 : ((blanks : R).res ⟨some '\n', (c :: m ++ ' ' :: x.2) ++ r, caps⟩).head? = some ⟨some '\n', (c :: m ++ ' ' :: x.2) ++ r, caps⟩ :=
    Re.head_star_cls (γ := G) (cs := .union (.chr ' ') (.chr '\t')) (caps := caps) (rest := (c :: m ++ ' ' :: x.2) ++ r) (by
      intro d t h
      simp only [List.cons_append, List.cons.injEq] at h
      rw [← h.1]
      have := h2 c (by simp)
      simp only [isMark, Bool.or_eq_true, beq_iff_eq] at this
      rcases this with rfl | rfl <;> decide) [] (some '\n') (by simp)
  refine Re.head_seq e2 ?_
  have e3 : ((Re.plus true (.cls bulletCls) : R).res ⟨some '\n', (c :: m ++ ' ' :: x.2) ++ r, caps⟩).head? =
      some ⟨(c :: m).getLast?, ' ' :: (x.2 ++ r), caps⟩ := by
    have := Re.head_plus_cls (γ := G) (cs := bulletCls) (caps := caps) (rest := ' ' :: (x.2 ++ r)) (by
      intro d t h; simp only [List.cons.injEq] at h; rw [← h.1]; decide) (c := c) (w := m) (p := some '\n') (by
        intro d hd
        have := h2 d hd
        simp only [isMark, Bool.or_eq_true, beq_iff_eq] at this
        simpa [bulletCls, CSet.mem] using this)
    simpa using this
  refine Re.head_seq e3 ?_
  have e4 := dotsEol (p := (c :: m).getLast?) (w := ' ' :: x.2) (r := r) (caps := caps) (fun hh => hnl (List.mem_append_right _ hh)) hr
  have hl : ((' ' :: x.2).getLast?).or (c :: m).getLast? = (c :: m ++ ' ' :: x.2).getLast? := by
    rw [List.getLast?_append]
  rw [hl] at e4
  exact e4

/-- one more round of a greedy repetition -/
theorem head_star_more {b : R} {s x y : St G} (h1 : (b.res s).head? = some x) (hlen : x.rest.length < s.rest.length)
    (h2 : ∀ n, x.rest.length ≤ n → (starR true b.res n x).head? = some y) :
    ∀ n, s.rest.length ≤ n → (starR true b.res n s).head? = some y := by
  intro n hn
  cases n with
  | zero => omega
  | succ n =>
    simp only [starR, if_true]
    rw [List.head?_append, head_flatMap h1 (h2 n (by omega))]
    rfl

theorem head_star_end {b : R} {s : St G} (h : b.res s = []) : ∀ n, (starR true b.res n s).head? = some s := by
  intro n
  cases n with
  | zero => rfl
  | succ n => simp [starR, h]

theorem listMore_star {r : Str} {caps : List (G × Str)} (hr : r = [] ∨ ∃ y, r = '\n' :: y ∧ NoMark y) (hre : atEol true r = true) :
    ∀ {L : List (Str × Str)} {p : Option Char}, (∀ x ∈ L, HitOk x) → ∀ n, (nls (L.map hitLine) ++ r).length ≤ n →
    (starR true listMore.res n ⟨p, nls (L.map hitLine) ++ r, caps⟩).head? = some ⟨((nls (L.map hitLine)).getLast?).or p, r, caps⟩ := by
  intro L
  induction L with
  | nil => intro p _ n _; exact head_star_end (listMore_nil hr) n
  | cons x L ih =>
    intro p hx n hn
    have hxx := hx x (by simp)
    have e : nls ((x :: L).map hitLine) ++ r = '\n' :: (hitLine x ++ (nls (L.map hitLine) ++ r)) := by
      rw [List.map_cons, nls_cons]; simp
    rw [e] at hn ⊢
    have h1 := listMore_head (p := p) (caps := caps) (r := nls (L.map hitLine) ++ r) hxx (by
      cases L with
      | nil => exact hre
      | cons z L => rw [List.map_cons, nls_cons]; rfl)
    have h2 := ih (p := (hitLine x).getLast?) (fun z hz => hx z (by simp [hz]))
    have hlast : ((nls (L.map hitLine)).getLast?).or (hitLine x).getLast? = ((nls ((x :: L).map hitLine)).getLast?).or p := by
      rw [List.map_cons, nls_cons, List.getLast?_cons, List.getLast?_append]
      have : (hitLine x).getLast? = some ((hitLine x).getLast (by unfold hitLine; simp)) := List.getLast?_eq_some_getLast _
      rw [this]
      cases (nls (L.map hitLine)).getLast? <;> rfl
    rw [hlast] at h2
    exact head_star_more h1 (by simp; omega) h2 n hn

theorem listHead_head {p : Option Char} {k : Mark} {text r : Str} {caps : List (G × Str)} (ht : '\n' ∉ text) (hne : text ≠ []) (hr : atEol true r = true) :
    (listHead.res ⟨p, (k.char :: ' ' :: text) ++ r, caps⟩).head? = some ⟨text.getLast?, r, caps⟩ := by
  have h1 : ((Re.alt (.seq (ch '*') (.cls (.compl (.union (.chr '*') (.chr '#')))))
      (.seq (ch '#') (.cls (.compl (.union (.chr '#') (.chr '*')))))).res ⟨p, k.char :: ' ' :: (text ++ r), caps⟩) = [⟨some ' ', text ++ r, caps⟩] := by
    cases k <;> simp [Re.res, ch, CSet.mem, Mark.char]
  unfold listHead cat
  rw [List.cons_append, List.cons_append, res_seq_one h1]
  have := dotsEol (p := some ' ') (caps := caps) ht hr
  have hl : (text.getLast?).or (some ' ') = text.getLast? := by
    rw [List.getLast?_eq_some_getLast hne]; rfl
  rw [hl] at this
  exact this

theorem list_hit {blog lead : Bool} {p : Option Char} {k : Mark} {text r : Str} {L : List (Str × Str)} {st : PS} (hp : atBol true p = true)
    (ht : trimmed text = true) (hL : ∀ x ∈ L, HitOk x) (hr : r = [] ∨ ∃ y, r = '\n' :: y ∧ NoMark y) (hre : atEol true r = true) :
    ∃ q, atBol true q = false ∧ runL blog lead p (hitLine ([k.char], text) ++ nls (L.map hitLine) ++ r) st =
      ((((([k.char], text) : Str × Str) :: L).foldlM itemHit st) >>= runR (blockRe blog) blockRepl q r) := by
  have h0 : HitOk ([k.char], text) := ⟨by simp, by intro c hc; simp at hc; subst hc; cases k <;> rfl, ht⟩
  obtain ⟨hne, hfst, _, hnl⟩ := trimmed_iff ht
  have hk : isSpace k.char = false := by cases k <;> decide
  obtain ⟨h1, h2⟩ := first_rules (lead := lead) (p := p) (c := k.char) (s := ' ' :: text ++ nls (L.map hitLine) ++ r) hp hk (by cases k <;> decide) (by cases k <;> decide)
  have hall : '\n' ∉ hitLine ([k.char], text) := hitLine_nl h0
  have hsep : ∀ (w : Str), (∀ c ∈ w, isSpace c = true) → separatorRule.res ⟨p, w ++ (hitLine ([k.char], text) ++ nls (L.map hitLine) ++ r), []⟩ = [] := by
    intro w hw
    rw [List.append_assoc]
    refine sep_nil hw ?_ (by unfold hitLine; simp) hall ?_ ?_
    · intro c t h
      unfold hitLine at h
      simp only [List.cons_append, List.cons.injEq] at h
      rw [← h.1]; exact hk
    · cases L with
      | nil => exact hre
      | cons z L => rw [List.map_cons, nls_cons]; rfl
    · unfold hitLine; cases k <;> simp [Mark.char, List.isPrefixOf]
  have hpre : ∀ (w : Str), (∀ c ∈ w, isSpace c = true) → preBlockRule.res ⟨p, w ++ (hitLine ([k.char], text) ++ nls (L.map hitLine) ++ r), []⟩ = [] := by
    intro w hw
    refine preBlock_nil ?_
    intro t h
    exfalso
    cases w with
    | nil => unfold hitLine at h; cases k <;> simp [Mark.char] at h
    | cons c w =>
      have := hw c (by simp)
      simp only [List.cons_append, List.cons.injEq] at h
      rw [h.1] at this
      exact absurd this (by decide)
  have hlast : (hitLine ([k.char], text) ++ nls (L.map hitLine)).getLast? = ((nls (L.map hitLine)).getLast?).or text.getLast? := by
    rw [List.getLast?_append, h0.last.1]
  have e := runL_take (blog := blog) (lead := lead) (l₁ := [macroBlockRule, lineRule, headRule, separatorRule, preBlockRule])
    (l₂ := [tableRule, textRule blog]) (a := listRule) rfl (p := p) (s := hitLine ([k.char], text) ++ nls (L.map hitLine) ++ r)
    (w := leadStr lead ++ (hitLine ([k.char], text) ++ nls (L.map hitLine))) (rest := r)
    (caps := [(.list, leadStr lead ++ (hitLine ([k.char], text) ++ nls (L.map hitLine)))]) (st := st)
    (p' := ((nls (L.map hitLine)).getLast?).or text.getLast?) ?_ ?_ ?_ (by simp) (by unfold hitLine; simp)
  · refine ⟨(leadStr lead ++ (hitLine ([k.char], text) ++ nls (L.map hitLine))).getLast?, ?_, ?_⟩
    · have hL2 : atBol true (((nls (L.map hitLine)).getLast?).or text.getLast?) = false := by
        cases hL' : L.getLast? with
        | none =>
          have : L = [] := by simpa using hL'
          subst this
          exact atBol_last hnl hne
        | some z =>
          obtain ⟨M, rfl⟩ : ∃ M, L = M ++ [z] := by
            have := List.getLast?_eq_some_iff.1 hL'
            exact this
          have hz := hL z (by simp)
          rw [List.map_append, nls_append]
          have : nls ([z].map hitLine) = '\n' :: hitLine z := by simp [nls]
          rw [this, List.getLast?_append, List.getLast?_cons, hz.last.1]
          have h3 := hz.last.2
          have hne' := (trimmed_iff hz.2.2).1
          rw [List.getLast?_eq_some_getLast hne'] at h3 ⊢
          exact h3
      rw [List.getLast?_append, hlast]
      cases hx : ((nls (L.map hitLine)).getLast?).or text.getLast? with
      | none => rw [List.getLast?_eq_some_getLast hne] at hx; cases h : (nls (L.map hitLine)).getLast? <;> rw [h] at hx <;> simp at hx
      | some c => rw [hx] at hL2; exact hL2
    · rw [e, onHitB_list]
      congr 1
      show listRepl _ st = _
      unfold listRepl
      have hn : need (Match.mk (leadStr lead ++ (hitLine ([k.char], text) ++ nls (L.map hitLine)))
        [(G.list, leadStr lead ++ (hitLine ([k.char], text) ++ nls (L.map hitLine)))]) .list =
        .ok (leadStr lead ++ (hitLine ([k.char], text) ++ nls (L.map hitLine))) := rfl
      rw [hn, ok_bind]
      show subAll itemRe itemDispatch _ st = _
      rw [subAll_eq]
      exact items_run (by
        intro y hy
        rw [List.mem_cons] at hy
        rcases hy with rfl | hy
        · exact h0
        · exact hL y hy) rfl (leadStr_space lead)
  · intro hl q hq
    simp only [List.mem_cons, List.not_mem_nil, or_false] at hq
    rcases hq with rfl | rfl | rfl | rfl | rfl
    · exact h1 hl _ (by simp)
    · exact h1 hl _ (by simp)
    · exact h1 hl _ (by simp)
    · exact hsep [] (by simp)
    · exact hpre [] (by simp)
  · intro hl q hq y hy
    simp only [List.mem_cons, List.not_mem_nil, or_false] at hq
    rcases hq with rfl | rfl | rfl | rfl | rfl
    · exact h2 hl _ (by simp) y hy
    · exact h2 hl _ (by simp) y hy
    · exact h2 hl _ (by simp) y hy
    · have := hsep c!"\n" (by intro c hc; simp at hc; subst hc; decide)
      rw [List.cons_append, List.nil_append] at this
      rw [this] at hy; simp at hy
    · have := hpre c!"\n" (by intro c hc; simp at hc; subst hc; decide)
      rw [List.cons_append, List.nil_append] at this
      rw [this] at hy; simp at hy
  · rw [list_res hp (leadStr_space lead) (by
      intro c t' h
      unfold hitLine at h
      simp only [List.cons_append, List.cons.injEq] at h
      rw [← h.1]; exact hk), List.head?_map]
    have hh := listHead_head (p := ((leadStr lead).getLast?).or p) (k := k) (caps := []) (r := nls (L.map hitLine) ++ r) hnl hne (by
      cases L with
      | nil => exact hre
      | cons z L => rw [List.map_cons, nls_cons]; rfl)
    have hs := listMore_star (caps := []) hr hre (p := text.getLast?) hL (nls (L.map hitLine) ++ r).length (Nat.le_refl _)
    have := head_flatMap (f := (Re.star true listMore).res) hh hs
    have e1 : hitLine ([k.char], text) ++ nls (L.map hitLine) ++ r = (k.char :: ' ' :: text) ++ (nls (L.map hitLine) ++ r) := by
      unfold hitLine; simp
    rw [e1, this]
    simp only [Option.map_some]
    have hc : consumed (leadStr lead ++ ((k.char :: ' ' :: text) ++ (nls (L.map hitLine) ++ r))) r =
        leadStr lead ++ (hitLine ([k.char], text) ++ nls (L.map hitLine)) := by
      have := consumed_append (leadStr lead ++ (hitLine ([k.char], text) ++ nls (L.map hitLine))) r
      rw [← this]
      congr 1
      unfold hitLine; simp
    rw [hc]

/-! ## Lists -/

theorem rest_noMark {gap : List Str} {o : Option Str} (hR : Rest gap o) (hf : gap = [] → ∀ s, o = some s → ∃ c s', s = c :: s' ∧ isSpace c = false ∧ c ≠ '*' ∧ c ≠ '#') :
    rest gap o = [] ∨ ∃ y, rest gap o = '\n' :: y ∧ NoMark y := by
  cases gap with
  | nil =>
    cases o with
    | none => exact .inl rfl
    | some s =>
      obtain ⟨c, s', rfl, h1, h2, h3⟩ := hf rfl s rfl
      exact .inr ⟨_, rfl, noMark_cons h1 (by simp [isMark, h2, h3])⟩
  | cons g gs =>
    rw [rest_cons]
    refine .inr ⟨_, rfl, ?_⟩
    rw [List.append_assoc]
    exact noMark_blank (blank_iff (hR.gap g (by simp))).1 (nls_eol gs o)

theorem step_list {blog : Bool} {start : Start} {gap : List Str} {o : Option Str} {run : PS → PM} {st : PS} {t : Str} {i : Item} {l : List Item}
    (hok : (Block.list i l).ok cx blog start = true) (he : Entry blog start (btext (.list i l) ++ rest gap o) run) (hR : Rest gap o)
    (ht : Top env sg ms st t) (hen : EnterOk (.list i l) st) (hfo : Follow blog (.list i l) gap o) :
    Did1 env sg ms cx blog (.list i l) gap o (run st) t := by
  simp only [Block.ok, Bool.and_eq_true, bne_iff_ne, ne_eq, List.all_eq_true] at hok
  obtain ⟨⟨hst, hne⟩, hit⟩ := hok
  obtain ⟨p, lead, hp, rfl⟩ := he.lead hst
  have hhits : ∀ x ∈ (i :: l).map hitOf, HitOk x := by
    intro x hx
    obtain ⟨j, hj, rfl⟩ := List.mem_map.mp hx
    exact item_hits (hit j hj)
  have hpre : i.pre = [] := by simpa using hne
  have hh : hitOf i = ([i.kind.char], prints i.text) := by simp [hitOf, hpre]
  have htr : trimmed (prints i.text) = true := (hhits (hitOf i) (by simp)).2.2
  have hbt : btext (.list i l) = hitLine ([i.kind.char], prints i.text) ++ nls ((l.map hitOf).map hitLine) := by
    show joinLines c!"\n" ((i :: l).map Item.line) = _
    rw [items_lines, List.map_cons, List.map_cons, hh, joinLines_cons]
  rw [hbt]
  obtain ⟨q, hq, hrun⟩ := list_hit (blog := blog) (lead := lead) (p := p) (k := i.kind) (text := prints i.text) (r := rest gap o)
    (L := l.map hitOf) (st := st) hp htr (fun x hx => hhits x (by rw [List.map_cons, List.mem_cons]; exact .inr hx))
    (rest_noMark hR hfo) (rest_eol gap o)
  rw [hrun, ← hh, ← List.map_cons]
  obtain ⟨cs, h1, h2⟩ := ht.doc
  have hlev : Lev 0 (st.cur :: st.up) := by
    intro g hg hgk
    have := hen g.kind (by unfold path; exact List.mem_map_of_mem hg)
    rcases hgk with h | h
    · exact absurd h this.2.1
    · exact absurd h this.1
  have hbase : st.upto (fun k => k = .list_item || isDoc k) = docSt st.used cs := by
    rw [← h1]
    unfold PS.uptoBlock PS.upto
    have hc : ∀ (fs : List Frame) (f : Frame), (∀ g ∈ f :: fs, g.kind ≠ .list_item) →
        climb (fun k => k = .list_item || isDoc k) f fs = climb isDoc f fs := by
      intro fs
      induction fs with
      | nil => intro f _; rfl
      | cons p fs ih =>
        intro f h
        rw [climb, climb]
        have h0 : (decide (f.kind = Kind.list_item)) = false := by simpa using h f (by simp)
        rw [h0, Bool.false_or, ih]
        intro g hg
        rw [List.mem_cons] at hg
        rcases hg with rfl | hg
        · exact h p (by simp)
        · exact h g (by simp [hg])
    show (PS.mk (climb (fun k => k = .list_item || isDoc k) st.cleanupBreak.cur st.cleanupBreak.up).1
      (climb (fun k => k = .list_item || isDoc k) st.cleanupBreak.cur st.cleanupBreak.up).2 st.cleanupBreak.text st.cleanupBreak.used) =
      PS.mk (climb isDoc st.cleanupBreak.cur st.cleanupBreak.up).1 (climb isDoc st.cleanupBreak.cur st.cleanupBreak.up).2 st.cleanupBreak.text st.cleanupBreak.used
    rw [hc]
    intro g hg
    have hcl : st.cleanupBreak.up = st.up ∧ st.cleanupBreak.cur.kind = st.cur.kind := by
      unfold PS.cleanupBreak
      split
      · split <;> exact ⟨rfl, rfl⟩
      · exact ⟨rfl, rfl⟩
    rw [List.mem_cons, hcl.1] at hg
    rcases hg with rfl | hg
    · rw [hcl.2]
      exact (hen st.cur.kind (by simp [path])).2.2
    · exact (hen g.kind (by unfold path; exact List.mem_map_of_mem (by simp [hg]))).2.2
  obtain ⟨st', S, w, h3, h4, h5⟩ := items_read (env := env) (ms := ms) (cx := cx) (D := ⟨docInfo, cs⟩) rfl hit (by simp [Item.level, hpre]) ht.text hlev ht.used hbase
  obtain ⟨node, h6, h7⟩ := h4.spine.climb rfl
  refine ⟨st', _, by rw [h3, ok_bind], .inl ⟨q, hq, rfl⟩, ⟨h4.text, h4.used, ⟨cs ++ [node], ?_, ?_⟩, ?_⟩, ?_, fun _ => h4.noBrk⟩
  · unfold PS.uptoBlock PS.upto
    rw [noBrk_clean h4.noBrk]
    simp only [h6]
    simp only [docSt, Frame.add, h4.text]
  · have := emitsD_snoc h2 h7
    rw [← h5] at this
    simpa [Block.html, sep] using this
  · intro hd
    have := h4.spine.item
    rw [this] at hd
    exact absurd hd (by decide)
  · intro κ hκ
    rcases h4.spine.path κ hκ with h | (h | h) | h
    · simp [h]
    · simp [h]
    · simp [h]
    · rw [h]; simp [Frame.kind, docInfo]

end Verif.Creole
