import Verif.Creole.ListRun

/-!
# Reading a table
-/

namespace Verif.Creole

open Verif Re Py Spec Spec.Cr

variable {env : Env} {sg : Stage} {ms : Macros} {cx : Ctx} [hcx : CxOk env ms cx]

/-! ## Matches do not depend on earlier captures -/

/-- no back references -/
def noRef : R → Bool
  | .seq a b | .alt a b => noRef a && noRef b
  | .star _ a | .grp _ a | .notAhead a => noRef a
  | .bref _ => false
  | _ => true

def withCaps (caps : List (G × Str)) (s : St G) : St G := { s with caps := s.caps ++ caps }

theorem res_caps (caps : List (G × Str)) : ∀ {r : R}, noRef r = true → ∀ s, r.res (withCaps caps s) = (r.res s).map (withCaps caps) := by
  intro r
  induction r with
  | eps => intro _ s; rfl
  | cls cs =>
    intro _ s
    obtain ⟨p, rs, cp⟩ := s
    cases rs with
    | nil => rfl
    | cons c t => simp only [Re.res, withCaps]; split <;> rfl
  | seq a b iha ihb =>
    intro h s
    simp only [noRef, Bool.and_eq_true] at h
    show (a.res _).flatMap b.res = ((a.res s).flatMap b.res).map _
    rw [iha h.1, List.flatMap_map, List.map_flatMap]
    congr 1
    funext x
    exact ihb h.2 x
  | alt a b iha ihb =>
    intro h s
    simp only [noRef, Bool.and_eq_true] at h
    simp only [Re.res, iha h.1, ihb h.2, List.map_append]
  | star g a iha =>
    intro h s
    have key : ∀ n s, starR g a.res n (withCaps caps s) = (starR g a.res n s).map (withCaps caps) := by
      intro n
      induction n with
      | zero => intro s; rfl
      | succ n ih =>
        intro s
        simp only [starR, iha h]
        have : List.flatMap (starR g a.res n) ((a.res s).map (withCaps caps)) = ((a.res s).flatMap (starR g a.res n)).map (withCaps caps) := by
          rw [List.flatMap_map, List.map_flatMap]
          congr 1
          funext x
          exact ih x
        rw [this]
        cases g <;> simp
    exact key _ s
  | grp g a iha =>
    intro h s
    simp only [Re.res, iha h, List.map_map]
    rfl
  | bref g => intro h; simp [noRef] at h
  | bol mu =>
    intro _ s
    show (if atBol mu s.prev then [withCaps caps s] else []) = (if atBol mu s.prev then [s] else []).map _
    split <;> rfl
  | eol mu =>
    intro _ s
    show (if atEol mu s.rest then [withCaps caps s] else []) = (if atEol mu s.rest then [s] else []).map _
    split <;> rfl
  | behind neg cs =>
    intro _ s
    obtain ⟨p, rs, cp⟩ := s
    cases p with
    | none => simp only [Re.res, withCaps]; split <;> rfl
    | some c => simp only [Re.res, withCaps]; split <;> rfl
  | notAhead a iha =>
    intro h s
    simp only [Re.res, iha h]
    cases a.res s <;> rfl

/-! ## Cells -/

def cellAlts : R := alts [linkRule, macroInlineRule, macroTagRule, imageRule, preInlineRule, .cls (.compl (.chr '|'))]

/-- one step in a cell leads from the text `s` to `t` -/
def Takes (s t : Str) : Prop := t.length < s.length ∧ ∀ p caps, ∃ p' caps', (cellAlts.res ⟨p, s, caps⟩).head? = some ⟨p', t, caps'⟩

inductive Eats (r : Str) : Str → Prop
  | done : Eats r r
  | step {s t : Str} (h : Takes s t) (h' : Eats r t) : Eats r s

theorem eats_star {r s : Str} (hr : ∀ p caps, cellAlts.res ⟨p, r, caps⟩ = []) (h : Eats r s) : ∀ p caps, ∃ p' caps',
    ∀ n, s.length ≤ n → (starR true cellAlts.res n ⟨p, s, caps⟩).head? = some ⟨p', r, caps'⟩ := by
  induction h with
  | done => intro p caps; exact ⟨p, caps, fun n _ => head_star_end (hr p caps) n⟩
  | @step s t h _ ih =>
    intro p caps
    obtain ⟨p1, caps1, h1⟩ := h.2 p caps
    obtain ⟨p2, caps2, h2⟩ := ih p1 caps1
    exact ⟨p2, caps2, head_star_more h1 h.1 h2⟩

theorem eats_plus {r s t : Str} (hr : ∀ p caps, cellAlts.res ⟨p, r, caps⟩ = []) (h1 : Takes s t) (h2 : Eats r t) (p : Option Char) (caps : List (G × Str)) :
    ∃ p' caps', ((Re.plus true cellAlts : R).res ⟨p, s, caps⟩).head? = some ⟨p', r, caps'⟩ := by
  obtain ⟨p1, caps1, h3⟩ := h1.2 p caps
  obtain ⟨p2, caps2, h4⟩ := eats_star hr h2 p1 caps1
  exact ⟨p2, caps2, head_flatMap (f := (Re.star true cellAlts).res) h3 (h4 t.length (Nat.le_refl _))⟩

theorem bar_stop (r : Str) (p : Option Char) (caps : List (G × Str)) : cellAlts.res ⟨p, '|' :: r, caps⟩ = [] := by
  refine Re.res_nil_of_noStart (by decide) ?_
  intro c t h
  simp only [List.cons.injEq] at h
  rw [← h.1]
  decide

/-- no link, image or macro begins here -/
def Plain (s : Str) : Prop := ∀ t, s ≠ c!"[[" ++ t ∧ s ≠ c!"{{" ++ t ∧ s ≠ c!"<<" ++ t

theorem takes_char {c : Char} {t : Str} (hc : c ≠ '|') (h : Plain (c :: t)) : Takes (c :: t) t := by
  refine ⟨by simp, fun p caps => ⟨some c, caps, ?_⟩⟩
  refine alts_head (l₁ := [linkRule, macroInlineRule, macroTagRule, imageRule, preInlineRule]) (l₂ := []) ?_ (Re.head_cls (by simp [CSet.mem, hc]))
  intro q hq
  simp only [List.mem_cons, List.not_mem_nil, or_false] at hq
  rcases hq with rfl | rfl | rfl | rfl | rfl
  · exact grp_lit_nil fun u hu => (h u).1 hu
  · exact grp_lit_nil fun u hu => (h u).2.2 hu
  · exact grp_lit_nil fun u hu => (h u).2.2 hu
  · exact grp_lit_nil fun u hu => (h u).2.1 hu
  · exact grp_lit_nil fun u hu => (h ('{' :: u)).2.1 hu

theorem takes_bar {x t : Str} {y : List (G × Str)} {pp : Option Char} {o : Char} (ho : x.head? = some o) (hne : x ≠ [])
    (h : (o = '[' ∧ ∀ p, (linkRule.res ⟨p, x ++ t, []⟩).head? = some ⟨pp, t, y⟩) ∨
      (o = '{' ∧ ∀ p, (imageRule.res ⟨p, x ++ t, []⟩).head? = some ⟨pp, t, y⟩)) : Takes (x ++ t) t := by
  have hlen : t.length < (x ++ t).length := by
    have := List.length_pos_iff.mpr hne
    simp only [List.length_append]; omega
  have gen : ∀ {q : R}, noRef q = true → (∀ p, (q.res ⟨p, x ++ t, []⟩).head? = some ⟨pp, t, y⟩) → ∀ p caps,
      (q.res ⟨p, x ++ t, caps⟩).head? = some ⟨pp, t, y ++ caps⟩ := by
    intro q hq hh p caps
    have := res_caps caps hq ⟨p, x ++ t, []⟩
    have e : withCaps caps ⟨p, x ++ t, []⟩ = ⟨p, x ++ t, caps⟩ := rfl
    rw [e] at this
    rw [this, List.head?_map, hh p]
    rfl
  refine ⟨hlen, fun p caps => ⟨pp, y ++ caps, ?_⟩⟩
  rcases h with ⟨rfl, h⟩ | ⟨rfl, h⟩
  · exact alts_head (l₁ := []) (l₂ := [macroInlineRule, macroTagRule, imageRule, preInlineRule, .cls (.compl (.chr '|'))]) (by simp)
      (gen (by decide) h p caps)
  · refine alts_head (l₁ := [linkRule, macroInlineRule, macroTagRule]) (l₂ := [preInlineRule, .cls (.compl (.chr '|'))]) ?_
      (gen (by decide) h p caps)
    intro q hq
    obtain ⟨x', hx⟩ : ∃ x', x = '{' :: x' := by
      cases x with
      | nil => simp at ho
      | cons c x' => simp only [List.head?_cons, Option.some.injEq] at ho; exact ⟨x', by rw [ho]⟩
    simp only [List.mem_cons, List.not_mem_nil, or_false] at hq
    rw [hx]
    rcases hq with rfl | rfl | rfl <;> exact grp_lit_nil fun u hu => by simp at hu

/-- the pieces before `t` -/
def Eaten (s t : Str) : Prop := ∀ r, Eats r t → Eats r s

theorem plain_of_noBar {s next t : Str} (h : noBar s next = true) (hn : next.take 1 = t.take 1) : ∀ u v, s = u ++ v → v ≠ [] → Plain (v ++ t) := by
  simp only [noBar, Bool.and_eq_true, Bool.not_eq_true'] at h
  obtain ⟨⟨⟨_, h1⟩, h2⟩, h3⟩ := h
  rw [hn] at h1 h2 h3
  have key : ∀ (a b : Char), occurs [a, b] (s ++ t.take 1) = false → ∀ u v, s = u ++ v → v ≠ [] → ∀ w, v ++ t ≠ [a, b] ++ w := by
    intro a b hab u v huv hv w hw
    have := not_occurs (by simp) hab u (v ++ t.take 1) (by rw [huv]; simp) 
    cases v with
    | nil => exact hv rfl
    | cons c v =>
      simp only [List.cons_append, List.nil_append, List.cons.injEq] at hw
      obtain ⟨rfl, hw⟩ := hw
      cases v with
      | nil =>
        cases t with
        | nil => simp at hw
        | cons d t =>
          simp only [List.nil_append, List.cons.injEq] at hw
          exact this [] (by simp [hw.1])
      | cons d v =>
        simp only [List.cons_append, List.cons.injEq] at hw
        exact this (v ++ t.take 1) (by simp [hw.1])
  intro u v huv hv w
  exact ⟨key _ _ h1 u v huv hv w, key _ _ h2 u v huv hv w, key _ _ h3 u v huv hv w⟩

theorem eaten_noBar {s next t : Str} (h : noBar s next = true) (hn : next.take 1 = t.take 1) : Eaten (s ++ t) t := by
  have hb : '|' ∉ s := by
    simp only [noBar, Bool.and_eq_true, Bool.not_eq_true', List.contains_eq_mem, decide_eq_false_iff_not] at h
    exact h.1.1.1
  have hp := plain_of_noBar h hn
  have key : ∀ v u, s = u ++ v → Eaten (v ++ t) t := by
    intro v
    induction v with
    | nil => intro u _ r hr; exact hr
    | cons c v ih =>
      intro u hu r hr
      refine .step (takes_char ?_ (hp u (c :: v) hu (by simp))) (ih (u ++ [c]) (by simp [hu]) r hr)
      rintro rfl
      apply hb; rw [hu]; simp
  exact key s [] rfl

theorem eaten_two {c : Char} {t : Str} (hc : c ≠ '|' ∧ c ≠ '[' ∧ c ≠ '{' ∧ c ≠ '<') : Eaten (c :: c :: t) t := by
  intro r hr
  have hp : ∀ u, Plain (c :: u) := by
    intro u w
    refine ⟨?_, ?_, ?_⟩ <;> intro h <;> simp at h
    · exact hc.2.1 h.1
    · exact hc.2.2.1 h.1
    · exact hc.2.2.2 h.1
  exact .step (takes_char hc.1 (hp _)) (.step (takes_char hc.1 (hp _)) hr)

theorem face_char_ok (f : Face) : f.char ≠ '|' ∧ f.char ≠ '[' ∧ f.char ≠ '{' ∧ f.char ≠ '<' := by cases f <;> decide

theorem takes_one {s t : Str} (h : Takes s t) : Eaten s t := fun _ hr => .step h hr

theorem takes_link {p : Str} {l : List Inl} {prev : Option Char} {next t : Str} (hi : (Inl.link p l).wf cx prev next = true) :
    Takes ((Inl.link p l).print ++ t) t := by
  simp only [Inl.wf, Bool.and_eq_true, Bool.or_eq_true] at hi
  have htg := targetOk_iff hi.1.1
  cases l with
  | nil =>
    refine takes_bar (o := '[') (pp := some ']') (y := [(.link, c!"[[" ++ p ++ c!"]]"), (.link_target, p)]) (by simp [Inl.print]) (by simp [Inl.print])
      (.inl ⟨rfl, fun q => ?_⟩)
    have := bar_none (g := .link) (g₁ := .link_target) (g₂ := .link_text) (o := '[') (rest := t) (prev := q) htg (by decide) (by decide)
    simpa [Inl.print, link_bar] using this
  | cons y x =>
    have hb : barText ']' (prints (y :: x)) = true := by simpa using hi.1.2
    refine takes_bar (o := '[') (pp := some ']') (y := [(.link, c!"[[" ++ p ++ '|' :: prints (y :: x) ++ c!"]]"), (.link_text, prints (y :: x)), (.link_target, p)])
      (by simp [Inl.print]) (by simp [Inl.print]) (.inl ⟨rfl, fun q => ?_⟩)
    have := bar_some (g := .link) (g₁ := .link_target) (g₂ := .link_text) (o := '[') (rest := t) (prev := q) htg (barText_iff hb) (by decide) (by decide)
    simpa [Inl.print, link_bar, prints] using this

theorem takes_image {p s : Str} {prev : Option Char} {next t : Str} (hi : (Inl.image p s).wf cx prev next = true) :
    Takes ((Inl.image p s).print ++ t) t := by
  simp only [Inl.wf, Bool.and_eq_true, Bool.or_eq_true, Bool.not_eq_true', List.contains_eq_mem, decide_eq_false_iff_not] at hi
  obtain ⟨htg, _, _⟩ := imageTarget_iff hi.1
  cases s with
  | nil =>
    refine takes_bar (o := '{') (pp := some '}') (y := [(.image, c!"{{" ++ p ++ c!"}}"), (.image_target, p)]) (by simp [Inl.print]) (by simp [Inl.print])
      (.inr ⟨rfl, fun q => ?_⟩)
    have := bar_none (g := .image) (g₁ := .image_target) (g₂ := .image_text) (o := '{') (rest := t) (prev := q) htg (by decide) (by decide)
    simpa [Inl.print, image_bar] using this
  | cons c s =>
    have hs' : barText '}' (c :: s) = true ∧ '|' ∉ c :: s := by simpa using hi.2
    refine takes_bar (o := '{') (pp := some '}') (y := [(.image, c!"{{" ++ p ++ '|' :: (c :: s) ++ c!"}}"), (.image_text, c :: s), (.image_target, p)])
      (by simp [Inl.print]) (by simp [Inl.print]) (.inr ⟨rfl, fun q => ?_⟩)
    have := bar_some (g := .image) (g₁ := .image_target) (g₂ := .image_text) (o := '{') (rest := t) (prev := q) htg (barText_iff hs'.1) (by decide) (by decide)
    simpa [Inl.print, image_bar] using this

theorem takes_sized {p s : Str} {w h : Nat} {prev : Option Char} {next t : Str} (hi : (Inl.sized p s w h).wf cx prev next = true) :
    Takes ((Inl.sized p s w h).print ++ t) t := by
  simp only [Inl.wf, Bool.and_eq_true, Bool.not_eq_true', List.contains_eq_mem, decide_eq_false_iff_not] at hi
  obtain ⟨⟨⟨⟨hit, hs⟩, _⟩, _⟩, _⟩ := hi
  obtain ⟨htg, _, _⟩ := imageTarget_iff hit
  obtain ⟨h1, _⟩ := sized_bar (w := w) (h := h) hs
  refine takes_bar (o := '{') (pp := some '}') (y := [(.image, c!"{{" ++ p ++ '|' :: (s ++ c!"|" ++ decimal w ++ c!"x" ++ decimal h) ++ c!"}}"),
    (.image_text, s ++ c!"|" ++ decimal w ++ c!"x" ++ decimal h), (.image_target, p)])
    (by simp [Inl.print]) (by simp [Inl.print]) (.inr ⟨rfl, fun q => ?_⟩)
  have := bar_some (g := .image) (g₁ := .image_target) (g₂ := .image_text) (o := '{') (rest := t) (prev := q) htg h1 (by decide) (by decide)
  simpa [Inl.print, image_bar] using this

mutual
theorem inl_eaten (i : Inl) (prev : Option Char) (nx next t : Str) (hi : i.wf cx prev nx = true) (hc : i.cellOk next = true) (hn : next.take 1 = t.take 1) :
    Eaten (i.print ++ t) t := by
  cases i with
  | link p l => exact takes_one (takes_link hi)
  | image p s => exact takes_one (takes_image hi)
  | sized p s w h => exact takes_one (takes_sized hi)
  | face f l =>
    simp only [Inl.wf, Bool.and_eq_true] at hi
    simp only [Inl.cellOk] at hc
    have e : (Inl.face f l).print ++ t = f.char :: f.char :: (prints l ++ (f.char :: f.char :: t)) := by simp [Inl.print]
    rw [e]
    intro r hr
    exact eaten_two (face_char_ok f) r (inls_eaten l none [f.char] (f.char :: f.char :: t) hi.1.1.1 hc rfl r (eaten_two (face_char_ok f) r hr))
  | chr c => exact eaten_noBar hc hn
  | esc c => exact eaten_noBar hc hn
  | nowiki s => exact eaten_noBar hc hn
  | br => exact eaten_noBar hc hn
  | url s => exact eaten_noBar hc hn
  | escUrl s => exact eaten_noBar hc hn
  | mac n a => exact eaten_noBar hc hn
  | macText n a t => exact eaten_noBar hc hn
theorem inls_eaten (l : List Inl) (prev : Option Char) (next t : Str) (hi : wfs cx prev l = true) (hc : cellsOk next l = true) (hn : next.take 1 = t.take 1) :
    Eaten (prints l ++ t) t := by
  cases l with
  | nil => intro r hr; exact hr
  | cons i l =>
    simp only [wfs, Bool.and_eq_true] at hi
    simp only [cellsOk, Bool.and_eq_true] at hc
    intro r hr
    rw [prints, List.append_assoc]
    have hn' : (prints l ++ next).take 1 = (prints l ++ t).take 1 := by
      cases hp : prints l with
      | nil => exact hn
      | cons d x => rfl
    exact inl_eaten i prev (prints l) (prints l ++ next) (prints l ++ t) hi.1 hc.1 hn' r (inls_eaten l _ next t hi.2 hc.2 hn r hr)
end

/-! ## Matching a cell -/

theorem spaces_space (n : Nat) : ∀ c ∈ spaces n, isSpace c = true := by
  intro c hc
  rw [spaces, List.mem_replicate] at hc
  rw [hc.2]; decide

theorem eaten_spaces (n : Nat) (t : Str) : Eaten (spaces n ++ t) t := by
  induction n with
  | zero => intro r hr; exact hr
  | succ n ih =>
    intro r hr
    show Eats r (' ' :: (spaces n ++ t))
    refine .step (takes_char (by decide) ?_) (ih r hr)
    intro u
    simp

theorem sps_spaces {n : Nat} {t : Str} (ht : ∀ c t', t = c :: t' → isSpace c = false) (p : Option Char) (caps : List (G × Str)) :
    (sps.res ⟨p, spaces n ++ t, caps⟩).head? = some ⟨((spaces n).getLast?).or p, t, caps⟩ :=
  Re.head_star_cls (cs := .space) (fun c t' h => ht c t' h) _ _ (spaces_space n)

theorem td_match {p : Option Char} {l r : Nat} {text : List Inl} {rest : Str} (hok : (Cell.td l text r).ok cx = true) :
    ∃ p' caps, cellRe.matchAt false p ('|' :: ((Cell.td l text r).print ++ '|' :: rest)) =
      some ⟨p', '|' :: rest, (.cell, prints text ++ spaces r) :: caps⟩ := by
  simp only [Cell.ok, Bool.and_eq_true, bne_iff_ne, ne_eq] at hok
  obtain ⟨⟨⟨hwf, htr⟩, heq⟩, hcl⟩ := hok
  obtain ⟨hne, hfst, hlst, hnl⟩ := trimmed_iff htr
  have hlne : text ≠ [] := by rintro rfl; simp [prints] at hne
  have hfirst : ∀ c t', prints text ++ (spaces r ++ '|' :: rest) = c :: t' → isSpace c = false := by
    intro c t' h
    cases hx : prints text with
    | nil => exact absurd hx hne
    | cons d x =>
      rw [hx] at h
      simp only [List.cons_append, List.cons.injEq] at h
      rw [← h.1]; exact hfst d x hx
  have heats : Eats ('|' :: rest) (prints text ++ (spaces r ++ '|' :: rest)) := by
    refine inls_eaten text none (spaces r ++ c!"|") _ hwf hcl ?_ _ (eaten_spaces r _ _ .done)
    cases r <;> rfl
  have hstep : ∃ t, Takes (prints text ++ (spaces r ++ '|' :: rest)) t ∧ Eats ('|' :: rest) t := by
    generalize hS : prints text ++ (spaces r ++ '|' :: rest) = S at heats
    cases heats with
    | done =>
      exfalso
      have := congrArg List.length hS
      have := List.length_pos_iff.mpr hne
      simp only [List.length_append, List.length_cons] at *
      omega
    | step h h' => exact ⟨_, h, h'⟩
  obtain ⟨t, h1, h2⟩ := hstep
  obtain ⟨p', caps, hpl⟩ := eats_plus (bar_stop rest) h1 h2 (((spaces l).getLast?).or (some '|')) []
  refine ⟨p', caps, ?_⟩
  rw [Re.matchAt_false]
  have e1 : (ch '|' : R).res ⟨p, '|' :: ((Cell.td l text r).print ++ '|' :: rest), []⟩ = [⟨some '|', (Cell.td l text r).print ++ '|' :: rest, []⟩] := by
    simp [ch, Re.res, CSet.mem]
  unfold cellRe cat
  rw [res_seq_one e1]
  have e2 : (Cell.td l text r).print ++ '|' :: rest = spaces l ++ (prints text ++ (spaces r ++ '|' :: rest)) := by simp [Cell.print]
  rw [e2]
  refine Re.head_seq (sps_spaces hfirst _ _) ?_
  have e3 : (Re.grp G.head (.seq (ch '=') (.plus true (.cls (.compl (.chr '|')))))).res
      ⟨((spaces l).getLast?).or (some '|'), prints text ++ (spaces r ++ '|' :: rest), []⟩ = [] := by
    refine res_grp_nil (Re.res_seq_nil (Re.res_cls_nil ?_))
    intro c t' h
    cases hx : prints text with
    | nil => exact absurd hx hne
    | cons d x =>
      rw [hx] at h heq
      simp only [List.cons_append, List.cons.injEq] at h
      simp only [CSet.mem, beq_eq_false_iff_ne, ne_eq]
      rintro rfl
      apply heq; rw [h.1]; rfl
  refine Re.head_seq (x := ⟨p', '|' :: rest, (.cell, prints text ++ spaces r) :: caps⟩) ?_ ?_
  · rw [Re.res_alt_right e3]
    have := Re.head_grp (g := G.cell) hpl
    have hc : consumed (prints text ++ (spaces r ++ '|' :: rest)) ('|' :: rest) = prints text ++ spaces r := by
      rw [← List.append_assoc]; exact consumed_append _ _
    simp only [hc] at this
    exact this
  · show (sps.res _).head? = _
    rw [sps_none (by intro c t' h; simp at h; rw [← h.1]; decide)]
    rfl

theorem th_match {p : Option Char} {l m r : Nat} {text : List Inl} {rest : Str} (hok : (Cell.th l m text r).ok cx = true) :
    ∃ p', cellRe.matchAt false p ('|' :: ((Cell.th l m text r).print ++ '|' :: rest)) =
      some ⟨p', '|' :: rest, [(.head, '=' :: (spaces m ++ prints text ++ spaces r))]⟩ := by
  simp only [Cell.ok, Bool.and_eq_true, bne_iff_ne, ne_eq, Bool.not_eq_true', List.contains_eq_mem, decide_eq_false_iff_not] at hok
  obtain ⟨⟨⟨⟨hwf, htr⟩, heq⟩, heq'⟩, hbar⟩ := hok
  obtain ⟨hne, hfst, hlst, hnl⟩ := trimmed_iff htr
  rw [Re.matchAt_false]
  have e1 : (ch '|' : R).res ⟨p, '|' :: ((Cell.th l m text r).print ++ '|' :: rest), []⟩ = [⟨some '|', (Cell.th l m text r).print ++ '|' :: rest, []⟩] := by
    simp [ch, Re.res, CSet.mem]
  unfold cellRe cat
  rw [res_seq_one e1]
  have e2 : (Cell.th l m text r).print ++ '|' :: rest = spaces l ++ ('=' :: ((spaces m ++ prints text ++ spaces r) ++ '|' :: rest)) := by simp [Cell.print]
  rw [e2]
  obtain ⟨d, x, hx⟩ : ∃ d x, spaces m ++ prints text ++ spaces r = d :: x := by
    refine List.exists_cons_of_ne_nil ?_
    simp [hne]
  have hmem : ∀ c ∈ d :: x, (CSet.compl (.chr '|')).mem c = true := by
    intro c hc
    rw [← hx, List.mem_append, List.mem_append] at hc
    simp only [CSet.mem, Bool.not_eq_true', beq_eq_false_iff_ne, ne_eq]
    rintro rfl
    rcases hc with (hc | hc) | hc
    · exact absurd (spaces_space m _ hc) (by decide)
    · exact hbar hc
    · exact absurd (spaces_space r _ hc) (by decide)
  rw [hx]
  refine ⟨(d :: x).getLast?, ?_⟩
  refine Re.head_seq (sps_spaces (by intro c t' h; simp at h; rw [← h.1]; decide) _ _) ?_
  refine Re.head_seq (x := ⟨(d :: x).getLast?, '|' :: rest, [(.head, '=' :: d :: x)]⟩) ?_ ?_
  · refine Re.head_alt_left ?_
    have e3 : (ch '=' : R).res ⟨((spaces l).getLast?).or (some '|'), '=' :: (d :: x ++ '|' :: rest), []⟩ = [⟨some '=', d :: x ++ '|' :: rest, []⟩] := by
      simp [ch, Re.res, CSet.mem]
    have h1 := Re.head_plus_cls (γ := G) (cs := .compl (.chr '|')) (caps := []) (rest := '|' :: rest)
      (by intro c t h; simp at h; rw [← h.1]; decide) (c := d) (w := x) (p := some '=') hmem
    have := Re.head_grp (g := G.head) (a := .seq (ch '=') (.plus true (.cls (.compl (.chr '|')))))
      (s := ⟨((spaces l).getLast?).or (some '|'), '=' :: (d :: x ++ '|' :: rest), []⟩) (by rw [res_seq_one e3]; exact h1)
    have hc : consumed ('=' :: (d :: x ++ '|' :: rest)) ('|' :: rest) = '=' :: d :: x := consumed_append ('=' :: d :: x) _
    simp only [hc] at this
    exact this
  · show (sps.res _).head? = _
    rw [sps_none (by intro c t' h; simp at h; rw [← h.1]; decide)]
    rfl

/-! ## The cells of a row -/

/-- the rest of the cells -/
def runC (p : Option Char) (s : Str) (st : PS) : PM :=
  ((cellRe.scanAux p s 0).filterMap fun | .skip _ => none | .hit m => some m).foldlM (init := st) cellRepl

theorem findAll_runC (s : Str) (st : PS) : (cellRe.findAll s).foldlM (init := st) cellRepl = runC none s st := by
  unfold runC Re.findAll Re.scan
  congr 1
  congr 1
  funext x
  cases x <;> rfl

theorem runC_take {p p' : Option Char} {w rest : Str} {caps : List (G × Str)} {st : PS} (hw : w ≠ [])
    (hm : cellRe.matchAt false p (w ++ rest) = some ⟨p', rest, caps⟩) :
    runC p (w ++ rest) st = (cellRepl st ⟨w, caps⟩ >>= runC w.getLast? rest) := by
  unfold runC
  rw [Re.scanAux_take (s' := ⟨p', rest, caps⟩) hw hm]
  rfl

theorem runC_bar (p : Option Char) (st : PS) : runC p c!"|" st = .ok st := by
  have hm : cellRe.matchAt false p c!"|" = none := by
    rw [Re.matchAt_false]
    unfold cellRe cat
    rw [res_seq_one (x := ⟨some '|', [], []⟩) (by simp [ch, Re.res, CSet.mem])]
    rfl
  unfold runC
  rw [Re.scanAux_skip hm, Re.scanAux_nil (by decide)]
  rfl

def rowInfo : Info := { kind := .table_row }
def tableInfo : Info := { kind := .table }
def cellInfo : Info := { kind := .table_cell }
def thInfo : Info := { kind := .table_head }

/-- in a row -/
def rowSt (us : List Str) (cs : List Node) (up : List Frame) : PS := { cur := ⟨rowInfo, cs⟩, up := up, used := us }

theorem strip_spaces {s : Str} (h : trimmed s = true) (r : Nat) : strip (s ++ spaces r) = s := by
  have := strip_pad (w := []) (w' := spaces r) (by simp) (spaces_space r) s
  rw [(trimmed_strip h).1] at this
  simpa using this

theorem stripP_th {s : Str} (h : trimmed s = true) (h1 : s.head? ≠ some '=') (h2 : s.getLast? ≠ some '=') (m r : Nat) :
    stripP (fun c => c = '=' || c = ' ') ('=' :: (spaces m ++ s ++ spaces r)) = s := by
  obtain ⟨hne, hfst, hlst, _⟩ := trimmed_iff h
  have hsp : isSpace ' ' = true := by decide
  have hid : stripP (fun c => c = '=' || c = ' ') s = s := by
    refine stripP_id ?_ ?_
    · intro c hc
      cases s with
      | nil => simp at hc
      | cons d t =>
        simp only [List.head?_cons, Option.some.injEq] at hc
        subst hc
        simp only [Bool.or_eq_false_iff, decide_eq_false_iff_not]
        refine ⟨?_, ?_⟩
        · rintro rfl; exact h1 rfl
        · rintro rfl; rw [hfst ' ' t rfl] at hsp; exact absurd hsp (by decide)
    · intro c hc
      simp only [Bool.or_eq_false_iff, decide_eq_false_iff_not]
      refine ⟨?_, ?_⟩
      · rintro rfl; exact h2 hc
      · rintro rfl; rw [hlst ' ' hc] at hsp; exact absurd hsp (by decide)
  have key : ∀ (a : Str) (b : Str), (∀ c ∈ a, (decide (c = '=') || decide (c = ' ')) = true) → (∀ c ∈ b, (decide (c = '=') || decide (c = ' ')) = true) →
      stripP (fun c => c = '=' || c = ' ') (a ++ s ++ b) = s := by
    intro a b ha hb
    rw [stripP_pad ha hb, hid]
  have hs : ∀ n, ∀ c ∈ spaces n, (decide (c = '=') || decide (c = ' ')) = true := by
    intro n c hc
    rw [spaces, List.mem_replicate] at hc
    simp [hc.2]
  have := key ('=' :: spaces m) (spaces r) (by
    intro c hc
    rw [List.mem_cons] at hc
    rcases hc with rfl | hc
    · rfl
    · exact hs m c hc) (hs r)
  simpa using this

theorem emit_cell {cs : List Node} {u : Str} {i : Info} (b : Bool) (hi : i = if b then thInfo else cellInfo) (h : Emits env ms i cs u) (p : Info) :
    emitNode env p (.mk i cs) ms = .ok ((if b then c!"\t<th>" ++ u ++ c!"</th>\n" else c!"\t<td>" ++ u ++ c!"</td>\n"), ms) := by
  unfold Emits at h
  subst hi
  cases b
  · rw [emitNode]
    simp only [cellInfo, Bool.false_eq_true, if_false] at h ⊢
    simp [h, emap, Except.map]
  · rw [emitNode]
    simp only [thInfo, if_true] at h ⊢
    simp [h, emap, Except.map]

theorem cell_td {us : List Str} (hu : UsedOk sg us) {cs : List Node} {up : List Frame} {s : Str} {l r : Nat} {text : List Inl} {w : Str} {caps : List (G × Str)}
    (hok : (Cell.td l text r).ok cx = true) (h : Emits env ms rowInfo cs s) :
    ∃ us' cs', cellRepl (rowSt us cs up) ⟨w, (.cell, prints text ++ spaces r) :: caps⟩ = .ok (rowSt us' cs' up) ∧ UsedOk sg us' ∧
      Emits env ms rowInfo cs' (s ++ (Cell.td l text r).html cx) ∧ (∃ n, cs'.getLast? = some n ∧ n.kind ≠ .brk) := by
  simp only [Cell.ok, Bool.and_eq_true, bne_iff_ne, ne_eq] at hok
  obtain ⟨⟨⟨hwf, htr⟩, heq⟩, hcl⟩ := hok
  obtain ⟨hne, _⟩ := trimmed_iff htr
  have hlne : text ≠ [] := by rintro rfl; simp [prints] at hne
  have hcell : (Match.get ⟨w, (G.cell, prints text ++ spaces r) :: caps⟩ .cell).getD [] = prints text ++ spaces r := by
    simp [Match.get, capGet]
  obtain ⟨st', h1, h2, h3, h4⟩ := parseInline_did (env := env) (ms := ms) (cx := cx) (l := text) (st := ((rowSt us cs up).push { kind := .table_cell }).noText)
    (br := c!"<br />\n\t\t") hwf hlne (textOK_of_false rfl) rfl
  have hem := h2.emits [] emits_nil
  obtain ⟨f, fup, ftx, fus⟩ := st'
  have hup : fup = ⟨rowInfo, cs⟩ :: up := h2.up
  have hinfo : f.info = cellInfo := h2.info
  have hus : UsedOk sg fus := h2.used hu
  subst hup
  refine ⟨fus, cs ++ [.mk f.info f.children], ?_, hus, ?_, ⟨_, by rw [List.getLast?_append, List.getLast?_singleton]; rfl, by simp [Node.kind, Node.info, hinfo, cellInfo]⟩⟩
  · unfold cellRepl
    rw [hcell, if_pos (by simp [hne])]
    rw [strip_spaces htr]
    simp only [h1, ok_bind]
    have : (rowSt us cs up).up.length = up.length := rfl
    rw [this, popTo_push2]
    rfl
  · have := emits_snoc h (emit_cell (env := env) (ms := ms) (cs := f.children) false hinfo (by rw [hinfo]; exact hem) rowInfo)
    simpa [Cell.html] using this

theorem cell_th {us : List Str} (hu : UsedOk sg us) {cs : List Node} {up : List Frame} {s : Str} {l m r : Nat} {text : List Inl} {w : Str}
    (hok : (Cell.th l m text r).ok cx = true) (h : Emits env ms rowInfo cs s) :
    ∃ us' cs', cellRepl (rowSt us cs up) ⟨w, [(.head, '=' :: (spaces m ++ prints text ++ spaces r))]⟩ = .ok (rowSt us' cs' up) ∧ UsedOk sg us' ∧
      Emits env ms rowInfo cs' (s ++ (Cell.th l m text r).html cx) ∧ (∃ n, cs'.getLast? = some n ∧ n.kind ≠ .brk) := by
  simp only [Cell.ok, Bool.and_eq_true, bne_iff_ne, ne_eq, Bool.not_eq_true', List.contains_eq_mem, decide_eq_false_iff_not] at hok
  obtain ⟨⟨⟨⟨hwf, htr⟩, heq⟩, heq'⟩, hbar⟩ := hok
  obtain ⟨hne, _⟩ := trimmed_iff htr
  have hlne : text ≠ [] := by rintro rfl; simp [prints] at hne
  have hcell : (Match.get ⟨w, [(G.head, '=' :: (spaces m ++ prints text ++ spaces r))]⟩ .cell).getD [] = [] := by
    rfl
  have hhead : need ⟨w, [(G.head, '=' :: (spaces m ++ prints text ++ spaces r))]⟩ .head = .ok ('=' :: (spaces m ++ prints text ++ spaces r)) := rfl
  let st0 : PS := { ((rowSt us cs up).push { kind := .table_head }).leaf { kind := .text, content := some [] } with text := true }
  obtain ⟨st', h1, h2, h3, h4⟩ := parseInline_did (env := env) (ms := ms) (cx := cx) (l := text) (st := st0)
    (br := c!"<br />\n\t\t") hwf hlne (fun _ => ⟨[], [], rfl⟩) rfl
  have hem := h2.emits [] (emits_one (n := .mk { kind := .text, content := some [] } []) (by rw [emit_text]; rfl))
  obtain ⟨f, fup, ftx, fus⟩ := st'
  have hup : fup = ⟨rowInfo, cs⟩ :: up := h2.up
  have hinfo : f.info = thInfo := h2.info
  have hus : UsedOk sg fus := h2.used hu
  subst hup
  refine ⟨fus, cs ++ [.mk f.info f.children], ?_, hus, ?_, ⟨_, by rw [List.getLast?_append, List.getLast?_singleton]; rfl, by simp [Node.kind, Node.info, hinfo, thInfo]⟩⟩
  · unfold cellRepl
    rw [hcell, if_neg (by simp), hhead]
    simp only [ok_bind]
    rw [stripP_th htr heq heq']
    have e : parseInline (prints text) { ((rowSt us cs up).push { kind := .table_head }).leaf { kind := .text, content := some [] } with text := true } = _ := h1
    rw [e]
    simp only [ok_bind]
    have : (rowSt us cs up).up.length = up.length := rfl
    rw [this, popTo_push2]
    rfl
  · have := emits_snoc h (emit_cell (env := env) (ms := ms) (cs := f.children) true hinfo (by rw [hinfo]; exact hem) rowInfo)
    simpa [Cell.html] using this

theorem row_cells {up : List Frame} : ∀ {l : List Cell} {p : Option Char} {us : List Str} {cs : List Node} {s : Str}, UsedOk sg us → (∀ c ∈ l, c.ok cx = true) → Emits env ms rowInfo cs s →
    (∀ n, cs.getLast? = some n → n.kind ≠ .brk) →
    ∃ us' cs', runC p (rowLine l) (rowSt us cs up) = .ok (rowSt us' cs' up) ∧ UsedOk sg us' ∧ Emits env ms rowInfo cs' (s ++ l.flatMap (Cell.html cx)) ∧
      (∀ n, cs'.getLast? = some n → n.kind ≠ .brk) := by
  intro l
  induction l with
  | nil =>
    intro p us cs s hu _ h hb
    exact ⟨us, cs, runC_bar _ _, hu, by simpa using h, hb⟩
  | cons c l ih =>
    intro p us cs s hu hok h _
    have hc := hok c (by simp)
    obtain ⟨rest, hrest⟩ : ∃ rest, rowLine l = '|' :: rest := by
      cases l with
      | nil => exact ⟨[], rfl⟩
      | cons d l => exact ⟨d.print ++ rowLine l, by simp [rowLine]⟩
    have key : ∀ {p' : Option Char} {caps : List (G × Str)}, cellRe.matchAt false p ('|' :: (c.print ++ '|' :: rest)) = some ⟨p', '|' :: rest, caps⟩ →
        (∃ us' cs', cellRepl (rowSt us cs up) ⟨'|' :: c.print, caps⟩ = .ok (rowSt us' cs' up) ∧ UsedOk sg us' ∧
          Emits env ms rowInfo cs' (s ++ c.html cx) ∧ (∃ n, cs'.getLast? = some n ∧ n.kind ≠ .brk)) → 
        ∃ us' cs', runC p (rowLine (c :: l)) (rowSt us cs up) = .ok (rowSt us' cs' up) ∧ UsedOk sg us' ∧
          Emits env ms rowInfo cs' (s ++ (c :: l).flatMap (Cell.html cx)) ∧ (∀ n, cs'.getLast? = some n → n.kind ≠ .brk) := by
      rintro p' caps hm ⟨us1, cs1, h1, hu1, h2, n, h3, h4⟩
      obtain ⟨us2, cs2, h5, hu2, h6, h7⟩ := ih (p := ('|' :: c.print).getLast?) hu1 (fun d hd => hok d (by simp [hd])) h2 (by
        intro n' hn'
        rw [h3] at hn'
        simp only [Option.some.injEq] at hn'
        rw [← hn']; exact h4)
      refine ⟨us2, cs2, ?_, hu2, by simpa using h6, h7⟩
      have e : rowLine (c :: l) = ('|' :: c.print) ++ '|' :: rest := by rw [rowLine, hrest]; simp
      rw [e, runC_take (by simp) hm, h1, ok_bind, ← hrest]
      exact h5
    cases c with
    | td a text r =>
      obtain ⟨p', caps, hm⟩ := td_match (p := p) (rest := rest) hc
      exact key hm (cell_td hu hc h)
    | th a m text r =>
      obtain ⟨p', hm⟩ := th_match (p := p) (rest := rest) hc
      exact key hm (cell_th hu hc h)

/-! ## Rows -/

/-- in a table, the last row of which is closed -/
structure TableSt (env : Env) (sg : Stage) (ms : Macros) (st : PS) (t u : Str) : Prop where
  ex : ∃ us rs cs, st = { cur := ⟨tableInfo, rs⟩, up := [⟨docInfo, cs⟩], used := us } ∧ UsedOk sg us ∧ Emits env ms tableInfo rs u ∧ EmitsD env sg ms cs t ∧
    ∀ n, rs.getLast? = some n → n.kind ≠ .brk

theorem emit_row {cs : List Node} {u : Str} (h : Emits env ms rowInfo cs u) (p : Info) :
    emitNode env p (.mk rowInfo cs) ms = .ok (c!"<tr>\n" ++ u ++ c!"</tr>\n", ms) := by
  unfold Emits at h
  rw [emitNode]
  simp only [rowInfo] at h ⊢
  simp [h, emap, Except.map]

theorem emit_table {cs : List Node} {u : Str} (h : Emits env ms tableInfo cs u) (p : Info) :
    emitNode env p (.mk tableInfo cs) ms = .ok (c!"<table>\n" ++ u ++ c!"</table>\n", ms) := by
  unfold Emits at h
  rw [emitNode]
  simp only [tableInfo] at h ⊢
  simp [h, emap, Except.map]

theorem rowLine_parts (c : Cell) (l : List Cell) : ∃ z, rowLine (c :: l) = '|' :: (z ++ c!"|") := by
  have : ∀ l : List Cell, ∃ z, rowLine l = z ++ c!"|" := by
    intro l
    induction l with
    | nil => exact ⟨[], rfl⟩
    | cons d l ih =>
      obtain ⟨z, hz⟩ := ih
      exact ⟨c!"|" ++ d.print ++ z, by rw [rowLine, hz]; simp⟩
  obtain ⟨z, hz⟩ := this l
  exact ⟨c.print ++ z, by rw [rowLine, hz]; simp⟩

theorem strip_row (z : Str) : strip ('|' :: (z ++ c!"|")) = '|' :: (z ++ c!"|") := by
  refine strip_id ?_ ?_
  · intro c hc
    simp only [List.head?_cons, Option.some.injEq] at hc
    rw [← hc]; decide
  · intro c hc
    have : ('|' :: (z ++ c!"|")).getLast? = some '|' := by
      rw [List.getLast?_cons, List.getLast?_append]; rfl
    rw [this] at hc
    simp only [Option.some.injEq] at hc
    rw [← hc]; decide

/-- the second half of `tableRepl` -/
theorem tableRepl_row {st : PS} {t u w : Str} {c : Cell} {l : List Cell} (h : TableSt env sg ms st t u) (hl : ∀ x ∈ c :: l, x.ok cx = true) {st0 : PS}
    (h0 : (let s1 := st0.upto fun k => k = .table || isDoc k; if s1.cur.kind = .table then s1 else s1.push { kind := .table }) = st) :
    ∃ st', tableRepl ⟨w, [(.table, rowLine (c :: l))]⟩ st0 = .ok st' ∧ TableSt env sg ms st' t (u ++ rowHtml cx (c :: l)) := by
  obtain ⟨us, rs, cs, rfl, hu, h1, h2, h3⟩ := h.ex
  obtain ⟨z, hz⟩ := rowLine_parts c l
  have hst := strip_row z
  rw [← hz] at hst
  obtain ⟨us', cs', h4, hu', h5, h6⟩ := row_cells (env := env) (ms := ms) (cx := cx) (us := us) (up := [⟨tableInfo, rs⟩, ⟨docInfo, cs⟩]) (p := none) (cs := []) (s := []) hu hl emits_nil (by simp)
  refine ⟨{ cur := ⟨tableInfo, rs ++ [.mk rowInfo cs']⟩, up := [⟨docInfo, cs⟩], used := us' }, ?_, ⟨us', _, cs, rfl, hu', ?_, h2, ?_⟩⟩
  · unfold tableRepl
    have hn : need ⟨w, [(G.table, rowLine (c :: l))]⟩ .table = .ok (rowLine (c :: l)) := rfl
    simp only at h0
    simp only [hn, ok_bind, hst, h0]
    rw [findAll_runC]
    have e : PS.push { cur := ⟨tableInfo, rs⟩, up := [⟨docInfo, cs⟩], used := us } { kind := .table_row } = rowSt us [] [⟨tableInfo, rs⟩, ⟨docInfo, cs⟩] := rfl
    rw [e, h4]
    simp only [ok_bind]
    rfl
  · have := emits_snoc h1 (emit_row h5 tableInfo)
    simpa [rowHtml] using this
  · intro n hn
    rw [List.getLast?_append, List.getLast?_singleton, Option.some_or, Option.some.injEq] at hn
    rw [← hn]; simp [Node.kind, Node.info, rowInfo]

/-- a row that is not the first one -/
theorem tableSt_upto {st : PS} {t u : Str} (h : TableSt env sg ms st t u) :
    (let s1 := st.upto fun k => k = .table || isDoc k; if s1.cur.kind = .table then s1 else s1.push { kind := .table }) = st := by
  obtain ⟨us, rs, cs, rfl, _, _, _, h3⟩ := h.ex
  have : PS.upto { cur := ⟨tableInfo, rs⟩, up := [⟨docInfo, cs⟩], used := us } (fun k => k = .table || isDoc k) = { cur := ⟨tableInfo, rs⟩, up := [⟨docInfo, cs⟩], used := us } := by
    unfold PS.upto
    rw [noBrk_clean (st := { cur := ⟨tableInfo, rs⟩, up := [⟨docInfo, cs⟩], used := us }) h3]
    simp [climb, Frame.kind, tableInfo]
  rw [this]
  rfl

theorem tableHead_match {p : Option Char} {z : Str} {gap : List Str} {o : Option Str} {caps : List (G × Str)} (hz : '\n' ∉ z) (hR : Rest gap o) :
    (tableHead.res ⟨p, '|' :: (z ++ c!"|") ++ rest gap o, caps⟩).head? =
      some ⟨((nls gap).getLast?).or (some '|'), tailStr o, (.table, '|' :: (z ++ c!"|")) :: caps⟩ := by
  obtain ⟨a, b, hab, hb, ha⟩ : ∃ a b, z = a ++ b ∧ (∀ c ∈ b, isSpace c = true) ∧ ∀ c, a.getLast? = some c → isSpace c = false := by
    refine ⟨(z.reverse.dropWhile isSpace).reverse, (z.reverse.takeWhile isSpace).reverse, ?_, ?_, ?_⟩
    · rw [← List.reverse_append, List.takeWhile_append_dropWhile, List.reverse_reverse]
    · intro c hc
      rw [List.mem_reverse] at hc
      exact (List.all_eq_true.1 (List.all_takeWhile (l := z.reverse) (p := isSpace))) c hc
    · intro c hc
      rw [List.getLast?_reverse] at hc
      have := List.head?_dropWhile_not isSpace z.reverse
      rw [hc] at this
      simpa using this
  have hend : ∀ caps, ((Re.seq sps (.eol true) : R).res ⟨some '|', rest gap o, caps⟩).head? = some ⟨((nls gap).getLast?).or (some '|'), tailStr o, caps⟩ := by
    intro caps
    have hsp := nls_space hR.gap
    unfold rest
    cases o with
    | none =>
      have := spsEol_end (p := some '|') (caps := caps) hsp
      simpa [tailStr] using this
    | some s => exact (hR.next s rfl).spsEol_gap (some '|') caps hsp
  generalize hr : rest gap o = r at hend ⊢
  unfold tableHead
  have e : ∀ s, (Re.seq (.grp .table (cat [ch '|', anyDots, sps, opt (ch '|')])) (.seq sps (.eol true)) : R).res s =
      ((ch '|' : R).res s).flatMap fun a => ((Re.star false (.cls .dot) : R).res a).flatMap fun x =>
        (sps.res x).flatMap fun y => ((opt (ch '|') : R).res y).flatMap fun z =>
          (Re.seq sps (.eol true) : R).res ⟨z.prev, z.rest, (.table, consumed s.rest z.rest) :: z.caps⟩ := by
    intro s
    show (((Re.seq (ch '|') (.seq anyDots (.seq sps (opt (ch '|')))) : R).res s).map _).flatMap _ = _
    rw [List.flatMap_map]
    show (List.flatMap _ (List.flatMap _ _)) = _
    rw [List.flatMap_assoc]
    congr 1
    funext a
    show (List.flatMap _ (List.flatMap _ _)) = _
    rw [List.flatMap_assoc]
    congr 1
    funext b
    show (List.flatMap _ (List.flatMap _ _)) = _
    rw [List.flatMap_assoc]
  rw [e]
  have e1 : (ch '|' : R).res ⟨p, '|' :: (z ++ c!"|") ++ r, caps⟩ = [⟨some '|', z ++ c!"|" ++ r, caps⟩] := by
    simp [ch, Re.res, CSet.mem]
  rw [e1, List.flatMap_cons, List.flatMap_nil, List.append_nil]
  have e2 : z ++ c!"|" ++ r = a ++ (b ++ '|' :: r) := by rw [hab]; simp
  rw [e2]
  refine Re.head_lazy (Verif.Step.cls .dot) a (some '|') ?_ ?_ ?_
  · intro d hd
    simp only [CSet.mem, bne_iff_ne, ne_eq]
    rintro rfl
    apply hz; rw [hab]; exact List.mem_append_left _ hd
  · -- too short
    intro u v huv hv
    -- `v` contains something that is not a blank
    have hvl : isSpace (v.getLast hv) = false := ha _ (by
      rw [huv, List.getLast?_append, List.getLast?_eq_some_getLast hv]; rfl)
    rw [List.flatMap_eq_nil_iff]
    intro y hy
    obtain ⟨w, hw1, hw2, hw3, hw4⟩ := mem_sps hy
    simp only at hw1
    -- the blanks taken are a prefix of `v`
    have hwv : ∃ v', v' ≠ [] ∧ v = w ++ v' := by
      rcases List.append_eq_append_iff.1 hw1 with ⟨x, hx, _⟩ | ⟨x, hx, _⟩
      · exfalso
        have := hw2 (v.getLast hv) (by rw [hx]; exact List.mem_append_left _ (List.getLast_mem hv))
        rw [hvl] at this
        exact absurd this (by decide)
      · refine ⟨x, ?_, hx⟩
        rintro rfl
        rw [List.append_nil] at hx
        have := hw2 (v.getLast hv) (by rw [← hx]; exact List.getLast_mem hv)
        rw [hvl] at this
        exact absurd this (by decide)
    obtain ⟨v', hv', hvw⟩ := hwv
    have hyr : y.rest = v' ++ (b ++ '|' :: r) := by
      rw [hvw, List.append_assoc] at hw1
      exact (List.append_cancel_left hw1).symm
    have hvnl : '\n' ∉ v' := by
      intro h
      apply hz
      rw [hab, huv, hvw]
      simp [h]
    have hv'l : isSpace (v'.getLast hv') = false := by
      have : v.getLast hv = v'.getLast hv' := by
        subst hvw
        exact List.getLast_append_of_ne_nil _ hv'
      rw [← this]; exact hvl
    have nb : ∀ (x : Str) (hx : x ≠ []), '\n' ∉ x → isSpace (x.getLast hx) = false → ∀ s, Nonblank (x ++ s) := by
      intro x hx hxn hxl s
      refine nonblank_of_lineText ?_ s
      simp only [lineText, Bool.and_eq_true, Bool.not_eq_true', List.contains_eq_mem, decide_eq_false_iff_not]
      refine ⟨?_, hxn⟩
      rw [Bool.eq_false_iff]
      intro hall
      have := List.all_eq_true.1 hall _ (List.getLast_mem hx)
      rw [hxl] at this
      exact absurd this (by decide)
    obtain ⟨yp, yr, yc⟩ := y
    simp only at hyr
    subst hyr
    have eo : (opt (ch '|') : R).res ⟨yp, v' ++ (b ++ '|' :: r), yc⟩ = (ch '|' : R).res ⟨yp, v' ++ (b ++ '|' :: r), yc⟩ ++ [⟨yp, v' ++ (b ++ '|' :: r), yc⟩] := rfl
    rw [eo, List.flatMap_append, List.append_eq_nil_iff]
    constructor
    · cases v' with
      | nil => exact absurd rfl hv'
      | cons d v' =>
        by_cases hd : d = '|'
        · subst hd
          have : (ch '|' : R).res ⟨yp, '|' :: v' ++ (b ++ '|' :: r), yc⟩ = [⟨some '|', v' ++ (b ++ '|' :: r), yc⟩] := by
            simp [ch, Re.res, CSet.mem]
          rw [this, List.flatMap_cons, List.flatMap_nil, List.append_nil]
          have hnb : Nonblank (v' ++ (b ++ '|' :: r)) := by
            have e : v' ++ (b ++ '|' :: r) = (v' ++ b ++ c!"|") ++ r := by simp
            rw [e]
            refine nb _ (by simp) ?_ (by simp; decide) r
            intro h
            simp only [List.mem_append, List.mem_singleton] at h
            rcases h with (h | h) | h
            · exact hvnl (by simp [h])
            · apply hz; rw [hab]; exact List.mem_append_right _ h
            · exact absurd h (by decide)
          exact hnb.spsEol _ _
        · have : (ch '|' : R).res ⟨yp, d :: v' ++ (b ++ '|' :: r), yc⟩ = [] := res_ch_nil hd
          rw [this]; rfl
    · rw [List.flatMap_cons, List.flatMap_nil, List.append_nil]
      exact (nb v' hv' hvnl hv'l _).spsEol _ _
  · -- long enough
    have h1 : (sps.res ⟨(a.getLast?).or (some '|'), b ++ '|' :: r, caps⟩).head? = some ⟨(b.getLast?).or ((a.getLast?).or (some '|')), '|' :: r, caps⟩ :=
      Re.head_star_cls (cs := .space) (by intro c t h; simp at h; rw [← h.1]; decide) b _ (fun c hc => hb c hc)
    refine head_flatMap h1 ?_
    have h2 : ((opt (ch '|') : R).res ⟨(b.getLast?).or ((a.getLast?).or (some '|')), '|' :: r, caps⟩).head? = some ⟨some '|', r, caps⟩ :=
      Re.head_alt_left (by simp [ch, Re.res, CSet.mem])
    refine head_flatMap h2 ?_
    have hc : consumed ('|' :: (z ++ c!"|") ++ r) r = '|' :: (z ++ c!"|") := consumed_append _ _
    simp only [hc]
    exact hend _

theorem row_hit {blog lead : Bool} {p : Option Char} {z : Str} {gap : List Str} {o : Option Str} {st : PS} (hp : atBol true p = true)
    (hz : '\n' ∉ z) (hR : Rest gap o) :
    ∃ w, runL blog lead p ('|' :: (z ++ c!"|") ++ rest gap o) st =
      (tableRepl ⟨w, [(.table, '|' :: (z ++ c!"|"))]⟩ st >>= runR (blockRe blog) blockRepl (((nls gap).getLast?).or (some '|')) (tailStr o)) := by
  obtain ⟨h1, h2⟩ := first_rules (lead := lead) (p := p) (c := '|') (s := (z ++ c!"|") ++ rest gap o) hp (by decide) (by decide) (by decide)
  have hre : atEol true (rest gap o) = true := rest_eol gap o
  have hnl : '\n' ∉ '|' :: (z ++ c!"|") := by
    intro h
    simp only [List.mem_cons, List.mem_append, List.not_mem_nil, or_false] at h
    rcases h with h | h | h
    · exact absurd h (by decide)
    · exact hz h
    · exact absurd h (by decide)
  have hsep : ∀ (w : Str), (∀ c ∈ w, isSpace c = true) → separatorRule.res ⟨p, w ++ ('|' :: (z ++ c!"|") ++ rest gap o), []⟩ = [] := by
    intro w hw
    refine sep_nil hw ?_ (by simp) hnl hre (by simp [List.isPrefixOf])
    intro c t h
    simp only [List.cons.injEq] at h
    rw [← h.1]; decide
  have hpre : ∀ (w : Str), (∀ c ∈ w, isSpace c = true) → preBlockRule.res ⟨p, w ++ ('|' :: (z ++ c!"|") ++ rest gap o), []⟩ = [] := by
    intro w hw
    refine preBlock_nil ?_
    intro t h
    exfalso
    cases w with
    | nil => simp at h
    | cons c w =>
      have := hw c (by simp)
      simp only [List.cons_append, List.cons.injEq] at h
      rw [h.1] at this
      exact absurd this (by decide)
  have hlist : ∀ (w : Str), (∀ c ∈ w, isSpace c = true) → listRule.res ⟨p, w ++ ('|' :: (z ++ c!"|") ++ rest gap o), []⟩ = [] := by
    intro w hw
    refine list_nil hw ?_ ?_ (by simp)
    · cases hzz : z ++ c!"|" <;> simp
    · intro c t h
      simp only [List.cons.injEq] at h
      rw [← h.1]; decide
  have hlast : (leadStr lead ++ ('|' :: (z ++ c!"|")) ++ nls gap).getLast? = ((nls gap).getLast?).or (some '|') := by
    rw [List.getLast?_append, List.getLast?_append]
    have : ('|' :: (z ++ c!"|")).getLast? = some '|' := by
      rw [List.getLast?_cons, List.getLast?_append]; rfl
    rw [this]; rfl
  refine ⟨leadStr lead ++ ('|' :: (z ++ c!"|")) ++ nls gap, ?_⟩
  have e := runL_take (blog := blog) (lead := lead) (l₁ := [macroBlockRule, lineRule, headRule, separatorRule, preBlockRule, listRule])
    (l₂ := [textRule blog]) (a := tableRule) rfl (p := p) (s := '|' :: (z ++ c!"|") ++ rest gap o)
    (w := leadStr lead ++ ('|' :: (z ++ c!"|")) ++ nls gap) (rest := tailStr o)
    (caps := [(.table, '|' :: (z ++ c!"|"))]) (st := st)
    (p' := ((nls gap).getLast?).or (some '|')) ?_ ?_ ?_ (by simp [rest]) (by simp)
  · rw [e, onHitB_table, hlast]
    rfl
  · intro hl q hq
    simp only [List.mem_cons, List.not_mem_nil, or_false] at hq
    rcases hq with rfl | rfl | rfl | rfl | rfl | rfl
    · exact h1 hl _ (by simp)
    · exact h1 hl _ (by simp)
    · exact h1 hl _ (by simp)
    · exact hsep [] (by simp)
    · exact hpre [] (by simp)
    · exact hlist [] (by simp)
  · intro hl q hq y hy
    have hs1 : ∀ c ∈ c!"\n", isSpace c = true := by intro c hc; simp at hc; subst hc; decide
    simp only [List.mem_cons, List.not_mem_nil, or_false] at hq
    rcases hq with rfl | rfl | rfl | rfl | rfl | rfl
    · exact h2 hl _ (by simp) y hy
    · exact h2 hl _ (by simp) y hy
    · exact h2 hl _ (by simp) y hy
    · have := hsep c!"\n" hs1
      rw [List.cons_append, List.nil_append] at this
      rw [this] at hy; simp at hy
    · have := hpre c!"\n" hs1
      rw [List.cons_append, List.nil_append] at this
      rw [this] at hy; simp at hy
    · have := hlist c!"\n" hs1
      rw [List.cons_append, List.nil_append] at this
      rw [this] at hy; simp at hy
  · rw [table_res hp (leadStr_space lead) (by
      intro c t' h
      simp only [List.cons_append, List.cons.injEq] at h
      rw [← h.1]; decide)]
    exact tableHead_match hz hR

theorem rowLine_nl : ∀ {l : List Cell}, (∀ c ∈ l, c.ok cx = true) → '\n' ∉ rowLine l := by
  intro l
  induction l with
  | nil => intro _; decide
  | cons c l ih =>
    intro h hn
    have hsp : ∀ n, '\n' ∉ spaces n := by
      intro n hm
      rw [spaces, List.mem_replicate] at hm
      exact absurd hm.2 (by decide)
    simp only [rowLine, List.mem_append] at hn
    rcases hn with (hn | hn) | hn
    · exact absurd hn (by decide)
    · have hc := h c (by simp)
      cases c with
      | td a text r =>
        simp only [Cell.ok, Bool.and_eq_true] at hc
        obtain ⟨_, _, _, h3⟩ := trimmed_iff hc.1.1.2
        simp only [Cell.print, List.mem_append] at hn
        rcases hn with (hn | hn) | hn
        · exact hsp _ hn
        · exact h3 hn
        · exact hsp _ hn
      | th a m text r =>
        simp only [Cell.ok, Bool.and_eq_true] at hc
        obtain ⟨_, _, _, h3⟩ := trimmed_iff hc.1.1.1.2
        simp only [Cell.print, List.mem_append] at hn
        rcases hn with (((hn | hn) | hn) | hn) | hn
        · exact hsp _ hn
        · exact absurd hn (by decide)
        · exact hsp _ hn
        · exact h3 hn
        · exact hsp _ hn
    · exact ih (fun d hd => h d (by simp [hd])) hn

def rowOk (cx : Ctx) (r : List Cell) : Prop := r ≠ [] ∧ ∀ c ∈ r, c.ok cx = true

theorem rows_nonblank {r : List Cell} (h : rowOk cx r) (s : Str) : Nonblank (rowLine r ++ s) := by
  refine nonblank_of_lineText ?_ s
  simp only [lineText, Bool.and_eq_true, Bool.not_eq_true', List.contains_eq_mem, decide_eq_false_iff_not]
  refine ⟨?_, rowLine_nl h.2⟩
  cases r with
  | nil => exact absurd rfl h.1
  | cons c l =>
    simp only [rowLine, List.cons_append, List.all_cons]
    rw [show isSpace '|' = false by decide]; rfl

theorem table_go {blog : Bool} {gap : List Str} {o : Option Str} (hR : Rest gap o) {t : Str} : ∀ {rows : List (List Cell)} {r : List Cell}
    {lead : Bool} {p : Option Char} {st0 st : PS} {u : Str}, atBol true p = true → (∀ x ∈ r :: rows, rowOk cx x) → (blog = true ∨ rows = []) →
    TableSt env sg ms st t u →
    (let s1 := st0.upto fun k => k = .table || isDoc k; if s1.cur.kind = .table then s1 else s1.push { kind := .table }) = st →
    ∃ st', runL blog lead p (joinLines c!"\n" ((r :: rows).map rowLine) ++ rest gap o) st0 =
      runR (blockRe blog) blockRepl (((nls gap).getLast?).or (some '|')) (tailStr o) st' ∧
      TableSt env sg ms st' t (u ++ (r :: rows).flatMap (rowHtml cx)) := by
  intro rows
  induction rows with
  | nil =>
    intro r lead p st0 st u hp hr _ h h0
    have hr0 := hr r (by simp)
    obtain ⟨c, l, rfl⟩ := List.exists_cons_of_ne_nil hr0.1
    obtain ⟨z, hz⟩ := rowLine_parts c l
    have hnl : '\n' ∉ z := by
      intro hh
      apply rowLine_nl hr0.2
      rw [hz]; simp [hh]
    obtain ⟨w, hw⟩ := row_hit (blog := blog) (lead := lead) (p := p) (st := st0) hp hnl hR
    rw [← hz] at hw
    obtain ⟨st', h1, h2⟩ := tableRepl_row (w := w) h hr0.2 h0
    refine ⟨st', ?_, by simpa using h2⟩
    simp only [List.map_cons, List.map_nil, joinLines]
    rw [hw, h1, ok_bind]
  | cons r' rows ih =>
    intro r lead p st0 st u hp hr hb h h0
    have hb' : blog = true := by simpa using hb
    subst hb'
    have hr0 := hr r (by simp)
    obtain ⟨c, l, rfl⟩ := List.exists_cons_of_ne_nil hr0.1
    obtain ⟨z, hz⟩ := rowLine_parts c l
    have hnl : '\n' ∉ z := by
      intro hh
      apply rowLine_nl hr0.2
      rw [hz]; simp [hh]
    have hnb : Nonblank (joinLines c!"\n" ((r' :: rows).map rowLine) ++ rest gap o) := by
      rw [List.map_cons, joinLines_cons, List.append_assoc]
      exact rows_nonblank (hr r' (by simp)) _
    obtain ⟨w, hw⟩ := row_hit (blog := true) (lead := lead) (p := p) (st := st0) (gap := [])
      (o := some (joinLines c!"\n" ((r' :: rows).map rowLine) ++ rest gap o)) hp hnl ⟨by simp, by
        intro s hs
        simp only [Option.some.injEq] at hs
        rw [← hs]; exact hnb⟩
    rw [← hz, rest_nil] at hw
    obtain ⟨st1, h1, h2⟩ := tableRepl_row (w := w) h hr0.2 h0
    obtain ⟨st', h3, h4⟩ := ih (r := r') (lead := false) (p := some '\n') rfl (fun x hx => hr x (by simp only [List.mem_cons] at hx ⊢; exact .inr hx))
      (.inl rfl) h2 (tableSt_upto h2)
    refine ⟨st', ?_, by simpa using h4⟩
    have e : joinLines c!"\n" (((c :: l) :: r' :: rows).map rowLine) ++ rest gap o =
        rowLine (c :: l) ++ tailStr (some (joinLines c!"\n" ((r' :: rows).map rowLine) ++ rest gap o)) := by
      rw [List.map_cons, List.map_cons, joinLines_cons, nls_cons, joinLines_cons]
      simp [tailStr]
    rw [e, hw, h1, ok_bind]
    show runR _ _ (some '|') ('\n' :: _) st1 = _
    rw [skip_mid (by decide) (.inl rfl)]
    exact h3

theorem step_table {blog : Bool} {start : Start} {gap : List Str} {o : Option Str} {run : PS → PM} {st : PS} {t : Str} {rows : List (List Cell)}
    (hok : (Block.table rows).ok cx blog start = true) (he : Entry blog start (btext (.table rows) ++ rest gap o) run) (hR : Rest gap o)
    (ht : Top env sg ms st t) (hen : EnterOk (.table rows) st) :
    Did1 env sg ms cx blog (.table rows) gap o (run st) t := by
  simp only [Block.ok, Bool.and_eq_true, bne_iff_ne, ne_eq, Bool.not_eq_true', Bool.or_eq_true, beq_iff_eq, List.all_eq_true] at hok
  obtain ⟨⟨⟨hst, hne⟩, hrows⟩, hall⟩ := hok
  obtain ⟨p, lead, hp, rfl⟩ := he.lead hst
  cases rows with
  | nil => simp at hne
  | cons r rows =>
    obtain ⟨cs, h1, h2⟩ := ht.doc
    have hbase : st.upto (fun k => k = .table || isDoc k) = docSt st.used cs := by
      rw [← h1]
      unfold PS.uptoBlock PS.upto
      have hc : ∀ (fs : List Frame) (f : Frame), (∀ g ∈ f :: fs, g.kind ≠ .table) →
          climb (fun k => k = .table || isDoc k) f fs = climb isDoc f fs := by
        intro fs
        induction fs with
        | nil => intro f _; rfl
        | cons p fs ih =>
          intro f h
          rw [climb, climb]
          have h0 : (decide (f.kind = Kind.table)) = false := by simpa using h f (by simp)
          rw [h0, Bool.false_or, ih]
          intro g hg
          rw [List.mem_cons] at hg
          rcases hg with rfl | hg
          · exact h p (by simp)
          · exact h g (by simp [hg])
      show (PS.mk (climb (fun k => k = .table || isDoc k) st.cleanupBreak.cur st.cleanupBreak.up).1
        (climb (fun k => k = .table || isDoc k) st.cleanupBreak.cur st.cleanupBreak.up).2 st.cleanupBreak.text st.cleanupBreak.used) =
        PS.mk (climb isDoc st.cleanupBreak.cur st.cleanupBreak.up).1 (climb isDoc st.cleanupBreak.cur st.cleanupBreak.up).2 st.cleanupBreak.text st.cleanupBreak.used
      rw [hc]
      intro g hg
      have hcl : st.cleanupBreak.up = st.up ∧ st.cleanupBreak.cur.kind = st.cur.kind := by
        unfold PS.cleanupBreak
        split
        · split <;> exact ⟨rfl, rfl⟩
        · exact ⟨rfl, rfl⟩
      rw [List.mem_cons, hcl.1] at hg
      rcases hg with rfl | hg
      · rw [hcl.2]
        exact hen st.cur.kind (by simp [path])
      · exact hen g.kind (by unfold path; exact List.mem_map_of_mem (by simp [hg]))
    obtain ⟨st', h3, h4⟩ := table_go (env := env) (ms := ms) (cx := cx) (blog := blog) (rows := rows) (r := r) (lead := lead) (p := p) (st0 := st) (t := t)
      (u := []) hR hp (by
        intro x hx
        have := hall x hx
        refine ⟨?_, fun c hc => this.2 c hc⟩
        rintro rfl
        exact absurd this.1 (by simp)) (by
        rcases hrows with h | h
        · exact .inl h
        · exact .inr (by simpa using h))
      (st := { cur := ⟨tableInfo, []⟩, up := [⟨docInfo, cs⟩], used := st.used }) ⟨st.used, [], cs, rfl, ht.used, emits_nil, h2, by simp⟩ (by rw [hbase]; rfl)
    obtain ⟨us, rs, cs', rfl, hu, h5, h6, h7⟩ := h4.ex
    refine ⟨_, _, h3, ?_, ⟨rfl, hu, ⟨cs' ++ [.mk tableInfo rs], ?_, ?_⟩, ?_⟩, ⟨rfl, ?_⟩, fun _ => h7⟩
    · show (if true = true then _ else _); rw [if_pos rfl]
    · unfold PS.uptoBlock PS.upto
      rw [noBrk_clean (st := { cur := ⟨tableInfo, rs⟩, up := [⟨docInfo, cs'⟩], used := us }) h7]
      rfl
    · have := emitsD_snoc h6 (emit_table h5 docInfo)
      simpa [Block.html, sep] using this
    · intro hk; exact absurd hk (by simp [Frame.kind, tableInfo])
    · simp [path, Frame.kind, tableInfo, docInfo]

end Verif.Creole
