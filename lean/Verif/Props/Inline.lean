import Verif.Creole.PlainLemmas
import Verif.Spec.Spans
import Verif.Props.EmitText

/-!
# C09, C12, C13, C14, C47: inline markup
-/

namespace Verif.Props

open Verif Py Creole Spec Spec.Cr

/-- **C12, in general.** A line of inline markup that begins no other block gives a paragraph with its HTML. -/
theorem C12_inline (o : Opts) (macros : Macros) (markup : Str) (l : List Cr.Inl) (cx : Ctx) (hcx : ReadWith o macros cx) (h1 : wfs cx none l = true) (h2 : lineText (prints l) = true)
    (h3 : plainStart .all (prints l) = true) (h4 : (l.getLast?).all Inl.notBr = true) (hl : textLines markup = [prints l]) :
    creole2htmlM o macros markup = .ok (c!"<p>" ++ htmls cx c!"<br />\n" l ++ c!"</p>", macros) := by
  have := creole2html_noMac (cx := cx) o macros markup [([], .para [l])] [] (by
    simp only [docOk, tailOk, List.all_nil, Bool.true_and, Bool.and_true]
    refine para_all ?_ _
    simp only [Block.ok, paraOk, h1, h2, h3, h4, Bool.and_self]) hcx rfl (by rw [hl]; rfl) (by intro x hx; simp only [List.mem_singleton] at hx; subst hx; rfl)
  rw [this]
  simp only [docBody, docTail, Block.html, paraHtml, List.append_nil]

example : let l : List Cr.Inl := [.face .strong [.chr 'a', .link c!"b" [.chr 'c']], .chr ' ', .url c!"http://x", .chr ' ', .nowiki c!"**", .br, .esc '*']
    wfs {} none l = true ∧ plainStart .all (prints l) = true ∧
      prints l = c!"**a[[b|c]]** http://x {{{**}}}\\\\~*" := by decide +kernel

/-! ## C12: typefaces -/

mutual
def spanInl : Span → List Cr.Inl
  | .text s => s.map .chr
  | .face f l => [.face f (spansInl l)]
def spansInl : List Span → List Cr.Inl
  | [] => []
  | x :: l => spanInl x ++ spansInl l
end

mutual
theorem span_prints : (x : Span) → prints (spanInl x) = x.print
  | .text s => by rw [spanInl, prints_chars, Span.print]
  | .face f l => by simp only [spanInl, prints, Inl.print, Span.print, spans_prints l, List.append_nil]
theorem spans_prints : (l : List Span) → prints (spansInl l) = spansPrint l
  | [] => rfl
  | x :: l => by rw [spansInl, prints_append, span_prints x, spans_prints l, spansPrint]
end

mutual
theorem span_htmls (cx : Ctx) (br : Str) : (x : Span) → htmls cx br (spanInl x) = x.html
  | .text s => by rw [spanInl, htmls_chars, Span.html]
  | .face f l => by simp only [spanInl, htmls, Inl.html, Span.html, spans_htmls cx c!"<br />\n" l, List.append_nil]
theorem spans_htmls (cx : Ctx) (br : Str) : (l : List Span) → htmls cx br (spansInl l) = spansHtml l
  | [] => rfl
  | x :: l => by rw [spansInl, htmls_append, span_htmls cx br x, spans_htmls cx br l, spansHtml]
end

structure CleanText (s : Str) : Prop where
  ne : s ≠ []
  clean : ∀ c ∈ s, c ∉ c!"*/#_^,-~[{<\\\n"
  colon : s.getLast? ≠ some ':'

theorem cleanText_iff {s : Str} (h : cleanText s = true) : CleanText s := by
  simp only [cleanText, Bool.and_eq_true, Bool.not_eq_true', List.all_eq_true, bne_iff_ne, ne_eq, List.contains_eq_mem, decide_eq_false_iff_not] at h
  refine ⟨?_, h.1.2, h.2⟩
  rintro rfl; simp at h

theorem CleanText.plain {s : Str} (h : CleanText s) : PlainText s := by
  refine ⟨fun hm => h.clean _ hm (by decide), fun hm => h.clean _ hm (by decide), ?_⟩
  intro c hc
  refine occurs_false ?_
  rintro u t rfl
  have := h.clean c (by simp)
  have hd : ∀ c ∈ doubled, c ∈ c!"*/#_^,-~[{<\\\n" := by decide
  exact this (hd c hc)

/-- all characters of the marks -/
theorem face_char_marks (f : Face) : f.char ∈ c!"[{*#_^,-/~\\" ∧ f.char ∈ c!"*/#_^,-~[{<\\\n" ∧ isSpace f.char = false ∧ f.char ≠ ':' ∧ f.char ≠ '\n' ∧
    f.char ∉ c!"=|<{" := by
  cases f <;> decide

theorem face_char_inj {f g : Face} (h : f.char = g.char) : f = g := by
  revert h; cases f <;> cases g <;> decide

mutual
/-- the mark of an outer typeface does not occur inside -/
theorem span_unused {used : List Face} {f : Face} (hf : f ∈ used) : (x : Span) → x.ok used = true → f.char ∉ x.print
  | .text s => by
    intro h hm
    exact (cleanText_iff h).clean _ hm (face_char_marks f).2.1
  | .face g l => by
    intro h
    simp only [Span.ok, Bool.and_eq_true, Bool.not_eq_true', List.contains_eq_mem, decide_eq_false_iff_not] at h
    have := spans_unused (used := g :: used) (f := f) (by simp [hf]) l h.2
    have hne : f.char ≠ g.char := by
      intro e
      have := face_char_inj e
      subst this
      exact h.1.1 hf
    simp [Span.print, hne, this]
theorem spans_unused {used : List Face} {f : Face} (hf : f ∈ used) : (l : List Span) → spansOk used l = true → f.char ∉ spansPrint l
  | [] => by simp [spansPrint]
  | x :: l => by
    intro h
    simp only [spansOk, Bool.and_eq_true] at h
    have h1 := span_unused hf x h.1.1
    have h2 := spans_unused hf l h.2
    simp [spansPrint, h1, h2]
end

mutual
theorem span_nl {used : List Face} : (x : Span) → x.ok used = true → '\n' ∉ x.print ∧ x.print ≠ [] ∧ x.print.getLast? ≠ some ':'
  | .text s => by
    intro h
    have := cleanText_iff h
    exact ⟨fun hm => this.clean _ hm (by decide), this.ne, this.colon⟩
  | .face g l => by
    intro h
    simp only [Span.ok, Bool.and_eq_true] at h
    have := spans_nl l h.2
    have hg := face_char_marks g
    refine ⟨?_, by simp [Span.print], ?_⟩
    · simp only [Span.print, List.mem_append, not_or]
      have hh : ¬ '\n' ∈ [g.char, g.char] := by simp; exact fun e => hg.2.2.2.2.1 e.symm
      exact ⟨⟨hh, this.1⟩, hh⟩
    · rw [Span.print, List.getLast?_append]
      simpa using hg.2.2.2.1
theorem spans_nl {used : List Face} : (l : List Span) → spansOk used l = true → '\n' ∉ spansPrint l ∧ (spansPrint l).getLast? ≠ some ':'
  | [] => by simp [spansPrint]
  | x :: l => by
    intro h
    simp only [spansOk, Bool.and_eq_true] at h
    have h1 := span_nl x h.1.1
    have h2 := spans_nl l h.2
    refine ⟨by simp [spansPrint, h1.1, h2.1], ?_⟩
    rw [spansPrint, List.getLast?_append]
    cases hl : (spansPrint l).getLast? with
    | none => simpa using h1.2.2
    | some c => rw [hl] at h2; simpa using h2.2
end

theorem closes_false {f : Face} : ∀ {s : Str} {prev : Option Char}, f.char ∉ s → closes f prev (s ++ [f.char]) = false := by
  intro s
  induction s with
  | nil => intro prev _; simp [closes]
  | cons c s ih =>
    intro prev h
    rw [List.cons_append, closes, ih (by intro hm; exact h (by simp [hm]))]
    have : c ≠ f.char := by rintro rfl; simp at h
    simp [this]

theorem last_notBr {l : List Cr.Inl} (h : ∀ i ∈ l, i.notBr = true) : (l.getLast?).all Inl.notBr = true := by
  cases hl : l.getLast? with
  | none => rfl
  | some i => exact h i (List.mem_of_getLast? hl)

mutual
theorem span_notBr : (x : Span) → ∀ i ∈ spanInl x, i.notBr = true
  | .text s => by
    intro i hi
    simp only [spanInl, List.mem_map] at hi
    obtain ⟨c, _, rfl⟩ := hi
    rfl
  | .face f l => by
    intro i hi
    simp only [spanInl, List.mem_singleton] at hi
    subst hi; rfl
theorem spans_notBr : (l : List Span) → ∀ i ∈ spansInl l, i.notBr = true
  | [] => by intro i hi; simp [spansInl] at hi
  | x :: l => by
    intro i hi
    rw [spansInl, List.mem_append] at hi
    rcases hi with hi | hi
    · exact span_notBr x i hi
    · exact spans_notBr l i hi
end

theorem spans_wfs : (n : Nat) → (l : List Span) → sizeOf l ≤ n → (used : List Face) → (prev : Option Char) → prev ≠ some ':' → spansOk used l = true →
    wfs cx prev (spansInl l) = true := by
  intro n
  induction n with
  | zero => intro l hn; cases l <;> simp at hn
  | succ n ih =>
    intro l hn used prev hprev h
    cases l with
    | nil => rfl
    | cons x l =>
      simp only [spansOk, Bool.and_eq_true, Bool.not_eq_true'] at h
      obtain ⟨⟨hx, hj⟩, hl⟩ := h
      rw [List.cons.sizeOf_spec] at hn
      have hlast := (span_nl x hx).2.2
      cases x with
      | text s =>
        have hc := cleanText_iff hx
        rw [spansInl, spanInl]
        refine wfs_text (a := s) hc.plain ?_ (v := s) (u := []) rfl ?_
        · rw [spans_prints]
          cases l with
          | nil => simp [spansPrint, Joins]
          | cons y l =>
            cases y with
            | text t => simp [Span.isText] at hj
            | face f m =>
              have hf := face_char_marks f
              simp only [spansPrint, Span.print, List.cons_append, List.nil_append, Joins]
              refine ⟨hf.1, ?_, ?_⟩
              · intro e
                exact hc.clean _ (List.mem_of_getLast? e) hf.2.1
              · rintro ⟨_, e⟩
                exact hc.colon e
        · refine ih l (by omega) used _ ?_ hl
          have hcol := hc.colon
          cases hlast' : s.getLast? with
          | none => exact absurd (List.getLast?_eq_none_iff.mp hlast') hc.ne
          | some c => rw [hlast'] at hcol; simpa using hcol
      | face f m =>
        rw [spansInl, spanInl]
        simp only [List.cons_append, List.nil_append, wfs, Bool.and_eq_true]
        have hf := face_char_marks f
        constructor
        · simp only [Span.ok, Bool.and_eq_true, Bool.not_eq_true'] at hx
          simp only [Inl.wf, Bool.and_eq_true, Bool.not_eq_true']
          rw [Span.face.sizeOf_spec] at hn
          refine ⟨⟨⟨ih m (by omega) (f :: used) none (by simp) hx.2, ?_⟩, last_notBr (spans_notBr m)⟩, ?_⟩
          · rw [spans_prints]
            have hu := spans_unused (used := f :: used) (f := f) (by simp) m hx.2
            have hn := spans_nl m hx.2
            have hne : spansPrint m ≠ [] := by
              cases m with
              | nil => simp at hx
              | cons y m =>
                simp only [spansOk, Bool.and_eq_true] at hx
                have := (span_nl y hx.2.1.1).2.1
                simp [spansPrint, this]
            cases hm : spansPrint m with
            | nil => exact absurd hm hne
            | cons c t =>
              rw [hm] at hu hn
              simp only [faceText, Bool.and_eq_true, Bool.not_eq_true', List.contains_eq_mem, decide_eq_false_iff_not]
              refine ⟨⟨closes_false (fun hh => hu (by simp [hh])), ?_⟩, hn.1⟩
              cases hb : (c :: t).getLast? == some ':' with
              | false => simp
              | true => exact absurd (by simpa using hb) hn.2
          · cases hb : prev == some ':' with
            | false => simp
            | true => exact absurd (by simpa using hb) hprev
        · refine ih l (by omega) used _ ?_ hl
          have : (Inl.face f (spansInl m)).print.getLast? = some f.char := by
            rw [Inl.print, List.getLast?_append]; rfl
          rw [this]
          simpa using hf.2.2.2.1

/-- the first characters that are not blanks -/
theorem spans_start {used : List Face} : ∀ {l : List Span}, spansOk used l = true →
    (spansPrint l).dropWhile isSpace = [] ∨
    (∃ c t, (spansPrint l).dropWhile isSpace = c :: t ∧ c ∉ c!"*/#_^,-~[{<\\\n") ∨
    ∃ f : Face, ∃ d t, (spansPrint l).dropWhile isSpace = f.char :: f.char :: d :: t ∧ d ≠ f.char := by
  intro l
  induction l with
  | nil => intro _; exact .inl rfl
  | cons x l ih =>
    intro h
    simp only [spansOk, Bool.and_eq_true, Bool.not_eq_true'] at h
    obtain ⟨⟨hx, hj⟩, hl⟩ := h
    cases x with
    | text s =>
      have hc := cleanText_iff hx
      rw [spansPrint, Span.print]
      cases hd : s.dropWhile isSpace with
      | nil =>
        rw [List.dropWhile_append_of_pos (dropWhile_nil_iff.1 hd)]
        exact ih hl
      | cons c v =>
        right; left
        have e : s = s.takeWhile isSpace ++ c :: v := by rw [← hd, List.takeWhile_append_dropWhile]
        have h2 : ∀ c ∈ s.takeWhile isSpace, isSpace c = true := List.all_eq_true.1 (List.all_takeWhile (p := isSpace) (l := s))
        refine ⟨c, v ++ spansPrint l, ?_, hc.clean c (by rw [e]; simp)⟩
        have hcs := dropWhile_head_false s c (by rw [hd]; rfl)
        conv => lhs; rw [e]
        rw [List.append_assoc, List.dropWhile_append_of_pos h2, List.cons_append, List.dropWhile_cons_of_neg (by simp [hcs])]
    | face f m =>
      right; right
      simp only [Span.ok, Bool.and_eq_true, Bool.not_eq_true'] at hx
      have hf := face_char_marks f
      have hu := spans_unused (used := f :: used) (f := f) (by simp) m hx.2
      have hne : spansPrint m ≠ [] := by
        cases m with
        | nil => simp at hx
        | cons y m =>
          simp only [spansOk, Bool.and_eq_true] at hx
          have := (span_nl y hx.2.1.1).2.1
          simp [spansPrint, this]
      cases hm : spansPrint m with
      | nil => exact absurd hm hne
      | cons d t =>
        refine ⟨f, d, t ++ [f.char, f.char] ++ spansPrint l, ?_, ?_⟩
        · rw [spansPrint, Span.print, hm, List.cons_append, List.cons_append, List.cons_append, List.dropWhile_cons_of_neg (by simp [hf.2.2.1])]
          simp
        · rintro rfl
          rw [hm] at hu
          simp at hu

/-- **C12.** Text in typefaces, one inside another, gives the corresponding elements. -/
theorem C12_typefaces (o : Opts) (macros : Macros) (markup : Str) (l : List Span) (hne : (spansPrint l).all isSpace = false) (hok : spansOk [] l = true)
    (hstart : ((spansPrint l).dropWhile isSpace).head? ≠ some '=' ∧ ((spansPrint l).dropWhile isSpace).head? ≠ some '|')
    (hl : textLines markup = [spansPrint l]) :
    creole2htmlM o macros markup = .ok (c!"<p>" ++ spansHtml l ++ c!"</p>", macros) := by
  have := C12_inline o macros markup (spansInl l) { strict := o.strict } (ReadWith.plain o macros) (spans_wfs _ l (Nat.le_refl _) [] none (by simp) hok) (by
    rw [spans_prints]
    simp [lineText, hne, (spans_nl l hok).1]) ?_ (last_notBr (spans_notBr l)) (by rw [spans_prints]; exact hl)
  · rw [this, spans_htmls]
  · rw [spans_prints]
    have hh : ∀ c, isSpace c = false → (spansPrint l).head? = some c → ((spansPrint l).dropWhile isSpace).head? = some c := by
      intro c hc h
      cases hp : spansPrint l with
      | nil => rw [hp] at h; simp at h
      | cons d t =>
        rw [hp] at h
        simp only [List.head?_cons, Option.some.injEq] at h
        subst h
        rw [List.dropWhile_cons_of_neg (by simp [hc])]; rfl
    have hst := spans_start hok
    have hmark : ∀ c, c ∈ c!"<{" → ((spansPrint l).dropWhile isSpace).head? ≠ some c := by
      intro c hc h
      rcases hst with h' | ⟨d, t, h', hd⟩ | ⟨f, d, t, h', _⟩
      · rw [h'] at h; simp at h
      · rw [h'] at h
        simp only [List.head?_cons, Option.some.injEq] at h
        subst h
        have : ∀ c ∈ c!"<{", c ∈ c!"*/#_^,-~[{<\\\n" := by decide
        exact hd (this d hc)
      · rw [h'] at h
        simp only [List.head?_cons, Option.some.injEq] at h
        subst h
        have := (face_char_marks f).2.2.2.2.2
        have h3 : ∀ c ∈ c!"<{", c ∈ c!"=|<{" := by decide
        exact this (h3 _ hc)
    have hpre : ∀ (c : Char) (w : Str), c ∈ c!"<{" → (c :: w).isPrefixOf (spansPrint l) = false := by
      intro c w hc
      cases hp : (c :: w).isPrefixOf (spansPrint l) with
      | false => rfl
      | true =>
        rw [List.isPrefixOf_iff_prefix] at hp
        obtain ⟨t, ht⟩ := hp
        have h3 : ∀ c ∈ c!"<{", isSpace c = false := by decide
        exact absurd (hh c (h3 c hc) (by rw [← ht]; rfl)) (hmark c hc)
    unfold plainStart
    simp only [show (Start.all != Start.all) = false from rfl, show (Start.all == Start.none) = false from rfl, Bool.false_or, Bool.and_eq_true,
      Bool.not_eq_true', bne_iff_ne, ne_eq]
    refine ⟨⟨⟨hpre _ _ (by decide), fun h => hstart.1 (hh _ (by decide) h)⟩, by rw [hpre _ _ (by decide)]; rfl⟩, ⟨?_, hstart.2⟩, ?_⟩
    · rcases hst with h' | ⟨d, t, h', hd⟩ | ⟨f, d, t, h', hd⟩
      · rw [h']; rfl
      · rw [h']
        have : d ≠ '-' := by rintro rfl; exact hd (by decide)
        simp [this.symm]
      · rw [h']
        cases f <;> simp [Face.char] at hd ⊢
        intro e; exact absurd e.symm hd
    · rcases hst with h' | ⟨d, t, h', hd⟩ | ⟨f, d, t, h', hd⟩
      · rw [h']
      · rw [h']
        have h1 : d ≠ '*' := by rintro rfl; exact hd (by decide)
        have h2 : d ≠ '#' := by rintro rfl; exact hd (by decide)
        cases t <;> simp [h1, h2]
      · rw [h']
        cases f <;> simp [Face.char]

example : let l : List Span := [.text c!"see: ", .face .strong [.text c!"a & b", .face .emphasis [.face .delete [.text c!"c"], .text c!" d"]], .face .strong [.text c!"e"]]
    spansOk [] l = true ∧ spansPrint l = c!"see: **a & b//~~c~~ d//****e**" ∧
      spansHtml l = c!"see: <strong>a &amp; b<i><del>c</del> d</i></strong><strong>e</strong>" := by decide +kernel

/-! ## A piece between plain texts -/

/-- plain text, a link or an image or the like, plain text -/
theorem between (o : Opts) (macros : Macros) (markup a b : Str) (i : Cr.Inl) (c : Char) (t : Str) (ha : PlainText a) (hh : plainHead a = true)
    (hb : PlainText b) (hc : c = '[' ∨ c = '{') (hi : i.print = c :: t) (hac : a.getLast? ≠ some c) (hnl : '\n' ∉ i.print)
    (hwf : i.wf { strict := o.strict } a.getLast? b = true) (hbr : i.notBr = true) (hpre : ∀ u, a ++ (i.print ++ b) = c!"{{{" ++ u → u.all isSpace = false)
    (hl : textLines markup = [a ++ (i.print ++ b)]) :
    creole2htmlM o macros markup = .ok (c!"<p>" ++ textHtml a ++ i.html { strict := o.strict } c!"<br />\n" ++ textHtml b ++ c!"</p>", macros) := by
  have hp : prints (a.map .chr ++ (i :: b.map .chr)) = a ++ (i.print ++ b) := by
    rw [prints_append, prints_chars, prints, prints_chars]
  have hcs : isSpace c = false := by rcases hc with rfl | rfl <;> decide
  have := C12_inline o macros markup (a.map .chr ++ (i :: b.map .chr)) { strict := o.strict } (ReadWith.plain o macros) (wfs_between ha hb (by
      rw [hi, List.cons_append, Joins]
      refine ⟨by rcases hc with rfl | rfl <;> decide, hac, ?_⟩
      rintro ⟨rfl, _⟩
      rcases hc with h | h <;> exact absurd h (by decide)) (by simpa using hwf)) (by
    rw [hp]
    simp only [lineText, Bool.and_eq_true, Bool.not_eq_true', List.contains_eq_mem, decide_eq_false_iff_not]
    constructor
    · rw [hi]
      simp [hcs]
    · simp [ha.nonl, hb.nonl, hnl]) (by
    rw [hp]
    refine plainStart_text ha hh (.inr ?_) hpre
    rw [hi]
    simpa using hc) (by
    refine last_notBr ?_
    intro j hj
    simp only [List.mem_append, List.mem_map, List.mem_cons] at hj
    rcases hj with ⟨_, _, rfl⟩ | rfl | ⟨_, _, rfl⟩
    · rfl
    · exact hbr
    · rfl) (by rw [hp]; exact hl)
  rw [this]
  simp only [htmls_append, htmls_chars, htmls, List.append_assoc]

theorem contains_false {c : Char} {s : Str} (h : c ∉ s) : s.contains c = false := by simp [h]

/-- two closing characters do not occur in a text without them that is followed by one -/
theorem no_close {d : Char} {s : Str} (h : d ∉ s) : occurs [d, d] (s ++ [d]) = false := by
  refine occurs_false ?_
  intro u t ht
  have hcount := congrArg (List.count d) ht
  rw [List.count_append, List.count_append, List.count_append, List.count_eq_zero_of_not_mem h] at hcount
  simp at hcount
  omega

theorem trimmed_parts {s : Str} (h : trimmed s = true) : s ≠ [] ∧ '\n' ∉ s ∧ ((s.getLast?).any isSpace) = false ∧ ∀ c t, s = c :: t → isSpace c = false := by
  cases s with
  | nil => simp [trimmed] at h
  | cons c t =>
    simp only [trimmed, Bool.and_eq_true, Bool.not_eq_true', List.contains_eq_mem, decide_eq_false_iff_not] at h
    refine ⟨by simp, h.2, h.1.2, ?_⟩
    intro d u e
    simp only [List.cons.injEq] at e
    rw [← e.1]; exact h.1.1

/-! ## C09: nowiki in a line -/

/-- **C09.** `{{{s}}}` in a line gives the characters `s` in a `<code>` element. -/
theorem C09_nowiki (o : Opts) (macros : Macros) (markup a s b : Str) (ha : plainText a = true) (hh : plainHead a = true) (hb : plainText b = true)
    (hac : a.getLast? ≠ some '{') (hs : ¬ c!"}}}" <:+: s) (hs' : s.getLast? ≠ some '}') (hn : '\n' ∉ s)
    (hl : textLines markup = [a ++ (c!"{{{" ++ s ++ c!"}}}" ++ b)]) :
    creole2htmlM o macros markup =
      .ok (c!"<p>" ++ textHtml a ++ (c!"<code>" ++ textHtml s ++ c!"</code>") ++ textHtml b ++ c!"</p>", macros) := by
  have hp : (Cr.Inl.nowiki s).print = '{' :: (c!"{{" ++ s ++ c!"}}}") := rfl
  refine between o macros markup a b (.nowiki s) '{' _ (plainText_iff.1 ha) hh (plainText_iff.1 hb) (.inr rfl) hp hac ?_ ?_ rfl ?_ hl
  · rw [hp]; simp [hn]
  · simp only [Inl.wf, Bool.and_eq_true, Bool.not_eq_true', contains_false hn, and_true]
    refine occurs_false ?_
    intro u t ht
    -- the three braces are in `s`, or `s` ends in one
    rw [List.append_eq_append_iff] at ht
    rcases ht with ⟨x, hu, hx⟩ | ⟨x, hu, hx⟩
    · have := congrArg List.length hx
      simp at this
      omega
    · -- s = u ++ x
      cases x with
      | nil => 
        have := congrArg List.length hx
        simp at this
      | cons c x =>
        have hx' := hx
        simp only [List.cons_append, List.cons.injEq, List.nil_append] at hx
        have hc := hx.1
        rw [List.append_eq_append_iff] at hx'
        rcases hx' with ⟨y, h1, h2⟩ | ⟨y, h1, h2⟩
        · exact hs ⟨u, y, by rw [hu, h1]; simp⟩
        · -- the last character of `x` is a brace
          apply hs'
          rw [hu, List.getLast?_append]
          have : (c :: x).getLast? = some '}' := by
            have hm : ∀ d ∈ c :: x, d = '}' := by
              intro d hd
              have : d ∈ c!"}}}" := by rw [h1]; simp only [List.mem_append]; exact .inl hd
              simpa using this
            rw [List.getLast?_eq_some_getLast (by simp)]
            rw [hm _ (List.getLast_mem (by simp))]
          rw [this]; rfl
  · intro u hu
    have hmem : '}' ∈ u := by
      have h3 : '}' ∈ (a ++ ((Cr.Inl.nowiki s).print ++ b)).drop 3 := by
        rw [hp]
        rw [show a ++ ('{' :: (c!"{{" ++ s ++ c!"}}}") ++ b) = (a ++ c!"{{{") ++ (s ++ c!"}}}" ++ b) from by simp]
        rw [List.drop_append]
        refine List.mem_append_right _ ?_
        rw [show 3 - (a ++ c!"{{{").length = 0 from by simp]
        simp
      rw [hu] at h3
      exact h3
    cases hall : u.all isSpace with
    | false => rfl
    | true =>
      rw [List.all_eq_true] at hall
      exact absurd (hall _ hmem) (by decide)

example : plainText c!"a*b: " = true ∧ plainHead c!"a*b: " = true ∧ ¬ c!"}}}" <:+: c!"**x** }} <<m>> {{{~" ∧ plainText c!" = c" = true := by decide +kernel
example : creole2html {} c!"a*b: {{{**x** }} <<m>> {{{~}}} = c" =
    .ok c!"<p>a*b: <code>**x** }} &lt;&lt;m&gt;&gt; {{{~</code> = c</p>" := by decide +kernel

/-! ## C13: links -/

/-- **C13.** `[[target]]` gives a link with the target as its text. -/
theorem C13_link (o : Opts) (macros : Macros) (markup a t b : Str) (ha : plainText a = true) (hh : plainHead a = true) (hb : plainText b = true)
    (hac : a.getLast? ≠ some '[') (ht : t ≠ []) (htd : ']' ∉ t) (htb : '|' ∉ t) (htn : '\n' ∉ t) (hts : (t.getLast?).any isSpace = false)
    (hl : textLines markup = [a ++ (c!"[[" ++ t ++ c!"]]" ++ b)]) :
    creole2htmlM o macros markup =
      .ok (c!"<p>" ++ textHtml a ++ (c!"<a href=\"" ++ attrHtml t ++ c!"\">" ++ textHtml t ++ c!"</a>") ++ textHtml b ++ c!"</p>", macros) := by
  have hp : (Cr.Inl.link t []).print = '[' :: (c!"[" ++ t ++ c!"]]") := by simp [Inl.print]
  have := between o macros markup a b (.link t []) '[' _ (plainText_iff.1 ha) hh (plainText_iff.1 hb) (.inl rfl) hp hac
    (by rw [hp]; simp [htn]) (by
      have e : t.isEmpty = false := by cases t with | nil => exact absurd rfl ht | cons _ _ => rfl
      simp only [Inl.wf, targetOk, e, contains_false htb, contains_false htn, hts, no_close htd, linkParts]
      rfl) rfl (by
      intro u hu
      exfalso
      rw [hp] at hu
      cases a with
      | nil => simp at hu
      | cons c a =>
        simp only [List.cons_append, List.cons.injEq] at hu
        obtain ⟨rfl, hu⟩ := hu
        cases a with
        | nil => simp at hu
        | cons d a =>
          simp only [List.cons_append, List.cons.injEq] at hu
          obtain ⟨rfl, hu⟩ := hu
          exact not_occurs (by simp) ((plainText_iff.1 ha).nopair '{' (by decide)) [] _ rfl a rfl) (by
      rw [hl]; simp [Inl.print])
  simpa [Inl.html, linkHtml] using this

/-- **C13.** `[[target|text]]` gives a link with that text. -/
theorem C13_link_text (o : Opts) (macros : Macros) (markup a t s b : Str) (ha : plainText a = true) (hh : plainHead a = true) (hb : plainText b = true)
    (hac : a.getLast? ≠ some '[') (ht : t ≠ []) (htd : ']' ∉ t) (htb : '|' ∉ t) (htn : '\n' ∉ t) (hts : (t.getLast?).any isSpace = false)
    (hs : trimmed s = true) (hsd : ']' ∉ s) (hsi : ¬ c!"{{" <:+: s) (hsb : ¬ c!"\\\\" <:+: s)
    (hl : textLines markup = [a ++ (c!"[[" ++ t ++ c!"|" ++ s ++ c!"]]" ++ b)]) :
    creole2htmlM o macros markup =
      .ok (c!"<p>" ++ textHtml a ++ (c!"<a href=\"" ++ attrHtml t ++ c!"\">" ++ textHtml s ++ c!"</a>") ++ textHtml b ++ c!"</p>", macros) := by
  obtain ⟨hsne, hsn, hslast, _⟩ := trimmed_parts hs
  obtain ⟨c0, s0, rfl⟩ : ∃ c0 s0, s = c0 :: s0 := by
    cases s with
    | nil => exact absurd rfl hsne
    | cons c s => exact ⟨c, s, rfl⟩
  have hpc : prints ((c0 :: s0).map Inl.chr) = c0 :: s0 := prints_chars _
  have hp : (Cr.Inl.link t ((c0 :: s0).map .chr)).print = '[' :: (c!"[" ++ t ++ c!"|" ++ (c0 :: s0) ++ c!"]]") := by
    rw [List.map_cons, Inl.print]
    rw [List.map_cons, prints] at hpc
    rw [hpc]
    simp
  have hparts : ∀ u v : Str, c0 :: s0 = u ++ v → linkParts (v.map .chr) = true := by
    intro u v
    induction v generalizing u with
    | nil => intro _; rfl
    | cons c v ih =>
      intro huv
      simp only [List.map_cons, linkParts, Bool.and_eq_true, bne_iff_ne, ne_eq, Bool.not_eq_true', prints_chars]
      refine ⟨⟨?_, ?_⟩, ih (u ++ [c]) (by rw [huv]; simp)⟩
      · rintro rfl; exact hsn (by rw [huv]; simp)
      · cases hb : ((c == '{' || c == '\\') && v.head? == some c) with
        | false => rfl
        | true =>
          exfalso
          simp only [Bool.and_eq_true, Bool.or_eq_true, beq_iff_eq] at hb
          obtain ⟨hc, hv⟩ := hb
          cases v with
          | nil => simp at hv
          | cons d v =>
            simp only [List.head?_cons, Option.some.injEq] at hv
            subst hv
            rcases hc with rfl | rfl
            · exact hsi ⟨u, v, by rw [huv]; simp⟩
            · exact hsb ⟨u, v, by rw [huv]; simp⟩
  have := between o macros markup a b (.link t ((c0 :: s0).map .chr)) '[' _ (plainText_iff.1 ha) hh (plainText_iff.1 hb) (.inl rfl) hp hac
    (by rw [hp]; simp only [List.mem_cons, List.mem_append, not_or]; simp at hsn; simp [htn, hsn]) (by
      have e : t.isEmpty = false := by cases t with | nil => exact absurd rfl ht | cons _ _ => rfl
      simp only [Inl.wf, targetOk, e, contains_false htb, contains_false htn, hts, no_close htd, hpc, barText, hs, no_close hsd, hparts [] _ rfl]
      rfl) rfl (by
      intro u hu
      exfalso
      rw [hp] at hu
      cases a with
      | nil => simp at hu
      | cons c a =>
        simp only [List.cons_append, List.cons.injEq] at hu
        obtain ⟨rfl, hu⟩ := hu
        cases a with
        | nil => simp at hu
        | cons d a =>
          simp only [List.cons_append, List.cons.injEq] at hu
          obtain ⟨rfl, hu⟩ := hu
          exact not_occurs (by simp) ((plainText_iff.1 ha).nopair '{' (by decide)) [] _ rfl a rfl) (by
      rw [hl, hp]; simp)
  rw [this]
  have hhc := htmls_chars { strict := o.strict } c!"<br />\n" (c0 :: s0)
  rw [List.map_cons, htmls] at hhc
  rw [List.map_cons, Inl.html, hhc, linkHtml]

example : creole2html {} c!"see [[http://a/**b**?c&\"d\"|the //text// ~x]], ok" =
    .ok c!"<p>see <a href=\"http://a/**b**?c&amp;&quotd&quot\">the //text// ~x</a>, ok</p>" := by decide +kernel

/-! ## C14: images -/

theorem image_wf {t : Str} (ht : trimmed t = true) (htd : '}' ∉ t) (htb : '|' ∉ t) (hth : t.head? ≠ some '{') : imageTarget t = true := by
  obtain ⟨hne, hn, hlast, _⟩ := trimmed_parts ht
  have e : t.isEmpty = false := by cases t with | nil => exact absurd rfl hne | cons _ _ => rfl
  simp only [imageTarget, targetOk, e, contains_false htb, contains_false hn, hlast, no_close htd, ht]
  simpa using hth

theorem image_pre {a b t x : Str} (ha : PlainText a) (hac : a.getLast? ≠ some '{') (hne : t ≠ []) (hth : t.head? ≠ some '{') :
    ∀ u, a ++ (c!"{{" ++ t ++ x ++ b) = c!"{{{" ++ u → u.all isSpace = false := by
  intro u hu
  exfalso
  cases a with
  | nil =>
    cases t with
    | nil => exact hne rfl
    | cons d t =>
      simp only [List.nil_append, List.cons_append, List.cons.injEq] at hu
      rw [hu.2.2.1] at hth
      simp at hth
  | cons c a =>
    simp only [List.cons_append, List.cons.injEq] at hu
    obtain ⟨rfl, hu⟩ := hu
    cases a with
    | nil => simp at hac
    | cons d a =>
      simp only [List.cons_append, List.cons.injEq] at hu
      obtain ⟨rfl, hu⟩ := hu
      exact not_occurs (by simp) (ha.nopair '{' (by decide)) [] _ rfl a rfl

/-- **C14.** `{{target}}` gives an image with the target as its title. -/
theorem C14_image (o : Opts) (macros : Macros) (markup a t b : Str) (ha : plainText a = true) (hh : plainHead a = true) (hb : plainText b = true)
    (hac : a.getLast? ≠ some '{') (ht : trimmed t = true) (htd : '}' ∉ t) (htb : '|' ∉ t) (hth : t.head? ≠ some '{')
    (hl : textLines markup = [a ++ (c!"{{" ++ t ++ c!"}}" ++ b)]) :
    creole2htmlM o macros markup =
      .ok (c!"<p>" ++ textHtml a ++ (c!"<img src=\"" ++ attrHtml t ++ c!"\" title=\"" ++ attrHtml t ++ c!"\" alt=\"" ++ attrHtml t ++ c!"\" />") ++
        textHtml b ++ c!"</p>", macros) := by
  obtain ⟨hne, hn, _, _⟩ := trimmed_parts ht
  have hp : (Cr.Inl.image t []).print = '{' :: (c!"{" ++ t ++ c!"}}") := by simp [Inl.print]
  have hp2 : (Cr.Inl.image t []).print = c!"{{" ++ t ++ c!"}}" := by simp [Inl.print]
  have := between o macros markup a b (.image t []) '{' _ (plainText_iff.1 ha) hh (plainText_iff.1 hb) (.inr rfl) hp hac
    (by rw [hp]; simp [hn]) (by
      simp only [Inl.wf, image_wf ht htd htb hth]
      rfl) rfl (by rw [hp2]; exact image_pre (plainText_iff.1 ha) hac hne hth) (by rw [hl, hp2])
  simpa [Inl.html, imgHtml] using this

/-- **C14.** `{{target|text}}` gives an image with the text as its title. -/
theorem C14_image_text (o : Opts) (macros : Macros) (markup a t s b : Str) (ha : plainText a = true) (hh : plainHead a = true) (hb : plainText b = true)
    (hac : a.getLast? ≠ some '{') (ht : trimmed t = true) (htd : '}' ∉ t) (htb : '|' ∉ t) (hth : t.head? ≠ some '{')
    (hs : trimmed s = true) (hsd : '}' ∉ s) (hsb : '|' ∉ s)
    (hl : textLines markup = [a ++ (c!"{{" ++ t ++ c!"|" ++ s ++ c!"}}" ++ b)]) :
    creole2htmlM o macros markup =
      .ok (c!"<p>" ++ textHtml a ++ (c!"<img src=\"" ++ attrHtml t ++ c!"\" title=\"" ++ attrHtml s ++ c!"\" alt=\"" ++ attrHtml s ++ c!"\" />") ++
        textHtml b ++ c!"</p>", macros) := by
  obtain ⟨hne, hn, _, _⟩ := trimmed_parts ht
  obtain ⟨hsne, hsn, _, _⟩ := trimmed_parts hs
  obtain ⟨c0, s0, rfl⟩ : ∃ c0 s0, s = c0 :: s0 := by
    cases s with
    | nil => exact absurd rfl hsne
    | cons c s => exact ⟨c, s, rfl⟩
  have hp : (Cr.Inl.image t (c0 :: s0)).print = '{' :: (c!"{" ++ t ++ (c!"|" ++ (c0 :: s0) ++ c!"}}")) := by simp [Inl.print]
  have hp2 : (Cr.Inl.image t (c0 :: s0)).print = c!"{{" ++ t ++ (c!"|" ++ (c0 :: s0) ++ c!"}}") := by simp [Inl.print]
  have := between o macros markup a b (.image t (c0 :: s0)) '{' _ (plainText_iff.1 ha) hh (plainText_iff.1 hb) (.inr rfl) hp hac
    (by rw [hp]; simp only [List.mem_cons, List.mem_append, not_or]; simp at hsn; simp [hn, hsn]) (by
      simp only [Inl.wf, image_wf ht htd htb hth, barText, hs, no_close hsd, contains_false hsb]
      rfl) rfl (by rw [hp2]; exact image_pre (plainText_iff.1 ha) hac hne hth) (by rw [hl, hp2]; simp)
  simpa [Inl.html, imgHtml] using this

/-- **C14.** `{{target|text|WxH}}`: a size, or a part of the title if `strict` is set. -/
theorem C14_image_size (o : Opts) (macros : Macros) (markup a t s b : Str) (w h : Nat) (ha : plainText a = true) (hh : plainHead a = true)
    (hb : plainText b = true)
    (hac : a.getLast? ≠ some '{') (ht : trimmed t = true) (htd : '}' ∉ t) (htb : '|' ∉ t) (hth : t.head? ≠ some '{')
    (hs : trimmed s = true) (hsd : '}' ∉ s) (hsb : '|' ∉ s) (hw : (decimal w).length ≤ 4300) (hhh : (decimal h).length ≤ 4300)
    (hl : textLines markup = [a ++ (c!"{{" ++ t ++ c!"|" ++ s ++ c!"|" ++ decimal w ++ c!"x" ++ decimal h ++ c!"}}" ++ b)]) :
    creole2htmlM o macros markup =
      .ok (c!"<p>" ++ textHtml a ++ (if o.strict then
          let title := s ++ c!"|" ++ decimal w ++ c!"x" ++ decimal h
          c!"<img src=\"" ++ attrHtml t ++ c!"\" title=\"" ++ attrHtml title ++ c!"\" alt=\"" ++ attrHtml title ++ c!"\" />"
        else c!"<img src=\"" ++ attrHtml t ++ c!"\" title=\"" ++ attrHtml s ++ c!"\" alt=\"" ++ attrHtml s ++
          c!"\" width=\"" ++ decimal w ++ c!"\" height=\"" ++ decimal h ++ c!"\" />") ++ textHtml b ++ c!"</p>", macros) := by
  obtain ⟨hne, hn, _, _⟩ := trimmed_parts ht
  obtain ⟨hsne, hsn, _, _⟩ := trimmed_parts hs
  have hdig : ∀ n, '\n' ∉ decimal n := by
    intro n hm
    have := Nat.isDigit_of_mem_toDigits (by decide) (by decide) hm
    exact absurd this (by decide)
  have hp : (Cr.Inl.sized t s w h).print = '{' :: (c!"{" ++ t ++ (c!"|" ++ s ++ c!"|" ++ decimal w ++ c!"x" ++ decimal h ++ c!"}}")) := by simp [Inl.print]
  have hp2 : (Cr.Inl.sized t s w h).print = c!"{{" ++ t ++ (c!"|" ++ s ++ c!"|" ++ decimal w ++ c!"x" ++ decimal h ++ c!"}}") := by simp [Inl.print]
  have := between o macros markup a b (.sized t s w h) '{' _ (plainText_iff.1 ha) hh (plainText_iff.1 hb) (.inr rfl) hp hac
    (by rw [hp]; simp [hn, hsn, hdig]) (by
      simp only [Inl.wf, image_wf ht htd htb hth, barText, hs, no_close hsd, contains_false hsb, sizeOk, hw, hhh]
      rfl) rfl (by rw [hp2]; exact image_pre (plainText_iff.1 ha) hac hne hth) (by rw [hl, hp2]; simp)
  rw [this]
  simp only [Inl.html, imgHtml]
  cases o.strict <;> simp

example : creole2html {} c!"a {{x \"<y>/z.png|a {b} [[c]]|640x480}}" =
    .ok c!"<p>a <img src=\"x &quot&lt;y&gt;/z.png\" title=\"a {b} [[c]]\" alt=\"a {b} [[c]]\" width=\"640\" height=\"480\" /></p>" := by decide +kernel

/-! ## C47: html2creole exchanges the sizes of an image -/

/-- **C47.** html2creole writes the height of an image before its width; creole2html reads the width first.  If the result of
html2creole is converted back, then width and height are exchanged. -/
theorem C47_sizes_exchanged {cfg : Emit.Cfg} (hlang : cfg.lang = .creole) (hstrict : cfg.strict = false) {anc : List Str} {i : Html.HInfo} (hk : i.kind = c!"img")
    {children : List Html.HNode} {s : Emit.ESt} (hq : Quiet s anc) {src alt title : Str} {w h : Nat}
    (hsrc : dictGet c!"src" i.attrs = some (some src)) (hd : ¬ isDataUri src)
    (ha : attrOr c!"alt" i.attrs = some alt) (ht : attrOr c!"title" i.attrs = some title)
    (hw : dictGet c!"width" i.attrs = some (some (decimal w))) (hh : dictGet c!"height" i.attrs = some (some (decimal h)))
    (hwd : (decimal w).length ≤ 4300) (hhd : (decimal h).length ≤ 4300)
    (hs1 : trimmed src = true) (hs2 : '}' ∉ src) (hs3 : '|' ∉ src) (hs4 : src.head? ≠ some '{')
    (htx : ∀ text, IsPictureText src alt title text → trimmed text = true ∧ '}' ∉ text ∧ '|' ∉ text) :
    ∃ text creole, IsPictureText src alt title text ∧ Emit.emitNode cfg anc (.mk i children) s = .ok (creole, Emit.enter i s) ∧
      ∀ (o : Opts) (macros : Macros) (markup : Str), o.strict = false → textLines markup = [creole] →
        creole2htmlM o macros markup =
          .ok (c!"<p><img src=\"" ++ attrHtml src ++ c!"\" title=\"" ++ attrHtml text ++ c!"\" alt=\"" ++ attrHtml text ++
            c!"\" width=\"" ++ decimal h ++ c!"\" height=\"" ++ decimal w ++ c!"\" /></p>", macros) := by
  obtain ⟨text, h1, h2⟩ := C46_picture_text (cfg := cfg) hk (children := children) hq hsrc hd ha ht
  rw [hlang] at h2
  dsimp only at h2
  have hdec : ∀ n, ∃ c t, decimal n = c :: t := by
    intro n
    cases hdn : decimal n with
    | nil => exact absurd hdn Nat.toDigits_ne_nil
    | cons c t => exact ⟨c, t, rfl⟩
  have hsize : pictureSize cfg.strict i.attrs = c!"|" ++ decimal h ++ c!"x" ++ decimal w := by
    obtain ⟨c, t, hc⟩ := hdec w
    obtain ⟨c', t', hc'⟩ := hdec h
    have e1 : attrOr c!"width" i.attrs = some (c :: t) := by rw [attrOr, hw, hc]; rfl
    have e2 : attrOr c!"height" i.attrs = some (c' :: t') := by rw [attrOr, hh, hc']; rfl
    unfold pictureSize
    rw [hstrict, e1, e2, hc, hc']
  rw [hsize] at h2
  refine ⟨text, _, h1, h2, ?_⟩
  intro o macros markup ho hl
  obtain ⟨t1, t2, t3⟩ := htx text h1
  have := C14_image_size o macros markup [] src text [] h w rfl rfl rfl (by simp) hs1 hs2 hs3 hs4 t1 t2 t3 hhd hwd (by rw [hl]; simp)
  rw [this, ho]
  simp [textHtml]

example : Emit.html2creole c!"<p><img src=\"a.png\" alt=\"x\" width=\"10\" height=\"20\" /></p>" = .ok c!"{{a.png|x|20x10}}" ∧
    creole2html {} c!"{{a.png|x|20x10}}" = .ok c!"<p><img src=\"a.png\" title=\"x\" alt=\"x\" width=\"20\" height=\"10\" /></p>" := by decide +kernel

end Verif.Props
