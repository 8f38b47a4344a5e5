import Verif.Creole.ShapeBlock
import Verif.Creole.SafeLemmas
import Verif.Html.ReadAny
import Verif.Spec.Grammar

/-!
# The HTML of a document tree as a tree of elements
-/

namespace Verif.Creole

open Verif Py Spec Spec.Cr Spec.Hd Spec.Gr

/-- the attributes of a picture -/
def pictureAttrs (strict : Bool) (target text : Str) : List (Str × Str) :=
  match (if strict then none else imageSize target (attrEscape text)) with
  | none => [(c!"src", target), (c!"title", text), (c!"alt", text)]
  | some (_, w, h) =>
    let t := ((splitOnce '|' text).map (·.1)).getD []
    let t := if t = [] then target else t
    [(c!"src", target), (c!"title", t), (c!"alt", t), (c!"width", intStr w), (c!"height", intStr h)]

def breakWhite (p : Info) : Str :=
  if p.kind = .list_item then '\n' :: tabs (p.level.getD 0)
  else if p.kind = .table_head || p.kind = .table_cell then c!"\n\t\t" else c!"\n"

/-- a list or an item -/
def listHt (p : Kind) (n : Nat) (tag : Str) (inner : List Ht) : List Ht :=
  (if p = .document then [] else [.white c!"\n"]) ++ [.white (tabs n), .el tag [] inner]

mutual
/-- the elements of a node -/
def ht (strict : Bool) (p : Info) : Node → List Ht
  | .mk i cs =>
    match i.kind with
    | .document => htL strict i cs
    | .text => [.text (i.content.getD [])]
    | .separator => [.void c!"hr" [], .white c!"\n"]
    | .paragraph => [.el c!"p" [] (htL strict i cs), .white c!"\n"]
    | .bullet_list => listHt p.kind (i.level.getD 0) c!"ul" (htL strict i cs ++ [.white ('\n' :: tabs (i.level.getD 0))])
    | .number_list => listHt p.kind (i.level.getD 0) c!"ol" (htL strict i cs ++ [.white ('\n' :: tabs (i.level.getD 0))])
    | .list_item => listHt p.kind (i.level.getD 0) c!"li" (htL strict i cs)
    | .table => [.el c!"table" [] (.white c!"\n" :: htL strict i cs), .white c!"\n"]
    | .table_row => [.el c!"tr" [] (.white c!"\n" :: htL strict i cs), .white c!"\n"]
    | .table_cell => [.white c!"\t", .el c!"td" [] (htL strict i cs), .white c!"\n"]
    | .table_head => [.white c!"\t", .el c!"th" [] (htL strict i cs), .white c!"\n"]
    | .emphasis => [.el c!"i" [] (htL strict i cs)]
    | .strong => [.el c!"strong" [] (htL strict i cs)]
    | .monospace => [.el c!"tt" [] (htL strict i cs)]
    | .superscript => [.el c!"sup" [] (htL strict i cs)]
    | .subscript => [.el c!"sub" [] (htL strict i cs)]
    | .underline => [.el c!"u" [] (htL strict i cs)]
    | .small => [.el c!"small" [] (htL strict i cs)]
    | .delete => [.el c!"del" [] (htL strict i cs)]
    | .header => [.el ('h' :: natDigits (i.level.getD 0)) [] [.text (i.content.getD [])], .white c!"\n"]
    | .link =>
      [.el c!"a" [(c!"href", i.content.getD [])] (if cs.isEmpty then [.text (i.content.getD [])] else htL strict i cs)]
    | .image => [.void c!"img" (pictureAttrs strict (i.content.getD []) (getText i cs))]
    | .macro_inline | .macro_block => []
    | .brk => [.void c!"br" [], .white (breakWhite p)]
    | .line => [.white c!"\n"]
    | .pre_block => [.el c!"pre" [] [.text (i.content.getD [])], .white c!"\n"]
    | .pre_inline => [.el c!"code" [] [.text (i.content.getD [])]]
def htL (strict : Bool) (p : Info) : List Node → List Ht
  | [] => []
  | n :: ns => ht strict p n ++ htL strict p ns
end

/-! ## What is written -/

theorem htmlEscape_text (s : Str) : htmlEscape s = textHtml s := by
  rw [htmlEscape_eq]; rfl

theorem attrEscape_attr (s : Str) : attrEscape s = attrHtml s := by
  rw [attrEscape_eq]
  unfold attrHtml
  congr 1

theorem attrHtml_plain {s : Str} (h : ∀ c ∈ s, marked c = false) : attrHtml s = s := by
  induction s with
  | nil => rfl
  | cons c s ih =>
    have h1 := h c (by simp)
    simp only [marked, Bool.or_eq_false_iff, decide_eq_false_iff_not] at h1
    unfold attrHtml at *
    rw [List.flatMap_cons, ih fun d hd => h d (by simp [hd]), if_neg h1.2, textChar, if_neg h1.1.1.1, if_neg h1.1.1.2, if_neg h1.1.2]
    rfl

theorem attrHtml_nil {s : Str} (h : attrHtml s = []) : s = [] := by
  cases s with
  | nil => rfl
  | cons c s =>
    exfalso
    unfold attrHtml at h
    rw [List.flatMap_cons, List.append_eq_nil_iff] at h
    have := h.1
    unfold textChar at this
    split at this
    · cases this
    · repeat' split at this
      all_goals cases this

theorem splitOnce_skip {c : Char} : ∀ {u : Str}, c ∉ u → ∀ (s : Str), splitOnce c (u ++ s) = (splitOnce c s).map fun p => (u ++ p.1, p.2)
  | [], _, s => by cases h : splitOnce c s <;> simp [h]
  | d :: u, h, s => by
    simp only [List.mem_cons, not_or] at h
    rw [List.cons_append, splitOnce, if_neg (by simpa using fun e => h.1 e.symm), splitOnce_skip h.2]
    cases splitOnce c s <;> rfl

/-- the bar is not part of any entity -/
theorem splitOnce_attrHtml (s : Str) : splitOnce '|' (attrHtml s) = (splitOnce '|' s).map fun p => (attrHtml p.1, attrHtml p.2) := by
  induction s with
  | nil => rfl
  | cons c s ih =>
    have e : attrHtml (c :: s) = (if c = '"' then c!"&quot" else textChar c) ++ attrHtml s := by
      unfold attrHtml; rw [List.flatMap_cons]
    by_cases hc : c = '|'
    · subst hc
      rw [e]
      rfl
    · have hn : '|' ∉ (if c = '"' then c!"&quot" else textChar c) := by
        unfold textChar
        repeat' split
        all_goals first | decide | (simp only [List.mem_singleton]; exact fun e => hc e.symm)
      have e2 : splitOnce '|' (c :: s) = (splitOnce '|' s).map fun p => (c :: p.1, p.2) := by
        rw [splitOnce, if_neg (by simpa using hc)]
      rw [e, splitOnce_skip hn, ih, e2]
      cases splitOnce '|' s with
      | none => rfl
      | some p =>
        simp only [Option.map_some]
        congr 2

theorem intStr_plain (n : Int) : attrHtml (intStr n) = intStr n ∧ '\n' ∉ intStr n := by
  have key : ∀ c ∈ intStr n, c.isDigit = true ∨ c = '-' := by
    intro c hc
    cases n with
    | ofNat n => exact .inl ((natDigits_digit n).2 c hc)
    | negSucc n =>
      simp only [intStr, List.mem_cons] at hc
      rcases hc with rfl | hc
      · exact .inr rfl
      · exact .inl ((natDigits_digit _).2 c hc)
  constructor
  · refine attrHtml_plain fun c hc => ?_
    rcases key c hc with h | rfl
    · unfold marked
      simp only [Bool.or_eq_false_iff, decide_eq_false_iff_not]
      refine ⟨⟨⟨?_, ?_⟩, ?_⟩, ?_⟩ <;> (rintro rfl; exact absurd h (by decide))
    · decide
  · intro hc
    rcases key _ hc with h | h
    · exact absurd h (by decide)
    · exact absurd h (by decide)

theorem splitOnce_nil {c : Char} {s t : Str} (h : splitOnce c s = some ([], t)) : s.head? = some c := by
  cases s with
  | nil => cases h
  | cons d s =>
    rw [splitOnce] at h
    split at h
    · rename_i hd
      rw [eq_of_beq hd]
      rfl
    · cases hs : splitOnce c s with
      | none => rw [hs] at h; cases h
      | some p => rw [hs] at h; simp at h

/-- the tag of a picture -/
theorem imageEmit_written {env : Env} {target text : Str} (h : env.strict = true ∨ (text.head? = some '|' → ∀ c ∈ target, marked c = false)) :
    imageEmit env target text = written [.void c!"img" (pictureAttrs env.strict target text)] := by
  have plain : imgOpen target (attrEscape text) ++ c!" />" =
      written [.void c!"img" [(c!"src", target), (c!"title", text), (c!"alt", text)]] := by
    simp [written, Ht.print, tagStart, attrPrint, imgOpen, attrEscape_attr]
  unfold imageEmit pictureAttrs
  dsimp only
  by_cases hs : env.strict = true
  · rw [if_pos hs, if_pos hs]
    exact plain
  · rw [if_neg hs, if_neg hs]
    have h := h.resolve_left hs
    cases hi : imageSize target (attrEscape text) with
    | none => exact plain
    | some p =>
      obtain ⟨title, w, k⟩ := p
      dsimp only
      have ht : title = attrHtml (if ((splitOnce '|' text).map (·.1)).getD [] = [] then target else ((splitOnce '|' text).map (·.1)).getD []) := by
        unfold imageSize at hi
        rw [attrEscape_attr, splitOnce_attrHtml] at hi
        cases hsp : splitOnce '|' text with
        | none => rw [hsp] at hi; cases hi
        | some p =>
          obtain ⟨t, z⟩ := p
          rw [hsp] at hi
          simp only [Option.map_some, Option.getD_some]
          have e : title = if attrHtml t = [] then target else attrHtml t := by
            simp only [Option.map_some, Option.bind_eq_bind, Option.bind_some] at hi
            cases hx : splitOnce 'x' (attrHtml z) with
            | none => rw [hx] at hi; cases hi
            | some y =>
              rw [hx] at hi
              simp only [Option.bind_some] at hi
              cases h1 : pyInt (strip y.1) with
              | none => rw [h1] at hi; cases hi
              | some a =>
                cases h2 : pyInt (strip y.2) with
                | none => rw [h1, h2] at hi; cases hi
                | some b =>
                  rw [h1, h2] at hi
                  simp only [Option.bind_some, Option.some.injEq, Prod.mk.injEq, pure] at hi
                  exact hi.1.symm
          rw [e]
          by_cases ht : t = []
          · subst ht
            rw [if_pos (show attrHtml [] = [] from rfl), if_pos rfl, attrHtml_plain (h (splitOnce_nil hsp))]
          · rw [if_neg ht, if_neg fun e => ht (attrHtml_nil e)]
      rw [ht]
      simp [written, Ht.print, tagStart, attrPrint, imgOpen, attrEscape_attr, intStr_plain]

/-! ## Emission -/

theorem emap_ok {f : Str → Str} {s : Str} {ms : Macros} {r : EM} (h : r = .ok (s, ms)) : emap f r = .ok (f s, ms) := by rw [h]; rfl

/-- pictures whose title is written unescaped contain no marked characters -/
def Safe (q : Src) (strict : Bool) : Prop := strict = true ∨ (q.size → ∀ c, q.chars c → marked c = false)

mutual
theorem emitNode_ht {q : Src} {env : Env} (hq : Safe q env.strict) (hu : env.useToc = false) : ∀ (n : Node) (p : Info) (ms : Macros),
    n.Sound q → n.All (InfoOK False) → p.good q → emitNode env p n ms = .ok (written (ht env.strict p n), ms)
  | .mk i cs, p, ms, hs, ha, hp => by
    cases hs with
    | mk hg hun hch =>
    have hi : ∀ ms, emitNodes env i cs ms = .ok (written (htL env.strict i cs), ms) := fun ms =>
      emitNodes_ht hq hu cs i ms hch ha.children hg
    have hinfo := ha.info
    unfold InfoOK at hinfo
    unfold Info.good at hg
    rw [emitNode, ht]
    split <;> rename_i hk <;> rw [hk] at hg hinfo <;> simp only [hk] at hg hinfo ⊢
    · exact hi ms
    · obtain ⟨s, hs⟩ := hg
      rw [Info.contentE, hs]
      simp [pureText, written, Ht.print, htmlEscape_text, Except.map]
    · rfl
    · rw [emap_ok (hi ms)]; simp [written, Ht.print, tagStart]
    · obtain ⟨n, hn⟩ := hg
      rw [Info.levelE, hn]
      simp only
      rw [emap_ok (hi ms)]
      unfold listEmit listHt
      split <;> simp [written, Ht.print, tagStart, Html.written_append]
    · obtain ⟨n, hn⟩ := hg
      rw [Info.levelE, hn]
      simp only
      rw [emap_ok (hi ms)]
      unfold listEmit listHt
      split <;> simp [written, Ht.print, tagStart, Html.written_append]
    · obtain ⟨n, hn⟩ := hg
      rw [Info.levelE, hn]
      simp only
      rw [emap_ok (hi ms)]
      unfold listEmit listHt
      split <;> simp [written, Ht.print, tagStart]
    all_goals try (rw [emap_ok (hi ms)]; simp [written, Ht.print, tagStart, typeface]; done)
    · obtain ⟨s, n, h1, h2⟩ := hg
      rw [Info.levelE, Info.contentE, h1, h2]
      simp only
      rw [headerEmit]
      simp only [hu, Bool.false_eq_true, if_false, pure, Except.pure]
      simp [written, Ht.print, tagStart, htmlEscape_text]
    · obtain ⟨s, h1, h2⟩ := hg
      rw [Info.contentE, h1]
      simp only
      split
      · simp [written, Ht.print, tagStart, attrPrint, attrEscape_attr, htmlEscape_text]
      · rw [emap_ok (hi ms)]
        simp [written, Ht.print, tagStart, attrPrint, attrEscape_attr]
    · obtain ⟨s, h1, h2⟩ := hg
      rw [Info.contentE, h1]
      simp only [pureText, Except.map, Option.getD_some]
      rw [imageEmit_written]
      refine hq.imp id fun hq hb => ?_
      have hl : q.size := by
        unfold getText at hb
        cases cs with
        | nil => rw [h1] at hb; exact h2.size hb
        | cons c cs => exact ((hun c (by simp)).line hk).size hb
      exact fun c hc => hq hl c (h2.chars c hc)
    · unfold breakEmit breakWhite
      split
      · rename_i hp'
        unfold Info.good at hp
        rw [hp'] at hp
        obtain ⟨n, hn⟩ := hp
        rw [Info.levelE, hn]
        simp [pureText, written, Ht.print, tagStart, Except.map]
      · split <;> simp [pureText, written, Ht.print, tagStart, Except.map]
    · rfl
    · obtain ⟨s, hs, _⟩ := hg
      rw [Info.contentE, hs]
      simp [pureText, written, Ht.print, tagStart, htmlEscape_text, Except.map]
    · obtain ⟨s, hs⟩ := hg
      rw [Info.contentE, hs]
      simp [pureText, written, Ht.print, tagStart, htmlEscape_text, Except.map]
theorem emitNodes_ht {q : Src} {env : Env} (hq : Safe q env.strict) (hu : env.useToc = false) : ∀ (ns : List Node) (p : Info) (ms : Macros),
    (∀ n ∈ ns, n.Sound q) → (∀ n ∈ ns, n.All (InfoOK False)) → p.good q →
    emitNodes env p ns ms = .ok (written (htL env.strict p ns), ms)
  | [], p, ms, _, _, _ => rfl
  | n :: ns, p, ms, hs, ha, hp => by
    rw [emitNodes, emitNode_ht hq hu n p ms (hs n (by simp)) (ha n (by simp)) hp]
    simp only
    rw [emitNodes_ht hq hu ns p ms (fun m hm => hs m (by simp [hm])) (fun m hm => ha m (by simp [hm])) hp, htL, Html.written_append]
end

/-! ## Structure -/

/-- where the children of a node stand -/
def ctxOf : Kind → Gr.Ctx
  | .document => .doc
  | .bullet_list | .number_list => .list
  | .list_item => .item
  | .table => .table
  | .table_row => .row
  | .link => .link
  | .paragraph | .table_cell | .table_head | .emphasis | .strong | .monospace | .superscript | .subscript | .underline
  | .small | .delete => .line
  | _ => .plain

theorem fineL_append (c : Gr.Ctx) (a b : List Ht) : fineL c (a ++ b) = (fineL c a && fineL c b) := by
  induction a with
  | nil => rfl
  | cons x a ih => simp [fineL, ih, Bool.and_assoc]

theorem tabs_blank (n : Nat) : (tabs n).all isSpace = true := by
  rw [List.all_eq_true]
  intro c hc
  rw [List.eq_of_mem_replicate hc]
  decide

theorem fine_white {c : Gr.Ctx} {s : Str} (h : s.all isSpace = true) : fine c (.white s) = true := by rw [fine]; exact h

theorem fine_el {c c' : Gr.Ctx} {tag : Str} {as : List (Str × Str)} {ch : List Ht} (h : inside c tag (as.map (·.1)) = some c')
    (hl : lines as = true) (hc : fineL c' ch = true) : fine c (.el tag as ch) = true := by
  rw [fine, h]
  simp [hl, hc]

theorem fine_list {p : Kind} {c c' : Gr.Ctx} {n : Nat} {tag : Str} {inner : List Ht} (h : inside c tag [] = some c') (hc : fineL c' inner = true) :
    fineL c (listHt p n tag inner) = true := by
  unfold listHt
  rw [fineL_append, fineL, fineL, fineL, fine_white (tabs_blank n), fine_el h rfl hc]
  split
  · rfl
  · rw [fineL, fineL, fine_white (by decide)]; rfl

theorem natDigits_head : ∀ (n : Nat), 0 < n → (natDigits n).head? ≠ some '0' := by
  intro n
  induction n using Nat.strongRecOn with
  | ind n ih =>
    intro h
    by_cases hn : n < 10
    · rw [natDigits, Nat.toDigits_of_lt_base hn]
      have : n = 1 ∨ n = 2 ∨ n = 3 ∨ n = 4 ∨ n = 5 ∨ n = 6 ∨ n = 7 ∨ n = 8 ∨ n = 9 := by omega
      rcases this with rfl | rfl | rfl | rfl | rfl | rfl | rfl | rfl | rfl <;> decide
    · rw [natDigits, Nat.toDigits_of_base_le (by omega) (by omega)]
      have := ih (n / 10) (by omega) (by omega)
      rw [natDigits] at this
      obtain ⟨c, s, e⟩ := List.exists_cons_of_ne_nil (Nat.toDigits_ne_nil (n := n / 10) (b := 10))
      rw [e] at this ⊢
      simpa using this

theorem isHeading_level {n : Nat} (h : 0 < n) : isHeading ('h' :: natDigits n) = true := by
  obtain ⟨h1, h2⟩ := natDigits_digit n
  simp [isHeading, h1, natDigits_head n h]
  exact h2

theorem inside_heading {n : Nat} (h : 0 < n) : inside .doc ('h' :: natDigits n) [] = some .plain := by
  obtain ⟨h1, h2⟩ := natDigits_digit n
  obtain ⟨d, ds, hd⟩ := List.exists_cons_of_ne_nil h1
  have hh := isHeading_level h
  have hd' : d.isDigit = true := h2 d (by rw [hd]; simp)
  rw [hd] at hh ⊢
  simp [inside, hh]

theorem picture_lines {q : Src} {strict : Bool} {target text : Str} (h1 : q.Line target) (h2 : q.Line text) :
    lines (pictureAttrs strict target text) = true ∧ ((pictureAttrs strict target text).map (·.1) = [c!"src", c!"title", c!"alt"] ∨
      (pictureAttrs strict target text).map (·.1) = [c!"src", c!"title", c!"alt", c!"width", c!"height"]) := by
  have key : ∀ {s t : Str}, splitOnce '|' text = some (s, t) → '\n' ∉ s := by
    intro s t h hc
    refine h2.line ?_
    have : ∀ (x s t : Str), splitOnce '|' x = some (s, t) → ∀ c ∈ s, c ∈ x := by
      intro x
      induction x with
      | nil => intro s t h; cases h
      | cons d x ih =>
        intro s t h c hc
        rw [splitOnce] at h
        split at h
        · cases h; cases hc
        · cases hx : splitOnce '|' x with
          | none => rw [hx] at h; cases h
          | some p =>
            rw [hx] at h
            cases h
            simp only [List.mem_cons] at hc ⊢
            exact hc.imp id (ih _ _ hx c)
    exact this _ _ _ h _ hc
  unfold pictureAttrs
  split
  · refine ⟨?_, .inl rfl⟩
    simp [lines, h1.line, h2.line]
  · refine ⟨?_, .inr rfl⟩
    have ht : '\n' ∉ (if ((splitOnce '|' text).map (·.1)).getD [] = [] then target else ((splitOnce '|' text).map (·.1)).getD []) := by
      split
      · exact h1.line
      · cases hs : splitOnce '|' text with
        | none => simp
        | some p => exact key (s := p.1) (t := p.2) hs
    simp [lines, h1.line, ht, intStr_plain]

mutual
theorem fine_ht {q : Src} {strict : Bool} : ∀ (n : Node) (p : Info), n.Sound q → p.kind.takes n.info.kind = true →
    fineL (ctxOf p.kind) (ht strict p n) = true
  | .mk i cs, p, hs, hp => by
    cases hs with
    | mk hg hun hch =>
    have hi : fineL (ctxOf i.kind) (htL strict i cs) = true := fine_htL cs i hch fun n hn => (hun n hn).takes
    unfold Info.good at hg
    rw [ht]
    simp only [Node.info] at hp
    split <;> rename_i hk <;> rw [hk] at hg hi hp <;> (try simp only at hg)
    · exfalso; generalize p.kind = k at hp; revert hp; cases k <;> decide
    · have : takesText (ctxOf p.kind) = true := by generalize p.kind = k at hp; revert hp; cases k <;> decide
      simp [fineL, fine, this]
    · have : single (ctxOf p.kind) c!"hr" [] = true := by generalize p.kind = k at hp; revert hp; cases k <;> decide
      rw [fineL, fineL, fineL, fine_white (by decide), fine, List.map_nil, this]; rfl
    · have : inside (ctxOf p.kind) c!"p" [] = some .line := by generalize p.kind = k at hp; revert hp; cases k <;> decide
      rw [fineL, fineL, fineL, fine_white (by decide), fine_el this rfl hi]; rfl
    · have : inside (ctxOf p.kind) c!"ul" [] = some .list := by generalize p.kind = k at hp; revert hp; cases k <;> decide
      refine fine_list this ?_
      rw [fineL_append, show fineL .list (htL strict i cs) = true from hi, fineL, fineL, fine_white (by rw [List.all_cons, tabs_blank]; decide)]; rfl
    · have : inside (ctxOf p.kind) c!"ol" [] = some .list := by generalize p.kind = k at hp; revert hp; cases k <;> decide
      refine fine_list this ?_
      rw [fineL_append, show fineL .list (htL strict i cs) = true from hi, fineL, fineL, fine_white (by rw [List.all_cons, tabs_blank]; decide)]; rfl
    · have : inside (ctxOf p.kind) c!"li" [] = some .item := by generalize p.kind = k at hp; revert hp; cases k <;> decide
      exact fine_list this hi
    · have : inside (ctxOf p.kind) c!"table" [] = some .table := by generalize p.kind = k at hp; revert hp; cases k <;> decide
      rw [fineL, fineL, fineL, fine_white (by decide), fine_el this rfl (by rw [fineL, fine_white (by decide)]; exact hi)]; rfl
    · have : inside (ctxOf p.kind) c!"tr" [] = some .row := by generalize p.kind = k at hp; revert hp; cases k <;> decide
      rw [fineL, fineL, fineL, fine_white (by decide), fine_el this rfl (by rw [fineL, fine_white (by decide)]; exact hi)]; rfl
    · have : inside (ctxOf p.kind) c!"td" [] = some .line := by generalize p.kind = k at hp; revert hp; cases k <;> decide
      rw [fineL, fineL, fineL, fineL, fine_white (by decide), fine_white (by decide), fine_el this rfl hi]; rfl
    · have : inside (ctxOf p.kind) c!"th" [] = some .line := by generalize p.kind = k at hp; revert hp; cases k <;> decide
      rw [fineL, fineL, fineL, fineL, fine_white (by decide), fine_white (by decide), fine_el this rfl hi]; rfl
    iterate 8
      · rw [fineL, fineL, fine_el (c' := .line) (by generalize p.kind = k at hp; revert hp; cases k <;> decide) rfl hi]; rfl
    · have hd : p.kind = .document := by generalize p.kind = k at hp ⊢; revert hp; cases k <;> decide
      obtain ⟨s, n, h1, h2⟩ := hg
      rw [hd, h2]
      rw [fineL, fineL, fineL, fine_white (by decide), fine_el (inside_heading (Nat.succ_pos _)) rfl (by rw [fineL, fineL, fine]; rfl)]; rfl
    · obtain ⟨s, h1, h2⟩ := hg
      have : inside (ctxOf p.kind) c!"a" [c!"href"] = some .link := by generalize p.kind = k at hp; revert hp; cases k <;> decide
      rw [fineL, fineL, fine_el (c' := .link) this (by rw [h1]; simp [lines, h2]) ?_]; rfl
      split
      · rw [fineL, fineL, fine]; rfl
      · exact hi
    · obtain ⟨s, h1, h2⟩ := hg
      have ht : q.Line (getText i cs) := by
        unfold getText
        cases cs with
        | nil => rw [h1]; exact h2
        | cons c cs => exact (hun c (by simp)).line hk
      obtain ⟨h3, h4⟩ := picture_lines (strict := strict) h2 ht
      rw [h1, Option.getD_some, fineL, fineL, fine, h3]
      have : single (ctxOf p.kind) c!"img" [c!"src", c!"title", c!"alt"] = true ∧
          single (ctxOf p.kind) c!"img" [c!"src", c!"title", c!"alt", c!"width", c!"height"] = true := by
        generalize p.kind = k at hp; revert hp; cases k <;> decide
      rcases h4 with h4 | h4
      · rw [h4, this.1]; rfl
      · rw [h4, this.2]; rfl
    · rfl
    · rfl
    · have : single (ctxOf p.kind) c!"br" [] = true := by generalize p.kind = k at hp; revert hp; cases k <;> decide
      have hw : (breakWhite p).all isSpace = true := by
        unfold breakWhite
        split
        · rw [List.all_cons, tabs_blank]; decide
        · split <;> decide
      rw [fineL, fineL, fineL, fine_white hw, fine, List.map_nil, this]; rfl
    · rw [fineL, fineL, fine_white (by decide)]; rfl
    · have : inside (ctxOf p.kind) c!"pre" [] = some .plain := by generalize p.kind = k at hp; revert hp; cases k <;> decide
      rw [fineL, fineL, fineL, fine_white (by decide), fine_el this rfl (by rw [fineL, fineL, fine]; rfl)]; rfl
    · have : inside (ctxOf p.kind) c!"code" [] = some .plain := by generalize p.kind = k at hp; revert hp; cases k <;> decide
      rw [fineL, fineL, fine_el this rfl (by rw [fineL, fineL, fine]; rfl)]; rfl
theorem fine_htL {q : Src} {strict : Bool} : ∀ (ns : List Node) (p : Info), (∀ n ∈ ns, n.Sound q) → (∀ n ∈ ns, p.kind.takes n.info.kind = true) →
    fineL (ctxOf p.kind) (htL strict p ns) = true
  | [], _, _, _ => rfl
  | n :: ns, p, hs, hp => by
    rw [htL, fineL_append, fine_ht n p (hs n (by simp)) (hp n (by simp)), fine_htL ns p (fun m hm => hs m (by simp [hm])) (fun m hm => hp m (by simp [hm]))]
    rfl
end

/-! ## White space around a document -/

/-- a piece of white space -/
def blankPiece : Ht → Bool
  | .text s => s.all isSpace
  | .white s => s.all isSpace
  | _ => false

theorem blank_print {x : Ht} (h : blankPiece x = true) : ∀ c ∈ x.print, isSpace c = true := by
  cases x with
  | text s =>
    rw [Ht.print, Html.white_text h]
    exact List.all_eq_true.1 h
  | white s => exact List.all_eq_true.1 h
  | _ => cases h

theorem solid_print {x : Ht} (h : fine .doc x = true) (hb : blankPiece x = false) :
    x.print.head? = some '<' ∧ x.print.getLast? = some '>' := by
  cases x with
  | text s => rw [fine] at h; rw [blankPiece] at hb; rw [hb] at h; cases h
  | white s => rw [fine] at h; rw [blankPiece] at hb; rw [hb] at h; cases h
  | el tag as ch => exact ⟨rfl, by rw [Ht.print, List.getLast?_append]; rfl⟩
  | void tag as => exact ⟨rfl, by rw [Ht.print, List.getLast?_append]; rfl⟩
  | bare tag as => cases h

theorem fineL_iff {c : Gr.Ctx} {l : List Ht} : fineL c l = true ↔ ∀ x ∈ l, fine c x = true := by
  induction l with
  | nil => simp [fineL]
  | cons x l ih => simp [fineL, ih]

theorem drop_blank {l : List Ht} (h : fineL .doc l = true) : ∃ w l', l = w ++ l' ∧ (∀ x ∈ w, blankPiece x = true) ∧
    (∀ c, (written l').head? = some c → isSpace c = false) := by
  induction l with
  | nil => exact ⟨[], [], rfl, by simp, by simp [written]⟩
  | cons x l ih =>
    rw [fineL, Bool.and_eq_true] at h
    cases hb : blankPiece x with
    | true =>
      obtain ⟨w, l', rfl, h1, h2⟩ := ih h.2
      exact ⟨x :: w, l', rfl, by simpa [hb] using h1, h2⟩
    | false =>
      refine ⟨[], x :: l, rfl, by simp, ?_⟩
      intro c hc
      rw [written, List.head?_append, (solid_print h.1 hb).1] at hc
      cases hc
      decide

theorem drop_blankEnd {l : List Ht} (h : fineL .doc l = true) : ∃ w l', l = l' ++ w ∧ (∀ x ∈ w, blankPiece x = true) ∧
    (∀ c, (written l').getLast? = some c → isSpace c = false) := by
  have key : ∀ n (l : List Ht), l.length = n → fineL .doc l = true → ∃ w l', l = l' ++ w ∧ (∀ x ∈ w, blankPiece x = true) ∧
      (∀ c, (written l').getLast? = some c → isSpace c = false) := by
    intro n
    induction n with
    | zero =>
      intro l hl _
      rw [List.length_eq_zero_iff] at hl
      subst hl
      exact ⟨[], [], rfl, by simp, by simp [written]⟩
    | succ n ih =>
      intro l hl h
      rcases List.eq_nil_or_concat l with rfl | ⟨e, x, rfl⟩
      · cases hl
      · rw [List.concat_eq_append] at *
        rw [fineL_append, fineL, fineL, Bool.and_true, Bool.and_eq_true] at h
        cases hb : blankPiece x with
        | true =>
          obtain ⟨w, l', rfl, h1, h2⟩ := ih e (by simpa using hl) h.1
          refine ⟨w ++ [x], l', by simp, ?_, h2⟩
          intro y hy
          simp only [List.mem_append, List.mem_singleton] at hy
          rcases hy with hy | rfl
          · exact h1 y hy
          · exact hb
        | false =>
          refine ⟨[], e ++ [x], by simp, by simp, ?_⟩
          intro c hc
          rw [Html.written_append, List.getLast?_append, written, written, List.append_nil, (solid_print h.2 hb).2] at hc
          cases hc
          decide
  exact key _ l rfl h

theorem blank_written {w : List Ht} (h : ∀ x ∈ w, blankPiece x = true) : ∀ c ∈ written w, isSpace c = true := by
  induction w with
  | nil => simp [written]
  | cons x w ih =>
    intro c hc
    rw [written, List.mem_append] at hc
    rcases hc with hc | hc
    · exact blank_print (h x (by simp)) c hc
    · exact ih (fun y hy => h y (by simp [hy])) c hc

/-- the white space around a document is removed -/
theorem strip_fine {l : List Ht} (h : fineL .doc l = true) : ∃ w l' w', l = w ++ l' ++ w' ∧ (∀ x ∈ w, blankPiece x = true) ∧
    (∀ x ∈ w', blankPiece x = true) ∧ strip (written l) = written l' := by
  obtain ⟨w, l1, rfl, h1, h2⟩ := drop_blank h
  rw [fineL_append, Bool.and_eq_true] at h
  obtain ⟨w', l', rfl, h3, h4⟩ := drop_blankEnd h.2
  refine ⟨w, l', w', by simp, h1, h3, ?_⟩
  rw [Html.written_append, Html.written_append, ← List.append_assoc, strip_pad (blank_written h1) (blank_written h3)]
  refine strip_id ?_ h4
  intro c hc
  refine h2 c ?_
  rw [Html.written_append, List.head?_append, hc]
  rfl

end Verif.Creole
