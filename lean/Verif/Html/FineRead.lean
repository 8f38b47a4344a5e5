import Verif.Props.ReadPreAny
import Verif.Spec.Grammar
import Verif.Spec.Faults

/-!
# Structured documents: how they are read

The tree of a structured document contains no node that a converter cannot convert.
-/

namespace Verif.Html

open Verif Py Spec Spec.Hd Spec.Gr

/-! ## Which elements stand where -/

/-- `inside` as a list of cases -/
inductive Inside : Gr.Ctx → Str → List Str → Gr.Ctx → Prop
  | heading (tag : Str) : isHeading tag = true → Inside .doc tag [] .plain
  | pre : Inside .doc c!"pre" [] .plain
  | p : Inside .doc c!"p" [] .line
  | table : Inside .doc c!"table" [] .table
  | list (c : Gr.Ctx) (tag : Str) : c = .doc ∨ c = .item → tag = c!"ul" ∨ tag = c!"ol" → Inside c tag [] .list
  | item : Inside .list c!"li" [] .item
  | row : Inside .table c!"tr" [] .row
  | cell (tag : Str) : tag = c!"td" ∨ tag = c!"th" → Inside .row tag [] .line
  | link (c : Gr.Ctx) : c = .item ∨ c = .line → Inside c c!"a" [c!"href"] .link
  | face (c : Gr.Ctx) (tag : Str) : c = .item ∨ c = .line → tag ∈ faces → Inside c tag [] .line
  | code (c : Gr.Ctx) : c = .item ∨ c = .line → Inside c c!"code" [] .plain

theorem running_cases {c c' : Gr.Ctx} {tag : Str} {names : List Str} (hc : c = .item ∨ c = .line)
    (h : running tag names = some c') : Inside c tag names c' := by
  unfold running at h
  split at h
  · subst tag
    split at h
    · subst names; cases h; exact .link c hc
    · cases h
  · split at h
    · cases h
    · rename_i hn
      simp only [ne_eq, Decidable.not_not] at hn
      subst hn
      split at h
      · cases h; exact .face c tag hc (by simpa using ‹faces.contains tag = true›)
      · split at h
        · subst tag; cases h; exact .code c hc
        · cases h

theorem inside_cases {c c' : Gr.Ctx} {tag : Str} {names : List Str} (h : inside c tag names = some c') :
    Inside c tag names c' := by
  cases c with
  | doc =>
    simp only [inside] at h
    split at h
    · cases h
    · rename_i hn
      simp only [ne_eq, Decidable.not_not] at hn
      subst hn
      split at h
      · subst tag; cases h; exact .p
      · split at h
        · cases h; exact .list _ tag (.inl rfl) ‹_›
        · split at h
          · subst tag; cases h; exact .table
          · split at h
            · cases h
              rename_i hx
              rcases hx with rfl | hx
              · exact .pre
              · exact .heading tag hx
            · cases h
  | list =>
    simp only [inside] at h
    split at h
    · rename_i hx; obtain ⟨rfl, rfl⟩ := hx; cases h; exact .item
    · cases h
  | item =>
    simp only [inside] at h
    split at h
    · rename_i hx; obtain ⟨hx, rfl⟩ := hx; cases h; exact .list _ tag (.inr rfl) hx
    · exact running_cases (.inl rfl) h
  | table =>
    simp only [inside] at h
    split at h
    · rename_i hx; obtain ⟨rfl, rfl⟩ := hx; cases h; exact .row
    · cases h
  | row =>
    simp only [inside] at h
    split at h
    · rename_i hx; obtain ⟨hx, rfl⟩ := hx; cases h; exact .cell tag hx
    · cases h
  | line => exact running_cases (.inr rfl) h
  | link => cases h
  | plain => cases h

theorem fine_el_inv {c : Gr.Ctx} {tag : Str} {attrs : List (Str × Str)} {ch : List Ht} (h : fine c (.el tag attrs ch) = true) :
    ∃ c', Inside c tag (attrs.map (·.1)) c' ∧ lines attrs = true ∧ fineL c' ch = true := by
  rw [fine] at h
  split at h
  · rename_i c' hc
    rw [Bool.and_eq_true] at h
    exact ⟨c', inside_cases hc, h⟩
  · cases h

theorem single_cases {c : Gr.Ctx} {tag : Str} {names : List Str} (h : single c tag names = true) :
    tag = c!"hr" ∧ names = [] ∨ tag = c!"br" ∧ names = [] ∨
      tag = c!"img" ∧ (names = [c!"src", c!"title", c!"alt"] ∨ names = [c!"src", c!"title", c!"alt", c!"width", c!"height"]) := by
  cases c <;> simp [single] at h
  · exact .inl h
  all_goals
    rcases h with h | h
    · exact .inr (.inl h)
    · exact .inr (.inr h)

/-! ## White space -/

theorem fineL_append' (c : Gr.Ctx) (a b : List Ht) : fineL c (a ++ b) = (fineL c a && fineL c b) := by
  induction a with
  | nil => rfl
  | cons x a ih => simp [fineL, ih, Bool.and_assoc]

theorem fine_chars (c : Gr.Ctx) (s : Str) :
    fineL c ((s.filter fun c => !isSpace c).map fun c => .text [c]) = (takesText c || s.all isSpace) := by
  induction s with
  | nil => simp [fineL]
  | cons x s ih =>
    by_cases hx : isSpace x = true
    · rw [List.filter_cons_of_neg (by simp [hx]), ih]; simp [hx]
    · rw [List.filter_cons_of_pos (by simp [hx]), List.map_cons, fineL, ih, fine]
      cases takesText c <;> simp [hx]

mutual
theorem fine_solid : ∀ (x : Ht) (c : Gr.Ctx), x.fits = true → fineL c x.solid = fine c x
  | .text s, c, _ => by rw [Ht.solid, fine_chars, fine]
  | .white s, c, h => by rw [Ht.fits] at h; rw [Ht.solid, fineL, fine, h]
  | .el tag attrs ch, c, h => by
    rw [Ht.fits, Bool.and_eq_true] at h
    rw [Ht.solid, fineL, fineL, Bool.and_true, fine, fine]
    split
    · rw [fineL_solid ch _ h.2]
    · rfl
  | .void tag attrs, c, _ => by rw [Ht.solid, fineL, fineL, Bool.and_true]
  | .bare tag attrs, c, _ => by rw [Ht.solid, fineL, fineL, Bool.and_true]
theorem fineL_solid : ∀ (l : List Ht) (c : Gr.Ctx), fitsL l = true → fineL c (solidL l) = fineL c l
  | [], _, _ => rfl
  | x :: xs, c, h => by
    rw [fitsL, Bool.and_eq_true] at h
    rw [solidL, fineL_append', fine_solid x c h.1, fineL_solid xs c h.2, fineL]
end

theorem fine_same {c : Gr.Ctx} {l l' : List Ht} (h : SameSolid l l') (hl : fitsL l = true) (hl' : fitsL l' = true) :
    fineL c l = fineL c l' := by
  rw [← fineL_solid l c hl, ← fineL_solid l' c hl', h]

/-! ## Names and nesting -/

theorem heading_digit {tag : Str} (h : isHeading tag = true) : ∃ d ds, tag = 'h' :: d :: ds ∧ d.isDigit = true ∧ d ≠ '0' ∧
    ∀ c ∈ ds, c.isDigit = true := by
  unfold isHeading at h
  split at h
  · rename_i d
    simp only [Bool.and_eq_true, List.all_eq_true] at h
    cases d with
    | nil => exact absurd h.1.1 (by decide)
    | cons d ds => exact ⟨d, ds, rfl, h.1.2 d (by simp), by simpa using h.2, fun c hc => h.1.2 c (by simp [hc])⟩
  · cases h

theorem heading_tagOk {tag : Str} (h : isHeading tag = true) : tagOk tag = true := by
  obtain ⟨d, ds, rfl, h1, h2, h3⟩ := heading_digit h
  have hne : ∀ t : Str, (∀ c ∈ t, c.isDigit = false) → t.length ≥ 2 → 'h' :: d :: ds ≠ t := by
    intro t ht hl e
    have := ht d (by rw [← e]; simp)
    rw [h1] at this; cases this
  simp only [tagOk, Bool.and_eq_true, List.head?_cons, Option.any_some, List.all_cons, bne_iff_ne]
  refine ⟨⟨⟨⟨by decide, by decide, by simp [h1], ?_⟩, hne _ (by decide) (by decide)⟩, hne _ (by decide) (by decide)⟩, hne _ (by decide) (by decide)⟩
  rw [List.all_eq_true]
  intro c hc
  simp [h3 c hc]

theorem inside_tagOk {c c' : Gr.Ctx} {tag : Str} {names : List Str} (h : Inside c tag names c') (hp : tag ≠ c!"pre") : tagOk tag = true := by
  cases h with
  | heading _ h => exact heading_tagOk h
  | pre => exact absurd rfl hp
  | list _ _ _ h => rcases h with rfl | rfl <;> decide
  | cell _ h => rcases h with rfl | rfl <;> decide
  | face _ _ _ h =>
    simp only [faces, List.mem_cons, List.not_mem_nil, or_false] at h
    rcases h with rfl | rfl | rfl | rfl | rfl | rfl | rfl | rfl <;> decide
  | _ => decide

theorem lines_ok {attrs : List (Str × Str)} (h : lines attrs = true) (hn : ∀ n ∈ attrs.map (·.1), n ≠ [] ∧ n.all letter = true) :
    attrs.all attrLine = true := by
  rw [lines, List.all_eq_true] at h
  rw [List.all_eq_true]
  intro a ha
  obtain ⟨h1, h2⟩ := hn a.1 (List.mem_map.2 ⟨a, ha, rfl⟩)
  simp only [attrLine, h2, Bool.and_true, Bool.and_eq_true]
  exact ⟨by simpa using h1, h a ha⟩

theorem inside_names {c c' : Gr.Ctx} {tag : Str} {names : List Str} (h : Inside c tag names c') :
    ∀ n ∈ names, n ≠ [] ∧ n.all letter = true := by
  cases h <;> simp
  decide

theorem single_names {c : Gr.Ctx} {tag : Str} {names : List Str} (h : single c tag names = true) :
    tagOk tag = true ∧ ∀ n ∈ names, n ≠ [] ∧ n.all letter = true := by
  rcases single_cases h with ⟨rfl, rfl⟩ | ⟨rfl, rfl⟩ | ⟨rfl, rfl | rfl⟩ <;> decide

/-- a piece that is no preformatted text -/
def notPre : Ht → Bool
  | .el tag _ _ => tag != c!"pre"
  | _ => true

theorem inside_pre {c c' : Gr.Ctx} {names : List Str} (h : Inside c c!"pre" names c') : c = .doc := by
  cases h with
  | heading _ h => rfl
  | pre => rfl
  | list _ _ _ h => exact absurd h (by decide)
  | cell _ h => exact absurd h (by decide)
  | face _ _ _ h => exact absurd h (by decide)

theorem inside_not_doc {c c' : Gr.Ctx} {tag : Str} {names : List Str} (h : Inside c tag names c') : c' ≠ .doc := by
  cases h <;> exact fun e => by cases e

mutual
theorem fine_fits : ∀ (x : Ht) (c : Gr.Ctx), fine c x = true → (c = .doc → notPre x = true) → x.fits = true
  | .text s, _, _, _ => rfl
  | .white s, c, h, _ => by rw [fine] at h; rw [Ht.fits, h]
  | .el tag attrs ch, c, h, hp => by
    obtain ⟨c', h1, h2, h3⟩ := fine_el_inv h
    have hpre : tag ≠ c!"pre" := by
      rintro rfl
      have := hp (inside_pre h1)
      exact absurd this (by simp [notPre])
    have hd : c' ≠ .doc := inside_not_doc h1
    rw [Ht.fits, inside_tagOk h1 hpre, lines_ok h2 (inside_names h1), fineL_fits ch c' h3 fun e => absurd e hd]
    rfl
  | .void tag attrs, c, h, _ => by
    rw [fine, Bool.and_eq_true] at h
    obtain ⟨h1, h2⟩ := single_names h.1
    rw [Ht.fits, h1, lines_ok h.2 h2]
    rfl
  | .bare tag attrs, c, h, _ => by rw [fine] at h; cases h
theorem fineL_fits : ∀ (l : List Ht) (c : Gr.Ctx), fineL c l = true → (c = .doc → ∀ x ∈ l, notPre x = true) → fitsL l = true
  | [], _, _, _ => rfl
  | x :: xs, c, h, hp => by
    rw [fineL, Bool.and_eq_true] at h
    rw [fitsL, fine_fits x c h.1 fun e => hp e x (by simp), fineL_fits xs c h.2 fun e y hy => hp e y (by simp [hy])]
    rfl
end

/-- places where block elements may stand -/
def blocky : Gr.Ctx → Bool
  | .doc | .list | .item | .table | .row => true
  | _ => false

theorem inside_nest {c c' : Gr.Ctx} {tag : Str} {names : List Str} (h : Inside c tag names c') :
    tag ≠ c!"img" ∧ tag ≠ c!"br" ∧ tag ≠ c!"tbody" ∧ (blocky c = true ∨ blockNames.contains tag = false) ∧
      (blocky c' = true → stops (kindOf tag) = true) := by
  cases h with
  | heading _ h =>
    obtain ⟨d, ds, rfl, h1, h2, h3⟩ := heading_digit h
    exact ⟨by simp, by simp, by simp, .inl rfl, fun e => by cases e⟩
  | list _ _ hc h => rcases hc with rfl | rfl <;> rcases h with rfl | rfl <;> decide
  | cell _ h => rcases h with rfl | rfl <;> decide
  | face _ _ hc h =>
    simp only [faces, List.mem_cons, List.not_mem_nil, or_false] at h
    rcases hc with rfl | rfl <;> rcases h with rfl | rfl | rfl | rfl | rfl | rfl | rfl | rfl <;> decide
  | link _ hc => rcases hc with rfl | rfl <;> decide
  | code _ hc => rcases hc with rfl | rfl <;> decide
  | _ => decide

mutual
theorem fine_nest : ∀ (x : Ht) (c : Gr.Ctx) (b : Bool), fine c x = true → (blocky c = true → b = true) → Ht.nest b x = true
  | .text s, _, _, _, _ => rfl
  | .white s, _, _, _, _ => rfl
  | .el tag attrs ch, c, b, h, hb => by
    obtain ⟨c', h1, h2, h3⟩ := fine_el_inv h
    obtain ⟨n1, n2, n3, n4, n5⟩ := inside_nest h1
    rw [Ht.nest, if_neg (fun e => n3 e.1), fineL_nest ch c' _ h3 n5]
    rcases n4 with n4 | n4
    · simp [n1, n2, n3, hb n4]
    · rw [n4]; simp [n1, n2, n3]
  | .void tag attrs, c, b, h, _ => by
    rw [fine, Bool.and_eq_true] at h
    rw [Ht.nest]
    rcases single_cases h.1 with ⟨rfl, _⟩ | ⟨rfl, _⟩ | ⟨rfl, _⟩ <;> decide
  | .bare tag attrs, _, _, h, _ => by rw [fine] at h; cases h
theorem fineL_nest : ∀ (l : List Ht) (c : Gr.Ctx) (b : Bool), fineL c l = true → (blocky c = true → b = true) → nestL b l = true
  | [], _, _, _, _ => rfl
  | x :: xs, c, b, h, hb => by
    rw [fineL, Bool.and_eq_true] at h
    rw [nestL, fine_nest x c b h.1 hb, fineL_nest xs c b h.2 hb]
    rfl
end

/-! ## The nodes -/

/-- the kinds of the nodes of structured documents -/
def treeKinds : List Str := [c!"document", c!"data", c!"entityref", c!"blockdata_pre", c!"inlinedata_pre", c!"headline", c!"p", c!"ul", c!"ol",
  c!"li", c!"table", c!"tr", c!"th", c!"td", c!"a", c!"img", c!"code", c!"br", c!"hr"] ++ faces

/-- a node, below its ancestors, that every converter can convert; `bare`: in a document without links and pictures -/
structure Mild (bare : Bool) (anc : List Str) (i : HInfo) : Prop where
  known : i.kind ∈ treeKinds
  media : bare = true → i.kind ≠ c!"a" ∧ i.kind ≠ c!"img"
  entity : i.kind = c!"entityref" → i.content ≠ none
  data : i.kind = c!"data" → i.content ≠ none
  charref : i.kind ≠ c!"charref"
  pre : i.kind = c!"blockdata_pre" ∨ i.kind = c!"inlinedata_pre" → ∃ t s, i.content = some t ∧ t <:+ Cr.textHtml s
  headline : i.kind = c!"headline" → ∃ n : Int, i.level = some n ∧ 0 < n
  item : i.kind = c!"li" → i.level ≠ none ∧ ∃ p ps, anc = p :: ps ∧ (p = c!"ul" ∨ p = c!"ol")
  link : i.kind = c!"a" → ∃ u, dictGet c!"href" i.attrs = some (some u)
  picture : i.kind = c!"img" → ∃ u t a, dictGet c!"src" i.attrs = some (some u) ∧ dictGet c!"title" i.attrs = some (some t) ∧
    dictGet c!"alt" i.attrs = some (some a)
  cell : i.kind = c!"tr" ∨ i.kind = c!"th" ∨ i.kind = c!"td" → c!"table" ∈ anc

/-- kinds about which there is nothing to say -/
def quietKinds : List Str := [c!"document", c!"p", c!"ul", c!"ol", c!"table", c!"code", c!"br", c!"hr"] ++ faces

/-- a node of a certain kind is mild if it is so as a node of this kind -/
theorem Mild.of_kind {b : Bool} {anc : List Str} {i : HInfo} (k : Str) (hk : i.kind = k)
    (known : k ∈ treeKinds)
    (media : b = true → k ≠ c!"a" ∧ k ≠ c!"img")
    (entity : k = c!"entityref" → i.content ≠ none)
    (data : k = c!"data" → i.content ≠ none)
    (charref : k ≠ c!"charref")
    (pre : k = c!"blockdata_pre" ∨ k = c!"inlinedata_pre" → ∃ t s, i.content = some t ∧ t <:+ Cr.textHtml s)
    (headline : k = c!"headline" → ∃ n : Int, i.level = some n ∧ 0 < n)
    (item : k = c!"li" → i.level ≠ none ∧ ∃ p ps, anc = p :: ps ∧ (p = c!"ul" ∨ p = c!"ol"))
    (link : k = c!"a" → ∃ u, dictGet c!"href" i.attrs = some (some u))
    (picture : k = c!"img" → ∃ u t a, dictGet c!"src" i.attrs = some (some u) ∧ dictGet c!"title" i.attrs = some (some t) ∧
      dictGet c!"alt" i.attrs = some (some a))
    (cell : k = c!"tr" ∨ k = c!"th" ∨ k = c!"td" → c!"table" ∈ anc) : Mild b anc i := by
  subst hk
  exact ⟨known, media, entity, data, charref, pre, headline, item, link, picture, cell⟩

theorem mild_quiet {b : Bool} {anc : List Str} {i : HInfo} (k : Str) (hk : i.kind = k) (h : k ∈ quietKinds) : Mild b anc i := by
  have key : ∀ k', k = k' → quietKinds.contains k' = false → False := by
    intro k' e hk
    rw [e] at h
    rw [List.contains_iff_mem.2 h] at hk
    cases hk
  apply Mild.of_kind k hk
  · exact (by decide : ∀ x ∈ quietKinds, x ∈ treeKinds) k h
  · exact fun _ => ⟨fun e => key _ e (by decide), fun e => key _ e (by decide)⟩
  all_goals intro e
  · exact (key _ e (by decide)).elim
  · exact (key _ e (by decide)).elim
  · exact (key _ e (by decide)).elim
  · rcases e with e | e <;> exact (key _ e (by decide)).elim
  · exact (key _ e (by decide)).elim
  · exact (key _ e (by decide)).elim
  · exact (key _ e (by decide)).elim
  · exact (key _ e (by decide)).elim
  · rcases e with e | e | e <;> exact (key _ e (by decide)).elim

theorem mild_entity {b : Bool} {anc : List Str} {t : Str} : Mild b anc { kind := c!"entityref", content := some t } := by
  apply Mild.of_kind c!"entityref" rfl
  · decide
  · exact fun _ => by decide
  · exact fun _ e => by cases e
  all_goals exact fun e => absurd e (by decide)

/-- ancestors of what stands somewhere -/
def Suits (c : Gr.Ctx) (anc : List Str) : Prop :=
  (c = .list → ∃ p ps, anc = p :: ps ∧ (p = c!"ul" ∨ p = c!"ol")) ∧ (c = .table ∨ c = .row → c!"table" ∈ anc)

theorem Suits.any {c : Gr.Ctx} {anc : List Str} (h : c ≠ .list ∧ c ≠ .table ∧ c ≠ .row) : Suits c anc :=
  ⟨fun e => absurd e h.1, fun e => e.elim (fun e => absurd e h.2.1) fun e => absurd e h.2.2⟩

theorem contextsL_append (anc : List Str) (a b : List HNode) : contextsL anc (a ++ b) = contextsL anc a ++ contextsL anc b := by
  induction a with
  | nil => rw [contextsL]; rfl
  | cons n a ih => rw [List.cons_append, contextsL, contextsL, ih, List.append_assoc]

theorem mild_text {b : Bool} {anc : List Str} {t : Str} : Mild b anc { kind := c!"data", content := some t } := by
  apply Mild.of_kind c!"data" rfl
  · decide
  · exact fun _ => by decide
  · exact fun _ e => by cases e
  · exact fun _ e => by cases e
  all_goals exact fun e => absurd e (by decide)

theorem contexts_data (anc : List Str) (t : Str) : contexts anc (.mk { kind := c!"data", content := some t } []) =
    [(anc, { kind := c!"data", content := some t })] := by
  rw [contexts]; rfl

theorem contexts_entity (anc : List Str) (t : Str) : contexts anc (.mk { kind := c!"entityref", content := some t } []) =
    [(anc, { kind := c!"entityref", content := some t })] := by
  rw [contexts]; rfl

theorem contexts_addChar {b : Bool} {anc : List Str} {d : Int} {c : Char} {l : List El} {p : List Str × HInfo}
    (h : p ∈ contextsL anc (nodesL d (addChar c l))) : p ∈ contextsL anc (nodesL d l) ∨ Mild b p.1 p.2 := by
  unfold addChar at h
  split at h
  · rw [nodesL, El.nodes, List.cons_append, List.nil_append, contextsL, List.mem_append, contexts_entity] at h
    rcases h with h | h
    · rw [List.mem_singleton] at h
      subst h
      exact .inr mild_entity
    · exact .inl h
  · split at h
    · rename_i t l'
      rw [nodesL, El.nodes, List.cons_append, List.nil_append, contextsL, List.mem_append, contexts_data] at h
      rcases h with h | h
      · rw [List.mem_singleton] at h
        subst h
        exact .inr mild_text
      · refine .inl ?_
        rw [nodesL, contextsL_append]
        exact List.mem_append.2 (.inr h)
    · rw [nodesL, El.nodes, List.cons_append, List.nil_append, contextsL, List.mem_append, contexts_data] at h
      rcases h with h | h
      · rw [List.mem_singleton] at h
        subst h
        exact .inr mild_text
      · exact .inl h

theorem contexts_chars {b : Bool} {anc : List Str} {d : Int} (s : Str) {l : List El} {p : List Str × HInfo}
    (h : p ∈ contextsL anc (nodesL d (s.foldr addChar l))) : p ∈ contextsL anc (nodesL d l) ∨ Mild b p.1 p.2 := by
  induction s with
  | nil => exact .inl h
  | cons c s ih =>
    rcases contexts_addChar h with h | h
    · exact ih h
    · exact .inr h

theorem digit_level {d : Char} (h1 : d.isDigit = true) (h2 : d ≠ '0') : ∃ n : Nat, Py.decimal? d = some n ∧ 0 < n := by
  obtain ⟨n, h⟩ : ∃ n, Py.decimal? d = some n := ⟨_, decimal_digit h1⟩
  refine ⟨n, h, ?_⟩
  rw [decimal_digit h1] at h
  have h3 : d.toNat ≠ '0'.toNat := fun e => h2 (Char.toNat_inj.1 e)
  simp only [Char.isDigit, Bool.and_eq_true, decide_eq_true_eq] at h1
  have h4 : '0'.toNat ≤ d.toNat := h1.1
  cases h
  show 0 < d.toNat - 48
  have h5 : '0'.toNat = 48 := rfl
  omega

/-- the node of an element -/
theorem contexts_el {c c' : Gr.Ctx} {tag : Str} {attrs : List (Str × Str)} (h : Inside c tag (attrs.map (·.1)) c')
    (hp : tag ≠ c!"pre") {b : Bool} (hb : b = true → tag ≠ c!"a") {anc : List Str} (ha : Suits c anc) (d : Int) (ch : List El) :
    ∃ i d' anc', Suits c' anc' ∧ Mild b anc i ∧ El.nodes d (.elem tag (attrs.map fun a => (a.1, some a.2)) ch) = [.mk i (nodesL d' ch)] ∧
      leafKinds.contains i.kind = false ∧ i.kind :: anc = anc' := by
  generalize hn : attrs.map (·.1) = names at h
  have quiet : ∀ t : Str, t ∈ quietKinds → headline? t = none → t ≠ c!"ul" → t ≠ c!"ol" → t ≠ c!"li" → leafKinds.contains t = false →
      Suits c' (t :: anc) → ∃ i d' anc', Suits c' anc' ∧ Mild b anc i ∧
        El.nodes d (.elem t (attrs.map fun a => (a.1, some a.2)) ch) = [.mk i (nodesL d' ch)] ∧
          leafKinds.contains i.kind = false ∧ i.kind :: anc = anc' := by
    intro t h1 h2 h3 h4 h5 h6 h7
    refine ⟨_, _, _, h7, ?_, by rw [El.nodes, h2]; dsimp only; rw [if_neg (by simp [h3, h4]), if_neg h5], h6, rfl⟩
    exact mild_quiet t rfl h1
  cases h with
  | heading _ h =>
    obtain ⟨x, ds, rfl, h1, h2, h3⟩ := heading_digit h
    obtain ⟨n, h4, h5⟩ := digit_level h1 h2
    refine ⟨_, d, _, (Suits.any (by decide)), ?_, by rw [El.nodes, headline?, h4], rfl, rfl⟩
    apply Mild.of_kind c!"headline" rfl
    all_goals first | exact fun e => absurd e (by decide) | decide | exact fun _ => by decide | exact fun _ => ⟨n, rfl, by omega⟩
  | pre => exact absurd rfl hp
  | p => exact quiet _ (by decide) (by decide) (by decide) (by decide) (by decide) (by decide) (Suits.any (by decide))
  | table => exact quiet _ (by decide) (by decide) (by decide) (by decide) (by decide) (by decide) ⟨fun e => (by cases e), fun _ => by simp⟩
  | list _ _ _ h =>
    have h1 : headline? tag = none := by rcases h with rfl | rfl <;> rfl
    refine ⟨_, d + 1, _, ⟨fun _ => ⟨tag, anc, rfl, h⟩, fun e => e.elim (fun e => by cases e) fun e => by cases e⟩, ?_,
      by rw [El.nodes, h1]; dsimp only; rw [if_pos h], ?_, rfl⟩
    · exact mild_quiet tag rfl (by rcases h with rfl | rfl <;> decide)
    · show leafKinds.contains tag = false
      rcases h with rfl | rfl <;> decide
  | item =>
    refine ⟨_, d, _, (Suits.any (by decide)), ?_,
      by rw [El.nodes, show headline? c!"li" = none from rfl]; dsimp only; rw [if_neg (by decide), if_pos rfl], rfl, rfl⟩
    apply Mild.of_kind c!"li" rfl
    all_goals first | exact fun e => absurd e (by decide) | decide | exact fun _ => by decide | exact fun _ => ⟨fun e => (by cases e), ha.1 rfl⟩
  | row =>
    have ht := ha.2 (.inl rfl)
    refine ⟨_, d, _, ⟨fun e => (by cases e), fun e => by simp [ht]⟩, ?_,
      by rw [El.nodes, show headline? c!"tr" = none from rfl]; dsimp only; rw [if_neg (by decide), if_neg (by decide)], rfl, rfl⟩
    apply Mild.of_kind c!"tr" rfl
    all_goals first | exact fun e => absurd e (by decide) | decide | exact fun _ => by decide | exact fun _ => ht
  | cell _ h =>
    have ht := ha.2 (.inr rfl)
    have h1 : headline? tag = none := by rcases h with rfl | rfl <;> rfl
    refine ⟨_, d, _, (Suits.any (by decide)), ?_,
      by rw [El.nodes, h1]; dsimp only; rw [if_neg (by rcases h with rfl | rfl <;> decide), if_neg (by rcases h with rfl | rfl <;> decide)], ?_, rfl⟩
    · apply Mild.of_kind tag rfl
      all_goals first | exact fun _ => ht | (rcases h with rfl | rfl <;> first | decide | exact fun _ => by decide | exact fun e => absurd e (by decide))
    · show leafKinds.contains tag = false
      rcases h with rfl | rfl <;> decide
  | link _ _ =>
    match attrs, hn with
    | [(n, v)], hn =>
      simp only [List.map_cons, List.map_nil, List.cons.injEq, and_true] at hn
      subst hn
      refine ⟨_, d, _, (Suits.any (by decide)), ?_,
        by rw [El.nodes, show headline? c!"a" = none from rfl]; dsimp only; rw [if_neg (by decide), if_neg (by decide)], rfl, rfl⟩
      apply Mild.of_kind c!"a" rfl
      all_goals first | exact fun e => absurd e (by decide) | decide | exact fun e => absurd rfl (hb e) | exact fun _ => ⟨v, rfl⟩
  | face _ _ _ h =>
    have : tag ∈ quietKinds ∧ headline? tag = none ∧ tag ≠ c!"ul" ∧ tag ≠ c!"ol" ∧ tag ≠ c!"li" ∧ leafKinds.contains tag = false := by
      simp only [faces, List.mem_cons, List.not_mem_nil, or_false] at h
      rcases h with rfl | rfl | rfl | rfl | rfl | rfl | rfl | rfl <;> decide
    exact quiet _ this.1 this.2.1 this.2.2.1 this.2.2.2.1 this.2.2.2.2.1 this.2.2.2.2.2 (Suits.any (by decide))
  | code _ _ => exact quiet _ (by decide) (by decide) (by decide) (by decide) (by decide) (by decide) (Suits.any (by decide))

theorem mild_void {c : Gr.Ctx} {tag : Str} {attrs : List (Str × Str)} (h : single c tag (attrs.map (·.1)) = true) {b : Bool} (hb : b = true → tag ≠ c!"img") (anc : List Str) :
    Mild b anc { kind := tag, attrs := dictOf (attrs.map fun a => (a.1, some a.2)) } := by
  rcases single_cases h with ⟨rfl, _⟩ | ⟨rfl, _⟩ | ⟨rfl, hn⟩
  · exact mild_quiet c!"hr" rfl (by decide)
  · exact mild_quiet c!"br" rfl (by decide)
  · apply Mild.of_kind c!"img" rfl
    all_goals first | exact fun e => absurd e (by decide) | decide | exact fun e => absurd rfl (hb e) | skip
    intro _
    rcases hn with hn | hn
    · match attrs, hn with
      | [(n1, v1), (n2, v2), (n3, v3)], hn =>
        simp only [List.map_cons, List.map_nil, List.cons.injEq, and_true] at hn
        obtain ⟨rfl, rfl, rfl⟩ := hn
        exact ⟨v1, v2, v3, rfl, rfl, rfl⟩
    · match attrs, hn with
      | [(n1, v1), (n2, v2), (n3, v3), (n4, v4), (n5, v5)], hn =>
        simp only [List.map_cons, List.map_nil, List.cons.injEq, and_true] at hn
        obtain ⟨rfl, rfl, rfl, rfl, rfl⟩ := hn
        exact ⟨v1, v2, v3, rfl, rfl, rfl⟩

theorem heldAttrs_names (attrs : List (Str × Str)) : (heldAttrs attrs).map (·.1) = attrs.map (·.1) := by
  rw [heldAttrs, List.map_map]; rfl

mutual
/-- a piece without links and pictures -/
def mediaFree : Ht → Bool
  | .el tag _ ch => tag != c!"a" && mediaFreeL ch
  | .void tag _ => tag != c!"img"
  | _ => true
def mediaFreeL : List Ht → Bool
  | [] => true
  | x :: xs => mediaFree x && mediaFreeL xs
end

theorem mediaFreeL_append (a b : List Ht) : mediaFreeL (a ++ b) = (mediaFreeL a && mediaFreeL b) := by
  induction a with
  | nil => rfl
  | cons x a ih => simp [mediaFreeL, ih, Bool.and_assoc]

mutual
theorem mediaFree_solid : ∀ (x : Ht), mediaFreeL x.solid = mediaFree x
  | .text s => by
    rw [Ht.solid, show mediaFree (.text s) = true from rfl]
    induction s with
    | nil => rfl
    | cons c s ih =>
      rw [List.filter_cons]
      split
      · rw [List.map_cons, mediaFreeL, ih]; rfl
      · exact ih
  | .white s => rfl
  | .el tag attrs ch => by rw [Ht.solid, mediaFreeL, mediaFreeL, Bool.and_true, mediaFree, mediaFree, mediaFreeL_solid ch]
  | .void tag attrs => by rw [Ht.solid, mediaFreeL, mediaFreeL, Bool.and_true]
  | .bare tag attrs => rfl
theorem mediaFreeL_solid : ∀ (l : List Ht), mediaFreeL (solidL l) = mediaFreeL l
  | [] => rfl
  | x :: xs => by rw [solidL, mediaFreeL_append, mediaFree_solid x, mediaFreeL_solid xs, mediaFreeL]
end

mutual
theorem mild_piece {b : Bool} : ∀ (x : Ht) (c : Gr.Ctx), fine c x = true → x.fits = true → (b = true → mediaFree x = true) → ∀ {anc : List Str}, Suits c anc → ∀ {d : Int} {l : List El}
    {p : List Str × HInfo}, p ∈ contextsL anc (nodesL d (x.asRead.els l)) → p ∈ contextsL anc (nodesL d l) ∨ Mild b p.1 p.2
  | .text s, c, _, _, _, anc, _, d, l, p, h => by
    rw [Ht.asRead, Ht.els] at h
    exact contexts_chars s h
  | .white s, c, _, _, _, anc, _, d, l, p, h => by
    rw [Ht.asRead, Ht.els] at h
    exact contexts_chars s h
  | .el tag attrs ch, c, hf, hfit, hb, anc, ha, d, l, p, h => by
    obtain ⟨c', h1, h2, h3⟩ := fine_el_inv hf
    rw [Ht.fits, Bool.and_eq_true, Bool.and_eq_true] at hfit
    rw [← heldAttrs_names] at h1
    obtain ⟨i, d', anc', k1, k2, k3, k4, rfl⟩ := contexts_el h1 (fun e => by rw [e] at hfit; exact absurd hfit.1.1 (by decide))
      (b := b) (fun e => by have := hb e; rw [mediaFree, Bool.and_eq_true] at this; simpa using this.1) ha d (elsL (asReadL ch))
    rw [Ht.asRead, Ht.els, if_neg (fun e => (inside_nest h1).2.2.1 e.1), nodesL, k3, List.cons_append, List.nil_append, contextsL,
      List.mem_append, contexts, k4, if_neg (by decide), List.mem_cons] at h
    rcases h with (rfl | h) | h
    · exact .inr k2
    · exact .inr (mild_pieces ch c' h3 hfit.2 (fun e => by have := hb e; rw [mediaFree, Bool.and_eq_true] at this; exact this.2) k1 h)
    · exact .inl h
  | .void tag attrs, c, hf, _, hb, anc, _, d, l, p, h => by
    rw [fine, Bool.and_eq_true, ← heldAttrs_names] at hf
    have hl : leafKinds.contains tag = true := by
      rcases single_cases hf.1 with ⟨rfl, _⟩ | ⟨rfl, _⟩ | ⟨rfl, _⟩ <;> decide
    rw [Ht.asRead, Ht.els, nodesL, El.nodes, List.cons_append, List.nil_append, contextsL, List.mem_append, contexts, if_pos hl,
      List.mem_singleton] at h
    rcases h with rfl | h
    · exact .inr (mild_void hf.1 (fun e => by have := hb e; rw [mediaFree] at this; simpa using this) anc)
    · exact .inl h
  | .bare tag attrs, c, hf, _, _, anc, _, d, l, p, h => by rw [fine] at hf; cases hf
theorem mild_pieces {b : Bool} : ∀ (l : List Ht) (c : Gr.Ctx), fineL c l = true → fitsL l = true → (b = true → mediaFreeL l = true) → ∀ {anc : List Str}, Suits c anc → ∀ {d : Int}
    {p : List Str × HInfo}, p ∈ contextsL anc (nodesL d (elsL (asReadL l))) → Mild b p.1 p.2
  | [], _, _, _, _, anc, _, d, p, h => by
    rw [asReadL, elsL, nodesL, contextsL] at h
    cases h
  | x :: xs, c, hf, hfit, hb, anc, ha, d, p, h => by
    rw [fineL, Bool.and_eq_true] at hf
    rw [fitsL, Bool.and_eq_true] at hfit
    rw [asReadL, elsL] at h
    have hb : b = true → mediaFree x = true ∧ mediaFreeL xs = true := fun e => by have := hb e; rwa [mediaFreeL, Bool.and_eq_true] at this
    rcases mild_piece x c hf.1 hfit.1 (fun e => (hb e).1) ha h with h | h
    · exact mild_pieces xs c hf.2 hfit.2 (fun e => (hb e).2) ha h
    · exact h
end

/-! ## Preformatted text -/

theorem textHtml_amp : ∀ (s u v : Str), Cr.textHtml s = u ++ '&' :: v → ∃ n r, v = n ++ ';' :: r ∧ (n = c!"amp" ∨ n = c!"lt" ∨ n = c!"gt") := by
  intro s
  induction s with
  | nil =>
    intro u v h
    cases u <;> cases h
  | cons c s ih =>
    intro u v h
    have e : Cr.textHtml (c :: s) = Cr.textChar c ++ Cr.textHtml s := by unfold Cr.textHtml; rw [List.flatMap_cons]
    rw [e] at h
    have key : ∀ n : Str, (n = c!"amp" ∨ n = c!"lt" ∨ n = c!"gt") → ('&' :: n ++ c!";") ++ Cr.textHtml s = u ++ '&' :: v →
        ∃ n r, v = n ++ ';' :: r ∧ (n = c!"amp" ∨ n = c!"lt" ∨ n = c!"gt") := by
      intro n hn h
      cases u with
      | nil =>
        refine ⟨n, Cr.textHtml s, ?_, hn⟩
        have := (List.cons.inj h).2
        rw [← this]; simp
      | cons x u =>
        have h2 : (n ++ c!";") ++ Cr.textHtml s = u ++ '&' :: v := (List.cons.inj h).2
        rcases List.append_eq_append_iff.1 h2 with ⟨t, h3, h4⟩ | ⟨t, h3, h4⟩
        · exact ih t v h4
        · cases t with
          | nil => exact ih [] v (by simpa using h4.symm)
          | cons y t =>
            exfalso
            have hy : y = '&' := (List.cons.inj h4).1.symm
            have : '&' ∈ n ++ c!";" := by rw [h3, hy]; simp
            rcases hn with rfl | rfl | rfl <;> revert this <;> decide
    unfold Cr.textChar at h
    split at h
    · exact key c!"amp" (by simp) h
    · split at h
      · exact key c!"lt" (by simp) h
      · split at h
        · exact key c!"gt" (by simp) h
        · rename_i hc _ _
          cases u with
          | nil => exact absurd (List.cons.inj h).1 hc
          | cons x u => exact ih u v (List.cons.inj h).2

theorem textHtml_lt (s : Str) : '<' ∉ Cr.textHtml s := by
  unfold Cr.textHtml
  rw [List.mem_flatMap]
  rintro ⟨c, _, h⟩
  unfold Cr.textChar at h
  repeat' split at h
  all_goals first
    | exact absurd h (by decide)
    | (rw [List.mem_singleton] at h; exact absurd h.symm ‹_›)

/-- the text of a preformatted area has no reference that cannot be decoded -/
theorem textHtml_refs {s t before ref rest : Str} {e : PyErr} (ht : t <:+ Cr.textHtml s) (h : t = before ++ ref ++ rest) :
    ¬ Props.BadRef ref e := by
  intro hb
  obtain ⟨u, hu⟩ := ht
  rw [h] at hu
  have key : ∀ v, ref = '&' :: v → ∃ n r, v ++ rest = n ++ ';' :: r ∧ (n = c!"amp" ∨ n = c!"lt" ∨ n = c!"gt") := by
    intro v hv
    rw [hv] at hu
    exact textHtml_amp s (u ++ before) (v ++ rest) (by rw [← hu]; simp)
  cases hb with
  | named w hw hl =>
    obtain ⟨n, r, h1, h2⟩ := key (w ++ c!";") rfl
    have hn : ∀ c ∈ n, c.isAlpha = true := by rcases h2 with rfl | rfl | rfl <;> decide
    have hsemi : Char.isAlpha ';' = false := by decide
    have hwn : w = n := by
      have a1 : (w ++ c!";" ++ rest).takeWhile Char.isAlpha = w := by
        rw [List.append_assoc, List.takeWhile_append_of_pos hw]
        simp [hsemi]
      have a2 : (n ++ ';' :: r).takeWhile Char.isAlpha = n := by
        rw [List.takeWhile_append_of_pos hn]
        simp [hsemi]
      rw [h1, a2] at a1
      exact a1.symm
    subst hwn
    rcases h2 with rfl | rfl | rfl <;> exact absurd hl (by decide +kernel)
  | number ds e hd _ =>
    obtain ⟨n, r, h1, h2⟩ := key ('#' :: ds ++ c!";") rfl
    rcases h2 with rfl | rfl | rfl <;> exact absurd (List.cons.inj h1).1 (by decide)
  | hex hs e _ _ =>
    obtain ⟨n, r, h1, h2⟩ := key ('#' :: 'x' :: hs ++ c!";") rfl
    rcases h2 with rfl | rfl | rfl <;> exact absurd (List.cons.inj h1).1 (by decide)

/-- What can go wrong with a mild node. -/
theorem Mild.fault {b : Bool} {cfg : Emit.Cfg} {all : List HInfo} {anc : List Str} {i : HInfo} {e : PyErr} (h : Mild b anc i)
    (hf : Fault cfg all anc i e) :
    cfg.policy = .raise ∧ e = .notImplementedError ∧ i.kind ∉ knownKinds cfg.lang ∨
    cfg.lang = .markdown ∧ e = .valueError ∧ (∃ u, (i.kind = c!"a" ∧ dictGet c!"href" i.attrs = some (some u) ∨
      i.kind = c!"img" ∧ dictGet c!"src" i.attrs = some (some u)) ∧ BadUrl cfg.netlocOk u) ∨
    cfg.lang = .rest ∧ e = .html2rest := by
  cases hf with
  | unknown h1 h2 => exact .inl ⟨h1, rfl, h2⟩
  | data h1 h2 => exact absurd h2 (h.data h1)
  | charref e h1 _ => exact absurd h1 h.charref
  | pre t before ref rest e h1 h2 h3 h4 =>
    obtain ⟨t', s, h5, h6⟩ := h.pre h1
    rw [h2] at h5
    cases h5
    exact absurd h4 (textHtml_refs h6 h3)
  | noPre e h1 h2 =>
    obtain ⟨t', s, h5, h6⟩ := h.pre h1
    rw [h2] at h5
    cases h5
  | code t e h1 h2 h3 h4 =>
    obtain ⟨t', s, h5, h6⟩ := h.pre (.inr h2)
    rw [h3] at h5
    cases h5
    have : '<' ∈ c!"</code>" := by decide
    exact absurd (h6.subset (h4.subset this)) (textHtml_lt s)
  | level h1 h2 =>
    rcases h1 with h1 | h1
    · obtain ⟨n, h3, _⟩ := h.headline h1
      rw [h2] at h3; cases h3
    · exact absurd h2 (h.item h1.1).1
  | smallLevel n h1 h2 h3 h4 =>
    obtain ⟨m, h5, h6⟩ := h.headline h2
    rw [h3] at h5; cases h5
    omega
  | item p ps h1 h2 h3 h4 h5 =>
    obtain ⟨_, p', ps', h6, h7⟩ := h.item h2
    rw [h3] at h6
    cases h6
    rcases h7 with h7 | h7
    · exact absurd h7 h4
    · exact absurd h7 h5
  | rootItem h1 h2 h3 =>
    obtain ⟨_, p', ps', h6, h7⟩ := h.item h2
    rw [h3] at h6
    cases h6
  | noHref h1 h2 h3 =>
    obtain ⟨u, h4⟩ := h.link h2
    rw [h3] at h4; cases h4
  | noSrc h1 h2 =>
    obtain ⟨u, t, a, h3, h4, h5⟩ := h.picture h1
    rw [h2] at h3; cases h3
  | emptySrc h1 h2 h6 =>
    obtain ⟨u, t, a, h3, h4, h5⟩ := h.picture h2
    rw [h6] at h3; cases h3
  | emptyText h1 h2 h6 =>
    obtain ⟨u, t, a, h3, h4, h5⟩ := h.picture h2
    rcases h6 with h6 | h6
    · rw [h6] at h5; cases h5
    · rw [h6] at h4; cases h4
  | url u h1 h2 h3 => exact .inr (.inl ⟨h1, rfl, u, h2, h3⟩)
  | twoTargets u v j h1 => exact .inr (.inr ⟨h1, rfl⟩)
  | twoPictures u v j h1 => exact .inr (.inr ⟨h1, rfl⟩)
  | cell h1 h2 => exact absurd (h.cell h1) h2

theorem unlead_suffix (s : Str) : unlead s <:+ s := by
  induction s with
  | nil => exact List.suffix_refl _
  | cons c s ih =>
    rw [unlead]
    split
    · exact ih.trans (List.suffix_cons _ _)
    · exact List.suffix_refl _

/-- the nodes of areas and of what follows them -/
theorem mild_areas {b : Bool} {anc : List Str} {line : Bool} {l : List Pre} {nodes : List HNode} (h : ReadAs line l nodes)
    (hl : ∀ a ∈ l, fineL .doc a.after = true ∧ fitsL a.after = true ∧ (b = true → mediaFreeL a.after = true)) :
    ∀ p ∈ contextsL anc nodes, Mild b p.1 p.2 := by
  induction h with
  | nil => intro p hp; rw [contextsL] at hp; cases hp
  | cons line a l after nodes h1 h2 h3 ih =>
    intro p hp
    rw [contextsL, contextsL_append, List.mem_append, List.mem_append] at hp
    rcases hp with hp | hp | hp
    · have : p.1 = anc ∧ (p.2.kind = c!"blockdata_pre" ∨ p.2.kind = c!"inlinedata_pre") ∧ ∃ t, p.2.content = some t ∧ t <:+ Cr.textHtml a.text := by
        unfold preNode at hp
        split at hp
        · rw [contexts, if_pos (show leafKinds.contains c!"blockdata_pre" = true by decide), List.mem_singleton] at hp
          subst hp
          exact ⟨rfl, .inl rfl, _, rfl, unlead_suffix _⟩
        · rw [contexts, if_pos (show leafKinds.contains c!"inlinedata_pre" = true by decide), List.mem_singleton] at hp
          subst hp
          exact ⟨rfl, .inr rfl, _, rfl, List.suffix_refl _⟩
      obtain ⟨_, hk, t, ht, hs⟩ := this
      rcases hk with hk | hk
      all_goals
        apply Mild.of_kind _ hk
        all_goals first
          | exact fun e => absurd e (by decide)
          | decide
          | exact fun _ => by decide
          | exact fun _ => ⟨t, a.text, ht, hs⟩
    · obtain ⟨h4, h5, h6⟩ := hl a (by simp)
      exact mild_pieces after .doc (by rw [fine_same h1 h2 h5]; exact h4) h2
        (fun e => by rw [← mediaFreeL_solid, h1, mediaFreeL_solid]; exact h6 e) (Suits.any (by decide)) hp
    · exact ih (fun a ha => hl a (by simp [ha])) p hp

/-! ## Areas among other pieces -/

/-- the text of a preformatted area -/
def preText : Ht → Option Str
  | .el tag [] [.text s] => if tag = c!"pre" then some s else none
  | _ => none

/-- a document divided at its preformatted areas -/
def divide : List Ht → List Ht × List Pre
  | [] => ([], [])
  | x :: xs =>
    match preText x with
    | some s => ([], ⟨s, (divide xs).1⟩ :: (divide xs).2)
    | none => (x :: (divide xs).1, (divide xs).2)

theorem preText_some {x : Ht} {s : Str} (h : preText x = some s) : x = .el c!"pre" [] [.text s] := by
  unfold preText at h
  split at h
  · split at h
    · subst_vars; cases h; rfl
    · cases h
  · cases h

theorem divide_written : ∀ (l : List Ht), written l = written (divide l).1 ++ presWritten (divide l).2
  | [] => rfl
  | x :: xs => by
    rw [written, divide, divide_written xs]
    cases h : preText x with
    | none => simp only [written, List.append_assoc]
    | some s =>
      rw [preText_some h]
      simp [written, presWritten, Ht.print, tagStart]

theorem divide_fine : ∀ (l : List Ht), fineL .doc l = true → fineL .doc (divide l).1 = true ∧ ∀ a ∈ (divide l).2, fineL .doc a.after = true
  | [], _ => by simp [divide, fineL]
  | x :: xs, h => by
    rw [fineL, Bool.and_eq_true] at h
    obtain ⟨h1, h2⟩ := divide_fine xs h.2
    rw [divide]
    cases hx : preText x with
    | none => exact ⟨by simp only [fineL]; rw [h.1, h1]; rfl, h2⟩
    | some s =>
      refine ⟨by simp [fineL], ?_⟩
      intro a ha
      rcases List.mem_cons.1 ha with rfl | ha
      · exact h1
      · exact h2 a ha

theorem divide_mediaFree : ∀ (l : List Ht), mediaFreeL l = true →
    mediaFreeL (divide l).1 = true ∧ ∀ a ∈ (divide l).2, mediaFreeL a.after = true
  | [], _ => by simp [divide, mediaFreeL]
  | x :: xs, h => by
    rw [mediaFreeL, Bool.and_eq_true] at h
    obtain ⟨h1, h2⟩ := divide_mediaFree xs h.2
    rw [divide]
    cases hx : preText x with
    | none => exact ⟨by simp only [mediaFreeL]; rw [h.1, h1]; rfl, h2⟩
    | some s =>
      refine ⟨by simp [mediaFreeL], ?_⟩
      intro a ha
      rcases List.mem_cons.1 ha with rfl | ha
      · exact h1
      · exact h2 a ha

/-- a piece that is either no preformatted text or a complete area -/
def areaOk (x : Ht) : Bool := notPre x || (preText x).any fun s => s.head? == some '\n' && s.getLast? == some '\n'

/-- what follows an area -/
def followed : List Ht → Bool
  | .white ['\n'] :: _ => true
  | _ => false

/-- every area is followed by a line break; the last one need not be so if it is the end -/
def preLines : List Ht → Bool
  | [] => true
  | x :: xs => areaOk x && (notPre x || xs.isEmpty || followed xs) && preLines xs

theorem divide_notPre : ∀ (l : List Ht), preLines l = true →
    (∀ x ∈ (divide l).1, notPre x = true) ∧ ∀ a ∈ (divide l).2, (a.text.head? = some '\n' ∧ a.text.getLast? = some '\n') ∧
      ∀ x ∈ a.after, notPre x = true
  | [], _ => by simp [divide]
  | x :: xs, h => by
    rw [preLines, Bool.and_eq_true, Bool.and_eq_true] at h
    obtain ⟨h1, h2⟩ := divide_notPre xs h.2
    rw [divide]
    cases hx : preText x with
    | none =>
      have hn : notPre x = true := by
        have := h.1.1
        rw [areaOk, hx] at this
        simpa using this
      refine ⟨?_, h2⟩
      intro y hy
      rcases List.mem_cons.1 hy with rfl | hy
      · exact hn
      · exact h1 y hy
    | some s =>
      refine ⟨by simp, ?_⟩
      intro a ha
      rcases List.mem_cons.1 ha with rfl | ha
      · refine ⟨?_, h1⟩
        have := h.1.1
        rw [areaOk, hx, preText_some hx] at this
        simpa [notPre] using this
      · exact h2 a ha

theorem divide_ok : ∀ (l : List Ht), preLines l = true → fineL .doc l = true → presOk (divide l).2 = true
  | [], _, _ => rfl
  | x :: xs, h, hf => by
    have hn := divide_notPre (x :: xs) h
    have hd := divide_fine (x :: xs) hf
    rw [preLines, Bool.and_eq_true, Bool.and_eq_true] at h
    rw [fineL, Bool.and_eq_true] at hf
    have ih := divide_ok xs h.2 hf.2
    rw [divide] at hn hd ⊢
    cases hx : preText x with
    | none => exact ih
    | some s =>
      rw [hx] at hn hd
      have hok : (Pre.mk s (divide xs).1).ok = true := by
        obtain ⟨h1, h2⟩ := hn.2 ⟨s, (divide xs).1⟩ (by simp)
        have h3 := fineL_fits _ .doc (hd.2 ⟨s, (divide xs).1⟩ (by simp)) fun _ => h2
        simp [Pre.ok, h1.1, h1.2, h3]
      have hfl : xs = [] ∨ breaksFirst (written (divide xs).1) = true := by
        have h4 := h.1.2
        have : notPre x = false := by rw [preText_some hx]; rfl
        rw [this, Bool.false_or, Bool.or_eq_true] at h4
        rcases h4 with h4 | h4
        · exact .inl (by simpa using h4)
        · unfold followed at h4
          split at h4
          · refine .inr ?_
            rw [divide, show preText (.white ['\n']) = none from rfl]
            simp only [written, Ht.print]
            have hs : isSpace '\n' = true := by decide
            simp [breaksFirst, hs]
          · cases h4
      cases hp : (divide xs).2 with
      | nil =>
        simp only [presOk, hok, Bool.true_and]
        rcases hfl with rfl | hfl
        · simp [divide, written]
        · rw [hfl]; rfl
      | cons b l =>
        simp only [presOk, hok, Bool.true_and]
        rw [hp] at ih
        rcases hfl with rfl | hfl
        · simp [divide] at hp
        · rw [hfl, ih]; rfl

theorem presWritten_length (l : List Pre) : l.length ≤ (presWritten l).length := by
  induction l with
  | nil => exact Nat.le_refl _
  | cons a l ih =>
    have e : presWritten (a :: l) = c!"<pre>" ++ Cr.textHtml a.text ++ c!"</pre>" ++ written a.after ++ presWritten l := by rw [presWritten]
    rw [e]
    simp only [List.length_append, List.length_cons, List.length_nil]
    omega

/-- how a structured document is read: the tree, and that all nodes are mild -/
theorem parse_structured {l : List Ht} (hf : fineL .doc l = true) (hp : preLines l = true)
    (hlen : (written l).length ≤ 10 ^ maxIntDigits) :
    ∃ root first nodes, parseHtml (written l) = .ok root ∧ root = .mk { kind := c!"document" } (nodesL 0 (elsL (asReadL first)) ++ nodes) ∧
      SameSolid first (divide l).1 ∧ fitsL first = true ∧ ReadAs (firstLine (written (divide l).1)) (divide l).2 nodes ∧
      ∀ b : Bool, (b = true → mediaFreeL l = true) → ∀ p ∈ contexts [] root, Mild b p.1 p.2 := by
  obtain ⟨f1, f2⟩ := divide_fine l hf
  obtain ⟨n1, n2⟩ := divide_notPre l hp
  have hok := divide_ok l hp hf
  have hfit := fineL_fits _ .doc f1 fun _ => n1
  have hw : ∀ x : List Ht, fineL .doc x = true → wfL true (elsL x) = true := by
    intro x hx
    rw [wf_nestL]
    exact fineL_nest x .doc true hx fun _ => rfl
  have hcount : (divide l).2.length ≤ 10 ^ maxIntDigits := by
    refine Nat.le_trans (presWritten_length _) (Nat.le_trans ?_ hlen)
    rw [divide_written l, List.length_append]
    omega
  obtain ⟨first', nodes, h1, h2, h3, h4⟩ := Props.C79_areas_read (divide l).1 (divide l).2 hfit hok hcount (hw _ f1)
    (fun a ha => hw _ (f2 a ha))
  refine ⟨_, first', nodes, by rw [divide_written l]; exact h4, rfl, h1, h2, h3, ?_⟩
  intro b hb p hq
  rw [contexts, if_neg (by decide), List.mem_cons, contextsL_append, List.mem_append] at hq
  rcases hq with rfl | hq | hq
  · exact mild_quiet c!"document" rfl (by decide)
  · exact mild_pieces first' .doc (by rw [fine_same h1 h2 hfit]; exact f1) h2
      (fun e => by rw [← mediaFreeL_solid, h1, mediaFreeL_solid]; exact (divide_mediaFree l (hb e)).1) (Suits.any (by decide)) hq
  · refine mild_areas h3 (fun a ha => ⟨f2 a ha, fineL_fits _ .doc (f2 a ha) fun _ => (n2 a ha).2,
      fun e => (divide_mediaFree l (hb e)).2 a ha⟩) p hq

end Verif.Html
