import Verif.Creole.Parser

/-!
# The set of the used macros

The parser notes the name of a macro together with each node of a macro, so the names are those of the nodes of the tree, in
their order.
-/

namespace Verif.Creole

open Verif

/-- the kinds of nodes whose children are emitted -/
def isInner : Kind → Bool
  | .text | .brk | .header | .image | .line | .separator | .pre_block | .pre_inline | .macro_inline | .macro_block => false
  | _ => true

mutual
/-- the names of the macros in a node, in the order of the document -/
def Node.macNames : Node → List Str
  | .mk i cs => if i.kind = .macro_inline ∨ i.kind = .macro_block then [i.macroName] else if isInner i.kind then macNamesL cs else []
def macNamesL : List Node → List Str
  | [] => []
  | n :: ns => n.macNames ++ macNamesL ns
end

theorem macNamesL_append (a b : List Node) : macNamesL (a ++ b) = macNamesL a ++ macNamesL b := by
  induction a with
  | nil => simp [macNamesL]
  | cons n a ih => simp [macNamesL, ih]

/-- the names under the frames of a zipper -/
def upNames : List Frame → List Str
  | [] => []
  | f :: up => upNames up ++ macNamesL f.children

/-- all names so far -/
def PS.macNames (st : PS) : List Str := upNames st.up ++ macNamesL st.cur.children

/-- the cursor is at a node whose children are emitted, and so are its ancestors; the names are those in the tree -/
structure Noted (st : PS) : Prop where
  used : st.used.reverse = st.macNames
  cur : isInner st.cur.kind = true
  up : ∀ f ∈ st.up, isInner f.kind = true

theorem macNames_close {f : Frame} (h : isInner f.kind = true) : f.close.macNames = macNamesL f.children := by
  unfold Frame.close Node.macNames
  unfold Frame.kind at h
  rw [if_neg, if_pos h]
  rintro (e | e) <;> (rw [e] at h; cases h)

/-- the pair of a cursor and its ancestors -/
structure NotedAt (w : List Str) (f : Frame) (up : List Frame) : Prop where
  used : w = upNames up ++ macNamesL f.children
  cur : isInner f.kind = true
  up : ∀ f ∈ up, isInner f.kind = true

theorem Noted.at {st : PS} (h : Noted st) : NotedAt st.used.reverse st.cur st.up := ⟨h.used, h.cur, h.up⟩

theorem NotedAt.step {w : List Str} {f p : Frame} {up : List Frame} (h : NotedAt w f (p :: up)) : NotedAt w (p.add f.close) up := by
  refine ⟨?_, h.up p (by simp), fun g hg => h.up g (by simp [hg])⟩
  rw [h.used, Frame.add, macNamesL_append, upNames]
  simp [macNamesL, macNames_close h.cur]

theorem climb_noted {w : List Str} (stop : Kind → Bool) : ∀ {up : List Frame} {f : Frame}, NotedAt w f up →
    NotedAt w (climb stop f up).1 (climb stop f up).2
  | [], f, h => h
  | p :: up, f, h => by
    unfold climb
    split
    · exact h
    · exact climb_noted stop h.step

theorem popToAux_noted {w : List Str} {n : Nat} : ∀ {up : List Frame} {f : Frame} {r : Frame × List Frame}, NotedAt w f up →
    popToAux n f up = some r → NotedAt w r.1 r.2
  | [], f, r, h, he => by
    unfold popToAux at he
    split at he
    · cases he; exact h
    · cases he
  | p :: up, f, r, h, he => by
    unfold popToAux at he
    split at he
    · cases he; exact h
    · exact popToAux_noted h.step he

theorem findList_noted {w : List Str} {l : Nat} : ∀ {up : List Frame} {f : Frame} {r : Frame × List Frame}, NotedAt w f up →
    findList l f up = some r → NotedAt w r.1 r.2
  | [], f, r, h, he => by
    unfold findList at he
    split at he
    · cases he; exact h
    · cases he
  | p :: up, f, r, h, he => by
    unfold findList at he
    split at he
    · cases he; exact h
    · exact findList_noted h.step he

variable {st st' : PS}

theorem Noted.noText (h : Noted st) : Noted st.noText := ⟨h.used, h.cur, h.up⟩

theorem Noted.setText (h : Noted st) (b : Bool) : Noted { st with text := b } := ⟨h.used, h.cur, h.up⟩

theorem Noted.addNode (h : Noted st) {n : Node} (hn : n.macNames = []) : Noted (st.addNode n) := by
  refine ⟨?_, h.cur, h.up⟩
  rw [show (st.addNode n).used = st.used from rfl, h.used]
  simp [PS.macNames, PS.addNode, Frame.add, macNamesL_append, macNamesL, hn]

theorem Noted.leaf (h : Noted st) {i : Info} (hi : isInner i.kind = false) (hm : i.kind ≠ .macro_inline ∧ i.kind ≠ .macro_block) :
    Noted (st.leaf i) :=
  h.addNode (by simp [Node.macNames, hi, hm.1, hm.2])

theorem Noted.push (h : Noted st) {i : Info} (hi : isInner i.kind = true) : Noted (st.push i) := by
  refine ⟨?_, hi, ?_⟩
  · rw [show (st.push i).used = st.used from rfl, h.used]
    simp [PS.macNames, PS.push, upNames, macNamesL]
  · intro f hf
    simp only [PS.push, List.mem_cons] at hf
    rcases hf with rfl | hf
    · exact h.cur
    · exact h.up f hf

theorem Noted.cleanupBreak (h : Noted st) : Noted st.cleanupBreak := by
  unfold PS.cleanupBreak
  split
  · rename_i n hn
    split
    · rename_i hk
      refine ⟨?_, h.cur, h.up⟩
      have e : st.cur.children = st.cur.children.dropLast ++ [n] := by
        rw [List.getLast?_eq_some_iff] at hn
        obtain ⟨ys, hy⟩ := hn
        rw [hy, List.dropLast_concat]
      have : n.macNames = [] := by
        obtain ⟨i, cs⟩ := n
        simp only [Node.kind, Node.info] at hk
        simp [Node.macNames, hk, isInner]
      show st.used.reverse = _
      rw [h.used]
      unfold PS.macNames
      rw [e, macNamesL_append]
      simp [macNamesL, this]
    · exact h
  · exact h

theorem Noted.climb (h : Noted st) (stop : Kind → Bool) :
    Noted { st with cur := (climb stop st.cur st.up).1, up := (climb stop st.cur st.up).2 } := by
  have := climb_noted stop h.at
  exact ⟨this.used, this.cur, this.up⟩

theorem Noted.upto (h : Noted st) (stop : Kind → Bool) : Noted (st.upto stop) := h.cleanupBreak.climb stop

theorem Noted.uptoBlock (h : Noted st) : Noted st.uptoBlock := h.upto _

theorem Noted.pop (h : Noted st) (hr : st.pop = .ok st') : Noted st' := by
  unfold PS.pop at hr
  split at hr
  · cases hr
  · rename_i p up hu
    cases hr
    have := h.at
    rw [hu] at this
    have := this.step
    exact ⟨this.used, this.cur, this.up⟩

theorem Noted.popTo {n : Nat} (h : Noted st) (hr : st.popTo n = .ok st') : Noted st' := by
  unfold PS.popTo at hr
  split at hr
  · cases hr
  · rename_i f up hu
    cases hr
    have := popToAux_noted h.at hu
    exact ⟨this.used, this.cur, this.up⟩

theorem Noted.checkText (h : Noted st) (hr : st.checkText = .ok st') : Noted st' := by
  unfold PS.checkText at hr
  split at hr
  · cases hr
  · cases hr; exact h

theorem Noted.appendText {s : Str} (h : Noted st) (hr : st.appendText s = .ok st') : Noted st' := by
  unfold PS.appendText at hr
  split at hr
  · rename_i i cs hn
    cases hr
    refine ⟨?_, h.cur, h.up⟩
    have e : st.cur.children = st.cur.children.dropLast ++ [.mk i cs] := by
      rw [List.getLast?_eq_some_iff] at hn
      obtain ⟨ys, hy⟩ := hn
      rw [hy, List.dropLast_concat]
    show st.used.reverse = _
    rw [h.used]
    unfold PS.macNames
    conv => lhs; rw [e]
    rw [macNamesL_append]
    simp only [macNamesL_append, macNamesL, Node.macNames]
  · cases hr

theorem Noted.addChars {s : Str} (h : Noted st) (hr : st.addChars s = .ok st') : Noted st' := by
  unfold PS.addChars at hr
  simp only at hr
  split at hr
  · exact h.appendText hr
  · exact ((h.leaf (i := { kind := .text, content := some [] }) rfl (by simp)).setText true).appendText hr

/-- the handler notes what it adds to the tree -/
def Notes (r : PS → PM) : Prop := ∀ st st', Noted st → r st = .ok st' → Noted st'

theorem bind_ok {α β : Type} {x : Except PyErr α} {f : α → Except PyErr β} {b : β} (h : (x >>= f) = .ok b) :
    ∃ a, x = .ok a ∧ f a = .ok b := by
  cases x with
  | error e => cases h
  | ok a => exact ⟨a, rfl, h⟩

theorem Notes.urlRepl (m : Match G) : Notes (urlRepl m) := by
  intro st st' h hr
  unfold Creole.urlRepl at hr
  split at hr
  · obtain ⟨t, _, hr⟩ := bind_ok hr
    cases hr
    exact (h.addNode (by simp [Node.macNames, macNamesL, isInner])).noText
  · obtain ⟨t, _, hr⟩ := bind_ok hr
    exact h.addChars hr

theorem Notes.addMacro {k : Kind} (hk : k = .macro_inline ∨ k = .macro_block) (nk ak : G) (tk : Option G) (m : Match G) :
    Notes (addMacro k nk ak tk m) := by
  intro st st' h hr
  have key : ∀ (t : Option Str), (do
      let name ← need m nk
      let args ← need m ak
      return { st.leaf { kind := k, content := t, macroName := name, macroArgs := Py.strip args } with
        used := name :: st.used, text := false } : PM) = .ok st' → Noted st' := by
    intro t hr
    obtain ⟨n, _, hr⟩ := bind_ok hr
    obtain ⟨a, _, hr⟩ := bind_ok hr
    cases hr
    refine ⟨?_, h.cur, h.up⟩
    show (n :: st.used).reverse = _
    rw [List.reverse_cons, h.used]
    simp [PS.macNames, PS.leaf, Frame.add, macNamesL_append, macNamesL, Node.macNames, hk]
  unfold Creole.addMacro at hr
  simp only at hr
  split at hr
  · obtain ⟨t, _, hr⟩ := bind_ok hr
    exact key _ hr
  · exact key _ hr

theorem Notes.imageRepl (m : Match G) : Notes (imageRepl m) := by
  intro st st' h hr
  unfold Creole.imageRepl at hr
  obtain ⟨t, _, hr⟩ := bind_ok hr
  cases hr
  exact (h.addNode (by simp [Node.macNames, isInner])).noText

theorem Notes.preInlineRepl (m : Match G) : Notes (preInlineRepl m) := by
  intro st st' h hr
  unfold Creole.preInlineRepl at hr
  obtain ⟨t, _, hr⟩ := bind_ok hr
  cases hr
  exact (h.leaf rfl (by simp)).noText

theorem Notes.linebreakRepl : Notes linebreakRepl := by
  intro st st' h hr
  cases hr
  exact (h.leaf rfl (by simp)).noText

theorem Notes.escapeRepl (m : Match G) : Notes (escapeRepl m) := by
  intro st st' h hr
  unfold Creole.escapeRepl at hr
  obtain ⟨t, _, hr⟩ := bind_ok hr
  exact h.addChars hr

theorem Notes.charRepl (m : Match G) : Notes (charRepl m) := by
  intro st st' h hr
  unfold Creole.charRepl at hr
  obtain ⟨t, _, hr⟩ := bind_ok hr
  exact h.addChars hr

theorem Notes.macroTagRepl (m : Match G) : Notes (macroTagRepl m) := Notes.addMacro (.inl rfl) _ _ _ m

theorem Notes.macroInlineRepl (m : Match G) : Notes (macroInlineRepl m) := Notes.addMacro (.inl rfl) _ _ _ m

theorem Notes.leafRepl (g : G) (m : Match G) : Notes (leafRepl g m) := by
  intro st st' h hr
  unfold Creole.leafRepl at hr
  split at hr <;> first
    | exact Notes.urlRepl m _ _ h hr
    | exact Notes.macroTagRepl m _ _ h hr
    | exact Notes.macroInlineRepl m _ _ h hr
    | exact Notes.imageRepl m _ _ h hr
    | exact Notes.preInlineRepl m _ _ h hr
    | exact Notes.linebreakRepl _ _ h hr
    | exact Notes.escapeRepl m _ _ h hr
    | exact Notes.charRepl m _ _ h hr
    | cases hr

theorem foldlM_noted {α : Type} {f : PS → α → PM} (hf : ∀ x, Notes fun st => f st x) : ∀ (l : List α), Notes fun st => l.foldlM f st
  | [], st, st', h, hr => by cases hr; exact h
  | x :: l, st, st', h, hr => by
    simp only [List.foldlM_cons] at hr
    obtain ⟨st1, h1, h2⟩ := bind_ok hr
    exact foldlM_noted hf l _ _ (hf x _ _ h h1) h2

theorem Notes.subAll {r : R} {hd : G → Match G → PS → PM} (hh : ∀ g m, Notes (hd g m)) (raw : Str) : Notes (subAll r hd raw) := by
  unfold Creole.subAll
  refine foldlM_noted (fun m => ?_) _
  intro st st' h hr
  dsimp only at hr
  split at hr
  · exact hh _ _ _ _ h hr
  · cases hr; exact h

theorem Notes.linkRepl (m : Match G) : Notes (linkRepl m) := by
  intro st st' h hr
  unfold Creole.linkRepl at hr
  obtain ⟨t, _, hr⟩ := bind_ok hr
  simp only at hr
  obtain ⟨st1, h1, hr⟩ := bind_ok hr
  obtain ⟨st2, h2, hr⟩ := bind_ok hr
  cases hr
  exact ((Notes.subAll Notes.leafRepl _ _ _ (h.push rfl).noText h1).popTo h2).noText

theorem Notes.inlineMark {pi : Str → PS → PM} (hp : ∀ s, Notes (pi s)) {k : Kind} (hk : isInner k = true) (g : G) (m : Match G) :
    Notes (inlineMark pi k g m) := by
  intro st st' h hr
  unfold Creole.inlineMark at hr
  simp only at hr
  obtain ⟨t, _, hr⟩ := bind_ok hr
  obtain ⟨st1, h1, hr⟩ := bind_ok hr
  obtain ⟨st2, h2, hr⟩ := bind_ok hr
  cases hr
  exact (((hp _ _ _ (h.push (i := { kind := k }) hk).noText h1).upto _).pop h2).noText

theorem Notes.inlineRepl {pi : Str → PS → PM} (hp : ∀ s, Notes (pi s)) (g : G) (m : Match G) : Notes (inlineRepl pi g m) := by
  intro st st' h hr
  unfold Creole.inlineRepl at hr
  split at hr <;> first
    | exact Notes.linkRepl m _ _ h hr
    | exact Notes.inlineMark hp rfl _ m _ _ h hr
    | exact Notes.leafRepl _ m _ _ h hr

theorem Notes.parseInlineN : ∀ (n : Nat) (raw : Str), Notes (parseInlineN n raw)
  | 0, raw => by intro st st' h hr; cases hr
  | n + 1, raw => by
    show Notes (Creole.subAll inlineRe (Creole.inlineRepl (Creole.parseInlineN n)) raw)
    exact Notes.subAll (Notes.inlineRepl (Notes.parseInlineN n)) raw

theorem Notes.parseInline (raw : Str) : Notes (parseInline raw) := Notes.parseInlineN _ _

theorem Noted.ite {c : Prop} [Decidable c] {a b : PS} (ha : Noted a) (hb : Noted b) : Noted (if c then a else b) := by
  split
  · exact ha
  · exact hb

theorem Notes.textRepl (m : Match G) : Notes (textRepl m) := by
  intro st st' h hr
  unfold Creole.textRepl at hr
  obtain ⟨st1, h1, hr⟩ := bind_ok hr
  simp only at hr
  obtain ⟨t, _, hr⟩ := bind_ok hr
  obtain ⟨st2, h2, hr⟩ := bind_ok hr
  cases hr
  have g1 := h.checkText h1
  have g2 := Noted.ite (c := (st1.cur.kind = .table || st1.cur.kind = .table_row || st1.cur.kind = .bullet_list ||
      st1.cur.kind = .number_list) = true) g1.uptoBlock g1
  have g3 := Notes.parseInline _ _ _ (Noted.ite (g2.push (i := { kind := .paragraph }) rfl) g2) h2
  exact (Noted.ite (g3.leaf rfl (by simp)) g3).noText

theorem Notes.itemRepl (m : Match G) : Notes (itemRepl m) := by
  intro st st' h hr
  unfold Creole.itemRepl at hr
  obtain ⟨st1, h1, hr⟩ := bind_ok hr
  obtain ⟨b, _, hr⟩ := bind_ok hr
  obtain ⟨t, _, hr⟩ := bind_ok hr
  have g1 := h.checkText h1
  split at hr
  · cases hr
  · rename_i b _
    simp only at hr
    obtain ⟨st2, h2, hr⟩ := bind_ok hr
    cases hr
    refine (Notes.parseInline _ _ _ (Noted.push ?_ rfl) h2).noText
    have hi : isInner (if b = '#' then Kind.number_list else Kind.bullet_list) = true := by split <;> rfl
    generalize (if b = '#' then Kind.number_list else Kind.bullet_list) = k at hi ⊢
    cases hf : findList _ st1.cur st1.up with
    | none => exact (g1.upto _).push (i := { kind := k, level := _ }) hi
    | some r =>
      obtain ⟨f, up⟩ := r
      have := findList_noted g1.at hf
      exact Noted.ite ⟨this.used, this.cur, this.up⟩ ((g1.upto _).push (i := { kind := k, level := _ }) hi)

theorem Notes.cellRepl (m : Match G) : Notes fun st => cellRepl st m := by
  intro st st' h hr
  unfold Creole.cellRepl at hr
  simp only at hr
  split at hr
  · obtain ⟨st1, h1, hr⟩ := bind_ok hr
    obtain ⟨st2, h2, hr⟩ := bind_ok hr
    cases hr
    exact ((Notes.parseInline _ _ _ (h.push rfl).noText h1).popTo h2).noText
  · obtain ⟨t, _, hr⟩ := bind_ok hr
    obtain ⟨st1, h1, hr⟩ := bind_ok hr
    obtain ⟨st2, h2, hr⟩ := bind_ok hr
    cases hr
    exact ((Notes.parseInline _ _ _ (((h.push (i := { kind := .table_head }) rfl).leaf (i := { kind := .text, content := some [] }) rfl
      (by simp)).setText true) h1).popTo h2).noText

theorem Notes.tableRepl (m : Match G) : Notes (tableRepl m) := by
  intro st st' h hr
  unfold Creole.tableRepl at hr
  obtain ⟨t, _, hr⟩ := bind_ok hr
  simp only at hr
  obtain ⟨st1, h1, hr⟩ := bind_ok hr
  obtain ⟨st2, h2, hr⟩ := bind_ok hr
  cases hr
  refine ((foldlM_noted Notes.cellRepl _ _ _ (Noted.push ?_ rfl) h1).popTo h2).noText
  exact Noted.ite (h.upto _) ((h.upto _).push rfl)

theorem Notes.macroBlockRepl (m : Match G) : Notes (macroBlockRepl m) := by
  intro st st' h hr
  unfold Creole.macroBlockRepl at hr
  exact Notes.addMacro (.inr rfl) _ _ _ m _ _ (h.uptoBlock.climb fun _ => false) hr

theorem Notes.lineRepl : Notes lineRepl := by
  intro st st' h hr
  unfold Creole.lineRepl at hr
  obtain ⟨st1, h1, hr⟩ := bind_ok hr
  cases hr
  exact (h.checkText h1).uptoBlock.leaf rfl (by simp)

theorem Notes.headRepl (m : Match G) : Notes (headRepl m) := by
  intro st st' h hr
  unfold Creole.headRepl at hr
  simp only at hr
  obtain ⟨t, _, hr⟩ := bind_ok hr
  obtain ⟨t', _, hr⟩ := bind_ok hr
  cases hr
  exact (h.uptoBlock.leaf rfl (by simp)).noText

theorem Notes.separatorRepl : Notes separatorRepl := by
  intro st st' h hr
  unfold Creole.separatorRepl at hr
  obtain ⟨st1, h1, hr⟩ := bind_ok hr
  cases hr
  exact (h.checkText h1).uptoBlock.leaf rfl (by simp)

theorem Notes.preBlockRepl (m : Match G) : Notes (preBlockRepl m) := by
  intro st st' h hr
  unfold Creole.preBlockRepl at hr
  simp only at hr
  obtain ⟨t, _, hr⟩ := bind_ok hr
  cases hr
  exact (h.uptoBlock.leaf rfl (by simp)).noText

theorem Notes.listRepl (m : Match G) : Notes (listRepl m) := by
  intro st st' h hr
  unfold Creole.listRepl at hr
  obtain ⟨t, _, hr⟩ := bind_ok hr
  refine Notes.subAll (fun g m => ?_) _ _ _ h hr
  intro st st' h hr
  split at hr <;> first
    | exact Notes.itemRepl m _ _ h hr
    | cases hr

theorem Notes.blockRepl (g : G) (m : Match G) : Notes (blockRepl g m) := by
  intro st st' h hr
  unfold Creole.blockRepl at hr
  split at hr <;> first
    | exact Notes.macroBlockRepl m _ _ h hr
    | exact Notes.lineRepl _ _ h hr
    | exact Notes.headRepl m _ _ h hr
    | exact Notes.separatorRepl _ _ h hr
    | exact Notes.preBlockRepl m _ _ h hr
    | exact Notes.listRepl m _ _ h hr
    | exact Notes.tableRepl m _ _ h hr
    | exact Notes.textRepl m _ _ h hr
    | cases hr

/-- the names of the used macros are those of the nodes -/
theorem parse_macNames {blog : Bool} {raw : Str} {d : Doc} (h : parse blog raw = .ok d) : d.root.macNames = d.used.reverse := by
  unfold parse at h
  cases hr : parseBlock blog (normNewlines raw) PS.init with
  | error e => rw [hr] at h; cases h
  | ok st =>
    rw [hr] at h
    cases h
    have h0 : Noted PS.init := ⟨rfl, rfl, by intro f hf; cases hf⟩
    have h1 : Noted st := Notes.subAll Notes.blockRepl _ _ _ h0 hr
    have h2 := h1.climb fun _ => false
    have e : (Creole.climb (fun _ => false) st.cur st.up).2 = [] := by
      generalize st.cur = f
      generalize st.up = up
      induction up generalizing f with
      | nil => rfl
      | cons p up ih => simp only [Creole.climb, Bool.false_eq_true, if_false]; exact ih _
    show (Creole.climb (fun _ => false) st.cur st.up).1.close.macNames = st.used.reverse
    rw [macNames_close h2.cur]
    have := h2.used
    simp only [PS.macNames, e, upNames, List.nil_append] at this
    exact this.symm

end Verif.Creole
