import Verif.Creole.ChosenLemmas
import Verif.Creole.UsedNames

/-!
# The kinds of nodes that the rules make
-/

set_option linter.unusedSectionVars false

namespace Verif.Creole

open Verif

/-- all nodes so far have allowed kinds -/
def Kd (P : Kind → Prop) (st : PS) : Prop := st.All fun i => P i.kind

/-- the kinds of inline nodes -/
def inlineKind : Kind → Bool
  | .text | .link | .image | .macro_inline | .pre_inline | .brk | .emphasis | .strong | .monospace | .superscript | .subscript
  | .underline | .small | .delete => true
  | _ => false

variable {P : Kind → Prop} {st st' : PS}

theorem Kd.noText (h : Kd P st) : Kd P st.noText := ⟨h.cur, h.up⟩

theorem Kd.setText (h : Kd P st) (b : Bool) : Kd P { st with text := b } := ⟨h.cur, h.up⟩

theorem Kd.addNode (h : Kd P st) {n : Node} (hn : n.All fun i => P i.kind) : Kd P (st.addNode n) := ⟨h.cur.add hn, h.up⟩

theorem Kd.leaf (h : Kd P st) {i : Info} (hi : P i.kind) : Kd P (st.leaf i) := h.addNode (.mk hi (by simp))

theorem Kd.push (h : Kd P st) {i : Info} (hi : P i.kind) : Kd P (st.push i) := by
  refine ⟨⟨hi, by simp [PS.push]⟩, ?_⟩
  intro f hf
  simp only [PS.push, List.mem_cons] at hf
  rcases hf with rfl | hf
  · exact h.cur
  · exact h.up f hf

theorem Kd.cleanupBreak (h : Kd P st) : Kd P st.cleanupBreak := (cleanupBreak_props h).1

theorem Kd.climb (h : Kd P st) (stop : Kind → Bool) :
    Kd P { st with cur := (Creole.climb stop st.cur st.up).1, up := (Creole.climb stop st.cur st.up).2 } := by
  have := climb_all (stop := stop) h.cur h.up
  exact ⟨this.1, this.2⟩

theorem Kd.upto (h : Kd P st) (stop : Kind → Bool) : Kd P (st.upto stop) := h.cleanupBreak.climb stop

theorem Kd.uptoBlock (h : Kd P st) : Kd P st.uptoBlock := h.upto _

theorem Kd.pop (h : Kd P st) (hr : st.pop = .ok st') : Kd P st' := by
  unfold PS.pop at hr
  split at hr
  · cases hr
  · rename_i p up hu
    cases hr
    have hp := h.up p (by rw [hu]; simp)
    exact ⟨hp.add h.cur.close, fun f hf => h.up f (by rw [hu]; simp [hf])⟩

theorem popToAux_kd {p : Info → Prop} {n : Nat} : ∀ {up : List Frame} {f : Frame} {r : Frame × List Frame}, f.All p → (∀ g ∈ up, g.All p) →
    popToAux n f up = some r → r.1.All p ∧ ∀ g ∈ r.2, g.All p
  | [], f, r, h, hu, he => by
    unfold popToAux at he
    split at he
    · cases he; exact ⟨h, hu⟩
    · cases he
  | q :: up, f, r, h, hu, he => by
    unfold popToAux at he
    split at he
    · cases he; exact ⟨h, hu⟩
    · exact popToAux_kd ((hu q (by simp)).add h.close) (fun g hg => hu g (by simp [hg])) he

theorem findList_kd {p : Info → Prop} {n : Nat} : ∀ {up : List Frame} {f : Frame} {r : Frame × List Frame}, f.All p → (∀ g ∈ up, g.All p) →
    findList n f up = some r → r.1.All p ∧ ∀ g ∈ r.2, g.All p
  | [], f, r, h, hu, he => by
    unfold findList at he
    split at he
    · cases he; exact ⟨h, hu⟩
    · cases he
  | q :: up, f, r, h, hu, he => by
    unfold findList at he
    split at he
    · cases he; exact ⟨h, hu⟩
    · exact findList_kd ((hu q (by simp)).add h.close) (fun g hg => hu g (by simp [hg])) he

theorem Kd.popTo {n : Nat} (h : Kd P st) (hr : st.popTo n = .ok st') : Kd P st' := by
  unfold PS.popTo at hr
  split at hr
  · cases hr
  · rename_i f up hu
    cases hr
    have := popToAux_kd h.cur h.up hu
    exact ⟨this.1, this.2⟩

theorem Kd.checkText (h : Kd P st) (hr : st.checkText = .ok st') : Kd P st' := by
  unfold PS.checkText at hr
  split at hr
  · cases hr
  · cases hr; exact h

theorem Kd.appendText {s : Str} (h : Kd P st) (hr : st.appendText s = .ok st') : Kd P st' := by
  unfold PS.appendText at hr
  split at hr
  · rename_i i cs hn
    cases hr
    have e : st.cur.children = st.cur.children.dropLast ++ [.mk i cs] := by
      rw [List.getLast?_eq_some_iff] at hn
      obtain ⟨ys, hy⟩ := hn
      rw [hy, List.dropLast_concat]
    have hl := h.cur.children (.mk i cs) (by rw [e]; simp)
    refine ⟨⟨h.cur.info, ?_⟩, h.up⟩
    intro n hn
    simp only [List.mem_append, List.mem_singleton] at hn
    rcases hn with hn | rfl
    · exact h.cur.children n (by rw [e]; simp [hn])
    · exact .mk hl.info hl.children
  · cases hr

/-- inline nodes are allowed -/
def AllowsInl (P : Kind → Prop) : Prop := ∀ k, inlineKind k = true → P k

theorem Kd.addChars {s : Str} (hP : AllowsInl P) (h : Kd P st) (hr : st.addChars s = .ok st') : Kd P st' := by
  unfold PS.addChars at hr
  simp only at hr
  split at hr
  · exact h.appendText hr
  · exact ((h.leaf (i := { kind := .text, content := some [] }) (hP _ rfl)).setText true).appendText hr

/-- the handler makes nodes of allowed kinds -/
def Makes (P : Kind → Prop) (r : PS → PM) : Prop := ∀ st st', Kd P st → r st = .ok st' → Kd P st'

section
variable (hP : AllowsInl P)
include hP

theorem Makes.urlRepl (m : Match G) : Makes P (urlRepl m) := by
  intro st st' h hr
  unfold Creole.urlRepl at hr
  split at hr
  · obtain ⟨t, _, hr⟩ := bind_ok hr
    cases hr
    exact (h.addNode (.mk (hP _ rfl) (by simpa using Node.All.mk (hP .text rfl) (by simp)))).noText
  · obtain ⟨t, _, hr⟩ := bind_ok hr
    exact h.addChars hP hr

theorem Makes.addMacro {k : Kind} (hk : P k) (nk ak : G) (tk : Option G) (m : Match G) :
    Makes P (addMacro k nk ak tk m) := by
  intro st st' h hr
  have key : ∀ (t : Option Str), (do
      let name ← need m nk
      let args ← need m ak
      return { st.leaf { kind := k, content := t, macroName := name, macroArgs := Py.strip args } with
        used := name :: st.used, text := false } : PM) = .ok st' → Kd P st' := by
    intro t hr
    obtain ⟨n, _, hr⟩ := bind_ok hr
    obtain ⟨a, _, hr⟩ := bind_ok hr
    cases hr
    have := h.leaf (i := { kind := k, content := t, macroName := n, macroArgs := Py.strip a }) hk
    exact ⟨this.cur, this.up⟩
  unfold Creole.addMacro at hr
  simp only at hr
  split at hr
  · obtain ⟨t, _, hr⟩ := bind_ok hr
    exact key _ hr
  · exact key _ hr

theorem Makes.imageRepl (m : Match G) : Makes P (imageRepl m) := by
  intro st st' h hr
  unfold Creole.imageRepl at hr
  obtain ⟨t, _, hr⟩ := bind_ok hr
  cases hr
  exact (h.addNode (.mk (hP _ rfl) (by simpa using Node.All.mk (hP .text rfl) (by simp)))).noText

theorem Makes.preInlineRepl (m : Match G) : Makes P (preInlineRepl m) := by
  intro st st' h hr
  unfold Creole.preInlineRepl at hr
  obtain ⟨t, _, hr⟩ := bind_ok hr
  cases hr
  exact (h.leaf (hP _ rfl)).noText

theorem Makes.linebreakRepl : Makes P linebreakRepl := by
  intro st st' h hr
  cases hr
  exact (h.leaf (hP _ rfl)).noText

theorem Makes.escapeRepl (m : Match G) : Makes P (escapeRepl m) := by
  intro st st' h hr
  unfold Creole.escapeRepl at hr
  obtain ⟨t, _, hr⟩ := bind_ok hr
  exact h.addChars hP hr

theorem Makes.charRepl (m : Match G) : Makes P (charRepl m) := by
  intro st st' h hr
  unfold Creole.charRepl at hr
  obtain ⟨t, _, hr⟩ := bind_ok hr
  exact h.addChars hP hr

theorem Makes.macroTagRepl (m : Match G) : Makes P (macroTagRepl m) := Makes.addMacro hP (hP _ rfl) _ _ _ m

theorem Makes.macroInlineRepl (m : Match G) : Makes P (macroInlineRepl m) := Makes.addMacro hP (hP _ rfl) _ _ _ m

theorem Makes.leafRepl (g : G) (m : Match G) : Makes P (leafRepl g m) := by
  intro st st' h hr
  unfold Creole.leafRepl at hr
  split at hr <;> first
    | exact Makes.urlRepl hP m _ _ h hr
    | exact Makes.macroTagRepl hP m _ _ h hr
    | exact Makes.macroInlineRepl hP m _ _ h hr
    | exact Makes.imageRepl hP m _ _ h hr
    | exact Makes.preInlineRepl hP m _ _ h hr
    | exact Makes.linebreakRepl hP _ _ h hr
    | exact Makes.escapeRepl hP m _ _ h hr
    | exact Makes.charRepl hP m _ _ h hr
    | cases hr

omit hP in
theorem foldlM_kd {α : Type} {f : PS → α → PM} (hf : ∀ x, Makes P fun st => f st x) : ∀ (l : List α), Makes P fun st => l.foldlM f st
  | [], st, st', h, hr => by cases hr; exact h
  | x :: l, st, st', h, hr => by
    simp only [List.foldlM_cons] at hr
    obtain ⟨st1, h1, h2⟩ := bind_ok hr
    exact foldlM_kd hf l _ _ (hf x _ _ h h1) h2

omit hP in
theorem Makes.subAll {r : R} {hd : G → Match G → PS → PM} (hh : ∀ g m, Makes P (hd g m)) (raw : Str) : Makes P (subAll r hd raw) := by
  unfold Creole.subAll
  refine foldlM_kd (fun m => ?_) _
  intro st st' h hr
  dsimp only at hr
  split at hr
  · exact hh _ _ _ _ h hr
  · cases hr; exact h

theorem Makes.linkRepl (m : Match G) : Makes P (linkRepl m) := by
  intro st st' h hr
  unfold Creole.linkRepl at hr
  obtain ⟨t, _, hr⟩ := bind_ok hr
  simp only at hr
  obtain ⟨st1, h1, hr⟩ := bind_ok hr
  obtain ⟨st2, h2, hr⟩ := bind_ok hr
  cases hr
  exact ((Makes.subAll (Makes.leafRepl hP) _ _ _ (h.push (i := { kind := .link, content := some _ }) (hP _ rfl)).noText h1).popTo h2).noText

theorem Makes.inlineMark {pi : Str → PS → PM} (hp : ∀ s, Makes P (pi s)) {k : Kind} (hk : P k) (g : G) (m : Match G) :
    Makes P (inlineMark pi k g m) := by
  intro st st' h hr
  unfold Creole.inlineMark at hr
  simp only at hr
  obtain ⟨t, _, hr⟩ := bind_ok hr
  obtain ⟨st1, h1, hr⟩ := bind_ok hr
  obtain ⟨st2, h2, hr⟩ := bind_ok hr
  cases hr
  exact (((hp _ _ _ (h.push (i := { kind := k }) hk).noText h1).upto _).pop h2).noText

theorem Makes.inlineRepl {pi : Str → PS → PM} (hp : ∀ s, Makes P (pi s)) (g : G) (m : Match G) : Makes P (inlineRepl pi g m) := by
  intro st st' h hr
  unfold Creole.inlineRepl at hr
  split at hr <;> first
    | exact Makes.linkRepl hP m _ _ h hr
    | exact Makes.inlineMark hP hp (hP _ rfl) _ m _ _ h hr
    | exact Makes.leafRepl hP _ m _ _ h hr

theorem Makes.parseInlineN (n : Nat) : ∀ raw : Str, Makes P (parseInlineN n raw) := by
  induction n with
  | zero => intro raw st st' h hr; cases hr
  | succ n ih =>
    intro raw
    show Makes P (Creole.subAll inlineRe (Creole.inlineRepl (Creole.parseInlineN n)) raw)
    exact Makes.subAll (Makes.inlineRepl hP ih) raw

theorem Makes.parseInline (raw : Str) : Makes P (parseInline raw) := Makes.parseInlineN hP _ _

omit hP in
theorem Kd.ite {c : Prop} [Decidable c] {a b : PS} (ha : Kd P a) (hb : Kd P b) : Kd P (if c then a else b) := by
  split
  · exact ha
  · exact hb

theorem Makes.textRepl (hk : P .paragraph) (m : Match G) : Makes P (textRepl m) := by
  intro st st' h hr
  unfold Creole.textRepl at hr
  obtain ⟨st1, h1, hr⟩ := bind_ok hr
  simp only at hr
  obtain ⟨t, _, hr⟩ := bind_ok hr
  obtain ⟨st2, h2, hr⟩ := bind_ok hr
  cases hr
  have g1 := h.checkText h1
  have g2 := Kd.ite (c := (st1.cur.kind = .table || st1.cur.kind = .table_row || st1.cur.kind = .bullet_list ||
      st1.cur.kind = .number_list) = true) g1.uptoBlock g1
  have g3 := Makes.parseInline hP _ _ _ (Kd.ite (g2.push (i := { kind := .paragraph }) hk) g2) h2
  exact (Kd.ite (g3.leaf (hP _ rfl)) g3).noText

theorem Makes.itemRepl (hl : P .bullet_list ∧ P .number_list ∧ P .list_item) (m : Match G) : Makes P (itemRepl m) := by
  intro st st' h hr
  unfold Creole.itemRepl at hr
  obtain ⟨st1, h1, hr⟩ := bind_ok hr
  obtain ⟨b, _, hr⟩ := bind_ok hr
  obtain ⟨t, _, hr⟩ := bind_ok hr
  have g1 := h.checkText h1
  split at hr
  · cases hr
  · rename_i b _
    simp only at hr
    obtain ⟨st2, h2, hr⟩ := bind_ok hr
    cases hr
    refine (Makes.parseInline hP _ _ _ (Kd.push ?_ hl.2.2) h2).noText
    have hi : P (if b = '#' then Kind.number_list else Kind.bullet_list) := by split <;> simp [hl]
    generalize (if b = '#' then Kind.number_list else Kind.bullet_list) = k at hi ⊢
    cases hf : findList _ st1.cur st1.up with
    | none => exact (g1.upto _).push (i := { kind := k, level := _ }) hi
    | some r =>
      obtain ⟨f, up⟩ := r
      have := findList_kd g1.cur g1.up hf
      exact Kd.ite ⟨this.1, this.2⟩ ((g1.upto _).push (i := { kind := k, level := _ }) hi)

theorem Makes.cellRepl (hc : P .table_cell ∧ P .table_head) (m : Match G) : Makes P fun st => cellRepl st m := by
  intro st st' h hr
  unfold Creole.cellRepl at hr
  simp only at hr
  split at hr
  · obtain ⟨st1, h1, hr⟩ := bind_ok hr
    obtain ⟨st2, h2, hr⟩ := bind_ok hr
    cases hr
    exact ((Makes.parseInline hP _ _ _ (h.push hc.1).noText h1).popTo h2).noText
  · obtain ⟨t, _, hr⟩ := bind_ok hr
    obtain ⟨st1, h1, hr⟩ := bind_ok hr
    obtain ⟨st2, h2, hr⟩ := bind_ok hr
    cases hr
    exact ((Makes.parseInline hP _ _ _ (((h.push (i := { kind := .table_head }) hc.2).leaf (i := { kind := .text, content := some [] }) (hP _ rfl)).setText true) h1).popTo h2).noText

theorem Makes.tableRepl (ht : P .table ∧ P .table_row) (hc : P .table_cell ∧ P .table_head) (m : Match G) : Makes P (tableRepl m) := by
  intro st st' h hr
  unfold Creole.tableRepl at hr
  obtain ⟨t, _, hr⟩ := bind_ok hr
  simp only at hr
  obtain ⟨st1, h1, hr⟩ := bind_ok hr
  obtain ⟨st2, h2, hr⟩ := bind_ok hr
  cases hr
  refine ((foldlM_kd (Makes.cellRepl hP hc) _ _ _ (Kd.push ?_ ht.2) h1).popTo h2).noText
  exact Kd.ite (h.upto _) ((h.upto _).push ht.1)

theorem Makes.macroBlockRepl (hk : P .macro_block) (m : Match G) : Makes P (macroBlockRepl m) := by
  intro st st' h hr
  unfold Creole.macroBlockRepl at hr
  exact Makes.addMacro hP hk _ _ _ m _ _ (h.uptoBlock.climb fun _ => false) hr

theorem Makes.lineRepl (hk : P .line) : Makes P lineRepl := by
  intro st st' h hr
  unfold Creole.lineRepl at hr
  obtain ⟨st1, h1, hr⟩ := bind_ok hr
  cases hr
  exact (h.checkText h1).uptoBlock.leaf hk

theorem Makes.headRepl (hk : P .header) (m : Match G) : Makes P (headRepl m) := by
  intro st st' h hr
  unfold Creole.headRepl at hr
  simp only at hr
  obtain ⟨t, _, hr⟩ := bind_ok hr
  obtain ⟨t', _, hr⟩ := bind_ok hr
  cases hr
  exact (h.uptoBlock.leaf hk).noText

theorem Makes.separatorRepl (hk : P .separator) : Makes P separatorRepl := by
  intro st st' h hr
  unfold Creole.separatorRepl at hr
  obtain ⟨st1, h1, hr⟩ := bind_ok hr
  cases hr
  exact (h.checkText h1).uptoBlock.leaf hk

theorem Makes.preBlockRepl (hk : P .pre_block) (m : Match G) : Makes P (preBlockRepl m) := by
  intro st st' h hr
  unfold Creole.preBlockRepl at hr
  simp only at hr
  obtain ⟨t, _, hr⟩ := bind_ok hr
  cases hr
  exact (h.uptoBlock.leaf hk).noText

theorem Makes.listRepl (hl : P .bullet_list ∧ P .number_list ∧ P .list_item) (m : Match G) : Makes P (listRepl m) := by
  intro st st' h hr
  unfold Creole.listRepl at hr
  obtain ⟨t, _, hr⟩ := bind_ok hr
  refine Makes.subAll (fun g m => ?_) _ _ _ h hr
  intro st st' h hr
  split at hr <;> first
    | exact Makes.itemRepl hP hl m _ _ h hr
    | cases hr

/-- the kinds of block nodes of a rule -/
def BRule.kinds : BRule → List Kind
  | .macro_block => [.macro_block]
  | .line => [.line]
  | .head => [.header]
  | .separator => [.separator]
  | .pre_block => [.pre_block]
  | .list => [.bullet_list, .number_list, .list_item]
  | .table => [.table, .table_row, .table_cell, .table_head]
  | .text _ => [.paragraph]

/-- the groups of a rule that have a method -/
theorem Makes.blockRepl {r : BRule} (hk : ∀ k ∈ r.kinds, P k) {g : G} {m : Match G} (hg : dispatch (groupOrder r.re) m = some g) :
    Makes P (blockRepl g m) := by
  have hmem : g ∈ groupOrder r.re := by
    unfold dispatch at hg
    exact List.mem_of_find?_eq_some hg
  intro st st' h hr
  unfold Creole.blockRepl at hr
  cases r with
  | macro_block =>
    split at hr <;> first
      | exact Makes.macroBlockRepl hP (hk _ (by simp [BRule.kinds])) m _ _ h hr
      | exact absurd hmem (by decide +kernel)
      | cases hr
  | line =>
    split at hr <;> first
      | exact Makes.lineRepl hP (hk _ (by simp [BRule.kinds])) _ _ h hr
      | exact absurd hmem (by decide +kernel)
      | cases hr
  | head =>
    split at hr <;> first
      | exact Makes.headRepl hP (hk _ (by simp [BRule.kinds])) m _ _ h hr
      | exact absurd hmem (by decide +kernel)
      | cases hr
  | separator =>
    split at hr <;> first
      | exact Makes.separatorRepl hP (hk _ (by simp [BRule.kinds])) _ _ h hr
      | exact absurd hmem (by decide +kernel)
      | cases hr
  | pre_block =>
    split at hr <;> first
      | exact Makes.preBlockRepl hP (hk _ (by simp [BRule.kinds])) m _ _ h hr
      | exact absurd hmem (by decide +kernel)
      | cases hr
  | list =>
    split at hr <;> first
      | exact Makes.listRepl hP ⟨hk _ (by simp [BRule.kinds]), hk _ (by simp [BRule.kinds]), hk _ (by simp [BRule.kinds])⟩ m _ _ h hr
      | exact absurd hmem (by decide +kernel)
      | cases hr
  | table =>
    split at hr <;> first
      | exact Makes.tableRepl hP ⟨hk _ (by simp [BRule.kinds]), hk _ (by simp [BRule.kinds])⟩
          ⟨hk _ (by simp [BRule.kinds]), hk _ (by simp [BRule.kinds])⟩ m _ _ h hr
      | exact absurd hmem (by decide +kernel)
      | cases hr
  | text b =>
    cases b <;> split at hr <;> first
      | exact Makes.textRepl hP (hk _ (by simp [BRule.kinds])) m _ _ h hr
      | exact absurd hmem (by decide +kernel)
      | cases hr

omit hP in
/-- the nodes of a document parsed with chosen rules -/
theorem parseRules_kinds {rules : List BRule} (hn : (rules.map BRule.name).Nodup) {raw : Str} {d : Doc} (h : parseRules rules raw = .ok d) :
    d.root.All fun i => i.kind = .document ∨ inlineKind i.kind = true ∨ ∃ r ∈ rules, i.kind ∈ r.kinds := by
  unfold parseRules at h
  cases hb : Creole.subAll (chosenRe rules) Creole.blockRepl (normNewlines raw) PS.init with
  | error e => rw [hb] at h; cases h
  | ok st =>
    rw [hb] at h
    cases h
    have h0 : Kd (fun k => k = .document ∨ inlineKind k = true ∨ ∃ r ∈ rules, k ∈ r.kinds) PS.init :=
      ⟨⟨.inl rfl, by simp [PS.init]⟩, by simp [PS.init]⟩
    have h1 : Kd (fun k => k = .document ∨ inlineKind k = true ∨ ∃ r ∈ rules, k ∈ r.kinds) st := by
      by_cases hne : rules = []
      · subst hne
        rw [subAll_chosen_nil] at hb
        cases hb
        exact h0
      · unfold Creole.subAll at hb
        have key : ∀ (l : List (Match G)), (∀ m ∈ l, m ∈ (chosenRe rules).findAll (normNewlines raw)) →
            Makes (fun k => k = .document ∨ inlineKind k = true ∨ ∃ r ∈ rules, k ∈ r.kinds) fun st => l.foldlM (fun st m =>
              match dispatch (groupOrder (chosenRe rules)) m with
              | some g => Creole.blockRepl g m st
              | none => .ok st) st := by
          intro l
          induction l with
          | nil => intro _ st st' h hr; cases hr; exact h
          | cons m l ih =>
            intro hl st st' h hr
            simp only [List.foldlM_cons] at hr
            obtain ⟨st1, h1, h2⟩ := bind_ok hr
            refine ih (fun m hm => hl m (by simp [hm])) _ _ ?_ h2
            obtain ⟨r, hr, s', pre, rest, hh, e⟩ := chosen_hit hn hne (hl m (by simp))
            rw [e] at h1
            split at h1
            · rename_i g hg
              exact Makes.blockRepl (fun k hk => .inr (.inl hk)) (r := r) (fun k hk => .inr (.inr ⟨r, hr, hk⟩)) hg _ _ h h1
            · cases h1; exact h
        exact key _ (fun m hm => hm) _ _ h0 hb
    exact (climb_all h1.cur h1.up).1.close

end

end Verif.Creole
