import Verif.Creole.ReRoom
import Verif.Creole.Kept

/-!
# How large the document tree becomes

The weight of a tree: the number of its nodes, the texts and the levels of the headings.
-/

namespace Verif.Creole

open Verif Py

/-- the weight of the attributes of a node -/
def Info.weight (i : Info) : Nat :=
  1 + (i.content.getD []).length + i.macroName.length + i.macroArgs.length + (if i.kind = .header then i.level.getD 0 else 0)

/-- no list is deeper than `d` -/
def Info.low (d : Nat) (i : Info) : Prop := i.kind = .header ∨ ∀ n, i.level = some n → n ≤ d

mutual
def Node.weight : Node → Nat
  | .mk i cs => i.weight + weightL cs
def weightL : List Node → Nat
  | [] => 0
  | n :: ns => n.weight + weightL ns
end

mutual
def Node.low (d : Nat) : Node → Prop
  | .mk i cs => i.low d ∧ lowL d cs
def lowL (d : Nat) : List Node → Prop
  | [] => True
  | n :: ns => n.low d ∧ lowL d ns
end

theorem weightL_append : ∀ a b : List Node, weightL (a ++ b) = weightL a + weightL b
  | [], b => by simp [weightL]
  | n :: a, b => by rw [List.cons_append, weightL, weightL, weightL_append a b]; omega

theorem lowL_append {d : Nat} : ∀ a b : List Node, lowL d (a ++ b) ↔ lowL d a ∧ lowL d b
  | [], b => by simp [lowL]
  | n :: a, b => by rw [List.cons_append, lowL, lowL, lowL_append a b, and_assoc]

def Frame.weight (f : Frame) : Nat := f.info.weight + weightL f.children
def Frame.low (d : Nat) (f : Frame) : Prop := f.info.low d ∧ lowL d f.children

theorem Frame.close_weight (f : Frame) : f.close.weight = f.weight := by rw [Frame.close, Node.weight, Frame.weight]
theorem Frame.close_low {d : Nat} (f : Frame) : f.close.low d ↔ f.low d := by rw [Frame.close, Node.low, Frame.low]
theorem Frame.add_weight (f : Frame) (n : Node) : (f.add n).weight = f.weight + n.weight := by
  simp only [Frame.add, Frame.weight, weightL_append, weightL]; omega
theorem Frame.add_low {d : Nat} (f : Frame) (n : Node) : (f.add n).low d ↔ f.low d ∧ n.low d := by
  rw [Frame.add, Frame.low, Frame.low, lowL_append, lowL, lowL, and_assoc]; simp

/-- all open nodes -/
def upWeight : List Frame → Nat
  | [] => 0
  | f :: up => f.weight + upWeight up
def upLow (d : Nat) : List Frame → Prop
  | [] => True
  | f :: up => f.low d ∧ upLow d up

def PS.weight (st : PS) : Nat := upWeight (st.cur :: st.up)
def PS.low (d : Nat) (st : PS) : Prop := upLow d (st.cur :: st.up)

theorem upWeight_close (f p : Frame) (up : List Frame) : upWeight (p.add f.close :: up) = upWeight (f :: p :: up) := by
  simp only [upWeight, Frame.add_weight, Frame.close_weight]; omega
theorem upLow_close {d : Nat} {f p : Frame} {up : List Frame} (h : upLow d (f :: p :: up)) : upLow d (p.add f.close :: up) := by
  simp only [upLow, Frame.add_low, Frame.close_low] at h ⊢
  exact ⟨⟨h.2.1, h.1⟩, h.2.2⟩

/-- a step that adds at most `k` -/
def Weighs (d k : Nat) (st st' : PS) : Prop := (st.low d → st'.low d) ∧ st'.weight ≤ st.weight + k
/-- … if there is no exception -/
def WeighsE (d k : Nat) (st : PS) (r : PM) : Prop := ∀ st', r = .ok st' → Weighs d k st st'

variable {d k k' : Nat} {st st' st'' : PS} {m : Match G}

theorem Weighs.refl (st : PS) : Weighs d 0 st st := ⟨id, Nat.le_refl _⟩
theorem Weighs.trans (h : Weighs d k st st') (h' : Weighs d k' st' st'') : Weighs d (k + k') st st'' :=
  ⟨fun x => h'.1 (h.1 x), by have := h.2; have := h'.2; omega⟩
theorem Weighs.mono (h : Weighs d k st st') (hk : k ≤ k') : Weighs d k' st st' := ⟨h.1, by have := h.2; omega⟩
theorem Weighs.text (h : Weighs d k st st') (b : Bool) (u : List Str) : Weighs d k st { st' with text := b, used := u } := h
theorem Weighs.noText (h : Weighs d k st st') : Weighs d k st st'.noText := h

theorem WeighsE.mono {r : PM} (h : WeighsE d k st r) (hk : k ≤ k') : WeighsE d k' st r := fun st' h' => (h st' h').mono hk

theorem weighsE_ok (h : Weighs d k st st') : WeighsE d k st (.ok st') := by rintro x ⟨⟩; exact h

theorem weighsE_bind {r : PM} {f : PS → PM} (h : WeighsE d k st r) (hf : ∀ st1, WeighsE d k' st1 (f st1)) : WeighsE d (k + k') st (r >>= f) := by
  intro st' h'
  obtain ⟨st1, h1, h2⟩ := bind_ok_inv h'
  exact (h st1 h1).trans (hf st1 st' h2)

theorem weighsE_after {r : PM} (h : Weighs d k st st') (hf : WeighsE d k' st' r) : WeighsE d (k + k') st r :=
  fun st'' h' => h.trans (hf st'' h')

theorem weighsE_need {g : G} {f : Str → PM} (hf : ∀ w, m.get g = some w → WeighsE d k st (f w)) : WeighsE d k st (need m g >>= f) := by
  intro st' h'
  obtain ⟨w, h1, h2⟩ := bind_ok_inv h'
  exact hf w (need_inv h1) st' h2

/-! ## The steps -/

theorem addNode_weighs (st : PS) {n : Node} (hn : n.low d) : Weighs d n.weight st (st.addNode n) := by
  refine ⟨fun h => ?_, ?_⟩
  · simp only [PS.low, PS.addNode, upLow, Frame.add_low] at h ⊢
    exact ⟨⟨h.1, hn⟩, h.2⟩
  · simp only [PS.weight, PS.addNode, upWeight, Frame.add_weight]; omega

theorem leaf_weighs (st : PS) {i : Info} (hi : i.low d) : Weighs d i.weight st (st.leaf i) := by
  have := addNode_weighs (d := d) st (n := .mk i []) (by rw [Node.low, lowL]; exact ⟨hi, trivial⟩)
  rw [Node.weight, weightL] at this
  exact this

theorem push_weighs (st : PS) {i : Info} (hi : i.low d) : Weighs d i.weight st (st.push i) := by
  refine ⟨fun h => ?_, ?_⟩
  · simp only [PS.low, PS.push, upLow, Frame.low, lowL] at h ⊢
    exact ⟨⟨hi, trivial⟩, h⟩
  · simp only [PS.weight, PS.push, upWeight, Frame.weight, weightL]; omega

theorem climb_weighs {d : Nat} (stop : Kind → Bool) : ∀ (f : Frame) (up : List Frame),
    upWeight ((climb stop f up).1 :: (climb stop f up).2) = upWeight (f :: up) ∧
      (upLow d (f :: up) → upLow d ((climb stop f up).1 :: (climb stop f up).2))
  | f, [] => by rw [climb]; exact ⟨rfl, id⟩
  | f, p :: up => by
    rw [climb]
    split
    · exact ⟨rfl, id⟩
    · have := climb_weighs (d := d) stop (p.add f.close) up
      rw [upWeight_close] at this
      exact ⟨this.1, fun h => this.2 (upLow_close h)⟩

theorem climbTo_weighs (stop : Kind → Bool) (st : PS) :
    Weighs d 0 st { st with cur := (climb stop st.cur st.up).1, up := (climb stop st.cur st.up).2 } := by
  have := climb_weighs (d := d) stop st.cur st.up
  exact ⟨this.2, Nat.le_of_eq this.1⟩

theorem weightL_dropLast : ∀ l : List Node, weightL l.dropLast ≤ weightL l
  | [] => Nat.le_refl _
  | [n] => by simp [weightL]
  | n :: n' :: l => by
    have := weightL_dropLast (n' :: l)
    rw [List.dropLast_cons_cons, weightL, weightL]; omega

theorem lowL_dropLast : ∀ l : List Node, lowL d l → lowL d l.dropLast
  | [], h => h
  | [n], _ => by simp [lowL]
  | n :: n' :: l, h => by
    rw [lowL] at h
    rw [List.dropLast_cons_cons, lowL]
    exact ⟨h.1, lowL_dropLast _ h.2⟩

theorem cleanupBreak_weighs (st : PS) : Weighs d 0 st st.cleanupBreak := by
  unfold PS.cleanupBreak
  split
  · split
    · refine ⟨fun h => ?_, ?_⟩
      · simp only [PS.low, upLow, Frame.low] at h ⊢
        exact ⟨⟨h.1.1, lowL_dropLast _ h.1.2⟩, h.2⟩
      · have := weightL_dropLast st.cur.children
        simp only [PS.weight, upWeight, Frame.weight]; omega
    · exact Weighs.refl st
  · exact Weighs.refl st

theorem upto_weighs (st : PS) (stop : Kind → Bool) : Weighs d 0 st (st.upto stop) :=
  (cleanupBreak_weighs st).trans (climbTo_weighs stop st.cleanupBreak)

theorem pop_weighs (st : PS) : WeighsE d 0 st st.pop := by
  intro st' h
  unfold PS.pop at h
  split at h
  · cases h
  · rename_i p up hu
    cases h
    refine ⟨fun h => ?_, ?_⟩
    · rw [PS.low, hu] at h; exact upLow_close h
    · show upWeight (p.add st.cur.close :: up) ≤ _
      rw [upWeight_close, PS.weight, hu]; omega

theorem popToAux_weighs {d : Nat} (n : Nat) : ∀ (f : Frame) (up : List Frame) {x : Frame × List Frame}, popToAux n f up = some x →
    upWeight (x.1 :: x.2) = upWeight (f :: up) ∧ (upLow d (f :: up) → upLow d (x.1 :: x.2))
  | f, [], x, h => by
    rw [popToAux] at h
    split at h
    · cases h; exact ⟨rfl, id⟩
    · cases h
  | f, p :: up, x, h => by
    rw [popToAux] at h
    split at h
    · cases h; exact ⟨rfl, id⟩
    · have := popToAux_weighs (d := d) n _ up h
      rw [upWeight_close] at this
      exact ⟨this.1, fun h => this.2 (upLow_close h)⟩

theorem popTo_weighs (st : PS) (n : Nat) : WeighsE d 0 st (st.popTo n) := by
  intro st' h
  unfold PS.popTo at h
  split at h
  · cases h
  · rename_i f up hu
    cases h
    have := popToAux_weighs (d := d) n st.cur st.up hu
    exact ⟨this.2, Nat.le_of_eq this.1⟩

theorem findList_weighs {d : Nat} (level : Nat) : ∀ (up : List Frame) (f : Frame) {x : Frame × List Frame}, findList level f up = some x →
    upWeight (x.1 :: x.2) = upWeight (f :: up) ∧ (upLow d (f :: up) → upLow d (x.1 :: x.2))
  | [], f, x, h => by
    rw [findList] at h
    split at h
    · cases h; exact ⟨rfl, id⟩
    · cases h
  | p :: up, f, x, h => by
    rw [findList] at h
    split at h
    · cases h; exact ⟨rfl, id⟩
    · have := findList_weighs (d := d) level up _ h
      rw [upWeight_close] at this
      exact ⟨this.1, fun h => this.2 (upLow_close h)⟩

theorem checkText_weighs (st : PS) : WeighsE d 0 st st.checkText := by
  intro st' h
  unfold PS.checkText at h
  split at h
  · cases h
  · cases h; exact Weighs.refl st

theorem appendText_weighs (st : PS) (s : Str) : WeighsE d s.length st (st.appendText s) := by
  intro st' h
  unfold PS.appendText at h
  split at h
  · rename_i i cs hl
    cases h
    obtain ⟨l, hl⟩ := List.getLast?_eq_some_iff.mp hl
    refine ⟨fun h => ?_, ?_⟩
    · simp only [PS.low, upLow, Frame.low, hl, List.dropLast_concat, lowL_append, lowL, Node.low] at h ⊢
      exact h
    · simp only [PS.weight, upWeight, Frame.weight, hl, List.dropLast_concat, weightL_append, weightL, Node.weight, Info.weight,
        Option.getD_some, List.length_append]
      omega
  · cases h

theorem Info.low_none {i : Info} (h : i.level = none) : i.low d := .inr fun n hn => by rw [h] at hn; cases hn

theorem addChars_weighs (st : PS) (s : Str) : WeighsE d (1 + s.length) st (st.addChars s) := by
  unfold PS.addChars
  simp only
  split
  · exact (appendText_weighs st s).mono (by omega)
  · refine weighsE_after (k := 1) ?_ (appendText_weighs _ s)
    exact (leaf_weighs (d := d) st (i := { kind := .text, content := some [] }) (Info.low_none rfl)).text _ _

/-! ## What the groups capture -/

/-- the markup around the texts that are parsed again is counted, too -/
def bonus : G → Option Int
  | .link_target => some 1
  | .link_text | .url_target | .macro_inline_start | .macro_inline_args | .macro_inline_text | .macro_tag_name | .macro_tag_args
  | .pre_inline_text | .image_target | .image_text | .escaped_char | .char | .macro_block_start | .macro_block_args
  | .macro_block_text | .head_head | .head_text | .pre_block_text | .list | .table | .text | .item_head | .item_text
  | .indent | .rest => some 0
  | .emphasis_text | .strong_text | .monospace_text | .superscript_text | .subscript_text | .underline_text | .delete_text
  | .small_text => some 1
  | _ => none

def bonusCell : G → Option Int
  | .head | .cell => some 1
  | _ => none

theorem bonus_nonneg : ∀ g x, bonus g = some x → 0 ≤ x := by
  intro g x h
  cases g <;> simp only [bonus] at h <;> cases h <;> decide

theorem bonusCell_nonneg : ∀ g x, bonusCell g = some x → 0 ≤ x := by
  intro g x h
  cases g <;> simp only [bonusCell] at h <;> cases h <;> decide

/-- what a match captures is part of it, and it is not empty -/
structure Fits (m : Match G) : Prop where
  sum : capSum bonus m.caps ≤ m.text.length
  pos : 0 < m.text.length

theorem Fits.inline {raw : Str} (h : m ∈ inlineRe.findAll raw) : Fits m :=
  ⟨Re.findAll_room (by decide +kernel) (by decide +kernel) h, Re.findAll_pos (by decide +kernel) h⟩
theorem Fits.link {raw : Str} (h : m ∈ linkRe.findAll raw) : Fits m :=
  ⟨Re.findAll_room (by decide +kernel) (by decide +kernel) h, Re.findAll_pos (by decide +kernel) h⟩
theorem Fits.item {raw : Str} (h : m ∈ itemRe.findAll raw) : Fits m :=
  ⟨Re.findAll_room (by decide +kernel) (by decide +kernel) h, Re.findAll_pos (by decide +kernel) h⟩
theorem fits_block {blog : Bool} {raw : Str} (h : m ∈ (blockRe blog).findAll raw) : capSum bonus m.caps ≤ m.text.length :=
  Re.findAll_room (by cases blog <;> decide +kernel) (by cases blog <;> decide +kernel) h
theorem fits_cell {raw : Str} (h : m ∈ cellRe.findAll raw) : capSum bonusCell m.caps ≤ m.text.length :=
  Re.findAll_room (by decide +kernel) (by decide +kernel) h
theorem fits_pre {raw : Str} (h : m ∈ preEscapeRe.findAll raw) : capSum bonus m.caps ≤ m.text.length :=
  Re.findAll_room (by decide +kernel) (by decide +kernel) h

theorem fits_get (h : capSum bonus m.caps ≤ m.text.length) {g : G} {x : Int} (hg : bonus g = some x) {w : Str} (hw : m.get g = some w) :
    x + w.length ≤ m.text.length := Int.le_trans (capSum_get bonus_nonneg hg hw) h
theorem fits_get₂ (h : capSum bonus m.caps ≤ m.text.length) {g g' : G} {x x' : Int} (hne : g ≠ g') (hg : bonus g = some x)
    (hg' : bonus g' = some x') {w w' : Str} (hw : m.get g = some w) (hw' : m.get g' = some w') :
    x + w.length + (x' + w'.length) ≤ m.text.length := Int.le_trans (capSum_get₂ bonus_nonneg hne hg hg' hw hw') h
theorem fits_get₃ (h : capSum bonus m.caps ≤ m.text.length) {g g' g'' : G} {x x' x'' : Int} (hne : g ≠ g') (hne' : g ≠ g'') (hne'' : g' ≠ g'')
    (hg : bonus g = some x) (hg' : bonus g' = some x') (hg'' : bonus g'' = some x'') {w w' w'' : Str} (hw : m.get g = some w)
    (hw' : m.get g' = some w') (hw'' : m.get g'' = some w'') : x + w.length + (x' + w'.length) + (x'' + w''.length) ≤ m.text.length :=
  Int.le_trans (capSum_get₃ bonus_nonneg hne hne' hne'' hg hg' hg'' hw hw' hw'') h

theorem strip_len (s : Str) : (strip s).length ≤ s.length := (strip_infix s).length_le
theorem stripP_len (p : Char → Bool) (s : Str) : (stripP p s).length ≤ s.length := (stripP_infix p s).length_le

/-! ## Inline markup -/

theorem urlRepl_weighs (hf : Fits m) (st : PS) : WeighsE d (4 * m.text.length) st (urlRepl m st) := by
  unfold urlRepl
  split
  · refine weighsE_need fun w hw => weighsE_ok ?_
    have h1 := fits_get hf.sum (g := .url_target) rfl hw
    have h2 := hf.pos
    refine ((addNode_weighs st (n := _) ?_).mono ?_).noText
    · simp only [Node.low, lowL]
      exact ⟨Info.low_none rfl, ⟨Info.low_none rfl, trivial⟩, trivial⟩
    · simp [Node.weight, weightL, Info.weight]
      omega
  · refine weighsE_need fun w hw => ?_
    have h1 := fits_get hf.sum (g := .url_target) rfl hw
    have h2 := hf.pos
    exact (addChars_weighs st w).mono (by omega)

theorem addMacro_weighs {kind : Kind} {nk ak : G} {tk : Option G} (hk : kind ≠ .header)
    (hm : ∀ n a, m.get nk = some n → m.get ak = some a → ∀ t, (∀ g, tk = some g → m.get g = some t) → (tk = none → t = []) →
      n.length + a.length + t.length ≤ m.text.length) (st : PS) :
    WeighsE d (1 + m.text.length) st (addMacro kind nk ak tk m st) := by
  intro st' h
  obtain ⟨t, h1, h2⟩ : ∃ t, (match tk with
    | some k => (need m k).map fun s => some (Py.strip s)
    | none => .ok none : Except PyErr (Option Str)) = .ok t ∧ (need m nk >>= fun name => need m ak >>= fun args =>
      (pure { st.leaf { kind := kind, content := t, macroName := name, macroArgs := Py.strip args } with
        used := name :: st.used, text := false } : PM)) = .ok st' := by
    unfold addMacro at h
    cases tk with
    | none => exact ⟨none, rfl, h⟩
    | some k => exact bind_ok_inv h
  obtain ⟨n, h3, h4⟩ := bind_ok_inv h2
  obtain ⟨a, h5, h6⟩ := bind_ok_inv h4
  cases h6
  refine ((leaf_weighs st (i := _) (Info.low_none rfl)).mono ?_).text _ _
  have := strip_len a
  cases tk with
  | none =>
    cases h1
    have := hm n a (need_inv h3) (need_inv h5) [] (fun g h => by cases h) (fun _ => rfl)
    simp only [Info.weight, hk, if_false, Option.getD_none, List.length_nil] at this ⊢
    omega
  | some g =>
    dsimp only at h1
    cases hg : need m g with
    | error e => rw [hg] at h1; cases h1
    | ok w =>
      rw [hg] at h1
      cases h1
      have := hm n a (need_inv h3) (need_inv h5) w (fun g h => by cases h; exact need_inv hg) (fun h => by cases h)
      have := strip_len w
      simp only [Info.weight, hk, if_false, Option.getD_some]
      omega

theorem macroTagRepl_weighs (hf : Fits m) (st : PS) : WeighsE d (4 * m.text.length) st (macroTagRepl m st) := by
  have h2 := hf.pos
  refine (addMacro_weighs (by decide) ?_ st).mono (by omega)
  intro n a hn ha t _ ht
  have := fits_get₂ hf.sum (g := .macro_tag_name) (g' := .macro_tag_args) (by decide) rfl rfl hn ha
  rw [ht rfl, List.length_nil]
  omega

theorem macroInlineRepl_weighs (hf : Fits m) (st : PS) : WeighsE d (4 * m.text.length) st (macroInlineRepl m st) := by
  have h2 := hf.pos
  refine (addMacro_weighs (by decide) ?_ st).mono (by omega)
  intro n a hn ha t ht _
  have := fits_get₃ hf.sum (g := .macro_inline_start) (g' := .macro_inline_args) (g'' := .macro_inline_text) (by decide) (by decide) (by decide)
    rfl rfl rfl hn ha (ht _ rfl)
  omega

theorem imageRepl_weighs (hf : Fits m) (st : PS) : WeighsE d (4 * m.text.length) st (imageRepl m st) := by
  unfold imageRepl
  refine weighsE_need fun w hw => weighsE_ok ?_
  have h1 := fits_get hf.sum (g := .image_target) rfl hw
  have h2 := hf.pos
  have h3 := strip_len w
  have h4 : (strip ((m.get .image_text).getD [])).length ≤ m.text.length := by
    refine Nat.le_trans (strip_len _) ?_
    cases hx : m.get .image_text with
    | none => exact Nat.zero_le _
    | some x => have := fits_get hf.sum (g := .image_text) rfl hx; rw [Option.getD_some]; omega
  refine ((addNode_weighs st (n := _) ?_).mono ?_).noText
  · simp only [Node.low, lowL]
    exact ⟨Info.low_none rfl, ⟨Info.low_none rfl, trivial⟩, trivial⟩
  · simp only [Node.weight, weightL, Info.weight, Option.getD_some, List.length_nil, reduceCtorEq, if_false]
    split <;> omega

theorem preInlineRepl_weighs (hf : Fits m) (st : PS) : WeighsE d (4 * m.text.length) st (preInlineRepl m st) := by
  unfold preInlineRepl
  refine weighsE_need fun w hw => weighsE_ok ?_
  have h1 := fits_get hf.sum (g := .pre_inline_text) rfl hw
  have h2 := hf.pos
  refine ((leaf_weighs st (i := _) (Info.low_none rfl)).mono ?_).noText
  simp [Info.weight]
  omega

theorem linebreakRepl_weighs (hf : Fits m) (st : PS) : WeighsE d (4 * m.text.length) st (linebreakRepl st) := by
  have h2 := hf.pos
  refine weighsE_ok ((leaf_weighs st (i := _) (Info.low_none rfl)).mono ?_).noText
  simp [Info.weight]
  omega

theorem addGroup_weighs (hf : Fits m) (st : PS) {g : G} (hg : bonus g = some 0) : WeighsE d (4 * m.text.length) st (need m g >>= st.addChars) := by
  refine weighsE_need fun w hw => ?_
  have h1 := fits_get hf.sum hg hw
  have h2 := hf.pos
  exact (addChars_weighs st w).mono (by omega)

theorem weighsE_error {e : PyErr} : WeighsE d k st (.error e) := by intro st' h; cases h

theorem leafRepl_weighs (hf : Fits m) (g : G) (st : PS) : WeighsE d (4 * m.text.length) st (leafRepl g m st) := by
  unfold leafRepl
  split <;> first
    | exact urlRepl_weighs hf st
    | exact macroTagRepl_weighs hf st
    | exact macroInlineRepl_weighs hf st
    | exact imageRepl_weighs hf st
    | exact preInlineRepl_weighs hf st
    | exact linebreakRepl_weighs hf st
    | exact addGroup_weighs hf st rfl
    | exact weighsE_error

theorem foldlM_weighs {α : Type} {f : PS → α → PM} {c : α → Nat} : ∀ {l : List α}, (∀ x ∈ l, ∀ st, WeighsE d (c x) st (f st x)) → ∀ st : PS,
    WeighsE d (l.map c).sum st (l.foldlM f st)
  | [], _, st => weighsE_ok (Weighs.refl st)
  | x :: l, h, st => by
    rw [List.foldlM_cons, List.map_cons, List.sum_cons]
    exact weighsE_bind (h x List.mem_cons_self st) fun st1 => foldlM_weighs (fun y hy => h y (List.mem_cons_of_mem _ hy)) st1

theorem sum_scale (a b : Nat) (l : List (Match G)) :
    (l.map fun m => a * m.text.length + b).sum = a * (l.map fun m => m.text.length).sum + b * l.length := by
  induction l with
  | nil => rfl
  | cons x l ih => simp only [List.map_cons, List.sum_cons, ih, List.length_cons, Nat.mul_add]; omega

theorem subAll_weighs {r : R} {h : G → Match G → PS → PM} {raw : Str} {a b : Nat}
    (hh : ∀ m ∈ r.findAll raw, ∀ g st, WeighsE d (a * m.text.length + b) st (h g m st)) (st : PS) :
    WeighsE d (a * raw.length + b * (2 * raw.length + 1)) st (subAll r h raw st) := by
  unfold subAll
  refine (foldlM_weighs (c := fun m => a * m.text.length + b) ?_ st).mono ?_
  · intro m hm st
    split
    · exact hh m hm _ st
    · exact weighsE_ok ((Weighs.refl st).mono (Nat.zero_le _))
  · rw [sum_scale]
    have h1 := Nat.mul_le_mul_left a (Re.findAll_sum r raw)
    have h2 := Nat.mul_le_mul_left b (Re.findAll_count r raw)
    omega

theorem linkRepl_weighs (hf : Fits m) (st : PS) : WeighsE d (4 * m.text.length) st (linkRepl m st) := by
  unfold linkRepl
  refine weighsE_need fun w hw => ?_
  have h1 := fits_get hf.sum (g := .link_target) rfl hw
  have h2 := hf.pos
  have h4 : w.length + 1 + (strip ((m.get .link_text).getD [])).length ≤ m.text.length := by
    have := strip_len ((m.get .link_text).getD [])
    cases hx : m.get .link_text with
    | none => rw [hx] at this; simp only [Option.getD_none, List.length_nil] at this ⊢; omega
    | some x =>
      have := fits_get₂ hf.sum (g := .link_target) (g' := .link_text) (by decide) rfl rfl hw hx
      have h5 := strip_len x
      simp only [Option.getD_some]; omega
  dsimp only
  have hp : Weighs d (1 + w.length) st (st.push { kind := .link, content := some w }).noText := by
    refine ((push_weighs st (i := _) (Info.low_none rfl)).mono ?_).noText
    simp [Info.weight]
  refine (weighsE_after hp (weighsE_bind (subAll_weighs (a := 4) (b := 0) (fun m hm g st => leafRepl_weighs (Fits.link hm) g st) _) fun st1 =>
    weighsE_bind (popTo_weighs st1 _) fun st2 => weighsE_ok (Weighs.refl st2).noText)).mono ?_
  omega

theorem inlineMark_weighs (hf : Fits m) {pi : Str → PS → PM} (hpi : ∀ raw st, WeighsE d (4 * raw.length) st (pi raw st)) {kind : Kind} {g : G}
    (hk : kind ≠ .header) (hg : bonus g = some 1) (st : PS) : WeighsE d (4 * m.text.length) st (inlineMark pi kind g m st) := by
  unfold inlineMark
  dsimp only
  have hp : Weighs d 1 st (st.push { kind := kind }).noText := by
    refine ((push_weighs st (i := _) (Info.low_none rfl)).mono ?_).noText
    simp [Info.weight, hk]
  intro st' h'
  obtain ⟨w, hw, h2⟩ := bind_ok_inv h'
  have h1 := fits_get hf.sum hg (need_inv hw)
  revert st'
  refine fun st' _ h2 => ((weighsE_after hp (weighsE_bind (hpi w _) fun st1 => weighsE_after (upto_weighs st1 _)
    (weighsE_bind (pop_weighs _) fun st2 => weighsE_ok (Weighs.refl st2).noText))).mono ?_) st' h2
  omega

theorem inlineRepl_weighs (hf : Fits m) {pi : Str → PS → PM} (hpi : ∀ raw st, WeighsE d (4 * raw.length) st (pi raw st)) (g : G) (st : PS) :
    WeighsE d (4 * m.text.length) st (inlineRepl pi g m st) := by
  unfold inlineRepl
  split <;> first
    | exact linkRepl_weighs hf st
    | exact inlineMark_weighs hf hpi (by decide) rfl st
    | exact leafRepl_weighs hf _ st

theorem parseInlineN_weighs : ∀ (n : Nat) (raw : Str) (st : PS), WeighsE d (4 * raw.length) st (parseInlineN n raw st)
  | 0, raw, st => by rw [parseInlineN]; exact weighsE_error
  | n + 1, raw, st => by
    rw [parseInlineN]
    exact (subAll_weighs (a := 4) (b := 0) (fun m hm g st => inlineRepl_weighs (Fits.inline hm) (parseInlineN_weighs n) g st) st).mono (by omega)

theorem parseInline_weighs (raw : Str) (st : PS) : WeighsE d (4 * raw.length) st (parseInline raw st) := parseInlineN_weighs _ raw st

/-! ## Blocks -/

/-- no more than `d` list marks one after the other -/
def MarkRuns (d : Nat) (s : Str) : Prop := ∀ w, w <:+: s → (∀ c ∈ w, c = '*' ∨ c = '#') → w.length ≤ d

theorem MarkRuns.infix {a b : Str} (h : MarkRuns d b) (hi : a <:+: b) : MarkRuns d a := fun w hw => h w (hw.trans hi)

theorem item_head_marks {raw : Str} (hm : m ∈ itemRe.findAll raw) {w : Str} (hw : m.get .item_head = some w) :
    ∀ c ∈ w, c = '*' ∨ c = '#' := by
  have hm' : m ∈ (Re.alts [itemRe]).findAll raw := hm
  obtain ⟨rule, hr, s', pre, rest, hh⟩ := findAll_alts (by simp) hm'
  simp only [List.mem_cons, List.not_mem_nil, or_false] at hr
  subst hr
  have hg := hw
  unfold Match.get at hg
  rw [hh.caps] at hg
  obtain ⟨b, s1, s2, h1, h2, h3⟩ := capGet_body hh.mem hg
  simp [itemRe, Re.bodies, Re.cat, sps, Re.plus, anyDots, dot] at h1
  subst h1
  intro c hc
  have := (plus_cls_all (g := true) h2 h3).2 c hc
  simp [CSet.mem] at this
  exact this.symm

theorem itemRepl_weighs (hf : Fits m) (hl : ∀ w, m.get .item_head = some w → w.length ≤ d) (st : PS) :
    WeighsE d (4 * m.text.length) st (itemRepl m st) := by
  unfold itemRepl
  rw [← Nat.zero_add (4 * m.text.length)]
  refine weighsE_bind (checkText_weighs st) fun st => weighsE_need fun b hb => weighsE_need fun x hx => ?_
  have h1 := fits_get₂ hf.sum (g := .item_head) (g' := .item_text) (by decide) rfl rfl hb hx
  have hd := hl b hb
  split
  · exact weighsE_error
  · rename_i c hc
    have hpos : 0 < b.length := by cases b with | nil => cases hc | cons => simp
    dsimp only
    have hnew : ∀ kind : Kind, kind ≠ .header → Weighs d 1 st ((st.upto fun k => k = .list_item || isDoc k).push { kind := kind, level := some (b.length - 1) }) := by
      intro kind hk
      refine ((upto_weighs st _).trans (push_weighs _ (i := _) (.inr ?_))).mono ?_
      · rintro n ⟨⟩; omega
      · simp [Info.weight, hk]
    have hstep : ∀ st1 : PS, Weighs d 1 st st1 → WeighsE d (4 * m.text.length) st
        (do let st ← parseInline x (st1.push { kind := .list_item, level := some (b.length - 1 + 1) }); return st.noText) := by
      intro st1 h
      refine (weighsE_after (h.trans (push_weighs st1 (i := _) (.inr ?_))) (weighsE_bind (parseInline_weighs x _) fun st2 => weighsE_ok (Weighs.refl st2).noText)).mono ?_
      · rintro n ⟨⟩; omega
      · simp [Info.weight]; omega
    refine hstep _ ?_
    generalize hk : (if c = '#' then Kind.number_list else Kind.bullet_list) = kind
    have hkind : kind ≠ .header := by rw [← hk]; split <;> decide
    split
    · rename_i f up hfl
      split
      · have := findList_weighs (d := d) _ st.up st.cur hfl
        exact ⟨this.2, by show upWeight (f :: up) ≤ upWeight (st.cur :: st.up) + 1; exact Nat.le_trans (Nat.le_of_eq this.1) (Nat.le_add_right _ _)⟩
      · exact hnew _ hkind
    · exact hnew _ hkind

theorem listRepl_weighs (hf : capSum bonus m.caps ≤ m.text.length) (hl : ∀ w, m.get .list = some w → MarkRuns d w) (st : PS) :
    WeighsE d (4 * m.text.length) st (listRepl m st) := by
  unfold listRepl
  refine weighsE_need fun raw hr => ?_
  have h1 := fits_get hf (g := .list) rfl hr
  refine (subAll_weighs (a := 4) (b := 0) (fun m hm g st => ?_) st).mono (by omega)
  split <;> first
    | exact weighsE_error
    | exact itemRepl_weighs (Fits.item hm) (fun w hw => hl raw hr w (HitAt.get_infix (Re.findAll_hit hm) hw) (item_head_marks hm hw)) st

theorem cellRepl_weighs (hf : capSum bonusCell m.caps ≤ m.text.length) (st : PS) : WeighsE d (4 * m.text.length) st (cellRepl st m) := by
  unfold cellRepl
  dsimp only
  split
  · rename_i hne
    cases hc : m.get .cell with
    | none => rw [hc] at hne; exact absurd rfl hne
    | some w =>
      have h1 := Int.le_trans (capSum_get bonusCell_nonneg (g := .cell) rfl hc) hf
      have h2 := strip_len w
      rw [Option.getD_some]
      have hp : Weighs d 1 st (st.push { kind := .table_cell }).noText := by
        refine ((push_weighs st (i := _) (Info.low_none rfl)).mono ?_).noText
        simp [Info.weight]
      refine (weighsE_after hp (weighsE_bind (parseInline_weighs _ _) fun st1 => weighsE_bind (popTo_weighs st1 _) fun st2 => weighsE_ok (Weighs.refl st2).noText)).mono ?_
      omega
  · refine weighsE_need fun w hw => ?_
    have h1 := Int.le_trans (capSum_get bonusCell_nonneg (g := .head) rfl hw) hf
    have h2 := stripP_len (fun c => c = '=' || c = ' ') w
    have hp : Weighs d 2 st { (st.push { kind := .table_head }).leaf { kind := .text, content := some [] } with text := true } := by
      refine (((push_weighs st (i := _) (Info.low_none rfl)).trans (leaf_weighs _ (i := _) (Info.low_none rfl))).mono ?_).text _ _
      simp [Info.weight]
    refine (weighsE_after hp (weighsE_bind (parseInline_weighs _ _) fun st1 => weighsE_bind (popTo_weighs st1 _) fun st2 => weighsE_ok (Weighs.refl st2).noText)).mono ?_
    omega

theorem tableRepl_weighs (hf : capSum bonus m.caps ≤ m.text.length) (st : PS) : WeighsE d (4 * m.text.length + 6) st (tableRepl m st) := by
  unfold tableRepl
  refine weighsE_need fun raw hr => ?_
  have h1 := fits_get hf (g := .table) rfl hr
  have h2 := strip_len raw
  dsimp only
  have ht : ∀ st1 : PS, Weighs d 1 st1 (if st1.cur.kind = .table then st1 else st1.push { kind := .table }) := by
    intro st1
    split
    · exact (Weighs.refl st1).mono (by omega)
    · refine (push_weighs st1 (i := _) (Info.low_none rfl)).mono ?_
      simp [Info.weight]
  have hp : ∀ st1 : PS, Weighs d 1 st1 (st1.push { kind := .table_row }) := by
    intro st1
    refine (push_weighs st1 (i := _) (Info.low_none rfl)).mono ?_
    simp [Info.weight]
  have hcells : ∀ st1, WeighsE d (4 * (strip raw).length) st1 ((cellRe.findAll (strip raw)).foldlM cellRepl st1) := by
    intro st1
    refine (foldlM_weighs (c := fun m => 4 * m.text.length + 0) (fun m hm st => cellRepl_weighs (fits_cell hm) st) st1).mono ?_
    rw [sum_scale]
    have := Re.findAll_sum cellRe (strip raw)
    omega
  refine (weighsE_after ((upto_weighs st _).trans (ht _)) (weighsE_after (hp _) (weighsE_bind (hcells _) fun st1 =>
    weighsE_bind (popTo_weighs st1 _) fun st2 => weighsE_ok (Weighs.refl st2).noText))).mono ?_
  omega

theorem sub_len {r : R} {f : Match G → Str} {raw : Str} (h : ∀ m ∈ r.findAll raw, (f m).length ≤ m.text.length) :
    (r.sub f raw).length ≤ raw.length := by
  have aux : ∀ (F : Seg G → Str), (∀ c, F (.skip c) = [c]) → (∀ m, F (.hit m) = f m) → ∀ l : List (Seg G),
      (∀ m, Seg.hit m ∈ l → (f m).length ≤ m.text.length) → (l.flatMap F).length ≤ (l.flatMap Seg.text).length := by
    intro F h1 h2 l hl
    induction l with
    | nil => simp
    | cons x l ih =>
      have := ih fun m hm => hl m (List.mem_cons_of_mem _ hm)
      cases x with
      | skip c => simp only [List.flatMap_cons, List.length_append, Seg.text, h1]; omega
      | hit m =>
        have h3 := hl m List.mem_cons_self
        simp only [List.flatMap_cons, List.length_append, Seg.text, h2]; omega
  rw [Re.sub]
  refine Nat.le_trans (aux _ (fun _ => rfl) (fun _ => rfl) (r.scan raw) fun m hm => h m (List.mem_filterMap.mpr ⟨_, hm, rfl⟩)) ?_
  rw [Re.scan_text]
  exact Nat.le_refl _

theorem removeTilde_len (s : Str) : (removeTilde s).length ≤ s.length := by
  refine sub_len fun m hm => ?_
  have hf := fits_pre hm
  rw [List.length_append]
  cases h1 : m.get .indent with
  | none =>
    cases h2 : m.get .rest with
    | none => exact Nat.zero_le _
    | some w => have := fits_get hf (g := .rest) rfl h2; simp only [Option.getD_none, Option.getD_some, List.length_nil]; omega
  | some v =>
    cases h2 : m.get .rest with
    | none => have := fits_get hf (g := .indent) rfl h1; simp only [Option.getD_none, Option.getD_some, List.length_nil]; omega
    | some w =>
      have := fits_get₂ hf (g := .indent) (g' := .rest) (by decide) rfl rfl h1 h2
      simp only [Option.getD_some]; omega

theorem preBlockRepl_weighs (hf : capSum bonus m.caps ≤ m.text.length) (st : PS) : WeighsE d (4 * m.text.length + 6) st (preBlockRepl m st) := by
  unfold preBlockRepl
  dsimp only
  refine weighsE_need fun w hw => ?_
  have h1 := fits_get hf (g := .pre_block_text) rfl hw
  have h2 := removeTilde_len w
  refine weighsE_ok (((upto_weighs st _).trans (leaf_weighs _ (i := _) (Info.low_none rfl))).mono ?_).noText
  simp [Info.weight]
  omega

theorem headRepl_weighs (hf : capSum bonus m.caps ≤ m.text.length) (st : PS) : WeighsE d (4 * m.text.length + 6) st (headRepl m st) := by
  unfold headRepl
  dsimp only
  refine weighsE_need fun w hw => weighsE_need fun v hv => ?_
  have h1 := fits_get₂ hf (g := .head_text) (g' := .head_head) (by decide) rfl rfl hw hv
  have h2 := strip_len w
  refine weighsE_ok (((upto_weighs st _).trans (leaf_weighs _ (i := _) (.inl rfl))).mono ?_).noText
  simp [Info.weight]
  omega

theorem separatorRepl_weighs (st : PS) : WeighsE d (4 * m.text.length + 6) st (separatorRepl st) := by
  unfold separatorRepl
  refine (weighsE_bind (checkText_weighs st) fun st1 => weighsE_ok ((upto_weighs st1 _).trans (leaf_weighs _ (i := _) (Info.low_none rfl)))).mono ?_
  simp [Info.weight]

theorem lineRepl_weighs (st : PS) : WeighsE d (4 * m.text.length + 6) st (lineRepl st) := by
  unfold lineRepl
  refine (weighsE_bind (checkText_weighs st) fun st1 => weighsE_ok ((upto_weighs st1 _).trans (leaf_weighs _ (i := _) (Info.low_none rfl)))).mono ?_
  simp [Info.weight]

theorem macroBlockRepl_weighs (hf : capSum bonus m.caps ≤ m.text.length) (st : PS) : WeighsE d (4 * m.text.length + 6) st (macroBlockRepl m st) := by
  unfold macroBlockRepl
  dsimp only
  refine (weighsE_after ((upto_weighs st _).trans (climbTo_weighs _ _)) (addMacro_weighs (by decide) ?_ _)).mono (by omega)
  intro n a hn ha t ht _
  have := fits_get₃ hf (g := .macro_block_start) (g' := .macro_block_args) (g'' := .macro_block_text) (by decide) (by decide) (by decide)
    rfl rfl rfl hn ha (ht _ rfl)
  omega

theorem textRepl_weighs (hf : capSum bonus m.caps ≤ m.text.length) (st : PS) : WeighsE d (4 * m.text.length + 6) st (textRepl m st) := by
  unfold textRepl
  rw [← Nat.zero_add (4 * m.text.length + 6)]
  refine weighsE_bind (checkText_weighs st) fun st => ?_
  dsimp only
  have hp1 : ∀ (c : Prop) [Decidable c] (st1 : PS), Weighs d 0 st1 (if c then st1.uptoBlock else st1) := by
    intro c _ st1; split
    · exact upto_weighs st1 _
    · exact Weighs.refl st1
  have hp2 : ∀ (c : Prop) [Decidable c] (st1 : PS), Weighs d 1 st1 (if c then st1.push { kind := .paragraph } else st1) := by
    intro c _ st1; split
    · refine (push_weighs st1 (i := _) (Info.low_none rfl)).mono ?_
      simp [Info.weight]
    · exact (Weighs.refl st1).mono (by omega)
  have hp3 : ∀ (c : Prop) [Decidable c] (st1 : PS), Weighs d 1 st1 (if c then st1.leaf { kind := .brk, content := some [] } else st1) := by
    intro c _ st1; split
    · refine (leaf_weighs st1 (i := _) (Info.low_none rfl)).mono ?_
      simp [Info.weight]
    · exact (Weighs.refl st1).mono (by omega)
  refine weighsE_need fun w hw => ?_
  have h1 := fits_get hf (g := .text) rfl hw
  have h2 : ∀ (c : Prop) [Decidable c], (if c then ' ' :: w else w).length ≤ w.length + 1 := by
    intro c _; split <;> simp
  refine (weighsE_after ((hp1 _ _).trans (hp2 _ _)) (weighsE_bind (parseInline_weighs _ _) fun st1 => weighsE_ok (hp3 _ st1).noText)).mono ?_
  have := h2 (((decide ((m.get .space).getD [] ≠ [])) && !(if isDoc (if (st.cur.kind = .table || st.cur.kind = .table_row || st.cur.kind = .bullet_list || st.cur.kind = .number_list) = true then st.uptoBlock else st).cur.kind = true then (if (st.cur.kind = .table || st.cur.kind = .table_row || st.cur.kind = .bullet_list || st.cur.kind = .number_list) = true then st.uptoBlock else st).push { kind := .paragraph } else (if (st.cur.kind = .table || st.cur.kind = .table_row || st.cur.kind = .bullet_list || st.cur.kind = .number_list) = true then st.uptoBlock else st)).cur.children.isEmpty) = true)
  omega

theorem blockRepl_weighs {blog : Bool} {raw : Str} (hl : MarkRuns d raw) (hm : m ∈ (blockRe blog).findAll raw) (g : G) (st : PS) :
    WeighsE d (4 * m.text.length + 6) st (blockRepl g m st) := by
  have hf := fits_block hm
  unfold blockRepl
  split <;> first
    | exact macroBlockRepl_weighs hf st
    | exact lineRepl_weighs st
    | exact headRepl_weighs hf st
    | exact separatorRepl_weighs st
    | exact preBlockRepl_weighs hf st
    | exact (listRepl_weighs hf (fun w hw => hl.infix (HitAt.get_infix (Re.findAll_hit hm) hw)) st).mono (by omega)
    | exact tableRepl_weighs hf st
    | exact textRepl_weighs hf st
    | exact weighsE_error

/-- the whole tree -/
theorem parse_weight {blog : Bool} {raw : Str} (hl : MarkRuns d (normNewlines raw)) {doc : Doc} (h : parse blog raw = .ok doc) :
    doc.root.low d ∧ doc.root.weight ≤ 16 * (normNewlines raw).length + 7 := by
  unfold parse at h
  cases hp : parseBlock blog (normNewlines raw) PS.init with
  | error e => rw [hp] at h; cases h
  | ok st =>
    rw [hp] at h
    cases h
    have h1 := subAll_weighs (a := 4) (b := 6) (fun m hm g st => blockRepl_weighs hl hm g st) PS.init st hp
    have h2 := climb_weighs (d := d) (fun _ => false) st.cur st.up
    have hi : PS.init.low d := by
      simp only [PS.low, PS.init, upLow, Frame.low, lowL]
      exact ⟨⟨Info.low_none rfl, trivial⟩, trivial⟩
    have hw : PS.init.weight = 1 := rfl
    have h3 := h2.2 (h1.1 hi)
    refine ⟨?_, ?_⟩
    · rw [PS.finish, Frame.close_low]; exact h3.1
    · rw [PS.finish]
      simp only [Frame.close_weight]
      have h4 := h2.1
      have h5 := h1.2
      rw [upWeight] at h4
      have h6 : upWeight (st.cur :: st.up) = st.weight := rfl
      omega

end Verif.Creole
