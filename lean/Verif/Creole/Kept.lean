import Verif.Creole.ReCover
import Verif.Creole.Emitter

/-!
# The parser keeps the letters of the text
-/

namespace Verif.Creole

open Verif Re Py Spec.Kp

/-! ## The letters of trees and states -/

/-- the nodes the cursor can be at -/
def Kind.holds : Kind → Bool
  | .text | .image | .macro_inline | .macro_block | .separator | .header | .pre_block | .line | .pre_inline | .brk => false
  | _ => true

/-- a sign in the letters of trees: here begins a link or a picture (it is none of the letters) -/
def medium : Char := '\n'

/-- the letters of a node itself -/
def Info.own (i : Info) : Str := if i.kind = .link then medium :: letters (i.content.getD []) else []

mutual
/-- the letters of a tree, in the order of the text -/
def Node.shown : Node → Str
  | .mk i cs =>
    match i.kind with
    | .text | .pre_inline | .pre_block | .header => letters (i.content.getD [])
    | .image => medium :: (letters (i.content.getD []) ++ letters (getText i cs))
    | .macro_inline | .macro_block | .brk | .line | .separator => []
    | _ => i.own ++ shownL cs
def shownL : List Node → Str
  | [] => []
  | n :: l => n.shown ++ shownL l
end

theorem shownL_append (a b : List Node) : shownL (a ++ b) = shownL a ++ shownL b := by
  induction a with
  | nil => rfl
  | cons n a ih => rw [List.cons_append, shownL, shownL, ih, List.append_assoc]

/-- the letters of a node under construction -/
def Frame.shown (f : Frame) : Str := f.info.own ++ shownL f.children

theorem Frame.shown_close {f : Frame} (h : f.kind.holds = true) : f.close.shown = f.shown := by
  unfold Frame.kind at h
  rw [Frame.close, Node.shown, Frame.shown]
  cases hk : f.info.kind <;> rw [hk] at h <;> first | rfl | cases h

theorem Frame.shown_add (f : Frame) (n : Node) : (f.add n).shown = f.shown ++ n.shown := by
  rw [Frame.shown, Frame.shown, Frame.add]
  simp only [shownL_append, shownL, List.append_nil, List.append_assoc]

/-- the letters of the path to the root -/
def shownUp : List Frame → Str
  | [] => []
  | f :: up => shownUp up ++ f.shown

/-- the letters read so far -/
def PS.shown (st : PS) : Str := shownUp st.up ++ st.cur.shown

/-- a state of the parser -/
structure Fit (st : PS) : Prop where
  cur : st.cur.kind.holds = true
  up : ∀ f ∈ st.up, f.kind.holds = true
  text : TextOK st

/-- The letters `k` are among the letters `t`; they are the same if there is no link and no picture, and there are no
new ones in any case. -/
structure Kin (k t : Str) : Prop where
  sub : k.Sublist t
  same : medium ∉ t → t = k
  only : ∀ c ∈ t, c = medium ∨ c ∈ k

theorem Kin.refl (k : Str) : Kin k k := ⟨List.Sublist.refl _, fun _ => rfl, fun _ h => .inr h⟩

theorem Kin.trans {a b c : Str} (h : Kin a b) (h' : Kin b c) : Kin a c := by
  refine ⟨h.sub.trans h'.sub, fun x => ?_, fun x hx => ?_⟩
  · have := h'.same x
    rw [this] at x ⊢
    exact h.same x
  · rcases h'.only x hx with h1 | h1
    · exact .inl h1
    · exact h.only x h1

theorem Kin.append {a b c d : Str} (h : Kin a b) (h' : Kin c d) : Kin (a ++ c) (b ++ d) := by
  refine ⟨h.sub.append h'.sub, fun x => ?_, fun x hx => ?_⟩
  · rw [List.mem_append, not_or] at x
    rw [h.same x.1, h'.same x.2]
  · rw [List.mem_append] at hx ⊢
    rcases hx with hx | hx
    · exact (h.only x hx).imp_right .inl
    · exact (h'.only x hx).imp_right .inr

theorem Kin.medium {k t : Str} (h : k.Sublist t) (ho : ∀ c ∈ t, c ∈ k) : Kin k (medium :: t) :=
  ⟨h.trans (List.sublist_cons_self _ _), fun hx => absurd List.mem_cons_self hx, fun c hc => by
    rcases List.mem_cons.mp hc with h1 | h1
    · exact .inl h1
    · exact .inr (ho c h1)⟩

/-- The step adds the letters `k`. -/
def Gains (k : Str) (st st' : PS) : Prop := Fit st' ∧ ∃ t, st'.shown = st.shown ++ t ∧ Kin k t

theorem Gains.trans {k k' : Str} {a b c : PS} (h : Gains k a b) (h' : Gains k' b c) : Gains (k ++ k') a c := by
  obtain ⟨_, t, h1, h2⟩ := h
  obtain ⟨hf, t', h3, h4⟩ := h'
  exact ⟨hf, t ++ t', by rw [h3, h1, List.append_assoc], h2.append h4⟩

theorem Gains.mono {k k' : Str} {a b : PS} (h : Gains k a b) (hk : Kin k' k) : Gains k' a b := by
  obtain ⟨hf, t, h1, h2⟩ := h
  exact ⟨hf, t, h1, hk.trans h2⟩

theorem Gains.congr {k k' : Str} {a b : PS} (h : Gains k a b) (he : k = k') : Gains k' a b := he ▸ h

theorem Gains.nothing {a b : PS} (hf : Fit b) (h : b.shown = a.shown) : Gains [] a b :=
  ⟨hf, [], by rw [h, List.append_nil], Kin.refl _⟩

/-- a step that only moves the cursor after another one -/
theorem Gains.then {k : Str} {a b c : PS} (h : Gains k a b) (hc : Fit c) (h' : c.shown = b.shown) : Gains k a c := by
  obtain ⟨_, t, h1, h2⟩ := h
  exact ⟨hc, t, by rw [h', h1], h2⟩

theorem Gains.noText {k : Str} {a b : PS} (h : Gains k a b) : Gains k a b.noText :=
  h.then ⟨h.1.cur, h.1.up, noText_textOK b⟩ rfl

theorem Fit.noText {st : PS} (h : Fit st) : Fit st.noText := ⟨h.cur, h.up, noText_textOK st⟩

/-! ## Moving the cursor -/

theorem climb_shown {stop : Kind → Bool} : ∀ {up : List Frame} {f : Frame}, f.kind.holds = true →
    (∀ g ∈ up, g.kind.holds = true) →
    shownUp (climb stop f up).2 ++ (climb stop f up).1.shown = shownUp up ++ f.shown ∧
    (climb stop f up).1.kind.holds = true ∧ ∀ g ∈ (climb stop f up).2, g.kind.holds = true := by
  intro up
  induction up with
  | nil => intro f hf hup; exact ⟨rfl, hf, hup⟩
  | cons q up ih =>
    intro f hf hup
    rw [climb]
    split
    · exact ⟨rfl, hf, hup⟩
    · have hq : (q.add f.close).kind.holds = true := hup q List.mem_cons_self
      obtain ⟨h1, h2, h3⟩ := ih hq fun g hg => hup g (List.mem_cons_of_mem _ hg)
      refine ⟨?_, h2, h3⟩
      rw [h1, Frame.shown_add, Frame.shown_close hf, shownUp, List.append_assoc]

theorem popToAux_shown {n : Nat} : ∀ {up : List Frame} {f f' : Frame} {up' : List Frame}, f.kind.holds = true →
    (∀ g ∈ up, g.kind.holds = true) → popToAux n f up = some (f', up') →
    shownUp up' ++ f'.shown = shownUp up ++ f.shown ∧ f'.kind.holds = true ∧ ∀ g ∈ up', g.kind.holds = true := by
  intro up
  induction up with
  | nil =>
    intro f f' up' hf hup h
    rw [popToAux] at h
    split at h
    · cases h; exact ⟨rfl, hf, hup⟩
    · cases h
  | cons q up ih =>
    intro f f' up' hf hup h
    rw [popToAux] at h
    split at h
    · cases h; exact ⟨rfl, hf, hup⟩
    · have hq : (q.add f.close).kind.holds = true := hup q List.mem_cons_self
      obtain ⟨h1, h2, h3⟩ := ih hq (fun g hg => hup g (List.mem_cons_of_mem _ hg)) h
      refine ⟨?_, h2, h3⟩
      rw [h1, Frame.shown_add, Frame.shown_close hf, shownUp, List.append_assoc]

theorem findList_shown {level : Nat} : ∀ {up : List Frame} {f f' : Frame} {up' : List Frame}, f.kind.holds = true →
    (∀ g ∈ up, g.kind.holds = true) → findList level f up = some (f', up') →
    shownUp up' ++ f'.shown = shownUp up ++ f.shown ∧ f'.kind.holds = true ∧ ∀ g ∈ up', g.kind.holds = true := by
  intro up
  induction up with
  | nil =>
    intro f f' up' hf hup h
    rw [findList] at h
    split at h
    · cases h; exact ⟨rfl, hf, hup⟩
    · cases h
  | cons q up ih =>
    intro f f' up' hf hup h
    rw [findList] at h
    split at h
    · cases h; exact ⟨rfl, hf, hup⟩
    · have hq : (q.add f.close).kind.holds = true := hup q List.mem_cons_self
      obtain ⟨h1, h2, h3⟩ := ih hq (fun g hg => hup g (List.mem_cons_of_mem _ hg)) h
      refine ⟨?_, h2, h3⟩
      rw [h1, Frame.shown_add, Frame.shown_close hf, shownUp, List.append_assoc]

theorem cleanupBreak_shown {st : PS} (h : Fit st) : Fit st.cleanupBreak ∧ st.cleanupBreak.shown = st.shown := by
  unfold PS.cleanupBreak
  split
  · rename_i n hn
    split
    · rename_i hk
      obtain ⟨init, hi⟩ : ∃ init, st.cur.children = init ++ [n] := by
        rw [List.getLast?_eq_some_iff] at hn; exact hn
      refine ⟨⟨h.cur, h.up, ?_⟩, ?_⟩
      · intro ht
        obtain ⟨i, s, hc⟩ := h.text ht
        rw [hc, List.getLast?_concat] at hn
        cases hn
        cases hk
      · have hb : n.shown = [] := by
          cases n with
          | mk i cs =>
            have hk' : i.kind = .brk := hk
            rw [Node.shown, hk']
        simp only [PS.shown, Frame.shown]
        rw [hi, List.dropLast_concat, shownL_append, shownL, shownL, hb]
        simp
    · exact ⟨h, rfl⟩
  · exact ⟨h, rfl⟩

theorem upto_shown {st : PS} (h : Fit st) (ht : st.text = false) (stop : Kind → Bool) :
    Fit (st.upto stop) ∧ (st.upto stop).shown = st.shown ∧ (st.upto stop).text = false := by
  obtain ⟨h1, h2⟩ := cleanupBreak_shown h
  have ht' : st.cleanupBreak.text = false := by
    unfold PS.cleanupBreak
    split
    · split <;> exact ht
    · exact ht
  obtain ⟨h3, h4, h5⟩ := climb_shown (stop := stop) h1.cur h1.up
  refine ⟨⟨h4, h5, ?_⟩, ?_, ht'⟩
  · intro h'
    rw [show (st.upto stop).text = false from ht'] at h'
    cases h'
  · rw [← h2]; exact h3

theorem popTo_shown {st st' : PS} {n : Nat} (h : Fit st) (hp : st.popTo n = .ok st') :
    Fit st'.noText ∧ st'.noText.shown = st.shown := by
  unfold PS.popTo at hp
  split at hp
  · cases hp
  · rename_i f up he
    obtain ⟨h1, h2, h3⟩ := popToAux_shown h.cur h.up he
    cases hp
    exact ⟨⟨h2, h3, noText_textOK _⟩, h1⟩

theorem upto_noText (st : PS) (stop : Kind → Bool) : st.noText.upto stop = (st.upto stop).noText := by
  unfold PS.upto PS.cleanupBreak PS.noText
  dsimp only
  cases st.cur.children.getLast? with
  | none => rfl
  | some n => dsimp only; split <;> rfl

theorem pop_shown {st st' : PS} (h : Fit st.noText) (hp : st.pop = .ok st') : Fit st'.noText ∧ st'.noText.shown = st.shown := by
  unfold PS.pop at hp
  split at hp
  · cases hp
  · rename_i q up he
    cases hp
    have hu : ∀ f ∈ q :: up, f.kind.holds = true := fun f hf => h.up f (by rw [show st.noText.up = q :: up from he]; exact hf)
    have hc : st.cur.kind.holds = true := h.cur
    refine ⟨⟨hu q (by simp), fun f hf => hu f (by simp [show f ∈ up from hf]), noText_textOK _⟩, ?_⟩
    simp only [PS.shown, PS.noText]
    rw [he, Frame.shown_add, Frame.shown_close hc, shownUp, List.append_assoc]

/-! ## Adding nodes -/

theorem addNode_gains {st : PS} (h : Fit st) (n : Node) : Gains n.shown st (st.addNode n).noText := by
  refine ⟨⟨h.cur, h.up, noText_textOK _⟩, n.shown, ?_, Kin.refl _⟩
  simp only [PS.shown, PS.addNode, PS.noText]
  rw [Frame.shown_add, List.append_assoc]

theorem leaf_gains {st : PS} (h : Fit st) (i : Info) : Gains (Node.shown (.mk i [])) st (st.leaf i).noText :=
  addNode_gains h (.mk i [])

theorem push_gains {st : PS} (h : Fit st) (i : Info) (hk : i.kind.holds = true) : Gains i.own st (st.push i).noText := by
  refine ⟨⟨hk, ?_, noText_textOK _⟩, i.own, ?_, Kin.refl _⟩
  · intro f hf
    rcases List.mem_cons.mp hf with rfl | hf
    · exact h.cur
    · exact h.up f hf
  · simp only [PS.shown, PS.push, PS.noText, shownUp, Frame.shown, shownL, List.append_nil]

theorem addChars_gains {st st' : PS} (h : Fit st) {s : Str} (he : st.addChars s = .ok st') : Gains (letters s) st st' := by
  unfold PS.addChars at he
  cases htx : st.text with
  | true =>
    obtain ⟨init, s0, hc⟩ := h.text htx
    rw [htx] at he
    simp only [if_true, PS.appendText, hc, List.getLast?_append, List.getLast?_singleton, Option.some_or,
        List.dropLast_concat, Option.getD_some] at he
    cases he
    refine ⟨⟨h.cur, h.up, fun _ => ⟨init, s0 ++ s, rfl⟩⟩, letters s, ?_, Kin.refl _⟩
    simp only [PS.shown, Frame.shown]
    rw [hc]
    simp only [shownL_append, shownL, Node.shown, Option.getD_some, letters_append, List.append_nil, List.append_assoc]
  | false =>
    rw [htx] at he
    simp only [Bool.false_eq_true, if_false, PS.appendText, PS.leaf, Frame.add, List.getLast?_append, List.getLast?_singleton, Option.some_or,
        List.dropLast_concat, Option.getD_some, List.nil_append] at he
    cases he
    refine ⟨⟨h.cur, h.up, fun _ => ⟨st.cur.children, s, rfl⟩⟩, letters s, ?_, Kin.refl _⟩
    simp only [PS.shown, Frame.shown]
    simp only [shownL_append, shownL, Node.shown, Option.getD_some, List.append_nil, List.append_assoc]

/-! ## Inversion -/

theorem bind_ok_inv {α β : Type} {x : Except PyErr α} {f : α → Except PyErr β} {b : β} (h : (x >>= f) = .ok b) :
    ∃ a, x = .ok a ∧ f a = .ok b := by
  cases x with
  | error e => cases h
  | ok a => exact ⟨a, rfl, h⟩

theorem need_inv {m : Match G} {g : G} {w : Str} (h : need m g = .ok w) : m.get g = some w := by
  unfold need at h
  split at h
  · rename_i s hs; cases h; exact hs
  · cases h

theorem letters_dropWhile {q : Char → Bool} (hq : ∀ c, q c = true → keeps c = false) (s : Str) :
    letters (s.dropWhile q) = letters s := by
  induction s with
  | nil => rfl
  | cons c s ih =>
    rw [List.dropWhile_cons]
    split
    · rename_i h
      rw [ih]
      simp [letters, hq c h]
    · rfl

theorem letters_dropEndWhile {q : Char → Bool} (hq : ∀ c, q c = true → keeps c = false) (s : Str) :
    letters (dropEndWhile q s) = letters s := by
  induction s with
  | nil => rfl
  | cons c s ih =>
    rw [dropEndWhile]
    have e : letters (c :: s) = letters [c] ++ letters s := letters_append [c] s
    rw [e]
    split
    · rename_i h
      rw [← ih, h]
      split
      · rename_i hc
        simp [letters, hq c hc]
      · simp [letters]
    · rename_i d t h
      rw [← ih, h]
      exact letters_append [c] (d :: t)

theorem keeps_space {c : Char} (h : isSpace c = true) : keeps c = false := by simp [keeps, h]

theorem letters_strip (s : Str) : letters (strip s) = letters s := by
  rw [strip, rstrip, lstrip, letters_dropEndWhile (fun c => keeps_space), letters_dropWhile (fun c => keeps_space)]

theorem letters_stripP {q : Char → Bool} (hq : ∀ c, q c = true → keeps c = false) (s : Str) : letters (stripP q s) = letters s := by
  rw [stripP, letters_dropEndWhile hq, letters_dropWhile hq]

/-! ## Captures -/

theorem capGet_pick {gs : List G} {g : G} (hg : gs.contains g = true) (caps : List (G × Str)) :
    capGet g (pick gs caps) = capGet g caps := by
  unfold capGet pick
  induction caps with
  | nil => rfl
  | cons x l ih =>
    obtain ⟨a, b⟩ := x
    rw [List.filter_cons]
    split
    · simp only [List.lookup_cons]
      rw [ih]
    · rename_i hn
      rw [ih, List.lookup_cons]
      have : (g == a) = false := by
        cases hga : g == a with
        | false => rfl
        | true => rw [beq_iff_eq] at hga; subst hga; exact absurd hg hn
      rw [this]

/-- the letters of a match that are in one group -/
theorem RuleHit.one {rule : R} {raw : Str} {m : Match G} {s' : St G} {pre rest : Str} (h : RuleHit rule raw m s' pre rest)
    (g : G) (hc : rule.covers [g] = true) (hs : ∀ l ∈ rule.seqs [g], l = [g]) {w : Str} (hw : m.get g = some w) :
    letters m.text = letters w := by
  obtain ⟨v, hv⟩ := Re.res_reach h.mem
  have hv' : v = m.text := List.append_cancel_right (hv.rest.symm.trans h.text)
  obtain ⟨new, e, l, hm⟩ := Re.res_covers hc h.mem hv
  rw [List.append_nil] at e
  rw [← hv', l, ← e]
  rw [← e] at hm
  replace hm := hs _ hm
  have hg := capGet_pick (gs := [g]) (g := g) (by simp) s'.caps
  unfold Match.get at hw
  rw [← h.caps] at hm hg ⊢
  rw [hw] at hg
  generalize pick [g] m.caps = x at hm hg
  match x, hm with
  | [(a, b)], hm =>
    simp only [List.map_cons, List.map_nil, List.cons.injEq, and_true] at hm
    subst hm
    simp [capGet] at hg
    subst hg
    rfl

/-- … in one group and a second one that need not take part -/
theorem RuleHit.two {rule : R} {raw : Str} {m : Match G} {s' : St G} {pre rest : Str} (h : RuleHit rule raw m s' pre rest)
    (g g2 : G) (hgg : g ≠ g2) (hc : rule.covers [g, g2] = true) (hs : rule.seqs [g, g2] = [[g2, g], [g]]) {w : Str} (hw : m.get g = some w) :
    letters m.text = letters w ++ letters ((m.get g2).getD []) := by
  obtain ⟨v, hv⟩ := Re.res_reach h.mem
  have hv' : v = m.text := List.append_cancel_right (hv.rest.symm.trans h.text)
  obtain ⟨new, e, l, hm⟩ := Re.res_covers hc h.mem hv
  rw [List.append_nil] at e
  rw [← hv', l, ← e]
  rw [← e, hs] at hm
  have hg := capGet_pick (gs := [g, g2]) (g := g) (by simp) s'.caps
  have hg2 := capGet_pick (gs := [g, g2]) (g := g2) (by simp) s'.caps
  unfold Match.get at hw ⊢
  rw [← h.caps] at hm hg hg2 ⊢
  rw [hw] at hg
  rw [← hg2]
  generalize pick [g, g2] m.caps = x at hm hg
  simp only [List.mem_cons, List.not_mem_nil, or_false] at hm
  rcases hm with hm | hm
  · match x, hm with
    | [(a, b), (a', b')], hm =>
      simp only [List.map_cons, List.map_nil, List.cons.injEq, and_true] at hm
      obtain ⟨rfl, rfl⟩ := hm
      have hne : (a' == a) = false := by simp [hgg]
      simp only [capGet, List.lookup_cons, hne, beq_self_eq_true] at hg
      cases hg
      simp [capGet, capLetters]
  · match x, hm with
    | [(a, b)], hm =>
      simp only [List.map_cons, List.map_nil, List.cons.injEq, and_true] at hm
      subst hm
      simp only [capGet, List.lookup_cons, beq_self_eq_true] at hg
      cases hg
      have hne : (g2 == a) = false := by simp [Ne.symm hgg]
      simp [capGet, capLetters, List.lookup_cons, hne, letters]

/-- … in no group -/
theorem RuleHit.zero {rule : R} {raw : Str} {m : Match G} {s' : St G} {pre rest : Str} (h : RuleHit rule raw m s' pre rest)
    (hc : rule.covers [] = true) : letters m.text = [] := by
  obtain ⟨v, hv⟩ := Re.res_reach h.mem
  have hv' : v = m.text := List.append_cancel_right (hv.rest.symm.trans h.text)
  obtain ⟨new, e, l, hm⟩ := Re.res_covers hc h.mem hv
  have hp : pick ([] : List G) new = [] := by simp [pick, List.filter_eq_nil_iff]
  rw [← hv', l, hp]
  rfl

end Verif.Creole
