import Verif.Emit.Spelt

/-!
# The parser and the division of text

The parser makes trees that differ only in how their text is divided and written from tags and texts that do.
-/

namespace Verif.Html.Sp

open Verif Py Html Spec Spec.Sg Emit

theorem Alike.append {cfg : Cfg} : ∀ {a a' b b' : List HNode}, Alike cfg a a' → Alike cfg b b' → Alike cfg (a ++ b) (a' ++ b')
  | _, _, _, _, .nil, h => h
  | _, _, _, _, .node i h hs, h' => .node i h (Alike.append hs h')
  | _, _, _, _, .run ha hb ht hs, h' => by
    rw [List.append_assoc, List.append_assoc]
    exact .run ha hb ht (Alike.append hs h')

/-- open nodes with the same finished children -/
structure AFrame (cfg : Cfg) (f g : Frame) : Prop where
  info : f.info = g.info
  done : Alike cfg f.done.reverse g.done.reverse

inductive AFrames (cfg : Cfg) : List Frame → List Frame → Prop
  | nil : AFrames cfg [] []
  | cons {f g : Frame} {fs gs : List Frame} : AFrame cfg f g → AFrames cfg fs gs → AFrames cfg (f :: fs) (g :: gs)

structure ASt (cfg : Cfg) (s t : PSt) : Prop where
  top : AFrame cfg s.top t.top
  below : AFrames cfg s.below t.below
  lost : s.lost = t.lost
  level : s.listLevel = t.listLevel

theorem AFrame.node {cfg : Cfg} {f g : Frame} (h : AFrame cfg f g) : Alike cfg [f.node] [g.node] := by
  unfold Frame.node
  rw [h.info]
  exact .node _ h.done .nil

theorem AFrame.close {cfg : Cfg} {f g top top' : Frame} (ht : AFrame cfg top top') (h : AFrame cfg f g) :
    AFrame cfg (top.close f) (top'.close g) :=
  ⟨h.info, by
    unfold Frame.close
    rw [List.reverse_cons, List.reverse_cons]
    exact Alike.append h.done ht.node⟩

theorem ASt.addLeaf {cfg : Cfg} {s t : PSt} (h : ASt cfg s t) (i : HInfo) : ASt cfg (s.addLeaf i) (t.addLeaf i) := by
  unfold PSt.addLeaf PSt.leaf
  rw [← h.lost]
  split
  · exact h
  · refine ⟨⟨h.top.info, ?_⟩, h.below, rfl, h.level⟩
    dsimp only
    rw [List.reverse_cons, List.reverse_cons]
    exact Alike.append h.top.done (.node _ .nil .nil)

theorem ASt.open {cfg : Cfg} {s t : PSt} (h : ASt cfg s t) (i : HInfo) : ASt cfg (s.open i) (t.open i) := by
  unfold PSt.open
  rw [← h.lost]
  split
  · exact h
  · exact ⟨⟨rfl, .nil⟩, .cons h.top h.below, rfl, h.level⟩

theorem ASt.up {cfg : Cfg} {s t : PSt} (h : ASt cfg s t) : ASt cfg s.up t.up := by
  unfold PSt.up
  rw [← h.lost]
  split
  · exact h
  · have := h.below
    revert this
    cases s.below <;> cases t.below <;> intro hb
    · exact ⟨h.top, .nil, rfl, h.level⟩
    · cases hb
    · cases hb
    · cases hb with
      | cons h1 h2 => exact ⟨h.top.close h1, h2, rfl, h.level⟩

theorem upto_alike {cfg : Cfg} : ∀ {below below' : List Frame} {top top' : Frame}, AFrame cfg top top' → AFrames cfg below below' →
    AFrame cfg (uptoFrames top below).1 (uptoFrames top' below').1 ∧ AFrames cfg (uptoFrames top below).2 (uptoFrames top' below').2
  | _, _, _, _, ht, .nil => ⟨ht, .nil⟩
  | _, _, _, _, ht, .cons h hs => by
    simp only [uptoFrames]
    have hc := ht.close h
    rw [← hc.info]
    split
    · exact ⟨hc, hs⟩
    · exact upto_alike hc hs

theorem ASt.goUp {cfg : Cfg} {s t : PSt} (h : ASt cfg s t) : ASt cfg s.goUp t.goUp := by
  unfold PSt.goUp
  rw [← h.lost]
  split
  · exact h
  · have := upto_alike h.top h.below
    exact ⟨this.1, this.2, rfl, h.level⟩

theorem ASt.handleEnd {cfg : Cfg} {s t : PSt} (h : ASt cfg s t) (tag : Str) : ASt cfg (handleEnd s tag) (handleEnd t tag) := by
  unfold Html.handleEnd
  split
  · exact h
  · split
    · exact h
    · have h1 : ASt cfg (if tag = c!"ul" || tag = c!"ol" then { s with listLevel := s.listLevel - 1 } else s)
          (if tag = c!"ul" || tag = c!"ol" then { t with listLevel := t.listLevel - 1 } else t) := by
        split
        · exact ⟨h.top, h.below, h.lost, by simp [h.level]⟩
        · exact h
      dsimp only
      split
      · exact h1.goUp
      · exact h1.up

theorem ASt.handleStart {cfg : Cfg} {s t : PSt} (h : ASt cfg s t) (tag : Str) (a : List (Str × Option Str)) :
    ASt cfg (handleStart s tag a) (handleStart t tag a) := by
  unfold Html.handleStart
  split
  · exact h
  · split
    · exact h.open _
    · split
      · rw [h.level]; exact h.open _
      · split
        · dsimp only
          rw [h.level]
          exact ASt.open (s := { s with listLevel := t.listLevel + 1 }) (t := { t with listLevel := t.listLevel + 1 })
            ⟨h.top, h.below, h.lost, rfl⟩ _
        · split
          · exact h.addLeaf _
          · exact h.open _

/-- the results of two computations: the same exception, or related values -/
inductive ARes {α : Type} (R : α → α → Prop) : Except PyErr α → Except PyErr α → Prop
  | ok {x y : α} : R x y → ARes R (.ok x) (.ok y)
  | error (e : PyErr) : ARes R (.error e) (.error e)

theorem ASt.handle {cfg : Cfg} (bd : List Str) {s t : PSt} (h : ASt cfg s t) (e : Event) :
    ARes (ASt cfg) (handle bd s e) (handle bd t e) := by
  cases e with
  | start tag a => exact .ok (h.handleStart tag a)
  | startend tag a =>
    unfold Html.handle handleStartEnd
    dsimp only
    split
    · cases placeholderNode bd tag (dictOf a) with
      | error x => exact .error x
      | ok i => exact .ok (h.addLeaf i)
    · exact .ok (h.addLeaf _)
  | end_ tag => exact .ok (h.handleEnd tag)
  | data d => exact .ok (h.addLeaf _)
  | charref d => exact .ok (h.addLeaf _)
  | entityref d => exact .ok (h.addLeaf _)

theorem chars_cut {ps : List Part} (hp : ∀ c, ps.head? ≠ some (.chr c)) : ∀ {u s : Str} {q : List Part},
    s.map Part.chr ++ ps = u.map .chr ++ q → ∃ s', s = u ++ s' ∧ q = s'.map .chr ++ ps
  | [], s, q, h => ⟨s, rfl, h.symm⟩
  | c :: u, [], q, h => by
    simp only [List.map_nil, List.nil_append, List.map_cons, List.cons_append] at h
    exact absurd (by rw [h]; rfl) (hp c)
  | c :: u, d :: s, q, h => by
    simp only [List.map_cons, List.cons_append, List.cons.injEq, Part.chr.injEq] at h
    obtain ⟨rfl, h⟩ := h
    obtain ⟨s', h1, h2⟩ := chars_cut hp h
    exact ⟨s', by rw [h1]; rfl, h2⟩

/-- the text at the beginning -/
theorem View.split {cfg : Cfg} : ∀ {es : List Event} {s : Str} {ps : List Part}, View cfg es (s.map .chr ++ ps) →
    (∀ c, ps.head? ≠ some (.chr c)) →
    ∃ es' ns, View cfg es' ps ∧ Run cfg ns s ∧
      ∀ (bd : List Str) (st : PSt), es.foldlM (Html.handle bd) st =
        es'.foldlM (Html.handle bd) (if st.lost then st else { st with top := { st.top with done := ns.reverse ++ st.top.done } }) := by
  intro es
  induction es with
  | nil =>
    intro s ps h hp
    cases s with
    | nil => exact ⟨[], [], h, .nil, fun bd st => by split <;> rfl⟩
    | cons c s => cases h
  | cons e es ih =>
    intro s ps h hp
    generalize hq : s.map Part.chr ++ ps = q at h
    have step : ∀ (i : HInfo) (u s' : Str) (q' : List Part), s = u ++ s' → q' = s'.map .chr ++ ps → View cfg es q' → Leaf i u → clearText cfg i = true →
        (∀ (bd : List Str) (st : PSt), Html.handle bd st e = .ok (st.addLeaf i)) →
        ∃ es' ns, View cfg es' ps ∧ Run cfg ns s ∧
          ∀ (bd : List Str) (st : PSt), (e :: es).foldlM (Html.handle bd) st =
            es'.foldlM (Html.handle bd) (if st.lost then st else { st with top := { st.top with done := ns.reverse ++ st.top.done } }) := by
      intro i u s' q' hs hq' hv hl hc hh
      subst hq'
      obtain ⟨es', ns, h1, h2, h3⟩ := ih hv hp
      refine ⟨es', .mk i [] :: ns, h1, hs ▸ .cons hl hc h2, fun bd st => ?_⟩
      rw [List.foldlM_cons, hh]
      show es.foldlM (Html.handle bd) (st.addLeaf i) = _
      rw [h3]
      congr 1
      unfold PSt.addLeaf PSt.leaf
      by_cases hl : st.lost = true
      · simp [hl]
      · simp [hl]
    cases h with
    | text hc hv =>
      obtain ⟨s', h1, h2⟩ := chars_cut hp hq
      exact step _ _ s' _ h1 h2 hv (.text _ rfl rfl) hc fun _ _ => rfl
    | name hn hl hv =>
      obtain ⟨s', h1, h2⟩ := chars_cut (u := [_]) hp hq
      exact step _ _ s' _ h1 h2 hv (.name _ _ rfl rfl hn) (by simp [clearText, hl]) fun _ _ => rfl
    | number hn hl hv =>
      obtain ⟨s', h1, h2⟩ := chars_cut (u := [_]) hp hq
      exact step _ _ s' _ h1 h2 hv (.number _ _ rfl rfl hn) (by simp [clearText, hl]) fun _ _ => rfl
    | tag ht hv =>
      cases s with
      | nil =>
        simp only [List.map_nil, List.nil_append] at hq
        exact ⟨e :: es, [], hq ▸ .tag ht hv, .nil, fun bd st => by split <;> rfl⟩
      | cons c s => cases hq

theorem chars_split : ∀ ps : List Part, ∃ (s : Str) (qs : List Part), ps = s.map .chr ++ qs ∧ ∀ c, qs.head? ≠ some (.chr c)
  | [] => ⟨[], [], rfl, by simp⟩
  | .tag e :: ps => ⟨[], .tag e :: ps, rfl, by simp⟩
  | .chr c :: ps => by
    obtain ⟨s, qs, h1, h2⟩ := chars_split ps
    exact ⟨c :: s, qs, by rw [h1]; rfl, h2⟩

theorem ASt.run {cfg : Cfg} {s t : PSt} (h : ASt cfg s t) {a b : List HNode} {u : Str} (ha : Run cfg a u) (hb : Run cfg b u) :
    ASt cfg (if s.lost then s else { s with top := { s.top with done := a.reverse ++ s.top.done } })
      (if t.lost then t else { t with top := { t.top with done := b.reverse ++ t.top.done } }) := by
  rw [← h.lost]
  split
  · exact h
  · refine ⟨⟨h.top.info, ?_⟩, h.below, rfl, h.level⟩
    dsimp only
    rw [List.reverse_append, List.reverse_append, List.reverse_reverse, List.reverse_reverse]
    refine Alike.append h.top.done ?_
    by_cases hu : u = []
    · have : ∀ {l : List HNode}, Run cfg l u → l = [] := by
        intro l hl
        cases hl with
        | nil => rfl
        | cons h1 h2 h3 => exact absurd (List.append_eq_nil_iff.mp hu).1 (leaf_ne h1 h2)
      rw [this ha, this hb]
      exact .nil
    · have := Alike.run ha hb hu (.nil : Alike cfg [] [])
      simpa using this

theorem View.fold {cfg : Cfg} (bd : List Str) : ∀ (n : Nat) {ps : List Part}, ps.length ≤ n → ∀ {es es' : List Event} {s t : PSt},
    ASt cfg s t → View cfg es ps → View cfg es' ps → ARes (ASt cfg) (es.foldlM (Html.handle bd) s) (es'.foldlM (Html.handle bd) t)
  | n, ps, hn, es, es', s, t, h, hv, hv' => by
    obtain ⟨u, qs, rfl, hq⟩ := chars_split ps
    obtain ⟨es1, a, v1, r1, f1⟩ := View.split hv hq
    obtain ⟨es2, b, v2, r2, f2⟩ := View.split hv' hq
    rw [f1, f2]
    have h2 := h.run r1 r2
    revert h2
    generalize (if s.lost then s else { s with top := { s.top with done := a.reverse ++ s.top.done } }) = s1
    generalize (if t.lost then t else { t with top := { t.top with done := b.reverse ++ t.top.done } }) = t1
    intro h2
    cases qs with
    | nil =>
      have empty : ∀ {l : List Event}, View cfg l [] → l = [] := by
        intro l hl
        generalize hz : ([] : List Part) = z at hl
        cases hl with
        | nil => rfl
        | text hc hv =>
          rename_i d _ _
          cases d with
          | nil => simp [clearText] at hc
          | cons c d => cases hz
        | name => cases hz
        | number => cases hz
        | tag => cases hz
      rw [empty v1, empty v2]
      exact .ok h2
    | cons q qs =>
      cases q with
      | chr c => exact absurd rfl (hq c)
      | tag e =>
        have first : ∀ {l : List Event}, View cfg l (.tag e :: qs) → ∃ l', l = e :: l' ∧ View cfg l' qs := by
          intro l hl
          generalize hz : (Part.tag e :: qs : List Part) = z at hl
          cases hl with
          | nil => cases hz
          | text hc hv =>
            rename_i d _ _
            cases d with
            | nil => simp [clearText] at hc
            | cons c d => cases hz
          | name => cases hz
          | number => cases hz
          | tag _ hv => cases hz; exact ⟨_, rfl, hv⟩
        obtain ⟨l1, rfl, w1⟩ := first v1
        obtain ⟨l2, rfl, w2⟩ := first v2
        rw [List.foldlM_cons, List.foldlM_cons]
        have hr := h2.handle bd e
        revert hr
        cases Html.handle bd s1 e <;> cases Html.handle bd t1 e <;> intro hr <;> cases hr
        · exact .error _
        · next hr =>
          cases n with
          | zero => simp at hn
          | succ n => exact View.fold bd n (by simp at hn; omega) hr w1 w2

theorem closeAll_alike {cfg : Cfg} : ∀ {below below' : List Frame} {top top' : Frame}, AFrame cfg top top' → AFrames cfg below below' →
    emit cfg (closeAll top below) = emit cfg (closeAll top' below')
  | _, _, top, top', ht, .nil => by
    rw [closeAll, closeAll, Frame.node, Frame.node, ht.info]
    exact emit_alike _ ht.done
  | _, _, _, _, ht, .cons h hs => by rw [closeAll, closeAll]; exact closeAll_alike (ht.close h) hs

theorem run_alike (cfg : Cfg) (bd : List Str) {es es' : List Event} {ps : List Part} (h : View cfg es ps) (h' : View cfg es' ps) (err : Option PyErr) :
    (runEvents bd es err >>= emit cfg) = (runEvents bd es' err >>= emit cfg) := by
  unfold runEvents
  have := View.fold (cfg := cfg) bd _ (Nat.le_refl _) (s := {}) (t := {}) ⟨⟨rfl, .nil⟩, .nil, rfl, rfl⟩ h h'
  revert this
  cases List.foldlM (Html.handle bd) {} es <;> cases List.foldlM (Html.handle bd) {} es' <;> intro hr <;> cases hr
  · rfl
  · next hr =>
    cases err with
    | some e => rfl
    | none => exact closeAll_alike hr.top hr.below

end Verif.Html.Sp
