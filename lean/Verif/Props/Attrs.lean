import Verif.Props.Unknown
import Verif.Props.ReadHtml
import Verif.Spec.Attrs
import Verif.Py.DictLemmas

/-!
# C86: attributes that do not matter
-/

namespace Verif.Props

open Verif Py Html Emit Spec Spec.Hd

/-! ## Dicts with the same values -/

theorem lookup_append' {α : Type} (k : Str) (a b : List (Str × α)) : (a ++ b).lookup k = (a.lookup k).or (b.lookup k) := by
  induction a with
  | nil => rfl
  | cons x a ih =>
    obtain ⟨k', v⟩ := x
    rw [List.cons_append, List.lookup_cons, List.lookup_cons, ih]
    split <;> rfl

theorem dictGet_dictSet {α : Type} (k k' : Str) (v : α) (d : Dict α) :
    dictGet k (dictSet k' v d) = if k = k' then some v else dictGet k d := by
  unfold dictGet
  induction d with
  | nil =>
    simp only [dictSet, List.lookup_cons, List.lookup_nil]
    by_cases h : k = k'
    · simp [h]
    · simp [h, show (k == k') = false by simpa using h]
  | cons x d ih =>
    obtain ⟨k2, v2⟩ := x
    rw [dictSet]
    split
    · next h =>
      subst h
      simp only [List.lookup_cons]
      by_cases h : k = k2
      · simp [h]
      · simp [h, show (k == k2) = false by simpa using h]
    · next h =>
      simp only [List.lookup_cons, ih]
      by_cases h1 : k = k'
      · subst h1
        have : (k == k2) = false := by simpa using fun e : k = k2 => h e.symm
        simp [this]
      · simp [h1]

theorem dictGet_of (k : Str) {α : Type} (l : List (Str × α)) : dictGet k (dictOf l) = attrGet k l := by
  unfold dictOf attrGet
  suffices h : ∀ d : Dict α, dictGet k (l.foldl (fun d (k, v) => dictSet k v d) d) = (l.reverse.lookup k).or (dictGet k d) by
    rw [h []]; simp [dictGet]
  induction l with
  | nil => intro d; simp
  | cons x l ih =>
    intro d
    obtain ⟨k', v⟩ := x
    rw [List.foldl_cons, ih, dictGet_dictSet, List.reverse_cons, lookup_append', Option.or_assoc]
    congr 1
    simp only [List.lookup_cons, List.lookup_nil]
    by_cases h : k = k'
    · simp [h]
    · simp [h, show (k == k') = false by simpa using h]

theorem keys_dictOf {α : Type} (l : List (Str × α)) : ((dictOf l).map (·.1)).Nodup := by
  unfold dictOf
  suffices h : ∀ d : Dict α, (d.map (·.1)).Nodup → ((l.foldl (fun d (k, v) => dictSet k v d) d).map (·.1)).Nodup from h [] (by simp)
  induction l with
  | nil => intro d h; exact h
  | cons x l ih => intro d h; rw [List.foldl_cons]; exact ih _ (dictSet_keys _ _ _ h)

theorem get_mem {α : Type} {d : Dict α} (hn : (d.map (·.1)).Nodup) (k : Str) (v : α) : (k, v) ∈ d ↔ dictGet k d = some v := by
  constructor
  · intro h
    unfold dictGet
    induction d with
    | nil => cases h
    | cons x d ih =>
      simp only [List.map_cons, List.nodup_cons] at hn
      rw [List.lookup_cons]
      rcases List.mem_cons.1 h with rfl | h
      · simp
      · have : (k == x.1) = false := by
          simp only [beq_eq_false_iff_ne, ne_eq]
          rintro rfl
          exact hn.1 (List.mem_map_of_mem (f := (·.1)) h)
        rw [this]
        exact ih hn.2 h
  · exact lookup_mem

/-- in a dict no key occurs twice -/
theorem attrGet_dict {α : Type} {d : Dict α} (hn : (d.map (·.1)).Nodup) (k : Str) : attrGet k d = dictGet k d :=
  (dictGet_perm (List.reverse_perm d) (((List.reverse_perm d).map _).nodup_iff.2 hn) k)

theorem nodup_of_keys {α : Type} {d : Dict α} (hn : (d.map (·.1)).Nodup) : d.Nodup := by
  rw [List.Nodup, List.pairwise_map] at hn
  exact hn.imp fun h e => h (by rw [e])

theorem perm_of_get {α : Type} {d e : Dict α} (hd : (d.map (·.1)).Nodup) (he : (e.map (·.1)).Nodup)
    (h : ∀ k, dictGet k d = dictGet k e) : d.Perm e := by
  rw [List.perm_ext_iff_of_nodup (nodup_of_keys hd) (nodup_of_keys he)]
  rintro ⟨k, v⟩
  rw [get_mem hd, get_mem he, h]

theorem strLe_total (s t : Str) : strLe s t = true ∨ strLe t s = true := by
  induction s generalizing t with
  | nil => exact .inl rfl
  | cons a s ih =>
    cases t with
    | nil => exact .inr rfl
    | cons b t =>
      rw [strLe, strLe]
      by_cases h1 : a.toNat < b.toNat
      · simp [h1]
      · by_cases h2 : b.toNat < a.toNat
        · simp [h2]
        · simpa [h1, h2] using ih t

theorem strLe_antisymm {s t : Str} (h1 : strLe s t = true) (h2 : strLe t s = true) : s = t := by
  induction s generalizing t with
  | nil =>
    cases t with
    | nil => rfl
    | cons b t => simp [strLe] at h2
  | cons a s ih =>
    cases t with
    | nil => simp [strLe] at h1
    | cons b t =>
      rw [strLe] at h1 h2
      by_cases k1 : a.toNat < b.toNat
      · simp only [k1, if_true, if_neg (Nat.lt_asymm k1)] at h2
        simp at h2
      · by_cases k2 : b.toNat < a.toNat
        · simp [k1, k2] at h1
        · simp only [k1, k2, if_false] at h1 h2
          have : a = b := Char.toNat_inj.1 (by omega)
          rw [this, ih h1 h2]

theorem strLe_trans {s t u : Str} (h1 : strLe s t = true) (h2 : strLe t u = true) : strLe s u = true := by
  induction s generalizing t u with
  | nil => rfl
  | cons a s ih =>
    cases t with
    | nil => simp [strLe] at h1
    | cons b t =>
      cases u with
      | nil => simp [strLe] at h2
      | cons c u =>
        rw [strLe] at h1 h2 ⊢
        by_cases k1 : a.toNat < b.toNat
        · by_cases k2 : b.toNat < c.toNat
          · rw [if_pos (by omega)]
          · by_cases k3 : c.toNat < b.toNat
            · simp [k2, k3] at h2
            · rw [if_pos (by omega)]
        · by_cases k2 : b.toNat < a.toNat
          · simp [k1, k2] at h1
          · simp only [k1, k2, if_false] at h1
            by_cases k3 : b.toNat < c.toNat
            · rw [if_pos (by omega)]
            · by_cases k4 : c.toNat < b.toNat
              · simp [k3, k4] at h2
              · simp only [k3, k4, if_false] at h2
                rw [if_neg (by omega), if_neg (by omega)]
                exact ih h1 h2

theorem insertKey_sorted {α : Type} (x : Str × α) : ∀ {d : Dict α}, d.Pairwise (fun x y => strLe x.1 y.1 = true) →
    (insertKey x d).Pairwise (fun x y => strLe x.1 y.1 = true)
  | [], _ => by simp [insertKey]
  | y :: d, h => by
    rw [List.pairwise_cons] at h
    rw [insertKey]
    split
    · next hxy =>
      refine List.pairwise_cons.2 ⟨fun z hz => ?_, List.pairwise_cons.2 h⟩
      rcases List.mem_cons.1 hz with rfl | hz
      · exact hxy
      · exact strLe_trans hxy (h.1 z hz)
    · next hxy =>
      refine List.pairwise_cons.2 ⟨fun z hz => ?_, insertKey_sorted x h.2⟩
      rcases List.mem_cons.1 ((insertKey_perm x d).mem_iff.1 hz) with rfl | hz
      · exact (strLe_total _ _).resolve_left hxy
      · exact h.1 z hz

theorem sortKeys_pairwise {α : Type} : ∀ d : Dict α, (sortKeys d).Pairwise fun x y => strLe x.1 y.1 = true
  | [] => .nil
  | x :: d => insertKey_sorted x (sortKeys_pairwise d)

/-- the order of the items of a dict does not matter when they are sorted -/
theorem sortKeys_eq {α : Type} {d e : Dict α} (hd : (d.map (·.1)).Nodup) (h : d.Perm e) : sortKeys d = sortKeys e := by
  refine List.Perm.eq_of_pairwise ?_ (sortKeys_pairwise d) (sortKeys_pairwise e)
    ((sortKeys_perm d).trans (h.trans (sortKeys_perm e).symm))
  rintro ⟨k, v⟩ ⟨k', v'⟩ ha hb h1 h2
  obtain rfl : k = k' := strLe_antisymm h1 h2
  rw [(sortKeys_perm d).mem_iff, get_mem hd] at ha
  rw [(sortKeys_perm e).mem_iff, ← h.mem_iff, get_mem hd, ha] at hb
  cases hb
  rfl

theorem attrText_eq {a b : Dict (Option Str)} (ha : (a.map (·.1)).Nodup) (hb : (b.map (·.1)).Nodup)
    (h : ∀ k, dictGet k a = dictGet k b) : attrText a = attrText b := by
  have hp := perm_of_get ha hb h
  unfold attrText dict2string
  rw [sortKeys_eq ?_ (hp.map _)]
  rw [List.map_map]
  exact ha

/-! ## Trees -/

theorem attr_table : ∀ lang : Lang, ∀ km ∈ methTable lang, (km.2 = .a → km.1 = c!"a") ∧ (km.2 = .img → km.1 = c!"img")
  | .creole => by decide +kernel
  | .textile => by decide +kernel
  | .markdown => by decide +kernel
  | .rest => by decide +kernel

theorem runNode_same {cfg : Cfg} {anc : List Str} {i j : HInfo} (hk : i.kind = j.kind) (hc : i.content = j.content)
    (hl : i.level = j.level) (hi : (i.attrs.map (·.1)).Nodup) (hj : (j.attrs.map (·.1)).Nodup)
    (h : SameAttrs (nodeMatters cfg i.kind) i.attrs j.attrs) (ch : EmM Str) : runNode cfg anc i ch = runNode cfg anc j ch := by
  have h : ∀ k, nodeMatters cfg i.kind k = true → dictGet k i.attrs = dictGet k j.attrs := fun k hk => by
    rw [← attrGet_dict hi, ← attrGet_dict hj]; exact h k hk
  obtain ⟨kind, content, attrs, level⟩ := i
  obtain ⟨_, _, attrs', _⟩ := j
  cases hk; cases hc; cases hl
  dsimp only at h hi hj
  unfold runNode
  dsimp only
  by_cases hknown : kind ∈ knownKinds cfg.lang
  · obtain ⟨m, hm⟩ := methodOf_known hknown
    rw [hm]
    have ht := attr_table cfg.lang (kind, m) (lookup_mem hm)
    have hu : ∀ k, k ∈ usedAttrs cfg kind → dictGet k attrs = dictGet k attrs' := fun k hk => by
      refine h k ?_
      rw [nodeMatters, if_pos (by simpa using hknown)]
      simpa using hk
    dsimp only
    cases m with
    | a =>
      obtain rfl := ht.1 rfl
      have h1 := hu c!"href" (by unfold usedAttrs; rw [if_pos rfl]; split <;> simp)
      unfold runMeth
      dsimp only
      split
      · unfold creoleLink; rw [h1]
      · unfold textileLink; rw [h1]
      · next hl =>
        have h2 := hu c!"title" (by simp [usedAttrs, hl])
        unfold mdLink; rw [h1, h2]
      · unfold restLink; rw [h1]
    | img =>
      obtain rfl := ht.2 rfl
      have hne : ¬ (c!"img" = c!"a") := by decide
      have h1 := hu c!"src" (by unfold usedAttrs; rw [if_neg hne, if_pos rfl]; split <;> simp)
      have h2 := hu c!"alt" (by unfold usedAttrs; rw [if_neg hne, if_pos rfl]; split <;> simp)
      have h3 := hu c!"title" (by unfold usedAttrs; rw [if_neg hne, if_pos rfl]; split <;> simp)
      have hs : imgSrc attrs = imgSrc attrs' := by unfold imgSrc; rw [h1]
      have ht : ∀ src, imgText attrs src = imgText attrs' src := fun src => by unfold imgText; rw [h2, h3]
      unfold runMeth
      dsimp only
      split
      · next hl =>
        unfold creoleImg
        rw [hs]
        congr 1
        funext src
        cases src with
        | none => rfl
        | some src =>
          dsimp only
          rw [ht]
          congr 1
          funext text
          cases hst : cfg.strict with
          | true => rfl
          | false =>
            rw [hu c!"height" (by simp [usedAttrs, hl, hst]), hu c!"width" (by simp [usedAttrs, hl, hst])]
      · unfold textileImg; simp only [hs, ht]
      · unfold mdImg; rw [h1, h2, h3]
      · unfold restImg; simp only [hs, ht]
    | _ => rfl
  · rw [methodOf_unknown hknown]
    dsimp only
    unfold unknownEmit
    dsimp only
    cases hp : cfg.policy with
    | transparent => rfl
    | raise => rfl
    | _ =>
      have : attrText attrs = attrText attrs' := attrText_eq hi hj fun k => h k (by
        rw [nodeMatters, if_neg (by simpa using hknown), hp]; rfl)
      simp only [maskContent, escapeUnknown, this]

mutual

theorem emitNode_alike {cfg : Cfg} (anc : List Str) : ∀ {n n' : HNode}, SameNode cfg n n' → emitNode cfg anc n = emitNode cfg anc n'
  | _, _, .mk i j ch ch' hk hc hl hi hj ha hch => by
    have hs : setLast i = setLast j := by unfold setLast; rw [hk, hc]
    rw [emitNode_run, emitNode_run, runNode_same hk hc hl hi hj ha, hk, hs, emitNodes_alike (j.kind :: anc) hch]

theorem emitNodes_alike {cfg : Cfg} (anc : List Str) : ∀ {ns ns' : List HNode}, SameNodes cfg ns ns' →
    emitNodes cfg anc ns = emitNodes cfg anc ns'
  | _, _, .nil => rfl
  | _, _, .cons h hs => by rw [emitNodes_cons, emitNodes_cons, emitNode_alike anc h, emitNodes_alike anc hs]

end

/-- **C86, trees.**  Two document trees that differ only in attributes which the converter does not use are converted to the
same text, or both fail with the same exception. -/
theorem C86_tree (cfg : Cfg) {root root' : HNode} (h : SameNode cfg root root') : emit cfg root = emit cfg root' := by
  unfold emit
  rw [emitNode_alike [] h]

/-! ## Events -/

theorem sameNodes_append {cfg : Cfg} : ∀ {a a' b b' : List HNode}, SameNodes cfg a a' → SameNodes cfg b b' →
    SameNodes cfg (a ++ b) (a' ++ b')
  | _, _, _, _, .nil, h => h
  | _, _, _, _, .cons h hs, h' => .cons h (sameNodes_append hs h')

theorem sameNodes_reverse {cfg : Cfg} : ∀ {a a' : List HNode}, SameNodes cfg a a' → SameNodes cfg a.reverse a'.reverse
  | _, _, .nil => .nil
  | _, _, .cons h hs => by
    rw [List.reverse_cons, List.reverse_cons]
    exact sameNodes_append (sameNodes_reverse hs) (.cons h .nil)

/-- the attributes of two nodes -/
structure SameInfo (cfg : Cfg) (i j : HInfo) : Prop where
  kind : i.kind = j.kind
  content : i.content = j.content
  level : i.level = j.level
  keys : (i.attrs.map (·.1)).Nodup
  keys' : (j.attrs.map (·.1)).Nodup
  attrs : SameAttrs (nodeMatters cfg i.kind) i.attrs j.attrs

theorem SameInfo.node {cfg : Cfg} {i j : HInfo} {ch ch' : List HNode} (h : SameInfo cfg i j) (hs : SameNodes cfg ch ch') :
    SameNode cfg (.mk i ch) (.mk j ch') := .mk i j ch ch' h.kind h.content h.level h.keys h.keys' h.attrs hs

/-- nodes without attributes -/
theorem SameInfo.bare (cfg : Cfg) (i : HInfo) (h : i.attrs = []) : SameInfo cfg i i :=
  ⟨rfl, rfl, rfl, by simp [h], by simp [h], fun _ _ => rfl⟩

theorem SameInfo.of (cfg : Cfg) (kind : Str) (level : Option Int) {a b : List (Str × Option Str)}
    (h : SameAttrs (nodeMatters cfg kind) a b) :
    SameInfo cfg { kind, attrs := dictOf a, level } { kind, attrs := dictOf b, level } :=
  ⟨rfl, rfl, rfl, keys_dictOf a, keys_dictOf b, fun k hk => by
    dsimp only
    rw [attrGet_dict (keys_dictOf a), attrGet_dict (keys_dictOf b), dictGet_of, dictGet_of, h k hk]⟩

structure SameFrame (cfg : Cfg) (f g : Frame) : Prop where
  info : SameInfo cfg f.info g.info
  done : SameNodes cfg f.done g.done

inductive SameFrames (cfg : Cfg) : List Frame → List Frame → Prop
  | nil : SameFrames cfg [] []
  | cons {f g : Frame} {fs gs : List Frame} : SameFrame cfg f g → SameFrames cfg fs gs → SameFrames cfg (f :: fs) (g :: gs)

structure SameSt (cfg : Cfg) (s t : PSt) : Prop where
  top : SameFrame cfg s.top t.top
  below : SameFrames cfg s.below t.below
  lost : s.lost = t.lost
  level : s.listLevel = t.listLevel

theorem SameFrame.close {cfg : Cfg} {f g top top' : Frame} (ht : SameFrame cfg top top') (h : SameFrame cfg f g) :
    SameFrame cfg (top.close f) (top'.close g) :=
  ⟨h.info, .cons (ht.info.node (sameNodes_reverse ht.done)) h.done⟩

theorem SameSt.addLeaf {cfg : Cfg} {s t : PSt} (h : SameSt cfg s t) {i j : HInfo} (hi : SameInfo cfg i j) :
    SameSt cfg (s.addLeaf i) (t.addLeaf j) := by
  unfold PSt.addLeaf PSt.leaf
  rw [← h.lost]
  split
  · exact h
  · exact ⟨⟨h.top.info, .cons (hi.node .nil) h.top.done⟩, h.below, rfl, h.level⟩

theorem SameSt.open {cfg : Cfg} {s t : PSt} (h : SameSt cfg s t) {i j : HInfo} (hi : SameInfo cfg i j) :
    SameSt cfg (s.open i) (t.open j) := by
  unfold PSt.open
  rw [← h.lost]
  split
  · exact h
  · exact ⟨⟨hi, .nil⟩, .cons h.top h.below, rfl, h.level⟩

theorem SameSt.up {cfg : Cfg} {s t : PSt} (h : SameSt cfg s t) : SameSt cfg s.up t.up := by
  unfold PSt.up
  rw [← h.lost]
  split
  · exact h
  · have := h.below
    revert this
    cases s.below <;> cases t.below <;> intro hb
    · exact ⟨h.top, .nil, rfl, h.level⟩
    · cases hb
    · cases hb
    · cases hb with
      | cons h1 h2 => exact ⟨h.top.close h1, h2, rfl, h.level⟩

theorem uptoFrames_same {cfg : Cfg} : ∀ {below below' : List Frame} {top top' : Frame}, SameFrame cfg top top' →
    SameFrames cfg below below' →
    SameFrame cfg (uptoFrames top below).1 (uptoFrames top' below').1 ∧
      SameFrames cfg (uptoFrames top below).2 (uptoFrames top' below').2
  | _, _, _, _, ht, .nil => ⟨ht, .nil⟩
  | _, _, _, _, ht, .cons h hs => by
    simp only [uptoFrames]
    have hc := ht.close h
    rw [← hc.info.kind]
    split
    · exact ⟨hc, hs⟩
    · exact uptoFrames_same hc hs

theorem SameSt.goUp {cfg : Cfg} {s t : PSt} (h : SameSt cfg s t) : SameSt cfg s.goUp t.goUp := by
  unfold PSt.goUp
  rw [← h.lost]
  split
  · exact h
  · have := uptoFrames_same h.top h.below
    exact ⟨this.1, this.2, rfl, h.level⟩

theorem SameSt.handleEnd {cfg : Cfg} {s t : PSt} (h : SameSt cfg s t) (tag : Str) : SameSt cfg (handleEnd s tag) (handleEnd t tag) := by
  unfold Html.handleEnd
  split
  · exact h
  · split
    · exact h
    · have h1 : SameSt cfg (if tag = c!"ul" || tag = c!"ol" then { s with listLevel := s.listLevel - 1 } else s)
          (if tag = c!"ul" || tag = c!"ol" then { t with listLevel := t.listLevel - 1 } else t) := by
        split
        · exact ⟨h.top, h.below, h.lost, by simp [h.level]⟩
        · exact h
      dsimp only
      split
      · exact h1.goUp
      · exact h1.up

theorem SameSt.handleStart {cfg : Cfg} {s t : PSt} (h : SameSt cfg s t) (tag : Str) {a b : List (Str × Option Str)}
    (hab : SameAttrs (tagMatters cfg false tag) a b) : SameSt cfg (handleStart s tag a) (handleStart t tag b) := by
  unfold Html.handleStart
  split
  · exact h
  · next hig =>
    split
    · exact h.open (.bare cfg _ rfl)
    · next hh =>
      have hab : SameAttrs (nodeMatters cfg tag) a b := fun k hk => hab k (by
        have : headline? tag = none := hh
        have h2 : tag ≠ c!"tbody" := by
          rintro rfl
          exact hig (by decide)
        simp only [tagMatters, Bool.false_and, Bool.false_eq_true, if_false, this, h2]
        simpa using hk)
      split
      · rw [h.level]; exact h.open (.of cfg tag _ hab)
      · split
        · dsimp only
          rw [h.level]
          exact SameSt.open (s := { s with listLevel := t.listLevel + 1 }) (t := { t with listLevel := t.listLevel + 1 })
            ⟨h.top, h.below, h.lost, rfl⟩ (.of cfg tag _ hab)
        · split
          · exact h.addLeaf (.of cfg tag _ hab)
          · exact h.open (.of cfg tag _ hab)

/-- the results of two computations: the same exception, or related values -/
inductive SameRes {α : Type} (R : α → α → Prop) : Except PyErr α → Except PyErr α → Prop
  | ok {x y : α} : R x y → SameRes R (.ok x) (.ok y)
  | error (e : PyErr) : SameRes R (.error e) (.error e)

theorem handle_same {cfg : Cfg} (bd : List Str) {s t : PSt} (h : SameSt cfg s t) {e e' : Event} (he : SameEvent cfg e e') :
    SameRes (SameSt cfg) (handle bd s e) (handle bd t e') := by
  have hse : ∀ (tag : Str) (a b : List (Str × Option Str)), SameAttrs (tagMatters cfg true tag) a b →
      SameRes (SameSt cfg) (handleStartEnd bd s tag a) (handleStartEnd bd t tag b) := by
    intro tag a b hab
    unfold handleStartEnd
    split
    · next hp =>
      have hp' : (tag = c!"blockdata" || tag = c!"inlinedata") = true := hp
      have hg : ∀ k, (k = c!"id" ∨ k = c!"type") → dictGet k (dictOf a) = dictGet k (dictOf b) := fun k hk => by
        rw [dictGet_of, dictGet_of]
        refine hab k ?_
        simp only [tagMatters, Bool.true_and, hp', if_true]
        simpa using hk
      have : placeholderNode bd tag (dictOf a) = placeholderNode bd tag (dictOf b) := by
        unfold placeholderNode
        rw [hg _ (.inl rfl), hg _ (.inr rfl)]
      rw [this]
      cases hr : placeholderNode bd tag (dictOf b) with
      | error x => exact .error x
      | ok i =>
        refine .ok (h.addLeaf (.bare cfg i ?_))
        unfold placeholderNode at hr
        simp only [bind, Except.bind, pure, Except.pure] at hr
        repeat' split at hr
        all_goals first | cases hr; done | (cases hr; rfl)
    · next hp =>
      refine .ok (h.addLeaf (.of cfg tag _ fun k hk => hab k ?_))
      have hp' : ¬ (tag = c!"blockdata" || tag = c!"inlinedata") = true := hp
      simp only [tagMatters, Bool.true_and, hp', Bool.not_true, Bool.false_and]
      simpa using hk
  cases he with
  | start tag a b hab => exact .ok (h.handleStart tag hab)
  | startend tag a b hab => exact hse tag a b hab
  | same e =>
    cases e with
    | start tag a => exact .ok (h.handleStart tag fun _ _ => rfl)
    | startend tag a => exact hse tag a a fun _ _ => rfl
    | end_ tag => exact .ok (h.handleEnd tag)
    | data d => exact .ok (h.addLeaf (.bare cfg _ rfl))
    | charref d => exact .ok (h.addLeaf (.bare cfg _ rfl))
    | entityref d => exact .ok (h.addLeaf (.bare cfg _ rfl))

theorem closeAll_same {cfg : Cfg} : ∀ {below below' : List Frame} {top top' : Frame}, SameFrame cfg top top' →
    SameFrames cfg below below' → SameNode cfg (closeAll top below) (closeAll top' below')
  | _, _, _, _, ht, .nil => ht.info.node (sameNodes_reverse ht.done)
  | _, _, _, _, ht, .cons h hs => by rw [closeAll, closeAll]; exact closeAll_same (ht.close h) hs

theorem fold_same {cfg : Cfg} (bd : List Str) : ∀ {es es' : List Event} {s t : PSt}, SameSt cfg s t → SameEvents cfg es es' →
    SameRes (SameSt cfg) (es.foldlM (handle bd) s) (es'.foldlM (handle bd) t)
  | _, _, _, _, h, .nil => .ok h
  | _, _, s, t, h, .cons (e := e) (e' := e') he hes => by
    rw [List.foldlM_cons, List.foldlM_cons]
    have := handle_same bd h he
    revert this
    cases handle bd s e <;> cases handle bd t e' <;> intro hr <;> cases hr
    · exact .error _
    · next hr => exact fold_same bd hr hes

/-- the parser makes trees that differ in attributes which do not matter -/
theorem runEvents_same (cfg : Cfg) (bd : List Str) {es es' : List Event} (h : SameEvents cfg es es') (err : Option PyErr) :
    SameRes (SameNode cfg) (runEvents bd es err) (runEvents bd es' err) := by
  unfold runEvents
  have := fold_same (cfg := cfg) bd (s := {}) (t := {}) ⟨⟨.bare cfg _ rfl, .nil⟩, .nil, rfl, rfl⟩ h
  revert this
  cases List.foldlM (handle bd) {} es <;> cases List.foldlM (handle bd) {} es' <;> intro hr <;> cases hr
  · exact .error _
  · next hr =>
    cases err with
    | some e => exact .error e
    | none => exact .ok (closeAll_same hr.top hr.below)

theorem SameRes.emit {cfg : Cfg} {r r' : Except PyErr HNode} (h : SameRes (SameNode cfg) r r') :
    (r >>= emit cfg) = (r' >>= emit cfg) := by
  cases h with
  | error e => rfl
  | ok h => exact C86_tree cfg h

/-- **C86, tags.**  If the sequences of tags and texts of two documents differ only in attributes that do not matter, the
documents are converted to the same text, or both conversions fail with the same exception. -/
theorem C86_tags (cfg : Cfg) (bd : List Str) {es es' : List Event} (h : SameEvents cfg es es') (err : Option PyErr) :
    (runEvents bd es err >>= emit cfg) = (runEvents bd es' err >>= emit cfg) :=
  (runEvents_same cfg bd h err).emit

/-! ## Written documents -/

theorem sameEvents_append {cfg : Cfg} : ∀ {a a' b b' : List Event}, SameEvents cfg a a' → SameEvents cfg b b' →
    SameEvents cfg (a ++ b) (a' ++ b')
  | _, _, _, _, .nil, h => h
  | _, _, _, _, .cons h hs, h' => .cons h (sameEvents_append hs h')

theorem attrGet_map {α β : Type} (f : α → β) (k : Str) (a : List (Str × α)) :
    attrGet k (a.map fun x => (x.1, f x.2)) = (attrGet k a).map f := by
  unfold attrGet
  rw [← List.map_reverse]
  induction a.reverse with
  | nil => rfl
  | cons x l ih =>
    obtain ⟨k', v⟩ := x
    rw [List.map_cons, List.lookup_cons, List.lookup_cons, ih]
    dsimp only
    cases k == k' <;> rfl

theorem sameAttrs_some {m : Str → Bool} {a b : List (Str × Str)} (h : SameAttrs m a b) :
    SameAttrs m (a.map fun x => (x.1, some x.2)) (b.map fun x => (x.1, some x.2)) := fun k hk => by
  rw [attrGet_map, attrGet_map, h k hk]

theorem tbody_events (as : List (Str × Str)) (tag : Str) (ch : List El) :
    (if tag = c!"tbody" ∧ as = [] then El.tbody ch else .elem tag (as.map fun a => (a.1, some a.2)) ch).events =
      .start tag (as.map fun a => (a.1, some a.2)) :: (eventsL ch ++ [.end_ tag]) := by
  split
  · next h => obtain ⟨rfl, rfl⟩ := h; rw [El.events]; rfl
  · rw [El.events]

/-- two sequences of elements -/
inductive SameEls (cfg : Cfg) : List El → List El → Prop
  | nil : SameEls cfg [] []
  | same (e : El) {l l' : List El} : SameEls cfg l l' → SameEls cfg (e :: l) (e :: l')
  | tags {e e' : El} {l l' : List El} : (∀ d, e ≠ .text d) → (∀ d, e' ≠ .text d) → SameEvents cfg e.events e'.events →
      SameEls cfg l l' → SameEls cfg (e :: l) (e' :: l')

theorem sameEvents_refl (cfg : Cfg) : ∀ l : List Event, SameEvents cfg l l
  | [] => .nil
  | e :: l => .cons (.same e) (sameEvents_refl cfg l)

theorem SameEls.events {cfg : Cfg} : ∀ {l l' : List El}, SameEls cfg l l' → SameEvents cfg (eventsL l) (eventsL l')
  | _, _, .nil => .nil
  | _, _, .same e h => by rw [eventsL, eventsL]; exact sameEvents_append (sameEvents_refl cfg _) h.events
  | _, _, .tags _ _ he h => by rw [eventsL, eventsL]; exact sameEvents_append he h.events

theorem SameEls.addChar {cfg : Cfg} (c : Char) {l l' : List El} (h : SameEls cfg l l') : SameEls cfg (addChar c l) (addChar c l') := by
  unfold Hd.addChar
  split
  · exact .same _ h
  · cases h with
    | nil => exact .same _ .nil
    | same e h =>
      cases e with
      | text d => exact .same _ h
      | _ => exact .same _ (.same _ h)
    | @tags e e' l l' h1 h2 he h =>
      have hr : SameEls cfg (.text [c] :: e :: l) (.text [c] :: e' :: l') := .same _ (.tags h1 h2 he h)
      cases e with
      | text d => exact absurd rfl (h1 d)
      | _ =>
        cases e' with
        | text d => exact absurd rfl (h2 d)
        | _ => exact hr

theorem SameEls.chars {cfg : Cfg} {l l' : List El} (h : SameEls cfg l l') : ∀ s : Str,
    SameEls cfg (s.foldr Hd.addChar l) (s.foldr Hd.addChar l')
  | [] => h
  | c :: s => by rw [List.foldr_cons, List.foldr_cons]; exact (h.chars s).addChar c

mutual

theorem els_same {cfg : Cfg} : ∀ {x y : Ht}, SameHt cfg x y → x.ok = true → ∀ {l l' : List El}, SameEls cfg l l' →
    SameEls cfg (x.els l) (y.els l')
  | _, _, .text s, _, _, _, h => by simp only [Ht.els]; exact h.chars s
  | _, _, .white s, _, _, _, h => by simp only [Ht.els]; exact h
  | _, _, .el tag a b ch ch' hab hch, hok, _, _, h => by
    simp only [Ht.ok, Bool.and_eq_true] at hok
    simp only [Ht.els]
    refine .tags ?_ ?_ ?_ h
    · intro d; split <;> simp
    · intro d; split <;> simp
    · rw [tbody_events, tbody_events]
      exact .cons (.start tag _ _ (sameAttrs_some hab)) (sameEvents_append (elsL_same hch hok.2).events (sameEvents_refl cfg _))
  | _, _, .void tag a b hab, _, _, _, h => by
    simp only [Ht.els]
    refine .tags (by simp) (by simp) ?_ h
    rw [El.events, El.events]
    exact .cons (.startend tag _ _ (sameAttrs_some hab)) .nil
  | _, _, .bare tag a b hab, hok, _, _, h => by
    simp only [Ht.els]
    refine .tags (by simp) (by simp) ?_ h
    rw [El.events, El.events]
    refine .cons (.startend tag _ _ (sameAttrs_some fun k hk => hab k ?_)) .nil
    simp only [Ht.ok, Bool.and_eq_true, Bool.or_eq_true, beq_iff_eq] at hok
    rcases hok.1 with rfl | rfl
    · simpa [tagMatters, headline?] using hk
    · simpa [tagMatters, headline?] using hk

theorem elsL_same {cfg : Cfg} : ∀ {l l' : List Ht}, SameHts cfg l l' → okL l = true → SameEls cfg (elsL l) (elsL l')
  | _, _, .nil, _ => .nil
  | _, _, .cons h hs, hok => by
    simp only [okL, Bool.and_eq_true] at hok
    rw [elsL, elsL]
    exact els_same h hok.1 (elsL_same hs hok.2)

end

/-- what the parser does with a document whose blanks are in order -/
theorem parse_neat {l : List Ht} (h : neat l = true) : parseHtml (written l) = runEvents [] (eventsL (elsL l)) none := by
  have hok : okL l = true := by simp only [neat, Bool.and_eq_true] at h; exact h.1.1
  unfold parseHtml
  rw [preprocess_doc h]
  exact run_doc [] hok

/-- bits that differ in the texts of tags -/
inductive SameBits : List Bit → List Bit → Prop
  | nil : SameBits [] []
  | same (b : Bit) {l l' : List Bit} : SameBits l l' → SameBits (b :: l) (b :: l')
  | tag (k : TagKind) (s s' : Str) {l l' : List Bit} : SameBits l l' → SameBits (.tag k s :: l) (.tag k s' :: l')

theorem SameBits.append : ∀ {a a' b b' : List Bit}, SameBits a a' → SameBits b b' → SameBits (a ++ b) (a' ++ b')
  | _, _, _, _, .nil, h => h
  | _, _, _, _, .same b hs, h => .same b (hs.append h)
  | _, _, _, _, .tag k s s' hs, h => .tag k s s' (hs.append h)

theorem SameBits.refl : ∀ a : List Bit, SameBits a a
  | [] => .nil
  | b :: a => .same b (.refl a)

theorem SameBits.atBlock : ∀ {a a' : List Bit}, SameBits a a' → atBlock a = atBlock a'
  | _, _, .nil => rfl
  | _, _, .tag k s s' h => by cases k <;> rfl
  | _, _, .same b h => by
    cases b with
    | white s => simp only [Hd.atBlock]; exact h.atBlock
    | tag k s => cases k <;> rfl
    | ref s => rfl
    | chr c => rfl

theorem SameBits.afterBlank {a a' : List Bit} (h : SameBits a a') : afterBlank a = afterBlank a' := by
  cases h with
  | nil => rfl
  | tag k s s' h => cases k <;> rfl
  | same b h =>
    cases b with
    | tag k s => cases k <;> rfl
    | _ => rfl

theorem SameBits.spaced : ∀ {a a' : List Bit}, SameBits a a' → ∀ b : Before, spaced b a = spaced b a'
  | _, _, .nil, b => rfl
  | _, _, .tag k s s' h, b => by cases k <;> simp only [Hd.spaced] <;> exact h.spaced _
  | _, _, .same x h, b => by
    cases x with
    | white s => simp only [Hd.spaced, h.atBlock, h.spaced]
    | chr c => simp only [Hd.spaced, h.afterBlank, h.spaced]
    | ref s => simp only [Hd.spaced, h.spaced]
    | tag k s => cases k <;> simp only [Hd.spaced] <;> exact h.spaced _

theorem SameBits.whites : ∀ {a a' : List Bit}, SameBits a a' → a.map Bit.isWhite = a'.map Bit.isWhite
  | _, _, .nil => rfl
  | _, _, .tag k s s' h => by rw [List.map_cons, List.map_cons, h.whites]; rfl
  | _, _, .same b h => by rw [List.map_cons, List.map_cons, h.whites]

theorem SameBits.bareEdges {a a' : List Bit} (h : SameBits a a') : bareEdges a = bareEdges a' := by
  have h1 : ∀ l : List Bit, (l.head?).any Bit.isWhite = ((l.map Bit.isWhite).head?).any id := fun l => by cases l <;> rfl
  have h2 : ∀ l : List Bit, (l.getLast?).any Bit.isWhite = ((l.map Bit.isWhite).getLast?).any id := fun l => by
    rw [List.getLast?_map]; cases l.getLast? <;> rfl
  unfold Hd.bareEdges
  rw [h1, h2, h1, h2, h.whites]

mutual

theorem bits_same {cfg : Cfg} : ∀ {x y : Ht}, SameHt cfg x y → SameBits x.bits y.bits
  | _, _, .text s => .refl _
  | _, _, .white s => .refl _
  | _, _, .el tag a b ch ch' _ hch => by
    simp only [Ht.bits]
    exact .tag _ _ _ ((bitsL_same hch).append (.refl _))
  | _, _, .void tag a b _ => by simp only [Ht.bits]; exact .tag _ _ _ .nil
  | _, _, .bare tag a b _ => by simp only [Ht.bits]; exact .tag _ _ _ .nil

theorem bitsL_same {cfg : Cfg} : ∀ {l l' : List Ht}, SameHts cfg l l' → SameBits (bitsL l) (bitsL l')
  | _, _, .nil => .nil
  | _, _, .cons h hs => by rw [bitsL, bitsL]; exact (bits_same h).append (bitsL_same hs)

end

/-- **C86.**  If two HTML documents differ only in attributes that do not matter - because the converter does not use them, or
only in their order - they are converted to the same text, or both conversions fail with the same exception. -/
theorem C86_written (cfg : Cfg) {l l' : List Ht} (h : neat l = true) (hok : okL l' = true) (hs : SameHts cfg l l') :
    convert cfg (written l) = convert cfg (written l') := by
  have h' : neat l' = true := by
    have hb := bitsL_same hs
    simp only [neat, Bool.and_eq_true] at h ⊢
    exact ⟨⟨hok, by rw [← hb.spaced]; exact h.1.2⟩, by rw [← hb.bareEdges]; exact h.2⟩
  have hk : okL l = true := by simp only [neat, Bool.and_eq_true] at h; exact h.1.1
  unfold convert
  rw [parse_neat h, parse_neat h']
  exact C86_tags cfg [] (elsL_same hs hk).events none

/-! ## Examples -/

/-- a page with classes and styles, and one without them -/
def styledHtml : List Ht := [
  .el c!"h1" [(c!"id", c!"top")] [.text c!"T"],
  .el c!"p" [(c!"class", c!"x")] [.text c!"A ", .el c!"a" [(c!"class", c!"l"), (c!"href", c!"/x")] [.text c!"b"]],
  .el c!"table" [(c!"border", c!"1")] [.el c!"tbody" [(c!"id", c!"t")] [.el c!"tr" [] [.el c!"td" [(c!"width", c!"9")] [.text c!"c"]]]]]
def plainHtml : List Ht := [
  .el c!"h1" [] [.text c!"T"],
  .el c!"p" [] [.text c!"A ", .el c!"a" [(c!"href", c!"/x")] [.text c!"b"]],
  .el c!"table" [] [.el c!"tbody" [] [.el c!"tr" [] [.el c!"td" [] [.text c!"c"]]]]]

example : neat styledHtml = true ∧ okL plainHtml = true ∧
    written styledHtml = c!"<h1 id=\"top\">T</h1><p class=\"x\">A <a class=\"l\" href=\"/x\">b</a></p><table border=\"1\"><tbody id=\"t\"><tr><td width=\"9\">c</td></tr></tbody></table>" := by
  decide +kernel

/-- no attribute matters, for all values -/
theorem sameAttrs_none {m : Str → Bool} {a b : List (Str × Str)} (h : ∀ k, m k = false) : SameAttrs m a b := fun k hk => by
  rw [h k] at hk; cases hk

/-- only the given attributes matter -/
theorem sameAttrs_used {m : Str → Bool} {used : List Str} {a b : List (Str × Str)} (h : ∀ k, m k = used.contains k)
    (hab : ∀ k ∈ used, attrGet k a = attrGet k b) : SameAttrs m a b := fun k hk => hab k (by rw [h k] at hk; simpa using hk)

/-- the two pages are converted to the same text by every converter -/
example (lang : Lang) (hosts : Str → Bool) :
    convert { lang, netlocOk := hosts } (written styledHtml) = convert { lang, netlocOk := hosts } (written plainHtml) := by
  refine C86_written _ (by decide +kernel) (by decide +kernel) ?_
  refine .cons (.el _ _ _ _ _ (sameAttrs_none fun k => ?_) (.cons (.text _) .nil))
    (.cons (.el _ _ _ _ _ (sameAttrs_none fun k => ?_) (.cons (.text _) (.cons (.el _ _ _ _ _ ?_ (.cons (.text _) .nil)) .nil)))
    (.cons (.el _ _ _ _ _ (sameAttrs_none fun k => ?_) (.cons (.el _ _ _ _ _ (sameAttrs_none fun k => ?_)
      (.cons (.el _ _ _ _ _ (fun _ _ => rfl) (.cons (.el _ _ _ _ _ (sameAttrs_none fun k => ?_) (.cons (.text _) .nil)) .nil)) .nil)) .nil))
    .nil))
  · rfl
  · cases lang <;> rfl
  · cases lang
    · exact sameAttrs_used (used := [c!"href"]) (fun k => rfl) (by decide)
    · exact sameAttrs_used (used := [c!"href"]) (fun k => rfl) (by decide)
    · exact sameAttrs_used (used := [c!"href", c!"title"]) (fun k => rfl) (by decide)
    · exact sameAttrs_used (used := [c!"href"]) (fun k => rfl) (by decide)
  · cases lang <;> rfl
  · rfl
  · cases lang <;> rfl

/-- the text -/
example : html2creole (written styledHtml) = .ok c!"= T\n\nA [[/x|b]]\n\n| c |" := by decide +kernel

/-- An attribute that is used matters, also if it is only repeated: the last one counts. -/
theorem C86_last_counts : html2creole c!"<a href=\"x\" href=\"y\">b</a>" = .ok c!"[[y|b]]" := by decide +kernel

/-- Tags that the converter does not know are written with their attributes, sorted by name. -/
theorem C86_unknown_sorted : html2creole c!"<x b=\"1\" a=\"2\">t</x>" .escape = .ok c!"&lt;x a=\"2\" b=\"1\"&gt;t&lt;/x&gt;" ∧
    html2creole c!"<x a=\"2\" b=\"1\">t</x>" .escape = .ok c!"&lt;x a=\"2\" b=\"1\"&gt;t&lt;/x&gt;" := by decide +kernel

end Verif.Props
