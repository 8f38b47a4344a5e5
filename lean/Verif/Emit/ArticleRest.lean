import Verif.Emit.ArticleBlocks
import Verif.Spec.ArticleRest

/-!
# The ReStructuredText emitter on the elements of articles
-/

namespace Verif.Emit

open Verif Py Html Spec Spec.Hd Spec.Ar Props

/-! ## The attributes -/

/-- an address that is not empty for every text -/
def Given (l : List (Str × Str)) : Prop := ∀ p ∈ l, p.2 ≠ []

/-- the dictionary of the emitter -/
def asDict (l : List (Str × Str)) : Dict (Option Str) := l.map fun p => (p.1, some p.2)

/-- the attributes tell what the specification knows -/
structure Holds (s : ESt) (r : Refs) : Prop where
  links : s.usedLinks = asDict r.links
  pictures : s.usedImages = asDict r.pictures
  waiting : s.subst = r.waiting
  mark : s.listMarkup = r.mark
  inner : s.innerList = []
  urls : Given r.links
  srcs : Given r.pictures
  markLine : '\n' ∉ r.mark

theorem Holds.enter {s : ESt} {r : Refs} (h : Holds s r) (i : HInfo) : Holds (enter i s) r :=
  ⟨h.links, h.pictures, h.waiting, h.mark, h.inner, h.urls, h.srcs, h.markLine⟩

/-- an operation that does what the specification says -/
def Does {α β : Type} (x : EmM α) (s : ESt) (R : α → ESt → β → Prop) : Option (β × Refs) → Prop
  | none => x s = .error .html2rest
  | some (b, r) => ∃ a s', x s = .ok (a, s') ∧ Holds s' r ∧ R a s' b

theorem Does.bind {α β γ δ : Type} {x : EmM α} {f : α → EmM γ} {s : ESt} {R : α → ESt → β → Prop} {R' : γ → ESt → δ → Prop}
    {o : Option (β × Refs)} {g : β × Refs → Option (δ × Refs)} (h : Does x s R o)
    (hf : ∀ a s' b r, Holds s' r → R a s' b → Does (f a) s' R' (g (b, r))) : Does (x >>= f) s R' (o.bind g) := by
  cases o with
  | none =>
    have h : x s = .error .html2rest := h
    show (x >>= f) s = .error .html2rest
    rw [bind_run, h]
  | some p =>
    obtain ⟨b, r⟩ := p
    obtain ⟨a, s', h1, h2, h3⟩ := h
    have := hf a s' b r h2 h3
    rw [Option.bind_some]
    cases hg : g (b, r) with
    | none =>
      rw [hg] at this
      show (x >>= f) s = .error .html2rest
      rw [bind_run, h1]
      exact this
    | some q =>
      obtain ⟨d, r'⟩ := q
      rw [hg] at this
      obtain ⟨c, s'', h4, h5, h6⟩ := this
      exact ⟨c, s'', by rw [bind_run, h1]; exact h4, h5, h6⟩

/-- the last operation cannot fail -/
theorem Does.map {α β γ δ : Type} {x : EmM α} {f : α → EmM γ} {s : ESt} {R : α → ESt → β → Prop} {R' : γ → ESt → δ → Prop}
    {o : Option (β × Refs)} {g : β × Refs → δ × Refs} (h : Does x s R o)
    (hf : ∀ a s' b r, Holds s' r → R a s' b → Does (f a) s' R' (some (g (b, r)))) : Does (x >>= f) s R' (o.map g) := by
  have := Does.bind (g := fun p => some (g p)) h hf
  cases o <;> exact this

theorem Does.mono {α β : Type} {x : EmM α} {s : ESt} {R R' : α → ESt → β → Prop} {o : Option (β × Refs)} (h : Does x s R o)
    (hR : ∀ a s' b, R a s' b → R' a s' b) : Does x s R' o := by
  cases o with
  | none => exact h
  | some p =>
    obtain ⟨a, s', h1, h2, h3⟩ := h
    exact ⟨a, s', h1, h2, hR _ _ _ h3⟩

theorem ofOk_run {α : Type} (a : α) (s : ESt) : ofExcept (.ok a) s = .ok (a, s) := rfl

theorem ofErr_run {α : Type} (e : PyErr) (s : ESt) : (ofExcept (.error e) : EmM α) s = .error e := rfl

/-- the text is the one of the specification; the table is left alone -/
def Same (s : ESt) : Str → ESt → Str → Prop := fun t s' u => t = u ∧ s'.table = s.table

theorem Does.pure {s : ESt} {r : Refs} (h : Holds s r) (t : Str) : Does (Pure.pure t) s (Same s) (some (t, r)) :=
  ⟨t, s, rfl, h, rfl, rfl⟩

/-! ## Nodes -/

theorem emitNodes_append_run (cfg : Cfg) (anc : List Str) : ∀ (a b : List HNode) (s : ESt),
    emitNodes cfg anc (a ++ b) s = (emitNodes cfg anc a >>= fun t => emitNodes cfg anc b >>= fun u => Pure.pure (t ++ u)) s
  | [], b, s => by
    rw [List.nil_append, emitNodes_nil, bind_run, pure_run]
    dsimp only
    rw [bind_run]
    cases emitNodes cfg anc b s with
    | error e => rfl
    | ok p => rfl
  | n :: a, b, s => by
    have ih := emitNodes_append_run cfg anc a b
    rw [List.cons_append, emitNodes_cons, emitNodes_cons, bind_run, bind_run, bind_run]
    cases emitNode cfg anc n s with
    | error e => rfl
    | ok p =>
      obtain ⟨t, s1⟩ := p
      dsimp only
      rw [bind_run, bind_run, ih, bind_run]
      cases emitNodes cfg anc a s1 with
      | error e => rfl
      | ok q =>
        obtain ⟨u, s2⟩ := q
        dsimp only
        rw [bind_run, pure_run]
        dsimp only
        rw [bind_run]
        cases emitNodes cfg anc b s2 with
        | error e => rfl
        | ok q =>
          obtain ⟨v, s3⟩ := q
          simp [pure_run]

theorem Does.run {α β : Type} {x y : EmM α} {s : ESt} {R : α → ESt → β → Prop} {o : Option (β × Refs)} (h : Does y s R o)
    (e : x s = y s) : Does x s R o := by
  cases o with
  | none => exact e.trans h
  | some p =>
    obtain ⟨a, s', h1, h2⟩ := h
    exact ⟨a, s', e.trans h1, h2⟩

theorem Does.append {cfg : Cfg} {anc : List Str} {depth : Int} {a b : List El} {s : ESt} {o : Option (Str × Refs)}
    {f : Refs → Option (Str × Refs)} (h1 : Does (emitNodes cfg anc (nodesL depth a)) s (Same s) o)
    (h2 : ∀ s' r, Holds s' r → Does (emitNodes cfg anc (nodesL depth b)) s' (Same s') (f r)) :
    Does (emitNodes cfg anc (nodesL depth (a ++ b))) s (Same s) (o.bind fun p => (f p.2).map fun q => (p.1 ++ q.1, q.2)) := by
  rw [nodesL_append]
  refine Does.run ?_ (emitNodes_append_run _ _ _ _ _)
  refine Does.bind h1 fun t s' u r hs' ht => ?_
  refine Does.map (h2 s' r hs') fun t' s'' u' r' hs'' ht' => ?_
  obtain ⟨rfl, e1⟩ := ht
  obtain ⟨rfl, e2⟩ := ht'
  exact ⟨_, s'', rfl, hs'', rfl, e2.trans e1⟩

/-- a node that is not a child of the root -/
theorem Does.node {β : Type} {cfg : Cfg} (hl : cfg.lang = .rest) {anc : List Str}
    {i : HInfo} {children : List HNode} {m : Meth} {s : ESt} {R : Str → ESt → β → Prop} {o : Option (β × Refs)}
    (hm : methodOf .rest i.kind = some m) (hs : s.subst = [] ∨ anc.length ≠ 1)
    (hR : ∀ t s' b, R t s' b → R t (enter i s') b)
    (h : Does (runMeth cfg anc i m (childrenM cfg anc i children)) s R o) : Does (emitNodes cfg anc [.mk i children]) s R o := by
  have hk := emitNode_known (cfg := cfg) (anc := anc) (i := i) (children := children) (m := m) (s := s) (by rw [hl]; exact hm) (fun _ => hs)
  have h1 : ∀ n s, emitNodes cfg anc [n] s = match emitNode cfg anc n s with | .ok (t, s') => .ok (t, s') | .error e => .error e := by
    intro n s
    rw [emitNodes_cons, emitNodes_nil, bind_run]
    cases emitNode cfg anc n s with
    | error e => rfl
    | ok p =>
      obtain ⟨t, s'⟩ := p
      dsimp only
      rw [bind_run, pure_run]
      simp [pure_run]
  cases o with
  | none =>
    have h : runMeth cfg anc i m (childrenM cfg anc i children) s = .error .html2rest := h
    show emitNodes cfg anc [.mk i children] s = .error .html2rest
    rw [h1, hk, h]
  | some p =>
    obtain ⟨b, r⟩ := p
    obtain ⟨t, s', g1, g2, g3⟩ := h
    exact ⟨t, enter i s', by rw [h1, hk, g1], g2.enter i, hR _ _ _ g3⟩

theorem Same.enter {s s' : ESt} {t u : Str} {i : HInfo} (h : Same s t s' u) : Same s t (enter i s') u := h

theorem Does.children {β : Type} {cfg : Cfg} {anc : List Str} {i : HInfo} {children : List HNode} {s : ESt} {R : Str → ESt → β → Prop}
    {o : Option (β × Refs)} (h : Does (emitNodes cfg (i.kind :: anc) children) (enter i s) R o) : Does (childrenM cfg anc i children) s R o := by
  cases o with
  | none =>
    show childrenM cfg anc i children s = .error .html2rest
    rw [childrenM_run]; exact h
  | some p =>
    obtain ⟨t, s', h1, h2⟩ := h
    exact ⟨t, s', by rw [childrenM_run]; exact h1, h2⟩

/-! ## Inline text -/

/-- the emitter does for the elements what `f` says -/
def Doing (cfg : Cfg) (anc : List Str) (depth : Int) (l : List El) (f : Refs → Option (Str × Refs)) : Prop :=
  ∀ s r, Holds s r → Does (emitNodes cfg anc (nodesL depth l)) s (Same s) (f r)

theorem Doing.append {cfg : Cfg} {anc : List Str} {depth : Int} {a b : List El} {f g : Refs → Option (Str × Refs)}
    (h1 : Doing cfg anc depth a f) (h2 : Doing cfg anc depth b g) :
    Doing cfg anc depth (a ++ b) fun r => (f r).bind fun p => (g p.2).map fun q => (p.1 ++ q.1, q.2) :=
  fun s r hs => Does.append (h1 s r hs) h2

theorem Doing.nil (cfg : Cfg) (anc : List Str) (depth : Int) : Doing cfg anc depth [] fun r => some ([], r) := by
  intro s r hs
  rw [nodesL, emitNodes_nil]
  exact Does.pure hs _

/-- an element with a method that uses its content -/
theorem Doing.elem {cfg : Cfg} (hl : cfg.lang = .rest) {anc : List Str} (ha : 2 ≤ anc.length) {tag : Str}
    {attrs : List (Str × Option Str)} {ch : List El} {me : Meth} {depth : Int} {f g : Refs → Option (Str × Refs)}
    (hh : headline? tag = none) (hm : methodOf .rest tag = some me)
    (hch : ∀ d, Doing cfg (tag :: anc) d ch f)
    (hrun : ∀ (i : HInfo) (x : EmM Str) (s : ESt) (r : Refs), i.kind = tag → i.attrs = dictOf attrs → Holds s r →
      Does x s (Same s) (f r) → Does (runMeth cfg anc i me x) s (Same s) (g r)) :
    Doing cfg anc depth [.elem tag attrs ch] g := by
  intro s r hs
  obtain ⟨lv, d, hn⟩ := nodes_elem (tag := tag) (attrs := attrs) (ch := ch) (depth := depth) hh
  rw [show nodesL depth [.elem tag attrs ch] = (El.elem tag attrs ch).nodes depth by rw [nodesL, nodesL, List.append_nil], hn]
  refine Does.node hl hm (.inr (by omega)) (fun _ _ _ h => h) (hrun _ _ s r rfl rfl hs (Does.children ?_))
  exact Does.mono (hch d _ _ (hs.enter _)) fun _ _ _ h => h

/-- an element without content -/
theorem Doing.void {cfg : Cfg} (hl : cfg.lang = .rest) {anc : List Str} (ha : 2 ≤ anc.length) {tag : Str}
    {attrs : List (Str × Option Str)} {me : Meth} {depth : Int} {g : Refs → Option (Str × Refs)} (hm : methodOf .rest tag = some me)
    (hrun : ∀ (i : HInfo) (x : EmM Str) (s : ESt) (r : Refs), i.kind = tag → i.attrs = dictOf attrs → Holds s r →
      Does (runMeth cfg anc i me x) s (Same s) (g r)) :
    Doing cfg anc depth [.void tag attrs] g := by
  intro s r hs
  rw [nodesL, nodesL, List.append_nil, El.nodes]
  exact Does.node hl hm (.inr (by omega)) (fun _ _ _ h => h) (hrun _ _ s r rfl rfl hs)

theorem rest_plain {cfg : Cfg} (hl : cfg.lang = .rest) {anc : List Str} (ha : 2 ≤ anc.length) (depth : Int) : ∀ (l : List El),
    l.all isPlainEl = true → Doing cfg anc depth l fun r => some (l.flatMap (elText .creole), r)
  | [], _ => Doing.nil _ _ _
  | e :: l, h => by
    rw [List.all_cons, Bool.and_eq_true] at h
    have h1 : Doing cfg anc depth [e] fun r => some (elText .creole e, r) := by
      intro s r hs
      cases e with
      | text d =>
        rw [nodesL, nodesL, List.append_nil, El.nodes]
        refine Does.node hl (m := .data) rfl (.inr (by omega)) (fun _ _ _ h => h) ?_
        simp only [runMeth, hl]
        exact ⟨_, s, rfl, hs, rfl, rfl⟩
      | entity n =>
        rw [nodesL, nodesL, List.append_nil, El.nodes]
        exact Does.node hl (m := .entityref) rfl (.inr (by omega)) (fun _ _ _ h => h) (Does.pure hs _)
      | charref n => cases h.1
      | void t a => cases h.1
      | elem t a c => cases h.1
      | tbody c => cases h.1
    exact Doing.append h1 (rest_plain hl ha depth l h.2)

theorem rest_text {cfg : Cfg} (hl : cfg.lang = .rest) {anc : List Str} (ha : 2 ≤ anc.length) (depth : Int) (s : Str) :
    Doing cfg anc depth (s.foldr addChar []) fun r => some (s, r) := by
  have := rest_plain hl ha depth _ (text_plain s)
  rwa [text_flat (by simp)] at this

theorem rest_face_tag {tag : Str} (h : (delimiters .rest tag).isSome = true) :
    headline? tag = none ∧ tag ≠ c!"th" ∧ tag ≠ c!"td" ∧ tag ≠ c!"img" ∧ tag ≠ c!"br" ∧ tag ≠ c!"tbody" ∧ tag ∉ blockNames := by
  simp only [delimiters, Option.isSome_map] at h
  obtain ⟨d, hd⟩ := Option.isSome_iff_exists.mp h
  have aux : ∀ (L : List (Str × Str)), (∀ p ∈ L, headline? p.1 = none ∧ p.1 ≠ c!"th" ∧ p.1 ≠ c!"td" ∧ p.1 ≠ c!"img" ∧ p.1 ≠ c!"br" ∧
      p.1 ≠ c!"tbody" ∧ p.1 ∉ blockNames) → ∀ d, L.lookup tag = some d → headline? tag = none ∧ tag ≠ c!"th" ∧ tag ≠ c!"td" ∧
      tag ≠ c!"img" ∧ tag ≠ c!"br" ∧ tag ≠ c!"tbody" ∧ tag ∉ blockNames :=
    fun L hL d hd => hL _ (lookup_mem hd)
  exact aux _ (by decide +kernel) d hd

theorem rest_face {cfg : Cfg} (hl : cfg.lang = .rest) {anc : List Str} (ha : 2 ≤ anc.length) {depth : Int} {tag : Str} {ch : List El}
    {f : Refs → Option (Str × Refs)} (h : (delimiters .rest tag).isSome = true) (hch : ∀ d, Doing cfg (tag :: anc) d ch f) :
    Doing cfg anc depth [.elem tag [] ch] fun r => (f r).map fun p => (faceRest tag p.1, p.2) := by
  have hh := (rest_face_tag h).1
  simp only [faceRest]
  cases hd : delimiters .rest tag with
  | none => rw [hd] at h; cases h
  | some d =>
    obtain ⟨a, b⟩ := d
    obtain ⟨me, hme, hw⟩ := delimiters_method hd
    refine Doing.elem hl ha hh hme hch fun i x s r hk hat hs hx => ?_
    rw [hw]
    refine Does.map hx fun t s' u r' hs' ht => ?_
    obtain ⟨rfl, e⟩ := ht
    exact ⟨_, s', rfl, hs', rfl, e⟩

theorem asDict_get (l : List (Str × Str)) (k : Str) : dictGet k (asDict l) = (l.lookup k).map some := by
  induction l with
  | nil => rfl
  | cons p l ih =>
    obtain ⟨a, b⟩ := p
    simp only [asDict, dictGet, List.map_cons, List.lookup_cons] at ih ⊢
    cases k == a with
    | true => rfl
    | false => exact ih

theorem asDict_set {l : List (Str × Str)} {k v : Str} (h : l.lookup k = none) : dictSet k (some v) (asDict l) = asDict (l ++ [(k, v)]) := by
  induction l with
  | nil => rfl
  | cons p l ih =>
    obtain ⟨a, b⟩ := p
    rw [List.lookup_cons] at h
    by_cases hk : k = a
    · rw [hk, beq_self_eq_true] at h; cases h
    · rw [beq_eq_false_iff_ne.mpr hk] at h
      have := ih h
      simp only [asDict, List.map_cons, List.cons_append, dictSet] at this ⊢
      rw [if_neg (Ne.symm hk), this]

theorem Given.push {l : List (Str × Str)} (h : Given l) {k v : Str} (hv : v ≠ []) : Given (l ++ [(k, v)]) := by
  intro p hp
  rw [List.mem_append, List.mem_singleton] at hp
  rcases hp with hp | rfl
  · exact h p hp
  · exact hv

theorem isOld_some {v : Str} (h : v ≠ []) : isOld (some v) = true := by
  cases v with
  | nil => exact absurd rfl h
  | cons c cs => rfl

theorem rest_link {cfg : Cfg} (hl : cfg.lang = .rest) {anc : List Str} (ha : 2 ≤ anc.length) {depth : Int} {url : Address} {title : Str}
    {ch : List El} {f : Refs → Option (Str × Refs)} (hu : url.text ≠ []) (hch : ∀ d, Doing cfg (c!"a" :: anc) d ch f) :
    Doing cfg anc depth [.elem c!"a" ((c!"href", some url.text) :: optAttr c!"title" title) ch]
      fun r => (f r).bind fun p => linkRest (shouldSubst anc) url.text p.1 p.2 := by
  refine Doing.elem hl ha rfl (me := .a) rfl hch fun i x s r hk hat hs hx => ?_
  have hhref : dictGet c!"href" (dictOf ((c!"href", some url.text) :: optAttr c!"title" title)) = some (some url.text) := by
    rw [optAttr]; split <;> rfl
  simp only [runMeth, hl]
  rw [restLink, hat, hhref]
  refine Does.bind hx fun t s' u r' hs' ht => ?_
  obtain ⟨rfl, e⟩ := ht
  dsimp only
  rw [linkRest]
  have hrun : ∀ (k : Option Str × Dict (Option Str) → EmM Str),
      (MonadState.get >>= fun (st : ESt) => ofExcept (oldSubst st.usedLinks t (some url.text)) >>= k : EmM Str) s' =
        (ofExcept (oldSubst s'.usedLinks t (some url.text)) >>= k) s' := by
    intro k
    rw [bind_run, get_run]
  refine Does.run ?_ (hrun _)
  cases hlk : r'.links.lookup t with
  | some known =>
    have hkn : known ≠ [] := hs'.urls _ (lookup_mem hlk)
    have ho : oldSubst s'.usedLinks t (some url.text) = if known = url.text then .ok (some known, s'.usedLinks) else .error .html2rest := by
      rw [oldSubst, hs'.links, asDict_get, hlk]
      simp
    dsimp only
    rw [ho]
    by_cases heq : known = url.text
    · rw [if_pos heq, if_pos heq]
      refine ⟨c!"`" ++ t ++ c!"`_", s', ?_, hs', rfl, e⟩
      rw [bind_run, ofOk_run]
      dsimp only
      rw [bind_run, modify_run]
      dsimp only
      rw [isOld_some hkn]
      cases shouldSubst anc <;> simp [pure_run]
    · rw [if_neg heq, if_neg heq]
      show _ = Except.error _
      rw [bind_run, ofErr_run]
  | none =>
    have ho : oldSubst s'.usedLinks t (some url.text) = .ok (none, asDict (r'.links ++ [(t, url.text)])) := by
      rw [oldSubst, hs'.links, asDict_get, hlk]
      simp only [Option.map_none]
      rw [asDict_set hlk]
    dsimp only
    rw [ho]
    cases hc : shouldSubst anc with
    | true =>
      refine ⟨c!"`" ++ t ++ c!"`_", { s' with usedLinks := asDict (r'.links ++ [(t, url.text)]), subst := s'.subst ++ [c!".. _" ++ t ++ c!": " ++ url.text] }, ?_, ?_, rfl, e⟩
      · rw [bind_run, ofOk_run]
        dsimp only
        rw [bind_run, modify_run]
        simp [isOld, bind_run, modify_run, pure_run, fmt]
      · exact ⟨rfl, hs'.pictures, by show s'.subst ++ _ = _; rw [hs'.waiting], hs'.mark, hs'.inner, hs'.urls.push hu, hs'.srcs, hs'.markLine⟩
    | false =>
      refine ⟨c!"`" ++ t ++ c!" <" ++ url.text ++ c!">`_", { s' with usedLinks := asDict (r'.links ++ [(t, url.text)]) }, ?_, ?_, rfl, e⟩
      · rw [bind_run, ofOk_run]
        dsimp only
        rw [bind_run, modify_run]
        simp [isOld, pure_run, fmt]
      · exact ⟨rfl, hs'.pictures, hs'.waiting, hs'.mark, hs'.inner, hs'.urls.push hu, hs'.srcs, hs'.markLine⟩

theorem rest_picture {cfg : Cfg} (hl : cfg.lang = .rest) {anc : List Str} (ha : 2 ≤ anc.length) {depth : Int} {src : Address} {alt title : Str}
    (hu : src.text ≠ []) :
    Doing cfg anc depth [.void c!"img" ((c!"src", some src.text) :: (c!"alt", some alt) :: optAttr c!"title" title)]
      fun r => pictureRest src.text (pictureText src.text alt title) r := by
  refine Doing.void hl ha (me := .img) rfl fun i x s r hk hat hs => ?_
  obtain ⟨e1, e2, e3, e4, e5, e6, e7⟩ := image_attrs src.text alt title
  rw [← hat] at e1 e2 e3 e4 e5 e6 e7
  have h0 := imgSrc_run e1 s
  simp only [runMeth, hl]
  rw [restImg, pictureRest]
  by_cases hd : isDataUri src.text
  · rw [if_pos hd]
    exact ⟨[], s, by rw [bind_run, h0.1 hd]; rfl, hs, rfl, rfl⟩
  · rw [if_neg hd]
    generalize ht : pictureText src.text alt title = t
    have himg := imgText_picture (src := src.text) e3 e4 s
    rw [ht] at himg
    cases hlk : r.pictures.lookup t with
    | some known =>
      have hkn : known ≠ [] := hs.srcs _ (lookup_mem hlk)
      have ho : oldSubst s.usedImages t (some src.text) = if known = src.text then .ok (some known, s.usedImages) else .error .html2rest := by
        rw [oldSubst, hs.pictures, asDict_get, hlk]
        simp
      by_cases heq : known = src.text
      · rw [if_pos heq] at ho
        dsimp only
        rw [if_pos heq]
        refine ⟨c!"|" ++ t ++ c!"|", s, ?_, hs, rfl, rfl⟩
        rw [bind_run, h0.2 hd]
        dsimp only
        rw [bind_run, himg]
        dsimp only
        rw [bind_run, get_run]
        dsimp only
        rw [ho, bind_run, ofOk_run]
        dsimp only
        rw [bind_run, modify_run]
        dsimp only
        rw [isOld_some hkn]
        simp [pure_run]
      · rw [if_neg heq] at ho
        dsimp only
        rw [if_neg heq]
        show _ = Except.error _
        rw [bind_run, h0.2 hd]
        dsimp only
        rw [bind_run, himg]
        dsimp only
        rw [bind_run, get_run]
        dsimp only
        rw [ho, bind_run, ofErr_run]
    | none =>
      have ho : oldSubst s.usedImages t (some src.text) = .ok (none, asDict (r.pictures ++ [(t, src.text)])) := by
        rw [oldSubst, hs.pictures, asDict_get, hlk]
        simp only [Option.map_none]
        rw [asDict_set hlk]
      refine ⟨c!"|" ++ t ++ c!"|", { s with usedImages := asDict (r.pictures ++ [(t, src.text)]), subst := s.subst ++ [c!".. |" ++ t ++ c!"| image:: " ++ src.text] }, ?_, ?_, rfl, rfl⟩
      · rw [bind_run, h0.2 hd]
        dsimp only
        rw [bind_run, himg]
        dsimp only
        rw [bind_run, get_run]
        dsimp only
        rw [ho, bind_run, ofOk_run]
        dsimp only
        rw [bind_run, modify_run]
        simp [isOld, bind_run, modify_run, pure_run]
      · exact ⟨hs.links, rfl, by show s.subst ++ _ = _; rw [hs.waiting], hs.mark, hs.inner, hs.urls, hs.srcs.push hu, hs.markLine⟩

theorem rest_code {cfg : Cfg} (hl : cfg.lang = .rest) {anc : List Str} (ha : 2 ≤ anc.length) {depth : Int} (s : Str) :
    Doing cfg anc depth [.elem c!"code" [] (s.foldr addChar [])] fun r => some (c!"``" ++ oneLine s ++ c!"``", r) := by
  refine Doing.elem hl ha rfl (me := .code) rfl (fun d => rest_text hl (by simp; omega) d s) fun i x st r hk hat hs hx => ?_
  simp only [runMeth, hl]
  obtain ⟨t, s', h1, h2, h3, h4⟩ := hx
  subst h3
  refine ⟨_, s', ?_, h2, rfl, h4⟩
  rw [if_neg (by simp), bind_run, h1]
  dsimp only
  rw [pure_run, emitContent, hk]
  rfl

theorem rest_br {cfg : Cfg} (hl : cfg.lang = .rest) {anc : List Str} (ha : 2 ≤ anc.length) {depth : Int} :
    Doing cfg anc depth [.void c!"br" []] fun r => some (c!"\n", r) := by
  refine Doing.void hl ha (me := .br) rfl fun i x s r hk hat hs => ⟨c!"\n", s, ?_, hs, rfl, rfl⟩
  simp only [runMeth, hl]
  rw [bind_run, get_run]
  dsimp only
  rw [hs.inner]
  simp [pure_run]

theorem els_append (x : Sp) {l : List El} (h : isText x = true → notText l = true) : x.els l = x.els [] ++ l := by
  cases x with
  | text s => rw [Sp.els, Sp.els]; exact text_append s (h rfl)
  | face t i => rw [Sp.els, Sp.els]; rfl
  | link a t i => rw [Sp.els, Sp.els]; rfl
  | image a b c => rw [Sp.els, Sp.els]; rfl
  | code s => rw [Sp.els, Sp.els]; rfl
  | br => rw [Sp.els, Sp.els]; rfl

theorem text_append' (s : Str) {x l : List El} (h : notText l = true) : s.foldr addChar (x ++ l) = s.foldr addChar x ++ l := by
  induction s with
  | nil => rfl
  | cons c s ih =>
    rw [List.foldr_cons, ih, List.foldr_cons]
    exact addChar_append c (.inr h)

/-- what follows a text is not part of it -/
theorem spsEls_append {l : List El} (h : notText l = true) : ∀ xs : List Sp, spsEls xs l = spsEls xs [] ++ l
  | [] => by rw [spsEls, spsEls]; rfl
  | x :: xs => by
    rw [spsEls, spsEls, spsEls_append h xs]
    cases x with
    | text s => rw [Sp.els, Sp.els]; exact text_append' s h
    | face t i => rw [Sp.els, Sp.els]; rfl
    | link a t i => rw [Sp.els, Sp.els]; rfl
    | image a b c => rw [Sp.els, Sp.els]; rfl
    | code s => rw [Sp.els, Sp.els]; rfl
    | br => rw [Sp.els, Sp.els]; rfl

theorem shouldSubst_in {k : Str} {anc : List Str} (h1 : k ≠ c!"th") (h2 : k ≠ c!"td") : shouldSubst (k :: anc) = shouldSubst anc := by
  rw [shouldSubst_cons]; simp [h1, h2]

mutual
theorem sp_rest {cfg : Cfg} (hl : cfg.lang = .rest) : ∀ (x : Sp), x.RestOk → ∀ {anc : List Str}, 2 ≤ anc.length → ∀ (depth : Int),
    Doing cfg anc depth (x.els []) (x.rest (shouldSubst anc))
  | .text s, _, anc, ha, depth => by
    rw [Sp.els, show (Sp.text s).rest (shouldSubst anc) = fun r => some (s, r) by funext r; rw [Sp.rest]]
    exact rest_text hl ha depth s
  | .face tag inner, h, anc, ha, depth => by
    rw [Sp.RestOk] at h
    obtain ⟨_, h1, h2, _⟩ := rest_face_tag h.1
    rw [Sp.els, show (Sp.face tag inner).rest (shouldSubst anc) =
      fun r => (spsRest (shouldSubst anc) inner r).map fun p => (faceRest tag p.1, p.2) by funext r; rw [Sp.rest]]
    refine rest_face hl ha h.1 fun d => ?_
    rw [← shouldSubst_in h1 h2]
    exact sps_rest hl inner h.2 (by simp; omega) d
  | .link url title inner, h, anc, ha, depth => by
    rw [Sp.RestOk] at h
    rw [Sp.els, show (Sp.link url title inner).rest (shouldSubst anc) =
      fun r => (spsRest (shouldSubst anc) inner r).bind fun p => linkRest (shouldSubst anc) url.text p.1 p.2 by funext r; rw [Sp.rest]]
    refine rest_link hl ha h.1 fun d => ?_
    rw [← shouldSubst_in (k := c!"a") (by decide) (by decide)]
    exact sps_rest hl inner h.2 (by simp; omega) d
  | .image src alt title, h, anc, ha, depth => by
    rw [Sp.RestOk] at h
    rw [Sp.els, show (Sp.image src alt title).rest (shouldSubst anc) = fun r => pictureRest src.text (pictureText src.text alt title) r by
      funext r; rw [Sp.rest]]
    exact rest_picture hl ha h
  | .code s, _, anc, ha, depth => by
    rw [Sp.els, show (Sp.code s).rest (shouldSubst anc) = fun r => some (c!"``" ++ oneLine s ++ c!"``", r) by funext r; rw [Sp.rest]]
    exact rest_code hl ha s
  | .br, _, anc, ha, depth => by
    rw [Sp.els, show Sp.br.rest (shouldSubst anc) = fun r => some (c!"\n", r) by funext r; rw [Sp.rest]]
    exact rest_br hl ha
theorem sps_rest {cfg : Cfg} (hl : cfg.lang = .rest) : ∀ (xs : List Sp), SpsRestOk xs → ∀ {anc : List Str}, 2 ≤ anc.length → ∀ (depth : Int),
    Doing cfg anc depth (spsEls xs []) (spsRest (shouldSubst anc) xs)
  | [], _, anc, _, depth => by
    rw [spsEls, show spsRest (shouldSubst anc) [] = fun r => some ([], r) by funext r; rw [spsRest]]
    exact Doing.nil _ _ _
  | x :: xs, h, anc, ha, depth => by
    rw [SpsRestOk] at h
    rw [spsEls, els_append]
    · rw [show spsRest (shouldSubst anc) (x :: xs) = fun r => (x.rest (shouldSubst anc) r).bind fun p =>
        (spsRest (shouldSubst anc) xs p.2).map fun q => (p.1 ++ q.1, q.2) by funext r; rw [spsRest]]
      exact Doing.append (sp_rest hl x h.1 ha depth) (sps_rest hl xs h.2.1 ha depth)
    · intro hx
      cases xs with
      | nil => rw [spsEls]; rfl
      | cons y ys =>
        rw [spsEls]
        refine els_notText ?_ _
        have := h.2.2
        simpa [hx] using this
end

end Verif.Emit
