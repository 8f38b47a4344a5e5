import Verif.Emit.BackBlocks
import Verif.Props.RestLinks
import Verif.Props.QuoteLink
import Verif.Spec.Article

/-!
# The emitters on the elements of articles: inline text
-/

namespace Verif.Emit

open Verif Py Html Spec Spec.Hd Spec.Ar Props

/-- the arguments that all theorems have in common -/
structure Conf (to : To) (cfg : Cfg) : Prop where
  lang : cfg.lang = to.lang
  policy : cfg.policy = .transparent
  strict : cfg.strict = false

theorem Conf.notRest {to : To} {cfg : Cfg} (hc : Conf to cfg) : cfg.lang ≠ .rest := by
  rw [hc.lang]; cases to <;> simp [To.lang]

theorem emitNode_to {to : To} {cfg : Cfg} (hc : Conf to cfg) {anc : List Str} {i : HInfo} {children : List HNode} {m : Meth} {s : ESt}
    (hm : methodOf to.lang i.kind = some m) :
    emitNode cfg anc (.mk i children) s = match runMeth cfg anc i m (childrenM cfg anc i children) s with
      | .ok (t, s1) => .ok (t, enter i s1)
      | .error e => .error e :=
  emitNode_known (by rw [hc.lang]; exact hm) (fun h => absurd h hc.notRest)

theorem emits_to {to : To} {cfg : Cfg} (hc : Conf to cfg) {anc : List Str} {i : HInfo} {children : List HNode} {m : Meth} {s : ESt} {t : Str}
    (hm : methodOf to.lang i.kind = some m) (h : Emits (runMeth cfg anc i m (childrenM cfg anc i children)) s t) :
    Emits (emitNode cfg anc (.mk i children)) s t := by
  obtain ⟨s1, h1, h2⟩ := h
  exact ⟨enter i s1, by rw [emitNode_to hc hm, h1], h2⟩

/-- what is emitted for an element if the marks of the lists around it are `m` -/
def EmE (cfg : Cfg) (anc : List Str) (depth : Int) (m : Str) (e : El) (t : Str) : Prop :=
  ∀ s : ESt, s.innerList = m → Emits (emitNodes cfg anc (e.nodes depth)) s t

/-- what is emitted for a sequence of elements -/
def Em (cfg : Cfg) (anc : List Str) (depth : Int) (m : Str) (l : List El) (t : Str) : Prop :=
  ∀ s : ESt, s.innerList = m → Emits (emitNodes cfg anc (nodesL depth l)) s t

theorem Em.nil (cfg : Cfg) (anc : List Str) (depth : Int) (m : Str) : Em cfg anc depth m [] [] := by
  intro s _
  rw [nodesL, emitNodes_nil]
  exact Emits.pure _

theorem Em.cons {cfg : Cfg} {anc : List Str} {depth : Int} {m : Str} {e : El} {l : List El} {a b : Str}
    (h1 : EmE cfg anc depth m e a) (h2 : Em cfg anc depth m l b) : Em cfg anc depth m (e :: l) (a ++ b) := by
  intro s hs
  rw [nodesL]
  exact emits_append (h1 s hs) fun s' hs' => h2 s' (by rw [core_innerList hs']; exact hs)

theorem Em.one {cfg : Cfg} {anc : List Str} {depth : Int} {m : Str} {e : El} {a : Str}
    (h1 : EmE cfg anc depth m e a) : Em cfg anc depth m [e] a := by
  have := Em.cons h1 (Em.nil cfg anc depth m)
  rwa [List.append_nil] at this

theorem nodesL_append (depth : Int) (a b : List El) : nodesL depth (a ++ b) = nodesL depth a ++ nodesL depth b := by
  induction a with
  | nil => rfl
  | cons e a ih => rw [List.cons_append, nodesL, nodesL, ih, List.append_assoc]

theorem Em.append {cfg : Cfg} {anc : List Str} {depth : Int} {m : Str} {a b : List El} {t u : Str}
    (h1 : Em cfg anc depth m a t) (h2 : Em cfg anc depth m b u) : Em cfg anc depth m (a ++ b) (t ++ u) := by
  intro s hs
  rw [nodesL_append]
  exact emits_append (h1 s hs) fun s' hs' => h2 s' (by rw [core_innerList hs']; exact hs)

/-! ## Text -/

/-- the elements do not begin with text -/
def notText : List El → Bool
  | .text _ :: _ => false
  | _ => true

theorem addChar_append (c : Char) {x l : List El} (h : x ≠ [] ∨ notText l = true) : addChar c (x ++ l) = addChar c x ++ l := by
  unfold addChar
  split
  · rfl
  · cases x with
    | nil =>
      rcases h with h | h
      · exact absurd rfl h
      · rw [List.nil_append]
        cases l with
        | nil => rfl
        | cons e l => cases e <;> simp [notText] at h <;> rfl
    | cons e x => cases e <;> rfl

theorem addChar_ne (c : Char) (l : List El) : addChar c l ≠ [] := by
  unfold addChar
  split
  · simp
  · split <;> simp

theorem text_append (s : Str) {l : List El} (h : notText l = true) : s.foldr addChar l = s.foldr addChar [] ++ l := by
  induction s with
  | nil => rfl
  | cons c s ih =>
    rw [List.foldr_cons, ih, List.foldr_cons]
    exact addChar_append c (.inr h)

/-- what is emitted for text and for an entity -/
def elText (to : To) : El → Str
  | .text d => if to = .markdown then keepRun d else d
  | .entity n => entityrefText (some n)
  | _ => []

def isPlainEl : El → Bool
  | .text _ | .entity _ => true
  | _ => false

theorem plain_em {to : To} {cfg : Cfg} (hc : Conf to cfg) {e : El} (h : isPlainEl e = true) (anc : List Str) (depth : Int) (m : Str) :
    EmE cfg anc depth m e (elText to e) := by
  intro s hs
  cases e with
  | text d =>
    rw [El.nodes]
    refine emits_one (emits_to hc (m := .data) (by cases to <;> rfl) ⟨s, ?_, rfl⟩)
    simp only [runMeth, hc.lang, elText, keepRun]
    cases to with
    | creole => rfl
    | textile => rfl
    | markdown => by_cases hd : d = c!" " <;> simp [hd, To.lang, pure_run]
  | entity n =>
    rw [El.nodes]
    exact emits_one (emits_to hc (m := .entityref) (by cases to <;> rfl) (Emits.pure _))
  | charref n => cases h
  | void t a => cases h
  | elem t a c => cases h
  | tbody c => cases h

theorem plains_em {to : To} {cfg : Cfg} (hc : Conf to cfg) (anc : List Str) (depth : Int) (m : Str) : ∀ {l : List El}, l.all isPlainEl = true →
    Em cfg anc depth m l (l.flatMap (elText to))
  | [], _ => Em.nil _ _ _ _
  | e :: l, h => by
    rw [List.all_cons, Bool.and_eq_true] at h
    exact Em.cons (plain_em hc h.1 anc depth m) (plains_em hc anc depth m h.2)

theorem addChar_plain (c : Char) {l : List El} (h : l.all isPlainEl = true) : (addChar c l).all isPlainEl = true := by
  unfold addChar
  split
  · simpa [isPlainEl] using h
  · split
    · simpa [isPlainEl] using h
    · simp only [List.all_cons, isPlainEl, Bool.true_and]; exact h

theorem text_plain (s : Str) : (s.foldr addChar []).all isPlainEl = true := by
  induction s with
  | nil => rfl
  | cons c s ih => exact addChar_plain c ih

theorem entity_text {c : Char} {name : Str} (h : entityOf c = some name) : entityrefText (some name) = [c] := by
  unfold entityOf at h
  split at h
  · next hc => cases h; subst hc; decide +kernel
  · split at h
    · next hc => cases h; subst hc; decide +kernel
    · split at h
      · next hc => cases h; subst hc; decide +kernel
      · cases h

theorem text_flat {to : To} (h : to ≠ .markdown) (s : Str) : (s.foldr addChar []).flatMap (elText to) = s := by
  induction s with
  | nil => rfl
  | cons c s ih =>
    rw [List.foldr_cons]
    generalize s.foldr addChar [] = l at ih
    unfold addChar
    split
    · next name hn =>
      rw [List.flatMap_cons, ih, elText, entity_text hn]
      rfl
    · split
      · next d l' =>
        rw [List.flatMap_cons, elText, if_neg h] at ih ⊢
        rw [← ih]
        rfl
      · rw [List.flatMap_cons, elText, if_neg h, ih]
        rfl

theorem run_text {run : Str} (h : ∀ c ∈ run, entityOf c = none) : run.foldr addChar [] = if run = [] then [] else [.text run] := by
  induction run with
  | nil => rfl
  | cons c run ih =>
    rw [List.foldr_cons, ih fun x hx => h x (List.mem_cons_of_mem _ hx)]
    unfold addChar
    rw [h c List.mem_cons_self]
    by_cases h0 : run = []
    · subst h0; rfl
    · simp only [if_neg h0]; rfl

theorem markdown_flat : ∀ (s run : Str), (∀ c ∈ run, entityOf c = none) →
    ((run ++ s).foldr addChar []).flatMap (elText .markdown) = markdownText run s
  | [], run, h => by
    rw [List.append_nil, run_text h, markdownText]
    split
    · next h0 => subst h0; rfl
    · simp [elText]
  | c :: s, run, h => by
    rw [markdownText]
    cases hn : entityOf c with
    | none =>
      rw [if_neg (by simp)]
      have := markdown_flat s (run ++ [c]) (by
        intro x hx
        rw [List.mem_append, List.mem_singleton] at hx
        rcases hx with hx | rfl
        · exact h x hx
        · exact hn)
      rwa [List.append_assoc] at this
    | some name =>
      rw [if_pos (by simp)]
      have ih := markdown_flat s [] (by simp)
      rw [List.nil_append] at ih
      have : addChar c (s.foldr addChar []) = .entity name :: s.foldr addChar [] := by unfold addChar; rw [hn]
      rw [List.foldr_append, List.foldr_cons, this, text_append _ (by rfl), run_text h, List.flatMap_append, List.flatMap_cons, ih]
      rw [show elText .markdown (.entity name) = [c] from entity_text hn]
      by_cases h0 : run = []
      · subst h0; simp [keepRun]
      · simp [h0, elText]

theorem text_em {to : To} {cfg : Cfg} (hc : Conf to cfg) (s : Str) (anc : List Str) (depth : Int) (m : Str) :
    Em cfg anc depth m (s.foldr addChar []) (plainText to s) := by
  have h := plains_em hc anc depth m (text_plain s)
  have e : (s.foldr addChar []).flatMap (elText to) = plainText to s := by
    cases to with
    | creole => exact text_flat (by simp) s
    | textile => exact text_flat (by simp) s
    | markdown => exact markdown_flat s [] (by simp)
  rwa [e] at h

/-! ## Elements -/

/-- an element with a method that uses its content -/
theorem elem_em {to : To} {cfg : Cfg} (hc : Conf to cfg) {tag : Str} {attrs : List (Str × Option Str)} {ch : List El} {me : Meth} {t u m : Str}
    {anc : List Str} {depth : Int} (hh : headline? tag = none) (hm : methodOf to.lang tag = some me)
    (hch : ∀ anc' d, Em cfg anc' d m ch t)
    (hrun : ∀ (i : HInfo) (x : EmM Str) (s : ESt), i.kind = tag → i.attrs = dictOf attrs → s.innerList = m →
      Emits x s t → Emits (runMeth cfg anc i me x) s u) :
    EmE cfg anc depth m (.elem tag attrs ch) u := by
  intro s hs
  obtain ⟨lv, d, hn⟩ := nodes_elem (tag := tag) (attrs := attrs) (ch := ch) (depth := depth) hh
  rw [hn]
  refine emits_one (emits_to hc hm (hrun _ _ s rfl rfl hs (Emits.children ?_)))
  exact hch _ _ _ hs

/-- an element without content -/
theorem void_em {to : To} {cfg : Cfg} (hc : Conf to cfg) {tag : Str} {attrs : List (Str × Option Str)} {me : Meth} {u m : Str}
    {anc : List Str} {depth : Int} (hm : methodOf to.lang tag = some me)
    (hrun : ∀ (i : HInfo) (x : EmM Str) (s : ESt), i.kind = tag → i.attrs = dictOf attrs → s.innerList = m →
      Emits (runMeth cfg anc i me x) s u) :
    EmE cfg anc depth m (.void tag attrs) u := by
  intro s hs
  rw [El.nodes]
  exact emits_one (emits_to hc hm (hrun _ _ s rfl rfl hs))

theorem face_headline {to : To} {tag : Str} (h : (delimiters to.lang tag).isSome = true) : headline? tag = none := by
  have aux : ∀ (L : List (Str × Str)), (∀ p ∈ L, headline? p.1 = none) → ∀ d, L.lookup tag = some d → headline? tag = none :=
    fun L hL d hd => hL _ (lookup_mem hd)
  have aux' : ∀ (L : List (Str × (Str × Str))), (∀ p ∈ L, headline? p.1 = none) → ∀ d, L.lookup tag = some d → headline? tag = none :=
    fun L hL d hd => hL _ (lookup_mem hd)
  cases to with
  | creole =>
    simp only [To.lang, delimiters, Option.isSome_map] at h
    obtain ⟨d, hd⟩ := Option.isSome_iff_exists.mp h
    exact aux _ (by decide +kernel) d hd
  | textile =>
    simp only [To.lang, delimiters, Option.isSome_map] at h
    obtain ⟨d, hd⟩ := Option.isSome_iff_exists.mp h
    exact aux _ (by decide +kernel) d hd
  | markdown =>
    simp only [To.lang, delimiters] at h
    obtain ⟨d, hd⟩ := Option.isSome_iff_exists.mp h
    exact aux' _ (by decide +kernel) d hd

theorem face_em {to : To} {cfg : Cfg} (hc : Conf to cfg) {tag : Str} {ch : List El} {t m : Str} {anc : List Str} {depth : Int}
    (h : (delimiters to.lang tag).isSome = true) (hch : ∀ anc' d, Em cfg anc' d m ch t) :
    EmE cfg anc depth m (.elem tag [] ch) (faceText to tag t) := by
  have hh := face_headline h
  rw [faceText]
  cases hd : delimiters to.lang tag with
  | none => rw [hd] at h; cases h
  | some d =>
    obtain ⟨a, b⟩ := d
    obtain ⟨me, hme, hw⟩ := delimiters_method hd
    refine elem_em hc hh hme hch fun i x s hk ha hs hx => ?_
    rw [hw]
    exact Emits.bind hx fun s' _ => Emits.pure _

theorem title_get (a title : Str) :
    truthy (dictGet c!"title" (dictOf ((c!"href", some a) :: optAttr c!"title" title))) = if title = [] then none else some title := by
  rw [optAttr]
  cases title with
  | nil => rfl
  | cons c cs => rfl

theorem quoteAttr_run {cfg : Cfg} {a : Address} (h : a.Ok) (h' : cfg.netlocOk a.host = true) (s : ESt) :
    quoteAttr cfg (some (some a.text)) s = .ok (encoded a, s) := by
  rw [quoteAttr, ofExcept_run, C67_address _ a h h']
  rfl

theorem link_em {to : To} {cfg : Cfg} (hc : Conf to cfg) {a : Address} {title : Str} {ch : List El} {t m : Str} {anc : List Str} {depth : Int}
    (ha : AddressOk to cfg.netlocOk a) (hch : ∀ anc' d, Em cfg anc' d m ch t) :
    EmE cfg anc depth m (.elem c!"a" ((c!"href", some a.text) :: optAttr c!"title" title) ch) (Ar.linkText to a title t) := by
  refine elem_em hc rfl (me := .a) (by cases to <;> rfl) hch fun i x s hk hat hs hx => ?_
  have hhref : dictGet c!"href" (dictOf ((c!"href", some a.text) :: optAttr c!"title" title)) = some (some a.text) := by
    rw [optAttr]; split <;> rfl
  cases to with
  | creole =>
    simp only [runMeth, hc.lang, To.lang]
    rw [creoleLink, hat, hhref]
    refine Emits.bind hx fun s' _ => ?_
    simp only [Ar.linkText, Option.some.injEq, fmt]
    split
    · exact Emits.pure _
    · exact ⟨s', by rw [pure_run]; simp, rfl⟩
  | textile =>
    simp only [runMeth, hc.lang, To.lang]
    rw [textileLink, hat, hhref]
    refine Emits.bind hx fun s' _ => ⟨s', by simp [pure_run, Ar.linkText, fmt], rfl⟩
  | markdown =>
    simp only [runMeth, hc.lang, To.lang]
    rw [mdLink, hat, hhref]
    refine Emits.bind hx fun s' _ => ⟨s', ?_, rfl⟩
    rw [bind_run, quoteAttr_run (ha rfl).1 (ha rfl).2]
    dsimp only
    rw [title_get, Ar.linkText, titleText]
    by_cases h0 : title = [] <;> simp [h0, pure_run]

theorem image_attrs (a alt title : Str) :
    let d := dictOf ((c!"src", some a) :: (c!"alt", some alt) :: optAttr c!"title" title)
    dictGet c!"src" d = some (some a) ∧ dictGet c!"alt" d = some (some alt) ∧ attrOr c!"alt" d = some alt ∧ attrOr c!"title" d = some title ∧
      truthy (dictGet c!"title" d) = (if title = [] then none else some title) ∧ dictGet c!"width" d = none ∧ dictGet c!"height" d = none := by
  rw [optAttr]
  cases title with
  | nil => exact ⟨rfl, rfl, rfl, rfl, rfl, rfl, rfl⟩
  | cons c cs => exact ⟨rfl, rfl, rfl, rfl, rfl, rfl, rfl⟩

theorem imgText_picture {attrs : Dict (Option Str)} {src alt title : Str} (ha : attrOr c!"alt" attrs = some alt)
    (ht : attrOr c!"title" attrs = some title) (s : ESt) : imgText attrs src s = .ok (pictureText src alt title, s) := by
  have h : imgText attrs src =
      if (if alt.length > title.length then alt else title) = [] then pure (splitLastSlash src).2
      else pure (if alt.length > title.length then alt else title) := by
    unfold imgText
    rw [show (dictGet c!"alt" attrs).getD (some []) = some alt from ha,
      show (dictGet c!"title" attrs).getD (some []) = some title from ht]
  rw [h, pictureText]
  by_cases h0 : alt = [] ∧ title = []
  · obtain ⟨rfl, rfl⟩ := h0
    rw [fileName_eq]
    rfl
  · rw [if_neg h0, if_neg]
    · rfl
    · intro h
      refine h0 ?_
      cases alt with
      | nil => simpa using h
      | cons x xs =>
        exfalso
        split at h
        · cases h
        · next hl => subst h; simp at hl

theorem image_em {to : To} {cfg : Cfg} (hc : Conf to cfg) {a : Address} {alt title m : Str} {anc : List Str} {depth : Int}
    (ha : AddressOk to cfg.netlocOk a) :
    EmE cfg anc depth m (.void c!"img" ((c!"src", some a.text) :: (c!"alt", some alt) :: optAttr c!"title" title)) (imageText to a alt title) := by
  refine void_em hc (me := .img) (by cases to <;> rfl) fun i x s hk hat hs => ⟨s, ?_, rfl⟩
  obtain ⟨e1, e2, e3, e4, e5, e6, e7⟩ := image_attrs a.text alt title
  rw [← hat] at e1 e2 e3 e4 e5 e6 e7
  have h0 := imgSrc_run e1 s
  cases to with
  | creole =>
    simp only [runMeth, hc.lang, To.lang, hc.strict]
    rw [creoleImg, bind_run, imageText]
    by_cases hd : isDataUri a.text
    · rw [h0.1 hd, if_pos hd]; rfl
    · rw [h0.2 hd, if_neg hd]
      dsimp only
      rw [bind_run, imgText_picture e3 e4]
      dsimp only
      rw [e6, e7]
      simp [truthy, pure_run]
  | textile =>
    simp only [runMeth, hc.lang, To.lang]
    rw [textileImg, bind_run, imageText]
    by_cases hd : isDataUri a.text
    · rw [h0.1 hd, if_pos hd]; rfl
    · rw [h0.2 hd, if_neg hd]
      dsimp only
      rw [bind_run, imgText_picture e3 e4]
      simp [pure_run]
  | markdown =>
    simp only [runMeth, hc.lang, To.lang]
    rw [mdImg, bind_run, e1, quoteAttr_run (ha rfl).1 (ha rfl).2]
    dsimp only
    rw [e5, e2, imageText, titleText]
    cases alt with
    | nil =>
      cases title with
      | nil => simp [truthy, pure_run, fmt]
      | cons y ys => simp [truthy, pure_run, fmt]
    | cons x xs =>
      cases title with
      | nil => simp [truthy, pure_run, fmt]
      | cons y ys => simp [truthy, pure_run]

theorem code_em {to : To} {cfg : Cfg} (hc : Conf to cfg) {s : Str} {anc : List Str} {depth : Int} {m : Str} :
    EmE cfg anc depth m (.elem c!"code" [] (s.foldr addChar [])) (codeText to s) := by
  have hch := fun anc' d => text_em hc s anc' d m
  cases to with
  | textile =>
    have := face_em (tag := c!"code") (anc := anc) (depth := depth) hc (by decide) hch
    exact this
  | markdown =>
    refine elem_em hc rfl (me := .code) rfl hch fun i x s hk hat hs hx => ?_
    simp only [runMeth, hc.lang, To.lang, if_true]
    rw [mdCode]
    refine Emits.bind hx fun s' _ => ⟨s', ?_, rfl⟩
    have he : ∀ y, emitContent i.kind y = oneLine y := by
      intro y
      rw [emitContent, hk]
      rfl
    simp only [he, codeText, plainText]
    rw [if_neg (by simpa using oneLine_newline _)]
    split <;> simp [pure_run]
  | creole =>
    intro st hst
    obtain ⟨lv, d, hn⟩ := nodes_elem (tag := c!"code") (attrs := []) (ch := s.foldr addChar []) (depth := depth) rfl
    rw [hn]
    refine emits_one ?_
    obtain ⟨s1, h3, h4⟩ := Emits.children (anc := anc) (i := { kind := c!"code", attrs := dictOf [], level := lv })
      (hch (c!"code" :: anc) d (enter { kind := c!"code", attrs := dictOf [], level := lv } st) hst)
    refine ⟨enter { kind := c!"code", attrs := dictOf [], level := lv } s1, ?_, h4⟩
    rw [emitNode_run, bind_run, preEmit_nil (fun h => absurd h hc.notRest)]
    dsimp only
    rw [bind_run, runNode, hc.lang, show methodOf To.creole.lang c!"code" = none from rfl]
    dsimp only
    rw [unknownEmit, hc.policy, bind_run, ← childrenM, h3]
    rfl

theorem br_em {to : To} {cfg : Cfg} (hc : Conf to cfg) {m : Str} {inList : Bool} (hm : to ≠ .markdown → inList = !m.isEmpty)
    {anc : List Str} {depth : Int} : EmE cfg anc depth m (.void c!"br" []) (breakText to inList) := by
  refine void_em hc (me := .br) (by cases to <;> rfl) fun i x s hk hat hs => ⟨s, ?_, rfl⟩
  simp only [runMeth, hc.lang]
  rw [bind_run, get_run]
  dsimp only
  rw [hs, breakText]
  cases to with
  | markdown => simp [To.lang, pure_run]
  | creole => cases m <;> simp [To.lang, pure_run, hm]
  | textile => cases m <;> simp [To.lang, pure_run, hm]

theorem els_notText {x : Sp} (h : isText x = false) (l : List El) : notText (x.els l) = true := by
  cases x with
  | text s => cases h
  | face t i => rw [Sp.els]; rfl
  | link a t i => rw [Sp.els]; rfl
  | image a b c => rw [Sp.els]; rfl
  | code s => rw [Sp.els]; rfl
  | br => rw [Sp.els]; rfl

mutual
theorem sp_em {to : To} {cfg : Cfg} (hc : Conf to cfg) : ∀ (x : Sp), x.Ok to cfg.netlocOk → ∀ {m : Str} {inList : Bool},
    (to ≠ .markdown → inList = !m.isEmpty) → ∀ {anc : List Str} {depth : Int} {l : List El} {t : Str},
    (isText x = true → notText l = true) → Em cfg anc depth m l t → Em cfg anc depth m (x.els l) (x.txt to inList ++ t)
  | .text s, _, m, inList, _, anc, depth, l, t, hl, ht => by
    rw [Sp.els, Sp.txt, text_append s (hl rfl)]
    exact (text_em hc s anc depth m).append ht
  | .face tag inner, h, m, inList, hm, anc, depth, l, t, hl, ht => by
    rw [Sp.Ok] at h
    rw [Sp.els, Sp.txt]
    refine Em.cons (face_em hc h.1 fun anc' d => ?_) ht
    have := sps_em hc inner h.2.2 hm (l := []) rfl (Em.nil cfg anc' d m)
    rwa [List.append_nil] at this
  | .link a title inner, h, m, inList, hm, anc, depth, l, t, hl, ht => by
    rw [Sp.Ok] at h
    rw [Sp.els, Sp.txt]
    refine Em.cons (link_em hc h.1 fun anc' d => ?_) ht
    have := sps_em hc inner h.2 hm (l := []) rfl (Em.nil cfg anc' d m)
    rwa [List.append_nil] at this
  | .image a alt title, h, m, inList, hm, anc, depth, l, t, hl, ht => by
    rw [Sp.Ok] at h
    rw [Sp.els, Sp.txt]
    exact Em.cons (image_em hc h) ht
  | .code s, h, m, inList, hm, anc, depth, l, t, hl, ht => by
    rw [Sp.els, Sp.txt]
    exact Em.cons (code_em hc) ht
  | .br, h, m, inList, hm, anc, depth, l, t, hl, ht => by
    rw [Sp.els, Sp.txt]
    exact Em.cons (br_em hc hm) ht
theorem sps_em {to : To} {cfg : Cfg} (hc : Conf to cfg) : ∀ (xs : List Sp), SpsOk to cfg.netlocOk xs → ∀ {m : Str} {inList : Bool},
    (to ≠ .markdown → inList = !m.isEmpty) → ∀ {anc : List Str} {depth : Int} {l : List El} {t : Str},
    notText l = true → Em cfg anc depth m l t → Em cfg anc depth m (spsEls xs l) (spsText to inList xs ++ t)
  | [], _, m, inList, _, anc, depth, l, t, _, ht => by rw [spsEls, spsText]; exact ht
  | x :: xs, h, m, inList, hm, anc, depth, l, t, hl, ht => by
    rw [SpsOk] at h
    rw [spsEls, spsText, List.append_assoc]
    refine sp_em hc x h.1 hm ?_ (sps_em hc xs h.2.1 hm hl ht)
    intro hx
    cases xs with
    | nil => rw [spsEls]; exact hl
    | cons y ys =>
      rw [spsEls]
      refine els_notText ?_ _
      have := h.2.2
      simpa [hx] using this
end

theorem sps_whole {to : To} {cfg : Cfg} (hc : Conf to cfg) {xs : List Sp} (h : SpsOk to cfg.netlocOk xs) {m : Str} {inList : Bool}
    (hm : to ≠ .markdown → inList = !m.isEmpty) (anc : List Str) (depth : Int) :
    Em cfg anc depth m (spsEls xs []) (spsText to inList xs) := by
  have := sps_em hc xs h hm (l := []) rfl (Em.nil cfg anc depth m)
  rwa [List.append_nil] at this

end Verif.Emit
