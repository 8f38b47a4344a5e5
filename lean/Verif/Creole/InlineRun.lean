import Verif.Creole.InlineScan
import Verif.Creole.SafeLemmas
import Verif.Py.StripLemmas
import Verif.Py.DictLemmas

/-!
# Parsing and emitting inline markup
-/

namespace Verif.Creole

open Verif Re Py Spec Spec.Cr

theorem htmlEscape_spec (s : Str) : htmlEscape s = textHtml s := htmlEscape_eq s

theorem attrEscape_spec (s : Str) : attrEscape s = attrHtml s := attrEscape_eq s

theorem textHtml_append (a b : Str) : textHtml (a ++ b) = textHtml a ++ textHtml b := by simp [textHtml]

theorem attrHtml_append (a b : Str) : attrHtml (a ++ b) = attrHtml a ++ attrHtml b := by simp [attrHtml]

/-! ## What macros give -/

/-- the node of a call -/
def callInfo (c : Call) : Info :=
  { kind := if c.block then .macro_block else .macro_inline, content := c.text, macroName := c.name, macroArgs := c.args }

/-- the calls of macros give what the specification says -/
class CxOk (env : Env) (ms : Macros) (cx : Ctx) : Prop where
  strict : cx.strict = env.strict
  mac : ∀ c s, cx.mac c = some s → c.name ≠ c!"toc" → macroEmit env (callInfo c) ms = .ok (s, ms)

/-! ## Emission of a list of nodes -/

/-- the nodes give the text `t` and leave the macros alone -/
def Emits (env : Env) (ms : Macros) (parent : Info) (cs : List Node) (t : Str) : Prop :=
  emitNodes env parent cs ms = .ok (t, ms)

variable {env : Env} {ms : Macros} {parent : Info} {cx : Ctx} [hcx : CxOk env ms cx]

theorem emits_nil : Emits env ms parent [] [] := by unfold Emits; rw [emitNodes]

theorem emitNodes_append (a b : List Node) : ∀ ms : Macros, emitNodes env parent (a ++ b) ms =
    match emitNodes env parent a ms with
    | .error e => .error e
    | .ok (s, ms1) =>
      match emitNodes env parent b ms1 with
      | .error e => .error e
      | .ok (t, ms2) => .ok (s ++ t, ms2) := by
  induction a with
  | nil =>
    intro ms
    rw [List.nil_append, emitNodes]
    simp only [List.nil_append]
    cases emitNodes env parent b ms <;> rfl
  | cons n a ih =>
    intro ms
    rw [List.cons_append, emitNodes, emitNodes]
    cases emitNode env parent n ms with
    | error e => rfl
    | ok x =>
      simp only
      rw [ih]
      cases emitNodes env parent a x.2 with
      | error e => rfl
      | ok y =>
        simp only
        cases emitNodes env parent b y.2 with
        | error e => rfl
        | ok z => simp

theorem emits_append {a b : List Node} {s t : Str} (ha : Emits env ms parent a s) (hb : Emits env ms parent b t) :
    Emits env ms parent (a ++ b) (s ++ t) := by
  unfold Emits at *
  rw [emitNodes_append, ha]
  simp only [hb]

theorem emits_one {n : Node} {t : Str} (h : emitNode env parent n ms = .ok (t, ms)) : Emits env ms parent [n] t := by
  unfold Emits
  rw [emitNodes, h]
  simp only
  rw [emitNodes]
  simp

theorem emits_snoc {a : List Node} {n : Node} {s t : Str} (ha : Emits env ms parent a s)
    (h : emitNode env parent n ms = .ok (t, ms)) : Emits env ms parent (a ++ [n]) (s ++ t) :=
  emits_append ha (emits_one h)

theorem emit_text (w : Str) (ms : Macros) : emitNode env parent (.mk { kind := .text, content := some w } []) ms = .ok (textHtml w, ms) := by
  rw [emitNode]; simp only [Info.contentE, pureText, Except.map, htmlEscape_spec]

/-- the text node at the end can be split off -/
theorem emits_text_split {init : List Node} {w s : Str}
    (h : Emits env ms parent (init ++ [.mk { kind := .text, content := some w } []]) s) :
    ∃ s0, Emits env ms parent init s0 ∧ s = s0 ++ textHtml w := by
  unfold Emits at *
  have key : ∀ (a : List Node) (ms1 : Macros) (s : Str),
      emitNodes env parent (a ++ [.mk { kind := .text, content := some w } []]) ms1 = .ok (s, ms) →
      ∃ s0, emitNodes env parent a ms1 = .ok (s0, ms) ∧ s = s0 ++ textHtml w := by
    intro a
    induction a with
    | nil =>
      intro ms1 s h
      rw [List.nil_append, emitNodes, emit_text] at h
      simp only at h
      rw [emitNodes] at h
      simp only [Except.ok.injEq, Prod.mk.injEq, List.append_nil] at h
      exact ⟨[], by rw [emitNodes, h.2], by rw [← h.1]; rfl⟩
    | cons n a ih =>
      intro ms1 s h
      rw [List.cons_append, emitNodes] at h
      cases hn : emitNode env parent n ms1 with
      | error e => rw [hn] at h; simp at h
      | ok x =>
        obtain ⟨u1, us1⟩ := x
        rw [hn] at h
        simp only at h
        cases ha' : emitNodes env parent (a ++ [.mk { kind := .text, content := some w } []]) us1 with
        | error e => rw [ha'] at h; simp at h
        | ok y =>
          obtain ⟨u2, us2⟩ := y
          rw [ha'] at h
          simp only [Except.ok.injEq, Prod.mk.injEq] at h
          obtain ⟨rfl, rfl⟩ := h
          obtain ⟨s0, h1, rfl⟩ := ih us1 u2 ha'
          refine ⟨u1 ++ s0, ?_, by simp⟩
          rw [emitNodes, hn]
          simp only
          rw [h1]
  exact key init ms s h

/-- where the emission of a document began: the macros before it, and whether there has been a call of `toc` -/
structure Stage where
  first : Macros
  toc : Bool

/-- is there a call of `toc` among these macros? -/
def UsedOk (sg : Stage) (us : List Str) : Prop := us.contains c!"toc" = sg.toc

/-! ## One step of inline parsing -/

/-- the last child of the cursor node is not a line break -/
def NoBrk (st : PS) : Prop := ∀ n, st.cur.children.getLast? = some n → n.kind ≠ .brk

/-- the parser stays at the same node and adds children that give the text `t` -/
structure Adds (env : Env) (ms : Macros) (st st' : PS) (t : Str) : Prop where
  up : st'.up = st.up
  info : st'.cur.info = st.cur.info
  used : ∀ {sg : Stage}, UsedOk sg st.used → UsedOk sg st'.used
  text : TextOK st'
  emits : ∀ s, Emits env ms st.cur.info st.cur.children s → Emits env ms st.cur.info st'.cur.children (s ++ t)

theorem Adds.refl {st : PS} (h : TextOK st) : Adds env ms st st [] :=
  ⟨rfl, rfl, id, h, fun s hs => by simpa using hs⟩

theorem Adds.trans {a b c : PS} {s t : Str} (h : Adds env ms a b s) (h' : Adds env ms b c t) : Adds env ms a c (s ++ t) := by
  refine ⟨by rw [h'.up, h.up], by rw [h'.info, h.info], fun hu => h'.used (h.used hu), h'.text, ?_⟩
  intro u hu
  have := h'.emits (u ++ s) (by rw [h.info]; exact h.emits u hu)
  rw [h.info] at this
  simpa using this

/-- a step succeeds, adds at least one node that gives `t`, and (if `b`) the last one is not a line break -/
def Did (env : Env) (ms : Macros) (st : PS) (r : PM) (t : Str) (b : Bool) : Prop :=
  ∃ st', r = .ok st' ∧ Adds env ms st st' t ∧ st'.cur.children ≠ [] ∧ (b = true → NoBrk st')

theorem addNodeU_did {st : PS} {n : Node} {t : Str} {b : Bool} (h : emitNode env st.cur.info n ms = .ok (t, ms))
    (hb : b = true → n.kind ≠ .brk) {us : List Str} (hu : ∀ {sg : Stage}, UsedOk sg st.used → UsedOk sg us) :
    Did env ms st (.ok { (st.addNode n).noText with used := us }) t b := by
  refine ⟨_, rfl, ⟨rfl, rfl, hu, ?_, ?_⟩, ?_, ?_⟩
  · intro h; simp [PS.noText] at h
  · intro s hs; exact emits_snoc hs h
  · simp [PS.noText, PS.addNode, Frame.add]
  · intro hbt m hm
    simp only [PS.noText, PS.addNode, Frame.add, List.getLast?_append, List.getLast?_singleton, Option.some_or,
      Option.some.injEq] at hm
    rw [← hm]; exact hb hbt

theorem addNode_did {st : PS} {n : Node} {t : Str} {b : Bool} (h : emitNode env st.cur.info n ms = .ok (t, ms))
    (hb : b = true → n.kind ≠ .brk) : Did env ms st (.ok (st.addNode n).noText) t b :=
  addNodeU_did h hb (us := st.used) id

theorem leaf_did {st : PS} {i : Info} {t : Str} {b : Bool} (h : emitNode env st.cur.info (.mk i []) ms = .ok (t, ms))
    (hb : b = true → i.kind ≠ .brk) : Did env ms st (.ok (st.leaf i).noText) t b :=
  addNode_did h hb

theorem addChars_did {st : PS} (ht : TextOK st) (s : Str) : Did env ms st (st.addChars s) (textHtml s) true := by
  unfold PS.addChars
  cases htx : st.text with
  | true =>
    obtain ⟨init, s0, hc⟩ := ht htx
    refine ⟨{ st with cur := { st.cur with children := init ++
      [.mk { kind := .text, content := some (s0 ++ s) } []] } }, ?_, ⟨rfl, rfl, id, ?_, ?_⟩, by simp, ?_⟩
    · simp only [if_true, PS.appendText, hc, List.getLast?_append, List.getLast?_singleton, Option.some_or,
        List.dropLast_concat, Option.getD_some]
    · intro _; exact ⟨init, s0 ++ s, rfl⟩
    · intro u hu
      rw [hc] at hu
      obtain ⟨u0, h1, rfl⟩ := emits_text_split hu
      have := emits_snoc h1 (emit_text (s0 ++ s) ms)
      rw [textHtml_append] at this
      simpa using this
    · intro _ n hn
      simp only [List.getLast?_append, List.getLast?_singleton, Option.some_or, Option.some.injEq] at hn
      rw [← hn]; simp [Node.kind, Node.info]
  | false =>
    refine ⟨{ st with text := true, cur := { st.cur with children := st.cur.children ++
      [.mk { kind := .text, content := some s } []] } }, ?_, ⟨rfl, rfl, id, ?_, ?_⟩, by simp, ?_⟩
    · simp [PS.appendText, PS.leaf, Frame.add]
    · intro _; exact ⟨_, s, rfl⟩
    · intro u hu
      exact emits_snoc hu (emit_text s ms)
    · intro _ n hn
      simp only [List.getLast?_append, List.getLast?_singleton, Option.some_or, Option.some.injEq] at hn
      rw [← hn]; simp [Node.kind, Node.info]

theorem popTo_push2 {f p : Frame} {up : List Frame} {tx : Bool} {us : List Str} :
    PS.popTo ⟨f, p :: up, tx, us⟩ up.length = .ok ⟨p.add f.close, up, tx, us⟩ := by
  unfold PS.popTo popToAux
  simp only [List.length_cons]
  rw [if_neg (by omega)]
  cases up with
  | nil => simp [popToAux]
  | cons q up => simp [popToAux]

/-! ## Dispatch -/

section
variable (h : G → Match G → PS → PM) (st : PS) (w : Str)

theorem onHit_char (x : Str) : onHit inlineRe h st ⟨w, [(.char, x)]⟩ = h .char ⟨w, [(.char, x)]⟩ st := rfl
theorem onHit_esc (x y : Str) : onHit inlineRe h st ⟨w, [(.escape, x), (.escaped_char, y)]⟩ =
    h .escape ⟨w, [(.escape, x), (.escaped_char, y)]⟩ st := rfl
theorem onHit_br (x : Str) : onHit inlineRe h st ⟨w, [(.linebreak, x)]⟩ = h .linebreak ⟨w, [(.linebreak, x)]⟩ st := rfl
theorem onHit_nowiki (x y : Str) : onHit inlineRe h st ⟨w, [(.pre_inline, x), (.pre_inline_text, y)]⟩ =
    h .pre_inline ⟨w, [(.pre_inline, x), (.pre_inline_text, y)]⟩ st := rfl
theorem onHit_face (f : Face) (x y : Str) : onHit inlineRe h st ⟨w, [(faceG f, x), (faceT f, y)]⟩ =
    h (faceG f) ⟨w, [(faceG f, x), (faceT f, y)]⟩ st := by cases f <;> rfl
theorem onHit_link (x y : Str) : onHit inlineRe h st ⟨w, [(.link, x), (.link_target, y)]⟩ =
    h .link ⟨w, [(.link, x), (.link_target, y)]⟩ st := rfl
theorem onHit_linkText (x y z : Str) : onHit inlineRe h st ⟨w, [(.link, x), (.link_text, z), (.link_target, y)]⟩ =
    h .link ⟨w, [(.link, x), (.link_text, z), (.link_target, y)]⟩ st := rfl
theorem onHit_image (x y : Str) : onHit inlineRe h st ⟨w, [(.image, x), (.image_target, y)]⟩ =
    h .image ⟨w, [(.image, x), (.image_target, y)]⟩ st := rfl
theorem onHit_imageText (x y z : Str) : onHit inlineRe h st ⟨w, [(.image, x), (.image_text, z), (.image_target, y)]⟩ =
    h .image ⟨w, [(.image, x), (.image_text, z), (.image_target, y)]⟩ st := rfl
theorem onHit_url (x y z : Str) : onHit inlineRe h st ⟨w, [(.url, x), (.url_target, y), (.url_proto, z)]⟩ =
    h .url ⟨w, [(.url, x), (.url_target, y), (.url_proto, z)]⟩ st := rfl
theorem onHit_escUrl (x y z u : Str) :
    onHit inlineRe h st ⟨w, [(.url, x), (.url_target, y), (.url_proto, z), (.escaped_url, u)]⟩ =
    h .url ⟨w, [(.url, x), (.url_target, y), (.url_proto, z), (.escaped_url, u)]⟩ st := rfl
end

/-! ## Images -/

theorem splitOnce_none {d : Char} {s : Str} (h : d ∉ s) : splitOnce d s = none := by
  induction s with
  | nil => rfl
  | cons c s ih =>
    simp only [List.mem_cons, not_or] at h
    rw [splitOnce, if_neg (by simpa using Ne.symm h.1), ih h.2]; rfl

theorem splitOnce_some {d : Char} {a : Str} (b : Str) (h : d ∉ a) : splitOnce d (a ++ d :: b) = some (a, b) := by
  induction a with
  | nil => simp [splitOnce]
  | cons c s ih =>
    simp only [List.mem_cons, not_or] at h
    rw [List.cons_append, splitOnce, if_neg (by simpa using Ne.symm h.1), ih h.2]; rfl

theorem attrHtml_mem {c : Char} {s : Str} (hc : c ∉ c!"&quot;ampl" ) (hg : c ∉ c!"g") (h : c ∉ s) : c ∉ attrHtml s := by
  intro hm
  simp only [attrHtml, List.mem_flatMap] at hm
  obtain ⟨d, hd, hm⟩ := hm
  simp only [textChar] at hm
  simp only [List.mem_cons, List.not_mem_nil, or_false, not_or] at hc hg
  have hne : c ≠ d := by rintro rfl; exact h hd
  split at hm
  · simp_all
  · split at hm
    · simp_all
    · split at hm
      · simp_all
      · split at hm
        · simp_all
        · simp_all

theorem attrHtml_ne_nil {s : Str} (h : s ≠ []) : attrHtml s ≠ [] := by
  cases s with
  | nil => exact absurd rfl h
  | cons c s =>
    simp only [attrHtml, List.flatMap_cons, textChar]
    split
    · simp
    · split
      · simp
      · split
        · simp
        · split <;> simp

theorem attrHtml_id {s : Str} (h : ∀ c ∈ s, c ≠ '"' ∧ c ≠ '&' ∧ c ≠ '<' ∧ c ≠ '>') : attrHtml s = s := by
  induction s with
  | nil => rfl
  | cons c s ih =>
    have hc := h c (by simp)
    have := ih fun d hd => h d (by simp [hd])
    unfold attrHtml at *
    rw [List.flatMap_cons, this]
    simp [textChar, hc]

theorem imgOpen_spec (t s : Str) : imgOpen t (attrHtml s) ++ c!" />" = imgHtml t s [] := by
  simp [imgOpen, imgHtml, attrEscape_spec]

theorem image_plain {t s : Str} (h : '|' ∉ s) : imageEmit env t s = imgHtml t s [] := by
  unfold imageEmit
  simp only [attrEscape_spec, imgOpen_spec]
  have : splitOnce '|' (attrHtml s) = none := splitOnce_none (attrHtml_mem (by decide) (by decide) h)
  simp only [imageSize, this]
  split <;> rfl

theorem decimal_digits (n : Nat) : ∀ c ∈ decimal n, c.isDigit = true := natDigits_all n

theorem pyInt_decimal {n : Nat} (h : sizeOk n = true) : pyInt (strip (decimal n)) = some (n : Int) := by
  have hn : n < 10 ^ maxIntDigits := by
    simp only [sizeOk, decide_eq_true_eq] at h
    exact (Nat.length_toDigits_le_iff (b := 10) (k := maxIntDigits) (by omega) (by decide)).1 h
  have h1 : strip (decimal n) = decimal n := by
    have hd : ∀ c ∈ decimal n, isSpace c = false := by
      intro c hc
      have := decimal_digits n c hc
      rw [isDigit_iff] at this
      simp only [isSpace]
      simp; omega
    refine strip_id ?_ ?_
    · intro c hc; exact hd c (List.mem_of_mem_head? hc)
    · intro c hc; exact hd c (List.mem_of_getLast? hc)
  rw [h1]
  exact pyInt_intStr (n := (n : Int)) (by simpa using hn)

theorem image_sized {t s : Str} {w h : Nat} (hcs : cx.strict = env.strict) (hs : '|' ∉ s) (hne : s ≠ []) (hw : sizeOk w = true) (hh : sizeOk h = true) :
    imageEmit env t (s ++ c!"|" ++ decimal w ++ c!"x" ++ decimal h) = (Inl.sized t s w h).html cx [] := by
  have hx : ∀ n, ∀ c ∈ decimal n, c ≠ '"' ∧ c ≠ '&' ∧ c ≠ '<' ∧ c ≠ '>' ∧ c ≠ 'x' := by
    intro n c hc
    have := decimal_digits n c hc
    refine ⟨?_, ?_, ?_, ?_, ?_⟩ <;> rintro rfl <;> exact absurd this (by decide)
  simp only [Inl.html, hcs]
  unfold imageEmit
  simp only [attrEscape_spec, imgOpen_spec]
  cases hst : env.strict with
  | true => simp
  | false =>
    have e : attrHtml (s ++ c!"|" ++ decimal w ++ c!"x" ++ decimal h) = attrHtml s ++ '|' :: (decimal w ++ 'x' :: decimal h) := by
      rw [attrHtml_append, attrHtml_append, attrHtml_append, attrHtml_append,
        attrHtml_id (s := decimal w) (fun c hc => ⟨(hx w c hc).1, (hx w c hc).2.1, (hx w c hc).2.2.1, (hx w c hc).2.2.2.1⟩),
        attrHtml_id (s := decimal h) (fun c hc => ⟨(hx h c hc).1, (hx h c hc).2.1, (hx h c hc).2.2.1, (hx h c hc).2.2.2.1⟩)]
      simp [attrHtml, textChar]
    have h1 : imageSize t (attrHtml (s ++ c!"|" ++ decimal w ++ c!"x" ++ decimal h)) = some (attrHtml s, (w : Int), (h : Int)) := by
      rw [e]
      unfold imageSize
      rw [splitOnce_some _ (attrHtml_mem (by decide) (by decide) hs)]
      simp only [Option.bind_eq_bind, Option.bind_some]
      rw [splitOnce_some _ (fun hm => (hx w 'x' hm).2.2.2.2 rfl)]
      simp only [Option.bind_some, pyInt_decimal hw, pyInt_decimal hh, if_neg (attrHtml_ne_nil hne)]
      rfl
    simp only [Bool.false_eq_true, if_false, h1]
    simp [imgOpen, imgHtml, attrEscape_spec, intStr, decimal, natDigits]

theorem emit_image (t s : Str) (c : List Node) :
    emitNode env parent (.mk { kind := .image, content := some t } (.mk { kind := .text, content := some s } [] :: c)) ms =
      .ok (imageEmit env t s, ms) := by
  rw [emitNode]
  simp only [Info.contentE, pureText, Except.map, getText, Node.info, Option.getD_some]

theorem trimmed_strip {s : Str} (h : trimmed s = true) : strip s = s ∧ s ≠ [] := by
  cases s with
  | nil => simp [trimmed] at h
  | cons c s =>
    simp only [trimmed, Bool.and_eq_true, Bool.not_eq_true'] at h
    refine ⟨strip_id ?_ ?_, by simp⟩
    · intro d hd
      simp only [List.head?_cons, Option.some.injEq] at hd
      rw [← hd]; exact h.1.1
    · intro d hd
      have := h.1.2
      rw [hd] at this
      simpa using this

theorem barText_strip {d : Char} {s : Str} (h : barText d s = true) : strip s = s ∧ s ≠ [] := by
  simp only [barText, Bool.and_eq_true] at h
  exact trimmed_strip h.1

theorem imageRepl_none {st : PS} {w x t : Str} {caps : List (G × Str)} (ht : strip t = t) (hb : '|' ∉ t)
    (hc : caps = [(.image, x), (.image_target, t)]) :
    Did env ms st (imageRepl ⟨w, caps⟩ st) (imgHtml t t []) true := by
  subst hc
  have e : imageRepl ⟨w, [(.image, x), (.image_target, t)]⟩ st =
      .ok (st.addNode (.mk { kind := .image, content := some (strip t) }
        [.mk { kind := .text, content := some (strip t) } []])).noText := rfl
  rw [e, ht]
  refine addNode_did ?_ (by intro _; simp [Node.kind, Node.info])
  rw [emit_image, image_plain hb]

theorem imageRepl_text {st : PS} {w x t s : Str} {caps : List (G × Str)} (ht : strip t = t) (hs : strip s = s) (hne : s ≠ [])
    (hc : caps = [(.image, x), (.image_text, s), (.image_target, t)]) :
    Did env ms st (imageRepl ⟨w, caps⟩ st) (imageEmit env t s) true := by
  subst hc
  have e : imageRepl ⟨w, [(.image, x), (.image_text, s), (.image_target, t)]⟩ st =
      .ok (st.addNode (.mk { kind := .image, content := some (strip t) }
        [.mk { kind := .text, content := some (if strip s = [] then strip t else strip s) } []])).noText := rfl
  rw [e, ht, hs, if_neg hne]
  refine addNode_did ?_ (by intro _; simp [Node.kind, Node.info])
  rw [emit_image]

/-! ## The text of a link -/

theorem link_rule {l₁ l₂ : List R} {a : R} (he : [imageRule, linebreakRule, charRule] = l₁ ++ a :: l₂) {p : Option Char} {s : Str} {x : St G}
    (hf : ∀ q ∈ l₁, q.res ⟨p, s, []⟩ = []) (ha : (a.res ⟨p, s, []⟩).head? = some x) :
    linkRe.matchAt false p s = some x := by
  rw [Re.matchAt_false]
  unfold linkRe
  rw [he]
  exact alts_head hf ha

theorem link_chr {prev : Option Char} {c : Char} {next : Str} (hnl : c ≠ '\n')
    (hp : ((c == '{' || c == '\\') && next.head? == some c) = false) :
    linkRe.matchAt false prev (c :: next) = some ⟨some c, next, [(.char, [c])]⟩ := by
  refine link_rule (l₁ := [imageRule, linebreakRule]) (l₂ := []) rfl ?_ ?_
  · simp only [List.forall_mem_cons, List.not_mem_nil, false_implies, implies_true, and_true]
    refine ⟨grp_lit_nil ?_, res_grp_nil (Re.res_lit_nil _ _ _ _ ?_)⟩ <;> intro t ht <;>
      simp only [List.cons_append, List.nil_append, List.cons.injEq] at ht <;> obtain ⟨rfl, rfl⟩ := ht <;>
      simp at hp
  · have := Re.head_grp (g := G.char) (Re.head_cls (γ := G) (cs := .dot) (p := prev) (c := c) (r := next) (caps := [])
      (by simpa [CSet.mem] using hnl))
    have hc : consumed (c :: next) next = [c] := consumed_append [c] next
    simp only [hc] at this
    exact this

theorem link_br {prev : Option Char} {rest : Str} :
    linkRe.matchAt false prev (c!"\\\\" ++ rest) = some ⟨some '\\', rest, [(.linebreak, c!"\\\\")]⟩ := by
  refine link_rule (l₁ := [imageRule]) (l₂ := [charRule]) rfl (fails_start (by decide)) ?_
  have h1 : ((lit c!"\\\\" : R).res ⟨prev, c!"\\\\" ++ rest, []⟩).head? = some ⟨some '\\', rest, []⟩ := by rw [Re.res_lit]; rfl
  have h3 := Re.head_grp (g := G.linebreak) h1
  simp only [consumed_append] at h3
  exact h3

theorem link_image {prev : Option Char} {s rest : Str} (hs : Target '}' s) :
    linkRe.matchAt false prev (c!"{{" ++ (s ++ (c!"}}" ++ rest))) =
      some ⟨some '}', rest, [(.image, c!"{{" ++ s ++ c!"}}"), (.image_target, s)]⟩ :=
  link_rule (l₁ := []) (l₂ := [linebreakRule, charRule]) rfl (by simp) (bar_none hs (by decide) (by decide))

theorem link_imageText {prev : Option Char} {s x rest : Str} (hs : Target '}' s) (hx : BarText '}' x) :
    linkRe.matchAt false prev (c!"{{" ++ (s ++ ('|' :: (x ++ (c!"}}" ++ rest))))) =
      some ⟨some '}', rest, [(.image, c!"{{" ++ s ++ '|' :: x ++ c!"}}"), (.image_text, x), (.image_target, s)]⟩ :=
  link_rule (l₁ := []) (l₂ := [linebreakRule, charRule]) rfl (by simp) (bar_some hs hx (by decide) (by decide))

section
variable (h : G → Match G → PS → PM) (st : PS) (w : Str)
theorem onHitL_char (x : Str) : onHit linkRe h st ⟨w, [(.char, x)]⟩ = h .char ⟨w, [(.char, x)]⟩ st := rfl
theorem onHitL_br (x : Str) : onHit linkRe h st ⟨w, [(.linebreak, x)]⟩ = h .linebreak ⟨w, [(.linebreak, x)]⟩ st := rfl
theorem onHitL_image (x y : Str) : onHit linkRe h st ⟨w, [(.image, x), (.image_target, y)]⟩ =
    h .image ⟨w, [(.image, x), (.image_target, y)]⟩ st := rfl
theorem onHitL_imageText (x y z : Str) : onHit linkRe h st ⟨w, [(.image, x), (.image_text, z), (.image_target, y)]⟩ =
    h .image ⟨w, [(.image, x), (.image_text, z), (.image_target, y)]⟩ st := rfl
end

/-- a step followed by the rest of the text -/
theorem did_bind {st : PS} {r : PM} {f : PS → PM} {s t : Str} {b b' : Bool} (h : Did env ms st r s b)
    (hf : ∀ st', Adds env ms st st' s → st'.cur.children ≠ [] → (b = true → NoBrk st') → Did env ms st' (f st') t b') :
    Did env ms st (r >>= f) (s ++ t) b' := by
  obtain ⟨st', rfl, h1, h2, h3⟩ := h
  obtain ⟨st'', h4, h5, h6, h7⟩ := hf st' h1 h2 h3
  exact ⟨st'', h4, h1.trans h5, h6, h7⟩

/-- a result that also holds when nothing is left: the nodes added so far remain -/
theorem did_done {st : PS} {b : Bool} (ht : TextOK st) (hne : st.cur.children ≠ []) (hb : b = true → NoBrk st) :
    Did env ms st (.ok st) [] b := ⟨st, rfl, Adds.refl ht, hne, hb⟩

theorem imageTarget_iff {t : Str} (h : imageTarget t = true) : Target '}' t ∧ strip t = t ∧ t.head? ≠ some '{' := by
  simp only [imageTarget, Bool.and_eq_true, bne_iff_ne, ne_eq] at h
  exact ⟨targetOk_iff h.1.1, (trimmed_strip h.1.2).1, h.2⟩

theorem decimal_ne_nil (n : Nat) : decimal n ≠ [] := Nat.toDigits_ne_nil

/-- the text of a sized image -/
theorem sized_bar {s : Str} {w h : Nat} (hs : barText '}' s = true) :
    BarText '}' (s ++ c!"|" ++ decimal w ++ c!"x" ++ decimal h) ∧
    strip (s ++ c!"|" ++ decimal w ++ c!"x" ++ decimal h) = s ++ c!"|" ++ decimal w ++ c!"x" ++ decimal h := by
  have hb := barText_iff hs
  have hd : ∀ c ∈ c!"|" ++ decimal w ++ c!"x" ++ decimal h, c ≠ '\n' ∧ c ≠ '}' ∧ isSpace c = false := by
    have key : ∀ n, ∀ c ∈ decimal n, c ≠ '\n' ∧ c ≠ '}' ∧ isSpace c = false := by
      intro n c hc
      have := decimal_digits n c hc
      refine ⟨?_, ?_, ?_⟩
      · rintro rfl; exact absurd this (by decide)
      · rintro rfl; exact absurd this (by decide)
      · rw [isDigit_iff] at this
        simp only [isSpace]
        simp; omega
    intro c hc
    simp only [List.mem_append, List.mem_cons, List.not_mem_nil, or_false] at hc
    rcases hc with ((rfl | hc) | rfl) | hc
    · decide
    · exact key w c hc
    · decide
    · exact key h c hc
  have e : s ++ c!"|" ++ decimal w ++ c!"x" ++ decimal h = s ++ (c!"|" ++ decimal w ++ c!"x" ++ decimal h) := by simp
  rw [e]
  generalize hz : c!"|" ++ decimal w ++ c!"x" ++ decimal h = z at hd
  have hzne : z ≠ [] := by rw [← hz]; simp
  have hlast : ∀ c, (s ++ z).getLast? = some c → isSpace c = false := by
    intro c hc
    rw [List.getLast?_append, List.getLast?_eq_some_getLast hzne, Option.some_or, ← List.getLast?_eq_some_getLast hzne] at hc
    exact (hd c (List.mem_of_getLast? hc)).2.2
  have hfirst : ∀ c t, s ++ z = c :: t → isSpace c = false := by
    intro c t hct
    cases hsc : s with
    | nil => exact absurd hsc hb.ne
    | cons a s' =>
      rw [hsc, List.cons_append, List.cons.injEq] at hct
      rw [← hct.1]; exact hb.first a s' hsc
  refine ⟨⟨?_, hfirst, hlast, ?_, ?_⟩, strip_id ?_ hlast⟩
  · intro hm
    rw [List.mem_append] at hm
    rcases hm with hm | hm
    · exact hb.nonl hm
    · exact (hd _ hm).1 rfl
  · intro u v huv t ht
    -- an occurrence of the closing mark lies before the bar
    rw [List.append_eq_append_iff] at huv
    rcases huv with ⟨a, rfl, ha⟩ | ⟨a, ha, rfl⟩
    · cases v with
      | nil => simp at ht
      | cons x v =>
        simp only [List.cons_append, List.nil_append, List.cons.injEq] at ht
        exact (hd x (by rw [ha]; simp)).2.1 ht.1
    · have hz' : z = '|' :: (decimal w ++ c!"x" ++ decimal h) := by rw [← hz]; simp
      cases a with
      | nil =>
        rw [hz'] at ht
        simp at ht
      | cons x a =>
        cases a with
        | nil =>
          rw [hz'] at ht
          simp at ht
        | cons y a =>
          simp only [List.cons_append, List.nil_append, List.cons.injEq] at ht
          refine hb.occ u (x :: y :: a) ha (a ++ c!"}") ?_
          simp [ht.1, ht.2.1]
  · rw [Ne, List.append_eq_nil_iff]; exact fun h => hzne h.2
  · intro c hc
    cases hsz : s ++ z with
    | nil => rw [hsz] at hc; simp at hc
    | cons x t =>
      rw [hsz] at hc
      simp only [List.head?_cons, Option.some.injEq] at hc
      rw [← hc]; exact hfirst x t hsz

theorem emit_brk {br : Str} (h : breakEmit parent = .ok br) : emitNode env parent (.mk { kind := .brk } []) ms = .ok (br, ms) := by
  rw [emitNode]; simp only [h, pureText, Except.map]

theorem linkRe_nullable : linkRe.nullable = false := by decide

theorem runR_take' {r : R} {h : G → Match G → PS → PM} {prev : Option Char} {st : PS} {s w rest : Str} {p : Option Char}
    {caps : List (G × Str)} (hs : s = w ++ rest) (hw : w ≠ [])
    (hm : r.matchAt false prev s = some ⟨p, rest, caps⟩) :
    runR r h prev s st = (onHit r h st ⟨w, caps⟩ >>= runR r h w.getLast? rest) := by
  subst hs; exact runR_take hw hm

/-- parsing the text of a link -/
theorem linkRun : ∀ (l : List Inl) (prev : Option Char) (st : PS), linkParts l = true → TextOK st → st.cur.info.kind = .link →
    (l ≠ [] ∨ st.cur.children ≠ []) →
    Did env ms st (runR linkRe leafRepl prev (prints l) st) (htmls cx c!"<br />\n" l) false := by
  intro l
  induction l with
  | nil =>
    intro prev st _ ht _ hne
    simp only [prints, htmls]
    rw [runR_nil linkRe_nullable]
    exact did_done ht (by simpa using hne) (by simp)
  | cons i l ih =>
    intro prev st hl ht hk _
    have next : ∀ {r : PM} {s w : Str} {b : Bool}, Did env ms st r s b → linkParts l = true →
        Did env ms st (r >>= runR linkRe leafRepl w.getLast? (prints l)) (s ++ htmls cx c!"<br />\n" l) false := by
      intro r s w b h hl'
      refine did_bind h ?_
      intro st' h1 h2 _
      exact ih _ st' hl' h1.text (by rw [h1.info]; exact hk) (.inr h2)
    cases i with
    | chr c =>
      simp only [linkParts, Bool.and_eq_true, bne_iff_ne, ne_eq, Bool.not_eq_true'] at hl
      simp only [prints, htmls, Inl.print, Inl.html]
      rw [runR_take' (w := [c]) rfl (by simp) (link_chr hl.1.1 hl.1.2), onHitL_char]
      exact next (addChars_did ht [c]) hl.2
    | br =>
      simp only [linkParts] at hl
      simp only [prints, htmls, Inl.print, Inl.html]
      rw [runR_take' (w := c!"\\\\") rfl (by simp) link_br, onHitL_br]
      refine next (b := false) (leaf_did (emit_brk ?_) (by simp)) hl
      simp [breakEmit, hk]
    | image t s =>
      simp only [linkParts, Bool.and_eq_true, Bool.or_eq_true, Bool.not_eq_true', List.contains_eq_mem, decide_eq_false_iff_not] at hl
      obtain ⟨⟨hit, hs⟩, hl⟩ := hl
      obtain ⟨htg, hst, _⟩ := imageTarget_iff hit
      cases s with
      | nil =>
        simp only [prints, htmls, Inl.print, Inl.html]
        rw [runR_take' (w := c!"{{" ++ t ++ c!"}}") rfl (by simp) (by simpa using link_image htg), onHitL_image]
        exact next (imageRepl_none hst htg.nobar rfl) hl
      | cons c s =>
        have hs' : barText '}' (c :: s) = true ∧ '|' ∉ c :: s := by simpa using hs
        obtain ⟨h1, h2⟩ := barText_strip hs'.1
        simp only [prints, htmls, Inl.print, Inl.html]
        rw [runR_take' (w := c!"{{" ++ t ++ c!"|" ++ (c :: s) ++ c!"}}") rfl (by simp)
          (by simpa using link_imageText htg (barText_iff hs'.1) (rest := prints l)), onHitL_imageText]
        have : Did env ms st (leafRepl .image _ st) _ true := imageRepl_text (env := env) (ms := ms) (st := st) (w := c!"{{" ++ t ++ c!"|" ++ (c :: s) ++ c!"}}")
          (x := c!"{{" ++ t ++ c!"|" ++ (c :: s) ++ c!"}}") hst h1 h2 rfl
        rw [image_plain hs'.2] at this
        exact next (by simpa using this) hl
    | sized t s w h =>
      simp only [linkParts, Bool.and_eq_true, Bool.not_eq_true', List.contains_eq_mem, decide_eq_false_iff_not] at hl
      obtain ⟨⟨⟨⟨⟨hit, hs⟩, hb⟩, hw⟩, hh⟩, hl⟩ := hl
      obtain ⟨htg, hst, _⟩ := imageTarget_iff hit
      obtain ⟨h1, h2⟩ := sized_bar (w := w) (h := h) hs
      have hpr : (Inl.sized t s w h).print = c!"{{" ++ t ++ c!"|" ++ (s ++ c!"|" ++ decimal w ++ c!"x" ++ decimal h) ++ c!"}}" := by
        simp [Inl.print]
      simp only [prints, htmls]
      rw [hpr]
      rw [runR_take' (w := c!"{{" ++ t ++ c!"|" ++ (s ++ c!"|" ++ decimal w ++ c!"x" ++ decimal h) ++ c!"}}") rfl (by simp)
          (by simpa using link_imageText htg h1 (rest := prints l)), onHitL_imageText]
      have : Did env ms st (leafRepl .image _ st) _ true := imageRepl_text (env := env) (ms := ms) (st := st) (w := c!"{{" ++ t ++ c!"|" ++ (s ++ c!"|" ++ decimal w ++ c!"x" ++ decimal h) ++ c!"}}")
          (x := c!"{{" ++ t ++ c!"|" ++ (s ++ c!"|" ++ decimal w ++ c!"x" ++ decimal h) ++ c!"}}") hst h2 h1.ne rfl
      rw [image_sized (CxOk.strict (cx := cx) ms) hb (barText_iff hs).ne hw hh] at this
      have e : (Inl.sized t s w h).html cx c!"<br />\n" = (Inl.sized t s w h).html cx [] := rfl
      rw [e]
      exact next (by simpa using this) hl
    | _ => simp [linkParts] at hl

theorem emit_link_nil (t : Str) : emitNode env parent (.mk { kind := .link, content := some t } []) ms =
    .ok (linkHtml t (textHtml t), ms) := by
  rw [emitNode]
  simp [Info.contentE, linkHtml, attrEscape_spec, htmlEscape_spec]

theorem emit_link {t : Str} {cs : List Node} {u : Str} (hcs : cs ≠ []) (h : Emits env ms { kind := .link, content := some t } cs u) :
    emitNode env parent (.mk { kind := .link, content := some t } cs) ms = .ok (linkHtml t u, ms) := by
  rw [emitNode]
  unfold Emits at h
  cases cs with
  | nil => exact absurd rfl hcs
  | cons c cs => simp [Info.contentE, linkHtml, attrEscape_spec, emap, h, Except.map]

theorem linkRepl_none {st : PS} {w x t : Str} : Did env ms st (linkRepl ⟨w, [(.link, x), (.link_target, t)]⟩ st) (linkHtml t (textHtml t)) true := by
  have e : linkRepl ⟨w, [(.link, x), (.link_target, t)]⟩ st = .ok (st.addNode (.mk { kind := .link, content := some t } [])).noText := by
    have hn : need (Match.mk w [(G.link, x), (G.link_target, t)]) .link_target = .ok t := rfl
    have hg : (Match.mk w [(G.link, x), (G.link_target, t)]).get .link_text = none := rfl
    unfold linkRepl
    simp only [hn, hg, ok_bind, Option.getD_none]
    have : strip [] = [] := rfl
    rw [this, subAll_eq, runR_nil linkRe_nullable]
    show ((PS.popTo _ _) >>= _) = _
    unfold PS.noText PS.push
    simp only
    rw [popTo_push2]
    rfl
  rw [e]
  exact addNode_did (emit_link_nil t) (by intro _; simp [Node.kind, Node.info])

theorem linkRepl_text {st : PS} {w x t : Str} {l : List Inl} (hl : linkParts l = true) (hb : barText ']' (prints l) = true) (hne : l ≠ []) :
    Did env ms st (linkRepl ⟨w, [(.link, x), (.link_text, prints l), (.link_target, t)]⟩ st)
      (linkHtml t (htmls cx c!"<br />\n" l)) true := by
  obtain ⟨hs, _⟩ := barText_strip hb
  obtain ⟨st', h1, h2, h3, _⟩ := linkRun (env := env) (ms := ms) (cx := cx) l none ((st.push { kind := .link, content := some t }).noText) hl
    (by intro h; simp [PS.noText] at h) rfl (.inl hne)
  have e : linkRepl ⟨w, [(.link, x), (.link_text, prints l), (.link_target, t)]⟩ st =
      .ok { (st.addNode (.mk { kind := .link, content := some t } st'.cur.children)).noText with used := st'.used } := by
    have hn : need (Match.mk w [(G.link, x), (G.link_text, prints l), (G.link_target, t)]) .link_target = .ok t := rfl
    have hg : (Match.mk w [(G.link, x), (G.link_text, prints l), (G.link_target, t)]).get .link_text = some (prints l) := rfl
    unfold linkRepl
    simp only [hn, hg, ok_bind, Option.getD_some]
    rw [hs, subAll_eq, h1]
    show ((PS.popTo st' st.up.length) >>= _) = _
    obtain ⟨cur, up, tx, us⟩ := st'
    have hup := h2.up
    have hin := h2.info
    simp only [PS.noText, PS.push] at hup hin
    subst hup
    rw [popTo_push2]
    simp only [Frame.close, hin]
    rfl
  rw [e]
  refine addNodeU_did (emit_link h3 ?_) (by intro _; simp [Node.kind, Node.info]) h2.used
  have := h2.emits [] emits_nil
  exact this

/-! ## Typefaces -/

theorem emit_face {f : Face} {cs : List Node} {u : Str} (h : Emits env ms { kind := faceKind f } cs u) :
    emitNode env parent (.mk { kind := faceKind f } cs) ms = .ok (c!"<" ++ f.tag ++ c!">" ++ u ++ c!"</" ++ f.tag ++ c!">", ms) := by
  unfold Emits at h
  cases f <;> (rw [emitNode]; simp only [faceKind] at h ⊢; simp [h, emap, Except.map, typeface, Face.tag])

theorem inlineRepl_face (pi : Str → PS → PM) (f : Face) (m : Match G) (st : PS) :
    inlineRepl pi (faceG f) m st = inlineMark pi (faceKind f) (faceT f) m st := by cases f <;> rfl

theorem get_faceT (f : Face) (x y w : Str) : (Match.mk w [(faceG f, x), (faceT f, y)]).get (faceT f) = some y := by
  cases f <;> rfl

theorem faceKind_ne (f : Face) : faceKind f ≠ .brk := by cases f <;> decide

theorem faceKind_break (f : Face) : breakEmit { kind := faceKind f } = .ok c!"<br />\n" := by cases f <;> rfl

theorem inlineMark_did {st : PS} {pi : Str → PS → PM} {f : Face} {w x s u : Str}
    (h : Did env ms (st.push { kind := faceKind f }).noText (pi s (st.push { kind := faceKind f }).noText) u true) :
    Did env ms st (inlineMark pi (faceKind f) (faceT f) ⟨w, [(faceG f, x), (faceT f, s)]⟩ st)
      (c!"<" ++ f.tag ++ c!">" ++ u ++ c!"</" ++ f.tag ++ c!">") true := by
  obtain ⟨st', h1, h2, h3, h4⟩ := h
  have e : inlineMark pi (faceKind f) (faceT f) ⟨w, [(faceG f, x), (faceT f, s)]⟩ st =
      .ok { (st.addNode (.mk { kind := faceKind f } st'.cur.children)).noText with used := st'.used } := by
    unfold inlineMark
    simp only [need_of_get (get_faceT f x s w), ok_bind, h1]
    have hb := h4 rfl
    have hcl : st'.cleanupBreak = st' := by
      unfold PS.cleanupBreak
      cases hlast : st'.cur.children.getLast? with
      | none => rfl
      | some n => simp only [if_neg (hb n hlast)]
    obtain ⟨cur, up, tx, us⟩ := st'
    have hup := h2.up
    have hin := h2.info
    simp only [PS.noText, PS.push] at hup hin
    subst hup
    have hup' : PS.upto ⟨cur, st.cur :: st.up, tx, us⟩ (fun k => decide (k = faceKind f)) = ⟨cur, st.cur :: st.up, tx, us⟩ := by
      unfold PS.upto
      rw [hcl]
      simp only [climb, Frame.kind, hin, decide_true, if_true]
    rw [hup']
    simp only [PS.pop, Frame.close, hin]
    rfl
  rw [e]
  refine addNodeU_did (emit_face ?_) (by intro _; exact faceKind_ne f) h2.used
  exact h2.emits [] emits_nil

end Verif.Creole
