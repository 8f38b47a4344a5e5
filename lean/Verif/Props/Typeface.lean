import Verif.Emit.EmitLemmas
import Verif.Spec.Lists
import Verif.Py.StripLemmas

/-!
# C48: typefaces
-/

namespace Verif.Props

open Verif Py Html Emit Spec

/-- how a tag with delimiters is emitted -/
def Wraps (m : Meth) (before after : Str) : Prop :=
  ∀ cfg anc i (ch : EmM Str), runMeth cfg anc i m ch = ch >>= fun c => pure (before ++ c ++ after)

theorem wraps_typeface (key : Str) : Wraps (.typeface key) key key := fun _ _ _ _ => rfl

theorem wraps_html (tag : Str) : Wraps (.typefaceHtml tag) (c!"<" ++ tag ++ c!">") (c!"</" ++ tag ++ c!">") := by
  intro cfg anc i ch
  show (ch >>= fun c => pure ('<' :: tag ++ '>' :: c ++ c!"</" ++ tag ++ c!">")) = _
  congr
  funext c
  simp only [List.append_assoc, List.cons_append, List.nil_append]

theorem wraps_children : Wraps .children [] [] := by
  intro cfg anc i ch
  show ch = _
  simp

theorem delimiters_method {lang : Lang} {tag before after : Str} (h : delimiters lang tag = some (before, after)) :
    ∃ m, methodOf lang tag = some m ∧ Wraps m before after := by
  cases lang with
  | creole =>
    simp only [delimiters, Option.map_eq_some_iff] at h
    obtain ⟨d, h, hd⟩ := h
    have key : ∀ p ∈ ([
      (c!"b", c!"**"), (c!"strong", c!"**"), (c!"big", c!"**"), (c!"i", c!"//"), (c!"em", c!"//"), (c!"tt", c!"##"),
      (c!"sup", c!"^^"), (c!"sub", c!",,"), (c!"u", c!"__"), (c!"small", c!"--"), (c!"del", c!"~~"),
      (c!"strike", c!"~~")] : List (Str × Str)), methodOf .creole p.1 = some (.typeface p.2) := by decide +kernel
    cases hd
    exact ⟨_, key _ (lookup_mem h), wraps_typeface _⟩
  | textile =>
    simp only [delimiters, Option.map_eq_some_iff] at h
    obtain ⟨d, h, hd⟩ := h
    have key : ∀ p ∈ ([
      (c!"b", c!"**"), (c!"strong", c!"*"), (c!"big", c!"*"), (c!"i", c!"__"), (c!"em", c!"_"), (c!"sup", c!"^"),
      (c!"sub", c!"~"), (c!"del", c!"-"), (c!"cite", c!"??"), (c!"ins", c!"+"), (c!"span", c!"%"), (c!"code", c!"@")] :
      List (Str × Str)), methodOf .textile p.1 = some (.typeface p.2) := by decide +kernel
    cases hd
    exact ⟨_, key _ (lookup_mem h), wraps_typeface _⟩
  | markdown =>
    simp only [delimiters] at h
    have key : ∀ p ∈ ([
      (c!"b", (c!"**", c!"**")), (c!"strong", (c!"**", c!"**")), (c!"big", (c!"**", c!"**")), (c!"i", (c!"_", c!"_")),
      (c!"em", (c!"_", c!"_")), (c!"tt", (c!"##", c!"##")), (c!"sup", (c!"<sup>", c!"</sup>")),
      (c!"sub", (c!"<sub>", c!"</sub>")), (c!"u", (c!"__", c!"__")), (c!"small", (c!"--", c!"--")),
      (c!"del", (c!"~~", c!"~~")), (c!"strike", (c!"~~", c!"~~"))] : List (Str × (Str × Str))),
      (methodOf .markdown p.1 = some (.typeface p.2.1) ∧ p.2.2 = p.2.1) ∨
      (methodOf .markdown p.1 = some (.typefaceHtml p.1) ∧ p.2.1 = c!"<" ++ p.1 ++ c!">" ∧ p.2.2 = c!"</" ++ p.1 ++ c!">") := by
      decide +kernel
    rcases key _ (lookup_mem h) with ⟨h1, h2⟩ | ⟨h1, h2, h3⟩
    · dsimp only at h2
      subst h2
      exact ⟨_, h1, wraps_typeface _⟩
    · dsimp only at h2 h3
      subst h2 h3
      exact ⟨_, h1, wraps_html _⟩
  | rest =>
    simp only [delimiters, Option.map_eq_some_iff] at h
    obtain ⟨d, h, hd⟩ := h
    have key : ∀ p ∈ ([
      (c!"b", c!"**"), (c!"strong", c!"**"), (c!"big", c!"**"), (c!"i", c!"*"), (c!"em", c!"*"), (c!"tt", c!"``"),
      (c!"small", c!"")] : List (Str × Str)), methodOf .rest p.1 = some (.typeface p.2) ∨
        (methodOf .rest p.1 = some .children ∧ p.2 = []) := by decide +kernel
    cases hd
    rcases key _ (lookup_mem h) with h1 | ⟨h1, h2⟩
    · exact ⟨_, h1, wraps_typeface _⟩
    · dsimp only at h2
      subst h2
      exact ⟨_, h1, wraps_children⟩

/-- no substitution definitions are pending, or the node is not a child of the root -/
def Quiet (s : ESt) (anc : List Str) : Prop := s.subst = [] ∨ 2 ≤ anc.length

theorem Quiet.pre {s : ESt} {anc : List Str} (h : Quiet s anc) {lang : Lang} : lang = .rest → s.subst = [] ∨ anc.length ≠ 1 := by
  intro _
  rcases h with h | h
  · exact .inl h
  · exact .inr (by omega)

theorem Quiet.core {s s' : ESt} {anc : List Str} (h : Quiet s anc) (hs : s'.core = s.core) : Quiet s' anc := by
  rcases h with h | h
  · have : s'.core.subst = s.core.subst := by rw [hs]
    exact .inl (this.trans h)
  · exact .inr h

theorem Quiet.cons {s : ESt} {anc : List Str} (h : Quiet s anc) (k : Str) : Quiet s (k :: anc) := by
  rcases h with h | h
  · exact .inl h
  · exact .inr (by rw [List.length_cons]; omega)

theorem method_data (lang : Lang) : methodOf lang c!"data" = some .data := by cases lang <;> rfl

theorem data_no_delimiters (lang : Lang) : delimiters lang c!"data" = none := by cases lang <;> rfl

mutual

/-- the emission of inline nodes -/
theorem inlineText_emit (cfg : Cfg) : ∀ (n : HNode) (t : Str), inlineText cfg.lang n = some t → ∀ (anc : List Str) (s : ESt),
    Quiet s anc → ∃ s', emitNode cfg anc n s = .ok (t, s') ∧ s'.core = s.core
  | .mk i ch, t, h, anc, s, hq => by
    rw [inlineText] at h
    split at h
    · next hk =>
      obtain ⟨d, hd, ht⟩ := Option.map_eq_some_iff.mp h
      rw [emitNode_known (m := .data) (by rw [hk]; exact method_data _) hq.pre]
      refine ⟨enter i s, ?_, rfl⟩
      rw [← ht]
      simp only [runMeth, hd]
      by_cases h1 : cfg.lang = .markdown
      · by_cases h2 : d = c!" "
        · simp [h1, h2, pure_run]
        · simp [h1, h2, pure_run]
      · simp [h1, pure_run]
    · split at h
      · next before after u hd hu =>
        obtain ⟨m, hm, hw⟩ := delimiters_method hd
        rw [emitNode_known hm hq.pre, hw, bind_run, childrenM_run]
        obtain ⟨s1, h1, h2⟩ := inlineTexts_emit cfg ch u hu (i.kind :: anc) (enter i s) ((hq.cons i.kind).core rfl)
        rw [h1]
        refine ⟨enter i s1, ?_, h2⟩
        cases h
        rfl
      · cases h

theorem inlineTexts_emit (cfg : Cfg) : ∀ (ns : List HNode) (t : Str), inlineTexts cfg.lang ns = some t →
    ∀ (anc : List Str) (s : ESt), Quiet s anc → ∃ s', emitNodes cfg anc ns s = .ok (t, s') ∧ s'.core = s.core
  | [], t, h, anc, s, _ => by
    rw [inlineTexts] at h
    cases h
    rw [emitNodes_nil]
    exact ⟨s, rfl, rfl⟩
  | n :: ns, t, h, anc, s, hq => by
    rw [inlineTexts] at h
    split at h
    · next a b ha hb =>
      cases h
      obtain ⟨s1, h1, h2⟩ := inlineText_emit cfg n a ha anc s hq
      obtain ⟨s2, h3, h4⟩ := inlineTexts_emit cfg ns b hb anc s1 (hq.core h2)
      rw [emitNodes_cons, bind_run, h1]
      dsimp only
      rw [bind_run, h3]
      exact ⟨s2, rfl, h4.trans h2⟩
    · cases h

end

mutual

theorem inlineText_node {lang : Lang} : ∀ (x : Inl), x.ok lang = true → inlineText lang x.node = some (x.markup lang)
  | .text t, _ => by
    rw [Inl.node, inlineText, if_pos rfl, Inl.markup]
    rfl
  | .el tag ch, h => by
    rw [Inl.ok, Bool.and_eq_true, Option.isSome_iff_exists] at h
    obtain ⟨⟨⟨before, after⟩, hd⟩, hch⟩ := h
    have hk : tag ≠ c!"data" := by
      intro hk
      rw [hk, data_no_delimiters] at hd
      cases hd
    rw [Inl.node, inlineText, if_neg hk, hd, inlineTexts_nodes ch hch, Inl.markup, hd]

theorem inlineTexts_nodes {lang : Lang} : ∀ (xs : List Inl), inlOk lang xs = true →
    inlineTexts lang (inlNodes xs) = some (inlMarkup lang xs)
  | [], _ => by rw [inlNodes, inlineTexts, inlMarkup]
  | x :: xs, h => by
    rw [inlOk, Bool.and_eq_true] at h
    rw [inlNodes, inlineTexts, inlineText_node x h.1, inlineTexts_nodes xs h.2, inlMarkup]

end

theorem inls_emit (cfg : Cfg) (xs : List Inl) (h : inlOk cfg.lang xs = true) (anc : List Str) (s : ESt) (hq : Quiet s anc) :
    ∃ s', emitNodes cfg anc (inlNodes xs) s = .ok (inlMarkup cfg.lang xs, s') ∧ s'.core = s.core :=
  inlineTexts_emit cfg _ _ (inlineTexts_nodes xs h) anc s hq

theorem method_p (lang : Lang) : methodOf lang c!"p" = some .p := by cases lang <;> rfl
theorem method_document (lang : Lang) : methodOf lang c!"document" = some .document := by cases lang <;> rfl

/-- blanks -/
theorem isSpace_newline : isSpace '\n' = true := rfl

theorem newlines_space : ∀ c ∈ c!"\n\n", isSpace c = true := by simp; rfl

theorem newline_space : ∀ c ∈ c!"\n", isSpace c = true := by simp; rfl

/-- the root: when no substitution definitions are left, the children are emitted and the text is stripped -/
theorem emit_document {cfg : Cfg} {children : List HNode} {t : Str} {s : ESt}
    (h : emitNodes cfg [c!"document"] children (enter { kind := c!"document" } {}) = .ok (t, s))
    (hs : cfg.lang = .rest → s.subst = []) :
    emit cfg (.mk { kind := c!"document" } children) = .ok (if cfg.lang = .rest then rstrip t else strip t) := by
  have hc : childrenM cfg [] { kind := c!"document" } children {} = .ok (t, s) := by
    rw [childrenM_run]; exact h
  rw [emit_eq, emitNode_known (i := { kind := c!"document" }) (method_document _) (fun _ => .inl rfl)]
  simp only [runMeth]
  by_cases hl : cfg.lang = .rest
  · rw [if_pos hl, restDocument, bind_run, hc]
    dsimp only
    rw [bind_run, get_run]
    dsimp only
    rw [if_neg (by simp [hs hl])]
    simp only [pure_run]
  · rw [if_neg hl, hc]

/-- **C48.**  For every sequence of texts and (nested) typeface elements, each of the four converters turns the paragraph
that consists of them into: for every element the delimiter of its tag, its content, the delimiter; nothing else is added or lost (except that
html2markdown drops texts that are a single space). -/
theorem C48_typefaces (cfg : Cfg) (ns : List HNode) (t : Str) (h : inlineTexts cfg.lang ns = some t) :
    emit cfg (.mk { kind := c!"document" } [.mk { kind := c!"p" } ns]) =
      .ok (if cfg.lang = .rest then rstrip (t) else strip t) := by
  obtain ⟨s1, h1, h2⟩ := inlineTexts_emit cfg ns t h [c!"p", c!"document"]
    (enter { kind := c!"p" } (enter { kind := c!"document" } {})) (.inl rfl)
  have hin : s1.core.innerList = [] := by rw [h2]; rfl
  have hsub : s1.core.subst = [] := by rw [h2]; rfl
  have hp : ∃ before after : Str, (∀ c ∈ before, isSpace c = true) ∧ (∀ c ∈ after, isSpace c = true) ∧
      (cfg.lang = .rest → before = []) ∧
      emitNodes cfg [c!"document"] [.mk { kind := c!"p" } ns] (enter { kind := c!"document" } {}) =
        .ok (before ++ t ++ after, enter { kind := c!"p" } s1) := by
    have hc : childrenM cfg [c!"document"] { kind := c!"p" } ns (enter { kind := c!"document" } {})
        = .ok (t, s1) := by
      rw [childrenM_run]; exact h1
    have hone : ∀ t s, emitNode cfg [c!"document"] (.mk { kind := c!"p" } ns) (enter { kind := c!"document" } {})
          = .ok (t, s) →
        emitNodes cfg [c!"document"] [.mk { kind := c!"p" } ns] (enter { kind := c!"document" } {})
          = .ok (t, s) := by
      intro t s ht
      rw [emitNodes_cons, emitNodes_nil, bind_run, ht]
      dsimp only
      rw [bind_run, pure_run]
      dsimp only
      rw [pure_run, List.append_nil]
    have hk := emitNode_known (cfg := cfg) (anc := [c!"document"]) (i := { kind := c!"p" }) (children := ns)
      (s := enter { kind := c!"document" } {}) (method_p _) (fun _ => .inl rfl)
    rw [runMeth, bind_run, hc] at hk
    dsimp only at hk
    cases hl : cfg.lang with
    | creole =>
      rw [hl] at hk
      dsimp only at hk
      rw [bind_run, get_run] at hk
      dsimp only at hk
      rw [if_pos (show s1.innerList = [] from hin)] at hk
      exact ⟨[], c!"\n\n", by simp, newlines_space, fun _ => rfl, hone _ _ hk⟩
    | textile =>
      rw [hl] at hk
      exact ⟨[], c!"\n\n", by simp, newlines_space, fun _ => rfl, hone _ _ hk⟩
    | markdown =>
      rw [hl] at hk
      exact ⟨c!"\n", c!"\n", newline_space, newline_space, fun h => (by cases h), hone _ _ hk⟩
    | rest =>
      rw [hl] at hk
      exact ⟨[], c!"\n\n", by simp, newlines_space, fun _ => rfl, hone _ _ hk⟩
  obtain ⟨before, after, hb, ha, hbr, hp⟩ := hp
  rw [emit_document hp (fun _ => hsub)]
  by_cases hl : cfg.lang = .rest
  · rw [if_pos hl, if_pos hl, hbr hl, List.nil_append]
    exact congrArg _ (dropEndWhile_append ha _)
  · rw [if_neg hl, if_neg hl, strip_pad hb ha]

/-- `<p>a <b>b<i>c</i></b></p>` -/
def inlSample : List Inl := [.text c!"a ", .el c!"b" [.text c!"b", .el c!"i" [.text c!"c"]]]

example : inlineTexts .creole (inlNodes inlSample) = some c!"a **b//c//**" ∧
    inlMarkup .textile inlSample = c!"a **b__c__**" ∧ inlMarkup .markdown inlSample = c!"a **b_c_**" ∧
    inlMarkup .rest inlSample = c!"a **b*c***" := by decide +kernel

end Verif.Props
