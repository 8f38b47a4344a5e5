import Verif.Emit.ArticleRestBlocks
import Verif.Props.Article

/-!
# C69: html2rest on articles
-/

namespace Verif.Props

open Verif Py Html Emit Spec Spec.Hd Spec.Ar

/-! ## Articles are well-formed -/

mutual
theorem wf_rest_sp : ∀ (x : Sp), x.RestOk → ∀ {b : Bool} {l : List El}, wfL b l = true → wfL b (x.els l) = true
  | .text s, _, b, l, hl => by rw [Sp.els]; exact wf_text s hl
  | .face tag inner, h, b, l, hl => by
    rw [Sp.RestOk] at h
    obtain ⟨_, _, _, h1, h2, h3, h4⟩ := rest_face_tag h.1
    have hi := wf_rest_sps inner h.2 (b := stops (kindOf tag)) (l := []) rfl
    rw [Sp.els, wfL, El.wf, hl, hi]
    simp [h1, h2, h3, h4]
  | .link url title inner, h, b, l, hl => by
    rw [Sp.RestOk] at h
    have hi := wf_rest_sps inner h.2 (b := stops (kindOf c!"a")) (l := []) rfl
    rw [Sp.els, wfL, El.wf, hl, hi]
    cases b <;> decide
  | .image src alt title, _, b, l, hl => by
    rw [Sp.els, wfL, El.wf, hl]; decide
  | .code s, _, b, l, hl => by
    have hi := wf_text (b := stops (kindOf c!"code")) s (l := []) rfl
    rw [Sp.els, wfL, El.wf, hl, hi]
    cases b <;> decide
  | .br, _, b, l, hl => by
    rw [Sp.els, wfL, El.wf, hl]; decide
theorem wf_rest_sps : ∀ (xs : List Sp), SpsRestOk xs → ∀ {b : Bool} {l : List El}, wfL b l = true → wfL b (spsEls xs l) = true
  | [], _, b, l, hl => by rw [spsEls]; exact hl
  | x :: xs, h, b, l, hl => by
    rw [SpsRestOk] at h
    rw [spsEls]
    exact wf_rest_sp x h.1 (wf_rest_sps xs h.2.1 hl)
end

mutual
theorem wf_rest_item : ∀ (i : Ar.Item), i.RestOk → i.el.wf true = true
  | .mk text o sub, h => by
    rw [Ar.Item.RestOk] at h
    have hs := wf_rest_items sub h.2.2.2
    have hl : wfL true (if sub.isEmpty = true then [] else [El.elem (listTag o) [] (itemEls sub)]) = true := by
      split
      · rfl
      · rw [wfL, El.wf, wfL]
        cases o
        · rw [show stops (kindOf (listTag false)) = true by decide +kernel, hs]; decide +kernel
        · rw [show stops (kindOf (listTag true)) = true by decide +kernel, hs]; decide +kernel
    have := wf_rest_sps text h.1 hl
    rw [Ar.Item.el, El.wf, show stops (kindOf c!"li") = true by decide +kernel, this]
    decide +kernel
theorem wf_rest_items : ∀ (l : List Ar.Item), ItemsRestOk l → wfL true (itemEls l) = true
  | [], _ => rfl
  | i :: l, h => by
    rw [ItemsRestOk] at h
    rw [itemEls, wfL, wf_rest_item i h.1, wf_rest_items l h.2]
    rfl
end

theorem wf_rest_bl {b : Bl} (h : b.RestOk) : b.el.wf true = true := by
  cases b with
  | para text =>
    rw [Bl.RestOk] at h
    rw [Bl.el, El.wf, wf_rest_sps text h rfl]
    decide +kernel
  | head n text =>
    rw [Bl.RestOk] at h
    rw [Bl.el, El.wf, wf_rest_sps text h.2.2 rfl]
    rcases level_cases h.1 h.2.1 with rfl | rfl | rfl | rfl | rfl | rfl <;> decide +kernel
  | hr => decide +kernel
  | list o items =>
    rw [Bl.RestOk] at h
    rw [Bl.el, El.wf]
    cases o
    · rw [show stops (kindOf (listTag false)) = true by decide +kernel, wf_rest_items items h.1]; decide +kernel
    · rw [show stops (kindOf (listTag true)) = true by decide +kernel, wf_rest_items items h.1]; decide +kernel
  | table rows =>
    rw [Bl.RestOk] at h
    have hrows : wfL true (rows.map Ar.rowEl) = true := by
      refine wfL_map fun r hr => ?_
      rw [Ar.rowEl, El.wf, show stops (kindOf c!"tr") = true by decide +kernel, wfL_map (f := Ar.Cell.el) (b := true)]
      · decide +kernel
      · intro c hc
        rw [Ar.Cell.el, El.wf]
        rw [wf_rest_sps c.text ((h.2.1 r hr).2 c hc) rfl]
        cases c.head <;> decide +kernel
    rw [Bl.el, El.wf, show stops (kindOf c!"table") = true by decide +kernel, hrows]
    decide +kernel

/-! ## The converter -/

theorem rstrip_newlines (s : Str) : rstrip (s ++ c!"\n\n") = rstrip s :=
  dropEndWhile_append (by decide) s

/-- the end of a document -/
theorem document_rest {cfg : Cfg} (hl : cfg.lang = .rest) {children : List HNode} {t : Str} {s : ESt}
    (h : emitNodes cfg [c!"document"] children (enter { kind := c!"document" } {}) = .ok (t, s)) (ht : c!"\n\n" <:+ t) :
    emit cfg (.mk { kind := c!"document" } children) = .ok (rstrip (t ++ pending s.subst)) := by
  have hc : childrenM cfg [] { kind := c!"document" } children {} = .ok (t, s) := by
    rw [childrenM_run]; exact h
  rw [emit_eq, emitNode_known (i := { kind := c!"document" }) (method_document _) (fun _ => .inl rfl)]
  simp only [runMeth]
  rw [if_pos hl, restDocument, bind_run, hc]
  dsimp only
  rw [bind_run, get_run]
  dsimp only
  cases hz : s.subst with
  | nil =>
    rw [if_neg (by simp)]
    simp only [pure_run, if_pos hl, pending, List.append_nil]
  | cons w ws =>
    rw [if_pos (by simp), if_pos (by simpa using ht), bind_run, getBlockData, bind_run, get_run]
    dsimp only
    rw [bind_run, modify_run]
    simp only [pure_run, if_pos hl, hz, pending, List.append_assoc]

/-- the end of a document that cannot be converted -/
theorem document_error {cfg : Cfg} (hl : cfg.lang = .rest) {children : List HNode} {e : PyErr}
    (h : emitNodes cfg [c!"document"] children (enter { kind := c!"document" } {}) = .error e) :
    emit cfg (.mk { kind := c!"document" } children) = .error e := by
  have hc : childrenM cfg [] { kind := c!"document" } children {} = .error e := by
    rw [childrenM_run]; exact h
  rw [emit_eq, emitNode_known (i := { kind := c!"document" }) (method_document _) (fun _ => .inl rfl)]
  simp only [runMeth]
  rw [if_pos hl, restDocument, bind_run, hc]

/-- **C69**: html2rest on an article, however its HTML is written: the text is the one of the specification; the exception
`Html2restException` is raised if the specification has no text (one text is used for two addresses). -/
theorem C69_html2rest (b : Bl) (d : List Bl) (hb : b.RestOk) (hd : ∀ x ∈ d, x.RestOk)
    (l : List Ht) (hn : neat l = true) (hl : elsL l = (b :: d).map Bl.el) (w w' : Str) (policy : Policy)
    (hw : ∀ c ∈ w, isSpace c = true) (hw' : ∀ c ∈ w', isSpace c = true) :
    html2rest (w ++ written l ++ w') policy = match restText b d with
      | some text => .ok text
      | none => .error .html2rest := by
  have hwf : wfL true (elsL l) = true := by
    rw [hl]
    refine wfL_map fun x hx => ?_
    rcases List.mem_cons.mp hx with rfl | hx
    · exact wf_rest_bl hb
    · exact wf_rest_bl (hd x hx)
  have hdoc := article_rest (cfg := { lang := .rest, policy }) rfl (root := c!"document") ⟨by decide, by decide⟩ d b hb hd
    (s := enter { kind := c!"document" } {}) (r := {}) ⟨rfl, rfl, rfl, rfl, rfl, (by intro p hp; cases hp), (by intro p hp; cases hp), (by simp)⟩
  rw [html2rest, convert, C60_parse_written _ hn hwf hw hw', hl]
  show emit _ _ = _
  rw [restText]
  cases hx : articleRest b d {} with
  | none =>
    rw [hx] at hdoc
    exact document_error rfl hdoc
  | some lines =>
    rw [hx] at hdoc
    obtain ⟨t, s', h1, h2, h3, _⟩ := hdoc
    have := document_rest rfl h1 h2
    rw [this]
    show Except.ok (rstrip (t ++ pending s'.subst)) = _
    rw [h3, rstrip_newlines]
    rfl

/-! ## Examples -/

theorem exArticle_restOk : ∀ b ∈ exArticle, b.RestOk := by
  have h1 : (delimiters .rest c!"strong").isSome = true ∧ (delimiters .rest c!"em").isSome = true := by decide +kernel
  have h2 : exAddress.text ≠ [] := by decide
  intro b hb
  simp only [exArticle, List.mem_cons, List.not_mem_nil, or_false] at hb
  rcases hb with rfl | rfl | rfl | rfl | rfl
  · simp [Bl.RestOk, SpsRestOk, Sp.RestOk]
  · simp [Bl.RestOk, SpsRestOk, Sp.RestOk, isText, h1, h2]
  · simp [Bl.RestOk, ItemsRestOk, Ar.Item.RestOk, SpsRestOk, Sp.RestOk, h1, spsFlat, Sp.flat, spsVisible, Sp.visible]
  · simp [Bl.RestOk, SpsRestOk, Sp.RestOk]
  · trivial

/-- the text of the example; the marks of the outer list are those of the inner one -/
example : restText (exArticle.headD .hr) exArticle.tail = some
    c!"-----\nA & B\n-----\n\nsee `**this** <http://x.org/a b>`_, ``x``\n|alt|\n\n.. |alt| image:: http://x.org/a b\n\n#. one\n\n    #. two\n\n#. *three*\n\n+------+------+\n| h    | head |\n+======+======+\n| cell | c    |\n+------+------+\n\n----" := by
  decide +kernel

example : html2rest (written exHtml) = .ok
    c!"-----\nA & B\n-----\n\nsee `**this** <http://x.org/a b>`_, ``x``\n|alt|\n\n.. |alt| image:: http://x.org/a b\n\n#. one\n\n    #. two\n\n#. *three*\n\n+------+------+\n| h    | head |\n+======+======+\n| cell | c    |\n+------+------+\n\n----" := by
  have h := C69_html2rest (exArticle.headD .hr) exArticle.tail (exArticle_restOk _ (by simp [exArticle]))
    (fun x hx => exArticle_restOk x (List.mem_of_mem_tail hx)) exHtml (by decide +kernel) rfl [] [] .transparent (by simp) (by simp)
  rw [List.nil_append, List.append_nil] at h
  rw [h]
  decide +kernel

/-- a link in a cell is defined below the table, and only once -/
example : restText (.table [[⟨false, [.link exAddress [] [.text c!"a"]]⟩, ⟨false, [.text c!"b"]⟩]])
    [.para [.link exAddress [] [.text c!"a"]]] = some
    c!"+------+---+\n| `a`_ | b |\n+------+---+\n\n.. _a: http://x.org/a b\n\n`a`_" := by
  decide +kernel

/-- one text for two addresses -/
example : restText (.para [.link exAddress [] [.text c!"a"]]) [.para [.link { exAddress with query := c!"q" } [] [.text c!"a"]]] = none := by
  decide +kernel

/-- **C69** (witness): the items of a list get the marks of a list inside of them: a bullet list with a numbered list in its
first item becomes a numbered list. -/
theorem C69_marks_of_the_inner_list :
    html2rest c!"<ul><li>one<ol><li>two</li></ol></li><li>three</li></ul>" = .ok c!"#. one\n\n    #. two\n\n#. three" := by
  decide +kernel

/-- **C69** (witness): one text for two addresses. -/
theorem C69_one_text_two_addresses :
    html2rest c!"<p><a href=\"http://x.org/1\">here</a></p><p><a href=\"http://x.org/2\">here</a></p>" = .error .html2rest := by
  decide +kernel

end Verif.Props
