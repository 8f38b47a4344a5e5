import Verif.Emit.ArticleBlocks
import Verif.Props.ReadHtml

/-!
# C68: html2creole, html2textile and html2markdown on articles
-/

namespace Verif.Props

open Verif Py Html Emit Spec Spec.Hd Spec.Ar

/-! ## Articles are well-formed -/

theorem face_plain {to : To} {tag : Str} (h : (delimiters to.lang tag).isSome = true) :
    tag ≠ c!"img" ∧ tag ≠ c!"br" ∧ tag ≠ c!"tbody" := by
  have aux : ∀ {α : Type} (L : List (Str × α)), (∀ p ∈ L.map Prod.fst, p ≠ c!"img" ∧ p ≠ c!"br" ∧ p ≠ c!"tbody") → ∀ d, L.lookup tag = some d →
      tag ≠ c!"img" ∧ tag ≠ c!"br" ∧ tag ≠ c!"tbody" :=
    fun L hL d hd => hL _ (List.mem_map.mpr ⟨_, lookup_mem hd, rfl⟩)
  cases to with
  | creole =>
    simp only [To.lang, delimiters, Option.isSome_map] at h
    obtain ⟨d, hd⟩ := Option.isSome_iff_exists.mp h
    exact aux _ (by decide +kernel) d hd
  | textile =>
    simp only [To.lang, delimiters, Option.isSome_map] at h
    obtain ⟨d, hd⟩ := Option.isSome_iff_exists.mp h
    exact aux _ (by decide +kernel) d hd
  | markdown =>
    simp only [To.lang, delimiters] at h
    obtain ⟨d, hd⟩ := Option.isSome_iff_exists.mp h
    exact aux _ (by decide +kernel) d hd

theorem wf_text {b : Bool} (s : Str) {l : List El} (h : wfL b l = true) : wfL b (s.foldr addChar l) = true := by
  induction s with
  | nil => exact h
  | cons c s ih => exact wfL_addChar c ih

mutual
theorem wf_sp {to : To} {hostOk : Str → Bool} : ∀ (x : Sp), x.Ok to hostOk → ∀ {b : Bool} {l : List El}, wfL b l = true →
    wfL b (x.els l) = true
  | .text s, _, b, l, hl => by rw [Sp.els]; exact wf_text s hl
  | .face tag inner, h, b, l, hl => by
    rw [Sp.Ok] at h
    obtain ⟨h1, h2, h3⟩ := face_plain h.1
    have hi := wf_sps inner h.2.2 (b := stops (kindOf tag)) (l := []) rfl
    rw [Sp.els, wfL, El.wf, hl, hi]
    simp [h1, h2, h3, h.2.1]
  | .link url title inner, h, b, l, hl => by
    rw [Sp.Ok] at h
    have hi := wf_sps inner h.2 (b := stops (kindOf c!"a")) (l := []) rfl
    rw [Sp.els, wfL, El.wf, hl, hi]
    cases b <;> decide
  | .image src alt title, _, b, l, hl => by
    rw [Sp.els, wfL, El.wf, hl]; decide
  | .code s, _, b, l, hl => by
    have hi := wf_text (b := stops (kindOf c!"code")) s (l := []) rfl
    rw [Sp.els, wfL, El.wf, hl, hi]
    cases b <;> decide
  | .br, _, b, l, hl => by
    rw [Sp.els, wfL, El.wf, hl]; decide
theorem wf_sps {to : To} {hostOk : Str → Bool} : ∀ (xs : List Sp), SpsOk to hostOk xs → ∀ {b : Bool} {l : List El}, wfL b l = true →
    wfL b (spsEls xs l) = true
  | [], _, b, l, hl => by rw [spsEls]; exact hl
  | x :: xs, h, b, l, hl => by
    rw [SpsOk] at h
    rw [spsEls]
    exact wf_sp x h.1 (wf_sps xs h.2.1 hl)
end

mutual
theorem wf_item {to : To} {hostOk : Str → Bool} : ∀ (i : Ar.Item), i.Ok to hostOk → i.el.wf true = true
  | .mk text o sub, h => by
    rw [Ar.Item.Ok] at h
    have hs := wf_items sub h.2
    have hl : wfL true (if sub.isEmpty = true then [] else [El.elem (listTag o) [] (itemEls sub)]) = true := by
      split
      · rfl
      · rw [wfL, El.wf, wfL]
        cases o
        · rw [show stops (kindOf (listTag false)) = true by decide +kernel, hs]; decide +kernel
        · rw [show stops (kindOf (listTag true)) = true by decide +kernel, hs]; decide +kernel
    have := wf_sps text h.1 hl
    rw [Ar.Item.el, El.wf, show stops (kindOf c!"li") = true by decide +kernel, this]
    decide +kernel
theorem wf_items {to : To} {hostOk : Str → Bool} : ∀ (l : List Ar.Item), ItemsOk to hostOk l → wfL true (itemEls l) = true
  | [], _ => rfl
  | i :: l, h => by
    rw [ItemsOk] at h
    rw [itemEls, wfL, wf_item i h.1, wf_items l h.2]
    rfl
end

theorem wfL_map {α : Type} {f : α → El} {b : Bool} : ∀ {l : List α}, (∀ x ∈ l, (f x).wf b = true) → wfL b (l.map f) = true
  | [], _ => rfl
  | x :: l, h => by
    rw [List.map_cons, wfL, h x List.mem_cons_self, wfL_map fun y hy => h y (List.mem_cons_of_mem _ hy)]
    rfl

theorem wf_bl {to : To} {hostOk : Str → Bool} {b : Bl} (h : b.Ok to hostOk) : b.el.wf true = true := by
  cases b with
  | para text =>
    rw [Bl.Ok] at h
    rw [Bl.el, El.wf, wf_sps text h rfl]
    decide +kernel
  | head n text =>
    rw [Bl.Ok] at h
    rw [Bl.el, El.wf, wf_sps text h.2.2 rfl]
    rcases level_cases h.1 h.2.1 with rfl | rfl | rfl | rfl | rfl | rfl <;> decide +kernel
  | hr => decide +kernel
  | list o items =>
    rw [Bl.Ok] at h
    rw [Bl.el, El.wf]
    cases o
    · rw [show stops (kindOf (listTag false)) = true by decide +kernel, wf_items items h.1]; decide +kernel
    · rw [show stops (kindOf (listTag true)) = true by decide +kernel, wf_items items h.1]; decide +kernel
  | table rows =>
    rw [Bl.Ok] at h
    have hrows : wfL true (rows.map Ar.rowEl) = true := by
      refine wfL_map fun r hr => ?_
      rw [Ar.rowEl, El.wf, show stops (kindOf c!"tr") = true by decide +kernel, wfL_map (f := Ar.Cell.el) (b := true)]
      · decide +kernel
      · intro c hc
        rw [Ar.Cell.el, El.wf]
        rw [wf_sps c.text ((h.2.1 r hr).2 c hc).1 rfl]
        cases c.head <;> decide +kernel
    rw [Bl.el, El.wf, show stops (kindOf c!"table") = true by decide +kernel, hrows]
    decide +kernel

/-! ## The converters -/

/-- the text that a converter makes of an article, however its HTML is written -/
theorem convert_article {to : To} {cfg : Cfg} (hc : Conf to cfg) {b : Bl} {d : List Bl} (hb : b.Ok to cfg.netlocOk)
    (hd : ∀ x ∈ d, x.Ok to cfg.netlocOk) {l : List Ht} (hn : neat l = true) (hl : elsL l = (b :: d).map Bl.el) {w w' : Str}
    (hw : ∀ c ∈ w, isSpace c = true) (hw' : ∀ c ∈ w', isSpace c = true) :
    convert cfg (w ++ written l ++ w') = .ok (articleText to b d) := by
  obtain ⟨s, hs⟩ := ar_doc hc [c!"document"] d b hb hd (s := enter { kind := c!"document" } {}) rfl
  have hwf : wfL true (elsL l) = true := by
    rw [hl]
    refine wfL_map fun x hx => ?_
    rcases List.mem_cons.mp hx with rfl | hx
    · exact wf_bl hb
    · exact wf_bl (hd x hx)
  rw [convert, C60_parse_written _ hn hwf hw hw', hl]
  show emit _ _ = _
  rw [emit_document hs (fun h => absurd h hc.notRest), if_neg hc.notRest]
  obtain ⟨u, h1, h2⟩ := arText_lines d b (startNewline (enter { kind := c!"document" } {}).last) hb hd
  rw [h1, articleText]
  congr 1
  refine strip_pad ?_ (fun c hc => by rw [h2 c hc]; rfl) _
  have : ∀ c ∈ arBefore to (startNewline (enter { kind := c!"document" } {}).last) b, c = '\n' := by
    cases b <;> cases to <;> simp [arBefore]
  intro c hc
  rw [this c hc]; rfl

/-- which hosts are valid does not matter in creole and textile -/
def anyHost : Str → Bool := fun _ => true

/-- **C68**: html2creole on an article, however its HTML is written: the text is the one of the specification. -/
theorem C68_html2creole (b : Bl) (d : List Bl) (hb : b.Ok .creole anyHost) (hd : ∀ x ∈ d, x.Ok .creole anyHost)
    (l : List Ht) (hn : neat l = true) (hl : elsL l = (b :: d).map Bl.el) (w w' : Str)
    (hw : ∀ c ∈ w, isSpace c = true) (hw' : ∀ c ∈ w', isSpace c = true) :
    Emit.html2creole (w ++ written l ++ w') = .ok (articleText .creole b d) :=
  convert_article (to := .creole) (cfg := { lang := .creole }) ⟨rfl, rfl, rfl⟩ hb hd hn hl hw hw'

/-- **C68**: html2textile on an article. -/
theorem C68_html2textile (b : Bl) (d : List Bl) (hb : b.Ok .textile anyHost) (hd : ∀ x ∈ d, x.Ok .textile anyHost)
    (l : List Ht) (hn : neat l = true) (hl : elsL l = (b :: d).map Bl.el) (w w' : Str)
    (hw : ∀ c ∈ w, isSpace c = true) (hw' : ∀ c ∈ w', isSpace c = true) :
    html2textile (w ++ written l ++ w') = .ok (articleText .textile b d) :=
  convert_article (to := .textile) (cfg := { lang := .textile }) ⟨rfl, rfl, rfl⟩ hb hd hn hl hw hw'

/-- **C68**: html2markdown on an article; `hostOk` tells which hosts Python accepts in addresses. -/
theorem C68_html2markdown (hostOk : Str → Bool) (b : Bl) (d : List Bl) (hb : b.Ok .markdown hostOk) (hd : ∀ x ∈ d, x.Ok .markdown hostOk)
    (l : List Ht) (hn : neat l = true) (hl : elsL l = (b :: d).map Bl.el) (w w' : Str)
    (hw : ∀ c ∈ w, isSpace c = true) (hw' : ∀ c ∈ w', isSpace c = true) :
    html2markdown hostOk (w ++ written l ++ w') = .ok (articleText .markdown b d) :=
  convert_article (to := .markdown) (cfg := { lang := .markdown, netlocOk := hostOk }) ⟨rfl, rfl, rfl⟩ hb hd hn hl hw hw'

/-- **C68**: in markdown a blank between two elements is lost (the specification says so in `keepRun`). -/
theorem C68_markdown_blank : html2markdown anyHost c!"<p><b>a</b> <i>b</i></p>" = .ok c!"**a**_b_" ∧
    Emit.html2creole c!"<p><b>a</b> <i>b</i></p>" = .ok c!"**a** //b//" := by decide +kernel

/-- **C68**: a `<hr>` that is not written as `<hr />` swallows the rest of the document. -/
theorem C68_open_rule : Emit.html2creole c!"<p>a</p><hr /><p>b</p>" = .ok c!"a\n\n----\n\nb" ∧
    Emit.html2creole c!"<p>a</p><hr><p>b</p>" = .ok c!"a\n\n----" := by decide +kernel

/-! ## A case that meets the conditions -/

/-- an address -/
def exAddress : Address := { scheme := c!"http", host := c!"x.org", path := c!"/a b" }

/-- a heading, a paragraph, a nested list and a table -/
def exArticle : List Bl :=
  [.head 2 [.text c!"A & B"],
   .para [.text c!"see ", .link exAddress c!"T" [.face c!"strong" [.text c!"this"]], .text c!", ", .code c!"x", .br,
     .image exAddress c!"alt" []],
   .list false [.mk [.text c!"one"] true [.mk [.text c!"two"] false []], .mk [.face c!"em" [.text c!"three"]] false []],
   .table [[⟨true, [.text c!"h"]⟩, ⟨true, [.text c!"head"]⟩], [⟨false, [.text c!"cell"]⟩, ⟨false, [.text c!"c"]⟩]],
   .hr]

/-- one way to write it -/
def exHtml : List Ht :=
  [.el c!"h2" [] [.text c!"A & B"], .white c!"\n",
   .el c!"p" [] [.text c!"see ", .el c!"a" [(c!"href", c!"http://x.org/a b"), (c!"title", c!"T")] [.el c!"strong" [] [.text c!"this"]],
     .text c!", ", .el c!"code" [] [.text c!"x"], .void c!"br" [], .white c!"\n",
     .void c!"img" [(c!"src", c!"http://x.org/a b"), (c!"alt", c!"alt")]], .white c!"\n",
   .el c!"ul" [] [.white c!"\n  ", .el c!"li" [] [.text c!"one", .el c!"ol" [] [.el c!"li" [] [.text c!"two"]]],
     .el c!"li" [] [.el c!"em" [] [.text c!"three"]]],
   .el c!"table" [] [.el c!"tr" [] [.el c!"th" [] [.text c!"h"], .el c!"th" [] [.text c!"head"]], .white c!"\n",
     .el c!"tr" [] [.el c!"td" [] [.text c!"cell"], .el c!"td" [] [.text c!"c"]]],
   .void c!"hr" []]

example : neat exHtml = true := by decide +kernel

example : elsL exHtml = exArticle.map Bl.el := by rfl

theorem exAddress_ok : exAddress.Ok where
  scheme := by decide
  noScheme := by decide
  host := by decide
  path := by decide
  slash := by decide
  noHost := by decide
  query := by decide
  oneLine := by decide
  start := by decide

theorem exArticle_ok (to : To) : ∀ b ∈ exArticle, b.Ok to anyHost := by
  have ha : AddressOk to anyHost exAddress := fun _ => ⟨exAddress_ok, rfl⟩
  have h1 : (delimiters to.lang c!"strong").isSome = true ∧ (delimiters to.lang c!"em").isSome = true := by cases to <;> decide +kernel
  have h2 : c!"strong" ∉ blockNames ∧ c!"em" ∉ blockNames := by decide +kernel
  have hl : to ≠ .markdown → Rt.bareEnd (joinLines c!"\n" (Ar.itemsLines to [false]
      [.mk [.text c!"one"] true [.mk [.text c!"two"] false []], .mk [.face c!"em" [.text c!"three"]] false []])) = true := by
    cases to <;> decide +kernel
  have hcell : ∀ (h : Bool) (s : Str), s ∈ [c!"h", c!"head", c!"cell", c!"c"] → CellOk to anyHost ⟨h, [.text s]⟩ := by
    intro h s hs
    refine ⟨by simp [SpsOk, Sp.Ok], fun _ => ?_⟩
    show Cr.trimmed (oneLine (spsText .creole false [.text s])) = true ∧ (oneLine (spsText .creole false [.text s])).head? ≠ some '='
    revert s
    decide +kernel
  intro b hb
  simp only [exArticle, List.mem_cons, List.not_mem_nil, or_false] at hb
  rcases hb with rfl | rfl | rfl | rfl | rfl
  · simp [Bl.Ok, SpsOk, Sp.Ok]
  · simp [Bl.Ok, SpsOk, Sp.Ok, isText, ha, h1, h2]
  · refine ⟨?_, by simp, hl⟩
    simp [ItemsOk, Ar.Item.Ok, SpsOk, Sp.Ok, h1, h2]
  · refine ⟨by simp, ?_, by simp⟩
    intro r hr
    simp only [List.mem_cons, List.not_mem_nil, or_false] at hr
    rcases hr with rfl | rfl
    · refine ⟨by simp, ?_⟩
      intro c hc
      simp only [List.mem_cons, List.not_mem_nil, or_false] at hc
      rcases hc with rfl | rfl <;> exact hcell _ _ (by simp)
    · refine ⟨by simp, ?_⟩
      intro c hc
      simp only [List.mem_cons, List.not_mem_nil, or_false] at hc
      rcases hc with rfl | rfl <;> exact hcell _ _ (by simp)
  · trivial

example : articleText .creole (exArticle.headD .hr) exArticle.tail =
    c!"== A & B\n\nsee [[http://x.org/a b|**this**]], x\n{{http://x.org/a b|alt}}\n\n* one\n*# two\n* //three//\n\n|= h   |= head |\n| cell | c     |\n----" := by
  decide +kernel

example : articleText .textile (exArticle.headD .hr) exArticle.tail =
    c!"h2. A & B\n\nsee \"*this*\":http://x.org/a b, @x@\n!http://x.org/a b(alt)!\n\n* one\n*# two\n* _three_\n\n|_. h|_. head|\n|cell|c|\n----" := by
  decide +kernel

example : articleText .markdown (exArticle.headD .hr) exArticle.tail =
    c!"## A & B\n\nsee [**this**](http://x.org/a%20b \"T\"), `x`\n![alt](http://x.org/a%20b)\n\n\n* one\n  1. two\n* _three_\n\n| h    | head |\n| ---- | ---- |\n| cell | c    |\n\n----" := by
  decide +kernel

end Verif.Props
