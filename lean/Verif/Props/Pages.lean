import Verif.Creole.PageTags
import Verif.Props.MacroCalls

/-!
# C75, C76: calls of macros on lines of their own, and documents with a table of contents
-/

namespace Verif.Props

open Verif Py Creole Spec Spec.Cr

/-! ## C75 -/

/-- **C75.** A text made of blocks and of calls `<<name args>>` on lines of their own, whatever characters end its lines:
each of these calls gives a paragraph with the text of the call, at its place among the blocks, and the macros
dictionary stays as it is. -/
theorem C75_calls_on_lines (o : Opts) (macros : Macros) (cx : Ctx) (markup : Str) (d : Page) (trail : List Str)
    (hd : pageOk cx o.blog d trail = true) (hcx : ReadWith o macros cx) (ht : hasToc d = false)
    (hl : textLines markup = pageLines d ++ trail) :
    creole2htmlM o macros markup = .ok (pageHtml cx o.blog [] d, macros) :=
  creole2html_page o macros markup d trail hd hcx ht hl []

/-- calls between blocks, with and without errors -/
example : let d : Page := [([], .call c!"nothing" []), ([], .block (.head 1 c!" " c!"h" [])), ([], .call c!"show" c!" key=\"v\" /"),
        ([[]], .block (.para [[.chr 'b', .mac c!"show" c!" key"]]))]
    pageOk exampleCtx true d [[]] = true ∧ hasToc d = false ∧ ReadWith {} exampleMacros exampleCtx ∧
      textLines c!"<<nothing>>\n= h\n<<show key=\"v\" />>\n\nb<<show key>>\n" = pageLines d ++ [[]] ∧
      pageHtml exampleCtx true [] d = c!"<p>[Error: Macro 'nothing' doesn't exist]\n</p>\n<h1>h</h1>\n<p><b>v</b></p>\n\n<p>b[Error: Wrong macro arguments: \"key\" for macro 'show' (maybe wrong macro tag syntax?)]\n</p>" := by
  refine ⟨by decide +kernel, by decide +kernel, exampleCtx_ok, by decide +kernel, by decide +kernel⟩

/-! ## C76 -/

theorem chunks_ok {cx : Ctx} {blog : Bool} : ∀ {d : Page} {b : Block}, tailOk cx blog b (likes d) = true →
    ∀ x ∈ d, ∃ start, x.2.like.ok cx blog start = true
  | [], _, _ => by simp
  | (gap, c) :: d, b, h => by
    obtain ⟨_, hok, h2⟩ := tailOk_cons h
    intro x hx
    rw [List.mem_cons] at hx
    rcases hx with rfl | hx
    · exact hok
    · exact chunks_ok h2 x hx

theorem headings_pos {cx : Ctx} {blog : Bool} {d : Page} (h : docOk cx blog (likes d) = true) : ∀ x ∈ headings d, 1 ≤ x.1 := by
  have hall : ∀ x ∈ d, ∃ start, x.2.like.ok cx blog start = true := by
    cases d with
    | nil => simp
    | cons x d =>
      obtain ⟨gap, c⟩ := x
      simp only [likes, List.map_cons, docOk, Bool.and_eq_true] at h
      intro x hx
      rw [List.mem_cons] at hx
      rcases hx with rfl | hx
      · exact ⟨_, h.1.2⟩
      · exact chunks_ok h.2 x hx
  intro x hx
  simp only [headings, List.mem_filterMap] at hx
  obtain ⟨⟨gap, c⟩, hm, hx⟩ := hx
  obtain ⟨start, hok⟩ := hall _ hm
  cases c with
  | call n a => simp at hx
  | block b =>
    cases b with
    | head n pad title tail =>
      simp only [Option.some.injEq] at hx
      subst hx
      simp only [Chunk.like, Block.ok, Bool.and_eq_true, decide_eq_true_eq] at hok
      exact hok.1.1.1.1.1.1.2
    | _ => simp at hx

theorem headings_append (a b : Page) : headings (a ++ b) = headings a ++ headings b := by simp [headings]

theorem inDepth_mem {k : Option Int} {hs : List (Nat × Str)} {x : Nat × Str} (h : x ∈ inDepth k hs) : x ∈ hs := by
  cases k with
  | none => exact h
  | some k => exact List.mem_filter.1 h |>.1

theorem tocHtml_ends {hs : List (Nat × Str)} {html : Str} (h : TocHtml hs html) :
    ∃ c d, html.head? = some c ∧ html.getLast? = some d ∧ isSpace c = false ∧ isSpace d = false := by
  obtain ⟨body, _, rfl⟩ := h
  exact ⟨'<', '>', rfl, by rw [List.getLast?_append]; rfl, by decide, by decide⟩

/-- what the conversion gives, before and after the table of contents is put in its place -/
theorem toc_parts {o : Opts} {macros : Macros} {cx : Ctx} {markup : Str} {d1 d2 : Page} {gap trail : List Str} {args : Str} {depth : Option Int}
    (hd : pageOk cx o.blog (d1 ++ (gap, .call c!"toc" args) :: d2) trail = true) (hcx : ReadToc o macros cx) (h1 : hasToc d1 = false)
    (hk : depthArg (lineCall c!"toc" args).args = some depth)
    (hl : textLines markup = pageLines (d1 ++ (gap, .call c!"toc" args) :: d2) ++ trail) :
    ∃ html pre post : Str, TocHtml (headings d1 ++ inDepth depth (headings d2)) html ∧
      (creole2htmlM o macros markup).map (·.1) = .ok (replaceFirst tocHere html (pre ++ tocHere ++ post)) ∧
      pageHtml cx o.blog tocHere (d1 ++ (gap, .call c!"toc" args) :: d2) = pre ++ tocHere ++ post ∧
      pageHtml cx o.blog html (d1 ++ (gap, .call c!"toc" args) :: d2) = pre ++ html ++ post ∧
      ((∀ c s, cx.mac c = some s → noDouble s = true) → noDouble pre = true) := by
  have ht : hasToc (d1 ++ (gap, .call c!"toc" args) :: d2) = true := by simp [hasToc, Chunk.isToc]
  obtain ⟨hok, _, _⟩ := pageOk_iff hd
  have hpos : ∀ x ∈ (tocPage {} (d1 ++ (gap, .call c!"toc" args) :: d2)).headlines, 1 ≤ x.1 := by
    intro x hx
    rw [tocPage_headings h1 hk, List.mem_append] at hx
    refine headings_pos hok x ?_
    rw [headings_append, headings_cons, List.mem_append]
    exact hx.imp id inDepth_mem
  obtain ⟨l, e1, e2, e3, e4⟩ := flatToNest_spec _ hpos
  have hhtml : TocHtml (headings d1 ++ inDepth depth (headings d2)) (nestHtml 0 (.list l)) := by
    rw [← tocPage_headings (gap := gap) h1 hk]
    exact nestHtml_toc e2 e3 e4
  obtain ⟨pre, post, hb, hn⟩ := body_split (cx := cx) o.blog (gap := gap) (a := args) (d2 := d2) h1
  obtain ⟨pre', post', hs, w, hw⟩ := strip_mid (pre := pre) (post := post)
  have hh : pageHtml cx o.blog tocHere (d1 ++ (gap, .call c!"toc" args) :: d2) = pre' ++ tocHere ++ post' := by
    unfold pageHtml
    rw [hb]
    exact hs tocHere ⟨'<', '>', rfl, rfl, by decide, by decide⟩
  refine ⟨nestHtml 0 (.list l), pre', post', hhtml, ?_, hh, ?_, ?_⟩
  · rw [creole2html_toc o macros markup _ trail hd hcx ht hl, hh]
    unfold Toc.emit
    rw [e1, ok_bind]
    have : hasSub c!"<p><<toc>></p>" (pre' ++ tocHere ++ post') = true := (hasSub_iff _).2 ⟨pre', post', rfl⟩
    simp only [if_pos this]
    rfl
  · unfold pageHtml
    rw [hb]
    exact hs _ (tocHtml_ends hhtml)
  · intro hm
    have := hn hm
    rw [hw] at this
    exact noDouble_suffix this

/-- **C76 (everywhere).** A document with a call for the table of contents, for every dict of macros without a macro `toc`:
the conversion succeeds; its result is the HTML of the document, with all headings as anchors, in which the first
placeholder paragraph is replaced by a table of contents.  The table mentions all the headings before the call, and of those
behind it the ones within the depth given by the call, in order, with their levels.  All further calls for the table of
contents give the text of the call. -/
theorem C76_toc_of_document (o : Opts) (macros : Macros) (cx : Ctx) (markup : Str) (d1 d2 : Page) (gap trail : List Str) (args : Str)
    (depth : Option Int) (hd : pageOk cx o.blog (d1 ++ (gap, .call c!"toc" args) :: d2) trail = true) (hcx : ReadToc o macros cx)
    (h1 : hasToc d1 = false) (hk : depthArg (lineCall c!"toc" args).args = some depth)
    (hl : textLines markup = pageLines (d1 ++ (gap, .call c!"toc" args) :: d2) ++ trail) :
    ∃ html out, TocHtml (headings d1 ++ inDepth depth (headings d2)) html ∧ (creole2htmlM o macros markup).map (·.1) = .ok out ∧
      FirstReplaced c!"<p><<toc>></p>" html (pageHtml cx o.blog c!"<p><<toc>></p>" (d1 ++ (gap, .call c!"toc" args) :: d2)) out := by
  obtain ⟨html, pre, post, h2, h3, h4, _, _⟩ := toc_parts hd hcx h1 hk hl
  refine ⟨html, _, h2, h3, ?_⟩
  have : hasSub c!"<p><<toc>></p>" (pre ++ tocHere ++ post) = true := (hasSub_iff _).2 ⟨pre, post, rfl⟩
  have := firstReplaced (new := html) (by simp) _ this
  rw [show c!"<p><<toc>></p>" = tocHere from rfl, h4]
  exact this

/-- **C76.** If no macro gives a text with two `<` next to each other or with a `<` at its end, then the table of contents stands
exactly in the place of the call. -/
theorem C76_toc_in_place (o : Opts) (macros : Macros) (cx : Ctx) (markup : Str) (d1 d2 : Page) (gap trail : List Str) (args : Str)
    (depth : Option Int) (hd : pageOk cx o.blog (d1 ++ (gap, .call c!"toc" args) :: d2) trail = true) (hcx : ReadToc o macros cx)
    (h1 : hasToc d1 = false) (hk : depthArg (lineCall c!"toc" args).args = some depth)
    (hl : textLines markup = pageLines (d1 ++ (gap, .call c!"toc" args) :: d2) ++ trail)
    (hm : ∀ c s, cx.mac c = some s → noDouble s = true) :
    ∃ html, TocHtml (headings d1 ++ inDepth depth (headings d2)) html ∧
      (creole2htmlM o macros markup).map (·.1) = .ok (pageHtml cx o.blog html (d1 ++ (gap, .call c!"toc" args) :: d2)) := by
  obtain ⟨html, pre, post, h2, h3, h4, h5, h6⟩ := toc_parts hd hcx h1 hk hl
  refine ⟨html, h2, ?_⟩
  rw [h3, h5, replace_here (h6 hm)]

theorem tocItems_entry {d : Nat} {hs : List (Nat × Str)} {s : Str} (h : TocItems d hs s) : ∀ x ∈ hs, tocEntry x.1 x.2 <:+: s := by
  induction h with
  | nil => simp
  | @entry d title hs s _ ih =>
    intro x hx
    rw [List.mem_cons] at hx
    rcases hx with rfl | hx
    · exact ⟨[], s, by simp⟩
    · exact (ih x hx).trans ⟨_, [], by rw [List.append_nil]⟩
  | @list d hs₁ hs₂ s₁ s₂ _ _ _ _ ih1 ih2 =>
    intro x hx
    rw [List.mem_append] at hx
    rcases hx with hx | hx
    · exact (ih1 x hx).trans ⟨indent d ++ c!"<ul>\n", indent d ++ c!"</ul>\n" ++ s₂, by simp⟩
    · exact (ih2 x hx).trans ⟨indent d ++ c!"<ul>\n" ++ s₁ ++ indent d ++ c!"</ul>\n", [], by simp⟩

theorem heading_cons {n : Nat} {title : Str} {gap : List Str} {c : Chunk} {d : Page} (cx : Ctx) (blog : Bool) (toc : Str)
    (h : (n, title) ∈ headings ((gap, c) :: d)) : headHtml cx.anchors n title = c.html cx blog toc ∨ (n, title) ∈ headings d := by
  simp only [headings, List.mem_filterMap, List.mem_cons] at h ⊢
  obtain ⟨x, rfl | hx, e⟩ := h
  · left
    cases c with
    | call => simp at e
    | block b =>
      cases b with
      | head =>
        simp only [Option.some.injEq, Prod.mk.injEq] at e
        rw [← e.1, ← e.2]; rfl
      | _ => simp at e
  · exact .inr ⟨x, hx, e⟩

theorem head_in_tail (cx : Ctx) (blog : Bool) {n : Nat} {title : Str} : ∀ (d : Page) (toc : Str) (b : Block), (n, title) ∈ headings d →
    headHtml cx.anchors n title <:+: pageTail cx blog toc b d
  | [], _, _, h => by simp [headings] at h
  | (gap, c) :: d, toc, b, h => by
    rw [pageTail]
    rcases heading_cons cx blog toc h with e | h
    · exact ⟨gapHtml b gap, _, by rw [e]⟩
    · exact (head_in_tail cx blog d _ _ h).trans ⟨_, [], by rw [List.append_nil]⟩

theorem head_in_body (cx : Ctx) (blog : Bool) (toc : Str) {n : Nat} {title : Str} {d : Page} (h : (n, title) ∈ headings d) :
    headHtml cx.anchors n title <:+: pageBody cx blog toc d := by
  cases d with
  | nil => simp [headings] at h
  | cons x d =>
    obtain ⟨gap, c⟩ := x
    rw [pageBody]
    rcases heading_cons cx blog toc h with e | h
    · exact ⟨[], _, by rw [e, List.nil_append]⟩
    · exact (head_in_tail cx blog d _ _ h).trans ⟨_, [], by rw [List.append_nil]⟩

theorem head_in_page (cx : Ctx) (blog : Bool) (toc : Str) {n : Nat} {title : Str} {d : Page} (h : (n, title) ∈ headings d) :
    headHtml cx.anchors n title <:+: pageHtml cx blog toc d := by
  obtain ⟨pre, post, e⟩ := head_in_body cx blog toc h
  obtain ⟨pre', post', hs, -⟩ := strip_mid (pre := pre) (post := post)
  refine ⟨pre', post', ?_⟩
  unfold pageHtml
  rw [← e, hs]
  cases cx.anchors with
  | true => exact ⟨'<', '>', rfl, by show List.getLast? (_ ++ c!"</a>") = _; rw [List.getLast?_append]; rfl, by decide, by decide⟩
  | false => exact ⟨'<', '>', rfl, by show List.getLast? (_ ++ c!">") = _; rw [List.getLast?_append]; rfl, by decide, by decide⟩

theorem textHtml_plain : ∀ {s : Str}, '&' ∉ s → '<' ∉ s → '>' ∉ s → textHtml s = s
  | [], _, _, _ => rfl
  | c :: s, h1, h2, h3 => by
    simp only [List.mem_cons, not_or] at h1 h2 h3
    have ih := textHtml_plain h1.2 h2.2 h3.2
    unfold textHtml at ih ⊢
    rw [List.flatMap_cons, ih, textChar, if_neg (Ne.symm h1.1), if_neg (Ne.symm h2.1), if_neg (Ne.symm h3.1)]
    rfl

/-- **C76 (links).** Each heading that the table mentions has a link in the table, and the link leads to an anchor around
this heading if the title contains none of the characters `&`, `<` and `>`. -/
theorem C76_links (o : Opts) (macros : Macros) (cx : Ctx) (markup : Str) (d1 d2 : Page) (gap trail : List Str) (args : Str)
    (depth : Option Int) (hd : pageOk cx o.blog (d1 ++ (gap, .call c!"toc" args) :: d2) trail = true) (hcx : ReadToc o macros cx)
    (h1 : hasToc d1 = false) (hk : depthArg (lineCall c!"toc" args).args = some depth)
    (hl : textLines markup = pageLines (d1 ++ (gap, .call c!"toc" args) :: d2) ++ trail)
    (hm : ∀ c s, cx.mac c = some s → noDouble s = true)
    (n : Nat) (title : Str) (hx : (n, title) ∈ headings d1 ++ inDepth depth (headings d2))
    (ht : '&' ∉ title ∧ '<' ∉ title ∧ '>' ∉ title) :
    ∃ out, (creole2htmlM o macros markup).map (·.1) = .ok out ∧
      c!"<li><a href=\"#" ++ title ++ c!"\">" ++ title ++ c!"</a></li>" <:+: out ∧
      c!"<a name=\"" ++ title ++ c!"\"><h" ++ decimal n ++ c!">" ++ title ++ c!"</h" ++ decimal n ++ c!"></a>" <:+: out := by
  obtain ⟨html, pre, post, h2, h3, h4, h5, h6⟩ := toc_parts hd hcx h1 hk hl
  refine ⟨pageHtml cx o.blog html (d1 ++ (gap, .call c!"toc" args) :: d2), by rw [h3, h5, replace_here (h6 hm)], ?_, ?_⟩
  · rw [h5]
    obtain ⟨body, hb, rfl⟩ := h2
    have h7 := tocItems_entry hb _ hx
    refine List.IsInfix.trans ?_ (List.IsInfix.trans h7 ⟨pre ++ c!"<ul>\n", c!"</ul>" ++ post, by simp⟩)
    exact ⟨indent n, c!"\n", by simp [tocEntry]⟩
  · have h7 : (n, title) ∈ headings (d1 ++ (gap, .call c!"toc" args) :: d2) := by
      rw [headings_append, headings_cons, List.mem_append]
      exact (List.mem_append.1 hx).imp id inDepth_mem
    have h8 := head_in_page cx o.blog html h7
    have h9 : textHtml title = title := textHtml_plain ht.1 ht.2.1 ht.2.2
    rw [headHtml, hcx.anchors, h9] at h8
    simpa using h8

/-- a context without calls of macros other than `toc` -/
def tocCtx : Ctx := { anchors := true }

theorem tocCtx_ok : ReadToc {} exampleMacros tocCtx := ⟨rfl, rfl, fun _ _ h => by simp [tocCtx] at h, rfl⟩

/-- a document with headings before and behind the call, and with a depth, meets the hypotheses of the theorems above -/
example : let d1 : Page := [([], .block (.head 3 c!" " c!"zero" []))]
    let d2 : Page := [([], .block (.head 1 c!" " c!"one" c!" =")), ([], .block (.para [[.chr 'x']])), ([], .block (.head 3 [] c!"deep" [])),
      ([], .block (.head 2 [] c!"two" [])), ([], .call c!"toc" [])]
    let d := d1 ++ ([[]], .call c!"toc" c!" depth=2") :: d2
    pageOk tocCtx true d [[]] = true ∧ hasToc d1 = false ∧ depthArg (lineCall c!"toc" c!" depth=2").args = some (some 2) ∧
      textLines c!"=== zero\n\n<<toc depth=2>>\n= one =\nx\n===deep\n==two\n<<toc>>\n" = pageLines d ++ [[]] ∧
      (∀ c s, tocCtx.mac c = some s → noDouble s = true) ∧
      headings d1 ++ inDepth (some 2) (headings d2) = [(3, c!"zero"), (1, c!"one"), (2, c!"two")] ∧
      pageHtml tocCtx true c!"<ul>…</ul>" d = c!"<a name=\"zero\"><h3>zero</h3></a>\n\n<ul>…</ul>\n<a name=\"one\"><h1>one</h1></a>\n<p>x</p>\n<a name=\"deep\"><h3>deep</h3></a>\n<a name=\"two\"><h2>two</h2></a>\n<p>&lt;&lt;toc&gt;&gt;</p>" := by
  refine ⟨by decide +kernel, by decide +kernel, by decide +kernel, by decide +kernel, fun _ _ h => by simp [tocCtx] at h, by decide +kernel,
    by decide +kernel⟩

/-- **C76 (limits).** The titles are put into the table as they are: markup in a title becomes markup of the page, although
it is escaped in the heading itself, and the link does not lead to the anchor. -/
theorem C76_limits : (creole2htmlM {} [] c!"<<toc>>\n= <b>\n").map (·.1) =
    .ok c!"<ul>\n\t<li><a href=\"#<b>\"><b></a></li>\n</ul>\n<a name=\"&lt;b&gt;\"><h1>&lt;b&gt;</h1></a>" := by
  decide +kernel

end Verif.Props
