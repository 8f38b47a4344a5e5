import Verif.Emit.ArticlePre
import Verif.Props.Article
import Verif.Props.ArticleRest
import Verif.Props.ReadPre
import Verif.Creole.MacroScan

/-!
# C87: the converters from HTML on articles with preformatted text
-/

namespace Verif.Props

open Verif Py Html Emit Spec Spec.Hd Spec.Ar

/-! ## The areas -/

theorem areas_linesOk : ∀ {l : List Area}, areasOk l = true → ∀ a ∈ l, a.linesOk = true
  | [], _, a, ha => by cases ha
  | [b], h, a, ha => by
    simp only [areasOk, Bool.and_eq_true] at h
    rw [List.mem_singleton.mp ha]; exact h.1
  | b :: b' :: l, h, a, ha => by
    simp only [areasOk, Bool.and_eq_true] at h
    rcases List.mem_cons.mp ha with rfl | ha
    · exact h.1.1.1.1
    · exact areas_linesOk h.2 a ha

theorem preNeat_linesOk {first : List Ht} {l : List Area} (h : preNeat first l = true) : ∀ a ∈ l, a.linesOk = true := by
  simp only [preNeat, Bool.and_eq_true] at h
  exact areas_linesOk h.1.1.1.2

/-- the areas of written HTML are those of the article it stands for -/
theorem standsFor_area {first : List Ht} {l : List Area} {head : List Bl} {areas : List (List Str × List Bl)}
    (h : StandsForSecs first l head areas) {x : List Str × List Bl} (hx : x ∈ areas) : ∃ a ∈ l, a.lines = x.1 := by
  have : (x.1, x.2.map Bl.el) ∈ l.map (fun a => (a.lines, elsL a.after)) := by
    rw [h.areas]; exact List.mem_map.mpr ⟨x, hx, rfl⟩
  obtain ⟨a, ha, he⟩ := List.mem_map.mp this
  exact ⟨a, ha, congrArg Prod.fst he⟩

/-- what stands behind an area of written HTML -/
theorem standsFor_after {first : List Ht} {l : List Area} {head : List Bl} {areas : List (List Str × List Bl)}
    (h : StandsForSecs first l head areas) {a : Area} (ha : a ∈ l) : ∃ x ∈ areas, elsL a.after = x.2.map Bl.el := by
  have : (a.lines, elsL a.after) ∈ areas.map (fun x => (x.1, x.2.map Bl.el)) := by
    rw [← h.areas]; exact List.mem_map.mpr ⟨a, ha, rfl⟩
  obtain ⟨x, hx, he⟩ := List.mem_map.mp this
  exact ⟨x, hx, (congrArg Prod.snd he).symm⟩

theorem mem_secs {head : List Bl} {areas : List (List Str × List Bl)} {x : Sec} (hx : x ∈ secs head areas) :
    (∃ b, x = .block b ∧ (b ∈ head ∨ ∃ y ∈ areas, b ∈ y.2)) ∨ ∃ y ∈ areas, x = .pre y.1 := by
  rcases List.mem_append.mp hx with h | h
  · obtain ⟨b, hb, rfl⟩ := List.mem_map.mp h
    exact .inl ⟨b, rfl, .inl hb⟩
  · obtain ⟨y, hy, h⟩ := List.mem_flatMap.mp h
    rcases List.mem_cons.mp h with rfl | h
    · exact .inr ⟨y, hy, rfl⟩
    · obtain ⟨b, hb, rfl⟩ := List.mem_map.mp h
      exact .inl ⟨b, rfl, .inr ⟨y, hy, hb⟩⟩

theorem firstLine_strip {ls : List Str} (h : (ls.head?).any (fun l => !l.all isSpace) = true) : strip (joinLines c!"\n" ls) ≠ [] := by
  cases ls with
  | nil => simp at h
  | cons l ls =>
    have hl : ∃ c ∈ l, isSpace c = false := by
      simp only [List.head?_cons, Option.any_some, Bool.not_eq_true', List.all_eq_false, Bool.not_eq_true] at h
      exact h
    obtain ⟨c, hc, hs⟩ := hl
    have hm : c ∈ joinLines c!"\n" (l :: ls) := by
      cases ls with
      | nil => rw [joinLines]; exact hc
      | cons m ls => rw [joinLines]; simp [hc]
    intro e
    obtain ⟨a, b, h1, h2, h3, _⟩ := Creole.strip_parts (joinLines c!"\n" (l :: ls))
    rw [e, List.nil_append] at h1
    rw [h1] at hm
    rcases List.mem_append.mp hm with hm | hm
    · rw [h2 c hm] at hs; cases hs
    · rw [h3 c hm] at hs; cases hs

/-! ## The converters -/

/-- the nodes of such an article -/
theorem parse_secs {first : List Ht} {l : List Area} {head : List Bl} {areas : List (List Str × List Bl)}
    (h : StandsForSecs first l head areas) (hn : preNeat first l = true) (hwf : ∀ b : Bl, (b ∈ head ∨ ∃ y ∈ areas, b ∈ y.2) → b.el.wf true = true)
    (hlen : areas.length ≤ 10 ^ 4300) {w w' : Str} (hw : ∀ c ∈ w, isSpace c = true) (hw' : ∀ c ∈ w', isSpace c = true) :
    parseHtml (w ++ preWritten first l ++ w') = .ok (.mk { kind := c!"document" } ((secs head areas).flatMap secNodes)) := by
  rw [← preNodes_secs h]
  refine C60_parse_preformatted first l hn ?_ ?_ ?_ hw hw'
  · rw [h.first]
    exact wfL_map fun b hb => hwf b (.inl hb)
  · intro a ha
    obtain ⟨x, hx, e⟩ := standsFor_after h ha
    rw [e]
    exact wfL_map fun b hb => hwf b (.inr ⟨x, hx, hb⟩)
  · have := congrArg List.length h.areas
    rw [List.length_map, List.length_map] at this
    rw [this]
    exact hlen

theorem convert_secs {to : To} {cfg : Cfg} (hc : Conf to cfg) {head : List Bl} {areas : List (List Str × List Bl)}
    (hok : ∀ b ∈ head, b.Ok to cfg.netlocOk) (hok' : ∀ x ∈ areas, ∀ b ∈ x.2, b.Ok to cfg.netlocOk)
    {first : List Ht} {l : List Area} (h : StandsForSecs first l head areas) (hn : preNeat first l = true)
    (hlen : areas.length ≤ 10 ^ 4300) {w w' : Str} (hw : ∀ c ∈ w, isSpace c = true) (hw' : ∀ c ∈ w', isSpace c = true) :
    convert cfg (w ++ preWritten first l ++ w') = .ok (secsText to (secs head areas)) := by
  have hall : ∀ b : Bl, (b ∈ head ∨ ∃ y ∈ areas, b ∈ y.2) → b.Ok to cfg.netlocOk := by
    rintro b (hb | ⟨y, hy, hb⟩)
    · exact hok b hb
    · exact hok' y hy b hb
  have hfine : ∀ x ∈ secs head areas, Sec.Fine to cfg.netlocOk x := by
    intro x hx
    rcases mem_secs hx with ⟨b, rfl, hb⟩ | ⟨y, _, rfl⟩
    · exact hall b hb
    · trivial
  obtain ⟨s, hs⟩ := secs_emit hc [c!"document"] (secs head areas) hfine (s := enter { kind := c!"document" } {}) rfl
  rw [convert, parse_secs h hn (fun b hb => wf_bl (hall b hb)) hlen hw hw']
  show emit _ _ = _
  rw [emit_document hs (fun h => absurd h hc.notRest), if_neg hc.notRest]
  cases hz : secs head areas with
  | nil => rfl
  | cons x d =>
    rw [hz] at hfine
    obtain ⟨u, h1, h2⟩ := secsEmitted_lines d x (startNewline (enter { kind := c!"document" } {}).last) (hfine x List.mem_cons_self)
      (fun y hy => hfine y (List.mem_cons_of_mem _ hy))
    rw [h1, secsText]
    congr 1
    refine strip_pad ?_ (fun c hc => by rw [h2 c hc]; rfl) _
    have : ∀ c ∈ secBefore to (startNewline (enter { kind := c!"document" } {}).last) x, c = '\n' := by
      cases x with
      | pre ls => simp [secBefore]
      | block b => cases b <;> cases to <;> simp [secBefore, arBefore]
    intro c hc
    rw [this c hc]; rfl

/-- **C87**: html2creole on an article with areas of preformatted text, however its HTML is written: the lines of every area
are left as they are, and the text is the one of the specification.  (Python refuses to read numbers of more than 4300
digits, hence the bound on the number of areas.) -/
theorem C87_html2creole (head : List Bl) (areas : List (List Str × List Bl)) (hok : ∀ b ∈ head, b.Ok .creole anyHost)
    (hok' : ∀ x ∈ areas, ∀ b ∈ x.2, b.Ok .creole anyHost) (first : List Ht) (l : List Area) (h : StandsForSecs first l head areas)
    (hn : preNeat first l = true) (hlen : areas.length ≤ 10 ^ 4300) (w w' : Str)
    (hw : ∀ c ∈ w, isSpace c = true) (hw' : ∀ c ∈ w', isSpace c = true) :
    Emit.html2creole (w ++ preWritten first l ++ w') = .ok (secsText .creole (secs head areas)) :=
  convert_secs (to := .creole) (cfg := { lang := .creole }) ⟨rfl, rfl, rfl⟩ hok hok' h hn hlen hw hw'

/-- **C87**: html2textile. -/
theorem C87_html2textile (head : List Bl) (areas : List (List Str × List Bl)) (hok : ∀ b ∈ head, b.Ok .textile anyHost)
    (hok' : ∀ x ∈ areas, ∀ b ∈ x.2, b.Ok .textile anyHost) (first : List Ht) (l : List Area) (h : StandsForSecs first l head areas)
    (hn : preNeat first l = true) (hlen : areas.length ≤ 10 ^ 4300) (w w' : Str)
    (hw : ∀ c ∈ w, isSpace c = true) (hw' : ∀ c ∈ w', isSpace c = true) :
    html2textile (w ++ preWritten first l ++ w') = .ok (secsText .textile (secs head areas)) :=
  convert_secs (to := .textile) (cfg := { lang := .textile }) ⟨rfl, rfl, rfl⟩ hok hok' h hn hlen hw hw'

/-- **C87**: html2markdown; `hostOk` tells which hosts Python accepts in addresses. -/
theorem C87_html2markdown (hostOk : Str → Bool) (head : List Bl) (areas : List (List Str × List Bl)) (hok : ∀ b ∈ head, b.Ok .markdown hostOk)
    (hok' : ∀ x ∈ areas, ∀ b ∈ x.2, b.Ok .markdown hostOk) (first : List Ht) (l : List Area) (h : StandsForSecs first l head areas)
    (hn : preNeat first l = true) (hlen : areas.length ≤ 10 ^ 4300) (w w' : Str)
    (hw : ∀ c ∈ w, isSpace c = true) (hw' : ∀ c ∈ w', isSpace c = true) :
    html2markdown hostOk (w ++ preWritten first l ++ w') = .ok (secsText .markdown (secs head areas)) :=
  convert_secs (to := .markdown) (cfg := { lang := .markdown, netlocOk := hostOk }) ⟨rfl, rfl, rfl⟩ hok hok' h hn hlen hw hw'

/-- **C87**: html2rest; lines end with `\n` only.  The exception `Html2restException` is raised if the specification has no
text (one text is used for two addresses). -/
theorem C87_html2rest (head : List Bl) (areas : List (List Str × List Bl)) (hok : ∀ b ∈ head, b.RestOk)
    (hok' : ∀ x ∈ areas, (∀ line ∈ x.1, ∀ c ∈ line, otherLineEnd c = false) ∧ ∀ b ∈ x.2, b.RestOk)
    (first : List Ht) (l : List Area) (h : StandsForSecs first l head areas)
    (hn : preNeat first l = true) (hlen : areas.length ≤ 10 ^ 4300) (w w' : Str) (policy : Policy)
    (hw : ∀ c ∈ w, isSpace c = true) (hw' : ∀ c ∈ w', isSpace c = true) :
    html2rest (w ++ preWritten first l ++ w') policy = match secsRestText (secs head areas) with
      | some text => .ok text
      | none => .error .html2rest := by
  have hall : ∀ b : Bl, (b ∈ head ∨ ∃ y ∈ areas, b ∈ y.2) → b.RestOk := by
    rintro b (hb | ⟨y, hy, hb⟩)
    · exact hok b hb
    · exact (hok' y hy).2 b hb
  have hfine : ∀ x ∈ secs head areas, Sec.FineRest x := by
    intro x hx
    rcases mem_secs hx with ⟨b, rfl, hb⟩ | ⟨y, hy, rfl⟩
    · exact hall b hb
    · refine ⟨(hok' y hy).1, ?_⟩
      obtain ⟨a, ha, e⟩ := standsFor_area h hy
      have := preNeat_linesOk hn a ha
      simp only [Area.linesOk, Bool.and_eq_true] at this
      rw [← e]
      exact firstLine_strip this.1
  rw [html2rest, convert, parse_secs h hn (fun b hb => wf_rest_bl (hall b hb)) hlen hw hw']
  show emit _ _ = _
  rw [secsRestText]
  cases hz : secs head areas with
  | nil => rfl
  | cons x d =>
    rw [hz] at hfine
    have hdoc := secs_rest (cfg := { lang := .rest, policy }) rfl (root := c!"document") ⟨by decide, by decide⟩ d x (hfine x List.mem_cons_self)
      (fun y hy => hfine y (List.mem_cons_of_mem _ hy))
      (s := enter { kind := c!"document" } {}) (r := {}) ⟨rfl, rfl, rfl, rfl, rfl, (by intro p hp; cases hp), (by intro p hp; cases hp), (by simp)⟩
    cases hx : secsRest (x :: d) {} with
    | none =>
      rw [hx] at hdoc
      exact document_error rfl hdoc
    | some lines =>
      rw [hx] at hdoc
      obtain ⟨t, s', h1, h2, h3, _⟩ := hdoc
      rw [document_rest rfl h1 h2]
      show Except.ok (rstrip (t ++ pending s'.subst)) = _
      rw [h3, rstrip_newlines]
      rfl

/-- **C87**: in ReStructuredText the blanks before the first line are lost, but not those before the other lines; so the lines
do not fit any more. -/
theorem C87_rest_first_line : html2rest c!"<pre>\n  if a:\n    b\n</pre>" = .ok c!"::\n\n    if a:\n        b" ∧
    Emit.html2creole c!"<pre>\n  if a:\n    b\n</pre>" = .ok c!"{{{\n  if a:\n    b\n}}}" := by decide +kernel

/-! ## A case that meets the conditions -/

/-- one way to write an article with three areas -/
def exPreHtml : List Ht := [.el c!"h2" [] [.text c!"T"], .white c!"\n"]

def exPreAreas : List Area :=
  [{ lines := [c!"if a < b:", c!"", c!"    c"], white := c!"\n", after := [.el c!"p" [] [.text c!"x ", .el c!"em" [] [.text c!"y"]], .white c!"\n\n"] },
   { lines := [c!"q"], white := c!"\n", after := [] },
   { lines := [c!"  {{{ r }}}"], white := c!"\n", after := [.void c!"hr" []] }]

def exPreHead : List Bl := [.head 2 [.text c!"T"]]

def exPreBlocks : List (List Str × List Bl) :=
  [([c!"if a < b:", c!"", c!"    c"], [.para [.text c!"x ", .face c!"em" [.text c!"y"]]]), ([c!"q"], []), ([c!"  {{{ r }}}"], [.hr])]

example : preNeat exPreHtml exPreAreas = true ∧ StandsForSecs exPreHtml exPreAreas exPreHead exPreBlocks :=
  ⟨by decide +kernel, rfl, rfl⟩

theorem exPre_ok (to : To) : (∀ b ∈ exPreHead, b.Ok to anyHost) ∧ ∀ x ∈ exPreBlocks, ∀ b ∈ x.2, b.Ok to anyHost := by
  have h1 : (delimiters to.lang c!"em").isSome = true := by cases to <;> decide +kernel
  have h2 : c!"em" ∉ blockNames := by decide +kernel
  constructor
  · simp [exPreHead, Bl.Ok, SpsOk, Sp.Ok]
  · simp [exPreBlocks, Bl.Ok, SpsOk, Sp.Ok, isText, h1, h2]

theorem exPre_restOk : (∀ b ∈ exPreHead, b.RestOk) ∧
    ∀ x ∈ exPreBlocks, (∀ line ∈ x.1, ∀ c ∈ line, otherLineEnd c = false) ∧ ∀ b ∈ x.2, b.RestOk := by
  have h1 : (delimiters .rest c!"em").isSome = true := by decide +kernel
  have h2 : ∀ x ∈ exPreBlocks, ∀ line ∈ x.1, ∀ c ∈ line, otherLineEnd c = false := by decide +kernel
  refine ⟨by simp [exPreHead, Bl.RestOk, SpsRestOk, Sp.RestOk], fun x hx => ⟨h2 x hx, ?_⟩⟩
  revert x
  simp [exPreBlocks, Bl.RestOk, SpsRestOk, Sp.RestOk, isText, h1]

example : preWritten exPreHtml exPreAreas =
    c!"<h2>T</h2>\n<pre>\nif a &lt; b:\n\n    c\n</pre>\n<p>x <em>y</em></p>\n\n<pre>\nq\n</pre>\n<pre>\n  {{{ r }}}\n</pre>\n<hr />" := by decide +kernel

example : secsText .creole (secs exPreHead exPreBlocks) =
    c!"== T\n\n{{{\nif a < b:\n\n    c\n}}}\nx //y//\n\n{{{\nq\n}}}\n{{{\n  {{{ r }}}\n}}}\n----" := by decide +kernel

example : secsText .textile (secs exPreHead exPreBlocks) =
    c!"h2. T\n\n<pre>\nif a < b:\n\n    c\n</pre>\nx _y_\n\n<pre>\nq\n</pre>\n<pre>\n  {{{ r }}}\n</pre>\n----" := by decide +kernel

example : secsText .markdown (secs exPreHead exPreBlocks) =
    c!"## T\n```\nif a < b:\n\n    c\n```\n\nx _y_\n```\nq\n```\n```\n  {{{ r }}}\n```\n\n----" := by decide +kernel

example : secsRestText (secs exPreHead exPreBlocks) =
    some c!"-\nT\n-\n\n::\n\n    if a < b:\n    \n        c\n\nx *y*\n\n::\n\n    q\n\n::\n\n    {{{ r }}}\n\n----" := by decide +kernel

end Verif.Props
