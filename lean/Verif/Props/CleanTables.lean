import Verif.Tools.CleanTables

/-!
# C102: the tables of the clean HTML writer
-/

namespace Verif.Props

open Verif Py Tools

mutual

/-- the HTML of a document: tables, field lists and the docinfo are `table`s without attributes, heads, bodies and columns of
tables and block quotes have no tags, and all other nodes are as docutils writes them -/
def cleanHtml : TabPart → Str
  | .table parts => c!"<table>\n" ++ cleanHtmls parts ++ c!"</table>\n"
  | .fieldList _ parts => c!"<table>\n" ++ cleanHtmls parts ++ c!"</table>\n"
  | .docinfo parts => c!"<table>\n" ++ cleanHtmls parts ++ c!"</table>\n"
  | .silent parts => cleanHtmls parts
  | .other before after parts => before.flatten ++ cleanHtmls parts ++ after.flatten

def cleanHtmls : List TabPart → Str
  | [] => []
  | p :: ps => cleanHtml p ++ cleanHtmls ps

end

/-- the methods of docutils as they are: `depart_table` takes back what `visit_table` of this version has saved, and the start
tag of a field list has but a class, a frame and rules, and columns behind it -/
structure Usual (b : Base) : Prop where
  table : b.newer = b.tablePops
  attrs : ∀ a ∈ b.fieldAttrs, a.2 ≠ .none ∧ a.1.map lowerAscii ∈ [c!"class", c!"frame", c!"rules"]
  columns : hasSub c!"<col" b.columns = true

theorem attrParts_ignored (attval : Str → Str) : ∀ l : List (Str × AttrVal),
    (∀ a ∈ l, a.2 ≠ .none ∧ a.1.map lowerAscii ∈ [c!"class", c!"frame", c!"rules"]) → attrParts attval l = some []
  | [], _ => rfl
  | (n, v) :: l, h => by
    have h1 := h (n, v) List.mem_cons_self
    have ih := attrParts_ignored attval l fun a ha => h a (List.mem_cons_of_mem _ ha)
    have h2 : ignoreAttr.contains (lowerName n) = true := by
      have := h1.2
      simp only [List.mem_cons, List.not_mem_nil, or_false] at this
      rw [lowerName]
      rcases this with h | h | h <;> rw [h] <;> decide
    rw [attrParts.eq_def]
    dsimp only
    rw [if_neg h1.1, if_pos h2, ih]

theorem mem_insertItem {a x : Str × AttrVal} : ∀ {l : List (Str × AttrVal)}, x ∈ insertItem a l → x = a ∨ x ∈ l
  | [], h => by simpa [insertItem] using h
  | b :: l, h => by
    rw [insertItem] at h
    split at h
    · simpa using h
    · rcases List.mem_cons.mp h with rfl | h
      · simp
      · rcases mem_insertItem h with h | h <;> simp [h]

theorem mem_sortItems {x : Str × AttrVal} : ∀ {l : List (Str × AttrVal)}, x ∈ sortItems l → x ∈ l
  | [], h => h
  | a :: l, h => by
    rcases mem_insertItem (l := sortItems l) h with h | h
    · simp [h]
    · exact List.mem_cons_of_mem _ (mem_sortItems h)

theorem starttag_bare (attval : Str → Str) (attrs : List (Str × AttrVal))
    (h : ∀ a ∈ attrs, a.2 ≠ .none ∧ a.1.map lowerAscii ∈ [c!"class", c!"frame", c!"rules"]) :
    starttag attval c!"table" c!"\n" false attrs = some c!"<table>\n" := by
  rw [starttag, if_neg (by decide), attrParts_ignored attval _ fun a ha => h a (mem_sortItems ha)]
  rfl

mutual

theorem walkTab_spec {b : Base} (hb : Usual b) : ∀ (p : TabPart) (t : Trans),
    ∃ body, walkTab b t p = some { t with body := body } ∧ body.reverse.flatten = t.body.reverse.flatten ++ cleanHtml p
  | .table parts, t => by
    have hs := starttag_bare b.attval [] (by simp)
    rw [walkTab, visitTable, hs]
    simp only [Option.map_some, Option.bind_some]
    obtain ⟨body, h1, h2⟩ := walkTabs_spec hb parts
      { (if b.newer then { t with context := .compact t.compactP :: t.context, compactP := some true } else t) with
        body := c!"<table>\n" :: t.body }
    refine ⟨c!"</table>\n" :: body, ?_, ?_⟩
    · cases hn : b.newer with
      | true =>
        rw [hn] at h1
        simp only [if_true] at h1 ⊢
        rw [h1]
        simp [departTable, ← hb.table, hn]
      | false =>
        rw [hn] at h1
        simp only [Bool.false_eq_true, if_false] at h1 ⊢
        rw [h1]
        simp [departTable, ← hb.table, hn]
    · simp only [List.reverse_cons, List.flatten_append, cleanHtml] at h2 ⊢
      rw [h2]
      simp
  | .fieldList compact parts, t => by
    rw [walkTab, visitFieldList, starttag_bare b.attval _ hb.attrs]
    simp only [Option.map_some, Option.bind_some, hb.columns, if_true, List.drop_one, List.tail_cons]
    obtain ⟨body, h1, h2⟩ := walkTabs_spec hb parts
      { t with context := .fields t.compactFields t.compactP :: t.context, compactP := none, compactFields := compact,
               body := c!"<table>\n" :: t.body }
    refine ⟨c!"</table>\n" :: body, ?_, ?_⟩
    · rw [h1]; simp [departFieldList]
    · simp only [List.reverse_cons, List.flatten_append, cleanHtml] at h2 ⊢
      rw [h2]
      simp
  | .docinfo parts, t => by
    rw [walkTab, visitDocinfo, starttag_bare b.attval [] (by simp)]
    simp only [Option.map_some, Option.bind_some]
    obtain ⟨body, h1, h2⟩ := walkTabs_spec hb parts { t with body := c!"<table>\n" :: t.body }
    refine ⟨c!"</table>\n" :: body, ?_, ?_⟩
    · rw [h1]; simp [departDocinfo]
    · simp only [List.reverse_cons, List.flatten_append, cleanHtml] at h2 ⊢
      rw [h2]
      simp
  | .silent parts, t => by
    rw [walkTab, cleanHtml]
    exact walkTabs_spec hb parts t
  | .other before after parts, t => by
    rw [walkTab]
    obtain ⟨body, h1, h2⟩ := walkTabs_spec hb parts { t with body := before.reverse ++ t.body }
    refine ⟨after.reverse ++ body, by rw [h1]; simp, ?_⟩
    simp only [List.reverse_append, List.reverse_reverse, List.flatten_append, cleanHtml] at h2 ⊢
    rw [h2]
    simp

theorem walkTabs_spec {b : Base} (hb : Usual b) : ∀ (ps : List TabPart) (t : Trans),
    ∃ body, walkTabs b t ps = some { t with body := body } ∧ body.reverse.flatten = t.body.reverse.flatten ++ cleanHtmls ps
  | [], t => ⟨t.body, by rw [walkTabs], by simp [cleanHtmls]⟩
  | p :: ps, t => by
    obtain ⟨body, h1, h2⟩ := walkTab_spec hb p t
    obtain ⟨body', h3, h4⟩ := walkTabs_spec hb ps { t with body := body }
    refine ⟨body', by rw [walkTabs, h1]; simpa using h3, ?_⟩
    rw [h4, cleanHtmls, h2, List.append_assoc]

end

/-- **C102**: the assertion at the end of a document never fails: whatever tables, field lists and other nodes are in each other,
the document is written, every table with its end tag and without attributes, columns, heads, bodies and block quotes without
tags, between the parts that docutils puts around it (without the first piece of the prefix and the last of the suffix, which are about the tag `body`). -/
theorem C102_document {b : Base} (hb : Usual b) (document : List TabPart) (prefixes preDocinfo docinfo suffixes : List Str) (p fl : Option Bool) :
    ∃ pieces, ((walkTabs b { compactP := p, compactFields := fl } document).bind (departDocument prefixes preDocinfo docinfo suffixes)) = some pieces ∧
      pieces.flatten = prefixes.tail.flatten ++ preDocinfo.flatten ++ docinfo.flatten ++ cleanHtmls document ++ suffixes.dropLast.flatten := by
  obtain ⟨body, h1, h2⟩ := walkTabs_spec hb document { compactP := p, compactFields := fl }
  refine ⟨_, by rw [h1]; rfl, ?_⟩
  simp only [List.flatten_append, h2]
  simp

/-- **C102**: what is remembered about compact paragraphs is the same behind a node as before it. -/
theorem C102_restored {b : Base} (hb : Usual b) (part : TabPart) (t : Trans) :
    ∃ t', walkTab b t part = some t' ∧ t'.compactP = t.compactP ∧ t'.compactFields = t.compactFields ∧ t'.context = t.context := by
  obtain ⟨body, h, _⟩ := walkTab_spec hb part t
  exact ⟨_, h, rfl, rfl, rfl⟩

/-- **C102**: the versions of docutils are compared as texts: 0.9 counts as newer than 0.10, and 0.10 itself does not. -/
theorem C102_version (b : Base) : ({ b with version := c!"0.9" } : Base).newer = true ∧ ({ b with version := c!"0.10" } : Base).newer = false ∧
    ({ b with version := c!"0.16" } : Base).newer = true := by
  simp only [Base.newer]
  decide +kernel

/-- **C102**: so a docutils 0.9 whose `depart_table` takes nothing back would make the assertion fail for every document with a
table. -/
theorem C102_version_fails (b : Base) (hv : b.version = c!"0.9") (hp : b.tablePops = false) (prefixes preDocinfo docinfo suffixes : List Str) :
    (walkTabs b {} [.table []]).bind (departDocument prefixes preDocinfo docinfo suffixes) = none := by
  have hn : b.newer = true := by rw [Base.newer, hv]; decide +kernel
  simp [walkTabs, walkTab, visitTable, departTable, hp, hn, departDocument, starttag_bare b.attval [] (by simp)]

/-- docutils 0.16 -/
def docutils16 : Base :=
  { version := c!"0.16", attval := id, tablePops := true,
    fieldAttrs := [(c!"frame", .str c!"void"), (c!"rules", .str c!"none"), (c!"CLASS", .str c!"docutils field-list")],
    columns := c!"<col class=\"field-name\" />\n<col class=\"field-body\" />\n<tbody valign=\"top\">\n" }

example : Usual docutils16 := ⟨by decide +kernel, by decide +kernel, by decide +kernel⟩

example : (walkTabs docutils16 {} [.table [.silent [.other [c!"<tr>"] [c!"</tr>\n"] [.fieldList none [.other [c!"<th>a</th>"] [] []]]]], .docinfo []]).bind
    (departDocument [c!"<body>"] [c!"<h1>"] [] [c!"</body>"]) =
      some [c!"<h1>", c!"<table>\n", c!"<tr>", c!"<table>\n", c!"<th>a</th>", c!"</table>\n", c!"</tr>\n", c!"</table>\n", c!"<table>\n", c!"</table>\n"] := by
  decide +kernel

end Verif.Props
