import Verif.Creole.PlainLemmas
import Verif.Creole.ListBranches

/-!
# C06, C07, C08, C10, C11, C15, C16, C56, C57: blocks and documents
-/

namespace Verif.Props

open Verif Py Creole Spec Spec.Cr

/-! ## C57: documents -/

/-- **C57.** The HTML of a document is the HTML of its blocks (paragraphs, headings, rules, preformatted text, lists,
tables), one after the other, with nothing but line ends between them.  The lines of the text may be terminated in
any way. -/
theorem C57_document (o : Opts) (macros : Macros) (markup : Str) (d : Cr.Doc) (trail : List Str) (cx : Ctx)
    (hcx : ReadWith o macros cx) (hd : docOk cx o.blog d = true)
    (htr : trail.all blank = true) (hl : textLines markup = docLines d ++ trail) :
    creole2htmlM o macros markup = .ok (docHtml cx o.blog d, macros) :=
  creole2html_doc o macros markup d trail hd hcx htr hl

/-- the text between two blocks of the output consists of line ends -/
theorem C57_between (b : Block) (gap : List Str) : ∀ c ∈ gapHtml b gap, c = '\n' := by
  intro c hc
  cases b <;> simp only [gapHtml] at hc <;> (repeat' split at hc) <;> simp at hc <;> simp_all

/-- a document with a block of every kind -/
def exampleDoc : Cr.Doc :=
  [([[]], .head 2 c!" " c!"Title & more" c!" ==  "),
   ([], .para [(c!"some text").map .chr, [.face .strong ((c!"bold").map .chr), .br, .link c!"http://x/?a&b" ((c!"here").map .chr)]]),
   ([c!"  ", []], .list ⟨[], .bullet, (c!"one").map .chr⟩ [⟨c!"*", .number, (c!"two").map .chr⟩]),
   ([[]], .pre [c!"**not bold**", c!" ~}}}", []]),
   ([], .table [[.th 0 1 ((c!"A").map .chr) 1, .td 1 ((c!"b").map .chr) 1], [.td 0 ((c!"c").map .chr) 0]]),
   ([[]], .hr)]

example : docOk {} true exampleDoc = true := by decide +kernel

example : docLines exampleDoc = [c!"", c!"== Title & more ==  ", c!"some text", c!"**bold**\\\\[[http://x/?a&b|here]]", c!"  ", c!"", c!"* one",
    c!"*# two", c!"", c!"{{{", c!"**not bold**", c!" ~}}}", c!"", c!"}}}", c!"|= A | b |", c!"|c|", c!"", c!"----"] := by decide +kernel

/-! ## C06, C07: paragraphs -/

/-- the blocks of a text of paragraphs -/
def paraBlock (p : Para) : List Str × Block := (p.gap, .para (p.lines.map fun l => l.map .chr))

theorem map_prints (ls : List Str) : (ls.map fun l => l.map Inl.chr).map prints = ls := by
  rw [List.map_map]
  have : ls.map (prints ∘ fun l => l.map Inl.chr) = ls.map id := List.map_congr_left fun l _ => prints_chars l
  rw [this, List.map_id]

theorem para_lines (ps : List Para) : docLines (ps.map paraBlock) = ps.flatMap Para.all := by
  induction ps with
  | nil => rfl
  | cons p ps ih =>
    rw [List.map_cons, List.flatMap_cons, ← ih]
    show p.gap ++ ((p.lines.map fun l => l.map Inl.chr).map prints) ++ _ = _
    rw [map_prints]; rfl

theorem para_paraOk (blog : Bool) : ∀ {ls : List Str} {start : Start}, ls ≠ [] → (∀ l ∈ ls, plainLine l = true) →
    paraOk cx blog start (ls.map fun l => l.map .chr) = true := by
  intro ls
  induction ls with
  | nil => intro _ h; exact absurd rfl h
  | cons l ls ih =>
    intro start _ hl
    obtain ⟨h1, h2, h3, h4⟩ := plainLine_parts (cx := cx) (hl l (by simp))
    cases ls with
    | nil =>
      simp only [List.map_cons, List.map_nil, paraOk, h1, prints_chars, h2, plainStart_all h3 start, last_chars, Bool.and_self]
    | cons m ls =>
      have := @ih (if blog || (prints (l.map Inl.chr)).getLast? == some '\\' then .all else .none) (by simp) (fun x hx => hl x (by simp [hx]))
      simp only [List.map_cons] at this
      simp only [List.map_cons, paraOk, h1, this, Bool.and_true]
      simp only [prints_chars, h2, plainStart_all h3 start, Bool.and_self]

theorem para_plainLines (cx : Ctx) (nl : Str) : ∀ {ls : List Str}, (∀ l ∈ ls, plainLine l = true) →
    paraHtml cx nl (ls.map fun l => l.map .chr) = plainLines nl ls := by
  intro ls
  induction ls with
  | nil => intro _; rfl
  | cons l ls ih =>
    intro hl
    obtain ⟨_, _, _, h4⟩ := plainLine_parts (cx := cx) (hl l (by simp))
    cases ls with
    | nil => simp only [List.map_cons, List.map_nil, paraHtml, htmls_chars, plainLines]
    | cons m ls =>
      have := ih (fun x hx => hl x (by simp [hx]))
      simp only [List.map_cons] at this
      simp only [List.map_cons, paraHtml, htmls_chars, plainLines, prints_chars, h4, if_false, this]

theorem para_ok {p : Para} (h : p.ok = true) : (∀ g ∈ p.gap, blank g = true) ∧ p.lines ≠ [] ∧ ∀ l ∈ p.lines, plainLine l = true := by
  simp only [Para.ok, Bool.and_eq_true, List.all_eq_true, Bool.not_eq_true'] at h
  refine ⟨h.1.1, ?_, h.2⟩
  intro e; rw [e] at h; simp at h

theorem paras_tail (blog : Bool) : ∀ {ps : List Para} {ls : List (List Inl)}, ps.all (fun q => q.ok && !q.gap.isEmpty) = true →
    tailOk cx blog (.para ls) (ps.map paraBlock) = true := by
  intro ps
  induction ps with
  | nil => intro ls _; rfl
  | cons p ps ih =>
    intro ls h
    simp only [List.all_cons, Bool.and_eq_true, Bool.not_eq_true'] at h
    obtain ⟨⟨h1, h2⟩, h3⟩ := h
    obtain ⟨h4, h5, h6⟩ := para_ok h1
    simp only [List.map_cons, paraBlock, tailOk, Bool.and_eq_true, Bool.or_eq_true, List.all_eq_true]
    refine ⟨⟨h4, .inl ⟨?_, para_paraOk blog h5 h6⟩⟩, ?_⟩
    · show (!p.gap.isEmpty) = true
      rw [h2]; rfl
    · exact ih h3

theorem paras_docOk (blog : Bool) {ps : List Para} (h : parasOk ps = true) : docOk cx blog (ps.map paraBlock) = true := by
  cases ps with
  | nil => rfl
  | cons p ps =>
    simp only [parasOk, Bool.and_eq_true] at h
    obtain ⟨h4, h5, h6⟩ := para_ok h.1
    simp only [List.map_cons, paraBlock, docOk, Bool.and_eq_true, List.all_eq_true]
    exact ⟨⟨h4, para_paraOk blog h5 h6⟩, paras_tail blog h.2⟩

theorem paras_docTail (cx : Ctx) (blog : Bool) : ∀ {ps : List Para} {p : Para}, p.ok = true → ps.all (fun q => q.ok && !q.gap.isEmpty) = true →
    (paraBlock p).2.html cx blog ++ docTail cx blog (paraBlock p).2 (ps.map paraBlock) =
      parasHtml (if blog then c!"<br />\n" else c!" ") (p :: ps) := by
  intro ps
  induction ps with
  | nil =>
    intro p hp _
    simp only [List.map_nil, docTail, List.append_nil, parasHtml, paraBlock, Block.html, Para.html]
    rw [para_plainLines cx _ (para_ok hp).2.2]
  | cons q ps ih =>
    intro p hp h
    simp only [List.all_cons, Bool.and_eq_true, Bool.not_eq_true'] at h
    obtain ⟨⟨h1, h2⟩, h3⟩ := h
    have hq := @ih q h1 h3
    simp only [List.map_cons, parasHtml]
    rw [← hq]
    have hg : q.gap ≠ [] := by intro e; rw [e] at h2; simp at h2
    have e1 : (paraBlock p).2.html cx blog = p.html (if blog then c!"<br />\n" else c!" ") := by
      simp only [paraBlock, Block.html, Para.html]
      rw [para_plainLines cx _ (para_ok hp).2.2]
    have e2 : gapHtml (paraBlock p).2 q.gap = q.sep := by
      simp only [paraBlock, gapHtml, Para.sep, hg, if_false]
    rw [e1]
    show _ ++ (gapHtml (paraBlock p).2 q.gap ++ (paraBlock q).2.html cx blog ++ docTail cx blog (paraBlock q).2 (ps.map paraBlock)) = _
    rw [e2]
    simp only [List.append_assoc]

theorem paragraphs (o : Opts) (macros : Macros) (markup : Str) (ps : List Para) (trail : List Str) (h : parasOk ps = true)
    (ht : trail.all blank = true) (hl : textLines markup = ps.flatMap Para.all ++ trail) :
    creole2htmlM o macros markup = .ok (parasHtml (if o.blog then c!"<br />\n" else c!" ") ps, macros) := by
  rw [creole2html_noMac (cx := { strict := o.strict }) o macros markup (ps.map paraBlock) trail (paras_docOk o.blog h) (ReadWith.plain o macros) ht
    (by rw [para_lines, hl]) (by intro x hx; rw [List.mem_map] at hx; obtain ⟨q, _, rfl⟩ := hx; rfl)]
  cases ps with
  | nil => rfl
  | cons p ps =>
    simp only [parasOk, Bool.and_eq_true] at h
    rw [← paras_docTail { strict := o.strict } o.blog h.1 h.2]
    rfl

/-- **C06.** With blog style line breaks, paragraphs of plain lines separated by blank lines become one `<p>` each,
their lines are joined by `<br />`, the text is escaped and nothing is added or lost. -/
theorem C06_paragraphs_blog (o : Opts) (hb : o.blog = true) (macros : Macros) (markup : Str) (ps : List Para) (trail : List Str)
    (h : parasOk ps = true) (ht : trail.all blank = true) (hl : textLines markup = ps.flatMap Para.all ++ trail) :
    creole2htmlM o macros markup = .ok (parasHtml c!"<br />\n" ps, macros) := by
  have := paragraphs o macros markup ps trail h ht hl
  rwa [hb, if_pos rfl] at this

/-- **C07.** With wiki style line breaks, the lines of a paragraph are joined by one space. -/
theorem C07_paragraphs_wiki (o : Opts) (hb : o.blog = false) (macros : Macros) (markup : Str) (ps : List Para) (trail : List Str)
    (h : parasOk ps = true) (ht : trail.all blank = true) (hl : textLines markup = ps.flatMap Para.all ++ trail) :
    creole2htmlM o macros markup = .ok (parasHtml c!" " ps, macros) := by
  have := paragraphs o macros markup ps trail h ht hl
  rwa [hb, if_neg (by simp)] at this

def exampleParas : List Para :=
  [⟨[c!" "], [c!"one < two, a*b = c - d", c!"see a/b: {x} [1]"]⟩, ⟨[c!"", c!"\t"], [c!"last"]⟩, ⟨[c!"", c!""], [c!"  indented & more_"]⟩]

example : parasOk exampleParas = true := by decide +kernel
example : textLines c!" \r\none < two, a*b = c - d\rsee a/b: {x} [1]\n\n\t\nlast\n\n\n  indented & more_\n \n" =
    exampleParas.flatMap Para.all ++ [c!" ", c!""] := by decide +kernel
example : parasHtml c!" " exampleParas =
    c!"<p>one &lt; two, a*b = c - d see a/b: {x} [1]</p>\n\n<p>last</p>\n\n\n<p>  indented &amp; more_</p>" := by decide +kernel

/-! ## C08: tildes -/

/-- the pieces of a text with tildes -/
def tildeInl (c : Char) : Inl := if isSpace c then .chr c else .esc c

theorem tilde_prints (s : Str) : prints (s.map tildeInl) = tildes s := by
  induction s with
  | nil => rfl
  | cons c s ih =>
    simp only [List.map_cons, prints, ih, tildes, List.flatMap_cons, tildeInl]
    split <;> rfl

theorem tilde_htmls (cx : Ctx) (br s : Str) : htmls cx br (s.map tildeInl) = textHtml s := by
  induction s with
  | nil => rfl
  | cons c s ih =>
    have : (tildeInl c).html cx br = textHtml [c] := by unfold tildeInl; split <;> rfl
    simp only [List.map_cons, htmls, ih, this]
    simp [textHtml]

theorem no_url_tilde (c : Char) (s : Str) : startsUrl (c :: tildes s) = false := by
  cases h : startsUrl (c :: tildes s) with
  | false => rfl
  | true =>
    exfalso
    simp only [startsUrl, List.any_eq_true, List.isPrefixOf_iff_prefix] at h
    obtain ⟨p, hp, t, ht⟩ := h
    have hsnd : ∀ p ∈ protocols, (p.drop 1).isEmpty = false := by decide
    obtain ⟨a, b, p', rfl⟩ : ∃ a b p', p = a :: b :: p' := by
      have := hsnd p hp
      cases p with
      | nil => simp at this
      | cons a p =>
        cases p with
        | nil => simp at this
        | cons b p => exact ⟨a, b, p, rfl⟩
    have hb := (protocol_letters hp b (by simp))
    simp only [List.cons_append, List.cons.injEq] at ht
    obtain ⟨_, ht⟩ := ht
    cases s with
    | nil => simp [tildes] at ht
    | cons d s =>
      simp only [tildes, List.flatMap_cons] at ht
      split at ht
      · rename_i hd
        simp only [List.cons_append, List.nil_append, List.cons.injEq] at ht
        rw [← ht.1, hb.2.2] at hd; cases hd
      · simp only [List.cons_append, List.nil_append, List.cons.injEq] at ht
        exact hb.1 (by rw [ht.1]; decide)

theorem no_url_space {c : Char} (hc : isSpace c = true) (s : Str) : startsUrl (c :: s) = false := by
  cases h : startsUrl (c :: s) with
  | false => rfl
  | true =>
    exfalso
    simp only [startsUrl, List.any_eq_true, List.isPrefixOf_iff_prefix] at h
    obtain ⟨p, hp, t, ht⟩ := h
    cases p with
    | nil => exact protocol_ne hp rfl
    | cons a p =>
      simp only [List.cons_append, List.cons.injEq] at ht
      have := (protocol_letters hp a (by simp)).2.2
      rw [ht.1, hc] at this; cases this

theorem tilde_wfs : ∀ {s : Str} {prev : Option Char}, '\n' ∉ s → '~' ∉ s → wfs cx prev (s.map tildeInl) = true := by
  intro s
  induction s with
  | nil => intros; rfl
  | cons c s ih =>
    intro prev h1 h2
    simp only [List.map_cons, wfs, Bool.and_eq_true]
    refine ⟨?_, ih (fun h => h1 (by simp [h])) (fun h => h2 (by simp [h]))⟩
    rw [tilde_prints]
    have hc1 : c ≠ '\n' := by rintro rfl; simp at h1
    have hc2 : c ≠ '~' := by rintro rfl; simp at h2
    unfold tildeInl
    split
    · rename_i hs
      simp only [Inl.wf, Bool.and_eq_true, bne_iff_ne, ne_eq, Bool.not_eq_true']
      refine ⟨⟨⟨hc1, hc2⟩, ?_⟩, ?_⟩
      · have : c ∉ doubled := by
          intro hm
          have : ∀ d ∈ doubled, isSpace d = false := by decide
          rw [this c hm] at hs; cases hs
        simp [pairHere, this]
      · unfold urlHere
        rw [no_url_space hs, Bool.false_or]
        split
        · rename_i h; simp only [List.cons.injEq] at h; exact absurd h.1 hc2
        · simp
    · rename_i hs
      simp only [Inl.wf, Bool.and_eq_true, bne_iff_ne, ne_eq, Bool.not_eq_true']
      refine ⟨⟨by simpa using hs, hc2⟩, ?_⟩
      unfold urlHere
      have h3 : startsUrl ('~' :: c :: tildes s) = false := by
        cases h : startsUrl ('~' :: c :: tildes s) with
        | false => rfl
        | true =>
          exfalso
          simp only [startsUrl, List.any_eq_true, List.isPrefixOf_iff_prefix] at h
          obtain ⟨p, hp, t, ht⟩ := h
          cases p with
          | nil => exact protocol_ne hp rfl
          | cons a p =>
            simp only [List.cons_append, List.cons.injEq] at ht
            exact (protocol_letters hp a (by simp)).1 (by rw [ht.1]; decide)
      rw [h3]
      simp [no_url_tilde]

theorem tilde_last (s : Str) : ((s.map tildeInl).getLast?).all Inl.notBr = true := by
  rw [List.getLast?_map]
  cases s.getLast? with
  | none => rfl
  | some c => simp only [Option.map_some, Option.all_some, tildeInl]; split <;> rfl

theorem tilde_dropWhile {s : Str} (h : s.all isSpace = false) : ∃ t, (tildes s).dropWhile isSpace = '~' :: t := by
  induction s with
  | nil => simp at h
  | cons c s ih =>
    simp only [tildes, List.flatMap_cons]
    cases hc : isSpace c with
    | true =>
      simp only [if_true, List.cons_append, List.nil_append]
      rw [List.dropWhile_cons_of_pos hc]
      exact ih (by simpa [hc] using h)
    | false => exact ⟨_, List.dropWhile_cons_of_neg (by decide)⟩

/-- **C08.** A line in which every character that is not a blank is preceded by a tilde gives the characters
themselves. -/
theorem C08_tilde (o : Opts) (macros : Macros) (markup s : Str) (hs : '~' ∉ s) (hb : s.all isSpace = false) (hn : '\n' ∉ s)
    (hl : textLines markup = [tildes s]) :
    creole2htmlM o macros markup = .ok (c!"<p>" ++ textHtml s ++ c!"</p>", macros) := by
  have hp := tilde_prints s
  obtain ⟨t, ht⟩ := tilde_dropWhile hb
  have hhead : ∀ c, c ≠ '~' → isSpace c = false → (tildes s).head? ≠ some c := by
    intro c h1 h2 h3
    cases hx : tildes s with
    | nil => rw [hx] at h3; simp at h3
    | cons d u =>
      rw [hx] at h3 ht
      simp only [List.head?_cons, Option.some.injEq] at h3
      subst h3
      rw [List.dropWhile_cons_of_neg (by simp [h2])] at ht
      simp only [List.cons.injEq] at ht
      exact h1 ht.1
  have hpre : ∀ (w : Str) (c : Char) (r : Str), w = c :: r → c ≠ '~' → isSpace c = false → w.isPrefixOf (tildes s) = false := by
    rintro w c r rfl h1 h2
    cases hx : (c :: r).isPrefixOf (tildes s) with
    | false => rfl
    | true =>
      exfalso
      rw [List.isPrefixOf_iff_prefix] at hx
      obtain ⟨u, hu⟩ := hx
      exact hhead c h1 h2 (by rw [← hu]; rfl)
  have hps : plainStart .all (tildes s) = true := by
    unfold plainStart
    simp only [ht, show (Start.all != Start.all) = false from rfl, show (Start.all == Start.none) = false from rfl, Bool.false_or, Bool.and_eq_true,
      hpre c!"<<" _ _ rfl (by decide) (by decide), hpre c!"{{{" _ _ rfl (by decide) (by decide), Bool.false_and, Bool.not_false, bne_iff_ne, ne_eq]
    refine ⟨⟨⟨trivial, hhead '=' (by decide) (by decide)⟩, trivial⟩, ⟨by rw [show (c!"----").isPrefixOf ('~' :: t) = false from rfl]; rfl, by simp⟩, ?_⟩
    cases t <;> simp
  have hlt : lineText (tildes s) = true := by
    unfold lineText
    simp only [Bool.and_eq_true, Bool.not_eq_true', List.contains_eq_mem, decide_eq_false_iff_not]
    constructor
    · cases h : (tildes s).all isSpace with
      | false => rfl
      | true =>
        rw [List.all_eq_true] at h
        rw [dropWhile_nil_iff.2 h] at ht
        simp at ht
    · simp only [tildes, List.mem_flatMap, not_exists, not_and]
      intro c hc
      split
      · simp only [List.mem_singleton]; rintro rfl; exact hn hc
      · simp only [List.mem_cons, List.not_mem_nil, or_false, not_or]
        exact ⟨by decide, by rintro rfl; exact hn hc⟩
  have := creole2html_noMac (cx := { strict := o.strict }) o macros markup [([], .para [s.map tildeInl])] [] (by
    simp only [docOk, tailOk, List.all_nil, Bool.true_and, Bool.and_true]
    refine para_all ?_ _
    simp only [Block.ok, paraOk, tilde_wfs hn hs, hp, hlt, hps, tilde_last, Bool.and_self]) (ReadWith.plain o macros) rfl (by
    rw [hl, ← hp]; rfl) (by intro x hx; simp only [List.mem_singleton] at hx; subst hx; rfl)
  rw [this]
  simp only [docBody, docTail, Block.html, paraHtml, tilde_htmls, List.append_nil]

example : tildes c!"<<x>> //a// http://b" = c!"~<~<~x~>~> ~/~/~a~/~/ ~h~t~t~p~:~/~/~b" := by decide +kernel
example : creole2html {} c!"~= **not** ~bold" = .ok c!"<p>= <strong>not</strong> bold</p>" := by decide +kernel

/-- the tilde itself cannot be escaped: two of them are the mark of deleted text -/
theorem C08_not_tilde : creole2html {} c!"~~a~~" = .ok c!"<p><del>a</del></p>" := by decide +kernel

/-! ## C10: preformatted text -/

/-- **C10.** The lines between `{{{` and `}}}` are reproduced character by character, escaped, whatever markup they
contain, if none of them begins with `}}}` and the first one is not blank.  In a line `~}}}` the tilde is left out
(`preLine`). -/
theorem C10_nowiki_block (o : Opts) (macros : Macros) (markup : Str) (l : Str) (ls trail : List Str) (h0 : l.all isSpace = false)
    (hend : ∀ x ∈ l :: ls, (c!"}}}").isPrefixOf x = false) (hnl : ∀ x ∈ l :: ls, '\n' ∉ x) (ht : trail.all blank = true)
    (hl : textLines markup = c!"{{{" :: (l :: ls) ++ c!"}}}" :: trail) :
    creole2htmlM o macros markup = .ok (c!"<pre>\n" ++ (l :: ls).flatMap (fun x => textHtml (preLine x) ++ c!"\n") ++ c!"</pre>", macros) := by
  have := creole2html_noMac (cx := { strict := o.strict }) o macros markup [([], .pre (l :: ls))] trail (by
    have hall : (l :: ls).all (fun x => !x.contains '\n' && !(c!"}}}").isPrefixOf x) = true := by
      rw [List.all_eq_true]
      intro x hx
      rw [hend x hx]
      have := hnl x hx
      simp [this]
    have hst : startAfter o.blog true [] = .all := by unfold startAfter; simp
    have hlt : lineText l = true := by
      unfold lineText
      rw [h0]
      have := hnl l (by simp)
      simp [this]
    simp only [docOk, tailOk, Block.ok, hst, hall, List.head?_cons, Option.all_some, hlt]
    rfl) (ReadWith.plain o macros) ht (by rw [hl]; simp [docLines, Block.lines]) (by intro x hx; simp only [List.mem_singleton] at hx; subst hx; rfl)
  rw [this]
  simp only [docBody, docTail, Block.html, List.append_nil]

/-- a line that does not contain `~}}}` is not changed at all -/
theorem C10_preLine (x : Str) (h : occurs c!"~}}}" x = false) : preLine x = x := by
  refine preLine_id ?_
  intro a b hx
  exact absurd hx (fun hx => not_occurs (by simp) h a _ hx b rfl)

example : textLines c!"{{{\r\n** <b> [[x]] ~~\r\n\r\n  ~}}}\r\n = a\r\n}}}\r\n" =
    c!"{{{" :: (c!"** <b> [[x]] ~~" :: [c!"", c!"  ~}}}", c!" = a"]) ++ c!"}}}" :: [c!""] := by decide +kernel
example : preLine c!"  ~}}}" = c!"  }}}" := by decide +kernel

/-- the blank lines at the beginning are lost -/
theorem C10_leading_blank : creole2html {} c!"{{{\n\n\na\n}}}" = .ok c!"<pre>\na\n</pre>" := by decide +kernel

/-! ## C11: headings -/

/-- **C11.** `n` equals signs, a title and optionally equals signs and blanks give `<hn>`; the title is not
interpreted. -/
theorem C11_heading (o : Opts) (macros : Macros) (markup : Str) (n : Nat) (pad title tail : Str) (trail : List Str) (hn : n ≥ 1)
    (hp : blank pad = true) (ht : trimmed title = true) (h1 : title.head? ≠ some '=') (h2 : title.getLast? ≠ some '=')
    (h3 : tail.all (fun c => c == '=' || isSpace c) = true) (h4 : '\n' ∉ tail) (htr : trail.all blank = true)
    (hl : textLines markup = (List.replicate n '=' ++ pad ++ title ++ tail) :: trail) :
    creole2htmlM o macros markup = .ok (c!"<h" ++ decimal n ++ c!">" ++ textHtml title ++ c!"</h" ++ decimal n ++ c!">", macros) := by
  have := creole2html_noMac (cx := { strict := o.strict }) o macros markup [([], .head n pad title tail)] trail (by
    have hst : startAfter o.blog true [] = .all := by unfold startAfter; simp
    have e1 : (title.head? != some '=') = true := bne_iff_ne.2 h1
    have e2 : (title.getLast? != some '=') = true := bne_iff_ne.2 h2
    simp only [docOk, tailOk, Block.ok, hst, hp, ht, e1, e2, h3, decide_eq_true hn, Bool.and_true, List.all_nil]
    simp [h4]) (ReadWith.plain o macros) htr (by rw [hl]; simp [docLines, Block.lines]) (by intro x hx; simp only [List.mem_singleton] at hx; subst hx; rfl)
  rw [this]
  simp only [docBody, docTail, Block.html, headHtml, List.append_nil, Bool.false_eq_true, if_false]

example : textLines c!"=======  a **b** = c // == =\n" = (List.replicate 7 '=' ++ c!"  " ++ c!"a **b** = c //" ++ c!" == =") :: [[]] := by
  decide +kernel
example : trimmed c!"a **b** = c //" = true := by decide +kernel

/-! ## C15: lists -/

/-- **C15.** Every item of a list gives one `<li>`, in the order of the lines; `listHtml` says into which lists the items are
put, whatever their levels and kinds are (the first item of a list has one mark). -/
theorem C15_list (o : Opts) (macros : Macros) (markup : Str) (i : Item) (l : List Item) (trail : List Str) (cx : Ctx) (hcx : ReadWith o macros cx) (hi : i.level = 0)
    (hok : (i :: l).all (Item.ok cx) = true) (htr : trail.all blank = true) (hl : textLines markup = (i :: l).map Item.line ++ trail) :
    creole2htmlM o macros markup = .ok (listHtml cx i l, macros) := by
  have := creole2html_noMac (cx := cx) o macros markup [([], .list i l)] trail (by
    have hst : startAfter o.blog true [] = .all := by unfold startAfter; simp
    have e : i.pre.isEmpty = true := by rw [List.isEmpty_iff]; exact List.length_eq_zero_iff.mp hi
    simp only [docOk, tailOk, Block.ok, hst, e, hok]
    rfl) hcx htr (by rw [hl]; simp [docLines, Block.lines]) (by intro x hx; simp only [List.mem_singleton] at hx; subst hx; rfl)
  rw [this]
  simp only [docBody, docTail, Block.html, List.append_nil]

example : let items : List Item := [⟨[], .bullet, (c!"a").map .chr⟩, ⟨c!"#*", .number, (c!"b").map .chr⟩, ⟨c!"*", .bullet, (c!"c").map .chr⟩]
    items.all (Item.ok {}) = true ∧ items.map Item.line = [c!"* a", c!"#*# b", c!"** c"] := by decide +kernel
example : listHtml {} ⟨[], .bullet, (c!"a").map .chr⟩ [⟨c!"#*", .number, (c!"b").map .chr⟩, ⟨c!"*", .bullet, (c!"c").map .chr⟩] =
    c!"<ul>\n\t<li>a\n\t\t<ol>\n\t\t\t<li>b\n\t<ul>\n\t\t<li>c</li>\n\t</ul></li>\n\t\t</ol></li>\n</ul>" := by decide +kernel

/-- **C15.** If every item has as many marks as there are lists around it, then the lists are nested as the items are. -/
theorem C15_nested (o : Opts) (macros : Macros) (markup : Str) (k : Mark) (bs : List Branch) (trail : List Str) (cx : Ctx) (hcx : ReadWith o macros cx) (hne : bs ≠ [])
    (hok : branchesOk cx 0 bs = true) (htr : trail.all blank = true) (hl : textLines markup = (branchesItems k bs).map Item.line ++ trail) :
    creole2htmlM o macros markup =
      .ok (c!"<" ++ k.tag ++ c!">" ++ branchesHtml cx 0 bs ++ c!"\n</" ++ k.tag ++ c!">", macros) := by
  cases hb : branchesItems k bs with
  | nil =>
    cases bs with
    | nil => exact absurd rfl hne
    | cons b bs => obtain ⟨pre, text, kind, sub⟩ := b; simp [branchesItems, Branch.items] at hb
  | cons i l =>
    have h0 : i.level = 0 := by
      cases bs with
      | nil => exact absurd rfl hne
      | cons b bs =>
        obtain ⟨pre, text, kind, sub⟩ := b
        simp only [branchesItems, Branch.items, List.cons_append, List.cons.injEq] at hb
        simp only [branchesOk, Branch.ok, Bool.and_eq_true, beq_iff_eq] at hok
        rw [← hb.1]
        exact hok.1.1.1
    rw [C15_list o macros markup i l trail cx hcx h0 (by rw [← hb]; exact branches_ok bs hok) htr (by rw [hl, hb]), listHtml_branches hok hb]

example : let bs : List Branch := [.mk [] ((c!"a").map .chr) .number [.mk c!"*" ((c!"b").map .chr) .bullet [], .mk c!"#" ((c!"c").map .chr) .bullet []],
      .mk [] [.face .strong ((c!"d").map .chr)] .number []]
    branchesOk {} 0 bs = true ∧ (branchesItems .bullet bs).map Item.line = [c!"* a", c!"*# b", c!"## c", c!"* **d**"] := by decide +kernel

/-- mixed kinds on one level: the second list is put into the first item -/
theorem C15_mixed_kinds : creole2html {} c!"* a\n# b" =
    .ok c!"<ul>\n\t<li>a\n<ol>\n\t<li>b</li>\n</ol></li>\n</ul>" := by decide +kernel

/-- a line without a mark continues the item above; with blog style line breaks nothing separates the two -/
theorem C15_continued : creole2html {} c!"* a\nb" = .ok c!"<ul>\n\t<li>ab</li>\n</ul>" := by decide +kernel

/-- items that begin with two marks are no list -/
theorem C15_two_marks : creole2html {} c!"** b\n* a" = .ok c!"<p>** b</p>\n<ul>\n\t<li>a</li>\n</ul>" := by decide +kernel

/-! ## C16: tables -/

/-- **C16.** With blog style line breaks, rows of cells give one table with a `<tr>` for every row and a `<td>` or
`<th>` for every cell. -/
theorem C16_table (o : Opts) (hb : o.blog = true) (macros : Macros) (markup : Str) (rows : List (List Cell)) (trail : List Str)
    (cx : Ctx) (hcx : ReadWith o macros cx) (hne : rows ≠ []) (hok : ∀ r ∈ rows, r ≠ [] ∧ ∀ c ∈ r, c.ok cx = true) (htr : trail.all blank = true)
    (hl : textLines markup = rows.map rowLine ++ trail) :
    creole2htmlM o macros markup = .ok (c!"<table>\n" ++ rows.flatMap (rowHtml cx) ++ c!"</table>", macros) := by
  have := creole2html_noMac (cx := cx) o macros markup [([], .table rows)] trail (by
    have e : rows.isEmpty = false := by cases rows with | nil => exact absurd rfl hne | cons _ _ => rfl
    have e2 : rows.all (fun r => !r.isEmpty && r.all (Cell.ok cx)) = true := by
      rw [List.all_eq_true]
      intro r hr
      obtain ⟨h1, h2⟩ := hok r hr
      rw [Bool.and_eq_true, List.all_eq_true]
      refine ⟨?_, h2⟩
      cases r with | nil => exact absurd rfl h1 | cons _ _ => rfl
    simp only [docOk, tailOk, Block.ok, e, e2, hb]
    rfl) hcx htr (by rw [hl]; simp [docLines, Block.lines]) (by intro x hx; simp only [List.mem_singleton] at hx; subst hx; rfl)
  rw [this]
  simp only [docBody, docTail, Block.html, List.append_nil]

/-- two rows, with a header cell and blanks around the texts -/
def exampleRows : List (List Cell) :=
  [[.th 0 1 ((c!"A").map .chr) 1, .td 1 ((c!"b").map .chr) 1], [.td 0 [.face .strong ((c!"c").map .chr)] 0, .td 2 [.link c!"u" ((c!"v").map .chr)] 0]]

example : ∀ r ∈ exampleRows, r ≠ [] ∧ ∀ c ∈ r, c.ok {} = true := by decide +kernel
example : exampleRows.map rowLine = [c!"|= A | b |", c!"|**c**|  [[u|v]]|"] ∧ exampleRows.flatMap (rowHtml {}) =
    c!"<tr>\n\t<th>A</th>\n\t<td>b</td>\n</tr>\n<tr>\n\t<td><strong>c</strong></td>\n\t<td><a href=\"u\">v</a></td>\n</tr>\n" := by decide +kernel

/-- The same with wiki style line breaks, for a table of one row. -/
theorem C16_row (o : Opts) (macros : Macros) (markup : Str) (row : List Cell) (trail : List Str)
    (cx : Ctx) (hcx : ReadWith o macros cx) (hne : row ≠ []) (hok : ∀ c ∈ row, c.ok cx = true) (htr : trail.all blank = true)
    (hl : textLines markup = rowLine row :: trail) :
    creole2htmlM o macros markup = .ok (c!"<table>\n" ++ rowHtml cx row ++ c!"</table>", macros) := by
  have := creole2html_noMac (cx := cx) o macros markup [([], .table [row])] trail (by
    have hst : startAfter o.blog true [] = .all := by unfold startAfter; simp
    have e : row.isEmpty = false := by cases row with | nil => exact absurd rfl hne | cons _ _ => rfl
    have e2 : row.all (Cell.ok cx) = true := by rw [List.all_eq_true]; exact hok
    simp only [docOk, tailOk, Block.ok, hst, e, e2, List.all_cons, List.all_nil]
    simp) hcx htr (by rw [hl]; simp [docLines, Block.lines]) (by intro x hx; simp only [List.mem_singleton] at hx; subst hx; rfl)
  rw [this]
  simp only [docBody, docTail, Block.html, List.append_nil, List.flatMap_cons, List.flatMap_nil]

/-- a pipe inside a link with text ends a header cell -/
theorem C16_header_link : creole2html {} c!"|=a[[x|y]] | b |" =
    .ok c!"<table>\n<tr>\n\t<th>a[[x</th>\n\t<td>y]]</td>\n\t<td>b</td>\n</tr>\n</table>" := by decide +kernel

/-! ## C56: blocks that are not recognised with wiki style line breaks -/

/-- a heading behind a blank line is a paragraph -/
theorem C56_heading : creole2html { blog := false } c!"a\n\n= h" = .ok c!"<p>a</p>\n\n<p>= h</p>" := by decide +kernel

/-- a heading behind a blank first line is a paragraph -/
theorem C56_first_heading : creole2html { blog := false } c!"\n= a" = .ok c!"<p>= a</p>" := by decide +kernel

/-- preformatted text behind a blank line is a paragraph -/
theorem C56_pre : creole2html { blog := false } c!"a\n\n{{{\nx\n}}}" = .ok c!"<p>a</p>\n\n<p>{{{ x }}}</p>" := by decide +kernel

/-- the second row of a table is a paragraph -/
theorem C56_second_row : creole2html { blog := false } c!"|a|\n|b|" =
    .ok c!"<table>\n<tr>\n\t<td>a</td>\n</tr>\n</table>\n<p>|b|</p>" := by decide +kernel

/-- a list behind a heading is a paragraph -/
theorem C56_list : creole2html { blog := false } c!"= a\n* b" = .ok c!"<h1>a</h1>\n<p>* b</p>" := by decide +kernel

end Verif.Props
