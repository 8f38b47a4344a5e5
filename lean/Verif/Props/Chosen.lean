import Verif.Creole.ChosenLeft
import Verif.Creole.ChosenKinds
import Verif.Props.Structure
import Verif.Props.Kept

/-!
# C97: converting with chosen block rules
-/

namespace Verif.Props

open Verif Py Creole Spec Spec.Hd Spec.Gr Spec.Ch Spec.Kp

/-- a conversion with rules of which none is given twice -/
theorem rules_eq {rules : List BRule} (hn : (rules.map BRule.name).Nodup) {o : Opts} {macros : Macros} {markup : Str} {d : Creole.Doc}
    (h : parseRules rules markup = .ok d) :
    creole2htmlRules rules o macros markup = match emitDoc o.verbose o.strict d macros with
      | .error e => .error (.raised e)
      | .ok x => .ok x := by
  unfold creole2htmlRules
  rw [if_pos ((groups_nodup rules).mpr hn)]
  simp only [h]
  cases emitDoc o.verbose o.strict d macros <;> rfl

/-- **C97, the default.**  With the rules of `BlockRules(blog_line_breaks=...)` the conversion is the usual one. -/
theorem C97_default (o : Opts) (macros : Macros) (markup : Str) :
    creole2htmlRules (BRule.defaults o.blog) o macros markup =
      match creole2htmlM o macros markup with
      | .ok x => .ok x
      | .error e => .error (.raised e) := by
  have hp : parseRules (BRule.defaults o.blog) markup = parse o.blog markup := rfl
  unfold creole2htmlRules
  rw [if_pos ((groups_nodup _).mpr (by simp [BRule.defaults, BRule.name])), hp]
  unfold creole2htmlM
  cases hr : parse o.blog markup with
  | error e => rfl
  | ok d =>
    rw [ok_bind]
    dsimp only
    cases emitDoc o.verbose o.strict d macros <;> rfl

/-- **C97, rules given twice.**  If a rule is given twice (also the two forms of the text rule) every conversion fails with
`re.error`; and this exception never occurs otherwise. -/
theorem C97_twice (rules : List BRule) (o : Opts) (macros : Macros) (markup : Str) :
    creole2htmlRules rules o macros markup = .error .reError ↔ ¬ (rules.map BRule.name).Nodup := by
  unfold creole2htmlRules
  by_cases hn : (rules.map BRule.name).Nodup
  · rw [if_pos ((groups_nodup rules).mpr hn)]
    simp only [hn, not_true_eq_false, iff_false]
    split
    · simp
    · split <;> simp
  · rw [if_neg (fun h => hn ((groups_nodup rules).mp h))]
    simp [hn]

/-- **C97, no exceptions.**  With any choice of rules in any order, none of them twice, a text that does not call the macro `toc`
is converted. -/
theorem C97_total (rules : List BRule) (hn : (rules.map BRule.name).Nodup) (o : Opts) (markup : Str) (h : mayCall c!"toc" markup = false) :
    ∃ html, creole2htmlRules rules o [] markup = .ok (html, []) := by
  obtain ⟨d, h1, h2, h3⟩ := parseRules_ok (p := InfoOK True) hn (raw := markup)
    (by have := allows_infoOK True; exact { this with macros := fun nm _ => this.macros nm trivial })
  have hu : d.used.contains c!"toc" = false := by
    cases hc : d.used.contains c!"toc" with
    | false => rfl
    | true =>
      have := h3 c!"toc" (by simpa using hc)
      rw [normNewlines, crlf_eq] at this
      rw [called_crlf (by decide) (by decide) this] at h
      cases h
  have := emitDoc_noToc (verbose := o.verbose) (strict := o.strict) (macros := []) (Inv := fun ms => ms = [])
    (E := fun _ => False) h2 hu (by
      rintro i ms rfl; exact macroEmit_nil i) rfl
  rw [rules_eq hn h1]
  cases hr : emitDoc o.verbose o.strict d [] with
  | error e => rw [hr] at this; exact absurd this id
  | ok x =>
    obtain ⟨html, ms⟩ := x
    rw [hr] at this
    cases (show ms = [] from this)
    exact ⟨html, rfl⟩

/-- a parsed text without `<<` -/
theorem rules_parsed {rules : List BRule} (hn : (rules.map BRule.name).Nodup) {markup : Str} (h : ¬ c!"<<" <:+: markup) :
    ¬ c!"<<" <:+: normNewlines markup ∧
    ∃ d, parseRules rules markup = .ok d ∧ d.root.All (InfoOK False) ∧ d.used.contains c!"toc" = false := by
  have hno : ¬ c!"<<" <:+: normNewlines markup := fun hc => h (by
    rw [normNewlines, crlf_eq] at hc
    exact infix_of_infix_crlf (by decide) hc)
  obtain ⟨d, h1, h2, h3⟩ := parseRules_ok (p := InfoOK False) hn (raw := markup)
    (by have := allows_infoOK False; exact { this with macros := fun _ hc => absurd hc.mark hno })
  refine ⟨hno, d, h1, h2, ?_⟩
  cases hc : d.used.contains c!"toc" with
  | false => rfl
  | true => exact absurd (h3 _ (by simpa using hc)).mark hno

/-- **C97, safety.**  In strict mode the HTML of a text without `<<` is safe, with any choice of rules. -/
theorem C97_safe (rules : List BRule) (hn : (rules.map BRule.name).Nodup) (blog : Bool) (verbose : Int) (macros : Macros) (markup : Str)
    (h : ¬ c!"<<" <:+: markup) :
    ∃ html, creole2htmlRules rules { blog, verbose, strict := true } macros markup = .ok (html, macros) ∧ SafeHtml html := by
  obtain ⟨hno, d, h1, h2, hu⟩ := rules_parsed hn h
  have hg : Good (fun m => m = macros) (fun _ => False) (emitDoc verbose true d macros) := by
    unfold emitDoc
    simp only [hu, Bool.false_and, Bool.false_eq_true, if_false]
    have := emitNode_good (mac := False) (Inv := fun m => m = macros) (E := fun _ => False)
      (env := { verbose, strict := true, useToc := false })
      (fun i ms hm _ => hm.elim) (fun n s ms h => headerEmit_noToc rfl _ _ _ h) d.root { kind := .document } macros
      trivial h2 rfl
    cases hr : emitNode { verbose, strict := true, useToc := false } { kind := .document } d.root macros with
    | error e => rw [hr] at this; exact this
    | ok x => rw [hr] at this; exact this
  rw [rules_eq hn h1]
  cases hr : emitDoc verbose true d macros with
  | error e => rw [hr] at hg; exact absurd hg id
  | ok x =>
    obtain ⟨html, ms⟩ := x
    rw [hr] at hg
    cases (show ms = macros from hg)
    exact ⟨html, rfl, emitDoc_safe (Inv := fun _ => True) h2 hu (fun _ _ hf => hf.elim) trivial hr⟩

/-- **C97, nothing is lost.**  If the text rule is among the rules then all characters of a text without `<<` can be read in the
HTML, in their order, and nothing else (apart from blanks and the characters markup is made of), if there are no links and no
pictures: without a rule its markup is shown as text. -/
theorem C97_letters_kept (rules : List BRule) (hn : (rules.map BRule.name).Nodup) (blog : Bool) (ht : BRule.text blog ∈ rules) (o : Opts)
    (macros : Macros) (markup : Str) (h : ¬ c!"<<" <:+: markup) :
    ∃ html ms, creole2htmlRules rules o macros markup = .ok (html, ms) ∧
      (¬ c!"<a href=" <:+: html → ¬ c!"<img src=" <:+: html → letters (reading html) = letters markup) := by
  obtain ⟨hno, d, h1, h2, hu⟩ := rules_parsed hn h
  have hk := parseRules_letters hn ht hno h1
  rw [normNewlines, crlf_eq, crlf_letters] at hk
  have hg := emitNode_good (mac := False) (Inv := fun _ => True) (E := fun _ => False)
    (env := { verbose := o.verbose, strict := o.strict, useToc := false })
    (fun i ms h => h.elim) (fun n s ms h => headerEmit_noToc rfl _ _ _ h) d.root { kind := .document } macros
    trivial h2 trivial
  cases hr : emitNode { verbose := o.verbose, strict := o.strict, useToc := false } { kind := .document } d.root macros with
  | error e => rw [hr] at hg; exact hg.elim
  | ok x =>
    obtain ⟨s, ms⟩ := x
    refine ⟨strip s, ms, ?_, fun ha hi => ?_⟩
    · rw [rules_eq hn h1]
      unfold emitDoc
      simp only [hu, Bool.false_and, Bool.false_eq_true, if_false, hr, ok_bind]
      rfl
    · have hd : ∀ K : Char → Bool, (∀ c, K c = true → keeps c = true) → Renders K o.strict d.root.shown s := fun K hK =>
        emitNode_renders hK (env := { verbose := o.verbose, strict := o.strict, useToc := false }) rfl d.root _ macros s ms h2 hr
      have hm : medium ∉ d.root.shown := by
        intro hm
        rcases HasMedia.strip ((hd keeps fun _ h => h).media hm) with h | h
        · exact ha h
        · exact hi h
      obtain ⟨v, b1, b2, b3⟩ := (hd keeps fun _ h => h).read (.inl hm)
      have := b1 []
      rw [List.append_nil, show reading [] = [] from rfl, List.append_nil] at this
      rw [letters_reading_strip, this, b3 hm, hk.same hm]

/-- **C97, rules that are not needed.**  A rule may be left out if the text has nothing the rule is made for; the result is the same
for all options, all macros, and whatever the other rules are. -/
theorem C97_left_out (l₁ l₂ : List BRule) (r : BRule) (hn : ((l₁ ++ r :: l₂).map BRule.name).Nodup) (o : Opts) (macros : Macros)
    (markup : Str) (h : ¬ Needs r markup) :
    creole2htmlRules (l₁ ++ r :: l₂) o macros markup = creole2htmlRules (l₁ ++ l₂) o macros markup := by
  have hn' : ((l₁ ++ l₂).map BRule.name).Nodup := by
    refine hn.sublist (List.Sublist.map _ ?_)
    exact List.Sublist.append (List.Sublist.refl _) (List.sublist_cons_self _ _)
  unfold creole2htmlRules
  rw [if_pos ((groups_nodup _).mpr hn), if_pos ((groups_nodup _).mpr hn'), parseRules_left hn h]

/-- the pieces of a node at the top of the document -/
theorem from_ht {rules : List BRule} {q : Src} {strict : Bool} {p : Info} {n : Node} (hb : n.info.kind.block = true) (hs : n.Sound q)
    (hp : n.info.kind = .document ∨ inlineKind n.info.kind = true ∨ ∃ r ∈ rules, n.info.kind ∈ r.kinds) :
    ∀ x ∈ ht strict p n, From rules x := by
  obtain ⟨i, cs⟩ := n
  have hg : i.good q := by cases hs; assumption
  simp only [Node.info] at hb hp
  have hp' : ∃ r ∈ rules, i.kind ∈ r.kinds := by
    rcases hp with h | h | h
    · rw [h] at hb; cases hb
    · revert hb h
      cases i.kind <;> simp [Kind.block, inlineKind]
    · exact h
  obtain ⟨r, hr, hk⟩ := hp'
  intro x hx
  rw [ht] at hx
  have key : ∀ tag, makes r tag = true → ∃ r ∈ rules, makes r tag = true := fun tag h => ⟨r, hr, h⟩
  have htabs : ∀ n, (tabs n).all isSpace = true := by
    intro n
    unfold tabs
    rw [List.all_eq_true]
    intro c hc
    rw [List.eq_of_mem_replicate hc]
    decide
  cases hkd : i.kind <;> rw [hkd] at hb hk hx <;> simp only [Kind.block, Bool.false_eq_true] at hb <;>
    cases r <;> simp only [BRule.kinds, List.mem_cons, List.not_mem_nil, or_false, reduceCtorEq, or_self] at hk
  all_goals try simp only [listHt, List.mem_append, List.mem_cons, List.not_mem_nil, or_false] at hx
  case paragraph.text =>
    rcases hx with rfl | rfl
    · exact key _ rfl
    · rfl
  case separator.separator =>
    rcases hx with rfl | rfl
    · exact key _ rfl
    · rfl
  case table.table =>
    rcases hx with rfl | rfl
    · exact key _ rfl
    · rfl
  case pre_block.pre_block =>
    rcases hx with rfl | rfl
    · exact key _ rfl
    · rfl
  case line.line =>
    cases hx
    rfl
  case header.head =>
    rcases hx with rfl | rfl
    · refine key _ ?_
      unfold Info.good at hg
      rw [hkd] at hg
      obtain ⟨s, n, _, hl⟩ := hg
      rw [hl]
      exact isHeading_level (Nat.succ_pos n)
    · rfl
  case number_list.list =>
    rcases hx with hx | rfl | rfl
    · split at hx
      · cases hx
      · rw [List.mem_singleton] at hx
        subst hx
        rfl
    · exact htabs _
    · exact key _ rfl
  case bullet_list.list =>
    rcases hx with hx | rfl | rfl
    · split at hx
      · cases hx
      · rw [List.mem_singleton] at hx
        subst hx
        rfl
    · exact htabs _
    · exact key _ rfl

/-- **C97, elements.**  The HTML of a text without `<<` is structured, and each element at its top stems from one of the rules: for
example there are no headings without the rule for headings. -/
theorem C97_elements (rules : List BRule) (hn : (rules.map BRule.name).Nodup) (o : Opts) (macros : Macros) (markup : Str)
    (h : ¬ c!"<<" <:+: markup) (hp : o.strict = true ∨ ¬ MayLackTitle markup ∨ ∀ c ∈ markup, marked c = false) :
    ∃ l, creole2htmlRules rules o macros markup = .ok (written l, macros) ∧ fineL .doc l = true ∧ ∀ x ∈ l, From rules x := by
  obtain ⟨hno, d, h1, h2, hu⟩ := rules_parsed hn h
  obtain ⟨q, hq1, hq2, hq3⟩ := plain_src hp
  obtain ⟨hs, hk⟩ := parseRules_sound hn hq1 hq2 h1
  have hkd := parseRules_kinds hn h1
  have he := emitNode_ht (env := { verbose := o.verbose, strict := o.strict, useToc := false }) hq3 rfl d.root { kind := .document } macros
    hs h2 trivial
  have hf : fineL .doc (ht o.strict { kind := .document } d.root) = true ∧ ∀ x ∈ ht o.strict { kind := .document } d.root, From rules x := by
    cases hd : d.root with
    | mk i cs =>
      rw [hd] at hs hk hkd
      cases hs with
      | mk hg hun hch =>
      have hk : i.kind = .document := hk
      have := fine_htL (strict := o.strict) cs i hch fun n hn => (hun n hn).takes
      rw [hk] at this
      rw [ht]
      simp only [hk]
      refine ⟨this, ?_⟩
      have hcs : ∀ n ∈ cs, ∀ x ∈ ht o.strict i n, From rules x := by
        intro n hn
        have hb : n.info.kind.block = true := by
          have := (hun n hn).takes
          rw [hk] at this
          exact this
        refine from_ht hb (hch n hn) ?_
        have := hkd.children n hn
        obtain ⟨j, cs'⟩ := n
        exact this.info
      clear this hch hun hkd hd
      induction cs with
      | nil => intro x hx; cases hx
      | cons n cs ih =>
        intro x hx
        rw [htL, List.mem_append] at hx
        rcases hx with hx | hx
        · exact hcs n (by simp) x hx
        · exact ih hk (fun n hn => hcs n (by simp [hn])) x hx
  obtain ⟨w, l, w', h4, h5, h6, h7⟩ := strip_fine hf.1
  refine ⟨l, ?_, ?_, ?_⟩
  · rw [rules_eq hn h1]
    unfold emitDoc
    simp only [hu, Bool.false_and, Bool.false_eq_true, if_false]
    rw [he]
    show Except.ok (strip _, macros) = _
    rw [h7]
  · have hf := hf.1
    rw [h4, fineL_append, fineL_append, Bool.and_eq_true, Bool.and_eq_true] at hf
    exact hf.1.2
  · intro x hx
    exact hf.2 x (by rw [h4]; simp [hx])

/-! ## Examples and limits -/

/-- the HTML with some rules -/
def htmlOf (rules : List BRule) (markup : Str) : Option Str :=
  match creole2htmlRules rules {} [] markup with
  | .ok x => some x.1
  | .error _ => none

/-- a choice of rules in another order, and a text with the marks of all rules -/
example : ([BRule.table, .text false, .line, .list].map BRule.name).Nodup ∧ ¬ c!"<<" <:+: c!"= a\n----\n* b\n\n|c|\n{{{\nd\n}}}" ∧
    mayCall c!"toc" c!"= a\n----\n* b\n\n|c|\n{{{\nd\n}}}" = false ∧
    htmlOf [.table, .text false, .line, .list] c!"= a\n----\n* b\n\n|c|\n{{{\nd\n}}}" =
      some c!"<p>= a ---- * b</p>\n<table>\n<tr>\n\t<td>c</td>\n</tr>\n</table>\n<p>{{{ d }}}</p>" := by
  decide +kernel

/-- the rule for headings is not needed for a text in which `=` only stands within lines; the others are -/
example : ¬ Needs .head c!"a = b\n* c\r\n ---- " ∧ Needs .list c!"a = b\n* c\r\n ---- " ∧ Needs .separator c!"a = b\n* c\r\n ---- " ∧
    ¬ Needs .line c!"a = b\n* c\r\n ---- " ∧ ¬ Needs .pre_block c!"{{{a}}}" ∧ Needs .pre_block c!"{{{ \na\n}}}" := by
  refine ⟨?_, ?_, ?_, ?_, ?_, ?_⟩ <;> simp [Needs, textLines, after] <;> decide

/-- Without the text rule other text is lost; of two rules that match the one given first is used; without rules there is no
HTML; the same rule twice is an error. -/
theorem C97_limits :
    htmlOf [.head, .list] c!"= a\nb\n* c" = some c!"<h1>a</h1>\n<ul>\n\t<li>c</li>\n</ul>" ∧
    htmlOf [.head, .text true] c!"= a\nb" = some c!"<h1>a</h1>\n<p>b</p>" ∧
    htmlOf [.text true, .head] c!"= a\nb" = some c!"<p>= a<br />\nb</p>" ∧
    htmlOf [] c!"a" = some [] ∧
    creole2htmlRules [.text true, .text false] {} [] c!"a" = .error .reError :=
  ⟨by decide +kernel, by decide +kernel, by decide +kernel, by decide +kernel, (C97_twice _ _ _ _).mpr (by decide)⟩

end Verif.Props
