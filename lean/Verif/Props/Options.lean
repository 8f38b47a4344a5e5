import Verif.Props.Kept

/-!
# C82: what the options of creole2html are about
-/

namespace Verif.Props

open Verif Py Creole Spec

/-! ## The emitter -/

/-- the beginning of a picture in HTML -/
def imgMark : Str := c!"<img src="

theorem infix_listEmit (k : Kind) (n : Nat) (tag : Str) (b : Bool) (s : Str) : s <:+: listEmit k n tag b s := by
  unfold listEmit
  cases b with
  | true => exact ⟨(if k = .document then [] else c!"\n") ++ tabs n ++ c!"<" ++ tag ++ c!">", c!"</" ++ tag ++ c!">", by simp⟩
  | false => exact ⟨(if k = .document then [] else c!"\n") ++ tabs n ++ c!"<" ++ tag ++ c!">", '\n' :: tabs n ++ c!"</" ++ tag ++ c!">", by simp⟩

theorem infix_typeface (tag s : Str) : s <:+: typeface tag s := by
  unfold typeface
  exact ⟨c!"<" ++ tag ++ c!">", c!"</" ++ tag ++ c!">", by simp⟩

theorem infix_imageEmit (env : Env) (x y : Str) : imgMark <:+: imageEmit env x y := by
  unfold imageEmit imgOpen imgMark
  dsimp only
  split
  · exact ⟨[], _, by simp only [List.nil_append, List.append_assoc]; rfl⟩
  · split
    · exact ⟨[], _, by simp only [List.nil_append, List.append_assoc]; rfl⟩
    · exact ⟨[], _, by simp only [List.nil_append, List.append_assoc]; rfl⟩

/-- the same text for other options and macros -/
def Same (env env' : Env) (r : EM) (r' : Macros → EM) : Prop :=
  ∀ s ms, r = .ok (s, ms) → env.strict = env'.strict ∨ ¬ imgMark <:+: s → ∀ ms', r' ms' = .ok (s, ms')

theorem Same.emap {env env' : Env} {r : EM} {r' : Macros → EM} (h : Same env env' r r') {f : Str → Str} (hf : ∀ s, s <:+: f s) :
    Same env env' (emap f r) fun ms => Creole.emap f (r' ms) := by
  intro s ms hr hs ms'
  cases hr' : r with
  | error e => rw [hr'] at hr; cases hr
  | ok x =>
    obtain ⟨t, m⟩ := x
    rw [hr'] at hr
    cases hr
    have := h t ms hr' (hs.imp id fun hn hi => hn (hi.trans (hf t))) ms'
    dsimp only
    rw [this]
    rfl

theorem Same.text {env env' : Env} (r : Except PyErr Str) (ms : Macros) : Same env env' (pureText r ms) fun ms => pureText r ms := by
  intro s m hr _ ms'
  cases r with
  | error e => cases hr
  | ok t => cases hr; rfl

mutual
theorem emitNode_same {env env' : Env} (h1 : env.useToc = false) (h2 : env'.useToc = false) : ∀ (n : Node) (p : Info) (ms : Macros),
    n.All (InfoOK False) → Same env env' (emitNode env p n ms) (emitNode env' p n)
  | .mk i cs, p, ms, ha => by
    have hi := emitNodes_same h1 h2 cs i ms ha.children
    have hinfo := ha.info
    have e : emitNode env' p (.mk i cs) = fun ms => emitNode env' p (.mk i cs) ms := rfl
    rw [e]
    simp only [emitNode]
    unfold InfoOK at hinfo
    cases hk : i.kind <;> simp only [hk] at hinfo ⊢
    case document => exact hi
    case text => exact Same.text _ _
    case separator => intro s m hr _ ms'; cases hr; rfl
    case line => intro s m hr _ ms'; cases hr; rfl
    case brk => exact Same.text _ _
    case pre_block => exact Same.text _ _
    case pre_inline => exact Same.text _ _
    case image =>
      cases hc : i.contentE with
      | error e => intro s m hr; cases hr
      | ok t =>
        intro s m hr hs ms'
        cases hr
        rcases hs with hs | hs
        · simp only [pureText, Except.map]
          unfold imageEmit
          rw [hs]
        · exact absurd (infix_imageEmit env t (getText i cs)) hs
    case header =>
      cases hl : i.levelE with
      | error e => intro s m hr; cases hr
      | ok n =>
        cases hc : i.contentE with
        | error e => intro s m hr; cases hr
        | ok t =>
          intro s m hr _ ms'
          dsimp only at hr ⊢
          unfold headerEmit at hr ⊢
          simp only [h1, h2, Bool.false_eq_true, if_false, pure, Except.pure] at hr ⊢
          cases hr
          rfl
    case link =>
      cases hc : i.contentE with
      | error e => intro s m hr; cases hr
      | ok t =>
        dsimp only
        split
        · intro s m hr _ ms'; cases hr; rfl
        · exact hi.emap fun s => ⟨c!"<a href=\"" ++ attrEscape t ++ c!"\">", c!"</a>", by simp⟩
    case bullet_list | number_list | list_item =>
      cases hl : i.levelE with
      | error e => intro s m hr; cases hr
      | ok n => exact hi.emap (infix_listEmit _ _ _ _)
    case emphasis | strong | monospace | superscript | subscript | underline | small | delete => exact hi.emap (infix_typeface _)
    all_goals exact hi.emap fun s => List.infix_append _ s _
theorem emitNodes_same {env env' : Env} (h1 : env.useToc = false) (h2 : env'.useToc = false) : ∀ (ns : List Node) (p : Info) (ms : Macros),
    (∀ n ∈ ns, n.All (InfoOK False)) → Same env env' (emitNodes env p ns ms) (emitNodes env' p ns)
  | [], p, ms, _ => by intro s m hr _ ms'; cases hr; rfl
  | n :: ns, p, ms, ha => by
    intro s m hr hs ms'
    rw [emitNodes] at hr ⊢
    cases hn : emitNode env p n ms with
    | error e => rw [hn] at hr; cases hr
    | ok x =>
      obtain ⟨t, m1⟩ := x
      rw [hn] at hr
      dsimp only at hr
      cases hns : emitNodes env p ns m1 with
      | error e => rw [hns] at hr; cases hr
      | ok y =>
        obtain ⟨u, m2⟩ := y
        rw [hns] at hr
        cases hr
        rw [emitNode_same h1 h2 n p ms (ha n (by simp)) t m1 hn (hs.imp id fun hx hi => hx (hi.trans (List.prefix_append _ _).isInfix)) ms']
        dsimp only
        rw [emitNodes_same h1 h2 ns p m1 (fun x hx => ha x (by simp [hx])) u m hns (hs.imp id fun hx hi => hx (hi.trans (List.suffix_append _ _).isInfix)) ms']
end

/-! ## The theorems -/

/-- **C82.**  The HTML of a text without `<<` depends neither on `verbose` nor on the macros, which stay the same; and if there
is no picture in it, not on `strict` either. -/
theorem C82_options (o : Opts) (markup : Str) (h : ¬ c!"<<" <:+: markup) : ∃ html, ∀ (verbose : Int) (strict : Bool) (macros : Macros),
    strict = o.strict ∨ ¬ c!"<img src=" <:+: html → creole2htmlM { o with verbose, strict } macros markup = .ok (html, macros) := by
  have hno : ¬ c!"<<" <:+: normNewlines markup := by
    intro hi
    rw [normNewlines, crlf_eq] at hi
    exact h (infix_of_infix_crlf (by decide) hi)
  obtain ⟨d, h1, h2, h3⟩ := parse_ok (p := InfoOK False) (blog := o.blog) (raw := markup)
    (by have := allows_infoOK False; exact { this with macros := fun _ hm => absurd hm.mark hno })
  have hu : d.used.contains c!"toc" = false := by
    cases hc : d.used.contains c!"toc" with
    | false => rfl
    | true => exact absurd (h3 c!"toc" (by simpa using hc)).mark hno
  have hg := emitNode_good (mac := False) (Inv := fun _ => True) (E := fun _ => False)
    (env := { verbose := o.verbose, strict := o.strict, useToc := false })
    (fun i ms h => h.elim) (fun n s ms h => headerEmit_noToc rfl _ _ _ h) d.root { kind := .document } []
    trivial h2 trivial
  cases hr : emitNode { verbose := o.verbose, strict := o.strict, useToc := false } { kind := .document } d.root [] with
  | error e => rw [hr] at hg; exact hg.elim
  | ok x =>
    obtain ⟨s, ms⟩ := x
    refine ⟨strip s, fun verbose strict macros hs => ?_⟩
    have := emitNode_same (env' := { verbose, strict, useToc := false }) rfl rfl d.root _ [] h2 s ms hr
      (hs.imp Eq.symm fun hn hi => hn (infix_strip ⟨'<', _, rfl, by decide +kernel⟩ ⟨'=', _, rfl, by decide +kernel⟩ hi)) macros
    unfold creole2htmlM
    rw [h1, ok_bind]
    unfold emitDoc
    simp only [hu, Bool.false_and, Bool.false_eq_true, if_false, this, ok_bind]
    rfl

/-- a text that meets the hypothesis, with a list, a link and preformatted text -/
example : ¬ c!"<<" <:+: c!"* [[a|b]] **c\n{{{\n<d>\n}}}" ∧
    creole2html {} c!"* [[a|b]] **c\n{{{\n<d>\n}}}" = .ok c!"<ul>\n\t<li><a href=\"a\">b</a> **c</li>\n</ul><pre>\n&lt;d&gt;\n</pre>" ∧
    ¬ c!"<img src=" <:+: c!"<ul>\n\t<li><a href=\"a\">b</a> **c</li>\n</ul><pre>\n&lt;d&gt;\n</pre>" := by
  decide +kernel

/-- Pictures depend on `strict`, and macros on `verbose`. -/
theorem C82_limits :
    creole2html {} c!"{{a|b|1x2}}" = .ok c!"<p><img src=\"a\" title=\"b\" alt=\"b\" width=\"1\" height=\"2\" /></p>" ∧
    creole2html { strict := true } c!"{{a|b|1x2}}" = .ok c!"<p><img src=\"a\" title=\"b|1x2\" alt=\"b|1x2\" /></p>" ∧
    creole2html {} c!"<<a>>" = .ok c!"<p>[Error: Macro 'a' doesn't exist]\n</p>" ∧
    creole2html { verbose := 0 } c!"<<a>>" = .ok c!"<p></p>" := by
  decide +kernel

end Verif.Props
