import Verif.Props.Contents
import Verif.Props.Macros

/-!
# C85: conversions that share a dict of macros
-/

namespace Verif.Props

open Verif Py Creole Spec Spec.Cr

theorem laid_usual {verbose : Int} {b b' : Option Board} {ms ms' : Macros} {l : List Spot} {s : Str} (h : Laid verbose b ms l s b' ms')
    (hp : ∀ n t, .head n t ∈ l → 1 ≤ n) (hn : NoTocs ms) (hk : dictGet toc ms = none) (hb : ∀ x, b = some x → Usual x) :
    (∀ x, b' = some x → Usual x) ∧ NoTocs ms' ∧ dictGet toc ms' = none := by
  have hf := h.fit (u := b.isSome) ⟨rfl, hn, hk, fun x hx => (hb x hx).depth⟩
  exact ⟨fun x hx => ⟨laid_heads h hp (fun y hy => (hb y hy).heads) x hx, hf.depth x hx⟩, hf.noTocs, hf.noKey⟩

/-- **C85.**  Every text is a text with places; when texts are converted one after the other with the same dict of macros, the places
of the first, of the second, ... are filled from left to right.  The macros keep their states, and the object of the table of contents
made for the first text that calls `toc` is used again, as it is, for all later ones that call `toc`. -/
theorem C85_shared (o : Opts) :
    ∃ page : Str → List Spot, (∀ text, HasSpotsIn o text (page text)) ∧
      ∀ (verbose : Int) (macros : Macros), NoTocs macros → dictGet toc macros = none →
        ∀ (texts htmls : List Str) (macros' : Macros), history { o with verbose } texts macros = (htmls.map .ok, macros') ↔
          ∃ left ms, Shared verbose none macros (texts.map page) htmls left ms ∧ macros' = stored left ms := by
  refine ⟨fun t => (laid_shared o t).choose, fun t => (laid_shared o t).choose_spec.2.2.1, ?_⟩
  intro v macros hn hk texts
  suffices hall : ∀ (left : Option Board) (ms : Macros), NoTocs ms → dictGet toc ms = none → (∀ b, left = some b → Usual b) →
      ∀ (htmls : List Str) (macros' : Macros), history { o with verbose := v } texts (stored left ms) = (htmls.map .ok, macros') ↔
        ∃ left' ms', Shared v left ms (texts.map fun t => (laid_shared o t).choose) htmls left' ms' ∧ macros' = stored left' ms' from
    hall none macros hn hk (by simp)
  clear hn hk macros
  induction texts with
  | nil =>
    intro left ms _ _ _ htmls macros'
    constructor
    · intro h
      simp only [history, Prod.mk.injEq] at h
      obtain ⟨h1, rfl⟩ := h
      have : htmls = [] := by
        cases htmls with
        | nil => rfl
        | cons x l => cases h1
      subst this
      exact ⟨left, ms, .nil, rfl⟩
    · rintro ⟨left', ms', h, rfl⟩
      cases h
      rfl
  | cons t texts ih =>
    intro left ms hn hk hl htmls macros'
    obtain ⟨-, hp, hs, -⟩ := (laid_shared o t).choose_spec
    generalize hg : (laid_shared o t).choose = spots at hp hs
    have hs := fun html X => hs v left ms X html hn hk hl
    have hstart : ∀ b, (if callsToc spots then some (left.getD {}) else none) = some b → Usual b := by
      intro b hb
      split at hb
      · cases hb
        cases left with
        | none => exact usual_new
        | some b => exact hl b rfl
      · cases hb
    have hnext : ∀ {board : Option Board}, (∀ b, board = some b → Usual b) → ∀ b, board.or left = some b → Usual b := by
      intro board h b hb
      cases board with
      | none => exact hl b hb
      | some x => exact h b hb
    rw [List.map_cons, hg]
    constructor
    · intro h
      unfold history at h
      cases hr : creole2htmlM { o with verbose := v } (stored left ms) t with
      | error e =>
        rw [hr] at h
        simp only [Prod.mk.injEq] at h
        cases htmls with
        | nil => cases h.1
        | cons x l => cases h.1
      | ok x =>
        obtain ⟨html, m1⟩ := x
        rw [hr] at h
        obtain ⟨s, board, ms1, g1, g2, rfl⟩ := (hs html m1).mp hr
        obtain ⟨u1, u2, u3⟩ := laid_usual g1 hp hn hk hstart
        simp only [Prod.mk.injEq] at h
        obtain ⟨h1, h2⟩ := h
        cases htmls with
        | nil => cases h1
        | cons x l =>
          simp only [List.map_cons, List.cons.injEq, Except.ok.injEq] at h1
          obtain ⟨rfl, h1⟩ := h1
          obtain ⟨left', ms', g3, rfl⟩ := (ih (board.or left) ms1 u2 u3 (hnext u1) l macros').mp (Prod.ext h1 h2)
          exact ⟨left', ms', .cons g1 g2 g3, rfl⟩
    · rintro ⟨left', ms', h, rfl⟩
      cases h with
      | cons g1 g2 g3 =>
        rename_i board ms1 s html htmls
        obtain ⟨u1, u2, u3⟩ := laid_usual g1 hp hn hk hstart
        have hr := (hs html _).mpr ⟨s, board, ms1, g1, g2, rfl⟩
        have := (ih (board.or left) ms1 u2 u3 (hnext u1) htmls _).mpr ⟨left', ms', g3, rfl⟩
        unfold history
        rw [hr]
        simp only [this, List.map_cons]

/-! ## A macro `toc` of the caller's own -/

/-- `toc` is a callable of the caller's -/
def OwnToc (ms : Macros) : Prop := ∃ m, dictGet toc ms = some m ∧ ∀ t, m ≠ .toc t

theorem macroEmit_own {env : Env} {ms : Macros} (h : OwnToc ms) (i : Info) : Good OwnToc (fun _ => True) (macroEmit env i ms) := by
  unfold macroEmit
  simp only
  cases hs : string2dict i.macroArgs with
  | error e => rw [string2dict_err hs]; exact h
  | ok kw =>
    simp only
    cases hm : dictGet i.macroName ms with
    | none => exact h
    | some m =>
      have key : OwnToc (callMacro i.macroName m (dictSet c!"text" (optVal i.content) kw) ms).2 := by
        cases m with
        | fn f => exact h
        | obj p f =>
          obtain ⟨m', h1, h2⟩ := h
          refine ⟨m'.record (i.macroName, dictSet c!"text" (optVal i.content) kw), ?_, ?_⟩
          · simp only [callMacro]
            rw [dictGet_record, h1]
            rfl
          · intro t
            cases m' with
            | toc t => exact absurd rfl (h2 t)
            | fn f => simp [Macro.record]
            | obj p f => simp [Macro.record]
        | toc t =>
          have hne : toc ≠ i.macroName := by
            rintro e
            obtain ⟨m', h1, h2⟩ := h
            rw [e, hm] at h1
            cases h1
            exact h2 t rfl
          simp only [callMacro]
          split
          · exact h
          · obtain ⟨m', h1, h2⟩ := h
            exact ⟨m', by rw [dictGet_dictSet_ne hne]; exact h1, h2⟩
      cases hcall : callMacro i.macroName m (dictSet c!"text" (optVal i.content) kw) ms with
      | mk out ms' =>
        rw [hcall] at key
        simp only [hcall]
        cases out with
        | typeError msg => simp only; split <;> trivial
        | baseExc => trivial
        | _ => exact key

/-- **C85.**  If the caller has a macro `toc` of their own, no text that calls it can be converted. -/
theorem C85_own_toc (o : Opts) (markup : Str) : ∃ spots, HasSpotsIn o markup spots ∧ (callsToc spots = true →
    ∀ (verbose : Int) (macros : Macros), OwnToc macros → ∃ e, creole2htmlM { o with verbose } macros markup = .error e) := by
  obtain ⟨spots, -, hp, hs, hu⟩ := laid_shared o markup
  refine ⟨spots, hs, ?_⟩
  intro hc v macros hm
  obtain ⟨d, h1, h2, -⟩ := parse_ok (p := InfoOK True) (blog := o.blog) (raw := markup)
    (by have := allows_infoOK True; exact { this with macros := fun nm _ => this.macros nm trivial })
  have hu := hu d h1
  rw [hc] at hu
  obtain ⟨m, hm1, hm2⟩ := hm
  have hg : Good OwnToc (fun _ => True) (emitNode { verbose := v, strict := o.strict, useToc := true } { kind := .document } d.root macros) := by
    refine emitNode_good (mac := True) (fun i ms _ h => macroEmit_own h i) ?_ d.root _ macros trivial h2 ⟨m, hm1, hm2⟩
    rintro n s ms ⟨m, hm1, hm2⟩
    unfold headerEmit
    simp only [if_true]
    rw [show c!"toc" = toc from rfl, hm1]
    cases m with
    | toc t => exact absurd rfl (hm2 t)
    | fn f => trivial
    | obj p f => trivial
  unfold creole2htmlM emitDoc
  simp only [h1, ok_bind]
  rw [show c!"toc" = toc from rfl, ← hu, hm1]
  simp only [Option.isNone_some, Bool.and_false, Bool.false_eq_true, if_false, if_true]
  cases hr : emitNode { verbose := v, strict := o.strict, useToc := true } { kind := .document } d.root macros with
  | error e => exact ⟨e, rfl⟩
  | ok x =>
    obtain ⟨s, ms⟩ := x
    rw [hr] at hg
    obtain ⟨m', g1, g2⟩ := hg
    simp only [ok_bind]
    rw [g1]
    cases m' with
    | toc t => exact absurd rfl (g2 t)
    | fn f => exact ⟨_, rfl⟩
    | obj p f => exact ⟨_, rfl⟩

/-! ## Cases -/

/-- the second text has no table of contents; the third, which does not call `toc`, is not concerned -/
example : (history {} [c!"<<toc>>\n= a", c!"<<toc>>\n= b", c!"= c"] []).1 =
    [.ok c!"<ul>\n\t<li><a href=\"#a\">a</a></li>\n</ul>\n<a name=\"a\"><h1>a</h1></a>",
      .ok c!"<p>&lt;&lt;toc&gt;&gt;</p>\n<a name=\"b\"><h1>b</h1></a>", .ok c!"<h1>c</h1>"] := by decide +kernel

/-- a depth that is not a number also spoils the texts that follow -/
example : (history {} [c!"<<toc depth=\"x\">>", c!"= a\n<<toc>>"] []).1 =
    [.ok c!"<ul>\n</ul>", .error (.typeError c!"'<=' not supported between instances of 'int' and 'str'")] := by decide +kernel

/-- an own `toc` -/
def ownToc : Macros := [(toc, .fn fun _ => .ret c!"contents")]

example : OwnToc ownToc := ⟨_, rfl, by simp⟩

example : (creole2htmlM {} ownToc c!"<<toc>>").map (·.1) = .error .attributeError := by decide +kernel

end Verif.Props
