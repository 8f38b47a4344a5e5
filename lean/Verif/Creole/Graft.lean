import Verif.Creole.ParserLemmas

/-!
# The parser does not look at what is finished

The nodes already collected below the document have no influence on how the text after them is read, except that a
line break at their end would be taken away.  `Rel base us st st'` : the state `st'` is `st` with the nodes `base` put
before the nodes of the document and the names `us` added to the used macros.  All methods of the parser keep this
relation.
-/

namespace Verif.Creole

open Verif

/-- the frames of the second state are those of the first with `base` put before the children of the document -/
inductive Gr (base : List Node) : Frame → List Frame → Frame → List Frame → Prop
  | bot (f : Frame) (hk : f.info = { kind := .document }) : Gr base f [] ⟨f.info, base ++ f.children⟩ []
  | up (f : Frame) {p p' : Frame} {ps ps' : List Frame} : f.info.kind ≠ .document → Gr base p ps p' ps' → Gr base f (p :: ps) f (p' :: ps')

structure Rel (base : List Node) (us : List Str) (st st' : PS) : Prop where
  gr : Gr base st.cur st.up st'.cur st'.up
  text : st'.text = st.text
  used : st'.used = st.used ++ us

/-- a step that keeps the relation -/
def Sim (base : List Node) (us : List Str) (f : PS → PM) : Prop :=
  ∀ st st' st1, Rel base us st st' → f st = .ok st1 → ∃ st1', f st' = .ok st1' ∧ Rel base us st1 st1'

variable {base : List Node} {us : List Str} {f f' : Frame} {ps ps' : List Frame} {st st' : PS}

theorem Gr.info (h : Gr base f ps f' ps') : f'.info = f.info := by cases h <;> rfl

theorem Gr.kind (h : Gr base f ps f' ps') : f'.kind = f.kind := by unfold Frame.kind; rw [h.info]

theorem Gr.length (h : Gr base f ps f' ps') : ps'.length = ps.length := by
  induction h with
  | bot f hk => rfl
  | up f hf h ih => simp [ih]

theorem Gr.add (h : Gr base f ps f' ps') (n : Node) : Gr base (f.add n) ps (f'.add n) ps' := by
  cases h with
  | bot f hk =>
    have := Gr.bot (base := base) (f.add n) hk
    simpa [Frame.add] using this
  | up f hf h => exact .up _ hf h

theorem Gr.push (h : Gr base f ps f' ps') (g : Frame) (hg : g.info.kind ≠ .document) : Gr base g (f :: ps) g (f' :: ps') := .up g hg h

theorem Gr.cleanup (hb : ∀ n, base.getLast? = some n → n.kind ≠ .brk) (h : Rel base us st st') : Rel base us st.cleanupBreak st'.cleanupBreak := by
  obtain ⟨⟨i, cs⟩, up, tx, ud⟩ := st
  obtain ⟨⟨i', cs'⟩, up', tx', ud'⟩ := st'
  obtain ⟨hg, ht, hu⟩ := h
  simp only at hg ht hu
  subst ht hu
  unfold PS.cleanupBreak
  simp only
  cases hg with
  | up f hf h =>
    cases hl : cs.getLast? with
    | none => exact ⟨.up _ hf h, rfl, rfl⟩
    | some n =>
      simp only
      split
      · exact ⟨.up _ hf h, rfl, rfl⟩
      · exact ⟨.up _ hf h, rfl, rfl⟩
  | bot f hk =>
    simp only at hk ⊢
    rcases List.eq_nil_or_concat cs with rfl | ⟨cs, n, rfl⟩
    · simp only [List.append_nil, List.getLast?_nil]
      cases hl : base.getLast? with
      | none =>
        exact ⟨by simpa using Gr.bot (base := base) ⟨i, []⟩ hk, rfl, rfl⟩
      | some n =>
        simp only [if_neg (hb n hl)]
        exact ⟨by simpa using Gr.bot (base := base) ⟨i, []⟩ hk, rfl, rfl⟩
    · rw [List.concat_eq_append, ← List.append_assoc, List.getLast?_concat, List.getLast?_concat]
      simp only
      split
      · rw [List.dropLast_concat, List.dropLast_concat]
        exact ⟨Gr.bot (base := base) ⟨i, cs⟩ hk, rfl, rfl⟩
      · exact ⟨by simpa using Gr.bot (base := base) ⟨i, cs ++ [n]⟩ hk, rfl, rfl⟩

theorem Gr.climb (stop : Kind → Bool) (h : Gr base f ps f' ps') :
    Gr base (climb stop f ps).1 (climb stop f ps).2 (climb stop f' ps').1 (climb stop f' ps').2 := by
  induction ps generalizing f f' ps' with
  | nil => cases h with | bot f hk => exact .bot f hk
  | cons p ps ih =>
    cases h with
    | up f hf h =>
      unfold Creole.climb
      split
      · exact .up _ hf h
      · exact ih (h.add _)

theorem Gr.findList (level : Nat) (h : Gr base f ps f' ps') : ∃ x x', findList level f ps = some x ∧ findList level f' ps' = some x' ∧ Gr base x.1 x.2 x'.1 x'.2 := by
  induction ps generalizing f f' ps' with
  | nil =>
    cases h with
    | bot f hk =>
      have hk' : isDoc f.kind = true := by unfold Frame.kind; rw [hk]; rfl
      refine ⟨(f, []), (⟨f.info, base ++ f.children⟩, []), ?_, ?_, .bot f hk⟩
      · unfold Creole.findList; rw [hk']; simp
      · unfold Creole.findList; rw [show Frame.kind ⟨f.info, base ++ f.children⟩ = f.kind from rfl, hk']; simp
  | cons p ps ih =>
    cases h with
    | @up _ _ p' _ ps' hf h =>
      by_cases hc : ((f.kind = .number_list || f.kind = .bullet_list) && f.info.level = some level || isDoc f.kind) = true
      · refine ⟨(f, p :: ps), (f, p' :: ps'), ?_, ?_, .up _ hf h⟩
        · unfold Creole.findList; rw [if_pos hc]
        · unfold Creole.findList; rw [if_pos hc]
      · obtain ⟨x, x', h1, h2, h3⟩ := ih (h.add f.close)
        refine ⟨x, x', ?_, ?_, h3⟩
        · unfold Creole.findList; rw [if_neg hc]; exact h1
        · unfold Creole.findList; rw [if_neg hc]; exact h2

theorem Gr.popToAux (n : Nat) (h : Gr base f ps f' ps') {x : Frame × List Frame} (hx : popToAux n f ps = some x) :
    ∃ x', Creole.popToAux n f' ps' = some x' ∧ Gr base x.1 x.2 x'.1 x'.2 := by
  induction ps generalizing f f' ps' with
  | nil =>
    cases h with
    | bot f hk =>
      unfold Creole.popToAux at hx ⊢
      split at hx
      · simp only [Option.some.injEq] at hx
        subst hx
        rename_i hn
        exact ⟨_, if_pos hn, .bot f hk⟩
      · simp at hx
  | cons p ps ih =>
    cases h with
    | @up _ _ p' _ ps' hf h =>
      unfold Creole.popToAux at hx ⊢
      have hl : (p' :: ps').length = (p :: ps).length := by simp [h.length]
      rw [hl]
      split at hx
      · simp only [Option.some.injEq] at hx
        subst hx
        rename_i hn
        exact ⟨_, if_pos hn, .up f hf h⟩
      · rename_i hn
        obtain ⟨x', h1, h2⟩ := ih (h.add f.close) hx
        exact ⟨x', by rw [if_neg hn]; exact h1, h2⟩

/-! ## Steps -/

theorem Rel.leaf (h : Rel base us st st') (i : Info) : Rel base us (st.leaf i) (st'.leaf i) := ⟨h.gr.add _, h.text, h.used⟩

theorem Rel.addNode (h : Rel base us st st') (n : Node) : Rel base us (st.addNode n) (st'.addNode n) := ⟨h.gr.add _, h.text, h.used⟩

theorem Rel.push (h : Rel base us st st') (i : Info) (hi : i.kind ≠ .document) : Rel base us (st.push i) (st'.push i) := ⟨h.gr.push _ hi, h.text, h.used⟩

theorem Rel.noText (h : Rel base us st st') : Rel base us st.noText st'.noText := ⟨h.gr, rfl, h.used⟩

theorem Rel.setText (h : Rel base us st st') (b : Bool) : Rel base us { st with text := b } { st' with text := b } := ⟨h.gr, rfl, h.used⟩

theorem Rel.climb (h : Rel base us st st') (stop : Kind → Bool) :
    Rel base us { st with cur := (Creole.climb stop st.cur st.up).1, up := (Creole.climb stop st.cur st.up).2 }
      { st' with cur := (Creole.climb stop st'.cur st'.up).1, up := (Creole.climb stop st'.cur st'.up).2 } := ⟨h.gr.climb stop, h.text, h.used⟩

variable (hb : ∀ n, base.getLast? = some n → n.kind ≠ .brk)

include hb in
theorem Rel.upto (h : Rel base us st st') (stop : Kind → Bool) : Rel base us (st.upto stop) (st'.upto stop) := (Gr.cleanup hb h).climb stop

theorem Sim.pure {F : PS → PS} (h : ∀ st st', Rel base us st st' → Rel base us (F st) (F st')) : Sim base us (fun st => .ok (F st)) := by
  intro st st' st1 hr he
  simp only [Except.ok.injEq] at he
  subst he
  exact ⟨_, rfl, h _ _ hr⟩

theorem Sim.bind {F G : PS → PM} (hF : Sim base us F) (hG : Sim base us G) : Sim base us (fun st => F st >>= G) := by
  intro st st' st1 hr he
  simp only at he
  cases h1 : F st with
  | error e => rw [h1] at he; simp [Bind.bind, Except.bind] at he
  | ok st2 =>
    rw [h1] at he
    obtain ⟨st2', h2, hr2⟩ := hF _ _ _ hr h1
    obtain ⟨st1', h3, hr3⟩ := hG _ _ _ hr2 he
    exact ⟨st1', by simp only [h2]; exact h3, hr3⟩

theorem Sim.const {α : Type} (e : Except PyErr α) {F : α → PS → PM} (hF : ∀ a, Sim base us (F a)) : Sim base us (fun st => e >>= fun a => F a st) := by
  intro st st' st1 hr he
  cases e with
  | error e => simp [Bind.bind, Except.bind] at he
  | ok a => exact hF a st st' st1 hr he

theorem Sim.pre {F : PS → PS} {G : PS → PM} (h : ∀ st st', Rel base us st st' → Rel base us (F st) (F st')) (hG : Sim base us G) :
    Sim base us (fun st => G (F st)) := fun _ _ _ hr he => hG _ _ _ (h _ _ hr) he

theorem Sim.error (e : PyErr) : Sim base us (fun _ => .error e) := by intro st st' st1 _ h; simp at h

theorem Sim.ite {c : Prop} [Decidable c] {F G : PS → PM} (hF : Sim base us F) (hG : Sim base us G) : Sim base us (fun st => if c then F st else G st) := by
  by_cases h : c
  · simpa only [if_pos h] using hF
  · simpa only [if_neg h] using hG

theorem Sim.foldlM {α : Type} {F : PS → α → PM} (h : ∀ a, Sim base us (fun st => F st a)) (l : List α) : Sim base us (fun st => l.foldlM F st) := by
  induction l with
  | nil => exact Sim.pure (F := fun st => st) fun _ _ h => h
  | cons a l ih =>
    have := Sim.bind (h a) ih
    simpa only [List.foldlM_cons] using this

theorem sim_checkText : Sim base us PS.checkText := by
  intro st st' st1 hr he
  unfold PS.checkText at he ⊢
  rw [hr.text]
  split at he
  · simp at he
  · simp only [Except.ok.injEq] at he
    subst he
    rename_i h
    exact ⟨st', if_neg h, hr⟩

theorem sim_pop : Sim base us PS.pop := by
  intro st st' st1 hr he
  obtain ⟨cur, up, tx, ud⟩ := st
  obtain ⟨cur', up', tx', ud'⟩ := st'
  obtain ⟨hg, ht, hu⟩ := hr
  simp only at hg ht hu
  unfold PS.pop at he ⊢
  cases hg with
  | bot f hk => simp at he
  | up f hf h =>
    simp only [Except.ok.injEq] at he
    subst he
    exact ⟨_, rfl, ⟨h.add _, ht, hu⟩⟩

theorem sim_popTo (n : Nat) : Sim base us (fun st => st.popTo n) := by
  intro st st' st1 hr he
  simp only [PS.popTo] at he ⊢
  cases hx : popToAux n st.cur st.up with
  | none => rw [hx] at he; simp at he
  | some x =>
    rw [hx] at he
    simp only [Except.ok.injEq] at he
    subst he
    obtain ⟨x', h1, h2⟩ := hr.gr.popToAux n hx
    rw [h1]
    exact ⟨_, rfl, ⟨h2, hr.text, hr.used⟩⟩

theorem sim_appendText (s : Str) : Sim base us (fun st => st.appendText s) := by
  intro st st' st1 hr he
  obtain ⟨⟨i, cs⟩, up, tx, ud⟩ := st
  obtain ⟨⟨i', cs'⟩, up', tx', ud'⟩ := st'
  obtain ⟨hg, ht, hu⟩ := hr
  simp only at hg ht hu
  subst ht hu
  simp only [PS.appendText] at he ⊢
  rcases List.eq_nil_or_concat cs with rfl | ⟨cs, n, rfl⟩
  · simp at he
  · rw [List.concat_eq_append] at hg he
    obtain ⟨j, ds⟩ := n
    rw [List.getLast?_concat, List.dropLast_concat] at he
    simp only [Except.ok.injEq] at he
    subst he
    cases hg with
    | up f hf h =>
      rw [List.getLast?_concat, List.dropLast_concat]
      exact ⟨_, rfl, ⟨.up _ hf h, rfl, rfl⟩⟩
    | bot f hk =>
      rw [← List.append_assoc, List.getLast?_concat, List.dropLast_concat]
      refine ⟨_, rfl, ⟨?_, rfl, rfl⟩⟩
      simpa using Gr.bot (base := base) ⟨i, cs ++ [Node.mk { j with content := some (j.content.getD [] ++ s) } ds]⟩ hk

theorem sim_addChars (s : Str) : Sim base us (fun st => st.addChars s) := by
  refine Sim.pre (F := fun st => if st.text then st else { st.leaf { kind := .text, content := some [] } with text := true }) ?_ (sim_appendText s)
  intro st st' h
  simp only
  rw [h.text]
  split
  · exact h
  · exact (h.leaf _).setText true

/-! ## Inline markup -/

theorem sim_urlRepl (m : Match G) : Sim base us (urlRepl m) := by
  unfold urlRepl
  refine Sim.ite ?_ ?_
  · exact Sim.const _ fun w => Sim.pure fun st st' h => (h.addNode _).noText
  · exact Sim.const _ fun w => sim_addChars w

theorem sim_addMacro (k : Kind) (nk ak : G) (tk : Option G) (m : Match G) : Sim base us (addMacro k nk ak tk m) := by
  unfold addMacro
  cases tk with
  | none =>
    refine Sim.const _ fun t => Sim.const _ fun n => Sim.const _ fun a => Sim.pure fun st st' h => ?_
    exact ⟨h.gr.add _, rfl, by simp [h.used]⟩
  | some k =>
    refine Sim.const _ fun t => Sim.const _ fun n => Sim.const _ fun a => Sim.pure fun st st' h => ?_
    exact ⟨h.gr.add _, rfl, by simp [h.used]⟩

theorem sim_imageRepl (m : Match G) : Sim base us (imageRepl m) := by
  unfold imageRepl
  exact Sim.const _ fun w => Sim.pure fun st st' h => (h.addNode _).noText

theorem sim_leafRepl (g : G) (m : Match G) : Sim base us (leafRepl g m) := by
  unfold leafRepl
  cases g <;> simp only
  all_goals first
    | exact sim_urlRepl m
    | exact sim_addMacro _ _ _ _ m
    | exact sim_imageRepl m
    | exact Sim.const _ fun w => Sim.pure fun st st' h => (h.leaf _).noText
    | exact Sim.pure fun st st' h => (h.leaf _).noText
    | exact Sim.const _ fun w => sim_addChars w
    | exact Sim.error _

theorem sim_subAll {r : R} {h : G → Match G → PS → PM} (hh : ∀ g m, Sim base us (h g m)) (raw : Str) : Sim base us (subAll r h raw) := by
  unfold subAll
  refine Sim.foldlM (fun m => ?_) _
  cases dispatch (groupOrder r) m with
  | some g => exact hh g m
  | none => exact Sim.pure (F := fun st => st) fun _ _ h => h

theorem sim_linkRepl (m : Match G) : Sim base us (linkRepl m) := by
  intro st st' st1 hr
  unfold linkRepl
  rw [hr.gr.length]
  revert st1
  have key : Sim base us (fun x => need m .link_target >>= fun target =>
      subAll linkRe leafRepl (Py.strip ((m.get .link_text).getD [])) (x.push { kind := .link, content := some target }).noText >>= fun y =>
      y.popTo st.up.length >>= fun z => .ok z.noText) := by
    refine Sim.const _ fun t => ?_
    refine Sim.pre (F := fun x => (x.push { kind := .link, content := some t }).noText)
      (G := fun y => subAll linkRe leafRepl (Py.strip ((m.get .link_text).getD [])) y >>= fun y => y.popTo st.up.length >>= fun z => .ok z.noText)
      (fun _ _ h => (h.push _ (by simp)).noText) ?_
    exact Sim.bind (sim_subAll (fun g m => sim_leafRepl g m) _) (Sim.bind (sim_popTo _) (Sim.pure fun _ _ h => h.noText))
  intro st1 he
  exact key st st' st1 hr he

include hb in
theorem sim_inlineMark {pi : Str → PS → PM} (hpi : ∀ s, Sim base us (pi s)) {k : Kind} (hk : k ≠ .document) (g : G) (m : Match G) : Sim base us (inlineMark pi k g m) := by
  unfold inlineMark
  refine Sim.pre (F := fun x => (x.push { kind := k }).noText)
    (G := fun y => need m g >>= fun t => pi t y >>= fun z => (z.upto fun k' => k' = k).pop >>= fun z => .ok z.noText)
    (fun _ _ h => (h.push _ hk).noText) ?_
  refine Sim.const _ fun t => Sim.bind (hpi t) ?_
  exact Sim.pre (F := fun z => z.upto fun k' => k' = k) (G := fun z => z.pop >>= fun z => .ok z.noText) (fun _ _ h => h.upto hb _)
    (Sim.bind sim_pop (Sim.pure fun _ _ h => h.noText))

include hb in
theorem sim_inlineRepl {pi : Str → PS → PM} (hpi : ∀ s, Sim base us (pi s)) (g : G) (m : Match G) : Sim base us (inlineRepl pi g m) := by
  unfold inlineRepl
  cases g <;> simp only
  all_goals first
    | exact sim_linkRepl m
    | exact sim_inlineMark hb hpi (by decide) _ m
    | exact sim_leafRepl _ m

include hb in
theorem sim_parseInlineN (n : Nat) : ∀ s, Sim base us (parseInlineN n s) := by
  induction n with
  | zero => intro s; exact Sim.error _
  | succ n ih => intro s; exact sim_subAll (fun g m => sim_inlineRepl hb ih g m) s

include hb in
theorem sim_parseInline (s : Str) : Sim base us (parseInline s) := sim_parseInlineN hb _ s

/-! ## Blocks -/

include hb in
theorem Rel.uptoBlock (h : Rel base us st st') : Rel base us st.uptoBlock st'.uptoBlock := h.upto hb _

theorem Rel.kind (h : Rel base us st st') : st'.cur.kind = st.cur.kind := h.gr.kind

theorem Rel.children (h : Rel base us st st') (hk : isDoc st.cur.kind = false) : st'.cur = st.cur := by
  obtain ⟨cur, up, tx, ud⟩ := st
  obtain ⟨cur', up', tx', ud'⟩ := st'
  obtain ⟨hg, ht, hu⟩ := h
  simp only at hg hk
  cases hg with
  | bot f h => unfold Frame.kind at hk; rw [h] at hk; exact absurd hk (by decide)
  | up f hf h => rfl

include hb in
theorem sim_textRepl (m : Match G) : Sim base us (textRepl m) := by
  unfold textRepl
  refine Sim.bind sim_checkText ?_
  refine Sim.pre (F := fun st => if st.cur.kind = .table || st.cur.kind = .table_row || st.cur.kind = .bullet_list || st.cur.kind = .number_list then st.uptoBlock else st)
    (G := fun st =>
      let st := if isDoc st.cur.kind then st.push { kind := .paragraph } else st
      need m .text >>= fun text =>
      let text := if (m.get .space).getD [] ≠ [] && !st.cur.children.isEmpty then ' ' :: text else text
      parseInline text st >>= fun st =>
      let st := if (m.get .brk).getD [] ≠ [] && breakKinds st.cur.kind then st.leaf { kind := .brk, content := some [] } else st
      .ok st.noText) ?_ ?_
  · intro st st' h
    rw [h.kind]
    split
    · exact h.uptoBlock hb
    · exact h
  · intro st st' st1 hr
    have h2 : Rel base us (if isDoc st.cur.kind then st.push { kind := .paragraph } else st) (if isDoc st'.cur.kind then st'.push { kind := .paragraph } else st') := by
      rw [hr.kind]
      split
      · exact hr.push _ (by decide)
      · exact hr
    have h3 : isDoc (if isDoc st.cur.kind then st.push { kind := .paragraph } else st).cur.kind = false := by
      split
      · rfl
      · rename_i h; simpa using h
    dsimp only
    revert h2 h3
    generalize (if isDoc st.cur.kind then st.push { kind := .paragraph } else st) = s2
    generalize (if isDoc st'.cur.kind then st'.push { kind := .paragraph } else st') = s2'
    intro h2 h3
    rw [h2.children h3]
    refine (Sim.const (base := base) (us := us) (need m .text) (F := fun text s => parseInline (if (m.get .space).getD [] ≠ [] && !s2.cur.children.isEmpty then ' ' :: text else text) s >>= fun st =>
      Except.ok (if (m.get .brk).getD [] ≠ [] && breakKinds st.cur.kind then st.leaf { kind := .brk, content := some [] } else st).noText) fun t => ?_) s2 s2' st1 h2
    refine Sim.bind (sim_parseInline hb _) (Sim.pure fun x x' hx => ?_)
    rw [hx.kind]
    split
    · exact (hx.leaf _).noText
    · exact hx.noText

include hb in
theorem sim_itemRepl (m : Match G) : Sim base us (itemRepl m) := by
  unfold itemRepl
  refine Sim.bind sim_checkText ?_
  intro st st' st1 hr
  refine (Sim.const (base := base) (us := us) (need m .item_head) (F := fun bullet st => need m .item_text >>= fun text =>
    match bullet.getLast? with
    | none => Except.error .indexError
    | some b =>
      let kind : Kind := if b = '#' then .number_list else .bullet_list
      let level := bullet.length - 1
      let newLevel : PS := (st.upto fun k => k = .list_item || isDoc k).push { kind := kind, level := some level }
      let st := match findList level st.cur st.up with
        | some (f, up) => if f.kind = kind then { st with cur := f, up := up } else newLevel
        | none => newLevel
      let st := st.push { kind := .list_item, level := some (level + 1) }
      parseInline text st >>= fun st => .ok st.noText) fun bullet => ?_) st st' st1 hr
  refine Sim.const _ fun text => ?_
  cases bullet.getLast? with
  | none => exact Sim.error _
  | some b =>
    refine Sim.pre (F := fun st => PS.push (match findList (bullet.length - 1) st.cur st.up with
        | some (f, up) => if f.kind = (if b = '#' then .number_list else .bullet_list : Kind) then { st with cur := f, up := up } else
            (st.upto fun k => k = .list_item || isDoc k).push { kind := if b = '#' then .number_list else .bullet_list, level := some (bullet.length - 1) }
        | none => (st.upto fun k => k = .list_item || isDoc k).push { kind := if b = '#' then .number_list else .bullet_list, level := some (bullet.length - 1) })
          { kind := .list_item, level := some (bullet.length - 1 + 1) })
      (G := fun st => parseInline text st >>= fun st => .ok st.noText) ?_ (Sim.bind (sim_parseInline hb _) (Sim.pure fun _ _ h => h.noText))
    intro x x' hx
    refine Rel.push ?_ _ (by simp)
    obtain ⟨y, y', h1, h2, h3⟩ := hx.gr.findList (bullet.length - 1)
    rw [h1, h2]
    obtain ⟨f, up⟩ := y
    obtain ⟨f', up'⟩ := y'
    simp only at h3 ⊢
    rw [h3.kind]
    by_cases hk : f.kind = (if b = '#' then .number_list else .bullet_list : Kind)
    · rw [if_pos hk, if_pos hk]
      exact ⟨h3, hx.text, hx.used⟩
    · rw [if_neg hk, if_neg hk]
      exact (hx.upto hb _).push _ (by simp only; split <;> decide)

include hb in
theorem sim_listRepl (m : Match G) : Sim base us (listRepl m) := by
  unfold listRepl
  refine Sim.const _ fun raw => sim_subAll (fun g m => ?_) raw
  cases g <;> simp only
  all_goals first
    | exact sim_itemRepl hb m
    | exact Sim.error _

include hb in
theorem sim_cellRepl (m : Match G) : Sim base us (fun st => cellRepl st m) := by
  intro st st' st1 hr
  unfold cellRepl
  dsimp only
  rw [hr.gr.length]
  generalize st.up.length = n
  by_cases hc : (m.get .cell).getD [] ≠ []
  · rw [if_pos hc, if_pos hc]
    refine (Sim.pre (base := base) (us := us) (F := fun st => (st.push { kind := .table_cell }).noText)
      (G := fun st => parseInline (Py.strip ((m.get .cell).getD [])) st >>= fun st => st.popTo n >>= fun st => .ok st.noText)
      (fun _ _ h => (h.push _ (by decide)).noText) ?_) st st' st1 hr
    exact Sim.bind (sim_parseInline hb _) (Sim.bind (sim_popTo n) (Sim.pure fun _ _ h => h.noText))
  · rw [if_neg hc, if_neg hc]
    refine (Sim.const (base := base) (us := us) (need m .head) (F := fun head st =>
      let st := st.push { kind := .table_head }
      let st := { st.leaf { kind := .text, content := some [] } with text := true }
      parseInline (Py.stripP (fun c => c = '=' || c = ' ') head) st >>= fun st => st.popTo n >>= fun st => .ok st.noText) fun head => ?_) st st' st1 hr
    refine Sim.pre (F := fun st => { (st.push { kind := .table_head }).leaf { kind := .text, content := some [] } with text := true })
      (G := fun st => parseInline (Py.stripP (fun c => c = '=' || c = ' ') head) st >>= fun st => st.popTo n >>= fun st => .ok st.noText)
      (fun _ _ h => ((h.push _ (by decide)).leaf _).setText true) ?_
    exact Sim.bind (sim_parseInline hb _) (Sim.bind (sim_popTo n) (Sim.pure fun _ _ h => h.noText))

include hb in
theorem sim_tableRepl (m : Match G) : Sim base us (tableRepl m) := by
  unfold tableRepl
  refine Sim.const _ fun row => ?_
  refine Sim.pre (F := fun st => st.upto fun k => k = .table || isDoc k)
    (G := fun st =>
      let st := if st.cur.kind = .table then st else st.push { kind := .table }
      let n := st.up.length
      let st := st.push { kind := .table_row }
      (cellRe.findAll (Py.strip row)).foldlM (init := st) cellRepl >>= fun st => st.popTo n >>= fun st => .ok st.noText)
    (fun _ _ h => h.upto hb _) ?_
  refine Sim.pre (F := fun st => if st.cur.kind = .table then st else st.push { kind := .table })
    (G := fun st =>
      let n := st.up.length
      let st := st.push { kind := .table_row }
      (cellRe.findAll (Py.strip row)).foldlM (init := st) cellRepl >>= fun st => st.popTo n >>= fun st => .ok st.noText) ?_ ?_
  · intro st st' h
    rw [h.kind]
    split
    · exact h
    · exact h.push _ (by decide)
  · intro st st' st1 hr
    dsimp only
    rw [hr.gr.length]
    generalize st.up.length = n
    refine (Sim.pre (base := base) (us := us) (F := fun st => st.push { kind := .table_row })
      (G := fun st => (cellRe.findAll (Py.strip row)).foldlM (init := st) cellRepl >>= fun st => st.popTo n >>= fun st => .ok st.noText)
      (fun _ _ h => h.push _ (by decide)) ?_) st st' st1 hr
    exact Sim.bind (Sim.foldlM (fun m => sim_cellRepl hb m) _) (Sim.bind (sim_popTo n) (Sim.pure fun _ _ h => h.noText))

include hb in
theorem sim_blockRepl (g : G) (m : Match G) : Sim base us (blockRepl g m) := by
  have hmac : Sim base us (macroBlockRepl m) := by
    unfold macroBlockRepl
    refine Sim.pre (F := fun st => { st.uptoBlock with cur := (climb (fun _ => false) st.uptoBlock.cur st.uptoBlock.up).1, up := (climb (fun _ => false) st.uptoBlock.cur st.uptoBlock.up).2 })
      (G := addMacro .macro_block .macro_block_start .macro_block_args (some .macro_block_text) m) ?_ (sim_addMacro _ _ _ _ m)
    intro st st' h
    exact (h.uptoBlock hb).climb _
  have hline : Sim base us lineRepl := by
    unfold lineRepl
    exact Sim.bind sim_checkText (Sim.pure fun _ _ h => (h.uptoBlock hb).leaf _)
  have hsep : Sim base us separatorRepl := by
    unfold separatorRepl
    exact Sim.bind sim_checkText (Sim.pure fun _ _ h => (h.uptoBlock hb).leaf _)
  have hhead : Sim base us (headRepl m) := by
    unfold headRepl
    refine Sim.pre (F := PS.uptoBlock) (G := fun st => need m .head_text >>= fun text => need m .head_head >>= fun head =>
      .ok (st.leaf { kind := .header, content := some (Py.strip text), level := some head.length }).noText) (fun _ _ h => h.uptoBlock hb) ?_
    exact Sim.const _ fun t => Sim.const _ fun hd => Sim.pure fun _ _ h => (h.leaf _).noText
  have hpre : Sim base us (preBlockRepl m) := by
    unfold preBlockRepl
    refine Sim.pre (F := PS.uptoBlock) (G := fun st => need m .pre_block_text >>= fun text =>
      .ok (st.leaf { kind := .pre_block, content := some (removeTilde text) }).noText) (fun _ _ h => h.uptoBlock hb) ?_
    exact Sim.const _ fun t => Sim.pure fun _ _ h => (h.leaf _).noText
  unfold blockRepl
  cases g <;> simp only
  all_goals first
    | exact hmac
    | exact hline
    | exact hsep
    | exact hhead
    | exact hpre
    | exact sim_listRepl hb m
    | exact sim_tableRepl hb m
    | exact sim_textRepl hb m
    | exact Sim.error _

include hb in
theorem sim_parseBlock (blog : Bool) (raw : Str) : Sim base us (parseBlock blog raw) := sim_subAll (fun g m => sim_blockRepl hb g m) raw

end Verif.Creole
