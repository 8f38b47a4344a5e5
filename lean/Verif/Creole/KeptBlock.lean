import Verif.Creole.KeptScan

/-!
# The parser keeps the letters of the text: blocks
-/

namespace Verif.Creole

open Verif Re Py Spec.Kp

variable {st st' : PS} {m : Match G}

/-- between two blocks no text is under construction -/
structure Calm (st : PS) : Prop where
  fit : Fit st
  text : st.text = false

/-- the step adds (at least) the letters `k` and ends between two blocks -/
structure Adds0 (k : Str) (st st' : PS) : Prop where
  gains : Gains k st st'
  text : st'.text = false

theorem Adds0.calm {k : Str} (h : Adds0 k st st') : Calm st' := ⟨h.gains.1, h.text⟩

theorem Gains.noText0 {k : Str} {a b : PS} (h : Gains k a b) : Adds0 k a b.noText := ⟨h.noText, rfl⟩

theorem Calm.noText_eq (h : Calm st) : st.noText = st := by
  have := h.text
  cases st
  simp only at this
  subst this
  rfl

theorem Calm.leaf (h : Calm st) (i : Info) : Adds0 (Node.shown (.mk i [])) st (st.leaf i) := by
  have := leaf_gains h.fit i
  have ht : (st.leaf i).noText = st.leaf i := by
    have := h.text
    cases st
    simp only at this
    subst this
    rfl
  rw [ht] at this
  exact ⟨this, h.text⟩

theorem Calm.push (h : Calm st) (i : Info) (hk : i.kind.holds = true) : Adds0 i.own st (st.push i) := by
  have := push_gains h.fit i hk
  have ht : (st.push i).noText = st.push i := by
    have := h.text
    cases st
    simp only at this
    subst this
    rfl
  rw [ht] at this
  exact ⟨this, h.text⟩

theorem Calm.upto (h : Calm st) (stop : Kind → Bool) : Adds0 [] st (st.upto stop) := by
  obtain ⟨h1, h2, h3⟩ := upto_shown h.fit h.text stop
  exact ⟨Gains.nothing h1 h2, h3⟩

theorem Adds0.trans {k k' : Str} {a b c : PS} (h : Adds0 k a b) (h' : Adds0 k' b c) : Adds0 (k ++ k') a c :=
  ⟨h.gains.trans h'.gains, h'.text⟩

theorem Adds0.congr {k k' : Str} {a b : PS} (h : Adds0 k a b) (hk : k = k') : Adds0 k' a b := hk ▸ h

theorem Calm.refl (h : Calm st) : Adds0 [] st st := ⟨Gains.nothing h.fit rfl, h.text⟩

theorem checkText_inv {st1 : PS} (h : st.checkText = .ok st1) : st1 = st ∧ st.text = false := by
  unfold PS.checkText at h
  split at h
  · cases h
  · rename_i ht
    cases h
    exact ⟨rfl, by simpa using ht⟩

theorem fold_adds0 {α : Type} {f : PS → α → PM} {tx : α → Str} : ∀ {l : List α} {st st' : PS}, Calm st → l.foldlM f st = .ok st' →
    (∀ m ∈ l, ∀ st st', Calm st → f st m = .ok st' → Adds0 (tx m) st st') → Adds0 (l.flatMap tx) st st' := by
  intro l
  induction l with
  | nil => intro st st' hf h _; cases h; exact hf.refl
  | cons m l ih =>
    intro st st' hf h hh
    rw [List.foldlM_cons] at h
    obtain ⟨st1, h1, h2⟩ := bind_ok_inv h
    have ha := hh m List.mem_cons_self st st1 hf h1
    exact ha.trans (ih ha.calm h2 fun m hm => hh m (List.mem_cons_of_mem _ hm))

theorem subAll_adds0 {r : R} {h : G → Match G → PS → PM} {raw : Str} (hf : Calm st)
    (hs : ∀ c, Seg.skip c ∈ r.scan raw → keeps c = false) (he : subAll r h raw st = .ok st')
    (hh : ∀ m ∈ r.findAll raw, ∃ g, dispatch (groupOrder r) m = some g ∧
      ∀ st st', Calm st → h g m st = .ok st' → Adds0 (letters m.text) st st') :
    Adds0 (letters raw) st st' := by
  rw [Re.scan_letters hs]
  refine fold_adds0 hf he ?_
  intro m hm st st' hf h1
  obtain ⟨g, hg, hh⟩ := hh m hm
  rw [hg] at h1
  exact hh st st' hf h1

/-! ## The blocks -/

theorem lineRepl_adds (hf : Calm st) (h : lineRepl st = .ok st') : Adds0 [] st st' := by
  unfold lineRepl at h
  obtain ⟨st1, h1, h2⟩ := bind_ok_inv h
  obtain ⟨rfl, _⟩ := checkText_inv h1
  cases h2
  exact (hf.upto isDoc).trans ((hf.upto isDoc).calm.leaf { kind := .line, content := some [] })

theorem separatorRepl_adds (hf : Calm st) (h : separatorRepl st = .ok st') : Adds0 [] st st' := by
  unfold separatorRepl at h
  obtain ⟨st1, h1, h2⟩ := bind_ok_inv h
  obtain ⟨rfl, _⟩ := checkText_inv h1
  cases h2
  exact (hf.upto isDoc).trans ((hf.upto isDoc).calm.leaf { kind := .separator })

theorem headRepl_adds (hf : Calm st) (h : headRepl m st = .ok st') : ∃ w, m.get .head_text = some w ∧ Adds0 (letters w) st st' := by
  unfold headRepl at h
  dsimp only at h
  obtain ⟨w, h1, h2⟩ := bind_ok_inv h
  obtain ⟨v, h3, h4⟩ := bind_ok_inv h2
  cases h4
  refine ⟨w, need_inv h1, ((hf.upto isDoc).gains.trans (leaf_gains (hf.upto isDoc).calm.fit _)).noText0.congr ?_⟩
  simp only [Node.shown, Option.getD_some, letters_strip, List.nil_append]

theorem sub_letters {r : R} {f : Match G → Str} {s : Str} (h : ∀ m ∈ r.findAll s, letters (f m) = letters m.text) :
    letters (r.sub f s) = letters s := by
  conv => rhs; rw [← Re.scan_text r s]
  rw [Re.sub]
  rw [Re.findAll] at h
  generalize r.scan s = l at h
  induction l with
  | nil => rfl
  | cons x l ih =>
    rw [List.flatMap_cons, List.flatMap_cons, letters_append, letters_append, ih ?_]
    · cases x with
      | skip c => rfl
      | hit m => rw [h m (by simp)]; rfl
    · intro m hm
      refine h m ?_
      rw [List.mem_filterMap] at hm ⊢
      obtain ⟨a, ha, hb⟩ := hm
      exact ⟨a, List.mem_cons_of_mem _ ha, hb⟩

theorem removeTilde_letters (s : Str) : letters (removeTilde s) = letters s := by
  refine sub_letters ?_
  intro m hm
  obtain ⟨rule, hr, s', pre, rest, hh⟩ := findAll_alts (l := [preEscapeRe]) (by simp) hm
  simp only [List.mem_cons, List.not_mem_nil, or_false] at hr
  subst hr
  have h0 := hh.zero (by decide +kernel)
  have hg : ∀ g, letters ((m.get g).getD []) = [] := by
    intro g
    cases hv : m.get g with
    | none => rfl
    | some v =>
      unfold Match.get at hv
      rw [hh.caps] at hv
      obtain ⟨b, s1, s2, h1, h2, h3⟩ := capGet_body hh.mem hv
      have hb : ∀ x ∈ preEscapeRe.bodies, x.2.covers [] = true ∧ ∀ l ∈ x.2.seqs [], l = [] := by decide +kernel
      obtain ⟨hb1, hb2⟩ := hb _ h1
      obtain ⟨new, e, l, hm⟩ := Re.res_covers hb1 h2 h3
      have := hb2 _ hm
      rw [List.map_eq_nil_iff] at this
      rw [Option.getD_some, l, this]
      rfl
  rw [letters_append, hg, hg, h0]
  rfl

theorem preBlockRepl_adds (hf : Calm st) (h : preBlockRepl m st = .ok st') : ∃ w, m.get .pre_block_text = some w ∧
    Adds0 (letters w) st st' := by
  unfold preBlockRepl at h
  dsimp only at h
  obtain ⟨w, h1, h2⟩ := bind_ok_inv h
  cases h2
  refine ⟨w, need_inv h1, ((hf.upto isDoc).gains.trans (leaf_gains (hf.upto isDoc).calm.fit _)).noText0.congr ?_⟩
  simp only [Node.shown, Option.getD_some, List.nil_append]
  exact removeTilde_letters w

theorem noMac_space {w : Str} (h : ¬ c!"<<" <:+: w) : ¬ c!"<<" <:+: ' ' :: w := by
  intro hi
  exact h ((SubOf.refl w).cons_space c!"<<" (by simp) (by decide) hi)

theorem textRepl_adds (hf : Calm st) (hno : ∀ w, m.get .text = some w → ¬ c!"<<" <:+: w) (h : textRepl m st = .ok st') :
    ∃ w, m.get .text = some w ∧ Adds0 (letters w) st st' := by
  unfold textRepl at h
  replace h := bind_ok_inv h
  obtain ⟨st0, h0, h⟩ := h
  obtain ⟨rfl, _⟩ := checkText_inv h0
  clear h0
  dsimp only at h
  generalize hs1 : (if (decide (st0.cur.kind = Kind.table) || decide (st0.cur.kind = Kind.table_row) ||
    decide (st0.cur.kind = Kind.bullet_list) || decide (st0.cur.kind = Kind.number_list)) = true
    then st0.uptoBlock else st0) = st1 at h
  have h1 : Adds0 [] st0 st1 := by
    rw [← hs1]
    split
    · exact hf.upto isDoc
    · exact hf.refl
  clear hs1
  generalize hs2 : (if isDoc st1.cur.kind = true then st1.push { kind := Kind.paragraph } else st1) = st2 at h
  have h2 : Adds0 [] st1 st2 := by
    rw [← hs2]
    split
    · exact h1.calm.push { kind := .paragraph } rfl
    · exact h1.calm.refl
  clear hs2
  obtain ⟨w, hw, h⟩ := bind_ok_inv h
  replace hw := need_inv hw
  refine ⟨w, hw, ?_⟩
  obtain ⟨st3, h3, h⟩ := bind_ok_inv h
  cases h
  have h4 : Gains (letters w) st2 st3 := by
    split at h3
    · have := parseInline_gains (noMac_space (hno w hw)) h2.calm.fit h3
      exact this
    · exact parseInline_gains (hno w hw) h2.calm.fit h3
  have h5 := (h1.trans h2).gains.trans h4
  split
  · have := h5.trans (leaf_gains h5.1 { kind := .brk, content := some [] })
    have h6 := this.noText0
    refine h6.congr ?_
    simp [Node.shown]
  · exact h5.noText0

theorem itemRepl_adds (hf : Calm st) (hno : ∀ w, m.get .item_text = some w → ¬ c!"<<" <:+: w) (h : itemRepl m st = .ok st') :
    ∃ w, m.get .item_text = some w ∧ Adds0 (letters w) st st' := by
  unfold itemRepl at h
  replace h := bind_ok_inv h
  obtain ⟨st0, h0, h⟩ := h
  obtain ⟨rfl, _⟩ := checkText_inv h0
  clear h0
  obtain ⟨v, hv, h⟩ := bind_ok_inv h
  obtain ⟨w, hw, h⟩ := bind_ok_inv h
  replace hw := need_inv hw
  refine ⟨w, hw, ?_⟩
  split at h
  · cases h
  · rename_i b hb
    dsimp only at h
    generalize hk : (if b = '#' then Kind.number_list else Kind.bullet_list) = k at h
    have hkh : k.holds = true ∧ k ≠ .link := by rw [← hk]; split <;> exact ⟨rfl, by decide⟩
    have hnl : Adds0 [] st0 ((st0.upto fun k => decide (k = Kind.list_item) || isDoc k).push
        { kind := k, level := some (v.length - 1) }) := by
      have h1 := hf.upto (fun k => decide (k = Kind.list_item) || isDoc k)
      have h2 := h1.calm.push { kind := k, level := some (v.length - 1) } hkh.1
      simp only [Info.own, if_neg hkh.2] at h2
      exact h1.trans h2
    generalize (st0.upto fun k => decide (k = Kind.list_item) || isDoc k).push
        { kind := k, level := some (v.length - 1) } = nl at h hnl
    obtain ⟨st3, h3, h⟩ := bind_ok_inv h
    cases h
    have key : ∀ st1, Adds0 [] st0 st1 → parseInline w (st1.push { kind := Kind.list_item, level := some (v.length - 1 + 1) }) = .ok st3 →
        Adds0 (letters w) st0 st3.noText := by
      intro st1 h1 h3
      have h2 := h1.trans (h1.calm.push { kind := Kind.list_item, level := some (v.length - 1 + 1) } rfl)
      exact (h2.gains.trans (parseInline_gains (hno w hw) h2.calm.fit h3)).noText0
    split at h3
    · rename_i f up hfl
      split at h3
      · obtain ⟨c1, c2, c3⟩ := findList_shown hf.fit.cur hf.fit.up hfl
        refine key ({ st0 with cur := f, up := up } : PS) ⟨Gains.nothing ⟨c2, c3, ?_⟩ c1, hf.text⟩ h3
        intro ht
        rw [show ({ st0 with cur := f, up := up } : PS).text = st0.text from rfl, hf.text] at ht
        cases ht
      · exact key _ hnl h3
    · exact key _ hnl h3

theorem listRepl_adds (hf : Calm st) {w : Str} (hw : m.get .list = some w) (hno : ¬ c!"<<" <:+: w) (ht : ListText w)
    (h : listRepl m st = .ok st') : Adds0 (letters w) st st' := by
  unfold listRepl at h
  obtain ⟨w', h0, h⟩ := bind_ok_inv h
  replace h0 := need_inv h0
  rw [hw] at h0
  cases h0
  refine subAll_adds0 hf (item_noSkip ht) h ?_
  intro m hm
  obtain ⟨rule, hr, s', pre, rest, hh⟩ := findAll_alts (l := [itemRe]) (by simp) hm
  simp only [List.mem_cons, List.not_mem_nil, or_false] at hr
  subst hr
  refine ⟨.item, hh.dispatch (by decide) (by decide), ?_⟩
  intro st st' hf h
  obtain ⟨x, hx, ha⟩ := itemRepl_adds hf (fun x hx => noMac_infix hno (hh.infix hx)) h
  rw [hh.one .item_text (by decide +kernel) (by decide +kernel) hx]
  exact ha

/-- the letters of a cell -/
theorem RuleHit.cell {raw : Str} {s' : St G} {pre rest : Str} (h : RuleHit cellRe raw m s' pre rest) :
    (∃ w, m.get .cell = some w ∧ m.get .head = none ∧ letters m.text = letters w) ∨
    (∃ w, m.get .head = some w ∧ m.get .cell = none ∧ letters m.text = letters w) := by
  obtain ⟨v, hv⟩ := Re.res_reach h.mem
  have hv' : v = m.text := List.append_cancel_right (hv.rest.symm.trans h.text)
  obtain ⟨new, e, l, hm⟩ := Re.res_covers (gs := [.head, .cell]) (by decide +kernel) h.mem hv
  rw [List.append_nil] at e
  have hs : ∀ l ∈ cellRe.seqs [G.head, .cell], l = [.head] ∨ l = [.cell] := by decide +kernel
  replace hm := hs _ hm
  have hg := capGet_pick (gs := [G.head, .cell]) (g := .head) (by decide) s'.caps
  have hc := capGet_pick (gs := [G.head, .cell]) (g := .cell) (by decide) s'.caps
  rw [← hv', l, ← e]
  unfold Match.get
  rw [h.caps, ← hg, ← hc]
  rw [← e] at hm
  generalize pick [G.head, .cell] s'.caps = x at hm
  rcases hm with hm | hm
  · match x, hm with
    | [(a, b)], hm =>
      simp only [List.map_cons, List.map_nil, List.cons.injEq, and_true] at hm
      subst hm
      exact .inr ⟨b, rfl, rfl, rfl⟩
  · match x, hm with
    | [(a, b)], hm =>
      simp only [List.map_cons, List.map_nil, List.cons.injEq, and_true] at hm
      subst hm
      exact .inl ⟨b, rfl, rfl, rfl⟩

theorem eqSpace_keeps (c : Char) (h : (decide (c = '=') || decide (c = ' ')) = true) : keeps c = false := by
  simp only [Bool.or_eq_true, decide_eq_true_eq] at h
  rcases h with rfl | rfl <;> decide +kernel

theorem cellRepl_adds {row : Str} (hno : ¬ c!"<<" <:+: row) (hf : Calm st) (hm : m ∈ cellRe.findAll row) (h : cellRepl st m = .ok st') :
    Adds0 (letters m.text) st st' := by
  obtain ⟨rule, hr, s', pre, rest, hh⟩ := findAll_alts (l := [cellRe]) (by simp) hm
  simp only [List.mem_cons, List.not_mem_nil, or_false] at hr
  subst hr
  have head : ∀ w, m.get .head = some w → (do
      let head ← need m .head
      let text := Py.stripP (fun c => decide (c = '=') || decide (c = ' ')) head
      let st1 := st.push { kind := .table_head }
      let st1 := { st1.leaf { kind := .text, content := some [] } with text := true }
      let st1 ← parseInline text st1
      return (← st1.popTo st.up.length).noText) = .ok st' → Adds0 (letters w) st st' := by
    intro w hw h
    obtain ⟨w', h0, h⟩ := bind_ok_inv h
    replace h0 := need_inv h0
    rw [hw] at h0
    cases h0
    dsimp only at h
    obtain ⟨st1, h1, h⟩ := bind_ok_inv h
    obtain ⟨st2, h2, h⟩ := bind_ok_inv h
    cases h
    have hp := push_gains hf.fit { kind := .table_head } rfl
    have hl := leaf_gains hp.1 { kind := .text, content := some [] }
    have hq : Gains [] st ({ (st.push { kind := .table_head }).leaf { kind := .text, content := some [] } with text := true } : PS) := by
      obtain ⟨f, t, e1, e2⟩ := hp.trans hl
      exact ⟨⟨f.cur, f.up, fun _ => ⟨[], [], rfl⟩⟩, t, e1, e2⟩
    have hi := parseInline_gains (noMac_infix hno ((Py.stripP_infix _ _).trans (hh.infix hw))) hq.1 h1
    obtain ⟨c1, c2⟩ := popTo_shown hi.1 h2
    rw [letters_stripP eqSpace_keeps] at hi
    obtain ⟨_, t, e1, e2⟩ := hq.trans hi
    exact ⟨⟨c1, t, by rw [c2, e1], e2⟩, rfl⟩
  have cell : ∀ w, m.get .cell = some w → (do
      let text := Py.strip w
      let st1 := (st.push { kind := .table_cell }).noText
      let st1 ← parseInline text st1
      return (← st1.popTo st.up.length).noText) = .ok st' → Adds0 (letters w) st st' := by
    intro w hw h
    dsimp only at h
    obtain ⟨st1, h1, h⟩ := bind_ok_inv h
    obtain ⟨st2, h2, h⟩ := bind_ok_inv h
    cases h
    have hp := push_gains hf.fit { kind := .table_cell } rfl
    have hi := parseInline_gains (noMac_infix hno ((Py.strip_infix _).trans (hh.infix hw))) hp.1 h1
    obtain ⟨c1, c2⟩ := popTo_shown hi.1 h2
    rw [letters_strip] at hi
    obtain ⟨_, t, e1, e2⟩ := hp.trans hi
    exact ⟨⟨c1, t, by rw [c2, e1], e2⟩, rfl⟩
  unfold cellRepl at h
  dsimp only at h
  rcases hh.cell with ⟨w, hw, hn, e⟩ | ⟨w, hw, hn, e⟩
  · rw [e]
    rw [hw, Option.getD_some] at h
    split at h
    · exact cell w hw h
    · rename_i hw0
      obtain ⟨v, hv, _⟩ := bind_ok_inv h
      have := need_inv hv
      rw [hn] at this
      cases this
  · rw [e]
    rw [hn, Option.getD_none, if_neg (by simp)] at h
    exact head w hw h

theorem strip_bar {t : Str} : ∃ u, Py.strip ('|' :: t) = '|' :: u := by
  have h1 : Py.lstrip ('|' :: t) = '|' :: t := by
    rw [Py.lstrip, List.dropWhile_cons, if_neg (by decide +kernel)]
  rw [Py.strip, h1, Py.rstrip, dropEndWhile]
  split
  · rw [if_neg (by decide +kernel)]; exact ⟨[], rfl⟩
  · exact ⟨_, rfl⟩

theorem tableRepl_adds (hf : Calm st) {t : Str} (hw : m.get .table = some ('|' :: t)) (hno : ¬ c!"<<" <:+: '|' :: t)
    (h : tableRepl m st = .ok st') : Adds0 (letters ('|' :: t)) st st' := by
  unfold tableRepl at h
  obtain ⟨w', h0, h⟩ := bind_ok_inv h
  replace h0 := need_inv h0
  rw [hw] at h0
  cases h0
  dsimp only at h
  have h1 := hf.upto (fun k => decide (k = Kind.table) || isDoc k)
  generalize (st.upto fun k => decide (k = Kind.table) || isDoc k) = st1 at h h1
  generalize hs : (if st1.cur.kind = Kind.table then st1 else st1.push { kind := Kind.table }) = st2 at h
  have h2 : Adds0 [] st1 st2 := by
    rw [← hs]
    split
    · exact h1.calm.refl
    · exact h1.calm.push { kind := .table } rfl
  clear hs
  have h3 := h2.calm.push { kind := .table_row } rfl
  obtain ⟨st4, h4, h⟩ := bind_ok_inv h
  obtain ⟨st5, h5, h⟩ := bind_ok_inv h
  cases h
  have hno' : ¬ c!"<<" <:+: Py.strip ('|' :: t) := noMac_infix hno (Py.strip_infix _)
  have h6 : Adds0 (letters ('|' :: t)) (st2.push { kind := .table_row }) st4 := by
    rw [← letters_strip ('|' :: t), Re.scan_letters (cell_noSkip (row := Py.strip ('|' :: t)) (.inr strip_bar))]
    exact fold_adds0 h3.calm h4 fun m hm st st' hf h => cellRepl_adds hno' hf hm h
  obtain ⟨c1, c2⟩ := popTo_shown h6.gains.1 h5
  obtain ⟨_, x, e1, e2⟩ := ((h1.trans h2).trans (h3.trans h6)).gains
  exact ⟨⟨c1, x, by rw [c2, e1], by simpa [Info.own] using e2⟩, rfl⟩

/-! ## Documents -/

theorem alts_res_of_mem {l : List R} {rule : R} (h : rule ∈ l) {s x : St G} (hx : x ∈ rule.res s) : x ∈ (alts l).res s := by
  induction l with
  | nil => cases h
  | cons a l ih =>
    cases l with
    | nil => simp at h; subst h; exact hx
    | cons b l =>
      rw [alts, mem_res_alt]
      rcases List.mem_cons.mp h with rfl | h
      · exact .inl hx
      · exact .inr (ih h)

/-- the rule for lines of text matches everywhere but at the end of a line -/
theorem noSkip_rules {blog : Bool} {l : List R} (hl : textRule blog ∈ l) {raw : Str} : ∀ c, Seg.skip c ∈ (alts l).scan raw → keeps c = false := by
  refine Re.scanAux_noSkip ?_ raw none 0
  intro p c cs hc
  have hn : c ≠ '\n' := by rintro rfl; revert hc; decide +kernel
  have hd : (⟨some c, cs, [(.text, consumed (c :: cs) cs)]⟩ : St G) ∈ (Re.grp G.text (.plus true dot) : R).res ⟨p, c :: cs, []⟩ := by
    rw [mem_res_grp]
    refine ⟨⟨some c, cs, []⟩, ?_, rfl⟩
    unfold Re.plus
    rw [mem_res_seq]
    refine ⟨⟨some c, cs, []⟩, ?_, ?_⟩
    · unfold dot; rw [mem_res_cls]; exact ⟨c, cs, rfl, by simp [CSet.mem, hn], rfl⟩
    · show _ ∈ starR _ _ _ _
      cases cs.length with
      | zero => rw [mem_starR_zero]
      | succ n => rw [mem_starR_succ]; exact .inl rfl
  refine ⟨⟨some c, cs, [(.text, consumed (c :: cs) cs)]⟩, ?_, by simp⟩
  refine alts_res_of_mem hl ?_
  unfold textRule
  cases blog with
  | true =>
    rw [if_pos rfl, mem_res_seq]
    refine ⟨_, hd, ?_⟩
    unfold opt
    rw [mem_res_alt]
    exact .inr (mem_res_eps.mpr rfl)
  | false =>
    rw [if_neg (by simp), mem_res_seq]
    refine ⟨_, ?_, hd⟩
    unfold opt
    rw [mem_res_alt]
    exact .inr (mem_res_eps.mpr rfl)

theorem noSkip_block {blog : Bool} {raw : Str} : ∀ c, Seg.skip c ∈ (blockRe blog).scan raw → keeps c = false :=
  noSkip_rules (blog := blog) (by simp [blockRules])

theorem blockRepl_adds_rule {blog : Bool} {raw : Str} (hno : ¬ c!"<<" <:+: raw) {rule : R} (hr : rule ∈ blockRules blog)
    {s' : St G} {pre rest : Str} (hh : RuleHit rule raw m s' pre rest) :
    ∃ g, dispatch (groupOrder rule) m = some g ∧
      ∀ st st', Calm st → blockRepl g m st = .ok st' → Adds0 (letters m.text) st st' := by
  simp only [blockRules, List.mem_cons, List.not_mem_nil, or_false] at hr
  rcases hr with rfl | rfl | rfl | rfl | rfl | rfl | rfl | rfl
  · exact absurd (hh.noMac rfl) hno
  · refine ⟨.line, hh.dispatch (by decide) (by cases blog <;> decide), ?_⟩
    intro st st' hf h
    rw [hh.zero (by decide +kernel)]
    exact lineRepl_adds hf h
  · refine ⟨.head, hh.dispatch (by decide) (by cases blog <;> decide), ?_⟩
    intro st st' hf h
    obtain ⟨w, hw, ha⟩ := headRepl_adds hf h
    rw [hh.one .head_text (by decide +kernel) (by decide +kernel) hw]
    exact ha
  · refine ⟨.separator, hh.dispatch (by decide) (by cases blog <;> decide), ?_⟩
    intro st st' hf h
    rw [hh.zero (by decide +kernel)]
    exact separatorRepl_adds hf h
  · refine ⟨.pre_block, hh.dispatch (by decide) (by cases blog <;> decide), ?_⟩
    intro st st' hf h
    obtain ⟨w, hw, ha⟩ := preBlockRepl_adds hf h
    rw [hh.one .pre_block_text (by decide +kernel) (by decide +kernel) hw]
    exact ha
  · refine ⟨.list, hh.dispatch (by decide) (by cases blog <;> decide), ?_⟩
    intro st st' hf h
    obtain ⟨w, hw⟩ := hh.get (g := .list) (by decide)
    rw [hh.one .list (by decide +kernel) (by decide +kernel) hw]
    refine listRepl_adds hf hw (noMac_infix hno (hh.infix hw)) ?_ h
    have hg := hw
    unfold Match.get at hg
    rw [hh.caps] at hg
    obtain ⟨b, s1, s2, h1, h2, h3⟩ := capGet_body hh.mem hg
    have : ∀ x ∈ listRule.bodies, x.1 = .list → x.2 = .seq listFirst (.star true listMore) := by
      simp [listRule, Re.bodies, listFirst, listMore, cat, sps, ch, blanks, plus, dot]
    have hb := this _ h1 rfl
    simp only at hb
    rw [hb] at h2
    exact listText_of h2 h3
  · refine ⟨.table, hh.dispatch (by decide) (by cases blog <;> decide), ?_⟩
    intro st st' hf h
    obtain ⟨w, hw⟩ := hh.get (g := .table) (by decide)
    rw [hh.one .table (by decide +kernel) (by decide +kernel) hw]
    have hg := hw
    unfold Match.get at hg
    rw [hh.caps] at hg
    obtain ⟨b, s1, s2, h1, h2, h3⟩ := capGet_body hh.mem hg
    have : ∀ x ∈ tableRule.bodies, x.1 = .table → x.2 = (cat [ch '|', anyDots, sps, opt (ch '|')]) := by
      simp [tableRule, Re.bodies, cat, sps, ch, anyDots, dot, opt]
    have hb := this _ h1 rfl
    simp only at hb
    rw [hb] at h2
    simp only [cat] at h2
    obtain ⟨t, u, v, rfl, c1, c2, _, _⟩ := seq_reach h2 h3
    unfold ch at c1
    obtain ⟨c, rfl, hc⟩ := cls_reach c1 c2
    simp [CSet.mem] at hc
    subst hc
    exact tableRepl_adds hf hw (noMac_infix hno (hh.infix hw)) h
  · obtain ⟨w, hw⟩ := hh.get (g := .text) (by cases blog <;> decide)
    obtain ⟨g, hd, hg⟩ := dispatch_names (r := textRule blog) hh (g0 := .text) (by cases blog <;> decide)
      (by cases blog <;> decide)
    refine ⟨g, hd, ?_⟩
    intro st st' hf h
    have h : textRepl m st = .ok st' := by
      have : g = .text ∨ g = .brk ∨ g = .space := by
        have h : ∀ x ∈ (textRule blog).names, x = .text ∨ x = .brk ∨ x = .space := by cases blog <;> decide
        exact h g hg
      rcases this with rfl | rfl | rfl <;> exact h
    obtain ⟨w, hw, ha⟩ := textRepl_adds hf (fun w hw => noMac_infix hno (hh.infix hw)) h
    rw [hh.one .text (by cases blog <;> decide +kernel) (by cases blog <;> decide +kernel) hw]
    exact ha

theorem blockRepl_adds {blog : Bool} {raw : Str} (hno : ¬ c!"<<" <:+: raw) (hm : m ∈ (blockRe blog).findAll raw) :
    ∃ g, dispatch (groupOrder (blockRe blog)) m = some g ∧
      ∀ st st', Calm st → blockRepl g m st = .ok st' → Adds0 (letters m.text) st st' := by
  obtain ⟨rule, hr, s', pre, rest, hh⟩ := findAll_alts (by simp [blockRules]) hm
  rw [blockRe, hh.dispatch_alts hr (blockRules_apart blog rule hr)]
  exact blockRepl_adds_rule hno hr hh

theorem finish_letters {s : Str} {st : PS} (h1 : Adds0 s PS.init st) : Kin s st.finish.root.shown := by
  obtain ⟨hf, t, e1, e2⟩ := h1.gains
  obtain ⟨c1, c2, c3⟩ := climb_shown (stop := fun _ => false) hf.cur hf.up
  have e3 : PS.init.shown = [] := rfl
  rw [e3, List.nil_append] at e1
  rw [show st.finish.root = (climb (fun _ => false) st.cur st.up).1.close from rfl, Frame.shown_close c2]
  have hup : ∀ (up : List Frame) (f : Frame), (climb (fun _ => false) f up).2 = [] := by
    intro up
    induction up with
    | nil => intro f; rfl
    | cons q up ih => intro f; rw [climb]; exact ih _
  rw [hup] at c1
  rw [show (climb (fun _ => false) st.cur st.up).1.shown = st.shown from c1, e1]
  exact e2

/-- the tree of a text without macros has the letters of the text, and no others if there are no links and no pictures -/
theorem parse_letters {blog : Bool} {raw : Str} (hno : ¬ c!"<<" <:+: normNewlines raw) {d : Doc} (h : parse blog raw = .ok d) :
    Kin (letters (normNewlines raw)) d.root.shown := by
  unfold parse at h
  cases hb : parseBlock blog (normNewlines raw) PS.init with
  | error e => rw [hb] at h; cases h
  | ok st =>
    rw [hb] at h
    cases h
    have h0 : Calm PS.init := ⟨⟨rfl, by simp [PS.init], by intro h; cases h⟩, rfl⟩
    have h1 : Adds0 (letters (normNewlines raw)) PS.init st :=
      subAll_adds0 h0 noSkip_block hb fun m hm => blockRepl_adds hno hm
    exact finish_letters h1

end Verif.Creole
