import Verif.Creole.Shape

/-!
# The shape of the trees of the creole parser: blocks
-/

namespace Verif.Creole

open Verif Re Py

variable {q : Src} {st st' : PS} {m : Match G}

theorem Src.Has.blank {w : Str} (h : q.Has w) (hs : q.chars ' ') : q.Has (' ' :: w) := by
  refine ⟨?_, ?_⟩
  · intro c hc
    simp only [List.mem_cons] at hc
    rcases hc with rfl | hc
    · exact hs
    · exact h.chars c hc
  · rintro ⟨h1, c, u, h2, h3, h4⟩
    refine h.size ⟨?_, c, u, h2, h3, ?_⟩
    · rcases List.infix_cons_iff.1 h1 with h | h
      · obtain ⟨r, hr⟩ := h; simp at hr
      · exact h
    · rcases List.infix_cons_iff.1 h4 with h | h
      · obtain ⟨r, hr⟩ := h
        simp only [List.cons_append, List.cons.injEq] at hr
        rcases h2 with rfl | rfl
        · exact absurd hr.1 (by decide)
        · exact absurd hr.1 (by decide)
      · exact h

/-- between two blocks -/
structure Rests (q : Src) (st : PS) : Prop where
  sane : Sane q st
  text : st.text = false
  kind : st.cur.info.kind ≠ .link

theorem Rests.upto (h : Rests q st) (stop : Kind → Bool) (hl : stop .link = false) : Rests q (st.upto stop) ∧
    (stop (st.upto stop).cur.info.kind = true ∨ (st.upto stop).cur.info.kind = .document) := by
  obtain ⟨h1, h2, h3⟩ := h.sane.upto h.text stop
  refine ⟨⟨h1, h2, ?_⟩, h3⟩
  intro he
  rw [he, hl] at h3
  rcases h3 with h3 | h3 <;> cases h3

theorem Rests.doc (h : Rests q st) : Rests q (st.upto isDoc) ∧ (st.upto isDoc).cur.info.kind = .document := by
  obtain ⟨h1, h2⟩ := h.upto isDoc rfl
  refine ⟨h1, ?_⟩
  rcases h2 with h2 | h2
  · simpa [isDoc] using h2
  · exact h2

theorem Rests.push (h : Rests q st) {i : Info} (hk : i.kind.holds = true) (hl : i.kind ≠ .link) (hu : st.cur.info.kind.takes i.kind = true)
    (hi : i.good q) : Rests q (st.push i) := by
  obtain ⟨h1, h2⟩ := push_sane h.sane hk hu hi
  exact ⟨⟨h1, textOK_of_false h.text⟩, h.text, hl⟩

theorem Rests.leaf (h : Rests q st) {i : Info} (hu : st.cur.info.kind.takes i.kind = true) (hi : i.good q) : Rests q (st.leaf i).noText := by
  have := leaf_grows h.sane (h.sane.under hu) hi
  exact ⟨this.sane, rfl, by rw [this.info]; exact h.kind⟩

theorem Rests.leaf' (h : Rests q st) {i : Info} (hu : st.cur.info.kind.takes i.kind = true) (hi : i.good q) : Rests q (st.leaf i) := by
  obtain ⟨⟨h1, h2⟩, h3, h4⟩ := h.leaf hu hi
  exact ⟨⟨h1, textOK_of_false h.text⟩, h.text, h4⟩

theorem Rests.grows (h : Rests q st) (hg : Grows q st st') : Rests q st'.noText :=
  ⟨hg.sane.noText, rfl, by show st'.cur.info.kind ≠ _; rw [hg.info]; exact h.kind⟩

theorem fold_rests {α : Type} {f : PS → α → PM} : ∀ {l : List α} {st st' : PS}, Rests q st → l.foldlM f st = .ok st' →
    (∀ m ∈ l, ∀ st st', Rests q st → f st m = .ok st' → Rests q st') → Rests q st' := by
  intro l
  induction l with
  | nil => intro st st' hf h _; cases h; exact hf
  | cons m l ih =>
    intro st st' hf h hh
    rw [List.foldlM_cons] at h
    obtain ⟨st1, h1, h2⟩ := bind_ok_inv h
    exact ih (hh m List.mem_cons_self st st1 hf h1) h2 fun m hm => hh m (List.mem_cons_of_mem _ hm)

theorem subAll_rests {r : R} {h : G → Match G → PS → PM} {raw : Str} (hf : Rests q st) (he : subAll r h raw st = .ok st')
    (hh : ∀ m ∈ r.findAll raw, ∃ g, dispatch (groupOrder r) m = some g ∧
      ∀ st st', Rests q st → h g m st = .ok st' → Rests q st') : Rests q st' := by
  refine fold_rests hf he ?_
  intro m hm st st' hf h1
  obtain ⟨g, hg, hh⟩ := hh m hm
  rw [hg] at h1
  exact hh st st' hf h1

/-! ## The blocks -/

theorem lineRepl_rests (hf : Rests q st) (h : lineRepl st = .ok st') : Rests q st' := by
  unfold lineRepl at h
  obtain ⟨st1, h1, h2⟩ := bind_ok_inv h
  obtain ⟨rfl, _⟩ := checkText_inv h1
  cases h2
  exact hf.doc.1.leaf' (by rw [hf.doc.2]; rfl) trivial

theorem separatorRepl_rests (hf : Rests q st) (h : separatorRepl st = .ok st') : Rests q st' := by
  unfold separatorRepl at h
  obtain ⟨st1, h1, h2⟩ := bind_ok_inv h
  obtain ⟨rfl, _⟩ := checkText_inv h1
  cases h2
  exact hf.doc.1.leaf' (by rw [hf.doc.2]; rfl) trivial

theorem headRepl_rests (hf : Rests q st) (hn : ∀ v, m.get .head_head = some v → v ≠ []) (h : headRepl m st = .ok st') : Rests q st' := by
  unfold headRepl at h
  dsimp only at h
  obtain ⟨w, h1, h2⟩ := bind_ok_inv h
  obtain ⟨v, h3, h4⟩ := bind_ok_inv h2
  cases h4
  refine hf.doc.1.leaf (by rw [hf.doc.2]; rfl) ⟨_, v.length - 1, rfl, ?_⟩
  have := List.length_pos_iff.mpr (hn v (need_inv h3))
  show some v.length = _
  congr 1
  omega

theorem macroBlockRepl_rests (hf : Rests q st) (h : macroBlockRepl m st = .ok st') : Rests q st' := by
  unfold macroBlockRepl at h
  dsimp only at h
  have hd := hf.doc
  have hc := hd.1.sane.path.climb (stop := fun _ => false)
  have hk : (climb (fun _ => false) (st.upto isDoc).cur (st.upto isDoc).up).1.info.kind = .document := by
    rcases hc.2 with h | h
    · cases h
    · exact h
  have h0 : Sane q (⟨(climb (fun _ => false) (st.upto isDoc).cur (st.upto isDoc).up).1,
      (climb (fun _ => false) (st.upto isDoc).cur (st.upto isDoc).up).2, (st.upto isDoc).text, (st.upto isDoc).used⟩ : PS) :=
    ⟨hc.1, textOK_of_false hd.1.text⟩
  have := addMacro_grows h0 (.inr rfl) (by show Kind.takes (Info.kind (Frame.info (climb _ _ _).1)) _ = _; rw [hk]; rfl) h
  refine ⟨this.sane, ?_, ?_⟩
  · have ht : ∀ {k nk ak tk} {st st' : PS}, addMacro k nk ak tk m st = .ok st' → st'.text = false := by
      intro k nk ak tk st st' h
      unfold addMacro at h
      dsimp only at h
      split at h
      all_goals
        obtain ⟨t, h1, h⟩ := bind_ok_inv h
        obtain ⟨n, h2, h⟩ := bind_ok_inv h
        obtain ⟨a, h3, h⟩ := bind_ok_inv h
        cases h
        rfl
    exact ht h
  · rw [this.info]
    show Info.kind (Frame.info (climb _ _ _).1) ≠ _
    rw [hk]
    decide

theorem textRepl_rests (hq : ∀ w, m.get .text = some w → q.Has w) (hs : q.chars ' ') (hf : Rests q st) (h : textRepl m st = .ok st') : Rests q st' := by
  unfold textRepl at h
  replace h := bind_ok_inv h
  obtain ⟨st0, h0, h⟩ := h
  obtain ⟨rfl, _⟩ := checkText_inv h0
  clear h0
  dsimp only at h
  generalize hs1 : (if (decide (st0.cur.kind = Kind.table) || decide (st0.cur.kind = Kind.table_row) ||
    decide (st0.cur.kind = Kind.bullet_list) || decide (st0.cur.kind = Kind.number_list)) = true
    then st0.uptoBlock else st0) = st1 at h
  have h1 : Rests q st1 ∧ (st1.cur.info.kind.running = true ∨ st1.cur.info.kind = .document) := by
    rw [← hs1]
    split
    · exact ⟨hf.doc.1, .inr hf.doc.2⟩
    · rename_i hx
      refine ⟨hf, ?_⟩
      have h1 := hf.sane.path.holds
      have h2 := hf.kind
      unfold Frame.kind at hx
      generalize st0.cur.info.kind = k at h1 h2 hx
      revert h1 h2 hx
      cases k <;> decide
  clear hs1
  generalize hs2 : (if isDoc st1.cur.kind = true then st1.push { kind := Kind.paragraph } else st1) = st2 at h
  have h2 : Rests q st2 ∧ st2.cur.info.kind.running = true := by
    rw [← hs2]
    split
    · rename_i hd
      have hd : st1.cur.info.kind = .document := of_decide_eq_true hd
      exact ⟨h1.1.push rfl (by simp) (by rw [hd]; rfl) trivial, rfl⟩
    · rename_i hd
      refine ⟨h1.1, ?_⟩
      rcases h1.2 with h | h
      · exact h
      · exact absurd (decide_eq_true h) hd
  clear hs2
  obtain ⟨w, hw, h⟩ := bind_ok_inv h
  obtain ⟨st3, h3, h⟩ := bind_ok_inv h
  cases h
  have ht := hq w (need_inv hw)
  replace ht : q.Has (if ((m.get .space).getD [] ≠ [] && !st2.cur.children.isEmpty) = true then ' ' :: w else w) := by
    split
    · exact ht.blank hs
    · exact ht
  have h4 : Grows q st2 st3 := parseInline_grows ht h2.1.sane h2.2 h3
  split
  · have h5 := h4.trans (leaf_grows h4.sane (i := { kind := .brk, content := some [] })
      (h4.sane.under (by rw [h4.info]; exact Kind.running_takes h2.2 rfl)) trivial)
    exact ⟨h5.sane, rfl, by rw [h5.info]; exact h2.1.kind⟩
  · exact h2.1.grows h4

theorem itemRepl_rests (hq : ∀ w, m.get .item_text = some w → q.Has w) (hf : Rests q st) (h : itemRepl m st = .ok st') : Rests q st' := by
  unfold itemRepl at h
  replace h := bind_ok_inv h
  obtain ⟨st0, h0, h⟩ := h
  obtain ⟨rfl, _⟩ := checkText_inv h0
  clear h0
  obtain ⟨v, hv, h⟩ := bind_ok_inv h
  obtain ⟨w, hw, h⟩ := bind_ok_inv h
  split at h
  · cases h
  · rename_i b hb
    dsimp only at h
    generalize hk : (if b = '#' then Kind.number_list else Kind.bullet_list) = k at h
    have hkk : k = .number_list ∨ k = .bullet_list := by rw [← hk]; split <;> simp
    have hnl : Rests q ((st0.upto fun k => decide (k = Kind.list_item) || isDoc k).push
        { kind := k, level := some (v.length - 1) }) := by
      obtain ⟨h1, h2⟩ := hf.upto (fun k => decide (k = Kind.list_item) || isDoc k) rfl
      refine h1.push ?_ ?_ ?_ ?_
      · rcases hkk with rfl | rfl <;> rfl
      · rcases hkk with rfl | rfl <;> simp
      · generalize (st0.upto fun k => decide (k = Kind.list_item) || isDoc k).cur.info.kind = x at h2
        rcases hkk with rfl | rfl <;> revert h2 <;> dsimp only <;> cases x <;> decide
      · rcases hkk with rfl | rfl <;> exact ⟨_, rfl⟩
    have hnk : ((st0.upto fun k => decide (k = Kind.list_item) || isDoc k).push
        { kind := k, level := some (v.length - 1) }).cur.info.kind = k := rfl
    generalize (st0.upto fun k => decide (k = Kind.list_item) || isDoc k).push
        { kind := k, level := some (v.length - 1) } = nl at h hnl hnk
    obtain ⟨st3, h3, h⟩ := bind_ok_inv h
    cases h
    have key : ∀ st1, Rests q st1 → st1.cur.info.kind = k →
        parseInline w (st1.push { kind := Kind.list_item, level := some (v.length - 1 + 1) }) = .ok st3 → Rests q st3.noText := by
      intro st1 h1 hk1 h3
      have h2 := h1.push (i := { kind := Kind.list_item, level := some (v.length - 1 + 1) }) rfl (by simp)
        (by rw [hk1]; rcases hkk with rfl | rfl <;> rfl) ⟨_, rfl⟩
      exact h2.grows (parseInline_grows (hq w (need_inv hw)) h2.sane rfl h3)
    split at h3
    · rename_i f up hfl
      split at h3
      · rename_i hfk
        refine key ({ st0 with cur := f, up := up } : PS) ⟨⟨hf.sane.path.findList hfl, textOK_of_false hf.text⟩, hf.text, ?_⟩ hfk h3
        show f.info.kind ≠ _
        unfold Frame.kind at hfk
        rw [hfk]
        rcases hkk with rfl | rfl <;> decide
      · exact key _ hnl hnk h3
    · exact key _ hnl hnk h3

theorem listRepl_rests (hq : ∀ w, m.get .list = some w → q.Has w) (hf : Rests q st) (h : listRepl m st = .ok st') : Rests q st' := by
  unfold listRepl at h
  obtain ⟨w', h0, h⟩ := bind_ok_inv h
  refine subAll_rests hf h ?_
  intro m hm
  obtain ⟨rule, hr, s', pre, rest, hh⟩ := findAll_alts (l := [itemRe]) (by simp) hm
  simp only [List.mem_cons, List.not_mem_nil, or_false] at hr
  subst hr
  exact ⟨.item, hh.dispatch (by decide) (by decide), fun st st' hf h => itemRepl_rests (fun w hw => (hq w' (need_inv h0)).infix (hh.infix hw)) hf h⟩

theorem cell_infix {row : Str} (hm : m ∈ cellRe.findAll row) {g : G} {w : Str} (hw : m.get g = some w) : w <:+: row := by
  obtain ⟨rule, hr, s', pre, rest, hh⟩ := findAll_alts (l := [cellRe]) (by simp) hm
  exact hh.infix hw

theorem cellRepl_grows (hq : ∀ g w, m.get g = some w → q.Has w) (hf : Sane q st) (hk : st.cur.info.kind = .table_row) (h : cellRepl st m = .ok st') : Grows q st st' := by
  unfold cellRepl at h
  dsimp only at h
  split at h
  · obtain ⟨st1, h1, h⟩ := bind_ok_inv h
    obtain ⟨st2, h2, h⟩ := bind_ok_inv h
    cases h
    have hp := push_sane hf (i := { kind := .table_cell }) rfl (by rw [hk]; rfl) trivial
    have hi := parseInline_grows (Src.Has.infix (by
      cases ht : m.get .cell with
      | none => exact .nil q
      | some v => exact hq _ v ht) (Py.strip_infix _)) hp rfl h1
    exact popTo_grows (i := { kind := .table_cell }) ⟨hi.up, hi.info, hi.sane⟩ h2
  · obtain ⟨w, h0, h⟩ := bind_ok_inv h
    obtain ⟨st1, h1, h⟩ := bind_ok_inv h
    obtain ⟨st2, h2, h⟩ := bind_ok_inv h
    cases h
    have hp := push_sane hf (i := { kind := .table_head }) rfl (by rw [hk]; rfl) trivial
    have hl := leaf_grows hp (i := { kind := .text, content := some [] }) (hp.under rfl) ⟨_, rfl⟩
    have hs : Sane q ({ (st.push { kind := .table_head }).leaf { kind := .text, content := some [] } with text := true } : PS) :=
      ⟨hl.sane.path, fun _ => ⟨[], [], rfl⟩⟩
    have hi := parseInline_grows (Src.Has.infix (hq _ _ (need_inv h0)) (Py.stripP_infix _ _)) hs rfl h1
    exact popTo_grows (i := { kind := .table_head }) ⟨hi.up, hi.info, hi.sane⟩ h2

theorem tableRepl_rests (hq : ∀ w, m.get .table = some w → q.Has w) (hf : Rests q st) (h : tableRepl m st = .ok st') : Rests q st' := by
  unfold tableRepl at h
  obtain ⟨w', h0, h⟩ := bind_ok_inv h
  dsimp only at h
  have h1 := hf.upto (fun k => decide (k = Kind.table) || isDoc k) rfl
  generalize (st.upto fun k => decide (k = Kind.table) || isDoc k) = st1 at h h1
  generalize hs : (if st1.cur.kind = Kind.table then st1 else st1.push { kind := Kind.table }) = st2 at h
  have h2 : Rests q st2 ∧ st2.cur.info.kind = .table := by
    rw [← hs]
    split
    · rename_i hk; exact ⟨h1.1, hk⟩
    · rename_i hk
      have hd : st1.cur.info.kind = .document := by
        have h3 := h1.2
        unfold Frame.kind at hk
        generalize st1.cur.info.kind = k at h3 hk
        revert h3 hk
        cases k <;> decide
      exact ⟨h1.1.push rfl (by simp) (by rw [hd]; rfl) trivial, rfl⟩
  clear hs
  have h3 := h2.1.push (i := { kind := .table_row }) rfl (by simp) (by rw [h2.2]; rfl) trivial
  obtain ⟨st4, h4, h⟩ := bind_ok_inv h
  obtain ⟨st5, h5, h⟩ := bind_ok_inv h
  cases h
  have h6 : Grows q (st2.push { kind := .table_row }) st4 :=
    fold_grows h3.sane h4 fun m hm sa sb hg h => cellRepl_grows (fun g w hw => (hq w' (need_inv h0)).infix ((cell_infix hm hw).trans (Py.strip_infix _))) hg.sane (by rw [hg.info]; rfl) h
  have h7 := popTo_grows h6 h5
  have := h2.1.grows h7
  exact this

/-! ## Preformatted text -/

theorem preBlock_text {raw : Str} {s' : St G} {pre rest : Str} (h : RuleHit preBlockRule raw m s' pre rest) {w : Str}
    (hw : m.get .pre_block_text = some w) : w.head? = some '\n' ∧ w.getLast? = some '\n' := by
  have hm := h.mem
  unfold Match.get at hw
  rw [h.caps] at hw
  unfold preBlockRule at hm
  simp only [cat] at hm
  rw [mem_res_grp] at hm
  obtain ⟨t, ht, rfl⟩ := hm
  rw [mem_res_seq] at ht
  obtain ⟨t1, h1, ht⟩ := ht
  rw [mem_res_seq] at ht
  obtain ⟨t2, h2, ht⟩ := ht
  rw [mem_res_seq] at ht
  obtain ⟨t3, h3, ht⟩ := ht
  rw [mem_res_seq] at ht
  obtain ⟨t4, h4, ht⟩ := ht
  rw [mem_res_seq] at ht
  obtain ⟨t5, h5, ht⟩ := ht
  rw [mem_res_seq] at ht
  obtain ⟨t6, h6, ht⟩ := ht
  rw [mem_res_eol] at h4
  obtain ⟨h4, rfl⟩ := h4
  rw [mem_res_bol] at h6
  obtain ⟨h6, rfl⟩ := h6
  obtain ⟨_, e1⟩ := mem_res_lit ht
  rw [mem_res_grp] at h5
  obtain ⟨t7, h5, rfl⟩ := h5
  have hlt := Re.res_lt (by decide) h5
  obtain ⟨v, hv⟩ := Re.res_reach h5
  have hw : some v = some w := by
    have hb : (G.pre_block_text == G.pre_block) = false := rfl
    simpa only [e1, capGet, List.lookup_cons, hv.consumed_eq, hb, beq_self_eq_true] using hw
  have hw : v = w := Option.some.inj hw
  subst hw
  have hn : v ≠ [] := by
    rintro rfl
    have := hv.rest
    rw [List.nil_append] at this
    rw [this] at hlt
    exact Nat.lt_irrefl _ hlt
  constructor
  · have := hv.rest
    cases v with
    | nil => exact absurd rfl hn
    | cons c v =>
      rw [this] at h4
      simp only [List.cons_append, atEol, Bool.true_or, Bool.and_true, beq_iff_eq] at h4
      rw [h4]
      rfl
  · have := hv.prev
    rw [if_neg hn] at this
    simp only at h6
    rw [this] at h6
    cases hl : v.getLast? with
    | none => rw [List.getLast?_eq_none_iff] at hl; exact absurd hl hn
    | some c =>
      rw [hl] at h6
      simpa [atBol] using h6

theorem sub_last {r : R} {f : Match G → Str} {s : Str} (h : ∀ m ∈ r.findAll s, (f m).getLast? = m.text.getLast?) :
    (r.sub f s).getLast? = s.getLast? := by
  conv => rhs; rw [← Re.scan_text r s]
  rw [Re.sub]
  rw [Re.findAll] at h
  generalize r.scan s = l at h
  induction l with
  | nil => rfl
  | cons x l ih =>
    have ih := ih (by
      intro m hm
      refine h m ?_
      rw [List.mem_filterMap] at hm ⊢
      obtain ⟨a, ha, hb⟩ := hm
      exact ⟨a, List.mem_cons_of_mem _ ha, hb⟩)
    rw [List.flatMap_cons, List.flatMap_cons, List.getLast?_append, List.getLast?_append, ih]
    cases x with
    | skip c => rfl
    | hit m =>
      have h2 := h m (by simp)
      simp only at h2 ⊢
      rw [h2]
      rfl

theorem sub_first {r : R} {f : Match G → Str} {s : Str} {c : Char} (h : ∀ m ∈ r.findAll s, m.text.head? = some c → (f m).head? = some c)
    (h0 : ∀ m ∈ r.findAll s, m.text ≠ []) (hs : s.head? = some c) : (r.sub f s).head? = some c := by
  rw [← Re.scan_text r s] at hs
  rw [Re.sub]
  rw [Re.findAll] at h h0
  generalize r.scan s = l at h h0 hs
  cases l with
  | nil => cases hs
  | cons x l =>
    rw [List.flatMap_cons, List.head?_append] at hs ⊢
    cases x with
    | skip c => exact hs
    | hit m =>
      have hm : m ∈ List.filterMap (fun x : Seg G => match x with | .hit m => some m | .skip _ => none) (Seg.hit m :: l) := by simp
      have h1 := h m (by simp)
      have h2 := h0 m (by simp)
      simp only at h1 ⊢
      cases ht : m.text with
      | nil => exact absurd ht h2
      | cons d u =>
        rw [ht] at h1
        have : (Seg.hit m).text = d :: u := ht
        rw [this] at hs
        rw [h1 hs]
        rfl

theorem removeTilde_edges {s : Str} (h1 : s.head? = some '\n') : (removeTilde s).head? = s.head? ∧ (removeTilde s).getLast? = s.getLast? := by
  have key : ∀ m ∈ preEscapeRe.findAll s, ∃ u v, (m.get .indent).getD [] = u ∧ (m.get .rest).getD [] = '}' :: v ∧ m.text = u ++ '~' :: '}' :: v := by
    intro m hm
    obtain ⟨rule, hr, s', pre, rest, hh⟩ := findAll_alts (l := [preEscapeRe]) (by simp) hm
    simp only [List.mem_cons, List.not_mem_nil, or_false] at hr
    subst hr
    have hm := hh.mem
    unfold Match.get
    rw [hh.caps]
    have ht := hh.text
    unfold preEscapeRe at hm
    simp only [cat] at hm
    rw [mem_res_seq] at hm
    obtain ⟨t1, h1, hm⟩ := hm
    rw [mem_res_bol] at h1
    obtain ⟨_, rfl⟩ := h1
    rw [mem_res_seq] at hm
    obtain ⟨t2, h2, hm⟩ := hm
    rw [mem_res_seq] at hm
    obtain ⟨t3, h3, hm⟩ := hm
    rw [mem_res_seq] at hm
    obtain ⟨t4, h4, hm⟩ := hm
    rw [mem_res_eol] at hm
    obtain ⟨_, rfl⟩ := hm
    rw [mem_res_grp] at h2
    obtain ⟨t5, h5, rfl⟩ := h2
    have e5 := Re.res_caps_eq (by decide) h5
    obtain ⟨u, hu⟩ := Re.res_reach h5
    unfold ch at h3
    rw [mem_res_cls] at h3
    obtain ⟨c, r, h6, h7, rfl⟩ := h3
    simp only [CSet.mem, beq_iff_eq] at h7
    subst h7
    rw [mem_res_grp] at h4
    obtain ⟨t6, h8, rfl⟩ := h4
    have e6 := Re.res_caps_eq (by decide) h8
    obtain ⟨v, hv⟩ := Re.res_reach h8
    rw [mem_res_seq] at h8
    obtain ⟨t7, h9, h10⟩ := h8
    obtain ⟨h11, _⟩ := mem_res_lit h9
    obtain ⟨x, hx⟩ := Re.res_reach h10
    have hvx : v = '}' :: ('}' :: '}' :: x) := by
      have := hv.rest
      rw [h11, hx.rest, ← List.append_assoc] at this
      exact (List.append_cancel_right this).symm
    refine ⟨u, '}' :: '}' :: x, ?_, ?_, ?_⟩
    · have hb : (G.indent == G.rest) = false := rfl
      simp only [capGet, List.lookup_cons, hb, e6, beq_self_eq_true, hu.consumed_eq, Option.getD_some]
    · simp only [capGet, List.lookup_cons, beq_self_eq_true, hv.consumed_eq, Option.getD_some, hvx]
    · have h12 := hu.rest
      simp only at h6 ht h12
      have h13 := hv.rest
      simp only at h13
      rw [h6, h13, hvx, ht] at h12
      have : m.text ++ t6.rest = (u ++ '~' :: '}' :: '}' :: '}' :: x) ++ t6.rest := by rw [h12]; simp
      exact List.append_cancel_right this
  constructor
  · rw [h1]
    refine sub_first ?_ ?_ h1
    · intro m hm h
      obtain ⟨u, v, e1, e2, e3⟩ := key m hm
      rw [e3] at h
      rw [e1]
      cases u with
      | nil => exact absurd (Option.some.inj h) (by decide)
      | cons c u => exact h
    · intro m hm
      obtain ⟨u, v, e1, e2, e3⟩ := key m hm
      rw [e3]
      simp
  · refine sub_last ?_
    intro m hm
    obtain ⟨u, v, e1, e2, e3⟩ := key m hm
    rw [e1, e2, e3, List.getLast?_append, List.getLast?_append, List.getLast?_cons_cons]

theorem preBlockRepl_rests (hf : Rests q st) (hw : ∀ w, m.get .pre_block_text = some w → w.head? = some '\n' ∧ w.getLast? = some '\n')
    (h : preBlockRepl m st = .ok st') : Rests q st' := by
  unfold preBlockRepl at h
  dsimp only at h
  obtain ⟨w, h1, h2⟩ := bind_ok_inv h
  cases h2
  obtain ⟨h3, h4⟩ := hw w (need_inv h1)
  obtain ⟨h5, h6⟩ := removeTilde_edges h3
  exact hf.doc.1.leaf (by rw [hf.doc.2]; rfl) ⟨_, rfl, h5.trans h3, h6.trans h4⟩

/-! ## Documents -/

theorem blockRepl_rests_rule {blog : Bool} {raw : Str} (hq : q.Has raw) (hs : q.chars ' ') {rule : R} (hr : rule ∈ blockRules blog)
    {s' : St G} {pre rest : Str} (hh : RuleHit rule raw m s' pre rest) :
    ∃ g, dispatch (groupOrder rule) m = some g ∧ ∀ st st', Rests q st → blockRepl g m st = .ok st' → Rests q st' := by
  simp only [blockRules, List.mem_cons, List.not_mem_nil, or_false] at hr
  rcases hr with rfl | rfl | rfl | rfl | rfl | rfl | rfl | rfl
  · exact ⟨.macro_block, hh.dispatch (by decide) (by cases blog <;> decide), fun st st' hf h => macroBlockRepl_rests hf h⟩
  · exact ⟨.line, hh.dispatch (by decide) (by cases blog <;> decide), fun st st' hf h => lineRepl_rests hf h⟩
  · refine ⟨.head, hh.dispatch (by decide) (by cases blog <;> decide), fun st st' hf h => headRepl_rests hf ?_ h⟩
    intro v hv
    unfold Match.get at hv
    rw [hh.caps] at hv
    obtain ⟨b, s1, s2, h1, h2, h3⟩ := capGet_body hh.mem hv
    have : ∀ x ∈ headRule.bodies, x.1 = .head_head → x.2.nullable = false := by decide +kernel
    have := Re.res_lt (this _ h1 rfl) h2
    rintro rfl
    rw [h3.rest, List.nil_append] at this
    exact Nat.lt_irrefl _ this
  · exact ⟨.separator, hh.dispatch (by decide) (by cases blog <;> decide), fun st st' hf h => separatorRepl_rests hf h⟩
  · exact ⟨.pre_block, hh.dispatch (by decide) (by cases blog <;> decide), fun st st' hf h =>
      preBlockRepl_rests hf (fun w hw => preBlock_text hh hw) h⟩
  · exact ⟨.list, hh.dispatch (by decide) (by cases blog <;> decide), fun st st' hf h => listRepl_rests (fun w hw => hq.infix (hh.infix hw)) hf h⟩
  · exact ⟨.table, hh.dispatch (by decide) (by cases blog <;> decide), fun st st' hf h => tableRepl_rests (fun w hw => hq.infix (hh.infix hw)) hf h⟩
  · obtain ⟨g, hd, hg⟩ := dispatch_names (r := textRule blog) hh (g0 := .text) (by cases blog <;> decide)
      (by cases blog <;> decide)
    refine ⟨g, hd, ?_⟩
    intro st st' hf h
    have h : textRepl m st = .ok st' := by
      have : g = .text ∨ g = .brk ∨ g = .space := by
        have h : ∀ x ∈ (textRule blog).names, x = .text ∨ x = .brk ∨ x = .space := by cases blog <;> decide
        exact h g hg
      rcases this with rfl | rfl | rfl <;> exact h
    exact textRepl_rests (fun w hw => hq.infix (hh.infix hw)) hs hf h

theorem blockRepl_rests {blog : Bool} {raw : Str} (hq : q.Has raw) (hs : q.chars ' ') (hm : m ∈ (blockRe blog).findAll raw) :
    ∃ g, dispatch (groupOrder (blockRe blog)) m = some g ∧ ∀ st st', Rests q st → blockRepl g m st = .ok st' → Rests q st' := by
  obtain ⟨rule, hr, s', pre, rest, hh⟩ := findAll_alts (by simp [blockRules]) hm
  rw [blockRe, hh.dispatch_alts hr (blockRules_apart blog rule hr)]
  exact blockRepl_rests_rule hq hs hr hh

/-- the tree of any text -/
theorem parse_sound {blog : Bool} {raw : Str} {d : Doc} (hq : q.Has (normNewlines raw)) (hs : q.chars ' ') (h : parse blog raw = .ok d) :
    d.root.Sound q ∧ d.root.info.kind = .document := by
  unfold parse at h
  cases hb : parseBlock blog (normNewlines raw) PS.init with
  | error e => rw [hb] at h; cases h
  | ok st =>
    rw [hb] at h
    cases h
    have h0 : Rests q PS.init := ⟨⟨.root ⟨trivial, by simp [PS.init], by simp [PS.init]⟩ rfl, textOK_of_false rfl⟩, rfl, by decide⟩
    have h1 : Rests q st := subAll_rests h0 hb fun m hm => blockRepl_rests hq hs hm
    obtain ⟨c1, c2⟩ := h1.sane.path.climb (stop := fun _ => false)
    refine ⟨c1.sound.close, ?_⟩
    rcases c2 with h | h
    · cases h
    · exact h

end Verif.Creole
