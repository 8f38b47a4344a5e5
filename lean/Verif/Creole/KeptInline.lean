import Verif.Creole.Kept

/-!
# The parser keeps the letters of the text: the handlers
-/

namespace Verif.Creole

open Verif Re Py Spec.Kp

variable {st st' : PS} {m : Match G}

/-! ## Inline -/

theorem urlRepl_gains (hf : Fit st) (h : urlRepl m st = .ok st') : ∃ w, m.get .url_target = some w ∧ Gains (letters w) st st' := by
  unfold urlRepl at h
  split at h
  · obtain ⟨w, h1, h2⟩ := bind_ok_inv h
    cases h2
    refine ⟨w, need_inv h1, (addNode_gains hf _).mono ?_⟩
    simp only [Node.shown, shownL, Option.getD_some, Info.own, if_true, List.cons_append, List.append_nil]
    exact Kin.medium (List.sublist_append_left _ _) (by simp)
  · obtain ⟨w, h1, h2⟩ := bind_ok_inv h
    exact ⟨w, need_inv h1, addChars_gains hf h2⟩

theorem imageRepl_gains (hf : Fit st) (h : imageRepl m st = .ok st') : ∃ w, m.get .image_target = some w ∧
    Gains (letters w ++ letters ((m.get .image_text).getD [])) st st' := by
  unfold imageRepl at h
  obtain ⟨w, h1, h2⟩ := bind_ok_inv h
  cases h2
  refine ⟨w, need_inv h1, (addNode_gains hf _).mono ?_⟩
  simp only [Node.shown, getText, Node.info, Option.getD_some]
  rw [letters_strip]
  split
  · rename_i h0
    rw [← letters_strip ((m.get .image_text).getD []), h0]
    refine Kin.medium ?_ ?_
    · exact (List.Sublist.refl _).append (List.nil_sublist _)
    · rw [letters_strip]
      simp [letters]
  · rw [letters_strip]
    exact Kin.medium (List.Sublist.refl _) fun _ h => h

theorem preInlineRepl_gains (hf : Fit st) (h : preInlineRepl m st = .ok st') : ∃ w, m.get .pre_inline_text = some w ∧
    Gains (letters w) st st' := by
  unfold preInlineRepl at h
  obtain ⟨w, h1, h2⟩ := bind_ok_inv h
  cases h2
  exact ⟨w, need_inv h1, leaf_gains hf _⟩

theorem linebreakRepl_gains (hf : Fit st) (h : linebreakRepl st = .ok st') : Gains [] st st' := by
  cases h
  exact leaf_gains hf _

theorem escapeRepl_gains (hf : Fit st) (h : escapeRepl m st = .ok st') : ∃ w, m.get .escaped_char = some w ∧ Gains (letters w) st st' := by
  unfold escapeRepl at h
  obtain ⟨w, h1, h2⟩ := bind_ok_inv h
  exact ⟨w, need_inv h1, addChars_gains hf h2⟩

theorem charRepl_gains (hf : Fit st) (h : charRepl m st = .ok st') : ∃ w, m.get .char = some w ∧ Gains (letters w) st st' := by
  unfold charRepl at h
  obtain ⟨w, h1, h2⟩ := bind_ok_inv h
  exact ⟨w, need_inv h1, addChars_gains hf h2⟩

/-- the steps for all matches of an expression -/
theorem fold_gains {f : PS → Match G → PM} : ∀ {l : List (Match G)} {st st' : PS}, Fit st → l.foldlM f st = .ok st' →
    (∀ m ∈ l, ∀ st st', Fit st → f st m = .ok st' → Gains (letters m.text) st st') →
    Gains (l.flatMap fun m => letters m.text) st st' := by
  intro l
  induction l with
  | nil => intro st st' hf h _; cases h; exact Gains.nothing hf rfl
  | cons m l ih =>
    intro st st' hf h hh
    rw [List.foldlM_cons] at h
    obtain ⟨st1, h1, h2⟩ := bind_ok_inv h
    have ha := hh m List.mem_cons_self st st1 hf h1
    exact ha.trans (ih ha.1 h2 fun m hm => hh m (List.mem_cons_of_mem _ hm))

theorem subAll_gains {r : R} {h : G → Match G → PS → PM} {raw : Str} (hf : Fit st)
    (hs : ∀ c, Seg.skip c ∈ r.scan raw → keeps c = false) (he : subAll r h raw st = .ok st')
    (hh : ∀ m ∈ r.findAll raw, ∃ g, dispatch (groupOrder r) m = some g ∧
      ∀ st st', Fit st → h g m st = .ok st' → Gains (letters m.text) st st') :
    Gains (letters raw) st st' := by
  rw [Re.scan_letters hs]
  refine fold_gains hf he ?_
  intro m hm st st' hf h1
  obtain ⟨g, hg, hh⟩ := hh m hm
  rw [hg] at h1
  exact hh st st' hf h1

/-- expressions whose last alternative is a single character skip no letter -/
theorem noSkip_char {l : List R} {raw : Str} : ∀ c, Seg.skip c ∈ (alts (l ++ [charRule])).scan raw → keeps c = false := by
  refine Re.scanAux_noSkip ?_ raw none 0
  intro p c cs hc
  have hn : c ≠ '\n' := by rintro rfl; revert hc; decide +kernel
  refine ⟨⟨some c, cs, [(.char, consumed (c :: cs) cs)]⟩, ?_, by simp⟩
  have key : (⟨some c, cs, [(G.char, consumed (c :: cs) cs)]⟩ : St G) ∈ charRule.res ⟨p, c :: cs, []⟩ := by
    unfold charRule dot
    rw [mem_res_grp]
    refine ⟨⟨some c, cs, []⟩, ?_, rfl⟩
    rw [mem_res_cls]
    exact ⟨c, cs, rfl, by simp [CSet.mem, hn], rfl⟩
  induction l with
  | nil => exact key
  | cons a l ih =>
    have : ∃ b l', l ++ [charRule] = b :: l' := by cases l <;> exact ⟨_, _, rfl⟩
    obtain ⟨b, l', hb⟩ := this
    rw [List.cons_append, hb, alts, mem_res_alt, ← hb]
    exact .inr ih

theorem linkRe_gains {raw : Str} (hf : Fit st) (h : subAll linkRe leafRepl raw st = .ok st') : Gains (letters raw) st st' := by
  refine subAll_gains (r := linkRe) hf (noSkip_char (l := [imageRule, linebreakRule])) h ?_
  intro m hm
  obtain ⟨rule, hr, s', pre, rest, hh⟩ := findAll_alts (by simp) hm
  simp only [List.mem_cons, List.not_mem_nil, or_false] at hr
  rcases hr with rfl | rfl | rfl
  · refine ⟨.image, hh.dispatch (by decide) (by decide), ?_⟩
    intro st st' hf h
    obtain ⟨w, hw, ha⟩ := imageRepl_gains hf h
    rw [hh.two .image_target .image_text (by decide) (by decide +kernel) (by decide +kernel) hw]
    exact ha
  · refine ⟨.linebreak, hh.dispatch (by decide) (by decide), ?_⟩
    intro st st' hf h
    rw [hh.zero (by decide +kernel)]
    exact linebreakRepl_gains hf h
  · refine ⟨.char, hh.dispatch (by decide) (by decide), ?_⟩
    intro st st' hf h
    obtain ⟨w, hw, ha⟩ := charRepl_gains hf h
    rw [hh.one .char (by decide +kernel) (by decide +kernel) hw]
    exact ha

theorem linkRepl_gains (hf : Fit st) (h : linkRepl m st = .ok st') : ∃ w, m.get .link_target = some w ∧
    Gains (letters w ++ letters ((m.get .link_text).getD [])) st st' := by
  unfold linkRepl at h
  obtain ⟨w, h1, h2⟩ := bind_ok_inv h
  dsimp only at h2
  obtain ⟨st2, h3, h4⟩ := bind_ok_inv h2
  obtain ⟨st3, h5, h6⟩ := bind_ok_inv h4
  cases h6
  refine ⟨w, need_inv h1, ?_⟩
  have ha := push_gains hf { kind := .link, content := some w } rfl
  have hb := linkRe_gains ha.1 h3
  obtain ⟨hc, hd⟩ := popTo_shown hb.1 h5
  rw [letters_strip] at hb
  have hab : Gains (letters w ++ letters ((m.get .link_text).getD [])) st st2 :=
    (ha.trans hb).mono (Kin.append (Kin.medium (List.Sublist.refl _) fun _ h => h) (Kin.refl _))
  exact hab.then hc hd

theorem inlineMark_gains {pi : Str → PS → PM} {k : Kind} {gt : G} (hk : k.holds = true) (hl : k ≠ .link) (hf : Fit st)
    (h : inlineMark pi k gt m st = .ok st')
    (hpi : ∀ w, m.get gt = some w → ∀ st st', Fit st → pi w st = .ok st' → Gains (letters w) st st') :
    ∃ w, m.get gt = some w ∧ Gains (letters w) st st' := by
  unfold inlineMark at h
  dsimp only at h
  obtain ⟨w, h1, h2⟩ := bind_ok_inv h
  obtain ⟨st2, h3, h4⟩ := bind_ok_inv h2
  obtain ⟨st3, h5, h6⟩ := bind_ok_inv h4
  cases h6
  refine ⟨w, need_inv h1, ?_⟩
  have ha := push_gains hf { kind := k } hk
  have hb := hpi w (need_inv h1) _ _ ha.1 h3
  obtain ⟨hd, he, _⟩ := upto_shown hb.1.noText rfl fun x => decide (x = k)
  rw [upto_noText] at hd he
  obtain ⟨hx, hy⟩ := pop_shown hd h5
  obtain ⟨_, t, e1, e2⟩ := ha.trans hb
  have e3 : (st2.upto fun x => decide (x = k)).shown = st2.shown := he
  refine ⟨hx, t, by rw [hy, e3, e1], ?_⟩
  simpa [Info.own, hl] using e2

theorem noMac_infix {a b : Str} (h : ¬ c!"<<" <:+: b) (hi : a <:+: b) : ¬ c!"<<" <:+: a := fun ha => h (ha.trans hi)

/-- no rule for macros takes part -/
theorem RuleHit.noMac {rule body : R} {raw : Str} {m : Match G} {s' : St G} {pre rest : Str}
    (h : RuleHit rule raw m s' pre rest) {k : G} (hrule : rule = .grp k (.seq (Re.lit c!"<<") body)) : c!"<<" <:+: raw := by
  have := h.mem
  rw [hrule, mem_res_grp] at this
  obtain ⟨t, ht, _⟩ := this
  rw [mem_res_seq] at ht
  obtain ⟨t1, h1, _⟩ := ht
  obtain ⟨e, _⟩ := mem_res_lit h1
  simp only at e
  exact ⟨pre, t1.rest, by rw [h.raw, e]; simp⟩

theorem inlineRepl_gains {raw : Str} (hno : ¬ c!"<<" <:+: raw) {pi : Str → PS → PM}
    (hpi : ∀ w, ¬ c!"<<" <:+: w → ∀ st st', Fit st → pi w st = .ok st' → Gains (letters w) st st')
    {m : Match G} (hm : m ∈ inlineRe.findAll raw) :
    ∃ g, dispatch (groupOrder inlineRe) m = some g ∧
      ∀ st st', Fit st → inlineRepl pi g m st = .ok st' → Gains (letters m.text) st st' := by
  obtain ⟨rule, hr, s', pre, rest, hh⟩ := findAll_alts (by simp [inlineRules]) hm
  have mark : ∀ k gt, rule.covers [gt] = true → (∀ l ∈ rule.seqs [gt], l = [gt]) → k.holds = true → k ≠ .link →
      ∀ st st', Fit st → inlineMark pi k gt m st = .ok st' → Gains (letters m.text) st st' := by
    intro k gt h1 h2 h3 h4 st st' hf h
    obtain ⟨w, hw, ha⟩ := inlineMark_gains h3 h4 hf h fun w hw => hpi w (noMac_infix hno (hh.infix hw))
    rw [hh.one gt h1 h2 hw]
    exact ha
  simp only [inlineRules, List.mem_cons, List.not_mem_nil, or_false] at hr
  rcases hr with rfl | rfl | rfl | rfl | rfl | rfl | rfl | rfl | rfl | rfl | rfl | rfl | rfl | rfl | rfl | rfl | rfl
  · refine ⟨.link, hh.dispatch (by decide) (by decide), ?_⟩
    intro st st' hf h
    obtain ⟨w, hw, ha⟩ := linkRepl_gains hf h
    rw [hh.two .link_target .link_text (by decide) (by decide +kernel) (by decide +kernel) hw]
    exact ha
  · refine ⟨.url, hh.dispatch (by decide) (by decide), ?_⟩
    intro st st' hf h
    obtain ⟨w, hw, ha⟩ := urlRepl_gains hf h
    rw [hh.one .url_target (by decide +kernel) (by decide +kernel) hw]
    exact ha
  · exact absurd (hh.noMac rfl) hno
  · exact absurd (hh.noMac rfl) hno
  · refine ⟨.pre_inline, hh.dispatch (by decide) (by decide), ?_⟩
    intro st st' hf h
    obtain ⟨w, hw, ha⟩ := preInlineRepl_gains hf h
    rw [hh.one .pre_inline_text (by decide +kernel) (by decide +kernel) hw]
    exact ha
  · refine ⟨.image, hh.dispatch (by decide) (by decide), ?_⟩
    intro st st' hf h
    obtain ⟨w, hw, ha⟩ := imageRepl_gains hf h
    rw [hh.two .image_target .image_text (by decide) (by decide +kernel) (by decide +kernel) hw]
    exact ha
  · exact ⟨.strong, hh.dispatch (by decide) (by decide), mark _ _ (by decide +kernel) (by decide +kernel) rfl (by decide)⟩
  · exact ⟨.emphasis, hh.dispatch (by decide) (by decide), mark _ _ (by decide +kernel) (by decide +kernel) rfl (by decide)⟩
  · exact ⟨.monospace, hh.dispatch (by decide) (by decide), mark _ _ (by decide +kernel) (by decide +kernel) rfl (by decide)⟩
  · exact ⟨.underline, hh.dispatch (by decide) (by decide), mark _ _ (by decide +kernel) (by decide +kernel) rfl (by decide)⟩
  · exact ⟨.superscript, hh.dispatch (by decide) (by decide), mark _ _ (by decide +kernel) (by decide +kernel) rfl (by decide)⟩
  · exact ⟨.subscript, hh.dispatch (by decide) (by decide), mark _ _ (by decide +kernel) (by decide +kernel) rfl (by decide)⟩
  · exact ⟨.small, hh.dispatch (by decide) (by decide), mark _ _ (by decide +kernel) (by decide +kernel) rfl (by decide)⟩
  · exact ⟨.delete, hh.dispatch (by decide) (by decide), mark _ _ (by decide +kernel) (by decide +kernel) rfl (by decide)⟩
  · refine ⟨.linebreak, hh.dispatch (by decide) (by decide), ?_⟩
    intro st st' hf h
    rw [hh.zero (by decide +kernel)]
    exact linebreakRepl_gains hf h
  · refine ⟨.escape, hh.dispatch (by decide) (by decide), ?_⟩
    intro st st' hf h
    obtain ⟨w, hw, ha⟩ := escapeRepl_gains hf h
    rw [hh.one .escaped_char (by decide +kernel) (by decide +kernel) hw]
    exact ha
  · refine ⟨.char, hh.dispatch (by decide) (by decide), ?_⟩
    intro st st' hf h
    obtain ⟨w, hw, ha⟩ := charRepl_gains hf h
    rw [hh.one .char (by decide +kernel) (by decide +kernel) hw]
    exact ha

theorem parseInlineN_gains : ∀ (n : Nat) (raw : Str), ¬ c!"<<" <:+: raw → ∀ st st', Fit st →
    parseInlineN n raw st = .ok st' → Gains (letters raw) st st' := by
  intro n
  induction n with
  | zero => intro raw _ st st' _ h; cases h
  | succ n ih =>
    intro raw hno st st' hf h
    rw [parseInlineN] at h
    refine subAll_gains (r := inlineRe) hf (noSkip_char (l := inlineRules.dropLast)) h ?_
    intro m hm
    exact inlineRepl_gains hno ih hm

theorem parseInline_gains {raw : Str} (hno : ¬ c!"<<" <:+: raw) (hf : Fit st) (h : parseInline raw st = .ok st') :
    Gains (letters raw) st st' := parseInlineN_gains _ raw hno st st' hf h

end Verif.Creole
