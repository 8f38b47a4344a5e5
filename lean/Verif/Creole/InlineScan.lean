import Verif.Creole.ScanLemmas
import Verif.Spec.Creole

/-!
# What the inline expression matches at each piece of markup
-/

namespace Verif.Creole

open Verif Re Py Spec Spec.Cr

theorem fail_start {q : R} {d : Char} (hn : q.nullable = false) (hs : q.starts d = false) {p : Option Char} {t : Str}
    {caps : List (G × Str)} : q.res ⟨p, d :: t, caps⟩ = [] := by
  refine Re.res_nil_of_noStart hn ?_
  intro c t' h
  simp only [List.cons.injEq] at h
  rw [← h.1]; exact hs

theorem grp_lit_nil {g : G} {w : Str} {b : R} {p : Option Char} {rest : Str} {caps : List (G × Str)}
    (h : ∀ t, rest ≠ w ++ t) : (Re.grp g (Re.seq (lit w) b)).res ⟨p, rest, caps⟩ = [] := by
  simp only [Re.res, Re.res_lit_nil w p rest caps h, List.flatMap_nil, List.map_nil]

theorem res_grp_nil {g : G} {a : R} {s : St G} (h : a.res s = []) : (Re.grp g a).res s = [] := by
  simp only [Re.res, h, List.map_nil]

theorem mem_proto {s x : St G} (h : x ∈ proto.res s) : ∃ p ∈ protocols, s.rest = p ++ x.rest ∧ x.caps = s.caps := by
  obtain ⟨q, hq, hx⟩ := mem_res_alts (by simp) h
  have key : ∀ w, x ∈ (lit w : R).res s → s.rest = w ++ x.rest ∧ x.caps = s.caps := by
    intro w hw
    by_cases hp : ∃ t, s.rest = w ++ t
    · obtain ⟨t, ht⟩ := hp
      have e : s = ⟨s.prev, w ++ t, s.caps⟩ := by rw [← ht]
      rw [e, Re.res_lit] at hw
      simp only [List.mem_singleton] at hw
      subst hw
      exact ⟨ht, rfl⟩
    · exfalso
      have e : s = ⟨s.prev, s.rest, s.caps⟩ := rfl
      rw [e, Re.res_lit_nil w s.prev s.rest s.caps (fun t ht => hp ⟨t, ht⟩)] at hw
      simp at hw
  simp only [List.mem_cons, List.not_mem_nil, or_false] at hq
  rcases hq with rfl | rfl | rfl | rfl | rfl | rfl | rfl | rfl | rfl <;>
    exact ⟨_, by decide, key _ hx⟩

/-- the expression for the target of a bare link -/
def urlTail : R := .grp .url_target <| cat [.grp .url_proto proto, lit c!"://",
    .plus true (.cls (.compl (.union (.chr '$') .space)))]

theorem urlTail_nil {s : St G} (h : startsUrl s.rest = false) : urlTail.res s = [] := by
  cases hl : urlTail.res s with
  | nil => rfl
  | cons x l =>
    exfalso
    have hx : x ∈ urlTail.res s := by rw [hl]; simp
    unfold urlTail at hx
    rw [mem_res_grp] at hx
    obtain ⟨t, ht, _⟩ := hx
    simp only [cat] at ht
    rw [mem_res_seq] at ht
    obtain ⟨u, hu, ht⟩ := ht
    rw [mem_res_grp] at hu
    obtain ⟨v, hv, rfl⟩ := hu
    rw [mem_res_seq] at ht
    obtain ⟨y, hy, _⟩ := ht
    obtain ⟨p, hp, h1, _⟩ := mem_proto hv
    have hs : ∃ t, v.rest = c!"://" ++ t := by
      apply Classical.byContradiction
      intro hn
      rw [Re.res_lit_nil] at hy
      · simp at hy
      · intro t ht; exact hn ⟨t, ht⟩
    obtain ⟨t', ht'⟩ := hs
    have : startsUrl s.rest = true := by
      unfold startsUrl
      rw [List.any_eq_true]
      refine ⟨p, hp, ?_⟩
      rw [List.isPrefixOf_iff_prefix]
      exact ⟨t', by rw [h1, ht']; simp⟩
    rw [h] at this; cases this

theorem urlHead_eq (prev : Option Char) (rest : Str) :
    (Re.alt (.bol false) (.behind false .space) : R).res ⟨prev, rest, []⟩ =
      if atWord prev then [⟨prev, rest, []⟩] else [] := by
  cases prev with
  | none => rfl
  | some c =>
    by_cases hs : isSpace c = true <;> simp [Re.res, atBol, CSet.mem, atWord, hs]

theorem url_nil {prev : Option Char} {rest : Str} (h : urlHere prev rest = false) : urlRule.res ⟨prev, rest, []⟩ = [] := by
  unfold urlRule
  refine res_grp_nil ?_
  show (Re.seq (.alt (.bol false) (.behind false .space)) (.seq (opt (.grp .escaped_url (ch '~'))) urlTail) : R).res _ = []
  by_cases hw : atWord prev = true
  · have h1 : (Re.alt (.bol false) (.behind false .space) : R).res ⟨prev, rest, []⟩ = [⟨prev, rest, []⟩] := by
      rw [urlHead_eq, if_pos hw]
    rw [res_seq_one h1]
    simp only [urlHere, hw, Bool.true_and, Bool.or_eq_false_iff] at h
    have h3 : ∀ (a b : R) s, (Re.seq a b).res s = (a.res s).flatMap b.res := fun _ _ _ => rfl
    rw [h3]
    rw [List.flatMap_eq_nil_iff]
    intro x hx
    unfold opt at hx
    rw [mem_res_alt, mem_res_eps, mem_res_grp] at hx
    rcases hx with ⟨t, ht, rfl⟩ | rfl
    · unfold ch at ht
      rw [mem_res_cls] at ht
      obtain ⟨c, r, h4, h5, rfl⟩ := ht
      simp only at h4
      simp only [CSet.mem, beq_iff_eq] at h5
      subst h5
      rw [h4] at h
      exact urlTail_nil h.2
    · exact urlTail_nil h.1
  · rw [Re.res_seq_nil]
    rw [urlHead_eq, if_neg hw]

/-- two equal characters do not stand here -/
theorem not_pair {prev : Option Char} {c : Char} {next : Str} (h : pairHere prev c next = false) {d : Char}
    (hd : d ∈ doubled) (hs : d = '/' → prev ≠ some ':') : ∀ t, c :: next ≠ [d, d] ++ t := by
  intro t ht
  simp only [List.cons_append, List.nil_append, List.cons.injEq] at ht
  obtain ⟨rfl, rfl⟩ := ht
  have hc : doubled.contains c = true := List.contains_iff_mem.mpr hd
  simp only [pairHere, hc, List.head?_cons, beq_self_eq_true, Bool.true_and] at h
  have h' : (c == '/' && prev == some ':') = true := by
    cases hb : (c == '/' && prev == some ':') with
    | true => rfl
    | false => rw [hb] at h; cases h
  simp only [Bool.and_eq_true, beq_iff_eq] at h'
  exact hs h'.1 h'.2

theorem emphasis_nil {prev : Option Char} {rest : Str} {caps : List (G × Str)}
    (h : prev = some ':' ∨ ∀ t, rest ≠ c!"//" ++ t) : emphasisRule.res ⟨prev, rest, caps⟩ = [] := by
  unfold emphasisRule
  refine res_grp_nil ?_
  show (Re.seq (.behind true (.chr ':')) (.seq (lit c!"//") _) : R).res _ = []
  rcases h with rfl | h
  · exact Re.res_seq_nil (by simp [Re.res, CSet.mem])
  · have h3 : ∀ (a b : R) s, (Re.seq a b).res s = (a.res s).flatMap b.res := fun _ _ _ => rfl
    rw [h3, List.flatMap_eq_nil_iff]
    intro x hx
    rw [mem_res_behind] at hx
    rw [hx.2]
    exact Re.res_seq_nil (Re.res_lit_nil _ _ _ _ h)

theorem match_chr {cx : Ctx} {prev : Option Char} {c : Char} {next : Str} (h : (Inl.chr c).wf cx prev next = true) :
    inlineRe.matchAt false prev (c :: next) = some ⟨some c, next, [(.char, [c])]⟩ := by
  simp only [Inl.wf, Bool.and_eq_true, bne_iff_ne, ne_eq, Bool.not_eq_true'] at h
  obtain ⟨⟨⟨hnl, htl⟩, hp⟩, hu⟩ := h
  rw [Re.matchAt_false]
  show ((alts ([linkRule, urlRule, macroInlineRule, macroTagRule, preInlineRule, imageRule,
    markRule .strong .strong_text c!"**", emphasisRule,
    markRule .monospace .monospace_text c!"##", markRule .underline .underline_text c!"__",
    markRule .superscript .superscript_text c!"^^", markRule .subscript .subscript_text c!",,",
    markRule .small .small_text c!"--", markRule .delete .delete_text c!"~~",
    linebreakRule, escapeRule] ++ charRule :: [])).res _).head? = _
  have np : ∀ d, d ∈ doubled → d ≠ '/' → ∀ t, c :: next ≠ [d, d] ++ t := fun d hd hs =>
    not_pair hp hd (fun h => absurd h hs)
  refine alts_head ?_ ?_
  · simp only [List.forall_mem_cons, List.not_mem_nil, false_implies, implies_true, and_true]
    refine ⟨grp_lit_nil (np '[' (by decide) (by decide)), url_nil hu, grp_lit_nil (np '<' (by decide) (by decide)),
      grp_lit_nil (np '<' (by decide) (by decide)), grp_lit_nil ?_, grp_lit_nil (np '{' (by decide) (by decide)),
      grp_lit_nil (np '*' (by decide) (by decide)), emphasis_nil ?_,
      grp_lit_nil (np '#' (by decide) (by decide)), grp_lit_nil (np '_' (by decide) (by decide)),
      grp_lit_nil (np '^' (by decide) (by decide)), grp_lit_nil (np ',' (by decide) (by decide)),
      grp_lit_nil (np '-' (by decide) (by decide)), grp_lit_nil ?_,
      res_grp_nil (Re.res_lit_nil _ _ _ _ (np '\\' (by decide) (by decide))), res_grp_nil (Re.res_seq_nil ?_)⟩
    · intro t ht
      exact np '{' (by decide) (by decide) ('{' :: t) ht
    · by_cases hc : prev = some ':'
      · exact .inl hc
      · exact .inr (not_pair hp (by decide) (fun _ => hc))
    · intro t ht
      simp only [List.cons_append, List.cons.injEq] at ht
      exact htl ht.1
    · refine Re.res_cls_nil ?_
      intro d t hd
      simp only [List.cons.injEq] at hd
      rw [← hd.1]
      simpa [CSet.mem] using htl
  · have := Re.head_grp (g := G.char) (Re.head_cls (γ := G) (cs := .dot) (p := prev) (c := c) (r := next) (caps := [])
      (by simpa [CSet.mem] using hnl))
    have hc : consumed (c :: next) next = [c] := consumed_append [c] next
    simp only [hc] at this
    exact this

theorem urlHere_of_head {prev : Option Char} {c : Char} {t : Str} (h : c ∉ c!"hfnmti~") : urlHere prev (c :: t) = false := by
  simp only [List.mem_cons, List.not_mem_nil, or_false, not_or] at h
  obtain ⟨h1, h2, h3, h4, h5, h6, h7⟩ := h
  have hs : startsUrl (c :: t) = false := by
    simp [startsUrl, protocols, List.isPrefixOf, Ne.symm h1, Ne.symm h2, Ne.symm h3, Ne.symm h4,
      Ne.symm h5, Ne.symm h6]
  unfold urlHere
  rw [hs, Bool.false_or]
  split
  · rename_i t' ht
    simp only [List.cons.injEq] at ht
    exact absurd ht.1 h7
  · simp

theorem match_esc {cx : Ctx} {prev : Option Char} {c : Char} {next : Str} (h : (Inl.esc c).wf cx prev next = true) :
    inlineRe.matchAt false prev ('~' :: c :: next) = some ⟨some c, next, [(.escape, ['~', c]), (.escaped_char, [c])]⟩ := by
  simp only [Inl.wf, Bool.and_eq_true, bne_iff_ne, ne_eq, Bool.not_eq_true'] at h
  obtain ⟨⟨hsp, htl⟩, hu⟩ := h
  rw [Re.matchAt_false]
  show ((alts ([linkRule, urlRule, macroInlineRule, macroTagRule, preInlineRule, imageRule,
    markRule .strong .strong_text c!"**", emphasisRule,
    markRule .monospace .monospace_text c!"##", markRule .underline .underline_text c!"__",
    markRule .superscript .superscript_text c!"^^", markRule .subscript .subscript_text c!",,",
    markRule .small .small_text c!"--", markRule .delete .delete_text c!"~~",
    linebreakRule] ++ escapeRule :: [charRule])).res _).head? = _
  refine alts_head ?_ ?_
  · simp only [List.forall_mem_cons, List.not_mem_nil, false_implies, implies_true, and_true]
    refine ⟨fail_start (by decide) (by decide), url_nil hu, fail_start (by decide) (by decide),
      fail_start (by decide) (by decide), fail_start (by decide) (by decide), fail_start (by decide) (by decide),
      fail_start (by decide) (by decide), fail_start (by decide) (by decide), fail_start (by decide) (by decide),
      fail_start (by decide) (by decide), fail_start (by decide) (by decide), fail_start (by decide) (by decide),
      fail_start (by decide) (by decide), grp_lit_nil ?_, fail_start (by decide) (by decide)⟩
    intro t ht
    simp only [List.cons_append, List.cons.injEq] at ht
    exact htl ht.2.1
  · have h1 := Re.head_cls (γ := G) (cs := .chr '~') (p := prev) (c := '~') (r := c :: next) (caps := []) (by decide)
    have h2 := Re.head_grp (g := G.escaped_char) (Re.head_cls (γ := G) (cs := .compl .space) (p := some '~') (c := c) (r := next) (caps := [])
      (by simpa [CSet.mem] using hsp))
    have hc : consumed (c :: next) next = [c] := consumed_append [c] next
    simp only [hc] at h2
    have := Re.head_grp (g := G.escape) (Re.head_seq h1 h2)
    have hc' : consumed ('~' :: c :: next) next = ['~', c] := consumed_append ['~', c] next
    simp only [hc'] at this
    exact this

theorem fails_start {l : List R} {d : Char} (h : l.all (fun q => !q.nullable && !q.starts d) = true) {p : Option Char} {t : Str}
    {caps : List (G × Str)} : ∀ q ∈ l, q.res ⟨p, d :: t, caps⟩ = [] := by
  intro q hq
  have := List.all_eq_true.mp h q hq
  simp only [Bool.and_eq_true, Bool.not_eq_true'] at this
  exact fail_start this.1 this.2

theorem inline_rule {l₁ l₂ : List R} {a : R} (he : inlineRules = l₁ ++ a :: l₂) {p : Option Char} {s : Str} {x : St G}
    (hf : ∀ q ∈ l₁, q.res ⟨p, s, []⟩ = []) (ha : (a.res ⟨p, s, []⟩).head? = some x) :
    inlineRe.matchAt false p s = some x := by
  rw [Re.matchAt_false]
  unfold inlineRe
  rw [he]
  exact alts_head hf ha

theorem res_seq_assoc (a b c : R) (s : St G) : (Re.seq (.seq a b) c).res s = (Re.seq a (.seq b c)).res s := by
  simp only [Re.res, List.flatMap_assoc]

theorem res_opt_seq (a c : R) (s : St G) : (Re.seq (opt a) c).res s = (Re.seq a c).res s ++ c.res s := by
  simp only [opt, Re.res, List.flatMap_append, List.flatMap_cons, List.flatMap_nil, List.append_nil]

/-- a word that begins inside `v` and goes on into a copy of itself also begins inside `v` and ends before the last
character of the copy -/
theorem prefix_dropLast {v p rest t : Str} (hv : v ≠ []) (h : v ++ (p ++ rest) = p ++ t) :
    ∃ t', v ++ p.dropLast = p ++ t' := by
  by_cases hp : p = []
  · exact ⟨v, by simp [hp]⟩
  have h1 : p <+: v ++ (p ++ rest) := ⟨t, h.symm⟩
  have h2 : v ++ p.dropLast <+: v ++ (p ++ rest) := by
    refine ⟨[p.getLast hp] ++ rest, ?_⟩
    rw [List.append_assoc, ← List.append_assoc p.dropLast, List.dropLast_concat_getLast]
  have hl : p.length ≤ (v ++ p.dropLast).length := by
    have : 0 < v.length := List.length_pos_iff.mpr hv
    simp; omega
  obtain ⟨t', ht'⟩ := List.prefix_of_prefix_length_le h1 h2 hl
  exact ⟨t', ht'.symm⟩

theorem not_occurs {p : Str} (hp : p ≠ []) : ∀ {s : Str}, occurs p s = false → ∀ u v, s = u ++ v → ∀ t, v ≠ p ++ t := by
  intro s
  induction s with
  | nil =>
    intro _ u v huv t ht
    have : v = [] := by
      have := huv.symm; simp at this; exact this.2
    rw [this] at ht
    have := ht.symm
    simp at this
    exact hp this.1
  | cons c s ih =>
    intro h u v huv t ht
    simp only [occurs, Bool.or_eq_false_iff] at h
    cases u with
    | nil =>
      simp only [List.nil_append] at huv
      have h1 := h.1
      rw [huv, ht] at h1
      have : p.isPrefixOf (p ++ t) = true := List.isPrefixOf_iff_prefix.mpr ⟨t, rfl⟩
      rw [this] at h1; cases h1
    | cons d u =>
      simp only [List.cons_append, List.cons.injEq] at huv
      exact ih h.2 u v huv.2 t ht

theorem occurs_false {p : Str} : ∀ {s : Str}, (∀ u t, s ≠ u ++ (p ++ t)) → occurs p s = false := by
  intro s
  induction s with
  | nil =>
    intro h
    cases p with
    | nil => exact absurd rfl (h [] [])
    | cons c p => rfl
  | cons c s ih =>
    intro h
    simp only [occurs, Bool.or_eq_false_iff]
    refine ⟨?_, ih fun u t ht => h (c :: u) t (by rw [ht]; rfl)⟩
    cases hp : p.isPrefixOf (c :: s) with
    | false => rfl
    | true =>
      obtain ⟨t, ht⟩ := List.isPrefixOf_iff_prefix.mp hp
      exact absurd ht.symm (h [] t)

/-! ## Typefaces -/

theorem not_closes {f : Face} : ∀ {s : Str} {prev : Option Char}, closes f prev s = false → ∀ u v, s = u ++ v →
    (f = .emphasis ∧ (u.getLast?).or prev = some ':') ∨ ∀ t, v ≠ [f.char, f.char] ++ t := by
  intro s
  induction s with
  | nil =>
    intro prev _ u v huv
    right
    intro t ht
    rw [ht] at huv; simp at huv
  | cons c s ih =>
    intro prev h u v huv
    simp only [closes, Bool.or_eq_false_iff] at h
    cases u with
    | nil =>
      simp only [List.nil_append] at huv
      subst huv
      by_cases he : f = .emphasis ∧ prev = some ':'
      · left; simpa using he
      · right
        intro t ht
        simp only [List.cons_append, List.nil_append, List.cons.injEq] at ht
        obtain ⟨rfl, rfl⟩ := ht
        have h1 := h.1
        simp only [List.head?_cons, beq_self_eq_true, Bool.true_and] at h1
        have h2 : (f == .emphasis && prev == some ':') = true := by
          cases hb : (f == .emphasis && prev == some ':') with
          | true => rfl
          | false => rw [hb] at h1; cases h1
        simp only [Bool.and_eq_true, beq_iff_eq] at h2
        exact he h2
    | cons d u =>
      simp only [List.cons_append, List.cons.injEq] at huv
      obtain ⟨rfl, huv⟩ := huv
      have := ih h.2 u v huv
      rw [lastOr u prev c] at this
      exact this

/-- the group, the text group and the kind of node of a typeface -/
def faceG : Face → G
  | .strong => .strong | .emphasis => .emphasis | .monospace => .monospace | .superscript => .superscript
  | .subscript => .subscript | .underline => .underline | .small => .small | .delete => .delete
def faceT : Face → G
  | .strong => .strong_text | .emphasis => .emphasis_text | .monospace => .monospace_text
  | .superscript => .superscript_text | .subscript => .subscript_text | .underline => .underline_text
  | .small => .small_text | .delete => .delete_text
def faceKind : Face → Kind
  | .strong => .strong | .emphasis => .emphasis | .monospace => .monospace | .superscript => .superscript
  | .subscript => .subscript | .underline => .underline | .small => .small | .delete => .delete

theorem mark_head {f : Face} {g gt : G} {s rest : Str} {prev : Option Char} (hf : f ≠ .emphasis) (h : faceText f s = true) :
    ((markRule g gt [f.char, f.char]).res ⟨prev, [f.char, f.char] ++ (s ++ ([f.char, f.char] ++ rest)), []⟩).head? =
      some ⟨some f.char, rest, [(g, [f.char, f.char] ++ s ++ [f.char, f.char]), (gt, s)]⟩ := by
  cases s with
  | nil => simp [faceText] at h
  | cons c w =>
    simp only [faceText, Bool.and_eq_true, Bool.not_eq_true', List.contains_eq_mem, decide_eq_false_iff_not] at h
    obtain ⟨⟨hcl, _⟩, hnl⟩ := h
    have h1 : ((lit [f.char, f.char] : R).res ⟨prev, [f.char, f.char] ++ ((c :: w) ++ ([f.char, f.char] ++ rest)), []⟩).head? =
        some ⟨some f.char, (c :: w) ++ ([f.char, f.char] ++ rest), []⟩ := by
      rw [Re.res_lit]; rfl
    have h2 : ((Re.seq (.grp gt someDots) (lit [f.char, f.char])).res
        ⟨some f.char, (c :: w) ++ ([f.char, f.char] ++ rest), []⟩).head? = some ⟨some f.char, rest, [(gt, c :: w)]⟩ := by
      refine head_someDots hnl ?_ ?_
      · intro u v huv hv
        refine Re.res_lit_nil _ _ _ _ ?_
        intro t ht
        obtain ⟨t', ht'⟩ := prefix_dropLast hv ht
        have := not_closes hcl u (v ++ [f.char]) (by rw [huv]; simp)
        rcases this with ⟨he, _⟩ | hn
        · exact hf he
        · exact hn t' ht'
      · rw [Re.res_lit]; rfl
    have h3 := Re.head_grp (g := g) (Re.head_seq h1 h2)
    have hc := consumed_append ([f.char, f.char] ++ (c :: w) ++ [f.char, f.char]) rest
    simp only [List.append_assoc] at hc
    simp only [hc] at h3
    simpa [markRule, cat] using h3

theorem emphasis_head {s rest : Str} {prev : Option Char} (hp : prev ≠ some ':') (h : faceText .emphasis s = true) :
    (emphasisRule.res ⟨prev, c!"//" ++ (s ++ (c!"//" ++ rest)), []⟩).head? =
      some ⟨some '/', rest, [(.emphasis, c!"//" ++ s ++ c!"//"), (.emphasis_text, s)]⟩ := by
  cases s with
  | nil => simp [faceText] at h
  | cons c w =>
    simp only [faceText, Bool.and_eq_true, Bool.not_eq_true', List.contains_eq_mem, decide_eq_false_iff_not,
      beq_self_eq_true, Bool.true_and, beq_eq_false_iff_ne, ne_eq] at h
    obtain ⟨⟨hcl, hlast⟩, hnl⟩ := h
    have h0 : ((Re.behind true (.chr ':') : R).res ⟨prev, c!"//" ++ ((c :: w) ++ (c!"//" ++ rest)), []⟩).head? =
        some ⟨prev, c!"//" ++ ((c :: w) ++ (c!"//" ++ rest)), []⟩ := by
      cases prev with
      | none => rfl
      | some d =>
        have : d ≠ ':' := fun h => hp (by rw [h])
        simp [Re.res, CSet.mem, this]
    have h1 : ((lit c!"//" : R).res ⟨prev, c!"//" ++ ((c :: w) ++ (c!"//" ++ rest)), []⟩).head? =
        some ⟨some '/', (c :: w) ++ (c!"//" ++ rest), []⟩ := by
      rw [Re.res_lit]; rfl
    have h2 : ((Re.seq (.grp .emphasis_text someDots) (.seq (.behind true (.chr ':')) (lit c!"//")) : R).res
        ⟨some '/', (c :: w) ++ (c!"//" ++ rest), []⟩).head? = some ⟨some '/', rest, [(.emphasis_text, c :: w)]⟩ := by
      refine head_someDots hnl ?_ ?_
      · intro u v huv hv
        have := not_closes hcl u (v ++ c!"/") (by rw [huv]; simp [Face.char])
        rcases this with ⟨_, hc⟩ | hn
        · rw [lastOr u none c, Option.or_none] at hc
          refine Re.res_seq_nil ?_
          simp [Re.res, hc, CSet.mem]
        · have h3 : ∀ (a b : R) s, (Re.seq a b).res s = (a.res s).flatMap b.res := fun _ _ _ => rfl
          rw [h3, List.flatMap_eq_nil_iff]
          intro x hx
          rw [mem_res_behind] at hx
          rw [hx.2]
          refine Re.res_lit_nil _ _ _ _ ?_
          intro t ht
          obtain ⟨t', ht'⟩ := prefix_dropLast hv ht
          exact hn t' ht'
      · refine Re.head_seq (x := ⟨(c :: w).getLast?, c!"//" ++ rest, [(.emphasis_text, c :: w)]⟩) ?_ ?_
        · cases hl : (c :: w).getLast? with
          | none => simp at hl
          | some d =>
            have : d ≠ ':' := fun h => hlast (by rw [hl, h])
            simp [Re.res, CSet.mem, this]
        · rw [Re.res_lit]; rfl
    have h3 := Re.head_grp (g := G.emphasis) (Re.head_seq h0 (Re.head_seq h1 h2))
    have hc := consumed_append (c!"//" ++ (c :: w) ++ c!"//") rest
    simp only [List.append_assoc] at hc
    simp only [hc] at h3
    simpa [emphasisRule, cat] using h3

theorem match_face {f : Face} {s rest : Str} {prev : Option Char} (hp : f = .emphasis → prev ≠ some ':') (h : faceText f s = true) :
    inlineRe.matchAt false prev ([f.char, f.char] ++ (s ++ ([f.char, f.char] ++ rest))) =
      some ⟨some f.char, rest, [(faceG f, [f.char, f.char] ++ s ++ [f.char, f.char]), (faceT f, s)]⟩ := by
  have hu : urlHere prev ('~' :: '~' :: (s ++ ('~' :: '~' :: rest))) = false := by
    have h1 : ∀ t, startsUrl ('~' :: t) = false := by
      intro t; simp [startsUrl, protocols, List.isPrefixOf]
    simp [urlHere, h1]
  cases f with
  | emphasis => exact inline_rule (l₁ := inlineRules.take 7) (l₂ := inlineRules.drop 8) rfl (fails_start (by decide)) (emphasis_head (hp rfl) h)
  | strong => exact inline_rule (l₁ := inlineRules.take 6) (l₂ := inlineRules.drop 7) rfl (fails_start (by decide)) (mark_head (by decide) h)
  | monospace => exact inline_rule (l₁ := inlineRules.take 8) (l₂ := inlineRules.drop 9) rfl (fails_start (by decide)) (mark_head (by decide) h)
  | underline => exact inline_rule (l₁ := inlineRules.take 9) (l₂ := inlineRules.drop 10) rfl (fails_start (by decide)) (mark_head (by decide) h)
  | superscript => exact inline_rule (l₁ := inlineRules.take 10) (l₂ := inlineRules.drop 11) rfl (fails_start (by decide)) (mark_head (by decide) h)
  | subscript => exact inline_rule (l₁ := inlineRules.take 11) (l₂ := inlineRules.drop 12) rfl (fails_start (by decide)) (mark_head (by decide) h)
  | small => exact inline_rule (l₁ := inlineRules.take 12) (l₂ := inlineRules.drop 13) rfl (fails_start (by decide)) (mark_head (by decide) h)
  | delete =>
    refine inline_rule (l₁ := inlineRules.take 13) (l₂ := inlineRules.drop 14) rfl ?_ (mark_head (by decide) h)
    have e : inlineRules.take 13 = linkRule :: urlRule :: (inlineRules.take 13).drop 2 := rfl
    rw [e]
    simp only [List.forall_mem_cons]
    exact ⟨fail_start (by decide) (by decide), url_nil hu, fails_start (by decide)⟩

/-! ## Line breaks and inline nowiki -/

theorem match_br {prev : Option Char} {rest : Str} :
    inlineRe.matchAt false prev (c!"\\\\" ++ rest) = some ⟨some '\\', rest, [(.linebreak, c!"\\\\")]⟩ := by
  refine inline_rule (l₁ := inlineRules.take 14) (l₂ := inlineRules.drop 15) rfl (fails_start (by decide)) ?_
  have h1 : ((lit c!"\\\\" : R).res ⟨prev, c!"\\\\" ++ rest, []⟩).head? = some ⟨some '\\', rest, []⟩ := by rw [Re.res_lit]; rfl
  have h3 := Re.head_grp (g := G.linebreak) h1
  simp only [consumed_append] at h3
  exact h3

theorem match_nowiki {prev : Option Char} {s rest : Str} (ho : occurs c!"}}}" (s ++ c!"}}") = false) (hnl : '\n' ∉ s) :
    inlineRe.matchAt false prev (c!"{{{" ++ (s ++ (c!"}}}" ++ rest))) =
      some ⟨some '}', rest, [(.pre_inline, c!"{{{" ++ s ++ c!"}}}"), (.pre_inline_text, s)]⟩ := by
  refine inline_rule (l₁ := inlineRules.take 4) (l₂ := inlineRules.drop 5) rfl (fails_start (by decide)) ?_
  have h1 : ((lit c!"{{{" : R).res ⟨prev, c!"{{{" ++ (s ++ (c!"}}}" ++ rest)), []⟩).head? =
      some ⟨some '{', s ++ (c!"}}}" ++ rest), []⟩ := by rw [Re.res_lit]; rfl
  have h2 : ((Re.seq (.grp .pre_inline_text anyDots) (lit c!"}}}") : R).res
      ⟨some '{', s ++ (c!"}}}" ++ rest), []⟩).head? = some ⟨some '}', rest, [(.pre_inline_text, s)]⟩ := by
    refine head_anyDots hnl ?_ ?_
    · intro u v huv hv
      refine Re.res_lit_nil _ _ _ _ ?_
      intro t ht
      obtain ⟨t', ht'⟩ := prefix_dropLast hv ht
      exact not_occurs (by simp) ho u (v ++ c!"}}") (by rw [huv]; simp) t' ht'
    · rw [Re.res_lit]; rfl
  have h3 := Re.head_grp (g := G.pre_inline) (Re.head_seq h1 h2)
  have hc := consumed_append (c!"{{{" ++ s ++ c!"}}}") rest
  simp only [List.append_assoc] at hc
  simp only [hc] at h3
  simpa [preInlineRule, cat] using h3

/-! ## Links and images -/

/-- links and images have the form `oo target \s* (| \s* text \s*)? dd` -/
def barRule (g g₁ g₂ : G) (o d : Char) : R := .grp g <| cat [
  lit [o, o], .grp g₁ someDots, sps, opt (cat [ch '|', sps, .grp g₂ someDots, sps]), lit [d, d]]

theorem link_bar : linkRule = barRule .link .link_target .link_text '[' ']' := rfl
theorem image_bar : imageRule = barRule .image .image_target .image_text '{' '}' := rfl

/-- the closing mark is not found inside the text -/
theorem close_nil {q : R} {d : Char} {r v caps} {p : Option Char}
    (hq : ∀ x : St G, q.res x ≠ [] → (∃ t, x.rest = '|' :: t ∧ '|' ∉ v) ∨ ∃ t, x.rest = [d, d] ++ t)
    (hv : v ≠ []) (hs : ∀ c, v.getLast? = some c → isSpace c = false)
    (ho : ∀ u w, v = u ++ w → w ≠ [] → ∀ t, w ++ [d] ≠ [d, d] ++ t) (hd : d ≠ '|')
    (hr : (∃ t, r = [d, d] ++ t) ∨ ∃ t, r = '|' :: t) :
    (Re.seq sps q).res ⟨p, v ++ r, caps⟩ = [] := by
  have h3 : ∀ (a b : R) s, (Re.seq a b).res s = (a.res s).flatMap b.res := fun _ _ _ => rfl
  rw [h3, List.flatMap_eq_nil_iff]
  intro x hx
  apply Classical.byContradiction
  intro hne
  obtain ⟨w, h1, h2, _, _⟩ := mem_sps hx
  simp only at h1
  rw [List.append_eq_append_iff] at h1
  rcases h1 with ⟨a, rfl, ha⟩ | ⟨b, hb, hbr⟩
  · -- all of the text is blank
    obtain ⟨l, hl⟩ : ∃ l, v.getLast? = some l := ⟨v.getLast hv, List.getLast?_eq_some_getLast hv⟩
    have := h2 l (by simp [List.mem_of_getLast? hl])
    rw [hs l hl] at this; cases this
  · by_cases hbn : b = []
    · obtain ⟨l, hl⟩ : ∃ l, v.getLast? = some l := ⟨v.getLast hv, List.getLast?_eq_some_getLast hv⟩
      have hvw : v = w := by rw [hb, hbn]; simp
      have := h2 l (by rw [← hvw]; exact List.mem_of_getLast? hl)
      rw [hs l hl] at this; cases this
    · rcases hq x hne with ⟨t, ht, hbar⟩ | ⟨t, ht⟩
      · rw [hbr] at ht
        cases b with
        | nil => exact hbn rfl
        | cons e b =>
          simp only [List.cons_append, List.cons.injEq] at ht
          apply hbar
          rw [hb, ht.1]; simp
      · rw [hbr] at ht
        rcases hr with ⟨t', rfl⟩ | ⟨t', rfl⟩
        · obtain ⟨t'', h''⟩ := prefix_dropLast hbn ht
          exact ho w b hb hbn t'' h''
        · cases b with
          | nil => exact hbn rfl
          | cons e b =>
            cases b with
            | nil =>
              simp only [List.cons_append, List.nil_append, List.cons.injEq] at ht
              exact hd ht.2.1.symm
            | cons e' b =>
              simp only [List.cons_append, List.nil_append, List.cons.injEq] at ht
              exact ho w (e :: e' :: b) hb hbn (b ++ [d]) (by simp [ht.1, ht.2.1])

structure Target (d : Char) (s : Str) : Prop where
  nobar : '|' ∉ s
  nonl : '\n' ∉ s
  last : ∀ c, s.getLast? = some c → isSpace c = false
  occ : ∀ u w, s = u ++ w → ∀ t, w ++ [d] ≠ [d, d] ++ t
  ne : s ≠ []

theorem targetOk_iff {d : Char} {s : Str} (h : targetOk d s = true) : Target d s := by
  simp only [targetOk, Bool.and_eq_true, Bool.not_eq_true', List.contains_eq_mem, decide_eq_false_iff_not] at h
  obtain ⟨⟨⟨⟨h1, h2⟩, h3⟩, h4⟩, h5⟩ := h
  refine ⟨h2, h3, ?_, ?_, by rintro rfl; simp at h1⟩
  · intro c hc
    rw [hc] at h4
    simpa using h4
  · intro u w huw t ht
    exact not_occurs (by simp) h5 u (w ++ [d]) (by rw [huw]; simp) t ht

structure BarText (d : Char) (s : Str) : Prop where
  nonl : '\n' ∉ s
  first : ∀ c t, s = c :: t → isSpace c = false
  last : ∀ c, s.getLast? = some c → isSpace c = false
  occ : ∀ u w, s = u ++ w → ∀ t, w ++ [d] ≠ [d, d] ++ t
  ne : s ≠ []

theorem barText_iff {d : Char} {s : Str} (h : barText d s = true) : BarText d s := by
  cases s with
  | nil => simp [barText, trimmed] at h
  | cons a s =>
    simp only [barText, trimmed, Bool.and_eq_true, Bool.not_eq_true', List.contains_eq_mem, decide_eq_false_iff_not] at h
    obtain ⟨⟨⟨h1, h2⟩, h3⟩, h5⟩ := h
    refine ⟨h3, ?_, ?_, ?_, by simp⟩
    · intro c t hc
      simp only [List.cons.injEq] at hc
      rw [← hc.1]; exact h1
    · intro c hc
      rw [hc] at h2
      simpa using h2
    · intro u w huw t ht
      exact not_occurs (by simp) h5 u (w ++ [d]) (by rw [huw]; simp) t ht

theorem last_suffix {u v s : Str} {c : Char} (h : s = u ++ v) (hl : v.getLast? = some c) : s.getLast? = some c := by
  rw [h, List.getLast?_append, hl]; rfl

/-- the part of the expression after the target -/
def barTail (g₂ : G) (d : Char) : R := .seq (opt (cat [ch '|', sps, .grp g₂ someDots, sps])) (lit [d, d])

theorem res_ch_nil {c e : Char} {t : Str} {p : Option Char} {caps : List (G × Str)} (h : e ≠ c) :
    (ch c : R).res ⟨p, e :: t, caps⟩ = [] := by
  simp [ch, Re.res, CSet.mem, h]

theorem barTail_start {g₂ : G} {d : Char} {x : St G} (h : (barTail g₂ d).res x ≠ []) :
    (∃ t, x.rest = '|' :: t) ∨ ∃ t, x.rest = [d, d] ++ t := by
  apply Classical.byContradiction
  intro hn
  rw [not_or] at hn
  apply h
  unfold barTail
  rw [res_opt_seq, List.append_eq_nil_iff]
  constructor
  · refine Re.res_seq_nil ?_
    show (Re.seq (ch '|') _ : R).res x = []
    refine Re.res_seq_nil ?_
    obtain ⟨p, r, caps⟩ := x
    cases r with
    | nil => rfl
    | cons e t =>
      refine res_ch_nil ?_
      rintro rfl
      exact hn.1 ⟨t, rfl⟩
  · exact Re.res_lit_nil [d, d] _ _ _ (fun t ht => hn.2 ⟨t, ht⟩)

theorem target_fails {g₂ : G} {d : Char} {s r u v : Str} {caps : List (G × Str)} {p : Option Char} (hs : Target d s) (hd : d ≠ '|')
    (hr : (∃ t, r = [d, d] ++ t) ∨ ∃ t, r = '|' :: t) (huv : s = u ++ v) (hv : v ≠ []) :
    (Re.seq sps (barTail g₂ d)).res ⟨p, v ++ r, caps⟩ = [] := by
  refine close_nil (d := d) ?_ hv ?_ ?_ hd hr
  · intro x hx
    rcases barTail_start hx with ⟨t, ht⟩ | h
    · exact .inl ⟨t, ht, fun hm => hs.nobar (by rw [huv]; simp [hm])⟩
    · exact .inr h
  · intro c hc; exact hs.last c (last_suffix huv hc)
  · intro a b hab _ t ht
    exact hs.occ (u ++ a) b (by rw [huv, hab]; simp) t ht

theorem bar_none {g g₁ g₂ : G} {o d : Char} {s rest : Str} {prev : Option Char} (hs : Target d s) (hd : d ≠ '|') (hd' : isSpace d = false) :
    ((barRule g g₁ g₂ o d).res ⟨prev, [o, o] ++ (s ++ ([d, d] ++ rest)), []⟩).head? =
      some ⟨some d, rest, [(g, [o, o] ++ s ++ [d, d]), (g₁, s)]⟩ := by
  cases hsc : s with
  | nil => exact absurd hsc hs.ne
  | cons c w =>
    have h1 : ((lit [o, o] : R).res ⟨prev, [o, o] ++ ((c :: w) ++ ([d, d] ++ rest)), []⟩).head? =
        some ⟨some o, (c :: w) ++ ([d, d] ++ rest), []⟩ := by rw [Re.res_lit]; rfl
    have h2 : ((Re.seq (.grp g₁ someDots) (.seq sps (barTail g₂ d)) : R).res
        ⟨some o, (c :: w) ++ ([d, d] ++ rest), []⟩).head? = some ⟨some d, rest, [(g₁, c :: w)]⟩ := by
      refine head_someDots (by rw [← hsc]; exact hs.nonl) ?_ ?_
      · intro u v huv hv
        exact target_fails hs hd (.inl ⟨rest, rfl⟩) (u := c :: u) (by rw [hsc, huv]; rfl) hv
      · rw [res_seq_one (sps_none (by intro e t he; simp at he; rw [← he.1]; exact hd'))]
        unfold barTail
        rw [res_opt_seq, Re.res_seq_nil, List.nil_append, Re.res_lit]
        · rfl
        · exact Re.res_seq_nil (res_ch_nil hd)
    have h3 := Re.head_grp (g := g) (Re.head_seq h1 h2)
    have hc := consumed_append ([o, o] ++ (c :: w) ++ [d, d]) rest
    simp only [List.append_assoc] at hc
    simp only [hc] at h3
    simpa [barRule, cat, barTail] using h3

theorem bar_some {g g₁ g₂ : G} {o d : Char} {s x rest : Str} {prev : Option Char} (hs : Target d s) (hx : BarText d x) (hd : d ≠ '|')
    (hd' : isSpace d = false) :
    ((barRule g g₁ g₂ o d).res ⟨prev, [o, o] ++ (s ++ ('|' :: (x ++ ([d, d] ++ rest)))), []⟩).head? =
      some ⟨some d, rest, [(g, [o, o] ++ s ++ '|' :: x ++ [d, d]), (g₂, x), (g₁, s)]⟩ := by
  cases hsc : s with
  | nil => exact absurd hsc hs.ne
  | cons c w =>
  cases hxc : x with
  | nil => exact absurd hxc hx.ne
  | cons e y =>
    have h1 : ((lit [o, o] : R).res ⟨prev, [o, o] ++ ((c :: w) ++ ('|' :: ((e :: y) ++ ([d, d] ++ rest)))), []⟩).head? =
        some ⟨some o, (c :: w) ++ ('|' :: ((e :: y) ++ ([d, d] ++ rest))), []⟩ := by rw [Re.res_lit]; rfl
    have h2 : ((Re.seq (.grp g₁ someDots) (.seq sps (barTail g₂ d)) : R).res
        ⟨some o, (c :: w) ++ ('|' :: ((e :: y) ++ ([d, d] ++ rest))), []⟩).head? =
        some ⟨some d, rest, [(g₂, e :: y), (g₁, c :: w)]⟩ := by
      refine head_someDots (by rw [← hsc]; exact hs.nonl) ?_ ?_
      · intro u v huv hv
        exact target_fails hs hd (.inr ⟨_, rfl⟩) (u := c :: u) (by rw [hsc, huv]; rfl) hv
      · rw [res_seq_one (sps_none (by intro f t hf; simp at hf; rw [← hf.1]; decide))]
        unfold barTail
        rw [res_opt_seq, List.head?_append]
        have h4 : ((Re.seq (cat [ch '|', sps, .grp g₂ someDots, sps]) (lit [d, d]) : R).res
            ⟨(c :: w).getLast?, '|' :: ((e :: y) ++ ([d, d] ++ rest)), [(g₁, c :: w)]⟩).head? =
            some ⟨some d, rest, [(g₂, e :: y), (g₁, c :: w)]⟩ := by
          show ((Re.seq (.seq (ch '|') (.seq sps (.seq (.grp g₂ someDots) sps))) (lit [d, d]) : R).res _).head? = _
          rw [res_seq_assoc, res_seq_one (x := ⟨some '|', (e :: y) ++ ([d, d] ++ rest), [(g₁, c :: w)]⟩) (by
            simp [ch, Re.res, CSet.mem]), res_seq_assoc,
            res_seq_one (sps_none (by
              intro f t hf
              simp only [List.cons_append, List.cons.injEq] at hf
              rw [← hf.1]; exact hx.first e y hxc)), res_seq_assoc]
          refine head_someDots (by rw [← hxc]; exact hx.nonl) ?_ ?_
          · intro u v huv hv
            refine close_nil (d := d) ?_ hv ?_ ?_ hd (.inl ⟨rest, rfl⟩)
            · intro z hz
              right
              apply Classical.byContradiction
              intro hn
              apply hz
              exact Re.res_lit_nil [d, d] _ _ _ (fun t ht => hn ⟨t, ht⟩)
            · intro l hl
              exact hx.last l (last_suffix (u := e :: u) (by rw [hxc, huv]; rfl) hl)
            · intro a b hab _ t ht
              exact hx.occ (e :: u ++ a) b (by rw [hxc, huv, hab]; simp) t ht
          · rw [res_seq_one (sps_none (by intro f t hf; simp at hf; rw [← hf.1]; exact hd')), Re.res_lit]
            rfl
        rw [h4]; rfl
    have h3 := Re.head_grp (g := g) (Re.head_seq h1 h2)
    have hc := consumed_append ([o, o] ++ (c :: w) ++ '|' :: (e :: y) ++ [d, d]) rest
    simp only [List.append_assoc, List.cons_append] at hc
    simp only [List.cons_append, hc] at h3
    simpa [barRule, cat, barTail] using h3

theorem match_link {prev : Option Char} {s rest : Str} (hs : Target ']' s) :
    inlineRe.matchAt false prev (c!"[[" ++ (s ++ (c!"]]" ++ rest))) =
      some ⟨some ']', rest, [(.link, c!"[[" ++ s ++ c!"]]"), (.link_target, s)]⟩ :=
  inline_rule (l₁ := []) (l₂ := inlineRules.drop 1) rfl (by simp) (bar_none hs (by decide) (by decide))

theorem match_linkText {prev : Option Char} {s x rest : Str} (hs : Target ']' s) (hx : BarText ']' x) :
    inlineRe.matchAt false prev (c!"[[" ++ (s ++ ('|' :: (x ++ (c!"]]" ++ rest))))) =
      some ⟨some ']', rest, [(.link, c!"[[" ++ s ++ '|' :: x ++ c!"]]"), (.link_text, x), (.link_target, s)]⟩ :=
  inline_rule (l₁ := []) (l₂ := inlineRules.drop 1) rfl (by simp) (bar_some hs hx (by decide) (by decide))

theorem pre_nil {prev : Option Char} {s : Str} (h : s.head? ≠ some '{') : preInlineRule.res ⟨prev, '{' :: '{' :: s, []⟩ = [] := by
  refine grp_lit_nil ?_
  intro t ht
  simp only [List.cons_append, List.nil_append, List.cons.injEq] at ht
  apply h
  rw [ht.2.2]; rfl

theorem head?_append_ne {s t : Str} {c : Char} (h : s.head? ≠ some c) (hs : s ≠ []) : (s ++ t).head? ≠ some c := by
  cases s with
  | nil => exact absurd rfl hs
  | cons d s => simpa using h

theorem match_image {prev : Option Char} {s rest : Str} (hs : Target '}' s) (hh : s.head? ≠ some '{') :
    inlineRe.matchAt false prev (c!"{{" ++ (s ++ (c!"}}" ++ rest))) =
      some ⟨some '}', rest, [(.image, c!"{{" ++ s ++ c!"}}"), (.image_target, s)]⟩ := by
  refine inline_rule (l₁ := inlineRules.take 4 ++ [preInlineRule]) (l₂ := inlineRules.drop 6) rfl ?_
    (bar_none hs (by decide) (by decide))
  intro q hq
  rw [List.mem_append, List.mem_singleton] at hq
  rcases hq with hq | rfl
  · exact fails_start (by decide) q hq
  · exact pre_nil (head?_append_ne (s := s) hh hs.ne)

theorem match_imageText {prev : Option Char} {s x rest : Str} (hs : Target '}' s) (hx : BarText '}' x) (hh : s.head? ≠ some '{') :
    inlineRe.matchAt false prev (c!"{{" ++ (s ++ ('|' :: (x ++ (c!"}}" ++ rest))))) =
      some ⟨some '}', rest, [(.image, c!"{{" ++ s ++ '|' :: x ++ c!"}}"), (.image_text, x), (.image_target, s)]⟩ := by
  refine inline_rule (l₁ := inlineRules.take 4 ++ [preInlineRule]) (l₂ := inlineRules.drop 6) rfl ?_
    (bar_some hs hx (by decide) (by decide))
  intro q hq
  rw [List.mem_append, List.mem_singleton] at hq
  rcases hq with hq | rfl
  · exact fails_start (by decide) q hq
  · exact pre_nil (head?_append_ne (s := s) hh hs.ne)

/-! ## Bare links -/

theorem protoSlash {p w : Str} (hp : p ∈ protocols) (q : Option Char) (caps : List (G × Str)) :
    (Re.seq (.grp .url_proto proto) (lit c!"://") : R).res ⟨q, p ++ (c!"://" ++ w), caps⟩ =
      [⟨some '/', w, (.url_proto, p) :: caps⟩] := by
  have hc : ∀ a b : Str, consumed (a ++ b) b = a := consumed_append
  simp only [protocols, List.mem_cons, List.not_mem_nil, or_false] at hp
  rcases hp with rfl | rfl | rfl | rfl | rfl | rfl | rfl | rfl | rfl <;>
    simp [proto, alts, lit, Re.res, CSet.mem, consumed]

theorem urlTail_head {p w rest : Str} {q : Option Char} {caps : List (G × Str)} (hp : p ∈ protocols) (hw : w ≠ [])
    (hc : ∀ c ∈ w, isSpace c = false ∧ c ≠ '$') (hr : urlEnd rest = true) :
    (urlTail.res ⟨q, p ++ (c!"://" ++ (w ++ rest)), caps⟩).head? =
      some ⟨w.getLast?, rest, (.url_target, p ++ c!"://" ++ w) :: (.url_proto, p) :: caps⟩ := by
  cases w with
  | nil => exact absurd rfl hw
  | cons c w =>
    have hm : ∀ d, (CSet.compl (.union (.chr '$') .space)).mem d = (!(d == '$' || isSpace d)) := fun _ => rfl
    have h1 : ((Re.plus true (.cls (.compl (.union (.chr '$') .space))) : R).res
        ⟨some '/', c :: (w ++ rest), (.url_proto, p) :: caps⟩).head? =
        some ⟨(c :: w).getLast?, rest, (.url_proto, p) :: caps⟩ := by
      refine Re.head_plus_cls ?_ ?_
      · intro d t hd
        rw [hm]
        rw [hd] at hr
        simp only [urlEnd, List.head?_cons, Option.all_some] at hr
        simp only [Bool.not_eq_false']
        rw [Bool.or_comm]; exact hr
      · intro d hd
        rw [hm]
        have := hc d hd
        simp [this.1, this.2]
    have h2 : ((Re.seq (.grp .url_proto proto) (.seq (lit c!"://") (.plus true (.cls (.compl (.union (.chr '$') .space))))) : R).res
        ⟨q, p ++ (c!"://" ++ ((c :: w) ++ rest)), caps⟩).head? = some ⟨(c :: w).getLast?, rest, (.url_proto, p) :: caps⟩ := by
      rw [← res_seq_assoc, res_seq_one (protoSlash hp q caps)]
      exact h1
    have h3 := Re.head_grp (g := G.url_target) h2
    have hcc := consumed_append (p ++ c!"://" ++ (c :: w)) rest
    simp only [List.append_assoc] at hcc
    simp only [hcc] at h3
    simpa [urlTail, cat] using h3

/-- the parts of a bare link -/
theorem isUrl_parts {s : Str} (h : isUrl s = true) : ∃ p w, p ∈ protocols ∧ s = p ++ (c!"://" ++ w) ∧ w ≠ [] ∧
    ∀ c ∈ w, isSpace c = false ∧ c ≠ '$' := by
  unfold isUrl at h
  rw [List.any_eq_true] at h
  obtain ⟨p, hp, h⟩ := h
  simp only [Bool.and_eq_true] at h
  obtain ⟨⟨h1, h2⟩, h3⟩ := h
  obtain ⟨w, hw⟩ := List.isPrefixOf_iff_prefix.mp h1
  have hd : s.drop (p.length + 3) = w := by
    rw [← hw]
    have : p.length + 3 = (p ++ c!"://").length := by simp
    rw [this, List.drop_left]
  rw [hd] at h2 h3
  refine ⟨p, w, hp, by rw [← hw]; simp, by rintro rfl; simp at h3, ?_⟩
  intro c hc
  have := List.all_eq_true.mp h2 c hc
  simpa using this

theorem proto_start {p : Str} (hp : p ∈ protocols) : ∃ c t, p = c :: t ∧ c ∈ c!"hfnmti" := by
  simp only [protocols, List.mem_cons, List.not_mem_nil, or_false] at hp
  rcases hp with rfl | rfl | rfl | rfl | rfl | rfl | rfl | rfl | rfl <;> exact ⟨_, _, rfl, by decide⟩

theorem urlRule_seq (prev : Option Char) (s : Str) (h : atWord prev = true) :
    urlRule.res ⟨prev, s, []⟩ =
      (Re.grp .url (.seq (opt (.grp .escaped_url (ch '~'))) urlTail)).res ⟨prev, s, []⟩ := by
  unfold urlRule
  have : (cat [.alt (.bol false) (.behind false .space), opt (.grp .escaped_url (ch '~')),
      .grp .url_target <| cat [.grp .url_proto proto, lit c!"://", .plus true (.cls (.compl (.union (.chr '$') .space)))]] : R) =
      Re.seq (.alt (.bol false) (.behind false .space)) (.seq (opt (.grp .escaped_url (ch '~'))) urlTail) := rfl
  rw [this]
  have h4 : ∀ (g : G) (a : R) s, (Re.grp g a).res s =
      (a.res s).map fun s' => { s' with caps := (g, consumed s.rest s'.rest) :: s'.caps } := fun _ _ _ => rfl
  rw [h4, h4, res_seq_one (by rw [urlHead_eq, if_pos h])]

theorem match_url {prev : Option Char} {p w rest : Str} (hp : p ∈ protocols) (hw : w ≠ [])
    (hc : ∀ c ∈ w, isSpace c = false ∧ c ≠ '$') (hr : urlEnd rest = true) (ha : atWord prev = true) :
    inlineRe.matchAt false prev (p ++ (c!"://" ++ (w ++ rest))) =
      some ⟨w.getLast?, rest, [(.url, p ++ c!"://" ++ w), (.url_target, p ++ c!"://" ++ w), (.url_proto, p)]⟩ := by
  obtain ⟨c, t, hpc, hcm⟩ := proto_start hp
  refine inline_rule (l₁ := inlineRules.take 1) (l₂ := inlineRules.drop 2) rfl ?_ ?_
  · rw [hpc, List.cons_append]
    refine fails_start ?_
    simp only [List.mem_cons, List.not_mem_nil, or_false] at hcm
    rcases hcm with rfl | rfl | rfl | rfl | rfl | rfl <;> decide
  · rw [urlRule_seq _ _ ha]
    have hne : c ≠ '~' := by rintro rfl; exact absurd hcm (by decide)
    have h1 : ((Re.seq (opt (.grp .escaped_url (ch '~'))) urlTail : R).res ⟨prev, p ++ (c!"://" ++ (w ++ rest)), []⟩).head? =
        some ⟨w.getLast?, rest, [(.url_target, p ++ c!"://" ++ w), (.url_proto, p)]⟩ := by
      rw [res_opt_seq, Re.res_seq_nil, List.nil_append]
      · exact urlTail_head hp hw hc hr
      · rw [hpc, List.cons_append]
        exact res_grp_nil (res_ch_nil hne)
    have h3 := Re.head_grp (g := G.url) h1
    have hcc := consumed_append (p ++ c!"://" ++ w) rest
    simp only [List.append_assoc] at hcc
    simp only [hcc] at h3
    simpa using h3

theorem match_escUrl {prev : Option Char} {p w rest : Str} (hp : p ∈ protocols) (hw : w ≠ [])
    (hc : ∀ c ∈ w, isSpace c = false ∧ c ≠ '$') (hr : urlEnd rest = true) (ha : atWord prev = true) :
    inlineRe.matchAt false prev ('~' :: (p ++ (c!"://" ++ (w ++ rest)))) =
      some ⟨w.getLast?, rest, [(.url, '~' :: (p ++ c!"://" ++ w)), (.url_target, p ++ c!"://" ++ w), (.url_proto, p),
        (.escaped_url, ['~'])]⟩ := by
  refine inline_rule (l₁ := inlineRules.take 1) (l₂ := inlineRules.drop 2) rfl (fails_start (by decide)) ?_
  rw [urlRule_seq _ _ ha]
  have h1 : ((Re.seq (opt (.grp .escaped_url (ch '~'))) urlTail : R).res ⟨prev, '~' :: (p ++ (c!"://" ++ (w ++ rest))), []⟩).head? =
      some ⟨w.getLast?, rest, [(.url_target, p ++ c!"://" ++ w), (.url_proto, p), (.escaped_url, ['~'])]⟩ := by
    refine Re.head_seq (x := ⟨some '~', p ++ (c!"://" ++ (w ++ rest)), [(.escaped_url, ['~'])]⟩) ?_
      (urlTail_head hp hw hc hr)
    refine Re.head_alt_left ?_
    have h0 := Re.head_grp (g := G.escaped_url) (Re.head_cls (γ := G) (cs := .chr '~') (p := prev) (c := '~')
      (r := p ++ (c!"://" ++ (w ++ rest))) (caps := []) (by decide))
    have hcc := consumed_append ['~'] (p ++ (c!"://" ++ (w ++ rest)))
    simp only [List.cons_append, List.nil_append] at hcc
    simp only [List.cons_append, List.nil_append, hcc] at h0
    exact h0
  have h3 := Re.head_grp (g := G.url) h1
  have hcc := consumed_append ('~' :: (p ++ c!"://" ++ w)) rest
  simp only [List.append_assoc, List.cons_append] at hcc
  simp only [List.cons_append, hcc] at h3
  simpa using h3

end Verif.Creole
