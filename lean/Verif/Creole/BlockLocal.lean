import Verif.Creole.Local

/-!
# Block rules do not look beyond a blank line

For a text whose last line is not blank, does not begin with `|` and does not consist of list marks or equals signs only, the
block expression matches in the same way whether a blank line (and any other text) follows or not.
-/

namespace Verif.Creole

open Verif Re Py Spec Spec.Cr

/-- the text ends with a line that is not blank, does not begin with a bar and has a character other than `=`, `*`, `#` -/
def Core (u : Str) : Prop := ∃ v i k K, u = v ++ (i ++ k :: K) ∧ (v = [] ∨ ∃ v', v = v' ++ c!"\n") ∧ (∀ c ∈ i, isSpace c = true) ∧
  isSpace k = false ∧ k ≠ '|' ∧ '\n' ∉ i ++ k :: K ∧ ∃ d ∈ k :: K, isSpace d = false ∧ d ≠ '=' ∧ d ≠ '*' ∧ d ≠ '#'

theorem Core.solid {u : Str} (h : Core u) : ∃ d ∈ u, isSpace d = false ∧ d ≠ '=' ∧ d ≠ '*' ∧ d ≠ '#' := by
  obtain ⟨v, i, k, K, rfl, _, _, _, _, _, d, hd, h⟩ := h
  exact ⟨d, by simp only [List.mem_append]; exact .inr (.inr hd), h⟩

theorem star_split {g : Bool} {cs : CSet} {s x : St G} (h : x ∈ (Re.star g (.cls cs)).res s) :
    ∃ w, s.rest = w ++ x.rest ∧ ∀ c ∈ w, cs.mem c = true := by
  obtain ⟨w, hw⟩ := Re.res_reach h
  exact ⟨w, hw.rest, star_cls_all h hw⟩

theorem plus_split {g : Bool} {cs : CSet} {s x : St G} (h : x ∈ (Re.plus g (.cls cs)).res s) :
    ∃ w, s.rest = w ++ x.rest ∧ ∀ c ∈ w, cs.mem c = true := by
  obtain ⟨w, hw⟩ := Re.res_reach h
  exact ⟨w, hw.rest, (plus_cls_all h hw).2⟩

/-- a character that cannot have been consumed is still there -/
theorem mem_rest {w r : Str} {d : Char} {m : Char → Bool} (hd : d ∈ w ++ r) (hw : ∀ c ∈ w, m c = true) (hm : m d = false) : d ∈ r := by
  rw [List.mem_append] at hd
  rcases hd with hd | hd
  · rw [hw d hd] at hm; simp at hm
  · exact hd

variable {b : Str} {s : St G}

local notation "TT" => ('\n' :: '\n' :: b)

theorem tt_eol : atEol true TT = true := rfl

theorem ch_local {c : Char} (hc : c ≠ '\n') : Local (ch c) TT s := by
  refine .cls (.inr ?_)
  rintro d t ht
  simp only [List.cons.injEq] at ht
  rw [← ht.1]
  simp [CSet.mem, Ne.symm hc]

theorem line_local (h : ∃ d ∈ s.rest, isSpace d = false) : Local lineRule TT s := by
  refine .grp (.seq .bol fun x hx => ?_)
  rw [mem_res_bol] at hx
  obtain ⟨_, rfl⟩ := hx
  exact .seq (.sps h) fun _ _ => .eol tt_eol

theorem step_eqSpace : Verif.Step (.alt (ch '=') (.cls .space) : R) (fun c => c == '=' || isSpace c) := by
  refine ⟨fun _ _ => rfl, fun p c r caps => ?_⟩
  by_cases h : c = '='
  · subst h
    have : isSpace '=' = false := by decide
    simp [Re.res, ch, CSet.mem, this]
  · cases hs : isSpace c <;> simp [Re.res, ch, CSet.mem, h, hs]

theorem headEnd_local : ∀ (r : Str) (p : Option Char) (caps : List (G × Str)),
    LocalH (.seq (.star false (.alt (ch '=') (.cls .space))) (.eol true)) TT ⟨p, r, caps⟩ := by
  have e : ∀ s, (Re.seq (.star false (.alt (ch '=') (.cls .space))) (.eol true) : R).res s =
    ((Re.star false (.alt (ch '=') (.cls .space))).res s).flatMap (Re.eol true : R).res := fun _ => rfl
  intro r
  induction r with
  | nil =>
    intro p caps
    unfold LocalH
    rw [e, e, lazy_unfold_nil]
    show (((Re.star false (.alt (ch '=') (.cls .space))).res ⟨p, '\n' :: '\n' :: b, caps⟩).flatMap (Re.eol true : R).res).head? = _
    rw [lazy_unfold step_eqSpace, eol_yes rfl, eol_yes rfl]
    rfl
  | cons c r ih =>
    intro p caps
    have h := ih (some c) caps
    unfold LocalH at h ⊢
    rw [e, e] at h ⊢
    show (((Re.star false (.alt (ch '=') (.cls .space))).res ⟨p, c :: (r ++ TT), caps⟩).flatMap (Re.eol true : R).res).head? = _
    rw [lazy_unfold step_eqSpace, lazy_unfold step_eqSpace]
    by_cases hc : c = '\n'
    · subst hc
      rw [eol_yes rfl, eol_yes rfl]
      rfl
    · have h0 : ∀ r', (Re.eol true : R).res ⟨p, c :: r', caps⟩ = [] := fun r' => eol_no (by simp [atEol, hc])
      rw [h0, h0, List.nil_append, List.nil_append]
      cases (c == '=' || isSpace c) with
      | false => rfl
      | true => exact h

theorem head_localH (h : Core s.rest) : LocalH headRule TT s := by
  obtain ⟨d, hd, hs, he, _⟩ := h.solid
  refine .grp (Local.seqH .bol fun x hx => ?_)
  rw [mem_res_bol] at hx
  obtain ⟨_, rfl⟩ := hx
  have hp : Local (.plus true (ch '=')) TT x := .seq (ch_local (by decide)) fun _ _ => .starLine tt_eol (by decide)
  refine Local.seqH (.grp hp) fun y hy => ?_
  rw [mem_res_grp] at hy
  obtain ⟨y, hy, rfl⟩ := hy
  obtain ⟨w, hw, hall⟩ := plus_split hy
  rw [hw] at hd
  have hd' : d ∈ y.rest := mem_rest hd hall (by simp [CSet.mem, he])
  refine Local.seqH (.sps ⟨d, hd', hs⟩) fun z _ => ?_
  exact Local.seqH (.grp (.dots tt_eol)) fun q _ => headEnd_local _ _ _

theorem sep_local (h : ∃ d ∈ s.rest, isSpace d = false) : Local separatorRule TT s := by
  refine .seq (.grp (.seq .bol fun x hx => ?_)) fun y _ => .seq (.starLine tt_eol (by decide)) fun _ _ => .eol tt_eol
  rw [mem_res_bol] at hx
  obtain ⟨_, rfl⟩ := hx
  exact .seq (.sps h) fun _ _ => .lit tt_eol _ (by decide)

theorem listMore_local (s : St G) : Local listMore TT s := by
  obtain ⟨p, r, caps⟩ := s
  have htail : ∀ x : St G, Local (cat [blanks, .plus true (.cls bulletCls), .star true dot, .eol true]) TT x := by
    intro x
    refine .seq (.starLine tt_eol (by decide)) fun _ _ => .seq (.seq (.cls (.inr ?_)) fun _ _ => .starLine tt_eol (by decide))
      fun _ _ => .seq (.dots tt_eol) fun _ _ => .eol tt_eol
    intro c t ht
    simp only [List.cons.injEq] at ht
    rw [← ht.1]; decide
  cases r with
  | cons c r => exact .seq (.cls (.inl (by simp))) fun x _ => htail x
  | nil =>
    unfold Local
    have h1 : listMore.res ⟨p, [], caps⟩ = [] := rfl
    rw [h1]
    show (Re.seq (ch '\n') (cat [blanks, .plus true (.cls bulletCls), .star true dot, .eol true])).res ⟨p, '\n' :: '\n' :: b, caps⟩ = []
    rw [res_seq_one (x := ⟨some '\n', '\n' :: b, caps⟩) (by simp [Re.res, ch, CSet.mem])]
    exact fail_start (by decide) (by decide)

theorem list_local (h : Core s.rest) : Local listRule TT s := by
  obtain ⟨d, hd, hs, _, h1, h2⟩ := h.solid
  refine .grp (.seq ?_ fun x _ => .star (by decide) (fun _ => True) (fun x _ => listMore_local x) (fun _ _ _ _ => trivial) trivial)
  refine .seq .bol fun x hx => ?_
  rw [mem_res_bol] at hx
  obtain ⟨_, rfl⟩ := hx
  refine .seq (.sps ⟨d, hd, hs⟩) fun y hy => ?_
  obtain ⟨w, hw, hall⟩ := star_split hy
  rw [hw] at hd
  have hd' : d ∈ y.rest := mem_rest hd hall (by simp [CSet.mem, hs])
  have hmark : ∀ (c : Char) (cs : CSet), d ≠ c → c ≠ '\n' → Local (.seq (ch c) (.cls cs)) TT y := by
    intro c cs hdc hc
    refine .seq (ch_local hc) fun z hz => .cls (.inl ?_)
    rw [ch, mem_res_cls] at hz
    obtain ⟨e, r, he, hm, rfl⟩ := hz
    rw [he] at hd'
    simp only [CSet.mem, beq_iff_eq] at hm
    subst hm
    simp only [List.mem_cons, hdc, false_or] at hd'
    intro h0
    simp only at h0
    rw [h0] at hd'; simp at hd'
  exact .seq (.alt (hmark _ _ h1 (by decide)) (hmark _ _ h2 (by decide))) fun _ _ => .seq (.dots tt_eol) fun _ _ => .eol tt_eol

/-- blanks end before a character that is not blank -/
theorem before_core {w r y t : Str} {k : Char} (h : w ++ r = y ++ k :: t) (hw : ∀ c ∈ w, isSpace c = true) (hk : isSpace k = false) :
    ∃ y', r = y' ++ k :: t := by
  rw [List.append_eq_append_iff] at h
  rcases h with ⟨a, _, ha⟩ | ⟨a, ha, hr⟩
  · exact ⟨a, ha⟩
  · cases a with
    | nil => exact ⟨[], by simpa using hr.symm⟩
    | cons c a =>
      simp only [List.cons_append, List.cons.injEq] at hr
      have := hw k (by rw [ha, ← hr.1]; simp)
      rw [hk] at this; simp at this

theorem table_local (h : Core s.rest) : Local tableRule TT s := by
  obtain ⟨v, i, k, K, hu, hv, hi, hk, hbar, hnl, _⟩ := h
  have hks : ∀ (y : Str), ∃ d ∈ y ++ k :: K, isSpace d = false := fun y => ⟨k, by simp, hk⟩
  refine .seq .bol fun x hx => ?_
  rw [mem_res_bol] at hx
  obtain ⟨_, rfl⟩ := hx
  refine .seq (.sps (by rw [hu, ← List.append_assoc]; exact hks _)) fun y hy => ?_
  obtain ⟨w, hw, hall⟩ := star_split hy
  have hall' : ∀ c ∈ w, isSpace c = true := fun c hc => hall c hc
  have hend : ∀ z : St G, (∃ y', z.rest = y' ++ k :: K) → Local (.seq sps (.eol true)) TT z := by
    rintro z ⟨y', hz⟩
    exact .seq (.sps (by rw [hz]; exact hks y')) fun _ _ => .eol tt_eol
  -- what the row can consume
  have hsps : ∀ z : St G, (∃ y', z.rest = y' ++ k :: K) → ∀ q ∈ sps.res z, ∃ y', q.rest = y' ++ k :: K := by
    rintro z ⟨y', hz⟩ q hq
    obtain ⟨w', hw', hall''⟩ := star_split hq
    rw [hz] at hw'
    exact before_core hw'.symm hall'' hk
  have hopt : ∀ z : St G, (∃ y', z.rest = y' ++ k :: K) → ∀ q ∈ (opt (ch '|')).res z, ∃ y', q.rest = y' ++ k :: K := by
    rintro z ⟨y', hz⟩ q hq
    rw [opt, mem_res_alt, mem_res_eps, ch, mem_res_cls] at hq
    rcases hq with ⟨c, r, h1, h2, rfl⟩ | rfl
    · simp only [CSet.mem, beq_iff_eq] at h2
      subst h2
      rw [hz] at h1
      cases y' with
      | nil =>
        simp only [List.nil_append, List.cons.injEq] at h1
        exact absurd h1.1 hbar
      | cons c y' =>
        simp only [List.cons_append, List.cons.injEq] at h1
        exact ⟨y', h1.2.symm⟩
    · exact ⟨y', hz⟩
  have hdots : ∀ z ∈ (ch '|').res y, ∀ q ∈ anyDots.res z, ∃ y', q.rest = y' ++ k :: K := by
    intro z hz q hq
    rw [ch, mem_res_cls] at hz
    obtain ⟨c, r, h1, h2, rfl⟩ := hz
    simp only [CSet.mem, beq_iff_eq] at h2
    subst h2
    obtain ⟨w', hw', hdot⟩ := star_split hq
    simp only at hw'
    have hdot' : '\n' ∉ w' := by
      intro hm
      exact absurd (hdot _ hm) (by decide)
    rw [hu, h1] at hw
    -- the bar is before the last line
    rw [← List.append_assoc] at hw
    obtain ⟨y', hy'⟩ := before_core hw.symm hall' hk
    cases y' with
    | nil =>
      simp only [List.nil_append, List.cons.injEq] at hy'
      exact absurd hy'.1.symm hbar
    | cons c y2 =>
      simp only [List.cons_append, List.cons.injEq] at hy'
      obtain ⟨rfl, rfl⟩ := hy'
      have hcut : v ++ i = w ++ '|' :: y2 := by
        have : (v ++ i) ++ k :: K = (w ++ '|' :: y2) ++ k :: K := by rw [hw]; simp
        exact List.append_cancel_right this
      have hbi : '|' ∉ i := fun hm => absurd (hi _ hm) (by decide)
      have hnl2 : ∃ a, y2 = a ++ '\n' :: i := by
        rcases hv with rfl | ⟨v', rfl⟩
        · exact absurd (by rw [List.nil_append] at hcut; rw [hcut]; simp) hbi
        · rw [List.append_assoc, List.append_eq_append_iff] at hcut
          rcases hcut with ⟨a, ha, hr⟩ | ⟨a, ha, hr⟩
          · cases a with
            | nil => simp at hr
            | cons e a =>
              simp only [List.cons_append, List.nil_append, List.cons.injEq] at hr
              exact absurd (by rw [hr.2]; simp) hbi
          · cases a with
            | nil => simp at hr
            | cons e a =>
              simp only [List.cons_append, List.cons.injEq] at hr
              exact ⟨a, by simpa using hr.2⟩
      obtain ⟨a, rfl⟩ := hnl2
      rw [List.append_assoc, List.append_eq_append_iff] at hw'
      rcases hw' with ⟨e, he, hr⟩ | ⟨e, he, hr⟩
      · cases e with
        | nil =>
          rw [List.nil_append] at hr
          exact ⟨'\n' :: i, hr.symm⟩
        | cons c e =>
          simp only [List.cons_append, List.cons.injEq] at hr
          exact absurd (by rw [he, ← hr.1]; simp) hdot'
      · exact ⟨e ++ '\n' :: i, by rw [hr]; simp⟩
  refine .seq (.grp (.seq (ch_local (by decide)) fun z hz => .seq (.dots tt_eol) fun q hq => ?_)) fun z hz => ?_
  · obtain ⟨y', hy'⟩ := hdots z hz q hq
    exact .seq (.sps (by rw [hy']; exact hks y')) fun _ _ => .opt (ch_local (by decide))
  · rw [mem_res_grp] at hz
    obtain ⟨z, hz, rfl⟩ := hz
    rw [cat, mem_res_seq] at hz
    obtain ⟨z1, h1, hz⟩ := hz
    rw [cat, mem_res_seq] at hz
    obtain ⟨z2, h2, hz⟩ := hz
    rw [cat, mem_res_seq] at hz
    obtain ⟨z3, h3, hz⟩ := hz
    exact hend _ (hopt z3 (hsps z2 (hdots z1 h1 z2 h2) z3 h3) z hz)

theorem soft_local (h : ∀ y, s.rest = '\n' :: y → ∃ d ∈ y, isSpace d = false) : Local softBreak TT s := by
  obtain ⟨p, r, caps⟩ := s
  cases r with
  | nil =>
    unfold Local
    rw [soft_no (.inr (.inl rfl))]
    exact soft_no (.inr (.inr ⟨'\n' :: b, rfl, [], '\n' :: b, rfl, by simp, rfl⟩))
  | cons c r =>
    refine .seq .behind fun x hx => .seq (.eol tt_eol) fun y hy => .seq (.cls ?_) fun z hz => .notAhead (.seq (.sps ?_) fun _ _ => .eol tt_eol)
    · rw [mem_res_behind] at hx
      rw [mem_res_eol] at hy
      obtain ⟨_, rfl⟩ := hx
      obtain ⟨_, rfl⟩ := hy
      exact .inl (by simp)
    · rw [mem_res_behind] at hx
      rw [mem_res_eol] at hy
      rw [ch, mem_res_cls] at hz
      obtain ⟨_, rfl⟩ := hx
      obtain ⟨_, rfl⟩ := hy
      obtain ⟨e, r', h1, h2, rfl⟩ := hz
      simp only [CSet.mem, beq_iff_eq] at h2
      subst h2
      exact h r' h1

theorem text_local (h : ∀ w y, s.rest = w ++ '\n' :: y → ∃ d ∈ y, isSpace d = false) : Local (textRule true) TT s := by
  refine .seq (.grp (.plusDots tt_eol)) fun x hx => .opt (.grp (soft_local fun y hy => ?_))
  obtain ⟨w, hw⟩ := Re.res_reach hx
  exact h w y (by rw [hw.rest, hy])

end Verif.Creole
