import Verif.Creole.Firewall
import Verif.Spec.Firewall
import Verif.Props.LineEndings
import Verif.Props.Totality
import Verif.Props.Kept

/-!
# C73: a blank line separates

`Complete` says that nothing is open at the end of a text (`Verif/Spec/Firewall.lean`).
-/

namespace Verif.Props

open Verif Py Creole Spec

/-! ## Lines -/

theorem crlf_append {a : Str} (h : a.getLast? ≠ some '\r') (b : Str) : crlf (a ++ b) = crlf a ++ crlf b := by
  fun_induction crlf a with
  | case1 => rfl
  | case2 s ih =>
    have h' : s.getLast? ≠ some '\r' := by
      intro hs
      apply h
      rw [List.getLast?_cons, List.getLast?_cons, hs]; rfl
    show '\n' :: crlf (s ++ b) = '\n' :: (crlf s ++ crlf b)
    rw [ih h']
  | case3 s hn ih =>
    cases s with
    | nil => exact absurd rfl h
    | cons d s =>
      have h' : (d :: s).getLast? ≠ some '\r' := by
        intro hs
        apply h
        rw [List.getLast?_cons, hs]; rfl
      rw [List.cons_append, crlf_cr (by
        intro t ht
        simp only [List.cons_append, List.cons.injEq] at ht
        exact hn s (by rw [ht.1])), ih h']
      rfl
  | case4 c s hc ih =>
    have h' : s.getLast? ≠ some '\r' := by
      intro hs
      apply h
      rw [List.getLast?_cons, hs]; rfl
    rw [List.cons_append, crlf.eq_def]
    simp only [hc, if_false]
    rw [ih h']
    rfl

theorem textLines_clean (s : Str) : ∀ l ∈ textLines s, '\n' ∉ l := by
  fun_induction textLines s with
  | case1 => simp
  | case2 s ih => simpa using ih
  | case3 s hn ih => simpa using ih
  | case4 s ih => simpa using ih
  | case5 c s h1 h2 h3 he ih => 
    intro l hl
    simp only [List.mem_cons, List.not_mem_nil, or_false] at hl
    subst hl
    simp only [List.mem_cons, List.not_mem_nil, or_false]
    exact fun h => h3 h.symm
  | case6 c s h1 h2 h3 l ls he ih =>
    rw [he] at ih
    intro l' hl
    simp only [List.mem_cons] at hl
    rcases hl with rfl | hl
    · simp only [List.mem_cons, not_or]
      exact ⟨fun h => h3 h.symm, ih l (by simp)⟩
    · exact ih l' (by simp [hl])

theorem joinLines_bol : ∀ (L : List Str) {u x : Str}, L ≠ [] → (∀ l ∈ L, '\n' ∉ l) → joinLines c!"\n" L = u ++ x → atBol true u.getLast? = true →
    ∃ L₁ l L₂, L = L₁ ++ l :: L₂ ∧ x = joinLines c!"\n" (l :: L₂) := by
  have bol : ∀ {u : Str}, u ≠ [] → atBol true u.getLast? = true → '\n' ∈ u := by
    intro u hu h
    rcases getLast?_nl h with rfl | ⟨m, rfl⟩
    · exact absurd rfl hu
    · simp
  intro L
  induction L with
  | nil => intro u x h; exact absurd rfl h
  | cons l L ih =>
    intro u x _ hc he hu
    by_cases hu0 : u = []
    · subst hu0
      exact ⟨[], l, L, rfl, by rw [he]; rfl⟩
    · cases L with
      | nil =>
        rw [joinLines] at he
        exact absurd (by rw [he]; exact List.mem_append.mpr (.inl (bol hu0 hu))) (hc l (by simp))
      | cons m L =>
        rw [joinLines, List.append_assoc] at he
        rcases List.append_eq_append_iff.mp he with ⟨c', h1, h2⟩ | ⟨c', h1, h2⟩
        · cases c' with
          | nil =>
            rw [List.append_nil] at h1
            rw [h1] at hu0 hu
            exact absurd (bol hu0 hu) (hc l (by simp))
          | cons d c' =>
            simp only [List.cons_append, List.nil_append, List.cons.injEq] at h2
            obtain ⟨rfl, h2⟩ := h2
            have hbol : atBol true c'.getLast? = true := by
              cases c' with
              | nil => rfl
              | cons e c' => rw [h1, List.getLast?_append, List.getLast?_cons_cons] at hu; cases hx : (e :: c').getLast? with
                | none => simp at hx
                | some y => rw [hx] at hu; exact hu
            obtain ⟨L₁, l', L₂, k1, k2⟩ := ih (by simp) (fun l hl => hc l (by simp [hl])) h2 hbol
            exact ⟨l :: L₁, l', L₂, by rw [k1]; rfl, k2⟩
        · exact absurd (by rw [h1]; exact List.mem_append.mpr (.inl (bol hu0 hu))) (hc l (by simp))

theorem joinLines_cons' (l : Str) (L : List Str) : ∃ t, joinLines c!"\n" (l :: L) = l ++ t ∧ (t = [] ∨ ∃ t', t = '\n' :: t') := by
  cases L with
  | nil => exact ⟨[], by simp [joinLines], .inl rfl⟩
  | cons m L => exact ⟨'\n' :: joinLines c!"\n" (m :: L), by simp [joinLines], .inr ⟨_, rfl⟩⟩

theorem joinLines_concat : ∀ (L : List Str) (l : Str), joinLines c!"\n" (L ++ [l]) = L.flatMap (· ++ c!"\n") ++ l := by
  intro L
  induction L with
  | nil => intro l; simp [joinLines]
  | cons a L ih =>
    intro l
    cases h : L ++ [l] with
    | nil => simp at h
    | cons b M => rw [List.cons_append, h, joinLines, ← h, ih]; simp

theorem split_nonblank {w : Str} (h : blankLine w = false) : ∃ i k K, w = i ++ k :: K ∧ (∀ c ∈ i, isSpace c = true) ∧ isSpace k = false := by
  refine ⟨w.takeWhile isSpace, ?_⟩
  cases hd : w.dropWhile isSpace with
  | nil =>
    have e := List.takeWhile_append_dropWhile (p := isSpace) (l := w)
    rw [hd, List.append_nil] at e
    rw [blankLine, ← e, List.all_takeWhile] at h
    cases h
  | cons k K =>
    refine ⟨k, K, by rw [← hd, List.takeWhile_append_dropWhile], ?_, ?_⟩
    · intro c hc
      exact List.all_eq_true.mp (List.all_takeWhile (p := isSpace) (l := w)) c hc
    · have := List.head?_dropWhile_not isSpace w
      rw [hd] at this
      simpa using this

theorem nonblank_line {w : Str} (h : blankLine w = false) (hn : '\n' ∉ w) (t : Str) : Nonblank (w ++ t) := by
  obtain ⟨i, k, K, rfl, hi, hk⟩ := split_nonblank h
  exact ⟨i, k, K ++ t, by simp, hi, fun hc => hn (by simp [hc]), hk⟩

theorem lastLine_spec (a : Str) : ∃ L, textLines a = L ++ [lastLine a] := by
  unfold lastLine
  rcases List.eq_nil_or_concat (textLines a) with h | ⟨L, l, h⟩
  · exact absurd h (textLines_ne a)
  · exact ⟨L, by rw [h]; simp⟩

theorem Complete.closed {a : Str} (h : Complete a) : Closed (crlf a) := by
  have hclean := textLines_clean a
  obtain ⟨L, hL⟩ := lastLine_spec a
  have hlast := h.last
  simp only [mayContinue, Bool.or_eq_false_iff, beq_eq_false_iff_ne, ne_eq] at hlast
  obtain ⟨hbar, hall⟩ := hlast
  have hl : '\n' ∉ lastLine a := hclean _ (by rw [hL]; simp)
  have hex : ∃ d ∈ lastLine a, isSpace d = false ∧ d ≠ '=' ∧ d ≠ '*' ∧ d ≠ '#' := by
    rw [List.all_eq_false] at hall
    obtain ⟨d, hd, h⟩ := hall
    simp only [Bool.or_eq_true, decide_eq_true_eq, not_or, Bool.not_eq_true] at h
    exact ⟨d, hd, h.1.1.1, h.1.1.2, h.1.2, h.2⟩
  refine ⟨?_, fun hi => h.macros (infix_of_infix_crlf (by decide) hi), ?_⟩
  · obtain ⟨i, k, K, he, hi, hk⟩ := split_nonblank (w := lastLine a) (by
      obtain ⟨d, hd, hs, _⟩ := hex
      rw [blankLine, List.all_eq_false]
      exact ⟨d, hd, by simp [hs]⟩)
    refine ⟨L.flatMap (· ++ c!"\n"), i, k, K, by rw [crlf_textLines, hL, joinLines_concat, he], ?_, hi, hk, ?_, by rw [← he]; exact hl, ?_⟩
    · rcases List.eq_nil_or_concat L with rfl | ⟨L', l, rfl⟩
      · exact .inl rfl
      · exact .inr ⟨L'.flatMap (· ++ c!"\n") ++ l, by simp⟩
    · rintro rfl
      apply hbar
      rw [he, List.dropWhile_append_of_pos hi, List.dropWhile_cons_of_neg (by simp [hk])]
      rfl
    · obtain ⟨d, hd, hs, hd2⟩ := hex
      rw [he, List.mem_append] at hd
      rcases hd with hd | hd
      · rw [hi d hd] at hs; cases hs
      · exact ⟨d, hd, hs, hd2⟩
  · intro u v hu hb
    rw [crlf_textLines] at hu
    obtain ⟨L₁, l, L₂, h1, h2⟩ := joinLines_bol _ (textLines_ne a) hclean hu hb
    have hml : l ∈ textLines a := by rw [h1]; simp
    obtain ⟨t, h3, h4⟩ := joinLines_cons' l L₂
    rw [h3] at h2
    have hpre : ∃ w, l = c!"{{{" ++ w ∧ v = w ++ t := by
      rcases List.append_eq_append_iff.mp h2.symm with ⟨c', k1, k2⟩ | ⟨c', k1, k2⟩
      · rcases h4 with rfl | ⟨t', rfl⟩
        · have : c' = [] ∧ v = [] := by simpa using k2
          refine ⟨[], ?_, by simp [this.2]⟩
          rw [this.1, List.append_nil] at k1
          rw [← k1]; rfl
        · cases c' with
          | nil => exact ⟨[], by rw [k1]; simp, by simpa using k2.symm⟩
          | cons d c' =>
            simp only [List.cons_append, List.cons.injEq] at k2
            have : '\n' ∈ c!"{{{" := by rw [k1, k2.1]; simp
            exact absurd this (by decide)
      · exact ⟨c', k1, k2⟩
    obtain ⟨w, rfl, rfl⟩ := hpre
    refine nonblank_line ?_ (fun hc => hclean _ hml (by simp [hc])) t
    have := h.pre _ hml
    simpa [opensPre] using this

/-! ## HTML -/

theorem emitNodes_both (env : Env) (parent : Info) : ∀ (A B : List Node) (ms : Macros), emitNodes env parent (A ++ B) ms =
    (emitNodes env parent A ms >>= fun x => (emitNodes env parent B x.2).map fun y => (x.1 ++ y.1, y.2)) := by
  intro A
  induction A with
  | nil =>
    intro B ms
    rw [emitNodes, ok_bind, List.nil_append]
    cases emitNodes env parent B ms <;> rfl
  | cons n A ih =>
    intro B ms
    rw [List.cons_append, emitNodes, emitNodes]
    cases emitNode env parent n ms with
    | error e => rfl
    | ok x =>
      obtain ⟨s, ms1⟩ := x
      simp only
      rw [ih]
      cases emitNodes env parent A ms1 with
      | error e => rfl
      | ok y =>
        obtain ⟨t, ms2⟩ := y
        simp only [ok_bind]
        cases emitNodes env parent B ms2 with
        | error e => rfl
        | ok z => simp [Except.map]

theorem strip_join_line (a b : Str) : ∃ w, (∀ c ∈ w, isSpace c = true) ∧
    (strip a ≠ [] → strip b ≠ [] → a.getLast? = some '\n' → '\n' ∈ w) ∧ strip (a ++ b) = strip a ++ w ++ strip b := by
  obtain ⟨l, r, h1, h2, h3, _⟩ := Creole.strip_parts a
  obtain ⟨l', r', k1, k2, k3, _⟩ := Creole.strip_parts b
  have hw : ∀ c ∈ r ++ l', isSpace c = true := by
    intro c hc
    rw [List.mem_append] at hc
    exact hc.elim (h3 c) (k2 c)
  have e : strip (a ++ b) = strip (strip a ++ (r ++ l') ++ strip b) := by
    rw [show a ++ b = l ++ (strip a ++ (r ++ l') ++ strip b) ++ r' by
      conv => lhs; rw [h1, k1]
      simp [List.append_assoc]]
    exact strip_pad h2 k3 _
  rw [e]
  by_cases ha : strip a = []
  · refine ⟨[], by simp, fun h => absurd ha h, ?_⟩
    have := strip_pad hw (w' := []) (by simp) (strip b)
    rw [List.append_nil, strip_strip] at this
    rw [ha, List.nil_append, this, List.append_nil, List.nil_append]
  · by_cases hb : strip b = []
    · refine ⟨[], by simp, fun _ h => absurd hb h, ?_⟩
      have := strip_pad (w := []) (by simp) hw (strip a)
      rw [List.nil_append, strip_strip] at this
      rw [hb, List.append_nil, this, List.append_nil, List.append_nil]
    · refine ⟨r ++ l', hw, fun _ _ hl => ?_, strip_id ?_ ?_⟩
      · rw [h1, List.getLast?_append, List.getLast?_append] at hl
        cases hr : r.getLast? with
        | some d =>
          rw [hr] at hl
          simp only [Option.some_or, Option.some.injEq] at hl
          rw [hl] at hr
          exact List.mem_append_left _ (List.mem_of_getLast? hr)
        | none =>
          rw [hr] at hl
          cases hh : (strip a).getLast? with
          | none => rw [List.getLast?_eq_none_iff] at hh; exact absurd hh ha
          | some d =>
            rw [hh] at hl
            simp only [Option.none_or, Option.some_or, Option.some.injEq] at hl
            have := stripP_last a d hh
            rw [hl] at this
            exact absurd this (by decide)
      · intro c hc
        rw [List.append_assoc, List.head?_append] at hc
        cases hh : (strip a).head? with
        | none => rw [List.head?_eq_none_iff] at hh; exact absurd hh ha
        | some d =>
          rw [hh] at hc
          simp only [Option.some_or, Option.some.injEq] at hc
          rw [← hc]
          exact stripP_head a d hh
      · intro c hc
        rw [List.getLast?_append] at hc
        cases hh : (strip b).getLast? with
        | none => rw [List.getLast?_eq_none_iff] at hh; exact absurd hh hb
        | some d =>
          rw [hh] at hc
          simp only [Option.some_or, Option.some.injEq] at hc
          rw [← hc]
          exact stripP_last b d hh

theorem strip_join (a b : Str) : ∃ w, (∀ c ∈ w, isSpace c = true) ∧ strip (a ++ b) = strip a ++ w ++ strip b := by
  obtain ⟨w, h1, _, h2⟩ := strip_join_line a b
  exact ⟨w, h1, h2⟩

theorem emitDoc_plain {verbose : Int} {strict : Bool} {A : List Node} {us : List Str} (hu : us.contains c!"toc" = false) (ms : Macros) :
    emitDoc verbose strict ⟨.mk { kind := .document } A, us⟩ ms =
      (emitNodes { verbose, strict, useToc := false } { kind := .document } A ms).map fun x => (strip x.1, x.2) := by
  unfold emitDoc
  simp only [hu, Bool.false_and, Bool.false_eq_true, if_false]
  rw [emitNode]
  cases emitNodes { verbose, strict, useToc := false } { kind := .document } A ms <;> rfl

theorem crlf_last_cr (a : Str) (h : a.getLast? = some '\r') : (crlf a).getLast? = some '\n' := by
  fun_induction crlf a with
  | case1 => cases h
  | case2 s ih =>
    cases s with
    | nil => cases h
    | cons d s =>
      rw [List.getLast?_cons, ih (by simpa [List.getLast?_cons] using h)]; rfl
  | case3 s hn ih =>
    cases s with
    | nil => rfl
    | cons d s =>
      rw [List.getLast?_cons, ih (by simpa [List.getLast?_cons] using h)]; rfl
  | case4 c s hc ih =>
    cases s with
    | nil =>
      simp only [List.getLast?_singleton, Option.some.injEq] at h
      exact absurd h hc
    | cons d s =>
      rw [List.getLast?_cons, ih (by simpa [List.getLast?_cons] using h)]; rfl

theorem infix_append_blank {a b : Str} (hb : ∀ c ∈ b, isSpace c = true) (h : c!"<<" <:+: a ++ b) : c!"<<" <:+: a := by
  rw [← List.reverse_infix, List.reverse_append] at h
  have := infix_append_left (a := b.reverse) (by simpa using hb) ⟨'<', c!"<", rfl, by decide +kernel⟩ h
  exact List.reverse_infix.mp this

/-- **C73, a blank line separates.**  If nothing is open at the end of `a` and `b` does not begin with a blank line (and does not
ask for a table of contents) then `a`, a blank line and `b` are converted (with the default line breaks) to the HTML of `a` with the
blank line, white space and the HTML of `b`; the macros are called as for `b` alone; and if the conversion of `b` raises an
exception then so does the conversion of the whole. -/
theorem C73_blank_line (o : Opts) (ho : o.blog = true) (macros : Macros) {a b : Str} (ha : Complete a) (hb : blankLine (firstLine b) = false)
    (ht : mayCall c!"toc" b = false) : ∃ x, creole2htmlM o macros (a ++ c!"\n\n") = .ok (x, macros) ∧
      (∀ y ms, creole2htmlM o macros b = .ok (y, ms) →
        ∃ w, (∀ c ∈ w, isSpace c = true) ∧ creole2htmlM o macros (a ++ c!"\n\n" ++ b) = .ok (x ++ w ++ y, ms)) ∧
      ∀ e, creole2htmlM o macros b = .error e → creole2htmlM o macros (a ++ c!"\n\n" ++ b) = .error e := by
  have hcr : a.getLast? ≠ some '\r' := by
    intro h
    have h1 := crlf_last_cr a h
    have h2 := (Complete.closed ha).last
    rw [h1] at h2
    cases h2
  have hnb : Nonblank (crlf b) := by
    have hne := textLines_ne b
    rw [crlf_textLines]
    unfold firstLine at hb
    have hcl := textLines_clean b
    revert hne hb hcl
    cases textLines b with
    | nil => intro _ h; exact absurd rfl h
    | cons l L =>
      intro hb _ hcl
      obtain ⟨t, h1, _⟩ := joinLines_cons' l L
      rw [h1]
      exact nonblank_line hb (hcl l (by simp)) t
  have e1 : normNewlines (a ++ c!"\n\n") = crlf a ++ c!"\n\n" := by
    rw [normNewlines, crlf_eq, crlf_append hcr]; rfl
  have e2 : normNewlines (a ++ c!"\n\n" ++ b) = crlf a ++ c!"\n\n" ++ crlf b := by
    rw [normNewlines, crlf_eq, List.append_assoc, crlf_append hcr, crlf_append (a := c!"\n\n") (by decide), List.append_assoc]; rfl
  have e3 : normNewlines b = crlf b := by rw [normNewlines, crlf_eq]
  obtain ⟨A, B, ua, ub, h1, h2, h3, h4, h5, cs, hcs⟩ := (Complete.closed ha).parse hnb
  have hua : ua = [] := by
    cases ua with
    | nil => rfl
    | cons n us => exact absurd (h4 n (by simp)).mark ((Complete.closed ha).macros)
  have hub : ub.contains c!"toc" = false := by
    cases hc : ub.contains c!"toc" with
    | false => rfl
    | true =>
      have := called_crlf (by decide) (by decide) (h5 c!"toc" (by simpa using hc))
      rw [ht] at this; cases this
  subst hua
  rw [List.append_nil] at h3
  -- the first text alone
  obtain ⟨d, p1, p2, _⟩ := parse_ok (p := InfoOK False) (blog := true) (raw := a ++ c!"\n\n")
    (by
      have := allows_infoOK False
      refine { this with macros := fun _ hm => absurd ?_ (Complete.closed ha).macros }
      rw [e1] at hm
      exact infix_append_blank (by decide) hm.mark)
  have hd : d = ⟨.mk { kind := .document } (A ++ [lineNode]), []⟩ := by
    unfold Creole.parse at p1
    rw [e1, h1] at p1
    simp only [Except.map, Except.ok.injEq] at p1
    rw [← p1]
    rfl
  subst hd
  have hg := emitNode_good (mac := False) (Inv := fun ms => ms = macros) (E := fun _ => False)
    (env := { verbose := o.verbose, strict := o.strict, useToc := false })
    (fun i ms h => h.elim) (fun n s ms h => headerEmit_noToc rfl _ _ _ h) (.mk { kind := .document } (A ++ [lineNode])) { kind := .document } macros
    trivial p2 rfl
  rw [emitNode, emitNodes_both] at hg
  cases hA : emitNodes { verbose := o.verbose, strict := o.strict, useToc := false } { kind := .document } A macros with
  | error e => rw [hA] at hg; exact hg.elim
  | ok x =>
    obtain ⟨s, ms1⟩ := x
    have hline : ∀ ms, emitNodes { verbose := o.verbose, strict := o.strict, useToc := false } { kind := .document } [lineNode] ms = .ok (c!"\n", ms) := by
      intro ms
      rfl
    rw [hA, ok_bind, hline] at hg
    have hms : ms1 = macros := hg
    subst hms
    refine ⟨strip s, ?_, ?_, ?_⟩
    · unfold creole2htmlM
      rw [ho, p1, ok_bind, emitDoc_plain (by rfl), emitNodes_both, hA, ok_bind, hline]
      simp only [Except.map, Except.ok.injEq, Prod.mk.injEq, and_true]
      exact Html.strip_blankEnd _ (by decide)
    · intro y ms hy
      unfold creole2htmlM at hy ⊢
      rw [ho] at hy ⊢
      unfold Creole.parse at hy ⊢
      rw [e3, h2, ok_bind, emitDoc_plain hub] at hy
      rw [e2, h3, ok_bind, emitDoc_plain hub, emitNodes_both, hA, ok_bind]
      cases hB : emitNodes { verbose := o.verbose, strict := o.strict, useToc := false } { kind := .document } B ms1 with
      | error e => rw [hB] at hy; simp [Except.map] at hy
      | ok z =>
        rw [hB] at hy
        simp only [Except.map, Except.ok.injEq, Prod.mk.injEq] at hy ⊢
        obtain ⟨w, w1, w2⟩ := strip_join s z.1
        exact ⟨w, w1, by rw [w2, hy.1], hy.2⟩
    · intro e he
      unfold creole2htmlM at he ⊢
      rw [ho] at he ⊢
      unfold Creole.parse at he ⊢
      rw [e3, h2, ok_bind, emitDoc_plain hub] at he
      rw [e2, h3, ok_bind, emitDoc_plain hub, emitNodes_both, hA, ok_bind]
      cases hB : emitNodes { verbose := o.verbose, strict := o.strict, useToc := false } { kind := .document } B ms1 with
      | error e' => rw [hB] at he; simpa [Except.map] using he
      | ok z => rw [hB] at he; simp [Except.map] at he

/-- the hypotheses hold for documents with all kinds of markup -/
example : Complete c!"= Title =\n\nSome **bold** text with [[http://a.b|a link]]\n* one\n** two\n|= h | c |\nend //unclosed" ∧
    blankLine (firstLine c!"= Next\n<<mac x=1>>text<</mac>>") = false ∧ mayCall c!"toc" c!"= Next\n<<mac x=1>>text<</mac>>" = false :=
  ⟨⟨by decide +kernel, by decide +kernel, by decide +kernel⟩, by decide +kernel, by decide +kernel⟩

/-! ## Many parts -/

theorem infix_newline {u v : Str} (h : c!"<<" <:+: u ++ '\n' :: v) : c!"<<" <:+: u ∨ c!"<<" <:+: v := by
  induction u with
  | nil =>
    rw [List.nil_append, List.infix_cons_iff] at h
    rcases h with h | h
    · rw [List.cons_prefix_cons] at h
      exact absurd h.1 (by decide)
    · exact .inr h
  | cons c u ih =>
    rw [List.cons_append, List.infix_cons_iff] at h
    rcases h with h | h
    · left
      rw [List.cons_prefix_cons] at h
      obtain ⟨rfl, h⟩ := h
      cases u with
      | nil =>
        rw [List.nil_append, List.cons_prefix_cons] at h
        exact absurd h.1 (by decide)
      | cons d u =>
        rw [List.cons_append, List.cons_prefix_cons] at h
        obtain ⟨rfl, _⟩ := h
        exact ⟨[], u, rfl⟩
    · rcases ih h with h | h
      · exact .inl (List.infix_cons h)
      · exact .inr h

theorem mayCall_mark {n s : Str} (h : mayCall n s = true) : c!"<<" <:+: s := by
  induction s with
  | nil => cases h
  | cons c s ih =>
    rw [mayCall, Bool.or_eq_true, Bool.and_eq_true] at h
    rcases h with h | h
    · exact (List.isPrefixOf_iff_prefix.mp h.1).isInfix
    · exact List.infix_cons (ih h)

theorem firstLine_append {a : Str} (h : blankLine (firstLine a) = false) (t : Str) : blankLine (firstLine (a ++ t)) = false := by
  have head : ∀ (c : Char) (s : Str), c ≠ '\r' → c ≠ '\n' → firstLine (c :: s) = c :: firstLine s := by
    intro c s h1 h2
    have := textLines_append [c] s (by simpa using ⟨h1, h2⟩)
    unfold firstLine
    rw [textLines.eq_def]
    split
    · rename_i h; simp at h
    · rename_i h; simp only [List.cons.injEq] at h; exact absurd h.1 h1
    · rename_i h; simp only [List.cons.injEq] at h; exact absurd h.1 h1
    · rename_i h; simp only [List.cons.injEq] at h; exact absurd h.1 h2
    · rename_i h
      simp only [List.cons.injEq] at h
      obtain ⟨rfl, rfl⟩ := h
      have hne := textLines_ne s
      revert hne
      cases textLines s with
      | nil => intro h; exact absurd rfl h
      | cons l L => intro _; rfl
  induction a with
  | nil => cases h
  | cons c a ih =>
    by_cases h1 : c = '\r'
    · subst h1
      unfold firstLine at h
      rw [textLines.eq_def] at h
      split at h
      · cases h
      · cases h
      · cases h
      · cases h
      · rename_i hr _ heq
        simp only [List.cons.injEq] at heq
        exact absurd heq.1.symm hr
    · by_cases h2 : c = '\n'
      · subst h2
        unfold firstLine at h
        rw [textLines.eq_def] at h
        split at h
        · cases h
        · cases h
        · cases h
        · cases h
        · rename_i hr heq
          simp only [List.cons.injEq] at heq
          exact absurd heq.1.symm hr
      · rw [head c a h1 h2] at h
        rw [List.cons_append, head c _ h1 h2]
        unfold blankLine at h ih ⊢
        rw [List.all_cons, Bool.and_eq_false_iff] at h ⊢
        rcases h with h | h
        · exact .inl h
        · exact .inr (ih h)

/-- **C73, documents in parts.**  A document of parts, each of which is followed by a blank line, begins with a line that is not
blank and has nothing open at its end, is converted to the HTML of the parts one after another, with only white space between
them. -/
theorem C73_parts (o : Opts) (ho : o.blog = true) (macros : Macros) (parts : List Str) (h : ∀ p ∈ parts, Complete p ∧ blankLine (firstLine p) = false) :
    ∃ htmls html, parts.map (fun p => creole2htmlM o macros (p ++ c!"\n\n")) = htmls.map (fun x => .ok (x, macros)) ∧
      creole2htmlM o macros (parts.flatMap (· ++ c!"\n\n")) = .ok (html, macros) ∧ Spaced htmls html := by
  have nomac : ∀ (parts : List Str), (∀ p ∈ parts, Complete p ∧ blankLine (firstLine p) = false) → ¬ c!"<<" <:+: parts.flatMap (· ++ c!"\n\n") := by
    intro parts
    induction parts with
    | nil => intro _; decide
    | cons p parts ih =>
      intro h hi
      rw [List.flatMap_cons, List.append_assoc] at hi
      rcases infix_newline hi with hi | hi
      · exact (h p (by simp)).1.macros hi
      · rcases infix_newline (u := []) hi with hi | hi
        · exact absurd hi (by decide)
        · exact ih (fun p hp => h p (by simp [hp])) hi
  induction parts with
  | nil =>
    refine ⟨[], [], rfl, ?_, .nil⟩
    unfold creole2htmlM Creole.parse
    rw [ho]
    rfl
  | cons p parts ih =>
    have ih := ih fun p hp => h p (by simp [hp])
    obtain ⟨htmls, html, i1, i2, i3⟩ := ih
    cases parts with
    | nil =>
      obtain ⟨x, hx, _⟩ := C73_blank_line o ho macros (b := c!"a") (h p (by simp)).1 (by decide) (by decide)
      refine ⟨[x], x ++ [] ++ [], by simp [hx], by simpa using hx, .cons x [] [] [] (by simp) .nil⟩
    | cons q parts =>
      obtain ⟨x, hx, hy, _⟩ := C73_blank_line o ho macros (b := (q :: parts).flatMap (· ++ c!"\n\n")) (h p (by simp)).1 (by
        rw [List.flatMap_cons, List.append_assoc]
        exact firstLine_append (h q (by simp)).2 _) (by
        cases hm : mayCall c!"toc" ((q :: parts).flatMap (· ++ c!"\n\n")) with
        | false => rfl
        | true => exact absurd (mayCall_mark hm) (nomac _ fun p hp => h p (by simp [hp])))
      obtain ⟨w, w1, w2⟩ := hy html macros i2
      refine ⟨x :: htmls, x ++ w ++ html, ?_, by rw [List.flatMap_cons]; exact w2, .cons x w html htmls w1 i3⟩
      rw [List.map_cons, i1, hx, List.map_cons]

/-- three parts -/
example : ∀ p ∈ [c!"= Title", c!"* one\n* two", c!"| cell |\ntext"], Complete p ∧ blankLine (firstLine p) = false := by
  intro p hp
  simp only [List.mem_cons, List.not_mem_nil, or_false] at hp
  rcases hp with rfl | rfl | rfl <;> exact ⟨⟨by decide +kernel, by decide +kernel, by decide +kernel⟩, by decide +kernel⟩

/-! ## The conditions are needed -/

/-- A heading without text takes its text from behind the blank line, a row of a table takes a bar, an item
without text takes the next item, an open preformatted area and an open macro take everything, and a table of contents changes
the headings before it.  Without the default line breaks a heading behind a blank line is not recognized. -/
theorem C73_conditions_needed :
    creole2html {} c!"=\n\nfoo" = .ok c!"<h1>foo</h1>" ∧
    creole2html {} c!"| a\n\n|" = .ok c!"<table>\n<tr>\n\t<td>a</td>\n</tr>\n</table>" ∧
    creole2html {} c!"*\n\n* b" = .ok c!"<ul>\n\t<li>* b</li>\n</ul>" ∧
    creole2html {} c!"{{{\nfoo\n\nx\n}}}" = .ok c!"<pre>\nfoo\n\nx\n</pre>" ∧
    creole2html {} c!"<<m>>\n\nfoo<</m>>" = .ok c!"[Error: Macro 'm' doesn't exist]" ∧
    creole2html {} c!"= foo\n\n<<toc>>" = .ok c!"<a name=\"foo\"><h1>foo</h1></a>\n\n<ul>\n\t<li><a href=\"#foo\">foo</a></li>\n</ul>" ∧
    creole2html { blog := false } c!"foo\n\n= x" = .ok c!"<p>foo</p>\n\n<p>= x</p>" ∧
    creole2html { blog := false } c!"= x" = .ok c!"<h1>x</h1>" := by decide +kernel

end Verif.Props
