import Verif.Emit.GrowMeth

/-!
# How large the ReStructuredText of a node becomes
-/

namespace Verif.Emit.Gr

open Verif Py Html Spec.Gw

/-- what `x` adds to the text, to the text and the table, to the rows and to the definitions -/
def PR (C r S : Nat) (x : EmM Str) : Prop := ∀ s out s', headOk s.table → s.listMarkup.length ≤ 2 → x s = .ok (out, s') →
  wt out ≤ C ∧ wt out + tau s'.table ≤ tau s.table + C ∧ rho s'.table ≤ rho s.table + r ∧ headOk s'.table ∧
    s'.listMarkup.length ≤ 2 ∧ lwt s'.subst ≤ lwt s.subst + S

variable {M C C' r r' S S' S2 k p q : Nat} {x ch : EmM Str} {cfg : Cfg} {anc : List Str} {i : HInfo}

theorem lwt_append (a b : List Str) : lwt (a ++ b) = lwt a + lwt b := by
  induction a with
  | nil => simp [lwt]
  | cons c a ih => rw [List.cons_append, lwt, lwt, ih]; omega

theorem PR.mono (h : PR C r S x) (hc : C ≤ C') (hr : r ≤ r') (hs : S ≤ S') : PR C' r' S' x := by
  intro s out s' hh hl hx
  obtain ⟨h1, h2, h3, h4, h5, h6⟩ := h s out s' hh hl hx
  exact ⟨by omega, by omega, by omega, h4, h5, by omega⟩

theorem PR.pure {a : Str} (h : wt a ≤ C) : PR C r S (pure a) := by
  intro s out s' hh hl hx
  obtain ⟨rfl, rfl⟩ := pure_ok.mp hx
  exact ⟨h, by omega, by omega, hh, hl, by omega⟩

theorem PR.raise (e : PyErr) : PR C r S (Emit.raise e) := by
  intro s out s' hh hl hx
  cases hx

/-- the text is used at most `p + 1` times -/
theorem PR.times {f : Str → EmM Str} (h : PR C r S x) (hf : ∀ t, wt t ≤ C → PR ((p + 1) * wt t + k) r' S' (f t)) :
    PR ((p + 1) * C + k) (r + r') (S + S') (x >>= f) := by
  intro s out s' hh hl hx
  obtain ⟨a, s1, h1, h2⟩ := bind_ok.mp hx
  obtain ⟨p1, p2, p3, p4, p5, p6⟩ := h s a s1 hh hl h1
  obtain ⟨q1, q2, q3, q4, q5, q6⟩ := hf a p1 s1 out s' p4 p5 h2
  have hm := Nat.mul_le_mul_left p p1
  rw [Nat.succ_mul] at q1 q2 ⊢
  exact ⟨by omega, by omega, by omega, q4, q5, by omega⟩

theorem PR.bind {f : Str → EmM Str} (h : PR C r S x) (hf : ∀ t, wt t ≤ C → PR (wt t + k) r' S' (f t)) :
    PR (C + k) (r + r') (S + S') (x >>= f) := by
  have := PR.times (p := 0) (k := k) h fun t ht => by
    have := hf t ht
    rwa [Nat.zero_add, Nat.one_mul]
  rwa [Nat.zero_add, Nat.one_mul] at this

theorem PR.map {f : Str → Str} (h : PR C r S x) (hf : ∀ t, wt (f t) ≤ wt t + k) :
    PR (C + k) r S (x >>= fun t => Pure.pure (f t)) :=
  (PR.bind h fun t _ => PR.pure (r := 0) (S := 0) (hf t)).mono (Nat.le_refl _) (by omega) (by omega)

theorem PR.quiet {α : Type} {P : α → Prop} {y : EmM α} {f : α → EmM Str} (h : Quiet P y) (hf : ∀ a, P a → PR C r S (f a)) :
    PR C r S (y >>= f) := by
  intro s out s' hh hl hx
  obtain ⟨a, s1, h1, h2⟩ := bind_ok.mp hx
  obtain ⟨rfl, p⟩ := h s a s1 h1
  exact hf a p _ out s' hh hl h2

theorem PR.get {f : ESt → EmM Str} (hf : ∀ s, s.listMarkup.length ≤ 2 → PR C r S (f s)) : PR C r S (MonadState.get >>= f) := by
  intro s out s' hh hl hx
  obtain ⟨a, s1, h1, h2⟩ := bind_ok.mp hx
  cases h1
  exact hf s hl _ out s' hh hl h2

/-- a change of other attributes, or of the definitions -/
theorem PR.modify {g : ESt → ESt} {f : Unit → EmM Str} (hg : ∀ s, (g s).table = s.table ∧ ((g s).listMarkup.length ≤ 2 ∨ (g s).listMarkup = s.listMarkup) ∧
    lwt (g s).subst ≤ lwt s.subst + S') (hf : PR C r S (f ())) (hS : S + S' ≤ S2) : PR C r S2 (_root_.modify g >>= f) := by
  intro s out s' hh hl hx
  obtain ⟨a, s1, h1, h2⟩ := bind_ok.mp hx
  cases h1
  obtain ⟨g1, g2, g3⟩ := hg s
  obtain ⟨h1, h2, h3, h4, h5, h6⟩ := hf (g s) out s' (by rw [g1]; exact hh) (by rcases g2 with g2 | g2; exact g2; rw [g2]; exact hl) h2
  rw [g1] at h2 h3
  exact ⟨h1, h2, h3, h4, h5, by omega⟩

theorem PR.ite {p : Prop} [Decidable p] {y : EmM Str} (hx : p → PR C r S x) (hy : ¬ p → PR C r S y) : PR C r S (if p then x else y) := by
  split
  · next h => exact hx h
  · next h => exact hy h

theorem PR.setLast (i : HInfo) {f : Unit → EmM Str} (hf : PR C r S (f ())) : PR C r S (Emit.setLast i >>= f) :=
  PR.modify (S' := 0) (fun _ => ⟨rfl, .inr rfl, Nat.le_refl _⟩) hf (Nat.le_refl _)

theorem PR.ofExcept {y : Except PyErr Str} (h : ∀ a, y = .ok a → wt a ≤ C) : PR C r S (Emit.ofExcept y) := by
  cases y with
  | ok a => exact PR.pure (h a rfl)
  | error e => exact PR.raise e

/-! ## Links and images -/

theorem pr_restLink (h : PR C r S ch) (attrs : Dict (Option Str)) :
    PR (C + (2 * attrSize attrs + 30)) r (S + (C + (2 * attrSize attrs + 30))) (restLink anc attrs ch) := by
  unfold restLink
  refine (PR.bind (k := 2 * attrSize attrs + 30) (r' := 0) (S' := C + (2 * attrSize attrs + 30)) h fun t ht => ?_).mono (Nat.le_refl _) (by omega) (Nat.le_refl _)
  split
  · exact PR.raise _
  · next url hu =>
    have h1 := fmt_len url
    have h2 := dictGet_size hu
    have h3 := wt_two (fmt url)
    refine PR.get fun s _ => PR.quiet (P := fun _ => True) (Quiet.ofExcept fun _ _ => trivial) fun a _ => ?_
    obtain ⟨old, d⟩ := a
    dsimp only
    have e1 : ∀ S, PR (wt t + (2 * attrSize attrs + 30)) 0 S (pure ('`' :: t ++ c!"`_")) := fun S => PR.pure (by wts; omega)
    refine PR.modify (S := C + (2 * attrSize attrs + 30)) (S' := 0) (fun _ => ⟨rfl, .inr rfl, Nat.le_refl _⟩) ?_ (Nat.le_refl _)
    refine PR.ite (fun _ => ?_) (fun _ => ?_)
    · split
      · refine PR.modify (S := 0) (S' := C + (2 * attrSize attrs + 30)) (fun s => ⟨rfl, .inr rfl, ?_⟩) (e1 0) (Nat.le_of_eq (Nat.zero_add _))
        dsimp only
        rw [lwt_append, lwt, lwt]
        wts; omega
      · exact e1 _
    · refine PR.ite (fun _ => e1 _) (fun _ => PR.pure ?_)
      wts; omega

theorem pr_restImg (attrs : Dict (Option Str)) : PR (4 * attrSize attrs + 40) r (6 * attrSize attrs + 40) (restImg attrs) := by
  unfold restImg
  refine PR.quiet (quiet_imgSrc attrs) fun o ho => ?_
  split
  · exact PR.pure (Nat.zero_le _)
  · next src =>
    have hs := ho src rfl
    refine PR.quiet (quiet_imgText attrs src) fun t ht => ?_
    have h1 := wt_two src
    have h2 := wt_two t
    refine PR.get fun s _ => PR.quiet (P := fun _ => True) (Quiet.ofExcept fun _ _ => trivial) fun a _ => ?_
    obtain ⟨old, d⟩ := a
    dsimp only
    have e1 : ∀ S, PR (4 * attrSize attrs + 40) r S (pure ('|' :: t ++ c!"|")) := fun S => PR.pure (by wts; omega)
    refine PR.modify (S := 6 * attrSize attrs + 40) (S' := 0) (fun _ => ⟨rfl, .inr rfl, Nat.le_refl _⟩) ?_ (Nat.le_refl _)
    split
    · refine PR.modify (S := 0) (S' := 6 * attrSize attrs + 40) (fun s => ⟨rfl, .inr rfl, ?_⟩) (e1 0) (Nat.le_of_eq (Nat.zero_add _))
      dsimp only
      rw [lwt_append, lwt, lwt]
      wts; omega
    · exact e1 _

/-! ## Headings and lists -/

theorem pr_restHeadline (h : PR C r S ch) : PR (3 * C + 20) r S (restHeadline i ch) := by
  unfold restHeadline
  refine (PR.times (p := 2) (k := 20) (r' := 0) (S' := 0) h fun t _ => ?_).mono (Nat.le_refl _) (by omega) (by omega)
  refine PR.quiet (quiet_level i) fun l _ => ?_
  dsimp only
  split
  · exact PR.raise _
  · next c both hc =>
    have hne : c ≠ '\n' := by
      unfold headlineData at hc
      split at hc <;> cases hc <;> decide
    have hw : wt (List.replicate t.length c) ≤ wt t := by
      have h0 : (List.replicate t.length c).count '\n' = 0 := by
        rw [List.count_replicate, if_neg (by simpa using hne)]
      have := len_le t
      simp only [wt, List.length_replicate, h0] at *
      omega
    refine PR.ite (fun _ => PR.pure ?_) (fun _ => PR.pure ?_)
    · wts; omega
    · wts; omega

theorem wt_join4 : ∀ l : List Str, wt (join c!"\n\n" l) ≤ 2 * (lwt l - 2)
  | [] => by rw [join]; exact Nat.zero_le _
  | [a] => by rw [join, lwt, lwt]; omega
  | a :: b :: l => by
    have := wt_join4 (b :: l)
    rw [join, wt_append, wt_append, lwt]
    have : 2 ≤ lwt (b :: l) := by rw [lwt]; omega
    rw [show wt c!"\n\n" = 4 by decide]
    omega

theorem pr_restList {marker : Str} (hm : marker.length ≤ 2) (h : PR C r S ch) :
    PR ((if i.level = some 1 then 2 * C else C) + 10) r S (restList i marker ch) := by
  unfold restList
  refine PR.modify (S := S) (S' := 0) (fun _ => ⟨rfl, .inl hm, Nat.le_refl _⟩) ?_ (Nat.le_refl _)
  by_cases hl : i.level = some 1
  · simp only [if_pos hl]
    refine (PR.times (p := 1) (k := 10) (r' := 0) (S' := 0) h fun t _ => PR.pure ?_).mono (Nat.le_refl _) (by omega) (by omega)
    have h1 := wt_join4 ((splitChar '\n' t).filter (· ≠ []))
    have h2 := lwt_filter (· ≠ []) (splitChar '\n' t)
    have h3 := lwt_split t
    rw [wt_append, show wt c!"\n\n" = 4 by decide]
    omega
  · simp only [if_neg hl]
    exact (PR.map (k := 0) (f := fun t => t) h (fun t => Nat.le_refl _)).mono (by omega) (Nat.le_refl _) (Nat.le_refl _)

theorem pr_restLi (hlev : ∀ l, i.level = some l → l.natAbs ≤ M) (h : PR C r S ch) : PR (C + (4 * M + 20)) r S (restLi i ch) := by
  unfold restLi
  refine (PR.bind (k := 4 * M + 20) (r' := 0) (S' := 0) h fun t _ => ?_).mono (Nat.le_refl _) (by omega) (by omega)
  dsimp only
  refine PR.quiet (quiet_level i) fun l hll => PR.get fun s hs => PR.pure ?_
  have h1 := hlev l hll
  have h2 := wt_two s.listMarkup
  have h3 : (l - 1).toNat ≤ M + 1 := by omega
  have h4 := wt_rep c!"    " (l - 1).toNat
  have h5 := wt_stripP (· == '\n') t
  rw [show wt c!"    " = 4 by decide] at h4
  wts; omega

/-! ## Preformatted text -/

theorem splitlinesAux_len : ∀ (s : Str) (cr fresh : Bool) (cur : Str),
    ((splitlinesAux cr fresh cur s).map fun l => l.length + 1).sum ≤ cur.length + s.length + 1
  | [], cr, fresh, cur => by
    rw [splitlinesAux]
    split <;> simp
  | c :: cs, cr, fresh, cur => by
    rw [splitlinesAux]
    split
    · have := splitlinesAux_len cs false true []
      simp only [List.length_cons, List.length_nil] at *; omega
    · split
      · have := splitlinesAux_len cs (c = '\r') true []
        simp only [List.map_cons, List.sum_cons, List.length_reverse, List.length_cons, List.length_nil] at *; omega
      · have := splitlinesAux_len cs false false (c :: cur)
        simp only [List.length_cons] at *; omega

theorem wt_restPre (t : Str) : wt (restPre t) ≤ 12 * t.length + 40 := by
  unfold restPre
  have h1 := splitlinesAux_len (strip t) false true []
  have h2 : (strip t).length ≤ t.length := ((dropEnd_sublist _ _).trans (List.dropWhile_sublist _)).length_le
  have h3 := join_len (sep := c!"\n") (k := 1) (by decide) ((splitlines (strip t)).map (c!"    " ++ ·))
  have h4 : ((((splitlines (strip t)).map (c!"    " ++ ·)).map fun s => s.length + 1)).sum ≤ 5 * ((splitlines (strip t)).map fun l => l.length + 1).sum := by
    generalize splitlines (strip t) = l
    induction l with
    | nil => exact Nat.le_refl _
    | cons a l ih =>
      simp only [List.map_cons, List.sum_cons, List.length_append, List.length_cons, List.length_nil] at *
      omega
  have h34 := Nat.le_trans h3 h4
  have h5 := wt_two (join c!"\n" ((splitlines (strip t)).map (c!"    " ++ ·)))
  unfold splitlines at *
  rw [List.length_nil] at h1
  rw [wt_append, wt_append, show wt c!"::\n\n" = 6 by decide, show wt c!"\n\n" = 4 by decide]
  omega

/-! ## Tables -/

theorem plus_len (c : Char) (ws : List Nat) : (plusLine c ws).length ≤ widL ws + 2 := by
  have h := join_len (sep := c!"+") (k := 1) (by decide) (ws.map fun w => List.replicate w c)
  have h2 : (((ws.map fun w => List.replicate w c)).map fun s => s.length + 1).sum = widL ws := by
    induction ws with
    | nil => rfl
    | cons w ws ih => simp only [List.map_cons, List.sum_cons, List.length_replicate, widL] at *; rw [ih (join_len (by decide) _)]
  have h3 := Nat.le_trans h (Nat.le_of_eq h2)
  simp only [plusLine, List.length_append, List.length_cons, List.length_nil]
  omega

theorem restLines_length (b : Bool) (ws : List Nat) : ∀ (rows : List (List Str)) (no : Nat), (restLines b ws no rows).length = 2 * rows.length + 1
  | [], _ => rfl
  | r :: rows, no => by
    rw [restLines, List.length_cons, List.length_cons, restLines_length b ws rows, List.length_cons]; omega

theorem restLines_mem {b : Bool} {ws : List Nat} {l : Str} : ∀ {rows : List (List Str)} {no : Nat}, l ∈ restLines b ws no rows →
    (∃ row ∈ rows, l = barLine (padRow ws row)) ∨ ∃ c, l = plusLine c ws
  | [], _, h => .inr ⟨_, List.mem_singleton.mp h⟩
  | r :: rows, no, h => by
    rw [restLines] at h
    rcases List.mem_cons.mp h with h | h
    · split at h <;> exact .inr ⟨_, h⟩
    · rcases List.mem_cons.mp h with h | h
      · exact .inl ⟨r, List.mem_cons_self, h⟩
      · rcases restLines_mem h with ⟨row, h1, h2⟩ | h
        · exact .inl ⟨row, List.mem_cons_of_mem _ h1, h2⟩
        · exact .inr h

theorem restTable_len (t : Table) : t.rest.length ≤ (2 * t.rows.length + 1) * (9 * rowsW t.rows + 5) := by
  have := lines_len (b := 9 * rowsW t.rows + 4) (ls := restLines t.hasHeader t.preformat.2 0 t.preformat.1) fun l hl => by
    rcases restLines_mem hl with ⟨row, hr, rfl⟩ | ⟨c, rfl⟩
    · exact bar_len hr
    · have h1 := plus_len c t.preformat.2
      have h4 : rowsL t.preformat.1 ≤ 3 * rowsW t.rows := rowsL_preformat _ _
      have h5 : widL t.preformat.2 ≤ rowsL t.preformat.1 := by
        show widL ((columns t.preformat.1).map maxLen) ≤ _
        rw [widL_cols]; exact columns_len _
      omega
  rw [restLines_length, preformat_length] at this
  exact this

theorem pr_table (h : PR C r S ch) : PR (2 * ((2 * r + 1) * (9 * C + 5)) + 4 + C) r S (tableEmit .rest ch) := by
  intro s out s' hh hl hx
  unfold tableEmit at hx
  obtain ⟨u, s1, h1, hx1⟩ := bind_ok.mp hx
  cases h1
  obtain ⟨c, s2, h2, hx2⟩ := bind_ok.mp hx1
  obtain ⟨t, s3, h3, hx3⟩ := bind_ok.mp hx2
  obtain ⟨rfl, ht⟩ := getTable_ok h3
  obtain ⟨p1, p2, p3, p4, p5, p6⟩ := h { s with table := some { headPrefix := [] } } c s3 (by show 0 ≤ 3; omega) hl h2
  rw [ht] at p2 p3 p4
  dsimp only at p2 p3
  rw [show tau (some ({ headPrefix := [] } : Table)) = 0 from rfl] at p2
  rw [show rho (some ({ headPrefix := [] } : Table)) = 0 from rfl] at p3
  have hb : (2 * t.rows.length + 1) * (9 * rowsW t.rows + 5) ≤ (2 * r + 1) * (9 * C + 5) := by
    refine Nat.mul_le_mul ?_ ?_
    · simp only [rho] at p3; omega
    · simp only [tau] at p2; omega
  obtain ⟨rfl, rfl⟩ := pure_ok.mp hx3
  have h5 := wt_two t.rest
  have h6 := restTable_len t
  have hout : wt (t.rest ++ c!"\n\n") ≤ 2 * ((2 * r + 1) * (9 * C + 5)) + 4 := by
    rw [wt_append, show wt c!"\n\n" = 4 by decide]; omega
  rw [ht]
  exact ⟨by omega, by omega, by omega, p4, p5, p6⟩

theorem pr_tr (h : PR C r S ch) : PR C (r + 1) S (runMeth cfg anc i .tr ch) := by
  intro s out s' hh hl hx
  simp only [runMeth] at hx
  obtain ⟨t, s1, h1, hx1⟩ := bind_ok.mp hx
  obtain ⟨rfl, ht⟩ := getTable_ok h1
  obtain ⟨u, s2, h2, hx2⟩ := bind_ok.mp hx1
  cases h2
  obtain ⟨c, s3, h3, hx3⟩ := bind_ok.mp hx2
  obtain ⟨rfl, rfl⟩ := pure_ok.mp hx3
  rw [ht] at hh
  obtain ⟨p1, p2, p3, p4, p5, p6⟩ := h { s1 with table := some t.addTr } c _ hh hl h3
  have := addTr_tau t
  have := addTr_rho t
  rw [ht]
  dsimp only at p2 p3 p6
  rw [wt_nil]
  exact ⟨by omega, by omega, by omega, p4, p5, p6⟩

theorem pr_cell (h : PR C r S ch) (f : Table → Str → Table) (hf : ∀ t c, headOk (some t) → tau (some (f t c)) ≤ tau (some t) + (wt c + 7) ∧
      rho (some (f t c)) ≤ rho (some t) + 1 ∧ (f t c).headPrefix = t.headPrefix) :
    PR (C + 7) (r + 1) S (ch >>= fun c => getTable >>= fun t => setTable (f t (cellText cfg.lang c)) >>= fun _ => pure []) := by
  intro s out s' hh hl hx
  obtain ⟨c, s1, h1, hx1⟩ := bind_ok.mp hx
  obtain ⟨t, s2, h2, hx2⟩ := bind_ok.mp hx1
  obtain ⟨rfl, ht⟩ := getTable_ok h2
  obtain ⟨u, s3, h3, hx3⟩ := bind_ok.mp hx2
  cases h3
  obtain ⟨rfl, rfl⟩ := pure_ok.mp hx3
  obtain ⟨p1, p2, p3, p4, p5, p6⟩ := h s c s2 hh hl h1
  rw [ht] at p2 p3 p4
  obtain ⟨q1, q2, q3⟩ := hf t (cellText cfg.lang c) p4
  have hw := wt_cellText cfg.lang c
  refine ⟨Nat.zero_le _, ?_, ?_, ?_, p5, p6⟩
  · dsimp only; rw [wt_nil]; omega
  · dsimp only; omega
  · simp only [headOk] at p4 ⊢; rw [q3]; exact p4

/-! ## Unknown tags -/

theorem pr_unknown (p : Policy) (h : PR C r S ch) : PR (C + 250 * ownSize i) r S (unknownEmit p i ch) := by
  unfold unknownEmit
  refine (PR.bind (k := 250 * ownSize i) (r' := 0) (S' := 0) h fun t _ => ?_).mono (Nat.le_refl _) (by omega) (by omega)
  have hu := pay_unknown (i := i) (L := 0) (r := 0) p (Pay.pure (a := t) (Nat.le_refl (wt t)))
  unfold unknownEmit at hu
  rw [pure_bind] at hu
  intro s out s' hh hl hx
  have h0 := hu { innerList := [] } out
  cases p with
  | raise => cases hx
  | transparent => obtain ⟨rfl, rfl⟩ := pure_ok.mp hx; obtain ⟨q1, _⟩ := h0 _ (Nat.le_refl _) trivial rfl; simp only [tau] at q1; exact ⟨by omega, by omega, by omega, hh, hl, by omega⟩
  | htmlMacro => obtain ⟨rfl, rfl⟩ := pure_ok.mp hx; obtain ⟨q1, _⟩ := h0 _ (Nat.le_refl _) trivial rfl; simp only [tau] at q1; exact ⟨by omega, by omega, by omega, hh, hl, by omega⟩
  | preformat => obtain ⟨rfl, rfl⟩ := pure_ok.mp hx; obtain ⟨q1, _⟩ := h0 _ (Nat.le_refl _) trivial rfl; simp only [tau] at q1; exact ⟨by omega, by omega, by omega, hh, hl, by omega⟩
  | escape => obtain ⟨rfl, rfl⟩ := pure_ok.mp hx; obtain ⟨q1, _⟩ := h0 _ (Nat.le_refl _) trivial rfl; simp only [tau] at q1; exact ⟨by omega, by omega, by omega, hh, hl, by omega⟩

/-! ## The methods -/

/-- the list markers are short -/
def Meth.marks2 : Meth → Bool
  | .list k => k.length ≤ 2
  | _ => true

theorem methodOf_marks2 {k : Str} {m : Meth} (hm : methodOf .rest k = some m) : Meth.marks2 m = true := by
  unfold methodOf at hm
  exact lookup_all (by decide) hm

theorem methodOf_headline {k : Str} (hm : methodOf .rest k = some .headline) : k = c!"headline" := by
  unfold methodOf at hm
  have := lookup_key (p := fun m => m = .headline) (q := fun k => k = c!"headline") (by decide) hm (by simp)
  simpa using this

theorem methodOf_document {k : Str} (hm : methodOf .rest k = some .document) : k = c!"document" := by
  unfold methodOf at hm
  have := lookup_key (p := fun m => m = .document) (q := fun k => k = c!"document") (by decide) hm (by simp)
  simpa using this

/-- a list -/
def Meth.isList : Meth → Bool
  | .list _ => true
  | _ => false

theorem methodOf_list {k a : Str} (hm : methodOf .rest k = some (.list a)) : k = c!"ul" ∨ k = c!"ol" := by
  unfold methodOf at hm
  have := lookup_key (p := Meth.isList) (q := fun k => k = c!"ul" || k = c!"ol") (by decide) hm rfl
  simpa using this

/-- all methods; the text in a node is used once, or up to `9 * r` times in the nodes that repeat it -/
theorem pr_meth {m : Meth} (hl : cfg.lang = .rest) (hm : methodOf cfg.lang i.kind = some m) (hnt : m ≠ .table) (hd : i.kind ≠ c!"document")
    (hlev : ∀ l, i.level = some l → l.natAbs ≤ M) (hM : 1 ≤ M) (h : PR C r S ch) :
    PR ((if repeats i then 3 * C else C) + 250 * (M * ownSize i)) (r + 1) (S + C + 250 * (M * ownSize i)) (runMeth cfg anc i m ch) := by
  have hq1 : ownSize i ≤ M * ownSize i := Nat.le_mul_of_pos_left _ (by omega)
  have hq2 : M ≤ M * ownSize i := Nat.le_mul_of_pos_right _ (by unfold ownSize; omega)
  have hown : ownSize i = 1 + i.kind.length + (i.content.getD []).length + attrSize i.attrs := rfl
  generalize M * ownSize i = q at hq1 hq2
  have hC : C ≤ if repeats i then 3 * C else C := by split <;> omega
  generalize hD : (if repeats i = true then 3 * C else C) = D at *
  have hshort := methodOf_short hm
  rw [hl] at hm
  cases m with
  | blockPre =>
    simp only [runMeth, blockPreEmit, hl]
    refine PR.quiet (quiet_deentity i.content) fun t ht => PR.pure ?_
    have := wt_restPre t
    omega
  | inlinePre =>
    simp only [runMeth, inlinePreEmit, hl]
    refine PR.quiet (quiet_deentity i.content) fun t ht => PR.pure ?_
    have := wt_two t
    wts; omega
  | blockPass =>
    have h1 := fmt_len i.content
    have h2 := wt_two (fmt i.content)
    simp only [runMeth]
    refine PR.ite (fun _ => PR.pure ?_) (fun _ => PR.pure ?_)
    · wts; omega
    · wts; omega
  | data =>
    simp only [runMeth]
    split
    · exact PR.raise _
    · next c hc =>
      rw [hc, Option.getD_some] at hown
      have := wt_two c
      refine PR.ite (fun _ => PR.pure (Nat.zero_le _)) (fun _ => PR.pure ?_)
      omega
  | entityref =>
    have := wt_entityref i.content
    exact PR.pure (by omega)
  | charref => exact PR.ofExcept fun a ha => by have := wt_charref ha; omega
  | p =>
    simp only [runMeth, hl]
    refine (PR.map (k := 250 * q) h fun t => ?_).mono (by omega) (by omega) (by omega)
    wts; omega
  | br =>
    refine PR.get fun s _ => PR.ite (fun _ => PR.pure ?_) (fun _ => PR.pure ?_)
    · wts; omega
    · wts; omega
  | headline =>
    have hk : repeats i = true := by simp [repeats, methodOf_headline hm]
    rw [if_pos hk] at hD
    simp only [runMeth, headlineEmit, hl]
    exact (pr_restHeadline h).mono (by omega) (by omega) (by omega)
  | typeface key =>
    have hk : key.length ≤ 2 := by simpa [Meth.short] using hshort
    have := wt_two key
    refine (PR.map (k := 250 * q) h fun t => ?_).mono (by omega) (by omega) (by omega)
    wts; omega
  | typefaceHtml key =>
    have hk : key.length ≤ 3 := by simpa [Meth.short] using hshort
    have := wt_two key
    refine (PR.map (k := 250 * q) h fun t => ?_).mono (by omega) (by omega) (by omega)
    wts; omega
  | children => exact h.mono (by omega) (by omega) (by omega)
  | content =>
    refine (PR.map (k := 250 * q) h fun t => ?_).mono (by omega) (by omega) (by omega)
    have := wt_emitContent i.kind t
    omega
  | hr =>
    simp only [runMeth]
    refine PR.ite (fun _ => PR.pure ?_) (fun _ => PR.pure ?_)
    · wts; omega
    · wts; omega
  | a =>
    simp only [runMeth, hl]
    exact (pr_restLink h i.attrs).mono (by omega) (by omega) (by omega)
  | img =>
    simp only [runMeth, hl]
    exact (pr_restImg i.attrs).mono (by omega) (Nat.le_refl _) (by omega)
  | code =>
    simp only [runMeth]
    rw [if_neg (by rw [hl]; decide)]
    refine (PR.map (k := 250 * q) h fun t => ?_).mono (by omega) (by omega) (by omega)
    have := wt_emitContent i.kind t
    wts; omega
  | li =>
    simp only [runMeth, hl]
    exact (pr_restLi hlev h).mono (by omega) (by omega) (by omega)
  | list marker =>
    have hk : marker.length ≤ 2 := by simpa [Meth.marks2] using methodOf_marks2 hm
    simp only [runMeth, hl]
    refine (pr_restList hk h).mono ?_ (by omega) (by omega)
    by_cases h1 : i.level = some 1
    · have hr : repeats i = true := by rcases methodOf_list hm with h | h <;> simp [repeats, h, h1]
      rw [if_pos hr] at hD
      rw [if_pos h1]; omega
    · rw [if_neg h1]; omega
  | table => exact absurd rfl hnt
  | tr => exact (pr_tr h).mono (by omega) (Nat.le_refl _) (by omega)
  | th => exact (pr_cell h Table.addTh fun t c ht => ⟨addTh_tau t c ht, addTh_rho t c, addTh_head t c⟩).mono (by omega) (Nat.le_refl _) (by omega)
  | td =>
    exact (pr_cell h Table.addTd fun t c ht => ⟨by have := addTd_tau t c; omega, addTd_rho t c, addTd_head t c⟩).mono (by omega) (Nat.le_refl _) (by omega)
  | document => exact absurd (methodOf_document hm) hd

/-! ## Trees -/

/-- the arithmetic for a table -/
theorem restTable_room {M X z a : Nat} (hz : a + z ≤ M) (hX : 1 ≤ X) (ha : 1 ≤ a) :
    2 * ((2 * z + 1) * (9 * (X * z) + 5)) + 4 + X * z ≤ 250 * M * X * (a + z) := by
  have h3 : (2 * z + 1) * (9 * (X * z) + 5) ≤ (2 * M) * (9 * (X * z) + 5) := Nat.mul_le_mul_right _ (by omega)
  have e1 : (2 * M) * (9 * (X * z) + 5) = 18 * (M * X * z) + 10 * M := by
    rw [Nat.mul_add, show 2 * M * (9 * (X * z)) = (2 * 9) * (M * X * z) by ac_rfl]; omega
  have e2 : 250 * M * X * (a + z) = 250 * (M * X * a) + 250 * (M * X * z) := by
    rw [Nat.mul_add, show 250 * M * X * a = 250 * (M * X * a) by ac_rfl, show 250 * M * X * z = 250 * (M * X * z) by ac_rfl]
  have h4 : M ≤ M * X * a := Nat.le_trans (Nat.le_mul_of_pos_right _ hX) (Nat.le_mul_of_pos_right _ ha)
  have h5 : X * z ≤ M * X * z := Nat.mul_le_mul_right _ (Nat.le_mul_of_pos_left _ (by omega))
  rw [e2]
  rw [e1] at h3
  omega

theorem subst_room {M X Xk z a : Nat} (hz : a + z ≤ M) (hX : 250 * M ≤ X) (ha : 1 ≤ a) (hk : Xk ≤ X) :
    Xk * M * z + Xk * z + 250 * (M * a) ≤ X * M * (a + z) := by
  have h1 : Xk * M * z ≤ X * M * z := Nat.mul_le_mul_right _ (Nat.mul_le_mul_right _ hk)
  have h2 : Xk * z ≤ X * z := Nat.mul_le_mul_right _ hk
  have h3 : 250 * (M * a) ≤ X * a := by rw [← Nat.mul_assoc]; exact Nat.mul_le_mul_right _ hX
  have h4 : X * z + X * a ≤ X * M := by rw [← Nat.mul_add]; exact Nat.mul_le_mul_left _ (by omega)
  have h5 : X * M ≤ X * M * a := Nat.le_mul_of_pos_right _ ha
  rw [Nat.mul_add]
  omega

/-- nothing is written in front of a node that is not a child of the root -/
theorem PR.flush {f : Str → EmM Str} (h : PR C r S (f [])) : PR C r S (flushSubst false >>= f) := by
  intro s out s' hh hl hx
  obtain ⟨a, s1, h1, h2⟩ := bind_ok.mp hx
  unfold flushSubst at h1
  obtain ⟨b, s2, h3, h4⟩ := bind_ok.mp h1
  cases h3
  rw [if_neg (by simp)] at h4
  obtain ⟨rfl, rfl⟩ := pure_ok.mp h4
  exact h _ out s' hh hl h2

/-- a node without what is in front of it -/
theorem pr_run (hl : cfg.lang = .rest) (hM : 1 ≤ M) {kids : List HNode} (hz : ownSize i + treesSize kids ≤ M) (hd : i.kind ≠ c!"document")
    (hf : FineI M i) (hch : PR ((250 * M) ^ (repeatDepthL kids + 1) * treesSize kids) (treesSize kids)
      ((250 * M) ^ (repeatDepthL kids + 1) * M * treesSize kids) ch) :
    PR ((250 * M) ^ (repeatDepth (.mk i kids) + 1) * treeSize (.mk i kids)) (treeSize (.mk i kids))
      ((250 * M) ^ (repeatDepth (.mk i kids) + 1) * M * treeSize (.mk i kids)) (runNode cfg anc i ch) := by
  have ha : 1 ≤ ownSize i := by unfold ownSize; omega
  have hbase : 250 * M ≤ (250 * M) ^ (repeatDepth (.mk i kids) + 1) := by
    rw [Nat.pow_succ]
    exact Nat.le_mul_of_pos_left _ (Nat.pow_pos (by omega))
  have hmono : (250 * M) ^ (repeatDepthL kids + 1) ≤ (250 * M) ^ (repeatDepth (.mk i kids) + 1) := by
    refine Nat.pow_le_pow_right (by omega) ?_
    rw [repeatDepth]; omega
  have hsub := subst_room hz hbase ha hmono
  rw [treeSize]
  have hown : 250 * (M * ownSize i) ≤ (250 * M) ^ (repeatDepth (.mk i kids) + 1) * ownSize i := by
    rw [← Nat.mul_assoc]
    exact Nat.mul_le_mul_right _ hbase
  have hkids := Nat.mul_le_mul_right (treesSize kids) hmono
  have hq1 : ownSize i ≤ M * ownSize i := Nat.le_mul_of_pos_left _ hM
  have e : repeats i = true → (250 * M) ^ (repeatDepth (.mk i kids) + 1) = 250 * M * (250 * M) ^ (repeatDepthL kids + 1) := by
    intro h
    rw [repeatDepth, if_pos h, show 1 + repeatDepthL kids + 1 = (repeatDepthL kids + 1) + 1 by omega]
    exact Nat.pow_succ'
  unfold runNode
  split
  · next m hm =>
    by_cases hmt : m = .table
    · subst hmt
      have hk : repeats i = true := by simp [repeats, methodOf_table hm]
      simp only [runMeth, hl]
      refine (pr_table hch).mono ?_ (by omega) (by omega)
      rw [e hk]
      exact restTable_room hz (Nat.pow_pos (by omega)) ha
    · refine (pr_meth hl hm hmt hd hf hM hch).mono ?_ (by omega) hsub
      rw [Nat.mul_add]
      by_cases hk : repeats i = true
      · rw [if_pos hk]
        have h3 : 3 * ((250 * M) ^ (repeatDepthL kids + 1) * treesSize kids) ≤ (250 * M) ^ (repeatDepth (.mk i kids) + 1) * treesSize kids := by
          rw [e hk, Nat.mul_assoc (250 * M)]
          exact Nat.mul_le_mul_right _ (by omega)
        omega
      · rw [if_neg hk]; omega
  · refine (pr_unknown cfg.policy hch).mono ?_ (by omega) (by omega)
    rw [Nat.mul_add]
    omega

mutual

theorem pr_node (hl : cfg.lang = .rest) (hM : 1 ≤ M) : ∀ (n : HNode) (anc : List Str), 2 ≤ anc.length → treeSize n ≤ M → Fine M n → noDocument n = true →
    PR ((250 * M) ^ (repeatDepth n + 1) * treeSize n) (treeSize n) ((250 * M) ^ (repeatDepth n + 1) * M * treeSize n) (emitNode cfg anc n)
  | .mk i kids, anc, ha, hz, hf, hd => by
    obtain ⟨hf1, hf3⟩ := hf
    rw [noDocument, Bool.and_eq_true] at hd
    have ih := pr_nodes hl hM kids (i.kind :: anc) (by rw [List.length_cons]; omega) (by rw [treeSize] at hz; omega) hf3 hd.2
    have hrun := pr_run (cfg := cfg) (anc := anc) (i := i) hl hM (by rw [treeSize] at hz; exact hz) (by simpa using hd.1) hf1 (PR.setLast i (f := fun _ => emitNodes cfg (i.kind :: anc) kids) ih)
    rw [emitNode_run, preEmit, if_pos hl, show (decide (anc.length = 1)) = false by rw [decide_eq_false_iff_not]; omega]
    refine PR.flush ?_
    refine (PR.bind (k := 0) (r' := 0) (S' := 0) hrun fun t _ => PR.setLast i (PR.pure ?_)).mono (by omega) (by omega) (by omega)
    rw [List.nil_append]
    omega

theorem pr_nodes (hl : cfg.lang = .rest) (hM : 1 ≤ M) : ∀ (ns : List HNode) (anc : List Str), 2 ≤ anc.length → treesSize ns ≤ M → FineL M ns →
    noDocumentL ns = true →
    PR ((250 * M) ^ (repeatDepthL ns + 1) * treesSize ns) (treesSize ns) ((250 * M) ^ (repeatDepthL ns + 1) * M * treesSize ns) (emitNodes cfg anc ns)
  | [], anc, _, _, _, _ => by rw [emitNodes_nil]; exact PR.pure (Nat.zero_le _)
  | n :: ns, anc, ha, hz, hf, hd => by
    rw [treesSize] at hz
    obtain ⟨hf1, hf2⟩ := hf
    rw [noDocumentL, Bool.and_eq_true] at hd
    have h1 := pr_node hl hM n anc ha (by omega) hf1 hd.1
    have h2 := pr_nodes hl hM ns anc ha (by omega) hf2 hd.2
    have m1 : (250 * M) ^ (repeatDepth n + 1) ≤ (250 * M) ^ (repeatDepthL (n :: ns) + 1) :=
      Nat.pow_le_pow_right (by omega) (by rw [repeatDepthL]; omega)
    have m2 : (250 * M) ^ (repeatDepthL ns + 1) ≤ (250 * M) ^ (repeatDepthL (n :: ns) + 1) :=
      Nat.pow_le_pow_right (by omega) (by rw [repeatDepthL]; omega)
    rw [emitNodes_cons, treesSize, Nat.mul_add, Nat.mul_add]
    have h1' := h1.mono (Nat.mul_le_mul_right _ m1) (Nat.le_refl _) (Nat.mul_le_mul_right _ (Nat.mul_le_mul_right _ m1))
    have h2' := h2.mono (Nat.mul_le_mul_right _ m2) (Nat.le_refl _) (Nat.mul_le_mul_right _ (Nat.mul_le_mul_right _ m2))
    refine PR.bind h1' fun t _ => ?_
    refine (PR.bind (k := wt t) (r' := 0) (S' := 0) h2' fun t' _ => PR.pure ?_).mono (by omega) (by omega) (by omega)
    rw [wt_append]; omega

end

/-! ## Children of the root, and documents -/

/-- what `x` adds to the text and the definitions together -/
def PT (C : Nat) (x : EmM Str) : Prop := ∀ s out s', headOk s.table → s.listMarkup.length ≤ 2 → x s = .ok (out, s') →
  wt out + lwt s'.subst ≤ lwt s.subst + C ∧ headOk s'.table ∧ s'.listMarkup.length ≤ 2

theorem wt_block (l : List Str) : wt (join c!"\n" l) ≤ lwt l := Nat.le_trans (wt_join (by decide) l) (Nat.sub_le _ _)

theorem pt_child (hl : cfg.lang = .rest) (hM : 1 ≤ M) (n : HNode) (anc : List Str) (ha : anc.length = 1) (hz : treeSize n ≤ M) (hf : Fine M n)
    (hd : noDocument n = true) : PT ((250 * M) ^ (repeatDepth n + 1) * (M + 6) * treeSize n) (emitNode cfg anc n) := by
  obtain ⟨i, kids⟩ := n
  obtain ⟨hf1, hf3⟩ := hf
  rw [noDocument, Bool.and_eq_true] at hd
  have ih := pr_nodes (cfg := cfg) hl hM kids (i.kind :: anc) (by rw [List.length_cons]; omega) (by rw [treeSize] at hz; omega) hf3 hd.2
  have hrun := pr_run (cfg := cfg) (anc := anc) (i := i) hl hM (by rw [treeSize] at hz; exact hz) (by simpa using hd.1) hf1 (PR.setLast i (f := fun _ => emitNodes cfg (i.kind :: anc) kids) ih)
  intro s out s' hh hlm hx
  rw [emitNode_run, preEmit, if_pos hl] at hx
  obtain ⟨pre, s1, h1, hx⟩ := bind_ok.mp hx
  obtain ⟨c, s2, h2, hx⟩ := bind_ok.mp hx
  obtain ⟨u, s3, h3, hx⟩ := bind_ok.mp hx
  cases h3
  obtain ⟨rfl, rfl⟩ := pure_ok.mp hx
  have hpre : wt pre + lwt s1.subst ≤ lwt s.subst + 4 ∧ s1.table = s.table ∧ s1.listMarkup = s.listMarkup := by
    unfold flushSubst at h1
    obtain ⟨b, s2, h3, h4⟩ := bind_ok.mp h1
    cases h3
    split at h4
    · obtain ⟨b, s3, h5, h6⟩ := bind_ok.mp h4
      unfold getBlockData at h5
      obtain ⟨b2, s4, h7, h8⟩ := bind_ok.mp h5
      cases h7
      obtain ⟨b3, s5, h9, h10⟩ := bind_ok.mp h8
      cases h9
      obtain ⟨rfl, rfl⟩ := pure_ok.mp h10
      obtain ⟨rfl, rfl⟩ := pure_ok.mp h6
      have := wt_block s.subst
      refine ⟨?_, rfl, rfl⟩
      rw [wt_append, show wt c!"\n\n" = 4 by decide]
      simp only [lwt]
      omega
    · obtain ⟨rfl, rfl⟩ := pure_ok.mp h4
      exact ⟨by rw [wt_nil]; omega, rfl, rfl⟩
  obtain ⟨g1, g2, g3⟩ := hpre
  obtain ⟨p1, p2, p3, p4, p5, p6⟩ := hrun s1 c s2 (by rw [g2]; exact hh) (by rw [g3]; exact hlm) h2
  refine ⟨?_, p4, p5⟩
  dsimp only
  rw [wt_append]
  have hX : 1 ≤ (250 * M) ^ (repeatDepth (.mk i kids) + 1) * treeSize (.mk i kids) :=
    Nat.mul_pos (Nat.pow_pos (by omega)) (by rw [treeSize, ownSize]; omega)
  have e : (250 * M) ^ (repeatDepth (.mk i kids) + 1) * (M + 6) * treeSize (.mk i kids) =
      (250 * M) ^ (repeatDepth (.mk i kids) + 1) * M * treeSize (.mk i kids) + 6 * ((250 * M) ^ (repeatDepth (.mk i kids) + 1) * treeSize (.mk i kids)) := by
    rw [Nat.mul_add, Nat.add_mul]
    congr 1
    ac_rfl
  rw [e]
  omega

theorem pt_children (hl : cfg.lang = .rest) (hM : 1 ≤ M) (anc : List Str) (ha : anc.length = 1) : ∀ ns : List HNode, treesSize ns ≤ M → FineL M ns →
    noDocumentL ns = true → PT ((250 * M) ^ (repeatDepthL ns + 1) * (M + 6) * treesSize ns) (emitNodes cfg anc ns)
  | [], _, _, _ => by
    rw [emitNodes_nil]
    intro s out s' hh hlm hx
    obtain ⟨rfl, rfl⟩ := pure_ok.mp hx
    exact ⟨by rw [wt_nil]; omega, hh, hlm⟩
  | n :: ns, hz, hf, hd => by
    rw [treesSize] at hz
    obtain ⟨hf1, hf2⟩ := hf
    rw [noDocumentL, Bool.and_eq_true] at hd
    have h1 := pt_child (cfg := cfg) hl hM n anc ha (by omega) hf1 hd.1
    have h2 := pt_children hl hM anc ha ns (by omega) hf2 hd.2
    have m1 : (250 * M) ^ (repeatDepth n + 1) ≤ (250 * M) ^ (repeatDepthL (n :: ns) + 1) :=
      Nat.pow_le_pow_right (by omega) (by rw [repeatDepthL]; omega)
    have m2 : (250 * M) ^ (repeatDepthL ns + 1) ≤ (250 * M) ^ (repeatDepthL (n :: ns) + 1) :=
      Nat.pow_le_pow_right (by omega) (by rw [repeatDepthL]; omega)
    have m3 := Nat.mul_le_mul_right (treeSize n) (Nat.mul_le_mul_right (M + 6) m1)
    have m4 := Nat.mul_le_mul_right (treesSize ns) (Nat.mul_le_mul_right (M + 6) m2)
    intro s out s' hh hlm hx
    rw [emitNodes_cons] at hx
    obtain ⟨a, s1, e1, hx⟩ := bind_ok.mp hx
    obtain ⟨b, s2, e2, hx⟩ := bind_ok.mp hx
    obtain ⟨rfl, rfl⟩ := pure_ok.mp hx
    obtain ⟨p1, p2, p3⟩ := h1 s a s1 hh hlm e1
    obtain ⟨q1, q2, q3⟩ := h2 s1 b _ p2 p3 e2
    refine ⟨?_, q2, q3⟩
    rw [wt_append, treesSize, Nat.mul_add]
    omega

/-- the size of the ReStructuredText of a document -/
theorem emit_size_rest (hl : cfg.lang = .rest) {kids : List HNode} {text : Str} (hi : i.kind = c!"document") (hM : treeSize (.mk i kids) ≤ M)
    (hf : Fine M (.mk i kids)) (hd : noDocumentL kids = true) (h : emit cfg (.mk i kids) = .ok text) :
    text.length ≤ (250 * M) ^ (repeatDepth (.mk i kids) + 3) := by
  have hown : 9 ≤ ownSize i := by unfold ownSize; rw [hi]; show 9 ≤ 1 + 8 + _ + _; omega
  rw [treeSize] at hM
  obtain ⟨hf1, hf2⟩ := hf
  have hk := pt_children (cfg := cfg) hl (M := M) (by omega) [i.kind] rfl kids (by omega) hf2 hd
  unfold emit at h
  cases hn : (emitNode cfg [] (.mk i kids)).run {} with
  | error e => rw [hn] at h; cases h
  | ok p =>
    obtain ⟨t, s'⟩ := p
    rw [hn] at h
    cases h
    rw [if_pos hl]
    have hn : emitNode cfg [] (.mk i kids) {} = .ok (t, s') := hn
    rw [emitNode_run, preEmit, if_pos hl] at hn
    obtain ⟨pre, s1, h1, hx⟩ := bind_ok.mp hn
    cases h1
    obtain ⟨c, s2, h2, hx⟩ := bind_ok.mp hx
    obtain ⟨u, s3, h3, hx⟩ := bind_ok.mp hx
    cases h3
    obtain ⟨ht, rfl⟩ := pure_ok.mp hx
    replace ht : t = c := ht
    subst ht
    unfold runNode at h2
    rw [show methodOf cfg.lang i.kind = some .document by rw [hl, hi]; rfl] at h2
    simp only [runMeth, if_pos hl, restDocument] at h2
    obtain ⟨r, s4, h4, h5⟩ := bind_ok.mp h2
    obtain ⟨u, s5, h6, h7⟩ := bind_ok.mp h4
    cases h6
    obtain ⟨p1, _, _⟩ := hk { ({} : ESt) with last := some (i.kind, i.content) } r s4 trivial (Nat.zero_le _) h7
    rw [show lwt (ESt.subst { ({} : ESt) with last := some (i.kind, i.content) }) = 0 from rfl] at p1
    have hc : wt t ≤ wt r + lwt s4.subst + 8 := by
      obtain ⟨b, s6, h8, h9⟩ := bind_ok.mp h5
      cases h8
      split at h9
      · obtain ⟨b2, s7, h10, h11⟩ := bind_ok.mp h9
        unfold getBlockData at h10
        obtain ⟨b2, s8, h12, h13⟩ := bind_ok.mp h10
        cases h12
        obtain ⟨b3, s9, h14, h15⟩ := bind_ok.mp h13
        cases h14
        obtain ⟨rfl, rfl⟩ := pure_ok.mp h15
        obtain ⟨rfl, rfl⟩ := pure_ok.mp h11
        have := wt_block s4.subst
        rw [wt_append, wt_append, show wt c!"\n\n" = 4 by decide]
        split
        · omega
        · rw [wt_append, show wt c!"\n\n" = 4 by decide]; omega
      · obtain ⟨rfl, rfl⟩ := pure_ok.mp h9
        omega
    have h8 : wt (rstrip t) ≤ wt t := wt_sub (dropEnd_sublist _ _)
    have h9 := len_le (rstrip t)
    have hdep : repeatDepthL kids ≤ repeatDepth (.mk i kids) := by rw [repeatDepth]; omega
    have h10 : (250 * M) ^ (repeatDepthL kids + 1) ≤ (250 * M) ^ (repeatDepth (.mk i kids) + 1) := Nat.pow_le_pow_right (by omega) (by omega)
    generalize hXd : (250 * M) ^ (repeatDepthL kids + 1) = X at *
    have hX : 1 ≤ X := by rw [← hXd]; exact Nat.pow_pos (by omega)
    have h11 : X * (M + 6) * treesSize kids + 8 ≤ X * (M + 6) * M := by
      have a1 : X * (M + 6) * (treesSize kids + 8) ≤ X * (M + 6) * M := Nat.mul_le_mul_left _ (by omega)
      have a2 : 1 ≤ X * (M + 6) := Nat.mul_pos hX (by omega)
      rw [Nat.mul_add] at a1
      omega
    have h12 : X * (M + 6) * M ≤ (250 * M) ^ (repeatDepth (.mk i kids) + 1) * (250 * M) * (250 * M) :=
      Nat.mul_le_mul (Nat.mul_le_mul h10 (by omega)) (by omega)
    rw [Nat.pow_succ _ (repeatDepth (.mk i kids) + 2), Nat.pow_succ _ (repeatDepth (.mk i kids) + 1)]
    omega

end Verif.Emit.Gr
