import Verif.Tools.CliWords

/-!
# Reading the words of a command line one after the other
-/

namespace Verif.CliArgs

open Verif Py Spec.Cmd

/-! ## The fuel of the loop -/

theorem takeOne_len {ts rest : List Tok} {slice : List Str} (h : takeOne ts = some (slice, rest)) :
    rest.length < ts.length := by
  unfold takeOne at h
  split at h
  · rename_i w rest' hd
    simp only [Option.some.injEq, Prod.mk.injEq] at h
    have h1 : (ts.dropWhile Tok.isDashes).length ≤ ts.length := (List.dropWhile_suffix _).length_le
    have h2 : (rest'.dropWhile Tok.isDashes).length ≤ rest'.length := (List.dropWhile_suffix _).length_le
    rw [hd, List.length_cons] at h1
    rw [← h.2]
    omega
  · cases h

theorem consumePositionals_len (n : Nat) (ts : List Tok) (st : St) : (consumePositionals n ts st).1.length ≤ ts.length := by
  induction n generalizing ts st with
  | zero => exact Nat.le_refl _
  | succ n ih =>
    unfold consumePositionals
    split
    · exact Nat.le_refl _
    · rename_i slice rest h
      exact Nat.le_trans (ih _ _) (Nat.le_of_lt (takeOne_len h))

theorem consumeOptional_len {t : OptTup} {w : Str} {rest : List Tok} {st : St} {r : List Tok × St}
    (h : consumeOptional t w rest st = .ok r) : r.1.length ≤ rest.length := by
  unfold consumeOptional at h
  repeat' (split at h)
  all_goals first
    | (cases h; done)
    | (cases h; simp; done)
    | skip

/-- the loop with enough fuel -/
def run (ts : List Tok) (st : St) : Except Exit St := loop (ts.length + 1) ts st

theorem loop_fuel (f : Nat) : ∀ (f' : Nat) (ts : List Tok) (st : St), ts.length < f → ts.length < f' →
    loop f ts st = loop f' ts st := by
  induction f with
  | zero => intro f' ts st h; omega
  | succ f ih =>
    intro f' ts st h h'
    cases f' with
    | zero => omega
    | succ f' =>
      have hopt : ∀ (t : OptTup) (w : Str) (rest : List Tok) (st : St), rest.length < ts.length →
          ((consumeOptional t w rest st).bind fun r => loop f r.1 r.2) =
          ((consumeOptional t w rest st).bind fun r => loop f' r.1 r.2) := by
        intro t w rest st hr
        cases hc : consumeOptional t w rest st with
        | error e => rfl
        | ok r =>
          have := consumeOptional_len hc
          exact ih f' r.1 r.2 (by omega) (by omega)
      rw [loop.eq_def, loop.eq_def]
      dsimp only
      split
      · split
        · exact hopt _ _ _ _ (by simp)
        · split
          · exact ih f' _ _ (by omega) (by omega)
          · split
            · rename_i t w rest hd
              refine hopt _ _ _ _ ?_
              have h1 : (ts.dropWhile fun t => !t.isOpt).length ≤ ts.length := (List.dropWhile_suffix _).length_le
              rw [hd, List.length_cons] at h1
              omega
            · rfl
      · rfl

theorem loop_run {f : Nat} {ts : List Tok} {st : St} (h : ts.length < f) : loop f ts st = run ts st :=
  loop_fuel f _ ts st h (Nat.lt_succ_self _)

theorem run_opt (t : OptTup) (w : Str) (rest : List Tok) (st : St) :
    run (.opt t w :: rest) st = (consumeOptional t w rest st).bind fun r => run r.1 r.2 := by
  rw [run, loop.eq_def]
  dsimp only
  rw [if_pos (by simp [Tok.isOpt])]
  cases hc : consumeOptional t w rest st with
  | error e => rfl
  | ok r =>
    have := consumeOptional_len hc
    exact loop_run (by simpa using Nat.lt_succ_of_le this)

/-- what is done when no option is left -/
def final (ts : List Tok) (st : St) : St :=
  let r := consumePositionals (2 - st.names.length) ts st
  { r.2 with extras := r.2.extras ++ r.1.map Tok.word }

theorem run_final {ts : List Tok} (h : ts.any Tok.isOpt = false) (st : St) : run ts st = .ok (final ts st) := by
  rw [run, loop.eq_def]
  dsimp only
  rw [if_neg (by simp [h])]
  rfl

/-- one positional argument -/
theorem consume_arg (n : Nat) (w : Str) (ts : List Tok) (st : St) (h : ts.head? ≠ some .dashes) :
    consumePositionals (n + 1) (.arg w :: ts) st = consumePositionals n ts { st with names := st.names ++ [getValue [w]] } := by
  have h1 : ts.takeWhile Tok.isDashes = [] ∧ ts.dropWhile Tok.isDashes = ts := by
    cases ts with
    | nil => exact ⟨rfl, rfl⟩
    | cons t r => cases t with
      | dashes => exact absurd rfl h
      | arg w => exact ⟨rfl, rfl⟩
      | opt t w => exact ⟨rfl, rfl⟩
  have : takeOne (.arg w :: ts) = some ([w], ts) := by
    show some (_, _) = _
    rw [h1.1, h1.2]
    rfl
  rw [consumePositionals, this]

theorem consume_opt (n : Nat) (t : OptTup) (w : Str) (ts : List Tok) (st : St) :
    consumePositionals n (.opt t w :: ts) st = (.opt t w :: ts, st) := by
  cases n with
  | zero => rfl
  | succ n => rfl

/-- in the middle of a command line -/
theorem run_mid {t : Tok} {ts : List Tok} (h : (t :: ts).any Tok.isOpt = true) (ht : t.isOpt = false) (st : St)
    (hlt : (consumePositionals (2 - st.names.length) (t :: ts) st).1.length < (t :: ts).length) :
    run (t :: ts) st = run (consumePositionals (2 - st.names.length) (t :: ts) st).1
      (consumePositionals (2 - st.names.length) (t :: ts) st).2 := by
  rw [run, loop.eq_def]
  dsimp only
  rw [if_pos h]
  cases t with
  | opt t w => cases ht
  | arg w => dsimp only; rw [if_pos hlt]; exact loop_run hlt
  | dashes => dsimp only; rw [if_pos hlt]; exact loop_run hlt

/-- a file name is read -/
theorem run_arg (w : Str) (ts : List Tok) (st : St) (hd : ts.head? ≠ some .dashes) (hn : st.names.length < 2) :
    run (.arg w :: ts) st = run ts { st with names := st.names ++ [getValue [w]] } := by
  obtain ⟨n, hn'⟩ : ∃ n, 2 - st.names.length = n + 1 := ⟨1 - st.names.length, by omega⟩
  have hn2 : 2 - (st.names ++ [getValue [w]]).length = n := by simp; omega
  have hc := consume_arg n w ts st hd
  cases ho : ts.any Tok.isOpt with
  | false =>
    rw [run_final (by simp [Tok.isOpt, List.any_cons, ho]), run_final ho]
    unfold final
    dsimp only
    rw [hn', hc, hn2]
  | true =>
    have hlen := consumePositionals_len n ts { st with names := st.names ++ [getValue [w]] }
    rw [run_mid (by simp [Tok.isOpt, List.any_cons, ho]) rfl st (by rw [hn', hc]; exact Nat.lt_succ_of_le hlen), hn', hc]
    by_cases hlt : (consumePositionals n ts { st with names := st.names ++ [getValue [w]] }).1.length < ts.length
    · cases ts with
      | nil => simp at hlt
      | cons t r =>
        cases htt : t.isOpt with
        | true =>
          cases t with
          | opt t w => rw [consume_opt]
          | arg w => cases htt
          | dashes => cases htt
        | false =>
          have := run_mid ho htt { st with names := st.names ++ [getValue [w]] }
          dsimp only at this
          rw [hn2] at this
          rw [this hlt]
    · cases n with
      | zero => rfl
      | succ n =>
        unfold consumePositionals at hlt ⊢
        cases hto : takeOne ts with
        | none => rfl
        | some p =>
          obtain ⟨slice, rest⟩ := p
          rw [hto] at hlt
          have h1 := takeOne_len hto
          dsimp only at hlt
          exact absurd (Nat.lt_of_le_of_lt (consumePositionals_len n rest _) h1) hlt

/-! ## What has been read is not forgotten -/

theorem consumePositionals_grow (n : Nat) (ts : List Tok) (st : St) :
    st.names <+: (consumePositionals n ts st).2.names ∧ st.extras = (consumePositionals n ts st).2.extras := by
  induction n generalizing ts st with
  | zero => exact ⟨List.prefix_refl _, rfl⟩
  | succ n ih =>
    unfold consumePositionals
    split
    · exact ⟨List.prefix_refl _, rfl⟩
    · rename_i slice rest h
      have := ih rest { st with names := st.names ++ [getValue slice] }
      exact ⟨(List.prefix_append _ _).trans this.1, this.2⟩

theorem consumeOptional_grow {t : OptTup} {w : Str} {rest : List Tok} {st : St} {r : List Tok × St}
    (h : consumeOptional t w rest st = .ok r) : st.names <+: r.2.names ∧ st.extras <+: r.2.extras := by
  unfold consumeOptional at h
  repeat' (split at h)
  all_goals first
    | (cases h; done)
    | (cases h; exact ⟨List.prefix_refl _, List.prefix_refl _⟩)
    | (cases h; exact ⟨List.prefix_refl _, List.prefix_append _ _⟩)

theorem loop_grow (f : Nat) : ∀ (ts : List Tok) (st st' : St), loop f ts st = .ok st' →
    st.names <+: st'.names ∧ st.extras <+: st'.extras := by
  induction f with
  | zero => intro ts st st' h; cases h
  | succ f ih =>
    intro ts st st' h
    have hopt : ∀ (t : OptTup) (w : Str) (rest : List Tok) (st1 : St),
        ((consumeOptional t w rest st1).bind fun r => loop f r.1 r.2) = .ok st' →
        st1.names <+: st'.names ∧ st1.extras <+: st'.extras := by
      intro t w rest st1 h
      cases hc : consumeOptional t w rest st1 with
      | error e => rw [hc] at h; cases h
      | ok r =>
        rw [hc] at h
        have h1 := consumeOptional_grow hc
        have h2 := ih _ _ _ h
        exact ⟨h1.1.trans h2.1, h1.2.trans h2.2⟩
    rw [loop.eq_def] at h
    dsimp only at h
    split at h
    · split at h
      · exact hopt _ _ _ _ h
      · split at h
        · have h1 := consumePositionals_grow (2 - st.names.length) ts st
          have h2 := ih _ _ _ h
          exact ⟨h1.1.trans h2.1, h1.2 ▸ h2.2⟩
        · split at h
          · have h2 := hopt _ _ _ _ h
            exact ⟨h2.1, (List.prefix_append _ _).trans h2.2⟩
          · cases h
            exact ⟨List.prefix_refl _, List.prefix_append _ _⟩
    · cases h
      have h1 := consumePositionals_grow (2 - st.names.length) ts st
      exact ⟨h1.1, by dsimp only; rw [← h1.2]; exact List.prefix_append _ _⟩

/-- a word too many -/
theorem run_full {w : Str} {ts : List Tok} {st st' : St} (hn : 2 ≤ st.names.length) (h : run (.arg w :: ts) st = .ok st') :
    st'.extras ≠ [] := by
  have h0 : 2 - st.names.length = 0 := by omega
  rw [run, loop.eq_def] at h
  dsimp only at h
  split at h
  · rw [h0] at h
    rw [if_neg (by simp [consumePositionals])] at h
    split at h
    · rename_i t w' rest hd
      cases hc : consumeOptional t w' rest { st with extras := st.extras ++ ((Tok.arg w :: ts).takeWhile fun t => !t.isOpt).map Tok.word } with
      | error e => rw [hc] at h; cases h
      | ok r =>
        rw [hc] at h
        have h1 := (consumeOptional_grow hc).2
        have h2 := (loop_grow _ _ _ _ h).2
        intro he
        rw [he] at h2
        rw [List.prefix_nil.1 h2] at h1
        have := List.prefix_nil.1 h1
        simp [Tok.isOpt] at this
    · cases h
      simp [Tok.isOpt]
  · cases h
    rw [h0]
    simp [consumePositionals]

/-! ## Sequences of entries that ask for a conversion -/

/-- The entries give these names and change the encoding `e` to `e'`. -/
inductive Reads : List Tok → List Str → Str → Str → Prop where
  | nil {e : Str} : Reads [] [] e e
  | name {w : Str} {ts : List Tok} {ns : List Str} {e e' : Str} : w ≠ c!"--" → ts.head? ≠ some .dashes → Reads ts ns e e' →
      Reads (.arg w :: ts) (w :: ns) e e'
  | apart {t : OptTup} {w v : Str} {ts : List Tok} {ns : List Str} {e e' : Str} : t.action = some .encoding →
      t.explicit = none → Reads ts ns v e' → Reads (.opt t w :: .arg v :: ts) ns e e'
  | joined {t : OptTup} {w v : Str} {ts : List Tok} {ns : List Str} {e e' : Str} : t.action = some .encoding →
      t.explicit = some v → Reads ts ns v e' → Reads (.opt t w :: ts) ns e e'
  | behind {w : Str} {more : List Str} {e : Str} : w ≠ c!"--" → c!"--" ∉ more →
      Reads (.arg w :: .dashes :: more.map .arg) (w :: more) e e
  | first {w : Str} {more : List Str} {e : Str} : c!"--" ∉ more →
      Reads (.dashes :: .arg w :: more.map .arg) (w :: more) e e

theorem getValue_one {w : Str} (h : w ≠ c!"--") : getValue [w] = some w := by
  unfold getValue
  rw [List.erase_of_not_mem (by simpa using fun e => h e.symm)]

theorem args_no_opt (more : List Str) : (more.map Tok.arg).any Tok.isOpt = false := by
  induction more with
  | nil => rfl
  | cons w ws ih => simp [Tok.isOpt]

/-- all names behind a `--` -/
theorem consume_args (more : List Str) (n : Nat) (st : St) (hn : more.length ≤ n) :
    consumePositionals n (more.map .arg) st =
      ([], { st with names := st.names ++ more.map fun w => getValue [w] }) := by
  induction more generalizing n st with
  | nil =>
    cases n with
    | zero => simp [consumePositionals]
    | succ n => simp [consumePositionals, takeOne]
  | cons w ws ih =>
    cases n with
    | zero => simp at hn
    | succ n =>
      rw [List.map_cons, consume_arg n w _ st (by cases ws <;> simp), ih n _ (by simpa using hn)]
      simp

theorem drop_args (more : List Str) : (more.map Tok.arg).takeWhile Tok.isDashes = [] ∧
    (more.map Tok.arg).dropWhile Tok.isDashes = more.map Tok.arg := by
  cases more <;> exact ⟨rfl, rfl⟩

theorem takeOne_behind (w : Str) (more : List Str) :
    takeOne (.arg w :: .dashes :: more.map .arg) = some ([w, c!"--"], more.map .arg) := by
  show some (_, _) = _
  have := drop_args more
  simp only [List.takeWhile_cons, List.dropWhile_cons, Tok.isDashes, if_true, this.1, this.2, List.map_cons, List.map_nil, Tok.word]
  rfl

theorem takeOne_first (w : Str) (more : List Str) :
    takeOne (.dashes :: .arg w :: more.map .arg) = some ([c!"--", w], more.map .arg) := by
  show some (_, _) = _
  have := drop_args more
  simp only [List.takeWhile_cons, List.dropWhile_cons, Tok.isDashes, if_true, this.1, this.2, List.map_cons, List.map_nil, Tok.word]
  rfl

theorem values_some {more : List Str} (h : c!"--" ∉ more) : more.map (fun w => getValue [w]) = more.map some := by
  refine List.map_congr_left fun w hw => getValue_one ?_
  intro e; subst e; exact h hw

/-- Such entries are read. -/
theorem run_reads {ts : List Tok} {ns : List Str} {e e' : Str} (h : Reads ts ns e e') : ∀ st : St, st.encoding = e →
    st.names.length + ns.length ≤ 2 → run ts st = .ok { st with names := st.names ++ ns.map some, encoding := e' } := by
  induction h with
  | nil =>
    intro st he _
    rw [run_final rfl]
    unfold final
    have : consumePositionals (2 - st.names.length) [] st = ([], st) := by
      cases 2 - st.names.length <;> rfl
    rw [this, ← he]
    simp
  | name hw hd _ ih =>
    intro st he hn
    simp only [List.length_cons] at hn
    rw [run_arg _ _ st hd (by omega), getValue_one hw]
    refine (ih { st with names := st.names ++ [some _] } he (by simp; omega)).trans ?_
    simp
  | apart ha hx _ ih =>
    intro st he hn
    rw [run_opt]
    unfold consumeOptional
    rw [ha, hx]
    exact ih { st with encoding := _ } rfl hn
  | joined ha hx _ ih =>
    intro st he hn
    rw [run_opt]
    unfold consumeOptional
    rw [ha, hx]
    exact ih { st with encoding := _ } rfl hn
  | @behind w more e hw hm =>
    intro st he hn
    simp only [List.length_cons] at hn
    rw [run_final (by simp [Tok.isOpt])]
    obtain ⟨n, hn'⟩ : ∃ n, 2 - st.names.length = n + 1 := ⟨1 - st.names.length, by omega⟩
    have hg : getValue [w, c!"--"] = some w := by
      unfold getValue
      rw [List.erase_cons_tail (by simpa using hw)]
      rfl
    unfold final
    rw [hn', consumePositionals, takeOne_behind]
    dsimp only
    rw [consume_args more n _ (by omega), values_some hm, hg, ← he]
    simp
  | @first w more e hm =>
    intro st he hn
    simp only [List.length_cons] at hn
    rw [run_final (by simp [Tok.isOpt])]
    obtain ⟨n, hn'⟩ : ∃ n, 2 - st.names.length = n + 1 := ⟨1 - st.names.length, by omega⟩
    have hg : getValue [c!"--", w] = some w := by
      unfold getValue
      rw [List.erase_cons_head]
    unfold final
    rw [hn', consumePositionals, takeOne_first]
    dsimp only
    rw [consume_args more n _ (by omega), values_some hm, hg, ← he]
    simp

/-- the entries that can come out of the classification -/
def Sane : List Tok → Prop
  | [] => True
  | .dashes :: r => ∃ more : List Str, r = more.map .arg
  | .arg w :: r => w ≠ c!"--" ∧ Sane r
  | .opt _ _ :: r => Sane r

theorem consume_args_inv {n : Nat} {more : List Str} {st : St} (h : (consumePositionals n (more.map .arg) st).1 = []) :
    more.length ≤ n := by
  induction more generalizing n st with
  | nil => simp
  | cons w ws ih =>
    cases n with
    | zero => cases h
    | succ n =>
      rw [List.map_cons, consume_arg n w _ st (by cases ws <;> simp)] at h
      have := ih h
      simpa using this

theorem values_inv {more : List Str} (h : ∀ v ∈ more.map (fun w => getValue [w]), v ≠ none) : c!"--" ∉ more := by
  intro hm
  exact h none (List.mem_map.2 ⟨_, hm, by decide⟩) rfl

/-- Only such entries are read. -/
theorem reads_run (k : Nat) : ∀ (ts : List Tok) (st st' : St), ts.length < k → Sane ts → run ts st = .ok st' →
    st'.extras = [] → (∀ v ∈ st'.names, v ≠ none) → ∃ ns : List Str, Reads ts ns st.encoding st'.encoding ∧
    st'.names = st.names ++ ns.map some ∧ st.extras = [] := by
  induction k with
  | zero => intro ts st st' h; omega
  | succ k ih =>
    intro ts st st' hk hs h hx hv
    have hex : st.extras = [] := by
      have := (loop_grow _ _ _ _ h).2
      rw [hx] at this
      exact List.prefix_nil.1 this
    cases ts with
    | nil =>
      rw [run_final rfl] at h
      unfold final at h
      have : consumePositionals (2 - st.names.length) [] st = ([], st) := by
        cases 2 - st.names.length <;> rfl
      rw [this] at h
      cases h
      exact ⟨[], .nil, by simp, hex⟩
    | cons t r =>
      cases t with
      | opt t w =>
        rw [run_opt] at h
        cases hc : consumeOptional t w r st with
        | error e => rw [hc] at h; cases h
        | ok q =>
          rw [hc] at h
          have hrun : run q.1 q.2 = .ok st' := h
          unfold consumeOptional at hc
          split at hc
          · cases hc
            have := (loop_grow _ _ _ _ hrun).2
            rw [hx] at this
            exact absurd (List.prefix_nil.1 this) (by simp)
          · rename_i ha
            split at hc
            · rename_i v hxp
              cases hc
              obtain ⟨ns, h1, h2, h3⟩ := ih r _ st' (by simpa using hk) hs hrun hx hv
              exact ⟨ns, .joined ha hxp h1, h2, hex⟩
            · rename_i hxp
              split at hc
              · rename_i v r'
                cases hc
                obtain ⟨ns, h1, h2, h3⟩ := ih r' _ st' (by simp at hk; omega) hs.2 hrun hx hv
                exact ⟨ns, .apart ha hxp h1, h2, hex⟩
              · cases hc
          · repeat' (split at hc)
            all_goals cases hc
      | arg w =>
        by_cases hn : st.names.length < 2
        · by_cases hd : r.head? = some .dashes
          · obtain ⟨r', rfl⟩ : ∃ r', r = .dashes :: r' := by
              cases r with
              | nil => cases hd
              | cons t r' => exact ⟨r', by cases hd; rfl⟩
            obtain ⟨more, rfl⟩ := hs.2
            rw [run_final (by simp [Tok.isOpt])] at h
            obtain ⟨n, hn'⟩ : ∃ n, 2 - st.names.length = n + 1 := ⟨1 - st.names.length, by omega⟩
            have hg : getValue [w, c!"--"] = some w := by
              unfold getValue
              rw [List.erase_cons_tail (by simpa using hs.1)]
              rfl
            unfold final at h
            rw [hn', consumePositionals, takeOne_behind] at h
            dsimp only at h
            rw [hg] at h
            have hlen : more.length ≤ n := by
              refine consume_args_inv (st := { st with names := st.names ++ [some w] }) ?_
              have := congrArg (fun x : Except Exit St => match x with | .ok s => s.extras | .error _ => []) h
              dsimp only at this
              rw [hx, List.append_eq_nil_iff] at this
              exact List.map_eq_nil_iff.1 this.2
            rw [consume_args more n _ hlen] at h
            cases h
            have hm := values_inv (more := more) fun v hvm => hv v (by simp only [List.mem_append]; exact .inr hvm)
            refine ⟨w :: more, .behind hs.1 hm, ?_, hex⟩
            dsimp only
            rw [values_some hm]
            simp
          · rw [run_arg w r st hd hn] at h
            obtain ⟨ns, h1, h2, h3⟩ := ih r _ st' (by simpa using hk) hs.2 h hx hv
            rw [getValue_one hs.1] at h2
            exact ⟨w :: ns, .name hs.1 hd h1, by rw [h2]; simp, hex⟩
        · exact absurd hx (run_full (by omega) h)
      | dashes =>
        obtain ⟨more, rfl⟩ := hs
        rw [run_final (by simp [Tok.isOpt])] at h
        unfold final at h
        have hr1 := congrArg (fun x : Except Exit St => match x with | .ok s => s.extras | .error _ => []) h
        dsimp only at hr1
        rw [hx, List.append_eq_nil_iff] at hr1
        have hr1 := List.map_eq_nil_iff.1 hr1.2
        cases hn' : 2 - st.names.length with
        | zero => rw [hn'] at hr1; cases hr1
        | succ n =>
          rw [hn', consumePositionals] at hr1 h
          cases more with
          | nil => cases hr1
          | cons w more =>
            rw [List.map_cons, takeOne_first] at hr1 h
            dsimp only at hr1 h
            have hg : getValue [c!"--", w] = some w := by
              unfold getValue
              rw [List.erase_cons_head]
            rw [hg] at hr1 h
            have hlen := consume_args_inv hr1
            rw [consume_args more n _ hlen] at h
            cases h
            have hm := values_inv (more := more) fun v hvm => hv v (by simp only [List.mem_append]; exact .inr hvm)
            refine ⟨w :: more, .first hm, ?_, hex⟩
            dsimp only
            rw [values_some hm]
            simp

end Verif.CliArgs
