import Verif.Creole.Holes
import Verif.Creole.PageToc
import Verif.Spec.Contents

/-!
# The emitter fills places for macros and for headings
-/

namespace Verif.Spec.Cr

open Verif Py Creole

theorem record_set (c : MacroCall) (t : Toc) (ms : Macros) :
    ((dictSet toc (.toc t) ms).map fun (k, m) => (k, m.record c)) = dictSet toc (.toc t) (ms.map fun (k, m) => (k, m.record c)) := by
  induction ms with
  | nil => rfl
  | cons x ms ih =>
    obtain ⟨k, m⟩ := x
    by_cases h : k = toc
    · simp [dictSet, h, Macro.record]
    · simp [dictSet, h, ih]

theorem dictGet_stored {name : Str} (h : name ≠ toc) (b : Option Board) (ms : Macros) : dictGet name (stored b ms) = dictGet name ms := by
  cases b with
  | none => rfl
  | some b => exact dictGet_dictSet_ne h _ _

theorem dictGet_toc (b : Board) (ms : Macros) :
    dictGet toc (stored (some b) ms) = some (.toc { created := b.placed, maxDepth := b.depth, headlines := b.heads }) :=
  dictGet_dictSet_self _ _ _

theorem stored_set (b b' : Board) (ms : Macros) :
    dictSet toc (.toc { created := b'.placed, maxDepth := b'.depth, headlines := b'.heads }) (stored (some b) ms) = stored (some b') ms :=
  dictSet_set _ _ _ _

/-- the state of the table of contents and those of the macros are independent of each other -/
theorem macroEmit_stored {env : Env} {i : Info} {b : Option Board} {ms : Macros} (h : NoTocs ms) (hn : i.macroName ≠ toc ∨ b = none) :
    macroEmit env i (stored b ms) = (macroEmit env i ms).map fun x => (x.1, stored b x.2) := by
  cases b with
  | none =>
    show macroEmit env i ms = (macroEmit env i ms).map id
    cases macroEmit env i ms <;> rfl
  | some b =>
    have hn : i.macroName ≠ toc := by simpa using hn
    unfold macroEmit
    simp only
    cases ha : string2dict i.macroArgs with
    | error e => rw [string2dict_err ha]; rfl
    | ok kw =>
      simp only [dictGet_stored hn]
      cases hm : dictGet i.macroName ms with
      | none => rfl
      | some m =>
        have key : callMacro i.macroName m (dictSet c!"text" (optVal i.content) kw) (stored (some b) ms) =
            ((callMacro i.macroName m (dictSet c!"text" (optVal i.content) kw) ms).1,
              stored (some b) (callMacro i.macroName m (dictSet c!"text" (optVal i.content) kw) ms).2) := by
          cases m with
          | fn f => rfl
          | obj p f =>
            simp only [callMacro, stored]
            rw [record_set]
          | toc t => exact absurd hm (h _ _)
        simp only [key]
        cases callMacro i.macroName m (dictSet c!"text" (optVal i.content) kw) ms with
        | mk out ms1 =>
          cases out with
          | typeError msg =>
            simp only
            split <;> rfl
          | _ => rfl

theorem Answers.noKey {verbose : Int} {ms ms' : Macros} {c : Call} {s : Str} (h : dictGet toc ms = none)
    (ha : Answers verbose ms c s ms') : dictGet toc ms' = none := by
  have hr : ∀ {kw out}, Runs ms c.name kw out ms' → dictGet toc ms' = none := by
    intro kw out hr
    cases hr with
    | fn _ => exact h
    | obj _ => rw [dictGet_record, h]; rfl
  cases ha with
  | returns _ r => exact hr r
  | wrongArgs _ => exact h
  | unknown _ _ => exact h
  | raises _ r _ => exact hr r
  | notString _ r => exact hr r

/-! ## Texts with places -/

theorem Laid.append {verbose : Int} {b b1 : Option Board} {l : List Spot} {x : Str} {ms ms1 : Macros} (ha : Laid verbose b ms l x b1 ms1) :
    ∀ {l' : List Spot} {y : Str} {b2 : Option Board} {ms2 : Macros}, Laid verbose b1 ms1 l' y b2 ms2 →
      Laid verbose b ms (l ++ l') (x ++ y) b2 ms2 := by
  induction ha with
  | nil => intro l' y b2 ms2 hb; exact hb
  | text _ ih => intro l' y b2 ms2 hb; rw [List.append_assoc]; exact .text (ih hb)
  | head _ ih => intro l' y b2 ms2 hb; rw [List.append_assoc]; exact .head (ih hb)
  | anchor h _ ih => intro l' y b2 ms2 hb; rw [List.append_assoc]; exact .anchor h (ih hb)
  | call h h' _ ih => intro l' y b2 ms2 hb; rw [List.append_assoc]; exact .call h h' (ih hb)
  | first h1 h2 h3 h4 _ ih => intro l' y b2 ms2 hb; rw [List.append_assoc]; exact .first h1 h2 h3 h4 (ih hb)
  | again h1 h2 h3 h4 _ ih => intro l' y b2 ms2 hb; rw [List.append_assoc]; exact .again h1 h2 h3 h4 (ih hb)
  | wrongArgs h1 h2 _ ih => intro l' y b2 ms2 hb; rw [List.append_assoc]; exact .wrongArgs h1 h2 (ih hb)
  | self h1 h2 h3 h4 _ ih => intro l' y b2 ms2 hb; rw [List.append_assoc]; exact .self h1 h2 h3 h4 (ih hb)

theorem Laid.split {verbose : Int} : ∀ {l l' : List Spot} {z : Str} {b b2 : Option Board} {ms ms2 : Macros},
    Laid verbose b ms (l ++ l') z b2 ms2 →
    ∃ x y b1 ms1, Laid verbose b ms l x b1 ms1 ∧ Laid verbose b1 ms1 l' y b2 ms2 ∧ z = x ++ y
  | [], l', z, b, b2, ms, ms2, h => ⟨[], z, b, ms, .nil, h, rfl⟩
  | sp :: l, l', z, b, b2, ms, ms2, h => by
    rw [List.cons_append] at h
    cases h with
    | text h =>
      obtain ⟨x, y, b1, ms1, h1, h2, rfl⟩ := Laid.split h
      exact ⟨_, y, b1, ms1, .text h1, h2, by simp⟩
    | head h =>
      obtain ⟨x, y, b1, ms1, h1, h2, rfl⟩ := Laid.split h
      exact ⟨_, y, b1, ms1, .head h1, h2, by simp⟩
    | anchor g h =>
      obtain ⟨x, y, b1, ms1, h1, h2, rfl⟩ := Laid.split h
      exact ⟨_, y, b1, ms1, .anchor g h1, h2, by simp⟩
    | call g g' h =>
      obtain ⟨x, y, b1, ms1, h1, h2, rfl⟩ := Laid.split h
      exact ⟨_, y, b1, ms1, .call g g' h1, h2, by simp⟩
    | first g1 g2 g3 g4 h =>
      obtain ⟨x, y, b1, ms1, h1, h2, rfl⟩ := Laid.split h
      exact ⟨_, y, b1, ms1, .first g1 g2 g3 g4 h1, h2, by simp⟩
    | again g1 g2 g3 g4 h =>
      obtain ⟨x, y, b1, ms1, h1, h2, rfl⟩ := Laid.split h
      exact ⟨_, y, b1, ms1, .again g1 g2 g3 g4 h1, h2, by simp⟩
    | wrongArgs g1 g2 h =>
      obtain ⟨x, y, b1, ms1, h1, h2, rfl⟩ := Laid.split h
      exact ⟨_, y, b1, ms1, .wrongArgs g1 g2 h1, h2, by simp⟩
    | self g1 g2 g3 g4 h =>
      obtain ⟨x, y, b1, ms1, h1, h2, rfl⟩ := Laid.split h
      exact ⟨_, y, b1, ms1, .self g1 g2 g3 g4 h1, h2, by simp⟩

theorem laid_text {verbose : Int} {s z : Str} {b b' : Option Board} {ms ms' : Macros} :
    Laid verbose b ms [.text s] z b' ms' ↔ z = s ∧ b' = b ∧ ms' = ms := by
  constructor
  · intro h
    cases h with
    | text h => cases h; exact ⟨by simp, rfl, rfl⟩
  · rintro ⟨rfl, rfl, rfl⟩
    have := Laid.text (verbose := verbose) (s := z) (Laid.nil (b := b') (ms := ms'))
    simpa using this

/-- the macros can be used, and there is a table of contents or not -/
structure Fit (u : Bool) (b : Option Board) (ms : Macros) : Prop where
  board : b.isSome = u
  noTocs : NoTocs ms
  noKey : dictGet toc ms = none
  depth : ∀ x, b = some x → x.placed = false → x.depth = none

theorem Laid.fit {verbose : Int} {b b' : Option Board} {ms ms' : Macros} {l : List Spot} {s : Str} (h : Laid verbose b ms l s b' ms') :
    ∀ {u}, Fit u b ms → Fit u b' ms' := by
  induction h with
  | nil => exact id
  | text _ ih => exact ih
  | head _ ih => exact ih
  | @anchor b _ _ _ _ _ _ _ _ _ _ ih => exact fun f => ih ⟨f.board, f.noTocs, f.noKey, by rintro x ⟨⟩ hx; exact f.depth b rfl hx⟩
  | call _ ha _ ih => exact fun f => ih ⟨f.board, ha.noTocs f.noTocs, ha.noKey f.noKey, f.depth⟩
  | first _ _ _ _ _ ih => exact fun f => ih ⟨f.board, f.noTocs, f.noKey, by rintro x ⟨⟩ hx; cases hx⟩
  | again _ _ _ _ _ ih => exact ih
  | wrongArgs _ _ _ ih => exact ih
  | self _ _ _ _ _ ih => exact ih

/-- `Lays u spots r`: emitting is filling these places, for all macros and all `verbose` -/
def Lays (u : Bool) (spots : List Spot) (r : Int → Macros → EM) : Prop :=
  ∀ verbose b ms s X, Fit u b ms →
    (r verbose (stored b ms) = .ok (s, X) ↔ ∃ b' ms', X = stored b' ms' ∧ Laid verbose b ms spots s b' ms')

variable {u : Bool}

theorem Lays.text (s : Str) : Lays u [.text s] fun _ ms => .ok (s, ms) := by
  intro v b ms t X _
  constructor
  · intro h; cases h; exact ⟨b, ms, rfl, laid_text.mpr ⟨rfl, rfl, rfl⟩⟩
  · rintro ⟨b', ms', rfl, h⟩
    obtain ⟨rfl, rfl, rfl⟩ := laid_text.mp h
    rfl

theorem Lays.cons {h h' : List Spot} {r r' : Int → Macros → EM} (f1 : Lays u h r) (f2 : Lays u h' r') :
    Lays u (h ++ h') fun v ms =>
      match r v ms with
      | .error e => .error e
      | .ok (s, ms) =>
        match r' v ms with
        | .error e => .error e
        | .ok (t, ms) => .ok (s ++ t, ms) := by
  intro v b ms s X hf
  dsimp only
  constructor
  · intro hr
    cases e1 : r v (stored b ms) with
    | error e => rw [e1] at hr; cases hr
    | ok x =>
      obtain ⟨t, m1⟩ := x
      rw [e1] at hr
      dsimp only at hr
      obtain ⟨b1, ms1, rfl, g1⟩ := (f1 v b ms t m1 hf).mp e1
      cases e2 : r' v (stored b1 ms1) with
      | error e => rw [e2] at hr; cases hr
      | ok y =>
        obtain ⟨w, m2⟩ := y
        rw [e2] at hr
        cases hr
        obtain ⟨b2, ms2, rfl, g2⟩ := (f2 v b1 ms1 w _ (g1.fit hf)).mp e2
        exact ⟨b2, ms2, rfl, g1.append g2⟩
  · rintro ⟨b2, ms2, rfl, hr⟩
    obtain ⟨x, y, b1, m1, g1, g2, rfl⟩ := hr.split
    have e1 := (f1 v b ms x _ hf).mpr ⟨_, _, rfl, g1⟩
    have e2 := (f2 v b1 m1 y _ (g1.fit hf)).mpr ⟨_, _, rfl, g2⟩
    rw [e1]
    dsimp only
    rw [e2]

theorem Lays.emap {holes : List Spot} {r : Int → Macros → EM} (h : Lays u holes r) {f : Str → Str} {a b : Str}
    (hf : ∀ s, f s = a ++ s ++ b) : Lays u (.text a :: (holes ++ [.text b])) fun v ms => Creole.emap f (r v ms) := by
  have := (Lays.text (u := u) a).cons (h.cons (Lays.text b))
  intro v B ms t X hF
  rw [show Spot.text a :: (holes ++ [.text b]) = [.text a] ++ (holes ++ [.text b]) from rfl, ← this v B ms t X hF]
  dsimp only
  cases r v (stored B ms) with
  | error e => exact Iff.rfl
  | ok x =>
    obtain ⟨s, m⟩ := x
    simp only [Creole.emap]
    show Except.ok (f s, m) = _ ↔ _
    rw [hf, List.append_assoc]

theorem depthIn_text (t : Option Str) (kw : Dict PVal) : depthIn (dictSet c!"text" (optVal t) kw) = depthIn kw := by
  unfold depthIn
  rw [dictGet_dictSet_ne (by decide)]

theorem Lays.macro (i : Info) {strict : Bool} :
    Lays u [.call (callOf i)] fun verbose ms => macroEmit { verbose, strict, useToc := u } i ms := by
  intro v b ms s X hf
  dsimp only
  by_cases hn : i.macroName ≠ toc ∨ b = none
  · rw [macroEmit_stored hf.noTocs hn]
    constructor
    · intro h
      cases hm : macroEmit { verbose := v, strict, useToc := u } i ms with
      | error e => rw [hm] at h; cases h
      | ok x =>
        obtain ⟨s1, ms1⟩ := x
        rw [hm] at h
        cases h
        have := (macroEmit_iff _ _ _ _ _ hf.noTocs).mp hm
        have := Laid.call (b := b) hn this .nil
        rw [List.append_nil] at this
        exact ⟨_, _, rfl, this⟩
    · rintro ⟨b', ms', rfl, h⟩
      have key : ∀ {s1 ms1}, Answers v ms (callOf i) s1 ms1 → (macroEmit { verbose := v, strict, useToc := u } i ms).map
          (fun x => (x.1, stored b x.2)) = .ok (s1 ++ [], stored b ms1) := by
        intro s1 ms1 ha
        rw [(macroEmit_iff { verbose := v, strict, useToc := u } _ _ _ _ hf.noTocs).mpr ha, List.append_nil]
        rfl
      have hno : ∀ {x : Board}, (callOf i).name = toc → b = some x → False := by
        rintro x h1 rfl
        rcases hn with hn | hn
        · exact hn h1
        · cases hn
      cases h with
      | call _ ha h' => cases h'; exact key ha
      | first h1 | again h1 | wrongArgs h1 | self h1 => exact absurd rfl (hno h1)
  · have hn1 : i.macroName = toc := by
      by_cases h : i.macroName = toc
      · exact h
      · exact absurd (.inl h) hn
    cases b with
    | none => exact absurd (.inr rfl) hn
    | some b =>
      have hself : ∀ (x : PVal) kw, dictGet c!"self" (dictSet c!"text" x kw) = dictGet c!"self" kw :=
        fun x kw => dictGet_dictSet_ne (by decide) x kw
      have hdepth : ∀ (x : PVal) kw, dictGet c!"depth" (dictSet c!"text" x kw) = dictGet c!"depth" kw :=
        fun x kw => dictGet_dictSet_ne (by decide) x kw
      have hblock : (callOf i).block = decide (i.kind = .macro_block) := rfl
      unfold macroEmit
      simp only [hn1, dictGet_toc]
      cases ha : string2dict i.macroArgs with
      | error e =>
        have he := string2dict_err ha
        subst he
        simp only
        constructor
        · intro hr
          cases hr
          have := Laid.wrongArgs (verbose := v) (b := b) (c := callOf i) hn1 ha (.nil (ms := ms))
          rw [List.append_nil] at this
          refine ⟨_, _, rfl, ?_⟩
          rw [← errorLine_env]
          exact this
        · rintro ⟨b', ms', rfl, h⟩
          cases h with
          | call hc => exact absurd hc (by rw [show (callOf i).name = toc from hn1]; simp)
          | wrongArgs _ _ h' =>
            cases h'
            rw [List.append_nil, ← errorLine_env]
            rfl
          | first _ h' | again _ h' | self _ h' => rw [show (callOf i).args = i.macroArgs from rfl, ha] at h'; cases h'
      | ok kw =>
        have ha' : string2dict (callOf i).args = .ok kw := ha
        simp only [callMacro, hself, hdepth]
        cases hs : dictGet c!"self" kw with
        | some x =>
          simp only [Option.isSome_some, if_true]
          constructor
          · intro hr
            split at hr
            · cases hr
            · rename_i hv
              cases hr
              have := Laid.self (verbose := v) (b := b) (c := callOf i) hn1 ha' (by rw [hs]; rfl) (by omega) (.nil (ms := ms))
              rw [List.append_nil] at this
              refine ⟨_, _, rfl, ?_⟩
              rw [← errorLine_env]
              exact this
          · rintro ⟨b', ms', rfl, h⟩
            cases h with
            | call hc => exact absurd hc (by rw [show (callOf i).name = toc from hn1]; simp)
            | wrongArgs _ h' => rw [ha'] at h'; cases h'
            | first _ h1 h2 | again _ h1 h2 => rw [ha'] at h1; cases h1; rw [hs] at h2; cases h2
            | self _ _ _ hv h' =>
              cases h'
              rw [if_neg (by omega), List.append_nil, ← errorLine_env]
              rfl
        | none =>
          simp only [Option.isSome_none, Bool.false_eq_true, if_false]
          have hend : ∀ w : Str, (if i.kind = .macro_block then w ++ c!"\n" else w) = w ++ (if (callOf i).block then c!"\n" else []) ++ [] := by
            intro w
            rw [hblock]
            by_cases hk : i.kind = .macro_block <;> simp [hk]
          cases hb : b.placed with
          | true =>
            simp only [Toc.call, if_true]
            have e : dictSet toc (.toc { maxDepth := b.depth, headlines := b.heads, created := true }) (stored (some b) ms) = stored (some b) ms := by
              have := stored_set b b ms
              rwa [hb] at this
            constructor
            · intro hr
              cases hr
              refine ⟨_, _, e, ?_⟩
              have := Laid.again (verbose := v) (b := b) (c := callOf i) hn1 ha' hs hb (.nil (ms := ms))
              rw [← hend] at this
              exact this
            · rintro ⟨b', ms', rfl, h⟩
              cases h with
              | call hc => exact absurd hc (by rw [show (callOf i).name = toc from hn1]; simp)
              | wrongArgs _ h' => rw [ha'] at h'; cases h'
              | self _ h1 h2 => rw [ha'] at h1; cases h1; rw [hs] at h2; cases h2
              | first _ _ _ h' => rw [hb] at h'; cases h'
              | again _ _ _ _ h' =>
                cases h'
                rw [← hend, e]
          | false =>
            simp only [Toc.call, Bool.false_eq_true, if_false]
            have e : dictSet toc (.toc (if (dictGet c!"depth" kw).getD .none ≠ .none
                then { maxDepth := some ((dictGet c!"depth" kw).getD .none), headlines := b.heads, created := true }
                else { maxDepth := b.depth, headlines := b.heads, created := true })) (stored (some b) ms) =
                stored (some { b with placed := true, depth := depthIn kw }) ms := by
              rw [← stored_set b { b with placed := true, depth := depthIn kw } ms, hf.depth _ rfl hb]
              unfold depthIn
              cases hd : dictGet c!"depth" kw with
              | none => rfl
              | some x => cases x <;> rfl
            constructor
            · intro hr
              cases hr
              refine ⟨_, _, e, ?_⟩
              have := Laid.first (verbose := v) (b := b) (c := callOf i) hn1 ha' hs hb (.nil (ms := ms))
              rw [← hend] at this
              exact this
            · rintro ⟨b', ms', rfl, h⟩
              cases h with
              | call hc => exact absurd hc (by rw [show (callOf i).name = toc from hn1]; simp)
              | wrongArgs _ h' => rw [ha'] at h'; cases h'
              | self _ h1 h2 => rw [ha'] at h1; cases h1; rw [hs] at h2; cases h2
              | again _ _ _ h' => rw [hb] at h'; cases h'
              | first _ h1 _ _ h' =>
                rw [ha'] at h1
                cases h1
                cases h'
                rw [← hend, ← e]

theorem Lays.head {strict : Bool} (n : Nat) (title : Str) :
    Lays u [.head n title] fun v ms => headerEmit { verbose := v, strict, useToc := u } n title ms := by
  intro v b ms s X hf
  dsimp only
  unfold headerEmit
  have htag : '<' :: ('h' :: natDigits n) ++ '>' :: htmlEscape title ++ c!"</" ++ 'h' :: natDigits n ++ c!">" = headingTag n title := by
    rw [htmlEscape_spec, headingTag]
    simp
  cases b with
  | none =>
    have hu : u = false := hf.board.symm
    subst hu
    simp only [Bool.false_eq_true, if_false, pure, Except.pure]
    constructor
    · intro h
      simp only [Except.ok.injEq, Prod.mk.injEq] at h
      obtain ⟨rfl, rfl⟩ := h
      refine ⟨none, ms, rfl, ?_⟩
      have := Laid.head (verbose := v) (n := n) (title := title) (Laid.nil (ms := ms))
      rw [List.append_nil] at this
      rw [htag]
      exact this
    · rintro ⟨b', ms', rfl, h⟩
      cases h with
      | head h =>
        cases h
        rw [htag, List.append_nil]
  | some b =>
    have hu : u = true := hf.board.symm
    subst hu
    simp only [if_true]
    have hg : dictGet c!"toc" (stored (some b) ms) = _ := dictGet_toc b ms
    rw [hg]
    have hadd : (inTable n b.depth = none ∧ ∃ e, ({ maxDepth := b.depth, headlines := b.heads, created := b.placed } : Toc).addHeadline n title = .error e) ∨
        ∃ noted, inTable n b.depth = some noted ∧ ({ maxDepth := b.depth, headlines := b.heads, created := b.placed } : Toc).addHeadline n title =
          .ok { maxDepth := b.depth, headlines := b.heads ++ if noted then [(n, title)] else [], created := b.placed } := by
      unfold Toc.addHeadline
      cases hd : b.depth with
      | none => exact .inr ⟨true, rfl, rfl⟩
      | some x =>
        cases x with
        | none => exact .inl ⟨rfl, _, rfl⟩
        | str t => exact .inl ⟨rfl, _, rfl⟩
        | int k =>
          refine .inr ⟨_, rfl, ?_⟩
          simp only [levelLe, ok_bind, pure, Except.pure]
          cases decide ((n : Int) ≤ k) <;> simp
        | bool k =>
          refine .inr ⟨_, rfl, ?_⟩
          simp only [levelLe, ok_bind, pure, Except.pure]
          cases decide (n ≤ if k = true then 1 else 0) <;> simp
    rcases hadd with ⟨hi, e, he⟩ | ⟨noted, hi, he⟩
    · simp only [he]
      constructor
      · intro h; cases h
      · rintro ⟨b', ms', rfl, h⟩
        cases h with
        | anchor hn => rw [hi] at hn; cases hn
    · simp only [he, ok_bind, pure, Except.pure]
      have hst : dictSet c!"toc" (.toc { maxDepth := b.depth, headlines := b.heads ++ if noted then [(n, title)] else [], created := b.placed })
          (stored (some b) ms) = stored (some { b with heads := b.heads ++ if noted then [(n, title)] else [] }) ms :=
        stored_set b { b with heads := b.heads ++ if noted then [(n, title)] else [] } ms
      rw [hst, htag, htmlEscape_spec]
      constructor
      · intro h
        simp only [Except.ok.injEq, Prod.mk.injEq] at h
        obtain ⟨rfl, rfl⟩ := h
        have := Laid.anchor (verbose := v) (n := n) (title := title) hi (Laid.nil (ms := ms))
        rw [List.append_nil] at this
        exact ⟨_, _, rfl, this⟩
      · rintro ⟨b', ms', rfl, h⟩
        cases h with
        | anchor hn h =>
          rw [hi] at hn
          cases hn
          cases h
          rw [List.append_nil]

/-- the names of the macros called in the places -/
def spotNames (l : List Spot) : List Str := l.filterMap fun | .call c => some c.name | _ => none

/-- emitting is filling places, also with a table of contents -/
theorem scheme_lays (strict u : Bool) (p : Str → Prop) : Scheme strict u p fun ns r =>
    ∃ spots, spotNames spots = ns ∧ (∀ n ∈ spotNames spots, p n) ∧ (∀ n t, .head n t ∈ spots → 1 ≤ n) ∧ Lays u spots r where
  text s := ⟨_, rfl, by simp [spotNames], by simp, .text s⟩
  wrap := by
    rintro ns r f a b ⟨l, h1, h2, h3, h4⟩ hf
    refine ⟨_, ?_, ?_, ?_, h4.emap hf⟩
    · rw [← h1]
      simp [spotNames, List.filterMap_append]
    · intro c hc
      refine h2 c ?_
      simpa [spotNames, List.filterMap_append] using hc
    · intro n t h
      refine h3 n t ?_
      simpa using h
  cons := by
    rintro ns ns' r r' ⟨h1, a1, b1, d1, c1⟩ ⟨h2, a2, b2, d2, c2⟩
    refine ⟨h1 ++ h2, ?_, ?_, ?_, c1.cons c2⟩
    · rw [← a1, ← a2]
      simp [spotNames, List.filterMap_append]
    · intro c hc
      rw [spotNames, List.filterMap_append, List.mem_append] at hc
      exact hc.elim (b1 c) (b2 c)
    · intro n t h
      rcases List.mem_append.mp h with h | h
      · exact d1 n t h
      · exact d2 n t h
  mac i hi := by
    refine ⟨[.call (callOf i)], rfl, ?_, by simp, .macro i⟩
    intro c hc
    simp only [spotNames, List.filterMap_cons, List.filterMap_nil, List.mem_singleton] at hc
    subst hc
    exact hi
  head n s := by
    refine ⟨[.head (n + 1) s], rfl, by simp [spotNames], ?_, .head _ _⟩
    intro k t h
    simp only [List.mem_singleton, Spot.head.injEq] at h
    omega

end Verif.Spec.Cr
