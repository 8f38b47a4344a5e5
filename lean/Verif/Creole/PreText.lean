import Verif.Creole.BlockHits
import Verif.Spec.CreoleDoc

/-!
# The escape of `}}}` in preformatted text

`removeTilde` removes the tilde from the lines `~}}}` and changes nothing else.
-/

namespace Verif.Creole

open Verif Re Py Spec Spec.Cr

theorem res_seq_mem {a b : R} {s x : St G} (h : x ∈ (Re.seq a b).res s) : ∃ y ∈ a.res s, x ∈ b.res y := by
  have e : (Re.seq a b).res s = (a.res s).flatMap b.res := rfl
  rw [e, List.mem_flatMap] at h
  exact h

/-- a group before `$` -/
theorem grp_eol {g : G} {a : R} {s : St G} : (Re.seq (.grp g a) (.eol true)).res s =
    ((Re.seq a (.eol true)).res s).map fun s' => { s' with caps := (g, consumed s.rest s'.rest) :: s'.caps } := by
  have h3 : ∀ (a b : R) s, (Re.seq a b).res s = (a.res s).flatMap b.res := fun _ _ _ => rfl
  have h4 : (Re.grp g a).res s =
    (a.res s).map fun s' => { s' with caps := (g, consumed s.rest s'.rest) :: s'.caps } := rfl
  rw [h3, h3, h4, List.flatMap_map, List.map_flatMap]
  congr 1
  funext x
  simp only [Re.res]
  split <;> simp_all

/-- where the expression matches -/
theorem preEscape_mem {p : Option Char} {s : Str} {x : St G} (hx : x ∈ preEscapeRe.res ⟨p, s, []⟩) :
    atBol true p = true ∧ ∃ w v r, s = w ++ (c!"~}}}" ++ (v ++ r)) ∧ (∀ c ∈ w, isSpace c = true) ∧ (∀ c ∈ v, isSpace c = true) ∧
      atEol true r = true := by
  obtain ⟨y, hy, hx⟩ := res_seq_mem hx
  have hys : atBol true p = true ∧ y.rest = s := by
    simp only [Re.res] at hy
    split at hy
    · rename_i h
      simp at hy; rw [hy]; exact ⟨h, rfl⟩
    · simp at hy
  obtain ⟨z, hz, hx⟩ := res_seq_mem hx
  have e : (Re.grp G.indent sps).res y = (sps.res y).map fun s' => { s' with caps := (G.indent, consumed y.rest s'.rest) :: s'.caps } := rfl
  rw [e, List.mem_map] at hz
  obtain ⟨z', hz', rfl⟩ := hz
  obtain ⟨w, hw, hws, _⟩ := mem_sps hz'
  obtain ⟨a, ha, hx⟩ := res_seq_mem hx
  rw [show (ch '~' : R) = Re.cls (.chr '~') from rfl, mem_res_cls] at ha
  obtain ⟨c, r, h1, h2, rfl⟩ := ha
  simp only [CSet.mem, beq_iff_eq] at h2
  subst h2
  simp only at h1
  rw [show (cat [Re.grp G.rest (.seq (lit c!"}}}") sps), .eol true] : R) = Re.seq (.grp G.rest (.seq (lit c!"}}}") sps)) (.eol true) from rfl,
    grp_eol, List.mem_map] at hx
  obtain ⟨x', hx', rfl⟩ := hx
  rw [res_seq_assoc] at hx'
  obtain ⟨d, hd, hx'⟩ := res_seq_mem hx'
  by_cases hl : ∃ t, r = c!"}}}" ++ t
  · obtain ⟨t, rfl⟩ := hl
    rw [Re.res_lit] at hd
    simp only [List.mem_singleton] at hd
    subst hd
    obtain ⟨f, hf, hx'⟩ := res_seq_mem hx'
    obtain ⟨v, hv, hvs, _⟩ := mem_sps hf
    simp only [Re.res] at hx'
    split at hx'
    · rename_i he
      refine ⟨hys.1, w, v, f.rest, ?_, hws, hvs, he⟩
      rw [← hys.2, hw, h1]
      simp only at hv
      rw [hv]; rfl
    · simp at hx'
  · rw [Re.res_lit_nil _ _ _ _ (fun t ht => hl ⟨t, ht⟩)] at hd
    simp at hd

/-- the text after the first lines begins with an escaped end of a preformatted block -/
def Tilde (ls : List Str) : Prop := ∃ bs a b ls', ls = bs ++ (a ++ (c!"~}}}" ++ b)) :: ls' ∧ (∀ l ∈ bs, ∀ c ∈ l, isSpace c = true) ∧
  (∀ c ∈ a, isSpace c = true) ∧ (∀ c ∈ b, isSpace c = true)

theorem tilde_of {v r : Str} (hv : ∀ c ∈ v, isSpace c = true) (hr : atEol true r = true) :
    ∀ {ls : List Str} {w : Str}, (∀ c ∈ w, isSpace c = true) → (∀ l ∈ ls, '\n' ∉ l) → ended ls = w ++ (c!"~}}}" ++ (v ++ r)) → Tilde ls := by
  intro ls
  induction ls with
  | nil => intro w _ _ h; simp [ended] at h
  | cons l ls ih =>
    intro w hw hnl h
    rw [ended_cons, List.append_eq_append_iff] at h
    have key : ∀ x u', l = u' ++ x → (∀ c ∈ u', isSpace c = true) → x ++ '\n' :: ended ls = c!"~}}}" ++ (v ++ r) → Tilde (l :: ls) := by
      intro x u' h1 hu h2
      obtain ⟨q, rfl, h3⟩ := prefix_line (r := '\n' :: ended ls) (p := c!"~}}}") (by decide) rfl h2
      refine ⟨[], u', q, ls, by rw [h1]; rfl, by simp, hu, ?_⟩
      rw [List.append_eq_append_iff] at h3
      rcases h3 with ⟨y, hy, _⟩ | ⟨y, hy, hy'⟩
      · intro c hc
        apply hv
        cases y with
        | nil =>
          have : q = v := by simpa using hy
          rw [← this]; exact hc
        | cons d y =>
          exfalso
          rename_i h4
          rw [h4] at hr
          simp only [List.cons_append, atEol, Bool.and_true, Bool.true_or] at hr
          have hd : d = '\n' := by simpa using hr
          apply hnl l (by simp)
          rw [h1, hy, hd]; simp
      · intro c hc
        apply hv; rw [hy]; simp [hc]
    rcases h with ⟨x, rfl, hx⟩ | ⟨x, rfl, hx⟩
    · cases x with
      | nil => simp at hx
      | cons c x =>
        simp only [List.cons_append, List.cons.injEq] at hx
        obtain ⟨bs, a, b, ls', h1, h2, h3, h4⟩ := ih (w := x) (fun c hc => hw c (by simp [hc])) (fun l hl => hnl l (by simp [hl])) hx.2
        refine ⟨l :: bs, a, b, ls', by rw [h1]; rfl, ?_, h3, h4⟩
        intro y hy
        simp only [List.mem_cons] at hy
        rcases hy with rfl | hy
        · intro c hc; exact hw c (by simp [hc])
        · exact h2 y hy
    · exact key x w rfl hw hx.symm

/-- the segments of a text, put together again -/
def untilde (p : Option Char) (s : Str) : Str :=
  (preEscapeRe.scanAux p s 0).flatMap fun | .skip c => [c] | .hit m => (m.get .indent).getD [] ++ (m.get .rest).getD []

theorem removeTilde_eq (s : Str) : removeTilde s = untilde none s := by
  unfold removeTilde Re.sub Re.scan untilde
  congr 1
  funext x
  cases x <;> rfl

theorem untilde_skip {p : Option Char} {c : Char} {s : Str} (h : preEscapeRe.res ⟨p, c :: s, []⟩ = []) :
    untilde p (c :: s) = c :: untilde (some c) s := by
  unfold untilde
  rw [Re.scanAux_skip (by rw [Re.matchAt_false, h]; rfl)]
  rfl

theorem untilde_nil {p : Option Char} : untilde p [] = [] := by
  unfold untilde
  rw [Re.scanAux_nil (by decide)]
  rfl

theorem preEscape_mid {p : Option Char} {s : Str} (h : atBol true p = false) : preEscapeRe.res ⟨p, s, []⟩ = [] := by
  cases hr : preEscapeRe.res ⟨p, s, []⟩ with
  | nil => rfl
  | cons x xs =>
    have := (preEscape_mem (x := x) (by rw [hr]; simp)).1
    rw [h] at this; cases this

theorem untilde_mid {r : Str} : ∀ {l : Str} {p : Option Char}, '\n' ∉ l → atBol true p = false →
    untilde p (l ++ '\n' :: r) = l ++ '\n' :: untilde (some '\n') r := by
  intro l
  induction l with
  | nil => intro p _ hp; exact untilde_skip (preEscape_mid hp)
  | cons c l ih =>
    intro p hl hp
    rw [List.cons_append, untilde_skip (preEscape_mid hp), ih (by intro h; exact hl (by simp [h])) (by
      have : c ≠ '\n' := by rintro rfl; simp at hl
      simp [atBol, this])]
    rfl

/-- a line at whose beginning the expression does not match -/
theorem untilde_line {l r : Str} {p : Option Char} (hl : '\n' ∉ l) (h : preEscapeRe.res ⟨p, l ++ '\n' :: r, []⟩ = []) :
    untilde p (l ++ '\n' :: r) = l ++ '\n' :: untilde (some '\n') r := by
  cases l with
  | nil => exact untilde_skip h
  | cons c l =>
    rw [List.cons_append] at h ⊢
    rw [untilde_skip h, untilde_mid (by intro h; exact hl (by simp [h])) (by
      have : c ≠ '\n' := by rintro rfl; simp at hl
      simp [atBol, this])]
    rfl

/-- a match: `r` is what stands after it -/
theorem untilde_hit {p : Option Char} {w v r : Str} (hp : atBol true p = true) (hw : ∀ c ∈ w, isSpace c = true)
    (h : ∀ q caps, ((Re.seq sps (.eol true) : R).res ⟨q, v ++ r, caps⟩).head? = some ⟨(v.getLast?).or q, r, caps⟩) :
    untilde p (w ++ (c!"~}}}" ++ (v ++ r))) = w ++ (c!"}}}" ++ v) ++ untilde ((v.getLast?).or (some '}')) r := by
  have hm : preEscapeRe.matchAt false p ((w ++ (c!"~}}}" ++ v)) ++ r) =
      some ⟨(v.getLast?).or (some '}'), r, [(.rest, c!"}}}" ++ v), (.indent, w)]⟩ := by
    rw [Re.matchAt_false]
    have e : (w ++ (c!"~}}}" ++ v)) ++ r = w ++ ('~' :: (c!"}}}" ++ (v ++ r))) := by simp
    rw [e]
    refine Re.head_seq (x := ⟨p, w ++ ('~' :: (c!"}}}" ++ (v ++ r))), []⟩) (by rw [bol_yes hp]; rfl) ?_
    have h1 : ((Re.grp G.indent sps).res ⟨p, w ++ ('~' :: (c!"}}}" ++ (v ++ r))), []⟩).head? =
        some ⟨(w.getLast?).or p, '~' :: (c!"}}}" ++ (v ++ r)), [(.indent, w)]⟩ := by
      have := Re.head_grp (g := G.indent) (Re.head_star_cls (cs := .space) (caps := []) (rest := '~' :: (c!"}}}" ++ (v ++ r))) (by
        intro c t hc; simp only [List.cons.injEq] at hc; rw [← hc.1]; decide) w p hw)
      simp only [consumed_append] at this
      exact this
    refine Re.head_seq h1 ?_
    refine Re.head_seq (Re.head_cls (by decide)) ?_
    rw [show (cat [Re.grp G.rest (.seq (lit c!"}}}") sps), .eol true] : R) = Re.seq (.grp G.rest (.seq (lit c!"}}}") sps)) (.eol true) from rfl,
      grp_eol, List.head?_map, res_seq_assoc, res_seq_one (Re.res_lit _ _ _ _), h]
    simp only [Option.map_some]
    have : consumed (c!"}}}" ++ (v ++ r)) r = c!"}}}" ++ v := by
      rw [← List.append_assoc, consumed_append]
    rw [this]
    rfl
  have e : w ++ (c!"~}}}" ++ (v ++ r)) = (w ++ (c!"~}}}" ++ v)) ++ r := by simp
  rw [e]
  unfold untilde
  have hl : (w ++ (c!"~}}}" ++ v)).getLast? = (v.getLast?).or (some '}') := by
    rw [List.getLast?_append, List.getLast?_append]
    cases v.getLast? <;> rfl
  rw [Re.scanAux_take (s' := ⟨(v.getLast?).or (some '}'), r, [(.rest, c!"}}}" ++ v), (.indent, w)]⟩) (by simp) hm, List.flatMap_cons, hl]
  rfl

theorem takeWhile_spaces {a : Str} {c : Char} {r : Str} (ha : ∀ c ∈ a, isSpace c = true) (hc : isSpace c = false) :
    (a ++ c :: r).takeWhile isSpace = a ∧ (a ++ c :: r).dropWhile isSpace = c :: r := by
  constructor
  · rw [List.takeWhile_append_of_pos ha, List.takeWhile_cons_of_neg (by simp [hc]), List.append_nil]
  · rw [List.dropWhile_append_of_pos ha, List.dropWhile_cons_of_neg (by simp [hc])]

theorem preLine_tilde {a b : Str} (ha : ∀ c ∈ a, isSpace c = true) (hb : ∀ c ∈ b, isSpace c = true) :
    preLine (a ++ (c!"~}}}" ++ b)) = a ++ (c!"}}}" ++ b) := by
  obtain ⟨h1, h2⟩ := takeWhile_spaces (c := '~') (r := c!"}}}" ++ b) ha (by decide)
  unfold preLine
  rw [show a ++ (c!"~}}}" ++ b) = a ++ '~' :: (c!"}}}" ++ b) from rfl, h1, h2]
  have : b.all isSpace = true := by rw [List.all_eq_true]; exact hb
  simp [this]

theorem preLine_id {l : Str} (h : ∀ a b, l = a ++ (c!"~}}}" ++ b) → (∀ c ∈ a, isSpace c = true) → ¬ ∀ c ∈ b, isSpace c = true) : preLine l = l := by
  unfold preLine
  simp only
  split
  · rename_i hc
    exfalso
    simp only [Bool.and_eq_true, List.isPrefixOf_iff_prefix] at hc
    obtain ⟨⟨t, ht⟩, h2⟩ := hc
    refine h (l.takeWhile isSpace) t ?_ ?_ ?_
    · rw [ht, List.takeWhile_append_dropWhile]
    · exact List.all_eq_true.1 (List.all_takeWhile (p := isSpace) (l := l))
    · rw [← ht] at h2
      exact List.all_eq_true.1 (by simpa using h2)
  · rfl

theorem preLine_blank {l : Str} (h : ∀ c ∈ l, isSpace c = true) : preLine l = l := by
  refine preLine_id ?_
  rintro a b rfl _ _
  have := h '~' (by simp)
  revert this; decide

theorem map_blank {bs : List Str} (h : ∀ l ∈ bs, ∀ c ∈ l, isSpace c = true) : bs.map preLine = bs := by
  have : bs.map preLine = bs.map id := List.map_congr_left (fun l hl => preLine_blank (h l hl))
  rw [this, List.map_id]

theorem ended_append (a b : List Str) : ended (a ++ b) = ended a ++ ended b := by simp [ended]

theorem ended_spaces {bs : List Str} (h : ∀ l ∈ bs, ∀ c ∈ l, isSpace c = true) : ∀ c ∈ ended bs, isSpace c = true := by
  intro c hc
  simp only [ended, List.mem_flatMap, List.mem_append, List.mem_singleton] at hc
  obtain ⟨l, hl, hc | rfl⟩ := hc
  · exact h l hl c hc
  · decide

/-- the lines after a place: blank ones, then perhaps others -/
theorem split_blank (ls : List Str) : ∃ bs ms, ls = bs ++ ms ∧ (∀ l ∈ bs, ∀ c ∈ l, isSpace c = true) ∧
    (ms = [] ∨ ∃ m ms', ms = m :: ms' ∧ m.all isSpace = false) := by
  induction ls with
  | nil => exact ⟨[], [], rfl, by simp, .inl rfl⟩
  | cons l ls ih =>
    cases hb : l.all isSpace with
    | false => exact ⟨[], l :: ls, rfl, by simp, .inr ⟨l, ls, rfl, hb⟩⟩
    | true =>
      obtain ⟨bs, ms, h1, h2, h3⟩ := ih
      refine ⟨l :: bs, ms, by rw [h1]; rfl, ?_, h3⟩
      intro x hx
      simp only [List.mem_cons] at hx
      rcases hx with rfl | hx
      · exact List.all_eq_true.1 hb
      · exact h2 x hx

theorem untilde_ended : ∀ (n : Nat) {ls : List Str} {p : Option Char}, (ended ls).length ≤ n → (∀ l ∈ ls, '\n' ∉ l) → atBol true p = true →
    untilde p (ended ls) = ended (ls.map preLine) := by
  intro n
  induction n with
  | zero =>
    intro ls p hn _ _
    cases ls with
    | nil => simp [ended, untilde_nil]
    | cons l ls => simp [ended] at hn
  | succ n ih =>
    intro ls p hn hnl hp
    by_cases ht : Tilde ls
    · obtain ⟨bs, a, b, ls', rfl, hbs, ha, hb⟩ := ht
      have hw : ∀ c ∈ ended bs ++ a, isSpace c = true := by
        intro c hc
        simp only [List.mem_append] at hc
        rcases hc with hc | hc
        · exact ended_spaces hbs c hc
        · exact ha c hc
      rw [List.map_append, List.map_cons, preLine_tilde ha hb, map_blank hbs]
      have hbn : '\n' ∉ b := fun h => hnl (a ++ (c!"~}}}" ++ b)) (by simp) (by simp [h])
      obtain ⟨cs, ms, rfl, hcs, hms⟩ := split_blank ls'
      have hv : ∀ c ∈ ended (b :: cs), isSpace c = true := ended_spaces (by
        intro l hl
        simp only [List.mem_cons] at hl
        rcases hl with rfl | hl
        · exact hb
        · exact hcs l hl)
      rcases hms with rfl | ⟨m, ms', rfl, hm⟩
      · have := untilde_hit (p := p) (w := ended bs ++ a) (v := ended (b :: cs)) (r := []) hp hw (by
          intro q caps
          rw [List.append_nil]
          exact spsEol_end hv)
        rw [untilde_nil] at this
        simp only [List.append_nil] at this ⊢
        rw [map_blank hcs]
        rw [show ended (bs ++ (a ++ (c!"~}}}" ++ b)) :: cs) = (ended bs ++ a) ++ (c!"~}}}" ++ ended (b :: cs)) from by
          rw [ended_append, ended_cons, ended_cons]; simp, this, ended_append, ended_cons, ended_cons]
        simp
      · -- the blanks after the tilde line, without the last line end
        obtain ⟨v, hv'⟩ : ∃ v, ended (b :: cs) = v ++ c!"\n" := by
          have hne : b :: cs ≠ [] := by simp
          rw [← List.dropLast_concat_getLast hne, ended_append]
          exact ⟨ended (b :: cs).dropLast ++ (b :: cs).getLast hne, by simp [ended]⟩
        have hvs : ∀ c ∈ v, isSpace c = true := fun c hc => hv c (by rw [hv']; simp [hc])
        have hnb : ∀ r, Nonblank (m ++ r) := nonblank_of_lineText (by
          unfold lineText
          simp only [hm, Bool.not_false, Bool.true_and, Bool.not_eq_true', List.contains_eq_mem, decide_eq_false_iff_not]
          exact hnl m (by simp))
        have hs : ended (bs ++ (a ++ (c!"~}}}" ++ b)) :: (cs ++ m :: ms')) =
            (ended bs ++ a) ++ (c!"~}}}" ++ (v ++ ('\n' :: ended (m :: ms')))) := by
          have e1 : (b ++ '\n' :: ended cs) = v ++ c!"\n" := by rw [← hv', ended_cons]
          rw [ended_append, ended_cons, ended_append]
          have e2 : b ++ '\n' :: (ended cs ++ ended (m :: ms')) = v ++ '\n' :: ended (m :: ms') := by
            have := congrArg (· ++ ended (m :: ms')) e1
            simpa using this
          simp only [List.append_assoc]
          rw [show a ++ (c!"~}}}" ++ (b ++ '\n' :: (ended cs ++ ended (m :: ms')))) = a ++ (c!"~}}}" ++ (v ++ '\n' :: ended (m :: ms'))) from by rw [e2]]
        have hhit := untilde_hit (p := p) (w := ended bs ++ a) (v := v) (r := '\n' :: ended (m :: ms')) hp hw (by
          intro q caps
          rw [ended_cons]
          exact (hnb _).spsEol_gap q caps hvs)
        rw [hs] at hn ⊢
        rw [hhit]
        have hrest : untilde ((v.getLast?).or (some '}')) ('\n' :: ended (m :: ms')) = '\n' :: ended ((m :: ms').map preLine) := by
          have hnl' : ∀ l ∈ m :: ms', '\n' ∉ l := fun l hl => hnl l (by simp only [List.mem_append, List.mem_cons] at hl ⊢; exact .inr (.inr (.inr hl)))
          simp only [List.length_append, List.length_cons] at hn
          cases hp' : atBol true ((v.getLast?).or (some '}')) with
          | false =>
            rw [untilde_skip (preEscape_mid hp'), ih (by omega) hnl' (by rfl)]
          | true =>
            have := ih (ls := [] :: m :: ms') (p := (v.getLast?).or (some '}')) (by rw [ended_cons]; simp; omega) (by
              intro l hl
              simp only [List.mem_cons] at hl
              rcases hl with rfl | hl
              · simp
              · exact hnl' l (by simpa using hl)) hp'
            rw [ended_cons [] (m :: ms'), List.map_cons, ended_cons (preLine []), preLine_blank (by simp)] at this
            exact this
        rw [hrest, List.map_append, map_blank hcs, ended_append, ended_cons, ended_append]
        have e1 : (b ++ '\n' :: ended cs) = v ++ c!"\n" := by rw [← hv', ended_cons]
        have e2 : b ++ '\n' :: (ended cs ++ ended ((m :: ms').map preLine)) = v ++ '\n' :: ended ((m :: ms').map preLine) := by
          have := congrArg (· ++ ended ((m :: ms').map preLine)) e1
          simpa using this
        simp only [List.append_assoc]
        rw [e2]
    · cases ls with
      | nil => simp [ended, untilde_nil]
      | cons l ls =>
        have hno : preEscapeRe.res ⟨p, ended (l :: ls), []⟩ = [] := by
          cases hr : preEscapeRe.res ⟨p, ended (l :: ls), []⟩ with
          | nil => rfl
          | cons x xs =>
            exfalso
            obtain ⟨_, w, v, r, h1, h2, h3, h4⟩ := preEscape_mem (x := x) (by rw [hr]; simp)
            exact ht (tilde_of h3 h4 h2 hnl h1)
        rw [ended_cons] at hno hn ⊢
        rw [untilde_line (hnl l (by simp)) hno, ih (by simp at hn; omega) (fun x hx => hnl x (by simp [hx])) rfl, List.map_cons, ended_cons,
          preLine_id]
        rintro a b rfl ha hb
        exact ht ⟨[], a, b, ls, rfl, by simp, ha, hb⟩

/-- only the tildes of the lines `~}}}` are removed -/
theorem removeTilde_lines {ls : List Str} (h : ∀ l ∈ ls, '\n' ∉ l) : removeTilde ('\n' :: ended ls) = '\n' :: ended (ls.map preLine) := by
  rw [removeTilde_eq]
  have := untilde_ended _ (ls := [] :: ls) (p := none) (Nat.le_refl _) (by
    intro l hl
    simp only [List.mem_cons] at hl
    rcases hl with rfl | hl
    · simp
    · exact h l hl) rfl
  rw [ended_cons, List.map_cons, ended_cons, preLine_blank (by simp)] at this
  exact this

end Verif.Creole
