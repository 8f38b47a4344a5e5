import Verif.Html.Parser
import Verif.Py.ReLemmas
import Verif.Props.Deentity

/-!
# Exceptions of the tokenizer and of the handlers

Where the exceptions of the tokenizer come from, and which texts the names of tags are.
-/

namespace Verif.Html

open Verif Py Re

section

variable {γ : Type} [DecidableEq γ]

/-- what a match captures is a part of the text -/
theorem res_caps_infix {r : Re γ} : ∀ {s s' : St γ}, s' ∈ r.res s → ∀ p ∈ s'.caps, p ∈ s.caps ∨ p.2 <:+: s.rest := by
  have reach : ∀ {a : Re γ} {s t : St γ}, t ∈ a.res s → t.rest <:+ s.rest := by
    intro a s t h
    obtain ⟨w, hw⟩ := Re.res_reach h
    exact ⟨w, hw.rest.symm⟩
  induction r with
  | eps => intro s s' h p hp; rw [mem_res_eps] at h; subst h; exact .inl hp
  | cls cs =>
    intro s s' h p hp
    rw [mem_res_cls] at h
    obtain ⟨c, r, h1, _, rfl⟩ := h
    exact .inl hp
  | seq a b iha ihb =>
    intro s s' h p hp
    rw [mem_res_seq] at h
    obtain ⟨t, h1, h2⟩ := h
    rcases ihb h2 p hp with hp | hp
    · exact iha h1 p hp
    · exact .inr (hp.trans (reach h1).isInfix)
  | alt a b iha ihb =>
    intro s s' h p hp
    rw [mem_res_alt] at h
    rcases h with h | h
    · exact iha h p hp
    · exact ihb h p hp
  | star g a iha =>
    intro s s' h
    exact mem_starR_induct (P := fun s => ∀ p ∈ s'.caps, p ∈ s.caps ∨ p.2 <:+: s.rest) (fun p hp => .inl hp)
      (fun s t ht hP p hp => by
        rcases hP p hp with hp | hp
        · exact iha ht p hp
        · exact .inr (hp.trans (reach ht).isInfix)) h
  | grp g a iha =>
    intro s s' h p hp
    rw [mem_res_grp] at h
    obtain ⟨t, ht, rfl⟩ := h
    rcases List.mem_cons.mp hp with rfl | hp
    · exact .inr (List.take_prefix _ _).isInfix
    · exact iha ht p hp
  | bref g =>
    intro s s' h p hp
    rw [mem_res_bref] at h
    obtain ⟨w, q, r, _, h2, rfl⟩ := h
    exact .inl hp
  | bol mu => intro s s' h p hp; rw [mem_res_bol] at h; obtain ⟨_, rfl⟩ := h; exact .inl hp
  | eol mu => intro s s' h p hp; rw [mem_res_eol] at h; obtain ⟨_, rfl⟩ := h; exact .inl hp
  | behind neg cs => intro s s' h p hp; rw [mem_res_behind] at h; obtain ⟨_, rfl⟩ := h; exact .inl hp
  | notAhead a _ => intro s s' h p hp; rw [mem_res_notAhead] at h; obtain ⟨_, rfl⟩ := h; exact .inl hp

theorem capGet_infix {r : Re γ} {p : Option Char} {t : Str} {s' : St γ} (h : r.matchAt false p t = some s') {g : γ} {v : Str}
    (hg : capGet g s'.caps = some v) : v <:+: t := by
  have hm := Re.matchAt_mem h
  have hv : (g, v) ∈ s'.caps := by
    unfold capGet at hg
    clear hm h
    generalize s'.caps = caps at hg
    induction caps with
    | nil => cases hg
    | cons x l ih =>
      rw [List.lookup_cons] at hg
      split at hg
      · next heq =>
        cases hg
        rw [beq_iff_eq] at heq
        rw [heq]
        exact List.mem_cons_self
      · exact List.mem_cons_of_mem _ (ih hg)
  rcases res_caps_infix hm _ hv with h | h
  · cases h
  · exact h

theorem matchAt_suffix {r : Re γ} {p : Option Char} {t : Str} {s' : St γ} (h : r.matchAt false p t = some s') :
    s'.rest <:+ t := by
  obtain ⟨w, hw⟩ := Re.res_reach (Re.matchAt_mem h)
  exact ⟨w, hw.rest.symm⟩

/-- `r` never consumes the character `c` -/
def avoids (c : Char) : Re γ → Bool
  | .cls cs => !cs.mem c
  | .seq a b => avoids c a && avoids c b
  | .alt a b => avoids c a && avoids c b
  | .star _ a => avoids c a
  | .grp _ a => avoids c a
  | .bref _ => false
  | _ => true

theorem res_avoids {c : Char} {r : Re γ} : avoids c r = true → ∀ {s s' : St γ}, s' ∈ r.res s → c ∈ s.rest → c ∈ s'.rest := by
  induction r with
  | eps => intro _ s s' h hc; rw [mem_res_eps] at h; subst h; exact hc
  | cls cs =>
    intro ha s s' h hc
    rw [mem_res_cls] at h
    obtain ⟨d, r, h1, h2, rfl⟩ := h
    rw [h1] at hc
    rcases List.mem_cons.mp hc with rfl | hc
    · simp [avoids, h2] at ha
    · exact hc
  | seq a b iha ihb =>
    intro hab s s' h hc
    rw [avoids, Bool.and_eq_true] at hab
    rw [mem_res_seq] at h
    obtain ⟨t, h1, h2⟩ := h
    exact ihb hab.2 h2 (iha hab.1 h1 hc)
  | alt a b iha ihb =>
    intro hab s s' h hc
    rw [avoids, Bool.and_eq_true] at hab
    rw [mem_res_alt] at h
    rcases h with h | h
    · exact iha hab.1 h hc
    · exact ihb hab.2 h hc
  | star g a iha =>
    intro ha s s' h
    exact mem_starR_induct (P := fun s => c ∈ s.rest → c ∈ s'.rest) id (fun s t ht hP hc => hP (iha ha ht hc)) h
  | grp g a iha =>
    intro ha s s' h hc
    rw [mem_res_grp] at h
    obtain ⟨t, ht, rfl⟩ := h
    exact iha (s' := t) ha ht hc
  | bref g => intro ha; cases ha
  | bol mu => intro _ s s' h hc; rw [mem_res_bol] at h; obtain ⟨_, rfl⟩ := h; exact hc
  | eol mu => intro _ s s' h hc; rw [mem_res_eol] at h; obtain ⟨_, rfl⟩ := h; exact hc
  | behind neg cs => intro _ s s' h hc; rw [mem_res_behind] at h; obtain ⟨_, rfl⟩ := h; exact hc
  | notAhead a _ => intro _ s s' h hc; rw [mem_res_notAhead] at h; obtain ⟨_, rfl⟩ := h; exact hc

end

/-! ## `html.unescape` -/

/-- a decimal reference with more digits than `int()` accepts -/
def hugeRef (t : Str) : Prop := ∃ ds : Str, 4300 < ds.length ∧ (∀ d ∈ ds, d.isDigit) ∧ c!"&#" ++ ds <:+: t

theorem hugeRef.mono {t t' : Str} (h : hugeRef t) (ht : t <:+: t') : hugeRef t' := by
  obtain ⟨ds, h1, h2, h3⟩ := h
  exact ⟨ds, h1, h2, h3.trans ht⟩

theorem mem_takeWhileA {p : Char → Bool} {c : Char} : ∀ {s : Str}, c ∈ s.takeWhile p → p c = true
  | d :: s, h => by
    rw [List.takeWhile_cons] at h
    split at h
    · next hd =>
      rcases List.mem_cons.mp h with rfl | h
      · exact hd
      · exact mem_takeWhileA h
    · cases h

theorem unescapeRef_error {rest : Str} {e : PyErr} (h : unescapeRef rest = .error e) :
    e = .valueError ∧ ∃ ds : Str, 4300 < ds.length ∧ (∀ d ∈ ds, d.isDigit) ∧ '#' :: ds <+: rest := by
  unfold unescapeRef at h
  split at h
  · next r =>
    split at h
    · next x hx =>
      split at h
      · dsimp only at h
        split at h <;> cases h
      · dsimp only at h
        split at h
        · cases h
        · next hne =>
          split at h
          · cases h
          · next hn =>
            cases h
            refine ⟨rfl, (x :: hx).takeWhile isDigitA, ?_, ?_, ?_⟩
            · apply Nat.not_le.mp
              intro hle
              have hall : ∀ c ∈ (x :: hx).takeWhile isDigitA, c.isDigit = true := by
                intro c hc
                have := mem_takeWhileA hc
                simpa [isDigitA, Char.isDigit, Char.le_def] using this
              have := Props.natOf_digits (ds := (x :: hx).takeWhile isDigitA) (fun h0 => hne (by rw [h0]; rfl)) hall hle
              rw [this] at hn
              cases hn
            · intro c hc
              have := mem_takeWhileA hc
              simpa [isDigitA, Char.isDigit, Char.le_def] using this
            · exact (List.prefix_cons_inj '#').mpr (List.takeWhile_prefix _)
    · cases h
  · dsimp only at h
    split at h <;> cases h

theorem unescapeAux_error : ∀ {s : Str} {k : Nat} {e : PyErr}, unescapeAux s k = .error e → e = .valueError ∧ hugeRef s
  | [], _, _, h => by cases h
  | _ :: cs, k + 1, e, h => by
    rw [unescapeAux] at h
    obtain ⟨h1, h2⟩ := unescapeAux_error h
    exact ⟨h1, h2.mono (List.suffix_cons _ _).isInfix⟩
  | c :: cs, 0, e, h => by
    have hmap : ∀ {k : Nat} {f : Str → Str}, (unescapeAux cs k).map f = .error e → e = .valueError ∧ hugeRef (c :: cs) := by
      intro k f hm
      cases hr : unescapeAux cs k with
      | ok x => rw [hr] at hm; cases hm
      | error e' =>
        rw [hr] at hm
        cases hm
        obtain ⟨h1, h2⟩ := unescapeAux_error hr
        exact ⟨h1, h2.mono (List.suffix_cons _ _).isInfix⟩
    rw [unescapeAux] at h
    split at h
    · next hc =>
      split at h
      · next e' he =>
        cases h
        obtain ⟨h1, ds, h2, h3, h4⟩ := unescapeRef_error he
        refine ⟨h1, ds, h2, h3, ?_⟩
        rw [hc]
        exact ((List.prefix_cons_inj '&').mpr h4).isInfix
      · exact hmap h
      · exact hmap h
    · exact hmap h

theorem attrVal_error {rest value : Option Str} {e : PyErr} (h : attrVal rest value = .error e) :
    e = .valueError ∧ ∃ v, value = some v ∧ hugeRef v := by
  unfold attrVal at h
  split at h
  · cases h
  · split at h
    · cases h
    · split at h
      · cases h
      · next v =>
        dsimp only at h
        generalize hw : (if (v.head? = some '\'' && v.getLast? = some '\'') || (v.head? = some '"' && v.getLast? = some '"') then
            v.tail.dropLast else v : Str) = w at h
        have hi : w <:+: v := by
          rw [← hw]
          split
          · exact (List.dropLast_prefix _).isInfix.trans (List.tail_suffix _).isInfix
          · exact List.infix_refl _
        split at h
        · cases h
        · cases hu : unescape w with
          | ok x => rw [hu] at h; cases h
          | error e' =>
            rw [hu] at h
            cases h
            obtain ⟨h1, h2⟩ := unescapeAux_error hu
            exact ⟨h1, v, rfl, h2.mono hi⟩

theorem attrLoop_error : ∀ {fuel : Nat} {prev : Option Char} {s : Str} {n : Nat} {e : PyErr},
    attrLoop fuel prev s n = .error e → e = .valueError ∧ hugeRef s
  | 0, _, _, _, _, h => by cases h
  | fuel + 1, prev, s, n, e, h => by
    rw [attrLoop] at h
    split at h
    · cases h
    · split at h
      · cases h
      · next st hst =>
        cases hv : attrVal (capGet .rest st.caps) (capGet .value st.caps) with
        | error e' =>
          rw [hv] at h
          cases h
          obtain ⟨h1, v, h2, h3⟩ := attrVal_error hv
          exact ⟨h1, h3.mono (capGet_infix hst h2)⟩
        | ok v =>
          rw [hv] at h
          cases hr : attrLoop fuel st.prev st.rest n with
          | error e' =>
            rw [show (Bind.bind (Except.ok v) _ : Except PyErr (List (Str × Option Str) × Str)) = _ from rfl] at h
            simp only [hr, Bind.bind, Except.bind] at h
            cases h
            obtain ⟨h1, h2⟩ := attrLoop_error hr
            exact ⟨h1, h2.mono (matchAt_suffix hst).isInfix⟩
          | ok r =>
            simp only [hr, Bind.bind, Except.bind] at h
            cases h

/-! ## Steps -/

/-- the handler calls of a step -/
def Step.evs : Step → List Event
  | .go evs _ _ => evs
  | .stop evs => evs
  | .fail _ => []

/-- what an exception of the tokenizer means -/
def TokErr (t : Str) (e : PyErr) : Prop := (e = .assertionError ∧ c!"<![" <:+: t) ∨ (e = .valueError ∧ hugeRef t)

theorem TokErr.mono {t t' : Str} {e : PyErr} (h : TokErr t e) (ht : t <:+: t') : TokErr t' e := by
  rcases h with ⟨h1, h2⟩ | ⟨h1, h2⟩
  · exact .inl ⟨h1, h2.trans ht⟩
  · exact .inr ⟨h1, h2.mono ht⟩

theorem alpha_mem (c : Char) : alpha.mem c = isAlphaA c := rfl

theorem tagfind_some {p : Option Char} {c : Char} {r : Str} (h : isAlphaA c = true) :
    ∃ st, tagfindRe.matchAt false p (c :: r) = some st := by
  rw [Re.matchAt_false]
  have hstar : ∀ (a : TR) (s : St TG), ∃ t, t ∈ (Re.star true a).res s := by
    intro a s
    refine ⟨s, ?_⟩
    show s ∈ starR true a.res s.rest.length s
    cases s.rest.length with
    | zero => rw [mem_starR_zero]
    | succ n => rw [mem_starR_succ]; exact .inl rfl
  obtain ⟨t1, h1⟩ := hstar (.cls tagChar) ⟨some c, r, []⟩
  have h2 : t1 ∈ (Re.seq (.cls alpha) (.star true (.cls tagChar)) : TR).res ⟨p, c :: r, []⟩ :=
    mem_res_seq.mpr ⟨_, mem_res_cls.mpr ⟨c, r, rfl, by rw [alpha_mem]; exact h, rfl⟩, h1⟩
  have h3 := (mem_res_grp (g := TG.name)).mpr ⟨t1, h2, rfl⟩
  obtain ⟨t2, h4⟩ := hstar (.alt (.cls .space) (.seq (tch '/') (.notAhead (tch '>')))) _
  have h5 := mem_res_seq.mpr ⟨_, h3, h4⟩
  cases hh : tagfindRe.res ⟨p, c :: r, []⟩ with
  | nil =>
    have : t2 ∈ tagfindRe.res ⟨p, c :: r, []⟩ := h5
    rw [hh] at this
    cases this
  | cons x l => exact ⟨x, rfl⟩

theorem tagfind_name {p : Option Char} {t : Str} {st : St TG} (h : tagfindRe.matchAt false p t = some st) :
    (capGet .name st.caps).getD [] <+: t := by
  have hm := Re.matchAt_mem h
  have hm' : st ∈ (Re.seq (.grp .name (.seq (.cls alpha) (.star true (.cls tagChar))))
      (.star true (.alt (.cls .space) (.seq (tch '/') (.notAhead (tch '>'))))) : TR).res ⟨p, t, []⟩ := hm
  rw [mem_res_seq] at hm'
  obtain ⟨u, h1, h2⟩ := hm'
  rw [mem_res_grp] at h1
  obtain ⟨v, _, rfl⟩ := h1
  have hc : st.caps = (.name, consumed t v.rest) :: v.caps :=
    mem_starR_induct (P := fun s => st.caps = s.caps) rfl (fun s t ht hP => by
      rw [hP]
      rw [mem_res_alt] at ht
      rcases ht with ht | ht
      · rw [mem_res_cls] at ht
        obtain ⟨_, _, _, _, rfl⟩ := ht
        rfl
      · rw [mem_res_seq] at ht
        obtain ⟨w, hw1, hw2⟩ := ht
        rw [mem_res_notAhead] at hw2
        rw [tch, mem_res_cls] at hw1
        obtain ⟨_, _, _, _, rfl⟩ := hw1
        obtain ⟨_, rfl⟩ := hw2
        rfl) h2
  rw [hc]
  show consumed t v.rest <+: t
  exact List.take_prefix _ _

theorem upTo_mem {c : Char} : ∀ {s : Str}, c ∈ s → upTo c s ≠ none
  | d :: ds, h => by
    rw [upTo]
    split
    · simp
    · next hd =>
      rcases List.mem_cons.mp h with h | h
      · exact (hd h.symm).elim
      · simp only [ne_eq, Option.map_eq_none_iff]
        exact upTo_mem h

theorem upTo_none {c : Char} : ∀ {s : Str}, upTo c s ≠ none → c ∈ s
  | [], h => (h rfl).elim
  | d :: ds, h => by
    rw [upTo] at h
    split at h
    · next hd => rw [hd]; exact List.mem_cons_self
    · simp only [ne_eq, Option.map_eq_none_iff] at h
      exact List.mem_cons_of_mem _ (upTo_none h)

theorem parseStart_fail {c : Char} {r : Str} {e : PyErr} (hc : isAlphaA c = true) (h : parseStart ('<' :: c :: r) = .fail e) :
    TokErr ('<' :: c :: r) e := by
  unfold parseStart at h
  split at h
  · cases h
  · next n _ =>
    split at h
    · next hn =>
      obtain ⟨st, hst⟩ := tagfind_some (p := some '<') (r := r) hc
      rw [show ('<' :: c :: r).tail = c :: r from rfl, hst] at hn
      cases hn
    · next st hst =>
      dsimp only at h
      split at h
      · next e' he =>
        cases h
        obtain ⟨h1, h2⟩ := attrLoop_error he
        exact .inr ⟨h1, h2.mono ((matchAt_suffix hst).isInfix.trans (List.suffix_cons _ _).isInfix)⟩
      · repeat' split at h
        all_goals cases h

theorem parseEnd_fail {cdata : Option Str} {r : Str} {e : PyErr} (h : parseEnd cdata ('<' :: '/' :: r) = .fail e) : False := by
  unfold parseEnd at h
  split at h
  · cases h
  · next g hg =>
    split at h
    · dsimp only at h
      repeat' split at h
      all_goals cases h
    · split at h
      · cases h
      · split at h
        · repeat' split at h
          all_goals cases h
        · next st hst =>
          split at h
          · next hn =>
            have h1 : '>' ∈ r := by
              have := upTo_none (c := '>') (s := '/' :: r) (by
                rw [show ('<' :: '/' :: r).tail = '/' :: r from rfl] at hg
                rw [hg]; simp)
              rcases List.mem_cons.mp this with h | h
              · exact absurd h (by decide)
              · exact h
            have h2 : '>' ∈ st.rest := res_avoids (r := tagfindRe) (by decide +kernel) (Re.matchAt_mem hst) h1
            exact upTo_mem h2 hn
          · cases h

theorem parseSection_fail {s : Str} {e : PyErr} (h : parseSection s = .fail e) : e = .assertionError := by
  unfold parseSection at h
  split at h
  · next e' he =>
    cases h
    unfold scanName at he
    split at he
    · cases he
    · split at he
      · cases he; rfl
      · split at he <;> cases he
  · cases h
  · split at h
    · unfold closeAt at h
      split at h <;> cases h
    · split at h
      · unfold closeAt at h
        split at h <;> cases h
      · cases h; rfl

theorem skipTo_fail {n : Nat} {s : Str} {e : PyErr} (h : skipTo n s = .fail e) : False := by
  unfold skipTo at h
  split at h <;> cases h

theorem closeAt_fail {x : TR} {n : Nat} {s : Str} {e : PyErr} (h : closeAt x n s = .fail e) : False := by
  unfold closeAt at h
  split at h <;> cases h

theorem parseDecl_fail {s : Str} {e : PyErr} (h : parseDecl s = .fail e) : TokErr s e := by
  unfold parseDecl at h
  split at h
  · next hp => exact .inl ⟨parseSection_fail h, (List.isPrefixOf_iff_prefix.mp hp).isInfix⟩
  · split at h
    · exact (skipTo_fail h).elim
    · exact (skipTo_fail h).elim

theorem searchRe_empty {elem : Str} {p : Option Char} {s b c : Str} (h : searchRe (cdataRe elem) p s = some ([], b, c)) :
    ∃ r, s = '<' :: '/' :: r := by
  have key : ∀ {st : St TG}, (cdataRe elem).matchAt false p s = some st → ∃ r, s = '<' :: '/' :: r := by
    intro st hst
    have hm := Re.matchAt_mem hst
    have hm' : st ∈ (Re.seq (tch '<') (.seq (tch '/') (cat (wsp :: (elem.map (fun c => .cls (icase c)) ++ [wsp, tch '>']))))).res
        ⟨p, s, []⟩ := hm
    rw [mem_res_seq] at hm'
    obtain ⟨t, h1, h2⟩ := hm'
    rw [mem_res_seq] at h2
    obtain ⟨u, h3, _⟩ := h2
    rw [tch, mem_res_cls] at h1 h3
    obtain ⟨a, r, e1, e2, rfl⟩ := h1
    obtain ⟨b, r', e3, e4, rfl⟩ := h3
    simp only [CSet.mem, beq_iff_eq] at e2 e4
    subst e2
    subst e4
    dsimp only at e1 e3
    exact ⟨r', by rw [e1, e3]⟩
  cases s with
  | nil =>
    rw [searchRe, Option.map_eq_some_iff] at h
    obtain ⟨st, h1, _⟩ := h
    exact key h1
  | cons d s =>
    rw [searchRe] at h
    split at h
    · next st hst => exact key hst
    · rw [Option.map_eq_some_iff] at h
      obtain ⟨x, _, h2⟩ := h
      cases h2

theorem step_fail {cdata : Option Str} {prev : Option Char} {s : Str} {e : PyErr} (hs : s ≠ []) (h : step cdata prev s = .fail e) :
    TokErr s e := by
  unfold step at h
  split at h
  · split at h
    · cases h
    · next hr =>
      obtain ⟨r, rfl⟩ := searchRe_empty hr
      exact (parseEnd_fail h).elim
    · cases h
  · dsimp only at h
    split at h
    · cases h
    · next ht =>
      split at h
      · split at h
        · next c r =>
          split at h
          · next hc => exact parseStart_fail hc h
          · split at h
            · next hc =>
              subst hc
              exact (parseEnd_fail h).elim
            · split at h
              · exact (closeAt_fail h).elim
              · split at h
                · exact (skipTo_fail h).elim
                · split at h
                  · exact parseDecl_fail h
                  · cases h
        · cases h
      · unfold parseCharref at h
        split at h
        · cases h
        · split at h <;> cases h
      · unfold parseEntity at h
        split at h
        · cases h
        · split at h
          · split at h <;> cases h
          · cases h
      · next h1 h2 h3 =>
        exfalso
        cases s with
        | nil => exact hs rfl
        | cons c cs =>
          apply ht
          rw [List.takeWhile_cons, if_pos]
          · rfl
          · simp only [Bool.not_eq_true', Bool.or_eq_false_iff, decide_eq_false_iff_not]
            exact ⟨fun hc => h1 cs (by rw [hc]), fun hc => h3 cs (by rw [hc])⟩

theorem step_startend {cdata : Option Str} {prev : Option Char} {s : Str} {tag : Str} {attrs : List (Str × Option Str)}
    (h : Event.startend tag attrs ∈ (step cdata prev s).evs) : ∃ name, '<' :: name <:+: s ∧ tag = lower name := by
  have hEnd : ∀ cd, Event.startend tag attrs ∈ (parseEnd cd s).evs → False := by
    intro cd h
    unfold parseEnd at h
    dsimp only at h
    repeat' split at h
    all_goals simp [Step.evs] at h
  have hSkip : ∀ n, Event.startend tag attrs ∈ (skipTo n s).evs → False := by
    intro n h
    unfold skipTo at h
    split at h <;> simp [Step.evs] at h
  have hClose : ∀ x n, Event.startend tag attrs ∈ (closeAt x n s).evs → False := by
    intro x n h
    unfold closeAt at h
    split at h <;> simp [Step.evs] at h
  unfold step at h
  split at h
  · split at h
    · simp [Step.evs] at h
    · exact (hEnd _ h).elim
    · simp [Step.evs] at h
  · dsimp only at h
    split at h
    · simp [Step.evs] at h
    · split at h
      · split at h
        · split at h
          · unfold parseStart at h
            split at h
            · simp [Step.evs] at h
            · split at h
              · simp [Step.evs] at h
              · next st hst =>
                dsimp only at h
                split at h
                · simp [Step.evs] at h
                · split at h
                  · simp [Step.evs] at h
                  · split at h
                    · simp only [Step.evs, List.mem_singleton, Event.startend.injEq] at h
                      refine ⟨(capGet .name st.caps).getD [], ?_, h.1⟩
                      exact ((List.prefix_cons_inj '<').mpr (tagfind_name hst)).isInfix
                    · simp [Step.evs] at h
          · split at h
            · exact (hEnd _ h).elim
            · split at h
              · exact (hClose _ _ h).elim
              · split at h
                · exact (hSkip _ h).elim
                · split at h
                  · unfold parseDecl at h
                    split at h
                    · unfold parseSection at h
                      split at h
                      · simp [Step.evs] at h
                      · simp [Step.evs] at h
                      · split at h
                        · exact (hClose _ _ h).elim
                        · split at h
                          · exact (hClose _ _ h).elim
                          · simp [Step.evs] at h
                    · split at h
                      · exact (hSkip _ h).elim
                      · exact (hSkip _ h).elim
                  · simp [Step.evs] at h
        · simp [Step.evs] at h
      · unfold parseCharref at h
        split at h
        · simp [Step.evs] at h
        · split at h <;> simp [Step.evs] at h
      · unfold parseEntity at h
        split at h
        · simp [Step.evs] at h
        · split at h
          · split at h <;> simp [Step.evs] at h
          · simp [Step.evs] at h
      · simp [Step.evs] at h

/-! ## The whole text -/

theorem goahead_error : ∀ {s : Str} {cdata : Option Str} {prev : Option Char} {k : Nat} {e : PyErr},
    (goahead cdata prev s k).2 = some e → TokErr s e
  | [], _, _, _, _, h => by cases h
  | c :: cs, cdata, prev, k + 1, e, h => by
    rw [goahead] at h
    exact (goahead_error h).mono (List.suffix_cons _ _).isInfix
  | c :: cs, cdata, prev, 0, e, h => by
    rw [goahead] at h
    split at h
    · cases h
    · next e' he =>
      cases h
      exact step_fail (by simp) he
    · exact (goahead_error h).mono (List.suffix_cons _ _).isInfix

theorem goahead_startend {tag : Str} {attrs : List (Str × Option Str)} :
    ∀ {s : Str} {cdata : Option Str} {prev : Option Char} {k : Nat},
    Event.startend tag attrs ∈ (goahead cdata prev s k).1 → ∃ name, '<' :: name <:+: s ∧ tag = lower name
  | [], _, _, _, h => by cases h
  | c :: cs, cdata, prev, k + 1, h => by
    rw [goahead] at h
    obtain ⟨n, h1, h2⟩ := goahead_startend h
    exact ⟨n, h1.trans (List.suffix_cons _ _).isInfix, h2⟩
  | c :: cs, cdata, prev, 0, h => by
    rw [goahead] at h
    split at h
    · next evs he => exact step_startend (s := c :: cs) (by rw [he]; exact h)
    · cases h
    · next evs n cd he =>
      rcases List.mem_append.mp h with h | h
      · exact step_startend (s := c :: cs) (by rw [he]; exact h)
      · obtain ⟨n, h1, h2⟩ := goahead_startend h
        exact ⟨n, h1.trans (List.suffix_cons _ _).isInfix, h2⟩

theorem foldlM_error {bd : List Str} {e : PyErr} : ∀ {evs : List Event} {s : PSt}, evs.foldlM (handle bd) s = .error e →
    ∃ tag attrs, Event.startend tag attrs ∈ evs ∧ (tag = blockPlaceholder ∨ tag = inlinePlaceholder)
  | [], _, h => by cases h
  | ev :: evs, s, h => by
    rw [List.foldlM_cons] at h
    cases hr : handle bd s ev with
    | ok s' =>
      rw [hr] at h
      obtain ⟨t, a, h1, h2⟩ := foldlM_error (s := s') h
      exact ⟨t, a, List.mem_cons_of_mem _ h1, h2⟩
    | error e' =>
      cases ev with
      | startend tag attrs =>
        refine ⟨tag, attrs, List.mem_cons_self, ?_⟩
        rw [handle, handleStartEnd] at hr
        split at hr
        · next hp => simpa using hp
        · cases hr
      | _ => cases hr

theorem runEvents_error {bd : List Str} {t : Str} {e : PyErr} (h : runEvents bd (tokens t).1 (tokens t).2 = .error e) :
    TokErr t e ∨ c!"<blockdata" <:+: lower t ∨ c!"<inlinedata" <:+: lower t := by
  unfold runEvents at h
  cases hr : (tokens t).1.foldlM (handle bd) {} with
  | error e' =>
    obtain ⟨tag, attrs, h1, h2⟩ := foldlM_error hr
    obtain ⟨name, h3, h4⟩ := goahead_startend h1
    have h5 : '<' :: tag <:+: lower t := by
      rw [h4]
      exact List.IsInfix.map lowerAscii h3
    rcases h2 with rfl | rfl
    · exact .inr (.inl h5)
    · exact .inr (.inr h5)
  | ok s =>
    rw [hr] at h
    cases ht : (tokens t).2 with
    | none => rw [ht] at h; cases h
    | some e' =>
      rw [ht] at h
      cases h
      exact .inl (goahead_error ht)

end Verif.Html
