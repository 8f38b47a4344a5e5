import Verif.Spec.Faults
import Verif.Props.Unknown
import Verif.Props.RestLinks

/-!
# C65: the converters fail only for faulty nodes
-/

namespace Verif.Props

open Verif Py Html Emit Spec

/-! ## Computations that keep an invariant or raise -/

/-- from states with `P`, `x` raises an exception with `E` or ends in a state with `Q` -/
def Tri {α : Type} (P : ESt → Prop) (x : EmM α) (Q : ESt → Prop) (E : PyErr → Prop) : Prop :=
  ∀ s, P s → match x s with
    | .ok (_, s') => Q s'
    | .error e => E e

section

variable {α β : Type} {P Q R : ESt → Prop} {E : PyErr → Prop}

theorem Tri.bind {x : EmM α} {g : α → EmM β} (hx : Tri P x Q E) (hg : ∀ a, Tri Q (g a) R E) : Tri P (x >>= g) R E := by
  intro s hs
  rw [bind_run]
  have h := hx s hs
  cases hr : x s with
  | error e => rw [hr] at h; exact h
  | ok r => rw [hr] at h; exact hg r.1 r.2 h

theorem Tri.pure (a : α) : Tri P (Pure.pure a : EmM α) P E := fun _ hs => hs

theorem Tri.raise {e : PyErr} (h : E e) : Tri P (Emit.raise e : EmM α) Q E := fun _ _ => h

theorem Tri.get : Tri P (MonadState.get : EmM ESt) P E := fun _ hs => hs

theorem Tri.modify {g : ESt → ESt} (h : ∀ s, P s → Q (g s)) : Tri P (_root_.modify g : EmM Unit) Q E := fun s hs => h s hs

theorem Tri.ofExcept {x : Except PyErr α} (h : ∀ e, x = .error e → E e) : Tri P (Emit.ofExcept x) P E := by
  cases x with
  | ok a => exact Tri.pure a
  | error e => exact Tri.raise (h e rfl)

theorem Tri.ite {p : Prop} [Decidable p] {x y : EmM α} (hx : Tri P x Q E) (hy : Tri P y Q E) : Tri P (if p then x else y) Q E := by
  split
  · exact hx
  · exact hy

theorem Tri.mono {x : EmM α} {P' Q' : ESt → Prop} (h : Tri P x Q E) (hP : ∀ s, P' s → P s) (hQ : ∀ s, Q s → Q' s) :
    Tri P' x Q' E := by
  intro s hs
  have := h s (hP s hs)
  cases hr : x s with
  | error e => rw [hr] at this; exact this
  | ok r => rw [hr] at this; exact hQ _ this

theorem Tri.weaken {x : EmM α} {E' : PyErr → Prop} (h : Tri P x Q E) (hE : ∀ e, E e → E' e) : Tri P x Q E' := by
  intro s hs
  have := h s hs
  cases hr : x s with
  | error e => rw [hr] at this; exact hE _ this
  | ok r => rw [hr] at this; exact this

end

/-! ## Parts of the methods -/

theorem charref_fails {content : Option Str} {e : PyErr} (h : charrefText content = .error e) :
    ∀ n c, content = some n → ¬ Denotes n c := by
  rintro n c rfl hd
  cases hd with
  | dec ds c hne hall hlen hv =>
    have hx : ∀ hex, n ≠ 'x' :: hex := by
      rintro hex rfl
      exact absurd (hall 'x' (by simp)) (by decide)
    unfold charrefText at h
    split at h
    · next hex heq => exact hx hex (Option.some.inj heq)
    · next name _ heq =>
      cases heq
      rw [replaceNumber, pyInt_digits hne hall hlen, hv] at h
      change (pyChr c.toNat).map (fun c => [c]) = .error e at h
      rw [pyChr_char] at h
      cases h
    · next heq => cases heq
  | hex hs c hne hall hv =>
    rw [charrefText, replaceHex, if_neg, hexNat_eq hall, hv, pyChr_char] at h
    · cases h
    · intro hc
      rcases Bool.or_eq_true _ _ ▸ hc with h1 | h1
      · exact hne (List.isEmpty_iff.mp h1)
      · rw [Bool.not_eq_true', List.all_eq_false] at h1
        obtain ⟨d, hd, h2⟩ := h1
        exact h2 (hexDigit_mem (hall d hd)).2

theorem splitOnce_suffix {c : Char} {a b : Str} : ∀ {s : Str}, splitOnce c s = some (a, b) → b <:+ s
  | [], h => by simp [splitOnce] at h
  | d :: s, h => by
    rw [splitOnce] at h
    split at h
    · cases h
      exact List.suffix_cons _ _
    · cases hr : splitOnce c s with
      | none => rw [hr] at h; cases h
      | some p =>
        rw [hr] at h
        cases h
        exact (splitOnce_suffix hr).trans (List.suffix_cons _ _)

/-- the scheme and the rest in `urlparse` -/
def schemePart (u : Str) : Str × Str :=
  match splitOnce ':' u with
  | some (a, b) =>
    match a with
    | c :: _ => if isAlphaA c && a.all isSchemeChar then (lower a, b) else ([], u)
    | [] => ([], u)
  | none => ([], u)

/-- the network location and the rest in `urlparse` -/
def netlocPart (rest : Str) : Str × Str :=
  if c!"//".isPrefixOf rest then
    let n := (rest.drop 2).takeWhile fun c => !(c = '/' || c = '?' || c = '#')
    (n, (rest.drop 2).drop n.length)
  else ([], rest)

theorem schemePart_suffix (u : Str) : (schemePart u).2 <:+ u := by
  unfold schemePart
  cases hso : splitOnce ':' u with
  | none => exact List.suffix_refl _
  | some p =>
    obtain ⟨a, b⟩ := p
    dsimp only
    cases a with
    | nil => exact List.suffix_refl _
    | cons c a =>
      dsimp only
      split
      · exact splitOnce_suffix hso
      · exact List.suffix_refl _

theorem netlocPart_infix (rest : Str) : (netlocPart rest).1 <:+: rest := by
  unfold netlocPart
  split
  · exact (List.takeWhile_prefix _).isInfix.trans (List.drop_suffix 2 rest).isInfix
  · exact List.nil_infix

theorem urlparse_eq (ok : Str → Bool) (url : Str) : ∃ f : Str → Url, urlparse ok url =
    (fun u => if (netlocPart (schemePart u).2).1.contains '[' != (netlocPart (schemePart u).2).1.contains ']' then .error .valueError
      else if !ok (netlocPart (schemePart u).2).1 then .error .valueError else .ok (f u))
    ((url.dropWhile fun c => c.toNat ≤ 32).filter fun c => !(c = '\t' || c = '\r' || c = '\n')) := by
  refine ⟨fun u =>
    let r := (netlocPart (schemePart u).2).2
    let a := splitAtChar '#' r
    let b := splitAtChar '?' a.1
    let c := if usesParams.contains (schemePart u).1 && b.1.contains ';' then
        ((splitLastSlash b.1).1 ++ (splitAtChar ';' (splitLastSlash b.1).2).1, (splitAtChar ';' (splitLastSlash b.1).2).2)
      else (b.1, [])
    ⟨(schemePart u).1, (netlocPart (schemePart u).2).1, c.1, c.2, b.2, a.2⟩, ?_⟩
  rfl

theorem urlparse_fails {ok : Str → Bool} {url : Str} {e : PyErr} (h : urlparse ok url = .error e) :
    e = .valueError ∧ BadUrl ok url := by
  have key : ∀ (u rest net : Str),
      u = (url.dropWhile fun c => c.toNat ≤ 32).filter (fun c => !(c = '\t' || c = '\r' || c = '\n')) →
      rest <:+ u → net <:+: rest →
      (net.contains '[' != net.contains ']') = true ∨ ok net = false → BadUrl ok url := by
    intro u rest net hu hr hn hbad
    have h1 : net <:+: url.filter (fun c => !(c = '\t' || c = '\r' || c = '\n')) := by
      refine hn.trans (hr.isInfix.trans ?_)
      rw [hu]
      exact (List.IsSuffix.filter _ (List.dropWhile_suffix _)).isInfix
    rcases hbad with hb | hb
    · refine .brackets ?_
      have h2 : ∀ c ∈ net, c ∈ url := fun c hc => (List.mem_filter.mp (h1.subset hc)).1
      by_cases h3 : '[' ∈ net
      · exact .inl (h2 _ h3)
      · by_cases h4 : ']' ∈ net
        · exact .inr (h2 _ h4)
        · simp [h3, h4] at hb
    · exact .netloc net hb h1
  obtain ⟨f, hf⟩ := urlparse_eq ok url
  rw [hf] at h
  dsimp only at h
  generalize hu : (url.dropWhile fun c => decide (c.toNat ≤ 32)).filter (fun c => !(c = '\t' || c = '\r' || c = '\n')) = u at h
  have hrest := schemePart_suffix u
  have hnet := netlocPart_infix (schemePart u).2
  split at h
  · next hb =>
    cases h
    exact ⟨rfl, key u _ _ hu.symm hrest hnet (.inl hb)⟩
  · split at h
    · next hb =>
      cases h
      exact ⟨rfl, key u _ _ hu.symm hrest hnet (.inr (by simpa using hb))⟩
    · cases h

theorem quoteLink_fails {ok : Str → Bool} {url : Str} {e : PyErr} (h : quoteLink ok url = .error e) :
    e = .valueError ∧ BadUrl ok url := by
  rw [quoteLink] at h
  cases hu : urlparse ok url with
  | error e' =>
    rw [hu] at h
    have : e' = e := by simpa [Bind.bind, Except.bind] using h
    subst this
    exact urlparse_fails hu
  | ok u => rw [hu] at h; cases h

/-! ## The invariant -/

/-- `t`: there is a table; the recorded links and pictures are nodes of `all` -/
structure Known (all : List HInfo) (t : Prop) (s : ESt) : Prop where
  table : t → s.table ≠ none
  links : ∀ k v, dictGet k s.usedLinks = some v → ∃ j ∈ all, j.kind = c!"a" ∧ dictGet c!"href" j.attrs = some v
  images : ∀ k v, dictGet k s.usedImages = some v → ∃ j ∈ all, j.kind = c!"img" ∧ dictGet c!"src" j.attrs = some v

/-- changes of the other attributes -/
theorem Known.of_eq {all : List HInfo} {t : Prop} {s s' : ESt} (h : Known all t s) (h1 : s'.table = s.table)
    (h2 : s'.usedLinks = s.usedLinks) (h3 : s'.usedImages = s.usedImages) : Known all t s' :=
  ⟨by rw [h1]; exact h.table, by rw [h2]; exact h.links, by rw [h3]; exact h.images⟩

theorem Known.setTable {all : List HInfo} {t t' : Prop} {s : ESt} (h : Known all t s) (x : Table) :
    Known all t' { s with table := some x } := ⟨fun _ => by simp, h.links, h.images⟩

theorem Known.mono {all : List HInfo} {t t' : Prop} {s : ESt} (h : Known all t s) (ht : t' → t) : Known all t' s :=
  ⟨fun h' => h.table (ht h'), h.links, h.images⟩

theorem tri_setLast {all : List HInfo} {t : Prop} {E : PyErr → Prop} (i : HInfo) :
    Tri (Known all t) (setLast i) (Known all t) E := Tri.modify fun _ hs => hs.of_eq rfl rfl rfl

theorem tri_levelM {P : ESt → Prop} {E : PyErr → Prop} {i : HInfo} (h : i.level = none → E (.typeError [])) :
    Tri P (levelM i) P E := by
  unfold levelM
  split
  · exact Tri.pure _
  · next hn => exact Tri.raise (h hn)

theorem tri_getBlockData {all : List HInfo} {t : Prop} {E : PyErr → Prop} :
    Tri (Known all t) getBlockData (Known all t) E := by
  unfold getBlockData
  exact Tri.get.bind fun s => (Tri.modify fun _ hs => hs.of_eq rfl rfl rfl).bind fun _ => Tri.pure _

theorem tri_preEmit {all : List HInfo} {t : Prop} {E : PyErr → Prop} (lang : Lang) (anc : List Str) :
    Tri (Known all t) (preEmit lang anc) (Known all t) E := by
  rw [preEmit]
  split
  · rw [flushSubst]
    exact Tri.get.bind fun s => Tri.ite (tri_getBlockData.bind fun _ => Tri.pure _) (Tri.pure _)
  · exact Tri.pure _

/-- read the table, change it -/
theorem tri_changeTable {all : List HInfo} {t : Prop} {E : PyErr → Prop} (f : Table → Table) (h : ¬ t → E .attributeError) :
    Tri (Known all t) (getTable >>= fun x => setTable (f x)) (Known all t) E := by
  intro s hs
  rw [bind_run, getTable, bind_run, get_run]
  dsimp only
  cases ht : s.table with
  | none =>
    dsimp only
    exact h fun h' => hs.table h' ht
  | some x => exact hs.setTable _

theorem tri_deentityM {P : ESt → Prop} {E : PyErr → Prop} {c : Option Str} (h : ∀ t e, c = some t → replaceAll t = .error e → E e)
    (hn : c = none → E (.typeError [])) : Tri P (deentityM c) P E := by
  unfold deentityM
  split
  · exact Tri.ofExcept fun e he => h _ e rfl he
  · exact Tri.raise (hn rfl)

theorem Tri.raise_bind {α β : Type} {P Q : ESt → Prop} {E : PyErr → Prop} {e : PyErr} (h : E e) (g : α → EmM β) :
    Tri P (Emit.raise e >>= g) Q E := (Tri.raise (Q := fun _ => False) h).bind fun _ _ hs => hs.elim

theorem tri_imgSrc {P Q : ESt → Prop} {E : PyErr → Prop} {attrs : Dict (Option Str)}
    (h : dictGet c!"src" attrs = none → E .keyError) (h' : dictGet c!"src" attrs = some none → E .attributeError)
    {g : Option Str → EmM Str} (hn : Tri P (g none) Q E)
    (hg : ∀ src, dictGet c!"src" attrs = some (some src) → Tri P (g (some src)) Q E) : Tri P (imgSrc attrs >>= g) Q E := by
  unfold imgSrc
  split
  · next he => exact Tri.raise_bind (h he) g
  · next he => exact Tri.raise_bind (h' he) g
  · next src he =>
    split
    · rw [pure_bind]
      exact hn
    · rw [pure_bind]
      exact hg src he

theorem tri_imgText {P : ESt → Prop} {E : PyErr → Prop} {attrs : Dict (Option Str)} {src : Str}
    (h : dictGet c!"alt" attrs = some none ∨ dictGet c!"title" attrs = some none → E (.typeError [])) :
    Tri P (imgText attrs src) P E := by
  unfold imgText
  split
  · exact Tri.ite (Tri.pure _) (Tri.pure _)
  · next hc =>
    refine Tri.raise (h ?_)
    rcases ha : dictGet c!"alt" attrs with _ | _ | a
    · rcases ht : dictGet c!"title" attrs with _ | _ | b
      · exact (hc [] [] (by rw [ha]; rfl) (by rw [ht]; rfl)).elim
      · exact .inr rfl
      · exact (hc [] b (by rw [ha]; rfl) (by rw [ht]; rfl)).elim
    · exact .inl rfl
    · rcases ht : dictGet c!"title" attrs with _ | _ | b
      · exact (hc a [] (by rw [ha]; rfl) (by rw [ht]; rfl)).elim
      · exact .inr rfl
      · exact (hc a b (by rw [ha]; rfl) (by rw [ht]; rfl)).elim

theorem tri_quoteAttr {P : ESt → Prop} {E : PyErr → Prop} {cfg : Cfg} {v : Option (Option Str)} (h : v = none → E .keyError)
    (h' : ∀ u, v = some (some u) → BadUrl cfg.netlocOk u → E .valueError) : Tri P (quoteAttr cfg v) P E := by
  unfold quoteAttr
  split
  · exact Tri.raise (h rfl)
  · exact Tri.pure _
  · refine Tri.ofExcept fun e he => ?_
    obtain ⟨rfl, hb⟩ := quoteLink_fails he
    exact h' _ rfl hb

theorem tri_deentity_pre {P : ESt → Prop} {cfg : Cfg} {all : List HInfo} {anc : List Str} {i : HInfo}
    (hk : i.kind = c!"blockdata_pre" ∨ i.kind = c!"inlinedata_pre") : Tri P (deentityM i.content) P (Fault cfg all anc i) := by
  refine tri_deentityM (fun t e hc he => ?_) fun hc => .noPre _ hk hc
  obtain ⟨before, ref, rest, h1, h2⟩ := C32_only_bad_references_fail t e he
  exact .pre t before ref rest e hk hc h1 h2

/-- the tag of a method, for the methods that only one tag has -/
def methKind : Meth → Option Str
  | .blockPre => c!"blockdata_pre"
  | .inlinePre => c!"inlinedata_pre"
  | .data => c!"data"
  | .charref => c!"charref"
  | .headline => c!"headline"
  | .a => c!"a"
  | .img => c!"img"
  | .code => c!"code"
  | .li => c!"li"
  | .table => c!"table"
  | .tr => c!"tr"
  | .th => c!"th"
  | .td => c!"td"
  | _ => none

theorem methKind_table : ∀ lang : Lang, ∀ km ∈ methTable lang, (methKind km.2).all (· == km.1)
  | .creole => by decide +kernel
  | .textile => by decide +kernel
  | .markdown => by decide +kernel
  | .rest => by decide +kernel

theorem methKind_eq {lang : Lang} {kind k : Str} {m : Meth} (h : methodOf lang kind = some m) (hm : methKind m = some k) :
    kind = k := by
  have := methKind_table lang (kind, m) (lookup_mem h)
  rw [hm] at this
  exact (beq_iff_eq.mp this).symm

/-- what `_get_old_substitution` records -/
theorem dict_record {all : List HInfo} {Q : HInfo → Option Str → Prop} {d d' : Dict (Option Str)} {text : Str} {url old : Option Str}
    (h : ∀ k v, dictGet k d = some v → ∃ j ∈ all, Q j v) (hu : ∃ j ∈ all, Q j url) (ho : oldSubst d text url = .ok (old, d')) :
    ∀ k v, dictGet k d' = some v → ∃ j ∈ all, Q j v := by
  intro k v hk
  rcases oldSubst_ok ho with ⟨_, _, rfl⟩ | ⟨_, _, rfl⟩
  · rw [dictGet_set] at hk
    split at hk
    · cases hk
      exact hu
    · exact h k v hk
  · exact h k v hk

theorem tri_restLink {all : List HInfo} {t : Prop} {cfg : Cfg} {anc : List Str} {i : HInfo} {E : PyErr → Prop} {ch : EmM Str}
    (hl : cfg.lang = .rest) (hk : i.kind = c!"a") (hi : i ∈ all) (hE : ∀ e, Fault cfg all anc i e → E e)
    (hch : Tri (Known all t) ch (Known all t) E) :
    Tri (Known all t) (restLink anc i.attrs ch) (Known all t) E := by
  rw [restLink]
  refine hch.bind fun text => ?_
  split
  · next hn => exact Tri.raise (hE _ (.noHref (by rw [hl]; decide) hk hn))
  · next url hu =>
    intro s hs
    rw [bind_run, get_run]
    dsimp only
    rw [bind_run, ofExcept_run]
    cases ho : oldSubst s.usedLinks text url with
    | error e =>
      obtain ⟨rfl, o, h1, h2⟩ := oldSubst_error ho
      obtain ⟨j, hj, hjk, hjv⟩ := hs.links text o h1
      exact hE _ (.twoTargets url o j hl hk hu hj hjk hjv h2)
    | ok r =>
      obtain ⟨old, d⟩ := r
      dsimp only [Except.map]
      rw [bind_run, modify_run]
      dsimp only
      have hs2 : Known all t { s with usedLinks := d } :=
        ⟨hs.table, dict_record (Q := fun j v => j.kind = c!"a" ∧ dictGet c!"href" j.attrs = some v) hs.links
          ⟨i, hi, hk, hu⟩ ho, hs.images⟩
      revert hs2
      generalize ({ s with usedLinks := d } : ESt) = s2
      revert s2
      exact Tri.ite (Tri.ite ((Tri.modify fun _ hs => hs.of_eq rfl rfl rfl).bind fun _ => Tri.pure _) (Tri.pure _))
        (Tri.ite (Tri.pure _) (Tri.pure _))

theorem tri_restImg {all : List HInfo} {t : Prop} {cfg : Cfg} {anc : List Str} {i : HInfo}
    (hl : cfg.lang = .rest) (hk : i.kind = c!"img") (hi : i ∈ all) :
    Tri (Known all t) (restImg i.attrs) (Known all t) (Fault cfg all anc i) := by
  have hm : cfg.lang ≠ .markdown := by rw [hl]; decide
  rw [restImg]
  refine tri_imgSrc (.noSrc hk) (.emptySrc hm hk) (Tri.pure _) fun src hsrc => ?_
  dsimp only
  refine (tri_imgText (.emptyText hm hk)).bind fun text => ?_
  intro s hs
  rw [bind_run, get_run]
  dsimp only
  rw [bind_run, ofExcept_run]
  cases ho : oldSubst s.usedImages text (some src) with
  | error e =>
    obtain ⟨rfl, o, h1, h2⟩ := oldSubst_error ho
    obtain ⟨j, hj, hjk, hjv⟩ := hs.images text o h1
    exact .twoPictures (some src) o j hl hk hsrc hj hjk hjv h2
  | ok r =>
    obtain ⟨old, d⟩ := r
    dsimp only [Except.map]
    rw [bind_run, modify_run]
    dsimp only
    have hs2 : Known all t { s with usedImages := d } :=
      ⟨hs.table, hs.links, dict_record (Q := fun j v => j.kind = c!"img" ∧ dictGet c!"src" j.attrs = some v) hs.images
        ⟨i, hi, hk, hsrc⟩ ho⟩
    revert hs2
    generalize ({ s with usedImages := d } : ESt) = s2
    revert s2
    exact Tri.ite ((Tri.modify fun _ hs => hs.of_eq rfl rfl rfl).bind fun _ => Tri.pure _) (Tri.pure _)

/-! ## One method -/

theorem tri_leaf {cfg : Cfg} {all : List HInfo} {t : Prop} {anc : List Str} {i : HInfo} {m : Meth}
    (hm : methodOf cfg.lang i.kind = some m) (hi : i ∈ all) (h : m.usesChildren = false) (ch : EmM Str) :
    Tri (Known all t) (runMeth cfg anc i m ch) (Known all t) (Fault cfg all anc i) := by
  cases m with
  | blockPre =>
    have hk := methKind_eq hm (k := c!"blockdata_pre") rfl
    rw [runMeth, blockPreEmit]
    refine (tri_deentity_pre (.inl hk)).bind fun t => ?_
    split <;> exact Tri.pure _
  | inlinePre =>
    have hk := methKind_eq hm (k := c!"inlinedata_pre") rfl
    rw [runMeth]
    unfold inlinePreEmit
    split
    · exact (tri_deentity_pre (.inr hk)).bind fun t => Tri.pure _
    · exact (tri_deentity_pre (.inr hk)).bind fun t => Tri.pure _
    · exact (tri_deentity_pre (.inr hk)).bind fun t => Tri.pure _
    · next hl =>
      unfold mdInlinePre
      split
      · next hn => exact Tri.raise (.noPre _ (.inr hk) hn)
      · next pre hc =>
        split
        · next hs =>
          have hf : ∀ e, Fault cfg all anc i e := fun e => .code pre e hl hk hc (List.isSuffixOf_iff_suffix.mp hs)
          refine (Tri.ofExcept fun e _ => hf e).bind fun root => ?_
          split
          · exact Tri.raise (hf _)
          · split
            · exact Tri.raise (hf _)
            · refine (tri_deentityM (fun _ e _ _ => hf e) fun _ => hf _).bind fun t => ?_
              split <;> exact Tri.pure _
        · refine (Tri.ofExcept fun e he => ?_).bind fun t => Tri.pure _
          obtain ⟨before, ref, rest, h1, h2⟩ := C32_only_bad_references_fail pre e he
          exact .pre pre before ref rest e (.inr hk) hc h1 h2
  | blockPass => exact Tri.ite (Tri.pure _) (Tri.pure _)
  | data =>
    have hk := methKind_eq hm (k := c!"data") rfl
    rw [runMeth]
    split
    · next hn => exact Tri.raise (.data hk hn)
    · exact Tri.ite (Tri.pure _) (Tri.pure _)
  | entityref => exact Tri.pure _
  | charref =>
    have hk := methKind_eq hm (k := c!"charref") rfl
    exact Tri.ofExcept fun e he => .charref e hk (charref_fails he)
  | br => exact Tri.get.bind fun s => Tri.ite (Tri.pure _) (Tri.pure _)
  | hr => exact Tri.ite (Tri.pure _) (Tri.pure _)
  | img =>
    have hk := methKind_eq hm (k := c!"img") rfl
    rw [runMeth]
    split
    · next hl =>
      have hm : cfg.lang ≠ .markdown := by rw [hl]; decide
      rw [creoleImg]
      refine tri_imgSrc (.noSrc hk) (.emptySrc hm hk) (Tri.pure _) fun src hsrc => ?_
      dsimp only
      refine (tri_imgText (.emptyText hm hk)).bind fun text => ?_
      split <;> exact Tri.pure _
    · next hl =>
      have hm : cfg.lang ≠ .markdown := by rw [hl]; decide
      rw [textileImg]
      refine tri_imgSrc (.noSrc hk) (.emptySrc hm hk) (Tri.pure _) fun src hsrc => ?_
      dsimp only
      exact (tri_imgText (.emptyText hm hk)).bind fun text => Tri.pure _
    · next hl =>
      rw [mdImg]
      refine (tri_quoteAttr (.noSrc hk) fun u hu hb => .url u hl (.inr ⟨hk, hu⟩) hb).bind fun src => ?_
      dsimp only
      split <;> exact Tri.pure _
    · next hl => exact tri_restImg hl hk hi
  | _ => simp [Meth.usesChildren] at h

theorem mdCode_ok {P : ESt → Prop} {E : PyErr → Prop} {ch : EmM Str} (h : Tri P ch P E) : Tri P (mdCode c!"code" ch) P E := by
  rw [mdCode]
  refine h.bind fun c => ?_
  dsimp only
  have hn : '\n' ∉ emitContent c!"code" c := by
    rw [emitContent_eq, if_neg (by decide)]
    exact oneLine_newline _
  rw [if_neg (by simpa using hn)]
  exact Tri.ite (Tri.pure _) (Tri.pure _)

theorem tri_method {cfg : Cfg} {all : List HInfo} {anc : List Str} {i : HInfo} {m : Meth} {E : PyErr → Prop}
    (hm : methodOf cfg.lang i.kind = some m) (hi : i ∈ all) (hE : ∀ e, Fault cfg all anc i e → E e)
    {ch : EmM Str} (hch : Tri (Known all (c!"table" ∈ i.kind :: anc)) ch (Known all (c!"table" ∈ i.kind :: anc)) E) :
    Tri (Known all (c!"table" ∈ anc)) (runMeth cfg anc i m ch) (Known all (c!"table" ∈ anc)) E := by
  by_cases htab : m = .table
  · subst htab
    have hk := methKind_eq hm (k := c!"table") rfl
    have ht : c!"table" ∈ i.kind :: anc := by rw [hk]; exact List.mem_cons_self
    rw [runMeth]
    unfold tableEmit
    refine Tri.bind (Q := Known all (c!"table" ∈ i.kind :: anc)) (Tri.modify fun s hs => hs.setTable _) fun _ =>
      hch.bind fun _ => Tri.bind (Q := Known all (c!"table" ∈ i.kind :: anc)) (fun s hs => ?_) fun x => ?_
    · rw [getTable, bind_run, get_run]
      dsimp only
      cases hx : s.table with
      | none => exact (hs.table ht hx).elim
      | some x => exact hs
    · refine Tri.mono (P := Known all (c!"table" ∈ i.kind :: anc)) (Q := Known all (c!"table" ∈ i.kind :: anc)) ?_ (fun _ h => h)
        fun s hs => hs.mono fun h => List.mem_cons_of_mem _ h
      split <;> exact Tri.pure _
  · by_cases hleaf : m.usesChildren = false
    · exact (tri_leaf hm hi hleaf ch).weaken hE
    · have hne : i.kind ≠ c!"table" := by
        intro hk
        rw [hk, method_table] at hm
        exact htab (Option.some.inj hm).symm
      have hsame : (c!"table" ∈ i.kind :: anc) = (c!"table" ∈ anc) := by
        rw [List.mem_cons]
        exact propext ⟨fun h => h.resolve_left fun h' => hne h'.symm, .inr⟩
      rw [hsame] at hch
      cases m with
      | p =>
        rw [runMeth]
        refine hch.bind fun c => ?_
        split
        · exact Tri.get.bind fun s => Tri.ite (Tri.pure _) (Tri.pure _)
        · exact Tri.pure _
        · exact Tri.pure _
      | headline =>
        have hk := methKind_eq hm (k := c!"headline") rfl
        have hlev : i.level = none → E (.typeError []) := fun hn => hE _ (.level (.inl hk) hn)
        rw [runMeth]
        unfold headlineEmit
        split
        · exact (tri_levelM hlev).bind fun l => hch.bind fun c => Tri.pure _
        · exact (tri_levelM hlev).bind fun l => hch.bind fun c => Tri.pure _
        · exact (tri_levelM hlev).bind fun l => hch.bind fun c => Tri.pure _
        · next hl =>
          rw [restHeadline]
          refine hch.bind fun c => ?_
          unfold levelM
          split
          · next n hn =>
            rw [pure_bind]
            dsimp only
            split
            · next hd =>
              refine Tri.raise (hE _ (.smallLevel n hl hk hn ?_))
              apply Int.not_lt.mp
              intro hpos
              by_cases h6 : n > 6
              · rw [if_pos h6] at hd
                cases hd
              · rw [if_neg h6] at hd
                have h7 : n = 1 ∨ n = 2 ∨ n = 3 ∨ n = 4 ∨ n = 5 ∨ n = 6 := by omega
                rcases h7 with rfl | rfl | rfl | rfl | rfl | rfl <;> cases hd
            · split <;> exact Tri.pure _
          · next hn => exact Tri.raise_bind (hlev hn) _
      | typeface key => exact hch.bind fun c => Tri.pure _
      | typefaceHtml tag => exact hch.bind fun c => Tri.pure _
      | children => exact hch
      | content => exact hch.bind fun c => Tri.pure _
      | a =>
        have hk := methKind_eq hm (k := c!"a") rfl
        rw [runMeth]
        split
        · rw [creoleLink]
          refine hch.bind fun c => ?_
          split
          · exact Tri.pure _
          · exact Tri.ite (Tri.pure _) (Tri.pure _)
        · next hl =>
          rw [textileLink]
          refine hch.bind fun c => ?_
          split
          · next hn => exact Tri.raise (hE _ (.noHref (by rw [hl]; decide) hk hn))
          · exact Tri.pure _
        · next hl =>
          rw [mdLink]
          refine hch.bind fun c => (tri_quoteAttr (fun hn => hE _ (.noHref (by rw [hl]; decide) hk hn))
            fun u hu hb => hE _ (.url u hl (.inl ⟨hk, hu⟩) hb)).bind fun url => ?_
          split <;> exact Tri.pure _
        · next hl => exact tri_restLink hl hk hi hE hch
      | code =>
        have hk := methKind_eq hm (k := c!"code") rfl
        rw [runMeth]
        split
        · rw [hk]
          exact mdCode_ok hch
        · exact hch.bind fun c => Tri.pure _
      | li =>
        have hk := methKind_eq hm (k := c!"li") rfl
        have hb : Tri (Known all (c!"table" ∈ anc)) (baseLi ch) (Known all (c!"table" ∈ anc)) E :=
          hch.bind fun c => Tri.get.bind fun s => Tri.pure _
        rw [runMeth]
        split
        · exact hb
        · exact hb
        · next hl =>
          have hlev : i.level = none → E (.typeError []) := fun hn => hE _ (.level (.inr ⟨hk, .inl hl⟩) hn)
          have hrest : ∀ m : Str, Tri (Known all (c!"table" ∈ anc)) (do
              let level ← levelM i
              let content ← ch
              return '\n' :: rep c!"  " (level - 1).toNat ++ m ++ ' ' :: content) (Known all (c!"table" ∈ anc)) E :=
            fun m => (tri_levelM hlev).bind fun l => hch.bind fun c => Tri.pure _
          unfold mdLi
          split
          · next k hh =>
            obtain ⟨ps, hps⟩ : ∃ ps, anc = k :: ps := by
              cases anc with
              | nil => cases hh
              | cons p ps => cases hh; exact ⟨ps, rfl⟩
            split
            · exact (Tri.pure _).bind fun m => hrest m
            · next h1 =>
              split
              · exact (Tri.pure _).bind fun m => hrest m
              · next h2 => exact Tri.raise_bind (hE _ (.item k ps hl hk hps h1 h2)) _
          · next hh =>
            refine Tri.raise_bind (hE _ (.rootItem hl hk ?_)) _
            cases anc with
            | nil => rfl
            | cons p ps => cases hh
        · next hl =>
          have hlev : i.level = none → E (.typeError []) := fun hn => hE _ (.level (.inr ⟨hk, .inr hl⟩) hn)
          exact hch.bind fun c => (tri_levelM hlev).bind fun l => Tri.get.bind fun s => Tri.pure _
      | list marker =>
        have hb : Tri (Known all (c!"table" ∈ anc)) (baseList marker ch) (Known all (c!"table" ∈ anc)) E := by
          rw [baseList]
          refine Tri.get.bind fun s => ?_
          dsimp only
          refine (Tri.modify fun _ hs => hs.of_eq rfl rfl rfl).bind fun _ => hch.bind fun c =>
            (Tri.modify fun _ hs => hs.of_eq rfl rfl rfl).bind fun _ => Tri.get.bind fun s => ?_
          exact Tri.ite (Tri.ite (Tri.pure _) (Tri.pure _)) (Tri.pure _)
        rw [runMeth]
        split
        · exact hb
        · exact hb
        · exact hch.bind fun c => Tri.ite (Tri.pure _) (Tri.pure _)
        · exact (Tri.modify fun _ hs => hs.of_eq rfl rfl rfl).bind fun _ => hch.bind fun c => Tri.ite (Tri.pure _) (Tri.pure _)
      | tr =>
        have hk := methKind_eq hm (k := c!"tr") rfl
        rw [runMeth, ← bind_assoc]
        exact (tri_changeTable _ fun h => hE _ (.cell (.inl hk) h)).bind fun _ => hch.bind fun _ => Tri.pure _
      | th =>
        have hk := methKind_eq hm (k := c!"th") rfl
        rw [runMeth]
        refine hch.bind fun c => ?_
        dsimp only
        rw [← bind_assoc]
        exact (tri_changeTable _ fun h => hE _ (.cell (.inr (.inl hk)) h)).bind fun _ => Tri.pure _
      | td =>
        have hk := methKind_eq hm (k := c!"td") rfl
        rw [runMeth]
        refine hch.bind fun c => ?_
        dsimp only
        rw [← bind_assoc]
        exact (tri_changeTable _ fun h => hE _ (.cell (.inr (.inr hk)) h)).bind fun _ => Tri.pure _
      | document =>
        rw [runMeth]
        split
        · rw [restDocument]
          refine hch.bind fun c => Tri.get.bind fun s => ?_
          exact Tri.ite (tri_getBlockData.bind fun _ => Tri.pure _) (Tri.pure _)
        · exact hch
      | table => exact (htab rfl).elim
      | _ => exact (hleaf rfl).elim

/-! ## Trees -/

mutual

theorem tri_emitNode (cfg : Cfg) (all : List HInfo) (anc : List Str) : ∀ n : HNode, (∀ j ∈ visited n, j ∈ all) →
    Tri (Known all (c!"table" ∈ anc)) (emitNode cfg anc n) (Known all (c!"table" ∈ anc))
      (fun e => ∃ p ∈ contexts anc n, Fault cfg all p.1 p.2 e)
  | .mk i children => by
    intro hall
    have hi : i ∈ all := hall i (by rw [visited]; exact List.mem_cons_self)
    rw [emitNode_run]
    refine (tri_preEmit _ _).bind fun pre => Tri.bind ?_ fun t => (tri_setLast i).bind fun _ => Tri.pure _
    have hE : ∀ e, Fault cfg all anc i e → ∃ p ∈ contexts anc (.mk i children), Fault cfg all p.1 p.2 e :=
      fun e he => ⟨(anc, i), by rw [contexts]; exact List.mem_cons_self, he⟩
    have hch : leafKinds.contains i.kind = false →
        Tri (Known all (c!"table" ∈ i.kind :: anc)) (setLast i >>= fun _ => emitNodes cfg (i.kind :: anc) children)
          (Known all (c!"table" ∈ i.kind :: anc)) (fun e => ∃ p ∈ contexts anc (.mk i children), Fault cfg all p.1 p.2 e) := by
      intro hleaf
      refine (tri_setLast i).bind fun _ => (tri_emitNodes cfg all (i.kind :: anc) children fun j hj => hall j ?_).weaken ?_
      · rw [visited, hleaf]
        exact List.mem_cons_of_mem _ hj
      · rintro e ⟨p, hp, hf⟩
        refine ⟨p, ?_, hf⟩
        rw [contexts, hleaf]
        exact List.mem_cons_of_mem _ hp
    rw [runNode]
    cases hm : methodOf cfg.lang i.kind with
    | some m =>
      dsimp only
      cases hu : m.usesChildren with
      | true =>
        refine tri_method hm hi hE (hch ?_)
        rw [usesChildren_iff hm] at hu
        simpa using hu
      | false => exact (tri_leaf hm hi hu _).weaken hE
    | none =>
      dsimp only
      have hun : i.kind ∉ knownKinds cfg.lang := by
        intro h
        obtain ⟨m, h'⟩ := methodOf_known h
        rw [hm] at h'
        cases h'
      have hne : i.kind ≠ c!"table" := by
        intro hk
        rw [hk, method_table] at hm
        cases hm
      have hsame : (c!"table" ∈ i.kind :: anc) = (c!"table" ∈ anc) := by
        rw [List.mem_cons]
        exact propext ⟨fun h => h.resolve_left fun h' => hne h'.symm, .inr⟩
      have hch' := hch (leaf_known hun)
      rw [hsame] at hch'
      rw [unknownEmit]
      refine hch'.bind fun c => ?_
      split
      · exact Tri.pure _
      · next hp => exact Tri.raise (hE _ (.unknown hp hun))
      · exact Tri.pure _
      · exact Tri.pure _
      · exact Tri.pure _

theorem tri_emitNodes (cfg : Cfg) (all : List HInfo) (anc : List Str) : ∀ ns : List HNode, (∀ j ∈ visitedL ns, j ∈ all) →
    Tri (Known all (c!"table" ∈ anc)) (emitNodes cfg anc ns) (Known all (c!"table" ∈ anc))
      (fun e => ∃ p ∈ contextsL anc ns, Fault cfg all p.1 p.2 e)
  | [] => by intro _; rw [emitNodes_nil]; exact Tri.pure _
  | n :: ns => by
    intro hall
    rw [emitNodes_cons]
    rw [visitedL] at hall
    refine ((tri_emitNode cfg all anc n fun j hj => hall j (List.mem_append.mpr (.inl hj))).weaken ?_).bind fun a =>
      ((tri_emitNodes cfg all anc ns fun j hj => hall j (List.mem_append.mpr (.inr hj))).weaken ?_).bind fun b => Tri.pure _
    · rintro e ⟨p, hp, hf⟩
      exact ⟨p, by rw [contextsL]; exact List.mem_append.mpr (.inl hp), hf⟩
    · rintro e ⟨p, hp, hf⟩
      exact ⟨p, by rw [contextsL]; exact List.mem_append.mpr (.inr hp), hf⟩

end

/-! ## The theorems -/

/-- **C65**: if a converter raises an exception for a document tree then the tree contains a node that accounts for it. -/
theorem C65_only_faulty_nodes_fail (cfg : Cfg) (root : HNode) (e : PyErr) (h : emit cfg root = .error e) :
    ∃ anc i, (anc, i) ∈ contexts [] root ∧ Fault cfg (visited root) anc i e := by
  have ht := tri_emitNode cfg (visited root) [] root (fun _ h => h) {}
    ⟨fun h => (by cases h), fun k v h => (by cases h), fun k v h => (by cases h)⟩
  rw [emit_eq] at h
  cases hr : emitNode cfg [] root {} with
  | error e' =>
    rw [hr] at ht h
    cases h
    obtain ⟨p, hp, hf⟩ := ht
    exact ⟨p.1, p.2, hp, hf⟩
  | ok r => rw [hr] at h; cases h

/-- **C65**: a document without such nodes is converted. -/
theorem C65_converts (cfg : Cfg) (root : HNode)
    (h : ∀ anc i e, (anc, i) ∈ contexts [] root → ¬ Fault cfg (visited root) anc i e) : ∃ text, emit cfg root = .ok text := by
  cases hr : emit cfg root with
  | ok t => exact ⟨t, rfl⟩
  | error e =>
    obtain ⟨anc, i, h1, h2⟩ := C65_only_faulty_nodes_fail cfg root e hr
    exact (h anc i e h1 h2).elim

/-! ## Nodes that always fail -/

/-- `x` raises an exception in every state -/
def Fails {α : Type} (x : EmM α) : Prop := ∀ s, ∃ e, x s = .error e

theorem Fails.raise {α : Type} (e : PyErr) : Fails (Emit.raise e : EmM α) := fun _ => ⟨e, rfl⟩

theorem Fails.left {α β : Type} {x : EmM α} (h : Fails x) (g : α → EmM β) : Fails (x >>= g) := by
  intro s
  obtain ⟨e, he⟩ := h s
  exact ⟨e, by rw [bind_run, he]⟩

theorem Fails.right {α β : Type} (x : EmM α) {g : α → EmM β} (h : ∀ a, Fails (g a)) : Fails (x >>= g) := by
  intro s
  rw [bind_run]
  cases x s with
  | error e => exact ⟨e, rfl⟩
  | ok r => exact h r.1 r.2

theorem fails_levelM {i : HInfo} (h : i.level = none) : Fails (levelM i) := by
  unfold levelM
  rw [h]
  exact Fails.raise _

theorem fails_imgSrc {attrs : Dict (Option Str)} (h : ∀ src, dictGet c!"src" attrs ≠ some (some src)) : Fails (imgSrc attrs) := by
  unfold imgSrc
  split
  · exact Fails.raise _
  · exact Fails.raise _
  · next src he => exact (h src he).elim

theorem fails_quoteAttr (cfg : Cfg) : Fails (quoteAttr cfg none) := Fails.raise _

theorem fails_node {cfg : Cfg} {anc : List Str} {i : HInfo} (h : SureFault cfg anc i) (ch : EmM Str) :
    Fails (runNode cfg anc i ch) := by
  have hrun : ∀ m, methodOf cfg.lang i.kind = some m → runNode cfg anc i ch = runMeth cfg anc i m ch := by
    intro m hm
    rw [runNode, hm]
  cases h with
  | unknown hp hk =>
    rw [runNode, methodOf_unknown hk]
    dsimp only
    rw [unknownEmit, hp]
    exact Fails.right _ fun c => Fails.raise _
  | data hk hc =>
    rw [hrun .data (by rw [hk]; cases cfg.lang <;> rfl), runMeth, hc]
    exact Fails.raise _
  | noPre hk hc =>
    rcases hk with hk | hk
    · rw [hrun .blockPre (by rw [hk]; cases cfg.lang <;> rfl), runMeth, blockPreEmit, hc]
      exact (Fails.raise _).left _
    · rw [hrun .inlinePre (by rw [hk]; cases cfg.lang <;> rfl), runMeth, hc]
      cases cfg.lang
      · exact (Fails.raise _).left _
      · exact (Fails.raise _).left _
      · exact Fails.raise _
      · exact (Fails.raise _).left _
  | level hk hn =>
    rcases hk with hk | ⟨hk, hl⟩
    · rw [hrun .headline (by rw [hk]; cases cfg.lang <;> rfl), runMeth]
      cases cfg.lang
      · exact (fails_levelM hn).left _
      · exact (fails_levelM hn).left _
      · exact (fails_levelM hn).left _
      · exact Fails.right _ fun c => (fails_levelM hn).left _
    · rw [hrun .li (by rw [hk]; cases cfg.lang <;> rfl), runMeth]
      rcases hl with hl | hl
      · rw [hl]
        dsimp only
        unfold mdLi
        split
        · split
          · exact Fails.right _ fun m => (fails_levelM hn).left _
          · split
            · exact Fails.right _ fun m => (fails_levelM hn).left _
            · exact (Fails.raise _).left _
        · exact (Fails.raise _).left _
      · rw [hl]
        exact Fails.right _ fun m => (fails_levelM hn).left _
  | smallLevel n hl hk hn h0 =>
    rw [hrun .headline (by rw [hk]; cases cfg.lang <;> rfl), runMeth, hl]
    dsimp only [headlineEmit]
    rw [restHeadline]
    refine Fails.right _ fun c => ?_
    unfold levelM
    rw [hn]
    dsimp only
    rw [pure_bind, if_neg (by omega)]
    have hd : headlineData n = none := by
      unfold headlineData
      split <;> first | omega | rfl
    rw [hd]
    exact Fails.raise _
  | item hl hk ha =>
    rw [hrun .li (by rw [hk]; cases cfg.lang <;> rfl), runMeth, hl]
    dsimp only
    unfold mdLi
    cases hh : anc.head? with
    | none => exact (Fails.raise _).left _
    | some p =>
      dsimp only
      obtain ⟨h1, h2⟩ := ha p hh
      rw [if_neg h1, if_neg h2]
      exact (Fails.raise _).left _
  | noHref hl hk hn =>
    rw [hrun .a (by rw [hk]; cases cfg.lang <;> rfl), runMeth]
    cases hc : cfg.lang with
    | creole => exact (hl hc).elim
    | textile =>
      dsimp only
      rw [textileLink, hn]
      exact Fails.right _ fun c => Fails.raise _
    | markdown =>
      dsimp only
      rw [mdLink, hn]
      exact Fails.right _ fun c => (fails_quoteAttr cfg).left _
    | rest =>
      dsimp only
      rw [restLink, hn]
      exact Fails.right _ fun c => Fails.raise _
  | noSrc hk hn =>
    rw [hrun .img (by rw [hk]; cases cfg.lang <;> rfl), runMeth]
    have hs : Fails (imgSrc i.attrs) := fails_imgSrc fun src => by rw [hn]; simp
    cases cfg.lang with
    | creole => exact hs.left _
    | textile => exact hs.left _
    | markdown =>
      dsimp only
      rw [mdImg, hn]
      exact (fails_quoteAttr cfg).left _
    | rest => exact hs.left _
  | emptySrc hl hk hn =>
    rw [hrun .img (by rw [hk]; cases cfg.lang <;> rfl), runMeth]
    have hs : Fails (imgSrc i.attrs) := fails_imgSrc fun src => by rw [hn]; simp
    cases hc : cfg.lang with
    | creole => exact hs.left _
    | textile => exact hs.left _
    | markdown => exact (hl hc).elim
    | rest => exact hs.left _

mutual

theorem fails_emitNode (cfg : Cfg) (anc : List Str) : ∀ n : HNode, (∃ p ∈ contexts anc n, SureFault cfg p.1 p.2) →
    Fails (emitNode cfg anc n)
  | .mk i children, h => by
    rw [emitNode_run]
    refine Fails.right _ fun pre => Fails.left ?_ _
    rw [contexts] at h
    obtain ⟨p, hp, hf⟩ := h
    rcases List.mem_cons.mp hp with rfl | hp
    · exact fails_node hf _
    · have hleaf : leafKinds.contains i.kind = false := by
        cases hl : leafKinds.contains i.kind with
        | false => rfl
        | true => rw [hl] at hp; cases hp
      rw [hleaf] at hp
      have hch : Fails (setLast i >>= fun _ => emitNodes cfg (i.kind :: anc) children) :=
        Fails.right _ fun _ => fails_emitNodes cfg (i.kind :: anc) children ⟨p, hp, hf⟩
      rw [runNode]
      cases hm : methodOf cfg.lang i.kind with
      | none => exact hch.left _
      | some m =>
        have hu : m.usesChildren = true := by rw [usesChildren_iff hm, hleaf]; rfl
        obtain ⟨A, pre, post, hform⟩ := runMeth_form (cfg := cfg) (anc := anc) (i := i) hu
        dsimp only
        rw [hform]
        exact Fails.right _ fun a => hch.left _

theorem fails_emitNodes (cfg : Cfg) (anc : List Str) : ∀ ns : List HNode, (∃ p ∈ contextsL anc ns, SureFault cfg p.1 p.2) →
    Fails (emitNodes cfg anc ns)
  | [], h => by obtain ⟨p, hp, _⟩ := h; cases hp
  | n :: ns, h => by
    rw [emitNodes_cons]
    obtain ⟨p, hp, hf⟩ := h
    rw [contextsL] at hp
    rcases List.mem_append.mp hp with hp | hp
    · exact (fails_emitNode cfg anc n ⟨p, hp, hf⟩).left _
    · exact Fails.right _ fun a => (fails_emitNodes cfg anc ns ⟨p, hp, hf⟩).left _

end

/-- **C65**: conversely such a node anywhere in a document makes the conversion raise an exception. -/
theorem C65_faulty_nodes_fail (cfg : Cfg) (root : HNode) (anc : List Str) (i : HInfo) (h : (anc, i) ∈ contexts [] root)
    (hf : SureFault cfg anc i) : ∃ e, emit cfg root = .error e := by
  obtain ⟨e, he⟩ := fails_emitNode cfg [] root ⟨(anc, i), h, hf⟩ {}
  exact ⟨e, by rw [emit_eq, he]⟩

/-- witnesses: what the parser makes of some short HTML documents cannot be converted -/
theorem C65_witnesses :
    html2textile c!"<a>x</a>" = .error .keyError ∧ html2creole c!"<a>x</a>" = .ok c!"x" ∧
    html2creole c!"<img>" = .error .keyError ∧ html2creole c!"<img src=x alt>" = .error (.typeError []) ∧
    html2creole c!"<td>x</td>" = .error .attributeError ∧ html2rest c!"<h0>x</h0>" = .error .keyError ∧
    html2markdown (fun _ => true) c!"<li>x</li>" = .error .notImplementedError ∧
    html2creole c!"<pre>&foo;</pre>" = .error .keyError ∧ html2creole c!"a &foo; b" = .ok c!"a &foo b" ∧
    html2creole c!"&#1114112;" = .error .valueError ∧ html2creole c!"<data value=1>one</data>" = .error .assertionError ∧
    html2creole c!"<headline>x</headline>" = .error (.typeError []) ∧
    html2markdown (fun _ => true) c!"<a href='http://[x'>y</a>" = .error .valueError := by
  decide +kernel

/-- a tree with an ill and a good node -/
def someTree : HNode := .mk { kind := c!"document" } [.mk { kind := c!"p" } [
  .mk { kind := c!"a", attrs := [(c!"name", some c!"x")] } [.mk { kind := c!"data", content := some c!"text" } []]]]

example : contexts [] someTree = [([], { kind := c!"document" }), ([c!"document"], { kind := c!"p" }),
    ([c!"p", c!"document"], { kind := c!"a", attrs := [(c!"name", some c!"x")] }),
    ([c!"a", c!"p", c!"document"], { kind := c!"data", content := some c!"text" })] ∧
    emit { lang := .textile } someTree = .error .keyError ∧ emit { lang := .creole } someTree = .ok c!"text" := by
  decide +kernel

end Verif.Props
