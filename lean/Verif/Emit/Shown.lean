import Verif.Emit.ShownRefs
import Verif.Emit.Steps
import Verif.Props.Faults

/-!
# The emitters keep the text of a document tree

`x` tells whether the text is kept exactly, except for blanks and markup; otherwise something may be added.
-/

namespace Verif.Emit

open Verif Py Html Spec Spec.Sh

/-! ## Texts that are kept -/

/-- the characters that count -/
def counts (x : Bool) (c : Char) : Bool := !isSpace c && c ≠ '\\' && !(x && markChars.contains c)

def kept (x : Bool) (s : Str) : Str := s.filter (counts x)

theorem kept_append (x : Bool) (a b : Str) : kept x (a ++ b) = kept x a ++ kept x b := List.filter_append ..

/-- `out` has the text `t` -/
def Rel (x : Bool) (t out : Str) : Prop := if x then kept x out = kept x t else (kept x t).Sublist (kept x out)

/-- a text that may be added -/
def Mk (x : Bool) (m : Str) : Prop := x = true → kept true m = []

theorem Rel.of_kept {x : Bool} {t out : Str} (h : kept x out = kept x t) : Rel x t out := by
  unfold Rel
  split
  · exact h
  · rw [h]; exact List.Sublist.refl _

theorem Rel.refl (x : Bool) (t : Str) : Rel x t t := .of_kept rfl

theorem Rel.trans {x : Bool} {a b c : Str} (h : Rel x a b) (h' : Rel x b c) : Rel x a c := by
  cases x with
  | true => exact Eq.trans h' h
  | false => exact List.Sublist.trans h h'

theorem Rel.append {x : Bool} {a b c d : Str} (h : Rel x a b) (h' : Rel x c d) : Rel x (a ++ c) (b ++ d) := by
  cases x with
  | true =>
    show kept true (b ++ d) = kept true (a ++ c)
    rw [kept_append, kept_append, (show kept true b = kept true a from h), (show kept true d = kept true c from h')]
  | false =>
    show (kept false (a ++ c)).Sublist (kept false (b ++ d))
    rw [kept_append, kept_append]
    exact List.Sublist.append h h'

theorem Rel.mark {x : Bool} {m : Str} (h : Mk x m) : Rel x [] m := by
  cases x with
  | true => exact h rfl
  | false => exact List.nil_sublist _

theorem Rel.left {x : Bool} {t out m : Str} (h : Rel x t out) (hm : Mk x m) : Rel x t (m ++ out) := (Rel.mark hm).append h

theorem Rel.right {x : Bool} {t out m : Str} (h : Rel x t out) (hm : Mk x m) : Rel x t (out ++ m) := by
  have := h.append (Rel.mark hm)
  rwa [List.append_nil] at this

theorem Rel.cons {x : Bool} {t out : Str} {c : Char} (h : Rel x t out) (hm : Mk x [c]) : Rel x t (c :: out) := h.left hm

theorem Rel.to {x : Bool} {t out out' : Str} (h : Rel x t out) (he : kept x out' = kept x out) : Rel x t out' :=
  h.trans (.of_kept he)

theorem Mk.append {x : Bool} {a b : Str} (h : Mk x a) (h' : Mk x b) : Mk x (a ++ b) := by
  intro hx
  rw [kept_append, h hx, h' hx]
  rfl

theorem Mk.replicate {x : Bool} {c : Char} (n : Nat) (h : Mk x [c]) : Mk x (List.replicate n c) := by
  intro hx
  have := h hx
  unfold kept at *
  rw [List.filter_eq_nil_iff] at *
  intro d hd
  rw [List.eq_of_mem_replicate hd]
  exact this c (by simp)

theorem Mk.rep {x : Bool} {s : Str} (h : Mk x s) : ∀ n, Mk x (rep s n)
  | 0 => fun _ => rfl
  | n + 1 => h.append (Mk.rep h n)

/-- texts of blanks, backslashes and marks -/
theorem Mk.all {x : Bool} {m : Str} (h : (m.all fun c => !counts true c) = true) : Mk x m := by
  intro _
  unfold kept
  rw [List.filter_eq_nil_iff]
  intro c hc
  have := List.all_eq_true.mp h c hc
  simpa using this

theorem Mk.no {m : Str} : Mk false m := fun h => by cases h

/-! ## Strings -/

theorem kept_space {x : Bool} {c : Char} (h : isSpace c = true) : counts x c = false := by simp [counts, h]

theorem kept_dropWhile {x : Bool} {p : Char → Bool} (hp : ∀ c, p c = true → counts x c = false) (s : Str) :
    kept x (s.dropWhile p) = kept x s := by
  induction s with
  | nil => rfl
  | cons c s ih =>
    rw [List.dropWhile_cons]
    split
    · next h => rw [ih]; unfold kept; rw [List.filter_cons_of_neg (by rw [hp c h]; simp)]
    · rfl

theorem kept_dropEndWhile {x : Bool} {p : Char → Bool} (hp : ∀ c, p c = true → counts x c = false) (s : Str) :
    kept x (dropEndWhile p s) = kept x s := by
  induction s with
  | nil => rfl
  | cons c s ih =>
    rw [dropEndWhile]
    have e : kept x (c :: s) = kept x [c] ++ kept x s := kept_append x [c] s
    rw [e, ← ih]
    split
    · next h =>
      split
      · next hc => unfold kept; rw [h, List.filter_cons_of_neg (by rw [hp c hc]; simp)]; rfl
      · rw [h]; exact (List.append_nil _).symm
    · next h => rw [h]; exact kept_append x [c] _

theorem kept_stripP {x : Bool} {p : Char → Bool} (hp : ∀ c, p c = true → counts x c = false) (s : Str) :
    kept x (stripP p s) = kept x s := by rw [stripP, kept_dropEndWhile hp, kept_dropWhile hp]

theorem kept_rstrip (x : Bool) (s : Str) : kept x (rstrip s) = kept x s := kept_dropEndWhile (fun _ h => kept_space h) s

theorem kept_strip (x : Bool) (s : Str) : kept x (strip s) = kept x s := by
  rw [strip, kept_rstrip, lstrip, kept_dropWhile (fun _ h => kept_space h)]

theorem kept_join {x : Bool} {sep : Str} (h : kept x sep = []) : ∀ l : List Str, kept x (join sep l) = kept x l.flatten
  | [] => rfl
  | [a] => by simp [join]
  | a :: b :: l => by
    rw [join, kept_append, kept_append, h, kept_join h (b :: l), List.append_nil, ← kept_append, List.flatten_cons (l := a)]

theorem kept_splitChar (x : Bool) {sep : Char} (h : counts x sep = false) : ∀ s : Str, kept x (splitChar sep s).flatten = kept x s
  | [] => rfl
  | c :: s => by
    have ih := kept_splitChar x h s
    rw [splitChar]
    split
    · next hc =>
      rw [List.flatten_cons, List.nil_append, ih]
      have : c = sep := by simpa using hc
      subst this
      unfold kept
      rw [List.filter_cons_of_neg (by rw [h]; simp)]
    · have e : kept x (c :: s) = kept x [c] ++ kept x s := kept_append x [c] s
      rw [e, ← ih]
      split
      · next hs => rw [hs, ← kept_append]; rfl
      · next l ls hs => rw [hs, List.flatten_cons, List.flatten_cons, ← kept_append]; rfl

theorem kept_map (x : Bool) {f : Str → Str} (h : ∀ s, kept x (f s) = kept x s) : ∀ l : List Str, kept x (l.map f).flatten = kept x l.flatten
  | [] => rfl
  | a :: l => by rw [List.map_cons, List.flatten_cons, kept_append, h, kept_map x h l, List.flatten_cons, kept_append]

theorem flatten_nonempty : ∀ l : List Str, (l.filter (· ≠ [])).flatten = l.flatten
  | [] => rfl
  | a :: l => by
    rw [List.filter_cons]
    split
    · rw [List.flatten_cons, List.flatten_cons, flatten_nonempty l]
    · next h =>
      have : a = [] := by simpa using h
      rw [this, flatten_nonempty l]
      rfl

theorem kept_escapeLinebreaks (x : Bool) (s : Str) : kept x (escapeLinebreaks s) = kept x s := by
  unfold escapeLinebreaks
  dsimp only
  rw [kept_stripP (by intro c hc; have : c = '\\' := by simpa using hc
                      subst this; simp [counts]),
    kept_join (by cases x <;> decide), flatten_nonempty, kept_map x (kept_strip x), kept_splitChar x (by cases x <;> decide),
    kept_strip]

theorem kept_lineEnd {x : Bool} {c : Char} (h : splitlinesAux.isLineEnd c = true) : counts x c = false := by
  apply kept_space
  unfold splitlinesAux.isLineEnd at h
  unfold isSpace
  simp only [Bool.or_eq_true, Bool.and_eq_true, decide_eq_true_eq, beq_iff_eq] at *
  omega

theorem kept_skip {x : Bool} {c : Char} {s : Str} (h : counts x c = false) : kept x (c :: s) = kept x s := by
  unfold kept
  rw [List.filter_cons_of_neg (by rw [h]; simp)]

theorem kept_splitlinesAux (x : Bool) : ∀ (s : Str) (cr fresh : Bool) (cur : Str), (fresh = true → cur = []) →
    (cr = true → cur = []) → kept x (splitlinesAux cr fresh cur s).flatten = kept x (cur.reverse ++ s)
  | [], cr, fresh, cur, hf, hc => by
    rw [splitlinesAux]
    split
    · next h => rw [hf h]; rfl
    · simp
  | c :: s, cr, fresh, cur, hf, hcr => by
    rw [splitlinesAux]
    split
    · next h =>
      simp only [Bool.and_eq_true, decide_eq_true_eq] at h
      rw [kept_splitlinesAux x s _ _ _ (fun _ => rfl) (fun _ => rfl), hcr h.1, h.2]
      exact (kept_skip (kept_space (by decide))).symm
    · split
      · next h =>
        rw [List.flatten_cons, kept_append, kept_splitlinesAux x s _ _ _ (fun _ => rfl) (fun _ => rfl),
          kept_append x cur.reverse (c :: s), kept_skip (kept_lineEnd h)]
        rfl
      · rw [kept_splitlinesAux x s _ _ _ (fun h => by cases h) (fun h => by cases h), List.reverse_cons, List.append_assoc]
        rfl

theorem kept_splitlines (x : Bool) (s : Str) : kept x (splitlines s).flatten = kept x s :=
  kept_splitlinesAux x s _ _ _ (fun _ => rfl) (fun _ => rfl)

theorem kept_restPre {x : Bool} {t text : Str} (h : Rel x t text) : Rel x t (restPre text) := by
  unfold restPre
  refine (Rel.left (h.to ?_) (Mk.all (by decide))).right (Mk.all (by decide))
  rw [kept_join (by cases x <;> decide), kept_map x (f := (c!"    " ++ ·))
    (fun s => by rw [kept_append]; cases x <;> rfl), kept_splitlines, kept_strip]

/-! ## Emissions -/

/-- from states with `P`, `x` leads to states with `P` and results with `Q` -/
def Hol {α : Type} (P : ESt → Prop) (x : EmM α) (Q : α → Prop) : Prop :=
  ∀ s a s', x s = .ok (a, s') → P s → Q a ∧ P s'

section

variable {α β : Type} {P : ESt → Prop}

theorem Hol.bind {x : EmM α} {g : α → EmM β} {Q : α → Prop} {R : β → Prop} (hx : Hol P x Q) (hg : ∀ a, Q a → Hol P (g a) R) :
    Hol P (x >>= g) R := by
  intro s b s' h hs
  obtain ⟨a, s1, h1, h2⟩ := bind_ok.mp h
  obtain ⟨ha, hs1⟩ := hx s a s1 h1 hs
  exact hg a ha s1 b s' h2 hs1

theorem Hol.pure {a : α} {Q : α → Prop} (h : Q a) : Hol P (Pure.pure a : EmM α) Q := by
  intro s b s' hr hs
  obtain ⟨rfl, rfl⟩ := pure_ok.mp hr
  exact ⟨h, hs⟩

theorem Hol.raise {e : PyErr} {Q : α → Prop} : Hol P (Emit.raise e : EmM α) Q := by
  intro s b s' hr hs
  cases hr

theorem Hol.get : Hol P (MonadState.get : EmM ESt) P := by
  intro s b s' hr hs
  cases hr
  exact ⟨hs, hs⟩

theorem Hol.modify {g : ESt → ESt} (h : ∀ s, P s → P (g s)) : Hol P (_root_.modify g : EmM Unit) fun _ => True := by
  intro s b s' hr hs
  cases hr
  exact ⟨trivial, h s hs⟩

theorem Hol.ofExcept {x : Except PyErr α} {Q : α → Prop} (h : ∀ a, x = .ok a → Q a) : Hol P (Emit.ofExcept x) Q := by
  cases x with
  | ok a => exact Hol.pure (h a rfl)
  | error e => exact Hol.raise

theorem Hol.ite {p : Prop} [Decidable p] {x y : EmM α} {Q : α → Prop} (hx : p → Hol P x Q) (hy : ¬ p → Hol P y Q) :
    Hol P (if p then x else y) Q := by
  split
  · next h => exact hx h
  · next h => exact hy h

theorem Hol.mono {x : EmM α} {Q R : α → Prop} (h : Hol P x Q) (hq : ∀ a, Q a → R a) : Hol P x R := by
  intro s a s' hr hs
  exact ⟨hq a (h s a s' hr hs).1, (h s a s' hr hs).2⟩

end

/-- What is kept: without additions, the list marks are marks and there are no definitions to write; `T` is the table, if it
is not to change. -/
structure Inv (x : Bool) (T : Option (Option Table)) (s : ESt) : Prop where
  inner : Mk x s.innerList
  markup : Mk x s.listMarkup
  subst : x = true → s.subst = []
  table : ∀ t, T = some t → s.table = t

theorem Mk.dropLast {x : Bool} {m : Str} (h : Mk x m) : Mk x m.dropLast := by
  intro hx
  have := h hx
  unfold kept at *
  rw [List.filter_eq_nil_iff] at *
  exact fun c hc => this c (List.dropLast_subset m hc)

theorem hol_setLast {x : Bool} {T : Option (Option Table)} (i : HInfo) : Hol (Inv x T) (setLast i) fun _ => True :=
  Hol.modify fun _ hs => ⟨hs.inner, hs.markup, hs.subst, hs.table⟩

theorem hol_getBlockData {T : Option (Option Table)} : Hol (Inv false T) getBlockData fun _ => True := by
  unfold getBlockData
  exact Hol.get.bind fun s _ => (Hol.modify fun _ hs => ⟨hs.inner, hs.markup, (fun h => by cases h), hs.table⟩).bind fun _ _ => Hol.pure trivial

theorem hol_preEmit {x : Bool} {T : Option (Option Table)} (lang : Lang) (anc : List Str) :
    Hol (Inv x T) (preEmit lang anc) (Mk x) := by
  rw [preEmit]
  refine Hol.ite (fun _ => ?_) fun _ => Hol.pure fun _ => rfl
  rw [flushSubst]
  refine Hol.get.bind fun s hs => Hol.ite (fun h => ?_) fun _ => Hol.pure fun _ => rfl
  cases x with
  | true =>
    rw [hs.subst rfl] at h
    simp at h
  | false => exact hol_getBlockData.bind fun _ _ => Hol.pure Mk.no

theorem hol_levelM {P : ESt → Prop} (i : HInfo) : Hol P (levelM i) fun _ => True := by
  rw [levelM]
  split
  · exact Hol.pure trivial
  · exact Hol.raise

theorem hol_deentityM {P : ESt → Prop} (content : Option Str) : Hol P (deentityM content) fun t => ∃ c, content = some c ∧ t = unref c := by
  unfold deentityM
  split
  · next c => exact Hol.ofExcept fun a h => ⟨c, rfl, Props.replaceAll_unref h⟩
  · exact Hol.raise

/-! ## Methods without children -/

theorem own_pre {i : HInfo} {c : Str} (hk : i.kind = c!"blockdata_pre" ∨ i.kind = c!"inlinedata_pre") (hc : i.content = some c) :
    own i = unref c := by
  unfold own
  rw [hc]
  rcases hk with hk | hk <;> rw [hk] <;> rfl

theorem hol_blockPre {x : Bool} {P : ESt → Prop} {cfg : Cfg} {i : HInfo} (hk : i.kind = c!"blockdata_pre")
    (hb : x = true → bare cfg i = true) : Hol P (blockPreEmit cfg.lang i.content) (Rel x (own i)) := by
  unfold blockPreEmit
  refine (hol_deentityM _).bind fun t ht => ?_
  obtain ⟨c, hc, rfl⟩ := ht
  rw [own_pre (.inl hk) hc]
  split
  · exact Hol.pure ((Rel.left (Rel.refl x _) (Mk.all (by decide))).right (Mk.all (by decide)))
  · next hl =>
    cases x with
    | true =>
      exfalso
      have := hb rfl
      simp [bare, hk, hl, wordyKinds] at this
    | false => exact Hol.pure ((Rel.left (Rel.refl false _) Mk.no).right Mk.no)
  · exact Hol.pure ((Rel.left (Rel.refl x _) (Mk.all (by decide))).right (Mk.all (by decide)))
  · exact Hol.pure (kept_restPre (Rel.refl x _))

theorem hol_inlinePre {x : Bool} {P : ESt → Prop} {cfg : Cfg} {i : HInfo} (hk : i.kind = c!"inlinedata_pre")
    (hb : x = true → bare cfg i = true)
    (hc : ¬ (cfg.lang = .markdown ∧ c!"</code>".isSuffixOf (i.content.getD []) = true)) :
    Hol P (inlinePreEmit cfg.lang i.content) (Rel x (own i)) := by
  have wordy : cfg.lang = .textile ∨ cfg.lang = .rest → x = false := by
    intro hl
    cases x with
    | true =>
      exfalso
      have := hb rfl
      rcases hl with hl | hl <;> simp [bare, hk, hl, wordyKinds] at this
    | false => rfl
  unfold inlinePreEmit
  split
  · refine (hol_deentityM _).bind fun t ht => ?_
    obtain ⟨c, hc, rfl⟩ := ht
    rw [own_pre (.inr hk) hc]
    exact Hol.pure ((Rel.left (Rel.refl x _) (Mk.all (by decide))).right (Mk.all (by decide)))
  · next hl =>
    refine (hol_deentityM _).bind fun t ht => ?_
    obtain ⟨c, hc, rfl⟩ := ht
    rw [own_pre (.inr hk) hc]
    have := wordy (.inl hl)
    subst this
    exact Hol.pure ((Rel.left (Rel.refl false _) Mk.no).right Mk.no)
  · next hl =>
    refine (hol_deentityM _).bind fun t ht => ?_
    obtain ⟨c, hc, rfl⟩ := ht
    rw [own_pre (.inr hk) hc]
    have := wordy (.inr hl)
    subst this
    exact Hol.pure ((Rel.left (Rel.refl false _) Mk.no).right Mk.no)
  · next hl =>
    unfold mdInlinePre
    split
    · exact Hol.raise
    · next pre hpre =>
      rw [hpre] at hc
      rw [if_neg (show ¬ c!"</code>".isSuffixOf pre = true from fun h => hc ⟨hl, h⟩)]
      refine (Hol.ofExcept (Q := fun t => t = unref pre) fun a h => Props.replaceAll_unref h).bind fun t ht => ?_
      subst ht
      rw [own_pre (.inr hk) hpre]
      exact Hol.pure ((Rel.left (Rel.refl x _) (Mk.all (by decide))).right (Mk.all (by decide)))

/-- the tag of the other methods without children -/
def leafKind : Meth → Option Str
  | .blockPass => c!"blockdata_pass"
  | .entityref => c!"entityref"
  | .br => c!"br"
  | .hr => c!"hr"
  | _ => none

theorem leafKind_table : ∀ lang : Lang, ∀ km ∈ Props.methTable lang, (leafKind km.2).all (· == km.1)
  | .creole => by decide +kernel
  | .textile => by decide +kernel
  | .markdown => by decide +kernel
  | .rest => by decide +kernel

theorem leafKind_eq {lang : Lang} {kind k : Str} {m : Meth} (h : methodOf lang kind = some m) (hm : leafKind m = some k) :
    kind = k := by
  have := leafKind_table lang (kind, m) (lookup_mem h)
  rw [hm] at this
  exact (beq_iff_eq.mp this).symm

theorem own_other {i : HInfo} (h1 : i.kind ≠ c!"data") (h2 : i.kind ≠ c!"blockdata_pass") (h3 : i.kind ≠ c!"entityref")
    (h4 : i.kind ≠ c!"charref") (h5 : i.kind ≠ c!"blockdata_pre") (h6 : i.kind ≠ c!"inlinedata_pre") : own i = [] := by
  unfold own
  cases i.content with
  | none => rfl
  | some t => simp [h1, h2, h3, h4, h5, h6]

theorem hol_imgSrc {P : ESt → Prop} (attrs : Dict (Option Str)) : Hol P (imgSrc attrs) fun _ => True := by
  rw [imgSrc]
  split
  · exact Hol.raise
  · exact Hol.raise
  · exact Hol.ite (fun _ => Hol.pure trivial) fun _ => Hol.pure trivial

theorem hol_imgText {P : ESt → Prop} (attrs : Dict (Option Str)) (src : Str) : Hol P (imgText attrs src) fun _ => True := by
  rw [imgText]
  split
  · exact Hol.ite (fun _ => Hol.pure trivial) fun _ => Hol.pure trivial
  · exact Hol.raise

theorem hol_quoteAttr {P : ESt → Prop} (cfg : Cfg) (v : Option (Option Str)) : Hol P (quoteAttr cfg v) fun _ => True := by
  unfold quoteAttr
  split
  · exact Hol.raise
  · exact Hol.pure trivial
  · exact Hol.ofExcept fun _ _ => trivial

theorem Inv.subst_any {T : Option (Option Table)} {s : ESt} (h : Inv false T s) {s' : ESt} (ht : s'.table = s.table) : Inv false T s' :=
  ⟨(fun h => by cases h), (fun h => by cases h), (fun h => by cases h), fun t he => by rw [ht]; exact h.table t he⟩

theorem hol_img {T : Option (Option Table)} (cfg : Cfg) (anc : List Str) (i : HInfo) (ch : EmM Str) :
    Hol (Inv false T) (runMeth cfg anc i .img ch) fun _ => True := by
  rw [runMeth]
  split
  · rw [creoleImg]
    refine (hol_imgSrc _).bind fun o _ => ?_
    split
    · exact Hol.pure trivial
    · refine (hol_imgText _ _).bind fun t _ => ?_
      split <;> exact Hol.pure trivial
  · rw [textileImg]
    refine (hol_imgSrc _).bind fun o _ => ?_
    split
    · exact Hol.pure trivial
    · exact (hol_imgText _ _).bind fun t _ => Hol.pure trivial
  · rw [mdImg]
    refine (hol_quoteAttr _ _).bind fun src _ => ?_
    dsimp only
    split <;> exact Hol.pure trivial
  · rw [restImg]
    refine (hol_imgSrc _).bind fun o _ => ?_
    split
    · exact Hol.pure trivial
    · refine (hol_imgText _ _).bind fun t _ => Hol.get.bind fun s _ =>
        (Hol.ofExcept (Q := fun _ => True) fun _ _ => trivial).bind fun r _ => ?_
      refine (Hol.modify fun s hs => hs.subst_any rfl).bind fun _ _ => ?_
      exact Hol.ite (fun _ => (Hol.modify fun s hs => hs.subst_any rfl).bind fun _ _ => Hol.pure trivial) fun _ => Hol.pure trivial

theorem charref_ok {x : Bool} {i : HInfo} {t : Str} (hk : i.kind = c!"charref") (h : charrefText i.content = .ok t)
    (hb : x = true → (numbered (i.content.getD [])).isSome = true) : Rel x (own i) t := by
  unfold charrefText at h
  split at h
  · next hex hc =>
    have : own i = (numbered ('x' :: hex)).toList := by unfold own; rw [hc, hk]; rfl
    rw [this]
    cases hn : numbered ('x' :: hex) with
    | none =>
      cases x with
      | true => have := hb rfl; rw [hc] at this; simp [hn] at this
      | false => exact Rel.mark Mk.no
    | some c =>
      change (if hex ≠ [] ∧ hex.all Props.isHexDigit = true then some (Char.ofNat (Props.hexValue hex)) else none) = some c at hn
      split at hn
      · next h1 =>
        rw [(Props.replaceHex_ok h (fun c hc => List.all_eq_true.mp h1.2 c hc)).1]
        cases hn
        exact Rel.refl _ _
      · cases hn
  · next name hx hc =>
    have : own i = (numbered name).toList := by unfold own; rw [hc, hk]; rfl
    rw [this]
    cases hn : numbered name with
    | none =>
      cases x with
      | true => have := hb rfl; rw [hc] at this; simp [hn] at this
      | false => exact Rel.mark Mk.no
    | some c =>
      unfold numbered at hn
      split at hn
      · next hs => exact absurd rfl (hx hs)
      · split at hn
        · next h1 =>
          rw [Props.replaceNumber_ok h h1.1 (fun c hc => List.all_eq_true.mp h1.2 c hc)]
          cases hn
          exact Rel.refl _ _
        · cases hn
  · cases h

theorem hol_leaf {x : Bool} {T : Option (Option Table)} {cfg : Cfg} {anc : List Str} {i : HInfo} {m : Meth}
    (hm : methodOf cfg.lang i.kind = some m) (hu : m.usesChildren = false) (hb : x = true → bare cfg i = true)
    (hc : ¬ (cfg.lang = .markdown ∧ i.kind = c!"inlinedata_pre" ∧ c!"</code>".isSuffixOf (i.content.getD []) = true)) (ch : EmM Str) :
    Hol (Inv x T) (runMeth cfg anc i m ch) (Rel x (own i)) := by
  cases m <;> first | (simp [Meth.usesChildren] at hu; done) | skip
  case blockPre => exact hol_blockPre (Props.methKind_eq hm rfl) hb
  case inlinePre =>
    have hk := Props.methKind_eq hm rfl
    exact hol_inlinePre hk hb fun h => hc ⟨h.1, hk, h.2⟩
  case blockPass =>
    have hk := leafKind_eq hm rfl
    have ho : Rel x (own i) (fmt i.content) := by
      cases hi : i.content with
      | none =>
        cases x with
        | true => have := hb rfl; simp [bare, hk, hi] at this
        | false =>
          unfold own
          rw [hi]
          exact Rel.mark Mk.no
      | some c =>
        unfold own
        rw [hi, hk]
        exact Rel.refl _ _
    rw [runMeth]
    exact Hol.ite (fun _ => Hol.pure ((ho.cons (Mk.all (by decide))).right (Mk.all (by decide))))
      fun _ => Hol.pure (ho.right (Mk.all (by decide)))
  case data =>
    have hk := Props.methKind_eq hm rfl
    rw [runMeth]
    split
    · exact Hol.raise
    · next c hi =>
      have ho : own i = c := by unfold own; rw [hi, hk]; rfl
      rw [ho]
      refine Hol.ite (fun h => Hol.pure ?_) fun _ => Hol.pure (Rel.refl _ _)
      simp only [Bool.and_eq_true, decide_eq_true_eq] at h
      rw [h.2]
      exact .of_kept (by cases x <;> rfl)
  case entityref =>
    have hk := leafKind_eq hm rfl
    rw [runMeth]
    refine Hol.pure ?_
    unfold entityrefText
    split
    · next name hi =>
      have ho : own i = match named name with | some c => [c] | none => '&' :: name := by
        unfold own; rw [hi, hk]; rfl
      rw [ho]
      cases hr : replaceNamed name with
      | error e => rw [Props.replaceNamed_error hr]; exact Rel.refl _ _
      | ok t =>
        obtain ⟨c, h1, rfl⟩ := Props.replaceNamed_ok hr
        rw [h1]
        exact Rel.refl _ _
    · next hi =>
      cases x with
      | true => have := hb rfl; simp [bare, hk, hi] at this
      | false =>
        unfold own
        rw [hi]
        exact Rel.mark Mk.no
  case charref =>
    have hk := Props.methKind_eq hm rfl
    rw [runMeth]
    refine Hol.ofExcept fun t h => charref_ok hk h fun hx => ?_
    have := hb hx
    simp only [bare, hk, Bool.and_eq_true] at this
    simpa using this.1.2
  case br =>
    have hk := leafKind_eq hm rfl
    rw [own_other (by rw [hk]; decide) (by rw [hk]; decide) (by rw [hk]; decide) (by rw [hk]; decide) (by rw [hk]; decide)
      (by rw [hk]; decide)]
    rw [runMeth]
    exact Hol.get.bind fun s _ => Hol.ite (fun _ => Hol.pure (Rel.mark (Mk.all (by decide)))) fun _ =>
      Hol.pure (Rel.mark (Mk.all (by decide)))
  case hr =>
    have hk := leafKind_eq hm rfl
    rw [own_other (by rw [hk]; decide) (by rw [hk]; decide) (by rw [hk]; decide) (by rw [hk]; decide) (by rw [hk]; decide)
      (by rw [hk]; decide)]
    rw [runMeth]
    exact Hol.ite (fun _ => Hol.pure (Rel.mark (Mk.all (by decide)))) fun _ => Hol.pure (Rel.mark (Mk.all (by decide)))
  case img =>
    have hk := Props.methKind_eq hm rfl
    rw [own_other (by rw [hk]; decide) (by rw [hk]; decide) (by rw [hk]; decide) (by rw [hk]; decide) (by rw [hk]; decide)
      (by rw [hk]; decide)]
    cases x with
    | true =>
      have := hb rfl
      cases hl : cfg.lang <;> simp [bare, hk, hl, wordyKinds] at this
    | false => exact (hol_img cfg anc i ch).mono fun _ _ => Rel.mark Mk.no

/-! ## Methods with children -/

/-- the marks of a method are marks, unless the tag is one of those for which words are added -/
def marked (lang : Lang) (kind : Str) : Meth → Bool
  | .typeface key => key.all fun c => !counts true c
  | .list marker => marker.all fun c => !counts true c
  | .typefaceHtml _ => (wordyKinds lang).contains kind
  | _ => true

theorem marked_table : ∀ lang : Lang, ∀ km ∈ Props.methTable lang, marked lang km.1 km.2 = true
  | .creole => by decide +kernel
  | .textile => by decide +kernel
  | .markdown => by decide +kernel
  | .rest => by decide +kernel

theorem bare_wordy {cfg : Cfg} {i : HInfo} (h : bare cfg i = true) : (wordyKinds cfg.lang).contains i.kind = false := by
  simp only [bare, Bool.and_eq_true] at h
  simpa using h.1.1.1

theorem rel_content {x : Bool} {t c : Str} (kind : Str) (h : Rel x t c) : Rel x t (emitContent kind c) := by
  unfold emitContent
  dsimp only
  have := h.to (kept_escapeLinebreaks x c)
  split
  · exact this.right (Mk.all (by decide))
  · exact this

theorem rel_cell {x : Bool} {t c : Str} (lang : Lang) (h : Rel x t c) : Rel x t (cellText lang c) := by
  unfold cellText
  split
  · exact h
  · exact h.to (kept_escapeLinebreaks x c)

theorem hol_inner {x : Bool} {T : Option (Option Table)} {cfg : Cfg} {anc : List Str} {i : HInfo} {m : Meth} {t : Str} {ch : EmM Str}
    (hm : methodOf cfg.lang i.kind = some m) (hu : m.usesChildren = true) (hb : x = true → bare cfg i = true)
    (hanc : x = true → cfg.lang = .markdown → anc.head? ≠ some c!"ol")
    (hk : i.kind ≠ c!"table" ∧ i.kind ≠ c!"tr" ∧ i.kind ≠ c!"th" ∧ i.kind ≠ c!"td")
    (hch : Hol (Inv x T) ch (Rel x t)) : Hol (Inv x T) (runMeth cfg anc i m ch) (Rel x t) := by
  have hmark := marked_table cfg.lang (i.kind, m) (lookup_mem hm)
  cases m <;> first | (simp [Meth.usesChildren] at hu; done) | skip
  case table => exact absurd (Props.methKind_eq hm rfl) hk.1
  case tr => exact absurd (Props.methKind_eq hm rfl) hk.2.1
  case th => exact absurd (Props.methKind_eq hm rfl) hk.2.2.1
  case td => exact absurd (Props.methKind_eq hm rfl) hk.2.2.2
  case p =>
    rw [runMeth]
    refine hch.bind fun c hc => ?_
    split
    · exact Hol.get.bind fun s _ => Hol.ite (fun _ => Hol.pure (hc.right (Mk.all (by decide)))) fun _ => Hol.pure hc
    · exact Hol.pure ((hc.cons (Mk.all (by decide))).right (Mk.all (by decide)))
    · exact Hol.pure (hc.right (Mk.all (by decide)))
  case headline =>
    rw [runMeth]
    unfold headlineEmit
    split
    · refine (hol_levelM _).bind fun l _ => hch.bind fun c hc => Hol.pure ?_
      exact (((hc.cons (Mk.all (by decide))).left (Mk.replicate _ (Mk.all (by decide)))).right (Mk.all (by decide)))
    · next hl =>
      cases x with
      | true =>
        have := bare_wordy (hb rfl)
        rw [hl, Props.methKind_eq hm rfl] at this
        cases this
      | false =>
        refine (hol_levelM _).bind fun l _ => hch.bind fun c hc => Hol.pure ?_
        exact (hc.left Mk.no).right Mk.no
    · refine (hol_levelM _).bind fun l _ => hch.bind fun c hc => Hol.pure ?_
      exact ((((hc.cons (Mk.all (by decide))).left (Mk.replicate _ (Mk.all (by decide)))).cons (Mk.all (by decide))).right
        (Mk.all (by decide)))
    · rw [restHeadline]
      refine hch.bind fun c hc => (hol_levelM _).bind fun l _ => ?_
      dsimp only
      split
      · exact Hol.raise
      · next ch' both hd =>
        have hmk : Mk x [ch'] := by
          revert hd
          unfold headlineData
          split <;> intro hd <;> cases hd <;> exact Mk.all (by decide)
        split
        · refine Hol.pure ?_
          have := ((((hc.left (m := List.replicate c.length ch' ++ c!"\n") ((Mk.replicate _ hmk).append (Mk.all (by decide)))).right
            (m := c!"\n") (Mk.all (by decide))).right (m := List.replicate c.length ch') (Mk.replicate _ hmk)).right
            (m := c!"\n\n") (Mk.all (by decide)))
          simpa [List.append_assoc] using this
        · refine Hol.pure ?_
          have := (((hc.right (m := c!"\n") (Mk.all (by decide))).right (m := List.replicate c.length ch') (Mk.replicate _ hmk)).right
            (m := c!"\n\n") (Mk.all (by decide)))
          simpa [List.append_assoc] using this
  case typeface key =>
    rw [runMeth]
    exact hch.bind fun c hc => Hol.pure ((hc.left (Mk.all hmark)).right (Mk.all hmark))
  case typefaceHtml tag =>
    cases x with
    | true =>
      have := bare_wordy (hb rfl)
      simp only [marked] at hmark
      rw [hmark] at this
      cases this
    | false =>
      rw [runMeth]
      refine hch.bind fun c hc => Hol.pure ?_
      have := (((hc.left (m := '<' :: tag ++ c!">") Mk.no).right (m := c!"</") Mk.no).right (m := tag) Mk.no).right (m := c!">") Mk.no
      simpa [List.append_assoc] using this
  case children => exact hch
  case content =>
    rw [runMeth]
    exact hch.bind fun c hc => Hol.pure (rel_content _ hc)
  case a =>
    cases x with
    | true =>
      have := bare_wordy (hb rfl)
      rw [Props.methKind_eq hm rfl] at this
      cases hl : cfg.lang <;> rw [hl] at this <;> cases this
    | false =>
      rw [runMeth]
      split
      · rw [creoleLink]
        refine hch.bind fun c hc => ?_
        split
        · exact Hol.pure hc
        · refine Hol.ite (fun _ => Hol.pure ((hc.left Mk.no).right Mk.no)) fun _ => Hol.pure ?_
          rename_i url _ _
          have := (hc.left (m := c!"[[" ++ fmt url ++ c!"|") Mk.no).right (m := c!"]]") Mk.no
          simpa [List.append_assoc] using this
      · rw [textileLink]
        refine hch.bind fun c hc => ?_
        split
        · exact Hol.raise
        · exact Hol.pure (((hc.cons Mk.no).right Mk.no).right Mk.no)
      · rw [mdLink]
        refine hch.bind fun c hc => (hol_quoteAttr _ _).bind fun url _ => ?_
        split
        · exact Hol.pure ((((((hc.cons Mk.no).right Mk.no).right Mk.no).right Mk.no).right Mk.no).right Mk.no)
        · exact Hol.pure ((((hc.cons Mk.no).right Mk.no).right Mk.no).right Mk.no)
      · rw [restLink]
        refine hch.bind fun c hc => ?_
        split
        · exact Hol.raise
        · refine Hol.get.bind fun s _ => (Hol.ofExcept (Q := fun _ => True) fun _ _ => trivial).bind fun r _ => ?_
          refine (Hol.modify fun s hs => hs.subst_any rfl).bind fun _ _ => ?_
          refine Hol.ite (fun _ => ?_) fun _ => ?_
          · refine Hol.ite (fun _ => (Hol.modify fun s hs => hs.subst_any rfl).bind fun _ _ => ?_) fun _ => ?_
            · exact Hol.pure ((hc.cons Mk.no).right Mk.no)
            · exact Hol.pure ((hc.cons Mk.no).right Mk.no)
          · refine Hol.ite (fun _ => Hol.pure ((hc.cons Mk.no).right Mk.no)) fun _ => ?_
            exact Hol.pure ((((hc.cons Mk.no).right Mk.no).right Mk.no).right Mk.no)
  case code =>
    rw [runMeth]
    refine Hol.ite (fun _ => ?_) fun _ => ?_
    · rw [mdCode]
      refine hch.bind fun c hc => ?_
      dsimp only
      exact Hol.ite (fun _ => Hol.raise) fun _ => Hol.ite
        (fun _ => Hol.pure (((rel_content _ hc).left (Mk.all (by decide))).right (Mk.all (by decide))))
        fun _ => Hol.pure (((rel_content _ hc).left (Mk.all (by decide))).right (Mk.all (by decide)))
    · exact hch.bind fun c hc => Hol.pure (((rel_content _ hc).left (Mk.all (by decide))).right (Mk.all (by decide)))
  case li =>
    have hbase : Hol (Inv x T) (baseLi ch) (Rel x t) := by
      rw [baseLi]
      exact hch.bind fun c hc => Hol.get.bind fun s hs => Hol.pure (((hc.cons (Mk.all (by decide))).left hs.inner).cons (Mk.all (by decide)))
    rw [runMeth]
    split
    · exact hbase
    · exact hbase
    · next hl =>
      unfold mdLi
      have key : ∀ marker : Str, Mk x marker → Hol (Inv x T) (levelM i >>= fun level => ch >>= fun content =>
          (pure ('\n' :: rep c!"  " (level - 1).toNat ++ marker ++ ' ' :: content) : EmM Str)) (Rel x t) := by
        intro marker hmk
        refine (hol_levelM _).bind fun l _ => hch.bind fun c hc => Hol.pure ?_
        have := ((hc.cons (c := ' ') (Mk.all (by decide))).left hmk).left
          (m := '\n' :: rep c!"  " (l - 1).toNat) (Mk.append (a := c!"\n") (Mk.all (by decide)) (Mk.rep (Mk.all (by decide)) _))
        simpa [List.append_assoc] using this
      split
      · next k hanc' =>
        split
        · exact (Hol.pure (Q := fun m => Mk x m) (Mk.all (by decide))).bind fun m hm => key m hm
        · split
          · next hol =>
            have : x = false := by
              cases x with
              | true => exact absurd (hanc'.trans (by rw [hol])) (hanc rfl hl)
              | false => rfl
            subst this
            exact (Hol.pure (Q := fun m => Mk false m) Mk.no).bind fun m hm => key m hm
          · exact (Hol.raise (Q := fun m => Mk x m)).bind fun m hm => key m hm
      · exact (Hol.raise (Q := fun m => Mk x m)).bind fun m hm => key m hm
    · rw [restLi]
      refine hch.bind fun c hc => ?_
      dsimp only
      refine (hol_levelM _).bind fun l _ => Hol.get.bind fun s hs => Hol.pure ?_
      have hc' := hc.to (kept_stripP (x := x) (p := (· == '\n')) (by
        intro d hd; have : d = '\n' := by simpa using hd
        subst this; cases x <;> decide) c)
      have := ((((hc'.cons (c := ' ') (Mk.all (by decide))).left hs.markup).left
          (m := '\n' :: rep c!"    " (l - 1).toNat) (Mk.append (a := c!"\n") (Mk.all (by decide)) (Mk.rep (Mk.all (by decide)) _))).right
          (m := c!"\n") (Mk.all (by decide)))
      simpa [List.append_assoc] using this
  case list marker =>
    have hbase : Hol (Inv x T) (baseList marker ch) (Rel x t) := by
      rw [baseList]
      refine Hol.get.bind fun s _ => ?_
      dsimp only
      refine (Hol.modify fun s hs => ⟨hs.inner.append (Mk.all hmark), hs.markup, hs.subst, hs.table⟩).bind fun _ _ => hch.bind fun c hc =>
        (Hol.modify fun s hs => ⟨hs.inner.dropLast, hs.markup, hs.subst, hs.table⟩).bind fun _ _ => Hol.get.bind fun s _ => ?_
      refine Hol.ite (fun _ => Hol.ite (fun _ => Hol.pure ?_) fun _ => Hol.pure ?_) fun _ => Hol.pure hc
      · exact (hc.cons (Mk.all (by decide))).right (Mk.all (by decide))
      · exact (hc.to (kept_strip x c)).right (Mk.all (by decide))
    rw [runMeth]
    split
    · exact hbase
    · exact hbase
    · rw [mdList]
      exact hch.bind fun c hc => Hol.ite (fun _ => Hol.pure ((hc.cons (Mk.all (by decide))).right (Mk.all (by decide)))) fun _ => Hol.pure hc
    · rw [restList]
      refine (Hol.modify fun s hs => ⟨hs.inner, Mk.all hmark, hs.subst, hs.table⟩).bind fun _ _ => hch.bind fun c hc => ?_
      refine Hol.ite (fun _ => Hol.pure ?_) fun _ => Hol.pure hc
      refine (hc.to ?_).right (Mk.all (by decide))
      rw [kept_join (by cases x <;> decide), flatten_nonempty, kept_splitChar x (by cases x <;> decide)]
  case document =>
    rw [runMeth]
    refine Hol.ite (fun _ => ?_) fun _ => hch
    rw [restDocument]
    refine hch.bind fun c hc => Hol.get.bind fun s hs => Hol.ite (fun h => ?_) fun _ => Hol.pure hc
    cases x with
    | true => exact absurd (hs.subst rfl) h
    | false =>
      dsimp only
      refine hol_getBlockData.bind fun d _ => Hol.pure ?_
      refine (Rel.right ?_ Mk.no).right Mk.no
      split
      · exact hc
      · exact hc.right Mk.no

/-- the unknown tags -/
theorem hol_unknown {x : Bool} {P : ESt → Prop} {p : Policy} {i : HInfo} {t : Str} {ch : EmM Str} (hb : x = true → p = .transparent)
    (hch : Hol P ch (Rel x t)) : Hol P (unknownEmit p i ch) (Rel x t) := by
  rw [unknownEmit]
  refine hch.bind fun c hc => ?_
  split
  · exact Hol.pure (rel_content _ hc)
  · exact Hol.raise
  all_goals
    cases x with
    | true => cases hb rfl
    | false =>
      refine Hol.pure ?_
      first | unfold maskContent | unfold escapeUnknown
      try dsimp only
      split
      · next h =>
        rw [h] at hc
        have : Rel false t [] := hc
        exact this.trans (Rel.mark Mk.no)
      · exact (hc.left Mk.no).right Mk.no

end Verif.Emit
