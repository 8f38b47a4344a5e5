import Verif.Emit.GrowNode
import Verif.Emit.GrowTree
import Verif.Props.Deentity

/-!
# How large the text of a node becomes: the methods
-/

namespace Verif.Emit.Gr

open Verif Py Html Spec.Gw

variable {L M C C' r r' k q : Nat} {x ch : EmM Str} {cfg : Cfg} {anc : List Str} {i : HInfo}

theorem Pay.less (h : Pay (L + 1) C r x) : Pay L C r x := fun s out s' hL => h s out s' (by omega)

/-! ## Lists -/

theorem pay_baseList {marker : Str} (hm : marker.length = 1) (h : Pay (L + 1) C r ch) : Pay L (C + 6) r (baseList marker ch) := by
  intro s out s' hL hh hx
  unfold baseList at hx
  obtain ⟨s0, s1, h1, hx⟩ := bind_ok.mp hx
  cases h1
  obtain ⟨u, s1, h1, hx⟩ := bind_ok.mp hx
  cases h1
  obtain ⟨t, s2, h2, hx⟩ := bind_ok.mp hx
  obtain ⟨u, s3, h3, hx⟩ := bind_ok.mp hx
  cases h3
  obtain ⟨s4, s5, h4, hx⟩ := bind_ok.mp hx
  cases h4
  obtain ⟨p1, p2, p3, p4⟩ := h { s with innerList := s.innerList ++ marker } t s2
    (by show (s.innerList ++ marker).length ≤ L + 1; rw [List.length_append, hm]; omega) hh h2
  have hd : s2.innerList.dropLast = s.innerList := by
    rw [p3]
    obtain ⟨c, rfl⟩ := List.length_eq_one_iff.mp hm
    exact List.dropLast_concat
  have hst := wt_strip t
  have : wt out ≤ wt t + 6 ∧ s' = { s2 with innerList := s2.innerList.dropLast } := by
    split at hx
    · split at hx
      · obtain ⟨rfl, rfl⟩ := pure_ok.mp hx
        refine ⟨?_, rfl⟩
        rw [List.cons_append, wt_cons, wt_append, if_pos rfl]
        show _ + (_ + 4) ≤ _
        omega
      · obtain ⟨rfl, rfl⟩ := pure_ok.mp hx
        refine ⟨?_, rfl⟩
        rw [wt_append]
        show _ + 4 ≤ _
        omega
    · obtain ⟨rfl, rfl⟩ := pure_ok.mp hx
      exact ⟨Nat.le_add_right _ _, rfl⟩
  obtain ⟨h5, rfl⟩ := this
  refine ⟨?_, p2, hd, p4⟩
  dsimp only at p1 ⊢
  omega

theorem pay_baseLi (h : Pay L C r ch) : Pay L (C + (2 * L + 3)) r (baseLi ch) := by
  refine (Pay.bind (k := 2 * L + 3) (r' := 0) h fun t => Pay.get fun s hs => Pay.pure ?_).mono (Nat.le_refl _) (by omega)
  have := wt_two s.innerList
  rw [List.cons_append, wt_cons, wt_append, wt_cons, if_pos rfl]
  simp only [show (' ' : Char) ≠ '\n' by decide, if_false]
  omega

/-! ## Images and links -/

theorem quiet_level (i : HInfo) : Quiet (fun l => i.level = some l) (levelM i) := by
  unfold levelM
  split
  · next h => exact Quiet.pure h
  · exact Quiet.raise _

theorem quiet_imgSrc (attrs : Dict (Option Str)) : Quiet (fun o => ∀ t, o = some t → t.length ≤ attrSize attrs) (imgSrc attrs) := by
  unfold imgSrc
  split
  · exact Quiet.raise _
  · exact Quiet.raise _
  · next src h =>
    split
    · exact Quiet.pure fun t ht => by cases ht
    · exact Quiet.pure fun t ht => by cases ht; exact dictGet_size h

theorem getD_size (k : Str) (attrs : Dict (Option Str)) (t : Str) (h : (dictGet k attrs).getD (some []) = some t) : t.length ≤ attrSize attrs := by
  cases hd : dictGet k attrs with
  | none => rw [hd] at h; cases h; exact Nat.zero_le _
  | some v => rw [hd] at h; cases h; exact dictGet_size hd

theorem quiet_imgText (attrs : Dict (Option Str)) (src : Str) : Quiet (fun t => t.length ≤ attrSize attrs + src.length) (imgText attrs src) := by
  unfold imgText
  split
  · next alt title h1 h2 =>
    have h1 := getD_size _ _ _ h1
    have h2 := getD_size _ _ _ h2
    have := slash_len src
    dsimp only
    (repeat' split) <;> exact Quiet.pure (by omega)
  · exact Quiet.raise _

theorem quiet_quote (cfg : Cfg) (k : Str) (attrs : Dict (Option Str)) : Quiet (fun t => t.length ≤ 12 * attrSize attrs + 7) (quoteAttr cfg (dictGet k attrs)) := by
  unfold quoteAttr
  split
  · exact Quiet.raise _
  · exact Quiet.pure (by show 3 ≤ _; omega)
  · next url h =>
    refine Quiet.ofExcept fun a ha => ?_
    have h1 := quoteLink_len ha
    have h2 : url.length ≤ attrSize attrs := dictGet_size h
    omega

/-- compare weights of concatenations -/
macro "wts" : tactic => `(tactic| (
  simp only [wt_append, wt_cons, wt_nil, List.cons_append, List.nil_append, reduceIte, Char.reduceEq]))

theorem pay_creoleLink (h : Pay L C r ch) (attrs : Dict (Option Str)) : Pay L (C + (2 * attrSize attrs + 20)) r (creoleLink attrs ch) := by
  unfold creoleLink
  refine (Pay.bind (k := 2 * attrSize attrs + 20) (r' := 0) h fun t => ?_).mono (Nat.le_refl _) (by omega)
  split
  · exact Pay.pure (by omega)
  · next url hu =>
    refine Pay.ite (fun _ => Pay.pure ?_) (fun _ => Pay.pure ?_)
    · wts; omega
    · have h1 := fmt_len url
      have h2 := dictGet_size hu
      have h3 := wt_two (fmt url)
      wts; omega

theorem pay_textileLink (h : Pay L C r ch) (attrs : Dict (Option Str)) : Pay L (C + (2 * attrSize attrs + 20)) r (textileLink attrs ch) := by
  unfold textileLink
  refine (Pay.bind (k := 2 * attrSize attrs + 20) (r' := 0) h fun t => ?_).mono (Nat.le_refl _) (by omega)
  split
  · exact Pay.raise _
  · next url hu =>
    refine Pay.pure ?_
    have h1 := fmt_len url
    have h2 := dictGet_size hu
    have h3 := wt_two (fmt url)
    wts; omega

theorem pay_mdLink (h : Pay L C r ch) (attrs : Dict (Option Str)) : Pay L (C + (26 * attrSize attrs + 30)) r (mdLink cfg attrs ch) := by
  unfold mdLink
  refine (Pay.bind (k := 26 * attrSize attrs + 30) (r' := 0) h fun t => Pay.quiet (quiet_quote cfg _ attrs) fun url hu => ?_).mono (Nat.le_refl _) (by omega)
  have hu := Nat.le_trans (wt_two url) (Nat.mul_le_mul_left 2 hu)
  split
  · next title ht =>
    have ht := Nat.le_trans (wt_two title) (Nat.mul_le_mul_left 2 (truthy_size ht))
    refine Pay.pure ?_
    wts; omega
  · refine Pay.pure ?_
    wts; omega

theorem pay_mdImg (attrs : Dict (Option Str)) : Pay L (30 * attrSize attrs + 40) r (mdImg cfg attrs) := by
  unfold mdImg
  refine Pay.quiet (quiet_quote cfg _ attrs) fun url hu => ?_
  have hu := Nat.le_trans (wt_two url) (Nat.mul_le_mul_left 2 hu)
  dsimp only
  split
  · next title alt ht ha =>
    have ht := Nat.le_trans (wt_two title) (Nat.mul_le_mul_left 2 (truthy_size ht))
    have ha := Nat.le_trans (wt_two alt) (Nat.mul_le_mul_left 2 (truthy_size ha))
    refine Pay.pure ?_
    wts; omega
  · have h1 := fmt_len ((dictGet c!"alt" attrs).getD (some []))
    have h2 : (((dictGet c!"alt" attrs).getD (some [])).getD []).length ≤ attrSize attrs := by
      cases hv : (dictGet c!"alt" attrs).getD (some []) with
      | none => exact Nat.zero_le _
      | some v => exact getD_size _ _ _ hv
    have h3 := wt_two (fmt ((dictGet c!"alt" attrs).getD (some [])))
    refine Pay.pure ?_
    wts; omega

theorem pay_creoleImg (b : Bool) (attrs : Dict (Option Str)) : Pay L (30 * attrSize attrs + 40) r (creoleImg b attrs) := by
  unfold creoleImg
  refine Pay.quiet (quiet_imgSrc attrs) fun o ho => ?_
  split
  · exact Pay.pure (Nat.zero_le _)
  · next src =>
    have hs := ho src rfl
    refine Pay.quiet (quiet_imgText attrs src) fun t ht => ?_
    have h1 := wt_two src
    have h2 := wt_two t
    split
    · next w h hw hh =>
      have h3 := Nat.le_trans (wt_two w) (Nat.mul_le_mul_left 2 (truthy_size hw))
      have h4 := Nat.le_trans (wt_two h) (Nat.mul_le_mul_left 2 (truthy_size hh))
      refine Pay.pure ?_
      wts; omega
    · refine Pay.pure ?_
      wts; omega

theorem pay_textileImg (attrs : Dict (Option Str)) : Pay L (30 * attrSize attrs + 40) r (textileImg attrs) := by
  unfold textileImg
  refine Pay.quiet (quiet_imgSrc attrs) fun o ho => ?_
  split
  · exact Pay.pure (Nat.zero_le _)
  · next src =>
    have hs := ho src rfl
    refine Pay.quiet (quiet_imgText attrs src) fun t ht => ?_
    have h1 := wt_two src
    have h2 := wt_two t
    refine Pay.pure ?_
    wts; omega

/-! ## Entities -/

theorem wt_entityref (c : Option Str) : wt (entityrefText c) ≤ 2 * (c.getD []).length + 10 := by
  unfold entityrefText
  split
  · next name =>
    split
    · next t ht =>
      unfold replaceNamed at ht
      split at ht
      · cases ht; wts; omega
      · split at ht
        · cases ht; rw [wt_cons, wt_nil]; split <;> omega
        · cases ht
    · have := wt_two name
      wts; simp only [Option.getD_some]; omega
  · wts; omega

theorem wt_charref {c : Option Str} {t : Str} (h : charrefText c = .ok t) : wt t ≤ 2 := by
  have one : ∀ {y : Except PyErr Char} {t : Str}, (y.map fun c => [c]) = .ok t → wt t ≤ 2 := by
    intro y t h
    cases y with
    | error e => cases h
    | ok c => cases h; rw [wt_cons, wt_nil]; split <;> omega
  unfold charrefText at h
  split at h
  · unfold replaceHex at h
    split at h
    · cases h
    · exact one h
  · unfold replaceNumber at h
    split at h
    · cases h
    · exact one h
  · cases h

/-! ## Unknown tags -/

theorem pay_unknown (p : Policy) (h : Pay L C r ch) : Pay L (C + 250 * ownSize i) r (unknownEmit p i ch) := by
  unfold unknownEmit
  refine (Pay.bind (k := 250 * ownSize i) (r' := 0) h fun t => ?_).mono (Nat.le_refl _) (by omega)
  have hat := attrText_len i.attrs
  have hown : 1 + i.kind.length + attrSize i.attrs ≤ ownSize i := by unfold ownSize; omega
  have hk := wt_two i.kind
  have hw := wt_two (attrText i.attrs)
  have mask : ∀ m : Str, m.length ≤ 4 → wt (maskContent i.kind i.attrs m t) ≤ wt t + 250 * ownSize i := by
    intro m hm
    have hm2 := wt_two m
    unfold maskContent
    dsimp only
    split
    · wts; omega
    · wts; omega
  cases p with
  | transparent =>
    refine Pay.pure ?_
    have := wt_emitContent i.kind t
    omega
  | raise => exact Pay.raise _
  | htmlMacro => exact Pay.pure (mask _ (by decide))
  | preformat => exact Pay.pure (mask _ (by decide))
  | escape =>
    refine Pay.pure ?_
    have esc : ∀ s : Str, wt (Creole.htmlEscape s) ≤ 10 * s.length := by
      intro s
      have h1 := wt_two (Creole.htmlEscape s)
      have h2 := Creole.htmlEscape_len s
      omega
    unfold escapeUnknown
    split
    · refine Nat.le_trans (esc _) ?_
      simp only [List.length_append, List.length_cons, List.length_nil]
      omega
    · have h1 := esc ('<' :: i.kind ++ attrText i.attrs ++ c!">")
      have h2 := esc (c!"</" ++ i.kind ++ c!">")
      rw [wt_append, wt_append]
      simp only [List.length_append, List.length_cons, List.length_nil, List.cons_append, List.nil_append] at h1 h2 ⊢
      omega

/-! ## The methods -/

/-- keys and markers are short -/
def Meth.short : Meth → Bool
  | .typeface k => k.length ≤ 2
  | .typefaceHtml k => k.length ≤ 3
  | _ => true

/-- the list markers of creole and textile are single characters -/
def Meth.marks : Meth → Bool
  | .list k => k.length = 1
  | _ => true

theorem lookup_all {p : Meth → Bool} {l : List (Str × Meth)} (h : (l.all fun x => p x.2) = true) {k : Str} {m : Meth}
    (hm : l.lookup k = some m) : p m = true := by
  induction l with
  | nil => cases hm
  | cons x l ih =>
    obtain ⟨k', m'⟩ := x
    rw [List.all_cons, Bool.and_eq_true] at h
    rw [List.lookup_cons] at hm
    split at hm
    · cases hm; exact h.1
    · exact ih h.2 hm

theorem methodOf_short {lang : Lang} {k : Str} {m : Meth} (hm : methodOf lang k = some m) : Meth.short m = true := by
  unfold methodOf at hm
  cases lang <;> exact lookup_all (by decide) hm

theorem methodOf_marks {lang : Lang} (hl : lang = .creole ∨ lang = .textile) {k : Str} {m : Meth} (hm : methodOf lang k = some m) :
    Meth.marks m = true := by
  unfold methodOf at hm
  rcases hl with rfl | rfl <;> exact lookup_all (by decide) hm

theorem pay_headline (hl : cfg.lang ≠ .rest) (hlev : ∀ l, i.level = some l → l.natAbs ≤ M) (h : Pay L C r ch) :
    Pay L (C + (2 * M + 20)) r (headlineEmit cfg.lang i ch) := by
  unfold headlineEmit
  split
  · refine Pay.quiet (quiet_level i) fun l hll => ?_
    refine Pay.map (k := 2 * M + 20) h (fun t => ?_) (Nat.le_refl _)
    have h1 := hlev l hll
    have h2 := wt_two (List.replicate l.toNat '=')
    rw [List.length_replicate] at h2
    wts; omega
  · refine Pay.quiet (quiet_level i) fun l hll => ?_
    refine Pay.map (k := 2 * M + 20) h (fun t => ?_) (Nat.le_refl _)
    have h1 := hlev l hll
    have h2 := wt_two (intStr l)
    have h3 : (intStr l).length ≤ M + 3 := by
      cases l with
      | ofNat n =>
        have := Creole.natDigits_level n
        simp only [intStr]
        have : n ≤ M := h1
        omega
      | negSucc n =>
        have := Creole.natDigits_level (n + 1)
        simp only [intStr, List.length_cons]
        have : n + 1 ≤ M := h1
        omega
    wts; omega
  · refine Pay.quiet (quiet_level i) fun l hll => ?_
    refine Pay.map (k := 2 * M + 20) h (fun t => ?_) (Nat.le_refl _)
    have h1 := hlev l hll
    have h2 := wt_two (List.replicate l.toNat '#')
    rw [List.length_replicate] at h2
    wts; omega
  · next h => exact absurd h hl

theorem pay_mdLi (hlev : ∀ l, i.level = some l → l.natAbs ≤ M) (h : Pay L C r ch) (parent : Option Str) :
    Pay L (C + (2 * M + 20)) r (mdLi parent i ch) := by
  unfold mdLi
  have key : ∀ m : Str, m.length ≤ 2 → Pay L (C + (2 * M + 20)) r (levelM i >>= fun l => ch >>= fun t =>
      pure ('\n' :: rep c!"  " (l - 1).toNat ++ m ++ ' ' :: t)) := by
    intro m hm
    refine Pay.quiet (quiet_level i) fun l hll => ?_
    refine Pay.map (k := 2 * M + 20) h (fun t => ?_) (Nat.le_refl _)
    have h1 := hlev l hll
    have h2 := wt_two m
    have h3 : (l - 1).toNat ≤ M := by omega
    have h4 := wt_rep c!"  " (l - 1).toNat
    rw [show wt c!"  " = 2 by decide] at h4
    wts; omega
  dsimp only
  split
  · split
    · exact key _ (by decide)
    · split
      · exact key _ (by decide)
      · intro s out s' hL hh hx; cases hx
  · intro s out s' hL hh hx; cases hx

theorem pay_mdCode (h : Pay L C r ch) (kind : Str) : Pay L (C + 10) r (mdCode kind ch) := by
  unfold mdCode
  refine (Pay.bind (k := 10) (r' := 0) h fun t => ?_).mono (Nat.le_refl _) (by omega)
  have := wt_emitContent kind t
  dsimp only
  refine Pay.ite (fun _ => Pay.raise _) (fun _ => Pay.ite (fun _ => Pay.pure ?_) (fun _ => Pay.pure ?_))
  · wts; omega
  · wts; omega

theorem wt_cellText (lang : Lang) (s : Str) : wt (cellText lang s) ≤ wt s := by
  unfold cellText
  split
  · exact Nat.le_refl _
  · exact wt_escape s

theorem pay_tr (h : Pay L C r ch) : Pay L C (r + 1) (runMeth cfg anc i .tr ch) := by
  intro s out s' hL hh hx
  simp only [runMeth] at hx
  obtain ⟨t, s1, h1, hx1⟩ := bind_ok.mp hx
  obtain ⟨rfl, ht⟩ := getTable_ok h1
  obtain ⟨u, s2, h2, hx2⟩ := bind_ok.mp hx1
  cases h2
  obtain ⟨c, s3, h3, hx3⟩ := bind_ok.mp hx2
  obtain ⟨rfl, rfl⟩ := pure_ok.mp hx3
  rw [ht] at hh
  obtain ⟨p1, p2, p3, p4⟩ := h { s1 with table := some t.addTr } c _ hL hh h3
  have := addTr_tau t
  have := addTr_rho t
  rw [ht]
  dsimp only at p1 p2 p3
  rw [wt_nil]
  exact ⟨by omega, by omega, p3, p4⟩

theorem pay_cell (h : Pay L C r ch) (f : Table → Str → Table) (hf : ∀ t c, headOk (some t) → tau (some (f t c)) ≤ tau (some t) + (wt c + 7) ∧
      rho (some (f t c)) ≤ rho (some t) + 1 ∧ (f t c).headPrefix = t.headPrefix) :
    Pay L (C + 7) (r + 1) (ch >>= fun c => getTable >>= fun t => setTable (f t (cellText cfg.lang c)) >>= fun _ => pure []) := by
  intro s out s' hL hh hx
  obtain ⟨c, s1, h1, hx1⟩ := bind_ok.mp hx
  obtain ⟨t, s2, h2, hx2⟩ := bind_ok.mp hx1
  obtain ⟨rfl, ht⟩ := getTable_ok h2
  obtain ⟨u, s3, h3, hx3⟩ := bind_ok.mp hx2
  cases h3
  obtain ⟨rfl, rfl⟩ := pure_ok.mp hx3
  obtain ⟨p1, p2, p3, p4⟩ := h s c s2 hL hh h1
  rw [ht] at p1 p2 p4
  obtain ⟨q1, q2, q3⟩ := hf t (cellText cfg.lang c) p4
  have hw := wt_cellText cfg.lang c
  refine ⟨?_, ?_, p3, ?_⟩
  · dsimp only; rw [wt_nil]; omega
  · dsimp only; omega
  · simp only [headOk] at p4 ⊢; rw [q3]; exact p4

theorem pay_table (hl : cfg.lang ≠ .rest) (h : Pay L C r ch) : Pay L (4 * (r * (9 * C + 5)) + 4 + C) r (tableEmit cfg.lang ch) := by
  intro s out s' hL hh hx
  unfold tableEmit at hx
  obtain ⟨u, s1, h1, hx1⟩ := bind_ok.mp hx
  cases h1
  obtain ⟨c, s2, h2, hx2⟩ := bind_ok.mp hx1
  obtain ⟨t, s3, h3, hx3⟩ := bind_ok.mp hx2
  obtain ⟨rfl, ht⟩ := getTable_ok h3
  have hnew : ({ s with table := some (newTable cfg.lang) } : ESt).innerList.length ≤ L ∧ headOk (some (newTable cfg.lang)) ∧
      tau (some (newTable cfg.lang)) = 0 ∧ rho (some (newTable cfg.lang)) = 0 := by
    refine ⟨hL, ?_⟩
    cases cfg.lang <;> refine ⟨?_, rfl, rfl⟩ <;> simp [headOk, newTable]
  obtain ⟨p1, p2, p3, p4⟩ := h { s with table := some (newTable cfg.lang) } c s3 hnew.1 hnew.2.1 (by
    cases hlang : cfg.lang <;> rw [hlang] at h2 <;> exact h2)
  rw [ht] at p1 p2 p4
  dsimp only at p1 p2 p3
  rw [hnew.2.2.1] at p1
  rw [hnew.2.2.2] at p2
  have hb : t.rows.length * (9 * rowsW t.rows + 5) ≤ r * (9 * C + 5) := by
    refine Nat.mul_le_mul ?_ ?_
    · simp only [rho] at p2; omega
    · simp only [tau] at p1; omega
  have hout : wt out ≤ 4 * (r * (9 * C + 5)) + 4 ∧ s' = s3 := by
    generalize cfg.lang = lang at hx3 hl
    cases lang
    · obtain ⟨rfl, rfl⟩ := pure_ok.mp hx3
      have h5 := wt_two t.markup
      have h6 := markup_len t
      refine ⟨?_, rfl⟩
      wts; omega
    · obtain ⟨rfl, rfl⟩ := pure_ok.mp hx3
      have h5 := wt_two t.markup
      have h6 := markup_len t
      refine ⟨?_, rfl⟩
      wts; omega
    · obtain ⟨rfl, rfl⟩ := pure_ok.mp hx3
      have h5 := wt_two t.markdown
      have h6 := markdown_len t
      refine ⟨?_, rfl⟩
      wts; omega
    · exact absurd rfl hl
  obtain ⟨h5, rfl⟩ := hout
  rw [ht]
  exact ⟨by omega, by omega, p3, p4⟩

/-! ## Preformatted text -/

theorem replaceEntity_len {m : Match DG} {t : Str} (h : replaceEntity m = .ok t) : t.length = 1 := by
  unfold replaceEntity at h
  split at h
  · unfold replaceNumber at h
    split at h
    · cases h
    · obtain ⟨a, _, rfl⟩ := map_ok h; rfl
  · unfold replaceHex at h
    split at h
    · cases h
    · obtain ⟨a, _, rfl⟩ := map_ok h; rfl
  · unfold replaceNamed at h
    split at h
    · cases h; rfl
    · split at h
      · cases h; rfl
      · cases h
  · cases h

theorem replSegs_len : ∀ {l : List (Seg DG)} {t : Str}, (∀ m, Seg.hit m ∈ l → 1 ≤ m.text.length) → Props.replSegs l = .ok t →
    t.length ≤ (l.flatMap Seg.text).length
  | [], t, _, h => by cases h; exact Nat.zero_le _
  | seg :: l, t, hm, h => by
    have key : ∀ a : Str, a.length ≤ seg.text.length → (do
        let b ← Props.replSegs l
        pure (a ++ b)) = Except.ok (ε := PyErr) t → t.length ≤ ((seg :: l).flatMap Seg.text).length := by
      intro a ha h
      obtain ⟨b, hb, h⟩ := ex_bind h
      cases h
      have := replSegs_len (fun m h => hm m (by simp [h])) hb
      rw [List.flatMap_cons, List.length_append, List.length_append]; omega
    cases seg with
    | skip c => exact key [c] (Nat.le_refl _) h
    | hit m =>
      rw [Props.replSegs.eq_def] at h
      obtain ⟨a, ha, h⟩ := ex_bind h
      exact key a (by rw [replaceEntity_len ha]; exact hm m (by simp)) h

theorem hit_pos {γ : Type} [DecidableEq γ] {r : Re γ} (hr : 1 ≤ r.spare (fun _ => none)) (hf : r.fair (fun _ => none) = true) {s : Str} {m : Match γ}
    (h : Seg.hit m ∈ r.scan s) : 1 ≤ m.text.length := by
  have hm : m ∈ r.findAll s := by
    unfold Re.findAll
    rw [List.mem_filterMap]
    exact ⟨_, h, rfl⟩
  obtain ⟨pre, rest, prev, s', h1, h2, h3, h4, h5⟩ := (Re.findAll_hit hm).ex
  have hr := Re.res_room (b := fun _ => none) hf h2
  have h0 := capSum_nonneg (b := fun _ : γ => none) (by intro g x h; cases h) s'.caps
  rw [h4] at hr
  simp only [capSum, List.length_append] at hr
  omega

theorem replaceAll_len {s t : Str} (h : replaceAll s = .ok t) : t.length ≤ s.length := by
  rw [Props.replaceAll_eq] at h
  have := replSegs_len (fun m hm => hit_pos (by decide) (by decide) hm) h
  rwa [Re.scan_text] at this

theorem quiet_deentity (content : Option Str) : Quiet (fun t => t.length ≤ (content.getD []).length) (deentityM content) := by
  unfold deentityM
  split
  · exact Quiet.ofExcept fun a h => replaceAll_len h
  · exact Quiet.raise _

theorem pay_blockPre {lang : Lang} (hl : lang ≠ .rest) (content : Option Str) :
    Pay L (30 * ((content.getD []).length + 1)) r (blockPreEmit lang content) := by
  unfold blockPreEmit
  refine Pay.quiet (quiet_deentity content) fun t ht => ?_
  have h1 := wt_two t
  cases lang with
  | rest => exact absurd rfl hl
  | creole => exact Pay.pure (by wts; omega)
  | textile => exact Pay.pure (by wts; omega)
  | markdown => exact Pay.pure (by wts; omega)

theorem first_size {n c : HNode} {ns cs : List HNode} {root : HNode} (h1 : root.children = n :: ns) (h2 : n.children = c :: cs) :
    (c.info.content.getD []).length + attrSize n.info.attrs ≤ treeSize root := by
  obtain ⟨i, ch⟩ := root
  obtain ⟨j, dh⟩ := n
  obtain ⟨k, eh⟩ := c
  simp only [HNode.children] at h1 h2
  subst h1 h2
  simp only [treeSize, treesSize, ownSize, HNode.info]
  omega

theorem codeLanguage_len {attrs : Dict (Option Str)} {lang : Str} (h : codeLanguage attrs = some lang) : lang.length ≤ attrSize attrs := by
  unfold codeLanguage at h
  split at h
  · next v hv =>
    split at h
    · cases h
      have := dictGet_size hv
      rw [List.length_drop]
      simp only [Option.getD_some] at this
      omega
    · cases h
  · cases h

theorem pay_mdInline (content : Option Str) : Pay L (150 * ((content.getD []).length + 1)) r (mdInlinePre content) := by
  unfold mdInlinePre
  split
  · exact Pay.raise _
  · next pre =>
    simp only [Option.getD_some]
    refine Pay.ite (fun _ => ?_) (fun _ => ?_)
    · refine Pay.quiet (P := fun root => treeSize root ≤ 9 + 30 * pre.length) (Quiet.ofExcept fun a h => parseRaw_size h) fun root hroot => ?_
      split
      · exact Pay.raise _
      · next code cs hc =>
        split
        · exact Pay.raise _
        · next first fs hf =>
          have hsz := first_size hc hf
          refine Pay.quiet (quiet_deentity _) fun t ht => ?_
          have h1 := wt_two t
          split
          · next lang hlang =>
            have h2 := codeLanguage_len hlang
            have h3 := wt_two lang
            exact Pay.pure (by wts; omega)
          · exact Pay.pure (by wts; omega)
    · refine Pay.quiet (P := fun t => t.length ≤ pre.length) (Quiet.ofExcept fun a h => replaceAll_len h) fun t ht => ?_
      have h1 := wt_two t
      exact Pay.pure (by wts; omega)

theorem pay_inlinePre {lang : Lang} (hl : lang ≠ .rest) (content : Option Str) :
    Pay L (150 * ((content.getD []).length + 1)) r (inlinePreEmit lang content) := by
  unfold inlinePreEmit
  cases lang with
  | rest => exact absurd rfl hl
  | creole =>
    refine Pay.quiet (quiet_deentity content) fun t ht => ?_
    have h1 := wt_two t
    exact Pay.pure (by wts; omega)
  | textile =>
    refine Pay.quiet (quiet_deentity content) fun t ht => ?_
    have h1 := wt_two t
    exact Pay.pure (by wts; omega)
  | markdown => exact pay_mdInline content

theorem pay_meth {m : Meth} (hl : cfg.lang ≠ .rest) (hm : methodOf cfg.lang i.kind = some m) (hnt : m ≠ .table)
    (hlev : ∀ l, i.level = some l → l.natAbs ≤ M) (hM : L + 1 ≤ M) (hch : Pay (L + 1) C r ch) :
    Pay L (C + 250 * (M * ownSize i)) (r + 1) (runMeth cfg anc i m ch) := by
  have hq1 : ownSize i ≤ M * ownSize i := Nat.le_mul_of_pos_left _ (by omega)
  have hq2 : M ≤ M * ownSize i := Nat.le_mul_of_pos_right _ (by unfold ownSize; omega)
  have hown : ownSize i = 1 + i.kind.length + (i.content.getD []).length + attrSize i.attrs := rfl
  generalize M * ownSize i = q at hq1 hq2
  have h := hch.less
  have hshort := methodOf_short hm
  cases m with
  | blockPre => exact (pay_blockPre (r := 0) hl i.content).mono (by omega) (by omega)
  | inlinePre => exact (pay_inlinePre (r := 0) hl i.content).mono (by omega) (by omega)
  | blockPass =>
    have h1 := fmt_len i.content
    have h2 := wt_two (fmt i.content)
    simp only [runMeth]
    refine Pay.ite (fun _ => Pay.pure ?_) (fun _ => Pay.pure ?_)
    · wts; omega
    · wts; omega
  | data =>
    simp only [runMeth]
    split
    · exact Pay.raise _
    · next c hc =>
      rw [hc, Option.getD_some] at hown
      have := wt_two c
      refine Pay.ite (fun _ => Pay.pure (Nat.zero_le _)) (fun _ => Pay.pure ?_)
      omega
  | entityref =>
    have := wt_entityref i.content
    exact Pay.pure (by omega)
  | charref => exact Pay.ofExcept fun a ha => by have := wt_charref ha; omega
  | p =>
    refine (Pay.bind (k := 250 * q) (r' := 0) h fun t => ?_).mono (Nat.le_refl _) (by omega)
    split
    · refine Pay.get fun s _ => Pay.ite (fun _ => Pay.pure ?_) (fun _ => Pay.pure ?_)
      · wts; omega
      · omega
    · refine Pay.pure ?_
      wts; omega
    · refine Pay.pure ?_
      wts; omega
  | br =>
    refine Pay.get fun s _ => Pay.ite (fun _ => Pay.pure ?_) (fun _ => Pay.pure ?_)
    · wts; omega
    · wts; omega
  | headline => exact (pay_headline hl hlev h).mono (by omega) (by omega)
  | typeface key =>
    have hk : key.length ≤ 2 := by simpa [Meth.short] using hshort
    have := wt_two key
    refine (Pay.map (k := 250 * q) h (fun t => ?_) (Nat.le_refl _)).mono (Nat.le_refl _) (by omega)
    wts; omega
  | typefaceHtml key =>
    have hk : key.length ≤ 3 := by simpa [Meth.short] using hshort
    have := wt_two key
    refine (Pay.map (k := 250 * q) h (fun t => ?_) (Nat.le_refl _)).mono (Nat.le_refl _) (by omega)
    wts; omega
  | children => exact h.mono (by omega) (by omega)
  | content =>
    refine (Pay.map (k := 250 * q) h (fun t => ?_) (Nat.le_refl _)).mono (Nat.le_refl _) (by omega)
    have := wt_emitContent i.kind t
    omega
  | hr =>
    simp only [runMeth]
    refine Pay.ite (fun _ => Pay.pure ?_) (fun _ => Pay.pure ?_)
    · wts; omega
    · wts; omega
  | a =>
    simp only [runMeth]
    split
    · exact (pay_creoleLink h i.attrs).mono (by omega) (by omega)
    · exact (pay_textileLink h i.attrs).mono (by omega) (by omega)
    · exact (pay_mdLink h i.attrs).mono (by omega) (by omega)
    · next hr => exact absurd hr hl
  | img =>
    simp only [runMeth]
    split
    · exact (pay_creoleImg _ i.attrs).mono (by omega) (Nat.le_refl _)
    · exact (pay_textileImg i.attrs).mono (by omega) (Nat.le_refl _)
    · exact (pay_mdImg i.attrs).mono (by omega) (Nat.le_refl _)
    · next hr => exact absurd hr hl
  | code =>
    simp only [runMeth]
    refine Pay.ite (fun _ => (pay_mdCode h i.kind).mono (by omega) (by omega)) (fun _ => ?_)
    refine (Pay.map (k := 250 * q) h (fun t => ?_) (Nat.le_refl _)).mono (Nat.le_refl _) (by omega)
    have := wt_emitContent i.kind t
    wts; omega
  | li =>
    simp only [runMeth]
    split
    · exact (pay_baseLi h).mono (by omega) (by omega)
    · exact (pay_baseLi h).mono (by omega) (by omega)
    · exact (pay_mdLi hlev h _).mono (by omega) (by omega)
    · next hr => exact absurd hr hl
  | list marker =>
    simp only [runMeth]
    split
    · next hl' =>
      have hk : marker.length = 1 := by simpa [Meth.marks] using methodOf_marks (.inl hl') hm
      exact (pay_baseList hk hch).mono (by omega) (by omega)
    · next hl' =>
      have hk : marker.length = 1 := by simpa [Meth.marks] using methodOf_marks (.inr hl') hm
      exact (pay_baseList hk hch).mono (by omega) (by omega)
    · unfold mdList
      refine (Pay.bind (k := 250 * q) (r' := 0) h fun t => Pay.ite (fun _ => Pay.pure ?_) (fun _ => Pay.pure ?_)).mono (Nat.le_refl _) (by omega)
      · wts; omega
      · omega
    · next hr => exact absurd hr hl
  | table => exact absurd rfl hnt
  | tr => exact (pay_tr h).mono (by omega) (Nat.le_refl _)
  | th => exact (pay_cell h Table.addTh fun t c ht => ⟨addTh_tau t c ht, addTh_rho t c, addTh_head t c⟩).mono (by omega) (Nat.le_refl _)
  | td =>
    exact (pay_cell h Table.addTd fun t c ht => ⟨by have := addTd_tau t c; omega, addTd_rho t c, addTd_head t c⟩).mono (by omega) (Nat.le_refl _)
  | document =>
    simp only [runMeth, if_neg hl]
    exact h.mono (by omega) (by omega)

/-! ## Trees -/

/-- the method table read backwards -/
theorem lookup_key {p : Meth → Bool} {q : Str → Bool} {l : List (Str × Meth)} (h : (l.all fun x => !p x.2 || q x.1) = true) {k : Str} {m : Meth}
    (hm : l.lookup k = some m) (hp : p m = true) : q k = true := by
  induction l with
  | nil => cases hm
  | cons x l ih =>
    obtain ⟨k', m'⟩ := x
    rw [List.all_cons, Bool.and_eq_true] at h
    rw [List.lookup_cons] at hm
    split at hm
    · next hk =>
      cases hm
      have := h.1
      rw [hp] at this
      rw [beq_iff_eq.mp hk]
      simpa using this
    · exact ih h.2 hm

theorem methodOf_table {lang : Lang} {k : Str} (hm : methodOf lang k = some .table) : k = c!"table" := by
  unfold methodOf at hm
  have := lookup_key (p := fun m => m = .table) (q := fun k => k = c!"table") (by cases lang <;> decide) hm (by simp)
  simpa using this

/-- the arithmetic for a table -/
theorem table_room {M X z a : Nat} (hz : z ≤ M) (hM : 1 ≤ M) (hX : 1 ≤ X) (ha : 1 ≤ a) :
    4 * (z * (9 * (X * z) + 5)) + 4 + X * z ≤ 250 * M * X * (a + z) := by
  have h1 : X * z ≤ X * M := Nat.mul_le_mul_left X hz
  have h2 : 9 * (X * z) + 5 ≤ 14 * (X * M) := by
    have : 1 ≤ X * M := Nat.mul_pos hX hM
    omega
  have h3 : z * (9 * (X * z) + 5) ≤ z * (14 * (X * M)) := Nat.mul_le_mul_left z h2
  have h4 : X * z ≤ (X * M) * z := Nat.mul_le_mul_right z (Nat.le_mul_of_pos_right X hM)
  have h5 : 250 * M * X * (a + z) = 250 * (X * M * a) + 250 * (X * M * z) := by
    rw [Nat.mul_add]; simp only [Nat.mul_assoc, Nat.mul_comm, Nat.mul_left_comm]
  have h6 : 1 ≤ X * M * a := Nat.mul_pos (Nat.mul_pos hX hM) ha
  have h7 : z * (14 * (X * M)) = 14 * (X * M * z) := by
    simp only [Nat.mul_assoc, Nat.mul_comm, Nat.mul_left_comm]
  rw [h5]
  rw [h7] at h3
  omega

mutual

theorem pay_node (hl : cfg.lang ≠ .rest) (hM : 1 ≤ M) : ∀ (n : HNode) (anc : List Str) (L : Nat), L + treeSize n ≤ M → Fine M n →
    Pay L ((250 * M) ^ (tableDepth n + 1) * treeSize n) (treeSize n) (emitNode cfg anc n)
  | .mk i kids, anc, L, hL, hf => by
    rw [treeSize] at hL
    obtain ⟨hf1, hf3⟩ := hf
    have ha : 1 ≤ ownSize i := by unfold ownSize; omega
    have ih := pay_nodes hl hM kids (i.kind :: anc) (L + 1) (by omega) hf3
    have hch : Pay (L + 1) _ _ (setLast i >>= fun _ => emitNodes cfg (i.kind :: anc) kids) := Pay.setLast i ih
    have hrun : Pay L ((250 * M) ^ (tableDepth (.mk i kids) + 1) * (ownSize i + treesSize kids)) (ownSize i + treesSize kids)
        (runNode cfg anc i (setLast i >>= fun _ => emitNodes cfg (i.kind :: anc) kids)) := by
      have hbase : 250 * M ≤ (250 * M) ^ (tableDepth (.mk i kids) + 1) := by
        rw [Nat.pow_succ]
        exact Nat.le_mul_of_pos_left _ (Nat.pow_pos (by omega))
      have hmono : (250 * M) ^ (tableDepthL kids + 1) ≤ (250 * M) ^ (tableDepth (.mk i kids) + 1) := by
        refine Nat.pow_le_pow_right (by omega) ?_
        rw [tableDepth]; omega
      have hown : 250 * (M * ownSize i) ≤ (250 * M) ^ (tableDepth (.mk i kids) + 1) * ownSize i := by
        rw [← Nat.mul_assoc]
        exact Nat.mul_le_mul_right _ hbase
      have hkids := Nat.mul_le_mul_right (treesSize kids) hmono
      have hq1 : ownSize i ≤ M * ownSize i := Nat.le_mul_of_pos_left _ hM
      unfold runNode
      split
      · next m hm =>
        by_cases hmt : m = .table
        · subst hmt
          have hk := methodOf_table hm
          simp only [runMeth]
          refine (pay_table hl hch.less).mono ?_ (by omega)
          rw [tableDepth, if_pos hk]
          have := table_room (M := M) (X := (250 * M) ^ (tableDepthL kids + 1)) (z := treesSize kids) (a := ownSize i)
            (by omega) hM (Nat.pow_pos (by omega)) ha
          have e : (250 * M) ^ (1 + tableDepthL kids + 1) = 250 * M * (250 * M) ^ (tableDepthL kids + 1) := by
            rw [show 1 + tableDepthL kids + 1 = (tableDepthL kids + 1) + 1 by omega]
            exact Nat.pow_succ'
          rw [e]
          exact this
        · refine (pay_meth hl hm hmt hf1 (by omega) hch).mono ?_ (by omega)
          rw [Nat.mul_add]
          omega
      · refine (pay_unknown cfg.policy hch.less).mono ?_ (by omega)
        rw [Nat.mul_add]
        omega
    rw [emitNode_run, preEmit, if_neg hl, pure_bind, treeSize]
    refine (Pay.bind (k := 0) (r' := 0) hrun fun t => Pay.setLast i (Pay.pure ?_)).mono (by omega) (by omega)
    rw [List.nil_append]
    omega

theorem pay_nodes (hl : cfg.lang ≠ .rest) (hM : 1 ≤ M) : ∀ (ns : List HNode) (anc : List Str) (L : Nat), L + treesSize ns ≤ M → FineL M ns →
    Pay L ((250 * M) ^ (tableDepthL ns + 1) * treesSize ns) (treesSize ns) (emitNodes cfg anc ns)
  | [], anc, L, _, _ => by rw [emitNodes_nil]; exact Pay.pure (Nat.zero_le _)
  | n :: ns, anc, L, hL, hf => by
    rw [treesSize] at hL
    obtain ⟨hf1, hf2⟩ := hf
    have h1 := pay_node hl hM n anc L (by omega) hf1
    have h2 := pay_nodes hl hM ns anc L (by omega) hf2
    have m1 : (250 * M) ^ (tableDepth n + 1) ≤ (250 * M) ^ (tableDepthL (n :: ns) + 1) :=
      Nat.pow_le_pow_right (by omega) (by rw [tableDepthL]; omega)
    have m2 : (250 * M) ^ (tableDepthL ns + 1) ≤ (250 * M) ^ (tableDepthL (n :: ns) + 1) :=
      Nat.pow_le_pow_right (by omega) (by rw [tableDepthL]; omega)
    rw [emitNodes_cons, treesSize, Nat.mul_add]
    have h1' := h1.mono (Nat.mul_le_mul_right _ m1) (Nat.le_refl _)
    have h2' := h2.mono (Nat.mul_le_mul_right _ m2) (Nat.le_refl _)
    refine Pay.bind h1' fun t => ?_
    refine (Pay.bind (k := wt t) (r' := 0) h2' fun t' => Pay.pure ?_).mono (by omega) (by omega)
    rw [wt_append]; omega

end

/-- the size of the result -/
theorem emit_size (hl : cfg.lang ≠ .rest) {root : HNode} {text : Str} (hM : treeSize root ≤ M) (hf : Fine M root) (h : emit cfg root = .ok text) :
    text.length ≤ (250 * M) ^ (tableDepth root + 2) := by
  have h1 : 1 ≤ treeSize root := by
    cases root with
    | mk i ch => rw [treeSize, ownSize]; omega
  unfold emit at h
  cases hn : (emitNode cfg [] root).run {} with
  | error e => rw [hn] at h; cases h
  | ok p =>
    obtain ⟨t, s'⟩ := p
    rw [hn] at h
    cases h
    obtain ⟨p1, _⟩ := pay_node (M := M) hl (by omega) root [] 0 (by omega) hf {} t s' (Nat.le_refl _) trivial hn
    have h2 := wt_strip t
    have h3 := len_le (strip t)
    rw [if_neg hl]
    have h4 : (250 * M) ^ (tableDepth root + 1) * treeSize root ≤ (250 * M) ^ (tableDepth root + 2) := by
      rw [Nat.pow_succ _ (tableDepth root + 1)]
      exact Nat.mul_le_mul_left _ (by omega)
    have h5 : tau ({} : ESt).table = 0 := rfl
    omega

end Verif.Emit.Gr
