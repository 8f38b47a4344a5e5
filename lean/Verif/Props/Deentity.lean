import Verif.Html.Deentity
import Verif.Creole.SafeLemmas
import Verif.Creole.ParserLemmas
import Verif.Py.DictLemmas
import Verif.Py.ReHead

/-!
# `Deentity` (C31, C32)
-/

namespace Verif.Props

open Verif Py Html Re

/-! ## Scanning for references -/

/-- `replace_all` on the segments of a scan -/
def replSegs : List (Seg DG) → Except PyErr Str
  | [] => .ok []
  | seg :: segs => do
    let a ← match seg with
      | .skip c => .ok [c]
      | .hit m => replaceEntity m
    let b ← replSegs segs
    return a ++ b

theorem replaceAll_eq (s : Str) : replaceAll s = replSegs (entitiesRe.scan s) := by
  unfold replaceAll
  induction entitiesRe.scan s with
  | nil => rfl
  | cons x l ih => rw [List.foldr_cons, ih]; rfl

/-- `replace_all` in the middle of a string -/
def repl (prev : Option Char) (s : Str) : Except PyErr Str := replSegs (entitiesRe.scanAux prev s 0)

theorem replaceAll_repl (s : Str) : replaceAll s = repl none s := replaceAll_eq s

theorem repl_nil (prev : Option Char) : repl prev [] = .ok [] := by
  unfold repl
  rw [Re.scanAux_nil (by decide)]
  rfl

/-- the three kinds of references -/
def altNumber : Re DG :=
  cat [.cls (.chr '&'), .cls (.chr '#'), .grp .number (plus true (.cls .digit)), .cls (.chr ';')]
def hexSet : CSet := .union (.union (.range 'a' 'f') (.range 'A' 'F')) (.range '0' '9')
def altHex : Re DG :=
  cat [.cls (.chr '&'), .cls (.chr '#'), .cls (.chr 'x'), .grp .hex (plus true (.cls hexSet)), .cls (.chr ';')]
def nameSet : CSet := .union (.range 'a' 'z') (.range 'A' 'Z')
def altNamed : Re DG := cat [.cls (.chr '&'), .grp .named (plus true (.cls nameSet)), .cls (.chr ';')]

theorem entitiesRe_eq : entitiesRe = .alt altNumber (.alt altHex altNamed) := rfl

theorem matchAt_noAmp {prev : Option Char} {c : Char} {s : Str} (h : c ≠ '&') :
    entitiesRe.matchAt false prev (c :: s) = none := by
  rw [Re.matchAt_false, entitiesRe_eq]
  have : (Re.cls (.chr '&') : Re DG).res ⟨prev, c :: s, []⟩ = [] := Re.res_cls_nil (by
    intro d t hd
    simp only [List.cons.injEq] at hd
    rw [← hd.1]
    simpa [CSet.mem] using h)
  have h1 : altNumber.res ⟨prev, c :: s, []⟩ = [] := Re.res_seq_nil this
  have h2 : altHex.res ⟨prev, c :: s, []⟩ = [] := Re.res_seq_nil this
  have h3 : altNamed.res ⟨prev, c :: s, []⟩ = [] := Re.res_seq_nil this
  rw [Re.res_alt_right h1, Re.res_alt_right h2, h3]
  rfl

theorem repl_noAmp {prev : Option Char} {c : Char} {s : Str} (h : c ≠ '&') :
    repl prev (c :: s) = (repl (some c) s).map (c :: ·) := by
  unfold repl
  rw [Re.scanAux_skip (matchAt_noAmp h)]
  simp only [replSegs]
  cases replSegs (entitiesRe.scanAux (some c) s 0) <;> rfl

theorem repl_plain {prev : Option Char} {a s : Str} (h : '&' ∉ a) :
    repl prev (a ++ s) = (repl ((a.getLast?).or prev) s).map (a ++ ·) := by
  induction a generalizing prev with
  | nil => simp only [List.nil_append, List.getLast?_nil, Option.none_or]; cases repl prev s <;> rfl
  | cons c a ih =>
    simp only [List.mem_cons, not_or] at h
    rw [List.cons_append, repl_noAmp (Ne.symm h.1), ih h.2, lastOr a prev c]
    cases repl (((c :: a).getLast?).or prev) s <;> rfl

theorem consumed_append (w r : Str) : consumed (w ++ r) r = w := by unfold consumed; simp

theorem head_amp (prev : Option Char) (s : Str) :
    ((Re.cls (.chr '&') : Re DG).res ⟨prev, '&' :: s, []⟩).head? = some ⟨some '&', s, []⟩ := Re.head_cls (by decide)

theorem res_amp (prev : Option Char) (s : Str) :
    (Re.cls (.chr '&') : Re DG).res ⟨prev, '&' :: s, []⟩ = [⟨some '&', s, []⟩] := by
  simp [Re.res, CSet.mem]

/-- a group of one or more characters of a class, and the `;` -/
theorem head_tail {g : DG} {cs : CSet} (hcs : cs.mem ';' = false) {w rest : Str} {p : Option Char} (hw : w ≠ [])
    (hm : ∀ c ∈ w, cs.mem c = true) :
    ((Re.seq (.grp g (plus true (.cls cs))) (.cls (.chr ';')) : Re DG).res ⟨p, w ++ ';' :: rest, []⟩).head? =
      some ⟨some ';', rest, [(g, w)]⟩ := by
  cases w with
  | nil => simp at hw
  | cons c w =>
    have h1 : ((Re.plus true (.cls cs) : Re DG).res ⟨p, c :: (w ++ ';' :: rest), []⟩).head? =
        some ⟨(c :: w).getLast?, ';' :: rest, []⟩ := Re.head_plus_cls (by
      intro d t hd
      simp only [List.cons.injEq] at hd
      rw [← hd.1]; exact hcs) hm
    have h2 := Re.head_grp (g := g) h1
    rw [← List.cons_append, consumed_append] at h2
    exact Re.head_seq h2 (Re.head_cls (by decide))

theorem matchAt_named {prev : Option Char} {w rest : Str} (hw : w ≠ []) (hm : ∀ c ∈ w, nameSet.mem c = true) :
    entitiesRe.matchAt false prev (('&' :: w ++ c!";") ++ rest) = some ⟨some ';', rest, [(.named, w)]⟩ := by
  rw [Re.matchAt_false, entitiesRe_eq]
  have hne : ∀ c t, w ++ ';' :: rest = c :: t → (CSet.chr '#').mem c = false := by
    intro c t h
    cases w with
    | nil => simp at hw
    | cons d w =>
      simp only [List.cons_append, List.cons.injEq] at h
      have := hm d (by simp)
      rw [h.1] at this
      simp only [CSet.mem, beq_eq_false_iff_ne]
      rintro rfl
      exact absurd this (by decide)
  have e : ('&' :: w ++ c!";") ++ rest = '&' :: (w ++ ';' :: rest) := by simp
  rw [e]
  have h1 : ∀ b : Re DG, (Re.seq (.cls (.chr '&')) (.seq (.cls (.chr '#')) b)).res ⟨prev, '&' :: (w ++ ';' :: rest), []⟩ = [] := by
    intro b
    rw [Re.res, res_amp]
    simp only [List.flatMap_cons, List.flatMap_nil, List.append_nil]
    exact Re.res_seq_nil (Re.res_cls_nil hne)
  have h2 : altNumber.res ⟨prev, '&' :: (w ++ ';' :: rest), []⟩ = [] := h1 _
  have h3 : altHex.res ⟨prev, '&' :: (w ++ ';' :: rest), []⟩ = [] := h1 _
  rw [Re.res_alt_right h2, Re.res_alt_right h3]
  exact Re.head_seq (head_amp _ _) (head_tail (by decide) hw hm)

theorem matchAt_number {prev : Option Char} {w rest : Str} (hw : w ≠ []) (hm : ∀ c ∈ w, CSet.digit.mem c = true) :
    entitiesRe.matchAt false prev ((c!"&#" ++ w ++ c!";") ++ rest) = some ⟨some ';', rest, [(.number, w)]⟩ := by
  rw [Re.matchAt_false, entitiesRe_eq]
  have e : (c!"&#" ++ w ++ c!";") ++ rest = '&' :: '#' :: (w ++ ';' :: rest) := by simp
  rw [e]
  refine Re.head_alt_left (Re.head_seq (head_amp _ _) (Re.head_seq (Re.head_cls (by decide)) ?_))
  exact head_tail (by decide) hw hm

theorem matchAt_hex {prev : Option Char} {w rest : Str} (hw : w ≠ []) (hm : ∀ c ∈ w, hexSet.mem c = true) :
    entitiesRe.matchAt false prev ((c!"&#x" ++ w ++ c!";") ++ rest) = some ⟨some ';', rest, [(.hex, w)]⟩ := by
  rw [Re.matchAt_false, entitiesRe_eq]
  have e : (c!"&#x" ++ w ++ c!";") ++ rest = '&' :: '#' :: 'x' :: (w ++ ';' :: rest) := by simp
  rw [e]
  have hsharp : (Re.cls (.chr '#') : Re DG).res ⟨some '&', '#' :: 'x' :: (w ++ ';' :: rest), []⟩ =
      [⟨some '#', 'x' :: (w ++ ';' :: rest), []⟩] := by simp [Re.res, CSet.mem]
  have h1 : altNumber.res ⟨prev, '&' :: '#' :: 'x' :: (w ++ ';' :: rest), []⟩ = [] := by
    unfold altNumber cat cat cat cat
    rw [Re.res, res_amp]
    simp only [List.flatMap_cons, List.flatMap_nil, List.append_nil]
    rw [Re.res, hsharp]
    simp only [List.flatMap_cons, List.flatMap_nil, List.append_nil]
    apply Re.res_seq_nil
    have : (plus true (.cls .digit) : Re DG).res ⟨some '#', 'x' :: (w ++ ';' :: rest), []⟩ = [] :=
      Re.res_seq_nil (Re.res_cls_nil (by
        intro c t h
        simp only [List.cons.injEq] at h
        rw [← h.1]; decide))
    simp only [Re.res]
    rw [List.map_eq_nil_iff]
    exact this
  rw [Re.res_alt_right h1]
  refine Re.head_alt_left (Re.head_seq (head_amp _ _) (Re.head_seq (Re.head_cls (by decide))
    (Re.head_seq (Re.head_cls (by decide)) ?_)))
  exact head_tail (by decide) hw hm

theorem repl_prev (p q : Option Char) (s : Str) : repl p s = repl q s := by
  unfold repl
  rw [Re.scanAux_prev (by decide) p q]

/-- one reference -/
theorem repl_hit {prev p : Option Char} {w rest : Str} {caps : List (DG × Str)} (hw : w ≠ [])
    (h : entitiesRe.matchAt false prev (w ++ rest) = some ⟨p, rest, caps⟩) :
    repl prev (w ++ rest) = (replaceEntity ⟨w, caps⟩).bind fun a => (repl w.getLast? rest).map (a ++ ·) := by
  unfold repl
  have := Re.scanAux_take (s' := ⟨p, rest, caps⟩) hw h
  simp only at this
  rw [this]
  simp only [replSegs]
  cases replaceEntity ⟨w, caps⟩ with
  | error e => rfl
  | ok a => cases replSegs (entitiesRe.scanAux w.getLast? rest 0) <;> rfl

theorem repl_named {prev : Option Char} {w rest : Str} (hw : w ≠ []) (hm : ∀ c ∈ w, nameSet.mem c = true) :
    repl prev (('&' :: w ++ c!";") ++ rest) =
      (replaceNamed w).bind fun a => (repl (some ';') rest).map (a ++ ·) := by
  rw [repl_hit (by simp) (matchAt_named hw hm)]
  have : ('&' :: w ++ c!";").getLast? = some ';' := by rw [List.getLast?_append]; rfl
  rw [this]
  rfl

theorem repl_number {prev : Option Char} {w rest : Str} (hw : w ≠ []) (hm : ∀ c ∈ w, CSet.digit.mem c = true) :
    repl prev ((c!"&#" ++ w ++ c!";") ++ rest) =
      (replaceNumber w).bind fun a => (repl (some ';') rest).map (a ++ ·) := by
  rw [repl_hit (by simp) (matchAt_number hw hm)]
  have : (c!"&#" ++ w ++ c!";").getLast? = some ';' := by rw [List.getLast?_append]; rfl
  rw [this]
  rfl

theorem repl_hex {prev : Option Char} {w rest : Str} (hw : w ≠ []) (hm : ∀ c ∈ w, hexSet.mem c = true) :
    repl prev ((c!"&#x" ++ w ++ c!";") ++ rest) =
      (replaceHex w).bind fun a => (repl (some ';') rest).map (a ++ ·) := by
  rw [repl_hit (by simp) (matchAt_hex hw hm)]
  have : (c!"&#x" ++ w ++ c!";").getLast? = some ';' := by rw [List.getLast?_append]; rfl
  rw [this]
  rfl

/-! ## C31 -/

theorem repl_escape (s : Str) : ∀ prev, repl prev (s.flatMap Creole.escChar) = .ok s := by
  induction s with
  | nil => intro prev; exact repl_nil prev
  | cons c s ih =>
    intro prev
    rw [List.flatMap_cons, Creole.escChar]
    split
    · rename_i h
      subst h
      have := repl_named (prev := prev) (w := c!"amp") (rest := s.flatMap Creole.escChar) (by decide) (by decide)
      rw [ih] at this
      exact this.trans (by rw [show replaceNamed c!"amp" = .ok c!"&" by decide +kernel]; rfl)
    · split
      · rename_i h
        subst h
        have := repl_named (prev := prev) (w := c!"lt") (rest := s.flatMap Creole.escChar) (by decide) (by decide)
        rw [ih] at this
        exact this.trans (by rw [show replaceNamed c!"lt" = .ok c!"<" by decide +kernel]; rfl)
      · split
        · rename_i h
          subst h
          have := repl_named (prev := prev) (w := c!"gt") (rest := s.flatMap Creole.escChar) (by decide) (by decide)
          rw [ih] at this
          exact this.trans (by rw [show replaceNamed c!"gt" = .ok c!">" by decide +kernel]; rfl)
        · rename_i h _ _
          rw [List.singleton_append, repl_noAmp h, ih]
          rfl

/-- **C31**: decoding the entities of an escaped string (`xml.sax.saxutils.escape`, which creole2html uses) gives the
string back. -/
theorem C31_deentity_escape (s : Str) : replaceAll (Creole.htmlEscape s) = .ok s := by
  rw [replaceAll_repl, Creole.htmlEscape_eq, repl_escape]

example : Creole.htmlEscape c!"&lt; <b> &#65;" = c!"&amp;lt; &lt;b&gt; &amp;#65;" ∧
    replaceAll c!"&amp;lt; &lt;b&gt; &amp;#65;" = .ok c!"&lt; <b> &#65;" := by decide +kernel

/-- `html.escape(s)` (Lib/html/__init__.py 12-25): additionally escapes both quotes, as `&quot;` and `&#x27;` -/
def fullEscape (s : Str) : Str := s.flatMap fun c =>
  if c = '&' then c!"&amp;" else if c = '<' then c!"&lt;" else if c = '>' then c!"&gt;"
  else if c = '"' then c!"&quot;" else if c = '\'' then c!"&#x27;" else [c]

/-- **C31**: the same for `html.escape` -/
theorem C31_deentity_html_escape (s : Str) : replaceAll (fullEscape s) = .ok s := by
  rw [replaceAll_repl]
  unfold fullEscape
  generalize (none : Option Char) = prev
  induction s generalizing prev with
  | nil => exact repl_nil prev
  | cons c s ih =>
    rw [List.flatMap_cons]
    split
    · rename_i h
      subst h
      refine (repl_named (w := c!"amp") (by decide) (by decide)).trans ?_
      rw [ih, show replaceNamed c!"amp" = .ok c!"&" by decide +kernel]; rfl
    · split
      · rename_i h
        subst h
        refine (repl_named (w := c!"lt") (by decide) (by decide)).trans ?_
        rw [ih, show replaceNamed c!"lt" = .ok c!"<" by decide +kernel]; rfl
      · split
        · rename_i h
          subst h
          refine (repl_named (w := c!"gt") (by decide) (by decide)).trans ?_
          rw [ih, show replaceNamed c!"gt" = .ok c!">" by decide +kernel]; rfl
        · split
          · rename_i h
            subst h
            refine (repl_named (w := c!"quot") (by decide) (by decide)).trans ?_
            rw [ih, show replaceNamed c!"quot" = .ok c!"\"" by decide +kernel]; rfl
          · split
            · rename_i h
              subst h
              refine (repl_hex (w := c!"27") (by decide) (by decide)).trans ?_
              rw [ih, show replaceHex c!"27" = .ok c!"'" by decide +kernel]; rfl
            · rename_i h _ _ _ _
              rw [List.singleton_append, repl_noAmp h, ih]
              rfl

/-! ## C32 -/

/-- the value of a string of hexadecimal digits -/
def hexValue (s : Str) : Nat := s.foldl (fun n c => n * 16 +
  (if c.isDigit then c.toNat - '0'.toNat else if 'a' ≤ c ∧ c ≤ 'f' then c.toNat - 'a'.toNat + 10
    else c.toNat - 'A'.toNat + 10)) 0

def isHexDigit (c : Char) : Bool := c.isDigit || ('a' ≤ c && c ≤ 'f') || ('A' ≤ c && c ≤ 'F')

theorem pyChr_char (c : Char) : pyChr c.toNat = .ok c := by
  unfold pyChr
  have h := c.valid
  have h1 : c.toNat < 0xd800 ∨ (0xdfff < c.toNat ∧ c.toNat < 0x110000) := h
  rw [if_neg (by omega), if_neg (by omega), if_neg (by simp; omega), Char.ofNat_toNat]

theorem digit_mem {c : Char} (h : c.isDigit = true) : CSet.digit.mem c = true := by
  simp [CSet.mem, decimal_digit h]

theorem natOf_digits {ds : Str} (hne : ds ≠ []) (hall : ∀ c ∈ ds, c.isDigit = true) (hlen : ds.length ≤ maxIntDigits) :
    natOf ds = some (Nat.ofDigitChars 10 ds 0) := by
  cases ds with
  | nil => simp at hne
  | cons c ds =>
    unfold natOf
    have hds : ∀ d ∈ ds, d.isDigit = true := fun d hd => hall d (by simp [hd])
    simp only [decimal_digit (hall c (by simp)), intDigits_digits hds]
    rw [Nat.ofDigitChars_cons]
    simp only [List.length_cons] at hlen
    rw [if_pos (by omega)]
    simp only [Nat.mul_zero, Nat.zero_add]
    rfl

theorem pyInt_digits {ds : Str} (hne : ds ≠ []) (hall : ∀ c ∈ ds, c.isDigit = true) (hlen : ds.length ≤ maxIntDigits) :
    pyInt ds = some (Nat.ofDigitChars 10 ds 0 : Nat) := by
  unfold pyInt
  have hstrip : stripP isIntSpace ds = ds := by
    have : ∀ c ∈ ds, isIntSpace c = false := fun c hc => digit_notIntSpace c (hall c hc)
    refine stripP_id (fun c hc => this c ?_) (fun c hc => this c ?_)
    · cases ds <;> simp_all
    · exact List.mem_of_getLast? hc
  rw [hstrip]
  have hn := natOf_digits hne hall hlen
  split
  · exact absurd (hall '-' (by simp)) (by decide)
  · exact absurd (hall '+' (by simp)) (by decide)
  · rw [hn]; rfl

theorem hexDigit_mem {c : Char} (h : isHexDigit c = true) : hexSet.mem c = true ∧ isHexA c = true := by
  unfold isHexDigit at h
  simp only [Bool.or_eq_true, Bool.and_eq_true, decide_eq_true_eq, isDigit_iff, Char.le_def, UInt32.le_iff_toNat_le] at h
  have e : c.val.toNat = c.toNat := rfl
  have c0 : '0'.val.toNat = 48 := rfl
  have c9 : '9'.val.toNat = 57 := rfl
  have ca : 'a'.val.toNat = 97 := rfl
  have cf : 'f'.val.toNat = 102 := rfl
  have cA : 'A'.val.toNat = 65 := rfl
  have cF : 'F'.val.toNat = 70 := rfl
  have d0 : '0'.toNat = 48 := rfl
  have d9 : '9'.toNat = 57 := rfl
  have da : 'a'.toNat = 97 := rfl
  have df : 'f'.toNat = 102 := rfl
  have dA : 'A'.toNat = 65 := rfl
  have dF : 'F'.toNat = 70 := rfl
  constructor
  · simp only [hexSet, CSet.mem, Bool.or_eq_true, Bool.and_eq_true, decide_eq_true_eq]
    omega
  · simp only [isHexA, isDigitA, Bool.or_eq_true, Bool.and_eq_true, decide_eq_true_eq, Char.le_def,
      UInt32.le_iff_toNat_le]
    omega

theorem hexVal_eq {c : Char} : hexVal c = (if c.isDigit then c.toNat - '0'.toNat else
    if 'a' ≤ c ∧ c ≤ 'f' then c.toNat - 'a'.toNat + 10 else c.toNat - 'A'.toNat + 10) ∨ isHexDigit c = false := by
  by_cases h : isHexDigit c = true
  · left
    unfold isHexDigit at h
    simp only [Bool.or_eq_true, Bool.and_eq_true, decide_eq_true_eq, isDigit_iff, Char.le_def,
      UInt32.le_iff_toNat_le] at h
    have e : c.val.toNat = c.toNat := rfl
    have c0 : '0'.val.toNat = 48 := rfl
    have c9 : '9'.val.toNat = 57 := rfl
    have ca : 'a'.val.toNat = 97 := rfl
    have cf : 'f'.val.toNat = 102 := rfl
    have cA : 'A'.val.toNat = 65 := rfl
    have cF : 'F'.val.toNat = 70 := rfl
    have d0 : '0'.toNat = 48 := rfl
    have da : 'a'.toNat = 97 := rfl
    have dA : 'A'.toNat = 65 := rfl
    simp only [hexVal, isDigitA, Bool.and_eq_true, decide_eq_true_eq, isDigit_iff, Char.le_def,
      UInt32.le_iff_toNat_le]
    repeat' split
    all_goals omega
  · right; simpa using h

theorem hexNat_eq {s : Str} (h : ∀ c ∈ s, isHexDigit c = true) : hexNat s = hexValue s := by
  unfold hexNat hexValue
  generalize (0 : Nat) = n
  induction s generalizing n with
  | nil => rfl
  | cons c s ih =>
    simp only [List.foldl_cons]
    rcases hexVal_eq (c := c) with h1 | h1
    · rw [h1]; exact ih (fun d hd => h d (by simp [hd])) _
    · rw [h c (by simp)] at h1; simp at h1

/-- **C32**: a decimal reference to the code point of `c` (with any number of leading zeros, up to the limit of
`int()`) decodes to `c`, wherever it stands. -/
theorem C32_decimal (c : Char) (ds before rest : Str) (hb : '&' ∉ before) (hd : ∀ d ∈ ds, d.isDigit = true)
    (hne : ds ≠ []) (hv : Nat.ofDigitChars 10 ds 0 = c.toNat) (hl : ds.length ≤ 4300) :
    replaceAll (before ++ (c!"&#" ++ ds ++ c!";") ++ rest) = (replaceAll rest).map fun r => before ++ c :: r := by
  rw [replaceAll_repl, List.append_assoc, repl_plain hb, repl_number hne (fun d h => digit_mem (hd d h))]
  have h1 : replaceNumber ds = .ok [c] := by
    unfold replaceNumber
    rw [pyInt_digits hne hd hl, hv]
    show (pyChr c.toNat).map _ = _
    rw [pyChr_char]; rfl
  rw [h1, replaceAll_repl, repl_prev (some ';') none]
  cases repl none rest <;> rfl

/-- **C32**: the same for hexadecimal references -/
theorem C32_hexadecimal (c : Char) (hs before rest : Str) (hb : '&' ∉ before) (hd : ∀ d ∈ hs, isHexDigit d = true)
    (hne : hs ≠ []) (hv : hexValue hs = c.toNat) :
    replaceAll (before ++ (c!"&#x" ++ hs ++ c!";") ++ rest) = (replaceAll rest).map fun r => before ++ c :: r := by
  rw [replaceAll_repl, List.append_assoc, repl_plain hb, repl_hex hne (fun d h => (hexDigit_mem (hd d h)).1)]
  have h1 : replaceHex hs = .ok [c] := by
    unfold replaceHex
    have : (hs.isEmpty || !hs.all isHexA) = false := by
      simp only [Bool.or_eq_false_iff, Bool.not_eq_false', List.all_eq_true]
      exact ⟨by cases hs <;> simp_all, fun d h => (hexDigit_mem (hd d h)).2⟩
    rw [this, hexNat_eq hd, hv, pyChr_char]
    rfl
  rw [h1, replaceAll_repl, repl_prev (some ';') none]
  cases repl none rest <;> rfl

example : replaceAll c!"a &#0228;&#xE4;&#xe4; &amp;" = .ok c!"a äää &" := by decide +kernel

/-- **C32**: a named reference is replaced by the character of the table `html.entities.name2codepoint`, `&nbsp;` by a
blank; an unknown name raises a `KeyError`. -/
theorem C32_named (w before rest : Str) (hb : '&' ∉ before) (hw : w ≠ [])
    (hd : ∀ d ∈ w, ('a' ≤ d ∧ d ≤ 'z') ∨ ('A' ≤ d ∧ d ≤ 'Z')) :
    replaceAll (before ++ ('&' :: w ++ c!";") ++ rest) =
      if w = c!"nbsp" then (replaceAll rest).map fun r => before ++ ' ' :: r
      else match name2codepointTable.lookup (strKey w) with
        | some n => (replaceAll rest).map fun r => before ++ Char.ofNat n :: r
        | none => .error .keyError := by
  have hm : ∀ c ∈ w, nameSet.mem c = true := by
    intro c hc
    have := hd c hc
    simp only [Char.le_def, UInt32.le_iff_toNat_le] at this
    have e : c.val.toNat = c.toNat := rfl
    have ca : 'a'.val.toNat = 'a'.toNat := rfl
    have cf : 'z'.val.toNat = 'z'.toNat := rfl
    have cA : 'A'.val.toNat = 'A'.toNat := rfl
    have cF : 'Z'.val.toNat = 'Z'.toNat := rfl
    simp only [nameSet, CSet.mem, Bool.or_eq_true, Bool.and_eq_true, decide_eq_true_eq]
    omega
  rw [replaceAll_repl, List.append_assoc, repl_plain hb, repl_named hw hm, replaceAll_repl, repl_prev (some ';') none]
  unfold replaceNamed
  split
  · cases repl none rest <;> rfl
  · cases name2codepointTable.lookup (strKey w) with
    | none => rfl
    | some n => cases repl none rest <;> rfl

example : replaceAll c!"M&uuml;hl&nbsp;&amp;" = .ok c!"Mühl &" ∧ replaceAll c!"&foo;" = .error .keyError := by
  decide +kernel

/-! ### When does decoding fail? -/

/-- the value of a string of decimal digits (of any script) -/
def decValue (ds : Str) : Nat := ds.foldl (fun n c => 10 * n + (decimal? c).getD 0) 0

theorem decimal_us {c : Char} (h : (decimal? c).isSome) : c ≠ '_' := by rintro rfl; exact absurd h (by decide)

theorem intDigits_dec {ds : Str} (h : ∀ c ∈ ds, (decimal? c).isSome) (acc cnt : Nat) :
    intDigits acc cnt false ds = some (ds.foldl (fun n c => 10 * n + (decimal? c).getD 0) acc, cnt + ds.length) := by
  induction ds generalizing acc cnt with
  | nil => simp [intDigits]
  | cons c ds ih =>
    have hc := h c (by simp)
    simp only [intDigits, decimal_us hc, if_false]
    obtain ⟨d, hd⟩ := Option.isSome_iff_exists.1 hc
    simp only [hd]
    rw [ih (fun d hd => h d (by simp [hd]))]
    simp [hd]
    omega

theorem isSpace_not_decimal {c : Char} (h : isIntSpace c = true) : decimal? c = none := by
  have key : ∀ n : Nat, c.toNat = n → (if n < 128 then (if 48 ≤ n && n ≤ 57 then some (n - 48) else none)
      else (Py.zeroDigits.find? fun z => z ≤ n && n ≤ z + 9).map fun z => n - z) = none → decimal? c = none := by
    intro n hn h
    unfold decimal?
    rw [hn]
    exact h
  unfold isIntSpace at h
  dsimp only at h
  split at h
  · rename_i hl
    unfold decimal?
    simp only [Bool.or_eq_true, Bool.and_eq_true, decide_eq_true_eq, beq_iff_eq] at h
    simp only [if_pos hl]
    rw [if_neg (by simp; omega)]
  · rename_i hl
    unfold isSpace at h
    simp only [Bool.or_eq_true, Bool.and_eq_true, decide_eq_true_eq, beq_iff_eq] at h
    have : c.toNat = 0x85 ∨ c.toNat = 0xA0 ∨ c.toNat = 0x1680 ∨ c.toNat = 0x2000 ∨ c.toNat = 0x2001 ∨
        c.toNat = 0x2002 ∨ c.toNat = 0x2003 ∨ c.toNat = 0x2004 ∨ c.toNat = 0x2005 ∨ c.toNat = 0x2006 ∨
        c.toNat = 0x2007 ∨ c.toNat = 0x2008 ∨ c.toNat = 0x2009 ∨ c.toNat = 0x200A ∨ c.toNat = 0x2028 ∨
        c.toNat = 0x2029 ∨ c.toNat = 0x202F ∨ c.toNat = 0x205F ∨ c.toNat = 0x3000 := by omega
    rcases this with h | h | h | h | h | h | h | h | h | h | h | h | h | h | h | h | h | h | h <;>
      exact key _ h (by decide +kernel)

theorem pyInt_dec {ds : Str} (hne : ds ≠ []) (hall : ∀ c ∈ ds, (decimal? c).isSome) :
    pyInt ds = if ds.length ≤ 4300 then some (decValue ds : Int) else none := by
  unfold pyInt
  have hstrip : stripP isIntSpace ds = ds := by
    have : ∀ c ∈ ds, isIntSpace c = false := by
      intro c hc
      have h1 := hall c hc
      cases h2 : isIntSpace c with
      | false => rfl
      | true => rw [isSpace_not_decimal h2] at h1; simp at h1
    refine stripP_id (fun c hc => this c ?_) (fun c hc => this c ?_)
    · cases ds <;> simp_all
    · exact List.mem_of_getLast? hc
  rw [hstrip]
  have hn : natOf ds = if ds.length ≤ 4300 then some (decValue ds) else none := by
    cases ds with
    | nil => simp at hne
    | cons c ds =>
      unfold natOf
      obtain ⟨d, hd⟩ := Option.isSome_iff_exists.1 (hall c (by simp))
      have hds : ∀ d ∈ ds, (decimal? d).isSome := fun d hd => hall d (by simp [hd])
      simp only [hd, intDigits_dec hds]
      unfold decValue
      simp only [List.foldl_cons, hd, List.length_cons, Nat.mul_zero, Nat.zero_add, Option.getD_some]
      rw [show 1 + ds.length = ds.length + 1 by omega]
      rfl
  split
  · exact absurd (hall '-' (by simp)) (by decide)
  · exact absurd (hall '+' (by simp)) (by decide)
  · rw [hn]; split <;> rfl

/-- a reference that cannot be decoded, and the exception: an unknown name, or a number that is no code point.
(Decimal numbers of more than 4300 digits are refused by `int()`, references to surrogates are outside the model.) -/
inductive BadRef : Str → PyErr → Prop
  | named (w : Str) : (∀ c ∈ w, c.isAlpha) → name2codepointTable.lookup (strKey w) = none → BadRef ('&' :: w ++ c!";") .keyError
  | number (ds : Str) (e : PyErr) : (∀ c ∈ ds, (decimal? c).isSome) → (∀ c : Char, decValue ds ≠ c.toNat) ∨ 4300 < ds.length →
      BadRef (c!"&#" ++ ds ++ c!";") e
  | hex (hs : Str) (e : PyErr) : (∀ c ∈ hs, isHexDigit c) → (∀ c : Char, hexValue hs ≠ c.toNat) → BadRef (c!"&#x" ++ hs ++ c!";") e

theorem hexSet_hex {c : Char} (h : hexSet.mem c = true) : isHexDigit c = true := by
  simp only [hexSet, CSet.mem, Bool.or_eq_true, Bool.and_eq_true, decide_eq_true_eq] at h
  unfold isHexDigit
  simp only [Bool.or_eq_true, Bool.and_eq_true, decide_eq_true_eq, isDigit_iff, Char.le_def, UInt32.le_iff_toNat_le]
  have e : c.val.toNat = c.toNat := rfl
  have ca : 'a'.val.toNat = 'a'.toNat := rfl
  have cf : 'f'.val.toNat = 'f'.toNat := rfl
  have cA : 'A'.val.toNat = 'A'.toNat := rfl
  have cF : 'F'.val.toNat = 'F'.toNat := rfl
  have d0 : '0'.toNat = 48 := rfl
  have d9 : '9'.toNat = 57 := rfl
  omega

theorem plus_grp_inv {g : DG} {cs : CSet} {s s' : St DG}
    (h : s' ∈ (Re.seq (.grp g (plus true (.cls cs))) (.cls (.chr ';')) : Re DG).res s) :
    ∃ w, w ≠ [] ∧ (∀ c ∈ w, cs.mem c = true) ∧ s.rest = w ++ ';' :: s'.rest ∧ s'.caps = (g, w) :: s.caps := by
  rw [mem_res_seq] at h
  obtain ⟨t, h1, h2⟩ := h
  rw [mem_res_grp] at h1
  obtain ⟨u, hu, rfl⟩ := h1
  rw [mem_res_cls] at h2
  obtain ⟨d, r, h3, h4, rfl⟩ := h2
  obtain ⟨w, hw⟩ := Re.res_reach hu
  obtain ⟨hne, hall⟩ := Creole.plus_cls_all hu hw
  simp only [CSet.mem, beq_iff_eq] at h4
  subst h4
  refine ⟨w, hne, hall, by rw [hw.rest]; simp only at h3; rw [h3], ?_⟩
  simp only [hw.consumed_eq]
  have : u.caps = s.caps := Creole.Re.res_caps_eq rfl hu
  rw [this]

theorem lit_cls_inv {γ : Type} [DecidableEq γ] {a : Char} {b : Re γ} {s s' : St γ} (h : s' ∈ (Re.seq (.cls (.chr a)) b).res s) :
    ∃ r, s.rest = a :: r ∧ s' ∈ b.res ⟨some a, r, s.caps⟩ := by
  rw [mem_res_seq] at h
  obtain ⟨t, h1, h2⟩ := h
  rw [mem_res_cls] at h1
  obtain ⟨c, r, h3, h4, rfl⟩ := h1
  simp only [CSet.mem, beq_iff_eq] at h4
  subst h4
  exact ⟨r, h3, h2⟩

theorem replaceEntity_error {s s' : St DG} {t : Str} {e : PyErr} (hc : s.caps = []) (h : s' ∈ entitiesRe.res s)
    (ht : s.rest = t ++ s'.rest) (he : replaceEntity ⟨t, s'.caps⟩ = .error e) : BadRef t e := by
  rw [entitiesRe_eq, mem_res_alt, mem_res_alt] at h
  rcases h with h | h | h
  · obtain ⟨r1, e1, h⟩ := lit_cls_inv h
    obtain ⟨r2, e2, h⟩ := lit_cls_inv h
    obtain ⟨w, hne, hall, e3, e4⟩ := plus_grp_inv h
    simp only at e2 e3 e4
    rw [hc] at e4
    have : t = c!"&#" ++ w ++ c!";" := by
      rw [e1, e2, e3] at ht
      have : c!"&#" ++ w ++ c!";" ++ s'.rest = t ++ s'.rest := by rw [← ht]; simp
      exact (List.append_cancel_right this).symm
    subst this
    rw [e4] at he
    have he : replaceNumber w = .error e := he
    unfold replaceNumber at he
    rw [pyInt_dec hne (fun c hc => by have := hall c hc; simpa [CSet.mem] using this)] at he
    refine .number w e (fun c hc => by have := hall c hc; simpa [CSet.mem] using this) ?_
    by_cases hl : w.length ≤ 4300
    · left
      intro c hv
      rw [if_pos hl, hv] at he
      have : (pyChr c.toNat).map (fun c => [c]) = Except.error e := he
      rw [pyChr_char] at this
      simp [Except.map] at this
    · right; omega
  · obtain ⟨r1, e1, h⟩ := lit_cls_inv h
    obtain ⟨r2, e2, h⟩ := lit_cls_inv h
    obtain ⟨r3, e2', h⟩ := lit_cls_inv h
    obtain ⟨w, hne, hall, e3, e4⟩ := plus_grp_inv h
    simp only at e2 e3 e4 e2'
    rw [hc] at e4
    have : t = c!"&#x" ++ w ++ c!";" := by
      rw [e1, e2, e2', e3] at ht
      have : c!"&#x" ++ w ++ c!";" ++ s'.rest = t ++ s'.rest := by rw [← ht]; simp
      exact (List.append_cancel_right this).symm
    subst this
    rw [e4] at he
    have he : replaceHex w = .error e := he
    refine .hex w e (fun d h => hexSet_hex (hall d h)) ?_
    intro c hv
    unfold replaceHex at he
    have : (w.isEmpty || !w.all isHexA) = false := by
      simp only [Bool.or_eq_false_iff, Bool.not_eq_false', List.all_eq_true]
      exact ⟨by cases w <;> simp_all, fun d h => (hexDigit_mem (hexSet_hex (hall d h))).2⟩
    rw [this, hexNat_eq (fun d h => hexSet_hex (hall d h)), hv, pyChr_char] at he
    simp [Except.map] at he
  · obtain ⟨r1, e1, h⟩ := lit_cls_inv h
    obtain ⟨w, hne, hall, e3, e4⟩ := plus_grp_inv h
    simp only at e3 e4
    rw [hc] at e4
    have : t = '&' :: w ++ c!";" := by
      rw [e1, e3] at ht
      have : '&' :: w ++ c!";" ++ s'.rest = t ++ s'.rest := by rw [← ht]; simp
      exact (List.append_cancel_right this).symm
    subst this
    rw [e4] at he
    have he : replaceNamed w = .error e := he
    unfold replaceNamed at he
    split at he
    · simp at he
    · split at he
      · simp at he
      · rename_i hlk
        simp only [Except.error.injEq] at he
        subst he
        refine .named w (fun c hc => ?_) hlk
        have := hall c hc
        simp only [nameSet, CSet.mem, Bool.or_eq_true, Bool.and_eq_true, decide_eq_true_eq] at this
        simp only [Char.isAlpha, Char.isUpper, Char.isLower, Bool.or_eq_true, Bool.and_eq_true, decide_eq_true_eq,
          ge_iff_le, UInt32.le_iff_toNat_le]
        exact this.symm

theorem replSegs_error {l : List (Seg DG)} {e : PyErr} (h : replSegs l = .error e) :
    ∃ m, Seg.hit m ∈ l ∧ replaceEntity m = .error e := by
  induction l with
  | nil => simp [replSegs] at h
  | cons x l ih =>
    simp only [replSegs] at h
    cases x with
    | skip c =>
      cases hl : replSegs l with
      | error e' =>
        rw [hl] at h
        have : e' = e := by simpa [Bind.bind, Except.bind] using h
        subst this
        obtain ⟨m, h1, h2⟩ := ih hl
        exact ⟨m, by simp [h1], h2⟩
      | ok b => rw [hl] at h; simp [Bind.bind, Except.bind, Pure.pure, Except.pure] at h
    | hit m =>
      cases hm : replaceEntity m with
      | error e' =>
        simp only [hm] at h
        have : e' = e := by simpa [Bind.bind, Except.bind] using h
        subst this
        exact ⟨m, by simp, hm⟩
      | ok a =>
        simp only [hm] at h
        cases hl : replSegs l with
        | error e' =>
          rw [hl] at h
          have : e' = e := by simpa [Bind.bind, Except.bind] using h
          subst this
          obtain ⟨m, h1, h2⟩ := ih hl
          exact ⟨m, by simp [h1], h2⟩
        | ok b => rw [hl] at h; simp [Bind.bind, Except.bind, Pure.pure, Except.pure] at h

/-- **C32**: if decoding fails then the text contains a reference with an unknown name or one to a number that is no
code point. -/
theorem C32_only_bad_references_fail (s : Str) (e : PyErr) (h : replaceAll s = .error e) :
    ∃ before ref rest, s = before ++ ref ++ rest ∧ BadRef ref e := by
  rw [replaceAll_eq] at h
  obtain ⟨m, hm, he⟩ := replSegs_error h
  obtain ⟨pre, rest, prev, s', h1, h2, h3, h4, _⟩ := (Re.scanAux_hit (pre := []) rfl rfl m hm).ex
  refine ⟨pre, m.text, s'.rest, by rw [List.append_assoc, ← h4]; exact h1, ?_⟩
  refine replaceEntity_error (s := ⟨prev, rest, []⟩) rfl h2 h4 ?_
  rw [← h3]
  exact he

example : replaceAll c!"a&#1114112;b" = .error .valueError ∧ replaceAll c!"&bogus;" = .error .keyError ∧
    replaceAll c!"a &b; &#c; &; &amp c" = .error .keyError ∧ replaceAll c!"a &#c; &; &amp c" = .ok c!"a &#c; &; &amp c" := by
  decide +kernel

end Verif.Props
