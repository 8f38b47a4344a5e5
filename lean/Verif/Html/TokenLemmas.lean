import Verif.Html.Tokenizer
import Verif.Py.ReHead
import Verif.Spec.HtmlDoc

/-!
# Reading written HTML token by token
-/

namespace Verif.Html

open Verif Py Spec.Cr Spec.Hd

/-! ## Repetitions -/

section
variable {γ : Type} [DecidableEq γ]

omit [DecidableEq γ] in
theorem starR_stop {f : St γ → List (St γ)} {n : Nat} {s : St γ} (h : f s = []) : starR true f n s = [s] := by
  cases n <;> simp [starR, h]

/-- a greedy repetition stops where its body does not match -/
theorem head_star_stop {a : Re γ} {s : St γ} (h : a.res s = []) : ((Re.star true a).res s).head? = some s := by
  simp [Re.res, starR_stop h]

omit [DecidableEq γ] in
/-- more fuel than characters changes nothing -/
theorem starR_fuel {f : St γ → List (St γ)} (hf : ∀ s s', s' ∈ f s → s'.rest.length < s.rest.length) :
    ∀ (n m : Nat) (s : St γ), s.rest.length ≤ n → s.rest.length ≤ m → starR true f n s = starR true f m s := by
  intro n
  induction n with
  | zero =>
    intro m s hn _
    have h0 : f s = [] := by
      cases hfs : f s with
      | nil => rfl
      | cons x l => have := hf s x (by simp [hfs]); omega
    rw [starR_stop h0, starR_stop h0]
  | succ n ih =>
    intro m s hn hm
    cases m with
    | zero =>
      have h0 : f s = [] := by
        cases hfs : f s with
        | nil => rfl
        | cons x l => have := hf s x (by simp [hfs]); omega
      rw [starR_stop h0, starR_stop h0]
    | succ m =>
      simp only [starR, if_true]
      congr 1
      have : ∀ l : List (St γ), (∀ x ∈ l, x ∈ f s) → l.flatMap (starR true f n) = l.flatMap (starR true f m) := by
        intro l
        induction l with
        | nil => intro _; rfl
        | cons x l ihl =>
          intro hl
          rw [List.flatMap_cons, List.flatMap_cons, ihl (fun y hy => hl y (by simp [hy]))]
          have := hf s x (hl x (by simp))
          rw [ih m x (by omega) (by omega)]
      exact this _ (fun x hx => hx)

/-- a greedy repetition whose body matches -/
theorem head_star_step {a : Re γ} {s x : St γ} (ha : (a.res s).head? = some x)
    (hf : ∀ s s', s' ∈ a.res s → s'.rest.length < s.rest.length) :
    ((Re.star true a).res s).head? = ((Re.star true a).res x).head? := by
  simp only [Re.res]
  have hx : x ∈ a.res s := List.mem_of_mem_head? (by simp [ha])
  have hlt := hf s x hx
  cases hn : s.rest.length with
  | zero => omega
  | succ n =>
    simp only [starR, if_true]
    cases hl : a.res s with
    | nil => rw [hl] at ha; simp at ha
    | cons y l =>
      rw [hl] at ha
      simp at ha
      subst ha
      rw [List.flatMap_cons, List.append_assoc, List.head?_append, starR_fuel hf n _ y (by omega) (Nat.le_refl _)]
      cases h : starR true a.res y.rest.length y with
      | nil => cases hy : y.rest.length <;> rw [hy] at h <;> simp [starR] at h
      | cons z t => rfl

theorem head_opt {a : Re γ} {s x : St γ} (ha : (a.res s).head? = some x) : ((Re.opt a).res s).head? = some x :=
  Re.head_alt_left ha

end

/-! ## The loop -/

theorem goahead_prev (p q : Option Char) (s : Str) : goahead none p s 0 = goahead none q s 0 := by
  cases s with
  | nil => rfl
  | cons c cs => rfl

theorem goahead_drop (cdata : Option Str) (rest : Str) : ∀ (w : Str) (p : Option Char), w ≠ [] →
    goahead cdata p (w ++ rest) w.length = goahead cdata w.getLast? rest 0 := by
  intro w
  induction w with
  | nil => intro p h; simp at h
  | cons c w ih =>
    intro p _
    cases w with
    | nil => simp [goahead]
    | cons d w =>
      have := ih (some c) (by simp)
      simp only [List.length_cons, List.cons_append] at this ⊢
      rw [goahead, this]
      simp

/-- the events of a text follow the events `evs` -/
def after (evs : List Event) (r : List Event × Option PyErr) : List Event × Option PyErr := (evs ++ r.1, r.2)

theorem after_nil (r : List Event × Option PyErr) : after [] r = r := rfl

theorem after_after (a b : List Event) (r : List Event × Option PyErr) : after a (after b r) = after (a ++ b) r := by
  simp [after]

theorem tokens_go {w rest : Str} {evs : List Event} (hw : w ≠ []) (h : step none none (w ++ rest) = .go evs w.length none) :
    tokens (w ++ rest) = after evs (tokens rest) := by
  cases w with
  | nil => simp at hw
  | cons c w =>
    unfold tokens
    simp only [List.cons_append] at h ⊢
    rw [goahead, h]
    have hd : goahead none (some c) (w ++ rest) w.length = goahead none none rest 0 := by
      cases w with
      | nil => exact goahead_prev _ _ _
      | cons d w => rw [goahead_drop _ _ _ _ (by simp)]; exact goahead_prev _ _ _
    simp only [List.length_cons, Nat.add_sub_cancel, hd]
    rfl

theorem step_prev (p q : Option Char) (s : Str) : step none p s = step none q s := rfl

/-! ## Text and entities -/

/-- what follows a text: nothing, a tag or an entity -/
def atMarkup (rest : Str) : Bool := (rest.head?).all fun c => c = '<' || c = '&'

theorem tokens_data {s rest : Str} (hs : s ≠ []) (hm : ∀ c ∈ s, c ≠ '<' ∧ c ≠ '&') (hr : atMarkup rest = true) :
    tokens (s ++ rest) = after [.data s] (tokens rest) := by
  refine tokens_go hs ?_
  have ht : (s ++ rest).takeWhile (fun c => !(decide (c = '<') || decide (c = '&'))) = s := by
    rw [List.takeWhile_append_of_pos (by intro c hc; have := hm c hc; simp [this.1, this.2])]
    cases rest with
    | nil => simp
    | cons c t =>
      simp only [atMarkup, List.head?_cons, Option.all_some, Bool.or_eq_true, decide_eq_true_eq] at hr
      rw [List.takeWhile_cons_of_neg (by rcases hr with rfl | rfl <;> simp)]
      simp
  unfold step
  simp only [ht]
  simp [hs]

/-- lower case letters and digits -/
def nameChars : List Char := "abcdefghijklmnopqrstuvwxyz0123456789".toList

theorem mem_nameChars {c : Char} (h : (letter c || c.isDigit) = true) : c ∈ nameChars := by
  have key : ∀ n : Nat, (97 ≤ n ∧ n ≤ 122) ∨ (48 ≤ n ∧ n ≤ 57) → n ∈ nameChars.map Char.toNat := by
    intro n hn
    have : nameChars.map Char.toNat = (List.range 26).map (· + 97) ++ (List.range 10).map (· + 48) := by decide
    rw [this]
    simp only [List.mem_append, List.mem_map, List.mem_range]
    rcases hn with hn | hn
    · exact Or.inl ⟨n - 97, by omega, by omega⟩
    · exact Or.inr ⟨n - 48, by omega, by omega⟩
  have h2 := key c.toNat (by
    simp only [letter, Char.isDigit, Bool.or_eq_true, Bool.and_eq_true, decide_eq_true_eq] at h
    rcases h with ⟨a, b⟩ | ⟨a, b⟩
    · left
      have ha : ('a' : Char).toNat ≤ c.toNat := a
      have hb : c.toNat ≤ ('z' : Char).toNat := b
      exact ⟨ha, hb⟩
    · right
      have ha : ('0' : Char).toNat ≤ c.toNat := a
      have hb : c.toNat ≤ ('9' : Char).toNat := b
      exact ⟨ha, hb⟩)
  obtain ⟨d, hd, e⟩ := List.mem_map.1 h2
  have : d = c := by
    apply Char.ext
    exact UInt32.toNat_inj.1 e
  rw [← this]; exact hd

theorem letter_mem {c : Char} (h : letter c = true) : c ∈ nameChars.take 26 := by
  have h1 := mem_nameChars (c := c) (by simp [h])
  have : nameChars = nameChars.take 26 ++ nameChars.drop 26 := (List.take_append_drop 26 _).symm
  rw [this, List.mem_append] at h1
  rcases h1 with h1 | h1
  · exact h1
  · have : ∀ d ∈ nameChars.drop 26, letter d = false := by decide
    rw [this c h1] at h; simp at h

/-- what holds for all characters of names -/
theorem nameChar_all {P : Char → Bool} (hP : nameChars.all P = true) {c : Char} (h : (letter c || c.isDigit) = true) : P c = true :=
  List.all_eq_true.1 hP c (mem_nameChars h)

theorem letter_all {P : Char → Bool} (hP : (nameChars.take 26).all P = true) {c : Char} (h : letter c = true) : P c = true :=
  List.all_eq_true.1 hP c (letter_mem h)

theorem consumed_eq (w r : Str) : consumed (w ++ r) r = w := by unfold consumed; simp

/-- an entity with a name of letters -/
theorem tokens_entity {name rest : Str} (hn : name ≠ []) (hm : ∀ c ∈ name, letter c = true) :
    tokens ('&' :: name ++ ';' :: rest) = after [.entityref name] (tokens rest) := by
  have hs : '&' :: name ++ ';' :: rest = ('&' :: name ++ [';']) ++ rest := by simp
  rw [hs]
  refine tokens_go (by simp) ?_
  obtain ⟨c, w, rfl⟩ : ∃ c w, name = c :: w := by cases name with | nil => simp at hn | cons c w => exact ⟨c, w, rfl⟩
  have hmatch : entityRe.matchAt false none ('&' :: (c :: w) ++ ';' :: rest) = some ⟨some ';', rest, [(.name, c :: w)]⟩ := by
    rw [Re.matchAt_false]
    have h1 : ((Re.seq (.cls alpha) (.star true (.cls (.union (.union (.union (.union (.chr '-') (.chr '.'))
        (.range 'a' 'z')) (.range 'A' 'Z')) (.range '0' '9')))) : TR).res ⟨some '&', c :: (w ++ ';' :: rest), []⟩).head? =
        some ⟨(w.getLast?).or (some c), ';' :: rest, []⟩ := by
      refine Re.head_seq (x := ⟨some c, w ++ ';' :: rest, []⟩) (Re.head_cls ?_) (Re.head_star_cls ?_ w (some c) ?_)
      · exact letter_all (P := alpha.mem) (by decide) (hm c (by simp))
      · intro d t hd
        simp only [List.cons.injEq] at hd
        rw [← hd.1]; rfl
      · intro d hd
        exact letter_all (P := CSet.mem _) (by decide) (hm d (by simp [hd]))
    have h2 := Re.head_grp (g := TG.name) h1
    dsimp only at h2
    rw [show consumed (c :: (w ++ ';' :: rest)) (';' :: rest) = c :: w from consumed_eq (c :: w) (';' :: rest)] at h2
    unfold entityRe
    simp only [Re.cat]
    exact Re.head_seq (Re.head_cls rfl) (Re.head_seq h2 (Re.head_cls (by decide)))
  have hc : c ≠ '#' := by
    have := letter_all (P := (· != '#')) (by decide) (hm c (by simp))
    simpa using this
  have : step none none ('&' :: (c :: w) ++ ';' :: rest) = parseEntity ('&' :: (c :: w) ++ ';' :: rest) := by
    unfold step
    simp only [List.cons_append]
    rw [List.takeWhile_cons_of_neg (by simp)]
    simp only [List.isEmpty_nil, Bool.not_true, Bool.false_eq_true, if_false]
    split
    · rename_i h; simp at h
    · rename_i h; simp only [List.cons.injEq] at h; exact absurd h.2.1 hc
    · rfl
    · rename_i h1 h2 h3; exact absurd rfl (h3 _)
  rw [← hs, this]
  unfold parseEntity
  rw [hmatch]
  have hcon : consumed ('&' :: (c :: w) ++ ';' :: rest) rest = '&' :: (c :: w) ++ [';'] := by
    have := consumed_eq ('&' :: (c :: w) ++ [';']) rest
    simpa using this
  simp only [hcon]
  rw [if_pos (by rw [List.getLast?_append]; rfl)]
  rfl

/-! ## End tags -/

theorem upTo_append (c : Char) : ∀ (w r : Str), (∀ d ∈ w, d ≠ c) → upTo c (w ++ c :: r) = some (w.length + 1) := by
  intro w
  induction w with
  | nil => intro r _; simp [upTo]
  | cons d w ih =>
    intro r h
    simp only [List.cons_append, upTo]
    rw [if_neg (h d (by simp)), ih r (fun x hx => h x (by simp [hx]))]
    simp

theorem lower_name : ∀ {s : Str}, (∀ c ∈ s, (letter c || c.isDigit) = true) → lower s = s := by
  intro s
  induction s with
  | nil => intro _; rfl
  | cons c s ih =>
    intro h
    have h1 := ih (fun x hx => h x (by simp [hx]))
    have h2 := nameChar_all (P := fun c => lowerAscii c == c) (by decide) (h c (by simp))
    simp only [beq_iff_eq] at h2
    simp only [lower, List.map_cons] at h1 ⊢
    rw [h1, h2]

theorem tagOk_cons {tag : Str} (h : tagOk tag = true) :
    ∃ c w, tag = c :: w ∧ letter c = true ∧ ∀ d ∈ c :: w, (letter d || d.isDigit) = true := by
  simp only [tagOk, Bool.and_eq_true] at h
  cases tag with
  | nil => simp at h
  | cons c w =>
    refine ⟨c, w, rfl, by simpa using h.1.1.1.1, fun d hd => ?_⟩
    exact List.all_eq_true.1 h.1.1.1.2 d hd

theorem tokens_end {tag rest : Str} (h : tagOk tag = true) :
    tokens (c!"</" ++ tag ++ '>' :: rest) = after [.end_ tag] (tokens rest) := by
  obtain ⟨c, w, rfl, hc, hw⟩ := tagOk_cons h
  have hs : c!"</" ++ (c :: w) ++ '>' :: rest = (c!"</" ++ (c :: w) ++ ['>']) ++ rest := by simp
  rw [hs]
  refine tokens_go (by simp) ?_
  rw [← hs]
  have hmatch : endtagRe.matchAt false none ('<' :: '/' :: c :: (w ++ '>' :: rest)) = some ⟨some '>', rest, [(.name, c :: w)]⟩ := by
    rw [Re.matchAt_false]
    have h1 : ((Re.seq (.cls alpha) (.star true (.cls (.union (.union (.union (.union (.union (.union (.chr '-') (.chr '.'))
        (.range 'a' 'z')) (.range 'A' 'Z')) (.range '0' '9')) (.chr ':')) (.chr '_')))) : TR).res ⟨some '/', c :: (w ++ '>' :: rest), []⟩).head? =
        some ⟨(w.getLast?).or (some c), '>' :: rest, []⟩ := by
      refine Re.head_seq (x := ⟨some c, w ++ '>' :: rest, []⟩) (Re.head_cls ?_) (Re.head_star_cls ?_ w (some c) ?_)
      · exact letter_all (P := alpha.mem) (by decide) hc
      · intro d t hd
        simp only [List.cons.injEq] at hd
        rw [← hd.1]; rfl
      · intro d hd
        exact nameChar_all (P := CSet.mem _) (by decide) (hw d (by simp [hd]))
    have h2 := Re.head_grp (g := TG.name) h1
    dsimp only at h2
    rw [show consumed (c :: (w ++ '>' :: rest)) ('>' :: rest) = c :: w from consumed_eq (c :: w) ('>' :: rest)] at h2
    have hws : ∀ (p : Option Char) (d : Char) (r : Str) (caps : List (TG × Str)), isSpace d = false →
        ((wsp : TR).res ⟨p, d :: r, caps⟩).head? = some ⟨p, d :: r, caps⟩ := by
      intro p d r caps hd
      exact head_star_stop (Re.res_cls_nil (by intro e t he; simp only [List.cons.injEq] at he; rw [← he.1]; exact hd))
    unfold endtagRe
    simp only [Re.cat]
    refine Re.head_seq (Re.head_cls rfl) (Re.head_seq (Re.head_cls rfl) (Re.head_seq (hws _ _ _ _ ?_) (Re.head_seq h2
      (Re.head_seq (hws _ _ _ _ rfl) (Re.head_cls rfl)))))
    have := letter_all (P := fun c => !isSpace c) (by decide) hc
    simpa using this
  have hstep : step none none (c!"</" ++ (c :: w) ++ '>' :: rest) = parseEnd none ('<' :: '/' :: c :: (w ++ '>' :: rest)) := by
    unfold step
    simp only [List.cons_append, List.nil_append]
    rw [List.takeWhile_cons_of_neg (by simp)]
    rfl
  rw [hstep]
  unfold parseEnd
  have hup : upTo '>' ('/' :: c :: (w ++ '>' :: rest)) = some (w.length + 3) := by
    have := upTo_append '>' ('/' :: c :: w) rest (by
      intro d hd
      simp only [List.mem_cons] at hd
      rcases hd with rfl | hd
      · decide
      · have := nameChar_all (P := (· != '>')) (by decide) (hw d (by simpa using hd))
        simpa using this)
    simpa using this
  rw [List.tail_cons, hup, hmatch]
  simp only [capGet, List.lookup, Option.getD_some, beq_self_eq_true, lower_name hw]
  simp

end Verif.Html
