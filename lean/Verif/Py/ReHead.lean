import Verif.Py.ReLemmas

/-!
# The first result of an expression, and scanning step by step
-/

namespace Verif

open Py

variable {γ : Type} [DecidableEq γ]

/-! ## Scanning -/

def Seg.text : Seg γ → Str
  | .skip c => [c]
  | .hit m => m.text

theorem Re.scanAux_text (r : Re γ) : ∀ (rest : Str) (prev : Option Char) (k : Nat),
    (r.scanAux prev rest k).flatMap Seg.text = rest.drop k := by
  intro rest
  induction rest with
  | nil =>
    intro prev k
    simp only [Re.scanAux]
    split <;> simp [Seg.text]
  | cons c cs ih =>
    intro prev k
    cases k with
    | succ k => simp [Re.scanAux, ih]
    | zero =>
      simp only [Re.scanAux]
      have key : ∀ s' : St γ, s' ∈ r.res ⟨prev, c :: cs, []⟩ → ¬ (c :: cs).length - s'.rest.length = 0 →
          consumed (c :: cs) s'.rest ++ cs.drop ((c :: cs).length - s'.rest.length - 1) = c :: cs := by
        intro s' hm hn
        obtain ⟨w, hr⟩ := Re.res_reach hm
        have hc := hr.consumed_eq
        have hrest := hr.rest
        simp only at hc hrest
        rw [hc]
        cases w with
        | nil => rw [hrest] at hn; simp at hn
        | cons d w =>
          have hd : d = c ∧ cs = w ++ s'.rest := by
            simp only [List.cons_append, List.cons.injEq] at hrest
            exact ⟨hrest.1.symm, hrest.2⟩
          obtain ⟨rfl, hcs⟩ := hd
          have hl : (d :: cs).length - s'.rest.length - 1 = w.length := by
            rw [hcs]; simp; omega
          rw [hl, hcs]
          simp
      cases hm : r.matchAt false prev (c :: cs) with
      | none => simp [Seg.text, ih]
      | some s' =>
        simp only
        split
        · cases hm' : r.matchAt true prev (c :: cs) with
          | none => simp [Seg.text, ih]
          | some s'' =>
            have hn : ¬ (c :: cs).length - s''.rest.length = 0 := by
              rw [Re.matchAt_true] at hm'
              have := List.find?_some hm'
              obtain ⟨w, hr⟩ := Re.res_reach (List.mem_of_find?_eq_some hm')
              have hrest := hr.rest
              simp only at hrest
              have hlen := congrArg List.length hrest
              simp at this hlen ⊢
              omega
            have hmem : s'' ∈ r.res ⟨prev, c :: cs, []⟩ := Re.matchAt_mem hm'
            simp only [List.flatMap_cons, Seg.text, ih, List.nil_append]
            rw [key s'' hmem hn]
            rfl
        · rename_i hn
          simp only [List.flatMap_cons, Seg.text, ih]
          rw [key s' (Re.matchAt_mem hm) hn]
          rfl

/-- the segments of a scan make up the scanned string -/
theorem Re.scan_text (r : Re γ) (s : Str) : (r.scan s).flatMap Seg.text = s := by
  unfold Re.scan
  rw [Re.scanAux_text]; rfl

theorem Re.scanAux_drop (r : Re γ) (rest : Str) : ∀ (w : Str) (prev : Option Char), w ≠ [] →
    r.scanAux prev (w ++ rest) w.length = r.scanAux w.getLast? rest 0 := by
  intro w
  induction w with
  | nil => intro _ h; simp at h
  | cons c w ih =>
    intro prev _
    simp only [List.cons_append, List.length_cons, Re.scanAux]
    cases w with
    | nil => simp
    | cons d w =>
      rw [ih (some c) (by simp)]
      simp

/-- a character at which nothing matches -/
theorem Re.scanAux_skip {r : Re γ} {prev : Option Char} {c : Char} {cs : Str} (h : r.matchAt false prev (c :: cs) = none) :
    r.scanAux prev (c :: cs) 0 = .skip c :: r.scanAux (some c) cs 0 := by
  simp [Re.scanAux, h]

/-- a non-empty match -/
theorem Re.scanAux_take {r : Re γ} {prev : Option Char} {w : Str} {s' : St γ} (hw : w ≠ [])
    (h : r.matchAt false prev (w ++ s'.rest) = some s') :
    r.scanAux prev (w ++ s'.rest) 0 = .hit ⟨w, s'.caps⟩ :: r.scanAux w.getLast? s'.rest 0 := by
  cases w with
  | nil => simp at hw
  | cons c w =>
    simp only [List.cons_append] at h ⊢
    simp only [Re.scanAux, h]
    have hl : (c :: (w ++ s'.rest)).length - s'.rest.length = w.length + 1 := by simp; omega
    rw [hl, if_neg (by omega)]
    have hc : consumed (c :: (w ++ s'.rest)) s'.rest = c :: w := by
      unfold consumed; rw [hl]; simp
    rw [hc]
    congr 1
    have := Re.scanAux_drop r s'.rest (c :: w) none (by simp)
    simpa [Re.scanAux] using this

theorem Re.scanAux_nil {r : Re γ} {prev : Option Char} {k : Nat} (h : r.nullable = false) : r.scanAux prev [] k = [] := by
  simp only [Re.scanAux]
  have : r.matchAt false prev [] = none := by
    rw [Re.matchAt_false, Re.res_nil_of_noStart h (by intro c t ht; simp at ht)]
    rfl
  rw [this]

/-! ## First results -/

theorem Re.head_seq {a b : Re γ} {s x y : St γ} (ha : (a.res s).head? = some x) (hb : (b.res x).head? = some y) :
    ((Re.seq a b).res s).head? = some y := by
  simp only [Re.res]
  cases hl : a.res s with
  | nil => rw [hl] at ha; simp at ha
  | cons z l =>
    rw [hl] at ha
    simp at ha
    subst ha
    rw [List.flatMap_cons, List.head?_append, hb]
    rfl

theorem Re.head_alt_left {a b : Re γ} {s x : St γ} (ha : (a.res s).head? = some x) :
    ((Re.alt a b).res s).head? = some x := by
  simp only [Re.res, List.head?_append, ha]
  rfl

theorem Re.res_alt_right {a b : Re γ} {s : St γ} (ha : a.res s = []) : (Re.alt a b).res s = b.res s := by
  simp only [Re.res, ha, List.nil_append]

theorem Re.head_grp {g : γ} {a : Re γ} {s x : St γ} (ha : (a.res s).head? = some x) :
    ((Re.grp g a).res s).head? = some { x with caps := (g, consumed s.rest x.rest) :: x.caps } := by
  simp only [Re.res, List.head?_map, ha]
  rfl

theorem Re.head_cls {cs : CSet} {p : Option Char} {c : Char} {r : Str} {caps : List (γ × Str)} (h : cs.mem c = true) :
    ((Re.cls cs : Re γ).res ⟨p, c :: r, caps⟩).head? = some ⟨some c, r, caps⟩ := by
  simp [Re.res, h]

theorem Re.res_cls_nil {cs : CSet} {p : Option Char} {r : Str} {caps : List (γ × Str)}
    (h : ∀ c t, r = c :: t → cs.mem c = false) : (Re.cls cs : Re γ).res ⟨p, r, caps⟩ = [] := by
  cases r with
  | nil => rfl
  | cons c t => simp [Re.res, h c t rfl]

theorem Re.res_seq_nil {a b : Re γ} {s : St γ} (h : a.res s = []) : (Re.seq a b).res s = [] := by simp [Re.res, h]

theorem lastOr (w : Str) (p : Option Char) (c : Char) : (w.getLast?).or (some c) = ((c :: w).getLast?).or p := by
  cases w with
  | nil => rfl
  | cons d w =>
    rw [List.getLast?_cons_cons]
    cases h : (d :: w).getLast? with
    | none => simp at h
    | some x => rfl

/-- a greedy repetition of a character class first takes as much as it can -/
theorem Re.head_star_cls {cs : CSet} {caps : List (γ × Str)} {rest : Str} (hr : ∀ c t, rest = c :: t → cs.mem c = false) :
    ∀ (w : Str) (p : Option Char), (∀ c ∈ w, cs.mem c = true) →
    ((Re.star true (.cls cs) : Re γ).res ⟨p, w ++ rest, caps⟩).head? = some ⟨(w.getLast?).or p, rest, caps⟩ := by
  have key : ∀ (w : Str) (p : Option Char) (n : Nat), w.length ≤ n → (∀ c ∈ w, cs.mem c = true) →
      (starR true (Re.cls cs : Re γ).res n ⟨p, w ++ rest, caps⟩).head? = some ⟨(w.getLast?).or p, rest, caps⟩ := by
    intro w
    induction w with
    | nil =>
      intro p n _ _
      cases n with
      | zero => simp [starR]
      | succ n =>
        simp only [starR, List.nil_append, if_true]
        rw [Re.res_cls_nil hr]
        simp
    | cons c w ih =>
      intro p n hn hw
      cases n with
      | zero => simp at hn
      | succ n =>
        have h1 : (Re.cls cs : Re γ).res ⟨p, c :: (w ++ rest), caps⟩ = [⟨some c, w ++ rest, caps⟩] := by
          simp [Re.res, hw c (by simp)]
        simp only [starR, if_true, List.cons_append, h1]
        simp only [List.flatMap_cons, List.flatMap_nil, List.append_nil, List.head?_append]
        rw [ih (some c) n (by simpa using hn) (fun d hd => hw d (by simp [hd])), lastOr w p c]
        rfl
  intro w p hw
  exact key w p _ (by simp) hw

/-- the first result of a non-empty greedy repetition of a character class -/
theorem Re.head_plus_cls {cs : CSet} {caps : List (γ × Str)} {rest : Str} (hr : ∀ c t, rest = c :: t → cs.mem c = false)
    {c : Char} {w : Str} {p : Option Char} (hw : ∀ d ∈ c :: w, cs.mem d = true) :
    ((Re.plus true (.cls cs) : Re γ).res ⟨p, c :: (w ++ rest), caps⟩).head? = some ⟨(c :: w).getLast?, rest, caps⟩ := by
  have h1 : ((Re.cls cs : Re γ).res ⟨p, c :: (w ++ rest), caps⟩).head? = some ⟨some c, w ++ rest, caps⟩ :=
    Re.head_cls (hw c (by simp))
  have h2 := Re.head_star_cls (caps := caps) hr w (some c) (fun d hd => hw d (by simp [hd]))
  have := Re.head_seq h1 h2
  rw [lastOr w none c] at this
  simpa [Re.plus] using this

/-! ## Lazy repetition -/

/-- an expression that matches exactly one character of a set -/
structure Step (b : Re γ) (m : Char → Bool) : Prop where
  nil : ∀ p caps, b.res ⟨p, [], caps⟩ = []
  cons : ∀ p c r caps, b.res ⟨p, c :: r, caps⟩ = if m c then [⟨some c, r, caps⟩] else []

theorem Step.cls (cs : CSet) : Step (.cls cs : Re γ) cs.mem := ⟨fun _ _ => rfl, fun _ _ _ _ => rfl⟩

theorem Step.any : Step (.alt (.cls (.chr '\n')) (.cls .dot) : Re γ) (fun _ => true) := by
  refine ⟨fun _ _ => rfl, fun p c r caps => ?_⟩
  by_cases h : c = '\n' <;> simp [Re.res, CSet.mem, h]

theorem lazy_unfold {b : Re γ} {m : Char → Bool} (hb : Step b m) (f : St γ → List (St γ)) (p : Option Char) (c : Char)
    (r : Str) (caps : List (γ × Str)) :
    ((Re.star false b).res ⟨p, c :: r, caps⟩).flatMap f =
      f ⟨p, c :: r, caps⟩ ++ if m c then ((Re.star false b).res ⟨some c, r, caps⟩).flatMap f else [] := by
  simp only [Re.res, List.length_cons, starR, Bool.false_eq_true, if_false, List.flatMap_cons, hb.cons]
  congr 1
  split <;> simp

theorem lazy_unfold_nil {b : Re γ} (f : St γ → List (St γ)) (p : Option Char) (caps : List (γ × Str)) :
    ((Re.star false b).res ⟨p, [], caps⟩).flatMap f = f ⟨p, [], caps⟩ := by
  simp [Re.res, starR]

/-- a lazy repetition takes the shortest text after which the continuation succeeds -/
theorem Re.head_lazy {b : Re γ} {m : Char → Bool} (hb : Step b m) {f : St γ → List (St γ)} {r : Str}
    {caps : List (γ × Str)} {y : St γ} : ∀ (w : Str) (p : Option Char), (∀ c ∈ w, m c = true) →
    (∀ u v, w = u ++ v → v ≠ [] → f ⟨(u.getLast?).or p, v ++ r, caps⟩ = []) →
    (f ⟨(w.getLast?).or p, r, caps⟩).head? = some y →
    (((Re.star false b).res ⟨p, w ++ r, caps⟩).flatMap f).head? = some y := by
  intro w
  induction w with
  | nil =>
    intro p _ _ hy
    simp only [List.getLast?_nil, Option.none_or] at hy
    cases r with
    | nil => rw [List.nil_append, lazy_unfold_nil]; exact hy
    | cons c r => rw [List.nil_append, lazy_unfold hb, List.head?_append, hy]; rfl
  | cons c w ih =>
    intro p hm hf hy
    rw [List.cons_append, lazy_unfold hb]
    have h0 := hf [] (c :: w) rfl (by simp)
    simp only [List.getLast?_nil, Option.none_or, List.cons_append] at h0
    rw [h0, List.nil_append, if_pos (hm c (by simp))]
    refine ih (some c) (fun d hd => hm d (by simp [hd])) ?_ ?_
    · intro u v huv hv
      have := hf (c :: u) v (by rw [huv]; rfl) hv
      rw [lastOr u p c]
      exact this
    · rw [lastOr w p c]; exact hy

/-- a lazy repetition fails if the continuation fails everywhere -/
theorem Re.lazy_nil {b : Re γ} {m : Char → Bool} (hb : Step b m) {f : St γ → List (St γ)} {caps : List (γ × Str)} :
    ∀ (w : Str) (p : Option Char), (∀ u v, w = u ++ v → (∀ c ∈ u, m c = true) → f ⟨(u.getLast?).or p, v, caps⟩ = []) →
    ((Re.star false b).res ⟨p, w, caps⟩).flatMap f = [] := by
  intro w
  induction w with
  | nil =>
    intro p hf
    rw [lazy_unfold_nil]
    have := hf [] [] rfl (by simp)
    simpa using this
  | cons c w ih =>
    intro p hf
    rw [lazy_unfold hb]
    have h0 := hf [] (c :: w) rfl (by simp)
    simp only [List.getLast?_nil, Option.none_or] at h0
    rw [h0, List.nil_append]
    split
    · rename_i hc
      refine ih (some c) ?_
      intro u v huv hu
      rw [lastOr u p c]
      refine hf (c :: u) v (by rw [huv]; rfl) ?_
      intro d hd
      simp only [List.mem_cons] at hd
      rcases hd with rfl | hd
      · exact hc
      · exact hu d hd
    · rfl

/-- a literal string -/
theorem Re.res_lit : ∀ (w : Str) (p : Option Char) (r : Str) (caps : List (γ × Str)),
    (Re.lit w : Re γ).res ⟨p, w ++ r, caps⟩ = [⟨(w.getLast?).or p, r, caps⟩]
  | [], p, r, caps => by simp [Re.lit, Re.res]
  | [c], p, r, caps => by simp [Re.lit, Re.res, CSet.mem]
  | c :: d :: w, p, r, caps => by
    have ih := Re.res_lit (d :: w) (some c) r caps
    rw [lastOr (d :: w) p c] at ih
    simp only [Re.lit, Re.res, List.cons_append, CSet.mem, beq_self_eq_true, if_true, List.flatMap_cons,
      List.flatMap_nil, List.append_nil]
    exact ih

theorem Re.res_lit_nil : ∀ (w : Str) (p : Option Char) (r : Str) (caps : List (γ × Str)), (∀ t, r ≠ w ++ t) →
    (Re.lit w : Re γ).res ⟨p, r, caps⟩ = [] := by
  intro w p r caps h
  cases hl : (Re.lit w : Re γ).res ⟨p, r, caps⟩ with
  | nil => rfl
  | cons x l =>
    exfalso
    have : ∀ (w : Str) (s s' : St γ), s' ∈ (Re.lit w : Re γ).res s → s.rest = w ++ s'.rest := by
      intro w
      induction w with
      | nil => intro s s' h; simp only [Re.lit] at h; rw [mem_res_eps] at h; subst h; simp
      | cons c w ih =>
        intro s s' h
        cases w with
        | nil =>
          simp only [Re.lit] at h
          rw [mem_res_cls] at h
          obtain ⟨d, r, h1, h2, rfl⟩ := h
          simp only [CSet.mem, beq_iff_eq] at h2
          subst h2; simp [h1]
        | cons d w =>
          simp only [Re.lit] at h
          rw [mem_res_seq] at h
          obtain ⟨t, h1, h2⟩ := h
          rw [mem_res_cls] at h1
          obtain ⟨e, r, h3, h4, rfl⟩ := h1
          simp only [CSet.mem, beq_iff_eq] at h4
          subst h4
          have h5 := ih _ _ h2
          simp only at h5
          rw [h3, h5]; rfl
    exact h _ (this w ⟨p, r, caps⟩ x (by rw [hl]; simp))

/-! ## Expressions that do not look behind -/

/-- no `^`, no look-behind -/
def Re.noLook : Re γ → Bool
  | .seq a b | .alt a b => a.noLook && b.noLook
  | .star _ a | .grp _ a | .notAhead a => a.noLook
  | .bol _ | .behind _ _ => false
  | _ => true

/-- a state without the previous character -/
def St.core (s : St γ) : Str × List (γ × Str) := (s.rest, s.caps)

omit [DecidableEq γ] in
theorem flatMap_core {f g : St γ → List (St γ)} (h : ∀ x y, x.core = y.core → (f x).map St.core = (g y).map St.core) :
    ∀ {l1 l2 : List (St γ)}, l1.map St.core = l2.map St.core →
      (l1.flatMap f).map St.core = (l2.flatMap g).map St.core
  | [], [], _ => rfl
  | [], _ :: _, h' => by simp at h'
  | _ :: _, [], h' => by simp at h'
  | x :: l1, y :: l2, h' => by
    simp only [List.map_cons, List.cons.injEq] at h'
    simp only [List.flatMap_cons, List.map_append, h x y h'.1, flatMap_core h h'.2]

theorem Re.res_core {r : Re γ} : r.noLook = true → ∀ {s t : St γ}, s.core = t.core →
    (r.res s).map St.core = (r.res t).map St.core := by
  induction r with
  | eps => intro _ s t h; simp [Re.res, h]
  | cls cs =>
    intro _ s t h
    simp only [St.core, Prod.mk.injEq] at h
    simp only [Re.res, h.1]
    split
    · rfl
    · split
      · simp [St.core, h.2]
      · rfl
  | seq a b iha ihb =>
    intro hn s t h
    simp only [Re.noLook, Bool.and_eq_true] at hn
    simp only [Re.res]
    exact flatMap_core (fun x y hxy => ihb hn.2 hxy) (iha hn.1 h)
  | alt a b iha ihb =>
    intro hn s t h
    simp only [Re.noLook, Bool.and_eq_true] at hn
    simp only [Re.res, List.map_append, iha hn.1 h, ihb hn.2 h]
  | star g a iha =>
    intro hn s t h
    simp only [Re.noLook] at hn
    have hr : s.rest = t.rest := congrArg Prod.fst h
    simp only [Re.res, hr]
    generalize t.rest.length = n
    clear hr
    induction n generalizing s t with
    | zero => simp [starR, h]
    | succ n ih =>
      have := flatMap_core (f := starR g a.res n) (g := starR g a.res n) (fun x y hxy => ih hxy) (iha hn h)
      simp only [starR]
      split <;> simp [this, h]
  | grp g a iha =>
    intro hn s t h
    simp only [Re.noLook] at hn
    have hr : s.rest = t.rest := congrArg Prod.fst h
    have := iha hn h
    simp only [Re.res, List.map_map, hr]
    have e : (St.core ∘ fun s' : St γ => { s' with caps := (g, consumed t.rest s'.rest) :: s'.caps }) =
        (fun x : Str × List (γ × Str) => (x.1, (g, consumed t.rest x.1) :: x.2)) ∘ St.core := by
      funext x; rfl
    rw [e, ← List.map_map, this, List.map_map]
  | bref g =>
    intro _ s t h
    simp only [St.core, Prod.mk.injEq] at h
    simp only [Re.res, h.2, h.1]
    split
    · rfl
    · rename_i w _
      have key : ∀ (w : Str) (p q : Option Char) (l : Str), (eatStr w p l).map (·.2) = (eatStr w q l).map (·.2) := by
        intro w p q l
        cases w with
        | nil => rfl
        | cons c w => cases l <;> rfl
      have := key w s.prev t.prev t.rest
      cases h1 : eatStr w s.prev t.rest <;> cases h2 : eatStr w t.prev t.rest <;> simp_all [St.core]
  | bol mu => intro hn; simp [Re.noLook] at hn
  | eol mu =>
    intro _ s t h
    have hr : s.rest = t.rest := congrArg Prod.fst h
    simp only [Re.res, hr]
    split <;> simp [h]
  | behind neg cs => intro hn; simp [Re.noLook] at hn
  | notAhead a iha =>
    intro hn s t h
    simp only [Re.noLook] at hn
    have := iha hn h
    have he : (a.res s).isEmpty = (a.res t).isEmpty := by
      have := congrArg List.isEmpty this
      simpa using this
    simp only [Re.res, he]
    split <;> simp [h]

theorem Re.matchAt_core {r : Re γ} (hn : r.noLook = true) (adv : Bool) (p q : Option Char) (rest : Str) :
    (r.matchAt adv p rest).map St.core = (r.matchAt adv q rest).map St.core := by
  have h := Re.res_core hn (s := ⟨p, rest, []⟩) (t := ⟨q, rest, []⟩) rfl
  cases adv with
  | false =>
    rw [Re.matchAt_false, Re.matchAt_false, ← List.head?_map, ← List.head?_map, h]
  | true =>
    rw [Re.matchAt_true, Re.matchAt_true]
    generalize r.res ⟨p, rest, []⟩ = l1 at h
    generalize r.res ⟨q, rest, []⟩ = l2 at h
    induction l1 generalizing l2 with
    | nil => cases l2 <;> simp_all
    | cons x l1 ih =>
      cases l2 with
      | nil => simp at h
      | cons y l2 =>
        simp only [List.map_cons, List.cons.injEq] at h
        have hr : x.rest = y.rest := congrArg Prod.fst h.1
        simp only [List.find?_cons, hr]
        split
        · simp [h.1]
        · exact ih _ h.2

/-- a scan with such an expression does not depend on what stands before the string -/
theorem Re.scanAux_prev {r : Re γ} (hn : r.noLook = true) (p q : Option Char) (rest : Str) (k : Nat) :
    r.scanAux p rest k = r.scanAux q rest k := by
  have h0 := Re.matchAt_core hn false p q rest
  have h1 := Re.matchAt_core hn true p q rest
  cases rest with
  | nil =>
    simp only [Re.scanAux]
    cases h2 : r.matchAt false p [] <;> cases h3 : r.matchAt false q [] <;> simp_all [St.core]
  | cons c cs =>
    cases k with
    | succ k => simp only [Re.scanAux]
    | zero =>
      simp only [Re.scanAux]
      cases h2 : r.matchAt false p (c :: cs) <;> cases h3 : r.matchAt false q (c :: cs) <;>
        rw [h2, h3] at h0 <;> simp only [Option.map_none, Option.map_some, reduceCtorEq, Option.some.injEq, St.core,
          Prod.mk.injEq] at h0
      · rename_i x y
        simp only [h0.1, h0.2]
        cases h4 : r.matchAt true p (c :: cs) <;> cases h5 : r.matchAt true q (c :: cs) <;>
          rw [h4, h5] at h1 <;> simp only [Option.map_none, Option.map_some, reduceCtorEq, Option.some.injEq, St.core,
            Prod.mk.injEq] at h1
        · rename_i u v
          simp only [h1.1, h1.2]

end Verif
