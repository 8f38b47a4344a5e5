import Verif.Py.ReHead
import Verif.Creole.ParserLemmas

/-!
# Running a handler along a scan
-/

namespace Verif.Creole

open Verif Re Py

/-- what `subAll` does with one match -/
def onHit (r : R) (h : G → Match G → PS → PM) (st : PS) (m : Match G) : PM :=
  match dispatch (groupOrder r) m with
  | some g => h g m st
  | none => .ok st

/-- the rest of `subAll`, from a position in the text on -/
def runR (r : R) (h : G → Match G → PS → PM) (prev : Option Char) (s : Str) (st : PS) : PM :=
  ((r.scanAux prev s 0).filterMap fun | .skip _ => none | .hit m => some m).foldlM (init := st) (onHit r h)

theorem subAll_eq (r : R) (h : G → Match G → PS → PM) (raw : Str) (st : PS) : subAll r h raw st = runR r h none raw st := by
  unfold subAll runR Re.findAll Re.scan
  congr 1
  congr 1
  funext x
  cases x <;> rfl

variable {r : R} {h : G → Match G → PS → PM} {prev : Option Char} {st : PS}

theorem runR_skip {c : Char} {cs : Str} (hm : r.matchAt false prev (c :: cs) = none) :
    runR r h prev (c :: cs) st = runR r h (some c) cs st := by
  unfold runR
  rw [Re.scanAux_skip hm]
  rfl

theorem runR_take {w rest : Str} {p : Option Char} {caps : List (G × Str)} (hw : w ≠ [])
    (hm : r.matchAt false prev (w ++ rest) = some ⟨p, rest, caps⟩) :
    runR r h prev (w ++ rest) st = (onHit r h st ⟨w, caps⟩ >>= runR r h w.getLast? rest) := by
  unfold runR
  rw [Re.scanAux_take (s' := ⟨p, rest, caps⟩) hw hm]
  rfl

theorem runR_nil (hn : r.nullable = false) : runR r h prev [] st = .ok st := by
  unfold runR
  rw [Re.scanAux_nil hn]
  rfl

/-- the first result of an ordered choice is that of the first alternative that matches -/
theorem alts_head {l₁ l₂ : List R} {a : R} {s x : St G} (hf : ∀ q ∈ l₁, q.res s = []) (ha : (a.res s).head? = some x) :
    ((alts (l₁ ++ a :: l₂)).res s).head? = some x := by
  induction l₁ with
  | nil =>
    cases l₂ with
    | nil => exact ha
    | cons b l₂ => exact Re.head_alt_left ha
  | cons q l₁ ih =>
    have hne : ∃ b l, l₁ ++ a :: l₂ = b :: l := by cases l₁ <;> exact ⟨_, _, rfl⟩
    obtain ⟨b, l, hbl⟩ := hne
    rw [List.cons_append, hbl]
    show ((Re.alt q (alts (b :: l))).res s).head? = some x
    rw [Re.res_alt_right (hf q (by simp)), ← hbl]
    exact ih fun q hq => hf q (by simp [hq])

theorem consumed_append (a b : Str) : consumed (a ++ b) b = a := by
  unfold consumed; simp

/-- a non-empty lazy repetition in a group takes the shortest text after which the rest of the expression matches -/
theorem head_someDots {gt : G} {b : R} {r : Str} {caps : List (G × Str)} {p : Option Char} {y : St G} {c : Char} {w : Str}
    (hd : '\n' ∉ c :: w)
    (hf : ∀ u v, w = u ++ v → v ≠ [] → b.res ⟨(c :: u).getLast?, v ++ r, (gt, c :: u) :: caps⟩ = [])
    (hy : (b.res ⟨(c :: w).getLast?, r, (gt, c :: w) :: caps⟩).head? = some y) :
    ((Re.seq (.grp gt someDots) b).res ⟨p, c :: (w ++ r), caps⟩).head? = some y := by
  have hc : CSet.dot.mem c = true := by simp [CSet.mem]; rintro rfl; simp at hd
  have e : ((Re.seq (.grp gt someDots) b).res ⟨p, c :: (w ++ r), caps⟩) =
      ((Re.star false (.cls .dot) : R).res ⟨some c, w ++ r, caps⟩).flatMap
        fun s' => b.res { s' with caps := (gt, consumed (c :: (w ++ r)) s'.rest) :: s'.caps } := by
    have h1 : (Re.cls .dot : R).res ⟨p, c :: (w ++ r), caps⟩ = [⟨some c, w ++ r, caps⟩] := by
      simp only [Re.res, hc, if_true]
    have h2 : (someDots : R).res ⟨p, c :: (w ++ r), caps⟩ = (Re.star false (.cls .dot) : R).res ⟨some c, w ++ r, caps⟩ := by
      show (Re.seq (.cls .dot) (.star false (.cls .dot)) : R).res _ = _
      have : ∀ (a b : R) s, (Re.seq a b).res s = (a.res s).flatMap b.res := fun _ _ _ => rfl
      rw [this, h1]; simp
    have h3 : ∀ (a b : R) s, (Re.seq a b).res s = (a.res s).flatMap b.res := fun _ _ _ => rfl
    have h4 : ∀ (g : G) (a : R) s, (Re.grp g a).res s =
      (a.res s).map fun s' => { s' with caps := (g, consumed s.rest s'.rest) :: s'.caps } := fun _ _ _ => rfl
    rw [h3, h4, h2, List.flatMap_map]
  rw [e]
  refine Re.head_lazy (Step.cls .dot) w (some c) ?_ ?_ ?_
  · intro d hd'
    simp only [CSet.mem, bne_iff_ne, ne_eq]
    rintro rfl; simp [hd'] at hd
  · intro u v huv hv
    have := hf u v huv hv
    have hcons : consumed (c :: (w ++ r)) (v ++ r) = c :: u := by
      have := consumed_append (c :: u) (v ++ r)
      rw [huv]; simpa using this
    rw [lastOr u none c, Option.or_none]
    simp only [hcons]
    exact this
  · have hcons : consumed (c :: (w ++ r)) r = c :: w := consumed_append (c :: w) r
    rw [lastOr w none c, Option.or_none]
    simp only [hcons]
    exact hy

/-- the same for a lazy repetition that may be empty -/
theorem head_anyDots {gt : G} {b : R} {r : Str} {caps : List (G × Str)} {p : Option Char} {y : St G} {w : Str}
    (hd : '\n' ∉ w)
    (hf : ∀ u v, w = u ++ v → v ≠ [] → b.res ⟨(u.getLast?).or p, v ++ r, (gt, u) :: caps⟩ = [])
    (hy : (b.res ⟨(w.getLast?).or p, r, (gt, w) :: caps⟩).head? = some y) :
    ((Re.seq (.grp gt anyDots) b).res ⟨p, w ++ r, caps⟩).head? = some y := by
  have e : ((Re.seq (.grp gt anyDots) b).res ⟨p, w ++ r, caps⟩) =
      ((Re.star false (.cls .dot) : R).res ⟨p, w ++ r, caps⟩).flatMap
        fun s' => b.res { s' with caps := (gt, consumed (w ++ r) s'.rest) :: s'.caps } := by
    have h3 : ∀ (a b : R) s, (Re.seq a b).res s = (a.res s).flatMap b.res := fun _ _ _ => rfl
    have h4 : ∀ (g : G) (a : R) s, (Re.grp g a).res s =
      (a.res s).map fun s' => { s' with caps := (g, consumed s.rest s'.rest) :: s'.caps } := fun _ _ _ => rfl
    rw [h3, h4, List.flatMap_map]
    rfl
  rw [e]
  refine Re.head_lazy (Step.cls .dot) w p ?_ ?_ ?_
  · intro d hd'
    simp only [CSet.mem, bne_iff_ne, ne_eq]
    rintro rfl; exact hd hd'
  · intro u v huv hv
    have := hf u v huv hv
    have hcons : consumed (w ++ r) (v ++ r) = u := by
      have := consumed_append u (v ++ r)
      rw [huv]; simpa using this
    simp only [hcons]
    exact this
  · simp only [consumed_append]
    exact hy

/-- `\s*` takes nothing where no blank stands -/
theorem sps_none {p : Option Char} {r : Str} {caps : List (G × Str)} (hr : ∀ c t, r = c :: t → isSpace c = false) :
    (sps : R).res ⟨p, r, caps⟩ = [⟨p, r, caps⟩] := by
  show starR true (Re.cls .space : R).res r.length ⟨p, r, caps⟩ = _
  cases r with
  | nil => rfl
  | cons c t =>
    have : (Re.cls .space : R).res ⟨p, c :: t, caps⟩ = [] := Re.res_cls_nil fun c' t' h => by
      have := hr c' t' h
      simpa [CSet.mem] using this
    simp [starR, this]

/-- results of a sequence after a part with exactly one result -/
theorem res_seq_one {a b : R} {s x : St G} (ha : a.res s = [x]) : (Re.seq a b).res s = b.res x := by
  simp [Re.res, ha]

/-- the results of `\s*` are the ways to take some of the blanks -/
theorem mem_sps {s s' : St G} (h : s' ∈ (sps : R).res s) :
    ∃ w, s.rest = w ++ s'.rest ∧ (∀ c ∈ w, isSpace c = true) ∧ s'.caps = s.caps ∧ s'.prev = (w.getLast?).or s.prev := by
  have : ∀ {n : Nat} {s : St G}, s' ∈ starR true (Re.cls .space : R).res n s →
      ∃ w, s.rest = w ++ s'.rest ∧ (∀ c ∈ w, isSpace c = true) ∧ s'.caps = s.caps ∧ s'.prev = (w.getLast?).or s.prev := by
    intro n s h
    refine mem_starR_induct (P := fun s => ∃ w, s.rest = w ++ s'.rest ∧ (∀ c ∈ w, isSpace c = true) ∧ s'.caps = s.caps ∧
      s'.prev = (w.getLast?).or s.prev) ⟨[], by simp⟩ ?_ h
    intro s t ht hp
    rw [mem_res_cls] at ht
    obtain ⟨c, r, h1, h2, rfl⟩ := ht
    obtain ⟨w, h3, h4, h5, h6⟩ := hp
    refine ⟨c :: w, by rw [h1, List.cons_append]; simp at h3; rw [h3], ?_, h5, ?_⟩
    · intro d hd
      simp only [List.mem_cons] at hd
      rcases hd with rfl | hd
      · exact h2
      · exact h4 d hd
    · rw [h6]; exact lastOr w s.prev c
  exact this h

end Verif.Creole
