import Verif.Spec.RoundTripPre
import Verif.Emit.BackWritten
import Verif.Props.ReadPre

/-!
# Reading the HTML of documents with preformatted text
-/

namespace Verif.Emit

open Verif Py Html Spec Spec.Hd Spec.Rt

/-- the HTML before the first preformatted text, and the areas -/
def partsHt : Part → List (Str × Part) → List Ht × List Area
  | .block b, [] => ([b.ht], [])
  | .pre ls, [] => ([], [⟨ls, [], []⟩])
  | .block b, (w, p) :: d => (b.ht :: .white w :: (partsHt p d).1, (partsHt p d).2)
  | .pre ls, (w, p) :: d => ([], ⟨ls, w, (partsHt p d).1⟩ :: (partsHt p d).2)

theorem written_parts : ∀ (d : List (Str × Part)) (p : Part), preWritten (partsHt p d).1 (partsHt p d).2 = partsHtml p d
  | [], .block b => by simp [partsHt, preWritten, areasWritten, partsHtml, Part.html, written]
  | [], .pre ls => by simp [partsHt, preWritten, areasWritten, partsHtml, Part.html, written, Area.print, Area.content]
  | (w, p') :: d, .block b => by
    have ih := written_parts d p'
    unfold preWritten at ih
    rw [partsHt, partsHtml, ← ih]
    simp [preWritten, written, Ht.print, Part.html]
  | (w, p') :: d, .pre ls => by
    have ih := written_parts d p'
    unfold preWritten at ih
    rw [partsHt, partsHtml, ← ih]
    simp [preWritten, written, Part.html, areasWritten, Area.print, Area.content]

/-- the nodes of a part -/
def Part.nodes : Part → List HNode
  | .block b => nodesL 0 (elsL [b.ht])
  | .pre ls => [Area.node ⟨ls, [], []⟩]

/-- the nodes of parts -/
def partsNodes (p : Part) (d : List (Str × Part)) : List HNode := Part.nodes p ++ d.flatMap fun x => Part.nodes x.2

theorem ht_els (b : Rt) (l : List El) : ∃ e, b.ht.els l = e :: l ∧ elsL [b.ht] = [e] := by
  cases b with
  | hr => exact ⟨_, rfl, rfl⟩
  | para ls => exact ⟨_, by rw [Rt.ht, Ht.els], by rw [elsL, elsL, Rt.ht, Ht.els]⟩
  | head n t => exact ⟨_, by rw [Rt.ht, Ht.els], by rw [elsL, elsL, Rt.ht, Ht.els]⟩
  | list k bs => exact ⟨_, by rw [Rt.ht, Ht.els], by rw [elsL, elsL, Rt.ht, Ht.els]⟩
  | table rows => exact ⟨_, by rw [Rt.ht, Ht.els], by rw [elsL, elsL, Rt.ht, Ht.els]⟩

theorem nodes_parts : ∀ (d : List (Str × Part)) (p : Part), preNodes (partsHt p d).1 (partsHt p d).2 = partsNodes p d
  | [], .block b => by simp [partsHt, preNodes, partsNodes, Part.nodes]
  | [], .pre ls => by simp [partsHt, preNodes, partsNodes, Part.nodes, elsL, nodesL]
  | (w, p') :: d, .block b => by
    have ih := nodes_parts d p'
    unfold preNodes partsNodes at ih
    obtain ⟨e, h1, h2⟩ := ht_els b (elsL (partsHt p' d).1)
    rw [partsHt, preNodes, partsNodes, Part.nodes, elsL, elsL, Ht.els, h1, h2, List.flatMap_cons, ← ih]
    simp [nodesL]
  | (w, p') :: d, .pre ls => by
    have ih := nodes_parts d p'
    unfold preNodes partsNodes at ih
    rw [partsHt, preNodes, partsNodes, Part.nodes, List.flatMap_cons, List.flatMap_cons, ← ih]
    simp [nodesL, elsL, Area.node, Area.content]

/-- the conditions on a document, as they are needed for its parts -/
structure PartsOk (p : Part) (f : List Ht) (r : List Area) : Prop where
  ok : okL f = true
  oks : r.all (fun a => okL a.after) = true
  areas : areasOk r = true
  first : (∃ ls, p = .pre ls ∧ f = [] ∧ r ≠ []) ∨ ((∃ b, p = .block b) ∧ ∃ t, written f = '<' :: t)
  line : r = [] ∨ lineEnd (written f) = true
  spaced : ∀ b : Before, b = .block ∨ b = .closed → Hd.spaced b (bitsL f ++ areasBits r) = true
  starts : ∃ k T l, bitsL f ++ areasBits r = .tag k T :: l ∧ (k = .block ∨ k = .single)
  ends : ∃ l k T, bitsL f ++ areasBits r = l ++ [.tag k T]
  wf : Wf true f
  wfs : ∀ a ∈ r, Wf true a.after

theorem spaced_any {k : TagKind} {T : Str} {l : List Bit} (b b' : Before) (h : Hd.spaced b (.tag k T :: l) = true) :
    Hd.spaced b' (.tag k T :: l) = true := by
  cases k <;> simpa [Hd.spaced] using h

theorem ht_lt (b : Rt) : ∃ t, b.ht.print = '<' :: t := by
  cases b <;> exact ⟨_, by simp [Rt.ht, Ht.print, tagStart]; rfl⟩

theorem lineEnd_append {w s : Str} (h : lineEnd s = true) (hs : s ≠ []) : lineEnd (w ++ s) = true := by
  simp only [lineEnd, Bool.or_eq_true, List.isEmpty_iff, beq_iff_eq] at h ⊢
  right
  rw [List.getLast?_append, h.resolve_left hs]
  rfl

theorem parts_ok : ∀ (d : List (Str × Part)) (p : Part), p.decent = true → (∀ x ∈ d, x.2.decent = true) → allApart p d = true →
    PartsOk p (partsHt p d).1 (partsHt p d).2
  | [], .block b, hp, _, _ => by
    simp only [Part.decent, Bool.and_eq_true] at hp
    obtain ⟨⟨T, xs, h1⟩, ys, T', h2⟩ := bits_block hp.1
    have hn := hp.2
    simp only [neat, Bool.and_eq_true] at hn
    obtain ⟨t, ht⟩ := ht_lt b
    have e : bitsL [b.ht] ++ areasBits [] = b.ht.bits := by simp [bitsL, areasBits]
    refine ⟨hn.1.1, rfl, rfl, .inr ⟨⟨b, rfl⟩, t, by simp [partsHt, written, ht]⟩, .inl rfl, ?_, ?_, ?_, wf_block hp.1, by simp [partsHt]⟩
    · intro x _
      have h3 := hn.1.2
      rw [show bitsL [b.ht] = b.ht.bits by simp [bitsL]] at h3
      simp only [partsHt, e]
      rw [h1] at h3 ⊢
      exact spaced_any _ _ h3
    · simp only [partsHt, e]; exact ⟨_, _, _, h1, .inl rfl⟩
    · simp only [partsHt, e]; exact ⟨_, _, _, h2⟩
  | [], .pre ls, hp, _, _ => by
    simp only [Part.decent] at hp
    refine ⟨rfl, rfl, ?_, .inl ⟨ls, rfl, rfl, by simp [partsHt]⟩, .inr rfl, ?_, ?_, ?_, Wf.nil _, ?_⟩
    · simp only [partsHt, areasOk, Area.linesOk, hp, Bool.true_and]
      rfl
    · intro b _
      cases b <;> rfl
    · exact ⟨.single, _, [], rfl, .inr rfl⟩
    · exact ⟨[], .single, _, rfl⟩
    · intro a ha
      simp only [partsHt, List.mem_singleton] at ha
      subst ha
      exact Wf.nil _
  | (w, p') :: d, .block b, hp, hd, ha => by
    simp only [allApart, Bool.and_eq_true] at ha
    have ih := parts_ok d p' (hd _ List.mem_cons_self) (fun x hx => hd x (List.mem_cons_of_mem _ hx)) ha.2
    simp only [Part.decent, Bool.and_eq_true] at hp
    obtain ⟨⟨T, xs, h1⟩, ys, T', h2⟩ := bits_block hp.1
    have hn := hp.2
    simp only [neat, Bool.and_eq_true] at hn
    obtain ⟨t, ht⟩ := ht_lt b
    have hw : w.all isSpace = true := by
      have := ha.1
      cases p' <;> simp only [apart, Bool.and_eq_true] at this
      · exact this
      · exact this.1
    rw [partsHt]
    have e : bitsL (b.ht :: .white w :: (partsHt p' d).1) ++ areasBits (partsHt p' d).2 =
        b.ht.bits ++ .white w :: (bitsL (partsHt p' d).1 ++ areasBits (partsHt p' d).2) := by
      simp [bitsL, Ht.bits]
    have ho := hn.1.1
    rw [okL, okL, Bool.and_true] at ho
    refine ⟨?_, ih.oks, ih.areas, .inr ⟨⟨b, rfl⟩, t ++ (w ++ written (partsHt p' d).1), by simp [written, ht, Ht.print]⟩, ?_, ?_, ?_, ?_, ?_,
      ih.wfs⟩
    · rw [okL, okL, ho, ih.ok, Ht.ok, hw]; rfl
    · rcases ih.line with h | h
      · exact .inl h
      · right
        rw [written, written]
        rcases ih.first with ⟨ls, rfl, h3, _⟩ | ⟨_, t', h3⟩
        · have h4 := ha.1
          simp only [apart, Bool.and_eq_true, beq_iff_eq] at h4
          rw [h3, written, List.append_nil, Ht.print]
          simp only [lineEnd, Bool.or_eq_true, beq_iff_eq]
          right
          rw [List.getLast?_append, h4.2]; rfl
        · rw [← List.append_assoc]
          exact lineEnd_append h (by rw [h3]; simp)
    · intro x _
      rw [e, h2, List.append_assoc, List.singleton_append, spaced_block, ← h2, Bool.and_eq_true]
      constructor
      · have h3 := hn.1.2
        rw [show bitsL [b.ht] = b.ht.bits by simp [bitsL]] at h3
        rw [h1] at h3 ⊢
        exact spaced_any _ _ h3
      · rw [Hd.spaced, ih.spaced _ (.inl rfl)]; rfl
    · rw [e, h1]; exact ⟨_, _, _, rfl, .inl rfl⟩
    · obtain ⟨l, k, T2, h3⟩ := ih.ends
      rw [e, h3]
      exact ⟨b.ht.bits ++ .white w :: l, k, T2, by simp⟩
    · exact Wf.append (x := [_]) (wf_block hp.1) (Wf.append (x := [_]) (Wf.white _ _) ih.wf)
  | (w, p') :: d, .pre ls, hp, hd, ha => by
    simp only [allApart, Bool.and_eq_true] at ha
    have ih := parts_ok d p' (hd _ List.mem_cons_self) (fun x hx => hd x (List.mem_cons_of_mem _ hx)) ha.2
    simp only [Part.decent] at hp
    have hw : lineBreak w = true := by
      have := ha.1
      cases p' <;> simp only [apart, Bool.and_eq_true, beq_iff_eq] at this
      · simp only [lineBreak, Bool.and_eq_true]; exact this
      · simp only [lineBreak, Bool.and_eq_true]
        exact ⟨this.1, by simpa using List.mem_of_getLast? this.2⟩
    rw [partsHt]
    obtain ⟨k, T, l, h1, hk⟩ := ih.starts
    have e : bitsL [] ++ areasBits (⟨ls, w, (partsHt p' d).1⟩ :: (partsHt p' d).2) =
        .tag .single (Area.print ⟨ls, w, (partsHt p' d).1⟩) :: (bitsL (partsHt p' d).1 ++ areasBits (partsHt p' d).2) := by
      simp [bitsL, areasBits]
    have hbare : bareHead (written (partsHt p' d).1) = true := by
      rcases ih.first with ⟨_, _, h3, _⟩ | ⟨_, t', h3⟩
      · rw [h3]; rfl
      · rw [h3]; rfl
    refine ⟨rfl, ?_, ?_, .inl ⟨ls, rfl, rfl, by simp⟩, .inr rfl, ?_, ?_, ?_, Wf.nil _, ?_⟩
    · rw [List.all_cons, ih.ok, ih.oks]; rfl
    · cases hr : (partsHt p' d).2 with
      | nil =>
        have hne : (written (partsHt p' d).1).isEmpty = false := by
          rcases ih.first with ⟨_, _, _, h4⟩ | ⟨_, t', h3⟩
          · exact absurd hr h4
          · rw [h3]; rfl
        simp only [areasOk, Area.linesOk, hp, hne, hw, hbare]
        rfl
      | cons a r =>
        have har := ih.areas
        rw [hr] at har
        have hle : lineEnd (w ++ written (partsHt p' d).1) = true := by
          rcases ih.first with ⟨_, rfl, h3, _⟩ | ⟨_, t', h3⟩
          · have h4 := ha.1
            simp only [apart, Bool.and_eq_true, beq_iff_eq] at h4
            rw [h3, written, List.append_nil]
            simp only [lineEnd, Bool.or_eq_true, beq_iff_eq]
            exact .inr h4.2
          · refine lineEnd_append ?_ (by rw [h3]; simp)
            exact ih.line.resolve_left (by rw [hr]; simp)
        simp only [areasOk, Area.linesOk, hp, hw, hbare, hle, har]
        rfl
    · intro x _
      rw [e, Hd.spaced]
      exact ih.spaced _ (.inr rfl)
    · rw [e]; exact ⟨_, _, _, rfl, .inr rfl⟩
    · obtain ⟨l', k', T2, h3⟩ := ih.ends
      rw [e, h3]
      exact ⟨.tag .single (Area.print ⟨ls, w, (partsHt p' d).1⟩) :: l', k', T2, by simp⟩
    · intro a ha'
      rcases List.mem_cons.mp ha' with rfl | ha'
      · exact ih.wf
      · exact ih.wfs a ha'

theorem areas_length : ∀ (d : List (Str × Part)) (p : Part), (partsHt p d).2.length ≤ d.length + 1
  | [], .block b => by simp [partsHt]
  | [], .pre ls => by simp [partsHt]
  | (w, p') :: d, .block b => by have := areas_length d p'; simp only [partsHt, List.length_cons]; omega
  | (w, p') :: d, .pre ls => by have := areas_length d p'; simp only [partsHt, List.length_cons]; omega

/-- the tree of a document with preformatted text -/
theorem parse_parts {p : Part} {d : List (Str × Part)} (hp : p.decent = true) (hd : ∀ x ∈ d, x.2.decent = true)
    (ha : allApart p d = true) (hlen : d.length < 10 ^ 4300) {w w' : Str} (hw : ∀ c ∈ w, isSpace c = true)
    (hw' : ∀ c ∈ w', isSpace c = true) :
    parseHtml (w ++ partsHtml p d ++ w') = .ok (.mk { kind := c!"document" } (partsNodes p d)) := by
  have h := parts_ok d p hp hd ha
  rw [← written_parts, ← nodes_parts]
  refine Props.C60_parse_preformatted _ _ ?_ h.wf.whole (fun x hx => (h.wfs x hx).whole) (Nat.le_trans (areas_length d p) hlen) hw hw'
  simp only [preNeat, Bool.and_eq_true, Bool.or_eq_true, List.isEmpty_iff]
  refine ⟨⟨⟨⟨⟨h.ok, h.oks⟩, h.areas⟩, h.line⟩, h.spaced _ (.inl rfl)⟩, ?_⟩
  obtain ⟨k, T, l, h1, _⟩ := h.starts
  obtain ⟨l', k', T', h2⟩ := h.ends
  simp only [bareEdges, Bool.and_eq_true, Bool.not_eq_true']
  constructor
  · rw [h1]; rfl
  · rw [h2]; simp [Bit.isWhite]

end Verif.Emit
