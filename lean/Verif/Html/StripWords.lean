import Verif.Html.StripMatch
import Verif.Spec.Words

/-!
# `strip_html` and words
-/

namespace Verif.Html

open Verif Py Spec.Hd Spec.Wd

/-! ## Words -/

theorem wordsFrom_space {d : Char} (hd : isSpace d = true) (b : Str) : ∀ (a cur : Str), wordsFrom cur (a ++ d :: b) = wordsFrom cur a ++ words b
  | [], cur => by simp [wordsFrom, hd, words]
  | c :: a, cur => by
    rw [List.cons_append, wordsFrom, wordsFrom]
    split
    · rw [wordsFrom_space hd b a [], List.append_assoc]
    · rw [wordsFrom_space hd b a]

theorem words_space {d : Char} (hd : isSpace d = true) (a b : Str) : words (a ++ d :: b) = words a ++ words b := wordsFrom_space hd b a []

theorem words_white {w : Str} (hw : ∀ c ∈ w, isSpace c = true) (b : Str) : words (w ++ b) = words b := by
  induction w with
  | nil => rfl
  | cons c w ih =>
    rw [List.cons_append]
    have := words_space (hw c List.mem_cons_self) [] (w ++ b)
    rw [List.nil_append] at this
    rw [this, ih fun d hd => hw d (List.mem_cons_of_mem _ hd)]
    rfl

/-- white space separates -/
theorem words_gap {w : Str} (hne : w ≠ []) (hw : ∀ c ∈ w, isSpace c = true) (a b : Str) : words (a ++ (w ++ b)) = words a ++ words b := by
  cases w with
  | nil => exact absurd rfl hne
  | cons c w =>
    rw [List.cons_append, words_space (hw c List.mem_cons_self), words_white fun d hd => hw d (List.mem_cons_of_mem _ hd)]

theorem words_end {w : Str} (hw : ∀ c ∈ w, isSpace c = true) (a : Str) : words (a ++ w) = words a := by
  cases w with
  | nil => rw [List.append_nil]
  | cons c w =>
    rw [words_space (hw c List.mem_cons_self)]
    have := words_white (fun d hd => hw d (List.mem_cons_of_mem _ hd)) (w := w) []
    rw [List.append_nil] at this
    rw [this]
    simp [words, wordsFrom]

/-! ## Pieces -/

theorem write_cons (p : Piece) (ps : List Piece) : write (p :: ps) = p.write ++ write ps := rfl
theorem write_append (a b : List Piece) : write (a ++ b) = write a ++ write b := by simp [write]
theorem look_cons (p : Piece) (ps : List Piece) : look (p :: ps) = p.look ++ look ps := rfl
theorem look_append (a b : List Piece) : look (a ++ b) = look a ++ look b := by simp [look]

theorem white_ok {w : Str} (h : (Piece.white w).ok = true) : w ≠ [] ∧ ∀ c ∈ w, isSpace c = true := by
  simpa [Piece.ok] using h

theorem chr_ok {c : Char} (h : (Piece.chr c).ok = true) : isSpace c = false ∧ c ≠ '<' := by
  simpa [Piece.ok] using h

/-- the parts of a tag -/
theorem tag_parts {cl : Bool} {name rest : Str} (h : (Piece.tag cl name rest).ok = true) :
    ∃ m se, Parts (Piece.tag cl name rest).write (if cl then c!"/" else []) name m se := by
  simp only [Piece.ok, Bool.and_eq_true, Bool.not_eq_true', bne_iff_ne, ne_eq, List.all_eq_true, Bool.or_eq_true, beq_iff_eq,
    List.isEmpty_iff, List.isEmpty_eq_false_iff] at h
  obtain ⟨⟨⟨⟨⟨⟨h1, h2⟩, h3⟩, h4⟩, h5⟩, h6⟩, h7⟩ := h
  by_cases hl : rest.getLast? = some '/'
  · obtain ⟨m, rfl⟩ := List.getLast?_eq_some_iff.mp hl
    rw [List.dropLast_concat] at h7
    have hm : m.head? = some ' ' := by
      rcases h5 with h5 | h5
      · simp at h5
      · cases m with
        | nil => simp at h5
        | cons x m => simpa using h5
    refine ⟨m, c!"/", ?_, by cases cl <;> simp, .inr rfl, h1, fun c hc => ?_, h3, fun c hc => ?_, .inr hm, h7, ?_, h2⟩
    · simp [Piece.write]
    · have := h4 c hc; exact ⟨this.1.1.1, this.1.1.2, this.1.2⟩
    · have := h6 c (by simp [hc]); exact ⟨this.1.1, this.1.2⟩
    · intro hc
      rcases List.mem_append.mp hc with hc | hc
      · exact (h4 _ hc).2 rfl
      · exact (h6 '<' (by simp [hc])).2 rfl
  · refine ⟨rest, [], ?_, by cases cl <;> simp, .inl rfl, h1, fun c hc => ?_, h3, fun c hc => ?_, ?_, hl, ?_, h2⟩
    · simp [Piece.write]
    · have := h4 c hc; exact ⟨this.1.1.1, this.1.1.2, this.1.2⟩
    · have := h6 c hc; exact ⟨this.1.1, this.1.2⟩
    · rcases h5 with h5 | h5
      · exact .inl ⟨h5, rfl⟩
      · exact .inr h5
    · intro hc
      rcases List.mem_append.mp hc with hc | hc
      · exact (h4 _ hc).2 rfl
      · exact (h6 '<' hc).2 rfl

/-- a piece that is no white space begins and ends with a character that is none, and is written on a line -/
theorem solid_piece {p : Piece} (h : p.ok = true) (hw : p.isWhite = false) : ∃ c d x y, p.write = c :: x ∧ p.write = y ++ [d] ∧
    isSpace c = false ∧ isSpace d = false ∧ '\n' ∉ p.write := by
  cases p with
  | white w => cases hw
  | chr c =>
    have := chr_ok h
    refine ⟨c, c, [], [], rfl, rfl, this.1, this.1, ?_⟩
    intro hc
    simp only [Piece.write, List.mem_singleton] at hc
    rw [← hc] at this
    exact absurd this.1 (by decide)
  | tag cl name rest =>
    obtain ⟨m, se, hp⟩ := tag_parts h
    exact ⟨'<', '>', _, _, hp.text, by rw [hp.text]; exact (List.cons_append).symm.trans rfl, by decide, by decide, hp.noLine⟩

/-! ## Joining the lines -/

/-- white space after the lines have been joined -/
def joinGap (w : Str) : Str := if w.contains '\n' then List.replicate (w.count '\n') ' ' else w

def Piece.joined : Piece → Piece
  | .white w => .white (joinGap w)
  | p => p

theorem join_indent {v x : Str} (hv : ∀ c ∈ v, isSpace c = true) (hn : '\n' ∉ v) : joinStripped (v ++ x) = joinStripped x := by
  rcases split_line x with h | ⟨s1, s2, rfl, h⟩
  · rw [join_line h, join_line (by simp [hn, h])]
    have := strip_pad hv (w' := []) (by simp) x
    rw [List.append_nil] at this
    exact this
  · rw [← List.append_assoc, join_lines (by simp [hn, h]), join_lines h]
    have := strip_pad hv (w' := []) (by simp) s1
    rw [List.append_nil] at this
    rw [this]

theorem join_gap : ∀ (n : Nat) {v x : Str}, v.length ≤ n → (∀ c ∈ v, isSpace c = true) →
    joinStripped (v ++ x) = List.replicate (v.count '\n') ' ' ++ joinStripped x
  | n, v, x, hl, hv => by
    rcases split_line v with h | ⟨s1, s2, rfl, h⟩
    · rw [join_indent hv h, List.count_eq_zero.mpr h]; rfl
    · cases n with
      | zero => simp at hl
      | succ n =>
        rw [List.append_assoc, List.cons_append, join_lines h, join_gap n (by simp at hl; omega) fun c hc => hv c (by simp [hc])]
        have : strip s1 = [] := by
          have := strip_pad (w := s1) (w' := []) (fun c hc => hv c (by simp [hc])) (by simp) []
          rw [List.append_nil, List.append_nil] at this
          exact this
        rw [this, List.count_append, List.count_cons, List.count_eq_zero.mpr h]
        simp [List.replicate_succ]

theorem join_pieces : ∀ (ps : List Piece) (a : Str), (∀ p ∈ ps, p.ok = true) → gapsOk ps = true →
    (a = [] → (ps.head?).all (fun p => !p.isWhite) = true) → (ps.getLast?).all (fun p => !p.isWhite) = true →
    (∀ c, a.head? = some c → isSpace c = false) → (∀ c, a.getLast? = some c → isSpace c = false) → '\n' ∉ a →
    joinStripped (a ++ write ps) = a ++ write (ps.map Piece.joined)
  | [], a, _, _, _, _, h1, h2, hn => by
    simp only [write, List.flatMap_nil, List.append_nil, List.map_nil]
    rw [join_line hn, strip_id h1 h2]
  | p :: ps, a, hok, hg, ha, hlast, h1, h2, hn => by
    have hgs : gapsOk ps = true := by
      cases ps with
      | nil => rfl
      | cons q ps => rw [gapsOk, Bool.and_eq_true] at hg; exact hg.2
    have hlast' : (ps.getLast?).all (fun p => !p.isWhite) = true := by
      cases ps with
      | nil => rfl
      | cons q ps => rwa [List.getLast?_cons_cons] at hlast
    by_cases hw : p.isWhite = false
    · obtain ⟨c, d, x, y, e1, e2, k1, k2, k3⟩ := solid_piece (hok p List.mem_cons_self) hw
      have := join_pieces ps (a ++ p.write) (fun q hq => hok q (List.mem_cons_of_mem _ hq)) hgs (by rw [e1]; simp) hlast'
        (by
          intro z hz
          cases a with
          | nil => rw [e1] at hz; simp at hz; rw [← hz]; exact k1
          | cons b a => exact h1 z (by simpa using hz))
        (by
          intro z hz
          rw [e2, ← List.append_assoc, List.getLast?_concat] at hz
          simp at hz; rw [← hz]; exact k2) (by simp [hn, k3])
      rw [write_cons, ← List.append_assoc, this, List.map_cons, write_cons, List.append_assoc]
      congr 2
      cases p <;> first | rfl | cases hw
    · cases p with
      | chr c => exact absurd rfl hw
      | tag c n r => exact absurd rfl hw
      | white w =>
        obtain ⟨hne, hwh⟩ := white_ok (hok _ List.mem_cons_self)
        have hane : a ≠ [] := by
          intro h0
          have := ha h0
          simp [Piece.isWhite] at this
        cases ps with
        | nil => simp [Piece.isWhite] at hlast
        | cons q ps =>
          have hq : q.isWhite = false := by
            rw [gapsOk, Bool.and_eq_true] at hg
            cases q with
            | white w' => simp [gapOk] at hg
            | _ => rfl
          obtain ⟨c, d, x, y, e1, e2, k1, k2, k3⟩ := solid_piece (hok q (by simp)) hq
          have hgs' : gapsOk ps = true := by
            cases ps with
            | nil => rfl
            | cons q ps => rw [gapsOk, Bool.and_eq_true] at hgs; exact hgs.2
          have hlast'' : (ps.getLast?).all (fun p => !p.isWhite) = true := by
            cases ps with
            | nil => rfl
            | cons q ps => rwa [List.getLast?_cons_cons] at hlast'
          have hjq : (Piece.joined q).write = q.write := by cases q <;> first | rfl | cases hq
          by_cases hnl : '\n' ∈ w
          · obtain ⟨u, v, rfl, hu⟩ := (split_line w).resolve_left (fun h => h hnl)
            have := join_pieces ps q.write (fun p hp => hok p (by simp [hp])) hgs' (by rw [e1]; simp) hlast''
              (by intro z hz; rw [e1] at hz; simp at hz; rw [← hz]; exact k1)
              (by intro z hz; rw [e2, List.getLast?_concat] at hz; simp at hz; rw [← hz]; exact k2) k3
            rw [write_cons, write_cons, Piece.write, List.append_assoc, List.cons_append, ← List.append_assoc, join_lines (by simp [hn, hu]),
              join_gap _ (Nat.le_refl _) (fun c hc => hwh c (by simp [hc])), this, strip_blankEnd a (fun c hc => hwh c (by simp [hc])), strip_id h1 h2,
              List.map_cons, List.map_cons, write_cons, write_cons, hjq, Piece.joined, Piece.write, joinGap,
              if_pos (by simp), List.count_append, List.count_cons, List.count_eq_zero.mpr hu]
            simp [List.replicate_succ]
          · have := join_pieces ps (a ++ w ++ q.write) (fun p hp => hok p (by simp [hp])) hgs' (by rw [e1]; simp) hlast''
              (by
                intro z hz
                cases a with
                | nil => exact absurd rfl hane
                | cons b a => exact h1 z (by simpa using hz))
              (by
                intro z hz
                rw [e2, ← List.append_assoc, List.getLast?_concat] at hz
                simp at hz; rw [← hz]; exact k2) (by simp [hn, hnl, k3])
            rw [write_cons, write_cons, Piece.write, ← List.append_assoc, ← List.append_assoc, this, List.map_cons, List.map_cons, write_cons, write_cons, hjq,
              Piece.joined, Piece.write, joinGap, if_neg (by simpa using hnl)]
            simp

theorem joinGap_ok {w : Str} (h : (Piece.white w).ok = true) : (Piece.white (joinGap w)).ok = true ∧ '\n' ∉ joinGap w ∧
    (plainGap w = true → plainGap (joinGap w) = true) := by
  obtain ⟨h1, h2⟩ := white_ok h
  unfold joinGap
  split
  · rename_i hc
    have hn : 0 < w.count '\n' := List.count_pos_iff.mpr (by simpa using hc)
    obtain ⟨k, hk⟩ : ∃ k, w.count '\n' = k + 1 := ⟨w.count '\n' - 1, by omega⟩
    rw [hk]
    refine ⟨?_, ?_, fun _ => ?_⟩
    · simp [Piece.ok, List.replicate_succ, show isSpace ' ' = true from by decide]
    · simp
    · rw [plainGap, Bool.or_eq_true]
      right
      have : (List.replicate (k + 1) ' ').getLast? = some ' ' := by rw [List.getLast?_replicate]; simp
      rw [this]
      rfl
  · rename_i hc
    exact ⟨h, by simpa using hc, id⟩

theorem joined_ok {p : Piece} (h : p.ok = true) : (Piece.joined p).ok = true := by
  cases p with
  | white w => exact (joinGap_ok h).1
  | _ => exact h

theorem joined_gaps : ∀ (ps : List Piece), (∀ p ∈ ps, p.ok = true) → gapsOk ps = true → gapsOk (ps.map Piece.joined) = true
  | [], _, _ => rfl
  | [_], _, _ => rfl
  | p :: q :: ps, hok, h => by
    rw [gapsOk, Bool.and_eq_true] at h
    rw [List.map_cons, List.map_cons, gapsOk, Bool.and_eq_true]
    refine ⟨?_, joined_gaps (q :: ps) (fun x hx => hok x (List.mem_cons_of_mem _ hx)) h.2⟩
    have hp := hok p (by simp)
    have hq := hok q (by simp)
    have := h.1
    cases p <;> cases q <;> simp only [Piece.joined, gapOk, Bool.or_eq_true] at this ⊢
    · cases this
    · exact this.imp id (joinGap_ok hp).2.2
    · exact this.imp id (joinGap_ok hq).2.2

/-! ## Tags -/

/-- white space on one side of an inline tag: none, or plain -/
def Side (name w : Str) : Prop := (∀ c ∈ w, isSpace c = true) ∧
  (isBlock name = false → w = [] ∨ (w.head? = some ' ' ∧ w.getLast? = some ' '))

/-- white space that is left beside a tag -/
def Left (l : List Piece) : Prop := l = [] ∨ l = [.white c!" "]

theorem tag_out {cl : Bool} {name rest : Str} {w w2 m se : Str}
    (hp : Parts (Piece.tag cl name rest).write (if cl then c!"/" else []) name m se) (hw : Side name w) (hw2 : Side name w2) :
    ∃ l t, Left l ∧ Left t ∧ stripTag ⟨w ++ (Piece.tag cl name rest).write ++ w2, [(.startend, se), (.tag, name), (.end_, if cl then c!"/" else [])]⟩ =
      write (l ++ [.tag cl name rest] ++ t) ∧ (isBlock name = false → (l = [] ∧ t = [] ↔ w = [] ∧ w2 = [])) := by
  generalize hT : (Piece.tag cl name rest).write = T at hp
  have hwT : ∀ l t, write (l ++ [.tag cl name rest] ++ t) = write l ++ T ++ write t := by
    intro l t
    rw [write_append, write_append, write_cons, hT]
    simp [write]
  by_cases hb : isBlock name = true
  · refine ⟨[], [], .inl rfl, .inl rfl, ?_, fun h => by rw [h] at hb; cases hb⟩
    rw [stripTag_block hp hw.1 hw2.1 hb, hwT]
    simp [write]
  · rw [Bool.not_eq_true] at hb
    have hw' := hw.2 hb
    have hw2' := hw2.2 hb
    have h1 : Match.get (⟨w ++ T ++ w2, [(.startend, se), (.tag, name), (.end_, if cl then c!"/" else [])]⟩ : Match SG) .tag = some name := rfl
    have h2 : Match.get (⟨w ++ T ++ w2, [(.startend, se), (.tag, name), (.end_, if cl then c!"/" else [])]⟩ : Match SG) .end_ =
      some (if cl then c!"/" else []) := rfl
    have h3 : Match.get (⟨w ++ T ++ w2, [(.startend, se), (.tag, name), (.end_, if cl then c!"/" else [])]⟩ : Match SG) .startend = some se := rfl
    have hs : strip (w ++ T ++ w2) = T := hp.strip hw.1 hw2.1
    have h4 : ((w ++ T ++ w2).head? = some ' ') ↔ ¬ w = [] := by
      rcases hw' with rfl | hw'
      · rw [List.nil_append, hp.head]; simp
      · cases w with
        | nil => simp at hw'
        | cons c w => simpa using hw'.1
    have h5 : ((w ++ T ++ w2).getLast? = some ' ') ↔ ¬ w2 = [] := by
      rcases hw2' with rfl | hw2'
      · rw [List.append_nil, hp.last]; simp
      · cases w2 with
        | nil => simp at hw2'
        | cons c w2 => rw [List.getLast?_append, hw2'.2]; simp
    unfold stripTag
    simp only [h1, h2, h3, hs, Option.getD_some, blockTags_eq, h4, h5, Option.some.injEq]
    rw [if_neg (show ¬ Spec.blockNames.contains name = true from by rw [show Spec.blockNames.contains name = false from hb]; simp)]
    cases cl with
    | true =>
      by_cases hc : w = [] ∧ w2 = []
      · refine ⟨[], [], .inl rfl, .inl rfl, ?_, fun _ => by simp [hc]⟩
        rw [hwT]
        simp [hc, write]
      · refine ⟨[], [.white c!" "], .inl rfl, .inr rfl, ?_, fun _ => by simp [hc]⟩
        have : ¬ w = [] ∨ ¬ w2 = [] := by
          by_cases h : w = []
          · exact .inr fun h' => hc ⟨h, h'⟩
          · exact .inl h
        rw [hwT]
        simp [this, write, Piece.write]
    | false =>
      by_cases hse : se = ['/']
      · refine ⟨if w = [] then [] else [.white c!" "], if w2 = [] then [] else [.white c!" "], ?_, ?_, ?_, fun _ => ?_⟩
        · unfold Left; split <;> simp
        · unfold Left; split <;> simp
        · rw [hwT]
          by_cases ha : w = [] <;> by_cases hb : w2 = [] <;> simp [ha, hb, hse, write, Piece.write]
        · by_cases ha : w = [] <;> by_cases hb : w2 = [] <;> simp [ha, hb]
      · by_cases hc : w = [] ∧ w2 = []
        · refine ⟨[], [], .inl rfl, .inl rfl, ?_, fun _ => by simp [hc]⟩
          rw [hwT]
          simp [hc, hse, write]
        · refine ⟨[.white c!" "], [], .inr rfl, .inl rfl, ?_, fun _ => by simp [hc]⟩
          have : ¬ w = [] ∨ ¬ w2 = [] := by
            by_cases h : w = []
            · exact .inr fun h' => hc ⟨h, h'⟩
            · exact .inl h
          rw [hwT]
          simp [this, hse, write, Piece.write]

/-! ## All pieces -/

/-- `s` becomes a text of the same pieces and the same words -/
def Keeps (s : Str) (ps : List Piece) : Prop := ∃ ps', Strips s (write ps') ∧ (∀ p ∈ ps', p.ok = true) ∧ solids ps' = solids ps ∧
  ∀ a, words (a ++ look ps') = words (a ++ look ps)

theorem look_left {l : List Piece} (h : Left l) : (∀ c ∈ look l, isSpace c = true) ∧ (look l = [] ↔ l = []) ∧ solids l = [] ∧ ∀ p ∈ l, p.ok = true := by
  rcases h with rfl | rfl
  · refine ⟨by simp [look], by simp [look], rfl, by simp⟩
  · refine ⟨by simp [look, Piece.look]; decide, by simp [look, Piece.look], rfl, by simp; decide⟩

theorem keeps_tag {cl : Bool} {name rest w w2 : Str} {g g2 qs : List Piece} (hok : (Piece.tag cl name rest).ok = true)
    (hg : g = [] ∧ w = [] ∨ g = [.white w] ∧ w ≠ []) (hg2 : g2 = [] ∧ w2 = [] ∨ g2 = [.white w2] ∧ w2 ≠ [])
    (hw : Side name w) (hw2 : Side name w2) (hr : noSp (write qs) = true) (ih : Keeps (write qs) qs) :
    Keeps (write (g ++ .tag cl name rest :: (g2 ++ qs))) (g ++ .tag cl name rest :: (g2 ++ qs)) := by
  obtain ⟨m, se, hp⟩ := tag_parts hok
  obtain ⟨l, t, hl, ht, h1, h2⟩ := tag_out hp hw hw2
  obtain ⟨qs', i1, i2, i3, i4⟩ := ih
  have eg : write g = w ∧ look g = w ∧ solids g = [] := by
    rcases hg with ⟨rfl, rfl⟩ | ⟨rfl, _⟩ <;> simp [write, look, Piece.write, Piece.look, solids, Piece.isWhite]
  have eg2 : write g2 = w2 ∧ look g2 = w2 ∧ solids g2 = [] := by
    rcases hg2 with ⟨rfl, rfl⟩ | ⟨rfl, _⟩ <;> simp [write, look, Piece.write, Piece.look, solids, Piece.isWhite]
  refine ⟨l ++ [.tag cl name rest] ++ t ++ qs', ?_, ?_, ?_, ?_⟩
  · have := Strips.tag hp hw.1 hw2.1 hr i1
    rw [h1, ← write_append] at this
    rw [write_append, write_cons, write_append, eg.1, eg2.1]
    simpa using this
  · intro p hp
    simp only [List.mem_append, List.mem_singleton] at hp
    rcases hp with ((hp | rfl) | hp) | hp
    · exact (look_left hl).2.2.2 p hp
    · exact hok
    · exact (look_left ht).2.2.2 p hp
    · exact i2 p hp
  · have e1 := (look_left hl).2.2.1
    have e2 := (look_left ht).2.2.1
    have e3 := eg.2.2
    have e4 := eg2.2.2
    simp only [solids] at e1 e2 e3 e4 i3 ⊢
    rw [List.filter_append, List.filter_append, List.filter_append, e1, e2, i3, List.filter_append, e3]
    have e5 : ∀ l, List.filter (fun p : Piece => !p.isWhite) (.tag cl name rest :: l) = .tag cl name rest :: List.filter (fun p => !p.isWhite) l :=
      fun l => List.filter_cons_of_pos rfl
    rw [e5, e5, List.filter_append, e4]
    rfl
  · intro a
    have hwt : ∀ c ∈ (Piece.tag cl name rest).look, isSpace c = true := by
      simp only [Piece.look]
      split
      · simp [show isSpace ' ' = true from by decide]
      · simp
    have e1 : look (l ++ [.tag cl name rest] ++ t ++ qs') = look l ++ (Piece.tag cl name rest).look ++ look t ++ look qs' := by
      simp [look]
    have e2 : look (g ++ .tag cl name rest :: (g2 ++ qs)) = w ++ (Piece.tag cl name rest).look ++ w2 ++ look qs := by
      rw [look_append, look_cons, look_append, eg.2.1, eg2.2.1]; simp
    rw [e1, e2]
    have hG : ∀ c ∈ look l ++ (Piece.tag cl name rest).look ++ look t, isSpace c = true := by
      intro c hc
      simp only [List.mem_append] at hc
      rcases hc with (hc | hc) | hc
      · exact (look_left hl).1 c hc
      · exact hwt c hc
      · exact (look_left ht).1 c hc
    have hG2 : ∀ c ∈ w ++ (Piece.tag cl name rest).look ++ w2, isSpace c = true := by
      intro c hc
      simp only [List.mem_append] at hc
      rcases hc with (hc | hc) | hc
      · exact hw.1 c hc
      · exact hwt c hc
      · exact hw2.1 c hc
    by_cases h0 : w ++ (Piece.tag cl name rest).look ++ w2 = []
    · have hnb : isBlock name = false := by
        cases hb : isBlock name with
        | false => rfl
        | true => simp [Piece.look, hb] at h0
      simp only [List.append_eq_nil_iff] at h0
      obtain ⟨rfl, rfl⟩ := (h2 hnb).mpr ⟨h0.1.1, h0.2⟩
      rw [h0.1.1, h0.2, h0.1.2]
      exact i4 a
    · have h0' : look l ++ (Piece.tag cl name rest).look ++ look t ≠ [] := by
        intro h3
        simp only [List.append_eq_nil_iff] at h3
        have hnb : isBlock name = false := by
          cases hb : isBlock name with
          | false => rfl
          | true => simp [Piece.look, hb] at h3
        obtain ⟨ha, hb⟩ := (h2 hnb).mp ⟨(look_left hl).2.1.mp h3.1.1, (look_left ht).2.1.mp h3.2⟩
        exact h0 (by rw [ha, hb, h3.1.2]; rfl)
      rw [words_gap h0' hG, words_gap h0 hG2]
      have := i4 []
      rw [List.nil_append, List.nil_append] at this
      rw [this]

/-- white space before a character that is none -/
theorem Strips.gap {d : Char} {s t : Str} (hd : isSpace d = false) (hd' : d ≠ '<') (hs : Strips (d :: s) t) :
    ∀ (w : Str), (∀ c ∈ w, isSpace c = true) → Strips (w ++ d :: s) (w ++ t)
  | [], _ => hs
  | c :: w, hw => by
    refine Strips.skip (fun p => strip_none ?_) (Strips.gap hd hd' hs w fun x hx => hw x (List.mem_cons_of_mem _ hx))
    intro u t hu hu' ht
    have hu2 : c :: w ++ d :: s = u ++ t := hu
    rcases List.append_eq_append_iff.mp hu2 with ⟨v, e1, e2⟩ | ⟨v, e1, e2⟩
    · cases v with
      | nil => simp only [List.nil_append] at e2; rw [← e2] at ht; simp at ht; exact hd' ht
      | cons x v =>
        simp only [List.cons_append, List.cons.injEq] at e2
        have := hu' d (by rw [e1, e2.1]; simp)
        rw [hd] at this; cases this
    · cases v with
      | nil => simp only [List.nil_append] at e2; rw [e2] at ht; simp at ht; exact hd' ht
      | cons x v =>
        rw [e2] at ht
        simp only [List.cons_append, List.head?_cons, Option.some.injEq] at ht
        have := hw x (by rw [e1]; simp)
        rw [ht] at this
        exact absurd this (by decide)

theorem noSp_solid {p : Piece} {ps : List Piece} (h : p.ok = true) (hw : p.isWhite = false) : noSp (write (p :: ps)) = true := by
  obtain ⟨c, _, x, _, e1, _, k, _⟩ := solid_piece h hw
  rw [write_cons, e1]
  simp [noSp, k]

theorem side_of {name w : Str} (hok : (Piece.white w).ok = true) (hn : '\n' ∉ w) (h : (isBlock name || plainGap w) = true) : Side name w := by
  refine ⟨(white_ok hok).2, fun hb => .inr ?_⟩
  rw [hb, Bool.false_or, plainGap, Bool.or_eq_true] at h
  rcases h with h | h
  · exact absurd (by simpa using h) hn
  · simpa using h

theorem side_nil (name : Str) : Side name [] := ⟨by simp, fun _ => .inl rfl⟩

theorem gapsOk_tail {p : Piece} {ps : List Piece} (h : gapsOk (p :: ps) = true) : gapsOk ps = true := by
  cases ps with
  | nil => rfl
  | cons q ps => rw [gapsOk, Bool.and_eq_true] at h; exact h.2

theorem last_tail {p : Piece} {ps : List Piece} (h : ((p :: ps).getLast?).all (fun p => !p.isWhite) = true) :
    (ps.getLast?).all (fun p => !p.isWhite) = true := by
  cases ps with
  | nil => rfl
  | cons q ps => rwa [List.getLast?_cons_cons] at h

theorem keeps_pieces : ∀ (n : Nat) (ps : List Piece), ps.length ≤ n → (∀ p ∈ ps, p.ok = true) → (∀ w, .white w ∈ ps → '\n' ∉ w) →
    gapsOk ps = true → (ps.getLast?).all (fun p => !p.isWhite) = true → Keeps (write ps) ps
  | _, [], _, _, _, _, _ => ⟨[], Strips.nil, by simp, rfl, fun _ => rfl⟩
  | 0, _ :: _, h, _, _, _, _ => by simp at h
  | n + 1, .chr c :: ps, hl, hok, hn, hg, hlast => by
    obtain ⟨ps', i1, i2, i3, i4⟩ := keeps_pieces n ps (by simp at hl; omega) (fun p hp => hok p (List.mem_cons_of_mem _ hp))
      (fun w hw => hn w (List.mem_cons_of_mem _ hw)) (gapsOk_tail hg) (last_tail hlast)
    have hc := chr_ok (hok _ List.mem_cons_self)
    refine ⟨.chr c :: ps', ?_, ?_, ?_, ?_⟩
    · exact Strips.solid i1 [c] (by simpa using hc)
    · intro p hp
      rcases List.mem_cons.mp hp with rfl | hp
      · exact hok _ List.mem_cons_self
      · exact i2 p hp
    · simp only [solids] at i3 ⊢
      rw [List.filter_cons, List.filter_cons, i3]
    · intro a
      have := i4 (a ++ [c])
      simpa [look_cons, Piece.look] using this
  | n + 1, .tag cl name rest :: ps, hl, hok, hn, hg, hlast => by
    have hok' := fun p (hp : p ∈ ps) => hok p (List.mem_cons_of_mem _ hp)
    have hn' := fun w (hw : .white w ∈ ps) => hn w (List.mem_cons_of_mem _ hw)
    cases ps with
    | nil =>
      exact keeps_tag (g := []) (g2 := []) (qs := []) (hok _ List.mem_cons_self) (.inl ⟨rfl, rfl⟩) (.inl ⟨rfl, rfl⟩) (side_nil name) (side_nil name) rfl
        ⟨[], Strips.nil, by simp, rfl, fun _ => rfl⟩
    | cons q ps =>
      by_cases hq : q.isWhite = true
      · cases q with
        | chr c => cases hq
        | tag c x y => cases hq
        | white w2 =>
          rw [gapsOk, Bool.and_eq_true] at hg
          have hs := side_of (hok' _ List.mem_cons_self) (hn' _ List.mem_cons_self) hg.1
          cases ps with
          | nil => simp [Piece.isWhite] at hlast
          | cons r ps =>
            have hr : r.isWhite = false := by
              have := hg.2
              rw [gapsOk, Bool.and_eq_true] at this
              cases r with
              | white _ => simp [gapOk] at this
              | _ => rfl
            exact keeps_tag (g := []) (g2 := [.white w2]) (qs := r :: ps) (hok _ List.mem_cons_self) (.inl ⟨rfl, rfl⟩)
              (.inr ⟨rfl, (white_ok (hok' _ List.mem_cons_self)).1⟩) (side_nil name) hs
              (noSp_solid (hok' r (by simp)) hr)
              (keeps_pieces n (r :: ps) (by simp at hl ⊢; omega) (fun p hp => hok' p (List.mem_cons_of_mem _ hp))
                (fun w hw => hn' w (List.mem_cons_of_mem _ hw)) (gapsOk_tail hg.2) (last_tail (last_tail hlast)))
      · rw [Bool.not_eq_true] at hq
        exact keeps_tag (g := []) (g2 := []) (qs := q :: ps) (hok _ List.mem_cons_self) (.inl ⟨rfl, rfl⟩) (.inl ⟨rfl, rfl⟩) (side_nil name)
          (side_nil name) (noSp_solid (hok' q (by simp)) hq)
          (keeps_pieces n (q :: ps) (by simp at hl ⊢; omega) hok' hn' (gapsOk_tail hg) (last_tail hlast))
  | n + 1, .white w :: ps, hl, hok, hn, hg, hlast => by
    have hok' := fun p (hp : p ∈ ps) => hok p (List.mem_cons_of_mem _ hp)
    have hn' := fun w (hw : .white w ∈ ps) => hn w (List.mem_cons_of_mem _ hw)
    have hwo := white_ok (hok _ List.mem_cons_self)
    cases ps with
    | nil => simp [Piece.isWhite] at hlast
    | cons q ps =>
      have hg' := hg
      rw [gapsOk, Bool.and_eq_true] at hg'
      have hlen : ps.length + 1 ≤ n := by simpa using hl
      cases q with
      | white w' => simp [gapOk] at hg'
      | chr c =>
        obtain ⟨ps', i1, i2, i3, i4⟩ := keeps_pieces n ps (by omega) (fun p hp => hok' p (List.mem_cons_of_mem _ hp))
          (fun w hw => hn' w (List.mem_cons_of_mem _ hw)) (gapsOk_tail hg'.2) (last_tail (last_tail hlast))
        have hc := chr_ok (hok' _ List.mem_cons_self)
        refine ⟨.white w :: .chr c :: ps', ?_, ?_, ?_, ?_⟩
        · exact Strips.gap hc.1 hc.2 (Strips.solid i1 [c] (by simpa using hc)) w hwo.2
        · intro p hp
          rcases List.mem_cons.mp hp with rfl | hp
          · exact hok _ List.mem_cons_self
          · rcases List.mem_cons.mp hp with rfl | hp
            · exact hok' _ List.mem_cons_self
            · exact i2 p hp
        · simp only [solids] at i3 ⊢
          rw [List.filter_cons, List.filter_cons, List.filter_cons, List.filter_cons, i3]
        · intro a
          have := i4 (a ++ w ++ [c])
          simpa [look_cons, Piece.look] using this
      | tag cl name rest =>
        have hs := side_of (hok _ List.mem_cons_self) (hn _ List.mem_cons_self) hg'.1
        have hg1 : ([.white w] : List Piece) = [] ∧ w = [] ∨ ([.white w] : List Piece) = [.white w] ∧ w ≠ [] := .inr ⟨rfl, hwo.1⟩
        cases ps with
        | nil =>
          exact keeps_tag (g2 := []) (qs := []) (hok' _ List.mem_cons_self) hg1 (.inl ⟨rfl, rfl⟩) hs (side_nil name) rfl
            ⟨[], Strips.nil, by simp, rfl, fun _ => rfl⟩
        | cons r ps =>
          have hg2 := hg'.2
          rw [gapsOk, Bool.and_eq_true] at hg2
          by_cases hr : r.isWhite = true
          · cases r with
            | chr c => cases hr
            | tag c x y => cases hr
            | white w2 =>
              have hs2 := side_of (hok' (.white w2) (by simp)) (hn' w2 (by simp)) hg2.1
              cases ps with
              | nil => simp [Piece.isWhite] at hlast
              | cons x ps =>
                have hx : x.isWhite = false := by
                  have := hg2.2
                  rw [gapsOk, Bool.and_eq_true] at this
                  cases x with
                  | white _ => simp [gapOk] at this
                  | _ => rfl
                exact keeps_tag (g2 := [.white w2]) (qs := x :: ps) (hok' _ List.mem_cons_self) hg1
                  (.inr ⟨rfl, (white_ok (hok' (.white w2) (by simp))).1⟩) hs hs2 (noSp_solid (hok' x (by simp)) hx)
                  (keeps_pieces n (x :: ps) (by simp at hlen ⊢; omega) (fun p hp => hok' p (List.mem_cons_of_mem _ (List.mem_cons_of_mem _ hp)))
                    (fun w hw => hn' w (List.mem_cons_of_mem _ (List.mem_cons_of_mem _ hw))) (gapsOk_tail hg2.2) (last_tail (last_tail (last_tail hlast))))
          · rw [Bool.not_eq_true] at hr
            exact keeps_tag (g2 := []) (qs := r :: ps) (hok' _ List.mem_cons_self) hg1 (.inl ⟨rfl, rfl⟩) hs (side_nil name)
              (noSp_solid (hok' r (by simp)) hr)
              (keeps_pieces n (r :: ps) (by simp at hlen ⊢; omega) (fun p hp => hok' p (List.mem_cons_of_mem _ hp))
                (fun w hw => hn' w (List.mem_cons_of_mem _ hw)) hg2.2 (last_tail (last_tail hlast)))

end Verif.Html
