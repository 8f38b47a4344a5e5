import Verif.Props.Totality
import Verif.Spec.Toc

/-!
# C19, C20, C21: the table of contents
-/

namespace Verif.Props

open Verif Py Creole Spec

/-! ## C19 -/

/-- **C19.** For headlines of level at least 1 (a headline starts with at least one `=`), the nested list built
for the table of contents, read from left to right, consists of exactly these headlines, each inside as many
lists as its level.  Moreover the lists are shared as far as possible: no list is empty and no list directly
follows another one, so neighbouring headlines of the same level are in the same list. -/
theorem C19_toc_mirrors_levels (hs : List (Nat × Str)) (h : ∀ x ∈ hs, 1 ≤ x.1) :
    ∃ l, flatToNest hs = .ok (.list l) ∧ Nest.read 0 (.list l) = hs ∧ Nest.noTwoLists l = true ∧
      Nest.tidys l = true := flatToNest_spec hs h

example : flatToNest [(2, c!"a"), (1, c!"b"), (3, c!"c"), (3, c!"d"), (2, c!"e")] =
    .ok (.list [.list [.str c!"a"], .str c!"b", .list [.list [.str c!"c", .str c!"d"], .str c!"e"]]) := rfl

/-! ## C20 -/

mutual
theorem read_ne_nil : ∀ (n : Nest) (d : Nat), n.tidy = true → Nest.read d n ≠ []
  | .str s, d, _ => by simp [Nest.read]
  | .list l, d, h => by
    simp only [Nest.tidy, Bool.and_eq_true, Bool.not_eq_true'] at h
    rw [Nest.read]
    exact reads_ne_nil l (d + 1) (by intro e; rw [e] at h; simp at h) h.2
theorem reads_ne_nil : ∀ (l : List Nest) (d : Nat), l ≠ [] → Nest.tidys l = true → Nest.reads d l ≠ []
  | [], _, h, _ => absurd rfl h
  | n :: l, d, _, h => by
    simp only [Nest.tidys, Bool.and_eq_true] at h
    rw [Nest.reads]
    intro e
    exact read_ne_nil n d h.1 (List.append_eq_nil_iff.mp e).1
end

theorem reads_head {a : Nest} {l : List Nest} {d : Nat} (h : Nest.noTwoLists (a :: l) = true) (ha : a.isList = true) :
    ∀ x ∈ (Nest.reads d l).head?, x.1 = d := by
  cases l with
  | nil => simp [Nest.reads]
  | cons b l =>
    cases b with
    | str t => simp [Nest.reads, Nest.read]
    | list l' =>
      simp only [Nest.noTwoLists, ha, Bool.and_eq_true] at h
      exact absurd h.1 (by simp [Nest.isList])

mutual
theorem nestHtml_items : ∀ (n : Nest) (d : Nat) (hs : List (Nat × Str)) (s : Str), n.tidy = true → TocItems (d + 1) hs s →
    (n.isList = true → ∀ x ∈ hs.head?, x.1 = d + 1) →
    TocItems (d + 1) (Nest.read (d + 1) n ++ hs) (nestHtml (d + 1) n ++ s)
  | .str t, d, hs, s, _, h, _ => by
    simp only [Nest.read, nestHtml, List.cons_append, List.nil_append]
    exact .entry h
  | .list l, d, hs, s, ht, h, hh => by
    simp only [Nest.tidy, Bool.and_eq_true, Bool.not_eq_true'] at ht
    simp only [Nest.read, nestHtml]
    have := TocItems.list (nestHtmls_items l (d + 1) ht.1.2 ht.2) h
      (reads_ne_nil l _ (by intro e; rw [e] at ht; simp at ht) ht.2) (hh rfl)
    simpa [tabs, indent] using this
theorem nestHtmls_items : ∀ (l : List Nest) (d : Nat), Nest.noTwoLists l = true → Nest.tidys l = true →
    TocItems (d + 1) (Nest.reads (d + 1) l) (nestHtmls (d + 1) l)
  | [], d, _, _ => by simp only [Nest.reads, nestHtmls]; exact .nil
  | n :: l, d, h2, ht => by
    simp only [Nest.tidys, Bool.and_eq_true] at ht
    simp only [Nest.reads, nestHtmls]
    refine nestHtml_items n d _ _ ht.1 (nestHtmls_items l d ?_ ht.2) fun ha => reads_head h2 ha
    cases l with
    | nil => rfl
    | cons b l => simp only [Nest.noTwoLists, Bool.and_eq_true] at h2; exact h2.2
end

/-- the HTML of the headlines is a table of contents -/
theorem nestHtml_toc {hs : List (Nat × Str)} {l : List Nest} (h1 : Nest.read 0 (.list l) = hs) (h2 : Nest.noTwoLists l = true)
    (h3 : Nest.tidys l = true) : TocHtml hs (nestHtml 0 (.list l)) := by
  refine ⟨nestHtmls 1 l, ?_, by simp [nestHtml, tabs]⟩
  simp only [Nest.read] at h1
  have := nestHtmls_items l 0 h2 h3
  rwa [h1] at this

theorem tocItems_level {d : Nat} {hs : List (Nat × Str)} {s : Str} (h : TocItems d hs s) : ∀ x ∈ hs, d ≤ x.1 := by
  induction h with
  | nil => simp
  | entry _ ih =>
    intro x hx
    rw [List.mem_cons] at hx
    rcases hx with rfl | hx
    · exact Nat.le_refl _
    · exact ih x hx
  | list _ _ _ _ ih1 ih2 =>
    intro x hx
    rw [List.mem_append] at hx
    rcases hx with hx | hx
    · have := ih1 x hx
      omega
    · exact ih2 x hx

theorem tocItems_split {d : Nat} {a b : List (Nat × Str)} (ha : ∀ x ∈ a, d + 1 ≤ x.1) (hb : ∀ x ∈ b.head?, x.1 = d) :
    (a ++ b).takeWhile (fun x => decide (d < x.1)) = a := by
  rw [List.takeWhile_append_of_pos (fun x hx => by have := ha x hx; simp; omega)]
  cases b with
  | nil => simp
  | cons y b => simp [hb y rfl]

/-- there is only one such text -/
theorem tocItems_unique {d : Nat} {hs : List (Nat × Str)} {s : Str} (h : TocItems d hs s) : ∀ {s' : Str}, TocItems d hs s' → s' = s := by
  induction h with
  | nil =>
    intro s' h'
    generalize he : ([] : List (Nat × Str)) = hs at h'
    cases h' with
    | nil => rfl
    | entry _ => cases he
    | list _ _ h1 _ => exact absurd (List.append_eq_nil_iff.mp he.symm).1 h1
  | @entry d title hs s _ ih =>
    intro s' h'
    generalize he : (d, title) :: hs = hs' at h'
    cases h' with
    | nil => cases he
    | entry h' => cases he; rw [ih h']
    | @list _ hs₁ hs₂ _ _ h1 _ h3 _ =>
      cases hs₁ with
      | nil => exact absurd rfl h3
      | cons x hs₁ =>
        have := tocItems_level h1 x (by simp)
        rw [List.cons_append, List.cons.injEq] at he
        rw [← he.1] at this
        simp only at this
        omega
  | @list d hs₁ hs₂ s₁ s₂ h1 h2 h3 h4 ih1 ih2 =>
    intro s' h'
    generalize he : hs₁ ++ hs₂ = hs' at h'
    cases h' with
    | nil => exact absurd (List.append_eq_nil_iff.mp he).1 h3
    | entry _ =>
      cases hs₁ with
      | nil => exact absurd rfl h3
      | cons x hs₁ =>
        have := tocItems_level h1 x (by simp)
        rw [List.cons_append, List.cons.injEq] at he
        rw [he.1] at this
        simp only at this
        omega
    | list h1' h2' h3' h4' =>
      have e := tocItems_split (tocItems_level h1) h4
      rw [he, tocItems_split (tocItems_level h1') h4'] at e
      subst e
      have := List.append_cancel_left he
      subst this
      rw [ih1 h1', ih2 h2']

theorem tocHtml_unique {hs : List (Nat × Str)} {a b : Str} (ha : TocHtml hs a) (hb : TocHtml hs b) : a = b := by
  obtain ⟨x, h1, rfl⟩ := ha
  obtain ⟨y, h2, rfl⟩ := hb
  rw [tocItems_unique h1 h2]

theorem firstReplaced {old new : Str} (ho : old ≠ []) : ∀ s, hasSub old s = true →
    FirstReplaced old new s (replaceFirst old new s) := by
  intro s
  induction s with
  | nil => intro h; simp [hasSub] at h; exact absurd h ho
  | cons c s ih =>
    intro h
    unfold replaceFirst
    split
    · rename_i hp
      rw [List.isPrefixOf_iff_prefix] at hp
      obtain ⟨t, ht⟩ := hp
      refine ⟨[], t, by simp [ht], by simp [← ht], ?_⟩
      intro hi
      have h1 := hi.length_le
      have h2 := List.length_pos_iff.mpr ho
      simp only [List.nil_append, List.length_dropLast] at h1
      omega
    · rename_i hp
      unfold hasSub at h
      simp only [Bool.or_eq_true] at h
      rcases h with h | h
      · exact absurd h hp
      · obtain ⟨pre, post, e1, e2, e3⟩ := ih h
        refine ⟨c :: pre, post, by simp [e1], by simp [e2], ?_⟩
        intro hi
        rw [List.cons_append, List.infix_cons_iff] at hi
        rcases hi with hi | hi
        · apply hp
          rw [List.isPrefixOf_iff_prefix, e1]
          refine hi.trans ?_
          refine ⟨(old.drop (old.length - 1)) ++ post, ?_⟩
          have hl : old.dropLast ++ old.drop (old.length - 1) = old := by
            rw [List.dropLast_eq_take, List.take_append_drop]
          simp only [List.cons_append, List.append_assoc, List.cons.injEq, true_and]
          rw [← List.append_assoc old.dropLast, hl]
        · exact e3 hi

/-- **C20.** The HTML inserted for the recorded headlines `hs` (of level at least 1) is a table of contents in
the sense of `TocHtml`: matching `<ul>` and `</ul>`, one entry per headline, in order, at the depth of its
level.  It takes the place of the first placeholder paragraph of the document or else of the first
placeholder. -/
theorem C20_toc_html (t : Toc) (doc : Str) (h : ∀ x ∈ t.headlines, 1 ≤ x.1) (hd : c!"<<toc>>" <:+: doc) :
    ∃ html out, TocHtml t.headlines html ∧ t.emit doc = .ok out ∧
      (c!"<p><<toc>></p>" <:+: doc → FirstReplaced c!"<p><<toc>></p>" html doc out) ∧
      (¬ c!"<p><<toc>></p>" <:+: doc → FirstReplaced c!"<<toc>>" html doc out) := by
  obtain ⟨l, e1, e2, e3, e4⟩ := flatToNest_spec t.headlines h
  refine ⟨nestHtml 0 (.list l), if c!"<p><<toc>></p>" <:+: doc then
      replaceFirst c!"<p><<toc>></p>" (nestHtml 0 (.list l)) doc
    else replaceFirst c!"<<toc>>" (nestHtml 0 (.list l)) doc, nestHtml_toc e2 e3 e4, ?_, ?_⟩
  · unfold Toc.emit
    rw [e1, ok_bind]
    have := hasSub_iff (w := c!"<p><<toc>></p>") doc
    by_cases hc : c!"<p><<toc>></p>" <:+: doc
    · simp only [if_pos hc, if_pos (this.2 hc)]; rfl
    · simp only [if_neg hc, if_neg (fun e => hc (this.1 e))]; rfl
  · constructor
    · intro hc; rw [if_pos hc]; exact firstReplaced (by simp) doc ((hasSub_iff doc).2 hc)
    · intro hc; rw [if_neg hc]; exact firstReplaced (by simp) doc ((hasSub_iff doc).2 hd)

example : creole2html {} c!"<<toc>>\n= a\n== b" =
    .ok (c!"<ul>\n\t<li><a href=\"#a\">a</a></li>\n\t<ul>\n\t\t<li><a href=\"#b\">b</a></li>\n\t</ul>\n</ul>\n" ++
      c!"<a name=\"a\"><h1>a</h1></a>\n<a name=\"b\"><h2>b</h2></a>") := by decide +kernel

/-! ## C21 -/

/-- what happens to a `TableOfContent` object during a conversion -/
inductive TocEvent where
  /-- the macro is called with the given depth -/
  | call (depth : Option Int)
  | headline (level : Nat) (title : Str)
  deriving DecidableEq

/-- the object reacts to a sequence of events: the answers to the calls and the final state -/
def tocRun : List TocEvent → Toc → Except PyErr (List Str × Toc)
  | [], t => .ok ([], t)
  | .call d :: es, t =>
    let (s, t) := t.call (match d with | some n => .int n | none => .none)
    (tocRun es t).map fun (l, t) => (s :: l, t)
  | .headline n s :: es, t =>
    match t.addHeadline n s with
    | .ok t => tocRun es t
    | .error e => .error e

/-- the headlines among the events -/
def tocHeads (es : List TocEvent) : List (Nat × Str) :=
  es.filterMap fun | .headline n s => some (n, s) | .call _ => none

/-- the calls among the events -/
def tocCalls (es : List TocEvent) : List (Option Int) :=
  es.filterMap fun | .headline _ _ => none | .call d => some d

/-- no limit, or a level within the limit -/
def withinDepth (d : Option Int) (x : Nat × Str) : Bool :=
  match d with
  | none => true
  | some n => decide ((x.1 : Int) ≤ n)

theorem addHeadline_eq {t : Toc} {d : Option Int} (h : t.maxDepth = d.map .int) (n : Nat) (s : Str) :
    t.addHeadline n s = .ok (if withinDepth d (n, s) then { t with headlines := t.headlines ++ [(n, s)] } else t) := by
  obtain ⟨md, hl, cr⟩ := t
  simp only at h
  subst h
  cases d with
  | none => rfl
  | some k => by_cases hk : (n : Int) ≤ k <;> simp [Toc.addHeadline, levelLe, ok_bind, withinDepth, hk, pure, Except.pure]

theorem tocRun_created : ∀ (es : List TocEvent) (t : Toc) (d : Option Int), t.created = true →
    t.maxDepth = d.map .int →
    ∃ t', tocRun es t = .ok ((tocCalls es).map fun _ => c!"&lt;&lt;toc&gt;&gt;", t') ∧
      t'.headlines = t.headlines ++ (tocHeads es).filter (withinDepth d) := by
  intro es
  induction es with
  | nil => intro t d _ _; exact ⟨t, rfl, by simp [tocHeads]⟩
  | cons e es ih =>
    intro t d h1 h2
    cases e with
    | call d' =>
      obtain ⟨t', e1, e2⟩ := ih t d h1 h2
      refine ⟨t', ?_, by rw [e2]; rfl⟩
      simp only [tocRun, Toc.call, h1, if_true, e1, Except.map]; rfl
    | headline n s =>
      simp only [tocRun, addHeadline_eq h2]
      by_cases hw : withinDepth d (n, s) = true
      · obtain ⟨t', e1, e2⟩ := ih { t with headlines := t.headlines ++ [(n, s)] } d h1 h2
        refine ⟨t', by rw [if_pos hw]; exact e1, ?_⟩
        rw [e2]; simp [tocHeads, List.filter_cons, hw]
      · obtain ⟨t', e1, e2⟩ := ih t d h1 h2
        refine ⟨t', by rw [if_neg hw]; exact e1, ?_⟩
        rw [e2]; simp [tocHeads, List.filter_cons, hw]

/-- **C21.** For every sequence of calls and headlines on a fresh object: the first call is answered by the
placeholder and every later one by the escaped text of the macro; all headlines before the first call are
recorded, and after it those whose level is within the depth given in the first call, in order.  Depths given
in later calls have no effect. -/
theorem C21_toc_first_only (pre post : List TocEvent) (d : Option Int) (hpre : tocCalls pre = []) :
    ∃ t, tocRun (pre ++ .call d :: post) {} =
        .ok (c!"<<toc>>" :: (tocCalls post).map fun _ => c!"&lt;&lt;toc&gt;&gt;", t) ∧
      t.headlines = tocHeads pre ++ (tocHeads post).filter (withinDepth d) := by
  have key : ∀ (es : List TocEvent) (t : Toc), t.created = false → t.maxDepth = none → tocCalls es = [] →
      ∃ t', tocRun (es ++ .call d :: post) t =
        .ok (c!"<<toc>>" :: (tocCalls post).map fun _ => c!"&lt;&lt;toc&gt;&gt;", t') ∧
      t'.headlines = t.headlines ++ tocHeads es ++ (tocHeads post).filter (withinDepth d) := by
    intro es
    induction es with
    | nil =>
      intro t h1 h2 _
      cases d with
      | none =>
        obtain ⟨t', e1, e2⟩ := tocRun_created post { t with created := true } none rfl h2
        refine ⟨t', ?_, by rw [e2]; simp [tocHeads]⟩
        simp only [List.nil_append, tocRun, Toc.call, h1, ne_eq, not_true_eq_false, if_false, Bool.false_eq_true,
          e1, Except.map]
      | some n =>
        obtain ⟨t', e1, e2⟩ := tocRun_created post { t with created := true, maxDepth := some (.int n) } (some n) rfl rfl
        refine ⟨t', ?_, by rw [e2]; simp [tocHeads]⟩
        simp only [List.nil_append, tocRun, Toc.call, h1, ne_eq, reduceCtorEq, not_false_eq_true, if_true,
          Bool.false_eq_true, if_false, e1, Except.map]
    | cons e es ih =>
      intro t h1 h2 hc
      cases e with
      | call d' => simp [tocCalls] at hc
      | headline n s =>
        obtain ⟨t', e1, e2⟩ := ih { t with headlines := t.headlines ++ [(n, s)] } h1 h2 (by simpa [tocCalls] using hc)
        refine ⟨t', ?_, ?_⟩
        · simp only [List.cons_append, tocRun, addHeadline_eq (d := none) h2]; exact e1
        · rw [e2]; simp [tocHeads]
  obtain ⟨t, e1, e2⟩ := key pre {} rfl rfl hpre
  exact ⟨t, e1, by simpa using e2⟩

example : (tocRun [.headline 3 c!"a", .call (some 1), .headline 2 c!"b", .call none, .headline 1 c!"c"] {}).map
    (fun x => (x.1, x.2.headlines)) =
    .ok ([c!"<<toc>>", c!"&lt;&lt;toc&gt;&gt;"], [(3, c!"a"), (1, c!"c")]) := rfl

end Verif.Props
