import Verif.Emit.ArticleRest

/-!
# The ReStructuredText emitter on the elements of articles: lists, tables, blocks
-/

namespace Verif.Emit

open Verif Py Html Spec Spec.Hd Spec.Ar Props

/-! ## Texts on one line -/

theorem linkRest_flat {cell : Bool} {url t u : Str} {r r' : Refs} (h : linkRest cell url t r = some (u, r')) :
    u ≠ [] ∧ ('\n' ∉ url → '\n' ∉ t → '\n' ∉ u) := by
  unfold linkRest at h
  split at h
  · split at h
    · cases h; simp +contextual
    · cases h
  · dsimp only at h
    split at h
    · cases h; simp +contextual
    · cases h; simp +contextual

theorem pictureRest_flat {src t u : Str} {r r' : Refs} (h : pictureRest src t r = some (u, r')) :
    (¬ isDataUri src → u ≠ []) ∧ ('\n' ∉ t → '\n' ∉ u) := by
  unfold pictureRest at h
  split at h
  · next hd => cases h; exact ⟨fun h => absurd hd h, by simp⟩
  · split at h
    · split at h
      · cases h; simp +contextual
      · cases h
    · cases h; simp +contextual

theorem faceRest_flat {tag t : Str} : (t ≠ [] → faceRest tag t ≠ []) ∧ ('\n' ∉ t → '\n' ∉ faceRest tag t) := by
  rw [faceRest]
  split
  · next a b h =>
    have : '\n' ∉ a ∧ '\n' ∉ b := by
      simp only [delimiters, Option.map_eq_some_iff] at h
      obtain ⟨d, h, hd⟩ := h
      have key : ∀ (L : List (Str × Str)), (∀ p ∈ L, '\n' ∉ p.2) → L.lookup tag = some d → '\n' ∉ d := fun L hL hd => hL _ (lookup_mem hd)
      have := key _ (by decide +kernel) h
      cases hd
      exact ⟨this, this⟩
    simp +contextual [this]
  · exact ⟨id, id⟩

mutual
theorem sp_flat {cell : Bool} : ∀ (x : Sp) {t : Str} {r r' : Refs}, x.rest cell r = some (t, r') →
    (x.visible → t ≠ []) ∧ (x.flat → '\n' ∉ t)
  | .text s, t, r, r', h => by
    rw [Sp.rest] at h
    cases h
    rw [Sp.visible, Sp.flat]
    exact ⟨id, id⟩
  | .face tag inner, t, r, r', h => by
    rw [Sp.rest, Option.map_eq_some_iff] at h
    obtain ⟨⟨u, r1⟩, h1, h2⟩ := h
    cases h2
    obtain ⟨a, b⟩ := sps_flat inner h1
    rw [Sp.visible, Sp.flat]
    exact ⟨fun hv => faceRest_flat.1 (a hv), fun hf => faceRest_flat.2 (b hf)⟩
  | .link url title inner, t, r, r', h => by
    rw [Sp.rest, Option.bind_eq_some_iff] at h
    obtain ⟨⟨u, r1⟩, h1, h2⟩ := h
    obtain ⟨a, b⟩ := sps_flat inner h1
    obtain ⟨c, d⟩ := linkRest_flat h2
    rw [Sp.visible, Sp.flat]
    exact ⟨fun _ => c, fun hf => d hf.1 (b hf.2)⟩
  | .image src alt title, t, r, r', h => by
    rw [Sp.rest] at h
    rw [Sp.visible, Sp.flat]
    exact pictureRest_flat h
  | .code s, t, r, r', h => by
    rw [Sp.rest] at h
    cases h
    refine ⟨fun _ => by simp, fun _ => ?_⟩
    have := oneLine_newline s
    simp [this]
  | .br, t, r, r', h => by
    rw [Sp.rest] at h
    cases h
    rw [Sp.flat]
    exact ⟨fun _ => by simp, fun h => h.elim⟩
theorem sps_flat {cell : Bool} : ∀ (xs : List Sp) {t : Str} {r r' : Refs}, spsRest cell xs r = some (t, r') →
    (spsVisible xs → t ≠ []) ∧ (spsFlat xs → '\n' ∉ t)
  | [], t, r, r', h => by
    rw [spsRest] at h
    cases h
    rw [spsVisible]
    exact ⟨fun h => h.elim, fun _ => by simp⟩
  | x :: xs, t, r, r', h => by
    rw [spsRest, Option.bind_eq_some_iff] at h
    obtain ⟨⟨u, r1⟩, h1, h2⟩ := h
    rw [Option.map_eq_some_iff] at h2
    obtain ⟨⟨v, r2⟩, h2, h3⟩ := h2
    cases h3
    obtain ⟨a, b⟩ := sp_flat x h1
    obtain ⟨c, d⟩ := sps_flat xs h2
    rw [spsVisible, spsFlat]
    refine ⟨?_, fun hf => ?_⟩
    · rintro (hv | hv)
      · simp [a hv]
      · simp [c hv]
    · simp [b hf.1, d hf.2]
end

/-! ## Lists -/

theorem rep_four (n : Nat) : rep c!"    " n = List.replicate (4 * n) ' ' := by
  induction n with
  | zero => rfl
  | succ n ih =>
    rw [rep, ih, show 4 * (n + 1) = 4 * n + 1 + 1 + 1 + 1 by omega]
    simp only [List.replicate_succ]
    rfl

/-- the text has these lines and begins a line; the table is left alone -/
def ItsLines (s : ESt) : Str → ESt → List Str → Prop :=
  fun t s' lines => nonEmptyLines t = lines ∧ (t = [] ∨ ∃ u, t = '\n' :: u) ∧ s'.table = s.table

theorem itsLines_append {s s1 s2 : ESt} {t u : Str} {a b : List Str} (h1 : ItsLines s t s1 a) (h2 : ItsLines s1 u s2 b) :
    ItsLines s (t ++ u) s2 (a ++ b) := by
  obtain ⟨a1, b1, c1⟩ := h1
  obtain ⟨a2, b2, c2⟩ := h2
  refine ⟨?_, ?_, c2.trans c1⟩
  · rcases b2 with b2 | ⟨r, b2⟩
    · rw [b2, List.append_nil, a1]
      rw [b2] at a2
      rw [← a2]
      simp [nonEmptyLines_nil]
    · have := nonEmptyLines_append [] r
      rw [List.nil_append, nonEmptyLines_nil, List.nil_append] at this
      rw [b2, nonEmptyLines_append, a1, ← a2, b2, this]
  · rcases b1 with b1 | ⟨r, b1⟩
    · rw [b1, List.nil_append]; exact b2
    · exact .inr ⟨r ++ u, by rw [b1]; rfl⟩

theorem Holds.withMark {s : ESt} {r : Refs} (h : Holds s r) (o : Bool) :
    Holds { s with listMarkup := restMarker o } { r with mark := markRest o } :=
  ⟨h.links, h.pictures, h.waiting, rfl, h.inner, h.urls, h.srcs, by cases o <;> simp [markRest]⟩

/-- the content of an item: its text, then the lines of the list inside of it -/
theorem li_rest {cfg : Cfg} (hl : cfg.lang = .rest) {anc : List Str} (ha : 2 ≤ anc.length) {k : Nat} {ch : List El}
    {s : ESt} {o : Option ((Str × List Str) × Refs)}
    (hch : Does (emitNodes cfg (c!"li" :: anc) (nodesL ((k + 1 : Nat) : Int) ch)) (enter { kind := c!"li", attrs := dictOf [], level := some ((k + 1 : Nat) : Int) } s)
      (fun t s' p => ∃ sub, t = p.1 ++ sub ∧ ItsLines s sub s' p.2 ∧ p.1 ≠ [] ∧ '\n' ∉ p.1) o) :
    Does (emitNodes cfg anc ((El.elem c!"li" [] ch).nodes ((k + 1 : Nat) : Int))) s (ItsLines s)
      (o.map fun p => ((List.replicate (4 * k) ' ' ++ p.2.mark ++ c!" " ++ p.1.1) :: p.1.2, p.2)) := by
  have hn : (El.elem c!"li" [] ch).nodes ((k + 1 : Nat) : Int) =
    [.mk { kind := c!"li", attrs := dictOf [], level := some ((k + 1 : Nat) : Int) } (nodesL ((k + 1 : Nat) : Int) ch)] := rfl
  rw [hn]
  refine Does.node hl (m := .li) rfl (.inr (by omega)) (fun _ _ _ h => h) ?_
  simp only [runMeth, hl]
  rw [restLi]
  refine Does.map (Does.children hch) fun t s' p r hs' ht => ?_
  obtain ⟨sub, rfl, ⟨h1, h2, h3⟩, h4, h5⟩ := ht
  refine ⟨'\n' :: ((List.replicate (4 * k) ' ' ++ r.mark ++ c!" ") ++ stripP (· == '\n') (p.1 ++ sub) ++ c!"\n"), s', ?_, hs',
    ⟨?_, .inr ⟨_, rfl⟩, h3⟩⟩
  · rw [bind_run, levelM]
    dsimp only
    rw [pure_run]
    dsimp only
    rw [bind_run, get_run]
    dsimp only
    rw [pure_run]
    rw [show rep c!"    " (((k + 1 : Nat) : Int) - 1).toNat = List.replicate (4 * k) ' ' by
      rw [show (((k + 1 : Nat) : Int) - 1).toNat = k by omega, rep_four]]
    rw [hs'.mark]
    simp
  · exact rest_item_text (by simp [hs'.markLine]) (by simp) h5 h4 h1 h2

/-- a list inside of another one -/
theorem sublist_rest {cfg : Cfg} (hl : cfg.lang = .rest) {anc : List Str} (ha : 2 ≤ anc.length) {k : Nat} {o : Bool} {ch : List El} {s : ESt}
    {f : Option (List Str × Refs)}
    (hch : Does (emitNodes cfg (listTag o :: anc) (nodesL ((k + 1 + 1 : Nat) : Int) ch))
      (enter { kind := listTag o, attrs := dictOf [], level := some ((k + 1 + 1 : Nat) : Int) } { s with listMarkup := restMarker o }) (ItsLines s) f) :
    Does (emitNodes cfg anc ((El.elem (listTag o) [] ch).nodes ((k + 1 : Nat) : Int))) s (ItsLines s) f := by
  rw [list_nodes, show (((k + 1 : Nat) : Int) + 1) = ((k + 1 + 1 : Nat) : Int) by omega]
  refine Does.node hl (m := .list (restMarker o)) (method_rest_list o) (.inr (by omega)) (fun _ _ _ h => h) ?_
  simp only [runMeth, hl]
  have hrun : ∀ x : EmM Str, restList { kind := listTag o, attrs := dictOf [], level := some ((k + 1 + 1 : Nat) : Int) } (restMarker o) x s =
      x { s with listMarkup := restMarker o } := by
    intro x
    rw [restList, bind_run, modify_run]
    dsimp only
    rw [bind_run]
    cases x { s with listMarkup := restMarker o } with
    | error e => rfl
    | ok p =>
      dsimp only
      rw [if_neg (by simp only [Option.some.injEq]; omega)]
      rfl
  have : Does (childrenM cfg anc { kind := listTag o, attrs := dictOf [], level := some ((k + 1 + 1 : Nat) : Int) } (nodesL ((k + 1 + 1 : Nat) : Int) ch))
      { s with listMarkup := restMarker o } (ItsLines s) f := Does.children hch
  cases f with
  | none => exact (hrun _).trans this
  | some p =>
    obtain ⟨t, s', h1, h2⟩ := this
    exact ⟨t, s', (hrun _).trans h1, h2⟩

theorem does_append {β γ δ : Type} {cfg : Cfg} {anc : List Str} {a b : List HNode} {s : ESt} {R : Str → ESt → β → Prop} {R' : ESt → Str → ESt → γ → Prop}
    {R'' : Str → ESt → δ → Prop} {o : Option (β × Refs)} {g : Refs → Option (γ × Refs)} {c : β → γ → δ}
    (h1 : Does (emitNodes cfg anc a) s R o) (h2 : ∀ s' r, Holds s' r → Does (emitNodes cfg anc b) s' (R' s') (g r))
    (hc : ∀ t s1 x u s2 y, R t s1 x → R' s1 u s2 y → R'' (t ++ u) s2 (c x y)) :
    Does (emitNodes cfg anc (a ++ b)) s R'' (o.bind fun p => (g p.2).map fun q => (c p.1 q.1, q.2)) := by
  refine Does.run ?_ (emitNodes_append_run _ _ _ _ _)
  refine Does.bind h1 fun t s' u r hs' ht => ?_
  refine Does.map (h2 s' r hs') fun t' s'' u' r' hs'' ht' => ?_
  exact ⟨_, s'', rfl, hs'', hc _ _ _ _ _ _ ht ht'⟩

theorem itsLines_nil {cfg : Cfg} {anc : List Str} {s : ESt} {r : Refs} (hs : Holds s r) :
    Does (emitNodes cfg anc []) s (ItsLines s) (some ([], r)) := by
  rw [emitNodes_nil]
  exact ⟨[], s, rfl, hs, rfl, .inl rfl, rfl⟩

/-- keep the conditions on a text -/
theorem Does.known {α β : Type} {x : EmM α} {s : ESt} {R : α → ESt → β → Prop} {o : Option (β × Refs)} {P : β → Prop}
    (h : Does x s R o) (hP : ∀ b r, o = some (b, r) → P b) : Does x s (fun a s' b => R a s' b ∧ P b) o := by
  cases o with
  | none => exact h
  | some p =>
    obtain ⟨a, s', h1, h2, h3⟩ := h
    exact ⟨a, s', h1, h2, h3, hP _ _ rfl⟩

mutual
theorem item_rest {cfg : Cfg} (hl : cfg.lang = .rest) : ∀ (i : Ar.Item), i.RestOk → ∀ {anc : List Str}, 2 ≤ anc.length → shouldSubst anc = false →
    ∀ (k : Nat) {s : ESt} {r : Refs}, Holds s r → Does (emitNodes cfg anc (i.el.nodes ((k + 1 : Nat) : Int))) s (ItsLines s) (i.rest k r)
  | .mk text o sub, h, anc, ha, hcell, k, s, r, hs => by
    rw [Ar.Item.RestOk] at h
    obtain ⟨h1, h2, h3, h4⟩ := h
    have hcell' : shouldSubst (c!"li" :: anc) = false := by rw [shouldSubst_in (by decide) (by decide)]; exact hcell
    have htext := sps_rest hl text h1 (anc := c!"li" :: anc) (by simp; omega) ((k + 1 : Nat) : Int)
      (enter { kind := c!"li", attrs := dictOf [], level := some ((k + 1 : Nat) : Int) } s) r (hs.enter _)
    rw [hcell'] at htext
    have htext := Does.known (P := fun t => t ≠ [] ∧ '\n' ∉ t) htext fun b r' hb => ⟨(sps_flat text hb).1 h3, (sps_flat text hb).2 h2⟩
    have hsub : ∀ s' r', Holds s' r' → Does (emitNodes cfg (c!"li" :: anc) (nodesL ((k + 1 : Nat) : Int)
        (if sub.isEmpty = true then [] else [El.elem (listTag o) [] (itemEls sub)]))) s' (ItsLines s')
        (itemsRest (k + 1) sub (if sub.isEmpty = true then r' else { r' with mark := markRest o })) := by
      intro s' r' hs'
      cases hsub : sub with
      | nil => rw [itemsRest]; exact itsLines_nil hs'
      | cons j js =>
        rw [← hsub]
        have hne : sub.isEmpty = false := by rw [hsub]; rfl
        simp only [hne, Bool.false_eq_true, if_false]
        rw [show nodesL ((k + 1 : Nat) : Int) [El.elem (listTag o) [] (itemEls sub)] = (El.elem (listTag o) [] (itemEls sub)).nodes ((k + 1 : Nat) : Int) by
          rw [nodesL, nodesL, List.append_nil]]
        refine sublist_rest hl (by simp; omega) ?_
        refine items_rest hl sub h4 (by simp) ?_ (k + 1) ((hs'.withMark o).enter _) rfl
        rw [shouldSubst_in (by cases o <;> decide) (by cases o <;> decide)]; exact hcell'
    have hall := does_append (R' := fun s' => ItsLines s') (c := fun t lines => (t, lines))
      (R'' := fun t s' (p : Str × List Str) => ∃ sub, t = p.1 ++ sub ∧ ItsLines s sub s' p.2 ∧ p.1 ≠ [] ∧ '\n' ∉ p.1) htext hsub
      (by
        rintro t s1 x u s2 y ⟨⟨rfl, e⟩, hx1, hx2⟩ hy
        exact ⟨u, rfl, ⟨hy.1, hy.2.1, hy.2.2.trans e⟩, hx1, hx2⟩)
    rw [← nodesL_append, ← spsEls_append (by cases sub <;> rfl)] at hall
    have := li_rest hl ha hall
    rw [Ar.Item.el, Ar.Item.rest]
    cases hx : spsRest false text r with
    | none => rw [hx] at this; exact this
    | some p =>
      rw [hx] at this
      simp only [Option.bind_some, Option.map_map] at this ⊢
      exact this
theorem items_rest {cfg : Cfg} (hl : cfg.lang = .rest) : ∀ (l : List Ar.Item), ItemsRestOk l → ∀ {anc : List Str}, 2 ≤ anc.length → shouldSubst anc = false →
    ∀ (k : Nat) {s s0 : ESt} {r : Refs}, Holds s r → s.table = s0.table →
      Does (emitNodes cfg anc (nodesL ((k + 1 : Nat) : Int) (itemEls l))) s (ItsLines s0) (itemsRest k l r)
  | [], _, anc, _, _, k, s, s0, r, hs, h0 => by
    rw [itemEls, nodesL, itemsRest]
    exact Does.mono (itsLines_nil hs) fun _ _ _ h => ⟨h.1, h.2.1, h.2.2.trans h0⟩
  | i :: l, h, anc, ha, hc, k, s, s0, r, hs, h0 => by
    rw [ItemsRestOk] at h
    rw [itemEls, nodesL, itemsRest]
    exact does_append (R' := fun s' => ItsLines s') (c := fun a b => a ++ b) (item_rest hl i h.1 ha hc k hs)
      (fun s' r' hs' => items_rest hl l h.2 ha hc k hs' rfl)
      (fun t s1 x u s2 y h1 h2 => by
        have := itsLines_append h1 h2
        exact ⟨this.1, this.2.1, this.2.2.trans h0⟩)
end

/-! ## Tables -/

theorem cell_rest {cfg : Cfg} (hl : cfg.lang = .rest) {anc : List Str} (ha : 2 ≤ anc.length) {c : Ar.Cell} (h : SpsRestOk c.text) (depth : Int)
    {s : ESt} {r : Refs} {t : Table} (hs : Holds s r) (ht : s.table = some t) (hp : t.headPrefix = []) :
    Does (emitNodes cfg anc (c.el.nodes depth)) s
      (fun out s' x => out = [] ∧ s'.table = some { t.addTd x with hasHeader := t.hasHeader || c.head }) (cellRest c r) := by
  cases hh : c.head with
  | false =>
    rw [Ar.Cell.el, hh]
    obtain ⟨lv, d, hn⟩ := nodes_elem (tag := c!"td") (attrs := []) (ch := spsEls c.text []) (depth := depth) rfl
    rw [show (if false = true then c!"th" else c!"td") = c!"td" from rfl, hn]
    refine Does.node hl (m := .td) rfl (.inr (by omega)) (fun _ _ _ h => h) ?_
    simp only [runMeth, hl]
    have hch := sps_rest hl c.text h (anc := c!"td" :: anc) (by simp; omega) d (enter { kind := c!"td", attrs := dictOf [], level := lv } s) r (hs.enter _)
    rw [show shouldSubst (c!"td" :: anc) = true by rw [shouldSubst_cons]; simp] at hch
    refine Does.map (Does.children hch) fun u s1 v r1 hs1 hu => ?_
    obtain ⟨rfl, e⟩ := hu
    have ht1 : s1.table = some t := e.trans ht
    refine ⟨[], s1.withTable (t.addTd (oneLine u)), ?_, ⟨hs1.links, hs1.pictures, hs1.waiting, hs1.mark, hs1.inner, hs1.urls, hs1.srcs, hs1.markLine⟩, rfl, ?_⟩
    · rw [bind_run, getTable, bind_run, get_run]
      dsimp only
      rw [ht1]
      dsimp only
      rw [pure_run]
      dsimp only
      rw [bind_run, setTable, modify_run]
      dsimp only
      rw [pure_run]
      rfl
    · show some (t.addTd (oneLine u)) = _
      simp [Table.addTd, Table.addTr]
      split <;> rfl
  | true =>
    rw [Ar.Cell.el, hh]
    obtain ⟨lv, d, hn⟩ := nodes_elem (tag := c!"th") (attrs := []) (ch := spsEls c.text []) (depth := depth) rfl
    rw [show (if true = true then c!"th" else c!"td") = c!"th" from rfl, hn]
    refine Does.node hl (m := .th) rfl (.inr (by omega)) (fun _ _ _ h => h) ?_
    simp only [runMeth, hl]
    have hch := sps_rest hl c.text h (anc := c!"th" :: anc) (by simp; omega) d (enter { kind := c!"th", attrs := dictOf [], level := lv } s) r (hs.enter _)
    rw [show shouldSubst (c!"th" :: anc) = true by rw [shouldSubst_cons]; simp] at hch
    refine Does.map (Does.children hch) fun u s1 v r1 hs1 hu => ?_
    obtain ⟨rfl, e⟩ := hu
    have ht1 : s1.table = some t := e.trans ht
    refine ⟨[], s1.withTable (t.addTh (oneLine u)), ?_, ⟨hs1.links, hs1.pictures, hs1.waiting, hs1.mark, hs1.inner, hs1.urls, hs1.srcs, hs1.markLine⟩, rfl, ?_⟩
    · rw [bind_run, getTable, bind_run, get_run]
      dsimp only
      rw [ht1]
      dsimp only
      rw [pure_run]
      dsimp only
      rw [bind_run, setTable, modify_run]
      dsimp only
      rw [pure_run]
      rfl
    · show some (t.addTh (oneLine u)) = _
      simp only [Table.addTh, Table.addTd, Table.addTr, hp, Bool.or_true, List.nil_append]
      by_cases h0 : t.rows.isEmpty = true <;> simp [h0, hp]

theorem cells_rest {cfg : Cfg} (hl : cfg.lang = .rest) {anc : List Str} (ha : 2 ≤ anc.length) (depth : Int) : ∀ (row : List Ar.Cell),
    (∀ c ∈ row, SpsRestOk c.text) → ∀ {s : ESt} {r : Refs} {t : Table} {rows : List (List Str)} {done : List Str}, Holds s r → s.table = some t →
      t.headPrefix = [] → t.rows = rows ++ [done] →
      Does (emitNodes cfg anc (nodesL depth (row.map Ar.Cell.el))) s
        (fun out s' xs => out = [] ∧ ∃ t', s'.table = some t' ∧ Grown t t' (rows ++ [done ++ xs]) (row.any Ar.Cell.head)) (through cellRest row r)
  | [], _, s, r, t, rows, done, hs, ht, hp, hr => by
    rw [List.map_nil, nodesL, emitNodes_nil, through]
    exact ⟨[], s, rfl, hs, rfl, t, ht, rfl, rfl, by simpa using hr, by simp⟩
  | c :: row, h, s, r, t, rows, done, hs, ht, hp, hr => by
    rw [List.map_cons, nodesL, through]
    refine Does.run ?_ (emitNodes_append_run _ _ _ _ _)
    refine Does.bind (cell_rest hl ha (h c List.mem_cons_self) depth hs ht hp) fun out s1 x r1 hs1 hout => ?_
    obtain ⟨rfl, ht1⟩ := hout
    refine Does.map (cells_rest hl ha depth row (fun y hy => h y (List.mem_cons_of_mem _ hy)) (rows := rows) (done := done ++ [x]) hs1 ht1
      ((addTd_prefix t x).1.trans hp) (addTd_last hr _)) fun out' s2 xs r2 hs2 hout' => ?_
    obtain ⟨rfl, t2, h6, h7⟩ := hout'
    refine ⟨[], s2, rfl, hs2, rfl, t2, h6, h7.pre.trans (addTd_prefix t x).1, h7.auto.trans (addTd_prefix t x).2, by rw [h7.rows]; simp, ?_⟩
    rw [h7.head, List.any_cons, Bool.or_assoc]

theorem rows_rest {cfg : Cfg} (hl : cfg.lang = .rest) {anc : List Str} (ha : 2 ≤ anc.length) (depth : Int) : ∀ (l : List (List Ar.Cell)),
    (∀ row ∈ l, ∀ c ∈ row, SpsRestOk c.text) → ∀ {s : ESt} {r : Refs} {t : Table}, Holds s r → s.table = some t → t.headPrefix = [] →
      Does (emitNodes cfg anc (nodesL depth (l.map Ar.rowEl))) s
        (fun out s' xs => out = [] ∧ ∃ t', s'.table = some t' ∧ Grown t t' (t.rows ++ xs) (l.any fun row => row.any Ar.Cell.head))
        (through (through cellRest) l r)
  | [], _, s, r, t, hs, ht, hp => by
    rw [List.map_nil, nodesL, emitNodes_nil, through]
    exact ⟨[], s, rfl, hs, rfl, t, ht, rfl, rfl, by simp, by simp⟩
  | row :: l, h, s, r, t, hs, ht, hp => by
    obtain ⟨lv, d, hn⟩ := nodes_elem (tag := c!"tr") (attrs := []) (ch := row.map Ar.Cell.el) (depth := depth) rfl
    rw [List.map_cons, nodesL, through, Ar.rowEl, hn]
    refine Does.run ?_ (emitNodes_append_run _ _ _ _ _)
    have h1 : Does (emitNodes cfg anc [.mk { kind := c!"tr", attrs := dictOf [], level := lv } (nodesL d (row.map Ar.Cell.el))]) s
        (fun out s' xs => out = [] ∧ ∃ t', s'.table = some t' ∧ Grown t.addTr t' (t.rows ++ [[] ++ xs]) (row.any Ar.Cell.head)) (through cellRest row r) := by
      refine Does.node hl (m := .tr) rfl (.inr (by omega)) (fun _ _ _ h => h) ?_
      have hch := cells_rest hl (anc := c!"tr" :: anc) (by simp; omega) d row (h row List.mem_cons_self)
        (s := enter { kind := c!"tr", attrs := dictOf [], level := lv } (s.withTable t.addTr)) (t := t.addTr) (rows := t.rows) (done := [])
        (Holds.enter (s := s.withTable t.addTr) ⟨hs.links, hs.pictures, hs.waiting, hs.mark, hs.inner, hs.urls, hs.srcs, hs.markLine⟩ _) rfl hp rfl
      have hrun : ∀ x : EmM Str, runMeth cfg anc { kind := c!"tr", attrs := dictOf [], level := lv } .tr x s =
          (x >>= fun _ => Pure.pure []) (s.withTable t.addTr) := by
        intro x
        simp only [runMeth]
        rw [bind_run, getTable, bind_run, get_run]
        dsimp only
        rw [ht]
        dsimp only
        rw [pure_run]
        dsimp only
        rw [bind_run, setTable, modify_run]
        rfl
      have : Does (childrenM cfg anc { kind := c!"tr", attrs := dictOf [], level := lv } (nodesL d (row.map Ar.Cell.el)) >>= fun _ => Pure.pure ([] : Str)) (s.withTable t.addTr)
          (fun out s' xs => out = [] ∧ ∃ t', s'.table = some t' ∧ Grown t.addTr t' (t.rows ++ [[] ++ xs]) (row.any Ar.Cell.head)) ((through cellRest row r).map id) := by
        refine Does.map (Does.children hch) fun out s1 xs r1 hs1 hout => ?_
        exact ⟨[], s1, rfl, hs1, rfl, hout.2⟩
      rw [Option.map_id] at this
      cases hx : through cellRest row r with
      | none => rw [hx] at this; exact (hrun _).trans this
      | some p =>
        rw [hx] at this
        obtain ⟨a, s', g1, g2⟩ := this
        exact ⟨a, s', (hrun _).trans g1, g2⟩
    refine Does.bind h1 fun out s1 x r1 hs1 hout => ?_
    obtain ⟨rfl, t1, h3, h4⟩ := hout
    refine Does.map (rows_rest hl ha depth l (fun y hy => h y (List.mem_cons_of_mem _ hy)) hs1 h3 (h4.pre.trans hp)) fun out' s2 xs r2 hs2 hout' => ?_
    obtain ⟨rfl, t2, h6, h7⟩ := hout'
    refine ⟨[], s2, rfl, hs2, rfl, t2, h6, h7.pre.trans h4.pre, h7.auto.trans h4.auto, by rw [h7.rows, h4.rows]; simp, ?_⟩
    rw [h7.head, h4.head, List.any_cons, Bool.or_assoc]
    rfl

theorem plus_line (c : Char) : ∀ {ws : List Nat}, ws ≠ [] → plusLine c ws = gridLine c ws
  | [], h => absurd rfl h
  | [w], _ => by simp [plusLine, gridLine, join]
  | w :: w' :: ws, _ => by
    have := plus_line c (ws := w' :: ws) (by simp)
    rw [plusLine, List.map_cons] at this
    rw [plusLine, List.map_cons, List.map_cons, join_cons_cons]
    have e : gridLine c (w :: w' :: ws) = c!"+" ++ List.replicate w c ++ gridLine c (w' :: ws) := by simp [gridLine]
    rw [e, ← this]
    simp

theorem restLines_later (head : Bool) {ws : List Nat} (hw : ws ≠ []) : ∀ (l : List (List Str)) (no : Nat), 2 ≤ no →
    (∀ x ∈ l, barLine (padRow ws x) = filled ws x) →
    restLines head ws no l = gridLine '-' ws :: l.flatMap fun x => [filled ws x, gridLine '-' ws]
  | [], no, _, _ => by rw [restLines, plus_line _ hw]; rfl
  | x :: l, no, h, hx => by
    rw [restLines, restLines_later head hw l (no + 1) (by omega) fun y hy => hx y (List.mem_cons_of_mem _ hy), hx x List.mem_cons_self,
      if_neg (by simp; intro h'; omega), plus_line _ hw]
    rfl

theorem rest_grid (head : Bool) {ws : List Nat} (hw : ws ≠ []) {l : List (List Str)} (hne : l ≠ [])
    (hx : ∀ x ∈ l, barLine (padRow ws x) = filled ws x) : restLines head ws 0 l = gridLines head ws l := by
  cases l with
  | nil => exact absurd rfl hne
  | cons a l =>
    have ha := hx a (by simp)
    cases l with
    | nil =>
      rw [restLines, restLines, gridLines, ha, if_neg (by simp), plus_line _ hw]
    | cons b l =>
      rw [restLines, restLines, gridLines, ha, hx b (by simp), if_neg (by simp),
        restLines_later head hw l 2 (by omega) fun y hy => hx y (by simp [hy]), plus_line _ hw, plus_line _ hw]
      cases head <;> simp

theorem through_length {α β : Type} {f : α → Refs → Option (β × Refs)} : ∀ {l : List α} {r r' : Refs} {ys : List β},
    through f l r = some (ys, r') → ys.length = l.length
  | [], r, r', ys, h => by rw [through] at h; cases h; rfl
  | x :: l, r, r', ys, h => by
    rw [through, Option.bind_eq_some_iff] at h
    obtain ⟨⟨y, r1⟩, _, h2⟩ := h
    rw [Option.map_eq_some_iff] at h2
    obtain ⟨⟨zs, r2⟩, h3, h4⟩ := h2
    cases h4
    simp [through_length h3]

theorem through_rows {α β : Type} {f : α → Refs → Option (β × Refs)} {n : Nat} : ∀ {l : List (List α)} {r r' : Refs} {yss : List (List β)},
    (∀ x ∈ l, x.length = n) → through (through f) l r = some (yss, r') → ∀ ys ∈ yss, ys.length = n
  | [], r, r', yss, _, h => by rw [through] at h; cases h; simp
  | x :: l, r, r', yss, hn, h => by
    rw [through, Option.bind_eq_some_iff] at h
    obtain ⟨⟨y, r1⟩, h1, h2⟩ := h
    rw [Option.map_eq_some_iff] at h2
    obtain ⟨⟨zs, r2⟩, h3, h4⟩ := h2
    cases h4
    intro ys hys
    rcases List.mem_cons.mp hys with rfl | hys
    · rw [through_length h1]; exact hn x List.mem_cons_self
    · exact through_rows (fun y hy => hn y (List.mem_cons_of_mem _ hy)) h3 ys hys

/-- the text of a table -/
theorem table_rest {t : Table} {texts : List (List Str)} {n : Nat} (hn : n ≠ 0) (hp : t.headPrefix = []) (hr : t.rows = texts) (hne : texts ≠ [])
    (hlen : ∀ row ∈ texts, row.length = n) :
    t.rest = joinLines c!"\n" (gridLines t.hasHeader (Rt.widths (texts.map fun row => row.map boxRest)) (texts.map fun row => row.map boxRest)) := by
  have hbox : (t.rows.map fun row => row.map (preformatCell t.headPrefix)) = texts.map fun row => row.map boxRest := by
    rw [hr, hp]
    refine List.map_congr_left fun row _ => List.map_congr_left fun c _ => ?_
    rw [preformatCell, boxRest]
    simp
  have hlen' : ∀ row ∈ texts.map fun row => row.map boxRest, row.length = n := by
    intro row hrow
    obtain ⟨row0, h0, rfl⟩ := List.mem_map.mp hrow
    rw [List.length_map]; exact hlen row0 h0
  have hwne : Rt.widths (texts.map fun row => row.map boxRest) ≠ [] := by
    intro h0
    cases texts with
    | nil => exact absurd rfl hne
    | cons r rs =>
      have hl := columns_length (rows := (r :: rs).map fun row => row.map boxRest) (n := n)
        ⟨fun row hrow => Nat.le_of_eq (hlen' row hrow).symm, r.map boxRest, by simp, by rw [List.length_map]; exact hlen r (by simp)⟩
      rw [← widths_columns, List.map_eq_nil_iff] at h0
      rw [h0] at hl
      exact hn hl.symm
  rw [Table.rest]
  simp only [Table.preformat]
  rw [hbox, ← join_joinLines, widths_columns]
  rw [rest_grid _ hwne (by simpa using hne)]
  intro x hx
  have := filled_rows hn hlen' hx
  rwa [widths_columns] at this

/-! ## Blocks -/

/-- the text of a block ends with an empty line -/
def Block : Str → ESt → List Str → Prop := fun t _ lines => t = joinLines c!"\n" lines ++ c!"\n\n" ∧ lines ≠ []

theorem joinLines_one (t : Str) : joinLines c!"\n" [t] = t := by rw [joinLines]

theorem join_intersperse : ∀ l : List Str, join c!"\n\n" l = joinLines c!"\n" (l.intersperse [])
  | [] => rfl
  | [a] => by rw [List.intersperse_singleton, joinLines_one]; rfl
  | a :: b :: l => by
    rw [join_cons_cons, List.intersperse_cons_cons, joinLines, join_intersperse (b :: l)]
    cases h : (b :: l).intersperse [] with
    | nil => cases l <;> simp [List.intersperse] at h
    | cons c m => rw [joinLines]; simp

theorem items_some {k : Nat} {l : List Ar.Item} (h : l ≠ []) {r r' : Refs} {lines : List Str} (hl : itemsRest k l r = some (lines, r')) : lines ≠ [] := by
  cases l with
  | nil => exact absurd rfl h
  | cons i l =>
    rw [itemsRest, Option.bind_eq_some_iff] at hl
    obtain ⟨⟨a, r1⟩, h1, h2⟩ := hl
    rw [Option.map_eq_some_iff] at h2
    obtain ⟨⟨b, r2⟩, h3, h4⟩ := h2
    cases h4
    cases i with
    | mk text o sub =>
      rw [Ar.Item.rest, Option.bind_eq_some_iff] at h1
      obtain ⟨⟨c, r3⟩, h5, h6⟩ := h1
      rw [Option.map_eq_some_iff] at h6
      obtain ⟨⟨d, r4⟩, h7, h8⟩ := h6
      cases h8
      simp

theorem block_rest {cfg : Cfg} (hl : cfg.lang = .rest) {root : Str} (hroot : root ≠ c!"th" ∧ root ≠ c!"td") {b : Bl} (h : b.RestOk) {s : ESt} {r : Refs}
    (hs : Holds s r) (hw : r.waiting = []) : Does (emitNodes cfg [root] (b.el.nodes 0)) s Block (b.rest r) := by
  have hsub : s.subst = [] ∨ [root].length ≠ 1 := .inl (hs.waiting.trans hw)
  have hcell : ∀ k, k ≠ c!"th" → k ≠ c!"td" → shouldSubst [k, root] = false := by
    intro k h1 h2
    simp [shouldSubst, h1, h2, hroot]
  cases b with
  | para text =>
    rw [Bl.RestOk] at h
    obtain ⟨lv, d, hn⟩ := nodes_elem (tag := c!"p") (attrs := []) (ch := spsEls text []) (depth := 0) rfl
    rw [Bl.el, hn]
    refine Does.node hl (m := .p) rfl hsub (fun _ _ _ h => h) ?_
    have hch := sps_rest hl text h (anc := [c!"p", root]) (by simp) d (enter { kind := c!"p", attrs := dictOf [], level := lv } s) r (hs.enter _)
    rw [hcell _ (by decide) (by decide)] at hch
    simp only [runMeth, hl]
    rw [Bl.rest]
    refine Does.map (Does.children hch) fun t s1 u r1 hs1 ht => ?_
    obtain ⟨rfl, e⟩ := ht
    exact ⟨_, s1, rfl, hs1, by rw [joinLines_one], by simp⟩
  | head n text =>
    rw [Bl.RestOk] at h
    have hh : headline? (c!"h" ++ Cr.decimal n) = some n := by
      rcases level_cases h.1 h.2.1 with rfl | rfl | rfl | rfl | rfl | rfl <;> decide +kernel
    rw [Bl.el, El.nodes, hh]
    dsimp only
    refine Does.node hl (m := .headline) rfl hsub (fun _ _ _ h => h) ?_
    have hch := sps_rest hl text h.2.2 (anc := [c!"headline", root]) (by simp) 0 (enter { kind := c!"headline", level := some (n : Int) } s) r (hs.enter _)
    rw [hcell _ (by decide) (by decide)] at hch
    simp only [runMeth, hl, headlineEmit]
    rw [restHeadline, Bl.rest]
    refine Does.map (Does.children hch) fun t s1 u r1 hs1 ht => ?_
    obtain ⟨rfl, e⟩ := ht
    refine ⟨restHeading n t ++ c!"\n\n", s1, ?_, hs1, by rw [joinLines_one], by simp⟩
    rw [bind_run, levelM]
    dsimp only
    rw [pure_run]
    dsimp only
    rcases level_cases h.1 h.2.1 with rfl | rfl | rfl | rfl | rfl | rfl <;> simp [headlineData, restHeading, underlineChar, pure_run]
  | hr =>
    rw [Bl.el, El.nodes, Bl.rest]
    refine Does.node hl (m := .hr) rfl hsub (fun _ _ _ h => h) ?_
    simp only [runMeth, hl]
    exact ⟨_, s, rfl, hs, rfl, by simp⟩
  | list o items =>
    rw [Bl.RestOk] at h
    rw [Bl.el, list_nodes, Bl.rest, show ((0 : Int) + 1) = ((0 + 1 : Nat) : Int) from rfl]
    refine Does.node hl (m := .list (restMarker o)) (method_rest_list o) hsub (fun _ _ _ h => h) ?_
    simp only [runMeth, hl]
    have hch := items_rest hl items h.1 (anc := [listTag o, root]) (by simp) (hcell _ (by cases o <;> decide) (by cases o <;> decide)) 0
      (s0 := s) ((hs.withMark o).enter { kind := listTag o, attrs := dictOf [], level := some ((0 + 1 : Nat) : Int) }) rfl
    have hch := Does.known (P := fun lines => lines ≠ []) hch fun lines r' hb => items_some h.2 hb
    have : Does (childrenM cfg [root] { kind := listTag o, attrs := dictOf [], level := some ((0 + 1 : Nat) : Int) } (nodesL ((0 + 1 : Nat) : Int) (itemEls items)) >>=
        fun content => Pure.pure (join c!"\n\n" (nonEmptyLines content) ++ c!"\n\n")) { s with listMarkup := restMarker o } Block
        ((itemsRest 0 items { r with mark := markRest o }).map fun p => (p.1.intersperse [], p.2)) := by
      refine Does.map (Does.children hch) fun t s1 lines r1 hs1 ht => ?_
      obtain ⟨⟨h1, _, _⟩, h2⟩ := ht
      refine ⟨_, s1, rfl, hs1, by rw [h1, join_intersperse], ?_⟩
      cases lines with
      | nil => exact absurd rfl h2
      | cons a l => cases l <;> simp [List.intersperse]
    have hrun : ∀ x : EmM Str, restList { kind := listTag o, attrs := dictOf [], level := some ((0 + 1 : Nat) : Int) } (restMarker o) x s =
        (x >>= fun content => Pure.pure (join c!"\n\n" (nonEmptyLines content) ++ c!"\n\n")) { s with listMarkup := restMarker o } := by
      intro x
      rw [restList, bind_run, modify_run]
      dsimp only
      rw [bind_run, bind_run]
      cases x { s with listMarkup := restMarker o } with
      | error e => rfl
      | ok p =>
        dsimp only
        rw [if_pos (by decide)]
        rfl
    cases hx : itemsRest 0 items { r with mark := markRest o } with
    | none => rw [hx] at this; exact (hrun _).trans this
    | some p =>
      rw [hx] at this
      obtain ⟨t, s', g1, g2⟩ := this
      exact ⟨t, s', (hrun _).trans g1, g2⟩
  | table rows =>
    rw [Bl.RestOk] at h
    obtain ⟨hne, hcells, hrect⟩ := h
    have hn0 : (rows.headD []).length ≠ 0 := by
      cases rows with
      | nil => exact absurd rfl hne
      | cons r rs =>
        intro h0
        exact (hcells r List.mem_cons_self).1 (List.length_eq_zero_iff.mp h0)
    obtain ⟨lv, d, hn⟩ := nodes_elem (tag := c!"table") (attrs := []) (ch := rows.map Ar.rowEl) (depth := 0) rfl
    rw [Bl.el, hn, Bl.rest]
    refine Does.node hl (m := .table) rfl hsub (fun _ _ _ h => h) ?_
    have hch := rows_rest hl (anc := [c!"table", root]) (by simp) d rows (fun row hrow => (hcells row hrow).2)
      (s := enter { kind := c!"table", attrs := dictOf [], level := lv } (s.withTable { headPrefix := [] })) (t := { headPrefix := [] })
      (Holds.enter (s := s.withTable { headPrefix := [] }) ⟨hs.links, hs.pictures, hs.waiting, hs.mark, hs.inner, hs.urls, hs.srcs, hs.markLine⟩ _) rfl rfl
    have hch := Does.known (P := fun texts => texts.length = rows.length ∧ ∀ row ∈ texts, row.length = (rows.headD []).length) hch
      fun texts r' hb => ⟨through_length hb, through_rows hrect hb⟩
    have : Does (childrenM cfg [root] { kind := c!"table", attrs := dictOf [], level := lv } (nodesL d (rows.map Ar.rowEl)) >>=
        fun _ => getTable >>= fun t => Pure.pure (t.rest ++ c!"\n\n")) (s.withTable { headPrefix := [] }) Block
        ((through (through cellRest) rows r).map fun (texts, r) =>
          (gridLines (rows.any fun row => row.any Ar.Cell.head) (Rt.widths (texts.map fun row => row.map boxRest)) (texts.map fun row => row.map boxRest), r)) := by
      refine Does.map (Does.children hch) fun t s1 texts r1 hs1 ht => ?_
      obtain ⟨⟨rfl, t', h1, h2⟩, h3, h4⟩ := ht
      have htne : texts ≠ [] := by
        intro h0
        rw [h0] at h3
        exact hne (List.length_eq_zero_iff.mp h3.symm)
      have htr := table_rest hn0 h2.pre (h2.rows.trans (List.nil_append _)) htne h4
      rw [h2.head, Bool.false_or] at htr
      refine ⟨t'.rest ++ c!"\n\n", s1, ?_, hs1, ?_, ?_⟩
      · rw [bind_run, getTable, bind_run, get_run]
        dsimp only
        rw [h1]
        rfl
      · rw [htr]
      · cases texts with
        | nil => exact absurd rfl htne
        | cons a l => cases l <;> simp [gridLines]
    have hrun : ∀ x : EmM Str, runMeth cfg [root] { kind := c!"table", attrs := dictOf [], level := lv } .table x s =
        (x >>= fun _ => getTable >>= fun t => Pure.pure (t.rest ++ c!"\n\n")) (s.withTable { headPrefix := [] }) := by
      intro x
      simp only [runMeth, hl]
      rw [tableEmit, bind_run, setTable, modify_run]
      rfl
    cases hx : through (through cellRest) rows r with
    | none => rw [hx] at this; exact (hrun _).trans this
    | some p =>
      rw [hx] at this
      obtain ⟨t, s', g1, g2⟩ := this
      exact ⟨t, s', (hrun _).trans g1, g2⟩

/-! ## Articles -/

theorem flush_run (s : ESt) : flushSubst true s = .ok (pending s.subst, { s with subst := [] }) := by
  rw [flushSubst, bind_run, get_run]
  dsimp only
  cases hz : s.subst with
  | nil =>
    rw [if_neg (by simp), pure_run]
    cases s
    dsimp only at hz
    subst hz
    rfl
  | cons d ds =>
    rw [if_pos (by simp), bind_run, getBlockData, bind_run, get_run]
    dsimp only
    rw [bind_run, modify_run, hz]
    rfl

/-- a child of the root: first the definitions that are waiting -/
theorem root_child {cfg : Cfg} (hl : cfg.lang = .rest) (root : Str) (n : HNode) (s : ESt) :
    emitNodes cfg [root] [n] s = match emitNodes cfg [root] [n] { s with subst := [] } with
      | .ok (t, s') => .ok (pending s.subst ++ t, s')
      | .error e => .error e := by
  cases n with
  | mk i children =>
    have h0 : ∀ s, emitNode cfg [root] (.mk i children) s = match runNode cfg [root] i (setLast i >>= fun _ => emitNodes cfg (i.kind :: [root]) children) { s with subst := [] } with
        | .ok (t, s') => .ok (pending s.subst ++ t, enter i s')
        | .error e => .error e := by
      intro s
      rw [emitNode_run, bind_run, preEmit, if_pos hl]
      rw [show decide ([root].length = 1) = true from rfl, flush_run]
      dsimp only
      rw [bind_run]
      cases runNode cfg [root] i (setLast i >>= fun _ => emitNodes cfg (i.kind :: [root]) children) { s with subst := [] } with
      | error e => rfl
      | ok p => rfl
    have h1 : ∀ s, emitNodes cfg [root] [.mk i children] s = match emitNode cfg [root] (.mk i children) s with | .ok (t, s') => .ok (t, s') | .error e => .error e := by
      intro s
      rw [emitNodes_cons, emitNodes_nil, bind_run]
      cases emitNode cfg [root] (.mk i children) s with
      | error e => rfl
      | ok p =>
        obtain ⟨t, s'⟩ := p
        dsimp only
        rw [bind_run, pure_run]
        simp [pure_run]
    rw [h1, h1, h0, h0]
    dsimp only
    cases runNode cfg [root] i (setLast i >>= fun _ => emitNodes cfg (i.kind :: [root]) children) { s with subst := [] } with
    | error e => rfl
    | ok p => rfl

theorem pending_join : ∀ ws : List Str, pending ws = if ws = [] then [] else joinLines c!"\n" ws ++ c!"\n\n"
  | [] => rfl
  | w :: ws => by rw [pending, if_neg (by simp), join_joinLines]

/-- the lines of a block with its definitions -/
theorem block_definitions {lines ws : List Str} (h : lines ≠ []) :
    joinLines c!"\n" (lines ++ below ws) ++ c!"\n\n" = joinLines c!"\n" lines ++ c!"\n\n" ++ pending ws := by
  rw [below, pending_join]
  by_cases hw : ws = []
  · simp [hw]
  · rw [if_neg hw, if_neg hw, joinLines_append _ _ h (by simp)]
    cases ws with
    | nil => exact absurd rfl hw
    | cons w ws => rw [joinLines]; simp

theorem block_one (b : Bl) (hb : b.RestOk) : ∃ n, b.el.nodes 0 = [n] := by
  cases b with
  | para text => exact ⟨_, rfl⟩
  | head n text =>
    rw [Bl.RestOk] at hb
    have hh : headline? (c!"h" ++ Cr.decimal n) = some n := by
      rcases level_cases hb.1 hb.2.1 with rfl | rfl | rfl | rfl | rfl | rfl <;> decide +kernel
    rw [Bl.el, El.nodes, hh]
    exact ⟨_, rfl⟩
  | hr => exact ⟨_, rfl⟩
  | list o items => exact ⟨_, by rw [Bl.el, list_nodes]⟩
  | table rows => exact ⟨_, rfl⟩

/-- The blocks.  The definitions of the last one are still waiting. -/
theorem article_rest {cfg : Cfg} (hl : cfg.lang = .rest) {root : Str} (hroot : root ≠ c!"th" ∧ root ≠ c!"td") : ∀ (d : List Bl) (b : Bl),
    b.RestOk → (∀ x ∈ d, x.RestOk) → ∀ {s : ESt} {r : Refs}, Holds s r →
    match articleRest b d { r with waiting := [] } with
    | none => emitNodes cfg [root] (nodesL 0 ((b :: d).map Bl.el)) s = .error .html2rest
    | some lines => ∃ t s', emitNodes cfg [root] (nodesL 0 ((b :: d).map Bl.el)) s = .ok (pending r.waiting ++ t, s') ∧
        c!"\n\n" <:+ t ∧ t ++ pending s'.subst = joinLines c!"\n" lines ++ c!"\n\n" ∧ lines ≠ [] := by
  intro d
  induction d with
  | nil =>
    intro b hb _ s r hs
    obtain ⟨n, hn⟩ := block_one b hb
    have hs0 : Holds { s with subst := [] } { r with waiting := [] } :=
      ⟨hs.links, hs.pictures, rfl, hs.mark, hs.inner, hs.urls, hs.srcs, hs.markLine⟩
    have hblock := block_rest hl hroot hb hs0 rfl
    have hnodes : nodesL 0 ([b].map Bl.el) = [n] := by rw [List.map_cons, List.map_nil, nodesL, nodesL, List.append_nil, hn]
    rw [hn] at hblock
    rw [hnodes, root_child hl, articleRest]
    cases hx : b.rest { r with waiting := [] } with
    | none =>
      rw [hx] at hblock
      have hblock : emitNodes cfg [root] [n] { s with subst := [] } = .error .html2rest := hblock
      simp only [Option.map_none, hblock]
    | some p =>
      obtain ⟨lines, r'⟩ := p
      rw [hx] at hblock
      obtain ⟨t, s', h1, h2, h3, h4⟩ := hblock
      simp only [Option.map_some]
      refine ⟨t, s', by rw [h1, hs.waiting], ⟨_, h3.symm⟩, ?_, by simp [h4]⟩
      rw [block_definitions h4, h3, h2.waiting]
  | cons b' d ih =>
    intro b hb hd s r hs
    obtain ⟨n, hn⟩ := block_one b hb
    have hs0 : Holds { s with subst := [] } { r with waiting := [] } :=
      ⟨hs.links, hs.pictures, rfl, hs.mark, hs.inner, hs.urls, hs.srcs, hs.markLine⟩
    have hblock := block_rest hl hroot hb hs0 rfl
    have hnodes : nodesL 0 ((b :: b' :: d).map Bl.el) = [n] ++ nodesL 0 ((b' :: d).map Bl.el) := by rw [List.map_cons, nodesL, hn]
    rw [hn] at hblock
    rw [hnodes, emitNodes_append_run, bind_run, root_child hl, articleRest]
    cases hx : b.rest { r with waiting := [] } with
    | none =>
      rw [hx] at hblock
      have hblock : emitNodes cfg [root] [n] { s with subst := [] } = .error .html2rest := hblock
      simp only [Option.bind_none, hblock]
    | some p =>
      obtain ⟨lines, r'⟩ := p
      rw [hx] at hblock
      obtain ⟨t, s', h1, h2, h3, h4⟩ := hblock
      have ih := ih b' (hd b' List.mem_cons_self) (fun x hx => hd x (List.mem_cons_of_mem _ hx)) h2
      rw [Option.bind_some]
      dsimp only
      rw [h1]
      dsimp only
      rw [bind_run]
      cases hm : articleRest b' d { r' with waiting := [] } with
      | none =>
        rw [hm] at ih
        dsimp only at ih
        simp only [Option.map_none, ih]
      | some more =>
        rw [hm] at ih
        obtain ⟨u, s2, g1, g2, g3, g4⟩ := ih
        simp only [Option.map_some]
        refine ⟨t ++ (pending r'.waiting ++ u), s2, ?_, ?_, ?_, by simp⟩
        · rw [g1]
          dsimp only
          rw [pure_run, hs.waiting, List.append_assoc]
        · exact g2.trans (((List.suffix_append _ _)).trans (List.suffix_append _ _))
        · rw [List.append_assoc, List.append_assoc, g3, List.append_assoc (lines ++ below r'.waiting),
            joinLines_append (lines ++ below r'.waiting) _ (by simp [h4]) (by simp)]
          have e1 : joinLines c!"\n" ([[]] ++ more) = c!"\n" ++ joinLines c!"\n" more := by
            cases more with
            | nil => exact absurd rfl g4
            | cons x l => rw [List.singleton_append, joinLines]; rfl
          have e2 := block_definitions (ws := r'.waiting) h4
          rw [e1, h3, show joinLines c!"\n" (lines ++ below r'.waiting) ++ c!"\n" ++ (c!"\n" ++ joinLines c!"\n" more) ++ c!"\n\n" =
            (joinLines c!"\n" (lines ++ below r'.waiting) ++ c!"\n\n") ++ (joinLines c!"\n" more ++ c!"\n\n") by simp, e2]
          simp

end Verif.Emit
