import Verif.Emit.Apart
import Verif.Emit.ArticleRest
import Verif.Emit.BackInline
import Verif.Props.ReadHtml
import Verif.Props.Firewall

/-!
# C95: what is converted does not depend on what was before it
-/

namespace Verif.Props

open Verif Py Html Emit Spec Spec.Hd

/-! ## Trees -/

/-- the document with these nodes -/
def docOf (ns : List HNode) : HNode := .mk { kind := c!"document" } ns

/-- a node after which a line ends: a paragraph, a heading, a rule, a table, preformatted text, a list -/
def endsLine (i : HInfo) : Bool :=
  [c!"p", c!"headline", c!"hr", c!"table", c!"blockdata_pre", c!"blockdata_pass"].contains i.kind ||
    [c!"ul", c!"ol"].contains i.kind && i.level = some 1

/-- the attributes at the beginning of the document -/
def begun : ESt := { last := some (c!"document", none) }

theorem emit_docOf {cfg : Cfg} (hr : cfg.lang ≠ .rest) (ns : List HNode) : emit cfg (docOf ns) =
    match emitNodes cfg [c!"document"] ns begun with
    | .ok (t, _) => .ok (strip t)
    | .error e => .error e := by
  have hm : methodOf cfg.lang c!"document" = some .document := by cases cfg.lang <;> rfl
  have hpre : preEmit cfg.lang [] = pure [] := by unfold preEmit; rw [if_neg hr]
  rw [emit_eq, docOf, emitNode_run, hpre]
  unfold runNode
  rw [hm]
  unfold runMeth
  dsimp only
  simp only [if_neg hr, bind_run, pure_run, setLast_run]
  rw [show ({ last := some (c!"document", none) } : ESt) = begun from rfl]
  cases emitNodes cfg [c!"document"] ns begun with
  | error e => rfl
  | ok r => rfl

theorem emitNode_last {cfg : Cfg} {anc : List Str} {n : HNode} {s s' : ESt} {t : Str} (h : emitNode cfg anc n s = .ok (t, s')) :
    s'.last = some (n.info.kind, n.info.content) := by
  obtain ⟨i, cs⟩ := n
  rw [emitNode_run] at h
  obtain ⟨a, s1, h1, h2⟩ := bind_ok.mp h
  obtain ⟨b, s2, h3, h4⟩ := bind_ok.mp h2
  obtain ⟨c, s3, h5, h6⟩ := bind_ok.mp h4
  rw [setLast_run] at h5
  cases h5
  cases h6
  rfl

/-- nodes that do not begin with a list (or in html2markdown any nodes) give the same after any nodes -/
theorem emitNodes_anywhere {cfg : Cfg} (hr : cfg.lang ≠ .rest) (ns : List HNode) (hh : housedL false ns = true)
    (hf : ∀ n, ns.head? = some n → looksBack cfg.lang n.info.kind = false) {s1 s2 : ESt} (hs : s1.innerList = s2.innerList) (anc : List Str) :
    (emitNodes cfg anc ns s1).map (·.1) = (emitNodes cfg anc ns s2).map (·.1) := by
  cases ns with
  | nil => rw [emitNodes]; rfl
  | cons n ns =>
    rw [housedL, Bool.and_eq_true] at hh
    rw [emitNodes_cons, bind_run, bind_run]
    have h1 := emitNode_steady hr n (l := false) (t := false) anc (.inr (hf n rfl)) hh.1 s1 s2
      ⟨hs, fun h => (by cases h), fun h => (by cases h)⟩
    cases e1 : emitNode cfg anc n s1 with
    | error e =>
      rw [e1] at h1
      cases e2 : emitNode cfg anc n s2 with
      | error e' => rw [e2] at h1; cases (show e = e' from h1); rfl
      | ok y => rw [e2] at h1; exact h1.elim
    | ok x =>
      rw [e1] at h1
      cases e2 : emitNode cfg anc n s2 with
      | error e => rw [e2] at h1; exact h1.elim
      | ok y =>
        rw [e2] at h1
        obtain ⟨a, s1'⟩ := x
        obtain ⟨b, s2'⟩ := y
        obtain ⟨rfl, h2, h3⟩ := h1
        dsimp only
        have hl : Like true false s1' s2' := ⟨h2.1, fun _ => by rw [emitNode_last e1, emitNode_last e2], h2.2.2⟩
        have h4 := emitNodes_steady hr ns anc hh.2 s1' s2' hl
        rw [bind_run, bind_run]
        cases e1 : emitNodes cfg anc ns s1' with
        | error e =>
          rw [e1] at h4
          cases e2 : emitNodes cfg anc ns s2' with
          | error e' => rw [e2] at h4; cases (show e = e' from h4); rfl
          | ok y => rw [e2] at h4; exact h4.elim
        | ok x =>
          rw [e1] at h4
          cases e2 : emitNodes cfg anc ns s2' with
          | error e => rw [e2] at h4; exact h4.elim
          | ok y =>
            rw [e2] at h4
            obtain ⟨c, s1''⟩ := x
            obtain ⟨d, s2''⟩ := y
            obtain ⟨rfl, _, _⟩ := h4
            rfl

theorem emitNodes_inner {cfg : Cfg} (hr : cfg.lang ≠ .rest) {ns : List HNode} {anc : List Str} {s s' : ESt} {t : Str}
    (h : emitNodes cfg anc ns s = .ok (t, s')) : s'.innerList = s.innerList := by
  have := emitNodes_steady hr ns (t := true) anc (housedL_true ns) s s ⟨rfl, fun _ => rfl, fun _ => rfl⟩
  rw [h] at this
  exact this.2.2

theorem last_append_nl (a : Str) {b : Str} (h : b.getLast? = some '\n') : (a ++ b).getLast? = some '\n' := by
  rw [List.getLast?_append, h]; rfl

theorem last_cons_nl (c : Char) {b : Str} (h : b.getLast? = some '\n') : (c :: b).getLast? = some '\n' := last_append_nl [c] h

/-- `m` keeps the list markers, if it succeeds -/
theorem steady_keeps {α : Type} {m : EmM α} (h : Steady true true m) {s s' : ESt} {a : α} (e : m s = .ok (a, s')) : s'.innerList = s.innerList := by
  have := h s s ⟨rfl, fun _ => rfl, fun _ => rfl⟩
  rw [e] at this
  exact this.2.2

/-- outside of lists, the text of `m` ends a line -/
def EndsLine (m : EmM Str) : Prop := ∀ s s' t, s.innerList = [] → m s = .ok (t, s') → t.getLast? = some '\n'

theorem EndsLine.pure {t : Str} (h : t.getLast? = some '\n') : EndsLine (Pure.pure t) := by
  intro s s' u _ e
  cases e
  exact h

theorem EndsLine.bind {α : Type} {m : EmM α} {f : α → EmM Str} (hm : Steady true true m) (hf : ∀ a, EndsLine (f a)) : EndsLine (m >>= f) := by
  intro s s' t hs e
  obtain ⟨a, s1, h1, h2⟩ := bind_ok.mp e
  exact hf a s1 s' t (by rw [steady_keeps hm h1, hs]) h2

theorem EndsLine.get {f : ESt → EmM Str} (h : ∀ s, s.innerList = [] → EndsLine (f s)) : EndsLine (MonadState.get >>= f) := by
  intro s s' t hs e
  rw [bind_run] at e
  exact h s hs s s' t hs e

theorem EndsLine.baseList {marker : Str} (hm : marker.length = 1) {ch : EmM Str} (hch : Steady true true ch) : EndsLine (Emit.baseList marker ch) := by
  intro s s' t hs e
  unfold Emit.baseList at e
  simp only [bind_run, get_run, modify_run, hs, List.nil_append] at e
  split at e
  · next c s1 e1 =>
    have h1 := steady_keeps hch e1
    have h2 : s1.innerList.dropLast = [] := by
      rw [h1]
      obtain ⟨x, rfl⟩ := List.length_eq_one_iff.mp hm
      rfl
    rw [if_pos h2] at e
    split at e <;> cases e
    · exact last_append_nl ('\n' :: c) rfl
    · exact last_append_nl _ rfl
  · cases e

/-- a line ends after such a node -/
theorem emitNode_ends {cfg : Cfg} (hr : cfg.lang ≠ .rest) {i : HInfo} {cs : List HNode} (hi : endsLine i = true) {anc : List Str} {s s' : ESt} {t : Str}
    (hs : s.innerList = []) (h : emitNode cfg anc (.mk i cs) s = .ok (t, s')) : t.getLast? = some '\n' := by
  have hpre : preEmit cfg.lang anc = pure [] := by unfold preEmit; rw [if_neg hr]
  rw [emitNode_run, hpre, bind_run, pure_run] at h
  dsimp only at h
  obtain ⟨b, s2, h3, h4⟩ := bind_ok.mp h
  obtain ⟨c, s3, h5, h6⟩ := bind_ok.mp h4
  rw [setLast_run] at h5
  cases h5
  cases h6
  rw [List.nil_append]
  have hch : Steady true true (setLast i >>= fun _ => emitNodes cfg (i.kind :: anc) cs) := (emitNodes_steady hr cs _ (housedL_true cs)).after i
  generalize (setLast i >>= fun _ => emitNodes cfg (i.kind :: anc) cs) = ch at h3 hch
  refine (?_ : EndsLine (runNode cfg anc i ch)) _ _ _ hs h3
  unfold endsLine at hi
  simp only [Bool.or_eq_true, Bool.and_eq_true, List.contains_eq_mem, List.mem_cons, List.not_mem_nil, or_false, decide_eq_true_eq] at hi
  unfold runNode
  rcases hi with (hk | hk | hk | hk | hk | hk) | ⟨hk | hk, hv⟩
  · rw [hk, show methodOf cfg.lang c!"p" = some .p by cases cfg.lang <;> rfl]
    unfold runMeth
    refine EndsLine.bind hch fun a => ?_
    cases hl : cfg.lang with
    | rest => exact absurd hl hr
    | creole => exact EndsLine.get fun s hs => by rw [if_pos hs]; exact .pure (last_append_nl _ rfl)
    | textile => exact .pure (last_append_nl _ rfl)
    | markdown => exact .pure (last_append_nl ('\n' :: a) rfl)
  · rw [hk, show methodOf cfg.lang c!"headline" = some .headline by cases cfg.lang <;> rfl]
    show EndsLine (headlineEmit cfg.lang i ch)
    unfold headlineEmit
    cases hl : cfg.lang with
    | rest => exact absurd hl hr
    | creole => exact .bind (.attr i) fun l => .bind hch fun a => .pure (last_append_nl _ rfl)
    | textile => exact .bind (.attr i) fun l => .bind hch fun a => .pure (last_append_nl _ rfl)
    | markdown => exact .bind (.attr i) fun l => .bind hch fun a => .pure (last_append_nl _ rfl)
  · rw [hk, show methodOf cfg.lang c!"hr" = some .hr by cases cfg.lang <;> rfl]
    unfold runMeth
    dsimp only
    split <;> exact .pure rfl
  · rw [hk, show methodOf cfg.lang c!"table" = some .table by cases cfg.lang <;> rfl]
    show EndsLine (tableEmit cfg.lang ch)
    unfold tableEmit
    refine .bind (.setTable _) fun _ => .bind hch fun _ => .bind .getTable fun t => ?_
    cases hl : cfg.lang with
    | rest => exact absurd hl hr
    | creole => exact .pure (last_append_nl _ rfl)
    | textile => exact .pure (last_append_nl _ rfl)
    | markdown => exact .pure (last_append_nl ('\n' :: t.markdown) rfl)
  · rw [hk, show methodOf cfg.lang c!"blockdata_pre" = some .blockPre by cases cfg.lang <;> rfl]
    show EndsLine (blockPreEmit cfg.lang i.content)
    unfold blockPreEmit
    refine .bind (.deentity _) fun a => ?_
    cases hl : cfg.lang with
    | rest => exact absurd hl hr
    | creole => exact .pure (last_append_nl _ rfl)
    | textile => exact .pure (last_append_nl _ rfl)
    | markdown => exact .pure (last_append_nl _ rfl)
  · rw [hk, show methodOf cfg.lang c!"blockdata_pass" = some .blockPass by cases cfg.lang <;> rfl]
    unfold runMeth
    dsimp only
    split
    · exact .pure (last_append_nl ('\n' :: fmt i.content) rfl)
    · exact .pure (last_append_nl _ rfl)
  all_goals
    rw [hk]
    cases hl : cfg.lang with
    | rest => exact absurd hl hr
    | creole => 
      unfold runMeth methodOf
      dsimp only [List.lookup]
      rw [hl]
      exact EndsLine.baseList rfl hch
    | textile =>
      unfold runMeth methodOf
      dsimp only [List.lookup]
      rw [hl]
      exact EndsLine.baseList rfl hch
    | markdown =>
      show EndsLine (runMeth cfg anc i (.list _) ch)
      unfold runMeth
      rw [hl]
      show EndsLine (mdList i ch)
      unfold mdList
      refine .bind hch fun a => ?_
      rw [if_pos hv]
      exact .pure (last_append_nl ('\n' :: a) rfl)

theorem emitNodes_ends {cfg : Cfg} (hr : cfg.lang ≠ .rest) {ns : List HNode} (hl : ns.getLast?.any (fun n => endsLine n.info) = true)
    {anc : List Str} {s s' : ESt} {t : Str} (hs : s.innerList = []) (h : emitNodes cfg anc ns s = .ok (t, s')) : t.getLast? = some '\n' := by
  cases hn : ns.getLast? with
  | none => rw [hn] at hl; cases hl
  | some n =>
    rw [hn] at hl
    obtain ⟨l, rfl⟩ := List.getLast?_eq_some_iff.mp hn
    rw [emitNodes_append_run] at h
    obtain ⟨a, s1, h1, h2⟩ := bind_ok.mp h
    obtain ⟨b, s2, h3, h4⟩ := bind_ok.mp h2
    rw [emitNodes_cons, emitNodes_nil] at h3
    obtain ⟨c, s3, h5, h6⟩ := bind_ok.mp h3
    cases h6
    cases h4
    obtain ⟨i, cs⟩ := n
    rw [List.append_nil]
    exact last_append_nl _ (emitNode_ends hr hl (by rw [emitNodes_inner hr h1, hs]) h5)

/-! ## One document after the other: trees -/

/-- `as` written before `bs`: text that gives the same, with white space between -/
theorem emit_one_after {cfg : Cfg} (hr : cfg.lang ≠ .rest) (as bs : List HNode) (hh : housedL false bs = true)
    (hf : ∀ n, bs.head? = some n → looksBack cfg.lang n.info.kind = false) :
    ∃ w, (∀ c ∈ w, isSpace c = true) ∧
      (∀ a b, as.getLast?.any (fun n => endsLine n.info) = true → emit cfg (docOf as) = .ok a → emit cfg (docOf bs) = .ok b →
        a ≠ [] → b ≠ [] → '\n' ∈ w) ∧
      emit cfg (docOf (as ++ bs)) = (do
        let a ← emit cfg (docOf as)
        let b ← emit cfg (docOf bs)
        return a ++ w ++ b) := by
  rw [emit_docOf hr, emit_docOf hr, emit_docOf hr, emitNodes_append_run, bind_run]
  cases ea : emitNodes cfg [c!"document"] as begun with
  | error e => exact ⟨[], by simp, (fun _ _ _ h => by cases h), rfl⟩
  | ok x =>
    obtain ⟨ta, s1⟩ := x
    dsimp only
    have hi := emitNodes_inner hr ea
    have hb := emitNodes_anywhere hr bs hh hf hi [c!"document"]
    rw [bind_run]
    cases eb : emitNodes cfg [c!"document"] bs begun with
    | error e =>
      cases e1 : emitNodes cfg [c!"document"] bs s1 with
      | error e' =>
        rw [e1, eb] at hb
        cases (show e' = e from Except.error.inj hb)
        exact ⟨[], by simp, (fun _ _ _ _ h => by cases h), rfl⟩
      | ok y => rw [e1, eb] at hb; cases hb
    | ok y =>
      cases e1 : emitNodes cfg [c!"document"] bs s1 with
      | error e' => rw [e1, eb] at hb; cases hb
      | ok z =>
        obtain ⟨tb, s2⟩ := y
        obtain ⟨tb', s2'⟩ := z
        rw [e1, eb] at hb
        cases (show tb' = tb from Except.ok.inj hb)
        obtain ⟨w, h1, h2, h3⟩ := strip_join_line ta tb
        refine ⟨w, h1, ?_, ?_⟩
        · intro a b hl h4 h5 h6 h7
          cases h4
          cases h5
          exact h2 h6 h7 (emitNodes_ends hr hl rfl ea)
        · show Except.ok (strip (ta ++ tb)) = Except.ok (strip ta ++ w ++ strip tb)
          rw [h3]

/-! ## One document after the other: HTML -/

/-- an element -/
def isElement : Ht → Bool
  | .text _ | .white _ => false
  | _ => true

/-- an element that closes a line: a paragraph, a heading, a table, a list, a rule -/
def closesLine : Ht → Bool
  | .el tag _ _ => [c!"p", c!"h1", c!"h2", c!"h3", c!"h4", c!"h5", c!"h6", c!"table", c!"ul", c!"ol"].contains tag
  | .void tag _ => tag = c!"hr"
  | _ => false

mutual
/-- rows and cells stand in tables -/
def inTables (inTable : Bool) : Ht → Bool
  | .el tag _ ch => (inTable || ![c!"tr", c!"th", c!"td"].contains tag) && inTablesL (inTable || tag = c!"table") ch
  | .void tag _ | .bare tag _ => inTable || ![c!"tr", c!"th", c!"td"].contains tag
  | _ => true
def inTablesL (inTable : Bool) : List Ht → Bool
  | [] => true
  | x :: xs => inTables inTable x && inTablesL inTable xs
end

/-- the document begins with text or with an element other than a list (`tbody` is no element for the converters) -/
def startsPlain : List Ht → Bool
  | .text (_ :: _) :: _ => true
  | .el tag _ _ :: _ | .void tag _ :: _ | .bare tag _ :: _ => ![c!"ul", c!"ol", c!"tbody"].contains tag
  | _ => false

theorem addChar_ne (c : Char) (l : List El) : addChar c l ≠ [] := by
  unfold addChar
  split
  · simp
  · split <;> simp

theorem addChar_append (c : Char) {X : List El} (hX : X ≠ []) (B : List El) : addChar c (X ++ B) = addChar c X ++ B := by
  obtain ⟨e, X, rfl⟩ := List.exists_cons_of_ne_nil hX
  unfold addChar
  split
  · rfl
  · cases e <;> rfl

theorem els_append (y : Ht) {X : List El} (hX : X ≠ []) (B : List El) : y.els (X ++ B) = y.els X ++ B ∧ y.els X ≠ [] := by
  cases y with
  | text s =>
    rw [Ht.els, Ht.els]
    induction s with
    | nil => exact ⟨rfl, hX⟩
    | cons c s ih => rw [List.foldr_cons, List.foldr_cons, ih.1]; exact ⟨addChar_append c ih.2 B, addChar_ne c _⟩
  | white s => rw [Ht.els, Ht.els]; exact ⟨rfl, hX⟩
  | el tag attrs ch => rw [Ht.els, Ht.els]; exact ⟨rfl, by simp⟩
  | void tag attrs => rw [Ht.els, Ht.els]; exact ⟨rfl, by simp⟩
  | bare tag attrs => rw [Ht.els, Ht.els]; exact ⟨rfl, by simp⟩

theorem foldr_els_append (l : List Ht) {X : List El} (hX : X ≠ []) (B : List El) :
    l.foldr Ht.els (X ++ B) = l.foldr Ht.els X ++ B ∧ l.foldr Ht.els X ≠ [] := by
  induction l with
  | nil => exact ⟨rfl, hX⟩
  | cons y l ih => rw [List.foldr_cons, List.foldr_cons, ih.1]; exact els_append y ih.2 B

theorem elsL_white {gap : List Ht} (hg : ∀ y ∈ gap, ∃ s, y = .white s) (l : List Ht) : elsL (gap ++ l) = elsL l := by
  induction gap with
  | nil => rfl
  | cons y gap ih =>
    obtain ⟨s, rfl⟩ := hg y List.mem_cons_self
    rw [List.cons_append, elsL, Ht.els, ih fun y hy => hg y (List.mem_cons_of_mem _ hy)]

theorem elsL_one_after (l : List Ht) {x : Ht} (hx : isElement x = true) {gap : List Ht} (hg : ∀ y ∈ gap, ∃ s, y = .white s) (l2 : List Ht) :
    elsL (l ++ x :: gap ++ l2) = elsL (l ++ [x]) ++ elsL l2 := by
  rw [List.append_assoc, List.cons_append, elsL_append l, elsL_append l, elsL, elsL_white hg, elsL, elsL]
  have : x.els (elsL l2) = x.els [] ++ elsL l2 ∧ x.els [] ≠ [] := by
    cases x with
    | text s => cases hx
    | white s => cases hx
    | el tag attrs ch => rw [Ht.els, Ht.els]; exact ⟨rfl, by simp⟩
    | void tag attrs => rw [Ht.els, Ht.els]; exact ⟨rfl, by simp⟩
    | bare tag attrs => rw [Ht.els, Ht.els]; exact ⟨rfl, by simp⟩
  rw [this.1]
  exact (foldr_els_append l this.2 _).1

theorem wfL_append (b : Bool) (X Y : List El) : wfL b (X ++ Y) = (wfL b X && wfL b Y) := by
  induction X with
  | nil => simp [wfL]
  | cons e X ih => rw [List.cons_append, wfL, wfL, ih, Bool.and_assoc]

theorem housedL_append (t : Bool) (X Y : List HNode) : housedL t (X ++ Y) = (housedL t X && housedL t Y) := by
  induction X with
  | nil => simp [housedL]
  | cons e X ih => rw [List.cons_append, housedL, housedL, ih, Bool.and_assoc]

theorem housed_addChar (t : Bool) (d : Int) (c : Char) (X : List El) : housedL t (nodesL d (addChar c X)) = housedL t (nodesL d X) := by
  unfold addChar
  split
  · rw [nodesL, El.nodes, List.singleton_append, housedL, housed]; simp [cellKind, housedL]
  · split
    · simp only [nodesL, El.nodes, List.singleton_append, housedL, housed]
    · rw [nodesL, El.nodes, List.singleton_append, housedL, housed]; simp [cellKind, housedL]

theorem housed_text {t : Bool} (d : Int) (s : Str) {X : List El} (hX : housedL t (nodesL d X) = true) :
    housedL t (nodesL d (s.foldr addChar X)) = true := by
  induction s with
  | nil => exact hX
  | cons c s ih => rw [List.foldr_cons, housed_addChar]; exact ih

mutual
theorem housed_els {t : Bool} (d : Int) : ∀ (x : Ht) {X : List El}, inTables t x = true → housedL t (nodesL d X) = true → housedL t (nodesL d (x.els X)) = true
  | .text s, X, _, hX => by
    rw [Ht.els]
    exact housed_text d s hX
  | .white s, X, _, hX => by rw [Ht.els]; exact hX
  | .void tag attrs, X, hx, hX => by
    rw [inTables] at hx
    rw [Ht.els, nodesL, El.nodes, List.singleton_append, housedL, housed, hX, housedL]
    simpa [cellKind, and_assoc] using hx
  | .bare tag attrs, X, hx, hX => by
    rw [inTables] at hx
    rw [Ht.els, nodesL, El.nodes, List.singleton_append, housedL, housed, hX, housedL]
    simpa [cellKind, and_assoc] using hx
  | .el tag attrs ch, X, hx, hX => by
    rw [inTables, Bool.and_eq_true] at hx
    have hc : (t || !cellKind tag) = true := by simpa [cellKind, and_assoc] using hx.1
    rw [Ht.els, nodesL, housedL_append, hX, Bool.and_true]
    split
    · next h =>
      rw [El.nodes]
      have := housed_elsL (t := t || tag = c!"table") d ch hx.2
      rw [h.1] at this
      simpa using this
    · rw [El.nodes]
      split
      · next n hn =>
        have hT : tag ≠ c!"table" := by rintro rfl; cases hn
        have := housed_elsL (t := t || tag = c!"table") d ch hx.2
        rw [housedL, housed, housedL]
        simpa [cellKind, hT] using this
      · split
        · have := housed_elsL (t := t || tag = c!"table") (d + 1) ch hx.2
          rw [housedL, housed, housedL, hc, this]
          rfl
        · have := housed_elsL (t := t || tag = c!"table") d ch hx.2
          split <;> rw [housedL, housed, housedL, hc, this] <;> rfl
theorem housed_elsL {t : Bool} (d : Int) : ∀ (l : List Ht), inTablesL t l = true → housedL t (nodesL d (elsL l)) = true
  | [], _ => by rw [elsL, nodesL, housedL]
  | x :: xs, h => by
    rw [inTablesL, Bool.and_eq_true] at h
    rw [elsL]
    exact housed_els d x h.1 (housed_elsL d xs h.2)
end

theorem startsPlain_head {l : List Ht} (h : startsPlain l = true) (lang : Lang) (d : Int) :
    ∀ n, (nodesL d (elsL l)).head? = some n → looksBack lang n.info.kind = false := by
  have key : ∀ (tag : Str) (attrs : List (Str × Option Str)) (ch X : List El), (![c!"ul", c!"ol", c!"tbody"].contains tag) = true →
      ∀ n, (nodesL d (.elem tag attrs ch :: X)).head? = some n → looksBack lang n.info.kind = false := by
    intro tag attrs ch X ht n hn
    simp only [Bool.not_eq_true', List.contains_eq_mem, List.mem_cons, List.not_mem_nil, or_false, decide_eq_false_iff_not, not_or] at ht
    rw [nodesL, El.nodes] at hn
    split at hn
    · cases hn
      simp [looksBack, HNode.info]
    · rw [if_neg (by simp [ht.1, ht.2.1])] at hn
      split at hn <;> cases hn <;> simp [looksBack, HNode.info, ht.1, ht.2.1]
  have key2 : ∀ (tag : Str) (attrs : List (Str × Option Str)) (X : List El), (![c!"ul", c!"ol", c!"tbody"].contains tag) = true →
      ∀ n, (nodesL d (.void tag attrs :: X)).head? = some n → looksBack lang n.info.kind = false := by
    intro tag attrs X ht n hn
    simp only [Bool.not_eq_true', List.contains_eq_mem, List.mem_cons, List.not_mem_nil, or_false, decide_eq_false_iff_not, not_or] at ht
    rw [nodesL, El.nodes] at hn
    cases hn
    simp [looksBack, HNode.info, ht.1, ht.2.1]
  unfold startsPlain at h
  split at h
  · next c s l =>
    intro n hn
    rw [elsL, Ht.els, List.foldr_cons] at hn
    generalize s.foldr addChar (elsL l) = X at hn
    unfold addChar at hn
    split at hn
    · rw [nodesL, El.nodes] at hn; cases hn; simp [looksBack, HNode.info]
    · split at hn <;> (rw [nodesL, El.nodes] at hn; cases hn; simp [looksBack, HNode.info])
  · next tag attrs ch l =>
    rw [elsL, Ht.els, if_neg (by rintro ⟨rfl, -⟩; exact absurd h (by decide))]
    exact key _ _ _ _ h
  · rw [elsL, Ht.els]; exact key2 _ _ _ h
  · rw [elsL, Ht.els]; exact key2 _ _ _ h
  · cases h

theorem els_last (y : Ht) (X : List El) {e : El} (he : ∀ d, e ≠ .text d) : ∃ Y, y.els (X ++ [e]) = Y ++ [e] := by
  have h1 : ∀ (c : Char) (X : List El), ∃ Y, addChar c (X ++ [e]) = Y ++ [e] := by
    intro c X
    cases X with
    | cons x X => exact ⟨_, addChar_append c (by simp) _⟩
    | nil =>
      unfold addChar
      split
      · exact ⟨[_], rfl⟩
      · rw [List.nil_append]
        split
        · next h => cases h; exact absurd rfl (he _)
        · exact ⟨[_], rfl⟩
  cases y with
  | text s =>
    rw [Ht.els]
    induction s with
    | nil => exact ⟨X, rfl⟩
    | cons c s ih =>
      obtain ⟨Y, hY⟩ := ih
      rw [List.foldr_cons, hY]
      exact h1 c Y
  | white s => rw [Ht.els]; exact ⟨X, rfl⟩
  | el tag attrs ch => rw [Ht.els]; exact ⟨_ :: X, rfl⟩
  | void tag attrs => rw [Ht.els]; exact ⟨_ :: X, rfl⟩
  | bare tag attrs => rw [Ht.els]; exact ⟨_ :: X, rfl⟩

theorem closesLine_last (l : List Ht) {x : Ht} (hx : closesLine x = true) :
    (nodesL 0 (elsL (l ++ [x]))).getLast?.any (fun n => endsLine n.info) = true := by
  have h1 : ∃ e, x.els [] = [e] ∧ (∀ d, e ≠ .text d) ∧ ∃ i cs, e.nodes 0 = [.mk i cs] ∧ endsLine i = true := by
    cases x with
    | text s => cases hx
    | white s => cases hx
    | bare tag attrs => cases hx
    | void tag attrs =>
      have : tag = c!"hr" := of_decide_eq_true hx
      subst this
      refine ⟨_, by rw [Ht.els], (by simp), _, _, by rw [El.nodes], rfl⟩
    | el tag attrs ch =>
      have ht : tag ∈ [c!"p", c!"h1", c!"h2", c!"h3", c!"h4", c!"h5", c!"h6", c!"table", c!"ul", c!"ol"] := by
        simpa [closesLine] using hx
      have hb : tag ≠ c!"tbody" := by rintro rfl; exact absurd ht (by decide)
      refine ⟨_, by rw [Ht.els, if_neg (by simp [hb])], (by simp), ?_⟩
      simp only [List.mem_cons, List.not_mem_nil, or_false] at ht
      rcases ht with rfl | rfl | rfl | rfl | rfl | rfl | rfl | rfl | rfl | rfl <;> exact ⟨_, _, by rw [El.nodes]; rfl, rfl⟩
  obtain ⟨e, h2, h3, i, cs, h4, h5⟩ := h1
  have h6 : ∃ Y, elsL (l ++ [x]) = Y ++ [e] := by
    rw [elsL_append, elsL, elsL, h2]
    clear h2
    induction l with
    | nil => exact ⟨[], rfl⟩
    | cons y l ih =>
      obtain ⟨Y, hY⟩ := ih
      rw [List.foldr_cons, hY]
      exact els_last y Y h3
  obtain ⟨Y, hY⟩ := h6
  rw [hY, nodesL_append, nodesL, nodesL, h4, List.append_nil, List.getLast?_append]
  exact h5

/-- **C95.**  For html2creole, html2textile and html2markdown: if a document (ending in an element) is followed by another one, then
what comes out is what comes out of the first, white space, and what comes out of the second; if one of them cannot be converted, the error is the
same.  If the first ends in a paragraph, a heading, a table, a list or a rule, there is a line break between them.  The second must not
begin with a list (html2markdown: anything) and must not have rows or cells outside of tables. -/
theorem C95_one_after {cfg : Cfg} (hr : cfg.lang ≠ .rest) (l : List Ht) {x : Ht} (hx : isElement x = true) {gap : List Ht}
    (hg : ∀ y ∈ gap, ∃ s, y = .white s) (l2 : List Ht) (n1 : neat (l ++ [x]) = true) (n2 : neat l2 = true)
    (n3 : neat (l ++ x :: gap ++ l2) = true) (w1 : wfL true (elsL (l ++ [x])) = true) (w2 : wfL true (elsL l2) = true)
    (ht : inTablesL false l2 = true) (hf : cfg.lang = .markdown ∨ startsPlain l2 = true) :
    ∃ w, (∀ c ∈ w, isSpace c = true) ∧
      (∀ a b, closesLine x = true → convert cfg (written (l ++ [x])) = .ok a → convert cfg (written l2) = .ok b →
        a ≠ [] → b ≠ [] → '\n' ∈ w) ∧
      convert cfg (written (l ++ x :: gap ++ l2)) = (do
        let a ← convert cfg (written (l ++ [x]))
        let b ← convert cfg (written l2)
        return a ++ w ++ b) := by
  have hp : ∀ {d : List Ht}, neat d = true → wfL true (elsL d) = true → convert cfg (written d) = emit cfg (docOf (nodesL 0 (elsL d))) := by
    intro d h1 h2
    have := C60_parse_written d h1 h2 (a := []) (b := []) (by simp) (by simp)
    rw [List.nil_append, List.append_nil] at this
    unfold convert
    rw [this]
    rfl
  have w3 : wfL true (elsL (l ++ x :: gap ++ l2)) = true := by rw [elsL_one_after l hx hg, wfL_append, w1, w2]; rfl
  rw [hp n1 w1, hp n2 w2, hp n3 w3, elsL_one_after l hx hg, nodesL_append]
  obtain ⟨w, h1, h2, h3⟩ := emit_one_after hr (nodesL 0 (elsL (l ++ [x]))) (nodesL 0 (elsL l2)) (housed_elsL 0 l2 ht) (by
    rcases hf with hf | hf
    · intro n _
      rw [hf]; rfl
    · exact startsPlain_head hf _ _)
  exact ⟨w, h1, fun a b hc => h2 a b (closesLine_last l hc), h3⟩

/-- **C95.**  What is left out does not hold: in html2rest a link that was defined before is not defined again; a table in a list at the
beginning leaves an empty line more; and a cell outside of a table is an error, except after a table. -/
theorem C95_one_after_limits :
    (html2rest c!"<p>a <a href=\"/x\">l</a></p>" = .ok c!"a `l </x>`_" ∧ html2rest c!"<p>b <a href=\"/x\">l</a></p>" = .ok c!"b `l </x>`_" ∧
      html2rest c!"<p>a <a href=\"/x\">l</a></p><p>b <a href=\"/x\">l</a></p>" = .ok c!"a `l </x>`_\n\nb `l`_") ∧
    (Emit.html2creole c!"<ul><li>b<table><tr><td>x</td></tr></table></li></ul><p>c</p>" = .ok c!"* b| x |\n\n\nc" ∧
      Emit.html2creole c!"<p>a</p><ul><li>b<table><tr><td>x</td></tr></table></li></ul><p>c</p>" = .ok c!"a\n\n* b| x |\n\nc") ∧
    ((∃ e, Emit.html2creole c!"<td>y</td>" = .error e) ∧
      Emit.html2creole c!"<table><tr><td>x</td></tr></table><td>y</td>" = .ok c!"| x |") :=
  ⟨⟨by decide +kernel, by decide +kernel, by decide +kernel⟩, ⟨by decide +kernel, by decide +kernel⟩, ⟨_, rfl⟩, by decide +kernel⟩

/-- a heading and a paragraph -/
def exampleBefore : List Ht := [.el c!"h1" [] [.text c!"Cats & dogs"], .el c!"p" [] [.text c!"one ", .el c!"b" [] [.text c!"two"]]]

/-- a paragraph and a table -/
def exampleAfter : List Ht := [.el c!"p" [] [.text c!"see ", .el c!"a" [(c!"href", c!"/x")] [.text c!"here"]],
  .el c!"table" [] [.el c!"tr" [] [.el c!"td" [] [.text c!"x"], .el c!"td" [] [.text c!"y"]]]]

example : neat exampleBefore = true ∧ neat exampleAfter = true ∧ neat (exampleBefore ++ [.white c!"\n\n"] ++ exampleAfter) = true ∧
    wfL true (elsL exampleBefore) = true ∧ wfL true (elsL exampleAfter) = true ∧ inTablesL false exampleAfter = true ∧
    startsPlain exampleAfter = true ∧ closesLine (exampleBefore[1]) = true := by decide +kernel

example : Emit.html2creole (written exampleBefore) = .ok c!"= Cats & dogs\n\none **two**" ∧
    Emit.html2creole (written exampleAfter) = .ok c!"see [[/x|here]]\n\n| x | y |" ∧
    Emit.html2creole (written (exampleBefore ++ [.white c!"\n\n"] ++ exampleAfter)) =
      .ok (c!"= Cats & dogs\n\none **two**" ++ c!"\n\n" ++ c!"see [[/x|here]]\n\n| x | y |") := by decide +kernel

end Verif.Props
