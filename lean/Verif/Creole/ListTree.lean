import Verif.Creole.BlockKinds

/-!
# Reading the items of a list
-/

namespace Verif.Creole

open Verif Re Py Spec Spec.Cr

variable {env : Env} {sg : Stage} {ms : Macros} {cx : Ctx} [hcx : CxOk env ms cx]

def markKind : Mark → Kind
  | .bullet => .bullet_list
  | .number => .number_list

def listInfo (k : Mark) (n : Nat) : Info := { kind := markKind k, level := some n }

def itemInfo (n : Nat) : Info := { kind := .list_item, level := some (n + 1) }

def isListKind (k : Kind) : Prop := k = .number_list ∨ k = .bullet_list

theorem markKind_list (k : Mark) : isListKind (markKind k) := by cases k <;> simp [markKind, isListKind]

/-- the handler for an item with the marks `m` and the text `t` -/
def itemHit (st : PS) (x : Str × Str) : PM := itemRepl ⟨[], [(.item, []), (.item_text, x.2), (.item_head, x.1)]⟩ st

theorem itemRepl_hit (w x m t : Str) (st : PS) : itemRepl ⟨w, [(.item, x), (.item_text, t), (.item_head, m)]⟩ st = itemHit st (m, t) := rfl

/-- the marks and the text of an item -/
def hitOf (i : Item) : Str × Str := (i.pre ++ [i.kind.char], prints i.text)

theorem not_doc_of {f : Frame} (hk : f.kind = .list_item ∨ isListKind f.kind) : f.kind ≠ .document := by
  rcases hk with h | h | h <;> rw [h] <;> decide

/-! ## Items -/

/-- the lists that are open have levels below `n` -/
def Lev (n : Nat) (fs : List Frame) : Prop := ∀ g ∈ fs, isListKind g.kind → ∃ m, g.info.level = some m ∧ m < n

theorem findList_lev {n : Nat} : ∀ {fs : List Frame} {f : Frame}, Lev n (f :: fs) →
    findList n f fs = none ∨ ∃ f' up', findList n f fs = some (f', up') ∧ f'.kind = .document := by
  have key : ∀ {f : Frame}, Lev n [f] → ¬ (((f.kind = .number_list || f.kind = .bullet_list) && f.info.level = some n) = true) := by
    intro f h hh
    simp only [Bool.and_eq_true, Bool.or_eq_true, decide_eq_true_eq] at hh
    obtain ⟨m, h1, h2⟩ := h f (by simp) hh.1
    rw [h1] at hh
    simp at hh
    omega
  intro fs
  induction fs with
  | nil =>
    intro f h
    have hk := key h
    unfold findList
    by_cases hd : f.kind = .document
    · right; refine ⟨f, [], ?_, hd⟩; rw [if_pos]; simp [isDoc, hd]
    · left
      rw [if_neg]
      simp only [isDoc, Bool.or_eq_true, decide_eq_true_eq, not_or]
      exact ⟨hk, hd⟩
  | cons p fs ih =>
    intro f h
    have hk := key (f := f) (fun g hg => h g (by simp at hg; simp [hg]))
    unfold findList
    by_cases hd : f.kind = .document
    · right; refine ⟨f, p :: fs, ?_, hd⟩; rw [if_pos]; simp [isDoc, hd]
    · rw [if_neg]
      · refine ih ?_
        intro g hg
        rw [List.mem_cons] at hg
        rcases hg with rfl | hg
        · exact h p (by simp)
        · exact h g (by simp [hg])
      · simp only [isDoc, Bool.or_eq_true, decide_eq_true_eq, not_or]
        exact ⟨hk, hd⟩


/-- the node in which an item is put -/
def itemPlace (k : Mark) (n : Nat) (st : PS) : PS :=
  match findList n st.cur st.up with
  | some (f, up) => if f.kind = markKind k then { st with cur := f, up := up }
      else (st.upto fun k => k = .list_item || isDoc k).push (listInfo k n)
  | none => (st.upto fun k => k = .list_item || isDoc k).push (listInfo k n)

theorem itemHit_eq {k : Mark} {pre t : Str} {st : PS} (ht : st.text = false) :
    itemHit st (pre ++ [k.char], t) = (parseInline t ((itemPlace k pre.length st).push (itemInfo pre.length)) >>= fun st => .ok st.noText) := by
  unfold itemHit itemRepl
  have h1 : need (Match.mk [] [(G.item, []), (G.item_text, t), (G.item_head, pre ++ [k.char])]) .item_head = .ok (pre ++ [k.char]) := rfl
  have h2 : need (Match.mk [] [(G.item, []), (G.item_text, t), (G.item_head, pre ++ [k.char])]) .item_text = .ok t := rfl
  rw [checkText_ok ht]
  simp only [ok_bind, h1, h2, List.getLast?_append, List.getLast?_singleton, Option.some_or, List.length_append, List.length_singleton,
    Nat.add_sub_cancel]
  have hk : (if k.char = '#' then Kind.number_list else Kind.bullet_list) = markKind k := by cases k <;> rfl
  rw [hk]
  rfl

theorem emit_item {k : Mark} {n : Nat} {cs : List Node} {x : Str} (h : Emits env ms (itemInfo n) cs x) :
    emitNode env (listInfo k n) (.mk (itemInfo n) cs) ms = .ok (c!"\n" ++ indentTabs (n + 1) ++ c!"<li>" ++ x ++ c!"</li>", ms) := by
  unfold Emits at h
  rw [emitNode]
  simp only [itemInfo, Info.levelE] at h ⊢
  rw [h]
  cases k <;> simp [emap, Except.map, listEmit, listInfo, markKind, tabs, indentTabs]

theorem emit_list {p : Info} {k : Mark} {n : Nat} {cs : List Node} {x : Str} (h : Emits env ms (listInfo k n) cs x) :
    emitNode env p (.mk (listInfo k n) cs) ms =
      .ok ((if p.kind = .document then [] else c!"\n") ++ indentTabs n ++ c!"<" ++ k.tag ++ c!">" ++ x ++ c!"\n" ++ indentTabs n ++
        c!"</" ++ k.tag ++ c!">", ms) := by
  unfold Emits at h
  rw [emitNode]
  cases k <;> simp only [listInfo, markKind, Info.levelE] at h ⊢ <;> rw [h] <;>
    simp [emap, Except.map, listEmit, tabs, indentTabs, Mark.tag]

theorem noBrk_clean {st : PS} (hn : NoBrk st) : st.cleanupBreak = st := by
  unfold PS.cleanupBreak
  cases hl : st.cur.children.getLast? with
  | none => rfl
  | some n => simp only; rw [if_neg (hn n hl)]

/-! ## The lists that are open -/

/-- the beginning of a list in another one -/
def beginList (k : Mark) (n : Nat) : Str := c!"\n" ++ indentTabs n ++ c!"<" ++ k.tag ++ c!">"

def beginItem (n : Nat) : Str := c!"\n" ++ indentTabs (n + 1) ++ c!"<li>"

/-- The lists `S` are open, the parser is in the innermost item.  Nodes and text so far: `w` is the HTML from the beginning of the
outermost list on; `D` is the node the outermost list is in. -/
inductive Spine (env : Env) (ms : Macros) (D : Frame) : List (Mark × Nat) → Str → Frame → List Frame → Prop
  | one {k : Mark} {n : Nat} {F f : Frame} {x y : Str} (hF : F.info = listInfo k n) (hx : Emits env ms (listInfo k n) F.children x)
      (hf : f.info = itemInfo n) (hy : Emits env ms (itemInfo n) f.children y) :
      Spine env ms D [(k, n)] (indentTabs n ++ c!"<" ++ k.tag ++ c!">" ++ x ++ beginItem n ++ y) f [F, D]
  | more {S : List (Mark × Nat)} {u : Str} {g : Frame} {gs : List Frame} {k : Mark} {n : Nat} {F f : Frame} {x y : Str} (h : Spine env ms D S u g gs)
      (hF : F.info = listInfo k n) (hx : Emits env ms (listInfo k n) F.children x)
      (hf : f.info = itemInfo n) (hy : Emits env ms (itemInfo n) f.children y) :
      Spine env ms D ((k, n) :: S) (u ++ beginList k n ++ x ++ beginItem n ++ y) f (F :: g :: gs)

variable {D : Frame} {S : List (Mark × Nat)} {w : Str} {f : Frame} {fs : List Frame}

theorem Spine.item (h : Spine env ms D S w f fs) : f.kind = .list_item := by
  cases h <;> (unfold Frame.kind; rename_i hf _; rw [hf]; rfl)

/-- something more in the innermost item -/
theorem Spine.add {k : Mark} {n : Nat} {node : Node} {z : Str} (h : Spine env ms D ((k, n) :: S) w f fs) (hz : emitNode env (itemInfo n) node ms = .ok (z, ms)) :
    Spine env ms D ((k, n) :: S) (w ++ z) (f.add node) fs := by
  cases h with
  | one hF hx hf hy =>
    have := Spine.one (D := D) (f := f.add node) hF hx hf (emits_snoc hy hz)
    simpa using this
  | more h hF hx hf hy =>
    have := Spine.more (f := f.add node) h hF hx hf (emits_snoc hy hz)
    simpa using this

/-- another item in the innermost list -/
theorem Spine.next {k : Mark} {n : Nat} {F f' : Frame} {y' : Str} (h : Spine env ms D ((k, n) :: S) w f (F :: fs)) (hf' : f'.info = itemInfo n)
    (hy' : Emits env ms (itemInfo n) f'.children y') :
    Spine env ms D ((k, n) :: S) (w ++ c!"</li>" ++ beginItem n ++ y') f' (F.add f.close :: fs) := by
  have hcl : ∀ {y}, f.info = itemInfo n → Emits env ms (itemInfo n) f.children y →
      emitNode env (listInfo k n) f.close ms = .ok (beginItem n ++ y ++ c!"</li>", ms) := by
    intro y h1 h2
    unfold Frame.close
    rw [h1, emit_item h2]
    simp [beginItem]
  cases h with
  | one hF hx hf hy =>
    have := Spine.one (D := D) (F := F.add f.close) hF (emits_snoc hx (hcl hf hy)) hf' hy'
    simpa using this
  | more h hF hx hf hy =>
    have := Spine.more (F := F.add f.close) h hF (emits_snoc hx (hcl hf hy)) hf' hy'
    simpa using this

theorem Spine.closed {k : Mark} {n : Nat} {x y : Str} {F : Frame} {p : Info} (hF : F.info = listInfo k n) (hx : Emits env ms (listInfo k n) F.children x)
    (hf : f.info = itemInfo n) (hy : Emits env ms (itemInfo n) f.children y) :
    emitNode env p (F.add f.close).close ms =
      .ok ((if p.kind = .document then [] else c!"\n") ++ indentTabs n ++ c!"<" ++ k.tag ++ c!">" ++ x ++ beginItem n ++ y ++ endList (k, n), ms) := by
  have h1 : emitNode env (listInfo k n) f.close ms = .ok (beginItem n ++ y ++ c!"</li>", ms) := by
    unfold Frame.close
    rw [hf, emit_item hy]
    simp [beginItem]
  have h2 := emit_list (p := p) (emits_snoc hx h1)
  have e : (F.add f.close).close = .mk (listInfo k n) (F.children ++ [f.close]) := by
    simp only [Frame.close, Frame.add, hF]
  rw [e, h2]
  simp [endList]

/-- the end of the innermost list -/
theorem Spine.pop {k : Mark} {n : Nat} {F g : Frame} (h : Spine env ms D ((k, n) :: S) w f (F :: g :: fs)) (hS : S ≠ []) :
    Spine env ms D S (w ++ endList (k, n)) (g.add (F.add f.close).close) fs := by
  cases h with
  | one hF hx hf hy => exact absurd rfl hS
  | more h hF hx hf hy =>
    cases S with
    | nil => exact absurd rfl hS
    | cons a S =>
      obtain ⟨k', n'⟩ := a
      have := h.add (Spine.closed (p := itemInfo n') hF hx hf hy)
      simpa [beginList, itemInfo] using this

theorem Spine.end {k : Mark} {n : Nat} {F : Frame} {gs : List Frame} (h : Spine env ms D [(k, n)] w f (F :: gs)) (hD : D.info.kind = .document) :
    gs = [D] ∧ emitNode env D.info (F.add f.close).close ms = .ok (w ++ endList (k, n), ms) := by
  cases h with
  | one hF hx hf hy =>
    refine ⟨rfl, ?_⟩
    rw [Spine.closed hF hx hf hy, if_pos hD]
    simp
  | more h => cases h

theorem Spine.shape {k : Mark} {n : Nat} (h : Spine env ms D ((k, n) :: S) w f fs) : ∃ F g gs, fs = F :: g :: gs ∧ F.info = listInfo k n := by
  cases h with
  | one hF => exact ⟨_, _, _, rfl, hF⟩
  | more _ hF => exact ⟨_, _, _, rfl, hF⟩

theorem Spine.ne (h : Spine env ms D S w f fs) : S ≠ [] := by
  cases h <;> simp

theorem findList_item {n : Nat} {p : Frame} (hk : f.kind = .list_item) : findList n f (p :: fs) = findList n (p.add f.close) fs := by
  rw [findList, if_neg]
  simp [hk, isDoc]

/-- searching for the innermost list of a level -/
theorem Spine.find (hD : D.info.kind = .document) (n : Nat) : ∀ {S : List (Mark × Nat)} {w : Str} {f : Frame} {fs : List Frame}, Spine env ms D S w f fs →
    match S.dropWhile (fun x => x.2 != n) with
    | [] => ∃ D', findList n f fs = some (D', []) ∧ D'.kind = .document
    | (k, m) :: outer => ∃ f' F' gs, findList n f fs = some (F'.add f'.close, gs) ∧ F'.info = listInfo k n ∧ m = n ∧
        Spine env ms D ((k, n) :: outer) (w ++ (S.takeWhile (fun x => x.2 != n)).flatMap endList) f' (F' :: gs) := by
  intro S
  induction S with
  | nil => intro w f fs h; exact absurd rfl h.ne
  | cons a S ih =>
    obtain ⟨k, m⟩ := a
    intro w f fs h
    obtain ⟨F, g, gs, rfl, hF⟩ := h.shape
    rw [findList_item h.item]
    by_cases hm : m = n
    · subst hm
      rw [List.dropWhile_cons_of_neg (by simp), List.takeWhile_cons_of_neg (by simp)]
      refine ⟨f, F, g :: gs, ?_, hF, rfl, by simpa using h⟩
      rw [findList, if_pos]
      have : (F.add f.close).info = listInfo k m := hF
      simp only [Frame.kind, this]
      cases k <;> simp [listInfo, markKind]
    · rw [List.dropWhile_cons_of_pos (by simpa using hm), List.takeWhile_cons_of_pos (by simpa using hm)]
      have hstep : findList n (F.add f.close) (g :: gs) = findList n (g.add (F.add f.close).close) gs := by
        rw [findList, if_neg]
        have h1 : (F.add f.close).info = listInfo k m := hF
        simp only [Frame.kind, h1, isDoc]
        cases k <;> simp [listInfo, markKind, hm]
      rw [hstep]
      cases S with
      | nil =>
        obtain ⟨h1, _⟩ := h.end hD
        simp only [List.cons.injEq] at h1
        obtain ⟨rfl, rfl⟩ := h1
        refine ⟨g.add (F.add f.close).close, ?_, hD⟩
        rw [findList, if_pos]
        simp only [Frame.kind, isDoc, Frame.add, hD]
        simp
      | cons b S =>
        have := ih (h.pop (by simp))
        revert this
        cases hd : (b :: S).dropWhile (fun x => x.2 != n) with
        | nil => exact id
        | cons c outer =>
          obtain ⟨k', m'⟩ := c
          rintro ⟨f', F', gs', h1, h2, h3, h4⟩
          refine ⟨f', F', gs', h1, h2, h3, ?_⟩
          rw [List.flatMap_cons]
          simpa using h4

theorem climb_step {P : Kind → Bool} {p : Frame} (hk : P f.kind = false) : climb P f (p :: fs) = climb P (p.add f.close) fs := by
  rw [climb, if_neg (by simp [hk])]

/-- ending all lists -/
theorem Spine.climb (hD : D.info.kind = .document) : ∀ {S : List (Mark × Nat)} {w : Str} {f : Frame} {fs : List Frame}, Spine env ms D S w f fs →
    ∃ node, climb isDoc f fs = (D.add node, []) ∧ emitNode env D.info node ms = .ok (w ++ S.flatMap endList, ms) := by
  intro S
  induction S with
  | nil => intro w f fs h; exact absurd rfl h.ne
  | cons a S ih =>
    obtain ⟨k, m⟩ := a
    intro w f fs h
    obtain ⟨F, g, gs, rfl, hF⟩ := h.shape
    have h1 : (F.add f.close).info = listInfo k m := hF
    rw [climb_step (by rw [h.item]; rfl), climb_step (by simp only [Frame.kind, h1]; cases k <;> rfl)]
    cases S with
    | nil =>
      obtain ⟨h2, h3⟩ := h.end hD
      simp only [List.cons.injEq] at h2
      obtain ⟨rfl, rfl⟩ := h2
      refine ⟨_, ?_, by simpa using h3⟩
      rw [Verif.Creole.climb]
    | cons b S =>
      obtain ⟨node, h2, h3⟩ := ih (h.pop (by simp))
      exact ⟨node, h2, by rw [h3, List.flatMap_cons]; simp⟩

theorem Spine.path : ∀ {S : List (Mark × Nat)} {w : Str} {f : Frame} {fs : List Frame}, Spine env ms D S w f fs →
    ∀ κ ∈ (f :: fs).map Frame.kind, κ = .list_item ∨ isListKind κ ∨ κ = D.kind := by
  intro S w f fs h
  have hlist : ∀ {F : Frame} {k : Mark} {n : Nat}, F.info = listInfo k n → isListKind F.kind := by
    intro F k n h; unfold Frame.kind; rw [h]; exact markKind_list k
  induction h with
  | one hF hx hf hy =>
    intro κ hκ
    simp only [List.map_cons, List.map_nil, List.mem_cons, List.not_mem_nil, or_false] at hκ
    rcases hκ with rfl | rfl | rfl
    · left; unfold Frame.kind; rw [hf]; rfl
    · right; left; exact hlist hF
    · right; right; rfl
  | more h hF hx hf hy ih =>
    intro κ hκ
    rw [List.map_cons, List.map_cons, List.mem_cons, List.mem_cons] at hκ
    rcases hκ with rfl | rfl | hκ
    · left; unfold Frame.kind; rw [hf]; rfl
    · right; left; exact hlist hF
    · exact ih κ hκ

/-! ## Reading items -/

structure InList (env : Env) (sg : Stage) (ms : Macros) (D : Frame) (S : List (Mark × Nat)) (w : Str) (st : PS) : Prop where
  text : st.text = false
  used : UsedOk sg st.used
  spine : Spine env ms D S w st.cur st.up
  noBrk : NoBrk st

/-- the text of an item that has a place -/
theorem item_text {i : Item} (hok : i.ok cx = true) {place st : PS} (hp1 : place.text = false) (hp2 : UsedOk sg place.used) (hst : st.text = false)
    (hpl : itemPlace i.kind i.level st = place) :
    ∃ st', itemHit st (hitOf i) = .ok st' ∧ st'.text = false ∧ UsedOk sg st'.used ∧ NoBrk st' ∧ st'.up = place.cur :: place.up ∧
      st'.cur.info = itemInfo i.level ∧
      Emits env ms (itemInfo i.level) st'.cur.children (htmls cx (c!"<br />\n" ++ indentTabs (i.level + 1)) i.text) := by
  simp only [Item.ok, Bool.and_eq_true] at hok
  obtain ⟨⟨⟨_, hwf⟩, htr⟩, hlast⟩ := hok
  have hne : i.text ≠ [] := by
    intro h
    rw [h] at htr
    exact absurd htr (by decide)
  obtain ⟨st1, h1, h2, h3, h4⟩ := parseInline_did (env := env) (ms := ms) (cx := cx) (l := i.text) (st := place.push (itemInfo i.level))
    (br := c!"<br />\n" ++ indentTabs (i.level + 1)) hwf hne (textOK_of_false hp1) rfl
  have hit : itemHit st (hitOf i) = .ok st1.noText := by
    unfold hitOf
    rw [itemHit_eq hst]
    rw [show i.pre.length = i.level from rfl, hpl, h1]; rfl
  have hem := h2.emits [] emits_nil
  exact ⟨st1.noText, hit, rfl, h2.used hp2, h4 hlast, h2.up, h2.info, hem⟩

theorem upto_item {st : PS} (hn : NoBrk st) (hk : st.cur.kind = .list_item) : st.upto (fun k => k = .list_item || isDoc k) = st := by
  unfold PS.upto
  rw [noBrk_clean hn]
  simp only
  have : climb (fun k => k = .list_item || isDoc k) st.cur st.up = (st.cur, st.up) := by
    cases st.up with
    | nil => rw [climb]
    | cons p fs => rw [climb, if_pos (by simp [hk])]
  rw [this]

/-- an item that begins a new list inside the last item -/
theorem item_new {i : Item} (hok : i.ok cx = true) {st : PS} (h : InList env sg ms D S w st)
    (hpl : itemPlace i.kind i.level st = st.push (listInfo i.kind i.level)) :
    ∃ st', itemHit st (hitOf i) = .ok st' ∧
      InList env sg ms D ((i.kind, i.level) :: S) (w ++ beginList i.kind i.level ++ i.html cx) st' := by
  obtain ⟨st', h1, h2, h3, h4, h5, h6, h7⟩ := item_text (env := env) (ms := ms) (cx := cx) hok (place := st.push (listInfo i.kind i.level)) h.text h.used h.text hpl
  refine ⟨st', h1, h2, h3, ?_, h4⟩
  rw [h5]
  have := Spine.more (k := i.kind) (F := ⟨listInfo i.kind i.level, []⟩) h.spine rfl emits_nil h6 h7
  simpa [Item.html, beginItem, PS.push] using this

theorem item_step (hD : D.info.kind = .document) {i : Item} (hok : i.ok cx = true) {st : PS} (h : InList env sg ms D S w st) :
    ∃ st' S' w', itemHit st (hitOf i) = .ok st' ∧ InList env sg ms D S' (w ++ w') st' ∧
      ∀ l, itemsHtml cx S (i :: l) = w' ++ itemsHtml cx S' l := by
  have hf := h.spine.find hD i.level
  have hup := upto_item h.noBrk h.spine.item
  revert hf
  cases hd : S.dropWhile (fun x => x.2 != i.level) with
  | nil =>
    rintro ⟨D', h1, h2⟩
    obtain ⟨st', h3, h4⟩ := item_new hok h (by
      unfold itemPlace
      rw [h1]
      simp only [hup]
      rw [if_neg]
      rw [h2]; cases i.kind <;> decide)
    refine ⟨st', _, beginList i.kind i.level ++ i.html cx, h3, by simpa using h4, ?_⟩
    intro l
    rw [itemsHtml, hd]
    simp [beginList]
  | cons a outer =>
    obtain ⟨k, m⟩ := a
    rintro ⟨f', F', gs, h1, h2, rfl, h4⟩
    have hk' : (F'.add f'.close).kind = markKind k := by
      show F'.info.kind = _
      rw [h2]; rfl
    by_cases hk : k = i.kind
    · obtain ⟨st', h5, h6, h7, h8, h9, h10, h11⟩ := item_text (env := env) (ms := ms) (cx := cx) hok (st := st)
        (place := { st with cur := F'.add f'.close, up := gs }) h.text h.used h.text (by
          unfold itemPlace
          rw [h1]
          simp only
          rw [if_pos]
          rw [hk', hk])
      refine ⟨st', (k, i.level) :: outer,
        (S.takeWhile (fun x => x.2 != i.level)).flatMap endList ++ c!"</li>" ++ i.html cx, h5, ⟨h6, h7, ?_, h8⟩, ?_⟩
      · rw [h9]
        have := h4.next h10 h11
        simpa [Item.html, beginItem] using this
      · intro l
        rw [itemsHtml, hd]
        simp only [hk, if_true]
    · obtain ⟨st', h5, h6⟩ := item_new hok h (by
        unfold itemPlace
        rw [h1]
        simp only [hup]
        rw [if_neg]
        rw [hk']
        intro e
        apply hk
        revert e
        cases k <;> cases i.kind <;> decide)
      refine ⟨st', _, beginList i.kind i.level ++ i.html cx, h5, by simpa using h6, ?_⟩
      intro l
      rw [itemsHtml, hd]
      simp [beginList, hk]

theorem items_more (hD : D.info.kind = .document) : ∀ {l : List Item} {S : List (Mark × Nat)} {w : Str} {st : PS}, (∀ i ∈ l, i.ok cx = true) →
    InList env sg ms D S w st →
    ∃ st' S' w', (l.map hitOf).foldlM itemHit st = .ok st' ∧ InList env sg ms D S' (w ++ w') st' ∧
      itemsHtml cx S l = w' ++ S'.flatMap endList := by
  intro l
  induction l with
  | nil => intro S w st _ h; exact ⟨st, S, [], rfl, by simpa using h, by rw [itemsHtml]; rfl⟩
  | cons i l ih =>
    intro S w st hl h
    obtain ⟨st1, S1, w1, h1, h2, h3⟩ := item_step hD (hl i (by simp)) h
    obtain ⟨st2, S2, w2, h4, h5, h6⟩ := ih (fun j hj => hl j (by simp [hj])) h2
    refine ⟨st2, S2, w1 ++ w2, ?_, by simpa using h5, ?_⟩
    · rw [List.map_cons, List.foldlM_cons, h1, ok_bind, h4]
    · rw [h3 _, h6]; simp

/-- the first item of a list -/
theorem item_first {i : Item} (hok : i.ok cx = true) {st : PS} (hst : st.text = false) (hlev : Lev i.level (st.cur :: st.up))
    {us : List Str} (hus : UsedOk sg us)
    (hbase : st.upto (fun k => k = .list_item || isDoc k) = ⟨D, [], false, us⟩) :
    ∃ st', itemHit st (hitOf i) = .ok st' ∧
      InList env sg ms D [(i.kind, i.level)] (indentTabs i.level ++ c!"<" ++ i.kind.tag ++ c!">" ++ i.html cx) st' := by
  have hpl : itemPlace i.kind i.level st = (PS.mk D [] false us).push (listInfo i.kind i.level) := by
    unfold itemPlace
    rcases findList_lev hlev with h | ⟨f', up', h, hd⟩
    · rw [h]; simp only [hbase]
    · rw [h]
      simp only [hbase]
      rw [if_neg]
      rw [hd]; cases i.kind <;> decide
  obtain ⟨st', h1, h2, h3, h4, h5, h6, h7⟩ := item_text (env := env) (ms := ms) (cx := cx) hok (st := st) (by rfl) hus hst hpl
  refine ⟨st', h1, h2, h3, ?_, h4⟩
  rw [h5]
  have := Spine.one (D := D) (k := i.kind) (F := ⟨listInfo i.kind i.level, []⟩) rfl emits_nil h6 h7
  simpa [Item.html, beginItem, PS.push] using this

theorem items_read (hD : D.info.kind = .document) {i : Item} {l : List Item} (hok : ∀ j ∈ i :: l, j.ok cx = true) (hi : i.level = 0) {st : PS} (hst : st.text = false)
    (hlev : Lev 0 (st.cur :: st.up)) {us : List Str} (hus : UsedOk sg us)
    (hbase : st.upto (fun k => k = .list_item || isDoc k) = ⟨D, [], false, us⟩) :
    ∃ st' S w, ((i :: l).map hitOf).foldlM itemHit st = .ok st' ∧ InList env sg ms D S w st' ∧
      listHtml cx i l = w ++ S.flatMap endList := by
  obtain ⟨st1, h1, h2⟩ := item_first (env := env) (ms := ms) (cx := cx) (hok i (by simp)) hst (by rw [hi]; exact hlev) hus hbase
  obtain ⟨st2, S, w, h3, h4, h5⟩ := items_more (l := l) hD (fun j hj => hok j (by simp [hj])) h2
  refine ⟨st2, S, _, ?_, h4, ?_⟩
  · rw [List.map_cons, List.foldlM_cons, h1, ok_bind, h3]
  · rw [listHtml, h5, hi]
    simp [indentTabs]

end Verif.Creole
