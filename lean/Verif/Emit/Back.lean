import Verif.Props.Lists
import Verif.Props.EmitText
import Verif.Html.ReadDoc
import Verif.Spec.RoundTrip

/-!
# html2creole on the elements of a document

`creEs` says what html2creole emits for the inline elements and the lists of lists of a document; `html2creole` agrees
with it (`cre_emits`), and it is the text of `Verif.Spec.Rt` for the HTML of creole markup.
-/

namespace Verif.Emit

open Verif Py Html Spec Spec.Hd Props

/-- what is emitted for an image -/
def creImg (attrs : List (Str × Option Str)) : Option Str :=
  match creoleImg false (dictOf attrs) {} with
  | .ok (t, _) => some t
  | .error _ => none

/-- what is emitted for a link -/
def creLink (attrs : List (Str × Option Str)) (text : Str) : Str :=
  match dictGet c!"href" (dictOf attrs) with
  | none => text
  | some url => if url = some text then c!"[[" ++ text ++ c!"]]" else c!"[[" ++ fmt url ++ '|' :: text ++ c!"]]"

/-- the marks inside an element -/
def marksIn (m tag : Str) : Str := if tag = c!"ul" then m ++ c!"*" else if tag = c!"ol" then m ++ c!"#" else m

/-- what is emitted for an unknown element, from its content -/
def creUnknown (p : Policy) (tag : Str) (attrs : List (Str × Option Str)) (t : Str) : Option Str :=
  match p with
  | .transparent => some (emitContent tag t)
  | .htmlMacro => some (maskContent tag (dictOf attrs) c!"html" t)
  | _ => none

/-- what is emitted for an element that is no table and no typeface, from its content -/
def creOther (p : Policy) (m tag : Str) (attrs : List (Str × Option Str)) (t : Str) : Option Str :=
  if tag = c!"a" then some (creLink attrs t)
  else if tag ∉ knownKinds .creole ∧ headline? tag = none then creUnknown p tag attrs t
  else if m = [] then none
  else if tag = c!"li" then some ('\n' :: m ++ ' ' :: t)
  else if tag = c!"ul" ∨ tag = c!"ol" then some t
  else none

mutual
/-- what is emitted for an element; `p` tells what to do with unknown ones, `m` are the marks of the lists around it -/
def creE (p : Policy) (m : Str) : El → Option Str
  | .text d => some d
  | .entity n => some (entityrefText (some n))
  | .charref _ | .tbody _ => none
  | .void tag attrs =>
    if tag = c!"br" then some (if m = [] then c!"\n" else c!"\\\\") else if tag = c!"img" then creImg attrs
    else if tag ∉ knownKinds .creole then creUnknown p tag attrs [] else none
  | .elem tag attrs ch =>
    match creEs p (marksIn m tag) ch with
    | none => none
    | some t =>
      match delimiters .creole tag with
      | some (a, b) => some (a ++ t ++ b)
      | none => creOther p m tag attrs t
def creEs (p : Policy) (m : Str) : List El → Option Str
  | [] => some []
  | e :: es =>
    match creE p m e, creEs p m es with
    | some a, some b => some (a ++ b)
    | _, _ => none
end

/-! ## html2creole agrees -/

/-- `emit` does what a value says, and does not change the attributes except for `last` -/
def Emits (x : EmM Str) (s : ESt) (t : Str) : Prop := ∃ s', x s = .ok (t, s') ∧ s'.core = s.core

/-- an operation that does not use the attributes -/
def Const {α : Type} (x : EmM α) : Prop := ∃ r : Except PyErr α, ∀ s, x s = r.map fun a => (a, s)

theorem Const.pure {α : Type} (a : α) : Const (Pure.pure a : EmM α) := ⟨.ok a, fun _ => rfl⟩

theorem Const.raise {α : Type} (e : PyErr) : Const (Emit.raise e : EmM α) := ⟨.error e, fun _ => rfl⟩

theorem Const.bind {α β : Type} {x : EmM α} {f : α → EmM β} (hx : Const x) (hf : ∀ a, Const (f a)) : Const (x >>= f) := by
  obtain ⟨r, hr⟩ := hx
  cases r with
  | error e => exact ⟨.error e, fun s => by rw [bind_run, hr]; rfl⟩
  | ok a =>
    obtain ⟨q, hq⟩ := hf a
    exact ⟨q, fun s => by rw [bind_run, hr]; exact hq s⟩

theorem Const.ite {α : Type} {p : Prop} [Decidable p] {x y : EmM α} (hx : Const x) (hy : Const y) : Const (if p then x else y) := by
  split
  · exact hx
  · exact hy

theorem creoleImg_run (st : Bool) (attrs : Dict (Option Str)) : Const (creoleImg st attrs) := by
  rw [creoleImg]
  refine Const.bind ?_ fun o => ?_
  · rw [imgSrc]
    split
    · exact Const.raise _
    · exact Const.raise _
    · exact Const.ite (Const.pure _) (Const.pure _)
  · split
    · exact Const.pure _
    · refine Const.bind ?_ fun t => ?_
      · rw [imgText]
        split
        · exact Const.ite (Const.pure _) (Const.pure _)
        · exact Const.raise _
      · split <;> exact Const.pure _

theorem creImg_run {attrs : List (Str × Option Str)} {t : Str} (h : creImg attrs = some t) (s : ESt) :
    creoleImg false (dictOf attrs) s = .ok (t, s) := by
  obtain ⟨r, hr⟩ := creoleImg_run false (dictOf attrs)
  rw [creImg, hr] at h
  rw [hr]
  cases r with
  | error e => simp [Except.map] at h
  | ok u => simp [Except.map] at h; rw [h]; rfl

/-- the arguments that all theorems have in common -/
structure Plain (p : Policy) (cfg : Cfg) : Prop where
  lang : cfg.lang = .creole
  policy : cfg.policy = p
  strict : cfg.strict = false

theorem emitNode_creole {p : Policy} {cfg : Cfg} (hc : Plain p cfg) {anc : List Str} {i : HInfo} {children : List HNode} {m : Meth} {s : ESt}
    (hm : methodOf .creole i.kind = some m) :
    emitNode cfg anc (.mk i children) s = match runMeth cfg anc i m (childrenM cfg anc i children) s with
      | .ok (t, s1) => .ok (t, enter i s1)
      | .error e => .error e :=
  emitNode_known (by rw [hc.lang]; exact hm) (fun h => by rw [hc.lang] at h; cases h)

/-- the emission of a node with a method that only uses its content -/
theorem emits_node {p : Policy} {cfg : Cfg} (hc : Plain p cfg) {anc : List Str} {i : HInfo} {children : List HNode} {m : Meth} {s : ESt} {t : Str}
    (hm : methodOf .creole i.kind = some m) (h : Emits (runMeth cfg anc i m (childrenM cfg anc i children)) s t) :
    Emits (emitNode cfg anc (.mk i children)) s t := by
  obtain ⟨s1, h1, h2⟩ := h
  exact ⟨enter i s1, by rw [emitNode_creole hc hm, h1], h2⟩

theorem Emits.pure {s : ESt} (t : Str) : Emits (Pure.pure t) s t := ⟨s, rfl, rfl⟩

theorem Emits.bind {x : EmM Str} {f : Str → EmM Str} {s : ESt} {t u : Str} (h : Emits x s t)
    (hf : ∀ s', s'.core = s.core → Emits (f t) s' u) : Emits (x >>= f) s u := by
  obtain ⟨s1, h1, h2⟩ := h
  obtain ⟨s2, h3, h4⟩ := hf s1 h2
  exact ⟨s2, by rw [bind_run, h1]; exact h3, h4.trans h2⟩

theorem Emits.children {cfg : Cfg} {anc : List Str} {i : HInfo} {children : List HNode} {s : ESt} {t : Str}
    (h : Emits (emitNodes cfg (i.kind :: anc) children) (enter i s) t) : Emits (childrenM cfg anc i children) s t := by
  obtain ⟨s1, h1, h2⟩ := h
  exact ⟨s1, by rw [childrenM_run]; exact h1, h2⟩

theorem emits_append {cfg : Cfg} {anc : List Str} {a b : List HNode} {s : ESt} {t u : Str} (h1 : Emits (emitNodes cfg anc a) s t)
    (h2 : ∀ s', s'.core = s.core → Emits (emitNodes cfg anc b) s' u) : Emits (emitNodes cfg anc (a ++ b)) s (t ++ u) := by
  obtain ⟨s1, h3, h4⟩ := h1
  obtain ⟨s2, h5, h6⟩ := h2 s1 h4
  exact ⟨s2, emitNodes_append h3 h5, h6.trans h4⟩

theorem emits_one {cfg : Cfg} {anc : List Str} {n : HNode} {s : ESt} {t : Str} (h : Emits (emitNode cfg anc n) s t) :
    Emits (emitNodes cfg anc [n]) s t := by
  obtain ⟨s1, h1, h2⟩ := h
  exact ⟨s1, emitNodes_one h1, h2⟩

/-- the nodes of an element whose tag is no headline -/
theorem nodes_elem {depth : Int} {tag : Str} {attrs : List (Str × Option Str)} {ch : List El} (h : headline? tag = none) :
    ∃ lv d, (El.elem tag attrs ch).nodes depth = [.mk { kind := tag, attrs := dictOf attrs, level := lv } (nodesL d ch)] := by
  rw [El.nodes, h]
  dsimp only
  split
  · exact ⟨_, _, rfl⟩
  · split
    · exact ⟨_, _, rfl⟩
    · exact ⟨_, _, rfl⟩

theorem creole_face {tag a b : Str} (h : delimiters .creole tag = some (a, b)) :
    headline? tag = none ∧ marksIn m tag = m := by
  have key : ∀ p ∈ ([
      (c!"b", c!"**"), (c!"strong", c!"**"), (c!"big", c!"**"), (c!"i", c!"//"), (c!"em", c!"//"), (c!"tt", c!"##"),
      (c!"sup", c!"^^"), (c!"sub", c!",,"), (c!"u", c!"__"), (c!"small", c!"--"), (c!"del", c!"~~"),
      (c!"strike", c!"~~")] : List (Str × Str)), headline? p.1 = none ∧ p.1 ≠ c!"ul" ∧ p.1 ≠ c!"ol" := by decide +kernel
  simp only [delimiters, Option.map_eq_some_iff] at h
  obtain ⟨d, h, _⟩ := h
  obtain ⟨h1, h2, h3⟩ := key _ (lookup_mem h)
  exact ⟨h1, by rw [marksIn, if_neg h2, if_neg h3]⟩

/-- the emission of an unknown element -/
theorem emits_unknown {p : Policy} {cfg : Cfg} (hc : Plain p cfg) {anc : List Str} {tag : Str} {attrs : List (Str × Option Str)} {lv : Option Int}
    {children : List HNode} {s : ESt} {u t : Str} (hk : tag ∉ knownKinds .creole) (ht : creUnknown p tag attrs u = some t)
    (h : Emits (emitNodes cfg (tag :: anc) children) (enter { kind := tag, attrs := dictOf attrs, level := lv } s) u) :
    Emits (emitNode cfg anc (.mk { kind := tag, attrs := dictOf attrs, level := lv } children)) s t := by
  obtain ⟨s1, h3, h4⟩ := Emits.children (anc := anc) (i := { kind := tag, attrs := dictOf attrs, level := lv }) h
  refine ⟨enter { kind := tag, attrs := dictOf attrs, level := lv } s1, ?_, h4⟩
  rw [emitNode_run, bind_run, preEmit_nil (fun h => by rw [hc.lang] at h; cases h)]
  dsimp only
  rw [bind_run, runNode, hc.lang, methodOf_unknown hk]
  dsimp only
  rw [unknownEmit, hc.policy, bind_run, ← childrenM, h3]
  cases p <;> simp only [creUnknown, Option.some.injEq, reduceCtorEq] at ht <;> subst ht <;> rfl

mutual
theorem cre_emit {p : Policy} {cfg : Cfg} (hc : Plain p cfg) : ∀ (e : El) (m t : Str), creE p m e = some t → ∀ (depth : Int) (anc : List Str) (s : ESt),
    s.innerList = m → Emits (emitNodes cfg anc (e.nodes depth)) s t
  | .text d, m, t, h, depth, anc, s, hs => by
    simp only [creE, Option.some.injEq] at h
    subst h
    rw [El.nodes]
    refine emits_one (emits_node hc (m := .data) rfl ?_)
    simp only [runMeth, hc.lang]
    exact Emits.pure _
  | .entity n, m, t, h, depth, anc, s, hs => by
    simp only [creE, Option.some.injEq] at h
    subst h
    rw [El.nodes]
    exact emits_one (emits_node hc (m := .entityref) rfl (Emits.pure _))
  | .charref _, m, t, h, depth, anc, s, hs => by simp [creE] at h
  | .tbody _, m, t, h, depth, anc, s, hs => by simp [creE] at h
  | .void tag attrs, m, t, h, depth, anc, s, hs => by
    rw [creE] at h
    rw [El.nodes]
    split at h
    · next h1 =>
      subst h1
      simp only [Option.some.injEq] at h
      refine emits_one (emits_node hc (m := .br) rfl ⟨s, ?_, rfl⟩)
      simp only [runMeth, hc.lang]
      rw [bind_run, get_run]
      dsimp only
      rw [hs, ← h]
      by_cases h0 : m = []
      · simp [h0, pure_run]
      · simp [h0, pure_run]
    · split at h
      · next h1 =>
        subst h1
        refine emits_one (emits_node hc (m := .img) rfl ⟨s, ?_, rfl⟩)
        simp only [runMeth, hc.lang, hc.strict]
        exact creImg_run h s
      · split at h
        · next h1 => exact emits_one (emits_unknown hc h1 h (by rw [emitNodes_nil]; exact Emits.pure _))
        · cases h
  | .elem tag attrs ch, m, t, h, depth, anc, s, hs => by
    rw [creE] at h
    split at h
    · cases h
    · next u hu =>
      split at h
      · next a b hd =>
        simp only [Option.some.injEq] at h
        obtain ⟨h1, h2⟩ := creole_face (m := m) hd
        rw [h2] at hu
        obtain ⟨lv, d, hn⟩ := nodes_elem (attrs := attrs) (ch := ch) (depth := depth) h1
        rw [hn]
        obtain ⟨me, hme, hw⟩ := delimiters_method hd
        refine emits_one (emits_node hc hme ?_)
        rw [hw, ← h]
        refine Emits.bind (Emits.children (cres_emit hc ch m u hu _ _ _ ?_)) fun s' _ => Emits.pure _
        exact hs
      · unfold creOther at h
        split at h
        · next h1 =>
          subst h1
          obtain ⟨lv, d, hn⟩ := nodes_elem (tag := c!"a") (attrs := attrs) (ch := ch) (depth := depth) rfl
          rw [hn]
          simp only [Option.some.injEq] at h
          refine emits_one (emits_node hc (m := .a) rfl ?_)
          simp only [runMeth, hc.lang]
          rw [creoleLink]
          refine Emits.bind (Emits.children (cres_emit hc ch m u hu _ _ _ hs)) fun s' _ => ?_
          rw [← h, creLink]
          cases dictGet c!"href" (dictOf attrs) with
          | none => exact Emits.pure _
          | some url =>
            dsimp only
            split
            · exact Emits.pure _
            · exact Emits.pure _
        · split at h
          · next h1 =>
            obtain ⟨lv, d, hn⟩ := nodes_elem (attrs := attrs) (ch := ch) (depth := depth) h1.2
            rw [hn]
            have hm : marksIn m tag = m := by
              rw [marksIn, if_neg (by rintro rfl; exact h1.1 (by decide +kernel)), if_neg (by rintro rfl; exact h1.1 (by decide +kernel))]
            rw [hm] at hu
            exact emits_one (emits_unknown hc h1.1 h (cres_emit hc ch m u hu _ _ _ hs))
          · split at h
            · cases h
            · next hm0 =>
              split at h
              · next h1 =>
                subst h1
                obtain ⟨lv, d, hn⟩ := nodes_elem (tag := c!"li") (attrs := attrs) (ch := ch) (depth := depth) rfl
                rw [hn]
                simp only [Option.some.injEq] at h
                refine emits_one (emits_node hc (m := .li) rfl ?_)
                simp only [runMeth, hc.lang]
                rw [baseLi]
                refine Emits.bind (Emits.children (cres_emit hc ch m u hu _ _ _ hs)) fun s' hs' => ?_
                refine ⟨s', ?_, rfl⟩
                rw [bind_run, get_run]
                dsimp only
                rw [pure_run, core_innerList hs', hs, h]
              · split at h
                · next h1 =>
                  simp only [Option.some.injEq] at h
                  subst h
                  have ho : ∃ o, tag = listTag o := by
                    rcases h1 with h1 | h1
                    · exact ⟨false, h1⟩
                    · exact ⟨true, h1⟩
                  obtain ⟨o, rfl⟩ := ho
                  have hu' : creEs p (m ++ (if o then c!"#" else c!"*")) ch = some u := by cases o <;> exact hu
                  have hh : headline? (listTag o) = none := by cases o <;> rfl
                  obtain ⟨lv, d, hn⟩ := nodes_elem (attrs := attrs) (ch := ch) (depth := depth) hh
                  rw [hn]
                  refine emits_one (emits_node hc (m := .list (if o then c!"#" else c!"*")) (method_ul_ol (.inl rfl) o) ?_)
                  simp only [runMeth, hc.lang]
                  rw [baseList]
                  obtain ⟨s1, h3, h4⟩ := cres_emit hc ch _ u hu' d (listTag o :: anc)
                    (enter { kind := listTag o, attrs := dictOf attrs, level := lv }
                      { s with innerList := s.innerList ++ (if o then c!"#" else c!"*") }) (by rw [← hs]; rfl)
                  have hs1 : s1.innerList.dropLast = s.innerList := by
                    rw [core_innerList h4]
                    show (s.innerList ++ (if o then c!"#" else c!"*")).dropLast = _
                    cases o <;> simp
                  refine ⟨{ s1 with innerList := s.innerList }, ?_, ?_⟩
                  · rw [bind_run, get_run]
                    dsimp only
                    rw [bind_run, modify_run]
                    dsimp only
                    rw [bind_run, childrenM_run, h3]
                    dsimp only
                    rw [bind_run, modify_run]
                    dsimp only
                    rw [bind_run, get_run]
                    dsimp only
                    rw [hs1, if_neg (by rw [hs]; exact hm0), pure_run]
                  · have : ({ s1 with innerList := s.innerList } : ESt).core = { s1.core with innerList := s.innerList } := rfl
                    rw [this, h4]
                    rfl
                · cases h
theorem cres_emit {p : Policy} {cfg : Cfg} (hc : Plain p cfg) : ∀ (l : List El) (m t : Str), creEs p m l = some t → ∀ (depth : Int) (anc : List Str) (s : ESt),
    s.innerList = m → Emits (emitNodes cfg anc (nodesL depth l)) s t
  | [], m, t, h, depth, anc, s, hs => by
    simp only [creEs, Option.some.injEq] at h
    subst h
    rw [nodesL, emitNodes_nil]
    exact Emits.pure _
  | e :: es, m, t, h, depth, anc, s, hs => by
    rw [creEs] at h
    split at h
    · next a b ha hb =>
      simp only [Option.some.injEq] at h
      rw [nodesL, ← h]
      exact emits_append (cre_emit hc e m a ha depth anc s hs) fun s' hs' =>
        cres_emit hc es m b hb depth anc s' (by rw [core_innerList hs']; exact hs)
    · cases h
end

end Verif.Emit
