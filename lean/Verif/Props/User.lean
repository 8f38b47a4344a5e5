import Verif.Spec.User
import Verif.Props.Faults

/-!
# C91: functions of the user for unknown tags

`convertWith u cfg html` is `html2creole(html, unknown_emit=u)` and so on for the other languages.
-/

namespace Verif.Props

open Verif Py Html Emit Spec

/-! ## Agreement -/

mutual

theorem emitNodeWith_agree {u v : UserFn} (cfg : Cfg) : ∀ (anc : List Str) (n : HNode),
    (∀ p ∈ contexts anc n, p.2.kind ∉ knownKinds cfg.lang → u p.1 p.2 = v p.1 p.2) →
    emitNodeWith u cfg anc n = emitNodeWith v cfg anc n
  | anc, .mk i children, h => by
    rw [contexts] at h
    rw [emitNodeWith_run, emitNodeWith_run]
    unfold runNodeWith
    cases hm : methodOf cfg.lang i.kind with
    | none =>
      have hun : i.kind ∉ knownKinds cfg.lang := fun hk => by
        obtain ⟨m, hm'⟩ := methodOf_known hk
        rw [hm] at hm'
        cases hm'
      have hch := emitNodesWith_agree (u := u) (v := v) cfg (i.kind :: anc) children fun p hp =>
        h p (List.mem_cons_of_mem _ (by rw [leaf_known hun]; exact hp))
      rw [hch]
      dsimp only
      unfold runUser
      rw [h (anc, i) List.mem_cons_self hun]
    | some m =>
      dsimp only
      cases hu : m.usesChildren with
      | false =>
        rw [runMeth_leaf hu _ (setLast i >>= fun _ => emitNodesWith v cfg (i.kind :: anc) children)]
      | true =>
        rw [usesChildren_iff hm] at hu
        have hl : leafKinds.contains i.kind = false := by simpa using hu
        have hch := emitNodesWith_agree (u := u) (v := v) cfg (i.kind :: anc) children fun p hp =>
          h p (List.mem_cons_of_mem _ (by rw [hl]; exact hp))
        rw [hch]

theorem emitNodesWith_agree {u v : UserFn} (cfg : Cfg) : ∀ (anc : List Str) (ns : List HNode),
    (∀ p ∈ contextsL anc ns, p.2.kind ∉ knownKinds cfg.lang → u p.1 p.2 = v p.1 p.2) →
    emitNodesWith u cfg anc ns = emitNodesWith v cfg anc ns
  | anc, [], _ => by rw [emitNodesWith_nil, emitNodesWith_nil]
  | anc, n :: ns, h => by
    rw [contextsL] at h
    rw [emitNodesWith_cons, emitNodesWith_cons, emitNodeWith_agree cfg anc n fun p hp => h p (List.mem_append.mpr (.inl hp)),
      emitNodesWith_agree cfg anc ns fun p hp => h p (List.mem_append.mpr (.inr hp))]

end

theorem convertWith_parse {u : UserFn} {cfg : Cfg} {html : Str} {root : HNode} (h : parseHtml html = .ok root) :
    convertWith u cfg html = emitWith u cfg root := by
  unfold convertWith
  rw [h]
  rfl

/-- **C91.**  The conversion depends on the function only through what it does with the unknown elements of the document:
two functions that do the same for these give the same text, or the same exception. -/
theorem C91_only_unknown (u v : UserFn) (cfg : Cfg) (html : Str)
    (h : ∀ root, parseHtml html = .ok root → ∀ anc i, (anc, i) ∈ contexts [] root → i.kind ∉ knownKinds cfg.lang → u anc i = v anc i) :
    convertWith u cfg html = convertWith v cfg html := by
  cases hp : parseHtml html with
  | error e => unfold convertWith; rw [hp]; rfl
  | ok root =>
    rw [convertWith_parse hp, convertWith_parse hp, emitWith, emitWith,
      emitNodeWith_agree cfg [] root fun p hp' hk => h root hp p.1 p.2 hp' hk]

mutual

theorem emitNodeWith_policy (u : UserFn) (cfg : Cfg) (p : Policy) : ∀ (anc : List Str) (n : HNode),
    emitNodeWith u (withPolicy cfg p) anc n = emitNodeWith u cfg anc n
  | anc, .mk i children => by
    rw [emitNodeWith_run, emitNodeWith_run, emitNodesWith_policy u cfg p (i.kind :: anc) children]
    have : ∀ ch, runNodeWith u (withPolicy cfg p) anc i ch = runNodeWith u cfg anc i ch := by
      intro ch
      unfold runNodeWith
      show (match methodOf cfg.lang i.kind with | some m => _ | none => _) = _
      cases methodOf cfg.lang i.kind with
      | none => rfl
      | some m => exact runMeth_policy cfg p anc i m ch
    rw [this]
    rfl

theorem emitNodesWith_policy (u : UserFn) (cfg : Cfg) (p : Policy) : ∀ (anc : List Str) (ns : List HNode),
    emitNodesWith u (withPolicy cfg p) anc ns = emitNodesWith u cfg anc ns
  | anc, [] => by rw [emitNodesWith_nil, emitNodesWith_nil]
  | anc, n :: ns => by
    rw [emitNodesWith_cons, emitNodesWith_cons, emitNodeWith_policy u cfg p anc n, emitNodesWith_policy u cfg p anc ns]

end

/-- **C91.**  The functions of the package are among these functions. -/
theorem C91_supplied (p : Policy) (cfg : Cfg) (html : Str) :
    convertWith (supplied p) cfg html = convert { cfg with policy := p } html := by
  have key : ∀ root, emitWith (supplied p) cfg root = emit { cfg with policy := p } root := by
    intro root
    rw [← emitWith_supplied, emitWith, emitWith, ← emitNodeWith_policy (supplied p) cfg p]
    rfl
  unfold convertWith convert
  cases parseHtml html with
  | error e => rfl
  | ok root => exact key root

mutual

theorem visited_of_context {q : List Str × HInfo} : ∀ (anc : List Str) (n : HNode), q ∈ contexts anc n → q.2 ∈ visited n
  | anc, .mk i ch, h => by
    rw [contexts] at h
    rw [visited]
    rcases List.mem_cons.mp h with rfl | h
    · exact List.mem_cons_self
    · refine List.mem_cons_of_mem _ ?_
      split at h
      · cases h
      · next hl => rw [if_neg hl]; exact visitedL_of_context (i.kind :: anc) ch h

theorem visitedL_of_context {q : List Str × HInfo} : ∀ (anc : List Str) (ns : List HNode), q ∈ contextsL anc ns → q.2 ∈ visitedL ns
  | _, [], h => by rw [contextsL] at h; cases h
  | anc, n :: ns, h => by
    rw [contextsL] at h
    rw [visitedL]
    rcases List.mem_append.mp h with h | h
    · exact List.mem_append.mpr (.inl (visited_of_context anc n h))
    · exact List.mem_append.mpr (.inr (visitedL_of_context anc ns h))

end

/-- **C91.**  If the converter knows all elements of the document then the function has no effect: the result is the one of
the default. -/
theorem C91_known (u : UserFn) (cfg : Cfg) (html : Str)
    (h : ∀ root, parseHtml html = .ok root → ∀ i ∈ visited root, i.kind ∈ knownKinds cfg.lang) :
    convertWith u cfg html = convert { cfg with policy := .transparent } html := by
  rw [← C91_supplied]
  refine C91_only_unknown u _ cfg html fun root hr anc i hi hk => absurd (h root hr i ?_) hk
  exact visited_of_context [] root hi

/-- a function that removes `<script>` with its content, refuses `<blink>`, returns no text for `<q>`, and writes the name of any other tag around
its content -/
def exampleAct (i : HInfo) : UserAct :=
  if i.kind = c!"script" then .alone (.ok (some []))
  else if i.kind = c!"blink" then .around fun _ => .error .valueError
  else if i.kind = c!"q" then .around fun _ => .ok none
  else .around fun t => .ok (some (c!"(" ++ i.kind ++ c!": " ++ t ++ c!")"))

example : convertWith (userFn exampleAct) { lang := .creole } c!"<p>a <foo>b <script>c</script><i>d</i></foo></p>" =
    .ok c!"a (foo: b //d//)" := by decide +kernel
example : convertWith (userFn exampleAct) { lang := .rest } c!"<p>a <blink>b</blink></p>" = .error .valueError := by decide +kernel
example : convertWith (userFn exampleAct) { lang := .markdown } c!"<p>a <q>b</q></p>" = .error .assertionError := by decide +kernel
/-- the case of C91_known -/
example : ∀ root, parseHtml c!"<p>a <i>b</i></p>" = .ok root → ∀ i ∈ visited root, i.kind ∈ knownKinds .creole := by
  intro root h
  have : parseHtml c!"<p>a <i>b</i></p>" = .ok (.mk { kind := c!"document" } [.mk { kind := c!"p" } [
    .mk { kind := c!"data", content := some c!"a " } [], .mk { kind := c!"i" } [.mk { kind := c!"data", content := some c!"b" } []]]]) := by
    rfl
  rw [this] at h
  cases h
  decide +kernel

/-! ## What is emitted -/

theorem userFn_run (act : HInfo → UserAct) (anc : List Str) (i : HInfo) {ch : EmM Str} {s s1 : ESt} {content : Str}
    (h : ch s = .ok (content, s1)) :
    userFn act anc i ch s = match (act i).on content with
      | .ok r => .ok (r, match act i with | .alone _ => s | .around _ => s1)
      | .error e => .error e := by
  unfold userFn
  cases hact : act i with
  | alone r =>
    simp only [UserAct.on]
    cases r <;> rfl
  | around r =>
    simp only [UserAct.on]
    rw [bind_run, h]
    dsimp only
    cases r content <;> rfl

/-- **C91.**  An unknown element is replaced by the text that the function returns for it, nothing is added or removed.  (In
html2rest definitions of links may stand before a child of the root.) -/
theorem C91_replaced (act : HInfo → UserAct) {cfg : Cfg} {anc : List Str} {i : HInfo} {children : List HNode} {s s1 : ESt}
    {content text : Str} (hk : i.kind ∉ knownKinds cfg.lang) (ha : cfg.lang = .rest → anc.length ≠ 1)
    (hc : emitNodesWith (userFn act) cfg (i.kind :: anc) children (enter i s) = .ok (content, s1))
    (ht : (act i).on content = .ok (some text)) :
    ∃ s', emitNodeWith (userFn act) cfg anc (.mk i children) s = .ok (text, s') := by
  rw [emitNodeWith_run, bind_run, preEmit_nil fun h => .inr (ha h)]
  dsimp only
  unfold runNodeWith
  rw [methodOf_unknown hk]
  dsimp only
  unfold runUser
  have hch : (setLast i >>= fun _ => emitNodesWith (userFn act) cfg (i.kind :: anc) children : EmM Str) s = .ok (content, s1) := by
    rw [bind_run, setLast_run]
    exact hc
  rw [bind_run, bind_run, userFn_run act anc i hch, ht]
  exact ⟨_, rfl⟩

/-! ## Exceptions -/

mutual

theorem tri_emitNodeWith (act : HInfo → UserAct) (cfg : Cfg) (all : List HInfo) (anc : List Str) : ∀ n : HNode, (∀ j ∈ visited n, j ∈ all) →
    Tri (Known all (c!"table" ∈ anc)) (emitNodeWith (userFn act) cfg anc n) (Known all (c!"table" ∈ anc))
      (fun e => ∃ p ∈ contexts anc n, UserFault act cfg all p.1 p.2 e)
  | .mk i children => by
    intro hall
    have hi : i ∈ all := hall i (by rw [visited]; exact List.mem_cons_self)
    rw [emitNodeWith_run]
    refine (tri_preEmit _ _).bind fun pre => Tri.bind ?_ fun t => (tri_setLast i).bind fun _ => Tri.pure _
    have hE : ∀ e, UserFault act cfg all anc i e → ∃ p ∈ contexts anc (.mk i children), UserFault act cfg all p.1 p.2 e :=
      fun e he => ⟨(anc, i), by rw [contexts]; exact List.mem_cons_self, he⟩
    have hch : leafKinds.contains i.kind = false →
        Tri (Known all (c!"table" ∈ i.kind :: anc)) (setLast i >>= fun _ => emitNodesWith (userFn act) cfg (i.kind :: anc) children)
          (Known all (c!"table" ∈ i.kind :: anc)) (fun e => ∃ p ∈ contexts anc (.mk i children), UserFault act cfg all p.1 p.2 e) := by
      intro hleaf
      refine (tri_setLast i).bind fun _ => (tri_emitNodesWith act cfg all (i.kind :: anc) children fun j hj => hall j ?_).weaken ?_
      · rw [visited, hleaf]
        exact List.mem_cons_of_mem _ hj
      · rintro e ⟨p, hp, hf⟩
        refine ⟨p, ?_, hf⟩
        rw [contexts, hleaf]
        exact List.mem_cons_of_mem _ hp
    unfold runNodeWith
    cases hm : methodOf cfg.lang i.kind with
    | some m =>
      dsimp only
      have hkn : i.kind ∈ knownKinds cfg.lang := by
        by_cases hk : i.kind ∈ knownKinds cfg.lang
        · exact hk
        · rw [methodOf_unknown hk] at hm; cases hm
      cases hu : m.usesChildren with
      | true =>
        refine tri_method hm hi (fun e he => hE e (.known e hkn he)) (hch ?_)
        rw [usesChildren_iff hm] at hu
        simpa using hu
      | false => exact (tri_leaf hm hi hu _).weaken fun e he => hE e (.known e hkn he)
    | none =>
      dsimp only
      have hun : i.kind ∉ knownKinds cfg.lang := by
        intro h
        obtain ⟨m, h'⟩ := methodOf_known h
        rw [hm] at h'
        cases h'
      have hne : i.kind ≠ c!"table" := by
        intro hk
        rw [hk, method_table] at hm
        cases hm
      have hsame : (c!"table" ∈ i.kind :: anc) = (c!"table" ∈ anc) := by
        rw [List.mem_cons]
        exact propext ⟨fun h => h.resolve_left fun h' => hne h'.symm, .inr⟩
      have hch' := hch (leaf_known hun)
      rw [hsame] at hch'
      have hend : ∀ content r, (act i).on content = r →
          Tri (Known all (c!"table" ∈ anc)) (Emit.ofExcept r >>= fun x => match x with
            | some content => pure content
            | none => raise .assertionError) (Known all (c!"table" ∈ anc))
          (fun e => ∃ p ∈ contexts anc (.mk i children), UserFault act cfg all p.1 p.2 e) := by
        intro content r hr
        cases r with
        | error e => exact Tri.raise_bind (hE _ (.raised content e hun hr)) _
        | ok x =>
          cases x with
          | none => exact Tri.raise (hE _ (.noText content hun hr))
          | some t => exact Tri.pure _
      unfold runUser userFn
      cases hact : act i with
      | alone r => exact hend [] r (by rw [hact]; rfl)
      | around r =>
        dsimp only
        rw [bind_assoc]
        exact hch'.bind fun c => hend c _ (by rw [hact]; rfl)

theorem tri_emitNodesWith (act : HInfo → UserAct) (cfg : Cfg) (all : List HInfo) (anc : List Str) : ∀ ns : List HNode,
    (∀ j ∈ visitedL ns, j ∈ all) →
    Tri (Known all (c!"table" ∈ anc)) (emitNodesWith (userFn act) cfg anc ns) (Known all (c!"table" ∈ anc))
      (fun e => ∃ p ∈ contextsL anc ns, UserFault act cfg all p.1 p.2 e)
  | [] => by intro _; rw [emitNodesWith_nil]; exact Tri.pure _
  | n :: ns => by
    intro hall
    rw [emitNodesWith_cons]
    rw [visitedL] at hall
    refine ((tri_emitNodeWith act cfg all anc n fun j hj => hall j (List.mem_append.mpr (.inl hj))).weaken ?_).bind fun a =>
      ((tri_emitNodesWith act cfg all anc ns fun j hj => hall j (List.mem_append.mpr (.inr hj))).weaken ?_).bind fun b => Tri.pure _
    · rintro e ⟨p, hp, hf⟩
      exact ⟨p, by rw [contextsL]; exact List.mem_append.mpr (.inl hp), hf⟩
    · rintro e ⟨p, hp, hf⟩
      exact ⟨p, by rw [contextsL]; exact List.mem_append.mpr (.inr hp), hf⟩

end

/-- **C91, exceptions.**  If the conversion of a tree raises an exception then a known element of the tree accounts for it
(C65), or the function raised this exception for an unknown element of the tree, or it returned something that is no text (the
exception is AssertionError then). -/
theorem C91_exceptions (act : HInfo → UserAct) (cfg : Cfg) (root : HNode) (e : PyErr) (h : emitWith (userFn act) cfg root = .error e) :
    ∃ anc i, (anc, i) ∈ contexts [] root ∧ UserFault act cfg (visited root) anc i e := by
  have ht := tri_emitNodeWith act cfg (visited root) [] root (fun _ h => h) {}
    ⟨fun h => (by cases h), fun k v h => (by cases h), fun k v h => (by cases h)⟩
  rw [emitWith] at h
  cases hr : emitNodeWith (userFn act) cfg [] root {} with
  | error e' =>
    rw [hr] at ht h
    cases h
    obtain ⟨p, hp, hf⟩ := ht
    exact ⟨p.1, p.2, hp, hf⟩
  | ok r => rw [hr] at h; cases h

mutual

theorem fails_emitNodeWith {act : HInfo → UserAct} {cfg : Cfg} {j : HInfo} (hun : j.kind ∉ knownKinds cfg.lang)
    (hact : ∀ i, i.kind ∉ knownKinds cfg.lang → ∃ r, act i = .around r) (hj : ∀ content text, (act j).on content ≠ .ok (some text)) :
    ∀ (anc : List Str) (n : HNode), j ∈ visited n → Fails (emitNodeWith (userFn act) cfg anc n)
  | anc, .mk i children, h => by
    rw [emitNodeWith_run]
    refine Fails.right _ fun pre => Fails.left ?_ _
    rw [visited] at h
    have hch : leafKinds.contains i.kind = false → j ∈ visitedL children →
        Fails (setLast i >>= fun _ => emitNodesWith (userFn act) cfg (i.kind :: anc) children) :=
      fun _ hm => Fails.right _ fun _ => fails_emitNodesWith hun hact hj (i.kind :: anc) children hm
    unfold runNodeWith
    rcases List.mem_cons.mp h with rfl | h
    · rw [methodOf_unknown hun]
      dsimp only
      unfold runUser userFn
      obtain ⟨r, hr⟩ := hact j hun
      rw [hr]
      dsimp only
      rw [bind_assoc]
      refine Fails.right _ fun c => ?_
      have := hj c
      rw [hr] at this
      simp only [UserAct.on] at this
      cases hrc : r c with
      | error e => exact (Fails.raise e).left _
      | ok x =>
        cases x with
        | none => exact fun _ => ⟨.assertionError, rfl⟩
        | some t => exact absurd hrc (this t)
    · have hleaf : leafKinds.contains i.kind = false := by
        cases hl : leafKinds.contains i.kind with
        | false => rfl
        | true => rw [hl] at h; cases h
      rw [hleaf] at h
      have hch := hch hleaf h
      cases hm : methodOf cfg.lang i.kind with
      | none =>
        dsimp only
        unfold runUser userFn
        obtain ⟨r, hr⟩ := hact i fun hk => by
          obtain ⟨m, hm'⟩ := methodOf_known hk
          rw [hm] at hm'
          cases hm'
        rw [hr]
        dsimp only
        rw [bind_assoc]
        exact hch.left _
      | some m =>
        have hu : m.usesChildren = true := by rw [usesChildren_iff hm, hleaf]; rfl
        obtain ⟨A, pre, post, hform⟩ := runMeth_form (cfg := cfg) (anc := anc) (i := i) hu
        dsimp only
        rw [hform]
        exact Fails.right _ fun a => hch.left _

theorem fails_emitNodesWith {act : HInfo → UserAct} {cfg : Cfg} {j : HInfo} (hun : j.kind ∉ knownKinds cfg.lang)
    (hact : ∀ i, i.kind ∉ knownKinds cfg.lang → ∃ r, act i = .around r) (hj : ∀ content text, (act j).on content ≠ .ok (some text)) :
    ∀ (anc : List Str) (ns : List HNode), j ∈ visitedL ns → Fails (emitNodesWith (userFn act) cfg anc ns)
  | _, [], h => by rw [visitedL] at h; cases h
  | anc, n :: ns, h => by
    rw [visitedL] at h
    rw [emitNodesWith_cons]
    rcases List.mem_append.mp h with h | h
    · exact (fails_emitNodeWith hun hact hj anc n h).left _
    · exact Fails.right _ fun a => (fails_emitNodesWith hun hact hj anc ns h).left _

end

/-- **C91, refusal.**  Let the function convert what is in every unknown element.  If the document has an unknown element for
which it never returns a text, then the conversion raises an exception. -/
theorem C91_refused (act : HInfo → UserAct) (cfg : Cfg) (root : HNode) (j : HInfo) (hj : j ∈ visited root)
    (hun : j.kind ∉ knownKinds cfg.lang) (hact : ∀ i, i.kind ∉ knownKinds cfg.lang → ∃ r, act i = .around r)
    (hno : ∀ content text, (act j).on content ≠ .ok (some text)) : ∃ e, emitWith (userFn act) cfg root = .error e := by
  obtain ⟨e, he⟩ := fails_emitNodeWith hun hact hno [] root hj {}
  exact ⟨e, by rw [emitWith, he]⟩

example : ({ kind := c!"foo", attrs := [(c!"k", some c!"v")] } : HInfo) ∈ visited fooTree ∧ c!"foo" ∉ knownKinds .creole ∧
    ∀ content text, (UserAct.around fun t => if t = [] then .ok none else .error .valueError).on content ≠ .ok (some text) := by
  refine ⟨by decide +kernel, by decide +kernel, fun content text h => ?_⟩
  simp only [UserAct.on] at h
  split at h <;> cases h

/-! ## Hidden content -/

mutual

theorem emitNodeWith_hidden {act : HInfo → UserAct} {cfg : Cfg} {hidden : HInfo → Prop}
    (hact : ∀ i, hidden i → ∃ r, act i = .alone r) : ∀ (anc : List Str) {n n' : HNode}, SameOutside cfg.lang hidden n n' →
    emitNodeWith (userFn act) cfg anc n = emitNodeWith (userFn act) cfg anc n'
  | anc, _, _, .same i ch ch' h => by
    rw [emitNodeWith_run, emitNodeWith_run, emitNodesWith_hidden hact (i.kind :: anc) h]
  | anc, _, _, .inside i ch ch' hk h => by
    rw [emitNodeWith_run, emitNodeWith_run]
    unfold runNodeWith
    rw [methodOf_unknown hk]
    dsimp only
    unfold runUser userFn
    obtain ⟨r, hr⟩ := hact i h
    rw [hr]

theorem emitNodesWith_hidden {act : HInfo → UserAct} {cfg : Cfg} {hidden : HInfo → Prop}
    (hact : ∀ i, hidden i → ∃ r, act i = .alone r) : ∀ (anc : List Str) {ns ns' : List HNode}, SameOutsideL cfg.lang hidden ns ns' →
    emitNodesWith (userFn act) cfg anc ns = emitNodesWith (userFn act) cfg anc ns'
  | _, _, _, .nil => rfl
  | anc, _, _, .cons h hs => by
    rw [emitNodesWith_cons, emitNodesWith_cons, emitNodeWith_hidden hact anc h, emitNodesWith_hidden hact anc hs]

end

/-- **C91, hidden content.**  If the function does not convert what is in certain unknown elements then it has no effect on the
result at all, wherever these elements stand: it may be replaced by anything else. -/
theorem C91_hidden (act : HInfo → UserAct) (cfg : Cfg) (hidden : HInfo → Prop) (hact : ∀ i, hidden i → ∃ r, act i = .alone r)
    {root root' : HNode} (h : SameOutside cfg.lang hidden root root') :
    emitWith (userFn act) cfg root = emitWith (userFn act) cfg root' := by
  rw [emitWith, emitWith, emitNodeWith_hidden hact [] h]

/-- the case of C91_hidden, C91_refused: `<script>` is hidden by `exampleAct`, `<blink>` is refused -/
example : (∀ i : HInfo, i.kind = c!"script" → ∃ r, exampleAct i = .alone r) ∧
    SameOutside .creole (fun i => i.kind = c!"script") (.mk { kind := c!"document" } [.mk { kind := c!"script" } [fooTree]])
      (.mk { kind := c!"document" } [.mk { kind := c!"script" } []]) ∧
    (∀ content text, (exampleAct { kind := c!"blink" }).on content ≠ .ok (some text)) := by
  refine ⟨fun i h => ⟨_, by rw [exampleAct, if_pos h]⟩, ?_, fun content text h => by cases h⟩
  exact .same _ _ _ (.cons (.inside _ _ _ (by decide +kernel) rfl) .nil)

end Verif.Props
