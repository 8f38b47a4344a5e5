import Verif.Spec.ArticlePre
import Verif.Emit.ArticleBlocks
import Verif.Emit.ArticleRestBlocks
import Verif.Emit.BackPre
import Verif.Props.StripHtml

/-!
# The emitters on articles with preformatted text
-/

namespace Verif.Emit

open Verif Py Html Spec Spec.Hd Spec.Ar Props

/-- the nodes of a part -/
def secNodes : Sec → List HNode
  | .block b => b.el.nodes 0
  | .pre ls => [.mk { kind := c!"blockdata_pre", content := some ('\n' :: ls.flatMap fun l => Cr.textHtml l ++ c!"\n") } []]

theorem secNodes_blocks (l : List Bl) : (l.map Sec.block).flatMap secNodes = nodesL 0 (l.map Bl.el) := by
  induction l with
  | nil => rw [List.map_nil, List.map_nil, nodesL]; rfl
  | cons b l ih => rw [List.map_cons, List.map_cons, List.flatMap_cons, ih, nodesL]; rfl

theorem secNodes_areas : ∀ (l : List Area) (areas : List (List Str × List Bl)),
    l.map (fun a => (a.lines, elsL a.after)) = areas.map (fun x => (x.1, x.2.map Bl.el)) →
    (l.flatMap fun a => a.node :: nodesL 0 (elsL a.after)) = (areas.flatMap fun x => Sec.pre x.1 :: x.2.map .block).flatMap secNodes
  | [], [], _ => rfl
  | [], _ :: _, h => by simp at h
  | _ :: _, [], h => by simp at h
  | a :: l, x :: areas, h => by
    rw [List.map_cons, List.map_cons] at h
    injection h with h1 h2
    injection h1 with h3 h4
    rw [List.flatMap_cons, List.flatMap_cons, List.flatMap_append, ← secNodes_areas l areas h2, List.flatMap_cons, secNodes_blocks, h4]
    rw [Area.node, Area.content, h3]
    rfl

theorem preNodes_secs {first : List Ht} {l : List Area} {head : List Bl} {areas : List (List Str × List Bl)}
    (h : StandsForSecs first l head areas) : preNodes first l = (secs head areas).flatMap secNodes := by
  rw [preNodes, secs, List.flatMap_append, secNodes_blocks, h.first, secNodes_areas l areas h.areas]

/-! ## Creole, textile, markdown -/

def secBefore (to : To) (start : Bool) : Sec → Str
  | .block b => arBefore to start b
  | .pre _ => []

def secAfter (to : To) : Sec → Str
  | .block b => arAfter to b
  | .pre _ => c!"\n"

def secIsTitle : Sec → Bool
  | .block b => isTitle b
  | .pre _ => false

def secText (to : To) (start : Bool) (x : Sec) : Str := secBefore to start x ++ joinLines c!"\n" (x.lines to) ++ secAfter to x

/-- a block is well-formed -/
def Sec.Fine (to : To) (hostOk : Str → Bool) : Sec → Prop
  | .block b => b.Ok to hostOk
  | .pre _ => True

theorem pre_last (ls : List Str) (s : ESt) :
    startNewline (enter { kind := c!"blockdata_pre", content := some ('\n' :: ls.flatMap (fun l => Cr.textHtml l ++ c!"\n")) } s).last = false := by
  have : ('\n' :: ls.flatMap (fun l => Cr.textHtml l ++ c!"\n")).getLast? = some '\n' := by
    rcases List.eq_nil_or_concat ls with rfl | ⟨l, a, rfl⟩
    · rfl
    · rw [List.concat_eq_append, List.flatMap_append, List.flatMap_cons, List.flatMap_nil, List.append_nil, ← List.append_assoc,
        ← List.cons_append, List.getLast?_concat]
  simp only [enter, startNewline, this]
  simp

theorem fence_lines (to : To) (ls : List Str) : joinLines c!"\n" ((Sec.pre ls).lines to) =
    (fence to).1 ++ '\n' :: ls.flatMap (fun l => l ++ c!"\n") ++ (fence to).2 := by
  have := joinLines_ends ((fence to).1 :: ls) (fence to).2
  rw [List.cons_append] at this
  rw [Sec.lines, List.cons_append, this]
  simp

theorem sec_emit {to : To} {cfg : Cfg} (hc : Conf to cfg) {x : Sec} (h : Sec.Fine to cfg.netlocOk x) {s : ESt} (hs : s.innerList = []) (anc : List Str) :
    ∃ s', emitNodes cfg anc (secNodes x) s = .ok (secText to (startNewline s.last) x, s') ∧
      s'.innerList = [] ∧ startNewline s'.last = secIsTitle x := by
  cases x with
  | block b => exact ar_block hc h hs anc
  | pre ls =>
    refine ⟨enter { kind := c!"blockdata_pre", content := some ('\n' :: ls.flatMap (fun l => Cr.textHtml l ++ c!"\n")) } s, ?_, hs, pre_last ls s⟩
    rw [secNodes]
    refine emitNodes_one ?_
    rw [emitNode_to hc (m := .blockPre) (by cases to <;> rfl)]
    simp only [runMeth, blockPreEmit, hc.lang]
    rw [bind_run]
    simp only [deentityM, area_decoded]
    rw [secText, fence_lines]
    cases to <;> simp [ofExcept, pure_run, fence, To.lang, secBefore, secAfter]

/-- what is emitted for an article -/
def secsEmitted (to : To) (start : Bool) : List Sec → Str
  | [] => []
  | x :: l => secText to start x ++ secsEmitted to (secIsTitle x) l

theorem secs_emit {to : To} {cfg : Cfg} (hc : Conf to cfg) (anc : List Str) : ∀ (l : List Sec), (∀ x ∈ l, Sec.Fine to cfg.netlocOk x) →
    ∀ {s : ESt}, s.innerList = [] →
    ∃ s', emitNodes cfg anc (l.flatMap secNodes) s = .ok (secsEmitted to (startNewline s.last) l, s')
  | [], _, s, hs => ⟨s, rfl⟩
  | x :: l, h, s, hs => by
    obtain ⟨s1, h2, h3, h4⟩ := sec_emit hc (h x List.mem_cons_self) hs anc
    obtain ⟨s2, h5⟩ := secs_emit hc anc l (fun y hy => h y (List.mem_cons_of_mem _ hy)) h3
    refine ⟨s2, ?_⟩
    rw [List.flatMap_cons, secsEmitted]
    rw [h4] at h5
    exact emitNodes_append h2 h5

theorem sec_lines_ne {to : To} {hostOk : Str → Bool} {x : Sec} (h : Sec.Fine to hostOk x) : x.lines to ≠ [] := by
  cases x with
  | block b => exact ar_lines_ne h
  | pre ls => simp [Sec.lines]

theorem secsLines_ne {to : To} {hostOk : Str → Bool} {x : Sec} {l : List Sec} (h : Sec.Fine to hostOk x) : secsLines to (x :: l) ≠ [] := by
  cases l with
  | nil => rw [secsLines]; exact sec_lines_ne h
  | cons y l => rw [secsLines]; simp [sec_lines_ne h]

/-- the line ends at the ends of a text do not count -/
theorem secsEmitted_lines {to : To} {hostOk : Str → Bool} : ∀ (l : List Sec) (x : Sec) (start : Bool), Sec.Fine to hostOk x →
    (∀ y ∈ l, Sec.Fine to hostOk y) →
    ∃ w, secsEmitted to start (x :: l) = secBefore to start x ++ joinLines c!"\n" (secsLines to (x :: l)) ++ w ∧ ∀ c ∈ w, c = '\n'
  | [], x, start, hx, _ => by
    refine ⟨secAfter to x, by rw [secsEmitted, secsEmitted, secsLines, secText, List.append_nil], ?_⟩
    cases x with
    | pre ls => simp [secAfter]
    | block b => cases b <;> cases to <;> simp [secAfter, arAfter]
  | y :: l, x, start, hx, hl => by
    have hy := hl y List.mem_cons_self
    obtain ⟨w, h1, h2⟩ := secsEmitted_lines l y (secIsTitle x) hy fun z hz => hl z (List.mem_cons_of_mem _ hz)
    refine ⟨w, ?_, h2⟩
    rw [secsEmitted, secsLines, h1]
    have hne := secsLines_ne (l := l) hy
    have hnb := sec_lines_ne hx
    rw [List.append_assoc (x.lines to), joinLines_append _ _ hnb (by simp [hne]), secText]
    have h1' : joinLines c!"\n" ([[]] ++ secsLines to (y :: l)) = c!"\n" ++ joinLines c!"\n" (secsLines to (y :: l)) := by
      rw [joinLines_append _ _ (by simp) hne]; simp [joinLines]
    have h2' : joinLines c!"\n" ([[], []] ++ secsLines to (y :: l)) = c!"\n\n" ++ joinLines c!"\n" (secsLines to (y :: l)) := by
      rw [joinLines_append _ _ (by simp) hne]; simp [joinLines]
    have h3' : joinLines c!"\n" ([[], [], []] ++ secsLines to (y :: l)) = c!"\n\n\n" ++ joinLines c!"\n" (secsLines to (y :: l)) := by
      rw [joinLines_append _ _ (by simp) hne]; simp [joinLines]
    cases x with
    | pre ls =>
      cases y with
      | pre ls' => cases to <;> simp [secBefore, secAfter, secGap]
      | block b' =>
        cases to <;> cases b' <;> simp only [secBefore, secAfter, arBefore, secGap, secIsTitle, h1', h2', List.nil_append] <;> simp
    | block b =>
      cases y with
      | pre ls' => cases to <;> cases b <;> simp only [secBefore, secAfter, arAfter, secGap, h1', List.nil_append] <;> simp
      | block b' =>
        cases to <;> cases b <;> cases b' <;>
          simp only [secBefore, secAfter, arBefore, arAfter, secGap, Ar.gap, secIsTitle, isTitle, h1', h2', h3', List.nil_append] <;> simp

/-! ## ReStructuredText -/

theorem lineEnd_cases {c : Char} (h : splitlinesAux.isLineEnd c = true) : c = '\n' ∨ otherLineEnd c = true := by
  have aux : ∀ n ∈ [10, 11, 12, 13, 28, 29, 30, 0x85, 0x2028, 0x2029], Char.ofNat n = '\n' ∨ otherLineEnd (Char.ofNat n) = true := by decide +kernel
  have hn : c.toNat ∈ [10, 11, 12, 13, 28, 29, 30, 0x85, 0x2028, 0x2029] := by
    unfold splitlinesAux.isLineEnd at h
    simp only [Bool.or_eq_true, Bool.and_eq_true, decide_eq_true_eq] at h
    simp only [List.mem_cons, List.not_mem_nil, or_false]
    omega
  have := aux _ hn
  rwa [Char.ofNat_toNat] at this

/-- the lines of a text in which only `\n` ends lines, and that does not end with one -/
theorem splitlines_indent : ∀ (s cur : Str) (fresh : Bool), (∀ c ∈ s, otherLineEnd c = false) → s.getLast? ≠ some '\n' → (fresh = true → cur = [] ∧ s ≠ []) →
    join c!"\n" ((splitlinesAux false fresh cur s).map (c!"    " ++ ·)) =
      c!"    " ++ cur.reverse ++ s.flatMap (fun c => if c = '\n' then c!"\n    " else [c])
  | [], cur, fresh, _, _, hf => by
    cases fresh with
    | true => exact absurd rfl (hf rfl).2
    | false =>
      rw [splitlinesAux]
      simp [join]
  | c :: s, cur, fresh, h1, h2, hf => by
    have h1' : ∀ d ∈ s, otherLineEnd d = false := fun d hd => h1 d (List.mem_cons_of_mem _ hd)
    rw [splitlinesAux]
    rw [if_neg (by simp)]
    by_cases hc : c = '\n'
    · subst hc
      have hs : s ≠ [] := by rintro rfl; simp at h2
      have h2' : s.getLast? ≠ some '\n' := by
        cases s with
        | nil => exact absurd rfl hs
        | cons d s => rwa [List.getLast?_cons_cons] at h2
      rw [if_pos (by decide), List.map_cons]
      have ih := splitlines_indent s [] true h1' h2' (fun _ => ⟨rfl, hs⟩)
      rw [show (decide ('\n' = '\r')) = false by decide]
      have hcons : ∀ (a : Str) (l : List Str), l ≠ [] → join c!"\n" (a :: l) = a ++ c!"\n" ++ join c!"\n" l := by
        intro a l hl
        cases l with
        | nil => exact absurd rfl hl
        | cons b l => rw [join_cons_cons]
      have hne : (splitlinesAux false true [] s).map (c!"    " ++ ·) ≠ [] := by
        intro e
        rw [e] at ih
        simp [join] at ih
      rw [hcons _ _ hne, ih]
      simp
    · have hl : splitlinesAux.isLineEnd c = false := by
        cases hx : splitlinesAux.isLineEnd c with
        | false => rfl
        | true =>
          rcases lineEnd_cases hx with e | e
          · exact absurd e hc
          · rw [h1 c List.mem_cons_self] at e; cases e
      rw [if_neg (by simp [hl])]
      have h2' : s.getLast? ≠ some '\n' := by
        cases s with
        | nil => simp
        | cons d s => rwa [List.getLast?_cons_cons] at h2
      rw [splitlines_indent s (c :: cur) false h1' h2' (by simp)]
      simp [hc]

/-- in a text that does not end in a blank, the first line of which is not blank, and in which only `\n` ends lines -/
theorem restPre_indented {s : Str} (h : ∀ c ∈ s, otherLineEnd c = false) (hne : strip s ≠ []) :
    restPre s = c!"::\n\n" ++ indented (strip s) ++ c!"\n\n" := by
  have h1 : ∀ c ∈ strip s, otherLineEnd c = false := fun c hc => h c ((strip_sublist s).subset hc)
  have h2 : (strip s).getLast? ≠ some '\n' := by
    intro e
    exact absurd (stripP_last s '\n' e) (by decide)
  rw [restPre, splitlines, splitlines_indent (strip s) [] true h1 h2 (fun _ => ⟨rfl, hne⟩), indented]
  simp

theorem strip_area (ls : List Str) : strip ('\n' :: ls.flatMap fun l => l ++ c!"\n") = strip (joinLines c!"\n" ls) := by
  by_cases h : ls = []
  · subst h; rfl
  · have h1 := joinLines_ends ls []
    rw [joinLines_append _ _ h (by simp), List.append_nil, show joinLines c!"\n" [[]] = [] from rfl, List.append_nil] at h1
    rw [← h1]
    exact strip_pad (w := c!"\n") (w' := c!"\n") (by simp; rfl) (by simp; rfl) _

/-- a block is well-formed; preformatted text is not blank, and only `\n` ends its lines -/
def Sec.FineRest : Sec → Prop
  | .block b => b.RestOk
  | .pre ls => (∀ l ∈ ls, ∀ c ∈ l, otherLineEnd c = false) ∧ strip (joinLines c!"\n" ls) ≠ []

theorem sec_rest {cfg : Cfg} (hl : cfg.lang = .rest) {root : Str} (hroot : root ≠ c!"th" ∧ root ≠ c!"td") {x : Sec} (h : Sec.FineRest x) {s : ESt}
    {r : Refs} (hs : Holds s r) (hw : r.waiting = []) : Does (emitNodes cfg [root] (secNodes x)) s Block (x.rest r) := by
  cases x with
  | block b => exact block_rest hl hroot h hs hw
  | pre ls =>
    obtain ⟨h1, h2⟩ := h
    rw [secNodes]
    refine Does.node hl (m := .blockPre) rfl (.inl (hs.waiting.trans hw)) (fun _ _ _ h => h) ?_
    simp only [runMeth, blockPreEmit, hl]
    rw [Sec.rest]
    refine ⟨c!"::\n\n" ++ indented (strip (joinLines c!"\n" ls)) ++ c!"\n\n", s, ?_, hs, ?_, by simp⟩
    · rw [bind_run]
      simp only [deentityM, area_decoded]
      have hall : ∀ c ∈ ('\n' :: ls.flatMap fun l => l ++ c!"\n"), otherLineEnd c = false := by
        intro c hc
        rcases List.mem_cons.mp hc with rfl | hc
        · decide
        · obtain ⟨l, hl, hc⟩ := List.mem_flatMap.mp hc
          rcases List.mem_append.mp hc with hc | hc
          · exact h1 l hl c hc
          · rw [List.mem_singleton.mp hc]; decide
      rw [show ofExcept (Except.ok ('\n' :: ls.flatMap fun l => l ++ c!"\n")) s = .ok ('\n' :: ls.flatMap fun l => l ++ c!"\n", s) from rfl]
      dsimp only
      rw [pure_run, restPre_indented hall (by rw [strip_area]; exact h2), strip_area]
    · simp [joinLines]

theorem sec_one {x : Sec} (h : Sec.FineRest x) : ∃ n, secNodes x = [n] := by
  cases x with
  | block b => exact block_one b h
  | pre ls => exact ⟨_, rfl⟩

/-- The parts.  The definitions of the last one are still waiting. -/
theorem secs_rest {cfg : Cfg} (hl : cfg.lang = .rest) {root : Str} (hroot : root ≠ c!"th" ∧ root ≠ c!"td") : ∀ (l : List Sec) (x : Sec),
    Sec.FineRest x → (∀ y ∈ l, Sec.FineRest y) → ∀ {s : ESt} {r : Refs}, Holds s r →
    match secsRest (x :: l) { r with waiting := [] } with
    | none => emitNodes cfg [root] ((x :: l).flatMap secNodes) s = .error .html2rest
    | some lines => ∃ t s', emitNodes cfg [root] ((x :: l).flatMap secNodes) s = .ok (pending r.waiting ++ t, s') ∧
        c!"\n\n" <:+ t ∧ t ++ pending s'.subst = joinLines c!"\n" lines ++ c!"\n\n" ∧ lines ≠ [] := by
  intro d
  induction d with
  | nil =>
    intro b hb _ s r hs
    obtain ⟨n, hn⟩ := sec_one hb
    have hs0 : Holds { s with subst := [] } { r with waiting := [] } :=
      ⟨hs.links, hs.pictures, rfl, hs.mark, hs.inner, hs.urls, hs.srcs, hs.markLine⟩
    have hblock := sec_rest hl hroot hb hs0 rfl
    have hnodes : [b].flatMap secNodes = [n] := by rw [List.flatMap_cons, List.flatMap_nil, List.append_nil, hn]
    rw [hn] at hblock
    rw [hnodes, root_child hl, secsRest]
    cases hx : b.rest { r with waiting := [] } with
    | none =>
      rw [hx] at hblock
      have hblock : emitNodes cfg [root] [n] { s with subst := [] } = .error .html2rest := hblock
      simp only [Option.map_none, hblock]
    | some p =>
      obtain ⟨lines, r'⟩ := p
      rw [hx] at hblock
      obtain ⟨t, s', h1, h2, h3, h4⟩ := hblock
      simp only [Option.map_some]
      refine ⟨t, s', by rw [h1, hs.waiting], ⟨_, h3.symm⟩, ?_, by simp [h4]⟩
      rw [block_definitions h4, h3, h2.waiting]
  | cons b' d ih =>
    intro b hb hd s r hs
    obtain ⟨n, hn⟩ := sec_one hb
    have hs0 : Holds { s with subst := [] } { r with waiting := [] } :=
      ⟨hs.links, hs.pictures, rfl, hs.mark, hs.inner, hs.urls, hs.srcs, hs.markLine⟩
    have hblock := sec_rest hl hroot hb hs0 rfl
    have hnodes : (b :: b' :: d).flatMap secNodes = [n] ++ (b' :: d).flatMap secNodes := by rw [List.flatMap_cons, hn]
    rw [hn] at hblock
    rw [hnodes, emitNodes_append_run, bind_run, root_child hl, secsRest]
    cases hx : b.rest { r with waiting := [] } with
    | none =>
      rw [hx] at hblock
      have hblock : emitNodes cfg [root] [n] { s with subst := [] } = .error .html2rest := hblock
      simp only [Option.bind_none, hblock]
    | some p =>
      obtain ⟨lines, r'⟩ := p
      rw [hx] at hblock
      obtain ⟨t, s', h1, h2, h3, h4⟩ := hblock
      have ih := ih b' (hd b' List.mem_cons_self) (fun x hx => hd x (List.mem_cons_of_mem _ hx)) h2
      rw [Option.bind_some]
      dsimp only
      rw [h1]
      dsimp only
      rw [bind_run]
      cases hm : secsRest (b' :: d) { r' with waiting := [] } with
      | none =>
        rw [hm] at ih
        dsimp only at ih
        simp only [Option.map_none, ih]
      | some more =>
        rw [hm] at ih
        obtain ⟨u, s2, g1, g2, g3, g4⟩ := ih
        simp only [Option.map_some]
        refine ⟨t ++ (pending r'.waiting ++ u), s2, ?_, ?_, ?_, by simp⟩
        · rw [g1]
          dsimp only
          rw [pure_run, hs.waiting, List.append_assoc]
        · exact g2.trans (((List.suffix_append _ _)).trans (List.suffix_append _ _))
        · rw [List.append_assoc, List.append_assoc, g3, List.append_assoc (lines ++ below r'.waiting),
            joinLines_append (lines ++ below r'.waiting) _ (by simp [h4]) (by simp)]
          have e1 : joinLines c!"\n" ([[]] ++ more) = c!"\n" ++ joinLines c!"\n" more := by
            cases more with
            | nil => exact absurd rfl g4
            | cons x l => rw [List.singleton_append, joinLines]; rfl
          have e2 := block_definitions (ws := r'.waiting) h4
          rw [e1, h3, show joinLines c!"\n" (lines ++ below r'.waiting) ++ c!"\n" ++ (c!"\n" ++ joinLines c!"\n" more) ++ c!"\n\n" =
            (joinLines c!"\n" (lines ++ below r'.waiting) ++ c!"\n\n") ++ (joinLines c!"\n" more ++ c!"\n\n") by simp, e2]
          simp

end Verif.Emit
