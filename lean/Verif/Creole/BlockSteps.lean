import Verif.Creole.BlockRun

/-!
# From block to block
-/

namespace Verif.Creole

open Verif Re Py Spec Spec.Cr

variable {env : Env} {ms : Macros}

/-! ## Texts between blocks -/

/-- lines, each one after a newline -/
def nls (L : List Str) : Str := L.flatMap ('\n' :: ·)

theorem nls_cons (a : Str) (L : List Str) : nls (a :: L) = '\n' :: (a ++ nls L) := by simp [nls]

theorem nls_append (L M : List Str) : nls (L ++ M) = nls L ++ nls M := by simp [nls]

theorem joinLines_cons (a : Str) (L : List Str) : joinLines c!"\n" (a :: L) = a ++ nls L := by
  induction L generalizing a with
  | nil => simp [joinLines, nls]
  | cons b L ih => rw [joinLines, ih, nls_cons]; simp

def tailStr : Option Str → Str
  | none => []
  | some s => '\n' :: s

/-- what stands behind a block: blank lines, and then possibly another block -/
def rest (gap : List Str) (o : Option Str) : Str := nls gap ++ tailStr o

theorem rest_nil (o : Option Str) : rest [] o = tailStr o := rfl

theorem rest_cons (g : Str) (gs : List Str) (o : Option Str) : rest (g :: gs) o = '\n' :: (g ++ nls gs ++ tailStr o) := by
  simp [rest, nls_cons]

structure Rest (gap : List Str) (o : Option Str) : Prop where
  gap : ∀ g ∈ gap, blank g = true
  next : ∀ s, o = some s → Nonblank s

theorem tailStr_eol (o : Option Str) : atEol true (tailStr o) = true := by cases o <;> rfl

theorem rest_eol (gap : List Str) (o : Option Str) : atEol true (rest gap o) = true := by
  cases gap with
  | nil => exact tailStr_eol o
  | cons g gs => rw [rest_cons]; rfl

theorem blank_iff {g : Str} (h : blank g = true) : (∀ c ∈ g, isSpace c = true) ∧ '\n' ∉ g := by
  simpa [blank] using h

theorem nls_space {L : List Str} (h : ∀ g ∈ L, blank g = true) : ∀ c ∈ nls L, isSpace c = true := by
  intro c hc
  simp only [nls, List.mem_flatMap, List.mem_cons] at hc
  obtain ⟨g, hg, rfl | hc⟩ := hc
  · decide
  · exact (blank_iff (h g hg)).1 c hc

theorem nls_eol (L : List Str) (o : Option Str) : atEol true (nls L ++ tailStr o) = true := rest_eol L o

/-- the last character of some lines -/
theorem last_lines (g : Str) (gs : List Str) : (g ++ nls gs).getLast? =
    if (g :: gs).getLast? = some [] then (if gs = [] then none else some '\n') else ((g :: gs).getLast?).bind List.getLast? := by
  induction gs generalizing g with
  | nil =>
    cases g with
    | nil => rfl
    | cons c g => simp [nls]
  | cons a gs ih =>
    rw [nls_cons, List.getLast?_cons_cons, List.getLast?_append]
    have e : ('\n' :: (a ++ nls gs)).getLast? = ((a ++ nls gs).getLast?).or (some '\n') := by
      rw [List.getLast?_cons]; cases (a ++ nls gs).getLast? <;> rfl
    rw [e, ih a]
    have hg : ∃ z, (a :: gs).getLast? = some z := ⟨_, List.getLast?_eq_some_getLast (by simp)⟩
    obtain ⟨z, hz⟩ := hg
    rw [hz]
    cases z with
    | nil => by_cases hgs : gs = [] <;> simp [hgs]
    | cons c z => simp [List.getLast?_cons]

theorem last_blank {g : Str} {gs : List Str} (hb : ∀ x ∈ g :: gs, blank x = true) (hl : (g :: gs).getLast? ≠ some []) :
    ∃ c, (g ++ nls gs).getLast? = some c ∧ c ≠ '\n' ∧ isSpace c = true := by
  rw [last_lines, if_neg hl, List.getLast?_eq_some_getLast (by simp)]
  generalize hz : (g :: gs).getLast (by simp) = z
  have hm : z ∈ g :: gs := by rw [← hz]; exact List.getLast_mem _
  rw [List.getLast?_eq_some_getLast (by simp), hz] at hl
  have hne : z ≠ [] := by simpa using hl
  obtain ⟨h1, h2⟩ := blank_iff (hb z hm)
  refine ⟨z.getLast hne, by simp [List.getLast?_eq_some_getLast hne], ?_, h1 _ (List.getLast_mem _)⟩
  intro h
  apply h2; rw [← h]; exact List.getLast_mem _

/-! ## What happens behind a block -/

def isTable : Block → Bool
  | .table _ => true
  | _ => false

/-- how the parser goes on after a block -/
def Cont (blog : Bool) (b : Block) (gap : List Str) (o : Option Str) (cont : PS → PM) : Prop :=
  if isTable b then cont = runR (blockRe blog) blockRepl (((nls gap).getLast?).or (some '|')) (tailStr o)
  else (∃ p, atBol true p = false ∧ cont = runR (blockRe blog) blockRepl p (rest gap o)) ∨
    (blog = true ∧ gap = [] ∧ ∃ s, o = some s ∧ cont = runR (blockRe blog) blockRepl (some '\n') s)

/-- the newlines of the output for blank lines -/
def gapNl (b : Block) (gap : List Str) : Str :=
  if isTable b then (if gap.getLast? = some [] then c!"\n" else [])
  else if gap = [] then [] else if gap.length ≥ 2 ∧ gap.getLast? = some [] then c!"\n\n" else c!"\n"

theorem line_puts {blog : Bool} {st : PS} {t w x : Str} (h : Top env sg ms st t) :
    Puts env sg ms (onHit (blockRe blog) blockRepl st ⟨w, [(.line, x)]⟩) (t ++ c!"\n") [.document] := by
  rw [onHitB_line]
  exact lineRepl_puts h

/-- an empty line before a block -/
theorem emptyLine {blog : Bool} {p : Option Char} {s : Str} {st : PS} {t : Str} (hp : atBol true p = true) (hs : Nonblank s) (h : Top env sg ms st t) :
    ∃ st', runR (blockRe blog) blockRepl p ('\n' :: s) st = runT (blockRe blog) blockRepl p ('\n' :: s) st' ∧
      Top env sg ms st' (t ++ c!"\n") ∧ ∀ k ∈ path st', k ∈ [Kind.document] := by
  have hm := gap_match (blog := blog) (p := p) (w := []) hp (by simp) hs
  obtain ⟨st', h1, h2, h3⟩ := line_puts (blog := blog) (w := []) (x := []) h
  refine ⟨st', ?_, h2, h3⟩
  rw [runR_empty hm, h1]
  rfl

/-- blank lines before a block -/
theorem gapRun {blog : Bool} {p : Option Char} {g : Str} {gs : List Str} {s : Str} {st : PS} {t : Str} (hp : atBol true p = true)
    (hg : ∀ x ∈ g :: gs, blank x = true) (hs : Nonblank s) (h : Top env sg ms st t) :
    ∃ st' run', runR (blockRe blog) blockRepl p (g ++ nls gs ++ '\n' :: s) st = run' st' ∧ Entry blog (startAfter blog false (g :: gs)) s run' ∧
      Top env sg ms st' (t ++ if (g :: gs).length ≥ 2 ∧ (g :: gs).getLast? = some [] then c!"\n\n" else c!"\n") ∧
      ∀ k ∈ path st', k ∈ [Kind.document] := by
  have hw : ∀ c ∈ g ++ nls gs, isSpace c = true := by
    intro c hc
    rw [List.mem_append] at hc
    rcases hc with hc | hc
    · exact (blank_iff (hg g (by simp))).1 c hc
    · exact nls_space (fun x hx => hg x (by simp [hx])) c hc
  by_cases hl : (g :: gs).getLast? = some []
  · have hst : startAfter blog false (g :: gs) = if blog then .all else .indented := by
      unfold startAfter; rw [hl]; cases blog <;> rfl
    rw [hst]
    cases gs with
    | nil =>
      have : g = [] := by simpa using hl
      subst this
      obtain ⟨st', h1, h2, h3⟩ := emptyLine (blog := blog) hp hs h
      exact ⟨st', _, h1, .forced hp, by simpa using h2, h3⟩
    | cons a gs =>
      have hlast : (g ++ nls (a :: gs)).getLast? = some '\n' := by rw [last_lines, if_pos hl]; rfl
      have hne : g ++ nls (a :: gs) ≠ [] := by rw [nls_cons]; simp
      have hm := gap_match (blog := blog) (p := p) (w := g ++ nls (a :: gs)) hp hw hs
      obtain ⟨st1, h1, h2, h3⟩ := line_puts (blog := blog) (w := g ++ nls (a :: gs)) (x := g ++ nls (a :: gs)) h
      obtain ⟨st', h4, h5, h6⟩ := emptyLine (blog := blog) (p := some '\n') rfl hs h2
      refine ⟨st', _, ?_, .forced (p := some '\n') rfl, ?_, h6⟩
      · rw [runR_take hne hm, h1, hlast]
        exact h4
      · rw [if_pos ⟨by simp, hl⟩]
        simpa using h5
  · obtain ⟨c, hc, hcn, hcs⟩ := last_blank hg hl
    have hne : g ++ nls gs ≠ [] := by intro h; rw [h] at hc; simp at hc
    have hm := gap_match (blog := blog) (p := p) (w := g ++ nls gs) hp hw hs
    obtain ⟨st1, h1, h2, h3⟩ := line_puts (blog := blog) (w := g ++ nls gs) (x := g ++ nls gs) h
    have hst : startAfter blog false (g :: gs) = if blog then .all else .none := by
      unfold startAfter
      have : ((g :: gs).getLast? == some []) = false := by simpa using hl
      rw [this]; cases blog <;> rfl
    rw [hst]
    refine ⟨st1, _, ?_, .mid (p := some c) (by simp [atBol, hcn]) (.inr (by
      intro h
      simp only [Option.some.injEq] at h
      rw [h] at hcs
      exact absurd hcs (by decide))), ?_, h3⟩
    · rw [runR_take hne hm, h1, hc]
      rfl
    · rw [if_neg (fun hh => hl hh.2)]
      exact h2

theorem blankLine_gap {g : Str} {gs : List Str} {o : Option Str} (hg : blank g = true) : BlankLine (g ++ nls gs ++ tailStr o) :=
  ⟨g, nls gs ++ tailStr o, by simp, (blank_iff hg).1, nls_eol gs o⟩

/-- to the next block -/
theorem next_block {blog : Bool} {b : Block} {gap : List Str} {s : Str} {cont : PS → PM} {st : PS} {t : Str} (hR : Rest gap (some s))
    (hc : Cont blog b gap (some s) cont) (ht : Top env sg ms st t) :
    ∃ st' run' start, cont st = run' st' ∧ Entry blog start s run' ∧ Top env sg ms st' (t ++ gapNl b gap) ∧
      (closed b gap = true → start = startAfter blog false gap ∧ ∀ k ∈ path st', k ∈ [Kind.document]) ∧
      (closed b gap = false → st' = st ∧ (start = .all ∨ (start = .none ∧ blog = false))) := by
  have hs := hR.next s rfl
  unfold Cont at hc
  cases htb : isTable b with
  | true =>
    have hcl : closed b gap = (gap.getLast? == some []) := by cases b <;> simp [isTable] at htb; rfl
    rw [htb, if_pos rfl] at hc
    subst hc
    unfold gapNl
    rw [hcl, htb, if_pos rfl]
    simp only [tailStr]
    cases gap with
    | nil =>
      refine ⟨st, _, _, rfl, .mid (p := some '|') (by decide) (.inr (by decide)), by simpa using ht, by simp, ?_⟩
      intro _
      refine ⟨rfl, ?_⟩
      cases blog <;> simp
    | cons g gs =>
      have e : (nls (g :: gs)).getLast?.or (some '|') = ((g ++ nls gs).getLast?).or (some '\n') := by
        rw [nls_cons, List.getLast?_cons]; cases (g ++ nls gs).getLast? <;> rfl
      rw [e]
      by_cases hl : (g :: gs).getLast? = some []
      · have hp : ((g ++ nls gs).getLast?).or (some '\n') = some '\n' := by
          rw [last_lines, if_pos hl]; split <;> rfl
        rw [hp, if_pos hl]
        obtain ⟨st', h1, h2, h3⟩ := emptyLine (blog := blog) (p := some '\n') rfl hs ht
        refine ⟨st', _, _, h1, .forced rfl, h2, ?_, by simp [hl]⟩
        intro _
        refine ⟨?_, h3⟩
        unfold startAfter
        rw [hl]; cases blog <;> rfl
      · obtain ⟨c, hc, hcn, hcs⟩ := last_blank hR.gap hl
        rw [hc, if_neg hl]
        refine ⟨st, _, _, rfl, .mid (p := some c) (by simp [atBol, hcn]) (.inr (by
          intro h
          simp only [Option.some.injEq] at h
          rw [h] at hcs
          exact absurd hcs (by decide))), by simpa using ht, by simp [hl], ?_⟩
        intro _
        refine ⟨rfl, ?_⟩
        cases blog <;> simp
  | false =>
    have hcl : closed b gap = !gap.isEmpty := by cases b <;> simp [isTable] at htb <;> rfl
    rw [htb] at hc
    simp only [Bool.false_eq_true, if_false] at hc
    unfold gapNl
    rw [hcl, htb]
    simp only [Bool.false_eq_true, if_false]
    rcases hc with ⟨p, hp, rfl⟩ | ⟨rfl, rfl, s', hs', rfl⟩
    · cases gap with
      | nil =>
        rw [rest_nil]
        simp only [tailStr]
        by_cases hb : blog = true ∨ p ≠ some '\\'
        · refine ⟨st, _, _, rfl, .mid hp hb, by simpa using ht, by simp, ?_⟩
          intro _
          refine ⟨rfl, ?_⟩
          cases blog <;> simp
        · rw [not_or, Decidable.not_not] at hb
          rw [show runR (blockRe blog) blockRepl p ('\n' :: s) = runR (blockRe blog) blockRepl (some '\n') s from
            funext fun st => skip_mid hp (.inr (.inl hb.2))]
          exact ⟨st, _, _, rfl, .bol rfl, by simpa using ht, by simp, fun _ => ⟨rfl, .inl rfl⟩⟩
      | cons g gs =>
        rw [rest_cons]
        rw [show runR (blockRe blog) blockRepl p ('\n' :: (g ++ nls gs ++ tailStr (some s))) =
          runR (blockRe blog) blockRepl (some '\n') (g ++ nls gs ++ tailStr (some s)) from
            funext fun st => skip_mid hp (.inr (.inr (.inr ⟨_, rfl, blankLine_gap (hR.gap g (by simp))⟩)))]
        obtain ⟨st', run', h1, h2, h3, h4⟩ := gapRun (blog := blog) (p := some '\n') rfl hR.gap hs ht
        rw [if_neg (by simp)]
        exact ⟨st', run', _, h1, h2, h3, fun _ => ⟨rfl, h4⟩, by simp⟩
    · simp only [Option.some.injEq] at hs'
      subst hs'
      exact ⟨st, _, _, rfl, .bol rfl, by simpa using ht, by simp, fun _ => ⟨rfl, .inl rfl⟩⟩

/-- if the text ended now, the document would give `t` -/
def Done (env : Env) (sg : Stage) (ms : Macros) (st : PS) (t : Str) : Prop :=
  UsedOk sg st.used ∧ ∃ cs, (climb (fun _ => false) st.cur st.up).1.close = .mk docInfo cs ∧ EmitsD env sg ms cs t

theorem climb_doc {F : Frame} : ∀ {up : List Frame} {f : Frame}, climb isDoc f up = (F, []) → climb (fun _ => false) f up = (F, []) := by
  intro up
  induction up with
  | nil => intro f h; exact h
  | cons p up ih =>
    intro f h
    rw [climb] at h ⊢
    by_cases hd : isDoc f.kind = true
    · rw [if_pos hd] at h; simp at h
    · rw [if_neg hd] at h
      simp only [Bool.false_eq_true, if_false]
      exact ih h

theorem done_of_top {st : PS} {t : Str} (h : Top env sg ms st t) (hn : NoBrk st) : Done env sg ms st t := by
  refine ⟨h.used, ?_⟩
  obtain ⟨cs, h1, h2⟩ := h.doc
  refine ⟨cs, ?_, h2⟩
  have hcl : st.cleanupBreak = st := by
    unfold PS.cleanupBreak
    cases hl : st.cur.children.getLast? with
    | none => rfl
    | some n => simp only; rw [if_neg (hn n hl)]
  unfold PS.uptoBlock PS.upto at h1
  rw [hcl] at h1
  simp only [docSt, PS.mk.injEq] at h1
  have hcc : climb isDoc st.cur st.up = (⟨docInfo, cs⟩, []) := Prod.ext h1.1 h1.2.1
  rw [climb_doc hcc]
  rfl

theorem noBrk_leaf {st : PS} {i : Info} (h : i.kind ≠ .brk) : NoBrk (st.leaf i) := by
  intro n hn
  simp only [PS.leaf, Frame.add, List.getLast?_append, List.getLast?_singleton, Option.some_or, Option.some.injEq] at hn
  rw [← hn]; exact h

/-- a state in which a document node has just been added -/
theorem noBrk_doc {st : PS} {t : Str} (h : Top env sg ms st t) (hp : ∀ k ∈ path st, k ∈ [Kind.document]) : NoBrk st := by
  have hk : st.cur.kind = .document := by simpa using hp st.cur.kind (by simp [path])
  have h1 := h.here hk
  intro n hn hb
  have h2 : st.uptoBlock.cur.children.length < st.cur.children.length := by
    unfold PS.uptoBlock PS.upto
    have : st.cleanupBreak = { st with cur := { st.cur with children := st.cur.children.dropLast } } := by
      unfold PS.cleanupBreak; rw [hn]; simp only; rw [if_pos hb]
    rw [this]
    have hcl : ∀ up, climb isDoc { st.cur with children := st.cur.children.dropLast } up = ({ st.cur with children := st.cur.children.dropLast }, up) := by
      intro up
      cases up with
      | nil => rfl
      | cons p up =>
        rw [climb, if_pos]
        have hk' : st.cur.info.kind = .document := hk
        unfold Frame.kind isDoc; simpa using hk'
    simp only [hcl, List.length_dropLast]
    have : st.cur.children ≠ [] := by intro h; rw [h] at hn; simp at hn
    have := List.length_pos_iff.mpr this
    omega
  rw [h1] at h2
  omega

/-- to the end of the text -/
theorem last_block {blog : Bool} {b : Block} {gap : List Str} {cont : PS → PM} {st : PS} {t : Str} (hg : ∀ g ∈ gap, blank g = true)
    (hc : Cont blog b gap none cont) (ht : Top env sg ms st t) (hn : NoBrk st) :
    ∃ st' w, cont st = .ok st' ∧ Done env sg ms st' (t ++ w) ∧ ∀ c ∈ w, isSpace c = true := by
  have hnl : ∀ c ∈ c!"\n", isSpace c = true := by decide
  have one : ∀ {st : PS} {t : Str}, Top env sg ms st t → ∃ st' w, runR (blockRe blog) blockRepl (some '\n') [] st = .ok st' ∧
      Done env sg ms st' (t ++ w) ∧ ∀ c ∈ w, isSpace c = true := by
    intro st t ht
    have hm := end_match (blog := blog) (p := some '\n') (w := []) rfl (by simp)
    obtain ⟨st', h1, h2, h3⟩ := line_puts (blog := blog) (w := []) (x := []) ht
    exact ⟨st', _, by rw [runR_empty_nil hm, h1], done_of_top h2 (noBrk_doc h2 h3), hnl⟩
  have none_ : ∀ {p : Option Char} {st : PS} {t : Str}, atBol true p = false → Top env sg ms st t → NoBrk st →
      ∃ st' w, runR (blockRe blog) blockRepl p [] st = .ok st' ∧ Done env sg ms st' (t ++ w) ∧ ∀ c ∈ w, isSpace c = true := by
    intro p st t hp ht hn
    exact ⟨st, [], runR_nil' (nil_match hp), by simpa using done_of_top ht hn, by simp⟩
  unfold Cont at hc
  cases htb : isTable b with
  | true =>
    rw [htb, if_pos rfl] at hc
    subst hc
    simp only [tailStr]
    cases gap with
    | nil => exact none_ (by decide) ht hn
    | cons g gs =>
      have e : (nls (g :: gs)).getLast?.or (some '|') = ((g ++ nls gs).getLast?).or (some '\n') := by
        rw [nls_cons, List.getLast?_cons]; cases (g ++ nls gs).getLast? <;> rfl
      rw [e]
      by_cases hl : (g :: gs).getLast? = some []
      · have hp : ((g ++ nls gs).getLast?).or (some '\n') = some '\n' := by
          rw [last_lines, if_pos hl]; split <;> rfl
        rw [hp]
        exact one ht
      · obtain ⟨c, hc, hcn, _⟩ := last_blank hg hl
        rw [hc]
        exact none_ (by simp [atBol, hcn]) ht hn
  | false =>
    rw [htb] at hc
    simp only [Bool.false_eq_true, if_false] at hc
    rcases hc with ⟨p, hp, rfl⟩ | ⟨_, _, s', hs', _⟩
    · cases gap with
      | nil => exact none_ hp ht hn
      | cons g gs =>
        rw [rest_cons, skip_mid hp (.inr (.inr (.inr ⟨_, rfl, blankLine_gap (hg g (by simp))⟩)))]
        simp only [tailStr, List.append_nil]
        have hw : ∀ c ∈ g ++ nls gs, isSpace c = true := by
          intro c hc
          rw [List.mem_append] at hc
          rcases hc with hc | hc
          · exact (blank_iff (hg g (by simp))).1 c hc
          · exact nls_space (fun x hx => hg x (by simp [hx])) c hc
        generalize hW : g ++ nls gs = W at hw
        cases W with
        | nil => exact one ht
        | cons c W =>
          have hm := end_match (blog := blog) (p := some '\n') (w := c :: W) rfl hw
          obtain ⟨st1, h1, h2, h3⟩ := line_puts (blog := blog) (w := c :: W) (x := c :: W) ht
          have e := runR_take (h := blockRepl) (st := st) (w := c :: W) (rest := []) (by simp) (by rw [List.append_nil]; exact hm)
          rw [List.append_nil, h1, ok_bind] at e
          rw [e]
          by_cases hl : (c :: W).getLast? = some '\n'
          · rw [hl]
            obtain ⟨st', w, h4, h5, h6⟩ := one h2
            refine ⟨st', c!"\n" ++ w, h4, by simpa using h5, ?_⟩
            intro d hd
            rw [List.mem_append] at hd
            rcases hd with hd | hd
            · exact hnl d hd
            · exact h6 d hd
          · obtain ⟨st', w, h4, h5, h6⟩ := none_ (p := (c :: W).getLast?) (by
              rw [List.getLast?_eq_some_getLast (by simp)] at hl ⊢
              simp only [Option.some.injEq] at hl
              simp [atBol, hl]) h2 (noBrk_doc h2 h3)
            refine ⟨st', c!"\n" ++ w, h4, by simpa using h5, ?_⟩
            intro d hd
            rw [List.mem_append] at hd
            rcases hd with hd | hd
            · exact hnl d hd
            · exact h6 d hd
    · simp at hs'

end Verif.Creole
