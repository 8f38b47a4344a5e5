import Verif.Props.Calling
import Verif.Props.Toc
import Verif.Creole.Spots

/-!
# C84: the table of contents and the macros of every text
-/

namespace Verif.Props

open Verif Py Creole Spec Spec.Cr

/-! ## The table in its place -/

theorem replaceFirst_absent {old new : Str} : ∀ (s : Str), ¬ old <:+: s → replaceFirst old new s = s
  | [], _ => rfl
  | c :: s, h => by
    unfold replaceFirst
    split
    · rename_i hp
      exact absurd (List.isPrefixOf_iff_prefix.mp hp).isInfix h
    · rw [replaceFirst_absent s fun hi => h (hi.trans (List.suffix_cons c s).isInfix)]

/-- the first occurrence is where it is -/
theorem firstReplaced_unique {old new s a b : Str} (ho : old ≠ []) (ha : FirstReplaced old new s a) (hb : FirstReplaced old new s b) : a = b := by
  obtain ⟨p, q, e1, rfl, h1⟩ := ha
  obtain ⟨p', q', e2, rfl, h2⟩ := hb
  have hl : old.dropLast ++ [old.getLast ho] = old := List.dropLast_concat_getLast ho
  have key : ∀ {p q p' q' : Str}, p ++ old ++ q = p' ++ old ++ q' → ¬ old <:+: p' ++ old.dropLast → p'.length ≤ p.length := by
    intro p q p' q' e h
    apply Classical.byContradiction
    intro hlt
    apply h
    have e' : p ++ (old ++ q) = (p' ++ old.dropLast) ++ (old.getLast ho :: q') := by
      rw [← List.append_assoc, e]
      conv => lhs; rw [← hl]
      simp
    have hpre : p ++ old <+: p' ++ old.dropLast := by
      refine List.prefix_of_prefix_length_le (l₃ := p ++ (old ++ q)) ⟨q, by simp⟩ ⟨_, e'.symm⟩ ?_
      have := List.length_pos_iff.mpr ho
      simp only [List.length_append, List.length_dropLast]
      omega
    obtain ⟨w, hw⟩ := hpre
    exact ⟨p, w, hw⟩
  have e : p ++ old ++ q = p' ++ old ++ q' := e1.symm.trans e2
  have hlen : p.length = p'.length := Nat.le_antisymm (key e.symm h1) (key e h2)
  rw [List.append_assoc, List.append_assoc] at e
  obtain ⟨rfl, e'⟩ := List.append_inj e hlen
  rw [List.append_cancel_left e']

theorem emit_inPlace (t : Toc) (s html : Str) (h : ∀ x ∈ t.headlines, 1 ≤ x.1) :
    t.emit s = .ok html ↔ InPlace t.headlines s html := by
  obtain ⟨l, e1, e2, e3, e4⟩ := flatToNest_spec t.headlines h
  have ht := nestHtml_toc e2 e3 e4
  have hf : ∀ old new, old ≠ [] → old <:+: s → ∀ x, FirstReplaced old new s x ↔ replaceFirst old new s = x := by
    intro old new ho hi x
    have := firstReplaced (new := new) ho s ((hasSub_iff s).2 hi)
    exact ⟨fun hx => firstReplaced_unique ho this hx, fun hx => hx ▸ this⟩
  have hin : InPlace t.headlines s html ↔ (if c!"<p><<toc>></p>" <:+: s then replaceFirst c!"<p><<toc>></p>" (nestHtml 0 (.list l)) s
      else replaceFirst c!"<<toc>>" (nestHtml 0 (.list l)) s) = html := by
    have hx : ∀ table, (if c!"<p><<toc>></p>" <:+: s then FirstReplaced c!"<p><<toc>></p>" table s html
        else if c!"<<toc>>" <:+: s then FirstReplaced c!"<<toc>>" table s html
        else html = s) ↔ (if c!"<p><<toc>></p>" <:+: s then replaceFirst c!"<p><<toc>></p>" table s
      else replaceFirst c!"<<toc>>" table s) = html := by
      intro table
      by_cases h1 : c!"<p><<toc>></p>" <:+: s
      · simp only [if_pos h1]; exact hf _ _ (by simp) h1 _
      · by_cases h2 : c!"<<toc>>" <:+: s
        · simp only [if_neg h1, if_pos h2]; exact hf _ _ (by simp) h2 _
        · simp only [if_neg h1, if_neg h2, replaceFirst_absent s h2]; exact eq_comm
    constructor
    · rintro ⟨table, h1, h2⟩
      rw [tocHtml_unique ht h1]
      exact (hx table).mp h2
    · intro h2
      exact ⟨_, ht, (hx _).mpr h2⟩
  rw [hin]
  unfold Toc.emit
  rw [e1, ok_bind]
  have hs := hasSub_iff (w := c!"<p><<toc>></p>") s
  by_cases hc : c!"<p><<toc>></p>" <:+: s
  · simp only [if_pos hc, if_pos (hs.2 hc), pure, Except.pure, Except.ok.injEq]
  · simp only [if_neg hc, if_neg (fun e => hc (hs.1 e)), pure, Except.pure, Except.ok.injEq]

/-! ## All texts -/

theorem laid_heads {verbose : Int} {b b' : Option Board} {ms ms' : Macros} {l : List Spot} {s : Str} (h : Laid verbose b ms l s b' ms') :
    (∀ n t, .head n t ∈ l → 1 ≤ n) → (∀ x, b = some x → ∀ y ∈ x.heads, 1 ≤ y.1) → ∀ x, b' = some x → ∀ y ∈ x.heads, 1 ≤ y.1 := by
  induction h with
  | nil => exact fun _ h => h
  | text _ ih => exact fun hl hb => ih (fun n t h => hl n t (by simp [h])) hb
  | head _ ih => exact fun hl hb => ih (fun n t h => hl n t (by simp [h])) hb
  | @anchor b _ _ _ _ n title _ noted _ _ ih =>
    intro hl hb
    refine ih (fun n t h => hl n t (by simp [h])) ?_
    rintro x ⟨⟩ y hy
    simp only [List.mem_append] at hy
    rcases hy with hy | hy
    · exact hb _ rfl y hy
    · split at hy
      · simp only [List.mem_singleton] at hy
        subst hy
        exact hl n title (by simp)
      · simp at hy
  | call _ _ _ ih => exact fun hl hb => ih (fun n t h => hl n t (by simp [h])) hb
  | @first b _ _ _ _ _ _ _ _ _ _ _ _ ih =>
    intro hl hb
    refine ih (fun n t h => hl n t (by simp [h])) ?_
    rintro x ⟨⟩ y hy
    exact hb b rfl y hy
  | again _ _ _ _ _ ih => exact fun hl hb => ih (fun n t h => hl n t (by simp [h])) hb
  | wrongArgs _ _ _ ih => exact fun hl hb => ih (fun n t h => hl n t (by simp [h])) hb
  | self _ _ _ _ _ ih => exact fun hl hb => ih (fun n t h => hl n t (by simp [h])) hb

theorem callsToc_names (l : List Spot) : callsToc l = (spotNames l).contains toc := by
  induction l with
  | nil => rfl
  | cons x l ih =>
    cases x with
    | text s => simpa [callsToc, spotNames] using ih
    | head n t => simpa [callsToc, spotNames] using ih
    | call c =>
      simp only [callsToc, spotNames, List.any_cons, List.filterMap_cons, List.contains_cons] at ih ⊢
      rw [ih, Bool.beq_comm]

/-- without a table of contents, an entry `toc` of the dict does not matter -/
theorem scheme_aside (strict : Bool) (p : Str → Prop) : Scheme strict false p fun ns r => toc ∉ ns →
    ∀ v b ms, NoTocs ms → r v (stored b ms) = (r v ms).map (fun x => (x.1, stored b x.2)) ∧ ∀ s ms', r v ms = .ok (s, ms') → NoTocs ms' where
  text s _ v b ms h := ⟨rfl, by intro s ms' e; cases e; exact h⟩
  wrap := by
    intro ns r f a b h _ hn v B ms hm
    obtain ⟨h1, h2⟩ := h hn v B ms hm
    dsimp only
    rw [h1]
    cases hr : r v ms with
    | error e => exact ⟨rfl, by intro s ms' e; cases e⟩
    | ok x => exact ⟨rfl, by intro s ms' e; cases e; exact h2 _ _ hr⟩
  cons := by
    intro ns ns' r r' h h' hn v B ms hm
    simp only [List.mem_append, not_or] at hn
    obtain ⟨h1, h2⟩ := h hn.1 v B ms hm
    dsimp only
    rw [h1]
    cases hr : r v ms with
    | error e => exact ⟨rfl, by intro s ms' e; cases e⟩
    | ok x =>
      obtain ⟨s, m1⟩ := x
      obtain ⟨h3, h4⟩ := h' hn.2 v B m1 (h2 _ _ hr)
      simp only [Except.map]
      rw [h3]
      cases hr' : r' v m1 with
      | error e => exact ⟨rfl, by intro s ms' e; cases e⟩
      | ok x => exact ⟨rfl, by intro s ms' e; cases e; exact h4 _ _ hr'⟩
  mac i _ hn v b ms h := by
    refine ⟨macroEmit_stored h (.inl fun e => hn (by simp [e])), ?_⟩
    intro s ms' hr
    exact ((macroEmit_iff _ i ms ms' s h).mp hr).noTocs h
  head n s _ v b ms h := ⟨rfl, by intro s ms' e; cases e; exact h⟩

theorem usual_new : Usual {} := ⟨by simp, fun _ => rfl⟩

/-- Every text has places, and they also describe the conversion with a dict that has been used before. -/
theorem laid_shared (o : Opts) (markup : Str) :
    ∃ spots : List Spot, (∀ c, .call c ∈ spots → mayCall c.name markup = true) ∧ (∀ n t, .head n t ∈ spots → 1 ≤ n) ∧
      HasSpotsIn o markup spots ∧ ∀ d, parse o.blog markup = .ok d → callsToc spots = d.used.contains toc := by
  obtain ⟨d, h1, h2⟩ := parse_infoMac o markup
  obtain ⟨spots, hs, hc, hp, hf⟩ := (scheme_lays o.strict (d.used.contains toc) _).node d.root { kind := .document } trivial h2
  have haside := (scheme_aside o.strict _).node d.root { kind := .document } trivial h2
  have hu : callsToc spots = d.used.contains toc := by
    rw [callsToc_names, hs, parse_macNames h1]
    simp
  refine ⟨spots, fun c h => hc _ (List.mem_filterMap.mpr ⟨_, h, rfl⟩), hp, ?_, by intro d' h; rw [h1] at h; cases h; exact hu⟩
  intro v left ms ms' html hn hk hleft
  have hnames : d.used.contains toc = false → toc ∉ d.root.macNames := by
    intro h hm
    rw [← hs] at hm
    have := callsToc_names spots
    rw [hu, h] at this
    simp only [Bool.false_eq, List.contains_eq_mem, decide_eq_false_iff_not] at this
    exact this hm
  rw [hu]
  unfold creole2htmlM emitDoc
  simp only [h1, ok_bind]
  rw [show c!"toc" = toc from rfl] at *
  generalize d.used.contains toc = u at *
  cases u with
  | false =>
    obtain ⟨ha, -⟩ := haside (hnames rfl) v left ms hn
    have hf' := hf v none ms
    have hfit : Fit false none ms := ⟨rfl, hn, hk, by simp⟩
    simp only [Bool.false_and, Bool.false_eq_true, if_false] at ha ⊢
    rw [ha]
    constructor
    · intro hx
      cases hr : emitNode { verbose := v, strict := o.strict, useToc := false } { kind := .document } d.root ms with
      | error e => rw [hr] at hx; cases hx
      | ok x =>
        obtain ⟨t, m⟩ := x
        obtain ⟨b', ms1, rfl, hl⟩ := (hf' t m hfit).mp hr
        rw [hr] at hx
        have hb' := (hl.fit hfit).board
        cases b' with
        | some b => cases hb'
        | none =>
          cases hx
          exact ⟨t, none, ms1, hl, rfl, rfl⟩
    · rintro ⟨t, b', ms1, hl, hfin, rfl⟩
      have hr := (hf' t _ hfit).mpr ⟨b', ms1, rfl, hl⟩
      have hb' := (hl.fit hfit).board
      cases b' with
      | some b => cases hb'
      | none =>
        rw [show stored none ms = ms from rfl] at hr
        simp only [hr]
        cases hfin
        rfl
  | true =>
    have hstart : (if (true && (dictGet toc (stored left ms)).isNone) = true then dictSet toc (.toc {}) (stored left ms) else stored left ms) =
        stored (some (left.getD {})) ms := by
      cases left with
      | none => rw [show stored none ms = ms from rfl, hk]; rfl
      | some b => rw [dictGet_toc]; rfl
    have hus : Usual (left.getD {}) := by
      cases left with
      | none => exact usual_new
      | some b => exact hleft b rfl
    have hfit : Fit true (some (left.getD {})) ms := ⟨rfl, hn, hk, by rintro x ⟨⟩ hx; exact hus.depth hx⟩
    rw [hstart]
    simp only [if_true]
    have hf' := fun s X => hf v _ ms s X hfit
    dsimp only at hf'
    constructor
    · intro hx
      cases hr : emitNode { verbose := v, strict := o.strict, useToc := true } { kind := .document } d.root (stored (some (left.getD {})) ms) with
      | error e => rw [hr] at hx; cases hx
      | ok x =>
        obtain ⟨t, m⟩ := x
        obtain ⟨b', ms1, rfl, hl⟩ := (hf' t m).mp hr
        rw [hr] at hx
        simp only [ok_bind] at hx
        refine ⟨t, b', ms1, hl, ?_⟩
        have hb' := (hl.fit hfit).board
        cases b' with
        | none => cases hb'
        | some b =>
          simp only [dictGet_toc] at hx
          obtain ⟨w, hw, hx⟩ := bind_ok hx
          cases hx
          exact ⟨(emit_inPlace _ _ _ (laid_heads hl hp (by rintro x ⟨⟩; exact hus.heads) b rfl)).mp hw, rfl⟩
    · rintro ⟨t, b', ms1, hl, hfin, rfl⟩
      rw [(hf' t _).mpr ⟨b', ms1, rfl, hl⟩]
      simp only [ok_bind]
      have hb' := (hl.fit hfit).board
      cases b' with
      | none => cases hb'
      | some b =>
        simp only [dictGet_toc]
        have := (emit_inPlace { created := b.placed, maxDepth := b.depth, headlines := b.heads } (strip t) html
          (laid_heads hl hp (by rintro x ⟨⟩; exact hus.heads) b rfl)).mpr hfin
        rw [this]
        rfl

theorem hasSpots_alone {o : Opts} {markup : Str} {spots : List Spot} (h : HasSpotsIn o markup spots) : HasSpots o markup spots := by
  intro v ms ms' html hn hk
  have := h v none ms ms' html hn hk (by simp)
  simpa [stored] using this

/-- **C84.**  Every text is a text with places for headings and calls, and converting it is the same as filling the places from left
to right and then putting the table of contents in its place.  The places do not depend on the macros or on `verbose`.  All macros
called there are called in the text.  (For all macros in a dict without a macro `toc` and without objects of earlier tables of
contents.) -/
theorem C84_laid (o : Opts) (markup : Str) :
    ∃ spots : List Spot, (∀ c, .call c ∈ spots → mayCall c.name markup = true) ∧ (∀ n t, .head n t ∈ spots → 1 ≤ n) ∧
      HasSpots o markup spots :=
  let ⟨spots, h1, h2, h3, _⟩ := laid_shared o markup
  ⟨spots, h1, h2, hasSpots_alone h3⟩

/-! ## When the places cannot be filled -/

/-- the macros raise nothing but `Exception`s, and there are no tables of contents -/
structure Harmless (ms : Macros) : Prop where
  noTocs : NoTocs ms
  noKey : dictGet toc ms = none
  noBase : NoBase ms

theorem answers_noBase {verbose : Int} {ms ms' : Macros} {c : Call} {s : Str} (h : NoBase ms) (ha : Answers verbose ms c s ms') : NoBase ms' := by
  have hr : ∀ {kw out}, Runs ms c.name kw out ms' → NoBase ms' := by
    intro kw out hr
    cases hr with
    | fn _ => exact h
    | obj _ => exact h.record _
  cases ha with
  | returns _ r => exact hr r
  | wrongArgs _ => exact h
  | unknown _ _ => exact h
  | raises _ r _ => exact hr r
  | notString _ r => exact hr r

theorem answers_exists {verbose : Int} {ms : Macros} (hv : verbose ≤ 2) (h : Harmless ms) (c : Call) :
    ∃ s ms', Answers verbose ms c s ms' ∧ Harmless ms' := by
  let i : Info := { kind := if c.block then .macro_block else .macro_inline, macroName := c.name, macroArgs := c.args, content := c.text }
  have hi : callOf i = c := by
    obtain ⟨n, a, t, b⟩ := c
    cases b <;> rfl
  have hg := macroEmit_noBase (env := { verbose }) hv i ms h.noBase
  cases hm : macroEmit { verbose } i ms with
  | error e => rw [hm] at hg; exact absurd hg id
  | ok x =>
    obtain ⟨s, ms'⟩ := x
    rw [hm] at hg
    have ha := (macroEmit_iff { verbose } i ms ms' s h.noTocs).mp hm
    rw [hi] at ha
    exact ⟨s, ms', ha, ha.noTocs h.noTocs, ha.noKey h.noKey, hg⟩

theorem inTable_none {n : Nat} {d : Option PVal} (h : inTable n d = none) : (∃ s, d = some (.str s)) ∨ d = some .none := by
  cases d with
  | none => cases h
  | some x =>
    cases x with
    | none => exact .inr rfl
    | str s => exact .inl ⟨s, rfl⟩
    | int k => cases h
    | bool k => cases h

theorem depthIn_ne (kw : Dict PVal) : depthIn kw ≠ some .none := by
  unfold depthIn
  split
  · simp
  · rename_i h
    exact h

theorem laid_none {verbose : Int} (hv : verbose ≤ 2) : ∀ (l : List Spot) (ms : Macros), Harmless ms → ∃ s b ms', Laid verbose none ms l s b ms'
  | [], ms, _ => ⟨[], none, ms, .nil⟩
  | .text s :: l, ms, h => by
    obtain ⟨t, b, ms', hl⟩ := laid_none hv l ms h
    exact ⟨_, _, _, .text hl⟩
  | .head n t :: l, ms, h => by
    obtain ⟨t, b, ms', hl⟩ := laid_none hv l ms h
    exact ⟨_, _, _, .head hl⟩
  | .call c :: l, ms, h => by
    obtain ⟨s, ms1, ha, h1⟩ := answers_exists hv h c
    obtain ⟨t, b, ms', hl⟩ := laid_none hv l ms1 h1
    exact ⟨_, _, _, .call (.inr rfl) ha hl⟩

/-- after the first call -/
theorem laid_placed {verbose : Int} (hv : verbose ≤ 2) : ∀ (l : List Spot) (b : Board) (ms : Macros), Harmless ms → b.placed = true →
    b.depth ≠ some .none →
    ((∃ s b' ms', Laid verbose (some b) ms l s b' ms') ↔ ¬ ∃ d n t, b.depth = some (.str d) ∧ .head n t ∈ l)
  | [], b, ms, _, _, _ => by
    constructor
    · rintro - ⟨d, n, t, -, hh⟩
      cases hh
    · exact fun _ => ⟨[], _, ms, .nil⟩
  | .text s :: l, b, ms, h, hb, hd => by
    have ih := laid_placed hv l b ms h hb hd
    simp only [List.mem_cons, reduceCtorEq, false_or]
    rw [← ih]
    constructor
    · rintro ⟨_, _, _, hl⟩
      cases hl with
      | text hl => exact ⟨_, _, _, hl⟩
    · rintro ⟨_, _, _, hl⟩
      exact ⟨_, _, _, .text hl⟩
  | .head n t :: l, b, ms, h, hb, hd => by
    cases hi : inTable n b.depth with
    | none =>
      obtain ⟨d, hd'⟩ : ∃ s, b.depth = some (.str s) := (inTable_none hi).resolve_right hd
      constructor
      · rintro ⟨_, _, _, hl⟩
        cases hl with
        | anchor hn => rw [hi] at hn; cases hn
      · intro hn
        exact absurd ⟨d, n, t, hd', by simp⟩ hn
    | some noted =>
      have hs : ∀ d, b.depth ≠ some (.str d) := by
        intro d e
        rw [e] at hi
        cases hi
      have ih := laid_placed hv l { b with heads := b.heads ++ if noted then [(n, t)] else [] } ms h hb hd
      constructor
      · rintro - ⟨d, _, _, e, -⟩
        exact hs d e
      · intro _
        obtain ⟨_, _, _, hl⟩ := ih.mpr (by rintro ⟨d, _, _, e, -⟩; exact hs d e)
        exact ⟨_, _, _, .anchor hi hl⟩
  | .call c :: l, b, ms, h, hb, hd => by
    simp only [List.mem_cons, reduceCtorEq, false_or]
    by_cases hc : c.name = toc
    · rw [← laid_placed hv l b ms h hb hd]
      cases ha : string2dict c.args with
      | error e =>
        have he := string2dict_err ha
        subst he
        constructor
        · rintro ⟨_, _, _, hl⟩
          cases hl with
          | call hn _ _ => exact absurd hn (by simp [hc])
          | wrongArgs _ _ hl => exact ⟨_, _, _, hl⟩
          | first _ h' | again _ h' | self _ h' => rw [ha] at h'; cases h'
        · rintro ⟨_, _, _, hl⟩
          exact ⟨_, _, _, .wrongArgs hc ha hl⟩
      | ok kw =>
        cases hs : dictGet c!"self" kw with
        | some x =>
          constructor
          · rintro ⟨_, _, _, hl⟩
            cases hl with
            | call hn _ _ => exact absurd hn (by simp [hc])
            | wrongArgs _ h' => rw [ha] at h'; cases h'
            | first _ h1 h2 | again _ h1 h2 => rw [ha] at h1; cases h1; rw [hs] at h2; cases h2
            | self _ _ _ _ hl => exact ⟨_, _, _, hl⟩
          · rintro ⟨_, _, _, hl⟩
            exact ⟨_, _, _, .self hc ha (by rw [hs]; rfl) hv hl⟩
        | none =>
          constructor
          · rintro ⟨_, _, _, hl⟩
            cases hl with
            | call hn _ _ => exact absurd hn (by simp [hc])
            | wrongArgs _ h' => rw [ha] at h'; cases h'
            | self _ h1 h2 => rw [ha] at h1; cases h1; rw [hs] at h2; cases h2
            | first _ _ _ h' => rw [hb] at h'; cases h'
            | again _ _ _ _ hl => exact ⟨_, _, _, hl⟩
          · rintro ⟨_, _, _, hl⟩
            exact ⟨_, _, _, .again hc ha hs hb hl⟩
    · constructor
      · rintro ⟨_, _, _, hl⟩
        cases hl with
        | call _ ha hl =>
          have hh : Harmless _ := ⟨ha.noTocs h.noTocs, ha.noKey h.noKey, answers_noBase h.noBase ha⟩
          exact (laid_placed hv l b _ hh hb hd).mp ⟨_, _, _, hl⟩
        | first h1 | again h1 | wrongArgs h1 | self h1 => exact absurd h1 hc
      · intro hn
        obtain ⟨s, ms1, ha, h1⟩ := answers_exists hv h c
        obtain ⟨_, _, _, hl⟩ := (laid_placed hv l b ms1 h1 hb hd).mpr hn
        exact ⟨_, _, _, .call (.inl hc) ha hl⟩

/-- before the first call -/
theorem laid_before {verbose : Int} (hv : verbose ≤ 2) : ∀ (l : List Spot) (b : Board) (ms : Macros), Harmless ms → b.placed = false →
    b.depth = none → ((∃ s b' ms', Laid verbose (some b) ms l s b' ms') ↔ ¬ Stuck l)
  | [], b, ms, _, _, _ => by
    constructor
    · rintro - ⟨d, rest, n, t, e, -⟩
      cases e
    · exact fun _ => ⟨[], _, ms, .nil⟩
  | .text s :: l, b, ms, h, hb, hd => by
    rw [show Stuck (.text s :: l) = Stuck l from rfl, ← laid_before hv l b ms h hb hd]
    constructor
    · rintro ⟨_, _, _, hl⟩
      cases hl with
      | text hl => exact ⟨_, _, _, hl⟩
    · rintro ⟨_, _, _, hl⟩
      exact ⟨_, _, _, .text hl⟩
  | .head n t :: l, b, ms, h, hb, hd => by
    have hi : inTable n b.depth = some true := by rw [hd]; rfl
    rw [show Stuck (.head n t :: l) = Stuck l from rfl,
      ← laid_before hv l { b with heads := b.heads ++ if true then [(n, t)] else [] } ms h hb hd]
    constructor
    · rintro ⟨_, _, _, hl⟩
      cases hl with
      | anchor hn hl =>
        rw [hi] at hn
        cases hn
        exact ⟨_, _, _, hl⟩
    · rintro ⟨_, _, _, hl⟩
      exact ⟨_, _, _, .anchor hi hl⟩
  | .call c :: l, b, ms, h, hb, hd => by
    by_cases hc : c.name = toc
    · have hc' : (c.name == toc) = true := by simpa using hc
      cases ha : string2dict c.args with
      | error e =>
        have he := string2dict_err ha
        subst he
        have hst : Stuck (.call c :: l) = Stuck l := by
          unfold Stuck
          rw [fromToc]
          simp only [hc', ha]
        rw [hst, ← laid_before hv l b ms h hb hd]
        constructor
        · rintro ⟨_, _, _, hl⟩
          cases hl with
          | call hn _ _ => exact absurd hn (by simp [hc])
          | wrongArgs _ _ hl => exact ⟨_, _, _, hl⟩
          | first _ h' | again _ h' | self _ h' => rw [ha] at h'; cases h'
        · rintro ⟨_, _, _, hl⟩
          exact ⟨_, _, _, .wrongArgs hc ha hl⟩
      | ok kw =>
        cases hs : dictGet c!"self" kw with
        | some x =>
          have hst : Stuck (.call c :: l) = Stuck l := by
            unfold Stuck
            rw [fromToc]
            simp only [hc', ha, hs, Option.isNone_some, Bool.false_eq_true, if_false]
          rw [hst, ← laid_before hv l b ms h hb hd]
          constructor
          · rintro ⟨_, _, _, hl⟩
            cases hl with
            | call hn _ _ => exact absurd hn (by simp [hc])
            | wrongArgs _ h' => rw [ha] at h'; cases h'
            | first _ h1 h2 | again _ h1 h2 => rw [ha] at h1; cases h1; rw [hs] at h2; cases h2
            | self _ _ _ _ hl => exact ⟨_, _, _, hl⟩
          · rintro ⟨_, _, _, hl⟩
            exact ⟨_, _, _, .self hc ha (by rw [hs]; rfl) hv hl⟩
        | none =>
          have hst : Stuck (.call c :: l) ↔ ∃ d n t, depthIn kw = some (.str d) ∧ .head n t ∈ l := by
            unfold Stuck
            rw [fromToc]
            simp only [hc', ha, hs, Option.isNone_none, if_true, Option.some.injEq, Prod.mk.injEq]
            constructor
            · rintro ⟨d, rest, n, t, ⟨e, rfl⟩, hh⟩
              exact ⟨d, n, t, e, hh⟩
            · rintro ⟨d, n, t, e, hh⟩
              exact ⟨d, l, n, t, ⟨e, rfl⟩, hh⟩
          rw [hst, ← laid_placed hv l { b with placed := true, depth := depthIn kw } ms h rfl (depthIn_ne kw)]
          constructor
          · rintro ⟨_, _, _, hl⟩
            cases hl with
            | call hn _ _ => exact absurd hn (by simp [hc])
            | wrongArgs _ h' => rw [ha] at h'; cases h'
            | self _ h1 h2 => rw [ha] at h1; cases h1; rw [hs] at h2; cases h2
            | again _ _ _ h' => rw [hb] at h'; cases h'
            | first _ h1 _ _ hl =>
              rw [ha] at h1
              cases h1
              exact ⟨_, _, _, hl⟩
          · rintro ⟨_, _, _, hl⟩
            exact ⟨_, _, _, .first hc ha hs hb hl⟩
    · have hc' : (c.name == toc) = false := by simpa using hc
      have hst : Stuck (.call c :: l) = Stuck l := by
        unfold Stuck
        rw [fromToc]
        simp only [hc']
      rw [hst]
      constructor
      · rintro ⟨_, _, _, hl⟩
        cases hl with
        | call _ ha hl =>
          have hh : Harmless _ := ⟨ha.noTocs h.noTocs, ha.noKey h.noKey, answers_noBase h.noBase ha⟩
          exact (laid_before hv l b _ hh hb hd).mp ⟨_, _, _, hl⟩
        | first h1 | again h1 | wrongArgs h1 | self h1 => exact absurd h1 hc
      · intro hn
        obtain ⟨s, ms1, ha, h1⟩ := answers_exists hv h c
        obtain ⟨_, _, _, hl⟩ := (laid_before hv l b ms1 h1 hb hd).mpr hn
        exact ⟨_, _, _, .call (.inl hc) ha hl⟩

theorem fromToc_calls : ∀ (l : List Spot), callsToc l = false → fromToc l = none
  | [], _ => rfl
  | .text _ :: l, h => fromToc_calls l h
  | .head _ _ :: l, h => fromToc_calls l h
  | .call c :: l, h => by
    rw [callsToc, List.any_cons, Bool.or_eq_false_iff] at h
    rw [fromToc]
    simp only [h.1]
    exact fromToc_calls l h.2

/-- the end is always reached -/
theorem finished_exists {b : Option Board} (hb : ∀ x, b = some x → ∀ y ∈ x.heads, 1 ≤ y.1) (s : Str) : ∃ html, Finished b s html := by
  cases b with
  | none => exact ⟨s, rfl⟩
  | some b =>
    have hpos := hb b rfl
    obtain ⟨l, e1, -⟩ := flatToNest_spec b.heads hpos
    have : ∃ html, ({ headlines := b.heads } : Toc).emit s = .ok html := by
      unfold Toc.emit
      rw [e1, ok_bind]
      dsimp only
      split <;> exact ⟨_, rfl⟩
    obtain ⟨html, he⟩ := this
    exact ⟨html, (emit_inPlace { headlines := b.heads } s html hpos).mp he⟩

/-- **C84.**  When exceptions leave the conversion: for macros that raise nothing but `Exception`s, with `verbose <= 2` and a dict
without a macro `toc`, the conversion raises an exception exactly if a heading follows the first proper call of `toc` and the depth
given in this call is a string. -/
theorem C84_raises (o : Opts) (markup : Str) : ∃ spots, HasSpots o markup spots ∧
    ∀ (verbose : Int) (macros : Macros), verbose ≤ 2 → NoTocs macros → dictGet toc macros = none →
      (∀ name m, dictGet name macros = some m → ¬ m.May .baseExc) →
      ((∃ e, creole2htmlM { o with verbose } macros markup = .error e) ↔ Stuck spots) := by
  obtain ⟨spots, _, h2, h3⟩ := C84_laid o markup
  refine ⟨spots, h3, ?_⟩
  intro v ms hv hn hk hb
  have hh : Harmless ms := ⟨hn, hk, hb⟩
  have key : (∃ x, creole2htmlM { o with verbose := v } ms markup = .ok x) ↔ ¬ Stuck spots := by
    have e1 : (∃ x, creole2htmlM { o with verbose := v } ms markup = .ok x) ↔
        ∃ s b ms', Laid v (if callsToc spots then some {} else none) ms spots s b ms' := by
      constructor
      · rintro ⟨⟨html, ms'⟩, hx⟩
        obtain ⟨s, b, ms1, hl, -⟩ := (h3 v ms ms' html hn hk).mp hx
        exact ⟨s, b, ms1, hl⟩
      · rintro ⟨s, b, ms1, hl⟩
        obtain ⟨html, hf⟩ := finished_exists (laid_heads hl h2 (by
          intro x hx y hy
          split at hx
          · cases hx; cases hy
          · cases hx)) (strip s)
        exact ⟨_, (h3 v ms _ html hn hk).mpr ⟨s, b, ms1, hl, hf, rfl⟩⟩
    rw [e1]
    cases hc : callsToc spots with
    | false =>
      simp only [Bool.false_eq_true, if_false]
      refine ⟨fun _ => ?_, fun _ => laid_none hv spots ms hh⟩
      rintro ⟨d, rest, n, t, e, -⟩
      rw [fromToc_calls spots hc] at e
      cases e
    | true =>
      simp only [if_true]
      exact laid_before hv spots {} ms hh rfl rfl
  cases hr : creole2htmlM { o with verbose := v } ms markup with
  | ok x =>
    rw [hr] at key
    have := key.mp ⟨x, rfl⟩
    exact ⟨fun ⟨e, he⟩ => (by cases he), fun h => absurd h this⟩
  | error e =>
    rw [hr] at key
    refine ⟨fun _ => ?_, fun _ => ⟨e, rfl⟩⟩
    apply Classical.byContradiction
    intro hs
    obtain ⟨x, hx⟩ := key.mpr hs
    cases hx

/-! ## The headings of the table -/

theorem laid_placed_heads {verbose : Int} {b b' : Option Board} {ms ms' : Macros} {l : List Spot} {s : Str} (h : Laid verbose b ms l s b' ms') :
    ∀ x, b = some x → x.placed = true → ∃ y, b' = some y ∧ y.heads = x.heads ++ tabled x.depth (headsIn l) := by
  induction h with
  | nil => rintro x rfl _; exact ⟨x, rfl, by simp [headsIn, tabled]⟩
  | text _ ih => exact fun x hx hp => ih x hx hp
  | head _ _ => intro x hx; cases hx
  | @anchor b _ _ _ _ n title _ noted hn _ ih =>
    rintro x ⟨⟩ hp
    obtain ⟨y, rfl, hy⟩ := ih _ rfl hp
    refine ⟨y, rfl, ?_⟩
    rw [hy, show ∀ l, headsIn (.head n title :: l) = (n, title) :: headsIn l from fun _ => rfl]
    simp only [tabled, List.filter_cons, hn]
    cases noted <;> simp
  | call _ _ _ ih => exact fun x hx hp => ih x hx hp
  | first _ _ _ hb => rintro x ⟨⟩ hp; rw [hp] at hb; cases hb
  | again _ _ _ _ _ ih => exact fun x hx hp => ih x hx hp
  | wrongArgs _ _ _ ih => exact fun x hx hp => ih x hx hp
  | self _ _ _ _ _ ih => exact fun x hx hp => ih x hx hp

theorem headsIn_fromToc : ∀ {l rest : List Spot} {d : Option PVal}, fromToc l = some (d, rest) → (headsIn rest).length ≤ (headsIn l).length
  | [], _, _, h => by cases h
  | .text _ :: l, _, _, h => headsIn_fromToc (l := l) h
  | .head _ _ :: l, _, _, h => Nat.le_succ_of_le (headsIn_fromToc (l := l) h)
  | .call c :: l, rest, d, h => by
    rw [fromToc] at h
    split at h
    · split at h
      · cases h; exact Nat.le_refl _
      · exact headsIn_fromToc (l := l) h
    · exact headsIn_fromToc (l := l) h

theorem tableOf_head (n : Nat) (t : Str) (l : List Spot) : tableOf (.head n t :: l) = (n, t) :: tableOf l := by
  unfold tableOf
  rw [show fromToc (.head n t :: l) = fromToc l from rfl]
  cases hf : fromToc l with
  | none => rfl
  | some x =>
    obtain ⟨d, rest⟩ := x
    have hle := headsIn_fromToc hf
    simp only
    rw [show headsIn (.head n t :: l) = (n, t) :: headsIn l from rfl, List.length_cons,
      show (headsIn l).length + 1 - (headsIn rest).length = ((headsIn l).length - (headsIn rest).length) + 1 by omega]
    rfl

theorem tableOf_other {x : Spot} {l : List Spot} (h1 : fromToc (x :: l) = fromToc l) (h2 : headsIn (x :: l) = headsIn l) :
    tableOf (x :: l) = tableOf l := by
  unfold tableOf
  rw [h1, h2]

theorem laid_before_heads {verbose : Int} {b b' : Option Board} {ms ms' : Macros} {l : List Spot} {s : Str} (h : Laid verbose b ms l s b' ms') :
    ∀ x, b = some x → x.placed = false → x.depth = none → ∃ y, b' = some y ∧ y.heads = x.heads ++ tableOf l := by
  induction h with
  | nil => rintro x rfl _ _; exact ⟨x, rfl, by simp [headsIn, tableOf, fromToc]⟩
  | text _ ih => exact fun x hx hp hd => ih x hx hp hd
  | head _ _ => intro x hx; cases hx
  | @anchor b _ _ _ _ n title _ noted hn _ ih =>
    rintro x ⟨⟩ hp hd
    obtain ⟨y, rfl, hy⟩ := ih _ rfl hp hd
    refine ⟨y, rfl, ?_⟩
    rw [hd] at hn
    cases hn
    rw [hy, tableOf_head]
    simp
  | @call b _ _ _ _ l c _ _ hc _ _ ih =>
    rintro x rfl hp hd
    obtain ⟨y, rfl, hy⟩ := ih _ rfl hp hd
    refine ⟨y, rfl, ?_⟩
    rw [hy, tableOf_other _ rfl]
    have hc' : (c.name == toc) = false := by simpa using hc
    rw [fromToc]
    simp only [hc']
  | @first b _ _ _ l c _ kw hc ha hs _ hl _ =>
    rintro x ⟨⟩ hp hd
    obtain ⟨y, rfl, hy⟩ := laid_placed_heads hl _ rfl rfl
    refine ⟨y, rfl, ?_⟩
    rw [hy]
    have hc' : (c.name == toc) = true := by simpa using hc
    have hf : fromToc (.call c :: l) = some (depthIn kw, l) := by
      rw [fromToc]
      simp only [hc', ha, hs, Option.isNone_none, if_true]
    unfold tableOf
    rw [hf]
    simp only [show headsIn (.call c :: l) = headsIn l from rfl, Nat.sub_self, List.take_zero, List.nil_append]
  | again _ _ _ hb => rintro x ⟨⟩ hp; rw [hp] at hb; cases hb
  | @wrongArgs b _ _ _ l c _ hc ha _ ih =>
    rintro x ⟨⟩ hp hd
    obtain ⟨y, rfl, hy⟩ := ih _ rfl hp hd
    refine ⟨y, rfl, ?_⟩
    rw [hy, tableOf_other _ rfl]
    have hc' : (c.name == toc) = true := by simpa using hc
    rw [fromToc]
    simp only [hc', ha]
  | @self b _ _ _ l c _ kw hc ha hs _ _ ih =>
    rintro x ⟨⟩ hp hd
    obtain ⟨y, rfl, hy⟩ := ih _ rfl hp hd
    refine ⟨y, rfl, ?_⟩
    rw [hy, tableOf_other _ rfl]
    have hc' : (c.name == toc) = true := by simpa using hc
    rw [fromToc]
    obtain ⟨z, hz⟩ := Option.isSome_iff_exists.mp hs
    simp only [hc', ha, hz, Option.isNone_some, Bool.false_eq_true, if_false]

/-- **C84.**  The headings in the table of contents do not depend on the macros: whenever the conversion of a text that calls `toc`
succeeds, the table mentions all the headings before the first proper call and those behind it within its depth. -/
theorem C84_table (o : Opts) (markup : Str) : ∃ spots, HasSpots o markup spots ∧ (callsToc spots = true →
    ∀ (verbose : Int) (macros macros' : Macros) (html : Str), NoTocs macros → dictGet toc macros = none →
      creole2htmlM { o with verbose } macros markup = .ok (html, macros') → ∃ s, InPlace (tableOf spots) s html) := by
  obtain ⟨spots, _, _, h3⟩ := C84_laid o markup
  refine ⟨spots, h3, ?_⟩
  intro hc v ms ms' html hn hk hr
  obtain ⟨s, b, ms1, hl, hf, -⟩ := (h3 v ms ms' html hn hk).mp hr
  simp only [hc, if_true] at hl
  obtain ⟨y, rfl, hy⟩ := laid_before_heads hl {} rfl rfl rfl
  refine ⟨strip s, ?_⟩
  have hf' : InPlace y.heads (strip s) html := hf
  rw [hy] at hf'
  exact hf'

/-- a text with a table of contents, with further calls of `toc` and with a counter -/
def contents : Str := c!"= a\n<<toc depth=1>>\n== b & c\n= d\n<<count>> <<toc>> <<toc x>> <<toc self=1>><<count>>"

/-- a text, macros and options that meet the hypotheses -/
example : (creole2htmlM {} counter contents).map (·.1) = .ok (c!"<a name=\"a\"><h1>a</h1></a>\n<ul>\n\t<li><a href=\"#a\">a</a></li>\n\t" ++
    c!"<li><a href=\"#d\">d</a></li>\n</ul>\n<a name=\"b &amp; c\"><h2>b &amp; c</h2></a>\n<a name=\"d\"><h1>d</h1></a>\n" ++
    c!"<p>1 &lt;&lt;toc&gt;&gt; [Error: Wrong macro arguments: \"x\" for macro 'toc' (maybe wrong macro tag syntax?)]\n " ++
    c!"[Error: Macro 'toc' error: TableOfContent.__call__() got multiple values for argument 'self']\n2</p>") := by
  decide +kernel

/-- the table of places like those of this text -/
example : tableOf [.head 1 c!"a", .call ⟨c!"toc", c!"depth=1", none, false⟩, .head 2 c!"b & c", .head 1 c!"d", .call ⟨c!"toc", [], none, false⟩] =
    [(1, c!"a"), (1, c!"d")] := by decide +kernel

/-- places that cannot be filled, and a text that has them; if the heading comes first, there is no exception -/
example : Stuck [.call ⟨c!"toc", c!"depth=\"x\"", none, false⟩, .text c!"\n", .head 1 c!"a"] :=
  ⟨c!"x", _, 1, c!"a", rfl, by simp⟩

example : creole2html {} c!"<<toc depth=\"x\">>\n= a" = .error (.typeError c!"'<=' not supported between instances of 'int' and 'str'") ∧
    ((creole2html {} c!"= a\n<<toc depth=\"x\">>").map fun _ => ()) = .ok () := by decide +kernel

end Verif.Props
