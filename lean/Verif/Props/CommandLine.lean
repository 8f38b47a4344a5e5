import Verif.Tools.CliLoop
import Verif.Props.Cli

/-!
# The arguments of the command line tools (C99)
-/

namespace Verif.Props

open Verif Py Tools CliArgs Spec.Cmd

/-! ## Classification of the words -/

theorem cl_pos {w : Str} (ws : List Str) (hw : w ≠ c!"--") (h : parseOptional w = .positional) :
    classify (w :: ws) = (classify ws).map fun ts => .arg w :: ts := by
  rw [classify, if_neg hw, h]

theorem cl_opt {w : Str} {t : OptTup} (ws : List Str) (hw : w ≠ c!"--") (h : parseOptional w = .option t) :
    classify (w :: ws) = (classify ws).map fun ts => .opt t w :: ts := by
  rw [classify, if_neg hw, h]

theorem cl_dashes (ws : List Str) : classify (c!"--" :: ws) = .ok (.dashes :: ws.map .arg) := by
  rw [classify, if_pos rfl]

theorem ex_map {α β : Type} {x : Except Exit α} {f : α → β} {b : β} (h : x.map f = .ok b) : ∃ a, x = .ok a ∧ f a = b := by
  cases x with
  | error e => cases h
  | ok a => exact ⟨a, rfl, by cases h; rfl⟩

/-- the first entry comes from the first word -/
theorem cl_inv {argv : List Str} {t : Tok} {ts : List Tok} (h : classify argv = .ok (t :: ts)) :
    ∃ w ws, argv = w :: ws ∧ ((w = c!"--" ∧ t = .dashes ∧ ts = ws.map .arg) ∨
      (w ≠ c!"--" ∧ parseOptional w = .positional ∧ t = .arg w ∧ classify ws = .ok ts) ∨
      (w ≠ c!"--" ∧ ∃ o, parseOptional w = .option o ∧ t = .opt o w ∧ classify ws = .ok ts)) := by
  cases argv with
  | nil => cases h
  | cons w ws =>
    refine ⟨w, ws, rfl, ?_⟩
    rw [classify] at h
    split at h
    · rename_i hw
      cases h
      exact .inl ⟨hw, rfl, rfl⟩
    · rename_i hw
      cases hp : parseOptional w with
      | positional =>
        rw [hp] at h
        obtain ⟨a, h1, h2⟩ := ex_map h
        cases h2
        exact .inr (.inl ⟨hw, rfl, rfl, h1⟩)
      | option o =>
        rw [hp] at h
        obtain ⟨a, h1, h2⟩ := ex_map h
        cases h2
        exact .inr (.inr ⟨hw, o, rfl, rfl, h1⟩)
      | ambiguous => rw [hp] at h; cases h

theorem cl_sane {argv : List Str} {ts : List Tok} (h : classify argv = .ok ts) : Sane ts := by
  induction argv generalizing ts with
  | nil => cases h; trivial
  | cons w ws ih =>
    cases ts with
    | nil => trivial
    | cons t ts =>
      obtain ⟨w', ws', he, h1⟩ := cl_inv h
      obtain ⟨rfl, rfl⟩ := List.cons.inj he
      rcases h1 with ⟨_, rfl, rfl⟩ | ⟨hw, _, rfl, h1⟩ | ⟨_, o, _, rfl, h1⟩
      · exact ⟨ws, rfl⟩
      · exact ⟨hw, ih h1⟩
      · show Sane ts
        exact ih h1

theorem plain_not_dashes {w : Str} (h : Plain w) : w ≠ c!"--" := by
  rintro rfl
  rcases h with h | h | ⟨h, _⟩
  · exact h rfl
  · cases h
  · exact h (.inr ⟨List.prefix_refl _, c!"--help", by decide, by decide⟩)

theorem short_not_dashes {p : Str} (h : Short p) : p ≠ c!"--" := by
  obtain ⟨q, rfl, hq, _⟩ := short_form h
  intro he
  exact hq (List.cons.inj (List.cons.inj he).2).2

theorem cl_plain {w : Str} (ws : List Str) (h : Plain w) : classify (w :: ws) = (classify ws).map fun ts => .arg w :: ts :=
  cl_pos ws (plain_not_dashes h) ((plain_iff w (plain_not_dashes h)).2 h)

/-! ## Parts of a command line and their entries -/

theorem endsWithName_cons (i : Item) {items : List Item} (h : items ≠ []) : EndsWithName (i :: items) ↔ EndsWithName items := by
  unfold EndsWithName
  cases items with
  | nil => exact absurd rfl h
  | cons j r => rw [List.getLast?_cons_cons]

/-- the entries of the parts, and of what follows -/
theorem reads_items (items : List Item) : ∀ (e e' : Str) (rest : List Str) (ts : List Tok) (ns : List Str),
    (∀ i ∈ items, i.Fine) → classify rest = .ok ts → (EndsWithName items → ts.head? ≠ some .dashes) →
    Reads ts ns (encodingOf e items) e' →
    ∃ ts', classify (wordsOf items ++ rest) = .ok ts' ∧ Reads ts' (namesOf items ++ ns) e e' ∧
      (items ≠ [] → ts'.head? ≠ some .dashes) := by
  induction items with
  | nil => intro e e' rest ts ns _ hc _ hr; exact ⟨ts, hc, hr, fun h => absurd rfl h⟩
  | cons i items ih =>
    intro e e' rest ts ns hf hc hd hr
    have hfi := hf i (by simp)
    have hd' : EndsWithName items → ts.head? ≠ some .dashes := by
      intro h
      refine hd ((endsWithName_cons i ?_).2 h)
      rintro rfl
      obtain ⟨w, h⟩ := h
      cases h
    have hhead : ∀ w, i = .name w → items = [] → ts.head? ≠ some .dashes := by
      rintro w rfl rfl
      exact hd ⟨w, rfl⟩
    cases i with
    | name w =>
      obtain ⟨ts', h1, h2, h3⟩ := ih e e' rest ts ns (fun j hj => hf j (by simp [hj])) hc hd' hr
      refine ⟨.arg w :: ts', ?_, ?_, fun _ => by simp⟩
      · show classify (w :: (wordsOf items ++ rest)) = _
        rw [cl_plain _ hfi, h1]
        rfl
      · refine Reads.name (plain_not_dashes hfi) ?_ h2
        by_cases hi : items = []
        · subst hi
          have : ts' = ts := by
            have h1 : classify rest = .ok ts' := h1
            rw [hc] at h1
            exact (Except.ok.inj h1).symm
          rw [this]
          exact hhead w rfl rfl
        · exact h3 hi
    | apart p v =>
      obtain ⟨ts', h1, h2, h3⟩ := ih v e' rest ts ns (fun j hj => hf j (by simp [hj])) hc hd' hr
      obtain ⟨t, ht, ha, hx⟩ := parse_apart hfi.1
      refine ⟨.opt t p :: .arg v :: ts', ?_, .apart ha hx h2, fun _ => by simp⟩
      show classify (p :: v :: (wordsOf items ++ rest)) = _
      rw [cl_opt _ (short_not_dashes hfi.1) ht, cl_plain _ hfi.2, h1]
      rfl
    | joined p v =>
      obtain ⟨ts', h1, h2, h3⟩ := ih v e' rest ts ns (fun j hj => hf j (by simp [hj])) hc hd' hr
      obtain ⟨t, ht, ha, hx⟩ := parse_joined hfi v
      have hw : p ++ '=' :: v ≠ c!"--" := by
        intro he
        have : '=' ∈ c!"--" := he ▸ (by simp)
        exact absurd this (by decide)
      refine ⟨.opt t (p ++ '=' :: v) :: ts', ?_, .joined ha hx h2, fun _ => by simp⟩
      show classify ((p ++ '=' :: v) :: (wordsOf items ++ rest)) = _
      rw [cl_opt _ hw ht, h1]
      rfl

theorem map_arg_inj {a b : List Str} (h : a.map Tok.arg = b.map Tok.arg) : a = b := by
  induction a generalizing b with
  | nil => cases b with
    | nil => rfl
    | cons => cases h
  | cons x r ih =>
    cases b with
    | nil => cases h
    | cons y q =>
      simp only [List.map_cons, List.cons.injEq, Tok.arg.injEq] at h
      rw [h.1, ih h.2]

/-- what the words are that give such entries -/
def Shape (argv : List Str) (ns : List Str) (e e' : Str) : Prop :=
  ∃ items : List Item, (∀ i ∈ items, i.Fine) ∧ encodingOf e items = e' ∧
    ((argv = wordsOf items ∧ namesOf items = ns) ∨
     (∃ more, EndsWithName items ∧ argv = wordsOf items ++ c!"--" :: more ∧ namesOf items ++ more = ns ∧ c!"--" ∉ more) ∨
     (∃ n more, ¬EndsWithName items ∧ argv = wordsOf items ++ c!"--" :: n :: more ∧ namesOf items ++ n :: more = ns ∧
        c!"--" ∉ more))

theorem ends_nil : ¬EndsWithName [] := by
  rintro ⟨w, h⟩
  cases h

theorem shape_cons {i : Item} {ws : List Str} {ns : List Str} {e e' v : Str} (hi : i.Fine)
    (he : ∀ items, encodingOf e (i :: items) = encodingOf v items) (h : Shape ws ns v e')
    (hd : (∃ w, i = .name w) → ws.head? ≠ some c!"--") : Shape (i.words ++ ws) (namesOf [i] ++ ns) e e' := by
  obtain ⟨items, hf, h1, h2⟩ := h
  have hn : namesOf (i :: items) = namesOf [i] ++ namesOf items := by cases i <;> rfl
  refine ⟨i :: items, ?_, by rw [he, h1], ?_⟩
  · intro j hj
    rcases List.mem_cons.1 hj with rfl | hj
    · exact hi
    · exact hf j hj
  · rw [hn]
    rcases h2 with ⟨rfl, rfl⟩ | ⟨more, h3, rfl, rfl, h4⟩ | ⟨n, more, h3, rfl, rfl, h4⟩
    · exact .inl ⟨rfl, rfl⟩
    · refine .inr (.inl ⟨more, ?_, by simp [wordsOf], by simp, h4⟩)
      refine (endsWithName_cons i ?_).2 h3
      rintro rfl
      exact ends_nil h3
    · refine .inr (.inr ⟨n, more, ?_, by simp [wordsOf], by simp, h4⟩)
      by_cases hne : items = []
      · subst hne
        rintro ⟨w, hw⟩
        exact hd ⟨w, by simpa using hw⟩ rfl
      · exact fun h => h3 ((endsWithName_cons i hne).1 h)

theorem reads_shape {ts : List Tok} {ns : List Str} {e e' : Str} (h : Reads ts ns e e') : ∀ argv : List Str,
    classify argv = .ok ts → Shape argv ns e e' := by
  induction h with
  | @nil e =>
    intro argv hc
    cases argv with
    | nil => exact ⟨[], (fun i hi => nomatch hi), rfl, .inl ⟨rfl, rfl⟩⟩
    | cons w ws =>
      rw [classify] at hc
      split at hc
      · cases hc
      · split at hc
        · obtain ⟨a, _, h2⟩ := ex_map hc; cases h2
        · obtain ⟨a, _, h2⟩ := ex_map hc; cases h2
        · cases hc
  | @name w ts ns e e' hw hd _ ih =>
    intro argv hc
    obtain ⟨w', ws, rfl, h1⟩ := cl_inv hc
    rcases h1 with ⟨_, h, _⟩ | ⟨hw', hp, h, h1⟩ | ⟨_, o, _, h, _⟩
    · cases h
    · cases h
      refine shape_cons (i := .name w) ((plain_iff w hw).1 hp) (fun _ => rfl) (ih ws h1) fun _ => ?_
      intro hh
      cases ws with
      | nil => cases hh
      | cons x xs =>
        cases hh
        rw [cl_dashes] at h1
        cases h1
        exact hd rfl
    · cases h
  | @apart t w v ts ns e e' ha hx _ ih =>
    intro argv hc
    obtain ⟨w', ws, rfl, h1⟩ := cl_inv hc
    rcases h1 with ⟨_, h, _⟩ | ⟨_, _, h, _⟩ | ⟨hw', o, hp, h, h1⟩
    · cases h
    · cases h
    · cases h
      obtain ⟨v', vs, rfl, h2⟩ := cl_inv h1
      rcases h2 with ⟨_, h, _⟩ | ⟨hv', hpv, h, h2⟩ | ⟨_, o, _, h, _⟩
      · cases h
      · cases h
        rcases parse_encoding hw' hp ha with ⟨_, hs⟩ | ⟨p, x, h3, _⟩
        · exact shape_cons (i := .apart w v) ⟨hs, (plain_iff v hv').1 hpv⟩ (fun _ => rfl) (ih vs h2) fun ⟨_, h⟩ => nomatch h
        · rw [hx] at h3; cases h3
      · cases h
  | @joined t w v ts ns e e' ha hx _ ih =>
    intro argv hc
    obtain ⟨w', ws, rfl, h1⟩ := cl_inv hc
    rcases h1 with ⟨_, h, _⟩ | ⟨_, _, h, _⟩ | ⟨hw', o, hp, h, h1⟩
    · cases h
    · cases h
    · cases h
      rcases parse_encoding hw' hp ha with ⟨h3, _⟩ | ⟨p, x, h3, rfl, hs⟩
      · rw [hx] at h3; cases h3
      · rw [hx] at h3
        cases h3
        exact shape_cons (i := .joined p v) hs (fun _ => rfl) (ih ws h1) fun ⟨_, h⟩ => nomatch h
  | @behind w more e hw hm =>
    intro argv hc
    obtain ⟨w', ws, rfl, h1⟩ := cl_inv hc
    rcases h1 with ⟨_, h, _⟩ | ⟨hw', hp, h, h1⟩ | ⟨_, o, _, h, _⟩
    · cases h
    · cases h
      obtain ⟨v', vs, rfl, h2⟩ := cl_inv h1
      rcases h2 with ⟨rfl, _, h⟩ | ⟨_, _, h, _⟩ | ⟨_, o, _, h, _⟩
      · have := map_arg_inj h
        subst this
        refine ⟨[.name w], ?_, rfl, .inr (.inl ⟨more, ⟨w, rfl⟩, rfl, rfl, hm⟩)⟩
        intro i hi
        rw [List.mem_singleton.1 hi]
        exact (plain_iff w hw).1 hp
      · cases h
      · cases h
    · cases h
  | @first w more e hm =>
    intro argv hc
    obtain ⟨w', ws, rfl, h1⟩ := cl_inv hc
    rcases h1 with ⟨rfl, _, h⟩ | ⟨_, _, h, _⟩ | ⟨_, o, _, h, _⟩
    · have := map_arg_inj (a := w :: more) h
      subst this
      exact ⟨[], (fun i hi => nomatch hi), rfl, .inr (.inr ⟨w, more, ends_nil, rfl, rfl, hm⟩)⟩
    · cases h
    · cases h

/-! ## The theorems -/

/-- C99: a tool converts the file `s` to the file `d` with the encoding `e` exactly if its words say so. -/
theorem C99_exact (argv : List Str) (s d e : Str) : parseArgs argv = .convert s d e ↔ Means argv s d e := by
  constructor
  · intro h
    unfold parseArgs at h
    cases hc : classify argv with
    | error x => rw [hc] at h; cases h
    | ok ts =>
      rw [hc] at h
      dsimp only at h
      cases hl : loop (ts.length + 1) ts {} with
      | error x => rw [hl] at h; cases h
      | ok st =>
        rw [hl] at h
        dsimp only at h
        split at h
        · rename_i s' d' hn hx
          cases h
          obtain ⟨ns, h1, h2, _⟩ := reads_run (ts.length + 1) ts {} st (Nat.lt_succ_self _) (cl_sane hc) hl hx
            (by rw [hn]; simp)
          have hns : ns = [s, d] := by
            rw [hn] at h2
            have h2 : [some s, some d] = ns.map some := h2
            rcases ns with _ | ⟨a, _ | ⟨b, _ | ⟨c, r⟩⟩⟩
            · cases h2
            · cases h2
            · cases h2; rfl
            · cases h2
          subst hns
          obtain ⟨items, hf, he, hs⟩ := reads_shape h1 argv hc
          rcases hs with ⟨ha, hm⟩ | ⟨more, hw, ha, hm, hd⟩ | ⟨n, more, hw, ha, hm, hd⟩
          · exact .plain items hf ha hm he
          · exact .behind items more hf hw ha hm hd he
          · exact .first items n more hf hw ha hm hd he
        · cases h
        · cases h
  · intro h
    have key : ∃ ts, classify argv = .ok ts ∧ Reads ts [s, d] c!"utf-8" e := by
      cases h with
      | plain items hf ha hm he =>
        obtain ⟨ts, h1, h2, _⟩ := reads_items items c!"utf-8" e [] [] [] hf rfl (fun _ => by simp) (he ▸ .nil)
        rw [List.append_nil] at h1 h2
        rw [← ha] at h1
        rw [hm] at h2
        exact ⟨ts, h1, h2⟩
      | behind items more hf hw ha hm hd he =>
        obtain ⟨w, hl⟩ := hw
        obtain ⟨init, rfl⟩ : ∃ init, items = init ++ [.name w] := ⟨items.dropLast, by
          have hne : items ≠ [] := by rintro rfl; cases hl
          rw [List.getLast?_eq_some_getLast hne] at hl
          rw [← Option.some.inj hl]
          exact (List.dropLast_concat_getLast hne).symm⟩
        have hp : Plain w := hf (.name w) (by simp)
        have hno : namesOf (init ++ [.name w]) = namesOf init ++ [w] := by
          clear ha hm he hl hf
          induction init with
          | nil => rfl
          | cons i r ih => cases i <;> simp [namesOf, ih]
        have hen : ∀ x, encodingOf x (init ++ [.name w]) = encodingOf x init := by
          clear ha hm he hl hf hno
          induction init with
          | nil => intro x; rfl
          | cons i r ih => intro x; cases i <;> simp [encodingOf, ih]
        have hc : classify (w :: c!"--" :: more) = .ok (.arg w :: .dashes :: more.map .arg) := by
          rw [cl_plain _ hp, cl_dashes]
          rfl
        obtain ⟨ts, h1, h2, _⟩ := reads_items init c!"utf-8" e _ _ (w :: more) (fun i hi => hf i (by simp [hi])) hc
          (fun _ => by simp) (by rw [← he, hen]; exact .behind (plain_not_dashes hp) hd)
        refine ⟨ts, ?_, ?_⟩
        · rw [ha, ← h1]
          simp [wordsOf, Item.words]
        · rw [hno, List.append_assoc] at hm
          rw [← hm]
          exact h2
      | first items n more hf hw ha hm hd he =>
        have hc : classify (c!"--" :: n :: more) = .ok (.dashes :: .arg n :: more.map .arg) := cl_dashes _
        obtain ⟨ts, h1, h2, _⟩ := reads_items items c!"utf-8" e _ _ (n :: more) hf hc (fun h => absurd h hw)
          (by rw [he]; exact .first hd)
        exact ⟨ts, by rw [ha, h1], by rw [← hm]; exact h2⟩
    obtain ⟨ts, hc, hr⟩ := key
    have hl := run_reads hr {} rfl (by simp)
    unfold run at hl
    unfold parseArgs
    rw [hc]
    dsimp only
    rw [hl]
    rfl

/-- C99: at every moment of a run of a tool the files are as they were before, unless its words ask for a conversion,
which is then the one that is being done. -/
theorem C99_files (convert : Str → Option Str) (codec : Str → Codec) (argv : List Str) (fs fs' : FS) (ph : Phase)
    (h : RunsTo convert codec argv fs (fs', ph)) :
    fs' = fs ∨ ∃ s d e, Means argv s d e ∧ Reaches ⟨convert, s, d, codec e⟩ fs (fs', ph) := by
  cases h with
  | exit h => exact .inl rfl
  | typeError h => exact .inl rfl
  | convert h hr => exact .inr ⟨_, _, _, (C99_exact _ _ _ _).1 h, hr⟩

/-- C99: no file but the one that is named as the destination can change. -/
theorem C99_only_destination (convert : Str → Option Str) (codec : Str → Codec) (argv : List Str) (fs fs' : FS) (ph : Phase)
    (h : RunsTo convert codec argv fs (fs', ph)) (p : Str)
    (hp : ∀ s d e, Means argv s d e → p ≠ d ∧ ¬fs.same p d) : fs'.read p = fs.read p := by
  rcases C99_files convert codec argv fs fs' ph h with rfl | ⟨s, d, e, hm, hr⟩
  · rfl
  · have := hp s d e hm
    exact (C49_other_files _ _ _ _ hr p this.1).2 this.2

/-- C99: a command line has one meaning at most. -/
theorem C99_unique {argv : List Str} {s d e s' d' e' : Str} (h : Means argv s d e) (h' : Means argv s' d' e') :
    s = s' ∧ d = d' ∧ e = e' := by
  rw [← C99_exact] at h h'
  rw [h] at h'
  cases h'
  exact ⟨rfl, rfl, rfl⟩

/-- C99: wherever the option stands, it means the same.  (The value may be anything if it is written behind a `=`.) -/
theorem C99_anywhere (a b : List Str) (s d e : Str) (hab : a ++ b = [s, d]) (hs : s.head? ≠ some '-') (hd : d.head? ≠ some '-') :
    parseArgs (a ++ (c!"--encoding=" ++ e) :: b) = .convert s d e ∧
    (e.head? ≠ some '-' → parseArgs (a ++ c!"--encoding" :: e :: b) = .convert s d e) := by
  have hall : ∀ w ∈ a ++ b, Plain w := by
    rw [hab]
    intro w hw
    simp only [List.mem_cons, List.not_mem_nil, or_false] at hw
    rcases hw with rfl | rfl
    · exact .inl hs
    · exact .inl hd
  have hwords : ∀ l : List Str, wordsOf (l.map .name) = l := by
    intro l
    induction l with
    | nil => rfl
    | cons x r ih =>
      show x :: wordsOf (r.map .name) = _
      rw [ih]
  have hnames : ∀ (l : List Str) (items : List Item), namesOf (l.map .name ++ items) = l ++ namesOf items := by
    intro l items
    induction l with
    | nil => rfl
    | cons x r ih => simp [namesOf, ih]
  have henc : ∀ (l : List Str) (items : List Item) (x : Str), encodingOf x (l.map .name ++ items) = encodingOf x items := by
    intro l items x
    induction l with
    | nil => rfl
    | cons y r ih => simp [encodingOf, ih]
  have henc0 : ∀ (l : List Str) (x : Str), encodingOf x (l.map .name) = x := by
    intro l x
    induction l with
    | nil => rfl
    | cons y r ih => simp [encodingOf, ih]
  have hn0 : ∀ l : List Str, namesOf (l.map .name) = l := by
    intro l
    induction l with
    | nil => rfl
    | cons y r ih => simp [namesOf, ih]
  have hshort : Short c!"--encoding" := ⟨⟨c!"ncoding", rfl⟩, List.prefix_refl _⟩
  have hfine : ∀ mid : Item, mid.Fine → ∀ i ∈ a.map Item.name ++ mid :: b.map Item.name, i.Fine := by
    intro mid hm i hi
    rcases List.mem_append.1 hi with hi | hi
    · obtain ⟨w, hw, rfl⟩ := List.mem_map.1 hi
      exact hall w (by simp [hw])
    · rcases List.mem_cons.1 hi with rfl | hi
      · exact hm
      · obtain ⟨w, hw, rfl⟩ := List.mem_map.1 hi
        exact hall w (by simp [hw])
  have hw2 : ∀ mid : Item, wordsOf (a.map Item.name ++ mid :: b.map Item.name) = a ++ (mid.words ++ b) := by
    intro mid
    have := hwords a
    have := hwords b
    unfold wordsOf at *
    simp_all
  constructor
  · rw [C99_exact]
    refine Means.plain (a.map Item.name ++ Item.joined c!"--encoding" e :: b.map Item.name) (hfine (.joined _ e) hshort)
      (hw2 (.joined c!"--encoding" e)).symm ?_ ?_
    · rw [hnames]; show a ++ namesOf (b.map .name) = _; rw [hn0, hab]
    · rw [henc]; exact henc0 b e
  · intro he
    rw [C99_exact]
    refine Means.plain (a.map Item.name ++ Item.apart c!"--encoding" e :: b.map Item.name) (hfine (.apart _ e) ⟨hshort, .inl he⟩)
      (hw2 (.apart c!"--encoding" e)).symm ?_ ?_
    · rw [hnames]; show a ++ namesOf (b.map .name) = _; rw [hn0, hab]
    · rw [henc]; exact henc0 b e

/-- C99: behind a `--` every name is a file name, even one that looks like an option; only the destination cannot be
called `--`. -/
theorem C99_dashes (s d : Str) : (d ≠ c!"--" → parseArgs [c!"--", s, d] = .convert s d c!"utf-8") ∧
    parseArgs [c!"--", s, c!"--"] = .typeError := by
  refine ⟨fun hd => ?_, ?_⟩
  · rw [C99_exact]
    exact .first [] s [d] (fun i hi => nomatch hi) ends_nil rfl rfl (by simpa using fun e => hd e.symm) rfl
  · unfold parseArgs
    rw [cl_dashes]
    dsimp only
    have key : loop ((Tok.dashes :: [s, c!"--"].map .arg).length + 1) (Tok.dashes :: [s, c!"--"].map .arg) {} =
      .ok { names := [some s, none] } := ?_
    · rw [key]
    rw [show (Tok.dashes :: [s, c!"--"].map .arg) = .dashes :: .arg s :: [c!"--"].map .arg from rfl]
    show run _ _ = _
    rw [run_final (by simp [Tok.isOpt])]
    unfold final
    have hg : getValue [c!"--", s] = some s := by
      unfold getValue
      rw [List.erase_cons_head]
    rw [show 2 - (({} : CliArgs.St).names.length) = 1 + 1 from rfl, consumePositionals, takeOne_first]
    dsimp only
    rw [consume_args [c!"--"] 1 _ (by decide), hg]
    rfl

/-- two names, and the encoding given twice: the last one counts -/
example : parseArgs [c!"--enc", c!"latin1", c!"a b.txt", c!"--encoding=x=y", c!"-5"] = .convert c!"a b.txt" c!"-5" c!"x=y" := by
  decide +kernel

/-- these change nothing -/
example : parseArgs [] = .exit .usage ∧ parseArgs [c!"a"] = .exit .usage ∧ parseArgs [c!"a", c!"b", c!"c"] = .exit .usage ∧
    parseArgs [c!"a", c!"b", c!"--foo"] = .exit .usage ∧ parseArgs [c!"a", c!"b", c!"--encoding"] = .exit .usage ∧
    parseArgs [c!"a", c!"b", c!"c", c!"--vers"] = .exit .version ∧ parseArgs [c!"-hx"] = .exit .help ∧
    parseArgs [c!"a", c!"--encoding=u", c!"b", c!"--encoding=v", c!"--"] = .exit .usage := by
  decide +kernel

/-- the words of a real command line, and its parts -/
example : Means [c!"README.creole", c!"--encoding", c!"latin1", c!"out.html"] c!"README.creole" c!"out.html" c!"latin1" :=
  (C99_exact _ _ _ _).1 ((C99_anywhere [c!"README.creole"] [c!"out.html"] _ _ _ rfl (by decide) (by decide)).2 (by decide))

end Verif.Props
