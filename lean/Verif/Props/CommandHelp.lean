import Verif.Props.CommandLine

/-!
# C99: when a command line tool ends without an error and without a conversion
-/

namespace Verif.Props

open Verif Py Tools CliArgs Spec.Cmd

/-- an entry that ends the program without an error -/
def EndsWell (e : Exit) (t : OptTup) : Prop :=
  ∃ a, t.action = some a ∧ ((a = .help ∧ e = .help) ∨ (a = .version ∧ e = .version) ∨ (a = .version ∧ e = .help)) ∧
    (t.explicit = none ∧ (a = .version → e = .version) ∨
      ((t.name.drop 1).head? ≠ some '-' ∧ t.sep = false ∧ ∃ x, t.explicit = some x ∧ x ≠ []))

theorem shortTail_cases (x : Str) : shortTail x = .help ∨ shortTail x = .usage := by
  fun_induction shortTail x <;> simp_all

theorem consumeOptional_error {t : OptTup} {w : Str} {rest : List Tok} {st : CliArgs.St} {e : Exit}
    (h : consumeOptional t w rest st = .error e) : e = .usage ∨ EndsWell e t := by
  obtain ⟨action, name, sep, explicit⟩ := t
  unfold consumeOptional at h
  dsimp only at h
  cases action with
  | none => cases h
  | some a =>
    cases a with
    | encoding =>
      dsimp only at h
      split at h
      · cases h
      · split at h
        · cases h
        · cases h; exact .inl rfl
    | help =>
      dsimp only at h
      split at h
      · cases h
        exact .inr ⟨.help, rfl, .inl ⟨rfl, rfl⟩, .inl ⟨rfl, fun h => absurd h (by decide)⟩⟩
      · split at h
        · next hx =>
          split at h
          · cases h; exact .inl rfl
          · next hs =>
            cases h
            rcases shortTail_cases _ with hx' | hx'
            · refine .inr ⟨.help, rfl, .inl ⟨rfl, hx'⟩, .inr ⟨hx.1, by simpa using hs, _, rfl, hx.2⟩⟩
            · exact .inl hx'
        · cases h; exact .inl rfl
    | version =>
      dsimp only at h
      split at h
      · cases h
        exact .inr ⟨.version, rfl, .inr (.inl ⟨rfl, rfl⟩), .inl ⟨rfl, fun _ => rfl⟩⟩
      · split at h
        · next hx =>
          split at h
          · cases h; exact .inl rfl
          · next hs =>
            cases h
            rcases shortTail_cases _ with hx' | hx'
            · refine .inr ⟨.version, rfl, .inr (.inr ⟨rfl, hx'⟩), .inr ⟨hx.1, by simpa using hs, _, rfl, hx.2⟩⟩
            · exact .inl hx'
        · cases h; exact .inl rfl

/-- what is left are entries from the end -/
theorem consumeOptional_suffix {t : OptTup} {w : Str} {rest : List Tok} {st : CliArgs.St} {r : List Tok × CliArgs.St}
    (h : consumeOptional t w rest st = .ok r) : ∀ x ∈ r.1, x ∈ rest := by
  unfold consumeOptional at h
  split at h
  · cases h; exact fun x hx => hx
  · split at h
    · cases h; exact fun x hx => hx
    · split at h
      · cases h; exact fun x hx => List.mem_cons_of_mem _ hx
      · cases h
  · split at h
    · cases h
    · split at h
      · split at h <;> cases h
      · cases h

theorem consumePositionals_mem (n : Nat) : ∀ (ts : List Tok) (st : CliArgs.St), ∀ x ∈ (consumePositionals n ts st).1, x ∈ ts := by
  induction n with
  | zero => intro ts st x hx; exact hx
  | succ n ih =>
    intro ts st x hx
    rw [consumePositionals] at hx
    split at hx
    · exact hx
    · next slice rest h =>
      have h2 := ih _ _ x hx
      unfold takeOne at h
      split at h
      · next w rest' hd =>
        cases h
        have h3 := (List.dropWhile_suffix _).subset h2
        have : x ∈ ts.dropWhile Tok.isDashes := by rw [hd]; exact List.mem_cons_of_mem _ h3
        exact (List.dropWhile_suffix _).subset this
      · cases h

theorem ex_bind_error {α β : Type} {x : Except Exit α} {f : α → Except Exit β} {e : Exit} (h : x.bind f = .error e) :
    x = .error e ∨ ∃ a, x = .ok a ∧ f a = .error e := by
  cases x with
  | error e' => cases h; exact .inl rfl
  | ok a => exact .inr ⟨a, rfl, h⟩

theorem loop_error (fuel : Nat) : ∀ (ts : List Tok) (st : CliArgs.St) (e : Exit), loop fuel ts st = .error e →
    e = .usage ∨ ∃ t w, .opt t w ∈ ts ∧ EndsWell e t := by
  induction fuel with
  | zero => intro ts st e h; cases h; exact .inl rfl
  | succ fuel ih =>
    intro ts st e h
    rw [loop.eq_def] at h
    dsimp only at h
    have step : ∀ (t : OptTup) (w : Str) (rest : List Tok) (st : CliArgs.St), (∀ x ∈ Tok.opt t w :: rest, x ∈ ts) →
        ((consumeOptional t w rest st).bind fun r => loop fuel r.1 r.2) = .error e →
        e = .usage ∨ ∃ t w, .opt t w ∈ ts ∧ EndsWell e t := by
      intro t w rest st hsub h
      rcases ex_bind_error h with h | ⟨r, h1, h2⟩
      · rcases consumeOptional_error h with h | h
        · exact .inl h
        · exact .inr ⟨t, w, hsub _ List.mem_cons_self, h⟩
      · rcases ih _ _ _ h2 with h | ⟨t', w', h3, h4⟩
        · exact .inl h
        · exact .inr ⟨t', w', hsub _ (List.mem_cons_of_mem _ (consumeOptional_suffix h1 _ h3)), h4⟩
    split at h
    · split at h
      · exact step _ _ _ _ (fun x hx => hx) h
      · split at h
        · rcases ih _ _ _ h with h | ⟨t', w', h3, h4⟩
          · exact .inl h
          · exact .inr ⟨t', w', consumePositionals_mem _ _ _ _ h3, h4⟩
        · split at h
          · next t w rest hd =>
            refine step _ _ _ _ (fun x hx => ?_) h
            rw [← hd] at hx
            exact (List.dropWhile_suffix _).subset hx
          · cases h
    · cases h

/-- the options come from words that are no `--` -/
theorem cl_mem {argv : List Str} {ts : List Tok} (h : classify argv = .ok ts) {t : OptTup} {w : Str} (hm : .opt t w ∈ ts) :
    w ∈ argv.takeWhile (· ≠ c!"--") ∧ parseOptional w = .option t := by
  induction argv generalizing ts with
  | nil => cases h; cases hm
  | cons v ws ih =>
    cases ts with
    | nil => cases hm
    | cons t' ts =>
      obtain ⟨w', ws', he, h1⟩ := cl_inv h
      obtain ⟨rfl, rfl⟩ := List.cons.inj he
      rcases h1 with ⟨_, rfl, rfl⟩ | ⟨hw, _, rfl, h1⟩ | ⟨hw, o, ho, rfl, h1⟩
      · rcases List.mem_cons.mp hm with hm | hm
        · cases hm
        · obtain ⟨_, _, h⟩ := List.mem_map.mp hm
          cases h
      · rw [List.takeWhile_cons, if_pos (by simpa using hw)]
        rcases List.mem_cons.mp hm with hm | hm
        · cases hm
        · exact ⟨List.mem_cons_of_mem _ (ih h1 hm).1, (ih h1 hm).2⟩
      · rw [List.takeWhile_cons, if_pos (by simpa using hw)]
        rcases List.mem_cons.mp hm with hm | hm
        · cases hm; exact ⟨List.mem_cons_self, ho⟩
        · exact ⟨List.mem_cons_of_mem _ (ih h1 hm).1, (ih h1 hm).2⟩

theorem opt_lookup {w : Str} {a : Act} (h : optionStrings.lookup w = some a) : (w, a) ∈ optionStrings := by
  have : ∀ l : List (Str × Act), l.lookup w = some a → (w, a) ∈ l := by
    intro l
    induction l with
    | nil => intro h; cases h
    | cons x l ih =>
      obtain ⟨k, b⟩ := x
      intro h
      rw [List.lookup_cons] at h
      split at h
      · next hk => cases h; rw [eq_of_beq hk]; exact List.mem_cons_self
      · exact List.mem_cons_of_mem _ (ih h)
  exact this _ h

theorem opt_cases {w : Str} {a : Act} (h : (w, a) ∈ optionStrings) :
    (w = c!"-h" ∧ a = .help) ∨ (w = c!"--help" ∧ a = .help) ∨ (w = c!"--version" ∧ a = .version) ∨ (w = c!"--encoding" ∧ a = .encoding) := by
  simpa [optionStrings] using h

/-- a word that ends the program without an error asks for that -/
theorem word_asks {w : Str} {t : OptTup} {e : Exit} (hw : w ≠ c!"--") (hp : parseOptional w = .option t) (he : EndsWell e t) :
    (e = .help ∧ AsksHelp w) ∨ (e = .version ∧ AsksVersion w) := by
  obtain ⟨a, ha, h1, h2⟩ := he
  unfold parseOptional at hp
  split at hp
  · cases hp
  next hd =>
  split at hp
  · next b hl =>
    cases hp
    cases ha
    rcases opt_cases (opt_lookup hl) with ⟨rfl, rfl⟩ | ⟨rfl, rfl⟩ | ⟨rfl, rfl⟩ | ⟨rfl, rfl⟩
    · rcases h1 with h | h | h
      · exact .inl ⟨h.2, .inl (by decide)⟩
      · cases h.1
      · cases h.1
    · rcases h1 with h | h | h
      · exact .inl ⟨h.2, .inr (by decide)⟩
      · cases h.1
      · cases h.1
    · rcases h1 with h | h | h
      · cases h.1
      · exact .inr ⟨h.2, by decide, by decide⟩
      · rcases h2 with h2 | h2
        · have := h2.2 rfl; rw [h.2] at this; cases this
        · exact absurd rfl h2.1
    · rcases h1 with h | h | h <;> cases h.1
  · next hl =>
    split at hp
    · cases hp
    next hlen =>
    dsimp only at hp
    have hab : (match optionTuples w with
        | [t] => Word.option t
        | _ :: _ :: _ => .ambiguous
        | [] => if negNumber w then .positional else if w.contains ' ' then .positional else .option ⟨none, w, false, none⟩) = .option t := by
      split at hp
      · next p x hs =>
        split at hp
        · next b hb =>
          cases hp
          rcases h2 with ⟨h, _⟩ | ⟨_, h, _⟩
          · cases h
          · cases h
        · exact hp
      · exact hp
    clear hp
    obtain ⟨c1, r, rfl⟩ : ∃ c1 r, w = '-' :: c1 :: r := by
      match w, hd, hlen with
      | [], hd, _ => exact absurd (by simp) hd
      | [c], _, hlen => exact absurd rfl hlen
      | c :: c1 :: r, hd, _ =>
        refine ⟨c1, r, ?_⟩
        have : c = '-' := by simpa using hd
        rw [this]
    split at hab
    · next t' ht =>
      cases hab
      have hmem : t ∈ optionTuples ('-' :: c1 :: r) := by rw [ht]; exact List.mem_singleton.mpr rfl
      clear ht
      unfold optionTuples at hmem
      split at hmem
      · next hc1 =>
        have hc1 : c1 = '-' := by simpa using hc1
        subst hc1
        have hr : r ≠ [] := fun h => hw (by rw [h])
        split at hmem
        · next p x hs =>
          obtain ⟨o, ho, rfl⟩ := List.mem_map.mp hmem
          cases ha
          rcases h2 with ⟨h, _⟩ | ⟨_, h, _⟩
          · cases h
          · cases h
        · next hs =>
          obtain ⟨o, ho, rfl⟩ := List.mem_map.mp hmem
          obtain ⟨ho1, ho2⟩ := List.mem_filter.mp ho
          have hpre : '-' :: '-' :: r <+: o.1 := List.isPrefixOf_iff_prefix.mp ho2
          cases ha
          obtain ⟨c, r', rfl⟩ : ∃ c r', r = c :: r' := by
            cases r with
            | nil => exact absurd rfl hr
            | cons c r' => exact ⟨c, r', rfl⟩
          rcases opt_cases (w := o.1) (a := o.2) ho1 with ⟨e1, e2⟩ | ⟨e1, e2⟩ | ⟨e1, e2⟩ | ⟨e1, e2⟩
          · rw [e1] at hpre
            have := hpre.length_le
            simp at this
          · rw [e1] at hpre
            rw [e2] at h1
            rcases h1 with h | h | h
            · refine .inl ⟨h.2, .inr ⟨?_, hpre⟩⟩
              obtain ⟨z, hz⟩ := hpre
              simp only [List.cons_append, List.cons.injEq] at hz
              rw [hz.2.2.1]
              exact ⟨r', rfl⟩
            · cases h.1
            · cases h.1
          · rw [e1] at hpre
            rw [e2] at h1
            rcases h1 with h | h | h
            · cases h.1
            · refine .inr ⟨h.2, ?_, hpre⟩
              obtain ⟨z, hz⟩ := hpre
              simp only [List.cons_append, List.cons.injEq] at hz
              rw [hz.2.2.1]
              exact ⟨r', rfl⟩
            · rcases h2 with h2 | h2
              · have := h2.2 e2; rw [h.2] at this; cases this
              · obtain ⟨_, _, x, hx, _⟩ := h2
                cases hx
          · rw [e2] at h1
            rcases h1 with h | h | h <;> cases h.1
      · next hc1 =>
        obtain ⟨o, ho, ho2⟩ := List.mem_filterMap.mp hmem
        have hc1 : c1 ≠ '-' := by simpa using hc1
        have key : (o.1 = c!"-h" → '-' :: c1 :: r = c!"-h" ++ r ∨ '-' :: c1 :: r = c!"-h") ∧ o.1 = c!"-h" ∧ t.action = some o.2 := by
          split at ho2
          · next h =>
            cases ho2
            rcases opt_cases (w := o.1) (a := o.2) ho with ⟨e1, e2⟩ | ⟨e1, e2⟩ | ⟨e1, e2⟩ | ⟨e1, e2⟩
            · rw [e1] at h
              refine ⟨fun _ => ?_, e1, rfl⟩
              simp only [List.take_succ_cons, List.take_zero, List.cons.injEq, and_true, true_and] at h
              rw [← h]; exact .inl rfl
            all_goals rw [e1] at h; have := congrArg List.length h; simp at this
          · split at ho2
            · next h =>
              cases ho2
              have hpre : '-' :: c1 :: r <+: o.1 := List.isPrefixOf_iff_prefix.mp h
              rcases opt_cases (w := o.1) (a := o.2) ho with ⟨e1, e2⟩ | ⟨e1, e2⟩ | ⟨e1, e2⟩ | ⟨e1, e2⟩
              · refine ⟨fun _ => .inr ?_, e1, rfl⟩
                rw [e1] at hpre
                exact hpre.eq_of_length_le (by simp)
              all_goals
                rw [e1] at hpre
                obtain ⟨z, hz⟩ := hpre
                simp only [List.cons_append, List.cons.injEq] at hz
                exact absurd hz.2.1 hc1
            · cases ho2
        obtain ⟨k1, k2, k3⟩ := key
        have e2 : o.2 = .help := by
          rcases opt_cases (w := o.1) (a := o.2) ho with ⟨e1, e2⟩ | ⟨e1, e2⟩ | ⟨e1, e2⟩ | ⟨e1, e2⟩
          · exact e2
          all_goals rw [k2] at e1; exact absurd e1 (by decide)
        rw [k3, e2] at ha
        cases ha
        rcases h1 with h | h | h
        · refine .inl ⟨h.2, .inl ?_⟩
          rcases k1 k2 with h | h
          · rw [h]; exact ⟨r, rfl⟩
          · rw [h]; exact List.prefix_refl _
        · cases h.1
        · cases h.1
    · cases hab
    · split at hab
      · cases hab
      · split at hab
        · cases hab
        · cases hab
          cases ha

/-- **C99** (nothing is skipped silently). A tool ends without an error and without a conversion only if a word before any `--`
asks for the help text or the version, and prints what it is asked for. With every other command line it converts, or fails. -/
theorem C99_help (argv : List Str) : (parseArgs argv = .exit .help → ∃ w ∈ argv.takeWhile (· ≠ c!"--"), AsksHelp w) ∧
    (parseArgs argv = .exit .version → ∃ w ∈ argv.takeWhile (· ≠ c!"--"), AsksVersion w) := by
  have key : ∀ e, parseArgs argv = .exit e → e ≠ .usage →
      ∃ w ∈ argv.takeWhile (· ≠ c!"--"), (e = .help ∧ AsksHelp w) ∨ (e = .version ∧ AsksVersion w) := by
    intro e h hu
    unfold parseArgs at h
    split at h
    · next e' hc =>
      cases h
      exfalso
      have : ∀ (argv : List Str), classify argv = .error e → e = .usage := by
        intro argv
        induction argv with
        | nil => intro h; cases h
        | cons w ws ih =>
          intro h
          rw [classify] at h
          split at h
          · cases h
          · split at h
            · cases hx : classify ws with
              | error e' => rw [hx] at h; cases h; exact ih hx
              | ok ts => rw [hx] at h; cases h
            · cases hx : classify ws with
              | error e' => rw [hx] at h; cases h; exact ih hx
              | ok ts => rw [hx] at h; cases h
            · cases h; rfl
      exact hu (this _ hc)
    · next ts hc =>
      split at h
      · next e' hl =>
        cases h
        rcases loop_error _ _ _ _ hl with h | ⟨t, w, h1, h2⟩
        · exact absurd h hu
        · obtain ⟨h3, h4⟩ := cl_mem hc h1
          refine ⟨w, h3, word_asks ?_ h4 h2⟩
          rintro rfl
          have : ∀ l : List Str, c!"--" ∉ l.takeWhile (· ≠ c!"--") := by
            intro l
            induction l with
            | nil => simp
            | cons x l ih =>
              rw [List.takeWhile_cons]
              split
              · next hx =>
                intro hm
                rcases List.mem_cons.mp hm with rfl | hm
                · exact absurd hx (by decide)
                · exact ih hm
              · simp
          exact this _ h3
      · split at h
        · cases h
        · cases h
        · cases h; exact absurd rfl hu
  constructor
  · intro h
    obtain ⟨w, h1, h2⟩ := key _ h (by decide)
    rcases h2 with h2 | h2
    · exact ⟨w, h1, h2.2⟩
    · cases h2.1
  · intro h
    obtain ⟨w, h1, h2⟩ := key _ h (by decide)
    rcases h2 with h2 | h2
    · cases h2.1
    · exact ⟨w, h1, h2.2⟩

/-- the hypotheses can be met, and a `--help` behind `--` is a file name -/
example : parseArgs [c!"a", c!"--e", c!"x", c!"-hv", c!"b"] = .exit .help ∧ parseArgs [c!"--vers"] = .exit .version ∧
    parseArgs [c!"a", c!"--", c!"--help"] = .convert c!"a" c!"--help" c!"utf-8" ∧ parseArgs [c!"--help=x"] = .exit .usage := by
  decide +kernel

/-- only `--=` and what follows could be several options -/
theorem parse_unclear {w : Str} (hw : w ≠ c!"--") (h : parseOptional w = .ambiguous) : c!"--=" <+: w := by
  have hother : ∀ w, otherwise w ≠ .ambiguous := by
    intro w h
    unfold otherwise at h
    split at h
    · cases h
    · split at h <;> cases h
  have hlong : ∀ p x w, longOption p x (otherwise w) = .ambiguous → p = [] := by
    intro p x w h
    unfold longOption at h
    split at h
    · assumption
    · split at h
      · cases h
      · split at h
        · cases h
        · split at h
          · cases h
          · exact absurd h (hother w)
  cases w with
  | nil => exact absurd h (by decide)
  | cons c0 w =>
    by_cases h0 : c0 = '-'
    · subst h0
      cases w with
      | nil => exact absurd h (by decide)
      | cons c r =>
        by_cases h1 : c = '-'
        · subst h1
          have hq : r ≠ [] := by rintro rfl; exact hw rfl
          rw [parse_long r hq] at h
          split at h
          · next p x hs =>
            have hp := hlong _ _ _ h
            subst hp
            have := splitOnce_some hs
            cases r with
            | nil => exact absurd rfl hq
            | cons c r =>
              by_cases hc : c = '='
              · subst hc; exact ⟨r, rfl⟩
              · have h1 := this.1
                rw [List.takeWhile_cons, if_pos (by simpa using hc)] at h1
                cases h1
          · exact absurd (hlong _ _ _ h) hq
        · by_cases h2 : c = 'h'
          · subst h2
            obtain ⟨t, ht, _⟩ := parse_h r
            rw [ht] at h
            cases h
          · rw [parse_short c r h1 h2] at h
            exact absurd h (hother _)
    · unfold parseOptional at h
      rw [if_pos (by simpa using h0)] at h
      cases h

theorem classify_clear : ∀ ws : List Str, (∀ v ∈ ws.takeWhile (· ≠ c!"--"), ¬c!"--=" <+: v) → ∃ ts, classify ws = .ok ts
  | [], _ => ⟨[], rfl⟩
  | w :: ws, h => by
    rw [classify]
    by_cases hw : w = c!"--"
    · exact ⟨_, by rw [if_pos hw]⟩
    · rw [if_neg hw]
      rw [List.takeWhile_cons, if_pos (by simpa using hw)] at h
      obtain ⟨ts, hts⟩ := classify_clear ws fun v hv => h v (List.mem_cons_of_mem _ hv)
      rw [hts]
      cases hp : parseOptional w with
      | positional => exact ⟨_, rfl⟩
      | option t => exact ⟨_, rfl⟩
      | ambiguous => exact absurd (parse_unclear hw hp) (h w List.mem_cons_self)

theorem first_word {w : Str} {ws : List Str} {a : Act} {name : Str} (hw : w ≠ c!"--") (ha : a ≠ .encoding)
    (hp : parseOptional w = .option ⟨some a, name, false, none⟩) (h : ∀ v ∈ ws.takeWhile (· ≠ c!"--"), ¬c!"--=" <+: v) :
    parseArgs (w :: ws) = .exit (if a = .version then .version else .help) := by
  obtain ⟨ts, hts⟩ := classify_clear ws h
  have hc : classify (w :: ws) = .ok (.opt ⟨some a, name, false, none⟩ w :: ts) := by
    rw [classify, if_neg hw, hp, hts]
    rfl
  rw [parseArgs, hc]
  dsimp only
  rw [loop.eq_def]
  dsimp only
  rw [if_pos (by simp [Tok.isOpt])]
  cases a with
  | encoding => exact absurd rfl ha
  | help => rfl
  | version => rfl

/-- **C99**: a tool whose first argument asks for the help text or for the version prints it and ends, unless one of the other
words before any `--` begins with `--=` (which is an error). -/
theorem C99_help_first (w : Str) (ws : List Str) (h : ∀ v ∈ ws.takeWhile (· ≠ c!"--"), ¬c!"--=" <+: v) :
    (w = c!"-h" ∨ (c!"--h" <+: w ∧ w <+: c!"--help") → parseArgs (w :: ws) = .exit .help) ∧
    (AsksVersion w → parseArgs (w :: ws) = .exit .version) := by
  have hcases : ∀ (full : Str), w <+: full → w ∈ (List.range (full.length + 1)).map full.take := by
    intro full h
    rw [List.prefix_iff_eq_take.mp h]
    exact List.mem_map_of_mem (List.mem_range.mpr (Nat.lt_succ_of_le h.length_le))
  constructor
  · rintro (rfl | ⟨h1, h2⟩)
    · exact first_word (a := .help) (name := c!"-h") (by decide) (by decide) (by decide) h
    · have hm := hcases _ h2
      rw [show (List.range ((c!"--help").length + 1)).map (c!"--help").take =
        [c!"", c!"-", c!"--", c!"--h", c!"--he", c!"--hel", c!"--help"] from by decide] at hm
      simp only [List.mem_cons, List.not_mem_nil, or_false] at hm
      rcases hm with rfl | rfl | rfl | rfl | rfl | rfl | rfl
      · exact absurd h1 (by decide)
      · exact absurd h1 (by decide)
      · exact absurd h1 (by decide)
      all_goals exact first_word (a := .help) (name := c!"--help") (by decide) (by decide) (by decide) h
  · rintro ⟨h1, h2⟩
    have hm := hcases _ h2
    rw [show (List.range ((c!"--version").length + 1)).map (c!"--version").take =
      [c!"", c!"-", c!"--", c!"--v", c!"--ve", c!"--ver", c!"--vers", c!"--versi", c!"--versio", c!"--version"] from by decide] at hm
    simp only [List.mem_cons, List.not_mem_nil, or_false] at hm
    rcases hm with rfl | rfl | rfl | rfl | rfl | rfl | rfl | rfl | rfl | rfl
    · exact absurd h1 (by decide)
    · exact absurd h1 (by decide)
    · exact absurd h1 (by decide)
    all_goals exact first_word (a := .version) (name := c!"--version") (by decide) (by decide) (by decide) h

example : parseArgs [c!"--he", c!"a", c!"--nothing"] = .exit .help ∧ parseArgs [c!"--v", c!"--", c!"--="] = .exit .version ∧
    parseArgs [c!"-h", c!"--="] = .exit .usage := by
  decide +kernel

end Verif.Props
