import Verif.Tools.CliArgs
import Verif.Spec.CommandLine

/-!
# What a word of the command line is
-/

namespace Verif.CliArgs

open Verif Py Spec.Cmd

theorem splitOnce_none {w : Str} (h : splitOnce '=' w = none) : w.takeWhile (· ≠ '=') = w ∧ '=' ∉ w := by
  induction w with
  | nil => simp
  | cons c r ih =>
    unfold splitOnce at h
    split at h
    · cases h
    · rename_i hc
      have hc' : c ≠ '=' := by simpa using hc
      have hr : splitOnce '=' r = none := by simpa using h
      have := ih hr
      refine ⟨?_, ?_⟩
      · rw [List.takeWhile_cons, if_pos (by simp [hc']), this.1]
      · intro hm
        rcases List.mem_cons.1 hm with h | h
        · exact hc' h.symm
        · exact this.2 h

theorem splitOnce_some {w p x : Str} (h : splitOnce '=' w = some (p, x)) :
    w.takeWhile (· ≠ '=') = p ∧ w = p ++ '=' :: x ∧ '=' ∉ p := by
  induction w generalizing p with
  | nil => cases h
  | cons c r ih =>
    unfold splitOnce at h
    split at h
    · rename_i hc
      have hc' : c = '=' := by simpa using hc
      cases h
      subst hc'
      simp
    · rename_i hc
      have hc' : c ≠ '=' := by simpa using hc
      cases hr : splitOnce '=' r with
      | none => rw [hr] at h; cases h
      | some q =>
        rw [hr] at h
        obtain ⟨a, b⟩ := q
        simp only [Option.map_some, Option.some.injEq, Prod.mk.injEq] at h
        obtain ⟨rfl, rfl⟩ := h
        have := ih hr
        refine ⟨?_, ?_, ?_⟩
        · rw [List.takeWhile_cons, if_pos (by simp [hc']), this.1]
        · rw [List.cons_append, ← this.2.1]
        · intro hm
          rcases List.mem_cons.1 hm with h | h
          · exact hc' h.symm
          · exact this.2.2 h

theorem splitOnce_app {p x : Str} (h : '=' ∉ p) : splitOnce '=' (p ++ '=' :: x) = some (p, x) := by
  induction p with
  | nil => simp [splitOnce]
  | cons c r ih =>
    have hc : c ≠ '=' := fun e => h (by simp [e])
    have hr : '=' ∉ r := fun e => h (by simp [e])
    rw [List.cons_append, splitOnce, if_neg (by simpa using hc), ih hr]
    rfl

theorem splitOnce_not {p : Str} (h : '=' ∉ p) : splitOnce '=' p = none := by
  cases hs : splitOnce '=' p with
  | none => rfl
  | some q =>
    obtain ⟨a, b⟩ := q
    have := (splitOnce_some hs).2.1
    exact absurd (this ▸ by simp) h

/-! ## Negative numbers -/

theorem takeWhile_digits (s : Str) : Digits (s.takeWhile fun c => (Py.decimal? c).isSome) := by
  intro c hc
  have := List.all_takeWhile (l := s) (p := fun c => (Py.decimal? c).isSome)
  exact List.all_eq_true.1 this c hc

theorem dropWhile_all {p : Char → Bool} {a b : Str} (h : ∀ c ∈ a, p c = true) : (a ++ b).dropWhile p = b.dropWhile p := by
  induction a with
  | nil => rfl
  | cons c r ih =>
    rw [List.cons_append, List.dropWhile_cons, if_pos (h c (by simp)), ih fun d hd => h d (by simp [hd])]

theorem digitsEnd_iff (s : Str) : digitsEnd s = true ↔ ∃ a nl : Str, (nl = [] ∨ nl = ['\n']) ∧ Digits a ∧ a ≠ [] ∧ s = a ++ nl := by
  have hsp : s = s.takeWhile (fun c => (Py.decimal? c).isSome) ++ s.dropWhile (fun c => (Py.decimal? c).isSome) :=
    (List.takeWhile_append_dropWhile).symm
  constructor
  · intro h
    simp only [digitsEnd, Bool.and_eq_true, decide_eq_true_eq, Bool.or_eq_true, beq_iff_eq] at h
    refine ⟨s.takeWhile (fun c => (Py.decimal? c).isSome), s.dropWhile (fun c => (Py.decimal? c).isSome), h.2, ?_, ?_, hsp⟩
    · exact takeWhile_digits s
    · intro he
      have := congrArg List.length hsp
      rw [he] at this
      simp at this
      omega
  · rintro ⟨a, nl, hnl, ha, hne, rfl⟩
    have : (a ++ nl).dropWhile (fun c => (Py.decimal? c).isSome) = nl := by
      rw [dropWhile_all ha]
      rcases hnl with rfl | rfl
      · rfl
      · decide
    unfold digitsEnd
    rw [this]
    have hl : 0 < a.length := List.length_pos_iff.2 hne
    rcases hnl with rfl | rfl <;> simp [hl]

theorem negNumber_iff (w : Str) : negNumber w = true ↔ NegativeNumber w := by
  constructor
  · intro h
    unfold negNumber at h
    split at h
    · rename_i s
      rcases Bool.or_eq_true_iff.1 h with h | h
      · obtain ⟨a, nl, h1, h2, h3, rfl⟩ := (digitsEnd_iff s).1 h
        exact ⟨a, [], nl, h1, h2, (fun c hc => nomatch hc), .inl ⟨h3, rfl⟩⟩
      · split at h
        · rename_i t heq
          obtain ⟨b, nl, h1, h2, h3, rfl⟩ := (digitsEnd_iff t).1 h
          have hsp : s = s.takeWhile (fun c => (Py.decimal? c).isSome) ++ s.dropWhile (fun c => (Py.decimal? c).isSome) :=
            (List.takeWhile_append_dropWhile).symm
          rw [heq] at hsp
          refine ⟨s.takeWhile (fun c => (Py.decimal? c).isSome), b, nl, h1, takeWhile_digits s, h2, .inr ⟨h3, ?_⟩⟩
          rw [List.cons_append, List.cons_append, List.append_assoc]
          exact congrArg _ hsp
        · cases h
    · cases h
  · rintro ⟨a, b, nl, h1, h2, h3, h⟩
    rcases h with ⟨h4, rfl⟩ | ⟨h4, rfl⟩
    · rw [List.cons_append, negNumber, Bool.or_eq_true_iff]
      exact .inl ((digitsEnd_iff _).2 ⟨a, nl, h1, h2, h4, rfl⟩)
    · rw [List.cons_append, List.cons_append, List.append_assoc, negNumber, Bool.or_eq_true_iff]
      refine .inr ?_
      rw [dropWhile_all h2, List.cons_append, List.dropWhile_cons, if_neg (by decide)]
      exact (digitsEnd_iff _).2 ⟨b, nl, h1, h3, h4, rfl⟩

/-! ## Options -/

/-- the name of the long option with this beginning -/
theorem long_prefix {q : Str} (h : q <+: c!"encoding") (hq : q ≠ []) : ¬q <+: c!"help" ∧ ¬q <+: c!"version" := by
  cases q with
  | nil => exact absurd rfl hq
  | cons c r =>
    have h1 : c = 'e' := (List.cons_prefix_cons.1 h).1
    subst h1
    exact ⟨fun h => absurd (List.cons_prefix_cons.1 h).1 (by decide), fun h => absurd (List.cons_prefix_cons.1 h).1 (by decide)⟩

theorem isPre {a b : Str} : a.isPrefixOf b = true ↔ a <+: b := List.isPrefixOf_iff_prefix

/-- the abbreviations of a word that begins with two dashes -/
theorem filter_long (q : Str) : optionStrings.filter (fun o => (('-' :: '-' :: q : Str)).isPrefixOf o.1) =
    (if q.isPrefixOf c!"help" then [(c!"--help", Act.help)] else []) ++
    ((if q.isPrefixOf c!"version" then [(c!"--version", Act.version)] else []) ++
    (if q.isPrefixOf c!"encoding" then [(c!"--encoding", Act.encoding)] else [])) := by
  have e1 : (('-' :: '-' :: q : Str)).isPrefixOf c!"-h" = false := rfl
  have e2 : (('-' :: '-' :: q : Str)).isPrefixOf c!"--help" = q.isPrefixOf c!"help" := rfl
  have e3 : (('-' :: '-' :: q : Str)).isPrefixOf c!"--version" = q.isPrefixOf c!"version" := rfl
  have e4 : (('-' :: '-' :: q : Str)).isPrefixOf c!"--encoding" = q.isPrefixOf c!"encoding" := rfl
  simp only [optionStrings, List.filter_cons, List.filter_nil, e1, e2, e3, e4]
  cases q.isPrefixOf c!"help" <;> cases q.isPrefixOf c!"version" <;> cases q.isPrefixOf c!"encoding" <;> rfl

theorem prefix_false {c : Char} {r t : Str} {d : Char} (h : c ≠ d) : (c :: r : Str).isPrefixOf (d :: t) = false := by
  simp [List.isPrefixOf, h]

/-- at most one option has this beginning, if there is a letter -/
theorem filter_one (c : Char) (r : Str) :
    optionStrings.filter (fun o => (('-' :: '-' :: c :: r : Str)).isPrefixOf o.1) =
    if (c :: r : Str).isPrefixOf c!"help" then [(c!"--help", Act.help)]
    else if (c :: r : Str).isPrefixOf c!"version" then [(c!"--version", Act.version)]
    else if (c :: r : Str).isPrefixOf c!"encoding" then [(c!"--encoding", Act.encoding)] else [] := by
  rw [filter_long]
  by_cases h1 : c = 'h'
  · subst h1
    rw [show (('h' :: r : Str)).isPrefixOf c!"version" = false from prefix_false (by decide),
      show (('h' :: r : Str)).isPrefixOf c!"encoding" = false from prefix_false (by decide)]
    cases (('h' :: r : Str)).isPrefixOf c!"help" <;> rfl
  · rw [show ((c :: r : Str)).isPrefixOf c!"help" = false from prefix_false h1]
    by_cases h2 : c = 'v'
    · subst h2
      rw [show (('v' :: r : Str)).isPrefixOf c!"encoding" = false from prefix_false (by decide)]
      cases (('v' :: r : Str)).isPrefixOf c!"version" <;> rfl
    · rw [show ((c :: r : Str)).isPrefixOf c!"version" = false from prefix_false h2]
      cases ((c :: r : Str)).isPrefixOf c!"encoding" <;> rfl

/-- a full name is its own abbreviation -/
theorem lookup_cases (w : Str) : (optionStrings.lookup w = none ∧ w ∉ optionStrings.map (·.1)) ∨
    (w = c!"-h" ∧ optionStrings.lookup w = some .help) ∨ (w = c!"--help" ∧ optionStrings.lookup w = some .help) ∨
    (w = c!"--version" ∧ optionStrings.lookup w = some .version) ∨
    (w = c!"--encoding" ∧ optionStrings.lookup w = some .encoding) := by
  by_cases h1 : w = c!"-h"
  · subst h1; exact .inr (.inl ⟨rfl, by decide⟩)
  by_cases h2 : w = c!"--help"
  · subst h2; exact .inr (.inr (.inl ⟨rfl, by decide⟩))
  by_cases h3 : w = c!"--version"
  · subst h3; exact .inr (.inr (.inr (.inl ⟨rfl, by decide⟩)))
  by_cases h4 : w = c!"--encoding"
  · subst h4; exact .inr (.inr (.inr (.inr ⟨rfl, by decide⟩)))
  left
  have b1 : (w == c!"-h") = false := by simpa using h1
  have b2 : (w == c!"--help") = false := by simpa using h2
  have b3 : (w == c!"--version") = false := by simpa using h3
  have b4 : (w == c!"--encoding") = false := by simpa using h4
  refine ⟨?_, ?_⟩
  · simp only [optionStrings, List.lookup, b1, b2, b3, b4]
  · simp only [optionStrings, List.map_cons, List.map_nil, List.mem_cons, List.not_mem_nil, or_false]
    rintro (h | h | h | h)
    · exact h1 h
    · exact h2 h
    · exact h3 h
    · exact h4 h

theorem lookup_prefix {w : Str} {a : Act} (h : optionStrings.lookup w = some a) : (w, a) ∈ optionStrings := by
  rcases lookup_cases w with h1 | ⟨rfl, h1⟩ | ⟨rfl, h1⟩ | ⟨rfl, h1⟩ | ⟨rfl, h1⟩
  · rw [h1.1] at h; cases h
  all_goals (rw [h1] at h; cases h; decide)

/-- neither a value nor an option of the tools -/
def otherwise (w : Str) : Word :=
  if negNumber w then .positional else if w.contains ' ' then .positional else .option ⟨none, w, false, none⟩

/-- what a long option is, given what stands before and behind the first `=` -/
def longOption (p : Str) (x : Option Str) (other : Word) : Word :=
  if p = [] then .ambiguous
  else if p.isPrefixOf c!"help" then .option ⟨some .help, c!"--help", x.isSome, x⟩
  else if p.isPrefixOf c!"version" then .option ⟨some .version, c!"--version", x.isSome, x⟩
  else if p.isPrefixOf c!"encoding" then .option ⟨some .encoding, c!"--encoding", x.isSome, x⟩
  else other

theorem tuples_long (p : Str) (x : Option Str) (other : Word) (f : Str × Act → OptTup)
    (hf : ∀ o, f o = ⟨some o.2, o.1, x.isSome, x⟩) :
    (match (optionStrings.filter fun o => (('-' :: '-' :: p : Str)).isPrefixOf o.1).map f with
      | [t] => Word.option t
      | _ :: _ :: _ => .ambiguous
      | [] => other) = longOption p x other := by
  cases p with
  | nil => rfl
  | cons c r =>
    rw [filter_one]
    unfold longOption
    rw [if_neg (List.cons_ne_nil c r)]
    cases (c :: r : Str).isPrefixOf c!"help" with
    | true => simp [hf]
    | false =>
      cases (c :: r : Str).isPrefixOf c!"version" with
      | true => simp [hf]
      | false =>
        cases (c :: r : Str).isPrefixOf c!"encoding" with
        | true => simp [hf]
        | false => simp

theorem lookup_long {p : Str} {a : Act} (hl : optionStrings.lookup ('-' :: '-' :: p) = some a) (x : Option Str) (other : Word) :
    longOption p x other = .option ⟨some a, '-' :: '-' :: p, x.isSome, x⟩ := by
  have := lookup_prefix hl
  simp only [optionStrings, List.mem_cons, List.not_mem_nil, or_false, Prod.mk.injEq] at this
  rcases this with ⟨h, _⟩ | ⟨h, rfl⟩ | ⟨h, rfl⟩ | ⟨h, rfl⟩
  · exact absurd h (by simp)
  all_goals
    have h := (List.cons.inj (List.cons.inj h).2).2
    subst h
    rfl

theorem parse_long (q : Str) (hq : q ≠ []) : parseOptional ('-' :: '-' :: q) =
    match splitOnce '=' q with
    | some (p, x) => longOption p (some x) (otherwise ('-' :: '-' :: q))
    | none => longOption q none (otherwise ('-' :: '-' :: q)) := by
  have hs : splitOnce '=' ('-' :: '-' :: q : Str) = (splitOnce '=' q).map fun (a, b) => ('-' :: '-' :: a, b) := by
    simp only [splitOnce]
    cases splitOnce '=' q <;> rfl
  unfold parseOptional
  rw [if_neg (by simp)]
  cases hl : optionStrings.lookup ('-' :: '-' :: q) with
  | some a =>
    have hm := lookup_prefix hl
    have hno : splitOnce '=' q = none := by
      simp only [optionStrings, List.mem_cons, List.not_mem_nil, or_false, Prod.mk.injEq] at hm
      rcases hm with ⟨h, _⟩ | ⟨h, _⟩ | ⟨h, _⟩ | ⟨h, _⟩
      · exact absurd h (by simp)
      all_goals
        have h := (List.cons.inj (List.cons.inj h).2).2
        subst h
        decide
    rw [hno]
    exact (lookup_long hl none _).symm
  | none =>
    dsimp only
    rw [if_neg (by cases q with | nil => exact absurd rfl hq | cons c r => simp), hs]
    unfold optionTuples
    rw [if_pos (by rfl), hs]
    cases hsq : splitOnce '=' q with
    | none =>
      exact tuples_long q none _ _ fun o => rfl
    | some b =>
      obtain ⟨p, x⟩ := b
      dsimp only [Option.map_some]
      cases hlp : optionStrings.lookup ('-' :: '-' :: p) with
      | some a => exact (lookup_long hlp (some x) _).symm
      | none => exact tuples_long p (some x) _ _ fun o => rfl

theorem parse_h (r : Str) : ∃ t : OptTup, parseOptional ('-' :: 'h' :: r) = .option t ∧ t.action = some .help := by
  unfold parseOptional
  rw [if_neg (by simp)]
  cases hl : optionStrings.lookup ('-' :: 'h' :: r) with
  | some a =>
    have hm := lookup_prefix hl
    simp only [optionStrings, List.mem_cons, List.not_mem_nil, or_false, Prod.mk.injEq] at hm
    rcases hm with ⟨_, h⟩ | ⟨h, _⟩ | ⟨h, _⟩ | ⟨h, _⟩
    · exact ⟨_, rfl, by rw [h]⟩
    all_goals exact absurd (List.cons.inj (List.cons.inj h).2).1 (by decide)
  | none =>
    dsimp only
    rw [if_neg (by simp)]
    have ht : optionTuples ('-' :: 'h' :: r) = [⟨some .help, c!"-h", false, some r⟩] := by
      unfold optionTuples
      rw [if_neg (by simp)]
      simp [optionStrings]
    rw [ht]
    cases hs : splitOnce '=' ('-' :: 'h' :: r) with
    | none => exact ⟨_, rfl, rfl⟩
    | some b =>
      obtain ⟨p, x⟩ := b
      dsimp only
      cases hlp : optionStrings.lookup p with
      | none => exact ⟨_, rfl, rfl⟩
      | some a =>
        have hm := lookup_prefix hlp
        have hp := (splitOnce_some hs).1
        simp only [optionStrings, List.mem_cons, List.not_mem_nil, or_false, Prod.mk.injEq] at hm
        rcases hm with ⟨_, h⟩ | ⟨h, _⟩ | ⟨h, _⟩ | ⟨h, _⟩
        · exact ⟨_, rfl, by rw [h]⟩
        all_goals
          rw [h] at hp
          simp at hp

theorem parse_short (c : Char) (r : Str) (h1 : c ≠ '-') (h2 : c ≠ 'h') :
    parseOptional ('-' :: c :: r) = otherwise ('-' :: c :: r) := by
  have hno : ∀ s : Str, optionStrings.lookup ('-' :: c :: s) = none := by
    intro s
    cases hl : optionStrings.lookup ('-' :: c :: s) with
    | none => rfl
    | some a =>
      have hm := lookup_prefix hl
      simp only [optionStrings, List.mem_cons, List.not_mem_nil, or_false, Prod.mk.injEq] at hm
      rcases hm with ⟨h, _⟩ | ⟨h, _⟩ | ⟨h, _⟩ | ⟨h, _⟩
      · exact absurd (List.cons.inj (List.cons.inj h).2).1 h2
      all_goals exact absurd (List.cons.inj (List.cons.inj h).2).1 h1
  have h1' : ¬'-' = c := fun e => h1 e.symm
  have h2' : ¬'h' = c := fun e => h2 e.symm
  have ht : optionTuples ('-' :: c :: r) = [] := by
    unfold optionTuples
    rw [if_neg (by simpa using h1)]
    simp [optionStrings, h1, h2, h1', h2']
  unfold parseOptional
  rw [if_neg (by simp), hno r]
  dsimp only
  rw [if_neg (by simp), ht]
  cases hs : splitOnce '=' ('-' :: c :: r) with
  | none => rfl
  | some b =>
    obtain ⟨p, x⟩ := b
    dsimp only
    have hp := (splitOnce_some hs).1
    have : optionStrings.lookup p = none := by
      by_cases hc : c = '='
      · subst hc
        have : p = ['-'] := by rw [← hp]; rfl
        rw [this]; decide
      · have : p = '-' :: c :: r.takeWhile (· ≠ '=') := by
          rw [← hp, List.takeWhile_cons, if_pos (by decide), List.takeWhile_cons, if_pos (by simpa using hc)]
        rw [this]; exact hno _
    rw [this]
    rfl

/-! ## Values and encodings -/

theorem otherwise_iff (w : Str) : otherwise w = .positional ↔ NegativeNumber w ∨ ' ' ∈ w := by
  unfold otherwise
  rw [← negNumber_iff]
  cases h : negNumber w with
  | true => simp
  | false =>
    cases h2 : w.contains ' ' with
    | true => simp at h2; simp [h2]
    | false => simp at h2; simp [h2]

theorem otherwise_act {w : Str} {t : OptTup} (h : otherwise w = .option t) : t.action = none := by
  unfold otherwise at h
  split at h
  · cases h
  · split at h
    · cases h
    · cases h; rfl

/-- `--...` is an option if what stands before the `=` is a beginning -/
theorem looks_long (q : Str) : LooksLikeOption ('-' :: '-' :: q) ↔ q.takeWhile (· ≠ '=') <+: c!"help" ∨
    q.takeWhile (· ≠ '=') <+: c!"version" ∨ q.takeWhile (· ≠ '=') <+: c!"encoding" := by
  have ht : ('-' :: '-' :: q : Str).takeWhile (· ≠ '=') = '-' :: '-' :: q.takeWhile (· ≠ '=') := by
    rw [List.takeWhile_cons, if_pos (by decide), List.takeWhile_cons, if_pos (by decide)]
  unfold LooksLikeOption
  rw [ht]
  simp [longOptions, List.cons_prefix_cons]

theorem looks_short (c : Char) (r : Str) (h1 : c ≠ '-') : LooksLikeOption ('-' :: c :: r) ↔ c = 'h' := by
  unfold LooksLikeOption
  simp [List.cons_prefix_cons]
  constructor
  · rintro (h | h)
    · exact h.symm
    · exact absurd h.1.symm h1
  · intro h; exact .inl h.symm

theorem longOption_pos (p : Str) (x : Option Str) (other : Word) : longOption p x other = .positional ↔
    ¬(p <+: c!"help" ∨ p <+: c!"version" ∨ p <+: c!"encoding") ∧ other = .positional := by
  unfold longOption
  split
  · rename_i h; subst h; simp
  · rw [← isPre, ← isPre, ← isPre]
    cases p.isPrefixOf c!"help" with
    | true => simp
    | false =>
      cases p.isPrefixOf c!"version" with
      | true => simp
      | false =>
        cases p.isPrefixOf c!"encoding" with
        | true => simp
        | false => simp

theorem plain_iff (w : Str) (hw : w ≠ c!"--") : parseOptional w = .positional ↔ Plain w := by
  rcases w with _ | ⟨c, _ | ⟨d, r⟩⟩
  · exact ⟨fun _ => .inl (by simp), fun _ => rfl⟩
  · by_cases hc : c = '-'
    · subst hc
      exact ⟨fun _ => .inr (.inl rfl), fun _ => by decide⟩
    · refine ⟨fun _ => .inl (by simpa using hc), fun _ => ?_⟩
      unfold parseOptional
      rw [if_pos (by simpa using hc)]
  · by_cases hc : c = '-'
    · subst hc
      have hp : Plain ('-' :: d :: r) ↔ ¬LooksLikeOption ('-' :: d :: r) ∧ otherwise ('-' :: d :: r) = .positional := by
        rw [otherwise_iff]
        unfold Plain
        simp
      rw [hp]
      by_cases hd : d = '-'
      · subst hd
        have hq : r ≠ [] := by intro h; subst h; exact hw rfl
        rw [parse_long r hq, looks_long]
        cases hs : splitOnce '=' r with
        | none => rw [(splitOnce_none hs).1]; exact longOption_pos _ _ _
        | some b =>
          obtain ⟨p, x⟩ := b
          rw [(splitOnce_some hs).1]
          exact longOption_pos _ _ _
      · rw [looks_short d r hd]
        by_cases hh : d = 'h'
        · subst hh
          obtain ⟨t, ht, _⟩ := parse_h r
          rw [ht]
          simp
        · rw [parse_short d r hd hh]
          simp [hh]
    · refine ⟨fun _ => .inl (by simpa using hc), fun _ => ?_⟩
      unfold parseOptional
      rw [if_pos (by simpa using hc)]

theorem short_form {p : Str} (h : Short p) : ∃ q, p = '-' :: '-' :: q ∧ q ≠ [] ∧ q <+: c!"encoding" ∧ '=' ∉ p := by
  obtain ⟨⟨r, rfl⟩, h2⟩ := h
  have hm : '=' ∉ (c!"--e" ++ r) := fun hm => absurd (h2.subset hm) (by decide)
  exact ⟨'e' :: r, rfl, by simp, (List.cons_prefix_cons.1 (List.cons_prefix_cons.1 h2).2).2, hm⟩

theorem short_of {q : Str} (h : q <+: c!"encoding") (hq : q ≠ []) : Short ('-' :: '-' :: q) := by
  cases q with
  | nil => exact absurd rfl hq
  | cons c r =>
    obtain ⟨rfl, _⟩ := List.cons_prefix_cons.1 h
    exact ⟨⟨r, rfl⟩, List.cons_prefix_cons.2 ⟨rfl, List.cons_prefix_cons.2 ⟨rfl, h⟩⟩⟩

theorem longOption_enc {q : Str} (h : q <+: c!"encoding") (hq : q ≠ []) (x : Option Str) (other : Word) :
    longOption q x other = .option ⟨some .encoding, c!"--encoding", x.isSome, x⟩ := by
  have := long_prefix h hq
  unfold longOption
  rw [if_neg hq, if_neg (by rw [isPre]; exact this.1), if_neg (by rw [isPre]; exact this.2), if_pos (by rw [isPre]; exact h)]

theorem longOption_act {p : Str} {x : Option Str} {w : Str} {t : OptTup} (h : longOption p x (otherwise w) = .option t)
    (ha : t.action = some .encoding) : p <+: c!"encoding" ∧ p ≠ [] ∧ t.explicit = x := by
  unfold longOption at h
  split at h
  · cases h
  · rename_i hp
    split at h
    · cases h; cases ha
    · split at h
      · cases h; cases ha
      · split at h
        · rename_i h4
          cases h
          exact ⟨isPre.1 h4, hp, rfl⟩
        · rw [otherwise_act h] at ha; cases ha

/-- an `--encoding` whose value is the next word -/
theorem parse_apart {p : Str} (h : Short p) : ∃ t : OptTup, parseOptional p = .option t ∧ t.action = some .encoding ∧
    t.explicit = none := by
  obtain ⟨q, rfl, hq, hp, hn⟩ := short_form h
  have hn' : '=' ∉ q := fun h => hn (by simp [h])
  rw [parse_long q hq, splitOnce_not hn']
  exact ⟨_, longOption_enc hp hq none _, rfl, rfl⟩

/-- an `--encoding` with its value -/
theorem parse_joined {p : Str} (h : Short p) (e : Str) : ∃ t : OptTup, parseOptional (p ++ '=' :: e) = .option t ∧
    t.action = some .encoding ∧ t.explicit = some e := by
  obtain ⟨q, rfl, hq, hp, hn⟩ := short_form h
  have hn' : '=' ∉ q := fun h => hn (by simp [h])
  rw [List.cons_append, List.cons_append, parse_long _ (by simp), splitOnce_app hn']
  exact ⟨_, longOption_enc hp hq (some e) _, rfl, rfl⟩

theorem parse_encoding {w : Str} {t : OptTup} (hw : w ≠ c!"--") (h : parseOptional w = .option t)
    (ha : t.action = some .encoding) :
    (t.explicit = none ∧ Short w) ∨ ∃ p e, t.explicit = some e ∧ w = p ++ '=' :: e ∧ Short p := by
  rcases w with _ | ⟨c, _ | ⟨d, r⟩⟩
  · cases h
  · unfold parseOptional at h
    split at h
    · cases h
    · rename_i hc
      have : c = '-' := by simpa using hc
      subst this
      rw [show optionStrings.lookup ['-'] = none by decide] at h
      simp at h
  · by_cases hc : c = '-'
    · subst hc
      by_cases hd : d = '-'
      · subst hd
        have hq : r ≠ [] := by intro h; subst h; exact hw rfl
        rw [parse_long r hq] at h
        cases hs : splitOnce '=' r with
        | none =>
          rw [hs] at h
          obtain ⟨h1, h2, h3⟩ := longOption_act h ha
          exact .inl ⟨h3, short_of h1 h2⟩
        | some b =>
          obtain ⟨p, x⟩ := b
          rw [hs] at h
          obtain ⟨h1, h2, h3⟩ := longOption_act h ha
          exact .inr ⟨'-' :: '-' :: p, x, h3, by rw [(splitOnce_some hs).2.1]; rfl, short_of h1 h2⟩
      · by_cases hh : d = 'h'
        · subst hh
          obtain ⟨t', ht, hta⟩ := parse_h r
          rw [ht] at h
          cases h
          rw [hta] at ha; cases ha
        · rw [parse_short d r hd hh] at h
          rw [otherwise_act h] at ha; cases ha
    · unfold parseOptional at h
      rw [if_pos (by simpa using hc)] at h
      cases h

end Verif.CliArgs
