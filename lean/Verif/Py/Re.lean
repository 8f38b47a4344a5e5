import Verif.Py.Str
import Verif.Py.UniTables

/-!
# Regular expressions

A backtracking matcher with the priority semantics of CPython's `re` (3.7+), for the constructs that occur
in the repository: literals, character classes, `.`, sequencing, ordered alternatives, greedy and lazy
repetition, named groups, back references, `^`/`$` (with and without `re.MULTILINE`), one-character
look-behind and negative look-ahead.

Two semantics are given.  `Re.m` is the executable continuation-passing matcher used by the model.
`Re.res` lists *all* ways to match, in the order in which a backtracking matcher tries them.
`Re.m_eq` proves that the first one is the search of the second one for the first result accepted by the
continuation.
-/

namespace Verif

open Py

/-- A set of characters. -/
inductive CSet where
  | chr (c : Char)
  /-- `.` : everything but a newline -/
  | dot
  /-- `\s` -/
  | space
  /-- `\w` -/
  | word
  /-- `\d` -/
  | digit
  | range (lo hi : Char)
  | union (a b : CSet)
  | compl (a : CSet)
  deriving DecidableEq, Repr

/-- `\w` for `str` patterns: `c.isalnum() or c == '_'` -/
def Py.isWord (c : Char) : Bool :=
  let n := c.toNat
  if n < 128 then (48 ≤ n && n ≤ 57) || (65 ≤ n && n ≤ 90) || n == 95 || (97 ≤ n && n ≤ 122)
  else Py.alnumRanges.any fun r => r.1 ≤ n && n ≤ r.2

/-- the decimal value of a character (`unicodedata.decimal`), used by `int()` and `\d` -/
def Py.decimal? (c : Char) : Option Nat :=
  let n := c.toNat
  if n < 128 then (if 48 ≤ n && n ≤ 57 then some (n - 48) else none)
  else (Py.zeroDigits.find? fun z => z ≤ n && n ≤ z + 9).map fun z => n - z

def CSet.mem : CSet → Char → Bool
  | .chr d, c => c == d
  | .dot, c => c != '\n'
  | .space, c => Py.isSpace c
  | .word, c => Py.isWord c
  | .digit, c => (Py.decimal? c).isSome
  | .range lo hi, c => lo.toNat ≤ c.toNat && c.toNat ≤ hi.toNat
  | .union a b, c => a.mem c || b.mem c
  | .compl a, c => !a.mem c

/-- Regular expressions; `γ` is the type of group names. -/
inductive Re (γ : Type) where
  | eps
  | cls (s : CSet)
  | seq (a b : Re γ)
  /-- ordered choice `a|b` -/
  | alt (a b : Re γ)
  /-- `a*` (greedy) or `a*?` (lazy) -/
  | star (greedy : Bool) (a : Re γ)
  | grp (g : γ) (a : Re γ)
  | bref (g : γ)
  /-- `^`, with or without `re.MULTILINE` -/
  | bol (multi : Bool)
  /-- `$`, with or without `re.MULTILINE` -/
  | eol (multi : Bool)
  /-- `(?<=c)` / `(?<!c)` for a single character class -/
  | behind (neg : Bool) (s : CSet)
  /-- `(?!a)` -/
  | notAhead (a : Re γ)
  deriving DecidableEq, Repr

/-- State of a match: the previous character, the remaining input, the captures (latest first). -/
structure St (γ : Type) where
  prev : Option Char
  rest : Str
  caps : List (γ × Str)
  deriving DecidableEq, Repr

variable {γ : Type} [DecidableEq γ]

/-- the value of a named group -/
def capGet (g : γ) (caps : List (γ × Str)) : Option Str := caps.lookup g

/-- move over the literal string `w` -/
def eatStr : Str → Option Char → Str → Option (Option Char × Str)
  | [], p, r => some (p, r)
  | _ :: _, _, [] => none
  | w :: ws, _, c :: cs => if c == w then eatStr ws (some c) cs else none

/-- text consumed between two states of one match -/
def consumed (a b : Str) : Str := a.take (a.length - b.length)

/-- `$`: with `re.MULTILINE` at the end or before a newline; without, at the end or before a final newline. -/
def atEol (multi : Bool) (rest : Str) : Bool :=
  match rest with
  | [] => true
  | c :: cs => c == '\n' && (multi || cs.isEmpty)

/-- `^`: with `re.MULTILINE` at the start or after a newline; without, only at the start. -/
def atBol (multi : Bool) (prev : Option Char) : Bool :=
  match prev with
  | none => true
  | some c => multi && c == '\n'

/-- Greedy or lazy repetition of a matcher `f` whose body always consumes a character; the fuel is the
number of characters left. -/
def starM (greedy : Bool) (f : St γ → (St γ → Option (St γ)) → Option (St γ)) :
    Nat → St γ → (St γ → Option (St γ)) → Option (St γ)
  | 0, s, k => k s
  | n + 1, s, k =>
    if greedy then (f s fun s' => starM greedy f n s' k).or (k s)
    else (k s).or (f s fun s' => starM greedy f n s' k)

/-- Continuation-passing backtracking matcher. -/
def Re.m : Re γ → St γ → (St γ → Option (St γ)) → Option (St γ)
  | .eps, s, k => k s
  | .cls cs, s, k =>
    match s.rest with
    | [] => none
    | c :: r => if cs.mem c then k { s with prev := some c, rest := r } else none
  | .seq a b, s, k => a.m s fun s' => b.m s' k
  | .alt a b, s, k => (a.m s k).or (b.m s k)
  | .star g a, s, k => starM g (fun s k => a.m s k) s.rest.length s k
  | .grp g a, s, k => a.m s fun s' => k { s' with caps := (g, consumed s.rest s'.rest) :: s'.caps }
  | .bref g, s, k =>
    match capGet g s.caps with
    | none => none
    | some w =>
      match eatStr w s.prev s.rest with
      | none => none
      | some (p, r) => k { s with prev := p, rest := r }
  | .bol mu, s, k => if atBol mu s.prev then k s else none
  | .eol mu, s, k => if atEol mu s.rest then k s else none
  | .behind neg cs, s, k =>
    match s.prev with
    | none => if neg then k s else none
    | some c => if cs.mem c != neg then k s else none
  | .notAhead a, s, k =>
    match a.m s some with
    | some _ => none
    | none => k s

/-- All results of a repetition in backtracking order. -/
def starR (greedy : Bool) (f : St γ → List (St γ)) : Nat → St γ → List (St γ)
  | 0, s => [s]
  | n + 1, s =>
    let more := (f s).flatMap (starR greedy f n)
    if greedy then more ++ [s] else s :: more

/-- All ways to match, in the order tried by a backtracking matcher. -/
def Re.res : Re γ → St γ → List (St γ)
  | .eps, s => [s]
  | .cls cs, s =>
    match s.rest with
    | [] => []
    | c :: r => if cs.mem c then [{ s with prev := some c, rest := r }] else []
  | .seq a b, s => (a.res s).flatMap b.res
  | .alt a b, s => a.res s ++ b.res s
  | .star g a, s => starR g a.res s.rest.length s
  | .grp g a, s => (a.res s).map fun s' => { s' with caps := (g, consumed s.rest s'.rest) :: s'.caps }
  | .bref g, s =>
    match capGet g s.caps with
    | none => []
    | some w =>
      match eatStr w s.prev s.rest with
      | none => []
      | some (p, r) => [{ s with prev := p, rest := r }]
  | .bol mu, s => if atBol mu s.prev then [s] else []
  | .eol mu, s => if atEol mu s.rest then [s] else []
  | .behind neg cs, s =>
    match s.prev with
    | none => if neg then [s] else []
    | some c => if cs.mem c != neg then [s] else []
  | .notAhead a, s => if (a.res s).isEmpty then [s] else []

omit [DecidableEq γ] in
theorem starM_eq (g : Bool) (f : St γ → (St γ → Option (St γ)) → Option (St γ)) (f' : St γ → List (St γ))
    (h : ∀ s k, f s k = (f' s).findSome? k) (n : Nat) (s : St γ) (k : St γ → Option (St γ)) :
    starM g f n s k = (starR g f' n s).findSome? k := by
  induction n generalizing s k with
  | zero => simp [starM, starR]
  | succ n ih =>
    have hk : (fun s' => starM g f n s' k) = fun s' => (starR g f' n s').findSome? k := by
      funext s'; exact ih s' k
    have hfm : ∀ l : List (St γ), List.findSome? k (List.flatMap (starR g f' n) l)
        = l.findSome? fun s' => (starR g f' n s').findSome? k := by
      intro l
      induction l with
      | nil => rfl
      | cons a l ihl =>
        rw [List.flatMap_cons, List.findSome?_append, ihl, List.findSome?_cons]
        cases List.findSome? k (starR g f' n a) <;> rfl
    simp only [starM, starR, h, hk, ← hfm]
    cases g
    · simp [List.findSome?_cons]
      cases k s <;> simp
    · simp

/-- The executable matcher finds the first result, in backtracking order, that the continuation accepts. -/
theorem Re.m_eq (r : Re γ) (s : St γ) (k : St γ → Option (St γ)) :
    r.m s k = (r.res s).findSome? k := by
  induction r generalizing s k with
  | eps => simp [Re.m, Re.res]
  | cls cs =>
    simp only [Re.m, Re.res]
    split
    · rfl
    · split <;> simp
  | seq a b iha ihb =>
    simp only [Re.m, Re.res, iha, ihb]
    induction a.res s with
    | nil => rfl
    | cons x l ihl =>
      rw [List.flatMap_cons, List.findSome?_append, List.findSome?_cons, ihl]
      cases List.findSome? k (b.res x) <;> rfl
  | alt a b iha ihb => simp [Re.m, Re.res, iha, ihb]
  | star g a iha => exact starM_eq g _ _ (fun s k => iha s k) _ _ _
  | grp g a iha =>
    simp only [Re.m, Re.res, iha, List.findSome?_map]; rfl
  | bref g =>
    simp only [Re.m, Re.res]
    split
    · rfl
    · split <;> simp
  | bol mu => simp only [Re.m, Re.res]; split <;> simp
  | eol mu => simp only [Re.m, Re.res]; split <;> simp
  | behind neg cs =>
    simp only [Re.m, Re.res]
    split <;> split <;> simp
  | notAhead a iha =>
    simp only [Re.m, Re.res, iha]
    cases a.res s <;> simp

/-! ## Matching at a position, scanning -/

/-- One match attempt at a fixed position.  With `adv` an empty match is refused (CPython's
`must_advance`, used right after an empty match at the same position). -/
def Re.matchAt (r : Re γ) (adv : Bool) (prev : Option Char) (rest : Str) : Option (St γ) :=
  r.m ⟨prev, rest, []⟩ fun s' => if adv && s'.rest.length == rest.length then none else some s'

/-- A match reported by `finditer`/`sub`: its text and its named groups. -/
structure Match (γ : Type) where
  text : Str
  caps : List (γ × Str)
  deriving DecidableEq, Repr

/-- `m.groupdict().get(g)` -/
def Match.get (m : Match γ) (g : γ) : Option Str := capGet g m.caps

/-- A piece of the scanned string: a character between matches, or a match. -/
inductive Seg (γ : Type) where
  | skip (c : Char)
  | hit (m : Match γ)
  deriving DecidableEq, Repr

/-- Scan a string from left to right, as `re.sub`/`re.finditer` do (CPython 3.7+: an empty match may be
followed by a non-empty one at the same position).  The `Nat` counts the characters that still belong to the
previous match. -/
def Re.scanAux (r : Re γ) : Option Char → Str → Nat → List (Seg γ)
  | prev, [], _ =>
    match r.matchAt false prev [] with
    | none => []
    | some s' => [.hit ⟨[], s'.caps⟩]
  | _, c :: cs, k + 1 => r.scanAux (some c) cs k
  | prev, c :: cs, 0 =>
    match r.matchAt false prev (c :: cs) with
    | none => .skip c :: r.scanAux (some c) cs 0
    | some s' =>
      let n := (c :: cs).length - s'.rest.length
      if n = 0 then
        .hit ⟨[], s'.caps⟩ ::
          (match r.matchAt true prev (c :: cs) with
           | none => .skip c :: r.scanAux (some c) cs 0
           | some s'' =>
             .hit ⟨consumed (c :: cs) s''.rest, s''.caps⟩ ::
               r.scanAux (some c) cs ((c :: cs).length - s''.rest.length - 1))
      else
        .hit ⟨consumed (c :: cs) s'.rest, s'.caps⟩ :: r.scanAux (some c) cs (n - 1)

/-- all segments of the string `s` -/
def Re.scan (r : Re γ) (s : Str) : List (Seg γ) := r.scanAux none s 0

/-- `r.finditer(s)` -/
def Re.findAll (r : Re γ) (s : Str) : List (Match γ) :=
  (r.scan s).filterMap fun | .skip _ => none | .hit m => some m

/-- `r.sub(f, s)` -/
def Re.sub (r : Re γ) (f : Match γ → Str) (s : Str) : Str :=
  (r.scan s).flatMap fun | .skip c => [c] | .hit m => f m

/-! ## Notation -/

namespace Re

/-- a literal string -/
def lit {γ : Type} : Str → Re γ
  | [] => .eps
  | [c] => .cls (.chr c)
  | c :: d :: cs => .seq (.cls (.chr c)) (lit (d :: cs))

/-- `a?` -/
def opt {γ : Type} (a : Re γ) : Re γ := .alt a .eps

/-- `a+` / `a+?` -/
def plus {γ : Type} (g : Bool) (a : Re γ) : Re γ := .seq a (.star g a)

/-- a sequence -/
def cat {γ : Type} : List (Re γ) → Re γ
  | [] => .eps
  | [a] => a
  | a :: b :: l => .seq a (cat (b :: l))

/-- ordered choice -/
def alts {γ : Type} : List (Re γ) → Re γ
  | [] => .eps
  | [a] => a
  | a :: b :: l => .alt a (alts (b :: l))

end Re

end Verif
