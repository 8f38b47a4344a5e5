import Verif.Emit.ShownTable
import Verif.Creole.EmitSize
import Verif.Spec.Growth

/-!
# How large the text of an HTML tree becomes

The weight of a text is its length and once more its number of line breaks: replacing line breaks by `\\` does not make a
text heavier.
-/

namespace Verif.Emit.Gr

open Verif Py Html

/-! ## The weight of a text -/

def wt (s : Str) : Nat := s.length + s.count '\n'

theorem wt_nil : wt [] = 0 := rfl

theorem wt_append (a b : Str) : wt (a ++ b) = wt a + wt b := by
  simp only [wt, List.length_append, List.count_append]; omega

theorem wt_cons (c : Char) (s : Str) : wt (c :: s) = (if c = '\n' then 2 else 1) + wt s := by
  simp only [wt, List.length_cons, List.count_cons, beq_iff_eq]
  split <;> omega

theorem len_le (s : Str) : s.length ≤ wt s := Nat.le_add_right _ _

theorem wt_two (s : Str) : wt s ≤ 2 * s.length := by
  have := List.count_le_length (a := '\n') (l := s)
  simp only [wt]; omega

theorem wt_sub {a b : Str} (h : a.Sublist b) : wt a ≤ wt b := by
  have := h.length_le
  have := h.count_le '\n'
  simp only [wt]; omega

theorem dropEnd_sublist (p : Char → Bool) (s : Str) : (dropEndWhile p s).Sublist s := by
  induction s with
  | nil => exact List.Sublist.refl _
  | cons c s ih =>
    rw [dropEndWhile]
    split
    · split
      · exact List.nil_sublist _
      · exact (List.nil_sublist _).cons_cons c
    · next h => rw [h] at ih; exact ih.cons_cons c

theorem wt_strip (s : Str) : wt (strip s) ≤ wt s :=
  wt_sub ((dropEnd_sublist _ _).trans (List.dropWhile_sublist _))

theorem wt_stripP (p : Char → Bool) (s : Str) : wt (stripP p s) ≤ wt s :=
  wt_sub ((dropEnd_sublist _ _).trans (List.dropWhile_sublist _))

/-- the weight of lines -/
def lwt : List Str → Nat
  | [] => 0
  | l :: ls => wt l + 2 + lwt ls

theorem lwt_split (s : Str) : lwt (splitChar '\n' s) = wt s + 2 := by
  induction s with
  | nil => rfl
  | cons c s ih =>
    rw [splitChar, wt_cons]
    split
    · next h =>
      rw [if_pos (beq_iff_eq.mp h), lwt, ih, wt_nil]; omega
    · next h =>
      rw [if_neg (by simpa using h)]
      cases hs : splitChar '\n' s with
      | nil => rw [hs, lwt] at ih; omega
      | cons l ls =>
        rw [hs, lwt] at ih
        show lwt ((c :: l) :: ls) = _
        rw [lwt, wt_cons, if_neg (by simpa using h)]
        omega

theorem lwt_strip (l : List Str) : lwt (l.map strip) ≤ lwt l := by
  induction l with
  | nil => exact Nat.le_refl _
  | cons a l ih =>
    have := wt_strip a
    rw [List.map_cons, lwt, lwt]; omega

theorem lwt_filter (p : Str → Bool) (l : List Str) : lwt (l.filter p) ≤ lwt l := by
  induction l with
  | nil => exact Nat.le_refl _
  | cons a l ih =>
    rw [List.filter_cons]
    split
    · rw [lwt, lwt]; omega
    · rw [lwt]; omega

theorem wt_join {sep : Str} (h : wt sep ≤ 2) : ∀ l : List Str, wt (join sep l) ≤ lwt l - 2
  | [] => by rw [join]; exact Nat.zero_le _
  | [a] => by rw [join, lwt, lwt]; omega
  | a :: b :: l => by
    have := wt_join h (b :: l)
    rw [join, wt_append, wt_append, lwt]
    have : 2 ≤ lwt (b :: l) := by rw [lwt]; omega
    omega

theorem wt_escape (s : Str) : wt (escapeLinebreaks s) ≤ wt s := by
  unfold escapeLinebreaks
  dsimp only
  refine Nat.le_trans (wt_stripP _ _) (Nat.le_trans (wt_join (by decide) _) (Nat.le_trans (Nat.sub_le_sub_right (lwt_filter _ _) 2) ?_))
  have h2 := lwt_strip (splitChar '\n' (strip s))
  have h3 := lwt_split (strip s)
  have h4 := wt_strip s
  omega

theorem wt_rep (s : Str) (n : Nat) : wt (rep s n) = n * wt s := by
  induction n with
  | zero => rw [rep, Nat.zero_mul]; rfl
  | succ n ih => rw [rep, wt_append, ih, Nat.succ_mul]; omega

theorem wt_emitContent (k s : Str) : wt (emitContent k s) ≤ wt s + 4 := by
  unfold emitContent
  have := wt_escape s
  dsimp only
  split
  · rw [wt_append]; simp only [wt_cons, wt_nil, if_true]; omega
  · omega

/-! ## Attributes -/

def attrSize : Dict (Option Str) → Nat
  | [] => 0
  | (k, v) :: d => k.length + (v.getD []).length + 1 + attrSize d

theorem dictGet_size {k : Str} {v : Option Str} : ∀ {d : Dict (Option Str)}, dictGet k d = some v → (v.getD []).length ≤ attrSize d
  | [], h => by cases h
  | (k', v') :: d, h => by
    rw [attrSize]
    unfold dictGet at h
    rw [List.lookup_cons] at h
    split at h
    · cases h; omega
    · have := dictGet_size (d := d) h; omega

theorem truthy_size {k : Str} {v : Str} {d : Dict (Option Str)} (h : truthy (dictGet k d) = some v) : v.length ≤ attrSize d := by
  unfold truthy at h
  split at h
  · next c cs hd =>
    cases h
    exact dictGet_size hd
  · cases h

theorem fmt_len (v : Option Str) : (fmt v).length ≤ (v.getD []).length + 4 := by
  cases v <;> simp [fmt]

theorem slash_len (s : Str) : (splitLastSlash s).1.length + (splitLastSlash s).2.length = s.length := by
  induction s with
  | nil => rfl
  | cons c s ih =>
    rw [splitLastSlash]
    split
    · dsimp only; simp only [List.length_cons]; omega
    · split <;> simp; omega

def pvalOf : Option Str → PVal
  | some s => .str s
  | none => .none

theorem jsonVal_len (v : Option Str) : (jsonVal (pvalOf v)).length ≤ 12 * (v.getD []).length + 4 := by
  cases v with
  | none => exact Nat.le_of_ble_eq_true rfl
  | some s => have := Creole.jsonStr_len s; simp only [pvalOf, jsonVal, Option.getD_some]; omega

/-- the length of the pairs -/
def pairLen : Dict PVal → Nat
  | [] => 0
  | (k, v) :: d => k.length + (jsonVal v).length + 2 + pairLen d

theorem pairLen_insert (x : Str × PVal) (d : Dict PVal) : pairLen (insertKey x d) = pairLen [x] + pairLen d := by
  induction d with
  | nil => rw [insertKey]; rfl
  | cons y d ih =>
    rw [insertKey]
    split
    · simp only [pairLen]
    · rw [pairLen, ih]; simp only [pairLen]; omega

theorem pairLen_sort (d : Dict PVal) : pairLen (sortKeys d) = pairLen d := by
  unfold sortKeys
  induction d with
  | nil => rfl
  | cons x d ih => rw [List.foldr_cons, pairLen_insert, ih]; simp only [pairLen, Nat.add_zero]

theorem join_len {sep : Str} {k : Nat} (h : sep.length ≤ k) : ∀ l : List Str, (join sep l).length ≤ (l.map fun s => s.length + k).sum
  | [] => Nat.zero_le _
  | [a] => by rw [join]; simp
  | a :: b :: l => by
    have := join_len h (b :: l)
    rw [join, List.map_cons, List.sum_cons, List.length_append, List.length_append]
    omega

theorem pairs_len (d : Dict PVal) : ((d.map fun (k, v) => k ++ '=' :: jsonVal v).map fun s => s.length + 1).sum = pairLen d := by
  induction d with
  | nil => rfl
  | cons x d ih =>
    obtain ⟨k, v⟩ := x
    rw [List.map_cons, List.map_cons, List.sum_cons, ih, pairLen, List.length_append, List.length_cons]
    omega

theorem dict2string_len (d : Dict PVal) : (dict2string d).length ≤ pairLen d := by
  rw [dict2string, ← pairLen_sort d, ← pairs_len]
  exact join_len (by decide) _

theorem pairLen_attrs (d : Dict (Option Str)) : pairLen (d.map fun (k, v) => (k, pvalOf v)) ≤ 12 * attrSize d := by
  induction d with
  | nil => exact Nat.le_refl _
  | cons x d ih =>
    obtain ⟨k, v⟩ := x
    have := jsonVal_len v
    rw [List.map_cons, pairLen, attrSize]
    omega

theorem attrText_len (d : Dict (Option Str)) : (attrText d).length ≤ 12 * attrSize d + 1 := by
  have h := dict2string_len (d.map fun (k, v) => (k, pvalOf v))
  have h2 := pairLen_attrs d
  have he : attrText d = match dict2string (d.map fun (k, v) => (k, pvalOf v)) with | [] => [] | s => ' ' :: s := by
    unfold attrText
    congr 2
  rw [he]
  split
  · exact Nat.zero_le _
  · rw [List.length_cons]
    omega

/-! ## `quote_link` -/

theorem splitOnce_len {c : Char} : ∀ {s a b : Str}, splitOnce c s = some (a, b) → a.length + b.length + 1 = s.length
  | [], _, _, h => by cases h
  | x :: s, a, b, h => by
    rw [splitOnce] at h
    split at h
    · cases h; simp
    · cases hs : splitOnce c s with
      | none => rw [hs] at h; cases h
      | some p =>
        obtain ⟨a', b'⟩ := p
        rw [hs] at h
        cases h
        have := splitOnce_len hs
        simp only [List.length_cons]; omega

theorem splitAtChar_len (c : Char) (s : Str) : (splitAtChar c s).1.length + (splitAtChar c s).2.length ≤ s.length := by
  unfold splitAtChar
  split
  · next p hp => have := splitOnce_len (a := p.1) (b := p.2) hp; omega
  · simp

theorem quote_len (s : Str) : (quote s).length ≤ 12 * s.length := by
  refine Creole.flatMap_len (fun c => ?_) s
  have h : ∀ n, (quoteByte n).length ≤ 3 := by
    intro n; unfold quoteByte; split <;> simp
  unfold utf8
  dsimp only
  (repeat' split) <;> simp only [List.flatMap_cons, List.flatMap_nil, List.length_append, List.length_nil]
  · have := h c.toNat; omega
  · have := h (0xC0 + c.toNat / 64); have := h (0x80 + c.toNat % 64); omega
  · have := h (0xE0 + c.toNat / 4096); have := h (0x80 + c.toNat / 64 % 64); have := h (0x80 + c.toNat % 64); omega
  · have := h (0xF0 + c.toNat / 262144); have := h (0x80 + c.toNat / 4096 % 64); have := h (0x80 + c.toNat / 64 % 64); have := h (0x80 + c.toNat % 64); omega

def Url.total (u : Url) : Nat := u.scheme.length + u.netloc.length + u.path.length + u.params.length + u.query.length + u.fragment.length

theorem ite_len {p : Prop} [Decidable p] {a b : Str} {n : Nat} (ha : p → a.length ≤ n) (hb : ¬ p → b.length ≤ n) :
    (if p then a else b).length ≤ n := by
  split
  · next h => exact ha h
  · next h => exact hb h

theorem urlunparse_len (u : Url) : (urlunparse u).length ≤ Url.total u + 7 := by
  unfold urlunparse Url.total
  dsimp only
  generalize h1 : (if u.params ≠ [] then u.path ++ ';' :: u.params else u.path) = x1
  have hx1 : x1.length ≤ u.path.length + u.params.length + 1 := by
    rw [← h1]
    refine ite_len (fun _ => ?_) (fun _ => ?_)
    · simp only [List.length_append, List.length_cons]; omega
    · omega
  generalize h2 : (if x1 ≠ [] && x1.head? ≠ some '/' then '/' :: x1 else x1) = x2
  have hx2 : x2.length ≤ x1.length + 1 := by
    rw [← h2]
    refine ite_len (fun _ => ?_) (fun _ => ?_)
    · simp
    · omega
  generalize h3 : (if u.netloc ≠ [] || (u.scheme ≠ [] && usesNetloc.contains u.scheme) || c!"//".isPrefixOf x1 then
    c!"//" ++ u.netloc ++ x2 else x1) = x3
  have hx3 : x3.length ≤ x1.length + u.netloc.length + 3 := by
    rw [← h3]
    refine ite_len (fun _ => ?_) (fun _ => ?_)
    · simp only [List.length_append, List.length_cons, List.length_nil]; omega
    · omega
  generalize h4 : (if u.scheme ≠ [] then u.scheme ++ ':' :: x3 else x3) = x4
  have hx4 : x4.length ≤ x3.length + u.scheme.length + 1 := by
    rw [← h4]
    refine ite_len (fun _ => ?_) (fun _ => ?_)
    · simp only [List.length_append, List.length_cons]; omega
    · omega
  generalize h5 : (if u.query ≠ [] then x4 ++ '?' :: u.query else x4) = x5
  have hx5 : x5.length ≤ x4.length + u.query.length + 1 := by
    rw [← h5]
    refine ite_len (fun _ => ?_) (fun _ => ?_)
    · simp only [List.length_append, List.length_cons]; omega
    · omega
  refine ite_len (fun _ => ?_) (fun _ => ?_)
  · simp only [List.length_append, List.length_cons]; omega
  · omega

/-- the scheme and the rest of a URL -/
def schemePart (url : Str) : Str × Str :=
  match splitOnce ':' url with
  | some (a, b) =>
    match a with
    | c :: _ => if isAlphaA c && a.all isSchemeChar then (lower a, b) else ([], url)
    | [] => ([], url)
  | none => ([], url)

theorem schemePart_len (x : Str) : (schemePart x).1.length + (schemePart x).2.length ≤ x.length := by
  unfold schemePart
  split
  · next a b hab =>
    have := splitOnce_len hab
    split
    · split
      · simp only [lower, List.length_map]; simp only [List.length_cons] at *; omega
      · simp
    · simp
  · simp

/-- the network location and the rest -/
def netPart (url : Str) : Str × Str :=
  if c!"//".isPrefixOf url then
    let n := (url.drop 2).takeWhile fun c => !(c = '/' || c = '?' || c = '#')
    (n, (url.drop 2).drop n.length)
  else ([], url)

theorem netPart_len (x : Str) : (netPart x).1.length + (netPart x).2.length ≤ x.length := by
  unfold netPart
  split
  · have := (List.takeWhile_sublist (l := x.drop 2) fun c => !(c = '/' || c = '?' || c = '#')).length_le
    simp only [List.length_drop] at *
    omega
  · simp

/-- the path and the parameters -/
def pathPart (scheme url : Str) : Str × Str :=
  if usesParams.contains scheme && url.contains ';' then
    let (dir, base) := splitLastSlash url
    let (a, b) := splitAtChar ';' base
    (dir ++ a, b)
  else (url, [])

theorem pathPart_len (k x : Str) : (pathPart k x).1.length + (pathPart k x).2.length ≤ x.length := by
  unfold pathPart
  split
  · have := slash_len x
    have := splitAtChar_len ';' (splitLastSlash x).2
    simp only [List.length_append]; omega
  · simp

theorem urlparse_eq (ok : Str → Bool) (url : Str) : urlparse ok url =
    (let p := schemePart ((url.dropWhile fun c => c.toNat ≤ 32).filter fun c => !(c = '\t' || c = '\r' || c = '\n'))
    let q := netPart p.2
    if q.1.contains '[' != q.1.contains ']' then .error .valueError
    else
      let f := splitAtChar '#' q.2
      let g := splitAtChar '?' f.1
      if !ok q.1 then .error .valueError
      else
        let r := pathPart p.1 g.1
        .ok { scheme := p.1, netloc := q.1, path := r.1, params := r.2, query := g.2, fragment := f.2 }) := rfl

theorem urlparse_len {ok : Str → Bool} {url : Str} {u : Url} (h : urlparse ok url = .ok u) : Url.total u ≤ url.length := by
  rw [urlparse_eq] at h
  dsimp only at h
  have h1 : ((url.dropWhile fun c => decide (c.toNat ≤ 32)).filter fun c => !(c = '\t' || c = '\r' || c = '\n')).length ≤ url.length :=
    Nat.le_trans (List.length_filter_le _ _) (List.dropWhile_sublist _).length_le
  generalize ((url.dropWhile fun c => decide (c.toNat ≤ 32)).filter fun c => !(c = '\t' || c = '\r' || c = '\n')) = x1 at h h1
  have h2 := schemePart_len x1
  generalize schemePart x1 = p at h h2
  have h3 := netPart_len p.2
  generalize netPart p.2 = q at h h3
  split at h
  · cases h
  · split at h
    · cases h
    · have h4 := splitAtChar_len '#' q.2
      have h5 := splitAtChar_len '?' (splitAtChar '#' q.2).1
      have h6 := pathPart_len p.1 (splitAtChar '?' (splitAtChar '#' q.2).1).1
      cases h
      unfold Url.total
      dsimp only
      omega

theorem quoteLink_len {ok : Str → Bool} {url t : Str} (h : quoteLink ok url = .ok t) : t.length ≤ 12 * url.length + 7 := by
  unfold quoteLink at h
  cases hu : urlparse ok url with
  | error e => rw [hu] at h; cases h
  | ok u =>
    rw [hu] at h
    cases h
    have h1 := urlparse_len hu
    have h2 := urlunparse_len { u with path := quote u.path }
    have h3 := quote_len u.path
    unfold Url.total at h1 h2
    dsimp only at h2
    omega

/-! ## Trees -/

/-- the size of a node without its children -/
def ownSize (i : HInfo) : Nat := 1 + i.kind.length + (i.content.getD []).length + attrSize i.attrs

mutual
/-- the size of a tree: its nodes and the characters of their names, contents and attributes -/
def treeSize : HNode → Nat
  | .mk i ch => ownSize i + treesSize ch
def treesSize : List HNode → Nat
  | [] => 0
  | n :: ns => treeSize n + treesSize ns
end

end Verif.Emit.Gr
