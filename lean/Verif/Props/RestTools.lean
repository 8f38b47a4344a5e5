import Verif.Tools.Rest
import Verif.Spec.Pypi

/-!
# The clean reStructuredText writer and the PyPI check (C54, C55)
-/

namespace Verif.Props

open Verif Py Tools Spec

/-! ## C54 -/

theorem keyLe_refl (a : Str) : keyLe a a = true := by induction a <;> simp_all [keyLe]

theorem keyLe_trans : ∀ {a b c : Str}, keyLe a b = true → keyLe b c = true → keyLe a c = true
  | [], _, _ => by simp [keyLe]
  | _ :: _, [], _ => by simp [keyLe]
  | _ :: _, _ :: _, [] => by simp [keyLe]
  | a :: as, b :: bs, c :: cs => by
    simp only [keyLe, Bool.or_eq_true, decide_eq_true_eq, Bool.and_eq_true, beq_iff_eq]
    rintro (h1 | ⟨rfl, h1⟩) (h2 | ⟨rfl, h2⟩)
    · left; omega
    · left; exact h1
    · left; exact h2
    · right; exact ⟨rfl, keyLe_trans h1 h2⟩

theorem keyLe_total : ∀ (a b : Str), keyLe a b = true ∨ keyLe b a = true
  | [], _ => by simp [keyLe]
  | _ :: _, [] => by simp [keyLe]
  | a :: as, b :: bs => by
    simp only [keyLe, Bool.or_eq_true, decide_eq_true_eq, Bool.and_eq_true, beq_iff_eq]
    rcases Nat.lt_trichotomy a.toNat b.toNat with h | h | h
    · left; left; exact h
    · have hab : a = b := by
        apply Char.ext
        apply UInt32.toNat_inj.mp
        exact h
      subst hab
      rcases keyLe_total as bs with h | h
      · left; right; exact ⟨rfl, h⟩
      · right; right; exact ⟨rfl, h⟩
    · right; left; exact h

theorem insertItem_perm (a : Str × AttrVal) : ∀ l, (insertItem a l).Perm (a :: l)
  | [] => .refl _
  | b :: l => by
    unfold insertItem
    split
    · exact .refl _
    · exact ((insertItem_perm a l).cons b).trans (.swap a b l)

theorem sortItems_perm : ∀ l, (sortItems l).Perm l
  | [] => .refl _
  | a :: l => (insertItem_perm a _).trans ((sortItems_perm l).cons a)

theorem insertItem_sorted (a : Str × AttrVal) : ∀ l : List (Str × AttrVal), l.Pairwise (fun a b => keyLe a.1 b.1 = true) →
    (insertItem a l).Pairwise (fun a b => keyLe a.1 b.1 = true)
  | [], _ => by simp [insertItem]
  | b :: l, h => by
    unfold insertItem
    rw [List.pairwise_cons] at h
    split
    · rename_i hab
      rw [List.pairwise_cons, List.pairwise_cons]
      refine ⟨?_, h⟩
      intro c hc
      rcases List.mem_cons.mp hc with rfl | hc
      · exact hab
      · exact keyLe_trans hab (h.1 c hc)
    · rename_i hab
      rw [List.pairwise_cons]
      refine ⟨?_, insertItem_sorted a l h.2⟩
      intro c hc
      rcases List.mem_cons.mp ((insertItem_perm a l).mem_iff.mp hc) with rfl | hc
      · rcases keyLe_total b.1 c.1 with h | h
        · exact h
        · exact absurd h hab
      · exact h.1 c hc

theorem sortItems_sorted : ∀ l : List (Str × AttrVal), (sortItems l).Pairwise (fun a b => keyLe a.1 b.1 = true)
  | [] => by simp [sortItems]
  | a :: l => insertItem_sorted a _ (sortItems_sorted l)

/-- the text of one attribute in a start tag -/
def attrText (attval : Str → Str) (a : Str × AttrVal) : Str :=
  lowerName a.1 ++ c!"=\"" ++ attval (match a.2 with | .list xs => join c!" " xs | .str s => s | .none => []) ++ c!"\""

theorem lowerName_idem (s : Str) : lowerName (lowerName s) = lowerName s := by
  unfold lowerName
  rw [List.map_map]
  apply List.map_congr_left
  intro c _
  show lowerAscii (lowerAscii c) = lowerAscii c
  by_cases h : 'A' ≤ c ∧ c ≤ 'Z'
  · have e : lowerAscii c = Char.ofNat (c.toNat + 32) := if_pos h
    rw [e]
    have h1 : 65 ≤ c.toNat := h.1
    have h2 : c.toNat ≤ 90 := h.2
    have h3 : (Char.ofNat (c.toNat + 32)).toNat = c.toNat + 32 := by
      have : ∀ n < 91, 65 ≤ n → (Char.ofNat (n + 32)).toNat = n + 32 := by decide
      exact this c.toNat (by omega) h1
    refine if_neg ?_
    rintro ⟨_, h4⟩
    have h4 : (Char.ofNat (c.toNat + 32)).toNat ≤ 90 := h4
    omega
  · have e : lowerAscii c = c := if_neg h
    rw [e, e]

theorem attrParts_eq (attval : Str → Str) : ∀ l : List (Str × AttrVal), attrParts attval l =
    if l.any (fun a => a.2 = .none) then none
    else some ((l.filter fun a => !ignoreAttr.contains (lowerName a.1)).map (attrText attval))
  | [] => rfl
  | (n, v) :: l => by
    unfold attrParts
    rw [attrParts_eq attval l]
    by_cases hv : v = .none
    · simp [hv]
    · rw [if_neg hv]
      simp only [List.any_cons, hv, decide_false, Bool.false_or]
      by_cases hn : ignoreAttr.contains (lowerName n) = true
      · rw [if_pos hn]
        by_cases hl : (l.any fun a => decide (a.2 = AttrVal.none)) = true
        · simp only [hl, if_true]
        · simp only [hl, Bool.false_eq_true, if_false, List.filter_cons, hn, Bool.not_true]
      · rw [if_neg hn]
        by_cases hl : (l.any fun a => decide (a.2 = AttrVal.none)) = true
        · simp only [hl, if_true, Option.map_none]
        · have hn' : ignoreAttr.contains (lowerName n) = false := by simpa using hn
          simp only [hl, Bool.false_eq_true, if_false, List.filter_cons, hn', Bool.not_false, if_true, Option.map_some, List.map_cons]
          congr 2
          unfold attrText
          rw [lowerName_idem]
          cases v <;> simp_all

theorem join_blank (t : Str) (l : List Str) : join c!" " (t :: l) = t ++ l.flatMap fun x => ' ' :: x := by
  induction l generalizing t with
  | nil => simp [join]
  | cons a l ih => rw [join, ih]; simp

theorem keyLe_le : ∀ {a b : Str}, keyLe a b = true → a ≤ b
  | [], _, _ => List.nil_le _
  | _ :: _, [], h => by simp [keyLe] at h
  | a :: as, b :: bs, h => by
    simp only [keyLe, Bool.or_eq_true, decide_eq_true_eq, Bool.and_eq_true, beq_iff_eq] at h
    rw [List.cons_le_cons_iff]
    rcases h with h | ⟨rfl, h⟩
    · exact .inl h
    · exact .inr ⟨rfl, keyLe_le h⟩

/-- C54: an ignored tag produces nothing.  Any other start tag is `<` and the tag name, then, sorted by name, all the
attributes whose (lower case) name is not on the list of ignored attributes, each as ` name="value"`, then ` /` for an
empty element, `>` and the suffix.  An attribute without value makes the writer fail. -/
theorem C54_starttag (attval : Str → Str) (tag suffix : Str) (empty : Bool) (attributes : List (Str × AttrVal)) :
    (tag = c!"div" → starttag attval tag suffix empty attributes = some c!"") ∧
    (tag ≠ c!"div" → (∃ a ∈ attributes, a.2 = .none) → starttag attval tag suffix empty attributes = none) ∧
    (tag ≠ c!"div" → (∀ a ∈ attributes, a.2 ≠ .none) → ∃ kept : List (Str × AttrVal),
      kept.Pairwise (fun a b => a.1 ≤ b.1) ∧
      kept.Perm (attributes.filter fun a => !(lowerName a.1 ∈ [c!"start", c!"class", c!"classes", c!"frame", c!"rules"])) ∧
      starttag attval tag suffix empty attributes =
        some (c!"<" ++ tag ++ kept.flatMap (fun a => c!" " ++ attrText attval a) ++
          (if empty then c!" />" else c!">") ++ suffix)) := by
  have hperm : (sortItems attributes).Perm attributes := sortItems_perm _
  have hig : ∀ a : Str × AttrVal, (ignoreAttr.contains (lowerName a.1)) =
      decide (lowerName a.1 ∈ [c!"start", c!"class", c!"classes", c!"frame", c!"rules"]) := by
    intro a
    rw [Bool.eq_iff_iff]
    simp [ignoreAttr]
  refine ⟨?_, ?_, ?_⟩
  · rintro rfl
    rfl
  · intro ht ⟨a, ha, hn⟩
    unfold starttag
    have hany : (sortItems attributes).any (fun a => a.2 = .none) = true := by
      rw [List.any_eq_true]
      exact ⟨a, hperm.mem_iff.mpr ha, by simpa using hn⟩
    rw [if_neg (by simpa [ignoreTag] using ht), attrParts_eq, hany]
    rfl
  · intro ht hn
    refine ⟨(sortItems attributes).filter fun a => !ignoreAttr.contains (lowerName a.1), ?_, ?_, ?_⟩
    · apply List.Pairwise.filter
      exact (sortItems_sorted attributes).imp keyLe_le
    · have := hperm.filter fun a => !ignoreAttr.contains (lowerName a.1)
      simpa only [hig] using this
    · unfold starttag
      have hany : (sortItems attributes).any (fun a => a.2 = .none) = false := by
        rw [← Bool.not_eq_true, List.any_eq_true]
        rintro ⟨a, ha, h⟩
        exact hn a (hperm.mem_iff.mp ha) (by simpa using h)
      rw [if_neg (by simpa [ignoreTag] using ht), attrParts_eq, hany]
      simp only [Bool.false_eq_true, if_false, Option.map_some, join_blank]
      congr 1
      cases empty <;> simp [List.flatMap_map]

example : starttag id c!"ol" c!"\n" false [(c!"start", .str c!"3"), (c!"title", .str c!"x"), (c!"ids", .list [c!"a", c!"b"])] =
    some c!"<ol ids=\"a b\" title=\"x\">\n" ∧
  starttag id c!"br" c!"" true [(c!"CLASS", .str c!"3")] = some c!"<br />" ∧
  starttag id c!"br" c!"" true [(c!"start", .none)] = none := by
  refine ⟨by decide +kernel, by decide +kernel, by decide +kernel⟩

/-! ## C55 -/

/-- the link carried by a node: `refuri`, or else `uri`; a text carries none -/
def linkOf (n : DNode) : Option Str := if n.isText then none else n.refuri.or n.uri

/-- the node carries no link, or a link with an allowed scheme -/
def linkOk (netlocOk : Str → Bool) (n : DNode) : Prop :=
  ∀ uri, linkOf n = some uri → ∃ u, Emit.urlparse netlocOk uri = .ok u ∧ u.scheme ∈ linkSchemes

theorem schemes_same (s : Str) : s ∈ linkSchemes ↔ s ∈ allowedSchemes := by
  constructor
  · exact (by decide +kernel : ∀ s ∈ linkSchemes, s ∈ allowedSchemes) s
  · exact (by decide +kernel : ∀ s ∈ allowedSchemes, s ∈ linkSchemes) s

theorem checkLinks_cons_ok {netlocOk : Str → Bool} {n : DNode} {ns : List DNode} (h : linkOk netlocOk n) :
    checkLinks netlocOk (n :: ns) = checkLinks netlocOk ns := by
  rw [checkLinks]
  split
  · rfl
  · rename_i ht
    split
    · rfl
    · rename_i uri hu
      obtain ⟨u, h1, h2⟩ := h uri (by simp [linkOf, ht, hu])
      rw [h1]
      simp only
      rw [if_pos (by rw [schemes_same] at h2; simpa using h2)]

theorem checkLinks_cons_bad {netlocOk : Str → Bool} {n : DNode} {ns : List DNode} (h : ¬linkOk netlocOk n) :
    ∃ uri, linkOf n = some uri ∧
      ((∃ e, Emit.urlparse netlocOk uri = .error e ∧ checkLinks netlocOk (n :: ns) = .error (.py e)) ∨
       (∃ u, Emit.urlparse netlocOk uri = .ok u ∧ u.scheme ∉ linkSchemes ∧
          checkLinks netlocOk (n :: ns) = .error .transform)) := by
  simp only [linkOk, Classical.not_forall] at h
  obtain ⟨uri, hu, h⟩ := h
  refine ⟨uri, hu, ?_⟩
  unfold linkOf at hu
  by_cases ht : n.isText = true
  · rw [if_pos ht] at hu; simp at hu
  · rw [if_neg ht] at hu
    rw [checkLinks, if_neg ht, hu]
    cases hp : Emit.urlparse netlocOk uri with
    | error e => exact .inl ⟨e, rfl, by simp only [hp]⟩
    | ok u =>
      refine .inr ⟨u, rfl, ?_, ?_⟩
      · intro hm; exact h ⟨u, hp, hm⟩
      · have hm : allowedSchemes.contains u.scheme = false := by
          rw [← Bool.not_eq_true]
          intro hm
          exact h ⟨u, hp, by rw [schemes_same]; simpa using hm⟩
        simp only [hp, hm, Bool.false_eq_true, if_false]

/-- C55: the check accepts exactly the documents all whose links have an allowed scheme … -/
theorem C55_accepts (netlocOk : Str → Bool) (nodes : List DNode) :
    checkLinks netlocOk nodes = .ok () ↔ ∀ n ∈ nodes, linkOk netlocOk n := by
  induction nodes with
  | nil => simp [checkLinks]
  | cons n ns ih =>
    by_cases h : linkOk netlocOk n
    · rw [checkLinks_cons_ok h, ih]; simp [h]
    · obtain ⟨uri, hu, ⟨e, _, hc⟩ | ⟨u, _, _, hc⟩⟩ := checkLinks_cons_bad (ns := ns) h <;>
      · rw [hc]; simp [h]

/-- C55: … and it raises `TransformError` iff the first link that is not allowed is well-formed, with a scheme that is
not on the list. -/
theorem C55_rejects (netlocOk : Str → Bool) (nodes : List DNode) :
    checkLinks netlocOk nodes = .error .transform ↔
    ∃ before n after uri u, nodes = before ++ n :: after ∧ (∀ m ∈ before, linkOk netlocOk m) ∧ linkOf n = some uri ∧
      Emit.urlparse netlocOk uri = .ok u ∧ u.scheme ∉ linkSchemes := by
  induction nodes with
  | nil => simp [checkLinks]
  | cons n ns ih =>
    by_cases h : linkOk netlocOk n
    · rw [checkLinks_cons_ok h, ih]
      constructor
      · rintro ⟨b, m, a, uri, u, rfl, h1, h2⟩
        refine ⟨n :: b, m, a, uri, u, rfl, ?_, h2⟩
        intro x hx
        rcases List.mem_cons.mp hx with rfl | hx
        · exact h
        · exact h1 x hx
      · rintro ⟨b, m, a, uri, u, he, h1, h2⟩
        cases b with
        | nil =>
          simp at he
          obtain ⟨rfl, rfl⟩ := he
          obtain ⟨u', h3, h4⟩ := h uri h2.1
          rw [h2.2.1] at h3
          simp at h3
          subst h3
          exact absurd h4 h2.2.2
        | cons x b =>
          simp at he
          obtain ⟨rfl, rfl⟩ := he
          exact ⟨b, m, a, uri, u, rfl, fun y hy => h1 y (by simp [hy]), h2⟩
    · obtain ⟨uri, hu, ⟨e, he, hc⟩ | ⟨u, he, hs, hc⟩⟩ := checkLinks_cons_bad (ns := ns) h
      · rw [hc]
        simp only [Except.error.injEq, reduceCtorEq, false_iff]
        rintro ⟨b, m, a, uri', u, hl, h1, h2, h3, h4⟩
        cases b with
        | nil =>
          simp at hl
          obtain ⟨rfl, rfl⟩ := hl
          rw [hu] at h2
          simp at h2
          subst h2
          rw [he] at h3
          simp at h3
        | cons x b =>
          simp at hl
          obtain ⟨rfl, rfl⟩ := hl
          exact h (h1 n (by simp))
      · rw [hc]
        simp only [true_iff]
        exact ⟨[], n, ns, uri, u, rfl, by simp, hu, he, hs⟩

/-- C55 for the whole function: a document that docutils reads and that carries a well-formed link with a scheme that is not
allowed, with nothing but good links before it, makes `pypi_rest2html` raise `TransformError`; nothing is written. -/
theorem C55_pypi_rest2html {D : Type} (netlocOk : Str → Bool) (parse : Str → Option D) (nodes : D → List DNode)
    (write : D → Option Str) (source : Str) :
    pypiRest2html netlocOk parse nodes write source = .error .transform ↔
    ∃ d, parse source = some d ∧ ∃ before n after uri u, nodes d = before ++ n :: after ∧
      (∀ m ∈ before, linkOk netlocOk m) ∧ linkOf n = some uri ∧ Emit.urlparse netlocOk uri = .ok u ∧
      u.scheme ∉ linkSchemes := by
  unfold pypiRest2html
  cases hp : parse source with
  | none => simp
  | some d =>
    simp only [Option.some.injEq, exists_eq_left']
    rw [← C55_rejects]
    cases hc : checkLinks netlocOk (nodes d) with
    | error e => simp
    | ok u =>
      cases hw : write d <;> simp

theorem splitOnce_append {c : Char} {a b : Str} (h : c ∉ a) : splitOnce c (a ++ c :: b) = some (a, b) := by
  induction a with
  | nil => simp [splitOnce]
  | cons d a ih =>
    have hd : d ≠ c := fun hh => h (by simp [hh])
    have := ih (fun hh => h (by simp [hh]))
    simp [splitOnce, hd, this]

theorem splitOnce_none {c : Char} {a : Str} (h : c ∉ a) : splitOnce c a = none := by
  induction a with
  | nil => rfl
  | cons d a ih =>
    have hd : d ≠ c := fun hh => h (by simp [hh])
    have := ih (fun hh => h (by simp [hh]))
    simp [splitOnce, hd, this]

theorem urlparse_relative {netlocOk : Str → Bool} {uri : Str} {u : Emit.Url} (h : ':' ∉ uri)
    (h1 : Emit.urlparse netlocOk uri = .ok u) : u.scheme = [] := by
  have hc : ':' ∉ (uri.dropWhile fun c => c.toNat ≤ 32).filter fun c => !(c = '\t' || c = '\r' || c = '\n') := by
    intro hm
    exact h ((List.dropWhile_sublist _).mem (List.mem_filter.mp hm).1)
  unfold Emit.urlparse at h1
  simp only [splitOnce_none hc] at h1
  generalize List.filter _ _ = t at h1
  generalize (if c!"//".isPrefixOf t = true then _ else _ : Str × Str) = p at h1
  obtain ⟨n, v⟩ := p
  simp only at h1
  split at h1
  · simp at h1
  · split at h1
    · simp at h1
    · simp only [Except.ok.injEq] at h1
      rw [← h1]

/-- a relative link has no scheme, so it is never accepted -/
theorem C55_relative (netlocOk : Str → Bool) (nodes : List DNode) (n : DNode) (hn : n ∈ nodes) (uri : Str)
    (hu : linkOf n = some uri) (h : ':' ∉ uri) : checkLinks netlocOk nodes ≠ .ok () := by
  rw [Ne, C55_accepts]
  intro hh
  obtain ⟨u, h1, h2⟩ := hh n hn uri hu
  rw [urlparse_relative h h1] at h2
  exact absurd h2 (by decide)

-- a text that looks like a link, a good link, and a node with both attributes of which only `refuri` counts
example : checkLinks (fun _ => true) [⟨true, some c!"javascript:x", none⟩, ⟨false, some c!"HTTP://x/", none⟩,
    ⟨false, some c!"mailto:a@b", some c!"javascript:x"⟩] = .ok () ∧
  checkLinks (fun _ => true) [⟨false, some c!"http://x/", none⟩, ⟨false, none, some c!"javascript:x"⟩] = .error .transform ∧
  checkLinks (fun _ => true) [⟨false, none, some c!"http://[x/"⟩, ⟨false, none, some c!"javascript:x"⟩] =
    .error (.py .valueError) := by
  refine ⟨by decide +kernel, by decide +kernel, by decide +kernel⟩

end Verif.Props
