import Verif.Creole.DocMain
import Verif.Spec.CreoleLists

/-!
# The HTML of a tree of items
-/

namespace Verif.Creole

open Verif Re Py Spec Spec.Cr

/-- the lists `X` and the item around them end -/
def endItem (X : List (Mark × Nat)) : Str := X.flatMap endList ++ c!"</li>"

theorem itemsHtml_same {cx : Ctx} {k : Mark} {X outer : List (Mark × Nat)} {i : Item} {l : List Item} (hX : ∀ x ∈ X, i.level < x.2) (hk : i.kind = k) :
    itemsHtml cx (X ++ (k, i.level) :: outer) (i :: l) = endItem X ++ i.html cx ++ itemsHtml cx ((k, i.level) :: outer) l := by
  have h1 : ∀ X : List (Mark × Nat), (∀ x ∈ X, i.level < x.2) →
      (X ++ (k, i.level) :: outer).dropWhile (fun x => x.2 != i.level) = (k, i.level) :: outer ∧
      (X ++ (k, i.level) :: outer).takeWhile (fun x => x.2 != i.level) = X := by
    intro X
    induction X with
    | nil => intro _; simp
    | cons a X ih =>
      intro h
      obtain ⟨h2, h3⟩ := ih (fun x hx => h x (by simp [hx]))
      have : (a.2 != i.level) = true := by have := h a (by simp); simp; omega
      rw [List.cons_append, List.dropWhile_cons_of_pos (p := fun x : Mark × Nat => x.2 != i.level) this, List.takeWhile_cons_of_pos (p := fun x : Mark × Nat => x.2 != i.level) this, h2, h3]
      exact ⟨rfl, rfl⟩
  obtain ⟨h2, h3⟩ := h1 X hX
  rw [itemsHtml, h2, h3]
  simp [hk, endItem]

theorem itemsHtml_new {cx : Ctx} {S : List (Mark × Nat)} {i : Item} {l : List Item} (hS : ∀ x ∈ S, x.2 < i.level) :
    itemsHtml cx S (i :: l) = beginList i.kind i.level ++ i.html cx ++ itemsHtml cx ((i.kind, i.level) :: S) l := by
  have h1 : S.dropWhile (fun x => x.2 != i.level) = [] := by
    clear l
    induction S with
    | nil => rfl
    | cons a S ih =>
      have : (a.2 != i.level) = true := by have := hS a (by simp); simp; omega
      rw [List.dropWhile_cons_of_pos (p := fun x : Mark × Nat => x.2 != i.level) this]
      exact ih fun x hx => hS x (by simp [hx])
  rw [itemsHtml, h1]
  simp [beginList]

mutual
/-- what follows the beginning of an item -/
theorem branch_html {cx : Ctx} {k : Mark} {n : Nat} {outer : List (Mark × Nat)} (hS : ∀ x ∈ outer, x.2 < n) : (kind : Mark) → (sub : List Branch) →
    branchesOk cx (n + 1) sub = true →
    ∃ X w, (∀ x ∈ X, n < x.2) ∧
      (∀ l, itemsHtml cx ((k, n) :: outer) (branchesItems kind sub ++ l) = w ++ itemsHtml cx (X ++ (k, n) :: outer) l) ∧
      w ++ endItem X = (if sub.isEmpty then [] else c!"\n" ++ indentTabs (n + 1) ++ c!"<" ++ kind.tag ++ c!">" ++ branchesHtml cx (n + 1) sub ++
        c!"\n" ++ indentTabs (n + 1) ++ c!"</" ++ kind.tag ++ c!">") ++ c!"</li>"
  | kind, [] => fun _ => ⟨[], [], by simp, by simp [branchesItems], by simp [endItem]⟩
  | kind, .mk pre text kind' sub' :: l' => by
    intro hok
    simp only [branchesOk, Branch.ok, Bool.and_eq_true, beq_iff_eq] at hok
    obtain ⟨⟨⟨hlen, hi⟩, hsub⟩, hl'⟩ := hok
    have hS' : ∀ x ∈ (k, n) :: outer, x.2 < n + 1 := by
      intro x hx
      rw [List.mem_cons] at hx
      rcases hx with rfl | hx
      · exact Nat.lt_succ_self _
      · have := hS x hx; omega
    obtain ⟨X1, w1, h1, h2, h3⟩ := branch_html (cx := cx) (k := kind) (n := n + 1) (outer := (k, n) :: outer) hS' kind' sub' hsub
    obtain ⟨X2, w2, h4, h5, h6⟩ := branches_html (cx := cx) (n := n + 1) (k := kind) (outer := (k, n) :: outer) hS' l' hl' X1 h1
    refine ⟨X2 ++ [(kind, n + 1)], beginList kind (n + 1) ++ Item.html cx ⟨pre, kind, text⟩ ++ w1 ++ w2, ?_, ?_, ?_⟩
    · intro x hx
      rw [List.mem_append, List.mem_singleton] at hx
      rcases hx with hx | rfl
      · have := h4 x hx; omega
      · exact Nat.lt_succ_self _
    · intro l
      simp only [branchesItems, Branch.items, List.cons_append, List.append_assoc]
      rw [itemsHtml_new (by rw [show Item.level ⟨pre, kind, text⟩ = n + 1 from hlen]; exact hS')]
      simp only [show Item.level ⟨pre, kind, text⟩ = n + 1 from hlen]
      rw [h2, h5]
      simp
    · have e1 : w1 ++ w2 ++ endItem X2 = w1 ++ endItem X1 ++ branchesHtml cx (n + 1) l' := by
        rw [List.append_assoc, h6, List.append_assoc]
      have e2 : endItem (X2 ++ [(kind, n + 1)]) = endItem X2 ++ c!"\n" ++ indentTabs (n + 1) ++ c!"</" ++ kind.tag ++ c!">" ++ c!"</li>" := by
        simp [endItem, endList]
      rw [e2]
      have e3 : beginList kind (n + 1) ++ Item.html cx ⟨pre, kind, text⟩ ++ w1 ++ w2 ++
          (endItem X2 ++ c!"\n" ++ indentTabs (n + 1) ++ c!"</" ++ kind.tag ++ c!">" ++ c!"</li>") =
          beginList kind (n + 1) ++ Item.html cx ⟨pre, kind, text⟩ ++ (w1 ++ w2 ++ endItem X2) ++ (c!"\n" ++ indentTabs (n + 1) ++ c!"</" ++ kind.tag ++ c!">" ++ c!"</li>") := by
        simp only [List.append_assoc]
      rw [e3, e1, h3]
      simp [beginList, branchesHtml, Branch.html, Item.html, Item.level, hlen]
/-- further items -/
theorem branches_html {cx : Ctx} {k : Mark} {n : Nat} {outer : List (Mark × Nat)} (hS : ∀ x ∈ outer, x.2 < n) : (bs : List Branch) →
    branchesOk cx n bs = true → (X : List (Mark × Nat)) → (∀ x ∈ X, n < x.2) →
    ∃ X' w, (∀ x ∈ X', n < x.2) ∧
      (∀ l, itemsHtml cx (X ++ (k, n) :: outer) (branchesItems k bs ++ l) = w ++ itemsHtml cx (X' ++ (k, n) :: outer) l) ∧
      w ++ endItem X' = endItem X ++ branchesHtml cx n bs
  | [] => fun _ X hX => ⟨X, [], hX, by simp [branchesItems], by simp [branchesHtml]⟩
  | .mk pre text kind' sub' :: l' => by
    intro hok X hX
    simp only [branchesOk, Branch.ok, Bool.and_eq_true, beq_iff_eq] at hok
    obtain ⟨⟨⟨hlen, hi⟩, hsub⟩, hl'⟩ := hok
    obtain ⟨X1, w1, h1, h2, h3⟩ := branch_html (cx := cx) (k := k) (n := n) (outer := outer) hS kind' sub' hsub
    obtain ⟨X2, w2, h4, h5, h6⟩ := branches_html (cx := cx) (n := n) (k := k) (outer := outer) hS l' hl' X1 h1
    have hlen' : Item.level ⟨pre, k, text⟩ = n := hlen
    refine ⟨X2, endItem X ++ Item.html cx ⟨pre, k, text⟩ ++ w1 ++ w2, h4, ?_, ?_⟩
    · intro l
      simp only [branchesItems, Branch.items, List.cons_append, List.append_assoc]
      have := itemsHtml_same (cx := cx) (k := k) (X := X) (outer := outer) (i := ⟨pre, k, text⟩)
        (l := branchesItems kind' sub' ++ (branchesItems k l' ++ l)) (by rw [hlen']; exact hX) rfl
      rw [hlen'] at this
      rw [this, h2, h5]
      simp
    · rw [List.append_assoc, h6]
      have e1 : endItem X ++ Item.html cx ⟨pre, k, text⟩ ++ w1 ++ (endItem X1 ++ branchesHtml cx n l') =
          endItem X ++ Item.html cx ⟨pre, k, text⟩ ++ (w1 ++ endItem X1) ++ branchesHtml cx n l' := by
        simp only [List.append_assoc]
      rw [e1, h3]
      simp [branchesHtml, Branch.html, Item.html, Item.level, hlen]
end

/-- the HTML of a list whose items form a tree -/
theorem listHtml_branches {cx : Ctx} {k : Mark} {bs : List Branch} {i : Item} {l : List Item} (hok : branchesOk cx 0 bs = true)
    (h : branchesItems k bs = i :: l) :
    listHtml cx i l = c!"<" ++ k.tag ++ c!">" ++ branchesHtml cx 0 bs ++ c!"\n</" ++ k.tag ++ c!">" := by
  cases bs with
  | nil => simp [branchesItems] at h
  | cons b bs =>
    obtain ⟨pre, text, kind, sub⟩ := b
    simp only [branchesItems, Branch.items, List.cons_append, List.cons.injEq] at h
    obtain ⟨rfl, rfl⟩ := h
    simp only [branchesOk, Branch.ok, Bool.and_eq_true, beq_iff_eq] at hok
    obtain ⟨⟨⟨hlen, hi⟩, hsub⟩, hl'⟩ := hok
    obtain ⟨X1, w1, h1, h2, h3⟩ := branch_html (cx := cx) (k := k) (n := 0) (outer := []) (by simp) kind sub hsub
    obtain ⟨X2, w2, h4, h5, h6⟩ := branches_html (cx := cx) (n := 0) (k := k) (outer := []) (by simp) bs hl' X1 h1
    have hlen' : Item.level ⟨pre, k, text⟩ = 0 := hlen
    unfold listHtml
    rw [hlen', h2]
    have h5' := h5 []
    rw [List.append_nil, itemsHtml] at h5'
    rw [h5']
    have e : (X2 ++ [(k, 0)]).flatMap endList = endItem X2 ++ (c!"\n</" ++ k.tag ++ c!">") := by
      simp [endItem, endList, indentTabs]
    have e1 : w1 ++ (w2 ++ (endItem X2 ++ (c!"\n</" ++ k.tag ++ c!">"))) = w1 ++ endItem X1 ++ branchesHtml cx 0 bs ++ (c!"\n</" ++ k.tag ++ c!">") := by
      rw [← List.append_assoc w2, h6]
      simp only [List.append_assoc]
    rw [e, e1, h3]
    simp [branchesHtml, Branch.html, Item.html, Item.level, hlen]

mutual
theorem branch_ok {k : Mark} {n : Nat} : (b : Branch) → b.ok cx n = true → (b.items k).all (Item.ok cx) = true
  | .mk pre text kind sub => by
    intro h
    simp only [Branch.ok, Bool.and_eq_true] at h
    simp only [Branch.items, List.all_cons, Bool.and_eq_true]
    exact ⟨h.1.2, branches_ok sub h.2⟩
theorem branches_ok {k : Mark} {n : Nat} : (bs : List Branch) → branchesOk cx n bs = true → (branchesItems k bs).all (Item.ok cx) = true
  | [] => fun _ => rfl
  | b :: bs => by
    intro h
    simp only [branchesOk, Bool.and_eq_true] at h
    simp only [branchesItems, List.all_append, Bool.and_eq_true]
    exact ⟨branch_ok b h.1, branches_ok bs h.2⟩
end

end Verif.Creole
