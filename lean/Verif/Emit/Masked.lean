import Verif.Emit.BackNorm
import Verif.Spec.Masked
import Verif.Creole.PlainLemmas

/-!
# html2creole and creole2html on elements that creole does not have
-/

namespace Verif.Emit

open Verif Py Html Spec Spec.Hd Spec.Rt Spec.Mk Props

/-! ## Attributes -/

theorem strLe_of_lt {s t : Str} (h : s < t) : strLe s t = true := by
  replace h : List.Lex (· < ·) s t := h
  induction h with
  | nil => rfl
  | @rel a s b t h =>
    rw [strLe, if_pos]
    exact UInt32.lt_iff_toNat_lt.mp h
  | @cons a s t _ ih =>
    rw [strLe, if_neg (Nat.lt_irrefl _), if_neg (Nat.lt_irrefl _)]
    exact ih

theorem dictSet_new {α : Type} {k : Str} {v : α} : ∀ {d : Dict α}, (∀ x ∈ d, x.1 ≠ k) → dictSet k v d = d ++ [(k, v)]
  | [], _ => rfl
  | (k', v') :: d, h => by
    rw [dictSet, if_neg (h _ List.mem_cons_self), dictSet_new fun x hx => h x (List.mem_cons_of_mem _ hx)]
    rfl

theorem dictOf_new {α : Type} : ∀ (l d : List (Str × α)), ((d ++ l).map (·.1)).Nodup → l.foldl (fun d (k, v) => dictSet k v d) d = d ++ l
  | [], d, _ => by simp
  | (k, v) :: l, d, h => by
    rw [List.foldl_cons]
    dsimp only
    rw [dictSet_new, dictOf_new l (d ++ [(k, v)]) (by simpa using h)]
    · simp
    · intro x hx he
      rw [List.map_append, List.nodup_append] at h
      exact h.2.2 x.1 (List.mem_map_of_mem hx) k (by simp) he

theorem sortKeys_sorted {α : Type} : ∀ {d : Dict α}, (d.map (·.1)).Pairwise (· < ·) → sortKeys d = d
  | [], _ => rfl
  | x :: d, h => by
    rw [List.map_cons, List.pairwise_cons] at h
    rw [sortKeys, List.foldr_cons, ← sortKeys, sortKeys_sorted h.2]
    cases d with
    | nil => rfl
    | cons y d => rw [insertKey, if_pos (strLe_of_lt (h.1 _ (by simp)))]

theorem sorted_nodup : ∀ {l : List Str}, l.Pairwise (· < ·) → l.Nodup
  | [], _ => List.nodup_nil
  | x :: l, h => by
    rw [List.pairwise_cons] at h
    refine List.nodup_cons.mpr ⟨fun hm => ?_, sorted_nodup h.2⟩
    exact List.lt_irrefl x (h.1 x hm)

theorem plain_value {v : Str} (h : v.all plainChar = true) : jsonStr v = c!"\"" ++ v ++ c!"\"" ∧ Cr.attrHtml v = v := by
  induction v with
  | nil => exact ⟨rfl, rfl⟩
  | cons c v ih =>
    rw [List.all_cons, Bool.and_eq_true] at h
    obtain ⟨i1, i2⟩ := ih h.2
    have hc := h.1
    simp only [plainChar, Bool.and_eq_true, Bool.not_eq_true', decide_eq_true_eq] at hc
    have hne : ∀ d : Char, (c!"\"\\&<>").contains d = true → c ≠ d := by
      rintro d hd rfl
      rw [hc.2] at hd; cases hd
    have hlo : ∀ d : Char, d.toNat < 32 → c ≠ d := by
      rintro d hd rfl
      have h1 := hc.1.1
      omega
    constructor
    · rw [jsonStr] at i1 ⊢
      have : jsonChar c = [c] := by
        rw [jsonChar, if_neg (hne _ (by decide)), if_neg (hne _ (by decide)), if_neg (hlo _ (by decide)), if_neg (hlo _ (by decide)),
          if_neg (hlo _ (by decide)), if_neg (hlo _ (by decide)), if_neg (hlo _ (by decide)), if_pos]
        simp [hc.1.1, hc.1.2]
      simp only [List.flatMap_cons, this] at i1 ⊢
      simp only [List.cons_append, List.nil_append, List.cons.injEq, true_and] at i1 ⊢
      exact i1
    · rw [Cr.attrHtml, List.flatMap_cons, ← Cr.attrHtml, i2, if_neg (hne _ (by decide)), Cr.textChar, if_neg (hne _ (by decide)),
        if_neg (hne _ (by decide)), if_neg (hne _ (by decide))]
      rfl

/-- the attributes come out as they were written -/
theorem attrText_plain {attrs : List (Str × Str)} (h : plainAttrs attrs = true) :
    attrText (dictOf (attrs.map fun a => (a.1, some a.2))) = attrs.flatMap attrPrint := by
  rw [plainAttrs, Bool.and_eq_true, decide_eq_true_eq] at h
  have hk : ((attrs.map fun a => (a.1, some a.2)).map (·.1)) = attrs.map (·.1) := by simp
  have hd : dictOf (attrs.map fun a => (a.1, some a.2)) = attrs.map fun a => (a.1, some a.2) := by
    rw [dictOf, dictOf_new _ [] (by rw [List.nil_append, hk]; exact sorted_nodup h.1)]
    rfl
  rw [hd, attrText, dict2string, List.map_map]
  have hs : sortKeys (attrs.map fun a => (a.1, PVal.str a.2)) = attrs.map fun a => (a.1, PVal.str a.2) := by
    rw [sortKeys_sorted]
    rw [List.map_map]
    exact h.1
  rw [show attrs.map (_ ∘ fun a => (a.1, some a.2)) = attrs.map fun a => (a.1, PVal.str a.2) from rfl, hs, List.map_map]
  have hv : ∀ a ∈ attrs, attrPrint a = ' ' :: (a.1 ++ '=' :: jsonVal (.str a.2)) := by
    intro a ha
    obtain ⟨h1, h2⟩ := plain_value (List.all_eq_true.mp h.2 a ha)
    rw [attrPrint, jsonVal, h1, h2]
    simp
  clear hs hd hk h
  cases attrs with
  | nil => rfl
  | cons a l =>
    have key : ∀ (l : List (Str × Str)) (a : Str × Str), (∀ x ∈ a :: l, attrPrint x = ' ' :: (x.1 ++ '=' :: jsonVal (.str x.2))) →
        (a :: l).flatMap attrPrint = ' ' :: join c!" " ((a :: l).map fun x => x.1 ++ '=' :: jsonVal (.str x.2)) := by
      intro l
      induction l with
      | nil => intro a h; rw [List.flatMap_cons, h a List.mem_cons_self]; simp [join]
      | cons b l ih =>
        intro a h
        rw [List.flatMap_cons, ih b fun x hx => h x (List.mem_cons_of_mem _ hx), h a List.mem_cons_self, List.map_cons (l := b :: l), List.map_cons,
          join_cons_cons]
        simp
    rw [key l a hv]
    have hne : join c!" " ((a :: l).map fun x => x.1 ++ '=' :: jsonVal (.str x.2)) ≠ [] := by
      cases l with
      | nil => simp [join]
      | cons b l => rw [List.map_cons, List.map_cons, join_cons_cons]; simp
    show (match join c!" " ((a :: l).map fun x => x.1 ++ '=' :: jsonVal (.str x.2)) with | [] => [] | s => ' ' :: s) = _
    split
    · next h0 => exact absurd h0 hne
    · rfl

/-! ## The creole text -/

theorem noBreaks_append (a b : List Cr.Inl) : noBreaks (a ++ b) = (noBreaks a && noBreaks b) := by
  induction a with
  | nil => rfl
  | cons i a ih => rw [List.cons_append, noBreaks, noBreaks, ih, Bool.and_assoc]

theorem foreign {tag : Str} (h : foreignTag tag = true) : tag ∉ knownKinds .creole ∧ headline? tag = none ∧ blockNames.contains tag = false ∧
    tag ≠ c!"tbody" ∧ tag ≠ c!"blockdata" ∧ tag ≠ c!"inlinedata" := by
  simp only [foreignTag, Bool.and_eq_true, Bool.not_eq_true', bne_iff_ne, Option.isNone_iff_eq_none] at h
  obtain ⟨⟨⟨⟨⟨h1, h2⟩, h3⟩, h4⟩, h5⟩, h6⟩ := h
  exact ⟨by simpa using h1, h2, h3, h4, h5, h6⟩

theorem foreign_ne {tag : Str} (h : foreignTag tag = true) {t : Str} (ht : t ∈ knownKinds .creole) : tag ≠ t := by
  rintro rfl
  exact (foreign h).1 ht

theorem foreign_delimiters {tag : Str} (h : foreignTag tag = true) : delimiters .creole tag = none := by
  cases hd : delimiters .creole tag with
  | none => rfl
  | some x =>
    obtain ⟨m, hm, _⟩ := delimiters_method (before := x.1) (after := x.2) hd
    rw [methodOf_unknown (foreign h).1] at hm
    cases hm

theorem htmlCall_print (t : Str) : (htmlCall t).print = c!"<<html>>" ++ t ++ c!"<</html>>" := by
  rw [htmlCall, Cr.Inl.print]
  simp

mutual
theorem gives_wr (m w : Str) : ∀ x : Wr, x.ok = true → (noBreaks x.flat = true ∨ m ≠ []) → Gives .htmlMacro m (x.ht w) (Cr.prints x.flat)
  | .piece i, h, hb => by
    rw [Wr.ok, Bool.and_eq_true] at h
    rw [Wr.ht, Wr.flat, Cr.prints, Cr.prints, List.append_nil]
    have := gives_inl (p := .htmlMacro) m i w h.1 (.inr h.2)
    rw [inl_stable i _ h.2] at this
    · exact this
    · rcases hb with hb | hb
      · rw [Wr.flat, noBreaks, noBreaks, Bool.and_true] at hb
        exact .inl hb
      · exact .inr (by rw [brk, if_neg hb])
  | .face f l, h, hb => by
    rw [Wr.ok] at h
    rw [Wr.ht, Wr.flat, Cr.prints, Cr.prints, List.append_nil, Cr.Inl.print]
    refine gives_face f (gives_wrs m _ l h ?_)
    rwa [Wr.flat, noBreaks, noBreaks, Bool.and_true, Inl.noBreak] at hb
  | .other tag attrs l, h, hb => by
    simp only [Wr.ok, Bool.and_eq_true, Bool.not_eq_true'] at h
    have hin := gives_wrs m w l h.2 (by
      refine hb.imp_left fun hb => ?_
      simp only [Wr.flat, noBreaks, noBreaks_append, Bool.and_eq_true] at hb
      exact hb.2.1)
    obtain ⟨f1, f2, f3, f4, f5, f6⟩ := foreign h.1.1.1
    have hm : marksIn m tag = m := by
      rw [marksIn, if_neg (foreign_ne h.1.1.1 (by decide +kernel)), if_neg (foreign_ne h.1.1.1 (by decide +kernel))]
    rw [Wr.ht]
    refine Gives.el f4 ?_
    rw [creE, hm, hin.whole, foreign_delimiters h.1.1.1]
    dsimp only
    unfold creOther
    rw [if_neg (foreign_ne h.1.1.1 (by decide +kernel)), if_pos ⟨f1, f2⟩, creUnknown, maskContent]
    have hne : Cr.prints (flats l) ≠ [] := by simpa using h.1.2
    simp only [hne, if_false, attrText_plain h.1.1.2]
    rw [Wr.flat, Cr.prints, Creole.prints_append, Cr.prints, Cr.prints, htmlCall_print, htmlCall_print, tagStart]
    simp
  | .single tag attrs, h, hb => by
    simp only [Wr.ok, Bool.and_eq_true] at h
    obtain ⟨f1, f2, f3, f4, f5, f6⟩ := foreign h.1
    rw [Wr.ht]
    refine Gives.void ?_
    rw [creE, if_neg (foreign_ne h.1 (by decide +kernel)), if_neg (foreign_ne h.1 (by decide +kernel)), if_pos f1, creUnknown, maskContent]
    simp only [if_true, attrText_plain h.2]
    rw [Wr.flat, Cr.prints, Cr.prints, htmlCall_print, tagStart]
    simp
theorem gives_wrs (m w : Str) : ∀ l : List Wr, oks l = true → (noBreaks (flats l) = true ∨ m ≠ []) → Gives .htmlMacro m (hts w l) (Cr.prints (flats l))
  | [], _, _ => by rw [hts, flats]; exact Gives.nil m
  | x :: l, h, hb => by
    rw [oks, Bool.and_eq_true] at h
    rw [flats, noBreaks_append, Bool.and_eq_true] at hb
    rw [hts, flats, Creole.prints_append]
    exact (gives_wr m w x h.1 (hb.imp_left (·.1))).append (gives_wrs m w l h.2 (hb.imp_left (·.2)))
end

/-! ## The HTML -/

theorem htmlCall_html {t : Str} (h : strip t = t) (br : Str) : (htmlCall t).html htmlCx br = t := by
  rw [htmlCall, Cr.Inl.html, h]
  rfl

theorem strip_tag (t : Str) : strip ('<' :: t ++ c!">") = '<' :: t ++ c!">" := by
  refine strip_id ?_ ?_
  · intro z hz
    simp only [List.cons_append, List.head?_cons, Option.some.injEq] at hz
    subst hz; decide
  · intro z hz
    simp only [List.getLast?_append, List.getLast?_singleton, Option.some_or, Option.some.injEq] at hz
    subst hz; decide

mutual
/-- without macros it does not matter which ones there are -/
theorem inl_cx {cx : Cr.Ctx} (hs : cx.strict = false) : ∀ (i : Cr.Inl) (br : Str), Inl.decent i = true → i.html cx br = i.html {} br
  | .face f l, br, h => by rw [Inl.decent] at h; rw [Cr.Inl.html, Cr.Inl.html, inls_cx hs l _ h]
  | .link t [], br, h => rfl
  | .link t (i :: l), br, h => by
    rw [Inl.decent, decents, Bool.and_eq_true] at h
    rw [Cr.Inl.html, Cr.Inl.html, inl_cx hs i _ h.1, inls_cx hs l _ h.2]
  | .sized t s x y, br, h => by rw [Cr.Inl.html, Cr.Inl.html, hs]
  | .chr _, _, _ | .esc _, _, _ | .image _ [], _, _ | .image _ (_ :: _), _, _ | .nowiki _, _, _ | .br, _, _ | .url _, _, _ | .escUrl _, _, _ => rfl
  | .mac _ _, br, h => by simp [Inl.decent] at h
  | .macText _ _ _, br, h => by simp [Inl.decent] at h
theorem inls_cx {cx : Cr.Ctx} (hs : cx.strict = false) : ∀ (l : List Cr.Inl) (br : Str), decents l = true → Cr.htmls cx br l = Cr.htmls {} br l
  | [], br, _ => rfl
  | i :: l, br, h => by
    rw [decents, Bool.and_eq_true] at h
    rw [Cr.htmls, Cr.htmls, inl_cx hs i br h.1, inls_cx hs l br h.2]
end

mutual
theorem written_wr (w : Str) : ∀ x : Wr, x.ok = true → written (x.ht w) = Cr.htmls htmlCx (c!"<br />" ++ w) x.flat
  | .piece i, h => by
    rw [Wr.ok, Bool.and_eq_true] at h
    rw [Wr.ht, Wr.flat, Cr.htmls, Cr.htmls, List.append_nil, inl_cx rfl i _ h.1, written_inl]
  | .face f l, h => by
    rw [Wr.ok] at h
    rw [Wr.ht, Wr.flat, Cr.htmls, Cr.htmls, List.append_nil, Cr.Inl.html, written_one, Ht.print, written_wrs _ l h]
    simp [tagStart]
  | .other tag attrs l, h => by
    simp only [Wr.ok, Bool.and_eq_true, Bool.not_eq_true'] at h
    have h1 : strip (tagStart tag attrs ++ c!">") = tagStart tag attrs ++ c!">" := by
      have := strip_tag (tag ++ attrs.flatMap attrPrint)
      rw [tagStart]
      simpa using this
    have h2 : strip (c!"</" ++ tag ++ c!">") = c!"</" ++ tag ++ c!">" := strip_tag ('/' :: tag)
    rw [Wr.ht, Wr.flat, Cr.htmls, Creole.htmls_append, Cr.htmls, Cr.htmls, htmlCall_html h1, htmlCall_html h2, written_one, Ht.print,
      written_wrs w l h.2]
    simp
  | .single tag attrs, h => by
    rw [Wr.ht, Wr.flat, Cr.htmls, Cr.htmls, htmlCall_html, written_one, Ht.print, List.append_nil]
    have := strip_tag (tag ++ attrs.flatMap attrPrint ++ c!" /")
    rw [tagStart]
    simpa using this
theorem written_wrs (w : Str) : ∀ l : List Wr, oks l = true → written (hts w l) = Cr.htmls htmlCx (c!"<br />" ++ w) (flats l)
  | [], _ => rfl
  | x :: l, h => by
    rw [oks, Bool.and_eq_true] at h
    rw [hts, flats, written_append, Creole.htmls_append, written_wr w x h.1, written_wrs w l h.2]
end

/-! ## The elements are well-formed -/

mutual
theorem wf_wr (b : Bool) (w : Str) : ∀ x : Wr, x.ok = true → Wf b (x.ht w)
  | .piece i, h => by rw [Wr.ht]; exact wf_inl b i w
  | .face f l, h => by
    rw [Wr.ok] at h
    rw [Wr.ht]
    exact Wf.el (by cases f <;> decide) (by cases f <;> decide) (by cases f <;> decide) (by cases f <;> cases b <;> decide) (wf_wrs _ _ l h)
  | .other tag attrs l, h => by
    simp only [Wr.ok, Bool.and_eq_true, Bool.not_eq_true'] at h
    obtain ⟨f1, f2, f3, f4, f5, f6⟩ := foreign h.1.1.1
    rw [Wr.ht]
    exact Wf.el (foreign_ne h.1.1.1 (by decide +kernel)) (foreign_ne h.1.1.1 (by decide +kernel)) f4 (by rw [f3]; simp) (wf_wrs _ _ l h.2)
  | .single tag attrs, h => by
    simp only [Wr.ok, Bool.and_eq_true] at h
    obtain ⟨f1, f2, f3, f4, f5, f6⟩ := foreign h.1
    rw [Wr.ht]
    exact Wf.void f5 f6
theorem wf_wrs (b : Bool) (w : Str) : ∀ l : List Wr, oks l = true → Wf b (hts w l)
  | [], _ => by rw [hts]; exact Wf.nil b
  | x :: l, h => by
    rw [oks, Bool.and_eq_true] at h
    rw [hts]
    exact (wf_wr b w x h.1).append (wf_wrs b w l h.2)
end

end Verif.Emit
