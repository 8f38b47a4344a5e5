import Verif.Props.Deentity
import Verif.Props.EmitText
import Verif.Spec.Rest

/-!
# C43, C44: links and pictures in html2rest
-/

namespace Verif.Props

open Verif Py Html Emit Spec

/-! ## Lists of uses -/

theorem mem_firstUses {u : Use} : ∀ {us : List Use}, u ∈ firstUses us → u ∈ us
  | [], h => by simp [firstUses] at h
  | v :: us, h => by
    rw [firstUses] at h
    rcases List.mem_cons.mp h with h | h
    · rw [h]; exact List.mem_cons_self
    · exact List.mem_cons_of_mem _ (mem_firstUses (List.mem_filter.mp h).1)

/-- the same text -/
def SameText (u v : Use) : Prop := u.picture = v.picture ∧ u.text = v.text

instance (u v : Use) : Decidable (SameText u v) := inferInstanceAs (Decidable (_ ∧ _))

theorem firstUses_append (us : List Use) (u : Use) :
    firstUses (us ++ [u]) = firstUses us ++ if us.any (fun v => SameText v u) then [] else [u] := by
  induction us with
  | nil => rfl
  | cons v us ih =>
    rw [List.cons_append, firstUses, ih, firstUses, List.filter_append, List.cons_append]
    congr 1
    congr 1
    rw [List.any_cons]
    by_cases h : SameText v u
    · rw [decide_eq_true h, Bool.true_or, if_pos rfl]
      split
      · rfl
      · rw [List.filter_cons, if_neg, List.filter_nil]
        simp [h.1, h.2]
    · rw [decide_eq_false h, Bool.false_or]
      split
      · rfl
      · rw [List.filter_cons, if_pos, List.filter_nil]
        rw [decide_eq_true_eq]
        exact fun h' => h ⟨h'.1.symm, h'.2.symm⟩

theorem definitions_append (us : List Use) (u : Use) :
    definitions (us ++ [u]) = definitions us ++
      if us.any (fun v => SameText v u) = false ∧ (u.picture = true ∨ u.inCell = true) then [u] else [] := by
  rw [definitions, firstUses_append, List.filter_append, definitions]
  congr 1
  cases us.any (fun v => SameText v u) with
  | true => simp
  | false =>
    simp only [Bool.false_eq_true, if_false, List.filter_cons, List.filter_nil, true_and, Bool.or_eq_true]

/-! ## Parts of a text in order -/

theorem inOrder_append_left {ds : List Str} {t : Str} (a : Str) (h : InOrder ds t) : InOrder ds (a ++ t) := by
  cases ds with
  | nil => trivial
  | cons d ds =>
    obtain ⟨x, y, h1, h2⟩ := h
    exact ⟨a ++ x, y, by rw [h1]; simp, h2⟩

theorem inOrder_append {ds es : List Str} {t u : Str} (h : InOrder ds t) (h' : InOrder es u) : InOrder (ds ++ es) (t ++ u) := by
  induction ds generalizing t with
  | nil => exact inOrder_append_left t h'
  | cons d ds ih =>
    obtain ⟨x, y, h1, h2⟩ := h
    exact ⟨x, y ++ u, by rw [h1]; simp, ih h2⟩

theorem inOrder_join (ds : List Str) : InOrder ds (join c!"\n" ds) := by
  induction ds with
  | nil => trivial
  | cons d ds ih =>
    cases ds with
    | nil => exact ⟨[], [], by simp [Py.join], trivial⟩
    | cons e ds => exact ⟨[], _, by rw [join_cons_cons]; simp only [List.nil_append, List.append_assoc]; rfl, inOrder_append_left _ ih⟩

theorem inOrder_append_right {ds : List Str} {t : Str} (h : InOrder ds t) (b : Str) : InOrder ds (t ++ b) := by
  have := inOrder_append (es := []) (u := b) h trivial
  rwa [List.append_nil] at this

/-! ## The invariant -/

/-- the URL of the first use of a text -/
def urlOf (us : List Use) (pic : Bool) (text : Str) : Option (Option Str) :=
  (us.find? fun u => u.picture = pic ∧ u.text = text).map (·.url)

/-- no URL is empty -/
def UrlsGiven (us : List Use) : Prop := ∀ u ∈ us, ∃ c cs, u.url = some (c :: cs)

/-- The texts used so far are `us`; the definitions `out` have been emitted already. -/
structure Recorded (us : List Use) (out : List Str) (s : ESt) : Prop where
  links : ∀ t, dictGet t s.usedLinks = urlOf us false t
  images : ∀ t, dictGet t s.usedImages = urlOf us true t
  consistent : Consistent us
  defs : UrlsGiven us → (definitions us).map Use.definition = out ++ s.subst

theorem dictGet_set {α : Type} (k k' : Str) (v : α) (d : Dict α) :
    dictGet k' (dictSet k v d) = if k' = k then some v else dictGet k' d := by
  induction d with
  | nil =>
    simp only [dictSet, dictGet, List.lookup_cons, List.lookup_nil]
    by_cases h : k' = k
    · simp [h]
    · simp [h, beq_eq_false_iff_ne.mpr h]
  | cons p d ih =>
    obtain ⟨k1, v1⟩ := p
    rw [dictGet] at ih
    simp only [dictGet, dictSet]
    by_cases h1 : k1 = k
    · subst h1
      rw [if_pos rfl, List.lookup_cons, List.lookup_cons]
      by_cases h : k' = k1
      · simp [h]
      · simp [h, beq_eq_false_iff_ne.mpr h]
    · rw [if_neg h1, List.lookup_cons, List.lookup_cons, ih, dictGet]
      by_cases h : k' = k1
      · subst h; simp [h1]
      · simp [beq_eq_false_iff_ne.mpr h]

theorem urlOf_append (us : List Use) (u : Use) (pic : Bool) (text : Str) :
    urlOf (us ++ [u]) pic text = (urlOf us pic text).or (if u.picture = pic ∧ u.text = text then some u.url else none) := by
  rw [urlOf, List.find?_append, urlOf]
  cases us.find? fun u => u.picture = pic ∧ u.text = text with
  | some v => rfl
  | none =>
    simp only [Option.none_or, Option.map_none, List.find?_cons, List.find?_nil]
    by_cases h : u.picture = pic ∧ u.text = text
    · simp [h]
    · simp [h]

theorem urlOf_none {us : List Use} {u : Use} : urlOf us u.picture u.text = none ↔ us.any (fun v => SameText v u) = false := by
  rw [urlOf, Option.map_eq_none_iff, List.find?_eq_none, List.any_eq_false]
  constructor
  · intro h x hx hs
    exact h x hx (decide_eq_true (of_decide_eq_true hs : SameText x u))
  · intro h x hx hs
    exact h x hx (decide_eq_true (p := SameText x u) (of_decide_eq_true hs))

theorem urlOf_some {us : List Use} {pic : Bool} {text : Str} {url : Option Str} (h : urlOf us pic text = some url) :
    ∃ u ∈ us, u.picture = pic ∧ u.text = text ∧ u.url = url := by
  rw [urlOf, Option.map_eq_some_iff] at h
  obtain ⟨u, hu, hurl⟩ := h
  have h1 := List.find?_some hu
  simp only [decide_eq_true_eq] at h1
  exact ⟨u, List.mem_of_find?_eq_some hu, h1.1, h1.2, hurl⟩

theorem consistent_append_new {us : List Use} {u : Use} (h : Consistent us) (hu : urlOf us u.picture u.text = none) :
    Consistent (us ++ [u]) := by
  rw [urlOf_none, List.any_eq_false] at hu
  simp only [decide_eq_true_eq] at hu
  intro a ha b hb h1 h2
  rcases List.mem_append.mp ha with ha' | ha' <;> rcases List.mem_append.mp hb with hb' | hb'
  · exact h a ha' b hb' h1 h2
  · rw [List.mem_singleton] at hb'; subst hb'; exact absurd ⟨h1, h2⟩ (hu a ha')
  · rw [List.mem_singleton] at ha'; subst ha'; exact absurd ⟨h1.symm, h2.symm⟩ (hu b hb')
  · rw [List.mem_singleton] at ha' hb'; rw [ha', hb']

theorem consistent_append_old {us : List Use} {u : Use} (h : Consistent us) (hu : urlOf us u.picture u.text = some u.url) :
    Consistent (us ++ [u]) := by
  obtain ⟨v, hv, h1, h2, h3⟩ := urlOf_some hu
  intro a ha b hb h4 h5
  rcases List.mem_append.mp ha with ha' | ha' <;> rcases List.mem_append.mp hb with hb' | hb'
  · exact h a ha' b hb' h4 h5
  · rw [List.mem_singleton] at hb'; subst hb'
    rw [← h3]; exact h a ha' v hv (h4.trans h1.symm) (h5.trans h2.symm)
  · rw [List.mem_singleton] at ha'; subst ha'
    rw [← h3]; exact h v hv b hb' (h1.trans h4) (h2.trans h5)
  · rw [List.mem_singleton] at ha' hb'; rw [ha', hb']

/-- the dictionary after a use -/
theorem oldSubst_ok {d d' : Dict (Option Str)} {text : Str} {url old : Option Str} (h : oldSubst d text url = .ok (old, d')) :
    (dictGet text d = none ∧ old = none ∧ d' = dictSet text url d) ∨ (dictGet text d = some url ∧ old = url ∧ d' = d) := by
  rw [oldSubst] at h
  split at h
  · next hn => cases h; exact .inl ⟨hn, rfl, rfl⟩
  · next o ho =>
    split at h
    · next he => cases h; exact .inr ⟨by rw [ho, he], he, rfl⟩
    · cases h

theorem oldSubst_error {d : Dict (Option Str)} {text : Str} {url : Option Str} {e : PyErr} (h : oldSubst d text url = .error e) :
    e = .html2rest ∧ ∃ o, dictGet text d = some o ∧ o ≠ url := by
  rw [oldSubst] at h
  split at h
  · cases h
  · next o ho =>
    split at h
    · cases h
    · next he => cases h; exact ⟨rfl, o, ho, he⟩

/-- the parts of the state that matter here -/
def linkData (s : ESt) : Dict (Option Str) × Dict (Option Str) × List Str := (s.usedLinks, s.usedImages, s.subst)

theorem Recorded.same {us : List Use} {out : List Str} {s s' : ESt} (h : Recorded us out s) (hs : linkData s' = linkData s) :
    Recorded us out s' := by
  simp only [linkData, Prod.mk.injEq] at hs
  exact ⟨fun t => by rw [hs.1]; exact h.links t, fun t => by rw [hs.2.1]; exact h.images t, h.consistent,
    fun hu => by rw [hs.2.2]; exact h.defs hu⟩

theorem urlsGiven_left {us vs : List Use} (h : UrlsGiven (us ++ vs)) : UrlsGiven us :=
  fun u hu => h u (List.mem_append.mpr (.inl hu))

theorem isOld_given {url : Option Str} (h : ∃ c cs, url = some (c :: cs)) : isOld url = true := by
  obtain ⟨c, cs, rfl⟩ := h; rfl

/-- one more link -/
theorem Recorded.link {us : List Use} {out : List Str} {s : ESt} (h : Recorded us out s) {text : Str} {url old : Option Str}
    {d : Dict (Option Str)} (ho : oldSubst s.usedLinks text url = .ok (old, d)) (cell : Bool) {s' : ESt}
    (h1 : s'.usedLinks = d) (h2 : s'.usedImages = s.usedImages)
    (h3 : s'.subst = s.subst ++ if cell = true ∧ isOld old = false then [c!".. _" ++ text ++ c!": " ++ fmt url] else []) :
    Recorded (us ++ [⟨false, text, url, cell⟩]) out s' := by
  have himg : ∀ t, dictGet t s'.usedImages = urlOf (us ++ [⟨false, text, url, cell⟩]) true t := by
    intro t
    rw [h2, h.images, urlOf_append]
    simp
  rcases oldSubst_ok ho with ⟨hn, rfl, rfl⟩ | ⟨hn, rfl, rfl⟩
  · have hu : urlOf us false text = none := by rw [← h.links]; exact hn
    refine ⟨fun t => ?_, himg, consistent_append_new h.consistent hu, fun hg => ?_⟩
    · rw [h1, dictGet_set, urlOf_append]
      by_cases ht : t = text
      · subst ht; rw [hu]; simp
      · rw [if_neg ht, h.links]
        simp [Ne.symm ht]
    · rw [definitions_append, (urlOf_none (u := ⟨false, text, url, cell⟩)).mp hu, List.map_append, h.defs (urlsGiven_left hg), h3,
        List.append_assoc]
      congr 2
      obtain ⟨c, cs, hc⟩ := hg ⟨false, text, url, cell⟩ (by simp)
      dsimp only at hc
      subst hc
      cases cell <;> simp [isOld, Use.definition, fmt]
  · have hu : urlOf us false text = some old := by rw [← h.links]; exact hn
    refine ⟨fun t => ?_, himg, consistent_append_old h.consistent hu, fun hg => ?_⟩
    · rw [h1, urlOf_append, h.links]
      by_cases ht : t = text
      · subst ht; rw [hu]; simp
      · simp [Ne.symm ht]
    · have hold := isOld_given (hg ⟨false, text, old, cell⟩ (by simp))
      rw [definitions_append, List.map_append, h.defs (urlsGiven_left hg), h3, hold, if_neg, if_neg]
      · simp
      · simp
      · rintro ⟨ha, _⟩
        have := (urlOf_none (u := ⟨false, text, old, cell⟩)).mpr ha
        rw [hu] at this
        cases this

/-- one more picture -/
theorem Recorded.image {us : List Use} {out : List Str} {s : ESt} (h : Recorded us out s) {text src : Str} {old : Option Str}
    {d : Dict (Option Str)} (ho : oldSubst s.usedImages text (some src) = .ok (old, d)) (cell : Bool) {s' : ESt}
    (h1 : s'.usedImages = d) (h2 : s'.usedLinks = s.usedLinks)
    (h3 : s'.subst = s.subst ++ if isOld old = false then [c!".. |" ++ text ++ c!"| image:: " ++ src] else []) :
    Recorded (us ++ [⟨true, text, some src, cell⟩]) out s' := by
  have hlnk : ∀ t, dictGet t s'.usedLinks = urlOf (us ++ [⟨true, text, some src, cell⟩]) false t := by
    intro t
    rw [h2, h.links, urlOf_append]
    simp
  rcases oldSubst_ok ho with ⟨hn, rfl, rfl⟩ | ⟨hn, rfl, rfl⟩
  · have hu : urlOf us true text = none := by rw [← h.images]; exact hn
    refine ⟨hlnk, fun t => ?_, consistent_append_new h.consistent hu, fun hg => ?_⟩
    · rw [h1, dictGet_set, urlOf_append]
      by_cases ht : t = text
      · subst ht; rw [hu]; simp
      · rw [if_neg ht, h.images]
        simp [Ne.symm ht]
    · rw [definitions_append, (urlOf_none (u := ⟨true, text, some src, cell⟩)).mp hu, List.map_append, h.defs (urlsGiven_left hg), h3,
        List.append_assoc]
      congr 2
  · have hu : urlOf us true text = some (some src) := by rw [← h.images]; exact hn
    refine ⟨hlnk, fun t => ?_, consistent_append_old h.consistent hu, fun hg => ?_⟩
    · rw [h1, urlOf_append, h.images]
      by_cases ht : t = text
      · subst ht; rw [hu]; simp
      · simp [Ne.symm ht]
    · have hold := isOld_given (hg ⟨true, text, some src, cell⟩ (by simp))
      dsimp only at hold
      rw [definitions_append, List.map_append, h.defs (urlsGiven_left hg), h3, hold, if_neg, if_neg]
      · simp
      · simp
      · rintro ⟨ha, _⟩
        have := (urlOf_none (u := ⟨true, text, some src, cell⟩)).mpr ha
        rw [hu] at this
        cases this

/-! ## Pictures -/

theorem fileName_eq (src : Str) : (splitLastSlash src).2 = fileName src := by
  obtain ⟨h1, dir, h2, h3⟩ := splitLastSlash_spec src
  generalize (splitLastSlash src).2 = name at *
  subst h2
  have hall : ∀ c ∈ name.reverse, decide (c ≠ '/') = true := by
    intro c hc
    rw [List.mem_reverse] at hc
    exact decide_eq_true fun h => h1 (h ▸ hc)
  rw [fileName, List.reverse_append, List.takeWhile_append_of_pos hall]
  rcases h3 with h3 | ⟨d, h3⟩
  · subst h3; simp
  · subst h3
    rw [List.reverse_append]
    simp

theorem imgSrc_ok {attrs : Dict (Option Str)} {s s' : ESt} {o : Option Str} (h : imgSrc attrs s = .ok (o, s')) :
    s' = s ∧ ∃ src, dictGet c!"src" attrs = some (some src) ∧ (isDataUri src ∧ o = none ∨ ¬ isDataUri src ∧ o = some src) := by
  rw [imgSrc] at h
  rcases hg : dictGet c!"src" attrs with _ | _ | src
  · rw [hg] at h; cases h
  · rw [hg] at h; cases h
  · rw [hg] at h
    dsimp only at h
    by_cases hd : (splitChar ':' src).head? = some c!"data"
    · rw [if_pos hd] at h
      exact ⟨(pure_ok.mp h).2, src, rfl, .inl ⟨data_head.mp hd, (pure_ok.mp h).1⟩⟩
    · rw [if_neg hd] at h
      exact ⟨(pure_ok.mp h).2, src, rfl, .inr ⟨fun h' => hd (data_head.mpr h'), (pure_ok.mp h).1⟩⟩

theorem imgText_ok {attrs : Dict (Option Str)} {src text : Str} {s s' : ESt} (h : imgText attrs src s = .ok (text, s'))
    (hsrc : dictGet c!"src" attrs = some (some src)) (hd : ¬ isDataUri src) : s' = s ∧ picture attrs = some (src, text) := by
  unfold imgText at h
  rw [← attrOr, ← attrOr] at h
  rcases ha : attrOr c!"alt" attrs with _ | alt
  · rw [ha] at h; cases h
  rcases ht : attrOr c!"title" attrs with _ | title
  · rw [ha, ht] at h; cases h
  · rw [ha, ht] at h
    unfold picture
    rw [hsrc, ha, ht]
    dsimp only at h ⊢
    rw [if_neg hd]
    by_cases hz : alt = [] ∧ title = []
    · obtain ⟨rfl, rfl⟩ := hz
      rw [if_pos ⟨rfl, rfl⟩]
      obtain ⟨h1, h2⟩ := pure_ok.mp (show (pure (splitLastSlash src).2 : EmM Str) s = .ok (text, s') from h)
      rw [h1, fileName_eq]
      exact ⟨h2, rfl⟩
    · rw [if_neg hz]
      have hne : ¬ (if alt.length > title.length then alt else title) = [] := by
        split
        · intro h; subst h; next hlen => simp at hlen
        · next hlen =>
          intro h
          subst h
          refine hz ⟨?_, rfl⟩
          cases alt with
          | nil => rfl
          | cons a as => simp at hlen
      rw [if_neg hne] at h
      obtain ⟨h1, h2⟩ := pure_ok.mp h
      rw [h1]
      refine ⟨h2, ?_⟩
      split <;> rfl

/-- a successful picture -/
theorem restImg_ok {attrs : Dict (Option Str)} {s s' : ESt} {t : Str} (h : restImg attrs s = .ok (t, s')) :
    (picture attrs = none ∧ t = [] ∧ s' = s) ∨
    (∃ src text, picture attrs = some (src, text) ∧ t = c!"|" ++ text ++ c!"|" ∧
      ∃ old d, oldSubst s.usedImages text (some src) = .ok (old, d) ∧ s'.usedImages = d ∧ s'.usedLinks = s.usedLinks ∧
        s'.subst = s.subst ++ if isOld old = false then [c!".. |" ++ text ++ c!"| image:: " ++ src] else []) := by
  rw [restImg] at h
  obtain ⟨o, s1, h1, h2⟩ := bind_ok.mp h
  obtain ⟨rfl, src, hsrc, ⟨hd, rfl⟩ | ⟨hd, rfl⟩⟩ := imgSrc_ok h1
  · left
    obtain ⟨h3, h4⟩ := pure_ok.mp h2
    refine ⟨?_, h3, h4⟩
    unfold picture
    rw [hsrc]
    split
    · next heq _ _ => cases heq; rw [if_pos hd]
    · rfl
  · right
    dsimp only at h2
    obtain ⟨text, s2, h3, h4⟩ := bind_ok.mp h2
    obtain ⟨rfl, hp⟩ := imgText_ok h3 hsrc hd
    refine ⟨src, text, hp, ?_⟩
    rw [bind_run, get_run] at h4
    dsimp only at h4
    obtain ⟨⟨old, d⟩, s3, h5, h6⟩ := bind_ok.mp h4
    rw [ofExcept_run] at h5
    cases ho : oldSubst s2.usedImages text (some src) with
    | error e => rw [ho] at h5; cases h5
    | ok r =>
      rw [ho] at h5
      cases h5
      rw [bind_run, modify_run] at h6
      dsimp only at h6
      by_cases hold : isOld old = true
      · rw [if_neg (by simp [hold])] at h6
        obtain ⟨h7, h8⟩ := pure_ok.mp h6
        refine ⟨h7, old, d, rfl, ?_, ?_, ?_⟩
        · rw [h8]
        · rw [h8]
        · rw [h8]; simp [hold]
      · rw [if_pos (by simp [hold]), bind_run, modify_run] at h6
        obtain ⟨h7, h8⟩ := pure_ok.mp h6
        refine ⟨h7, old, d, rfl, ?_, ?_, ?_⟩
        · rw [h8]
        · rw [h8]
        · rw [h8]; simp [hold]

/-- a successful link -/
theorem restLink_ok {anc : List Str} {attrs : Dict (Option Str)} {ch : EmM Str} {s s' : ESt} {t : Str}
    (h : restLink anc attrs ch s = .ok (t, s')) :
    ∃ text s1 url old d, ch s = .ok (text, s1) ∧ dictGet c!"href" attrs = some url ∧
      oldSubst s1.usedLinks text url = .ok (old, d) ∧ s'.usedLinks = d ∧ s'.usedImages = s1.usedImages ∧
        s'.subst = s1.subst ++ if shouldSubst anc = true ∧ isOld old = false then [c!".. _" ++ text ++ c!": " ++ fmt url] else [] := by
  rw [restLink] at h
  obtain ⟨text, s1, h1, h2⟩ := bind_ok.mp h
  rcases hurl : dictGet c!"href" attrs with _ | url
  · rw [hurl] at h2; cases h2
  · rw [hurl] at h2
    dsimp only at h2
    rw [bind_run, get_run] at h2
    dsimp only at h2
    obtain ⟨⟨old, d⟩, s3, h5, h6⟩ := bind_ok.mp h2
    rw [ofExcept_run] at h5
    refine ⟨text, s1, url, old, d, h1, rfl, ?_⟩
    cases ho : oldSubst s1.usedLinks text url with
    | error e => rw [ho] at h5; cases h5
    | ok r =>
      rw [ho] at h5
      cases h5
      refine ⟨rfl, ?_⟩
      rw [bind_run, modify_run] at h6
      dsimp only at h6
      by_cases hs : shouldSubst anc = true
      · rw [if_pos hs] at h6
        by_cases hold : isOld old = true
        · rw [if_neg (by simp [hold])] at h6
          obtain ⟨h7, h8⟩ := pure_ok.mp h6
          rw [h8]
          simp [hold]
        · rw [if_pos (by simp [hold]), bind_run, modify_run] at h6
          obtain ⟨h7, h8⟩ := pure_ok.mp h6
          rw [h8]
          simp [hold, hs]
      · rw [if_neg hs] at h6
        split at h6
        · obtain ⟨h7, h8⟩ := pure_ok.mp h6
          rw [h8]
          simp [hs]
        · obtain ⟨h7, h8⟩ := pure_ok.mp h6
          rw [h8]
          simp [hs]

/-! ## The text of a link -/

mutual

theorem linkText_emit {cfg : Cfg} (hl : cfg.lang = .rest) : ∀ (n : HNode) (t : Str), linkText n = some t → ∀ (anc : List Str),
    2 ≤ anc.length → ∀ (s : ESt) (x : Str) (s' : ESt), emitNode cfg anc n s = .ok (x, s') → x = t
  | .mk i ch, t, ht, anc, ha, s, x, s', h => by
    have hq : Quiet s anc := .inr ha
    rw [linkText] at ht
    split at ht
    · next hk =>
      rw [emitNode_known (m := .data) (by rw [hk]; exact method_data _) hq.pre] at h
      simp only [runMeth, ht, hl] at h
      cases h
      rfl
    · split at ht
      · next hk =>
        rw [emitNode_known (m := .img) (by rw [hk]; exact method_img _) hq.pre] at h
        simp only [runMeth, hl] at h
        cases hr : restImg i.attrs s with
        | error e => rw [hr] at h; cases h
        | ok r =>
          obtain ⟨y, s1⟩ := r
          rw [hr] at h
          cases h
          cases ht
          rcases restImg_ok hr with ⟨h1, h2, _⟩ | ⟨src, text, h1, h2, _⟩
          · rw [h1, h2]
          · rw [h1, h2]
      · split at ht
        · next before after u hd hu =>
          cases ht
          obtain ⟨m, hm, hw⟩ := delimiters_method hd
          rw [← hl] at hm
          rw [emitNode_known hm hq.pre, hw, bind_run, childrenM_run] at h
          cases hc : emitNodes cfg (i.kind :: anc) ch (enter i s) with
          | error e => rw [hc] at h; cases h
          | ok r =>
            obtain ⟨y, s1⟩ := r
            rw [hc] at h
            cases h
            rw [linkTexts_emit hl ch u hu (i.kind :: anc) (by rw [List.length_cons]; omega) _ _ _ hc]
        · cases ht

theorem linkTexts_emit {cfg : Cfg} (hl : cfg.lang = .rest) : ∀ (ns : List HNode) (t : Str), linkTexts ns = some t →
    ∀ (anc : List Str), 2 ≤ anc.length → ∀ (s : ESt) (x : Str) (s' : ESt), emitNodes cfg anc ns s = .ok (x, s') → x = t
  | [], t, ht, anc, ha, s, x, s', h => by
    rw [linkTexts] at ht
    rw [emitNodes_nil] at h
    cases ht
    exact (pure_ok.mp h).1
  | n :: ns, t, ht, anc, ha, s, x, s', h => by
    rw [linkTexts] at ht
    split at ht
    · next a b hna hnb =>
      cases ht
      rw [emitNodes_cons] at h
      obtain ⟨y, s1, h1, h2⟩ := bind_ok.mp h
      obtain ⟨z, s2, h3, h4⟩ := bind_ok.mp h2
      rw [(pure_ok.mp h4).1, linkText_emit hl n a hna anc ha _ _ _ h1, linkTexts_emit hl ns b hnb anc ha _ _ _ h3]
    · cases ht

end

/-! ## The other methods do not use links -/

/-- `x` runs `ch` once, apart from this the links are not changed -/
def Around (ch x : EmM Str) : Prop := ∀ s t s', x s = .ok (t, s') →
  ∃ s0 c s1, linkData s0 = linkData s ∧ ch s0 = .ok (c, s1) ∧ linkData s' = linkData s1

theorem Around.of {A : Type} {ch : EmM Str} {pre : EmM A} {post : A → Str → EmM Str} (h1 : Keeps linkData pre)
    (h2 : ∀ a c, Keeps linkData (post a c)) : Around ch (pre >>= fun a => ch >>= fun c => post a c) := by
  intro s t s' h
  obtain ⟨a, s0, h3, h4⟩ := bind_ok.mp h
  obtain ⟨c, s1, h5, h6⟩ := bind_ok.mp h4
  exact ⟨s0, c, s1, h1 _ _ _ h3, h5, h2 a c _ _ _ h6⟩

theorem Around.simple {ch : EmM Str} {post : Str → EmM Str} (h2 : ∀ c, Keeps linkData (post c)) : Around ch (ch >>= post) := by
  intro s t s' h
  obtain ⟨c, s1, h5, h6⟩ := bind_ok.mp h
  exact ⟨s, c, s1, rfl, h5, h2 c _ _ _ h6⟩

theorem around_self (ch : EmM Str) : Around ch ch := fun s t s' h => ⟨s, t, s', rfl, h, rfl⟩

theorem runMeth_links {cfg : Cfg} (hl : cfg.lang = .rest) (anc : List Str) (i : HInfo) (m : Meth) (h1 : m ≠ .a) (h2 : m ≠ .img)
    (h3 : m ≠ .document) (ch : EmM Str) :
    if m.usesChildren then Around ch (runMeth cfg anc i m ch) else Keeps linkData (runMeth cfg anc i m ch) := by
  have hset : ∀ t, Keeps linkData (setTable t) := fun t => Keeps.modify fun s => rfl
  have hnm : cfg.lang ≠ .markdown := by rw [hl]; decide
  cases m with
  | a => exact absurd rfl h1
  | img => exact absurd rfl h2
  | document => exact absurd rfl h3
  | blockPre =>
    show Keeps linkData _
    rw [runMeth, blockPreEmit]
    refine (keeps_deentityM _).bind fun t => ?_
    split <;> exact Keeps.pure _
  | inlinePre =>
    show Keeps linkData _
    rw [runMeth, hl]
    exact (keeps_deentityM _).bind fun t => Keeps.pure _
  | blockPass => exact Keeps.ite (Keeps.pure _) (Keeps.pure _)
  | data =>
    show Keeps linkData _
    rw [runMeth]
    split
    · exact Keeps.raise _
    · exact Keeps.ite (Keeps.pure _) (Keeps.pure _)
  | entityref => exact Keeps.pure _
  | charref => exact Keeps.ofExcept _
  | br => exact Keeps.get.bind fun s => Keeps.ite (Keeps.pure _) (Keeps.pure _)
  | hr => exact Keeps.ite (Keeps.pure _) (Keeps.pure _)
  | p =>
    show Around ch _
    rw [runMeth, hl]
    exact Around.simple fun c => Keeps.pure _
  | headline =>
    show Around ch _
    rw [runMeth, hl]
    refine Around.simple fun c => (keeps_levelM _).bind fun l => ?_
    dsimp only
    split
    · exact Keeps.raise _
    · split <;> exact Keeps.pure _
  | typeface key => exact Around.simple fun c => Keeps.pure _
  | typefaceHtml tag => exact Around.simple fun c => Keeps.pure _
  | children => exact around_self ch
  | content => exact Around.simple fun c => Keeps.pure _
  | code =>
    show Around ch _
    rw [runMeth, if_neg hnm]
    exact Around.simple fun c => Keeps.pure _
  | li =>
    show Around ch _
    rw [runMeth, hl]
    exact Around.simple fun c => (keeps_levelM _).bind fun l => Keeps.get.bind fun s => Keeps.pure _
  | list marker =>
    show Around ch _
    rw [runMeth, hl]
    exact Around.of (Keeps.modify fun s => rfl) fun _ c => Keeps.ite (Keeps.pure _) (Keeps.pure _)
  | table =>
    show Around ch _
    rw [runMeth, tableEmit_form]
    exact Around.of (hset _) fun _ c => keeps_getTable.bind fun t => Keeps.pure _
  | tr =>
    show Around ch _
    rw [runMeth, ← bind_assoc]
    exact Around.of (keeps_getTable.bind fun t => hset _) fun _ c => Keeps.pure _
  | th => exact Around.simple fun c => keeps_getTable.bind fun t => (hset _).bind fun _ => Keeps.pure _
  | td => exact Around.simple fun c => keeps_getTable.bind fun t => (hset _).bind fun _ => Keeps.pure _

theorem unknown_links (p : Policy) (i : HInfo) (ch : EmM Str) : Around ch (unknownEmit p i ch) := by
  rw [unknownEmit]
  refine Around.simple fun c => ?_
  split
  · exact Keeps.pure _
  · exact Keeps.raise _
  · exact Keeps.pure _
  · exact Keeps.pure _
  · exact Keeps.pure _

theorem method_kind {kind : Str} {m : Meth} (h : methodOf .rest kind = some m) :
    (m = .a → kind = c!"a") ∧ (m = .img → kind = c!"img") ∧ (m = .document → kind = c!"document") := by
  have key : ∀ km ∈ baseMethods ++ restMethods, (km.2 = .a → km.1 = c!"a") ∧ (km.2 = .img → km.1 = c!"img") ∧
      (km.2 = .document → km.1 = c!"document") := by decide +kernel
  exact key _ (lookup_mem h)

/-! ## All nodes -/

theorem shouldSubst_cons (k : Str) (anc : List Str) :
    shouldSubst (k :: anc) = (shouldSubst anc || k = c!"th" || k = c!"td") := by
  simp only [shouldSubst, List.any_cons]
  cases List.any anc fun k => decide (k = c!"th") || decide (k = c!"td") <;> simp

/-- the content of a node -/
theorem rest_content {cfg : Cfg} (hl : cfg.lang = .rest) {anc : List Str} (ha : anc ≠ []) {i : HInfo} {ch : List HNode}
    (hk : i.kind ≠ c!"document") (hp : plainLinks (.mk i ch) = true)
    (ih : leafKinds.contains i.kind = false → ∀ s c s1 us out, Recorded us out s →
      emitNodes cfg (i.kind :: anc) ch s = .ok (c, s1) →
      Recorded (us ++ usesL (shouldSubst (i.kind :: anc)) ch) out s1)
    {s s' : ESt} {t : Str} {us : List Use} {out : List Str} (hs : Recorded us out s)
    (h : runNode cfg anc i (childrenM cfg anc i ch) s = .ok (t, s')) :
    Recorded (us ++ uses (shouldSubst anc) (.mk i ch)) out s' := by
  have halen : 2 ≤ (i.kind :: anc).length := by
    rw [List.length_cons]
    have : anc.length ≠ 0 := fun h => ha (List.length_eq_zero_iff.mp h)
    omega
  rw [uses]
  rw [plainLinks] at hp
  -- the children
  have ihM : leafKinds.contains i.kind = false → ∀ s c s1, Recorded us out s → childrenM cfg anc i ch s = .ok (c, s1) →
      Recorded (us ++ usesL (shouldSubst anc || i.kind = c!"th" || i.kind = c!"td") ch) out s1 := by
    intro hleaf s c s1 hs hc
    rw [childrenM_run] at hc
    rw [← shouldSubst_cons]
    exact ih hleaf (enter i s) c s1 us out (hs.same (s' := enter i s) rfl) hc
  have around : ∀ x : EmM Str, Around (childrenM cfg anc i ch) x → leafKinds.contains i.kind = false → i.kind ≠ c!"a" →
      x s = .ok (t, s') →
      Recorded (us ++ (usesL (shouldSubst anc || i.kind = c!"th" || i.kind = c!"td") ch ++ [])) out s' := by
    intro x hx hleaf hka hxs
    obtain ⟨s0, c, s1, h1, h2, h3⟩ := hx s t s' hxs
    rw [List.append_nil]
    exact (ihM hleaf s0 c s1 (hs.same h1) h2).same h3
  rw [runNode, hl] at h
  cases hm : methodOf .rest i.kind with
  | none =>
    rw [hm] at h
    have hleaf : leafKinds.contains i.kind = false := by
      refine leaf_known (lang := .rest) fun hc => ?_
      obtain ⟨m, hm'⟩ := methodOf_known hc
      rw [hm] at hm'
      cases hm'
    have hka : i.kind ≠ c!"a" := by intro h; rw [h] at hm; cases hm
    have hki : i.kind ≠ c!"img" := by intro h; rw [h] at hm; cases hm
    rw [if_neg hki, if_neg (by rw [hleaf]; decide), if_neg hka]
    exact around _ (unknown_links _ _ _) hleaf hka h
  | some m =>
    rw [hm] at h
    dsimp only at h
    obtain ⟨hma, hmi, hmd⟩ := method_kind hm
    by_cases h1 : m = .img
    · subst h1
      rw [if_pos (hmi rfl)]
      rw [runMeth, hl] at h
      rcases restImg_ok h with ⟨h2, _, h3⟩ | ⟨src, text, h2, _, old, d, h3, h4, h5, h6⟩
      · rw [h2, h3, List.append_nil]; exact hs
      · rw [h2]
        exact hs.image h3 _ h4 h5 h6
    by_cases h2 : m = .a
    · subst h2
      have hka := hma rfl
      have hleaf : leafKinds.contains i.kind = false := by rw [hka]; decide
      have hki : i.kind ≠ c!"img" := by rw [hka]; decide
      rw [if_neg hki, if_neg (by rw [hleaf]; decide), if_pos hka]
      rw [hleaf, Bool.false_or, Bool.and_eq_true, hka] at hp
      have hsome : (linkTexts ch).isSome = true := by simpa using hp.2
      obtain ⟨u, hu⟩ := Option.isSome_iff_exists.mp hsome
      rw [runMeth, hl] at h
      obtain ⟨text, s1, url, old, d, h3, h4, h5, h6, h7, h8⟩ := restLink_ok h
      have hr := ihM hleaf s text s1 hs h3
      rw [childrenM_run] at h3
      have htext := linkTexts_emit hl ch u hu _ halen _ _ _ h3
      subst htext
      rw [hu, h4, ← List.append_assoc]
      exact hr.link h5 _ h6 h7 h8
    · have h3 : m ≠ .document := fun h => hk (hmd h)
      have hki : i.kind ≠ c!"img" := by
        intro hki; rw [hki] at hm; cases hm; exact h1 rfl
      have hka : i.kind ≠ c!"a" := by
        intro hki; rw [hki] at hm; cases hm; exact h2 rfl
      rw [if_neg hki]
      have hlinks := runMeth_links hl anc i m h2 h1 h3 (childrenM cfg anc i ch)
      rw [usesChildren_iff hm] at hlinks
      cases hleaf : leafKinds.contains i.kind with
      | true =>
        rw [hleaf] at hlinks
        rw [if_pos rfl, List.append_nil]
        exact hs.same (hlinks _ _ _ h)
      | false =>
        rw [hleaf] at hlinks
        rw [if_neg (by decide), if_neg hka]
        exact around _ hlinks hleaf hka h

theorem emitNode_ok {cfg : Cfg} {anc : List Str} {i : HInfo} {ch : List HNode} {s s' : ESt} {t : Str}
    (h : emitNode cfg anc (.mk i ch) s = .ok (t, s')) :
    ∃ pre s1 c s2, preEmit cfg.lang anc s = .ok (pre, s1) ∧ runNode cfg anc i (childrenM cfg anc i ch) s1 = .ok (c, s2) ∧
      t = pre ++ c ∧ s' = enter i s2 := by
  rw [emitNode_run] at h
  obtain ⟨pre, s1, h1, h2⟩ := bind_ok.mp h
  obtain ⟨c, s2, h3, h4⟩ := bind_ok.mp h2
  rw [bind_run, setLast_run] at h4
  obtain ⟨h5, h6⟩ := pure_ok.mp h4
  exact ⟨pre, s1, c, s2, h1, h3, h5, h6⟩

mutual

/-- a node below the children of the root -/
theorem rest_node {cfg : Cfg} (hl : cfg.lang = .rest) : ∀ (n : HNode), plainLinks n = true →
    (∀ i ∈ visited n, i.kind ≠ c!"document") → ∀ (anc : List Str), 2 ≤ anc.length → ∀ (s s' : ESt) (t : Str) (us : List Use)
    (out : List Str), Recorded us out s → emitNode cfg anc n s = .ok (t, s') →
    Recorded (us ++ uses (shouldSubst anc) n) out s'
  | .mk i ch, hp, hv, anc, ha, s, s', t, us, out, hs, h => by
    obtain ⟨pre, s1, c, s2, h1, h2, rfl, rfl⟩ := emitNode_ok h
    rw [preEmit_nil (fun _ => .inr (by omega))] at h1
    cases h1
    rw [visited] at hv
    refine (rest_content hl (by intro h; rw [h] at ha; simp at ha) (hv i (by simp)) hp ?_ hs h2).same rfl
    intro hleaf s c s1 us out hs hc
    rw [plainLinks, hleaf, Bool.false_or, Bool.and_eq_true] at hp
    refine rest_nodes hl ch hp.1 ?_ (i.kind :: anc) (by rw [List.length_cons]; omega) s s1 c us out hs hc
    intro j hj
    refine hv j ?_
    rw [if_neg (by rw [hleaf]; decide)]
    exact List.mem_cons_of_mem _ hj

theorem rest_nodes {cfg : Cfg} (hl : cfg.lang = .rest) : ∀ (ns : List HNode), plainLinksL ns = true →
    (∀ i ∈ visitedL ns, i.kind ≠ c!"document") → ∀ (anc : List Str), 2 ≤ anc.length → ∀ (s s' : ESt) (t : Str) (us : List Use)
    (out : List Str), Recorded us out s → emitNodes cfg anc ns s = .ok (t, s') →
    Recorded (us ++ usesL (shouldSubst anc) ns) out s'
  | [], _, _, _, _, s, s', t, us, out, hs, h => by
    rw [emitNodes_nil] at h
    rw [(pure_ok.mp h).2, usesL, List.append_nil]
    exact hs
  | n :: ns, hp, hv, anc, ha, s, s', t, us, out, hs, h => by
    rw [plainLinksL, Bool.and_eq_true] at hp
    rw [visitedL] at hv
    rw [emitNodes_cons] at h
    obtain ⟨a, s1, h1, h2⟩ := bind_ok.mp h
    obtain ⟨b, s2, h3, h4⟩ := bind_ok.mp h2
    rw [(pure_ok.mp h4).2, usesL, ← List.append_assoc]
    have hr := rest_node hl n hp.1 (fun i hi => hv i (List.mem_append.mpr (.inl hi))) anc ha s s1 a us out hs h1
    exact rest_nodes hl ns hp.2 (fun i hi => hv i (List.mem_append.mpr (.inr hi))) anc ha s1 s2 b _ out hr h3

end

/-- before a child of the root, the pending definitions are emitted -/
theorem flush_ok {s s' : ESt} {pre : Str} {us : List Use} {out : List Str} (hs : Recorded us out s)
    (h : flushSubst true s = .ok (pre, s')) : ∃ ds, InOrder ds pre ∧ Recorded us (out ++ ds) s' := by
  rw [flushSubst, bind_run, get_run] at h
  dsimp only at h
  by_cases hz : s.subst = []
  · rw [if_neg (by simp [hz])] at h
    rw [(pure_ok.mp h).2]
    exact ⟨[], trivial, by rw [List.append_nil]; exact hs⟩
  · rw [if_pos (by simp [hz])] at h
    cases h
    refine ⟨s.subst, inOrder_append_right (inOrder_join _) _, ⟨hs.links, hs.images, hs.consistent, fun hg => ?_⟩⟩
    rw [hs.defs hg]
    show _ = _ ++ []
    rw [List.append_nil]

/-- the children of the root -/
theorem rest_children {cfg : Cfg} (hl : cfg.lang = .rest) : ∀ (ns : List HNode), plainLinksL ns = true →
    (∀ i ∈ visitedL ns, i.kind ≠ c!"document") → ∀ (s s' : ESt) (t : Str) (us : List Use)
    (out : List Str), Recorded us out s → emitNodes cfg [c!"document"] ns s = .ok (t, s') →
    ∃ ds, InOrder ds t ∧ Recorded (us ++ usesL false ns) (out ++ ds) s'
  | [], _, _, s, s', t, us, out, hs, h => by
    rw [emitNodes_nil] at h
    rw [(pure_ok.mp h).2, usesL, List.append_nil]
    exact ⟨[], trivial, by rw [List.append_nil]; exact hs⟩
  | .mk i ch :: ns, hp, hv, s, s', t, us, out, hs, h => by
    rw [plainLinksL, Bool.and_eq_true] at hp
    rw [visitedL] at hv
    rw [emitNodes_cons] at h
    obtain ⟨a, s1, h1, h2⟩ := bind_ok.mp h
    obtain ⟨b, s2, h3, h4⟩ := bind_ok.mp h2
    obtain ⟨rfl, rfl⟩ := pure_ok.mp h4
    obtain ⟨pre, s3, c, s4, h5, h6, rfl, rfl⟩ := emitNode_ok h1
    rw [preEmit, if_pos hl] at h5
    obtain ⟨ds, hd1, hd2⟩ := flush_ok hs h5
    have hv' : ∀ j ∈ visited (.mk i ch), j.kind ≠ c!"document" := fun j hj => hv j (List.mem_append.mpr (.inl hj))
    rw [visited] at hv'
    have hr : Recorded (us ++ uses false (.mk i ch)) (out ++ ds) (enter i s4) := by
      refine (rest_content hl (anc := [c!"document"]) (by simp) (hv' i (by simp)) hp.1 ?_ hd2 h6).same rfl
      intro hleaf s c s1 us out hs hc
      have hp1 := hp.1
      rw [plainLinks, hleaf, Bool.false_or, Bool.and_eq_true] at hp1
      refine rest_nodes hl ch hp1.1 ?_ [i.kind, c!"document"] (by simp) s s1 c us out hs hc
      intro j hj
      refine hv' j ?_
      rw [if_neg (by rw [hleaf]; decide)]
      exact List.mem_cons_of_mem _ hj
    obtain ⟨ds', hd3, hd4⟩ := rest_children hl ns hp.2 (fun j hj => hv j (List.mem_append.mpr (.inr hj))) _ _ _ _ _ hr h3
    refine ⟨ds ++ ds', inOrder_append (inOrder_append_right hd1 _) hd3, ?_⟩
    rw [usesL, ← List.append_assoc, ← List.append_assoc]
    exact hd4

theorem recorded_start : Recorded [] [] {} :=
  ⟨fun _ => rfl, fun _ => rfl, (fun u hu => absurd hu (by simp)), fun _ => rfl⟩

/-- what a successful conversion implies -/
theorem rest_document {cfg : Cfg} (hl : cfg.lang = .rest) {i : HInfo} (hi : i.kind = c!"document") {ns : List HNode}
    (hp : plainLinksL ns = true) (hv : ∀ i ∈ visitedL ns, i.kind ≠ c!"document") {text : Str}
    (h : emit cfg (.mk i ns) = .ok text) :
    Consistent (usesL false ns) ∧
    (UrlsGiven (usesL false ns) →
      ∃ t, text = rstrip t ∧ InOrder ((definitions (usesL false ns)).map Use.definition) t) := by
  rw [emit_eq] at h
  cases hn : emitNode cfg [] (.mk i ns) {} with
  | error e => rw [hn] at h; cases h
  | ok r =>
    obtain ⟨t, s'⟩ := r
    rw [hn] at h
    simp only [if_pos hl] at h
    cases h
    rw [emitNode_known (m := .document) (by rw [hi]; exact method_document _) (fun _ => .inl rfl)] at hn
    simp only [runMeth, if_pos hl] at hn
    cases hr : restDocument (childrenM cfg [] i ns) {} with
    | error e => rw [hr] at hn; cases hn
    | ok r =>
      obtain ⟨t', s1⟩ := r
      rw [hr] at hn
      cases hn
      rw [restDocument] at hr
      obtain ⟨c, s2, h1, h2⟩ := bind_ok.mp hr
      rw [childrenM_run, hi] at h1
      obtain ⟨ds, h3, h4⟩ := rest_children hl ns hp hv _ _ _ [] [] (recorded_start.same (s' := enter i {}) rfl) h1
      rw [List.nil_append, List.nil_append] at h4
      refine ⟨h4.consistent, fun hg => ⟨t, rfl, ?_⟩⟩
      rw [h4.defs hg]
      rw [bind_run, get_run] at h2
      dsimp only at h2
      by_cases hz : s2.subst = []
      · rw [if_neg (by simp [hz])] at h2
        rw [(pure_ok.mp h2).1, hz, List.append_nil]
        exact h3
      · rw [if_pos (by simp [hz])] at h2
        have hpre : InOrder ds (if c!"\n\n".isSuffixOf c then c else c ++ c!"\n\n") := by
          split
          · exact h3
          · exact inOrder_append_right h3 _
        cases h2
        rw [List.append_assoc]
        exact inOrder_append hpre (inOrder_append_right (inOrder_join _) _)

/-! ## Errors -/

theorem bind_error {α β : Type} {x : EmM α} {f : α → EmM β} {s : ESt} {e : PyErr} (h : (x >>= f) s = .error e) :
    x s = .error e ∨ ∃ a s1, x s = .ok (a, s1) ∧ f a s1 = .error e := by
  rw [bind_run] at h
  cases hx : x s with
  | error e' => rw [hx] at h; cases h; exact .inl rfl
  | ok r => rw [hx] at h; exact .inr ⟨r.1, r.2, rfl, h⟩

theorem pure_error {α : Type} {a : α} {s : ESt} {e : PyErr} (h : (pure a : EmM α) s = .error e) : False := by cases h

/-- a table is there -/
def InTable (tab : Bool) (s : ESt) : Prop := tab = true → s.table.isSome = true

theorem table_kept {lang : Lang} {α : Type} {x : EmM α} (hx : Via lang x) {s s' : ESt} {a : α} (h : x s = .ok (a, s'))
    {tab : Bool} (ht : InTable tab s) : InTable tab s' := by
  refine Steps.inv (P := InTable tab) ?_ (hx s a s' h) ht
  intro s s' hstep hs
  cases hstep <;> first | exact hs | exact fun _ => rfl

theorem getTable_error {s : ESt} {e : PyErr} (ht : InTable true s) : getTable s ≠ .error e := by
  intro h
  rw [getTable, bind_run, get_run] at h
  dsimp only at h
  obtain ⟨t, ht'⟩ := Option.isSome_iff_exists.mp (ht rfl)
  rw [ht'] at h
  cases h

theorem replaceAll_plain {c : Str} (h : '&' ∉ c) : replaceAll c = .ok c := by
  have := repl_plain (prev := none) (a := c) (s := []) h
  rw [List.append_nil, repl_nil, ← replaceAll_repl] at this
  rw [this]
  show Except.ok (c ++ []) = _
  rw [List.append_nil]

theorem deentityM_error {o : Option Str} (h : ∃ c, o = some c ∧ '&' ∉ c) {s : ESt} {e : PyErr} :
    deentityM o s ≠ .error e := by
  obtain ⟨c, rfl, h⟩ := h
  intro h'
  rw [deentityM, replaceAll_plain h] at h'
  cases h'

theorem complete_pre {tab : Bool} {i : HInfo} (hk : i.kind = c!"blockdata_pre" ∨ i.kind = c!"inlinedata_pre")
    (h : complete tab i = true) : ∃ c, i.content = some c ∧ '&' ∉ c := by
  unfold complete at h
  have h' : (match i.content with | some c => !c.contains '&' | none => false) = true := by
    rcases hk with hk | hk <;> rw [hk] at h <;> exact h
  cases hc : i.content with
  | none => rw [hc] at h'; cases h'
  | some c => rw [hc] at h'; exact ⟨c, rfl, by simpa using h'⟩

theorem levelM_error {i : HInfo} (h : i.level.isSome = true) {s : ESt} {e : PyErr} : levelM i s ≠ .error e := by
  obtain ⟨l, hl⟩ := Option.isSome_iff_exists.mp h
  intro h'
  unfold levelM at h'
  rw [hl] at h'
  cases h'

theorem kind_of_method {kind : Str} {m : Meth} (h : methodOf .rest kind = some m) :
    (m = .data → kind = c!"data") ∧ (m = .headline → kind = c!"headline") ∧ (m = .li → kind = c!"li") ∧
    (m = .tr → kind = c!"tr") ∧ (m = .th → kind = c!"th") ∧ (m = .td → kind = c!"td") ∧
    (m = .blockPre → kind = c!"blockdata_pre") ∧ (m = .inlinePre → kind = c!"inlinedata_pre") ∧
    (m = .charref → kind = c!"charref") ∧ (m = .table ↔ kind = c!"table") := by
  have key : ∀ km ∈ baseMethods ++ restMethods, (km.2 = .data → km.1 = c!"data") ∧ (km.2 = .headline → km.1 = c!"headline") ∧
    (km.2 = .li → km.1 = c!"li") ∧
    (km.2 = .tr → km.1 = c!"tr") ∧ (km.2 = .th → km.1 = c!"th") ∧ (km.2 = .td → km.1 = c!"td") ∧
    (km.2 = .blockPre → km.1 = c!"blockdata_pre") ∧ (km.2 = .inlinePre → km.1 = c!"inlinedata_pre") ∧
    (km.2 = .charref → km.1 = c!"charref") ∧ (km.2 = .table ↔ km.1 = c!"table") := by decide +kernel
  exact key _ (lookup_mem h)

/-- a method of a complete node fails only if its children do -/
theorem runMeth_error {cfg : Cfg} (hl : cfg.lang = .rest) {anc : List Str} {i : HInfo} {m : Meth}
    (hm : methodOf .rest i.kind = some m) (h1 : m ≠ .a) (h2 : m ≠ .img) (h3 : m ≠ .document) {tab : Bool}
    (hc : complete tab i = true) {ch : EmM Str} (hch : Via .rest ch) {s : ESt} {e : PyErr} (ht : InTable tab s)
    (h : runMeth cfg anc i m ch s = .error e) :
    leafKinds.contains i.kind = false ∧
      ∃ s0, linkData s0 = linkData s ∧ InTable (tab || i.kind = c!"table") s0 ∧ ch s0 = .error e := by
  have hnm : cfg.lang ≠ .markdown := by rw [hl]; decide
  obtain ⟨kd, kh, kl, ktr, kth, ktd, kbp, kip, kc, kt⟩ := kind_of_method hm
  have huse := usesChildren_iff hm
  have ht' : m ≠ .table → InTable (tab || i.kind = c!"table") s := by
    intro hne
    have : i.kind ≠ c!"table" := fun h => hne (kt.mpr h)
    rw [show decide (i.kind = c!"table") = false from decide_eq_false this, Bool.or_false]
    exact ht
  have fin : m.usesChildren = true → m ≠ .table → ch s = .error e → leafKinds.contains i.kind = false ∧
      ∃ s0, linkData s0 = linkData s ∧ InTable (tab || i.kind = c!"table") s0 ∧ ch s0 = .error e := by
    intro h1 h2 h3
    rw [huse] at h1
    exact ⟨by simpa using h1, s, rfl, ht' h2, h3⟩
  -- first the children, then something that does not fail
  have simple : ∀ (g : Str → EmM Str), m.usesChildren = true → m ≠ .table →
      (∀ c s1, ch s = .ok (c, s1) → g c s1 ≠ .error e) → (ch >>= g) s = .error e →
      leafKinds.contains i.kind = false ∧
      ∃ s0, linkData s0 = linkData s ∧ InTable (tab || i.kind = c!"table") s0 ∧ ch s0 = .error e := by
    intro g h1 h2 h3 h4
    rcases bind_error h4 with h | ⟨c, s1, h5, h6⟩
    · exact fin h1 h2 h
    · exact absurd h6 (h3 c s1 h5)
  have hcell : (i.kind = c!"tr" ∨ i.kind = c!"th" ∨ i.kind = c!"td") → tab = true := by
    intro hk
    unfold complete at hc
    rcases hk with hk | hk | hk <;> rw [hk] at hc <;> simpa using hc
  cases m with
  | a => exact absurd rfl h1
  | img => exact absurd rfl h2
  | document => exact absurd rfl h3
  | blockPre =>
    exfalso
    rw [runMeth, blockPreEmit, hl] at h
    rcases bind_error h with h | ⟨c, s1, _, h6⟩
    · exact deentityM_error (complete_pre (.inl (kbp rfl)) hc) h
    · cases h6
  | inlinePre =>
    exfalso
    rw [runMeth, hl] at h
    rcases bind_error h with h | ⟨c, s1, _, h6⟩
    · exact deentityM_error (complete_pre (.inr (kip rfl)) hc) h
    · cases h6
  | blockPass => exfalso; rw [runMeth, if_neg hnm] at h; cases h
  | data =>
    exfalso
    unfold complete at hc
    rw [kd rfl] at hc
    simp at hc
    obtain ⟨c, hc⟩ := Option.isSome_iff_exists.mp hc
    rw [runMeth, hc] at h
    rw [hl] at h
    cases h
  | entityref => cases h
  | charref => unfold complete at hc; rw [kc rfl] at hc; simp at hc
  | br =>
    exfalso
    rw [runMeth, bind_run, get_run] at h
    dsimp only at h
    split at h <;> cases h
  | hr => exfalso; rw [runMeth, if_neg hnm] at h; cases h
  | p =>
    rw [runMeth, hl] at h
    exact simple _ rfl (by simp) (fun c s1 _ h => pure_error h) h
  | headline =>
    unfold complete at hc
    rw [kh rfl] at hc
    have hlev : ∃ n, i.level = some n ∧ 1 ≤ n := by
      cases hi : i.level with
      | none => rw [hi] at hc; simp at hc
      | some n => rw [hi] at hc; exact ⟨n, rfl, by simpa using hc⟩
    obtain ⟨n, hn, hn1⟩ := hlev
    rw [runMeth, hl] at h
    refine simple _ rfl (by simp) (fun c s1 _ h => ?_) h
    rcases bind_error h with h | ⟨l, s2, h5, h6⟩
    · exact levelM_error (by rw [hn]; rfl) h
    · unfold levelM at h5
      rw [hn] at h5
      cases h5
      dsimp only at h6
      generalize hk : (if n > 6 then 6 else n) = k at h6
      rcases hd : headlineData k with _ | ⟨x, both⟩
      · have : ∀ k : Int, 1 ≤ k → k ≤ 6 → headlineData k ≠ none := by
          intro k hk1 hk2
          have : k = 1 ∨ k = 2 ∨ k = 3 ∨ k = 4 ∨ k = 5 ∨ k = 6 := by omega
          rcases this with rfl | rfl | rfl | rfl | rfl | rfl <;> simp [headlineData]
        exact this k (by rw [← hk]; split <;> omega) (by rw [← hk]; split <;> omega) hd
      · rw [hd] at h6
        dsimp only at h6
        split at h6 <;> cases h6
  | typeface key => exact simple _ rfl (by simp) (fun c s1 _ h => pure_error h) h
  | typefaceHtml tag => exact simple _ rfl (by simp) (fun c s1 _ h => pure_error h) h
  | children => exact fin rfl (by simp) h
  | content => exact simple _ rfl (by simp) (fun c s1 _ h => pure_error h) h
  | code =>
    rw [runMeth, if_neg hnm] at h
    exact simple _ rfl (by simp) (fun c s1 _ h => pure_error h) h
  | li =>
    unfold complete at hc
    rw [kl rfl] at hc
    rw [runMeth, hl] at h
    refine simple _ rfl (by simp) (fun c s1 _ h => ?_) h
    rcases bind_error h with h | ⟨l, s2, h5, h6⟩
    · exact levelM_error (by simpa using hc) h
    · cases h6
  | list marker =>
    rw [runMeth, hl] at h
    rcases bind_error h with h | ⟨_, s2, h5, h6⟩
    · cases h
    · rcases bind_error h6 with h | ⟨c, s3, _, h7⟩
      · cases h5
        rw [usesChildren_iff hm] at huse
        have hleaf : leafKinds.contains i.kind = false := by
          have := usesChildren_iff hm
          simpa [Meth.usesChildren] using this.symm
        exact ⟨hleaf, { s with listMarkup := marker }, rfl, ht' (by simp), h⟩
      · exfalso
        split at h7 <;> cases h7
  | table =>
    rw [runMeth, tableEmit_form] at h
    rcases bind_error h with h | ⟨_, s2, h5, h6⟩
    · cases h
    · have hs2 : ∀ tab, InTable tab s2 := by
        intro tab _
        cases h5
        rfl
      have hleaf : leafKinds.contains i.kind = false := by
        have := usesChildren_iff hm
        simpa [Meth.usesChildren] using this.symm
      rcases bind_error h6 with h | ⟨c, s3, h8, h7⟩
      · refine ⟨hleaf, s2, ?_, hs2 _, h⟩
        cases h5
        rfl
      · exfalso
        rcases bind_error h7 with h | ⟨_, _, _, h9⟩
        · exact getTable_error (table_kept hch h8 (hs2 true)) h
        · cases h9
  | tr =>
    have htab := hcell (.inl (ktr rfl))
    subst htab
    rw [runMeth] at h
    rcases bind_error h with h | ⟨t, s2, h5, h6⟩
    · exact absurd h (getTable_error ht)
    · obtain ⟨rfl, h7⟩ := getTable_ok h5
      rcases bind_error h6 with h | ⟨_, s3, h8, h9⟩
      · cases h
      · cases h8
        rcases bind_error h9 with h | ⟨_, _, _, h10⟩
        · have hleaf : leafKinds.contains i.kind = false := by
            have := usesChildren_iff hm
            simpa [Meth.usesChildren] using this.symm
          exact ⟨hleaf, { s2 with table := some t.addTr }, rfl, fun _ => rfl, h⟩
        · cases h10
  | th =>
    have htab := hcell (.inr (.inl (kth rfl)))
    subst htab
    refine simple _ rfl (by simp) (fun c s1 h1 h => ?_) h
    rcases bind_error h with h | ⟨t, s2, h5, h6⟩
    · exact getTable_error (table_kept hch h1 ht) h
    · cases h6
  | td =>
    have htab := hcell (.inr (.inr (ktd rfl)))
    subst htab
    refine simple _ rfl (by simp) (fun c s1 h1 h => ?_) h
    rcases bind_error h with h | ⟨t, s2, h5, h6⟩
    · exact getTable_error (table_kept hch h1 ht) h
    · cases h6

theorem unknown_error {p : Policy} (hp : p ≠ .raise) {i : HInfo} {ch : EmM Str} {s : ESt} {e : PyErr}
    (h : unknownEmit p i ch s = .error e) : ch s = .error e := by
  rw [unknownEmit] at h
  rcases bind_error h with h | ⟨c, s1, _, h6⟩
  · exact h
  · exfalso
    cases p <;> first | exact hp rfl | cases h6

theorem not_consistent {us : List Use} {u : Use} {o : Option Str} (h : urlOf us u.picture u.text = some o) (hne : o ≠ u.url) :
    ¬ Consistent (us ++ [u]) := by
  intro hc
  obtain ⟨v, hv, h1, h2, h3⟩ := urlOf_some h
  refine hne ?_
  rw [← h3]
  exact hc v (List.mem_append.mpr (.inl hv)) u (List.mem_append.mpr (.inr (by simp))) h1 h2

theorem restImg_error {attrs : Dict (Option Str)} {s : ESt} {e : PyErr}
    (hc : (match dictGet c!"src" attrs with
      | some (some _) => (attrOr c!"alt" attrs).isSome && (attrOr c!"title" attrs).isSome
      | _ => false) = true) (h : restImg attrs s = .error e) :
    ∃ src text, picture attrs = some (src, text) ∧ oldSubst s.usedImages text (some src) = .error e := by
  rw [restImg] at h
  rcases hg : dictGet c!"src" attrs with _ | _ | src
  · rw [hg] at hc; cases hc
  · rw [hg] at hc; cases hc
  · rw [hg] at hc
    simp only [Bool.and_eq_true] at hc
    rcases bind_error h with h | ⟨o, s1, h1, h2⟩
    · unfold imgSrc at h
      rw [hg] at h
      dsimp only at h
      split at h <;> cases h
    · obtain ⟨rfl, src', hsrc, hd⟩ := imgSrc_ok h1
      rw [hg] at hsrc
      cases hsrc
      rcases hd with ⟨hd, rfl⟩ | ⟨hd, rfl⟩
      · cases h2
      · rcases bind_error h2 with h | ⟨text, s2, h3, h4⟩
        · exfalso
          unfold imgText at h
          rw [← attrOr, ← attrOr] at h
          obtain ⟨a, ha⟩ := Option.isSome_iff_exists.mp hc.1
          obtain ⟨b, hb⟩ := Option.isSome_iff_exists.mp hc.2
          rw [ha, hb] at h
          dsimp only at h
          by_cases hz : (if a.length > b.length then a else b) = []
          · rw [if_pos hz] at h; cases h
          · rw [if_neg hz] at h; cases h
        · obtain ⟨rfl, hp⟩ := imgText_ok h3 hg hd
          refine ⟨_, text, hp, ?_⟩
          rw [bind_run, get_run] at h4
          dsimp only at h4
          rcases bind_error h4 with h | ⟨r, s3, h5, h6⟩
          · rw [ofExcept_run] at h
            cases ho : oldSubst s2.usedImages text (some src) with
            | error e' => rw [ho] at h; cases h; rfl
            | ok r => rw [ho] at h; cases h
          · exfalso
            obtain ⟨old, d⟩ := r
            dsimp only at h6
            rw [bind_run, modify_run] at h6
            dsimp only at h6
            split at h6 <;> cases h6

theorem restLink_error {anc : List Str} {attrs : Dict (Option Str)} {ch : EmM Str} {s : ESt} {e : PyErr}
    (hc : (dictGet c!"href" attrs).isSome = true) (h : restLink anc attrs ch s = .error e) :
    ch s = .error e ∨ ∃ text s1 url, ch s = .ok (text, s1) ∧ dictGet c!"href" attrs = some url ∧
      oldSubst s1.usedLinks text url = .error e := by
  rw [restLink] at h
  obtain ⟨url, hurl⟩ := Option.isSome_iff_exists.mp hc
  rcases bind_error h with h | ⟨text, s1, h1, h2⟩
  · exact .inl h
  · rw [hurl] at h2
    dsimp only at h2
    rw [bind_run, get_run] at h2
    dsimp only at h2
    refine .inr ⟨text, s1, url, h1, hurl, ?_⟩
    rcases bind_error h2 with h | ⟨r, s3, h5, h6⟩
    · rw [ofExcept_run] at h
      cases ho : oldSubst s1.usedLinks text url with
      | error e' => rw [ho] at h; cases h; rfl
      | ok r => rw [ho] at h; cases h
    · exfalso
      obtain ⟨old, d⟩ := r
      dsimp only at h6
      rw [bind_run, modify_run] at h6
      dsimp only at h6
      split at h6
      · split at h6 <;> cases h6
      · split at h6 <;> cases h6

theorem consistent_left {us vs : List Use} (h : Consistent (us ++ vs)) : Consistent us :=
  fun u hu v hv => h u (List.mem_append.mpr (.inl hu)) v (List.mem_append.mpr (.inl hv))

/-- the content of a node: errors -/
theorem error_content {cfg : Cfg} (hl : cfg.lang = .rest) (hpol : cfg.policy ≠ .raise) {anc : List Str} (ha : anc ≠ [])
    {i : HInfo} {ch : List HNode} (hk : i.kind ≠ c!"document") (hp : plainLinks (.mk i ch) = true)
    (hv : ∀ j ∈ visited (.mk i ch), j.kind ≠ c!"document") {tab : Bool} (hc : complete tab i = true)
    (ih : leafKinds.contains i.kind = false → ∀ s e us out, Recorded us out s → InTable (tab || i.kind = c!"table") s →
      emitNodes cfg (i.kind :: anc) ch s = .error e →
      e = .html2rest ∧ ¬ Consistent (us ++ usesL (shouldSubst (i.kind :: anc)) ch))
    {s : ESt} {e : PyErr} {us : List Use} {out : List Str} (hs : Recorded us out s) (ht : InTable tab s)
    (h : runNode cfg anc i (childrenM cfg anc i ch) s = .error e) :
    e = .html2rest ∧ ¬ Consistent (us ++ uses (shouldSubst anc) (.mk i ch)) := by
  have halen : 2 ≤ (i.kind :: anc).length := by
    rw [List.length_cons]
    have : anc.length ≠ 0 := fun h => ha (List.length_eq_zero_iff.mp h)
    omega
  rw [uses]
  have hp0 := hp
  rw [plainLinks] at hp
  have ihM : leafKinds.contains i.kind = false → ∀ s e, Recorded us out s → InTable (tab || i.kind = c!"table") s →
      childrenM cfg anc i ch s = .error e →
      e = .html2rest ∧
        ¬ Consistent (us ++ usesL (shouldSubst anc || i.kind = c!"th" || i.kind = c!"td") ch) := by
    intro hleaf s e hs ht hc
    rw [childrenM_run] at hc
    rw [← shouldSubst_cons]
    exact ih hleaf (enter i s) e us out (hs.same (s' := enter i s) rfl) ht hc
  have hvia : Via .rest (childrenM cfg anc i ch) := by
    rw [childrenM]
    exact (via_setLast i).bind fun _ => hl ▸ via_emitNodes cfg _ ch
  rw [runNode, hl] at h
  cases hm : methodOf .rest i.kind with
  | none =>
    rw [hm] at h
    have hleaf : leafKinds.contains i.kind = false := by
      refine leaf_known (lang := .rest) fun hc => ?_
      obtain ⟨m, hm'⟩ := methodOf_known hc
      rw [hm] at hm'
      cases hm'
    have hka : i.kind ≠ c!"a" := by intro h; rw [h] at hm; cases hm
    have hki : i.kind ≠ c!"img" := by intro h; rw [h] at hm; cases hm
    have hkt : i.kind ≠ c!"table" := by intro h; rw [h] at hm; cases hm
    rw [if_neg hki, if_neg (by rw [hleaf]; decide), if_neg hka, List.append_nil]
    refine ihM hleaf s e hs ?_ (unknown_error hpol h)
    rw [show decide (i.kind = c!"table") = false from decide_eq_false hkt, Bool.or_false]
    exact ht
  | some m =>
    rw [hm] at h
    dsimp only at h
    obtain ⟨hma, hmi, hmd⟩ := method_kind hm
    by_cases h1 : m = .img
    · subst h1
      rw [if_pos (hmi rfl)]
      rw [runMeth, hl] at h
      have hc' : (match dictGet c!"src" i.attrs with
          | some (some _) => (attrOr c!"alt" i.attrs).isSome && (attrOr c!"title" i.attrs).isSome
          | _ => false) = true := by
        unfold complete at hc
        rw [hmi rfl, if_neg (by decide), if_neg (by decide), if_pos rfl] at hc
        exact hc
      obtain ⟨src, text, h2, h3⟩ := restImg_error hc' h
      rw [h2]
      obtain ⟨h4, o, h5, h6⟩ := oldSubst_error h3
      refine ⟨h4, not_consistent (u := ⟨true, text, some src, _⟩) (o := o) ?_ h6⟩
      rw [← hs.images]
      exact h5
    by_cases h2 : m = .a
    · subst h2
      have hka := hma rfl
      have hleaf : leafKinds.contains i.kind = false := by rw [hka]; decide
      have hki : i.kind ≠ c!"img" := by rw [hka]; decide
      have hkt : i.kind ≠ c!"table" := by rw [hka]; decide
      rw [if_neg hki, if_neg (by rw [hleaf]; decide), if_pos hka]
      rw [hleaf, Bool.false_or, Bool.and_eq_true, hka] at hp
      have hsome : (linkTexts ch).isSome = true := by simpa using hp.2
      obtain ⟨u, hu⟩ := Option.isSome_iff_exists.mp hsome
      rw [runMeth, hl] at h
      have hc' : (dictGet c!"href" i.attrs).isSome = true := by
        unfold complete at hc
        rw [hka, if_neg (by decide), if_pos rfl] at hc
        exact hc
      rw [← List.append_assoc]
      rcases restLink_error hc' h with h | ⟨text, s1, url, h3, h4, h5⟩
      · obtain ⟨h6, h7⟩ := ihM hleaf s e hs (by
          rw [show decide (i.kind = c!"table") = false from decide_eq_false hkt, Bool.or_false]
          exact ht) h
        exact ⟨h6, fun hcon => h7 (consistent_left hcon)⟩
      · rw [childrenM_run] at h3
        have hr := rest_nodes hl ch hp.1 (fun j hj => hv j (by
          rw [visited, if_neg (by rw [hleaf]; decide)]
          exact List.mem_cons_of_mem _ hj)) (i.kind :: anc) halen (enter i s) s1 text us out (hs.same (s' := enter i s) rfl) h3
        rw [shouldSubst_cons] at hr
        have htext := linkTexts_emit hl ch u hu _ halen _ _ _ h3
        subst htext
        obtain ⟨h6, o, h7, h8⟩ := oldSubst_error h5
        rw [hu, h4]
        refine ⟨h6, not_consistent (u := ⟨false, text, url, _⟩) (o := o) ?_ h8⟩
        rw [← hr.links]
        exact h7
    · have h3 : m ≠ .document := fun h => hk (hmd h)
      have hki : i.kind ≠ c!"img" := by
        intro hki; rw [hki] at hm; cases hm; exact h1 rfl
      have hka : i.kind ≠ c!"a" := by
        intro hki; rw [hki] at hm; cases hm; exact h2 rfl
      obtain ⟨hleaf, s0, h4, h5, h6⟩ := runMeth_error hl hm h2 h1 h3 hc hvia ht h
      rw [if_neg hki, if_neg (by rw [hleaf]; decide), if_neg hka, List.append_nil]
      exact ihM hleaf s0 e (hs.same h4) h5 h6

theorem emitNode_error {cfg : Cfg} {anc : List Str} {i : HInfo} {ch : List HNode} {s : ESt} {e : PyErr}
    (h : emitNode cfg anc (.mk i ch) s = .error e) :
    preEmit cfg.lang anc s = .error e ∨
    ∃ pre s1, preEmit cfg.lang anc s = .ok (pre, s1) ∧ runNode cfg anc i (childrenM cfg anc i ch) s1 = .error e := by
  rw [emitNode_run] at h
  rcases bind_error h with h | ⟨pre, s1, h1, h2⟩
  · exact .inl h
  · rcases bind_error h2 with h | ⟨c, s2, h3, h4⟩
    · exact .inr ⟨pre, s1, h1, h⟩
    · rw [bind_run, setLast_run] at h4
      cases h4

mutual

theorem error_node {cfg : Cfg} (hl : cfg.lang = .rest) (hpol : cfg.policy ≠ .raise) : ∀ (n : HNode), plainLinks n = true →
    (∀ i ∈ visited n, i.kind ≠ c!"document") → ∀ (tab : Bool), completeTree tab n = true →
    ∀ (anc : List Str), 2 ≤ anc.length → ∀ (s : ESt) (e : PyErr) (us : List Use)
    (out : List Str), Recorded us out s → InTable tab s → emitNode cfg anc n s = .error e →
    e = .html2rest ∧ ¬ Consistent (us ++ uses (shouldSubst anc) n)
  | .mk i ch, hp, hv, tab, hc, anc, ha, s, e, us, out, hs, ht, h => by
    have hpre : preEmit cfg.lang anc s = .ok ([], s) := preEmit_nil (fun _ => .inr (by omega))
    rcases emitNode_error h with h | ⟨pre, s1, h1, h2⟩
    · rw [hpre] at h
      cases h
    rw [hpre] at h1
    cases h1
    have hv' := hv
    rw [visited] at hv'
    rw [completeTree, Bool.and_eq_true] at hc
    refine error_content hl hpol (by intro h; rw [h] at ha; simp at ha) (hv' i (by simp)) hp hv hc.1 ?_ hs ht h2
    intro hleaf s e us out hs ht hch
    rw [plainLinks, hleaf, Bool.false_or, Bool.and_eq_true] at hp
    refine error_nodes hl hpol ch hp.1 ?_ _ (by rw [hleaf, Bool.false_or] at hc; exact hc.2) (i.kind :: anc)
      (by rw [List.length_cons]; omega) s e us out hs ht hch
    intro j hj
    refine hv' j ?_
    rw [if_neg (by rw [hleaf]; decide)]
    exact List.mem_cons_of_mem _ hj

theorem error_nodes {cfg : Cfg} (hl : cfg.lang = .rest) (hpol : cfg.policy ≠ .raise) : ∀ (ns : List HNode), plainLinksL ns = true →
    (∀ i ∈ visitedL ns, i.kind ≠ c!"document") → ∀ (tab : Bool), completeTrees tab ns = true →
    ∀ (anc : List Str), 2 ≤ anc.length → ∀ (s : ESt) (e : PyErr) (us : List Use)
    (out : List Str), Recorded us out s → InTable tab s → emitNodes cfg anc ns s = .error e →
    e = .html2rest ∧ ¬ Consistent (us ++ usesL (shouldSubst anc) ns)
  | [], _, _, _, _, _, _, s, e, us, out, hs, _, h => by
    rw [emitNodes_nil] at h
    cases h
  | n :: ns, hp, hv, tab, hc, anc, ha, s, e, us, out, hs, ht, h => by
    rw [plainLinksL, Bool.and_eq_true] at hp
    rw [completeTrees, Bool.and_eq_true] at hc
    rw [visitedL] at hv
    have hv1 : ∀ i ∈ visited n, i.kind ≠ c!"document" := fun i hi => hv i (List.mem_append.mpr (.inl hi))
    rw [emitNodes_cons] at h
    rw [usesL, ← List.append_assoc]
    rcases bind_error h with h | ⟨a, s1, h1, h2⟩
    · obtain ⟨h3, h4⟩ := error_node hl hpol n hp.1 hv1 tab hc.1 anc ha s e us out hs ht h
      exact ⟨h3, fun hcon => h4 (consistent_left hcon)⟩
    · rcases bind_error h2 with h | ⟨b, s2, _, h4⟩
      · have hr := rest_node hl n hp.1 hv1 anc ha s s1 a us out hs h1
        exact error_nodes hl hpol ns hp.2 (fun i hi => hv i (List.mem_append.mpr (.inr hi))) tab hc.2 anc ha s1 e _ out hr
          (table_kept (via_emitNode cfg anc n) h1 ht) h
      · cases h4

end

theorem flush_error {b : Bool} {s : ESt} {e : PyErr} : flushSubst b s ≠ .error e := by
  intro h
  rw [flushSubst, bind_run, get_run] at h
  dsimp only at h
  split at h <;> cases h

theorem error_children {cfg : Cfg} (hl : cfg.lang = .rest) (hpol : cfg.policy ≠ .raise) : ∀ (ns : List HNode), plainLinksL ns = true →
    (∀ i ∈ visitedL ns, i.kind ≠ c!"document") → completeTrees false ns = true → ∀ (s : ESt) (e : PyErr) (us : List Use)
    (out : List Str), Recorded us out s → emitNodes cfg [c!"document"] ns s = .error e →
    e = .html2rest ∧ ¬ Consistent (us ++ usesL false ns)
  | [], _, _, _, s, e, us, out, hs, h => by
    rw [emitNodes_nil] at h
    cases h
  | .mk i ch :: ns, hp, hv, hc, s, e, us, out, hs, h => by
    have hps := hp
    have hvs := hv
    rw [plainLinksL, Bool.and_eq_true] at hp
    rw [completeTrees, Bool.and_eq_true] at hc
    rw [visitedL] at hv
    have hv' : ∀ j ∈ visited (.mk i ch), j.kind ≠ c!"document" := fun j hj => hv j (List.mem_append.mpr (.inl hj))
    have hv'' := hv'
    rw [visited] at hv''
    rw [emitNodes_cons] at h
    rw [usesL, ← List.append_assoc]
    rcases bind_error h with h | ⟨a, s1, h1, h2⟩
    · rcases emitNode_error h with h | ⟨pre, s1, h1, h2⟩
      · rw [preEmit, if_pos hl] at h
        exact absurd h flush_error
      rw [preEmit, if_pos hl] at h1
      obtain ⟨ds, hd1, hd2⟩ := flush_ok hs h1
      have hc1 := hc.1
      rw [completeTree, Bool.and_eq_true] at hc1
      obtain ⟨h3, h4⟩ := error_content hl hpol (anc := [c!"document"]) (by simp) (hv'' i (by simp)) hp.1 hv' hc1.1 (by
        intro hleaf s e us out hs ht hch
        have hp1 := hp.1
        rw [plainLinks, hleaf, Bool.false_or, Bool.and_eq_true] at hp1
        refine error_nodes hl hpol ch hp1.1 ?_ _ (by rw [hleaf, Bool.false_or] at hc1; exact hc1.2) [i.kind, c!"document"] (by simp) s e us out hs
          ht hch
        intro j hj
        refine hv'' j ?_
        rw [if_neg (by rw [hleaf]; decide)]
        exact List.mem_cons_of_mem _ hj) hd2 (fun h => by cases h) h2
      exact ⟨h3, fun hcon => h4 (consistent_left hcon)⟩
    · rcases bind_error h2 with h | ⟨b, s2, _, h4⟩
      · -- the first child succeeds
        have hr : ∃ ds, Recorded (us ++ uses false (.mk i ch)) (out ++ ds) s1 := by
          have h5 : emitNodes cfg [c!"document"] [.mk i ch] s = .ok (a ++ [], s1) := by
            rw [emitNodes_cons]
            exact bind_ok.mpr ⟨a, s1, h1, bind_ok.mpr ⟨[], s1, by rw [emitNodes_nil]; rfl, rfl⟩⟩
          obtain ⟨ds, _, h6⟩ := rest_children hl [.mk i ch] (by rw [plainLinksL, hp.1]; rfl)
            (by
              intro j hj
              rw [visitedL, visitedL, List.append_nil] at hj
              exact hv' j hj) _ _ _ _ _ hs h5
          rw [usesL, usesL, List.append_nil] at h6
          exact ⟨ds, h6⟩
        obtain ⟨ds, hr⟩ := hr
        exact error_children hl hpol ns hp.2 (fun i hi => hv i (List.mem_append.mpr (.inr hi))) hc.2 s1 e _ _ hr h
      · cases h4

theorem error_document {cfg : Cfg} (hl : cfg.lang = .rest) (hpol : cfg.policy ≠ .raise) {i : HInfo} (hi : i.kind = c!"document")
    {ns : List HNode} (hp : plainLinksL ns = true) (hv : ∀ i ∈ visitedL ns, i.kind ≠ c!"document")
    (hc : completeTrees false ns = true) {e : PyErr} (h : emit cfg (.mk i ns) = .error e) :
    e = .html2rest ∧ ¬ Consistent (usesL false ns) := by
  rw [emit_eq] at h
  cases hn : emitNode cfg [] (.mk i ns) {} with
  | ok r => rw [hn] at h; cases h
  | error e' =>
    rw [hn] at h
    cases h
    have hpre : preEmit cfg.lang [] {} = .ok ([], {}) := preEmit_nil (fun _ => .inl rfl)
    rcases emitNode_error hn with h | ⟨pre, s1, h1, h2⟩
    · rw [hpre] at h
      cases h
    rw [hpre] at h1
    cases h1
    rw [runNode, hi, method_document] at h2
    simp only [runMeth, if_pos hl] at h2
    rw [restDocument] at h2
    rcases bind_error h2 with h | ⟨c, s1, _, h3⟩
    · rw [childrenM_run, hi] at h
      exact error_children hl hpol ns hp hv hc _ e [] [] (recorded_start.same (s' := enter i {}) rfl) h
    · exfalso
      rw [bind_run, get_run] at h3
      dsimp only at h3
      split at h3 <;> cases h3

/-! ## The text of paragraphs -/

theorem firstUses_append' (us vs : List Use) :
    firstUses (us ++ vs) = firstUses us ++ (firstUses vs).filter fun u => !us.any fun v => v.picture = u.picture ∧ v.text = u.text := by
  induction us with
  | nil => exact (List.filter_eq_self.mpr fun _ _ => rfl).symm
  | cons x us ih =>
    rw [List.cons_append, firstUses, ih, firstUses, List.filter_append, List.filter_filter, List.cons_append]
    congr 2
    refine List.filter_congr fun u _ => ?_
    rw [List.any_cons]
    by_cases h : u.picture = x.picture ∧ u.text = x.text
    · simp [h.1, h.2]
    · have h' : ¬ (x.picture = u.picture ∧ x.text = u.text) := fun h2 => h ⟨h2.1.symm, h2.2.symm⟩
      simp [h, h']

theorem definitions_append' (us vs : List Use) : definitions (us ++ vs) = definitions us ++ newDefinitions us vs := by
  rw [definitions, firstUses_append', List.filter_append, definitions, newDefinitions, definitions, List.filter_filter,
    List.filter_filter]
  congr 1
  refine List.filter_congr fun u _ => ?_
  rw [Bool.and_comm]

/-- the text of a link -/
theorem restLink_text {anc : List Str} (hanc : shouldSubst anc = false) {attrs : Dict (Option Str)} {ch : EmM Str} {s s' : ESt}
    {t : Str} (h : restLink anc attrs ch s = .ok (t, s')) :
    ∃ text s1 url old d, ch s = .ok (text, s1) ∧ dictGet c!"href" attrs = some url ∧
      oldSubst s1.usedLinks text url = .ok (old, d) ∧
      t = if isOld old then c!"`" ++ text ++ c!"`_" else c!"`" ++ text ++ c!" <" ++ fmt url ++ c!">`_" := by
  rw [restLink] at h
  obtain ⟨text, s1, h1, h2⟩ := bind_ok.mp h
  rcases hurl : dictGet c!"href" attrs with _ | url
  · rw [hurl] at h2; cases h2
  · rw [hurl] at h2
    dsimp only at h2
    rw [bind_run, get_run] at h2
    dsimp only at h2
    obtain ⟨⟨old, d⟩, s3, h5, h6⟩ := bind_ok.mp h2
    rw [ofExcept_run] at h5
    refine ⟨text, s1, url, old, d, h1, rfl, ?_⟩
    cases ho : oldSubst s1.usedLinks text url with
    | error e => rw [ho] at h5; cases h5
    | ok r =>
      rw [ho] at h5
      cases h5
      refine ⟨rfl, ?_⟩
      rw [bind_run, modify_run] at h6
      dsimp only at h6
      rw [hanc, if_neg (by decide)] at h6
      cases hold : isOld old with
      | true =>
        rw [hold, if_pos rfl] at h6
        rw [if_pos rfl, (pure_ok.mp h6).1]
        rfl
      | false =>
        rw [hold, if_neg (by decide)] at h6
        rw [if_neg (by decide), (pure_ok.mp h6).1]
        rfl

theorem any_urlOf {us : List Use} {text : Str} :
    (us.any fun u => u.picture = false ∧ u.text = text) = (urlOf us false text).isSome := by
  rw [urlOf, Option.isSome_map, Bool.eq_iff_iff, List.find?_isSome, List.any_eq_true]

mutual

theorem linkText_uses : ∀ (n : HNode) (t : Str), linkText n = some t → ∀ cell, ∀ u ∈ uses cell n, u.picture = true
  | .mk i ch, t, ht, cell, u, hu => by
    rw [linkText] at ht
    rw [uses] at hu
    split at ht
    · next hk =>
      rw [hk, if_neg (by decide), if_pos (by decide)] at hu
      cases hu
    · split at ht
      · next hk =>
        rw [if_pos hk] at hu
        split at hu
        · simp only [List.mem_singleton] at hu
          rw [hu]
        · cases hu
      · next hk =>
        split at ht
        · next before after w hd hw =>
          have hka : i.kind ≠ c!"a" := by
            intro h
            rw [h] at hd
            cases hd
          rw [if_neg hk, if_neg hka] at hu
          split at hu
          · cases hu
          · rw [List.append_nil] at hu
            exact linkTexts_uses ch w hw _ u hu
        · cases ht

theorem linkTexts_uses : ∀ (ns : List HNode) (t : Str), linkTexts ns = some t → ∀ cell, ∀ u ∈ usesL cell ns, u.picture = true
  | [], _, _, _, u, hu => by rw [usesL] at hu; cases hu
  | n :: ns, t, ht, cell, u, hu => by
    rw [linkTexts] at ht
    rw [usesL] at hu
    split at ht
    · next a b hna hnb =>
      rcases List.mem_append.mp hu with h | h
      · exact linkText_uses n a hna cell u h
      · exact linkTexts_uses ns b hnb cell u h
    · cases ht

end

mutual

theorem linkMarkup_emit {cfg : Cfg} (hl : cfg.lang = .rest) : ∀ (n : HNode) (us : List Use) (t : Str),
    linkMarkup us n = some t → plainLinks n = true → (∀ i ∈ visited n, i.kind ≠ c!"document") → ∀ (anc : List Str),
    2 ≤ anc.length → shouldSubst anc = false → ∀ (s : ESt) (x : Str) (s' : ESt) (out : List Str), Recorded us out s →
    UrlsGiven (us ++ uses false n) → emitNode cfg anc n s = .ok (x, s') → x = t
  | .mk i ch, us, t, ht, hp, hv, anc, ha, hanc, s, x, s', out, hs, hg, h => by
    have hq : Quiet s anc := .inr ha
    have halen : 2 ≤ (i.kind :: anc).length := by rw [List.length_cons]; omega
    rw [linkMarkup] at ht
    by_cases hk : i.kind = c!"a"
    · rw [if_pos hk] at ht
      have hleaf : leafKinds.contains i.kind = false := by rw [hk]; decide
      have hki : i.kind ≠ c!"img" := by rw [hk]; decide
      split at ht
      · next text url htext hurl =>
        rw [emitNode_known (m := .a) (by rw [hk, hl]; rfl) hq.pre] at h
        simp only [runMeth, hl] at h
        cases hr : restLink anc i.attrs (childrenM cfg anc i ch) s with
        | error e => rw [hr] at h; cases h
        | ok r =>
          obtain ⟨y, s1⟩ := r
          rw [hr] at h
          cases h
          obtain ⟨text', s2, url', old, d, h1, h2, h3, h4⟩ := restLink_text hanc hr
          rw [hurl] at h2
          cases h2
          rw [childrenM_run] at h1
          have he := linkTexts_emit hl ch text htext _ halen _ _ _ h1
          subst he
          rw [plainLinks, hleaf, Bool.false_or, Bool.and_eq_true] at hp
          have hr2 := rest_nodes hl ch hp.1 (fun j hj => hv j (by
            rw [visited, if_neg (by rw [hleaf]; decide)]
            exact List.mem_cons_of_mem _ hj)) (i.kind :: anc) halen (enter i s) s2 text' us out (hs.same (s' := enter i s) rfl) h1
          rw [shouldSubst_cons, hanc, hk] at hr2
          -- the pictures in the link do not matter
          have hpic := linkTexts_uses ch text' htext
          have hurls : urlOf (us ++ usesL false ch) false text' = urlOf us false text' := by
            rw [urlOf, List.find?_append, urlOf]
            have : (usesL false ch).find? (fun u => decide (u.picture = false ∧ u.text = text')) = none := by
              rw [List.find?_eq_none]
              intro u hu
              simp [hpic false u hu]
            rw [this, Option.or_none]
          have hd : dictGet text' s2.usedLinks = urlOf us false text' := by
            rw [hr2.links, ← hurls]
            rfl
          rw [any_urlOf, ← hd] at ht
          rw [oldSubst] at h3
          rw [h4]
          rcases hdd : dictGet text' s2.usedLinks with _ | o
          · rw [hdd] at h3 ht
            cases h3
            cases ht
            rfl
          · rw [hdd] at h3 ht
            dsimp only at h3
            split at h3
            · next ho =>
              cases h3
              have hg' : ∃ c cs, (some url : Option Str) = some (c :: cs) := by
                refine hg ⟨false, text', some url, false⟩ ?_
                rw [uses, if_neg hki, if_neg (by rw [hleaf]; decide), if_pos hk, htext, hurl]
                simp
              rw [isOld_given (by rw [ho]; exact hg'), if_pos rfl]
              cases ht
              rfl
            · cases h3
      · cases ht
    · rw [if_neg hk] at ht
      split at ht
      · next hk =>
        rw [emitNode_known (m := .data) (by rw [hk]; exact method_data _) hq.pre] at h
        simp only [runMeth, ht, hl] at h
        cases h
        rfl
      · split at ht
        · next hk =>
          rw [emitNode_known (m := .img) (by rw [hk]; exact method_img _) hq.pre] at h
          simp only [runMeth, hl] at h
          cases hr : restImg i.attrs s with
          | error e => rw [hr] at h; cases h
          | ok r =>
            obtain ⟨y, s1⟩ := r
            rw [hr] at h
            cases h
            cases ht
            rcases restImg_ok hr with ⟨h1, h2, _⟩ | ⟨src, text, h1, h2, _⟩
            · rw [h1, h2]
            · rw [h1, h2]
        · next hki =>
          split at ht
          · next before after u hd hu =>
            cases ht
            obtain ⟨m, hm, hw⟩ := delimiters_method hd
            rw [← hl] at hm
            have hleaf : leafKinds.contains i.kind = false := by
              have := usesChildren_iff (hl ▸ hm)
              have hm' : m.usesChildren = true := by
                rcases hb : m.usesChildren with _ | _
                · exfalso
                  have hkind : ∀ k, leafKinds.contains k = true → delimiters .rest k = none := by
                    intro k hk
                    have : ∀ k ∈ leafKinds, delimiters .rest k = none := by decide +kernel
                    exact this k (by simpa using hk)
                  rw [hb] at this
                  rw [hkind _ (by simpa using this)] at hd
                  cases hd
                · rfl
              rw [hm'] at this
              simpa using this
            have hth : i.kind ≠ c!"th" := by intro h; rw [h] at hd; cases hd
            have htd : i.kind ≠ c!"td" := by intro h; rw [h] at hd; cases hd
            rw [emitNode_known hm hq.pre, hw, bind_run, childrenM_run] at h
            cases hc : emitNodes cfg (i.kind :: anc) ch (enter i s) with
            | error e => rw [hc] at h; cases h
            | ok r =>
              obtain ⟨y, s1⟩ := r
              rw [hc] at h
              cases h
              rw [plainLinks, hleaf, Bool.false_or, Bool.and_eq_true] at hp
              rw [linkMarkups_emit hl ch us u hu hp.1 (fun j hj => hv j (by
                rw [visited, if_neg (by rw [hleaf]; decide)]
                exact List.mem_cons_of_mem _ hj)) (i.kind :: anc) halen
                (by rw [shouldSubst_cons, hanc]; simp [hth, htd]) _ _ _ out (hs.same (s' := enter i s) rfl) ?_ hc]
              rw [uses, if_neg hki, if_neg (by rw [hleaf]; decide), if_neg hk, List.append_nil] at hg
              simpa [hth, htd] using hg
          · cases ht

theorem linkMarkups_emit {cfg : Cfg} (hl : cfg.lang = .rest) : ∀ (ns : List HNode) (us : List Use) (t : Str),
    linkMarkups us ns = some t → plainLinksL ns = true → (∀ i ∈ visitedL ns, i.kind ≠ c!"document") → ∀ (anc : List Str),
    2 ≤ anc.length → shouldSubst anc = false → ∀ (s : ESt) (x : Str) (s' : ESt) (out : List Str), Recorded us out s →
    UrlsGiven (us ++ usesL false ns) → emitNodes cfg anc ns s = .ok (x, s') → x = t
  | [], us, t, ht, _, _, anc, ha, _, s, x, s', _, _, _, h => by
    rw [linkMarkups] at ht
    rw [emitNodes_nil] at h
    cases ht
    exact (pure_ok.mp h).1
  | n :: ns, us, t, ht, hp, hv, anc, ha, hanc, s, x, s', out, hs, hg, h => by
    rw [linkMarkups] at ht
    rw [plainLinksL, Bool.and_eq_true] at hp
    rw [visitedL] at hv
    rw [usesL, ← List.append_assoc] at hg
    have hv1 : ∀ i ∈ visited n, i.kind ≠ c!"document" := fun i hi => hv i (List.mem_append.mpr (.inl hi))
    split at ht
    · next a b hna hnb =>
      cases ht
      rw [emitNodes_cons] at h
      obtain ⟨y, s1, h1, h2⟩ := bind_ok.mp h
      obtain ⟨z, s2, h3, h4⟩ := bind_ok.mp h2
      have hr := rest_node hl n hp.1 hv1 anc ha s s1 y us out hs h1
      rw [hanc] at hr
      rw [(pure_ok.mp h4).1, linkMarkup_emit hl n us a hna hp.1 hv1 anc ha hanc _ _ _ out hs (urlsGiven_left hg) h1,
        linkMarkups_emit hl ns _ b hnb hp.2 (fun i hi => hv i (List.mem_append.mpr (.inr hi))) anc ha hanc _ _ _ out hr hg h3]
    · cases ht

end

/-- pending definitions as text -/
def pending : List Str → Str
  | [] => []
  | d :: ds => join c!"\n" (d :: ds) ++ c!"\n\n"

theorem flush_text {s s' : ESt} {pre : Str} (h : flushSubst true s = .ok (pre, s')) :
    pre = pending s.subst ∧ s' = { s with subst := [] } := by
  rw [flushSubst, bind_run, get_run] at h
  dsimp only at h
  rcases hz : s.subst with _ | ⟨d, ds⟩
  · rw [hz, if_neg (by simp)] at h
    obtain ⟨h1, h2⟩ := pure_ok.mp h
    rw [h1, h2]
    refine ⟨rfl, ?_⟩
    rw [← hz]
  · rw [hz, if_pos (by simp)] at h
    cases h
    rw [hz]
    exact ⟨rfl, rfl⟩

/-- the paragraphs; the definitions of the last one are pending -/
theorem paragraphs_emit {cfg : Cfg} (hl : cfg.lang = .rest) : ∀ (ps : List HNode) (us : List Use) (t : Str),
    restParagraphs us ps = some t → plainLinksL ps = true → (∀ i ∈ visitedL ps, i.kind ≠ c!"document") →
    ∀ (s : ESt) (x : Str) (s' : ESt) (out : List Str), Recorded us out s →
    UrlsGiven (us ++ usesL false ps) → emitNodes cfg [c!"document"] ps s = .ok (x, s') →
    x ++ pending s'.subst = pending s.subst ++ t ∧ (ps ≠ [] → ∃ y, x = y ++ c!"\n\n")
  | [], us, t, ht, _, _, s, x, s', _, _, _, h => by
    rw [restParagraphs] at ht
    rw [emitNodes_nil] at h
    cases ht
    obtain ⟨h1, h2⟩ := pure_ok.mp h
    rw [h1, h2]
    simp
  | .mk i ch :: ps, us, t, ht, hp, hv, s, x, s', out, hs, hg, h => by
    rw [restParagraphs] at ht
    rw [plainLinksL, Bool.and_eq_true] at hp
    rw [visitedL] at hv
    have hv1 : ∀ j ∈ visited (.mk i ch), j.kind ≠ c!"document" := fun j hj => hv j (List.mem_append.mpr (.inl hj))
    split at ht
    · next hk =>
      have hleaf : leafKinds.contains i.kind = false := by rw [hk]; decide
      have huse : uses false (.mk i ch) = usesL false ch := by
        rw [uses, hk, if_neg (by decide), if_neg (by decide), if_neg (by decide), List.append_nil]
        rfl
      rw [usesL, huse, ← List.append_assoc] at hg
      have hp1 := hp.1
      rw [plainLinks, hleaf, Bool.false_or, Bool.and_eq_true] at hp1
      have hv2 : ∀ j ∈ visitedL ch, j.kind ≠ c!"document" := fun j hj => hv1 j (by
        rw [visited, if_neg (by rw [hleaf]; decide)]
        exact List.mem_cons_of_mem _ hj)
      split at ht
      · next text more hna hnb =>
        cases ht
        rw [emitNodes_cons] at h
        obtain ⟨y, s1, h1, h2⟩ := bind_ok.mp h
        obtain ⟨z, s2, h3, h4⟩ := bind_ok.mp h2
        obtain ⟨h5, h6⟩ := pure_ok.mp h4
        subst h6
        obtain ⟨pre, s3, c, s4, h7, h8, h9, h10⟩ := emitNode_ok h1
        rw [preEmit, if_pos hl] at h7
        obtain ⟨hpre, hs3⟩ := flush_text h7
        have hr3 : Recorded us (out ++ s.subst) s3 := by
          refine ⟨?_, ?_, hs.consistent, fun hg' => ?_⟩
          · rw [hs3]; exact hs.links
          · rw [hs3]; exact hs.images
          · rw [hs.defs hg', hs3]
            show _ = _ ++ []
            rw [List.append_nil]
        -- the paragraph
        rw [runNode, hk, hl] at h8
        have h8' : runMeth cfg [c!"document"] i .p (childrenM cfg [c!"document"] i ch) s3 = .ok (c, s4) := h8
        rw [runMeth, hl] at h8'
        obtain ⟨c1, s5, h11, h12⟩ := bind_ok.mp h8'
        obtain ⟨h13, h14⟩ := pure_ok.mp h12
        rw [childrenM_run] at h11
        have htext := linkMarkups_emit hl ch us text hna hp1.1 hv2 [i.kind, c!"document"] (by simp)
          (by rw [hk]; decide) _ _ _ _ (hr3.same (s' := enter i s3) rfl) (urlsGiven_left hg) h11
        have hr5 := rest_nodes hl ch hp1.1 hv2 [i.kind, c!"document"] (by simp) _ _ _ us _ (hr3.same (s' := enter i s3) rfl) h11
        rw [show shouldSubst [i.kind, c!"document"] = false by rw [hk]; decide] at hr5
        have hr1 : Recorded (us ++ usesL false ch) (out ++ s.subst) s1 := hr5.same (by rw [h10, h14]; rfl)
        -- the new definitions
        have hsub : s1.subst = (newDefinitions us (usesL false ch)).map Use.definition := by
          have e1 := hr1.defs (urlsGiven_left hg)
          have e2 := hs.defs (urlsGiven_left (urlsGiven_left hg))
          rw [definitions_append', List.map_append, e2] at e1
          exact (List.append_cancel_left e1).symm
        obtain ⟨h15, h16⟩ := paragraphs_emit hl ps _ more hnb hp.2 (fun j hj => hv j (List.mem_append.mpr (.inr hj))) _ _ _ _ hr1
          hg h3
        have hpend : pending s1.subst = (match newDefinitions us (usesL false ch) with
            | [] => []
            | d :: ds => join c!"\n" ((d :: ds).map Use.definition) ++ c!"\n\n") := by
          rw [hsub]
          cases newDefinitions us (usesL false ch) <;> rfl
        refine ⟨?_, fun _ => ?_⟩
        · rw [h5, h9, hpre, h13, htext, List.append_assoc, h15, hpend]
          simp only [List.append_assoc]
          cases newDefinitions us (usesL false ch) <;> rfl
        · cases ps with
          | nil =>
            rw [emitNodes_nil] at h3
            refine ⟨pre ++ text, ?_⟩
            rw [h5, h9, h13, htext, (pure_ok.mp h3).1]
            simp
          | cons q qs =>
            obtain ⟨w, hw⟩ := h16 (by simp)
            exact ⟨y ++ w, by rw [h5, hw, List.append_assoc]⟩
      · cases ht
    · cases ht

theorem uses_document {i : HInfo} (hi : i.kind = c!"document") (ns : List HNode) : uses false (.mk i ns) = usesL false ns := by
  rw [uses, hi, if_neg (by decide), if_neg (by decide), if_neg (by decide), List.append_nil]
  rfl

/-! ## The properties -/

/-- The root of a tree that can be converted: a document without inner documents, and with links that consist of texts,
typefaces and pictures. -/
structure LinkDocument (i : HInfo) (ns : List HNode) : Prop where
  root : i.kind = c!"document"
  inner : ∀ j ∈ visitedL ns, j.kind ≠ c!"document"
  links : plainLinksL ns = true

/-- **C43** If the conversion to ReSt succeeds, no link text and no picture text is used for two URLs. -/
theorem C43_one_url {cfg : Cfg} (hl : cfg.lang = .rest) {i : HInfo} {ns : List HNode} (hd : LinkDocument i ns) {text : Str}
    (h : emit cfg (.mk i ns) = .ok text) : Consistent (uses false (.mk i ns)) := by
  rw [uses_document hd.root]
  exact (rest_document hl hd.root hd.links hd.inner h).1

/-- **C43** If the nodes have what they need, the conversion fails exactly if a text is used for two URLs, and then with
`Html2restException`. -/
theorem C43_exception {cfg : Cfg} (hl : cfg.lang = .rest) (hpol : cfg.policy ≠ .raise) {i : HInfo} {ns : List HNode}
    (hd : LinkDocument i ns) (hc : completeTrees false ns = true) :
    (Consistent (uses false (.mk i ns)) ∧ ∃ text, emit cfg (.mk i ns) = .ok text) ∨
    (¬ Consistent (uses false (.mk i ns)) ∧ emit cfg (.mk i ns) = .error .html2rest) := by
  cases h : emit cfg (.mk i ns) with
  | ok text => exact .inl ⟨C43_one_url hl hd h, text, rfl⟩
  | error e =>
    rw [uses_document hd.root]
    obtain ⟨h1, h2⟩ := error_document hl hpol hd.root hd.links hd.inner hc h
    exact .inr ⟨h2, by rw [h1]⟩

/-- **C44** The definitions of all pictures and of all links first used in a table cell are in the text, once for every
text, in the order of their first use.  (Spaces at the end of the text are removed.) -/
theorem C44_definitions {cfg : Cfg} (hl : cfg.lang = .rest) {i : HInfo} {ns : List HNode} (hd : LinkDocument i ns)
    (hu : ∀ u ∈ uses false (.mk i ns), u.url ≠ none ∧ u.url ≠ some []) {text : Str} (h : emit cfg (.mk i ns) = .ok text) :
    ∃ t, text = rstrip t ∧ InOrder ((definitions (uses false (.mk i ns))).map Use.definition) t := by
  rw [uses_document hd.root] at hu ⊢
  refine (rest_document hl hd.root hd.links hd.inner h).2 fun u hu' => ?_
  obtain ⟨h1, h2⟩ := hu u hu'
  rcases hurl : u.url with _ | _ | ⟨c, cs⟩
  · exact absurd hurl h1
  · exact absurd hurl h2
  · exact ⟨c, cs, rfl⟩

/-- **C44** The complete text of a document of paragraphs: every paragraph is followed by the definitions of what it uses
first, and there are no others. -/
theorem C44_paragraphs {cfg : Cfg} (hl : cfg.lang = .rest) {i : HInfo} {ps : List HNode} (hd : LinkDocument i ps)
    (hu : ∀ u ∈ uses false (.mk i ps), u.url ≠ none ∧ u.url ≠ some []) {text t : Str} (ht : restParagraphs [] ps = some t)
    (h : emit cfg (.mk i ps) = .ok text) : text = rstrip t := by
  rw [uses_document hd.root] at hu
  have hg : UrlsGiven (usesL false ps) := by
    intro u hu'
    obtain ⟨h1, h2⟩ := hu u hu'
    rcases hurl : u.url with _ | _ | ⟨c, cs⟩
    · exact absurd hurl h1
    · exact absurd hurl h2
    · exact ⟨c, cs, rfl⟩
  rw [emit_eq] at h
  cases hn : emitNode cfg [] (.mk i ps) {} with
  | error e => rw [hn] at h; cases h
  | ok r =>
    obtain ⟨t1, s'⟩ := r
    rw [hn] at h
    simp only [if_pos hl] at h
    cases h
    rw [emitNode_known (m := .document) (by rw [hd.root]; exact method_document _) (fun _ => .inl rfl)] at hn
    simp only [runMeth, if_pos hl] at hn
    cases hr : restDocument (childrenM cfg [] i ps) {} with
    | error e => rw [hr] at hn; cases hn
    | ok r =>
      obtain ⟨t', s1⟩ := r
      rw [hr] at hn
      cases hn
      rw [restDocument] at hr
      obtain ⟨c, s2, h1, h2⟩ := bind_ok.mp hr
      rw [childrenM_run, hd.root] at h1
      obtain ⟨h3, h4⟩ := paragraphs_emit hl ps [] t ht hd.links hd.inner _ _ _ [] (recorded_start.same (s' := enter i {}) rfl)
        (by rw [List.nil_append]; exact hg) h1
      have h3' : c ++ pending s2.subst = t := h3
      rw [← h3']
      congr 1
      rw [bind_run, get_run] at h2
      dsimp only at h2
      rcases hz : s2.subst with _ | ⟨d, ds⟩
      · rw [hz, if_neg (by simp)] at h2
        rw [(pure_ok.mp h2).1, pending, List.append_nil]
      · rw [hz, if_pos (by simp)] at h2
        have hps : ps ≠ [] := by
          intro hps
          rw [hps, emitNodes_nil] at h1
          rw [(pure_ok.mp h1).2] at hz
          cases hz
        obtain ⟨y, hy⟩ := h4 hps
        have hsuf : c!"\n\n".isSuffixOf c = true := by
          rw [hy]
          exact List.isSuffixOf_iff_suffix.mpr ⟨y, rfl⟩
        rw [hsuf, if_pos rfl] at h2
        cases h2
        rw [hz, List.append_assoc]
        rfl

/-! ## Examples -/

/-- a node -/
def exNode (kind : Str) (attrs : Dict (Option Str)) (ch : List HNode) : HNode := .mk { kind, attrs } ch

/-- a text -/
def exText (t : Str) : HNode := .mk { kind := c!"data", content := some t } []

/-- two paragraphs, with the same link and the same picture twice -/
def exParagraphs : List HNode := [
  exNode c!"p" [] [exText c!"See ", exNode c!"a" [(c!"href", some c!"/x")] [exNode c!"b" [] [exText c!"it"]],
    exNode c!"img" [(c!"src", some c!"p/a.png")] []],
  exNode c!"p" [] [exNode c!"a" [(c!"href", some c!"/x")] [exNode c!"b" [] [exText c!"it"]],
    exNode c!"img" [(c!"src", some c!"p/a.png")] [], exNode c!"img" [(c!"src", some c!"b.png"), (c!"alt", some c!"B")] []]]

def exLinkRoot : HInfo := { kind := c!"document" }

theorem exParagraphs_document : LinkDocument exLinkRoot exParagraphs := ⟨rfl, by decide +kernel, by decide +kernel⟩

example : emit { lang := .rest } (.mk exLinkRoot exParagraphs) =
    .ok c!"See `**it** </x>`_|a.png|\n\n.. |a.png| image:: p/a.png\n\n`**it**`_|a.png||B|\n\n.. |B| image:: b.png" := by
  decide +kernel

/-- the hypotheses of `C43_exception`, `C44_definitions` and `C44_paragraphs` -/
example : completeTrees false exParagraphs = true ∧
    (∀ u ∈ uses false (.mk exLinkRoot exParagraphs), u.url ≠ none ∧ u.url ≠ some []) ∧
    (restParagraphs [] exParagraphs).map rstrip =
    some c!"See `**it** </x>`_|a.png|\n\n.. |a.png| image:: p/a.png\n\n`**it**`_|a.png||B|\n\n.. |B| image:: b.png" := by
  decide +kernel

/-- the same link text with another URL, in a table -/
def exTable (url : Str) : List HNode := [
  exNode c!"table" [] [exNode c!"tr" [] [exNode c!"td" [] [exNode c!"a" [(c!"href", some c!"/x")] [exText c!"it"]]]],
  exNode c!"p" [] [exNode c!"a" [(c!"href", some url)] [exText c!"it"]]]

theorem exTable_document (url : Str) : LinkDocument exLinkRoot (exTable url) := by
  refine ⟨rfl, ?_, ?_⟩
  · simp [exTable, exNode, exText, visitedL, visited, leafKinds]
  · simp [exTable, exNode, exText, plainLinksL, plainLinks, leafKinds, linkTexts, linkText]

example : completeTrees false (exTable c!"/y") = true ∧ ¬ Consistent (uses false (.mk exLinkRoot (exTable c!"/y"))) ∧
    emit { lang := .rest } (.mk exLinkRoot (exTable c!"/y")) = .error .html2rest := by
  have h : emit { lang := .rest } (.mk exLinkRoot (exTable c!"/y")) = .error .html2rest := by decide +kernel
  refine ⟨by decide +kernel, ?_, h⟩
  rcases C43_exception (cfg := { lang := .rest }) rfl (by decide) (exTable_document c!"/y") (by decide +kernel) with ⟨_, t, h'⟩ | h'
  · rw [h] at h'; cases h'
  · exact h'.1

example : emit { lang := .rest } (.mk exLinkRoot (exTable c!"/x")) =
    .ok c!"+-------+\n| `it`_ |\n+-------+\n\n.. _it: /x\n\n`it`_" := by
  decide +kernel

/-- **C44** If a URL is empty the definition is emitted each time the picture is used. -/
theorem C44_empty_url : html2rest c!"<p><img src=\"\" alt=\"A\" /></p><p><img src=\"\" alt=\"A\" /></p>" =
    .ok c!"|A|\n\n.. |A| image:: \n\n|A|\n\n.. |A| image::" := by decide +kernel

end Verif.Props
