import Verif.Props.Totality
import Verif.Props.ArticlePre
import Verif.Props.RoundTrip
import Verif.Emit.User
import Verif.Props.Firewall

/-!
# C101: white space at the ends
-/

namespace Verif.Props

open Verif Py Html Emit Spec Spec.Hd Spec.Ar

/-- no white space at the end -/
def BareTail (t : Str) : Prop := ∀ c, t.getLast? = some c → isSpace c = false

/-- no white space at the ends -/
def BareEnds (t : Str) : Prop := (∀ c, t.head? = some c → isSpace c = false) ∧ BareTail t

theorem strip_bareEnds (s : Str) : BareEnds (strip s) := ⟨fun c h => stripP_head s c h, fun c h => stripP_last s c h⟩

theorem emit_bareEnds {cfg : Cfg} {root : HNode} {t : Str} (h : emit cfg root = .ok t) :
    (cfg.lang ≠ .rest → BareEnds t) ∧ BareTail t := by
  unfold emit at h
  cases hr : (emitNode cfg [] root).run {} with
  | error e => rw [hr] at h; cases h
  | ok r =>
    obtain ⟨text, s⟩ := r
    rw [hr] at h
    have h : (if cfg.lang = .rest then rstrip text else strip text) = t := Except.ok.inj h
    split at h
    · next hl => subst h; exact ⟨fun h' => absurd hl h', fun c hc => dropEndWhile_getLast _ c hc⟩
    · subst h; exact ⟨fun _ => strip_bareEnds _, (strip_bareEnds _).2⟩

theorem convert_bareEnds {cfg : Cfg} {html t : Str} (h : convert cfg html = .ok t) : (cfg.lang ≠ .rest → BareEnds t) ∧ BareTail t := by
  unfold convert at h
  cases hp : parseHtml html with
  | error e => rw [hp] at h; cases h
  | ok root => rw [hp] at h; exact emit_bareEnds h

/-- **C101**: the texts converted from HTML have no white space at their ends; those of html2rest have none at the end.  Whatever
the HTML is, and whatever is done with unknown tags. -/
theorem C101_from_html (html t : Str) (policy : Policy) :
    (∀ strict, Emit.html2creole html policy strict = .ok t → BareEnds t) ∧ (html2textile html policy = .ok t → BareEnds t) ∧
    (∀ hostOk, html2markdown hostOk html policy = .ok t → BareEnds t) ∧ (html2rest html policy = .ok t → BareTail t) :=
  ⟨fun _ h => (convert_bareEnds h).1 (by simp), fun h => (convert_bareEnds h).1 (by simp),
    fun _ h => (convert_bareEnds h).1 (by simp), fun h => (convert_bareEnds h).2⟩

/-- **C101**: the text of html2rest can begin with white space. -/
theorem C101_rest_begins : html2rest c!"<br>a" = .ok c!"\na" ∧ html2rest c!"<li>a</li>" = .ok c!"\n a" := by decide +kernel

theorem replaceFirst_parts (old new : Str) : ∀ s : Str, replaceFirst old new s = s ∨
    ∃ p q, s = p ++ old ++ q ∧ replaceFirst old new s = p ++ new ++ q
  | [] => .inl rfl
  | c :: s => by
    rw [replaceFirst]
    split
    · next h =>
      obtain ⟨q, hq⟩ := List.isPrefixOf_iff_prefix.mp h
      exact .inr ⟨[], q, by simp [hq], by rw [← hq]; simp⟩
    · rcases replaceFirst_parts old new s with h | ⟨p, q, h1, h2⟩
      · exact .inl (by rw [h])
      · exact .inr ⟨c :: p, q, by simp [h1], by rw [h2]; simp⟩

theorem replaceFirst_bareEnds {old new s : Str} (hs : BareEnds s) (hn : BareEnds new) (hne : new ≠ []) : BareEnds (replaceFirst old new s) := by
  rcases replaceFirst_parts old new s with h | ⟨p, q, h1, h2⟩
  · rw [h]; exact hs
  · rw [h2]
    subst h1
    constructor
    · intro c hc
      cases p with
      | nil =>
        cases new with
        | nil => exact absurd rfl hne
        | cons a new => exact hn.1 c (by simpa using hc)
      | cons a p => exact hs.1 c (by simpa using hc)
    · intro c hc
      cases hq : q.getLast? with
      | none =>
        have : q = [] := by simpa using hq
        subst this
        rw [List.append_nil, List.getLast?_append] at hc
        cases hl : new.getLast? with
        | none => exact absurd (by simpa using hl) hne
        | some d =>
          rw [hl] at hc
          exact hn.2 c (by rw [hl]; simpa using hc)
      | some d =>
        rw [List.getLast?_append, hq] at hc
        exact hs.2 c (by rw [List.getLast?_append, hq]; simpa using hc)

theorem flatToNest_list {l : List (Nat × Str)} {n : Creole.Nest} (h : Creole.flatToNest l = .ok n) : ∃ a, n = .list a := by
  unfold Creole.flatToNest at h
  cases hf : l.foldlM Creole.nestStep [[]] with
  | error e => rw [hf] at h; cases h
  | ok stack =>
    rw [hf] at h
    simp only [Creole.ok_bind] at h
    split at h
    · cases h; exact ⟨_, rfl⟩
    · cases h

theorem nestHtml_bareEnds (a : List Creole.Nest) : BareEnds (Creole.nestHtml 0 (.list a)) ∧ Creole.nestHtml 0 (.list a) ≠ [] := by
  rw [Creole.nestHtml]
  simp only [Creole.tabs, List.replicate_zero, List.nil_append, List.append_nil, Nat.lt_irrefl, if_false, gt_iff_lt]
  refine ⟨⟨fun c hc => ?_, fun c hc => ?_⟩, by simp⟩
  · simp at hc; subst hc; decide
  · rw [List.getLast?_append] at hc
    simp at hc; subst hc; decide

theorem toc_bareEnds {t : Creole.Toc} {s r : Str} (hs : BareEnds s) (h : t.emit s = .ok r) : BareEnds r := by
  unfold Creole.Toc.emit at h
  cases hf : Creole.flatToNest t.headlines with
  | error e => rw [hf] at h; cases h
  | ok n =>
    obtain ⟨a, rfl⟩ := flatToNest_list hf
    have hb := nestHtml_bareEnds a
    rw [hf] at h
    simp only [Creole.ok_bind] at h
    split at h <;> cases h <;> exact replaceFirst_bareEnds hs hb.1 hb.2

/-- **C101**: the HTML of a creole text has no white space at its ends, whatever its macros give, with or without a table of
contents. -/
theorem C101_from_creole (o : Creole.Opts) (macros macros' : Creole.Macros) (markup html : Str)
    (hr : Creole.creole2htmlM o macros markup = .ok (html, macros')) : BareEnds html := by
  unfold Creole.creole2htmlM Creole.emitDoc at hr
  cases hp : Creole.parse o.blog markup with
  | error e => rw [hp] at hr; cases hr
  | ok d =>
    rw [hp] at hr
    simp only [Creole.ok_bind] at hr
    split at hr
    all_goals
      generalize Creole.emitNode _ _ _ _ = e at hr
      cases e with
      | error e => cases hr
      | ok r =>
        obtain ⟨s, ms⟩ := r
        simp only [Creole.ok_bind] at hr
        split at hr
        · split at hr
          · next t _ =>
            cases he : t.emit (strip s) with
            | error e => rw [he] at hr; cases hr
            | ok x =>
              rw [he] at hr
              cases hr
              exact toc_bareEnds (strip_bareEnds s) he
          · cases hr
        · cases hr
          exact strip_bareEnds s

/-- **C101**: white space around HTML has no influence, whatever the HTML is. -/
theorem C101_around (html w w' : Str) (hw : ∀ c ∈ w, isSpace c = true) (hw' : ∀ c ∈ w', isSpace c = true) (policy : Policy) :
    (∀ strict, Emit.html2creole (w ++ html ++ w') policy strict = Emit.html2creole html policy strict) ∧
    html2textile (w ++ html ++ w') policy = html2textile html policy ∧
    (∀ hostOk, html2markdown hostOk (w ++ html ++ w') policy = html2markdown hostOk html policy) ∧
    html2rest (w ++ html ++ w') policy = html2rest html policy := by
  have h : parseHtml (w ++ html ++ w') = parseHtml html := by
    unfold parseHtml preprocess
    rw [strip_pad hw hw']
  refine ⟨fun _ => ?_, ?_, fun _ => ?_, ?_⟩ <;>
    · simp only [Emit.html2creole, html2textile, html2markdown, html2rest, convert, h]

/-- **C101**: a text of white space becomes the empty text. -/
theorem C101_blank (w : Str) (hw : ∀ c ∈ w, isSpace c = true) :
    Emit.html2creole w = .ok [] ∧ html2textile w = .ok [] ∧ (∀ hostOk, html2markdown hostOk w = .ok []) ∧ html2rest w = .ok [] ∧
    ∀ (o : Creole.Opts) (macros : Creole.Macros), Creole.creole2htmlM o macros w = .ok ([], macros) := by
  have h := C101_around [] w [] hw (by simp) .transparent
  simp only [List.append_nil] at h
  have hp : parseHtml [] = .ok (.mk { kind := c!"document" } []) := by rfl
  refine ⟨by rw [h.1 false]; decide +kernel, by rw [h.2.1]; decide +kernel, fun hostOk => ?_, by rw [h.2.2.2]; decide +kernel, fun o macros => ?_⟩
  · rw [h.2.2.1 hostOk, html2markdown, convert, hp]
    rfl
  · have hl : ∀ (s : Str), (∀ c ∈ s, isSpace c = true) → (textLines s).all Cr.blank = true := by
      intro s hs
      rw [List.all_eq_true]
      intro l hm
      have h1 := textLines_clean s l hm
      have h2 : ∀ c ∈ l, c ∈ s := by
        clear h1
        revert l
        fun_induction textLines s with
        | case1 => intro l hm c hc; simp at hm; subst hm; cases hc
        | case2 s ih =>
          intro l hm c hc
          rcases List.mem_cons.mp hm with rfl | hm
          · cases hc
          · exact List.mem_cons_of_mem _ (List.mem_cons_of_mem _ (ih (fun c hc => hs c (List.mem_cons_of_mem _ (List.mem_cons_of_mem _ hc))) l hm c hc))
        | case3 s _ ih =>
          intro l hm c hc
          rcases List.mem_cons.mp hm with rfl | hm
          · cases hc
          · exact List.mem_cons_of_mem _ (ih (fun c hc => hs c (List.mem_cons_of_mem _ hc)) l hm c hc)
        | case4 s ih =>
          intro l hm c hc
          rcases List.mem_cons.mp hm with rfl | hm
          · cases hc
          · exact List.mem_cons_of_mem _ (ih (fun c hc => hs c (List.mem_cons_of_mem _ hc)) l hm c hc)
        | case5 c' s _ _ _ heq _ => exact absurd heq (textLines_ne _)
        | case6 c' s _ _ _ l' ls heq ih =>
          rw [heq] at ih
          intro l hm c hc
          have ih := ih (fun c hc => hs c (List.mem_cons_of_mem _ hc))
          rcases List.mem_cons.mp hm with rfl | hm
          · rcases List.mem_cons.mp hc with rfl | hc
            · exact List.mem_cons_self
            · exact List.mem_cons_of_mem _ (ih l' List.mem_cons_self c hc)
          · exact List.mem_cons_of_mem _ (ih l (List.mem_cons_of_mem _ hm) c hc)
      rw [Cr.blank, Bool.and_eq_true, List.all_eq_true]
      exact ⟨fun c hc => hs c (h2 c hc), by simpa using h1⟩
    exact Creole.creole2html_noMac o macros w [] (textLines w) rfl (Cr.ReadWith.plain o macros) (hl w hw) rfl (by simp)

/-- conversions of texts with white space at their ends -/
example : Emit.html2creole c!"<br> <p> a </p><br>" = .ok c!"a" ∧ html2rest c!"<br> <p> a </p><br>" = .ok c!"\na" ∧
    (match Creole.creole2htmlM {} [] c!" \n\n a \n\n " with | .ok (x, _) => x == c!"<p> a </p>" | _ => false) = true := by decide +kernel

/-- a table of contents at the beginning and at the end -/
example : Creole.creole2html {} c!"\n<<toc>>\n= a\n" = .ok c!"<ul>\n\t<li><a href=\"#a\">a</a></li>\n</ul>\n<a name=\"a\"><h1>a</h1></a>" ∧
    Creole.creole2html {} c!"= a\n<<toc>>" = .ok c!"<a name=\"a\"><h1>a</h1></a>\n<ul>\n\t<li><a href=\"#a\">a</a></li>\n</ul>" := by decide +kernel

/-- white space of several kinds -/
example : (∀ c ∈ c!" \n\t\r  ", isSpace c = true) := by decide +kernel

end Verif.Props
