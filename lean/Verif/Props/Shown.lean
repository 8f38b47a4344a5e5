import Verif.Emit.ShownTable
import Verif.Props.ReadHtml

/-!
# C71: the converters from HTML lose no text

`shown root` is the text of a document tree, `letters` removes blanks and backslashes, `words` also the characters of the
markup (`Verif/Spec/Shown.lean`).
-/

namespace Verif.Props

open Verif Py Html Emit Spec Spec.Sh

theorem kept_letters (s : Str) : kept false s = letters s := by
  unfold kept letters
  congr 1
  funext c
  simp [counts]

theorem kept_words (s : Str) : kept true s = words s := by
  unfold kept words letters
  rw [List.filter_filter]
  congr 1
  funext c
  simp only [counts, Bool.true_and]
  cases isSpace c <;> cases decide (c ≠ '\\') <;> cases markChars.contains c <;> rfl

theorem kept_emit {x : Bool} {cfg : Cfg} {root : HNode} {out : Str} (ht : tidy cfg.lang .free root = true)
    (hb : x = true → ∀ i ∈ visited root, bare cfg i = true) (h : emit cfg root = .ok out) : Rel x (shown root) out := by
  unfold emit at h
  cases hr : (emitNode cfg [] root).run {} with
  | error e => rw [hr] at h; cases h
  | ok r =>
    obtain ⟨text, s⟩ := r
    rw [hr] at h
    have hout : out = if cfg.lang = .rest then rstrip text else strip text := (Except.ok.inj h).symm
    have := (node_shown (x := x) (T := none) (.inl ⟨rfl, rfl⟩) root [] ht hb (fun _ _ h => by cases h) {} text s hr
      ⟨fun _ => rfl, fun _ => rfl, fun _ => rfl, fun _ h => by cases h⟩).1
    rw [hout]
    split
    · exact this.to (kept_rstrip x text)
    · exact this.to (kept_strip x text)

/-- **C71.**  The text of a document tree is in the result, in the same order, whatever the converter and its handling of
unknown tags, if the converter does not fail. -/
theorem C71_text_kept (cfg : Cfg) (root : HNode) (out : Str) (ht : tidy cfg.lang .free root = true)
    (h : emit cfg root = .ok out) : (letters (shown root)).Sublist (letters out) := by
  have := kept_emit (x := false) ht (fun h => by cases h) h
  unfold Rel at this
  rw [if_neg (by decide), kept_letters, kept_letters] at this
  exact this

/-- **C71.**  If there are only elements that are written with markup characters, the words of the result are exactly the
words of the document tree. -/
theorem C71_words_same (cfg : Cfg) (root : HNode) (out : Str) (ht : tidy cfg.lang .free root = true)
    (hb : ∀ i ∈ visited root, bare cfg i = true) (h : emit cfg root = .ok out) : words out = words (shown root) := by
  have := kept_emit (x := true) ht (fun _ => hb) h
  unfold Rel at this
  rw [if_pos rfl, kept_words, kept_words] at this
  exact this

/-- **C32.**  If the entity decoder succeeds, it replaces exactly the references of the text, once, from left to right. -/
theorem C32_replaces_references (s t : Str) (h : replaceAll s = .ok t) : t = unref s := replaceAll_unref h

example : replaceAll c!"&amp;lt; &#65;&#x42; &;& &#;" = .ok c!"&lt; AB &;& &#;" := by decide +kernel

/-! ## Written documents -/

theorem shownL_append (a b : List HNode) : shownL (a ++ b) = shownL a ++ shownL b := by
  induction a with
  | nil => rw [shownL]; rfl
  | cons n a ih => rw [List.cons_append, shownL, shownL, ih, List.append_assoc]

theorem nodesL_add (d : Int) (c : Char) (l : List El) : shownL (nodesL d (Hd.addChar c l)) = c :: shownL (nodesL d l) := by
  have htext : ∀ t : Str, shownL (El.nodes d (.text t)) = t := by
    intro t
    show (t ++ []) ++ [] = t
    rw [List.append_nil, List.append_nil]
  unfold Hd.addChar
  cases he : Hd.entityOf c with
  | some name =>
    dsimp only
    rw [nodesL, shownL_append]
    have : own { kind := c!"entityref", content := some name } = [c] := by
      unfold Hd.entityOf at he
      split at he
      · next h => cases he; subst h; decide +kernel
      · split at he
        · next h => cases he; subst h; decide +kernel
        · split at he
          · next h => cases he; subst h; decide +kernel
          · cases he
    show ((own { kind := c!"entityref", content := some name } ++ []) ++ []) ++ _ = _
    rw [this]
    rfl
  | none =>
    dsimp only
    split
    · rw [nodesL, shownL_append, htext, nodesL, shownL_append, htext]
      rfl
    · rw [nodesL, shownL_append, htext]
      rfl

theorem own_tag {i : HInfo} (h : i.content = none) : own i = [] := by
  unfold own
  rw [h]

mutual
theorem shown_els (d : Int) : ∀ (x : Hd.Ht) (l : List El), shownL (nodesL d (x.els l)) = seen x ++ shownL (nodesL d l)
  | .text s, l => by
    rw [Hd.Ht.els, seen]
    induction s with
    | nil => rfl
    | cons c s ih => rw [List.foldr_cons, nodesL_add, ih]; rfl
  | .white s, l => by rw [Hd.Ht.els, seen]; rfl
  | .void tag attrs, l => by
    rw [Hd.Ht.els, seen, nodesL, shownL_append]
    rfl
  | .bare tag attrs, l => by
    rw [Hd.Ht.els, seen, nodesL, shownL_append]
    rfl
  | .el tag attrs ch, l => by
    rw [Hd.Ht.els, seen, nodesL, shownL_append]
    congr 1
    split
    · rw [El.nodes]
      exact shown_elsL d ch
    · rw [El.nodes]
      split
      · rw [shownL, shown, shownL, own_tag rfl, List.append_nil]
        exact shown_elsL d ch
      · split
        · rw [shownL, shown, shownL, own_tag rfl, List.append_nil]
          exact shown_elsL (d + 1) ch
        · split <;>
          · rw [shownL, shown, shownL, own_tag rfl, List.append_nil]
            exact shown_elsL d ch
theorem shown_elsL (d : Int) : ∀ l : List Hd.Ht, shownL (nodesL d (Hd.elsL l)) = seenL l
  | [] => by rw [Hd.elsL, nodesL, shownL, seenL]
  | x :: xs => by rw [Hd.elsL, seenL, shown_els, shown_elsL d xs]
end

/-- **C71.**  The text of a written document whose tags are properly nested and whose blanks are in order is in the result
of its conversion. -/
theorem C71_written_kept (cfg : Cfg) (l : List Hd.Ht) (out : Str) (hn : Hd.neat l = true) (hw : wfL true (Hd.elsL l) = true)
    (ht : tidyL cfg.lang .free (nodesL 0 (Hd.elsL l)) = true) (h : convert cfg (Hd.written l) = .ok out) :
    (letters (seenL l)).Sublist (letters out) := by
  have hp := C60_parse_written l hn hw (a := []) (b := []) (fun c h => by cases h) (fun c h => by cases h)
  rw [List.nil_append, List.append_nil] at hp
  unfold convert at h
  rw [hp] at h
  have := C71_text_kept cfg _ out (by rw [tidy]; exact ht; all_goals (intro h; cases h)) h
  rw [shown, shown_elsL] at this
  exact this

/-! ## Examples and limits -/

/-- the tree of a text -/
def treeOf (html : Str) : HNode :=
  match parseHtml html with
  | .ok r => r
  | .error _ => .mk { kind := c!"document" } []

def articleHtml : Str :=
  c!"<h1>A &amp; B</h1><p>one <b>two</b></p><ul><li>one</li><li>two<ul><li>three</li></ul></li></ul><table><tr><th>h</th><th>i</th></tr><tr><td>1</td><td>2</td></tr></table><pre>x &lt; y</pre>"

/-- the hypotheses of `C71_text_kept` are met in all four converters -/
example : ∀ lang : Lang, tidy lang .free (treeOf articleHtml) = true
  | .creole => by decide +kernel
  | .textile => by decide +kernel
  | .markdown => by decide +kernel
  | .rest => by decide +kernel

example : words (shown (treeOf articleHtml)) = c!"A&Bonetwoonetwothreehi12x<y" := by decide +kernel

example : emit { lang := .creole } (treeOf articleHtml) =
    .ok c!"= A & B\n\none **two**\n\n* one\n* two\n** three\n\n|= h |= i |\n| 1  | 2  |\n{{{x < y}}}" := by decide +kernel

/-- the hypotheses of `C71_words_same` are met -/
example : ((visited (treeOf articleHtml)).all (bare { lang := .creole })) = true := by decide +kernel

example : ((visited (treeOf articleHtml)).all (bare { lang := .markdown })) = true := by decide +kernel

/-- the hypotheses of `C71_written_kept` are met -/
example :
    let l : List Hd.Ht := [.el c!"p" [] [.text c!"a < b ", .el c!"a" [(c!"href", c!"u")] [.text c!"c"]], .el c!"ul" [] [.el c!"li" [] [.text c!"d"]]]
    Hd.neat l = true ∧ wfL true (Hd.elsL l) = true ∧ tidyL .creole .free (nodesL 0 (Hd.elsL l)) = true ∧
      convert { lang := .creole } (Hd.written l) = .ok c!"a < b [[u|c]]\n\n* d" ∧ seenL l = c!"a < b cd" := by
  decide +kernel

/-- The limits: after an unclosed `<hr>` everything is lost; a caption is lost; text between the cells is lost; of rows of
different lengths the last cells are lost; the cells of nested tables get mixed up; and after `</thead>` the rest of a
table is lost, since the end tag of a row already closes the `<thead>`. -/
theorem C71_limits :
    html2creole c!"<hr><p>lost</p>" = .ok c!"----" ∧
    html2creole c!"<table><caption>lost</caption><tr><td>a</td></tr></table>" = .ok c!"| a |" ∧
    html2creole c!"<table><tr>lost<td>a</td></tr></table>" = .ok c!"| a |" ∧
    html2creole c!"<table><tr><td>a</td></tr><tr><td>b</td><td>lost</td></tr></table>" = .ok c!"| a |\n| b |" ∧
    html2creole c!"<table><tr><td>a</td><td>b<table><tr><td>c</td></tr></table></td></tr></table>" = .ok c!"| c | b| c | |" ∧
    html2creole c!"<table><thead><tr><th>a</th></tr></thead><tr><td>lost</td></tr></table>" = .ok c!"|= a |" := by
  decide +kernel

end Verif.Props
