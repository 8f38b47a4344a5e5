import Verif.Creole.BlockLead
import Verif.Creole.Graft
import Verif.Creole.EmitterLemmas

/-!
# A blank line separates

A text before a blank line and the text after it are read independently of each other.
-/

namespace Verif.Creole

open Verif Py

variable {base : List Node} {us : List Str} {f f' : Frame} {ps ps' : List Frame} {st st' : PS} {a b : Str}

theorem Gr.climb_doc (h : Gr base f ps f' ps') : ∃ cs, Creole.climb isDoc f ps = (⟨{ kind := .document }, cs⟩, []) ∧
    Creole.climb (fun _ => false) f ps = (⟨{ kind := .document }, cs⟩, []) ∧ Creole.climb (fun _ => false) f' ps' = (⟨{ kind := .document }, base ++ cs⟩, []) := by
  induction ps generalizing f f' ps' with
  | nil =>
    cases h with
    | bot f hk =>
      obtain ⟨i, cs⟩ := f
      simp only at hk
      subst hk
      exact ⟨cs, rfl, rfl, rfl⟩
  | cons p ps ih =>
    cases h with
    | @up _ _ p' _ ps' hf h =>
      obtain ⟨cs, h1, h2, h3⟩ := ih (h.add f.close)
      refine ⟨cs, ?_, ?_, ?_⟩
      · unfold Creole.climb
        rw [if_neg (by simp [isDoc, Frame.kind, hf])]
        exact h1
      · unfold Creole.climb
        rw [if_neg (by simp)]
        exact h2
      · unfold Creole.climb
        rw [if_neg (by simp)]
        exact h3

theorem gap_end {p : Option Char} (hp : atBol true p = false) (st : PS) :
    runR (blockRe true) blockRepl p ('\n' :: '\n' :: []) st = (lineRepl st >>= lineRepl) := by
  rw [skip_mid hp (.inl rfl)]
  have h := end_match (blog := true) (p := some '\n') (w := c!"\n") rfl (by decide)
  have e := runR_take (h := blockRepl) (st := st) (w := c!"\n") (rest := []) (by simp) (by rw [List.append_nil]; exact h)
  rw [List.append_nil, onHitB_line] at e
  rw [e]
  refine bind_congr_right fun st' => ?_
  have hm := end_match (blog := true) (p := some '\n') (w := []) rfl (by simp)
  rw [show (c!"\n").getLast? = some '\n' from rfl, runR_empty_nil hm, onHitB_line]
  rfl

theorem rel_refl_init : Rel [] [] PS.init PS.init := ⟨.bot _ rfl, rfl, rfl⟩

/-- the state behind a text, without anything known of the text -/
theorem parseBlock_rel (blog : Bool) (s : Str) : ∃ st, parseBlock blog s PS.init = .ok st ∧ Rel [] [] st st ∧ st.text = false ∧
    ∀ n ∈ st.used, Called n s := by
  have h0 : PS.init.All (fun _ => True) := ⟨⟨trivial, by simp [PS.init]⟩, by simp [PS.init]⟩
  have hall : Allows (fun _ => True) (Called · s) := by constructor <;> intros <;> trivial
  obtain ⟨st, h1, h2⟩ := parseBlock_ok (blog := blog) hall rfl h0 (SubOf.refl s)
  refine ⟨st, h1, ?_, h2.text, ?_⟩
  · obtain ⟨st', h3, h4⟩ := sim_parseBlock (base := []) (us := []) (by simp) blog s _ _ _ rel_refl_init h1
    rw [h1] at h3
    simp only [Except.ok.injEq] at h3
    rw [← h3] at h4
    exact h4
  · intro n hn
    rcases h2.used n hn with h | h
    · simp [PS.init] at h
    · exact h

def lineNode : Node := .mk { kind := .line, content := some [] } []

/-- the state at the document -/
def atDoc (us : List Str) (cs : List Node) : PS := { cur := ⟨{ kind := .document }, cs⟩, used := us }

theorem lineRepl_rel (h : Rel [] [] st st) (ht : st.text = false) : ∃ cs, lineRepl st = .ok (atDoc st.used (cs ++ [lineNode])) := by
  have hc := Gr.cleanup (base := []) (us := []) (by simp) h
  obtain ⟨cs, h1, _, _⟩ := hc.gr.climb_doc
  have hu : st.cleanupBreak.used = st.used ∧ st.cleanupBreak.text = st.text := by
    unfold PS.cleanupBreak
    split
    · split <;> exact ⟨rfl, rfl⟩
    · exact ⟨rfl, rfl⟩
  refine ⟨cs, ?_⟩
  unfold lineRepl PS.checkText
  rw [if_neg (by simp [ht]), ok_bind]
  unfold PS.uptoBlock PS.upto
  simp only
  rw [h1]
  simp only [PS.leaf, Frame.add, hu.1, hu.2, ht]
  rfl

theorem lineRepl_atDoc (us : List Str) (cs : List Node) : lineRepl (atDoc us (cs ++ [lineNode])) = .ok (atDoc us (cs ++ [lineNode] ++ [lineNode])) := by
  unfold lineRepl PS.checkText
  rw [if_neg (by simp [atDoc]), ok_bind]
  unfold PS.uptoBlock PS.upto PS.cleanupBreak
  simp only [atDoc, List.getLast?_concat, lineNode, Node.kind, Node.info]
  rfl

/-- **the trees**: `A` are the nodes of the first text, `B` those of the second one -/
theorem Closed.parse (h : Closed a) (hb : Nonblank b) : ∃ A B ua ub,
    parseBlock true (a ++ c!"\n\n") PS.init = .ok (atDoc ua (A ++ [lineNode])) ∧
    (parseBlock true b PS.init).map PS.finish = .ok ⟨.mk { kind := .document } B, ub⟩ ∧
    (parseBlock true (a ++ c!"\n\n" ++ b) PS.init).map PS.finish = .ok ⟨.mk { kind := .document } (A ++ B), ub ++ ua⟩ ∧
    (∀ n ∈ ua, Called n a) ∧ (∀ n ∈ ub, Called n b) ∧ ∃ cs, A = cs ++ [lineNode] := by
  obtain ⟨sa, h1, h2, h3, h4⟩ := parseBlock_rel true a
  obtain ⟨sb, k1, k2, k3, k4⟩ := parseBlock_rel true b
  obtain ⟨cs, h5⟩ := lineRepl_rel h2 h3
  obtain ⟨B, _, hB, _⟩ := k2.gr.climb_doc
  have hlast := h.last
  have run : ∀ s, parseBlock true (a ++ '\n' :: '\n' :: s) PS.init = runR (blockRe true) blockRepl a.getLast? ('\n' :: '\n' :: s) sa := by
    intro s
    unfold parseBlock at h1 ⊢
    rw [subAll_eq] at h1 ⊢
    rw [Closed.run h blockRepl a.length a none PS.init (Nat.le_refl _) ⟨[], rfl, rfl⟩, h1, ok_bind]
  have hrel : Rel (cs ++ [lineNode]) sa.used PS.init (atDoc sa.used (cs ++ [lineNode])) := by
    refine ⟨?_, rfl, rfl⟩
    have := Gr.bot (base := cs ++ [lineNode]) PS.init.cur rfl
    simpa [PS.init, atDoc] using this
  have hbase : ∀ n, (cs ++ [lineNode]).getLast? = some n → n.kind ≠ .brk := by
    intro n hn
    rw [List.getLast?_concat] at hn
    simp only [Option.some.injEq] at hn
    rw [← hn]
    decide
  obtain ⟨sw, w1, w2⟩ := sim_parseBlock (base := cs ++ [lineNode]) (us := sa.used) hbase true b _ _ _ hrel k1
  refine ⟨cs ++ [lineNode], B, sa.used, sb.used, ?_, ?_, ?_, h4, k4, cs, rfl⟩
  · have e := run []
    rw [show a ++ '\n' :: '\n' :: [] = a ++ c!"\n\n" from rfl] at e
    rw [e, gap_end hlast, h5, ok_bind, lineRepl_atDoc]
  · rw [k1]
    simp only [Except.map, PS.finish, hB, Frame.close]
  · rw [List.append_assoc, show c!"\n\n" ++ b = '\n' :: '\n' :: b from rfl, run b, gap_run hlast hb, h5, ok_bind]
    unfold parseBlock at w1
    rw [subAll_eq] at w1
    rw [w1]
    obtain ⟨B', _, hB1, hB2⟩ := w2.gr.climb_doc
    rw [hB] at hB1
    simp only [Prod.mk.injEq, Frame.mk.injEq, true_and, and_true] at hB1
    simp only [Except.map, PS.finish, hB2, Frame.close, ← hB1, w2.used]

end Verif.Creole
