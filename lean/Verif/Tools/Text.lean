import Verif.Py.ReParse
import Verif.Py.ReHead
import Verif.Py.StripLemmas

/-!
# `clean_whitespace`

Models `/repo/creole/html_tools/text_tools.py`.
-/

namespace Verif.Tools

open Verif Py Re

/-- the three (unnamed) groups of `space_re` -/
inductive WG where
  | start | txt | stop
  deriving DecidableEq, Repr

/-- `.` under `re.DOTALL` -/
def anyChar : CSet := .union .dot (.chr '\n')

/-- text_tools.py 14: `space_re = re.compile(r"^(\s*)(.*?)(\s*)$", re.DOTALL)` -/
def spaceRe : Re WG := cat [.bol false, .grp .start (.star true (.cls .space)), .grp .txt (.star false (.cls anyChar)),
  .grp .stop (.star true (.cls .space)), .eol false]

/-- text_tools.py 33-46: `cleanup(match)`.  All three groups always take part in a match. -/
def cleanup (m : Match WG) : Str :=
  let start := (m.get .start).getD []
  let txt := (m.get .txt).getD []
  let stop := (m.get .stop).getD []
  let start := if start.contains ' ' then c!" " else []
  let stop := if stop.contains '\n' then c!"\n" else if stop.contains ' ' then c!" " else stop
  start ++ txt ++ stop

/-- text_tools.py 17-48: `clean_whitespace(txt)` -/
def cleanWhitespace (txt : Str) : Str := spaceRe.sub cleanup txt

-- the examples of the docstring
#guard cleanWhitespace c!"\n\nfoo bar\n\n" = c!"foo bar\n"
#guard cleanWhitespace c!"   foo bar  \n  \n" = c!" foo bar\n"
#guard cleanWhitespace c!" \n \n  foo bar   " = c!" foo bar "
#guard cleanWhitespace c!"foo   bar" = c!"foo   bar"

/-! ## What the regular expression matches -/

theorem space_run {γ : Type} [DecidableEq γ] {s s' : St γ} (h : s' ∈ (Re.star true (.cls .space) : Re γ).res s) :
    ∃ w, s.rest = w ++ s'.rest ∧ ∀ c ∈ w, isSpace c = true := by
  replace h : s' ∈ starR true (Re.cls .space : Re γ).res s.rest.length s := h
  refine mem_starR_induct (P := fun s => ∃ w, s.rest = w ++ s'.rest ∧ ∀ c ∈ w, isSpace c = true) ⟨[], rfl, by simp⟩ ?_ h
  rintro s t ht ⟨w, hw, hs⟩
  rw [mem_res_cls] at ht
  obtain ⟨c, r, h1, h2, h3⟩ := ht
  subst h3
  refine ⟨c :: w, by rw [h1]; simpa using hw, ?_⟩
  intro d hd
  rcases List.mem_cons.mp hd with rfl | hd
  · exact h2
  · exact hs d hd

/-- the end of the expression: trailing white space up to the end of the string -/
def endRe : Re WG := .seq (.grp .stop (.star true (.cls .space))) (.eol false)

theorem endRe_nil {p : Option Char} {r : Str} {caps : List (WG × Str)} (h : ∃ c ∈ r, isSpace c = false) :
    endRe.res ⟨p, r, caps⟩ = [] := by
  apply List.eq_nil_iff_forall_not_mem.mpr
  intro x hx
  unfold endRe at hx
  rw [mem_res_seq] at hx
  obtain ⟨t, ht, hx⟩ := hx
  rw [mem_res_grp] at ht
  obtain ⟨u, hu, rfl⟩ := ht
  obtain ⟨w, hw, hs⟩ := space_run hu
  rw [mem_res_eol] at hx
  obtain ⟨hx, _⟩ := hx
  obtain ⟨c, hc, hn⟩ := h
  have hw : r = w ++ u.rest := hw
  rw [hw, List.mem_append] at hc
  rcases hc with hc | hc
  · rw [hs c hc] at hn; simp at hn
  · replace hx : atEol false u.rest = true := hx
    unfold atEol at hx
    split at hx
    · rename_i h0; rw [h0] at hc; simp at hc
    · rename_i d ds h0
      rw [h0] at hc
      simp at hx
      obtain ⟨rfl, rfl⟩ := hx
      simp at hc
      subst hc
      exact absurd hn (by decide)

theorem endRe_head {p : Option Char} {w : Str} {caps : List (WG × Str)} (h : ∀ c ∈ w, isSpace c = true) :
    (endRe.res ⟨p, w, caps⟩).head? = some ⟨(w.getLast?).or p, [], (.stop, w) :: caps⟩ := by
  have h1 := Re.head_star_cls (γ := WG) (cs := .space) (caps := caps) (rest := []) (by simp) w p h
  rw [List.append_nil] at h1
  have h2 := Re.head_grp (g := WG.stop) h1
  simp only at h2
  have h3 : consumed w [] = w := by simp [consumed]
  rw [h3] at h2
  exact Re.head_seq h2 (by simp [Re.res, atEol])

theorem spaceRe_head {lead core trail : Str} (h1 : ∀ c ∈ lead, isSpace c = true) (h2 : ∀ c ∈ trail, isSpace c = true)
    (hf : ∀ c, core.head? = some c → isSpace c = false) (hl : ∀ c, core.getLast? = some c → isSpace c = false)
    (he : core = [] → trail = []) :
    (spaceRe.res ⟨none, lead ++ core ++ trail, []⟩).head? =
      some ⟨((lead ++ core ++ trail).getLast?), [], [(.stop, trail), (.txt, core), (.start, lead)]⟩ := by
  have hstart : ∀ c t, core ++ trail = c :: t → CSet.space.mem c = false := by
    intro c t h
    cases core with
    | nil => rw [he rfl] at h; simp at h
    | cons d ds => simp at h; obtain ⟨rfl, _⟩ := h; exact hf d rfl
  have a1 := Re.head_star_cls (γ := WG) (cs := .space) (caps := []) hstart lead none h1
  have a2 := Re.head_grp (g := WG.start) a1
  simp only at a2
  rw [show consumed (lead ++ (core ++ trail)) (core ++ trail) = lead by simp [consumed]] at a2
  -- the lazy part
  have a3 : ((Re.seq (.grp .txt (.star false (.cls anyChar))) endRe).res
      ⟨(lead.getLast?).or none, core ++ trail, [(.start, lead)]⟩).head? =
      some ⟨((lead ++ core ++ trail).getLast?), [], [(.stop, trail), (.txt, core), (.start, lead)]⟩ := by
    have : (Re.seq (.grp .txt (.star false (.cls anyChar))) endRe).res
        ⟨(lead.getLast?).or none, core ++ trail, [(.start, lead)]⟩ =
        ((Re.star false (.cls anyChar)).res ⟨(lead.getLast?).or none, core ++ trail, [(.start, lead)]⟩).flatMap
          (fun s' => endRe.res { s' with caps := (WG.txt, consumed (core ++ trail) s'.rest) :: s'.caps }) := by
      simp only [Re.res, List.flatMap_map]
    rw [this]
    refine Re.head_lazy (Step.cls anyChar) core _ ?_ ?_ ?_
    · intro c _
      by_cases h : c = '\n' <;> simp [anyChar, CSet.mem, h]
    · intro u v huv hv
      refine endRe_nil ?_
      refine ⟨v.getLast hv, by simp, hl _ ?_⟩
      rw [huv, List.getLast?_append, List.getLast?_eq_some_getLast hv]
      rfl
    · simp only
      rw [show consumed (core ++ trail) trail = core by simp [consumed], endRe_head h2]
      simp only [Option.some.injEq, St.mk.injEq, and_true]
      rw [List.getLast?_append, List.getLast?_append]
      cases trail.getLast? <;> cases core.getLast? <;> cases lead.getLast? <;> rfl
  have a4 : ((Re.bol false : Re WG).res ⟨none, lead ++ (core ++ trail), []⟩).head? = some ⟨none, lead ++ (core ++ trail), []⟩ := by
    simp [Re.res, atBol]
  have := Re.head_seq a4 (Re.head_seq a2 a3)
  rw [List.append_assoc]
  simpa [spaceRe, cat, endRe] using this

theorem spaceRe_late {c : Char} : spaceRe.scanAux (some c) [] 0 = [] := by
  have : spaceRe.matchAt false (some c) [] = none := by
    rw [Re.matchAt_false]
    simp [spaceRe, cat, Re.res, atBol]
  simp [Re.scanAux, this]

/-- `clean_whitespace` on a text split into white space, core and white space -/
theorem cleanWhitespace_eq {lead core trail : Str} (h1 : ∀ c ∈ lead, isSpace c = true)
    (h2 : ∀ c ∈ trail, isSpace c = true) (hf : ∀ c, core.head? = some c → isSpace c = false)
    (hl : ∀ c, core.getLast? = some c → isSpace c = false) (he : core = [] → trail = []) :
    cleanWhitespace (lead ++ core ++ trail) = (if lead.contains ' ' then c!" " else []) ++ core ++
      (if trail.contains '\n' then c!"\n" else if trail.contains ' ' then c!" " else trail) := by
  have hm := spaceRe_head h1 h2 hf hl he
  rw [← Re.matchAt_false] at hm
  have hs : spaceRe.scan (lead ++ core ++ trail) =
      [.hit ⟨lead ++ core ++ trail, [(.stop, trail), (.txt, core), (.start, lead)]⟩] := by
    unfold Re.scan
    by_cases hn : lead ++ core ++ trail = []
    · rw [hn] at hm ⊢
      simp only [Re.scanAux, hm]
    · have := Re.scanAux_take (s' := ⟨(lead ++ core ++ trail).getLast?, [], _⟩) hn (by rw [List.append_nil]; exact hm)
      simp only [List.append_nil] at this
      rw [this]
      obtain ⟨c, hc⟩ : ∃ c, (lead ++ core ++ trail).getLast? = some c := by
        cases h : (lead ++ core ++ trail).getLast? with
        | none => rw [List.getLast?_eq_none_iff] at h; exact absurd h hn
        | some c => exact ⟨c, rfl⟩
      rw [hc, spaceRe_late]
  unfold cleanWhitespace Re.sub
  rw [hs]
  simp only [List.flatMap_cons, List.flatMap_nil, List.append_nil]
  rfl

end Verif.Tools
