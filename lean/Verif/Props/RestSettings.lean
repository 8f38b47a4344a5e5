import Verif.Tools.RestSettings
import Verif.Props.Attrs

/-!
# C103: raw HTML and access to files are switched off for docutils
-/

namespace Verif.Props

open Verif Py Tools

/-- a setting is switched off -/
def IsOff (settings : Dict Setting) (name : Str) : Prop :=
  dictGet name settings = some (.bool false) ∨ dictGet name settings = some (.int 0)

/-- neither raw HTML nor access to files -/
def Closed (settings : Dict Setting) : Prop := IsOff settings c!"raw_enabled" ∧ IsOff settings c!"file_insertion_enabled"

theorem dictGet_update {α : Type} (k : Str) : ∀ (kwargs d : Dict α), (kwargs.map (·.1)).Nodup →
    dictGet k (updateDict d kwargs) = (dictGet k kwargs).or (dictGet k d)
  | [], d, _ => by simp [updateDict, dictGet]
  | (k', v) :: rest, d, h => by
    have hn := List.nodup_cons.mp (show (k' :: rest.map (·.1)).Nodup from h)
    rw [updateDict, dictGet_update k rest _ hn.2, dictGet_dictSet]
    by_cases hk : k = k'
    · subst hk
      have h0 : dictGet k rest = none := by
        rw [dictGet, List.lookup_eq_none_iff]
        intro p hp
        have : k ≠ p.1 := fun h' => hn.1 (h' ▸ List.mem_map_of_mem hp)
        simpa using this
      rw [h0]
      simp [dictGet]
    · have h1 : dictGet k ((k', v) :: rest) = dictGet k rest := by
        simp only [dictGet, List.lookup_cons, beq_eq_false_iff_ne.mpr hk]
      rw [if_neg hk, h1]

/-- **C103**: the settings that docutils gets: those of the user, and for the names that the user does not give the text encoding,
no promotion of a lone title, no access to files and no raw HTML. -/
theorem C103_settings (kwargs : Dict Setting) (h : (kwargs.map (·.1)).Nodup) (name : Str) :
    dictGet name (rest2htmlSettings kwargs) =
      match dictGet name kwargs with
      | some v => some v
      | none =>
        if name = c!"input_encoding" then some (.str c!"unicode")
        else if name = c!"doctitle_xform" ∨ name = c!"file_insertion_enabled" ∨ name = c!"raw_enabled" then some (.bool false)
        else none := by
  rw [rest2htmlSettings, dictGet_update name kwargs _ h]
  cases dictGet name kwargs with
  | some v => rfl
  | none =>
    simp only [Option.none_or, dictGet, List.lookup_cons, List.lookup_nil]
    by_cases h1 : name = c!"input_encoding"
    · subst h1; rfl
    · by_cases h2 : name = c!"doctitle_xform"
      · subst h2; rfl
      · by_cases h3 : name = c!"file_insertion_enabled"
        · subst h3; rfl
        · by_cases h4 : name = c!"raw_enabled"
          · subst h4; rfl
          · simp only [beq_eq_false_iff_ne.mpr h1, beq_eq_false_iff_ne.mpr h2, beq_eq_false_iff_ne.mpr h3, beq_eq_false_iff_ne.mpr h4]
            rw [if_neg h1, if_neg (by simp [h2, h3, h4])]

/-- **C103**: unless the user gives one of the two settings, the result of `rest2html` is the same for any two docutils that differ
only in what they do when raw HTML or access to files is allowed: it is never called like that. -/
theorem C103_rest2html {E X : Type} (keyError : E) (publish publish' : Str → Dict Setting → X → Except E (Dict Str)) (content : Str) (x : X)
    (kwargs : Dict Setting) (h : (kwargs.map (·.1)).Nodup) (h1 : dictGet c!"raw_enabled" kwargs = none)
    (h2 : dictGet c!"file_insertion_enabled" kwargs = none) (hp : ∀ s c, Closed s → publish c s = publish' c s) :
    rest2html keyError publish content x kwargs = rest2html keyError publish' content x kwargs := by
  have hc : Closed (rest2htmlSettings kwargs) := by
    constructor
    · left; rw [C103_settings kwargs h, h1]; rfl
    · left; rw [C103_settings kwargs h, h2]; rfl
  rw [rest2html, rest2html, hp _ _ hc]

/-- **C103**: the user can allow both. -/
theorem C103_allowed (kwargs : Dict Setting) (h : (kwargs.map (·.1)).Nodup) (v : Setting) (hv : dictGet c!"raw_enabled" kwargs = some v) :
    dictGet c!"raw_enabled" (rest2htmlSettings kwargs) = some v := by rw [C103_settings kwargs h, hv]

/-- **C103**: the same for `pypi_rest2html`, where the user has no choice: neither the parser nor the writer of docutils is called
with raw HTML or access to files, and at a warning both raise an exception. -/
theorem C103_pypi {D : Type} (netlocOk : Str → Bool) (parse parse' : Dict Setting → Str → Option D) (nodes : D → List DNode)
    (write write' : Dict Setting → D → Option Str) (source : Str)
    (hp : ∀ s, Closed s → dictGet c!"halt_level" s = some (.int 2) → parse s = parse' s ∧ write s = write' s) :
    pypiRest2htmlWith netlocOk parse nodes write source = pypiRest2htmlWith netlocOk parse' nodes write' source := by
  obtain ⟨h1, h2⟩ := hp pypiSettings ⟨.inr (by decide +kernel), .inr (by decide +kernel)⟩ (by decide +kernel)
  rw [pypiRest2htmlWith, pypiRest2htmlWith, h1, h2]

/-- two docutils that differ when raw HTML is allowed, and a call of the user -/
def publishEx (b : Bool) (c : Str) (s : Dict Setting) (_ : Unit) : Except Unit (Dict Str) :=
  .ok [(c!"html_body", if dictGet c!"raw_enabled" s = some (.bool true) && b then c!"<script>" else c)]

example : (∀ s c, Closed s → publishEx true c s = publishEx false c s) ∧
    rest2html () (publishEx true) c!"a" () [(c!"traceback", .bool false)] = .ok c!"a" ∧
    rest2html () (publishEx true) c!"a" () [(c!"raw_enabled", .bool true)] = .ok c!"<script>" := by
  refine ⟨fun s c h => ?_, by rfl, by rfl⟩
  funext _
  rcases h.1 with h | h <;> simp [publishEx, h]

end Verif.Props
