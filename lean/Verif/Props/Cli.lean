import Verif.Tools.Cli

/-!
# The command line tool (C49, C50)
-/

namespace Verif.Props

open Verif Py Tools

/-- What is true at every moment of a run: only the destination changes, and the bytes written so far and those still to
be written make up the encoded result. -/
structure CliInv (job : Job) (fs0 : FS) (fs : FS) (ph : Phase) : Prop where
  /-- every name that does not refer to the destination still refers to the same file, with the same content -/
  others : ∀ p, p ≠ job.destination → fs.file p = fs0.file p
  contents : ∀ p, p ≠ job.destination → ¬fs0.same p job.destination → fs.read p = fs0.read p
  /-- an existing destination is not replaced by a new file -/
  dest : fs0.file job.destination ≠ none → fs.file job.destination = fs0.file job.destination

/-- the bytes the tool reads: the content of the source, or nothing if the destination is the same file -/
def SeenBytes (job : Job) (fs : FS) (bytes : List Nat) : Prop :=
  (fs.same job.source job.destination ∧ bytes = []) ∨ (¬fs.same job.source job.destination ∧ fs.read job.source = some bytes)

/-- the state of the destination that goes with each phase -/
def PhaseInv (job : Job) (fs0 fs : FS) : Phase → Prop
  | .start => fs = fs0
  | .opened src => fs = fs0 ∧ fs0.file job.source = some src ∧ job.codec.known = true
  | .both src dst => fs.file job.destination = some dst ∧ fs.data dst = [] ∧ SeenBytes job fs0 (fs.data src) ∧
      job.codec.known = true
  | .content dst text => fs.file job.destination = some dst ∧ fs.data dst = [] ∧
      ∃ b, SeenBytes job fs0 b ∧ job.codec.decode b = some text
  | .result dst out => fs.file job.destination = some dst ∧ fs.data dst = [] ∧
      ∃ b text, SeenBytes job fs0 b ∧ job.codec.decode b = some text ∧ job.convert text = some out
  | .writing dst bytes => fs.file job.destination = some dst ∧
      ∃ b text out, SeenBytes job fs0 b ∧ job.codec.decode b = some text ∧ job.convert text = some out ∧
        job.codec.encode out = some (fs.data dst ++ bytes)
  | .done => ∃ b text out, SeenBytes job fs0 b ∧ job.codec.decode b = some text ∧ job.convert text = some out ∧
        fs.read job.destination = job.codec.encode out ∧ job.codec.encode out ≠ none
  | .raised => (fs = fs0 ∧ (fs0.file job.source = none ∨ job.codec.known = false)) ∨
      (fs.read job.destination = some [] ∧ ∃ b, SeenBytes job fs0 b ∧ ∀ text out, job.codec.decode b = some text →
        job.convert text = some out → job.codec.encode out = none)
  | .crashed => fs.read job.destination = fs0.read job.destination ∨ fs.read job.destination = some [] ∨
      ∃ b text out bytes written, SeenBytes job fs0 b ∧ job.codec.decode b = some text ∧ job.convert text = some out ∧
        job.codec.encode out = some bytes ∧ fs.read job.destination = some written ∧ written <+: bytes

theorem CliInv.put {job : Job} {fs0 fs : FS} {ph ph' : Phase} (h : CliInv job fs0 fs ph) {dst : Nat}
    (hd : fs.file job.destination = some dst) (hnew : ∀ p, p ≠ job.destination → fs0.file p = some dst →
      fs0.same p job.destination) (bytes : List Nat) :
    CliInv job fs0 (fs.put dst bytes) ph' := by
  refine ⟨fun p hp => h.others p hp, ?_, h.dest⟩
  intro p hp hns
  have h1 := h.contents p hp hns
  have h2 := h.others p hp
  unfold FS.read FS.put at *
  simp only at *
  rw [h2] at h1 ⊢
  cases hf : fs0.file p with
  | none => rfl
  | some k =>
    rw [hf] at h1
    simp only [Option.map_some, Option.some.injEq] at h1 ⊢
    by_cases hk : k = dst
    · subst hk
      exact absurd (hnew p hp hf) hns
    · rw [if_neg hk]; exact h1

/-- the destination file is either the one the name referred to before, or new -/
def DstOk (job : Job) (fs0 : FS) (dst : Nat) : Prop :=
  fs0.file job.destination = some dst ∨ (fs0.file job.destination = none ∧ ∀ p, fs0.file p ≠ some dst)

theorem DstOk.new {job : Job} {fs0 : FS} {dst : Nat} (h : DstOk job fs0 dst) (p : Str) (hp : fs0.file p = some dst) :
    fs0.same p job.destination := by
  rcases h with h | ⟨_, h⟩
  · exact ⟨by rw [hp, h], by simp [hp]⟩
  · exact absurd hp (h p)

def phaseDst : Phase → Option Nat
  | .both _ d => some d
  | .content d _ => some d
  | .result d _ => some d
  | .writing d _ => some d
  | _ => none

theorem cli_invariant {job : Job} {fs0 : FS} {s : FS × Phase} (h : Reaches job fs0 s) :
    CliInv job fs0 s.1 s.2 ∧ PhaseInv job fs0 s.1 s.2 ∧ ∀ d, phaseDst s.2 = some d → DstOk job fs0 d := by
  unfold Reaches at h
  induction h with
  | refl => exact ⟨⟨fun _ _ => rfl, fun _ _ _ => rfl, fun _ => rfl⟩, rfl, by simp [phaseDst]⟩
  | tail hst hstep ih =>
    obtain ⟨hI, hP, hD⟩ := ih
    cases hstep with
    | openSource hk hf =>
      dsimp only at hI hP hD ⊢
      have hP : _ = fs0 := hP
      subst hP
      exact ⟨⟨hI.others, hI.contents, hI.dest⟩, ⟨rfl, hf, hk⟩, by simp [phaseDst]⟩
    | noSource hf =>
      dsimp only at hI hP hD ⊢
      have hP : _ = fs0 := hP
      subst hP
      exact ⟨⟨hI.others, hI.contents, hI.dest⟩, .inl ⟨rfl, .inl hf⟩, by simp [phaseDst]⟩
    | noCodec hf =>
      dsimp only at hI hP hD ⊢
      have hP : _ = fs0 := hP
      subst hP
      exact ⟨⟨hI.others, hI.contents, hI.dest⟩, .inl ⟨rfl, .inr hf⟩, by simp [phaseDst]⟩
    | @truncate fs src dst hf =>
      dsimp only at hI hP hD ⊢
      obtain ⟨rfl, hsrc, hk⟩ := (hP : fs = fs0 ∧ _ ∧ _)
      have hdo : DstOk job fs dst := .inl hf
      refine ⟨hI.put hf (fun p _ => hdo.new p) [], ⟨hf, by simp [FS.put], ?_, hk⟩, ?_⟩
      · by_cases hsd : src = dst
        · subst hsd
          exact .inl ⟨⟨by rw [hsrc, hf], by simp [hsrc]⟩, by simp [FS.put]⟩
        · refine .inr ⟨?_, ?_⟩
          · rintro ⟨h1, _⟩
            rw [hsrc, hf] at h1
            simp at h1
            exact hsd h1
          · simp [FS.put, hsd, FS.read, hsrc]
      · intro d hd
        simp [phaseDst] at hd
        subst hd
        exact hdo
    | @create fs src dst hf hnew =>
      dsimp only at hI hP hD ⊢
      obtain ⟨rfl, hsrc, hk⟩ := (hP : fs = fs0 ∧ _ ∧ _)
      have hdo : DstOk job fs dst := .inr ⟨hf, hnew⟩
      refine ⟨⟨?_, ?_, fun hh => absurd hf hh⟩, ⟨by simp [FS.create], by simp [FS.create], ?_, hk⟩, ?_⟩
      · intro p hp; simp [FS.create, hp]
      · intro p hp _
        simp only [FS.create, FS.read, hp, if_false]
        cases hfp : fs.file p with
        | none => rfl
        | some k =>
          have : k ≠ dst := fun hh => hnew p (by rw [hfp, hh])
          simp [this]
      · have hsd : src ≠ dst := fun hh => hnew job.source (by rw [hsrc, hh])
        refine .inr ⟨?_, ?_⟩
        · rintro ⟨h1, _⟩
          rw [hsrc, hf] at h1
          simp at h1
        · simp [FS.create, hsd, FS.read, hsrc]
      · intro d hd
        simp [phaseDst] at hd
        subst hd
        exact hdo
    | @read fs src dst text hdec =>
      dsimp only at hI hP hD ⊢
      obtain ⟨h1, h2, h3, h4⟩ := (hP : _ ∧ _ ∧ _ ∧ _)
      exact ⟨⟨hI.others, hI.contents, hI.dest⟩, ⟨h1, h2, _, h3, hdec⟩, fun d hd => hD d hd⟩
    | @badInput fs src dst hdec =>
      dsimp only at hI hP hD ⊢
      obtain ⟨h1, h2, h3, h4⟩ := (hP : _ ∧ _ ∧ _ ∧ _)
      refine ⟨⟨hI.others, hI.contents, hI.dest⟩, .inr ⟨by simp [FS.read, h1, h2], _, h3, ?_⟩, by simp [phaseDst]⟩
      intro t o ht _
      rw [hdec] at ht
      simp at ht
    | @convert fs dst text out hc =>
      dsimp only at hI hP hD ⊢
      obtain ⟨h1, h2, b, h3, h4⟩ := (hP : _ ∧ _ ∧ _)
      exact ⟨⟨hI.others, hI.contents, hI.dest⟩, ⟨h1, h2, b, text, h3, h4, hc⟩, fun d hd => hD d hd⟩
    | @badContent fs dst text hc =>
      dsimp only at hI hP hD ⊢
      obtain ⟨h1, h2, b, h3, h4⟩ := (hP : _ ∧ _ ∧ _)
      refine ⟨⟨hI.others, hI.contents, hI.dest⟩, .inr ⟨by simp [FS.read, h1, h2], b, h3, ?_⟩, by simp [phaseDst]⟩
      intro t o ht ho
      rw [h4] at ht
      simp at ht
      subst ht
      rw [hc] at ho
      simp at ho
    | @write fs dst out bytes he =>
      dsimp only at hI hP hD ⊢
      obtain ⟨h1, h2, b, text, h3, h4, h5⟩ := (hP : _ ∧ _ ∧ _)
      exact ⟨⟨hI.others, hI.contents, hI.dest⟩, ⟨h1, b, text, out, h3, h4, h5, by rw [h2]; exact he⟩, fun d hd => hD d hd⟩
    | @badOutput fs dst out he =>
      dsimp only at hI hP hD ⊢
      obtain ⟨h1, h2, b, text, h3, h4, h5⟩ := (hP : _ ∧ _ ∧ _)
      refine ⟨⟨hI.others, hI.contents, hI.dest⟩, .inr ⟨by simp [FS.read, h1, h2], b, h3, ?_⟩, by simp [phaseDst]⟩
      intro t o ht ho
      rw [h4] at ht
      simp at ht
      subst ht
      rw [h5] at ho
      simp at ho
      subst ho
      exact he
    | @flush fs dst some more =>
      dsimp only at hI hP hD ⊢
      obtain ⟨h1, b, text, out, h3, h4, h5, h6⟩ := (hP : _ ∧ _)
      refine ⟨hI.put h1 (fun p _ => (hD dst rfl).new p) _, ⟨h1, b, text, out, h3, h4, h5, ?_⟩, fun d hd => hD d hd⟩
      rw [h6]
      simp [FS.put]
    | @close fs dst =>
      dsimp only at hI hP hD ⊢
      obtain ⟨h1, b, text, out, h3, h4, h5, h6⟩ := (hP : _ ∧ _)
      refine ⟨⟨hI.others, hI.contents, hI.dest⟩, ⟨b, text, out, h3, h4, h5, ?_, by simp [h6]⟩, by simp [phaseDst]⟩
      rw [h6]
      simp [FS.read, h1]
    | @crash fs ph hn1 hn2 hn3 =>
      dsimp only at hI hP hD ⊢
      refine ⟨⟨hI.others, hI.contents, hI.dest⟩, ?_, by simp [phaseDst]⟩
      cases ph with
      | start => exact .inl (by rw [(hP : fs = fs0)])
      | opened src => exact .inl (by rw [(hP : fs = fs0 ∧ _).1])
      | both src dst =>
        obtain ⟨h1, h2, _⟩ := (hP : _ ∧ _ ∧ _)
        exact .inr (.inl (by simp [FS.read, h1, h2]))
      | content dst text =>
        obtain ⟨h1, h2, _⟩ := (hP : _ ∧ _ ∧ _)
        exact .inr (.inl (by simp [FS.read, h1, h2]))
      | result dst text =>
        obtain ⟨h1, h2, _⟩ := (hP : _ ∧ _ ∧ _)
        exact .inr (.inl (by simp [FS.read, h1, h2]))
      | writing dst bytes =>
        obtain ⟨h1, b, text, out, h3, h4, h5, h6⟩ := (hP : _ ∧ _)
        refine .inr (.inr ⟨b, text, out, _, fs.data dst, h3, h4, h5, h6, by simp [FS.read, h1], ?_⟩)
        exact List.prefix_append _ _
      | done => exact absurd rfl hn1
      | raised => exact absurd rfl hn2
      | crashed => exact absurd rfl hn3

/-- C49: at every moment of a run, also after a crash or an exception, every name other than the destination refers to
the same file as before, and its content is unchanged unless it is another name of the destination. -/
theorem C49_other_files (job : Job) (fs0 fs : FS) (ph : Phase) (h : Reaches job fs0 (fs, ph)) (p : Str)
    (hp : p ≠ job.destination) : fs.file p = fs0.file p ∧ (¬fs0.same p job.destination → fs.read p = fs0.read p) :=
  ⟨(cli_invariant h).1.others p hp, (cli_invariant h).1.contents p hp⟩

/-- C49: when the program is done and the two names did not refer to the same file, the destination contains exactly the
encoded conversion of the decoded source. -/
theorem C49_result (job : Job) (fs0 fs : FS) (h : Reaches job fs0 (fs, .done))
    (hd : ¬fs0.same job.source job.destination) :
    ∃ bytes text out result, fs0.read job.source = some bytes ∧ job.codec.decode bytes = some text ∧
      job.convert text = some out ∧ job.codec.encode out = some result ∧ fs.read job.destination = some result := by
  obtain ⟨b, text, out, h1, h2, h3, h4, h5⟩ := (cli_invariant h).2.1
  rcases h1 with ⟨hs, _⟩ | ⟨_, h1⟩
  · exact absurd hs hd
  · cases he : job.codec.encode out with
    | none => exact absurd he h5
    | some r => exact ⟨b, text, out, r, h1, h2, h3, he, by rw [h4, he]⟩

/-- C49: an exception because of a missing source or an unknown codec leaves everything as it was; after any other
exception the destination is empty. -/
theorem C49_exception (job : Job) (fs0 fs : FS) (h : Reaches job fs0 (fs, .raised)) :
    (fs = fs0 ∧ (fs0.file job.source = none ∨ job.codec.known = false)) ∨ fs.read job.destination = some [] := by
  rcases (cli_invariant h).2.1 with h | ⟨h, _⟩
  · exact .inl h
  · exact .inr h

/-- C49: wherever the program is killed, the destination holds its old content, or nothing, or the first bytes of the
complete result. -/
theorem C49_crash (job : Job) (fs0 fs : FS) (h : Reaches job fs0 (fs, .crashed)) (hd : ¬fs0.same job.source job.destination) :
    fs.read job.destination = fs0.read job.destination ∨ fs.read job.destination = some [] ∨
    ∃ bytes text out result written, fs0.read job.source = some bytes ∧ job.codec.decode bytes = some text ∧
      job.convert text = some out ∧ job.codec.encode out = some result ∧ fs.read job.destination = some written ∧
      written <+: result := by
  rcases (cli_invariant h).2.1 with h | h | ⟨b, text, out, bytes, written, h1, h2, h3, h4, h5, h6⟩
  · exact .inl h
  · exact .inr (.inl h)
  · rcases h1 with ⟨hs, _⟩ | ⟨_, h1⟩
    · exact absurd hs hd
    · exact .inr (.inr ⟨b, text, out, bytes, written, h1, h2, h3, h4, h5, h6⟩)

/-- C49: a source that can be decoded, converted and encoded is converted: the program can reach its end. -/
theorem C49_completes (job : Job) (fs0 : FS) (src dst : Nat) (bytes result : List Nat) (text out : Str)
    (hk : job.codec.known = true) (hs : fs0.file job.source = some src) (hd : fs0.file job.destination = some dst)
    (hne : src ≠ dst) (hb : fs0.data src = bytes) (h1 : job.codec.decode bytes = some text) (h2 : job.convert text = some out)
    (h3 : job.codec.encode out = some result) : ∃ fs, Reaches job fs0 (fs, .done) := by
  have s1 : Reaches job fs0 (fs0, .opened src) := .tail (.refl _) (.openSource hk hs)
  have s2 : Reaches job fs0 (fs0.put dst [], .both src dst) := .tail s1 (.truncate hd)
  have s3 : Reaches job fs0 (fs0.put dst [], .content dst text) := .tail s2 (.read (by simp [FS.put, hne, hb, h1]))
  have s4 : Reaches job fs0 (fs0.put dst [], .result dst out) := .tail s3 (.convert h2)
  have s5 : Reaches job fs0 (fs0.put dst [], .writing dst (result ++ [])) := .tail s4 (.write (by simpa using h3))
  exact ⟨_, .tail (.tail s5 .flush) .close⟩

/-- C50: if source and destination are the same file, the content that is converted is empty, whatever was in the file:
the result is the conversion of the empty input. -/
theorem C50_in_place (job : Job) (fs0 fs : FS) (h : Reaches job fs0 (fs, .done))
    (hd : fs0.same job.source job.destination) :
    ∃ text out result, job.codec.decode [] = some text ∧ job.convert text = some out ∧ job.codec.encode out = some result ∧
      fs.read job.destination = some result ∧ fs.read job.source = some result := by
  obtain ⟨b, text, out, h1, h2, h3, h4, h5⟩ := (cli_invariant h).2.1
  rcases h1 with ⟨_, rfl⟩ | ⟨hn, _⟩
  · cases he : job.codec.encode out with
    | none => exact absurd he h5
    | some r =>
      refine ⟨text, out, r, h2, h3, he, by rw [h4, he], ?_⟩
      by_cases hp : job.source = job.destination
      · rw [hp, h4, he]
      · have ho := (cli_invariant h).1.others job.source hp
        obtain ⟨hf, hnn⟩ := hd
        rw [← he, ← h4]
        unfold FS.read
        congr 1
        rw [ho, hf]
        exact ((cli_invariant h).1.dest (by rw [← hf]; exact hnn)).symm
  · exact absurd hd hn

/-- C50, for every moment after the destination was opened: the old content is gone. -/
theorem C50_lost (job : Job) (fs0 fs : FS) (src dst : Nat) (h : Reaches job fs0 (fs, .both src dst))
    (hd : fs0.same job.source job.destination) : fs.read job.source = some [] := by
  obtain ⟨h1, h2, h3, h4⟩ := (cli_invariant h).2.1
  have hdst := (cli_invariant h).1.dest (by rw [← hd.1]; exact hd.2)
  have hf : fs.file job.source = some dst := by
    by_cases hp : job.source = job.destination
    · rw [hp]; exact h1
    · rw [(cli_invariant h).1.others job.source hp, hd.1, ← hdst]; exact h1
  have h2 : fs.data dst = [] := h2
  simp [FS.read, hf, h2]

/-- a codec for characters below 256 -/
def latin1 : Codec where
  known := true
  encode s := if s.all fun c => c.toNat < 256 then some (s.map Char.toNat) else none
  decode b := some (b.map Char.ofNat)

/-- a file system with the file `a.creole` -/
def someFS : FS where
  file p := if p = c!"a.creole" then some 0 else if p = c!"a.html" then some 1 else none
  data f := if f = 0 then c!"**x**".map Char.toNat else c!"old".map Char.toNat

-- converting `a.creole` to `a.html` can be completed, and the result is then known
example : ∃ fs, Reaches (cliCreole2html c!"a.creole" c!"a.html" latin1) someFS (fs, .done) :=
  C49_completes _ _ 0 1 (c!"**x**".map Char.toNat) (c!"<p><strong>x</strong></p>".map Char.toNat) c!"**x**"
    c!"<p><strong>x</strong></p>" rfl rfl rfl (by decide) rfl (by decide) (by decide +kernel) (by decide +kernel)

example : ¬someFS.same c!"a.creole" c!"a.html" := by
  rintro ⟨h, _⟩; exact absurd h (by decide)

-- in place: source and destination are the same file
example : someFS.same c!"a.creole" c!"a.creole" := ⟨rfl, by decide⟩

end Verif.Props
