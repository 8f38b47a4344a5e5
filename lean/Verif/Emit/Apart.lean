import Verif.Emit.EmitLemmas

/-!
# What an emission depends on

The text of a node depends on the attributes of the emitter only through the list markers, the last node (if it is a list) and
the table (if it is a cell outside of its own table).  html2rest is different: there are its definitions of links and images.
-/

namespace Verif.Emit

open Verif Py Html

/-- the attributes agree: the list markers; with `l`, what the last node means for a list; with `t`, the table -/
def Like (l t : Bool) (s1 s2 : ESt) : Prop :=
  s1.innerList = s2.innerList ∧ (l = true → startNewline s1.last = startNewline s2.last) ∧ (t = true → s1.table = s2.table)

/-- `m` does the same from attributes that agree, they agree after it, and the list markers are what they were -/
def Steady {α : Type} (l t : Bool) (m : EmM α) : Prop :=
  ∀ s1 s2, Like l t s1 s2 →
    match m s1, m s2 with
    | .ok (a, s1'), .ok (b, s2') => a = b ∧ Like l t s1' s2' ∧ s1'.innerList = s1.innerList
    | .error e, .error e' => e = e'
    | _, _ => False

theorem Steady.pure {α : Type} {l t : Bool} (a : α) : Steady l t (Pure.pure a : EmM α) := fun _ _ h => ⟨rfl, h, rfl⟩

theorem Steady.raise {α : Type} {l t : Bool} (e : PyErr) : Steady l t (Emit.raise e : EmM α) := fun _ _ _ => rfl

theorem Steady.bind {α β : Type} {l t : Bool} {m : EmM α} {f : α → EmM β} (hm : Steady l t m) (hf : ∀ a, Steady l t (f a)) :
    Steady l t (m >>= f) := by
  intro s1 s2 h
  rw [bind_run, bind_run]
  have h1 := hm s1 s2 h
  cases e1 : m s1 with
  | error e =>
    cases e2 : m s2 with
    | error e' => rw [e1, e2] at h1; exact h1
    | ok y => rw [e1, e2] at h1; exact h1.elim
  | ok x =>
    cases e2 : m s2 with
    | error e' => rw [e1, e2] at h1; exact h1.elim
    | ok y =>
      obtain ⟨a, s1'⟩ := x
      obtain ⟨b, s2'⟩ := y
      rw [e1, e2] at h1
      obtain ⟨rfl, h2, h3⟩ := h1
      dsimp only
      have h4 := hf a s1' s2' h2
      cases e1 : f a s1' with
      | error e =>
        rw [e1] at h4
        cases e2 : f a s2' with
        | error e => rw [e2] at h4; exact h4
        | ok y => rw [e2] at h4; exact h4.elim
      | ok x =>
        rw [e1] at h4
        obtain ⟨c, s1''⟩ := x
        cases e2 : f a s2' with
        | error e => rw [e2] at h4; exact h4
        | ok y =>
          rw [e2] at h4
          exact ⟨h4.1, h4.2.1, h4.2.2.trans h3⟩

theorem Steady.ofExcept {α : Type} {l t : Bool} (r : Except PyErr α) : Steady l t (Emit.ofExcept r) := by
  cases r with
  | ok a => exact .pure a
  | error e => exact .raise e

/-- a program that looks at the list markers only -/
theorem Steady.get {α : Type} {l t : Bool} {f : ESt → EmM α} (hf : ∀ s, Steady l t (f s)) (hs : ∀ s1 s2, Like l t s1 s2 → f s1 = f s2) :
    Steady l t (MonadState.get >>= f) := by
  intro s1 s2 h
  rw [bind_run, bind_run, get_run, get_run]
  dsimp only
  rw [hs s1 s2 h]
  exact hf s2 s1 s2 h

theorem setLast_like {l t : Bool} {i : HInfo} {s1 s2 : ESt} (h : Like l t s1 s2) : Like true t
    { s1 with last := some (i.kind, i.content) } { s2 with last := some (i.kind, i.content) } := ⟨h.1, fun _ => rfl, h.2.2⟩

theorem Like.weaken {l t : Bool} {s1 s2 : ESt} (h : Like true t s1 s2) : Like l t s1 s2 := ⟨h.1, fun _ => h.2.1 rfl, h.2.2⟩

theorem Steady.setLast {l t : Bool} (i : HInfo) : Steady l t (Emit.setLast i) := by
  intro s1 s2 h
  rw [setLast_run, setLast_run]
  exact ⟨rfl, (setLast_like h).weaken, rfl⟩

theorem Steady.setTable {l t : Bool} (x : Table) : Steady l t (Emit.setTable x) := by
  intro s1 s2 h
  exact ⟨rfl, ⟨h.1, h.2.1, fun _ => rfl⟩, rfl⟩

theorem Steady.getTable {l : Bool} : Steady l true Emit.getTable := by
  refine .get (fun s => ?_) (fun s1 s2 h => ?_)
  · split
    · exact .pure _
    · exact .raise _
  · rw [h.2.2 rfl]

/-- agreement on the table may be claimed less -/
theorem Like.forget {l t : Bool} {s1 s2 : ESt} (h : Like l true s1 s2) : Like l t s1 s2 := ⟨h.1, h.2.1, fun _ => h.2.2 rfl⟩

theorem Steady.newTable {l t : Bool} (x : Table) {k : EmM Str} (hk : Steady l true k) : Steady l t (Emit.setTable x >>= fun _ => k) := by
  intro s1 s2 h
  unfold Emit.setTable
  rw [bind_run, bind_run, modify_run, modify_run]
  dsimp only
  have h1 := hk { s1 with table := some x } { s2 with table := some x } ⟨h.1, h.2.1, fun _ => rfl⟩
  cases e1 : k { s1 with table := some x } with
  | error e =>
    rw [e1] at h1
    cases e2 : k { s2 with table := some x } with
    | error e => rw [e2] at h1; exact h1
    | ok y => rw [e2] at h1; exact h1.elim
  | ok r =>
    rw [e1] at h1
    cases e2 : k { s2 with table := some x } with
    | error e => rw [e2] at h1; exact h1.elim
    | ok y => rw [e2] at h1; exact ⟨h1.1, h1.2.1.forget, h1.2.2⟩

theorem Steady.table {l t : Bool} {lang : Lang} {ch : EmM Str} (hch : Steady l true ch) : Steady l t (tableEmit lang ch) := by
  unfold tableEmit
  refine .newTable _ (hch.bind fun _ => Steady.getTable.bind fun t => ?_)
  cases lang <;> exact .pure _

theorem Steady.baseList {t : Bool} {marker : Str} {ch : EmM Str} (hm : marker.length = 1) (hch : Steady true t ch) :
    Steady true t (Emit.baseList marker ch) := by
  intro s1 s2 h
  unfold Emit.baseList
  simp only [bind_run, get_run, modify_run]
  have h1 := hch { s1 with innerList := s1.innerList ++ marker } { s2 with innerList := s2.innerList ++ marker }
    ⟨by dsimp only; rw [h.1], h.2.1, h.2.2⟩
  cases e1 : ch { s1 with innerList := s1.innerList ++ marker } with
  | error e =>
    rw [e1] at h1
    cases e2 : ch { s2 with innerList := s2.innerList ++ marker } with
    | error e => rw [e2] at h1; exact h1
    | ok y => rw [e2] at h1; exact h1.elim
  | ok x =>
    rw [e1] at h1
    obtain ⟨a, s1'⟩ := x
    cases e2 : ch { s2 with innerList := s2.innerList ++ marker } with
    | error e => rw [e2] at h1; exact h1.elim
    | ok y =>
      rw [e2] at h1
      obtain ⟨b, s2'⟩ := y
      obtain ⟨rfl, h2, h3⟩ := h1
      obtain ⟨c, rfl⟩ := List.length_eq_one_iff.mp hm
      have h4 : s1'.innerList.dropLast = s1.innerList := by rw [h3]; simp
      have h5 : s2'.innerList.dropLast = s2.innerList := by rw [← h2.1, h3, ← h.1]; simp
      dsimp only
      rw [h4, h5, ← h.2.1 rfl, ← h.1]
      by_cases hz : s1.innerList = []
      · by_cases hs : startNewline s1.last = true
        · rw [if_pos hz, if_pos hs]
          exact ⟨rfl, ⟨rfl, h2.2.1, h2.2.2⟩, rfl⟩
        · rw [if_pos hz, if_neg hs]
          exact ⟨rfl, ⟨rfl, h2.2.1, h2.2.2⟩, rfl⟩
      · rw [if_neg hz]
        exact ⟨rfl, ⟨rfl, h2.2.1, h2.2.2⟩, rfl⟩

/-- a node whose method looks at the last node: a list of html2creole and html2textile -/
def looksBack (lang : Lang) (kind : Str) : Bool := lang != .markdown && (kind = c!"ul" || kind = c!"ol")

/-- cells and rows -/
def cellKind (kind : Str) : Bool := kind = c!"tr" || kind = c!"th" || kind = c!"td"

theorem Steady.bindEmit {l t : Bool} {m : EmM Str} {f : Str → Str} (hm : Steady l t m) : Steady l t (do return f (← m)) :=
  hm.bind fun _ => .pure _

theorem Steady.attr {l t : Bool} (i : HInfo) : Steady l t (levelM i) := by
  unfold levelM
  split
  · exact .pure _
  · exact .raise _

theorem Steady.deentity {l t : Bool} (c : Option Str) : Steady l t (deentityM c) := by
  unfold deentityM
  split
  · exact .ofExcept _
  · exact .raise _

theorem Steady.imgText {l t : Bool} (attrs : Dict (Option Str)) (src : Str) : Steady l t (Emit.imgText attrs src) := by
  unfold Emit.imgText
  split
  · dsimp only
    split <;> split <;> exact .pure _
  · exact .raise _

theorem Steady.imgSrc {l t : Bool} (attrs : Dict (Option Str)) : Steady l t (Emit.imgSrc attrs) := by
  unfold Emit.imgSrc
  split
  · exact .raise _
  · exact .raise _
  · split <;> exact .pure _

theorem Steady.quoteAttr {l t : Bool} (cfg : Cfg) (v : Option (Option Str)) : Steady l t (Emit.quoteAttr cfg v) := by
  unfold Emit.quoteAttr
  split
  · exact .raise _
  · exact .pure _
  · exact .ofExcept _

theorem Steady.inlinePre {l t : Bool} (lang : Lang) (c : Option Str) : Steady l t (inlinePreEmit lang c) := by
  unfold inlinePreEmit
  cases lang
  · exact (Steady.deentity c).bindEmit
  · exact (Steady.deentity c).bindEmit
  · show Steady l t (mdInlinePre c)
    unfold mdInlinePre
    split
    · exact .raise _
    · split
      · refine (Steady.ofExcept _).bind fun root => ?_
        split
        · exact .raise _
        · split
          · exact .raise _
          · refine (Steady.deentity _).bind fun _ => ?_
            split <;> exact .pure _
      · exact (Steady.ofExcept _).bindEmit
  · exact (Steady.deentity c).bindEmit

theorem lookup_pair {α : Type} {k : Str} {v : α} : ∀ {d : List (Str × α)}, d.lookup k = some v → (k, v) ∈ d
  | [], h => by cases h
  | (k', v') :: d, h => by
    rw [List.lookup_cons] at h
    split at h
    · next hb =>
      cases h
      rw [beq_iff_eq] at hb
      rw [hb]
      exact List.mem_cons_self
    · exact List.mem_cons_of_mem _ (lookup_pair h)

theorem methodOf_special {lang : Lang} {k : Str} {m : Meth} (h : methodOf lang k = some m) :
    (m = .tr ∨ m = .th ∨ m = .td → cellKind k = true) ∧ (m = .table → k = c!"table") ∧
    ∀ mk, m = .list mk → (lang = .creole ∨ lang = .textile) → mk.length = 1 ∧ looksBack lang k = true := by
  have hm := lookup_pair h
  refine ⟨?_, ?_, ?_⟩
  · rintro (rfl | rfl | rfl) <;> cases lang <;>
      simp [baseMethods, creoleMethods, textileMethods, markdownMethods, restMethods] at hm <;> simp [hm, cellKind]
  · rintro rfl
    cases lang <;> simpa [baseMethods, creoleMethods, textileMethods, markdownMethods, restMethods] using hm
  · rintro mk rfl (rfl | rfl) <;>
      simp [baseMethods, creoleMethods, textileMethods] at hm <;> rcases hm with ⟨rfl, rfl⟩ | ⟨rfl, rfl⟩ <;> decide

theorem runMeth_steady {cfg : Cfg} (hr : cfg.lang ≠ .rest) {l t : Bool} {anc : List Str} {i : HInfo} {m : Meth} {ch : EmM Str}
    (hk : methodOf cfg.lang i.kind = some m) (hl : l = true ∨ looksBack cfg.lang i.kind = false)
    (ht : t = true ∨ cellKind i.kind = false) (hch : i.kind ≠ c!"table" → Steady l t ch) (htab : i.kind = c!"table" → Steady l true ch) :
    Steady l t (runMeth cfg anc i m ch) := by
  obtain ⟨hcell, htable, hlist⟩ := methodOf_special hk
  by_cases hT : i.kind = c!"table"
  · have hm : m = .table := by
      rw [hT] at hk
      cases hx : cfg.lang <;> rw [hx] at hk <;> exact (Option.some.inj hk).symm
    subst hm
    exact .table (htab hT)
  replace hch := hch hT
  cases m with
  | blockPre =>
    show Steady l t (blockPreEmit cfg.lang i.content)
    unfold blockPreEmit
    refine (Steady.deentity _).bind fun _ => ?_
    split <;> exact .pure _
  | inlinePre => exact .inlinePre _ _
  | blockPass => unfold runMeth; dsimp only; split <;> exact .pure _
  | data =>
    unfold runMeth
    dsimp only
    split
    · exact .raise _
    · split <;> exact .pure _
  | entityref => exact .pure _
  | charref => exact .ofExcept _
  | p =>
    unfold runMeth
    dsimp only
    refine hch.bind fun content => ?_
    split
    · refine .get (fun s => ?_) (fun s1 s2 h => ?_)
      · split <;> exact .pure _
      · rw [h.1]
    · exact .pure _
    · exact .pure _
  | br =>
    unfold runMeth
    dsimp only
    refine .get (fun s => ?_) (fun s1 s2 h => ?_)
    · split <;> exact .pure _
    · rw [h.1]
  | headline =>
    show Steady l t (headlineEmit cfg.lang i ch)
    unfold headlineEmit
    split
    · exact (Steady.attr i).bind fun _ => hch.bindEmit
    · exact (Steady.attr i).bind fun _ => hch.bindEmit
    · exact (Steady.attr i).bind fun _ => hch.bindEmit
    · next e => exact absurd e hr
  | typeface key => exact hch.bindEmit
  | typefaceHtml tag => exact hch.bindEmit
  | children => exact hch
  | content => exact hch.bindEmit
  | hr => unfold runMeth; dsimp only; split <;> exact .pure _
  | a =>
    unfold runMeth
    dsimp only
    split
    · refine hch.bind fun text => ?_
      split
      · exact .pure _
      · split <;> exact .pure _
    · refine hch.bind fun text => ?_
      split
      · exact .raise _
      · exact .pure _
    · refine hch.bind fun text => (Steady.quoteAttr _ _).bind fun url => ?_
      split <;> exact .pure _
    · next e => exact absurd e hr
  | img =>
    unfold runMeth
    dsimp only
    split
    · refine (Steady.imgSrc _).bind fun src => ?_
      split
      · exact .pure _
      · refine (Steady.imgText _ _).bind fun text => ?_
        split <;> exact .pure _
    · refine (Steady.imgSrc _).bind fun src => ?_
      split
      · exact .pure _
      · exact (Steady.imgText _ _).bindEmit
    · refine (Steady.quoteAttr _ _).bind fun url => ?_
      dsimp only
      split <;> exact .pure _
    · next e => exact absurd e hr
  | code =>
    unfold runMeth
    dsimp only
    split
    · refine hch.bind fun text => ?_
      dsimp only
      split
      · exact .raise _
      · split <;> exact .pure _
    · exact hch.bindEmit
  | li =>
    have hb : Steady l t (baseLi ch) := by
      refine hch.bind fun content => .get (fun s => .pure _) (fun s1 s2 h => ?_)
      rw [h.1]
    unfold runMeth
    dsimp only
    split
    · exact hb
    · exact hb
    · unfold mdLi
      have hk : ∀ (m : EmM Str), Steady l t m → Steady l t (do
          let marker ← m
          let level ← levelM i
          let content ← ch
          pure ('\n' :: rep [' ', ' '] (level - 1).toNat ++ marker ++ ' ' :: content)) :=
        fun m hm => hm.bind fun marker => (Steady.attr i).bind fun _ => hch.bindEmit
      dsimp only
      split
      · split
        · exact hk _ (.pure _)
        · split
          · exact hk _ (.pure _)
          · exact hk _ (.raise _)
      · exact hk _ (.raise _)
    · next e => exact absurd e hr
  | list mk =>
    unfold runMeth
    dsimp only
    split
    · next e =>
      obtain ⟨h1, h2⟩ := hlist mk rfl (.inl e)
      rw [h2] at hl
      cases hl.resolve_right (by simp)
      exact .baseList h1 hch
    · next e =>
      obtain ⟨h1, h2⟩ := hlist mk rfl (.inr e)
      rw [h2] at hl
      cases hl.resolve_right (by simp)
      exact .baseList h1 hch
    · refine hch.bind fun content => ?_
      split <;> exact .pure _
    · next e => exact absurd e hr
  | table => exact .table (htab (htable rfl))
  | tr =>
    rw [hcell (.inl rfl)] at ht
    cases ht.resolve_right (by simp)
    exact Steady.getTable.bind fun x => (Steady.setTable _).bind fun _ => hch.bind fun _ => .pure _
  | th =>
    rw [hcell (.inr (.inl rfl))] at ht
    cases ht.resolve_right (by simp)
    exact hch.bind fun c => Steady.getTable.bind fun x => (Steady.setTable _).bind fun _ => .pure _
  | td =>
    rw [hcell (.inr (.inr rfl))] at ht
    cases ht.resolve_right (by simp)
    exact hch.bind fun c => Steady.getTable.bind fun x => (Steady.setTable _).bind fun _ => .pure _
  | document =>
    unfold runMeth
    dsimp only
    rw [if_neg hr]
    exact hch

mutual

/-- cells and rows are inside of tables (or `t` says that this node is) -/
def housed (t : Bool) : HNode → Bool
  | .mk i cs => (t || !cellKind i.kind) && housedL (t || i.kind = c!"table") cs

def housedL (t : Bool) : List HNode → Bool
  | [] => true
  | n :: ns => housed t n && housedL t ns

end

mutual

theorem housed_true : ∀ n : HNode, housed true n = true
  | .mk i cs => by rw [housed]; simp [housedL_true cs]

theorem housedL_true : ∀ ns : List HNode, housedL true ns = true
  | [] => by rw [housedL]
  | n :: ns => by rw [housedL, housed_true n, housedL_true ns]; rfl

end

theorem runNode_steady {cfg : Cfg} (hr : cfg.lang ≠ .rest) {l t : Bool} {anc : List Str} {i : HInfo} {ch : EmM Str}
    (hl : l = true ∨ looksBack cfg.lang i.kind = false)
    (ht : t = true ∨ cellKind i.kind = false) (hch : i.kind ≠ c!"table" → Steady l t ch) (htab : i.kind = c!"table" → Steady l true ch) :
    Steady l t (runNode cfg anc i ch) := by
  unfold runNode
  split
  · next m hk => exact runMeth_steady hr hk hl ht hch htab
  · next hk =>
    have hT : i.kind ≠ c!"table" := by
      intro hT
      rw [hT] at hk
      cases hx : cfg.lang <;> rw [hx] at hk <;> exact absurd hk (by decide)
    unfold unknownEmit
    refine (hch hT).bind fun content => ?_
    split <;> first | exact .pure _ | exact .raise _

/-- setting the last node first -/
theorem Steady.after {α : Type} {l t : Bool} (i : HInfo) {m : EmM α} (hm : Steady true t m) : Steady l t (Emit.setLast i >>= fun _ => m) := by
  intro s1 s2 h
  rw [bind_run, bind_run, setLast_run, setLast_run]
  dsimp only
  have h1 := hm _ _ (setLast_like (i := i) h)
  generalize m { s1 with last := some (i.kind, i.content) } = r1 at *
  generalize m { s2 with last := some (i.kind, i.content) } = r2 at *
  cases r1 with
  | error e =>
    cases r2 with
    | error e => exact h1
    | ok y => exact h1.elim
  | ok x =>
    cases r2 with
    | error e => exact h1.elim
    | ok y => exact ⟨h1.1, h1.2.1.weaken, h1.2.2⟩

mutual

theorem emitNode_steady {cfg : Cfg} (hr : cfg.lang ≠ .rest) : ∀ (n : HNode) {l t : Bool} (anc : List Str),
    (l = true ∨ looksBack cfg.lang n.info.kind = false) → housed t n = true → Steady l t (emitNode cfg anc n)
  | .mk i cs, l, t, anc, hl, hh => by
    rw [housed, Bool.and_eq_true] at hh
    rw [emitNode_run]
    have hpre : preEmit cfg.lang anc = pure [] := by unfold preEmit; rw [if_neg hr]
    rw [hpre]
    have hch : ∀ t', housedL t' cs = true → Steady l t' (Emit.setLast i >>= fun _ => emitNodes cfg (i.kind :: anc) cs) :=
      fun t' h' => .after i (emitNodes_steady hr cs (i.kind :: anc) h')
    refine (Steady.pure _).bind fun pre => (runNode_steady (i := i) hr hl ?_ ?_ ?_).bind fun content => (Steady.setLast i).bind fun _ => .pure _
    · rcases Bool.or_eq_true_iff.mp hh.1 with h | h
      · exact .inl h
      · exact .inr (by simpa using h)
    · intro htab
      exact hch t (by have := hh.2; rw [decide_eq_false htab, Bool.or_false] at this; exact this)
    · intro htab
      refine hch true (housedL_true _)

theorem emitNodes_steady {cfg : Cfg} (hr : cfg.lang ≠ .rest) : ∀ (ns : List HNode) {t : Bool} (anc : List Str),
    housedL t ns = true → Steady true t (emitNodes cfg anc ns)
  | [], t, anc, _ => by rw [emitNodes]; exact .pure _
  | n :: ns, t, anc, hh => by
    rw [housedL, Bool.and_eq_true] at hh
    rw [emitNodes]
    exact (emitNode_steady hr n anc (.inl rfl) hh.1).bind fun _ => (emitNodes_steady hr ns anc hh.2).bind fun _ => .pure _

end

end Verif.Emit
