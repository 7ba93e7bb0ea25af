import Verif.Detector.RegistryProps

set_option autoImplicit false

/-!
# Concurrent queries and the lazily built index

Threads query one detector model at the same time while nobody changes it. The first queries find the spatial index out of date
and rebuild it under a mutex with double-checked locking (detector/private/DetectorModel.cxx:1423-1428, 1471-1509, 1655-1660).

The model is an interleaving of the atomic steps below under sequential consistency (trusted: the release store of the flag and
the acquire load order the accesses to the index as in the interleaving). The index is not written in one step: between the
first and the last write it has no usable value.
-/

namespace Siren.Detector.Lazy

open Siren Siren.Geometry Siren.Detector.BVH

/-- Where a thread is in its query. -/
inductive Pc where
  /-- before `if(bvh_dirty_.load(acquire))` (1423) -/
  | start
  /-- before acquiring the mutex (1424) -/
  | lock
  /-- holding the mutex, before the second test (1425) -/
  | retest
  /-- inside `RebuildBVH`, after `bvh_nodes_.clear()` (1472) and before its last write to the index -/
  | writing
  /-- the index is complete, before `bvh_dirty_.store(false)` (1508) -/
  | store
  /-- before releasing the mutex (end of the block, 1428) -/
  | unlock
  /-- using the index (1430-1461) -/
  | reading
  /-- the query has returned -/
  | done (answer : Res (Option Sector))

/-- Shared state and the threads. `index = none`: not usable (never built, or being rewritten). -/
structure Conf where
  dirty : Bool
  owner : Option Nat
  index : Option Index
  pc : Nat → Pc

/-- Thread `t` moves to `pc`. -/
def Conf.goto (c : Conf) (t : Nat) (p : Pc) : Conf := { c with pc := fun u => if u = t then p else c.pc u }

section
variable (srt : (Nat → ℝ) → List Nat → List Nat) (big : ℝ) (secs : List Sector) (point : Nat → Vec3 ℝ)

/-- What a thread reading the index returns (`containingDirect`, DetectorModel.cxx:1430-1464). Reading an unusable index is
undefined. -/
noncomputable def answerWith (index : Option Index) (p : Vec3 ℝ) : Res (Option Sector) :=
  match index with
  | none => .ub
  | some ix => containingDirect secs ix p (ix.nodes.length + 1)

/-- One step of thread `t`. -/
inductive Step (t : Nat) : Conf → Conf → Prop where
  | clean {c : Conf} : c.pc t = .start → c.dirty = false → Step t c (c.goto t .reading)
  | stale {c : Conf} : c.pc t = .start → c.dirty = true → Step t c (c.goto t .lock)
  | acquire {c : Conf} : c.pc t = .lock → c.owner = none → Step t c ({ c with owner := some t }.goto t .retest)
  | settled {c : Conf} : c.pc t = .retest → c.dirty = false → Step t c (c.goto t .unlock)
  | begin {c : Conf} : c.pc t = .retest → c.dirty = true → Step t c ({ c with index := none }.goto t .writing)
  | finish {c : Conf} {ix : Index} : c.pc t = .writing → rebuild srt big secs = .ok ix →
      Step t c ({ c with index := some ix }.goto t .store)
  | store {c : Conf} : c.pc t = .store → Step t c ({ c with dirty := false }.goto t .unlock)
  | unlock {c : Conf} : c.pc t = .unlock → Step t c ({ c with owner := none }.goto t .reading)
  | answer {c : Conf} : c.pc t = .reading → Step t c (c.goto t (.done (answerWith secs c.index (point t))))

/-- All schedules of any number of threads, from a model whose index is out of date (contents arbitrary). -/
inductive Reachable : Conf → Prop where
  | init (stale : Option Index) : Reachable ⟨true, none, stale, fun _ => .start⟩
  | step {c c' : Conf} (t : Nat) : Reachable c → Step srt big secs point t c c' → Reachable c'

end

/-! ## Proofs -/

/-- The thread holds the mutex. -/
def Pc.holds : Pc → Bool
  | .retest | .writing | .store | .unlock => true
  | _ => false

section
variable {srt : (Nat → ℝ) → List Nat → List Nat} {big : ℝ} {secs : List Sector} {point : Nat → Vec3 ℝ}

/-- The answer of a query that runs alone. -/
noncomputable def alone (srt : (Nat → ℝ) → List Nat → List Nat) (big : ℝ) (secs : List Sector) (p : Vec3 ℝ) : Res (Option Sector) :=
  (rebuild srt big secs).bind fun ix => containingDirect secs ix p (ix.nodes.length + 1)

structure Good (srt : (Nat → ℝ) → List Nat → List Nat) (big : ℝ) (secs : List Sector) (point : Nat → Vec3 ℝ) (c : Conf) : Prop where
  owner : ∀ t, (c.pc t).holds = true ↔ c.owner = some t
  clean : c.dirty = false → ∃ ix, rebuild srt big secs = .ok ix ∧ c.index = some ix
  past : ∀ t, c.pc t = .unlock ∨ c.pc t = .reading ∨ (∃ r, c.pc t = .done r) → c.dirty = false
  busy : ∀ t, c.pc t = .writing ∨ c.pc t = .store → c.dirty = true
  stored : ∀ t, c.pc t = .store → ∃ ix, rebuild srt big secs = .ok ix ∧ c.index = some ix
  answered : ∀ t r, c.pc t = .done r → r = alone srt big secs (point t)

theorem goto_self (c : Conf) (t : Nat) (p : Pc) : (c.goto t p).pc t = p := by simp [Conf.goto]

theorem goto_other (c : Conf) {t u : Nat} (p : Pc) (h : u ≠ t) : (c.goto t p).pc u = c.pc u := by simp [Conf.goto, h]

theorem Reachable.good {c : Conf} (h : Reachable srt big secs point c) : Good srt big secs point c := by
  induction h with
  | init stale =>
    exact ⟨by simp [Pc.holds], by simp, by simp, by simp, by simp, by simp⟩
  | @step c c' t _ hs ih =>
    -- what is known about other threads carries over when the shared state is unchanged for them
    cases hs with
    | clean hp hd =>
      refine ⟨fun u => ?_, ih.clean, fun u hu => hd, fun u hu => ?_, fun u hu => ?_, fun u r hu => ?_⟩
      · by_cases e : u = t
        · subst e
          have := ih.owner u
          rw [hp] at this
          rw [goto_self]
          simpa [Pc.holds, Conf.goto] using this
        · rw [goto_other _ _ e]; exact ih.owner u
      · by_cases e : u = t
        · subst e; rw [goto_self] at hu; simp at hu
        · rw [goto_other _ _ e] at hu; exact ih.busy u hu
      · by_cases e : u = t
        · subst e; rw [goto_self] at hu; simp at hu
        · rw [goto_other _ _ e] at hu; exact ih.stored u hu
      · by_cases e : u = t
        · subst e; rw [goto_self] at hu; simp at hu
        · rw [goto_other _ _ e] at hu; exact ih.answered u r hu
    | stale hp hd =>
      refine ⟨fun u => ?_, ih.clean, fun u hu => ?_, fun u hu => ?_, fun u hu => ?_, fun u r hu => ?_⟩
      · by_cases e : u = t
        · subst e
          have := ih.owner u
          rw [hp] at this
          rw [goto_self]
          simpa [Pc.holds, Conf.goto] using this
        · rw [goto_other _ _ e]; exact ih.owner u
      · by_cases e : u = t
        · subst e; rw [goto_self] at hu; simp at hu
        · rw [goto_other _ _ e] at hu; exact ih.past u hu
      · exact hd
      · by_cases e : u = t
        · subst e; rw [goto_self] at hu; simp at hu
        · rw [goto_other _ _ e] at hu; exact ih.stored u hu
      · by_cases e : u = t
        · subst e; rw [goto_self] at hu; simp at hu
        · rw [goto_other _ _ e] at hu; exact ih.answered u r hu
    | acquire hp ho =>
      refine ⟨fun u => ?_, ih.clean, fun u hu => ?_, fun u hu => ?_, fun u hu => ?_, fun u r hu => ?_⟩
      · by_cases e : u = t
        · subst e; rw [goto_self]; simp [Pc.holds, Conf.goto]
        · rw [goto_other _ _ e]
          have := ih.owner u
          rw [ho] at this
          constructor
          · intro h; exact absurd (this.1 h) (by simp)
          · intro h
            simp only [Conf.goto, Option.some_inj] at h
            exact absurd h.symm e
      · by_cases e : u = t
        · subst e; rw [goto_self] at hu; simp at hu
        · rw [goto_other _ _ e] at hu; exact ih.past u hu
      · by_cases e : u = t
        · subst e; rw [goto_self] at hu; simp at hu
        · rw [goto_other _ _ e] at hu; exact ih.busy u hu
      · by_cases e : u = t
        · subst e; rw [goto_self] at hu; simp at hu
        · rw [goto_other _ _ e] at hu; exact ih.stored u hu
      · by_cases e : u = t
        · subst e; rw [goto_self] at hu; simp at hu
        · rw [goto_other _ _ e] at hu; exact ih.answered u r hu
    | settled hp hd =>
      refine ⟨fun u => ?_, ih.clean, fun u hu => hd, fun u hu => ?_, fun u hu => ?_, fun u r hu => ?_⟩
      · by_cases e : u = t
        · subst e
          have := ih.owner u
          rw [hp] at this
          rw [goto_self]
          simpa [Pc.holds, Conf.goto] using this
        · rw [goto_other _ _ e]; exact ih.owner u
      · by_cases e : u = t
        · subst e; rw [goto_self] at hu; simp at hu
        · rw [goto_other _ _ e] at hu; exact ih.busy u hu
      · by_cases e : u = t
        · subst e; rw [goto_self] at hu; simp at hu
        · rw [goto_other _ _ e] at hu; exact ih.stored u hu
      · by_cases e : u = t
        · subst e; rw [goto_self] at hu; simp at hu
        · rw [goto_other _ _ e] at hu; exact ih.answered u r hu
    | begin hp hd =>
      have hown := (ih.owner t).1 (by rw [hp]; rfl)
      refine ⟨fun u => ?_, ?_, fun u hu => ?_, fun u hu => hd, fun u hu => ?_, fun u r hu => ?_⟩
      · by_cases e : u = t
        · subst e; rw [goto_self]; simp [Pc.holds, Conf.goto, hown]
        · rw [goto_other _ _ e]; exact ih.owner u
      · intro h; change c.dirty = false at h; rw [hd] at h; cases h
      · by_cases e : u = t
        · subst e; rw [goto_self] at hu; simp at hu
        · rw [goto_other _ _ e] at hu; exact ih.past u hu
      · by_cases e : u = t
        · subst e; rw [goto_self] at hu; simp at hu
        · rw [goto_other _ _ e] at hu
          have := (ih.owner u).1 (by rw [show c.pc u = Pc.store from hu]; rfl)
          rw [hown] at this
          exact absurd (Option.some_inj.1 this).symm e
      · by_cases e : u = t
        · subst e; rw [goto_self] at hu; simp at hu
        · rw [goto_other _ _ e] at hu; exact ih.answered u r hu
    | @finish ix hp hb =>
      have hown := (ih.owner t).1 (by rw [hp]; rfl)
      have hd := ih.busy t (.inl hp)
      refine ⟨fun u => ?_, ?_, fun u hu => ?_, fun u hu => hd, fun u hu => ⟨ix, hb, rfl⟩, fun u r hu => ?_⟩
      · by_cases e : u = t
        · subst e; rw [goto_self]; simp [Pc.holds, Conf.goto, hown]
        · rw [goto_other _ _ e]; exact ih.owner u
      · intro _; exact ⟨ix, hb, rfl⟩
      · by_cases e : u = t
        · subst e; rw [goto_self] at hu; simp at hu
        · rw [goto_other _ _ e] at hu; exact ih.past u hu
      · by_cases e : u = t
        · subst e; rw [goto_self] at hu; simp at hu
        · rw [goto_other _ _ e] at hu; exact ih.answered u r hu
    | store hp =>
      have hown := (ih.owner t).1 (by rw [hp]; rfl)
      refine ⟨fun u => ?_, fun _ => ih.stored t hp, fun u hu => rfl, fun u hu => ?_, fun u hu => ?_, fun u r hu => ?_⟩
      · by_cases e : u = t
        · subst e; rw [goto_self]; simp [Pc.holds, Conf.goto, hown]
        · rw [goto_other _ _ e]; exact ih.owner u
      · by_cases e : u = t
        · subst e; rw [goto_self] at hu; simp at hu
        · rw [goto_other _ _ e] at hu
          have := (ih.owner u).1 (by rcases hu with hu | hu <;> rw [show c.pc u = _ from hu] <;> rfl)
          rw [hown] at this
          exact absurd (Option.some_inj.1 this).symm e
      · by_cases e : u = t
        · subst e; rw [goto_self] at hu; simp at hu
        · rw [goto_other _ _ e] at hu; exact ih.stored u hu
      · by_cases e : u = t
        · subst e; rw [goto_self] at hu; simp at hu
        · rw [goto_other _ _ e] at hu; exact ih.answered u r hu
    | unlock hp =>
      have hown := (ih.owner t).1 (by rw [hp]; rfl)
      have hd := ih.past t (.inl hp)
      refine ⟨fun u => ?_, ih.clean, fun u hu => hd, fun u hu => ?_, fun u hu => ?_, fun u r hu => ?_⟩
      · by_cases e : u = t
        · subst e; rw [goto_self]; simp [Pc.holds, Conf.goto]
        · rw [goto_other _ _ e]
          have := ih.owner u
          rw [hown] at this
          constructor
          · intro h; exact absurd (Option.some_inj.1 (this.1 h)).symm e
          · intro h; simp [Conf.goto] at h
      · by_cases e : u = t
        · subst e; rw [goto_self] at hu; simp at hu
        · rw [goto_other _ _ e] at hu; exact ih.busy u hu
      · by_cases e : u = t
        · subst e; rw [goto_self] at hu; simp at hu
        · rw [goto_other _ _ e] at hu; exact ih.stored u hu
      · by_cases e : u = t
        · subst e; rw [goto_self] at hu; simp at hu
        · rw [goto_other _ _ e] at hu; exact ih.answered u r hu
    | answer hp =>
      have hd := ih.past t (.inr (.inl hp))
      obtain ⟨ix, hb, hix⟩ := ih.clean hd
      refine ⟨fun u => ?_, ih.clean, fun u hu => hd, fun u hu => ?_, fun u hu => ?_, fun u r hu => ?_⟩
      · by_cases e : u = t
        · subst e
          have := ih.owner u
          rw [hp] at this
          rw [goto_self]
          simpa [Pc.holds, Conf.goto] using this
        · rw [goto_other _ _ e]; exact ih.owner u
      · by_cases e : u = t
        · subst e; rw [goto_self] at hu; simp at hu
        · rw [goto_other _ _ e] at hu; exact ih.busy u hu
      · by_cases e : u = t
        · subst e; rw [goto_self] at hu; simp at hu
        · rw [goto_other _ _ e] at hu; exact ih.stored u hu
      · by_cases e : u = t
        · subst e
          rw [goto_self] at hu
          cases hu
          simp only [answerWith, hix, alone, hb, Res.bind]
        · rw [goto_other _ _ e] at hu; exact ih.answered u r hu

/-- **C63, no interference.** In every schedule of concurrent queries, while a thread uses the index no thread is writing it, and
the index is the complete one for the current sectors. At most one thread writes at a time. -/
theorem C63_no_race (c : Conf) (h : Reachable srt big secs point c) :
    (∀ t, c.pc t = .reading → (∀ u, c.pc u ≠ .writing) ∧ ∃ ix, rebuild srt big secs = .ok ix ∧ c.index = some ix) ∧
    (∀ t u, c.pc t = .writing → c.pc u = .writing → t = u) := by
  have g := h.good
  refine ⟨fun t ht => ⟨fun u hu => ?_, g.clean (g.past t (.inr (.inl ht)))⟩, fun t u ht hu => ?_⟩
  · have h1 := g.past t (.inr (.inl ht))
    rw [g.busy u (.inl hu)] at h1
    cases h1
  · have h1 := (g.owner t).1 (by rw [ht]; rfl)
    have h2 := (g.owner u).1 (by rw [hu]; rfl)
    rw [h1] at h2
    exact Option.some_inj.1 h2

/-- **C63, answers.** In every schedule, a query that returns gives the answer of a query that runs alone: the sector of the
highest level that contains the point. -/
theorem C63_answers (hsrt : ∀ key l, (srt key l).Perm l) (c : Conf) (h : Reachable srt big secs point c) (t : Nat)
    (r : Res (Option Sector)) (ht : c.pc t = .done r) (hs : ∀ s ∈ secs, s.PointSound big (point t))
    (hlev : (secs.map Sector.level).Nodup) :
    ∃ a, r = .ok a ∧ ∀ s, a = some s ↔
      s ∈ secs ∧ s.isInside (point t) = true ∧ ∀ s' ∈ secs, s'.isInside (point t) = true → s'.level ≤ s.level := by
  obtain ⟨ix, tr, hb, hix⟩ := C25_rebuild srt hsrt big secs
  obtain ⟨a, hc, hspec⟩ := C24_containing_sector secs (point t) hs hlev ix tr hix (ix.nodes.length + 1) (Nat.lt_succ_self _)
  refine ⟨a, ?_, hspec⟩
  rw [h.good.answered t r ht]
  simp only [alone, hb, Res.bind, hc]

/-- **C63, progress.** No schedule gets stuck: as long as some query has not returned, some thread can take a step. -/
theorem C63_progress (hsrt : ∀ key l, (srt key l).Perm l) (c : Conf) (h : Reachable srt big secs point c) (t : Nat)
    (ht : ∀ r, c.pc t ≠ .done r) : ∃ u c', Step srt big secs point u c c' := by
  have g := h.good
  obtain ⟨ix, tr, hb, -⟩ := C25_rebuild srt hsrt big secs
  have hold : ∀ u, (c.pc u).holds = true → ∃ u c', Step srt big secs point u c c' := by
    intro u hu
    cases hp : c.pc u with
    | retest =>
      cases hd : c.dirty with
      | true => exact ⟨u, _, .begin hp hd⟩
      | false => exact ⟨u, _, .settled hp hd⟩
    | writing => exact ⟨u, _, .finish hp hb⟩
    | store => exact ⟨u, _, .store hp⟩
    | unlock => exact ⟨u, _, .unlock hp⟩
    | start => rw [hp] at hu; cases hu
    | lock => rw [hp] at hu; cases hu
    | reading => rw [hp] at hu; cases hu
    | done r => rw [hp] at hu; cases hu
  cases hp : c.pc t with
  | start =>
    cases hd : c.dirty with
    | true => exact ⟨t, _, .stale hp hd⟩
    | false => exact ⟨t, _, .clean hp hd⟩
  | lock =>
    cases ho : c.owner with
    | none => exact ⟨t, _, .acquire hp ho⟩
    | some u => exact hold u ((g.owner u).2 ho)
  | retest => exact hold t (by rw [hp]; rfl)
  | writing => exact hold t (by rw [hp]; rfl)
  | store => exact hold t (by rw [hp]; rfl)
  | unlock => exact hold t (by rw [hp]; rfl)
  | reading => exact ⟨t, _, .answer hp⟩
  | done r => exact absurd hp (ht r)

end

/-- A schedule of two threads in which the second arrives while the first is rebuilding and waits; both are then reading. -/
example (srt : (Nat → ℝ) → List Nat → List Nat) (hsrt : ∀ key l, (srt key l).Perm l) (big : ℝ) (secs : List Sector)
    (point : Nat → Vec3 ℝ) : ∃ c, Reachable srt big secs point c ∧ c.pc 0 = .reading ∧ c.pc 1 = .reading := by
  obtain ⟨ix, t, hb, -⟩ := C25_rebuild srt hsrt big secs
  have r0 : Reachable srt big secs point ⟨true, none, none, fun _ => .start⟩ := .init none
  have r1 := r0.step 0 (.stale rfl rfl)
  have r2 := r1.step 0 (.acquire rfl rfl)
  have r3 := r2.step 0 (.begin rfl rfl)
  have r4 := r3.step 1 (.stale rfl rfl)
  have r5 := r4.step 0 (.finish rfl hb)
  have r6 := r5.step 0 (.store rfl)
  have r7 := r6.step 0 (.unlock rfl)
  have r8 := r7.step 1 (.acquire rfl rfl)
  have r9 := r8.step 1 (.settled rfl rfl)
  have r10 := r9.step 1 (.unlock rfl)
  exact ⟨_, r10, rfl, rfl⟩

end Siren.Detector.Lazy
