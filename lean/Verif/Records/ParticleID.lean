import Mathlib.Data.List.Nodup
import Mathlib.Data.List.Range
import Mathlib.Logic.Function.Basic
import Mathlib.Tactic.Common

set_option autoImplicit false

/-!
# Particle identifiers

Models `dataclasses/private/ParticleID.cxx`: `GenerateID` as a program of atomic steps executed by any number of threads
under any schedule.

Simplifications: the atomic operations interleave (sequential consistency); the code's relaxed loads and stores with fences
are not given a weak-memory semantics. `std::hash` of time, pid and host is an arbitrary value, chosen anew at each use.
-/

namespace Siren.Records

/-- `ParticleID` (dataclasses/public/SIREN/dataclasses/ParticleID.h:28-31). -/
structure ParticleID where
  set : Bool
  major : Nat
  minor : Int
  deriving DecidableEq, Repr

/-- Program counter of a call of `GenerateID` (dataclasses/private/ParticleID.cxx:86-127): the next atomic step. -/
inductive PC where
  /-- between calls -/
  | idle
  /-- line 89 -/
  | loadPid
  /-- line 92, first critical section -/
  | lockA
  /-- line 94 -/
  | reloadPid
  /-- line 97 -/
  | storePid
  /-- line 98 -/
  | clearMajor
  /-- line 99 -/
  | clearMinor
  /-- line 101 -/
  | unlockA
  /-- line 103 -/
  | loadMajor
  /-- line 106, second critical section -/
  | lockB
  /-- line 108 -/
  | reloadMajor
  /-- line 114 -/
  | storeMajor
  /-- line 116 -/
  | unlockB
  /-- line 121 -/
  | readMajor
  /-- line 122 -/
  | fetchMinor (major : Nat)
  deriving DecidableEq, Repr

/-- The global variables (dataclasses/private/ParticleID.cxx:42-45), all threads, and the identifiers returned so far. -/
structure IdState (T : Type) where
  lastPid : Int
  major : Nat
  minor : BitVec 32
  lock : Option T
  pc : T → PC
  issued : List ParticleID

variable {T : Type} [DecidableEq T]

/-- Move thread `t` on. -/
def IdState.goto (s : IdState T) (t : T) (p : PC) : IdState T := { s with pc := Function.update s.pc t p }

/-- One atomic step of thread `t` in a process with id `pid` (dataclasses/private/ParticleID.cxx:86-127). `hash` is the value
of `string_hash` should this step need it. A thread waiting for the mutex does not move. -/
def IdState.step (pid : Int) (s : IdState T) (t : T) (hash : Nat) : IdState T :=
  match s.pc t with
  | .idle => s.goto t .loadPid
  | .loadPid => s.goto t (if pid ≠ s.lastPid then .lockA else .loadMajor)
  | .lockA => match s.lock with
    | none => { s with lock := some t }.goto t .reloadPid
    | some _ => s
  | .reloadPid => s.goto t (if pid ≠ s.lastPid then .storePid else .unlockA)
  | .storePid => { s with lastPid := pid }.goto t .clearMajor
  | .clearMajor => { s with major := 0 }.goto t .clearMinor
  | .clearMinor => { s with minor := 0 }.goto t .unlockA
  | .unlockA => { s with lock := none }.goto t .loadMajor
  | .loadMajor => s.goto t (if s.major = 0 then .lockB else .readMajor)
  | .lockB => match s.lock with
    | none => { s with lock := some t }.goto t .reloadMajor
    | some _ => s
  | .reloadMajor => s.goto t (if s.major = 0 then .storeMajor else .unlockB)
  | .storeMajor => { s with major := hash }.goto t .unlockB
  | .unlockB => { s with lock := none }.goto t .readMajor
  | .readMajor => s.goto t (.fetchMinor s.major)
  | .fetchMinor m =>
    { s with minor := s.minor + 1, issued := s.issued ++ [ParticleID.mk true m s.minor.toInt] }.goto t .idle

/-- Run a schedule: which thread moves next, and the hash value it would obtain. -/
def IdState.run (pid : Int) (s : IdState T) (schedule : List (T × Nat)) : IdState T :=
  schedule.foldl (fun s x => s.step pid x.1 x.2) s

/-- A newly started program (dataclasses/private/ParticleID.cxx:42-45). -/
def IdState.fresh (T : Type) : IdState T := { lastPid := 0, major := 0, minor := 0, lock := none, pc := fun _ => .idle, issued := [] }

/-- A process in which `GenerateID` has already been completed once and no call is running; or a forked child in that
situation. -/
def IdState.settled (pid : Int) (major : Nat) (minor : BitVec 32) : IdState T :=
  { lastPid := pid, major := major, minor := minor, lock := none, pc := fun _ => .idle, issued := [] }

/-! ### C04 -/

/-- In a critical section. -/
def PC.critical : PC → Bool
  | .reloadPid | .storePid | .clearMajor | .clearMinor | .unlockA | .reloadMajor | .storeMajor | .unlockB => true
  | _ => false

/-- Before the reset of the counters has been decided. -/
def PC.early : PC → Bool
  | .idle | .loadPid | .lockA | .reloadPid | .storePid => true
  | _ => false

/-- Resetting the counters. -/
def PC.resetting : PC → Bool
  | .clearMajor | .clearMinor => true
  | _ => false

/-- Waiting while another thread resets the counters. -/
def PC.waiting : PC → Bool
  | .idle | .loadPid | .lockA | .loadMajor | .lockB => true
  | _ => false

/-- Identifiers already returned: their minor parts are the successive counter values since `start`. -/
def Counted (start : BitVec 32) (s : IdState T) : Prop :=
  s.minor = start + BitVec.ofNat 32 s.issued.length ∧
  ∀ (i : Nat) (id : ParticleID), s.issued[i]? = some id → id.set = true ∧ id.minor = (start + BitVec.ofNat 32 i).toInt

structure IdInv (pid : Int) (start : BitVec 32) (s : IdState T) : Prop where
  locked : ∀ t, (s.pc t).critical = true ↔ s.lock = some t
  counted : Counted start s
  phase : (s.lastPid ≠ pid ∧ s.major = 0 ∧ start = 0 ∧ s.issued = [] ∧ ∀ t, (s.pc t).early = true) ∨
    (s.lastPid = pid ∧ s.major = 0 ∧ start = 0 ∧ s.issued = [] ∧
      ∃ t, (s.pc t).resetting = true ∧ ∀ t', t' ≠ t → (s.pc t').waiting = true) ∨
    (s.lastPid = pid ∧ ∀ t, (s.pc t).resetting = false ∧ s.pc t ≠ .storePid)

omit [DecidableEq T] in
theorem counted_congr {start : BitVec 32} {s s' : IdState T} (h : Counted start s) (h1 : s'.minor = s.minor)
    (h2 : s'.issued = s.issued) : Counted start s' := by
  unfold Counted; rw [h1, h2]; exact h

theorem locked_goto {s s' : IdState T} {t : T} {p : PC} (hl : ∀ t, (s.pc t).critical = true ↔ s.lock = some t)
    (hpc : s'.pc = Function.update s.pc t p) (h1 : p.critical = true ↔ s'.lock = some t)
    (h2 : ∀ t', t' ≠ t → (s'.lock = some t' ↔ s.lock = some t')) : ∀ t, (s'.pc t).critical = true ↔ s'.lock = some t := by
  intro t'
  rw [hpc]
  by_cases e : t' = t
  · subst e; rw [Function.update_self]; exact h1
  · rw [Function.update_of_ne e, h2 t' e]; exact hl t'

/-- Phase 3 is kept by any step to a harmless program counter. -/
theorem settled_goto {s s' : IdState T} {t : T} {p : PC} (h : ∀ t, (s.pc t).resetting = false ∧ s.pc t ≠ .storePid)
    (hpc : s'.pc = Function.update s.pc t p) (h1 : p.resetting = false ∧ p ≠ .storePid) :
    ∀ t, (s'.pc t).resetting = false ∧ s'.pc t ≠ .storePid := by
  intro t'
  rw [hpc]
  by_cases e : t' = t
  · subst e; rw [Function.update_self]; exact h1
  · rw [Function.update_of_ne e]; exact h t'

theorem early_goto {s s' : IdState T} {t : T} {p : PC} (h : ∀ t, (s.pc t).early = true)
    (hpc : s'.pc = Function.update s.pc t p) (h1 : p.early = true) : ∀ t, (s'.pc t).early = true := by
  intro t'
  rw [hpc]
  by_cases e : t' = t
  · subst e; rw [Function.update_self]; exact h1
  · rw [Function.update_of_ne e]; exact h t'

/-- Steps in phase 1. -/
theorem inv_early (pid : Int) (s : IdState T) (hl : ∀ t, (s.pc t).critical = true ↔ s.lock = some t)
    (hc : Counted 0 s) (h1 : s.lastPid ≠ pid) (h2 : s.major = 0) (h3 : s.issued = [])
    (h4 : ∀ t, (s.pc t).early = true) (t : T) (hash : Nat) : IdInv pid 0 (s.step pid t hash) := by
  have ht := h4 t
  have hlt := hl t
  have hne : pid ≠ s.lastPid := fun e => h1 e.symm
  cases hpc : s.pc t <;> rw [hpc] at ht hlt <;> simp only [PC.early, PC.critical] at ht hlt <;> try contradiction
  · have e : s.step pid t hash = s.goto t .loadPid := by simp [IdState.step, hpc]
    rw [e]
    exact ⟨locked_goto hl rfl (by simpa [PC.critical, IdState.goto] using hlt) (fun _ _ => Iff.rfl), counted_congr hc rfl rfl,
      Or.inl ⟨h1, h2, rfl, h3, early_goto h4 rfl rfl⟩⟩
  · have e : s.step pid t hash = s.goto t .lockA := by simp [IdState.step, hpc, hne]
    rw [e]
    exact ⟨locked_goto hl rfl (by simpa [PC.critical, IdState.goto] using hlt) (fun _ _ => Iff.rfl), counted_congr hc rfl rfl,
      Or.inl ⟨h1, h2, rfl, h3, early_goto h4 rfl rfl⟩⟩
  · cases hk : s.lock with
    | none =>
      have e : s.step pid t hash = { s with lock := some t }.goto t .reloadPid := by simp [IdState.step, hpc, hk]
      rw [e]
      refine ⟨locked_goto hl rfl (by simp [PC.critical, IdState.goto]) ?_, counted_congr hc rfl rfl,
        Or.inl ⟨h1, h2, rfl, h3, early_goto h4 rfl rfl⟩⟩
      intro t' e'; simp [IdState.goto, hk, Ne.symm e']
    | some u =>
      have e : s.step pid t hash = s := by simp [IdState.step, hpc, hk]
      rw [e]
      exact ⟨hl, hc, Or.inl ⟨h1, h2, rfl, h3, h4⟩⟩
  · have e : s.step pid t hash = s.goto t .storePid := by simp [IdState.step, hpc, hne]
    rw [e]
    exact ⟨locked_goto hl rfl (by simpa [PC.critical, IdState.goto] using hlt) (fun _ _ => Iff.rfl), counted_congr hc rfl rfl,
      Or.inl ⟨h1, h2, rfl, h3, early_goto h4 rfl rfl⟩⟩
  · have e : s.step pid t hash = { s with lastPid := pid }.goto t .clearMajor := by simp [IdState.step, hpc]
    rw [e]
    refine ⟨locked_goto hl rfl (by simpa [PC.critical, IdState.goto] using hlt) (fun _ _ => Iff.rfl), counted_congr hc rfl rfl,
      Or.inr (Or.inl ⟨rfl, h2, rfl, h3, t, by simp [IdState.goto, PC.resetting], ?_⟩)⟩
    intro t' e'
    have hlk : s.lock = some t := by simpa using hlt
    have hcr : ¬ (s.pc t').critical = true := by rw [hl t', hlk]; simpa using Ne.symm e'
    have he := h4 t'
    simp only [IdState.goto, Function.update_of_ne e']
    cases hq : s.pc t' <;> simp [hq, PC.critical, PC.early, PC.waiting] at *

/-- Steps in phase 2. -/
theorem inv_reset (pid : Int) (s : IdState T) (hl : ∀ t, (s.pc t).critical = true ↔ s.lock = some t)
    (hc : Counted 0 s) (h1 : s.lastPid = pid) (h2 : s.major = 0) (h3 : s.issued = []) (r : T)
    (h4 : (s.pc r).resetting = true) (h5 : ∀ t', t' ≠ r → (s.pc t').waiting = true) (t : T) (hash : Nat) :
    IdInv pid 0 (s.step pid t hash) := by
  have hm : s.minor = 0 := by have := hc.1; rw [h3] at this; simpa using this
  have hlt := hl t
  have hlk : s.lock = some r := (hl r).1 (by cases hq : s.pc r <;> simp [hq, PC.resetting, PC.critical] at *)
  by_cases e : t = r
  · subst e
    cases hpc : s.pc t <;> rw [hpc] at h4 hlt <;> simp only [PC.resetting, PC.critical] at h4 hlt <;> try contradiction
    · have e : s.step pid t hash = { s with major := 0 }.goto t .clearMinor := by simp [IdState.step, hpc]
      rw [e]
      refine ⟨locked_goto hl rfl (by simpa [PC.critical, IdState.goto] using hlt) (fun _ _ => Iff.rfl), counted_congr hc rfl rfl,
        Or.inr (Or.inl ⟨h1, rfl, rfl, h3, t, by simp [IdState.goto, PC.resetting], ?_⟩)⟩
      intro t' e'
      simp only [IdState.goto, Function.update_of_ne e']; exact h5 t' e'
    · have e : s.step pid t hash = { s with minor := 0 }.goto t .unlockA := by simp [IdState.step, hpc]
      rw [e]
      refine ⟨locked_goto hl rfl (by simpa [PC.critical, IdState.goto] using hlt) (fun _ _ => Iff.rfl), counted_congr hc hm.symm rfl,
        Or.inr (Or.inr ⟨h1, ?_⟩)⟩
      intro t'
      by_cases e' : t' = t
      · subst e'; simp [IdState.goto, PC.resetting]
      · have := h5 t' e'
        simp only [IdState.goto, Function.update_of_ne e']
        cases hq : s.pc t' <;> simp [hq, PC.resetting, PC.waiting] at *
  · have hw := h5 t e
    have keep : ∀ p : PC, p.waiting = true → p.critical = false → IdInv pid 0 (s.goto t p) := by
      intro p hp hpcr
      refine ⟨locked_goto hl rfl ?_ (fun _ _ => Iff.rfl), counted_congr hc rfl rfl,
        Or.inr (Or.inl ⟨h1, h2, rfl, h3, r, ?_, ?_⟩)⟩
      · rw [hpcr]
        show false = true ↔ s.lock = some t
        rw [hlk]; simpa using Ne.symm e
      · simp only [IdState.goto, Function.update_of_ne (Ne.symm e)]; exact h4
      · intro t' e'
        by_cases e2 : t' = t
        · subst e2; simp [IdState.goto, hp]
        · simp only [IdState.goto, Function.update_of_ne e2]; exact h5 t' e'
    have stay : IdInv pid 0 s := ⟨hl, hc, Or.inr (Or.inl ⟨h1, h2, rfl, h3, r, h4, h5⟩)⟩
    cases hpc : s.pc t <;> rw [hpc] at hw <;> simp only [PC.waiting] at hw <;> try contradiction
    · have e : s.step pid t hash = s.goto t .loadPid := by simp [IdState.step, hpc]
      rw [e]; exact keep _ rfl rfl
    · have e : s.step pid t hash = s.goto t .loadMajor := by simp [IdState.step, hpc, h1]
      rw [e]; exact keep _ rfl rfl
    · have e : s.step pid t hash = s := by simp [IdState.step, hpc, hlk]
      rw [e]; exact stay
    · have e : s.step pid t hash = s.goto t .lockB := by simp [IdState.step, hpc, h2]
      rw [e]; exact keep _ rfl rfl
    · have e : s.step pid t hash = s := by simp [IdState.step, hpc, hlk]
      rw [e]; exact stay

/-- Steps in phase 3. -/
theorem inv_settled (pid : Int) (start : BitVec 32) (s : IdState T)
    (hl : ∀ t, (s.pc t).critical = true ↔ s.lock = some t) (hc : Counted start s) (h1 : s.lastPid = pid)
    (h2 : ∀ t, (s.pc t).resetting = false ∧ s.pc t ≠ .storePid) (t : T) (hash : Nat) :
    IdInv pid start (s.step pid t hash) := by
  have hlt := hl t
  have h2t := h2 t
  -- a step that neither touches the lock nor the counter
  have keep : ∀ (s' : IdState T) (p : PC), s'.pc = Function.update s.pc t p → s'.lock = s.lock → s'.minor = s.minor →
      s'.issued = s.issued → s'.lastPid = pid → p.critical = (s.pc t).critical → p.resetting = false → p ≠ .storePid →
      IdInv pid start s' := by
    intro s' p e1 e2 e3 e4 e5 e6 e7 e8
    refine ⟨locked_goto hl e1 ?_ (fun _ _ => by rw [e2]), counted_congr hc e3 e4,
      Or.inr (Or.inr ⟨e5, settled_goto h2 e1 ⟨e7, e8⟩⟩)⟩
    rw [e2, e6]; exact hlt
  have keep' : ∀ p : PC, s.step pid t hash = s.goto t p → p.critical = (s.pc t).critical → p.resetting = false →
      p ≠ .storePid → IdInv pid start (s.step pid t hash) := by
    intro p e e1 e2 e3
    rw [e]; exact keep _ p rfl rfl rfl rfl h1 e1 e2 e3
  have take : ∀ p : PC, p.critical = true → p.resetting = false → p ≠ .storePid → s.lock = none →
      IdInv pid start ({ s with lock := some t }.goto t p) := by
    intro p e6 e7 e8 hk
    refine ⟨locked_goto hl rfl (by simp [e6, IdState.goto]) ?_, counted_congr hc rfl rfl,
      Or.inr (Or.inr ⟨h1, settled_goto h2 rfl ⟨e7, e8⟩⟩)⟩
    intro t' e'; simp [IdState.goto, hk, Ne.symm e']
  have release : ∀ p : PC, p.critical = false → p.resetting = false → p ≠ .storePid → s.lock = some t →
      IdInv pid start ({ s with lock := none }.goto t p) := by
    intro p e6 e7 e8 hk
    refine ⟨locked_goto hl rfl (by simp [e6, IdState.goto]) ?_, counted_congr hc rfl rfl,
      Or.inr (Or.inr ⟨h1, settled_goto h2 rfl ⟨e7, e8⟩⟩)⟩
    intro t' e'; simp [IdState.goto, hk, Ne.symm e']
  have stay : IdInv pid start s := ⟨hl, hc, Or.inr (Or.inr ⟨h1, h2⟩)⟩
  cases hpc : s.pc t with
  | idle => exact keep' .loadPid (by simp [IdState.step, hpc]) (by rw [hpc]; rfl) rfl (by simp)
  | loadPid => exact keep' .loadMajor (by simp [IdState.step, hpc, h1]) (by rw [hpc]; rfl) rfl (by simp)
  | lockA =>
    cases hk : s.lock with
    | none =>
      have e : s.step pid t hash = { s with lock := some t }.goto t .reloadPid := by simp [IdState.step, hpc, hk]
      rw [e]; exact take _ rfl rfl (by simp) hk
    | some u => rw [show s.step pid t hash = s by simp [IdState.step, hpc, hk]]; exact stay
  | reloadPid => exact keep' .unlockA (by simp [IdState.step, hpc, h1]) (by rw [hpc]; rfl) rfl (by simp)
  | storePid => exact absurd hpc h2t.2
  | clearMajor => rw [hpc] at h2t; simp [PC.resetting] at h2t
  | clearMinor => rw [hpc] at h2t; simp [PC.resetting] at h2t
  | unlockA =>
    rw [show s.step pid t hash = { s with lock := none }.goto t .loadMajor by simp [IdState.step, hpc]]
    exact release _ rfl rfl (by simp) (hlt.1 (by rw [hpc]; rfl))
  | loadMajor =>
    by_cases hm : s.major = 0
    · exact keep' .lockB (by simp [IdState.step, hpc, hm]) (by rw [hpc]; rfl) rfl (by simp)
    · exact keep' .readMajor (by simp [IdState.step, hpc, hm]) (by rw [hpc]; rfl) rfl (by simp)
  | lockB =>
    cases hk : s.lock with
    | none =>
      have e : s.step pid t hash = { s with lock := some t }.goto t .reloadMajor := by simp [IdState.step, hpc, hk]
      rw [e]; exact take _ rfl rfl (by simp) hk
    | some u => rw [show s.step pid t hash = s by simp [IdState.step, hpc, hk]]; exact stay
  | reloadMajor =>
    by_cases hm : s.major = 0
    · exact keep' .storeMajor (by simp [IdState.step, hpc, hm]) (by rw [hpc]; rfl) rfl (by simp)
    · exact keep' .unlockB (by simp [IdState.step, hpc, hm]) (by rw [hpc]; rfl) rfl (by simp)
  | storeMajor =>
    rw [show s.step pid t hash = { s with major := hash }.goto t .unlockB by simp [IdState.step, hpc]]
    exact keep _ .unlockB rfl rfl rfl rfl h1 (by rw [hpc]; rfl) rfl (by simp)
  | unlockB =>
    rw [show s.step pid t hash = { s with lock := none }.goto t .readMajor by simp [IdState.step, hpc]]
    exact release _ rfl rfl (by simp) (hlt.1 (by rw [hpc]; rfl))
  | readMajor => exact keep' (.fetchMinor s.major) (by simp [IdState.step, hpc]) (by rw [hpc]; rfl) rfl (by simp)
  | fetchMinor m =>
    have e : s.step pid t hash =
        { s with minor := s.minor + 1, issued := s.issued ++ [ParticleID.mk true m s.minor.toInt] }.goto t
          .idle := by simp [IdState.step, hpc]
    rw [e]
    refine ⟨locked_goto hl rfl ?_ (fun _ _ => Iff.rfl), ⟨?_, ?_⟩, Or.inr (Or.inr ⟨h1, settled_goto h2 rfl ⟨rfl, by simp⟩⟩)⟩
    · have := hlt; rw [hpc] at this; simpa [PC.critical, IdState.goto] using this
    · simp only [IdState.goto, List.length_append, List.length_singleton]
      rw [hc.1, BitVec.add_assoc]
      congr 1
      simp [BitVec.ofNat_add]
    · intro i id hi
      simp only [IdState.goto] at hi
      by_cases hlt : i < s.issued.length
      · rw [List.getElem?_append_left hlt] at hi; exact hc.2 i id hi
      · rw [List.getElem?_append_right (by omega)] at hi
        have : i = s.issued.length := by
          by_contra hne
          rw [List.getElem?_eq_none (by simp; omega)] at hi
          simp at hi
        subst this
        simp only [Nat.sub_self, List.getElem?_cons_zero, Option.some.injEq] at hi
        subst hi
        exact ⟨rfl, by rw [hc.1]⟩

theorem inv_step (pid : Int) (start : BitVec 32) (s : IdState T) (h : IdInv pid start s) (t : T) (hash : Nat) :
    IdInv pid start (s.step pid t hash) := by
  obtain ⟨hl, hc, ⟨h1, h2, rfl, h3, h4⟩ | ⟨h1, h2, rfl, h3, r, h4, h5⟩ | ⟨h1, h2⟩⟩ := h
  · exact inv_early pid s hl hc h1 h2 h3 h4 t hash
  · exact inv_reset pid s hl hc h1 h2 h3 r h4 h5 t hash
  · exact inv_settled pid start s hl hc h1 h2 t hash

theorem inv_run (pid : Int) (start : BitVec 32) (schedule : List (T × Nat)) : ∀ s : IdState T, IdInv pid start s →
    IdInv pid start (s.run pid schedule) := by
  induction schedule with
  | nil => intro s h; exact h
  | cons x xs ih => intro s h; exact ih _ (inv_step pid start s h x.1 x.2)

omit [DecidableEq T] in
theorem unique_of_counted {start : BitVec 32} {s : IdState T} (h : Counted start s) (hlen : s.issued.length ≤ 2 ^ 32) :
    s.issued.Nodup ∧ ∀ id ∈ s.issued, id.set = true := by
  constructor
  · rw [List.nodup_iff_getElem?_ne_getElem?]
    intro i j hij hj e
    have hi : i < s.issued.length := by omega
    have e1 := (h.2 i _ (List.getElem?_eq_getElem hi)).2
    have e2 := (h.2 j _ (List.getElem?_eq_getElem hj)).2
    rw [List.getElem?_eq_getElem hi, List.getElem?_eq_getElem hj, Option.some.injEq] at e
    rw [e, e2] at e1
    have e3 := BitVec.toInt_inj.1 e1
    have e4 := congrArg BitVec.toNat ((BitVec.add_right_inj start).1 e3)
    simp only [BitVec.toNat_ofNat] at e4
    rw [Nat.mod_eq_of_lt (by omega), Nat.mod_eq_of_lt (by omega)] at e4
    omega
  · intro id hid
    obtain ⟨i, hi⟩ := List.mem_iff_getElem?.1 hid
    exact (h.2 i id hi).1

/-- C04: in a newly started process, whatever the number of threads and however the atomic steps of their calls interleave,
the identifiers returned are pairwise different and marked as set, up to 2^32 of them. (`pid` is never 0.) -/
theorem C04_unique (pid : Int) (hpid : pid ≠ 0) (schedule : List (T × Nat))
    (hlen : ((IdState.fresh T).run pid schedule).issued.length ≤ 2 ^ 32) :
    ((IdState.fresh T).run pid schedule).issued.Nodup ∧
    ∀ id ∈ ((IdState.fresh T).run pid schedule).issued, id.set = true := by
  refine unique_of_counted (start := 0) (inv_run pid 0 schedule _ ⟨?_, ⟨?_, ?_⟩, Or.inl ⟨?_, rfl, rfl, rfl, ?_⟩⟩).counted hlen
  · intro t; simp [IdState.fresh, PC.critical]
  · simp [IdState.fresh]
  · intro i id h; simp [IdState.fresh] at h
  · exact fun e => hpid e.symm
  · intro t; rfl

/-- C04: the same for a process (also a forked child) that has made its first call before starting further threads. -/
theorem C04_unique_settled (pid : Int) (major : Nat) (minor : BitVec 32) (schedule : List (T × Nat))
    (hlen : ((IdState.settled (T := T) pid major minor).run pid schedule).issued.length ≤ 2 ^ 32) :
    ((IdState.settled (T := T) pid major minor).run pid schedule).issued.Nodup ∧
    ∀ id ∈ ((IdState.settled (T := T) pid major minor).run pid schedule).issued, id.set = true := by
  refine unique_of_counted (start := minor)
    (inv_run pid minor schedule _ ⟨?_, ⟨?_, ?_⟩, Or.inr (Or.inr ⟨rfl, ?_⟩)⟩).counted hlen
  · intro t; simp [IdState.settled, PC.critical]
  · simp [IdState.settled]
  · intro i id h; simp [IdState.settled] at h
  · intro t; simp [IdState.settled, PC.resetting]

/-- A call running alone to its end. -/
def alone (t : T) (hash : Nat) : List (T × Nat) := List.replicate 15 (t, hash)

/-- A forked child inherits the parent's memory. If its first call runs alone, it draws a new major part and number 0. -/
theorem first_call (pid parent : Int) (hp : pid ≠ parent) (major : Nat) (minor : BitVec 32) (t : T) (hash : Nat) :
    (IdState.settled (T := T) parent major minor).run pid (alone t hash) =
      { lastPid := pid, major := hash, minor := 1, lock := none, pc := fun _ => .idle, issued := [⟨true, hash, 0⟩] } := by
  simp [alone, IdState.run, List.replicate, IdState.step, IdState.settled, IdState.goto, Function.update_self,
    Function.update_idem, hp]

/-- C04: in a forked child, the identifiers are pairwise different if the child's first call is over before others start. -/
theorem C04_unique_after_fork (pid parent : Int) (hp : pid ≠ parent) (major : Nat) (minor : BitVec 32) (t : T) (hash : Nat)
    (schedule : List (T × Nat))
    (hlen : ((IdState.settled (T := T) parent major minor).run pid (alone t hash ++ schedule)).issued.length ≤ 2 ^ 32) :
    ((IdState.settled (T := T) parent major minor).run pid (alone t hash ++ schedule)).issued.Nodup ∧
    ∀ id ∈ ((IdState.settled (T := T) parent major minor).run pid (alone t hash ++ schedule)).issued, id.set = true := by
  have e : (IdState.settled (T := T) parent major minor).run pid (alone t hash ++ schedule) =
      ((IdState.settled (T := T) parent major minor).run pid (alone t hash)).run pid schedule := by
    simp [IdState.run, List.foldl_append]
  rw [e] at hlen ⊢
  rw [first_call pid parent hp major minor t hash] at hlen ⊢
  refine unique_of_counted (start := 0) (inv_run pid 0 schedule _ ⟨?_, ⟨?_, ?_⟩, Or.inr (Or.inr ⟨rfl, ?_⟩)⟩).counted hlen
  · intro t; simp [PC.critical]
  · simp
  · intro i id h
    cases i with
    | zero => simp at h; subst h; simp
    | succ i => simp at h
  · intro t; simp [PC.resetting]

/-- C04: if a forked child makes its first calls concurrently, two of its threads can obtain the same identifier: the stored
process id is updated before the counters are reset, so other threads go on with the inherited counters. Threads 1 and 2
both return major part 0 and number 1. -/
theorem C04_fork_then_threads_fails :
    ∃ schedule : List (Fin 3 × Nat),
      ¬ ((IdState.settled (T := Fin 3) 1 9 1).run 2 schedule).issued.Nodup ∧
      ((IdState.settled (T := Fin 3) 1 9 1).run 2 schedule).issued = [⟨true, 0, 1⟩, ⟨true, 5, 0⟩, ⟨true, 0, 1⟩] := by
  refine ⟨List.replicate 5 (0, 5) ++ List.replicate 3 (1, 5) ++ List.replicate 3 (2, 5) ++ [(0, 5), (1, 5), (2, 5), (2, 5)] ++
    List.replicate 9 (0, 5) ++ [(1, 5)], ?_, ?_⟩ <;> decide +kernel

/-- C04: likewise a child's thread can return an identifier that the parent returns as well. -/
theorem C04_parent_and_child_fails :
    ∃ (schedule : List (Fin 2 × Nat)) (id : ParticleID),
      id ∈ ((IdState.settled (T := Fin 2) 1 9 1).run 2 schedule).issued ∧
      id ∈ ((IdState.settled (T := Fin 2) 1 9 1).run 1 (alone 0 5)).issued := by
  refine ⟨List.replicate 5 (0, 5) ++ List.replicate 5 (1, 5), ⟨true, 9, 1⟩, ?_, ?_⟩ <;> decide +kernel

/-- The hypotheses are met by interleaved calls: three threads draw identifiers concurrently. -/
example : ((IdState.fresh (Fin 3)).run 7 ((List.replicate 40 [((0 : Fin 3), 5), (1, 5), (2, 5)]).flatten)).issued.length = 14 := by
  decide +kernel

end Siren.Records
