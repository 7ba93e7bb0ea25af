import Verif.Detector.MaterialCodeProps
import Mathlib.Data.List.Induction
import Mathlib.Algebra.Order.BigOperators.Group.List
import Mathlib.Data.List.Nodup
import Mathlib.Data.Rat.Defs
import Mathlib.Algebra.Order.Ring.Rat
import Mathlib.Tactic.NormNum
import Mathlib.Tactic.Linarith

set_option autoImplicit false

/-! # C32 and C64: material compositions and radiation lengths -/

namespace Siren.Detector

open Siren

/-! ### Specification -/

/-- A nucleus with strangeness `L`, charge number `Z`, mass number `A` and isomer level `I`. -/
structure Nucleus where
  L : Nat
  Z : Nat
  A : Nat
  I : Nat
  hL : L ≤ 9
  hZ : Z ≤ 999
  hA : A ≤ 999
  hI : I ≤ 9

/-- Its code. -/
def Nucleus.code (n : Nucleus) : Int := nuclearCode n.L n.Z n.A n.I

/-- Its content. -/
def Nucleus.content (n : Nucleus) : Content := { strange := n.L, proton := n.Z, nucleon := n.A, neutron := (n.A : Int) - n.Z - n.L }

variable {K : Type} [Field K] [LinearOrder K]

/-- The `std::map` of a composition. -/
def toMap (comp : List (Nucleus × K)) : List (Int × K) := comp.map fun p => (p.1.code, p.2)

/-- A composition of different nuclei, with non-zero masses. -/
structure Valid (M : Masses K) (comp : List (Nucleus × K)) : Prop where
  distinct : (comp.map fun p => p.1.code).Nodup
  mass : ∀ p ∈ comp, M.nucleus p.1.content ≠ 0

/-- How many of something (per atomic mass unit of material) the nuclei contain in total. -/
def total (M : Masses K) (count : Nucleus → Int) (comp : List (Nucleus × K)) : K :=
  (comp.map fun p => p.2 / M.nucleus p.1.content * (count p.1 : K)).sum

/-- The number of neutrons. -/
def neutrons (M : Masses K) (comp : List (Nucleus × K)) : K := total M (fun n => (n.A : Int) - n.Z - n.L) comp
/-- The number of nucleons. -/
def nucleons (M : Masses K) (comp : List (Nucleus × K)) : K := total M (fun n => (n.A : Int)) comp
/-- The number of protons, which is also that of electrons. -/
def protons (M : Masses K) (comp : List (Nucleus × K)) : K := total M (fun n => (n.Z : Int)) comp

/-- A derived component counts when it is positive. -/
def pos (x : K) : K := if x > 0 then x else 0

/-- The mass fraction every target should have. -/
def expectedMass (M : Masses K) (comp : List (Nucleus × K)) (t : Int) : K :=
  if t = 2112 then pos (neutrons M comp) * M.neutron
  else if t = 2000002112 then pos (nucleons M comp) * ((M.neutron + M.hydrogen) / 2)
  else if t = 2212 then pos (protons M comp) * M.hydrogen
  else if t = 11 then pos (protons M comp) * M.electron
  else match comp.find? (fun p => p.1.code = t) with
    | some p => p.2
    | none => 0

/-- The number of particles per gram every target should have. -/
def expectedParticles (M : Masses K) (comp : List (Nucleus × K)) (t : Int) : K :=
  if t = 2112 then pos (neutrons M comp) * M.avogadro
  else if t = 2000002112 then pos (nucleons M comp) * M.avogadro
  else if t = 2212 then pos (protons M comp) * M.avogadro
  else if t = 11 then pos (protons M comp) * M.avogadro
  else match comp.find? (fun p => p.1.code = t) with
    | some p => M.avogadro * p.2 / M.nucleus p.1.content
    | none => 0

/-- The targets a material should have. -/
def expectedTargets (M : Masses K) (comp : List (Nucleus × K)) : List Int :=
  comp.map (fun p => p.1.code) ++ (if neutrons M comp > 0 then [2112] else []) ++ (if nucleons M comp > 0 then [2000002112] else [])
    ++ (if protons M comp > 0 then [2212, 11] else [])

/-- The names in the order in which they first appear. -/
def firstNames (h : List (String × List (Int × K))) : List String :=
  h.foldl (fun acc a => if a.1 ∈ acc then acc else acc ++ [a.1]) []

/-! ### The list of components -/

theorem mk_nucleus (M : Masses K) (n : Nucleus) :
    (mkComponent M n.code).content = n.content ∧ (mkComponent M n.code).molar = M.nucleus n.content ∧ (mkComponent M n.code).isAtom = true :=
  (C33_component M).1 n.hL n.hZ n.hA n.hI

omit [LinearOrder K] in
theorem mk_type (M : Masses K) (t : Int) : (mkComponent M t).type = t := by
  unfold mkComponent
  split
  · rfl
  · split
    · rfl
    · split
      · rfl
      · split
        · rfl
        · cases getNucleonContent t <;> rfl

theorem code_ne (n : Nucleus) : n.code ≠ 2112 ∧ n.code ≠ 2000002112 ∧ n.code ≠ 2212 ∧ n.code ≠ 11 := by
  have h1 := n.hL
  have h2 := n.hZ
  have h3 := n.hA
  have h4 := n.hI
  unfold Nucleus.code nuclearCode
  omega

theorem perAmu_total (M : Masses K) (count : Content → Int) (count' : Nucleus → Int) (hc : ∀ n, count n.content = count' n)
    {comp : List (Nucleus × K)} (hM : ∀ p ∈ comp, M.nucleus p.1.content ≠ 0) :
    perAmu M count (toMap comp) = some (total M count' comp) := by
  have key : ∀ (l : List (Nucleus × K)) (acc : K), (∀ p ∈ l, M.nucleus p.1.content ≠ 0) →
      (toMap l).foldl (fun acc p => fadd acc ((fdiv p.2 (mkComponent M p.1).molar).map fun x =>
        x * (count (mkComponent M p.1).content : K))) (some acc) = some (acc + total M count' l) := by
    intro l
    induction l with
    | nil => intro acc _; simp [toMap, total]
    | cons p l ih =>
      intro acc hl
      have hp := mk_nucleus M p.1
      have h0 := hl p (by simp)
      have : toMap (p :: l) = (p.1.code, p.2) :: toMap l := rfl
      rw [this, List.foldl_cons]
      simp only [hp.1, hp.2.1, fdiv, if_neg h0, Option.map_some, fadd, Option.bind_some, hc]
      have := ih (acc + p.2 / M.nucleus p.1.content * (count' p.1 : K)) (fun q hq => hl q (by simp [hq]))
      simp only [fdiv, fadd] at this
      rw [this]
      simp [total, add_assoc]
  have := key comp 0 hM
  unfold perAmu
  rw [this, zero_add]

theorem components_eq (M : Masses K) {comp : List (Nucleus × K)} (hM : ∀ p ∈ comp, M.nucleus p.1.content ≠ 0) :
    materialComponents M (toMap comp) = (toMap comp).map (suppliedComp M)
      ++ (if neutrons M comp > 0 then [derivedComp M pdgNeutron (neutrons M comp)] else [])
      ++ (if nucleons M comp > 0 then [derivedComp M pdgNucleon (nucleons M comp)] else [])
      ++ (if protons M comp > 0 then [derivedComp M pdgProton (protons M comp), derivedComp M pdgElectron (protons M comp)] else []) := by
  unfold materialComponents
  rw [perAmu_total M _ (fun n => (n.A : Int) - n.Z - n.L) (fun _ => rfl) hM, perAmu_total M _ (fun n => (n.A : Int)) (fun _ => rfl) hM,
    perAmu_total M _ (fun n => (n.Z : Int)) (fun _ => rfl) hM]
  rfl

theorem types_eq (M : Masses K) {comp : List (Nucleus × K)} (hM : ∀ p ∈ comp, M.nucleus p.1.content ≠ 0) :
    (materialComponents M (toMap comp)).map (·.component.type) = expectedTargets M comp := by
  rw [components_eq M hM]
  unfold expectedTargets
  simp only [List.map_append]
  congr 1
  · congr 1
    · congr 1
      · simp [toMap, suppliedComp, mk_type]
      · split <;> simp [derivedComp, mk_type, pdgNeutron]
    · split <;> simp [derivedComp, mk_type, pdgNucleon]
  · split <;> simp [derivedComp, mk_type, pdgProton, pdgElectron]

theorem types_nodup (M : Masses K) {comp : List (Nucleus × K)} (h : Valid M comp) : (expectedTargets M comp).Nodup := by
  have hc : ∀ t ∈ comp.map (fun p => p.1.code), t ≠ 2112 ∧ t ≠ 2000002112 ∧ t ≠ 2212 ∧ t ≠ 11 := by
    intro t ht
    obtain ⟨p, -, rfl⟩ := List.mem_map.1 ht
    exact code_ne p.1
  have hn := h.distinct
  unfold expectedTargets
  generalize comp.map (fun p => p.1.code) = l at hc hn
  split <;> split <;> split <;> simp [List.nodup_append, hn] <;> (try intro a ha) <;> (try have := hc a ha) <;> (try constructor) <;> grind

omit [Field K] [LinearOrder K] in
theorem find_of_mem {comp : List (Nucleus × K)} (hn : (comp.map fun p => p.1.code).Nodup) {p : Nucleus × K} (hp : p ∈ comp) :
    comp.find? (fun q => q.1.code = p.1.code) = some p := by
  induction comp with
  | nil => simp at hp
  | cons q l ih =>
    simp only [List.map_cons, List.nodup_cons] at hn
    rcases List.mem_cons.1 hp with rfl | hp
    · simp
    · have : q.1.code ≠ p.1.code := by
        intro e
        exact hn.1 (e ▸ List.mem_map.2 ⟨p, hp, rfl⟩)
      rw [List.find?_cons_of_neg (by simpa using this)]
      exact ih hn.2 hp

/-- Every entry of the list is as expected. -/
theorem entry_expected (M : Masses K) {comp : List (Nucleus × K)} (h : Valid M comp) {c : MatComp K}
    (hc : c ∈ materialComponents M (toMap comp)) :
    c.mass = expectedMass M comp c.component.type ∧ c.particles = some (expectedParticles M comp c.component.type) := by
  rw [components_eq M h.mass] at hc
  simp only [List.mem_append] at hc
  rcases hc with ((hc | hc) | hc) | hc
  · obtain ⟨q, hq, rfl⟩ := List.mem_map.1 hc
    obtain ⟨p, hp, rfl⟩ := List.mem_map.1 hq
    obtain ⟨n1, n2, n3, n4⟩ := code_ne p.1
    have hf := find_of_mem h.distinct hp
    simp only [suppliedComp, mk_type, expectedMass, expectedParticles, if_neg n1, if_neg n2, if_neg n3, if_neg n4, hf, (mk_nucleus M p.1).2.1,
      fdiv, if_neg (h.mass p hp), and_self]
  · split at hc
    · rename_i hpos
      simp only [List.mem_singleton] at hc
      subst hc
      simp [derivedComp, pdgNeutron, expectedMass, expectedParticles, pos, if_pos hpos, mkComponent, pdgProton]
    · simp at hc
  · split at hc
    · rename_i hpos
      simp only [List.mem_singleton] at hc
      subst hc
      simp [derivedComp, pdgNucleon, pdgNeutron, expectedMass, expectedParticles, pos, if_pos hpos, mkComponent, pdgProton]
    · simp at hc
  · split at hc
    · rename_i hpos
      simp only [List.mem_cons, List.not_mem_nil, or_false] at hc
      rcases hc with rfl | rfl
      · simp [derivedComp, pdgProton, expectedMass, expectedParticles, pos, if_pos hpos, mkComponent]
      · simp [derivedComp, pdgElectron, pdgNeutron, pdgNucleon, pdgProton, expectedMass, expectedParticles, pos, if_pos hpos, mkComponent]
    · simp at hc

/-- What is not a target counts for nothing. -/
theorem absent_expected (M : Masses K) {comp : List (Nucleus × K)} {t : Int} (ht : t ∉ expectedTargets M comp) :
    expectedMass M comp t = 0 ∧ expectedParticles M comp t = 0 := by
  unfold expectedTargets at ht
  simp only [List.mem_append, not_or] at ht
  obtain ⟨⟨⟨h1, h2⟩, h3⟩, h4⟩ := ht
  unfold expectedMass expectedParticles
  by_cases e1 : t = 2112
  · subst e1
    have : ¬ neutrons M comp > 0 := by intro hp; simp [hp] at h2
    simp [pos, this]
  rw [if_neg e1, if_neg e1]
  by_cases e2 : t = 2000002112
  · subst e2
    have : ¬ nucleons M comp > 0 := by intro hp; simp [hp] at h3
    simp [pos, this]
  rw [if_neg e2, if_neg e2]
  by_cases e3 : t = 2212
  · subst e3
    have : ¬ protons M comp > 0 := by intro hp; simp [hp] at h4
    simp [pos, this]
  rw [if_neg e3, if_neg e3]
  by_cases e4 : t = 11
  · subst e4
    have : ¬ protons M comp > 0 := by intro hp; simp [hp] at h4
    simp [pos, this]
  rw [if_neg e4, if_neg e4]
  have : comp.find? (fun p => p.1.code = t) = none := by
    rw [List.find?_eq_none]
    intro p hp
    simp only [decide_eq_true_eq]
    intro e
    exact h1 (List.mem_map.2 ⟨p, hp, e⟩)
  rw [this]
  simp

/-! ### The maps -/

omit [Field K] [LinearOrder K] in
theorem insertAll_unchanged (id : Nat) (l : List (MatComp K)) {k : Nat} {t : Int} (h : k ≠ id ∨ t ∉ l.map (·.component.type)) :
    ∀ m, insertAll id l m k t = m k t := by
  induction l with
  | nil => intro m; rfl
  | cons c l ih =>
    intro m
    have h' : k ≠ id ∨ t ∉ l.map (·.component.type) := h.imp (fun h => h) (fun h hm => h (by simp at hm ⊢; exact Or.inr hm))
    show insertAll id l _ k t = _
    rw [ih h']
    rcases h with h | h
    · exact if_neg (by tauto)
    · simp only [List.map_cons, List.mem_cons, not_or] at h
      exact if_neg (by tauto)

omit [Field K] [LinearOrder K] in
theorem assignAll_unchanged (id : Nat) (l : List (MatComp K)) {k : Nat} {t : Int} (h : k ≠ id ∨ t ∉ l.map (·.component.type)) :
    ∀ m, assignAll id l m k t = m k t := by
  induction l with
  | nil => intro m; rfl
  | cons c l ih =>
    intro m
    have h' : k ≠ id ∨ t ∉ l.map (·.component.type) := h.imp (fun h => h) (fun h hm => h (by simp at hm ⊢; exact Or.inr hm))
    show assignAll id l _ k t = _
    rw [ih h']
    rcases h with h | h
    · exact if_neg (by tauto)
    · simp only [List.map_cons, List.mem_cons, not_or] at h
      exact if_neg (by tauto)

omit [Field K] [LinearOrder K] in
theorem insertAll_keeps (id : Nat) (l : List (MatComp K)) {k : Nat} {t : Int} {c : MatComp K} : ∀ m, m k t = some c → insertAll id l m k t = some c := by
  induction l with
  | nil => intro m h; exact h
  | cons d l ih =>
    intro m h
    show insertAll id l _ k t = _
    apply ih
    exact (if_neg (by simp [h])).trans h

omit [Field K] [LinearOrder K] in
theorem insertAll_mem (id : Nat) (l : List (MatComp K)) (hn : (l.map (·.component.type)).Nodup) {c : MatComp K} (hc : c ∈ l) :
    ∀ m, m id c.component.type = none → insertAll id l m id c.component.type = some c := by
  induction l with
  | nil => simp at hc
  | cons d l ih =>
    intro m h
    simp only [List.map_cons, List.nodup_cons] at hn
    show insertAll id l _ id _ = _
    rcases List.mem_cons.1 hc with rfl | hc
    · apply insertAll_keeps
      exact if_pos ⟨rfl, rfl, h⟩
    · apply ih hn.2 hc
      have : c.component.type ≠ d.component.type := fun e => hn.1 (e ▸ List.mem_map.2 ⟨c, hc, rfl⟩)
      exact (if_neg (by tauto)).trans h

omit [Field K] [LinearOrder K] in
theorem assignAll_mem (id : Nat) (l : List (MatComp K)) (hn : (l.map (·.component.type)).Nodup) {c : MatComp K} (hc : c ∈ l) :
    ∀ m, assignAll id l m id c.component.type = some c := by
  induction l with
  | nil => simp at hc
  | cons d l ih =>
    intro m
    simp only [List.map_cons, List.nodup_cons] at hn
    show assignAll id l _ id _ = _
    rcases List.mem_cons.1 hc with rfl | hc
    · rw [assignAll_unchanged id l (Or.inr hn.1)]
      exact if_pos ⟨rfl, rfl⟩
    · exact ih hn.2 hc _

/-! ### Invariants -/

/-- The parts of the state agree with each other. -/
structure MatModel.WF (st : MatModel K) : Prop where
  ids : ∀ (n : String) (k : Nat), st.ids.lookup n = some k ↔ st.names[k]? = some n
  comps : st.components.length = st.names.length
  rad : st.radiation.length = st.names.length
  byId : ∀ (k : Nat) (t : Int), st.names.length ≤ k → st.byId k t = none

omit [Field K] [LinearOrder K] in
theorem wf_empty : (MatModel.empty : MatModel K).WF := ⟨by simp [MatModel.empty], rfl, rfl, fun _ _ _ => rfl⟩

theorem add_none (M : Masses K) {st : MatModel K} {n : String} (h : st.ids.lookup n = none) (comp : List (Int × K)) : st.add M n comp =
    { names := st.names ++ [n], ids := (n, st.names.length) :: st.ids,
      components := (st.components ++ [[]]).set st.names.length (materialComponents M comp),
      byId := insertAll st.names.length (materialComponents M comp) st.byId,
      radiation := st.radiation ++ [Detector.radiationLength M (materialComponents M comp)] } := by
  unfold MatModel.add
  rw [h]

theorem add_some (M : Masses K) {st : MatModel K} {n : String} {k : Nat} (h : st.ids.lookup n = some k) (comp : List (Int × K)) : st.add M n comp =
    { st with components := st.components.set k (materialComponents M comp), byId := assignAll k (materialComponents M comp) st.byId,
              radiation := st.radiation.set k (Detector.radiationLength M (materialComponents M comp)) } := by
  unfold MatModel.add
  rw [h]

omit [Field K] [LinearOrder K] in
theorem WF.mem_iff {st : MatModel K} (h : st.WF) (n : String) : st.ids.lookup n = none ↔ n ∉ st.names := by
  constructor
  · intro hn hm
    obtain ⟨k, hk, rfl⟩ := List.getElem_of_mem hm
    have := (h.ids st.names[k] k).2 (List.getElem?_eq_getElem hk)
    rw [hn] at this
    simp at this
  · intro hn
    cases hl : st.ids.lookup n with
    | none => rfl
    | some k => exact absurd (List.mem_of_getElem? ((h.ids n k).1 hl)) hn

theorem wf_add (M : Masses K) {st : MatModel K} (h : st.WF) (n : String) (comp : List (Int × K)) : (st.add M n comp).WF := by
  cases hl : st.ids.lookup n with
  | none =>
    rw [add_none M hl]
    have hmem := (WF.mem_iff h n).1 hl
    refine ⟨?_, ?_, ?_, ?_⟩
    · intro m k
      simp only
      by_cases hmn : m = n
      · subst hmn
        simp only [List.lookup, beq_self_eq_true, Option.some.injEq]
        constructor
        · rintro rfl; simp
        · intro hk
          by_cases hlt : k < st.names.length
          · rw [List.getElem?_append_left hlt] at hk
            exact absurd (List.mem_of_getElem? hk) hmem
          · rw [List.getElem?_append_right (by omega)] at hk
            have : k - st.names.length = 0 := by
              cases hd : k - st.names.length with
              | zero => rfl
              | succ j => rw [hd] at hk; simp at hk
            omega
      · have : (m == n) = false := by simpa using hmn
        simp only [List.lookup, this]
        rw [h.ids]
        by_cases hlt : k < st.names.length
        · rw [List.getElem?_append_left hlt]
        · rw [List.getElem?_append_right (by omega), List.getElem?_eq_none (by omega)]
          constructor
          · simp
          · intro hk
            cases hd : k - st.names.length with
            | zero => rw [hd] at hk; simp at hk; exact absurd hk.symm hmn
            | succ j => rw [hd] at hk; simp at hk
    · simp [h.comps]
    · simp [h.rad]
    · intro k t hk
      simp only [List.length_append, List.length_cons, List.length_nil] at hk
      simp only
      rw [insertAll_unchanged _ _ (Or.inl (by omega))]
      exact h.byId k t (by omega)
  | some k0 =>
    rw [add_some M hl]
    refine ⟨h.ids, by simp [h.comps], by simp [h.rad], ?_⟩
    intro k t hk
    have hk0 : k0 < st.names.length := (List.getElem?_eq_some_iff.1 ((h.ids n k0).1 hl)).1
    simp only
    rw [assignAll_unchanged _ _ (Or.inl (by simp only at hk; omega))]
    exact h.byId k t hk

theorem run_snoc (M : Masses K) (h : List (String × List (Int × K))) (a : String × List (Int × K)) :
    MatModel.run M (h ++ [a]) = (MatModel.run M h).add M a.1 a.2 := by
  simp [MatModel.run, List.foldl_append]

theorem wf_run (M : Masses K) (h : List (String × List (Int × K))) : (MatModel.run M h).WF := by
  induction h using List.reverseRecOn with
  | nil => exact wf_empty
  | append_singleton h a ih => rw [run_snoc]; exact wf_add M ih a.1 a.2

theorem names_run (M : Masses K) (h : List (String × List (Int × K))) : (MatModel.run M h).names = firstNames h := by
  induction h using List.reverseRecOn with
  | nil => rfl
  | append_singleton h a ih =>
    rw [run_snoc]
    have hf : firstNames (h ++ [a]) = if a.1 ∈ firstNames h then firstNames h else firstNames h ++ [a.1] := by
      unfold firstNames
      rw [List.foldl_append]
      rfl
    rw [hf, ← ih]
    cases hl : (MatModel.run M h).ids.lookup a.1 with
    | none =>
      rw [add_none M hl, if_neg ((WF.mem_iff (wf_run M h) a.1).1 hl)]
    | some k =>
      have : a.1 ∈ (MatModel.run M h).names := List.mem_of_getElem? (((wf_run M h).ids _ _).1 hl)
      rw [add_some M hl, if_pos this]

omit [Field K] [LinearOrder K] in
theorem mem_firstNames (h : List (String × List (Int × K))) : ∀ (n : String), n ∈ firstNames h ↔ n ∈ h.map (·.1) := by
  induction h using List.reverseRecOn with
  | nil => simp [firstNames]
  | append_singleton h a ih =>
    intro n
    have hf : firstNames (h ++ [a]) = if a.1 ∈ firstNames h then firstNames h else firstNames h ++ [a.1] := by
      unfold firstNames
      rw [List.foldl_append]
      rfl
    rw [hf, List.map_append, List.mem_append]
    split
    · rename_i hm
      rw [ih n]
      constructor
      · exact Or.inl
      · rintro (h' | h')
        · exact h'
        · simp only [List.map_cons, List.map_nil, List.mem_singleton] at h'
          rw [h']
          exact (ih a.1).1 hm
    · rw [List.mem_append, ih n]
      simp

/-- What is stored for a material comes from one of its compositions. -/
theorem byId_source (M : Masses K) (h : List (String × List (Int × K))) {k : Nat} {t : Int} {n : String}
    (hk : (MatModel.run M h).names[k]? = some n) (hb : (MatModel.run M h).byId k t ≠ none) :
    ∃ a ∈ h, a.1 = n ∧ t ∈ (materialComponents M a.2).map (·.component.type) := by
  induction h using List.reverseRecOn with
  | nil => exact absurd rfl hb
  | append_singleton h a ih =>
    have wf := wf_run M h
    rw [run_snoc] at hk hb
    by_cases hold : (MatModel.run M h).names[k]? = some n ∧ (MatModel.run M h).byId k t ≠ none
    · obtain ⟨b, hb', h1⟩ := ih hold.1 hold.2
      exact ⟨b, by simp [hb'], h1⟩
    cases hl : (MatModel.run M h).ids.lookup a.1 with
    | none =>
      rw [add_none M hl] at hk hb
      simp only at hk hb
      by_cases hch : k ≠ (MatModel.run M h).names.length ∨ t ∉ (materialComponents M a.2).map (·.component.type)
      · rw [insertAll_unchanged _ _ hch] at hb
        have hlt : k < (MatModel.run M h).names.length := by
          by_contra hc
          exact hb (wf.byId k t (by omega))
        rw [List.getElem?_append_left hlt] at hk
        exact absurd ⟨hk, hb⟩ hold
      · simp only [not_or, not_not] at hch
        refine ⟨a, by simp, ?_, hch.2⟩
        rw [hch.1] at hk
        simpa using hk
    | some k0 =>
      rw [add_some M hl] at hk hb
      simp only at hk hb
      by_cases hch : k ≠ k0 ∨ t ∉ (materialComponents M a.2).map (·.component.type)
      · rw [assignAll_unchanged _ _ hch] at hb
        exact absurd ⟨hk, hb⟩ hold
      · simp only [not_or, not_not] at hch
        refine ⟨a, by simp, ?_, hch.2⟩
        have := (wf.ids a.1 k0).1 hl
        rw [← hch.1, hk] at this
        exact (Option.some.inj this).symm

/-- Adding another material changes nothing about this one. -/
theorem add_other (M : Masses K) {st : MatModel K} (h : st.WF) {n m : String} (hne : m ≠ n) (comp : List (Int × K)) {k : Nat}
    (hk : st.ids.lookup n = some k) : (st.add M m comp).ids.lookup n = some k ∧ (st.add M m comp).names[k]? = st.names[k]? ∧
      (st.add M m comp).components[k]? = st.components[k]? ∧ (st.add M m comp).radiation[k]? = st.radiation[k]? ∧
      ∀ t, (st.add M m comp).byId k t = st.byId k t := by
  have hlt : k < st.names.length := (List.getElem?_eq_some_iff.1 ((h.ids n k).1 hk)).1
  cases hl : st.ids.lookup m with
  | none =>
    rw [add_none M hl]
    have : (n == m) = false := by simpa using Ne.symm hne
    refine ⟨by simp [List.lookup, this, hk], List.getElem?_append_left hlt, ?_, List.getElem?_append_left (by rw [h.rad]; exact hlt),
      fun t => insertAll_unchanged _ _ (Or.inl (by omega)) _⟩
    simp only
    rw [List.getElem?_set_ne (by omega), List.getElem?_append_left (by rw [h.comps]; exact hlt)]
  | some k0 =>
    rw [add_some M hl]
    have hkk : k ≠ k0 := by
      rintro rfl
      have h1 := (h.ids n k).1 hk
      have h2 := (h.ids m k).1 hl
      rw [h1] at h2
      exact hne (Option.some.inj h2).symm
    exact ⟨hk, rfl, List.getElem?_set_ne (Ne.symm hkk), List.getElem?_set_ne (Ne.symm hkk), fun t => assignAll_unchanged _ _ (Or.inl hkk) _⟩

/-- So does any number of other materials. -/
theorem run_others (M : Masses K) {n : String} (pre post : List (String × List (Int × K))) (hpost : ∀ a ∈ post, a.1 ≠ n) {k : Nat}
    (hk : (MatModel.run M pre).ids.lookup n = some k) :
    (MatModel.run M (pre ++ post)).ids.lookup n = some k ∧ (MatModel.run M (pre ++ post)).names[k]? = (MatModel.run M pre).names[k]? ∧
      (MatModel.run M (pre ++ post)).components[k]? = (MatModel.run M pre).components[k]? ∧
      (MatModel.run M (pre ++ post)).radiation[k]? = (MatModel.run M pre).radiation[k]? ∧
      ∀ t, (MatModel.run M (pre ++ post)).byId k t = (MatModel.run M pre).byId k t := by
  induction post using List.reverseRecOn with
  | nil => simp [hk]
  | append_singleton post a ih =>
    obtain ⟨h1, h2, h3, h4, h5⟩ := ih (fun b hb => hpost b (by simp [hb]))
    rw [← List.append_assoc, run_snoc]
    obtain ⟨g1, g2, g3, g4, g5⟩ := add_other M (wf_run M (pre ++ post)) (hpost a (by simp)) a.2 h1
    exact ⟨g1, g2.trans h2, g3.trans h3, g4.trans h4, fun t => (g5 t).trans (h5 t)⟩

/-- The state right after adding a material. -/
theorem run_last (M : Masses K) (pre : List (String × List (Int × K))) (n : String) (comp : List (Int × K)) :
    ∃ k, (MatModel.run M (pre ++ [(n, comp)])).ids.lookup n = some k ∧
      (MatModel.run M (pre ++ [(n, comp)])).components[k]? = some (materialComponents M comp) ∧
      (MatModel.run M (pre ++ [(n, comp)])).radiation[k]? = some (Detector.radiationLength M (materialComponents M comp)) := by
  have wf := wf_run M pre
  rw [run_snoc]
  cases hl : (MatModel.run M pre).ids.lookup n with
  | none =>
    rw [add_none M hl]
    refine ⟨(MatModel.run M pre).names.length, by simp [List.lookup], ?_, ?_⟩
    · simp only
      rw [List.getElem?_set_self (by simp [wf.comps])]
    · simp only
      rw [List.getElem?_append_right (by rw [wf.rad]), wf.rad]
      simp
  | some k =>
    rw [add_some M hl]
    have hlt : k < (MatModel.run M pre).names.length := (List.getElem?_eq_some_iff.1 ((wf.ids n k).1 hl)).1
    refine ⟨k, hl, ?_, ?_⟩
    · simp only
      rw [List.getElem?_set_self (by rw [wf.comps]; exact hlt)]
    · simp only
      rw [List.getElem?_set_self (by rw [wf.rad]; exact hlt)]

/-! ### Theorems -/

/-- C32: identifiers count the materials in the order of their first addition; a material exists from then on, and name and identifier
determine each other. -/
theorem C32_ids (M : Masses K) (h : List (String × List (Int × K))) :
    (∀ n, (MatModel.run M h).has n = true ↔ n ∈ h.map (·.1)) ∧
    (∀ (n : String) (k : Nat), (MatModel.run M h).id n = .ok k ↔ (firstNames h)[k]? = some n) ∧
    (∀ (n : String), n ∉ h.map (·.1) → (MatModel.run M h).id n = .throws .outOfRange) ∧
    (∀ (n : String) (k : Nat), (MatModel.run M h).name k = .ok n ↔ (firstNames h)[k]? = some n) := by
  have wf := wf_run M h
  have hn := names_run M h
  refine ⟨?_, ?_, ?_, ?_⟩
  · intro n
    rw [← mem_firstNames, ← hn]
    unfold MatModel.has
    rw [Option.isSome_iff_ne_none, ne_eq, WF.mem_iff wf, not_not]
  · intro n k
    rw [← hn, ← wf.ids]
    unfold MatModel.id
    cases (MatModel.run M h).ids.lookup n <;> simp
  · intro n hm
    rw [← mem_firstNames, ← hn, ← WF.mem_iff wf] at hm
    unfold MatModel.id
    rw [hm]
  · intro n k
    rw [← hn]
    unfold MatModel.name
    cases (MatModel.run M h).names[k]? <;> simp

/-- C32: adding a material changes no answer about another one. -/
theorem C32_other (M : Masses K) (h : List (String × List (Int × K))) {n m : String} (hne : m ≠ n) (comp : List (Int × K)) {k : Nat}
    (hk : (MatModel.run M h).id n = .ok k) :
    (MatModel.run M (h ++ [(m, comp)])).id n = .ok k ∧ (MatModel.run M (h ++ [(m, comp)])).name k = .ok n ∧
    (MatModel.run M (h ++ [(m, comp)])).targets k = (MatModel.run M h).targets k ∧
    (MatModel.run M (h ++ [(m, comp)])).radiationLength k = (MatModel.run M h).radiationLength k ∧
    ∀ t, (MatModel.run M (h ++ [(m, comp)])).massFraction k t = (MatModel.run M h).massFraction k t ∧
      (MatModel.run M (h ++ [(m, comp)])).particleFraction k t = (MatModel.run M h).particleFraction k t := by
  have wf := wf_run M h
  have hk' : (MatModel.run M h).ids.lookup n = some k := by
    unfold MatModel.id at hk
    cases hl : (MatModel.run M h).ids.lookup n with
    | none => rw [hl] at hk; simp at hk
    | some j => rw [hl] at hk; simpa using hk
  rw [run_snoc]
  obtain ⟨g1, g2, g3, g4, g5⟩ := add_other M wf hne comp hk'
  refine ⟨?_, ?_, ?_, ?_, ?_⟩
  · simp only [MatModel.id, g1]
  · simp only [MatModel.name, g2, (wf.ids n k).1 hk']
  · simp only [MatModel.targets, g3]
  · simp only [MatModel.radiationLength, g4]
  · intro t
    simp only [MatModel.massFraction, MatModel.particleFraction, g5 t, and_self]

/-- C32: the targets of a material are the nuclei of its latest composition and the particles derived from them. -/
theorem C32_targets (M : Masses K) (pre post : List (String × List (Int × K))) {n : String} {comp : List (Nucleus × K)} (hv : Valid M comp)
    (hpost : ∀ a ∈ post, a.1 ≠ n) : ∃ k, (MatModel.run M (pre ++ [(n, toMap comp)] ++ post)).id n = .ok k ∧
      (MatModel.run M (pre ++ [(n, toMap comp)] ++ post)).targets k = .ok (expectedTargets M comp) := by
  obtain ⟨k, h1, h2, -⟩ := run_last M pre n (toMap comp)
  obtain ⟨g1, -, g3, -, -⟩ := run_others M (pre ++ [(n, toMap comp)]) post hpost h1
  refine ⟨k, ?_, ?_⟩
  · simp only [MatModel.id, g1]
  · simp only [MatModel.targets, g3, h2, types_eq M hv.mass]

/-- C32: after any history, the fractions of a material are those of its latest composition: the supplied mass fractions as they are, the
neutrons, nucleons, protons and electrons contained in the nuclei, and zero for everything else. If the material was added before, it must
not have had targets that it has no longer. -/
theorem C32_fractions (M : Masses K) (pre post : List (String × List (Int × K))) {n : String} {comp : List (Nucleus × K)} (hv : Valid M comp)
    (hpre : ∀ a ∈ pre, a.1 = n → ∃ c, a.2 = toMap c ∧ Valid M c ∧ ∀ t ∈ expectedTargets M c, t ∈ expectedTargets M comp)
    (hpost : ∀ a ∈ post, a.1 ≠ n) : ∃ k, (MatModel.run M (pre ++ [(n, toMap comp)] ++ post)).id n = .ok k ∧
      ∀ t, (MatModel.run M (pre ++ [(n, toMap comp)] ++ post)).massFraction k t = expectedMass M comp t ∧
        (MatModel.run M (pre ++ [(n, toMap comp)] ++ post)).particleFraction k t = some (expectedParticles M comp t) := by
  obtain ⟨k, h1, -, -⟩ := run_last M pre n (toMap comp)
  obtain ⟨g1, -, -, -, g5⟩ := run_others M (pre ++ [(n, toMap comp)]) post hpost h1
  refine ⟨k, by simp only [MatModel.id, g1], ?_⟩
  intro t
  simp only [MatModel.massFraction, MatModel.particleFraction, g5]
  have wf := wf_run M pre
  have hnd : ((materialComponents M (toMap comp)).map (·.component.type)).Nodup := by rw [types_eq M hv.mass]; exact types_nodup M hv
  by_cases ht : t ∈ expectedTargets M comp
  · have hfound : ∃ c ∈ materialComponents M (toMap comp), c.component.type = t ∧
        (MatModel.run M (pre ++ [(n, toMap comp)])).byId k t = some c := by
      rw [← types_eq M hv.mass] at ht
      obtain ⟨c, hc, rfl⟩ := List.mem_map.1 ht
      refine ⟨c, hc, rfl, ?_⟩
      rw [run_snoc] at h1 ⊢
      cases hl : (MatModel.run M pre).ids.lookup n with
      | none =>
        rw [add_none M hl] at h1 ⊢
        simp only [List.lookup, beq_self_eq_true, Option.some.injEq] at h1
        subst h1
        exact insertAll_mem _ _ hnd hc _ (wf.byId _ _ (le_refl _))
      | some j =>
        rw [add_some M hl] at h1 ⊢
        simp only [hl, Option.some.injEq] at h1
        subst h1
        exact assignAll_mem _ _ hnd hc _
    obtain ⟨c, hc, rfl, hb⟩ := hfound
    rw [hb]
    exact entry_expected M hv hc
  · have hnone : (MatModel.run M (pre ++ [(n, toMap comp)])).byId k t = none := by
      by_contra hb
      obtain ⟨a, ha, han, hta⟩ := byId_source M _ (((wf_run M _).ids n k).1 h1) hb
      rcases List.mem_append.1 ha with ha | ha
      · obtain ⟨c, hc, hvc, hsub⟩ := hpre a ha han
        rw [hc, types_eq M hvc.mass] at hta
        exact ht (hsub t hta)
      · simp only [List.mem_singleton] at ha
        subst ha
        rw [types_eq M hv.mass] at hta
        exact ht hta
    rw [hnone]
    obtain ⟨e1, e2⟩ := absent_expected M ht
    rw [e1, e2]
    exact ⟨rfl, rfl⟩

/-- Re-adding a material does not replace it completely: a target of the first composition that the second does not have keeps its
fraction, although it is no longer among the targets. -/
theorem C32_stale_fails (M : Masses K) {n : String} {c₁ c₂ : List (Nucleus × K)} (h₁ : Valid M c₁) (h₂ : Valid M c₂) {t : Int}
    (ht₂ : t ∉ expectedTargets M c₂) :
    (MatModel.run M [(n, toMap c₁), (n, toMap c₂)]).targets 0 = .ok (expectedTargets M c₂) ∧
    (MatModel.run M [(n, toMap c₁), (n, toMap c₂)]).massFraction 0 t = expectedMass M c₁ t := by
  have hfirst : (MatModel.run M [(n, toMap c₁)]).ids.lookup n = some 0 := by
    show ((MatModel.empty : MatModel K).add M n (toMap c₁)).ids.lookup n = _
    rw [add_none M rfl]
    simp [MatModel.empty, List.lookup]
  have hrun : MatModel.run M [(n, toMap c₁), (n, toMap c₂)] = (MatModel.run M [(n, toMap c₁)]).add M n (toMap c₂) := rfl
  constructor
  · obtain ⟨k, hk1, hk2⟩ := C32_targets M [(n, toMap c₁)] [] h₂ (by simp) (n := n)
    have : (MatModel.run M [(n, toMap c₁), (n, toMap c₂)]).id n = .ok 0 := by
      rw [hrun, add_some M hfirst]
      simp only [MatModel.id, hfirst]
    have e : [(n, toMap c₁)] ++ [(n, toMap c₂)] ++ [] = [(n, toMap c₁), (n, toMap c₂)] := rfl
    rw [e] at hk1 hk2
    rw [this] at hk1
    simp only [Res.ok.injEq] at hk1
    rw [hk1]
    exact hk2
  · obtain ⟨k, hk1, hk2⟩ := C32_fractions M [] [] h₁ (by simp) (by simp) (n := n)
    have e : [] ++ [(n, toMap c₁)] ++ [] = [(n, toMap c₁)] := rfl
    rw [e] at hk1 hk2
    have hk0 : k = 0 := by
      simp only [MatModel.id, hfirst, Res.ok.injEq] at hk1
      exact hk1.symm
    subst hk0
    rw [← (hk2 t).1, hrun, add_some M hfirst]
    simp only [MatModel.massFraction]
    rw [assignAll_unchanged _ _ (Or.inr (by rw [types_eq M h₂.mass]; exact ht₂))]

/-- One component that is neither a nucleus nor a known particle, however small, makes the derived particles of the whole material
disappear without an error. -/
theorem C32_unknown_component_fails (M : Masses K) {comp : List (Int × K)} {p : Int × K} (hp : p ∈ comp) (h1 : -100000000 < p.1)
    (h2 : p.1 < 1000000000) (n1 : p.1 ≠ 11) (n2 : p.1 ≠ 2112) (n3 : p.1 ≠ 2212) :
    (materialComponents M comp).map (·.component.type) = comp.map (·.1) := by
  have hmol : (mkComponent M p.1).molar = 0 := by
    unfold mkComponent pdgProton pdgNeutron pdgNucleon pdgElectron
    rw [if_neg n3, if_neg n2, if_neg (by omega), if_neg n1, C33_rejects h1 h2]
  have key : ∀ (count : Content → Int), perAmu M count comp = none := by
    intro count
    unfold perAmu
    have none_stays : ∀ l : List (Int × K), l.foldl (fun acc p => fadd acc ((fdiv p.2 (mkComponent M p.1).molar).map fun x =>
        x * (count (mkComponent M p.1).content : K))) none = none := by
      intro l
      induction l with
      | nil => rfl
      | cons q l ih => simpa [fadd] using ih
    have : ∀ (l : List (Int × K)) (acc : Option K), p ∈ l → l.foldl (fun acc p => fadd acc ((fdiv p.2 (mkComponent M p.1).molar).map fun x =>
        x * (count (mkComponent M p.1).content : K))) acc = none := by
      intro l
      induction l with
      | nil => intro acc h; simp at h
      | cons q l ih =>
        intro acc h
        rw [List.foldl_cons]
        rcases List.mem_cons.1 h with rfl | h
        · have : fadd acc ((fdiv p.2 (mkComponent M p.1).molar).map fun x => x * (count (mkComponent M p.1).content : K)) = none := by
            rw [hmol]
            cases acc <;> simp [fadd, fdiv]
          rw [this]
          exact none_stays l
        · exact ih _ h
    exact this comp (some 0) hp
  unfold materialComponents
  rw [key, key, key]
  simp [ifPositive, suppliedComp, mk_type]

/-- C64: the radiation length of a material is that of its latest composition: the reciprocal of the sum of the mass fractions, each
divided by the radiation length of its nucleus. -/
theorem C64_length (M : Masses K) (pre post : List (String × List (Int × K))) {n : String} {comp : List (Nucleus × K)} (hv : Valid M comp)
    (hZ : ∀ p ∈ comp, p.1.Z ≠ 0 ∧ M.x0 p.1.A p.1.Z ≠ 0) (hs : (comp.map fun p => p.2 / M.x0 p.1.A p.1.Z).sum ≠ 0)
    (hpost : ∀ a ∈ post, a.1 ≠ n) : ∃ k, (MatModel.run M (pre ++ [(n, toMap comp)] ++ post)).id n = .ok k ∧
      (MatModel.run M (pre ++ [(n, toMap comp)] ++ post)).radiationLength k =
        .ok (some (1 / (comp.map fun p => p.2 / M.x0 p.1.A p.1.Z).sum)) := by
  obtain ⟨k, h1, -, h3⟩ := run_last M pre n (toMap comp)
  obtain ⟨g1, -, -, g4, -⟩ := run_others M (pre ++ [(n, toMap comp)]) post hpost h1
  refine ⟨k, by simp only [MatModel.id, g1], ?_⟩
  simp only [MatModel.radiationLength, g4, h3, Res.ok.injEq]
  rw [components_eq M hv.mass]
  unfold Detector.radiationLength
  have step : ∀ (l : List (Nucleus × K)) (acc : K), (∀ p ∈ l, p.1.Z ≠ 0 ∧ M.x0 p.1.A p.1.Z ≠ 0) →
      ((toMap l).map (suppliedComp M)).foldl (fun acc c => if c.component.isAtom then
        fadd acc (if c.component.content.proton = 0 then none else fdiv c.mass (M.x0 c.component.content.nucleon c.component.content.proton))
        else acc) (some acc) = some (acc + (l.map fun p => p.2 / M.x0 p.1.A p.1.Z).sum) := by
    intro l
    induction l with
    | nil => intro acc _; simp [toMap]
    | cons p l ih =>
      intro acc hl
      obtain ⟨hz, hx⟩ := hl p (by simp)
      obtain ⟨m1, m2, m3⟩ := mk_nucleus M p.1
      have e : (toMap (p :: l)).map (suppliedComp M) = suppliedComp M (p.1.code, p.2) :: (toMap l).map (suppliedComp M) := rfl
      rw [e, List.foldl_cons]
      have hz' : ¬ (p.1.Z : Int) = 0 := by exact_mod_cast hz
      have e2 : (if (suppliedComp M (p.1.code, p.2)).component.isAtom = true then
          fadd (some acc) (if (suppliedComp M (p.1.code, p.2)).component.content.proton = 0 then none else
            fdiv (suppliedComp M (p.1.code, p.2)).mass
              (M.x0 (suppliedComp M (p.1.code, p.2)).component.content.nucleon (suppliedComp M (p.1.code, p.2)).component.content.proton))
          else some acc) = some (acc + p.2 / M.x0 p.1.A p.1.Z) := by
        simp only [suppliedComp, m3, m1, Nucleus.content, if_true, if_neg hz', fdiv, if_neg hx, fadd, Option.bind_some, Option.map_some]
      rw [e2, ih _ (fun q hq => hl q (by simp [hq]))]
      simp [add_assoc]
  have rest : ∀ (l : List (MatComp K)) (acc : Option K), (∀ c ∈ l, c.component.isAtom = false) →
      l.foldl (fun acc c => if c.component.isAtom then
        fadd acc (if c.component.content.proton = 0 then none else fdiv c.mass (M.x0 c.component.content.nucleon c.component.content.proton))
        else acc) acc = acc := by
    intro l
    induction l with
    | nil => intro acc _; rfl
    | cons c l ih =>
      intro acc h
      rw [List.foldl_cons, h c (by simp)]
      exact ih acc (fun d hd => h d (by simp [hd]))
  have noAtom : ∀ x, (derivedComp M pdgNeutron x).component.isAtom = false ∧ (derivedComp M pdgNucleon x).component.isAtom = false ∧
      (derivedComp M pdgProton x).component.isAtom = false ∧ (derivedComp M pdgElectron x).component.isAtom = false := by
    intro x
    simp [derivedComp, mkComponent, pdgNeutron, pdgNucleon, pdgProton, pdgElectron]
  simp only [List.append_assoc]
  rw [List.foldl_append, step comp 0 hZ, rest]
  · simp only [zero_add, Option.bind_some, fdiv, if_neg hs]
  · intro c hc
    simp only [List.mem_append] at hc
    rcases hc with hc | hc | hc
    · split at hc
      · simp only [List.mem_singleton] at hc; subst hc; exact (noAtom _).1
      · simp at hc
    · split at hc
      · simp only [List.mem_singleton] at hc; subst hc; exact (noAtom _).2.1
      · simp at hc
    · split at hc
      · simp only [List.mem_cons, List.not_mem_nil, or_false] at hc
        rcases hc with rfl | rfl
        · exact (noAtom _).2.2.1
        · exact (noAtom _).2.2.2
      · simp at hc

/-- `GetTargetRadiationFraction` never returns a number: its test is inverted. If all targets are in the material, every answer is NaN;
if one is not, the call throws. -/
theorem C64_fraction_fails (M : Masses K) (st : MatModel K) (id : Nat) (ts : List Int) :
    ((∀ t ∈ ts, (st.byId id t).isSome) → st.radiationFraction M id ts = .ok (ts.map fun _ => none)) ∧
    ((∃ t ∈ ts, st.byId id t = none) → st.radiationFraction M id ts = .throws .outOfRange) := by
  constructor
  · intro h
    have key : ∀ (l : List Int) (out : List (Option K)), (∀ t ∈ l, (st.byId id t).isSome) →
        radLoop M (st.byId id) l out (some 0) = .ok (out ++ l.map fun _ => some 0, some 0) := by
      intro l
      induction l with
      | nil => intro out _; simp [radLoop]
      | cons t l ih =>
        intro out hl
        rw [radLoop, if_pos (hl t (by simp)), ih _ (fun u hu => hl u (by simp [hu]))]
        simp
    unfold MatModel.radiationFraction
    rw [key ts [] h]
    simp [Res.bind, fdiv]
  · rintro ⟨t, ht, hn⟩
    have key : ∀ (l : List Int) (out : List (Option K)) (inv : Option K), t ∈ l → radLoop M (st.byId id) l out inv = .throws .outOfRange := by
      intro l
      induction l with
      | nil => intro out inv h; simp at h
      | cons u l ih =>
        intro out inv h
        rw [radLoop]
        cases hu : st.byId id u with
        | none => simp
        | some c =>
          simp only [Option.isSome_some, if_true]
          rcases List.mem_cons.1 h with rfl | h
          · rw [hn] at hu; simp at hu
          · exact ih _ _ h
    unfold MatModel.radiationFraction
    rw [key ts [] _ ht]
    rfl

/-! ### A concrete case: water -/

namespace MaterialExample

/-- Rough masses. -/
def masses : Masses ℚ :=
  { neutron := 1, hydrogen := 1, electron := 1 / 2000, nucleus := fun c => if c.nucleon = 0 then 1 else c.nucleon, avogadro := 6, x0 := fun a _ => a }

/-- Hydrogen. -/
def hydrogen : Nucleus := ⟨0, 1, 1, 0, by decide, by decide, by decide, by decide⟩
/-- Oxygen. -/
def oxygen : Nucleus := ⟨0, 8, 16, 0, by decide, by decide, by decide, by decide⟩

/-- Free neutrons beside oxygen: the material is given twice in the same way, and its neutron fraction changes from the supplied one to the
one derived from the nuclei. -/
theorem C32_conflict_fails :
    (MatModel.run masses [("A", [(2112, 1 / 4), (1000080160, 3 / 4)])]).massFraction 0 2112 = 1 / 4 ∧
    (MatModel.run masses [("A", [(2112, 1 / 4), (1000080160, 3 / 4)]), ("A", [(2112, 1 / 4), (1000080160, 3 / 4)])]).massFraction 0 2112 = 5 / 8 := by
  decide +kernel

/-- Water. -/
def water : List (Nucleus × ℚ) := [(hydrogen, 1 / 9), (oxygen, 8 / 9)]

theorem water_valid : Valid masses water := by
  refine ⟨by simp [water, Nucleus.code, nuclearCode, hydrogen, oxygen], ?_⟩
  intro p hp
  simp only [water, List.mem_cons, List.not_mem_nil, or_false] at hp
  rcases hp with rfl | rfl <;> simp [masses, Nucleus.content, hydrogen, oxygen]

theorem hydrogen_valid : Valid masses [(hydrogen, 1)] := by
  refine ⟨by simp, ?_⟩
  intro p hp
  simp only [List.mem_cons, List.not_mem_nil, or_false] at hp
  subst hp
  simp [masses, Nucleus.content, hydrogen]

/-- Water after ice of the same composition and another material. -/
example : ∃ k, (MatModel.run masses ([("WATER", toMap [(hydrogen, 1)])] ++ [("WATER", toMap water)] ++ [("GAS", toMap [(hydrogen, 1)])])).id "WATER" = .ok k ∧
    ∀ t, (MatModel.run masses ([("WATER", toMap [(hydrogen, 1)])] ++ [("WATER", toMap water)] ++ [("GAS", toMap [(hydrogen, 1)])])).massFraction k t =
      expectedMass masses water t := by
  obtain ⟨k, h1, h2⟩ := C32_fractions masses [("WATER", toMap [(hydrogen, 1)])] [("GAS", toMap [(hydrogen, 1)])] (n := "WATER") water_valid (by
    intro a ha _
    simp only [List.mem_singleton] at ha
    subst ha
    refine ⟨[(hydrogen, 1)], rfl, hydrogen_valid, ?_⟩
    intro t ht
    have e1 : expectedTargets masses [(hydrogen, 1)] = [1000010010, 2000002112, 2212, 11] := by
      simp [expectedTargets, neutrons, nucleons, protons, total, masses, Nucleus.content, hydrogen, Nucleus.code, nuclearCode]
    have e2 : expectedTargets masses water = [1000010010, 1000080160, 2112, 2000002112, 2212, 11] := by
      simp [expectedTargets, neutrons, nucleons, protons, total, masses, Nucleus.content, hydrogen, oxygen, water, Nucleus.code, nuclearCode]
      norm_num
    rw [e1] at ht
    rw [e2]
    revert ht
    simp
    omega) (by simp)
  exact ⟨k, h1, fun t => (h2 t).1⟩

/-- Four ninths of the mass of water are neutrons. -/
example : expectedMass masses water 2112 = 4 / 9 := by
  simp [expectedMass, pos, neutrons, total, masses, Nucleus.content, hydrogen, oxygen, water]
  norm_num

/-- Hydrogen added again as oxygen still contains hydrogen. -/
example : (MatModel.run masses [("GAS", toMap [(hydrogen, 1)]), ("GAS", toMap [(oxygen, 1)])]).massFraction 0 1000010010 = 1 := by
  have ho : Valid masses [(oxygen, (1 : ℚ))] := by
    refine ⟨by simp, ?_⟩
    intro p hp
    simp only [List.mem_cons, List.not_mem_nil, or_false] at hp
    subst hp
    simp [masses, Nucleus.content, oxygen]
  rw [(C32_stale_fails masses hydrogen_valid ho (t := 1000010010) (by
    simp [expectedTargets, neutrons, nucleons, protons, total, masses, Nucleus.content, oxygen, Nucleus.code, nuclearCode])).2]
  simp [expectedMass, hydrogen, Nucleus.code, nuclearCode]

end MaterialExample

end Siren.Detector
