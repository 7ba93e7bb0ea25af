import Verif.Injection.WeightProps
import Verif.Injection.DepthProps

set_option autoImplicit false

/-!
# What an injector and a weighter report about an event

Models `Injector::GenerationProbability` and `SecondaryGenerationProbability` (injection/private/Injector.cxx:367-436),
`Weighter::GetInteractionProbabilities`, `GetSurvivalProbabilities` (injection/private/Weighter.cxx:158-208), and `SaveWeighter`,
`LoadWeighter` and the constructors (210-255).

The densities are parameters as in `WeightModel`. The interaction depth of a path is a parameter; the probabilities are computed
from it as in `DepthModel`. The archive is the sequence of the saved members (cereal is trusted to restore them).
-/

namespace Siren.Injection

open Siren

section
variable {P I R B : Type}

/-! ## The injector -/

/-- The loop over the distributions and the last factor (Injector.cxx:375-381, 404-410, 422-428). -/
noncomputable def distributionsTimesChannel (e : Densities P I R B) (process : WProc P I) (r : R) (probability : ℝ) : ℝ :=
  let probability := process.distributions.foldl (fun p d => p * e.density d process.interactions r) probability
  probability * e.channel process.interactions r

/-- `SecondaryGenerationProbability(datum, process)` (Injector.cxx:371-383). -/
noncomputable def WInj.secondaryGenerationFor (e : Densities P I R B) (process : WProc P I) (r : R) : ℝ :=
  distributionsTimesChannel e process r 1

/-- `SecondaryGenerationProbability(datum)` (Injector.cxx:367-369): `std::map::at` throws. -/
noncomputable def WInj.secondaryGeneration (e : Densities P I R B) (inj : WInj P I) (n : WNode R) : Res ℝ :=
  match mapAt inj.secondaries n.type with
  | none => .throws .outOfRange
  | some process => .ok (WInj.secondaryGenerationFor e process n.record)

/-- `GenerationProbability` of a datum or of a record (Injector.cxx:396-430; the two overloads have the same body). The process
is a null pointer by default. -/
noncomputable def WInj.generation (e : Densities P I R B) (inj : WInj P I) (r : R) (process : Option (WProc P I) := none) : ℝ :=
  match process with
  | none =>
    let stat : Nat := if inj.events > 0 then inj.events else 1
    distributionsTimesChannel e inj.primary r (1 * stat)
  | some process => distributionsTimesChannel e process r 1

/-- The loop of `GenerationProbability(tree)` (Injector.cxx:385-394). -/
noncomputable def WInj.generationLoop (e : Densities P I R B) (inj : WInj P I) : List (WNode R) → ℝ → Res ℝ
  | [], probability => .ok probability
  | n :: rest, probability =>
    if n.root then WInj.generationLoop e inj rest (probability * inj.generation e n.record)
    else
      match inj.secondaryGeneration e n with
      | .ok q => WInj.generationLoop e inj rest (probability * q)
      | .throws x => .throws x
      | .ub => .ub

/-- `GenerationProbability(tree)` (Injector.cxx:385-394). -/
noncomputable def WInj.generationProbability (e : Densities P I R B) (inj : WInj P I) (tree : List (WNode R)) : Res ℝ :=
  inj.generationLoop e tree 1

/-! ## The lists of the weighter -/

/-- What the lists are computed from: the interaction depth between two points for a record, the injection bounds of a process
for a record, and the point where the primary of a record was produced. -/
structure Depths (P I R V : Type) where
  depth : V × V → I → R → Flt
  bounds : WProc P I → R → V × V
  start : R → V

variable {V : Type}

/-- `ProcessWeighter::InteractionProbability` (Weighter.tcc:95-144). -/
noncomputable def ProcWeighter.interactionProbability (k : Depths P I R V) (w : ProcWeighter P I) (b : V × V) (r : R) : Flt :=
  Injection.interactionProbability (k.depth b w.phys.interactions r)

/-- `ProcessWeighter::SurvivalProbability` (Weighter.tcc:146-153). -/
noncomputable def ProcWeighter.survivalProbability (k : Depths P I R V) (w : ProcWeighter P I) (b : V × V) (r : R) : Flt :=
  Injection.survivalProbability (k.depth b w.phys.interactions r)

/-- The loop of `GetInteractionProbabilities` (Weighter.cxx:163-180). The vectors of weighters are indexed without a check. The
`catch` returns an empty list. -/
noncomputable def interactionLoop (k : Depths P I R V) (w : Weighter P I) (i : Nat) (inj : WInj P I) :
    List (WNode R) → List Flt → Res (List Flt)
  | [], out => .ok out
  | n :: rest, out =>
    if n.root then
      let bounds := k.bounds inj.primary n.record
      match w.primaries[i]? with
      | none => .ub
      | some p => interactionLoop k w i inj rest (out ++ [p.interactionProbability k bounds n.record])
    else
      match mapAt inj.secondaries n.type with
      | none => .ok []
      | some process =>
        let bounds := k.bounds process n.record
        match w.secondaries[i]? with
        | none => .ub
        | some m =>
          match mapAt m n.type with
          | none => .ok []
          | some p => interactionLoop k w i inj rest (out ++ [p.interactionProbability k bounds n.record])

/-- `GetInteractionProbabilities` (Weighter.cxx:158-181). -/
noncomputable def Weighter.interactionProbabilities (k : Depths P I R V) (w : Weighter P I) (tree : List (WNode R)) (i : Int) :
    Res (List Flt) :=
  if i < 0 ∨ i.toNat ≥ w.injectors.length then .throws .outOfRange
  else
    match w.injectors[i.toNat]? with
    | none => .ub
    | some inj => interactionLoop k w i.toNat inj tree []

/-- The loop of `GetSurvivalProbabilities` (Weighter.cxx:188-207). -/
noncomputable def survivalLoop (k : Depths P I R V) (w : Weighter P I) (i : Nat) (inj : WInj P I) :
    List (WNode R) → List Flt → Res (List Flt)
  | [], out => .ok out
  | n :: rest, out =>
    if n.root then
      let bounds := (k.start n.record, (k.bounds inj.primary n.record).1)
      match w.primaries[i]? with
      | none => .ub
      | some p => survivalLoop k w i inj rest (out ++ [p.survivalProbability k bounds n.record])
    else
      match mapAt inj.secondaries n.type with
      | none => .ok []
      | some process =>
        let bounds := (k.start n.record, (k.bounds process n.record).1)
        match w.secondaries[i]? with
        | none => .ub
        | some m =>
          match mapAt m n.type with
          | none => .ok []
          | some p => survivalLoop k w i inj rest (out ++ [p.survivalProbability k bounds n.record])

/-- `GetSurvivalProbabilities` (Weighter.cxx:183-208). -/
noncomputable def Weighter.survivalProbabilities (k : Depths P I R V) (w : Weighter P I) (tree : List (WNode R)) (i : Int) :
    Res (List Flt) :=
  if i < 0 ∨ i.toNat ≥ w.injectors.length then .throws .outOfRange
  else
    match w.injectors[i.toNat]? with
    | none => .ub
    | some inj => survivalLoop k w i.toNat inj tree []

/-! ## Saving and loading -/

/-- All members of `Weighter` (Weighter.h:69-84) but the detector, which is carried along unchanged. -/
structure WeighterState (P I : Type) where
  primary : WProc P I
  secondary : List (WProc P I)
  weighter : Weighter P I

/-- The saved members (Weighter.h:100-110). -/
structure SavedWeighter (P I : Type) where
  injectors : List (WInj P I)
  primary : WProc P I
  secondary : List (WProc P I)

variable [DecidableEq P]

/-- `Initialize()` on the members as they are: the lists are cleared first (Weighter.cxx:51-89). -/
noncomputable def WeighterState.initialize (e : Densities P I R B) (s : WeighterState P I) : WeighterState P I :=
  let w := { s.weighter with primaries := [], secondaries := [] }
  { s with weighter := Weighter.initialize e w.injectors s.primary s.secondary w.injectors w }

/-- The constructor from processes (Weighter.cxx:229-246). -/
noncomputable def WeighterState.make (e : Densities P I R B) (injectors : List (WInj P I)) (primary : WProc P I)
    (secondary : List (WProc P I) := []) : WeighterState P I :=
  (WeighterState.mk primary secondary ⟨injectors, [], []⟩).initialize e

omit [DecidableEq P] in
/-- `SaveWeighter` (Weighter.cxx:210-214). -/
def WeighterState.save (s : WeighterState P I) : SavedWeighter P I := ⟨s.weighter.injectors, s.primary, s.secondary⟩

/-- `LoadWeighter` on any weighter (Weighter.cxx:216-227). -/
noncomputable def WeighterState.load (e : Densities P I R B) (s : WeighterState P I) (f : SavedWeighter P I) :
    WeighterState P I :=
  ({ s with primary := f.primary, secondary := f.secondary, weighter := { s.weighter with injectors := f.injectors } } :
    WeighterState P I).initialize e

/-- The constructor from a file (Weighter.cxx:248-255), starting from the members of a default-constructed object. -/
noncomputable def WeighterState.fromFile (e : Densities P I R B) (blank : WProc P I) (injectors : List (WInj P I))
    (f : SavedWeighter P I) : WeighterState P I :=
  let s := WeighterState.load e ⟨blank, [], ⟨[], [], []⟩⟩ f
  let s := if injectors.length > 0 then { s with weighter := { s.weighter with injectors := injectors } } else s
  s.initialize e

end

/-! ## Generation probability -/

section
variable {P I R B : Type}

theorem times_eq (e : Densities P I R B) (g : WProc P I) (r : R) (a : ℝ) :
    distributionsTimesChannel e g r a = a * fullGeneration e g r := by
  rw [distributionsTimesChannel, fullGeneration, foldl_mul_eq]
  ring

/-- **C107, one interaction.** For a record, the injector reports its number of events times the density of the primary process;
with a process given, the density of this process alone; for a secondary, the density of the process of its type. -/
theorem C107_record (e : Densities P I R B) (inj : WInj P I) (r : R) :
    (0 < inj.events → inj.generation e r = inj.events * fullGeneration e inj.primary r) ∧
    (∀ g, inj.generation e r (some g) = fullGeneration e g r) ∧
    (∀ g t, mapAt inj.secondaries t = some g →
      inj.secondaryGeneration e ⟨false, t, r⟩ = .ok (fullGeneration e g r)) := by
  refine ⟨fun h => ?_, fun g => ?_, fun g t h => ?_⟩
  · simp only [WInj.generation, if_pos h, times_eq, one_mul]
  · simp only [WInj.generation, times_eq, one_mul]
  · simp only [WInj.secondaryGeneration, h, WInj.secondaryGenerationFor, times_eq, one_mul]

/-- The density of the interactions of an event under the processes of an injector. -/
noncomputable def eventDensity (e : Densities P I R B) (inj : WInj P I) (tree : List (WNode R)) : ℝ :=
  (tree.map fun n => match injFor inj n with
    | some g => fullGeneration e g n.record
    | none => 1).prod

/-- The number of roots of an event. -/
def roots (tree : List (WNode R)) : Nat := tree.countP fun n => n.root

/-- Every secondary interaction has a process. -/
def Covered (inj : WInj P I) (tree : List (WNode R)) : Prop :=
  ∀ n ∈ tree, n.root = false → n.type ∈ inj.secondaries.map Prod.fst

theorem generationLoop_eq (e : Densities P I R B) (inj : WInj P I) (hN : 0 < inj.events) (tree : List (WNode R)) :
    ∀ a : ℝ, Covered inj tree →
      inj.generationLoop e tree a = .ok (a * (inj.events ^ roots tree * eventDensity e inj tree)) := by
  induction tree with
  | nil => intro a _; simp [WInj.generationLoop, roots, eventDensity]
  | cons n rest ih =>
    intro a hc
    have hc' : Covered inj rest := fun m hm => hc m (List.mem_cons_of_mem _ hm)
    cases hroot : n.root with
    | true =>
      rw [WInj.generationLoop, if_pos hroot, ih _ hc', (C107_record e inj n.record).1 hN]
      simp only [roots, List.countP_cons, hroot, if_true, eventDensity, List.map_cons, List.prod_cons, injFor, pow_succ]
      congr 1
      ring
    | false =>
      obtain ⟨g, hg⟩ := mapAt_isSome inj.secondaries n.type (hc n (by simp) hroot)
      have h1 : inj.secondaryGeneration e n = .ok (fullGeneration e g n.record) := by
        simp only [WInj.secondaryGeneration, hg, WInj.secondaryGenerationFor, times_eq, one_mul]
      rw [WInj.generationLoop, if_neg (by simp [hroot]), h1]
      simp only
      rw [ih _ hc']
      have hinj : injFor inj n = some g := by simpa [injFor, hroot, mapAt] using hg
      simp only [roots, List.countP_cons, hroot, Bool.false_eq_true, if_false, add_zero, eventDensity, List.map_cons,
        List.prod_cons, hinj]
      congr 1
      ring

/-- **C107, events.** For an event with one root, in which every secondary interaction has a process, the injector reports its
number of events times the density of all the interactions. -/
theorem C107_event (e : Densities P I R B) (inj : WInj P I) (hN : 0 < inj.events) (tree : List (WNode R))
    (hroot : roots tree = 1) (hc : Covered inj tree) :
    inj.generationProbability e tree = .ok (inj.events * eventDensity e inj tree) := by
  rw [WInj.generationProbability, generationLoop_eq e inj hN tree 1 hc, hroot, pow_one, one_mul]

/-- **C107, no process.** A secondary interaction without a process is reported as `std::out_of_range`, never as a number. -/
theorem C107_missing (e : Densities P I R B) (inj : WInj P I) (tree : List (WNode R)) (hc : ¬ Covered inj tree) :
    inj.generationProbability e tree = .throws .outOfRange := by
  have key : ∀ (tree : List (WNode R)) (a : ℝ), ¬ Covered inj tree → inj.generationLoop e tree a = .throws .outOfRange := by
    intro tree
    induction tree with
    | nil => intro a h; exact absurd (fun n hn => absurd hn (by simp)) h
    | cons n rest ih =>
      intro a h
      by_cases hrest : Covered inj rest
      · have hn : n.root = false ∧ n.type ∉ inj.secondaries.map Prod.fst := by
          by_contra hcon
          refine h fun m hm hmr => ?_
          rcases List.mem_cons.1 hm with rfl | hm
          · by_contra hno
            exact hcon ⟨hmr, hno⟩
          · exact hrest m hm hmr
        rw [WInj.generationLoop, if_neg (by simp [hn.1])]
        simp only [WInj.secondaryGeneration, mapAt_none _ _ hn.2]
      · rw [WInj.generationLoop]
        split_ifs
        · exact ih _ hrest
        · cases hm : mapAt inj.secondaries n.type with
          | none => simp only [WInj.secondaryGeneration, hm]
          | some g =>
            simp only [WInj.secondaryGeneration, hm]
            exact ih _ hrest
  exact key tree 1 hc

theorem events_density (e : Densities P I R B) (primary : WProc P I) (secondary : List (WProc P I)) (inj : WInj P I)
    (hmatch : Matches secondary inj) (tree : List (WNode R))
    (hreg : ∀ n ∈ tree, n.root = false → n.type ∈ secondary.map WProc.type) :
    overNodes primary secondary inj (fun _ g r => fullGeneration e g r) tree = eventDensity e inj tree := by
  unfold overNodes eventDensity
  congr 1
  refine List.map_congr_left fun n hn => ?_
  cases hroot : n.root with
  | true => simp [physFor, injFor, hroot]
  | false =>
    have h := hreg n hn hroot
    obtain ⟨g, hg⟩ := mapAt_isSome inj.secondaries n.type (hmatch.2.mem_iff.1 h)
    have hinj : injFor inj n = some g := by simpa [injFor, hroot, mapAt] using hg
    obtain ⟨q, hq, hqt⟩ := List.mem_map.1 h
    cases hf : secondary.find? (fun p => p.type = n.type) with
    | none => exact absurd (List.find?_eq_none.1 hf q hq) (by simp [hqt])
    | some p =>
      have hphys : physFor primary secondary n = some p := by simp [physFor, hroot, hf]
      simp only [hphys, hinj]

/-- **C107, weights.** The weight of an event is the inverse of the sum, over the injectors, of the generation probability the
injector reports divided by the physical density of the event. -/
theorem C107_weight [DecidableEq P] (e : Densities P I R B) (injectors : List (WInj P I)) (primary : WProc P I)
    (secondary : List (WProc P I)) (tree : List (WNode R)) (gen : WInj P I → ℝ)
    (hgen : ∀ inj ∈ injectors, inj.generationProbability e tree = .ok (gen inj))
    (hN : ∀ inj ∈ injectors, 0 < inj.events) (hroot : roots tree = 1)
    (hmatch : ∀ inj ∈ injectors, Matches secondary inj)
    (hreg : ∀ n ∈ tree, n.root = false → n.type ∈ secondary.map WProc.type)
    (hshared : ∀ inj ∈ injectors, ∀ n ∈ tree, ∀ p g, physFor primary secondary n = some p → injFor inj n = some g →
      SharedAgree e p g n.record)
    (hphys : ∀ inj ∈ injectors, overNodes primary secondary inj (fullPhysical e) tree ≠ 0)
    (hsum : (injectors.map fun inj => gen inj / overNodes primary secondary inj (fullPhysical e) tree).sum ≠ 0) :
    (Weighter.make e injectors primary secondary).eventWeight e tree =
      .ok (.fin (1 / (injectors.map fun inj => gen inj / overNodes primary secondary inj (fullPhysical e) tree).sum)) := by
  have heq : injectors.map (invTerm e primary secondary tree) =
      injectors.map fun inj => gen inj / overNodes primary secondary inj (fullPhysical e) tree := by
    refine List.map_congr_left fun inj hinj => ?_
    have hc : Covered inj tree := fun n hn h => (hmatch inj hinj).2.mem_iff.1 (hreg n hn h)
    have h := hgen inj hinj
    rw [C107_event e inj (hN inj hinj) tree hroot hc] at h
    rw [invTerm, events_density e primary secondary inj (hmatch inj hinj) tree hreg, Res.ok.inj h]
  rw [← heq] at hsum ⊢
  exact C13_event_weight e injectors primary secondary tree hmatch hreg hshared hphys hsum

/-- **C107, several roots (negative).** Each root of an event brings the number of events again, so an event assembled from two
primaries is reported with the square of it. -/
theorem C107_roots_fails :
    ∃ (e : Densities Nat Nat ℝ Unit) (inj : WInj Nat Nat) (tree : List (WNode ℝ)), 0 < inj.events ∧ Covered inj tree ∧
      inj.generationProbability e tree ≠ .ok (inj.events * eventDensity e inj tree) := by
  refine ⟨exampleDensities, ⟨100, ⟨14, 0, []⟩, []⟩, [⟨true, 14, 1⟩, ⟨true, 14, 1⟩], by norm_num, ?_, ?_⟩
  · intro n hn h
    simp only [List.mem_cons, List.not_mem_nil, or_false, or_self] at hn
    subst hn
    simp at h
  · simp [WInj.generationProbability, WInj.generationLoop, WInj.generation, distributionsTimesChannel, exampleDensities,
      eventDensity, injFor, fullGeneration]
    norm_num

/-- **C107, no events (negative).** An injector of no events reports the probability of an injector of one event, while the
event weight takes its number of events to be zero and is infinite. -/
theorem C107_no_events_fails :
    ∃ (e : Densities Nat Nat ℝ Unit) (primary : WProc Nat Nat) (inj one : WInj Nat Nat) (tree : List (WNode ℝ)),
      inj.events = 0 ∧ one = { inj with events := 1 } ∧
      inj.generationProbability e tree = one.generationProbability e tree ∧
      (Weighter.make e [inj] primary []).eventWeight e tree = .ok .inf ∧
      ∃ x, (Weighter.make e [one] primary []).eventWeight e tree = .ok (.fin x) := by
  refine ⟨exampleDensities, ⟨14, 0, []⟩, ⟨0, ⟨14, 0, []⟩, []⟩, ⟨1, ⟨14, 0, []⟩, []⟩, [⟨true, 14, 1⟩], rfl, rfl, ?_, ?_, 1 / 2, ?_⟩
  · simp [WInj.generationProbability, WInj.generationLoop, WInj.generation]
  · simp [Weighter.make, Weighter.initialize, secondaryMap, Weighter.eventWeight, injectorLoop, nodeLoop, ProcWeighter.make,
      cancel, ProcWeighter.generationProbability, ProcWeighter.physicalProbability, exampleDensities, Flt.quot,
      Flt.add, Flt.inv]
  · simp [Weighter.make, Weighter.initialize, secondaryMap, Weighter.eventWeight, injectorLoop, nodeLoop, ProcWeighter.make,
      cancel, ProcWeighter.generationProbability, ProcWeighter.physicalProbability, exampleDensities, Flt.quot,
      Flt.add, Flt.inv]

/-- The example of C13: 100 events, root `1/4·4·2`, secondary `1/4·8`. -/
example : (⟨100, ⟨14, 0, [2, 0]⟩, [(15, ⟨15, 1, [2]⟩)]⟩ : WInj Nat Nat).generationProbability exampleDensities exampleEvent =
    .ok 400 := by
  rw [C107_event]
  · simp [eventDensity, exampleEvent, injFor, fullGeneration, exampleDensities]
    norm_num
  · simp
  · simp [roots, exampleEvent]
  · intro n hn h
    simp only [exampleEvent, List.mem_cons, List.not_mem_nil, or_false] at hn
    rcases hn with rfl | rfl <;> simp_all

end

/-! ## Lists of probabilities -/

section
variable {P I R B V : Type} [DecidableEq P]

/-- The processes responsible for a node: the physical one and the one of the injector. -/
def Responsible (primary : WProc P I) (secondary : List (WProc P I)) (inj : WInj P I) (n : WNode R) (p g : WProc P I) : Prop :=
  physFor primary secondary n = some p ∧ injFor inj n = some g

omit [DecidableEq P] in
theorem responsible (primary : WProc P I) (secondary : List (WProc P I)) (inj : WInj P I) (hmatch : Matches secondary inj)
    (n : WNode R) (h : n.root = false → n.type ∈ secondary.map WProc.type) :
    ∃ p g, Responsible primary secondary inj n p g := by
  cases hroot : n.root with
  | true => exact ⟨primary, inj.primary, by simp [physFor, hroot], by simp [injFor, hroot]⟩
  | false =>
    obtain ⟨g, hg⟩ := mapAt_isSome inj.secondaries n.type (hmatch.2.mem_iff.1 (h hroot))
    obtain ⟨q, hq, hqt⟩ := List.mem_map.1 (h hroot)
    cases hf : secondary.find? (fun p => p.type = n.type) with
    | none => exact absurd (List.find?_eq_none.1 hf q hq) (by simp [hqt])
    | some p => exact ⟨p, g, by simp [physFor, hroot, hf], by simpa [injFor, hroot, mapAt] using hg⟩

/-- Both loops visit a node in the same way. -/
theorem loops_step (e : Densities P I R B) (k : Depths P I R V) (w : Weighter P I) (primary : WProc P I)
    (secondary : List (WProc P I)) (i : Nat) (inj : WInj P I)
    (hprim : w.primaries[i]? = some (ProcWeighter.make e primary inj.primary))
    (hsec : w.secondaries[i]? = some (secMap e secondary inj)) (n : WNode R) (rest : List (WNode R))
    (p g : WProc P I) (h : Responsible primary secondary inj n p g) (out : List Flt) :
    interactionLoop k w i inj (n :: rest) out = interactionLoop k w i inj rest
      (out ++ [interactionProbability (k.depth (k.bounds g n.record) p.interactions n.record)]) ∧
    survivalLoop k w i inj (n :: rest) out = survivalLoop k w i inj rest
      (out ++ [survivalProbability (k.depth (k.start n.record, (k.bounds g n.record).1) p.interactions n.record)]) := by
  obtain ⟨hp, hg⟩ := h
  cases hroot : n.root with
  | true =>
    simp only [physFor, hroot, if_true, Option.some.injEq] at hp
    simp only [injFor, hroot, if_true, Option.some.injEq] at hg
    subst hp
    subst hg
    constructor
    · simp only [interactionLoop, hroot, if_true, hprim, ProcWeighter.interactionProbability, ProcWeighter.make]
    · simp only [survivalLoop, hroot, if_true, hprim, ProcWeighter.survivalProbability, ProcWeighter.make]
  | false =>
    simp only [physFor, hroot, Bool.false_eq_true, if_false] at hp
    have hg' : mapAt inj.secondaries n.type = some g := by simpa [injFor, hroot, mapAt] using hg
    have hpt : p.type = n.type := by simpa using List.find?_some hp
    have hso : secOf inj p = g := by simp [secOf, hpt, hg']
    have hm : mapAt (secMap e secondary inj) n.type = some (ProcWeighter.make e p g) := by
      rw [mapAt_secMap, hp, Option.map_some, hso]
    constructor
    · simp only [interactionLoop, hroot, Bool.false_eq_true, if_false, hg', hsec, hm, ProcWeighter.interactionProbability,
        ProcWeighter.make]
    · simp only [survivalLoop, hroot, Bool.false_eq_true, if_false, hg', hsec, hm, ProcWeighter.survivalProbability,
        ProcWeighter.make]

theorem loops_eq (e : Densities P I R B) (k : Depths P I R V) (w : Weighter P I) (primary : WProc P I)
    (secondary : List (WProc P I)) (i : Nat) (inj : WInj P I)
    (hprim : w.primaries[i]? = some (ProcWeighter.make e primary inj.primary))
    (hsec : w.secondaries[i]? = some (secMap e secondary inj)) (hmatch : Matches secondary inj) (tree : List (WNode R)) :
    ∀ out : List Flt, (∀ n ∈ tree, n.root = false → n.type ∈ secondary.map WProc.type) →
    ∃ a s : List Flt, interactionLoop k w i inj tree out = .ok (out ++ a) ∧ survivalLoop k w i inj tree out = .ok (out ++ s) ∧
      a.length = tree.length ∧ s.length = tree.length ∧
      ∀ (j : Nat) n, tree[j]? = some n → ∀ p g, Responsible primary secondary inj n p g →
        a[j]? = some (interactionProbability (k.depth (k.bounds g n.record) p.interactions n.record)) ∧
        s[j]? = some (survivalProbability (k.depth (k.start n.record, (k.bounds g n.record).1) p.interactions n.record)) := by
  induction tree with
  | nil => intro out _; exact ⟨[], [], by simp [interactionLoop], by simp [survivalLoop], rfl, rfl, by simp⟩
  | cons n rest ih =>
    intro out hreg
    obtain ⟨p, g, hres⟩ := responsible primary secondary inj hmatch n (hreg n (by simp))
    obtain ⟨h1, h2⟩ := loops_step e k w primary secondary i inj hprim hsec n rest p g hres out
    have hreg' : ∀ m ∈ rest, m.root = false → m.type ∈ secondary.map WProc.type :=
      fun m hm => hreg m (List.mem_cons_of_mem _ hm)
    obtain ⟨a, _, ha, _, hla, _, hva⟩ := ih
      (out ++ [interactionProbability (k.depth (k.bounds g n.record) p.interactions n.record)]) hreg'
    obtain ⟨_, s, _, hs, _, hls, hvs⟩ := ih
      (out ++ [survivalProbability (k.depth (k.start n.record, (k.bounds g n.record).1) p.interactions n.record)]) hreg'
    refine ⟨_ :: a, _ :: s, by rw [h1, ha, List.append_assoc]; rfl, by rw [h2, hs, List.append_assoc]; rfl, by simp [hla],
      by simp [hls], ?_⟩
    intro j m hj p' g' hres'
    cases j with
    | zero =>
      simp only [List.getElem?_cons_zero, Option.some.injEq] at hj
      subst hj
      have hp : p' = p := Option.some.inj (hres'.1.symm.trans hres.1)
      have hg : g' = g := Option.some.inj (hres'.2.symm.trans hres.2)
      subst hp
      subst hg
      simp
    | succ j =>
      simp only [List.getElem?_cons_succ] at hj ⊢
      exact ⟨(hva j m hj p' g' hres').1, (hvs j m hj p' g' hres').2⟩

/-- **C108, the lists.** For an injector of the weighter, both lists have one number for each interaction of the event, in the
order of the event: the probability of interacting on the injector's path, with the physical process that is responsible for the
interaction, and the probability of having reached this path from the point of production. -/
theorem C108_lists (e : Densities P I R B) (k : Depths P I R V) (injectors : List (WInj P I)) (primary : WProc P I)
    (secondary : List (WProc P I)) (tree : List (WNode R)) (hmatch : ∀ inj ∈ injectors, Matches secondary inj)
    (hreg : ∀ n ∈ tree, n.root = false → n.type ∈ secondary.map WProc.type)
    (i : Nat) (inj : WInj P I) (hi : injectors[i]? = some inj) :
    ∃ a s : List Flt,
      (Weighter.make e injectors primary secondary).interactionProbabilities k tree i = .ok a ∧
      (Weighter.make e injectors primary secondary).survivalProbabilities k tree i = .ok s ∧
      a.length = tree.length ∧ s.length = tree.length ∧
      ∀ (j : Nat) n, tree[j]? = some n → ∃ p g, Responsible primary secondary inj n p g ∧
        a[j]? = some (interactionProbability (k.depth (k.bounds g n.record) p.interactions n.record)) ∧
        s[j]? = some (survivalProbability (k.depth (k.start n.record, (k.bounds g n.record).1) p.interactions n.record)) := by
  have hmem := List.mem_of_getElem? hi
  have hlt : i < injectors.length := (List.getElem?_eq_some_iff.1 hi).1
  have hcond : ¬ ((i : Int) < 0 ∨ (i : Int).toNat ≥ injectors.length) := by
    rw [Int.toNat_natCast]; omega
  obtain ⟨a, s, ha, hs, hla, hls, hv⟩ := loops_eq e k (Weighter.make e injectors primary secondary) primary secondary i inj
    (by rw [make_eq e injectors primary secondary hmatch]; simp [hi])
    (by rw [make_eq e injectors primary secondary hmatch]; simp [hi]) (hmatch inj hmem) tree [] hreg
  have hinjs : (Weighter.make e injectors primary secondary).injectors = injectors := by
    rw [make_eq e injectors primary secondary hmatch]
  refine ⟨a, s, ?_, ?_, hla, hls, fun j n hj => ?_⟩
  · rw [Weighter.interactionProbabilities, hinjs, if_neg hcond, Int.toNat_natCast, hi]
    simpa using ha
  · rw [Weighter.survivalProbabilities, hinjs, if_neg hcond, Int.toNat_natCast, hi]
    simpa using hs
  · obtain ⟨p, g, hres⟩ := responsible primary secondary inj (hmatch inj hmem) n (hreg n (List.mem_of_getElem? hj))
    exact ⟨p, g, hres, hv j n hj p g hres⟩

/-- **C108, probabilities.** If the depths are non-negative numbers, all entries of both lists lie between 0 and 1. -/
theorem C108_range (e : Densities P I R B) (k : Depths P I R V) (injectors : List (WInj P I)) (primary : WProc P I)
    (secondary : List (WProc P I)) (tree : List (WNode R)) (hmatch : ∀ inj ∈ injectors, Matches secondary inj)
    (hreg : ∀ n ∈ tree, n.root = false → n.type ∈ secondary.map WProc.type)
    (hdepth : ∀ b c r, ∃ x : ℝ, 0 ≤ x ∧ k.depth b c r = .fin x)
    (i : Nat) (hi : i < injectors.length) :
    ∃ a s : List ℝ,
      (Weighter.make e injectors primary secondary).interactionProbabilities k tree i = .ok (a.map .fin) ∧
      (Weighter.make e injectors primary secondary).survivalProbabilities k tree i = .ok (s.map .fin) ∧
      (∀ x ∈ a, 0 ≤ x ∧ x ≤ 1) ∧ ∀ x ∈ s, 0 ≤ x ∧ x ≤ 1 := by
  obtain ⟨a, s, ha, hs, hla, hls, hv⟩ := C108_lists e k injectors primary secondary tree hmatch hreg i _
    (List.getElem?_eq_getElem hi)
  have hval : ∀ l : List Flt, (∀ y ∈ l, ∃ x : ℝ, y = .fin x ∧ 0 ≤ x ∧ x ≤ 1) →
      ∃ l' : List ℝ, l = l'.map .fin ∧ ∀ x ∈ l', 0 ≤ x ∧ x ≤ 1 := by
    intro l
    induction l with
    | nil => intro _; exact ⟨[], rfl, by simp⟩
    | cons y l ih =>
      intro h
      obtain ⟨x, hx, hx'⟩ := h y (by simp)
      obtain ⟨l', hl, hl'⟩ := ih fun z hz => h z (List.mem_cons_of_mem _ hz)
      exact ⟨x :: l', by rw [hx, hl]; rfl, by simpa using ⟨hx', hl'⟩⟩
  have hprob : ∀ b c r, (∃ x : ℝ, interactionProbability (k.depth b c r) = .fin x ∧ 0 ≤ x ∧ x ≤ 1) ∧
      ∃ x : ℝ, survivalProbability (k.depth b c r) = .fin x ∧ 0 ≤ x ∧ x ≤ 1 := by
    intro b c r
    obtain ⟨x, hx0, hx⟩ := hdepth b c r
    obtain ⟨p, q, hp, hq, hp0, hp1, hq0, hq1, _⟩ := C14_probabilities.1 x hx0
    rw [hx]
    exact ⟨⟨p, hp, hp0, hp1⟩, q, hq, hq0, hq1⟩
  obtain ⟨a', rfl, ha'⟩ := hval a fun y hy => by
    obtain ⟨j, hj, rfl⟩ := List.getElem_of_mem hy
    obtain ⟨p, g, _, hv1, _⟩ := hv j tree[j] (List.getElem?_eq_getElem (by omega))
    rw [List.getElem?_eq_getElem hj, Option.some.injEq] at hv1
    rw [hv1]
    exact (hprob _ _ _).1
  obtain ⟨s', rfl, hs'⟩ := hval s fun y hy => by
    obtain ⟨j, hj, rfl⟩ := List.getElem_of_mem hy
    obtain ⟨p, g, _, _, hv2⟩ := hv j tree[j] (List.getElem?_eq_getElem (by omega))
    rw [List.getElem?_eq_getElem hj, Option.some.injEq] at hv2
    rw [hv2]
    exact (hprob _ _ _).2
  exact ⟨a', s', ha, hs, ha', hs'⟩

omit [DecidableEq P] in
/-- **C108, index.** An index that is not one of the injectors' throws `std::out_of_range`. -/
theorem C108_index (k : Depths P I R V) (w : Weighter P I) (tree : List (WNode R)) (i : Int)
    (h : i < 0 ∨ (w.injectors.length : Int) ≤ i) :
    w.interactionProbabilities k tree i = .throws .outOfRange ∧ w.survivalProbabilities k tree i = .throws .outOfRange := by
  have hcond : i < 0 ∨ i.toNat ≥ w.injectors.length := by omega
  exact ⟨by rw [Weighter.interactionProbabilities, if_pos hcond], by rw [Weighter.survivalProbabilities, if_pos hcond]⟩

/-- **C108, no process.** If a secondary interaction has no process, both lists are empty. -/
theorem C108_missing (e : Densities P I R B) (k : Depths P I R V) (injectors : List (WInj P I)) (primary : WProc P I)
    (secondary : List (WProc P I)) (tree : List (WNode R)) (hmatch : ∀ inj ∈ injectors, Matches secondary inj)
    (hmiss : ∃ n ∈ tree, n.root = false ∧ n.type ∉ secondary.map WProc.type) (i : Nat) (hi : i < injectors.length) :
    (Weighter.make e injectors primary secondary).interactionProbabilities k tree i = .ok [] ∧
    (Weighter.make e injectors primary secondary).survivalProbabilities k tree i = .ok [] := by
  obtain ⟨inj, hinj⟩ : ∃ inj, injectors[i]? = some inj := ⟨_, List.getElem?_eq_getElem hi⟩
  have hm := hmatch inj (List.mem_of_getElem? hinj)
  have hcond : ¬ ((i : Int) < 0 ∨ (i : Int).toNat ≥ injectors.length) := by rw [Int.toNat_natCast]; omega
  obtain ⟨w, hw⟩ : ∃ w, w = Weighter.make e injectors primary secondary := ⟨_, rfl⟩
  have hprim : w.primaries[i]? = some (ProcWeighter.make e primary inj.primary) := by
    rw [hw, make_eq e injectors primary secondary hmatch]; simp [hinj]
  have hsec : w.secondaries[i]? = some (secMap e secondary inj) := by
    rw [hw, make_eq e injectors primary secondary hmatch]; simp [hinj]
  have hinjs : w.injectors = injectors := by rw [hw, make_eq e injectors primary secondary hmatch]
  have key : ∀ (tree : List (WNode R)) (out : List Flt),
      (∃ n ∈ tree, n.root = false ∧ n.type ∉ secondary.map WProc.type) →
      interactionLoop k w i inj tree out = .ok [] ∧ survivalLoop k w i inj tree out = .ok [] := by
    intro tree
    induction tree with
    | nil => intro out h; obtain ⟨n, hn, _⟩ := h; exact absurd hn (by simp)
    | cons n rest ih =>
      intro out h
      by_cases hn : n.root = false ∧ n.type ∉ secondary.map WProc.type
      · have hno : mapAt inj.secondaries n.type = none :=
          mapAt_none _ _ fun hin => hn.2 (hm.2.mem_iff.2 hin)
        exact ⟨by simp only [interactionLoop, hn.1, Bool.false_eq_true, if_false, hno],
          by simp only [survivalLoop, hn.1, Bool.false_eq_true, if_false, hno]⟩
      · have hrest : ∃ m ∈ rest, m.root = false ∧ m.type ∉ secondary.map WProc.type := by
          obtain ⟨m, hm, hmr⟩ := h
          rcases List.mem_cons.1 hm with rfl | hm
          · exact absurd hmr hn
          · exact ⟨m, hm, hmr⟩
        obtain ⟨p, g, hres⟩ := responsible primary secondary inj hm n fun hroot => by
          by_contra hno
          exact hn ⟨hroot, hno⟩
        obtain ⟨h1, h2⟩ := loops_step e k w primary secondary i inj hprim hsec n rest p g hres out
        exact ⟨by rw [h1]; exact (ih _ hrest).1, by rw [h2]; exact (ih _ hrest).2⟩
  rw [← hw]
  refine ⟨?_, ?_⟩
  · rw [Weighter.interactionProbabilities, hinjs, if_neg hcond, Int.toNat_natCast, hinj]
    exact (key tree [] hmiss).1
  · rw [Weighter.survivalProbabilities, hinjs, if_neg hcond, Int.toNat_natCast, hinj]
    exact (key tree [] hmiss).2

/-- Paths on a line: the depth is the distance, the injection path of process `g` starts at 1 and ends at 3. -/
noncomputable def exampleDepths : Depths Nat Nat ℝ ℝ where
  depth := fun b _ _ => .fin |b.2 - b.1|
  bounds := fun _ _ => (1, 3)
  start := fun _ => 1

/-- The hypotheses of `C108_lists` are met by the example of C13; the survival probabilities of particles produced at the start
of the path are 1. -/
example : ∃ s : List Flt, (Weighter.make exampleDensities exampleInjectors examplePrimary
    exampleSecondary).survivalProbabilities exampleDepths exampleEvent 0 = .ok s ∧ s.length = 2 ∧ s[1]? = some (.fin 1) := by
  obtain ⟨a, s, _, hs, _, hls, hv⟩ := C108_lists exampleDensities exampleDepths exampleInjectors examplePrimary exampleSecondary
    exampleEvent example_matches (by simp [exampleEvent, exampleSecondary]) 0 _ rfl
  obtain ⟨p, g, _, _, h⟩ := hv 1 ⟨false, 15, 2⟩ rfl
  refine ⟨s, hs, hls, ?_⟩
  rw [h]
  simp [exampleDepths, survivalProbability, interactionProbability]

/-- **C108, incomplete initialization (negative).** As in C13: when an injector lacks one of the weighter's processes, the lists
of an event with a secondary interaction read beyond the end of a vector. -/
theorem C108_incomplete_fails :
    (Weighter.make exampleDensities exampleInjectors examplePrimary
      (exampleSecondary ++ [⟨16, 1, []⟩])).interactionProbabilities exampleDepths exampleEvent 0 = .ub := by
  simp [Weighter.make, exampleInjectors, examplePrimary, exampleSecondary, Weighter.initialize, secondaryMap, mapAt,
    Weighter.interactionProbabilities, interactionLoop, exampleEvent]

/-! ## Saving and loading -/

theorem initialize_injectors (e : Densities P I R B) (all : List (WInj P I)) (primary : WProc P I)
    (secondary : List (WProc P I)) (injs : List (WInj P I)) : ∀ w : Weighter P I,
    (Weighter.initialize e all primary secondary injs w).injectors = w.injectors := by
  induction injs with
  | nil => intro w; rfl
  | cons inj rest ih =>
    intro w
    rw [Weighter.initialize]
    cases secondaryMap e inj.secondaries secondary [] with
    | none => rfl
    | some m =>
      simp only
      split_ifs
      · rfl
      · rw [ih]

theorem make_weighter (e : Densities P I R B) (injectors : List (WInj P I)) (primary : WProc P I)
    (secondary : List (WProc P I)) :
    WeighterState.make e injectors primary secondary =
      ⟨primary, secondary, Weighter.make e injectors primary secondary⟩ := rfl

/-- **C109, files.** A weighter saved to a file and read back, into a new or into any other weighter, is the weighter that was
saved: all its weights and lists are the same. -/
theorem C109_round_trip (e : Densities P I R B) (injectors : List (WInj P I)) (primary blank : WProc P I)
    (secondary : List (WProc P I)) (other : WeighterState P I) :
    other.load e (WeighterState.make e injectors primary secondary).save = WeighterState.make e injectors primary secondary ∧
    WeighterState.fromFile e blank [] (WeighterState.make e injectors primary secondary).save =
      WeighterState.make e injectors primary secondary := by
  have hsave : (WeighterState.make e injectors primary secondary).save = ⟨injectors, primary, secondary⟩ := by
    rw [make_weighter, WeighterState.save, Weighter.make, initialize_injectors]
  have hload : ∀ s : WeighterState P I, s.load e ⟨injectors, primary, secondary⟩ =
      WeighterState.make e injectors primary secondary := fun s => rfl
  refine ⟨by rw [hsave, hload], ?_⟩
  rw [hsave, WeighterState.fromFile, hload, if_neg (by simp), make_weighter, WeighterState.initialize]
  simp only [Weighter.make, initialize_injectors]

/-- **C109, other injectors.** With injectors given, the weighter from a file is the one made of these injectors and the saved
processes; nothing is left of the saved injectors. -/
theorem C109_injectors (e : Densities P I R B) (saved given : List (WInj P I)) (primary blank : WProc P I)
    (secondary : List (WProc P I)) (hne : given ≠ []) :
    WeighterState.fromFile e blank given (WeighterState.make e saved primary secondary).save =
      WeighterState.make e given primary secondary := by
  have hsave : (WeighterState.make e saved primary secondary).save = ⟨saved, primary, secondary⟩ := by
    rw [make_weighter, WeighterState.save, Weighter.make, initialize_injectors]
  rw [hsave, WeighterState.fromFile, if_pos (List.length_pos_iff.2 hne)]
  rfl

/-- **C109, weights.** In particular the weight of every event is that of the weighter made of the given injectors. -/
theorem C109_weights (e : Densities P I R B) (saved given : List (WInj P I)) (primary blank : WProc P I)
    (secondary : List (WProc P I)) (hne : given ≠ []) (tree : List (WNode R)) :
    (WeighterState.fromFile e blank given (WeighterState.make e saved primary secondary).save).weighter.eventWeight e tree =
      (Weighter.make e given primary secondary).eventWeight e tree := by
  rw [C109_injectors e saved given primary blank secondary hne]
  rfl

/-- Reading the weighter of the example of C13 with another injector given, which is not the saved one. -/
example : (WeighterState.fromFile exampleDensities ⟨0, 0, []⟩ [⟨200, ⟨14, 0, [2, 0]⟩, [(15, ⟨15, 1, [2]⟩)]⟩]
    (WeighterState.make exampleDensities exampleInjectors examplePrimary exampleSecondary).save).weighter.injectors.length = 1 ∧
    (exampleInjectors : List (WInj Nat Nat)) ≠ [⟨200, ⟨14, 0, [2, 0]⟩, [(15, ⟨15, 1, [2]⟩)]⟩] := by
  refine ⟨?_, by simp [exampleInjectors]⟩
  rw [C109_injectors _ _ _ _ _ _ (by simp), make_weighter, Weighter.make, initialize_injectors]
  rfl

end

end Siren.Injection
