import Verif.Base
import Verif.Records.Compare
import Mathlib.Data.Real.Basic

set_option autoImplicit false

/-!
# Choosing an interaction channel

Models `InteractionCollection` (interactions/private/InteractionCollection.cxx:20-95), `Injector::SampleCrossSection`
(injection/private/Injector.cxx:162-281) and `CrossSectionProbability` (injection/private/WeightingUtils.cxx:25-89).

Cross sections and decays are external objects; the interface functions that are called on them are parameters. The record
they are called with is fixed up to its signature and target mass, so the total cross section is a function of these two,
and the decay length a function of the signature. Numbers are real.
-/

namespace Siren.Injection

open Siren Siren.Records

/-- The external interaction objects: `X` cross sections, `D` decays. -/
structure Physics (X D F : Type) where
  /-- `CrossSection::GetPossibleTargets` -/
  possibleTargets : X → List Int
  /-- `CrossSection::GetPossibleSignaturesFromParents(primary, target)` -/
  signaturesX : X → Int → Int → List Signature
  /-- `CrossSection::TotalCrossSection` of a record with this signature and target mass -/
  total : X → Signature → ℝ → ℝ
  /-- `CrossSection::FinalStateProbability` -/
  finalX : X → Signature → F → ℝ
  /-- `Decay::GetPossibleSignaturesFromParent(primary)` -/
  signaturesD : D → Int → List Signature
  /-- `Decay::TotalDecayLength`; `none` is infinity -/
  length : D → Signature → Option ℝ
  /-- `Decay::FinalStateProbability` -/
  finalD : D → Signature → F → ℝ

/-- `InteractionCollection` (interactions/public/SIREN/interactions/InteractionCollection.h:30-44). The map is a list of
entries. -/
structure Collection (X D : Type) where
  crossSections : List X
  decays : List D
  targetTypes : List Int
  byTarget : List (Int × List X)

/-- One step of the loop interactions/private/InteractionCollection.cxx:31-39: `insert` of a new key or `push_back` to the
list of an old one. -/
def pushTarget {X : Type} (m : List (Int × List X)) (target : Int) (x : X) : List (Int × List X) :=
  match m with
  | [] => [(target, [x])]
  | (k, l) :: rest => if k = target then (k, l ++ [x]) :: rest else (k, l) :: pushTarget rest target x

/-- The constructor and `InitializeTargetTypes` (interactions/private/InteractionCollection.cxx:20-46, 60-62). `targetTypes`
is a `std::set`, of which only membership is used. -/
def Collection.make {X D F : Type} (physics : Physics X D F) (crossSections : List X) (decays : List D) : Collection X D where
  crossSections := crossSections
  decays := decays
  targetTypes := crossSections.flatMap physics.possibleTargets
  byTarget := crossSections.foldl (fun m x => (physics.possibleTargets x).foldl (fun m target => pushTarget m target x) m) []

/-- `GetCrossSectionsForTarget` (interactions/private/InteractionCollection.cxx:88-95). -/
def Collection.forTarget {X D : Type} (c : Collection X D) (target : Int) : List X :=
  match c.byTarget.find? fun e => e.1 = target with
  | some e => e.2
  | none => []

/-- What the detector model answers at the interaction vertex: `GetAvailableTargets` (a `std::set`, in order),
`GetParticleDensity`, `GetTargetMass`. -/
structure Site where
  available : List Int
  density : Int → ℝ
  targetMass : Int → ℝ

/-- The local variables of `SampleCrossSection` (injection/private/Injector.cxx:186-194). -/
structure Gather (X D : Type) where
  total : ℝ := 0
  xsec : ℝ := 0
  probs : List ℝ := []
  targets : List Int := []
  signatures : List Signature := []
  xsecs : List X := []
  decays : List D := []

section
variable {X D F : Type} (physics : Physics X D F)

/-- Injector.cxx:206-217 -/
def Gather.pushX (site : Site) (target : Int) (density : ℝ) (x : X) (g : Gather X D) (signature : Signature) : Gather X D :=
  let prob := density * physics.total x signature (site.targetMass target)
  let total := g.total + prob
  { g with total := total, xsec := g.xsec + prob, probs := g.probs ++ [total], targets := g.targets ++ [target],
           xsecs := g.xsecs ++ [x], signatures := g.signatures ++ [signature] }

/-- `1./(length/cm)` (Injector.cxx:228, WeightingUtils.cxx:54); `cm` is `Constants::cm`. -/
noncomputable def decayRate (cm : ℝ) (d : D) (signature : Signature) : ℝ :=
  match physics.length d signature with
  | some l => 1 / (l / cm)
  | none => 0

/-- `ParticleType::Decay`, the target recorded for a decay (Injector.cxx:233). -/
def decayTarget : Int := -2000001007

/-- Injector.cxx:226-235 -/
noncomputable def Gather.pushD (cm : ℝ) (d : D) (g : Gather X D) (signature : Signature) : Gather X D :=
  let total := g.total + decayRate physics cm d signature
  { g with total := total, probs := g.probs ++ [total], targets := g.targets ++ [decayTarget],
           decays := g.decays ++ [d], signatures := g.signatures ++ [signature] }

/-- The loops of `SampleCrossSection` (Injector.cxx:195-238). -/
noncomputable def gather (cm : ℝ) (site : Site) (c : Collection X D) (primary : Int) : Gather X D :=
  let g : Gather X D := {}
  let g := if 0 < c.crossSections.length then
      site.available.foldl (fun g target =>
        if target ∈ c.targetTypes then
          let density := site.density target
          (c.forTarget target).foldl (fun g x =>
            (physics.signaturesX x primary target).foldl (Gather.pushX physics site target density x) g) g
        else g) g
    else g
  if 0 < c.decays.length then
    c.decays.foldl (fun g d => (physics.signaturesD d primary).foldl (Gather.pushD physics cm d) g) g
  else g

/-- `for(; (index+1 < probs.size()) and (r > probs[index]); ++index) {}` (Injector.cxx:246). -/
noncomputable def chooseIndex (r : ℝ) : List ℝ → Nat
  | p :: q :: rest => if r > p then chooseIndex r (q :: rest) + 1 else 0
  | _ => 0

/-- `SIREN_random::Uniform(min, max)` (utilities/private/Random.cxx:32-37) when the generator returns `u`. -/
noncomputable def uniform (min max u : ℝ) : ℝ := if max < min then (min - max) * u + max else (max - min) * u + min

/-- The interaction whose final state is sampled. -/
inductive Selected (X D : Type) where
  | xsec (x : X)
  | decay (d : D)

/-- `probs[i] - probs[i-1]` (Injector.cxx:252). -/
noncomputable def increment (probs : List ℝ) (i : Nat) : ℝ := if i > 0 then probs.getD i 0 - probs.getD (i - 1) 0 else probs.getD i 0

/-- `SampleCrossSection` up to the sampling of the final state (Injector.cxx:162-276) when the generator returns `u`: the
signature and target mass stored in the record, and the interaction that samples the final state. The check for NaN (164-168)
is not modelled. `operator[]` beyond the end is undefined behaviour. -/
noncomputable def sampleCrossSection (cm : ℝ) (site : Site) (c : Collection X D) (primary : Int) (u : ℝ) :
    Res (Signature × ℝ × Selected X D) :=
  let g := gather physics cm site c primary
  if g.total = 0 then .throws .injectionFailure
  else
    let r := uniform 0 g.total u
    let index := chooseIndex r g.probs
    match g.signatures[index]? with
    | none => .ub
    | some signature =>
      let selectedProb := ((List.range g.probs.length).map fun i =>
        if g.signatures[i]? = some signature then increment g.probs i else 0).sum
      if selectedProb = 0 then .throws .injectionFailure
      else
        let mass := site.targetMass signature.target
        if r ≤ g.xsec then
          match g.xsecs[index]? with
          | some x => .ok (signature, mass, .xsec x)
          | none => .ub
        else if index < g.xsecs.length then .ub
        else
          match g.decays[index - g.xsecs.length]? with
          | some d => .ok (signature, mass, .decay d)
          | none => .ub

/-- `CrossSectionProbability` (injection/private/WeightingUtils.cxx:25-89) of a record with primary type `primary`,
signature `signature` and final state `final`: accumulates (total, selected). -/
noncomputable def crossSectionProbability (cm : ℝ) (site : Site) (c : Collection X D) (primary : Int) (signature : Signature)
    (final : F) : ℝ :=
  let acc : ℝ × ℝ := (0, 0)
  let acc := c.decays.foldl (fun acc d => (physics.signaturesD d primary).foldl (fun acc s =>
    let prob := decayRate physics cm d s
    (acc.1 + prob, if Signature.eq s signature then acc.2 + prob * physics.finalD d signature final else acc.2)) acc) acc
  let acc := site.available.foldl (fun acc target =>
    if target ∈ c.targetTypes then
      let density := site.density target
      (c.forTarget target).foldl (fun acc x => (physics.signaturesX x primary target).foldl (fun acc s =>
        let prob := density * physics.total x s (site.targetMass target)
        (acc.1 + prob, if Signature.eq s signature then acc.2 + prob * physics.finalX x signature final else acc.2)) acc) acc
    else acc) acc
  if acc.1 = 0 then 0 else acc.2 / acc.1

end

end Siren.Injection
