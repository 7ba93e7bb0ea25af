import Verif.Distributions.DepthPositionModel

set_option autoImplicit false

/-!
# Vertices drawn according to a decay length

Models `DecayRangeFunction` and `DecayRangePositionDistribution` (distributions/private/primary/vertex). The particle type is not used by
them and is left out.
-/

namespace Siren.Distributions

open Siren Siren.Util Siren.Detector Real

/-- `DecayRangeFunction` (DecayRangeFunction.h, DecayRangeFunction.cxx:56). -/
structure DecayRangeFunction where
  mass : ℝ
  width : ℝ
  multiplier : ℝ
  maxDistance : ℝ

/-- `iGeV_in_m` (DecayRangeFunction.cxx:22). -/
noncomputable def iGeVInM : ℝ := 1.973269804593025e-16

/-- `DecayLength` (DecayRangeFunction.cxx:17-29). -/
noncomputable def DecayRangeFunction.decayLength (f : DecayRangeFunction) (energy : ℝ) : ℝ :=
  let beta := sqrt (energy * energy - f.mass * f.mass) / energy
  let gamma := energy / f.mass
  1 / f.width * gamma * beta * iGeVInM

/-- `Range` and `operator()` (DecayRangeFunction.cxx:31-37). -/
noncomputable def DecayRangeFunction.range (f : DecayRangeFunction) (energy : ℝ) : ℝ := min (f.decayLength energy * f.multiplier) f.maxDistance

/-- `DecayRangePositionDistribution` (DecayRangePositionDistribution.h, DecayRangePositionDistribution.cxx:91). -/
structure DecayRangePosition where
  radius : ℝ
  endcap : ℝ
  function : DecayRangeFunction

/-- The path for a point of closest approach (DecayRangePositionDistribution.cxx:43-48, 71-76, 113-118). -/
noncomputable def DecayRangePosition.path (d : DecayRangePosition) (D : PathDetector) (dir : Vec3 ℝ) (energy : ℝ) (pca : Vec3 ℝ) : Res Path :=
  rangePath D pca dir d.endcap (d.function.decayLength energy * d.function.multiplier)

/-- `SamplePosition`, with three outputs of the generator: the initial position and the vertex (DecayRangePositionDistribution.cxx:36-58). -/
noncomputable def DecayRangePosition.sample (d : DecayRangePosition) (D : PathDetector) (direction : Vec3 ℝ) (energy u0 u1 y : ℝ) : Res (Vec3 ℝ × Vec3 ℝ) :=
  let dir := Vec3.normalize direction
  let l := d.function.decayLength energy
  (d.path D dir energy (fromDisk d.radius dir u0 u1)).bind fun p =>
    if p.distance = ⊤ ∨ p.distance = ⊥ then .ub
    else
      let dist := -l * log (y * (exp (-p.distance.toReal / l) - 1) + 1)
      .ok (p.firstPoint, p.firstPoint + Vec3.smul dist p.direction)

/-- `GenerationProbability` (DecayRangePositionDistribution.cxx:60-87). -/
noncomputable def DecayRangePosition.probability (d : DecayRangePosition) (D : PathDetector) (direction : Vec3 ℝ) (energy : ℝ) (vertex : Vec3 ℝ) : Res ℝ :=
  let dir := Vec3.normalize direction
  let l := d.function.decayLength energy
  let pca := closest dir vertex
  if d.radius ≤ Vec3.norm pca then .ok 0
  else (d.path D dir energy pca).bind fun p =>
    (p.withinDet vertex).bind fun within =>
      if !within then .ok 0
      else if p.distance = ⊤ ∨ p.distance = ⊥ then .ub
      else
        let dist := Vec3.dot p.direction (vertex - p.firstPoint)
        .ok (exp (-dist / l) / (l * (1 - exp (-p.distance.toReal / l))) / (π * d.radius * d.radius))

/-- `InjectionBounds` (DecayRangePositionDistribution.cxx:101-125). -/
noncomputable def DecayRangePosition.bounds (d : DecayRangePosition) (D : PathDetector) (direction : Vec3 ℝ) (energy : ℝ) (vertex : Vec3 ℝ) : Res (Vec3 ℝ × Vec3 ℝ) :=
  let dir := Vec3.normalize direction
  let pca := closest dir vertex
  if d.radius ≤ Vec3.norm pca then .ok (0, 0)
  else (d.path D dir energy pca).bind fun p => boundsOn true p vertex

end Siren.Distributions
