import Verif.Base
import Verif.Geometry.Placement
import Verif.Geometry.Hits
import Verif.Util.Random
import Mathlib.Analysis.SpecialFunctions.Trigonometric.Basic

set_option autoImplicit false

/-!
# Positions in a volume

Models `distributions/private/primary/vertex/CylinderVolumePositionDistribution.cxx` and `SphereVolumePositionDistribution.cxx`. Doubles are real
numbers and `M_PI` is π. The crossings of a line with the volume (`Intersections` followed by `SortIntersections`) are a parameter; C26, C36 and C40
describe what they are.
-/

namespace Siren.Distributions

open Siren.Util Siren.Geometry

/-- The parts of `geometry::Cylinder` that are read or that define its extent (geometry/public/SIREN/geometry/Cylinder.h). -/
structure CylinderShape where
  placement : Placement
  radius : ℝ
  innerRadius : ℝ
  z : ℝ
  startPhi : ℝ
  deltaPhi : ℝ

/-- The parts of `geometry::Sphere` that are read (geometry/public/SIREN/geometry/Sphere.h). -/
structure SphereShape where
  placement : Placement
  radius : ℝ
  innerRadius : ℝ

/-- The position drawn in `CylinderVolumePositionDistribution::SamplePosition` (CylinderVolumePositionDistribution.cxx:25-32): `final_pos` for the
outputs `g1 g2 g3` of the generator, in that order. -/
noncomputable def CylinderShape.draw (c : CylinderShape) (g1 g2 g3 : ℝ) : Vec3 ℝ :=
  let t := uniform 0 (2 * Real.pi) g1
  let r := Real.sqrt (uniform (c.innerRadius * c.innerRadius) (c.radius * c.radius) g2)
  let z := uniform (-c.z / 2) (c.z / 2) g3
  c.placement.localToGlobalPosition ⟨r * Real.cos t, r * Real.sin t, z⟩

open Classical in
/-- `CylinderVolumePositionDistribution::GenerationProbability` (CylinderVolumePositionDistribution.cxx:51-62). `abs` is the overload for doubles. -/
noncomputable def CylinderShape.generationProbability (c : CylinderShape) (vertex : Vec3 ℝ) : ℝ :=
  let pos := c.placement.globalToLocalPosition vertex
  let z := pos.z
  let r := Real.sqrt (pos.x * pos.x + pos.y * pos.y)
  if |z| ≥ 0.5 * c.z ∨ r ≤ c.innerRadius ∨ r ≥ c.radius then 0
  else 1 / (Real.pi * (c.radius * c.radius - c.innerRadius * c.innerRadius) * c.z)

open Classical in
/-- `std::cbrt`. -/
noncomputable def cbrt (x : ℝ) : ℝ := if x < 0 then -((-x) ^ (1 / 3 : ℝ)) else x ^ (1 / 3 : ℝ)

/-- The position drawn in `SphereVolumePositionDistribution::SamplePosition` (SphereVolumePositionDistribution.cxx:26-47). -/
noncomputable def SphereShape.draw (s : SphereShape) (g1 g2 g3 : ℝ) : Vec3 ℝ :=
  let outerVol := s.radius * s.radius * s.radius
  let innerVol := s.innerRadius * s.innerRadius * s.innerRadius
  let r := cbrt (uniform innerVol outerVol g1)
  let phi := uniform 0 (2 * Real.pi) g2
  let cosTheta := uniform (-1) 1 g3
  let sinTheta := Real.sqrt (1 - cosTheta * cosTheta)
  s.placement.localToGlobalPosition ⟨r * sinTheta * Real.cos phi, r * sinTheta * Real.sin phi, r * cosTheta⟩

open Classical in
/-- `SphereVolumePositionDistribution::GenerationProbability` (SphereVolumePositionDistribution.cxx:66-78). -/
noncomputable def SphereShape.generationProbability (s : SphereShape) (vertex : Vec3 ℝ) : ℝ :=
  let r := Vec3.norm (s.placement.globalToLocalPosition vertex)
  if r ≤ s.innerRadius ∨ r ≥ s.radius then 0
  else
    let outerVolume := (4 / 3) * Real.pi * s.radius * s.radius * s.radius
    let innerVolume := (4 / 3) * Real.pi * s.innerRadius * s.innerRadius * s.innerRadius
    1 / (outerVolume - innerVolume)

/-- The choice of `init_pos` (CylinderVolumePositionDistribution.cxx:34-48, SphereVolumePositionDistribution.cxx:49-63); `hits` are the sorted
crossings of the line through `final` along the direction of the primary. Returns `{init_pos, final_pos}`. -/
def samplePosition (hits : List Isect) (final : Vec3 ℝ) : Res (Vec3 ℝ × Vec3 ℝ) :=
  match hits with
  | [] => .ok (final, final)
  | [_] => .throws .runtimeError
  | h :: _ :: _ => .ok (h.position, final)

/-- `InjectionBounds` (CylinderVolumePositionDistribution.cxx:75-88, SphereVolumePositionDistribution.cxx:90-103); `hits` are the sorted crossings
of the line through the vertex along the momentum. -/
def injectionBounds (hits : List Isect) : Res (Vec3 ℝ × Vec3 ℝ) :=
  match hits with
  | [] => .ok (⟨0, 0, 0⟩, ⟨0, 0, 0⟩)
  | [_] => .throws .runtimeError
  | h :: h' :: rest => .ok (h.position, ((h' :: rest).getLast (List.cons_ne_nil _ _)).position)

end Siren.Distributions
