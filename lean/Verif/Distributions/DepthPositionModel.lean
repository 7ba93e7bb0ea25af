import Verif.Detector.PathModel
import Verif.Injection.DepthModel
import Verif.Distributions.DirectionModel

set_option autoImplicit false

/-!
# Vertices drawn according to interaction depth

Models `PrimaryPhysicalVertexDistribution`, `PrimaryBoundedVertexDistribution`, `PointSourcePositionDistribution`,
`ColumnDepthPositionDistribution`, `RangePositionDistribution` (distributions/private/primary/vertex) and `SecondaryPhysicalVertexDistribution`,
`SecondaryBoundedVertexDistribution` (distributions/private/secondary/vertex). They build a path, draw a vertex on it according to the
interaction depth along it, and report a density along the same path; only the paths differ. The first three and the last two draw along one
line, the others also draw the line.

The targets with their total cross sections and the total decay length are a parameter. The code computes them from the record at hand, once when
sampling and once when reporting; the two records agree in type, mass and energy of the primary particle.
-/

namespace Siren.Distributions

open Siren Siren.Util Siren.Detector Siren.Injection Real

/-- `targets`, `total_cross_sections` and `total_decay_length` (`none`: infinite). -/
structure Totals where
  targets : List (Int × ℝ)
  decay : Option ℝ

/-- The depth a path is asked for with them. -/
def Totals.depth (k : Totals) : Depth := .interaction k.targets k.decay

/-- The depth drawn with the generator output `y` (PrimaryPhysicalVertexDistribution.cxx:82-90, and the same lines of the other classes). -/
noncomputable def traversedDepth (total y : ℝ) : ℝ :=
  if total < 1 / 1000000 then y * total else -log (y * exp (-total) + (1 - y))

/-- The vertex on a path (PrimaryPhysicalVertexDistribution.cxx:77-93; PrimaryBounded 95-111; PointSource 77-93; ColumnDepth 90-107; Range
90-106; SecondaryPhysical 76-92; SecondaryBounded 96-112). An infinite distance gives infinite coordinates; this is not modelled further. -/
noncomputable def vertexOn (p : Path) (k : Totals) (y : ℝ) : Res (Vec3 ℝ) :=
  (p.depthInBounds k.depth).bind fun total =>
    if total = 0 then .throws .injectionFailure
    else (p.distanceFromStartAlongPath (traversedDepth total y) k.depth).bind fun dist =>
      if dist = ⊤ ∨ dist = ⊥ then .ub else .ok (p.firstPoint + Vec3.smul dist.toReal p.direction)

/-- `GetInteractionDensity(path.GetIntersections(), vertex, ...)` (Path.cxx:260-263; DetectorModel.cxx:921-976). -/
noncomputable def densityAt (p : Path) (k : Totals) (vertex : Vec3 ℝ) : Res ℝ :=
  (if p.setHits then .ok p else p.computeIntersections).bind fun p =>
    match p.detector with
    | none => .ub
    | some D => D.model.interactionDensity p.hits (D.frame.toGeo vertex) k.targets k.decay

/-- The density reported for a vertex (PrimaryPhysicalVertexDistribution.cxx:108-143; PrimaryBounded 144-179; PointSource 109-142; ColumnDepth
138-169; Range 129-159; SecondaryPhysical 108-140; SecondaryBounded 146-178). Only the first two answer 0 when the total depth is not positive
(`guard`); the others divide by it. The path with its cached intersections is the one of the depth queries. -/
noncomputable def densityOn (guard : Bool) (p : Path) (k : Totals) (vertex : Vec3 ℝ) : Res ℝ :=
  (p.withinDet vertex).bind fun within =>
    if !within then .ok 0
    else (p.depthInBounds k.depth).bind fun total =>
      p.prepare.bind fun p =>
        (p.pointFromStartDet vertex).bind fun d =>
          let q := p.setRayDet p.firstPoint p.direction (d : EReal)
          (q.depthInBounds k.depth).bind fun traversed =>
            (densityAt q k vertex).bind fun density =>
              if guard ∧ total ≤ 0 then .ok 0 else .ok (positionProbability total traversed density)

/-- `InjectionBounds` (PrimaryPhysicalVertexDistribution.cxx:166-168 and the same lines of PrimaryBounded, PointSource, Range and the
secondary classes; ColumnDepth omits the test). -/
noncomputable def boundsOn (check : Bool) (p : Path) (vertex : Vec3 ℝ) : Res (Vec3 ℝ × Vec3 ℝ) :=
  (if check then p.withinDet vertex else .ok true).bind fun within =>
    .ok (if within then (p.firstPoint, p.lastPoint) else (0, 0))

/-! ### The paths -/

/-- A ray from the given point, of finite or infinite length, clipped to the detector (PrimaryPhysical 59-60, 105-106, 163-164;
PointSource 56-57, 106-107, 165-166; PrimaryBounded 60-61; SecondaryPhysical 59-60; SecondaryBounded 62-63). -/
noncomputable def rayPath (D : PathDetector) (start dir : Vec3 ℝ) (length : EReal) : Res Path :=
  ((Path.new (some D)).setRayDet start dir length).clip

/-- The path restricted to a fiducial volume whose surface is crossed at the given distances and positions (PrimaryBounded 56-80, 119-142,
201-224; SecondaryBounded 58-82, 121-144, 200-223). `length` may be infinite; the point at that distance is used only when it is finite. -/
noncomputable def boundedPath (D : PathDetector) (start dir : Vec3 ℝ) (length : EReal) (fiducial : Option (List (ℝ × Vec3 ℝ))) : Res Path :=
  (rayPath D start dir length).bind fun p =>
    match fiducial with
    | none => .ok p
    | some hits =>
      match hits.head?, hits.getLast? with
      | some f, some l =>
        if (f.1 : EReal) < length ∧ 0 < l.1 then
          .ok (p.setPointsDet (if 0 < f.1 then f.2 else start)
            (if (l.1 : EReal) < length then l.2 else start + Vec3.smul length.toReal dir))
        else .ok p
      | _, _ => .ok p

/-- The path of `RangePositionDistribution` (RangePositionDistribution.cxx:66-71, 122-127, 188-193). -/
noncomputable def rangePath (D : PathDetector) (pca dir : Vec3 ℝ) (endcap range : ℝ) : Res Path :=
  (((Path.new (some D)).setRayDet (pca - Vec3.smul endcap dir) dir ((endcap * 2 : ℝ) : EReal)).extendStart range).bind Path.clip

/-- The path of `ColumnDepthPositionDistribution` (ColumnDepthPositionDistribution.cxx:66-71, 131-136, 197-202). -/
noncomputable def columnPath (D : PathDetector) (pca dir : Vec3 ℝ) (endcap depth : ℝ) : Res Path :=
  (((Path.new (some D)).setRayDet (pca - Vec3.smul endcap dir) dir ((endcap * 2 : ℝ) : EReal)).extendStartBy depth .column).bind Path.clip

/-- `SampleFromDisk` (ColumnDepthPositionDistribution.cxx:51-57, RangePositionDistribution.cxx:51-57, DecayRangePositionDistribution.cxx), with two
outputs of the generator. The direction has length 1. -/
noncomputable def fromDisk (radius : ℝ) (dir : Vec3 ℝ) (u0 u1 : ℝ) : Vec3 ℝ :=
  let t := uniform 0 (2 * π) u0
  let r := radius * sqrt (uniform 0 1 u1)
  Quat.rotate (Quat.rotationBetween ⟨0, 0, 1⟩ dir) ⟨r * cos t, r * sin t, 0⟩ false

/-- The point of closest approach to the origin of the line through the vertex (ColumnDepthPositionDistribution.cxx:124,
RangePositionDistribution.cxx:115). -/
noncomputable def closest (dir vertex : Vec3 ℝ) : Vec3 ℝ := vertex - Vec3.smul (Vec3.dot dir vertex) dir

/-- A vertex and the initial position: the closest approach drawn from the disk, then the depth (ColumnDepthPositionDistribution.cxx:59-110,
RangePositionDistribution.cxx:59-109). `path` is the path for a closest approach. -/
noncomputable def diskSample (radius : ℝ) (path : Vec3 ℝ → Res Path) (dir : Vec3 ℝ) (k : Totals) (u0 u1 y : ℝ) : Res (Vec3 ℝ × Vec3 ℝ) :=
  (path (fromDisk radius dir u0 u1)).bind fun p => (vertexOn p k y).bind fun v => .ok (p.firstPoint, v)

/-- The density reported (ColumnDepthPositionDistribution.cxx:120-174, RangePositionDistribution.cxx:111-163). -/
noncomputable def diskProbability (radius : ℝ) (path : Vec3 ℝ → Res Path) (dir : Vec3 ℝ) (k : Totals) (vertex : Vec3 ℝ) : Res ℝ :=
  let pca := closest dir vertex
  if radius ≤ Vec3.norm pca then .ok 0
  else (path pca).bind fun p => (densityOn false p k vertex).bind fun d => .ok (d / (π * radius * radius))

/-- The length stored by the secondary distributions (SecondaryPhysicalVertexDistribution.cxx:94-95, SecondaryBoundedVertexDistribution.cxx:114-115). -/
noncomputable def lengthTo (pos dir vertex : Vec3 ℝ) : ℝ := Vec3.dot (vertex - pos) dir

end Siren.Distributions
