import Verif.Detector.FrameModel

set_option autoImplicit false

/-!
# Paths

Models `detector/private/Path.cxx`. Coordinates are reals and the end points of a path are finite, except that the last point of a ray may be
at infinity; it is then marked by a flag, and its coordinates in the model mean nothing (the code stores infinities and NaN there, and
looks at the flag before it uses them). Depths are column depths or interaction depths.
-/

namespace Siren.Detector

open Siren

/-- What a path uses of a `DetectorModel`: the coordinate systems, the densities and `GetIntersections` (C23 is about the latter). -/
structure PathDetector where
  frame : Frame
  model : DetModel
  cast : Vec3 ℝ → Vec3 ℝ → Line

/-- First point, last point and direction in one of the two coordinate systems. -/
@[ext] structure Seg where
  first : Vec3 ℝ
  last : Vec3 ℝ
  dir : Vec3 ℝ

/-- The members of `Path` (detector/public/SIREN/detector/Path.h:34-51). -/
structure Path where
  detector : Option PathDetector
  setGeo : Bool
  setDet : Bool
  geo : Seg
  det : Seg
  distance : EReal
  firstInf : Bool
  lastInf : Bool
  setHits : Bool
  hits : Line

/-- Both end points and the direction in geometry coordinates (Path.cxx:19-21). -/
noncomputable def PathDetector.geoSeg (D : PathDetector) (s : Seg) : Seg := ⟨D.frame.toGeo s.first, D.frame.toGeo s.last, D.frame.toGeoDir s.dir⟩

/-- Both end points and the direction in detector coordinates (Path.cxx:24-26). -/
noncomputable def PathDetector.detSeg (D : PathDetector) (s : Seg) : Seg := ⟨D.frame.toDet s.first, D.frame.toDet s.last, D.frame.toDetDir s.dir⟩

/-- Which kind of depth: column depth, or interaction depth for targets with cross sections and a decay length (`none`: infinite). -/
inductive Depth
  | column
  | interaction (targets : List (Int × ℝ)) (decay : Option ℝ)

/-- `GetColumnDepthInCGS` or `GetInteractionDepthInCGS` between two points (called at Path.cxx:533, 546, 563-609, 620-679). -/
noncomputable def PathDetector.depth (D : PathDetector) (I : Line) (p0 p1 : Vec3 ℝ) : Depth → Res ℝ
  | .column => D.model.columnDepth I p0 p1
  | .interaction ts l => D.model.interactionDepth I p0 p1 ts l

/-- `DistanceForColumnDepthFromPoint` or `DistanceForInteractionDepthFromPoint` (called at Path.cxx:689-741, 755-820). -/
noncomputable def PathDetector.distanceFor (D : PathDetector) (I : Line) (p0 dir : Vec3 ℝ) (x : ℝ) : Depth → Res EReal
  | .column => D.model.distanceForColumnDepth I p0 dir x
  | .interaction ts l => D.model.distanceForInteractionDepth I p0 dir x ts l

/-- `std::numeric_limits<int>::min()`, the level of the default sector `UNIVERSE`. -/
def intMin : Int := -2147483648

/-- `DetectorModel::GetOuterBounds(intersections)` (DetectorModel.cxx:1784-1803): the first and, further on in the list, the last crossing
of a sector other than the default one. -/
def outerBounds (l : List (Hit EReal)) : List (Hit EReal) :=
  let p := fun h : Hit EReal => decide (intMin < h.hierarchy)
  let minIndex := (l.findIdx? p).getD 0
  (l.find? p).toList ++ ((l.drop (minIndex + 1)).reverse.find? p).toList

namespace Path

/-- `Path()` and `Path(detector_model)` (Path.cxx:55-61). The default vectors are zero. -/
noncomputable def new (D : Option PathDetector) : Path :=
  { detector := D, setGeo := false, setDet := false, geo := ⟨0, 0, 0⟩, det := ⟨0, 0, 0⟩, distance := 0, firstInf := false, lastInf := false,
    setHits := false, hits := ⟨0, 0, []⟩ }

variable (p : Path)

/-- `UpdatePoints` (Path.cxx:17-29). -/
noncomputable def update : Path :=
  match p.detector with
  | none => p
  | some D =>
    if !p.setGeo && p.setDet then { p with geo := D.geoSeg p.det, setGeo := true }
    else if !p.setDet && p.setGeo then { p with det := D.detSeg p.geo, setDet := true }
    else p

/-- `GetFirstPoint` (Path.cxx:100-103). -/
noncomputable def firstPoint : Vec3 ℝ := p.update.det.first
/-- `GetLastPoint` (Path.cxx:105-108). -/
noncomputable def lastPoint : Vec3 ℝ := p.update.det.last
/-- `GetDirection` (Path.cxx:110-113). -/
noncomputable def direction : Vec3 ℝ := p.update.det.dir
/-- `GetGeoFirstPoint` (Path.cxx:115-118). -/
noncomputable def geoFirstPoint : Vec3 ℝ := p.update.geo.first
/-- `GetGeoLastPoint` (Path.cxx:120-123). -/
noncomputable def geoLastPoint : Vec3 ℝ := p.update.geo.last
/-- `GetGeoDirection` (Path.cxx:125-128). -/
noncomputable def geoDirection : Vec3 ℝ := p.update.geo.dir

/-- `SetDetectorModel` (Path.cxx:138-145). -/
noncomputable def setDetector (D : PathDetector) : Path :=
  let p := if p.detector.isSome && p.setDet then { p with setGeo := false } else p
  update { p with detector := some D }

/-- `SetPoints(GeometryPosition, GeometryPosition)` (Path.cxx:153-166) for finite points. -/
noncomputable def setPointsGeo (first last : Vec3 ℝ) : Path :=
  update { p with geo := ⟨first, last, Vec3.normalize (last - first)⟩, distance := (Vec3.norm (last - first) : ℝ), setGeo := true,
                  setDet := false, setHits := false, firstInf := false, lastInf := false }

/-- `SetPoints(DetectorPosition, DetectorPosition)` (Path.cxx:168-181) for finite points. -/
noncomputable def setPointsDet (first last : Vec3 ℝ) : Path :=
  update { p with det := ⟨first, last, Vec3.normalize (last - first)⟩, distance := (Vec3.norm (last - first) : ℝ), setGeo := false,
                  setDet := true, setHits := false, firstInf := false, lastInf := false }

/-- The test for a ray along the line of the cached intersections (Path.cxx:188-199, 221-234), in geometry coordinates. -/
noncomputable def collinear (I : Line) (first dir : Vec3 ℝ) : Bool :=
  let offset := first - I.position
  decide (1 - 1e-9 < |Vec3.dot (Vec3.normalize dir) I.direction|) &&
    decide (Vec3.norm (Vec3.cross offset I.direction) < 1e-6 * (1 + Vec3.norm offset))

/-- `SetPointsWithRay(GeometryPosition, GeometryDirection, distance)` (Path.cxx:183-214) for a finite point, a direction that is not zero and a
distance that may be infinite. -/
noncomputable def setRayGeo (first dir : Vec3 ℝ) (distance : EReal) : Path :=
  let keep := p.setHits && collinear p.hits first dir
  let d := Vec3.normalize dir
  update { p with geo := ⟨first, first + Vec3.smul distance.toReal d, d⟩, distance := distance, setGeo := true, setDet := false,
                  setHits := p.setHits && keep, firstInf := false, lastInf := decide (distance = ⊤ ∨ distance = ⊥) }

/-- `SetPointsWithRay(DetectorPosition, DetectorDirection, distance)` (Path.cxx:217-251). -/
noncomputable def setRayDet (first dir : Vec3 ℝ) (distance : EReal) : Path :=
  let keep := match p.detector with
    | none => false
    | some D => p.setHits && collinear p.hits (D.frame.toGeo first) (D.frame.toGeoDir dir)
  let d := Vec3.normalize dir
  update { p with det := ⟨first, first + Vec3.smul distance.toReal d, d⟩, distance := distance, setGeo := false, setDet := true,
                  setHits := p.setHits && keep, firstInf := false, lastInf := decide (distance = ⊤ ∨ distance = ⊥) }

/-- `EnsurePoints` (Path.cxx:253-258). -/
noncomputable def ensurePoints : Res Path := if p.update.setGeo then .ok p.update else .throws .runtimeError

/-- `ComputeIntersections` (Path.cxx:265-270). Casting a ray from a point at infinity is not modelled. -/
noncomputable def computeIntersections : Res Path :=
  match p.detector with
  | none => .throws .runtimeError
  | some D => p.ensurePoints.bind fun p => if p.firstInf then .ub else .ok { p with hits := D.cast p.geo.first p.geo.dir, setHits := true }

/-- `EnsureIntersections` (Path.cxx:272-276) and then `EnsurePoints`, the beginning of every depth query. -/
noncomputable def prepare : Res Path := (if p.setHits then .ok p else p.computeIntersections).bind fun p => p.ensurePoints

/-- `ClipToOuterBounds` (Path.cxx:278-311). Crossings at infinity make the direction NaN, on which the assertion in line 289 fails. -/
noncomputable def clip : Res Path :=
  p.prepare.bind fun p =>
    match outerBounds p.hits.hits with
    | [] => .ok p
    | [_] => .ub
    | b0 :: b1 :: _ =>
      if b0.distance = ⊤ ∨ b0.distance = ⊥ ∨ b1.distance = ⊤ ∨ b1.distance = ⊥ then .ub
      else
        let q0 := p.hits.position + Vec3.smul b0.distance.toReal p.hits.direction
        let q1 := p.hits.position + Vec3.smul b1.distance.toReal p.hits.direction
        let dot := Vec3.dot p.geo.dir (Vec3.normalize (q1 - q0))
        if ¬ (|1 - (|dot|)| < 1e-6) then .ub
        else
          let r0 := if dot < 0 then q1 else q0
          let r1 := if dot < 0 then q0 else q1
          let clip0 := p.firstInf || decide (0 < Vec3.dot (r0 - p.geo.first) p.geo.dir)
          let clip1 := p.lastInf || decide (Vec3.dot (r1 - p.geo.last) p.geo.dir < 0)
          let first := if clip0 then r0 else p.geo.first
          let last := if clip1 then r1 else p.geo.last
          .ok { p with geo := { p.geo with first := first, last := last },
                       firstInf := if clip0 then false else p.firstInf, lastInf := if clip1 then false else p.lastInf,
                       distance := if clip0 || clip1 then (Vec3.norm (last - first) : ℝ) else p.distance, setDet := false }

/-- `Flip` (Path.cxx:313-319). -/
def flip : Path :=
  { p with geo := ⟨p.geo.last, p.geo.first, -p.geo.dir⟩, det := ⟨p.det.last, p.det.first, -p.det.dir⟩, firstInf := p.lastInf,
           lastInf := p.firstInf }

/-- `ExtendFromEndByDistance` (Path.cxx:325-335). -/
noncomputable def extendEnd (d : ℝ) : Res Path :=
  p.ensurePoints.bind fun p =>
    if p.lastInf then .throws .runtimeError
    else if p.distance + (d : EReal) < 0 then
      .ok { p with distance := 0, geo := { p.geo with last := p.geo.first }, setDet := false }
    else .ok { p with distance := p.distance + (d : EReal), geo := { p.geo with last := p.geo.last + Vec3.smul d p.geo.dir }, setDet := false }

/-- `ExtendFromStartByDistance` (Path.cxx:337-347). -/
noncomputable def extendStart (d : ℝ) : Res Path :=
  p.ensurePoints.bind fun p =>
    if p.firstInf then .throws .runtimeError
    else if p.distance + (d : EReal) < 0 then
      .ok { p with distance := 0, geo := { p.geo with first := p.geo.last }, setDet := false }
    else .ok { p with distance := p.distance + (d : EReal), geo := { p.geo with first := p.geo.first + Vec3.smul (-d) p.geo.dir }, setDet := false }

/-- `ShrinkFromEndByDistance` (Path.cxx:349-351). -/
noncomputable def shrinkEnd (d : ℝ) : Res Path := p.extendEnd (-d)

/-- `ShrinkFromStartByDistance` (Path.cxx:353-355). -/
noncomputable def shrinkStart (d : ℝ) : Res Path := p.extendStart (-d)

/-- The distance of a finite path; the versions with `To` compare with it. For an infinite path the shift is infinite. -/
noncomputable def shiftTo (d : ℝ) (f : ℝ → Res Path) (sign : ℝ) : Res Path :=
  if p.distance = ⊤ then (if sign < 0 then .ub else .ok p)
  else if p.distance = ⊥ then .ub
  else if 0 < sign * (d - p.distance.toReal) then f (sign * (d - p.distance.toReal)) else .ok p

/-- `ExtendFromEndToDistance` (Path.cxx:421-426). -/
noncomputable def extendEndTo (d : ℝ) : Res Path := p.shiftTo d p.extendEnd 1
/-- `ExtendFromStartToDistance` (Path.cxx:428-433). -/
noncomputable def extendStartTo (d : ℝ) : Res Path := p.shiftTo d p.extendStart 1
/-- `ShrinkFromEndToDistance` (Path.cxx:435-440). -/
noncomputable def shrinkEndTo (d : ℝ) : Res Path := p.shiftTo d p.shrinkEnd (-1)
/-- `ShrinkFromStartToDistance` (Path.cxx:442-447). -/
noncomputable def shrinkStartTo (d : ℝ) : Res Path := p.shiftTo d p.shrinkStart (-1)

/-! ### Depths -/

/-- The beginning of a query: intersections, points, the detector, and the check of the ends named (Path.cxx:530-532 and so on). -/
noncomputable def query {α : Type} (needFirst needLast : Bool) (f : PathDetector → Path → Res α) : Res α :=
  p.prepare.bind fun p =>
    if (needFirst && p.firstInf) || (needLast && p.lastInf) then .throws .runtimeError
    else match p.detector with
      | none => .ub
      | some D => f D p

/-- `GetColumnDepthInBounds` and `GetInteractionDepthInBounds` (Path.cxx:529-534, 540-549). -/
noncomputable def depthInBounds (k : Depth) : Res ℝ := p.query true true fun D p => D.depth p.hits p.geo.first p.geo.last k

/-- `GetColumnDepthFromStartInBounds` and `GetInteractionDepthFromStartInBounds` (Path.cxx:555-565, 611-624). -/
noncomputable def depthFromStartInBounds (d : ℝ) (k : Depth) : Res ℝ :=
  if ¬ p.distance < (d : EReal) ∧ d ≤ 0 then .ok 0
  else
    let d := if p.distance < (d : EReal) then p.distance.toReal else d
    p.query true false fun D p => D.depth p.hits p.geo.first (p.geo.first + Vec3.smul d p.geo.dir) k

/-- `GetColumnDepthFromEndInBounds` and `GetInteractionDepthFromEndInBounds` (Path.cxx:567-577, 626-639). -/
noncomputable def depthFromEndInBounds (d : ℝ) (k : Depth) : Res ℝ :=
  if ¬ p.distance < (d : EReal) ∧ d ≤ 0 then .ok 0
  else
    let d := if p.distance < (d : EReal) then p.distance.toReal else d
    p.query false true fun D p => D.depth p.hits p.geo.last (p.geo.last + Vec3.smul (-d) p.geo.dir) k

/-- `std::copysign`; the sign of a zero distance is taken as positive. -/
noncomputable def copysign (x d : ℝ) : ℝ := if d < 0 then -|x| else |x|

/-- `Get...DepthFromStartAlongPath` (Path.cxx:579-584, 641-649). -/
noncomputable def depthFromStartAlongPath (d : ℝ) (k : Depth) : Res ℝ :=
  p.query true false fun D p => (D.depth p.hits p.geo.first (p.geo.first + Vec3.smul d p.geo.dir) k).bind fun x => .ok (copysign x d)
/-- `Get...DepthFromEndAlongPath` (Path.cxx:586-591, 651-659). -/
noncomputable def depthFromEndAlongPath (d : ℝ) (k : Depth) : Res ℝ :=
  p.query false true fun D p => (D.depth p.hits p.geo.last (p.geo.last + Vec3.smul d p.geo.dir) k).bind fun x => .ok (copysign x d)
/-- `Get...DepthFromStartInReverse` (Path.cxx:593-598, 661-669). -/
noncomputable def depthFromStartInReverse (d : ℝ) (k : Depth) : Res ℝ :=
  p.query true false fun D p => (D.depth p.hits p.geo.first (p.geo.first + Vec3.smul (-d) p.geo.dir) k).bind fun x => .ok (copysign x d)
/-- `Get...DepthFromEndInReverse` (Path.cxx:600-605, 671-679). -/
noncomputable def depthFromEndInReverse (d : ℝ) (k : Depth) : Res ℝ :=
  p.query false true fun D p => (D.depth p.hits p.geo.last (p.geo.last + Vec3.smul (-d) p.geo.dir) k).bind fun x => .ok (copysign x d)

/-- `GetDistanceFromStartAlongPath` (Path.cxx:711-717, 779-788). -/
noncomputable def distanceFromStartAlongPath (x : ℝ) (k : Depth) : Res EReal :=
  p.query true false fun D p => D.distanceFor p.hits p.geo.first p.geo.dir x k
/-- `GetDistanceFromEndAlongPath` (Path.cxx:719-725, 790-799). -/
noncomputable def distanceFromEndAlongPath (x : ℝ) (k : Depth) : Res EReal :=
  p.query false true fun D p => D.distanceFor p.hits p.geo.last p.geo.dir x k
/-- `GetDistanceFromStartInReverse` (Path.cxx:727-733, 801-810). -/
noncomputable def distanceFromStartInReverse (x : ℝ) (k : Depth) : Res EReal :=
  p.query true false fun D p => D.distanceFor p.hits p.geo.first (-p.geo.dir) x k
/-- `GetDistanceFromEndInReverse` (Path.cxx:735-741, 812-821). -/
noncomputable def distanceFromEndInReverse (x : ℝ) (k : Depth) : Res EReal :=
  p.query false true fun D p => D.distanceFor p.hits p.geo.last (-p.geo.dir) x k

/-- The end of the versions with `InBounds` (Path.cxx:690-695, 703-708, 756-761, 771-776). -/
noncomputable def clampDistance (x : ℝ) (d : EReal) : EReal := if p.distance < d then p.distance else if x ≤ 0 then 0 else d

/-- `GetDistanceFromStartInBounds(depth)` (Path.cxx:685-696, 747-761). -/
noncomputable def distanceFromStartInBounds (x : ℝ) (k : Depth) : Res EReal :=
  (p.distanceFromStartAlongPath x k).bind fun d => .ok (p.clampDistance x d)
/-- `GetDistanceFromEndInBounds(depth)` (Path.cxx:698-709, 763-777). -/
noncomputable def distanceFromEndInBounds (x : ℝ) (k : Depth) : Res EReal :=
  (p.distanceFromEndInReverse x k).bind fun d => .ok (p.clampDistance x d)

/-- Moving an end by a distance found by a query. The path with the cached intersections goes on. An infinite distance puts infinite or NaN
coordinates into the path without setting the flag; this is not modelled further. -/
noncomputable def moveBy (d : Res EReal) (f : Path → ℝ → Res Path) : Res Path :=
  d.bind fun d => if d = ⊤ ∨ d = ⊥ then .ub else p.prepare.bind fun p => f p d.toReal

/-- `ExtendFromEndBy...Depth` (Path.cxx:361-364, 385-391). -/
noncomputable def extendEndBy (x : ℝ) (k : Depth) : Res Path := p.moveBy (p.distanceFromEndAlongPath x k) extendEnd
/-- `ExtendFromStartBy...Depth` (Path.cxx:366-369, 393-399). -/
noncomputable def extendStartBy (x : ℝ) (k : Depth) : Res Path := p.moveBy (p.distanceFromStartInReverse x k) extendStart
/-- `ShrinkFromEndBy...Depth` (Path.cxx:371-374, 401-407). -/
noncomputable def shrinkEndBy (x : ℝ) (k : Depth) : Res Path := p.moveBy (p.distanceFromEndInReverse x k) shrinkEnd
/-- `ShrinkFromStartBy...Depth` (Path.cxx:376-379, 409-415). -/
noncomputable def shrinkStartBy (x : ℝ) (k : Depth) : Res Path := p.moveBy (p.distanceFromStartAlongPath x k) shrinkStart

/-- The versions with `To`: the shift is the difference to the depth of the path, and nothing happens unless it is positive. -/
noncomputable def shiftToDepth (x : ℝ) (k : Depth) (f : ℝ → Res Path) (sign : ℝ) : Res Path :=
  (p.depthInBounds k).bind fun t => if 0 < sign * (x - t) then f (sign * (x - t)) else p.prepare

/-- `ExtendFromEndTo...Depth` (Path.cxx:453-458, 485-493). -/
noncomputable def extendEndToDepth (x : ℝ) (k : Depth) : Res Path := p.shiftToDepth x k (p.extendEndBy · k) 1
/-- `ExtendFromStartTo...Depth` (Path.cxx:460-465, 495-503). -/
noncomputable def extendStartToDepth (x : ℝ) (k : Depth) : Res Path := p.shiftToDepth x k (p.extendStartBy · k) 1
/-- `ShrinkFromEndTo...Depth` (Path.cxx:467-472, 505-513). -/
noncomputable def shrinkEndToDepth (x : ℝ) (k : Depth) : Res Path := p.shiftToDepth x k (p.shrinkEndBy · k) (-1)
/-- `ShrinkFromStartTo...Depth` (Path.cxx:474-479, 515-523). -/
noncomputable def shrinkStartToDepth (x : ℝ) (k : Depth) : Res Path := p.shiftToDepth x k (p.shrinkStartBy · k) (-1)

/-! ### Points -/

/-- `IsWithinBounds(GeometryPosition)` (Path.cxx:824-835). -/
noncomputable def withinGeo (x : Vec3 ℝ) : Res Bool :=
  let q := p.update
  if q.firstInf || q.lastInf then .throws .runtimeError
  else if q.setGeo then
    .ok (decide (Vec3.dot q.geo.dir (q.geo.first - x) ≤ 0) && decide (0 ≤ Vec3.dot q.geo.dir (q.geo.last - x)))
  else .throws .runtimeError

/-- `IsWithinBounds(DetectorPosition)` (Path.cxx:849-868). -/
noncomputable def withinDet (x : Vec3 ℝ) : Res Bool :=
  let q := p.update
  if q.firstInf || q.lastInf then .throws .runtimeError
  else if q.setDet then
    let d0 := Vec3.dot q.det.dir (q.det.first - x)
    let d1 := Vec3.dot q.det.dir (q.det.last - x)
    let d0 := if 0 < d0 ∧ d0 < 1e-3 then 0 else d0
    let d1 := if d1 < 0 ∧ -1e-3 < d1 then 0 else d1
    .ok (decide (d0 ≤ 0) && decide (0 ≤ d1))
  else if q.setGeo then
    match q.detector with
    | some D => q.withinGeo (D.frame.toGeo x)
    | none => .throws .runtimeError
  else .throws .runtimeError

/-- `GetDistanceFromStartInBounds(GeometryPosition)` (Path.cxx:837-847). -/
noncomputable def pointFromStartGeo (x : Vec3 ℝ) : Res ℝ :=
  let q := p.update
  if q.firstInf then .throws .runtimeError
  else if q.setGeo then .ok (max 0 (Vec3.dot q.geo.dir (x - q.geo.first)))
  else .throws .runtimeError

/-- `GetDistanceFromStartInBounds(DetectorPosition)` (Path.cxx:870-881). -/
noncomputable def pointFromStartDet (x : Vec3 ℝ) : Res ℝ :=
  let q := p.update
  if q.firstInf then .throws .runtimeError
  else if q.setDet then .ok (max 0 (Vec3.dot q.det.dir (x - q.det.first)))
  else if q.setGeo then
    match q.detector with
    | some D => q.pointFromStartGeo (D.frame.toGeo x)
    | none => .throws .runtimeError
  else .throws .runtimeError

end Path

end Siren.Detector
