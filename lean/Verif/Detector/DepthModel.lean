import Verif.Detector.Spec
import Verif.Math.Vec3
import Mathlib.Data.EReal.Operations

set_option autoImplicit false

/-!
# Densities and depths along a line

Models the density and depth queries of `detector/private/DetectorModel.cxx` that walk an intersection list.

Numbers: coordinates are reals; distances of crossings are extended reals, because the default `UNIVERSE` sector is a
sphere of infinite radius whose crossings are at minus and plus infinity. `assert` failing is modelled as `ub`.
-/

namespace Siren.Detector

/-- The virtual interface of `DensityDistribution`
(detector/public/SIREN/detector/DensityDistribution.h:72-92), restricted to what the depth queries call. Distances may
be infinite; the value of `integral` for an infinite length is never used by the modelled code afterwards, so it is left
as an arbitrary real. `inverse` and `inverseC` (the overload with an added constant) return a negative number when the
requested integral is not reached; the requested integral may be infinite (division by a zero composition). -/
structure Density where
  evaluate : Vec3 ℝ → ℝ
  integral : Vec3 ℝ → Vec3 ℝ → EReal → ℝ
  inverse : Vec3 ℝ → Vec3 ℝ → EReal → EReal → ℝ
  inverseC : Vec3 ℝ → Vec3 ℝ → ℝ → EReal → EReal → ℝ

/-- `DetectorSector` (detector/public/SIREN/detector/DetectorModel.h:49-73) without name and shape. -/
structure Sector where
  level : Int
  materialId : Int
  density : Density

/-- The parts of `DetectorModel` the queries read: the sectors and the particle fractions of the materials
(`MaterialModel::GetTargetParticleFraction`, detector/private/MaterialModel.cxx:330-337). -/
structure DetModel where
  sectors : List Sector
  particleFraction : Int → Int → ℝ

/-- `DetectorModel::GetSector(int)` (detector/private/DetectorModel.cxx:261-269): `map::at` throws for an unknown level.
Levels are unique (C27), so the map lookup is a search. -/
def DetModel.getSector (m : DetModel) (level : Int) : Res Sector :=
  match m.sectors.find? (fun s => s.level == level) with
  | some s => .ok s
  | none => .throws .outOfRange

/-- `Geometry::IntersectionList` (geometry/public/SIREN/geometry/Geometry.h:97-121). -/
structure Line where
  position : Vec3 ℝ
  direction : Vec3 ℝ
  hits : List (Hit EReal)

/-- `offset + dot * distance` for `dot = 1` or `dot = -1` (`neg`). -/
noncomputable def along (offset : ℝ) (neg : Bool) (d : EReal) : EReal := (offset : EReal) + (if neg then -d else d)

/-- `distance / total_decay_length`; `none` is an infinite decay length. -/
noncomputable def overDecay (distance : ℝ) : Option ℝ → ℝ
  | none => 0
  | some l => distance / l

/-- The callback shared by `GetColumnDepthInCGS` (detector/private/DetectorModel.cxx:1013-1028),
`GetInteractionDepthInCGS` (1253-1272) and `GetParticleColumnDepth` (1311-1329); `add` is what each does with the sector
level, the start point and the segment length. The segment is finite when it is used, because it is clipped to
`[0, distance]`. -/
noncomputable def depthCallback {σ : Type} (offset : ℝ) (neg : Bool) (distance : ℝ)
    (add : σ → Int → ℝ → ℝ → Res σ) (s : σ) (cur i : Hit EReal) (last : EReal) : Res (Bool × σ) :=
  let endPoint : EReal := min (along offset neg i.distance) (distance : EReal)
  let startPoint : EReal := max (max (along offset neg cur.distance) 0) (along offset neg last)
  let done : Bool := decide ((distance : EReal) ≤ along offset neg i.distance)
  if 0 < endPoint then
    (add s cur.hierarchy startPoint.toReal (endPoint.toReal - startPoint.toReal)).bind fun s => .ok (done, s)
  else .ok (done, s)

/-- The common part of the depth queries: direction, offset and sign of the walk
(detector/private/DetectorModel.cxx:994-1009). `f` continues with the direction, the distance, the offset and whether
the walk is against the direction of the list. -/
noncomputable def withLine {α : Type} (I : Line) (p0 p1 : Vec3 ℝ) (zero : α)
    (f : Vec3 ℝ → ℝ → ℝ → Bool → Res α) : Res α :=
  let direction := p1 - p0
  let distance := Vec3.norm direction
  if distance = 0 then .ok zero
  else
    let direction := Vec3.normalize direction
    let dot := Vec3.dot I.direction direction
    if ¬ (|1 - (|dot|)| < 1e-6) then .ub
    else
      let offset := Vec3.dot (I.position - p0) direction
      f direction distance offset (decide (dot < 0))

/-- `DetectorModel::GetColumnDepthInCGS(intersections, p0, p1)` (detector/private/DetectorModel.cxx:990-1033). The test
`p0 == p1` is subsumed by the test for distance zero. -/
noncomputable def DetModel.columnDepth (m : DetModel) (I : Line) (p0 p1 : Vec3 ℝ) : Res ℝ :=
  withLine I p0 p1 0 fun direction distance offset neg =>
    (sectorLoop (depthCallback offset neg distance (fun (acc : ℝ) level start len =>
        (m.getSector level).bind fun sector =>
          .ok (acc + sector.density.integral (p0 + Vec3.smul start direction) direction (len : EReal))))
      I.hits neg 0).bind fun acc => .ok (acc * 100)

/-- `DetectorModel::GetParticleColumnDepth` (detector/private/DetectorModel.cxx:1287-1334). -/
noncomputable def DetModel.particleColumnDepth (m : DetModel) (I : Line) (p0 p1 : Vec3 ℝ) (targets : List Int) :
    Res (List ℝ) :=
  withLine I p0 p1 (targets.map fun _ => 0) fun direction distance offset neg =>
    sectorLoop (depthCallback offset neg distance (fun (acc : List ℝ) level start len =>
        (m.getSector level).bind fun sector =>
          let integral := sector.density.integral (p0 + Vec3.smul start direction) direction (len : EReal)
          .ok (List.zipWith (fun c t => c + (integral * 100) * m.particleFraction sector.materialId t) acc targets)))
      I.hits neg (targets.map fun _ => 0)

/-- `DetectorModel::GetInteractionDepthInCGS(intersections, p0, p1, targets, total_cross_sections, total_decay_length)`
(detector/private/DetectorModel.cxx:1219-1285). `targets` is paired with its cross sections (the code indexes two
vectors in parallel). The compensated sum of lines 1280 and 53-71 is an exact sum here. -/
noncomputable def DetModel.interactionDepth (m : DetModel) (I : Line) (p0 p1 : Vec3 ℝ) (targets : List (Int × ℝ))
    (decay : Option ℝ) : Res ℝ :=
  let distance := Vec3.norm (p1 - p0)
  if distance = 0 then .ok 0
  else if targets = [] then .ok (overDecay distance decay)
  else if distance ≤ 1e-5 then .ok (overDecay distance decay)
  else
    withLine I p0 p1 0 fun direction distance offset neg =>
      (sectorLoop (depthCallback offset neg distance (fun (acc : List ℝ) level start len =>
          (m.getSector level).bind fun sector =>
            let integral := sector.density.integral (p0 + Vec3.smul start direction) direction (len : EReal)
            .ok (List.zipWith (fun c t => c + (integral * 100) * m.particleFraction sector.materialId t.1) acc targets)))
        I.hits neg (targets.map fun _ => 0)).bind fun depths =>
          .ok ((List.zipWith (fun d t => d * t.2) depths targets).sum + overDecay distance decay)

/-- The callback of `GetMassDensity(intersections, p0)` (detector/private/DetectorModel.cxx:839-852); the same test is
used by `GetParticleDensity` (892-906) and `GetInteractionDensity` (948-967). `found` is what is done with the level. -/
noncomputable def pointCallback {σ : Type} (offset : ℝ) (neg : Bool) (found : σ → Int → Res σ) (s : σ)
    (cur i : Hit EReal) (last : EReal) : Res (Bool × σ) :=
  let endPoint := along offset neg i.distance
  let startPoint := max (along offset neg cur.distance) (along offset neg last)
  if startPoint ≤ 0 ∧ 0 ≤ endPoint then (found s cur.hierarchy).bind fun s => .ok (true, s) else .ok (false, s)

/-- The common part of the point queries (detector/private/DetectorModel.cxx:822-836): the direction is towards `p0`, or
the direction of the list when `p0` is its position. -/
noncomputable def withPoint {α : Type} (I : Line) (p0 : Vec3 ℝ) (f : ℝ → Bool → Res α) : Res α :=
  let d := p0 - I.position
  let direction := if Vec3.norm d = 0 then I.direction else Vec3.normalize d
  let dot := Vec3.dot direction I.direction
  if ¬ (|1 - (|dot|)| < 1e-6) then .ub
  else
    let offset := Vec3.dot (I.position - p0) direction
    f offset (decide (dot < 0))

/-- `DetectorModel::GetMassDensity(intersections, p0)` (detector/private/DetectorModel.cxx:821-859). The initial NaN is
`none`; the final `assert(density >= 0)` fails on NaN. -/
noncomputable def DetModel.massDensity (m : DetModel) (I : Line) (p0 : Vec3 ℝ) : Res ℝ :=
  withPoint I p0 fun offset neg =>
    (sectorLoop (pointCallback offset neg (fun (_ : Option ℝ) level =>
        (m.getSector level).bind fun sector => .ok (some (sector.density.evaluate p0)))) I.hits neg none).bind fun
      | some density => if 0 ≤ density then .ok density else .ub
      | none => .ub

/-- `DetectorModel::GetParticleDensity(intersections, p0, target)` (detector/private/DetectorModel.cxx:874-913). -/
noncomputable def DetModel.particleDensity (m : DetModel) (I : Line) (p0 : Vec3 ℝ) (target : Int) : Res ℝ :=
  withPoint I p0 fun offset neg =>
    (sectorLoop (pointCallback offset neg (fun (_ : Option ℝ) level =>
        (m.getSector level).bind fun sector =>
          .ok (some (sector.density.evaluate p0 * m.particleFraction sector.materialId target)))) I.hits neg none).bind fun
      | some density => if 0 ≤ density then .ok density else .ub
      | none => .ub

/-- `DetectorModel::GetInteractionDensity(intersections, p0, targets, total_cross_sections, total_decay_length)`
(detector/private/DetectorModel.cxx:921-976). The direction falls back to that of the list within `distance_threshold`
(1e-5) of its position instead of exactly at it. -/
noncomputable def DetModel.interactionDensity (m : DetModel) (I : Line) (p0 : Vec3 ℝ) (targets : List (Int × ℝ))
    (decay : Option ℝ) : Res ℝ :=
  let d := p0 - I.position
  let direction := if Vec3.norm d ≤ 1e-5 then I.direction else Vec3.normalize d
  if targets = [] then .ok (overDecay 1 decay)
  else
    let dot := Vec3.dot direction I.direction
    if ¬ (|1 - (|dot|)| < 1e-6) then .ub
    else
      let offset := Vec3.dot (I.position - p0) direction
      let neg := decide (dot < 0)
      (sectorLoop (pointCallback offset neg (fun (_ : Option ℝ) level =>
          (m.getSector level).bind fun sector =>
            let density := sector.density.evaluate p0
            .ok (some ((targets.map fun t => density * m.particleFraction sector.materialId t.1 * t.2).sum * 100))))
        I.hits neg none).bind fun
      | some density => if 0 ≤ density then .ok (density + overDecay 1 decay) else .ub
      | none => .ub

/-- `DetectorModel::GetContainingSector(intersections, p0)` (detector/private/DetectorModel.cxx:1354-1383). `dot` is a
square there, so it is never negative and the walk is always forward. `none` is the default-constructed sector. -/
noncomputable def DetModel.containingSector (m : DetModel) (I : Line) (p0 : Vec3 ℝ) : Res (Option Sector) :=
  let offset := Vec3.dot (I.position - p0) I.direction
  sectorLoop (fun (s : Option Sector) cur i _ =>
      let endPoint := along offset false i.distance
      let startPoint := along offset false cur.distance
      if (startPoint < 0 ∧ 0 < endPoint) ∨ startPoint = 0 then
        (m.getSector cur.hierarchy).bind fun sector => .ok (true, some sector)
      else .ok (false, s)) I.hits false none

/-- The callback and result of `DistanceForColumnDepthFromPoint` (detector/private/DetectorModel.cxx:1071-1095): state is
(total column depth, total distance). -/
noncomputable def DetModel.distanceCallback (m : DetModel) (p0 direction : Vec3 ℝ) (offset : ℝ) (neg : Bool)
    (depth : ℝ) (s : ℝ × EReal) (cur i : Hit EReal) (last : EReal) : Res (Bool × (ℝ × EReal)) :=
  let endPoint := along offset neg i.distance
  if 0 < endPoint then
    let startPoint : EReal := max (max (along offset neg cur.distance) 0) (along offset neg last)
    let segment : EReal := endPoint - startPoint
    (m.getSector cur.hierarchy).bind fun sector =>
      let target := depth - s.1
      let p := p0 + Vec3.smul startPoint.toReal direction
      let distance := sector.density.inverse p direction (target : EReal) segment
      let done := decide (0 ≤ distance)
      .ok (done, (s.1 + sector.density.integral p direction segment,
        if done then startPoint + (distance : EReal) else startPoint + segment))
  else .ok (false, s)

/-- `DetectorModel::DistanceForColumnDepthFromPoint(intersections, p0, dir, column_depth)`
(detector/private/DetectorModel.cxx:1050-1104). -/
noncomputable def DetModel.distanceForColumnDepth (m : DetModel) (I : Line) (p0 dir : Vec3 ℝ) (columnDepth : ℝ) :
    Res EReal :=
  let columnDepth := columnDepth / 100
  let flip := decide (columnDepth < 0)
  let direction := if flip then -dir else dir
  let columnDepth := if flip then columnDepth * (-1) else columnDepth
  let dot := Vec3.dot I.direction direction
  if ¬ (|1 - (|dot|)| < 1e-6) then .ub
  else
    let offset := Vec3.dot (I.position - p0) direction
    let neg := decide (dot < 0)
    (sectorLoop (m.distanceCallback p0 direction offset neg columnDepth) I.hits neg (0, 0)).bind fun s =>
      .ok (if flip then -s.2 else s.2)

/-- `DetectorModel::DistanceForColumnDepthToPoint(intersections, p0, direction, column_depth)`
(detector/private/DetectorModel.cxx:1111-1113). -/
noncomputable def DetModel.distanceForColumnDepthToPoint (m : DetModel) (I : Line) (p0 dir : Vec3 ℝ) (columnDepth : ℝ) :
    Res EReal :=
  m.distanceForColumnDepth I p0 (-dir) columnDepth

/-- The callback of `DistanceForInteractionDepthFromPoint` (detector/private/DetectorModel.cxx:1946-1987). `comp` is the
target composition; dividing by a zero composition gives an infinite target. -/
noncomputable def DetModel.interactionCallback (m : DetModel) (p0 direction : Vec3 ℝ) (offset : ℝ) (neg : Bool)
    (depth : ℝ) (targets : List (Int × ℝ)) (decay : Option ℝ) (s : ℝ × EReal) (cur i : Hit EReal) (last : EReal) :
    Res (Bool × (ℝ × EReal)) :=
  let endPoint := along offset neg i.distance
  if 0 < endPoint then
    let startPoint : EReal := max (max (along offset neg cur.distance) 0) (along offset neg last)
    let segment : EReal := endPoint - startPoint
    (m.getSector cur.hierarchy).bind fun sector =>
      let comp := (targets.map fun t => m.particleFraction sector.materialId t.1 * t.2).sum
      let target := (depth - s.1) / 100
      let target : EReal := if comp = 0 then ⊤ else ((target / comp : ℝ) : EReal)
      let p := p0 + Vec3.smul startPoint.toReal direction
      let distance : ℝ := match decay with
        | some l => sector.density.inverseC p direction (1 / (l * 100 * comp)) target segment
        | none => sector.density.inverse p direction target segment
      let done := decide (0 ≤ distance)
      .ok (done, (s.1 + sector.density.integral p direction segment * (comp * 100),
        if done then startPoint + (distance : EReal) else startPoint + segment))
  else .ok (false, s)

/-- `DetectorModel::DistanceForInteractionDepthFromPoint` (detector/private/DetectorModel.cxx:1915-1996). -/
noncomputable def DetModel.distanceForInteractionDepth (m : DetModel) (I : Line) (p0 dir : Vec3 ℝ) (depth : ℝ)
    (targets : List (Int × ℝ)) (decay : Option ℝ) : Res EReal :=
  let flip := decide (depth < 0)
  let direction := if flip then -dir else dir
  let depth := if flip then depth * (-1) else depth
  if targets = [] then
    match decay with
    | some l => .ok ((depth * l : ℝ) : EReal)
    | none => .ok ⊤
  else
    let dot := Vec3.dot I.direction direction
    if ¬ (|1 - (|dot|)| < 1e-6) then .ub
    else
      let offset := Vec3.dot (I.position - p0) direction
      let neg := decide (dot < 0)
      (sectorLoop (m.interactionCallback p0 direction offset neg depth targets decay) I.hits neg (0, 0)).bind fun s =>
        .ok (if flip then -s.2 else s.2)

end Siren.Detector
