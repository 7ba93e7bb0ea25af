import Verif.Detector.DepthModel
import Verif.Math.Quaternion

set_option autoImplicit false

/-!
# Detector and geometry coordinates

Models the conversions and the overloads that take detector coordinates (detector/private/DetectorModel.cxx:125-155,
2023-2162). The overloads with an intersection list are modelled; those without one first call `GetIntersections` of the same
converted arguments.
-/

namespace Siren.Detector

open Siren

/-- `detector_origin_` and `detector_rotation_` (detector/public/SIREN/detector/DetectorModel.h:75-76). `SetDetectorRotation`
(DetectorModel.cxx:243-245) stores any quaternion. -/
structure Frame where
  origin : Vec3 ℝ
  rotation : Quat

namespace Frame

/-- `ToDet(GeometryPosition)` (DetectorModel.cxx:125-127, 133-135). -/
noncomputable def toDet (F : Frame) (p : Vec3 ℝ) : Vec3 ℝ := F.rotation.rotate (p - F.origin) true

/-- `ToDet(GeometryDirection)` (DetectorModel.cxx:129-131, 137-139). -/
noncomputable def toDetDir (F : Frame) (d : Vec3 ℝ) : Vec3 ℝ := F.rotation.rotate d true

/-- `ToGeo(DetectorPosition)` (DetectorModel.cxx:141-143, 149-151). -/
noncomputable def toGeo (F : Frame) (p : Vec3 ℝ) : Vec3 ℝ := F.rotation.rotate p false + F.origin

/-- `ToGeo(DetectorDirection)` (DetectorModel.cxx:145-147, 153-155). -/
noncomputable def toGeoDir (F : Frame) (d : Vec3 ℝ) : Vec3 ℝ := F.rotation.rotate d false

variable (F : Frame) (m : DetModel) (I : Line)

/-- `GetMassDensity(intersections, DetectorPosition)` (DetectorModel.cxx:2023-2025). -/
noncomputable def massDensity (p0 : Vec3 ℝ) : Res ℝ := m.massDensity I (F.toGeo p0)

/-- `GetParticleDensity(intersections, DetectorPosition, target)` (DetectorModel.cxx:2031-2033). -/
noncomputable def particleDensity (p0 : Vec3 ℝ) (target : Int) : Res ℝ := m.particleDensity I (F.toGeo p0) target

/-- `GetInteractionDensity(intersections, DetectorPosition, ...)` (DetectorModel.cxx:2039-2044). -/
noncomputable def interactionDensity (p0 : Vec3 ℝ) (targets : List (Int × ℝ)) (decay : Option ℝ) : Res ℝ :=
  m.interactionDensity I (F.toGeo p0) targets decay

/-- `GetColumnDepthInCGS(intersections, DetectorPosition, DetectorPosition)` (DetectorModel.cxx:2053-2055). -/
noncomputable def columnDepth (p0 p1 : Vec3 ℝ) : Res ℝ := m.columnDepth I (F.toGeo p0) (F.toGeo p1)

/-- `DistanceForColumnDepthFromPoint` in detector coordinates (DetectorModel.cxx:2061-2063). -/
noncomputable def distanceForColumnDepth (p0 dir : Vec3 ℝ) (depth : ℝ) : Res EReal :=
  m.distanceForColumnDepth I (F.toGeo p0) (F.toGeoDir dir) depth

/-- `DistanceForColumnDepthToPoint` in detector coordinates (DetectorModel.cxx:2069-2071): calls `...FromPoint`, and the
direction is not reversed. -/
noncomputable def distanceForColumnDepthToPoint (p0 dir : Vec3 ℝ) (depth : ℝ) : Res EReal :=
  m.distanceForColumnDepth I (F.toGeo p0) (F.toGeoDir dir) depth

/-- `GetInteractionDepthInCGS(intersections, DetectorPosition, ...)` (DetectorModel.cxx:2093-2098). -/
noncomputable def interactionDepth (p0 p1 : Vec3 ℝ) (targets : List (Int × ℝ)) (decay : Option ℝ) : Res ℝ :=
  m.interactionDepth I (F.toGeo p0) (F.toGeo p1) targets decay

/-- `GetParticleColumnDepth(intersections, DetectorPosition, ...)` (DetectorModel.cxx:2100-2102). -/
noncomputable def particleColumnDepth (p0 p1 : Vec3 ℝ) (targets : List Int) : Res (List ℝ) :=
  m.particleColumnDepth I (F.toGeo p0) (F.toGeo p1) targets

/-- `GetContainingSector(intersections, DetectorPosition)` (DetectorModel.cxx:2111-2113). -/
noncomputable def containingSector (p0 : Vec3 ℝ) : Res (Option Sector) := m.containingSector I (F.toGeo p0)

/-- `DistanceForInteractionDepthFromPoint` in detector coordinates (DetectorModel.cxx:2136-2141). -/
noncomputable def distanceForInteractionDepth (p0 dir : Vec3 ℝ) (depth : ℝ) (targets : List (Int × ℝ)) (decay : Option ℝ) :
    Res EReal :=
  m.distanceForInteractionDepth I (F.toGeo p0) (F.toGeoDir dir) depth targets decay

/-- `DistanceForInteractionDepthToPoint` in detector coordinates (DetectorModel.cxx:2150-2155): the direction is not
reversed. -/
noncomputable def distanceForInteractionDepthToPoint (p0 dir : Vec3 ℝ) (depth : ℝ) (targets : List (Int × ℝ))
    (decay : Option ℝ) : Res EReal :=
  m.distanceForInteractionDepth I (F.toGeo p0) (F.toGeoDir dir) depth targets decay

end Frame

/-- `DistanceForInteractionDepthToPoint(intersections, GeometryPosition, ...)` (DetectorModel.cxx:2006-2011). -/
noncomputable def DetModel.distanceForInteractionDepthToPoint (m : DetModel) (I : Line) (p0 dir : Vec3 ℝ) (depth : ℝ)
    (targets : List (Int × ℝ)) (decay : Option ℝ) : Res EReal :=
  m.distanceForInteractionDepth I p0 (-dir) depth targets decay

end Siren.Detector
