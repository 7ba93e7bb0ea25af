import Verif.Math.Quaternion
import Verif.Util.Random
import Mathlib.Analysis.SpecialFunctions.Trigonometric.Inverse

set_option autoImplicit false

/-!
# Primary directions

Models `distributions/private/primary/direction/*.cxx`. Doubles are real numbers, the outputs of the random generator are parameters, and `none`
stands for a vector or quaternion of NaNs. `M_PI` is π.
-/

namespace Siren.Distributions

open Siren.Util

/-- `Vector3D` with its cached spherical coordinates, which `operator==` compares too (math/public/SIREN/math/Vector3D.h). -/
@[ext] structure SphVec where
  cart : Vec3 ℝ
  radius : ℝ
  azimuth : ℝ
  zenith : ℝ

/-- `Vector3D(x, y, z)` (math/private/Vector3D.cxx:22-26). -/
def SphVec.new (v : Vec3 ℝ) : SphVec := ⟨v, 0, 0, 0⟩

open Classical in
/-- `Vector3D::normalize` (math/private/Vector3D.cxx:265-275): sets the cached radius, too. -/
noncomputable def SphVec.normalize (v : SphVec) : SphVec := if Vec3.norm v.cart = 0 then v else { v with cart := Vec3.normalize v.cart, radius := 1 }

/-- `Cone` (distributions/public/SIREN/distributions/primary/direction/Cone.h:29-34). -/
structure Cone where
  dir : Vec3 ℝ
  rotation : Option Quat
  openingAngle : ℝ

open Classical in
/-- `Quaternion::normalize` (math/private/Quaternion.cxx:388-396) with its outcome for a quaternion of length zero: `0 * inf`. -/
noncomputable def normalizeQuat (q : Quat) : Option Quat := if q.normSq = 0 then none else some q.normalize

open Classical in
/-- The constructor (Cone.cxx:23-35). In its body `dir` is the argument, not the normalized member. -/
noncomputable def Cone.new (dir : SphVec) (openingAngle : ℝ) : Cone :=
  let this := dir.normalize
  { dir := this.cart
    rotation :=
      if this = SphVec.new ⟨0, 0, 1⟩ then some ⟨0, 0, 0, 1⟩
      else if this = SphVec.new ⟨0, 0, -1⟩ then some ⟨0, 1, 0, 0⟩
      else
        let r := Vec3.cross ⟨0, 0, 1⟩ dir.cart
        normalizeQuat ⟨r.x, r.y, r.z, 1 + dir.cart.z⟩
    openingAngle := openingAngle }

/-- `QFromZXZr` (math/public/SIREN/math/EulerQuaternionConversions.h:20-35), called through `SetEulerAnglesZXZr`
(math/private/Quaternion.cxx:490-493). -/
noncomputable def quatZXZr (alpha beta gamma : ℝ) : Quat :=
  let alpha := alpha * (1 / 2)
  let beta := beta * (1 / 2)
  let gamma := gamma * (1 / 2)
  let cb := Real.cos beta
  let sb := Real.sin beta
  ⟨sb * Real.cos (alpha - gamma), sb * Real.sin (alpha - gamma), cb * Real.sin (alpha + gamma), cb * Real.cos (alpha + gamma)⟩

/-- `Cone::SampleDirection` (Cone.cxx:37-43); `g1` and `g2` are the outputs of the random generator. -/
noncomputable def Cone.sample (c : Cone) (g1 g2 : ℝ) : Option (Vec3 ℝ) :=
  let theta := Real.arccos (uniform (Real.cos c.openingAngle) 1 g1)
  let phi := uniform 0 (2 * Real.pi) g2
  let q := quatZXZr phi theta 0
  c.rotation.map fun r => r.rotate (q.rotate ⟨0, 0, 1⟩ false) false

open Classical in
/-- `Cone::GenerationProbability` (Cone.cxx:45-58); `momentum` is the spatial momentum of the primary in the record. -/
noncomputable def Cone.generationProbability (c : Cone) (momentum : Vec3 ℝ) : ℝ :=
  let eventDir := Vec3.normalize momentum
  let x := Vec3.dot c.dir eventDir
  let theta := if 1 < x then 0 else Real.arccos x
  if theta < c.openingAngle then 1 / (2 * Real.pi * (1 - Real.cos c.openingAngle)) else 0

/-- `FixedDirection` with its constructor (distributions/public/SIREN/distributions/primary/direction/FixedDirection.h:28-35). -/
structure FixedDirection where
  dir : Vec3 ℝ

/-- `FixedDirection::SampleDirection` (FixedDirection.cxx:22-24). -/
def FixedDirection.sample (f : FixedDirection) : Vec3 ℝ := f.dir

open Classical in
/-- `FixedDirection::GenerationProbability` (FixedDirection.cxx:26-33). The unqualified `abs` is taken to be the overload for doubles (it
is with the `stdlib.h` of the usual standard libraries). -/
noncomputable def FixedDirection.generationProbability (f : FixedDirection) (momentum : Vec3 ℝ) : ℝ :=
  if |1 - Vec3.dot f.dir (Vec3.normalize momentum)| < 1e-9 then 1 else 0

/-- `IsotropicDirection::SampleDirection` (IsotropicDirection.cxx:20-29). -/
noncomputable def isotropicSample (g1 g2 : ℝ) : Vec3 ℝ :=
  let nz := uniform (-1) 1 g1
  let nr := Real.sqrt (1 - nz * nz)
  let phi := uniform (-Real.pi) Real.pi g2
  Vec3.normalize ⟨nr * Real.cos phi, nr * Real.sin phi, nz⟩

/-- `IsotropicDirection::GenerationProbability` (IsotropicDirection.cxx:31-33). -/
noncomputable def isotropicProbability (_momentum : Vec3 ℝ) : ℝ := 1 / (4 * Real.pi)

end Siren.Distributions
