import Verif.Math.Vec3
import Verif.Geometry.Phi

set_option autoImplicit false

/-!
# Vectors with spherical coordinates

Models the part of `math/private/Vector3D.cxx` where the second member of `Vector3D`, the spherical coordinates, matters:
they are stored, not computed on demand. Components are real numbers.
-/

namespace Siren.Spherical

open Siren.Geometry.Phi (atan2)

/-- `SphericalCoordinates` (math/public/SIREN/math/Vector3D.h:121-139). -/
@[ext] structure Sph where
  radius : ℝ
  azimuth : ℝ
  zenith : ℝ

/-- `Vector3D` (math/public/SIREN/math/Vector3D.h:185-188): `cartesian_` and `spherical_`. -/
@[ext] structure Vector where
  cart : Vec3 ℝ
  sph : Sph

/-- `Vector3D(x, y, z)` (math/private/Vector3D.cxx:22-26): the spherical coordinates are zero. The results of the operators
`+`, `-`, `*`, `/` (142-228) and of `vector_product` (243-250) are constructed in the same way. -/
def Vector.make (v : Vec3 ℝ) : Vector := ⟨v, ⟨0, 0, 0⟩⟩

/-- `operator==` (math/private/Vector3D.cxx:79-96). -/
def Vector.equal (a b : Vector) : Prop :=
  a.cart.x = b.cart.x ∧ a.cart.y = b.cart.y ∧ a.cart.z = b.cart.z ∧
  a.sph.radius = b.sph.radius ∧ a.sph.azimuth = b.sph.azimuth ∧ a.sph.zenith = b.sph.zenith

/-- `operator+=` (math/private/Vector3D.cxx:163-169); `-=`, `*=` and `/=` (181-187, 202-208, 230-236) leave the spherical
coordinates alone as well. -/
def Vector.addAssign (a b : Vector) : Vector := { a with cart := a.cart + b.cart }

open Classical in
/-- `normalize`, `normalized` (math/private/Vector3D.cxx:265-282). -/
noncomputable def Vector.normalized (v : Vector) : Vector :=
  let length := Real.sqrt (v.cart.x * v.cart.x + v.cart.y * v.cart.y + v.cart.z * v.cart.z)
  if length = 0 then v
  else ⟨⟨v.cart.x / length, v.cart.y / length, v.cart.z / length⟩, { v.sph with radius := 1 }⟩

/-- `CalculateCartesianFromSpherical` (math/private/Vector3D.cxx:333-338). -/
noncomputable def Vector.toCartesian (v : Vector) : Vector :=
  { v with cart := ⟨v.sph.radius * Real.cos v.sph.azimuth * Real.sin v.sph.zenith,
      v.sph.radius * Real.sin v.sph.azimuth * Real.sin v.sph.zenith, v.sph.radius * Real.cos v.sph.zenith⟩ }

open Classical in
/-- `CalculateSphericalCoordinates` (math/private/Vector3D.cxx:340-355). -/
noncomputable def Vector.toSpherical (v : Vector) : Vector :=
  let radius := Real.sqrt (v.cart.x * v.cart.x + v.cart.y * v.cart.y + v.cart.z * v.cart.z)
  { v with sph := ⟨radius, atan2 v.cart.y v.cart.x, if radius > 0 then Real.arccos (v.cart.z / radius) else 0⟩ }

open Classical in
/-- `deflect(cosphi_deflect, theta_deflect)` (math/private/Vector3D.cxx:284-315). -/
noncomputable def Vector.deflect (v : Vector) (c t : ℝ) : Vector :=
  if c ≠ 1 ∨ t ≠ 0 then
    let v := v.toSpherical
    let s := Real.sqrt (max 0 ((1 - c) * (1 + c)))
    let tx := s * Real.cos t
    let ty := s * Real.sin t
    let tz := Real.sqrt (max (1 - tx * tx - ty * ty) 0)
    let tz := if c < 0 then -tz else tz
    let sinth := Real.sin v.sph.zenith
    let costh := Real.cos v.sph.zenith
    let sinph := Real.sin v.sph.azimuth
    let cosph := Real.cos v.sph.azimuth
    let rx : Vec3 ℝ := ⟨costh * cosph, costh * sinph, -sinth⟩
    let ry : Vec3 ℝ := ⟨-sinph, cosph, 0⟩
    .make (Vec3.smul tz v.cart + Vec3.smul tx rx + Vec3.smul ty ry)
  else v

end Siren.Spherical
