import Verif.Math.Vec3

set_option autoImplicit false

/-!
# Quaternions, rotation matrices

Models `math/private/Quaternion.cxx` and the parts of `math/private/Matrix3D.cxx` and
`math/public/SIREN/math/Conversions.h` that relate the two. Components are real numbers.
-/

namespace Siren

/-- `math/public/SIREN/math/Quaternion.h`: components `x_, y_, z_, w_`. -/
@[ext] structure Quat where
  x : ℝ
  y : ℝ
  z : ℝ
  w : ℝ

/-- `math/public/SIREN/math/Matrix3D.h`. -/
@[ext] structure Mat3 where
  xx : ℝ
  xy : ℝ
  xz : ℝ
  yx : ℝ
  yy : ℝ
  yz : ℝ
  zx : ℝ
  zy : ℝ
  zz : ℝ

namespace Mat3

/-- `operator*(Matrix3D, Vector3D)` (math/private/Matrix3D.cxx:249-264). -/
def apply (m : Mat3) (v : Vec3 ℝ) : Vec3 ℝ :=
  ⟨m.xx * v.x + m.xy * v.y + m.xz * v.z, m.yx * v.x + m.yy * v.y + m.yz * v.z, m.zx * v.x + m.zy * v.y + m.zz * v.z⟩

/-- `matrix_product` (math/private/Matrix3D.cxx:330-361). -/
def mul (a b : Mat3) : Mat3 :=
  { xx := a.xx * b.xx + a.xy * b.yx + a.xz * b.zx
    xy := a.xx * b.xy + a.xy * b.yy + a.xz * b.zy
    xz := a.xx * b.xz + a.xy * b.yz + a.xz * b.zz
    yx := a.yx * b.xx + a.yy * b.yx + a.yz * b.zx
    yy := a.yx * b.xy + a.yy * b.yy + a.yz * b.zy
    yz := a.yx * b.xz + a.yy * b.yz + a.yz * b.zz
    zx := a.zx * b.xx + a.zy * b.yx + a.zz * b.zx
    zy := a.zx * b.xy + a.zy * b.yy + a.zz * b.zy
    zz := a.zx * b.xz + a.zy * b.yz + a.zz * b.zz }

end Mat3

namespace Quat

/-- Default constructor (math/private/Quaternion.cxx:25-31). -/
def one : Quat := ⟨0, 0, 0, 1⟩

/-- Constructor from a vector (math/private/Quaternion.cxx:55-61). -/
def ofVec (v : Vec3 ℝ) : Quat := ⟨v.x, v.y, v.z, 0⟩

/-- `operator*(Quaternion)` (math/private/Quaternion.cxx:146-154); `a.mul b` is `a * b`. -/
def mul (a b : Quat) : Quat :=
  { x := (b.w * a.x) + (b.x * a.w) + (a.y * b.z) - (a.z * b.y)
    y := (b.w * a.y) + (b.y * a.w) + (a.z * b.x) - (a.x * b.z)
    z := (b.w * a.z) + (b.z * a.w) + (a.x * b.y) - (a.y * b.x)
    w := (b.w * a.w) - (b.x * a.x) - (a.y * b.y) - (a.z * b.z) }

/-- `operator*=(Quaternion)` (math/private/Quaternion.cxx:156-159): multiplies from the left. -/
def mulAssign (a b : Quat) : Quat := b.mul a

/-- `operator*(double)` (math/private/Quaternion.cxx:161-164). -/
def scale (a : Quat) (f : ℝ) : Quat := ⟨f * a.x, f * a.y, f * a.z, f * a.w⟩

/-- `operator+(double)` (math/private/Quaternion.cxx:191-194). -/
def addScalar (a : Quat) (f : ℝ) : Quat := ⟨f * a.x, f * a.y, f * a.z, f * a.w⟩

/-- `operator+=(double)` (math/private/Quaternion.cxx:196-203). -/
def addScalarAssign (a : Quat) (f : ℝ) : Quat := ⟨a.x + f, a.y + f, a.z + f, a.w + f⟩

/-- `magnitudesq` (math/private/Quaternion.cxx:404-407). -/
def normSq (q : Quat) : ℝ := q.w * q.w + q.x * q.x + q.y * q.y + q.z * q.z

/-- `magnitude` (math/private/Quaternion.cxx:409-412). -/
noncomputable def norm (q : Quat) : ℝ := Real.sqrt q.normSq

/-- `conjugate` (math/private/Quaternion.cxx:351-357). -/
def conj (q : Quat) : Quat := ⟨-q.x, -q.y, -q.z, q.w⟩

/-- `invert` (math/private/Quaternion.cxx:365-372). -/
noncomputable def inv (q : Quat) : Quat := ⟨-q.x / q.normSq, -q.y / q.normSq, -q.z / q.normSq, q.w / q.normSq⟩

open Classical in
/-- `normalize` (math/private/Quaternion.cxx:388-396). -/
noncomputable def normalize (q : Quat) : Quat :=
  if q.normSq = 1 then q else q.scale (1 / Real.sqrt q.normSq)

/-- The polynomial at the end of `rotate(Vector3D)` (math/private/Quaternion.cxx:284-300) for the coefficients
`w0, x0, y0, z0`. -/
def sandwich (q : Quat) (p : Vec3 ℝ) : Vec3 ℝ :=
  let xx := q.x * p.x; let xy := q.x * p.y; let xz := q.x * p.z
  let yx := q.y * p.x; let yy := q.y * p.y; let yz := q.y * p.z
  let zx := q.z * p.x; let zy := q.z * p.y; let zz := q.z * p.z
  let w2 := q.w * q.w
  let x2 := q.x * q.x
  let y2 := q.y * q.y
  let z2 := q.z * q.z
  ⟨p.x * (w2 + x2 - y2 - z2) + 2 * (q.x * (yy + zz) + q.w * (yz - zy)),
   p.y * (w2 - x2 + y2 - z2) + 2 * (q.y * (xx + zz) + q.w * (zx - xz)),
   p.z * (w2 - x2 - y2 + z2) + 2 * (q.z * (xx + yy) + q.w * (xy - yx))⟩

open Classical in
/-- `rotate(Vector3D, inv)` (math/private/Quaternion.cxx:255-301), including the branch that skips the normalization
when the squared length is within 1e-12 of one. -/
noncomputable def rotate (q : Quat) (p : Vec3 ℝ) (inv : Bool) : Vec3 ℝ :=
  if |q.normSq - 1| < 1e-12 then
    sandwich ⟨if inv then -q.x else q.x, if inv then -q.y else q.y, if inv then -q.z else q.z, q.w⟩ p
  else
    let n := 1 / Real.sqrt q.normSq
    sandwich (if inv then ⟨-q.x * n, -q.y * n, -q.z * n, q.w * n⟩ else ⟨q.x * n, q.y * n, q.z * n, q.w * n⟩) p

/-- `rotate(Quaternion, inv)` (math/private/Quaternion.cxx:213-253). -/
noncomputable def rotateQuat (q p : Quat) (inv : Bool) : Quat :=
  let n := q.norm
  let q0 : Quat := if inv then ⟨-q.x / n, -q.y / n, -q.z / n, q.w / n⟩ else ⟨q.x / n, q.y / n, q.z / n, q.w / n⟩
  let v := sandwich q0 ⟨p.x, p.y, p.z⟩
  ⟨v.x, v.y, v.z, p.w * (q0.w * q0.w + q0.x * q0.x + q0.y * q0.y + q0.z * q0.z)⟩

/-- `GetMatrix` (math/private/Quaternion.cxx:303-314). -/
def matrix (q : Quat) : Mat3 :=
  { xx := 1 - 2 * q.y * q.y - 2 * q.z * q.z
    xy := 2 * q.x * q.y - 2 * q.z * q.w
    xz := 2 * q.x * q.z + 2 * q.y * q.w
    yx := 2 * q.x * q.y + 2 * q.z * q.w
    yy := 1 - 2 * q.x * q.x - 2 * q.z * q.z
    yz := 2 * q.z * q.y - 2 * q.x * q.w
    zx := 2 * q.x * q.z - 2 * q.y * q.w
    zy := 2 * q.z * q.y + 2 * q.x * q.w
    zz := 1 - 2 * q.x * q.x - 2 * q.y * q.y }

open Classical in
/-- `Matrix3DFromQuaternion` (math/public/SIREN/math/Conversions.h:190-216). -/
noncomputable def matrixOfAny (q : Quat) : Mat3 :=
  let nq := q.x * q.x + q.y * q.y + q.z * q.z + q.w * q.w
  let s := if nq > 0 then 2 / nq else 0
  let xs := q.x * s; let ys := q.y * s; let zs := q.z * s
  let wx := q.w * xs; let wy := q.w * ys; let wz := q.w * zs
  let xx := q.x * xs; let xy := q.x * ys; let xz := q.x * zs
  let yy := q.y * ys; let yz := q.y * zs; let zz := q.z * zs
  { xx := 1 - (yy + zz), xy := xy - wz, xz := xz + wy
    yx := xy + wz, yy := 1 - (xx + zz), yz := yz - wx
    zx := xz - wy, zy := yz + wx, zz := 1 - (xx + yy) }

open Classical in
/-- `SetMatrix` (math/private/Quaternion.cxx:323-349). -/
noncomputable def ofMatrix (m : Mat3) : Quat :=
  let trace := m.xx + m.yy + m.zz
  let M := max (max m.xx m.yy) (max m.zz trace)
  let qmax := 2 * Real.sqrt (1 - trace + 2 * M)
  if M = m.xx then
    ⟨0.25 * qmax, (m.xy + m.yx) / qmax, (m.zx + m.xz) / qmax, (m.zy - m.yz) / qmax⟩
  else if M = m.yy then
    ⟨(m.xy + m.yx) / qmax, 0.25 * qmax, (m.yz + m.zy) / qmax, (m.xz - m.zx) / qmax⟩
  else if M = m.zz then
    ⟨(m.xz + m.zx) / qmax, (m.yz + m.zy) / qmax, 0.25 * qmax, (m.yx - m.xy) / qmax⟩
  else
    ⟨(m.zy - m.yz) / qmax, (m.xz - m.zx) / qmax, (m.yx - m.xy) / qmax, 0.25 * qmax⟩

/-- `SetAxisAngle` (math/private/Quaternion.cxx:441-451). -/
noncomputable def ofAxisAngle (axis : Vec3 ℝ) (angle : ℝ) : Quat :=
  let dir := axis.normalize
  let x := angle / 2
  let s := Real.sin x
  ⟨s * dir.x, s * dir.y, s * dir.z, Real.cos x⟩

open Classical in
/-- `rotation_between` (math/private/Quaternion.cxx:508-536). In the antiparallel branch, `std::min_element` is applied to
pointers to the whole array `dots`, so it compares addresses and always selects index 0, the x axis; the model does that
(the code also forms pointers beyond the array there). -/
noncomputable def rotationBetween (v0 v1 : Vec3 ℝ) : Quat :=
  let dir0 := v0.normalize
  let dir1 := v1.normalize
  let dot := Vec3.dot dir0 dir1
  if dot = -1 then ofVec (Vec3.cross ⟨1, 0, 0⟩ dir0).normalize
  else
    let c := Vec3.cross dir0 dir1
    normalize ⟨c.x, c.y, c.z, 1 + dot⟩

end Quat
end Siren
