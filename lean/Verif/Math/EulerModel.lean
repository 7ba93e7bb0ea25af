import Verif.Math.Quaternion
import Verif.Geometry.Phi

set_option autoImplicit false

/-!
# Euler angles

Models `math/public/SIREN/math/EulerAngles.h`, `Conversions.h`, `EulerQuaternionConversions.h` and the axis-angle part of
`math/private/Quaternion.cxx`. Angles and components are real numbers; `atan2` is the one of `Geometry/Phi.lean`.
-/

namespace Siren.Euler

open Siren.Geometry.Phi (atan2)

/-- `EulerOrder` (math/public/SIREN/math/EulerAngles.h:58-83): the 24 names. -/
inductive Order
  | XYZs | XYXs | XZYs | XZXs | YZXs | YZYs | YXZs | YXYs | ZXYs | ZXZs | ZYXs | ZYZs
  | ZYXr | XYXr | YZXr | XZXr | XZYr | YZYr | ZXYr | YXYr | YXZr | ZXZr | XYZr | ZYZr
  deriving DecidableEq, Repr

/-- `GetEulerOrder` (math/public/SIREN/math/EulerAngles.h:54-56). -/
def pack (axis parity repetition frame : Nat) : Nat :=
  (((((axis <<< 1) + parity) <<< 1) + repetition) <<< 1) + frame

/-- The values of the enumeration (math/public/SIREN/math/EulerAngles.h:58-83); `X, Y, Z` are 0, 1, 2, `Even, Odd` are
0, 1, `No, Yes` are 0, 1 and `Static, Rotating` are 0, 1. -/
def Order.code : Order → Nat
  | .XYZs => pack 0 0 0 0
  | .XYXs => pack 0 0 1 0
  | .XZYs => pack 0 1 0 0
  | .XZXs => pack 0 1 1 0
  | .YZXs => pack 1 0 0 0
  | .YZYs => pack 1 0 1 0
  | .YXZs => pack 1 1 0 0
  | .YXYs => pack 1 1 1 0
  | .ZXYs => pack 2 0 0 0
  | .ZXZs => pack 2 0 1 0
  | .ZYXs => pack 2 1 0 0
  | .ZYZs => pack 2 1 1 0
  | .ZYXr => pack 0 0 0 1
  | .XYXr => pack 0 0 1 1
  | .YZXr => pack 0 1 0 1
  | .XZXr => pack 0 1 1 1
  | .XZYr => pack 1 0 0 1
  | .YZYr => pack 1 0 1 1
  | .ZXYr => pack 1 1 0 1
  | .YXYr => pack 1 1 1 1
  | .YXZr => pack 2 0 0 1
  | .ZXZr => pack 2 0 1 1
  | .XYZr => pack 2 1 0 1
  | .ZYZr => pack 2 1 1 1

/-- `GetEulerFrame(order) == Rotating` (math/public/SIREN/math/EulerAngles.h:22-24). -/
def Order.rotating (o : Order) : Bool := o.code &&& 1 == 1

/-- `GetEulerRepetition(order) == Yes` (math/public/SIREN/math/EulerAngles.h:31-33). -/
def Order.repeats (o : Order) : Bool := (o.code >>> 1) &&& 1 == 1

/-- `GetEulerParity(order) == Odd` (math/public/SIREN/math/EulerAngles.h:40-42). -/
def Order.odd (o : Order) : Bool := (o.code >>> 2) &&& 1 == 1

/-- `EulerSafe` (math/public/SIREN/math/EulerAngles.h:85). -/
def safe : Nat → Fin 4
  | 0 => 0
  | 1 => 1
  | 2 => 2
  | _ => 0

/-- `EulerNext` (math/public/SIREN/math/EulerAngles.h:86). -/
def next : Nat → Fin 4
  | 0 => 1
  | 1 => 2
  | 2 => 0
  | _ => 1

/-- `GetEulerAxisI` (math/public/SIREN/math/EulerAngles.h:50-52, 88-90). -/
def Order.i (o : Order) : Fin 4 := safe ((o.code >>> 3) &&& 3)

/-- `GetEulerAxisJ` (math/public/SIREN/math/EulerAngles.h:92-94). -/
def Order.j (o : Order) : Fin 4 := next (o.i.val + (if o.odd then 1 else 0))

/-- `GetEulerAxisK` (math/public/SIREN/math/EulerAngles.h:96-98). -/
def Order.k (o : Order) : Fin 4 := next (o.i.val + (if o.odd then 0 else 1))

/-- The three angles of `EulerAngles`. -/
@[ext] structure Angles where
  alpha : ℝ
  beta : ℝ
  gamma : ℝ

/-- `QuaternionFromEulerAngles` (math/public/SIREN/math/Conversions.h:20-77); the array `res[4]` is a function that is
updated. -/
noncomputable def toQuat (o : Order) (e : Angles) : Quat :=
  let ha := e.alpha * 0.5
  let hb := e.beta * 0.5
  let hg := e.gamma * 0.5
  let (ha, hg) := if o.rotating then (hg, ha) else (ha, hg)
  let hb := if o.odd then -hb else hb
  let ca := Real.cos ha
  let cb := Real.cos hb
  let cg := Real.cos hg
  let sa := Real.sin ha
  let sb := Real.sin hb
  let sg := Real.sin hg
  let cc := ca * cg
  let cs := ca * sg
  let sc := sa * cg
  let ss := sa * sg
  let res : Fin 4 → ℝ :=
    if o.repeats then
      Function.update (Function.update (Function.update (Function.update (fun _ => 0) o.i (cb * (cs + sc)))
        o.j (sb * (cc + ss))) o.k (sb * (cs - sc))) 3 (cb * (cc - ss))
    else
      Function.update (Function.update (Function.update (Function.update (fun _ => 0) o.i (cb * sc - sb * cs))
        o.j (cb * ss + sb * cc)) o.k (cb * cs - sb * sc)) 3 (cb * cc + sb * ss)
  let res := if o.odd then Function.update res o.j (-res o.j) else res
  ⟨res 0, res 1, res 2, res 3⟩

/-- `matrix[{row, column}]` of a `Matrix3D` (math/private/Matrix3D.cxx, `operator[]`). -/
def at_ (m : Mat3) (r c : Fin 4) : ℝ :=
  match r, c with
  | 0, 0 => m.xx | 0, 1 => m.xy | 0, 2 => m.xz
  | 1, 0 => m.yx | 1, 1 => m.yy | 1, 2 => m.yz
  | 2, 0 => m.zx | 2, 1 => m.zy | 2, 2 => m.zz
  | _, _ => 0

/-- `16 * std::numeric_limits<double>::epsilon()`. -/
noncomputable def tiny : ℝ := 16 * 2⁻¹ ^ 52

open Classical in
/-- `EulerAnglesFromMatrix3D` (math/public/SIREN/math/Conversions.h:79-121). -/
noncomputable def ofMatrix (m : Mat3) (o : Order) : Angles :=
  let i := o.i
  let j := o.j
  let k := o.k
  let e : Angles :=
    if o.repeats then
      let sy := Real.sqrt (at_ m i j * at_ m i j + at_ m i k * at_ m i k)
      if sy > tiny then
        ⟨atan2 (at_ m i j) (at_ m i k), atan2 sy (at_ m i i), atan2 (at_ m j i) (-at_ m k i)⟩
      else
        ⟨atan2 (-at_ m j k) (at_ m j j), atan2 sy (at_ m i i), 0⟩
    else
      let cy := Real.sqrt (at_ m i i * at_ m i i + at_ m j i * at_ m j i)
      if cy > tiny then
        ⟨atan2 (at_ m k j) (at_ m k k), atan2 (-at_ m k i) cy, atan2 (at_ m j i) (at_ m i i)⟩
      else
        ⟨atan2 (-at_ m j k) (at_ m j j), atan2 (-at_ m k i) cy, 0⟩
  let e : Angles := if o.odd then ⟨-e.alpha, -e.beta, -e.gamma⟩ else e
  if o.rotating then ⟨e.gamma, e.beta, e.alpha⟩ else e

/-- `EulerAnglesFromQuaternion` (math/public/SIREN/math/Conversions.h:218-221). -/
noncomputable def ofQuat (q : Quat) (o : Order) : Angles := ofMatrix q.matrix o

/-- `Matrix3DFromEulerAngles` (math/public/SIREN/math/Conversions.h:123-187). For a rotating order the code exchanges
`alpha` and `beta`. -/
noncomputable def toMatrix (o : Order) (e : Angles) : Mat3 :=
  let i := o.i
  let j := o.j
  let k := o.k
  let (alpha, beta) := if o.rotating then (e.beta, e.alpha) else (e.alpha, e.beta)
  let gamma := e.gamma
  let (alpha, beta, gamma) := if o.odd then (-alpha, -beta, -gamma) else (alpha, beta, gamma)
  let ca := Real.cos alpha
  let cb := Real.cos beta
  let cg := Real.cos gamma
  let sa := Real.sin alpha
  let sb := Real.sin beta
  let sg := Real.sin gamma
  let cc := ca * cg
  let cs := ca * sg
  let sc := sa * cg
  let ss := sa * sg
  let res : Fin 4 × Fin 4 → ℝ := fun _ => 0
  let res :=
    if o.repeats then
      let res := Function.update res (i, i) cb
      let res := Function.update res (i, j) (sb * sa)
      let res := Function.update res (i, k) (sb * ca)
      let res := Function.update res (j, i) (sb * sg)
      let res := Function.update res (j, j) (-cb * ss + cc)
      let res := Function.update res (j, k) (-cb * cs - sc)
      let res := Function.update res (k, i) (-sb * cg)
      let res := Function.update res (k, j) (cb * sc + cs)
      Function.update res (k, k) (cb * cc - ss)
    else
      let res := Function.update res (i, i) (cb * cg)
      let res := Function.update res (i, j) (sb * sc - cs)
      let res := Function.update res (i, k) (sb * cc + ss)
      let res := Function.update res (j, i) (cb * sg)
      let res := Function.update res (j, j) (sb * ss + cc)
      let res := Function.update res (j, k) (sb * cs - sc)
      let res := Function.update res (k, i) (-sb)
      let res := Function.update res (k, j) (cb * sa)
      Function.update res (k, k) (cb * ca)
  { xx := res (0, 0), xy := res (0, 1), xz := res (0, 2)
    yx := res (1, 0), yy := res (1, 1), yz := res (1, 2)
    zx := res (2, 0), zy := res (2, 1), zz := res (2, 2) }

/-- `QFromZXZr` (math/public/SIREN/math/EulerQuaternionConversions.h:19-34), used for detector files. -/
noncomputable def qFromZXZr (alpha beta gamma : ℝ) : Quat :=
  let a := alpha * 0.5
  let b := beta * 0.5
  let g := gamma * 0.5
  let cb := Real.cos b
  let sb := Real.sin b
  ⟨sb * Real.cos (a - g), sb * Real.sin (a - g), cb * Real.sin (a + g), cb * Real.cos (a + g)⟩

open Classical in
/-- `ZXZrFromQ` (math/public/SIREN/math/EulerQuaternionConversions.h:36-63). -/
noncomputable def zxzrFromQ (q : Quat) : Angles :=
  let nq := q.normSq
  let s := if nq > 0 then 2 / nq else 0
  let ww := q.w * q.w * s
  let xs := q.x * s; let ys := q.y * s; let zs := q.z * s
  let wx := q.w * xs; let wy := q.w * ys; let wz := q.w * zs
  let xx := q.x * xs; let xy := q.x * ys; let xz := q.x * zs
  let yy := q.y * ys; let yz := q.y * zs; let zz := q.z * zs
  let check := Real.sqrt ((xx + yy) * (ww + zz))
  if check > tiny then
    ⟨atan2 (wy + xz) (wx - yz), atan2 check (1 - (xx + yy)), atan2 (xz - wy) (wx + yz)⟩
  else
    ⟨0, atan2 check (1 - (xx + yy)), atan2 (wz - xy) (1 - (yy + zz))⟩

/-- `QFromXYZs` (math/public/SIREN/math/EulerQuaternionConversions.h:65-90), used for GDML rotations. -/
noncomputable def qFromXYZs (alpha beta gamma : ℝ) : Quat :=
  let a := alpha * 0.5
  let b := beta * 0.5
  let g := gamma * 0.5
  let ca := Real.cos a
  let cb := Real.cos b
  let cg := Real.cos g
  let sa := Real.sin a
  let sb := Real.sin b
  let sg := Real.sin g
  let cc := ca * cg
  let cs := ca * sg
  let sc := sa * cg
  let ss := sa * sg
  ⟨cb * sc - sb * cs, sb * cc + cb * ss, cb * cs - sb * sc, cb * cc + sb * ss⟩

open Classical in
/-- `XYZsFromQ` (math/public/SIREN/math/EulerQuaternionConversions.h:92-122). -/
noncomputable def xyzsFromQ (q : Quat) : Angles :=
  let nq := q.normSq
  let s := if nq > 0 then 2 / nq else 0
  let xs := q.x * s; let ys := q.y * s; let zs := q.z * s
  let wx := q.w * xs; let wy := q.w * ys; let wz := q.w * zs
  let xx := q.x * xs; let xy := q.x * ys; let xz := q.x * zs
  let yy := q.y * ys; let yz := q.y * zs; let zz := q.z * zs
  let rxx := 1 - (yy + zz)
  let ryx := xy + wz
  let cy := Real.sqrt (rxx * rxx + ryx * ryx)
  if cy > tiny then
    ⟨atan2 (wx + yz) (1 - (xx + yy)), atan2 (wy - xz) cy, atan2 (xy + wz) (1 - (yy + zz))⟩
  else
    ⟨atan2 (wx - yz) (1 - (xx + zz)), atan2 (wy - xz) cy, 0⟩

open Classical in
/-- `GetAxisAngle` (math/private/Quaternion.cxx:453-463): axis and angle. -/
noncomputable def axisAngle (q : Quat) : Vec3 ℝ × ℝ :=
  let scale := Real.sqrt (q.x * q.x + q.y * q.y + q.z * q.z)
  if scale = 0 ∨ q.w > 1 ∨ q.w < -1 then (⟨0, 0, 1⟩, 0)
  else (⟨q.x / scale, q.y / scale, q.z / scale⟩, atan2 scale q.w * 2)

end Siren.Euler
