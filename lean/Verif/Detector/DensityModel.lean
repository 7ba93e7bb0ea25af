import Verif.Math.Vec3
import Verif.Math.Poly
import Verif.Math.Newton
import Mathlib.Analysis.SpecialFunctions.Exp
import Mathlib.Data.EReal.Operations

set_option autoImplicit false

/-!
# Density distributions

Models the distributions of `detector/private/*Distribution1D.cxx`, the axes `CartesianAxis1D.cxx` and `RadialAxis1D.cxx`, the constant density
`ConstantDensityDistribution.h` and the densities along a Cartesian axis `CartesianAxisDensityDistribution.h`. The general template
`DensityDistribution1D.h` (numerical integration by Romberg's method, used for radial axes) is modelled only as far as `Evaluate` and
`Derivative`. Numbers are reals; `none` is NaN, which arises from `0 / 0` and from the difference of infinities.
-/

namespace Siren.Detector

open Siren Siren.Math

/-- `ConstantDistribution1D`, `PolynomialDistribution1D` (with its coefficients), `ExponentialDistribution1D`. -/
inductive Dist1D
  | constant (val : ℝ)
  | polynomial (coeff : List ℝ)
  | exponential (sigma amplitude x0 : ℝ)

/-- `Evaluate` (ConstantDistribution1D.cxx:43-46, PolynomialDistribution1D.cxx:52-54, ExponentialDistribution1D.cxx:47-49). -/
noncomputable def Dist1D.evaluate : Dist1D → ℝ → ℝ
  | .constant v, _ => v
  | .polynomial c, x => Polynom.evaluate c x
  | .exponential s a x0, x => a * Real.exp (s * (x - x0))

/-- `Derivative` (ConstantDistribution1D.cxx:34-37, PolynomialDistribution1D.cxx:44-46, ExponentialDistribution1D.cxx:39-41). -/
noncomputable def Dist1D.derivative : Dist1D → ℝ → ℝ
  | .constant _, _ => 0
  | .polynomial c, x => Polynom.evaluate (Polynom.derivative c) x
  | .exponential s a x0, x => (Dist1D.exponential s a x0).evaluate x * s

/-- `AntiDerivative` (ConstantDistribution1D.cxx:39-41, PolynomialDistribution1D.cxx:48-50, ExponentialDistribution1D.cxx:43-45). For `sigma = 0` the
value is infinite or NaN, and the differences formed of two such values are NaN; the model says `none` at once. -/
noncomputable def Dist1D.antiderivative : Dist1D → ℝ → Option ℝ
  | .constant v, x => some (x * v)
  | .polynomial c, x => some (Polynom.evaluate (Polynom.antiderivative c 0) x)
  | .exponential s a x0, x => if s = 0 then none else some ((Dist1D.exponential s a x0).evaluate x / s)

/-- `CartesianAxis1D` or `RadialAxis1D` with `fAxis_` and `fp0_`. -/
inductive Axis
  | cartesian (axis p0 : Vec3 ℝ)
  | radial (p0 : Vec3 ℝ)

/-- `GetX` (CartesianAxis1D.cxx:30-32, RadialAxis1D.cxx:32-34). -/
noncomputable def Axis.x : Axis → Vec3 ℝ → ℝ
  | .cartesian axis p0, xi => Vec3.dot axis (xi - p0)
  | .radial p0, xi => Vec3.norm (xi - p0)

/-- `GetdX` (CartesianAxis1D.cxx:34-38, RadialAxis1D.cxx:36-41). -/
noncomputable def Axis.dx : Axis → Vec3 ℝ → Vec3 ℝ → ℝ
  | .cartesian axis _, _, direction => Vec3.dot axis direction
  | .radial p0, xi, direction => Vec3.dot (Vec3.normalize (xi - p0)) direction

/-- `Evaluate` (DensityDistribution1D.h:137-139, CartesianAxisDensityDistribution.h:142-144). -/
noncomputable def densityAt (a : Axis) (d : Dist1D) (xi : Vec3 ℝ) : ℝ := d.evaluate (a.x xi)

/-- `Derivative` (DensityDistribution1D.h:56-59, CartesianAxisDensityDistribution.h:54-57). -/
noncomputable def densityDerivative (a : Axis) (d : Dist1D) (xi direction : Vec3 ℝ) : ℝ := d.derivative (a.x xi) * a.dx xi direction

namespace ConstantDensity

/-- `Integral(xi, direction, distance)` (ConstantDensityDistribution.h:68-73). -/
def integral (val distance : ℝ) : ℝ := distance * val

/-- `Integral(xi, xj)` (ConstantDensityDistribution.h:75-79). -/
noncomputable def integralBetween (val : ℝ) (xi xj : Vec3 ℝ) : ℝ := Vec3.norm (xj - xi) * val

/-- `AntiDerivative` (ConstantDensityDistribution.h:62-66). -/
def antiDerivative (val : ℝ) (xi direction : Vec3 ℝ) : ℝ := Vec3.dot xi direction * val

/-- `integral / density`, which is infinite or NaN for the density zero. -/
noncomputable def quotient (i d : ℝ) : Option EReal :=
  if d ≠ 0 then some ((i / d : ℝ) : EReal) else if i = 0 then none else if 0 < i then some ⊤ else some ⊥

/-- `InverseIntegral` (ConstantDensityDistribution.h:81-91) and, with an added constant, 93-104. The maximal distance may be infinite. -/
noncomputable def inverse (val constant i : ℝ) (max : EReal) : Option EReal :=
  match quotient i (val + constant) with
  | none => none
  | some d => if max < d then some (-1) else some d

end ConstantDensity

namespace CartesianDensity

variable (axis p0 : Vec3 ℝ) (d : Dist1D)

/-- `(A(b) - A(a)) / dxdt` (CartesianAxisDensityDistribution.h:63-64, 73-74, 84-85). Where `dxdt` is zero, `a` and `b` are equal
and the quotient is NaN. -/
noncomputable def difference (a b dxdt : ℝ) : Option ℝ :=
  match d.antiderivative b, d.antiderivative a with
  | some B, some A => if dxdt = 0 then none else some ((B - A) / dxdt)
  | _, _ => none

/-- `Integral(xi, direction, distance)` (CartesianAxisDensityDistribution.h:67-75). -/
noncomputable def integral (xi direction : Vec3 ℝ) (distance : ℝ) : Option ℝ :=
  difference d ((Axis.cartesian axis p0).x xi) ((Axis.cartesian axis p0).x (xi + Vec3.smul distance direction))
    ((Axis.cartesian axis p0).dx xi direction)

/-- `Integral(xi, xj)` (CartesianAxisDensityDistribution.h:77-86). -/
noncomputable def integralBetween (xi xj : Vec3 ℝ) : Option ℝ :=
  difference d ((Axis.cartesian axis p0).x xi) ((Axis.cartesian axis p0).x xj) ((Axis.cartesian axis p0).dx xi (Vec3.normalize (xj - xi)))

/-- The common end of the two versions of `InverseIntegral` (CartesianAxisDensityDistribution.h:106-111, 134-139): minus one if the search
reports an error. -/
noncomputable def search (F dF : ℝ → ℝ) (a b dxdt : ℝ) : Option ℝ :=
  match Newton.newtonRaphson F dF a b ((a + b) / 2) 101 (1 / 1000000) with
  | .ok (some x) => if dxdt = 0 then none else some ((x - a) / dxdt)
  | .ok none => none
  | _ => some (-1)

/-- `InverseIntegral(xi, direction, integral, max_distance)` (CartesianAxisDensityDistribution.h:88-112), for a finite maximal distance. -/
noncomputable def inverse (xi direction : Vec3 ℝ) (i max : ℝ) : Option ℝ :=
  let a := (Axis.cartesian axis p0).x xi
  let b := (Axis.cartesian axis p0).x (xi + Vec3.smul max direction)
  let dxdt := (Axis.cartesian axis p0).dx xi direction
  match d.antiderivative a with
  | none => none
  | some Ia => search (fun x => ((d.antiderivative x).getD 0 - Ia) - i * dxdt) d.evaluate a b dxdt

/-- `InverseIntegral(xi, direction, constant, integral, max_distance)` (CartesianAxisDensityDistribution.h:114-140). -/
noncomputable def inverseC (xi direction : Vec3 ℝ) (constant i max : ℝ) : Option ℝ :=
  let a := (Axis.cartesian axis p0).x xi
  let b := (Axis.cartesian axis p0).x (xi + Vec3.smul max direction)
  let dxdt := (Axis.cartesian axis p0).dx xi direction
  match d.antiderivative a with
  | none => none
  | some Ia => search (fun x => ((d.antiderivative x).getD 0 - Ia) + constant * x - i * dxdt) (fun x => d.evaluate x + constant) a b dxdt

end CartesianDensity

end Siren.Detector
