import Verif.Math.Poly
import Mathlib.Data.Real.Basic

set_option autoImplicit false

/-!
# Numerical integration

Models `utilities/public/SIREN/utilities/Integration.h`. A C++ `double` is a real number; the function to integrate is any function of
real numbers without side effects. `unsigned int` counters are natural numbers (the loops below stay far below their limits: at most 20
refinements).
-/

namespace Siren.Math.Integrate

open Siren Polynom

/-- `TrapezoidalIntegrator` (Integration.h:18-89): the members `f`, `a` and `b` never change and are parameters below. The constructor
compares and swaps its own *parameters* `a` and `b` (lines 66-69), which shadow the members initialised before, so limits in descending
order are kept as they are. -/
structure Trap where
  currentDetail : Nat
  value : ℝ

/-- The constructor (Integration.h:66-70). -/
def Trap.new : Trap := ⟨0, 0⟩

/-- The loop over the new points: `x` is advanced by `dx` in every round (Integration.h:54-55). -/
def sumPoints (f : ℝ → ℝ) (dx : ℝ) : Nat → ℝ → ℝ → ℝ
  | 0, _, sum => sum
  | n + 1, x, sum => sumPoints f dx n (x + dx) (sum + f x)

/-- `update` (Integration.h:45-58). -/
noncomputable def Trap.update (f : ℝ → ℝ) (a b : ℝ) (t : Trap) : Trap :=
  let detail := t.currentDetail + 1
  if detail = 1 then ⟨detail, (b - a) * (f a + f b) / 2⟩
  else
    let npoints : Nat := 2 ^ (detail - 2)
    let dx := (b - a) / (npoints : ℝ)
    let sum := sumPoints f dx npoints (a + dx / 2) 0
    ⟨detail, (t.value + (b - a) * sum / (npoints : ℝ)) / 2⟩

/-- The `while` loop of `integrate` (Integration.h:82-83), which runs `detail - currentDetail` times. -/
noncomputable def Trap.refine (f : ℝ → ℝ) (a b : ℝ) : Nat → Trap → Trap
  | 0, t => t
  | n + 1, t => Trap.refine f a b n (t.update f a b)

/-- `integrate` (Integration.h:80-85); the result is the `value` of the new state. -/
noncomputable def Trap.integrate (f : ℝ → ℝ) (a b : ℝ) (t : Trap) (detail : Nat) : Trap :=
  Trap.refine f a b (detail + 1 - t.currentDetail) t

/-- Reading `v[i]` of a vector. -/
def rd (v : List ℝ) (i : Nat) : Res ℝ := match v[i]? with | some x => .ok x | none => .ub

/-- The innermost body of the extrapolation (Integration.h:132-139) on the arrays `c` and `d`. A zero denominator violates the assertion in
line 136 and is undefined here. -/
noncomputable def extrapolateStep (steps : List ℝ) (base m j : Nat) (cd : List ℝ × List ℝ) : Res (List ℝ × List ℝ) :=
  (rd steps (j + base)).bind fun ho => (rd steps (j + m + base)).bind fun hp =>
  (rd cd.1 (j + 1)).bind fun c1 => (rd cd.2 j).bind fun d0 =>
  if ho - hp = 0 then .ub else
    let den := (c1 - d0) / (ho - hp)
    .ok (cd.1.set j (ho * den), cd.2.set j (hp * den))

/-- One pass of the loop over `m` (Integration.h:130-142). The state has `c`, `d`, `ext` and `extErr`. -/
noncomputable def extrapolatePass (order : Nat) (steps : List ℝ) (base m : Nat) (s : (List ℝ × List ℝ) × (ℝ × ℝ)) :
    Res ((List ℝ × List ℝ) × (ℝ × ℝ)) :=
  (forLoop (extrapolateStep steps base m) (List.range (order - m)) s.1).bind fun cd =>
  (rd cd.2 (order - 1 - m)).bind fun e => .ok (cd, (s.2.1 + e, e))

/-- The extrapolation to zero step size (Integration.h:124-143): `ext` and `extErr`. `estimates` has at least `base + order` values. -/
noncomputable def extrapolate (order : Nat) (steps estimates : List ℝ) (base : Nat) : Res (ℝ × ℝ) :=
  let c := (estimates.drop base).take order
  (rd estimates (estimates.length - 1)).bind fun last =>
  (forLoop (extrapolatePass order steps base) (List.range' 1 (order - 1)) ((c, c), (last, 0))).bind fun s => .ok s.2

/-- The loop of `rombergIntegrate` (Integration.h:118-150), with the number of rounds left. -/
noncomputable def rombergLoop (f : ℝ → ℝ) (a b tol : ℝ) (order : Nat) : Nat → Nat → Trap → List ℝ → List ℝ → Res ℝ
  | 0, _, _, _, _ => .throws .runtimeError
  | n + 1, i, t, steps, estimates =>
    let t := t.integrate f a b t.currentDetail
    let estimates := estimates ++ [t.value]
    let next := (rd steps (steps.length - 1)).bind fun h => rombergLoop f a b tol order n (i + 1) t (steps ++ [h / 4]) estimates
    if order - 1 ≤ i then
      (extrapolate order steps estimates (i - (order - 1))).bind fun r =>
        if |r.2| ≤ tol * |r.1| then .ok r.1 else next
    else next

/-- `rombergIntegrate` (Integration.h:107-152), `order` 5 and 20 rounds. -/
noncomputable def rombergIntegrate (f : ℝ → ℝ) (a b tol : ℝ) : Res ℝ :=
  if tol < 0 then .throws .runtimeError else rombergLoop f a b tol 5 20 0 Trap.new [1] []

/-- The weights `c1` and `c2` (Integration.h:185-187, 190-192). -/
noncomputable def simpsonWeight (n j : Nat) : ℝ := if j = 0 ∨ j = n then 1 else if j % 2 = 0 then 2 else 4

/-- The estimate of one round (Integration.h:179-197). `unsigned` overflow of `2^i * N` is not modelled. -/
noncomputable def simpsonEstimate (f : ℝ → ℝ → ℝ) (a1 b1 a2 b2 : ℝ) (n1 n2 : Nat) : ℝ :=
  let h1 := (b1 - a1) / (n1 : ℝ)
  let h2 := (b2 - a2) / (n2 : ℝ)
  (List.range (n1 + 1)).foldl (fun e j =>
    (List.range (n2 + 1)).foldl (fun e k => e + simpsonWeight n1 j * simpsonWeight n2 k * f (a1 + j * h1) (a2 + k * h2)) e) 0
    * (h1 * h2 / 9)

/-- The loop of `simpsonIntegrate2D` (Integration.h:176-209), with the number of rounds left. -/
noncomputable def simpsonLoop (f : ℝ → ℝ → ℝ) (a1 b1 a2 b2 tol : ℝ) (n1 n2 : Nat) : Nat → Nat → ℝ → Res ℝ
  | 0, _, _ => .throws .runtimeError
  | n + 1, i, prev =>
    let estimate := simpsonEstimate f a1 b1 a2 b2 (2 ^ i * n1) (2 ^ i * n2)
    let scale := max |estimate| |prev|
    if 0 < i ∧ (scale < tol * tol ∨ |estimate - prev| < tol * scale) then .ok estimate
    else simpsonLoop f a1 b1 a2 b2 tol n1 n2 n (i + 1) estimate

/-- `simpsonIntegrate2D` (Integration.h:167-211). Zero intervals (`N1` or `N2` zero) divide by zero in the code and are left to the caller. -/
noncomputable def simpsonIntegrate2D (f : ℝ → ℝ → ℝ) (a1 b1 a2 b2 tol : ℝ) (n1 n2 maxIter : Nat) : Res ℝ :=
  if tol < 0 then .throws .runtimeError else simpsonLoop f a1 b1 a2 b2 tol n1 n2 maxIter 0 0

/-- `trapezoidIntegrate` over all points (Integration.h:222-233). -/
noncomputable def trapezoidAll (x y : List ℝ) : Res ℝ :=
  if x.length ≠ y.length then .throws .runtimeError else
    forLoop (fun i s =>
      (rd x i).bind fun xi => (rd x (i - 1)).bind fun xp => (rd y i).bind fun yi => (rd y (i - 1)).bind fun yp =>
        .ok (s + (xi - xp) * ((yi + yp) / 2))) (List.range' 1 (x.length - 1)) 0

/-- `std::upper_bound` on a sorted vector: the index of the first element above `v`. -/
noncomputable def upperBound (x : List ℝ) (v : ℝ) : Nat := x.findIdx fun t => decide (v < t)

/-- `std::lower_bound` on a sorted vector: the index of the first element not below `v`. -/
noncomputable def lowerBound (x : List ℝ) (v : ℝ) : Nat := x.findIdx fun t => decide (v ≤ t)

/-- The lambda `lerp` (Integration.h:262-264). -/
noncomputable def lerp (x y : List ℝ) (i : Nat) (t : ℝ) : Res ℝ :=
  (rd y (i - 1)).bind fun y0 => (rd y i).bind fun y1 => (rd x (i - 1)).bind fun x0 => (rd x i).bind fun x1 =>
    .ok (y0 + (y1 - y0) * (t - x0) / (x1 - x0))

/-- `trapezoidIntegrate` over a range (Integration.h:247-294). -/
noncomputable def trapezoidRange (x y : List ℝ) (xmin xmax : ℝ) : Res ℝ :=
  if x.length ≠ y.length then .throws .runtimeError else
  if x.length < 2 then .ok 0 else
  let istart := max 1 (upperBound x xmin)
  let iend := min (x.length - 1) (lowerBound x xmax)
  if iend < istart then .ok 0 else
  (rd x (istart - 1)).bind fun xs0 => (rd x istart).bind fun xs1 =>
  (rd y (istart - 1)).bind fun ys0 => (rd y istart).bind fun ys1 =>
  (if xmin ≤ xs0 then .ok ys0 else lerp x y istart xmin).bind fun yl =>
  let left := max xs0 xmin
  if istart = iend then
    (if xs1 ≤ xmax then .ok ys1 else lerp x y istart xmax).bind fun yr =>
    .ok ((yl + yr) / 2 * (min xs1 xmax - left))
  else
    (forLoop (fun i s =>
      (rd y (i - 1)).bind fun yp => (rd y i).bind fun yi => (rd x i).bind fun xi => (rd x (i - 1)).bind fun xp =>
        .ok (s + (yp + yi) / 2 * (xi - xp))) (List.range' (istart + 1) (iend - (istart + 1))) (0 + (yl + ys1) / 2 * (xs1 - left))).bind fun s =>
    (rd x iend).bind fun xe => (rd x (iend - 1)).bind fun xe0 => (rd y iend).bind fun ye => (rd y (iend - 1)).bind fun ye0 =>
    (if xe ≤ xmax then .ok ye else lerp x y iend xmax).bind fun yr =>
    .ok (s + (ye0 + yr) / 2 * (min xe xmax - xe0))

end Siren.Math.Integrate
