import Verif.Math.Integrate
import Mathlib.Analysis.SpecialFunctions.Log.Basic
import Mathlib.Algebra.Order.Floor.Ring
import Mathlib.Algebra.Order.Archimedean.Real.Basic
import Mathlib.Data.Finset.Sort

set_option autoImplicit false

/-!
# One-dimensional table interpolation

Models `utilities/public/SIREN/utilities/Interpolator.h` for `T = double`, as real numbers. `unsigned int` values stay below `2 ^ 32` except in
`IndexFinderIrregular`, where the wrap-around decides the result and is modelled.
-/

namespace Siren.Math.Table

open Siren Integrate

/-- `TableData1D` (Interpolator.h:31-54). -/
structure Data where
  x : List ℝ
  f : List ℝ

/-- A `std::set<double>` copied to a vector: the values without repetition, ascending. -/
noncomputable def setOf (x : List ℝ) : List ℝ := x.toFinset.sort (· ≤ ·)

/-- `IndexFinderIrregular` (Interpolator.h:84-137): the sorted points; `diff`, `low`, `high`, `range` and `n_points` are computed from them. -/
structure Irregular where
  data : List ℝ

/-- `diff[i]` (Interpolator.h:100-103). -/
noncomputable def Irregular.diff (s : Irregular) (i : Nat) : Res ℝ :=
  if i + 1 < s.data.length then .ok (s.data.getD (i + 1) 0 - s.data.getD i 0) else .ub

/-- The interval chosen for an argument: index, argument, lower edge and width. -/
structure Found where
  index : Nat
  val : ℝ
  xa : ℝ
  delta : ℝ

/-- `operator()` of `IndexFinderIrregular` (Interpolator.h:121-136). The index is computed as `unsigned`: one less than zero is
`2 ^ 32 - 1`, and the test `index < 0` never holds. -/
noncomputable def Irregular.find (s : Irregular) (x : ℝ) : Res Found :=
  let d := lowerBound s.data x
  let index := if d = 0 then 2 ^ 32 - 1 else d - 1
  let index := if s.data.length - 1 ≤ index then s.data.length - 2 else index
  (rd s.data index).bind fun xa => (s.diff index).bind fun delta => .ok ⟨index, x, xa, delta⟩

/-- `IndexFinderRegular` (Interpolator.h:146-187). -/
structure Regular where
  low : ℝ
  high : ℝ
  n : Nat

/-- `range` (Interpolator.h:161). -/
def Regular.range (s : Regular) : ℝ := s.high - s.low

/-- `delta` (Interpolator.h:162). -/
noncomputable def Regular.delta (s : Regular) : ℝ := s.range / ((s.n : ℝ) - 1)

/-- The constructor (Interpolator.h:155-163); the set must not be empty. -/
def Regular.of (points : List ℝ) : Regular := ⟨points.getD 0 0, points.getD (points.length - 1) 0, points.length⟩

/-- `operator()` of `IndexFinderRegular` (Interpolator.h:178-186). Values whose integer part does not fit into an `int` are not modelled. -/
noncomputable def Regular.find (s : Regular) (x : ℝ) : Found :=
  let i : Int := ⌊(x - s.low) / s.range * ((s.n : ℝ) - 1)⌋
  let i : Int := if i < 0 then 0 else if (s.n : Int) - 1 ≤ i then (s.n : Int) - 2 else i
  ⟨i.toNat, x, s.low + i * s.delta, s.delta⟩

/-- `Indexer1D` (Interpolator.h:190-335). `points` is used for its size only; `Min` and `Max` are those of the finder in use. -/
structure Indexer where
  isLog : Bool
  isRegular : Bool
  points : List ℝ
  regular : Regular
  irregular : Irregular

/-- `MaxDist` (Interpolator.h:226-236): the largest deviation of a spacing from the average. Infinite distances do not occur for reals. -/
noncomputable def maxDist (x : List ℝ) (avg : ℝ) : ℝ :=
  ((List.range (x.length - 1)).map fun i => |(|x.getD (i + 1) 0 - x.getD i 0|) - avg|).foldl max 0

/-- The relative deviation of the spacings, as computed for both scales (Interpolator.h:250-253, 261-262). -/
noncomputable def relDist (x : List ℝ) : ℝ := maxDist x (Regular.of x).delta / (Regular.of x).delta

/-- The relative deviation on the logarithmic scale. For a table with an abscissa that is not positive the code gets an infinite or undefined
`delta`, and the comparisons in lines 255 and 270 are false: `none`. (For negative abscissas it also puts NaN into a `std::set`.) -/
noncomputable def logRelDist (x : List ℝ) : Option ℝ := if ∀ v ∈ x, 0 < v then some (relDist (x.map Real.log)) else none

open Classical in
/-- Whether the deviation on the logarithmic scale is below a bound; never if it is infinite or undefined. -/
noncomputable def logBelow (x : List ℝ) (bound : ℝ) : Bool := match logRelDist x with | some d => decide (d < bound) | none => false

open Classical in
/-- `Indexer1D::AddTable` (Interpolator.h:238-299). `1e-4` is exact here. The assertion in line 244 is the caller's. -/
noncomputable def Indexer.of (t : Data) : Indexer :=
  let x := setOf t.x
  let lx := x.map Real.log
  let logRegular := logBelow x (1 / 10000)
  let linRegular : Bool := decide (relDist x < 1 / 10000)
  let isRegular := logRegular || linRegular
  let isLog : Bool := if logRegular then true else if linRegular then false else logBelow x (relDist x)
  ⟨isLog, isRegular, if isLog then lx else x, Regular.of (if logRegular then lx else x), ⟨if isLog then lx else x⟩⟩

/-- `operator()` (Interpolator.h:301-313). -/
noncomputable def Indexer.find (s : Indexer) (x : ℝ) : Res Found :=
  let val := if s.isLog then Real.log x else x
  if s.isRegular then .ok (s.regular.find val) else s.irregular.find val

/-- `Interpolator1D` (Interpolator.h:337-470): `function` is the `std::map` from index to value, `mask` the contents of `zero_mask`. -/
structure Interp where
  indexer : Indexer
  function : Nat → Option ℝ
  mask : List Bool

/-- The loop that fills `function` (Interpolator.h:404-408) with `xmap[v]` the position of `v` among the sorted abscissas. -/
noncomputable def fill (xs : List ℝ) : List ℝ → List ℝ → (Nat → Option ℝ) → Nat → Option ℝ
  | x :: xr, f :: fr, m => fill xs xr fr (fun k => if k = xs.findIdx (fun v => decide (v = x)) then some f else m k)
  | _, _, m => m

/-- What `AddTable` (Interpolator.h:381-409) leaves behind if the values written to `zero_mask` are kept. -/
noncomputable def build (t : Data) : Interp :=
  let ix := Indexer.of t
  let values := if ix.isLog then t.f.map fun v => if 0 < v then Real.log v else v else t.f
  ⟨ix, fill (setOf t.x) t.x values (fun _ => none), if ix.isLog then t.f.map fun v => decide (v ≤ 0) else []⟩

/-- `AddTable` (Interpolator.h:381-409). In logarithmic mode the values of `zero_mask` are written through `begin()` of a vector of size zero
(lines 398-399: `reserve` does not change the size), which is undefined. So are violated assertions (lines 391-393), and a repeated abscissa
without a value, which makes the loop in lines 404-408 read beyond `function_values`. -/
noncomputable def addTable (t : Data) : Res Interp :=
  if (setOf t.x).length < 2 ∨ (setOf t.x).length ≠ t.f.length ∨ t.f.length < t.x.length then .ub
  else if (build t).indexer.isLog then .ub else .ok (build t)

/-- `function.at` -/
def Interp.at_ (s : Interp) (i : Nat) : Res ℝ := match s.function i with | some v => .ok v | none => .throws .outOfRange

/-- `zero_mask[i]`. -/
def Interp.zero (s : Interp) (i : Nat) : Res Bool := match s.mask[i]? with | some v => .ok v | none => .ub

/-- `operator()` (Interpolator.h:411-452). -/
noncomputable def Interp.eval (s : Interp) (x : ℝ) : Res ℝ :=
  (s.indexer.find x).bind fun r =>
  let index := if s.indexer.points.length - 1 ≤ r.index then s.indexer.points.length - 2 else r.index
  (s.at_ index).bind fun fa => (s.at_ (index + 1)).bind fun fb =>
  (if s.indexer.isLog then
    (s.zero index).bind fun za => (s.zero (index + 1)).bind fun zb =>
      .ok (if za then
            if zb then fa + (fb - fa) * Real.exp (r.val - r.xa - r.delta) else fa + (Real.exp fb - fa) * Real.exp (r.val - r.xa - r.delta)
          else
            if zb then Real.exp fa + (fb - Real.exp fa) * Real.exp (r.val - r.xa - r.delta)
            else Real.exp (fa + (fb - fa) * (r.val - r.xa) / r.delta))
  else .ok (fa + (fb - fa) * (r.val - r.xa) / r.delta)).bind fun result =>
  .ok (if result < 0 then 0 else result)

end Siren.Math.Table
