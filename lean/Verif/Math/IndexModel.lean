import Verif.Math.Delaunay
import Mathlib.Data.List.Sort
import Mathlib.Algebra.Order.Floor.Ring
import Mathlib.Order.WithBot
import Mathlib.Algebra.BigOperators.Group.List.Basic

set_option autoImplicit false
set_option linter.unusedSectionVars false

/-!
# Looking up cells of a table

Models the one-dimensional indexers, `SelectIndexer1D` and `GridIndexer2D` of `math/public/SIREN/math/Interpolation.h`, over any ordered field
with integer parts. Sizes are below `2 ^ 31`, so that they fit the `int` and `unsigned int` they are stored in.
-/

namespace Siren.Math.Index

open Siren Delaunay

variable {K : Type} [Field K] [LinearOrder K]

/-- `std::sort`. -/
def sorted (l : List K) : List K := l.insertionSort (· ≤ ·)

/-- `reversed` as both constructors compute it (Interpolation.h:446-459, 517-530): the comparison that is to detect descending data is between
the sorted data and their reverse. -/
def reversedFlag (data : List K) : Bool :=
  if sorted data = data then false else if sorted data = (sorted data).reverse then true else false

/-- `front()` and `back()` of the sorted data. -/
def low (l : List K) : K := l.headD 0
def high (l : List K) : K := l.getLastD 0

/-- `RegularIndexer1D` (Interpolation.h:431-438); `delta` is not used. -/
structure Regular (K : Type) where
  low : K
  range : K
  reversed : Bool
  n : Nat
  deriving DecidableEq

/-- The constructor of `RegularIndexer1D` (Interpolation.h:442-466). -/
def Regular.make (data : List K) : Res (Regular K) :=
  if data.length < 2 then .throws .runtimeError
  else
    let range := Index.high (sorted data) - Index.low (sorted data)
    if |range| ≤ 0 then .throws .runtimeError
    else .ok ⟨Index.low (sorted data), range, reversedFlag data, data.length⟩

/-- `operator()` of `RegularIndexer1D` (Interpolation.h:493-502). A value that does not fit into an `int` must not be converted. -/
def Regular.find [FloorRing K] (s : Regular K) (x : K) : Res (Int × Int) :=
  let k : Int := ⌊(x - s.low) / s.range * ((s.n : K) - 1)⌋
  if k < -2 ^ 31 ∨ 2 ^ 31 ≤ k then .ub
  else
    let i : Int := if s.reversed then (s.n : Int) - 1 - k else k
    let i : Int := if i < 0 then 0 else if i ≥ (s.n : Int) - 1 then (s.n : Int) - 2 else i
    .ok (i, i + 1)

/-- `IrregularIndexer1D` (Interpolation.h:505-511). -/
structure Irregular (K : Type) where
  data : List K
  low : K
  high : K
  reversed : Bool
  n : Nat
  deriving DecidableEq

/-- The constructor of `IrregularIndexer1D` (Interpolation.h:514-537). -/
def Irregular.make (x : List K) : Res (Irregular K) :=
  if x.length < 2 then .throws .runtimeError
  else
    let range := Index.high (sorted x) - Index.low (sorted x)
    if |range| ≤ 0 then .throws .runtimeError
    else .ok ⟨sorted x, Index.low (sorted x), Index.high (sorted x), reversedFlag x, (sorted x).length⟩

/-- `std::lower_bound` on sorted data, as a position. -/
def lowerBound (data : List K) (x : K) : Nat := (data.takeWhile fun a => a < x).length

/-- `operator()` of `IrregularIndexer1D` (Interpolation.h:563-584). The position is at least one where `low < x`. -/
def Irregular.find (s : Irregular K) (x : K) : Int × Int :=
  if x ≤ s.low then (0, 1)
  else if x ≥ s.high then ((s.n : Int) - 2, (s.n : Int) - 1)
  else
    let i : Nat := lowerBound s.data x - 1
    let i : Nat := if s.reversed then s.n - 1 - i else i
    let i : Nat := if i ≥ s.n - 1 then s.n - 2 else i
    (i, (i : Int) + 1)

/-- `Indexer1D` and its subclasses (Interpolation.h:403-623). -/
inductive Indexer (K : Type) where
  | regular (s : Regular K)
  | irregular (s : Irregular K)
  | transformed (ix : Indexer K) (t : Trans K)

/-- `operator()` (Interpolation.h:493-502, 563-584, 619-622). -/
def Indexer.find [FloorRing K] : Indexer K → K → Res (Int × Int)
  | .regular s, x => s.find x
  | .irregular s, x => .ok (s.find x)
  | .transformed ix t, x => ix.find (t.fn x)

/-- `std::min_element`: the position of the first smallest element. -/
def argmin : List (WithTop K) → Nat
  | [] => 0
  | a :: l => if ∀ b ∈ l, a ≤ b then 0 else argmin l + 1

variable (eps : K)

/-- Sum over the points of a metric with the loss of precision taken off (Interpolation.h:637-640, 644-649, 655-660). -/
def metricIrregular (x : List K) (back : K → K) : K :=
  let m := (x.dropLast.map fun a => max |a - back a| (eps * |a|) * max |a - back a| (eps * |a|)).sum
  m - m * eps * x.length

/-- `thresh` (Interpolation.h:663). -/
def thresh (x : List K) : K := 1 - eps * 100 * x.length

/-- Sum over the points of the metric of a regular grid with points `grid i` (Interpolation.h:671-675, 683-688, 698-703). -/
def metricRegular (x : List K) (grid : Nat → K) : K :=
  (x.dropLast.zipIdx.map fun p =>
    let d := max (eps * |p.1| * thresh eps x) (min |p.1 - grid p.2| (eps * |p.1|))
    d * d).sum / thresh eps x

/-- The points of a regular grid from `a` to `b` (Interpolation.h:670-672, 682-684, 697-699). -/
def gridPoint (n : Nat) (a b : K) (i : Nat) : K := (b - a) / ((n : K) - 1) * i + a

/-- `metric_t_irregular` (Interpolation.h:641-650); `⊤` stands for the largest number. -/
def suppliedIrregular (x : List K) : Option (Trans K) → WithTop K
  | none => ⊤
  | some t => (metricIrregular eps x fun a => t.inv (t.fn a) : K)

/-- `metric_t_regular` (Interpolation.h:677-689). -/
def suppliedRegular (x : List K) : Option (Trans K) → WithTop K
  | none => ⊤
  | some t => (metricRegular eps x fun i => t.inv (gridPoint x.length (t.fn (low x)) (t.fn (high x)) i) : K)

/-- `SelectIndexer1D` (Interpolation.h:625-732) for data that are not empty. `eps` is the machine epsilon, `symlogOf` the constructor of
`SymLogTransform` from data, `isSymLog` tells whether the transform given is one, and `⊤` stands for the largest number. The first metric has
the form of the others for exact arithmetic. -/
def select (symlogOf : List K → Res (Trans K)) (data : List K) (t : Option (Trans K)) (isSymLog : Bool) : Res (Indexer K) :=
  let x := sorted data
  let n := x.length
  let xIrr : WithTop K := (metricIrregular eps x id : K)
  let xReg : WithTop K := (metricRegular eps x (gridPoint n (low x) (high x)) : K)
  (if isSymLog then Res.ok ((⊤, ⊤) : WithTop K × WithTop K) else (symlogOf x).bind fun s =>
    .ok (((metricIrregular eps x fun a => s.inv (s.fn a) : K) : WithTop K),
      ((metricRegular eps x fun i => s.inv (gridPoint n (s.fn (low x)) (s.fn (high x)) i) : K) : WithTop K))).bind fun sl =>
  let best := argmin [xIrr, xReg, suppliedIrregular eps x t, suppliedRegular eps x t, sl.1, sl.2]
  if best ≤ 1 then
    if best = 0 then (Irregular.make data).bind fun s => .ok (.irregular s)
    else (Regular.make data).bind fun s => .ok (.regular s)
  else
    (match t with
      | some t => if best ≤ 3 then Res.ok t else symlogOf data
      | none => if best ≤ 3 then .ub else symlogOf data).bind fun tr =>
    if best % 2 = 0 then (Irregular.make (data.map tr.fn)).bind fun s => .ok (.transformed (.irregular s) tr)
    else (Regular.make (data.map tr.fn)).bind fun s => .ok (.transformed (.regular s) tr)

/-- A `std::set` copied to a vector. -/
def unique (l : List K) : List K := sorted l.dedup

/-- `Index2D` (Interpolation.h:847-858). -/
structure Cell2D where
  x0 : Int
  y0 : Int
  x1 : Int
  y1 : Int
  z00 : Nat
  z01 : Nat
  z10 : Nat
  z11 : Nat
  deriving DecidableEq

/-- `GridIndexer2D` (Interpolation.h:867-871). `xy_to_z_map` is a function from pairs of positions to rows. -/
structure Grid (K : Type) where
  xi : Indexer K
  yi : Indexer K
  rows : Int × Int → Option Nat

/-- `xy_to_z_map` after the loop (Interpolation.h:883-890): `insert` keeps the row entered first. -/
def rowsOf (ux uy x y : List K) (p : Int × Int) : Option Nat :=
  (List.range x.length).find? fun i =>
    decide (((ux.idxOf (x.getD i 0) : Nat) : Int) = p.1 ∧ ((uy.idxOf (y.getD i 0) : Nat) : Int) = p.2)

/-- The constructor (Interpolation.h:874-891) for an indexer built by `mk`. The second vector is read up to the size of the first. -/
def Grid.make (mk : List K → Res (Indexer K)) (x y : List K) : Res (Grid K) :=
  (mk (unique x)).bind fun xi => (mk (unique y)).bind fun yi =>
    if y.length < x.length then .ub else .ok ⟨xi, yi, rowsOf (unique x) (unique y) x y⟩

/-- `map::at`. -/
def at_ (o : Option Nat) : Res Nat := match o with | some a => .ok a | none => .throws .outOfRange

/-- `operator()` (Interpolation.h:893-909). -/
def Grid.find [FloorRing K] (g : Grid K) (x y : K) : Res Cell2D :=
  (g.xi.find x).bind fun p => (g.yi.find y).bind fun q =>
    (at_ (g.rows (p.1, q.1))).bind fun z00 => (at_ (g.rows (p.1, q.2))).bind fun z01 =>
    (at_ (g.rows (p.2, q.1))).bind fun z10 => (at_ (g.rows (p.2, q.2))).bind fun z11 =>
    .ok ⟨p.1, q.1, p.2, q.2, z00, z01, z10, z11⟩

end Siren.Math.Index
