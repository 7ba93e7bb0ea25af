import Verif.Geometry.Hits

set_option autoImplicit false

/-!
# Placed shapes and boolean combinations

Models the parts of `geometry/private/Geometry.cxx` and `geometry/private/BooleanGeometry.cxx` that compute
intersections, containment and bounding boxes.

Simplification: a primitive shape is represented by the function computing its local intersections. `std::sort` by
distance is a parameter `srt` of the model; `IsDistanceSort` is its contract (ties in any order). The stack buffers of the
code (capacity 32, then heap) hold the same sequence as the list here.
-/

namespace Siren.Geometry

open Siren

/-- `BooleanOperation` (geometry/public/SIREN/geometry/BooleanGeometry.h). -/
inductive BoolOp
  | union
  | intersection
  | subtraction
  deriving DecidableEq, Repr

/-- `IsInsideResult` (geometry/private/BooleanGeometry.cxx:21-31). -/
def isInsideResult (op : BoolOp) (inLeft inRight : Bool) : Bool :=
  match op with
  | .union => inLeft || inRight
  | .intersection => inLeft && inRight
  | .subtraction => inLeft && !inRight

/-- `TaggedHit` (geometry/private/BooleanGeometry.cxx:123-127); `right` is `child == 1`. -/
structure Tagged where
  isect : Isect
  right : Bool

/-- What `std::sort` with `tag_cmp` guarantees (geometry/private/BooleanGeometry.cxx:169-176). -/
def IsDistanceSort (srt : List Tagged → List Tagged) : Prop :=
  ∀ l, (srt l).Perm l ∧ (srt l).Pairwise (fun a b => a.isect.distance ≤ b.isect.distance)

/-- The state updates of one batch (geometry/private/BooleanGeometry.cxx:223-229) for one child. -/
def batchState (right : Bool) (s : Bool) (batch : List Tagged) : Bool :=
  batch.foldl (fun s x => if x.right = right then x.isect.entering else s) s

/-- The walk over the sorted hits (geometry/private/BooleanGeometry.cxx:214-245): all hits closer than the tolerance to the
first one of the batch are applied before the result is evaluated; the last one of the batch is reported. -/
noncomputable def csgWalk (op : BoolOp) (inLeft inRight was : Bool) : List Tagged → List Isect
  | [] => []
  | h :: rest =>
    let close := fun x : Tagged => decide (x.isect.distance - h.isect.distance < precision)
    let batch := rest.takeWhile close
    let inLeft' := batchState false inLeft (h :: batch)
    let inRight' := batchState true inRight (h :: batch)
    let now := isInsideResult op inLeft' inRight'
    let last := (batch.getLast?.getD h).isect
    let tail := csgWalk op inLeft' inRight' now (rest.dropWhile close)
    if was ≠ now then { last with entering := now } :: tail else tail
  termination_by l => l.length
  decreasing_by
    simp only [List.length_cons]
    exact Nat.lt_succ_of_le (List.dropWhile_sublist _).length_le

/-- `BooleanGeometry::ComputeIntersections` (geometry/private/BooleanGeometry.cxx:117-249) on the operands' hits. -/
noncomputable def csg (srt : List Tagged → List Tagged) (op : BoolOp) (left right : List Isect) : List Isect :=
  csgWalk op false false (isInsideResult op false false)
    (srt (left.map (fun h => ⟨h, false⟩) ++ right.map (fun h => ⟨h, true⟩)))

/-- A shape with its placement. `null` is a null child pointer of a boolean shape. -/
inductive Geom
  | null
  | prim (placement : Placement) (compute : Vec3 ℝ → Vec3 ℝ → List Isect)
  | bool (placement : Placement) (op : BoolOp) (left right : Geom)

/-- The part of `Geometry::Intersections` (geometry/private/Geometry.cxx:217-228) that goes to local coordinates and
back. -/
noncomputable def placed (p : Placement) (compute : Vec3 ℝ → Vec3 ℝ → List Isect) (position direction : Vec3 ℝ) :
    List Isect :=
  if p.isIdentity then compute position direction
  else (compute (p.globalToLocalPosition position) (p.globalToLocalDirection direction)).map fun h =>
    { h with position := p.localToGlobalPosition h.position }

/-- `Geometry::Intersections(position, direction)` (geometry/private/Geometry.cxx:217-228) with the virtual
`ComputeIntersections`. A null child contributes nothing (BooleanGeometry.cxx:153-165). -/
noncomputable def Geom.intersections (srt : List Tagged → List Tagged) : Geom → Vec3 ℝ → Vec3 ℝ → List Isect
  | .null => fun _ _ => []
  | .prim p compute => placed p compute
  | .bool p op left right =>
    placed p fun position direction =>
      csg srt op (left.intersections srt position direction) (right.intersections srt position direction)

/-- The virtual `ComputeIntersections` in local coordinates. -/
noncomputable def Geom.compute (srt : List Tagged → List Tagged) : Geom → Vec3 ℝ → Vec3 ℝ → List Isect
  | .null => fun _ _ => []
  | .prim _ compute => compute
  | .bool _ op left right => fun position direction =>
      csg srt op (left.intersections srt position direction) (right.intersections srt position direction)

/-- The placement of a shape. -/
def Geom.placement : Geom → Placement
  | .null => ⟨⟨0, 0, 0⟩, Quat.one⟩
  | .prim p _ => p
  | .bool p _ _ _ => p

/-- The loop of `Geometry::IsInside` (geometry/private/Geometry.cxx:129-134). -/
noncomputable def firstAhead : List Isect → Bool
  | [] => false
  | h :: hits => if h.distance > precision then !h.entering else firstAhead hits

/-- `Geometry::IsInside(position, direction)` (geometry/private/Geometry.cxx:121-135); there is no identity shortcut
here. -/
noncomputable def Geom.isInside (srt : List Tagged → List Tagged) (g : Geom) (position direction : Vec3 ℝ) : Bool :=
  firstAhead (g.compute srt (g.placement.globalToLocalPosition position) (g.placement.globalToLocalDirection direction))

/-- `Geometry::IsInside(position)` (geometry/private/Geometry.cxx:137-140). -/
noncomputable def Geom.isInsideZ (srt : List Tagged → List Tagged) (g : Geom) (position : Vec3 ℝ) : Bool :=
  g.isInside srt position ⟨0, 0, 1⟩

end Siren.Geometry
