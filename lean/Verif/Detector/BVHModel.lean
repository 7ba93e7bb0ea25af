import Verif.Base
import Verif.Geometry.BoolBox

set_option autoImplicit false

/-!
# The bounding-volume hierarchy of a detector

Models `RebuildBVH`, `BuildBVHRecursive`, `GetIntersections`, `FindContainingSectorBVH` and `GetContainingSectorDirect`
(detector/private/DetectorModel.cxx:1393-1748).

Simplifications: a sector is its level, material, placement, local bounding box and local intersection function
(`ComputeIntersections`). Node, child and sector numbers are natural numbers with `none` for `-1`. The segment
`[begin, end)` of the shared index vector that a recursive call works on is a list of its own (a call touches no other
part). `std::sort` of sector numbers by a key is a parameter. Memory ordering of the "dirty" flag is not modelled. The
vector of cached boxes is a function; `RebuildBVH` fills it for every sector number.
-/

namespace Siren.Detector.BVH

open Siren Siren.Geometry Siren.Geometry.BoolBox

/-- `DetectorSector` (detector/public/SIREN/detector/DetectorModel.h:43-48) with its `Geometry`, as far as spatial queries
use it. -/
structure Sector where
  level : Int
  material : Int
  placement : Placement
  localBox : AABB EReal
  compute : Vec3 ℝ → Vec3 ℝ → List Isect

/-- `Geometry::GetWorldBoundingBox` (geometry/private/Geometry.cxx:210-215). -/
noncomputable def Sector.worldBox (big : ℝ) (s : Sector) : AABB EReal := world big s.placement s.localBox

/-- `Geometry::IsInside(position)` (geometry/private/Geometry.cxx:121-140). -/
noncomputable def Sector.isInside (s : Sector) (p : Vec3 ℝ) : Bool :=
  firstAhead (s.compute (s.placement.globalToLocalPosition p) (s.placement.globalToLocalDirection ⟨0, 0, 1⟩))

/-- An intersection in the list of `GetIntersections`: with the level and material of its sector. -/
structure MHit where
  isect : Isect
  matID : Int

/-- Mark the hits of a sector with its level and material (detector/private/DetectorModel.cxx:1639-1642, 1723-1726). -/
def Sector.tag (s : Sector) (hits : List Isect) : List MHit :=
  hits.map fun h => ⟨{ h with hierarchy := s.level }, s.material⟩

/-- `AppendSectorIntersections` (detector/private/DetectorModel.cxx:1631-1643). -/
noncomputable def Sector.append (s : Sector) (p d : Vec3 ℝ) : List MHit := s.tag (placed s.placement s.compute p d)

/-- What a leaf contributes (detector/private/DetectorModel.cxx:1710-1726): the local box is tried first, then the
intersections are computed in local coordinates (Geometry.cxx:230-236). A sector in the hierarchy has a finite local box,
whose components are read here as real numbers. -/
noncomputable def Sector.leafHits (s : Sector) (p d : Vec3 ℝ) : List MHit :=
  let lp := s.placement.globalToLocalPosition p
  let ld := s.placement.globalToLocalDirection d
  if !AABB.rayIntersect lp (AABB.invDir ld) (unlift s.localBox) then []
  else s.tag ((s.compute lp ld).map fun h => { h with position := s.placement.localToGlobalPosition h.position })

/-- `BVHNode` (detector/public/SIREN/detector/DetectorModel.h:79-84). -/
structure Node where
  bounds : AABB ℝ
  left : Option Nat
  right : Option Nat
  sector : Option Nat

/-- A conversion `(int) x`: truncation towards zero. -/
noncomputable def trunc (x : ℝ) : Int := if 0 ≤ x then ⌊x⌋ else ⌈x⌉

/-- `N_BINS` (detector/private/DetectorModel.cxx:1535). -/
def nBins : Nat := 12

/-- `struct Bin` (detector/private/DetectorModel.cxx:1560). -/
structure Bin where
  bounds : AABB ℝ
  count : Nat

/-- Fill the bins of one axis (detector/private/DetectorModel.cxx:1564-1569). A bin number outside the array is undefined
behaviour. -/
noncomputable def fillBins (box : Nat → AABB ℝ) (axis : Nat) (axisMin inv : ℝ) : List Nat → (Nat → Bin) → Res (Nat → Bin)
  | [], bins => .ok bins
  | i :: is, bins =>
    let c := (box i).centroidAxis axis
    let b := min (trunc ((c - axisMin) * inv)) (nBins - 1)
    if 0 ≤ b ∧ b < nBins then
      fillBins box axis axisMin inv is
        (Function.update bins b.toNat ⟨(bins b.toNat).bounds.expandBox (box i), (bins b.toNat).count + 1⟩)
    else .ub

/-- `best_axis`, `best_split`, `best_cost` (detector/private/DetectorModel.cxx:1542-1544). -/
structure Best where
  axis : Nat
  split : Nat
  cost : ℝ

/-- `right_bounds` for a split after bin `s` (detector/private/DetectorModel.cxx:1582-1585). -/
noncomputable def rightBounds (big : ℝ) (bins : Nat → Bin) (s : Nat) : AABB ℝ :=
  ((List.range nBins).drop (s + 1)).foldl
    (fun b r => if (bins r).count > 0 then b.expandBox (bins r).bounds else b) (AABB.empty big)

/-- The sweep over the splits of one axis (detector/private/DetectorModel.cxx:1576-1594). -/
noncomputable def sweep (big : ℝ) (bins : Nat → Bin) (axis count : Nat) (parentArea : ℝ) :
    List Nat → AABB ℝ → Nat → Best → Best
  | [], _, _, best => best
  | s :: ss, leftBounds, leftCount, best =>
    let leftBounds := if (bins s).count > 0 then leftBounds.expandBox (bins s).bounds else leftBounds
    let leftCount := leftCount + (bins s).count
    let rightCount := count - leftCount
    if leftCount = 0 ∨ rightCount = 0 then sweep big bins axis count parentArea ss leftBounds leftCount best
    else
      let cost := 1 + (leftCount * leftBounds.surfaceArea + rightCount * (rightBounds big bins s).surfaceArea) / parentArea
      sweep big bins axis count parentArea ss leftBounds leftCount
        (if cost < best.cost then ⟨axis, leftCount, cost⟩ else best)

/-- The component of a corner along an axis (detector/private/DetectorModel.cxx:1549-1552). -/
def component (v : Vec3 ℝ) : Nat → ℝ
  | 1 => v.y
  | 2 => v.z
  | _ => v.x

/-- One pass of the loop over the axes (detector/private/DetectorModel.cxx:1548-1595). -/
noncomputable def tryAxis (big : ℝ) (box : Nat → AABB ℝ) (seg : List Nat) (cb : AABB ℝ) (parentArea : ℝ) (axis : Nat)
    (best : Best) : Res Best :=
  let axisMin := component cb.min axis
  let axisMax := component cb.max axis
  if axisMax - axisMin < 1 / 10 ^ 12 then .ok best
  else
    let inv := nBins / (axisMax - axisMin)
    (fillBins box axis axisMin inv seg (fun _ => ⟨AABB.empty big, 0⟩)).bind fun bins =>
      .ok (sweep big bins axis seg.length parentArea (List.range (nBins - 1)) (AABB.empty big) 0 best)

/-- `bounds` of a node (detector/private/DetectorModel.cxx:1518-1521). -/
noncomputable def segBounds (big : ℝ) (box : Nat → AABB ℝ) (seg : List Nat) : AABB ℝ :=
  seg.foldl (fun b i => b.expandBox (box i)) (AABB.empty big)

/-- `centroid_bounds` (detector/private/DetectorModel.cxx:1537-1540). -/
noncomputable def centroidBounds (big : ℝ) (box : Nat → AABB ℝ) (seg : List Nat) : AABB ℝ :=
  seg.foldl (fun b i => b.expand (box i).centroid) (AABB.empty big)

/-- `BuildBVHRecursive` (detector/private/DetectorModel.cxx:1511-1628). Running out of `fuel` stands for unbounded recursion
and is undefined behaviour. Returns the node's number and the extended node array. -/
noncomputable def build (srt : (Nat → ℝ) → List Nat → List Nat) (big : ℝ) (box : Nat → AABB ℝ) :
    Nat → List Nat → List Node → Res (Nat × List Node)
  | 0, _, _ => .ub
  | fuel + 1, seg, nodes =>
    let nodeIdx := nodes.length
    let bounds := segBounds big box seg
    match seg with
    | [i] => .ok (nodeIdx, nodes ++ [⟨bounds, none, none, some i⟩])
    | seg =>
      let nodes := nodes ++ [⟨bounds, none, none, none⟩]
      let cb := centroidBounds big box seg
      let parentArea := if bounds.surfaceArea ≤ 0 then 1 else bounds.surfaceArea
      (tryAxis big box seg cb parentArea 0 ⟨0, seg.length / 2, big⟩).bind fun best =>
      (tryAxis big box seg cb parentArea 1 best).bind fun best =>
      (tryAxis big box seg cb parentArea 2 best).bind fun best =>
        let degenerate := component cb.max best.axis - component cb.min best.axis < 1 / 10 ^ 12
        let sorted := if degenerate then seg else srt (fun i => (box i).centroidAxis best.axis) seg
        let mid := if degenerate then seg.length / 2
          else
            let mid := if best.split ≤ 0 then 1 else best.split
            if mid ≥ seg.length then seg.length - 1 else mid
        (build srt big box fuel (sorted.take mid) nodes).bind fun (left, nodes) =>
        (build srt big box fuel (sorted.drop mid) nodes).bind fun (right, nodes) =>
          .ok (nodeIdx, nodes.modify nodeIdx fun n => { n with left := some left, right := some right })

/-- `bvh_nodes_`, `bvh_infinite_sectors_`, `bvh_invalid_aabb_sectors_` (detector/public/SIREN/detector/DetectorModel.h:85-97). -/
structure Index where
  nodes : List Node
  infinite : List Nat
  invalid : List Nat

open Classical in
/-- `RebuildBVH` (detector/private/DetectorModel.cxx:1471-1509). -/
noncomputable def rebuild (srt : (Nat → ℝ) → List Nat → List Nat) (big : ℝ) (secs : List Sector) : Res Index :=
  let aabb := fun i : Nat => ((secs[i]?).map (Sector.worldBox big)).getD (lift (AABB.empty big))
  let all := List.range secs.length
  let infinite := all.filter fun i => decide (¬ AllFin (aabb i))
  let invalid := all.filter fun i => decide (AllFin (aabb i)) && !(aabb i).isValid
  let indices := all.filter fun i => decide (AllFin (aabb i)) && (aabb i).isValid
  if indices.isEmpty then .ok ⟨[], infinite, invalid⟩
  else (build srt big (fun i => unlift (aabb i)) indices.length indices []).bind fun (_, nodes) =>
    .ok ⟨nodes, infinite, invalid⟩

/-- `BVH_STACK_CAPACITY` (detector/private/DetectorModel.cxx:1691). -/
def stackCapacity : Nat := 64

/-- `push` (detector/private/DetectorModel.cxx:1729-1736); both stacks have their top first. Writing beyond the fixed array
is undefined behaviour. -/
def push (child : Option Nat) (st : List Nat × List Nat) : Res (List Nat × List Nat) :=
  match child with
  | none => .ok st
  | some c =>
    if st.1.length < stackCapacity then
      if st.1.length < 64 then .ok (c :: st.1, st.2) else .ub
    else .ok (st.1, c :: st.2)

/-- Take the next node to visit (detector/private/DetectorModel.cxx:1698-1704). -/
def pop : List Nat × List Nat → Option (Nat × (List Nat × List Nat))
  | (stack, n :: heap) => some (n, (stack, heap))
  | (n :: stack, []) => some (n, (stack, []))
  | ([], []) => none

/-- The traversal loop of `GetIntersections` (detector/private/DetectorModel.cxx:1697-1741). Running out of fuel stands for
non-termination and counts as undefined behaviour. -/
noncomputable def traverse (secs : List Sector) (nodes : List Node) (p d : Vec3 ℝ) :
    Nat → List Nat × List Nat → List MHit → Res (List MHit)
  | 0, _, _ => .ub
  | fuel + 1, st, acc =>
    match pop st with
    | none => .ok acc
    | some (n, st) =>
      match nodes[n]? with
      | none => .ub
      | some node =>
        if !AABB.rayIntersect p (AABB.invDir d) node.bounds then traverse secs nodes p d fuel st acc
        else
          match node.sector with
          | some s =>
            match secs[s]? with
            | none => .ub
            | some sector => traverse secs nodes p d fuel st (acc ++ sector.leafHits p d)
          | none =>
            (push node.left st).bind fun st => (push node.right st).bind fun st => traverse secs nodes p d fuel st acc

/-- The hits of sectors tested directly (detector/private/DetectorModel.cxx:1675-1680). -/
noncomputable def appendAll (secs : List Sector) (p d : Vec3 ℝ) : List Nat → Res (List MHit)
  | [] => .ok []
  | i :: is =>
    match secs[i]? with
    | none => .ub
    | some s => (appendAll secs p d is).bind fun rest => .ok (s.append p d ++ rest)

/-- `GetIntersections` before sorting (detector/private/DetectorModel.cxx:1653-1743). -/
noncomputable def collect (secs : List Sector) (ix : Index) (p d : Vec3 ℝ) (fuel : Nat) : Res (List MHit) :=
  (appendAll secs p d ix.infinite).bind fun a =>
  (appendAll secs p d ix.invalid).bind fun b =>
    if ix.nodes.isEmpty then .ok (a ++ b)
    else traverse secs ix.nodes p d fuel ([0], []) (a ++ b)

/-- `std::numeric_limits<int>::min()`. -/
def intMin : Int := -2147483648

/-- `best_level` and `best_sector`; `none` is the default-constructed sector. -/
structure Found where
  level : Int
  sector : Option Sector

/-- `if(sector.level > best_level && IsInside)` (detector/private/DetectorModel.cxx:1407-1410, 1450-1453). -/
noncomputable def Found.offer (f : Found) (s : Sector) (p : Vec3 ℝ) : Found :=
  if f.level < s.level ∧ s.isInside p = true then ⟨s.level, some s⟩ else f

/-- `FindContainingSectorBVH` (detector/private/DetectorModel.cxx:1393-1420). -/
noncomputable def find (secs : List Sector) (nodes : List Node) (p : Vec3 ℝ) : Nat → Nat → Found → Res Found
  | 0, _, _ => .ub
  | fuel + 1, n, f =>
    match nodes[n]? with
    | none => .ub
    | some node =>
      if !node.bounds.contains p then .ok f
      else
        match node.sector with
        | some s =>
          match secs[s]? with
          | none => .ub
          | some sector => .ok (f.offer sector p)
        | none =>
          (match node.left with
            | some l => find secs nodes p fuel l f
            | none => .ok f).bind fun f =>
          match node.right with
          | some r => find secs nodes p fuel r f
          | none => .ok f

/-- The loop over sectors with infinite bounds (detector/private/DetectorModel.cxx:1437-1443). -/
def offerInfinite (secs : List Sector) : List Nat → Found → Res Found
  | [], f => .ok f
  | i :: is, f =>
    match secs[i]? with
    | none => .ub
    | some s => offerInfinite secs is (if s.level ≥ f.level then ⟨s.level, some s⟩ else f)

/-- The loop over sectors with invalid boxes (detector/private/DetectorModel.cxx:1450-1456). -/
noncomputable def offerInvalid (secs : List Sector) (p : Vec3 ℝ) : List Nat → Found → Res Found
  | [], f => .ok f
  | i :: is, f =>
    match secs[i]? with
    | none => .ub
    | some s => offerInvalid secs p is (f.offer s p)

/-- `GetContainingSectorDirect` (detector/private/DetectorModel.cxx:1422-1465) on an up-to-date index. -/
noncomputable def containingDirect (secs : List Sector) (ix : Index) (p : Vec3 ℝ) (fuel : Nat) : Res (Option Sector) :=
  (offerInfinite secs ix.infinite ⟨intMin, none⟩).bind fun f =>
  (offerInvalid secs p ix.invalid f).bind fun f =>
  (if ix.nodes.isEmpty then .ok f else find secs ix.nodes p fuel 0 f).bind fun f => .ok f.sector

end Siren.Detector.BVH
