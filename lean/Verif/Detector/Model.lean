import Verif.Base
import Verif.Tactics
import Mathlib.Data.List.Sort

set_option autoImplicit false

/-!
# Walking a ray through the sectors of a detector

Models `SortIntersections` and `SectorLoop` of `detector/private/DetectorModel.cxx`.

Simplification: an intersection carries only the fields these functions use (distance, hierarchy, entering); position and
material are functions of distance and hierarchy. Distances are elements of an arbitrary linear order, so infinite
distances are covered.
-/

namespace Siren.Detector

/-- `Geometry::Intersection` (geometry/public/SIREN/geometry/Geometry.h:68-95) without `position` and `matID`. -/
structure Hit (D : Type) where
  distance : D
  hierarchy : Int
  entering : Bool
  deriving DecidableEq, Repr

variable {D : Type}

/-- The comparator `comp` of `SortIntersections` (detector/private/DetectorModel.cxx:1757-1780), line by line. -/
def comp [LT D] [DecidableLT D] [DecidableEq D] (a b : Hit D) : Bool :=
  if a.distance < b.distance then true
  else if a.distance = b.distance then
    let low_high := decide (a.hierarchy < b.hierarchy)
    let high_low := decide (b.hierarchy < a.hierarchy)
    if a.entering then
      if b.entering then high_low else false
    else
      if b.entering then true else low_high
  else false

/-- What `std::sort` guarantees (detector/private/DetectorModel.cxx:1781): a permutation in which no element is less than
an earlier one. Ties may come in any order; theorems quantify over every such result. -/
def IsSortOf [LT D] [DecidableLT D] [DecidableEq D] (out input : List (Hit D)) : Prop :=
  out.Perm input ∧ out.Pairwise (fun a b => comp b a = false)

/-- One executable instance of `SortIntersections` (detector/private/DetectorModel.cxx:1755-1782). -/
def sortIntersections [LT D] [DecidableLT D] [DecidableEq D] (l : List (Hit D)) : List (Hit D) :=
  l.insertionSort (fun a b => comp b a = false)

/-- The `std::map<int, const_iterator> stack` of `SectorLoop` (detector/private/DetectorModel.cxx:1834), as an
association list; only `insert`, `erase`, `size` and "predecessor of a key" are used. -/
abbrev Stack (D : Type) := List (Int × Hit D)

/-- `std::map::insert`: keeps the existing value when the key is present. -/
def Stack.insert (s : Stack D) (k : Int) (h : Hit D) : Stack D :=
  if s.any (fun e => e.1 == k) then s else (k, h) :: s

/-- `std::map::erase(key)`. -/
def Stack.erase (s : Stack D) (k : Int) : Stack D := s.filter (fun e => e.1 != k)

/-- `--stack.lower_bound(k)` (detector/private/DetectorModel.cxx:1894): the entry with the greatest key below `k`;
`none` when there is none, where the code decrements `begin()`. -/
def Stack.pred : Stack D → Int → Option (Int × Hit D)
  | [], _ => none
  | e :: s, k =>
    match Stack.pred s k with
    | none => if e.1 < k then some e else none
    | some b => if e.1 < k ∧ b.1 < e.1 then some e else some b

/-- Body of the `for` loop of `SectorLoop` (detector/private/DetectorModel.cxx:1863-1912). `rest` are the intersections
still to visit in visiting order. The callback is an arbitrary function threading a state `σ` (the variables captured by
reference) and returning `done`; it may throw. Decrementing `begin()` is undefined behaviour. -/
def loop {σ : Type} (cb : σ → Hit D → Hit D → D → Res (Bool × σ)) (reverse : Bool) :
    List (Hit D) → Stack D → Hit D → D → σ → Res σ
  | [], _, _, _, s => .ok s
  | i :: rest, stack, current, lastPoint, s =>
    if xor i.entering reverse then
      let stack := stack.insert i.hierarchy i
      if i.hierarchy > current.hierarchy then
        (cb s current i lastPoint).bind fun (done, s) =>
          if done then .ok s else loop cb reverse rest stack i i.distance s
      else loop cb reverse rest stack current lastPoint s
    else if i.hierarchy ≤ current.hierarchy then
      let stack := stack.erase i.hierarchy
      if i.hierarchy = current.hierarchy then
        (cb s current i lastPoint).bind fun (done, s) =>
          if done then .ok s
          else if stack.length > 0 then
            match stack.pred i.hierarchy with
            | some lb => loop cb reverse rest stack lb.2 i.distance s
            | none => .ub
          else .ok s
      else loop cb reverse rest stack current lastPoint s
    else .throws .runtimeError

/-- `DetectorModel::SectorLoop` (detector/private/DetectorModel.cxx:1829-1913). In reverse the list is visited from its
last element down to its first. -/
def sectorLoop {σ : Type} (cb : σ → Hit D → Hit D → D → Res (Bool × σ)) (hits : List (Hit D)) (reverse : Bool)
    (s : σ) : Res σ :=
  match (if reverse then hits.reverse else hits) with
  | [] => .ok s
  | first :: rest =>
    loop cb reverse rest (Stack.insert [] first.hierarchy first) first first.distance s

end Siren.Detector
