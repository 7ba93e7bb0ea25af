import Verif.Base
import Mathlib.Algebra.Order.Field.Basic
import Mathlib.Data.Fintype.Basic
import Mathlib.Data.List.FinRange

set_option autoImplicit false

/-!
# The quadtree

Models `namespace quadtree` of `math/public/SIREN/math/Interpolation.h`. `Float` is any ordered field (`double` in the only use in the
code base), so that halving and adding are exact. `mEqual` is equality, as in the default `std::equal_to`. The `assert` calls are compiled
only when `NDEBUG` is not defined: the parameter `checked` says whether they are, and a failing one is the outcome `ub`.
-/

namespace Siren.Math.Quad

open Siren

variable {K : Type} [Field K] [LinearOrder K]

/-- `quadtree::Box` (Interpolation.h:956-972). -/
structure Box (K : Type) where
  left : K
  top : K
  width : K
  height : K
  deriving DecidableEq

/-- `getRight` (Interpolation.h:974-976). -/
def Box.right (b : Box K) : K := b.left + b.width

/-- `getBottom` (Interpolation.h:978-980). -/
def Box.bottom (b : Box K) : K := b.top + b.height

/-- `contains` (Interpolation.h:994-997). -/
def Box.contains (a b : Box K) : Prop :=
  a.left ≤ b.left ∧ b.right ≤ a.right ∧ a.top ≤ b.top ∧ b.bottom ≤ a.bottom

/-- `intersects` (Interpolation.h:999-1002). -/
def Box.intersects (a b : Box K) : Prop :=
  ¬ (a.left ≥ b.right ∨ a.right ≤ b.left ∨ a.top ≥ b.bottom ∨ a.bottom ≤ b.top)

instance (a b : Box K) : Decidable (a.contains b) := by unfold Box.contains; infer_instance
instance (a b : Box K) : Decidable (a.intersects b) := by unfold Box.intersects; infer_instance

/-- `computeBox` (Interpolation.h:1057-1076). It is called with 0 to 3 only. -/
def computeBox (b : Box K) (i : Fin 4) : Box K :=
  match i with
  | 0 => ⟨b.left, b.top, b.width / 2, b.height / 2⟩
  | 1 => ⟨b.left + b.width / 2, b.top, b.width / 2, b.height / 2⟩
  | 2 => ⟨b.left, b.top + b.height / 2, b.width / 2, b.height / 2⟩
  | 3 => ⟨b.left + b.width / 2, b.top + b.height / 2, b.width / 2, b.height / 2⟩

/-- `getQuadrant` (Interpolation.h:1078-1107), with `getCenter` (Interpolation.h:986-988); `none` stands for -1. -/
def getQuadrant (node value : Box K) : Option (Fin 4) :=
  let cx := node.left + node.width / 2
  let cy := node.top + node.height / 2
  if value.right < cx then
    if value.bottom < cy then some 0 else if value.top ≥ cy then some 2 else none
  else if value.left ≥ cx then
    if value.bottom < cy then some 1 else if value.top ≥ cy then some 3 else none
  else none

/-- `Node` (Interpolation.h:1043-1046). The four children are created together (1141-1142) and dropped together (1204-1205), so that a node
either has none and is a leaf (`isLeaf`, 1053-1055) or has all four. -/
inductive Node (α : Type) where
  | leaf (values : List α)
  | inner (values : List α) (child : Fin 4 → Node α)

section
variable {α : Type} [DecidableEq α]

/-- `split` (Interpolation.h:1137-1153): the values that stay in the node. -/
def kept (getBox : α → Box K) (box : Box K) (vs : List α) : List α :=
  vs.filter fun v => getQuadrant box (getBox v) = none

/-- `split` (Interpolation.h:1137-1153): the values that go to child `i`. -/
def moved (getBox : α → Box K) (box : Box K) (vs : List α) (i : Fin 4) : List α :=
  vs.filter fun v => getQuadrant box (getBox v) = some i

/-- `add` on a leaf (Interpolation.h:1109-1135). `room` is `MaxDepth - depth`; `Threshold` is 16. The second call on the same node after the
split (1123) finds an inner node and goes on at 1127. -/
def addLeaf (checked : Bool) (getBox : α → Box K) : Nat → Box K → List α → α → Res (Node α)
  | room, box, vs, v =>
    if checked ∧ ¬ box.contains (getBox v) then .ub
    else match room with
    | 0 => .ok (.leaf (vs ++ [v]))
    | room + 1 =>
      if vs.length < 16 then .ok (.leaf (vs ++ [v]))
      else match getQuadrant box (getBox v) with
        | none => .ok (.inner (kept getBox box vs ++ [v]) fun i => .leaf (moved getBox box vs i))
        | some i => (addLeaf checked getBox room (computeBox box i) (moved getBox box vs i) v).bind fun c =>
            .ok (.inner (kept getBox box vs) (Function.update (fun j => .leaf (moved getBox box vs j)) i c))

/-- `add` (Interpolation.h:1109-1135). -/
def addNode (checked : Bool) (getBox : α → Box K) : Node α → Nat → Box K → α → Res (Node α)
  | .leaf vs, depth, box, v => addLeaf checked getBox (8 - depth) box vs v
  | .inner vs c, depth, box, v =>
    if checked ∧ ¬ box.contains (getBox v) then .ub
    else match getQuadrant box (getBox v) with
      | none => .ok (.inner (vs ++ [v]) c)
      | some i => (addNode checked getBox (c i) (depth + 1) (computeBox box i) v).bind fun n =>
          .ok (.inner vs (Function.update c i n))

/-- `removeValue` (Interpolation.h:1177-1185): the first equal element is overwritten with the last one, which is dropped. Without an equal
element the iterator past the end is written to. -/
def removeValue (vs : List α) (v : α) : Res (List α) :=
  if v ∈ vs then
    match vs.getLast? with
    | some l => .ok ((vs.set (vs.idxOf v) l).dropLast)
    | none => .ub
  else .ub

/-- The values of a leaf, and nothing for an inner node. -/
def Node.leafValues? : Node α → Option (List α)
  | .leaf vs => some vs
  | .inner _ _ => none

/-- `tryMerge` (Interpolation.h:1187-1209). -/
def tryMerge (vs : List α) (c : Fin 4 → Node α) : Node α × Bool :=
  match (c 0).leafValues?, (c 1).leafValues?, (c 2).leafValues?, (c 3).leafValues? with
  | some a, some b, some d, some e =>
    if vs.length + a.length + b.length + d.length + e.length ≤ 16 then (.leaf (vs ++ a ++ b ++ d ++ e), true)
    else (.inner vs c, false)
  | _, _, _, _ => (.inner vs c, false)

/-- `remove` (Interpolation.h:1155-1175). -/
def removeNode (checked : Bool) (getBox : α → Box K) : Node α → Box K → α → Res (Node α × Bool)
  | .leaf vs, box, v =>
    if checked ∧ ¬ box.contains (getBox v) then .ub
    else (removeValue vs v).bind fun vs' => .ok (.leaf vs', true)
  | .inner vs c, box, v =>
    if checked ∧ ¬ box.contains (getBox v) then .ub
    else match getQuadrant box (getBox v) with
      | some i => (removeNode checked getBox (c i) (computeBox box i) v).bind fun r =>
          if r.2 then .ok (tryMerge vs (Function.update c i r.1)) else .ok (.inner vs (Function.update c i r.1), false)
      | none => (removeValue vs v).bind fun vs' => .ok (.inner vs' c, false)

/-- The loop over the children (Interpolation.h:1219-1223): each call appends to the same vector. -/
def gather {β : Type} (f : Fin 4 → Res (List β)) : Res (List β) :=
  (f 0).bind fun a => (f 1).bind fun b => (f 2).bind fun d => (f 3).bind fun e => .ok (a ++ b ++ d ++ e)

/-- `query` (Interpolation.h:1211-1225). -/
def queryNode (checked : Bool) (getBox : α → Box K) : Node α → Box K → Box K → Res (List α)
  | .leaf vs, box, q =>
    if checked ∧ ¬ q.intersects box then .ub else .ok (vs.filter fun v => q.intersects (getBox v))
  | .inner vs c, box, q =>
    if checked ∧ ¬ q.intersects box then .ub
    else (gather fun i =>
        if q.intersects (computeBox box i) then queryNode checked getBox (c i) (computeBox box i) q else .ok []).bind fun l =>
      .ok ((vs.filter fun v => q.intersects (getBox v)) ++ l)

/-- The double loop over the values of one node (Interpolation.h:1230-1235): each value with the ones before it. -/
def pairsIn (getBox : α → Box K) : List α → List α → List (α × α)
  | _, [] => []
  | before, v :: rest =>
    ((before.filter fun w => (getBox v).intersects (getBox w)).map fun w => (v, w)) ++ pairsIn getBox (before ++ [v]) rest

/-- `findIntersectionsInDescendants` (Interpolation.h:1248-1259). -/
def pairsBelow (getBox : α → Box K) : Node α → α → List (α × α)
  | .leaf vs, v => (vs.filter fun w => (getBox v).intersects (getBox w)).map fun w => (v, w)
  | .inner vs c, v => ((vs.filter fun w => (getBox v).intersects (getBox w)).map fun w => (v, w)) ++
      (List.finRange 4).flatMap fun i => pairsBelow getBox (c i) v

/-- `findAllIntersections` (Interpolation.h:1227-1246). -/
def pairsNode (getBox : α → Box K) : Node α → List (α × α)
  | .leaf vs => pairsIn getBox [] vs
  | .inner vs c => pairsIn getBox [] vs ++
      ((List.finRange 4).flatMap fun i => vs.flatMap fun v => pairsBelow getBox (c i) v) ++
      (List.finRange 4).flatMap fun i => pairsNode getBox (c i)

/-- `Quadtree` (Interpolation.h:1005-1051) without the fields that never change after construction. -/
abbrev Tree (α : Type) := Node α

/-- The constructor (Interpolation.h:1009-1013). -/
def empty : Tree α := .leaf []

/-- The public `add` (Interpolation.h:1015-1017). -/
def add (checked : Bool) (getBox : α → Box K) (root : Box K) (t : Tree α) (v : α) : Res (Tree α) :=
  addNode checked getBox t 0 root v

/-- The public `remove` (Interpolation.h:1019-1021). -/
def remove (checked : Bool) (getBox : α → Box K) (root : Box K) (t : Tree α) (v : α) : Res (Tree α) :=
  (removeNode checked getBox t root v).bind fun r => .ok r.1

/-- The public `query` (Interpolation.h:1023-1027). -/
def query (checked : Bool) (getBox : α → Box K) (root : Box K) (t : Tree α) (q : Box K) : Res (List α) :=
  queryNode checked getBox t root q

/-- The public `findAllIntersections` (Interpolation.h:1029-1033). -/
def findAllIntersections (getBox : α → Box K) (t : Tree α) : List (α × α) := pairsNode getBox t

end

end Siren.Math.Quad
