import Verif.Base

/-!
# Model of `dataclasses/InteractionTree`

`std::shared_ptr<InteractionTreeDatum>` is modelled by an abstract address into a heap, so that aliasing (the same datum
added twice, a parent that is not in the tree) is visible in the model.
The interaction record is an opaque type `R`; it is copied, never inspected, by the code modelled here.
-/

namespace Siren.Tree

/-- Address of an `InteractionTreeDatum`. -/
abbrev Ptr := Nat

/-- Wrap-around of `static_cast<std::uint32_t>`. -/
def u32 (n : Nat) : Nat := n % 2 ^ 32

/-- `dataclasses/public/SIREN/dataclasses/InteractionTree.h:52` `kNoParent`. -/
def kNoParent : Nat := 2 ^ 32 - 1

/-- `InteractionTree.h:54-74` `InteractionTreeDatum`. Null `shared_ptr`s are `none`. -/
structure Datum (R : Type) where
  record : R
  node_id : Nat := kNoParent
  parent_index : Nat := kNoParent
  daughter_indices : List Nat := []
  legacy_parent : Option Ptr := none
  legacy_daughters : List (Option Ptr) := []

/-- The heap of data objects. -/
abbrev Heap (R : Type) := Ptr → Datum R

/-- Store to one object. -/
def Heap.set {R} (h : Heap R) (p : Ptr) (d : Datum R) : Heap R := fun q => if q = p then d else h q

/-- `InteractionTree.h:126-130` `InteractionTree::tree` together with the heap it points into. The header does not take
part in the operations modelled here. -/
structure State (R : Type) where
  heap : Heap R
  tree : List (Option Ptr)

variable {R : Type}

/-- `InteractionTree.cxx:54-68` `add_entry(shared_ptr, shared_ptr)`, statement by statement. `datum` is dereferenced
unconditionally, so a null one is undefined behaviour (modelled by taking a non-null `Ptr`). The `assert` on line 66 is
compiled out in release builds and is not modelled. -/
def addEntry (s : State R) (datum : Ptr) (parent : Option Ptr) : State R :=
  let h := s.heap
  let id := u32 s.tree.length
  -- line 56-57
  let h := h.set datum { h datum with node_id := id, daughter_indices := [] }
  let h := match parent with
    | some par =>
      -- lines 59-60
      let h := h.set datum { h datum with parent_index := (h par).node_id }
      h.set par { h par with daughter_indices := (h par).daughter_indices ++ [(h datum).node_id] }
    | none =>
      -- line 62
      h.set datum { h datum with parent_index := kNoParent }
  { heap := h, tree := s.tree ++ [some datum] }

/-- `InteractionTree.cxx:70-74` and `76-80`: `add_entry` of a datum or record by reference first copies it into a newly
allocated object. `fresh` is the address returned by `make_shared`. -/
def addEntryCopy (s : State R) (fresh : Ptr) (d : Datum R) (parent : Option Ptr) : State R :=
  addEntry { s with heap := s.heap.set fresh d } fresh parent

/-- `InteractionTree.cxx:14-27` `InteractionTreeDatum::depth`: the loop from parent index `p` with counter `depth`. -/
def depthLoop (s : State R) (p depth : Nat) : Res Nat :=
  if p = kNoParent then .ok depth
  else if _h : depth + 1 > s.tree.length then .throws .runtimeError
  else
    match s.tree[p]? with
    | none => .throws .outOfRange
    | some none => .ub
    | some (some q) => depthLoop s (s.heap q).parent_index (depth + 1)
termination_by s.tree.length - depth
decreasing_by omega

/-- `InteractionTree.h:140` `InteractionTree::depth(node_id)`. -/
def depth (s : State R) (i : Nat) : Res Nat :=
  match s.tree[i]? with
  | none => .throws .outOfRange
  | some none => .ub
  | some (some q) => depthLoop s (s.heap q).parent_index 0

/-- `InteractionTree.cxx:116-134`, body of the loop of `validate_indices` for position `i`; `false` means an exception is
thrown. -/
def validEntry (s : State R) (i : Nat) : Bool :=
  let n := u32 s.tree.length
  match s.tree[i]? with
  | some (some q) =>
    let d := s.heap q
    d.node_id == i
    && (d.parent_index == kNoParent
        || (decide (d.parent_index < n) && (s.tree[d.parent_index]?.join).isSome))
    && d.daughter_indices.all (fun k => decide (k < n) && (s.tree[k]?.join).isSome)
  | _ => false

/-- `InteractionTree.cxx:114-135` `validate_indices`. -/
def validateIndices (s : State R) : Res Unit :=
  if (List.range (u32 s.tree.length)).all (validEntry s) then .ok () else .throws .runtimeError

/-- Position assigned by the loop `InteractionTree.cxx:86-90` to a (possibly null) pointer: a later occurrence
overwrites an earlier one; `none` if the pointer does not occur. -/
def indexOf : List (Option Ptr) → Option Ptr → Option Nat
  | [], _ => none
  | q :: qs, p => match indexOf qs p with
    | some i => some (i + 1)
    | none => if q = p then some 0 else none

/-- `InteractionTree.cxx:93-104`: the new contents of the object at position `i`. -/
def rebuiltDatum (tree : List (Option Ptr)) (i : Nat) (d : Datum R) : Datum R :=
  { d with
    node_id := u32 i
    parent_index := match d.legacy_parent with
      | some par => match indexOf tree (some par) with
        | some k => u32 k
        | none => kNoParent
      | none => kNoParent
    daughter_indices := d.legacy_daughters.filterMap (fun q => (indexOf tree q).map u32) }

/-- `InteractionTree.cxx:91-105`: the loop over the remaining positions `i, i+1, ...`. A null entry is dereferenced on
line 93: undefined behaviour. -/
def rebuildLoop (tree : List (Option Ptr)) : List (Option Ptr) → Nat → Heap R → Res (Heap R)
  | [], _, h => .ok h
  | none :: _, _, _ => .ub
  | some q :: rest, i, h => rebuildLoop tree rest (i + 1) (h.set q (rebuiltDatum tree i (h q)))

/-- `InteractionTree.cxx:107-110`: clear the legacy edges. -/
def clearLegacy : List (Option Ptr) → Heap R → Heap R
  | [], h => h
  | none :: rest, h => clearLegacy rest h
  | some q :: rest, h => clearLegacy rest (h.set q { h q with legacy_parent := none, legacy_daughters := [] })

/-- `InteractionTree.cxx:82-112` `rebuild_indices_from_legacy`. -/
def rebuildFromLegacy (s : State R) : Res (State R) := do
  let h ← rebuildLoop s.tree s.tree 0 s.heap
  let s' : State R := { heap := clearLegacy s.tree h, tree := s.tree }
  validateIndices s'
  pure s'

/-- Field-level content of an archive: what cereal stores for the `Tree` member. Shared pointers keep their identity
(cereal's contract for `shared_ptr`), so the archive holds the pointer vector and the pointed-to objects. -/
structure Archive (R : Type) where
  version : Nat
  tree : List (Option Ptr)
  objects : Heap R

/-- `InteractionTree.h:145-152` and `77-86`: only version 1 is written (`CEREAL_CLASS_VERSION`, line 187). The legacy
edges are not written, so they come back default-initialised. -/
def save (s : State R) : Archive R :=
  { version := 1, tree := s.tree,
    objects := fun p => { s.heap p with legacy_parent := none, legacy_daughters := [] } }

/-- `InteractionTree.h:154-165` `load`. -/
def load (a : Archive R) : Res (State R) :=
  if a.version = 1 then do
    let s : State R := { heap := a.objects, tree := a.tree }
    validateIndices s
    pure s
  else if a.version = 0 then
    rebuildFromLegacy { heap := a.objects, tree := a.tree }
  else .throws .runtimeError

end Siren.Tree
