import Verif.Gdml.NameModel

set_option autoImplicit false

/-! # The `<solids>` sections of a GDML file

`ParseAllSolids` (`projects/detector/private/gdml/GDMLSolidParser.cxx:410-584`): primitive solids and booleans whose operands are known are
built as they are read, other booleans wait, and a stack of those that have become ready is worked off at the end.

Not modelled: how a primitive solid is read (`ParsePrimitiveSolid` is a value, or nothing when the solid is unknown or invalid) and the placement
and operation of a boolean (`ReadPlacement`, `BuildBooleanGeometry`: a function of the two operands; exceptions from a malformed placement are
left out). -/

namespace Siren.Gdml.Solids

open Siren.Gdml.Names

/-- An element with a name (GDMLSolidParser.cxx:463-465; elements without a name, and booleans without operands, are skipped). -/
inductive Item (G : Type) where
  | prim (name : Name) (g : Option G)
  | bool (name first second : Name) (build : G → G → G)

/-- Name of an element as it is written. -/
def Item.name {G : Type} : Item G → Name
  | prim n _ => n
  | bool n _ _ _ => n

/-- `DeferredBoolean` (GDMLSolidParser.cxx:450-457); the node is the function that builds the solid. -/
structure Waiting (G : Type) where
  name : Name
  first : Name
  second : Name
  i1 : Nat
  i2 : Nat
  build : G → G → G

variable {G : Type}

/-- State while the sections are read. -/
structure Reading (G : Type) where
  tracker : State G
  deferred : List (Waiting G)

/-- One element of a section (GDMLSolidParser.cxx:462-511). -/
def read (on : Bool) (eq : G → G → Bool) (r : Reading G) : Item G → Reading G
  | .prim name g => match g with
    | some g => { r with tracker := store on eq r.tracker name g }
    | none => r
  | .bool name first second build =>
    match lookup on r.tracker first, lookup on r.tracker second with
    | some a, some b => { r with tracker := store on eq r.tracker name (build a b) }
    | left, right => { r with deferred := r.deferred ++ [{
        name := name, first := strip on first, second := strip on second,
        i1 := if left.isSome then (r.tracker.instances (strip on first)).length - 1 else 0,
        i2 := if right.isSome then (r.tracker.instances (strip on second)).length - 1 else 0,
        build := build }] }

/-- All sections, one after the other (GDMLSolidParser.cxx:461-512). -/
def readAll (on : Bool) (eq : G → G → Bool) (aliases : Name → Option Name) (items : List (Item G)) : Reading G :=
  items.foldl (read on eq) ⟨fresh aliases, []⟩

/-- `isAvailable` (GDMLSolidParser.cxx:520-523). -/
def avail (s : State G) (ref : Name) (i : Nat) : Bool := decide (i < (s.instances ref).length)

/-- Both operands are there. -/
def complete (s : State G) (w : Waiting G) : Bool := avail s w.first w.i1 && avail s w.second w.i2

/-- `dependents` (GDMLSolidParser.cxx:525-535): the booleans that miss an operand of this name; one that misses it twice is listed twice. -/
def dependents (s : State G) (ws : List (Waiting G)) (n : Name) : List Nat :=
  ws.zipIdx.flatMap fun p => if complete s p.1 then [] else
    (if avail s p.1.first p.1.i1 = false ∧ p.1.first = n then [p.2] else []) ++
    (if avail s p.1.second p.1.i2 = false ∧ p.1.second = n then [p.2] else [])

/-- State of the loop (GDMLSolidParser.cxx:537-575); the top of the stack `ready` is the head of the list, `built` are the booleans
whose node has been set to null. -/
structure Work (G : Type) where
  tracker : State G
  built : List Nat
  ready : List Nat

/-- Before the loop (GDMLSolidParser.cxx:525-535). -/
def start (r : Reading G) : Work G :=
  ⟨r.tracker, [], ((r.deferred.zipIdx.filter fun p => complete r.tracker p.1).map (·.2)).reverse⟩

/-- One round of the loop (GDMLSolidParser.cxx:537-575). -/
def step (on : Bool) (eq : G → G → Bool) (ws : List (Waiting G)) (dep : Name → List Nat) (w : Work G) : Work G :=
  match w.ready with
  | [] => w
  | idx :: ready =>
    if idx ∈ w.built then { w with ready := ready }
    else match ws[idx]? with
      | none => { w with ready := ready }
      | some d => match (w.tracker.instances d.first)[d.i1]?, (w.tracker.instances d.second)[d.i2]? with
        | some a, some b =>
          let s := store on eq w.tracker d.name (d.build a b)
          let built := idx :: w.built
          let more := (dep (strip on d.name)).filter fun i => decide (i ∉ built) && (match ws[i]? with
            | some d' => complete s d'
            | none => false)
          ⟨s, built, more.reverse ++ ready⟩
        | _, _ => { w with ready := ready }

/-- `k` rounds. -/
def rounds (on : Bool) (eq : G → G → Bool) (ws : List (Waiting G)) (dep : Name → List Nat) : Nat → Work G → Work G
  | 0, w => w
  | k + 1, w => rounds on eq ws dep k (step on eq ws dep w)

/-- The loop after `k` rounds, for the sections `items` (GDMLSolidParser.cxx:461-575). -/
def after (on : Bool) (eq : G → G → Bool) (aliases : Name → Option Name) (items : List (Item G)) (k : Nat) : Work G :=
  let r := readAll on eq aliases items
  rounds on eq r.deferred (dependents r.tracker r.deferred) k (start r)

/-- Names in the warnings at the end (GDMLSolidParser.cxx:577-581). -/
def warned (ws : List (Waiting G)) (built : List Nat) : List Name :=
  (ws.zipIdx.filter fun p => decide (p.2 ∉ built)).map fun p => p.1.name

end Siren.Gdml.Solids
