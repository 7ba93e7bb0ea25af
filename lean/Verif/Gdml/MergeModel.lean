import Verif.Gdml.NameModel

set_option autoImplicit false

/-! # Including a GDML file in another

`GDMLData::MergeFrom` (`projects/detector/private/GDMLParser.cxx:29-148`). A hash map is a list of entries, in the order in which it is walked.

Simplifications: numbers, placements and solids are abstract, with a decidable equality (for solids `Geometry::operator==`); the fractions of a
composition stay with their components in the order of the list; warnings are left out. -/

namespace Siren.Gdml.Merge

open Siren.Gdml.Names

/-- An entry of a map is found by its key. -/
def find {V : Type} (m : List (Name × V)) (k : Name) : Option V := (m.find? fun p => decide (p.1 = k)).map (·.2)

/-- `emplace`: no effect when the key exists. -/
def emplace {V : Type} (m : List (Name × V)) (k : Name) (v : V) : List (Name × V) :=
  if (find m k).isSome then m else m ++ [(k, v)]

/-- `m[k] = v`. -/
def assign {V : Type} (m : List (Name × V)) (k : Name) (v : V) : List (Name × V) := (m.filter fun p => decide (p.1 ≠ k)) ++ [(k, v)]

/-- `GDMLMaterial` (GDMLParser.h:21-33); also elements and isotopes. -/
structure Material (Q : Type) where
  name : Name
  density : Q
  z : Q
  a : Q
  composition : List (Name × Q)
  deriving DecidableEq

/-- `GDMLPhysVol` (GDMLParser.h:35-39). -/
structure PhysVol (P : Type) where
  ref : Name
  position : P
  rotation : P
  deriving DecidableEq

/-- `GDMLVolume` (GDMLParser.h:41-47). -/
structure Volume (P : Type) where
  name : Name
  solid : Name
  material : Name
  assembly : Bool
  children : List (PhysVol P)
  deriving DecidableEq

/-- `GDMLData` (GDMLParser.h:68-120), the parts that `MergeFrom` uses. -/
structure Data (Q P G : Type) where
  isotopes : List (Name × Material Q)
  elements : List (Name × Material Q)
  materials : List (Name × Material Q)
  solids : List (Name × G)
  volumes : List (Name × Volume P)
  positions : List (Name × P)
  rotations : List (Name × P)
  constants : List (Name × Q)
  world : Name

variable {Q P G : Type} [DecidableEq Q] [DecidableEq P]

/-- `inAny` (GDMLParser.cxx:34-39): all names of a file. -/
def names (d : Data Q P G) : List Name :=
  d.materials.map (·.1) ++ d.elements.map (·.1) ++ d.isotopes.map (·.1) ++ d.solids.map (·.1) ++ d.volumes.map (·.1) ++
    d.positions.map (·.1) ++ d.rotations.map (·.1) ++ d.constants.map (·.1)

/-- `name + "_" + std::to_string(k)` (GDMLParser.cxx:44). -/
def candidate (name : Name) (k : Nat) : Name := name ++ '_' :: Nat.toDigits 10 k

/-- The loop of `findUnique` (GDMLParser.cxx:43-52) for at most `fuel` rounds; the first number not in use. -/
def search (used : List Name) (name : Name) : Nat → Nat → Name
  | 0, k => candidate name k
  | fuel + 1, k => if candidate name k ∈ used then search used name fuel (k + 1) else candidate name k

/-- `findUnique` (GDMLParser.cxx:40-53): neither file nor another new name uses it. More rounds than there are names are never needed. -/
def unique (parent sub : Data Q P G) (renames : List (Name × Name)) (name : Name) : Name :=
  let used := names parent ++ names sub ++ renames.map (·.2)
  search used name used.length 2

/-- One of the loops that look for different definitions of the same name (GDMLParser.cxx:57-94). -/
def collide {V : Type} (same : V → V → Bool) (parent sub : Data Q P G) (mine other : List (Name × V)) (renames : List (Name × Name)) :
    List (Name × Name) :=
  other.foldl (fun rs p => match find mine p.1 with
    | some x => if same x p.2 = false then assign rs p.1 (unique parent sub rs p.1) else rs
    | none => rs) renames

/-- The comparison of volumes (GDMLParser.cxx:77-92). -/
def sameVolume (a b : Volume P) : Bool :=
  decide (a.solid = b.solid ∧ a.material = b.material ∧ a.children.length = b.children.length ∧ a.assembly = b.assembly) &&
  (a.children.zip b.children).all fun p => decide (p.1.ref = p.2.ref ∧ p.1.position = p.2.position ∧ p.1.rotation = p.2.rotation)

/-- The returned map of new names (GDMLParser.cxx:57-95). -/
def renames (eq : G → G → Bool) (parent sub : Data Q P G) : List (Name × Name) :=
  let r := collide (fun a b => decide (a = b)) parent sub parent.isotopes sub.isotopes []
  let r := collide (fun a b => decide (a = b)) parent sub parent.elements sub.elements r
  let r := collide (fun a b => decide (a = b)) parent sub parent.materials sub.materials r
  let r := collide eq parent sub parent.solids sub.solids r
  collide sameVolume parent sub parent.volumes sub.volumes r

/-- The new name, or the old one (GDMLParser.cxx:98-101). -/
def apply (rs : List (Name × Name)) (n : Name) : Name := (find rs n).getD n

/-- New names inside a volume (GDMLParser.cxx:106-112). -/
def renameVolume (rs : List (Name × Name)) (v : Volume P) : Volume P :=
  { v with name := apply rs v.name, solid := apply rs v.solid, material := apply rs v.material,
           children := v.children.map fun c => { c with ref := apply rs c.ref } }

/-- New names inside a material (GDMLParser.cxx:114-122). -/
def renameMaterial (rs : List (Name × Name)) (m : Material Q) : Material Q :=
  { m with name := apply rs m.name, composition := m.composition.map fun c => (apply rs c.1, c.2) }

/-- `merge` (GDMLParser.cxx:127-134). -/
def mergeMap {V : Type} (rs : List (Name × Name)) (sub dst : List (Name × V)) : List (Name × V) :=
  let staged := sub.foldl (fun st p => emplace st (apply rs p.1) p.2) []
  staged.foldl (fun d p => emplace d p.1 p.2) dst

/-- `MergeFrom` (GDMLParser.cxx:29-148): the merged data of the including file and the world volume of the included one. -/
def merge (eq : G → G → Bool) (parent sub : Data Q P G) : Data Q P G × Name :=
  let rs := renames eq parent sub
  ({ isotopes := mergeMap rs (sub.isotopes.map fun p => (p.1, renameMaterial rs p.2)) parent.isotopes
     elements := mergeMap rs (sub.elements.map fun p => (p.1, renameMaterial rs p.2)) parent.elements
     materials := mergeMap rs (sub.materials.map fun p => (p.1, renameMaterial rs p.2)) parent.materials
     solids := mergeMap rs sub.solids parent.solids
     volumes := mergeMap rs (sub.volumes.map fun p => (p.1, renameVolume rs p.2)) parent.volumes
     positions := mergeMap rs sub.positions parent.positions
     rotations := mergeMap rs sub.rotations parent.rotations
     constants := mergeMap rs sub.constants parent.constants
     world := parent.world }, apply rs sub.world)

end Siren.Gdml.Merge
