import Verif.Base
import Verif.Geometry.Placement

set_option autoImplicit false

/-!
# Importing a GDML volume hierarchy

Models `BuildVolume` and its call in `DetectorModel::LoadGDML` (detector/private/DetectorModel.cxx:723-818).

`unordered_map` lookups are partial functions, except for the volumes, which are an association list because termination depends
on their number. What a failing import leaves behind in the model is not modelled. The level counter is unbounded. Recursion and
the naming loop have fuel; running out of it (`none`) stands for not terminating, and is proved not to happen.
-/

namespace Siren.Gdml

open Siren Siren.Geometry

/-- `GDMLPhysVol` (detector/public/SIREN/detector/GDMLParser.h:35-39). -/
structure PhysVol where
  ref : String
  position : Vec3 ℝ
  rotation : Quat

/-- `GDMLVolume` (GDMLParser.h:41-47). -/
structure Volume where
  name : String
  solidRef : String
  materialRef : String
  isAssembly : Bool
  children : List PhysVol

/-- The members of `GDMLData` that `BuildVolume` reads (GDMLParser.h:70-130). `density` is the density of a material in
`data.materials`. -/
structure Data (S : Type) where
  volumes : List (String × Volume)
  aliases : String → Option String
  solids : String → Option S
  density : String → Option ℝ
  world : String

/-- `DetectorSector` (detector/public/SIREN/detector/DetectorModel.h:42-48); the shape carries its placement, the density
distribution is a constant. -/
structure GSector (S : Type) where
  name : String
  level : Int
  shape : S
  placement : Placement
  materialId : Int
  density : ℝ

/-- `BuildContext` (DetectorModel.cxx:725-730) with the sectors of its detector model. -/
structure State (S : Type) where
  sectors : List (GSector S)
  level : Int
  visited : List String

variable {S : Type}

/-- `data.volumes.find(name)`. -/
def Data.find (d : Data S) (name : String) : Option Volume := d.volumes.lookup name

/-- The loop making a name unique (DetectorModel.cxx:763-765). -/
def uniqueName (taken : List String) (base : String) : Nat → String → Nat → Option String
  | 0, _, _ => none
  | fuel + 1, candidate, suffix =>
    if candidate ∈ taken then uniqueName taken base fuel (base ++ "_" ++ toString suffix) (suffix + 1) else some candidate

/-- `AddSector` (DetectorModel.cxx:247-259). -/
def addSector (st : State S) (s : GSector S) : Res (State S) :=
  if s.level ∈ st.sectors.map GSector.level then .throws .runtimeError
  else if s.name ∈ st.sectors.map GSector.name then .throws .runtimeError
  else .ok { st with sectors := st.sectors ++ [s] }

/-- The sector of a volume that is not an assembly (DetectorModel.cxx:747-785). `materialId` is `HasMaterial`/`GetMaterialId`. -/
def addOwn (d : Data S) (materialId : String → Option Int) (vol : Volume) (P : Placement) (st : State S) : Option (Res (State S)) :=
  match d.solids vol.solidRef, d.density vol.materialRef with
  | some shape, some density =>
    match uniqueName (st.sectors.map GSector.name) vol.name (st.sectors.length + 1) vol.name 2 with
    | none => none
    | some name =>
      let level := st.level
      let st := { st with level := st.level + 1 }
      match materialId vol.materialRef with
      | none => some (.throws .runtimeError)
      | some id => some (addSector st ⟨name, level, shape, P, id, density⟩)
  | _, _ => some (.throws .runtimeError)

/-- The global placement of a child (DetectorModel.cxx:789-803). -/
noncomputable def childPlacement (P : Placement) (c : PhysVol) : Placement :=
  Placement.make (P.localToGlobalPosition c.position) (P.quaternion.mul c.rotation.conj)

/-- The loop over the children (DetectorModel.cxx:788-806). -/
def buildList (f : PhysVol → State S → Option (Res (State S))) : List PhysVol → State S → Option (Res (State S))
  | [], st => some (.ok st)
  | c :: cs, st =>
    match f c st with
    | some (.ok st) => buildList f cs st
    | r => r

/-- `BuildVolume` (DetectorModel.cxx:732-810). -/
noncomputable def buildVolume (d : Data S) (materialId : String → Option Int) :
    Nat → String → Placement → State S → Option (Res (State S))
  | 0, _, _, _ => none
  | fuel + 1, raw, P, st =>
    let name := (d.aliases raw).getD raw
    if name ∈ st.visited then some (.throws .runtimeError)
    else match d.find name with
    | none => some (.throws .runtimeError)
    | some vol =>
      let st := { st with visited := name :: st.visited }
      match (if vol.isAssembly then some (.ok st) else addOwn d materialId vol P st) with
      | some (.ok st) =>
        match buildList (fun c st => buildVolume d materialId fuel c.ref (childPlacement P c) st) vol.children st with
        | some (.ok st) => some (.ok { st with visited := st.visited.filter (fun n => decide (n ≠ name)) })
        | r => r
      | r => r

/-- The end of `LoadGDML` (DetectorModel.cxx:812-815) after `LoadDefaultSectors` has added the enclosing sector `all`; only the
sectors are kept. -/
noncomputable def load (d : Data S) (materialId : String → Option Int) (all : GSector S) (fuel : Nat) :
    Option (Res (List (GSector S))) :=
  if d.world = "" then some (.ok [all])
  else match buildVolume d materialId fuel d.world (Placement.translation 0) ⟨[all], 0, []⟩ with
    | some (.ok st) => some (.ok st.sectors)
    | some (.throws e) => some (.throws e)
    | some .ub => some .ub
    | none => none

end Siren.Gdml
