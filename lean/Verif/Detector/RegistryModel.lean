import Verif.Detector.BVHModel

set_option autoImplicit false

/-!
# The sector registry of a detector model

Models `AddSector`, `SetSectors`, `ClearSectors`, both `GetSector` overloads, serialization and the lazily rebuilt spatial
index (detector/private/DetectorModel.cxx:213-286, 1422-1465, 1653-1743; detector/public/SIREN/detector/DetectorModel.h:69-140).

`std::map` is a partial function. The `assert`s are compiled out. Materials, density profiles and the detector placement do not
take part in any of these functions.
-/

namespace Siren.Detector.Registry

open Siren Siren.Geometry Siren.Detector.BVH

/-- `DetectorSector` (DetectorModel.h:43-48) with its name. -/
structure NSec where
  name : String
  sec : Sector

/-- The members of `DetectorModel` (DetectorModel.h:70-98). -/
structure State where
  sectors : List NSec
  byLevel : Int → Option Nat
  byName : String → Option Nat
  dirty : Bool
  index : Index

/-- A model without sectors (the constructor adds the `UNIVERSE` sector with `AddSector`, DetectorModel.cxx:620-628). -/
def State.empty : State := ⟨[], fun _ => none, fun _ => none, true, ⟨[], [], []⟩⟩

/-- `m[k] = v`. -/
def put {K : Type} [DecidableEq K] (m : K → Option Nat) (k : K) (v : Nat) : K → Option Nat := fun k' => if k' = k then some v else m k'

/-- `AddSector` (DetectorModel.cxx:247-259). -/
def State.add (st : State) (s : NSec) : Res Unit × State :=
  if (st.byLevel s.sec.level).isSome then (.throws .runtimeError, st)
  else if (st.byName s.name).isSome then (.throws .runtimeError, st)
  else
    let st := { st with byName := put st.byName s.name st.sectors.length }
    let st := { st with byLevel := put st.byLevel s.sec.level st.sectors.length }
    let st := { st with sectors := st.sectors ++ [s] }
    (.ok (), { st with dirty := true })

/-- The loop of `SetSectors` (DetectorModel.cxx:217-227); `i` is the loop variable. -/
def State.setLoop : List NSec → Nat → State → Res Unit × State
  | [], _, st => (.ok (), st)
  | s :: rest, i, st =>
    if (st.byLevel s.sec.level).isSome then (.throws .runtimeError, st)
    else if (st.byName s.name).isSome then (.throws .runtimeError, st)
    else State.setLoop rest (i + 1) { st with byName := put st.byName s.name i, byLevel := put st.byLevel s.sec.level i }

/-- `SetSectors` (DetectorModel.cxx:213-229). -/
def State.set (st : State) (l : List NSec) : Res Unit × State :=
  match State.setLoop l 0 { st with sectors := l, byLevel := fun _ => none, byName := fun _ => none } with
  | (.ok (), st) => (.ok (), { st with dirty := true })
  | r => r

/-- `ClearSectors` (DetectorModel.cxx:281-286). -/
def State.clear (st : State) : State := { st with sectors := [], byLevel := fun _ => none, byName := fun _ => none, dirty := true }

/-- `GetSector(int)` (DetectorModel.cxx:261-269). -/
def State.getByLevel (st : State) (level : Int) : Res NSec :=
  match st.byLevel level with
  | none => .throws .outOfRange
  | some i => match st.sectors[i]? with
    | none => .ub
    | some s => .ok s

/-- `GetSector(std::string)` (DetectorModel.cxx:271-279). -/
def State.getByName (st : State) (name : String) : Res NSec :=
  match st.byName name with
  | none => .throws .runtimeError
  | some i => match st.sectors[i]? with
    | none => .ub
    | some s => .ok s

/-- Loading an archive written from the model `saved` into `st` (DetectorModel.h:120-136). -/
def State.load (st saved : State) : State :=
  { st with sectors := saved.sectors, byLevel := saved.byLevel, byName := saved.byName, dirty := true }

section
variable (srt : (Nat → ℝ) → List Nat → List Nat) (big : ℝ)

/-- The sectors as the spatial queries see them. -/
def State.secs (st : State) : List Sector := st.sectors.map NSec.sec

/-- The lazy rebuild at the start of a spatial query (DetectorModel.cxx:1423-1428, 1655-1660). -/
noncomputable def State.refresh (st : State) : Res State :=
  if st.dirty then (rebuild srt big st.secs).bind fun ix => .ok { st with index := ix, dirty := false } else .ok st

/-- `GetContainingSector(position)` (DetectorModel.cxx:819-821, 1422-1465): the answer and the new state. -/
noncomputable def State.locate (st : State) (p : Vec3 ℝ) : Res (Option Sector × State) :=
  (st.refresh srt big).bind fun st => (containingDirect st.secs st.index p (st.index.nodes.length + 1)).bind fun r => .ok (r, st)

/-- `GetIntersections` before sorting (DetectorModel.cxx:1653-1743): the crossings and the new state. -/
noncomputable def State.crossings (st : State) (p d : Vec3 ℝ) : Res (List MHit × State) :=
  (st.refresh srt big).bind fun st => (collect st.secs st.index p d (st.index.nodes.length + 1)).bind fun r => .ok (r, st)

/-- The states a model can be in: any history of additions (rejected ones included), successful replacements, clearing, queries
and loading from another model's archive. -/
inductive Reach : State → Prop where
  | new : Reach State.empty
  | add {st : State} (s : NSec) : Reach st → Reach (st.add s).2
  | set {st : State} (l : List NSec) : Reach st → (st.set l).1 = .ok () → Reach (st.set l).2
  | clear {st : State} : Reach st → Reach st.clear
  | load {st saved : State} : Reach st → Reach saved → Reach (st.load saved)
  | locate {st st' : State} (p : Vec3 ℝ) (r : Option Sector) : Reach st → st.locate srt big p = .ok (r, st') → Reach st'
  | crossings {st st' : State} (p d : Vec3 ℝ) (r : List MHit) : Reach st → st.crossings srt big p d = .ok (r, st') → Reach st'

end

end Siren.Detector.Registry
