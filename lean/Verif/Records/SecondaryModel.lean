import Verif.Records.PrimaryProps
import Verif.Records.Compare

set_option autoImplicit false

/-!
# Records of the secondaries of an interaction

Models `SecondaryParticleRecord` (dataclasses/private/InteractionRecord.cxx:704-939), `CrossSectionDistributionRecord`
(943-1098) and `SecondaryDistributionRecord` (1102-1205).

References into the record a distribution record was built from are modelled as copies of what they referred to at
construction; the builders of SIREN do not change that record in between.
-/

namespace Siren.Records

open Siren

/-! ## Secondaries of a cross section -/

/-- Calls on a `SecondaryParticleRecord` (dataclasses/public/SIREN/dataclasses/InteractionRecord.h:203-245). -/
inductive SecCall where
  | setMass (x : ℝ)
  | setEnergy (x : ℝ)
  | setKinetic (x : ℝ)
  | setDirection (v : Vec3 ℝ)
  | setMomentum (v : Vec3 ℝ)
  | setFourMomentum (e : ℝ) (p : Vec3 ℝ)
  | setParticle (m e : ℝ) (p : Vec3 ℝ) (h : ℝ)
  | setHelicity (x : ℝ)
  | setTime (x : ℝ)
  | getMass | getEnergy | getKinetic | getDirection | getMomentum | getFour

/-- The kinematic part of the calls. The setters, getters and update functions of `SecondaryParticleRecord`
(dataclasses/private/InteractionRecord.cxx:739-758, 768-811, 829-864, 871-930) are those of the primary record, text for
text, except that no positions can be supplied; the model uses the functions of the primary record. -/
def SecCall.kinematic : SecCall → List Call
  | .setMass x => [.setMass x]
  | .setEnergy x => [.setEnergy x]
  | .setKinetic x => [.setKinetic x]
  | .setDirection v => [.setDirection v]
  | .setMomentum v => [.setMomentum v]
  | .setFourMomentum e p => [.setFourMomentum e p]
  | .setParticle m e p h => [.setMass m, .setFourMomentum e p, .setHelicity h]
  | .setHelicity x => [.setHelicity x]
  | .setTime _ => []
  | .getMass => [.getMass]
  | .getEnergy => [.getEnergy]
  | .getKinetic => [.getKinetic]
  | .getDirection => [.getDirection]
  | .getMomentum => [.getMomentum]
  | .getFour => [.getFour]

/-- `SecondaryParticleRecord` (dataclasses/public/SIREN/dataclasses/InteractionRecord.h:165-192). -/
structure Sec where
  index : Nat
  id : ParticleID
  type : Int
  kin : Prim
  /-- `time` when `time_set` -/
  time : Option (Val ℝ)
  initialTime : Val ℝ

/-- Effect of a call (dataclasses/private/InteractionRecord.cxx:739-869). -/
noncomputable def Sec.call (s : Sec) (c : SecCall) : Sec :=
  let s := { s with kin := c.kinematic.foldl (Prim.call 0) s.kin }
  match c with
  | .setTime x => { s with time := some (.num x) }
  | _ => s

/-- `SecondaryParticleRecord(record, secondary_index)` (dataclasses/private/InteractionRecord.cxx:704-710). `generated` is
what `GenerateID` returns. The caller's index is within `secondary_types`. -/
noncomputable def Sec.make (record : Record (Val ℝ)) (generated : ParticleID) (index : Nat) (type : Int) : Sec where
  index := index
  id := match record.secondaryIds[index]? with
    | some id => if id.set then id else generated
    | none => generated
  type := type
  kin := Prim.new
  time := none
  initialTime := record.interactionTime

/-- `GetTime` (dataclasses/private/InteractionRecord.cxx:821-827). -/
def Sec.getTime (s : Sec) : Val ℝ := s.time.getD s.initialTime

/-- `vector::at` assignment. -/
def setAt {A : Type} (l : List A) (i : Nat) (a : A) : Res (List A) :=
  if i < l.length then .ok (l.set i a) else .throws .outOfRange

/-- Component of a stored vector. -/
def Val.map {A B : Type} (f : A → B) : Val A → Val B
  | .uninit => .uninit
  | .nan => .nan
  | .num a => .num (f a)

/-- The four numbers of a four-momentum array (dataclasses/private/InteractionRecord.cxx:810). -/
def fourOf (e : Val ℝ) (p : Val (Vec3 ℝ)) : List (Val ℝ) := [e, p.map Vec3.x, p.map Vec3.y, p.map Vec3.z]

/-- `SecondaryParticleRecord::Finalize` (dataclasses/private/InteractionRecord.cxx:932-939). The `assert` is not modelled. -/
noncomputable def Sec.finalize (s : Sec) (record : Record (Val ℝ)) : Res (Record (Val ℝ)) :=
  (setAt record.secondaryIds s.index s.id).bind fun ids =>
  s.kin.getMass.bind fun (kin, m) =>
  (setAt record.secondaryMasses s.index m).bind fun masses =>
  kin.getFour.bind fun (kin, e, p) =>
  (setAt record.secondaryMomenta s.index (fourOf e p)).bind fun momenta =>
  (setAt record.secondaryHelicities s.index (.num kin.helicity)).bind fun helicities =>
  (setAt record.secondaryTimes s.index s.getTime).bind fun times =>
  .ok { record with secondaryIds := ids, secondaryMasses := masses, secondaryMomenta := momenta,
                    secondaryHelicities := helicities, secondaryTimes := times }

/-- `std::map::operator[]` assignment; the map is its list of entries in key order. -/
def mapSet {A : Type} (k : String) (v : A) : List (String × A) → List (String × A)
  | [] => [(k, v)]
  | (k', v') :: rest => if k < k' then (k, v) :: (k', v') :: rest else if k = k' then (k, v) :: rest else (k', v') :: mapSet k v rest

/-- `CrossSectionDistributionRecord` (dataclasses/public/SIREN/dataclasses/InteractionRecord.h:247-273). -/
structure XRec where
  targetId : ParticleID
  targetMass : Val ℝ
  targetHelicity : Val ℝ
  parameters : List (String × ℝ)
  secondaries : List Sec
  /-- `overridden_interaction_time` when `interaction_time_set` -/
  time : Option ℝ

/-- The constructor (dataclasses/private/InteractionRecord.cxx:943-963). `generated i` is the identifier generated for
secondary `i`, `generatedTarget` the one for the target. -/
noncomputable def XRec.make (record : Record (Val ℝ)) (generatedTarget : ParticleID) (generated : Nat → ParticleID) : XRec where
  targetId := if record.targetId.set then record.targetId else generatedTarget
  targetMass := record.targetMass
  targetHelicity := record.targetHelicity
  parameters := []
  secondaries := record.signature.secondaries.mapIdx fun i type => Sec.make record (generated i) i type
  time := none

/-- Calls on a `CrossSectionDistributionRecord`. `SetInteractionParameters(m)` is `clearParameters` followed by one
`setParameter` per entry of `m`. -/
inductive XCall where
  | setTargetMass (x : ℝ)
  | setTargetHelicity (x : ℝ)
  | setInteractionTime (x : ℝ)
  | clearParameters
  | setParameter (name : String) (x : ℝ)
  /-- a call on `GetSecondaryParticleRecord(i)` -/
  | secondary (i : Nat) (call : SecCall)

/-- Effect of a call (dataclasses/private/InteractionRecord.cxx:1031-1072). An index out of range throws and changes
nothing. -/
noncomputable def XRec.call (x : XRec) : XCall → XRec
  | .setTargetMass m => { x with targetMass := .num m }
  | .setTargetHelicity h => { x with targetHelicity := .num h }
  | .setInteractionTime t =>
    { x with time := some t, secondaries := x.secondaries.map fun s => { s with initialTime := .num t } }
  | .clearParameters => { x with parameters := [] }
  | .setParameter name v => { x with parameters := mapSet name v x.parameters }
  | .secondary i c => { x with secondaries := x.secondaries.modify i fun s => s.call c }

/-- `vector::resize`; `a` is a value-initialised element. -/
def resize {A : Type} (n : Nat) (a : A) (l : List A) : List A := l.take n ++ List.replicate (n - l.length) a

/-- `CrossSectionDistributionRecord::Finalize` (dataclasses/private/InteractionRecord.cxx:1074-1098). -/
noncomputable def XRec.finalize (x : XRec) (record : Record (Val ℝ)) : Res (Record (Val ℝ)) :=
  let n := x.secondaries.length
  let record := { record with
    targetId := x.targetId
    targetMass := x.targetMass
    targetHelicity := x.targetHelicity
    interactionTime := match x.time with
      | some t => .num t
      | none => record.interactionTime
    interactionParameters := x.parameters.foldl (fun m p => mapSet p.1 (.num p.2) m) record.interactionParameters
    secondaryIds := resize n ⟨false, 0, 0⟩ record.secondaryIds
    secondaryMasses := resize n (.num 0) record.secondaryMasses
    secondaryMomenta := resize n [.num 0, .num 0, .num 0, .num 0] record.secondaryMomenta
    secondaryHelicities := resize n (.num 0) record.secondaryHelicities
    secondaryTimes := resize n (.num 0) record.secondaryTimes }
  x.secondaries.foldl (fun r s => r.bind fun r => s.finalize r) (.ok record)

/-! ## The record of a secondary that is to interact itself -/

/-- An array of three numbers. -/
noncomputable def vec3Of (l : List ℝ) : Vec3 ℝ := ⟨l.getD 0 0, l.getD 1 0, l.getD 2 0⟩

/-- `vector::at`. -/
def readAt {A : Type} (l : List A) (i : Nat) : Res A :=
  match l[i]? with
  | some a => .ok a
  | none => .throws .outOfRange

/-- `SecondaryDistributionRecord` (dataclasses/public/SIREN/dataclasses/InteractionRecord.h:421-440). -/
structure Start where
  index : Nat
  id : ParticleID
  type : Int
  mass : ℝ
  direction : Val (Vec3 ℝ)
  energy : ℝ
  momentum : Vec3 ℝ
  helicity : ℝ
  initial : Vec3 ℝ
  initialTime : ℝ
  length : Slot ℝ
  time : Slot ℝ

/-- The direction of a momentum (dataclasses/private/InteractionRecord.cxx:1126-1135, 1146-1155). -/
noncomputable def startDirection (energy : ℝ) (p : Vec3 ℝ) : Val (Vec3 ℝ) := if energy ≠ 0 then unitV p else .num 0

/-- `CreateSecondaryRecord` and `SecondaryDistributionRecord(parent, i)`
(dataclasses/private/InteractionRecord.cxx:1102-1116, 1141-1159). -/
noncomputable def Start.make (parent : Record ℝ) (generated : ParticleID) (i : Nat) : Res Start :=
  (readAt parent.secondaryIds i).bind fun id =>
  (readAt parent.signature.secondaries i).bind fun type =>
  (readAt parent.secondaryMasses i).bind fun mass =>
  (readAt parent.secondaryMomenta i).bind fun four =>
  (readAt parent.secondaryHelicities i).bind fun helicity =>
  let energy := four.getD 0 0
  let momentum := vec3Of four.tail
  .ok { index := i
        id := if id.set then id else generated
        type := type
        mass := mass
        direction := startDirection energy momentum
        energy := energy
        momentum := momentum
        helicity := helicity
        initial := vec3Of parent.interactionVertex
        initialTime := match parent.secondaryTimes[i]? with
          | some t => t
          | none => parent.interactionTime
        length := .unset .uninit
        time := .unset .uninit }

/-- `GetLength` (dataclasses/private/InteractionRecord.cxx:1165-1170). -/
def Start.getLength (s : Start) : Res ℝ :=
  match s.length with
  | .given l => .ok l
  | .unset _ => .throws .runtimeError

/-- `SetLength`, `SetInteractionTime` (dataclasses/private/InteractionRecord.cxx:1172-1175, 1185-1188). -/
def Start.setLength (s : Start) (l : ℝ) : Start := { s with length := .given l }
def Start.setTime (s : Start) (t : ℝ) : Start := { s with time := .given t }

/-- Calls on a `SecondaryDistributionRecord` that change it. -/
inductive StartCall where
  | setLength (l : ℝ)
  | setTime (t : ℝ)

def Start.call (s : Start) : StartCall → Start
  | .setLength l => s.setLength l
  | .setTime t => s.setTime t

/-- `GetInteractionTime` (dataclasses/private/InteractionRecord.cxx:1177-1183). The member it stores its result in is not read
again unless the time was set. -/
noncomputable def Start.getTime (c : ℝ) (s : Start) : Res ℝ :=
  match s.time with
  | .given t => .ok t
  | .unset _ => s.getLength.bind fun l => .ok (s.initialTime + flightTime c l s.energy (Vec3.norm s.momentum))

/-- What `Finalize` writes into a record. -/
structure Started where
  id : ParticleID
  type : Int
  initial : Vec3 ℝ
  initialTime : ℝ
  mass : ℝ
  energy : ℝ
  momentum : Vec3 ℝ
  helicity : ℝ
  vertex : Val (Vec3 ℝ)
  time : ℝ

/-- `SecondaryDistributionRecord::Finalize` (dataclasses/private/InteractionRecord.cxx:1190-1203): reads `length` whether
set or not. -/
noncomputable def Start.finalize (c : ℝ) (s : Start) : Res Started :=
  s.length.read.bind fun l =>
  match l with
  | .num l =>
    (s.direction.apply fun d => s.initial + Vec3.smul l d).bind fun vertex =>
    (s.getTime c).bind fun t =>
    .ok ⟨s.id, s.type, s.initial, s.initialTime, s.mass, s.energy, s.momentum, s.helicity, vertex, t⟩
  | _ => .ub

end Siren.Records
