import Verif.Base
import Verif.Math.Vec3

set_option autoImplicit false

/-!
# The primary record

Models `PrimaryDistributionRecord` (dataclasses/private/InteractionRecord.cxx:31-454, 456-634).

The C++ members are `mutable`: a getter of a quantity that was not supplied computes it and stores it, but does not set the
`..._set` flag. A member is therefore either supplied, or holds whatever a getter stored last (`Val`), possibly nothing.
NaN (a square root of a negative number, a division by zero) is a distinct value. Otherwise numbers are real.
-/

namespace Siren.Records

open Siren

/-- What a double or an array of doubles holds. -/
inductive Val (A : Type) where
  | uninit
  | nan
  | num (a : A)

/-- A member and its `..._set` flag (dataclasses/public/SIREN/dataclasses/InteractionRecord.h:62-90). -/
inductive Slot (A : Type) where
  /-- flag set by a setter, with the value supplied -/
  | given (a : A)
  /-- flag not set; the member holds what a getter last stored -/
  | unset (memory : Val A)

/-- Reading the member: an uninitialised one is undefined behaviour. -/
def Slot.read {A : Type} : Slot A → Res (Val A)
  | .given a => .ok (.num a)
  | .unset .uninit => .ub
  | .unset v => .ok v

/-- `PrimaryDistributionRecord` (dataclasses/public/SIREN/dataclasses/InteractionRecord.h:57-90), kinematics, positions and
times. `helicity` and `initial_time` are initialised to zero and returned whether set or not. -/
structure Prim where
  mass : Slot ℝ
  energy : Slot ℝ
  kinetic : Slot ℝ
  direction : Slot (Vec3 ℝ)
  momentum : Slot (Vec3 ℝ)
  length : Slot ℝ
  initial : Slot (Vec3 ℝ)
  vertex : Slot (Vec3 ℝ)
  poca : Slot (Vec3 ℝ)
  vdist : Slot ℝ
  idist : Slot ℝ
  helicity : ℝ
  initialTime : ℝ
  time : Slot ℝ

/-- A new record (dataclasses/private/InteractionRecord.cxx:32-35). -/
def Prim.new : Prim :=
  ⟨.unset .uninit, .unset .uninit, .unset .uninit, .unset .uninit, .unset .uninit, .unset .uninit, .unset .uninit,
    .unset .uninit, .unset .uninit, .unset .uninit, .unset .uninit, 0, 0, .unset .uninit⟩

/-- `std::sqrt`. -/
noncomputable def sqrtV (x : ℝ) : Val ℝ := if 0 ≤ x then .num (Real.sqrt x) else .nan

/-- A vector divided by its length, component by component; NaN for the zero vector
(for example dataclasses/private/InteractionRecord.cxx:330-331). -/
noncomputable def unitV (v : Vec3 ℝ) : Val (Vec3 ℝ) :=
  if Vec3.norm v = 0 then .nan else .num ⟨v.x / Vec3.norm v, v.y / Vec3.norm v, v.z / Vec3.norm v⟩

/-- Apply a computation to a value; NaN stays NaN, an uninitialised operand is undefined behaviour. -/
def Val.apply {A B : Type} (v : Val A) (f : A → B) : Res (Val B) :=
  match v with
  | .uninit => .ub
  | .nan => .ok .nan
  | .num a => .ok (.num (f a))

/-- `UpdateMass` (dataclasses/private/InteractionRecord.cxx:290-300). -/
noncomputable def Prim.updateMass (r : Prim) : Res Prim :=
  match r.mass with
  | .given _ => .ok r
  | .unset _ =>
    match r.energy, r.momentum, r.kinetic with
    | .given e, .given p, _ => .ok { r with mass := .unset (sqrtV (e * e - p.x * p.x - p.y * p.y - p.z * p.z)) }
    | .given e, _, .given k => .ok { r with mass := .unset (.num (e - k)) }
    | _, _, _ => .throws .runtimeError

/-- `UpdateEnergy` (dataclasses/private/InteractionRecord.cxx:302-312). -/
noncomputable def Prim.updateEnergy (r : Prim) : Res Prim :=
  match r.energy with
  | .given _ => .ok r
  | .unset _ =>
    match r.mass, r.momentum, r.kinetic with
    | .given m, .given p, _ => .ok { r with energy := .unset (sqrtV (m * m + p.x * p.x + p.y * p.y + p.z * p.z)) }
    | .given m, _, .given k => .ok { r with energy := .unset (.num (m + k)) }
    | _, _, _ => .throws .runtimeError

/-- `UpdateKineticEnergy` (dataclasses/private/InteractionRecord.cxx:314-324). -/
noncomputable def Prim.updateKinetic (r : Prim) : Res Prim :=
  match r.kinetic with
  | .given _ => .ok r
  | .unset _ =>
    match r.mass, r.energy, r.momentum with
    | .given m, .given e, _ => .ok { r with kinetic := .unset (.num (e - m)) }
    | .given m, _, .given p =>
      (sqrtV (p.x * p.x + p.y * p.y + p.z * p.z + m * m)).apply (fun s => s - m) |>.bind fun v =>
        .ok { r with kinetic := .unset v }
    | _, _, _ => .throws .runtimeError

/-- `UpdateDirection` (dataclasses/private/InteractionRecord.cxx:326-339). -/
noncomputable def Prim.updateDirection (r : Prim) : Res Prim :=
  match r.direction with
  | .given _ => .ok r
  | .unset _ =>
    match r.momentum, r.initial, r.vertex with
    | .given p, _, _ => .ok { r with direction := .unset (unitV p) }
    | _, .given x0, .given xv => .ok { r with direction := .unset (unitV (xv - x0)) }
    | _, _, _ => .throws .runtimeError

/-- `UpdateMomentum` (dataclasses/private/InteractionRecord.cxx:341-353). -/
noncomputable def Prim.updateMomentum (r : Prim) : Res Prim :=
  match r.momentum with
  | .given _ => .ok r
  | .unset _ =>
    match r.mass, r.direction, r.energy, r.kinetic with
    | .given m, .given d, .given e, _ =>
      (sqrtV (e * e - m * m)).apply (fun magnitude => Vec3.smul magnitude d) |>.bind fun v =>
        .ok { r with momentum := .unset v }
    | .given m, .given d, _, .given k =>
      (sqrtV ((k + m) * (k + m) - m * m)).apply (fun magnitude => Vec3.smul magnitude d) |>.bind fun v =>
        .ok { r with momentum := .unset v }
    | _, _, _, _ => .throws .runtimeError

/-- `UpdateLength` (dataclasses/private/InteractionRecord.cxx:355-369). -/
noncomputable def Prim.updateLength (r : Prim) : Res Prim :=
  match r.length with
  | .given _ => .ok r
  | .unset _ =>
    match r.initial, r.vertex, r.idist, r.vdist with
    | .given x0, .given xv, _, _ => .ok { r with length := .unset (.num (Vec3.norm (xv - x0))) }
    | _, _, .given i, .given v => .ok { r with length := .unset (.num (v - i)) }
    | _, _, _, _ => .throws .runtimeError

/-- `UpdateInitialPosition` (dataclasses/private/InteractionRecord.cxx:371-393). -/
noncomputable def Prim.updateInitial (r : Prim) : Res Prim :=
  match r.initial with
  | .given _ => .ok r
  | .unset _ =>
    match r.direction with
    | .unset _ => .throws .runtimeError
    | .given d =>
      match r.vertex, r.length, r.idist, r.vdist, r.poca with
      | .given xv, .given l, _, _, _ => .ok { r with initial := .unset (.num (xv - Vec3.smul l d)) }
      | .given xv, _, .given i, .given v, _ => .ok { r with initial := .unset (.num (xv - Vec3.smul (v - i) d)) }
      | _, _, .given i, _, .given pc => .ok { r with initial := .unset (.num (pc + Vec3.smul i d)) }
      | _, _, _, _, _ => .throws .runtimeError

/-- `UpdateInteractionVertex` (dataclasses/private/InteractionRecord.cxx:395-417). -/
noncomputable def Prim.updateVertex (r : Prim) : Res Prim :=
  match r.vertex with
  | .given _ => .ok r
  | .unset _ =>
    match r.direction with
    | .unset _ => .throws .runtimeError
    | .given d =>
      match r.initial, r.length, r.idist, r.vdist, r.poca with
      | .given x0, .given l, _, _, _ => .ok { r with vertex := .unset (.num (x0 + Vec3.smul l d)) }
      | .given x0, _, .given i, .given v, _ => .ok { r with vertex := .unset (.num (x0 + Vec3.smul (v - i) d)) }
      | _, _, _, .given v, .given pc => .ok { r with vertex := .unset (.num (pc + Vec3.smul v d)) }
      | _, _, _, _, _ => .throws .runtimeError

/-- The point of closest approach of a line, as computed in dataclasses/private/InteractionRecord.cxx:436-450. -/
noncomputable def closest (p d : Vec3 ℝ) : Vec3 ℝ := p - Vec3.smul (Vec3.dot p d) d

/-- `UpdatePointOfClosestApproach` (dataclasses/private/InteractionRecord.cxx:419-454). -/
noncomputable def Prim.updatePoca (r : Prim) : Res Prim :=
  match r.poca with
  | .given _ => .ok r
  | .unset _ =>
    match r.initial, r.direction, r.idist, r.vertex, r.vdist with
    | .given x0, .given d, .given i, _, _ => .ok { r with poca := .unset (.num (x0 + Vec3.smul i d)) }
    | _, .given d, _, .given xv, .given v => .ok { r with poca := .unset (.num (xv - Vec3.smul v d)) }
    | .given x0, _, _, .given xv, _ =>
      (unitV (xv - x0)).apply (fun d => closest x0 d) |>.bind fun v => .ok { r with poca := .unset v }
    | _, _, _, _, _ => .throws .runtimeError

/-- The signed distance of a point from the point of closest approach of its line, as computed in
dataclasses/private/InteractionRecord.cxx:462-483. -/
noncomputable def signedDistance (p d : Vec3 ℝ) : ℝ :=
  let difference := p - closest p d
  let sign : ℝ := if Vec3.dot difference d > 0 then 1 else -1
  Vec3.norm difference * sign

/-- `UpdateVertexDistanceFromClosestApproach` (dataclasses/private/InteractionRecord.cxx:456-544). The last branch reads
the member `direction` without asking whether it was supplied. -/
noncomputable def Prim.updateVdist (r : Prim) : Res Prim :=
  match r.vdist with
  | .given _ => .ok r
  | .unset _ =>
    match r.idist, r.length, r.vertex, r.direction, r.initial, r.poca with
    | .given i, .given l, _, _, _, _ => .ok { r with vdist := .unset (.num (i + l)) }
    | _, _, .given xv, .given d, _, _ => .ok { r with vdist := .unset (.num (signedDistance xv d)) }
    | _, _, .given xv, _, .given x0, _ =>
      (unitV (xv - x0)).apply (fun d => signedDistance xv d) |>.bind fun v => .ok { r with vdist := .unset v }
    | _, .given l, _, .given d, .given x0, .given _ => .ok { r with vdist := .unset (.num (signedDistance x0 d + l)) }
    | _, .given l, _, .unset memory, .given x0, .given _ =>
      memory.apply (fun d => signedDistance x0 d + l) |>.bind fun v => .ok { r with vdist := .unset v }
    | _, _, _, _, _, _ => .throws .runtimeError

/-- `UpdateInitialDistanceFromClosestApproach` (dataclasses/private/InteractionRecord.cxx:546-634); same remark. -/
noncomputable def Prim.updateIdist (r : Prim) : Res Prim :=
  match r.idist with
  | .given _ => .ok r
  | .unset _ =>
    match r.vdist, r.length, r.initial, r.direction, r.vertex, r.poca with
    | .given v, .given l, _, _, _, _ => .ok { r with idist := .unset (.num (v - l)) }
    | _, _, .given x0, .given d, _, _ => .ok { r with idist := .unset (.num (signedDistance x0 d)) }
    | _, _, .given x0, _, .given xv, _ =>
      (unitV (xv - x0)).apply (fun d => signedDistance x0 d) |>.bind fun v => .ok { r with idist := .unset v }
    | _, .given l, _, .given d, .given xv, .given _ => .ok { r with idist := .unset (.num (signedDistance xv d - l)) }
    | _, .given l, _, .unset memory, .given xv, .given _ =>
      memory.apply (fun d => signedDistance xv d - l) |>.bind fun v => .ok { r with idist := .unset v }
    | _, _, _, _, _, _ => .throws .runtimeError

/-- `GetMass` .. `GetInitialDistanceFromClosestApproach` (dataclasses/private/InteractionRecord.cxx:76-164): update, then
read the member. -/
noncomputable def Prim.getMass (r : Prim) : Res (Prim × Val ℝ) := r.updateMass.bind fun r => r.mass.read.bind fun v => .ok (r, v)
noncomputable def Prim.getEnergy (r : Prim) : Res (Prim × Val ℝ) := r.updateEnergy.bind fun r => r.energy.read.bind fun v => .ok (r, v)
noncomputable def Prim.getKinetic (r : Prim) : Res (Prim × Val ℝ) := r.updateKinetic.bind fun r => r.kinetic.read.bind fun v => .ok (r, v)
noncomputable def Prim.getDirection (r : Prim) : Res (Prim × Val (Vec3 ℝ)) := r.updateDirection.bind fun r => r.direction.read.bind fun v => .ok (r, v)
noncomputable def Prim.getMomentum (r : Prim) : Res (Prim × Val (Vec3 ℝ)) := r.updateMomentum.bind fun r => r.momentum.read.bind fun v => .ok (r, v)
noncomputable def Prim.getLength (r : Prim) : Res (Prim × Val ℝ) := r.updateLength.bind fun r => r.length.read.bind fun v => .ok (r, v)
noncomputable def Prim.getInitial (r : Prim) : Res (Prim × Val (Vec3 ℝ)) := r.updateInitial.bind fun r => r.initial.read.bind fun v => .ok (r, v)
noncomputable def Prim.getVertex (r : Prim) : Res (Prim × Val (Vec3 ℝ)) := r.updateVertex.bind fun r => r.vertex.read.bind fun v => .ok (r, v)
noncomputable def Prim.getPoca (r : Prim) : Res (Prim × Val (Vec3 ℝ)) := r.updatePoca.bind fun r => r.poca.read.bind fun v => .ok (r, v)
noncomputable def Prim.getVdist (r : Prim) : Res (Prim × Val ℝ) := r.updateVdist.bind fun r => r.vdist.read.bind fun v => .ok (r, v)
noncomputable def Prim.getIdist (r : Prim) : Res (Prim × Val ℝ) := r.updateIdist.bind fun r => r.idist.read.bind fun v => .ok (r, v)

/-- `GetFourMomentum` (dataclasses/private/InteractionRecord.cxx:113-119). The update functions do nothing for a quantity
that was supplied. -/
noncomputable def Prim.getFour (r : Prim) : Res (Prim × Val ℝ × Val (Vec3 ℝ)) :=
  r.updateMomentum.bind fun r => r.updateEnergy.bind fun r => r.energy.read.bind fun e => r.momentum.read.bind fun p =>
    .ok (r, e, p)

/-- `FlightTime` (dataclasses/private/InteractionRecord.cxx:24-29); `c` is the speed of light. -/
noncomputable def flightTime (c length energy momentum : ℝ) : ℝ :=
  if ¬ length > 0 ∨ ¬ energy > 0 ∨ ¬ momentum > 0 then 0 else length / (min (momentum / energy) 1 * c)

/-- `UpdateInteractionTime` (dataclasses/private/InteractionRecord.cxx:636-654). A NaN among the operands makes one of the
comparisons in `FlightTime` fail, so that the flight time is zero. -/
noncomputable def Prim.updateTime (c : ℝ) (r : Prim) : Res Prim :=
  match r.time with
  | .given _ => .ok r
  | .unset _ =>
    r.getInitial.bind fun (r, x0) => r.getVertex.bind fun (r, xv) => r.getEnergy.bind fun (r, e) => r.getMass.bind fun (r, m) =>
      match x0, xv, e, m with
      | .num x0, .num xv, .num e, .num m =>
        let distance := Vec3.norm (xv - x0)
        let momentum := if e > m then Real.sqrt (e * e - m * m) else 0
        .ok { r with time := .unset (.num (r.initialTime + flightTime c distance e momentum)) }
      | .uninit, _, _, _ => .ub
      | _, .uninit, _, _ => .ub
      | _, _, .uninit, _ => .ub
      | _, _, _, .uninit => .ub
      | _, _, _, _ => .ok { r with time := .unset (.num r.initialTime) }

/-- `GetInteractionTime` (dataclasses/private/InteractionRecord.cxx:171-176). -/
noncomputable def Prim.getTime (c : ℝ) (r : Prim) : Res (Prim × Val ℝ) :=
  (r.updateTime c).bind fun r => r.time.read.bind fun v => .ok (r, v)

/-- The part of an `InteractionRecord` that `Finalize` writes. -/
structure Finalized where
  vertex : Val (Vec3 ℝ)
  initial : Val (Vec3 ℝ)
  mass : Val ℝ
  energy : Val ℝ
  momentum : Val (Vec3 ℝ)
  helicity : ℝ
  initialTime : ℝ
  time : Val ℝ

/-- `PrimaryDistributionRecord::Finalize` (dataclasses/private/InteractionRecord.cxx:687-700); the id, the type and the
interaction parameters are copied and not modelled here. -/
noncomputable def Prim.finalize (c : ℝ) (r : Prim) : Res Finalized :=
  r.getVertex.bind fun (r, xv) => r.getInitial.bind fun (r, x0) => r.getMass.bind fun (r, m) =>
    r.getFour.bind fun (r, e, p) => (r.getTime c).bind fun (r, t) => .ok ⟨xv, x0, m, e, p, r.helicity, r.initialTime, t⟩

/-- Calls on a record: the setters (dataclasses/private/InteractionRecord.cxx:178-280) and the getters. `SetParticle` with
a foreign id or type throws and changes nothing; it is not listed. -/
inductive Call where
  | setMass (x : ℝ)
  | setEnergy (x : ℝ)
  | setKinetic (x : ℝ)
  | setDirection (v : Vec3 ℝ)
  | setMomentum (v : Vec3 ℝ)
  | setFourMomentum (e : ℝ) (p : Vec3 ℝ)
  | setParticle (m e : ℝ) (p x0 : Vec3 ℝ) (l h : ℝ)
  | setLength (x : ℝ)
  | setInitial (v : Vec3 ℝ)
  | setVertex (v : Vec3 ℝ)
  | setPoca (v : Vec3 ℝ)
  | setVdist (x : ℝ)
  | setIdist (x : ℝ)
  | setHelicity (x : ℝ)
  | setInitialTime (x : ℝ)
  | setTime (x : ℝ)
  | getMass | getEnergy | getKinetic | getDirection | getMomentum
  | getLength | getInitial | getVertex | getPoca | getVdist | getIdist
  | getFour | getTime

/-- The record after a getter: an exception leaves it as it was. (`GetFourMomentum` and `GetInteractionTime` may store
positions, momentum or energy before they throw; only the stored direction is ever read without its flag, and these two do
not store it.) -/
def after {A : Type} (r : Prim) : Res (Prim × A) → Prim
  | .ok (r, _) => r
  | _ => r

/-- The effect of a call on the record. -/
noncomputable def Prim.call (c : ℝ) (r : Prim) : Call → Prim
  | .setMass x => { r with mass := .given x }
  | .setEnergy x => { r with energy := .given x }
  | .setKinetic x => { r with kinetic := .given x }
  | .setDirection v => { r with direction := .given v }
  | .setMomentum v => { r with momentum := .given v }
  | .setFourMomentum e p => { r with momentum := .given p, energy := .given e }
  | .setParticle m e p x0 l h =>
    { r with mass := .given m, momentum := .given p, energy := .given e, initial := .given x0, length := .given l,
             helicity := h }
  | .setLength x => { r with length := .given x }
  | .setInitial v => { r with initial := .given v }
  | .setVertex v => { r with vertex := .given v }
  | .setPoca v => { r with poca := .given v }
  | .setVdist x => { r with vdist := .given x }
  | .setIdist x => { r with idist := .given x }
  | .setHelicity x => { r with helicity := x }
  | .setInitialTime x => { r with initialTime := x }
  | .setTime x => { r with time := .given x }
  | .getMass => after r r.getMass
  | .getEnergy => after r r.getEnergy
  | .getKinetic => after r r.getKinetic
  | .getDirection => after r r.getDirection
  | .getMomentum => after r r.getMomentum
  | .getLength => after r r.getLength
  | .getInitial => after r r.getInitial
  | .getVertex => after r r.getVertex
  | .getPoca => after r r.getPoca
  | .getVdist => after r r.getVdist
  | .getIdist => after r r.getIdist
  | .getFour => after r r.getFour
  | .getTime => after r (r.getTime c)

/-- A history of calls on a new record. -/
noncomputable def Prim.history (c : ℝ) (calls : List Call) : Prim := calls.foldl (Prim.call c) Prim.new

end Siren.Records
