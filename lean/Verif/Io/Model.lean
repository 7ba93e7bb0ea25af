import Verif.Base
import Verif.Records.Compare
import Mathlib.Data.Nat.Digits.Defs
import Mathlib.Algebra.Field.Defs

set_option autoImplicit false

/-!
# Writing and reading HepMC3 events

Models `io/private/HepMC3Writer.cxx` and `io/private/HepMC3Reader.cxx`.

Strings that are inspected are lists of characters. Doubles are elements of a field. A `std::map` is a function, or a list of pairs where its
entries are visited. The HepMC3 library is not modelled beyond its event graph: particles, vertices, and the attributes that SIREN writes; each
attribute is a field, `none` if it is absent. That a file gives back the event that was written is trusted. Particle pointers are positions in the
list of particles. A vertex of an event has the identifier `-(n+1)`, where `n` is its position; the production vertex of a particle that no
vertex produces is the event's root vertex `0`.
-/

namespace Siren.Io

open Siren Siren.Records

/-! ## Trees -/

/-- A datum of an interaction tree as `add_entry` builds it (C01): its record and the position of its parent. -/
structure Node (K : Type) where
  record : Record K
  parent : Option Nat

/-- `InteractionTreeDatum::is_root` (InteractionTree.h:64). -/
def Node.isRoot {K : Type} (n : Node K) : Bool := n.parent.isNone

/-- `InteractionTree` (InteractionTree.h:107-111) with `event_number` and `weights` of its header; the provenance is not written. -/
structure ITree (K : Type) where
  number : Nat
  weights : List K
  nodes : List (Node K)

/-! ## Process identifiers and event numbers -/

/-- `std::to_string` of a number that is not negative. -/
def showNat (n : Nat) : List Char := if n = 0 then ['0'] else (Nat.digits 10 n).reverse.map Nat.digitChar

/-- `std::to_string`. -/
def showInt (z : Int) : List Char := if z < 0 then '-' :: showNat z.natAbs else showNat z.natAbs

/-- `ProcessKey` (HepMC3Writer.cxx:22-27). -/
def processKey (s : Signature) : List Char :=
  showInt s.primary ++ ['|'] ++ showInt s.target ++ ['>'] ++ s.secondaries.flatMap (fun t => showInt t ++ [','])

/-- `ProcessName` (HepMC3Writer.cxx:29-37). -/
def processName (s : Signature) : List Char :=
  showInt s.primary ++ ['+'] ++ showInt s.target ++ [' ', '-', '>', ' '] ++ List.intercalate [','] (s.secondaries.map showInt)

/-- The part of `HepMC3Writer::Options` (HepMC3Writer.h:22-84) that is used to number events and processes. -/
structure Options (K : Type) where
  unweighted : Bool
  accepted : Int
  processIds : List Char → Option Nat
  processNames : Nat → Option (List Char)
  weightSum : K
  weightSumOf : Int → Option K
  acceptedOf : Int → Option Nat

/-- `map[k] = v` on a `std::map`. -/
def put {A B : Type} [DecidableEq A] (m : A → Option B) (k : A) (v : B) : A → Option B := fun a => if a = k then some v else m a

/-- `sig_by_key.emplace(key, sig)` (HepMC3Writer.cxx:591): nothing happens if the key is present. -/
def emplace (m : List (List Char × Signature)) (k : List Char) (s : Signature) : List (List Char × Signature) :=
  if m.any (fun e => e.1 = k) then m else m ++ [(k, s)]

/-- State of the first pass. -/
structure Scan (K : Type) where
  opts : Options K
  sigs : List (List Char × Signature)
  count : Nat

section save
variable {K : Type} [Field K]

/-- One round of the first pass (HepMC3Writer.cxx:586-599); `none` is a null tree. -/
def scanStep (s : Scan K) (tree : Option (ITree K)) : Scan K :=
  match tree with
  | none => s
  | some t => match t.nodes with
    | [] => s
    | root :: _ =>
      let sig := root.record.signature
      let w := t.weights.headD 1
      { opts := { s.opts with
          weightSum := s.opts.weightSum + w
          weightSumOf := put s.opts.weightSumOf sig.primary ((s.opts.weightSumOf sig.primary).getD 0 + w)
          acceptedOf := put s.opts.acceptedOf sig.primary ((s.opts.acceptedOf sig.primary).getD 0 + 1) }
        sigs := emplace s.sigs (processKey sig) sig
        count := s.count + 1 }

/-- The signatures sorted by `operator<` (HepMC3Writer.cxx:604-607). The order in which the map visits them does not matter. -/
def sortSigs (m : List (List Char × Signature)) : List Signature := (m.map Prod.snd).mergeSort (fun a b => !b.lt a)

/-- One round of the second pass (HepMC3Writer.cxx:609-616). -/
def assignStep (s : Options K × Nat) (sig : Signature) : Options K × Nat :=
  let key := processKey sig
  if (s.1.processIds key).isNone then
    ({ s.1 with processIds := put s.1.processIds key s.2, processNames := put s.1.processNames s.2 (processName sig) }, s.2 + 1)
  else s

/-- The options after both passes (HepMC3Writer.cxx:581-616). -/
def prescan (options : Options K) (trees : List (Option (ITree K))) : Options K :=
  let s := trees.foldl scanStep ⟨options, [], 0⟩
  let opts := if s.opts.accepted < 0 then { s.opts with accepted := s.count } else s.opts
  ((sortSigs s.sigs).foldl assignStep (opts, 700)).1

/-- `explicit_numbers` (HepMC3Writer.cxx:620-624). -/
def explicitNumbers (trees : List (Option (ITree K))) : List Nat :=
  trees.foldl (fun s tree => match tree with
    | none => s
    | some t => if !t.nodes.isEmpty && decide (t.number ≠ 0) then s ++ [t.number] else s) []

/-- `while(explicit_numbers.count(next_fallback)) ++next_fallback` (HepMC3Writer.cxx:635) with a bound on the number of rounds. The numbers are
natural numbers: with less than 2^64 trees the counter does not wrap. -/
def skipUsed (used : List Nat) : Nat → Nat → Nat
  | 0, n => n
  | fuel + 1, n => if used.contains n then skipUsed used fuel (n + 1) else n

/-- The loop that writes the events (HepMC3Writer.cxx:628-639): the number given to `Write` and the tree. -/
def writeLoop (used : List Nat) : List (Option (ITree K)) → Nat → List (Nat × ITree K)
  | [], _ => []
  | none :: rest, next => writeLoop used rest next
  | some t :: rest, next =>
    if t.nodes.isEmpty then writeLoop used rest next
    else if t.number ≠ 0 then (t.number, t) :: writeLoop used rest next
    else
      let n := skipUsed used (used.length + 1) next
      (n, t) :: writeLoop used rest (n + 1)

/-- `SaveInteractionTreesAsHepMC3` (HepMC3Writer.cxx:575-641): the options of the writer and the calls of `Write`. -/
def save (options : Options K) (trees : List (Option (ITree K))) : Options K × List (Nat × ITree K) :=
  (prescan options trees, writeLoop (explicitNumbers trees) trees 0)

/-- `nuhepmc_conformant` (HepMC3Writer.cxx:202-208 and 343-344). -/
def Options.conformant (o : Options K) : Bool := !o.unweighted && decide (0 < o.accepted)

/-- The process registry of the file (HepMC3Writer.cxx:264-272): the name declared for an identifier. -/
def registry (o : Options K) (id : Nat) : Option (List Char) := if o.conformant then o.processNames id else none

/-- The `signal_process_id` of an event (HepMC3Writer.cxx:357-362). The test for an empty map of identifiers changes nothing. -/
def signalProcess (o : Options K) (t : ITree K) : Option Nat :=
  if o.conformant then match t.nodes with
    | [] => none
    | root :: _ => o.processIds (processKey root.record.signature)
  else none

end save

/-! ## Events -/

/-- `HepMC3::FourVector`. -/
structure Four (K : Type) where
  x : K
  y : K
  z : K
  t : K
  deriving DecidableEq

/-- `HepMC3::GenParticle` with the attributes of HepMC3Writer.cxx:107-114 and 452-485. -/
structure GenParticle (K : Type) where
  momentum : Four K
  pid : Int
  status : Nat
  mass : Option K
  production : Int
  helicity : Option K := none
  ident : Option (Nat × Int) := none
  posX : Option K := none
  posY : Option K := none
  posZ : Option K := none
  initialTime : Option K := none
  time : Option K := none

/-- `HepMC3::GenVertex`; `attrs` are its double attributes by name and `unknownTarget` is `siren.target_type_unknown`. -/
structure GenVertex (K : Type) where
  id : Int
  position : Four K
  status : Nat
  ins : List Nat
  outs : List Nat
  attrs : List (String × K)
  unknownTarget : Option Int

/-- `HepMC3::GenEvent`; `bigNumber` is `siren.event_number`. -/
structure GenEvent (K : Type) where
  number : Int
  bigNumber : Option Nat
  weights : List K
  particles : List (GenParticle K)
  vertices : List (GenVertex K)

/-- The units (Constants.h:29-46). -/
structure Units (K : Type) where
  cm : K
  second : K
  c : K

/-- `ParticleType::Decay` and `ParticleType::unknown` (ParticleTypes.def:1, 210). -/
def decayType : Int := -2000001007
def unknownType : Int := 0

section write
variable {K : Type} [Field K]

/-- `Momentum` (HepMC3Writer.cxx:74-76). -/
def momentumOf (p : List K) : Four K := ⟨p.getD 1 0, p.getD 2 0, p.getD 3 0, p.getD 0 0⟩

/-- `VertexPosition` (HepMC3Writer.cxx:80-83). -/
def vertexPosition (u : Units K) (x : List K) (t : K) : Four K :=
  let s := 1 / u.cm
  ⟨x.getD 0 0 * s, x.getD 1 0 * s, x.getD 2 0 * s, (u.c * t) * s⟩

/-- `VertexStatus` (HepMC3Writer.cxx:94-98). -/
def vertexStatus (rec : Record K) (isPrimaryRoot : Bool) : Nat :=
  if isPrimaryRoot then 1 else if rec.signature.target = decayType then 22 else 21

/-- `WriteParticleID` (HepMC3Writer.cxx:107-114). -/
def identAttr (id : ParticleID) : Option (Nat × Int) := if id.set then some (id.major, id.minor) else none

/-- State of the loop of `TreeToGenEvent`: the event, `particle_by_id` and `primary_root_seen`. -/
structure Writing (K : Type) where
  particles : List (GenParticle K)
  vertices : List (GenVertex K)
  byId : ParticleID → Option Nat
  seen : Bool

/-- The outgoing particle of secondary `j` (HepMC3Writer.cxx:436-442 and 474-485), produced by vertex `vid`. -/
def outgoing (u : Units K) (rec : Record K) (vid : Int) (j : Nat) : GenParticle K where
  momentum := momentumOf (rec.secondaryMomenta.getD j [0, 0, 0, 0])
  pid := rec.signature.secondaries.getD j 0
  status := 1
  mass := rec.secondaryMasses[j]?
  production := vid
  helicity := some (rec.secondaryHelicities.getD j 0)
  ident := rec.secondaryIds[j]?.bind identAttr
  time := rec.secondaryTimes[j]?.map (· / u.second)

/-- `particle_by_id[id] = out` for the secondaries with a set identifier (HepMC3Writer.cxx:442-443); `first` is the position of the first one. -/
def recordIds (rec : Record K) (first : Nat) (byId : ParticleID → Option Nat) : ParticleID → Option Nat :=
  (List.range rec.signature.secondaries.length).foldl (fun m j => match rec.secondaryIds[j]? with
    | some id => if id.set then put m id (first + j) else m
    | none => m) byId

/-- Setting the initial position and time of a primary particle (HepMC3Writer.cxx:462-469). -/
def GenParticle.withStart (u : Units K) (rec : Record K) (p : GenParticle K) : GenParticle K :=
  let s := 1 / u.cm
  { p with
    posX := some (rec.primaryInitialPosition.getD 0 0 * s)
    posY := some (rec.primaryInitialPosition.getD 1 0 * s)
    posZ := some (rec.primaryInitialPosition.getD 2 0 * s)
    initialTime := some (rec.primaryInitialTime / u.second) }

/-- The particle a non-root datum shares with its parent (HepMC3Writer.cxx:399-407). -/
def sharedPrimary (byId : ParticleID → Option Nat) (n : Node K) : Option Nat :=
  if !n.isRoot && n.record.primaryId.set then byId n.record.primaryId else none

/-- A new primary particle (HepMC3Writer.cxx:408-416, 452-457). -/
def newPrimary (rec : Record K) (isPrimaryRoot : Bool) : GenParticle K where
  momentum := momentumOf rec.primaryMomentum
  pid := rec.signature.primary
  status := if isPrimaryRoot then 4 else 2
  mass := some rec.primaryMass
  production := 0
  helicity := some rec.primaryHelicity
  ident := identAttr rec.primaryId

/-- The target particle (HepMC3Writer.cxx:419-430, 470-473). -/
def targetParticle (rec : Record K) (isPrimaryRoot : Bool) : Option (GenParticle K) :=
  if rec.signature.target ≠ decayType ∧ rec.signature.target ≠ unknownType then
    some {
      momentum := ⟨0, 0, 0, rec.targetMass⟩
      pid := rec.signature.target
      status := if isPrimaryRoot then 20 else 22
      mass := some rec.targetMass
      production := 0
      helicity := some rec.targetHelicity
      ident := identAttr rec.targetId }
  else none

/-- The primary of a vertex: the particles after it is found or created, and its position (HepMC3Writer.cxx:399-416 and 452-469). -/
def placePrimary (u : Units K) (s : Writing K) (n : Node K) (isPrimaryRoot : Bool) : List (GenParticle K) × Nat :=
  match sharedPrimary s.byId n with
  | some p => (s.particles.modify p fun q => ({ q with status := 2 } : GenParticle K).withStart u n.record, p)
  | none => (s.particles ++ [(newPrimary n.record isPrimaryRoot).withStart u n.record], s.particles.length)

/-- One round of the loop (HepMC3Writer.cxx:385-499). `add_particle_in` takes the particle out of a vertex it entered before (HepMC3: a particle
has one end vertex). -/
def writeNode (u : Units K) (s : Writing K) (n : Node K) : Writing K :=
  let rec_ := n.record
  let isPrimaryRoot := n.isRoot && !s.seen
  let vid : Int := -((s.vertices.length : Int) + 1)
  let (ps, p) := placePrimary u s n isPrimaryRoot
  let vertices := s.vertices.map fun v => { v with ins := v.ins.erase p }
  let targets := (targetParticle rec_ isPrimaryRoot).toList
  let first := ps.length + targets.length
  let count := rec_.signature.secondaries.length
  { particles := ps ++ targets ++ (List.range count).map (outgoing u rec_ vid)
    vertices := vertices ++ [{
      id := vid
      position := vertexPosition u rec_.interactionVertex rec_.interactionTime
      status := vertexStatus rec_ isPrimaryRoot
      ins := p :: targets.zipIdx.map fun t => ps.length + t.2
      outs := (List.range count).map (first + ·)
      attrs := rec_.interactionParameters.map fun kv => ("siren.param." ++ kv.1, kv.2)
      unknownTarget := if rec_.signature.target = unknownType then some 1 else none }]
    byId := recordIds rec_ first s.byId
    seen := s.seen || n.isRoot }

/-- The weights of an event (HepMC3Writer.cxx:365-371). -/
def eventWeights (nweights : Nat) (weights : List K) : List K :=
  if weights.length ≠ nweights then List.replicate nweights (weights.headD 1) else weights

/-- `static_cast<int>` of a 64-bit number. -/
def narrow (n : Nat) : Int := ((n : Int) + 2 ^ 31) % 2 ^ 32 - 2 ^ 31

/-- `TreeToGenEvent` (HepMC3Writer.cxx:337-512) without the attributes of the event that are not read back. -/
def writeEvent (u : Units K) (nweights : Nat) (t : ITree K) (number : Nat) : GenEvent K :=
  let s := t.nodes.foldl (writeNode u) ⟨[], [], fun _ => none, false⟩
  { number := narrow number
    bigNumber := if number > 2 ^ 31 - 1 then some number else none
    weights := eventWeights nweights t.weights
    particles := s.particles
    vertices := s.vertices }

end write

/-! ## Reading -/

section read
variable {K : Type} [Field K]

/-- An unset identifier. -/
def unsetId : ParticleID := ⟨false, 0, 0⟩

/-- `required_double_attr` (HepMC3Reader.cxx:67-81). -/
def required (strict : Bool) : Option K → Res K
  | some v => .ok v
  | none => if strict then .throws .runtimeError else .ok 0

/-- `ReadStoredId` (HepMC3Reader.cxx:94-103). -/
def storedId (p : GenParticle K) : ParticleID := match p.ident with
  | some (major, minor) => ⟨true, major, minor⟩
  | none => unsetId

/-- `particle_ids` and the number of generated identifiers. -/
structure Ids where
  known : List (Nat × ParticleID)
  generated : Nat

/-- `GetOrAssignId` (HepMC3Reader.cxx:108-117); `gen` are the results of `GenerateID`. -/
def getOrAssignId (gen : Nat → ParticleID) (ids : Ids) (at_ : Nat) (p : GenParticle K) : ParticleID × Ids :=
  match ids.known.find? (fun e => e.1 = at_) with
  | some e => (e.2, ids)
  | none =>
    let id := storedId p
    if id.set then (id, { ids with known := ids.known ++ [(at_, id)] })
    else (gen ids.generated, ⟨ids.known ++ [(at_, gen ids.generated)], ids.generated + 1⟩)

/-- The particle at a position. A position without a particle cannot occur in an event. -/
def GenEvent.particle (e : GenEvent K) (i : Nat) : Res (GenParticle K) := match e.particles[i]? with
  | some p => .ok p
  | none => .ub

/-- `find_primary` (HepMC3Reader.cxx:85-90): its position. -/
def findPrimary (e : GenEvent K) (v : GenVertex K) : Option Nat :=
  v.ins.find? fun i => match e.particles[i]? with
    | some p => p.status ≠ 20 ∧ p.status ≠ 22
    | none => false

/-- The target of a vertex (HepMC3Reader.cxx:147-150). -/
def findTarget (e : GenEvent K) (v : GenVertex K) : Option Nat :=
  v.ins.find? fun i => match e.particles[i]? with
    | some p => p.status = 20 ∨ p.status = 22
    | none => false

/-- `siren_momentum` (HepMC3Reader.cxx:53-55). -/
def sirenMomentum (p : Four K) : List K := [p.t, p.x, p.y, p.z]

/-- A default-constructed `InteractionRecord` (InteractionRecord.h:303-322). -/
def emptyRecord : Record K where
  signature := ⟨unknownType, unknownType, []⟩
  primaryId := unsetId
  primaryInitialPosition := [0, 0, 0]
  primaryInitialTime := 0
  primaryMass := 0
  primaryMomentum := [0, 0, 0, 0]
  primaryHelicity := 0
  targetId := unsetId
  targetMass := 0
  targetHelicity := 0
  interactionVertex := [0, 0, 0]
  interactionTime := 0
  secondaryIds := []
  secondaryMasses := []
  secondaryMomenta := []
  secondaryHelicities := []
  secondaryTimes := []
  interactionParameters := []

/-- What the reader needs from its surroundings: units, the mass HepMC3 computes for a particle without one, and the generated identifiers. -/
structure Env (K : Type) where
  units : Units K
  massOf : Four K → K
  gen : Nat → ParticleID

/-- The primary of a record (HepMC3Reader.cxx:129-143). -/
def readPrimary (env : Env K) (e : GenEvent K) (strict : Bool) (v : GenVertex K) (ids : Ids) (r : Record K) : Res (Record K × Ids) :=
  match findPrimary e v with
  | none => .ok (r, ids)
  | some i =>
    (e.particle i).bind fun p =>
    let (id, ids) := getOrAssignId env.gen ids i p
    (required strict p.helicity).bind fun h =>
    (required strict p.posX).bind fun x =>
    (required strict p.posY).bind fun y =>
    (required strict p.posZ).bind fun z =>
    (required strict p.initialTime).bind fun t =>
    .ok ({ r with
      primaryId := id
      signature := { r.signature with primary := p.pid }
      primaryMomentum := sirenMomentum p.momentum
      primaryMass := p.mass.getD (env.massOf p.momentum)
      primaryHelicity := h
      primaryInitialPosition := [x * env.units.cm, y * env.units.cm, z * env.units.cm]
      primaryInitialTime := t * env.units.second }, ids)

/-- The target of a record (HepMC3Reader.cxx:147-165). -/
def readTarget (env : Env K) (e : GenEvent K) (strict : Bool) (v : GenVertex K) (r : Record K) : Res (Record K) :=
  match findTarget e v with
  | some i =>
    (e.particle i).bind fun p =>
    (required strict p.helicity).bind fun h =>
    .ok { r with
      signature := { r.signature with target := p.pid }
      targetMass := p.mass.getD (env.massOf p.momentum)
      targetHelicity := h
      targetId := storedId p }
  | none => .ok { r with signature := { r.signature with target := match v.unknownTarget with
      | some f => if f ≠ 0 then unknownType else decayType
      | none => decayType } }

/-- The loop over the outgoing particles (HepMC3Reader.cxx:170-178). -/
def readOuts (env : Env K) (e : GenEvent K) (strict : Bool) : List Nat → Ids → Record K → Res (Record K × Ids)
  | [], ids, r => .ok (r, ids)
  | i :: rest, ids, r =>
    (e.particle i).bind fun p =>
    (required strict p.helicity).bind fun h =>
    let (id, ids) := getOrAssignId env.gen ids i p
    readOuts env e strict rest ids { r with
      signature := { r.signature with secondaries := r.signature.secondaries ++ [p.pid] }
      secondaryMomenta := r.secondaryMomenta ++ [sirenMomentum p.momentum]
      secondaryMasses := r.secondaryMasses ++ [p.mass.getD (env.massOf p.momentum)]
      secondaryHelicities := r.secondaryHelicities ++ [h]
      secondaryTimes := r.secondaryTimes ++ [p.time.getD 0 * env.units.second]
      secondaryIds := r.secondaryIds ++ [id] }

/-- The interaction parameters (HepMC3Reader.cxx:181-186). The attributes of a vertex come in the order of their names, so the entries of the map
that is built come in the same order. -/
def readParams (attrs : List (String × K)) : List (String × K) :=
  attrs.filterMap fun a =>
    let pre := "siren.param.".toList
    if pre.length < a.1.toList.length ∧ pre.isPrefixOf a.1.toList then some (String.ofList (a.1.toList.drop pre.length), a.2) else none

/-- `VertexToRecord` (HepMC3Reader.cxx:119-189). -/
def vertexToRecord (env : Env K) (e : GenEvent K) (strict : Bool) (v : GenVertex K) (ids : Ids) : Res (Record K × Ids) :=
  let r : Record K := { (emptyRecord : Record K) with
    interactionVertex := [v.position.x * env.units.cm, v.position.y * env.units.cm, v.position.z * env.units.cm]
    interactionTime := (v.position.t * env.units.cm) / env.units.c }
  (readPrimary env e strict v ids r).bind fun (r, ids) =>
  (readTarget env e strict v r).bind fun r =>
  (readOuts env e strict v.outs ids r).bind fun (r, ids) =>
  .ok ({ r with interactionParameters := readParams v.attrs }, ids)

/-- The identifier of the vertex that produced the primary, 0 if there is none (HepMC3Reader.cxx:213-215). -/
def parentVid (e : GenEvent K) (v : GenVertex K) : Int :=
  match findPrimary e v with
  | none => 0
  | some i => match e.particles[i]? with
    | some p => p.production
    | none => 0

/-- The loop over the vertices (HepMC3Reader.cxx:211-216): identifier, record and parent of each. -/
def readVertices (env : Env K) (e : GenEvent K) (strict : Bool) : List (GenVertex K) → Ids → Res (List (Int × Record K × Int))
  | [], _ => .ok []
  | v :: rest, ids =>
    (vertexToRecord env e strict v ids).bind fun (r, ids) =>
    (readVertices env e strict rest ids).bind fun infos => .ok ((v.id, r, parentVid e v) :: infos)

/-- The calls of `add_entry` so far: vertex and parent vertex (`datum_by_vid` holds the vertices among them). -/
abbrev Calls := List (Int × Option Int)

abbrev Calls.has (cs : Calls) (v : Int) : Bool := cs.any fun c => c.1 = v

/-- One vertex of one round (HepMC3Reader.cxx:226-236); `vids` are the keys of `record_by_vid`. -/
def placeStep (vids : List Int) (parent : Int → Int) (cs : Calls) (v : Int) : Calls :=
  if cs.has v then cs
  else if parent v = 0 ∨ !vids.contains (parent v) then cs ++ [(v, none)]
  else if cs.has (parent v) then cs ++ [(v, some (parent v))]
  else cs

/-- The `while` loop (HepMC3Reader.cxx:223-238) with a bound on the number of rounds. -/
def placeLoop (vids : List Int) (parent : Int → Int) : Nat → Calls → Calls
  | 0, cs => cs
  | fuel + 1, cs =>
    if cs.length < vids.length then
      let cs' := vids.foldl (placeStep vids parent) cs
      if cs.length < cs'.length then placeLoop vids parent fuel cs' else cs'
    else cs

/-- The vertices that are left over (HepMC3Reader.cxx:240-244). -/
def placeRest (vids : List Int) (cs : Calls) : Calls := vids.foldl (fun cs v => if cs.has v then cs else cs ++ [(v, none)]) cs

/-- The calls of `add_entry` (HepMC3Reader.cxx:220-244). -/
def placeAll (vids : List Int) (parent : Int → Int) : Calls := placeRest vids (placeLoop vids parent (vids.length + 1) [])

/-- `record_by_vid` and `parent_vid` at a vertex; the identifiers of the vertices of an event are distinct. -/
def infoOf (infos : List (Int × Record K × Int)) (v : Int) : Record K × Int :=
  match infos.find? (fun i => i.1 = v) with
  | some i => i.2
  | none => (emptyRecord, 0)

/-- `GenEventToTree` (HepMC3Reader.cxx:191-246). -/
def readEvent (env : Env K) (strict : Bool) (e : GenEvent K) : Res (ITree K) :=
  (readVertices env e strict e.vertices ⟨[], 0⟩).bind fun infos =>
  let calls := placeAll (infos.map Prod.fst) fun v => (infoOf infos v).2
  .ok {
    number := match e.bigNumber with
      | some n => n
      | none => (e.number % 2 ^ 64).toNat
    weights := e.weights
    nodes := calls.map fun c => ⟨(infoOf infos c.1).1, c.2.map fun q => calls.findIdx fun d => d.1 = q⟩ }

end read

end Siren.Io
