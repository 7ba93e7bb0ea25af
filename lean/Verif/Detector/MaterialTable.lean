import Verif.Base
import Mathlib.Algebra.Order.Field.Basic
import Mathlib.Data.Nat.Notation

set_option autoImplicit false

/-! # The table of materials

`projects/detector/private/MaterialModel.cxx`: decoding of nuclear codes, `AddMaterial` and the queries. Doubles are elements of an
ordered field; `none` in an `Option K` stands for a value that is not finite. Reading of files is not modelled. -/

namespace Siren.Detector

open Siren

/-! ### Decoding of codes -/

/-- What `snprintf(buf, n, "%d", code)` writes (MaterialModel.cxx:415). -/
def printInt (n : Int) : List Char := if n < 0 then '-' :: Nat.toDigits 10 n.natAbs else Nat.toDigits 10 n.natAbs

/-- The number a list of decimal digits stands for. -/
def digitsValue (l : List Char) : Nat := l.foldl (fun n c => 10 * n + (c.toNat - 48)) 0

/-- One conversion `%wd` of `sscanf` (MaterialModel.cxx:416): an optional sign and digits, at most `w` characters in all. Skipping of
white space is left out, there is none in a printed number. -/
def scanInt (w : Nat) (s : List Char) : Option (Int × List Char) :=
  if s.head? = some '-' then
    let ds := ((s.drop 1).take (w - 1)).takeWhile Char.isDigit
    if ds = [] then none else some (-(digitsValue ds : Int), (s.drop 1).drop ds.length)
  else
    let ds := (s.take w).takeWhile Char.isDigit
    if ds = [] then none else some ((digitsValue ds : Int), s.drop ds.length)

/-- The numbers of strange quarks, neutrons, protons and nucleons. -/
structure Content where
  strange : Int
  neutron : Int
  proton : Int
  nucleon : Int
  deriving DecidableEq

/-- `GetNucleonContent` (MaterialModel.cxx:410-423). -/
def getNucleonContent (code : Int) : Res Content :=
  match scanInt 2 (printInt code) with
  | none => .throws .runtimeError
  | some (_, s) =>
    match scanInt 1 s with
    | none => .throws .runtimeError
    | some (l, s) =>
      match scanInt 3 s with
      | none => .throws .runtimeError
      | some (z, s) =>
        match scanInt 3 s with
        | none => .throws .runtimeError
        | some (a, s) =>
          match scanInt 1 s with
          | none => .throws .runtimeError
          | some _ => .ok { strange := l, neutron := a - z - l, proton := z, nucleon := a }

/-- `ParticleType::PPlus` (ParticleTypes.def:32). -/
def pdgProton : Int := 2212
/-- `ParticleType::Neutron` (ParticleTypes.def:31). -/
def pdgNeutron : Int := 2112
/-- `ParticleType::Nucleon` (ParticleTypes.def:200). -/
def pdgNucleon : Int := 2000002112
/-- `ParticleType::EMinus` (ParticleTypes.def:16). -/
def pdgElectron : Int := 11

variable {K : Type} [Field K] [LinearOrder K]

/-- The table `atomic_masses` and the formula used for nuclei that are not in it (MaterialModel.cxx:48-58, AtomicMasses.cxx), with
Avogadro's number and the radiation length of a nucleus with given mass and charge numbers (375). -/
structure Masses (K : Type) where
  neutron : K
  hydrogen : K
  electron : K
  nucleus : Content → K
  avogadro : K
  x0 : Int → Int → K

/-- `MaterialModel::Component` (MaterialModel.h:36-43). -/
structure Component (K : Type) where
  type : Int
  content : Content
  molar : K
  isAtom : Bool

/-- The constructor of `Component` (MaterialModel.cxx:17-66). A code that cannot be decoded leaves the defaults of
MaterialModel.h:37-43. -/
def mkComponent (M : Masses K) (t : Int) : Component K :=
  if t = pdgProton then { type := t, content := ⟨0, 0, 1, 1⟩, molar := M.hydrogen, isAtom := false }
  else if t = pdgNeutron then { type := t, content := ⟨0, 1, 0, 1⟩, molar := M.neutron, isAtom := false }
  else if t = pdgNucleon then { type := t, content := ⟨0, 0, 0, 1⟩, molar := (M.neutron + M.hydrogen) / 2, isAtom := false }
  else if t = pdgElectron then { type := t, content := ⟨0, 0, 0, 0⟩, molar := M.electron, isAtom := false }
  else match getNucleonContent t with
    | .ok c => { type := t, content := c, molar := M.nucleus c, isAtom := true }
    | _ => { type := t, content := ⟨0, 0, 0, 0⟩, molar := 0, isAtom := true }

/-! ### The table -/

/-- `MaterialComponent` (MaterialModel.h:58-64). -/
structure MatComp (K : Type) where
  component : Component K
  mass : K
  particles : Option K

/-- Division of doubles: not finite when the divisor is zero. -/
def fdiv (x m : K) : Option K := if m = 0 then none else some (x / m)

/-- Addition of doubles that may be NaN. -/
def fadd (x y : Option K) : Option K := x.bind fun a => y.map fun b => a + b

/-- One turn of the sum over the components (MaterialModel.cxx:138-140): `fraction / molar_mass * count`. With a molar mass of zero
the count is zero too and the product is NaN. -/
def perAmu (M : Masses K) (count : Content → Int) (comp : List (Int × K)) : Option K :=
  comp.foldl (fun acc p => fadd acc ((fdiv p.2 (mkComponent M p.1).molar).map fun x => x * (count (mkComponent M p.1).content : K))) (some 0)

/-- An entry for a supplied component (MaterialModel.cxx:132-137). -/
def suppliedComp (M : Masses K) (p : Int × K) : MatComp K :=
  { component := mkComponent M p.1, mass := p.2, particles := fdiv (M.avogadro * p.2) (mkComponent M p.1).molar }

/-- An entry for a derived component (MaterialModel.cxx:144-149, 153-158, 162-172). -/
def derivedComp (M : Masses K) (t : Int) (n : K) : MatComp K :=
  { component := mkComponent M t, mass := n * (mkComponent M t).molar, particles := some (n * M.avogadro) }

/-- `if(x > 0)` for a double that may be NaN. -/
def ifPositive (x : Option K) (f : K → List (MatComp K)) : List (MatComp K) :=
  match x with
  | some n => if n > 0 then f n else []
  | none => []

/-- The list built by `AddMaterial` (MaterialModel.cxx:123-173). -/
def materialComponents (M : Masses K) (comp : List (Int × K)) : List (MatComp K) :=
  comp.map (suppliedComp M)
    ++ ifPositive (perAmu M (·.neutron) comp) (fun n => [derivedComp M pdgNeutron n])
    ++ ifPositive (perAmu M (·.nucleon) comp) (fun n => [derivedComp M pdgNucleon n])
    ++ ifPositive (perAmu M (·.proton) comp) (fun n => [derivedComp M pdgProton n, derivedComp M pdgElectron n])

/-- The state of `MaterialModel` (MaterialModel.h:80-88). -/
structure MatModel (K : Type) where
  names : List String
  ids : List (String × Nat)
  components : List (List (MatComp K))
  byId : Nat → Int → Option (MatComp K)
  radiation : List (Option K)

/-- The model without materials (MaterialModel.cxx:89). -/
def MatModel.empty : MatModel K := { names := [], ids := [], components := [], byId := fun _ _ => none, radiation := [] }

/-- `map::insert` for every component (MaterialModel.cxx:183-185): present keys stay. -/
def insertAll (id : Nat) (l : List (MatComp K)) (m : Nat → Int → Option (MatComp K)) : Nat → Int → Option (MatComp K) :=
  l.foldl (fun m c => fun k t => if k = id ∧ t = c.component.type ∧ m k t = none then some c else m k t) m

/-- `map::operator[]` and assignment for every component (MaterialModel.cxx:189-191). -/
def assignAll (id : Nat) (l : List (MatComp K)) (m : Nat → Int → Option (MatComp K)) : Nat → Int → Option (MatComp K) :=
  l.foldl (fun m c => fun k t => if k = id ∧ t = c.component.type then some c else m k t) m

/-- `ComputeMaterialRadiationLength` (MaterialModel.cxx:363-379). A nucleus without protons gives NaN. -/
def radiationLength (M : Masses K) (l : List (MatComp K)) : Option K :=
  let inv := l.foldl (fun acc c =>
    if c.component.isAtom then
      fadd acc (if c.component.content.proton = 0 then none else fdiv c.mass (M.x0 c.component.content.nucleon c.component.content.proton))
    else acc) (some 0)
  inv.bind fun x => fdiv 1 x

/-- `AddMaterial` (MaterialModel.cxx:111-193). The composition is a `std::map`, given here as the list of its entries in order. -/
def MatModel.add (M : Masses K) (st : MatModel K) (name : String) (comp : List (Int × K)) : MatModel K :=
  let comps := materialComponents M comp
  match st.ids.lookup name with
  | none =>
    let id := st.names.length
    { names := st.names ++ [name], ids := (name, id) :: st.ids, components := (st.components ++ [[]]).set id comps,
      byId := insertAll id comps st.byId, radiation := st.radiation ++ [radiationLength M comps] }
  | some id =>
    { st with components := st.components.set id comps, byId := assignAll id comps st.byId,
              radiation := st.radiation.set id (radiationLength M comps) }

/-- Any history of `AddMaterial`. -/
def MatModel.run (M : Masses K) (h : List (String × List (Int × K))) : MatModel K :=
  h.foldl (fun st a => st.add M a.1 a.2) MatModel.empty

/-- `HasMaterial(name)` (MaterialModel.cxx:310-312). -/
def MatModel.has (st : MatModel K) (name : String) : Bool := (st.ids.lookup name).isSome

/-- `GetMaterialId` (MaterialModel.cxx:306-308). -/
def MatModel.id (st : MatModel K) (name : String) : Res Nat :=
  match st.ids.lookup name with
  | some k => .ok k
  | none => .throws .outOfRange

/-- `GetMaterialName` (MaterialModel.cxx:302-304). -/
def MatModel.name (st : MatModel K) (id : Nat) : Res String :=
  match st.names[id]? with
  | some n => .ok n
  | none => .throws .outOfRange

/-- `GetMaterialTargets` (MaterialModel.cxx:287-295) and `GetMaterialConstituents` (425-432). -/
def MatModel.targets (st : MatModel K) (id : Nat) : Res (List Int) :=
  match st.components[id]? with
  | some l => .ok (l.map (·.component.type))
  | none => .ub

/-- `GetMaterialRadiationLength` (MaterialModel.cxx:297-299). -/
def MatModel.radiationLength (st : MatModel K) (id : Nat) : Res (Option K) :=
  match st.radiation[id]? with
  | some x => .ok x
  | none => .throws .outOfRange

/-- `GetTargetMassFraction` (MaterialModel.cxx:321-327; the version for lists, 337-348, applies it to each). -/
def MatModel.massFraction (st : MatModel K) (id : Nat) (t : Int) : K :=
  match st.byId id t with
  | some c => c.mass
  | none => 0

/-- `GetTargetParticleFraction` (MaterialModel.cxx:329-335; for lists 350-361). -/
def MatModel.particleFraction (st : MatModel K) (id : Nat) (t : Int) : Option K :=
  match st.byId id t with
  | some c => c.particles
  | none => some 0

/-- The loop of `GetTargetRadiationFraction` (MaterialModel.cxx:385-403): the collected fractions and their sum. -/
def radLoop (M : Masses K) (m : Int → Option (MatComp K)) : List Int → List (Option K) → Option K → Res (List (Option K) × Option K)
  | [], out, inv => .ok (out, inv)
  | t :: ts, out, inv =>
    if (m t).isSome then radLoop M m ts (out ++ [some 0]) inv
    else match m t with
      | none => .throws .outOfRange
      | some c =>
        if ¬ c.component.isAtom then radLoop M m ts (out ++ [some 0]) inv
        else
          let frac := if c.component.content.proton = 0 then none else fdiv c.mass (M.x0 c.component.content.nucleon c.component.content.proton)
          radLoop M m ts (out ++ [frac]) (fadd inv frac)

/-- `GetTargetRadiationFraction` (MaterialModel.cxx:381-408). -/
def MatModel.radiationFraction (M : Masses K) (st : MatModel K) (id : Nat) (ts : List Int) : Res (List (Option K)) :=
  (radLoop M (st.byId id) ts [] (some 0)).bind fun r => .ok (r.1.map fun x => x.bind fun a => r.2.bind fun s => fdiv a s)

end Siren.Detector
