import Verif.Base
import Mathlib.Data.Real.Basic
import Mathlib.Algebra.Order.Archimedean.Real.Basic

set_option autoImplicit false

/-! # GDML materials

The composition of materials from elements and isotopes when a GDML file is imported, after
`projects/detector/private/DetectorModel.cxx` and `projects/detector/private/gdml/GDMLMaterialParser.cxx`.

Doubles are real numbers. `std::map<std::string, double>` is a list of pairs in the order of the map; `std::map<int, double>` is a
list of pairs whose order does not matter, because `AddMaterial` is the only reader and each code occurs once. -/

namespace Siren.Gdml

open Siren

/-- The part of `GDMLMaterial` (GDMLParser.h:21-33) used for compositions. -/
structure Comp where
  Z : ℝ
  A : ℝ
  composition : List (String × ℝ)

/-- The three maps of `GDMLData` holding `GDMLMaterial`s. -/
structure MatData where
  isotopes : List (String × Comp)
  elements : List (String × Comp)
  materials : List (String × Comp)

/-- PDG code to mass fraction. -/
abbrev Fractions := List (Int × ℝ)

/-- `findComponent` (DetectorModel.cxx:652-660): isotopes, then elements, then materials. -/
def MatData.find (d : MatData) (name : String) : Option Comp :=
  match d.isotopes.lookup name with
  | some c => some c
  | none =>
    match d.elements.lookup name with
    | some c => some c
    | none => d.materials.lookup name

/-- Conversion of a double to `int`: truncation, undefined outside of the range of `int`. -/
noncomputable def toInt (x : ℝ) : Res Int :=
  let t := if 0 ≤ x then ⌊x⌋ else -⌊-x⌋
  if -2147483648 ≤ t ∧ t ≤ 2147483647 then .ok t else .ub

/-- `std::round`: halves away from zero. -/
noncomputable def roundAway (x : ℝ) : ℝ := if 0 ≤ x then (⌊x + 1 / 2⌋ : ℤ) else -((⌊-x + 1 / 2⌋ : ℤ) : ℝ)

/-- The code of the nucleus with the numbers of a component without composition (DetectorModel.cxx:683-688, 715-720): `none` if one
of the numbers is not positive. Signed overflow is undefined. -/
noncomputable def pdgOf (c : Comp) : Res (Option Int) :=
  (toInt c.Z).bind fun Z =>
  (toInt (roundAway c.A)).bind fun A =>
  if Z > 0 ∧ A > 0 then
    if 1000000000 + Z * 10000 + A * 10 ≤ 2147483647 then .ok (some (1000000000 + Z * 10000 + A * 10)) else .ub
  else .ok none

/-- `result[key] += value` (DetectorModel.cxx:678, 687, 708). -/
def bump : Fractions → Int → ℝ → Fractions
  | [], k, v => [(k, v)]
  | (k', v') :: m, k, v => if k' = k then (k', v' + v) :: m else (k', v') :: bump m k v

/-- The inner loops adding one result to another (DetectorModel.cxx:677-679, 707-709). -/
def bumpAll (acc sub : Fractions) : Fractions := sub.foldl (fun acc p => bump acc p.1 p.2) acc

/-- The loop over a composition (DetectorModel.cxx:675-680; with `w = 1` also 705-710). `f` is `resolve_component`; the set
`resolve_visited` is threaded through. -/
def resolveList (f : String → ℝ → List String → Option (Res (Fractions × List String))) :
    List (String × ℝ) → ℝ → Fractions → List String → Option (Res (Fractions × List String))
  | [], _, acc, visited => some (.ok (acc, visited))
  | (name, x) :: rest, w, acc, visited =>
    match f name (w * x) visited with
    | some (.ok (sub, visited)) => resolveList f rest w (bumpAll acc sub) visited
    | r => r

/-- The result for a component without composition (DetectorModel.cxx:682-689). -/
noncomputable def resolveSimple (c : Comp) (w : ℝ) (visited : List String) : Res (Fractions × List String) :=
  (pdgOf c).bind fun code =>
    match code with
    | some k => .ok ([(k, w)], visited)
    | none => .ok ([], visited)

/-- `resolve_component` (DetectorModel.cxx:662-692); `none` when the fuel does not suffice. -/
noncomputable def resolve (d : MatData) : Nat → String → ℝ → List String → Option (Res (Fractions × List String))
  | 0, _, _, _ => none
  | fuel + 1, name, w, visited =>
    match d.find name with
    | none => some (.throws .runtimeError)
    | some c =>
      if name ∈ visited then some (.throws .runtimeError)
      else
        match (if c.composition ≠ [] then resolveList (resolve d fuel) c.composition w [] (name :: visited)
          else some (resolveSimple c w (name :: visited))) with
        | some (.ok (m, visited)) => some (.ok (m, visited.filter (fun n => decide (n ≠ name))))
        | r => r

/-- The fractions of one material (DetectorModel.cxx:702-710, 715-720). -/
noncomputable def materialFractions (d : MatData) (fuel : Nat) (c : Comp) (visited : List String) :
    Option (Res (Fractions × List String)) :=
  if c.composition ≠ [] then resolveList (resolve d fuel) c.composition 1 [] visited
  else some (resolveSimple c 1 visited)

/-- The loop over the materials (DetectorModel.cxx:697-723): the calls of `AddMaterial`, in order. Materials without any nucleus are
passed over. -/
noncomputable def loadMaterials (d : MatData) (fuel : Nat) :
    List (String × Comp) → List String → Option (Res (List (String × Fractions)))
  | [], _ => some (.ok [])
  | (name, c) :: rest, visited =>
    match materialFractions d fuel c visited with
    | some (.ok (m, visited)) =>
      match loadMaterials d fuel rest visited with
      | some (.ok out) => some (.ok (if m = [] then out else (name, m) :: out))
      | r => r
    | some (.throws e) => some (.throws e)
    | some .ub => some .ub
    | none => none

/-- Assignment to an entry of the composition map (GDMLMaterialParser.cxx:93, 176, 235, 239): a later value for a name replaces an
earlier one. The order of the map is not kept; nothing depends on it. -/
def assign : List (String × ℝ) → String → ℝ → List (String × ℝ)
  | [], k, v => [(k, v)]
  | (k', v') :: m, k, v => if k' = k then (k', v) :: m else (k', v') :: assign m k v

/-- The `fraction` children (GDMLMaterialParser.cxx:88-95, 171-178), with the names resolved. -/
def fractionEntries (entries : List (String × ℝ)) : List (String × ℝ) :=
  entries.foldl (fun m e => assign m e.1 e.2) []

/-- The `composite` children: atom counts become mass fractions (GDMLMaterialParser.cxx:224-241). `massOf` is `lookupA`. -/
noncomputable def compositeEntries (massOf : String → ℝ) (start : List (String × ℝ)) (entries : List (String × ℝ)) :
    List (String × ℝ) :=
  if entries = [] then start
  else
    let total := (entries.map (fun e => e.2 * massOf e.1)).sum
    if 0 < total then entries.foldl (fun m e => assign m e.1 (e.2 * massOf e.1 / total)) start
    else entries.foldl (fun m e => assign m e.1 e.2) start

end Siren.Gdml
