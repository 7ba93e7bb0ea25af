import Verif.Base
import Verif.Records.Compare
import Mathlib.Data.Finset.Sort

set_option autoImplicit false

/-!
# Which final states an interaction offers

Model of the functions with which every cross section and decay lists its final states:
`GetPossibleSignatures`, `GetPossibleSignaturesFromParents` (`GetPossibleSignaturesFromParent` for decays),
`GetPossiblePrimaries`, `GetPossibleTargets` and `GetPossibleTargetsFromPrimary`.

A particle type is the integer of the enumeration in
`projects/dataclasses/public/SIREN/dataclasses/ParticleTypes.def` (a PDG code).  A `std::set<ParticleType>` is a `Finset Int`
and is iterated in increasing order.
-/

namespace Siren.Signatures

open Records (Signature)

/-! ### Particle codes: `projects/dataclasses/public/SIREN/dataclasses/ParticleTypes.def` -/

abbrev nuE : Int := 12
abbrev nuEBar : Int := -12
abbrev nuMu : Int := 14
abbrev nuMuBar : Int := -14
abbrev nuTau : Int := 16
abbrev nuTauBar : Int := -16
abbrev eMinus : Int := 11
abbrev ePlus : Int := -11
abbrev muMinus : Int := 13
abbrev muPlus : Int := -13
abbrev tauMinus : Int := 15
abbrev tauPlus : Int := -15
abbrev gamma : Int := 22
abbrev wPlus : Int := 24
abbrev wMinus : Int := -24
abbrev z0 : Int := 23
abbrev down : Int := 1
abbrev up : Int := 2
abbrev strange : Int := 3
abbrev charm : Int := 4
abbrev bottom : Int := 5
abbrev k0 : Int := 311
abbrev k0Bar : Int := -311
abbrev kPlus : Int := 321
abbrev kMinus : Int := -321
abbrev d0 : Int := 421
abbrev d0Bar : Int := -421
abbrev dPlus : Int := 411
abbrev dMinus : Int := -411
abbrev dsPlus : Int := 431
abbrev dsMinus : Int := -431
abbrev proton : Int := 2212
abbrev nucleon : Int := 2000002112
abbrev argon40 : Int := 1000180400
abbrev potassium40 : Int := 1000190400
abbrev chlorine39 : Int := 1000170390
abbrev nuLight : Int := 5910
abbrev nuLightBar : Int := -5910
abbrev n4 : Int := 5914
abbrev n4Bar : Int := -5914
abbrev hadrons : Int := -2000001006
abbrev decayTarget : Int := -2000001007

/-- `isNeutrino` (`projects/dataclasses/private/Particle.cxx:66-72`). -/
def isNeutrino (p : Int) : Bool :=
  p = nuE ∨ p = nuEBar ∨ p = nuMu ∨ p = nuMuBar ∨ p = nuTau ∨ p = nuTauBar

/-- The charged lepton of a neutrino: the chain of comparisons in `DISFromSpline::InitializeSignatures`
(`projects/interactions/private/DISFromSpline.cxx:238-255`) and `charm_xsec::ChargedLeptonProduct`
(`projects/interactions/public/SIREN/interactions/CharmCrossSectionHelpers.h:47-63`). -/
def chargedLepton (p : Int) : Res Int :=
  if p = nuE then .ok eMinus
  else if p = nuEBar then .ok ePlus
  else if p = nuMu then .ok muMinus
  else if p = nuMuBar then .ok muPlus
  else if p = nuTau then .ok tauMinus
  else if p = nuTauBar then .ok tauPlus
  else .throws .runtimeError

/-! ### Cross sections that keep tables of signatures -/

/-- The members `signatures_` (a vector) and `signatures_by_parent_types_` (a map from primary and target to a vector; a
missing key and an empty vector are indistinguishable to every reader). -/
structure Tables where
  all : List Signature := []
  byParents : Int → Int → List Signature := fun _ _ => []

/-- `signatures_.push_back(signature); signatures_by_parent_types_[key].push_back(signature);`
(`DISFromSpline.cxx:270-274`, `HNLDISFromSpline.cxx:243-247`, `HNLDipoleDISFromSpline.cxx:245-249`,
`QuarkDISFromSpline.cxx:344-348`, `PythiaDISCrossSection.cxx:277-280`), with `key` the pair of the loop variables. -/
def Tables.push (T : Tables) (primary target : Int) (s : Signature) : Tables where
  all := T.all ++ [s]
  byParents := fun p t => if p = primary ∧ t = target then T.byParents p t ++ [s] else T.byParents p t

/-- The loops shared by the five `InitializeSignatures`: `signatures_.clear()`, for every primary work out the outgoing
particles (`finals`, which may throw), for every list of outgoing particles and every target push the signature.
`signatures_by_parent_types_` is not cleared (`DISFromSpline.cxx:228-277`, `HNLDISFromSpline.cxx:219-250`,
`HNLDipoleDISFromSpline.cxx:221-252`, `QuarkDISFromSpline.cxx:310-352`, `PythiaDISCrossSection.cxx:224-285`). -/
def Tables.initialize (finals : Int → Res (List (List Int))) (primaries targets : Finset Int) (T : Tables) : Res Tables :=
  (primaries.sort (· ≤ ·)).foldlM (fun T primary => do
    let outgoing ← finals primary
    return outgoing.foldl (fun T secondaries =>
      (targets.sort (· ≤ ·)).foldl (fun T target => T.push primary target ⟨primary, target, secondaries⟩) T) T)
    { T with all := [] }

/-- Outgoing particles of `DISFromSpline` (`DISFromSpline.cxx:234-267`); `kind` is `interaction_type_`: 1 charged current,
2 neutral current, 3 scattering on electrons with only hadrons in the final state. -/
def disFinals (kind : Int) (primary : Int) : Res (List (List Int)) :=
  if !isNeutrino primary then .throws .runtimeError
  else do
    let lepton ← chargedLepton primary
    if kind = 1 then return [[lepton, hadrons]]
    else if kind = 2 then return [[primary, hadrons]]
    else if kind = 3 then return [[hadrons, hadrons]]
    else .throws .runtimeError

/-- Outgoing particles of `HNLDISFromSpline` and `HNLDipoleDISFromSpline` (`HNLDISFromSpline.cxx:225-241`,
`HNLDipoleDISFromSpline.cxx:227-243`). -/
def hnlFinals (primary : Int) : Res (List (List Int)) :=
  if !isNeutrino primary then .throws .runtimeError
  else .ok [[if 0 < primary then n4 else n4Bar, hadrons]]

/-- `DTypesForPrimary` (`QuarkDISFromSpline.cxx:292-308`), in the order in which a `std::set` iterates. -/
def charmedMesons (primary : Int) : Res (List Int) :=
  if primary = nuE ∨ primary = nuMu ∨ primary = nuTau then .ok [dPlus, d0, dsPlus]
  else if primary = nuEBar ∨ primary = nuMuBar ∨ primary = nuTauBar then .ok [dsMinus, d0Bar, dMinus]
  else .throws .runtimeError

/-- Outgoing particles of `QuarkDISFromSpline` (`QuarkDISFromSpline.cxx:315-340`). -/
def quarkFinals (kind : Int) (primary : Int) : Res (List (List Int)) :=
  if !isNeutrino primary then .throws .runtimeError
  else do
    let lepton ← chargedLepton primary
    let lead ← (if kind = 1 then .ok lepton else if kind = 2 then .ok primary else .throws .runtimeError : Res Int)
    let mesons ← charmedMesons primary
    return mesons.map fun meson => [lead, hadrons, meson]

/-- Outgoing particles of `PythiaDISCrossSection` (`PythiaDISCrossSection.cxx:238-275`; that the class rejects everything
except the charged current, lines 228-232, is in `pythiaInitialize`). -/
def pythiaFinals (primary : Int) : Res (List (List Int)) :=
  if !isNeutrino primary then .throws .runtimeError
  else do
    let lepton ← chargedLepton primary
    let mesons := if primary = nuEBar ∨ primary = nuMuBar ∨ primary = nuTauBar then [dsMinus, d0Bar, dMinus]
      else [dPlus, d0, dsPlus]
    return mesons.map fun meson => [lepton, hadrons, meson]

/-- `PythiaDISCrossSection::InitializeSignatures` (`PythiaDISCrossSection.cxx:224-285`). -/
def pythiaInitialize (kind : Int) (primaries targets : Finset Int) (T : Tables) : Res Tables :=
  if kind ≠ 1 then .throws .runtimeError else Tables.initialize pythiaFinals primaries targets T

/-- What a caller sees of a cross section: the two lists of types, the targets of one primary, all signatures and the
signatures of one pair of parents. -/
structure Interface where
  primaries : List Int
  targets : List Int
  targetsFrom : Int → List Int
  all : List Signature
  fromParents : Int → Int → List Signature

/-- The getters of the five classes: `GetPossiblePrimaries`, `GetPossibleTargets` and `GetPossibleTargetsFromPrimary` (which
ignores its argument) copy the sets, `GetPossibleSignatures` copies the vector, `GetPossibleSignaturesFromParents` looks the
pair up in the map and returns an empty vector if it is missing (`DISFromSpline.cxx:594-617`, `HNLDISFromSpline.cxx:575-598`,
`HNLDipoleDISFromSpline.cxx:574-597`, `QuarkDISFromSpline.cxx:871-894`, `PythiaDISCrossSection.cxx:435-458`). -/
def Tables.interface (primaries targets : Finset Int) (T : Tables) : Interface where
  primaries := primaries.sort (· ≤ ·)
  targets := targets.sort (· ≤ ·)
  targetsFrom := fun _ => targets.sort (· ≤ ·)
  all := T.all
  fromParents := T.byParents

/-- A newly constructed `DISFromSpline` (`DISFromSpline.cxx:52-98`: every constructor stores the sets and calls
`InitializeSignatures`). -/
def disCrossSection (kind : Int) (primaries targets : Finset Int) : Res Interface := do
  let T ← Tables.initialize (disFinals kind) primaries targets {}
  return T.interface primaries targets

/-- A newly constructed `HNLDISFromSpline` or `HNLDipoleDISFromSpline`. -/
def hnlCrossSection (primaries targets : Finset Int) : Res Interface := do
  let T ← Tables.initialize hnlFinals primaries targets {}
  return T.interface primaries targets

/-- A newly constructed `QuarkDISFromSpline`. -/
def quarkCrossSection (kind : Int) (primaries targets : Finset Int) : Res Interface := do
  let T ← Tables.initialize (quarkFinals kind) primaries targets {}
  return T.interface primaries targets

/-- A newly constructed `PythiaDISCrossSection`. -/
def pythiaCrossSection (kind : Int) (primaries targets : Finset Int) : Res Interface := do
  let T ← pythiaInitialize kind primaries targets {}
  return T.interface primaries targets

/-- Loading an archive into a `DISFromSpline` that was already constructed: `load` overwrites the sets and calls
`InitializeSignatures` on the tables left by the constructor
(`projects/interactions/public/SIREN/interactions/DISFromSpline.h:133-153`). -/
def disReload (kind : Int) (primaries targets : Finset Int) : Res Interface := do
  let T ← Tables.initialize (disFinals kind) primaries targets {}
  let T' ← Tables.initialize (disFinals kind) primaries targets T
  return T'.interface primaries targets

/-! ### Cross sections that compute the lists on demand -/

/-- `ElasticScattering` (`projects/interactions/private/ElasticScattering.cxx:218-271`). -/
def elasticCrossSection (primaries : Finset Int) : Interface where
  primaries := primaries.sort (· ≤ ·)
  targets := [eMinus]
  targetsFrom := fun p => if p ∉ primaries then [] else [eMinus]
  all := (primaries.sort (· ≤ ·)).flatMap fun primary => [eMinus].map fun target => ⟨primary, target, [primary, target]⟩
  fromParents := fun p t => if p ∈ primaries ∧ t ∈ [eMinus] then [⟨p, t, [p, t]⟩] else []

/-- The heavy neutral lepton that `HNLDipoleFromTable` writes for a primary
(`projects/interactions/private/HNLDipoleFromTable.cxx:505-510`, `528-533`). -/
def dipoleProduct (primary : Int) : Res Int :=
  if primary = nuE ∨ primary = nuMu ∨ primary = nuTau then .ok n4
  else if primary = nuEBar ∨ primary = nuMuBar ∨ primary = nuTauBar then .ok n4Bar
  else .throws .runtimeError

/-- `HNLDipoleFromTable::GetPossibleTargets`: the types that occur as keys of both maps of tables
(`HNLDipoleFromTable.cxx:474-485`). -/
def dipoleTargets (differential total : Finset Int) : List Int :=
  (differential ∩ total).sort (· ≤ ·)

/-- `HNLDipoleFromTable::GetPossibleSignatures` (`HNLDipoleFromTable.cxx:497-518`). -/
def dipoleAll (primaries differential total : Finset Int) : Res (List Signature) :=
  (primaries.sort (· ≤ ·)).foldlM (fun acc primary => do
    let product ← dipoleProduct primary
    return (dipoleTargets differential total).foldl (fun acc target => acc ++ [⟨primary, target, [product, target]⟩]) acc) []

/-- `HNLDipoleFromTable::GetPossibleSignaturesFromParents` (`HNLDipoleFromTable.cxx:520-540`). -/
def dipoleFromParents (primaries differential total : Finset Int) (p t : Int) : Res (List Signature) :=
  if p ∈ primaries ∧ t ∈ dipoleTargets differential total then do
    let product ← dipoleProduct p
    return [⟨p, t, [product, t]⟩]
  else .ok []

/-- `DummyCrossSection` (`projects/interactions/private/DummyCrossSection.cxx:144-191`). -/
def dummyCrossSection : Interface where
  primaries := [nuE, nuEBar, nuMu, nuMuBar, nuTau, nuTauBar]
  targets := [nucleon]
  targetsFrom := fun _ => [nucleon]
  all := [nucleon].flatMap fun target =>
    [nuE, nuEBar, nuMu, nuMuBar, nuTau, nuTauBar].map fun primary => ⟨primary, target, [primary, target]⟩
  fromParents := fun p _ => ([nucleon].flatMap fun target =>
    [nuE, nuEBar, nuMu, nuMuBar, nuTau, nuTauBar].map fun primary =>
      (⟨primary, target, [primary, target]⟩ : Signature)).filter fun s => s.primary = p

/-- `DMesonELoss` (`projects/interactions/private/DMesonELoss.cxx:51-87`). -/
def dmesonCrossSection (primaries targets : Finset Int) : Interface where
  primaries := primaries.sort (· ≤ ·)
  targets := targets.sort (· ≤ ·)
  targetsFrom := fun _ => targets.sort (· ≤ ·)
  all := (primaries.sort (· ≤ ·)).flatMap fun primary => [⟨primary, proton, [primary, hadrons]⟩]
  fromParents := fun p t => [⟨p, t, [p, hadrons]⟩]

/-- The four switches of `MarleyCrossSection` set from its reaction files
(`projects/interactions/private/MarleyCrossSection.cxx:127-148`). -/
structure Marley where
  nuCC : Bool
  nubarCC : Bool
  nc : Bool
  elastic : Bool

/-- One round of the two loops that flip the sign of the neutrino, push, flip back and go to the next flavour
(`MarleyCrossSection.cxx:397-416`, `426-445`). -/
def marleyPairs (target : Int) (i : Nat) : List Signature :=
  let nu : Int := 12 + 2 * (i : Int)
  [⟨nu, target, [nu, target]⟩, ⟨-nu, target, [-nu, target]⟩]

/-- `MarleyCrossSection::GetPossibleSignatures` (`MarleyCrossSection.cxx:354-450`). -/
def Marley.all (c : Marley) : List Signature :=
  (if c.nuCC then (List.range 3).map fun i =>
    (⟨12 + 2 * (i : Int), argon40, [11 + 2 * (i : Int), potassium40]⟩ : Signature) else []) ++
  (if c.nubarCC then (List.range 3).map fun i =>
    (⟨-12 - 2 * (i : Int), argon40, [-11 - 2 * (i : Int), chlorine39]⟩ : Signature) else []) ++
  (if c.elastic then (List.range 3).flatMap (marleyPairs eMinus) else []) ++
  (if c.nc then (List.range 3).flatMap (marleyPairs argon40) else [])

/-- `MarleyCrossSection::GetPossiblePrimaries` (`MarleyCrossSection.cxx:341-352`). -/
def Marley.primaries (c : Marley) : Res (List Int) :=
  if c.nuCC ∧ ¬c.nubarCC ∧ ¬c.nc ∧ ¬c.elastic then .ok [nuE, nuMu, nuTau]
  else if c.nubarCC ∧ ¬c.nuCC ∧ ¬c.nc ∧ ¬c.elastic then .ok [nuEBar, nuMuBar, nuTauBar]
  else if c.nuCC ∨ c.nubarCC ∨ c.nc ∨ c.elastic then .ok [nuE, nuEBar, nuMu, nuMuBar, nuTau, nuTauBar]
  else .throws .runtimeError

/-- `MarleyCrossSection` (`MarleyCrossSection.cxx:329-460`); `GetPossibleSignaturesFromParents` filters the full list
(lines 452-460). -/
def marleyCrossSection (c : Marley) : Res Interface := do
  let primaries ← c.primaries
  return {
    primaries := primaries
    targets := [argon40]
    targetsFrom := fun p => if isNeutrino p then [argon40] else []
    all := c.all
    fromParents := fun p t => c.all.filter fun s => s.primary = p ∧ s.target = t }

/-! ### Decays -/

/-- A decay as a caller sees it: `GetPossibleSignatures` and `GetPossibleSignaturesFromParent`. -/
structure DecayInterface where
  all : Res (List Signature)
  fromParent : Int → Res (List Signature)

/-- The loop over `primary_types` shared by the `GetPossibleSignatures` of all decays (`HNLDipoleDecay.cxx:74-81`,
`HNLDecay.cxx:624-631`, `ElectroweakDecay.cxx:251-258`, `CharmMesonDecay.cxx:168-175`, `CharmMesonDecay3Body.cxx:119-126`).
`GetPossibleSignaturesFromParent` does not look at `primary_types`. -/
def decayOf (primaries : Finset Int) (finals : Int → Res (List (List Int))) : DecayInterface :=
  let fromParent := fun p => do
    let outgoing ← finals p
    return outgoing.map fun secondaries => (⟨p, decayTarget, secondaries⟩ : Signature)
  { all := (primaries.sort (· ≤ ·)).foldlM (fun acc p => do
      let new ← fromParent p
      return acc ++ new) []
    fromParent := fromParent }

/-- `HNLDipoleDecay::GetPossibleSignaturesFromParent` (`HNLDipoleDecay.cxx:83-103`). -/
def dipoleDecayFinals (primary : Int) : Res (List (List Int)) :=
  if primary = n4 then .ok ([nuE, nuMu, nuTau].map fun nu => [gamma, nu])
  else if primary = n4Bar then .ok ([nuEBar, nuMuBar, nuTauBar].map fun nu => [gamma, nu])
  else .ok []

/-- `Leptons`, `AntiLeptons`, `Nus`, `AntiNus`, quark lists of `ElectroweakDecay`
(`projects/interactions/public/SIREN/interactions/ElectroweakDecay.h:47-68`). -/
def leptons : List Int := [eMinus, muMinus, tauMinus]
def antiLeptons : List Int := [ePlus, muPlus, tauPlus]
def nus : List Int := [nuE, nuMu, nuTau]
def antiNus : List Int := [nuEBar, nuMuBar, nuTauBar]
def upQuarks : List Int := [up, charm]
def upAntiQuarks : List Int := [-up, -charm]
def downQuarks : List Int := [down, strange, bottom]
def downAntiQuarks : List Int := [-down, -strange, -bottom]

/-- Loop over two vectors with one index. -/
def pairs (a b : List Int) : List (List Int) := (a.zip b).map fun x => [x.1, x.2]

/-- Nested loops over two vectors. -/
def products (a b : List Int) : List (List Int) := a.flatMap fun x => b.map fun y => [x, y]

/-- `ElectroweakDecay::GetPossibleSignaturesFromParent` (`ElectroweakDecay.cxx:260-324`). -/
def electroweakFinals (primary : Int) : Res (List (List Int)) :=
  if primary = wPlus then .ok (pairs antiLeptons nus ++ products upQuarks downAntiQuarks)
  else if primary = wMinus then .ok (pairs leptons antiNus ++ products upAntiQuarks downQuarks)
  else if primary = z0 then
    .ok (pairs nus antiNus ++ pairs leptons antiLeptons ++ pairs upQuarks upAntiQuarks ++ pairs downQuarks downAntiQuarks)
  else .ok []

/-- Meson lists of `HNLDecay` (`projects/interactions/public/SIREN/interactions/HNLDecay.h:53-71`). -/
def minusChargedMesons : List Int := [-211, -321, -213, -323, -411, -431]
def plusChargedMesons : List Int := [211, 321, 213, 323, 411, 431]
def neutralMesons : List Int := [111, 221, 113, 223, 331, 313, 333]

/-- The two-body part of `HNLDecay::GetPossibleSignaturesFromParent` (`HNLDecay.cxx:641-694`). -/
def hnlTwoBody (primary : Int) : List (List Int) :=
  if primary = n4 then
    products [nuE, nuMu, nuTau] (neutralMesons ++ [hadrons, z0]) ++
    products [eMinus, muMinus, tauMinus] (plusChargedMesons ++ [hadrons, wPlus])
  else if primary = n4Bar then
    products [nuEBar, nuMuBar, nuTauBar] (neutralMesons ++ [hadrons, z0]) ++
    products [ePlus, muPlus, tauPlus] (minusChargedMesons ++ [hadrons, wMinus])
  else []

/-- The three-body part of `HNLDecay::GetPossibleSignaturesFromParent` (`HNLDecay.cxx:696-728`).  The slot of the neutrino
keeps the value written for the three-neutrino mode unless the primary is one of the two heavy neutral leptons. -/
def hnlThreeBody (primary : Int) : List (List Int) :=
  let nu := if primary = n4 then nuLight else if primary = n4Bar then nuLightBar else nuLight
  [[nuLight, nuLightBar, nuLight]] ++
  [[nu, eMinus, ePlus], [nu, muMinus, muPlus], [nu, tauMinus, tauPlus]] ++
  [eMinus, muMinus, tauMinus].flatMap fun particle =>
    (if particle ≠ eMinus then [[nu, particle, ePlus]] else []) ++
    (if particle ≠ muMinus then [[nu, particle, muPlus]] else []) ++
    (if particle ≠ tauMinus then [[nu, particle, tauPlus]] else [])

/-- `HNLDecay::GetPossibleSignaturesFromParent` (`HNLDecay.cxx:633-731`). -/
def hnlDecayFinals (primary : Int) : Res (List (List Int)) := .ok (hnlTwoBody primary ++ hnlThreeBody primary)

/-- `CharmMesonDecay::GetPossibleSignaturesFromParent` (`CharmMesonDecay.cxx:177-268`). -/
def charmFinals (primary : Int) : Res (List (List Int)) :=
  if primary = dPlus then .ok [[k0Bar, ePlus, nuE], [k0Bar, muPlus, nuMu], [hadrons]]
  else if primary = dMinus then .ok [[k0, eMinus, nuEBar], [k0, muMinus, nuMuBar], [hadrons]]
  else if primary = d0 then .ok [[kMinus, ePlus, nuE], [kMinus, muPlus, nuMu], [hadrons]]
  else if primary = d0Bar then .ok [[kPlus, eMinus, nuEBar], [kPlus, muMinus, nuMuBar], [hadrons]]
  else if primary = dsPlus then .ok [[hadrons, ePlus, nuE], [hadrons, muPlus, nuMu], [hadrons]]
  else if primary = dsMinus then .ok [[hadrons, eMinus, nuEBar], [hadrons, muMinus, nuMuBar], [hadrons]]
  else .ok []

/-- `CharmMesonDecay3Body::GetPossibleSignaturesFromParent` (`CharmMesonDecay3Body.cxx:128-170`). -/
def charm3Finals (primary : Int) : Res (List (List Int)) :=
  if primary = dPlus then .ok [[k0Bar, ePlus, nuE], [k0Bar, muPlus, nuMu], [hadrons]]
  else if primary = d0 then .ok [[kMinus, ePlus, nuE], [kMinus, muPlus, nuMu], [hadrons]]
  else .throws .runtimeError

/-- `CharmMesonDecay` with its fixed `primary_types` (`CharmMesonDecay.h:37`). -/
def charmDecay : DecayInterface := decayOf {d0, dPlus, dsPlus, d0Bar, dMinus, dsMinus} charmFinals

/-- `CharmMesonDecay(primary)`: the constructor with a primary has an empty body (`CharmMesonDecay.cxx:30`). -/
def charmDecayFor (_primary : Int) : DecayInterface := charmDecay

/-- `CharmMesonDecay3Body` with its fixed `primary_types` (`CharmMesonDecay3Body.h:43`). -/
def charm3Decay : DecayInterface := decayOf {d0, dPlus} charm3Finals

/-- `HNLDipoleDecay` with the `primary_types` given to its constructor. -/
def dipoleDecay (primaries : Finset Int) : DecayInterface := decayOf primaries dipoleDecayFinals

/-- `HNLDecay` with the `primary_types` given to its constructor. -/
def hnlDecay (primaries : Finset Int) : DecayInterface := decayOf primaries hnlDecayFinals

/-- `ElectroweakDecay` with the `primary_types` given to its constructor. -/
def electroweakDecay (primaries : Finset Int) : DecayInterface := decayOf primaries electroweakFinals

end Siren.Signatures
