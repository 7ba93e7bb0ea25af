import Verif.Interactions.Signatures
import Verif.Injection.ChannelModel
import Mathlib.Analysis.SpecialFunctions.Trigonometric.Basic
import Mathlib.Data.ENNReal.Real

set_option autoImplicit false

/-!
# Widths, cross sections and decay lengths summed over final states

Models the functions that give the width or cross section of one final state and the functions that sum them over the listed
final states.  Numbers are real; `Constants::pi` is `Real.pi`.
-/

namespace Siren.Signatures

open Records (Signature)

noncomputable section

/-! ### Constants: `projects/utilities/public/SIREN/utilities/Constants.h` -/

def hbar : ℝ := 6.58211957e-25
def gweak : ℝ := 0.64
def thetaWeinberg : ℝ := 0.2312
def wMass : ℝ := 80.379
def zMass : ℝ := 91.1876

/-- A sum over listed signatures as written in all classes: `total = 0; for(signature) total += f(signature)`
(`CrossSection.cxx:20-29`, `CharmMesonDecay.cxx:46-57`, `ElectroweakDecay.cxx:92-107`, `HNLDecay.cxx:251-264`). -/
def sumOver (signatures : List Signature) (f : Signature → Res ℝ) : Res ℝ :=
  signatures.foldlM (fun total s => do
    let x ← f s
    return total + x) 0

/-! ### Charmed mesons -/

/-- `CharmMesonDecay::TotalDecayWidth(record)` (`projects/interactions/private/CharmMesonDecay.cxx:60-165`): lifetime and
branching ratio from the primary and the set of secondaries.  The sentinel test at the end is the `none` case. -/
def charmWidth (s : Signature) : Res ℝ :=
  let secondaries := s.secondaries.toFinset
  let result (tau : ℝ) (branching : Option ℝ) : Res ℝ :=
    match branching with
    | some b => .ok (b * hbar / tau)
    | none => .throws .runtimeError
  if s.primary = dPlus then result (1040 * 1e-15)
    (if secondaries = {k0Bar, ePlus, nuE} then some 0.1407
     else if secondaries = {k0Bar, muPlus, nuMu} then some 0.1407
     else if secondaries = {hadrons} then some (1 - 2 * 0.1407) else none)
  else if s.primary = dMinus then result (1040 * 1e-15)
    (if secondaries = {k0, eMinus, nuEBar} then some 0.1407
     else if secondaries = {k0, muMinus, nuMuBar} then some 0.1407
     else if secondaries = {hadrons} then some (1 - 2 * 0.1407) else none)
  else if s.primary = d0 then result (410.1 * 1e-15)
    (if secondaries = {kMinus, ePlus, nuE} then some 0.0558
     else if secondaries = {kMinus, muPlus, nuMu} then some 0.0558
     else if secondaries = {hadrons} then some (1 - 2 * 0.0558) else none)
  else if s.primary = d0Bar then result (410.1 * 1e-15)
    (if secondaries = {kPlus, eMinus, nuEBar} then some 0.0558
     else if secondaries = {kPlus, muMinus, nuMuBar} then some 0.0558
     else if secondaries = {hadrons} then some (1 - 2 * 0.0558) else none)
  else if s.primary = dsPlus then result (504 * 1e-15)
    (if secondaries = {hadrons, ePlus, nuE} then some 0.0654
     else if secondaries = {hadrons, muPlus, nuMu} then some 0.0654
     else if secondaries = {hadrons} then some (1 - 2 * 0.0654) else none)
  else if s.primary = dsMinus then result (504 * 1e-15)
    (if secondaries = {hadrons, eMinus, nuEBar} then some 0.0654
     else if secondaries = {hadrons, muMinus, nuMuBar} then some 0.0654
     else if secondaries = {hadrons} then some (1 - 2 * 0.0654) else none)
  else .throws .runtimeError

/-- `CharmMesonDecay::TotalDecayWidth(primary)` (`CharmMesonDecay.cxx:46-57`). -/
def charmTotal (primary : Int) : Res ℝ := do
  let signatures ← charmDecay.fromParent primary
  sumOver signatures charmWidth

/-! ### Weak bosons -/

/-- `secondary_masses` (`projects/interactions/private/ElectroweakDecay.cxx:52-77`); `none` is a missing key. -/
def ewMass (p : Int) : Option ℝ :=
  if p ∈ nus ∨ p ∈ antiNus then some 0
  else if p = eMinus ∨ p = ePlus then some 0.000511
  else if p = muMinus ∨ p = muPlus then some 0.105658374
  else if p = tauMinus ∨ p = tauPlus then some 1.77686
  else if p = 2 ∨ p = -2 then some 0.00232
  else if p = 4 ∨ p = -4 then some 1.280
  else if p = 6 ∨ p = -6 then some 173.3
  else if p = 1 ∨ p = -1 then some 0.00471
  else if p = 3 ∨ p = -3 then some 0.0929
  else if p = 5 ∨ p = -5 then some 4.198
  else none

/-- `V_CKM` restricted to the two light up-type quarks (`ElectroweakDecay.cxx:31-50`, values from
`Constants.h:144-151`). -/
def ckm (u d : Int) : ℝ :=
  if u = up then (if d = down then 0.9740 else if d = strange then 0.2265 else 0.0036)
  else (if d = down then 0.2263 else if d = strange then 0.9732 else 0.0405)

/-- `GammaW` (`projects/interactions/public/SIREN/interactions/ElectroweakDecay.h:72`). -/
def gammaW : ℝ := gweak ^ 2 * wMass / (48 * Real.pi)

/-- `ZDecayWidth` (`ElectroweakDecay.cxx:23-28`). -/
def zWidth (cL cR : ℝ) : ℝ :=
  let cV := cL + cR
  let cA := cL - cR
  let gZ := gweak / Real.sqrt (1 - thetaWeinberg)
  gZ * gZ * zMass / (48 * Real.pi) * (cV * cV + cA * cA)

/-- The part of `ElectroweakDecay::TotalDecayWidth(record)` after the threshold (`ElectroweakDecay.cxx:114-183`).  The loops that
look for the pair of secondaries are written as membership in the lists. -/
def ewPartial (primary a b : Int) : ℝ :=
  if primary = wMinus then
    if a ∈ leptons ∧ b ∈ antiNus then gammaW
    else match (upAntiQuarks.zip upQuarks).lookup a with
      | some u => if b ∈ downQuarks then 3.0 * ckm u b ^ 2 * gammaW else 0
      | none => 0
  else if primary = wPlus then
    if a ∈ antiLeptons ∧ b ∈ nus then gammaW
    else if a ∈ upQuarks then
      match (downAntiQuarks.zip downQuarks).lookup b with
      | some d => 3.0 * ckm a d ^ 2 * gammaW
      | none => 0
    else 0
  else if primary = z0 then
    if (a, b) ∈ nus.zip antiNus then zWidth 0.5 0
    else if (a, b) ∈ leptons.zip antiLeptons then zWidth (-0.27) 0.23
    else if (a, b) ∈ upQuarks.zip upAntiQuarks then 3.0 * zWidth 0.35 (-0.15)
    else if (a, b) ∈ downQuarks.zip downAntiQuarks then 3.0 * zWidth (-0.42) 0.08
    else 0
  else 0

/-- `ElectroweakDecay::TotalDecayWidth(record)` (`ElectroweakDecay.cxx:109-183`). -/
def ewWidth (mass : ℝ) (s : Signature) : Res ℝ :=
  match s.secondaries with
  | a :: b :: _ =>
    match ewMass a, ewMass b with
    | some m1, some m2 => if m1 + m2 ≥ mass then .ok 0 else .ok (ewPartial s.primary a b)
    | _, _ => .throws .outOfRange
  | _ => .ub

/-- `ElectroweakDecay::TotalDecayWidth(primary)`, which is also `TotalDecayWidthAllFinalStates`: the nominal boson mass is
used (`ElectroweakDecay.cxx:88-107`). For another primary the mass of the empty record is not read, as the list is empty. -/
def ewTotal (primaries : Finset Int) (primary : Int) : Res ℝ := do
  let signatures ← (electroweakDecay primaries).fromParent primary
  sumOver signatures (ewWidth (if primary = wPlus ∨ primary = wMinus then wMass else zMass))

/-! ### Dipole decays -/

/-- `HNLDipoleDecay::TotalDecayWidth(record)` (`projects/interactions/private/HNLDipoleDecay.cxx:50-64`); `d` holds the three
couplings, of electron, muon and tau flavour. -/
def dipoleWidth (mass : ℝ) (d : Fin 3 → ℝ) (s : Signature) : Res ℝ :=
  match s.secondaries with
  | a :: b :: _ =>
    let nu := if a = gamma then b else a
    let coupling : ℝ :=
      if nu = nuE ∨ nu = nuEBar then d 0 * d 0
      else if nu = nuMu ∨ nu = nuMuBar then d 1 * d 1
      else if nu = nuTau ∨ nu = nuTauBar then d 2 * d 2 else 0
    .ok (coupling * mass ^ 3 / (4 * Real.pi))
  | _ => .ub

/-- `HNLDipoleDecay::TotalDecayWidth(primary)` (`HNLDipoleDecay.cxx:44-48`): the primary is not looked at. -/
def dipoleTotal (mass : ℝ) (d : Fin 3 → ℝ) (_primary : Int) : Res ℝ :=
  .ok (([d 0, d 1, d 2].foldl (fun sum c => sum + c * c) 0) * mass ^ 3 / (4 * Real.pi))

/-! ### Cross sections -/

/-- `charm_xsec::FragmentationFraction`
(`projects/interactions/public/SIREN/interactions/CharmCrossSectionHelpers.h:33-42`). -/
def fragmentation (p : Int) : ℝ :=
  if p = d0 ∨ p = d0Bar then 0.6 / 0.98
  else if p = dPlus ∨ p = dMinus then 0.23 / 0.98
  else if p = dsPlus ∨ p = dsMinus then 0.15 / 0.98
  else 0

/-- `isD` (`projects/dataclasses/private/Particle.cxx:100-104`). -/
def isD (p : Int) : Bool := p = d0 ∨ p = d0Bar ∨ p = dPlus ∨ p = dMinus ∨ p = dsPlus ∨ p = dsMinus

/-- `QuarkDISFromSpline::TotalCrossSection(record)` and `PythiaDISCrossSection::TotalCrossSection(record)`
(`QuarkDISFromSpline.cxx:419-438`, `PythiaDISCrossSection.cxx:289-304`): the inclusive cross section of the primary, from the
spline at the energy of the record (external), times the fraction of the first charmed meson. -/
def charmXsec (inclusive : Int → Res ℝ) (s : Signature) : Res ℝ := do
  let total ← inclusive s.primary
  match s.secondaries.find? isD with
  | some meson => return total * fragmentation meson
  | none => return total

/-- `CrossSection::TotalCrossSectionAllFinalStates` (`projects/interactions/private/CrossSection.cxx:20-29`). -/
def allFinalStates (X : Interface) (total : Signature → Res ℝ) (primary target : Int) : Res ℝ :=
  sumOver (X.fromParents primary target) total

/-! ### Interaction collections -/

/-- `InteractionCollection::TotalCrossSectionByTargetAllFinalStates`
(`projects/interactions/private/InteractionCollection.cxx:160-174`) for one target of the collection; `total x target` is the
`TotalCrossSectionAllFinalStates` of the record with this target. -/
def totalByTarget {X D : Type} (c : Injection.Collection X D) (total : X → Int → ℝ) (target : Int) : ℝ :=
  (c.forTarget target).foldl (fun acc x => acc + total x target) 0

/-- A double that is non-negative, infinite or (`none`) not a number. -/
abbrev Ext := Option ENNReal

/-- `1./x` -/
def Ext.inv (x : Ext) : Ext := x.map (·⁻¹)

/-- `x*y`: zero times infinity is not a number. -/
def Ext.mul (x y : Ext) : Ext :=
  match x, y with
  | some a, some b => if (a = 0 ∧ b = ⊤) ∨ (a = ⊤ ∧ b = 0) then none else some (a * b)
  | _, _ => none

/-- `x+y` -/
def Ext.add (x y : Ext) : Ext :=
  match x, y with
  | some a, some b => some (a + b)
  | _, _ => none

/-- `hbarc` (`Constants.h`): `197.3*1e-9*1e-7` GeV cm, in metres. -/
def hbarc : ℝ := 197.3 * 1e-9 * 1e-7 * 0.01

/-- `Decay::TotalDecayLengthAllFinalStates` and `TotalDecayLength` (`projects/interactions/private/Decay.cxx:23-37`) of a
particle with momentum `p ≥ 0` and mass `m > 0`: `beta() * gamma() * (1/width) * hbarc`, where rk computes `beta = p/e`,
`gamma = e/m`, `e = sqrt(p² + m²)`. -/
def decayLength (p m : ℝ) (width : ℝ) : Ext :=
  let e := Real.sqrt (p ^ 2 + m ^ 2)
  Ext.mul (Ext.mul (Ext.mul (some (ENNReal.ofReal (p / e))) (some (ENNReal.ofReal (e / m))))
    (Ext.inv (some (ENNReal.ofReal width)))) (some (ENNReal.ofReal hbarc))

/-- `InteractionCollection::TotalDecayWidthAllFinalStates` (`InteractionCollection.cxx:97-104`). -/
def collectionWidth (widths : List ℝ) : ℝ :=
  if widths.isEmpty then 0 else widths.foldl (fun acc w => acc + w) 0

/-- `InteractionCollection::TotalDecayLengthAllFinalStates` (`InteractionCollection.cxx:106-114`); `lengths` are the lengths of
the decays of the collection. -/
def collectionLength (lengths : List Ext) : Ext :=
  if lengths.isEmpty then some ⊤
  else
    let inv := lengths.foldl (fun acc l => Ext.add acc (Ext.inv l)) (some 0)
    if inv = some 0 then some ⊤ else Ext.inv inv

end

end Siren.Signatures
