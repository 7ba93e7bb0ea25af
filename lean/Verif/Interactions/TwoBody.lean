import Verif.Interactions.FourVector
import Verif.Interactions.Widths
import Verif.Interactions.Dis
import Mathlib.Analysis.SpecialFunctions.Trigonometric.Inverse

set_option autoImplicit false

/-!
# Two-body decays: sampling of the final state and its density

Models the two-body parts of `ElectroweakDecay`, `HNLDipoleDecay` and `HNLDecay`. Doubles are real numbers; a result that is not
a number and a failing `assert` are `none`. Random numbers are the values of the generator in the order in which they are drawn.
-/

namespace Siren
namespace TwoBody

open Rk Signatures
open Dis (uniform)

/-- The members of a record that are read: type, three-momentum, mass and helicity of the primary. -/
structure Primary where
  type : Int
  p : Vec3 ℝ
  mass : ℝ
  helicity : ℝ

/-- What is written for a secondary: energy, momentum and mass (which may be not a number). -/
structure Product where
  e : ℝ
  p : Vec3 ℝ
  mass : Option ℝ

/-- `X.SetFourMomentum({P.e(), P.px(), P.py(), P.pz()}); X.SetMass(P.m());` -/
noncomputable def Product.of (P : P4) : Product := ⟨P.e, P.p, P.m⟩

/-- The momentum in the laboratory of a product of mass `m` whose momentum in the rest frame of the primary is `k` relative to
the x axis: the two rotations and the boost (`projects/interactions/private/ElectroweakDecay.cxx:207-225`,
`HNLDipoleDecay.cxx:156-173`, `HNLDecay.cxx:930-950`). -/
noncomputable def toLab (p : Vec3 ℝ) (M : ℝ) (k : Vec3 ℝ) (m phi : ℝ) : Option P4 :=
  (P4.ofMass p M).labBoost.bind fun b =>
    (((P4.ofMass k m).rotate (rotationBetween ⟨1, 0, 0⟩ (direction p))).rotate (axisAngle (direction p) phi)).boost b

/-- `momentum*geom3::Vector3(CosTheta,SinTheta,0)` with `SinTheta = sin(acos(CosTheta))`. -/
noncomputable def atAngle (k c : ℝ) : Vec3 ℝ := Vec3.smul k ⟨c, Real.sin (Real.arccos c), 0⟩

/-! ### Weak bosons -/

/-- `ElectroweakDecay::SampleFinalState` (`ElectroweakDecay.cxx:197-241`) for products of mass `mX` and `mY`. -/
noncomputable def bosonSample (r : Primary) (mX mY u v : ℝ) : Option (Product × Product) :=
  let c := uniform (-1) 1 u
  let phi := uniform 0 (2.0 * Real.pi) v
  let E := (r.mass * r.mass - mY * mY + mX * mX) / (2 * r.mass)
  (sqrtN (E * E - mX * mX)).bind fun k =>
  (toLab r.p r.mass (atAngle k c) mX phi).map fun pX =>
    (Product.of pX, Product.of ((P4.ofMass r.p r.mass).sub pX))

/-- The masses are looked up with `secondary_masses.at` (`ElectroweakDecay.cxx:199-200`). -/
noncomputable def boson (r : Primary) (secondaries : List Int) (u v : ℝ) : Res (Option (Product × Product)) :=
  match secondaries with
  | a :: b :: _ =>
    match ewMass a, ewMass b with
    | some mX, some mY => .ok (bosonSample r mX mY u v)
    | _, _ => .throws .outOfRange
  | _ => .ub

open Classical in
/-- The quotient `dd/td` at the end of every `FinalStateProbability` (`ElectroweakDecay.cxx:243-249`, `HNLDipoleDecay.cxx:200-206`,
`HNLDecay.cxx:1076-1082`). -/
noncomputable def quotient (dd td : ℝ) : ℝ := if dd = 0 then 0 else if td = 0 then 0 else dd / td

/-- `ElectroweakDecay::FinalStateProbability` with `DifferentialDecayWidth` (`ElectroweakDecay.cxx:189-195`, `243-249`). -/
noncomputable def bosonProbability (r : Primary) (secondaries : List Int) : Res ℝ := do
  let td ← ewWidth r.mass ⟨r.type, decayTarget, secondaries⟩
  return quotient (1 / 2 * td) td

/-! ### Heavy neutral leptons -/

/-- `ChiralNature`. -/
inductive Nature where
  | dirac
  | majorana
  deriving DecidableEq

open Classical in
/-- `alpha = std::copysign(alpha, helicity); alpha = (primary == N4) ? -1*alpha : alpha;` (`HNLDipoleDecay.cxx:130-131`,
`146-147`, `HNLDecay.cxx:837-839`, `916-918`). The sign of a zero helicity is taken to be positive. -/
noncomputable def signed (alpha : ℝ) (r : Primary) : ℝ :=
  let a := if 0 ≤ r.helicity then |alpha| else -|alpha|
  if r.type = n4 then -1 * a else a

/-- `(std::sqrt(1  - 2*alpha*(1 - alpha/2. - 2*X)) - 1)/alpha` (`HNLDipoleDecay.cxx:154`, `HNLDecay.cxx:924`). -/
noncomputable def cosine (alpha X : ℝ) : Option ℝ :=
  (sqrtN (1 - 2 * alpha * (1 - alpha / 2 - 2 * X))).map fun root => (root - 1) / alpha

/-- The cosine in `HNLDipoleDecay::SampleFinalState` (`HNLDipoleDecay.cxx:145-156`). -/
noncomputable def dipoleCosine (nature : Nature) (r : Primary) (u : ℝ) : Option ℝ :=
  match nature with
  | .majorana => some (uniform (-1) 1 u)
  | .dirac => cosine (signed 1 r) (uniform 0 1 u)

/-- `HNLDipoleDecay::SampleFinalState` (`HNLDipoleDecay.cxx:138-198`): photon and neutrino. -/
noncomputable def dipoleSample (nature : Nature) (hnlMass : ℝ) (r : Primary) (u v : ℝ) : Option (Product × Product) :=
  (dipoleCosine nature r u).bind fun c =>
  let phi := uniform 0 (2.0 * Real.pi) v
  (toLab r.p r.mass (atAngle (hnlMass / 2) c) 0 phi).map fun pGamma =>
    (Product.of pGamma, Product.of (P4.ofMass ((P4.ofMass r.p r.mass).p - pGamma.p) 0))

open Classical in
/-- `Vector3D::normalize` (`projects/math/private/Vector3D.cxx:265-275`): the null vector stays. -/
noncomputable def normalizeOrZero (v : Vec3 ℝ) : Vec3 ℝ := if v.norm = 0 then v else v.normalize

/-- The cosine recomputed from a record (`HNLDipoleDecay.cxx:113-129`, `HNLDecay.cxx:819-836`): the product of momentum `q` and
mass `m` is boosted to the rest frame of the primary. -/
noncomputable def restCosine (r : Primary) (q : Vec3 ℝ) (m : ℝ) : Option ℝ :=
  (P4.ofMass r.p r.mass).restBoost.bind fun b =>
  ((P4.ofMass q m).boost b).map fun Q => Vec3.dot (normalizeOrZero Q.p) (normalizeOrZero r.p)

/-- `HNLDipoleDecay::DifferentialDecayWidth` (`HNLDipoleDecay.cxx:105-136`); `td` is `TotalDecayWidth(record)`. -/
noncomputable def dipoleDifferential (nature : Nature) (r : Primary) (td : ℝ) (gamma : Vec3 ℝ) (gammaMass : ℝ) : Option ℝ :=
  match nature with
  | .majorana => some (td / 2)
  | .dirac => (restCosine r gamma gammaMass).map fun c => td / 2 * (1 + signed 1 r * c)

/-- `HNLDipoleDecay::FinalStateProbability` (`HNLDipoleDecay.cxx:200-206`). -/
noncomputable def dipoleProbability (nature : Nature) (r : Primary) (td : ℝ) (gamma : Vec3 ℝ) (gammaMass : ℝ) : Option ℝ :=
  (dipoleDifferential nature r td gamma gammaMass).map fun dd => quotient dd td

/-- `HNLDecay::GetAlpha` (`HNLDecay.cxx:770-801`); masses from `Constants.h`. -/
noncomputable def getAlpha (hnlMass : ℝ) (secondary : Int) : ℝ :=
  let vector (m : ℝ) : ℝ := (hnlMass * hnlMass - 2 * m * m) / (hnlMass * hnlMass + 2 * m * m)
  if secondary = 111 ∨ secondary = 221 ∨ secondary = 331 ∨ secondary = gamma ∨ secondary = hadrons then 1
  else if secondary = z0 then vector zMass
  else if secondary = 113 then vector 0.77526
  else if secondary = 223 then vector 0.78266
  else if secondary = 333 then vector 1.019461
  else if secondary = 313 then vector 0.896
  else 0

open Classical in
/-- The cosine in `HNLDecay::SampleFinalState` (`HNLDecay.cxx:914-926`). -/
noncomputable def hnlCosine (nature : Nature) (hnlMass : ℝ) (X : Int) (r : Primary) (u : ℝ) : Option ℝ :=
  let alpha := signed (getAlpha hnlMass X) r
  if nature = .majorana ∨ |alpha| < 1e-12 then some (uniform (-1) 1 u) else cosine alpha (uniform 0 1 u)

/-- The two-body part of `HNLDecay::SampleFinalState` (`HNLDecay.cxx:891-983`) for the lepton of mass `mLep` and the other product
`X` of mass `mX`; the masses come from `GetParticleMass`, a table that is not modelled. The result is the other product and the
lepton. -/
noncomputable def hnlSample (nature : Nature) (hnlMass : ℝ) (X : Int) (mX mLep : ℝ) (r : Primary) (u v : ℝ) :
    Option (Product × Product) :=
  (hnlCosine nature hnlMass X r u).bind fun c =>
  let phi := uniform 0 (2.0 * Real.pi) v
  let E := (hnlMass * hnlMass + mX * mX - mLep * mLep) / (2 * hnlMass)
  (sqrtN (E ^ 2 - mX ^ 2)).bind fun k =>
  (toLab r.p r.mass (atAngle k c) mX phi).map fun pX =>
    (Product.of pX, Product.of (P4.ofMass ((P4.ofMass r.p r.mass).p - pX.p) mLep))

/-- The two-body part of `HNLDecay::DifferentialDecayWidth` (`HNLDecay.cxx:804-841`). -/
noncomputable def hnlDifferential (nature : Nature) (hnlMass : ℝ) (X : Int) (r : Primary) (td : ℝ) (q : Vec3 ℝ) (m : ℝ) :
    Option ℝ :=
  match nature with
  | .majorana => some (td / 2)
  | .dirac => (restCosine r q m).map fun c => td / 2 * (1 + signed (getAlpha hnlMass X) r * c)

/-- `HNLDecay::FinalStateProbability` for two bodies (`HNLDecay.cxx:1076-1082`). -/
noncomputable def hnlProbability (nature : Nature) (hnlMass : ℝ) (X : Int) (r : Primary) (td : ℝ) (q : Vec3 ℝ) (m : ℝ) :
    Option ℝ :=
  (hnlDifferential nature hnlMass X r td q m).map fun dd => quotient dd td

/-- The three-neutrino part of `HNLDecay::SampleFinalState` (`HNLDecay.cxx:988-1007`): only three-momenta and masses are set; the
energy follows from them (`SecondaryParticleRecord::UpdateEnergy`). -/
noncomputable def threeNeutrinos (r : Primary) : List P4 :=
  List.replicate 3 (P4.ofMass (Vec3.smul (1 / 3) r.p) 0)

end TwoBody
end Siren
