import Verif.Interactions.TwoBody

set_option autoImplicit false

/-!
# Three-body decays of heavy neutral leptons into a neutrino and two charged leptons

Models `HNLDecay::ThreeBodyPhaseSpaceProposalDistribution`, `ThreeBodyPhaseSpaceConversion`, `ThreeBodyDifferentialDecayWidth` and
the three-body parts of `SampleFinalState` and `DifferentialDecayWidth` (`projects/interactions/private/HNLDecay.cxx`). Doubles are
real numbers; a result that is not a number and a failing `assert` are `none`. `M` is `hnl_mass`, `a` and `b` are the masses of the
negative and of the positive lepton.
-/

namespace Siren
namespace ThreeBody

open Rk Signatures TwoBody
open Dis (uniform)

/-- The five phase space variables: `s1`, `s2`, cosine and azimuth of the first lepton, rotation of the second about the first. -/
structure Point where
  s1 : ℝ
  s2 : ℝ
  cosTheta : ℝ
  phi : ℝ
  rot : ℝ

/-- `s1_min` (`HNLDecay.cxx:1269`). -/
noncomputable def s1Min (M a : ℝ) : ℝ := a ^ 2 / M ^ 2

/-- `s1_max` (`HNLDecay.cxx:1270`). -/
noncomputable def s1Max (M b : ℝ) : ℝ := (M - b) ^ 2 / M ^ 2

/-- Coefficients of the quadratic equation for the limits of `s2` (`HNLDecay.cxx:1276-1284`). -/
noncomputable def coefA (M s1 : ℝ) : ℝ := M ^ 6 * s1

/-- See `coefA`. -/
noncomputable def coefB (M a b s1 : ℝ) : ℝ :=
  ((M * M * s1) ^ 2 + a * a * (M * M - b * b) - M * M * s1 * (M * M + a * a + b * b)) * (M * M)

/-- See `coefA`. -/
noncomputable def coefC (M a b s1 : ℝ) : ℝ :=
  M * M * s1 * b * b * (M * M - a * a) - a * a * b * b * (M * M - a * a - b * b)

/-- `s2_min` and `s2_max` (`HNLDecay.cxx:1286-1287`). -/
noncomputable def s2Range (M a b s1 : ℝ) : Option (ℝ × ℝ) :=
  (sqrtN (coefB M a b s1 * coefB M a b s1 - 4 * coefA M s1 * coefC M a b s1)).map fun root =>
    ((-coefB M a b s1 - root) / (2 * coefA M s1), (-coefB M a b s1 + root) / (2 * coefA M s1))

/-- `ThreeBodyPhaseSpaceProposalDistribution` (`HNLDecay.cxx:1268-1295`) for the generator values `u₁, …, u₅`. -/
noncomputable def propose (M a b u₁ u₂ u₃ u₄ u₅ : ℝ) : Option Point :=
  let s1 := uniform (s1Min M a) (s1Max M b) u₁
  (s2Range M a b s1).map fun range =>
    ⟨s1, uniform range.1 range.2 u₂, uniform (-1) 1 u₃, uniform 0 (2 * Real.pi) u₄, uniform 0 (2 * Real.pi) u₅⟩

/-- The energies in the rest frame (`HNLDecay.cxx:1209-1210`). -/
noncomputable def energy3 (M a s2 : ℝ) : ℝ := (M ^ 2 * (1 - s2) + a ^ 2) / (2 * M)

/-- See `energy3`. -/
noncomputable def energy4 (M b s1 : ℝ) : ℝ := (M ^ 2 * (1 - s1) + b ^ 2) / (2 * M)

open Classical in
/-- `CosAlpha34` (`HNLDecay.cxx:1213-1216`). With `p3 * p4 = 0` the quotient is not a number or infinite; it is `none` here. -/
noncomputable def cosAlpha (M a b s1 s2 p3 p4 : ℝ) : Option ℝ :=
  let s3 := 1 + (a ^ 2 + b ^ 2) / M ^ 2 - s1 - s2
  if p3 * p4 = 0 then none
  else
    let c := (energy3 M a s2 * energy4 M b s1 - 0.5 * (s3 * M ^ 2 - a ^ 2 - b ^ 2)) / (p3 * p4)
    some (let c := if c > 1 then 1 else c; if c < -1 then -1 else c)

/-- The unit vector of the first lepton (`HNLDecay.cxx:1219-1222`). -/
noncomputable def n3 (c s phi : ℝ) : Vec3 ℝ := ⟨s * Real.cos phi, s * Real.sin phi, c⟩

/-- The unit vector of the second lepton (`HNLDecay.cxx:1224-1235`). -/
noncomputable def n4 (c s phi ca sa rot : ℝ) : Vec3 ℝ :=
  ⟨ca * (n3 c s phi).x + sa * (Real.cos rot * (c * Real.cos phi) + Real.sin rot * -Real.sin phi),
   ca * (n3 c s phi).y + sa * (Real.cos rot * (c * Real.sin phi) + Real.sin rot * Real.cos phi),
   ca * (n3 c s phi).z + sa * Real.cos rot * -s⟩

open Classical in
/-- `ThreeBodyPhaseSpaceConversion` (`HNLDecay.cxx:1207-1245`): the two charged leptons in the laboratory. -/
noncomputable def convert (r : Primary) (M a b : ℝ) (x : Point) : Option (P4 × P4) :=
  (sqrtN (energy3 M a x.s2 * energy3 M a x.s2 - a * a)).bind fun p3 =>
  (sqrtN (energy4 M b x.s1 * energy4 M b x.s1 - b * b)).bind fun p4 =>
  (cosAlpha M a b x.s1 x.s2 p3 p4).bind fun ca =>
  (sqrtN (1 - ca * ca)).bind fun sa =>
  (sqrtN (1 - x.cosTheta * x.cosTheta)).bind fun s =>
  if ¬ |r.mass - M| < 1e-6 then none
  else
    (P4.ofMass r.p r.mass).labBoost.bind fun boost =>
    ((P4.ofMass (Vec3.smul p3 (n3 x.cosTheta s x.phi)) a).boost boost).bind fun k3 =>
    ((P4.ofMass (Vec3.smul p4 (n4 x.cosTheta s x.phi ca sa x.rot)) b).boost boost).map fun k4 => (k3, k4)

/-- The products written by `SampleFinalState` for the phase space point (`HNLDecay.cxx:1053-1070`): neutrino, negative and positive
lepton. -/
noncomputable def products (r : Primary) (M a b : ℝ) (x : Point) : Option (Product × Product × Product) :=
  (convert r M a b x).map fun k =>
    let k2 := ((P4.ofMass r.p r.mass).sub k.1).sub k.2
    (⟨k2.e, k2.p, some 0⟩, Product.of k.1, Product.of k.2)

/-- `(k2+k3).dot(k2+k3) / pow(hnl_mass,2)` for momenta of a record (`HNLDecay.cxx:885-892`). -/
noncomputable def recordS (M m₂ m₃ : ℝ) (k₂ k₃ : Vec3 ℝ) : ℝ :=
  ((P4.ofMass k₂ m₂).add (P4.ofMass k₃ m₃)).dot ((P4.ofMass k₂ m₂).add (P4.ofMass k₃ m₃)) / M ^ 2

/-- Cosine of the angle between two momenta in the laboratory (`HNLDecay.cxx:893-894`, `1255-1256`). -/
noncomputable def labCos (p k : Vec3 ℝ) : ℝ := Vec3.dot (direction p) (direction k)

/-- The parameters of the object that enter the width: kind of lepton and mixings. -/
structure Object where
  nature : Nature
  mass : ℝ
  mixing : Fin 3 → ℝ

/-- `FermiConstant`, 1.16639e-23 eV⁻² in GeV⁻² (`projects/utilities/public/SIREN/utilities/Constants.h:130`). -/
noncomputable def fermiConstant : ℝ := 1.16639e-5

/-- `lambda` (`HNLDecay.cxx:31-33`). -/
def lambda (a b c : ℝ) : ℝ := a * a + b * b + c * c - 2 * a * b - 2 * a * c - 2 * b * c

/-- The number of a truth value in an arithmetic expression. -/
def ind (p : Prop) [Decidable p] : ℝ := if p then 1 else 0

/-- The six coefficients for a neutrino (`HNLDecay.cxx:1147-1160`). -/
noncomputable def coeffsNu (O : Object) (α β : Fin 3) : ℝ × ℝ × ℝ × ℝ × ℝ × ℝ :=
  let gL : ℝ := -1 / 2 + 0.2312
  let gR : ℝ := 0.2312
  let c1 := ∑ γ, O.mixing γ ^ 2 * (ind (α = β) * gL ^ 2 + ind (γ = α) * (1 + ind (α = β) * gL))
  let c2 := ∑ γ, ind (α = β) * gR ^ 2 * O.mixing γ ^ 2
  let c3 := ∑ γ, ind (α = β) * gR * O.mixing γ ^ 2 * (ind (γ = β) + gL)
  (c1, c2, c3, c1, c2, c3)

/-- The six coefficients for an antineutrino (`HNLDecay.cxx:1147-1163`). -/
noncomputable def coeffsNuBar (O : Object) (α β : Fin 3) : ℝ × ℝ × ℝ × ℝ × ℝ × ℝ :=
  let gL : ℝ := -1 / 2 + 0.2312
  let gR : ℝ := 0.2312
  let c1 := ∑ γ, ind (α = β) * gR ^ 2 * O.mixing γ ^ 2
  let c2 := ∑ γ, O.mixing γ ^ 2 * (ind (α = β) * gL ^ 2 + ind (γ = β) * (1 + ind (α = β) * gL))
  let c3 := ∑ γ, ind (α = β) * gR * O.mixing γ ^ 2 * (ind (γ = α) + gL)
  (c1, c2, c3, -c1, -c2, -c3)

/-- The coefficients (`HNLDecay.cxx:1165-1190`). -/
noncomputable def coeffs (O : Object) (type : Int) (α β : Fin 3) : ℝ × ℝ × ℝ × ℝ × ℝ × ℝ :=
  match O.nature with
  | .dirac => if type = Signatures.n4 then coeffsNu O α β else if type = n4Bar then coeffsNuBar O α β else 0
  | .majorana => coeffsNu O α β + coeffsNuBar O α β

open Classical in
/-- `ThreeBodyDifferentialDecayWidth` with angles in the laboratory (`HNLDecay.cxx:1136-1202`). -/
noncomputable def width (O : Object) (r : Primary) (α β : Fin 3) (a b s1 s2 cos3 cos4 : ℝ) : Option ℝ :=
  let C := coeffs O r.type α β
  let x3 := a / O.mass
  let x4 := b / O.mass
  (sqrtN (lambda 1 s2 (x4 * x4))).bind fun root2 =>
  (sqrtN (lambda 1 s1 (x3 * x3))).map fun root1 =>
    let A0 := C.1 * (s2 - x3 * x3) * (1 + x4 * x4 - s2) + C.2.1 * (s1 - x4 * x4) * (1 + x3 * x3 - s1)
      + 2 * C.2.2.1 * x3 * x4 * (s1 + s2 - x3 * x3 - x4 * x4)
    let A1 := (C.2.2.2.1 * (s2 - x3 * x3) - 2 * C.2.2.2.2.2 * x3 * x4) * root2 * cos4
      + (C.2.2.2.2.1 * (s1 - x4 * x4) - 2 * C.2.2.2.2.2 * x3 * x4) * root1 * cos3
    let prefactor := fermiConstant ^ 2 * O.mass ^ 5 / (128 * Real.pi ^ 5)
    if r.helicity > 0 then prefactor * (A0 + A1)
    else if r.helicity < 0 then prefactor * (A0 - A1)
    else 0

/-- The likelihood of the sampler: `ThreeBodyDifferentialDecayWidth` at a phase space point (`HNLDecay.cxx:1249-1261`). -/
noncomputable def likelihood (O : Object) (r : Primary) (α β : Fin 3) (a b : ℝ) (x : Point) : Option ℝ :=
  (convert r O.mass a b x).bind fun k => width O r α β a b x.s1 x.s2 (labCos r.p k.1.p) (labCos r.p k.2.p)

/-- `DifferentialDecayWidth` of a record with the momenta `k₂`, `k₃`, `k₄` (`HNLDecay.cxx:880-896`). -/
noncomputable def recordWidth (O : Object) (r : Primary) (α β : Fin 3) (a b : ℝ) (k₂ k₃ k₄ : Vec3 ℝ) : Option ℝ :=
  width O r α β a b (recordS O.mass 0 a k₂ k₃) (recordS O.mass 0 b k₂ k₄) (labCos r.p k₃) (labCos r.p k₄)

end ThreeBody
end Siren
