import Verif.Interactions.FourVector
import Mathlib.Analysis.SpecialFunctions.Log.Base
import Mathlib.Analysis.Real.Pi.Bounds

set_option autoImplicit false

/-!
# Deep inelastic scattering from spline tables

Models `interactions/private/DISFromSpline.cxx`: the phase space test, the differential cross section, and
`SampleFinalState` as a function of the stream of random numbers. The spline tables (photospline) are parameters.
-/

namespace Siren
namespace Dis

open Rk

/-! ### Particle types -/

/-- `isLepton` (dataclasses/private/Particle.cxx:75-82), on PDG codes (ParticleTypes.def:15-18, 69-76). -/
def isLepton (t : ℤ) : Bool :=
  t = 11 || t = -11 || t = 13 || t = -13 || t = 15 || t = -15 || t = 12 || t = -12 || t = 14 || t = -14 || t = 16 || t = -16

/-- `ParticleType::Hadrons` (ParticleTypes.def:209). -/
def hadrons : ℤ := -2000001006

/-- `Constants::electronMass`, `muonMass`, `tauMass`, `Pi0Mass` (utilities/Constants.h:53-57). -/
noncomputable def electronMass : ℝ := 0.000511
@[inherit_doc electronMass] noncomputable def muonMass : ℝ := 0.105658374
@[inherit_doc electronMass] noncomputable def tauMass : ℝ := 1.77686
@[inherit_doc electronMass] noncomputable def pi0Mass : ℝ := 0.1349770

/-- `GetLeptonMass` (DISFromSpline.cxx:162-186): the cases of the neutrinos fall through to mass zero; anything else
throws (`none`). -/
noncomputable def leptonMass (t : ℤ) : Option ℝ :=
  match t.natAbs with
  | 11 => some electronMass
  | 13 => some muonMass
  | 15 => some tauMass
  | 12 => some 0
  | 14 => some 0
  | 16 => some 0
  | _ => none

/-! ### Cross section -/

open Classical in
/-- `kinematicallyAllowed` (DISFromSpline.cxx:40-55). The comparisons with a square root of a negative number are false. -/
noncomputable def allowed (x y E M m : ℝ) : Bool :=
  if x > 1 then false
  else if x < (m * m) / (2 * M * (E - m)) then false
  else
    let d := 2 * (1 + (M * x) / (2 * E))
    let ad := 1 - m * m * ((1 / (2 * M * E * x)) + (1 / (2 * E * E)))
    let term := 1 - ((m * m) / (2 * M * E * x))
    match sqrtN (term * term - ((m * m) / (E * E))) with
    | none => false
    | some bd => decide (ad - bd ≤ d * y) && decide (d * y ≤ ad + bd)

/-- A three dimensional photospline table: extents and number of dimensions, whether `searchcenters` finds a cell, and the
value (`none` for not a number). A parameter of the model. -/
structure Table where
  ndim : Nat
  lower : Fin 3 → ℝ
  upper : Fin 3 → ℝ
  found : ℝ → ℝ → ℝ → Bool
  eval : ℝ → ℝ → ℝ → Option ℝ

/-- The members of `DISFromSpline` used here. -/
structure Config where
  targetMass : ℝ
  minQ2 : ℝ
  unit : ℝ
  table : Table

/-- `SetMinimumW2` (DISFromSpline.cxx:279-284). -/
noncomputable def Config.minW2 (D : Config) : ℝ := (D.targetMass + pi0Mass) ^ 2

/-- `log10`. -/
noncomputable def log10 (a : ℝ) : ℝ := Real.logb 10 a

/-- `pow(10., a)`. -/
noncomputable def pow10 (a : ℝ) : ℝ := (10 : ℝ) ^ a

open Classical in
/-- `DifferentialCrossSection(energy, x, y, secondary_lepton_mass, Q2)` (DISFromSpline.cxx:342-378), called with a number
for `Q2`. `none` is a result that is not a number. -/
noncomputable def Config.diff (D : Config) (energy x y m Q2 : ℝ) : Option ℝ :=
  let T := D.table
  let le := log10 energy
  if le < T.lower 0 ∨ le > T.upper 0 then some 0
  else if x ≤ 0 ∨ x ≥ 1 then some 0
  else if y ≤ 0 ∨ y ≥ 1 then some 0
  else if Q2 < D.minQ2 then some 0
  else if D.targetMass ^ 2 + Q2 / x * (1 - x) < D.minW2 then some 0
  else if !allowed x y energy D.targetMass m then some 0
  else if !T.found le (log10 x) (log10 y) then some 0
  else (T.eval le (log10 x) (log10 y)).map fun v => D.unit * pow10 v

/-- A secondary particle as written to the record: four-momentum and mass. -/
structure Secondary where
  e : ℝ
  p : Vec3 ℝ
  mass : ℝ

/-- The parts of the interaction record the cross section reads: primary momentum (energy and vector) and mass, target
mass, the two secondary types, and the two secondaries. -/
structure Record where
  energy : ℝ
  p : Vec3 ℝ
  mass : ℝ
  targetMass : ℝ
  t0 : ℤ
  t1 : ℤ

/-- Type of the lepton: the first secondary if it is a lepton, else the second (DISFromSpline.cxx:324, 408). -/
def Record.leptonType (r : Record) : ℤ := if isLepton r.t0 then r.t0 else r.t1

/-- Energy, x, y and Q2 as `DifferentialCrossSection(record)` recomputes them (DISFromSpline.cxx:318-340) from the two
secondaries `s0`, `s1`. -/
noncomputable def Record.kinematics (r : Record) (s0 s1 : Secondary) : ℝ × ℝ × ℝ × ℝ :=
  let p1 := P4.ofMass r.p r.mass
  let p2 := P4.ofMass ⟨0, 0, 0⟩ r.targetMass
  let l := if isLepton r.t0 then s0 else s1
  let p3 := P4.ofMass l.p l.mass
  let q := p1.sub p3
  let Q2 := -(q.dot q)
  let y := 1 - p2.dot p3 / p2.dot p1
  let x := Q2 / (2 * p2.dot q)
  (r.energy, x, y, Q2)

/-- `DifferentialCrossSection(record)` (DISFromSpline.cxx:318-340); `none` if the lepton type is unknown (it throws) or
the result is not a number. -/
noncomputable def Config.diffRecord (D : Config) (r : Record) (s0 s1 : Secondary) : Option ℝ :=
  (leptonMass r.leptonType).bind fun m =>
    let (e, x, y, Q2) := r.kinematics s0 s1
    D.diff e x y m Q2

/-! ### Sampling -/

open Classical in
/-- `SIREN_random::Uniform(min, max)` for the generator value `u` (utilities/private/Random.cxx:32-37). -/
noncomputable def uniform (a b u : ℝ) : ℝ := if b < a then (a - b) * u + b else (b - a) * u + a

/-- The point `(log10 x, log10 y)` passes the test at the end of the inner loops (DISFromSpline.cxx:458-460, 497-499):
large enough `Q2` and invariant mass, and kinematically allowed. -/
noncomputable def Config.admissible (D : Config) (E1 E2 m lx ly : ℝ) : Bool := by
  classical exact
    let trialQ := (2 * E1 * E2) * pow10 (lx + ly)
    let trialW := D.targetMass ^ 2 + trialQ / pow10 lx * (1 - pow10 lx)
    !(decide (trialQ < D.minQ2) || decide (trialW < D.minW2) || !allowed (pow10 lx) (pow10 ly) E1 D.targetMass m)

/-- The point lies in the table (DISFromSpline.cxx:462-478, 501-513). -/
noncomputable def Config.inTable (D : Config) (le lx ly : ℝ) : Bool := by
  classical exact
    if lx < D.table.lower 1 ∨ lx > D.table.upper 1 then false
    else if ly < D.table.lower 2 ∨ ly > D.table.upper 2 then false
    else D.table.found le lx ly

/-- Bounds of the proposals: `logXMin`, `logYMin`, `logYMax` (DISFromSpline.cxx:418-430). `none` if one of them is not a
finite number: the loops then never end. -/
noncomputable def Config.bounds (D : Config) (E1 E2 m : ℝ) : Option (ℝ × ℝ × ℝ) := by
  classical exact
    let yMax := 1 - m / E1
    let yMin := D.minQ2 / (2 * E1 * E2)
    let xMin := D.minQ2 / (2 * E1 * E2 * yMax)
    if 0 < yMax ∧ 0 < yMin ∧ 0 < xMin then some (log10 xMin, log10 yMin, log10 yMax) else none

/-- An inner loop (DISFromSpline.cxx:452-478, 493-499): proposes points until one is admissible and satisfies `more`.
The loop that finds the first point is two nested loops, which propose until a point passes both tests; the loop of a
Metropolis step has no second test. `none` when the random numbers run out first. -/
noncomputable def Config.propose (D : Config) (E1 E2 m : ℝ) (b : ℝ × ℝ × ℝ) (more : ℝ → ℝ → Bool) :
    List ℝ → Option ((ℝ × ℝ) × List ℝ)
  | u :: v :: rs =>
    let lx := uniform b.1 0 u
    let ly := uniform b.2.1 b.2.2 v
    if D.admissible E1 E2 m lx ly && more lx ly then some ((lx, ly), rs) else D.propose E1 E2 m b more rs
  | _ => none

/-- State of the chain: the point and its weight `cross_section`. -/
structure Chain where
  lx : ℝ
  ly : ℝ
  weight : Option ℝ

/-- The weight of a point, `x * y` times the spline value (DISFromSpline.cxx:481-485, 515-519). -/
noncomputable def Config.weight (D : Config) (le lx ly : ℝ) : Option ℝ :=
  (D.table.eval le lx ly).map fun v => pow10 (lx + ly) * pow10 v

/-- The decision of a Metropolis step for the generator value `u`: `cross_section == 0 || odds > 1 || Uniform(0, 1) < odds`
(DISFromSpline.cxx:521-522). The number is drawn only if the first two tests fail. -/
def accepts (w w' u : ℝ) : Prop := w = 0 ∨ w' / w > 1 ∨ uniform 0 1 u < w' / w

/-- One pass of the Metropolis loop (DISFromSpline.cxx:491-528). Comparisons with a weight that is not a number are
false. -/
noncomputable def Config.step (D : Config) (E1 E2 m le : ℝ) (b : ℝ × ℝ × ℝ) (c : Chain) (rs : List ℝ) :
    Option (Chain × List ℝ) := by
  classical exact
    match D.propose E1 E2 m b (fun _ _ => true) rs with
    | none => none
    | some ((lx, ly), rs) =>
      if !D.inTable le lx ly then some (c, rs)
      else match D.weight le lx ly with
        | none => some (c, rs)
        | some w' =>
          let new : Chain := ⟨lx, ly, some w'⟩
          match c.weight with
          | some w =>
            if w = 0 ∨ w' / w > 1 then some (new, rs)
            else match rs with
              | [] => none
              | u :: rs => if accepts w w' u then some (new, rs) else some (c, rs)
          | none => match rs with
            | [] => none
            | _ :: rs => some (c, rs)

/-- `n` passes. -/
noncomputable def Config.run (D : Config) (E1 E2 m le : ℝ) (b : ℝ × ℝ × ℝ) : Nat → Chain → List ℝ → Option (Chain × List ℝ)
  | 0, c, rs => some (c, rs)
  | n + 1, c, rs =>
    match D.step E1 E2 m le b c rs with
    | none => none
    | some (c, rs) => D.run E1 E2 m le b n c rs

/-- The final state for given x, y and azimuth (DISFromSpline.cxx:537-577): lepton and hadrons. `none` if a component is not
a number. -/
noncomputable def finalState (p : Vec3 ℝ) (m1 M m3 x y phi : ℝ) : Option (Secondary × Secondary) := by
  classical exact
    let p1 := P4.ofMass p m1
    let p2 := P4.ofMass ⟨0, 0, 0⟩ M
    let E1 := p1.e
    let E2 := p2.e
    let Q2 := 2 * E1 * E2 * (x * y)
    let p1x := Real.sqrt (p.x * p.x + p.y * p.y + p.z * p.z)
    if p1x = 0 then none
    else
      let pqx := (m1 * m1 + m3 * m3 + 2 * p1x * p1x + Q2 + 2 * E1 * E1 * (y - 1)) / (2 * p1x)
      (sqrtN (m1 * m1 + p1x * p1x + Q2 + E1 * E1 * (y * y - 1))).bind fun momq =>
      (if pqx > momq then some 0 else sqrtN (momq * momq - pqx * pqx)).bind fun pqy =>
      let dir := direction p
      let pq := ((P4.ofEnergy (E1 * y) ⟨pqx, pqy, 0⟩).rotate (rotationBetween ⟨1, 0, 0⟩ dir)).rotate (axisAngle dir phi)
      let p3 := P4.ofMass (p1.sub pq).p m3
      let p4 := p2.add pq
      p3.m.bind fun mass3 => p4.m.map fun mass4 => (⟨p3.e, p3.p, mass3⟩, ⟨p4.e, p4.p, mass4⟩)

/-- The spline of the total cross section (one dimension): extents and value. -/
structure TotalTable where
  lower : ℝ
  upper : ℝ
  eval : ℝ → ℝ

open Classical in
/-- `TotalCrossSection(primary_type, energy)` (DISFromSpline.cxx:297-316): throws (`none`) for a primary that is not
supported and outside the table. -/
noncomputable def Config.total (D : Config) (T : TotalTable) (primaries : List ℤ) (primary : ℤ) (energy : ℝ) : Option ℝ :=
  if primary ∉ primaries then none
  else if log10 energy < T.lower ∨ log10 energy > T.upper then none
  else some (D.unit * pow10 (T.eval (log10 energy)))

open Classical in
/-- `FinalStateProbability` (DISFromSpline.cxx:584-592); the threshold of `TotalCrossSection(record)` is zero
(DISFromSpline.cxx:286-295, 380-383). -/
noncomputable def Config.probability (D : Config) (T : TotalTable) (primaries : List ℤ) (primary : ℤ) (r : Record)
    (s0 s1 : Secondary) : Option ℝ :=
  (D.diffRecord r s0 s1).bind fun dxs =>
    (if r.energy < 0 then some 0 else D.total T primaries primary r.energy).map fun txs =>
      if dxs = 0 then 0 else dxs / txs

/-- What a call of `SampleFinalState` can come to. -/
inductive Outcome where
  /-- throws -/
  | throws
  /-- asks for more random numbers than were supplied (or never returns) -/
  | waiting
  /-- writes values that are not numbers -/
  | nan
  /-- writes the two secondaries; also the sampled x and y -/
  | done (s0 s1 : Secondary) (x y : ℝ)

/-- `SampleFinalState` (DISFromSpline.cxx:385-582). -/
noncomputable def Config.sample (D : Config) (r : Record) (rs : List ℝ) : Outcome := by
  classical exact
    if D.table.ndim ≠ 3 then .throws
    else
      let E1 := (P4.ofMass r.p r.mass).e
      let E2 := (P4.ofMass ⟨0, 0, 0⟩ r.targetMass).e
      match leptonMass r.leptonType with
      | none => .throws
      | some m =>
        let le := log10 E1
        if le < D.table.lower 0 ∨ le > D.table.upper 0 then .throws
        else match D.bounds E1 E2 m with
          | none => .waiting
          | some b =>
            match D.propose E1 E2 m b (D.inTable le) rs with
            | none => .waiting
            | some ((lx, ly), rs) =>
              match D.run E1 E2 m le b 41 ⟨lx, ly, D.weight le lx ly⟩ rs with
              | none => .waiting
              | some (c, rs) =>
                match rs with
                | [] => .waiting
                | u :: _ =>
                  let x := pow10 c.lx
                  let y := pow10 c.ly
                  match finalState r.p r.mass r.targetMass m x y (uniform 0 (2 * Real.pi) u) with
                  | none => .nan
                  | some (l, h) => if isLepton r.t0 then .done l h x y else .done h l x y

/-! ### Specification -/

/-- A lepton of mass `m` can come out of the scattering of a massless particle of energy `E` on a particle of mass `M` at
rest with Bjorken `x` and `y`: there is a lepton momentum, with energy `e`, component `pl` along the beam and `pt` across
it, on its mass shell, for which `y` is the fraction of the energy lost, `x = Q²/(2 M ν)`, and the rest has at least the
mass of the target. -/
def Reachable (E M m x y : ℝ) : Prop :=
  ∃ e pl pt : ℝ, 0 ≤ e ∧ e ^ 2 = pl ^ 2 + pt ^ 2 + m ^ 2 ∧ y = (E - e) / E ∧
    x = ((E - pl) ^ 2 + pt ^ 2 - (E - e) ^ 2) / (2 * M * (E - e)) ∧
    M ^ 2 ≤ (M + (E - e)) ^ 2 - ((E - pl) ^ 2 + pt ^ 2)

/-! ### Phase space -/

/-- The quadratic in `y` behind equation 7. -/
theorem allowed_quadratic {x y E M m : ℝ} (hx : 0 < x) (hE : 0 < E) (hM : 0 < M) :
    (2 * (1 + (M * x) / (2 * E)) * y - (1 - m * m * ((1 / (2 * M * E * x)) + (1 / (2 * E * E))))) ^ 2 -
      ((1 - ((m * m) / (2 * M * E * x))) * (1 - ((m * m) / (2 * M * E * x))) - ((m * m) / (E * E))) =
    2 * (1 + (M * x) / (2 * E)) / (E * M * x) *
      (y ^ 2 * (2 * E * M * x + M ^ 2 * x ^ 2) + y * (m ^ 2 - 2 * E * M * x + m ^ 2 * M * x / E) + m ^ 4 / (4 * E ^ 2)) := by
  field_simp
  ring

/-- The condition that the transverse momentum is real. -/
noncomputable def Quad (x y E M m : ℝ) : ℝ :=
  y ^ 2 * (2 * E * M * x + M ^ 2 * x ^ 2) + y * (m ^ 2 - 2 * E * M * x + m ^ 2 * M * x / E) + m ^ 4 / (4 * E ^ 2)

theorem allowed_iff_quad {x y E M m : ℝ} (hx : 0 < x) (hE : 0 < E) (hM : 0 < M) :
    allowed x y E M m = true ↔ x ≤ 1 ∧ (m * m) / (2 * M * (E - m)) ≤ x ∧ Quad x y E M m ≤ 0 := by
  have hq := allowed_quadratic (y := y) (m := m) hx hE hM
  have hk : 0 < 2 * (1 + (M * x) / (2 * E)) / (E * M * x) := by positivity
  unfold allowed
  simp only
  generalize 2 * (1 + (M * x) / (2 * E)) = d at *
  generalize 1 - m * m * ((1 / (2 * M * E * x)) + (1 / (2 * E * E))) = ad at *
  generalize (1 - ((m * m) / (2 * M * E * x))) * (1 - ((m * m) / (2 * M * E * x))) - ((m * m) / (E * E)) = disc at *
  rw [show y ^ 2 * (2 * E * M * x + M ^ 2 * x ^ 2) + y * (m ^ 2 - 2 * E * M * x + m ^ 2 * M * x / E) + m ^ 4 / (4 * E ^ 2) =
    Quad x y E M m from rfl] at hq
  have hiff : Quad x y E M m ≤ 0 ↔ (d * y - ad) ^ 2 ≤ disc := by
    constructor
    · intro h
      have := mul_nonpos_of_nonneg_of_nonpos hk.le h
      linarith
    · intro h
      by_contra hc
      push Not at hc
      have := mul_pos hk hc
      linarith
  rw [hiff]
  split
  next h => simp only [Bool.false_eq_true, false_iff]; intro hc; linarith [hc.1]
  next h1 =>
    split
    next h => simp only [Bool.false_eq_true, false_iff]; intro hc; linarith [hc.2.1]
    next h2 =>
      unfold sqrtN
      by_cases hd : 0 ≤ disc
      · rw [if_pos hd]
        simp only [Bool.and_eq_true, decide_eq_true_eq]
        have : (d * y - ad) ^ 2 ≤ disc ↔ |d * y - ad| ≤ Real.sqrt disc := by
          rw [Real.le_sqrt (abs_nonneg _) hd, sq_abs]
        rw [this, abs_le]
        constructor
        · rintro ⟨h3, h4⟩; exact ⟨not_lt.mp h1, not_lt.mp h2, by linarith, by linarith⟩
        · rintro ⟨-, -, h3, h4⟩; exact ⟨by linarith, by linarith⟩
      · rw [if_neg hd]
        simp only [Bool.false_eq_true, false_iff]
        rintro ⟨-, -, h3⟩
        nlinarith [sq_nonneg (d * y - ad)]

theorem quad_eq {x y E M m : ℝ} (hE : 0 < E) :
    Quad x y E M m = (E * (1 - y) - m ^ 2 / (2 * E) - M * x * y) ^ 2 - (E ^ 2 * (1 - y) ^ 2 - m ^ 2) := by
  unfold Quad
  field_simp
  ring

/-- The allowed values of `y` do not exceed one. -/
theorem y_lt_one {x y E M m : ℝ} (hx : 0 < x) (hE : 0 < E) (hM : 0 < M) (hy : 0 < y) (h : Quad x y E M m ≤ 0) : y < 1 := by
  rw [quad_eq hE] at h
  by_contra hc
  push Not at hc
  have h1 : E * (1 - y) ≤ 0 := mul_nonpos_of_nonneg_of_nonpos hE.le (by linarith)
  have h2 : 0 < M * x * y := by positivity
  have h3 : 0 ≤ m ^ 2 / (2 * E) := by positivity
  nlinarith [sq_nonneg m, mul_nonneg h3 h2.le, mul_nonneg h3 h3, mul_pos h2 h2,
    mul_nonneg (neg_nonneg.mpr h1) h3, mul_nonneg (neg_nonneg.mpr h1) h2.le]

/-- Equation 6 follows from equation 7 for positive `y`. -/
theorem x_ge {x y E M m : ℝ} (hx : 0 < x) (hM : 0 < M) (hm : 0 ≤ m) (hmE : m < E) (hy : 0 < y)
    (h : Quad x y E M m ≤ 0) : (m * m) / (2 * M * (E - m)) ≤ x := by
  have hE : 0 < E := lt_of_le_of_lt hm hmE
  rw [div_le_iff₀ (by nlinarith : 0 < 2 * M * (E - m))]
  set a := M * x with ha
  have hapos : 0 < a := by positivity
  have h1 : y ^ 2 * (2 * E * a + a ^ 2) - y * (2 * E * a - m ^ 2 - m ^ 2 * a / E) + m ^ 4 / (4 * E ^ 2) ≤ 0 := by
    have : Quad x y E M m = y ^ 2 * (2 * E * a + a ^ 2) - y * (2 * E * a - m ^ 2 - m ^ 2 * a / E) + m ^ 4 / (4 * E ^ 2) := by
      unfold Quad; rw [ha]; ring
    linarith
  set A := 2 * E * a + a ^ 2 with hA
  set B := 2 * E * a - m ^ 2 - m ^ 2 * a / E with hB
  set C := m ^ 4 / (4 * E ^ 2) with hC
  have hApos : 0 < A := by positivity
  have hC0 : 0 ≤ C := by positivity
  have hBpos : 0 < B := by
    have h2 : 0 < y ^ 2 * A := by positivity
    have h3 : 0 < y * B := by linarith
    exact (mul_pos_iff_of_pos_left hy).mp h3
  -- the discriminant
  have hdisc : 4 * A * C ≤ B ^ 2 := by
    have h2 : (2 * A * y - B) ^ 2 ≤ B ^ 2 - 4 * A * C := by nlinarith
    nlinarith [sq_nonneg (2 * A * y - B)]
  have h4 : (2 * E * a - m ^ 2) ^ 2 - (2 * a * m) ^ 2 = B ^ 2 - 4 * A * C := by
    rw [hA, hB, hC]; field_simp; ring
  have h5 : 0 < 2 * E * a - m ^ 2 := by
    have : 0 ≤ m ^ 2 * a / E := by positivity
    rw [hB] at hBpos; linarith
  have h6 : 2 * a * m ≤ 2 * E * a - m ^ 2 := by
    apply abs_le_of_sq_le_sq' _ h5.le |>.2
    nlinarith
  rw [ha] at h6
  nlinarith

/-- C77: `kinematicallyAllowed` accepts `(x, y)` exactly if a lepton of that mass can come out with this `x` and `y`. -/
theorem C77_allowed_iff {x y E M m : ℝ} (hx : 0 < x) (hy : 0 < y) (hM : 0 < M) (hm : 0 ≤ m) (hmE : m < E) :
    allowed x y E M m = true ↔ Reachable E M m x y := by
  have hE : 0 < E := lt_of_le_of_lt hm hmE
  rw [allowed_iff_quad hx hE hM]
  constructor
  · rintro ⟨h1, -, h3⟩
    have hy1 := y_lt_one hx hE hM hy h3
    have h3' := h3
    rw [quad_eq hE] at h3'
    set pl := E * (1 - y) - m ^ 2 / (2 * E) - M * x * y with hpl
    refine ⟨E * (1 - y), pl, Real.sqrt (E ^ 2 * (1 - y) ^ 2 - m ^ 2 - pl ^ 2), ?_, ?_, ?_, ?_, ?_⟩
    · exact mul_nonneg hE.le (by linarith)
    · rw [Real.sq_sqrt (by linarith)]; ring
    · field_simp; ring
    · rw [Real.sq_sqrt (by linarith)]
      have h2 : 2 * M * (E - E * (1 - y)) ≠ 0 := by
        have : 2 * M * (E - E * (1 - y)) = 2 * M * (E * y) := by ring
        rw [this]; positivity
      rw [eq_div_iff h2, hpl]
      field_simp
      ring
    · rw [Real.sq_sqrt (by linarith)]
      have e : (M + (E - E * (1 - y))) ^ 2 - ((E - pl) ^ 2 + (E ^ 2 * (1 - y) ^ 2 - m ^ 2 - pl ^ 2)) =
          M ^ 2 + 2 * M * E * y * (1 - x) := by
        rw [hpl]; field_simp; ring
      rw [e]
      have : 0 ≤ 2 * M * E * y * (1 - x) := mul_nonneg (by positivity) (by linarith)
      linarith
  · rintro ⟨e, pl, pt, he, hs, hy2, hx2, hW⟩
    have hy3 : E - e = E * y := by rw [hy2]; field_simp
    have hpos : 0 < E - e := by rw [hy3]; positivity
    rw [hy3] at hx2 hW
    have hxx : x * (2 * M * (E * y)) = (E - pl) ^ 2 + pt ^ 2 - (E * y) ^ 2 := by
      rw [hx2]; field_simp
    have hx1 : x ≤ 1 := by
      have h2 : 0 < 2 * M * (E * y) := by positivity
      nlinarith
    have hq : Quad x y E M m ≤ 0 := by
      rw [quad_eq hE]
      have e1 : e = E * (1 - y) := by linarith
      have e2 : E * (1 - y) - m ^ 2 / (2 * E) - M * x * y = pl := by
        have : 2 * E * pl = 2 * E ^ 2 * (1 - y) - m ^ 2 - 2 * E * (M * x * y) := by
          rw [e1] at hs
          nlinarith
        field_simp
        linarith
      rw [e2]
      rw [e1] at hs
      nlinarith [sq_nonneg pt]
    exact ⟨hx1, x_ge hx hM hm hmE hy hq, hq⟩

end Dis
end Siren
