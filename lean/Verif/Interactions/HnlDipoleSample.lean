import Verif.Base
import Verif.Interactions.HnlDipole
import Verif.Interactions.LogChain

set_option autoImplicit false
set_option linter.unusedSectionVars false

/-!
# Cross sections and sampling of the dipole upscattering from tables

Continues the model of `interactions/private/HNLDipoleFromTable.cxx`. The interpolation tables are parameters.
-/

namespace Siren
namespace HnlDipole

open Rk Dis
open DarkNews (Out Kinematics)

/-! ### Model -/

/-- `Interpolator2D` with its limits (utilities/Interpolator.h): a parameter. -/
structure Table where
  f : ℝ → ℝ → ℝ
  minX : ℝ
  maxX : ℝ
  minY : ℝ
  maxY : ℝ

/-- The members of `HNLDipoleFromTable` (HNLDipoleFromTable.h:41-49). `total` only matters for its keys here; `protons` is
`MaterialModel::GetProtonCount`. -/
structure Config where
  primaries : List ℤ
  m : ℝ
  coupling : ℝ
  flipping : Bool
  zSamp : Bool
  inelastic : Bool
  inInvGeV : Bool
  diff : ℤ → Option Table
  hasTotal : ℤ → Bool
  protons : ℤ → ℝ

/-- `ParticleType::HNucleus` (dataclasses/ParticleTypes.def:79). -/
def hNucleus : ℤ := 1000010010

/-- `nprotons` (HNLDipoleFromTable.cxx:213-216, 249-253). -/
noncomputable def Config.count (c : Config) (target : ℤ) : ℝ :=
  if !c.inelastic || target = hNucleus then 0 else c.protons target

/-- `invGeVsq_per_cmsq` (utilities/Constants.h:130). -/
noncomputable def unit : ℝ := 2.568189461147501e27

/-- The last lines of `DifferentialCrossSection` (HNLDipoleFromTable.cxx:237-239). -/
noncomputable def Config.scale (c : Config) (x : ℝ) : ℝ := c.coupling ^ 2 * (if c.inInvGeV then x / unit else x)

open Classical in
/-- `DifferentialCrossSection` with a threshold (HNLDipoleFromTable.cxx:202-240). Where a limit of y is not a number the result is
not pursued (`none`). -/
noncomputable def Config.diffAt (c : Config) (primary : ℤ) (E : ℝ) (target : ℤ) (M y thresh : ℝ) : Res (Option ℝ) :=
  if primary ∉ c.primaries then .ok (some 0)
  else if !c.hasTotal target then .ok (some 0)
  else match c.diff target, c.diff hNucleus with
    | some T, some P =>
      let n := c.count target
      if E < thresh ∨ E > T.maxX then .ok (some 0)
      else match yMin E c.m M, yMax E c.m M with
        | some a, some b =>
          if y < a ∨ y > b then .ok (some 0)
          else
            let t := if c.zSamp then (y - a) / (b - a) else y
            if t < T.minY ∨ t > T.maxY then .ok (some 0) else .ok (some (c.scale (T.f E t + n * P.f E t)))
        | _, _ => .ok none
    | _, _ => .throws .outOfRange

/-- The primary and the target of an interaction. -/
structure Event where
  primary : ℤ
  target : ℤ
  energy : ℝ
  p : Vec3 ℝ
  mass : ℝ
  targetMass : ℝ
  helicity : ℝ

open Classical in
/-- The y of a record (HNLDipoleFromTable.cxx:163-189): `target_mass` is read from `primary_mass`. -/
noncomputable def yRecord (r : Event) (hnl : Secondary) : Option ℝ :=
  let p1 := P4.ofMass r.p r.mass
  let p2 := P4.ofMass ⟨0, 0, 0⟩ r.mass
  let p3 := P4.ofMass hnl.p hnl.mass
  if p2.dot p1 = 0 then none else some (1 - p2.dot p3 / p2.dot p1)

/-- `DifferentialCrossSection(record)` (HNLDipoleFromTable.cxx:163-193). -/
noncomputable def Config.diffRecord (c : Config) (r : Event) (hnl : Secondary) : Res (Option ℝ) :=
  match yRecord r hnl with
  | none => .ok none
  | some y => c.diffAt r.primary r.energy r.target r.mass y (threshold c.m r.targetMass)

/-- The variables of `SampleFinalState` that stay fixed (HNLDipoleFromTable.cxx:247-304). -/
structure Env where
  p : Vec3 ℝ
  m1 : ℝ
  m : ℝ
  M : ℝ
  lo : ℝ
  hi : ℝ
  z : Bool
  n : ℝ
  T : Table
  P : Table

namespace Env

variable (S : Env)

/-- `E1_lab`, `E2_lab` (HNLDipoleFromTable.cxx:295-296). -/
noncomputable def E1 : ℝ := (P4.ofMass S.p S.m1).e
noncomputable def E2 : ℝ := (P4.ofMass ⟨0, 0, 0⟩ S.M).e

/-- `min_Q2` (HNLDipoleFromTable.cxx:270, 303); `s` is the square of the square root. -/
noncomputable def minQ2 : ℝ :=
  S.lo * ((S.m1 * S.m1 + S.M * S.M + 2 * (P4.ofMass S.p S.m1).dot (P4.ofMass ⟨0, 0, 0⟩ S.M)) - S.M * S.M)

/-- The variable of the tables (HNLDipoleFromTable.cxx:331, 343-344). -/
noncomputable def point (y : ℝ) : ℝ := if S.z then (y - S.lo) / (S.hi - S.lo) else y

/-- Within the extents of the table (HNLDipoleFromTable.cxx:332-335, 375-378). -/
def InTable (y : ℝ) : Prop := ¬ (S.point y < S.T.minY ∨ S.point y > S.T.maxY)

open Classical in
/-- `test_cross_section` (HNLDipoleFromTable.cxx:340-354, 383-396). -/
noncomputable def weight (y : ℝ) : ℝ :=
  S.T.f S.E1 (S.point y) +
    if (S.E1 > S.P.minX ∧ S.E1 < S.P.maxX) ∧ (S.point y > S.P.minY ∧ S.point y < S.P.maxY) then S.n * S.P.f S.E1 (S.point y) else 0

/-- A value of y for the generator value `u` (HNLDipoleFromTable.cxx:325, 368). -/
noncomputable def propose (u : ℝ) : ℝ := pow10 (uniform (log10 S.lo) (log10 S.hi) u)

/-- Drawn again (HNLDipoleFromTable.cxx:326-327, 369-370). -/
def Again (y : ℝ) : Prop := 2 * S.E1 * S.E2 * y < S.minQ2

open Classical in
/-- The inner loops (HNLDipoleFromTable.cxx:324-327, 367-370). -/
noncomputable def draw : List ℝ → Option (ℝ × List ℝ)
  | [] => none
  | u :: rs => if S.Again (S.propose u) then draw rs else some (S.propose u, rs)

open Classical in
/-- The initial point: both loops (HNLDipoleFromTable.cxx:321-337). -/
noncomputable def initial : List ℝ → Option (ℝ × List ℝ)
  | [] => none
  | u :: rs => if S.Again (S.propose u) ∨ ¬ S.InTable (S.propose u) then initial rs else some (S.propose u, rs)

/-- The chain: `kin_vars[1]` and `cross_section`. -/
structure Chain where
  y : ℝ
  w : ℝ

open Classical in
/-- The chain after a pass with the proposed `y` and the number `v` for the decision (HNLDipoleFromTable.cxx:372-408). -/
noncomputable def next (c : Chain) (y v : ℝ) : Chain :=
  if ¬ S.InTable y then c
  else if S.weight y ≤ 0 then c
  else if accepts c.w (S.weight y) v then ⟨y, S.weight y⟩ else c

open Classical in
/-- One pass of the loop (HNLDipoleFromTable.cxx:364-408). The number for the decision is drawn only if it is needed. -/
noncomputable def step (c : Chain) (rs : List ℝ) : Option (Chain × List ℝ) :=
  match S.draw rs with
  | none => none
  | some (y, rs) =>
    if ¬ S.InTable y ∨ S.weight y ≤ 0 ∨ c.w = 0 ∨ S.weight y / c.w > 1 then some (S.next c y 0, rs)
    else match rs with
      | [] => none
      | v :: rs => some (S.next c y v, rs)

/-- `n` passes. -/
noncomputable def run : Nat → Chain → List ℝ → Option (Chain × List ℝ)
  | 0, c, rs => some (c, rs)
  | n + 1, c, rs =>
    match S.step c rs with
    | none => none
    | some (c, rs) => run n c rs

/-- The momenta for given y and azimuth (HNLDipoleFromTable.cxx:416-440). `none` if they are not numbers. -/
noncomputable def final (y phi : ℝ) : Option (P4 × P4) :=
  let E3 := S.E1 * (1 - y)
  let psq := E3 * E3 - S.m * S.m
  let px := E3 - S.M * y - S.m * S.m / (2 * S.E1)
  (sqrtN (psq - px * px)).map fun py =>
    let dir := direction S.p
    let p3 := ((P4.ofMass ⟨px, py, 0⟩ S.m).rotate (rotationBetween ⟨1, 0, 0⟩ dir)).rotate (axisAngle dir phi)
    (p3, (P4.ofMass ⟨0, 0, 0⟩ S.M).add ((P4.ofMass S.p S.m1).sub p3))

end Env

/-- Result of `SampleFinalState`: the numbers of the generator did not suffice, a momentum or a limit is not a number, the
assertion on the lower limit fails, an exception, or the lepton, the recoil and the recorded `bjorken_y`. -/
inductive Outcome where
  | waiting
  | nan
  | asserts
  | throws (e : Exn)
  | done (hnl recoil : Out) (y : ℝ)

open Classical in
/-- `std::copysign(0.5, primary helicity times helicity_mul)` (HNLDipoleFromTable.cxx:442-446, 457, 461). -/
noncomputable def Config.helicity (c : Config) (h : ℝ) : ℝ :=
  if h * (if c.flipping then -1 else 1) < 0 then -(1 / 2) else 1 / 2

/-- The fixed variables. -/
def Config.env (c : Config) (r : Event) (T P : Table) (n a b : ℝ) : Env := ⟨r.p, r.mass, c.m, r.targetMass, a, b, c.zSamp, n, T, P⟩

open Classical in
/-- `SampleFinalState` (HNLDipoleFromTable.cxx:246-462). -/
noncomputable def Config.sample (c : Config) (r : Event) (rs : List ℝ) : Outcome :=
  match c.diff r.target, c.diff hNucleus with
  | some T, some P =>
    let E := (P4.ofMass r.p r.mass).e
    if E < threshold c.m r.targetMass then .throws .injectionFailure
    else match yMin E c.m r.targetMass, yMax E c.m r.targetMass with
      | some a, some b =>
        if ¬ a > 0 then .asserts
        else if E < threshold c.m r.targetMass ∨ E > T.maxX then .throws .runtimeError
        else match (c.env r T P (c.count r.target) a b).initial rs with
          | none => .waiting
          | some (y, rs) =>
            match (c.env r T P (c.count r.target) a b).run 41 ⟨y, (c.env r T P (c.count r.target) a b).weight y⟩ rs with
            | none => .waiting
            | some (ch, rs) =>
              match rs with
              | [] => .waiting
              | v :: _ =>
                match (c.env r T P (c.count r.target) a b).final (ch.y + 1e-16) (uniform 0 (2 * Real.pi) v) with
                | none => .nan
                | some (p3, p4) =>
                  match p3.m, p4.m with
                  | some m3, some m4 =>
                    .done ⟨p3.e, p3.p, m3, c.helicity r.helicity⟩ ⟨p4.e, p4.p, m4, c.helicity r.helicity⟩ (ch.y + 1e-16)
                  | _, _ => .nan
      | _, _ => .nan
  | _, _ => .throws .outOfRange

/-! ### Lemmas -/

namespace Env

variable {S : Env}

theorem E1_massless (h : S.m1 = 0) : S.E1 = S.p.norm := by
  show Real.sqrt (S.m1 * S.m1 + Vec3.dot S.p S.p) = Real.sqrt (Vec3.dot S.p S.p)
  rw [h]; congr 1; ring

theorem E2_eq (hM : 0 < S.M) : S.E2 = S.M := DarkNews.Setup.e2_eq hM

theorem m_of {P : P4} {M : ℝ} (hk : P.known = none) (hM : 0 ≤ M) (h : P.e ^ 2 - Vec3.dot P.p P.p = M ^ 2) : P.m = some M := by
  have h2 : P.e * P.e - Vec3.dot P.p P.p = M * M := by linarith [sq P.e, sq M]
  unfold P4.m
  rw [hk]
  simp only [h2]
  split
  · rw [if_neg (not_lt.mpr (mul_self_nonneg M)), Real.sqrt_mul_self hM]
  · unfold sqrtN
    rw [if_pos (mul_self_nonneg M), Real.sqrt_mul_self hM]

/-- The final state for a massless primary. -/
theorem final_spec (h1 : S.m1 = 0) (hp : S.p ≠ 0) (hA : Apart ⟨1, 0, 0⟩ (direction S.p)) (h : Above S.p.norm S.m S.M)
    (y phi h3 h4 : ℝ) :
    (HnlDipole.lo S.p.norm S.m S.M ≤ y ∧ y ≤ HnlDipole.hi S.p.norm S.m S.M →
      ∃ p3 p4, S.final y phi = some (p3, p4) ∧ p3.m = some S.m ∧ p4.m = some S.M ∧ p3.e = S.p.norm * (1 - y) ∧
        Kinematics S.p 0 S.M (2 * S.M * S.p.norm * y) ⟨p3.e, p3.p, S.m, h3⟩ ⟨p4.e, p4.p, S.M, h4⟩) ∧
    (¬ (HnlDipole.lo S.p.norm S.m S.M ≤ y ∧ y ≤ HnlDipole.hi S.p.norm S.m S.M) → S.final y phi = none) := by
  have hn := norm_pos hp
  have hnn := norm_sq S.p
  have hE1 := E1_massless h1
  set E := S.p.norm with hEd
  have hs := h.s_pos
  have hM := h.target
  have ht := transverse h y
  have harg : E * (1 - y) * (E * (1 - y)) - S.m * S.m - (E * (1 - y) - S.M * y - S.m * S.m / (2 * E)) *
      (E * (1 - y) - S.M * y - S.m * S.m / (2 * E)) =
      sOf E S.M * (y - HnlDipole.lo E S.m S.M) * (HnlDipole.hi E S.m S.M - y) := by
    rw [← ht]; unfold along; ring
  have hlh := h.lo_le_hi
  constructor
  · rintro ⟨hy1, hy2⟩
    have h0 : 0 ≤ sOf E S.M * (y - HnlDipole.lo E S.m S.M) * (HnlDipole.hi E S.m S.M - y) :=
      mul_nonneg (mul_nonneg hs.le (by linarith)) (by linarith)
    have hlt := h.hi_lt_one
    set n := direction S.p with hnd
    have hnu : Vec3.dot n n = 1 := direction_unit S.p
    have hxu : Vec3.dot (⟨1, 0, 0⟩ : Vec3 ℝ) ⟨1, 0, 0⟩ = 1 := by simp [Vec3.dot]
    set R := rotationBetween ⟨1, 0, 0⟩ n with hR
    set A := axisAngle n phi with hAx
    have hRu : R.IsUnit := rotationBetween_unit _ _
    have hAu : A.IsUnit := axisAngle_unit hnu phi
    have hRx : rotApply R ⟨1, 0, 0⟩ = n := rotationBetween_spec hxu hnu hA
    have hAn : rotApply A n = n := axisAngle_axis hnu phi
    set py := Real.sqrt (sOf E S.M * (y - HnlDipole.lo E S.m S.M) * (HnlDipole.hi E S.m S.M - y)) with hpy
    have hpy2 : py * py = sOf E S.M * (y - HnlDipole.lo E S.m S.M) * (HnlDipole.hi E S.m S.M - y) := Real.mul_self_sqrt h0
    set px := E * (1 - y) - S.M * y - S.m * S.m / (2 * E) with hpx
    set v := rotApply A (rotApply R ⟨px, py, 0⟩) with hv
    have hvv : Vec3.dot v v = (E * (1 - y)) ^ 2 - S.m ^ 2 := by
      rw [hv, rotApply_dot hAu, rotApply_dot hRu]
      simp only [Vec3.dot]; linarith [hpy2, harg, sq (E * (1 - y)), sq S.m]
    have hvn : Vec3.dot n v = px := by
      calc Vec3.dot n v = Vec3.dot (rotApply A n) (rotApply A (rotApply R ⟨px, py, 0⟩)) := by rw [hAn]
        _ = Vec3.dot (rotApply R ⟨1, 0, 0⟩) (rotApply R ⟨px, py, 0⟩) := by rw [rotApply_dot hAu, hRx]
        _ = px := by rw [rotApply_dot hRu]; simp [Vec3.dot]
    have hpn : Vec3.smul E n = S.p := norm_direction S.p
    have hpv : Vec3.dot S.p v = E * px := by
      calc Vec3.dot S.p v = Vec3.dot (Vec3.smul E n) v := by rw [hpn]
        _ = E * Vec3.dot n v := by simp only [Vec3.dot, Vec3.smul]; ring
        _ = E * px := by rw [hvn]
    have hEx : E * px = E * (E * (1 - y)) - E * (S.M * y) - S.m * S.m / 2 := by rw [hpx]; field_simp
    have he3 : (P4.ofMass (⟨px, py, 0⟩ : Vec3 ℝ) S.m).e = E * (1 - y) := by
      show Real.sqrt (S.m * S.m + Vec3.dot (⟨px, py, 0⟩ : Vec3 ℝ) ⟨px, py, 0⟩) = _
      have : S.m * S.m + Vec3.dot (⟨px, py, 0⟩ : Vec3 ℝ) ⟨px, py, 0⟩ = (E * (1 - y)) ^ 2 := by
        simp only [Vec3.dot]; linarith [hpy2, harg, sq (E * (1 - y))]
      rw [this]
      exact Real.sqrt_sq (mul_nonneg hn.le (by linarith))
    have he2 : (P4.ofMass ⟨0, 0, 0⟩ S.M).e = S.M := E2_eq hM
    have he1 : (P4.ofMass S.p S.m1).e = E := hE1
    have hfin : S.final y phi = some
        (((P4.ofMass ⟨px, py, 0⟩ S.m).rotate R).rotate A,
          (P4.ofMass ⟨0, 0, 0⟩ S.M).add ((P4.ofMass S.p S.m1).sub (((P4.ofMass ⟨px, py, 0⟩ S.m).rotate R).rotate A))) := by
      unfold final
      rw [hE1]
      simp only
      have : sqrtN (E * (1 - y) * (E * (1 - y)) - S.m * S.m - px * px) = some py := by
        rw [hpx, harg]; unfold sqrtN; rw [if_pos h0]
      rw [this]; rfl
    have hsub : ∀ a b : Vec3 ℝ, Vec3.dot (a - b) (a - b) = Vec3.dot a a - 2 * Vec3.dot a b + Vec3.dot b b := by
      intro a b; simp only [Vec3.dot, Vec3.sub_x, Vec3.sub_y, Vec3.sub_z]; ring
    have hp4 : (⟨0, 0, 0⟩ : Vec3 ℝ) + (S.p - v) = S.p - v := by ext <;> simp
    have hpp : Vec3.dot S.p S.p = E * E := hnn.symm
    have hsq0 : Real.sqrt ((0 : ℝ) ^ 2 + Vec3.dot S.p S.p) = E := by
      rw [hpp]; simp only [ne_eq, OfNat.ofNat_ne_zero, not_false_eq_true, zero_pow, zero_add]
      exact Real.sqrt_mul_self hn.le
    have hk4 : (S.M + (E - E * (1 - y))) ^ 2 - Vec3.dot (S.p - v) (S.p - v) = S.M ^ 2 := by
      rw [hsub, hpv, hvv, hEx, hpp]; ring
    refine ⟨_, _, hfin, rfl, ?_, he3, ?_⟩
    · apply m_of rfl hM.le
      show ((P4.ofMass ⟨0, 0, 0⟩ S.M).e + ((P4.ofMass S.p S.m1).e - (P4.ofMass (⟨px, py, 0⟩ : Vec3 ℝ) S.m).e)) ^ 2 -
        Vec3.dot ((⟨0, 0, 0⟩ : Vec3 ℝ) + (S.p - v)) ((⟨0, 0, 0⟩ : Vec3 ℝ) + (S.p - v)) = _
      rw [he1, he2, he3, hp4]
      exact hk4
    · refine ⟨?_, ?_, ?_, ?_, ?_, ?_, ?_⟩
      · show v + ((⟨0, 0, 0⟩ : Vec3 ℝ) + (S.p - v)) = S.p
        ext <;> simp
      · show (P4.ofMass (⟨px, py, 0⟩ : Vec3 ℝ) S.m).e +
          ((P4.ofMass ⟨0, 0, 0⟩ S.M).e + ((P4.ofMass S.p S.m1).e - (P4.ofMass (⟨px, py, 0⟩ : Vec3 ℝ) S.m).e)) = _
        rw [he1, he2, hsq0]; ring
      · show (P4.ofMass (⟨px, py, 0⟩ : Vec3 ℝ) S.m).e ^ 2 - Vec3.dot v v = S.m ^ 2
        rw [he3, hvv]; ring
      · show ((P4.ofMass ⟨0, 0, 0⟩ S.M).e + ((P4.ofMass S.p S.m1).e - (P4.ofMass (⟨px, py, 0⟩ : Vec3 ℝ) S.m).e)) ^ 2 -
          Vec3.dot ((⟨0, 0, 0⟩ : Vec3 ℝ) + (S.p - v)) ((⟨0, 0, 0⟩ : Vec3 ℝ) + (S.p - v)) = S.M ^ 2
        rw [he1, he2, he3, hp4]
        exact hk4
      · show 0 < (P4.ofMass (⟨px, py, 0⟩ : Vec3 ℝ) S.m).e
        rw [he3]; exact mul_pos hn (by linarith)
      · show 0 < (P4.ofMass ⟨0, 0, 0⟩ S.M).e + ((P4.ofMass S.p S.m1).e - (P4.ofMass (⟨px, py, 0⟩ : Vec3 ℝ) S.m).e)
        rw [he1, he2, he3]
        have h0y : 0 ≤ y := le_trans h.lo_nonneg hy1
        have : 0 ≤ E * y := mul_nonneg hn.le h0y
        linarith
      · show (Real.sqrt ((0 : ℝ) ^ 2 + Vec3.dot S.p S.p) - (P4.ofMass (⟨px, py, 0⟩ : Vec3 ℝ) S.m).e) ^ 2 -
          Vec3.dot (S.p - v) (S.p - v) = -(2 * S.M * E * y)
        rw [hsq0, he3]
        linear_combination hk4
  · intro hout
    have hneg : ¬ 0 ≤ sOf E S.M * (y - HnlDipole.lo E S.m S.M) * (HnlDipole.hi E S.m S.M - y) := by
      push Not
      by_cases hy1 : HnlDipole.lo E S.m S.M ≤ y
      · have hy2 : HnlDipole.hi E S.m S.M < y := by
          by_contra hc
          exact hout ⟨hy1, not_lt.mp hc⟩
        exact mul_neg_of_pos_of_neg (mul_pos hs (by linarith)) (by linarith)
      · push Not at hy1
        exact mul_neg_of_neg_of_pos (mul_neg_of_pos_of_neg hs (by linarith)) (by linarith)
    unfold final
    rw [hE1]
    simp only
    rw [harg]
    unfold sqrtN
    rw [if_neg hneg]; rfl

theorem propose_mem (S : Env) (h1 : 0 < S.lo) (h2 : S.lo ≤ S.hi) {u : ℝ} (h0 : 0 ≤ u) (hu : u ≤ 1) :
    S.lo ≤ S.propose u ∧ S.propose u ≤ S.hi :=
  DarkNews.Setup.propose_mem ⟨0, 0, 0, 0, 0, S.lo, S.hi, fun _ => 0⟩ h1 h2 h0 hu

/-- With a massless primary a proposal is never drawn again. -/
theorem never_again (h1 : S.m1 = 0) (hM : 0 < S.M) {y : ℝ} (hy : S.lo ≤ y) : ¬ S.Again y := by
  have hE : 0 ≤ S.E1 := Real.sqrt_nonneg _
  have e2 := E2_eq hM
  have hd : (P4.ofMass S.p S.m1).dot (P4.ofMass ⟨0, 0, 0⟩ S.M) = S.E1 * S.M := by
    show S.E1 * S.E2 - Vec3.dot S.p ⟨0, 0, 0⟩ = _
    rw [e2]; simp [Vec3.dot]
  unfold Again minQ2
  rw [hd, h1, e2]
  have : 0 ≤ S.E1 * S.M := mul_nonneg hE hM.le
  push Not
  nlinarith

def From (S : Env) (rs : List ℝ) (y : ℝ) : Prop := ∃ u ∈ rs, y = S.propose u

theorem draw_spec (S : Env) : ∀ {rs rs' : List ℝ} {y : ℝ}, S.draw rs = some (y, rs') → S.From rs y ∧ ∀ u ∈ rs', u ∈ rs
  | [], rs', y, h => by simp [draw] at h
  | u :: rs, rs', y, h => by
    unfold draw at h
    split at h
    · obtain ⟨⟨w, hw, he⟩, h3⟩ := draw_spec S h
      exact ⟨⟨w, List.mem_cons_of_mem _ hw, he⟩, fun x hx => List.mem_cons_of_mem _ (h3 x hx)⟩
    · simp only [Option.some.injEq, Prod.mk.injEq] at h
      obtain ⟨h1, h2⟩ := h
      subst h1; subst h2
      exact ⟨⟨u, List.mem_cons_self, rfl⟩, fun x hx => List.mem_cons_of_mem _ hx⟩

theorem initial_spec (S : Env) : ∀ {rs rs' : List ℝ} {y : ℝ}, S.initial rs = some (y, rs') →
    S.From rs y ∧ S.InTable y ∧ ∀ u ∈ rs', u ∈ rs
  | [], rs', y, h => by simp [initial] at h
  | u :: rs, rs', y, h => by
    unfold initial at h
    split at h
    · obtain ⟨⟨w, hw, he⟩, h2, h3⟩ := initial_spec S h
      exact ⟨⟨w, List.mem_cons_of_mem _ hw, he⟩, h2, fun x hx => List.mem_cons_of_mem _ (h3 x hx)⟩
    next hr =>
      simp only [Option.some.injEq, Prod.mk.injEq] at h
      obtain ⟨h1, h2⟩ := h
      subst h1; subst h2
      push Not at hr
      exact ⟨⟨u, List.mem_cons_self, rfl⟩, hr.2, fun x hx => List.mem_cons_of_mem _ hx⟩

theorem next_cases (S : Env) (c : Chain) (y v : ℝ) :
    S.next c y v = c ∨ (S.next c y v = ⟨y, S.weight y⟩ ∧ S.InTable y ∧ 0 < S.weight y) := by
  unfold next
  split
  · exact Or.inl rfl
  next h1 =>
    split
    · exact Or.inl rfl
    next h2 =>
      split
      · exact Or.inr ⟨rfl, not_not.mp h1, not_le.mp h2⟩
      · exact Or.inl rfl

theorem step_next {S : Env} {c c' : Chain} {rs rs' : List ℝ} (h : S.step c rs = some (c', rs')) :
    ∃ y v rs1, S.draw rs = some (y, rs1) ∧ c' = S.next c y v ∧ (rs1 = rs' ∨ rs1 = v :: rs') := by
  unfold step at h
  split at h
  · exact absurd h (by simp)
  next y rs1 hd =>
    split at h
    · simp only [Option.some.injEq, Prod.mk.injEq] at h
      exact ⟨y, 0, rs1, hd, h.1.symm, Or.inl h.2⟩
    · split at h
      · exact absurd h (by simp)
      next v rs2 =>
        simp only [Option.some.injEq, Prod.mk.injEq] at h
        exact ⟨y, v, _, hd, h.1.symm, Or.inr (by rw [h.2])⟩

theorem run_cases (S : Env) : ∀ (n : Nat) {c c' : Chain} {rs rs' : List ℝ}, S.run n c rs = some (c', rs') →
    (c' = c ∨ (S.From rs c'.y ∧ S.InTable c'.y)) ∧ ∀ u ∈ rs', u ∈ rs
  | 0, c, c', rs, rs', h => by
    simp only [run, Option.some.injEq, Prod.mk.injEq] at h
    rw [← h.1, ← h.2]; exact ⟨Or.inl rfl, fun _ h => h⟩
  | n + 1, c, c', rs, rs', h => by
    unfold run at h
    split at h
    · exact absurd h (by simp)
    next c1 rs1 hs =>
      obtain ⟨h1, h2⟩ := run_cases S n h
      obtain ⟨y, v, rs2, e1, e2, e3⟩ := step_next hs
      obtain ⟨hf, hsub0⟩ := draw_spec S e1
      have hsub : ∀ x ∈ rs1, x ∈ rs := by
        intro x hx
        apply hsub0
        rcases e3 with e3 | e3
        · rw [e3]; exact hx
        · rw [e3]; exact List.mem_cons_of_mem _ hx
      refine ⟨?_, fun x hx => hsub x (h2 x hx)⟩
      rcases h1 with h1 | ⟨⟨w, hw, he⟩, hph⟩
      · rw [h1, e2]
        rcases next_cases S c y v with h | ⟨h, hph, -⟩
        · exact Or.inl h
        · right
          rw [h]
          exact ⟨hf, hph⟩
      · exact Or.inr ⟨⟨w, hsub w hw, he⟩, hph⟩

end Env

/-- What a completed sample went through. -/
theorem sample_cases {c : Config} {r : Event} {rs : List ℝ} {hnl recoil : Out} {y : ℝ} (hs : c.sample r rs = .done hnl recoil y) :
    ∃ T P a b y0 v p3 p4 m3 m4, c.diff r.target = some T ∧ c.diff hNucleus = some P ∧
      yMin (P4.ofMass r.p r.mass).e c.m r.targetMass = some a ∧ yMax (P4.ofMass r.p r.mass).e c.m r.targetMass = some b ∧
      0 < a ∧ threshold c.m r.targetMass ≤ (P4.ofMass r.p r.mass).e ∧ (P4.ofMass r.p r.mass).e ≤ T.maxX ∧
      (c.env r T P (c.count r.target) a b).From rs y0 ∧ v ∈ rs ∧ (c.env r T P (c.count r.target) a b).InTable y0 ∧
      (c.env r T P (c.count r.target) a b).final (y0 + 1e-16) (uniform 0 (2 * Real.pi) v) = some (p3, p4) ∧
      p3.m = some m3 ∧ p4.m = some m4 ∧
      hnl = ⟨p3.e, p3.p, m3, c.helicity r.helicity⟩ ∧ recoil = ⟨p4.e, p4.p, m4, c.helicity r.helicity⟩ ∧ y = y0 + 1e-16 := by
  unfold Config.sample at hs
  split at hs
  next T P hT hP =>
    simp only at hs
    split at hs
    · exact absurd hs (by simp)
    next hth =>
      split at hs
      next a b ha hb =>
        split at hs
        · exact absurd hs (by simp)
        next ha0 =>
          split at hs
          · exact absurd hs (by simp)
          next hmax =>
            split at hs
            · exact absurd hs (by simp)
            next y1 rs1 hi =>
              split at hs
              · exact absurd hs (by simp)
              next ch rs2 hrun =>
                split at hs
                · exact absurd hs (by simp)
                next v rs3 =>
                  split at hs
                  · exact absurd hs (by simp)
                  next p3 p4 hf =>
                    split at hs
                    next m3 m4 hm3 hm4 =>
                      simp only [Outcome.done.injEq] at hs
                      obtain ⟨hf1, hin, hsub⟩ := Env.initial_spec _ hi
                      obtain ⟨hc, hsub2⟩ := Env.run_cases _ 41 hrun
                      push Not at hmax
                      refine ⟨T, P, a, b, ch.y, v, p3, p4, m3, m4, hT, hP, ha, hb, not_not.mp ha0, not_lt.mp hth, hmax.2, ?_,
                        hsub v (hsub2 v List.mem_cons_self), ?_, hf, hm3, hm4, hs.1.symm, hs.2.1.symm, hs.2.2.symm⟩
                      · rcases hc with hc | ⟨⟨u, hu, he⟩, -⟩
                        · rw [hc]; exact hf1
                        · exact ⟨u, hsub u hu, he⟩
                      · rcases hc with hc | ⟨-, hc⟩
                        · rw [hc]; exact hin
                        · exact hc
                    · exact absurd hs (by simp)
      · exact absurd hs (by simp)
  · exact absurd hs (by simp)

/-! ### The claims -/

/-- C128: for a massless primary the lepton and the recoil of a sampled event conserve energy and momentum with the target at rest,
are on their mass shells with the masses of the lepton and of the target, which are recorded, and have positive energies; the
recorded y is the fraction of the energy the lepton does not get and is possible. -/
theorem C128_final_state {c : Config} {r : Event} {rs : List ℝ} (hm1 : r.mass = 0) (hp : r.p ≠ 0)
    (hA : Apart ⟨1, 0, 0⟩ (direction r.p)) (hM : 0 < r.targetMass) (hm : 0 < c.m) {hnl recoil : Out} {y : ℝ}
    (hs : c.sample r rs = .done hnl recoil y) :
    hnl.mass = c.m ∧ recoil.mass = r.targetMass ∧ hnl.e = r.p.norm * (1 - y) ∧ Possible r.p.norm c.m r.targetMass y ∧
      Kinematics r.p 0 r.targetMass (2 * r.targetMass * r.p.norm * y) hnl recoil := by
  obtain ⟨T, P, a, b, y0, v, p3, p4, m3, m4, hT, hP, ha, hb, ha0, hth, hmax, hf, hv, hin, hfin, hm3, hm4, e1, e2, e3⟩ :=
    sample_cases hs
  set S := c.env r T P (c.count r.target) a b with hS
  have hE : (P4.ofMass r.p r.mass).e = r.p.norm := Env.E1_massless (S := S) hm1
  rw [hE] at hth
  have hab : Above r.p.norm c.m r.targetMass := ⟨norm_pos hp, hM, hm.le, hth⟩
  rw [← e3] at hfin
  obtain ⟨hin1, hin2⟩ := Env.final_spec (S := S) hm1 hp hA hab y (uniform 0 (2 * Real.pi) v) (c.helicity r.helicity)
    (c.helicity r.helicity)
  by_cases hy : HnlDipole.lo r.p.norm c.m r.targetMass ≤ y ∧ y ≤ HnlDipole.hi r.p.norm c.m r.targetMass
  · obtain ⟨q3, q4, hq, k3, k4, k5, hk⟩ := hin1 hy
    rw [hfin] at hq
    simp only [Option.some.injEq, Prod.mk.injEq] at hq
    obtain ⟨rfl, rfl⟩ := hq
    rw [hm3] at k3
    rw [hm4] at k4
    simp only [Option.some.injEq] at k3 k4
    rw [e1, e2, k3, k4]
    exact ⟨rfl, rfl, k5, (possible_iff hab y).mpr hy, hk⟩
  · rw [hin2 hy] at hfin
    exact absurd hfin (by simp)

/-- C128: up to the small number added, the y of a sampled event is inside the table of its target, and so is its energy. -/
theorem C128_in_table {c : Config} {r : Event} {rs : List ℝ} (hm1 : r.mass = 0) (hp : r.p ≠ 0) (hM : 0 < r.targetMass)
    (hm : 0 < c.m) (hs2 : 1 ≤ 2 * (2 * r.p.norm * r.targetMass + r.targetMass ^ 2))
    (hrs : ∀ u ∈ rs, 0 ≤ u ∧ u ≤ 1) {hnl recoil : Out} {y : ℝ} (hs : c.sample r rs = .done hnl recoil y) :
    ∃ T a b y0, c.diff r.target = some T ∧ yMin r.p.norm c.m r.targetMass = some a ∧ yMax r.p.norm c.m r.targetMass = some b ∧
      y = y0 + 1e-16 ∧ a ≤ y0 ∧ y0 ≤ b ∧ r.p.norm ≤ T.maxX ∧
      T.minY ≤ (if c.zSamp then (y0 - a) / (b - a) else y0) ∧ (if c.zSamp then (y0 - a) / (b - a) else y0) ≤ T.maxY := by
  obtain ⟨T, P, a, b, y0, v, p3, p4, m3, m4, hT, hP, ha, hb, ha0, hth, hmax, ⟨u, hu, he⟩, hv, hin, -, -, -, -, -, e3⟩ :=
    sample_cases hs
  have hE : (P4.ofMass r.p r.mass).e = r.p.norm := Env.E1_massless (S := c.env r T P (c.count r.target) a b) hm1
  rw [hE] at ha hb hth hmax
  have hab : Above r.p.norm c.m r.targetMass := ⟨norm_pos hp, hM, hm.le, hth⟩
  have hle : a ≤ b := by
    rw [yMin_eq hab] at ha
    rw [yMax_eq hab (by unfold sOf; linarith [sq r.targetMass])] at hb
    simp only [Option.some.injEq] at ha hb
    rw [← ha, ← hb]; exact hab.lo_le_hi
  obtain ⟨h1, h2⟩ := Env.propose_mem (c.env r T P (c.count r.target) a b) ha0 hle (hrs u hu).1 (hrs u hu).2
  rw [← he] at h1 h2
  unfold Env.InTable at hin
  push Not at hin
  exact ⟨T, a, b, y0, hT, ha, hb, e3, h1, h2, hmax, hin.1, hin.2⟩

/-- C128: the helicity of the lepton is one half, with the sign of the primary's for a conserving channel and the opposite one for a
flipping channel. -/
theorem C128_helicity {c : Config} {r : Event} {rs : List ℝ} {hnl recoil : Out} {y : ℝ} (h0 : r.helicity ≠ 0)
    (hs : c.sample r rs = .done hnl recoil y) :
    hnl.helicity = (if c.flipping then -1 else 1) * (SignType.sign r.helicity : ℝ) / 2 := by
  obtain ⟨T, P, a, b, y0, v, p3, p4, m3, m4, -, -, -, -, -, -, -, -, -, -, -, -, -, e1, -, -⟩ := sample_cases hs
  rw [e1]
  show c.helicity r.helicity = _
  unfold Config.helicity
  rcases lt_or_gt_of_ne h0 with h | h
  · rw [sign_neg h]
    cases c.flipping
    · norm_num [h]
    · simp [h.le]
  · rw [sign_pos h]
    cases c.flipping
    · simp [h.le]
    · norm_num [h]

/-- C128 fails for the differential cross section of a record with a massless primary: the mass of the target is read from the
primary, and the y of every record is 0/0. -/
theorem C128_record_fails (r : Event) (hm1 : r.mass = 0) (hnl : Secondary) :
    yRecord r hnl = none ∧ ∀ c : Config, c.diffRecord r hnl = .ok none := by
  have h : yRecord r hnl = none := by
    unfold yRecord
    simp only
    rw [if_pos]
    unfold P4.dot
    show Real.sqrt (r.mass * r.mass + Vec3.dot (⟨0, 0, 0⟩ : Vec3 ℝ) ⟨0, 0, 0⟩) * _ - Vec3.dot (⟨0, 0, 0⟩ : Vec3 ℝ) r.p = 0
    rw [hm1]
    simp [Vec3.dot]
  refine ⟨h, fun c => ?_⟩
  unfold Config.diffRecord
  rw [h]

/-- C128: where the proton table covers the point, the weight the sampler uses is the differential cross section, up to the factor
of coupling and unit. -/
theorem C128_weight {c : Config} {r : Event} {T P : Table} (hT : c.diff r.target = some T) (hP : c.diff hNucleus = some P)
    (hpr : r.primary ∈ c.primaries) (htot : c.hasTotal r.target = true) (hm1 : r.mass = 0)
    (hth : threshold c.m r.targetMass ≤ r.p.norm) (hmax : r.p.norm ≤ T.maxX)
    {a b : ℝ} (ha : yMin r.p.norm c.m r.targetMass = some a) (hb : yMax r.p.norm c.m r.targetMass = some b) {y : ℝ} (hy : a ≤ y)
    (hyb : y ≤ b) (hin : (c.env r T P (c.count r.target) a b).InTable y) (hE : P.minX < r.p.norm ∧ r.p.norm < P.maxX)
    (hY : P.minY < (c.env r T P (c.count r.target) a b).point y ∧ (c.env r T P (c.count r.target) a b).point y < P.maxY) :
    c.diffAt r.primary r.p.norm r.target r.targetMass y (threshold c.m r.targetMass) =
      .ok (some (c.coupling ^ 2 * (if c.inInvGeV then 1 / unit else 1) * (c.env r T P (c.count r.target) a b).weight y)) := by
  have hE1 : (c.env r T P (c.count r.target) a b).E1 = r.p.norm := Env.E1_massless hm1
  have hw : (c.env r T P (c.count r.target) a b).weight y =
      T.f r.p.norm ((c.env r T P (c.count r.target) a b).point y) +
        c.count r.target * P.f r.p.norm ((c.env r T P (c.count r.target) a b).point y) := by
    unfold Env.weight
    rw [hE1, if_pos ⟨hE, hY⟩]
    rfl
  rw [hw]
  unfold Config.diffAt
  rw [if_neg (not_not.mpr hpr), if_neg (by rw [htot]; simp), hT, hP]
  simp only
  rw [if_neg (by push Not; exact ⟨hth, hmax⟩), ha, hb]
  simp only
  rw [if_neg (by push Not; exact ⟨hy, hyb⟩)]
  have hpt : (if c.zSamp = true then (y - a) / (b - a) else y) = (c.env r T P (c.count r.target) a b).point y := rfl
  have hin' : ¬ ((c.env r T P (c.count r.target) a b).point y < T.minY ∨ (c.env r T P (c.count r.target) a b).point y > T.maxY) := hin
  rw [hpt, if_neg hin']
  unfold Config.scale
  split
  · congr 2; ring
  · congr 2; ring

/-- C128, the value: inside the table the cross section is the coherent one for elastic tables and for hydrogen, and for other
nuclei with inelastic tables the coherent one and once per proton that of hydrogen, times coupling and unit. -/
theorem C128_value {c : Config} {r : Event} {T P : Table} (hT : c.diff r.target = some T) (hP : c.diff hNucleus = some P)
    (hpr : r.primary ∈ c.primaries) (htot : c.hasTotal r.target = true) {E thresh : ℝ} (hth : thresh ≤ E) (hmax : E ≤ T.maxX)
    {a b : ℝ} (ha : yMin E c.m r.targetMass = some a) (hb : yMax E c.m r.targetMass = some b) {y t : ℝ} (hy : a ≤ y) (hyb : y ≤ b)
    (ht : t = if c.zSamp then (y - a) / (b - a) else y) (h1 : T.minY ≤ t) (h2 : t ≤ T.maxY) :
    ((c.inelastic = false ∨ r.target = hNucleus) → c.diffAt r.primary E r.target r.targetMass y thresh =
      .ok (some (c.coupling ^ 2 * (if c.inInvGeV then 1 / unit else 1) * T.f E t))) ∧
    (c.inelastic = true → r.target ≠ hNucleus → c.diffAt r.primary E r.target r.targetMass y thresh =
      .ok (some (c.coupling ^ 2 * (if c.inInvGeV then 1 / unit else 1) * (T.f E t + c.protons r.target * P.f E t)))) := by
  have h : c.diffAt r.primary E r.target r.targetMass y thresh =
      .ok (some (c.scale (T.f E t + c.count r.target * P.f E t))) := by
    unfold Config.diffAt
    rw [if_neg (not_not.mpr hpr), if_neg (by rw [htot]; simp), hT, hP]
    simp only
    rw [if_neg (by push Not; exact ⟨hth, hmax⟩), ha, hb]
    simp only
    rw [if_neg (by push Not; exact ⟨hy, hyb⟩), ← ht, if_neg (by push Not; exact ⟨h1, h2⟩)]
  rw [h]
  constructor
  · intro hc
    have : c.count r.target = 0 := by
      unfold Config.count
      rcases hc with hc | hc <;> simp [hc]
    rw [this]
    unfold Config.scale
    split <;> · congr 2; ring
  · intro hc hn
    have : c.count r.target = c.protons r.target := by
      unfold Config.count
      simp [hc, hn]
    rw [this]
    unfold Config.scale
    split <;> · congr 2; ring

/-- C128: below the threshold the cross section is zero and sampling reports an injection failure; it is zero as well for
primaries and targets that are not configured, above the energies of the table, and outside the limits of y. -/
theorem C128_outside {c : Config} {r : Event} {T P : Table} (hT : c.diff r.target = some T) (hP : c.diff hNucleus = some P) :
    (∀ E y, E < threshold c.m r.targetMass →
      c.diffAt r.primary E r.target r.targetMass y (threshold c.m r.targetMass) = .ok (some 0)) ∧
    ((P4.ofMass r.p r.mass).e < threshold c.m r.targetMass → ∀ rs, c.sample r rs = .throws .injectionFailure) ∧
    (∀ E y t, r.primary ∉ c.primaries ∨ c.hasTotal r.target = false ∨ T.maxX < E →
      c.diffAt r.primary E r.target r.targetMass y t = .ok (some 0)) ∧
    (∀ E y, 0 < E → 0 < r.targetMass → 0 ≤ c.m → 1 ≤ 2 * (2 * E * r.targetMass + r.targetMass ^ 2) →
      ¬ Possible E c.m r.targetMass y →
      c.diffAt r.primary E r.target r.targetMass y (threshold c.m r.targetMass) = .ok (some 0)) := by
  have h1 : ∀ E y, E < threshold c.m r.targetMass →
      c.diffAt r.primary E r.target r.targetMass y (threshold c.m r.targetMass) = .ok (some 0) := by
    intro E y h
    unfold Config.diffAt
    split
    · rfl
    · split
      · rfl
      · rw [hT, hP]
        simp only
        rw [if_pos (Or.inl h)]
  refine ⟨h1, ?_, ?_, ?_⟩
  · intro h rs
    unfold Config.sample
    rw [hT, hP]
    simp only
    rw [if_pos h]
  · intro E y t h
    unfold Config.diffAt
    split
    · rfl
    next hp =>
      split
      · rfl
      next ht =>
        rw [hT, hP]
        simp only
        rw [if_pos]
        rcases h with h | h | h
        · exact absurd h hp
        · rw [h] at ht; simp at ht
        · exact Or.inr h
  · intro E y hE hM hm hs hy
    by_cases hth : E < threshold c.m r.targetMass
    · exact h1 E y hth
    · have hab : Above E c.m r.targetMass := ⟨hE, hM, hm, not_lt.mp hth⟩
      have h2 : 1 ≤ 2 * sOf E r.targetMass := by unfold sOf; linarith [sq r.targetMass]
      rw [possible_iff hab] at hy
      unfold Config.diffAt
      split
      · rfl
      · split
        · rfl
        · rw [hT, hP, yMin_eq hab, yMax_eq hab h2]
          simp only
          split
          · rfl
          · rw [if_pos]
            by_contra hc
            push Not at hc
            exact hy hc

/-! ### A stream of equal numbers -/

namespace Env

variable {S : Env}

theorem step_const {u : ℝ} (h1 : ¬ S.Again (S.propose u)) (h2 : S.InTable (S.propose u)) (h3 : 0 < S.weight (S.propose u))
    (rs : List ℝ) :
    S.step ⟨S.propose u, S.weight (S.propose u)⟩ (u :: u :: rs) = some (⟨S.propose u, S.weight (S.propose u)⟩, rs) := by
  have hd : S.draw (u :: u :: rs) = some (S.propose u, u :: rs) := by
    unfold draw; rw [if_neg h1]
  have hn : S.next ⟨S.propose u, S.weight (S.propose u)⟩ (S.propose u) u = ⟨S.propose u, S.weight (S.propose u)⟩ := by
    rcases next_cases S ⟨S.propose u, S.weight (S.propose u)⟩ (S.propose u) u with h | ⟨h, -⟩
    · exact h
    · exact h
  unfold step
  rw [hd]
  simp only
  rw [if_neg, hn]
  push Not
  exact ⟨h2, h3, h3.ne', by rw [div_self h3.ne']⟩

theorem run_const {u : ℝ} (h1 : ¬ S.Again (S.propose u)) (h2 : S.InTable (S.propose u)) (h3 : 0 < S.weight (S.propose u))
    (rs : List ℝ) : ∀ n : ℕ,
    S.run n ⟨S.propose u, S.weight (S.propose u)⟩ (List.replicate (2 * n) u ++ rs) =
      some (⟨S.propose u, S.weight (S.propose u)⟩, rs)
  | 0 => rfl
  | n + 1 => by
    have e : List.replicate (2 * (n + 1)) u ++ rs = u :: u :: (List.replicate (2 * n) u ++ rs) := by
      rw [show 2 * (n + 1) = 2 * n + 1 + 1 by ring, List.replicate_succ, List.replicate_succ]; rfl
    rw [e]
    unfold run
    rw [step_const h1 h2 h3]
    exact run_const h1 h2 h3 rs n

end Env

/-- The sample for 84 equal numbers. -/
theorem sample_const {c : Config} {r : Event} {T P : Table} (hT : c.diff r.target = some T) (hP : c.diff hNucleus = some P)
    (hm1 : r.mass = 0) (hp : r.p ≠ 0) (hm : 0 < c.m) (hM : 0 < r.targetMass)
    (hth : threshold c.m r.targetMass ≤ r.p.norm) (hs : 1 ≤ 2 * sOf r.p.norm r.targetMass) (hmax : r.p.norm ≤ T.maxX)
    {u : ℝ} (hu0 : 0 ≤ u) (hu1 : u ≤ 1) :
    let S := c.env r T P (c.count r.target) (lo r.p.norm c.m r.targetMass) (hi r.p.norm c.m r.targetMass)
    S.InTable (S.propose u) → 0 < S.weight (S.propose u) →
    c.sample r (List.replicate 84 u) =
      match S.final (S.propose u + 1e-16) (uniform 0 (2 * Real.pi) u) with
      | none => .nan
      | some (p3, p4) =>
        match p3.m, p4.m with
        | some m3, some m4 =>
          .done ⟨p3.e, p3.p, m3, c.helicity r.helicity⟩ ⟨p4.e, p4.p, m4, c.helicity r.helicity⟩ (S.propose u + 1e-16)
        | _, _ => .nan := by
  intro S hin hw
  have hE : (P4.ofMass r.p r.mass).e = r.p.norm := Env.E1_massless (S := S) hm1
  have hab : Above r.p.norm c.m r.targetMass := ⟨norm_pos hp, hM, hm.le, hth⟩
  have hlo : 0 < lo r.p.norm c.m r.targetMass := by
    have h1 := hab.prod
    have h2 := hab.s_pos
    have h3 := hab.energy
    have h4 : 0 < lo r.p.norm c.m r.targetMass * hi r.p.norm c.m r.targetMass := by rw [h1]; positivity
    exact (pos_iff_pos_of_mul_pos h4).mpr hab.hi_pos
  have hmem := Env.propose_mem S hlo hab.lo_le_hi hu0 hu1
  have hag : ¬ S.Again (S.propose u) := Env.never_again hm1 hM hmem.1
  have hinit : S.initial (List.replicate 84 u) = some (S.propose u, List.replicate (2 * 41) u ++ [u]) := by
    have e : List.replicate 84 u = u :: (List.replicate (2 * 41) u ++ [u]) := by
      rw [← List.replicate_succ', ← List.replicate_succ]
    rw [e]
    unfold Env.initial
    rw [if_neg (by push Not; exact ⟨hag, hin⟩)]
  have hrun := Env.run_const hag hin hw [u] 41
  unfold Config.sample
  rw [hT, hP]
  simp only
  rw [hE, if_neg (not_lt.mpr hth), yMin_eq hab, yMax_eq hab hs]
  simp only
  rw [if_neg (not_not.mpr hlo), if_neg (by push Not; exact ⟨hth, hmax⟩)]
  have eS : c.env r T P (c.count r.target) (lo r.p.norm c.m r.targetMass) (hi r.p.norm c.m r.targetMass) = S := rfl
  rw [eS, hinit]
  simp only
  rw [hrun]

/-- C128 fails near the upper limit: the small number added to the sampled y takes it out of the limits, and the momentum of the
lepton is not a number, for every value of the generator close to one. -/
theorem C128_nan_fails {c : Config} {r : Event} {T P : Table} (hT : c.diff r.target = some T) (hP : c.diff hNucleus = some P)
    (hm1 : r.mass = 0) (hp : r.p ≠ 0) (hA : Apart ⟨1, 0, 0⟩ (direction r.p)) (hm : 0 < c.m) (hM : 0 < r.targetMass)
    (hth : threshold c.m r.targetMass ≤ r.p.norm) (hs : 1 ≤ 2 * sOf r.p.norm r.targetMass) (hmax : r.p.norm ≤ T.maxX)
    (hall : ∀ y, lo r.p.norm c.m r.targetMass ≤ y → y ≤ hi r.p.norm c.m r.targetMass →
      (c.env r T P (c.count r.target) (lo r.p.norm c.m r.targetMass) (hi r.p.norm c.m r.targetMass)).InTable y ∧
      0 < (c.env r T P (c.count r.target) (lo r.p.norm c.m r.targetMass) (hi r.p.norm c.m r.targetMass)).weight y) :
    ∃ u0 < 1, ∀ u, u0 < u → u ≤ 1 → c.sample r (List.replicate 84 u) = .nan := by
  have hab : Above r.p.norm c.m r.targetMass := ⟨norm_pos hp, hM, hm.le, hth⟩
  have hlo : 0 < lo r.p.norm c.m r.targetMass := by
    have h1 := hab.prod
    have h2 := hab.s_pos
    have h3 := hab.energy
    have h4 : 0 < lo r.p.norm c.m r.targetMass * hi r.p.norm c.m r.targetMass := by rw [h1]; positivity
    exact (pos_iff_pos_of_mul_pos h4).mpr hab.hi_pos
  set S := c.env r T P (c.count r.target) (lo r.p.norm c.m r.targetMass) (hi r.p.norm c.m r.targetMass) with hS
  have hcont : Continuous S.propose := by
    unfold Env.propose uniform pow10
    refine Continuous.rpow continuous_const ?_ (fun _ => Or.inl (by norm_num))
    split
    · fun_prop
    · fun_prop
  have hone : S.propose 1 = S.hi := by
    have hle : ¬ log10 S.hi < log10 S.lo := not_lt.mpr (Real.logb_le_logb_of_le (by norm_num) hlo hab.lo_le_hi)
    unfold Env.propose uniform
    rw [if_neg hle, show (log10 S.hi - log10 S.lo) * 1 + log10 S.lo = log10 S.hi by ring]
    exact pow10_log10 hab.hi_pos
  have hev : ∀ᶠ u in nhds (1 : ℝ), S.hi - 1e-16 < S.propose u := by
    apply hcont.continuousAt.eventually_const_lt
    rw [hone]; norm_num
  have hev0 : ∀ᶠ u in nhds (1 : ℝ), (0 : ℝ) < u := eventually_gt_nhds one_pos
  obtain ⟨u0, hu0, hsub⟩ := exists_Ioc_subset_of_mem_nhds (hev.and hev0) ⟨0, one_pos⟩
  refine ⟨u0, hu0, fun u h1 h2 => ?_⟩
  obtain ⟨h3, h4⟩ := hsub ⟨h1, h2⟩
  obtain ⟨m1, m2⟩ := Env.propose_mem S hlo hab.lo_le_hi h4.le h2
  obtain ⟨k1, k2⟩ := hall _ m1 m2
  have := sample_const hT hP hm1 hp hm hM hth hs hmax h4.le h2 k1 k2
  rw [this]
  have hnone := (Env.final_spec (S := S) hm1 hp hA hab (S.propose u + 1e-16) (uniform 0 (2 * Real.pi) u) 0 0).2
    (by rintro ⟨-, h⟩
        have h5 : S.propose u + 1e-16 ≤ S.hi := h
        linarith)
  rw [hnone]

/-- A table that is one everywhere. -/
noncomputable def ones : Table := ⟨fun _ _ => 1, 0, 1000, 0, 1⟩

/-- A configuration with it. -/
noncomputable def sampleConfig : Config := ⟨[14], 1, 1, false, true, true, false, fun _ => some ones, fun _ => true, fun _ => 6⟩

/-- A neutrino of energy ten on a target of mass one. -/
noncomputable def sampleEvent : Event := ⟨14, 1000060120, 10, ⟨10, 0, 0⟩, 0, 1, 1 / 2⟩

theorem sampleEvent_norm : sampleEvent.p.norm = 10 := by
  show Real.sqrt (Vec3.dot (⟨10, 0, 0⟩ : Vec3 ℝ) ⟨10, 0, 0⟩) = 10
  rw [show Vec3.dot (⟨10, 0, 0⟩ : Vec3 ℝ) ⟨10, 0, 0⟩ = 10 ^ 2 by norm_num [Vec3.dot]]
  exact Real.sqrt_sq (by norm_num)

theorem sampleEvent_moving : sampleEvent.p ≠ 0 := by
  intro h
  have : (10 : ℝ) = 0 := congrArg Vec3.x h
  norm_num at this

theorem sampleEvent_apart : Apart ⟨1, 0, 0⟩ (direction sampleEvent.p) := by
  have hd : direction sampleEvent.p = ⟨1, 0, 0⟩ := by
    have h := norm_direction sampleEvent.p
    rw [sampleEvent_norm] at h
    have hx := congrArg Vec3.x h
    have hy := congrArg Vec3.y h
    have hz := congrArg Vec3.z h
    simp only [Vec3.smul, sampleEvent] at hx hy hz
    ext
    · show (direction (⟨10, 0, 0⟩ : Vec3 ℝ)).x = 1; linarith
    · show (direction (⟨10, 0, 0⟩ : Vec3 ℝ)).y = 0; linarith
    · show (direction (⟨10, 0, 0⟩ : Vec3 ℝ)).z = 0; linarith
  rw [hd]
  constructor
  · intro _; simp [Vec3.dot]
  · intro h; norm_num [Vec3.dot] at h

theorem sampleEvent_above : Above sampleEvent.p.norm sampleConfig.m sampleEvent.targetMass := by
  rw [sampleEvent_norm]
  exact ⟨by norm_num, by norm_num [sampleEvent], by norm_num [sampleConfig],
    by norm_num [threshold, sampleConfig, sampleEvent]⟩

/-- The hypotheses of `C128_nan_fails` are met. -/
theorem sample_all (y : ℝ) (h1 : lo sampleEvent.p.norm sampleConfig.m sampleEvent.targetMass ≤ y)
    (h2 : y ≤ hi sampleEvent.p.norm sampleConfig.m sampleEvent.targetMass) :
    (sampleConfig.env sampleEvent ones ones (sampleConfig.count sampleEvent.target)
      (lo sampleEvent.p.norm sampleConfig.m sampleEvent.targetMass)
      (hi sampleEvent.p.norm sampleConfig.m sampleEvent.targetMass)).InTable y ∧
    0 < (sampleConfig.env sampleEvent ones ones (sampleConfig.count sampleEvent.target)
      (lo sampleEvent.p.norm sampleConfig.m sampleEvent.targetMass)
      (hi sampleEvent.p.norm sampleConfig.m sampleEvent.targetMass)).weight y := by
  constructor
  · unfold Env.InTable
    push Not
    have hd := sub_nonneg.mpr sampleEvent_above.lo_le_hi
    constructor
    · show (0 : ℝ) ≤ (y - lo _ _ _) / (hi _ _ _ - lo _ _ _)
      exact div_nonneg (by linarith) hd
    · show (y - lo _ _ _) / (hi _ _ _ - lo _ _ _) ≤ 1
      exact div_le_one_of_le₀ (by linarith) hd
  · have hn : 0 ≤ sampleConfig.count sampleEvent.target := by
      unfold Config.count; split
      · exact le_refl _
      · show (0 : ℝ) ≤ 6; norm_num
    unfold Env.weight
    show 0 < (1 : ℝ) + _
    split
    · show 0 < (1 : ℝ) + sampleConfig.count sampleEvent.target * 1
      linarith
    · norm_num

example : ∃ u0 < 1, ∀ u, u0 < u → u ≤ 1 → sampleConfig.sample sampleEvent (List.replicate 84 u) = .nan :=
  C128_nan_fails (T := ones) (P := ones) rfl rfl rfl sampleEvent_moving sampleEvent_apart (by norm_num [sampleConfig])
    (by norm_num [sampleEvent]) sampleEvent_above.threshold
    (by rw [sampleEvent_norm]; norm_num [sOf, sampleEvent]) (by rw [sampleEvent_norm]; norm_num [ones]) sample_all

/-- The hypotheses of `C128_final_state` are met: with zeros the lower limit is sampled. -/
example : ∃ hnl recoil y, sampleConfig.sample sampleEvent (List.replicate 84 0) = .done hnl recoil y := by
  have hab := sampleEvent_above
  have hs2 : 1 ≤ 2 * sOf sampleEvent.p.norm sampleEvent.targetMass := by
    rw [sampleEvent_norm]; norm_num [sOf, sampleEvent]
  have hmax : sampleEvent.p.norm ≤ ones.maxX := by rw [sampleEvent_norm]; norm_num [ones]
  have hm : 0 < sampleConfig.m := by norm_num [sampleConfig]
  set S := sampleConfig.env sampleEvent ones ones (sampleConfig.count sampleEvent.target)
      (lo sampleEvent.p.norm sampleConfig.m sampleEvent.targetMass)
      (hi sampleEvent.p.norm sampleConfig.m sampleEvent.targetMass) with hS
  have hlo : 0 < S.lo := by
    have h1 := hab.prod
    have h2 := hab.s_pos
    have h3 := hab.energy
    have h4 : 0 < S.lo * S.hi := by
      show 0 < lo sampleEvent.p.norm sampleConfig.m sampleEvent.targetMass * hi sampleEvent.p.norm sampleConfig.m sampleEvent.targetMass
      rw [h1]; positivity
    exact (pos_iff_pos_of_mul_pos h4).mpr hab.hi_pos
  have hle : ¬ log10 S.hi < log10 S.lo := not_lt.mpr (Real.logb_le_logb_of_le (by norm_num) hlo hab.lo_le_hi)
  have hzero : S.propose 0 = S.lo := by
    unfold Env.propose uniform
    rw [if_neg hle, show (log10 S.hi - log10 S.lo) * 0 + log10 S.lo = log10 S.lo by ring]
    exact pow10_log10 hlo
  obtain ⟨m1, m2⟩ := Env.propose_mem S hlo hab.lo_le_hi (le_refl (0 : ℝ)) zero_le_one
  obtain ⟨k1, k2⟩ := sample_all _ m1 m2
  have hgap : S.lo + 1e-16 ≤ S.hi := by
    show lo sampleEvent.p.norm sampleConfig.m sampleEvent.targetMass + 1e-16 ≤
      hi sampleEvent.p.norm sampleConfig.m sampleEvent.targetMass
    rw [sampleEvent_norm]
    have h1 : (18 : ℝ) ≤ Real.sqrt 357 := Real.le_sqrt_of_sq_le (by norm_num)
    have h2 : rootTerm 10 sampleConfig.m sampleEvent.targetMass = 357 := by norm_num [rootTerm, sampleConfig, sampleEvent]
    have h3 : sOf 10 sampleEvent.targetMass = 21 := by norm_num [sOf, sampleEvent]
    unfold lo hi
    rw [h2, h3]
    norm_num
    linarith
  rw [sample_const (T := ones) (P := ones) rfl rfl rfl sampleEvent_moving hm hab.target hab.threshold hs2 hmax (le_refl (0 : ℝ))
    zero_le_one k1 k2]
  obtain ⟨p3, p4, hf, hm3, hm4, -⟩ := (Env.final_spec (S := S) rfl sampleEvent_moving sampleEvent_apart hab (S.propose 0 + 1e-16)
    (uniform 0 (2 * Real.pi) 0) 0 0).1 (by
      rw [hzero]
      exact ⟨by show S.lo ≤ S.lo + 1e-16; norm_num, hgap⟩)
  have eS : sampleConfig.env sampleEvent ones ones (sampleConfig.count sampleEvent.target)
      (lo sampleEvent.p.norm sampleConfig.m sampleEvent.targetMass)
      (hi sampleEvent.p.norm sampleConfig.m sampleEvent.targetMass) = S := rfl
  rw [eS, hf]
  simp only [hm3, hm4]
  exact ⟨_, _, _, rfl⟩

/-! ### What the chain samples -/

namespace Env

open MeasureTheory ENNReal Set

/-- The expected value of `g y` after one pass from `y`: the logarithm of the proposal is uniform between those of the limits,
the number for the decision is uniform in `[0, 1]`. -/
noncomputable def after (S : Env) (g : ℝ → ℝ≥0∞) (y : ℝ) : ℝ≥0∞ :=
  (volume (Icc (log10 S.lo) (log10 S.hi)))⁻¹ * ∫⁻ l in Icc (log10 S.lo) (log10 S.hi), ∫⁻ v in Icc (0 : ℝ) 1,
    g (S.next ⟨y, S.weight y⟩ (pow10 l) v).y

/-- A pass may move to this point. -/
def Allowed (S : Env) (y : ℝ) : Prop := S.InTable y ∧ 0 < S.weight y

/-- The situation of the theorems: limits that are not empty, tables that can be integrated. -/
structure Good (S : Env) : Prop where
  low : 0 < S.lo
  range : S.lo < S.hi
  table : Measurable fun y => S.T.f S.E1 y
  proton : Measurable fun y => S.P.f S.E1 y

variable {S : Env}

theorem measurable_point (S : Env) : Measurable S.point := by
  unfold point
  split
  · fun_prop
  · fun_prop

theorem measurable_weight (h : S.Good) : Measurable S.weight := by
  have hp := measurable_point S
  unfold weight
  refine Measurable.add (h.table.comp hp) (Measurable.ite ?_ ((h.proton.comp hp).const_mul _) measurable_const)
  have : {y | (S.E1 > S.P.minX ∧ S.E1 < S.P.maxX) ∧ (S.point y > S.P.minY ∧ S.point y < S.P.maxY)} =
      {_y | S.E1 > S.P.minX ∧ S.E1 < S.P.maxX} ∩ ({y | S.P.minY < S.point y} ∩ {y | S.point y < S.P.maxY}) := rfl
  rw [this]
  exact (MeasurableSet.const _).inter
    ((measurableSet_lt measurable_const hp).inter (measurableSet_lt hp measurable_const))

theorem measurable_allowed (h : S.Good) : MeasurableSet {y | S.Allowed y} := by
  have hp := measurable_point S
  have : {y | S.Allowed y} = ({y | S.point y < S.T.minY} ∪ {y | S.T.maxY < S.point y})ᶜ ∩ {y | 0 < S.weight y} := rfl
  rw [this]
  exact ((measurableSet_lt hp measurable_const).union (measurableSet_lt measurable_const hp)).compl.inter
    (measurableSet_lt measurable_const (measurable_weight h))

/-- The chain in general terms. -/
noncomputable def walk (S : Env) : LogChain.Walk := ⟨S.lo, S.hi, S.weight, S.Allowed⟩

theorem walk_good (h : S.Good) : S.walk.Good :=
  ⟨h.low, h.range, measurable_weight h, measurable_allowed h, fun _ hq => hq.2.le⟩

theorem after_walk (S : Env) (g : ℝ → ℝ≥0∞) (y : ℝ) : S.after g y = S.walk.after g y := by
  classical
  unfold after LogChain.Walk.after walk Allowed
  simp only
  congr 1
  refine lintegral_congr fun l => lintegral_congr fun v => ?_
  unfold next
  by_cases ha : accepts (S.weight y) (S.weight (pow10 l)) v
  · by_cases hp : S.InTable (pow10 l)
    · by_cases hw : S.weight (pow10 l) ≤ 0
      · simp [ha, hp, hw]
      · simp [ha, hp, hw, not_le.mp hw]
    · simp [ha, hp]
  · simp [ha]

end Env

open MeasureTheory ENNReal Set

open Classical in
/-- C128, what is sampled instead of the reported density: one pass of the loop leaves unchanged the distribution with density
`weight y / y` on the points inside the table with a positive weight. -/
theorem C128_stationary_partial {S : Env} (h : S.Good) {g : ℝ → ℝ≥0∞} (hg : Measurable g) :
    ∫⁻ y in Icc S.lo S.hi, (if S.InTable y ∧ 0 < S.weight y then ENNReal.ofReal (S.weight y / y) * S.after g y else 0) =
      ∫⁻ y in Icc S.lo S.hi, (if S.InTable y ∧ 0 < S.weight y then ENNReal.ofReal (S.weight y / y) * g y else 0) := by
  simp only [Env.after_walk]
  have hst := (Env.walk_good h).stationary hg
  have hite : ∀ (y : ℝ) (x : ℝ≥0∞), (if S.InTable y ∧ 0 < S.weight y then x else 0) = if S.walk.ok y then x else 0 := by
    intro y x
    by_cases hy : S.InTable y ∧ 0 < S.weight y
    · rw [if_pos hy, if_pos (show S.walk.ok y from hy)]
    · rw [if_neg hy, if_neg (show ¬ S.walk.ok y from hy)]
  simp only [hite]
  exact hst

/-- C128 fails for the density: where the weight is positive and the table covers the limits, one pass of the loop started from the
distribution with the differential cross section as density lowers the share of events above any y between the limits. -/
theorem C128_density_fails {S : Env} (h : S.Good) (hin : ∀ y ∈ Icc S.lo S.hi, S.InTable y)
    (hpos : ∀ y ∈ Icc S.lo S.hi, 0 < S.weight y) {B : ℝ} (hB : ∀ y ∈ Icc S.lo S.hi, S.weight y ≤ B)
    {c : ℝ} (hc : S.lo < c) (hcM : c < S.hi) :
    ∫⁻ y in Icc S.lo S.hi, ENNReal.ofReal (S.weight y) * S.after ((Ioi c).indicator 1) y <
      ∫⁻ y in Icc S.lo S.hi, ENNReal.ofReal (S.weight y) * (Ioi c).indicator 1 y := by
  simp only [Env.after_walk]
  exact (Env.walk_good h).drains (fun y hy => ⟨hin y hy, hpos y hy⟩) hpos hB hc hcM

/-- The hypotheses are met by the example above. -/
example : ∃ S : Env, S.Good ∧ (∀ y ∈ Icc S.lo S.hi, S.InTable y) ∧ (∀ y ∈ Icc S.lo S.hi, 0 < S.weight y) ∧
    (∀ y ∈ Icc S.lo S.hi, S.weight y ≤ 7) ∧ ∃ c, S.lo < c ∧ c < S.hi := by
  let S : Env := ⟨⟨10, 0, 0⟩, 0, 1, 1, 1 / 10, 1 / 2, false, 6, ones, ones⟩
  refine ⟨S, ⟨by norm_num [S], by norm_num [S], measurable_const, measurable_const⟩, ?_, ?_, ?_, 1 / 4, by norm_num [S],
    by norm_num [S]⟩
  · rintro y ⟨h1, h2⟩
    have h1 : (1 / 10 : ℝ) ≤ y := h1
    have h2 : y ≤ (1 / 2 : ℝ) := h2
    show ¬ (y < 0 ∨ y > 1)
    push Not
    exact ⟨by linarith, by linarith⟩
  · intro y _
    unfold Env.weight
    show 0 < (1 : ℝ) + _
    split
    · show 0 < (1 : ℝ) + 6 * 1; norm_num
    · norm_num
  · intro y _
    unfold Env.weight
    show (1 : ℝ) + _ ≤ 7
    split
    · show (1 : ℝ) + 6 * 1 ≤ 7; norm_num
    · norm_num

end HnlDipole
end Siren
