import Verif.Interactions.ElasticChain

set_option autoImplicit false
set_option linter.unusedSectionVars false

/-!
# Upscattering cross sections implemented in Python

Models `interactions/private/DarkNewsCrossSection.cxx`. What the subclass implements in Python (cross sections, limits of Q2,
masses, helicities) is a parameter. Doubles are real numbers; a square root of a negative number and 0/0 are not numbers.
-/

namespace Siren
namespace DarkNews

open Rk Dis

/-! ### Model -/

/-- What the Python subclass provides (DarkNewsCrossSection.cxx:65-122): the limits of Q2 and the helicities are those for the
record at hand. -/
structure Hooks where
  /-- `TotalCrossSection(primary, energy, target)` -/
  total : ℤ → ℝ → ℤ → ℝ
  /-- `DifferentialCrossSection(primary, target, energy, Q2)` -/
  diff : ℤ → ℤ → ℝ → ℝ → ℝ
  qMin : ℝ
  qMax : ℝ
  targetMass : ℤ → ℝ
  masses : List ℝ
  helicities : List ℝ

/-- The primary and the target of an interaction: types, `primary_momentum`, `primary_mass`, `target_mass`. -/
structure Event where
  primary : ℤ
  target : ℤ
  energy : ℝ
  p : Vec3 ℝ
  mass : ℝ
  targetMass : ℝ

/-- `TotalCrossSection(record)` (DarkNewsCrossSection.cxx:34-42): the target type is read from the primary. -/
def totalRecord (h : Hooks) (r : Event) : ℝ := h.total r.primary r.energy r.primary

/-- `DifferentialCrossSection(record)` (DarkNewsCrossSection.cxx:44-63): `p3_lab` is the target; the secondary is built and not
used. -/
noncomputable def diffRecord (h : Hooks) (r : Event) (_s0 : Secondary) : ℝ :=
  let p1 := P4.ofMass r.p r.mass
  let p3 := P4.ofMass ⟨0, 0, 0⟩ r.targetMass
  let Q2 := -1 * (r.mass ^ 2 + r.targetMass ^ 2 - 2 * p1.dot p3)
  h.diff r.primary r.target p1.e Q2

open Classical in
/-- `FinalStateProbability` (DarkNewsCrossSection.cxx:267-277). -/
noncomputable def probability (h : Hooks) (r : Event) (s0 : Secondary) : ℝ :=
  if diffRecord h r s0 = 0 then 0 else if totalRecord h r = 0 then 0 else diffRecord h r s0 / totalRecord h r

/-- The variables of `SampleFinalState` that stay fixed (DarkNewsCrossSection.cxx:133-156): momentum of the primary, masses,
limits of Q2, the differential cross section at the energy of the primary as a function of Q2. -/
structure Setup where
  p : Vec3 ℝ
  m1 : ℝ
  m2 : ℝ
  m3 : ℝ
  m4 : ℝ
  qMin : ℝ
  qMax : ℝ
  dxs : ℝ → ℝ

namespace Setup

variable (S : Setup)

/-- `primary_energy` (DarkNewsCrossSection.cxx:152). -/
noncomputable def E1 : ℝ := (P4.ofMass S.p S.m1).e

/-- `E4Lab` (DarkNewsCrossSection.cxx:160, 225). -/
noncomputable def E4 (q : ℝ) : ℝ := (q + S.m2 * S.m2 + S.m4 * S.m4) / (2 * S.m2)

/-- `E3Lab` (DarkNewsCrossSection.cxx:161, 226). -/
noncomputable def E3 (q : ℝ) : ℝ := S.E1 + (P4.ofMass ⟨0, 0, 0⟩ S.m2).e - S.E4 q

/-- The numerator of `CosThetaLab` (DarkNewsCrossSection.cxx:164, 229). -/
noncomputable def num (q : ℝ) : ℝ := S.E1 * S.E3 q - 0.5 * (q + S.m1 * S.m1 + S.m3 * S.m3)

/-- `P1Lab` and `P3Lab` (DarkNewsCrossSection.cxx:162-163, 227-228). -/
noncomputable def P1 : Option ℝ := sqrtN (S.E1 * S.E1 - S.m1 * S.m1)
noncomputable def P3 (q : ℝ) : Option ℝ := sqrtN (S.E3 q * S.E3 q - S.m3 * S.m3)

/-- A double that is a number, infinite or not a number. -/
inductive Angle where
  | nan
  | infinite
  | value (c : ℝ)

open Classical in
/-- `ComputeCosThetaLab` (DarkNewsCrossSection.cxx:159-166). -/
noncomputable def cosine (q : ℝ) : Angle :=
  match S.P1, S.P3 q with
  | some a, some b => if a * b = 0 then (if S.num q = 0 then .nan else .infinite) else .value (S.num q / (a * b))
  | _, _ => .nan

/-- `std::abs(CosThetaLab) > 1`: the initial point is drawn again (DarkNewsCrossSection.cxx:182). -/
def Retry (q : ℝ) : Prop :=
  match S.cosine q with
  | .nan => False
  | .infinite => True
  | .value c => |c| > 1

/-- `std::abs(CosThetaLabTest) <= 1` (DarkNewsCrossSection.cxx:203). -/
def Physical (q : ℝ) : Prop :=
  match S.cosine q with
  | .nan => False
  | .infinite => False
  | .value c => |c| ≤ 1

/-- A value of Q2 for the generator value `u` (DarkNewsCrossSection.cxx:155-156, 180, 183, 195). -/
noncomputable def propose (u : ℝ) : ℝ := pow10 (uniform (log10 S.qMin) (log10 S.qMax) u)

open Classical in
/-- The initial point (DarkNewsCrossSection.cxx:180-184). -/
noncomputable def initial : List ℝ → Option (ℝ × List ℝ)
  | [] => none
  | u :: rs => if S.Retry (S.propose u) then initial rs else some (S.propose u, rs)

/-- The chain: `kin_vars[1]` and `cross_section`. -/
structure Chain where
  q : ℝ
  w : ℝ

open Classical in
/-- The chain after a pass with the proposed `q` and the number `v` for the decision (DarkNewsCrossSection.cxx:195-208). -/
noncomputable def next (c : Chain) (q v : ℝ) : Chain :=
  if accepts c.w (S.dxs q) v then (if S.Physical q then ⟨q, S.dxs q⟩ else c) else c

open Classical in
/-- One pass of the loop (DarkNewsCrossSection.cxx:193-209). The number for the decision is drawn only if it is needed. -/
noncomputable def step (c : Chain) : List ℝ → Option (Chain × List ℝ)
  | [] => none
  | u :: rs =>
    if c.w = 0 ∨ S.dxs (S.propose u) / c.w > 1 then some (S.next c (S.propose u) 0, rs)
    else match rs with
      | [] => none
      | v :: rs => some (S.next c (S.propose u) v, rs)

/-- `n` passes. -/
noncomputable def run : Nat → Chain → List ℝ → Option (Chain × List ℝ)
  | 0, c, rs => some (c, rs)
  | n + 1, c, rs =>
    match S.step c rs with
    | none => none
    | some (c, rs) => run n c rs

/-- The momenta for given Q2 and azimuth (DarkNewsCrossSection.cxx:225-251). `none` if they are not numbers. -/
noncomputable def final (q phi : ℝ) : Option (P4 × P4) :=
  match S.P3 q, S.cosine q with
  | some b, .value c =>
    (sqrtN (1 - c * c)).map fun s =>
      let dir := direction S.p
      let p3 := ((P4.ofEnergy (S.E3 q) (Vec3.smul b ⟨c, s, 0⟩)).rotate (rotationBetween ⟨1, 0, 0⟩ dir)).rotate
        (axisAngle dir phi)
      (p3, ((P4.ofMass S.p S.m1).add (P4.ofMass ⟨0, 0, 0⟩ S.m2)).sub p3)
  | _, _ => none

end Setup

/-- A secondary as recorded. -/
structure Out where
  e : ℝ
  p : Vec3 ℝ
  mass : ℝ
  helicity : ℝ

/-- Result of `SampleFinalState`: the numbers of the generator did not suffice, a momentum is not a number, an exception of
`at`, or two secondaries. -/
inductive Outcome where
  | waiting
  | nan
  | throws
  | done (s0 s1 : Out)

/-- The fixed variables for a record (DarkNewsCrossSection.cxx:126-156, 186, 196). -/
noncomputable def setupOf (h : Hooks) (r : Event) (m3 m4 : ℝ) : Setup :=
  ⟨r.p, r.mass, h.targetMass r.target, m3, m4, h.qMin, h.qMax, h.diff r.primary r.target (P4.ofMass r.p r.mass).e⟩

/-- `SampleFinalState` (DarkNewsCrossSection.cxx:124-265); the record has two secondaries. -/
noncomputable def sample (h : Hooks) (r : Event) (rs : List ℝ) : Outcome :=
  match h.masses with
  | m3 :: m4 :: _ =>
    match (setupOf h r m3 m4).initial rs with
    | none => .waiting
    | some (q, rs) =>
      match (setupOf h r m3 m4).run 41 ⟨q, (setupOf h r m3 m4).dxs q⟩ rs with
      | none => .waiting
      | some (c, rs) =>
        match rs with
        | [] => .waiting
        | v :: _ =>
          match (setupOf h r m3 m4).final c.q (uniform 0 (2 * Real.pi) v) with
          | none => .nan
          | some (p3, p4) =>
            match h.helicities with
            | h3 :: h4 :: _ => .done ⟨p3.e, p3.p, m3, h3⟩ ⟨p4.e, p4.p, m4, h4⟩
            | _ => .throws
  | _ => .throws

/-! ### Specification -/

/-- Both secondaries belong to the scattering of a particle of mass `m1` and momentum `p` on a target of mass `m2` at rest with
momentum transfer squared `-q`: momentum and energy are conserved and both are on their mass shells with positive energy. -/
structure Kinematics (p : Vec3 ℝ) (m1 m2 q : ℝ) (s0 s1 : Out) : Prop where
  momentum : s0.p + s1.p = p
  energy : s0.e + s1.e = Real.sqrt (m1 ^ 2 + Vec3.dot p p) + m2
  shell0 : s0.e ^ 2 - Vec3.dot s0.p s0.p = s0.mass ^ 2
  shell1 : s1.e ^ 2 - Vec3.dot s1.p s1.p = s1.mass ^ 2
  pos0 : 0 < s0.e
  pos1 : 0 < s1.e
  transfer : (Real.sqrt (m1 ^ 2 + Vec3.dot p p) - s0.e) ^ 2 - Vec3.dot (p - s0.p) (p - s0.p) = -q

/-- The momentum transfer squared (with the sign of Q2) of a secondary. -/
noncomputable def transferOf (r : Event) (s : Secondary) : ℝ :=
  Vec3.dot (r.p - s.p) (r.p - s.p) - (Real.sqrt (r.mass ^ 2 + Vec3.dot r.p r.p) - s.e) ^ 2

/-! ### Lemmas -/

namespace Setup

variable {S : Setup}

theorem E1_sq (S : Setup) : S.E1 * S.E1 = S.m1 * S.m1 + Vec3.dot S.p S.p :=
  Real.mul_self_sqrt (add_nonneg (mul_self_nonneg _) (Vec3.dot_self_nonneg _))

theorem E1_eq (S : Setup) : S.E1 = Real.sqrt (S.m1 ^ 2 + Vec3.dot S.p S.p) := by
  unfold E1; show Real.sqrt _ = _; congr 1; ring

theorem e2_eq {m : ℝ} (hm : 0 < m) : (P4.ofMass ⟨0, 0, 0⟩ m).e = m := by
  show Real.sqrt (m * m + Vec3.dot (⟨0, 0, 0⟩ : Vec3 ℝ) ⟨0, 0, 0⟩) = m
  simp only [Vec3.dot, mul_zero, add_zero]
  exact Real.sqrt_mul_self hm.le

theorem P1_eq (S : Setup) : S.P1 = some S.p.norm := by
  unfold P1 sqrtN
  have : S.E1 * S.E1 - S.m1 * S.m1 = Vec3.dot S.p S.p := by rw [E1_sq]; ring
  rw [this, if_pos (Vec3.dot_self_nonneg _)]; rfl

/-- The points of which the cosine is a number of absolute value at most one. -/
theorem physical_iff (hp : S.p ≠ 0) (q : ℝ) : S.Physical q ↔
    0 < S.E3 q * S.E3 q - S.m3 * S.m3 ∧ |S.num q| ≤ S.p.norm * Real.sqrt (S.E3 q * S.E3 q - S.m3 * S.m3) := by
  have hn := norm_pos hp
  unfold Physical cosine
  rw [P1_eq]
  unfold P3 sqrtN
  by_cases h : 0 ≤ S.E3 q * S.E3 q - S.m3 * S.m3
  · rw [if_pos h]
    simp only
    set b := Real.sqrt (S.E3 q * S.E3 q - S.m3 * S.m3) with hb
    rcases h.eq_or_lt with h0 | h0
    · have hb0 : b = 0 := by rw [hb, ← h0, Real.sqrt_zero]
      rw [if_pos (by rw [hb0, mul_zero])]
      constructor
      · intro hh
        exfalso
        by_cases h3 : S.num q = 0
        · rw [if_pos h3] at hh; exact hh
        · rw [if_neg h3] at hh; exact hh
      · intro hh; exact absurd hh.1 (by rw [← h0]; exact lt_irrefl _)
    · have hb0 : 0 < b := Real.sqrt_pos.mpr h0
      have hm : 0 < S.p.norm * b := mul_pos hn hb0
      rw [if_neg hm.ne']
      simp only
      rw [abs_div, abs_of_pos hm, div_le_one hm]
      exact ⟨fun h => ⟨h0, h⟩, fun h => h.2⟩
  · rw [if_neg h]
    simp only
    exact ⟨fun h => h.elim, fun hh => h hh.1.le⟩

/-- The final state of a physical point. -/
theorem final_spec (hp : S.p ≠ 0) (hA : Apart ⟨1, 0, 0⟩ (direction S.p)) (hm2 : 0 < S.m2) {q : ℝ} (hq : 0 < q)
    (hphys : S.Physical q) (phi h3 h4 : ℝ) :
    ∃ p3 p4, S.final q phi = some (p3, p4) ∧
      Kinematics S.p S.m1 S.m2 q ⟨p3.e, p3.p, S.m3, h3⟩ ⟨p4.e, p4.p, S.m4, h4⟩ := by
  obtain ⟨hpos, hle⟩ := (physical_iff hp q).mp hphys
  have hn := norm_pos hp
  have hnn := norm_sq S.p
  have hE1 := E1_sq S
  set b := Real.sqrt (S.E3 q * S.E3 q - S.m3 * S.m3) with hb
  have hb0 : 0 < b := Real.sqrt_pos.mpr hpos
  have hbb : b * b = S.E3 q * S.E3 q - S.m3 * S.m3 := Real.mul_self_sqrt hpos.le
  have hm : 0 < S.p.norm * b := mul_pos hn hb0
  have hP3 : S.P3 q = some b := by unfold P3 sqrtN; rw [if_pos hpos.le]
  set c := S.num q / (S.p.norm * b) with hc
  have hcos : S.cosine q = .value c := by
    unfold cosine; rw [P1_eq, hP3]; simp only; rw [if_neg hm.ne']
  have hc1 : |c| ≤ 1 := by rw [hc, abs_div, abs_of_pos hm, div_le_one hm]; exact hle
  have hcm : c * (S.p.norm * b) = S.num q := by rw [hc]; field_simp
  have hs0 : 0 ≤ 1 - c * c := by have := abs_le.mp hc1; nlinarith
  have hsq : sqrtN (1 - c * c) = some (Real.sqrt (1 - c * c)) := by unfold sqrtN; rw [if_pos hs0]
  set s := Real.sqrt (1 - c * c) with hs
  have hss : s * s = 1 - c * c := Real.mul_self_sqrt hs0
  set n := direction S.p with hnd
  have hnu : Vec3.dot n n = 1 := direction_unit S.p
  have hxu : Vec3.dot (⟨1, 0, 0⟩ : Vec3 ℝ) ⟨1, 0, 0⟩ = 1 := by simp [Vec3.dot]
  set R := rotationBetween ⟨1, 0, 0⟩ n with hR
  set A := axisAngle n phi with hAx
  have hRu : R.IsUnit := rotationBetween_unit _ _
  have hAu : A.IsUnit := axisAngle_unit hnu phi
  have hRx : rotApply R ⟨1, 0, 0⟩ = n := rotationBetween_spec hxu hnu hA
  have hAn : rotApply A n = n := axisAngle_axis hnu phi
  set v := rotApply A (rotApply R (Vec3.smul b ⟨c, s, 0⟩)) with hv
  have hvv : Vec3.dot v v = b * b := by
    rw [hv, rotApply_dot hAu, rotApply_dot hRu]
    simp only [Vec3.dot, Vec3.smul]; linear_combination b * b * hss
  have hvn : Vec3.dot n v = b * c := by
    calc Vec3.dot n v = Vec3.dot (rotApply A n) (rotApply A (rotApply R (Vec3.smul b ⟨c, s, 0⟩))) := by rw [hAn]
      _ = Vec3.dot (rotApply R ⟨1, 0, 0⟩) (rotApply R (Vec3.smul b ⟨c, s, 0⟩)) := by rw [rotApply_dot hAu, hRx]
      _ = b * c := by rw [rotApply_dot hRu]; simp [Vec3.dot, Vec3.smul]
  have hpn : Vec3.smul S.p.norm n = S.p := norm_direction S.p
  have hpv : Vec3.dot S.p v = S.num q := by
    rw [← hcm]
    calc Vec3.dot S.p v = Vec3.dot (Vec3.smul S.p.norm n) v := by rw [hpn]
      _ = S.p.norm * Vec3.dot n v := by simp only [Vec3.dot, Vec3.smul]; ring
      _ = c * (S.p.norm * b) := by rw [hvn]; ring
  have hE34 : S.E3 q = S.E1 + S.m2 - S.E4 q := by unfold E3; rw [e2_eq hm2]
  have hE4 : 2 * S.m2 * S.E4 q = q + S.m2 * S.m2 + S.m4 * S.m4 := by unfold E4; field_simp
  have hE40 : 0 < S.E4 q := by
    unfold E4; have := mul_self_nonneg S.m4; positivity
  have hnum : S.num q = S.E1 * S.E3 q - 0.5 * (q + S.m1 * S.m1 + S.m3 * S.m3) := rfl
  have hE10 : 0 ≤ S.E1 := Real.sqrt_nonneg _
  have hE30 : 0 < S.E3 q := by
    by_contra hneg
    push Not at hneg
    have h1 : -S.num q ≤ S.p.norm * b := le_trans (neg_le_abs _) hle
    have h2 : S.p.norm ≤ S.E1 := by
      apply le_of_sq_le_sq _ hE10
      nlinarith [mul_self_nonneg S.m1]
    have h3 : b ≤ -S.E3 q := by
      apply le_of_sq_le_sq _ (by linarith)
      nlinarith [mul_self_nonneg S.m3]
    have h4 : S.p.norm * b ≤ S.E1 * -S.E3 q := mul_le_mul h2 h3 hb0.le hE10
    have := mul_self_nonneg S.m1
    have := mul_self_nonneg S.m3
    rw [hnum] at h1
    nlinarith
  refine ⟨_, _, by unfold final; rw [hP3, hcos]; simp only [hsq, Option.map_some]; rfl, ?_⟩
  have e1 := E1_eq S
  have hsub : ∀ a b : Vec3 ℝ, Vec3.dot (a - b) (a - b) = Vec3.dot a a - 2 * Vec3.dot a b + Vec3.dot b b := by
    intro a b; simp only [Vec3.dot, Vec3.sub_x, Vec3.sub_y, Vec3.sub_z]; ring
  have hp4 : S.p + (⟨0, 0, 0⟩ : Vec3 ℝ) - v = S.p - v := by
    ext <;> simp
  have he4 : S.E1 + (P4.ofMass ⟨0, 0, 0⟩ S.m2).e - S.E3 q = S.E4 q := by rw [e2_eq hm2, hE34]; ring
  refine ⟨?_, ?_, ?_, ?_, hE30, ?_, ?_⟩
  · show v + (S.p + (⟨0, 0, 0⟩ : Vec3 ℝ) - v) = S.p
    ext <;> simp
  · show S.E3 q + (S.E1 + (P4.ofMass ⟨0, 0, 0⟩ S.m2).e - S.E3 q) = _
    rw [e2_eq hm2, ← e1]; ring
  · show S.E3 q ^ 2 - Vec3.dot v v = S.m3 ^ 2
    rw [hvv, hbb]; ring
  · show (S.E1 + (P4.ofMass ⟨0, 0, 0⟩ S.m2).e - S.E3 q) ^ 2 - Vec3.dot (S.p + (⟨0, 0, 0⟩ : Vec3 ℝ) - v)
      (S.p + (⟨0, 0, 0⟩ : Vec3 ℝ) - v) = S.m4 ^ 2
    rw [he4, hp4, hsub, hpv, hvv, hbb, hnum, ← sub_eq_zero]
    have hd : Vec3.dot S.p S.p = S.E1 * S.E1 - S.m1 * S.m1 := by rw [hE1]; ring
    rw [hd, hE34]
    linear_combination hE4
  · show 0 < S.E1 + (P4.ofMass ⟨0, 0, 0⟩ S.m2).e - S.E3 q
    rw [he4]; exact hE40
  · show (Real.sqrt (S.m1 ^ 2 + Vec3.dot S.p S.p) - S.E3 q) ^ 2 - Vec3.dot (S.p - v) (S.p - v) = -q
    rw [← e1, hsub, hpv, hvv, hbb, hnum]
    have hd : Vec3.dot S.p S.p = S.E1 * S.E1 - S.m1 * S.m1 := by rw [hE1]; ring
    rw [hd]; ring

/-- A point that is not physical gives no numbers. -/
theorem final_none {q : ℝ} (hphys : ¬ S.Physical q) (phi : ℝ) : S.final q phi = none := by
  unfold final
  split
  next b c hP hc =>
    unfold Physical at hphys
    rw [hc] at hphys
    simp only [not_le] at hphys
    have : ¬ 0 ≤ 1 - c * c := by
      intro h
      have : |c| * |c| = c * c := abs_mul_abs_self c
      nlinarith [abs_nonneg c]
    unfold sqrtN
    rw [if_neg this]; rfl
  · rfl

theorem propose_mem (S : Setup) (h1 : 0 < S.qMin) (h2 : S.qMin ≤ S.qMax) {u : ℝ} (h0 : 0 ≤ u) (hu : u ≤ 1) :
    S.qMin ≤ S.propose u ∧ S.propose u ≤ S.qMax := by
  have hl : log10 S.qMin ≤ log10 S.qMax := Real.logb_le_logb_of_le (by norm_num) h1 h2
  have hpos : 0 < S.qMax := by linarith
  have hb : log10 S.qMin ≤ uniform (log10 S.qMin) (log10 S.qMax) u ∧
      uniform (log10 S.qMin) (log10 S.qMax) u ≤ log10 S.qMax := by
    unfold uniform
    split
    · constructor <;> linarith
    · constructor <;> nlinarith
  unfold propose
  constructor
  · calc S.qMin = pow10 (log10 S.qMin) := (pow10_log10 h1).symm
      _ ≤ _ := Real.rpow_le_rpow_of_exponent_le (by norm_num) hb.1
  · calc _ ≤ pow10 (log10 S.qMax) := Real.rpow_le_rpow_of_exponent_le (by norm_num) hb.2
      _ = S.qMax := pow10_log10 hpos

/-- The point of the chain is a proposal for a number of the stream. -/
def From (S : Setup) (rs : List ℝ) (q : ℝ) : Prop := ∃ u ∈ rs, q = S.propose u

theorem initial_spec (S : Setup) : ∀ {rs rs' : List ℝ} {q : ℝ}, S.initial rs = some (q, rs') →
    S.From rs q ∧ ¬ S.Retry q ∧ ∀ u ∈ rs', u ∈ rs
  | [], rs', q, h => by simp [initial] at h
  | u :: rs, rs', q, h => by
    unfold initial at h
    split at h
    · obtain ⟨⟨w, hw, he⟩, h2, h3⟩ := initial_spec S h
      exact ⟨⟨w, List.mem_cons_of_mem _ hw, he⟩, h2, fun x hx => List.mem_cons_of_mem _ (h3 x hx)⟩
    next hr =>
      simp only [Option.some.injEq, Prod.mk.injEq] at h
      obtain ⟨h1, h2⟩ := h
      subst h1; subst h2
      exact ⟨⟨u, List.mem_cons_self, rfl⟩, hr, fun x hx => List.mem_cons_of_mem _ hx⟩

theorem step_next {S : Setup} {c c' : Chain} {rs rs' : List ℝ} (h : S.step c rs = some (c', rs')) :
    ∃ u v rs1, rs = u :: rs1 ∧ c' = S.next c (S.propose u) v ∧ (rs1 = rs' ∨ rs1 = v :: rs') := by
  unfold step at h
  split at h
  · exact absurd h (by simp)
  next u rs1 =>
    split at h
    · simp only [Option.some.injEq, Prod.mk.injEq] at h
      exact ⟨u, 0, rs1, rfl, h.1.symm, Or.inl h.2⟩
    · split at h
      · exact absurd h (by simp)
      next v rs2 =>
        simp only [Option.some.injEq, Prod.mk.injEq] at h
        exact ⟨u, v, _, rfl, h.1.symm, Or.inr (by rw [h.2])⟩

theorem next_cases (S : Setup) (c : Chain) (q v : ℝ) :
    S.next c q v = c ∨ (S.next c q v = ⟨q, S.dxs q⟩ ∧ S.Physical q) := by
  unfold next
  split
  · split
    next h => exact Or.inr ⟨rfl, h⟩
    · exact Or.inl rfl
  · exact Or.inl rfl

theorem run_cases (S : Setup) : ∀ (n : Nat) {c c' : Chain} {rs rs' : List ℝ}, S.run n c rs = some (c', rs') →
    (c' = c ∨ (S.From rs c'.q ∧ S.Physical c'.q)) ∧ ∀ u ∈ rs', u ∈ rs
  | 0, c, c', rs, rs', h => by
    simp only [run, Option.some.injEq, Prod.mk.injEq] at h
    rw [← h.1, ← h.2]; exact ⟨Or.inl rfl, fun _ h => h⟩
  | n + 1, c, c', rs, rs', h => by
    unfold run at h
    split at h
    · exact absurd h (by simp)
    next c1 rs1 hs =>
      obtain ⟨h1, h2⟩ := run_cases S n h
      obtain ⟨u, v, rs2, e1, e2, e3⟩ := step_next hs
      have hsub : ∀ x ∈ rs1, x ∈ rs := by
        intro x hx
        rw [e1]
        rcases e3 with e3 | e3
        · rw [e3]; exact List.mem_cons_of_mem _ hx
        · rw [e3]; exact List.mem_cons_of_mem _ (List.mem_cons_of_mem _ hx)
      refine ⟨?_, fun x hx => hsub x (h2 x hx)⟩
      rcases h1 with h1 | ⟨⟨w, hw, he⟩, hph⟩
      · rw [h1, e2]
        rcases next_cases S c (S.propose u) v with h | ⟨h, hph⟩
        · exact Or.inl h
        · right
          rw [h]
          exact ⟨⟨u, by rw [e1]; exact List.mem_cons_self, rfl⟩, hph⟩
      · exact Or.inr ⟨⟨w, hsub w hw, he⟩, hph⟩

end Setup

theorem sample_cases {h : Hooks} {r : Event} {rs : List ℝ} {m3 m4 : ℝ} {l : List ℝ} (hm : h.masses = m3 :: m4 :: l) :
    sample h r rs = .waiting ∨ ∃ q v, (setupOf h r m3 m4).From rs q ∧ v ∈ rs ∧
      ((setupOf h r m3 m4).Physical q ∨ ¬ (setupOf h r m3 m4).Retry q) ∧
      sample h r rs = match (setupOf h r m3 m4).final q (uniform 0 (2 * Real.pi) v) with
        | none => .nan
        | some (p3, p4) =>
          match h.helicities with
          | h3 :: h4 :: _ => .done ⟨p3.e, p3.p, m3, h3⟩ ⟨p4.e, p4.p, m4, h4⟩
          | _ => .throws := by
  unfold sample
  rw [hm]
  simp only
  split
  · exact Or.inl rfl
  next q rs1 hi =>
    obtain ⟨hf, hr, hsub⟩ := Setup.initial_spec _ hi
    split
    · exact Or.inl rfl
    next c rs2 hrun =>
      obtain ⟨hc, hsub2⟩ := Setup.run_cases _ 41 hrun
      split
      · exact Or.inl rfl
      next v rs3 =>
        right
        refine ⟨c.q, v, ?_, hsub v (hsub2 v List.mem_cons_self), ?_, rfl⟩
        · rcases hc with hc | ⟨⟨u, hu, he⟩, -⟩
          · rw [hc]; exact hf
          · exact ⟨u, hsub u hu, he⟩
        · rcases hc with hc | ⟨-, hc⟩
          · rw [hc]; exact Or.inr hr
          · exact Or.inl hc

/-! ### The claims -/

/-- C127: the secondaries recorded conserve energy and momentum with the target at rest, are on the mass shells of the masses
provided and recorded, have positive energies, and transfer a Q2 between the limits provided. -/
theorem C127_final_state {h : Hooks} {r : Event} {rs : List ℝ} (hp : r.p ≠ 0) (hA : Apart ⟨1, 0, 0⟩ (direction r.p))
    (hm2 : 0 < h.targetMass r.target) (h1 : 0 < h.qMin) (h2 : h.qMin ≤ h.qMax) (hrs : ∀ u ∈ rs, 0 ≤ u ∧ u ≤ 1)
    {s0 s1 : Out} (hs : sample h r rs = .done s0 s1) :
    (∃ q, h.qMin ≤ q ∧ q ≤ h.qMax ∧ Kinematics r.p r.mass (h.targetMass r.target) q s0 s1) ∧
      (∃ l, h.masses = s0.mass :: s1.mass :: l) ∧ ∃ l, h.helicities = s0.helicity :: s1.helicity :: l := by
  obtain ⟨m3, m4, l, hm⟩ : ∃ m3 m4 l, h.masses = m3 :: m4 :: l := by
    unfold sample at hs
    split at hs
    next m3 m4 l hm => exact ⟨m3, m4, l, hm⟩
    · exact absurd hs (by simp)
  rcases sample_cases (r := r) (rs := rs) hm with hw | ⟨q, v, ⟨u, hu, rfl⟩, -, -, he⟩
  · rw [hw] at hs; exact absurd hs (by simp)
  set S := setupOf h r m3 m4 with hS
  have hpS : S.p ≠ 0 := hp
  by_cases hph : S.Physical (S.propose u)
  · obtain ⟨hq1, hq2⟩ := Setup.propose_mem S h1 h2 (hrs u hu).1 (hrs u hu).2
    rw [he] at hs
    split at hs
    · exact absurd hs (by simp)
    next p3 p4 hf =>
      split at hs
      next h3 h4 l' hh =>
        obtain ⟨p3', p4', hf', hk⟩ := Setup.final_spec (S := S) hpS hA hm2 (lt_of_lt_of_le h1 hq1) hph
          (uniform 0 (2 * Real.pi) v) h3 h4
        rw [hf] at hf'
        simp only [Option.some.injEq, Prod.mk.injEq] at hf'
        simp only [Outcome.done.injEq] at hs
        obtain ⟨rfl, rfl⟩ := hf'
        rw [← hs.1, ← hs.2]
        exact ⟨⟨_, hq1, hq2, hk⟩, ⟨l, hm⟩, ⟨l', hh⟩⟩
      · exact absurd hs (by simp)
  · rw [he, Setup.final_none hph] at hs
    exact absurd hs (by simp)

/-- C127: the first secondary is turned around the direction of the primary by the whole circle times a number of the stream,
from a fixed position for its Q2. -/
theorem C127_azimuth {h : Hooks} {r : Event} {rs : List ℝ} {s0 s1 : Out} (hs : sample h r rs = .done s0 s1) :
    ∃ v ∈ rs, ∃ q p p4, (setupOf h r s0.mass s1.mass).final q 0 = some (p, p4) ∧ p.e = s0.e ∧
      s0.p = rotApply (axisAngle (direction r.p) (2 * Real.pi * v)) p.p := by
  obtain ⟨m3, m4, l, hm⟩ : ∃ m3 m4 l, h.masses = m3 :: m4 :: l := by
    unfold sample at hs
    split at hs
    next m3 m4 l hm => exact ⟨m3, m4, l, hm⟩
    · exact absurd hs (by simp)
  rcases sample_cases (r := r) (rs := rs) hm with hw | ⟨q, v, -, hv, -, he⟩
  · rw [hw] at hs; exact absurd hs (by simp)
  rw [he] at hs
  have hphi : uniform 0 (2 * Real.pi) v = 2 * Real.pi * v := by
    unfold uniform
    rw [if_neg (by have := Real.pi_pos; linarith)]; ring
  rw [hphi] at hs
  split at hs
  · exact absurd hs (by simp)
  next p3 p4 hf =>
    split at hs
    next h3 h4 l' hh =>
      simp only [Outcome.done.injEq] at hs
      obtain ⟨rfl, rfl⟩ := hs
      refine ⟨v, hv, q, ?_⟩
      show ∃ p p4, (setupOf h r m3 m4).final q 0 = some (p, p4) ∧ p.e = p3.e ∧
        p3.p = rotApply (axisAngle (direction r.p) (2 * Real.pi * v)) p.p
      unfold Setup.final at hf ⊢
      split at hf
      next b c hP hc =>
        cases hsq : sqrtN (1 - c * c) with
        | none => rw [hsq] at hf; exact absurd hf (by simp)
        | some s =>
          rw [hsq] at hf
          simp only [Option.map_some, Option.some.injEq, Prod.mk.injEq] at hf ⊢
          refine ⟨_, _, ⟨rfl, rfl⟩, ?_, ?_⟩
          · rw [← hf.1]; rfl
          · rw [← hf.1]
            have h0 : axisAngle (direction (setupOf h r m3 m4).p) 0 = ⟨0, 0, 0, 1⟩ := by simp [axisAngle]
            have hid : ∀ w : Vec3 ℝ, rotApply ⟨0, 0, 0, 1⟩ w = w := by
              intro w
              rw [rotApply_eq (by simp [Quat.IsUnit, Quat.normSq])]
              ext <;> simp [Quat.sandwich]
            simp only [P4.rotate, h0, hid]
            rfl
      · exact absurd hf (by simp)
    · exact absurd hs (by simp)

/-- C127: if the largest Q2 leaves the first secondary more energy than its mass, a sample never has momenta that are not
numbers. -/
theorem C127_complete {h : Hooks} {r : Event} {rs : List ℝ} (hp : r.p ≠ 0) (h1 : 0 < h.qMin) (h2 : h.qMin ≤ h.qMax)
    (hm2 : 0 < h.targetMass r.target) (hrs : ∀ u ∈ rs, 0 ≤ u ∧ u ≤ 1) {m3 m4 : ℝ} {l : List ℝ} (hm : h.masses = m3 :: m4 :: l)
    (hm3 : 0 ≤ m3)
    (hq : h.qMax + h.targetMass r.target ^ 2 + m4 ^ 2 <
      2 * h.targetMass r.target * (Real.sqrt (r.mass ^ 2 + Vec3.dot r.p r.p) + h.targetMass r.target - m3)) :
    sample h r rs ≠ .nan := by
  rcases sample_cases (r := r) (rs := rs) hm with hw | ⟨q, v, ⟨u, hu, rfl⟩, -, hor, he⟩
  · rw [hw]; simp
  set S := setupOf h r m3 m4 with hS
  have hpS : S.p ≠ 0 := hp
  obtain ⟨-, hq2⟩ := Setup.propose_mem S h1 h2 (hrs u hu).1 (hrs u hu).2
  have hE3 : m3 < S.E3 (S.propose u) := by
    have e : S.E3 (S.propose u) = S.E1 + h.targetMass r.target - S.E4 (S.propose u) := by
      unfold Setup.E3; rw [Setup.e2_eq (m := S.m2) hm2]; rfl
    have hE4 : 2 * h.targetMass r.target * S.E4 (S.propose u) =
        S.propose u + h.targetMass r.target * h.targetMass r.target + m4 * m4 := by
      have : S.m2 = h.targetMass r.target := rfl
      have h4 : S.m4 = m4 := rfl
      unfold Setup.E4; rw [this, h4]; field_simp
    have e1 : S.E1 = Real.sqrt (r.mass ^ 2 + Vec3.dot r.p r.p) := Setup.E1_eq S
    rw [e, e1]
    have hqm : S.qMax = h.qMax := rfl
    rw [hqm] at hq2
    have h3 : 2 * h.targetMass r.target * S.E4 (S.propose u) <
        2 * h.targetMass r.target * (Real.sqrt (r.mass ^ 2 + Vec3.dot r.p r.p) + h.targetMass r.target - m3) := by
      rw [hE4]; nlinarith
    have := lt_of_mul_lt_mul_left h3 (by positivity)
    linarith
  have hgt : 0 < S.E3 (S.propose u) * S.E3 (S.propose u) - S.m3 * S.m3 := by
    have : S.m3 = m3 := rfl
    rw [this]; nlinarith
  have hph : S.Physical (S.propose u) := by
    rcases hor with hor | hor
    · exact hor
    · have hP3 : S.P3 (S.propose u) = some (Real.sqrt (S.E3 (S.propose u) * S.E3 (S.propose u) - S.m3 * S.m3)) := by
        unfold Setup.P3 sqrtN; rw [if_pos hgt.le]
      have hne : S.p.norm * Real.sqrt (S.E3 (S.propose u) * S.E3 (S.propose u) - S.m3 * S.m3) ≠ 0 :=
        mul_ne_zero (norm_pos hpS).ne' (Real.sqrt_pos.mpr hgt).ne'
      unfold Setup.Retry Setup.cosine at hor
      unfold Setup.Physical Setup.cosine
      rw [Setup.P1_eq, hP3] at hor ⊢
      simp only [if_neg hne, gt_iff_lt, not_lt] at hor ⊢
      exact hor
  rw [he]
  have hf : ∃ x, S.final (S.propose u) (uniform 0 (2 * Real.pi) v) = some x := by
    have hcase := (Setup.physical_iff hpS _).mp hph
    unfold Setup.Physical at hph
    unfold Setup.final Setup.P3 sqrtN
    rw [if_pos hcase.1.le]
    split at hph
    · exact hph.elim
    · exact hph.elim
    next c hc =>
      rw [hc]
      simp only
      have : 0 ≤ 1 - c * c := by have := abs_le.mp hph; nlinarith
      rw [if_pos this]
      exact ⟨_, rfl⟩
  obtain ⟨x, hx⟩ := hf
  rw [hx]
  obtain ⟨p3, p4⟩ := x
  simp only
  split <;> simp

/-- C127 fails for the differential cross section of a record: it does not depend on the final state; Q2 is that of a transfer
to the target's own momentum. -/
theorem C127_Q2_fails (h : Hooks) (r : Event) (hm : 0 ≤ r.targetMass) (s : Secondary) :
    diffRecord h r s = h.diff r.primary r.target (Real.sqrt (r.mass ^ 2 + Vec3.dot r.p r.p))
      (2 * Real.sqrt (r.mass ^ 2 + Vec3.dot r.p r.p) * r.targetMass - r.mass ^ 2 - r.targetMass ^ 2) := by
  have e1 : (P4.ofMass r.p r.mass).e = Real.sqrt (r.mass ^ 2 + Vec3.dot r.p r.p) := by
    show Real.sqrt _ = _; congr 1; ring
  have e2 : (P4.ofMass ⟨0, 0, 0⟩ r.targetMass).e = r.targetMass := by
    show Real.sqrt (r.targetMass * r.targetMass + Vec3.dot (⟨0, 0, 0⟩ : Vec3 ℝ) ⟨0, 0, 0⟩) = _
    simp only [Vec3.dot, mul_zero, add_zero]
    exact Real.sqrt_mul_self hm
  have e3 : (P4.ofMass r.p r.mass).dot (P4.ofMass ⟨0, 0, 0⟩ r.targetMass) =
      Real.sqrt (r.mass ^ 2 + Vec3.dot r.p r.p) * r.targetMass := by
    unfold P4.dot
    rw [e1, e2]
    have : Vec3.dot (P4.ofMass r.p r.mass).p (P4.ofMass ⟨0, 0, 0⟩ r.targetMass).p = 0 := by
      show Vec3.dot r.p ⟨0, 0, 0⟩ = 0
      simp [Vec3.dot]
    rw [this]; ring
  unfold diffRecord
  simp only [e1, e3]
  congr 1
  ring

/-- C127 fails for the differential cross section of a record: two events of which the secondaries transfer different Q2, each
with energy and momentum conserved, get the same value although the cross section provided differs between them. -/
theorem C127_Q2_witness_fails : ∃ (h : Hooks) (r : Event) (s s' : Secondary), 0 < r.targetMass ∧
    h.diff r.primary r.target (Real.sqrt (r.mass ^ 2 + Vec3.dot r.p r.p)) (transferOf r s) ≠
      h.diff r.primary r.target (Real.sqrt (r.mass ^ 2 + Vec3.dot r.p r.p)) (transferOf r s') ∧
    diffRecord h r s = diffRecord h r s' := by
  refine ⟨⟨fun _ _ _ => 1, fun _ _ _ q => q, 1, 2, fun _ => 1, [0, 1], [1, 1]⟩, ⟨5914, 1000060120, 1, ⟨1, 0, 0⟩, 0, 1⟩,
    ⟨1, ⟨1, 0, 0⟩, 0⟩, ⟨1, ⟨0, 1, 0⟩, 0⟩, by norm_num, ?_, ?_⟩
  · show transferOf _ _ ≠ transferOf _ _
    unfold transferOf
    norm_num [Vec3.dot]
  · rfl

/-- C127 fails for the total cross section of a record: it is that of a target of the type of the primary. -/
theorem C127_target_fails (h : Hooks) (r : Event) : totalRecord h r = h.total r.primary r.energy r.primary ∧
    ∃ (h : Hooks) (r : Event), h.total r.primary r.energy r.target = 2 ∧ totalRecord h r = 1 := by
  refine ⟨rfl, ⟨fun _ _ t => if t = 1000060120 then 2 else 1, fun _ _ _ q => q, 1, 2, fun _ => 1, [0, 1], [1, 1]⟩,
    ⟨5914, 1000060120, 1, ⟨1, 0, 0⟩, 0, 1⟩, ?_, ?_⟩
  · simp
  · simp [totalRecord]

/-- C127: the reported probability is the ratio of the two, and zero if one of them is zero. -/
theorem C127_probability (h : Hooks) (r : Event) (s : Secondary) :
    probability h r s * totalRecord h r = (open Classical in if totalRecord h r = 0 then 0 else diffRecord h r s) ∧
      (totalRecord h r = 0 → probability h r s = 0) := by
  unfold probability
  constructor
  · split
    next h0 => rw [h0]; simp
    next h0 =>
      split
      next h1 => simp
      next h1 => field_simp
  · intro h1
    simp [h1]

/-! ### The initial point -/

/-- The numbers of the witness. -/
noncomputable def loose : Hooks :=
  ⟨fun _ _ _ => 1, fun _ _ _ _ => 1, 1 / 10, 3 / 2, fun _ => 1, [1 / 2, 1], [1, 1]⟩

def beam : Event := ⟨5914, 1000060120, 1, ⟨1, 0, 0⟩, 0, 1⟩

theorem beam_E1 : (setupOf loose beam (1 / 2) 1).E1 = 1 := by
  show Real.sqrt ((0 : ℝ) * 0 + Vec3.dot (⟨1, 0, 0⟩ : Vec3 ℝ) ⟨1, 0, 0⟩) = 1
  simp [Vec3.dot]

theorem loose_propose : (setupOf loose beam (1 / 2) 1).propose 1 = 3 / 2 := by
  have h : uniform (log10 (1 / 10)) (log10 (3 / 2)) 1 = log10 (3 / 2) := by
    unfold uniform
    split
    next h =>
      have : log10 (1 / 10) ≤ log10 (3 / 2) := Real.logb_le_logb_of_le (by norm_num) (by norm_num) (by norm_num)
      linarith
    next h => ring
  show pow10 (uniform (log10 (1 / 10)) (log10 (3 / 2)) 1) = 3 / 2
  rw [h]
  exact pow10_log10 (by norm_num)

theorem loose_cosine : (setupOf loose beam (1 / 2) 1).cosine (3 / 2) = .nan := by
  have h3 : (setupOf loose beam (1 / 2) 1).E3 (3 / 2) = 1 / 4 := by
    unfold Setup.E3
    rw [beam_E1, Setup.e2_eq (m := (setupOf loose beam (1 / 2) 1).m2) (show (0 : ℝ) < 1 by norm_num)]
    show (1 : ℝ) + 1 - ((3 / 2 + 1 * 1 + 1 * 1) / (2 * 1)) = 1 / 4
    norm_num
  have h4 : (setupOf loose beam (1 / 2) 1).P3 (3 / 2) = none := by
    unfold Setup.P3 sqrtN
    rw [h3]
    have : (setupOf loose beam (1 / 2) 1).m3 = 1 / 2 := rfl
    rw [this, if_neg (by norm_num)]
  unfold Setup.cosine
  rw [h4]
  cases (setupOf loose beam (1 / 2) 1).P1 <;> rfl

theorem loose_run (n k : Nat) : (setupOf loose beam (1 / 2) 1).run n ⟨3 / 2, 1⟩ (List.replicate (2 * n + k) 1) =
    some (⟨3 / 2, 1⟩, List.replicate k 1) := by
  induction n with
  | zero => simp [Setup.run]
  | succ n ih =>
    have e : 2 * (n + 1) + k = (2 * n + k) + 1 + 1 := by ring
    have hn : (setupOf loose beam (1 / 2) 1).next ⟨3 / 2, 1⟩ (3 / 2) 1 = ⟨3 / 2, 1⟩ := by
      unfold Setup.next Setup.Physical
      rw [loose_cosine]
      split <;> simp
    have hst : (setupOf loose beam (1 / 2) 1).step ⟨3 / 2, 1⟩ (List.replicate (2 * (n + 1) + k) 1) =
        some (⟨3 / 2, 1⟩, List.replicate (2 * n + k) 1) := by
      rw [e, List.replicate_succ, List.replicate_succ]
      unfold Setup.step
      simp only [loose_propose]
      have hd : (setupOf loose beam (1 / 2) 1).dxs (3 / 2) = 1 := rfl
      rw [hd, if_neg (by norm_num)]
      simp only [hn]
    unfold Setup.run
    rw [hst]
    exact ih

/-- C127 fails where the limits of Q2 provided are wider than the kinematics allow: the check of the initial point lets pass a
point of which the scattering angle is not a number, and such an event can be the result. Above the threshold of the
scattering, with positive masses and cross section and a finite stream in `[0, 1]`. -/
theorem C127_nan_fails : ∃ (h : Hooks) (r : Event) (rs : List ℝ) (m3 m4 : ℝ), r.p ≠ 0 ∧ Apart ⟨1, 0, 0⟩ (direction r.p) ∧
    0 < h.qMin ∧ h.qMin < h.qMax ∧ (∀ u ∈ rs, 0 ≤ u ∧ u ≤ 1) ∧ 0 < m3 ∧ 0 < m4 ∧ h.masses = [m3, m4] ∧
    0 < h.targetMass r.target ∧ (∀ a b e q, 0 < h.diff a b e q) ∧
    (m3 + m4) ^ 2 < r.mass ^ 2 + h.targetMass r.target ^ 2 +
      2 * Real.sqrt (r.mass ^ 2 + Vec3.dot r.p r.p) * h.targetMass r.target ∧
    sample h r rs = .nan := by
  have hd : direction beam.p = ⟨1, 0, 0⟩ := direction_of_unit (by simp [beam, Vec3.dot])
  refine ⟨loose, beam, List.replicate 84 1, 1 / 2, 1, ?_, ?_, by norm_num [loose], by norm_num [loose], ?_, by norm_num,
    by norm_num, rfl, by norm_num [loose], fun _ _ _ _ => by norm_num [loose], ?_, ?_⟩
  · intro h
    have : (1 : ℝ) = 0 := congrArg Vec3.x h
    norm_num at this
  · rw [hd]
    constructor
    · intro _; simp [Vec3.dot]
    · intro h; norm_num [Vec3.dot] at h
  · intro u hu
    rw [List.eq_of_mem_replicate hu]; norm_num
  · have : Real.sqrt (beam.mass ^ 2 + Vec3.dot beam.p beam.p) = 1 := by simp [beam, Vec3.dot]
    rw [this]
    norm_num [loose, beam]
  · have hi : (setupOf loose beam (1 / 2) 1).initial (List.replicate 84 1) = some (3 / 2, List.replicate 83 1) := by
      rw [show List.replicate 84 (1 : ℝ) = 1 :: List.replicate 83 1 from List.replicate_succ]
      unfold Setup.initial
      have : ¬ (setupOf loose beam (1 / 2) 1).Retry (3 / 2) := by
        unfold Setup.Retry; rw [loose_cosine]; simp
      rw [loose_propose, if_neg this]
    have hr := loose_run 41 1
    have hm : loose.masses = [1 / 2, 1] := rfl
    unfold sample
    rw [hm]
    simp only [hi]
    have hd : (setupOf loose beam (1 / 2) 1).dxs (3 / 2) = 1 := rfl
    rw [hd, show List.replicate 83 (1 : ℝ) = List.replicate (2 * 41 + 1) 1 from rfl, hr]
    have hf : ∀ phi, (setupOf loose beam (1 / 2) 1).final (3 / 2) phi = none := by
      intro phi
      apply Setup.final_none
      unfold Setup.Physical; rw [loose_cosine]; simp
    simp only [List.replicate_one, hf]

/-! ### Non-vacuity -/

/-- The numbers of an example in which all limits are inside the kinematics. -/
noncomputable def tight : Hooks :=
  ⟨fun _ _ _ => 1, fun _ _ _ q => 1 / q, 1 / 10, 1 / 2, fun _ => 1, [1 / 2, 1], [1, -1]⟩

/-- The hypotheses of C127_complete hold for `tight`, and Q2 = 1/2 is a physical point. -/
example : beam.p ≠ 0 ∧ 0 < tight.qMin ∧ tight.qMin ≤ tight.qMax ∧ 0 < tight.targetMass beam.target ∧
    tight.qMax + tight.targetMass beam.target ^ 2 + (1 : ℝ) ^ 2 <
      2 * tight.targetMass beam.target *
        (Real.sqrt (beam.mass ^ 2 + Vec3.dot beam.p beam.p) + tight.targetMass beam.target - 1 / 2) ∧
    (setupOf tight beam (1 / 2) 1).Physical (1 / 2) := by
  have hp : beam.p ≠ 0 := by
    intro h
    have : (1 : ℝ) = 0 := congrArg Vec3.x h
    norm_num at this
  have hs : Real.sqrt (beam.mass ^ 2 + Vec3.dot beam.p beam.p) = 1 := by simp [beam, Vec3.dot]
  have hE1 : (setupOf tight beam (1 / 2) 1).E1 = 1 := beam_E1
  have hE3 : (setupOf tight beam (1 / 2) 1).E3 (1 / 2) = 3 / 4 := by
    unfold Setup.E3
    rw [hE1, Setup.e2_eq (m := (setupOf tight beam (1 / 2) 1).m2) (show (0 : ℝ) < 1 by norm_num)]
    show (1 : ℝ) + 1 - ((1 / 2 + 1 * 1 + 1 * 1) / (2 * 1)) = 3 / 4
    norm_num
  refine ⟨hp, by norm_num [tight], by norm_num [tight], by norm_num [tight], ?_, ?_⟩
  · rw [hs]; norm_num [tight]
  · rw [Setup.physical_iff hp]
    have hm3 : (setupOf tight beam (1 / 2) 1).m3 = 1 / 2 := rfl
    have hm1 : (setupOf tight beam (1 / 2) 1).m1 = 0 := rfl
    have hn : (setupOf tight beam (1 / 2) 1).p.norm = 1 := by
      show Real.sqrt (Vec3.dot (⟨1, 0, 0⟩ : Vec3 ℝ) ⟨1, 0, 0⟩) = 1
      simp [Vec3.dot]
    unfold Setup.num
    rw [hE1, hE3, hm3, hm1, hn]
    constructor
    · norm_num
    · simp only [one_mul]
      apply Real.le_sqrt_of_sq_le
      norm_num [abs_of_pos]

end DarkNews
end Siren
