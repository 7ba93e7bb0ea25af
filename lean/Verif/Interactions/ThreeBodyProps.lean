import Verif.Interactions.ThreeBody
import Verif.Interactions.TwoBodyProps

set_option autoImplicit false

/-!
# C89: three-body decays of heavy neutral leptons are physical

Specification: `Physical` (four-momentum is conserved, all products are on their mass shells).
-/

namespace Siren
namespace ThreeBody

open Rk Signatures TwoBody
open Dis (uniform)

/-- **Specification.**  Four-momentum is conserved; neutrino, negative and positive lepton are on the mass shells of 0, `a` and `b`,
have energies that are not negative, and carry these masses. -/
structure Physical (r : Primary) (a b : ℝ) (N A B : Product) : Prop where
  momentum : N.p + A.p + B.p = r.p
  energy : N.e + A.e + B.e = r.e
  shellN : N.e ^ 2 - Vec3.dot N.p N.p = 0
  shellA : A.e ^ 2 - Vec3.dot A.p A.p = a ^ 2
  shellB : B.e ^ 2 - Vec3.dot B.p B.p = b ^ 2
  posN : 0 ≤ N.e
  posA : 0 ≤ A.e
  posB : 0 ≤ B.e
  massN : N.mass = some 0
  massA : A.mass = some a
  massB : B.mass = some b

/-- **Specification.**  Invariant mass squared of two products over the square of `M`. -/
noncomputable def pairMass (M : ℝ) (A B : Product) : ℝ :=
  ((A.e + B.e) ^ 2 - Vec3.dot (A.p + B.p) (A.p + B.p)) / M ^ 2

/-! ### The allowed region -/

/-- The polynomial whose sign decides whether a point is kinematically allowed. -/
def gram (M a b S1 S2 : ℝ) : ℝ :=
  S1 * (S2 - b ^ 2) ^ 2 - (S1 - a ^ 2) * (M ^ 2 - S1 - b ^ 2) * (S2 - b ^ 2) + (S1 - a ^ 2) ^ 2 * b ^ 2

theorem gram_symm (M a b S1 S2 : ℝ) : gram M a b S1 S2 = gram M b a S2 S1 := by unfold gram; ring

theorem gram_eq (M a b s1 s2 : ℝ) :
    coefA M s1 * s2 ^ 2 + coefB M a b s1 * s2 + coefC M a b s1 = gram M a b (M ^ 2 * s1) (M ^ 2 * s2) := by
  unfold coefA coefB coefC gram; ring

theorem disc_eq (M a b s1 : ℝ) :
    coefB M a b s1 * coefB M a b s1 - 4 * coefA M s1 * coefC M a b s1 =
      M ^ 4 * (M ^ 2 * s1 - a ^ 2) ^ 2 * ((M ^ 2 - M ^ 2 * s1 - b ^ 2) ^ 2 - 4 * (M ^ 2 * s1) * b ^ 2) := by
  unfold coefA coefB coefC; ring

/-- What follows inside the allowed region. -/
theorem inside {M a b S1 S2 : ℝ} (h1 : a ^ 2 < S1) (h2 : 0 < M ^ 2 - S1 - b ^ 2) (hg : gram M a b S1 S2 < 0) :
    b ^ 2 < S2 ∧ 0 < M ^ 2 - S2 - a ^ 2 := by
  have hS1 : 0 < S1 := lt_of_le_of_lt (sq_nonneg a) h1
  have hb : b ^ 2 < S2 := by
    by_contra hc
    push Not at hc
    unfold gram at hg
    have e1 : 0 ≤ S1 * (S2 - b ^ 2) ^ 2 := by positivity
    have e2 : 0 ≤ (S1 - a ^ 2) * (M ^ 2 - S1 - b ^ 2) * (b ^ 2 - S2) :=
      mul_nonneg (mul_nonneg (by linarith) h2.le) (by linarith)
    have e3 : 0 ≤ (S1 - a ^ 2) ^ 2 * b ^ 2 := by positivity
    nlinarith
  refine ⟨hb, ?_⟩
  by_contra hc
  push Not at hc
  rw [gram_symm] at hg
  unfold gram at hg
  have hS2 : 0 < S2 := lt_of_le_of_lt (sq_nonneg b) hb
  have e1 : 0 ≤ S2 * (S1 - a ^ 2) ^ 2 := by positivity
  have e2 : 0 ≤ (S2 - b ^ 2) * -(M ^ 2 - S2 - a ^ 2) * (S1 - a ^ 2) :=
    mul_nonneg (mul_nonneg (by linarith) (by linarith)) (by linarith)
  have e3 : 0 ≤ (S2 - b ^ 2) ^ 2 * a ^ 2 := by positivity
  nlinarith

/-- The first variable lies strictly inside its limits. -/
theorem s1_inside {M a b u : ℝ} (hM : 0 < M) (ha : 0 ≤ a) (hab : a + b < M) (h0 : 0 < u) (h1 : u < 1) :
    a ^ 2 < M ^ 2 * uniform (s1Min M a) (s1Max M b) u ∧ M ^ 2 * uniform (s1Min M a) (s1Max M b) u < (M - b) ^ 2 := by
  have hlt : a ^ 2 < (M - b) ^ 2 := by nlinarith
  have hM2 : 0 < M ^ 2 := by positivity
  have hle : s1Min M a ≤ s1Max M b := by
    unfold s1Min s1Max
    gcongr
  have e : M ^ 2 * uniform (s1Min M a) (s1Max M b) u = ((M - b) ^ 2 - a ^ 2) * u + a ^ 2 := by
    unfold uniform
    rw [if_neg (not_lt.mpr hle)]
    unfold s1Min s1Max
    field_simp
  rw [e]
  constructor <;> nlinarith

/-- The limits of the second variable, and the sign of the polynomial between them. -/
theorem s2_inside {M a b s1 u : ℝ} (hM : 0 < M) (h1 : a ^ 2 < M ^ 2 * s1) (h2 : M ^ 2 * s1 < (M - b) ^ 2) (hb : 0 ≤ b) (hbM : b < M) :
    0 < M ^ 2 - M ^ 2 * s1 - b ^ 2 ∧
    ∃ lo hi, s2Range M a b s1 = some (lo, hi) ∧ lo < hi ∧
      (hi - lo) * M ^ 2 * (M ^ 2 * s1) =
        (M ^ 2 * s1 - a ^ 2) * Real.sqrt ((M ^ 2 - M ^ 2 * s1 - b ^ 2) ^ 2 - 4 * (M ^ 2 * s1) * b ^ 2) ∧
      (∀ s2, gram M a b (M ^ 2 * s1) (M ^ 2 * s2) = M ^ 4 * (M ^ 2 * s1) * ((s2 - lo) * (s2 - hi))) ∧
      (0 < u → u < 1 → gram M a b (M ^ 2 * s1) (M ^ 2 * uniform lo hi u) < 0) := by
  set S1 := M ^ 2 * s1 with hS
  have hS1 : 0 < S1 := lt_of_le_of_lt (sq_nonneg a) h1
  have hpos : 0 < M ^ 2 - S1 - b ^ 2 := by nlinarith
  have hk : 0 < (M ^ 2 - S1 - b ^ 2) ^ 2 - 4 * S1 * b ^ 2 := by
    have : (M ^ 2 - S1 - b ^ 2) ^ 2 - 4 * S1 * b ^ 2 = ((M - b) ^ 2 - S1) * ((M + b) ^ 2 - S1) := by ring
    rw [this]
    exact mul_pos (by linarith) (by nlinarith)
  have hA : coefA M s1 = M ^ 4 * S1 := by rw [hS]; unfold coefA; ring
  have hA0 : 0 < coefA M s1 := by rw [hA]; positivity
  have hD : coefB M a b s1 * coefB M a b s1 - 4 * coefA M s1 * coefC M a b s1 =
      (M ^ 2 * (S1 - a ^ 2)) ^ 2 * ((M ^ 2 - S1 - b ^ 2) ^ 2 - 4 * S1 * b ^ 2) := by rw [disc_eq]; ring
  have hD0 : 0 < coefB M a b s1 * coefB M a b s1 - 4 * coefA M s1 * coefC M a b s1 := by
    rw [hD]
    have : 0 < S1 - a ^ 2 := by linarith
    positivity
  set root := Real.sqrt (coefB M a b s1 * coefB M a b s1 - 4 * coefA M s1 * coefC M a b s1) with hr
  have hr0 : 0 < root := Real.sqrt_pos.mpr hD0
  have hr2 : root * root = coefB M a b s1 * coefB M a b s1 - 4 * coefA M s1 * coefC M a b s1 := Real.mul_self_sqrt hD0.le
  have hrv : root = M ^ 2 * (S1 - a ^ 2) * Real.sqrt ((M ^ 2 - S1 - b ^ 2) ^ 2 - 4 * S1 * b ^ 2) := by
    rw [hr, hD, Real.sqrt_mul (sq_nonneg _), Real.sqrt_sq (mul_nonneg (by positivity) (by linarith))]
  refine ⟨hpos, (-coefB M a b s1 - root) / (2 * coefA M s1), (-coefB M a b s1 + root) / (2 * coefA M s1), ?_, ?_, ?_, ?_, ?_⟩
  · unfold s2Range
    rw [sqrtN, if_pos hD0.le, Option.map_some, ← hr]
  · gcongr
    linarith
  · have : ((-coefB M a b s1 + root) / (2 * coefA M s1) - (-coefB M a b s1 - root) / (2 * coefA M s1)) = root / coefA M s1 := by
      field_simp; ring
    rw [this, hrv, hA]
    field_simp
  · intro s2
    rw [← gram_eq]
    rw [← hA]
    field_simp
    linear_combination hr2
  · intro h0 h3
    have hlt : (-coefB M a b s1 - root) / (2 * coefA M s1) < (-coefB M a b s1 + root) / (2 * coefA M s1) := by
      gcongr
      linarith
    set lo := (-coefB M a b s1 - root) / (2 * coefA M s1) with hlo
    set hi := (-coefB M a b s1 + root) / (2 * coefA M s1) with hhi
    have hq : ∀ s2, gram M a b S1 (M ^ 2 * s2) = M ^ 4 * S1 * ((s2 - lo) * (s2 - hi)) := by
      intro s2
      rw [← gram_eq, ← hA, hlo, hhi]
      field_simp
      linear_combination hr2
    rw [hq]
    unfold uniform
    rw [if_neg (not_lt.mpr hlt.le)]
    have e1 : 0 < (hi - lo) * u + lo - lo := by nlinarith
    have e2 : (hi - lo) * u + lo - hi < 0 := by nlinarith
    exact mul_neg_of_pos_of_neg (by positivity) (mul_neg_of_pos_of_neg e1 e2)

/-! ### Boosts -/

/-- A product of momentum `K` and mass `m` in the rest frame, seen in the laboratory. -/
theorem boosted (p : Vec3 ℝ) {M : ℝ} (hM : 0 < M) (K : Vec3 ℝ) (m : ℝ) :
    ∃ b Q, (P4.ofMass p M).labBoost = some b ∧ (P4.ofMass K m).boost b = some Q ∧ Q.OnShell m ∧
      Q.e = ((P4.ofMass p M).e * (P4.ofMass K m).e + p.norm * Vec3.dot (direction p) K) / M ∧
      Q.p = K + Vec3.smul (((P4.ofMass p M).e / M - 1) * Vec3.dot (direction p) K + (P4.ofMass K m).e * (p.norm / M))
        (direction p) := by
  obtain ⟨_, hl, _, hp⟩ := boosts_of (onShell_ofMass p M) hM
  obtain ⟨Q, hQ, hs, qe, qp⟩ := boost_spec (onShell_ofMass K m) hp
  refine ⟨_, Q, hl, hQ, hs, ?_, ?_⟩
  · rw [qe]
    simp only [sub_add_cancel]
    show (P4.ofMass p M).e / M * (P4.ofMass K m).e - -p.norm / M * Vec3.dot (direction p) K = _
    field_simp
    ring
  · rw [qp]
    show K + Vec3.smul (((P4.ofMass p M).e / M - 1) * Vec3.dot (direction p) K - (P4.ofMass K m).e * (-p.norm / M)) (direction p) = _
    congr 2
    ring

theorem dot_add_smul (n K L : Vec3 ℝ) (x y : ℝ) :
    Vec3.dot (K + Vec3.smul x n) (L + Vec3.smul y n) =
      Vec3.dot K L + y * Vec3.dot n K + x * Vec3.dot n L + x * y * Vec3.dot n n := by
  simp only [Vec3.dot, Vec3.add_x, Vec3.add_y, Vec3.add_z, Vec3.smul]; ring

/-- Products of four-momenta are the same in both frames. -/
theorem boosted_dot (p : Vec3 ℝ) {M E : ℝ} (hM : 0 < M) (hE : E * E - Vec3.dot p p = M * M) {K L Q R : Vec3 ℝ} {k l q r : ℝ}
    (hq : q = (E * k + p.norm * Vec3.dot (direction p) K) / M)
    (hQ : Q = K + Vec3.smul ((E / M - 1) * Vec3.dot (direction p) K + k * (p.norm / M)) (direction p))
    (hr : r = (E * l + p.norm * Vec3.dot (direction p) L) / M)
    (hR : R = L + Vec3.smul ((E / M - 1) * Vec3.dot (direction p) L + l * (p.norm / M)) (direction p)) :
    q * r - Vec3.dot Q R = k * l - Vec3.dot K L := by
  have hn := direction_unit p
  have hs := norm_sq p
  rw [hQ, hR, dot_add_smul, hn, hq, hr]
  generalize Vec3.dot (direction p) K = dK
  generalize Vec3.dot (direction p) L = dL
  rw [← hs] at hE
  field_simp
  linear_combination (k * l - dK * dL) * hE

/-! ### Directions of the leptons -/

theorem n3_unit {c s phi : ℝ} (h : s * s = 1 - c * c) : Vec3.dot (n3 c s phi) (n3 c s phi) = 1 := by
  have := Real.sin_sq_add_cos_sq phi
  simp only [n3, Vec3.dot]
  linear_combination s * s * this + h

theorem n4_unit {c s phi ca sa rot : ℝ} (h : s * s = 1 - c * c) (ha : sa * sa = 1 - ca * ca) :
    Vec3.dot (n4 c s phi ca sa rot) (n4 c s phi ca sa rot) = 1 ∧ Vec3.dot (n3 c s phi) (n4 c s phi ca sa rot) = ca := by
  have h1 : Real.cos phi ^ 2 = 1 - Real.sin phi ^ 2 := by rw [Real.cos_sq']
  have h2 : Real.cos rot ^ 2 = 1 - Real.sin rot ^ 2 := by rw [Real.cos_sq']
  simp only [n4, n3, Vec3.dot]
  generalize Real.cos phi = cp at *
  generalize Real.sin phi = sp at *
  generalize Real.cos rot = cr at *
  generalize Real.sin rot = sr at *
  constructor
  · linear_combination (ca ^ 2 * s ^ 2 + 2 * ca * sa * cr * c * s + sa ^ 2 * cr ^ 2 * c ^ 2 + sa ^ 2 * sr ^ 2) * h1 +
      sa ^ 2 * h2 + (ca ^ 2 + sa ^ 2 * cr ^ 2) * h + ha
  · linear_combination (ca * s ^ 2 + s * sa * cr * c) * h1 + ca * h

theorem dot_smul_smul (x y : ℝ) (v w : Vec3 ℝ) : Vec3.dot (Vec3.smul x v) (Vec3.smul y w) = x * y * Vec3.dot v w := by
  simp only [Vec3.dot, Vec3.smul]; ring

/-- The rest frame: energies, momenta and their angle. -/
theorem rest_frame {M a b s1 s2 : ℝ} (hM : 0 < M) (h1 : a ^ 2 < M ^ 2 * s1) (h2 : 0 < M ^ 2 - M ^ 2 * s1 - b ^ 2)
    (h3 : M ^ 2 * s1 < (M - b) ^ 2) (hb : 0 ≤ b) (hg : gram M a b (M ^ 2 * s1) (M ^ 2 * s2) < 0) :
    ∃ p3 p4 ca sa, sqrtN (energy3 M a s2 * energy3 M a s2 - a * a) = some p3 ∧
      sqrtN (energy4 M b s1 * energy4 M b s1 - b * b) = some p4 ∧ cosAlpha M a b s1 s2 p3 p4 = some ca ∧
      sqrtN (1 - ca * ca) = some sa ∧ sa * sa = 1 - ca * ca ∧ 0 < p3 ∧ 0 < p4 ∧ 0 < energy3 M a s2 ∧ 0 < energy4 M b s1 ∧
      p3 * p3 = energy3 M a s2 * energy3 M a s2 - a * a ∧ p4 * p4 = energy4 M b s1 * energy4 M b s1 - b * b ∧
      p3 * p4 * ca = energy3 M a s2 * energy4 M b s1 - (M ^ 2 - M ^ 2 * s1 - M ^ 2 * s2) / 2 ∧
      0 < M - energy3 M a s2 - energy4 M b s1 := by
  obtain ⟨i1, i2⟩ := inside h1 h2 hg
  have e3 : energy3 M a s2 * (2 * M) = M ^ 2 - M ^ 2 * s2 + a ^ 2 := by unfold energy3; field_simp
  have e4 : energy4 M b s1 * (2 * M) = M ^ 2 - M ^ 2 * s1 + b ^ 2 := by unfold energy4; field_simp
  set E3 := energy3 M a s2 with hE3
  set E4 := energy4 M b s1 with hE4
  set S1 := M ^ 2 * s1 with hS1
  set S2 := M ^ 2 * s2 with hS2
  have hE3p : 0 < E3 := by
    have : 0 < E3 * (2 * M) := by rw [e3]; nlinarith [sq_nonneg a]
    exact (pos_iff_pos_of_mul_pos this).mpr (by linarith)
  have hE4p : 0 < E4 := by
    have : 0 < E4 * (2 * M) := by rw [e4]; nlinarith [sq_nonneg b]
    exact (pos_iff_pos_of_mul_pos this).mpr (by linarith)
  have hM2 : 0 < 4 * M * M := by positivity
  have hp4 : 0 < E4 * E4 - b * b := by
    have : (E4 * E4 - b * b) * (4 * M * M) = ((M - b) ^ 2 - S1) * ((M + b) ^ 2 - S1) := by
      have : (E4 * E4 - b * b) * (4 * M * M) = (E4 * (2 * M)) * (E4 * (2 * M)) - b * b * (4 * M * M) := by ring
      rw [this, e4]; ring
    have hpos : 0 < (E4 * E4 - b * b) * (4 * M * M) := by
      rw [this]
      exact mul_pos (by linarith) (by nlinarith)
    exact (pos_iff_pos_of_mul_pos hpos).mpr hM2
  set num := E3 * E4 - (M ^ 2 - S1 - S2) / 2 with hnum
  have hgram : ((E3 * E3 - a * a) * (E4 * E4 - b * b) - num * num) * (4 * M ^ 2) = -gram M a b S1 S2 := by
    have x3 : E3 = (M ^ 2 - S2 + a ^ 2) / (2 * M) := by rw [← e3]; field_simp
    have x4 : E4 = (M ^ 2 - S1 + b ^ 2) / (2 * M) := by rw [← e4]; field_simp
    rw [hnum, x3, x4]
    unfold gram
    field_simp
    ring
  have hlt : num * num < (E3 * E3 - a * a) * (E4 * E4 - b * b) := by
    have : 0 < ((E3 * E3 - a * a) * (E4 * E4 - b * b) - num * num) * (4 * M ^ 2) := by rw [hgram]; linarith
    have := (pos_iff_pos_of_mul_pos this).mpr (by positivity)
    linarith
  have hp3 : 0 < E3 * E3 - a * a := by
    have : 0 < (E3 * E3 - a * a) * (E4 * E4 - b * b) := lt_of_le_of_lt (mul_self_nonneg _) hlt
    exact (pos_iff_pos_of_mul_pos this).mpr hp4
  set p3 := Real.sqrt (E3 * E3 - a * a) with hp3d
  set p4 := Real.sqrt (E4 * E4 - b * b) with hp4d
  have q3 : 0 < p3 := Real.sqrt_pos.mpr hp3
  have q4 : 0 < p4 := Real.sqrt_pos.mpr hp4
  have r3 : p3 * p3 = E3 * E3 - a * a := Real.mul_self_sqrt hp3.le
  have r4 : p4 * p4 = E4 * E4 - b * b := Real.mul_self_sqrt hp4.le
  have h34 : 0 < p3 * p4 := mul_pos q3 q4
  have hc : |num / (p3 * p4)| ≤ 1 := by
    rw [abs_div, abs_of_pos h34, div_le_one h34]
    rw [← r3, ← r4] at hlt
    have : num ^ 2 < (p3 * p4) ^ 2 := by nlinarith
    exact (abs_lt_of_sq_lt_sq this h34.le).le
  have hcos : cosAlpha M a b s1 s2 p3 p4 = some (num / (p3 * p4)) := by
    unfold cosAlpha
    have hv : (energy3 M a s2 * energy4 M b s1 -
        0.5 * ((1 + (a ^ 2 + b ^ 2) / M ^ 2 - s1 - s2) * M ^ 2 - a ^ 2 - b ^ 2)) = num := by
      rw [hnum, ← hE3, ← hE4, hS1, hS2]
      field_simp
      ring
    simp only [hv]
    rw [if_neg h34.ne', if_neg (not_lt.mpr (abs_le.mp hc).2), if_neg (not_lt.mpr (abs_le.mp hc).1)]
  have hca : 0 ≤ 1 - num / (p3 * p4) * (num / (p3 * p4)) := by
    have := (abs_le.mp hc)
    nlinarith [this.1, this.2]
  refine ⟨p3, p4, num / (p3 * p4), Real.sqrt (1 - num / (p3 * p4) * (num / (p3 * p4))), ?_, ?_, hcos, ?_, Real.mul_self_sqrt hca,
    q3, q4, hE3p, hE4p, r3, r4, ?_, ?_⟩
  · rw [sqrtN, if_pos hp3.le]
  · rw [sqrtN, if_pos hp4.le]
  · rw [sqrtN, if_pos hca]
  · field_simp
  · have : 0 < (M - E3 - E4) * (2 * M) := by nlinarith
    exact (pos_iff_pos_of_mul_pos this).mpr (by linarith)

/-- **Specification.**  A point strictly inside the allowed region: the polynomial is negative, the first variable inside its limits
and the cosine between -1 and 1. -/
structure Inside (M a b : ℝ) (x : Point) : Prop where
  lower : a ^ 2 < M ^ 2 * x.s1
  upper : M ^ 2 * x.s1 < (M - b) ^ 2
  gram : gram M a b (M ^ 2 * x.s1) (M ^ 2 * x.s2) < 0
  cos : -1 ≤ x.cosTheta ∧ x.cosTheta ≤ 1

theorem norm_le_e (r : Primary) : r.p.norm ≤ r.e := by
  unfold Primary.e Vec3.norm
  exact Real.sqrt_le_sqrt (by nlinarith [sq_nonneg r.mass])

theorem lab_nonneg {n E e d : ℝ} (hn : 0 ≤ n) (hE : n ≤ E) (he : 0 ≤ e) (hd : d ≤ e) : 0 ≤ E * e - n * d := by
  nlinarith [mul_le_mul_of_nonneg_left hd hn, mul_le_mul_of_nonneg_right hE he]

set_option maxHeartbeats 800000 in
/-- The products of a point inside the allowed region. -/
theorem products_spec (r : Primary) {a b : ℝ} (hM : 0 < r.mass) (hb : 0 ≤ b) (hbM : b < r.mass) {x : Point}
    (hx : Inside r.mass a b x) :
    ∃ k3 k4 N, convert r r.mass a b x = some (k3, k4) ∧ products r r.mass a b x = some (N, Product.of k3, Product.of k4) ∧
      Physical r a b N (Product.of k3) (Product.of k4) ∧
      pairMass r.mass N (Product.of k3) = x.s1 ∧ pairMass r.mass N (Product.of k4) = x.s2 := by
  have h2 : 0 < r.mass ^ 2 - r.mass ^ 2 * x.s1 - b ^ 2 := by nlinarith [hx.upper]
  obtain ⟨p3, p4, ca, sa, q3, q4, qc, qs, hsa, h3p, h4p, he3, he4, r3, r4, hd, hrest⟩ :=
    rest_frame hM hx.lower h2 hx.upper hb hx.gram
  set M := r.mass with hMd
  set E3 := energy3 M a x.s2 with hE3
  set E4 := energy4 M b x.s1 with hE4
  have e3 : E3 * (2 * M) = M ^ 2 - M ^ 2 * x.s2 + a ^ 2 := by rw [hE3]; unfold energy3; field_simp
  have e4 : E4 * (2 * M) = M ^ 2 - M ^ 2 * x.s1 + b ^ 2 := by rw [hE4]; unfold energy4; field_simp
  have hcc : 0 ≤ 1 - x.cosTheta * x.cosTheta := by nlinarith [hx.cos.1, hx.cos.2]
  set s := Real.sqrt (1 - x.cosTheta * x.cosTheta) with hs
  have hss : s * s = 1 - x.cosTheta * x.cosTheta := Real.mul_self_sqrt hcc
  set K3 := Vec3.smul p3 (n3 x.cosTheta s x.phi) with hK3
  set K4 := Vec3.smul p4 (n4 x.cosTheta s x.phi ca sa x.rot) with hK4
  obtain ⟨u4, u34⟩ := n4_unit (phi := x.phi) (rot := x.rot) hss hsa
  have d33 : Vec3.dot K3 K3 = E3 * E3 - a * a := by rw [hK3, dot_smul_smul, n3_unit hss, mul_one, r3]
  have d44 : Vec3.dot K4 K4 = E4 * E4 - b * b := by rw [hK4, dot_smul_smul, u4, mul_one, r4]
  have d34 : Vec3.dot K3 K4 = E3 * E4 - (M ^ 2 - M ^ 2 * x.s1 - M ^ 2 * x.s2) / 2 := by rw [hK3, hK4, dot_smul_smul, u34, hd]
  obtain ⟨bo, k3, hbo, hk3, s3, k3e, k3p⟩ := boosted r.p hM K3 a
  obtain ⟨bo', k4, hbo', hk4, s4, k4e, k4p⟩ := boosted r.p hM K4 b
  rw [hbo, Option.some.injEq] at hbo'
  subst hbo'
  have o3 : (P4.ofMass K3 a).e = E3 := by
    show Real.sqrt _ = _
    rw [d33, show a * a + (E3 * E3 - a * a) = E3 * E3 by ring, Real.sqrt_mul_self he3.le]
  have o4 : (P4.ofMass K4 b).e = E4 := by
    show Real.sqrt _ = _
    rw [d44, show b * b + (E4 * E4 - b * b) = E4 * E4 by ring, Real.sqrt_mul_self he4.le]
  rw [o3, primary_e] at k3e k3p
  rw [o4, primary_e] at k4e k4p
  have hconv : convert r M a b x = some (k3, k4) := by
    unfold convert
    rw [q3, Option.bind_some, q4, Option.bind_some, qc, Option.bind_some, qs, Option.bind_some, sqrtN, if_pos hcc, Option.bind_some,
      if_neg (by rw [not_not, ← hMd, sub_self, abs_zero]; norm_num), ← hMd, hbo, Option.bind_some, ← hs, ← hK3, hk3, Option.bind_some, ← hK4,
      hk4, Option.map_some]
  have hEE : r.e * r.e - Vec3.dot r.p r.p = M * M := by
    have := (onShell_ofMass r.p M).shell
    rw [← primary_e]; exact this
  -- invariants
  have dot34 := boosted_dot r.p hM hEE k3e k3p k4e k4p
  rw [d34] at dot34
  obtain ⟨i3, -⟩ := toLab_invariants r.p hM hEE k3e k3p
  obtain ⟨i4, -⟩ := toLab_invariants r.p hM hEE k4e k4p
  have sh3 := s3.shell
  have sh4 := s4.shell
  have n0 := Vec3.norm_nonneg r.p
  have nn := norm_sq r.p
  have hE0 : 0 < r.e := primary_e_pos hM
  have hEl : r.p.norm ≤ r.e := norm_le_e r
  have hNe : (((P4.ofMass r.p M).sub k3).sub k4).e = r.e - k3.e - k4.e := by
    show (P4.ofMass r.p M).e - k3.e - k4.e = _
    rw [primary_e]
  have hNp : (((P4.ofMass r.p M).sub k3).sub k4).p = r.p - k3.p - k4.p := rfl
  have hpos : 0 ≤ r.e - k3.e - k4.e := by
    have hns : Vec3.dot (K3 + K4) (K3 + K4) = (M - E3 - E4) * (M - E3 - E4) := by
      have : Vec3.dot (K3 + K4) (K3 + K4) = Vec3.dot K3 K3 + 2 * Vec3.dot K3 K4 + Vec3.dot K4 K4 := by
        simp only [Vec3.dot, Vec3.add_x, Vec3.add_y, Vec3.add_z]; ring
      rw [this, d33, d44, d34]
      linear_combination e3 + e4
    have hc := dot_sq_le (k := K3 + K4) (direction_unit r.p)
    rw [hns] at hc
    have hadd : Vec3.dot (direction r.p) (K3 + K4) = Vec3.dot (direction r.p) K3 + Vec3.dot (direction r.p) K4 := by
      simp only [Vec3.dot, Vec3.add_x, Vec3.add_y, Vec3.add_z]; ring
    have hle : Vec3.dot (direction r.p) K3 + Vec3.dot (direction r.p) K4 ≤ M - E3 - E4 := by
      have := Real.sqrt_le_sqrt hc
      rw [Real.sqrt_mul_self hrest.le, Real.sqrt_mul_self_eq_abs, hadd] at this
      exact (le_abs_self _).trans this
    have : (r.e - k3.e - k4.e) * M = r.e * (M - E3 - E4) - r.p.norm * (Vec3.dot (direction r.p) K3 + Vec3.dot (direction r.p) K4) := by
      rw [k3e, k4e]; field_simp; ring
    have h0 : 0 ≤ (r.e - k3.e - k4.e) * M := by rw [this]; exact lab_nonneg n0 hEl hrest.le hle
    exact nonneg_of_mul_nonneg_left h0 hM
  have hp1 : Vec3.dot (r.p - k3.p - k4.p) (r.p - k3.p - k4.p) = Vec3.dot r.p r.p + Vec3.dot k3.p k3.p + Vec3.dot k4.p k4.p -
      2 * Vec3.dot r.p k3.p - 2 * Vec3.dot r.p k4.p + 2 * Vec3.dot k3.p k4.p := by
    simp only [Vec3.dot, Vec3.sub_x, Vec3.sub_y, Vec3.sub_z]; ring
  have hM0 : M ^ 2 ≠ 0 := by positivity
  refine ⟨k3, k4, ⟨r.e - k3.e - k4.e, r.p - k3.p - k4.p, some 0⟩, hconv, ?_, ?_, ?_, ?_⟩
  · unfold products
    rw [hconv, Option.map_some]
    simp only [← hMd, hNe, hNp]
  · refine ⟨?_, ?_, ?_, ?_, ?_, hpos, s3.pos, s4.pos, rfl, ?_, ?_⟩
    · show r.p - k3.p - k4.p + k3.p + k4.p = r.p
      ext <;> simp <;> ring
    · show r.e - k3.e - k4.e + k3.e + k4.e = r.e
      ring
    · show (r.e - k3.e - k4.e) ^ 2 - Vec3.dot (r.p - k3.p - k4.p) (r.p - k3.p - k4.p) = 0
      rw [hp1]
      linear_combination hEE + sh3 + sh4 - 2 * i3 - 2 * i4 + 2 * dot34 - e3 - e4
    · show k3.e ^ 2 - Vec3.dot k3.p k3.p = a ^ 2
      linear_combination sh3
    · show k4.e ^ 2 - Vec3.dot k4.p k4.p = b ^ 2
      linear_combination sh4
    · show k3.m = some a
      simp only [P4.m, s3.mass]
    · show k4.m = some b
      simp only [P4.m, s4.mass]
  · show ((r.e - k3.e - k4.e + k3.e) ^ 2 - Vec3.dot (r.p - k3.p - k4.p + k3.p) (r.p - k3.p - k4.p + k3.p)) / M ^ 2 = x.s1
    have hp2 : Vec3.dot (r.p - k3.p - k4.p + k3.p) (r.p - k3.p - k4.p + k3.p) = Vec3.dot r.p r.p - 2 * Vec3.dot r.p k4.p + Vec3.dot k4.p k4.p := by
      simp only [Vec3.dot, Vec3.sub_x, Vec3.sub_y, Vec3.sub_z, Vec3.add_x, Vec3.add_y, Vec3.add_z]; ring
    rw [hp2, div_eq_iff hM0]
    linear_combination hEE + sh4 - 2 * i4 - e4
  · show ((r.e - k3.e - k4.e + k4.e) ^ 2 - Vec3.dot (r.p - k3.p - k4.p + k4.p) (r.p - k3.p - k4.p + k4.p)) / M ^ 2 = x.s2
    have hp2 : Vec3.dot (r.p - k3.p - k4.p + k4.p) (r.p - k3.p - k4.p + k4.p) = Vec3.dot r.p r.p - 2 * Vec3.dot r.p k3.p + Vec3.dot k3.p k3.p := by
      simp only [Vec3.dot, Vec3.sub_x, Vec3.sub_y, Vec3.sub_z, Vec3.add_x, Vec3.add_y, Vec3.add_z]; ring
    rw [hp2, div_eq_iff hM0]
    linear_combination hEE + sh3 - 2 * i3 - e3

/-- Every proposal lies inside the allowed region. -/
theorem propose_inside {M a b u₁ u₂ u₃ u₄ u₅ : ℝ} (ha : 0 ≤ a) (hb : 0 ≤ b) (hab : a + b < M) (h1 : 0 < u₁ ∧ u₁ < 1)
    (h2 : 0 < u₂ ∧ u₂ < 1) (h3 : 0 ≤ u₃ ∧ u₃ ≤ 1) : ∃ x, propose M a b u₁ u₂ u₃ u₄ u₅ = some x ∧ Inside M a b x := by
  have hM : 0 < M := by linarith
  obtain ⟨l1, l2⟩ := s1_inside hM ha hab h1.1 h1.2
  obtain ⟨_, lo, hi, hr, _, _, _, hg⟩ := s2_inside (u := u₂) hM l1 l2 hb (by linarith)
  refine ⟨⟨uniform (s1Min M a) (s1Max M b) u₁, uniform lo hi u₂, uniform (-1) 1 u₃, uniform 0 (2 * Real.pi) u₄,
    uniform 0 (2 * Real.pi) u₅⟩, by simp only [propose, hr, Option.map_some], l1, l2, hg h2.1 h2.2, ?_⟩
  exact uniform_mem (by norm_num) h3.1 h3.2

/-! ### C89 -/

/-- **C89.**  Every proposal the sampler can make, and so every event, conserves four-momentum and has all products on their mass
shells; the invariant masses of the pairs with the neutrino are the sampled ones. -/
theorem C89_leptons (r : Primary) {a b u₁ u₂ u₃ u₄ u₅ : ℝ} (ha : 0 ≤ a) (hb : 0 ≤ b) (hab : a + b < r.mass)
    (h1 : 0 < u₁ ∧ u₁ < 1) (h2 : 0 < u₂ ∧ u₂ < 1) (h3 : 0 ≤ u₃ ∧ u₃ ≤ 1) :
    ∃ x N A B, propose r.mass a b u₁ u₂ u₃ u₄ u₅ = some x ∧ products r r.mass a b x = some (N, A, B) ∧ Physical r a b N A B ∧
      pairMass r.mass N A = x.s1 ∧ pairMass r.mass N B = x.s2 := by
  obtain ⟨x, hx, hin⟩ := propose_inside (u₄ := u₄) (u₅ := u₅) ha hb hab h1 h2 h3
  obtain ⟨k3, k4, N, _, h4, h5, h6, h7⟩ := products_spec r (by linarith) hb (by linarith) hin
  exact ⟨x, N, _, _, hx, h4, h5, h6, h7⟩

/-- **C91** in part: the differential width reported for the record of an event is the likelihood the sampler used for it. Missing:
the law of the sampled events has this density (see `C91_proposals_fails`). -/
theorem C91_likelihood_partial (O : Object) (r : Primary) (α β : Fin 3) {a b : ℝ} (hb : 0 ≤ b) (hbM : b < r.mass) (hM : 0 < r.mass)
    (hO : O.mass = r.mass) {x : Point} (hx : Inside r.mass a b x) {N A B : Product}
    (h : products r r.mass a b x = some (N, A, B)) : recordWidth O r α β a b N.p A.p B.p = likelihood O r α β a b x := by
  obtain ⟨k3, k4, N', hc, hp, hph, hs1, hs2⟩ := products_spec r hM hb hbM hx
  rw [h] at hp
  simp only [Option.some.injEq, Prod.mk.injEq] at hp
  obtain ⟨rfl, rfl, rfl⟩ := hp
  have hs : ∀ (X : Product) (m : ℝ), X.e ^ 2 - Vec3.dot X.p X.p = m ^ 2 → 0 ≤ X.e → Real.sqrt (m * m + Vec3.dot X.p X.p) = X.e := by
    intro X m h1 h2
    rw [show m * m + Vec3.dot X.p X.p = X.e * X.e by rw [← pow_two, ← h1]; ring, Real.sqrt_mul_self h2]
  have heq : ∀ (X : Product) (m : ℝ), X.e ^ 2 - Vec3.dot X.p X.p = m ^ 2 → 0 ≤ X.e →
      recordS r.mass 0 m N.p X.p = pairMass r.mass N X := by
    intro X m h1 h2
    unfold recordS pairMass P4.dot P4.add P4.ofMass
    simp only
    rw [hs N 0 (by rw [hph.shellN]; ring) hph.posN, hs X m h1 h2, ← pow_two]
  unfold recordWidth likelihood
  rw [hO, hc, Option.bind_some, heq _ _ hph.shellA hph.posA, heq _ _ hph.shellB hph.posB, hs1, hs2]
  rfl

/-- **C89** does not hold for the invisible mode: the three neutrinos carry the momentum of the primary, so their energies add up to
less than its energy. -/
theorem C89_invisible_fails (r : Primary) (h : 0 < r.mass) :
    (threeNeutrinos r).foldr (fun P acc => P.p + acc) 0 = r.p ∧ (threeNeutrinos r).foldr (fun P acc => P.e + acc) 0 < r.e := by
  constructor
  · simp only [threeNeutrinos, List.replicate, List.foldr, P4.ofMass]
    ext <;> simp [Vec3.smul] <;> ring
  · have hn := Vec3.norm_nonneg r.p
    have hv : (P4.ofMass (Vec3.smul (1 / 3) r.p) 0).e = r.p.norm / 3 := by
      show Real.sqrt (0 * 0 + Vec3.dot (Vec3.smul (1 / 3) r.p) (Vec3.smul (1 / 3) r.p)) = _
      rw [dot_smul_smul, ← norm_sq, show (0 : ℝ) * 0 + 1 / 3 * (1 / 3) * (r.p.norm * r.p.norm) = (r.p.norm / 3) * (r.p.norm / 3) by ring,
        Real.sqrt_mul_self (by positivity)]
    simp only [threeNeutrinos, List.replicate, List.foldr, hv]
    have hlt : r.p.norm < r.e := by
      unfold Primary.e Vec3.norm
      exact Real.sqrt_lt_sqrt (Vec3.dot_self_nonneg _) (by nlinarith)
    linarith

/-- A lepton of mass one decaying to an electron pair in flight. -/
example : ∃ r : Primary, (0 : ℝ) ≤ 0.000511 ∧ 0.000511 + 0.000511 < r.mass ∧ r.p ≠ 0 :=
  ⟨⟨Signatures.n4, ⟨0, 0, 5⟩, 1, 1⟩, by norm_num, by norm_num, by
    intro h
    have := congrArg Vec3.z h
    norm_num at this⟩

end ThreeBody
end Siren
