import Verif.Distributions.DirectionModel
import Verif.Math.QuatProps
import Mathlib.MeasureTheory.Integral.IntervalIntegral.IntegrationByParts
import Mathlib.MeasureTheory.Integral.IntervalIntegral.FundThmCalculus
import Mathlib.MeasureTheory.Integral.DominatedConvergence
import Mathlib.Analysis.SpecialFunctions.Integrals.Basic

set_option autoImplicit false

/-!
# C70: sampled directions and their density
-/

namespace Siren.Distributions

open Siren.Util
open scoped Real

/-! ### Specification -/

/-- `e1, e2, a` is a right-handed orthonormal frame. -/
structure Frame (e1 e2 a : Vec3 ℝ) : Prop where
  unit1 : Vec3.dot e1 e1 = 1
  unit2 : Vec3.dot e2 e2 = 1
  unitA : Vec3.dot a a = 1
  orth : Vec3.dot e1 e2 = 0
  orth1 : Vec3.dot e1 a = 0
  orth2 : Vec3.dot e2 a = 0
  right : Vec3.cross e1 e2 = a

/-- The unit vector with polar angle whose cosine and sine are `c` and `s`, and azimuth `phi`, in the frame `e1, e2, a`. -/
noncomputable def polar (e1 e2 a : Vec3 ℝ) (c s phi : ℝ) : Vec3 ℝ :=
  Vec3.smul (s * Real.cos phi) e1 + Vec3.smul (s * Real.sin phi) e2 + Vec3.smul c a

/-- Integral of `F` over the unit sphere, in spherical coordinates of the frame `e1, e2, a`. -/
noncomputable def sphereIntegral (e1 e2 a : Vec3 ℝ) (F : Vec3 ℝ → ℝ) : ℝ :=
  ∫ theta in (0 : ℝ)..π, (∫ phi in (0 : ℝ)..2 * π, F (polar e1 e2 a (Real.cos theta) (Real.sin theta) phi)) * Real.sin theta

/-- A continuous function of the components of a vector. -/
def ContinuousVec (f : Vec3 ℝ → ℝ) : Prop := Continuous fun p : ℝ × ℝ × ℝ => f ⟨p.1, p.2.1, p.2.2⟩

/-! ### Lemmas -/

theorem polar_unit {e1 e2 a : Vec3 ℝ} (h : Frame e1 e2 a) (c s phi : ℝ) (hcs : c ^ 2 + s ^ 2 = 1) :
    Vec3.dot (polar e1 e2 a c s phi) (polar e1 e2 a c s phi) = 1 := by
  have e : Vec3.dot (polar e1 e2 a c s phi) (polar e1 e2 a c s phi) =
      (s * Real.cos phi) ^ 2 * Vec3.dot e1 e1 + (s * Real.sin phi) ^ 2 * Vec3.dot e2 e2 + c ^ 2 * Vec3.dot a a +
        2 * (s * Real.cos phi) * (s * Real.sin phi) * Vec3.dot e1 e2 + 2 * (s * Real.cos phi) * c * Vec3.dot e1 a +
        2 * (s * Real.sin phi) * c * Vec3.dot e2 a := by
    simp only [polar, Vec3.dot, Vec3.add_x, Vec3.add_y, Vec3.add_z, Vec3.smul_x, Vec3.smul_y, Vec3.smul_z]; ring
  rw [e, h.unit1, h.unit2, h.unitA, h.orth, h.orth1, h.orth2]
  nlinarith [Real.sin_sq_add_cos_sq phi]

theorem polar_axis {e1 e2 a : Vec3 ℝ} (h : Frame e1 e2 a) (c s phi : ℝ) : Vec3.dot a (polar e1 e2 a c s phi) = c := by
  have e : Vec3.dot a (polar e1 e2 a c s phi) =
      (s * Real.cos phi) * Vec3.dot e1 a + (s * Real.sin phi) * Vec3.dot e2 a + c * Vec3.dot a a := by
    simp only [polar, Vec3.dot, Vec3.add_x, Vec3.add_y, Vec3.add_z, Vec3.smul_x, Vec3.smul_y, Vec3.smul_z]; ring
  rw [e, h.unitA, h.orth1, h.orth2]; ring

theorem normalize_of_unit {v : Vec3 ℝ} (h : Vec3.dot v v = 1) : Vec3.normalize v = v := by
  simp [Vec3.normalize, Vec3.norm, h]

theorem quatZXZr_unit (phi theta : ℝ) : (quatZXZr phi theta 0).IsUnit := by
  have h1 := Real.sin_sq_add_cos_sq (phi * (1 / 2))
  have h2 := Real.sin_sq_add_cos_sq (theta * (1 / 2))
  simp only [Quat.IsUnit, Quat.normSq, quatZXZr, zero_mul, sub_zero, add_zero]
  linear_combination (Real.sin (theta * (1 / 2)) ^ 2 + Real.cos (theta * (1 / 2)) ^ 2) * h1 + h2

/-- The direction in the frame of the cone. -/
theorem quatZXZr_z (phi theta : ℝ) : (quatZXZr phi theta 0).rotate ⟨0, 0, 1⟩ false =
    ⟨Real.sin theta * Real.sin phi, -(Real.sin theta * Real.cos phi), Real.cos theta⟩ := by
  have h1 := Real.sin_sq_add_cos_sq (phi * (1 / 2))
  have h2 := Real.sin_sq_add_cos_sq (theta * (1 / 2))
  have sp : Real.sin phi = 2 * Real.sin (phi * (1 / 2)) * Real.cos (phi * (1 / 2)) := by rw [← Real.sin_two_mul]; congr 1; ring
  have cp : Real.cos phi = 2 * Real.cos (phi * (1 / 2)) ^ 2 - 1 := by rw [← Real.cos_two_mul]; congr 1; ring
  have st : Real.sin theta = 2 * Real.sin (theta * (1 / 2)) * Real.cos (theta * (1 / 2)) := by rw [← Real.sin_two_mul]; congr 1; ring
  have ct : Real.cos theta = 2 * Real.cos (theta * (1 / 2)) ^ 2 - 1 := by rw [← Real.cos_two_mul]; congr 1; ring
  rw [Quat.rotate_unit (quatZXZr_unit phi theta), sp, cp, st, ct]
  simp only [Bool.false_eq_true, if_false, Quat.sandwich, quatZXZr, zero_mul, sub_zero, add_zero]
  generalize Real.sin (phi * (1 / 2)) = a at *
  generalize Real.cos (phi * (1 / 2)) = b at *
  generalize Real.sin (theta * (1 / 2)) = s at *
  generalize Real.cos (theta * (1 / 2)) = c at *
  ext <;> simp only
  · ring
  · linear_combination (2 * s * c) * h1
  · linear_combination (c ^ 2 - s ^ 2) * h1 - h2

theorem rotate_frame {q : Quat} (hq : q.IsUnit) :
    Frame (q.rotate ⟨0, -1, 0⟩ false) (q.rotate ⟨1, 0, 0⟩ false) (q.rotate ⟨0, 0, 1⟩ false) := by
  have r := Quat.C43_is_rotation hq false
  refine ⟨?_, ?_, ?_, ?_, ?_, ?_, ?_⟩
  all_goals first
    | (refine (r.dot _ _).trans ?_; simp [Vec3.dot])
    | (refine (r.cross _ _).trans ?_; simp [Vec3.cross])

theorem rotate_polar {q : Quat} (hq : q.IsUnit) (phi theta : ℝ) :
    q.rotate ((quatZXZr phi theta 0).rotate ⟨0, 0, 1⟩ false) false =
      polar (q.rotate ⟨0, -1, 0⟩ false) (q.rotate ⟨1, 0, 0⟩ false) (q.rotate ⟨0, 0, 1⟩ false)
        (Real.cos theta) (Real.sin theta) phi := by
  rw [quatZXZr_z]
  simp only [Quat.rotate_unit hq, Bool.false_eq_true, if_false]
  ext <;> simp only [polar, Quat.sandwich, Vec3.add_x, Vec3.add_y, Vec3.add_z, Vec3.smul_x, Vec3.smul_y, Vec3.smul_z] <;> ring

/-- The rotation the constructor builds for an axis of length one that is not straight down takes the z axis to the axis of the cone. -/
theorem cone_rotation (d : SphVec) (alpha : ℝ) (hd : Vec3.dot d.cart d.cart = 1) (hz : d.cart ≠ ⟨0, 0, -1⟩) :
    (Cone.new d alpha).dir = d.cart ∧
      ∃ q : Quat, q.IsUnit ∧ (Cone.new d alpha).rotation = some q ∧ q.rotate ⟨0, 0, 1⟩ false = d.cart := by
  have hn : Vec3.norm d.cart = 1 := by simp [Vec3.norm, hd]
  have hnorm : d.normalize = { d with
    cart := d.cart
    radius := 1 } := by
    simp [SphVec.normalize, hn, normalize_of_unit hd]
  refine ⟨by simp [Cone.new, hnorm], ?_⟩
  have h1 : ∀ v, d.normalize ≠ SphVec.new v := by
    intro v h
    have := congrArg SphVec.radius h
    simp [hnorm, SphVec.new] at this
  simp only [Cone.new, h1, if_false]
  obtain ⟨⟨x, y, z⟩, r, az, ze⟩ := d
  simp only [Vec3.dot] at hd
  have hz' : 1 + z ≠ 0 := by
    intro h
    have hz1 : z = -1 := by linarith
    subst hz1
    have hx : x = 0 := by nlinarith [mul_self_nonneg x, mul_self_nonneg y]
    have hy : y = 0 := by nlinarith [mul_self_nonneg x, mul_self_nonneg y]
    exact hz (by simp [hx, hy])
  have hsq : ∀ q : Quat, q = ⟨0 * z - 1 * y, 1 * x - 0 * z, 0 * y - 0 * x, 1 + z⟩ → q.normSq = 2 * (1 + z) := by
    rintro q rfl
    simp only [Quat.normSq]
    linear_combination hd
  simp only [Vec3.cross]
  generalize hq : (⟨0 * z - 1 * y, 1 * x - 0 * z, 0 * y - 0 * x, 1 + z⟩ : Quat) = q
  have hN := hsq q hq.symm
  have hne : q.normSq ≠ 0 := by rw [hN]; exact mul_ne_zero two_ne_zero hz'
  rw [normalizeQuat, if_neg hne]
  refine ⟨_, Quat.normalize_unit q hne, rfl, ?_⟩
  rw [Quat.rotate_unit (Quat.normalize_unit q hne)]
  simp only [Bool.false_eq_true, if_false]
  have hs : Quat.sandwich q ⟨0, 0, 1⟩ = Vec3.smul q.normSq ⟨x, y, z⟩ := by
    rw [hN, ← hq]
    ext <;> simp only [Quat.sandwich, Vec3.smul]
    · ring
    · ring
    · linear_combination (-1) * hd
  unfold Quat.normalize
  split
  · rename_i h
    rw [hs, h]; ext <;> simp [Vec3.smul]
  · rw [Quat.sandwich_scale, hs]
    have : (1 / Real.sqrt q.normSq) ^ 2 = 1 / q.normSq := by rw [div_pow, one_pow, Real.sq_sqrt q.normSq_nonneg]
    rw [this]
    ext <;> simp only [Vec3.smul] <;> field_simp

theorem uniform_le {a b : ℝ} (h : a ≤ b) (g : ℝ) : uniform a b g = (b - a) * g + a := by
  rw [uniform_eq, max_eq_right h, min_eq_left h]

theorem polar_continuous {f : Vec3 ℝ → ℝ} (hf : ContinuousVec f) (e1 e2 a : Vec3 ℝ) :
    Continuous fun p : ℝ × ℝ × ℝ => f (polar e1 e2 a p.1 p.2.1 p.2.2) := by
  have : Continuous fun p : ℝ × ℝ × ℝ => ((polar e1 e2 a p.1 p.2.1 p.2.2).x, (polar e1 e2 a p.1 p.2.1 p.2.2).y, (polar e1 e2 a p.1 p.2.1 p.2.2).z) := by
    simp only [polar, Vec3.add_x, Vec3.add_y, Vec3.add_z, Vec3.smul_x, Vec3.smul_y, Vec3.smul_z]
    fun_prop
  exact hf.comp this

/-- Uniform cosine and uniform azimuth are uniform in solid angle. -/
theorem cap_integral {f : Vec3 ℝ → ℝ} (hf : ContinuousVec f) (e1 e2 a : Vec3 ℝ) (alpha : ℝ) (h0 : 0 < alpha) (h1 : alpha ≤ π) :
    (∫ theta in (0 : ℝ)..alpha, (∫ phi in (0 : ℝ)..2 * π, f (polar e1 e2 a (Real.cos theta) (Real.sin theta) phi)) * Real.sin theta) =
      (2 * π * (1 - Real.cos alpha)) * ∫ g1 in (0 : ℝ)..1, ∫ g2 in (0 : ℝ)..1,
        f (polar e1 e2 a ((1 - Real.cos alpha) * g1 + Real.cos alpha)
          (Real.sqrt (1 - ((1 - Real.cos alpha) * g1 + Real.cos alpha) ^ 2)) (2 * π * g2)) := by
  have hcont := polar_continuous hf e1 e2 a
  set G : ℝ → ℝ := fun u => ∫ phi in (0 : ℝ)..2 * π, f (polar e1 e2 a u (Real.sqrt (1 - u ^ 2)) phi) with hG
  have hGc : Continuous G := by
    apply intervalIntegral.continuous_parametric_intervalIntegral_of_continuous'
    exact hcont.comp (by fun_prop : Continuous fun p : ℝ × ℝ => (p.1, Real.sqrt (1 - p.1 ^ 2), p.2))
  have hinner : ∀ u : ℝ, (∫ g2 in (0 : ℝ)..1, f (polar e1 e2 a u (Real.sqrt (1 - u ^ 2)) (2 * π * g2))) = (2 * π)⁻¹ * G u := by
    intro u
    have := intervalIntegral.integral_comp_mul_left (a := 0) (b := 1)
      (fun phi => f (polar e1 e2 a u (Real.sqrt (1 - u ^ 2)) phi)) (c := 2 * π) (by positivity)
    simpa [hG, smul_eq_mul] using this
  have hcos : Real.cos alpha < 1 := by
    have := Real.cos_lt_cos_of_nonneg_of_le_pi le_rfl h1 h0
    simpa using this
  have hlen : 1 - Real.cos alpha ≠ 0 := by linarith
  have hR : (∫ g1 in (0 : ℝ)..1, ∫ g2 in (0 : ℝ)..1, f (polar e1 e2 a ((1 - Real.cos alpha) * g1 + Real.cos alpha)
          (Real.sqrt (1 - ((1 - Real.cos alpha) * g1 + Real.cos alpha) ^ 2)) (2 * π * g2))) =
      (2 * π)⁻¹ * ((1 - Real.cos alpha)⁻¹ * ∫ u in Real.cos alpha..1, G u) := by
    simp only [hinner]
    rw [intervalIntegral.integral_const_mul]
    congr 1
    have := intervalIntegral.integral_comp_mul_add (a := 0) (b := 1) G (c := 1 - Real.cos alpha) hlen (Real.cos alpha)
    simpa [smul_eq_mul] using this
  have hL : (∫ theta in (0 : ℝ)..alpha, (∫ phi in (0 : ℝ)..2 * π, f (polar e1 e2 a (Real.cos theta) (Real.sin theta) phi)) * Real.sin theta) =
      ∫ u in Real.cos alpha..1, G u := by
    have hsub := intervalIntegral.integral_comp_mul_deriv (a := 0) (b := alpha) (f := Real.cos) (f' := fun t => -Real.sin t) (g := G)
      (fun x _ => Real.hasDerivAt_cos x) (by fun_prop) hGc
    rw [Real.cos_zero] at hsub
    rw [intervalIntegral.integral_symm 1 (Real.cos alpha), ← hsub, ← intervalIntegral.integral_neg]
    apply intervalIntegral.integral_congr
    intro t ht
    rw [Set.uIcc_of_le h0.le] at ht
    have hs : Real.sqrt (1 - Real.cos t ^ 2) = Real.sin t := by
      rw [← Real.sin_sq, Real.sqrt_sq (Real.sin_nonneg_of_nonneg_of_le_pi ht.1 (ht.2.trans h1))]
    simp only [hG, Function.comp, hs]
    ring
  rw [hL, hR]
  field_simp

/-! ### Cone -/

/-- C70: the density of a cone is one over its solid angle for momenta whose angle to the axis is less than the opening angle, and zero for
all others. -/
theorem C70_cone_density (d : SphVec) (alpha : ℝ) (h0 : 0 < alpha) (h1 : alpha ≤ π) (hd : Vec3.dot d.cart d.cart = 1)
    (p : Vec3 ℝ) (hp : p ≠ 0) :
    (Vec3.norm p * Real.cos alpha < Vec3.dot d.cart p → (Cone.new d alpha).generationProbability p = 1 / (2 * π * (1 - Real.cos alpha))) ∧
      (Vec3.dot d.cart p ≤ Vec3.norm p * Real.cos alpha → (Cone.new d alpha).generationProbability p = 0) := by
  have hn : Vec3.norm d.cart = 1 := by simp [Vec3.norm, hd]
  have hdir : (Cone.new d alpha).dir = d.cart := by simp [Cone.new, SphVec.normalize, hn, normalize_of_unit hd]
  have hangle : (Cone.new d alpha).openingAngle = alpha := rfl
  have hu := Quat.normalize_dot p hp
  have hpn : 0 < Vec3.norm p := by
    rcases (Vec3.norm_nonneg p).lt_or_eq with h | h
    · exact h
    · exfalso; simp [Vec3.normalize, ← h, Vec3.dot] at hu
  have hx : Vec3.dot d.cart (Vec3.normalize p) = Vec3.dot d.cart p / Vec3.norm p := by
    simp only [Vec3.dot, Vec3.normalize]; ring
  have hle : Vec3.dot d.cart (Vec3.normalize p) ≤ 1 := by
    simp only [Vec3.dot] at hd hu ⊢
    nlinarith [sq_nonneg (d.cart.x - p.normalize.x), sq_nonneg (d.cart.y - p.normalize.y), sq_nonneg (d.cart.z - p.normalize.z)]
  have hge : -1 ≤ Vec3.dot d.cart (Vec3.normalize p) := by
    simp only [Vec3.dot] at hd hu ⊢
    nlinarith [sq_nonneg (d.cart.x + p.normalize.x), sq_nonneg (d.cart.y + p.normalize.y), sq_nonneg (d.cart.z + p.normalize.z)]
  have key : Real.arccos (Vec3.dot d.cart (Vec3.normalize p)) < alpha ↔ Vec3.norm p * Real.cos alpha < Vec3.dot d.cart p := by
    rw [show Vec3.norm p * Real.cos alpha < Vec3.dot d.cart p ↔ Real.cos alpha < Vec3.dot d.cart (Vec3.normalize p) by
      rw [hx, lt_div_iff₀ hpn, mul_comm]]
    constructor
    · intro h
      have := Real.cos_lt_cos_of_nonneg_of_le_pi (Real.arccos_nonneg _) h1 h
      rwa [Real.cos_arccos hge hle] at this
    · intro h
      have := Real.arccos_lt_arccos (Real.neg_one_le_cos _) h hle
      rwa [Real.arccos_cos h0.le h1] at this
  simp only [Cone.generationProbability, hdir, hangle, if_neg (not_lt.mpr hle)]
  exact ⟨fun h => if_pos (key.mpr h), fun h => if_neg (fun hc => absurd (key.mp hc) (not_lt.mpr h))⟩

/-- C70: for an axis of length one that is not straight down, the sampled direction is the unit vector whose polar angle about the axis has the
cosine `cos alpha + (1 - cos alpha) g1` and whose azimuth is `2 pi g2`, in one frame for all generator outputs; and averages of any continuous
function over the generator outputs are its integrals over the sphere with the reported density. -/
theorem C70_cone_law (d : SphVec) (alpha : ℝ) (h0 : 0 < alpha) (h1 : alpha ≤ π) (hd : Vec3.dot d.cart d.cart = 1) (hz : d.cart ≠ ⟨0, 0, -1⟩) :
    ∃ e1 e2, Frame e1 e2 d.cart ∧
      ∃ dir : ℝ → ℝ → Vec3 ℝ, (∀ g1 g2, (Cone.new d alpha).sample g1 g2 = some (dir g1 g2)) ∧
        (∀ g1 g2, 0 ≤ g1 → g1 < 1 → dir g1 g2 = polar e1 e2 d.cart (Real.cos alpha + (1 - Real.cos alpha) * g1)
          (Real.sqrt (1 - (Real.cos alpha + (1 - Real.cos alpha) * g1) ^ 2)) (2 * π * g2)) ∧
        ∀ f, ContinuousVec f → (∫ g1 in (0 : ℝ)..1, ∫ g2 in (0 : ℝ)..1, f (dir g1 g2)) =
          sphereIntegral e1 e2 d.cart fun v => f v * (Cone.new d alpha).generationProbability v := by
  obtain ⟨hdir, q, hq, hrot, hax⟩ := cone_rotation d alpha hd hz
  have hfr := rotate_frame hq
  rw [hax] at hfr
  have hc1 := Real.cos_le_one alpha
  have hsol : 0 < 1 - Real.cos alpha := by
    have := Real.cos_lt_cos_of_nonneg_of_le_pi le_rfl h1 h0
    rw [Real.cos_zero] at this; linarith
  set e1 := q.rotate ⟨0, -1, 0⟩ false
  set e2 := q.rotate ⟨1, 0, 0⟩ false
  set D : ℝ → ℝ → Vec3 ℝ := fun g1 g2 => polar e1 e2 d.cart (Real.cos (Real.arccos ((1 - Real.cos alpha) * g1 + Real.cos alpha)))
    (Real.sin (Real.arccos ((1 - Real.cos alpha) * g1 + Real.cos alpha))) (2 * π * g2) with hD
  have hDeq : ∀ g1 g2, 0 ≤ g1 → g1 ≤ 1 → D g1 g2 = polar e1 e2 d.cart ((1 - Real.cos alpha) * g1 + Real.cos alpha)
      (Real.sqrt (1 - ((1 - Real.cos alpha) * g1 + Real.cos alpha) ^ 2)) (2 * π * g2) := by
    intro g1 g2 hg0 hg1
    simp only [hD]
    rw [Real.sin_arccos, Real.cos_arccos (by nlinarith [Real.neg_one_le_cos alpha]) (by nlinarith)]
  refine ⟨e1, e2, hfr, D, ?_, ?_, ?_⟩
  · intro g1 g2
    have hangle : (Cone.new d alpha).openingAngle = alpha := rfl
    simp only [Cone.sample, hrot, Option.map_some, hangle]
    rw [rotate_polar hq, hax, uniform_le hc1, uniform_le (by positivity : (0 : ℝ) ≤ 2 * π), sub_zero, add_zero]
  · intro g1 g2 hg0 hg1
    rw [hDeq g1 g2 hg0 hg1.le, add_comm (Real.cos alpha)]
  · intro f hf
    have hL : (∫ g1 in (0 : ℝ)..1, ∫ g2 in (0 : ℝ)..1, f (D g1 g2)) = ∫ g1 in (0 : ℝ)..1, ∫ g2 in (0 : ℝ)..1,
        f (polar e1 e2 d.cart ((1 - Real.cos alpha) * g1 + Real.cos alpha)
          (Real.sqrt (1 - ((1 - Real.cos alpha) * g1 + Real.cos alpha) ^ 2)) (2 * π * g2)) := by
      apply intervalIntegral.integral_congr
      intro g1 hg1
      rw [Set.uIcc_of_le zero_le_one] at hg1
      simp only [hDeq g1 _ hg1.1 hg1.2]
    have hcap := cap_integral hf e1 e2 d.cart alpha h0 h1
    have hprob : ∀ theta phi, (Cone.new d alpha).generationProbability (polar e1 e2 d.cart (Real.cos theta) (Real.sin theta) phi) =
        if Real.cos alpha < Real.cos theta then 1 / (2 * π * (1 - Real.cos alpha)) else 0 := by
      intro theta phi
      have hu := polar_unit hfr (Real.cos theta) (Real.sin theta) phi (by rw [add_comm]; exact Real.sin_sq_add_cos_sq theta)
      have hne : polar e1 e2 d.cart (Real.cos theta) (Real.sin theta) phi ≠ 0 := by
        intro h; rw [h] at hu; simp [Vec3.dot] at hu
      have hdens := C70_cone_density d alpha h0 h1 hd _ hne
      rw [polar_axis hfr, Vec3.norm, hu, Real.sqrt_one, one_mul] at hdens
      split
      · exact hdens.1 ‹_›
      · exact hdens.2 (not_lt.mp ‹_›)
    simp only [sphereIntegral, hprob]
    have hin : ∀ theta ∈ Set.Ioo (0 : ℝ) alpha, Real.cos alpha < Real.cos theta := fun theta ht =>
      Real.cos_lt_cos_of_nonneg_of_le_pi ht.1.le h1 ht.2
    have hout : ∀ theta ∈ Set.Ioo alpha π, ¬ Real.cos alpha < Real.cos theta := fun theta ht =>
      not_lt.mpr (Real.cos_le_cos_of_nonneg_of_le_pi h0.le ht.2.le ht.1.le)
    set k := 1 / (2 * π * (1 - Real.cos alpha)) with hk
    set F : ℝ → ℝ := fun theta => (∫ phi in (0 : ℝ)..2 * π, f (polar e1 e2 d.cart (Real.cos theta) (Real.sin theta) phi) *
      if Real.cos alpha < Real.cos theta then k else 0) * Real.sin theta with hF
    set F' : ℝ → ℝ := fun theta => k * ((∫ phi in (0 : ℝ)..2 * π, f (polar e1 e2 d.cart (Real.cos theta) (Real.sin theta) phi)) *
      Real.sin theta) with hF'
    have hF'c : Continuous F' := by
      have : Continuous fun theta => ∫ phi in (0 : ℝ)..2 * π, f (polar e1 e2 d.cart (Real.cos theta) (Real.sin theta) phi) := by
        apply intervalIntegral.continuous_parametric_intervalIntegral_of_continuous'
        exact (polar_continuous hf e1 e2 d.cart).comp (by fun_prop : Continuous fun p : ℝ × ℝ => (Real.cos p.1, Real.sin p.1, p.2))
      exact continuous_const.mul (this.mul Real.continuous_sin)
    have e1' : Set.EqOn F F' (Set.Ioo 0 alpha) := by
      intro t ht
      simp only [hF, hF', if_pos (hin t ht)]
      rw [intervalIntegral.integral_mul_const]; ring
    have e2' : Set.EqOn F (fun _ => 0) (Set.Ioo alpha π) := by
      intro t ht
      simp only [hF, if_neg (hout t ht)]
      simp
    have i1 : IntervalIntegrable F MeasureTheory.volume 0 alpha :=
      (hF'c.intervalIntegrable 0 alpha).congr_uIoo (by rw [Set.uIoo_of_le h0.le]; exact e1'.symm)
    have i2 : IntervalIntegrable F MeasureTheory.volume alpha π :=
      ((continuous_const (y := (0 : ℝ))).intervalIntegrable alpha π).congr_uIoo (by rw [Set.uIoo_of_le h1]; exact e2'.symm)
    rw [← intervalIntegral.integral_add_adjacent_intervals i1 i2, intervalIntegral.integral_congr_Ioo_of_le h0.le e1',
      intervalIntegral.integral_congr_Ioo_of_le h1 e2', intervalIntegral.integral_zero, add_zero]
    simp only [hF']
    rw [intervalIntegral.integral_const_mul, hcap, ← mul_assoc, hL, hk, one_div_mul_cancel (by positivity), one_mul]

/-- C70: hence every sampled direction has length one and lies in the cone; it has a positive density unless it lies on the boundary of the
cone, which needs a generator output of zero. -/
theorem C70_cone_inside (d : SphVec) (alpha : ℝ) (h0 : 0 < alpha) (h1 : alpha ≤ π) (hd : Vec3.dot d.cart d.cart = 1) (hz : d.cart ≠ ⟨0, 0, -1⟩)
    (g1 g2 : ℝ) (hg0 : 0 ≤ g1) (hg1 : g1 < 1) :
    ∃ v, (Cone.new d alpha).sample g1 g2 = some v ∧ Vec3.dot v v = 1 ∧ Real.cos alpha ≤ Vec3.dot d.cart v ∧
      (0 < g1 → ∀ k : ℝ, 0 < k → (Cone.new d alpha).generationProbability (Vec3.smul k v) = 1 / (2 * π * (1 - Real.cos alpha))) := by
  obtain ⟨e1, e2, hfr, D, hs, hD, -⟩ := C70_cone_law d alpha h0 h1 hd hz
  have hsol : 0 < 1 - Real.cos alpha := by
    have := Real.cos_lt_cos_of_nonneg_of_le_pi le_rfl h1 h0
    rw [Real.cos_zero] at this; linarith
  have hlo := Real.neg_one_le_cos alpha
  have hsq : (Real.cos alpha + (1 - Real.cos alpha) * g1) ^ 2 ≤ 1 := by
    rw [sq_le_one_iff_abs_le_one, abs_le]; constructor <;> nlinarith
  have hu : Vec3.dot (D g1 g2) (D g1 g2) = 1 := by
    rw [hD g1 g2 hg0 hg1]
    apply polar_unit hfr
    rw [Real.sq_sqrt (by linarith)]; ring
  have hax : Vec3.dot d.cart (D g1 g2) = Real.cos alpha + (1 - Real.cos alpha) * g1 := by
    rw [hD g1 g2 hg0 hg1]; exact polar_axis hfr _ _ _
  refine ⟨_, hs g1 g2, hu, by rw [hax]; nlinarith, fun hpos k hk => ?_⟩
  refine (C70_cone_density d alpha h0 h1 hd _ ?_).1 ?_
  · intro h
    have : Vec3.norm (Vec3.smul k (D g1 g2)) = 0 := by rw [h]; simp [Vec3.norm, Vec3.dot]
    rw [Vec3.norm_smul_unit k _ hu, abs_eq_zero] at this
    exact hk.ne' this
  · rw [Vec3.norm_smul_unit k _ hu, abs_of_pos hk]
    have : Vec3.dot d.cart (Vec3.smul k (D g1 g2)) = k * Vec3.dot d.cart (D g1 g2) := by simp [Vec3.dot]; ring
    rw [this, hax]
    have : 0 < (1 - Real.cos alpha) * g1 := mul_pos hsol hpos
    nlinarith

/-- C70: the density of a cone integrates to one over the sphere. -/
theorem C70_cone_normalized (d : SphVec) (alpha : ℝ) (h0 : 0 < alpha) (h1 : alpha ≤ π) (hd : Vec3.dot d.cart d.cart = 1) (hz : d.cart ≠ ⟨0, 0, -1⟩) :
    ∃ e1 e2, Frame e1 e2 d.cart ∧ sphereIntegral e1 e2 d.cart (Cone.new d alpha).generationProbability = 1 := by
  obtain ⟨e1, e2, hfr, D, -, -, hlaw⟩ := C70_cone_law d alpha h0 h1 hd hz
  refine ⟨e1, e2, hfr, ?_⟩
  have := hlaw (fun _ => 1) continuous_const
  simpa using this.symm

/-- A slanted axis meets the hypotheses. -/
example : ∃ d : SphVec, Vec3.dot d.cart d.cart = 1 ∧ d.cart ≠ ⟨0, 0, -1⟩ ∧ (0 : ℝ) < π / 6 ∧ π / 6 ≤ π :=
  ⟨SphVec.new ⟨3 / 5, 0, -4 / 5⟩, by norm_num [SphVec.new, Vec3.dot], by simp [SphVec.new], by positivity, by linarith [Real.pi_pos]⟩

/-- C70 fails for a cone that points straight down: its rotation consists of NaNs, and so does every sampled direction. -/
theorem C70_cone_down_fails (alpha g1 g2 : ℝ) : (Cone.new (SphVec.new ⟨0, 0, -1⟩) alpha).sample g1 g2 = none := by
  have hn : Vec3.norm (⟨0, 0, -1⟩ : Vec3 ℝ) = 1 := by simp [Vec3.norm, Vec3.dot]
  have h1 : ∀ v, (SphVec.new ⟨0, 0, -1⟩).normalize ≠ SphVec.new v := by
    intro v h
    have := congrArg SphVec.radius h
    simp [SphVec.normalize, SphVec.new, hn] at this
  have : (Cone.new (SphVec.new ⟨0, 0, -1⟩) alpha).rotation = none := by
    simp only [Cone.new, h1, if_false]
    rw [normalizeQuat, if_pos (by simp [SphVec.new, Vec3.cross, Quat.normSq])]
  simp [Cone.sample, this]

/-- C70 fails for an axis of another length: around `(2, 0, 0)`, 60 degrees, the sampler returns directions outside the cone, to which the
distribution itself gives density zero. -/
theorem C70_cone_length_fails :
    ∃ v, (Cone.new (SphVec.new ⟨2, 0, 0⟩) (π / 3)).sample (1 / 8) 0 = some v ∧
      (Cone.new (SphVec.new ⟨2, 0, 0⟩) (π / 3)).generationProbability v = 0 := by
  have hn : Vec3.norm (⟨2, 0, 0⟩ : Vec3 ℝ) = 2 := by
    rw [Vec3.norm, show Vec3.dot (⟨2, 0, 0⟩ : Vec3 ℝ) ⟨2, 0, 0⟩ = 2 ^ 2 by norm_num [Vec3.dot], Real.sqrt_sq (by norm_num)]
  have hnorm : (SphVec.new ⟨2, 0, 0⟩).normalize = ⟨⟨1, 0, 0⟩, 1, 0, 0⟩ := by
    simp [SphVec.normalize, SphVec.new, hn, Vec3.normalize]
  have h1 : ∀ v, (SphVec.new ⟨2, 0, 0⟩).normalize ≠ SphVec.new v := by
    intro v h
    have := congrArg SphVec.radius h
    rw [hnorm] at this
    simp [SphVec.new] at this
  set q : Quat := ⟨0, 2, 0, 1⟩ with hq
  have hN : q.normSq = 5 := by norm_num [hq, Quat.normSq]
  have hrot : (Cone.new (SphVec.new ⟨2, 0, 0⟩) (π / 3)).rotation = some q.normalize := by
    simp only [Cone.new, h1, if_false]
    have : (⟨(Vec3.cross ⟨0, 0, 1⟩ (SphVec.new ⟨2, 0, 0⟩).cart).x, (Vec3.cross ⟨0, 0, 1⟩ (SphVec.new ⟨2, 0, 0⟩).cart).y,
        (Vec3.cross ⟨0, 0, 1⟩ (SphVec.new ⟨2, 0, 0⟩).cart).z, 1 + (SphVec.new ⟨2, 0, 0⟩).cart.z⟩ : Quat) = q := by
      ext <;> simp [SphVec.new, Vec3.cross, hq]
    rw [this, normalizeQuat, if_neg (by rw [hN]; norm_num)]
  have hunit := Quat.normalize_unit q (by rw [hN]; norm_num)
  have hx : ∀ p, q.normalize.rotate p false = Vec3.smul (1 / 5) (Quat.sandwich q p) := by
    intro p
    rw [Quat.rotate_unit hunit]
    simp only [Bool.false_eq_true, if_false]
    rw [Quat.normalize, if_neg (by rw [hN]; norm_num), Quat.sandwich_scale, hN, div_pow, one_pow, Real.sq_sqrt (by norm_num)]
  have hangle : (Cone.new (SphVec.new ⟨2, 0, 0⟩) (π / 3)).openingAngle = π / 3 := rfl
  refine ⟨_, by simp only [Cone.sample, hrot, Option.map_some, hangle]; rfl, ?_⟩
  rw [rotate_polar hunit]
  have hfr := rotate_frame hunit
  have hu : Real.cos (Real.arccos (uniform (Real.cos (π / 3)) 1 (1 / 8))) = 9 / 16 := by
    rw [Real.cos_pi_div_three, uniform_le (by norm_num), Real.cos_arccos] <;> norm_num
  have hphi : uniform 0 (2 * π) 0 = 0 := by rw [uniform_le (by positivity)]; ring
  rw [hu, hphi]
  set s := Real.sin (Real.arccos (uniform (Real.cos (π / 3)) 1 (1 / 8))) with hs
  have hcs : (9 / 16 : ℝ) ^ 2 + s ^ 2 = 1 := by
    rw [← hu, add_comm]; exact Real.sin_sq_add_cos_sq _
  have hpu := polar_unit hfr (9 / 16) s 0 hcs
  have hdir : (Cone.new (SphVec.new ⟨2, 0, 0⟩) (π / 3)).dir = ⟨1, 0, 0⟩ := by simp [Cone.new, hnorm]
  simp only [Cone.generationProbability, hdir, hangle, normalize_of_unit hpu]
  have hval : Vec3.dot ⟨1, 0, 0⟩ (polar (q.normalize.rotate ⟨0, -1, 0⟩ false) (q.normalize.rotate ⟨1, 0, 0⟩ false)
      (q.normalize.rotate ⟨0, 0, 1⟩ false) (9 / 16) s 0) = 9 / 20 := by
    rw [hx, hx, hx]
    simp only [polar, Vec3.dot, Quat.sandwich, hq, Vec3.add_x, Vec3.add_y, Vec3.add_z, Vec3.smul_x, Vec3.smul_y, Vec3.smul_z, Real.cos_zero,
      Real.sin_zero]
    norm_num
  rw [hval, if_neg (by norm_num : ¬ (1 : ℝ) < 9 / 20)]
  apply if_neg
  rw [not_lt]
  have h3 : Real.arccos (1 / 2) = π / 3 := by
    rw [← Real.cos_pi_div_three, Real.arccos_cos (by positivity) (by linarith [Real.pi_pos])]
  rw [← h3]
  exact Real.arccos_le_arccos (by norm_num)

/-! ### All directions -/

/-- C70: isotropic directions have length one, the cosine of their angle to the z axis is `2 g1 - 1`, their azimuth `2 pi g2 - pi`, and averages
over the generator outputs are integrals over the sphere with the reported density. -/
theorem C70_isotropic_law :
    ∃ e1 e2, Frame e1 e2 ⟨0, 0, 1⟩ ∧
      (∀ g1 g2, 0 ≤ g1 → g1 < 1 → Vec3.dot (isotropicSample g1 g2) (isotropicSample g1 g2) = 1 ∧
        isotropicSample g1 g2 = polar ⟨1, 0, 0⟩ ⟨0, 1, 0⟩ ⟨0, 0, 1⟩ (2 * g1 - 1) (Real.sqrt (1 - (2 * g1 - 1) ^ 2)) (2 * π * g2 - π)) ∧
      ∀ f, ContinuousVec f → (∫ g1 in (0 : ℝ)..1, ∫ g2 in (0 : ℝ)..1, f (isotropicSample g1 g2)) =
        sphereIntegral e1 e2 ⟨0, 0, 1⟩ fun v => f v * isotropicProbability v := by
  have hfr : Frame ⟨-1, 0, 0⟩ ⟨0, -1, 0⟩ ⟨0, 0, 1⟩ := by constructor <;> simp [Vec3.dot, Vec3.cross]
  have hfr' : Frame ⟨1, 0, 0⟩ ⟨0, 1, 0⟩ ⟨0, 0, 1⟩ := by constructor <;> simp [Vec3.dot, Vec3.cross]
  have hval : ∀ g1 g2, 0 ≤ g1 → g1 ≤ 1 → Vec3.dot (isotropicSample g1 g2) (isotropicSample g1 g2) = 1 ∧
        isotropicSample g1 g2 = polar ⟨1, 0, 0⟩ ⟨0, 1, 0⟩ ⟨0, 0, 1⟩ (2 * g1 - 1) (Real.sqrt (1 - (2 * g1 - 1) ^ 2)) (2 * π * g2 - π) := by
    intro g1 g2 hg0 hg1
    have hu := polar_unit hfr' (2 * g1 - 1) (Real.sqrt (1 - (2 * g1 - 1) ^ 2)) (2 * π * g2 - π) (by
      rw [Real.sq_sqrt (by nlinarith)]; ring)
    have : isotropicSample g1 g2 = polar ⟨1, 0, 0⟩ ⟨0, 1, 0⟩ ⟨0, 0, 1⟩ (2 * g1 - 1) (Real.sqrt (1 - (2 * g1 - 1) ^ 2)) (2 * π * g2 - π) := by
      rw [← normalize_of_unit hu, isotropicSample, uniform_le (by norm_num), uniform_le (by linarith [Real.pi_pos])]
      have e1 : (1 - -1) * g1 + -1 = 2 * g1 - 1 := by ring
      have e2 : (π - -π) * g2 + -π = 2 * π * g2 - π := by ring
      simp only [e1, e2]
      congr 1
      ext <;> simp [polar, pow_two]
    exact ⟨by rw [this]; exact hu, this⟩
  refine ⟨⟨-1, 0, 0⟩, ⟨0, -1, 0⟩, hfr, fun g1 g2 h0 h1 => hval g1 g2 h0 h1.le, fun f hf => ?_⟩
  have hcap := cap_integral hf ⟨-1, 0, 0⟩ ⟨0, -1, 0⟩ ⟨0, 0, 1⟩ π Real.pi_pos le_rfl
  rw [Real.cos_pi] at hcap
  have hL : (∫ g1 in (0 : ℝ)..1, ∫ g2 in (0 : ℝ)..1, f (isotropicSample g1 g2)) = ∫ g1 in (0 : ℝ)..1, ∫ g2 in (0 : ℝ)..1,
      f (polar ⟨-1, 0, 0⟩ ⟨0, -1, 0⟩ ⟨0, 0, 1⟩ ((1 - -1) * g1 + -1) (Real.sqrt (1 - ((1 - -1) * g1 + -1) ^ 2)) (2 * π * g2)) := by
    apply intervalIntegral.integral_congr
    intro g1 hg1
    rw [Set.uIcc_of_le zero_le_one] at hg1
    have e : ∀ g2, isotropicSample g1 g2 =
        polar ⟨-1, 0, 0⟩ ⟨0, -1, 0⟩ ⟨0, 0, 1⟩ ((1 - -1) * g1 + -1) (Real.sqrt (1 - ((1 - -1) * g1 + -1) ^ 2)) (2 * π * g2) := by
      intro g2
      rw [(hval g1 g2 hg1.1 hg1.2).2]
      have e1 : (1 - -1) * g1 + -1 = 2 * g1 - 1 := by ring
      rw [e1]
      ext <;> simp [polar, Real.cos_sub_pi, Real.sin_sub_pi]
    simp only [e]
  rw [hL]
  simp only [sphereIntegral, isotropicProbability, intervalIntegral.integral_mul_const]
  have : ∀ A : ℝ → ℝ, (∫ t in (0 : ℝ)..π, A t * (1 / (4 * π)) * Real.sin t) = (1 / (4 * π)) * ∫ t in (0 : ℝ)..π, A t * Real.sin t := by
    intro A
    rw [← intervalIntegral.integral_const_mul]
    congr 1; funext t; ring
  rw [this, hcap]
  have hpi := Real.pi_pos.ne'
  field_simp
  ring

/-! ### One direction -/

/-- C70: a fixed direction of length one is what is sampled, and it has probability one whatever the size of the momentum; momenta whose cosine
with it is not within 1e-9 of one have probability zero. -/
theorem C70_fixed (d : Vec3 ℝ) (hd : Vec3.dot d d = 1) :
    (FixedDirection.mk d).sample = d ∧ (∀ k : ℝ, 0 < k → (FixedDirection.mk d).generationProbability (Vec3.smul k d) = 1) ∧
      ∀ p, p ≠ 0 → Vec3.dot d p ≤ (1 - 1e-9) * Vec3.norm p → (FixedDirection.mk d).generationProbability p = 0 := by
  refine ⟨rfl, fun k hk => ?_, fun p hp h => ?_⟩
  · have hn := Vec3.norm_smul_unit k d hd
    have : Vec3.normalize (Vec3.smul k d) = d := by
      rw [Vec3.normalize, hn, abs_of_pos hk]
      ext <;> simp only [Vec3.smul] <;> field_simp
    rw [FixedDirection.generationProbability, this, if_pos]
    simp only [hd]; norm_num
  · have hpn : 0 < Vec3.norm p := by
      rcases (Vec3.norm_nonneg p).lt_or_eq with h | h
      · exact h
      · exfalso
        have hu := Quat.normalize_dot p hp
        simp [Vec3.normalize, ← h, Vec3.dot] at hu
    have hx : Vec3.dot d (Vec3.normalize p) = Vec3.dot d p / Vec3.norm p := by
      simp only [Vec3.dot, Vec3.normalize]; ring
    have hb : Vec3.dot d p / Vec3.norm p ≤ 1 - 1e-9 := by rw [div_le_iff₀ hpn]; exact h
    rw [FixedDirection.generationProbability, hx, if_neg]
    rw [not_lt]
    exact le_trans (by linarith) (le_abs_self _)

example : Vec3.dot (⟨3 / 5, 0, -4 / 5⟩ : Vec3 ℝ) ⟨3 / 5, 0, -4 / 5⟩ = 1 := by norm_num [Vec3.dot]

/-- C70 fails for a fixed direction of another length: the sampled direction has probability zero. -/
theorem C70_fixed_length_fails : (FixedDirection.mk ⟨2, 0, 0⟩).generationProbability (FixedDirection.mk ⟨2, 0, 0⟩).sample = 0 := by
  have hn : Vec3.norm (⟨2, 0, 0⟩ : Vec3 ℝ) = 2 := by
    rw [Vec3.norm, show Vec3.dot (⟨2, 0, 0⟩ : Vec3 ℝ) ⟨2, 0, 0⟩ = 2 ^ 2 by norm_num [Vec3.dot], Real.sqrt_sq (by norm_num)]
  rw [FixedDirection.generationProbability, if_neg]
  simp only [FixedDirection.sample, Vec3.normalize, hn, Vec3.dot]
  norm_num

end Siren.Distributions
