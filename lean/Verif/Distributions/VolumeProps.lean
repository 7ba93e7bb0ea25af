import Verif.Distributions.VolumeModel
import Verif.Distributions.DirectionProps
import Verif.Geometry.ShapeProps
import Verif.Geometry.Phi

set_option autoImplicit false

/-!
# C71: positions drawn in a cylinder or a spherical shell
-/

namespace Siren.Distributions

open Siren.Util Siren.Geometry
open scoped Real

/-! ### Specification -/

/-- The point with cylindrical coordinates `r, t, z` of a placed shape. -/
noncomputable def cylPoint (p : Placement) (r t z : ℝ) : Vec3 ℝ := p.localToGlobalPosition ⟨r * Real.cos t, r * Real.sin t, z⟩

/-- Integral over the points of the placed shape with radii between `ri` and `ro` and heights between `-h/2` and `h/2`, in cylindrical coordinates. -/
noncomputable def cylIntegral (p : Placement) (ri ro h : ℝ) (F : Vec3 ℝ → ℝ) : ℝ :=
  ∫ z in (-h / 2)..(h / 2), ∫ r in ri..ro, (∫ t in (0 : ℝ)..2 * π, F (cylPoint p r t z)) * r

/-- The point with spherical coordinates `r, theta, phi` of a placed shape. -/
noncomputable def sphPoint (p : Placement) (r theta phi : ℝ) : Vec3 ℝ :=
  p.localToGlobalPosition ⟨r * Real.sin theta * Real.cos phi, r * Real.sin theta * Real.sin phi, r * Real.cos theta⟩

/-- Integral over the points of the placed shape with radii between `ri` and `ro`, in spherical coordinates. -/
noncomputable def shellIntegral (p : Placement) (ri ro : ℝ) (F : Vec3 ℝ → ℝ) : ℝ :=
  ∫ r in ri..ro, (∫ theta in (0 : ℝ)..π, (∫ phi in (0 : ℝ)..2 * π, F (sphPoint p r theta phi)) * Real.sin theta) * r ^ 2

/-! ### Lemmas -/

theorem placed_continuous {f : Vec3 ℝ → ℝ} (hf : ContinuousVec f) (p : Placement) (hp : p.Valid) :
    ContinuousVec fun v => f (p.localToGlobalPosition v) := by
  have hq : p.quaternion.IsUnit := hp
  have : Continuous fun v : ℝ × ℝ × ℝ => ((p.localToGlobalPosition ⟨v.1, v.2.1, v.2.2⟩).x, (p.localToGlobalPosition ⟨v.1, v.2.1, v.2.2⟩).y,
      (p.localToGlobalPosition ⟨v.1, v.2.1, v.2.2⟩).z) := by
    simp only [Placement.localToGlobalPosition, Quat.rotate_unit hq, Bool.false_eq_true, if_false, Quat.sandwich, Vec3.add_x, Vec3.add_y, Vec3.add_z]
    fun_prop
  exact hf.comp this

/-- Drawing the square of the radius uniformly. -/
theorem radius_square {H : ℝ → ℝ} (hH : Continuous H) (a b : ℝ) (ha : 0 ≤ a) (hab : a < b) :
    (∫ g in (0 : ℝ)..1, H (Real.sqrt (uniform (a * a) (b * b) g))) = 2 / (b * b - a * a) * ∫ r in a..b, H r * r := by
  have hlt : a * a < b * b := by nlinarith
  have h1 := intervalIntegral.integral_comp_mul_add (a := 0) (b := 1) (fun u => H (Real.sqrt u)) (c := b * b - a * a) (by linarith) (a * a)
  have h2 := intervalIntegral.integral_comp_mul_deriv (a := a) (b := b) (f := fun r => r * r) (f' := fun r => 2 * r) (g := fun u => H (Real.sqrt u))
    (fun x _ => ((hasDerivAt_id' x).mul (hasDerivAt_id' x)).congr_deriv (by ring)) (by fun_prop)
    (hH.comp Real.continuous_sqrt)
  have h3 : (∫ r in a..b, ((fun u => H (Real.sqrt u)) ∘ fun r => r * r) r * (2 * r)) = 2 * ∫ r in a..b, H r * r := by
    rw [← intervalIntegral.integral_const_mul]
    apply intervalIntegral.integral_congr
    intro r hr
    rw [Set.uIcc_of_le hab.le] at hr
    simp only [Function.comp, Real.sqrt_mul_self (ha.trans hr.1)]
    ring
  simp only [uniform_le hlt.le]
  rw [h1, mul_zero, zero_add, mul_one, sub_add_cancel, ← h2, h3, smul_eq_mul]
  have : b * b - a * a ≠ 0 := by linarith
  field_simp

theorem cbrt_cube {r : ℝ} (h : 0 ≤ r) : cbrt (r * r * r) = r := by
  have h3 : 0 ≤ r * r * r := by positivity
  rw [cbrt, if_neg (not_lt.mpr h3), show r * r * r = r ^ (3 : ℝ) by norm_cast; ring, ← Real.rpow_mul h]
  norm_num

/-- Drawing the cube of the radius uniformly. -/
theorem radius_cube {H : ℝ → ℝ} (hH : Continuous H) (a b : ℝ) (ha : 0 ≤ a) (hab : a < b) :
    (∫ g in (0 : ℝ)..1, H (cbrt (uniform (a * a * a) (b * b * b) g))) = 3 / (b * b * b - a * a * a) * ∫ r in a..b, H r * r ^ 2 := by
  have hb : 0 < b := ha.trans_lt hab
  have hlt : a * a * a < b * b * b := by
    have : a * a ≤ b * b := by nlinarith
    nlinarith [mul_pos hb hb, mul_nonneg ha ha]
  set G : ℝ → ℝ := fun u => H (u ^ (1 / 3 : ℝ)) with hG
  have hGc : Continuous G := hH.comp (Real.continuous_rpow_const (by norm_num))
  have h1 := intervalIntegral.integral_comp_mul_add (a := 0) (b := 1) G (c := b * b * b - a * a * a) (by linarith) (a * a * a)
  have h2 := intervalIntegral.integral_comp_mul_deriv (a := a) (b := b) (f := fun r => r * r * r) (f' := fun r => 3 * r ^ 2) (g := G)
    (fun x _ => (((hasDerivAt_id' x).mul (hasDerivAt_id' x)).mul (hasDerivAt_id' x)).congr_deriv (by simp only [Pi.mul_apply]; ring))
    (by fun_prop) hGc
  have h3 : (∫ r in a..b, (G ∘ fun r => r * r * r) r * (3 * r ^ 2)) = 3 * ∫ r in a..b, H r * r ^ 2 := by
    rw [← intervalIntegral.integral_const_mul]
    apply intervalIntegral.integral_congr
    intro r hr
    rw [Set.uIcc_of_le hab.le] at hr
    have h0 := ha.trans hr.1
    have : (r * r * r) ^ (1 / 3 : ℝ) = r := by
      have := cbrt_cube h0
      rwa [cbrt, if_neg (not_lt.mpr (by positivity))] at this
    simp only [Function.comp, hG, this]
    ring
  have h4 : (∫ g in (0 : ℝ)..1, H (cbrt (uniform (a * a * a) (b * b * b) g))) = ∫ g in (0 : ℝ)..1, G ((b * b * b - a * a * a) * g + a * a * a) := by
    apply intervalIntegral.integral_congr
    intro g hg
    rw [Set.uIcc_of_le zero_le_one] at hg
    have h0 : 0 ≤ (b * b * b - a * a * a) * g + a * a * a := by
      have := mul_nonneg (mul_nonneg ha ha) ha
      nlinarith [mul_nonneg (by linarith : 0 ≤ b * b * b - a * a * a) hg.1]
    simp only [uniform_le hlt.le, cbrt, if_neg (not_lt.mpr h0), hG]
  rw [h4, h1, mul_zero, zero_add, mul_one, sub_add_cancel, ← h2, h3, smul_eq_mul]
  have : b * b * b - a * a * a ≠ 0 := by linarith
  field_simp

/-! ### Cylinder -/

/-- C71: the density of a cylinder position is one over the volume strictly inside, zero on the surface and outside. -/
theorem C71_cylinder_density (c : CylinderShape) (hp : c.placement.Valid) (r t z : ℝ) (hr : 0 ≤ r) :
    (c.innerRadius < r → r < c.radius → |z| < c.z / 2 →
      c.generationProbability (cylPoint c.placement r t z) = 1 / (π * (c.radius ^ 2 - c.innerRadius ^ 2) * c.z)) ∧
      (r ≤ c.innerRadius ∨ c.radius ≤ r ∨ c.z / 2 ≤ |z| → c.generationProbability (cylPoint c.placement r t z) = 0) := by
  have hpos : c.placement.globalToLocalPosition (cylPoint c.placement r t z) = ⟨r * Real.cos t, r * Real.sin t, z⟩ :=
    (Placement.C41_inverse _ hp _).2.1
  have hrad : Real.sqrt (r * Real.cos t * (r * Real.cos t) + r * Real.sin t * (r * Real.sin t)) = r := by
    rw [show r * Real.cos t * (r * Real.cos t) + r * Real.sin t * (r * Real.sin t) = r ^ 2 * (Real.sin t ^ 2 + Real.cos t ^ 2) by ring,
      Real.sin_sq_add_cos_sq, mul_one, Real.sqrt_sq hr]
  have h2 : (0.5 : ℝ) * c.z = c.z / 2 := by norm_num; ring
  simp only [CylinderShape.generationProbability, hpos, hrad, h2, ge_iff_le]
  refine ⟨fun h1 h2 h3 => ?_, fun h => ?_⟩
  · rw [if_neg (by push Not; exact ⟨h3, h1, h2⟩), pow_two, pow_two]
  · rw [if_pos (by tauto)]

/-- C71: averages of any continuous function over the generator outputs are its integrals over the cylinder with the reported density. -/
theorem C71_cylinder_law (c : CylinderShape) (hp : c.placement.Valid) (hi : 0 ≤ c.innerRadius) (hir : c.innerRadius < c.radius) (hz : 0 < c.z)
    (f : Vec3 ℝ → ℝ) (hf : ContinuousVec f) :
    (∫ g3 in (0 : ℝ)..1, ∫ g2 in (0 : ℝ)..1, ∫ g1 in (0 : ℝ)..1, f (c.draw g1 g2 g3)) =
      cylIntegral c.placement c.innerRadius c.radius c.z fun v => f v * c.generationProbability v := by
  have hfc := placed_continuous hf c.placement hp
  have hcyl : Continuous fun x : ℝ × ℝ × ℝ => f (cylPoint c.placement x.1 x.2.1 x.2.2) :=
    hfc.comp (by fun_prop : Continuous fun x : ℝ × ℝ × ℝ => (x.1 * Real.cos x.2.1, x.1 * Real.sin x.2.1, x.2.2))
  have hpi : (0 : ℝ) ≤ 2 * π := by positivity
  set A : ℝ → ℝ → ℝ := fun z r => ∫ t in (0 : ℝ)..2 * π, f (cylPoint c.placement r t z) with hA
  have hAc : ∀ z, Continuous (A z) := by
    intro z
    apply intervalIntegral.continuous_parametric_intervalIntegral_of_continuous'
    exact hcyl.comp (by fun_prop : Continuous fun x : ℝ × ℝ => (x.1, x.2, z))
  have hV : 0 < c.radius * c.radius - c.innerRadius * c.innerRadius := by nlinarith
  have hinner : ∀ g2 g3, (∫ g1 in (0 : ℝ)..1, f (c.draw g1 g2 g3)) = (2 * π)⁻¹ *
      A (uniform (-c.z / 2) (c.z / 2) g3) (Real.sqrt (uniform (c.innerRadius * c.innerRadius) (c.radius * c.radius) g2)) := by
    intro g2 g3
    have := intervalIntegral.integral_comp_mul_left (a := 0) (b := 1) (fun t => f (cylPoint c.placement
      (Real.sqrt (uniform (c.innerRadius * c.innerRadius) (c.radius * c.radius) g2)) t (uniform (-c.z / 2) (c.z / 2) g3))) (c := 2 * π) (by positivity)
    simp only [mul_zero, mul_one, smul_eq_mul] at this
    rw [hA, ← this]
    simp only [CylinderShape.draw, cylPoint, uniform_le hpi, sub_zero, add_zero]
  have hmid : ∀ g3, (∫ g2 in (0 : ℝ)..1, ∫ g1 in (0 : ℝ)..1, f (c.draw g1 g2 g3)) = (2 * π)⁻¹ *
      (2 / (c.radius * c.radius - c.innerRadius * c.innerRadius) *
        ∫ r in c.innerRadius..c.radius, A (uniform (-c.z / 2) (c.z / 2) g3) r * r) := by
    intro g3
    simp only [hinner]
    rw [intervalIntegral.integral_const_mul, radius_square (hAc _) _ _ hi hir]
  set B : ℝ → ℝ := fun z => ∫ r in c.innerRadius..c.radius, A z r * r with hB
  have hout : (∫ g3 in (0 : ℝ)..1, B (uniform (-c.z / 2) (c.z / 2) g3)) = c.z⁻¹ * ∫ z in (-c.z / 2)..(c.z / 2), B z := by
    have h := intervalIntegral.integral_comp_mul_add (a := 0) (b := 1) B (c := c.z) hz.ne' (-c.z / 2)
    have e : ∀ g, uniform (-c.z / 2) (c.z / 2) g = c.z * g + -c.z / 2 := by
      intro g; rw [uniform_le (by linarith)]; ring
    simp only [e]
    rw [h, smul_eq_mul]
    congr 2 <;> ring
  have hdens : ∀ z ∈ Set.Ioo (-c.z / 2) (c.z / 2), (∫ r in c.innerRadius..c.radius, (∫ t in (0 : ℝ)..2 * π,
      f (cylPoint c.placement r t z) * c.generationProbability (cylPoint c.placement r t z)) * r) =
      1 / (π * (c.radius ^ 2 - c.innerRadius ^ 2) * c.z) * B z := by
    intro z hz'
    rw [hB, ← intervalIntegral.integral_const_mul]
    apply intervalIntegral.integral_congr_Ioo_of_le hir.le
    intro r hr
    have : ∀ t, c.generationProbability (cylPoint c.placement r t z) = 1 / (π * (c.radius ^ 2 - c.innerRadius ^ 2) * c.z) := fun t =>
      (C71_cylinder_density c hp r t z (hi.trans hr.1.le)).1 hr.1 hr.2 (abs_lt.mpr ⟨by linarith [hz'.1], hz'.2⟩)
    simp only [this, hA]
    rw [intervalIntegral.integral_mul_const]; ring
  rw [cylIntegral, intervalIntegral.integral_congr_Ioo_of_le (by linarith) hdens, intervalIntegral.integral_const_mul]
  simp only [hmid]
  rw [intervalIntegral.integral_const_mul, intervalIntegral.integral_const_mul, hout]
  have h1 : c.radius ^ 2 - c.innerRadius ^ 2 = c.radius * c.radius - c.innerRadius * c.innerRadius := by ring
  rw [h1]
  have := hV.ne'
  have := hz.ne'
  have := Real.pi_pos.ne'
  field_simp

/-- C71: every position drawn is in the cylinder. -/
theorem C71_cylinder_inside (c : CylinderShape) (hi : 0 ≤ c.innerRadius) (hir : c.innerRadius ≤ c.radius) (hz : 0 ≤ c.z)
    (g1 g2 g3 : ℝ) (h2 : 0 ≤ g2 ∧ g2 < 1) (h3 : 0 ≤ g3 ∧ g3 < 1) :
    ∃ r t z, c.draw g1 g2 g3 = cylPoint c.placement r t z ∧ c.innerRadius ≤ r ∧ r ≤ c.radius ∧ -(c.z / 2) ≤ z ∧ z ≤ c.z / 2 := by
  have hsq : c.innerRadius * c.innerRadius ≤ c.radius * c.radius := by nlinarith
  refine ⟨_, _, _, rfl, ?_, ?_, ?_, ?_⟩
  · rw [uniform_le hsq]; apply Real.le_sqrt_of_sq_le; nlinarith
  · rw [uniform_le hsq]; apply Real.sqrt_le_iff.mpr ⟨hi.trans hir, by nlinarith⟩
  · rw [uniform_le (by linarith)]; nlinarith
  · rw [uniform_le (by linarith)]; nlinarith

example : ∃ c : CylinderShape, c.placement.Valid ∧ 0 ≤ c.innerRadius ∧ c.innerRadius < c.radius ∧ 0 < c.z :=
  ⟨⟨.make ⟨1, 2, 3⟩ ⟨1, 0, 0, 1⟩, 5, 2, 10, 0, 7⟩, Placement.make_valid _ _ (by norm_num [Quat.normSq]), by norm_num, by norm_num, by norm_num⟩

/-- C71 fails for a cylinder that is cut to a wedge: the cut is ignored, so that positions outside the solid are drawn, and with a positive
density. -/
theorem C71_wedge_fails :
    ∃ c : CylinderShape, c.startPhi = 0 ∧ c.deltaPhi = π / 2 ∧
      let v := c.placement.globalToLocalPosition (c.draw (1 / 2) (1 / 2) (1 / 2))
      ¬ Phi.Within (Phi.atan2 v.y v.x) c.startPhi 0 c.deltaPhi ∧ 0 < c.generationProbability (c.draw (1 / 2) (1 / 2) (1 / 2)) := by
  have hv := Placement.translation_valid 0
  refine ⟨⟨.translation 0, 2, 0, 2, 0, π / 2⟩, rfl, rfl, ?_⟩
  have ht : uniform 0 (2 * π) (1 / 2) = π := by rw [uniform_le (by positivity)]; ring
  have hr : uniform (0 * 0) (2 * 2) (1 / 2) = 2 := by rw [uniform_le (by norm_num)]; norm_num
  have hz : uniform (-2 / 2) (2 / 2) (1 / 2) = 0 := by rw [uniform_le (by norm_num)]; norm_num
  have hs1 : 0 < Real.sqrt 2 := by positivity
  have hs2 : Real.sqrt 2 < 2 := by rw [Real.sqrt_lt' (by norm_num)]; norm_num
  have hdraw : (CylinderShape.mk (.translation 0) 2 0 2 0 (π / 2)).draw (1 / 2) (1 / 2) (1 / 2) = cylPoint (.translation 0) (Real.sqrt 2) π 0 := by
    simp only [CylinderShape.draw, ht, hr, hz, cylPoint]
  simp only [hdraw]
  constructor
  · rw [show Placement.globalToLocalPosition (.translation 0) (cylPoint (.translation 0) (Real.sqrt 2) π 0) = _ from
      (Placement.C41_inverse _ hv _).2.1]
    simp only [Real.sin_pi, Real.cos_pi, mul_zero]
    have : Phi.atan2 0 (Real.sqrt 2 * -1) = π := by
      rw [Phi.atan2, show (⟨Real.sqrt 2 * -1, 0⟩ : ℂ) = ((Real.sqrt 2 * -1 : ℝ) : ℂ) from rfl, Complex.arg_ofReal_of_neg (by linarith)]
    rw [this]
    rintro ⟨k, h1, h2⟩
    have hpi := Real.pi_pos
    rcases le_or_gt 0 k with h | h
    · have : (0 : ℝ) ≤ k := by exact_mod_cast h
      nlinarith
    · have : (k : ℝ) ≤ -1 := by exact_mod_cast (by omega : k ≤ -1)
      nlinarith
  · have := (C71_cylinder_density (CylinderShape.mk (.translation 0) 2 0 2 0 (π / 2)) hv (Real.sqrt 2) π 0 hs1.le).1 hs1 hs2 (by norm_num)
    rw [show cylPoint (.translation 0) (Real.sqrt 2) π 0 =
      cylPoint (CylinderShape.mk (.translation 0) 2 0 2 0 (π / 2)).placement (Real.sqrt 2) π 0 from rfl, this]
    have := Real.pi_pos
    norm_num
    positivity

/-! ### Spherical shell -/

theorem sphPoint_radius (p : Placement) (hp : p.Valid) (r theta phi : ℝ) (hr : 0 ≤ r) :
    Vec3.norm (p.globalToLocalPosition (sphPoint p r theta phi)) = r := by
  rw [show p.globalToLocalPosition (sphPoint p r theta phi) = _ from (Placement.C41_inverse _ hp _).2.1, Vec3.norm]
  have : Vec3.dot (⟨r * Real.sin theta * Real.cos phi, r * Real.sin theta * Real.sin phi, r * Real.cos theta⟩ : Vec3 ℝ)
      ⟨r * Real.sin theta * Real.cos phi, r * Real.sin theta * Real.sin phi, r * Real.cos theta⟩ = r ^ 2 := by
    simp only [Vec3.dot]
    linear_combination r ^ 2 * Real.sin theta ^ 2 * Real.sin_sq_add_cos_sq phi + r ^ 2 * Real.sin_sq_add_cos_sq theta
  rw [this, Real.sqrt_sq hr]

/-- C71: the density of a shell position is one over the volume strictly inside, zero on the surface and outside. -/
theorem C71_sphere_density (s : SphereShape) (hp : s.placement.Valid) (r theta phi : ℝ) (hr : 0 ≤ r) :
    (s.innerRadius < r → r < s.radius →
      s.generationProbability (sphPoint s.placement r theta phi) = 1 / (4 / 3 * π * (s.radius ^ 3 - s.innerRadius ^ 3))) ∧
      (r ≤ s.innerRadius ∨ s.radius ≤ r → s.generationProbability (sphPoint s.placement r theta phi) = 0) := by
  simp only [SphereShape.generationProbability, sphPoint_radius _ hp r theta phi hr, ge_iff_le]
  refine ⟨fun h1 h2 => ?_, fun h => if_pos h⟩
  rw [if_neg (by push Not; exact ⟨h1, h2⟩)]
  congr 1
  ring

/-- C71: averages of any continuous function over the generator outputs are its integrals over the shell with the reported density. -/
theorem C71_sphere_law (s : SphereShape) (hp : s.placement.Valid) (hi : 0 ≤ s.innerRadius) (hir : s.innerRadius < s.radius)
    (f : Vec3 ℝ → ℝ) (hf : ContinuousVec f) :
    (∫ g1 in (0 : ℝ)..1, ∫ g3 in (0 : ℝ)..1, ∫ g2 in (0 : ℝ)..1, f (s.draw g1 g2 g3)) =
      shellIntegral s.placement s.innerRadius s.radius fun v => f v * s.generationProbability v := by
  have hfc := placed_continuous hf s.placement hp
  have hpi : (0 : ℝ) ≤ 2 * π := by positivity
  have hsph : Continuous fun x : ℝ × ℝ × ℝ => f (sphPoint s.placement x.1 x.2.1 x.2.2) :=
    hfc.comp (by fun_prop : Continuous fun x : ℝ × ℝ × ℝ =>
      (x.1 * Real.sin x.2.1 * Real.cos x.2.2, x.1 * Real.sin x.2.1 * Real.sin x.2.2, x.1 * Real.cos x.2.1))
  set A : ℝ → ℝ := fun r => ∫ theta in (0 : ℝ)..π, (∫ phi in (0 : ℝ)..2 * π, f (sphPoint s.placement r theta phi)) * Real.sin theta with hA
  have hAc : Continuous A := by
    apply intervalIntegral.continuous_parametric_intervalIntegral_of_continuous'
    apply Continuous.mul _ (by fun_prop)
    apply intervalIntegral.continuous_parametric_intervalIntegral_of_continuous'
    exact hsph.comp (by fun_prop : Continuous fun x : (ℝ × ℝ) × ℝ => (x.1.1, x.1.2, x.2))
  have hpol : ∀ r c' s' phi, f (s.placement.localToGlobalPosition (Vec3.smul r (polar ⟨1, 0, 0⟩ ⟨0, 1, 0⟩ ⟨0, 0, 1⟩ c' s' phi))) =
      f (s.placement.localToGlobalPosition ⟨r * s' * Real.cos phi, r * s' * Real.sin phi, r * c'⟩) := by
    intro r c' s' phi
    congr 2
    ext <;> simp [polar] <;> ring
  have hinner : ∀ g1, (∫ g3 in (0 : ℝ)..1, ∫ g2 in (0 : ℝ)..1, f (s.draw g1 g2 g3)) = (4 * π)⁻¹ * A (cbrt (uniform (s.innerRadius * s.innerRadius * s.innerRadius)
      (s.radius * s.radius * s.radius) g1)) := by
    intro g1
    set r := cbrt (uniform (s.innerRadius * s.innerRadius * s.innerRadius) (s.radius * s.radius * s.radius) g1) with hr
    have hfr : ContinuousVec fun v => f (s.placement.localToGlobalPosition (Vec3.smul r v)) :=
      hfc.comp (by fun_prop : Continuous fun x : ℝ × ℝ × ℝ => (r * x.1, r * x.2.1, r * x.2.2))
    have hcap := cap_integral hfr ⟨1, 0, 0⟩ ⟨0, 1, 0⟩ ⟨0, 0, 1⟩ π Real.pi_pos le_rfl
    simp only [hpol, Real.cos_pi] at hcap
    have e : ∀ g, (1 - -1) * g + -1 = uniform (-1) 1 g := fun g => (uniform_le (by norm_num) g).symm
    have e2 : ∀ g, 2 * π * g = uniform 0 (2 * π) g := fun g => by rw [uniform_le hpi]; ring
    simp only [e, e2, pow_two] at hcap
    have hdraw : ∀ g2 g3, s.draw g1 g2 g3 = s.placement.localToGlobalPosition ⟨r * Real.sqrt (1 - uniform (-1) 1 g3 * uniform (-1) 1 g3) *
        Real.cos (uniform 0 (2 * π) g2), r * Real.sqrt (1 - uniform (-1) 1 g3 * uniform (-1) 1 g3) * Real.sin (uniform 0 (2 * π) g2),
        r * uniform (-1) 1 g3⟩ := fun _ _ => rfl
    simp only [hdraw]
    rw [hA]
    simp only [sphPoint]
    have h4 : uniform 0 (2 * π) (1 - -1) = 4 * π := by rw [← e2]; ring
    rw [hcap, h4, ← mul_assoc, inv_mul_cancel₀ (by positivity), one_mul]
  have hdens : ∀ r ∈ Set.Ioo s.innerRadius s.radius, (∫ theta in (0 : ℝ)..π, (∫ phi in (0 : ℝ)..2 * π,
      f (sphPoint s.placement r theta phi) * s.generationProbability (sphPoint s.placement r theta phi)) * Real.sin theta) * r ^ 2 =
      1 / (4 / 3 * π * (s.radius ^ 3 - s.innerRadius ^ 3)) * (A r * r ^ 2) := by
    intro r hr
    have : ∀ theta phi, s.generationProbability (sphPoint s.placement r theta phi) = 1 / (4 / 3 * π * (s.radius ^ 3 - s.innerRadius ^ 3)) :=
      fun theta phi => (C71_sphere_density s hp r theta phi (hi.trans hr.1.le)).1 hr.1 hr.2
    simp only [this, intervalIntegral.integral_mul_const, hA]
    rw [← mul_assoc, ← intervalIntegral.integral_const_mul]
    congr 2
    funext theta
    ring
  rw [shellIntegral, intervalIntegral.integral_congr_Ioo_of_le hir.le hdens, intervalIntegral.integral_const_mul]
  simp only [hinner]
  rw [intervalIntegral.integral_const_mul, radius_cube hAc _ _ hi hir]
  have hV : 0 < s.radius ^ 3 - s.innerRadius ^ 3 := sub_pos.mpr (pow_lt_pow_left₀ hir hi (by norm_num))
  have h1 : s.radius * s.radius * s.radius - s.innerRadius * s.innerRadius * s.innerRadius = s.radius ^ 3 - s.innerRadius ^ 3 := by ring
  rw [h1]
  have := hV.ne'
  have := Real.pi_pos.ne'
  field_simp

/-- C71: every position drawn is in the shell. -/
theorem C71_sphere_inside (s : SphereShape) (hp : s.placement.Valid) (hi : 0 ≤ s.innerRadius) (hir : s.innerRadius ≤ s.radius)
    (g1 g2 g3 : ℝ) (h1 : 0 ≤ g1 ∧ g1 < 1) (h3 : 0 ≤ g3 ∧ g3 < 1) :
    s.innerRadius ≤ Vec3.norm (s.placement.globalToLocalPosition (s.draw g1 g2 g3)) ∧
      Vec3.norm (s.placement.globalToLocalPosition (s.draw g1 g2 g3)) ≤ s.radius := by
  have hmono : ∀ x y : ℝ, 0 ≤ x → x ≤ y → cbrt x ≤ cbrt y := by
    intro x y hx hxy
    rw [cbrt, cbrt, if_neg (not_lt.mpr hx), if_neg (not_lt.mpr (hx.trans hxy))]
    exact Real.rpow_le_rpow hx hxy (by norm_num)
  have hro := hi.trans hir
  have hcube : s.innerRadius * s.innerRadius * s.innerRadius ≤ s.radius * s.radius * s.radius := by gcongr
  have hi3 : 0 ≤ s.innerRadius * s.innerRadius * s.innerRadius := by positivity
  have hu : uniform (s.innerRadius * s.innerRadius * s.innerRadius) (s.radius * s.radius * s.radius) g1 =
      (s.radius * s.radius * s.radius - s.innerRadius * s.innerRadius * s.innerRadius) * g1 + s.innerRadius * s.innerRadius * s.innerRadius :=
    uniform_le hcube g1
  have hlo := hmono _ _ hi3 (by rw [hu]; nlinarith : s.innerRadius * s.innerRadius * s.innerRadius ≤
    uniform (s.innerRadius * s.innerRadius * s.innerRadius) (s.radius * s.radius * s.radius) g1)
  have hhi := hmono (uniform (s.innerRadius * s.innerRadius * s.innerRadius) (s.radius * s.radius * s.radius) g1) (s.radius * s.radius * s.radius)
    (by rw [hu]; nlinarith) (by rw [hu]; nlinarith)
  rw [cbrt_cube hi] at hlo
  rw [cbrt_cube hro] at hhi
  have hc : uniform (-1) 1 g3 = 2 * g3 - 1 := by rw [uniform_le (by norm_num)]; ring
  have hnorm : Vec3.norm (s.placement.globalToLocalPosition (s.draw g1 g2 g3)) =
      cbrt (uniform (s.innerRadius * s.innerRadius * s.innerRadius) (s.radius * s.radius * s.radius) g1) := by
    rw [← sphPoint_radius s.placement hp _ (Real.arccos (uniform (-1) 1 g3)) (uniform 0 (2 * π) g2) (hi.trans hlo)]
    simp only [SphereShape.draw, sphPoint, Real.sin_arccos, pow_two]
    rw [Real.cos_arccos (by rw [hc]; linarith) (by rw [hc]; linarith)]
  rw [hnorm]
  exact ⟨hlo, hhi⟩

example : ∃ s : SphereShape, s.placement.Valid ∧ 0 ≤ s.innerRadius ∧ s.innerRadius < s.radius :=
  ⟨⟨.make ⟨1, 2, 3⟩ ⟨1, 0, 0, 1⟩, 5, 2⟩, Placement.make_valid _ _ (by norm_num [Quat.normSq]), by norm_num, by norm_num⟩

/-! ### Where the primary starts -/

/-- C71: if the crossings describe the part of the line inside the volume, and the vertex is inside and not within the tolerance of a crossing, the
initial position is a point of the line behind the vertex, the injection bounds enclose the vertex, and every other point of the volume on the line
that is not within the tolerance of a crossing lies between the bounds. -/
theorem C71_entry (eps : ℝ) (S : ℝ → Prop) (hits : List Isect) (vertex dir : Vec3 ℝ) (hd : Describes eps S hits)
    (hline : ∀ h ∈ hits, h.position = vertex + Vec3.smul h.distance dir)
    (hin : S 0) (haway : ∀ h ∈ hits, eps ≤ |h.distance - 0|) :
    ∃ t0 t1, t0 < 0 ∧ 0 ≤ t1 ∧ samplePosition hits vertex = .ok (vertex + Vec3.smul t0 dir, vertex) ∧
      injectionBounds hits = .ok (vertex + Vec3.smul t0 dir, vertex + Vec3.smul t1 dir) ∧
      ∀ t, S t → (∀ h ∈ hits, eps ≤ |h.distance - t|) → t0 < t ∧ t ≤ t1 := by
  have key : ∀ t, S t → (∀ h ∈ hits, eps ≤ |h.distance - t|) → ∃ h h' rest, hits = h :: h' :: rest ∧ h.distance < t ∧
      t ≤ ((h' :: rest).getLast (List.cons_ne_nil _ _)).distance := by
    intro t hS ht
    have hst := (hd.exact t ht).mp hS
    cases hits with
    | nil => simp at hst
    | cons h tl =>
      have hlt : h.distance < t := by
        by_contra hc
        rw [stateFrom_all_ge] at hst
        · simp at hst
        · intro x hx
          rcases List.mem_cons.mp hx with rfl | hx
          · exact not_lt.mp hc
          · exact (not_lt.mp hc).trans ((List.pairwise_cons.mp hd.strict).1 x hx).le
      cases tl with
      | nil =>
        exfalso
        have := hd.alternates
        simp [Alternates] at this
      | cons h' rest =>
        refine ⟨h, h', rest, rfl, hlt, ?_⟩
        by_contra hc
        have hall : ∀ x ∈ h :: h' :: rest, x.distance < t := by
          have hp := hd.strict
          intro x hx
          rcases List.mem_cons.mp hx with rfl | hx
          · exact hlt
          · have hle : x.distance ≤ ((h' :: rest).getLast (List.cons_ne_nil _ _)).distance := by
              have hp' := (List.pairwise_cons.mp hp).2
              rw [← List.dropLast_append_getLast (List.cons_ne_nil h' rest)] at hp' hx
              rcases List.mem_append.mp hx with hx | hx
              · exact ((List.pairwise_append.mp hp').2.2 x hx _ (by simp)).le
              · rw [List.mem_singleton.mp hx]
            exact hle.trans_lt (not_le.mp hc)
        have hf : (h :: h' :: rest).filter (fun x => decide (x.distance < t)) = h :: h' :: rest :=
          List.filter_eq_self.mpr fun x hx => by simp [hall x hx]
        have hlast := alternates_last _ _ hd.alternates
        rw [stateFrom, hf] at hst
        simp_all
  obtain ⟨h, h', rest, rfl, h0, h1⟩ := key 0 hin haway
  refine ⟨h.distance, _, h0, h1, ?_, ?_, ?_⟩
  · rw [samplePosition, hline h (by simp)]
  · rw [injectionBounds, hline h (by simp), hline _ (List.mem_cons_of_mem _ (List.getLast_mem _))]
  · intro t hS ht
    obtain ⟨a, b, r, he, ha, hb⟩ := key t hS ht
    obtain ⟨rfl, rfl, rfl⟩ : h = a ∧ h' = b ∧ rest = r := by simpa using he
    exact ⟨ha, hb⟩

/-- A vertex at the origin in a volume that is crossed at -1 and 1. -/
example : ∃ hits : List Isect, Describes 0.1 (fun t => -1 < t ∧ t ≤ 1) hits ∧
    (∀ h ∈ hits, h.position = (⟨0, 0, 0⟩ : Vec3 ℝ) + Vec3.smul h.distance ⟨0, 0, 1⟩) ∧ ∀ h ∈ hits, (0.1 : ℝ) ≤ |h.distance - 0| := by
  refine ⟨[⟨-1, 0, true, ⟨0, 0, -1⟩⟩, ⟨1, 0, false, ⟨0, 0, 1⟩⟩], describes_pair _ _ _ _ rfl rfl (by norm_num) (fun t _ _ => Iff.rfl), ?_, ?_⟩
  · intro h hh
    simp only [List.mem_cons, List.not_mem_nil, or_false] at hh
    rcases hh with rfl | rfl <;> (ext <;> simp)
  · intro h hh
    simp only [List.mem_cons, List.not_mem_nil, or_false] at hh
    rcases hh with rfl | rfl <;> norm_num

end Siren.Distributions
