import Mathlib.Analysis.SpecialFunctions.PolarCoord
import Mathlib.MeasureTheory.Function.Jacobian
import Mathlib.Analysis.SpecialFunctions.Gaussian.GaussianIntegral
import Mathlib.Analysis.SpecialFunctions.ExpDeriv

set_option autoImplicit false

/-!
# The law of a number drawn by the transform of Box and Muller
-/

namespace Siren.Interactions.BoxMuller

open MeasureTheory Real Set ENNReal

/-- The transform (DMesonELoss.cxx:191), with mean `z0` and width `sigma`. -/
noncomputable def draw (sigma z0 u1 u2 : ℝ) : ℝ := sigma * sqrt (-2 * log u1) * cos (2 * π * u2) + z0

theorem image_exp : (fun r : ℝ => exp (-(r ^ 2) / 2)) '' Ioi 0 = Ioo 0 1 := by
  ext u
  constructor
  · rintro ⟨r, hr, rfl⟩
    have hr : 0 < r := hr
    refine ⟨exp_pos _, ?_⟩
    simp only
    rw [exp_lt_one_iff]
    have : 0 < r ^ 2 := by positivity
    linarith
  · rintro ⟨h0, h1⟩
    have hl : 0 < -2 * log u := by have := log_neg h0 h1; linarith
    refine ⟨sqrt (-2 * log u), sqrt_pos.mpr hl, ?_⟩
    simp only
    rw [sq_sqrt hl.le]
    rw [show -(-2 * log u) / 2 = log u by ring, exp_log h0]

theorem radius {r : ℝ} (hr : 0 < r) : sqrt (-2 * log (exp (-(r ^ 2) / 2))) = r := by
  rw [log_exp, show -2 * (-(r ^ 2) / 2) = r ^ 2 by ring, sqrt_sq hr.le]

/-- The first number, as a radius. -/
theorem first (g : ℝ → ℝ≥0∞) : ∫⁻ u in Ioo (0 : ℝ) 1, g (sqrt (-2 * log u)) = ∫⁻ r in Ioi (0 : ℝ), ENNReal.ofReal (r * exp (-(r ^ 2) / 2)) * g r := by
  have hder : ∀ r ∈ Ioi (0 : ℝ), HasDerivWithinAt (fun r : ℝ => exp (-(r ^ 2) / 2)) (exp (-(r ^ 2) / 2) * (-r)) (Ioi 0) r := by
    intro r _
    have h1 : HasDerivAt (fun r : ℝ => -(r ^ 2) / 2) (-r) r := by
      have := ((hasDerivAt_pow 2 r).neg).div_const 2
      refine this.congr_deriv ?_
      simp
      ring
    exact (h1.exp).hasDerivWithinAt
  have hinj : InjOn (fun r : ℝ => exp (-(r ^ 2) / 2)) (Ioi 0) := by
    intro a ha b hb h
    have ha : 0 < a := ha
    have hb : 0 < b := hb
    have h : exp (-(a ^ 2) / 2) = exp (-(b ^ 2) / 2) := h
    have h := exp_injective h
    have : a ^ 2 = b ^ 2 := by linarith
    nlinarith
  have := lintegral_image_eq_lintegral_abs_deriv_mul measurableSet_Ioi hder hinj (fun u => g (sqrt (-2 * log u)))
  rw [image_exp] at this
  rw [this]
  refine setLIntegral_congr_fun measurableSet_Ioi fun r hr => ?_
  have hr : 0 < r := hr
  rw [radius hr, abs_mul, abs_of_pos (exp_pos _), abs_neg, abs_of_pos hr, mul_comm r]

/-- The second number, as an angle. -/
theorem second (g : ℝ → ℝ≥0∞) : ∫⁻ u in Ioo (0 : ℝ) 1, g (cos (2 * π * u)) = ENNReal.ofReal (1 / (2 * π)) * ∫⁻ t in Ioo (-π) π, g (-cos t) := by
  have hpi := pi_pos
  have himg : (fun t : ℝ => (t + π) / (2 * π)) '' Ioo (-π) π = Ioo 0 1 := by
    ext u
    constructor
    · rintro ⟨t, ⟨h1, h2⟩, rfl⟩
      simp only
      refine ⟨div_pos (by linarith) (by linarith), ?_⟩
      rw [div_lt_one (by linarith)]; linarith
    · rintro ⟨h0, h1⟩
      refine ⟨2 * π * u - π, ⟨by nlinarith, by nlinarith⟩, ?_⟩
      simp only
      field_simp
      ring
  have hder : ∀ t ∈ Ioo (-π) π, HasDerivWithinAt (fun t : ℝ => (t + π) / (2 * π)) (1 / (2 * π)) (Ioo (-π) π) t := by
    intro t _
    exact (((hasDerivAt_id t).add_const π).div_const (2 * π)).hasDerivWithinAt
  have hinj : InjOn (fun t : ℝ => (t + π) / (2 * π)) (Ioo (-π) π) := by
    intro a _ b _ h
    simp only at h
    field_simp at h
    linarith
  have := lintegral_image_eq_lintegral_abs_deriv_mul measurableSet_Ioo hder hinj (fun u => g (cos (2 * π * u)))
  rw [himg] at this
  rw [this, ← lintegral_const_mul' _ _ ofReal_ne_top]
  refine setLIntegral_congr_fun measurableSet_Ioo fun t _ => ?_
  rw [abs_of_pos (by positivity), show 2 * π * ((t + π) / (2 * π)) = t + π by field_simp, cos_add_pi]

theorem gauss_total : ∫⁻ y : ℝ, ENNReal.ofReal (exp (-(y ^ 2) / 2)) = ENNReal.ofReal (sqrt (2 * π)) := by
  have hi := integrable_exp_neg_mul_sq (b := 1 / 2) (by norm_num)
  have he : (fun y : ℝ => exp (-(1 / 2) * y ^ 2)) = fun y => exp (-(y ^ 2) / 2) := by
    funext y; congr 1; ring
  rw [he] at hi
  rw [← ofReal_integral_eq_lintegral_ofReal hi (Filter.Eventually.of_forall fun y => (exp_pos _).le), ← he, integral_gaussian]
  congr 2
  ring

/-- The transform of two independent uniform numbers has the normal law. -/
theorem law {sigma : ℝ} (hs : 0 < sigma) (z0 : ℝ) (f : ℝ → ℝ≥0∞) (hf : Measurable f) :
    ∫⁻ u1 in Ioo (0 : ℝ) 1, ∫⁻ u2 in Ioo (0 : ℝ) 1, f (draw sigma z0 u1 u2) =
      ∫⁻ z : ℝ, ENNReal.ofReal (exp (-((z - z0) ^ 2) / (2 * sigma ^ 2)) / (sigma * sqrt (2 * π))) * f z := by
  have hpi := pi_pos
  have h2pi : 0 < sqrt (2 * π) := sqrt_pos.mpr (by linarith)
  unfold draw
  -- to polar coordinates
  have e1 : ∀ u1 : ℝ, ∫⁻ u2 in Ioo (0 : ℝ) 1, f (sigma * sqrt (-2 * log u1) * cos (2 * π * u2) + z0) =
      (fun r => ENNReal.ofReal (1 / (2 * π)) * ∫⁻ t in Ioo (-π) π, f (z0 - sigma * (r * cos t))) (sqrt (-2 * log u1)) := by
    intro u1
    rw [second (fun c => f (sigma * sqrt (-2 * log u1) * c + z0))]
    simp only
    congr 1
    refine lintegral_congr fun t => ?_
    congr 1
    ring
  rw [lintegral_congr e1, first (fun r => ENNReal.ofReal (1 / (2 * π)) * ∫⁻ t in Ioo (-π) π, f (z0 - sigma * (r * cos t)))]
  have hmeas : Measurable (fun p : ℝ × ℝ => ENNReal.ofReal (p.1 * exp (-(p.1 ^ 2) / 2)) * f (z0 - sigma * (p.1 * cos p.2))) := by
    refine Measurable.mul (by fun_prop) (hf.comp (by fun_prop))
  have e2 : ∫⁻ r in Ioi (0 : ℝ), ENNReal.ofReal (r * exp (-(r ^ 2) / 2)) *
        (ENNReal.ofReal (1 / (2 * π)) * ∫⁻ t in Ioo (-π) π, f (z0 - sigma * (r * cos t))) =
      ENNReal.ofReal (1 / (2 * π)) * ∫⁻ p in Ioi (0 : ℝ) ×ˢ Ioo (-π) π, ENNReal.ofReal (p.1 * exp (-(p.1 ^ 2) / 2)) * f (z0 - sigma * (p.1 * cos p.2)) := by
    rw [Measure.volume_eq_prod, ← Measure.prod_restrict, lintegral_prod _ hmeas.aemeasurable, ← lintegral_const_mul' _ _ ofReal_ne_top]
    refine lintegral_congr fun r => ?_
    have := lintegral_const_mul' (μ := volume.restrict (Ioo (-π) π)) (ENNReal.ofReal (r * exp (-(r ^ 2) / 2)))
      (fun t => f (z0 - sigma * (r * cos t))) ofReal_ne_top
    simp only [this]
    ring
  rw [e2]
  have e3 : ∫⁻ p in Ioi (0 : ℝ) ×ˢ Ioo (-π) π, ENNReal.ofReal (p.1 * exp (-(p.1 ^ 2) / 2)) * f (z0 - sigma * (p.1 * cos p.2)) =
      ∫⁻ q : ℝ × ℝ, ENNReal.ofReal (exp (-(q.1 ^ 2) / 2)) * ENNReal.ofReal (exp (-(q.2 ^ 2) / 2)) * f (z0 - sigma * q.1) := by
    rw [← lintegral_comp_polarCoord_symm (fun q : ℝ × ℝ => ENNReal.ofReal (exp (-(q.1 ^ 2) / 2)) * ENNReal.ofReal (exp (-(q.2 ^ 2) / 2)) * f (z0 - sigma * q.1))]
    rw [show polarCoord.target = Ioi (0 : ℝ) ×ˢ Ioo (-π) π from rfl]
    refine setLIntegral_congr_fun (measurableSet_Ioi.prod measurableSet_Ioo) fun p hp => ?_
    have hp1 : 0 < p.1 := hp.1
    simp only [polarCoord_symm_apply, smul_eq_mul]
    rw [← ofReal_mul (exp_pos _).le, ← mul_assoc (ENNReal.ofReal p.1), ← ofReal_mul hp1.le, ← exp_add]
    congr 4
    have := sin_sq_add_cos_sq p.2
    linear_combination (p.1 ^ 2 / 2) * this
  rw [e3]
  -- the second coordinate integrates out
  have hm2 : Measurable (fun q : ℝ × ℝ => ENNReal.ofReal (exp (-(q.1 ^ 2) / 2)) * ENNReal.ofReal (exp (-(q.2 ^ 2) / 2)) * f (z0 - sigma * q.1)) := by
    refine Measurable.mul (by fun_prop) (hf.comp (by fun_prop))
  have e4 : ∫⁻ q : ℝ × ℝ, ENNReal.ofReal (exp (-(q.1 ^ 2) / 2)) * ENNReal.ofReal (exp (-(q.2 ^ 2) / 2)) * f (z0 - sigma * q.1) =
      ENNReal.ofReal (sqrt (2 * π)) * ∫⁻ x : ℝ, ENNReal.ofReal (exp (-(x ^ 2) / 2)) * f (z0 - sigma * x) := by
    rw [Measure.volume_eq_prod, lintegral_prod _ hm2.aemeasurable, ← lintegral_const_mul' _ _ ofReal_ne_top]
    refine lintegral_congr fun x => ?_
    have : ∀ y : ℝ, ENNReal.ofReal (exp (-(x ^ 2) / 2)) * ENNReal.ofReal (exp (-(y ^ 2) / 2)) * f (z0 - sigma * x) =
        ENNReal.ofReal (exp (-(y ^ 2) / 2)) * (ENNReal.ofReal (exp (-(x ^ 2) / 2)) * f (z0 - sigma * x)) := fun y => by ring
    simp only [this]
    rw [lintegral_mul_const _ (by fun_prop), gauss_total]
  rw [e4, ← mul_assoc, ← ofReal_mul (by positivity)]
  -- and the first becomes the number itself
  have himg : (fun x : ℝ => z0 - sigma * x) '' univ = univ := by
    rw [image_univ]
    exact Function.Surjective.range_eq fun z => ⟨(z0 - z) / sigma, by field_simp; ring⟩
  have hder : ∀ x ∈ (univ : Set ℝ), HasDerivWithinAt (fun x : ℝ => z0 - sigma * x) (-(sigma * 1)) univ x := by
    intro x _
    exact (((hasDerivAt_id x).const_mul sigma).const_sub z0).hasDerivWithinAt
  have hinj : InjOn (fun x : ℝ => z0 - sigma * x) univ := by
    intro a _ b _ h
    simp only at h
    have : sigma * a = sigma * b := by linarith
    exact mul_left_cancel₀ hs.ne' this
  have := lintegral_image_eq_lintegral_abs_deriv_mul MeasurableSet.univ hder hinj
    (fun z => ENNReal.ofReal (exp (-((z - z0) ^ 2) / (2 * sigma ^ 2)) / (sigma * sqrt (2 * π))) * f z)
  rw [himg, Measure.restrict_univ] at this
  rw [this, ← lintegral_const_mul' _ _ ofReal_ne_top]
  refine lintegral_congr fun x => ?_
  rw [mul_one, abs_neg, abs_of_pos hs, ← mul_assoc, ← mul_assoc, ← ofReal_mul (by positivity), ← ofReal_mul hs.le]
  congr 2
  have ex : -((z0 - sigma * x - z0) ^ 2) / (2 * sigma ^ 2) = -(x ^ 2) / 2 := by field_simp; ring
  rw [ex]
  have hsq : sqrt (2 * π) * sqrt (2 * π) = 2 * π := mul_self_sqrt (by linarith)
  field_simp
  rw [show sqrt (2 * π) ^ 2 = 2 * π by rw [sq]; exact hsq]

end Siren.Interactions.BoxMuller
