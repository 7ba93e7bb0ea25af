import Verif.Distributions.Space

set_option autoImplicit false

/-!
# The angle between an isotropic direction and a fixed one

A direction whose z component and azimuth are uniform has a uniform component along every axis.
-/

namespace Siren.Isotropic

open Siren Siren.Distributions.Space MeasureTheory Set
open scoped Real ENNReal

/-- The direction with third component `z` and azimuth `t`. -/
noncomputable def dirOf (z t : ℝ) : Vec3 ℝ := ⟨Real.sqrt (1 - z ^ 2) * Real.cos t, Real.sqrt (1 - z ^ 2) * Real.sin t, z⟩

/-- The same with the axis first. -/
noncomputable def om (z t : ℝ) : R3 := (z, Real.sqrt (1 - z ^ 2) * Real.cos t, Real.sqrt (1 - z ^ 2) * Real.sin t)

def ball : Set R3 := {x | nsq x < 1}

theorem measurable_nsq : Measurable nsq := by unfold nsq; fun_prop

theorem ball_measurable : MeasurableSet ball := measurableSet_lt measurable_nsq measurable_const

theorem measurable_om2 (z : ℝ) : Measurable fun t => om z t := by unfold om; fun_prop

theorem cos_lintegral (H : ℝ → ℝ≥0∞) :
    ∫⁻ s in Ioo 0 π, ENNReal.ofReal (Real.sin s) * H (Real.cos s) = ∫⁻ z in Ioo (-1) 1, H z := by
  have himg : Real.cos '' Ioo 0 π = Ioo (-1) 1 := by
    ext z
    constructor
    · rintro ⟨s, ⟨h0, h1⟩, rfl⟩
      constructor
      · rw [← Real.cos_pi]; exact Real.strictAntiOn_cos ⟨h0.le, h1.le⟩ ⟨Real.pi_pos.le, le_refl _⟩ h1
      · rw [← Real.cos_zero]; exact Real.strictAntiOn_cos ⟨le_refl _, Real.pi_pos.le⟩ ⟨h0.le, h1.le⟩ h0
    · rintro ⟨h0, h1⟩
      exact ⟨Real.arccos z, ⟨Real.arccos_pos.mpr h1, by
        have := Real.arccos_le_pi z
        rcases this.eq_or_lt with h | h
        · exfalso
          have := Real.arccos_eq_pi.mp h
          linarith
        · exact h⟩, Real.cos_arccos h0.le h1.le⟩
  have h := lintegral_image_eq_lintegral_abs_deriv_mul (s := Ioo 0 π) (f := Real.cos) (f' := fun s => -Real.sin s)
    measurableSet_Ioo (fun x _ => (Real.hasDerivAt_cos x).hasDerivWithinAt)
    (fun x hx y hy hxy => Real.injOn_cos ⟨hx.1.le, hx.2.le⟩ ⟨hy.1.le, hy.2.le⟩ hxy) H
  rw [himg] at h
  rw [h]
  refine setLIntegral_congr_fun measurableSet_Ioo fun s hs => ?_
  rw [abs_neg, abs_of_pos (Real.sin_pos_of_pos_of_lt_pi hs.1 hs.2)]

/-- Integrals over the ball of functions of the direction. -/
theorem ball_lintegral {h : R3 → ℝ≥0∞} (hm : Measurable h) (hom : ∀ (r : ℝ) (x : R3), 0 < r → h (r * x.1, r * x.2.1, r * x.2.2) = h x) :
    ∫⁻ x, ball.indicator h x =
      (∫⁻ r in Ioo (0 : ℝ) 1, ENNReal.ofReal r * ENNReal.ofReal r) *
        ∫⁻ z in Ioo (-1) 1, ∫⁻ t in Ioo 0 (2 * π), h (om z t) := by
  set Φ : ℝ → ℝ≥0∞ := fun z => ∫⁻ t in Ioo 0 (2 * π), h (om z t) with hΦ
  have hmi : Measurable (ball.indicator h) := hm.indicator ball_measurable
  have e0 : ∫⁻ x, ball.indicator h x = ∫⁻ Z : ℝ, ∫⁻ q : ℝ × ℝ, ball.indicator h (Z, q) :=
    lintegral_prod (μ := volume) (ν := volume) _ hmi.aemeasurable
  -- the inner plane in polar coordinates
  set J : ℝ × ℝ → ℝ≥0∞ := fun w => ∫⁻ t in Ioo 0 (2 * π), h (w.1, w.2 * Real.cos t, w.2 * Real.sin t) with hJ
  have hJm : Measurable J := by
    apply Measurable.lintegral_prod_right (f := fun (w : ℝ × ℝ) (t : ℝ) => h (w.1, w.2 * Real.cos t, w.2 * Real.sin t))
    exact hm.comp (by fun_prop)
  set K : ℝ × ℝ → ℝ≥0∞ := fun w => (Ioo (0 : ℝ) 1).indicator (fun r => ENNReal.ofReal r) w.2 * J w with hK
  have hKm : Measurable K := by
    refine Measurable.mul ?_ hJm
    exact (ENNReal.measurable_ofReal.indicator measurableSet_Ioo).comp measurable_snd
  have e1 : ∀ Z : ℝ, ∫⁻ q : ℝ × ℝ, ball.indicator h (Z, q) = ∫⁻ ρ : ℝ, (ring 0 1).indicator K (Z, ρ) := by
    intro Z
    have hF : Measurable fun q : ℝ × ℝ => ball.indicator h (Z, q) := hmi.comp (by fun_prop)
    have hp := polar_lintegral 0 1 (le_refl _) (fun q : ℝ × ℝ => ball.indicator h (Z, q)) hF
    have hsupp : ∀ q : ℝ × ℝ, (ring 0 1).indicator (fun q : ℝ × ℝ => ball.indicator h (Z, q)) q = ball.indicator h (Z, q) := by
      intro q
      by_cases hq : q ∈ ring 0 1
      · rw [indicator_of_mem hq]
      · rw [indicator_of_notMem hq]
        have hnb : (Z, q) ∉ ball := by
          intro hb
          apply hq
          have hb' : Z ^ 2 + q.1 ^ 2 + q.2 ^ 2 < 1 := hb
          refine ⟨Real.sqrt_nonneg _, ?_⟩
          rw [Real.sqrt_lt' one_pos]
          nlinarith [sq_nonneg Z]
        rw [indicator_of_notMem hnb]
    simp only [hsupp] at hp
    rw [← hp, ← lintegral_indicator measurableSet_Ioo]
    congr 1
    funext ρ
    by_cases hρ : ρ ∈ Ioo (0 : ℝ) 1
    · rw [indicator_of_mem hρ]
      have hn : ∀ t, nsq (Z, ρ * Real.cos t, ρ * Real.sin t) = Z ^ 2 + ρ ^ 2 := by
        intro t
        show Z ^ 2 + (ρ * Real.cos t) ^ 2 + (ρ * Real.sin t) ^ 2 = _
        linear_combination ρ ^ 2 * Real.sin_sq_add_cos_sq t
      by_cases hr : (Z, ρ) ∈ ring 0 1
      · rw [indicator_of_mem hr]
        have hlt : Z ^ 2 + ρ ^ 2 < 1 := by
          have := hr.2
          rw [Real.sqrt_lt' one_pos] at this
          simpa using this
        have : ∀ t, ball.indicator h (Z, ρ * Real.cos t, ρ * Real.sin t) = h (Z, ρ * Real.cos t, ρ * Real.sin t) := by
          intro t
          apply indicator_of_mem
          show nsq _ < 1
          rw [hn]; exact hlt
        simp only [this, hK, hJ, indicator_of_mem hρ]
      · rw [indicator_of_notMem hr]
        have hge : ¬ Z ^ 2 + ρ ^ 2 < 1 := by
          intro hlt
          apply hr
          refine ⟨Real.sqrt_nonneg _, ?_⟩
          rw [Real.sqrt_lt' one_pos]
          simpa using hlt
        have : ∀ t, ball.indicator h (Z, ρ * Real.cos t, ρ * Real.sin t) = 0 := by
          intro t
          apply indicator_of_notMem
          intro hb
          apply hge
          rw [← hn t]; exact hb
        simp only [this, lintegral_zero, mul_zero]
    · rw [indicator_of_notMem hρ]
      by_cases hr : (Z, ρ) ∈ ring 0 1
      · rw [indicator_of_mem hr]
        simp only [hK, indicator_of_notMem hρ, zero_mul]
      · rw [indicator_of_notMem hr]
  rw [e0]
  simp only [e1]
  have e2 : ∫⁻ Z : ℝ, ∫⁻ ρ : ℝ, (ring 0 1).indicator K (Z, ρ) = ∫⁻ w : ℝ × ℝ, (ring 0 1).indicator K w :=
    (lintegral_prod (μ := volume) (ν := volume) _ (hKm.indicator (ring_measurable 0 1)).aemeasurable).symm
  rw [e2, ← polar_lintegral 0 1 (le_refl _) K hKm]
  -- the angle to the axis
  have e3 : ∀ r ∈ Ioo (0 : ℝ) 1, ∫⁻ s in Ioo 0 (2 * π), K (r * Real.cos s, r * Real.sin s) =
      ENNReal.ofReal r * ∫⁻ z in Ioo (-1) 1, Φ z := by
    rintro r ⟨hr0, hr1⟩
    rw [← cos_lintegral Φ, ← lintegral_const_mul' _ _ ENNReal.ofReal_ne_top, ← lintegral_indicator measurableSet_Ioo,
      ← lintegral_indicator measurableSet_Ioo]
    congr 1
    funext s
    by_cases hs : s ∈ Ioo 0 π
    · have hs2 : s ∈ Ioo 0 (2 * π) := ⟨hs.1, by linarith [hs.2, Real.pi_pos]⟩
      rw [indicator_of_mem hs, indicator_of_mem hs2]
      have hsin := Real.sin_pos_of_pos_of_lt_pi hs.1 hs.2
      have hin : r * Real.sin s ∈ Ioo (0 : ℝ) 1 := by
        refine ⟨mul_pos hr0 hsin, ?_⟩
        have := Real.sin_le_one s
        nlinarith
      simp only [hK, indicator_of_mem hin]
      rw [ENNReal.ofReal_mul hr0.le, mul_assoc]
      congr 2
      simp only [hJ, hΦ]
      congr 1
      funext t
      have hsq : Real.sqrt (1 - Real.cos s ^ 2) = Real.sin s := by
        rw [← Real.sin_sq, Real.sqrt_sq hsin.le]
      have : om (Real.cos s) t = (Real.cos s, Real.sin s * Real.cos t, Real.sin s * Real.sin t) := by
        unfold om; rw [hsq]
      have hr := hom r (Real.cos s, Real.sin s * Real.cos t, Real.sin s * Real.sin t) hr0
      rw [this, ← hr]
      simp only [mul_assoc]
    · rw [indicator_of_notMem hs]
      by_cases hs2 : s ∈ Ioo 0 (2 * π)
      · rw [indicator_of_mem hs2]
        have hge : π ≤ s := by
          by_contra hc
          exact hs ⟨hs2.1, not_le.mp hc⟩
        have hsin : Real.sin s ≤ 0 := by
          have h1 : Real.sin s = -Real.sin (s - π) := by rw [Real.sin_sub_pi]; ring
          have h2 := Real.sin_nonneg_of_nonneg_of_le_pi (x := s - π) (by linarith) (by linarith [hs2.2])
          linarith
        have hin : r * Real.sin s ∉ Ioo (0 : ℝ) 1 := by
          intro h
          have := h.1
          nlinarith
        simp only [hK, indicator_of_notMem hin, zero_mul]
      · rw [indicator_of_notMem hs2]
  rw [setLIntegral_congr_fun measurableSet_Ioo (fun r hr => by rw [e3 r hr])]
  simp only [← mul_assoc]
  have hmeas : Measurable fun r : ℝ => ENNReal.ofReal r * ENNReal.ofReal r := by fun_prop
  rw [lintegral_mul_const _ hmeas]

theorem radial : (∫⁻ r in Ioo (0 : ℝ) 1, ENNReal.ofReal r * ENNReal.ofReal r) ≠ 0 ∧
    (∫⁻ r in Ioo (0 : ℝ) 1, ENNReal.ofReal r * ENNReal.ofReal r) ≠ ∞ := by
  constructor
  · have hm : Measurable fun r : ℝ => ENNReal.ofReal r * ENNReal.ofReal r := by fun_prop
    refine (setLIntegral_pos_iff hm).mpr ?_ |>.ne'
    have : Function.support (fun r : ℝ => ENNReal.ofReal r * ENNReal.ofReal r) ∩ Ioo 0 1 = Ioo 0 1 := by
      refine inter_eq_right.mpr fun r hr => ?_
      simp only [Function.mem_support]
      have := (ENNReal.ofReal_pos.mpr hr.1).ne'
      exact mul_ne_zero this this
    rw [this, Real.volume_Ioo]
    simp
  · refine ne_top_of_le_ne_top (b := ∫⁻ _ in Ioo (0 : ℝ) 1, 1) ?_ ?_
    · simp
    · refine setLIntegral_mono measurable_const fun r hr => ?_
      have : ENNReal.ofReal r ≤ 1 := by rw [← ENNReal.ofReal_one]; exact ENNReal.ofReal_le_ofReal hr.2.le
      exact mul_le_one' this this

/-- The component of a triple. -/
def along (n x : R3) : ℝ := n.1 * x.1 + n.2.1 * x.2.1 + n.2.2 * x.2.2

/-- The reflection that exchanges `n` and the first axis. -/
theorem exists_isometry (n : R3) (hn : nsq n = 1) :
    ∃ L : R3 →ₗ[ℝ] R3, (∀ x, nsq (L x) = nsq x) ∧ ∀ x, along n (L x) = x.1 := by
  have hn' : n.1 ^ 2 + n.2.1 ^ 2 + n.2.2 ^ 2 = 1 := hn
  by_cases h1 : n.1 = 1
  · have h2 : n.2.1 = 0 := by
      rw [h1] at hn'
      nlinarith [sq_nonneg n.2.1, sq_nonneg n.2.2]
    have h3 : n.2.2 = 0 := by
      rw [h1] at hn'
      nlinarith [sq_nonneg n.2.1, sq_nonneg n.2.2]
    refine ⟨LinearMap.id, fun x => rfl, fun x => ?_⟩
    unfold along
    rw [h1, h2, h3]
    simp
  · have hd : 1 - n.1 ≠ 0 := fun h => h1 (by linarith)
    -- x - ((e - n)·x / (1 - n.1)) (e - n)
    let k : R3 → ℝ := fun x => ((1 - n.1) * x.1 - n.2.1 * x.2.1 - n.2.2 * x.2.2) / (1 - n.1)
    let L : R3 →ₗ[ℝ] R3 :=
      { toFun := fun x => (x.1 - k x * (1 - n.1), x.2.1 + k x * n.2.1, x.2.2 + k x * n.2.2)
        map_add' := fun x y => by
          have hk : k (x + y) = k x + k y := by
            simp only [k, Prod.fst_add, Prod.snd_add]; rw [← add_div]; congr 1; ring
          rw [hk]
          simp only [Prod.fst_add, Prod.snd_add, Prod.mk_add_mk, Prod.mk.injEq]
          exact ⟨by ring, by ring, by ring⟩
        map_smul' := fun c x => by
          have hk : k (c • x) = c * k x := by
            simp only [k, Prod.smul_fst, Prod.smul_snd, smul_eq_mul]; rw [← mul_div_assoc]; congr 1; ring
          rw [hk]
          simp only [Prod.smul_fst, Prod.smul_snd, smul_eq_mul, RingHom.id_apply, Prod.smul_mk, Prod.mk.injEq]
          exact ⟨by ring, by ring, by ring⟩ }
    have hk : ∀ x, k x * (1 - n.1) = (1 - n.1) * x.1 - n.2.1 * x.2.1 - n.2.2 * x.2.2 := fun x => div_mul_cancel₀ _ hd
    refine ⟨L, fun x => ?_, fun x => ?_⟩
    · show (x.1 - k x * (1 - n.1)) ^ 2 + (x.2.1 + k x * n.2.1) ^ 2 + (x.2.2 + k x * n.2.2) ^ 2 = x.1 ^ 2 + x.2.1 ^ 2 + x.2.2 ^ 2
      linear_combination (2 * k x) * hk x + (k x) ^ 2 * hn'
    · show n.1 * (x.1 - k x * (1 - n.1)) + n.2.1 * (x.2.1 + k x * n.2.1) + n.2.2 * (x.2.2 + k x * n.2.2) = x.1
      linear_combination hk x + k x * hn'

theorem uniform_first (n : R3) (hn : nsq n = 1) {f : ℝ → ℝ≥0∞} (hf : Measurable f) :
    ∫⁻ z in Ioo (-1) 1, ∫⁻ t in Ioo 0 (2 * π), f (along n (om z t)) =
      ENNReal.ofReal (2 * π) * ∫⁻ c in Ioo (-1) 1, f c := by
  have key : ∀ m : R3, nsq m = 1 → ∫⁻ x, ball.indicator (fun x => f (along m x / Real.sqrt (nsq x))) x =
      (∫⁻ r in Ioo (0 : ℝ) 1, ENNReal.ofReal r * ENNReal.ofReal r) *
        ∫⁻ z in Ioo (-1) 1, ∫⁻ t in Ioo 0 (2 * π), f (along m (om z t)) := by
    intro m _
    have hmeas : Measurable fun x => f (along m x / Real.sqrt (nsq x)) := by
      apply hf.comp
      refine Measurable.div ?_ (Real.continuous_sqrt.measurable.comp measurable_nsq)
      unfold along; fun_prop
    rw [ball_lintegral hmeas]
    · congr 1
      refine setLIntegral_congr_fun measurableSet_Ioo fun z hz => ?_
      congr 1
      funext t
      have hz2 : 0 ≤ 1 - z ^ 2 := by nlinarith [hz.1, hz.2]
      have : nsq (om z t) = 1 := by
        show z ^ 2 + (Real.sqrt (1 - z ^ 2) * Real.cos t) ^ 2 + (Real.sqrt (1 - z ^ 2) * Real.sin t) ^ 2 = 1
        have h1 := Real.sq_sqrt hz2
        have h2 := Real.sin_sq_add_cos_sq t
        linear_combination h1 + Real.sqrt (1 - z ^ 2) ^ 2 * h2
      rw [this, Real.sqrt_one, div_one]
    · intro r x hr
      congr 1
      have e1 : along m (r * x.1, r * x.2.1, r * x.2.2) = r * along m x := by unfold along; ring
      have e2 : nsq (r * x.1, r * x.2.1, r * x.2.2) = r ^ 2 * nsq x := by unfold nsq; ring
      rw [e1, e2, Real.sqrt_mul (sq_nonneg r), Real.sqrt_sq hr.le, mul_div_mul_left _ _ hr.ne']
  obtain ⟨L, hL1, hL2⟩ := exists_isometry n hn
  have hpres := isometry_preserves L hL1
  set ex : R3 := (1, 0, 0) with hex
  have hexn : nsq ex = 1 := by simp [nsq, hex]
  have hswap : ∫⁻ x, ball.indicator (fun x => f (along n x / Real.sqrt (nsq x))) x =
      ∫⁻ x, ball.indicator (fun x => f (along ex x / Real.sqrt (nsq x))) x := by
    have hmeas : Measurable (ball.indicator fun x => f (along n x / Real.sqrt (nsq x))) := by
      refine Measurable.indicator (hf.comp ?_) ball_measurable
      refine Measurable.div ?_ (Real.continuous_sqrt.measurable.comp measurable_nsq)
      unfold along; fun_prop
    rw [← hpres.lintegral_comp hmeas]
    congr 1
    funext x
    have hb : L x ∈ ball ↔ x ∈ ball := by
      show nsq (L x) < 1 ↔ nsq x < 1
      rw [hL1]
    by_cases hx : x ∈ ball
    · rw [indicator_of_mem hx, indicator_of_mem (hb.mpr hx), hL1, hL2]
      congr 2
      simp [along, hex]
    · rw [indicator_of_notMem hx, indicator_of_notMem (fun h => hx (hb.mp h))]
  rw [key n hn, key ex hexn] at hswap
  have hcancel := (ENNReal.mul_right_inj radial.1 radial.2).mp hswap
  rw [hcancel]
  have : ∀ z t, along ex (om z t) = z := by intro z t; simp [along, hex, om]
  simp only [this, lintegral_const, Measure.restrict_apply_univ, Real.volume_Ioo, sub_zero]
  rw [lintegral_mul_const _ hf, mul_comm]

/-- The component of an isotropic direction along a fixed one is uniform. -/
theorem uniform_component {n : Vec3 ℝ} (hn : Vec3.dot n n = 1) {f : ℝ → ℝ≥0∞} (hf : Measurable f) :
    ∫⁻ z in Ioo (-1) 1, ∫⁻ t in Ioo 0 (2 * π), f (Vec3.dot (dirOf z t) n) =
      ENNReal.ofReal (2 * π) * ∫⁻ c in Ioo (-1) 1, f c := by
  have h := uniform_first (n.z, n.x, n.y) (by
    show n.z ^ 2 + n.x ^ 2 + n.y ^ 2 = 1
    rw [← hn]; simp only [Vec3.dot]; ring) hf
  rw [← h]
  refine lintegral_congr fun z => lintegral_congr fun t => ?_
  congr 1
  simp only [Vec3.dot, dirOf, along, om]
  ring

end Siren.Isotropic
