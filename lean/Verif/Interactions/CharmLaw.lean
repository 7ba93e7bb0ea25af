import Verif.Interactions.CharmVa
import Verif.Interactions.Isotropic

set_option autoImplicit false
set_option linter.unusedSectionVars false

/-!
# What the charm decay sampler samples
-/

namespace Siren
namespace Charm

open Rk MeasureTheory Set
open Siren.Util (uniform)
open scoped Real ENNReal

variable (D : Masses)

/-! ### Specification -/

/-- The expected value over the numbers of one pass, which are uniform in [0, 1). -/
noncomputable def expectPass (F : Pass → ℝ≥0∞) : ℝ≥0∞ :=
  ∫⁻ m in Ico (0 : ℝ) 1, ∫⁻ ps in Ico (0 : ℝ) 1, ∫⁻ c23 in Ico (0 : ℝ) 1, ∫⁻ f23 in Ico (0 : ℝ) 1, ∫⁻ c1 in Ico (0 : ℝ) 1,
    ∫⁻ f1 in Ico (0 : ℝ) 1, ∫⁻ me in Ico (0 : ℝ) 1, F ⟨m, ps, c23, f23, c1, f1, me⟩

/-- The expected value over the numbers of `n` passes. -/
noncomputable def expect : ℕ → (List Pass → ℝ≥0∞) → ℝ≥0∞
  | 0, F => F []
  | n + 1, F => expectPass fun r => expect n fun rs => F (r :: rs)

/-- The value of `G` at the square of the mass of lepton and neutrino, if the loops ended. -/
noncomputable def score (G : ℝ → ℝ≥0∞) : Step → ℝ≥0∞
  | .accept t => G (q2 t)
  | _ => 0

/-- The expected value of `G` over the events of the loops. -/
noncomputable def Masses.sampled (G : ℝ → ℝ≥0∞) : ℝ≥0∞ := ⨆ n, expect n fun rs => score G (D.loop rs)

/-! ### One decision -/

/-- A pass that is accepted with `G` and otherwise goes on with `W`. -/
theorem coin {x M : ℝ} (hM : 0 < M) (hx : 0 ≤ x) (G W : ℝ≥0∞) [∀ u : ℝ, Decidable (x < u * M)] :
    ∫⁻ u in Ico (0 : ℝ) 1, (if x < u * M then W else G) =
      ENNReal.ofReal (min 1 (x / M)) * G + ENNReal.ofReal (1 - min 1 (x / M)) * W := by
  set a := min 1 (x / M) with ha
  have ha0 : 0 ≤ a := le_min zero_le_one (div_nonneg hx hM.le)
  have ha1 : a ≤ 1 := min_le_left _ _
  have hiff : ∀ u ∈ Ico (0 : ℝ) 1, (x < u * M ↔ a < u) := by
    rintro u ⟨h0, h1⟩
    rw [ha, min_lt_iff, div_lt_iff₀ hM]
    constructor
    · exact Or.inr
    · rintro (h | h)
      · linarith
      · exact h
  have e : ∫⁻ u in Ico (0 : ℝ) 1, (if x < u * M then W else G) =
      ∫⁻ u in Ico (0 : ℝ) 1, ((Iic a).indicator (fun _ => G) u + (Ioi a).indicator (fun _ => W) u) := by
    refine setLIntegral_congr_fun measurableSet_Ico fun u hu => ?_
    by_cases h : a < u
    · simp only [if_pos ((hiff u hu).mpr h)]
      rw [indicator_of_notMem (by simpa using h), indicator_of_mem (by simpa using h), zero_add]
    · simp only [if_neg (fun hc => h ((hiff u hu).mp hc))]
      rw [indicator_of_mem (by simpa using h), indicator_of_notMem (by simpa using h), add_zero]
  rw [e, lintegral_add_left (measurable_const.indicator measurableSet_Iic), lintegral_indicator_const measurableSet_Iic,
    lintegral_indicator_const measurableSet_Ioi, Measure.restrict_apply measurableSet_Iic, Measure.restrict_apply measurableSet_Ioi]
  have v1 : volume (Iic a ∩ Ico (0 : ℝ) 1) = ENNReal.ofReal a := by
    apply le_antisymm
    · calc volume (Iic a ∩ Ico (0 : ℝ) 1) ≤ volume (Icc 0 a) := measure_mono fun u hu => ⟨hu.2.1, hu.1⟩
        _ = _ := by rw [Real.volume_Icc, sub_zero]
    · calc ENNReal.ofReal a = volume (Ico 0 a) := by rw [Real.volume_Ico, sub_zero]
        _ ≤ volume (Iic a ∩ Ico (0 : ℝ) 1) := measure_mono fun u hu => ⟨hu.2.le, hu.1, lt_of_lt_of_le hu.2 ha1⟩
  have v2 : volume (Ioi a ∩ Ico (0 : ℝ) 1) = ENNReal.ofReal (1 - a) := by
    have : Ioi a ∩ Ico (0 : ℝ) 1 = Ioo a 1 := by
      ext u
      constructor
      · rintro ⟨h1, -, h2⟩; exact ⟨h1, h2⟩
      · rintro ⟨h1, h2⟩; exact ⟨h1, le_trans ha0 (le_of_lt h1), h2⟩
    rw [this, Real.volume_Ioo]
  rw [v1, v2, mul_comm, mul_comm W]

theorem lintegral_unit (W : ℝ≥0∞) : ∫⁻ _ in Ico (0 : ℝ) 1, W = W := by simp

/-! ### Directions -/

theorem dir_eq (c f : ℝ) : dir c f = Isotropic.dirOf c f := by
  unfold dir Isotropic.dirOf
  rw [Real.sin_arccos]

theorem dir_lintegral {n : Vec3 ℝ} (hn : Vec3.dot n n = 1) {f : ℝ → ℝ≥0∞} (hf : Measurable f) :
    ∫⁻ c1 in Ico (0 : ℝ) 1, ∫⁻ f1 in Ico (0 : ℝ) 1, f (Vec3.dot (dir (uniform (-1) 1 c1) (uniform 0 (2 * π) f1)) n) =
      ENNReal.ofReal (1 / 2) * ∫⁻ c in Ioo (-1 : ℝ) 1, f c := by
  have h2π : (0 : ℝ) < 2 * π := by positivity
  have e1 : ∀ c1 : ℝ, ∫⁻ f1 in Ico (0 : ℝ) 1, f (Vec3.dot (dir (uniform (-1) 1 c1) (uniform 0 (2 * π) f1)) n) =
      ENNReal.ofReal (1 / (2 * π - 0)) * ∫⁻ t in Ioo 0 (2 * π), f (Vec3.dot (dir (uniform (-1) 1 c1) t) n) := fun c1 =>
    Distributions.Space.uniform_lintegral 0 (2 * π) h2π fun t => f (Vec3.dot (dir (uniform (-1) 1 c1) t) n)
  simp only [e1]
  rw [lintegral_const_mul' _ _ ENNReal.ofReal_ne_top]
  rw [Distributions.Space.uniform_lintegral (-1) 1 (by norm_num) fun z => ∫⁻ t in Ioo 0 (2 * π), f (Vec3.dot (dir z t) n)]
  simp only [dir_eq]
  rw [Isotropic.uniform_component hn hf, sub_zero]
  have e2 : ENNReal.ofReal (1 / (2 * π)) * ENNReal.ofReal (2 * π) = 1 := by
    rw [← ENNReal.ofReal_mul (by positivity)]
    rw [one_div_mul_cancel h2π.ne', ENNReal.ofReal_one]
  have e3 : (1 : ℝ) - -1 = 2 := by norm_num
  rw [e3]
  calc ENNReal.ofReal (1 / (2 * π)) * (ENNReal.ofReal (1 / 2) * (ENNReal.ofReal (2 * π) * ∫⁻ c in Ioo (-1 : ℝ) 1, f c)) =
      (ENNReal.ofReal (1 / (2 * π)) * ENNReal.ofReal (2 * π)) * (ENNReal.ofReal (1 / 2) * ∫⁻ c in Ioo (-1 : ℝ) 1, f c) := by ring
    _ = _ := by rw [e2, one_mul]

/-! ### One pass -/

/-- The probability that the decision about the matrix element accepts, averaged over the directions. -/
noncomputable def avg (m : ℝ) : ℝ := if D.va then 1 / 2 * ∫ c in Ioc (-1 : ℝ) 1, min 1 (max 0 (wt D m c) / D.vaMax) else 1

/-- The probability that a pass with mass `m` is accepted. -/
noncomputable def acc (m : ℝ) : ℝ := min 1 (D.kMom m * D.lMom m / D.psMax) * avg D m

variable {D}

theorem measurable_kMom (D : Masses) : Measurable D.kMom := by unfold Masses.kMom; fun_prop
theorem measurable_lMom (D : Masses) : Measurable D.lMom := by unfold Masses.lMom; fun_prop

theorem measurable_wt (D : Masses) : Measurable fun p : ℝ × ℝ => wt D p.1 p.2 := by
  have h1 : Measurable fun p : ℝ × ℝ => D.kMom p.1 := (measurable_kMom D).comp measurable_fst
  have h2 : Measurable fun p : ℝ × ℝ => D.lMom p.1 := (measurable_lMom D).comp measurable_fst
  have h3 : Measurable fun p : ℝ × ℝ => eW D p.1 := by unfold eW; fun_prop
  have h4 : Measurable fun p : ℝ × ℝ => eL D p.1 := by unfold eL; fun_prop
  have h5 : Measurable fun p : ℝ × ℝ => eK D p.1 := by unfold eK; fun_prop
  unfold wt
  fun_prop

theorem continuous_wt (D : Masses) (m : ℝ) : Continuous (wt D m) := by
  unfold wt
  fun_prop

theorem measurable_avg (D : Masses) : Measurable (avg D) := by
  unfold avg
  split
  · have : StronglyMeasurable fun p : ℝ × ℝ => min 1 (max 0 (wt D p.1 p.2) / D.vaMax) :=
      (measurable_const.min ((measurable_const.max (measurable_wt D)).div_const _)).stronglyMeasurable
    have h := StronglyMeasurable.integral_prod_right (f := fun m c => min 1 (max 0 (wt D m c) / D.vaMax)) this (ν := volume.restrict (Ioc (-1 : ℝ) 1))
    exact h.measurable.const_mul _
  · exact measurable_const

theorem measurable_acc (D : Masses) : Measurable (acc D) := by
  have := measurable_kMom D
  have := measurable_lMom D
  have := measurable_avg D
  unfold acc
  fun_prop

theorem psMax_pos (h : D.Possible) : 0 < D.psMax := by
  have hl := h.lepton
  have ht : D.ml < D.top := by unfold Masses.top; have := h.threshold; linarith
  unfold Masses.psMax
  rw [add_zero]
  have h1 := (kMom_sq h le_rfl ht.le).2.2 ht
  have h2 : 0 < D.lMom D.top := by
    rw [lMom_eq h ht.le]; apply div_pos _ (by linarith); nlinarith
  positivity

theorem meMax_pos (h : D.Possible) : 0 < D.meMax := by
  unfold Masses.meMax
  split
  · exact vaMax_pos h
  · norm_num

theorem unit_avg {f : ℝ → ℝ} (hf : Continuous f) (h0 : ∀ c, 0 ≤ f c) (h1 : ∀ c, f c ≤ 1) (G W : ℝ≥0∞) :
    ENNReal.ofReal (1 / 2) * ∫⁻ c in Ioo (-1 : ℝ) 1, (ENNReal.ofReal (f c) * G + ENNReal.ofReal (1 - f c) * W) =
      ENNReal.ofReal (1 / 2 * ∫ c in Ioc (-1 : ℝ) 1, f c) * G +
        ENNReal.ofReal (1 - 1 / 2 * ∫ c in Ioc (-1 : ℝ) 1, f c) * W ∧
      0 ≤ 1 / 2 * ∫ c in Ioc (-1 : ℝ) 1, f c ∧ 1 / 2 * ∫ c in Ioc (-1 : ℝ) 1, f c ≤ 1 := by
  have hI : IntegrableOn f (Ioc (-1 : ℝ) 1) := (hf.integrableOn_Icc).mono_set Ioc_subset_Icc_self
  have hI2 : IntegrableOn (fun c => 1 - f c) (Ioc (-1 : ℝ) 1) :=
    ((continuous_const.sub hf).integrableOn_Icc).mono_set Ioc_subset_Icc_self
  have e1 : ∫⁻ c in Ioo (-1 : ℝ) 1, ENNReal.ofReal (f c) = ENNReal.ofReal (∫ c in Ioc (-1 : ℝ) 1, f c) := by
    unfold IntegrableOn at hI
    rw [restrict_Ioo_eq_restrict_Ioc]
    exact (ofReal_integral_eq_lintegral_ofReal hI (Filter.Eventually.of_forall h0)).symm
  have e2 : ∫⁻ c in Ioo (-1 : ℝ) 1, ENNReal.ofReal (1 - f c) = ENNReal.ofReal (∫ c in Ioc (-1 : ℝ) 1, (1 - f c)) := by
    unfold IntegrableOn at hI2
    rw [restrict_Ioo_eq_restrict_Ioc]
    exact (ofReal_integral_eq_lintegral_ofReal hI2 (Filter.Eventually.of_forall fun c => sub_nonneg.mpr (h1 c))).symm
  have e3 : ∫ c in Ioc (-1 : ℝ) 1, (1 - f c) = 2 - ∫ c in Ioc (-1 : ℝ) 1, f c := by
    rw [integral_sub (integrable_const _) hI]
    simp
    norm_num
  have n0 : 0 ≤ ∫ c in Ioc (-1 : ℝ) 1, f c := setIntegral_nonneg measurableSet_Ioc fun c _ => h0 c
  have n1 : 0 ≤ ∫ c in Ioc (-1 : ℝ) 1, (1 - f c) := setIntegral_nonneg measurableSet_Ioc fun c _ => sub_nonneg.mpr (h1 c)
  refine ⟨?_, by linarith, by linarith⟩
  rw [lintegral_add_left (by fun_prop), lintegral_mul_const _ (by fun_prop), lintegral_mul_const _ (by fun_prop), e1, e2, e3,
    mul_add, ← mul_assoc, ← mul_assoc, ← ENNReal.ofReal_mul (by norm_num), ← ENNReal.ofReal_mul (by norm_num)]
  congr 3
  ring

/-- What a pass gives, and `W` if it does not end the loops. -/
noncomputable def next (G : ℝ → ℝ≥0∞) (W : ℝ≥0∞) : Step → ℝ≥0∞
  | .accept t => G (q2 t)
  | .again => W
  | .broken => 0

theorem min_one_nonneg {x M : ℝ} (hx : 0 ≤ x) (hM : 0 < M) : 0 ≤ min 1 (x / M) := le_min zero_le_one (div_nonneg hx hM.le)

theorem combine {p a : ℝ} (hp0 : 0 ≤ p) (hp1 : p ≤ 1) (ha1 : a ≤ 1) (G W : ℝ≥0∞) :
    ENNReal.ofReal p * (ENNReal.ofReal a * G + ENNReal.ofReal (1 - a) * W) + ENNReal.ofReal (1 - p) * W =
      ENNReal.ofReal (p * a) * G + ENNReal.ofReal (1 - p * a) * W := by
  have e : ENNReal.ofReal (1 - p * a) = ENNReal.ofReal (p * (1 - a)) + ENNReal.ofReal (1 - p) := by
    rw [← ENNReal.ofReal_add (mul_nonneg hp0 (by linarith)) (by linarith)]
    congr 1; ring
  rw [e, ENNReal.ofReal_mul hp0, ENNReal.ofReal_mul hp0]
  ring

/-- One pass. -/
theorem pass_integral (h : D.Possible) (G : ℝ → ℝ≥0∞) (W : ℝ≥0∞) :
    (expectPass fun r => next G W (D.attempt r)) =
      ∫⁻ u in Ico (0 : ℝ) 1, (ENNReal.ofReal (acc D (D.draw u)) * G (D.draw u ^ 2) + ENNReal.ofReal (1 - acc D (D.draw u)) * W) := by
  classical
  unfold expectPass
  refine setLIntegral_congr_fun measurableSet_Ico fun u hu => ?_
  obtain ⟨m0, m1⟩ := draw_mem h hu
  set m := D.draw u with hm
  have hk0 := (kMom_sq h m0 m1.le).2.1
  have hl0 : 0 ≤ D.lMom m := by
    have := h.lepton
    rw [lMom_eq h m0]; apply div_nonneg _ (by linarith); nlinarith
  have hps := psMax_pos h
  have hme := meMax_pos h
  -- the acceptance as a function of the cosine
  set w : ℝ → ℝ := fun c => if D.va then max 0 (wt D m c) else 1 with hw
  have hw0 : ∀ c, 0 ≤ w c := by intro c; simp only [hw]; split; exacts [le_max_left _ _, zero_le_one]
  have hwc : Continuous w := by
    simp only [hw]; split
    · exact continuous_const.max (continuous_wt D m)
    · exact continuous_const
  set f : ℝ → ℝ := fun c => min 1 (w c / D.meMax) with hf
  have hfc : Continuous f := continuous_const.min (hwc.div_const _)
  have hf0 : ∀ c, 0 ≤ f c := fun c => min_one_nonneg (hw0 c) hme
  have hf1 : ∀ c, f c ≤ 1 := fun c => min_le_left _ _
  obtain ⟨hu1, hu2, hu3⟩ := unit_avg hfc hf0 hf1 (G (m ^ 2)) W
  have havg : 1 / 2 * ∫ c in Ioc (-1 : ℝ) 1, f c = avg D m := by
    simp only [hf, hw, avg, Masses.meMax]
    split
    · rfl
    · simp; norm_num
  rw [havg] at hu1 hu2 hu3
  have hstep : ∀ ps ∈ Ico (0 : ℝ) 1, (∫⁻ c23 in Ico (0 : ℝ) 1, ∫⁻ f23 in Ico (0 : ℝ) 1, ∫⁻ c1 in Ico (0 : ℝ) 1,
      ∫⁻ f1 in Ico (0 : ℝ) 1, ∫⁻ me in Ico (0 : ℝ) 1, next G W (D.attempt ⟨u, ps, c23, f23, c1, f1, me⟩)) =
      if D.kMom m * D.lMom m < ps * D.psMax then W
      else ENNReal.ofReal (avg D m) * G (m ^ 2) + ENNReal.ofReal (1 - avg D m) * W := by
    intro ps _
    by_cases hp : D.kMom m * D.lMom m < ps * D.psMax
    · rw [if_pos hp]
      have : ∀ c23 f23 c1 f1 me, next G W (D.attempt ⟨u, ps, c23, f23, c1, f1, me⟩) = W := by
        intro c23 f23 c1 f1 me
        rw [attempt_eq, if_pos hp]
        rfl
      simp only [this, lintegral_unit]
    · rw [if_neg hp]
      have e : ∀ c23 ∈ Ico (0 : ℝ) 1, (∫⁻ f23 in Ico (0 : ℝ) 1, ∫⁻ c1 in Ico (0 : ℝ) 1,
          ∫⁻ f1 in Ico (0 : ℝ) 1, ∫⁻ me in Ico (0 : ℝ) 1, next G W (D.attempt ⟨u, ps, c23, f23, c1, f1, me⟩)) =
          ENNReal.ofReal (avg D m) * G (m ^ 2) + ENNReal.ofReal (1 - avg D m) * W := by
        intro c23 hc23
        have e2 : ∀ f23 : ℝ, (∫⁻ c1 in Ico (0 : ℝ) 1,
            ∫⁻ f1 in Ico (0 : ℝ) 1, ∫⁻ me in Ico (0 : ℝ) 1, next G W (D.attempt ⟨u, ps, c23, f23, c1, f1, me⟩)) =
            ENNReal.ofReal (avg D m) * G (m ^ 2) + ENNReal.ofReal (1 - avg D m) * W := by
          intro f23
          obtain ⟨a1, a2⟩ := uniform_cos hc23
          rw [← hu1, ← dir_lintegral (n := dir (uniform (-1) 1 c23) (uniform 0 (2 * π) f23)) (dir_unit a1 a2 _)
            (f := fun c => ENNReal.ofReal (f c) * G (m ^ 2) + ENNReal.ofReal (1 - f c) * W)
            (by have := hfc.measurable; fun_prop)]
          refine setLIntegral_congr_fun measurableSet_Ico fun c1 hc1 => ?_
          refine setLIntegral_congr_fun measurableSet_Ico fun f1 _ => ?_
          obtain ⟨b1, b2⟩ := uniform_cos hc1
          obtain ⟨t, ht, -, hq, -, -, hwt⟩ := event_spec h m0 m1 a1 a2 b1 b2 (uniform 0 (2 * π) f23) (uniform 0 (2 * π) f1)
          set c := Vec3.dot (dir (uniform (-1) 1 c1) (uniform 0 (2 * π) f1)) (dir (uniform (-1) 1 c23) (uniform 0 (2 * π) f23)) with hc
          have hc01 : -1 ≤ c ∧ c ≤ 1 := by
            have u1 := dir_unit b1 b2 (uniform 0 (2 * π) f1)
            have u2 := dir_unit a1 a2 (uniform 0 (2 * π) f23)
            have := dot_sq_le (k := dir (uniform (-1) 1 c23) (uniform 0 (2 * π) f23)) u1
            rw [u2, ← hc] at this
            exact ⟨by nlinarith, by nlinarith⟩
          have hwt' : D.weight t = if D.va then wt D m c else 1 := by
            unfold Masses.weight; rw [hwt]
          have hiff : ∀ me : ℝ, next G W (D.attempt ⟨u, ps, c23, f23, c1, f1, me⟩) =
              if (if D.va then wt D m c else 1) < me * D.meMax then W else G (m ^ 2) := by
            intro me
            have hev : D.eventOf ⟨u, ps, c23, f23, c1, f1, me⟩ = some t := ht
            rw [attempt_eq, if_neg hp, hev]
            simp only
            rw [hwt']
            by_cases hlt : (if D.va then wt D m c else 1) < me * D.meMax
            · rw [if_pos hlt, if_pos hlt]; rfl
            · rw [if_neg hlt, if_neg hlt]; show G (q2 t) = _; rw [hq]
          simp only [hiff]
          have hmax : (if D.va then wt D m c else 1) = w c := by
            simp only [hw]
            split
            next hva =>
              rcases eq_or_lt_of_le m0 with he | hlt
              · -- at the lower end the momentum of the lepton vanishes
                have hz : D.lMom m = 0 := by rw [lMom_eq h m0, ← he]; simp
                have : wt D m c = 0 := by unfold wt; rw [hz]; ring
                rw [this, max_self]
              · exact (max_eq_right (wt_pos h hlt m1 hc01.1 hc01.2).le).symm
            · rfl
          rw [hmax]
          exact coin hme (hw0 c) _ _
        simp only [e2, lintegral_unit]
      rw [setLIntegral_congr_fun measurableSet_Ico e, lintegral_unit]
  rw [setLIntegral_congr_fun measurableSet_Ico hstep, coin hps (mul_nonneg hk0 hl0)]
  exact combine (min_one_nonneg (mul_nonneg hk0 hl0) hps) (min_le_left _ _) hu3 _ _

/-! ### The loops -/

theorem acc_mem (h : D.Possible) {m : ℝ} (h0 : D.ml ≤ m) (h1 : m < D.top) : 0 ≤ acc D m ∧ acc D m ≤ 1 := by
  have hk0 := (kMom_sq h h0 h1.le).2.1
  have hl0 : 0 ≤ D.lMom m := by
    have := h.lepton
    rw [lMom_eq h h0]; apply div_nonneg _ (by linarith); nlinarith
  have ha : 0 ≤ avg D m ∧ avg D m ≤ 1 := by
    unfold avg
    split
    · have hc : Continuous fun c => min 1 (max 0 (wt D m c) / D.vaMax) :=
        continuous_const.min ((continuous_const.max (continuous_wt D m)).div_const _)
      exact (unit_avg hc (fun c => min_one_nonneg (le_max_left _ _) (vaMax_pos h)) (fun c => min_le_left _ _) 0 0).2
    · norm_num
  have hp := min_one_nonneg (mul_nonneg hk0 hl0) (psMax_pos h)
  unfold acc
  exact ⟨mul_nonneg hp ha.1, mul_le_one₀ (min_le_left _ _) ha.1 ha.2⟩

/-- What one pass adds. -/
noncomputable def gain (D : Masses) (G : ℝ → ℝ≥0∞) : ℝ≥0∞ := ∫⁻ u in Ico (0 : ℝ) 1, ENNReal.ofReal (acc D (D.draw u)) * G (D.draw u ^ 2)

theorem measurable_draw (D : Masses) : Measurable D.draw := by unfold Masses.draw; fun_prop

theorem gain_le (h : D.Possible) : gain D 1 ≤ 1 := by
  unfold gain
  calc ∫⁻ u in Ico (0 : ℝ) 1, ENNReal.ofReal (acc D (D.draw u)) * (1 : ℝ → ℝ≥0∞) (D.draw u ^ 2) ≤ ∫⁻ _ in Ico (0 : ℝ) 1, 1 := by
        refine setLIntegral_mono measurable_const fun u hu => ?_
        obtain ⟨m0, m1⟩ := draw_mem h hu
        rw [Pi.one_apply, mul_one]
        exact ENNReal.ofReal_le_one.mpr (acc_mem h m0 m1).2
    _ = 1 := by simp

theorem pass_split (h : D.Possible) {G : ℝ → ℝ≥0∞} (hG : Measurable G) (W : ℝ≥0∞) :
    (expectPass fun r => next G W (D.attempt r)) = gain D G + (1 - gain D 1) * W := by
  rw [pass_integral h]
  have hma : Measurable fun u => ENNReal.ofReal (acc D (D.draw u)) := ((measurable_acc D).comp (measurable_draw D)).ennreal_ofReal
  have hmb : Measurable fun u => ENNReal.ofReal (1 - acc D (D.draw u)) :=
    (measurable_const.sub ((measurable_acc D).comp (measurable_draw D))).ennreal_ofReal
  have hmg : Measurable fun u => G (D.draw u ^ 2) := hG.comp ((measurable_draw D).pow_const 2)
  have hmm : Measurable fun u => ENNReal.ofReal (acc D (D.draw u)) * G (D.draw u ^ 2) := hma.mul hmg
  rw [lintegral_add_left hmm, lintegral_mul_const _ hmb]
  congr 2
  have e : ∫⁻ u in Ico (0 : ℝ) 1, ENNReal.ofReal (1 - acc D (D.draw u)) =
      ∫⁻ u in Ico (0 : ℝ) 1, (1 - ENNReal.ofReal (acc D (D.draw u))) := by
    refine setLIntegral_congr_fun measurableSet_Ico fun u hu => ?_
    obtain ⟨m0, m1⟩ := draw_mem h hu
    rw [ENNReal.ofReal_sub _ (acc_mem h m0 m1).1, ENNReal.ofReal_one]
  have hg1 : gain D 1 = ∫⁻ u in Ico (0 : ℝ) 1, ENNReal.ofReal (acc D (D.draw u)) := by
    unfold gain; simp
  rw [e, lintegral_sub hma, ← hg1]
  · simp
  · rw [← hg1]; exact ne_top_of_le_ne_top ENNReal.one_ne_top (gain_le h)
  · refine (ae_restrict_mem measurableSet_Ico).mono fun u hu => ?_
    obtain ⟨m0, m1⟩ := draw_mem h hu
    exact ENNReal.ofReal_le_one.mpr (acc_mem h m0 m1).2

theorem expectPass_congr {F F' : Pass → ℝ≥0∞} (hF : ∀ r, F r = F' r) : expectPass F = expectPass F' := by
  have : F = F' := funext hF
  rw [this]

theorem expectPass_const (W : ℝ≥0∞) : (expectPass fun _ => W) = W := by
  unfold expectPass
  simp only [lintegral_unit]

theorem expect_const : ∀ (n : ℕ) (W : ℝ≥0∞), (expect n fun _ => W) = W
  | 0, W => rfl
  | n + 1, W => by
    show (expectPass fun r => expect n fun _ => W) = W
    simp only [expect_const n W, expectPass_const]

theorem within_succ (h : D.Possible) {G : ℝ → ℝ≥0∞} (hG : Measurable G) (n : ℕ) :
    (expect (n + 1) fun rs => score G (D.loop rs)) =
      gain D G + (1 - gain D 1) * expect n fun rs => score G (D.loop rs) := by
  rw [← pass_split h hG]
  show (expectPass fun r => expect n fun rs => score G (D.loop (r :: rs))) = _
  refine expectPass_congr fun r => ?_
  simp only [Masses.loop]
  cases hs : D.attempt r with
  | again => rfl
  | broken => exact expect_const n 0
  | accept t => exact expect_const n _

/-- The loops sample in proportion to what one pass gives. -/
theorem sampled_eq (h : D.Possible) {G : ℝ → ℝ≥0∞} (hG : Measurable G) : D.sampled G = gain D G / gain D 1 := by
  have hsum : ∀ n, (expect n fun rs => score G (D.loop rs)) = ∑ k ∈ Finset.range n, ((1 : ℝ≥0∞) - gain D 1) ^ k * gain D G := by
    intro n
    induction n with
    | zero => rfl
    | succ n ih =>
      rw [within_succ h hG, ih, Finset.sum_range_succ', pow_zero, one_mul, add_comm, Finset.mul_sum]
      congr 1
      exact Finset.sum_congr rfl fun k _ => by rw [pow_succ]; ring
  unfold Masses.sampled
  simp only [hsum]
  rw [← ENNReal.tsum_eq_iSup_nat, ENNReal.tsum_mul_right, ENNReal.tsum_geometric,
    ENNReal.sub_sub_cancel ENNReal.one_ne_top (gain_le h), mul_comm]
  rfl

/-! ### In terms of the reported density -/

/-- The closed form of the angular average is exact (see `C129_average`). -/
def Masses.Exact (D : Masses) : Prop := D.va = true → ∀ m, D.ml < m → m < D.top → D.vaAverage m = vaMean D m

theorem exact_of (h : D.Possible) (hx : ∀ m, D.ml < m → m < D.top → D.NoFallback m ∨ D.Ceiling) : D.Exact :=
  fun _ m h0 h1 => C129_average h h0 h1 (hx m h0 h1)

theorem density_eq (h : D.Possible) (hx : D.Exact) {m : ℝ} (h0 : D.ml < m) (h1 : m < D.top) :
    2 * m * D.density (m ^ 2) = D.psMax * D.meMax * acc D m := by
  have hl := h.lepton
  have hm : 0 < m := by linarith
  obtain ⟨-, hw, -, -, -, hk, hq⟩ := coefs_spec h h0 h1
  have hps := psMax_pos h
  unfold Masses.density
  rw [Real.sqrt_sq hm.le]
  simp only
  rw [if_neg (by push Not; exact ⟨h0, h1⟩), if_neg (by push Not; exact ⟨hk, hq⟩)]
  have e1 : (if D.kMom m * D.lMom m > D.psMax then D.psMax else D.kMom m * D.lMom m) =
      D.psMax * min 1 (D.kMom m * D.lMom m / D.psMax) := by
    split
    next hgt =>
      rw [min_eq_left ((one_le_div hps).mpr hgt.le), mul_one]
    next hgt =>
      rw [min_eq_right ((div_le_one hps).mpr (not_lt.mp hgt))]
      field_simp
  have e2 : (if D.va then D.vaAverage m else 1) = D.meMax * avg D m := by
    unfold Masses.meMax avg
    by_cases hva : D.va = true
    · rw [if_pos hva, if_pos hva, if_pos hva, hx hva m h0 h1]
      unfold vaMean
      have hM := vaMax_pos h
      have e : ∫ c in Ioc (-1 : ℝ) 1, min D.vaMax (wt D m c) =
          ∫ c in Ioc (-1 : ℝ) 1, D.vaMax * min 1 (max 0 (wt D m c) / D.vaMax) := by
        refine setIntegral_congr_fun measurableSet_Ioc fun c hc => ?_
        have := (wt_pos h h0 h1 hc.1.le hc.2).le
        simp only [max_eq_right this]
        rw [mul_min_of_nonneg _ _ hM.le, mul_one]
        congr 1
        field_simp
      rw [e, integral_const_mul]
      ring
    · rw [if_neg hva, if_neg hva, if_neg hva, one_mul]
  rw [e1, e2]
  unfold acc
  field_simp

theorem gain_density (h : D.Possible) (hx : D.Exact) (G : ℝ → ℝ≥0∞) :
    gain D G = ENNReal.ofReal (1 / ((D.top - D.ml) * (D.psMax * D.meMax))) *
      ∫⁻ q in Ioo (D.ml * D.ml) (D.top * D.top), ENNReal.ofReal (D.density q) * G q := by
  have hl := h.lepton
  have ht : D.ml < D.top := by unfold Masses.top; have := h.threshold; linarith
  have hps := psMax_pos h
  have hme := meMax_pos h
  have e0 : gain D G = ∫⁻ u in Ico (0 : ℝ) 1, (fun m => ENNReal.ofReal (acc D m) * G (m ^ 2)) ((D.top - D.ml) * u + D.ml) := by
    unfold gain
    refine lintegral_congr fun u => ?_
    have : D.draw u = (D.top - D.ml) * u + D.ml := by unfold Masses.draw; ring
    rw [this]
  have e1 : ∫⁻ q in Ioo (D.ml * D.ml) (D.top * D.top), ENNReal.ofReal (D.density q) * G q =
      ∫⁻ q in Ioo (D.ml * D.ml) (D.top * D.top),
        (fun m => ENNReal.ofReal (D.density (m ^ 2)) * G (m ^ 2)) (Real.sqrt q) := by
    refine setLIntegral_congr_fun measurableSet_Ioo fun q hq => ?_
    have : 0 ≤ q := le_trans (mul_self_nonneg _) hq.1.le
    simp only [Real.sq_sqrt this]
  rw [e0, Distributions.Space.affine_lintegral _ _ ht (fun m => ENNReal.ofReal (acc D m) * G (m ^ 2)), e1,
    Distributions.Space.sqrt_lintegral _ _ hl.le ht (fun m => ENNReal.ofReal (D.density (m ^ 2)) * G (m ^ 2))]
  have e2 : ∫⁻ m in Ioo D.ml D.top, ENNReal.ofReal (2 * m) * (ENNReal.ofReal (D.density (m ^ 2)) * G (m ^ 2)) =
      ENNReal.ofReal (D.psMax * D.meMax) * ∫⁻ m in Ioo D.ml D.top, ENNReal.ofReal (acc D m) * G (m ^ 2) := by
    rw [← lintegral_const_mul' _ _ ENNReal.ofReal_ne_top]
    refine setLIntegral_congr_fun measurableSet_Ioo fun m hm => ?_
    have hm0 : 0 ≤ 2 * m := by have := hm.1; linarith
    rw [← mul_assoc, ← ENNReal.ofReal_mul hm0, density_eq h hx hm.1 hm.2, ENNReal.ofReal_mul (by positivity), mul_assoc]
  rw [e2, ← mul_assoc, ← ENNReal.ofReal_mul (by have : 0 < D.top - D.ml := by linarith
                                                positivity)]
  congr 2
  have : 0 < D.top - D.ml := by linarith
  field_simp

theorem acc_pos (h : D.Possible) {m : ℝ} (h0 : D.ml < m) (h1 : m < D.top) : 0 < acc D m := by
  obtain ⟨-, hw, -, -, -, hk, hq⟩ := coefs_spec h h0 h1
  have hps := psMax_pos h
  unfold acc
  apply mul_pos (lt_min one_pos (by positivity))
  unfold avg
  split
  · have hM := vaMax_pos h
    have hc : Continuous fun c => min 1 (max 0 (wt D m c) / D.vaMax) :=
      continuous_const.min ((continuous_const.max (continuous_wt D m)).div_const _)
    have hpos : ∀ c ∈ Ioc (-1 : ℝ) 1, 0 < min 1 (max 0 (wt D m c) / D.vaMax) := fun c hc =>
      lt_min one_pos (div_pos (lt_max_of_lt_right (wt_pos h h0 h1 hc.1.le hc.2)) hM)
    have : 0 < ∫ c in Ioc (-1 : ℝ) 1, min 1 (max 0 (wt D m c) / D.vaMax) := by
      rw [setIntegral_pos_iff_support_of_nonneg_ae]
      · refine lt_of_lt_of_le ?_ (measure_mono (s := Ioc (-1 : ℝ) 1) fun c hc => ⟨(hpos c hc).ne', hc⟩)
        rw [Real.volume_Ioc]; norm_num
      · exact Filter.Eventually.of_forall fun c => min_one_nonneg (le_max_left _ _) hM
      · exact (hc.integrableOn_Icc).mono_set Ioc_subset_Icc_self
    positivity
  · norm_num

theorem gain_pos (h : D.Possible) : gain D 1 ≠ 0 := by
  have hma : Measurable fun u => ENNReal.ofReal (acc D (D.draw u)) := ((measurable_acc D).comp (measurable_draw D)).ennreal_ofReal
  have hg1 : gain D 1 = ∫⁻ u in Ico (0 : ℝ) 1, ENNReal.ofReal (acc D (D.draw u)) := by
    unfold gain; simp
  rw [hg1]
  have ht : 0 < D.top - D.ml := by unfold Masses.top; have := h.threshold; linarith
  apply (setLIntegral_pos_iff hma).mpr _ |>.ne'
  refine lt_of_lt_of_le ?_ (measure_mono (s := Ioo (0 : ℝ) 1) fun u hu => ⟨?_, hu.1.le, hu.2⟩)
  · rw [Real.volume_Ioo]; norm_num
  · obtain ⟨-, m1⟩ := draw_mem h ⟨hu.1.le, hu.2⟩
    have m0 : D.ml < D.draw u := by unfold Masses.draw; have := mul_pos hu.1 ht; linarith
    exact (ENNReal.ofReal_pos.mpr (acc_pos h m0 m1)).ne'

/-- C129, one hadron: the events of the loops are distributed with the reported density, normalised. -/
theorem C129_component (h : D.Possible) (hx : D.Exact) {G : ℝ → ℝ≥0∞} (hG : Measurable G) :
    D.sampled G = (∫⁻ q in Ioo (D.ml * D.ml) (D.top * D.top), ENNReal.ofReal (D.density q) * G q) /
      ∫⁻ q in Ioo (D.ml * D.ml) (D.top * D.top), ENNReal.ofReal (D.density q) := by
  rw [sampled_eq h hG, gain_density h hx G, gain_density h hx 1]
  have ht : 0 < D.top - D.ml := by unfold Masses.top; have := h.threshold; linarith
  have hps := psMax_pos h
  have hme := meMax_pos h
  simp only [Pi.one_apply, mul_one]
  exact ENNReal.mul_div_mul_left _ _ (ENNReal.ofReal_pos.mpr (by positivity)).ne' ENNReal.ofReal_ne_top

end Charm
end Siren
