import Verif.Interactions.Elastic
import Verif.Interactions.DisChain

set_option autoImplicit false

/-!
# What the Metropolis chain of the elastic cross section samples
-/

namespace Siren
namespace Elastic

open Rk Dis MeasureTheory ENNReal Set

/-! ### Specification -/

/-- A pass of the loop moves to what `next` gives for the point proposed and a number of the stream. -/
theorem step_next {C E : ℝ} {c c' : Chain} {rs rs' : List ℝ} (h : step C E c rs = some (c', rs')) :
    ∃ u v rs1, rs = u :: rs1 ∧ c' = next C E c (propose E u) v ∧ (rs1 = rs' ∨ rs1 = v :: rs') := by
  unfold step at h
  split at h
  · exact absurd h (by simp)
  next u rs1 =>
    simp only at h
    split at h
    · simp only [Option.some.injEq, Prod.mk.injEq] at h
      exact ⟨u, 0, rs1, rfl, h.1.symm, Or.inl h.2⟩
    · split at h
      · exact absurd h (by simp)
      next v rs2 =>
        simp only [Option.some.injEq, Prod.mk.injEq] at h
        exact ⟨u, v, _, rfl, h.1.symm, Or.inr (by rw [h.2])⟩

/-- The expected value of `g y` after one pass from `y`: the logarithm of the proposal is uniform between those of 1e-15 and
of the largest y, the number for the decision is uniform in `[0, 1]`. -/
noncomputable def after (C E : ℝ) (g : ℝ → ℝ≥0∞) (y : ℝ) : ℝ≥0∞ :=
  (volume (Icc (log10 1e-15) (log10 (yMax E))))⁻¹ * ∫⁻ l in Icc (log10 1e-15) (log10 (yMax E)), ∫⁻ v in Icc (0 : ℝ) 1,
    g (next C E ⟨y, dsdy C E y⟩ (pow10 l) v).y

/-! ### Lemmas -/

theorem dsdy_pos {t : ℤ} {C E y : ℝ} (hC : cll t = some C) (hE : 0 < E) (hy : 0 < y) (hyM : y ≤ yMax E) :
    0 < dsdy C E y := by
  have hm := me_pos
  have hy1 := yMax_lt_one hE
  have hunit : 0 < unit := by
    unfold unit
    have := Real.pi_pos
    positivity
  have hk0 : 0 < me * y / E := by positivity
  have hk : me * y / E ≤ 2 := by
    rw [div_le_iff₀ hE]
    unfold yMax at hyM
    rw [le_div_iff₀ (by positivity)] at hyM
    nlinarith
  have hs : 0 < unit * (2 * me * E + me * me) := by positivity
  unfold dsdy formula
  refine lt_of_lt_of_le (mul_pos hs ?_) (le_max_left _ _)
  have e : -C * clr * me * y / E = -C * clr * (me * y / E) := by ring
  rw [e]
  have h2 : 0 ≤ clr * clr * (1 - y) * (1 - y) := by
    have : clr * clr * (1 - y) * (1 - y) = (clr * (1 - y)) ^ 2 := by ring
    rw [this]; positivity
  unfold cll at hC
  split at hC
  · simp only [Option.some.injEq] at hC
    rw [← hC]
    have : -0.7276 * clr * (me * y / E) ≥ -0.7276 * clr * 2 := by
      norm_num [clr]; linarith
    norm_num [clr] at this h2 ⊢
    linarith
  · split at hC
    · simp only [Option.some.injEq] at hC
      rw [← hC]
      have : 0 ≤ - -0.2730 * clr * (me * y / E) := by norm_num [clr]; linarith
      norm_num [clr] at this h2 ⊢
      linarith
    · exact absurd hC (by simp)

theorem lintegral_Icc_pow10 {a b : ℝ} (ha : 0 < a) (hb : 0 < b) (g : ℝ → ℝ≥0∞) :
    ∫⁻ y in Icc a b, g y =
      ENNReal.ofReal (Real.log 10) * ∫⁻ l in Icc (log10 a) (log10 b), ENNReal.ofReal (pow10 l) * g (pow10 l) := by
  have himg : pow10 '' Icc (log10 a) (log10 b) = Icc a b := by
    ext x
    simp only [mem_image, mem_Icc]
    constructor
    · rintro ⟨l, ⟨h1, h2⟩, rfl⟩
      constructor
      · calc a = pow10 (log10 a) := (pow10_log10 ha).symm
          _ ≤ pow10 l := Real.rpow_le_rpow_of_exponent_le (by norm_num) h1
      · calc pow10 l ≤ pow10 (log10 b) := Real.rpow_le_rpow_of_exponent_le (by norm_num) h2
          _ = b := pow10_log10 hb
    · rintro ⟨h1, h2⟩
      have hx : 0 < x := by linarith
      exact ⟨log10 x, ⟨Real.logb_le_logb_of_le (by norm_num) ha h1, Real.logb_le_logb_of_le (by norm_num) hx h2⟩,
        pow10_log10 hx⟩
  have h := lintegral_image_eq_lintegral_abs_deriv_mul (s := Icc (log10 a) (log10 b)) (f := pow10)
    (f' := fun a => pow10 a * Real.log 10) measurableSet_Icc
    (fun a _ => (Metropolis.hasDerivAt_pow10 a).hasDerivWithinAt) (Metropolis.pow10_injective.injOn) g
  rw [himg] at h
  rw [h, ← lintegral_const_mul' _ _ ENNReal.ofReal_ne_top]
  refine lintegral_congr fun l => ?_
  have hp := pow10_pos l
  have hl : 0 < Real.log 10 := Real.log_pos (by norm_num)
  rw [abs_of_pos (mul_pos hp hl), mul_comm (pow10 l), ENNReal.ofReal_mul hl.le, mul_assoc]

theorem measurable_dsdy (C E : ℝ) : Measurable (dsdy C E) := by
  unfold dsdy formula
  fun_prop

/-- The situation of both theorems: a supported primary at an energy where the interval of the proposals is not empty. -/
structure Setup (t : ℤ) (C E : ℝ) : Prop where
  cll : cll t = some C
  energy : 0 < E
  range : 1e-15 < yMax E

variable {t : ℤ} {C E : ℝ}

/-- The interval of the proposals. -/
def logs (E : ℝ) : Set ℝ := Icc (log10 1e-15) (log10 (yMax E))

theorem mem_logs (h : Setup t C E) {l : ℝ} (hl : l ∈ logs E) : 1e-15 ≤ pow10 l ∧ pow10 l ≤ yMax E := by
  obtain ⟨h1, h2⟩ := hl
  constructor
  · calc (1e-15 : ℝ) = pow10 (log10 1e-15) := (pow10_log10 (by norm_num)).symm
      _ ≤ pow10 l := Real.rpow_le_rpow_of_exponent_le (by norm_num) h1
  · calc pow10 l ≤ pow10 (log10 (yMax E)) := Real.rpow_le_rpow_of_exponent_le (by norm_num) h2
      _ = yMax E := pow10_log10 (yMax_pos h.energy)

theorem weight_pos (h : Setup t C E) {l : ℝ} (hl : l ∈ logs E) : 0 < dsdy C E (pow10 l) :=
  dsdy_pos h.cll h.energy (pow10_pos l) (mem_logs h hl).2

theorem volume_logs (h : Setup t C E) : volume (logs E) ≠ 0 ∧ volume (logs E) ≠ ∞ := by
  unfold logs
  rw [Real.volume_Icc]
  refine ⟨?_, ENNReal.ofReal_ne_top⟩
  have : log10 1e-15 < log10 (yMax E) := Real.logb_lt_logb (by norm_num) (by norm_num) h.range
  exact (ENNReal.ofReal_pos.mpr (by linarith)).ne'

open Classical in
/-- The weight, one outside the interval (where the chain never is). -/
noncomputable def dens (C E : ℝ) (l : ℝ) : ℝ≥0∞ := if l ∈ logs E then ENNReal.ofReal (dsdy C E (pow10 l)) else 1

/-- The probability of a move. -/
noncomputable def prob (C E : ℝ) (s z : ℝ) : ℝ≥0∞ := min (dens C E s) (dens C E z) / dens C E s

theorem dens_ne_top (C E l : ℝ) : dens C E l ≠ ∞ := by
  unfold dens; split
  · exact ENNReal.ofReal_ne_top
  · exact ENNReal.one_ne_top

theorem dens_ne_zero (h : Setup t C E) (l : ℝ) : dens C E l ≠ 0 := by
  unfold dens; split
  next hl => exact (ENNReal.ofReal_pos.mpr (weight_pos h hl)).ne'
  · exact one_ne_zero

theorem dens_measurable (C E : ℝ) : Measurable (dens C E) := by
  unfold dens
  exact Measurable.ite measurableSet_Icc
    (ENNReal.measurable_ofReal.comp ((measurable_dsdy C E).comp measurable_pow10)) measurable_const

theorem prob_balance (h : Setup t C E) (s z : ℝ) : dens C E s * prob C E s z = min (dens C E s) (dens C E z) :=
  ENNReal.mul_div_cancel (dens_ne_zero h s) (dens_ne_top C E s)

/-- The law of the proposals. -/
noncomputable def law (E : ℝ) : Measure ℝ := (volume (logs E))⁻¹ • volume.restrict (logs E)

theorem law_prob (h : Setup t C E) : IsProbabilityMeasure (law E) := by
  constructor
  unfold law
  simp only [Measure.smul_apply, Measure.restrict_apply_univ, smul_eq_mul]
  exact ENNReal.inv_mul_cancel (volume_logs h).1 (volume_logs h).2

theorem after_eq (h : Setup t C E) (g : ℝ → ℝ≥0∞) {s : ℝ} (hs : s ∈ logs E) :
    after C E g (pow10 s) =
      ∫⁻ z, (prob C E s z * g (pow10 z) + (1 - prob C E s z) * g (pow10 s)) ∂(law E) := by
  unfold after law
  rw [lintegral_smul_measure, smul_eq_mul]
  congr 1
  apply lintegral_congr_ae
  filter_upwards [ae_restrict_mem measurableSet_Icc] with z hz
  have hz : z ∈ logs E := hz
  have hws := weight_pos h hs
  have hwz := weight_pos h hz
  have hn : ∀ v, g (next C E ⟨pow10 s, dsdy C E (pow10 s)⟩ (pow10 z) v).y =
      (open Classical in if accepts (dsdy C E (pow10 s)) (dsdy C E (pow10 z)) v then g (pow10 z) else g (pow10 s)) := by
    intro v
    unfold next
    rw [if_neg (not_le.mpr hwz)]
    simp only
    split <;> rfl
  simp only [hn]
  rw [Metropolis.decision hws.le hwz.le]
  have hb := Metropolis.balance (w' := dsdy C E (pow10 z)) hws.le
  have hds : dens C E s = ENNReal.ofReal (dsdy C E (pow10 s)) := by unfold dens; rw [if_pos hs]
  have hdz : dens C E z = ENNReal.ofReal (dsdy C E (pow10 z)) := by unfold dens; rw [if_pos hz]
  have : (if dsdy C E (pow10 s) = 0 then 1 else ENNReal.ofReal (min 1 (dsdy C E (pow10 z) / dsdy C E (pow10 s)))) =
      prob C E s z := by
    unfold prob
    rw [hds, hdz, ENNReal.eq_div_iff (by rw [← hds]; exact dens_ne_zero h s) ENNReal.ofReal_ne_top]
    exact hb
  rw [this]

theorem over_law (h : Setup t C E) (k : ℝ → ℝ≥0∞) :
    ∫⁻ l in logs E, k l = volume (logs E) * ∫⁻ l, k l ∂(law E) := by
  unfold law
  rw [lintegral_smul_measure, smul_eq_mul, ← mul_assoc, ENNReal.mul_inv_cancel (volume_logs h).1 (volume_logs h).2, one_mul]

theorem ae_logs (E : ℝ) : ∀ᵐ l ∂(law E), l ∈ logs E := by
  unfold law
  apply Measure.ae_smul_measure
  exact ae_restrict_mem measurableSet_Icc

/-! ### The claims -/

/-- C80, what is sampled instead of the reported density: one pass of the loop leaves unchanged the distribution with density `DifferentialCrossSection(y)`
divided by y on the interval of the proposals. -/
theorem C80_stationary_partial (h : Setup t C E) {g : ℝ → ℝ≥0∞} (hg : Measurable g) :
    ∫⁻ y in Icc 1e-15 (yMax E), ENNReal.ofReal (dsdy C E y / y) * after C E g y =
      ∫⁻ y in Icc 1e-15 (yMax E), ENNReal.ofReal (dsdy C E y / y) * g y := by
  have := law_prob h
  have hY := yMax_pos h.energy
  rw [lintegral_Icc_pow10 (by norm_num) hY, lintegral_Icc_pow10 (by norm_num) hY]
  congr 1
  have hl : Icc (log10 1e-15) (log10 (yMax E)) = logs E := rfl
  rw [hl, over_law h, over_law h]
  congr 1
  have hJ : ∀ l ∈ logs E, ∀ c : ℝ≥0∞, ENNReal.ofReal (pow10 l) * (ENNReal.ofReal (dsdy C E (pow10 l) / pow10 l) * c) =
      dens C E l * c := by
    intro l hl c
    have hp := pow10_pos l
    unfold dens
    rw [if_pos hl, ← mul_assoc, ← ENNReal.ofReal_mul hp.le, mul_div_cancel₀ _ hp.ne']
  have hinv := Metropolis.invariant (law E) (dens_measurable C E) (dens_ne_top C E) (prob_balance h)
    (hg.comp measurable_pow10)
  rw [lintegral_congr_ae (g := fun l => dens C E l * ∫⁻ z, (prob C E l z * (g ∘ pow10) z +
      (1 - prob C E l z) * (g ∘ pow10) l) ∂(law E)),
    lintegral_congr_ae (f := fun l => ENNReal.ofReal (pow10 l) * (ENNReal.ofReal (dsdy C E (pow10 l) / pow10 l) * g (pow10 l)))
      (g := fun l => dens C E l * (g ∘ pow10) l)]
  · exact hinv
  · filter_upwards [ae_logs E] with l hl
    exact hJ l hl _
  · filter_upwards [ae_logs E] with l hl
    rw [hJ l hl, after_eq h g hl]
    rfl

/-- C80 fails for the density: started from the distribution with the reported density `DifferentialCrossSection(y)`, one
pass of the loop lowers the share of events above any y between the limits. (The commented-out line of the loop, with the
factors y, would leave the reported density unchanged.) -/
theorem C80_density_fails (h : Setup t C E) {c : ℝ} (hc : 1e-15 < c) (hcM : c < yMax E) :
    ∫⁻ y in Icc 1e-15 (yMax E), ENNReal.ofReal (dsdy C E y) * after C E ((Ioi c).indicator 1) y <
      ∫⁻ y in Icc 1e-15 (yMax E), ENNReal.ofReal (dsdy C E y) * (Ioi c).indicator 1 y := by
  have := law_prob h
  have hY := yMax_pos h.energy
  have hc0 : 0 < c := by linarith
  rw [lintegral_Icc_pow10 (by norm_num) hY, lintegral_Icc_pow10 (by norm_num) hY]
  have hl : Icc (log10 1e-15) (log10 (yMax E)) = logs E := rfl
  rw [hl, over_law h, over_law h]
  set B : Set ℝ := Ioi (log10 c) with hB
  have hind : ∀ l, (Ioi c).indicator (1 : ℝ → ℝ≥0∞) (pow10 l) = B.indicator 1 l := by
    intro l
    have : pow10 l ∈ Ioi c ↔ l ∈ B := by
      simp only [mem_Ioi, hB]
      constructor
      · intro hl
        have := Real.logb_lt_logb (b := 10) (by norm_num) hc0 hl
        rwa [show Real.logb 10 (pow10 l) = l from log10_pow10 l] at this
      · intro hl
        calc c = pow10 (log10 c) := (pow10_log10 hc0).symm
          _ < pow10 l := Real.rpow_lt_rpow_of_exponent_lt (by norm_num) hl
    by_cases hl : l ∈ B
    · rw [Set.indicator_of_mem hl, Set.indicator_of_mem (this.mpr hl)]; rfl
    · rw [Set.indicator_of_notMem hl, Set.indicator_of_notMem (fun h' => hl (this.mp h'))]
  have hdens : ∀ l ∈ logs E, ENNReal.ofReal (dsdy C E (pow10 l)) = dens C E l := by
    intro l hl; unfold dens; rw [if_pos hl]
  rw [lintegral_congr_ae (g := fun l => ENNReal.ofReal (pow10 l) * (dens C E l * ∫⁻ z, (prob C E l z * B.indicator 1 z +
      (1 - prob C E l z) * B.indicator 1 l) ∂(law E))),
    lintegral_congr_ae (f := fun l => ENNReal.ofReal (pow10 l) * (ENNReal.ofReal (dsdy C E (pow10 l)) *
      (Ioi c).indicator 1 (pow10 l))) (g := fun l => ENNReal.ofReal (pow10 l) * (dens C E l * B.indicator 1 l))]
  · have hlog : 0 < Real.log 10 := Real.log_pos (by norm_num)
    have hl0 : ENNReal.ofReal (Real.log 10) ≠ 0 := (ENNReal.ofReal_pos.mpr hlog).ne'
    have hlc1 : log10 1e-15 < log10 c := Real.logb_lt_logb (by norm_num) (by norm_num) hc
    have hlc2 : log10 c < log10 (yMax E) := Real.logb_lt_logb (by norm_num) hc0 hcM
    refine ENNReal.mul_lt_mul_right hl0 ENNReal.ofReal_ne_top (ENNReal.mul_lt_mul_right (volume_logs h).1 (volume_logs h).2 ?_)
    refine Metropolis.drains (law E) (dens_measurable C E) (ENNReal.measurable_ofReal.comp measurable_pow10)
      (dens_ne_top C E) (prob_balance h) measurableSet_Ioi (c := ENNReal.ofReal c) ENNReal.ofReal_ne_top ?_ ?_ ?_
      (dens_ne_zero h) ?_ ?_
    · intro s hs
      show ENNReal.ofReal c < ENNReal.ofReal (pow10 s)
      rw [ENNReal.ofReal_lt_ofReal_iff (pow10_pos s)]
      calc c = pow10 (log10 c) := (pow10_log10 hc0).symm
        _ < pow10 s := Real.rpow_lt_rpow_of_exponent_lt (by norm_num) hs
    · intro s hs
      show ENNReal.ofReal (pow10 s) ≤ ENNReal.ofReal c
      apply ENNReal.ofReal_le_ofReal
      calc pow10 s ≤ pow10 (log10 c) := Real.rpow_le_rpow_of_exponent_le (by norm_num) (not_lt.mp hs)
        _ = c := pow10_log10 hc0
    · -- bounded on the interval
      have hbound : ∀ l ∈ logs E, ENNReal.ofReal (pow10 l) * dens C E l ≤
          ENNReal.ofReal (unit * (2 * me * E + me * me) * (C * C + clr * clr + |C| * clr * (me / E))) := by
        intro l hl
        have hp := pow10_pos l
        have hM := (mem_logs h hl).2
        have hy1 := yMax_lt_one h.energy
        have hE := h.energy
        have hm := me_pos
        have hclr : 0 < clr := by norm_num [clr]
        rw [← hdens l hl, ← ENNReal.ofReal_mul hp.le]
        apply ENNReal.ofReal_le_ofReal
        have hunit : 0 < unit := by
          unfold unit
          have := Real.pi_pos
          positivity
        have hs : 0 < unit * (2 * me * E + me * me) := by positivity
        have hd : dsdy C E (pow10 l) ≤ unit * (2 * me * E + me * me) * (C * C + clr * clr + |C| * clr * (me / E)) := by
          unfold dsdy formula
          apply max_le
          · apply mul_le_mul_of_nonneg_left _ hs.le
            have h1 : clr * clr * (1 - pow10 l) * (1 - pow10 l) ≤ clr * clr := by
              have : (1 - pow10 l) * (1 - pow10 l) ≤ 1 := by nlinarith
              nlinarith [mul_pos hclr hclr]
            have h2 : -C * clr * me * pow10 l / E ≤ |C| * clr * (me / E) := by
              have e : -C * clr * me * pow10 l / E = (-C) * (clr * (me / E) * pow10 l) := by ring
              rw [e]
              have hk : 0 ≤ clr * (me / E) * pow10 l := by positivity
              have hk1 : clr * (me / E) * pow10 l ≤ clr * (me / E) := by
                have : 0 ≤ clr * (me / E) := by positivity
                nlinarith
              calc (-C) * (clr * (me / E) * pow10 l) ≤ |C| * (clr * (me / E) * pow10 l) :=
                    mul_le_mul_of_nonneg_right (neg_le_abs C) hk
                _ ≤ |C| * (clr * (me / E)) := mul_le_mul_of_nonneg_left hk1 (abs_nonneg C)
                _ = |C| * clr * (me / E) := by ring
            linarith
          · have : 0 ≤ C * C + clr * clr + |C| * clr * (me / E) := by
              have := mul_self_nonneg C; have := abs_nonneg C; positivity
            positivity
        have hd0 : 0 ≤ dsdy C E (pow10 l) := le_max_right _ _
        nlinarith
      refine ne_top_of_le_ne_top ?_ (lintegral_mono_ae (g := fun _ => ENNReal.ofReal
        (unit * (2 * me * E + me * me) * (C * C + clr * clr + |C| * clr * (me / E)))) ?_)
      · rw [lintegral_const, measure_univ, mul_one]; exact ENNReal.ofReal_ne_top
      · filter_upwards [ae_logs E] with l hl
        exact hbound l hl
    · unfold law
      rw [Measure.smul_apply, smul_eq_mul]
      refine mul_ne_zero (ENNReal.inv_ne_zero.mpr (volume_logs h).2) ?_
      rw [Measure.restrict_apply measurableSet_Ioi]
      have hsub : Ioc (log10 c) (log10 (yMax E)) ⊆ B ∩ logs E := by
        rintro l ⟨h1, h2⟩
        exact ⟨h1, ⟨(hlc1.trans h1).le, h2⟩⟩
      refine (lt_of_lt_of_le ?_ (measure_mono hsub)).ne'
      rw [Real.volume_Ioc]
      exact ENNReal.ofReal_pos.mpr (by linarith)
    · unfold law
      rw [Measure.smul_apply, smul_eq_mul]
      refine mul_ne_zero (ENNReal.inv_ne_zero.mpr (volume_logs h).2) ?_
      rw [Measure.restrict_apply measurableSet_Ioi.compl]
      have hsub : Icc (log10 1e-15) (log10 c) ⊆ Bᶜ ∩ logs E := by
        rintro l ⟨h1, h2⟩
        exact ⟨not_lt.mpr h2, ⟨h1, h2.trans hlc2.le⟩⟩
      refine (lt_of_lt_of_le ?_ (measure_mono hsub)).ne'
      rw [Real.volume_Icc]
      exact ENNReal.ofReal_pos.mpr (by linarith)
  · filter_upwards [ae_logs E] with l hl
    rw [hdens l hl, hind]
  · filter_upwards [ae_logs E] with l hl
    rw [hdens l hl, after_eq h _ hl]
    simp only [hind]

/-- The hypotheses are met: electron neutrinos of energy one. -/
example : Setup 12 0.7276 1 ∧ 1e-15 < (1 / 2 : ℝ) ∧ (1 / 2 : ℝ) < yMax 1 := by
  refine ⟨⟨by simp [cll], by norm_num, ?_⟩, by norm_num, ?_⟩ <;> norm_num [yMax, me, electronMass]

/-! ### A completed event -/

theorem all_zero_run {C : ℝ} (hw : 0 < dsdy C 50 1e-15) (hp : propose 50 0 = 1e-15) : ∀ (n : Nat) (y0 : ℝ) (rs : List ℝ),
    run C 50 (n + 1) ⟨y0, dsdy C 50 1e-15⟩ (List.replicate (2 * (n + 1)) 0 ++ rs) =
      some (⟨1e-15, dsdy C 50 1e-15⟩, rs) := by
  have hstep : ∀ (y0 : ℝ) (rs : List ℝ), step C 50 ⟨y0, dsdy C 50 1e-15⟩ (0 :: 0 :: rs) =
      some (⟨1e-15, dsdy C 50 1e-15⟩, rs) := by
    intro y0 rs
    unfold step
    simp only [hp]
    rw [if_neg (by
      rintro (h1 | h1 | h1)
      · linarith
      · linarith
      · rw [div_self hw.ne'] at h1; exact absurd h1 (lt_irrefl _))]
    have hacc : accepts (dsdy C 50 1e-15) (dsdy C 50 1e-15) 0 := by
      refine Or.inr (Or.inr ?_)
      rw [div_self hw.ne']; unfold uniform; rw [if_neg (by norm_num)]; norm_num
    simp only [next]
    rw [if_neg (not_le.mpr hw), if_pos hacc]
  intro n
  induction n with
  | zero =>
    intro y0 rs
    unfold run
    rw [show List.replicate (2 * (0 + 1)) (0 : ℝ) ++ rs = 0 :: 0 :: rs from rfl, hstep]
    rfl
  | succ n ih =>
    intro y0 rs
    unfold run
    rw [show List.replicate (2 * (n + 1 + 1)) (0 : ℝ) ++ rs = 0 :: 0 :: (List.replicate (2 * (n + 1)) 0 ++ rs) by
      rw [show 2 * (n + 1 + 1) = 2 * (n + 1) + 1 + 1 by ring]; simp [List.replicate_succ], hstep]
    exact ih _ rs

/-- The hypotheses of `C79_electron` and the theorems after it are met, and the sampling completes: an electron neutrino of
energy 50 along the z axis. -/
example : ∃ r : Record, ∃ rs s0 s1 x y, r.p ≠ 0 ∧ Apart ⟨1, 0, 0⟩ (direction r.p) ∧ r.energy = r.p.norm ∧ r.mass = 0 ∧
    r.targetMass = me ∧ (r.t0 = 12 ∧ r.t1 = 11) ∧ sample 12 r rs = .done s0 s1 x y := by
  have hA : Apart ⟨1, 0, 0⟩ (direction beam.p) := by
    show Apart ⟨1, 0, 0⟩ (direction ⟨0, 0, 50⟩)
    rw [beam_direction]
    constructor <;> intro h <;> exfalso <;> simp [Vec3.dot] at h <;> norm_num at h
  have hp : beam.p ≠ 0 := by
    intro h
    have : (50 : ℝ) = 0 := congrArg Vec3.z h
    norm_num at this
  have hn : beam.p.norm = 50 := beam_norm
  have hC : cll 12 = some 0.7276 := by simp [cll]
  have hM : (1e-15 : ℝ) + 1e-16 ≤ yMax 50 := by norm_num [yMax, me, electronMass]
  have hw : 0 < dsdy 0.7276 50 1e-15 := dsdy_pos hC (by norm_num) (by norm_num) (by norm_num [yMax, me, electronMass])
  have hpr : propose 50 0 = 1e-15 := by
    unfold propose uniform
    have : log10 1e-15 < log10 (yMax 50) := Real.logb_lt_logb (by norm_num) (by norm_num) (by
      norm_num [yMax, me, electronMass])
    rw [if_neg (not_lt.mpr this.le), mul_zero, zero_add, pow10_log10 (by norm_num)]
  obtain ⟨el, hel, -⟩ := (electron_spec hp hA (uniform 0 (2 * Real.pi) 0) (y := 1e-15 + 1e-16) (by norm_num)).1
    (by rw [hn]; exact hM)
  rw [hn] at hel
  refine ⟨{ beam with t0 := 12, t1 := 11, targetMass := me }, 0 :: (List.replicate (2 * (40 + 1)) 0 ++ [0]),
    ⟨(P4.ofMass beam.p beam.mass).e, beam.p, 0⟩, el, 0, 1e-15 + 1e-16, hp, hA, hn.symm, rfl, rfl, ⟨rfl, rfl⟩, ?_⟩
  unfold sample
  simp only [hC]
  rw [show beam.energy = 50 from rfl, hpr, all_zero_run hw hpr 40 0 [0]]
  simp only [hel]
  rw [if_pos (by simp [nuFirst])]
  rfl

end Elastic
end Siren
