import Verif.Interactions.ElasticChain

set_option autoImplicit false

/-!
# Metropolis chains with proposals uniform in the logarithm

The common part of `HNLDipoleFromTable::SampleFinalState` and `DarkNewsCrossSection::SampleFinalState`.
-/

namespace Siren
namespace LogChain

open Rk Dis MeasureTheory ENNReal Set

/-! ### Specification -/

/-- Limits of the proposals, weight, and the points a pass may move to. -/
structure Walk where
  lo : ℝ
  hi : ℝ
  w : ℝ → ℝ
  ok : ℝ → Prop

open Classical in
/-- The expected value of `g` after one pass from `q`: the logarithm of the proposal is uniform between those of the limits, the
number for the decision is uniform in `[0, 1]`; a proposal that is accepted and allowed is moved to. -/
noncomputable def Walk.after (S : Walk) (g : ℝ → ℝ≥0∞) (q : ℝ) : ℝ≥0∞ :=
  (volume (Icc (log10 S.lo) (log10 S.hi)))⁻¹ * ∫⁻ l in Icc (log10 S.lo) (log10 S.hi), ∫⁻ v in Icc (0 : ℝ) 1,
    if accepts (S.w q) (S.w (pow10 l)) v ∧ S.ok (pow10 l) then g (pow10 l) else g q

/-- Limits that are not empty, a weight that is not negative where a pass may move to. -/
structure Walk.Good (S : Walk) : Prop where
  low : 0 < S.lo
  range : S.lo < S.hi
  measurable : Measurable S.w
  allowed : MeasurableSet {q | S.ok q}
  nonneg : ∀ q, S.ok q → 0 ≤ S.w q

namespace Walk

/-! ### Lemmas -/

variable {S : Walk}

/-- The interval of the proposals. -/
def logs (S : Walk) : Set ℝ := Icc (log10 S.lo) (log10 S.hi)

theorem Good.high (h : S.Good) : 0 < S.hi := h.low.trans h.range

theorem mem_logs (h : S.Good) {l : ℝ} (hl : l ∈ S.logs) : S.lo ≤ pow10 l ∧ pow10 l ≤ S.hi := by
  obtain ⟨h1, h2⟩ := hl
  constructor
  · calc S.lo = pow10 (log10 S.lo) := (pow10_log10 h.low).symm
      _ ≤ pow10 l := Real.rpow_le_rpow_of_exponent_le (by norm_num) h1
  · calc pow10 l ≤ pow10 (log10 S.hi) := Real.rpow_le_rpow_of_exponent_le (by norm_num) h2
      _ = S.hi := pow10_log10 h.high

theorem volume_logs (h : S.Good) : volume S.logs ≠ 0 ∧ volume S.logs ≠ ∞ := by
  unfold logs
  rw [Real.volume_Icc]
  refine ⟨?_, ENNReal.ofReal_ne_top⟩
  have : log10 S.lo < log10 S.hi := Real.logb_lt_logb (by norm_num) h.low h.range
  exact (ENNReal.ofReal_pos.mpr (by linarith)).ne'

open Classical in
/-- The weight: zero where the point is not physical. -/
noncomputable def dens (S : Walk) (l : ℝ) : ℝ≥0∞ := if S.ok (pow10 l) then ENNReal.ofReal (S.w (pow10 l)) else 0

open Classical in
/-- The probability of a move. -/
noncomputable def prob (S : Walk) (s z : ℝ) : ℝ≥0∞ :=
  if S.ok (pow10 z) then
    (if S.w (pow10 s) = 0 then 1 else ENNReal.ofReal (min 1 (S.w (pow10 z) / S.w (pow10 s))))
  else 0

theorem dens_ne_top (S : Walk) (l : ℝ) : S.dens l ≠ ∞ := by
  unfold dens; split
  · exact ENNReal.ofReal_ne_top
  · exact ENNReal.zero_ne_top

theorem dens_measurable (h : S.Good) : Measurable S.dens := by
  classical
  unfold dens
  exact Measurable.ite (measurable_pow10 h.allowed)
    (ENNReal.measurable_ofReal.comp (h.measurable.comp measurable_pow10)) measurable_const

theorem prob_balance (h : S.Good) (s z : ℝ) : S.dens s * S.prob s z = min (S.dens s) (S.dens z) := by
  unfold dens prob
  by_cases hs : S.ok (pow10 s)
  · rw [if_pos hs]
    by_cases hz : S.ok (pow10 z)
    · rw [if_pos hz, if_pos hz]
      exact Metropolis.balance (h.nonneg _ hs)
    · rw [if_neg hz, if_neg hz]; simp
  · rw [if_neg hs]; simp

/-- The law of the proposals. -/
noncomputable def law (S : Walk) : Measure ℝ := (volume S.logs)⁻¹ • volume.restrict S.logs

theorem law_prob (h : S.Good) : IsProbabilityMeasure S.law := by
  constructor
  unfold law
  simp only [Measure.smul_apply, Measure.restrict_apply_univ, smul_eq_mul]
  exact ENNReal.inv_mul_cancel (volume_logs h).1 (volume_logs h).2

theorem after_eq (h : S.Good) (g : ℝ → ℝ≥0∞) {s : ℝ} (hs : S.ok (pow10 s)) :
    S.after g (pow10 s) = ∫⁻ z, (S.prob s z * g (pow10 z) + (1 - S.prob s z) * g (pow10 s)) ∂S.law := by
  classical
  unfold after law
  rw [lintegral_smul_measure, smul_eq_mul]
  congr 1
  refine lintegral_congr fun z => ?_
  by_cases hz : S.ok (pow10 z)
  · have hn : ∀ v, (if accepts (S.w (pow10 s)) (S.w (pow10 z)) v ∧ S.ok (pow10 z) then g (pow10 z) else g (pow10 s)) =
        (if accepts (S.w (pow10 s)) (S.w (pow10 z)) v then g (pow10 z) else g (pow10 s)) := by
      intro v
      simp only [hz, and_true]
    simp only [hn]
    rw [Metropolis.decision (h.nonneg _ hs) (h.nonneg _ hz)]
    unfold prob
    rw [if_pos hz]
  · simp only [hz, and_false, if_false]
    unfold prob
    rw [if_neg hz]
    simp

theorem over_law (h : S.Good) (k : ℝ → ℝ≥0∞) : ∫⁻ l in S.logs, k l = volume S.logs * ∫⁻ l, k l ∂S.law := by
  unfold law
  rw [lintegral_smul_measure, smul_eq_mul, ← mul_assoc, ENNReal.mul_inv_cancel (volume_logs h).1 (volume_logs h).2, one_mul]

theorem ae_logs (S : Walk) : ∀ᵐ l ∂S.law, l ∈ S.logs := by
  unfold law
  apply Measure.ae_smul_measure
  exact ae_restrict_mem measurableSet_Icc

/-! ### The claims -/

open Classical in
/-- One pass of the loop leaves unchanged the distribution with density
`w q / q` on the points allowed between the limits. -/
theorem Good.stationary (h : S.Good) {g : ℝ → ℝ≥0∞} (hg : Measurable g) :
    ∫⁻ q in Icc S.lo S.hi, (if S.ok q then ENNReal.ofReal (S.w q / q) * S.after g q else 0) =
      ∫⁻ q in Icc S.lo S.hi, (if S.ok q then ENNReal.ofReal (S.w q / q) * g q else 0) := by
  have := law_prob h
  rw [Elastic.lintegral_Icc_pow10 h.low h.high, Elastic.lintegral_Icc_pow10 h.low h.high]
  congr 1
  have hl : Icc (log10 S.lo) (log10 S.hi) = S.logs := rfl
  rw [hl, over_law h, over_law h]
  congr 1
  have hJ : ∀ l, ∀ c : ℝ≥0∞, ENNReal.ofReal (pow10 l) * (if S.ok (pow10 l) then
      ENNReal.ofReal (S.w (pow10 l) / pow10 l) * c else 0) = S.dens l * c := by
    intro l c
    have hp := pow10_pos l
    unfold dens
    split
    · rw [← mul_assoc, ← ENNReal.ofReal_mul hp.le, mul_div_cancel₀ _ hp.ne']
    · simp
  have hinv := Metropolis.invariant S.law (dens_measurable h) (dens_ne_top S) (prob_balance h) (hg.comp measurable_pow10)
  simp only [hJ]
  rw [lintegral_congr (g := fun l => S.dens l * ∫⁻ z, (S.prob l z * (g ∘ pow10) z +
    (1 - S.prob l z) * (g ∘ pow10) l) ∂S.law)]
  · exact hinv
  · intro l
    by_cases hl : S.ok (pow10 l)
    · rw [after_eq h g hl]; rfl
    · have : S.dens l = 0 := by unfold dens; rw [if_neg hl]
      rw [this, zero_mul, zero_mul]

/-- Where every point between the limits is allowed, one pass of the loop started from the
distribution with density `w` lowers the share above any point between the
limits. -/
theorem Good.drains (h : S.Good) (hok : ∀ q ∈ Icc S.lo S.hi, S.ok q)
    (hpos : ∀ q ∈ Icc S.lo S.hi, 0 < S.w q) {M : ℝ} (hM : ∀ q ∈ Icc S.lo S.hi, S.w q ≤ M)
    {c : ℝ} (hc : S.lo < c) (hcM : c < S.hi) :
    ∫⁻ q in Icc S.lo S.hi, ENNReal.ofReal (S.w q) * S.after ((Ioi c).indicator 1) q <
      ∫⁻ q in Icc S.lo S.hi, ENNReal.ofReal (S.w q) * (Ioi c).indicator 1 q := by
  classical
  have := law_prob h
  have hc0 : 0 < c := h.low.trans hc
  rw [Elastic.lintegral_Icc_pow10 h.low h.high, Elastic.lintegral_Icc_pow10 h.low h.high]
  have hl : Icc (log10 S.lo) (log10 S.hi) = S.logs := rfl
  rw [hl, over_law h, over_law h]
  set B : Set ℝ := Ioi (log10 c) with hB
  have hind : ∀ l, (Ioi c).indicator (1 : ℝ → ℝ≥0∞) (pow10 l) = B.indicator 1 l := by
    intro l
    have : pow10 l ∈ Ioi c ↔ l ∈ B := by
      simp only [mem_Ioi, hB]
      constructor
      · intro hl
        have := Real.logb_lt_logb (b := 10) (by norm_num) hc0 hl
        rwa [show Real.logb 10 (pow10 l) = l from log10_pow10 l] at this
      · intro hl
        calc c = pow10 (log10 c) := (pow10_log10 hc0).symm
          _ < pow10 l := Real.rpow_lt_rpow_of_exponent_lt (by norm_num) hl
    by_cases hl : l ∈ B
    · rw [Set.indicator_of_mem hl, Set.indicator_of_mem (this.mpr hl)]; rfl
    · rw [Set.indicator_of_notMem hl, Set.indicator_of_notMem (fun h' => hl (this.mp h'))]
  -- the weight, one outside the interval
  set f : ℝ → ℝ≥0∞ := fun l => if l ∈ S.logs then ENNReal.ofReal (S.w (pow10 l)) else 1 with hf
  have hfm : Measurable f := Measurable.ite measurableSet_Icc
    (ENNReal.measurable_ofReal.comp (h.measurable.comp measurable_pow10)) measurable_const
  have hftop : ∀ l, f l ≠ ∞ := by
    intro l; simp only [hf]; split
    · exact ENNReal.ofReal_ne_top
    · exact ENNReal.one_ne_top
  have hw : ∀ l ∈ S.logs, 0 < S.w (pow10 l) := fun l hl => hpos _ (mem_logs h hl)
  have hf0 : ∀ l, f l ≠ 0 := by
    intro l; simp only [hf]; split
    next hl => exact (ENNReal.ofReal_pos.mpr (hw l hl)).ne'
    · exact one_ne_zero
  have hfin : ∀ l ∈ S.logs, f l = ENNReal.ofReal (S.w (pow10 l)) := fun l hl => if_pos hl
  have hfd : ∀ l ∈ S.logs, f l = S.dens l := by
    intro l hl; rw [hfin l hl]; unfold dens; rw [if_pos (hok _ (mem_logs h hl))]
  set a : ℝ → ℝ → ℝ≥0∞ := fun s z => min (f s) (f z) / f s with ha
  have hab : ∀ s z, f s * a s z = min (f s) (f z) := fun s z => ENNReal.mul_div_cancel (hf0 s) (hftop s)
  have hap : ∀ s ∈ S.logs, ∀ z ∈ S.logs, S.prob s z = a s z := by
    intro s hs z hz
    simp only [ha]
    rw [ENNReal.eq_div_iff (hf0 s) (hftop s), hfd s hs, hfd z hz]
    exact prob_balance h s z
  rw [lintegral_congr_ae (g := fun l => ENNReal.ofReal (pow10 l) * (f l * ∫⁻ z, (a l z * B.indicator 1 z +
      (1 - a l z) * B.indicator 1 l) ∂S.law)),
    lintegral_congr_ae (f := fun l => ENNReal.ofReal (pow10 l) * (ENNReal.ofReal (S.w (pow10 l)) *
      (Ioi c).indicator 1 (pow10 l))) (g := fun l => ENNReal.ofReal (pow10 l) * (f l * B.indicator 1 l))]
  · have hlog : 0 < Real.log 10 := Real.log_pos (by norm_num)
    have hl0 : ENNReal.ofReal (Real.log 10) ≠ 0 := (ENNReal.ofReal_pos.mpr hlog).ne'
    have hlc1 : log10 S.lo < log10 c := Real.logb_lt_logb (by norm_num) h.low hc
    have hlc2 : log10 c < log10 S.hi := Real.logb_lt_logb (by norm_num) hc0 hcM
    refine ENNReal.mul_lt_mul_right hl0 ENNReal.ofReal_ne_top (ENNReal.mul_lt_mul_right (volume_logs h).1 (volume_logs h).2 ?_)
    refine Metropolis.drains S.law hfm (ENNReal.measurable_ofReal.comp measurable_pow10)
      hftop hab measurableSet_Ioi (c := ENNReal.ofReal c) ENNReal.ofReal_ne_top ?_ ?_ ?_ hf0 ?_ ?_
    · intro s hs
      show ENNReal.ofReal c < ENNReal.ofReal (pow10 s)
      rw [ENNReal.ofReal_lt_ofReal_iff (pow10_pos s)]
      calc c = pow10 (log10 c) := (pow10_log10 hc0).symm
        _ < pow10 s := Real.rpow_lt_rpow_of_exponent_lt (by norm_num) hs
    · intro s hs
      show ENNReal.ofReal (pow10 s) ≤ ENNReal.ofReal c
      apply ENNReal.ofReal_le_ofReal
      calc pow10 s ≤ pow10 (log10 c) := Real.rpow_le_rpow_of_exponent_le (by norm_num) (not_lt.mp hs)
        _ = c := pow10_log10 hc0
    · refine ne_top_of_le_ne_top ?_ (lintegral_mono_ae (g := fun _ => ENNReal.ofReal (S.hi * M)) ?_)
      · rw [lintegral_const, measure_univ, mul_one]; exact ENNReal.ofReal_ne_top
      · filter_upwards [ae_logs S] with l hl
        show ENNReal.ofReal (pow10 l) * f l ≤ _
        rw [hfin l hl, ← ENNReal.ofReal_mul (pow10_pos l).le]
        apply ENNReal.ofReal_le_ofReal
        exact mul_le_mul (mem_logs h hl).2 (hM _ (mem_logs h hl)) (h.nonneg _ (hok _ (mem_logs h hl))) h.high.le
    · unfold law
      rw [Measure.smul_apply, smul_eq_mul]
      refine mul_ne_zero (ENNReal.inv_ne_zero.mpr (volume_logs h).2) ?_
      rw [Measure.restrict_apply measurableSet_Ioi]
      have hsub : Ioc (log10 c) (log10 S.hi) ⊆ B ∩ S.logs := by
        rintro l ⟨h1, h2⟩
        exact ⟨h1, ⟨(hlc1.trans h1).le, h2⟩⟩
      refine (lt_of_lt_of_le ?_ (measure_mono hsub)).ne'
      rw [Real.volume_Ioc]
      exact ENNReal.ofReal_pos.mpr (by linarith)
    · unfold law
      rw [Measure.smul_apply, smul_eq_mul]
      refine mul_ne_zero (ENNReal.inv_ne_zero.mpr (volume_logs h).2) ?_
      rw [Measure.restrict_apply measurableSet_Ioi.compl]
      have hsub : Icc (log10 S.lo) (log10 c) ⊆ Bᶜ ∩ S.logs := by
        rintro l ⟨h1, h2⟩
        exact ⟨not_lt.mpr h2, ⟨h1, h2.trans hlc2.le⟩⟩
      refine (lt_of_lt_of_le ?_ (measure_mono hsub)).ne'
      rw [Real.volume_Icc]
      exact ENNReal.ofReal_pos.mpr (by linarith)
  · filter_upwards [ae_logs S] with l hl
    rw [hfin l hl, hind]
  · filter_upwards [ae_logs S] with l hl
    rw [hfin l hl, after_eq h _ (hok _ (mem_logs h hl))]
    simp only [hind]
    congr 2
    apply lintegral_congr_ae
    filter_upwards [ae_logs S] with z hz
    rw [hap l hl z hz]

end Walk
end LogChain
end Siren
