import Verif.Interactions.Dis
import Mathlib.MeasureTheory.Measure.Prod
import Mathlib.MeasureTheory.Measure.Lebesgue.Basic
import Mathlib.MeasureTheory.Function.JacobianOneDim
import Mathlib.Analysis.SpecialFunctions.Pow.Deriv

set_option autoImplicit false

/-!
# Metropolis steps with independent proposals

General facts about the loops in `SampleFinalState`: one step leaves the distribution with density `f` with respect to the
law of the proposals unchanged. Used for the deep inelastic and the elastic cross section.
-/

namespace Siren
namespace Metropolis

open MeasureTheory ENNReal Set

/-- If proposals have the law `μ` and a move from `s` to `y` is accepted with a probability `a s y` such that
`f s * a s y = min (f s) (f y)`, then one step leaves the distribution with density `f` unchanged: the average over it of
what a function `g` is after the step is its average before. -/
theorem invariant {X : Type} [MeasurableSpace X] (μ : Measure X) [IsProbabilityMeasure μ] {f : X → ℝ≥0∞}
    (hf : Measurable f) (hfin : ∀ x, f x ≠ ∞) {a : X → X → ℝ≥0∞} (ha : ∀ s y, f s * a s y = min (f s) (f y))
    {g : X → ℝ≥0∞} (hg : Measurable g) :
    ∫⁻ s, f s * ∫⁻ y, (a s y * g y + (1 - a s y) * g s) ∂μ ∂μ = ∫⁻ s, f s * g s ∂μ := by
  have h1 : ∀ s, f s * ∫⁻ y, (a s y * g y + (1 - a s y) * g s) ∂μ =
      ∫⁻ y, min (f s) (f y) * g y ∂μ + ∫⁻ y, (f s - min (f s) (f y)) * g s ∂μ := by
    intro s
    rw [← lintegral_const_mul' _ _ (hfin s), ← lintegral_add_left]
    · congr 1
      ext y
      rw [mul_add, ← mul_assoc, ← mul_assoc, ha, ENNReal.mul_sub (fun _ _ => hfin s), mul_one, ha]
    · exact (measurable_const.min hf).mul hg
  simp only [h1]
  have hm1 : Measurable fun p : X × X => min (f p.1) (f p.2) * g p.2 :=
    ((hf.comp measurable_fst).min (hf.comp measurable_snd)).mul (hg.comp measurable_snd)
  have hm2 : Measurable fun p : X × X => min (f p.1) (f p.2) * g p.1 :=
    ((hf.comp measurable_fst).min (hf.comp measurable_snd)).mul (hg.comp measurable_fst)
  rw [lintegral_add_left (Measurable.lintegral_prod_right' hm1)]
  have hswap : ∫⁻ s, ∫⁻ y, min (f s) (f y) * g y ∂μ ∂μ = ∫⁻ s, ∫⁻ y, min (f s) (f y) * g s ∂μ ∂μ := by
    rw [lintegral_lintegral_swap hm1.aemeasurable]
    congr 1; ext s; congr 1; ext y
    rw [min_comm]
  rw [hswap, ← lintegral_add_left (Measurable.lintegral_prod_right' hm2)]
  congr 1
  ext s
  have hms : Measurable fun y => min (f s) (f y) * g s := (measurable_const.min hf).mul measurable_const
  show ∫⁻ y, min (f s) (f y) * g s ∂μ + ∫⁻ y, (f s - min (f s) (f y)) * g s ∂μ = f s * g s
  rw [← lintegral_add_left hms]
  have : ∀ y, min (f s) (f y) * g s + (f s - min (f s) (f y)) * g s = f s * g s := by
    intro y
    rw [← add_mul, add_tsub_cancel_of_le (min_le_left _ _)]
  simp only [this, lintegral_const, measure_univ, mul_one]

/-- The expected value after one step is measurable. -/
theorem measurable_after {X : Type} [MeasurableSpace X] (μ : Measure X) [IsProbabilityMeasure μ] {f : X → ℝ≥0∞}
    (hf : Measurable f) (hfin : ∀ x, f x ≠ ∞) {a : X → X → ℝ≥0∞} (ha : ∀ s y, f s * a s y = min (f s) (f y))
    {g : X → ℝ≥0∞} (hg : Measurable g) :
    Measurable fun s => f s * ∫⁻ y, (a s y * g y + (1 - a s y) * g s) ∂μ := by
  have h1 : ∀ s, f s * ∫⁻ y, (a s y * g y + (1 - a s y) * g s) ∂μ =
      ∫⁻ y, (min (f s) (f y) * g y + (f s - min (f s) (f y)) * g s) ∂μ := by
    intro s
    rw [← lintegral_const_mul' _ _ (hfin s)]
    congr 1
    ext y
    rw [mul_add, ← mul_assoc, ← mul_assoc, ha, ENNReal.mul_sub (fun _ _ => hfin s), mul_one, ha]
  simp only [h1]
  have hm : Measurable fun p : X × X => min (f p.1) (f p.2) := (hf.comp measurable_fst).min (hf.comp measurable_snd)
  have hm1 : Measurable fun p : X × X => min (f p.1) (f p.2) * g p.2 + (f p.1 - min (f p.1) (f p.2)) * g p.1 :=
    (hm.mul (hg.comp measurable_snd)).add (((hf.comp measurable_fst).sub hm).mul (hg.comp measurable_fst))
  exact Measurable.lintegral_prod_right' hm1

/-- With the density `h f` instead of `f` a step drains the set where `h` is large. -/
theorem drains {X : Type} [MeasurableSpace X] (μ : Measure X) [IsProbabilityMeasure μ] {f h : X → ℝ≥0∞}
    (hf : Measurable f) (hh : Measurable h) (hfin : ∀ x, f x ≠ ∞)
    {a : X → X → ℝ≥0∞} (ha : ∀ s y, f s * a s y = min (f s) (f y))
    {B : Set X} (hB : MeasurableSet B) {c : ℝ≥0∞} (hc : c ≠ ∞) (hin : ∀ s ∈ B, c < h s) (hout : ∀ s ∉ B, h s ≤ c)
    (hint : ∫⁻ s, h s * f s ∂μ ≠ ∞) (hpos : ∀ s, f s ≠ 0) (hB0 : μ B ≠ 0) (hB1 : μ Bᶜ ≠ 0) :
    ∫⁻ s, h s * (f s * ∫⁻ y, (a s y * B.indicator 1 y + (1 - a s y) * B.indicator 1 s) ∂μ) ∂μ <
      ∫⁻ s, h s * (f s * B.indicator 1 s) ∂μ := by
  classical
  set m : X → X → ℝ≥0∞ := fun s y => min (f s) (f y) with hm
  have hmm : Measurable fun p : X × X => m p.1 p.2 := (hf.comp measurable_fst).min (hf.comp measurable_snd)
  have hms : ∀ s, Measurable (m s) := fun s => measurable_const.min hf
  -- flow out of and into `B`
  set O : X → ℝ≥0∞ := fun s => ∫⁻ y in Bᶜ, m s y ∂μ with hO
  set I : X → ℝ≥0∞ := fun s => ∫⁻ y in B, m s y ∂μ with hI
  have hOm : Measurable O := Measurable.lintegral_prod_right' hmm
  have hIm : Measurable I := Measurable.lintegral_prod_right' hmm
  have hOle : ∀ s, O s ≤ f s := by
    intro s
    calc O s ≤ ∫⁻ _ in Bᶜ, f s ∂μ := lintegral_mono fun y => min_le_left _ _
      _ = f s * μ Bᶜ := by rw [lintegral_const, Measure.restrict_apply_univ]
      _ ≤ f s * 1 := by gcongr; exact prob_le_one
      _ = f s := mul_one _
  have hcase : ∀ s, f s * ∫⁻ y, (a s y * B.indicator 1 y + (1 - a s y) * B.indicator 1 s) ∂μ =
      if s ∈ B then f s - O s else I s := by
    intro s
    have h1 : f s * ∫⁻ y, (a s y * B.indicator 1 y + (1 - a s y) * B.indicator 1 s) ∂μ =
        ∫⁻ y, (m s y * B.indicator 1 y + (f s - m s y) * B.indicator 1 s) ∂μ := by
      rw [← lintegral_const_mul' _ _ (hfin s)]
      congr 1
      ext y
      rw [mul_add, ← mul_assoc, ← mul_assoc, ha, ENNReal.mul_sub (fun _ _ => hfin s), mul_one, ha]
    rw [h1]
    by_cases hs : s ∈ B
    · rw [if_pos hs]
      have h2 : ∀ y, m s y * B.indicator 1 y + (f s - m s y) * B.indicator 1 s = f s - Bᶜ.indicator (m s) y := by
        intro y
        simp only [Set.indicator_of_mem hs, Pi.one_apply, mul_one]
        by_cases hy : y ∈ B
        · rw [Set.indicator_of_mem hy, Set.indicator_of_notMem (by simpa using hy), Pi.one_apply, mul_one, tsub_zero,
            add_tsub_cancel_of_le (min_le_left _ _)]
        · rw [Set.indicator_of_notMem hy, Set.indicator_of_mem (by simpa using hy), mul_zero, zero_add]
      simp only [h2]
      rw [lintegral_sub ((hms s).indicator hB.compl)]
      · rw [lintegral_const, measure_univ, mul_one, lintegral_indicator hB.compl]
      · rw [lintegral_indicator hB.compl]
        exact ne_top_of_le_ne_top (hfin s) (hOle s)
      · refine Filter.Eventually.of_forall fun y => ?_
        by_cases hy : y ∈ B
        · rw [Set.indicator_of_notMem (by simpa using hy)]; exact bot_le
        · rw [Set.indicator_of_mem (by simpa using hy)]; exact min_le_left _ _
    · rw [if_neg hs]
      simp only [Set.indicator_of_notMem hs, mul_zero, add_zero]
      rw [hI]
      simp only
      rw [← lintegral_indicator hB]
      congr 1
      ext y
      by_cases hy : y ∈ B
      · simp [Set.indicator_of_mem hy]
      · simp [Set.indicator_of_notMem hy]
  simp only [hcase]
  -- integrals over `B` and its complement
  have hsplit : ∫⁻ s, h s * (if s ∈ B then f s - O s else I s) ∂μ =
      ∫⁻ s in B, h s * (f s - O s) ∂μ + ∫⁻ s in Bᶜ, h s * I s ∂μ := by
    rw [← lintegral_add_compl _ hB]
    congr 1
    · exact setLIntegral_congr_fun hB fun s hs => by simp only [if_pos hs]
    · exact setLIntegral_congr_fun hB.compl fun s hs => by simp only [if_neg (show s ∉ B from hs)]
  have hR : ∫⁻ s, h s * (f s * B.indicator 1 s) ∂μ = ∫⁻ s in B, h s * f s ∂μ := by
    rw [← lintegral_indicator hB]
    congr 1; ext s
    by_cases hs : s ∈ B
    · simp [hs]
    · simp [hs]
  rw [hsplit, hR]
  set X1 := ∫⁻ s in B, h s * O s ∂μ with hX1
  have hBfin : ∫⁻ s in B, h s * f s ∂μ ≠ ∞ := ne_top_of_le_ne_top hint (setLIntegral_le_lintegral _ _)
  have hX1fin : X1 ≠ ∞ :=
    ne_top_of_le_ne_top hBfin (lintegral_mono fun s => by gcongr; exact hOle s)
  have hfirst : ∫⁻ s in B, h s * (f s - O s) ∂μ + X1 = ∫⁻ s in B, h s * f s ∂μ := by
    rw [hX1, ← lintegral_add_right _ (show Measurable fun s => h s * O s from hh.mul hOm)]
    congr 1; ext s
    rw [← mul_add, tsub_add_cancel_of_le (hOle s)]
  -- the flow in
  have hflow : ∫⁻ s in Bᶜ, I s ∂μ = ∫⁻ s in B, O s ∂μ := by
    rw [hI, hO]
    simp only
    rw [lintegral_lintegral_swap hmm.aemeasurable]
    congr 1; ext s; congr 1; ext y
    exact min_comm _ _
  have hinle : ∫⁻ s in Bᶜ, h s * I s ∂μ ≤ c * ∫⁻ s in B, O s ∂μ := by
    rw [← hflow, ← lintegral_const_mul' _ _ hc]
    exact setLIntegral_mono' hB.compl fun s hs => by gcongr; exact hout s hs
  have hlt : c * ∫⁻ s in B, O s ∂μ < X1 := by
    rw [← lintegral_const_mul' _ _ hc, hX1]
    have hOpos : ∀ s, 0 < O s := by
      intro s
      rw [hO]
      simp only
      rw [setLIntegral_pos_iff (hms s)]
      have : Function.support (m s) = univ := by
        ext y
        simp only [Function.mem_support, mem_univ, iff_true, hm]
        have h1 : 0 < f s := pos_iff_ne_zero.mpr (hpos s)
        have h2 : 0 < f y := pos_iff_ne_zero.mpr (hpos y)
        exact (lt_min h1 h2).ne'
      rw [this, univ_inter]
      exact pos_iff_ne_zero.mpr hB1
    refine lintegral_strict_mono (f := fun s => c * O s) (g := fun s => h s * O s) ?_ (hh.mul hOm).aemeasurable ?_ ?_
    · intro h0
      apply hB0
      rw [← Measure.restrict_apply_univ]
      rw [h0]; rfl
    · refine ne_top_of_le_ne_top hX1fin ?_
      exact setLIntegral_mono' hB fun s hs => by gcongr; exact (hin s hs).le
    · rw [ae_restrict_iff' hB]
      refine Filter.Eventually.of_forall fun s hs => ?_
      exact ENNReal.mul_lt_mul_left (hOpos s).ne' (ne_top_of_le_ne_top (hfin s) (hOle s)) (hin s hs)
  have hlt2 : ∫⁻ s in Bᶜ, h s * I s ∂μ < X1 := lt_of_le_of_lt hinle hlt
  have hA1 : ∫⁻ s in B, h s * (f s - O s) ∂μ ≠ ∞ :=
    ne_top_of_le_ne_top hBfin (lintegral_mono fun s => by gcongr; exact tsub_le_self)
  calc ∫⁻ s in B, h s * (f s - O s) ∂μ + ∫⁻ s in Bᶜ, h s * I s ∂μ
      < ∫⁻ s in B, h s * (f s - O s) ∂μ + X1 := ENNReal.add_lt_add_left hA1 hlt2
    _ = ∫⁻ s in B, h s * f s ∂μ := hfirst

open Dis

/-- Averaging over the number drawn in a Metropolis decision: with weights `w` and `w'` the new value is taken with
probability `min 1 (w' / w)`, or always if `w` is zero. -/
theorem decision {w w' : ℝ} (hw : 0 ≤ w) (hw' : 0 ≤ w') (new old : ℝ≥0∞) :
    (∫⁻ u in Icc (0 : ℝ) 1, (open Classical in if accepts w w' u then new else old)) =
      (if w = 0 then 1 else ENNReal.ofReal (min 1 (w' / w))) * new +
        (1 - (if w = 0 then 1 else ENNReal.ofReal (min 1 (w' / w)))) * old := by
  classical
  have huni : ∀ u : ℝ, uniform 0 1 u = u := by
    intro u; unfold uniform; rw [if_neg (by norm_num)]; ring
  have hvol : volume (Icc (0 : ℝ) 1) = 1 := by simp
  by_cases h0 : w = 0
  · have : ∀ u, accepts w w' u := fun u => Or.inl h0
    simp only [this, if_true, lintegral_const, Measure.restrict_apply_univ, hvol, if_pos h0]
    simp
  · have hwpos : 0 < w := lt_of_le_of_ne hw (Ne.symm h0)
    rw [if_neg h0]
    by_cases h1 : w' / w > 1
    · have : ∀ u, accepts w w' u := fun u => Or.inr (Or.inl h1)
      simp only [this, if_true, lintegral_const, Measure.restrict_apply_univ, hvol]
      rw [min_eq_left h1.le]
      simp
    · push Not at h1
      have hr0 : 0 ≤ w' / w := by positivity
      set r := w' / w with hr
      have hacc : ∀ u, accepts w w' u ↔ u < r := by
        intro u
        unfold accepts
        rw [huni]
        constructor
        · rintro (h | h | h)
          · exact absurd h h0
          · exact absurd h (not_lt.mpr h1)
          · exact h
        · intro h; exact Or.inr (Or.inr h)
      simp only [hacc]
      rw [min_eq_right h1]
      have hfun : (fun u : ℝ => if u < r then new else old) =
          fun u => (Iio r).indicator (fun _ => new) u + (Ici r).indicator (fun _ => old) u := by
        ext u
        by_cases hu : u < r
        · simp [hu]
        · simp [hu, not_lt.mp hu]
      rw [hfun, lintegral_add_left (measurable_const.indicator measurableSet_Iio),
        lintegral_indicator_const measurableSet_Iio, lintegral_indicator_const measurableSet_Ici,
        Measure.restrict_apply measurableSet_Iio, Measure.restrict_apply measurableSet_Ici]
      have e1 : Iio r ∩ Icc (0 : ℝ) 1 = Ico 0 r := by
        ext u; simp only [mem_inter_iff, mem_Iio, mem_Icc, mem_Ico]
        constructor
        · rintro ⟨h2, h3, -⟩; exact ⟨h3, h2⟩
        · rintro ⟨h2, h3⟩; exact ⟨h3, h2, by linarith⟩
      have e2 : Ici r ∩ Icc (0 : ℝ) 1 = Icc r 1 := by
        ext u; simp only [mem_inter_iff, mem_Ici, mem_Icc]
        constructor
        · rintro ⟨h2, -, h4⟩; exact ⟨h2, h4⟩
        · rintro ⟨h2, h3⟩; exact ⟨h2, by linarith, h3⟩
      rw [e1, e2, Real.volume_Ico, Real.volume_Icc, sub_zero, mul_comm new, mul_comm old]
      congr 2
      rw [ENNReal.ofReal_sub _ hr0, ENNReal.ofReal_one]

/-- The acceptance probabilities satisfy detailed balance. -/
theorem balance {w w' : ℝ} (hw : 0 ≤ w) :
    ENNReal.ofReal w * (if w = 0 then 1 else ENNReal.ofReal (min 1 (w' / w))) =
      min (ENNReal.ofReal w) (ENNReal.ofReal w') := by
  by_cases h0 : w = 0
  · rw [h0]; simp
  · have hwpos : 0 < w := lt_of_le_of_ne hw (Ne.symm h0)
    rw [if_neg h0, ← ENNReal.ofReal_mul hw, mul_min_of_nonneg _ _ hw, mul_one, mul_div_cancel₀ _ h0, ENNReal.ofReal_min]

/-! ### From logarithms to the variables -/

theorem hasDerivAt_pow10 (a : ℝ) : HasDerivAt pow10 (pow10 a * Real.log 10) a := by
  unfold pow10
  simpa using (Real.hasStrictDerivAt_const_rpow (show (0 : ℝ) < 10 by norm_num) a).hasDerivAt

theorem pow10_image : pow10 '' univ = Ioi 0 := by
  ext x
  simp only [image_univ, mem_range, mem_Ioi]
  constructor
  · rintro ⟨a, rfl⟩; exact Real.rpow_pos_of_pos (by norm_num) a
  · intro hx
    exact ⟨Real.logb 10 x, Real.rpow_logb (by norm_num) (by norm_num) hx⟩

theorem pow10_injective : Function.Injective pow10 := by
  intro a b h
  have : Real.logb 10 (pow10 a) = Real.logb 10 (pow10 b) := by rw [h]
  unfold pow10 at this
  rwa [Real.logb_rpow (by norm_num) (by norm_num), Real.logb_rpow (by norm_num) (by norm_num)] at this

/-- Integrating over a positive variable is integrating over its logarithm with the weight `x log 10`. -/
theorem lintegral_pow10 (g : ℝ → ℝ≥0∞) :
    ∫⁻ x in Ioi (0 : ℝ), g x = ENNReal.ofReal (Real.log 10) * ∫⁻ a, ENNReal.ofReal (pow10 a) * g (pow10 a) := by
  have h := lintegral_image_eq_lintegral_abs_deriv_mul (s := univ) (f := pow10) (f' := fun a => pow10 a * Real.log 10)
    MeasurableSet.univ (fun a _ => (hasDerivAt_pow10 a).hasDerivWithinAt) (pow10_injective.injOn) g
  rw [pow10_image, Measure.restrict_univ] at h
  rw [h, ← lintegral_const_mul' _ _ ENNReal.ofReal_ne_top]
  congr 1
  ext a
  have hp : 0 < pow10 a := Real.rpow_pos_of_pos (by norm_num) a
  have hl : 0 < Real.log 10 := Real.log_pos (by norm_num)
  rw [abs_of_pos (mul_pos hp hl), mul_comm (pow10 a), ENNReal.ofReal_mul hl.le, mul_assoc]

/-- Two variables at once. -/
theorem lintegral_pow10_two {g : ℝ → ℝ → ℝ≥0∞}
    (hg : Measurable fun z : ℝ × ℝ => ENNReal.ofReal (pow10 z.1) * (ENNReal.ofReal (pow10 z.2) * g (pow10 z.1) (pow10 z.2))) :
    ∫⁻ x in Ioi (0 : ℝ), ∫⁻ y in Ioi (0 : ℝ), g x y =
      ENNReal.ofReal (Real.log 10) * (ENNReal.ofReal (Real.log 10) *
        ∫⁻ z : ℝ × ℝ, ENNReal.ofReal (pow10 z.1) * (ENNReal.ofReal (pow10 z.2) * g (pow10 z.1) (pow10 z.2))) := by
  rw [lintegral_pow10, Measure.volume_eq_prod, lintegral_prod _ hg.aemeasurable]
  congr 1
  rw [← lintegral_const_mul' (ENNReal.ofReal (Real.log 10)) _ ENNReal.ofReal_ne_top]
  refine lintegral_congr fun a => ?_
  rw [lintegral_pow10]
  simp only
  rw [lintegral_const_mul' (ENNReal.ofReal (pow10 a)) _ ENNReal.ofReal_ne_top]
  ring

end Metropolis
end Siren
