import Verif.Injection.DepthModel
import Mathlib.Analysis.SpecialFunctions.Exponential
import Mathlib.Analysis.SpecialFunctions.ExpDeriv
import Mathlib.Analysis.SpecialFunctions.Log.Deriv
import Mathlib.MeasureTheory.Integral.DivergenceTheorem
import Mathlib.MeasureTheory.Integral.IntervalIntegral.FundThmCalculus
import Mathlib.Tactic.Positivity
import Mathlib.Tactic.Linarith
import Mathlib.Tactic.FieldSimp

set_option autoImplicit false

/-!
# Interaction, survival and position probabilities
-/

namespace Siren.Injection

open Real

/-! ## The series for small arguments -/

/-- `e^u` for the exponent of the series, `s = (x/2)²`. -/
theorem exp_series_bounds (s : ℝ) (h0 : 0 ≤ s) (h1 : s ≤ 1 / 400) :
    1 + s / 6 + s ^ 2 / 120 - s ^ 3 / 6400 ≤ exp (s / 6 - s ^ 2 / 180) ∧
    exp (s / 6 - s ^ 2 / 180) ≤ 1 + s / 6 + s ^ 2 / 120 - s ^ 3 / 6600 := by
  have hs2 : s ^ 2 ≤ s / 400 := by nlinarith
  have hs3 : s ^ 3 ≤ s ^ 2 / 400 := by nlinarith [sq_nonneg s]
  have hs4 : s ^ 4 ≤ s ^ 3 / 400 := by nlinarith [pow_nonneg h0 3]
  have hs5 : s ^ 5 ≤ s ^ 3 / 160000 := by nlinarith [pow_nonneg h0 4]
  have hs6 : s ^ 6 ≤ s ^ 3 / 64000000 := by nlinarith [pow_nonneg h0 5]
  have p3 := pow_nonneg h0 3
  have p4 := pow_nonneg h0 4
  have p5 := pow_nonneg h0 5
  have p6 := pow_nonneg h0 6
  have hu : 0 ≤ s / 6 - s ^ 2 / 180 := by linarith
  have hu1 : s / 6 - s ^ 2 / 180 ≤ s / 6 := by nlinarith [sq_nonneg s]
  have e2 : (s / 6 - s ^ 2 / 180) ^ 2 = s ^ 2 / 36 - s ^ 3 / 540 + s ^ 4 / 32400 := by ring
  have e3 : (s / 6 - s ^ 2 / 180) ^ 3 = s ^ 3 / 216 - s ^ 4 / 2160 + s ^ 5 / 64800 - s ^ 6 / 5832000 := by ring
  constructor
  · have h := sum_le_exp_of_nonneg hu 4
    simp only [Finset.sum_range_succ, Finset.sum_range_zero, Nat.factorial] at h
    norm_num at h
    rw [e2, e3] at h
    linarith
  · have h := exp_bound' hu (by linarith) (n := 4) (by norm_num)
    simp only [Finset.sum_range_succ, Finset.sum_range_zero, Nat.factorial] at h
    norm_num at h
    rw [e2, e3] at h
    have h4 : (s / 6 - s ^ 2 / 180) ^ 4 ≤ (s / 6) ^ 4 := pow_le_pow_left₀ hu hu1 4
    have e4 : (s / 6) ^ 4 = s ^ 4 / 1296 := by ring
    rw [e4] at h4
    linarith

/-- `1 - e^(-2y) = 2 y e^(-y) (sinh y / y)`, with the first terms of the series of `sinh y / y`. -/
theorem one_sub_exp_bounds (y : ℝ) (h0 : 0 ≤ y) (h1 : y ≤ 1 / 20) :
    2 * y * exp (-y) * (1 + y ^ 2 / 6 + y ^ 4 / 120 + y ^ 6 / 5200) ≤ 1 - exp (-(2 * y)) ∧
    1 - exp (-(2 * y)) ≤ 2 * y * exp (-y) * (1 + y ^ 2 / 6 + y ^ 4 / 120 + y ^ 6 / 5000) := by
  have hb1 := exp_bound (x := y) (by rw [abs_of_nonneg h0]; linarith) (n := 9) (by norm_num)
  have hb2 := exp_bound (x := -y) (by rw [abs_neg, abs_of_nonneg h0]; linarith) (n := 9) (by norm_num)
  rw [abs_neg, abs_of_nonneg h0] at hb2
  rw [abs_of_nonneg h0] at hb1
  rw [abs_le] at hb1 hb2
  simp only [Finset.sum_range_succ, Finset.sum_range_zero, Nat.factorial] at hb1 hb2
  norm_num at hb1 hb2
  have hy7 := pow_nonneg h0 7
  have hy9 : y ^ 9 ≤ y ^ 7 / 400 := by
    have h2 : y ^ 2 ≤ 1 / 400 := by nlinarith
    calc y ^ 9 = y ^ 7 * y ^ 2 := by ring
      _ ≤ y ^ 7 * (1 / 400) := mul_le_mul_of_nonneg_left h2 hy7
      _ = y ^ 7 / 400 := by ring
  have n3 : (-y) ^ 3 = -y ^ 3 := by ring
  have n5 : (-y) ^ 5 = -y ^ 5 := by ring
  have n7 : (-y) ^ 7 = -y ^ 7 := by ring
  have n4 : (-y) ^ 4 = y ^ 4 := by ring
  have n6 : (-y) ^ 6 = y ^ 6 := by ring
  have n8 : (-y) ^ 8 = y ^ 8 := by ring
  rw [n3, n5, n7, n4, n6, n8] at hb2
  have hlow : 2 * y * (1 + y ^ 2 / 6 + y ^ 4 / 120 + y ^ 6 / 5200) ≤ exp y - exp (-y) := by
    have : 2 * y * (1 + y ^ 2 / 6 + y ^ 4 / 120 + y ^ 6 / 5200) = 2 * y + y ^ 3 / 3 + y ^ 5 / 60 + y ^ 7 / 2600 := by ring
    rw [this]; linarith [hb1.1, hb2.2]
  have hupp : exp y - exp (-y) ≤ 2 * y * (1 + y ^ 2 / 6 + y ^ 4 / 120 + y ^ 6 / 5000) := by
    have : 2 * y * (1 + y ^ 2 / 6 + y ^ 4 / 120 + y ^ 6 / 5000) = 2 * y + y ^ 3 / 3 + y ^ 5 / 60 + y ^ 7 / 2500 := by ring
    rw [this]; linarith [hb1.2, hb2.1]
  have hexp : 1 - exp (-(2 * y)) = exp (-y) * (exp y - exp (-y)) := by
    rw [mul_sub, ← exp_add, ← exp_add]
    have : -y + y = 0 := by ring
    have h2 : -y + -y = -(2 * y) := by ring
    rw [this, h2, exp_zero]
  have he := (exp_pos (-y)).le
  rw [hexp]
  constructor
  · calc _ = exp (-y) * (2 * y * (1 + y ^ 2 / 6 + y ^ 4 / 120 + y ^ 6 / 5200)) := by ring
      _ ≤ _ := mul_le_mul_of_nonneg_left hlow he
  · calc _ ≤ exp (-y) * (2 * y * (1 + y ^ 2 / 6 + y ^ 4 / 120 + y ^ 6 / 5000)) := mul_le_mul_of_nonneg_left hupp he
      _ = _ := by ring

/-- The series as a product. -/
theorem series_eq (x : ℝ) (h0 : 0 < x) :
    exp (log x - x / 2 + x * x / 24 - x * x * x * x / 2880) =
      x * exp (-(x / 2)) * exp ((x / 2) ^ 2 / 6 - ((x / 2) ^ 2) ^ 2 / 180) := by
  have : log x - x / 2 + x * x / 24 - x * x * x * x / 2880 =
      log x + -(x / 2) + ((x / 2) ^ 2 / 6 - ((x / 2) ^ 2) ^ 2 / 180) := by ring
  rw [this, exp_add, exp_add, exp_log h0]

/-- The series is below `1 - e^(-x)`, by at most one part in `10^10`. -/
theorem series_bounds (x : ℝ) (h0 : 0 < x) (h1 : x ≤ 1 / 10) :
    exp (log x - x / 2 + x * x / 24 - x * x * x * x / 2880) ≤ 1 - exp (-x) ∧
    1 - exp (-x) - exp (log x - x / 2 + x * x / 24 - x * x * x * x / 2880) ≤ x * (1 / 60000000000) ∧
    1 - exp (-x) ≤ exp (log x - x / 2 + x * x / 24 - x * x * x * x / 2880) * (1 + 1 / 50000000000) := by
  have hy0 : 0 < x / 2 := by linarith
  have hs0 : 0 ≤ (x / 2) ^ 2 := sq_nonneg _
  have hs1 : (x / 2) ^ 2 ≤ 1 / 400 := by nlinarith
  obtain ⟨ea, eb⟩ := exp_series_bounds ((x / 2) ^ 2) hs0 hs1
  obtain ⟨sa, sb⟩ := one_sub_exp_bounds (x / 2) hy0.le (by linarith)
  have h2 : 2 * (x / 2) = x := by ring
  rw [h2] at sa sb
  have hA : 0 < x * exp (-(x / 2)) := mul_pos h0 (exp_pos _)
  have hAx : x * exp (-(x / 2)) ≤ x := by
    have : exp (-(x / 2)) ≤ 1 := exp_le_one_iff.2 (by linarith)
    nlinarith
  have hp : ((x / 2) ^ 2) ^ 3 ≤ 1 / 64000000 := by
    calc ((x / 2) ^ 2) ^ 3 ≤ (1 / 400) ^ 3 := pow_le_pow_left₀ hs0 hs1 3
      _ = 1 / 64000000 := by norm_num
  have hp0 : 0 ≤ ((x / 2) ^ 2) ^ 3 := pow_nonneg hs0 3
  have hp2 : 0 ≤ ((x / 2) ^ 2) ^ 2 := pow_nonneg hs0 2
  have e4 : (x / 2) ^ 4 = ((x / 2) ^ 2) ^ 2 := by ring
  have e6 : (x / 2) ^ 6 = ((x / 2) ^ 2) ^ 3 := by ring
  rw [e4, e6] at sa sb
  rw [series_eq x h0]
  generalize hE : exp ((x / 2) ^ 2 / 6 - ((x / 2) ^ 2) ^ 2 / 180) = E at *
  generalize hAe : x * exp (-(x / 2)) = A at *
  generalize (x / 2) ^ 2 = s at *
  refine ⟨?_, ?_, ?_⟩
  · refine le_trans (mul_le_mul_of_nonneg_left ?_ hA.le) sa
    linarith
  · have : A * (1 + s / 6 + s ^ 2 / 120 + s ^ 3 / 5000) - A * E ≤ A * (1 / 60000000000) := by
      rw [← mul_sub]
      exact mul_le_mul_of_nonneg_left (by linarith) hA.le
    have h3 : A * (1 / 60000000000) ≤ x * (1 / 60000000000) := by linarith
    linarith
  · refine sb.trans ?_
    rw [mul_assoc]
    refine mul_le_mul_of_nonneg_left ?_ hA.le
    have hE1 : 1 ≤ E := by nlinarith
    linarith

/-! ## Interaction and survival probability -/

theorem one_sub_exp_le (x : ℝ) : 1 - exp (-x) ≤ x := by linarith [add_one_le_exp (-x)]

theorem exp_neg_le (x : ℝ) (h0 : 0 ≤ x) (h1 : x ≤ 1) : exp (-x) ≤ 1 - x + x ^ 2 := by
  have hb := exp_bound (x := -x) (by rw [abs_neg, abs_of_nonneg h0]; exact h1) (n := 2) (by norm_num)
  rw [abs_le] at hb
  simp only [Finset.sum_range_succ, Finset.sum_range_zero, Nat.factorial] at hb
  norm_num at hb
  nlinarith [hb.2, sq_nonneg x]

/-- What `InteractionProbability` returns for a finite depth. -/
noncomputable def probabilityOf (x : ℝ) : ℝ := if x < 1 / 1000000 then x else oneMinusExpOfNegative x

theorem probabilityOf_close (x : ℝ) (h0 : 0 ≤ x) : |probabilityOf x - (1 - exp (-x))| ≤ 2 / 10 ^ 12 := by
  unfold probabilityOf
  split_ifs with h
  · have h1 := one_sub_exp_le x
    have h3 := exp_neg_le x h0 (by linarith)
    rw [abs_le]
    constructor
    · norm_num; linarith
    · have : x ^ 2 ≤ 1 / 10 ^ 12 := by
        calc x ^ 2 ≤ (1 / 1000000) ^ 2 := pow_le_pow_left₀ h0 h.le 2
          _ = 1 / 10 ^ 12 := by norm_num
      norm_num at this ⊢
      linarith
  · have hx : 0 < x := by
      rw [not_lt] at h
      linarith
    unfold oneMinusExpOfNegative
    split_ifs with h10
    · obtain ⟨ha, hb, _⟩ := series_bounds x hx h10.le
      rw [abs_le]
      constructor <;> norm_num <;> linarith
    · rw [sub_self, abs_zero]; norm_num

theorem probabilityOf_range (x : ℝ) (h0 : 0 ≤ x) : 0 ≤ probabilityOf x ∧ probabilityOf x ≤ 1 := by
  unfold probabilityOf
  split_ifs with h
  · exact ⟨h0, by linarith⟩
  · rw [not_lt] at h
    have hx : 0 < x := by linarith
    unfold oneMinusExpOfNegative
    split_ifs with h10
    · exact ⟨(exp_pos _).le, (series_bounds x hx h10.le).1.trans (by linarith [exp_pos (-x)])⟩
    · exact ⟨by have : exp (-x) ≤ 1 := exp_le_one_iff.2 (by linarith)
                linarith, by linarith [exp_pos (-x)]⟩

/-- **C14, probabilities.** For every finite depth the interaction and the survival probability lie in `[0,1]`, add up to one,
and the interaction probability is `1 - e^(-depth)` up to `2e-12`; for an infinite depth they are 1 and 0. -/
theorem C14_probabilities :
    (∀ x : ℝ, 0 ≤ x → ∃ p s : ℝ, interactionProbability (.fin x) = .fin p ∧ survivalProbability (.fin x) = .fin s ∧
      0 ≤ p ∧ p ≤ 1 ∧ 0 ≤ s ∧ s ≤ 1 ∧ p + s = 1 ∧ |p - (1 - exp (-x))| ≤ 2 / 10 ^ 12) ∧
    interactionProbability .inf = .fin 1 ∧ survivalProbability .inf = .fin 0 := by
  refine ⟨fun x h0 => ?_, rfl, by simp [survivalProbability, interactionProbability]⟩
  obtain ⟨hp0, hp1⟩ := probabilityOf_range x h0
  have hp : interactionProbability (.fin x) = .fin (probabilityOf x) := rfl
  refine ⟨probabilityOf x, 1 - probabilityOf x, hp, ?_, hp0, hp1, by linarith, by linarith, by ring,
    probabilityOf_close x h0⟩
  unfold survivalProbability
  rw [hp]
  simp only
  rw [if_neg (c := 1 - probabilityOf x < 0) (by linarith), if_neg (by linarith)]

/-! ## Growth -/

theorem series_mono (a b : ℝ) (h0 : 0 < a) (hab : a ≤ b) (hb : b ≤ 1 / 10) :
    log a - a / 2 + a * a / 24 - a * a * a * a / 2880 ≤ log b - b / 2 + b * b / 24 - b * b * b * b / 2880 := by
  have hb0 : 0 < b := by linarith
  have hlog : 1 - a / b ≤ log b - log a := by
    have h := log_le_sub_one_of_pos (x := a / b) (by positivity)
    rw [log_div h0.ne' hb0.ne'] at h
    linarith
  have h10 : 10 * (b - a) ≤ 1 - a / b := by
    rw [le_sub_iff_add_le, ← le_sub_iff_add_le', div_le_iff₀ hb0]
    nlinarith
  have hsq : a * a ≤ b * b := by nlinarith
  have h4 : b * b * b * b - a * a * a * a ≤ b - a := by
    have : b * b * b * b - a * a * a * a = (b - a) * ((b + a) * (b * b + a * a)) := by ring
    rw [this]
    have hf : (b + a) * (b * b + a * a) ≤ 1 := by nlinarith
    nlinarith
  linarith

/-- Growth away from the switch to the linear approximation. -/
theorem probabilityOf_mono (a b : ℝ) (hab : a ≤ b) (h : b < 1 / 1000000 ∨ 1 / 1000000 ≤ a) :
    probabilityOf a ≤ probabilityOf b := by
  unfold probabilityOf
  rcases h with h | h
  · rw [if_pos (by linarith), if_pos h]; exact hab
  · rw [if_neg (by linarith), if_neg (by linarith)]
    have ha : 0 < a := by linarith
    unfold oneMinusExpOfNegative
    by_cases h1 : b < 1 / 10
    · rw [if_pos (by linarith), if_pos h1]
      exact exp_le_exp.2 (series_mono a b ha hab h1.le)
    · have hexp : exp (-b) ≤ exp (-a) := exp_le_exp.2 (by linarith)
      rw [if_neg h1]
      by_cases h2 : a < 1 / 10
      · rw [if_pos h2]
        exact (series_bounds a ha h2.le).1.trans (by linarith)
      · rw [if_neg h2]; linarith

/-- **C14, growth.** The interaction probability grows with the depth on either side of the depth `1e-6` at which the linear
approximation ends, and decreases nowhere by more than `2e-12`. -/
theorem C14_growth (a b : ℝ) (hab : a ≤ b) :
    ∃ p q : ℝ, interactionProbability (.fin a) = .fin p ∧ interactionProbability (.fin b) = .fin q ∧
      (b < 1 / 10 ^ 6 ∨ 1 / 10 ^ 6 ≤ a → p ≤ q) ∧ p ≤ q + 2 / 10 ^ 12 := by
  refine ⟨probabilityOf a, probabilityOf b, rfl, rfl, fun h => probabilityOf_mono a b hab (by norm_num at h ⊢; exact h), ?_⟩
  by_cases ha : a < 1 / 1000000
  · by_cases hb : b < 1 / 1000000
    · have := probabilityOf_mono a b hab (.inl hb)
      norm_num; linarith
    · rw [not_lt] at hb
      have h1 := probabilityOf_mono (1 / 1000000) b hb (.inr le_rfl)
      have h2 := (series_bounds (1 / 1000000) (by norm_num) (by norm_num)).2.1
      have h3 := exp_neg_le (1 / 1000000) (by norm_num) (by norm_num)
      have h4 : probabilityOf a = a := by unfold probabilityOf; rw [if_pos ha]
      have h5 : probabilityOf (1 / 1000000) = exp (log (1 / 1000000) - 1 / 1000000 / 2 + 1 / 1000000 * (1 / 1000000) / 24 -
          1 / 1000000 * (1 / 1000000) * (1 / 1000000) * (1 / 1000000) / 2880) := by
        unfold probabilityOf oneMinusExpOfNegative; rw [if_neg (lt_irrefl _), if_pos (by norm_num)]
      rw [h4]
      rw [h5] at h1
      linarith
  · have := probabilityOf_mono a b hab (.inr (not_lt.1 ha))
    norm_num; linarith

/-- **C14, growth (negative).** At depth `1e-6` the interaction probability drops. -/
theorem C14_growth_fails : ∃ a b p q : ℝ, 0 ≤ a ∧ a < b ∧ interactionProbability (.fin a) = .fin p ∧
    interactionProbability (.fin b) = .fin q ∧ q < p := by
  refine ⟨1 / 1000000 - 1 / 10 ^ 13, 1 / 1000000, _, _, by norm_num, by norm_num, rfl, rfl, ?_⟩
  have h1 := (series_bounds (1 / 1000000) (by norm_num) (by norm_num)).1
  rw [if_neg (lt_irrefl _), if_pos (by norm_num)]
  unfold oneMinusExpOfNegative
  rw [if_pos (by norm_num)]
  refine h1.trans_lt ?_
  have h2 := exp_bound (x := -(1 / 1000000)) (by rw [abs_neg, abs_of_nonneg] <;> norm_num) (n := 3) (by norm_num)
  rw [abs_neg, abs_of_nonneg (by norm_num : (0 : ℝ) ≤ 1 / 1000000), abs_le] at h2
  have h3 := h2.1
  simp only [Finset.sum_range_succ, Finset.sum_range_zero, Nat.factorial] at h3
  norm_num at h3 ⊢
  linarith

/-! ## The position density -/

/-- The total weight `∫ λ e^(-D)` along the track is `1 - e^(-D(L))`. -/
theorem integral_density (lam D : ℝ → ℝ) (L : ℝ) (hL : 0 ≤ L) (S : Set ℝ) (hS : S.Countable)
    (hint : IntervalIntegrable lam MeasureTheory.volume 0 L) (hcont : ∀ t ∈ Set.Ioo 0 L \ S, ContinuousAt lam t)
    (hD : ∀ t, D t = ∫ u in (0 : ℝ)..t, lam u) :
    ∫ t in (0 : ℝ)..L, lam t * exp (-D t) = 1 - exp (-D L) := by
  have hDc : ContinuousOn D (Set.Icc 0 L) := by
    have h := intervalIntegral.continuousOn_primitive_interval' hint Set.left_mem_uIcc
    rw [Set.uIcc_of_le hL] at h
    exact h.congr fun t _ => hD t
  have hmeas : ∀ t ∈ Set.Ioo 0 L, StronglyMeasurableAtFilter lam (nhds t) MeasureTheory.volume := fun t ht =>
    ⟨Set.Ioo 0 L, isOpen_Ioo.mem_nhds ht,
      (hint.1.aestronglyMeasurable).mono_measure (MeasureTheory.Measure.restrict_mono Set.Ioo_subset_Ioc_self le_rfl)⟩
  have hii : IntervalIntegrable (fun t => lam t * exp (-D t)) MeasureTheory.volume 0 L := by
    refine hint.mul_continuousOn ?_
    rw [Set.uIcc_of_le hL]
    exact (hDc.neg).rexp
  have h := MeasureTheory.integral_eq_of_hasDerivAt_off_countable_of_le (fun t => -exp (-D t))
    (fun t => lam t * exp (-D t)) hL hS ((hDc.neg).rexp.neg) ?_ hii
  · rw [h]
    have : D 0 = 0 := by rw [hD]; simp
    rw [this]; simp; ring
  · intro t ht
    have hd : HasDerivAt D (lam t) t := by
      have : D = fun t => ∫ u in (0 : ℝ)..t, lam u := funext hD
      rw [this]
      refine intervalIntegral.integral_hasDerivAt_right (hint.mono_set ?_) (hmeas t ht.1) (hcont t ht)
      rw [Set.uIcc_of_le hL, Set.uIcc_of_le ht.1.1.le]
      exact Set.Icc_subset_Icc le_rfl ht.1.2.le
    have := (hd.neg).exp.neg
    refine this.congr_deriv ?_
    simp only [Pi.neg_apply]
    ring

/-- The normalization used for the density is the logarithm of `1 - e^(-T)` up to `1e-9`. -/
theorem log_close (T : ℝ) (h : 1 / 1000000 ≤ T) :
    |exp (-logOneMinusExpOfNegative T) * (1 - exp (-T)) - 1| ≤ 1 / 10 ^ 9 := by
  have hT : 0 < T := by linarith
  have hlt : exp (-T) < 1 := by
    have := exp_lt_exp.2 (show -T < 0 by linarith)
    rwa [exp_zero] at this
  unfold logOneMinusExpOfNegative
  split_ifs with h1 h2
  · obtain ⟨ha, _, hc⟩ := series_bounds T hT h1.le
    rw [exp_neg]
    have hE := exp_pos (log T - T / 2 + T * T / 24 - T * T * T * T / 2880)
    generalize exp (log T - T / 2 + T * T / 24 - T * T * T * T / 2880) = E at *
    rw [inv_mul_eq_div, div_sub_one hE.ne', abs_div, abs_of_pos hE, div_le_iff₀ hE, abs_of_nonneg (by linarith)]
    norm_num at hc ⊢
    linarith
  · simp only
    have hq0 := exp_pos (-T)
    have hq : exp (-T) ≤ 1 / 20 := by
      have h3 : exp (-T) ≤ exp (-3) := exp_le_exp.2 (by linarith)
      have h4 : (20 : ℝ) ≤ exp 3 := by
        have := sum_le_exp_of_nonneg (x := 3) (by norm_num) 12
        simp only [Finset.sum_range_succ, Finset.sum_range_zero, Nat.factorial] at this
        norm_num at this
        linarith
      have h5 : exp (-3 : ℝ) ≤ 1 / 20 := by
        rw [exp_neg, ← one_div]
        exact one_div_le_one_div_of_le (by norm_num) h4
      linarith
    have hlog := abs_log_sub_add_sum_range_le (x := exp (-T)) (by rw [abs_of_pos hq0]; exact hlt) 6
    rw [abs_of_pos hq0] at hlog
    have hlog1 : 1 - exp (-T) = exp (log (1 - exp (-T))) := (exp_log (by linarith)).symm
    simp only [Finset.sum_range_succ, Finset.sum_range_zero] at hlog
    norm_num at hlog
    have hbound : exp (-T) ^ 7 / (1 - exp (-T)) ≤ 9 / 10 ^ 10 := by
      rw [div_le_iff₀ (by linarith)]
      have : exp (-T) ^ 7 ≤ (1 / 20) ^ 7 := pow_le_pow_left₀ hq0.le hq 7
      norm_num at this ⊢
      linarith
    rw [hlog1, ← exp_add]
    generalize log (1 - exp (-T)) = l at *
    generalize exp (-T) = q at *
    have hd : |- -(q + q * q / 2 + q * q * q / 3 + q * q * q * q / 4 + q * q * q * q * q / 5 + q * q * q * q * q * q / 6) + l| ≤
        9 / 10 ^ 10 := by
      refine le_trans (le_of_eq ?_) (hlog.trans hbound)
      congr 1
      ring
    generalize - -(q + q * q / 2 + q * q * q / 3 + q * q * q * q / 4 + q * q * q * q * q / 5 + q * q * q * q * q * q / 6) + l = d
      at *
    have hd1 : |d| ≤ 1 := hd.trans (by norm_num)
    have he := abs_exp_sub_one_sub_id_le hd1
    have h2 : d ^ 2 ≤ 1 / 10 ^ 10 := by
      rw [← sq_abs]
      calc |d| ^ 2 ≤ (9 / 10 ^ 10) ^ 2 := pow_le_pow_left₀ (abs_nonneg d) hd 2
        _ ≤ 1 / 10 ^ 10 := by norm_num
    calc |exp d - 1| = |(exp d - 1 - d) + d| := by ring_nf
      _ ≤ |exp d - 1 - d| + |d| := abs_add_le _ _
      _ ≤ 1 / 10 ^ 10 + 9 / 10 ^ 10 := by linarith
      _ = 1 / 10 ^ 9 := by norm_num
  · rw [exp_neg, exp_log (by linarith), inv_mul_cancel₀ (by linarith), sub_self, abs_zero]
    norm_num

/-- **C14, vertex position.** Along a track of length `L` let `lam` be the interaction density, continuous except at countably
many points (the sector boundaries), and `D t` the depth traversed after the distance `t`. If the total depth is positive, the
position density integrates to one over the track: exactly when the depth is below `1e-6` or in `[0.1, 3]`, and always up to
`1e-9`. -/
theorem C14_position (lam D : ℝ → ℝ) (L : ℝ) (hL : 0 ≤ L) (S : Set ℝ) (hS : S.Countable)
    (hint : IntervalIntegrable lam MeasureTheory.volume 0 L) (hcont : ∀ t ∈ Set.Ioo 0 L \ S, ContinuousAt lam t)
    (hD : ∀ t, D t = ∫ u in (0 : ℝ)..t, lam u) (hpos : 0 < D L) :
    |(∫ t in (0 : ℝ)..L, positionProbability (D L) (D t) (lam t)) - 1| ≤ 1 / 10 ^ 9 ∧
    (D L < 1 / 10 ^ 6 ∨ (1 / 10 ≤ D L ∧ D L ≤ 3) →
      (∫ t in (0 : ℝ)..L, positionProbability (D L) (D t) (lam t)) = 1) := by
  by_cases hsmall : D L < 1 / 1000000
  · have h : (∫ t in (0 : ℝ)..L, positionProbability (D L) (D t) (lam t)) = 1 := by
      simp only [positionProbability, if_pos hsmall]
      rw [intervalIntegral.integral_div, ← hD, div_self hpos.ne']
    rw [h, sub_self, abs_zero]
    exact ⟨by norm_num, fun _ => rfl⟩
  · have h : (∫ t in (0 : ℝ)..L, positionProbability (D L) (D t) (lam t)) =
        exp (-logOneMinusExpOfNegative (D L)) * (1 - exp (-D L)) := by
      rw [← integral_density lam D L hL S hS hint hcont hD, ← intervalIntegral.integral_const_mul]
      refine intervalIntegral.integral_congr fun t _ => ?_
      simp only [positionProbability, if_neg hsmall]
      rw [sub_eq_add_neg, exp_add]
      ring
    rw [h]
    refine ⟨log_close (D L) (not_lt.1 hsmall), fun hor => ?_⟩
    rcases hor with h1 | ⟨h1, h2⟩
    · exact absurd (by norm_num at h1 ⊢; exact h1) hsmall
    · have hlt := exp_lt_exp.2 (show -D L < 0 by linarith)
      rw [exp_zero] at hlt
      unfold logOneMinusExpOfNegative
      rw [if_neg (by linarith), if_neg (by linarith), exp_neg, exp_log (by linarith), inv_mul_cancel₀ (by linarith)]

/-- Two materials, the second five times as dense as the first, on a track of length 2: the hypotheses of `C14_position` hold
and the total depth is 6. -/
example : ∃ (lam D : ℝ → ℝ) (S : Set ℝ), S.Countable ∧ IntervalIntegrable lam MeasureTheory.volume 0 2 ∧
    (∀ t ∈ Set.Ioo 0 2 \ S, ContinuousAt lam t) ∧ (∀ t, D t = ∫ u in (0 : ℝ)..t, lam u) ∧ 0 < D 2 ∧
    ¬ ContinuousAt lam 1 := by
  have hmono : Monotone fun t : ℝ => if t < 1 then (1 : ℝ) else 5 := by
    intro a b hab
    simp only
    split_ifs <;> linarith
  have hint : IntervalIntegrable (fun t : ℝ => if t < 1 then (1 : ℝ) else 5) MeasureTheory.volume 0 2 :=
    hmono.intervalIntegrable
  refine ⟨fun t => if t < 1 then 1 else 5, _, {1}, Set.countable_singleton 1, hint, ?_, fun t => rfl, ?_, ?_⟩
  · rintro t ⟨_, ht⟩
    rcases lt_or_gt_of_ne ht with h | h
    · refine (continuousAt_const (y := (1 : ℝ))).congr ?_
      filter_upwards [isOpen_Iio.mem_nhds h] with u hu
      exact (if_pos hu).symm
    · refine (continuousAt_const (y := (5 : ℝ))).congr ?_
      filter_upwards [isOpen_Ioi.mem_nhds h] with u hu
      exact (if_neg (not_lt.2 (le_of_lt hu))).symm
  · exact intervalIntegral.intervalIntegral_pos_of_pos_on hint (fun t _ => by split_ifs <;> norm_num) (by norm_num)
  · intro hc
    have h1 : Filter.Tendsto (fun t : ℝ => if t < 1 then (1 : ℝ) else 5) (nhdsWithin 1 (Set.Iio 1)) (nhds 5) := by
      have := hc.continuousWithinAt (s := Set.Iio 1)
      simpa [ContinuousWithinAt] using this
    have h2 : Filter.Tendsto (fun t : ℝ => if t < 1 then (1 : ℝ) else 5) (nhdsWithin 1 (Set.Iio 1)) (nhds 1) :=
      (tendsto_const_nhds (x := (1 : ℝ))).congr' (by
        filter_upwards [self_mem_nhdsWithin] with u hu
        exact (if_pos hu).symm)
    exact absurd (tendsto_nhds_unique h1 h2) (by norm_num)

end Siren.Injection
