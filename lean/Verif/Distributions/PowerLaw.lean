import Verif.Util.Random
import Mathlib.Analysis.SpecialFunctions.Integrals.Basic
import Mathlib.Analysis.SpecialFunctions.Log.Base

set_option autoImplicit false

/-!
# Power-law energies (C55)

Models `distributions/private/primary/energy/PowerLaw.cxx`. Doubles are real numbers.
-/

namespace Siren.Distributions

open Siren.Util

/-! ## Model -/

/-- `PowerLaw` (PowerLaw.cxx:21-25). -/
structure PowerLaw where
  index : ℝ
  energyMin : ℝ
  energyMax : ℝ

/-- `SampleEnergy` (PowerLaw.cxx:27-38); `g` is the output of the random generator. -/
noncomputable def PowerLaw.sampleEnergy (s : PowerLaw) (g : ℝ) : ℝ :=
  if s.energyMin = s.energyMax then s.energyMin
  else if s.index = 1 then (10 : ℝ) ^ uniform (Real.logb 10 s.energyMin) (Real.logb 10 s.energyMax) g
  else
    let u := uniform 0 1 g
    let energyP := (1 - u) * s.energyMin ^ (1 - s.index) + u * s.energyMax ^ (1 - s.index)
    energyP ^ (1 / (1 - s.index))

/-- `pdf` (PowerLaw.cxx:40-49); `GenerationProbability` (lines 51-53) is its value at the energy of the record. -/
noncomputable def PowerLaw.pdf (s : PowerLaw) (energy : ℝ) : ℝ :=
  if s.energyMin = s.energyMax then 1
  else if s.index = 1 then 1 / (energy * Real.log (s.energyMax / s.energyMin))
  else energy ^ (-s.index) * (-1 + s.index) / (s.energyMin ^ (1 - s.index) - s.energyMax ^ (1 - s.index))

/-! ## Proofs -/

/-- A valid range. -/
def PowerLaw.Valid (s : PowerLaw) : Prop := 0 < s.energyMin ∧ s.energyMin < s.energyMax

theorem rpow_ne (s : PowerLaw) (h : s.Valid) (h1 : s.index ≠ 1) : s.energyMin ^ (1 - s.index) - s.energyMax ^ (1 - s.index) ≠ 0 := by
  rw [sub_ne_zero]
  intro he
  have := (Real.rpow_left_inj h.1.le (h.1.trans h.2).le (sub_ne_zero.mpr h1.symm)).mp he
  exact h.2.ne this

/-- The share of energies up to `e`. -/
theorem cdf_eq (s : PowerLaw) (h : s.Valid) (e : ℝ) (he : 0 < e) : ∫ x in s.energyMin..e, s.pdf x =
    if s.index = 1 then Real.log (e / s.energyMin) / Real.log (s.energyMax / s.energyMin)
    else (s.energyMin ^ (1 - s.index) - e ^ (1 - s.index)) / (s.energyMin ^ (1 - s.index) - s.energyMax ^ (1 - s.index)) := by
  have h0 : (0 : ℝ) ∉ Set.uIcc s.energyMin e := by
    rw [Set.mem_uIcc]
    rintro (h' | h')
    · linarith [h.1, h'.1]
    · linarith [h'.1]
  simp only [PowerLaw.pdf, if_neg h.2.ne]
  split
  · have : ∀ x, 1 / (x * Real.log (s.energyMax / s.energyMin)) = 1 / x * (1 / Real.log (s.energyMax / s.energyMin)) := fun x => by
      rw [one_div_mul_one_div]
    simp only [this]
    rw [intervalIntegral.integral_mul_const, integral_one_div h0, mul_one_div]
  · rename_i h1
    have hr : (1 : ℝ) - s.index ≠ 0 := sub_ne_zero.mpr (Ne.symm h1)
    simp only [mul_div_assoc]
    rw [intervalIntegral.integral_mul_const, integral_rpow (Or.inr ⟨by intro h'; apply h1; linarith, h0⟩),
      show -s.index + 1 = 1 - s.index by ring, show -1 + s.index = -(1 - s.index) by ring]
    have := rpow_ne s h h1
    field_simp
    ring

theorem uniform01 (g : ℝ) : uniform 0 1 g = g := by rw [uniform_eq]; norm_num

theorem log_sample (s : PowerLaw) (h : s.Valid) (h1 : s.index = 1) (g : ℝ) :
    s.sampleEnergy g = s.energyMin * (s.energyMax / s.energyMin) ^ g := by
  have hp : 0 < s.energyMax := h.1.trans h.2
  have hle : Real.logb 10 s.energyMin ≤ Real.logb 10 s.energyMax := Real.logb_le_logb_of_le (by norm_num) h.1 h.2.le
  rw [PowerLaw.sampleEnergy, if_neg h.2.ne, if_pos h1, uniform_eq, min_eq_left hle, max_eq_right hle, Real.rpow_add (by norm_num),
    Real.rpow_logb (by norm_num) (by norm_num) h.1, ← Real.logb_div hp.ne' h.1.ne', Real.rpow_mul (by norm_num),
    Real.rpow_logb (by norm_num) (by norm_num) (div_pos hp h.1), mul_comm]

theorem mix_pos (s : PowerLaw) (h : s.Valid) (g : ℝ) (h0 : 0 ≤ g) (h1 : g ≤ 1) :
    0 < (1 - g) * s.energyMin ^ (1 - s.index) + g * s.energyMax ^ (1 - s.index) := by
  have ha := Real.rpow_pos_of_pos h.1 (1 - s.index)
  have hb := Real.rpow_pos_of_pos (h.1.trans h.2) (1 - s.index)
  rcases h0.eq_or_lt with rfl | h0
  · simpa using ha
  · have := mul_nonneg (sub_nonneg.mpr h1) ha.le
    have := mul_pos h0 hb
    linarith

theorem pow_sample (s : PowerLaw) (h : s.Valid) (h1 : s.index ≠ 1) (g : ℝ) (h0 : 0 ≤ g) (hg : g ≤ 1) :
    0 < s.sampleEnergy g ∧ s.sampleEnergy g ^ (1 - s.index) = (1 - g) * s.energyMin ^ (1 - s.index) + g * s.energyMax ^ (1 - s.index) := by
  have hp := mix_pos s h g h0 hg
  simp only [PowerLaw.sampleEnergy, if_neg h.2.ne, if_neg h1, uniform01]
  refine ⟨Real.rpow_pos_of_pos hp _, ?_⟩
  rw [← Real.rpow_mul hp.le, one_div_mul_cancel (sub_ne_zero.mpr h1.symm), Real.rpow_one]

theorem sample_pos (s : PowerLaw) (h : s.Valid) (g : ℝ) (h0 : 0 ≤ g) (hg : g ≤ 1) : 0 < s.sampleEnergy g := by
  by_cases h1 : s.index = 1
  · rw [log_sample s h h1]
    exact mul_pos h.1 (Real.rpow_pos_of_pos (div_pos (h.1.trans h.2) h.1) _)
  · exact (pow_sample s h h1 g h0 hg).1

/-! ## Theorems -/

/-- The density has integral one over the range. -/
theorem C55_normalized (s : PowerLaw) (h : s.Valid) : ∫ e in s.energyMin..s.energyMax, s.pdf e = 1 := by
  rw [cdf_eq s h _ (h.1.trans h.2)]
  split
  · exact div_self (Real.log_pos (by rw [lt_div_iff₀ h.1, one_mul]; exact h.2)).ne'
  · rename_i h1
    exact div_self (rpow_ne s h h1)

/-- The density is positive on the range. -/
theorem C55_positive (s : PowerLaw) (h : s.Valid) (e : ℝ) (he : 0 < e) : 0 < s.pdf e := by
  have hp := h.1.trans h.2
  rw [PowerLaw.pdf, if_neg h.2.ne]
  split
  · exact one_div_pos.mpr (mul_pos he (Real.log_pos (by rw [lt_div_iff₀ h.1, one_mul]; exact h.2)))
  · rename_i h1
    have hep := Real.rpow_pos_of_pos he (-s.index)
    rcases lt_or_gt_of_ne h1 with h1 | h1
    · have := Real.rpow_lt_rpow h.1.le h.2 (sub_pos.mpr h1)
      exact div_pos_of_neg_of_neg (by nlinarith) (by linarith)
    · have := Real.rpow_lt_rpow_of_neg h.1 h.2 (sub_neg.mpr h1)
      exact div_pos (mul_pos hep (by linarith)) (by linarith)

/-- The share of the density below the sampled energy is the number drawn. -/
theorem C55_cumulative (s : PowerLaw) (h : s.Valid) (g : ℝ) (h0 : 0 ≤ g) (hg : g ≤ 1) : ∫ e in s.energyMin..s.sampleEnergy g, s.pdf e = g := by
  rw [cdf_eq s h _ (sample_pos s h g h0 hg)]
  split
  · rename_i h1
    have hl : 0 < Real.log (s.energyMax / s.energyMin) := Real.log_pos (by rw [lt_div_iff₀ h.1, one_mul]; exact h.2)
    rw [log_sample s h h1, mul_div_cancel_left₀ _ h.1.ne', Real.log_rpow (div_pos (h.1.trans h.2) h.1), mul_div_assoc, div_self hl.ne', mul_one]
  · rename_i h1
    rw [(pow_sample s h h1 g h0 hg).2, div_eq_iff (rpow_ne s h h1)]
    ring

theorem cdf_strictMono (s : PowerLaw) (h : s.Valid) (a b : ℝ) (ha : 0 < a) (hab : a < b) :
    ∫ e in s.energyMin..a, s.pdf e < ∫ e in s.energyMin..b, s.pdf e := by
  have hp := h.1.trans h.2
  rw [cdf_eq s h a ha, cdf_eq s h b (ha.trans hab)]
  split
  · have hl : 0 < Real.log (s.energyMax / s.energyMin) := Real.log_pos (by rw [lt_div_iff₀ h.1, one_mul]; exact h.2)
    exact div_lt_div_of_pos_right (Real.log_lt_log (div_pos ha h.1) (div_lt_div_of_pos_right hab h.1)) hl
  · rename_i h1
    rcases lt_or_gt_of_ne h1 with h1 | h1
    · have h2 := Real.rpow_lt_rpow h.1.le h.2 (sub_pos.mpr h1)
      have h3 := Real.rpow_lt_rpow ha.le hab (sub_pos.mpr h1)
      exact div_lt_div_of_neg_of_lt (by linarith) (by linarith)
    · have h2 := Real.rpow_lt_rpow_of_neg h.1 h.2 (sub_neg.mpr h1)
      have h3 := Real.rpow_lt_rpow_of_neg ha hab (sub_neg.mpr h1)
      exact div_lt_div_of_pos_right (by linarith) (by linarith)

/-- Sampled energies follow the density: the energy is at most `e` for exactly the outputs of the generator that are at most the share of the
density below `e`. -/
theorem C55_distribution (s : PowerLaw) (h : s.Valid) (g e : ℝ) (h0 : 0 ≤ g) (hg : g ≤ 1) (he : 0 < e) :
    s.sampleEnergy g ≤ e ↔ g ≤ ∫ x in s.energyMin..e, s.pdf x := by
  have hc := C55_cumulative s h g h0 hg
  constructor
  · intro hle
    rcases hle.eq_or_lt with hle | hle
    · rw [← hle, hc]
    · have := cdf_strictMono s h _ e (sample_pos s h g h0 hg) hle
      linarith
  · intro hle
    by_contra hlt
    have := cdf_strictMono s h e _ he (not_le.mp hlt)
    linarith

/-- Sampled energies lie in the range. -/
theorem C55_range (s : PowerLaw) (h : s.Valid) (g : ℝ) (h0 : 0 ≤ g) (hg : g < 1) :
    s.energyMin ≤ s.sampleEnergy g ∧ s.sampleEnergy g < s.energyMax := by
  have hc := C55_cumulative s h g h0 hg.le
  have hp := sample_pos s h g h0 hg.le
  constructor
  · by_contra hlt
    have := cdf_strictMono s h _ s.energyMin hp (not_le.mp hlt)
    rw [hc, intervalIntegral.integral_same] at this
    linarith
  · by_contra hlt
    have hle := not_lt.mp hlt
    have hn := C55_normalized s h
    rcases hle.eq_or_lt with he | he
    · rw [he, hc] at hn
      linarith
    · have := cdf_strictMono s h s.energyMax _ (h.1.trans h.2) he
      linarith

/-- With equal limits the only energy is returned. -/
theorem C55_single (s : PowerLaw) (h : s.energyMin = s.energyMax) (g : ℝ) : s.sampleEnergy g = s.energyMin := by
  rw [PowerLaw.sampleEnergy, if_pos h]

/-- The density is not zero outside the range: an energy that is never sampled has positive generation probability. -/
theorem C55_outside_fails (s : PowerLaw) (h : s.Valid) (e : ℝ) (he : s.energyMax < e) :
    0 < s.pdf e ∧ ∀ g, 0 ≤ g → g < 1 → s.sampleEnergy g ≠ e :=
  ⟨C55_positive s h e ((h.1.trans h.2).trans he), fun g h0 hg heq => by
    have := (C55_range s h g h0 hg).2
    linarith⟩

example : (PowerLaw.mk 2 1 2).Valid := ⟨by norm_num, by norm_num⟩

example : (PowerLaw.mk 2 1 2).sampleEnergy (1 / 2) = 4 / 3 := by
  rw [PowerLaw.sampleEnergy, if_neg (by norm_num), if_neg (by norm_num), uniform01]
  norm_num

end Siren.Distributions
