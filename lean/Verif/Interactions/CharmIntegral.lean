import Mathlib.Analysis.SpecialFunctions.Integrals.Basic
import Mathlib.MeasureTheory.Integral.IntervalIntegral.FundThmCalculus

set_option autoImplicit false

/-!
# The integral of the positive part of a quadratic

`integratePositivePartQuadratic` of `interactions/private/CharmDecayKinematics.h`.
-/

namespace Siren
namespace Charm

open MeasureTheory Set

/-! ### Model -/

/-- `F` (CharmDecayKinematics.h:87). -/
noncomputable def primitive (a2 a1 a0 c : ℝ) : ℝ := a2 * c * c * c / 3 + a1 * c * c / 2 + a0 * c

open Classical in
/-- `seg` (CharmDecayKinematics.h:88-91). -/
noncomputable def seg (a2 a1 a0 x0 x1 : ℝ) : ℝ := if x1 ≤ x0 then 0 else primitive a2 a1 a0 x1 - primitive a2 a1 a0 x0

open Classical in
/-- `integratePositivePartQuadratic` (CharmDecayKinematics.h:84-116). -/
noncomputable def positivePart (a2 a1 a0 lo hi : ℝ) : ℝ :=
  if hi ≤ lo then 0
  else
    let scale := |a1| + |a0| + 1
    if |a2| < 1e-12 * scale then
      if |a1| < 1e-300 then (if a0 > 0 then seg a2 a1 a0 lo hi else 0)
      else
        let root := -a0 / a1
        if a1 > 0 then seg a2 a1 a0 (max lo root) hi else seg a2 a1 a0 lo (min hi root)
    else
      let disc := a1 * a1 - 4 * a2 * a0
      if disc ≤ 0 then (if a2 > 0 then seg a2 a1 a0 lo hi else 0)
      else
        let sq := Real.sqrt disc
        let qq := -0.5 * (a1 + (if a1 ≥ 0 then sq else -sq))
        let r1 := qq / a2
        let r2 := a0 / qq
        let rlo := min r1 r2
        let rhi := max r1 r2
        if a2 > 0 then seg a2 a1 a0 lo (min hi rlo) + seg a2 a1 a0 (max lo rhi) hi
        else seg a2 a1 a0 (max lo rlo) (min hi rhi)

/-! ### Specification -/

/-- The quadratic. -/
def quad (a2 a1 a0 c : ℝ) : ℝ := a0 + a1 * c + a2 * c ^ 2

/-- Its positive part integrated. -/
noncomputable def positiveIntegral (a2 a1 a0 lo hi : ℝ) : ℝ := ∫ c in Ioc lo hi, max 0 (quad a2 a1 a0 c)

/-! ### Proof -/

variable {a2 a1 a0 : ℝ}

theorem continuous_quad (a2 a1 a0 : ℝ) : Continuous (quad a2 a1 a0) := by unfold quad; fun_prop

theorem seg_eq (a2 a1 a0 x0 x1 : ℝ) : seg a2 a1 a0 x0 x1 = ∫ c in Ioc x0 x1, quad a2 a1 a0 c := by
  unfold seg
  split
  next h => rw [Ioc_eq_empty (not_lt.mpr h)]; simp
  next h =>
    push Not at h
    rw [← intervalIntegral.integral_of_le h.le]
    have hd : ∀ c ∈ uIcc x0 x1, HasDerivAt (primitive a2 a1 a0) (quad a2 a1 a0 c) c := by
      intro c _
      have h1 : HasDerivAt (fun c : ℝ => a2 * c ^ 3 / 3 + a1 * c ^ 2 / 2 + a0 * c) (quad a2 a1 a0 c) c := by
        have h3 := (((hasDerivAt_id' c).pow 3).const_mul a2).div_const 3
        have h2 := (((hasDerivAt_id' c).pow 2).const_mul a1).div_const 2
        have h0 := (hasDerivAt_id' c).const_mul a0
        refine ((h3.add h2).add h0).congr_deriv ?_
        unfold quad; simp; ring
      have e : primitive a2 a1 a0 = fun c : ℝ => a2 * c ^ 3 / 3 + a1 * c ^ 2 / 2 + a0 * c := by
        funext c; unfold primitive; ring
      rw [e]; exact h1
    exact (intervalIntegral.integral_eq_sub_of_hasDerivAt hd
      ((continuous_quad a2 a1 a0).intervalIntegrable x0 x1)).symm

theorem integrable_quad (a2 a1 a0 lo hi : ℝ) : IntegrableOn (quad a2 a1 a0) (Ioc lo hi) :=
  ((continuous_quad a2 a1 a0).integrableOn_Icc).mono_set Ioc_subset_Icc_self

/-- The integral of the positive part is the integral over the points where the quadratic is positive. -/
theorem positive_eq (a2 a1 a0 lo hi : ℝ) {s : Set ℝ} (hs : MeasurableSet s) (h1 : ∀ c ∈ Ioc lo hi, c ∈ s → 0 ≤ quad a2 a1 a0 c)
    (h2 : ∀ c ∈ Ioc lo hi, c ∉ s → quad a2 a1 a0 c ≤ 0) :
    positiveIntegral a2 a1 a0 lo hi = ∫ c in Ioc lo hi ∩ s, quad a2 a1 a0 c := by
  unfold positiveIntegral
  rw [← setIntegral_indicator hs]
  refine setIntegral_congr_fun measurableSet_Ioc fun c hc => ?_
  by_cases h : c ∈ s
  · rw [indicator_of_mem h]; exact max_eq_right (h1 c hc h)
  · rw [indicator_of_notMem h]; exact max_eq_left (h2 c hc h)

theorem positive_of_nonneg {lo hi : ℝ} (h : ∀ c ∈ Ioc lo hi, 0 ≤ quad a2 a1 a0 c) :
    positiveIntegral a2 a1 a0 lo hi = seg a2 a1 a0 lo hi := by
  rw [positive_eq a2 a1 a0 lo hi MeasurableSet.univ (fun c hc _ => h c hc) (fun c _ hc => absurd (mem_univ c) hc), inter_univ,
    seg_eq]

theorem positive_of_nonpos {lo hi : ℝ} (h : ∀ c ∈ Ioc lo hi, quad a2 a1 a0 c ≤ 0) : positiveIntegral a2 a1 a0 lo hi = 0 := by
  rw [positive_eq a2 a1 a0 lo hi MeasurableSet.empty (fun c _ hc => absurd hc (notMem_empty c)) (fun c hc _ => h c hc)]
  simp

/-- The quadratic away from the linear fallback. -/
theorem positivePart_quadratic {lo hi : ℝ} (h2 : ¬ |a2| < 1e-12 * (|a1| + |a0| + 1)) :
    positivePart a2 a1 a0 lo hi = positiveIntegral a2 a1 a0 lo hi := by
  have hne : a2 ≠ 0 := by
    intro h
    apply h2
    rw [h, abs_zero]
    have := abs_nonneg a1
    have := abs_nonneg a0
    positivity
  unfold positivePart
  split
  next h => unfold positiveIntegral; rw [Ioc_eq_empty (not_lt.mpr h)]; simp
  next hlh =>
    push Not at hlh
    simp only
    rw [if_neg h2]
    have hsq : ∀ c, 4 * a2 * quad a2 a1 a0 c = (2 * a2 * c + a1) ^ 2 - (a1 * a1 - 4 * a2 * a0) := by
      intro c; unfold quad; ring
    split
    next hdisc =>
      have hsign : ∀ c, 0 ≤ a2 * quad a2 a1 a0 c := by
        intro c
        have := hsq c
        nlinarith [sq_nonneg (2 * a2 * c + a1)]
      split
      next hp => exact (positive_of_nonneg fun c _ => nonneg_of_mul_nonneg_right (hsign c) hp).symm
      next hp =>
        have hn : a2 < 0 := lt_of_le_of_ne (not_lt.mp hp) hne
        refine (positive_of_nonpos fun c _ => ?_).symm
        by_contra hc
        push Not at hc
        have := mul_neg_of_neg_of_pos hn hc
        linarith [hsign c]
    next hdisc =>
      push Not at hdisc
      set sq := Real.sqrt (a1 * a1 - 4 * a2 * a0) with hsqd
      have hs0 : 0 < sq := Real.sqrt_pos.mpr hdisc
      have hss : sq * sq = a1 * a1 - 4 * a2 * a0 := Real.mul_self_sqrt hdisc.le
      set qq := -0.5 * (a1 + (if a1 ≥ 0 then sq else -sq)) with hqq
      have hq0 : qq ≠ 0 := by
        rw [hqq]
        split
        next h => intro hc; linarith
        next h => intro hc; push Not at h; linarith
      have hqr : qq * qq + a1 * qq + a2 * a0 = 0 := by
        rw [hqq]
        split
        · linear_combination (1 / 4) * hss
        · linear_combination (1 / 4) * hss
      have hfac : ∀ c, quad a2 a1 a0 c = a2 * ((c - qq / a2) * (c - a0 / qq)) := by
        intro c
        have e : a2 * ((c - qq / a2) * (c - a0 / qq)) = a2 * c ^ 2 - (a2 * a0 / qq + qq) * c + a0 := by
          field_simp
          ring
        have e2 : a2 * a0 / qq + qq = -a1 := by
          field_simp
          linear_combination hqr
        rw [e, e2]; unfold quad; ring
      set rlo := min (qq / a2) (a0 / qq) with hrlo
      set rhi := max (qq / a2) (a0 / qq) with hrhi
      have hfac2 : ∀ c, quad a2 a1 a0 c = a2 * ((c - rlo) * (c - rhi)) := by
        intro c
        rw [hfac]
        rcases le_total (qq / a2) (a0 / qq) with h | h
        · rw [hrlo, hrhi, min_eq_left h, max_eq_right h]
        · rw [hrlo, hrhi, min_eq_right h, max_eq_left h]; ring
      have hle : rlo ≤ rhi := min_le_max
      split
      next hp =>
        have e := positive_eq a2 a1 a0 lo hi (s := Iic rlo ∪ Ioi rhi) (measurableSet_Iic.union measurableSet_Ioi)
          (by
            rintro c - hc
            rw [hfac2]
            apply mul_nonneg hp.le
            rcases hc with hc | hc
            · exact mul_nonneg_of_nonpos_of_nonpos (by linarith [mem_Iic.mp hc]) (by linarith [mem_Iic.mp hc])
            · exact mul_nonneg (by linarith [mem_Ioi.mp hc]) (by linarith [mem_Ioi.mp hc]))
          (by
            rintro c - hc
            rw [hfac2]
            simp only [mem_union, mem_Iic, mem_Ioi, not_or, not_le, not_lt] at hc
            exact mul_nonpos_of_nonneg_of_nonpos hp.le (mul_nonpos_of_nonneg_of_nonpos (by linarith) (by linarith)))
        rw [e, seg_eq, seg_eq, inter_union_distrib_left]
        have e1 : Ioc lo hi ∩ Iic rlo = Ioc lo (min hi rlo) := by
          ext c; simp only [mem_inter_iff, mem_Ioc, mem_Iic, le_min_iff]; tauto
        have e2 : Ioc lo hi ∩ Ioi rhi = Ioc (max lo rhi) hi := by
          ext c; simp only [mem_inter_iff, mem_Ioc, mem_Ioi, max_lt_iff]; tauto
        rw [e1, e2, setIntegral_union _ measurableSet_Ioc (integrable_quad _ _ _ _ _) (integrable_quad _ _ _ _ _)]
        rw [Set.disjoint_left]
        rintro c ⟨-, h1⟩ ⟨h3, -⟩
        have := (le_min_iff.mp h1).2
        have := (max_lt_iff.mp h3).2
        linarith
      next hp =>
        have hn : a2 < 0 := lt_of_le_of_ne (not_lt.mp hp) hne
        have e := positive_eq a2 a1 a0 lo hi (s := Ioc rlo rhi) measurableSet_Ioc
          (by
            rintro c - hc
            rw [hfac2]
            exact mul_nonneg_of_nonpos_of_nonpos hn.le (mul_nonpos_of_nonneg_of_nonpos (by linarith [hc.1]) (by linarith [hc.2])))
          (by
            rintro c - hc
            rw [hfac2]
            apply mul_nonpos_of_nonpos_of_nonneg hn.le
            by_cases h : rlo < c
            · have : rhi < c := by
                by_contra h'
                exact hc ⟨h, not_lt.mp h'⟩
              exact mul_nonneg (by linarith) (by linarith)
            · push Not at h
              exact mul_nonneg_of_nonpos_of_nonpos (by linarith) (by linarith))
        rw [e, seg_eq]
        have e1 : Ioc lo hi ∩ Ioc rlo rhi = Ioc (max lo rlo) (min hi rhi) := by
          ext c; simp only [mem_inter_iff, mem_Ioc, le_min_iff, max_lt_iff]; tauto
        rw [e1]

set_option exponentiation.threshold 500 in
theorem tiny_pos : (0 : ℝ) < 1e-300 := by norm_num

/-- The linear fallback where the linear part does not change sign: positive. -/
theorem positivePart_linear_pos (h2 : |a2| < 1e-12 * (|a1| + |a0| + 1))
    (hl : 0 < a0 - a1) (hh : 0 < a0 + a1) (hq : ∀ c ∈ Ioc (-1 : ℝ) 1, 0 ≤ quad a2 a1 a0 c) :
    positivePart a2 a1 a0 (-1) 1 = positiveIntegral a2 a1 a0 (-1) 1 := by
  rw [positive_of_nonneg hq]
  unfold positivePart
  rw [if_neg (by norm_num)]
  simp only
  rw [if_pos h2]
  split
  next h1 => rw [if_pos (by linarith)]
  next h1 =>
    have hne : a1 ≠ 0 := by intro h; apply h1; rw [h, abs_zero]; exact tiny_pos
    split
    next hp =>
      have : -a0 / a1 ≤ -1 := by rw [div_le_iff₀ hp]; linarith
      rw [max_eq_left this]
    next hp =>
      have hn : a1 < 0 := lt_of_le_of_ne (not_lt.mp hp) hne
      have : 1 ≤ -a0 / a1 := by rw [le_div_iff_of_neg hn]; linarith
      rw [min_eq_left this]

/-- The linear fallback where the linear part does not change sign: not positive. -/
theorem positivePart_linear_neg (h2 : |a2| < 1e-12 * (|a1| + |a0| + 1))
    (hl : a0 - a1 ≤ 0) (hh : a0 + a1 ≤ 0) (hq : ∀ c ∈ Ioc (-1 : ℝ) 1, quad a2 a1 a0 c ≤ 0) :
    positivePart a2 a1 a0 (-1) 1 = positiveIntegral a2 a1 a0 (-1) 1 := by
  rw [positive_of_nonpos hq]
  unfold positivePart
  rw [if_neg (by norm_num)]
  simp only
  rw [if_pos h2]
  split
  next h1 => rw [if_neg (by linarith)]
  next h1 =>
    have hne : a1 ≠ 0 := by intro h; apply h1; rw [h, abs_zero]; exact tiny_pos
    unfold seg
    split
    next hp =>
      have : 1 ≤ -a0 / a1 := by rw [le_div_iff₀ hp]; linarith
      rw [if_pos (le_trans this (le_max_right _ _))]
    next hp =>
      have hn : a1 < 0 := lt_of_le_of_ne (not_lt.mp hp) hne
      have : -a0 / a1 ≤ -1 := by rw [div_le_iff_of_neg hn]; linarith
      rw [if_pos (le_trans (min_le_right _ _) this)]

end Charm
end Siren
