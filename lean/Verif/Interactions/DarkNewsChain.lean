import Verif.Interactions.DarkNews
import Verif.Interactions.LogChain

set_option autoImplicit false

/-!
# What the Metropolis chain of the upscattering cross sections samples
-/

namespace Siren
namespace DarkNews
namespace Setup

open Rk Dis MeasureTheory ENNReal Set

/-! ### Specification -/

/-- The expected value of `g Q2` after one pass from `q`: the logarithm of the proposal is uniform between those of the limits,
the number for the decision is uniform in `[0, 1]`. -/
noncomputable def after (S : Setup) (g : ℝ → ℝ≥0∞) (q : ℝ) : ℝ≥0∞ :=
  (volume (Icc (log10 S.qMin) (log10 S.qMax)))⁻¹ * ∫⁻ l in Icc (log10 S.qMin) (log10 S.qMax), ∫⁻ v in Icc (0 : ℝ) 1,
    g (S.next ⟨q, S.dxs q⟩ (pow10 l) v).q

/-- The situation of the theorems: a moving primary, limits that are not empty, a cross section that is not negative. -/
structure Good (S : Setup) : Prop where
  moving : S.p ≠ 0
  low : 0 < S.qMin
  range : S.qMin < S.qMax
  measurable : Measurable S.dxs
  nonneg : ∀ q, 0 ≤ S.dxs q

/-! ### Lemmas -/

variable {S : Setup}

theorem measurable_physical (hp : S.p ≠ 0) : MeasurableSet {q | S.Physical q} := by
  have hE3 : Measurable S.E3 := by unfold E3 E4; fun_prop
  have hnum : Measurable S.num := by unfold num; fun_prop
  have : {q | S.Physical q} = {q | 0 < S.E3 q * S.E3 q - S.m3 * S.m3} ∩
      {q | |S.num q| ≤ S.p.norm * Real.sqrt (S.E3 q * S.E3 q - S.m3 * S.m3)} := by
    ext q
    exact physical_iff hp q
  rw [this]
  apply MeasurableSet.inter
  · exact measurableSet_lt measurable_const (by fun_prop)
  · exact measurableSet_le (by fun_prop) (by fun_prop)

/-- The chain in general terms. -/
noncomputable def walk (S : Setup) : LogChain.Walk := ⟨S.qMin, S.qMax, S.dxs, S.Physical⟩

theorem walk_good (h : S.Good) : S.walk.Good :=
  ⟨h.low, h.range, h.measurable, measurable_physical h.moving, fun q _ => h.nonneg q⟩

theorem after_walk (S : Setup) (g : ℝ → ℝ≥0∞) (q : ℝ) : S.after g q = S.walk.after g q := by
  classical
  unfold after LogChain.Walk.after walk
  simp only
  congr 1
  refine lintegral_congr fun l => lintegral_congr fun v => ?_
  unfold next
  by_cases ha : accepts (S.dxs q) (S.dxs (pow10 l)) v
  · by_cases hp : S.Physical (pow10 l)
    · simp [ha, hp]
    · simp [ha, hp]
  · simp [ha]

/-! ### The claims -/

open Classical in
/-- C127, what is sampled instead of the reported density: one pass of the loop leaves unchanged the distribution with density
`DifferentialCrossSection(Q2)` divided by Q2 on the physical points between the limits. -/
theorem C127_stationary_partial (h : S.Good) {g : ℝ → ℝ≥0∞} (hg : Measurable g) :
    ∫⁻ q in Icc S.qMin S.qMax, (if S.Physical q then ENNReal.ofReal (S.dxs q / q) * S.after g q else 0) =
      ∫⁻ q in Icc S.qMin S.qMax, (if S.Physical q then ENNReal.ofReal (S.dxs q / q) * g q else 0) := by
  simp only [after_walk]
  exact (walk_good h).stationary hg

/-- C127 fails for the density: where every point between the limits is physical, one pass of the loop started from the
distribution with the reported density `DifferentialCrossSection(Q2)` lowers the share of events above any Q2 between the
limits. -/
theorem C127_density_fails (h : S.Good) (hphys : ∀ q ∈ Icc S.qMin S.qMax, S.Physical q)
    (hpos : ∀ q ∈ Icc S.qMin S.qMax, 0 < S.dxs q) {M : ℝ} (hM : ∀ q ∈ Icc S.qMin S.qMax, S.dxs q ≤ M)
    {c : ℝ} (hc : S.qMin < c) (hcM : c < S.qMax) :
    ∫⁻ q in Icc S.qMin S.qMax, ENNReal.ofReal (S.dxs q) * S.after ((Ioi c).indicator 1) q <
      ∫⁻ q in Icc S.qMin S.qMax, ENNReal.ofReal (S.dxs q) * (Ioi c).indicator 1 q := by
  simp only [after_walk]
  exact (walk_good h).drains hphys hpos hM hc hcM

/-- The hypotheses are met: a massless primary of energy one, all masses of the example `tight`, Q2 between 1/10 and 1/2, and a
constant cross section. -/
example : ∃ S : Setup, S.Good ∧ (∀ q ∈ Icc S.qMin S.qMax, S.Physical q) ∧ (∀ q ∈ Icc S.qMin S.qMax, 0 < S.dxs q) ∧
    (∀ q ∈ Icc S.qMin S.qMax, S.dxs q ≤ 1) ∧ S.qMin < 1 / 4 ∧ 1 / 4 < S.qMax := by
  let S : Setup := ⟨⟨1, 0, 0⟩, 0, 1, 1 / 2, 1, 1 / 10, 1 / 2, fun _ => 1⟩
  have hp : S.p ≠ 0 := by
    intro h
    have : (1 : ℝ) = 0 := congrArg Vec3.x h
    norm_num at this
  refine ⟨S, ⟨hp, by norm_num [S], by norm_num [S], measurable_const, fun _ => by norm_num [S]⟩, ?_, by simp [S], by simp [S],
    by norm_num [S], by norm_num [S]⟩
  rintro q ⟨h1, h2⟩
  have h1 : (1 / 10 : ℝ) ≤ q := h1
  have h2 : q ≤ (1 / 2 : ℝ) := h2
  rw [physical_iff hp]
  have hE1 : S.E1 = 1 := beam_E1
  have hE3 : S.E3 q = 1 - q / 2 := by
    unfold E3
    rw [hE1, e2_eq (m := S.m2) (show (0 : ℝ) < 1 by norm_num)]
    show (1 : ℝ) + 1 - ((q + 1 * 1 + 1 * 1) / (2 * 1)) = 1 - q / 2
    ring
  have hm3 : S.m3 = 1 / 2 := rfl
  have hm1 : S.m1 = 0 := rfl
  have hn : S.p.norm = 1 := by
    show Real.sqrt (Vec3.dot (⟨1, 0, 0⟩ : Vec3 ℝ) ⟨1, 0, 0⟩) = 1
    simp [Vec3.dot]
  unfold num
  rw [hE1, hE3, hm3, hm1, hn]
  constructor
  · nlinarith
  · simp only [one_mul]
    apply Real.le_sqrt_of_sq_le
    rw [sq_abs]
    norm_num
    nlinarith

end Setup
end DarkNews
end Siren
