import Verif.Util.Sampling
import Mathlib.Analysis.SpecialFunctions.Gaussian.GaussianIntegral
import Mathlib.MeasureTheory.Integral.IntervalIntegral.FundThmCalculus
import Mathlib.MeasureTheory.Measure.Lebesgue.Basic

set_option autoImplicit false

/-!
# C95: the spectrum with a modified Moyal distribution and an exponential

Models `ModifiedMoyalPlusExponentialEnergyDistribution` (distributions/private/primary/energy/ModifiedMoyalPlusExponentialEnergyDistribution.cxx). Doubles are real numbers,
`std::erf` is the error function, and the numerical integrator is a parameter.
-/

namespace Siren.Distributions.Moyal

open MeasureTheory Set Real
open Dis (uniform)
open scoped ENNReal

/-- The members (ModifiedMoyalPlusExponentialEnergyDistribution.h:33-39). -/
structure Params where
  energyMin : ℝ
  energyMax : ℝ
  mu : ℝ
  sigma : ℝ
  A : ℝ
  l : ℝ
  B : ℝ

/-- `unnormed_pdf` (ModifiedMoyalPlusExponentialEnergyDistribution.cxx:24-29). -/
noncomputable def unnormed (p : Params) (energy : ℝ) : ℝ :=
  let x := (energy - p.mu) / p.sigma
  let moyal := (p.A / p.sigma) * exp (-(x + exp (-x)) / 2) / sqrt (2.0 * π)
  let exponential := (p.B / p.l) * exp (-energy / p.l)
  moyal + exponential

/-- `pdf` (ModifiedMoyalPlusExponentialEnergyDistribution.cxx:31-33). -/
noncomputable def pdf (p : Params) (integral energy : ℝ) : ℝ := unnormed p energy / integral

/-- `std::erf`. -/
noncomputable def erf (x : ℝ) : ℝ := 2 / sqrt π * ∫ t in (0 : ℝ)..x, exp (-t ^ 2)

/-- `pdf_integral` (ModifiedMoyalPlusExponentialEnergyDistribution.cxx:35-39). -/
noncomputable def pdfIntegral (p : Params) : ℝ :=
  let exponential := p.B * (exp (-p.energyMin / p.l) - exp (-p.energyMax / p.l))
  let moyal := p.A * (erf (exp ((p.mu - p.energyMin) / (2.0 * p.sigma)) / sqrt 2.0) - erf (exp ((p.mu - p.energyMax) / (2.0 * p.sigma)) / sqrt 2.0))
  exponential + moyal

open Classical in
/-- The member `integral` set by the constructor (ModifiedMoyalPlusExponentialEnergyDistribution.cxx:50-58); `romberg` is the integrator, from `energyMin` to `energyMax`. -/
noncomputable def integralOf (romberg : (ℝ → ℝ) → ℝ) (p : Params) : ℝ :=
  let integral := pdfIntegral p
  let test_norm := romberg (pdf p integral)
  if |1.0 - test_norm| < 1e-6 then romberg (pdf p 1.0) else integral

open Classical in
/-- `odds > 1` or `Uniform(0,1) < odds` with `odds` the ratio of the densities (ModifiedMoyalPlusExponentialEnergyDistribution.cxx:80-81); for a density of zero
the ratio is infinite or not a number. -/
def accepts (density test u : ℝ) : Prop :=
  if density = 0 then test > 0 else test / density > 1 ∨ uniform 0 1 u < test / density

open Classical in
/-- One pass of the loop (ModifiedMoyalPlusExponentialEnergyDistribution.cxx:77-86); `d` holds the outputs of the generator for the proposal and for the decision (drawn by the code only if it is needed). -/
noncomputable def step (p : Params) (integral : ℝ) (s : ℝ × ℝ) (d : ℝ × ℝ) : ℝ × ℝ :=
  let test := uniform p.energyMin p.energyMax d.1
  let density := pdf p integral test
  if accepts s.2 density d.2 then (test, density) else s

/-- `SampleEnergy` (ModifiedMoyalPlusExponentialEnergyDistribution.cxx:64-89): a first energy, then `burnin + 1` passes. -/
noncomputable def sampleEnergy (p : Params) (integral : ℝ) (g₀ : ℝ) (draws : List (ℝ × ℝ)) : ℝ :=
  let energy := uniform p.energyMin p.energyMax g₀
  (draws.foldl (step p integral) (energy, pdf p integral energy)).1

/-- The number of passes: `j` runs from 0 to `burnin`, which is 40 (ModifiedMoyalPlusExponentialEnergyDistribution.h:41, cxx:77). -/
def passes : Nat := 40 + 1

open Classical in
/-- `GenerationProbability` (ModifiedMoyalPlusExponentialEnergyDistribution.cxx:91-97). -/
noncomputable def generationProbability (p : Params) (integral energy : ℝ) : ℝ :=
  if energy < p.energyMin ∨ energy > p.energyMax then 0 else pdf p integral energy

/-! ### Specification -/

/-- **Specification.** A range of energies and a spectrum that is positive. -/
def Valid (p : Params) : Prop := p.energyMin < p.energyMax ∧ 0 < p.sigma ∧ 0 < p.l ∧ 0 ≤ p.A ∧ 0 ≤ p.B ∧ 0 < p.A + p.B

/-- **Specification.** The mean of `F` over `n` pairs of independent outputs of the generator, uniform on `[0, 1]`. -/
noncomputable def mean : Nat → (List (ℝ × ℝ) → ℝ≥0∞) → ℝ≥0∞
  | 0, F => F []
  | n + 1, F => ∫⁻ g in Icc (0 : ℝ) 1, (∫⁻ u in Icc (0 : ℝ) 1, mean n (fun ds => F ((g, u) :: ds)))

/-- **Specification.** The probability that the sampled energy lies in `S`. -/
noncomputable def probability (p : Params) (integral : ℝ) (S : Set ℝ) : ℝ≥0∞ :=
  ∫⁻ g₀ in Icc (0 : ℝ) 1, mean passes (fun ds => S.indicator 1 (sampleEnergy p integral g₀ ds))

/-! ### The closed form -/

theorem continuous_gauss : Continuous fun t : ℝ => exp (-t ^ 2) := by fun_prop

theorem hasDerivAt_erf (x : ℝ) : HasDerivAt erf (2 / sqrt π * exp (-x ^ 2)) x :=
  (intervalIntegral.integral_hasDerivAt_right (continuous_gauss.intervalIntegrable _ _) (continuous_gauss.stronglyMeasurableAtFilter _ _) continuous_gauss.continuousAt).const_mul _

theorem continuous_unnormed (p : Params) : Continuous (unnormed p) := by
  unfold unnormed
  fun_prop

theorem hasDerivAt_closed (p : Params) (hs : p.sigma ≠ 0) (hl : p.l ≠ 0) (e : ℝ) :
    HasDerivAt (fun e => -(p.B * exp (-e / p.l)) - p.A * erf (exp ((p.mu - e) / (2.0 * p.sigma)) / sqrt 2.0)) (unnormed p e) e := by
  have h1 : HasDerivAt (fun e : ℝ => -e / p.l) (-1 / p.l) e := ((hasDerivAt_id e).neg).div_const _
  have h2 : HasDerivAt (fun e : ℝ => (p.mu - e) / (2.0 * p.sigma)) (-1 / (2.0 * p.sigma)) e := by
    have := ((hasDerivAt_id e).const_sub p.mu).div_const (2.0 * p.sigma)
    simpa using this
  have h3 := (hasDerivAt_erf (exp ((p.mu - e) / (2.0 * p.sigma)) / sqrt 2.0)).comp e (h2.exp.div_const (sqrt 2.0))
  have h := ((h1.exp.const_mul p.B).neg).sub (h3.const_mul p.A)
  refine h.congr_deriv ?_
  have hsq : (exp ((p.mu - e) / (2.0 * p.sigma)) / sqrt 2.0) ^ 2 = exp (-((e - p.mu) / p.sigma)) / 2 := by
    rw [div_pow, sq_sqrt (by norm_num), ← exp_nat_mul]
    congr 2
    · norm_num
      field_simp
      ring
    · norm_num
  have hexp : exp (-((e - p.mu) / p.sigma + exp (-((e - p.mu) / p.sigma))) / 2) =
      exp (-(exp (-((e - p.mu) / p.sigma)) / 2)) * exp ((p.mu - e) / (2.0 * p.sigma)) := by
    rw [← exp_add]
    congr 1
    norm_num
    field_simp
    ring
  have hroot : sqrt (2.0 * π) = sqrt 2.0 * sqrt π := sqrt_mul (by norm_num) _
  have hp : sqrt π ≠ 0 := by positivity
  have h20 : sqrt (2.0 : ℝ) ≠ 0 := by positivity
  simp only [unnormed]
  rw [hexp, hsq, hroot]
  have h2 : (2.0 : ℝ) = 2 := by norm_num
  field_simp
  rw [h2]
  ring

/-- C95: the constant by which the spectrum is divided is its integral over the range of energies. -/
theorem C95_closed (p : Params) (hs : p.sigma ≠ 0) (hl : p.l ≠ 0) : pdfIntegral p = ∫ e in p.energyMin..p.energyMax, unnormed p e := by
  rw [intervalIntegral.integral_eq_sub_of_hasDerivAt (fun x _ => hasDerivAt_closed p hs hl x) ((continuous_unnormed p).intervalIntegrable _ _)]
  unfold pdfIntegral
  ring

theorem unnormed_pos {p : Params} (h : Valid p) (e : ℝ) : 0 < unnormed p e := by
  obtain ⟨_, hs, hl, hA, hB, hAB⟩ := h
  simp only [unnormed]
  rcases hA.eq_or_lt with h0 | h0
  · have hB' : 0 < p.B := by linarith
    have h1 : 0 ≤ p.A / p.sigma * exp (-((e - p.mu) / p.sigma + exp (-((e - p.mu) / p.sigma))) / 2) / sqrt (2.0 * π) := by positivity
    have h2 : 0 < p.B / p.l * exp (-e / p.l) := by positivity
    linarith
  · have hpi : 0 < sqrt (2.0 * π) := sqrt_pos.mpr (by positivity)
    have h1 : 0 < p.A / p.sigma * exp (-((e - p.mu) / p.sigma + exp (-((e - p.mu) / p.sigma))) / 2) / sqrt (2.0 * π) := by positivity
    have h2 : 0 ≤ p.B / p.l * exp (-e / p.l) := by positivity
    linarith

theorem integral_unnormed_pos {p : Params} (h : Valid p) : 0 < ∫ e in p.energyMin..p.energyMax, unnormed p e :=
  intervalIntegral.intervalIntegral_pos_of_pos ((continuous_unnormed p).intervalIntegrable _ _) (unnormed_pos h) h.1

theorem generation_eq {p : Params} (i : ℝ) : generationProbability p i = (Icc p.energyMin p.energyMax).indicator (pdf p i) := by
  funext e
  by_cases he : e ∈ Icc p.energyMin p.energyMax
  · rw [indicator_of_mem he, generationProbability, if_neg]
    push Not
    exact ⟨he.1, he.2⟩
  · rw [indicator_of_notMem he, generationProbability, if_pos]
    by_contra hc
    push Not at hc
    exact he ⟨hc.1, hc.2⟩

theorem integral_generation {p : Params} (hlt : p.energyMin ≤ p.energyMax) (i : ℝ) :
    ∫ e, generationProbability p i e = (∫ e in p.energyMin..p.energyMax, unnormed p e) / i := by
  rw [generation_eq, integral_indicator measurableSet_Icc, integral_Icc_eq_integral_Ioc, ← intervalIntegral.integral_of_le hlt]
  simp only [pdf]
  rw [intervalIntegral.integral_div]

/-- C95: the reported density is positive on the range of energies and zero outside. Its integral is 1 if the integrator is exact, and deviates from 1 by as much as the integrator is wrong otherwise. -/
theorem C95_density {p : Params} (h : Valid p) (romberg : (ℝ → ℝ) → ℝ) {ε : ℝ} (h1 : ε < 1)
    (hr : |romberg (pdf p 1.0) - ∫ e in p.energyMin..p.energyMax, pdf p 1.0 e| ≤ ε * ∫ e in p.energyMin..p.energyMax, pdf p 1.0 e) :
    (∀ e ∈ Icc p.energyMin p.energyMax, 0 < generationProbability p (integralOf romberg p) e) ∧
    (∀ e, e ∉ Icc p.energyMin p.energyMax → generationProbability p (integralOf romberg p) e = 0) ∧
    1 / (1 + ε) ≤ ∫ e, generationProbability p (integralOf romberg p) e ∧ ∫ e, generationProbability p (integralOf romberg p) e ≤ 1 / (1 - ε) := by
  have hI := integral_unnormed_pos h
  have hone : ∀ e, pdf p 1.0 e = unnormed p e := fun e => by simp only [pdf]; norm_num
  simp only [hone] at hr
  obtain ⟨I, hId⟩ : ∃ I, I = ∫ e in p.energyMin..p.energyMax, unnormed p e := ⟨_, rfl⟩
  rw [← hId] at hI hr
  rw [abs_le] at hr
  have hε : 0 ≤ ε := by
    by_contra hc
    push Not at hc
    nlinarith
  have hcases : integralOf romberg p = I ∨ integralOf romberg p = romberg (pdf p 1.0) := by
    simp only [integralOf]
    split_ifs
    · exact Or.inr rfl
    · left
      rw [C95_closed p h.2.1.ne' h.2.2.1.ne', hId]
  have hpos : 0 < integralOf romberg p := by
    rcases hcases with hc | hc <;> rw [hc]
    · exact hI
    · nlinarith [hr.1]
  have hbounds : (1 - ε) * I ≤ integralOf romberg p ∧ integralOf romberg p ≤ (1 + ε) * I := by
    rcases hcases with hc | hc <;> rw [hc]
    · constructor <;> nlinarith
    · constructor <;> nlinarith [hr.1, hr.2]
  rw [integral_generation h.1.le, ← hId]
  refine ⟨fun e he => ?_, fun e he => ?_, ?_, ?_⟩
  · rw [generation_eq, indicator_of_mem he]
    exact div_pos (unnormed_pos h e) hpos
  · rw [generation_eq, indicator_of_notMem he]
  · rw [div_le_div_iff₀ (by linarith) hpos]
    linarith [hbounds.2]
  · rw [div_le_div_iff₀ hpos (by linarith)]
    linarith [hbounds.1]

/-! ### The sampler -/

theorem uniform_eq {a b : ℝ} (h : a < b) (g : ℝ) : uniform a b g = (b - a) * g + a := by
  unfold uniform
  rw [if_neg h.not_gt]

/-- The law of a proposed energy. -/
noncomputable def proposal (a b : ℝ) : Measure ℝ := (volume.restrict (Icc (0 : ℝ) 1)).map (uniform a b)

theorem uniform_embedding {a b : ℝ} (h : a < b) : MeasurableEmbedding (uniform a b) := by
  have e : uniform a b = fun g => (b - a) * g + a := funext (uniform_eq h)
  rw [e]
  exact ((Homeomorph.mulLeft₀ (b - a) (by linarith)).trans (Homeomorph.addRight a)).measurableEmbedding

theorem lintegral_proposal {a b : ℝ} (h : a < b) (f : ℝ → ℝ≥0∞) : ∫⁻ y, f y ∂(proposal a b) = ∫⁻ g in Icc (0 : ℝ) 1, f (uniform a b g) :=
  (uniform_embedding h).lintegral_map f

theorem proposal_eq {a b : ℝ} (h : a < b) : proposal a b = (volume.restrict (Icc a b)).withDensity fun _ => ENNReal.ofReal (1 / (b - a)) := by
  have hba : 0 < b - a := by linarith
  have himg : uniform a b '' Icc 0 1 = Icc a b := by
    ext y
    simp only [mem_image, uniform_eq h]
    constructor
    · rintro ⟨g, ⟨h0, h1⟩, rfl⟩
      constructor <;> nlinarith
    · rintro ⟨h0, h1⟩
      refine ⟨(y - a) / (b - a), ⟨div_nonneg (by linarith) hba.le, ?_⟩, ?_⟩
      · rw [div_le_one hba]; linarith
      · field_simp; ring
  ext S hS
  rw [withDensity_const, Measure.smul_apply, Measure.restrict_apply hS, proposal, (uniform_embedding h).map_apply, Measure.restrict_apply ((uniform_embedding h).measurable hS)]
  have hpre : uniform a b ⁻¹' S ∩ Icc 0 1 = uniform a b ⁻¹' (S ∩ Icc a b) := by
    ext g
    simp only [mem_inter_iff, mem_preimage, uniform_eq h]
    constructor
    · rintro ⟨h1, h2, h3⟩
      exact ⟨h1, by nlinarith, by nlinarith⟩
    · rintro ⟨h1, h2, h3⟩
      exact ⟨h1, by nlinarith, by nlinarith⟩
  have e : uniform a b = (fun z => z + a) ∘ fun g => (b - a) * g := by
    funext g
    simp only [Function.comp, uniform_eq h]
  rw [hpre, e, preimage_comp, Real.volume_preimage_mul_left hba.ne', abs_inv, abs_of_pos hba, measure_preimage_add_right]
  simp only [one_div, smul_eq_mul]

instance proposal_prob {a b : ℝ} : IsProbabilityMeasure (proposal a b) := by
  have : IsProbabilityMeasure (volume.restrict (Icc (0 : ℝ) 1)) := ⟨by simp⟩
  refine Measure.isProbabilityMeasure_map ?_
  have : Measurable (uniform a b) := by
    unfold uniform
    split_ifs <;> fun_prop
  exact this.aemeasurable

theorem uniform_mem {a b g : ℝ} (h : a < b) (hg : g ∈ Icc (0 : ℝ) 1) : uniform a b g ∈ Icc a b := by
  rw [uniform_eq h]
  constructor <;> nlinarith [hg.1, hg.2]

/-- The passes of the loop are those of the general sampler with proposals of constant density. -/
theorem mean_sample {p : Params} (h : Valid p) {i : ℝ} (hi : 0 < i) (f : ℝ → ℝ≥0∞) :
    ∀ (n : Nat) (x : ℝ), x ∈ Icc p.energyMin p.energyMax →
      mean n (fun ds => f (ds.foldl (step p i) (x, pdf p i x)).1) =
        (Sampling.pass (proposal p.energyMin p.energyMax) (fun _ => 1) (generationProbability p i))^[n] f x
  | 0, x, _ => by simp [mean]
  | n + 1, x, hx => by
    classical
    rw [Function.iterate_succ_apply']
    rw [mean, Sampling.pass]
    rw [lintegral_proposal h.1]
    refine setLIntegral_congr_fun measurableSet_Icc fun g hg => ?_
    have hy := uniform_mem h.1 hg
    obtain ⟨y, hyd⟩ : ∃ y, y = uniform p.energyMin p.energyMax g := ⟨_, rfl⟩
    rw [← hyd] at hy
    have hpx : 0 < pdf p i x := div_pos (unnormed_pos h x) hi
    have hpy : 0 < pdf p i y := div_pos (unnormed_pos h y) hi
    have hw : ∀ z ∈ Icc p.energyMin p.energyMax, Sampling.weight 1 (generationProbability p i z) = pdf p i z := by
      intro z hz
      rw [generation_eq, indicator_of_mem hz, Sampling.weight, if_pos one_pos, div_one]
    have hstep : ∀ u : ℝ, mean n (fun ds => f (((g, u) :: ds).foldl (step p i) (x, pdf p i x)).1) =
        if accepts (pdf p i x) (pdf p i y) u then (Sampling.pass (proposal p.energyMin p.energyMax) (fun _ => 1) (generationProbability p i))^[n] f y
        else (Sampling.pass (proposal p.energyMin p.energyMax) (fun _ => 1) (generationProbability p i))^[n] f x := by
      intro u
      split_ifs with hacc
      · rw [← mean_sample h hi f n y hy]
        congr 1
        funext ds
        simp only [List.foldl_cons, step, ← hyd, hacc, if_true]
      · rw [← mean_sample h hi f n x hx]
        congr 1
        funext ds
        simp only [List.foldl_cons, step, ← hyd, hacc, if_false]
    simp only [hstep, ← hyd]
    rw [hw x hx, hw y hy]
    have := Metropolis.decision hpx.le hpy.le
      ((Sampling.pass (proposal p.energyMin p.energyMax) (fun _ => 1) (generationProbability p i))^[n] f y)
      ((Sampling.pass (proposal p.energyMin p.energyMax) (fun _ => 1) (generationProbability p i))^[n] f x)
    refine Eq.trans (lintegral_congr fun u => ?_) (Eq.trans this ?_)
    · have huni : uniform 0 1 u = u := by unfold uniform; rw [if_neg (by norm_num)]; ring
      have hiff : accepts (pdf p i x) (pdf p i y) u ↔ Dis.accepts (pdf p i x) (pdf p i y) u := by
        unfold accepts Dis.accepts
        rw [if_neg hpx.ne', huni]
        simp [hpx.ne']
      by_cases hu : Dis.accepts (pdf p i x) (pdf p i y) u
      · rw [if_pos (hiff.mpr hu), if_pos hu]
      · rw [if_neg (fun hc => hu (hiff.mp hc)), if_neg hu]
    · simp [Sampling.prob, hpx.ne']

/-- C95: after the 41 passes the probability that the sampled energy lies in a set differs from the integral of the reported density over that set, divided by its integral over the range, by at most `(1 - ε) ^ 41`, where `ε` is the ratio
of the mean of the spectrum over the range to an upper bound `W` for it. -/
theorem C95_sample {p : Params} (h : Valid p) {i : ℝ} (hi : 0 < i) {W : ℝ} (hW : ∀ e ∈ Icc p.energyMin p.energyMax, unnormed p e ≤ W) {ε : ℝ≥0∞}
    (hε : ε = ENNReal.ofReal ((∫ e in p.energyMin..p.energyMax, unnormed p e) / ((p.energyMax - p.energyMin) * W))) {S : Set ℝ} (hS : MeasurableSet S) :
    probability p i S ≤ (∫⁻ e in S, ENNReal.ofReal (generationProbability p i e)) / (∫⁻ e, ENNReal.ofReal (generationProbability p i e)) + (1 - ε) ^ 41 ∧
    (∫⁻ e in S, ENNReal.ofReal (generationProbability p i e)) / (∫⁻ e, ENNReal.ofReal (generationProbability p i e)) ≤ probability p i S + (1 - ε) ^ 41 ∧ 0 < ε ∧ ε ≤ 1 := by
  have hlt := h.1
  have hba : 0 < p.energyMax - p.energyMin := by linarith
  have hI := integral_unnormed_pos h
  have hpm : Measurable (pdf p i) := (continuous_unnormed p).measurable.div_const i
  have hgm : Measurable (generationProbability p i) := by
    rw [generation_eq]
    exact hpm.indicator measurableSet_Icc
  have hg0 : ∀ e, 0 ≤ generationProbability p i e := by
    intro e
    rw [generation_eq]
    exact indicator_nonneg (fun z _ => (div_pos (unnormed_pos h z) hi).le) e
  have hW0 : 0 < W := lt_of_lt_of_le (unnormed_pos h p.energyMin) (hW _ ⟨le_rfl, hlt.le⟩)
  have hprob : probability p i S = Sampling.returned (proposal p.energyMin p.energyMax) (fun _ => 1) (generationProbability p i) 41 (S.indicator 1) := by
    rw [Sampling.returned_eq _ _ hg0, lintegral_proposal hlt]
    unfold probability
    refine setLIntegral_congr_fun measurableSet_Icc fun g hg => ?_
    exact mean_sample h hi (S.indicator 1) 41 _ (uniform_mem hlt hg)
  have hν : proposal p.energyMin p.energyMax = (volume.restrict (Icc p.energyMin p.energyMax)).withDensity fun x => ENNReal.ofReal (1 / (p.energyMax - p.energyMin) * (fun _ : ℝ => (1 : ℝ)) x) := by
    rw [proposal_eq hlt]
    simp
  have hsupp : ∀ F : ℝ → ℝ≥0∞, ∫⁻ e in Icc p.energyMin p.energyMax, ENNReal.ofReal (generationProbability p i e) * F e = ∫⁻ e, ENNReal.ofReal (generationProbability p i e) * F e := by
    intro F
    rw [← lintegral_indicator measurableSet_Icc]
    refine lintegral_congr fun e => ?_
    by_cases he : e ∈ Icc p.energyMin p.energyMax
    · rw [indicator_of_mem he]
    · rw [indicator_of_notMem he, generation_eq, indicator_of_notMem he]
      simp
  have hZr : ∫⁻ e in Icc p.energyMin p.energyMax, ENNReal.ofReal (generationProbability p i e) = ENNReal.ofReal ((∫ e in p.energyMin..p.energyMax, unnormed p e) / i) := by
    rw [← integral_generation hlt.le, ofReal_integral_eq_lintegral_ofReal]
    · simpa using hsupp (fun _ => 1)
    · rw [generation_eq]
      rw [integrable_indicator_iff measurableSet_Icc]
      exact ((continuous_unnormed p).div_const i).continuousOn.integrableOn_Icc
    · exact Filter.Eventually.of_forall hg0
  have hZ : ∫⁻ e in Icc p.energyMin p.energyMax, ENNReal.ofReal (generationProbability p i e) ≠ 0 := by
    rw [hZr]
    simp only [ne_eq, ENNReal.ofReal_eq_zero, not_le]
    exact div_pos hI hi
  have hbound : ∀ x : ℝ, (0 : ℝ) < (fun _ : ℝ => (1 : ℝ)) x → generationProbability p i x ≤ W / i * (fun _ : ℝ => (1 : ℝ)) x := by
    intro x _
    rw [generation_eq, mul_one]
    by_cases hx : x ∈ Icc p.energyMin p.energyMax
    · rw [indicator_of_mem hx]
      exact div_le_div_of_nonneg_right (hW x hx) hi.le
    · rw [indicator_of_notMem hx]
      positivity
  have hε' : ε = ENNReal.ofReal (1 / (p.energyMax - p.energyMin)) * (∫⁻ e in Icc p.energyMin p.energyMax, ENNReal.ofReal (generationProbability p i e)) / ENNReal.ofReal (W / i) := by
    rw [hZr, ← ENNReal.ofReal_mul (by positivity), ← ENNReal.ofReal_div_of_pos (by positivity), hε]
    congr 1
    field_simp
  have htar : Sampling.target (volume.restrict (Icc p.energyMin p.energyMax)) (generationProbability p i) (S.indicator 1) =
      (∫⁻ e in S, ENNReal.ofReal (generationProbability p i e)) / (∫⁻ e, ENNReal.ofReal (generationProbability p i e)) := by
    unfold Sampling.target
    rw [hsupp]
    have h1 : ∫⁻ e in Icc p.energyMin p.energyMax, ENNReal.ofReal (generationProbability p i e) = ∫⁻ e, ENNReal.ofReal (generationProbability p i e) := by
      simpa using hsupp (fun _ => 1)
    rw [h1]
    congr 1
    rw [← lintegral_indicator hS]
    refine lintegral_congr fun e => ?_
    by_cases he : e ∈ S <;> simp [he]
  have := Sampling.C90_converges (ν := proposal p.energyMin p.energyMax) (q := fun _ => 1) (L := generationProbability p i) (κ := 1 / (p.energyMax - p.energyMin)) (by positivity) measurable_const hgm
    (fun _ _ => one_pos) hg0 hν (W := W / i) (by positivity) hbound hZ hε' 41 hS
  rw [htar, ← hprob] at this
  exact this

/-- The default parameters of a beam, say, are valid, and the spectrum has an upper bound. -/
example : Valid ⟨1, 10, 3, 1, 1, 2, 1⟩ ∧ ∃ W, ∀ e ∈ Icc (1 : ℝ) 10, unnormed ⟨1, 10, 3, 1, 1, 2, 1⟩ e ≤ W := by
  refine ⟨by norm_num [Valid], ?_⟩
  obtain ⟨W, hW⟩ := isCompact_Icc.exists_bound_of_continuousOn (s := Icc (1 : ℝ) 10) (continuous_unnormed ⟨1, 10, 3, 1, 1, 2, 1⟩).continuousOn
  exact ⟨W, fun e he => (le_abs_self _).trans (hW e he)⟩

end Siren.Distributions.Moyal
