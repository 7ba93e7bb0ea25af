import Verif.Base
import Mathlib.Analysis.SpecialFunctions.Integrals.Basic
import Mathlib.Analysis.Calculus.Deriv.MeanValue

set_option autoImplicit false

/-!
# C94: electron neutrinos from muon decay at rest

Models `PiDARNuEDistribution` (distributions/private/primary/energy/PiDARNuEDistribution.cxx). Doubles are real numbers; `m` is the mass of the muon (`Constants::muonMass`,
utilities/public/SIREN/utilities/Constants.h:54).
-/

namespace Siren.Distributions.PiDAR

open MeasureTheory Set

/-- `PiDARNuEDistribution::pdf` (PiDARNuEDistribution.cxx:31-39). -/
noncomputable def pdf (m energy : ℝ) : ℝ :=
  let term1 := (192 * energy ^ 2) / m ^ 3
  let term2 := 0.5 - energy / m
  1 * term1 * term2

/-- `PiDARNuEDistribution::cdf` (PiDARNuEDistribution.cxx:42-49). -/
noncomputable def cdf (m energy : ℝ) : ℝ :=
  let A := 96 / m ^ 3
  let B := 192 / m ^ 4
  1 * (A * (energy ^ 3 / 3) - B * (energy ^ 4 / 4))

open Classical in
/-- The loop of `inv_cdf` (PiDARNuEDistribution.cxx:60-69), run at most `n` times; `none` if it would run on. -/
noncomputable def search (m tol x : ℝ) : Nat → ℝ → ℝ → ℝ → Option ℝ
  | 0, lo, hi, e => if hi - lo > tol then none else some e
  | n + 1, lo, hi, e =>
    if hi - lo > tol then
      let e' := (hi + lo) / 2
      if cdf m e' < x then search m tol x n e' hi e' else search m tol x n lo e' e'
    else some e

/-- `PiDARNuEDistribution::inv_cdf` (PiDARNuEDistribution.cxx:52-72), called by `SampleEnergy` (75-80) with the output `x` of the random generator; the loop runs at most `n` times. -/
noncomputable def invCdf (m x : ℝ) (n : Nat) : Option ℝ := search m 1e-6 x n 0 (m / 2) 0

open Classical in
/-- `PiDARNuEDistribution::GenerationProbability` (PiDARNuEDistribution.cxx:82-92). -/
noncomputable def generationProbability (m energy : ℝ) : ℝ :=
  if energy < 0 ∨ energy > m / 2 then 0 else pdf m energy

/-! ### Specification -/

/-- **Specification.** The energy sampled for the output `x` of the random generator: the search ends and returns `e`, however many more passes it is allowed. -/
def Samples (m x e : ℝ) : Prop := ∃ n, ∀ k, invCdf m x (n + k) = some e

/-! ### Proofs -/

theorem hasDerivAt_cdf (m e : ℝ) (hm : m ≠ 0) : HasDerivAt (cdf m) (pdf m e) e := by
  have h3 : HasDerivAt (fun x : ℝ => x ^ 3) (3 * e ^ 2) e := by simpa using hasDerivAt_pow 3 e
  have h4 : HasDerivAt (fun x : ℝ => x ^ 4) (4 * e ^ 3) e := by simpa using hasDerivAt_pow 4 e
  have h := ((h3.div_const 3).const_mul (96 / m ^ 3)).sub ((h4.div_const 4).const_mul (192 / m ^ 4))
  have h' := h.const_mul 1
  refine (h'.congr_deriv ?_)
  unfold pdf
  field_simp
  ring

theorem continuous_pdf (m : ℝ) : Continuous (pdf m) := by
  unfold pdf
  fun_prop

theorem integral_pdf (m a b : ℝ) (hm : m ≠ 0) : ∫ e in a..b, pdf m e = cdf m b - cdf m a :=
  intervalIntegral.integral_eq_sub_of_hasDerivAt (fun x _ => hasDerivAt_cdf m x hm) ((continuous_pdf m).intervalIntegrable _ _)

theorem cdf_zero (m : ℝ) : cdf m 0 = 0 := by simp [cdf]

theorem cdf_half (m : ℝ) (hm : 0 < m) : cdf m (m / 2) = 1 := by
  unfold cdf
  field_simp
  norm_num

theorem pdf_pos {m e : ℝ} (hm : 0 < m) (h0 : 0 < e) (h1 : e < m / 2) : 0 < pdf m e := by
  unfold pdf
  have : e / m < 0.5 := by rw [div_lt_iff₀ hm]; norm_num; linarith
  have h2 : 0 < (192 * e ^ 2) / m ^ 3 := by positivity
  have h3 : 0 < 0.5 - e / m := by linarith
  simp only [one_mul]
  exact mul_pos h2 h3

theorem cdf_strictMono {m : ℝ} (hm : 0 < m) : StrictMonoOn (cdf m) (Icc 0 (m / 2)) := by
  refine strictMonoOn_of_deriv_pos (convex_Icc _ _) (fun x _ => (hasDerivAt_cdf m x hm.ne').continuousAt.continuousWithinAt) fun x hx => ?_
  rw [interior_Icc] at hx
  rw [(hasDerivAt_cdf m x hm.ne').deriv]
  exact pdf_pos hm hx.1 hx.2

theorem continuous_cdf {m : ℝ} (hm : 0 < m) : Continuous (cdf m) :=
  continuous_iff_continuousAt.mpr fun x => (hasDerivAt_cdf m x hm.ne').continuousAt

/-- What the search returns, once it may run often enough. -/
theorem search_spec {m tol x : ℝ} (hm : 0 < m) (ht : 0 < tol) : ∀ (n : Nat) (lo hi e : ℝ), 0 ≤ lo → lo < hi → hi ≤ m / 2 → cdf m lo ≤ x → x ≤ cdf m hi →
    (e = lo ∨ e = hi) → hi - lo ≤ 2 ^ n * tol →
    ∃ e', (∀ k, search m tol x (n + k) lo hi e = some e') ∧ (∃ q, lo ≤ q ∧ q ≤ hi ∧ cdf m q = x ∧ |e' - q| ≤ tol) ∧ (e' = e ∨ (lo < e' ∧ e' < hi)) ∧ (tol < hi - lo → lo < e' ∧ e' < hi) := by
  intro n
  induction n with
  | zero =>
    intro lo hi e h0 hlt h1 hl hh he hw
    have hw' : ¬hi - lo > tol := by simp at hw; simpa using hw
    refine ⟨e, fun k => ?_, ?_, Or.inl rfl, fun h => absurd h hw'⟩
    · cases k with
      | zero => rw [Nat.add_zero, search, if_neg hw']
      | succ k => rw [Nat.zero_add, search, if_neg hw']
    · obtain ⟨q, hq, hqe⟩ := intermediate_value_Icc hlt.le (continuous_cdf hm).continuousOn ⟨hl, hh⟩
      refine ⟨q, hq.1, hq.2, hqe, ?_⟩
      rw [abs_le]
      rcases he with rfl | rfl <;> constructor <;> linarith [hq.1, hq.2]
  | succ n ih =>
    intro lo hi e h0 hlt h1 hl hh he hw
    by_cases hgt : hi - lo > tol
    · have hpow : (2 : ℝ) ^ (n + 1) = 2 * 2 ^ n := by ring
      rw [hpow] at hw
      by_cases hc : cdf m ((hi + lo) / 2) < x
      · obtain ⟨e', h2, ⟨q, hq0, hq1, hq⟩, h3, h4⟩ := ih ((hi + lo) / 2) hi ((hi + lo) / 2) (by linarith) (by linarith) h1 hc.le hh (Or.inl rfl) (by linarith)
        refine ⟨e', fun k => ?_, ⟨q, by linarith, hq1, hq⟩, Or.inr ?_, fun _ => ?_⟩
        · rw [show n + 1 + k = (n + k) + 1 by ring, search, if_pos hgt]
          simp only [if_pos hc]
          exact h2 k
        · rcases h3 with h3 | h3
          · rw [h3]; constructor <;> linarith
          · exact ⟨by linarith [h3.1], h3.2⟩
        · rcases h3 with h3 | h3
          · rw [h3]; constructor <;> linarith
          · exact ⟨by linarith [h3.1], h3.2⟩
      · obtain ⟨e', h2, ⟨q, hq0, hq1, hq⟩, h3, h4⟩ := ih lo ((hi + lo) / 2) ((hi + lo) / 2) h0 (by linarith) (by linarith) hl (not_lt.mp hc) (Or.inr rfl) (by linarith)
        refine ⟨e', fun k => ?_, ⟨q, hq0, by linarith, hq⟩, Or.inr ?_, fun _ => ?_⟩
        · rw [show n + 1 + k = (n + k) + 1 by ring, search, if_pos hgt]
          simp only [if_neg hc]
          exact h2 k
        · rcases h3 with h3 | h3
          · rw [h3]; constructor <;> linarith
          · exact ⟨h3.1, by linarith [h3.2]⟩
        · rcases h3 with h3 | h3
          · rw [h3]; constructor <;> linarith
          · exact ⟨h3.1, by linarith [h3.2]⟩
    · refine ⟨e, fun k => ?_, ?_, Or.inl rfl, fun h => absurd h hgt⟩
      · rw [show n + 1 + k = (n + k) + 1 by ring, search, if_neg hgt]
      · obtain ⟨q, hq, hqe⟩ := intermediate_value_Icc hlt.le (continuous_cdf hm).continuousOn ⟨hl, hh⟩
        refine ⟨q, hq.1, hq.2, hqe, ?_⟩
        rw [abs_le]
        rcases he with rfl | rfl <;> constructor <;> linarith [hq.1, hq.2]

/-- C94: the reported density is not negative, vanishes outside of `[0, m / 2]`, and its integral is 1. -/
theorem C94_density {m : ℝ} (hm : 0 < m) :
    (∀ e, 0 ≤ generationProbability m e) ∧ (∀ e, e ∉ Icc 0 (m / 2) → generationProbability m e = 0) ∧ ∫ e, generationProbability m e = 1 := by
  have hout : ∀ e, e ∉ Icc 0 (m / 2) → generationProbability m e = 0 := by
    intro e he
    rw [generationProbability, if_pos]
    by_contra hc
    push Not at hc
    exact he ⟨hc.1, hc.2⟩
  refine ⟨fun e => ?_, hout, ?_⟩
  · unfold generationProbability
    split_ifs with h
    · exact le_rfl
    · push Not at h
      unfold pdf
      have : e / m ≤ 0.5 := by rw [div_le_iff₀ hm]; norm_num; linarith [h.2]
      have h2 : 0 ≤ (192 * e ^ 2) / m ^ 3 := by positivity
      simp only [one_mul]
      exact mul_nonneg h2 (by linarith)
  · rw [← setIntegral_eq_integral_of_forall_compl_eq_zero (s := Icc 0 (m / 2)) (fun x hx => hout x hx), integral_Icc_eq_integral_Ioc, ← intervalIntegral.integral_of_le (by linarith)]
    have hcongr : ∫ e in (0 : ℝ)..(m / 2), generationProbability m e = ∫ e in (0 : ℝ)..(m / 2), pdf m e := by
      refine intervalIntegral.integral_congr fun e he => ?_
      rw [uIcc_of_le (by linarith)] at he
      simp only [generationProbability]
      rw [if_neg]
      push Not
      exact ⟨he.1, he.2⟩
    rw [hcongr, integral_pdf m _ _ hm.ne', cdf_half m hm, cdf_zero, sub_zero]

/-- C94: for every output of the random generator the search ends, and returns an energy strictly inside of the range, where the density is positive. It differs by at most 1e-6 GeV from the energy `q` up to which the
integral of the density is that output. -/
theorem C94_sample {m : ℝ} (hm : 2e-6 < m) {x : ℝ} (h0 : 0 ≤ x) (h1 : x ≤ 1) :
    ∃ e q, Samples m x e ∧ 0 < e ∧ e < m / 2 ∧ 0 < generationProbability m e ∧ q ∈ Icc 0 (m / 2) ∧ ∫ t in (0 : ℝ)..q, generationProbability m t = x ∧ |e - q| ≤ 1e-6 := by
  have hm0 : 0 < m := by linarith
  obtain ⟨n, hn⟩ := pow_unbounded_of_one_lt ((m / 2 - 0) / 1e-6) (by norm_num : (1 : ℝ) < 2)
  have hw : m / 2 - 0 ≤ 2 ^ n * 1e-6 := by
    rw [div_lt_iff₀ (by norm_num)] at hn
    exact hn.le
  obtain ⟨e, hs, ⟨q, hq0, hq1, hq, hd⟩, _, hin⟩ := search_spec (x := x) hm0 (by norm_num : (0 : ℝ) < 1e-6) n 0 (m / 2) 0 le_rfl (by linarith) le_rfl (by rw [cdf_zero]; exact h0) (by rw [cdf_half m hm0]; exact h1)
    (Or.inl rfl) hw
  obtain ⟨he0, he1⟩ := hin (by linarith)
  refine ⟨e, q, ⟨n, hs⟩, he0, he1, ?_, ⟨hq0, hq1⟩, ?_, hd⟩
  · rw [generationProbability, if_neg (by push Not; exact ⟨he0.le, he1.le⟩)]
    exact pdf_pos hm0 he0 he1
  · have hcongr : ∫ t in (0 : ℝ)..q, generationProbability m t = ∫ t in (0 : ℝ)..q, pdf m t := by
      refine intervalIntegral.integral_congr fun t ht => ?_
      rw [uIcc_of_le hq0] at ht
      simp only [generationProbability]
      rw [if_neg]
      push Not
      exact ⟨ht.1, ht.2.trans hq1⟩
    rw [hcongr, integral_pdf m _ _ hm0.ne', cdf_zero, sub_zero, hq]

theorem integral_generation {m q : ℝ} (hm : 0 < m) (h0 : 0 ≤ q) (h1 : q ≤ m / 2) : ∫ t in (0 : ℝ)..q, generationProbability m t = cdf m q := by
  have hcongr : ∫ t in (0 : ℝ)..q, generationProbability m t = ∫ t in (0 : ℝ)..q, pdf m t := by
    refine intervalIntegral.integral_congr fun t ht => ?_
    rw [uIcc_of_le h0] at ht
    simp only [generationProbability]
    rw [if_neg]
    push Not
    exact ⟨ht.1, ht.2.trans h1⟩
  rw [hcongr, integral_pdf m _ _ hm.ne', cdf_zero, sub_zero]

theorem samples_unique {m x e e' : ℝ} (h : Samples m x e) (h' : Samples m x e') : e = e' := by
  obtain ⟨n, hn⟩ := h
  obtain ⟨n', hn'⟩ := h'
  have h1 := hn n'
  have h2 := hn' n
  rw [Nat.add_comm, h1] at h2
  exact Option.some.inj h2

/-- C94: the probability of an energy up to `a` is the integral of the reported density, up to a shift of the energy by 1e-6 GeV. -/
theorem C94_law {m : ℝ} (hm : 2e-6 < m) {a : ℝ} (ha : 1e-6 ≤ a) (hb : a + 1e-6 ≤ m / 2) :
    ENNReal.ofReal (∫ t in (0 : ℝ)..(a - 1e-6), generationProbability m t) ≤ volume {x | x ∈ Icc (0 : ℝ) 1 ∧ ∃ e, Samples m x e ∧ e ≤ a} ∧
    volume {x | x ∈ Icc (0 : ℝ) 1 ∧ ∃ e, Samples m x e ∧ e ≤ a} ≤ ENNReal.ofReal (∫ t in (0 : ℝ)..(a + 1e-6), generationProbability m t) := by
  have hm0 : 0 < m := by linarith
  have hmono := cdf_strictMono hm0
  have hi0 : (0 : ℝ) ≤ a - 1e-6 := by linarith
  have hi1 : a - 1e-6 ≤ m / 2 := by linarith
  have hj0 : (0 : ℝ) ≤ a + 1e-6 := by linarith
  rw [integral_generation hm0 hi0 hi1, integral_generation hm0 hj0 hb]
  have hle1 : cdf m (a - 1e-6) ≤ 1 := by
    rw [← cdf_half m hm0]
    exact hmono.monotoneOn ⟨hi0, hi1⟩ ⟨by linarith, le_rfl⟩ hi1
  constructor
  · have hsub : Icc 0 (cdf m (a - 1e-6)) ⊆ {x | x ∈ Icc (0 : ℝ) 1 ∧ ∃ e, Samples m x e ∧ e ≤ a} := by
      intro x hx
      have hx1 : x ≤ 1 := hx.2.trans hle1
      obtain ⟨e, q, hs, _, _, _, hq, hqx, hd⟩ := C94_sample hm hx.1 hx1
      refine ⟨⟨hx.1, hx1⟩, e, hs, ?_⟩
      rw [integral_generation hm0 hq.1 hq.2] at hqx
      have hqa : q ≤ a - 1e-6 := by
        by_contra hc
        push Not at hc
        have := hmono ⟨hi0, hi1⟩ hq hc
        linarith [hx.2]
      rw [abs_le] at hd
      linarith [hd.2]
    calc ENNReal.ofReal (cdf m (a - 1e-6)) = volume (Icc 0 (cdf m (a - 1e-6))) := by rw [Real.volume_Icc, sub_zero]
      _ ≤ _ := measure_mono hsub
  · have hsub : {x | x ∈ Icc (0 : ℝ) 1 ∧ ∃ e, Samples m x e ∧ e ≤ a} ⊆ Icc 0 (cdf m (a + 1e-6)) := by
      rintro x ⟨hx, e', hs', hle⟩
      obtain ⟨e, q, hs, _, _, _, hq, hqx, hd⟩ := C94_sample hm hx.1 hx.2
      obtain rfl := samples_unique hs hs'
      rw [integral_generation hm0 hq.1 hq.2] at hqx
      refine ⟨hx.1, ?_⟩
      rw [← hqx]
      rw [abs_le] at hd
      exact hmono.monotoneOn hq ⟨hj0, hb⟩ (by linarith [hd.1])
    calc volume {x | x ∈ Icc (0 : ℝ) 1 ∧ ∃ e, Samples m x e ∧ e ≤ a} ≤ volume (Icc 0 (cdf m (a + 1e-6))) := measure_mono hsub
      _ = _ := by rw [Real.volume_Icc, sub_zero]

/-- The mass of the muon meets the hypotheses. -/
example : ∃ e, Samples 0.105658374 (1 / 3) e ∧ 0 < e := by
  obtain ⟨e, _, h, h0, _⟩ := C94_sample (m := 0.105658374) (by norm_num) (x := 1 / 3) (by norm_num) (by norm_num)
  exact ⟨e, h, h0⟩

end Siren.Distributions.PiDAR
