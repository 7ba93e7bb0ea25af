import Verif.Base
import Mathlib.Analysis.SpecialFunctions.Pow.Real

set_option autoImplicit false

/-!
# C93: masses, helicities and single energies

Models `PrimaryMass` (distributions/private/primary/mass/PrimaryMass.cxx), `PrimaryNeutrinoHelicityDistribution`
(distributions/private/primary/helicity/PrimaryNeutrinoHelicityDistribution.cxx) and `Monoenergetic`
(distributions/private/primary/energy/Monoenergetic.cxx). Doubles are real numbers; the unqualified `abs` is taken to be the overload for doubles.
-/

namespace Siren.Distributions

/-- What these distributions set and read in a record. -/
structure PointRecord where
  type : Int
  mass : ℝ
  helicity : ℝ
  energy : ℝ

/-- `PrimaryMass::Sample` (PrimaryMass.cxx:28-30). -/
def massSample (m : ℝ) (r : PointRecord) : PointRecord := { r with mass := m }

open Classical in
/-- `PrimaryMass::GenerationProbability` (PrimaryMass.cxx:32-42). A quotient `0 / 0` is not a number and not greater than the tolerance; a quotient `x / 0` of a positive number is infinite. -/
noncomputable def massProbability (m : ℝ) (r : PointRecord) : ℝ :=
  let num := 2 * |r.mass - m|
  let den := r.mass + m
  let greater : Prop := if den = 0 then num ≠ 0 else num / den > 1e-9
  if greater then 0 else 1

/-- `PrimaryNeutrinoHelicityDistribution::Sample` (PrimaryNeutrinoHelicityDistribution.cxx:21-27). -/
noncomputable def helicitySample (r : PointRecord) : PointRecord := if r.type > 0 then { r with helicity := -0.5 } else { r with helicity := 0.5 }

open Classical in
/-- `PrimaryNeutrinoHelicityDistribution::GenerationProbability` (PrimaryNeutrinoHelicityDistribution.cxx:29-50). -/
noncomputable def helicityProbability (r : PointRecord) : ℝ :=
  if abs (0.5 - abs r.helicity) > 1e-9 then 0
  else if r.type > 0 then (if r.helicity < 0 then 1 else 0)
  else (if r.helicity > 0 then 1 else 0)

/-- `Monoenergetic::SampleEnergy` (Monoenergetic.cxx:26-28) with `PrimaryEnergyDistribution::Sample` (PrimaryEnergyDistribution.cxx:14-22). -/
def monoSample (e : ℝ) (r : PointRecord) : PointRecord := { r with energy := e }

open Classical in
/-- `Monoenergetic::GenerationProbability` and `pdf` (Monoenergetic.cxx:30-38). -/
noncomputable def monoProbability (e : ℝ) (r : PointRecord) : ℝ := if |r.energy - e| < 1e-6 * e then 1 else 0

/-! ### Proofs -/

/-- C93: the mass of a sampled record is the one asked for, and the probability of a record with a mass that is not negative is 1 if the masses differ by at most `1e-9` of their mean, and 0 otherwise. -/
theorem C93_mass (m : ℝ) (hm : 0 ≤ m) (r : PointRecord) :
    massProbability m (massSample m r) = 1 ∧ (massSample m r).mass = m ∧ (massSample m r).type = r.type ∧ (massSample m r).helicity = r.helicity ∧ (massSample m r).energy = r.energy ∧
    (0 ≤ r.mass → massProbability m r = Set.indicator {x | |x - m| ≤ 1e-9 * ((x + m) / 2)} (fun _ => 1) r.mass) := by
  refine ⟨?_, rfl, rfl, rfl, rfl, fun h => ?_⟩
  · simp only [massProbability, massSample]
    norm_num
  · simp only [massProbability, Set.indicator, Set.mem_ofPred_eq]
    rcases (add_nonneg h hm).eq_or_lt with h0 | h0
    · have hr : r.mass = 0 := by linarith
      have hm' : m = 0 := by linarith
      simp [hr, hm']
    · simp only [if_neg h0.ne']
      have : 2 * |r.mass - m| / (r.mass + m) > 1e-9 ↔ ¬|r.mass - m| ≤ 1e-9 * ((r.mass + m) / 2) := by
        rw [gt_iff_lt, lt_div_iff₀ h0, not_le]
        constructor <;> intro h <;> linarith
      by_cases hx : |r.mass - m| ≤ 1e-9 * ((r.mass + m) / 2)
      · rw [if_neg (by rw [this]; simpa using hx), if_pos hx]
      · rw [if_pos (this.mpr hx), if_neg hx]

/-- C93: sampled helicities are -1/2 for particles and 1/2 for antiparticles; they have probability 1, and the opposite helicity has probability 0. -/
theorem C93_helicity (r : PointRecord) :
    (helicitySample r).helicity = (if 0 < r.type then -1 / 2 else 1 / 2) ∧ (helicitySample r).type = r.type ∧ (helicitySample r).mass = r.mass ∧
    (helicitySample r).energy = r.energy ∧ helicityProbability (helicitySample r) = 1 ∧
    helicityProbability { helicitySample r with helicity := -(helicitySample r).helicity } = 0 ∧
    (∀ h : ℝ, 1e-9 < abs (1 / 2 - abs h) → helicityProbability { r with helicity := h } = 0) := by
  by_cases ht : r.type > 0
  · have hs : helicitySample r = { r with helicity := -0.5 } := by simp [helicitySample, ht]
    rw [hs]
    refine ⟨by simp only [gt_iff_lt] at ht; rw [if_pos ht]; norm_num, rfl, rfl, rfl, ?_, ?_, fun h h2 => ?_⟩
    · simp only [helicityProbability, ht]; norm_num
    · simp only [helicityProbability, ht]; norm_num
    · simp only [helicityProbability]
      rw [if_pos (by norm_num at h2 ⊢; exact h2)]
  · have hs : helicitySample r = { r with helicity := 0.5 } := by simp [helicitySample, ht]
    rw [hs]
    refine ⟨by simp only [gt_iff_lt] at ht; rw [if_neg ht]; norm_num, rfl, rfl, rfl, ?_, ?_, fun h h2 => ?_⟩
    · simp only [helicityProbability, ht]; norm_num
    · simp only [helicityProbability, ht]; norm_num
    · simp only [helicityProbability]
      rw [if_pos (by norm_num at h2 ⊢; exact h2)]

/-- C93: a sampled single energy is the positive one asked for and has probability 1; energies that differ from it by a millionth or more have probability 0. -/
theorem C93_mono (e : ℝ) (he : 0 < e) (r : PointRecord) :
    (monoSample e r).energy = e ∧ (monoSample e r).mass = r.mass ∧ (monoSample e r).type = r.type ∧ (monoSample e r).helicity = r.helicity ∧
    monoProbability e (monoSample e r) = 1 ∧ monoProbability e r = Set.indicator {x | |x - e| < e / 1000000} (fun _ => 1) r.energy := by
  refine ⟨rfl, rfl, rfl, rfl, ?_, ?_⟩
  · have h : |(monoSample e r).energy - e| < 1e-6 * e := by
      have : (monoSample e r).energy - e = 0 := sub_self e
      rw [this, abs_zero]
      positivity
    rw [monoProbability, if_pos h]
  · have : (1e-6 : ℝ) * e = e / 1000000 := by ring
    simp only [monoProbability, this, Set.indicator, Set.mem_ofPred_eq]

/-- A muon neutrino and its antiparticle, and a record of a wrong mass. -/
example : helicityProbability (helicitySample ⟨14, 0, 0, 3⟩) = 1 ∧ (helicitySample ⟨-14, 0, 0, 3⟩).helicity = 1 / 2 ∧ massProbability 1 ⟨14, 2, 0, 3⟩ = 0 ∧ monoProbability 2 ⟨14, 0, 0, 3⟩ = 0 := by
  refine ⟨(C93_helicity _).2.2.2.2.1, by rw [(C93_helicity _).1]; norm_num, ?_, ?_⟩
  · rw [(C93_mass 1 (by norm_num) _).2.2.2.2.2 (by norm_num), Set.indicator_of_notMem]
    simp only [Set.mem_ofPred_eq]
    norm_num
  · rw [(C93_mono 2 (by norm_num) _).2.2.2.2.2, Set.indicator_of_notMem]
    simp only [Set.mem_ofPred_eq]
    norm_num

end Siren.Distributions
