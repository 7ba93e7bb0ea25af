import Mathlib.Analysis.SpecialFunctions.Pow.Real
import Mathlib.MeasureTheory.Measure.Lebesgue.Basic

set_option autoImplicit false

/-!
# Random number helpers (C54) and the Metropolis-Hastings sampler (C57)

Models `utilities/private/Random.cxx` and `utilities/public/SIREN/utilities/Sampling.h`. Doubles are real numbers. The underlying generator is not
modelled: every theorem holds for every output in `[0, 1)`.
-/

namespace Siren.Util

/-! ## Model -/

/-- `SIREN_random::Uniform` (Random.cxx:32-37); `g` is the output of the generator. -/
noncomputable def uniform (a b g : ℝ) : ℝ :=
  let (min, max) := if b < a then (b, a) else (a, b)
  (max - min) * g + min

/-- `SIREN_random::PowerLaw` (Random.cxx:39-48). `pow` is the real power; for a negative base or for zero to a negative power it is not. -/
noncomputable def powerLaw (a b n g : ℝ) : ℝ :=
  let (min, max) := if b < a then (b, a) else (a, b)
  let unif := (max - min) * g + min
  let base := (max ^ (n + 1) - min ^ (n + 1)) * unif + min ^ (n + 1)
  base ^ (1 / (n + 1))

/-- A proposal: the point and its proposal density (Sampling.h:19, 27, 35). -/
abbrev Proposal := List ℝ × ℝ

/-- `weight` and `test_weight` (Sampling.h:32, 39). -/
noncomputable def weight (llh : List ℝ → ℝ) (p : Proposal) : ℝ := if 0 < p.2 then llh p.1 / p.2 else 0

/-- `accept` (Sampling.h:41-46); `u` is the value `Uniform(0,1)` returns if it is called. -/
def accept (w test u : ℝ) : Prop := if w ≤ 0 then True else w ≤ test ∨ u < test / w

open Classical in
/-- The loop of `MetropolisHasting_Sample` (Sampling.h:34-52) with the number of rounds left. The stream of proposals and that of the uniform
numbers are arbitrary; the round number selects from both (a uniform number that is not drawn is not used). -/
noncomputable def mhLoop (llh : List ℝ → ℝ) (proposal : Nat → Proposal) (u : Nat → ℝ) : Nat → Nat → List ℝ → ℝ → List ℝ
  | 0, _, vars, _ => vars
  | n + 1, j, vars, w =>
    let test := proposal (j + 1)
    let testWeight := weight llh test
    if accept w testWeight (u j) then mhLoop llh proposal u n (j + 1) test.1 testWeight else mhLoop llh proposal u n (j + 1) vars w

/-- `MetropolisHasting_Sample` (Sampling.h:24-54): `burnin + 1` rounds. -/
noncomputable def metropolisHastings (llh : List ℝ → ℝ) (proposal : Nat → Proposal) (u : Nat → ℝ) (burnin : Nat) : List ℝ :=
  mhLoop llh proposal u (burnin + 1) 0 (proposal 0).1 (weight llh (proposal 0))

/-! ## Uniform and power-law numbers -/

theorem uniform_eq (a b g : ℝ) : uniform a b g = (max a b - min a b) * g + min a b := by
  rw [uniform]
  rcases lt_or_ge b a with h | h
  · rw [if_pos h, max_eq_left h.le, min_eq_right h.le]
  · rw [if_neg (not_lt.mpr h), max_eq_right h, min_eq_left h]

/-- The result lies between the two limits in either order, and below the upper one unless they are equal. -/
theorem C54_uniform (a b g : ℝ) (h0 : 0 ≤ g) (h1 : g < 1) :
    min a b ≤ uniform a b g ∧ uniform a b g ≤ max a b ∧ (a ≠ b → uniform a b g < max a b) := by
  rw [uniform_eq]
  have h : min a b ≤ max a b := min_le_max
  refine ⟨by nlinarith, by nlinarith, fun hne => ?_⟩
  have : min a b < max a b := min_lt_max.mpr hne
  nlinarith

/-- Every value of the range is the result for exactly one output of the generator, and the share of outputs that give at most `y` grows
linearly with `y`. -/
theorem C54_uniform_onto (a b y : ℝ) (hab : a ≠ b) (h0 : min a b ≤ y) (h1 : y < max a b) :
    (∃ g, (0 ≤ g ∧ g < 1) ∧ uniform a b g = y) ∧
      ∀ g, uniform a b g ≤ y ↔ g ≤ (y - min a b) / (max a b - min a b) := by
  have hlt : 0 < max a b - min a b := sub_pos.mpr (min_lt_max.mpr hab)
  refine ⟨⟨(y - min a b) / (max a b - min a b), ⟨div_nonneg (by linarith) hlt.le, by rw [div_lt_one hlt]; linarith⟩, ?_⟩, fun g => ?_⟩
  · rw [uniform_eq]; field_simp; ring
  · rw [uniform_eq, le_div_iff₀ hlt]
    constructor <;> intro h <;> linarith

theorem powerLaw_eq (a b n g : ℝ) : powerLaw a b n g =
    ((max a b ^ (n + 1) - min a b ^ (n + 1)) * uniform a b g + min a b ^ (n + 1)) ^ (1 / (n + 1)) := by
  rw [powerLaw, uniform]
  rcases lt_or_ge b a with h | h
  · rw [if_pos h, max_eq_left h.le, min_eq_right h.le]
  · rw [if_neg (not_lt.mpr h), max_eq_right h, min_eq_left h]

/-- Power-law numbers stay in their range if that lies in `[0, 1]`. -/
theorem C54_power (a b n g : ℝ) (h0 : 0 ≤ g) (h1 : g < 1) (ha : 0 ≤ min a b) (hb : max a b ≤ 1) (hn : -1 < n) :
    min a b ≤ powerLaw a b n g ∧ powerLaw a b n g ≤ max a b := by
  obtain ⟨hu0, hu1, -⟩ := C54_uniform a b g h0 h1
  rw [powerLaw_eq]
  have hle : min a b ≤ max a b := min_le_max
  generalize uniform a b g = u at hu0 hu1
  generalize min a b = m at *
  generalize max a b = M at *
  have hn1 : 0 < n + 1 := by linarith
  have hM : 0 ≤ M := ha.trans hle
  have hpow : m ^ (n + 1) ≤ M ^ (n + 1) := Real.rpow_le_rpow ha hle hn1.le
  have hm0 : 0 ≤ m ^ (n + 1) := Real.rpow_nonneg ha _
  have hlo : m ^ (n + 1) ≤ (M ^ (n + 1) - m ^ (n + 1)) * u + m ^ (n + 1) := by nlinarith
  have hhi : (M ^ (n + 1) - m ^ (n + 1)) * u + m ^ (n + 1) ≤ M ^ (n + 1) := by nlinarith
  have hinv : ∀ x : ℝ, 0 ≤ x → (x ^ (n + 1)) ^ (1 / (n + 1)) = x := by
    intro x hx
    rw [← Real.rpow_mul hx, mul_one_div_cancel hn1.ne', Real.rpow_one]
  constructor
  · calc m = (m ^ (n + 1)) ^ (1 / (n + 1)) := (hinv m ha).symm
      _ ≤ _ := Real.rpow_le_rpow hm0 hlo (by positivity)
  · calc _ ≤ (M ^ (n + 1)) ^ (1 / (n + 1)) := Real.rpow_le_rpow (hm0.trans hlo) hhi (by positivity)
      _ = M := hinv M hM

/-- For other ranges they do not: between 1 and 2, with exponent zero, every result is at least 2. The uniform number is drawn from the range of
the result instead of `[0, 1)`. -/
theorem C54_power_fails (g : ℝ) (h0 : 0 ≤ g) : 2 ≤ powerLaw 1 2 0 g := by
  rw [powerLaw_eq, uniform_eq]
  norm_num
  linarith

example : powerLaw 0 1 1 (1 / 4) = 1 / 2 := by
  rw [powerLaw_eq, uniform_eq]
  norm_num

example : uniform 5 3 (1 / 2) = 4 := by rw [uniform_eq]; norm_num

/-! ## Metropolis-Hastings -/

theorem weight_pos (llh : List ℝ → ℝ) (p : Proposal) : 0 < weight llh p ↔ 0 < p.2 ∧ 0 < llh p.1 := by
  rw [weight]
  split
  · rename_i h
    exact ⟨fun hw => ⟨h, by have := mul_pos hw h; rwa [div_mul_cancel₀ _ h.ne'] at this⟩, fun hw => div_pos hw.2 h⟩
  · rename_i h
    simp [h]

theorem mhLoop_spec (llh : List ℝ → ℝ) (proposal : Nat → Proposal) (u : Nat → ℝ) (hu : ∀ j, 0 ≤ u j) (n j : Nat) (vars : List ℝ) (w : ℝ)
    (i : Nat) (hi : i ≤ j) (hv : vars = (proposal i).1) (hw : w = weight llh (proposal i))
    (hpos : ∀ k ≤ j, 0 < weight llh (proposal k) → 0 < w) :
    ∃ i ≤ j + n, mhLoop llh proposal u n j vars w = (proposal i).1 ∧
      ∀ k ≤ j + n, 0 < weight llh (proposal k) → 0 < weight llh (proposal i) := by
  induction n generalizing j vars w i with
  | zero => exact ⟨i, hi, by rw [mhLoop, hv], fun k hk h => hw ▸ hpos k hk h⟩
  | succ n ih =>
    rw [mhLoop]
    split
    · rename_i hacc
      obtain ⟨i', h1, h2, h3⟩ := ih (j + 1) (proposal (j + 1)).1 (weight llh (proposal (j + 1))) (j + 1) le_rfl rfl rfl (by
        intro k hk h
        rcases Nat.lt_or_ge j k with hjk | hjk
        · obtain rfl : k = j + 1 := by omega
          exact h
        · have hwp := hpos k hjk h
          rw [accept, if_neg (not_le.mpr hwp)] at hacc
          rcases hacc with hacc | hacc
          · exact hwp.trans_le hacc
          · have := (hu j).trans_lt hacc
            have := mul_pos this hwp
            rwa [div_mul_cancel₀ _ hwp.ne'] at this)
      exact ⟨i', by omega, h2, fun k hk => h3 k (by omega)⟩
    · rename_i hacc
      obtain ⟨i', h1, h2, h3⟩ := ih (j + 1) vars w i (by omega) hv hw (by
        intro k hk h
        by_contra hc
        exact hacc (by rw [accept, if_pos (not_lt.mp hc)]; trivial))
      exact ⟨i', by omega, h2, fun k hk => h3 k (by omega)⟩

/-- The point returned is one of the `burnin + 2` proposals. If any of these has positive proposal density and positive likelihood, so has the
one returned. -/
theorem C57_sample (llh : List ℝ → ℝ) (proposal : Nat → Proposal) (u : Nat → ℝ) (hu : ∀ j, 0 ≤ u j) (burnin : Nat) :
    ∃ i ≤ burnin + 1, metropolisHastings llh proposal u burnin = (proposal i).1 ∧
      ((∃ k ≤ burnin + 1, 0 < (proposal k).2 ∧ 0 < llh (proposal k).1) → 0 < (proposal i).2 ∧ 0 < llh (proposal i).1) := by
  obtain ⟨i, h1, h2, h3⟩ := mhLoop_spec llh proposal u hu (burnin + 1) 0 (proposal 0).1 (weight llh (proposal 0)) 0 le_rfl rfl rfl
    (fun k hk h => by obtain rfl : k = 0 := by omega
                      exact h)
  refine ⟨i, by omega, h2, ?_⟩
  rintro ⟨k, hk, hp⟩
  exact (weight_pos llh (proposal i)).mp (h3 k (by omega) ((weight_pos llh (proposal k)).mpr hp))

/-- The share of the uniform numbers in `[0, 1)` that accept a step. -/
noncomputable def acceptance (w test : ℝ) : ENNReal := MeasureTheory.volume {u : ℝ | (0 ≤ u ∧ u < 1) ∧ accept w test u}

theorem acceptance_eq (w test : ℝ) (hw : 0 < w) : acceptance w test = ENNReal.ofReal (min 1 (test / w)) := by
  have : {u : ℝ | (0 ≤ u ∧ u < 1) ∧ accept w test u} = Set.Ico 0 (min 1 (test / w)) := by
    ext u
    simp only [Set.mem_ofPred_eq, Set.mem_Ico, accept, if_neg (not_le.mpr hw), lt_min_iff]
    constructor
    · rintro ⟨⟨h0, h1⟩, h | h⟩
      · exact ⟨h0, h1, h1.trans_le (by rwa [le_div_iff₀ hw, one_mul])⟩
      · exact ⟨h0, h1, h⟩
    · rintro ⟨h0, h1, h⟩
      exact ⟨⟨h0, h1⟩, Or.inr h⟩
  rw [acceptance, this, Real.volume_Ico, sub_zero]

/-- Detailed balance: for points `x` and `y` with densities `qx`, `qy` of being proposed and target densities `px`, `py`, steps from `x` to `y` are
as frequent under the target density as those from `y` to `x`. (The target density is therefore stationary.) -/
theorem C57_detailed_balance (llh : List ℝ → ℝ) (x y : Proposal) (hqx : 0 < x.2) (hqy : 0 < y.2) (hpx : 0 < llh x.1) (hpy : 0 < llh y.1) :
    ENNReal.ofReal (llh x.1) * ENNReal.ofReal y.2 * acceptance (weight llh x) (weight llh y) =
      ENNReal.ofReal (llh y.1) * ENNReal.ofReal x.2 * acceptance (weight llh y) (weight llh x) := by
  have hwx := (weight_pos llh x).mpr ⟨hqx, hpx⟩
  have hwy := (weight_pos llh y).mpr ⟨hqy, hpy⟩
  rw [acceptance_eq _ _ hwx, acceptance_eq _ _ hwy, ← ENNReal.ofReal_mul hpx.le, ← ENNReal.ofReal_mul hpy.le,
    ← ENNReal.ofReal_mul (by positivity), ← ENNReal.ofReal_mul (by positivity)]
  congr 1
  rw [mul_min_of_nonneg _ _ (by positivity), mul_min_of_nonneg _ _ (by positivity)]
  rw [weight, weight, if_pos hqx, if_pos hqy]
  rw [min_comm]
  congr 1 <;> field_simp

example : metropolisHastings (fun v => v.getD 0 0) (fun n => ([(n : ℝ)], 1)) (fun _ => 0) 1 = [2] := by
  simp only [metropolisHastings, mhLoop, weight, accept]
  norm_num

end Siren.Util
