import Verif.Interactions.ThreeBodyProps
import Mathlib.MeasureTheory.Measure.Prod
import Mathlib.MeasureTheory.Measure.Lebesgue.Basic

set_option autoImplicit false

/-!
# C91: three-body decays of heavy neutral leptons are not drawn with the reported density

The chain of C90 has the likelihood as its limit only if the densities declared for the proposals are right and the likelihood is a
non-negative number. Both fail for charged leptons of different or non-zero masses.
-/

namespace Siren
namespace ThreeBody

open Rk Signatures TwoBody MeasureTheory Set
open Dis (uniform)
open scoped ENNReal

/-! ### The proposals reach the whole allowed region -/

theorem uniform_onto {x y z : ℝ} (h1 : x < z) (h2 : z < y) : ∃ u, 0 < u ∧ u < 1 ∧ uniform x y u = z := by
  refine ⟨(z - x) / (y - x), div_pos (by linarith) (by linarith), ?_, ?_⟩
  · rw [div_lt_one (by linarith)]; linarith
  · unfold uniform
    rw [if_neg (by linarith), mul_div_cancel₀ _ (by linarith)]
    ring

/-- Every point of the allowed region is proposed. -/
theorem propose_onto {M a b s1 s2 u₃ u₄ u₅ : ℝ} (hM : 0 < M) (hb : 0 ≤ b) (hbM : b < M)
    (h1 : a ^ 2 < M ^ 2 * s1) (h2 : M ^ 2 * s1 < (M - b) ^ 2) (hg : gram M a b (M ^ 2 * s1) (M ^ 2 * s2) < 0) :
    ∃ u₁ u₂, (0 < u₁ ∧ u₁ < 1) ∧ (0 < u₂ ∧ u₂ < 1) ∧
      propose M a b u₁ u₂ u₃ u₄ u₅ = some ⟨s1, s2, uniform (-1) 1 u₃, uniform 0 (2 * Real.pi) u₄, uniform 0 (2 * Real.pi) u₅⟩ := by
  have hM2 : 0 < M ^ 2 := by positivity
  obtain ⟨u₁, l1, l2, e1⟩ := uniform_onto (x := s1Min M a) (y := s1Max M b) (z := s1)
    (by unfold s1Min; rw [div_lt_iff₀ hM2]; linarith) (by unfold s1Max; rw [lt_div_iff₀ hM2]; linarith)
  obtain ⟨_, lo, hi, hr, hlt, _, hf, _⟩ := s2_inside (u := 0) hM h1 h2 hb hbM
  have hprod : (s2 - lo) * (s2 - hi) < 0 := by
    rw [hf s2] at hg
    have hpos : 0 < M ^ 4 * (M ^ 2 * s1) := by
      have : 0 < M ^ 2 * s1 := lt_of_le_of_lt (sq_nonneg a) h1
      positivity
    by_contra hc
    push Not at hc
    exact absurd hg (not_lt.mpr (mul_nonneg hpos.le hc))
  have hlo : lo < s2 := by nlinarith
  have hhi : s2 < hi := by nlinarith
  obtain ⟨u₂, l3, l4, e2⟩ := uniform_onto hlo hhi
  exact ⟨u₁, u₂, ⟨l1, l2⟩, ⟨l3, l4⟩, by simp only [propose, e1, hr, Option.map_some, e2]⟩

/-- The middle of the range of `s2`. -/
theorem gram_middle {M a b S : ℝ} (hS : 0 < S) (h1 : a ^ 2 < S) (h2 : S < (M - b) ^ 2) (hb : 0 ≤ b) (hbM : b < M) :
    gram M a b S (b ^ 2 + (S - a ^ 2) * (M ^ 2 - S - b ^ 2) / (2 * S)) < 0 := by
  have e : gram M a b S (b ^ 2 + (S - a ^ 2) * (M ^ 2 - S - b ^ 2) / (2 * S)) =
      -((S - a ^ 2) ^ 2 * (((M - b) ^ 2 - S) * ((M + b) ^ 2 - S)) / (4 * S)) := by
    unfold gram; field_simp; ring
  rw [e, neg_lt_zero]
  have h3 : 0 < (M - b) ^ 2 - S := by linarith
  have h4 : 0 < (M + b) ^ 2 - S := by nlinarith
  have h5 : 0 < S - a ^ 2 := by linarith
  positivity

theorem lambda_eq (s y : ℝ) : lambda 1 s (y * y) = ((1 - y) ^ 2 - s) * ((1 + y) ^ 2 - s) := by unfold lambda; ring

/-! ### The likelihood is negative -/

theorem labCos_le (p k : Vec3 ℝ) : |labCos p k| ≤ 1 := by
  unfold labCos
  have h1 := direction_unit p
  have h2 := direction_unit k
  rw [abs_le]
  have hp := Vec3.dot_self_nonneg (direction p + direction k)
  have hm := Vec3.dot_self_nonneg (direction p - direction k)
  have ep : Vec3.dot (direction p + direction k) (direction p + direction k) =
      Vec3.dot (direction p) (direction p) + Vec3.dot (direction k) (direction k) + 2 * Vec3.dot (direction p) (direction k) := by
    simp only [Vec3.dot, Vec3.add_x, Vec3.add_y, Vec3.add_z]; ring
  have em : Vec3.dot (direction p - direction k) (direction p - direction k) =
      Vec3.dot (direction p) (direction p) + Vec3.dot (direction k) (direction k) - 2 * Vec3.dot (direction p) (direction k) := by
    simp only [Vec3.dot, Vec3.sub_x, Vec3.sub_y, Vec3.sub_z]; ring
  constructor <;> linarith

/-- The width for a neutrino and leptons of different flavours. -/
theorem width_mixed (O : Object) (r : Primary) {α β : Fin 3} {a b s1 s2 c3 c4 root1 root2 : ℝ} (hO : O.nature = .dirac)
    (ht : r.type = Signatures.n4) (hαβ : α ≠ β) (hh : 0 < r.helicity)
    (hr2 : sqrtN (lambda 1 s2 (b / O.mass * (b / O.mass))) = some root2)
    (hr1 : sqrtN (lambda 1 s1 (a / O.mass * (a / O.mass))) = some root1) :
    width O r α β a b s1 s2 c3 c4 = some (fermiConstant ^ 2 * O.mass ^ 5 / (128 * Real.pi ^ 5) *
      (O.mixing α ^ 2 * (s2 - a / O.mass * (a / O.mass)) * ((1 + b / O.mass * (b / O.mass) - s2) + root2 * c4))) := by
  have hsum : ∑ γ, O.mixing γ ^ 2 * (if γ = α then (1 : ℝ) else 0) = O.mixing α ^ 2 := by
    simp only [mul_ite, mul_one, mul_zero, Finset.sum_ite_eq', Finset.mem_univ, if_true]
  unfold width
  simp only [hr2, hr1, Option.bind_some, Option.map_some, coeffs, hO, ht, if_true, coeffsNu, ind, hαβ, if_false, zero_mul, zero_add, add_zero,
    mul_one, Finset.sum_const_zero, hsum, if_pos hh]
  congr 1
  ring

theorem bracket_pos {y t c : ℝ} (h0 : 0 < y) (h1 : y < 1 / 2) (ht : t < (1 - y) ^ 2) (hc : -1 ≤ c) :
    0 < (1 + y * y - t) + Real.sqrt (lambda 1 t (y * y)) * c := by
  have hpos : 0 < 1 + y * y - t := by nlinarith
  have hlt : Real.sqrt (lambda 1 t (y * y)) < 1 + y * y - t := by
    rw [Real.sqrt_lt' hpos]
    unfold lambda
    nlinarith [mul_pos h0 h0]
  have hs := Real.sqrt_nonneg (lambda 1 t (y * y))
  have : -Real.sqrt (lambda 1 t (y * y)) ≤ Real.sqrt (lambda 1 t (y * y)) * c := by nlinarith
  linarith

set_option maxHeartbeats 1000000 in
/-- **C91** does not hold: for a Dirac lepton decaying to a heavier and a lighter charged lepton (muon and positron), the sampler
proposes events for which the likelihood and the reported width are negative, whatever the momentum. -/
theorem C91_negative_fails (O : Object) (r : Primary) {α β : Fin 3} {a b u₃ u₄ u₅ : ℝ} (hO : O.nature = .dirac)
    (ht : r.type = Signatures.n4) (hαβ : α ≠ β) (hh : 0 < r.helicity) (hm : O.mass = r.mass) (hmix : O.mixing α ≠ 0)
    (hb : 0 < b) (hba : b < a) (ha : 2 * a < r.mass) (h3 : 0 ≤ u₃ ∧ u₃ ≤ 1) :
    ∃ u₁ u₂ x v, (0 < u₁ ∧ u₁ < 1) ∧ (0 < u₂ ∧ u₂ < 1) ∧ propose r.mass a b u₁ u₂ u₃ u₄ u₅ = some x ∧
      likelihood O r α β a b x = some v ∧ v < 0 ∧
      ∀ N A B, products r r.mass a b x = some (N, A, B) → recordWidth O r α β a b N.p A.p B.p = some v := by
  obtain ⟨M, hMd⟩ : ∃ M, M = r.mass := ⟨_, rfl⟩
  rw [← hMd] at hm ha ⊢
  have hM : 0 < M := by linarith
  have hM2 : 0 < M ^ 2 := by positivity
  have ha0 : 0 < a := by linarith
  have hgap : 0 < (M - a) ^ 2 - a ^ 2 := by nlinarith
  have hgap2 : 0 < (a ^ 2 - b ^ 2) * a ^ 2 / M ^ 2 := by
    have : 0 < a ^ 2 - b ^ 2 := by nlinarith
    positivity
  obtain ⟨δ, hδ0, hδ1, hδ2⟩ : ∃ δ, 0 < δ ∧ δ < (M - a) ^ 2 - a ^ 2 ∧ δ < (a ^ 2 - b ^ 2) * a ^ 2 / M ^ 2 :=
    ⟨min ((M - a) ^ 2 - a ^ 2) ((a ^ 2 - b ^ 2) * a ^ 2 / M ^ 2) / 2, by positivity,
      lt_of_lt_of_le (half_lt_self (by positivity)) (min_le_left _ _), lt_of_lt_of_le (half_lt_self (by positivity)) (min_le_right _ _)⟩
  obtain ⟨S, hS⟩ : ∃ S, S = a ^ 2 + δ := ⟨_, rfl⟩
  have hS0 : 0 < S := by rw [hS]; positivity
  obtain ⟨T, hT⟩ : ∃ z, z = b ^ 2 + (S - a ^ 2) * (M ^ 2 - S - b ^ 2) / (2 * S) := ⟨_, rfl⟩
  have hSb : S < (M - b) ^ 2 := by nlinarith
  have hg : gram M a b S T < 0 := by
    rw [hT]
    exact gram_middle hS0 (by linarith) hSb hb.le (by linarith)
  have hTa : T < a ^ 2 := by
    have hlt : (S - a ^ 2) * (M ^ 2 - S - b ^ 2) / (2 * S) < a ^ 2 - b ^ 2 := by
      rw [div_lt_iff₀ (by positivity)]
      have e1 : δ * M ^ 2 < (a ^ 2 - b ^ 2) * a ^ 2 := by rwa [lt_div_iff₀ hM2] at hδ2
      have e2 : δ * (M ^ 2 - S - b ^ 2) ≤ δ * M ^ 2 := mul_le_mul_of_nonneg_left (by nlinarith) hδ0.le
      have e3 : (a ^ 2 - b ^ 2) * a ^ 2 ≤ (a ^ 2 - b ^ 2) * (2 * S) := mul_le_mul_of_nonneg_left (by nlinarith) (by nlinarith)
      have e4 : S - a ^ 2 = δ := by rw [hS]; ring
      rw [e4]
      linarith
    linarith
  have eS : M ^ 2 * (S / M ^ 2) = S := by field_simp
  have eT : M ^ 2 * (T / M ^ 2) = T := by field_simp
  obtain ⟨u₁, u₂, hu1, hu2, hx⟩ := propose_onto (a := a) (b := b) (s1 := S / M ^ 2) (s2 := T / M ^ 2) (u₃ := u₃) (u₄ := u₄) (u₅ := u₅) hM hb.le
    (by linarith) (by rw [eS]; linarith) (by rw [eS]; exact hSb) (by rw [eS, eT]; exact hg)
  obtain ⟨x', hx', hin⟩ := propose_inside (u₄ := u₄) (u₅ := u₅) ha0.le hb.le (by linarith : a + b < M) hu1 hu2 h3
  rw [hx] at hx'
  have hin' := Option.some.inj hx'
  subst hin'
  obtain ⟨k3, k4, N, hc, hp, -, -, -⟩ := products_spec r (by linarith) hb.le (by linarith) (hMd ▸ hin)
  rw [← hMd] at hc hp
  obtain ⟨c4, hc4⟩ : ∃ z, z = labCos r.p k4.p := ⟨_, rfl⟩
  have hcb := abs_le.mp (labCos_le r.p k4.p)
  rw [← hc4] at hcb
  have hyx : 0 < b / M := by positivity
  have hby : b / M < 1 / 2 := by rw [div_lt_div_iff₀ hM two_pos]; linarith
  have hT1 : T / M ^ 2 < (1 - b / M) ^ 2 := by
    rw [show (1 - b / M) ^ 2 = (M - b) ^ 2 / M ^ 2 by field_simp]
    gcongr
    nlinarith
  have hT2 : T / M ^ 2 < (1 + b / M) ^ 2 := by nlinarith
  have hS1 : S / M ^ 2 < (1 - a / M) ^ 2 := by
    rw [show (1 - a / M) ^ 2 = (M - a) ^ 2 / M ^ 2 by field_simp]
    gcongr
    linarith
  have hS2 : S / M ^ 2 < (1 + a / M) ^ 2 := by
    have : 0 < a / M := by positivity
    nlinarith
  have hl2 : 0 ≤ lambda 1 (T / M ^ 2) (b / M * (b / M)) := by
    rw [lambda_eq]; exact mul_nonneg (by linarith) (by linarith)
  have hl1 : 0 ≤ lambda 1 (S / M ^ 2) (a / M * (a / M)) := by
    rw [lambda_eq]; exact mul_nonneg (by linarith) (by linarith)
  have hw := width_mixed O r (a := a) (b := b) (c3 := labCos r.p k3.p) (c4 := c4) hO ht hαβ hh
    (by rw [hm]; unfold sqrtN; rw [if_pos hl2]) (by rw [hm]; unfold sqrtN; rw [if_pos hl1])
  have hlik : likelihood O r α β a b ⟨S / M ^ 2, T / M ^ 2, uniform (-1) 1 u₃, uniform 0 (2 * Real.pi) u₄, uniform 0 (2 * Real.pi) u₅⟩ =
      width O r α β a b (S / M ^ 2) (T / M ^ 2) (labCos r.p k3.p) c4 := by
    unfold likelihood
    rw [hm, hc, Option.bind_some, hc4]
  rw [hw] at hlik
  refine ⟨u₁, u₂, _, _, hu1, hu2, hx, hlik, ?_, fun N A B h => ?_⟩
  · have hpre : 0 < fermiConstant ^ 2 * O.mass ^ 5 / (128 * Real.pi ^ 5) := by
      rw [hm]
      have hf : 0 < fermiConstant := by unfold fermiConstant; norm_num
      have := Real.pi_pos
      positivity
    have hneg : T / M ^ 2 - a / O.mass * (a / O.mass) < 0 := by
      rw [hm, show a / M * (a / M) = a ^ 2 / M ^ 2 by field_simp, ← sub_div]
      exact div_neg_of_neg_of_pos (by linarith) hM2
    have hbr := bracket_pos hyx hby hT1 hcb.1
    rw [hm] at hneg hpre ⊢
    have hmix2 : 0 < O.mixing α ^ 2 := by positivity
    exact mul_neg_of_pos_of_neg hpre (mul_neg_of_neg_of_pos (mul_neg_of_pos_of_neg hmix2 hneg) hbr)
  · rw [← hlik]
    exact C91_likelihood_partial O r α β hb.le (by linarith) (by linarith) (hm.trans hMd) (hMd ▸ hin) (hMd ▸ h)

/-! ### The likelihood is not a number -/

set_option maxHeartbeats 1000000 in
/-- **C91** does not hold: for a decay to a lighter negative and a heavier positive lepton (electron and antimuon), the sampler proposes
events for which the likelihood and the reported width are not numbers, whatever the momentum. -/
theorem C91_nan_fails (O : Object) (r : Primary) (α β : Fin 3) {a b u₃ u₄ u₅ : ℝ} (hm : O.mass = r.mass)
    (ha : 0 ≤ a) (hab : a < b) (hsum : a + b < r.mass) (h3 : 0 ≤ u₃ ∧ u₃ ≤ 1) :
    ∃ u₁ u₂ x, (0 < u₁ ∧ u₁ < 1) ∧ (0 < u₂ ∧ u₂ < 1) ∧ propose r.mass a b u₁ u₂ u₃ u₄ u₅ = some x ∧
      likelihood O r α β a b x = none ∧
      ∀ N A B, products r r.mass a b x = some (N, A, B) → recordWidth O r α β a b N.p A.p B.p = none := by
  obtain ⟨M, hMd⟩ : ∃ M, M = r.mass := ⟨_, rfl⟩
  rw [← hMd] at hm hsum ⊢
  have hM : 0 < M := by linarith
  have hM2 : 0 < M ^ 2 := by positivity
  have hb : 0 < b := by linarith
  obtain ⟨T, hT1, hTb, hT2⟩ : ∃ T, (M - b) ^ 2 < T ∧ b ^ 2 < T ∧ T < (M - a) ^ 2 := by
    obtain ⟨T, h1, h2⟩ := exists_between (show max ((M - b) ^ 2) (b ^ 2) < (M - a) ^ 2 from max_lt (by nlinarith) (by nlinarith))
    exact ⟨T, lt_of_le_of_lt (le_max_left _ _) h1, lt_of_le_of_lt (le_max_right _ _) h1, h2⟩
  have hT0 : 0 < T := lt_of_le_of_lt (sq_nonneg _) hT1
  obtain ⟨S, hS⟩ : ∃ z, z = a ^ 2 + (T - b ^ 2) * (M ^ 2 - T - a ^ 2) / (2 * T) := ⟨_, rfl⟩
  have hg : gram M a b S T < 0 := by
    rw [gram_symm, hS]
    exact gram_middle hT0 hTb hT2 ha (by linarith)
  obtain ⟨hS1, hS2⟩ := inside (M := M) (a := b) (b := a) (S1 := T) (S2 := S) hTb (by nlinarith) (by rw [← gram_symm]; exact hg)
  have hSlt : S < (M - b) ^ 2 := by
    have hS0 : 0 < S := lt_of_le_of_lt (sq_nonneg a) hS1
    have e : 4 * S * gram M a b S T = (2 * S * (T - b ^ 2) - (S - a ^ 2) * (M ^ 2 - S - b ^ 2)) ^ 2 -
        (S - a ^ 2) ^ 2 * (((M - b) ^ 2 - S) * ((M + b) ^ 2 - S)) := by unfold gram; ring
    have h1 : 0 < (S - a ^ 2) ^ 2 * (((M - b) ^ 2 - S) * ((M + b) ^ 2 - S)) := by
      nlinarith [sq_nonneg (2 * S * (T - b ^ 2) - (S - a ^ 2) * (M ^ 2 - S - b ^ 2)), mul_pos hS0 (neg_pos.mpr hg)]
    have h2 : 0 < ((M - b) ^ 2 - S) * ((M + b) ^ 2 - S) := (pos_iff_pos_of_mul_pos h1).mp (by
      have : 0 < S - a ^ 2 := by linarith
      positivity)
    have h3 : 0 < (M + b) ^ 2 - S := by nlinarith
    have := (pos_iff_pos_of_mul_pos h2).mpr h3
    linarith
  have eS : M ^ 2 * (S / M ^ 2) = S := by field_simp
  have eT : M ^ 2 * (T / M ^ 2) = T := by field_simp
  obtain ⟨u₁, u₂, hu1, hu2, hx⟩ := propose_onto (a := a) (b := b) (s1 := S / M ^ 2) (s2 := T / M ^ 2) (u₃ := u₃) (u₄ := u₄) (u₅ := u₅) hM hb.le
    (by linarith) (by rw [eS]; linarith) (by rw [eS]; exact hSlt) (by rw [eS, eT]; exact hg)
  obtain ⟨x', hx', hin⟩ := propose_inside (u₄ := u₄) (u₅ := u₅) ha hb.le (by linarith : a + b < M) hu1 hu2 h3
  rw [hx] at hx'
  have hin' := Option.some.inj hx'
  subst hin'
  obtain ⟨k3, k4, N, hc, hp, -, -, -⟩ := products_spec r (by linarith) hb.le (by linarith) (hMd ▸ hin)
  rw [← hMd] at hc hp
  have hTM : T < (M + b) ^ 2 := lt_trans hT2 (by nlinarith)
  have hlam : lambda 1 (T / M ^ 2) (b / M * (b / M)) < 0 := by
    rw [lambda_eq, show (1 - b / M) ^ 2 = (M - b) ^ 2 / M ^ 2 by field_simp, show (1 + b / M) ^ 2 = (M + b) ^ 2 / M ^ 2 by field_simp,
      ← sub_div, ← sub_div]
    exact mul_neg_of_neg_of_pos (div_neg_of_neg_of_pos (by linarith) hM2) (div_pos (by linarith) hM2)
  have hw : ∀ c3 c4, width O r α β a b (S / M ^ 2) (T / M ^ 2) c3 c4 = none := by
    intro c3 c4
    unfold width
    rw [hm]
    simp only
    have : sqrtN (lambda 1 (T / M ^ 2) (b / M * (b / M))) = none := by unfold sqrtN; rw [if_neg (not_le.mpr hlam)]
    rw [this]
    rfl
  have hlik : likelihood O r α β a b ⟨S / M ^ 2, T / M ^ 2, uniform (-1) 1 u₃, uniform 0 (2 * Real.pi) u₄, uniform 0 (2 * Real.pi) u₅⟩ =
      none := by
    unfold likelihood
    rw [hm, hc, Option.bind_some]
    exact hw _ _
  refine ⟨u₁, u₂, _, hu1, hu2, hx, hlik, fun N A B h => ?_⟩
  rw [← hlik]
  exact C91_likelihood_partial O r α β hb.le (by linarith) (by linarith) (hm.trans hMd) (hMd ▸ hin) (hMd ▸ h)

/-! ### The density declared for the proposals -/

/-- **Specification.**  The probability that the proposed pair `(s1, s2)` lies in `B`. -/
noncomputable def proposalLaw (M a b u₃ u₄ u₅ : ℝ) (B : Set (ℝ × ℝ)) : ℝ≥0∞ :=
  ∫⁻ u₁ in Icc (0 : ℝ) 1, (∫⁻ u₂ in Icc (0 : ℝ) 1,
    {u | ∃ x, propose M a b u₁ u u₃ u₄ u₅ = some x ∧ (x.s1, x.s2) ∈ B}.indicator (fun _ => 1) u₂)

/-- **Specification.**  The region the proposals cover. -/
def allowed (M a b : ℝ) : Set (ℝ × ℝ) :=
  {z | a ^ 2 < M ^ 2 * z.1 ∧ M ^ 2 * z.1 < (M - b) ^ 2 ∧ gram M a b (M ^ 2 * z.1) (M ^ 2 * z.2) < 0}

theorem measurable_allowed (M a b : ℝ) : MeasurableSet (allowed M a b) := by
  have h : Continuous fun z : ℝ × ℝ => gram M a b (M ^ 2 * z.1) (M ^ 2 * z.2) := by unfold gram; fun_prop
  have h1 : Measurable fun z : ℝ × ℝ => M ^ 2 * z.1 := by fun_prop
  exact (measurableSet_lt measurable_const h1).inter
    ((measurableSet_lt h1 measurable_const).inter (measurableSet_lt h.measurable measurable_const))

/-- The range of `s2` is narrow where `s1` is close to its maximum. -/
theorem slice_small {M a b s1 : ℝ} (hM : 0 < M) (h1 : a ^ 2 < M ^ 2 * s1) (h2 : M ^ 2 * s1 < (M - b) ^ 2) (hb : 0 ≤ b) (hbM : b < M) :
    volume {s2 : ℝ | gram M a b (M ^ 2 * s1) (M ^ 2 * s2) < 0} ≤ ENNReal.ofReal ((M + b) / M ^ 2 * Real.sqrt ((M - b) ^ 2 - M ^ 2 * s1)) := by
  obtain ⟨_, lo, hi, _, hlt, hw, hf, _⟩ := s2_inside (u := 0) hM h1 h2 hb hbM
  have hS : 0 < M ^ 2 * s1 := lt_of_le_of_lt (sq_nonneg a) h1
  have hM2 : 0 < M ^ 2 := by positivity
  have hsub : {s2 : ℝ | gram M a b (M ^ 2 * s1) (M ^ 2 * s2) < 0} ⊆ Ioo lo hi := by
    intro s2 hs
    rw [mem_ofPred_eq, hf s2] at hs
    have hprod : (s2 - lo) * (s2 - hi) < 0 := by
      by_contra hc
      push Not at hc
      exact absurd hs (not_lt.mpr (mul_nonneg (by positivity) hc))
    exact ⟨by nlinarith, by nlinarith⟩
  refine (measure_mono hsub).trans ?_
  rw [Real.volume_Ioo]
  refine ENNReal.ofReal_le_ofReal ?_
  set S := M ^ 2 * s1
  have hle : Real.sqrt ((M ^ 2 - S - b ^ 2) ^ 2 - 4 * S * b ^ 2) ≤ (M + b) * Real.sqrt ((M - b) ^ 2 - S) := by
    rw [show (M ^ 2 - S - b ^ 2) ^ 2 - 4 * S * b ^ 2 = ((M + b) ^ 2 - S) * ((M - b) ^ 2 - S) by ring]
    rw [Real.sqrt_mul' _ (by linarith)]
    refine mul_le_mul_of_nonneg_right ?_ (Real.sqrt_nonneg _)
    rw [Real.sqrt_le_left (by linarith)]
    linarith
  have hr := Real.sqrt_nonneg ((M ^ 2 - S - b ^ 2) ^ 2 - 4 * S * b ^ 2)
  have h3 : (hi - lo) * M ^ 2 * S ≤ S * Real.sqrt ((M ^ 2 - S - b ^ 2) ^ 2 - 4 * S * b ^ 2) := by
    rw [hw]
    exact mul_le_mul_of_nonneg_right (by nlinarith [sq_nonneg a]) hr
  have h4 : (hi - lo) * M ^ 2 ≤ Real.sqrt ((M ^ 2 - S - b ^ 2) ^ 2 - 4 * S * b ^ 2) := by
    rw [mul_comm] at h3
    exact le_of_mul_le_mul_left h3 hS
  rw [div_mul_eq_mul_div, le_div_iff₀ hM2]
  exact h4.trans hle

/-- **C91** does not hold: the sampler declares the same density for all proposals, but no constant is the density of the pair of
invariant masses that it proposes. -/
theorem C91_proposals_fails {M a b u₃ u₄ u₅ : ℝ} (ha : 0 ≤ a) (hb : 0 ≤ b) (hab : a + b < M) :
    ¬ ∃ κ : ℝ≥0∞, ∀ B : Set (ℝ × ℝ), MeasurableSet B → proposalLaw M a b u₃ u₄ u₅ B = κ * volume (B ∩ allowed M a b) := by
  classical
  rintro ⟨κ, hκ⟩
  have hM : 0 < M := by linarith
  have hM2 : 0 < M ^ 2 := by positivity
  set D := s1Max M b - s1Min M a with hD
  have hD0 : 0 < D := by
    rw [hD]
    unfold s1Max s1Min
    rw [← sub_div]
    exact div_pos (by nlinarith) hM2
  -- the strip next to the largest `s1`
  set B : ℝ → Set (ℝ × ℝ) := fun η => Ioo (s1Max M b - η * D) (s1Max M b) ×ˢ univ with hB
  have hBm : ∀ η, MeasurableSet (B η) := fun η => measurableSet_Ioo.prod MeasurableSet.univ
  have hlow : ∀ η, 0 < η → η < 1 → ENNReal.ofReal η ≤ proposalLaw M a b u₃ u₄ u₅ (B η) := by
    intro η h0 h1
    have hin : ∀ u₁ ∈ Ioo (1 - η) 1, ∀ u₂ ∈ Ioo (0 : ℝ) 1, ∃ x, propose M a b u₁ u₂ u₃ u₄ u₅ = some x ∧ (x.s1, x.s2) ∈ B η := by
      intro u₁ hu₁ u₂ hu₂
      obtain ⟨l1, l2⟩ := s1_inside hM ha hab (by linarith [hu₁.1] : 0 < u₁) hu₁.2
      obtain ⟨_, lo, hi, hr, -⟩ := s2_inside (u := u₂) hM l1 l2 hb (by linarith)
      refine ⟨_, by simp only [propose, hr, Option.map_some]; rfl, ⟨?_, ?_⟩, trivial⟩
      · show s1Max M b - η * D < uniform (s1Min M a) (s1Max M b) u₁
        unfold uniform
        rw [if_neg (by linarith)]
        nlinarith [hu₁.1]
      · show uniform (s1Min M a) (s1Max M b) u₁ < s1Max M b
        unfold uniform
        rw [if_neg (by linarith)]
        nlinarith [hu₁.2]
    unfold proposalLaw
    calc ENNReal.ofReal η = ∫⁻ _ in Ioo (1 - η) 1, 1 := by simp
      _ = ∫⁻ u₁ in Ioo (1 - η) 1, (∫⁻ u₂ in Ioo (0 : ℝ) 1,
            {u | ∃ x, propose M a b u₁ u u₃ u₄ u₅ = some x ∧ (x.s1, x.s2) ∈ B η}.indicator (fun _ => 1) u₂) := by
          refine setLIntegral_congr_fun measurableSet_Ioo fun u₁ hu₁ => ?_
          symm
          calc _ = ∫⁻ u₂ in Ioo (0 : ℝ) 1, 1 := setLIntegral_congr_fun measurableSet_Ioo fun u₂ hu₂ =>
              indicator_of_mem (show u₂ ∈ {u | ∃ x, propose M a b u₁ u u₃ u₄ u₅ = some x ∧ (x.s1, x.s2) ∈ B η} from hin u₁ hu₁ u₂ hu₂) _
            _ = 1 := by simp
      _ ≤ ∫⁻ u₁ in Icc (0 : ℝ) 1, (∫⁻ u₂ in Ioo (0 : ℝ) 1,
            {u | ∃ x, propose M a b u₁ u u₃ u₄ u₅ = some x ∧ (x.s1, x.s2) ∈ B η}.indicator (fun _ => 1) u₂) :=
          lintegral_mono_set (fun u hu => ⟨by linarith [hu.1], hu.2.le⟩)
      _ ≤ _ := lintegral_mono fun u₁ => lintegral_mono_set Ioo_subset_Icc_self
  have hle1 : ∀ η, proposalLaw M a b u₃ u₄ u₅ (B η) ≤ 1 := by
    intro η
    unfold proposalLaw
    calc _ ≤ ∫⁻ _ in Icc (0 : ℝ) 1, (∫⁻ _ in Icc (0 : ℝ) 1, (1 : ℝ≥0∞)) :=
          lintegral_mono fun u₁ => lintegral_mono fun u₂ => indicator_le_self' (fun _ _ => bot_le) u₂
      _ = 1 := by simp
  have hup : ∀ η, 0 < η → η < 1 → volume (B η ∩ allowed M a b) ≤
      ENNReal.ofReal ((M + b) / M ^ 2 * Real.sqrt (M ^ 2 * (η * D))) * ENNReal.ofReal (η * D) := by
    intro η h0 h1
    rw [Measure.volume_eq_prod, Measure.prod_apply ((hBm η).inter (measurable_allowed M a b))]
    have hpt : ∀ s1, volume (Prod.mk s1 ⁻¹' (B η ∩ allowed M a b)) ≤
        (Ioo (s1Max M b - η * D) (s1Max M b)).indicator
          (fun _ => ENNReal.ofReal ((M + b) / M ^ 2 * Real.sqrt (M ^ 2 * (η * D)))) s1 := by
      intro s1
      by_cases hs : s1 ∈ Ioo (s1Max M b - η * D) (s1Max M b) ∧ a ^ 2 < M ^ 2 * s1 ∧ M ^ 2 * s1 < (M - b) ^ 2
      · rw [indicator_of_mem hs.1]
        have hsub : Prod.mk s1 ⁻¹' (B η ∩ allowed M a b) ⊆ {s2 | gram M a b (M ^ 2 * s1) (M ^ 2 * s2) < 0} := fun s2 h => h.2.2.2
        refine (measure_mono hsub).trans ((slice_small hM hs.2.1 hs.2.2 hb (by linarith)).trans (ENNReal.ofReal_le_ofReal ?_))
        refine mul_le_mul_of_nonneg_left (Real.sqrt_le_sqrt ?_) (by positivity)
        have e : M ^ 2 * s1Max M b = (M - b) ^ 2 := by unfold s1Max; field_simp
        nlinarith [hs.1.1]
      · have : Prod.mk s1 ⁻¹' (B η ∩ allowed M a b) = ∅ := by
          ext s2
          simp only [mem_preimage, mem_empty_iff_false, iff_false]
          exact fun h => hs ⟨h.1.1, h.2.1, h.2.2.1⟩
        rw [this, measure_empty]
        exact bot_le
    calc _ ≤ _ := lintegral_mono hpt
      _ = _ := by
        rw [lintegral_indicator_const measurableSet_Ioo, Real.volume_Ioo]
        congr 2
        ring
  have hfin : κ ≠ ∞ := by
    intro hinf
    have h1 := hlow (1 / 2) (by norm_num) (by norm_num)
    have h2 := hle1 (1 / 2)
    rw [hκ _ (hBm _), hinf] at h1 h2
    by_cases hz : volume (B (1 / 2) ∩ allowed M a b) = 0
    · rw [hz, mul_zero] at h1
      have : (0 : ℝ≥0∞) < ENNReal.ofReal (1 / 2) := by simp
      exact absurd h1 (not_le.mpr this)
    · rw [ENNReal.top_mul hz] at h2
      exact absurd h2 (by simp)
  obtain ⟨k, rfl⟩ : ∃ k : NNReal, (k : ℝ≥0∞) = κ := ⟨κ.toNNReal, ENNReal.coe_toNNReal hfin⟩
  have hreal : ∀ η, 0 < η → η < 1 → η ≤ (k : ℝ) * ((M + b) / M ^ 2 * Real.sqrt (M ^ 2 * (η * D)) * (η * D)) := by
    intro η h0 h1
    have h := (hlow η h0 h1).trans ((hκ _ (hBm η)).le.trans (mul_le_mul_right (hup η h0 h1) _))
    rw [← ENNReal.ofReal_mul (by positivity), ← ENNReal.ofReal_coe_nnreal, ← ENNReal.ofReal_mul (by positivity),
      ENNReal.ofReal_le_ofReal_iff (by positivity)] at h
    exact h
  set K := (k : ℝ) * ((M + b) / M ^ 2 * Real.sqrt (M ^ 2 * D)) * D with hK
  have hK0 : 0 ≤ K := by positivity
  set t := 1 / (2 * (K + 1)) with ht
  have ht0 : 0 < t := by positivity
  have ht1 : t < 1 := by rw [ht, div_lt_one (by positivity)]; linarith
  have h := hreal (t ^ 2) (by positivity) (by nlinarith)
  rw [show M ^ 2 * (t ^ 2 * D) = t ^ 2 * (M ^ 2 * D) by ring, Real.sqrt_mul (by positivity), Real.sqrt_sq ht0.le] at h
  have h5 : t ^ 2 ≤ t ^ 2 * (K * t) := by
    calc t ^ 2 ≤ _ := h
      _ = _ := by rw [hK]; ring
  have h6 : K * t < 1 := by rw [ht, mul_one_div, div_lt_one (by positivity)]; linarith
  nlinarith [mul_pos ht0 ht0]

/-- A lepton of 1 GeV that decays to a muon and a positron. -/
example : ∃ u₁ u₂ x v, (0 < u₁ ∧ u₁ < 1) ∧ (0 < u₂ ∧ u₂ < 1) ∧ propose 1 0.105658374 0.000510998 u₁ u₂ 0.5 0 0 = some x ∧
    likelihood ⟨.dirac, 1, fun _ => 0.01⟩ ⟨Signatures.n4, ⟨0, 0, 5⟩, 1, 1⟩ 1 0 0.105658374 0.000510998 x = some v ∧ v < 0 := by
  obtain ⟨u₁, u₂, x, v, h1, h2, h3, h4, h5, -⟩ := C91_negative_fails (O := ⟨.dirac, 1, fun _ => 0.01⟩)
    (r := ⟨Signatures.n4, ⟨0, 0, 5⟩, 1, 1⟩) (α := 1) (β := 0) (a := 0.105658374) (b := 0.000510998) (u₃ := 0.5) (u₄ := 0) (u₅ := 0)
    rfl rfl (by decide) (by norm_num) rfl (by norm_num) (by norm_num) (by norm_num) (by norm_num) (by norm_num)
  exact ⟨u₁, u₂, x, v, h1, h2, h3, h4, h5⟩

end ThreeBody
end Siren
