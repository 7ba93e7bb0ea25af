import Verif.Math.Integrate
import Mathlib.Analysis.SpecialFunctions.Integrals.Basic

set_option autoImplicit false

/-!
# Two-dimensional Simpson integration (C67)
-/

namespace Siren.Math.Integrate

open Siren Finset

/-! ## Specification -/

/-- The composite Simpson rule for `g` between `a` and `b` with `n` intervals: pairs of intervals, each with the weights 1, 4, 1. -/
noncomputable def simpson (g : ℝ → ℝ) (a b : ℝ) (n : Nat) : ℝ :=
  ∑ p ∈ range (n / 2), (g (a + (2 * p : ℕ) * ((b - a) / n)) + 4 * g (a + (2 * p + 1 : ℕ) * ((b - a) / n)) + g (a + (2 * p + 2 : ℕ) * ((b - a) / n)))
    * ((b - a) / n) / 3

/-- The rule in two dimensions: the rule in the second variable for every value of the first, then in the first. -/
noncomputable def simpson2 (f : ℝ → ℝ → ℝ) (a1 b1 a2 b2 : ℝ) (n1 n2 : Nat) : ℝ :=
  simpson (fun x => simpson (f x) a2 b2 n2) a1 b1 n1

/-! ## Lemmas -/

theorem foldl_add (g : Nat → ℝ) (n : Nat) (s : ℝ) : (List.range n).foldl (fun e j => e + g j) s = s + ∑ j ∈ range n, g j := by
  induction n with
  | zero => simp
  | succ n ih => rw [List.range_succ, List.foldl_append, ih, sum_range_succ]; simp; ring

theorem weights (G : Nat → ℝ) (m : Nat) (hm : 0 < m) :
    ∑ j ∈ range (2 * m + 1), simpsonWeight (2 * m) j * G j = ∑ p ∈ range m, (G (2 * p) + 4 * G (2 * p + 1) + G (2 * p + 2)) := by
  induction m with
  | zero => omega
  | succ m ih =>
    rcases Nat.eq_zero_or_pos m with rfl | h
    · simp [sum_range_succ, simpsonWeight]
    · have e : ∑ j ∈ range (2 * m), simpsonWeight (2 * (m + 1)) j * G j = ∑ j ∈ range (2 * m), simpsonWeight (2 * m) j * G j := by
        refine sum_congr rfl fun j hj => ?_
        have hj' := mem_range.mp hj
        have : (j = 0 ∨ j = 2 * (m + 1)) ↔ (j = 0 ∨ j = 2 * m) := by omega
        simp only [simpsonWeight, this]
      have w0 : simpsonWeight (2 * (m + 1)) (2 * m) = 2 := by
        rw [simpsonWeight, if_neg (by omega), if_pos (by omega)]
      have w1 : simpsonWeight (2 * (m + 1)) (2 * m + 1) = 4 := by
        rw [simpsonWeight, if_neg (by omega), if_neg (by omega)]
      have w2 : simpsonWeight (2 * (m + 1)) (2 * m + 2) = 1 := by
        rw [simpsonWeight, if_pos (by omega)]
      have w3 : simpsonWeight (2 * m) (2 * m) = 1 := by rw [simpsonWeight, if_pos (by omega)]
      have ih := ih h
      rw [sum_range_succ, w3] at ih
      rw [show 2 * (m + 1) + 1 = 2 * m + 1 + 1 + 1 by ring, sum_range_succ, sum_range_succ, sum_range_succ, e, w0, w1, w2, sum_range_succ _ m, ← ih]
      ring

theorem simpson_weights (g : ℝ → ℝ) (a b : ℝ) (m : Nat) (hm : 0 < m) :
    (∑ j ∈ range (2 * m + 1), simpsonWeight (2 * m) j * g (a + j * ((b - a) / (2 * m : ℕ)))) * ((b - a) / (2 * m : ℕ)) / 3
      = simpson g a b (2 * m) := by
  rw [weights (fun j => g (a + j * ((b - a) / (2 * m : ℕ)))) m hm, simpson, Nat.mul_div_cancel_left m (by norm_num), sum_mul, sum_div]

theorem estimate_eq (f : ℝ → ℝ → ℝ) (a1 b1 a2 b2 : ℝ) (m1 m2 : Nat) (h1 : 0 < m1) (h2 : 0 < m2) :
    simpsonEstimate f a1 b1 a2 b2 (2 * m1) (2 * m2) = simpson2 f a1 b1 a2 b2 (2 * m1) (2 * m2) := by
  rw [simpsonEstimate, simpson2, ← simpson_weights _ a1 b1 m1 h1]
  simp only [← simpson_weights _ a2 b2 m2 h2, foldl_add, zero_add, mul_assoc, ← mul_sum]
  simp only [mul_sum, sum_mul, sum_div]
  refine sum_congr rfl fun j _ => sum_congr rfl fun k _ => ?_
  ring

/-- Round `i` of the loop. -/
noncomputable def round (f : ℝ → ℝ → ℝ) (a1 b1 a2 b2 : ℝ) (n1 n2 i : Nat) : ℝ := simpsonEstimate f a1 b1 a2 b2 (2 ^ i * n1) (2 ^ i * n2)

/-- Round `i + 1` meets the stopping criterion. -/
def Close (f : ℝ → ℝ → ℝ) (a1 b1 a2 b2 tol : ℝ) (n1 n2 i : Nat) : Prop :=
  let new := round f a1 b1 a2 b2 n1 n2 (i + 1)
  let old := round f a1 b1 a2 b2 n1 n2 i
  max |new| |old| < tol * tol ∨ |new - old| < tol * max |new| |old|

theorem simpsonLoop_spec (f : ℝ → ℝ → ℝ) (a1 b1 a2 b2 tol : ℝ) (n1 n2 n i : Nat) (v : ℝ) :
    (simpsonLoop f a1 b1 a2 b2 tol n1 n2 n (i + 1) (round f a1 b1 a2 b2 n1 n2 i) = .ok v ↔
      ∃ k, i ≤ k ∧ k < i + n ∧ Close f a1 b1 a2 b2 tol n1 n2 k ∧ (∀ j, i ≤ j → j < k → ¬ Close f a1 b1 a2 b2 tol n1 n2 j) ∧
        v = round f a1 b1 a2 b2 n1 n2 (k + 1)) ∧
    ((∃ w, simpsonLoop f a1 b1 a2 b2 tol n1 n2 n (i + 1) (round f a1 b1 a2 b2 n1 n2 i) = .ok w) ∨
      simpsonLoop f a1 b1 a2 b2 tol n1 n2 n (i + 1) (round f a1 b1 a2 b2 n1 n2 i) = .throws .runtimeError) := by
  induction n generalizing i with
  | zero =>
    refine ⟨⟨fun h => (by cases h), ?_⟩, .inr rfl⟩
    rintro ⟨k, h1, h2, -⟩
    omega
  | succ n ih =>
    obtain ⟨h1, h2⟩ := ih (i + 1)
    by_cases h : Close f a1 b1 a2 b2 tol n1 n2 i
    · have hc : 0 < i + 1 ∧ (max |round f a1 b1 a2 b2 n1 n2 (i + 1)| |round f a1 b1 a2 b2 n1 n2 i| < tol * tol ∨
          |round f a1 b1 a2 b2 n1 n2 (i + 1) - round f a1 b1 a2 b2 n1 n2 i| < tol * max |round f a1 b1 a2 b2 n1 n2 (i + 1)| |round f a1 b1 a2 b2 n1 n2 i|) :=
        ⟨by omega, h⟩
      have hl : simpsonLoop f a1 b1 a2 b2 tol n1 n2 (n + 1) (i + 1) (round f a1 b1 a2 b2 n1 n2 i) = .ok (round f a1 b1 a2 b2 n1 n2 (i + 1)) := by
        rw [simpsonLoop]; exact if_pos hc
      rw [hl]
      refine ⟨⟨fun e => ⟨i, le_rfl, by omega, h, fun j h1 h2 => absurd h1 (by omega), (Res.ok.inj e).symm⟩, ?_⟩, .inl ⟨_, rfl⟩⟩
      rintro ⟨k, h1', h2', h3, h4, rfl⟩
      rcases Nat.eq_or_lt_of_le h1' with rfl | h1
      · rfl
      · exact absurd h (h4 i le_rfl h1)
    · have hc : ¬ (0 < i + 1 ∧ (max |round f a1 b1 a2 b2 n1 n2 (i + 1)| |round f a1 b1 a2 b2 n1 n2 i| < tol * tol ∨
          |round f a1 b1 a2 b2 n1 n2 (i + 1) - round f a1 b1 a2 b2 n1 n2 i| < tol * max |round f a1 b1 a2 b2 n1 n2 (i + 1)| |round f a1 b1 a2 b2 n1 n2 i|)) :=
        fun hh => h hh.2
      have hl : simpsonLoop f a1 b1 a2 b2 tol n1 n2 (n + 1) (i + 1) (round f a1 b1 a2 b2 n1 n2 i)
          = simpsonLoop f a1 b1 a2 b2 tol n1 n2 n (i + 1 + 1) (round f a1 b1 a2 b2 n1 n2 (i + 1)) := by
        rw [simpsonLoop]; exact if_neg hc
      rw [hl]
      refine ⟨?_, h2⟩
      rw [h1]
      constructor
      · rintro ⟨k, h1, h2, h3, h4, h5⟩
        refine ⟨k, by omega, by omega, h3, fun j hj hk => ?_, h5⟩
        rcases Nat.eq_or_lt_of_le hj with rfl | hj
        · exact h
        · exact h4 j hj hk
      · rintro ⟨k, h1, h2, h3, h4, h5⟩
        rcases Nat.eq_or_lt_of_le h1 with rfl | h1
        · exact absurd h3 h
        · exact ⟨k, h1, by omega, h3, fun j hj hk => h4 j (by omega) hk, h5⟩

/-! ## The property -/

/-- C67: with at least one interval in each variable, a returned value is the Simpson rule with `2 ^ i` times the requested intervals, for the
first round `i`, after the first, whose value is below the square of the tolerance or differs from that of the round before by less than
`tol` relative to the larger of the two. Without such a round among the allowed ones, and for a negative tolerance, the call throws.
(`simpsonEstimate` in round 0 may be called with an odd number of intervals; its value only serves the comparison.) -/
theorem C67_result (f : ℝ → ℝ → ℝ) (a1 b1 a2 b2 tol : ℝ) (n1 n2 maxIter : Nat) (h1 : 0 < n1) (h2 : 0 < n2) (v : ℝ) :
    (simpsonIntegrate2D f a1 b1 a2 b2 tol n1 n2 maxIter = .ok v ↔ 0 ≤ tol ∧
      ∃ i, i + 1 < maxIter ∧ Close f a1 b1 a2 b2 tol n1 n2 i ∧ (∀ j, j < i → ¬ Close f a1 b1 a2 b2 tol n1 n2 j) ∧
        v = simpson2 f a1 b1 a2 b2 (2 ^ (i + 1) * n1) (2 ^ (i + 1) * n2)) ∧
    ((∀ w, simpsonIntegrate2D f a1 b1 a2 b2 tol n1 n2 maxIter ≠ .ok w) →
      simpsonIntegrate2D f a1 b1 a2 b2 tol n1 n2 maxIter = .throws .runtimeError) := by
  have hv : ∀ i, round f a1 b1 a2 b2 n1 n2 (i + 1) = simpson2 f a1 b1 a2 b2 (2 ^ (i + 1) * n1) (2 ^ (i + 1) * n2) := fun i => by
    rw [round, show 2 ^ (i + 1) * n1 = 2 * (2 ^ i * n1) by ring, show 2 ^ (i + 1) * n2 = 2 * (2 ^ i * n2) by ring]
    exact estimate_eq f a1 b1 a2 b2 _ _ (by positivity) (by positivity)
  rw [simpsonIntegrate2D]
  by_cases ht : tol < 0
  · rw [if_pos ht]
    exact ⟨⟨fun h => (by cases h), fun h => absurd ht (not_lt.mpr h.1)⟩, fun _ => rfl⟩
  · rw [if_neg ht]
    cases maxIter with
    | zero =>
      refine ⟨⟨fun h => (by cases h), ?_⟩, fun _ => rfl⟩
      rintro ⟨-, i, hi, -⟩
      omega
    | succ n =>
      have h0 : simpsonLoop f a1 b1 a2 b2 tol n1 n2 (n + 1) 0 0 = simpsonLoop f a1 b1 a2 b2 tol n1 n2 n (0 + 1) (round f a1 b1 a2 b2 n1 n2 0) := by
        rw [simpsonLoop, if_neg (by omega), round]
      obtain ⟨g1, g2⟩ := simpsonLoop_spec f a1 b1 a2 b2 tol n1 n2 n 0 v
      rw [h0, g1]
      refine ⟨⟨?_, ?_⟩, fun h => ?_⟩
      · rintro ⟨k, -, hk, h3, h4, h5⟩
        exact ⟨not_lt.mp ht, k, by omega, h3, fun j hj => h4 j (by omega) hj, by rw [h5, hv]⟩
      · rintro ⟨-, k, hk, h3, h4, h5⟩
        exact ⟨k, by omega, by omega, h3, fun j _ hj => h4 j hj, by rw [h5, hv]⟩
      · rcases g2 with ⟨w, hw⟩ | h'
        · exact absurd hw (h w)
        · exact h'

/-- The rule in one variable is exact for cubic polynomials. -/
theorem simpson_cubic (c : Nat → ℝ) (a b : ℝ) (m : Nat) (hm : 0 < m) :
    simpson (fun x => ∑ i ∈ range 4, c i * x ^ i) a b (2 * m) = ∑ i ∈ range 4, c i * ((b ^ (i + 1) - a ^ (i + 1)) / (i + 1 : ℕ)) := by
  have hN : ((2 * m : ℕ) : ℝ) ≠ 0 := by exact_mod_cast (by omega : 2 * m ≠ 0)
  rw [simpson, Nat.mul_div_cancel_left m (by norm_num)]
  set d := (b - a) / ((2 * m : ℕ) : ℝ) with hd
  have hend : a + ((2 * m : ℕ) : ℝ) * d = b := by rw [hd]; field_simp; ring
  have key : ∀ M : Nat, ∑ p ∈ range M, ((∑ i ∈ range 4, c i * (a + (2 * p : ℕ) * d) ^ i) + 4 * (∑ i ∈ range 4, c i * (a + (2 * p + 1 : ℕ) * d) ^ i)
      + (∑ i ∈ range 4, c i * (a + (2 * p + 2 : ℕ) * d) ^ i)) * d / 3
      = ∑ i ∈ range 4, c i * (((a + (2 * M : ℕ) * d) ^ (i + 1) - a ^ (i + 1)) / (i + 1 : ℕ)) := by
    intro M
    induction M with
    | zero => simp
    | succ M ih =>
      rw [sum_range_succ, ih]
      simp only [sum_range_succ, sum_range_zero]
      push_cast
      ring
  rw [key, hend]

theorem integral_cubic (c : Nat → ℝ) (a b : ℝ) :
    ∫ x in a..b, ∑ i ∈ range 4, c i * x ^ i = ∑ i ∈ range 4, c i * ((b ^ (i + 1) - a ^ (i + 1)) / (i + 1 : ℕ)) := by
  rw [intervalIntegral.integral_finsetSum (fun i _ => (by fun_prop : Continuous fun x : ℝ => c i * x ^ i).intervalIntegrable _ _)]
  simp only [intervalIntegral.integral_const_mul, integral_pow]
  push_cast
  rfl

theorem simpson2_cubic (c : Nat → Nat → ℝ) (a1 b1 a2 b2 : ℝ) (m1 m2 : Nat) (h1 : 0 < m1) (h2 : 0 < m2) :
    simpson2 (fun x y => ∑ i ∈ range 4, (∑ j ∈ range 4, c i j * y ^ j) * x ^ i) a1 b1 a2 b2 (2 * m1) (2 * m2)
      = ∫ x in a1..b1, ∫ y in a2..b2, ∑ i ∈ range 4, (∑ j ∈ range 4, c i j * y ^ j) * x ^ i := by
  have swap : ∀ x y : ℝ, ∑ i ∈ range 4, (∑ j ∈ range 4, c i j * y ^ j) * x ^ i = ∑ j ∈ range 4, (∑ i ∈ range 4, c i j * x ^ i) * y ^ j := by
    intro x y
    simp only [sum_mul]
    rw [sum_comm]
    exact sum_congr rfl fun j _ => sum_congr rfl fun i _ => by ring
  have hy : ∀ x, ∑ j ∈ range 4, (∑ i ∈ range 4, c i j * x ^ i) * ((b2 ^ (j + 1) - a2 ^ (j + 1)) / (j + 1 : ℕ))
      = ∑ i ∈ range 4, (∑ j ∈ range 4, c i j * ((b2 ^ (j + 1) - a2 ^ (j + 1)) / (j + 1 : ℕ))) * x ^ i := by
    intro x
    simp only [sum_mul]
    rw [sum_comm]
    exact sum_congr rfl fun j _ => sum_congr rfl fun i _ => by ring
  simp only [simpson2, swap, simpson_cubic _ a2 b2 m2 h2, integral_cubic _ a2 b2, hy, simpson_cubic _ a1 b1 m1 h1, integral_cubic _ a1 b1]

/-- C67: for polynomials of degree at most three in each variable every returned value is the exact integral, and with a positive tolerance and
at least three allowed rounds the call succeeds. -/
theorem C67_cubic (c : Nat → Nat → ℝ) (a1 b1 a2 b2 tol : ℝ) (n1 n2 maxIter : Nat) (h1 : 0 < n1) (h2 : 0 < n2) :
    (∀ v, simpsonIntegrate2D (fun x y => ∑ i ∈ range 4, (∑ j ∈ range 4, c i j * y ^ j) * x ^ i) a1 b1 a2 b2 tol n1 n2 maxIter = .ok v →
      v = ∫ x in a1..b1, ∫ y in a2..b2, ∑ i ∈ range 4, (∑ j ∈ range 4, c i j * y ^ j) * x ^ i) ∧
    (0 < tol → 3 ≤ maxIter →
      ∃ v, simpsonIntegrate2D (fun x y => ∑ i ∈ range 4, (∑ j ∈ range 4, c i j * y ^ j) * x ^ i) a1 b1 a2 b2 tol n1 n2 maxIter = .ok v) := by
  set f : ℝ → ℝ → ℝ := fun x y => ∑ i ∈ range 4, (∑ j ∈ range 4, c i j * y ^ j) * x ^ i with hf
  have hex : ∀ i, simpson2 f a1 b1 a2 b2 (2 ^ (i + 1) * n1) (2 ^ (i + 1) * n2) = ∫ x in a1..b1, ∫ y in a2..b2, f x y := fun i => by
    rw [show 2 ^ (i + 1) * n1 = 2 * (2 ^ i * n1) by ring, show 2 ^ (i + 1) * n2 = 2 * (2 ^ i * n2) by ring]
    exact simpson2_cubic c a1 b1 a2 b2 _ _ (by positivity) (by positivity)
  refine ⟨fun v hv => ?_, fun ht hm => ?_⟩
  · obtain ⟨-, i, -, -, -, h5⟩ := (C67_result f a1 b1 a2 b2 tol n1 n2 maxIter h1 h2 v).1.mp hv
    rw [h5, hex]
  · classical
    have hclose : Close f a1 b1 a2 b2 tol n1 n2 1 := by
      have e : ∀ i, round f a1 b1 a2 b2 n1 n2 (i + 1) = ∫ x in a1..b1, ∫ y in a2..b2, f x y := fun i => by
        rw [← hex i, round, show 2 ^ (i + 1) * n1 = 2 * (2 ^ i * n1) by ring, show 2 ^ (i + 1) * n2 = 2 * (2 ^ i * n2) by ring]
        exact estimate_eq f a1 b1 a2 b2 _ _ (by positivity) (by positivity)
      simp only [Close]
      rw [e 1, e 0, sub_self, abs_zero, max_self]
      by_cases h0 : ∫ x in a1..b1, ∫ y in a2..b2, f x y = 0
      · left; rw [h0, abs_zero]; positivity
      · right; positivity
    have hmin := Nat.find_spec ⟨1, hclose⟩
    have hle : Nat.find ⟨1, hclose⟩ ≤ 1 := Nat.find_min' ⟨1, hclose⟩ hclose
    exact ⟨_, (C67_result f a1 b1 a2 b2 tol n1 n2 maxIter h1 h2 _).1.mpr
      ⟨ht.le, Nat.find ⟨1, hclose⟩, by omega, hmin, fun j hj => Nat.find_min ⟨1, hclose⟩ hj, rfl⟩⟩

/-- `x³ y` over `[0, 2] × [0, 1]`, with an odd number of intervals in `x`. -/
example : simpsonIntegrate2D (fun x y => x ^ 3 * y) 0 2 0 1 (1 / 1000) 3 10 15 = .ok 2 := by
  have h := C67_cubic (fun i j => if i = 3 ∧ j = 1 then 1 else 0) 0 2 0 1 (1 / 1000) 3 10 15 (by norm_num) (by norm_num)
  have e : (fun x y : ℝ => ∑ i ∈ range 4, (∑ j ∈ range 4, (if i = 3 ∧ j = 1 then (1 : ℝ) else 0) * y ^ j) * x ^ i) = fun x y => x ^ 3 * y := by
    funext x y
    simp [sum_range_succ]
    ring
  have e' : ∀ x y : ℝ, ∑ i ∈ range 4, (∑ j ∈ range 4, (if i = 3 ∧ j = 1 then (1 : ℝ) else 0) * y ^ j) * x ^ i = x ^ 3 * y :=
    fun x y => congrFun (congrFun e x) y
  rw [e] at h
  obtain ⟨v, hv⟩ := h.2 (by norm_num) (by norm_num)
  have hv' := h.1 v hv
  rw [hv, hv']
  congr 1
  have hi : ∀ x : ℝ, ∫ y in (0 : ℝ)..1, x ^ 3 * y = x ^ 3 * (1 / 2) := fun x => by
    rw [intervalIntegral.integral_const_mul, integral_id]; norm_num
  simp only [e', hi]
  rw [intervalIntegral.integral_mul_const, integral_pow]
  norm_num

/-- C67: a tolerance of zero is accepted, but no function meets it: the call always throws. -/
theorem C67_zero_tolerance_fails (f : ℝ → ℝ → ℝ) (a1 b1 a2 b2 : ℝ) (n1 n2 maxIter : Nat) (h1 : 0 < n1) (h2 : 0 < n2) :
    simpsonIntegrate2D f a1 b1 a2 b2 0 n1 n2 maxIter = .throws .runtimeError := by
  refine (C67_result f a1 b1 a2 b2 0 n1 n2 maxIter h1 h2 0).2 fun w hw => ?_
  obtain ⟨-, i, -, hc, -⟩ := (C67_result f a1 b1 a2 b2 0 n1 n2 maxIter h1 h2 w).1.mp hw
  simp only [Close, mul_zero, zero_mul] at hc
  rcases hc with hc | hc
  · exact absurd hc (not_lt.mpr (le_max_of_le_left (abs_nonneg _)))
  · exact absurd hc (not_lt.mpr (abs_nonneg _))

/-- C67: the tolerance is no bound on the error: for `sin² (20 π x)`, which vanishes on the points of the first two rounds with the default
number of intervals, the result is zero while the integral over the unit square is one half. -/
theorem C67_tolerance_fails (tol : ℝ) (h : 0 < tol) :
    simpsonIntegrate2D (fun x _ => Real.sin (20 * Real.pi * x) ^ 2) 0 1 0 1 tol 10 10 15 = .ok 0 ∧
    ∫ x in (0 : ℝ)..1, ∫ _y in (0 : ℝ)..1, Real.sin (20 * Real.pi * x) ^ 2 = 1 / 2 := by
  constructor
  · have hz : ∀ i, i ≤ 1 → round (fun x _ => Real.sin (20 * Real.pi * x) ^ 2) 0 1 0 1 10 10 i = 0 := by
      intro i hi
      rw [round, simpsonEstimate]
      have hs : ∀ j : Nat, Real.sin (20 * Real.pi * (0 + (j : ℝ) * ((1 - 0) / ((2 ^ i * 10 : ℕ) : ℝ)))) = 0 := by
        intro j
        have : 20 * Real.pi * (0 + (j : ℝ) * ((1 - 0) / ((2 ^ i * 10 : ℕ) : ℝ))) = ((j * 2 ^ (1 - i) : ℕ) : ℝ) * Real.pi := by
          have h16 : (20 : ℝ) = 2 ^ i * 10 * 2 ^ (1 - i) := by
            rw [mul_right_comm, ← pow_add, show i + (1 - i) = 1 by omega]; norm_num
          push_cast
          rw [h16]
          field_simp
          ring
        rw [this, Real.sin_nat_mul_pi]
      simp only [hs, foldl_add]
      norm_num
    refine (C67_result _ 0 1 0 1 tol 10 10 15 (by norm_num) (by norm_num) 0).1.mpr
      ⟨h.le, 0, by norm_num, ?_, fun j hj => absurd hj (by omega), ?_⟩
    · simp only [Close, hz 0 (by norm_num), hz (0 + 1) (by norm_num)]
      left
      rw [abs_zero, max_self]
      positivity
    · have := hz 1 le_rfl
      rw [round] at this
      exact (((estimate_eq _ 0 1 0 1 10 10 (by norm_num) (by norm_num)).symm.trans this).symm)
  · simp only [intervalIntegral.integral_const, sub_zero, one_smul]
    rw [intervalIntegral.integral_comp_mul_left (fun x => Real.sin x ^ 2) (by positivity), integral_sin_sq]
    have : Real.sin (20 * Real.pi) = 0 := by
      have := Real.sin_nat_mul_pi 20
      exact_mod_cast this
    rw [mul_zero, mul_one, this, Real.sin_zero, smul_eq_mul]
    field_simp
    ring

end Siren.Math.Integrate
