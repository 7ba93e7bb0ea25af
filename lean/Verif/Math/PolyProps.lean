import Verif.Math.Poly
import Mathlib.Analysis.Calculus.Deriv.Polynomial

set_option autoImplicit false
set_option linter.unusedSectionVars false

/-!
# C47: operations on polynomials

`toPoly` is the polynomial with the given coefficients, as Mathlib has it.
-/

namespace Siren.Math.Polynom

open Siren Polynomial

universe u

variable {K : Type u} [Field K] [LinearOrder K] [IsStrictOrderedRing K]

/-- The polynomial with coefficients `p`, lowest first. -/
noncomputable def toPoly (p : List K) : K[X] := ∑ i ∈ Finset.range p.length, C (p.getD i 0) * X ^ i

omit [LinearOrder K] [IsStrictOrderedRing K] in
theorem toPoly_cons (c : K) (p : List K) : toPoly (c :: p) = C c + X * toPoly p := by
  unfold toPoly
  rw [List.length_cons, Finset.sum_range_succ', Finset.mul_sum]
  simp only [List.getD_cons_succ, List.getD_cons_zero, pow_zero, mul_one]
  rw [add_comm]
  congr 1
  refine Finset.sum_congr rfl fun i _ => ?_
  ring

omit [LinearOrder K] [IsStrictOrderedRing K] in
@[simp] theorem toPoly_nil : toPoly ([] : List K) = 0 := rfl

omit [LinearOrder K] [IsStrictOrderedRing K] in
theorem toPoly_append (p q : List K) : toPoly (p ++ q) = toPoly p + X ^ p.length * toPoly q := by
  induction p with
  | nil => simp
  | cons c p ih => rw [List.cons_append, toPoly_cons, toPoly_cons, ih, List.length_cons]; ring

omit [LinearOrder K] [IsStrictOrderedRing K] in
theorem horner_eq (x aux : K) (l : List K) : horner x aux l = aux * x ^ l.length + (toPoly l.reverse).eval x := by
  induction l generalizing aux with
  | nil => simp [horner]
  | cons c l ih =>
    rw [horner, ih, List.reverse_cons, toPoly_append, toPoly_cons]
    simp only [List.length_cons, toPoly_nil, mul_zero, add_zero, eval_add, eval_mul, eval_pow, eval_X, eval_C, List.length_reverse]
    ring

omit [LinearOrder K] [IsStrictOrderedRing K] in
theorem evaluate_eq (p : List K) (x : K) : evaluate p x = (toPoly p).eval x := by
  unfold evaluate
  have h : p = p.reverse.reverse := p.reverse_reverse.symm
  cases hr : p.reverse with
  | nil => rw [h, hr]; simp
  | cons c cs =>
    rw [h, hr]
    simp only
    rw [horner_eq, List.reverse_cons, toPoly_append, toPoly_cons]
    simp only [toPoly_nil, mul_zero, add_zero, eval_add, eval_mul, eval_pow, eval_X, eval_C, List.length_reverse]
    ring

omit [LinearOrder K] [IsStrictOrderedRing K] in
/-- **C47**: evaluation is the power sum `Σ cᵢ xⁱ`. -/
theorem C47_evaluate (p : List K) (x : K) : evaluate p x = ∑ i ∈ Finset.range p.length, p.getD i 0 * x ^ i := by
  rw [evaluate_eq, toPoly, eval_finsetSum]
  simp

/-- `1 + 2·3 + 3·9 = 34`. -/
example : evaluate ([1, 2, 3] : List ℚ) 3 = 34 := by decide +kernel

omit [LinearOrder K] [IsStrictOrderedRing K] in
theorem toPoly_mapIdx (p : List K) (f : Nat → K → K) :
    toPoly (p.mapIdx f) = ∑ i ∈ Finset.range p.length, C (f i (p.getD i 0)) * X ^ i := by
  unfold toPoly
  rw [List.length_mapIdx]
  refine Finset.sum_congr rfl fun i hi => ?_
  rw [Finset.mem_range] at hi
  simp [List.getD_eq_getElem?_getD, hi]

omit [LinearOrder K] [IsStrictOrderedRing K] in
/-- **C47**: after `scale(x)` the polynomial takes at `y` the value it had at `x * y`, for all `y`. -/
theorem C47_scale (p : List K) (x y : K) : evaluate (scale p x) y = evaluate p (x * y) := by
  rw [evaluate_eq, evaluate_eq, scale, toPoly_mapIdx, toPoly, eval_finsetSum, eval_finsetSum]
  refine Finset.sum_congr rfl fun i _ => ?_
  simp only [eval_mul, eval_pow, eval_X, eval_C]
  ring

example : evaluate (scale ([1, 2, 3] : List ℚ) 2) 5 = evaluate [1, 2, 3] 10 := by decide +kernel

omit [LinearOrder K] [IsStrictOrderedRing K] in
/-- **C47**: `GetDerivative` is the derivative. -/
theorem C47_derivative (p : List K) : toPoly (derivative p) = (toPoly p).derivative := by
  cases p with
  | nil => simp [derivative]
  | cons c p =>
    have h1 : derivative (c :: p) = p.mapIdx fun i a => a * ((i + 1 : Nat) : K) := by
      simp [derivative, List.mapIdx_cons]
    have h2 : toPoly (c :: p) = C c + ∑ i ∈ Finset.range p.length, C (p.getD i 0) * X ^ (i + 1) := by
      rw [toPoly_cons, toPoly, Finset.mul_sum]
      congr 1
      exact Finset.sum_congr rfl fun i _ => by ring
    rw [h1, toPoly_mapIdx, h2, derivative_add, derivative_C, zero_add, Polynomial.derivative_sum]
    refine Finset.sum_congr rfl fun i _ => ?_
    rw [derivative_C_mul_X_pow, Nat.add_sub_cancel]

/-- **C47**, for real coefficients: at every point the value of `GetDerivative` is the derivative of the evaluated polynomial. -/
theorem C47_derivative_real (p : List ℝ) (x : ℝ) : HasDerivAt (evaluate p) (evaluate (derivative p) x) x := by
  have h : evaluate p = fun y => (toPoly p).eval y := funext (evaluate_eq p)
  rw [h, evaluate_eq, C47_derivative]
  exact (toPoly p).hasDerivAt x

example : derivative ([5, 3, 2] : List ℚ) = [3, 4] := by decide +kernel

/-- **C47**: the derivative of the antiderivative is the polynomial, with the same coefficients, and the antiderivative takes the given constant
at zero. -/
theorem C47_antiderivative (p : List K) (constant : K) :
    derivative (antiderivative p constant) = p ∧ evaluate (antiderivative p constant) 0 = constant := by
  refine ⟨?_, ?_⟩
  · rw [derivative, antiderivative, List.mapIdx_cons, List.drop_one, List.tail_cons]
    apply List.ext_getElem
    · simp
    · intro i h1 h2
      have hi : ((i : K) + 1) ≠ 0 := by positivity
      simp only [List.getElem_mapIdx, Nat.cast_add, Nat.cast_one]
      rw [div_mul_cancel₀ _ hi]
  · rw [evaluate_eq, antiderivative, toPoly_cons]
    simp

/-- **C47**, for real coefficients: the antiderivative is one. -/
theorem C47_antiderivative_real (p : List ℝ) (constant x : ℝ) : HasDerivAt (evaluate (antiderivative p constant)) (evaluate p x) x := by
  have h := C47_derivative_real (antiderivative p constant) x
  rwa [(C47_antiderivative p constant).1] at h

example : antiderivative ([5, 4, 3] : List ℚ) 7 = [7, 5, 2, 1] := by decide +kernel

/-! ### The Taylor shift -/

omit [LinearOrder K] [IsStrictOrderedRing K] in
theorem forLoop_append {σ : Type u} (body : Nat → σ → Res σ) (l m : List Nat) (s : σ) :
    forLoop body (l ++ m) s = (forLoop body l s).bind (forLoop body m) := by
  induction l generalizing s with
  | nil => rfl
  | cons i l ih =>
    simp only [List.cons_append, forLoop]
    cases body i s with
    | ok t => exact ih t
    | throws e => rfl
    | ub => rfl

/-- A loop over consecutive numbers keeps an invariant, and does not fail. -/
theorem forLoop_range' {σ : Type u} (body : Nat → σ → Res σ) (P : Nat → σ → Prop) (a n : Nat) (s : σ) (h0 : P a s)
    (hs : ∀ i s, a ≤ i → i < a + n → P i s → ∃ t, body i s = .ok t ∧ P (i + 1) t) :
    ∃ t, forLoop body (List.range' a n) s = .ok t ∧ P (a + n) t := by
  induction n generalizing a s with
  | zero => exact ⟨s, rfl, h0⟩
  | succ n ih =>
    obtain ⟨t, ht, hP⟩ := hs a s le_rfl (by omega) h0
    obtain ⟨t', ht', hP'⟩ := ih (a + 1) t hP (fun i s h1 h2 => hs i s (by omega) (by omega))
    refine ⟨t', ?_, ?_⟩
    · rw [List.range'_succ, forLoop, ht]
      exact ht'
    · rw [show a + (n + 1) = a + 1 + n by omega]
      exact hP'

/-- The polynomial `Σₖ b(n-i+k) (1+X)^k` whose coefficients the row `i` of the table holds. -/
noncomputable def rowPoly (b : Nat → K) (n : Nat) : Nat → K[X]
  | 0 => C (b n)
  | i + 1 => C (b (n - (i + 1))) + (1 + X) * rowPoly b n i

omit [LinearOrder K] [IsStrictOrderedRing K] in
theorem rowPoly_coeff_zero (b : Nat → K) (n i : Nat) : (rowPoly b n (i + 1)).coeff 0 = b (n - (i + 1)) + (rowPoly b n i).coeff 0 := by
  rw [rowPoly, add_mul, one_mul]
  simp

omit [LinearOrder K] [IsStrictOrderedRing K] in
theorem rowPoly_coeff_succ (b : Nat → K) (n i j : Nat) :
    (rowPoly b n (i + 1)).coeff (j + 1) = (rowPoly b n i).coeff j + (rowPoly b n i).coeff (j + 1) := by
  rw [rowPoly, add_mul, one_mul]
  simp only [coeff_add, coeff_C_succ, zero_add, coeff_X_mul]
  ring

omit [LinearOrder K] [IsStrictOrderedRing K] in
theorem rowPoly_high (b : Nat → K) (n : Nat) : ∀ i j, i < j → (rowPoly b n i).coeff j = 0
  | 0, j + 1, _ => by rw [rowPoly, coeff_C_succ]
  | i + 1, j + 1, h => by rw [rowPoly_coeff_succ, rowPoly_high b n i j (by omega), rowPoly_high b n i (j + 1) (by omega), add_zero]

omit [LinearOrder K] [IsStrictOrderedRing K] in
theorem rowPoly_top (b : Nat → K) (n : Nat) : ∀ i, (rowPoly b n i).coeff i = b n
  | 0 => by rw [rowPoly, coeff_C_zero]
  | i + 1 => by rw [rowPoly_coeff_succ, rowPoly_top b n i, rowPoly_high b n i (i + 1) (by omega), add_zero]

omit [LinearOrder K] [IsStrictOrderedRing K] in
theorem rowPoly_eq (b : Nat → K) (n : Nat) : ∀ i, i ≤ n → rowPoly b n i = ∑ k ∈ Finset.range (i + 1), C (b (n - i + k)) * (1 + X) ^ k
  | 0, _ => by simp [rowPoly]
  | i + 1, h => by
    rw [rowPoly, rowPoly_eq b n i (by omega), Finset.sum_range_succ' _ (i + 1), Finset.mul_sum]
    rw [add_comm]
    simp only [pow_zero, mul_one, add_zero]
    congr 1
    refine Finset.sum_congr rfl fun k _ => ?_
    rw [show n - (i + 1) + (k + 1) = n - i + k by omega]
    ring

theorem write_ok (t : Table K) (i j : Nat) (v : K) (h : i < t.size) (h' : j < t.size) :
    t.write i j v = .ok { t with at_ := fun a b => if a = i ∧ b = j then some v else t.at_ a b } := if_pos ⟨h, h'⟩

theorem read_ok (t : Table K) (i j : Nat) (v : K) (h : i < t.size) (h' : j < t.size) (hv : t.at_ i j = some v) : t.read i j = .ok v := by
  unfold Table.read
  rw [if_pos ⟨h, h'⟩, hv]

/-- What the table holds before column `j + 1` is computed. -/
def Cols (b : Nat → K) (n j : Nat) (t : Table K) : Prop :=
  t.size = n + 1 ∧ (∀ i, i < n → t.at_ i 0 = some (b (n - i - 1))) ∧ (∀ i, i < n → t.at_ i (i + 1) = some (b n)) ∧
    ∀ i k, k < j → k ≤ i → i ≤ n → t.at_ i (k + 1) = some ((rowPoly b n i).coeff k)

theorem shiftInit_ok (p : List K) (x : K) (n : Nat) :
    ∃ t, shiftInit p x n ⟨n + 1, fun _ _ => none⟩ = .ok t ∧ Cols (fun k => p.getD k 0 * x ^ k) n 0 t := by
  have h := forLoop_range'
    (fun i (t : Table K) => (t.write i 0 (p.getD (n - i - 1) 0 * x ^ (n - i - 1))).bind fun t => t.write i (i + 1) (p.getD n 0 * x ^ n))
    (fun m (t : Table K) => t.size = n + 1 ∧ (∀ i, i < m → t.at_ i 0 = some (p.getD (n - i - 1) 0 * x ^ (n - i - 1))) ∧
      ∀ i, i < m → t.at_ i (i + 1) = some (p.getD n 0 * x ^ n)) 0 n ⟨n + 1, fun _ _ => none⟩
    ⟨rfl, fun i hi => absurd hi (Nat.not_lt_zero i), fun i hi => absurd hi (Nat.not_lt_zero i)⟩ ?_
  · obtain ⟨t, ht, hs, h0, h1⟩ := h
    rw [← List.range_eq_range'] at ht
    rw [Nat.zero_add] at h0 h1
    exact ⟨t, ht, hs, h0, h1, fun i k hk => absurd hk (Nat.not_lt_zero k)⟩
  · rintro i t - hi ⟨hs, h0, h1⟩
    rw [write_ok t i 0 _ (by omega) (by omega)]
    simp only [Res.bind]
    rw [write_ok _ i (i + 1) _ (by simp only; omega) (by simp only; omega)]
    refine ⟨_, rfl, hs, ?_, ?_⟩
    · intro k hk
      by_cases e : k = i
      · subst e; simp
      · simp only [e, false_and, if_false]
        exact h0 k (by omega)
    · intro k hk
      by_cases e : k = i
      · subst e; simp
      · simp only [e, false_and, if_false]
        exact h1 k (by omega)

theorem shiftColumn_ok (b : Nat → K) (n j : Nat) (hj : j < n) (t : Table K) (h : Cols b n j t) :
    ∃ t', shiftColumn n j t = .ok t' ∧ Cols b n (j + 1) t' := by
  obtain ⟨hs, h0, h1, h2⟩ := h
  have hl := forLoop_range'
    (fun i (t : Table K) => (t.read (i - 1) j).bind fun a => (t.read (i - 1) (j + 1)).bind fun c => t.write i (j + 1) (a + c))
    (fun m (t : Table K) => t.size = n + 1 ∧ (∀ i, i < n → t.at_ i 0 = some (b (n - i - 1))) ∧ (∀ i, i < n → t.at_ i (i + 1) = some (b n)) ∧
      (∀ i k, k < j → k ≤ i → i ≤ n → t.at_ i (k + 1) = some ((rowPoly b n i).coeff k)) ∧
      ∀ i, j ≤ i → i < m → t.at_ i (j + 1) = some ((rowPoly b n i).coeff j)) (j + 1) (n - j) t
    ⟨hs, h0, h1, h2, fun i h h' => by
      obtain rfl : i = j := by omega
      rw [h1 i hj, rowPoly_top]⟩ ?_
  · obtain ⟨t', ht, hs', h0', h1', h2', h3'⟩ := hl
    refine ⟨t', ht, hs', h0', h1', fun i k hk hki hin => ?_⟩
    rcases Nat.lt_succ_iff_lt_or_eq.mp hk with hk | rfl
    · exact h2' i k hk hki hin
    · exact h3' i hki (by omega)
  · rintro i t hi hi' ⟨hs, h0, h1, h2, h3⟩
    obtain ⟨i, rfl⟩ : ∃ m, i = m + 1 := ⟨i - 1, by omega⟩
    rw [Nat.add_sub_cancel]
    have hb := h3 i (by omega) (by omega)
    obtain ⟨a, ha, hab⟩ : ∃ a, t.at_ i j = some a ∧ a + (rowPoly b n i).coeff j = (rowPoly b n (i + 1)).coeff j := by
      cases j with
      | zero => exact ⟨_, h0 i (by omega), by rw [rowPoly_coeff_zero, Nat.sub_sub]⟩
      | succ j => exact ⟨_, h2 i j (by omega) (by omega) (by omega), by rw [rowPoly_coeff_succ]⟩
    rw [read_ok t i j a (by omega) (by omega) ha]
    simp only [Res.bind]
    rw [read_ok t i (j + 1) _ (by omega) (by omega) hb]
    simp only
    rw [write_ok t (i + 1) (j + 1) _ (by omega) (by omega), hab]
    refine ⟨_, rfl, hs, ?_, ?_, ?_, ?_⟩
    · intro k hk
      simp only [show ¬ (k = i + 1 ∧ 0 = j + 1) by omega, if_false]
      exact h0 k hk
    · intro k hk
      simp only [show ¬ (k = i + 1 ∧ k + 1 = j + 1) by omega, if_false]
      exact h1 k hk
    · intro k m hm hmk hkn
      simp only [show ¬ (k = i + 1 ∧ m + 1 = j + 1) by omega, if_false]
      exact h2 k m hm hmk hkn
    · intro k hk hk'
      by_cases e : k = i + 1
      · subst e; simp
      · simp only [e, false_and, if_false]
        exact h3 k hk (by omega)

theorem shiftOut_ok (b : Nat → K) (x : K) (n : Nat) (t : Table K) (h : Cols b n n t) (p : List K) (hp : p.length = n + 1) :
    ∃ q, shiftOut x n t p = .ok q ∧ q.length = n + 1 ∧ (∀ i, i < n → q.getD i 0 = (rowPoly b n n).coeff i / x ^ i) ∧ q.getD n 0 = p.getD n 0 := by
  obtain ⟨hs, -, -, h2⟩ := h
  have hl := forLoop_range' (fun i (p : List K) => (t.read n (i + 1)).bind fun v => .ok (p.set i (v / x ^ i)))
    (fun m (q : List K) => q.length = n + 1 ∧ (∀ i, i < m → q.getD i 0 = (rowPoly b n n).coeff i / x ^ i) ∧ q.getD n 0 = p.getD n 0) 0 n p
    ⟨hp, fun i hi => absurd hi (Nat.not_lt_zero i), rfl⟩ ?_
  · obtain ⟨q, hq, h⟩ := hl
    rw [← List.range_eq_range'] at hq
    rw [Nat.zero_add] at h
    exact ⟨q, hq, h⟩
  · rintro i q - hi ⟨hq, hc, hn⟩
    rw [read_ok t n (i + 1) _ (by omega) (by omega) (h2 n i (by omega) (by omega) le_rfl)]
    refine ⟨_, rfl, by simp [hq], ?_, ?_⟩
    · intro k hk
      by_cases e : k = i
      · subst e
        simp [List.getD_eq_getElem?_getD, show k < q.length by omega]
      · rw [List.getD_eq_getElem?_getD, List.getElem?_set_ne (Ne.symm e), ← List.getD_eq_getElem?_getD]
        exact hc k (by omega)
    · rw [List.getD_eq_getElem?_getD, List.getElem?_set_ne (by omega), ← List.getD_eq_getElem?_getD]
      exact hn

/-- **C47**: after `shift(x)`, for `|x|` above `10⁻⁹`, the polynomial takes at `y` the value it had at `x + y`, for all `y`; the number of
coefficients is unchanged, and only memory that has been written is read. -/
theorem C47_shift (p : List K) (x : K) (hx : 1 / 1000000000 < |x|) :
    ∃ q, shift p x = .ok q ∧ q.length = p.length ∧ ∀ y, evaluate q y = evaluate p (x + y) := by
  unfold shift
  rw [if_pos hx]
  have hx0 : x ≠ 0 := by
    rintro rfl
    rw [abs_zero] at hx
    exact absurd hx (not_lt.mpr (by positivity))
  cases hp : p.length with
  | zero =>
    rw [List.length_eq_zero_iff] at hp
    subst hp
    exact ⟨[], rfl, rfl, fun y => by simp [evaluate]⟩
  | succ n =>
    simp only
    set b : Nat → K := fun k => p.getD k 0 * x ^ k with hb
    obtain ⟨t, ht, h0⟩ := shiftInit_ok p x n
    rw [ht]
    have hl := forLoop_range' (shiftColumn n) (fun j (t : Table K) => Cols b n j t) 0 n t h0
      (fun j t _ hj hc => shiftColumn_ok b n j (by omega) t hc)
    obtain ⟨t', ht', hc⟩ := hl
    rw [← List.range_eq_range'] at ht'
    rw [Nat.zero_add] at hc
    simp only [Res.bind, ht']
    obtain ⟨q, hq, hlen, hco, htop⟩ := shiftOut_ok b x n t' hc p hp
    refine ⟨q, hq, hlen, fun y => ?_⟩
    have hall : ∀ i, i < n + 1 → q.getD i 0 = (rowPoly b n n).coeff i / x ^ i := by
      intro i hi
      rcases Nat.lt_succ_iff_lt_or_eq.mp hi with hi | rfl
      · exact hco i hi
      · rw [htop, rowPoly_top, hb]
        field_simp
    rw [C47_evaluate, C47_evaluate, hlen, hp]
    have hdeg : (rowPoly b n n).natDegree < n + 1 := by
      refine Nat.lt_succ_of_le (natDegree_le_iff_coeff_eq_zero.mpr fun j hj => rowPoly_high b n n j hj)
    have h1 : ∑ i ∈ Finset.range (n + 1), q.getD i 0 * y ^ i = (rowPoly b n n).eval (y / x) := by
      rw [eval_eq_sum_range' hdeg]
      refine Finset.sum_congr rfl fun i hi => ?_
      rw [hall i (Finset.mem_range.mp hi), div_pow]
      ring
    rw [h1, rowPoly_eq b n n le_rfl, eval_finsetSum]
    refine Finset.sum_congr rfl fun i _ => ?_
    simp only [Nat.sub_self, Nat.zero_add, hb, eval_mul, eval_C, eval_pow, eval_add, eval_one, eval_X]
    rw [mul_assoc, ← mul_pow, mul_add, mul_one, mul_div_cancel₀ _ hx0]

/-- `1 + 2x + 3x²` shifted by 1 is `6 + 8x + 3x²`. -/
example : shift ([1, 2, 3] : List ℚ) 1 = .ok [6, 8, 3] := by decide +kernel

/-- A shift of at most `10⁻⁹` is not carried out. -/
theorem C47_shift_small (p : List K) (x : K) (hx : |x| ≤ 1 / 1000000000) : shift p x = .ok p := if_neg (not_lt.mpr hx)

/-- So for a small shift that is not zero the property does not hold: with `10¹²·x` shifted by `10⁻⁹` the value at zero should be 1000. -/
theorem C47_shift_fails : ∃ (p : List ℚ) (x y : ℚ) (q : List ℚ), x ≠ 0 ∧ shift p x = .ok q ∧ evaluate q y ≠ evaluate p (x + y) :=
  ⟨[0, 1000000000000], 1 / 1000000000, 0, [0, 1000000000000], by norm_num, by decide +kernel, by decide +kernel⟩

end Siren.Math.Polynom
