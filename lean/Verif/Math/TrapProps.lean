import Verif.Math.Integrate
import Verif.Math.PolyProps
import Mathlib.MeasureTheory.Integral.IntervalIntegral.TrapezoidalRule
import Mathlib.LinearAlgebra.Lagrange
import Mathlib.Tactic.IntervalCases

set_option autoImplicit false

/-!
# Incremental trapezoid rule and Romberg integration (C51)
-/

namespace Siren.Math.Integrate

open Siren Polynom Finset

/-! ## Specification -/

/-- The composite trapezoid rule on `N` equal intervals between `a` and `b`: the sum of the areas of the trapezoids. -/
noncomputable def composite (f : ℝ → ℝ) (a b : ℝ) (N : Nat) : ℝ :=
  ∑ i ∈ range N, (f (a + i * ((b - a) / N)) + f (a + (i + 1 : ℕ) * ((b - a) / N))) / 2 * ((b - a) / N)

/-! ## Lemmas -/

theorem sumPoints_eq (f : ℝ → ℝ) (dx : ℝ) (n : Nat) (x s : ℝ) : sumPoints f dx n x s = s + ∑ i ∈ range n, f (x + i * dx) := by
  induction n generalizing x s with
  | zero => simp [sumPoints]
  | succ n ih =>
    rw [sumPoints, ih, sum_range_succ' _ n]
    have : ∀ i : Nat, f (x + dx + i * dx) = f (x + ((i + 1 : ℕ) : ℝ) * dx) := by
      intro i; congr 1; push_cast; ring
    simp only [this, Nat.cast_zero, zero_mul, add_zero]
    ring

theorem sum_pairs (g : Nat → ℝ) (n : Nat) : ∑ i ∈ range (2 * n), g i = ∑ i ∈ range n, (g (2 * i) + g (2 * i + 1)) := by
  induction n with
  | zero => simp
  | succ n ih => rw [Nat.mul_succ, sum_range_succ, sum_range_succ, ih, sum_range_succ]; ring

theorem composite_halve (f : ℝ → ℝ) (a b : ℝ) (N : Nat) (hN : 0 < N) :
    (composite f a b N + (b - a) * (∑ i ∈ range N, f (a + (b - a) / N / 2 + i * ((b - a) / N))) / N) / 2 = composite f a b (2 * N) := by
  have hN' : (N : ℝ) ≠ 0 := by exact_mod_cast hN.ne'
  rw [composite, composite, sum_pairs, mul_div_right_comm, mul_sum, ← sum_add_distrib, sum_div]
  refine sum_congr rfl fun i _ => ?_
  have e1 : a + ((2 * i : ℕ) : ℝ) * ((b - a) / ((2 * N : ℕ) : ℝ)) = a + i * ((b - a) / N) := by push_cast; field_simp
  have e2 : a + ((2 * i + 1 : ℕ) : ℝ) * ((b - a) / ((2 * N : ℕ) : ℝ)) = a + (b - a) / N / 2 + i * ((b - a) / N) := by push_cast; field_simp; ring
  have e3 : a + ((2 * i + 1 + 1 : ℕ) : ℝ) * ((b - a) / ((2 * N : ℕ) : ℝ)) = a + (i + 1 : ℕ) * ((b - a) / N) := by push_cast; field_simp; ring
  rw [e1, e2, e3]
  push_cast
  field_simp
  ring

/-- What every history of calls keeps: nothing computed yet, or the trapezoid rule of the current level. -/
def TrapInv (f : ℝ → ℝ) (a b : ℝ) (t : Trap) : Prop :=
  t = Trap.new ∨ ∃ k, t.currentDetail = k + 1 ∧ t.value = composite f a b (2 ^ k)

theorem update_inv (f : ℝ → ℝ) (a b : ℝ) (t : Trap) (h : TrapInv f a b t) :
    (t.update f a b).currentDetail = t.currentDetail + 1 ∧ (t.update f a b).value = composite f a b (2 ^ t.currentDetail) := by
  rcases h with rfl | ⟨k, hk, hv⟩
  · refine ⟨rfl, ?_⟩
    simp [Trap.update, Trap.new, composite]
    ring
  · have h1 : ¬ (k + 1 + 1 = 1) := by omega
    refine ⟨by simp [Trap.update, hk], ?_⟩
    simp only [Trap.update, hk, if_neg h1]
    rw [sumPoints_eq, zero_add, hv, show k + 1 + 1 - 2 = k by omega, pow_succ, mul_comm (2 ^ k) 2]
    exact composite_halve f a b (2 ^ k) (by positivity)

theorem refine_inv (f : ℝ → ℝ) (a b : ℝ) (n : Nat) (t : Trap) (h : TrapInv f a b t) :
    TrapInv f a b (Trap.refine f a b n t) ∧ (Trap.refine f a b n t).currentDetail = t.currentDetail + n := by
  induction n generalizing t with
  | zero => exact ⟨h, rfl⟩
  | succ n ih =>
    obtain ⟨h1, h2⟩ := update_inv f a b t h
    obtain ⟨h3, h4⟩ := ih (t.update f a b) (.inr ⟨_, h1, h2⟩)
    exact ⟨h3, by rw [Trap.refine, h4, h1]; omega⟩

theorem integrate_inv (f : ℝ → ℝ) (a b : ℝ) (n : Nat) (t : Trap) (h : TrapInv f a b t) :
    TrapInv f a b (t.integrate f a b n) ∧ (t.integrate f a b n).currentDetail = max t.currentDetail (n + 1) := by
  obtain ⟨h1, h2⟩ := refine_inv f a b (n + 1 - t.currentDetail) t h
  exact ⟨h1, by rw [Trap.integrate, h2]; omega⟩

/-! ## Refinement -/

/-- C51: whatever levels of detail were requested before, in whatever order, a request for level `n` returns the composite trapezoid rule on
`2 ^ m` equal intervals, where `m` is the highest level requested so far. -/
theorem C51_refinement (f : ℝ → ℝ) (a b : ℝ) (before : List Nat) (n : Nat) :
    ((before.foldl (fun t k => t.integrate f a b k) Trap.new).integrate f a b n).value = composite f a b (2 ^ before.foldl max n) := by
  have key : ∀ (l : List Nat) (t : Trap), TrapInv f a b t →
      TrapInv f a b (l.foldl (fun t k => t.integrate f a b k) t) ∧
      ∀ m, max (l.foldl (fun t k => t.integrate f a b k) t).currentDetail (m + 1) = max t.currentDetail (l.foldl max m + 1) := by
    intro l
    induction l with
    | nil => exact fun t h => ⟨h, fun m => rfl⟩
    | cons k l ih =>
      intro t h
      obtain ⟨h1, h2⟩ := integrate_inv f a b k t h
      obtain ⟨h3, h4⟩ := ih _ h1
      refine ⟨h3, fun m => ?_⟩
      rw [List.foldl_cons, List.foldl_cons, h4, h2]
      have : ∀ (l : List Nat) (x y : Nat), l.foldl max (max x y) = max x (l.foldl max y) := by
        intro l
        induction l with
        | nil => intros; rfl
        | cons z l ih => intro x y; rw [List.foldl_cons, List.foldl_cons, max_assoc, ih]
      rw [max_comm m k, this]
      omega
  obtain ⟨h1, h2⟩ := key before Trap.new (.inl rfl)
  obtain ⟨h3, h4⟩ := integrate_inv f a b n _ h1
  have h5 := h2 n
  rw [show Trap.new.currentDetail = 0 from rfl, Nat.zero_max] at h5
  rw [h5] at h4
  rcases h3 with h3 | ⟨k, hk, hv⟩
  · rw [h3] at h4; simp [Trap.new] at h4
  · rw [hv]; congr 2; omega

/-- Levels 3 and 1 were requested before level 2: the answer is the rule on eight intervals. -/
example : (([3, 1].foldl (fun t k => t.integrate (fun x => x * x) 0 1 k) Trap.new).integrate (fun x => x * x) 0 1 2).value
    = composite (fun x => x * x) 0 1 8 := by
  rw [C51_refinement]; norm_num

theorem composite_eq_mathlib (f : ℝ → ℝ) (a b : ℝ) (N : Nat) (hN : 0 < N) : composite f a b N = trapezoidal_integral f N a b := by
  have hN' : (N : ℝ) ≠ 0 := by exact_mod_cast hN.ne'
  have h := sum_trapezoidal_integral_adjacent_intervals (f := f) (a := a) (h := (b - a) / N) hN
  rw [show a + N * ((b - a) / N) = b by field_simp; ring] at h
  rw [← h, composite]
  refine sum_congr rfl fun i _ => ?_
  rw [trapezoidal_integral_one]
  push_cast
  ring

/-- C51: exchanging the limits flips the sign, at every level. (The constructor's swap of the limits has no effect.) -/
theorem C51_reversed (f : ℝ → ℝ) (a b : ℝ) (n : Nat) :
    (Trap.new.integrate f b a n).value = -(Trap.new.integrate f a b n).value := by
  have h := C51_refinement f b a [] n
  have h' := C51_refinement f a b [] n
  simp only [List.foldl_nil] at h h'
  rw [h, h', composite_eq_mathlib _ _ _ _ (by positivity), composite_eq_mathlib _ _ _ _ (by positivity)]
  exact trapezoidal_integral_symm f (by positivity) b a

/-- C51: affine functions are integrated exactly at every level. -/
theorem C51_affine (p q a b : ℝ) (n : Nat) :
    (Trap.new.integrate (fun x => p * x + q) a b n).value = ∫ x in a..b, (p * x + q) := by
  have h := C51_refinement (fun x => p * x + q) a b [] n
  simp only [List.foldl_nil] at h
  have hi : ∫ x in a..b, (p * x + q) = p * ((b ^ 2 - a ^ 2) / 2) + q * (b - a) := by
    rw [intervalIntegral.integral_add (by fun_prop |> fun h : Continuous (fun x : ℝ => p * x) => h.intervalIntegrable _ _) (by simp)]
    rw [intervalIntegral.integral_const_mul, integral_id, intervalIntegral.integral_const, smul_eq_mul]
    ring
  rw [h, hi, composite]
  have hN : ((2 ^ n : ℕ) : ℝ) ≠ 0 := by positivity
  set N := 2 ^ n
  set d := (b - a) / (N : ℝ) with hd
  have key : ∀ M : Nat, ∑ i ∈ range M, (p * (a + i * d) + q + (p * (a + (i + 1 : ℕ) * d) + q)) / 2 * d
      = p * (((a + M * d) ^ 2 - a ^ 2) / 2) + q * (M * d) := by
    intro M
    induction M with
    | zero => simp
    | succ M ih => rw [sum_range_succ, ih]; push_cast; ring
  rw [key]
  have : (N : ℝ) * d = b - a := by rw [hd]; field_simp
  rw [this]
  ring

/-- C51: for functions with a second derivative bounded by `ζ` the error is at most `|b - a|³ ζ / (12 · 4ⁿ)`. -/
theorem C51_error (f : ℝ → ℝ) (a b ζ : ℝ) (n : Nat) (hf : ContDiffOn ℝ 2 f (Set.uIcc a b))
    (hζ : ∀ x, |iteratedDerivWithin 2 f (Set.uIcc a b) x| ≤ ζ) :
    |(Trap.new.integrate f a b n).value - ∫ x in a..b, f x| ≤ |b - a| ^ 3 * ζ / (12 * 4 ^ n) := by
  have h := C51_refinement f a b [] n
  simp only [List.foldl_nil] at h
  have hN : 0 < 2 ^ n := by positivity
  have he := trapezoidal_error_le_of_c2 hf hζ hN
  rw [h, composite_eq_mathlib _ _ _ _ hN]
  rw [trapezoidal_error] at he
  convert he using 2
  push_cast
  rw [← pow_mul, mul_comm n 2, pow_mul]
  norm_num

/-! ## Romberg integration -/

theorem extrapolate_eq (steps pre : List ℝ) (base : Nat) (s t0 t1 t2 t3 t4 : ℝ) (hs : s ≠ 0) (hb : pre.length = base)
    (h : ∀ j, j < 5 → rd steps (j + base) = .ok (s / 4 ^ j)) :
    extrapolate 5 steps (pre ++ [t0, t1, t2, t3, t4]) base =
      .ok ((t0 - 340 * t1 + 22848 * t2 - 348160 * t3 + 1048576 * t4) / 722925,
        (t0 - 340 * t1 + 22848 * t2 - 348160 * t3 + 1048576 * t4) / 722925 - (-t1 + 84 * t2 - 1344 * t3 + 4096 * t4) / 2835) := by
  have h0 := h 0 (by norm_num)
  have h1 := h 1 (by norm_num)
  have h2 := h 2 (by norm_num)
  have h3 := h 3 (by norm_num)
  have h4 := h 4 (by norm_num)
  have hl : rd (pre ++ [t0, t1, t2, t3, t4]) ((pre ++ [t0, t1, t2, t3, t4]).length - 1) = .ok t4 := by
    simp [rd]
  have hd : ((pre ++ [t0, t1, t2, t3, t4]).drop base).take 5 = [t0, t1, t2, t3, t4] := by
    subst hb; simp
  have e1 : s - s / 4 ≠ 0 := by intro h; apply hs; linarith
  have e2 : s / 4 - s / 16 ≠ 0 := by intro h; apply hs; linarith
  have e3 : s / 16 - s / 64 ≠ 0 := by intro h; apply hs; linarith
  have e4 : s / 64 - s / 256 ≠ 0 := by intro h; apply hs; linarith
  have e5 : s - s / 16 ≠ 0 := by intro h; apply hs; linarith
  have e6 : s / 4 - s / 64 ≠ 0 := by intro h; apply hs; linarith
  have e7 : s / 16 - s / 256 ≠ 0 := by intro h; apply hs; linarith
  have e8 : s - s / 64 ≠ 0 := by intro h; apply hs; linarith
  have e9 : s / 4 - s / 256 ≠ 0 := by intro h; apply hs; linarith
  have e10 : s - s / 256 ≠ 0 := by intro h; apply hs; linarith
  norm_num at h0 h1 h2 h3 h4
  have r : ∀ (v : List ℝ) (i : Nat), rd v i = match v[i]? with | some x => .ok x | none => .ub := fun _ _ => rfl
  have q1 : List.range' 1 (5 - 1) = [1, 2, 3, 4] := rfl
  have p1 : List.range (5 - 1) = [0, 1, 2, 3] := rfl
  have p2 : List.range (5 - 2) = [0, 1, 2] := rfl
  have p3 : List.range (5 - 3) = [0, 1] := rfl
  have p4 : List.range (5 - 4) = [0] := rfl
  unfold extrapolate
  simp only [hl, hd, Res.bind, q1, forLoop, extrapolatePass, p1, p2, p3, p4, extrapolateStep, Nat.zero_add, h0, h1, h2, h3, h4,
    Nat.reduceAdd, e1, e2, e3, e4, e5, e6, e7, e8, e9, e10, if_false, r [_, _, _, _, _] _, List.getElem?_cons_zero, List.getElem?_cons_succ,
    List.set_cons_zero, List.set_cons_succ, Nat.reduceSub]
  congr 1
  refine Prod.ext ?_ ?_
  · simp only
    field_simp
    ring
  · simp only
    field_simp
    ring

/-- The trapezoid rules with `2 ^ k, 2 ^ (k - 1), …` intervals (`n` of them), as values of a function of the square of the step size (which is
`(1 / 4) ^ k, (1 / 4) ^ (k - 1), …` relative to the first), extrapolated to step size zero by the polynomial through them. -/
noncomputable def toZero (f : ℝ → ℝ) (a b : ℝ) (k n : Nat) : ℝ :=
  (Lagrange.interpolate (range n) (fun j => (1 / 4 : ℝ) ^ (k - j)) (fun j => composite f a b (2 ^ (k - j)))).eval 0

theorem nodes_inj (k n : Nat) (hn : n ≤ k + 1) : Set.InjOn (fun j : Nat => (1 / 4 : ℝ) ^ (k - j)) (range n : Finset Nat) := by
  intro i hi j hj hij
  have hi' : i < n := mem_range.mp hi
  have hj' : j < n := mem_range.mp hj
  have := pow_right_injective₀ (a := (1 / 4 : ℝ)) (by norm_num) (by norm_num) hij
  omega

theorem toZero_five (f : ℝ → ℝ) (a b : ℝ) (k : Nat) :
    (composite f a b (2 ^ k) - 340 * composite f a b (2 ^ (k + 1)) + 22848 * composite f a b (2 ^ (k + 2))
      - 348160 * composite f a b (2 ^ (k + 3)) + 1048576 * composite f a b (2 ^ (k + 4))) / 722925 = toZero f a b (k + 4) 5 := by
  rw [toZero]
  set p := Lagrange.interpolate (range 5) (fun j => (1 / 4 : ℝ) ^ (k + 4 - j)) (fun j => composite f a b (2 ^ (k + 4 - j))) with hp
  have hinj := nodes_inj (k + 4) 5 (by omega)
  have hd : p.natDegree < 5 := by
    have := Lagrange.degree_interpolate_lt (fun j => composite f a b (2 ^ (k + 4 - j))) hinj
    rw [card_range] at this
    by_cases h0 : p = 0
    · rw [h0]; norm_num
    · exact (Polynomial.natDegree_lt_iff_degree_lt h0).mpr this
  have hv : ∀ j, j < 5 → composite f a b (2 ^ (k + 4 - j)) = p.eval ((1 / 4 : ℝ) ^ (k + 4 - j)) := fun j hj =>
    (Lagrange.eval_interpolate_at_node (fun j => composite f a b (2 ^ (k + 4 - j))) hinj (mem_range.mpr hj)).symm
  have v0 := hv 4 (by norm_num)
  have v1 := hv 3 (by norm_num)
  have v2 := hv 2 (by norm_num)
  have v3 := hv 1 (by norm_num)
  have v4 := hv 0 (by norm_num)
  rw [show k + 4 - 4 = k by omega] at v0
  rw [show k + 4 - 3 = k + 1 by omega] at v1
  rw [show k + 4 - 2 = k + 2 by omega] at v2
  rw [show k + 4 - 1 = k + 3 by omega] at v3
  rw [show k + 4 - 0 = k + 4 by omega] at v4
  rw [v0, v1, v2, v3, v4]
  simp only [Polynomial.eval_eq_sum_range' hd, sum_range_succ, sum_range_zero]
  generalize hz : (1 / 4 : ℝ) ^ k = z
  simp only [pow_add, hz]
  ring

theorem toZero_four (f : ℝ → ℝ) (a b : ℝ) (k : Nat) :
    (-composite f a b (2 ^ (k + 1)) + 84 * composite f a b (2 ^ (k + 2))
      - 1344 * composite f a b (2 ^ (k + 3)) + 4096 * composite f a b (2 ^ (k + 4))) / 2835 = toZero f a b (k + 4) 4 := by
  rw [toZero]
  set p := Lagrange.interpolate (range 4) (fun j => (1 / 4 : ℝ) ^ (k + 4 - j)) (fun j => composite f a b (2 ^ (k + 4 - j))) with hp
  have hinj := nodes_inj (k + 4) 4 (by omega)
  have hd : p.natDegree < 4 := by
    have := Lagrange.degree_interpolate_lt (fun j => composite f a b (2 ^ (k + 4 - j))) hinj
    rw [card_range] at this
    by_cases h0 : p = 0
    · rw [h0]; norm_num
    · exact (Polynomial.natDegree_lt_iff_degree_lt h0).mpr this
  have hv : ∀ j, j < 4 → composite f a b (2 ^ (k + 4 - j)) = p.eval ((1 / 4 : ℝ) ^ (k + 4 - j)) := fun j hj =>
    (Lagrange.eval_interpolate_at_node (fun j => composite f a b (2 ^ (k + 4 - j))) hinj (mem_range.mpr hj)).symm
  have v1 := hv 3 (by norm_num)
  have v2 := hv 2 (by norm_num)
  have v3 := hv 1 (by norm_num)
  have v4 := hv 0 (by norm_num)
  rw [show k + 4 - 3 = k + 1 by omega] at v1
  rw [show k + 4 - 2 = k + 2 by omega] at v2
  rw [show k + 4 - 1 = k + 3 by omega] at v3
  rw [show k + 4 - 0 = k + 4 by omega] at v4
  rw [v1, v2, v3, v4]
  simp only [Polynomial.eval_eq_sum_range' hd, sum_range_succ, sum_range_zero]
  generalize hz : (1 / 4 : ℝ) ^ k = z
  simp only [pow_add, hz]
  ring

/-- Level `k` meets the stopping criterion. -/
def Stops (f : ℝ → ℝ) (a b tol : ℝ) (k : Nat) : Prop := 4 ≤ k ∧ |toZero f a b k 5 - toZero f a b k 4| ≤ tol * |toZero f a b k 5|

open Classical in
/-- Searching the first level that meets the criterion. -/
noncomputable def search (f : ℝ → ℝ) (a b tol : ℝ) : Nat → Nat → Res ℝ
  | 0, _ => .throws .runtimeError
  | n + 1, i => if Stops f a b tol i then .ok (toZero f a b i 5) else search f a b tol n (i + 1)

theorem rombergLoop_eq (f : ℝ → ℝ) (a b tol : ℝ) (n i : Nat) (t : Trap) (ht : TrapInv f a b t) (hi : t.currentDetail = i) :
    rombergLoop f a b tol 5 n i t ((List.range (i + 1)).map fun k => (1 / 4 : ℝ) ^ k) ((List.range i).map fun k => composite f a b (2 ^ k))
      = search f a b tol n i := by
  induction n generalizing i t with
  | zero => rfl
  | succ n ih =>
    obtain ⟨h1, h2⟩ := integrate_inv f a b t.currentDetail t ht
    rw [hi] at h1 h2
    rw [max_eq_right (by omega)] at h2
    have hv : (t.integrate f a b i).value = composite f a b (2 ^ i) := by
      rcases h1 with h1 | ⟨k, hk, hv⟩
      · rw [h1] at h2; simp [Trap.new] at h2
      · rw [hv]; congr 2; omega
    have hest : ((List.range i).map fun k => composite f a b (2 ^ k)) ++ [(t.integrate f a b i).value]
        = (List.range (i + 1)).map fun k => composite f a b (2 ^ k) := by
      rw [List.range_succ, List.map_append, hv]; rfl
    have hrd : ∀ j, j < i + 1 → rd ((List.range (i + 1)).map fun k => (1 / 4 : ℝ) ^ k) j = .ok ((1 / 4 : ℝ) ^ j) := by
      intro j hj
      simp [rd, hj]
    have hnext : (rd ((List.range (i + 1)).map fun k => (1 / 4 : ℝ) ^ k) (((List.range (i + 1)).map fun k => (1 / 4 : ℝ) ^ k).length - 1)).bind
        (fun h => rombergLoop f a b tol 5 n (i + 1) (t.integrate f a b i) (((List.range (i + 1)).map fun k => (1 / 4 : ℝ) ^ k) ++ [h / 4])
          ((List.range (i + 1)).map fun k => composite f a b (2 ^ k))) = search f a b tol n (i + 1) := by
      rw [List.length_map, List.length_range, hrd _ (by omega)]
      simp only [Res.bind]
      rw [← ih (i + 1) _ h1 h2]
      congr 1
      rw [List.range_succ (n := i + 1), List.map_append]
      simp [pow_succ]
      ring
    rw [rombergLoop]
    simp only [hi, hest, hnext]
    rw [search]
    by_cases h4 : 4 ≤ i
    · obtain ⟨k, rfl⟩ := Nat.exists_eq_add_of_le' h4
      have hsplit : (List.range (k + 4 + 1)).map (fun k => composite f a b (2 ^ k)) = (List.range k).map (fun k => composite f a b (2 ^ k)) ++
          [composite f a b (2 ^ k), composite f a b (2 ^ (k + 1)), composite f a b (2 ^ (k + 2)), composite f a b (2 ^ (k + 3)),
            composite f a b (2 ^ (k + 4))] := by
        simp [List.range_succ]
      rw [if_pos (by omega : 5 - 1 ≤ k + 4), show k + 4 - (5 - 1) = k by omega, hsplit,
        extrapolate_eq _ _ k ((1 / 4 : ℝ) ^ k) _ _ _ _ _ (by positivity) (by simp)
          (fun j hj => by rw [hrd _ (by omega), pow_add, one_div_pow, one_div_pow]; congr 1; ring)]
      simp only [Res.bind]
      rw [toZero_five, toZero_four]
      by_cases hc : |toZero f a b (k + 4) 5 - toZero f a b (k + 4) 4| ≤ tol * |toZero f a b (k + 4) 5|
      · rw [if_pos hc, if_pos ⟨by omega, hc⟩]
      · rw [if_neg hc, if_neg (fun h => hc h.2)]
    · rw [if_neg (by omega), if_neg (fun h => h4 h.1)]

theorem search_ok (f : ℝ → ℝ) (a b tol : ℝ) (n i : Nat) (v : ℝ) :
    search f a b tol n i = .ok v ↔
      ∃ k, i ≤ k ∧ k < i + n ∧ Stops f a b tol k ∧ (∀ j, i ≤ j → j < k → ¬ Stops f a b tol j) ∧ v = toZero f a b k 5 := by
  induction n generalizing i with
  | zero => simp [search]; intro k h1 h2; omega
  | succ n ih =>
    rw [search]
    by_cases h : Stops f a b tol i
    · rw [if_pos h]
      constructor
      · intro e
        exact ⟨i, le_rfl, by omega, h, fun j h1 h2 => absurd h1 (by omega), (Res.ok.inj e).symm⟩
      · rintro ⟨k, h1, h2, h3, h4, rfl⟩
        rcases Nat.eq_or_lt_of_le h1 with rfl | h1
        · rfl
        · exact absurd h (h4 i le_rfl h1)
    · rw [if_neg h, ih]
      constructor
      · rintro ⟨k, h1, h2, h3, h4, h5⟩
        refine ⟨k, by omega, by omega, h3, fun j hj hk => ?_, h5⟩
        rcases Nat.eq_or_lt_of_le hj with rfl | hj
        · exact h
        · exact h4 j hj hk
      · rintro ⟨k, h1, h2, h3, h4, h5⟩
        rcases Nat.eq_or_lt_of_le h1 with rfl | h1
        · exact absurd h3 h
        · exact ⟨k, h1, by omega, h3, fun j hj hk => h4 j (by omega) hk, h5⟩

theorem search_total (f : ℝ → ℝ) (a b tol : ℝ) (n i : Nat) :
    (∃ v, search f a b tol n i = .ok v) ∨ search f a b tol n i = .throws .runtimeError := by
  induction n generalizing i with
  | zero => exact .inr rfl
  | succ n ih =>
    rw [search]
    by_cases h : Stops f a b tol i
    · rw [if_pos h]; exact .inl ⟨_, rfl⟩
    · rw [if_neg h]; exact ih (i + 1)

/-- C51: `rombergIntegrate` refines the trapezoid rule up to `2 ^ 19` intervals. It returns the extrapolation from the last five levels, for
the first level at which that differs from the extrapolation from the last four by at most `tol` relative to itself; if there is none, or for
a negative tolerance, it throws. It never runs into undefined behaviour. -/
theorem C51_romberg (f : ℝ → ℝ) (a b tol v : ℝ) :
    (rombergIntegrate f a b tol = .ok v ↔ 0 ≤ tol ∧ ∃ k, 4 ≤ k ∧ k < 20 ∧
      |toZero f a b k 5 - toZero f a b k 4| ≤ tol * |toZero f a b k 5| ∧
      (∀ j, 4 ≤ j → j < k → tol * |toZero f a b j 5| < |toZero f a b j 5 - toZero f a b j 4|) ∧ v = toZero f a b k 5) ∧
    ((∀ w, rombergIntegrate f a b tol ≠ .ok w) → rombergIntegrate f a b tol = .throws .runtimeError) := by
  have hr : rombergIntegrate f a b tol = if tol < 0 then .throws .runtimeError else search f a b tol 20 0 := by
    rw [rombergIntegrate]
    have := rombergLoop_eq f a b tol 20 0 Trap.new (.inl rfl) rfl
    simp only [zero_add, List.range_one, List.map_cons, pow_zero, List.map_nil, List.range_zero] at this
    rw [this]
  rw [hr]
  by_cases ht : tol < 0
  · rw [if_pos ht]
    refine ⟨⟨fun h => (by cases h), fun h => absurd ht (not_lt.mpr h.1)⟩, fun _ => rfl⟩
  · rw [if_neg ht, search_ok]
    refine ⟨⟨?_, ?_⟩, ?_⟩
    · rintro ⟨k, -, h2, h3, h4, h5⟩
      refine ⟨not_lt.mp ht, k, h3.1, by omega, h3.2, fun j hj hk => ?_, h5⟩
      exact not_le.mp fun h => h4 j (by omega) hk ⟨hj, h⟩
    · rintro ⟨-, k, h1, h2, h3, h4, h5⟩
      exact ⟨k, by omega, by omega, ⟨h1, h3⟩, fun j _ hk h => absurd h.2 (not_le.mpr (h4 j h.1 hk)), h5⟩
    · intro h
      rcases search_total f a b tol 20 0 with ⟨w, hw⟩ | h'
      · exact absurd hw (h w)
      · exact h'

/-- If the rules at all levels follow a polynomial of degree below five in the squared step size, every extrapolation is its value at zero. -/
theorem toZero_exact (f : ℝ → ℝ) (a b : ℝ) (c0 c1 c2 c3 c4 : ℝ)
    (h : ∀ k, composite f a b (2 ^ k) = c0 + c1 * (1 / 4) ^ k + c2 * ((1 / 4) ^ k) ^ 2 + c3 * ((1 / 4) ^ k) ^ 3 + c4 * ((1 / 4) ^ k) ^ 4)
    (k : Nat) (hk : 4 ≤ k) : toZero f a b k 5 = c0 ∧ (c4 = 0 → toZero f a b k 4 = c0) := by
  obtain ⟨k, rfl⟩ := Nat.exists_eq_add_of_le' hk
  rw [← toZero_five, ← toZero_four, h, h, h, h, h]
  generalize hz : (1 / 4 : ℝ) ^ k = z
  simp only [pow_add, hz]
  refine ⟨by ring, ?_⟩
  rintro rfl
  ring

/-- The value at `x` of the `k`-th derivative of `∑ c_i x^i`. -/
noncomputable def polyD (c : Nat → ℝ) (k : Nat) (x : ℝ) : ℝ := ∑ i ∈ range 10, c i * ((i.descFactorial k : ℝ) * x ^ (i - k))

theorem panel_monomial (i : Nat) (hi : i < 10) (x d : ℝ) :
    (x ^ i + (x + d) ^ i) / 2 * d = ((x + d) ^ (i + 1) / (i + 1 : ℕ) - x ^ (i + 1) / (i + 1 : ℕ))
      + d ^ 2 / 12 * ((i.descFactorial 1 : ℝ) * (x + d) ^ (i - 1) - (i.descFactorial 1 : ℝ) * x ^ (i - 1))
      - d ^ 4 / 720 * ((i.descFactorial 3 : ℝ) * (x + d) ^ (i - 3) - (i.descFactorial 3 : ℝ) * x ^ (i - 3))
      + d ^ 6 / 30240 * ((i.descFactorial 5 : ℝ) * (x + d) ^ (i - 5) - (i.descFactorial 5 : ℝ) * x ^ (i - 5))
      - d ^ 8 / 1209600 * ((i.descFactorial 7 : ℝ) * (x + d) ^ (i - 7) - (i.descFactorial 7 : ℝ) * x ^ (i - 7)) := by
  interval_cases i <;> simp [Nat.descFactorial] <;> ring

/-- The trapezoid rule of a polynomial of degree at most nine: the integral and corrections in even powers of the step size. -/
theorem composite_poly (c : Nat → ℝ) (a b : ℝ) : ∃ c1 c2 c3 c4 : ℝ,
    ((c 8 = 0 ∧ c 9 = 0) → c4 = 0) ∧ ∀ k : Nat, composite (fun x => ∑ i ∈ range 10, c i * x ^ i) a b (2 ^ k) =
      (∫ x in a..b, ∑ i ∈ range 10, c i * x ^ i) + c1 * (1 / 4) ^ k + c2 * ((1 / 4) ^ k) ^ 2 + c3 * ((1 / 4) ^ k) ^ 3 + c4 * ((1 / 4) ^ k) ^ 4 := by
  set F : ℝ → ℝ := fun x => ∑ i ∈ range 10, c i * (x ^ (i + 1) / (i + 1 : ℕ)) with hF
  have hint : ∫ x in a..b, ∑ i ∈ range 10, c i * x ^ i = F b - F a := by
    rw [intervalIntegral.integral_finsetSum (fun i _ => (by fun_prop : Continuous fun x : ℝ => c i * x ^ i).intervalIntegrable _ _), hF]
    simp only [intervalIntegral.integral_const_mul, integral_pow, ← sum_sub_distrib]
    refine sum_congr rfl fun i _ => ?_
    push_cast
    ring
  refine ⟨(b - a) ^ 2 / 12 * (polyD c 1 b - polyD c 1 a), -((b - a) ^ 4 / 720 * (polyD c 3 b - polyD c 3 a)),
    (b - a) ^ 6 / 30240 * (polyD c 5 b - polyD c 5 a), -((b - a) ^ 8 / 1209600 * (polyD c 7 b - polyD c 7 a)), ?_, fun k => ?_⟩
  · rintro ⟨h8, h9⟩
    simp [polyD, sum_range_succ, h8, h9, Nat.descFactorial]
  · rw [hint]
    have hN : ((2 ^ k : ℕ) : ℝ) ≠ 0 := by positivity
    have h4 : ((1 / 4 : ℝ)) ^ k = 1 / ((2 ^ k : ℕ) : ℝ) ^ 2 := by
      push_cast
      rw [← pow_mul, mul_comm k 2, pow_mul, one_div_pow]
      norm_num
    rw [h4, composite]
    generalize 2 ^ k = N at hN
    set d := (b - a) / (N : ℝ) with hd
    have hend : a + (N : ℝ) * d = b := by rw [hd]; field_simp; ring
    set G : ℝ → ℝ := fun x => F x + d ^ 2 / 12 * polyD c 1 x - d ^ 4 / 720 * polyD c 3 x + d ^ 6 / 30240 * polyD c 5 x
      - d ^ 8 / 1209600 * polyD c 7 x with hG
    have panel : ∀ x, ((∑ i ∈ range 10, c i * x ^ i) + (∑ i ∈ range 10, c i * (x + d) ^ i)) / 2 * d = G (x + d) - G x := by
      intro x
      have : ∀ i ∈ range 10, (c i * x ^ i + c i * (x + d) ^ i) / 2 * d = c i * ((x ^ i + (x + d) ^ i) / 2 * d) := fun i _ => by ring
      rw [← sum_add_distrib, sum_div, sum_mul, sum_congr rfl this,
        sum_congr rfl fun i hi => by rw [panel_monomial i (mem_range.mp hi) x d]]
      simp only [hG, hF, polyD, mul_sum, ← sum_add_distrib, ← sum_sub_distrib]
      refine sum_congr rfl fun i _ => ?_
      ring
    have step : ∀ i : Nat, a + ((i + 1 : ℕ) : ℝ) * d = a + i * d + d := fun i => by push_cast; ring
    have tel : ∑ i ∈ range N, ((∑ j ∈ range 10, c j * (a + i * d) ^ j) + (∑ j ∈ range 10, c j * (a + (i + 1 : ℕ) * d) ^ j)) / 2 * d
        = G b - G a := by
      have h1 : ∀ M : Nat, ∑ i ∈ range M, ((∑ j ∈ range 10, c j * (a + i * d) ^ j) + (∑ j ∈ range 10, c j * (a + (i + 1 : ℕ) * d) ^ j)) / 2 * d
          = G (a + M * d) - G a := by
        intro M
        induction M with
        | zero => simp
        | succ M ih => rw [sum_range_succ, ih, step, panel]; ring
      rw [h1, hend]
    rw [tel, hG]
    simp only
    rw [hd]
    field_simp
    ring

/-- C51: on polynomials of degree at most nine every result is the exact integral; on those of degree at most seven, Romberg integration
always succeeds, with the exact integral. -/
theorem C51_romberg_polynomial (c : Nat → ℝ) (a b tol : ℝ) :
    (∀ v, rombergIntegrate (fun x => ∑ i ∈ range 10, c i * x ^ i) a b tol = .ok v → v = ∫ x in a..b, ∑ i ∈ range 10, c i * x ^ i) ∧
    (0 ≤ tol → c 8 = 0 → c 9 = 0 →
      rombergIntegrate (fun x => ∑ i ∈ range 10, c i * x ^ i) a b tol = .ok (∫ x in a..b, ∑ i ∈ range 10, c i * x ^ i)) := by
  obtain ⟨c1, c2, c3, c4, h4, hk⟩ := composite_poly c a b
  have hz := toZero_exact _ a b _ c1 c2 c3 c4 hk
  refine ⟨fun v hv => ?_, fun ht h8 h9 => ?_⟩
  · obtain ⟨-, k, h1, -, -, -, h5⟩ := (C51_romberg _ a b tol v).1.mp hv
    rw [h5, (hz k h1).1]
  · refine (C51_romberg _ a b tol _).1.mpr ⟨ht, 4, le_rfl, by norm_num, ?_, fun j hj hk => absurd hj (by omega), (hz 4 le_rfl).1.symm⟩
    rw [(hz 4 le_rfl).1, (hz 4 le_rfl).2 (h4 ⟨h8, h9⟩), sub_self, abs_zero]
    positivity

/-- The integral of `x^7` from 0 to 2, with tolerance zero. -/
example : rombergIntegrate (fun x => x ^ 7) 0 2 0 = .ok 32 := by
  have h := (C51_romberg_polynomial (fun i => if i = 7 then 1 else 0) 0 2 0).2 le_rfl (by simp) (by simp)
  have e : (fun x : ℝ => ∑ i ∈ range 10, (if i = 7 then (1 : ℝ) else 0) * x ^ i) = fun x => x ^ 7 := by
    funext x; simp
  simp only [e] at h
  rw [h, integral_pow]
  norm_num

/-- C51: the tolerance is no bound on the error: for `sin² (16 π x)`, which vanishes at all points of the first five levels, the result is 0
for every tolerance, while the integral from 0 to 1 is one half. -/
theorem C51_tolerance_fails (tol : ℝ) (h : 0 ≤ tol) :
    rombergIntegrate (fun x => Real.sin (16 * Real.pi * x) ^ 2) 0 1 tol = .ok 0 ∧ ∫ x in (0 : ℝ)..1, Real.sin (16 * Real.pi * x) ^ 2 = 1 / 2 := by
  constructor
  · have hz : ∀ k, k ≤ 4 → composite (fun x => Real.sin (16 * Real.pi * x) ^ 2) 0 1 (2 ^ k) = 0 := by
      intro k hk
      rw [composite]
      refine sum_eq_zero fun i _ => ?_
      have hs : ∀ j : Nat, Real.sin (16 * Real.pi * (0 + (j : ℝ) * ((1 - 0) / ((2 ^ k : ℕ) : ℝ)))) = 0 := by
        intro j
        have : 16 * Real.pi * (0 + (j : ℝ) * ((1 - 0) / ((2 ^ k : ℕ) : ℝ))) = ((j * 2 ^ (4 - k) : ℕ) : ℝ) * Real.pi := by
          have h16 : (16 : ℝ) = 2 ^ k * 2 ^ (4 - k) := by rw [← pow_add, show k + (4 - k) = 4 by omega]; norm_num
          push_cast
          rw [h16]
          field_simp
          ring
        rw [this, Real.sin_nat_mul_pi]
      rw [hs i, hs (i + 1)]
      norm_num
    have h5 := toZero_five (fun x => Real.sin (16 * Real.pi * x) ^ 2) 0 1 0
    have h4 := toZero_four (fun x => Real.sin (16 * Real.pi * x) ^ 2) 0 1 0
    rw [hz 0 (by norm_num), hz (0 + 1) (by norm_num), hz (0 + 2) (by norm_num), hz (0 + 3) (by norm_num), hz (0 + 4) (by norm_num)] at h5
    rw [hz (0 + 1) (by norm_num), hz (0 + 2) (by norm_num), hz (0 + 3) (by norm_num), hz (0 + 4) (by norm_num)] at h4
    norm_num at h5 h4
    refine (C51_romberg _ 0 1 tol 0).1.mpr ⟨h, 4, le_rfl, by norm_num, ?_, fun j hj hk => absurd hj (by omega), h5⟩
    rw [← h5, ← h4]
    norm_num
  · rw [intervalIntegral.integral_comp_mul_left (fun x => Real.sin x ^ 2) (by positivity), integral_sin_sq]
    have : Real.sin (16 * Real.pi) = 0 := by
      have := Real.sin_nat_mul_pi 16
      exact_mod_cast this
    rw [mul_zero, mul_one, this, Real.sin_zero, smul_eq_mul]
    field_simp
    ring

end Siren.Math.Integrate
