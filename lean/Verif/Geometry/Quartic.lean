import Verif.Base
import Mathlib.Analysis.SpecialFunctions.Trigonometric.Inverse
import Mathlib.Analysis.SpecialFunctions.Pow.Real
import Mathlib.Tactic.LinearCombination
import Mathlib.Tactic.Positivity
import Mathlib.Tactic.FieldSimp
import Mathlib.Algebra.Order.Ring.Abs
import Mathlib.Algebra.Ring.Parity

set_option autoImplicit false
set_option linter.unusedSimpArgs false

/-!
# Roots of cubic and quartic polynomials

The solvers of `geometry/private/Torus.cxx`.
-/

namespace Siren.Geometry
namespace Quartic

/-! ### Model -/

open Classical in
/-- `std::cbrt`. -/
noncomputable def cbrt (x : ℝ) : ℝ := if x < 0 then -(-x) ^ (1 / 3 : ℝ) else x ^ (1 / 3 : ℝ)

open Classical in
/-- The argument of `acos` (Torus.cxx:43-50). -/
noncomputable def cosArg (p q : ℝ) : ℝ :=
  let mp3 := if -p / 3 < 0 then 0 else -p / 3
  let r := Real.sqrt mp3
  if r > 0 then
    let c := -q / (2 * r * r * r)
    let c := if c > 1 then 1 else c
    if c < -1 then -1 else c
  else 0

open Classical in
/-- `SolveDepressedCubic` (Torus.cxx:37-64). -/
noncomputable def cubic (p q : ℝ) : List ℝ :=
  let disc := -4 * p * p * p - 27 * q * q
  if disc ≥ 0 then
    let mp3 := if -p / 3 < 0 then 0 else -p / 3
    let r := Real.sqrt mp3
    let theta := Real.arccos (cosArg p q)
    [2 * r * Real.cos (theta / 3), 2 * r * Real.cos ((theta + 2 * Real.pi) / 3), 2 * r * Real.cos ((theta + 4 * Real.pi) / 3)]
  else
    let sq := Real.sqrt (q * q / 4 + p * p * p / 27)
    [cbrt (-q / 2 + sq) + cbrt (-q / 2 - sq)]

open Classical in
/-- The largest of the roots (Torus.cxx:120-125). -/
noncomputable def largest (rp : ℝ) : List ℝ → ℝ
  | [] => 0
  | c :: cs => cs.foldl (fun y c => if c - rp / 3 > y then c - rp / 3 else y) (c - rp / 3)

open Classical in
/-- The shortcut without a linear term (Torus.cxx:86-107). -/
noncomputable def biquadratic (a p r : ℝ) : List ℝ :=
  let disc := p * p - 4 * r
  let discTol := 1e-10 * max (p * p) |r|
  if disc < -discTol then []
  else
    let disc := if disc < 0 then 0 else disc
    let sq := Real.sqrt disc
    let u1 := (-p + sq) / 2
    let u2 := (-p - sq) / 2
    let uTol := 1e-10 * max |p| sq
    let first :=
      if u1 ≥ -uTol then
        let s := Real.sqrt (if u1 < 0 then 0 else u1)
        [s - a / 4, -s - a / 4]
      else []
    let u1' := if u1 ≥ -uTol then (if u1 < 0 then 0 else u1) else u1
    let second :=
      if u2 ≥ -uTol ∧ |u2 - u1'| > uTol then
        let s := Real.sqrt (if u2 < 0 then 0 else u2)
        [s - a / 4, -s - a / 4]
      else []
    first ++ second

open Classical in
/-- Two quadratics (Torus.cxx:127-156). -/
noncomputable def ferrari (a p q y : ℝ) : List ℝ :=
  let s2 := 2 * y - p
  let s2 := if s2 < 0 then 0 else s2
  let s := Real.sqrt s2
  let u := if s > 1e-14 then y - q / (2 * s) else y
  let v := if s > 1e-14 then y + q / (2 * s) else y
  let s := if s > 1e-14 then s else 0
  let disc1 := s * s - 4 * u
  let disc2 := s * s - 4 * v
  (if disc1 ≥ 0 then [(-s + Real.sqrt disc1) / 2 - a / 4, (-s - Real.sqrt disc1) / 2 - a / 4] else []) ++
  (if disc2 ≥ 0 then [(s + Real.sqrt disc2) / 2 - a / 4, (s - Real.sqrt disc2) / 2 - a / 4] else [])

/-- The coefficients without a cubic term (Torus.cxx:71-76). -/
noncomputable def depP (a b : ℝ) : ℝ := b - 3 * (a * a) / 8
noncomputable def depQ (a b c : ℝ) : ℝ := c - a * b / 2 + a * a * a / 8
noncomputable def depR (a b c d : ℝ) : ℝ := d - a * c / 4 + a * a * b / 16 - 3 * (a * a) * (a * a) / 256

/-- `coeff_scale` (Torus.cxx:83). -/
noncomputable def scale (p r : ℝ) : ℝ := max 1 (max |p| (Real.sqrt (max |r| 0)))

open Classical in
/-- `SolveQuartic` (Torus.cxx:69-159). -/
noncomputable def quartic (a b c d : ℝ) : List ℝ :=
  let p := depP a b
  let q := depQ a b c
  let r := depR a b c d
  if |q| < 1e-14 * scale p r then biquadratic a p r
  else
    let rp := -p / 2
    let rq := -r
    let rs := p * r / 2 - q * q / 8
    let P := rq - rp * rp / 3
    let Q := rs - rp * rq / 3 + 2 * rp * rp * rp / 27
    ferrari a p q (largest rp (cubic P Q))

/-! ### The cubic -/

theorem cbrt_cube (x : ℝ) : cbrt x ^ 3 = x := by
  have key : ∀ y : ℝ, 0 ≤ y → (y ^ (1 / 3 : ℝ)) ^ 3 = y := by
    intro y hy
    rw [← Real.rpow_natCast, ← Real.rpow_mul hy]
    norm_num
  unfold cbrt
  split
  next h => rw [neg_pow, key (-x) (by linarith)]; ring
  next h => exact key x (not_lt.mp h)

theorem cube_inj {x y : ℝ} (h : x ^ 3 = y ^ 3) : x = y :=
  (Odd.strictMono_pow (by decide : Odd 3)).injective h

/-- The roots of a cubic without a quadratic term are exactly the reported ones. -/
theorem cubic_mem (p q t : ℝ) : t ∈ cubic p q ↔ t ^ 3 + p * t + q = 0 := by
  unfold cubic
  simp only
  by_cases hd : -4 * p * p * p - 27 * q * q ≥ 0
  · rw [if_pos hd]
    have hp : p ≤ 0 := by
      by_contra h
      push Not at h
      have : 0 < p * p * p := by positivity
      nlinarith [mul_self_nonneg q]
    have hmp : ¬ (-p / 3 < 0) := by linarith
    rw [if_neg hmp]
    set r := Real.sqrt (-p / 3) with hr
    have hr2 : r ^ 2 = -p / 3 := Real.sq_sqrt (by linarith)
    have hr0 : 0 ≤ r := Real.sqrt_nonneg _
    have hp3 : p = -3 * r ^ 2 := by linarith
    -- the cosine of the angle
    have hcos : 2 * r ^ 3 * Real.cos (Real.arccos (cosArg p q)) = -q := by
      unfold cosArg
      simp only
      rw [if_neg hmp, ← hr]
      rcases hr0.lt_or_eq with h | h
      · rw [if_pos h]
        have h3 : 0 < r ^ 3 := by positivity
        have hq : q ^ 2 ≤ (2 * r ^ 3) ^ 2 := by
          rw [hp3] at hd
          nlinarith
        have hq' := abs_le.mp (abs_le_of_sq_le_sq hq (by positivity))
        have e : -q / (2 * r * r * r) = -q / (2 * r ^ 3) := by ring_nf
        have c1 : ¬ (-q / (2 * r * r * r) > 1) := by
          rw [e, gt_iff_lt, lt_div_iff₀ (by positivity)]; linarith [hq'.1]
        have c2 : ¬ (-q / (2 * r * r * r) < -1) := by
          rw [e, div_lt_iff₀ (by positivity)]; linarith [hq'.2]
        rw [if_neg c1, if_neg c2, e, Real.cos_arccos]
        · field_simp
        · rw [le_div_iff₀ (by positivity)]; linarith [hq'.2]
        · rw [div_le_iff₀ (by positivity)]; linarith [hq'.1]
      · rw [← h]
        have hp0 : p = 0 := by rw [hp3, ← h]; ring
        rw [hp0] at hd
        have : q = 0 := by
          have : q * q = 0 := by nlinarith [mul_self_nonneg q]
          exact mul_self_eq_zero.mp this
        rw [this]; norm_num
    set th := Real.arccos (cosArg p q) with hth
    have e0 : th = 3 * (th / 3) := by ring
    rw [e0, Real.cos_three_mul] at hcos
    set a := th / 3 with ha
    have e1 : (th + 2 * Real.pi) / 3 = a + (Real.pi - Real.pi / 3) := by rw [ha]; ring
    have e2 : (th + 4 * Real.pi) / 3 = a + (Real.pi + Real.pi / 3) := by rw [ha]; ring
    have k3 : Real.sqrt 3 ^ 2 = 3 := Real.sq_sqrt (by norm_num)
    have c1 : Real.cos ((th + 2 * Real.pi) / 3) = -Real.cos a / 2 - Real.sqrt 3 / 2 * Real.sin a := by
      rw [e1, Real.cos_add, Real.cos_pi_sub, Real.sin_pi_sub, Real.cos_pi_div_three, Real.sin_pi_div_three]; ring
    have c2 : Real.cos ((th + 4 * Real.pi) / 3) = -Real.cos a / 2 + Real.sqrt 3 / 2 * Real.sin a := by
      rw [e2, Real.cos_add, add_comm Real.pi, Real.cos_add_pi, Real.sin_add_pi, Real.cos_pi_div_three, Real.sin_pi_div_three]; ring
    rw [c1, c2]
    have hs : Real.sin a ^ 2 = 1 - Real.cos a ^ 2 := by linarith [Real.sin_sq_add_cos_sq a]
    generalize Real.cos a = x at *
    generalize Real.sin a = y at *
    generalize Real.sqrt 3 = k at *
    have fac : t ^ 3 + p * t + q = (t - 2 * r * x) * (t - 2 * r * (-x / 2 - k / 2 * y)) * (t - 2 * r * (-x / 2 + k / 2 * y)) := by
      rw [hp3]
      have hky : (k * y) ^ 2 = 3 * (1 - x ^ 2) := by rw [mul_pow, k3, hs]
      linear_combination hcos + (t * r ^ 2 - 2 * r ^ 3 * x) * hky
    rw [fac, mul_eq_zero, mul_eq_zero, sub_eq_zero, sub_eq_zero, sub_eq_zero]
    simp only [List.mem_cons, List.not_mem_nil, or_false]
    tauto
  · rw [if_neg hd]
    push Not at hd
    have hpos : 0 < q * q / 4 + p * p * p / 27 := by linarith
    set sq := Real.sqrt (q * q / 4 + p * p * p / 27) with hsq
    have hsq2 : sq ^ 2 = q * q / 4 + p * p * p / 27 := Real.sq_sqrt hpos.le
    have hsq0 : 0 < sq := Real.sqrt_pos.mpr hpos
    have hu := cbrt_cube (-q / 2 + sq)
    have hv := cbrt_cube (-q / 2 - sq)
    generalize cbrt (-q / 2 + sq) = u at *
    generalize cbrt (-q / 2 - sq) = v at *
    have huv : u * v = -p / 3 := by
      apply cube_inj
      rw [mul_pow, hu, hv]
      linear_combination -hsq2
    have hne : u ≠ v := by
      intro h
      rw [h, hv] at hu
      linarith
    have hp : p = -3 * (u * v) := by linarith
    have fac : t ^ 3 + p * t + q = (t - (u + v)) * (t ^ 2 + (u + v) * t + (u + v) ^ 2 + p) := by
      rw [hp]
      linear_combination hu + hv
    have hpos2 : 0 < t ^ 2 + (u + v) * t + (u + v) ^ 2 + p := by
      rw [hp]
      have : 0 < (u - v) ^ 2 := by
        have : u - v ≠ 0 := sub_ne_zero.mpr hne
        positivity
      nlinarith [sq_nonneg (2 * t + (u + v))]
    rw [fac, mul_eq_zero, sub_eq_zero, List.mem_singleton]
    constructor
    · exact Or.inl
    · rintro (h | h)
      · exact h
      · exact absurd h hpos2.ne'

theorem cubic_ne (p q : ℝ) : cubic p q ≠ [] := by
  unfold cubic
  simp only
  split <;> simp

theorem foldl_larger (rp : ℝ) : ∀ (cs : List ℝ) (y : ℝ),
    y ≤ cs.foldl (fun y c => if c - rp / 3 > y then c - rp / 3 else y) y ∧
    (∀ c ∈ cs, c - rp / 3 ≤ cs.foldl (fun y c => if c - rp / 3 > y then c - rp / 3 else y) y) ∧
    (cs.foldl (fun y c => if c - rp / 3 > y then c - rp / 3 else y) y = y ∨
      ∃ c ∈ cs, cs.foldl (fun y c => if c - rp / 3 > y then c - rp / 3 else y) y = c - rp / 3)
  | [], y => ⟨le_rfl, by simp, Or.inl rfl⟩
  | c :: cs, y => by
    obtain ⟨h1, h2, h3⟩ := foldl_larger rp cs (if c - rp / 3 > y then c - rp / 3 else y)
    rw [List.foldl_cons]
    have ly : y ≤ (if c - rp / 3 > y then c - rp / 3 else y) := by split <;> linarith
    have lc : c - rp / 3 ≤ (if c - rp / 3 > y then c - rp / 3 else y) := by split <;> linarith
    refine ⟨ly.trans h1, ?_, ?_⟩
    · intro c' hc'
      rcases List.mem_cons.mp hc' with rfl | hc'
      · exact lc.trans h1
      · exact h2 c' hc'
    · rcases h3 with h3 | ⟨c', hc', h3⟩
      · rw [h3]
        split
        · exact Or.inr ⟨c, List.mem_cons_self, rfl⟩
        · exact Or.inl rfl
      · exact Or.inr ⟨c', List.mem_cons_of_mem _ hc', h3⟩

theorem largest_spec (rp : ℝ) {l : List ℝ} (hl : l ≠ []) : (∃ c ∈ l, largest rp l = c - rp / 3) ∧ ∀ c ∈ l, c - rp / 3 ≤ largest rp l := by
  obtain ⟨c, cs, rfl⟩ := List.exists_cons_of_ne_nil hl
  obtain ⟨h1, h2, h3⟩ := foldl_larger rp cs (c - rp / 3)
  refine ⟨?_, ?_⟩
  · rcases h3 with h3 | ⟨c', hc', h3⟩
    · exact ⟨c, List.mem_cons_self, h3⟩
    · exact ⟨c', List.mem_cons_of_mem _ hc', h3⟩
  · intro c' hc'
    rcases List.mem_cons.mp hc' with rfl | hc'
    · exact h1
    · exact h2 c' hc'

/-! ### The quartic -/

/-- The polynomial. -/
def poly (a b c d x : ℝ) : ℝ := x ^ 4 + a * x ^ 3 + b * x ^ 2 + c * x + d

/-- The resolvent of the quartic without a cubic term. -/
noncomputable def resolvent (p q r y : ℝ) : ℝ := y ^ 3 - p / 2 * y ^ 2 - r * y + (p * r / 2 - q ^ 2 / 8)

/-- No tolerance of the solver matters: either there is no linear term, and the discriminant and the squares of the roots are not
within the tolerances of zero or of each other unless they are exactly, or the linear term is not small and the resolvent has a root
that is not close to half the quadratic term. -/
def Clear (a b c d : ℝ) : Prop :=
  let p := depP a b
  let q := depQ a b c
  let r := depR a b c d
  (q = 0 ∧ (p * p - 4 * r < -(1e-10 * max (p * p) |r|) ∨ (0 ≤ p * p - 4 * r ∧
      (∀ u, u * u + p * u + r = 0 → 0 ≤ u ∨ u < -(1e-10 * max |p| (Real.sqrt (p * p - 4 * r)))) ∧
      (p * p - 4 * r = 0 ∨ 1e-10 * max |p| (Real.sqrt (p * p - 4 * r)) < Real.sqrt (p * p - 4 * r))))) ∨
  (1e-14 * scale p r ≤ |q| ∧ ∃ y, resolvent p q r y = 0 ∧ 1e-28 < 2 * y - p)

theorem depress (a b c d x : ℝ) : poly a b c d x = (x + a / 4) ^ 4 + depP a b * (x + a / 4) ^ 2 + depQ a b c * (x + a / 4) + depR a b c d := by
  unfold poly depP depQ depR
  ring

theorem quad_root {b c t : ℝ} (h : 0 ≤ b * b - 4 * c) :
    t ^ 2 + b * t + c = 0 ↔ t = (-b + Real.sqrt (b * b - 4 * c)) / 2 ∨ t = (-b - Real.sqrt (b * b - 4 * c)) / 2 := by
  have hs := Real.sq_sqrt h
  generalize Real.sqrt (b * b - 4 * c) = k at *
  have : t ^ 2 + b * t + c = (t - (-b + k) / 2) * (t - (-b - k) / 2) := by linear_combination (1 / 4 : ℝ) * hs
  rw [this, mul_eq_zero, sub_eq_zero, sub_eq_zero]

theorem quad_none {b c t : ℝ} (h : b * b - 4 * c < 0) : t ^ 2 + b * t + c ≠ 0 := by
  intro h0
  nlinarith [sq_nonneg (2 * t + b)]

theorem ferrari_mem {a p q r y : ℝ} (hy : resolvent p q r y = 0) (hs : 1e-28 < 2 * y - p) (x : ℝ) :
    x ∈ ferrari a p q y ↔ (x + a / 4) ^ 4 + p * (x + a / 4) ^ 2 + q * (x + a / 4) + r = 0 := by
  unfold ferrari
  simp only
  have h0 : (0 : ℝ) < 2 * y - p := lt_trans (by norm_num) hs
  rw [if_neg h0.not_gt]
  have hs2 := Real.sq_sqrt h0.le
  have hsp : (1e-14 : ℝ) < Real.sqrt (2 * y - p) := Real.lt_sqrt_of_sq_lt (by norm_num at hs ⊢; linarith)
  generalize Real.sqrt (2 * y - p) = s at *
  rw [if_pos hsp, if_pos hsp, if_pos hsp]
  have s0 : s ≠ 0 := (lt_trans (by norm_num) hsp).ne'
  set t := x + a / 4 with ht
  have hx : ∀ z : ℝ, x = z - a / 4 ↔ t = z := fun z => by rw [ht]; constructor <;> intro h <;> linarith
  have fac : t ^ 4 + p * t ^ 2 + q * t + r = (t ^ 2 + s * t + (y - q / (2 * s))) * (t ^ 2 + -s * t + (y + q / (2 * s))) := by
    have hr : r = (y - q / (2 * s)) * (y + q / (2 * s)) := by
      have h1 : 4 * s ^ 2 * (y ^ 2 - r) = q ^ 2 := by
        rw [hs2]
        unfold resolvent at hy
        linear_combination 8 * hy
      field_simp
      linear_combination -h1
    have hp : p = 2 * y - s ^ 2 := by linarith
    rw [hr, hp]
    field_simp
    ring
  rw [fac, mul_eq_zero, List.mem_append]
  apply or_congr
  · split
    next h =>
      rw [quad_root h]
      simp only [List.mem_cons, List.not_mem_nil, or_false, hx]
    next h =>
      simp only [List.not_mem_nil, false_iff]
      exact quad_none (not_le.mp h)
  · have e : -s * -s = s * s := by ring
    split
    next h =>
      rw [quad_root (by rw [e]; exact h), e, neg_neg]
      simp only [List.mem_cons, List.not_mem_nil, or_false, hx]
    next h =>
      simp only [List.not_mem_nil, false_iff]
      exact quad_none (by rw [e]; exact not_le.mp h)

theorem biquad_mem {a p r : ℝ} (h : p * p - 4 * r < -(1e-10 * max (p * p) |r|) ∨ (0 ≤ p * p - 4 * r ∧
      (∀ u, u * u + p * u + r = 0 → 0 ≤ u ∨ u < -(1e-10 * max |p| (Real.sqrt (p * p - 4 * r)))) ∧
      (p * p - 4 * r = 0 ∨ 1e-10 * max |p| (Real.sqrt (p * p - 4 * r)) < Real.sqrt (p * p - 4 * r)))) (x : ℝ) :
    x ∈ biquadratic a p r ↔ (x + a / 4) ^ 4 + p * (x + a / 4) ^ 2 + r = 0 := by
  unfold biquadratic
  simp only
  have htol : 0 ≤ 1e-10 * max (p * p) |r| := by
    have : 0 ≤ max (p * p) |r| := le_max_of_le_right (abs_nonneg _)
    positivity
  set t := x + a / 4 with ht
  have hx : ∀ z : ℝ, x = z - a / 4 ↔ t = z := fun z => by rw [ht]; constructor <;> intro h <;> linarith
  rcases h with h | ⟨h1, h2, h3⟩
  · rw [if_pos h]
    simp only [List.not_mem_nil, false_iff]
    intro h0
    exact quad_none (b := p) (c := r) (t := t ^ 2) (by linarith) (by linear_combination h0)
  · rw [if_neg (by linarith), if_neg h1.not_gt]
    have hq : t ^ 4 + p * t ^ 2 + r = 0 ↔ t ^ 2 = (-p + Real.sqrt (p * p - 4 * r)) / 2 ∨ t ^ 2 = (-p - Real.sqrt (p * p - 4 * r)) / 2 := by
      rw [← quad_root h1]
      constructor <;> intro h <;> linear_combination h
    have hk := Real.sq_sqrt h1
    have hk0 := Real.sqrt_nonneg (p * p - 4 * r)
    have g1 := h2 ((-p + Real.sqrt (p * p - 4 * r)) / 2) (by linear_combination (1 / 4 : ℝ) * hk)
    have g2 := h2 ((-p - Real.sqrt (p * p - 4 * r)) / 2) (by linear_combination (1 / 4 : ℝ) * hk)
    have h3' : Real.sqrt (p * p - 4 * r) = 0 ∨ 1e-10 * max |p| (Real.sqrt (p * p - 4 * r)) < Real.sqrt (p * p - 4 * r) := by
      rcases h3 with h | h
      · left; rw [h, Real.sqrt_zero]
      · right; exact h
    rw [hq]
    clear h2 h3 hq hk
    generalize Real.sqrt (p * p - 4 * r) = k at *
    have ut : 0 ≤ 1e-10 * max |p| k := by
      have : 0 ≤ max |p| k := le_max_of_le_left (abs_nonneg _)
      positivity
    generalize 1e-10 * max |p| k = tol at *
    have sqr : ∀ u : ℝ, (0 ≤ u ∨ u < -tol) → (x ∈ (if u ≥ -tol then [Real.sqrt (if u < 0 then 0 else u) - a / 4, -Real.sqrt (if u < 0 then 0 else u) - a / 4] else []) ↔ t ^ 2 = u) := by
      intro u hu
      rcases hu with hu | hu
      · rw [if_pos (by linarith), if_neg hu.not_gt]
        simp only [List.mem_cons, List.not_mem_nil, or_false, hx]
        have hs := Real.sq_sqrt hu
        generalize Real.sqrt u = w at *
        rw [← hs, sq_eq_sq_iff_eq_or_eq_neg]
      · rw [if_neg (not_le.mpr hu)]
        simp only [List.not_mem_nil, false_iff]
        intro h
        nlinarith [sq_nonneg t]
    have hu1' : (if (-p + k) / 2 ≥ -tol then (if (-p + k) / 2 < 0 then 0 else (-p + k) / 2) else (-p + k) / 2) = (-p + k) / 2 := by
      rcases g1 with g | g
      · rw [if_pos (by linarith), if_neg g.not_gt]
      · rw [if_neg (not_le.mpr g)]
    rw [hu1', List.mem_append, sqr _ g1]
    rcases h3' with h3 | h3
    · subst h3
      have e : (-p - 0) / 2 = (-p + 0) / 2 := by ring
      rw [e]
      rw [if_neg (by rw [sub_self, abs_zero]; rintro ⟨-, h⟩; linarith)]
      simp
    · have e : |(-p - k) / 2 - (-p + k) / 2| = k := by
        rw [show (-p - k) / 2 - (-p + k) / 2 = -k by ring, abs_neg, abs_of_nonneg hk0]
      rw [e]
      have : (((-p - k) / 2 ≥ -tol ∧ k > tol)) ↔ ((-p - k) / 2 ≥ -tol) := ⟨fun h => h.1, fun h => ⟨h, h3⟩⟩
      simp only [this]
      rw [sqr _ g2]

/-- C132, the roots: where no tolerance matters, the solver reports exactly the real roots of the quartic. -/
theorem C132_quartic {a b c d : ℝ} (h : Clear a b c d) (x : ℝ) : x ∈ quartic a b c d ↔ poly a b c d x = 0 := by
  unfold quartic
  simp only
  rw [depress]
  unfold Clear at h
  simp only at h
  generalize depP a b = p at *
  generalize depQ a b c = q at *
  generalize depR a b c d = r at *
  have hsc : (1 : ℝ) ≤ scale p r := le_max_left _ _
  rcases h with ⟨hq, h⟩ | ⟨hq, y, hy, hys⟩
  · subst hq
    rw [abs_zero, if_pos (by positivity), biquad_mem h, zero_mul, add_zero]
  · rw [if_neg hq.not_gt]
    set P := -r - -p / 2 * (-p / 2) / 3 with hP
    set Q := p * r / 2 - q * q / 8 - -p / 2 * -r / 3 + 2 * (-p / 2) * (-p / 2) * (-p / 2) / 27 with hQ
    have shift : ∀ z : ℝ, z ^ 3 + P * z + Q = resolvent p q r (z - -p / 2 / 3) := by
      intro z; rw [hP, hQ]; unfold resolvent; ring
    obtain ⟨⟨c0, hc0, e0⟩, hmax⟩ := largest_spec (-p / 2) (cubic_ne P Q)
    have r0 : resolvent p q r (largest (-p / 2) (cubic P Q)) = 0 := by
      rw [e0, ← shift]; exact (cubic_mem P Q c0).mp hc0
    have hle : y ≤ largest (-p / 2) (cubic P Q) := by
      have : y + -p / 2 / 3 ∈ cubic P Q := (cubic_mem P Q _).mpr (by rw [shift, add_sub_cancel_right]; exact hy)
      have := hmax _ this
      linarith
    exact ferrari_mem r0 (by linarith) x

end Quartic
end Siren.Geometry
