import Verif.Detector.DensityModel
import Verif.Math.PolyProps
import Verif.Detector.InverseProps
import Mathlib.Analysis.SpecialFunctions.ExpDeriv
import Mathlib.Analysis.SpecialFunctions.Sqrt
import Mathlib.Analysis.Calculus.Deriv.MeanValue
import Mathlib.MeasureTheory.Integral.IntervalIntegral.FundThmCalculus

set_option autoImplicit false

/-! # C52: integrals and inverse integrals of density distributions -/

namespace Siren.Detector

open Siren Siren.Math MeasureTheory

/-! ### Constant densities -/

/-- **C52**: `Integral` of a constant density is the integral of `Evaluate` along the direction. -/
theorem C52_constant_integral (a : Axis) (val : ℝ) (xi direction : Vec3 ℝ) (x : ℝ) :
    ConstantDensity.integral val x = ∫ u in (0 : ℝ)..x, densityAt a (.constant val) (xi + Vec3.smul u direction) := by
  simp [ConstantDensity.integral, densityAt, Dist1D.evaluate]

/-- **C52**: `InverseIntegral` of a constant density (with a constant added, possibly zero) returns the distance within the maximum over which the
integral has the requested value, and minus one if there is no such distance. The maximum may be infinite. -/
theorem C52_constant_inverse (val constant i : ℝ) (max : EReal) (hd : 0 < val + constant) (hi : 0 ≤ i) :
    (∃ x : ℝ, 0 ≤ x ∧ (x : EReal) ≤ max ∧ ConstantDensity.integral val x + constant * x = i ∧
        ConstantDensity.inverse val constant i max = some (x : EReal)) ∨
      ((∀ x : ℝ, 0 ≤ x → (x : EReal) ≤ max → ConstantDensity.integral val x + constant * x ≠ i) ∧
        ConstantDensity.inverse val constant i max = some (-1)) := by
  unfold ConstantDensity.inverse ConstantDensity.quotient ConstantDensity.integral
  rw [if_pos hd.ne']
  simp only
  by_cases h : max < ((i / (val + constant) : ℝ) : EReal)
  · right
    rw [if_pos h]
    refine ⟨fun x hx hm he => ?_, rfl⟩
    have : x = i / (val + constant) := by
      rw [eq_div_iff hd.ne', ← he]
      ring
    rw [this] at hm
    exact absurd h (not_lt.mpr hm)
  · left
    rw [if_neg h]
    exact ⟨i / (val + constant), by positivity, not_lt.mp h, by field_simp, rfl⟩

example : ConstantDensity.inverse 2 0 6 ((10 : ℝ) : EReal) = some ((3 : ℝ) : EReal) := by
  unfold ConstantDensity.inverse ConstantDensity.quotient
  rw [if_pos (by norm_num)]
  simp only
  rw [if_neg (by rw [not_lt, EReal.coe_le_coe_iff]; norm_num)]
  norm_num

/-- For the density zero and the integral zero the result is NaN, although the distance zero would do. -/
theorem C52_constant_zero_fails (max : EReal) : ConstantDensity.inverse 0 0 0 max = none := by
  simp [ConstantDensity.inverse, ConstantDensity.quotient]

/-- **C52**: constant densities satisfy the assumptions made about density distributions in C20, C21, C35 and C66. -/
theorem C52_constant_lawful (a : Axis) (val : ℝ) (hv : 0 < val) : ∃ D : Density, D.Lawful ∧ D.LawfulInverse ∧
    (∀ p, D.evaluate p = densityAt a (.constant val) p) ∧ (∀ p dir (x : ℝ), D.integral p dir x = ConstantDensity.integral val x) ∧
    (∀ p dir (i : ℝ) (max : EReal), ConstantDensity.inverse val 0 i max = some ((D.inverse p dir i max : ℝ) : EReal)) := by
  refine ⟨constDensity val, constDensity_lawful val, constDensity_inverse val hv, fun p => rfl, fun p dir x => by
    simp [constDensity, ConstantDensity.integral], fun p dir i max => ?_⟩
  simp only [ConstantDensity.inverse, ConstantDensity.quotient, add_zero, if_pos hv.ne', constDensity, EReal.toReal_coe, EReal.coe_ne_top,
    or_false]
  by_cases h : max < ((i / val : ℝ) : EReal)
  · rw [if_pos h, if_pos h]; rfl
  · rw [if_neg h, if_neg h]

/-! ### Densities along a Cartesian axis -/

/-- The distributions for which `AntiDerivative` is a number: all but the exponential with `sigma = 0`. -/
def Dist1D.Regular : Dist1D → Prop
  | .exponential s _ _ => s ≠ 0
  | _ => True

/-- The distribution has an antiderivative, and the code computes it. -/
theorem Dist1D.anti (d : Dist1D) (h : d.Regular) :
    ∃ A : ℝ → ℝ, (∀ x, d.antiderivative x = some (A x)) ∧ ∀ x, HasDerivAt A (d.evaluate x) x := by
  cases d with
  | constant v => exact ⟨fun x => x * v, fun x => rfl, fun x => by simpa [Dist1D.evaluate] using (hasDerivAt_id x).mul_const v⟩
  | polynomial c => exact ⟨fun x => Polynom.evaluate (Polynom.antiderivative c 0) x, fun x => rfl, fun x => Polynom.C47_antiderivative_real c 0 x⟩
  | exponential s a x0 =>
    refine ⟨fun x => a * Real.exp (s * (x - x0)) / s, fun x => if_neg h, fun x => ?_⟩
    have h1 : HasDerivAt (fun y : ℝ => s * (y - x0)) s x := by
      simpa using ((hasDerivAt_id x).sub_const x0).const_mul s
    have h2 := ((h1.exp.const_mul a).div_const s)
    have e : a * (Real.exp (s * (x - x0)) * s) / s = (Dist1D.exponential s a x0).evaluate x := by
      have : s ≠ 0 := h
      simp only [Dist1D.evaluate]
      field_simp
    rwa [e] at h2

theorem Dist1D.continuous (d : Dist1D) : Continuous d.evaluate := by
  cases d with
  | constant v => exact continuous_const
  | polynomial c =>
    exact continuous_iff_continuousAt.mpr fun x => (Polynom.C47_derivative_real c x).continuousAt
  | exponential s a x0 =>
    show Continuous fun x => a * Real.exp (s * (x - x0))
    fun_prop

theorem Dist1D.hasDeriv (d : Dist1D) (x : ℝ) : HasDerivAt d.evaluate (d.derivative x) x := by
  cases d with
  | constant v => exact hasDerivAt_const x v
  | polynomial c => exact Polynom.C47_derivative_real c x
  | exponential s a x0 =>
    have h1 : HasDerivAt (fun y : ℝ => s * (y - x0)) s x := by
      simpa using ((hasDerivAt_id x).sub_const x0).const_mul s
    have h2 := h1.exp.const_mul a
    have e : a * (Real.exp (s * (x - x0)) * s) = (Dist1D.exponential s a x0).derivative x := by
      simp only [Dist1D.derivative, Dist1D.evaluate]; ring
    rwa [e] at h2

variable (axis p0 : Vec3 ℝ) (d : Dist1D)

/-- The coordinate along the axis changes at a constant rate. -/
theorem axis_x (xi direction : Vec3 ℝ) (t : ℝ) : (Axis.cartesian axis p0).x (xi + Vec3.smul t direction) =
    (Axis.cartesian axis p0).x xi + t * (Axis.cartesian axis p0).dx xi direction := by
  simp only [Axis.x, Axis.dx, Vec3.dot, Vec3.sub_x, Vec3.sub_y, Vec3.sub_z, Vec3.add_x, Vec3.add_y, Vec3.add_z, Vec3.smul_x, Vec3.smul_y,
    Vec3.smul_z]
  ring

/-- **C52**: `Integral` along a direction that is not perpendicular to the axis is the integral of `Evaluate` along it. -/
theorem C52_cartesian_integral (hd : d.Regular) (xi direction : Vec3 ℝ) (hk : Vec3.dot axis direction ≠ 0) (x : ℝ) :
    CartesianDensity.integral axis p0 d xi direction x =
      some (∫ u in (0 : ℝ)..x, densityAt (.cartesian axis p0) d (xi + Vec3.smul u direction)) := by
  obtain ⟨A, hA, hA'⟩ := d.anti hd
  have hk' : (Axis.cartesian axis p0).dx xi direction ≠ 0 := hk
  unfold CartesianDensity.integral CartesianDensity.difference
  rw [hA, hA]
  simp only [if_neg hk']
  congr 1
  set a := (Axis.cartesian axis p0).x xi with ha
  set k := (Axis.cartesian axis p0).dx xi direction with hkk
  have hf : ∀ u : ℝ, densityAt (.cartesian axis p0) d (xi + Vec3.smul u direction) = d.evaluate (a + u * k) := by
    intro u
    rw [densityAt, axis_x]
  simp only [hf]
  rw [axis_x]
  have hderiv : ∀ u ∈ Set.uIcc (0 : ℝ) x, HasDerivAt (fun u => A (a + u * k) / k) (d.evaluate (a + u * k)) u := by
    intro u _
    have h1 : HasDerivAt (fun u : ℝ => a + u * k) k u := by
      simpa using ((hasDerivAt_id u).mul_const k).const_add a
    have h2 := ((hA' (a + u * k)).comp u h1).div_const k
    rwa [mul_div_cancel_right₀ _ hk'] at h2
  rw [intervalIntegral.integral_eq_sub_of_hasDerivAt hderiv
    ((d.continuous.comp (continuous_const.add (continuous_id.mul continuous_const))).intervalIntegrable 0 x)]
  rw [zero_mul, add_zero, ← sub_div]

/-- **C52**: integrals over two consecutive stretches add up. -/
theorem C52_cartesian_additive (hd : d.Regular) (xi direction : Vec3 ℝ) (hk : Vec3.dot axis direction ≠ 0) (x y : ℝ) :
    ∃ X Y : ℝ, CartesianDensity.integral axis p0 d xi direction x = some X ∧
      CartesianDensity.integral axis p0 d (xi + Vec3.smul x direction) direction y = some Y ∧
      CartesianDensity.integral axis p0 d xi direction (x + y) = some (X + Y) := by
  refine ⟨_, _, C52_cartesian_integral axis p0 d hd xi direction hk x, C52_cartesian_integral axis p0 d hd _ direction hk y, ?_⟩
  rw [C52_cartesian_integral axis p0 d hd xi direction hk]
  congr 1
  have hc : Continuous fun u : ℝ => densityAt (.cartesian axis p0) d (xi + Vec3.smul u direction) := by
    simp only [densityAt, axis_x]
    exact d.continuous.comp (by fun_prop)
  have h := intervalIntegral.integral_comp_add_left (a := 0) (b := y) (fun u => densityAt (.cartesian axis p0) d (xi + Vec3.smul u direction)) x
  have e : ∀ u : ℝ, xi + Vec3.smul (x + u) direction = xi + Vec3.smul x direction + Vec3.smul u direction := by
    intro u
    ext <;> simp <;> ring
  simp only [e, add_zero] at h
  rw [h]
  exact (intervalIntegral.integral_add_adjacent_intervals (hc.intervalIntegrable _ _) (hc.intervalIntegrable _ _)).symm

/-- **C52**: the version for two points is the one for the direction from one to the other and their distance. -/
theorem C52_cartesian_between (xi xj : Vec3 ℝ) (h : 0 < Vec3.norm (xj - xi)) : CartesianDensity.integralBetween axis p0 d xi xj =
    CartesianDensity.integral axis p0 d xi (Vec3.normalize (xj - xi)) (Vec3.norm (xj - xi)) := by
  unfold CartesianDensity.integralBetween CartesianDensity.integral
  congr 2
  ext <;> simp only [Vec3.normalize, Vec3.add_x, Vec3.add_y, Vec3.add_z, Vec3.smul_x, Vec3.smul_y, Vec3.smul_z, Vec3.sub_x, Vec3.sub_y,
    Vec3.sub_z] <;> rw [mul_div_cancel₀ _ h.ne'] <;> ring

/-- A density that falls off exponentially with the height. -/
example : (Dist1D.exponential (-1 / 8000) 1 0).Regular ∧ Vec3.dot (⟨0, 0, 1⟩ : Vec3 ℝ) ⟨0, 3 / 5, 4 / 5⟩ ≠ 0 := by
  constructor
  · show (-1 / 8000 : ℝ) ≠ 0
    norm_num
  · simp [Vec3.dot]

/-- Along a direction perpendicular to the axis, where the density is constant, the result is NaN, not density times distance; so it is for two
equal points. -/
theorem C52_perpendicular_fails (xi direction : Vec3 ℝ) (x : ℝ) (h : Vec3.dot axis direction = 0) :
    CartesianDensity.integral axis p0 d xi direction x = none ∧ CartesianDensity.integralBetween axis p0 d xi xi = none := by
  have h1 : (Axis.cartesian axis p0).dx xi direction = 0 := h
  have h2 : (Axis.cartesian axis p0).dx xi (Vec3.normalize (xi - xi)) = 0 := by
    simp [Axis.dx, Vec3.dot, Vec3.normalize]
  unfold CartesianDensity.integral CartesianDensity.integralBetween CartesianDensity.difference
  rw [h1, h2]
  simp only [if_true]
  constructor <;> split <;> rfl

/-- An exponential with `sigma = 0`, that is a constant, has the integral NaN in every direction. -/
theorem C52_sigma_zero_fails (a x0 : ℝ) (xi direction : Vec3 ℝ) (x : ℝ) :
    CartesianDensity.integral axis p0 (.exponential 0 a x0) xi direction x = none := by
  simp [CartesianDensity.integral, CartesianDensity.difference, Dist1D.antiderivative]

/-- **C52**: `Derivative` is the derivative of the density along the direction, for Cartesian axes and, away from the centre, for radial ones. -/
theorem C52_derivative (a : Axis) (xi direction : Vec3 ℝ) (hc : ∀ c, a = .radial c → xi ≠ c) :
    HasDerivAt (fun t => densityAt a d (xi + Vec3.smul t direction)) (densityDerivative a d xi direction) 0 := by
  have key : ∀ f : ℝ → ℝ, f 0 = a.x xi → HasDerivAt f (a.dx xi direction) 0 → HasDerivAt (fun t => d.evaluate (f t)) (densityDerivative a d xi direction) 0 := by
    intro f h0 hf
    have := d.hasDeriv (f 0)
    rw [h0] at this
    exact HasDerivAt.comp (h₂ := d.evaluate) 0 (h0 ▸ this) hf
  refine key (fun t => a.x (xi + Vec3.smul t direction)) ?_ ?_
  · congr 1
    ext <;> simp
  · cases a with
    | cartesian axis p0 =>
      simp only [axis_x]
      simpa using ((hasDerivAt_id (0 : ℝ)).mul_const ((Axis.cartesian axis p0).dx xi direction)).const_add ((Axis.cartesian axis p0).x xi)
    | radial c =>
      have hne := hc c rfl
      set v := xi - c with hv
      have hpos : 0 < Vec3.dot v v := by
        rcases (Vec3.dot_self_nonneg v).lt_or_eq with h | h
        · exact h
        · exfalso
          apply hne
          simp only [Vec3.dot] at h
          have hx : v.x = 0 := by nlinarith [mul_self_nonneg v.x, mul_self_nonneg v.y, mul_self_nonneg v.z]
          have hy : v.y = 0 := by nlinarith [mul_self_nonneg v.x, mul_self_nonneg v.y, mul_self_nonneg v.z]
          have hz : v.z = 0 := by nlinarith [mul_self_nonneg v.x, mul_self_nonneg v.y, mul_self_nonneg v.z]
          rw [hv] at hx hy hz
          ext
          · exact sub_eq_zero.mp hx
          · exact sub_eq_zero.mp hy
          · exact sub_eq_zero.mp hz
      have hf : (fun t => (Axis.radial c).x (xi + Vec3.smul t direction)) =
          fun t => Real.sqrt (Vec3.dot v v + t * (2 * Vec3.dot v direction) + t * t * Vec3.dot direction direction) := by
        funext t
        simp only [Axis.x, Vec3.norm]
        congr 1
        simp only [hv, Vec3.dot, Vec3.sub_x, Vec3.sub_y, Vec3.sub_z, Vec3.add_x, Vec3.add_y, Vec3.add_z, Vec3.smul_x, Vec3.smul_y, Vec3.smul_z]
        ring
      rw [hf]
      have h1 : HasDerivAt (fun t : ℝ => Vec3.dot v v + t * (2 * Vec3.dot v direction) + t * t * Vec3.dot direction direction) (2 * Vec3.dot v direction) 0 := by
        have e1 := ((hasDerivAt_id (0 : ℝ)).mul_const (2 * Vec3.dot v direction)).const_add (Vec3.dot v v)
        have e2 := (((hasDerivAt_id (0 : ℝ)).mul (hasDerivAt_id (0 : ℝ))).mul_const (Vec3.dot direction direction))
        simpa using e1.fun_add e2
      have h2 := h1.sqrt (by simpa using hpos.ne')
      have e : 2 * Vec3.dot v direction / (2 * Real.sqrt (Vec3.dot v v + 0 * (2 * Vec3.dot v direction) + 0 * 0 * Vec3.dot direction direction)) =
          (Axis.radial c).dx xi direction := by
        have hs : Real.sqrt (Vec3.dot v v) ≠ 0 := (Real.sqrt_pos.mpr hpos).ne'
        simp only [Axis.dx, Vec3.normalize, Vec3.norm, zero_mul, add_zero, ← hv]
        simp only [Vec3.dot] at hs ⊢
        field_simp
      rwa [e] at h2

/-! ### The inverse integral -/

theorem regular_integral (hd : d.Regular) : ∃ A : ℝ → ℝ, (∀ x, HasDerivAt A (d.evaluate x) x) ∧
    (∀ xi direction t, CartesianDensity.integral axis p0 d xi direction t = if Vec3.dot axis direction = 0 then none else
      some ((A ((Axis.cartesian axis p0).x xi + t * Vec3.dot axis direction) - A ((Axis.cartesian axis p0).x xi)) / Vec3.dot axis direction)) ∧
    ∀ xi direction i max, CartesianDensity.inverse axis p0 d xi direction i max =
      CartesianDensity.search (fun x => (A x - A ((Axis.cartesian axis p0).x xi)) - i * Vec3.dot axis direction) d.evaluate
        ((Axis.cartesian axis p0).x xi) ((Axis.cartesian axis p0).x xi + max * Vec3.dot axis direction) (Vec3.dot axis direction) := by
  obtain ⟨A, hA, hA'⟩ := d.anti hd
  refine ⟨A, hA', ?_, ?_⟩
  · intro xi direction t
    unfold CartesianDensity.integral CartesianDensity.difference
    rw [hA, hA, axis_x]
    rfl
  · intro xi direction i max
    unfold CartesianDensity.inverse
    simp only [hA, Option.getD_some, axis_x]
    rfl

/-- The integral grows by at least the smallest density times the length. -/
theorem slope (A ρ : ℝ → ℝ) (hA : ∀ x, HasDerivAt A (ρ x) x) (a b m : ℝ) (hm : ∀ x ∈ Set.uIcc a b, m ≤ ρ x) :
    ∀ x ∈ Set.uIcc a b, ∀ y ∈ Set.uIcc a b, x ≤ y → m * (y - x) ≤ A y - A x := by
  refine Convex.mul_sub_le_image_sub_of_le_deriv (convex_uIcc a b) (fun x _ => (hA x).continuousAt.continuousWithinAt)
    (fun x _ => (hA x).differentiableAt.differentiableWithinAt) ?_
  intro x hx
  rw [(hA x).deriv]
  exact hm x (interior_subset hx)

theorem mem_stretch {a k max t : ℝ} (h0 : 0 ≤ t) (h1 : t ≤ max) : a + t * k ∈ Set.uIcc a (a + max * k) := by
  rw [Set.mem_uIcc]
  rcases le_total 0 k with hk | hk
  · left; constructor <;> nlinarith
  · right; constructor <;> nlinarith

theorem stretch_mem {a k max x : ℝ} (hk : k ≠ 0) (hmax : 0 ≤ max) (h : x ∈ Set.uIcc a (a + max * k)) : 0 ≤ (x - a) / k ∧ (x - a) / k ≤ max := by
  rw [Set.mem_uIcc] at h
  rcases lt_or_gt_of_ne hk with hk | hk
  · rw [div_nonneg_iff, div_le_iff_of_neg hk]
    rcases h with h | h
    · constructor
      · right; constructor <;> nlinarith
      · nlinarith
    · constructor
      · right; constructor <;> nlinarith
      · nlinarith
  · rw [div_nonneg_iff, div_le_iff₀ hk]
    rcases h with h | h
    · constructor
      · left; constructor <;> nlinarith
      · nlinarith
    · constructor
      · left; constructor <;> nlinarith
      · nlinarith

/-- **C52**: if the integral is reached within the maximal distance, `InverseIntegral` returns a distance between zero and the maximum, wherever the
density is positive on the stretch. -/
theorem C52_cartesian_found (hd : d.Regular) (xi direction : Vec3 ℝ) (hk : Vec3.dot axis direction ≠ 0) (t max i : ℝ) (ht0 : 0 ≤ t) (ht1 : t ≤ max)
    (hi : CartesianDensity.integral axis p0 d xi direction t = some i)
    (hρ : ∀ u, 0 ≤ u → u ≤ max → 0 < densityAt (.cartesian axis p0) d (xi + Vec3.smul u direction)) :
    ∃ x, CartesianDensity.inverse axis p0 d xi direction i max = some x ∧ 0 ≤ x ∧ x ≤ max := by
  obtain ⟨A, hA, hint, hinv⟩ := regular_integral axis p0 d hd
  rw [hint, if_neg hk, Option.some.injEq] at hi
  rw [hinv]
  simp only [densityAt, axis_x] at hρ
  change ∀ u, 0 ≤ u → u ≤ max → 0 < d.evaluate ((Axis.cartesian axis p0).x xi + u * Vec3.dot axis direction) at hρ
  generalize (Axis.cartesian axis p0).x xi = a at *
  generalize Vec3.dot axis direction = k at *
  have hmax : 0 ≤ max := ht0.trans ht1
  have hpos : ∀ x ∈ Set.uIcc a (a + max * k), 0 < d.evaluate x := by
    intro x hx
    obtain ⟨h0, h1⟩ := stretch_mem hk hmax hx
    have := hρ _ h0 h1
    rwa [div_mul_cancel₀ _ hk, add_sub_cancel] at this
  have hmono := slope A d.evaluate hA a (a + max * k) 0 (fun x hx => (hpos x hx).le)
  have hr := mem_stretch (a := a) (k := k) ht0 ht1
  have e : i * k = A (a + t * k) - A a := by rw [← hi]; field_simp
  unfold CartesianDensity.search
  have hsign : ((A a - A a) - i * k) * ((A (a + max * k) - A a) - i * k) ≤ 0 := by
    rw [e]
    have l := Set.left_mem_uIcc (a := a) (b := a + max * k)
    have l' := Set.right_mem_uIcc (a := a) (b := a + max * k)
    rcases le_total 0 k with h | h
    · have e1 := hmono _ l _ hr (by nlinarith)
      have e2 := hmono _ hr _ l' (by nlinarith)
      exact mul_nonpos_of_nonpos_of_nonneg (by linarith) (by linarith)
    · have e1 := hmono _ hr _ l (by nlinarith)
      have e2 := hmono _ l' _ hr (by nlinarith)
      exact mul_nonpos_of_nonneg_of_nonpos (by linarith) (by linarith)
  have hmid : (a + (a + max * k)) / 2 ∈ Set.uIcc a (a + max * k) := by
    have := mem_stretch (a := a) (k := k) (max := max) (t := max / 2) (by linarith) (by linarith)
    rwa [show a + max / 2 * k = (a + (a + max * k)) / 2 by ring] at this
  rcases Newton.C48_bracket (fun x => (A x - A a) - i * k) d.evaluate a (a + max * k) ((a + (a + max * k)) / 2) (1 / 1000000) 101 hsign
      (Or.inl hmid) with ⟨x, hx, hin⟩ | ⟨-, r, hr, -, h⟩
  · rw [hx]
    simp only [if_neg hk]
    exact ⟨_, rfl, stretch_mem hk hmax hin⟩
  · exfalso
    rcases hr with rfl | hr
    · exact absurd h (hpos _ hmid).ne'
    · exact absurd h (hpos _ hr).ne'

/-- **C52**: and if the density lies between `m > 0` and `M` on the stretch and the stretch is short (`2¹¹` times the accuracy of the search along the
axis, which is a micrometre if lengths are in metres) the distance is right within `(1 + M/m)` times this accuracy. -/
theorem C52_cartesian_accuracy (hd : d.Regular) (xi direction : Vec3 ℝ) (hk : Vec3.dot axis direction ≠ 0) (t max i m M : ℝ) (ht0 : 0 ≤ t) (ht1 : t ≤ max)
    (hi : CartesianDensity.integral axis p0 d xi direction t = some i) (hm : 0 < m)
    (hρ : ∀ u, 0 ≤ u → u ≤ max → m ≤ densityAt (.cartesian axis p0) d (xi + Vec3.smul u direction) ∧
      densityAt (.cartesian axis p0) d (xi + Vec3.smul u direction) ≤ M)
    (hshort : |max * Vec3.dot axis direction| ≤ 2 ^ 11 * (1 / 1000000)) :
    ∃ x, CartesianDensity.inverse axis p0 d xi direction i max = some x ∧ 0 ≤ x ∧ x ≤ max ∧
      |x - t| * |Vec3.dot axis direction| ≤ (1 + M / m) * (1 / 1000000) := by
  obtain ⟨A, hA, hint, hinv⟩ := regular_integral axis p0 d hd
  rw [hint, if_neg hk, Option.some.injEq] at hi
  rw [hinv]
  simp only [densityAt, axis_x] at hρ
  change ∀ u, 0 ≤ u → u ≤ max → m ≤ d.evaluate ((Axis.cartesian axis p0).x xi + u * Vec3.dot axis direction) ∧
    d.evaluate ((Axis.cartesian axis p0).x xi + u * Vec3.dot axis direction) ≤ M at hρ
  generalize (Axis.cartesian axis p0).x xi = a at *
  generalize Vec3.dot axis direction = k at *
  have hmax : 0 ≤ max := ht0.trans ht1
  have hpos : ∀ x ∈ Set.uIcc a (a + max * k), m ≤ d.evaluate x ∧ d.evaluate x ≤ M := by
    intro x hx
    obtain ⟨h0, h1⟩ := stretch_mem hk hmax hx
    have := hρ _ h0 h1
    rwa [div_mul_cancel₀ _ hk, add_sub_cancel] at this
  have hr := mem_stretch (a := a) (k := k) ht0 ht1
  have hmid : (a + (a + max * k)) / 2 ∈ Set.uIcc a (a + max * k) := by
    have := mem_stretch (a := a) (k := k) (max := max) (t := max / 2) (by linarith) (by linarith)
    rwa [show a + max / 2 * k = (a + (a + max * k)) / 2 by ring] at this
  have hslope := slope A d.evaluate hA a (a + max * k) m (fun x hx => (hpos x hx).1)
  obtain ⟨x, hx, hin, hacc⟩ := Newton.C48_accuracy (fun x => (A x - A a) - i * k) d.evaluate a (a + max * k) ((a + (a + max * k)) / 2) (1 / 1000000)
    101 11 (by norm_num) hmid m M (a + t * k) hm (fun x hx y hy h => by have := hslope x hx y hy h; linarith)
    (fun x hx => ⟨lt_of_lt_of_le hm (hpos x hx).1, (hpos x hx).2⟩) hr (by rw [← hi]; field_simp; ring) (by rwa [add_sub_cancel_left]) (by norm_num)
  unfold CartesianDensity.search
  rw [hx]
  simp only [if_neg hk]
  obtain ⟨h0, h1⟩ := stretch_mem hk hmax hin
  refine ⟨_, rfl, h0, h1, ?_⟩
  rw [← abs_mul]
  rwa [show ((x - a) / k - t) * k = x - (a + t * k) by field_simp; ring]

/-- **C52**: if the integral is not reached within the maximal distance, the result is minus one. -/
theorem C52_cartesian_not_found (hd : d.Regular) (xi direction : Vec3 ℝ) (hk : Vec3.dot axis direction ≠ 0) (max i : ℝ) (hmax : 0 ≤ max) (hi : 0 ≤ i)
    (hρ : ∀ u, 0 ≤ u → u ≤ max → 0 ≤ densityAt (.cartesian axis p0) d (xi + Vec3.smul u direction))
    (hno : ∀ t, 0 ≤ t → t ≤ max → CartesianDensity.integral axis p0 d xi direction t ≠ some i) :
    CartesianDensity.inverse axis p0 d xi direction i max = some (-1) := by
  obtain ⟨A, hA, hint, hinv⟩ := regular_integral axis p0 d hd
  simp only [hint, if_neg hk, ne_eq, Option.some.injEq] at hno
  rw [hinv]
  simp only [densityAt, axis_x] at hρ
  change ∀ u, 0 ≤ u → u ≤ max → 0 ≤ d.evaluate ((Axis.cartesian axis p0).x xi + u * Vec3.dot axis direction) at hρ
  generalize (Axis.cartesian axis p0).x xi = a at *
  generalize Vec3.dot axis direction = k at *
  have hpos : ∀ x ∈ Set.uIcc a (a + max * k), 0 ≤ d.evaluate x := by
    intro x hx
    obtain ⟨h0, h1⟩ := stretch_mem hk hmax hx
    have := hρ _ h0 h1
    rwa [div_mul_cancel₀ _ hk, add_sub_cancel] at this
  have hmono := slope A d.evaluate hA a (a + max * k) 0 hpos
  -- the integral over the whole stretch is less than the request
  have hall : (A (a + max * k) - A a) / k < i := by
    by_contra hc
    push Not at hc
    have hcont : ContinuousOn (fun t => (A (a + t * k) - A a) / k) (Set.Icc 0 max) := by
      have hAc : Continuous A := continuous_iff_continuousAt.mpr fun x => (hA x).continuousAt
      exact Continuous.continuousOn (((hAc.comp (by fun_prop)).sub continuous_const).div_const k)
    have := intermediate_value_Icc hmax hcont
    simp only [zero_mul, add_zero, sub_self, zero_div] at this
    obtain ⟨t, ht, he⟩ := this ⟨hi, hc⟩
    exact hno t ht.1 ht.2 he
  have hge : 0 ≤ (A (a + max * k) - A a) / k := by
    have l := Set.left_mem_uIcc (a := a) (b := a + max * k)
    have l' := Set.right_mem_uIcc (a := a) (b := a + max * k)
    rw [div_nonneg_iff]
    rcases le_total 0 k with h | h
    · exact Or.inl ⟨by have := hmono _ l _ l' (by nlinarith); linarith, h⟩
    · exact Or.inr ⟨by have := hmono _ l' _ l (by nlinarith); linarith, h⟩
  have hthrow := (Newton.C48_error (fun x => (A x - A a) - i * k) d.evaluate a (a + max * k) ((a + (a + max * k)) / 2) (1 / 1000000) 101).2 (by
    have hi' : 0 < i := lt_of_le_of_lt hge hall
    rcases lt_or_gt_of_ne hk with h | h
    · left
      rw [div_lt_iff_of_neg h] at hall
      constructor <;> nlinarith
    · right
      rw [div_lt_iff₀ h] at hall
      constructor <;> nlinarith)
  unfold CartesianDensity.search
  rw [hthrow]

/-- Water of density 1 along the axis, walking 3 from the point 5: the integral over 1 of the distance is 1, and the conditions hold. -/
example : CartesianDensity.integral ⟨1, 0, 0⟩ ⟨0, 0, 0⟩ (.polynomial [1]) ⟨5, 0, 0⟩ ⟨1, 0, 0⟩ 1 = some 1 ∧
    (∀ u, densityAt (.cartesian ⟨1, 0, 0⟩ ⟨0, 0, 0⟩) (.polynomial [1]) ((⟨5, 0, 0⟩ : Vec3 ℝ) + Vec3.smul u ⟨1, 0, 0⟩) = 1) := by
  constructor
  · norm_num [CartesianDensity.integral, CartesianDensity.difference, Dist1D.antiderivative, Polynom.antiderivative, Polynom.evaluate,
      Polynom.horner, Axis.x, Axis.dx, Vec3.dot]
  · intro u
    simp [densityAt, Dist1D.evaluate, Polynom.evaluate, Polynom.horner]

/-- With an added constant the version for Cartesian axes is wrong away from the origin of the axis: here the density is 1 and the constant 1, so that the
integral 2 is reached at the distance 1, but the result is minus one. -/
theorem C52_added_constant_fails :
    CartesianDensity.inverseC ⟨1, 0, 0⟩ ⟨0, 0, 0⟩ (.polynomial [1]) ⟨5, 0, 0⟩ ⟨1, 0, 0⟩ 1 2 10 = some (-1) ∧
      CartesianDensity.integral ⟨1, 0, 0⟩ ⟨0, 0, 0⟩ (.polynomial [1]) ⟨5, 0, 0⟩ ⟨1, 0, 0⟩ 1 = some (2 - 1 * 1) := by
  constructor
  · unfold CartesianDensity.inverseC CartesianDensity.search
    simp only [Dist1D.antiderivative]
    rw [(Newton.C48_error _ _ _ _ _ _ _).2]
    left
    norm_num [Polynom.antiderivative, Polynom.evaluate, Polynom.horner, Axis.x, Axis.dx, Vec3.dot]
  · norm_num [CartesianDensity.integral, CartesianDensity.difference, Dist1D.antiderivative, Polynom.antiderivative, Polynom.evaluate,
      Polynom.horner, Axis.x, Axis.dx, Vec3.dot]

end Siren.Detector
