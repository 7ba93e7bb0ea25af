import Verif.Math.EulerModel
import Verif.Math.QuatProps
import Mathlib.Tactic.FinCases

set_option autoImplicit false

/-!
# C117: Euler angles
-/

namespace Siren.Euler

open Siren.Geometry.Phi (atan2)

/-! ### Specification -/

/-- A coordinate axis. -/
inductive Axis
  | X | Y | Z
  deriving DecidableEq, Repr

/-- The rotation by `t` about a coordinate axis (right-handed). -/
noncomputable def turn (a : Axis) (t : ℝ) (v : Vec3 ℝ) : Vec3 ℝ :=
  match a with
  | .X => ⟨v.x, Real.cos t * v.y - Real.sin t * v.z, Real.sin t * v.y + Real.cos t * v.z⟩
  | .Y => ⟨Real.cos t * v.x + Real.sin t * v.z, v.y, -Real.sin t * v.x + Real.cos t * v.z⟩
  | .Z => ⟨Real.cos t * v.x - Real.sin t * v.y, Real.sin t * v.x + Real.cos t * v.y, v.z⟩

/-- The letters of the name of an order. -/
def letters : Order → Axis × Axis × Axis
  | .XYZs => (.X, .Y, .Z) | .XYXs => (.X, .Y, .X) | .XZYs => (.X, .Z, .Y) | .XZXs => (.X, .Z, .X)
  | .YZXs => (.Y, .Z, .X) | .YZYs => (.Y, .Z, .Y) | .YXZs => (.Y, .X, .Z) | .YXYs => (.Y, .X, .Y)
  | .ZXYs => (.Z, .X, .Y) | .ZXZs => (.Z, .X, .Z) | .ZYXs => (.Z, .Y, .X) | .ZYZs => (.Z, .Y, .Z)
  | .ZYXr => (.Z, .Y, .X) | .XYXr => (.X, .Y, .X) | .YZXr => (.Y, .Z, .X) | .XZXr => (.X, .Z, .X)
  | .XZYr => (.X, .Z, .Y) | .YZYr => (.Y, .Z, .Y) | .ZXYr => (.Z, .X, .Y) | .YXYr => (.Y, .X, .Y)
  | .YXZr => (.Y, .X, .Z) | .ZXZr => (.Z, .X, .Z) | .XYZr => (.X, .Y, .Z) | .ZYZr => (.Z, .Y, .Z)

/-- Whether the name of an order ends in `r`. -/
def nameR : Order → Bool
  | .XYZs | .XYXs | .XZYs | .XZXs | .YZXs | .YZYs | .YXZs | .YXYs | .ZXYs | .ZXZs | .ZYXs | .ZYZs => false
  | _ => true

/-- The rotation that Euler angles stand for: about the axes of the letters, one after the other; about the fixed axes
(`s`), or about the axes that are carried along by the rotations already made (`r`), which amounts to the same turns in the
opposite order. -/
noncomputable def rotation (o : Order) (e : Angles) (v : Vec3 ℝ) : Vec3 ℝ :=
  let (a, b, c) := letters o
  if nameR o then turn a e.alpha (turn b e.beta (turn c e.gamma v))
  else turn c e.gamma (turn b e.beta (turn a e.alpha v))

/-! ### From angles to quaternions -/

/-- The quaternion of the rotation about an axis. -/
noncomputable def axisQuat (a : Axis) (t : ℝ) : Quat :=
  match a with
  | .X => ⟨Real.sin (t / 2), 0, 0, Real.cos (t / 2)⟩
  | .Y => ⟨0, Real.sin (t / 2), 0, Real.cos (t / 2)⟩
  | .Z => ⟨0, 0, Real.sin (t / 2), Real.cos (t / 2)⟩

theorem axisQuat_sandwich (a : Axis) (t : ℝ) (v : Vec3 ℝ) : (axisQuat a t).sandwich v = turn a t v := by
  have hc : Real.cos t = Real.cos (t / 2) ^ 2 - Real.sin (t / 2) ^ 2 := by
    rw [show t = 2 * (t / 2) by ring, Real.cos_two_mul', show 2 * (t / 2) / 2 = t / 2 by ring]
  have hs : Real.sin t = 2 * Real.sin (t / 2) * Real.cos (t / 2) := by
    rw [show t = 2 * (t / 2) by ring, Real.sin_two_mul, show 2 * (t / 2) / 2 = t / 2 by ring]
  have h1 := Real.sin_sq_add_cos_sq (t / 2)
  cases a
  all_goals
    ext
    all_goals simp only [axisQuat, turn, Quat.sandwich, hc, hs]
  · linear_combination v.x * h1
  · ring
  · ring
  · ring
  · linear_combination v.y * h1
  · ring
  · ring
  · ring
  · linear_combination v.z * h1

theorem axisQuat_unit (a : Axis) (t : ℝ) : (axisQuat a t).IsUnit := by
  have h1 := Real.sin_sq_add_cos_sq (t / 2)
  cases a
  all_goals
    simp only [axisQuat, Quat.IsUnit, Quat.normSq]
    linear_combination h1

/-- The conversion yields the product of the three rotations. -/
theorem toQuat_eq (o : Order) (e : Angles) :
    toQuat o e =
      if nameR o then (axisQuat (letters o).1 e.alpha).mul
        ((axisQuat (letters o).2.1 e.beta).mul (axisQuat (letters o).2.2 e.gamma))
      else (axisQuat (letters o).2.2 e.gamma).mul
        ((axisQuat (letters o).2.1 e.beta).mul (axisQuat (letters o).1 e.alpha)) := by
  have ha : e.alpha * 0.5 = e.alpha / 2 := by ring
  have hb : e.beta * 0.5 = e.beta / 2 := by ring
  have hg : e.gamma * 0.5 = e.gamma / 2 := by ring
  cases o
  all_goals
    simp [toQuat, Order.i, Order.j, Order.k, Order.odd, Order.rotating, Order.repeats, Order.code, pack, safe, next,
      Function.update, nameR, letters, axisQuat, Quat.mul, ha, hb, hg]
    try refine ⟨?_, ?_, ?_, ?_⟩
    all_goals ring

theorem toQuat_unit (o : Order) (e : Angles) : (toQuat o e).IsUnit := by
  rw [toQuat_eq]
  split
  · exact (axisQuat_unit _ _).mul ((axisQuat_unit _ _).mul (axisQuat_unit _ _))
  · exact (axisQuat_unit _ _).mul ((axisQuat_unit _ _).mul (axisQuat_unit _ _))

theorem toQuat_sandwich (o : Order) (e : Angles) (v : Vec3 ℝ) : (toQuat o e).sandwich v = rotation o e v := by
  rw [toQuat_eq]
  unfold rotation
  split <;> simp only [Quat.sandwich_mul, axisQuat_sandwich]

/-- C117: for every order and all angles, `QuaternionFromEulerAngles` gives a quaternion of length one which turns every
vector by the first, second and third angle about the axes in the name of the order. -/
theorem C117_quaternion (o : Order) (e : Angles) :
    (toQuat o e).IsUnit ∧ ∀ v, (toQuat o e).rotate v false = rotation o e v := by
  refine ⟨toQuat_unit o e, fun v => ?_⟩
  rw [Quat.rotate_unit (toQuat_unit o e)]
  exact toQuat_sandwich o e v

/-- C117: `QFromZXZr`, used for the rotations in detector files, is the conversion for the order `ZXZr`. -/
theorem C117_zxz (a b g : ℝ) : qFromZXZr a b g = toQuat .ZXZr ⟨a, b, g⟩ := by
  simp only [qFromZXZr, Real.cos_sub, Real.sin_sub, Real.cos_add, Real.sin_add]
  simp [toQuat, Order.i, Order.j, Order.k, Order.odd, Order.rotating, Order.repeats, Order.code, pack, safe, next,
      Function.update]
  refine ⟨?_, ?_, ?_, ?_⟩
  all_goals
    left
    ring

/-- C117: `QFromXYZs`, used for the rotations in GDML files, is the conversion for the order `XYZs`. -/
theorem C117_xyz (a b g : ℝ) : qFromXYZs a b g = toQuat .XYZs ⟨a, b, g⟩ := by
  simp only [qFromXYZs]
  simp [toQuat, Order.i, Order.j, Order.k, Order.odd, Order.rotating, Order.repeats, Order.code, pack, safe, next,
      Function.update]
  ring

/-- C117: for the orders about fixed axes, `Matrix3DFromEulerAngles` is the matrix of the same rotation. -/
theorem C117_matrix (o : Order) (ho : nameR o = false) (e : Angles) (v : Vec3 ℝ) :
    (toMatrix o e).apply v = rotation o e v := by
  cases o
  all_goals first | (exfalso; revert ho; decide) | skip
  all_goals
    simp [toMatrix, Order.i, Order.j, Order.k, Order.odd, Order.rotating, Order.repeats, Order.code, pack, safe, next,
      Function.update, rotation, nameR, letters, turn, Mat3.apply]
    try refine ⟨?_, ?_, ?_⟩
    all_goals ring

/-! ### From matrices to angles -/

theorem cos_atan2 {x y r : ℝ} (hr : 0 < r) (h : x * x + y * y = r * r) : Real.cos (atan2 y x) = x / r := by
  have hn : ‖(⟨x, y⟩ : ℂ)‖ = r := by
    rw [Complex.norm_def, Complex.normSq_mk, h]; exact Real.sqrt_mul_self hr.le
  have h0 : (⟨x, y⟩ : ℂ) ≠ 0 := by intro hc; rw [hc, norm_zero] at hn; exact hr.ne hn
  unfold Siren.Geometry.Phi.atan2
  rw [Complex.cos_arg h0, hn]

theorem sin_atan2 {x y r : ℝ} (hr : 0 < r) (h : x * x + y * y = r * r) : Real.sin (atan2 y x) = y / r := by
  have hn : ‖(⟨x, y⟩ : ℂ)‖ = r := by
    rw [Complex.norm_def, Complex.normSq_mk, h]; exact Real.sqrt_mul_self hr.le
  unfold Siren.Geometry.Phi.atan2
  rw [Complex.sin_arg, hn]

/-- What is used about the matrix of a rotation. -/
structure IsRot (m : Mat3) : Prop where
  rx : m.xx * m.xx + m.xy * m.xy + m.xz * m.xz = 1
  ry : m.yx * m.yx + m.yy * m.yy + m.yz * m.yz = 1
  rz : m.zx * m.zx + m.zy * m.zy + m.zz * m.zz = 1
  cx : m.xx * m.xx + m.yx * m.yx + m.zx * m.zx = 1
  rxy : m.xx * m.yx + m.xy * m.yy + m.xz * m.yz = 0
  rxz : m.xx * m.zx + m.xy * m.zy + m.xz * m.zz = 0
  cxy : m.xx * m.xy + m.yx * m.yy + m.zx * m.zy = 0
  cxz : m.xx * m.xz + m.yx * m.yz + m.zx * m.zz = 0
  fxy : m.xy = m.yz * m.zx - m.yx * m.zz
  fxz : m.xz = m.yx * m.zy - m.yy * m.zx
  fyx : m.yx = m.zy * m.xz - m.zz * m.xy
  fzx : m.zx = m.xy * m.yz - m.xz * m.yy
  fzy : m.zy = m.xz * m.yx - m.xx * m.yz
  fzz : m.zz = m.xx * m.yy - m.xy * m.yx

theorem isRot {q : Quat} (h : q.IsUnit) : IsRot q.matrix := by
  obtain ⟨x, y, z, w⟩ := q
  unfold Quat.IsUnit Quat.normSq at h
  simp only at h
  have hom : Quat.matrix ⟨x, y, z, w⟩ =
      { xx := w * w + x * x - y * y - z * z, xy := 2 * x * y - 2 * z * w, xz := 2 * x * z + 2 * y * w
        yx := 2 * x * y + 2 * z * w, yy := w * w - x * x + y * y - z * z, yz := 2 * z * y - 2 * x * w
        zx := 2 * x * z - 2 * y * w, zy := 2 * z * y + 2 * x * w, zz := w * w - x * x - y * y + z * z } := by
    ext <;> simp only [Quat.matrix]
    · linear_combination -h
    · linear_combination -h
    · linear_combination -h
  rw [hom]
  have h2 : (w * w + x * x + y * y + z * z) * (w * w + x * x + y * y + z * z) = 1 := by rw [h]; ring
  constructor
  all_goals simp only
  · linear_combination h2
  · linear_combination h2
  · linear_combination h2
  · linear_combination h2
  · ring
  · ring
  · ring
  · ring
  · linear_combination -(2 * x * y - 2 * z * w) * h
  · linear_combination -(2 * x * z + 2 * y * w) * h
  · linear_combination -(2 * x * y + 2 * z * w) * h
  · linear_combination -(2 * x * z - 2 * y * w) * h
  · linear_combination -(2 * z * y + 2 * x * w) * h
  · linear_combination -(w * w - x * x - y * y + z * z) * h

/-- All entries of two matrices differ by at most `d`. -/
structure Close (a b : Mat3) (d : ℝ) : Prop where
  xx : |a.xx - b.xx| ≤ d
  xy : |a.xy - b.xy| ≤ d
  xz : |a.xz - b.xz| ≤ d
  yx : |a.yx - b.yx| ≤ d
  yy : |a.yy - b.yy| ≤ d
  yz : |a.yz - b.yz| ≤ d
  zx : |a.zx - b.zx| ≤ d
  zy : |a.zy - b.zy| ≤ d
  zz : |a.zz - b.zz| ≤ d

theorem toMatrix_xyz (e : Angles) : toMatrix .XYZs e =
    { xx := Real.cos e.beta * Real.cos e.gamma
      xy := Real.sin e.beta * (Real.sin e.alpha * Real.cos e.gamma) - Real.cos e.alpha * Real.sin e.gamma
      xz := Real.sin e.beta * (Real.cos e.alpha * Real.cos e.gamma) + Real.sin e.alpha * Real.sin e.gamma
      yx := Real.cos e.beta * Real.sin e.gamma
      yy := Real.sin e.beta * (Real.sin e.alpha * Real.sin e.gamma) + Real.cos e.alpha * Real.cos e.gamma
      yz := Real.sin e.beta * (Real.cos e.alpha * Real.sin e.gamma) - Real.sin e.alpha * Real.cos e.gamma
      zx := -Real.sin e.beta
      zy := Real.cos e.beta * Real.sin e.alpha
      zz := Real.cos e.beta * Real.cos e.alpha } := by
  simp [toMatrix, Order.i, Order.j, Order.k, Order.odd, Order.rotating, Order.repeats, Order.code, pack, safe, next,
      Function.update]

theorem toMatrix_xyx (e : Angles) : toMatrix .XYXs e =
    { xx := Real.cos e.beta
      xy := Real.sin e.beta * Real.sin e.alpha
      xz := Real.sin e.beta * Real.cos e.alpha
      yx := Real.sin e.beta * Real.sin e.gamma
      yy := -Real.cos e.beta * (Real.sin e.alpha * Real.sin e.gamma) + Real.cos e.alpha * Real.cos e.gamma
      yz := -Real.cos e.beta * (Real.cos e.alpha * Real.sin e.gamma) - Real.sin e.alpha * Real.cos e.gamma
      zx := -Real.sin e.beta * Real.cos e.gamma
      zy := Real.cos e.beta * (Real.sin e.alpha * Real.cos e.gamma) + Real.cos e.alpha * Real.sin e.gamma
      zz := Real.cos e.beta * (Real.cos e.alpha * Real.cos e.gamma) - Real.sin e.alpha * Real.sin e.gamma } := by
  simp [toMatrix, Order.i, Order.j, Order.k, Order.odd, Order.rotating, Order.repeats, Order.code, pack, safe, next,
      Function.update]

theorem ofMatrix_xyz (m : Mat3) : ofMatrix m .XYZs =
    (let cy := Real.sqrt (m.xx * m.xx + m.yx * m.yx)
     if cy > tiny then ⟨atan2 m.zy m.zz, atan2 (-m.zx) cy, atan2 m.yx m.xx⟩
     else ⟨atan2 (-m.yz) m.yy, atan2 (-m.zx) cy, 0⟩) := by
  simp [ofMatrix, Order.i, Order.j, Order.k, Order.odd, Order.rotating, Order.repeats, Order.code, pack, safe, next, at_]

theorem ofMatrix_xyx (m : Mat3) : ofMatrix m .XYXs =
    (let sy := Real.sqrt (m.xy * m.xy + m.xz * m.xz)
     if sy > tiny then ⟨atan2 m.xy m.xz, atan2 sy m.xx, atan2 m.yx (-m.zx)⟩
     else ⟨atan2 (-m.yz) m.yy, atan2 sy m.xx, 0⟩) := by
  simp [ofMatrix, Order.i, Order.j, Order.k, Order.odd, Order.rotating, Order.repeats, Order.code, pack, safe, next, at_]

theorem tiny_pos : 0 < tiny := by unfold tiny; positivity

theorem tiny_lt : tiny < 1 / 2 := by unfold tiny; norm_num

/-- Dividing by the length of a vector which is almost one. -/
theorem near_one {a b r c : ℝ} (hr : 0 < r) (hab : a * a + b * b = r * r) (hc : 1 - r * r ≤ c * c) (hr1 : r ≤ 1) : |a / r - a| ≤ c * c := by
  have ha : |a| ≤ r := by
    apply abs_le_of_sq_le_sq _ hr.le
    nlinarith [mul_self_nonneg b]
  have e : a / r - a = a * ((1 - r) / r) := by field_simp
  rw [e, abs_mul, abs_of_nonneg (div_nonneg (by linarith) hr.le)]
  calc |a| * ((1 - r) / r) ≤ r * ((1 - r) / r) := mul_le_mul_of_nonneg_right ha (div_nonneg (by linarith) hr.le)
    _ = 1 - r := by field_simp
    _ ≤ c * c := by nlinarith

theorem le_of_sq {a c : ℝ} (h0 : 0 ≤ c) (h : a * a ≤ c * c) : |a| ≤ c := by
  apply abs_le_of_sq_le_sq _ h0
  nlinarith

/-- The first base case. -/
theorem base_xyz {m : Mat3} (h : IsRot m) {c : ℝ} (hc : c = Real.sqrt (m.xx * m.xx + m.yx * m.yx)) :
    Real.cos (ofMatrix m .XYZs).beta = c ∧
      (c > tiny → toMatrix .XYZs (ofMatrix m .XYZs) = m) ∧
      (¬ c > tiny → Close (toMatrix .XYZs (ofMatrix m .XYZs)) m (2 * c)) := by
  have hc0 : 0 ≤ c := hc ▸ Real.sqrt_nonneg _
  have hcc : m.xx * m.xx + m.yx * m.yx = c * c := by
    rw [hc]; exact (Real.mul_self_sqrt (by nlinarith [mul_self_nonneg m.xx, mul_self_nonneg m.yx])).symm
  have hu : c * c + -m.zx * -m.zx = 1 * 1 := by rw [← hcc]; linarith [h.cx]
  have cb : Real.cos (atan2 (-m.zx) c) = c := by rw [cos_atan2 one_pos hu, div_one]
  have sb : Real.sin (atan2 (-m.zx) c) = -m.zx := by rw [sin_atan2 one_pos hu, div_one]
  have hz : m.zz * m.zz + m.zy * m.zy = c * c := by linarith [h.rz, h.cx]
  rw [ofMatrix_xyz]
  simp only [← hc]
  refine ⟨?_, ?_, ?_⟩
  · split <;> exact cb
  · intro hct
    have hc1 : 0 < c := tiny_pos.trans hct
    have hcn : c ≠ 0 := hc1.ne'
    have key : ∀ a d b : ℝ, c * c * a = d → b = d / (c * c) → b = a := by
      intro a d b h1 h2
      rw [h2, ← h1, mul_comm, mul_div_assoc, div_self (mul_ne_zero hcn hcn), mul_one]
    rw [if_pos hct, toMatrix_xyz]
    simp only [cb, sb, cos_atan2 hc1 hz, sin_atan2 hc1 hz, cos_atan2 hc1 hcc, sin_atan2 hc1 hcc]
    ext
    all_goals simp only
    · field_simp
    · refine key _ (-m.zx * m.zy * m.xx - m.zz * m.yx) _ ?_ (by field_simp)
      linear_combination m.xx * h.cxy + m.yx * h.fzz - m.xy * hcc
    · refine key _ (-m.zx * m.zz * m.xx + m.zy * m.yx) _ ?_ (by field_simp)
      linear_combination m.xx * h.cxz - m.yx * h.fzy - m.xz * hcc
    · field_simp
    · refine key _ (-m.zx * m.zy * m.yx + m.zz * m.xx) _ ?_ (by field_simp)
      linear_combination m.yx * h.cxy - m.xx * h.fzz - m.yy * hcc
    · refine key _ (-m.zx * m.zz * m.yx - m.zy * m.xx) _ ?_ (by field_simp)
      linear_combination m.yx * h.cxz + m.xx * h.fzy - m.yz * hcc
    · ring
    · field_simp
    · field_simp
  · intro hct
    have hct : c ≤ tiny := not_lt.mp hct
    have hch : c < 1 / 2 := hct.trans_lt tiny_lt
    have hyx : |m.yx| ≤ c := le_of_sq hc0 (by nlinarith [mul_self_nonneg m.xx])
    have hxx : |m.xx| ≤ c := le_of_sq hc0 (by nlinarith [mul_self_nonneg m.yx])
    have hzy : |m.zy| ≤ c := le_of_sq hc0 (by nlinarith [mul_self_nonneg m.zz])
    have hzz : |m.zz| ≤ c := le_of_sq hc0 (by nlinarith [mul_self_nonneg m.zy])
    have hzx : |m.zx| ≤ 1 := le_of_sq zero_le_one (by nlinarith [mul_self_nonneg m.zy, mul_self_nonneg m.zz, h.rz])
    obtain ⟨r, hr, hrr, hr1⟩ : ∃ r : ℝ, 0 < r ∧ m.yy * m.yy + -m.yz * -m.yz = r * r ∧ r ≤ 1 := by
      have hp : 0 < m.yy * m.yy + -m.yz * -m.yz := by nlinarith [h.ry, mul_self_nonneg m.xx]
      refine ⟨_, Real.sqrt_pos.mpr hp, (Real.mul_self_sqrt hp.le).symm, ?_⟩
      exact Real.sqrt_le_iff.mpr ⟨zero_le_one, by nlinarith [h.ry, mul_self_nonneg m.yx]⟩
    have hrc : 1 - r * r ≤ c * c := by rw [← hrr]; nlinarith [h.ry, mul_self_nonneg m.xx]
    have hc2 : c * c ≤ c := by nlinarith
    have ny : |m.yy / r - m.yy| ≤ c * c := near_one hr hrr hrc hr1
    have nz : |m.yz / r - m.yz| ≤ c * c := near_one hr (b := m.yy) (by linarith) hrc hr1
    have oy : |m.yy / r| ≤ 1 := by
      rw [abs_div, abs_of_pos hr, div_le_one hr]
      exact le_of_sq hr.le (by nlinarith [mul_self_nonneg m.yz])
    have oz : |m.yz / r| ≤ 1 := by
      rw [abs_div, abs_of_pos hr, div_le_one hr]
      exact le_of_sq hr.le (by nlinarith [mul_self_nonneg m.yy])
    have prod : ∀ a b s t : ℝ, |a| ≤ s → |b| ≤ t → |a * b| ≤ s * t := by
      intro a b s t ha hb
      rw [abs_mul]; exact mul_le_mul ha hb (abs_nonneg _) ((abs_nonneg _).trans ha)
    have hnt : ¬ c > tiny := not_lt.mpr hct
    rw [if_neg hnt, toMatrix_xyz]
    simp only [cb, sb, cos_atan2 hr hrr, sin_atan2 hr hrr, Real.cos_zero, Real.sin_zero]
    rw [abs_le] at hyx hxx hzy hzz ny nz
    constructor
    all_goals simp only
    · rw [abs_le]; constructor <;> linarith
    · have e : -m.zx * (-m.yz / r * 1) - m.yy / r * 0 - m.xy = m.zx * (m.yz / r - m.yz) + m.yx * m.zz := by
        linear_combination -h.fxy
      rw [e]
      have h1 := prod m.zx (m.yz / r - m.yz) 1 (c * c) hzx (abs_le.mpr nz)
      have h2 := prod m.yx m.zz c c (abs_le.mpr hyx) (abs_le.mpr hzz)
      exact (abs_add_le _ _).trans (by linarith)
    · have e : -m.zx * (m.yy / r * 1) + -m.yz / r * 0 - m.xz = -(m.zx * (m.yy / r - m.yy) + m.yx * m.zy) := by
        linear_combination -h.fxz
      rw [e, abs_neg]
      have h1 := prod m.zx (m.yy / r - m.yy) 1 (c * c) hzx (abs_le.mpr ny)
      have h2 := prod m.yx m.zy c c (abs_le.mpr hyx) (abs_le.mpr hzy)
      exact (abs_add_le _ _).trans (by linarith)
    · rw [abs_le]; constructor <;> linarith
    · rw [abs_le]; constructor <;> linarith
    · have e : -m.zx * (m.yy / r * 0) - -m.yz / r * 1 - m.yz = m.yz / r - m.yz := by ring
      rw [e, abs_le]; constructor <;> linarith
    · simp; exact hc0
    · have h1 := prod c (m.yz / r) c 1 (by rw [abs_of_nonneg hc0]) oz
      rw [abs_le] at h1
      have e : c * (-m.yz / r) - m.zy = -(c * (m.yz / r)) - m.zy := by ring
      rw [e, abs_le]; constructor <;> linarith
    · have h1 := prod c (m.yy / r) c 1 (by rw [abs_of_nonneg hc0]) oy
      rw [abs_le] at h1 ⊢
      constructor <;> linarith

/-- The second base case. -/
theorem base_xyx {m : Mat3} (h : IsRot m) {c : ℝ} (hc : c = Real.sqrt (m.xy * m.xy + m.xz * m.xz)) :
    Real.sin (ofMatrix m .XYXs).beta = c ∧
      (c > tiny → toMatrix .XYXs (ofMatrix m .XYXs) = m) ∧
      (¬ c > tiny → Close (toMatrix .XYXs (ofMatrix m .XYXs)) m (2 * c)) := by
  have hc0 : 0 ≤ c := hc ▸ Real.sqrt_nonneg _
  have hcc : m.xy * m.xy + m.xz * m.xz = c * c := by
    rw [hc]; exact (Real.mul_self_sqrt (by nlinarith [mul_self_nonneg m.xy, mul_self_nonneg m.xz])).symm
  have hu : m.xx * m.xx + c * c = 1 * 1 := by rw [← hcc]; linarith [h.rx]
  have cb : Real.cos (atan2 c m.xx) = m.xx := by rw [cos_atan2 one_pos hu, div_one]
  have sb : Real.sin (atan2 c m.xx) = c := by rw [sin_atan2 one_pos hu, div_one]
  have hy : m.xz * m.xz + m.xy * m.xy = c * c := by linarith
  have hz : -m.zx * -m.zx + m.yx * m.yx = c * c := by linarith [h.rx, h.cx]
  rw [ofMatrix_xyx]
  simp only [← hc]
  refine ⟨?_, ?_, ?_⟩
  · split <;> exact sb
  · intro hct
    have hc1 : 0 < c := tiny_pos.trans hct
    have hcn : c ≠ 0 := hc1.ne'
    have key : ∀ a d b : ℝ, c * c * a = d → b = d / (c * c) → b = a := by
      intro a d b h1 h2
      rw [h2, ← h1, mul_comm, mul_div_assoc, div_self (mul_ne_zero hcn hcn), mul_one]
    rw [if_pos hct, toMatrix_xyx]
    simp only [cb, sb, cos_atan2 hc1 hz, sin_atan2 hc1 hz, cos_atan2 hc1 hy, sin_atan2 hc1 hy]
    ext
    all_goals simp only
    · field_simp
    · field_simp
    · field_simp
    · refine key _ (-m.xx * m.xy * m.yx - m.xz * m.zx) _ ?_ (by field_simp; ring)
      linear_combination m.xy * h.rxy + m.xz * h.fzx - m.yy * hcc
    · refine key _ (-m.xx * m.xz * m.yx + m.xy * m.zx) _ ?_ (by field_simp; ring)
      linear_combination m.xz * h.rxy - m.xy * h.fzx - m.yz * hcc
    · field_simp
    · refine key _ (-m.xx * m.xy * m.zx + m.xz * m.yx) _ ?_ (by field_simp)
      linear_combination m.xy * h.rxz - m.xz * h.fyx - m.zy * hcc
    · refine key _ (-m.xx * m.xz * m.zx - m.xy * m.yx) _ ?_ (by field_simp)
      linear_combination m.xz * h.rxz + m.xy * h.fyx - m.zz * hcc
  · intro hct
    have hct : c ≤ tiny := not_lt.mp hct
    have hch : c < 1 / 2 := hct.trans_lt tiny_lt
    have hyx : |m.yx| ≤ c := le_of_sq hc0 (by nlinarith [mul_self_nonneg m.zx])
    have hzx : |m.zx| ≤ c := le_of_sq hc0 (by nlinarith [mul_self_nonneg m.yx])
    have hxy : |m.xy| ≤ c := le_of_sq hc0 (by nlinarith [mul_self_nonneg m.xz])
    have hxz : |m.xz| ≤ c := le_of_sq hc0 (by nlinarith [mul_self_nonneg m.xy])
    have hxx : |m.xx| ≤ 1 := le_of_sq zero_le_one (by nlinarith [mul_self_nonneg m.xy, mul_self_nonneg m.xz, h.rx])
    obtain ⟨r, hr, hrr, hr1⟩ : ∃ r : ℝ, 0 < r ∧ m.yy * m.yy + -m.yz * -m.yz = r * r ∧ r ≤ 1 := by
      have hp : 0 < m.yy * m.yy + -m.yz * -m.yz := by nlinarith [h.ry, mul_self_nonneg m.zx]
      refine ⟨_, Real.sqrt_pos.mpr hp, (Real.mul_self_sqrt hp.le).symm, ?_⟩
      exact Real.sqrt_le_iff.mpr ⟨zero_le_one, by nlinarith [h.ry, mul_self_nonneg m.yx]⟩
    have hrc : 1 - r * r ≤ c * c := by rw [← hrr]; nlinarith [h.ry, mul_self_nonneg m.zx]
    have hc2 : c * c ≤ c := by nlinarith
    have ny : |m.yy / r - m.yy| ≤ c * c := near_one hr hrr hrc hr1
    have nz : |m.yz / r - m.yz| ≤ c * c := near_one hr (b := m.yy) (by linarith) hrc hr1
    have oy : |m.yy / r| ≤ 1 := by
      rw [abs_div, abs_of_pos hr, div_le_one hr]
      exact le_of_sq hr.le (by nlinarith [mul_self_nonneg m.yz])
    have oz : |m.yz / r| ≤ 1 := by
      rw [abs_div, abs_of_pos hr, div_le_one hr]
      exact le_of_sq hr.le (by nlinarith [mul_self_nonneg m.yy])
    have prod : ∀ a b s t : ℝ, |a| ≤ s → |b| ≤ t → |a * b| ≤ s * t := by
      intro a b s t ha hb
      rw [abs_mul]; exact mul_le_mul ha hb (abs_nonneg _) ((abs_nonneg _).trans ha)
    have hnt : ¬ c > tiny := not_lt.mpr hct
    rw [if_neg hnt, toMatrix_xyx]
    simp only [cb, sb, cos_atan2 hr hrr, sin_atan2 hr hrr, Real.cos_zero, Real.sin_zero]
    rw [abs_le] at hyx hzx hxy hxz ny nz
    constructor
    all_goals simp only
    · simp; exact hc0
    · have h1 := prod c (m.yz / r) c 1 (by rw [abs_of_nonneg hc0]) oz
      rw [abs_le] at h1
      have e : c * (-m.yz / r) - m.xy = -(c * (m.yz / r)) - m.xy := by ring
      rw [e, abs_le]; constructor <;> linarith
    · have h1 := prod c (m.yy / r) c 1 (by rw [abs_of_nonneg hc0]) oy
      rw [abs_le] at h1 ⊢
      constructor <;> linarith
    · rw [abs_le]; constructor <;> linarith
    · rw [abs_le]; constructor <;> linarith
    · have e : -m.xx * (m.yy / r * 0) - -m.yz / r * 1 - m.yz = m.yz / r - m.yz := by ring
      rw [e, abs_le]; constructor <;> linarith
    · rw [abs_le]; constructor <;> linarith
    · have e : m.xx * (-m.yz / r * 1) + m.yy / r * 0 - m.zy = -(m.xx * (m.yz / r - m.yz) + m.xz * m.yx) := by
        linear_combination -h.fzy
      rw [e, abs_neg]
      have h1 := prod m.xx (m.yz / r - m.yz) 1 (c * c) hxx (abs_le.mpr nz)
      have h2 := prod m.xz m.yx c c (abs_le.mpr hxz) (abs_le.mpr hyx)
      exact (abs_add_le _ _).trans (by linarith)
    · have e : m.xx * (m.yy / r * 1) - -m.yz / r * 0 - m.zz = m.xx * (m.yy / r - m.yy) + m.xy * m.yx := by
        linear_combination -h.fzz
      rw [e]
      have h1 := prod m.xx (m.yy / r - m.yy) 1 (c * c) hxx (abs_le.mpr ny)
      have h2 := prod m.xy m.yx c c (abs_le.mpr hxy) (abs_le.mpr hyx)
      exact (abs_add_le _ _).trans (by linarith)

/-! ### All orders -/

/-- The order `XYZs` or `XYXs` to which an order reduces by renaming the axes. -/
def base (o : Order) : Order := if o.repeats then .XYXs else .XYZs

/-- The angles after the changes for rotating axes and odd parity. -/
def norm (o : Order) (e : Angles) : Angles :=
  let e : Angles := if o.rotating then ⟨e.gamma, e.beta, e.alpha⟩ else e
  if o.odd then ⟨-e.alpha, -e.beta, -e.gamma⟩ else e

/-- The components with renamed axes. -/
def pq (o : Order) (q : Quat) : Quat :=
  let f : Fin 4 → ℝ := fun n => match n with | 0 => q.x | 1 => q.y | 2 => q.z | 3 => q.w
  if o.odd then ⟨-f o.i, -f o.j, -f o.k, q.w⟩ else ⟨f o.i, f o.j, f o.k, q.w⟩

/-- The matrix with renamed axes. -/
def pm (o : Order) (m : Mat3) : Mat3 :=
  { xx := at_ m o.i o.i, xy := at_ m o.i o.j, xz := at_ m o.i o.k
    yx := at_ m o.j o.i, yy := at_ m o.j o.j, yz := at_ m o.j o.k
    zx := at_ m o.k o.i, zy := at_ m o.k o.j, zz := at_ m o.k o.k }

theorem pq_toQuat (o : Order) (e : Angles) : pq o (toQuat o e) = toQuat (base o) (norm o e) := by
  cases o
  all_goals
    simp [toQuat, Order.i, Order.j, Order.k, Order.odd, Order.rotating, Order.repeats, Order.code, pack, safe, next,
      Function.update, pq, base, norm]
  all_goals
    repeat' apply And.intro
    all_goals ring

theorem pq_matrix (o : Order) (q : Quat) : (pq o q).matrix = pm o q.matrix := by
  cases o
  all_goals
    simp [Order.i, Order.j, Order.k, Order.odd, Order.code, pack, safe, next, pq, pm, at_, Quat.matrix]
  all_goals
    repeat' apply And.intro
    all_goals ring

theorem pq_unit (o : Order) {q : Quat} (h : q.IsUnit) : (pq o q).IsUnit := by
  unfold Quat.IsUnit Quat.normSq at *
  rw [← h]
  cases o
  all_goals
    simp [Order.i, Order.j, Order.k, Order.odd, Order.code, pack, safe, next, pq]
  all_goals try ring

theorem norm_ofMatrix (o : Order) (m : Mat3) : norm o (ofMatrix m o) = ofMatrix (pm o m) (base o) := by
  cases o
  all_goals
    simp [Order.i, Order.j, Order.k, Order.odd, Order.rotating, Order.repeats, Order.code, pack, safe, next,
      pm, at_, norm, ofMatrix, base]

theorem axes (o : Order) : (o.i, o.j, o.k) = (0, 1, 2) ∨ (o.i, o.j, o.k) = (0, 2, 1) ∨ (o.i, o.j, o.k) = (1, 0, 2) ∨
    (o.i, o.j, o.k) = (1, 2, 0) ∨ (o.i, o.j, o.k) = (2, 0, 1) ∨ (o.i, o.j, o.k) = (2, 1, 0) := by
  cases o <;> decide

theorem pm_close (o : Order) {a b : Mat3} {d : ℝ} (h : Close (pm o a) (pm o b) d) : Close a b d := by
  obtain ⟨h1, h2, h3, h4, h5, h6, h7, h8, h9⟩ := h
  rcases axes o with e | e | e | e | e | e
  all_goals
    simp only [Prod.mk.injEq] at e
    obtain ⟨e1, e2, e3⟩ := e
    simp only [pm, e1, e2, e3, at_] at h1 h2 h3 h4 h5 h6 h7 h8 h9
    constructor <;> with_reducible assumption

theorem close_zero {a b : Mat3} (h : Close a b 0) : a = b := by
  have e : ∀ s t : ℝ, |s - t| ≤ 0 → s = t := fun s t hst => by
    have := abs_eq_zero.mp (le_antisymm hst (abs_nonneg _)); linarith
  ext
  · exact e _ _ h.xx
  · exact e _ _ h.xy
  · exact e _ _ h.xz
  · exact e _ _ h.yx
  · exact e _ _ h.yy
  · exact e _ _ h.yz
  · exact e _ _ h.zx
  · exact e _ _ h.zy
  · exact e _ _ h.zz

theorem pm_inj (o : Order) {a b : Mat3} (h : pm o a = pm o b) : a = b := by
  refine close_zero (pm_close o ?_)
  rw [h]
  constructor <;> simp

theorem ext_apply {a b : Mat3} (h : ∀ v, a.apply v = b.apply v) : a = b := by
  have h1 := h ⟨1, 0, 0⟩
  have h2 := h ⟨0, 1, 0⟩
  have h3 := h ⟨0, 0, 1⟩
  simp [Mat3.apply] at h1 h2 h3
  ext <;> tauto

theorem toQuat_matrix (o : Order) (ho : nameR o = false) (e : Angles) : (toQuat o e).matrix = toMatrix o e := by
  apply ext_apply
  intro v
  rw [Quat.C43_matrix (toQuat_unit o e), (C117_quaternion o e).2, C117_matrix o ho]

/-- How far the second angle is from the values for which the first and the third rotation have the same axis. -/
noncomputable def lock (o : Order) (b : ℝ) : ℝ :=
  if (letters o).1 = (letters o).2.2 then |Real.sin b| else |Real.cos b|

theorem norm_beta (o : Order) (e : Angles) :
    |Real.sin (norm o e).beta| = |Real.sin e.beta| ∧ |Real.cos (norm o e).beta| = |Real.cos e.beta| := by
  unfold norm
  simp only
  split <;> split <;> simp

theorem repeats_iff (o : Order) : o.repeats = true ↔ (letters o).1 = (letters o).2.2 := by
  cases o <;> decide

/-- The two matrices. -/
theorem back_matrix {q : Quat} (h : q.IsUnit) (o : Order) :
    ((lock o (ofQuat q o).beta > tiny → (toQuat o (ofQuat q o)).matrix = q.matrix) ∧
      (¬ lock o (ofQuat q o).beta > tiny →
        Close (toQuat o (ofQuat q o)).matrix q.matrix (2 * lock o (ofQuat q o).beta))) := by
  have hr : IsRot (pm o q.matrix) := by rw [← pq_matrix]; exact isRot (pq_unit o h)
  have hm : pm o (toQuat o (ofQuat q o)).matrix = toMatrix (base o) (ofMatrix (pm o q.matrix) (base o)) := by
    rw [← pq_matrix, pq_toQuat, ofQuat, norm_ofMatrix]
    apply toQuat_matrix
    unfold base
    split <;> rfl
  have hb := norm_beta o (ofQuat q o)
  rw [show norm o (ofQuat q o) = ofMatrix (pm o q.matrix) (base o) from norm_ofMatrix o q.matrix] at hb
  cases hrep : o.repeats
  · have hl : lock o (ofQuat q o).beta = Real.sqrt ((pm o q.matrix).xx * (pm o q.matrix).xx + (pm o q.matrix).yx * (pm o q.matrix).yx) := by
      have hn : ¬ (letters o).1 = (letters o).2.2 := by rw [← repeats_iff, hrep]; simp
      have hbase : base o = .XYZs := by unfold base; simp [hrep]
      rw [lock, if_neg hn, ← hb.2, hbase, (base_xyz hr rfl).1]
      exact abs_of_nonneg (Real.sqrt_nonneg _)
    have hbase : base o = .XYZs := by unfold base; simp [hrep]
    obtain ⟨-, h1, h2⟩ := base_xyz hr hl
    rw [hbase] at hm
    rw [← hm] at h1 h2
    exact ⟨fun hh => pm_inj o (h1 hh), fun hh => pm_close o (h2 hh)⟩
  · have hl : lock o (ofQuat q o).beta = Real.sqrt ((pm o q.matrix).xy * (pm o q.matrix).xy + (pm o q.matrix).xz * (pm o q.matrix).xz) := by
      have hn : (letters o).1 = (letters o).2.2 := by rw [← repeats_iff, hrep]
      have hbase : base o = .XYXs := by unfold base; simp [hrep]
      rw [lock, if_pos hn, ← hb.1, hbase, (base_xyx hr rfl).1]
      exact abs_of_nonneg (Real.sqrt_nonneg _)
    have hbase : base o = .XYXs := by unfold base; simp [hrep]
    obtain ⟨-, h1, h2⟩ := base_xyx hr hl
    rw [hbase] at hm
    rw [← hm] at h1 h2
    exact ⟨fun hh => pm_inj o (h1 hh), fun hh => pm_close o (h2 hh)⟩

/-- C117: for every quaternion of length one and every order, the angles that `GetEulerAngles` gives stand for exactly the
same rotation, unless the second angle is closer than 16 machine epsilons to a value for which the first and the third
rotation have the same axis without being that value. -/
theorem C117_back {q : Quat} (h : q.IsUnit) (o : Order)
    (hl : lock o (ofQuat q o).beta = 0 ∨ lock o (ofQuat q o).beta > 16 * 2⁻¹ ^ 52) (v : Vec3 ℝ) :
    rotation o (ofQuat q o) v = q.rotate v false := by
  obtain ⟨h1, h2⟩ := back_matrix h o
  have hm : (toQuat o (ofQuat q o)).matrix = q.matrix := by
    rcases hl with hl | hl
    · have hn : ¬ lock o (ofQuat q o).beta > tiny := by rw [hl]; exact not_lt.mpr tiny_pos.le
      have := h2 hn
      rw [hl, mul_zero] at this
      exact close_zero this
    · exact h1 hl
  rw [← (C117_quaternion o _).2, ← Quat.C43_matrix (toQuat_unit o _), hm, Quat.C43_matrix h]

theorem row_close {a b c a' b' c' d x y z : ℝ} (h1 : |a - a'| ≤ d) (h2 : |b - b'| ≤ d) (h3 : |c - c'| ≤ d) :
    |a * x + b * y + c * z - (a' * x + b' * y + c' * z)| ≤ d * (|x| + |y| + |z|) := by
  have e : a * x + b * y + c * z - (a' * x + b' * y + c' * z) = (a - a') * x + (b - b') * y + (c - c') * z := by ring
  rw [e]
  calc |(a - a') * x + (b - b') * y + (c - c') * z|
      ≤ |(a - a') * x| + |(b - b') * y| + |(c - c') * z| := abs_add_three _ _ _
    _ = |a - a'| * |x| + |b - b'| * |y| + |c - c'| * |z| := by rw [abs_mul, abs_mul, abs_mul]
    _ ≤ d * |x| + d * |y| + d * |z| := by
        gcongr
    _ = d * (|x| + |y| + |z|) := by ring

/-- C117: without exception, the rotation given by the angles differs from that of the quaternion by at most 32 machine
epsilons per component. -/
theorem C117_back_all {q : Quat} (h : q.IsUnit) (o : Order) (v : Vec3 ℝ) :
    |(rotation o (ofQuat q o) v).x - (q.rotate v false).x| ≤ 32 * 2⁻¹ ^ 52 * (|v.x| + |v.y| + |v.z|) ∧
    |(rotation o (ofQuat q o) v).y - (q.rotate v false).y| ≤ 32 * 2⁻¹ ^ 52 * (|v.x| + |v.y| + |v.z|) ∧
    |(rotation o (ofQuat q o) v).z - (q.rotate v false).z| ≤ 32 * 2⁻¹ ^ 52 * (|v.x| + |v.y| + |v.z|) := by
  obtain ⟨h1, h2⟩ := back_matrix h o
  rw [← (C117_quaternion o _).2, ← Quat.C43_matrix (toQuat_unit o _), ← Quat.C43_matrix h]
  have hS : 0 ≤ |v.x| + |v.y| + |v.z| := by positivity
  by_cases hl : lock o (ofQuat q o).beta > tiny
  · rw [h1 hl]
    simp only [sub_self, abs_zero]
    refine ⟨?_, ?_, ?_⟩ <;> positivity
  · have hc := h2 hl
    have hd : 2 * lock o (ofQuat q o).beta ≤ 32 * 2⁻¹ ^ 52 := by
      have := not_lt.mp hl
      unfold tiny at this
      linarith
    refine ⟨(row_close hc.xx hc.xy hc.xz).trans (mul_le_mul_of_nonneg_right hd hS),
      (row_close hc.yx hc.yy hc.yz).trans (mul_le_mul_of_nonneg_right hd hS),
      (row_close hc.zx hc.zy hc.zz).trans (mul_le_mul_of_nonneg_right hd hS)⟩

/-! ### The special conversions and axis and angle -/

theorem normalize_eq (q : Quat) : q.normalize = q.scale (1 / Real.sqrt q.normSq) := by
  unfold Quat.normalize
  split
  · rename_i h1
    ext <;> simp [Quat.scale, h1]
  · rfl

/-- The products with `2 / Nq` are those of the normalized quaternion. -/
theorem prod_normalized {n a b : ℝ} (hn : 0 < n) :
    a * (b * (2 / n)) = 2 * (1 / Real.sqrt n * a) * (1 / Real.sqrt n * b) := by
  have hs : 0 < Real.sqrt n := Real.sqrt_pos.mpr hn
  have h2 : Real.sqrt n * Real.sqrt n = n := Real.mul_self_sqrt hn.le
  have e : (1 / Real.sqrt n) * (1 / Real.sqrt n) = 1 / n := by rw [div_mul_div_comm, h2, one_mul]
  linear_combination (-2 * a * b) * e

/-- C117: `GetEulerAnglesXYZs` of a quaternion of any length other than zero gives the angles of the order `XYZs` of the
quaternion scaled to length one, to which `C117_back` applies. -/
theorem C117_xyz_back (q : Quat) (hq : q.normSq ≠ 0) : xyzsFromQ q = ofQuat q.normalize .XYZs := by
  have hpos : 0 < q.normSq := lt_of_le_of_ne (Quat.normSq_nonneg q) (Ne.symm hq)
  rw [ofQuat, ofMatrix_xyz, normalize_eq q]
  simp only [xyzsFromQ, if_pos hpos, prod_normalized hpos, Quat.matrix, Quat.scale]
  obtain ⟨n, -⟩ : ∃ n, n = 1 / Real.sqrt q.normSq := ⟨_, rfl⟩
  congr 1
  · ring_nf
  · ring_nf
  · ring_nf

theorem ofMatrix_zxz (m : Mat3) : ofMatrix m .ZXZr =
    (let sy := Real.sqrt (m.zx * m.zx + m.zy * m.zy)
     if sy > tiny then ⟨atan2 m.xz (-m.yz), atan2 sy m.zz, atan2 m.zx m.zy⟩
     else ⟨0, atan2 sy m.zz, atan2 (-m.xy) m.xx⟩) := by
  simp [ofMatrix, Order.i, Order.j, Order.k, Order.odd, Order.rotating, Order.repeats, Order.code, pack, safe, next, at_]
  split <;> rfl

/-- C117: likewise `GetEulerAnglesZXZr` for the order `ZXZr`. -/
theorem C117_zxz_back (q : Quat) (hq : q.normSq ≠ 0) : zxzrFromQ q = ofQuat q.normalize .ZXZr := by
  have hpos : 0 < q.normSq := lt_of_le_of_ne (Quat.normSq_nonneg q) (Ne.symm hq)
  have hu := Quat.normalize_unit q hq
  have hw : q.w * q.w * (2 / q.normSq) = q.w * (q.w * (2 / q.normSq)) := by ring
  rw [ofQuat, ofMatrix_zxz]
  rw [normalize_eq q] at hu ⊢
  unfold Quat.IsUnit Quat.normSq Quat.scale at hu
  simp only [zxzrFromQ, if_pos hpos, hw, prod_normalized hpos, Quat.matrix, Quat.scale]
  simp only at hu
  obtain ⟨x, hx⟩ : ∃ x, x = 1 / Real.sqrt q.normSq * q.x := ⟨_, rfl⟩
  obtain ⟨y, hy⟩ : ∃ y, y = 1 / Real.sqrt q.normSq * q.y := ⟨_, rfl⟩
  obtain ⟨z, hz⟩ : ∃ z, z = 1 / Real.sqrt q.normSq * q.z := ⟨_, rfl⟩
  obtain ⟨w, hw⟩ : ∃ w, w = 1 / Real.sqrt q.normSq * q.w := ⟨_, rfl⟩
  have hN : q.w * q.w + q.x * q.x + q.y * q.y + q.z * q.z = q.normSq := rfl
  rw [hN] at hu
  simp only [← hx, ← hy, ← hz, ← hw] at hu ⊢
  have e1 : (2 * x * x + 2 * y * y) * (2 * w * w + 2 * z * z) =
      (2 * x * z - 2 * y * w) * (2 * x * z - 2 * y * w) + (2 * z * y + 2 * x * w) * (2 * z * y + 2 * x * w) := by ring
  have e2 : 1 - (2 * x * x + 2 * y * y) = 1 - 2 * x * x - 2 * y * y := by ring
  have e3 : 2 * w * y + 2 * x * z = 2 * x * z + 2 * y * w := by ring
  have e4 : 2 * w * x - 2 * y * z = -(2 * z * y - 2 * x * w) := by ring
  have e5 : 2 * x * z - 2 * w * y = 2 * x * z - 2 * y * w := by ring
  have e6 : 2 * w * x + 2 * y * z = 2 * z * y + 2 * x * w := by ring
  have e7 : 2 * w * z - 2 * x * y = -(2 * x * y - 2 * z * w) := by ring
  have e8 : 1 - (2 * y * y + 2 * z * z) = 1 - 2 * y * y - 2 * z * z := by ring
  rw [e1, e2, e3, e4, e5, e6, e7, e8]

/-- C117: for every quaternion of length one, axis and angle as given by `GetAxisAngle` and passed to `SetAxisAngle` give
the same rotation. -/
theorem C117_axis_angle {q : Quat} (h : q.IsUnit) (v : Vec3 ℝ) :
    (Quat.ofAxisAngle (axisAngle q).1 (axisAngle q).2).rotate v false = q.rotate v false := by
  have hu := h
  unfold Quat.IsUnit Quat.normSq at hu
  obtain ⟨s, hs⟩ : ∃ s, s = Real.sqrt (q.x * q.x + q.y * q.y + q.z * q.z) := ⟨_, rfl⟩
  have hs0 : 0 ≤ s := hs ▸ Real.sqrt_nonneg _
  have hss : s * s = q.x * q.x + q.y * q.y + q.z * q.z := by
    rw [hs]; exact Real.mul_self_sqrt (by nlinarith [mul_self_nonneg q.x, mul_self_nonneg q.y, mul_self_nonneg q.z])
  have hw1 : ¬ q.w > 1 := by intro hc; nlinarith
  have hw2 : ¬ q.w < -1 := by intro hc; nlinarith
  unfold axisAngle
  simp only [← hs, hw1, hw2, or_false]
  by_cases h0 : s = 0
  · rw [if_pos h0]
    have hx : q.x = 0 := by nlinarith [mul_self_nonneg q.x, mul_self_nonneg q.y, mul_self_nonneg q.z]
    have hy : q.y = 0 := by nlinarith [mul_self_nonneg q.x, mul_self_nonneg q.y, mul_self_nonneg q.z]
    have hz : q.z = 0 := by nlinarith [mul_self_nonneg q.x, mul_self_nonneg q.y, mul_self_nonneg q.z]
    have hw : q.w * q.w = 1 := by rw [hx, hy, hz] at hu; linarith
    have hunit : (Quat.ofAxisAngle ⟨0, 0, 1⟩ 0).IsUnit := Quat.C43_axis_angle_unit _ (by intro hc; simpa using congrArg Vec3.z hc) _
    rw [Quat.rotate_unit hunit, Quat.rotate_unit h]
    simp [Quat.ofAxisAngle, Quat.sandwich, hx, hy, hz, hw]
  · rw [if_neg h0]
    have hp : 0 < s := lt_of_le_of_ne hs0 (Ne.symm h0)
    have ht : q.w * q.w + s * s = 1 * 1 := by rw [hss]; linarith
    have e : Quat.ofAxisAngle ⟨q.x / s, q.y / s, q.z / s⟩ (atan2 s q.w * 2) = q := by
      have hn : Vec3.normalize (⟨q.x / s, q.y / s, q.z / s⟩ : Vec3 ℝ) = ⟨q.x / s, q.y / s, q.z / s⟩ := by
        have h1 : Vec3.norm (⟨q.x / s, q.y / s, q.z / s⟩ : Vec3 ℝ) = 1 := by
          unfold Vec3.norm Vec3.dot
          rw [Real.sqrt_eq_one]
          simp only
          have : q.x / s * (q.x / s) + q.y / s * (q.y / s) + q.z / s * (q.z / s) =
              (q.x * q.x + q.y * q.y + q.z * q.z) / (s * s) := by ring
          rw [this, ← hss]
          exact div_self (mul_ne_zero h0 h0)
        simp only [Vec3.normalize, h1, div_one]
      simp only [Quat.ofAxisAngle, hn, mul_div_assoc, div_self (two_ne_zero (α := ℝ)), mul_one, sin_atan2 one_pos ht,
        cos_atan2 one_pos ht, div_one]
      ext
      all_goals simp only
      all_goals field_simp
    rw [e]

/-! ### Non-vacuity, failures -/

/-- A rotation by a right angle about each of the three axes in turn. -/
example : rotation .XYZs ⟨Real.pi / 2, Real.pi / 2, Real.pi / 2⟩ ⟨1, 2, 3⟩ = ⟨3, 2, -1⟩ := by
  simp [rotation, nameR, letters, turn]

/-- The condition of `C117_back` holds for the identity in the order `XYZs` (far from the singular value) and in the order
`ZXZr` (at it). -/
example : Quat.one.IsUnit ∧ lock .XYZs (ofQuat Quat.one .XYZs).beta > 16 * 2⁻¹ ^ 52 ∧
    lock .ZXZr (ofQuat Quat.one .ZXZr).beta = 0 := by
  have h1 : (ofQuat Quat.one .XYZs).beta = 0 := by
    rw [ofQuat, ofMatrix_xyz]
    have : (1 : ℝ) > tiny := by linarith [tiny_lt]
    simp [Quat.matrix, Quat.one, this, Siren.Geometry.Phi.atan2]
    exact Complex.arg_one
  have h2 : (ofQuat Quat.one .ZXZr).beta = 0 := by
    rw [ofQuat, ofMatrix_zxz]
    have : ¬ (0 : ℝ) > tiny := by linarith [tiny_pos]
    simp [Quat.matrix, Quat.one, this, Siren.Geometry.Phi.atan2]
    exact Complex.arg_one
  rw [h1, h2]
  refine ⟨by simp [Quat.IsUnit, Quat.normSq, Quat.one], ?_, ?_⟩
  · simp only [lock, letters, reduceCtorEq, if_false, Real.cos_zero, abs_one]; norm_num
  · simp [lock, letters]

/-- C117 does not hold for `Matrix3DFromEulerAngles` and any of the orders about rotating axes: the function exchanges the
first and the second angle instead of the first and the third. A turn by a right angle about the first axis of the order
becomes one about the second. -/
theorem C117_matrix_fails (o : Order) (ho : nameR o = true) :
    ∃ e v, (toMatrix o e).apply v ≠ rotation o e v := by
  refine ⟨⟨Real.pi / 2, 0, 0⟩, (match (letters o).2.1 with | .X => ⟨1, 0, 0⟩ | .Y => ⟨0, 1, 0⟩ | .Z => ⟨0, 0, 1⟩), ?_⟩
  cases o
  all_goals first | (exfalso; revert ho; decide) | skip
  all_goals
    simp [toMatrix, Order.i, Order.j, Order.k, Order.odd, Order.rotating, Order.repeats, Order.code, pack, safe, next,
      Function.update, rotation, nameR, letters, turn, Mat3.apply]

end Siren.Euler
