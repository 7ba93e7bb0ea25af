import Verif.Math.Quaternion

set_option autoImplicit false

/-!
# C43: quaternions act as rotations
-/

namespace Siren.Quat

/-! ### Algebra of the rotation polynomial -/

theorem sandwich_mul (a b : Quat) (p : Vec3 ℝ) : sandwich (a.mul b) p = sandwich a (sandwich b p) := by
  ext <;> simp only [sandwich, mul] <;> ring

theorem sandwich_conj (q : Quat) (p : Vec3 ℝ) :
    sandwich q.conj (sandwich q p) = Vec3.smul (q.normSq ^ 2) p := by
  ext <;> simp only [sandwich, conj, normSq, Vec3.smul] <;> ring

theorem sandwich_smul (q : Quat) (k : ℝ) (p : Vec3 ℝ) : sandwich q (Vec3.smul k p) = Vec3.smul k (sandwich q p) := by
  ext <;> simp only [sandwich, Vec3.smul] <;> ring

theorem sandwich_add (q : Quat) (a b : Vec3 ℝ) : sandwich q (a + b) = sandwich q a + sandwich q b := by
  ext <;> simp only [sandwich, Vec3.add_x, Vec3.add_y, Vec3.add_z] <;> ring

theorem sandwich_scale (q : Quat) (k : ℝ) (p : Vec3 ℝ) : sandwich (q.scale k) p = Vec3.smul (k ^ 2) (sandwich q p) := by
  ext <;> simp only [sandwich, scale, Vec3.smul] <;> ring

theorem sandwich_dot (q : Quat) (a b : Vec3 ℝ) :
    Vec3.dot (sandwich q a) (sandwich q b) = q.normSq ^ 2 * Vec3.dot a b := by
  simp only [sandwich, normSq, Vec3.dot]; ring

theorem sandwich_cross (q : Quat) (a b : Vec3 ℝ) :
    Vec3.cross (sandwich q a) (sandwich q b) = Vec3.smul q.normSq (sandwich q (Vec3.cross a b)) := by
  ext <;> simp only [sandwich, normSq, Vec3.cross, Vec3.smul] <;> ring

theorem normSq_mul (a b : Quat) : (a.mul b).normSq = a.normSq * b.normSq := by
  simp only [normSq, mul]; ring

theorem normSq_conj (q : Quat) : q.conj.normSq = q.normSq := by simp only [normSq, conj]; ring

theorem conj_conj (q : Quat) : q.conj.conj = q := by ext <;> simp [conj]

theorem normSq_scale (q : Quat) (k : ℝ) : (q.scale k).normSq = k ^ 2 * q.normSq := by
  simp only [normSq, scale]; ring

theorem normSq_nonneg (q : Quat) : 0 ≤ q.normSq := by
  unfold normSq
  nlinarith [mul_self_nonneg q.x, mul_self_nonneg q.y, mul_self_nonneg q.z, mul_self_nonneg q.w]

/-! ### Specification -/

/-- A quaternion of length one: what `Placement` and the Euler angle conversions produce. -/
def IsUnit (q : Quat) : Prop := q.normSq = 1

/-- A function on vectors that is a rotation about the origin: linear, preserves scalar products and orientation. -/
structure IsRotation (f : Vec3 ℝ → Vec3 ℝ) : Prop where
  add : ∀ a b, f (a + b) = f a + f b
  smul : ∀ k a, f (Vec3.smul k a) = Vec3.smul k (f a)
  dot : ∀ a b, Vec3.dot (f a) (f b) = Vec3.dot a b
  cross : ∀ a b, Vec3.cross (f a) (f b) = f (Vec3.cross a b)

/-! ### Rotating -/

theorem IsUnit.conj {q : Quat} (h : q.IsUnit) : q.conj.IsUnit := by unfold IsUnit; rw [normSq_conj]; exact h

theorem IsUnit.mul {a b : Quat} (ha : a.IsUnit) (hb : b.IsUnit) : (a.mul b).IsUnit := by
  unfold IsUnit at *; rw [normSq_mul, ha, hb, mul_one]

theorem rotate_unit {q : Quat} (h : q.IsUnit) (p : Vec3 ℝ) (inv : Bool) :
    q.rotate p inv = sandwich (if inv then q.conj else q) p := by
  unfold rotate
  rw [show q.normSq = 1 from h]
  cases inv <;> simp [Quat.conj]

/-- The factor by which `rotate` is off when the length is close to, but not, one. -/
theorem rotate_eq (q : Quat) (p : Vec3 ℝ) (inv : Bool) :
    q.rotate p inv = Vec3.smul (if |q.normSq - 1| < 1e-12 then 1 else 1 / q.normSq)
      (sandwich (if inv then q.conj else q) p) := by
  unfold rotate
  have hs : (1 / Real.sqrt q.normSq) ^ 2 = 1 / q.normSq := by
    rw [div_pow, one_pow, Real.sq_sqrt q.normSq_nonneg]
  split
  · cases inv
    · ext <;> simp [Vec3.smul]
    · ext <;> simp [Vec3.smul, Quat.conj]
  · rw [← hs]
    cases inv
    · simp only [Bool.false_eq_true, if_false]
      rw [← sandwich_scale]
      congr 1
      ext <;> simp [scale] <;> ring
    · simp only [if_true]
      rw [← sandwich_scale]
      congr 1
      ext <;> simp [scale, Quat.conj] <;> ring

theorem normalize_unit (q : Quat) (hq : q.normSq ≠ 0) : q.normalize.IsUnit := by
  unfold normalize IsUnit
  split
  · assumption
  · rw [normSq_scale, div_pow, one_pow, Real.sq_sqrt q.normSq_nonneg, one_div, inv_mul_cancel₀ hq]

/-- C43: a quaternion of length one rotates, in both directions. -/
theorem C43_is_rotation {q : Quat} (h : q.IsUnit) (inv : Bool) : IsRotation (fun p => q.rotate p inv) := by
  have h' : (if inv then q.conj else q).normSq = 1 := by cases inv; exact h; exact h.conj
  simp only [rotate_unit h]
  refine ⟨fun a b => sandwich_add _ a b, fun k a => sandwich_smul _ k a, fun a b => ?_, fun a b => ?_⟩
  · rw [sandwich_dot, h']; ring
  · rw [sandwich_cross, h']; ext <;> simp [Vec3.smul]

/-- C43: rotating by a product is rotating by its right factor first, then by its left factor. -/
theorem C43_product {a b : Quat} (ha : a.IsUnit) (hb : b.IsUnit) (p : Vec3 ℝ) :
    (a.mul b).rotate p false = a.rotate (b.rotate p false) false := by
  rw [rotate_unit (ha.mul hb), rotate_unit ha, rotate_unit hb]
  exact sandwich_mul a b p

/-- C43: `a *= b` yields the rotation by `a` followed by the rotation by `b`. -/
theorem C43_compound_product {a b : Quat} (ha : a.IsUnit) (hb : b.IsUnit) (p : Vec3 ℝ) :
    (a.mulAssign b).rotate p false = b.rotate (a.rotate p false) false := C43_product hb ha p

/-- C43: rotating backwards undoes rotating forwards, and conversely. -/
theorem C43_inverse {q : Quat} (h : q.IsUnit) (p : Vec3 ℝ) :
    q.rotate (q.rotate p false) true = p ∧ q.rotate (q.rotate p true) false = p := by
  have h1 : q.normSq = 1 := h
  constructor
  · rw [rotate_unit h, rotate_unit h]
    simp only [Bool.false_eq_true, if_false, if_true]
    rw [sandwich_conj, h1]; ext <;> simp [Vec3.smul]
  · rw [rotate_unit h, rotate_unit h]
    simp only [Bool.false_eq_true, if_false, if_true]
    have := sandwich_conj q.conj p
    rw [conj_conj, normSq_conj, h1] at this
    rw [this]; ext <;> simp [Vec3.smul]

/-- C43: the inverse quaternion rotates backwards. -/
theorem C43_inverted {q : Quat} (h : q.IsUnit) (p : Vec3 ℝ) : q.inv.rotate p false = q.rotate p true := by
  have h1 : q.normSq = 1 := h
  have : q.inv = q.conj := by ext <;> simp [inv, Quat.conj, h1]
  rw [this, rotate_unit h.conj, rotate_unit h]; rfl

/-- C43: `invert` gives the inverse of every quaternion other than zero, on both sides. -/
theorem C43_invert (q : Quat) (hq : q.normSq ≠ 0) : q.mul q.inv = one ∧ q.inv.mul q = one := by
  have e : q.normSq = q.w * q.w + q.x * q.x + q.y * q.y + q.z * q.z := rfl
  constructor <;> ext <;> simp only [mul, inv, one] <;> field_simp <;> (try rw [e]) <;> ring

/-- C43 for quaternions of any length but zero: the rotation is that of the normalized quaternion, except for a factor
within 1e-12 of one (exactly one unless the squared length is within 1e-12 of one). -/
theorem C43_any_length (q : Quat) (hq : q.normSq ≠ 0) (p : Vec3 ℝ) (inv : Bool) :
    ∃ s : ℝ, |s - 1| < 1e-12 ∧ (1e-12 ≤ |q.normSq - 1| → s = 1) ∧
      q.rotate p inv = Vec3.smul s (q.normalize.rotate p inv) := by
  have hn := normalize_unit q hq
  have key : ∀ k : ℝ, k ^ 2 = 1 / q.normSq → ∀ q' : Quat, q' = q.scale k →
      sandwich (if inv then q'.conj else q') p = Vec3.smul (1 / q.normSq) (sandwich (if inv then q.conj else q) p) := by
    intro k hk q' hq'
    rw [← hk, ← sandwich_scale, hq']
    congr 1
    cases inv <;> ext <;> simp [scale, Quat.conj]
  have hs : (1 / Real.sqrt q.normSq) ^ 2 = 1 / q.normSq := by
    rw [div_pow, one_pow, Real.sq_sqrt q.normSq_nonneg]
  have hnorm : q.normalize = q.scale (if q.normSq = 1 then 1 else 1 / Real.sqrt q.normSq) := by
    unfold normalize
    split
    · ext <;> simp [scale]
    · rfl
  have hrot : q.normalize.rotate p inv = Vec3.smul (1 / q.normSq) (sandwich (if inv then q.conj else q) p) := by
    rw [rotate_unit hn]
    refine key _ ?_ _ hnorm
    split
    next h => rw [h]; norm_num
    next => exact hs
  by_cases hb : |q.normSq - 1| < 1e-12
  · refine ⟨q.normSq, hb, fun h => absurd hb (not_lt.2 h), ?_⟩
    rw [rotate_eq q, hrot, if_pos hb]
    ext <;> simp [Vec3.smul] <;> field_simp
  · refine ⟨1, by norm_num, fun _ => rfl, ?_⟩
    rw [rotate_eq q, hrot, if_neg hb]
    ext <;> simp [Vec3.smul]

/-- C43: the two `rotate` overloads agree: rotating the quaternion made of a vector is rotating the vector. -/
theorem C43_overloads {q : Quat} (h : q.IsUnit) (p : Vec3 ℝ) (inv : Bool) :
    q.rotateQuat (ofVec p) inv = ofVec (q.rotate p inv) := by
  have hn : q.norm = 1 := by unfold norm; rw [show q.normSq = 1 from h, Real.sqrt_one]
  rw [rotate_unit h]
  unfold rotateQuat ofVec
  cases inv <;> simp [hn, Quat.conj]

/-! ### Matrices -/

/-- C43: the matrix of a quaternion rotates like the quaternion. -/
theorem C43_matrix {q : Quat} (h : q.IsUnit) (p : Vec3 ℝ) : q.matrix.apply p = q.rotate p false := by
  have h1 : q.w * q.w + q.x * q.x + q.y * q.y + q.z * q.z = 1 := h
  rw [rotate_unit h]
  ext <;> simp only [matrix, Mat3.apply, sandwich, Bool.false_eq_true, if_false]
  · linear_combination (-p.x) * h1
  · linear_combination (-p.y) * h1
  · linear_combination (-p.z) * h1

/-- C43: the matrix computed for quaternions of any length rotates like the normalized quaternion. -/
theorem C43_matrix_any_length (q : Quat) (hq : q.normSq ≠ 0) (p : Vec3 ℝ) :
    q.matrixOfAny.apply p = q.normalize.rotate p false := by
  obtain ⟨s, _, -, -⟩ := C43_any_length q hq p false
  have hpos : 0 < q.normSq := lt_of_le_of_ne q.normSq_nonneg (Ne.symm hq)
  have hs : (1 / Real.sqrt q.normSq) ^ 2 = 1 / q.normSq := by
    rw [div_pow, one_pow, Real.sq_sqrt q.normSq_nonneg]
  have hrot : q.normalize.rotate p false = Vec3.smul (1 / q.normSq) (sandwich q p) := by
    rw [rotate_unit (normalize_unit q hq)]
    simp only [Bool.false_eq_true, if_false]
    unfold normalize
    split
    next h1 => rw [h1]; ext <;> simp [Vec3.smul]
    next => rw [sandwich_scale, hs]
  rw [hrot]
  have hnq : q.x * q.x + q.y * q.y + q.z * q.z + q.w * q.w = q.normSq := by unfold normSq; ring
  unfold matrixOfAny
  simp only [hnq, gt_iff_lt, hpos, if_true]
  have e : q.normSq * (1 / q.normSq) = 1 := by field_simp
  have hN : q.normSq = q.w * q.w + q.x * q.x + q.y * q.y + q.z * q.z := rfl
  have hd : 2 / q.normSq = 2 * (1 / q.normSq) := by ring
  rw [hd]
  generalize 1 / q.normSq = r at e
  rw [hN] at e
  ext <;> simp only [Mat3.apply, sandwich, Vec3.smul]
  · linear_combination (-p.x) * e
  · linear_combination (-p.y) * e
  · linear_combination (-p.z) * e

/-- The negated quaternion, which describes the same rotation. -/
def neg (q : Quat) : Quat := ⟨-q.x, -q.y, -q.z, -q.w⟩

/-- C43: reading a quaternion back from its matrix gives it or its negative. -/
theorem C43_matrix_round_trip {q : Quat} (h : q.IsUnit) : ofMatrix q.matrix = q ∨ ofMatrix q.matrix = q.neg := by
  have h1 : q.w * q.w + q.x * q.x + q.y * q.y + q.z * q.z = 1 := h
  have hxx : q.matrix.xx = 2 * (q.x * q.x + q.w * q.w) - 1 := by simp only [matrix]; linear_combination (-2) * h1
  have hyy : q.matrix.yy = 2 * (q.y * q.y + q.w * q.w) - 1 := by simp only [matrix]; linear_combination (-2) * h1
  have hzz : q.matrix.zz = 2 * (q.z * q.z + q.w * q.w) - 1 := by simp only [matrix]; linear_combination (-2) * h1
  have htr : q.matrix.xx + q.matrix.yy + q.matrix.zz = 4 * (q.w * q.w) - 1 := by
    rw [hxx, hyy, hzz]; linear_combination 2 * h1
  have key : ∀ (c : ℝ), c ≠ 0 → 2 * Real.sqrt (4 * (c * c)) = 4 * |c| := by
    intro c _
    rw [show 4 * (c * c) = (2 * c) ^ 2 by ring, Real.sqrt_sq_eq_abs, abs_mul, abs_of_pos (by norm_num : (0 : ℝ) < 2)]
    ring
  unfold ofMatrix
  simp only [htr]
  set M := max (max q.matrix.xx q.matrix.yy) (max q.matrix.zz (4 * (q.w * q.w) - 1)) with hM
  have m1 : q.matrix.xx ≤ M := le_trans (le_max_left _ _) (le_max_left _ _)
  have m2 : q.matrix.yy ≤ M := le_trans (le_max_right _ _) (le_max_left _ _)
  have m3 : q.matrix.zz ≤ M := le_trans (le_max_left _ _) (le_max_right _ _)
  have m4 : 4 * (q.w * q.w) - 1 ≤ M := le_trans (le_max_right _ _) (le_max_right _ _)
  rw [hxx] at m1; rw [hyy] at m2; rw [hzz] at m3
  have fin : ∀ (c a : ℝ), c ≠ 0 → (0 < c → (4 * (c * a)) / (4 * |c|) = a) ∧ (c < 0 → (4 * (c * a)) / (4 * |c|) = -a) := by
    intro c a hc
    refine ⟨fun hp => ?_, fun hn => ?_⟩
    · rw [abs_of_pos hp]; field_simp
    · rw [abs_of_neg hn]; field_simp
  by_cases e1 : M = q.matrix.xx
  · rw [if_pos e1]
    rw [e1, hxx] at m2 m3 m4
    have hx0 : q.x ≠ 0 := by intro h0; rw [h0] at m2 m3 m4 h1; nlinarith
    have hq : 1 - (4 * (q.w * q.w) - 1) + 2 * M = 4 * (q.x * q.x) := by rw [e1, hxx]; ring
    rw [hq, key _ hx0]
    have a1 : q.matrix.xy + q.matrix.yx = 4 * (q.x * q.y) := by simp only [matrix]; ring
    have a2 : q.matrix.zx + q.matrix.xz = 4 * (q.x * q.z) := by simp only [matrix]; ring
    have a3 : q.matrix.zy - q.matrix.yz = 4 * (q.x * q.w) := by simp only [matrix]; ring
    rw [a1, a2, a3]
    rcases lt_or_gt_of_ne hx0 with hneg | hpos
    · right
      rw [(fin q.x q.y hx0).2 hneg, (fin q.x q.z hx0).2 hneg, (fin q.x q.w hx0).2 hneg, abs_of_neg hneg]
      ext <;> simp only [neg]; ring
    · left
      rw [(fin q.x q.y hx0).1 hpos, (fin q.x q.z hx0).1 hpos, (fin q.x q.w hx0).1 hpos, abs_of_pos hpos]
      ext <;> simp only; ring
  rw [if_neg e1]
  by_cases e2 : M = q.matrix.yy
  · rw [if_pos e2]
    rw [e2, hyy] at m1 m3 m4
    have hx0 : q.y ≠ 0 := by intro h0; rw [h0] at m1 m3 m4 h1; nlinarith
    have hq : 1 - (4 * (q.w * q.w) - 1) + 2 * M = 4 * (q.y * q.y) := by rw [e2, hyy]; ring
    rw [hq, key _ hx0]
    have a1 : q.matrix.xy + q.matrix.yx = 4 * (q.y * q.x) := by simp only [matrix]; ring
    have a2 : q.matrix.yz + q.matrix.zy = 4 * (q.y * q.z) := by simp only [matrix]; ring
    have a3 : q.matrix.xz - q.matrix.zx = 4 * (q.y * q.w) := by simp only [matrix]; ring
    rw [a1, a2, a3]
    rcases lt_or_gt_of_ne hx0 with hneg | hpos
    · right
      rw [(fin q.y q.x hx0).2 hneg, (fin q.y q.z hx0).2 hneg, (fin q.y q.w hx0).2 hneg, abs_of_neg hneg]
      ext <;> simp only [neg]; ring
    · left
      rw [(fin q.y q.x hx0).1 hpos, (fin q.y q.z hx0).1 hpos, (fin q.y q.w hx0).1 hpos, abs_of_pos hpos]
      ext <;> simp only; ring
  rw [if_neg e2]
  by_cases e3 : M = q.matrix.zz
  · rw [if_pos e3]
    rw [e3, hzz] at m1 m2 m4
    have hx0 : q.z ≠ 0 := by intro h0; rw [h0] at m1 m2 m4 h1; nlinarith
    have hq : 1 - (4 * (q.w * q.w) - 1) + 2 * M = 4 * (q.z * q.z) := by rw [e3, hzz]; ring
    rw [hq, key _ hx0]
    have a1 : q.matrix.xz + q.matrix.zx = 4 * (q.z * q.x) := by simp only [matrix]; ring
    have a2 : q.matrix.yz + q.matrix.zy = 4 * (q.z * q.y) := by simp only [matrix]; ring
    have a3 : q.matrix.yx - q.matrix.xy = 4 * (q.z * q.w) := by simp only [matrix]; ring
    rw [a1, a2, a3]
    rcases lt_or_gt_of_ne hx0 with hneg | hpos
    · right
      rw [(fin q.z q.x hx0).2 hneg, (fin q.z q.y hx0).2 hneg, (fin q.z q.w hx0).2 hneg, abs_of_neg hneg]
      ext <;> simp only [neg]; ring
    · left
      rw [(fin q.z q.x hx0).1 hpos, (fin q.z q.y hx0).1 hpos, (fin q.z q.w hx0).1 hpos, abs_of_pos hpos]
      ext <;> simp only; ring
  rw [if_neg e3]
  have e4 : M = 4 * (q.w * q.w) - 1 := by
    rcases max_choice (max q.matrix.xx q.matrix.yy) (max q.matrix.zz (4 * (q.w * q.w) - 1)) with hc | hc
    · rcases max_choice q.matrix.xx q.matrix.yy with hd | hd
      · exact absurd (hM.trans (hc.trans hd)) e1
      · exact absurd (hM.trans (hc.trans hd)) e2
    · rcases max_choice q.matrix.zz (4 * (q.w * q.w) - 1) with hd | hd
      · exact absurd (hM.trans (hc.trans hd)) e3
      · exact hM.trans (hc.trans hd)
  rw [e4] at m1 m2 m3
  have hx0 : q.w ≠ 0 := by intro h0; rw [h0] at m1 m2 m3 h1; nlinarith
  have hq : 1 - (4 * (q.w * q.w) - 1) + 2 * M = 4 * (q.w * q.w) := by rw [e4]; ring
  rw [hq, key _ hx0]
  have a1 : q.matrix.zy - q.matrix.yz = 4 * (q.w * q.x) := by simp only [matrix]; ring
  have a2 : q.matrix.xz - q.matrix.zx = 4 * (q.w * q.y) := by simp only [matrix]; ring
  have a3 : q.matrix.yx - q.matrix.xy = 4 * (q.w * q.z) := by simp only [matrix]; ring
  rw [a1, a2, a3]
  rcases lt_or_gt_of_ne hx0 with hneg | hpos
  · right
    rw [(fin q.w q.x hx0).2 hneg, (fin q.w q.y hx0).2 hneg, (fin q.w q.z hx0).2 hneg, abs_of_neg hneg]
    ext <;> simp only [neg]; ring
  · left
    rw [(fin q.w q.x hx0).1 hpos, (fin q.w q.y hx0).1 hpos, (fin q.w q.z hx0).1 hpos, abs_of_pos hpos]
    ext <;> simp only; ring

/-! ### Rotation between two directions -/

theorem normalize_dot (v : Vec3 ℝ) (hv : v ≠ 0) : Vec3.dot v.normalize v.normalize = 1 := by
  have hpos : 0 < Vec3.dot v v := by
    rcases (Vec3.dot_self_nonneg v).lt_or_eq with h | h
    · exact h
    · exfalso; apply hv
      have hh : v.x * v.x + v.y * v.y + v.z * v.z = 0 := h.symm
      ext
      · show v.x = 0; nlinarith [mul_self_nonneg v.x, mul_self_nonneg v.y, mul_self_nonneg v.z]
      · show v.y = 0; nlinarith [mul_self_nonneg v.x, mul_self_nonneg v.y, mul_self_nonneg v.z]
      · show v.z = 0; nlinarith [mul_self_nonneg v.x, mul_self_nonneg v.y, mul_self_nonneg v.z]
  have hn : v.norm * v.norm = Vec3.dot v v := Real.mul_self_sqrt hpos.le
  have hn0 : v.norm ≠ 0 := by intro h0; rw [h0] at hn; simp at hn; rw [← hn] at hpos; exact lt_irrefl _ hpos
  have : Vec3.dot v.normalize v.normalize = Vec3.dot v v / (v.norm * v.norm) := by
    simp only [Vec3.dot, Vec3.normalize]; field_simp
  rw [this, hn]; exact div_self hpos.ne'

/-- C43: `rotation_between` returns a quaternion of length one that rotates the direction of the first vector to the
direction of the second, for all non-zero vectors except a pair of opposite vectors along the x axis. -/
theorem C43_rotation_between_partial (a b : Vec3 ℝ) (ha : a ≠ 0) (hb : b ≠ 0)
    (hx : Vec3.dot a.normalize b.normalize = -1 → ¬ (a.y = 0 ∧ a.z = 0)) :
    (rotationBetween a b).IsUnit ∧ (rotationBetween a b).rotate a.normalize false = b.normalize := by
  have h0 := normalize_dot a ha
  have h1 := normalize_dot b hb
  have hy0 : a.normalize.y = 0 → a.normalize.z = 0 → a.y = 0 ∧ a.z = 0 := by
    intro e1 e2
    have hn : a.norm ≠ 0 := by
      intro h; simp [Vec3.normalize, h, Vec3.dot] at h0
    simp only [Vec3.normalize, div_eq_zero_iff, hn, or_false] at e1 e2
    exact ⟨e1, e2⟩
  unfold rotationBetween
  generalize a.normalize = u at *
  generalize b.normalize = v at *
  simp only
  split
  next hdot =>
    -- opposite directions
    have hv : v = -u := by
      simp only [Vec3.dot] at h0 h1 hdot
      have hs : (u.x + v.x) * (u.x + v.x) + (u.y + v.y) * (u.y + v.y) + (u.z + v.z) * (u.z + v.z) = 0 := by
        linear_combination h0 + h1 + 2 * hdot
      ext
      · show v.x = -u.x; nlinarith [mul_self_nonneg (u.x + v.x), mul_self_nonneg (u.y + v.y), mul_self_nonneg (u.z + v.z)]
      · show v.y = -u.y; nlinarith [mul_self_nonneg (u.x + v.x), mul_self_nonneg (u.y + v.y), mul_self_nonneg (u.z + v.z)]
      · show v.z = -u.z; nlinarith [mul_self_nonneg (u.x + v.x), mul_self_nonneg (u.y + v.y), mul_self_nonneg (u.z + v.z)]
    have hc : Vec3.cross ⟨1, 0, 0⟩ u = (⟨0, -u.z, u.y⟩ : Vec3 ℝ) := by ext <;> simp [Vec3.cross]
    have hne : (⟨0, -u.z, u.y⟩ : Vec3 ℝ) ≠ 0 := by
      intro h
      have e1 : -u.z = 0 := congrArg Vec3.y h
      have e2 : u.y = 0 := congrArg Vec3.z h
      exact hx hdot (hy0 e2 (by linarith))
    have hn := normalize_dot _ hne
    rw [hc]
    generalize hw : (⟨0, -u.z, u.y⟩ : Vec3 ℝ).normalize = w at hn
    have hwx : w.x = 0 := by rw [← hw]; simp [Vec3.normalize]
    have hwu : w.y * u.y + w.z * u.z = 0 := by
      rw [← hw]; simp only [Vec3.normalize]; ring
    have hn' : w.y * w.y + w.z * w.z = 1 := by simp only [Vec3.dot, hwx] at hn; linarith
    have hu : (ofVec w).IsUnit := by
      show (ofVec w).normSq = 1
      simp only [ofVec, normSq, hwx]; linarith
    refine ⟨hu, ?_⟩
    rw [rotate_unit hu, hv]
    simp only [Bool.false_eq_true, if_false, ofVec, hwx]
    ext <;> simp only [sandwich, Vec3.neg_x, Vec3.neg_y, Vec3.neg_z]
    · linear_combination (-u.x) * hn'
    · linear_combination (-u.y) * hn' + 2 * w.y * hwu
    · linear_combination (-u.z) * hn' + 2 * w.z * hwu
  next hdot =>
    have hle : -1 ≤ Vec3.dot u v := by
      simp only [Vec3.dot] at h0 h1 ⊢
      nlinarith [mul_self_nonneg (u.x + v.x), mul_self_nonneg (u.y + v.y), mul_self_nonneg (u.z + v.z)]
    have hpos : 0 < 1 + Vec3.dot u v := by
      rcases hle.lt_or_eq with h | h
      · linarith
      · exact absurd h.symm hdot
    set d := Vec3.dot u v with hd
    set q : Quat := ⟨(Vec3.cross u v).x, (Vec3.cross u v).y, (Vec3.cross u v).z, 1 + d⟩ with hqd
    have hd' : u.x * v.x + u.y * v.y + u.z * v.z = d := rfl
    simp only [Vec3.dot] at h0 h1
    have hns : q.normSq = 2 * (1 + d) := by
      simp only [hqd, normSq, Vec3.cross]
      have hl : (u.y * v.z - u.z * v.y) * (u.y * v.z - u.z * v.y) + (u.z * v.x - u.x * v.z) * (u.z * v.x - u.x * v.z) +
          (u.x * v.y - u.y * v.x) * (u.x * v.y - u.y * v.x) =
          (u.x * u.x + u.y * u.y + u.z * u.z) * (v.x * v.x + v.y * v.y + v.z * v.z) -
          (u.x * v.x + u.y * v.y + u.z * v.z) * (u.x * v.x + u.y * v.y + u.z * v.z) := by ring
      rw [h0, h1, hd'] at hl
      linarith
    have hns0 : q.normSq ≠ 0 := by rw [hns]; positivity
    refine ⟨normalize_unit q hns0, ?_⟩
    rw [rotate_unit (normalize_unit q hns0)]
    simp only [Bool.false_eq_true, if_false]
    have hs : sandwich q.normalize u = Vec3.smul (1 / q.normSq) (sandwich q u) := by
      unfold normalize
      split
      next hh => rw [hh]; ext <;> simp [Vec3.smul]
      next =>
        rw [sandwich_scale, div_pow, one_pow, Real.sq_sqrt q.normSq_nonneg]
    have hsand : sandwich q u = Vec3.smul q.normSq v := by
      rw [hns]
      have hl : (u.y * v.z - u.z * v.y) * (u.y * v.z - u.z * v.y) + (u.z * v.x - u.x * v.z) * (u.z * v.x - u.x * v.z) +
          (u.x * v.y - u.y * v.x) * (u.x * v.y - u.y * v.x) = 1 - d * d := by
        rw [← hd']
        linear_combination (v.x * v.x + v.y * v.y + v.z * v.z) * h0 + h1
      have c0 : (u.y * v.z - u.z * v.y) * u.x + (u.z * v.x - u.x * v.z) * u.y + (u.x * v.y - u.y * v.x) * u.z = 0 := by
        ring
      have c1 : (u.z * v.x - u.x * v.z) * u.z - (u.x * v.y - u.y * v.x) * u.y = v.x - u.x * d := by
        rw [← hd']; linear_combination v.x * h0
      have c2 : (u.x * v.y - u.y * v.x) * u.x - (u.y * v.z - u.z * v.y) * u.z = v.y - u.y * d := by
        rw [← hd']; linear_combination v.y * h0
      have c3 : (u.y * v.z - u.z * v.y) * u.y - (u.z * v.x - u.x * v.z) * u.x = v.z - u.z * d := by
        rw [← hd']; linear_combination v.z * h0
      simp only [hqd, Vec3.cross]
      generalize u.y * v.z - u.z * v.y = e1 at *
      generalize u.z * v.x - u.x * v.z = e2 at *
      generalize u.x * v.y - u.y * v.x = e3 at *
      ext <;> simp only [sandwich, Vec3.smul]
      · linear_combination (-u.x) * hl + 2 * e1 * c0 + 2 * (1 + d) * c1
      · linear_combination (-u.y) * hl + 2 * e2 * c0 + 2 * (1 + d) * c2
      · linear_combination (-u.z) * hl + 2 * e3 * c0 + 2 * (1 + d) * c3
    rw [hs, hsand]
    ext <;> simp only [Vec3.smul] <;> field_simp

/-- C43 fails for opposite vectors along the x axis: the returned quaternion is zero, which is no rotation (rotating with
it divides by zero). -/
theorem C43_rotation_between_opposite_x_fails : rotationBetween ⟨1, 0, 0⟩ ⟨-1, 0, 0⟩ = ⟨0, 0, 0, 0⟩ := by
  have h0 : (⟨1, 0, 0⟩ : Vec3 ℝ).normalize = ⟨1, 0, 0⟩ := by simp [Vec3.normalize, Vec3.norm, Vec3.dot]
  have h1 : (⟨-1, 0, 0⟩ : Vec3 ℝ).normalize = ⟨-1, 0, 0⟩ := by simp [Vec3.normalize, Vec3.norm, Vec3.dot]
  unfold rotationBetween
  simp only [h0, h1]
  rw [if_pos (by simp [Vec3.dot])]
  simp [Vec3.cross, Vec3.normalize, ofVec]

/-- C43: `operator+(double)` multiplies instead of adding, so it disagrees with `operator+=(double)`. -/
theorem C43_add_number_fails : addScalar ⟨0, 0, 0, 1⟩ 1 ≠ addScalarAssign ⟨0, 0, 0, 1⟩ 1 := by
  intro h
  have := congrArg Quat.x h
  simp [addScalar, addScalarAssign] at this

/-- C43: the quaternion for an axis and an angle has length one. -/
theorem C43_axis_angle_unit (axis : Vec3 ℝ) (hx : axis ≠ 0) (angle : ℝ) : (ofAxisAngle axis angle).IsUnit := by
  have h := normalize_dot axis hx
  simp only [Vec3.dot] at h
  show (ofAxisAngle axis angle).normSq = 1
  simp only [ofAxisAngle, normSq]
  linear_combination Real.sin (angle / 2) ^ 2 * h + Real.sin_sq_add_cos_sq (angle / 2)

/-- C43: it turns by that angle about that axis (Rodrigues' formula). -/
theorem C43_axis_angle (axis : Vec3 ℝ) (hx : axis ≠ 0) (angle : ℝ) (p : Vec3 ℝ) :
    (ofAxisAngle axis angle).rotate p false =
      Vec3.smul (Real.cos angle) p + Vec3.smul (Real.sin angle) (Vec3.cross axis.normalize p) +
      Vec3.smul ((1 - Real.cos angle) * Vec3.dot axis.normalize p) axis.normalize := by
  rw [rotate_unit (C43_axis_angle_unit axis hx angle)]
  have h := normalize_dot axis hx
  simp only [Vec3.dot] at h
  have e1 : Real.cos angle = 2 * Real.cos (angle / 2) ^ 2 - 1 := by rw [← Real.cos_two_mul]; congr 1; ring
  have e2 : Real.sin angle = 2 * Real.sin (angle / 2) * Real.cos (angle / 2) := by
    rw [← Real.sin_two_mul]; congr 1; ring
  have e3 := Real.sin_sq_add_cos_sq (angle / 2)
  simp only [Bool.false_eq_true, if_false, ofAxisAngle]
  rw [e1, e2]
  generalize axis.normalize = u at *
  generalize Real.sin (angle / 2) = s at *
  generalize Real.cos (angle / 2) = c at *
  ext <;> simp only [sandwich, Vec3.add_x, Vec3.add_y, Vec3.add_z, Vec3.smul, Vec3.cross, Vec3.dot]
  · linear_combination (-p.x * s ^ 2) * h + (2 * (u.x * p.x + u.y * p.y + u.z * p.z) * u.x - p.x) * e3
  · linear_combination (-p.y * s ^ 2) * h + (2 * (u.x * p.x + u.y * p.y + u.z * p.z) * u.y - p.y) * e3
  · linear_combination (-p.z * s ^ 2) * h + (2 * (u.x * p.x + u.y * p.y + u.z * p.z) * u.z - p.z) * e3

/-- Non-trivial instances: a unit quaternion that is not a basis element, and directions that are neither equal nor
opposite. -/
example : IsUnit ⟨1 / 2, 1 / 2, 1 / 2, 1 / 2⟩ := by simp only [IsUnit, normSq]; norm_num

example : (⟨1, 0, 0⟩ : Vec3 ℝ) ≠ 0 ∧ (⟨0, 1, 0⟩ : Vec3 ℝ) ≠ 0 ∧
    (Vec3.dot (⟨1, 0, 0⟩ : Vec3 ℝ).normalize (⟨0, 1, 0⟩ : Vec3 ℝ).normalize = -1 → ¬ ((0 : ℝ) = 0 ∧ (0 : ℝ) = 0)) := by
  refine ⟨fun h => one_ne_zero (congrArg Vec3.x h), fun h => one_ne_zero (congrArg Vec3.y h), fun h => ?_⟩
  simp [Vec3.dot, Vec3.normalize] at h

end Siren.Quat
