import Verif.Math.QuatProps

set_option autoImplicit false

/-!
# Four-momenta, boosts and rotations of the `rk` library

Models the parts of `vendor/rk/rk` that the cross sections and decays use. Doubles are real numbers. A square root of a
negative number (not a number in the code) and a failing `assert` give `none`.
-/

namespace Siren
namespace Rk

/-! ### Vectors and directions -/

/-- `sqrt` of a double: not a number (`none`) for negative arguments. -/
noncomputable def sqrtN (a : ℝ) : Option ℝ := by
  classical exact if 0 ≤ a then some (Real.sqrt a) else none

open Classical in
/-- `Vector3::direction` and `UnitVector3::UnitVector3(x, y, z, norm)` (geom3_Vector3.icc:77-82,
geom3_UnitVector3.icc:56-75): the null vector has the direction of the x axis. -/
noncomputable def direction (v : Vec3 ℝ) : Vec3 ℝ := if v.norm > 0 then v.normalize else ⟨1, 0, 0⟩

open Classical in
/-- `Vector3::setLength` (geom3.cc:281-300). -/
noncomputable def setLength (v : Vec3 ℝ) (value : ℝ) : Vec3 ℝ :=
  if v.norm > 0 then Vec3.smul (value / v.norm) v else ⟨value, 0, 0⟩

/-! ### Rotations -/

/-- Product of quaternions `(v, s)` (geom3_Rotation3.icc:50-56); the scalar part is `w`. -/
def qmul (a b : Quat) : Quat :=
  ⟨b.x * a.w + a.x * b.w + (a.y * b.z - a.z * b.y),
   b.y * a.w + a.y * b.w + (a.z * b.x - a.x * b.z),
   b.z * a.w + a.z * b.w + (a.x * b.y - a.y * b.x),
   a.w * b.w - (a.x * b.x + a.y * b.y + a.z * b.z)⟩

/-- `Quaternion::normalize` (geom3_Rotation3.icc:24-31). -/
noncomputable def qnormalize (q : Quat) : Quat :=
  let n := Real.sqrt (q.x * q.x + q.y * q.y + q.z * q.z + q.w * q.w)
  ⟨q.x / n, q.y / n, q.z / n, q.w / n⟩

/-- `Rotation3::operator*(Vector3)` (geom3_Rotation3.icc:75-78): conjugates with the quaternion and restores the length. -/
noncomputable def rotApply (q : Quat) (v : Vec3 ℝ) : Vec3 ℝ :=
  let r := qmul (qmul q ⟨v.x, v.y, v.z, 0⟩) ⟨-q.x, -q.y, -q.z, q.w⟩
  setLength ⟨r.x, r.y, r.z⟩ v.norm

/-- `Rotation3::Rotation3(UnitVector3, double)` (geom3_Rotation3.icc:107-113). -/
noncomputable def axisAngle (axis : Vec3 ℝ) (angle : ℝ) : Quat :=
  ⟨axis.x * Real.sin (angle / 2), axis.y * Real.sin (angle / 2), axis.z * Real.sin (angle / 2), Real.cos (angle / 2)⟩

open Classical in
/-- `rotationBetween(UnitVector3, UnitVector3)` (geom3_Vector3.icc:288-313). `abs` is the absolute value of a double. -/
noncomputable def rotationBetween (v1 v2 : Vec3 ℝ) : Quat :=
  let c := Vec3.cross v1 v2
  let scalar := Vec3.dot v1 v2
  if |1 - scalar| < 1e-9 then ⟨0, 0, 0, 1⟩
  else if |1 + scalar| < 1e-9 then
    let x := |v1.x|; let y := |v1.y|; let z := |v1.z|
    let other : Vec3 ℝ := if x < y then (if x < z then ⟨1, 0, 0⟩ else ⟨0, 0, 1⟩) else (if y < z then ⟨0, 0, 1⟩ else ⟨0, 0, 1⟩)
    let vo := direction (Vec3.cross v1 other)
    qnormalize ⟨vo.x, vo.y, vo.z, 0⟩
  else qnormalize ⟨c.x, c.y, c.z, 1 + scalar⟩

/-! ### Four-momenta -/

/-- `rk::P4` (rk.hh): momentum, energy, the cached mass (`none` when it is not known: `m_ < 0`) and the flag
`msqIsNonNegative_`. -/
structure P4 where
  p : Vec3 ℝ
  e : ℝ
  known : Option ℝ
  nonneg : Bool

/-- `P4::P4(Vector3, m)` (rk_P4.icc:27-35). -/
noncomputable def P4.ofMass (p : Vec3 ℝ) (m : ℝ) : P4 := ⟨p, Real.sqrt (m * m + Vec3.dot p p), some m, true⟩

/-- `P4::P4(e, Vector3)` (rk_P4.icc:37-40). -/
def P4.ofEnergy (e : ℝ) (p : Vec3 ℝ) : P4 := ⟨p, e, none, false⟩

open Classical in
/-- `P4::m` (rk_P4.icc:94-112). -/
noncomputable def P4.m (P : P4) : Option ℝ :=
  match P.known with
  | some m => some m
  | none =>
    let msq := P.e * P.e - Vec3.dot P.p P.p
    if P.nonneg then some (Real.sqrt (if msq < 0 then 0 else msq)) else sqrtN msq

open Classical in
/-- `operator+(P4, P4)` (rk_P4.icc:196-200). -/
noncomputable def P4.add (l r : P4) : P4 := ⟨l.p + r.p, l.e + r.e, none, l.nonneg && r.nonneg && decide (0 ≤ l.e * r.e)⟩

open Classical in
/-- `operator-(P4, P4)` (rk_P4.icc:202-206). -/
noncomputable def P4.sub (l r : P4) : P4 := ⟨l.p - r.p, l.e - r.e, none, l.nonneg && r.nonneg && decide (l.e * r.e ≤ 0)⟩

/-- `P4::dot` (rk_P4.icc:176-179). -/
def P4.dot (l r : P4) : ℝ := l.e * r.e - Vec3.dot l.p r.p

/-- `P4::rotate` (rk.cc:24-28). -/
noncomputable def P4.rotate (P : P4) (q : Quat) : P4 := { P with p := rotApply q P.p }

/-- `rk::Boost`: direction, hyperbolic cosine minus one, hyperbolic sine (rk.hh). -/
structure Boost where
  dir : Vec3 ℝ
  c : ℝ
  s : ℝ

open Classical in
/-- `P4::boost` (rk.cc:8-22). -/
noncomputable def P4.boost (P : P4) (b : Boost) : Option P4 :=
  (match P.known with
   | some m => some m
   | none => sqrtN (P.e * P.e - Vec3.dot P.p P.p)).map fun m =>
    let par := Vec3.dot b.dir P.p
    let p' := P.p + Vec3.smul (b.c * par - P.e * b.s) b.dir
    ⟨p', Real.sqrt (m * m + Vec3.dot p' p') * (if P.e < 0 then -1 else 1), some m,
      P.nonneg || P.known.isNone⟩

/-- `P4::ensureMass_` (rk_P4.icc:61-70): asserts a positive mass. -/
noncomputable def P4.ensureMass (P : P4) : Option ℝ := by
  classical exact
    match P.known with
    | some m => if m ≤ 0 then
        (if 0 < P.e * P.e - Vec3.dot P.p P.p then some (Real.sqrt (P.e * P.e - Vec3.dot P.p P.p)) else none) else some m
    | none => if 0 < P.e * P.e - Vec3.dot P.p P.p then some (Real.sqrt (P.e * P.e - Vec3.dot P.p P.p)) else none

/-- `P4::restBoost` with `Boost::Boost(direction, ch, sh)` (rk_Boost.icc:19-27, 106-110). -/
noncomputable def P4.restBoost (P : P4) : Option Boost :=
  P.ensureMass.map fun m => ⟨direction P.p, P.e / m - 1, P.p.norm / m⟩

/-- `P4::labBoost` (rk_Boost.icc:112-116). -/
noncomputable def P4.labBoost (P : P4) : Option Boost :=
  P.ensureMass.map fun m => ⟨direction P.p, P.e / m - 1, -P.p.norm / m⟩

/-! ### Lemmas -/

theorem norm_sq (v : Vec3 ℝ) : v.norm * v.norm = Vec3.dot v v := Real.mul_self_sqrt (Vec3.dot_self_nonneg v)

theorem eq_zero_of_norm {v : Vec3 ℝ} (h : v.norm = 0) : v = 0 := by
  have h2 := norm_sq v
  rw [h] at h2
  simp only [Vec3.dot] at h2
  ext
  · show v.x = 0; nlinarith [mul_self_nonneg v.x, mul_self_nonneg v.y, mul_self_nonneg v.z]
  · show v.y = 0; nlinarith [mul_self_nonneg v.x, mul_self_nonneg v.y, mul_self_nonneg v.z]
  · show v.z = 0; nlinarith [mul_self_nonneg v.x, mul_self_nonneg v.y, mul_self_nonneg v.z]

theorem norm_pos {v : Vec3 ℝ} (h : v ≠ 0) : 0 < v.norm :=
  lt_of_le_of_ne (Vec3.norm_nonneg v) (fun e => h (eq_zero_of_norm e.symm))

theorem direction_unit (v : Vec3 ℝ) : Vec3.dot (direction v) (direction v) = 1 := by
  unfold direction
  split
  next h => exact Quat.normalize_dot v (fun e => by rw [e] at h; simp [Vec3.norm, Vec3.dot] at h)
  next h => simp [Vec3.dot]

theorem norm_direction (v : Vec3 ℝ) : Vec3.smul v.norm (direction v) = v := by
  unfold direction
  split
  next h =>
    ext <;> simp only [Vec3.smul, Vec3.normalize] <;> field_simp
  next h =>
    have h0 : v.norm = 0 := le_antisymm (not_lt.mp h) (Vec3.norm_nonneg v)
    rw [h0, eq_zero_of_norm h0]
    ext <;> simp [Vec3.smul]

theorem dot_direction (v : Vec3 ℝ) : Vec3.dot (direction v) v = v.norm := by
  have h := norm_direction v
  have h1 := direction_unit v
  calc Vec3.dot (direction v) v = Vec3.dot (direction v) (Vec3.smul v.norm (direction v)) := by rw [h]
    _ = v.norm * Vec3.dot (direction v) (direction v) := by simp only [Vec3.dot, Vec3.smul]; ring
    _ = v.norm := by rw [h1, mul_one]

theorem direction_of_unit {v : Vec3 ℝ} (h : Vec3.dot v v = 1) : direction v = v := by
  have hn : v.norm = 1 := by rw [Vec3.norm, h, Real.sqrt_one]
  have := norm_direction v
  rw [hn] at this
  calc direction v = Vec3.smul 1 (direction v) := by ext <;> simp [Vec3.smul]
    _ = v := this

theorem setLength_self (v : Vec3 ℝ) : setLength v v.norm = v := by
  unfold setLength
  split
  next h => rw [div_self h.ne']; ext <;> simp [Vec3.smul]
  next h =>
    have h0 : v.norm = 0 := le_antisymm (not_lt.mp h) (Vec3.norm_nonneg v)
    rw [h0, eq_zero_of_norm h0]; rfl

/-- Rotating with a quaternion of length one: the length is already right. -/
theorem rotApply_eq {q : Quat} (hq : q.IsUnit) (v : Vec3 ℝ) : rotApply q v = Quat.sandwich q v := by
  have hs : (⟨(qmul (qmul q ⟨v.x, v.y, v.z, 0⟩) ⟨-q.x, -q.y, -q.z, q.w⟩).x,
      (qmul (qmul q ⟨v.x, v.y, v.z, 0⟩) ⟨-q.x, -q.y, -q.z, q.w⟩).y,
      (qmul (qmul q ⟨v.x, v.y, v.z, 0⟩) ⟨-q.x, -q.y, -q.z, q.w⟩).z⟩ : Vec3 ℝ) = Quat.sandwich q v := by
    ext <;> simp only [qmul, Quat.sandwich] <;> ring
  have hn : (Quat.sandwich q v).norm = v.norm := by
    unfold Vec3.norm
    rw [Quat.sandwich_dot]
    have : q.normSq = 1 := hq
    rw [this]; simp
  unfold rotApply
  simp only
  rw [hs, ← hn, setLength_self]

theorem axisAngle_unit {a : Vec3 ℝ} (ha : Vec3.dot a a = 1) (t : ℝ) : (axisAngle a t).IsUnit := by
  show (axisAngle a t).normSq = 1
  simp only [axisAngle, Quat.normSq]
  simp only [Vec3.dot] at ha
  have := Real.sin_sq_add_cos_sq (t / 2)
  linear_combination (Real.sin (t / 2)) ^ 2 * ha + this

/-- A rotation about an axis leaves the axis where it is. -/
theorem axisAngle_axis {a : Vec3 ℝ} (ha : Vec3.dot a a = 1) (t : ℝ) : rotApply (axisAngle a t) a = a := by
  rw [rotApply_eq (axisAngle_unit ha t)]
  simp only [Vec3.dot] at ha
  have h := Real.sin_sq_add_cos_sq (t / 2)
  ext <;> simp only [axisAngle, Quat.sandwich]
  · linear_combination a.x * Real.sin (t / 2) ^ 2 * ha + a.x * h
  · linear_combination a.y * Real.sin (t / 2) ^ 2 * ha + a.y * h
  · linear_combination a.z * Real.sin (t / 2) ^ 2 * ha + a.z * h

theorem rotApply_dot {q : Quat} (hq : q.IsUnit) (a b : Vec3 ℝ) : Vec3.dot (rotApply q a) (rotApply q b) = Vec3.dot a b := by
  rw [rotApply_eq hq, rotApply_eq hq, Quat.sandwich_dot]
  have : q.normSq = 1 := hq
  rw [this]; simp

theorem qnormalize_eq (q : Quat) : qnormalize q = q.scale (1 / Real.sqrt q.normSq) := by
  have : q.x * q.x + q.y * q.y + q.z * q.z + q.w * q.w = q.normSq := by simp only [Quat.normSq]; ring
  simp only [qnormalize, Quat.scale, this]
  congr 1 <;> ring

theorem qnormalize_unit {q : Quat} (hq : 0 < q.normSq) : (qnormalize q).IsUnit := by
  show (qnormalize q).normSq = 1
  rw [qnormalize_eq, Quat.normSq_scale]
  have h := Real.mul_self_sqrt hq.le
  have hs : Real.sqrt q.normSq ≠ 0 := (Real.sqrt_pos.mpr hq).ne'
  field_simp
  rw [pow_two, h]

/-- Directions `rotationBetween` treats exactly: the pairs it takes for parallel or opposite are so. -/
def Apart (u v : Vec3 ℝ) : Prop :=
  (|1 - Vec3.dot u v| < 1e-9 → Vec3.dot u v = 1) ∧ (|1 + Vec3.dot u v| < 1e-9 → Vec3.dot u v = -1)

theorem eq_of_dot_one {u v : Vec3 ℝ} (hu : Vec3.dot u u = 1) (hv : Vec3.dot v v = 1) (h : Vec3.dot u v = 1) : u = v := by
  simp only [Vec3.dot] at *
  have hs : (u.x - v.x) * (u.x - v.x) + (u.y - v.y) * (u.y - v.y) + (u.z - v.z) * (u.z - v.z) = 0 := by
    linear_combination hu + hv - 2 * h
  ext
  · nlinarith [mul_self_nonneg (u.x - v.x), mul_self_nonneg (u.y - v.y), mul_self_nonneg (u.z - v.z)]
  · nlinarith [mul_self_nonneg (u.x - v.x), mul_self_nonneg (u.y - v.y), mul_self_nonneg (u.z - v.z)]
  · nlinarith [mul_self_nonneg (u.x - v.x), mul_self_nonneg (u.y - v.y), mul_self_nonneg (u.z - v.z)]

theorem rotationBetween_unit (u v : Vec3 ℝ) :
    (rotationBetween u v).IsUnit := by
  unfold rotationBetween
  simp only
  split
  · simp [Quat.IsUnit, Quat.normSq]
  · split
    next h =>
      apply qnormalize_unit
      have := direction_unit (Vec3.cross u (if |u.x| < |u.y| then (if |u.x| < |u.z| then ⟨1, 0, 0⟩ else ⟨0, 0, 1⟩)
        else (if |u.y| < |u.z| then ⟨0, 0, 1⟩ else ⟨0, 0, 1⟩)))
      generalize direction _ = w at this
      simp only [Vec3.dot] at this
      simp only [Quat.normSq]
      nlinarith
    next h1 h2 =>
      apply qnormalize_unit
      have hne : 0 < (1 + Vec3.dot u v) * (1 + Vec3.dot u v) := by
        have hne : (1 + Vec3.dot u v) ≠ 0 := by
          intro h0; rw [h0] at h2; norm_num at h2
        exact mul_self_pos.mpr hne
      simp only [Quat.normSq]
      nlinarith [mul_self_nonneg (Vec3.cross u v).x, mul_self_nonneg (Vec3.cross u v).y, mul_self_nonneg (Vec3.cross u v).z]

/-- The direction of a vector orthogonal to `u` is orthogonal to `u`. -/
theorem direction_orthogonal {u w : Vec3 ℝ} (hw : w ≠ 0) (h : Vec3.dot u w = 0) : Vec3.dot u (direction w) = 0 := by
  have h1 := norm_direction w
  have hn := norm_pos hw
  have : w.norm * Vec3.dot u (direction w) = 0 := by
    calc w.norm * Vec3.dot u (direction w) = Vec3.dot u (Vec3.smul w.norm (direction w)) := by
          simp only [Vec3.dot, Vec3.smul]; ring
      _ = 0 := by rw [h1, h]
  rcases mul_eq_zero.mp this with h | h
  · exact absurd h hn.ne'
  · exact h

/-- `rotationBetween` takes the first direction to the second. -/
theorem rotationBetween_spec {u v : Vec3 ℝ} (hu : Vec3.dot u u = 1) (hv : Vec3.dot v v = 1) (ha : Apart u v) :
    rotApply (rotationBetween u v) u = v := by
  rw [rotApply_eq (rotationBetween_unit u v)]
  unfold rotationBetween
  simp only
  split
  next h =>
    rw [← eq_of_dot_one hu hv (ha.1 h)]
    ext <;> simp [Quat.sandwich]
  next h1 =>
    split
    next h =>
      have hd := ha.2 h
      have hvu : v = -u := by
        have hvv : Vec3.dot (-v) (-v) = 1 := by simp only [Vec3.dot, Vec3.neg_x, Vec3.neg_y, Vec3.neg_z] at hv ⊢; linarith
        have hdd : Vec3.dot u (-v) = 1 := by simp only [Vec3.dot, Vec3.neg_x, Vec3.neg_y, Vec3.neg_z] at hd ⊢; linarith
        have e := eq_of_dot_one hu hvv hdd
        rw [e]; ext <;> simp
      generalize ho : (if |u.x| < |u.y| then (if |u.x| < |u.z| then (⟨1, 0, 0⟩ : Vec3 ℝ) else ⟨0, 0, 1⟩)
        else (if |u.y| < |u.z| then ⟨0, 0, 1⟩ else ⟨0, 0, 1⟩)) = o
      -- the chosen axis: orthogonal to `u`, of length one
      obtain ⟨w, hwd, hww, huw⟩ : ∃ w, direction (Vec3.cross u o) = w ∧ Vec3.dot w w = 1 ∧ Vec3.dot u w = 0 := by
        refine ⟨_, rfl, direction_unit _, ?_⟩
        by_cases hz : Vec3.cross u o = 0
        · -- only possible for the z axis, whose replacement is the x axis
          have ho2 : o = ⟨1, 0, 0⟩ ∨ o = ⟨0, 0, 1⟩ := by
            rw [← ho]; split
            · split <;> simp
            · split <;> simp
          rcases ho2 with rfl | rfl
          · exfalso
            have hx : |u.x| < |u.y| := by
              by_contra hc
              rw [if_neg hc] at ho
              simp at ho
            have e2 : (Vec3.cross u ⟨1, 0, 0⟩).z = 0 := by rw [hz]; rfl
            simp [Vec3.cross] at e2
            rw [e2] at hx; simp at hx
            exact absurd hx (not_lt.mpr (abs_nonneg _))
          · have e1 : (Vec3.cross u ⟨0, 0, 1⟩).x = 0 := by rw [hz]; rfl
            have e2 : (Vec3.cross u ⟨0, 0, 1⟩).y = 0 := by rw [hz]; rfl
            simp [Vec3.cross] at e1 e2
            rw [hz]
            simp [direction, Vec3.norm, Vec3.dot, e2]
        · apply direction_orthogonal hz
          simp only [Vec3.dot, Vec3.cross]; ring
      rw [hwd]
      have hq : qnormalize ⟨w.x, w.y, w.z, 0⟩ = ⟨w.x, w.y, w.z, 0⟩ := by
        simp [qnormalize]
        simp only [Vec3.dot] at hww
        simp [hww]
      rw [hq, hvu]
      simp only [Vec3.dot] at hww huw
      ext <;> simp only [Quat.sandwich, Vec3.neg_x, Vec3.neg_y, Vec3.neg_z]
      · linear_combination (-u.x) * hww + 2 * w.x * huw
      · linear_combination (-u.y) * hww + 2 * w.y * huw
      · linear_combination (-u.z) * hww + 2 * w.z * huw
    next h2 =>
      have hne : (1 + Vec3.dot u v) ≠ 0 := by
        intro h0; rw [h0] at h2; norm_num at h2
      have hle : -1 ≤ Vec3.dot u v := by
        simp only [Vec3.dot] at hu hv ⊢
        nlinarith [mul_self_nonneg (u.x + v.x), mul_self_nonneg (u.y + v.y), mul_self_nonneg (u.z + v.z)]
      have hpos : 0 < 1 + Vec3.dot u v := lt_of_le_of_ne (by linarith) (Ne.symm hne)
      rw [qnormalize_eq, Quat.sandwich_scale]
      set d := Vec3.dot u v with hd
      have hd' : u.x * v.x + u.y * v.y + u.z * v.z = d := rfl
      simp only [Vec3.dot] at hu hv
      set q : Quat := ⟨(Vec3.cross u v).x, (Vec3.cross u v).y, (Vec3.cross u v).z, 1 + d⟩ with hqd
      have hns : q.normSq = 2 * (1 + d) := by
        simp only [hqd, Quat.normSq, Vec3.cross]
        rw [← hd']
        linear_combination (v.x * v.x + v.y * v.y + v.z * v.z) * hu + hv
      have hsq : Real.sqrt q.normSq * Real.sqrt q.normSq = 2 * (1 + d) := by
        rw [hns]; exact Real.mul_self_sqrt (by linarith)
      have hk : (1 / Real.sqrt q.normSq) ^ 2 * (2 * (1 + d)) = 1 := by
        rw [← hsq]
        have : Real.sqrt q.normSq ≠ 0 := by rw [hns]; exact (Real.sqrt_pos.mpr (by linarith)).ne'
        field_simp
      have hsand : Quat.sandwich q u = Vec3.smul (2 * (1 + d)) v := by
        have hl : (u.y * v.z - u.z * v.y) * (u.y * v.z - u.z * v.y) + (u.z * v.x - u.x * v.z) * (u.z * v.x - u.x * v.z) +
            (u.x * v.y - u.y * v.x) * (u.x * v.y - u.y * v.x) = 1 - d * d := by
          rw [← hd']
          linear_combination (v.x * v.x + v.y * v.y + v.z * v.z) * hu + hv
        have c0 : (u.y * v.z - u.z * v.y) * u.x + (u.z * v.x - u.x * v.z) * u.y + (u.x * v.y - u.y * v.x) * u.z = 0 := by
          ring
        have c1 : (u.z * v.x - u.x * v.z) * u.z - (u.x * v.y - u.y * v.x) * u.y = v.x - u.x * d := by
          rw [← hd']; linear_combination v.x * hu
        have c2 : (u.x * v.y - u.y * v.x) * u.x - (u.y * v.z - u.z * v.y) * u.z = v.y - u.y * d := by
          rw [← hd']; linear_combination v.y * hu
        have c3 : (u.y * v.z - u.z * v.y) * u.y - (u.z * v.x - u.x * v.z) * u.x = v.z - u.z * d := by
          rw [← hd']; linear_combination v.z * hu
        simp only [hqd, Vec3.cross]
        generalize u.y * v.z - u.z * v.y = e1 at *
        generalize u.z * v.x - u.x * v.z = e2 at *
        generalize u.x * v.y - u.y * v.x = e3 at *
        ext <;> simp only [Quat.sandwich, Vec3.smul]
        · linear_combination (-u.x) * hl + 2 * e1 * c0 + 2 * (1 + d) * c1
        · linear_combination (-u.y) * hl + 2 * e2 * c0 + 2 * (1 + d) * c2
        · linear_combination (-u.z) * hl + 2 * e3 * c0 + 2 * (1 + d) * c3
      rw [hsand]
      ext <;> simp only [Vec3.smul] <;> rw [← mul_assoc, hk, one_mul]

/-! ### Boosts -/

/-- A four-momentum on its mass shell with non-negative energy, whose mass is known. -/
structure P4.OnShell (P : P4) (m : ℝ) : Prop where
  mass : P.known = some m
  shell : P.e * P.e - Vec3.dot P.p P.p = m * m
  pos : 0 ≤ P.e

theorem onShell_ofMass (p : Vec3 ℝ) (m : ℝ) : (P4.ofMass p m).OnShell m := by
  have h : 0 ≤ m * m + Vec3.dot p p := add_nonneg (mul_self_nonneg m) (Vec3.dot_self_nonneg p)
  refine ⟨rfl, ?_, Real.sqrt_nonneg _⟩
  show Real.sqrt _ * Real.sqrt _ - Vec3.dot p p = _
  rw [Real.mul_self_sqrt h]; ring

/-- The component of a vector along a direction is at most its length. -/
theorem dot_sq_le {n k : Vec3 ℝ} (hn : Vec3.dot n n = 1) : Vec3.dot n k * Vec3.dot n k ≤ Vec3.dot k k := by
  simp only [Vec3.dot] at *
  have : (k.x * k.x + k.y * k.y + k.z * k.z) * (n.x * n.x + n.y * n.y + n.z * n.z) -
      (n.x * k.x + n.y * k.y + n.z * k.z) * (n.x * k.x + n.y * k.y + n.z * k.z) =
      (k.x * n.y - k.y * n.x) * (k.x * n.y - k.y * n.x) + (k.y * n.z - k.z * n.y) * (k.y * n.z - k.z * n.y) +
      (k.z * n.x - k.x * n.z) * (k.z * n.x - k.x * n.z) := by ring
  rw [hn] at this
  nlinarith [mul_self_nonneg (k.x * n.y - k.y * n.x), mul_self_nonneg (k.y * n.z - k.z * n.y),
    mul_self_nonneg (k.z * n.x - k.x * n.z)]

/-- A proper boost: a direction and the hyperbolic functions of a rapidity. -/
structure Boost.Proper (b : Boost) : Prop where
  unit : Vec3.dot b.dir b.dir = 1
  hyp : (b.c + 1) * (b.c + 1) - b.s * b.s = 1
  pos : 1 ≤ b.c + 1

/-- What `P4::boost` computes for a particle on its mass shell: the Lorentz transformation. -/
theorem boost_spec {P : P4} {m : ℝ} (hP : P.OnShell m) {b : Boost} (hb : b.Proper) :
    ∃ Q, P.boost b = some Q ∧ Q.OnShell m ∧
      Q.e = (b.c + 1) * P.e - b.s * Vec3.dot b.dir P.p ∧
      Q.p = P.p + Vec3.smul (b.c * Vec3.dot b.dir P.p - P.e * b.s) b.dir := by
  obtain ⟨hm, hsh, hpos⟩ := hP
  obtain ⟨hu, hh, hc⟩ := hb
  have hpar := dot_sq_le (k := P.p) hu
  set par := Vec3.dot b.dir P.p with hpard
  have hdot : ∀ k : ℝ, Vec3.dot (P.p + Vec3.smul k b.dir) (P.p + Vec3.smul k b.dir) =
      Vec3.dot P.p P.p + 2 * k * par + k * k := by
    intro k
    have : Vec3.dot (P.p + Vec3.smul k b.dir) (P.p + Vec3.smul k b.dir) =
      Vec3.dot P.p P.p + 2 * k * par + k * k * Vec3.dot b.dir b.dir := by
      rw [hpard]; simp only [Vec3.dot, Vec3.add_x, Vec3.add_y, Vec3.add_z, Vec3.smul]; ring
    rw [this, hu, mul_one]
  have hE : 0 ≤ (b.c + 1) * P.e - b.s * par := by
    have h1 : (b.s * par) * (b.s * par) ≤ ((b.c + 1) * P.e) * ((b.c + 1) * P.e) := by
      have e1 : b.s * b.s ≤ (b.c + 1) * (b.c + 1) := by linarith
      have e2 : par * par ≤ P.e * P.e := by nlinarith [mul_self_nonneg m]
      calc (b.s * par) * (b.s * par) = (b.s * b.s) * (par * par) := by ring
        _ ≤ ((b.c + 1) * (b.c + 1)) * (P.e * P.e) := mul_le_mul e1 e2 (mul_self_nonneg _) (mul_self_nonneg _)
        _ = _ := by ring
    have h2 : 0 ≤ (b.c + 1) * P.e := by positivity
    have h3 : |b.s * par| ≤ |(b.c + 1) * P.e| := sq_le_sq.mp (by rw [pow_two, pow_two]; exact h1)
    rw [abs_of_nonneg h2] at h3
    linarith [le_abs_self (b.s * par)]
  have hsq : m * m + Vec3.dot (P.p + Vec3.smul (b.c * par - P.e * b.s) b.dir)
      (P.p + Vec3.smul (b.c * par - P.e * b.s) b.dir) =
      ((b.c + 1) * P.e - b.s * par) * ((b.c + 1) * P.e - b.s * par) := by
    rw [hdot]
    have e : m * m = P.e * P.e - Vec3.dot P.p P.p := hsh.symm
    rw [e]
    linear_combination (-(P.e * P.e) + par * par) * hh
  refine ⟨⟨P.p + Vec3.smul (b.c * par - P.e * b.s) b.dir, (b.c + 1) * P.e - b.s * par, some m, P.nonneg⟩, ?_, ?_, rfl, rfl⟩
  · simp only [P4.boost, hm, Option.map_some]
    rw [← hpard, hsq, Real.sqrt_mul_self hE, if_neg (not_lt.mpr hpos)]
    simp
  · refine ⟨rfl, ?_, hE⟩
    show ((b.c + 1) * P.e - b.s * par) * ((b.c + 1) * P.e - b.s * par) - _ = _
    rw [← hsq]; ring

/-- The boosts into and out of the rest frame of a massive particle. -/
theorem boosts_of {P : P4} {M : ℝ} (hP : P.OnShell M) (hM : 0 < M) :
    P.restBoost = some ⟨direction P.p, P.e / M - 1, P.p.norm / M⟩ ∧
    P.labBoost = some ⟨direction P.p, P.e / M - 1, -P.p.norm / M⟩ ∧
    (⟨direction P.p, P.e / M - 1, P.p.norm / M⟩ : Boost).Proper ∧
    (⟨direction P.p, P.e / M - 1, -P.p.norm / M⟩ : Boost).Proper := by
  obtain ⟨hm, hsh, hpos⟩ := hP
  have hen : P.ensureMass = some M := by
    simp only [P4.ensureMass, hm]; rw [if_neg (not_le.mpr hM)]
  have hn := norm_sq P.p
  have hE : M ≤ P.e := by
    by_contra hc
    push Not at hc
    nlinarith [Vec3.dot_self_nonneg P.p]
  have h1 : 1 ≤ P.e / M := by rw [le_div_iff₀ hM]; linarith
  have hy : P.e / M * (P.e / M) - P.p.norm / M * (P.p.norm / M) = 1 := by
    field_simp
    rw [pow_two, pow_two, pow_two, hn, hsh]
  refine ⟨by simp [P4.restBoost, hen], by simp [P4.labBoost, hen], ⟨direction_unit _, ?_, by simpa using h1⟩,
    ⟨direction_unit _, ?_, by simpa using h1⟩⟩
  · simpa using hy
  · simp only [sub_add_cancel]
    rw [← hy]; ring

/-- Boosting into the rest frame undoes boosting out of it. -/
theorem boost_inverse {P : P4} {M : ℝ} (hP : P.OnShell M) (hM : 0 < M) {K Q R : P4} {m : ℝ} (hK : K.OnShell m)
    {bl br : Boost} (hl : P.labBoost = some bl) (hr : P.restBoost = some br) (h1 : K.boost bl = some Q)
    (h2 : Q.boost br = some R) : R.e = K.e ∧ R.p = K.p := by
  obtain ⟨e1, e2, p1, p2⟩ := boosts_of hP hM
  rw [e1, Option.some.injEq] at hr
  rw [e2, Option.some.injEq] at hl
  subst hr hl
  obtain ⟨Q', hQ, hQs, qe, qp⟩ := boost_spec hK p2
  rw [h1, Option.some.injEq] at hQ
  subst hQ
  obtain ⟨R', hR, -, re, rp⟩ := boost_spec hQs p1
  rw [h2, Option.some.injEq] at hR
  subst hR
  have hy := p1.hyp
  have hu := p1.unit
  simp only at qe qp re rp hy hu
  set n := direction P.p
  set g := P.e / M with hg
  set s := P.p.norm / M with hs
  have hneg : -P.p.norm / M = -s := by rw [hs]; ring
  rw [hneg] at qe qp
  have hpar : Vec3.dot n Q.p = Vec3.dot n K.p + ((g - 1) * Vec3.dot n K.p - K.e * -s) := by
    rw [qp]
    have : Vec3.dot n (K.p + Vec3.smul ((g - 1) * Vec3.dot n K.p - K.e * -s) n) =
      Vec3.dot n K.p + ((g - 1) * Vec3.dot n K.p - K.e * -s) * Vec3.dot n n := by
      simp only [Vec3.dot, Vec3.add_x, Vec3.add_y, Vec3.add_z, Vec3.smul]; ring
    rw [this, hu, mul_one]
  simp only [sub_add_cancel] at *
  constructor
  · rw [re, hpar, qe]
    linear_combination K.e * hy
  · rw [rp, hpar, qe, qp]
    have hz : ((g - 1) * Vec3.dot n K.p - K.e * -s) +
        ((g - 1) * (Vec3.dot n K.p + ((g - 1) * Vec3.dot n K.p - K.e * -s)) - (g * K.e - -s * Vec3.dot n K.p) * s) = 0 := by
      linear_combination Vec3.dot n K.p * hy
    generalize (g - 1) * Vec3.dot n K.p - K.e * -s = k1 at *
    generalize (g - 1) * (Vec3.dot n K.p + k1) - (g * K.e - -s * Vec3.dot n K.p) * s = k2 at *
    have : k2 = -k1 := by linarith
    rw [this]
    ext <;> simp [Vec3.smul]

end Rk
end Siren
