import Verif.Math.QuatProps

set_option autoImplicit false

/-!
# C41: placements

Models `geometry/private/Placement.cxx` and the coordinate conversions of `geometry/private/Geometry.cxx:150-168`.
-/

namespace Siren.Geometry

open Siren

/-- `Placement` (geometry/public/SIREN/geometry/Placement.h:82-85). The flag `is_identity_` is a function of the other two
members after every constructor and setter, see `Placement.isIdentity`. -/
structure Placement where
  position : Vec3 ℝ
  quaternion : Quat

namespace Placement

/-- `Placement(position, quaternion)` (geometry/private/Placement.cxx:40-46) and `SetQuaternion` (155-159): the quaternion
is normalized. `Placement()` (19-25) and `Placement(position)` (27-31) have the unit quaternion. -/
noncomputable def make (position : Vec3 ℝ) (quaternion : Quat) : Placement := ⟨position, quaternion.normalize⟩

/-- `Placement(position)` (geometry/private/Placement.cxx:27-31). -/
def translation (position : Vec3 ℝ) : Placement := ⟨position, Quat.one⟩

open Classical in
/-- `UpdateIdentityFlag` (geometry/private/Placement.cxx:140-151). -/
noncomputable def isIdentity (p : Placement) : Bool :=
  decide (p.position.x = 0 ∧ p.position.y = 0 ∧ p.position.z = 0) &&
  decide (|(|p.quaternion.w|) - 1| < 1e-12 ∧ |p.quaternion.x| < 1e-12 ∧ |p.quaternion.y| < 1e-12 ∧
    |p.quaternion.z| < 1e-12)

/-- `LocalToGlobalPosition` (geometry/private/Placement.cxx:166-171). -/
noncomputable def localToGlobalPosition (p : Placement) (v : Vec3 ℝ) : Vec3 ℝ := p.quaternion.rotate v false + p.position

/-- `LocalToGlobalDirection` (geometry/private/Placement.cxx:173-177). -/
noncomputable def localToGlobalDirection (p : Placement) (v : Vec3 ℝ) : Vec3 ℝ := p.quaternion.rotate v false

/-- `GlobalToLocalPosition` (geometry/private/Placement.cxx:179-184). -/
noncomputable def globalToLocalPosition (p : Placement) (v : Vec3 ℝ) : Vec3 ℝ := p.quaternion.rotate (v - p.position) true

/-- `GlobalToLocalDirection` (geometry/private/Placement.cxx:186-190). -/
noncomputable def globalToLocalDirection (p : Placement) (v : Vec3 ℝ) : Vec3 ℝ := p.quaternion.rotate v true

/-- What the constructors and setters guarantee. -/
def Valid (p : Placement) : Prop := p.quaternion.IsUnit

theorem make_valid (v : Vec3 ℝ) (q : Quat) (hq : q.normSq ≠ 0) : (make v q).Valid := Quat.normalize_unit q hq

theorem translation_valid (v : Vec3 ℝ) : (translation v).Valid := by
  simp [Valid, translation, Quat.one, Quat.IsUnit, Quat.normSq]

/-- A valid placement that is flagged as the identity only if it is the identity (the flag has a tolerance of 1e-12). -/
def Sharp (p : Placement) : Prop :=
  p.Valid ∧ (p.isIdentity = true → ∀ v, p.globalToLocalPosition v = v ∧ p.globalToLocalDirection v = v)

/-- C41: converting a position to local coordinates and back, or to global coordinates and back, changes nothing; the same
for directions. -/
theorem C41_inverse (p : Placement) (h : p.Valid) (v : Vec3 ℝ) :
    p.localToGlobalPosition (p.globalToLocalPosition v) = v ∧ p.globalToLocalPosition (p.localToGlobalPosition v) = v ∧
    p.localToGlobalDirection (p.globalToLocalDirection v) = v ∧ p.globalToLocalDirection (p.localToGlobalDirection v) = v := by
  have hi := Quat.C43_inverse h
  refine ⟨?_, ?_, (hi v).2, (hi v).1⟩
  · unfold localToGlobalPosition globalToLocalPosition
    rw [(hi _).2]; ext <;> simp
  · unfold localToGlobalPosition globalToLocalPosition
    have : p.quaternion.rotate v false + p.position - p.position = p.quaternion.rotate v false := by ext <;> simp
    rw [this, (hi _).1]

/-- C41: a point on a global line is on the local line at the same parameter. -/
theorem C41_line (p : Placement) (h : p.Valid) (a d : Vec3 ℝ) (t : ℝ) :
    p.globalToLocalPosition (a + Vec3.smul t d) = p.globalToLocalPosition a + Vec3.smul t (p.globalToLocalDirection d) := by
  have hr := Quat.C43_is_rotation h true
  unfold globalToLocalPosition globalToLocalDirection
  rw [← hr.smul, ← hr.add]
  congr 1
  ext <;> simp <;> ring

theorem C41_line_back (p : Placement) (h : p.Valid) (a d : Vec3 ℝ) (t : ℝ) :
    p.localToGlobalPosition (a + Vec3.smul t d) = p.localToGlobalPosition a + Vec3.smul t (p.localToGlobalDirection d) := by
  have hr := Quat.C43_is_rotation h false
  unfold localToGlobalPosition localToGlobalDirection
  rw [hr.add, hr.smul]
  ext <;> simp <;> ring

/-- C41: distances between positions, and lengths of and angles between directions, are preserved. -/
theorem C41_isometry (p : Placement) (h : p.Valid) (a b : Vec3 ℝ) :
    Vec3.norm (p.localToGlobalPosition a - p.localToGlobalPosition b) = Vec3.norm (a - b) ∧
    Vec3.norm (p.globalToLocalPosition a - p.globalToLocalPosition b) = Vec3.norm (a - b) ∧
    Vec3.dot (p.localToGlobalDirection a) (p.localToGlobalDirection b) = Vec3.dot a b ∧
    Vec3.dot (p.globalToLocalDirection a) (p.globalToLocalDirection b) = Vec3.dot a b := by
  have hr := Quat.C43_is_rotation h
  have sub : ∀ i u v, p.quaternion.rotate u i - p.quaternion.rotate v i = p.quaternion.rotate (u - v) i := by
    intro i u v
    have e : u - v = u + Vec3.smul (-1) v := by ext <;> simp <;> ring
    rw [e, (hr i).add, (hr i).smul]
    ext <;> simp <;> ring
  refine ⟨?_, ?_, (hr false).dot a b, (hr true).dot a b⟩
  · unfold Vec3.norm localToGlobalPosition
    have e : p.quaternion.rotate a false + p.position - (p.quaternion.rotate b false + p.position) =
        p.quaternion.rotate (a - b) false := by rw [← sub]; ext <;> simp
    rw [e, (hr false).dot]
  · unfold Vec3.norm globalToLocalPosition
    have e : a - p.position - (b - p.position) = a - b := by ext <;> simp
    rw [sub, e, (hr true).dot]

/-- C41: when the placement is flagged as the identity, the conversions skipped by the shortcut would change each
coordinate by at most `3e-12` times the size of the vector. -/
theorem C41_identity_shortcut (p : Placement) (h : p.Valid) (hid : p.isIdentity = true) (v : Vec3 ℝ) (inv : Bool) :
    let r := p.quaternion.rotate (v - (if inv then p.position else 0)) inv + (if inv then 0 else p.position)
    let size := |v.x| + |v.y| + |v.z|
    |r.x - v.x| ≤ 3e-12 * size ∧ |r.y - v.y| ≤ 3e-12 * size ∧ |r.z - v.z| ≤ 3e-12 * size := by
  simp only [isIdentity, Bool.and_eq_true, decide_eq_true_eq] at hid
  obtain ⟨⟨px, py, pz⟩, hw, hx, hy, hz⟩ := hid
  have hp : p.position = 0 := by ext <;> assumption
  have hq : p.quaternion.IsUnit := h
  have h1 : p.quaternion.w * p.quaternion.w + p.quaternion.x * p.quaternion.x + p.quaternion.y * p.quaternion.y +
    p.quaternion.z * p.quaternion.z = 1 := h
  simp only [hp]
  have e0 : (v - (if inv = true then (0 : Vec3 ℝ) else 0)) = v := by cases inv <;> (ext <;> simp)
  have e1 : ∀ r : Vec3 ℝ, r + (if inv = true then (0 : Vec3 ℝ) else 0) = r := by intro r; cases inv <;> (ext <;> simp)
  rw [e0, e1, Quat.rotate_unit hq]
  -- the rotation matrix is close to the identity
  have main : ∀ x y z w : ℝ, w * w + x * x + y * y + z * z = 1 → |x| < 1e-12 → |y| < 1e-12 → |z| < 1e-12 →
      |(Quat.sandwich ⟨x, y, z, w⟩ v).x - v.x| ≤ 3e-12 * (|v.x| + |v.y| + |v.z|) ∧
      |(Quat.sandwich ⟨x, y, z, w⟩ v).y - v.y| ≤ 3e-12 * (|v.x| + |v.y| + |v.z|) ∧
      |(Quat.sandwich ⟨x, y, z, w⟩ v).z - v.z| ≤ 3e-12 * (|v.x| + |v.y| + |v.z|) := by
    intro x y z w hn hx hy hz
    have hw1 : |w| ≤ 1 := by
      rw [abs_le]
      constructor <;> nlinarith [mul_self_nonneg x, mul_self_nonneg y, mul_self_nonneg z]
    have pr : ∀ a b : ℝ, |a| < 1e-12 → |b| ≤ 1 → |a * b| ≤ 1e-12 := by
      intro a b ha hb
      rw [abs_mul]
      nlinarith [abs_nonneg a, abs_nonneg b]
    have small : ∀ a : ℝ, |a| < 1e-12 → |a| ≤ 1 := fun a ha => by linarith
    have pr2 : ∀ a b : ℝ, |a| < 1e-12 → |b| < 1e-12 → |a * b| ≤ 1e-24 := by
      intro a b ha hb
      rw [abs_mul]
      nlinarith [abs_nonneg a, abs_nonneg b]
    have row : ∀ m1 m2 m3 : ℝ, |m1| ≤ 3e-12 → |m2| ≤ 3e-12 → |m3| ≤ 3e-12 →
        |m1 * v.x + m2 * v.y + m3 * v.z| ≤ 3e-12 * (|v.x| + |v.y| + |v.z|) := by
      intro m1 m2 m3 h1 h2 h3
      calc |m1 * v.x + m2 * v.y + m3 * v.z| ≤ |m1 * v.x + m2 * v.y| + |m3 * v.z| := abs_add_le _ _
        _ ≤ |m1 * v.x| + |m2 * v.y| + |m3 * v.z| := by linarith [abs_add_le (m1 * v.x) (m2 * v.y)]
        _ ≤ 3e-12 * (|v.x| + |v.y| + |v.z|) := by
          rw [abs_mul, abs_mul, abs_mul]
          nlinarith [abs_nonneg v.x, abs_nonneg v.y, abs_nonneg v.z]
    have two : ∀ a b : ℝ, |a| ≤ 1e-24 → |b| ≤ 1e-12 → |2 * (a + b)| ≤ 3e-12 ∧ |2 * (a - b)| ≤ 3e-12 := by
      intro a b ha hb
      rw [abs_le] at ha hb
      constructor <;> rw [abs_le] <;> constructor <;> linarith [ha.1, ha.2, hb.1, hb.2]
    have sq : ∀ a b : ℝ, |a| < 1e-12 → |b| < 1e-12 → |-(2 * (a * a + b * b))| ≤ 3e-12 := by
      intro a b ha hb
      have h1 := abs_le.1 (pr2 a a ha ha)
      have h2 := abs_le.1 (pr2 b b hb hb)
      rw [abs_le]; constructor <;> linarith [h1.1, h1.2, h2.1, h2.2]
    refine ⟨?_, ?_, ?_⟩
    · have : (Quat.sandwich ⟨x, y, z, w⟩ v).x - v.x =
          (-(2 * (y * y + z * z))) * v.x + (2 * (x * y - z * w)) * v.y + (2 * (x * z + y * w)) * v.z := by
        simp only [Quat.sandwich]; linear_combination v.x * hn
      rw [this]
      exact row _ _ _ (sq y z hy hz) (two _ _ (pr2 x y hx hy) (pr z w hz hw1)).2 (two _ _ (pr2 x z hx hz) (pr y w hy hw1)).1
    · have : (Quat.sandwich ⟨x, y, z, w⟩ v).y - v.y =
          (2 * (x * y + z * w)) * v.x + (-(2 * (x * x + z * z))) * v.y + (2 * (y * z - x * w)) * v.z := by
        simp only [Quat.sandwich]; linear_combination v.y * hn
      rw [this]
      exact row _ _ _ (two _ _ (pr2 x y hx hy) (pr z w hz hw1)).1 (sq x z hx hz) (two _ _ (pr2 y z hy hz) (pr x w hx hw1)).2
    · have : (Quat.sandwich ⟨x, y, z, w⟩ v).z - v.z =
          (2 * (x * z - y * w)) * v.x + (2 * (y * z + x * w)) * v.y + (-(2 * (x * x + y * y))) * v.z := by
        simp only [Quat.sandwich]; linear_combination v.z * hn
      rw [this]
      exact row _ _ _ (two _ _ (pr2 x z hx hz) (pr y w hy hw1)).2 (two _ _ (pr2 y z hy hz) (pr x w hx hw1)).1 (sq x y hx hy)
  cases inv
  · exact main _ _ _ _ h1 hx hy hz
  · refine main (-p.quaternion.x) (-p.quaternion.y) (-p.quaternion.z) p.quaternion.w ?_ ?_ ?_ ?_
    · linarith
    all_goals rw [abs_neg]; assumption

/-- A placement that translates and rotates meets the hypothesis. -/
example : (make ⟨1, 2, 3⟩ ⟨1, 1, 1, 1⟩).Valid := make_valid _ _ (by simp only [Quat.normSq]; norm_num)

theorem translation_back (v x : Vec3 ℝ) : (translation v).globalToLocalPosition x = x - v := by
  have h : Quat.one.IsUnit := by simp [Quat.IsUnit, Quat.normSq, Quat.one]
  simp only [translation, globalToLocalPosition, Quat.rotate_unit h]
  ext <;> simp [Quat.sandwich, Quat.one, Quat.conj]

theorem translation_back_dir (v x : Vec3 ℝ) : (translation v).globalToLocalDirection x = x := by
  have h : Quat.one.IsUnit := by simp [Quat.IsUnit, Quat.normSq, Quat.one]
  simp only [translation, globalToLocalDirection, Quat.rotate_unit h]
  ext <;> simp [Quat.sandwich, Quat.one, Quat.conj]

theorem translation_sharp (v : Vec3 ℝ) : (translation v).Sharp := by
  refine ⟨translation_valid v, fun h x => ⟨?_, translation_back_dir v x⟩⟩
  rw [translation_back]
  simp only [isIdentity, translation, Bool.and_eq_true] at h
  have h1 := of_decide_eq_true h.1
  ext <;> simp [h1]

end Placement
end Siren.Geometry
