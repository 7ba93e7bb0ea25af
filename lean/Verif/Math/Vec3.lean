import Verif.Tactics
import Mathlib.Analysis.SpecialFunctions.Pow.Real

set_option autoImplicit false

/-!
# Cartesian part of `Vector3D`

Models `math/private/Vector3D.cxx` (cartesian coordinates only; the cached spherical coordinates are not modelled here).
Components are elements of a field instead of doubles.
-/

namespace Siren

/-- `math/public/SIREN/math/Vector3D.h`, cartesian components. -/
@[ext] structure Vec3 (K : Type) where
  x : K
  y : K
  z : K
  deriving DecidableEq, Repr

namespace Vec3

variable {K : Type}

/-- `Vector3D::operator+` (math/private/Vector3D.cxx:156-163). -/
instance [Add K] : Add (Vec3 K) := ⟨fun a b => ⟨a.x + b.x, a.y + b.y, a.z + b.z⟩⟩
/-- `Vector3D::operator-` (math/private/Vector3D.cxx:173-180). -/
instance [Sub K] : Sub (Vec3 K) := ⟨fun a b => ⟨a.x - b.x, a.y - b.y, a.z - b.z⟩⟩
/-- Unary minus (math/private/Vector3D.cxx:144-154). -/
instance [Neg K] : Neg (Vec3 K) := ⟨fun a => ⟨-a.x, -a.y, -a.z⟩⟩
instance [Zero K] : Zero (Vec3 K) := ⟨⟨0, 0, 0⟩⟩

/-- Multiplication by a number (math/private/Vector3D.cxx:195-219). -/
def smul [Mul K] (k : K) (a : Vec3 K) : Vec3 K := ⟨k * a.x, k * a.y, k * a.z⟩

/-- `scalar_product` / `Vector3D::operator*(Vector3D)` (math/private/Vector3D.cxx:190-193, 238-241). -/
def dot [Mul K] [Add K] (a b : Vec3 K) : K := a.x * b.x + a.y * b.y + a.z * b.z

/-- `vector_product` (math/private/Vector3D.cxx:243-250). -/
def cross [Mul K] [Sub K] (a b : Vec3 K) : Vec3 K :=
  ⟨a.y * b.z - a.z * b.y, a.z * b.x - a.x * b.z, a.x * b.y - a.y * b.x⟩

@[simp] theorem add_x [Add K] (a b : Vec3 K) : (a + b).x = a.x + b.x := rfl
@[simp] theorem add_y [Add K] (a b : Vec3 K) : (a + b).y = a.y + b.y := rfl
@[simp] theorem add_z [Add K] (a b : Vec3 K) : (a + b).z = a.z + b.z := rfl
@[simp] theorem sub_x [Sub K] (a b : Vec3 K) : (a - b).x = a.x - b.x := rfl
@[simp] theorem sub_y [Sub K] (a b : Vec3 K) : (a - b).y = a.y - b.y := rfl
@[simp] theorem sub_z [Sub K] (a b : Vec3 K) : (a - b).z = a.z - b.z := rfl
@[simp] theorem neg_x [Neg K] (a : Vec3 K) : (-a).x = -a.x := rfl
@[simp] theorem neg_y [Neg K] (a : Vec3 K) : (-a).y = -a.y := rfl
@[simp] theorem neg_z [Neg K] (a : Vec3 K) : (-a).z = -a.z := rfl
@[simp] theorem zero_x [Zero K] : (0 : Vec3 K).x = 0 := rfl
@[simp] theorem zero_y [Zero K] : (0 : Vec3 K).y = 0 := rfl
@[simp] theorem zero_z [Zero K] : (0 : Vec3 K).z = 0 := rfl
@[simp] theorem smul_x [Mul K] (k : K) (a : Vec3 K) : (smul k a).x = k * a.x := rfl
@[simp] theorem smul_y [Mul K] (k : K) (a : Vec3 K) : (smul k a).y = k * a.y := rfl
@[simp] theorem smul_z [Mul K] (k : K) (a : Vec3 K) : (smul k a).z = k * a.z := rfl

/-- `Vector3D::magnitude` (math/private/Vector3D.cxx:260-263). -/
noncomputable def norm (a : Vec3 ℝ) : ℝ := Real.sqrt (dot a a)

/-- `Vector3D::normalize` (math/private/Vector3D.cxx:265-275): divides by the length; a vector of length zero is left as
it is, which is what division by zero gives in the model (components of a zero vector). -/
noncomputable def normalize (a : Vec3 ℝ) : Vec3 ℝ := ⟨a.x / norm a, a.y / norm a, a.z / norm a⟩

theorem dot_self_nonneg (a : Vec3 ℝ) : 0 ≤ dot a a := by
  unfold dot; nlinarith [mul_self_nonneg a.x, mul_self_nonneg a.y, mul_self_nonneg a.z]

theorem norm_nonneg (a : Vec3 ℝ) : 0 ≤ norm a := Real.sqrt_nonneg _

theorem norm_smul_unit (k : ℝ) (d : Vec3 ℝ) (hd : dot d d = 1) : norm (smul k d) = |k| := by
  have : dot (smul k d) (smul k d) = k ^ 2 := by
    have : dot (smul k d) (smul k d) = k ^ 2 * dot d d := by simp [dot]; ring
    rw [this, hd, mul_one]
  rw [norm, this, Real.sqrt_sq_eq_abs]

end Vec3
end Siren
