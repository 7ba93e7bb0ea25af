import Verif.Detector.FrameProps
import Verif.Geometry.Placement

set_option autoImplicit false

/-!
# C118: fiducial volumes given in geometry coordinates
-/

namespace Siren.Detector

open Siren Siren.Geometry

/-- `ParseFiducialVolume` (detector/private/DetectorModel.cxx:467-508) after the text has been read: the placement of a
volume given in geometry coordinates (`geometry_coords`) is changed to detector coordinates. `SetQuaternion` normalizes. -/
noncomputable def Frame.fiducial (F : Frame) (p : Placement) : Placement :=
  Placement.make (F.rotation.rotate (p.position - F.origin) true) (F.rotation.rotateQuat p.quaternion true)

/-- Whether a point is in a volume: `inside` tells it for points in the coordinates of the shape. -/
def inVolume (inside : Vec3 ℝ → Prop) (p : Placement) (x : Vec3 ℝ) : Prop := inside (p.globalToLocalPosition x)

namespace Frame

theorem rotateQuat_unit {a b : Quat} (ha : a.IsUnit) : a.rotateQuat b true = a.conj.mul (b.mul a) := by
  have hn : a.norm = 1 := by unfold Quat.norm; rw [ha, Real.sqrt_one]
  have hu := ha
  unfold Quat.IsUnit Quat.normSq at hu
  unfold Quat.rotateQuat
  simp only [hn, div_one, if_true]
  ext <;> simp only [Quat.sandwich, Quat.conj, Quat.mul]
  · ring
  · ring
  · ring
  · ring

theorem conj_mul (a b : Quat) : (a.mul b).conj = b.conj.mul a.conj := by
  ext <;> simp only [Quat.mul, Quat.conj] <;> ring

theorem normalize_of_unit {q : Quat} (h : q.IsUnit) : q.normalize = q := by
  unfold Quat.normalize; exact if_pos h

/-- The coordinates of a point with respect to the converted volume are those with respect to the original volume, turned by
the inverse of the detector rotation. -/
theorem fiducial_local {F : Frame} (hF : F.rotation.IsUnit) {p : Placement} (hp : p.Valid) (x : Vec3 ℝ) :
    (F.fiducial p).globalToLocalPosition (F.toDet x) = F.rotation.rotate (p.globalToLocalPosition x) true := by
  have hu : (F.rotation.conj.mul (p.quaternion.mul F.rotation)).IsUnit := hF.conj.mul (Quat.IsUnit.mul hp hF)
  have hr := Quat.C43_is_rotation hF true
  unfold fiducial Placement.make Placement.globalToLocalPosition toDet
  simp only
  rw [rotateQuat_unit hF, normalize_of_unit hu]
  have e : F.rotation.rotate (x - F.origin) true - F.rotation.rotate (p.position - F.origin) true =
      F.rotation.rotate (x - p.position) true := by
    have h1 := hr.add (x - p.position) (p.position - F.origin)
    have h2 : x - p.position + (p.position - F.origin) = x - F.origin := by ext <;> simp
    rw [h2] at h1
    rw [h1]
    ext <;> simp
  rw [e, Quat.rotate_unit hu, Quat.rotate_unit hF, Quat.rotate_unit hF, Quat.rotate_unit hp]
  simp only [if_true]
  rw [conj_mul, conj_mul, Quat.conj_conj, Quat.sandwich_mul, Quat.sandwich_mul]
  have h4 := Quat.sandwich_conj F.rotation.conj (x - p.position)
  rw [Quat.conj_conj, Quat.normSq_conj, show F.rotation.normSq = 1 from hF] at h4
  rw [h4]
  congr 2
  ext <;> simp

/-- C118, part: the centre of the volume is converted like any other point, and if the shape looks the same after the
rotation of the detector (no rotation, a ball, a cylinder and a rotation about its axis), the converted volume has in
detector coordinates the points the given volume has in geometry coordinates. Missing: other shapes. -/
theorem C118_volume_partial {F : Frame} (hF : F.rotation.IsUnit) {p : Placement} (hp : p.Valid) (inside : Vec3 ℝ → Prop)
    (hs : ∀ v, inside (F.rotation.rotate v true) ↔ inside v) :
    (F.fiducial p).position = F.toDet p.position ∧
      ∀ x, inVolume inside (F.fiducial p) (F.toDet x) ↔ inVolume inside p x := by
  refine ⟨rfl, fun x => ?_⟩
  unfold inVolume
  rw [fiducial_local hF hp]
  exact hs _

/-- The hypotheses of `C118_volume_partial` hold for a ball and a detector that is rotated by half a turn. -/
example : ∃ F : Frame, F.rotation.IsUnit ∧ F.rotation ≠ Quat.one ∧
    ∀ v, Vec3.dot (F.rotation.rotate v true) (F.rotation.rotate v true) ≤ 1 ↔ Vec3.dot v v ≤ 1 := by
  have hu : (⟨0, 0, 1, 0⟩ : Quat).IsUnit := by simp [Quat.IsUnit, Quat.normSq]
  refine ⟨⟨⟨1, 2, 3⟩, ⟨0, 0, 1, 0⟩⟩, hu, ?_, fun v => ?_⟩
  · intro h; simpa [Quat.one] using congrArg Quat.z h
  · have := (Quat.C43_is_rotation hu true).dot v v
    exact this ▸ Iff.rfl

/-- C118 does not hold for any detector that is really rotated: the orientation of the volume is conjugated with the rotation
of the detector instead of being multiplied by its inverse. For every rotation that moves a point, and every placement,
there is a shape whose converted volume is a different set of points. -/
theorem C118_volume_fails {F : Frame} (hF : F.rotation.IsUnit) (hr : ∃ v, F.rotation.rotate v true ≠ v) {p : Placement}
    (hp : p.Valid) :
    ∃ inside : Vec3 ℝ → Prop, ∃ x, inVolume inside p x ∧ ¬ inVolume inside (F.fiducial p) (F.toDet x) := by
  obtain ⟨v, hv⟩ := hr
  refine ⟨fun w => w = v, p.localToGlobalPosition v, (Placement.C41_inverse p hp v).2.1, ?_⟩
  unfold inVolume
  rw [fiducial_local hF hp, (Placement.C41_inverse p hp v).2.1]
  exact hv

/-- C118 does not hold for a box of 4 by 2 by 2 along the axes of the geometry and a detector rotated by a right angle about
the vertical: the point (3/2, 0, 0) is in the box, and in detector coordinates it is outside of the converted box. -/
theorem C118_box_fails :
    let F : Frame := ⟨⟨0, 0, 0⟩, ⟨0, 0, Real.sqrt 2 / 2, Real.sqrt 2 / 2⟩⟩
    let p : Placement := ⟨⟨0, 0, 0⟩, Quat.one⟩
    let box : Vec3 ℝ → Prop := fun v => |v.x| ≤ 2 ∧ |v.y| ≤ 1 ∧ |v.z| ≤ 1
    inVolume box p ⟨3 / 2, 0, 0⟩ ∧ ¬ inVolume box (F.fiducial p) (F.toDet ⟨3 / 2, 0, 0⟩) := by
  intro F p box
  have h2 : Real.sqrt 2 * Real.sqrt 2 = 2 := Real.mul_self_sqrt (by norm_num)
  have hF : F.rotation.IsUnit := by
    show Real.sqrt 2 / 2 * (Real.sqrt 2 / 2) + 0 * 0 + 0 * 0 + Real.sqrt 2 / 2 * (Real.sqrt 2 / 2) = 1
    nlinarith
  have h1 : Quat.one.IsUnit := by simp [Quat.IsUnit, Quat.normSq, Quat.one]
  have hp : p.Valid := h1
  have hl : p.globalToLocalPosition ⟨3 / 2, 0, 0⟩ = ⟨3 / 2, 0, 0⟩ := by
    show Quat.one.rotate _ true = _
    rw [Quat.rotate_unit h1]
    ext <;> simp [Quat.sandwich, Quat.conj, Quat.one, p]
  unfold inVolume
  rw [fiducial_local hF hp, hl]
  refine ⟨⟨by norm_num [abs_of_pos], by simp, by simp⟩, ?_⟩
  rintro ⟨-, hy, -⟩
  rw [Quat.rotate_unit hF] at hy
  simp only [if_true, Quat.sandwich, Quat.conj, F] at hy
  have e : (0 : ℝ) * (Real.sqrt 2 / 2 * (Real.sqrt 2 / 2) - -0 * -0 + -0 * -0 - -(Real.sqrt 2 / 2) * -(Real.sqrt 2 / 2)) +
      2 * (-0 * (-0 * (3 / 2) + -(Real.sqrt 2 / 2) * 0) + Real.sqrt 2 / 2 * (-(Real.sqrt 2 / 2) * (3 / 2) - -0 * 0)) = -(3 / 2) := by
    nlinarith
  rw [e] at hy
  norm_num [abs_of_neg] at hy

end Frame
end Siren.Detector
