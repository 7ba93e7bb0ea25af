import Verif.Geometry.Walk
import Mathlib.Analysis.SpecialFunctions.Complex.Arg

set_option autoImplicit false

/-!
# C46: azimuthal wedges

Models `geometry/private/PhiUtils.h`. `std::atan2(y, x)` is `Complex.arg (x + i y)` (which agrees with it except for the
sign of zero arguments) and `std::fmod` is the remainder of the truncated quotient.
-/

namespace Siren.Geometry.Phi

open Siren Siren.Geometry Real

/-- `std::fmod`. -/
noncomputable def fmod (x m : ℝ) : ℝ := x - m * (if 0 ≤ x / m then (⌊x / m⌋ : ℝ) else (⌈x / m⌉ : ℝ))

/-- `NormalizePhi` (geometry/private/PhiUtils.h:19-23). -/
noncomputable def normalizePhi (phi : ℝ) : ℝ :=
  let r := fmod phi (2 * π)
  if r < 0 then r + 2 * π else r

/-- `std::atan2(y, x)`. -/
noncomputable def atan2 (y x : ℝ) : ℝ := Complex.arg ⟨x, y⟩

/-- The angular tolerance `1e-9`. -/
noncomputable def tol : ℝ := 1 / 1000000000

/-- `PhiInRange` (geometry/private/PhiUtils.h:27-36). -/
noncomputable def phiInRange (x y start delta : ℝ) : Bool :=
  let phi := normalizePhi (atan2 y x)
  let sp := normalizePhi start
  let ep := sp + delta
  if ep ≤ 2 * π + tol then decide (phi ≥ sp - tol) && decide (phi ≤ ep + tol)
  else decide (phi ≥ sp - tol) || decide (phi ≤ normalizePhi ep + tol)

/-- `InitialPhiState` (geometry/private/PhiUtils.h:44-55). -/
noncomputable def initialPhiState (px py dx dy start delta : ℝ) : Bool :=
  if dx * dx + dy * dy > 1 / 10 ^ 20 then phiInRange (-dx) (-dy) start delta
  else if px * px + py * py > 1 / 10 ^ 20 then phiInRange px py start delta
  else decide (delta > tol)

/-- `ZAxisWedgeEntering` (geometry/private/PhiUtils.h:62-68). -/
noncomputable def zAxisWedgeEntering (dx dy start delta : ℝ) : Bool :=
  if dx * dx + dy * dy > 1 / 10 ^ 20 then phiInRange dx dy start delta else true

/-! ### Specification -/

/-- The angle `phi` is between `lo` and `hi` past `start`, modulo a full turn. -/
def Within (phi start lo hi : ℝ) : Prop := ∃ k : ℤ, lo ≤ phi - start + k * (2 * π) ∧ phi - start + k * (2 * π) ≤ hi

/-! ### Proofs -/

theorem tol_pos : 0 < tol := by unfold tol; norm_num

/-- C46: normalization changes an angle by full turns only and puts it into `[0, 2π)`. -/
theorem C46_normalize (phi : ℝ) :
    0 ≤ normalizePhi phi ∧ normalizePhi phi < 2 * π ∧ ∃ k : ℤ, normalizePhi phi = phi + k * (2 * π) := by
  have hpi : 0 < 2 * π := by positivity
  unfold normalizePhi fmod
  simp only
  by_cases h : 0 ≤ phi / (2 * π)
  · simp only [h, if_true]
    have h1 := Int.floor_le (phi / (2 * π))
    have h2 := Int.lt_floor_add_one (phi / (2 * π))
    rw [le_div_iff₀ hpi] at h1
    rw [div_lt_iff₀ hpi] at h2
    rw [if_neg (by linarith)]
    refine ⟨by linarith, by linarith, -⌊phi / (2 * π)⌋, by push_cast; ring⟩
  · simp only [h, if_false]
    have h1 := Int.le_ceil (phi / (2 * π))
    have h2 := Int.ceil_lt_add_one (phi / (2 * π))
    rw [div_le_iff₀ hpi] at h1
    have h2' : (⌈phi / (2 * π)⌉ : ℝ) - 1 < phi / (2 * π) := by linarith
    rw [lt_div_iff₀ hpi] at h2'
    split
    · refine ⟨by linarith, by linarith, 1 - ⌈phi / (2 * π)⌉, by push_cast; ring⟩
    · next hn =>
      refine ⟨by linarith, by linarith, -⌈phi / (2 * π)⌉, by push_cast; ring⟩

theorem normalize_of_lt (x : ℝ) (h1 : 2 * π ≤ x) (h2 : x < 4 * π) : normalizePhi x = x - 2 * π := by
  obtain ⟨a, b, k, e⟩ := C46_normalize x
  have hpi : 0 < 2 * π := by positivity
  have hk : k = -1 := by
    have l : (-2 : ℝ) < k := by
      by_contra hc
      have : (k : ℝ) * (2 * π) ≤ -2 * (2 * π) := mul_le_mul_of_nonneg_right (not_lt.1 hc) hpi.le
      rw [e] at a; linarith
    have u : (k : ℝ) < 0 := by
      by_contra hc
      have : 0 ≤ (k : ℝ) * (2 * π) := mul_nonneg (not_lt.1 hc) hpi.le
      rw [e] at b; linarith
    have l' : -2 < k := by exact_mod_cast l
    have u' : k < 0 := by exact_mod_cast u
    omega
  rw [e, hk]; push_cast; ring

theorem Within.shift {phi start lo hi phi' start' : ℝ} (h1 : ∃ k : ℤ, phi' = phi + k * (2 * π))
    (h2 : ∃ k : ℤ, start' = start + k * (2 * π)) : Within phi' start' lo hi ↔ Within phi start lo hi := by
  obtain ⟨a, rfl⟩ := h1
  obtain ⟨b, rfl⟩ := h2
  constructor
  · rintro ⟨k, h⟩
    refine ⟨k + a - b, ?_⟩
    have : phi - start + ((k + a - b : ℤ) : ℝ) * (2 * π) = phi + a * (2 * π) - (start + b * (2 * π)) + k * (2 * π) := by
      push_cast; ring
    rw [this]; exact h
  · rintro ⟨k, h⟩
    refine ⟨k - a + b, ?_⟩
    have : phi + a * (2 * π) - (start + b * (2 * π)) + ((k - a + b : ℤ) : ℝ) * (2 * π) = phi - start + k * (2 * π) := by
      push_cast; ring
    rw [this]; exact h

/-- C46: a point is only reported inside the wedge if its azimuth is within `[start, start + delta]` modulo a full turn, up to
the tolerance at the two edges. -/
theorem C46_sound (x y start delta : ℝ) (h1 : delta ≤ 2 * π) (h : phiInRange x y start delta = true) :
    Within (atan2 y x) start (-tol) (delta + tol) := by
  obtain ⟨p0, p1, pk⟩ := C46_normalize (atan2 y x)
  obtain ⟨s0, s1, sk⟩ := C46_normalize start
  rw [← Within.shift pk sk]
  have ht := tol_pos
  unfold phiInRange at h
  simp only at h
  split at h
  · simp only [Bool.and_eq_true, decide_eq_true_eq] at h
    exact ⟨0, by simp; linarith, by simp; linarith⟩
  · next hw =>
    simp only [Bool.or_eq_true, decide_eq_true_eq] at h
    have hw := not_le.1 hw
    rw [normalize_of_lt (normalizePhi start + delta) (by linarith) (by linarith)] at h
    by_cases hs : normalizePhi (atan2 y x) ≥ normalizePhi start - tol
    · exact ⟨0, by simp; linarith, by simp; linarith⟩
    · have h := h.resolve_left hs
      exact ⟨1, by push_cast; linarith, by push_cast; linarith⟩

/-- C46: a point is reported inside the wedge whenever its azimuth is within `[start, start + delta]` modulo a full turn, the
last 1e-9 of it excepted. -/
theorem C46_complete (x y start delta : ℝ) (h1 : delta ≤ 2 * π)
    (h : ∃ k : ℤ, 0 ≤ atan2 y x - start + k * (2 * π) ∧ atan2 y x - start + k * (2 * π) < delta - tol) :
    phiInRange x y start delta = true := by
  obtain ⟨p0, p1, a, pk⟩ := C46_normalize (atan2 y x)
  obtain ⟨s0, s1, b, sk⟩ := C46_normalize start
  have ht := tol_pos
  have hpi : 0 < 2 * π := by positivity
  obtain ⟨k, hk0, hk1⟩ := h
  set m : ℤ := k - a + b with hm
  have e : atan2 y x - start + k * (2 * π) = normalizePhi (atan2 y x) - normalizePhi start + m * (2 * π) := by
    rw [pk, sk, hm]; push_cast; ring
  rw [e] at hk0 hk1
  have hm0 : 0 ≤ m := by
    by_contra hc
    have : m ≤ -1 := by omega
    have : (m : ℝ) ≤ -1 := by exact_mod_cast this
    nlinarith
  have hm1 : m ≤ 1 := by
    by_contra hc
    have : 2 ≤ m := by omega
    have : (2 : ℝ) ≤ m := by exact_mod_cast this
    nlinarith
  unfold phiInRange
  simp only
  have hm01 : m = 0 ∨ m = 1 := by omega
  rcases hm01 with h0 | h0
  · rw [h0] at hk0 hk1
    push_cast at hk0 hk1
    split
    · simp only [Bool.and_eq_true, decide_eq_true_eq]; constructor <;> linarith
    · simp only [Bool.or_eq_true, decide_eq_true_eq]; left; linarith
  · rw [h0] at hk0 hk1
    push_cast at hk0 hk1
    split
    · next hw => exfalso; linarith
    · next hw =>
      simp only [Bool.or_eq_true, decide_eq_true_eq]
      right
      have hw := not_le.1 hw
      rw [normalize_of_lt (normalizePhi start + delta) (by linarith) (by linarith)]
      linarith

/-- C46: at least 1e-9 away from the edges the test is exact. -/
theorem C46_exact (x y start delta : ℝ) (h1 : delta ≤ 2 * π)
    (haway : ∀ k : ℤ, tol < |atan2 y x - start + k * (2 * π)| ∧ tol < |atan2 y x - start - delta + k * (2 * π)|) :
    phiInRange x y start delta = true ↔ Within (atan2 y x) start 0 delta := by
  constructor
  · intro h
    obtain ⟨k, ha, hb⟩ := C46_sound x y start delta h1 h
    obtain ⟨h2, h3⟩ := haway k
    refine ⟨k, ?_, ?_⟩
    · by_contra hc
      rw [abs_of_neg (not_le.1 hc)] at h2; linarith
    · by_contra hc
      rw [abs_of_pos (by linarith [not_le.1 hc])] at h3; linarith
  · rintro ⟨k, ha, hb⟩
    obtain ⟨h2, h3⟩ := haway k
    apply C46_complete x y start delta h1
    refine ⟨k, ha, ?_⟩
    rw [abs_of_nonpos (by linarith)] at h3
    linarith

/-- C46: within the tolerance the wrap-around is lost. For a wedge that ends less than 1e-9 beyond a full turn, the direction
of azimuth zero, which is inside, is reported outside. -/
theorem C46_edge_fails : ∃ start delta : ℝ, 0 < delta ∧ delta ≤ 2 * π ∧ Within (atan2 0 1) start 0 delta ∧
    phiInRange 1 0 start delta = false := by
  have hpi := Real.pi_pos
  have h3 := Real.two_le_pi
  have hat : atan2 0 1 = 0 := by
    unfold atan2
    have : (⟨1, 0⟩ : ℂ) = 1 := rfl
    rw [this, Complex.arg_one]
  have hn0 : normalizePhi 0 = 0 := by unfold normalizePhi fmod; simp
  have hnp : normalizePhi π = π := by
    unfold normalizePhi fmod
    have h : π / (2 * π) = 1 / 2 := by field_simp
    have hf : ⌊π / (2 * π)⌋ = 0 := by rw [h]; norm_num
    have : 0 ≤ π / (2 * π) := by rw [h]; norm_num
    simp only [this, if_true, hf]
    simp [hpi.le]
  refine ⟨π, π, hpi, by linarith, ⟨1, by rw [hat]; push_cast; linarith, by rw [hat]; push_cast; linarith⟩, ?_⟩
  unfold phiInRange
  simp only [hat, hn0, hnp]
  have ht := tol_pos
  have ht1 : tol < 1 := by unfold tol; norm_num
  rw [if_pos (by linarith)]
  simp only [Bool.and_eq_false_iff, decide_eq_false_iff_not]
  left; linarith

/-- A wedge across the positive x axis, from 315° over 90°, contains the x axis but not the y axis. -/
example : phiInRange 1 0 (7 * π / 4) (π / 2) = true ∧ phiInRange 0 1 (7 * π / 4) (π / 2) = false := by
  have hpi := Real.pi_pos
  have h3 := Real.two_le_pi
  have ht := tol_pos
  have ht1 : tol < 1 / 100 := by unfold tol; norm_num
  constructor
  · apply C46_complete _ _ _ _ (by linarith)
    have hat : atan2 0 1 = 0 := by
      unfold atan2
      have : (⟨1, 0⟩ : ℂ) = 1 := rfl
      rw [this, Complex.arg_one]
    refine ⟨1, ?_, ?_⟩ <;> rw [hat] <;> push_cast <;> linarith
  · by_contra hc
    obtain ⟨k, h1, h2⟩ := C46_sound _ _ _ _ (by linarith) (Bool.not_eq_false _ ▸ hc)
    have hat : atan2 1 0 = π / 2 := by
      unfold atan2
      have : (⟨0, 1⟩ : ℂ) = Complex.I := rfl
      rw [this, Complex.arg_I]
    rw [hat] at h1 h2
    have hk : k = 0 ∨ k ≤ -1 ∨ 1 ≤ k := by omega
    rcases hk with rfl | hk | hk
    · push_cast at h1 h2; linarith
    · have : (k : ℝ) ≤ -1 := by exact_mod_cast hk
      nlinarith
    · have : (1 : ℝ) ≤ k := by exact_mod_cast hk
      nlinarith

end Siren.Geometry.Phi
