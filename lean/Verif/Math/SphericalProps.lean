import Verif.Math.SphericalModel
import Verif.Math.EulerProps
import Mathlib.Analysis.Real.Pi.Bounds

set_option autoImplicit false

/-!
# C119: spherical coordinates and deflections
-/

namespace Siren.Spherical

open Siren.Geometry.Phi (atan2)
open Siren.Euler (cos_atan2 sin_atan2)

/-! ### Spherical coordinates -/

theorem rho_cos (x y : ℝ) : Real.sqrt (x * x + y * y) * Real.cos (atan2 y x) = x ∧
    Real.sqrt (x * x + y * y) * Real.sin (atan2 y x) = y := by
  have h0 : 0 ≤ x * x + y * y := by nlinarith [mul_self_nonneg x, mul_self_nonneg y]
  rcases h0.lt_or_eq with h | h
  · have hs := Real.sqrt_pos.mpr h
    have hh := (Real.mul_self_sqrt h0).symm
    rw [cos_atan2 hs hh, sin_atan2 hs hh]
    exact ⟨mul_div_cancel₀ _ hs.ne', mul_div_cancel₀ _ hs.ne'⟩
  · have hx : x = 0 := by nlinarith [mul_self_nonneg x, mul_self_nonneg y]
    have hy : y = 0 := by nlinarith [mul_self_nonneg x, mul_self_nonneg y]
    rw [hx, hy]; simp

/-- What the angles of a vector are: `cos` and `sin` of the zenith angle times the radius. -/
theorem zenith_spec (v : Vector) :
    let r := Real.sqrt (v.cart.x * v.cart.x + v.cart.y * v.cart.y + v.cart.z * v.cart.z)
    r * Real.cos v.toSpherical.sph.zenith = v.cart.z ∧
      r * Real.sin v.toSpherical.sph.zenith = Real.sqrt (v.cart.x * v.cart.x + v.cart.y * v.cart.y) := by
  obtain ⟨⟨x, y, z⟩, s⟩ := v
  intro r
  have hr0 : 0 ≤ r := Real.sqrt_nonneg _
  have hrr : r * r = x * x + y * y + z * z :=
    Real.mul_self_sqrt (by nlinarith [mul_self_nonneg x, mul_self_nonneg y, mul_self_nonneg z])
  show r * Real.cos (if r > 0 then Real.arccos (z / r) else 0) = z ∧ r * Real.sin (if r > 0 then Real.arccos (z / r) else 0) = _
  rcases hr0.lt_or_eq with h | h
  · rw [if_pos h]
    have hz : |z| ≤ r := Siren.Euler.le_of_sq hr0 (by nlinarith [mul_self_nonneg x, mul_self_nonneg y])
    rw [abs_le] at hz
    have h1 : -1 ≤ z / r := by rw [le_div_iff₀ h]; linarith
    have h2 : z / r ≤ 1 := by rw [div_le_one h]; linarith
    rw [Real.cos_arccos h1 h2, Real.sin_arccos]
    refine ⟨by field_simp, ?_⟩
    have e : 1 - (z / r) ^ 2 = (x * x + y * y) / (r * r) := by
      field_simp; linarith
    rw [e, Real.sqrt_div' _ (mul_self_nonneg r), Real.sqrt_mul_self hr0]
    simp only
    field_simp
  · rw [← h] at hrr ⊢
    have hx : x * x + y * y = 0 := by nlinarith [mul_self_nonneg x, mul_self_nonneg y, mul_self_nonneg z]
    have hz : z = 0 := by nlinarith [mul_self_nonneg x, mul_self_nonneg y, mul_self_nonneg z]
    simp only [hx, hz]
    simp

/-- C119: computing the spherical coordinates of a vector and the components from them gives the vector; the radius is its
length, the zenith angle is between 0 and π and the azimuth between -π and π. -/
theorem C119_round_trip (v : Vector) :
    v.toSpherical.toCartesian.cart = v.cart ∧
    v.toSpherical.sph.radius = Vec3.norm v.cart ∧
    0 ≤ v.toSpherical.sph.zenith ∧ v.toSpherical.sph.zenith ≤ Real.pi ∧
    -Real.pi < v.toSpherical.sph.azimuth ∧ v.toSpherical.sph.azimuth ≤ Real.pi := by
  obtain ⟨hz, hs⟩ := zenith_spec v
  obtain ⟨hx, hy⟩ := rho_cos v.cart.x v.cart.y
  refine ⟨?_, rfl, ?_, ?_, Complex.neg_pi_lt_arg _, Complex.arg_le_pi _⟩
  · have hrad : v.toSpherical.sph.radius = Real.sqrt (v.cart.x * v.cart.x + v.cart.y * v.cart.y + v.cart.z * v.cart.z) := rfl
    have haz : v.toSpherical.sph.azimuth = atan2 v.cart.y v.cart.x := rfl
    unfold Vector.toCartesian
    simp only [hrad, haz]
    ext
    · simp only
      rw [mul_right_comm, hs]; exact hx
    · simp only
      rw [mul_right_comm, hs]; exact hy
    · exact hz
  · unfold Vector.toSpherical
    simp only
    split
    · exact Real.arccos_nonneg _
    · exact le_refl _
  · unfold Vector.toSpherical
    simp only
    split
    · exact Real.arccos_le_pi _
    · exact Real.pi_pos.le

/-- C119: spherical coordinates with a positive radius, a zenith angle strictly between 0 and π and an azimuth in (-π, π] are
obtained back from the components computed from them. -/
theorem C119_spherical_back (v : Vector) (hr : 0 < v.sph.radius) (hz0 : 0 < v.sph.zenith) (hz1 : v.sph.zenith < Real.pi)
    (ha0 : -Real.pi < v.sph.azimuth) (ha1 : v.sph.azimuth ≤ Real.pi) : v.toCartesian.toSpherical.sph = v.sph := by
  obtain ⟨c, ⟨r, a, z⟩⟩ := v
  simp only at hr hz0 hz1 ha0 ha1
  have hs : 0 < Real.sin z := Real.sin_pos_of_pos_of_lt_pi hz0 hz1
  have hrad : Real.sqrt (r * Real.cos a * Real.sin z * (r * Real.cos a * Real.sin z) +
      r * Real.sin a * Real.sin z * (r * Real.sin a * Real.sin z) + r * Real.cos z * (r * Real.cos z)) = r := by
    rw [show r * Real.cos a * Real.sin z * (r * Real.cos a * Real.sin z) +
      r * Real.sin a * Real.sin z * (r * Real.sin a * Real.sin z) + r * Real.cos z * (r * Real.cos z) = r * r from ?_]
    · exact Real.sqrt_mul_self hr.le
    · linear_combination (r * r * Real.sin z ^ 2) * Real.sin_sq_add_cos_sq a + (r * r) * Real.sin_sq_add_cos_sq z
  unfold Vector.toSpherical Vector.toCartesian
  simp only [hrad, if_pos hr]
  ext
  · rfl
  · simp only
    unfold Siren.Geometry.Phi.atan2
    have e : (⟨r * Real.cos a * Real.sin z, r * Real.sin a * Real.sin z⟩ : ℂ) =
        ((r * Real.sin z : ℝ) : ℂ) * (Complex.cos a + Complex.sin a * Complex.I) := by
      apply Complex.ext
      · simp [← Complex.ofReal_cos, ← Complex.ofReal_sin]; ring
      · simp [← Complex.ofReal_cos, ← Complex.ofReal_sin]; ring
    rw [e]
    exact Complex.arg_mul_cos_add_sin_mul_I (mul_pos hr hs) ⟨ha0, ha1⟩
  · simp only
    rw [mul_div_assoc, mul_comm, div_mul_cancel₀ _ hr.ne']
    exact Real.arccos_cos hz0.le hz1.le

/-- Spherical coordinates of this kind. -/
example : ∃ v : Vector, 0 < v.sph.radius ∧ 0 < v.sph.zenith ∧ v.sph.zenith < Real.pi ∧ -Real.pi < v.sph.azimuth ∧
    v.sph.azimuth ≤ Real.pi :=
  ⟨⟨⟨0, 0, 0⟩, ⟨2, 1, 1⟩⟩, by norm_num, by norm_num, by simp only; linarith [Real.pi_gt_three],
    by simp only; linarith [Real.pi_gt_three], by simp only; linarith [Real.pi_gt_three]⟩

/-! ### Deflections -/

/-- A direction and the two directions which `deflect` uses are an orthonormal basis. -/
theorem deflect_eq (v : Vector) (hv : Vec3.norm v.cart = 1) :
    ∃ a b : Vec3 ℝ, Vec3.dot a a = 1 ∧ Vec3.dot b b = 1 ∧ Vec3.dot a b = 0 ∧ Vec3.dot v.cart a = 0 ∧ Vec3.dot v.cart b = 0 ∧
      (∀ w, w = Vec3.smul (Vec3.dot w v.cart) v.cart + Vec3.smul (Vec3.dot w a) a + Vec3.smul (Vec3.dot w b) b) ∧
      ∀ c t : ℝ, -1 ≤ c → c ≤ 1 → (v.deflect c t).cart =
        Vec3.smul c v.cart + Vec3.smul (Real.sqrt (1 - c ^ 2) * Real.cos t) a + Vec3.smul (Real.sqrt (1 - c ^ 2) * Real.sin t) b := by
  obtain ⟨hrt, hrad, -⟩ := C119_round_trip v
  rw [hv] at hrad
  obtain ⟨T, hT⟩ : ∃ T, T = v.toSpherical.sph.zenith := ⟨_, rfl⟩
  obtain ⟨P, hP⟩ : ∃ P, P = v.toSpherical.sph.azimuth := ⟨_, rfl⟩
  have hcart : v.cart = ⟨Real.cos P * Real.sin T, Real.sin P * Real.sin T, Real.cos T⟩ := by
    rw [← hrt]
    unfold Vector.toCartesian
    rw [hrad, ← hT, ← hP]
    simp only [one_mul]
  have t1 := Real.sin_sq_add_cos_sq T
  have p1 := Real.sin_sq_add_cos_sq P
  refine ⟨⟨Real.cos T * Real.cos P, Real.cos T * Real.sin P, -Real.sin T⟩, ⟨-Real.sin P, Real.cos P, 0⟩, ?_, ?_, ?_, ?_, ?_, ?_, ?_⟩
  · simp only [Vec3.dot]
    linear_combination (Real.cos T ^ 2) * p1 + t1
  · simp only [Vec3.dot]
    linear_combination p1
  · simp only [Vec3.dot]
    ring
  · rw [hcart]; simp only [Vec3.dot]
    linear_combination (Real.sin T * Real.cos T) * p1
  · rw [hcart]; simp only [Vec3.dot]
    ring
  · intro w
    rw [hcart]
    obtain ⟨x, y, z⟩ := w
    ext
    · simp only [Vec3.dot, Vec3.smul, Vec3.add_x]
      linear_combination (-x) * p1 - (x * Real.cos P ^ 2 + y * Real.cos P * Real.sin P) * t1
    · simp only [Vec3.dot, Vec3.smul, Vec3.add_y]
      linear_combination (-y) * p1 - (x * Real.cos P * Real.sin P + y * Real.sin P ^ 2) * t1
    · simp only [Vec3.dot, Vec3.smul, Vec3.add_z]
      linear_combination (-z) * t1
  · intro c t h0 h1
    have hc : 0 ≤ (1 - c) * (1 + c) := mul_nonneg (by linarith) (by linarith)
    have hc2 : (1 - c) * (1 + c) = 1 - c ^ 2 := by ring
    unfold Vector.deflect
    split
    · simp only [hc2] at hc ⊢
      simp only [max_eq_right hc, ← hT, ← hP, Vector.make]
      have hs : Real.sqrt (1 - c ^ 2) * Real.sqrt (1 - c ^ 2) = 1 - c ^ 2 := Real.mul_self_sqrt hc
      have hm : 1 - Real.sqrt (1 - c ^ 2) * Real.cos t * (Real.sqrt (1 - c ^ 2) * Real.cos t) -
          Real.sqrt (1 - c ^ 2) * Real.sin t * (Real.sqrt (1 - c ^ 2) * Real.sin t) = c ^ 2 := by
        linear_combination (-(Real.sqrt (1 - c ^ 2) * Real.sqrt (1 - c ^ 2))) * Real.sin_sq_add_cos_sq t - hs
      rw [hm, max_eq_left (sq_nonneg c), Real.sqrt_sq_eq_abs]
      have hz : (if c < 0 then -|c| else |c|) = c := by
        split
        · rename_i h; rw [abs_of_neg h, neg_neg]
        · rename_i h; exact abs_of_nonneg (not_lt.mp h)
      rw [hz]
      rfl
    · rename_i h
      push Not at h
      rw [h.1, h.2]
      ext <;> simp

/-- C119: deflecting a direction (a vector of length one) by an angle with a given cosine gives a direction which makes
exactly this angle with the old one. -/
theorem C119_deflect (v : Vector) (hv : Vec3.norm v.cart = 1) (c t : ℝ) (h0 : -1 ≤ c) (h1 : c ≤ 1) :
    Vec3.norm (v.deflect c t).cart = 1 ∧ Vec3.dot (v.deflect c t).cart v.cart = c := by
  obtain ⟨a, b, haa, hbb, hab, hva, hvb, -, hd⟩ := deflect_eq v hv
  have hvv : Vec3.dot v.cart v.cart = 1 := by
    have := hv
    unfold Vec3.norm at this
    rwa [Real.sqrt_eq_one] at this
  have hs : Real.sqrt (1 - c ^ 2) * Real.sqrt (1 - c ^ 2) = 1 - c ^ 2 := Real.mul_self_sqrt (by nlinarith)
  rw [hd c t h0 h1]
  obtain ⟨S, hS⟩ : ∃ S, S = Real.sqrt (1 - c ^ 2) := ⟨_, rfl⟩
  rw [← hS] at hs ⊢
  obtain ⟨u, hu⟩ : ∃ u, u = v.cart := ⟨_, rfl⟩
  rw [← hu] at hvv hva hvb ⊢
  obtain ⟨ux, uy, uz⟩ := u
  obtain ⟨ax, ay, az⟩ := a
  obtain ⟨bx, b_y, bz⟩ := b
  simp only [Vec3.dot] at haa hbb hab hva hvb hvv
  have tt := Real.sin_sq_add_cos_sq t
  constructor
  · unfold Vec3.norm
    rw [Real.sqrt_eq_one]
    simp only [Vec3.dot, Vec3.smul, Vec3.add_x, Vec3.add_y, Vec3.add_z]
    linear_combination c ^ 2 * hvv + (S * Real.cos t) ^ 2 * haa + (S * Real.sin t) ^ 2 * hbb +
      2 * c * (S * Real.cos t) * hva + 2 * c * (S * Real.sin t) * hvb + 2 * (S * Real.cos t) * (S * Real.sin t) * hab +
      S * S * tt + hs
  · simp only [Vec3.dot, Vec3.smul, Vec3.add_x, Vec3.add_y, Vec3.add_z]
    linear_combination c * hvv + (S * Real.cos t) * hva + (S * Real.sin t) * hvb

/-- C119: the azimuth of the deflection is an angle about the old direction: deflections by the same angle with azimuths `t` and
`u` differ by a rotation about the old direction by `t - u`. -/
theorem C119_deflect_azimuth (v : Vector) (hv : Vec3.norm v.cart = 1) (c t u : ℝ) (h0 : -1 ≤ c) (h1 : c ≤ 1) :
    Vec3.dot (v.deflect c t).cart (v.deflect c u).cart = c ^ 2 + (1 - c ^ 2) * Real.cos (t - u) := by
  obtain ⟨a, b, haa, hbb, hab, hva, hvb, -, hd⟩ := deflect_eq v hv
  have hvv : Vec3.dot v.cart v.cart = 1 := by
    have := hv
    unfold Vec3.norm at this
    rwa [Real.sqrt_eq_one] at this
  have hs : Real.sqrt (1 - c ^ 2) * Real.sqrt (1 - c ^ 2) = 1 - c ^ 2 := Real.mul_self_sqrt (by nlinarith)
  rw [hd c t h0 h1, hd c u h0 h1, Real.cos_sub]
  obtain ⟨S, hS⟩ : ∃ S, S = Real.sqrt (1 - c ^ 2) := ⟨_, rfl⟩
  rw [← hS] at hs ⊢
  obtain ⟨w, hw⟩ : ∃ w, w = v.cart := ⟨_, rfl⟩
  rw [← hw] at hvv hva hvb ⊢
  obtain ⟨wx, wy, wz⟩ := w
  obtain ⟨ax, ay, az⟩ := a
  obtain ⟨bx, b_y, bz⟩ := b
  simp only [Vec3.dot] at haa hbb hab hva hvb hvv
  simp only [Vec3.dot, Vec3.smul, Vec3.add_x, Vec3.add_y, Vec3.add_z]
  linear_combination c ^ 2 * hvv + S * S * Real.cos t * Real.cos u * haa + S * S * Real.sin t * Real.sin u * hbb +
    c * S * (Real.cos t + Real.cos u) * hva + c * S * (Real.sin t + Real.sin u) * hvb +
    S * S * (Real.cos t * Real.sin u + Real.sin t * Real.cos u) * hab +
    (Real.cos t * Real.cos u + Real.sin t * Real.sin u) * hs

/-- C119: every direction is reached: for each direction there is an azimuth of the deflection that gives it. -/
theorem C119_deflect_all (v : Vector) (hv : Vec3.norm v.cart = 1) (w : Vec3 ℝ) (hw : Vec3.norm w = 1) :
    ∃ t, (v.deflect (Vec3.dot w v.cart) t).cart = w := by
  obtain ⟨a, b, haa, hbb, hab, hva, hvb, hbase, hd⟩ := deflect_eq v hv
  have hvv : Vec3.dot v.cart v.cart = 1 := by
    have := hv
    unfold Vec3.norm at this
    rwa [Real.sqrt_eq_one] at this
  have hww : Vec3.dot w w = 1 := by
    have := hw
    unfold Vec3.norm at this
    rwa [Real.sqrt_eq_one] at this
  obtain ⟨c, hc⟩ : ∃ c, c = Vec3.dot w v.cart := ⟨_, rfl⟩
  obtain ⟨p, hp⟩ : ∃ p, p = Vec3.dot w a := ⟨_, rfl⟩
  obtain ⟨q, hq⟩ : ∃ q, q = Vec3.dot w b := ⟨_, rfl⟩
  have hb := hbase w
  rw [← hc, ← hp, ← hq] at hb
  have hsum : p * p + q * q = 1 - c ^ 2 := by
    have lin : ∀ x : Vec3 ℝ, Vec3.dot x (Vec3.smul c v.cart + Vec3.smul p a + Vec3.smul q b) =
        c * Vec3.dot x v.cart + p * Vec3.dot x a + q * Vec3.dot x b := by
      intro x
      simp only [Vec3.dot, Vec3.smul, Vec3.add_x, Vec3.add_y, Vec3.add_z]
      ring
    have := lin w
    rw [← hb] at this
    rw [hww, ← hc, ← hp, ← hq] at this
    linarith
  have hc1 : c ^ 2 ≤ 1 := by nlinarith [mul_self_nonneg p, mul_self_nonneg q]
  have hca : |c| ≤ 1 := by rw [← sq_le_one_iff_abs_le_one]; exact hc1
  rw [abs_le] at hca
  refine ⟨atan2 q p, ?_⟩
  rw [← hc, hd c _ hca.1 hca.2]
  obtain ⟨e1, e2⟩ := rho_cos p q
  rw [hsum] at e1 e2
  rw [e1, e2]
  exact hb.symm

/-! ### Non-vacuity, failures -/

/-- A deflection by a right angle. -/
example : ∃ v : Vector, Vec3.norm v.cart = 1 ∧ Vec3.dot (v.deflect 0 1).cart v.cart = 0 := by
  have h : Vec3.norm (⟨3 / 5, 0, 4 / 5⟩ : Vec3 ℝ) = 1 := by unfold Vec3.norm Vec3.dot; rw [Real.sqrt_eq_one]; norm_num
  exact ⟨.make ⟨3 / 5, 0, 4 / 5⟩, h, (C119_deflect (.make ⟨3 / 5, 0, 4 / 5⟩) h 0 1 (by norm_num) (by norm_num)).2⟩

/-- C119 does not hold for vectors of other lengths: only the part along the old direction is scaled with the length. A vector
of length 2 deflected by a right angle has length 1. -/
theorem C119_deflect_length_fails :
    Vec3.norm (Vector.make ⟨0, 0, 2⟩).cart = 2 ∧ Vec3.norm ((Vector.make ⟨0, 0, 2⟩).deflect 0 0).cart = 1 := by
  have h2 : Real.sqrt (2 * 2) = 2 := Real.sqrt_mul_self (by norm_num)
  constructor
  · simp [Vec3.norm, Vec3.dot, Vector.make, h2]
  · have haz : Real.arccos 1 = 0 := Real.arccos_one
    simp [Vector.deflect, Vector.toSpherical, Vector.make, h2, Siren.Geometry.Phi.atan2, haz, Vec3.norm, Vec3.dot, Vec3.smul]
    nlinarith [Real.sin_sq_add_cos_sq (Complex.arg ⟨0, 0⟩)]

/-- C119: vectors obtained from the constructor and from the operators that return a new vector are equal exactly if their
components are. -/
theorem C119_equal (a b : Vec3 ℝ) : (Vector.make a).equal (Vector.make b) ↔ a = b := by
  constructor
  · rintro ⟨h1, h2, h3, -⟩
    exact Vec3.ext h1 h2 h3
  · rintro rfl
    exact ⟨rfl, rfl, rfl, rfl, rfl, rfl⟩

/-- C119 does not hold for the comparison of other vectors: `operator==` also compares the stored spherical coordinates. A
vector of length one and its `normalized()` have the same components and are not equal; the same for a vector before and after
`CalculateSphericalCoordinates`. -/
theorem C119_equal_fails :
    ((Vector.make ⟨1, 0, 0⟩).normalized.cart = ⟨1, 0, 0⟩ ∧
      ¬ (Vector.make ⟨1, 0, 0⟩).normalized.equal (Vector.make ⟨1, 0, 0⟩)) ∧
    ((Vector.make ⟨1, 0, 0⟩).toSpherical.cart = ⟨1, 0, 0⟩ ∧
      ¬ (Vector.make ⟨1, 0, 0⟩).toSpherical.equal (Vector.make ⟨1, 0, 0⟩)) := by
  refine ⟨⟨?_, ?_⟩, rfl, ?_⟩
  · simp [Vector.normalized, Vector.make]
  · rintro ⟨-, -, -, h, -⟩
    simp [Vector.normalized, Vector.make] at h
  · rintro ⟨-, -, -, h, -⟩
    simp [Vector.toSpherical, Vector.make] at h

/-- C119 does not hold for the spherical coordinates of a vector that is changed afterwards: they keep their values. -/
theorem C119_stale_fails :
    (((Vector.make ⟨1, 0, 0⟩).toSpherical).addAssign (.make ⟨1, 0, 0⟩)).cart = ⟨2, 0, 0⟩ ∧
    (((Vector.make ⟨1, 0, 0⟩).toSpherical).addAssign (.make ⟨1, 0, 0⟩)).sph.radius = 1 := by
  constructor
  · ext <;> simp [Vector.addAssign, Vector.toSpherical, Vector.make]
    norm_num
  · simp [Vector.addAssign, Vector.toSpherical, Vector.make]

end Siren.Spherical
