import Verif.Geometry.Wedge
import Verif.Geometry.Sphere
import Mathlib.Analysis.SpecialFunctions.Trigonometric.Inverse
import Mathlib.Analysis.Real.Pi.Bounds

set_option autoImplicit false

/-!
# C76: crossings of a band in polar angle along a line, and spheres with both cuts

Models the theta part of `Sphere::ComputeIntersections` (geometry/private/Sphere.cxx:32-41, 171-233, 272-274).
-/

namespace Siren.Geometry.Theta

open Siren Siren.Geometry Real Filter Topology

/-! ### Model -/

/-- `ThetaInRange` (geometry/private/Sphere.cxx:32-41). -/
noncomputable def thetaInRange (v : Vec3 ℝ) (start delta : ℝ) : Bool :=
  let r := Real.sqrt (v.x * v.x + v.y * v.y + v.z * v.z)
  if r < 1 / 10 ^ 15 then true
  else
    let c := v.z / r
    let c := if c > 1 then 1 else c
    let c := if c < -1 then -1 else c
    let theta := arccos c
    decide (theta ≥ start - 1 / 1000000000) && decide (theta ≤ start + delta + 1 / 1000000000)

/-- The bilinear form of the double cone: `A`, `B_half`, `C` (geometry/private/Sphere.cxx:188-190). -/
noncomputable def form (theta0 : ℝ) (v w : Vec3 ℝ) : ℝ :=
  v.x * w.x + v.y * w.y - v.z * w.z * (tan theta0 * tan theta0)

/-- One root (geometry/private/Sphere.cxx:206-230): the hit, if any, and the new value of `theta_apex_emitted`. -/
noncomputable def coneRoot (start delta : ℝ) (p d : Vec3 ℝ) (face : Nat) (theta0 : ℝ) (emitted : Bool) (t : ℝ) :
    List (ℝ × Bool) × Bool :=
  let h : Vec3 ℝ := ⟨p.x + t * d.x, p.y + t * d.y, p.z + t * d.z⟩
  if theta0 < π / 2 ∧ h.z < -precision then ([], emitted)
  else if theta0 > π / 2 ∧ h.z > precision then ([], emitted)
  else
    let h2 := h.x * h.x + h.y * h.y + h.z * h.z
    if h2 < precision * 1000 * precision * 1000 then
      if emitted then ([], emitted)
      else
        let eps := precision * 1000
        ([(t, thetaInRange ⟨h.x + eps * d.x, h.y + eps * d.y, h.z + eps * d.z⟩ start delta)], true)
    else
      let g := h.x * d.x + h.y * d.y + (-h.z * (tan theta0 * tan theta0)) * d.z
      let g := if theta0 > π / 2 then -g else g
      ([(t, if face = 0 then decide (g > 0) else decide (g < 0))], emitted)

/-- The roots tried (geometry/private/Sphere.cxx:188-204). -/
noncomputable def coneRoots (theta0 : ℝ) (p d : Vec3 ℝ) : List ℝ :=
  let A := form theta0 d d
  let B := form theta0 p d
  let C := form theta0 p p
  let det := B * B - A * C
  if det < 0 then []
  else
    let sq := Real.sqrt (max det 0)
    if |A| > precision then [(-B - sq) / A, (-B + sq) / A]
    else if |B| > precision then [-C / (2 * B)]
    else []

/-- One pass of the loop over the faces (geometry/private/Sphere.cxx:174-232). -/
noncomputable def thetaFace (start delta : ℝ) (p d : Vec3 ℝ) (face : Nat) (emitted : Bool) : List (ℝ × Bool) × Bool :=
  let theta0 := start + face * delta
  if theta0 < 1 / 10 ^ 12 ∨ |theta0 - π| < 1 / 10 ^ 12 then ([], emitted)
  else if |theta0 - π / 2| < 1 / 10 ^ 12 then
    if |d.z| < precision then ([], emitted)
    else ([(-p.z / d.z, if face = 0 then decide (d.z < 0) else decide (d.z > 0))], emitted)
  else
    (coneRoots theta0 p d).foldl (fun acc t =>
      let r := coneRoot start delta p d face theta0 acc.2 t
      (acc.1 ++ r.1, r.2)) ([], emitted)

/-- The loop (geometry/private/Sphere.cxx:172-233). -/
noncomputable def thetaHits (start delta : ℝ) (p d : Vec3 ℝ) : List (ℝ × Bool) :=
  let a := thetaFace start delta p d 0 false
  let b := thetaFace start delta p d 1 a.2
  a.1 ++ b.1

/-! ### Specification -/

/-- The polar angle of a point. -/
noncomputable def polar (v : Vec3 ℝ) : ℝ := arccos (v.z / Vec3.norm v)

/-- The polar angle is between `start` and `start + delta`. -/
def InBand (start delta : ℝ) (v : Vec3 ℝ) : Prop := start ≤ polar v ∧ polar v ≤ start + delta

/-- A band the code can represent: an angle next to a pole or the equator is exactly there. -/
structure Wellformed (start delta : ℝ) : Prop where
  start_nonneg : 0 ≤ start
  delta_pos : 0 < delta
  stop_le : start + delta ≤ π
  pole : start = 0 ∨ 1 / 10 ^ 12 ≤ start
  pole' : start + delta = π ∨ start + delta ≤ π - 1 / 10 ^ 12
  wide : 1 / 10 ^ 12 ≤ start + delta ∧ start ≤ π - 1 / 10 ^ 12
  equator : ∀ theta0 ∈ [start, start + delta], theta0 = π / 2 ∨ 1 / 10 ^ 12 ≤ |theta0 - π / 2|

/-- A line that crosses the boundary of polar angle `theta0` cleanly. For the equator: it is not nearly parallel to it and
not in it. For a cone: the direction is not nearly parallel to the cone (or exactly so), and where the line meets the double
cone other than at the apex it crosses rather than touches it, more than 1e-9 above or below the apex and at least 1e-6
away from it. -/
structure CleanFace (theta0 : ℝ) (p d : Vec3 ℝ) : Prop where
  away : 1 / 1000000000 < |polar (-d) - theta0|
  plane : theta0 = π / 2 → precision ≤ |d.z| ∨ (d.z = 0 ∧ p.z ≠ 0)
  slope : theta0 ≠ π / 2 → precision < |form theta0 d d| ∨
    (form theta0 d d = 0 ∧ (precision < |form theta0 p d| ∨ form theta0 p d = 0 ∧ form theta0 p p ≠ 0))
  cross : theta0 ≠ π / 2 → ∀ t : ℝ, form theta0 (p + Vec3.smul t d) (p + Vec3.smul t d) = 0 → p + Vec3.smul t d = 0 ∨
    (form theta0 (p + Vec3.smul t d) d ≠ 0 ∧ precision < |(p + Vec3.smul t d).z| ∧
      1 / 1000000 ≤ Vec3.norm (p + Vec3.smul t d))

/-- A line that crosses a band cleanly. Through the centre, the direction is not within 1e-9 of an edge, and the equator
is not one of two edges. -/
structure Clean (start delta : ℝ) (p d : Vec3 ℝ) : Prop where
  unit : Vec3.dot d d = 1
  faces : ∀ theta0 ∈ [start, start + delta], theta0 ≠ 0 → theta0 ≠ π → CleanFace theta0 p d
  apex : ∀ t : ℝ, p + Vec3.smul t d = 0 → (∀ theta0 ∈ [start, start + delta], theta0 ≠ 0 → theta0 ≠ π →
    1 / 1000000000 < |polar d - theta0|) ∧ (start ≠ 0 → start + delta ≠ π → start ≠ π / 2 ∧ start + delta ≠ π / 2)

/-- An edge of the band, or the centre. -/
def OnEdge (start delta : ℝ) (v : Vec3 ℝ) : Prop := v = 0 ∨ polar v = start ∨ polar v = start + delta

/-- Two places where the line meets an edge of the band are at least 2e-9 apart. -/
def Spread (start delta : ℝ) (p d : Vec3 ℝ) : Prop :=
  ∀ t u : ℝ, OnEdge start delta (p + Vec3.smul t d) → OnEdge start delta (p + Vec3.smul u d) → t < u → t + 2 * precision ≤ u

/-! ### Proofs -/

theorem norm_pos {v : Vec3 ℝ} (h : v ≠ 0) : 0 < Vec3.norm v := by
  rcases (Vec3.norm_nonneg v).lt_or_eq with h1 | h1
  · exact h1
  · exfalso
    apply h
    have h2 : Vec3.norm v ^ 2 = v.x * v.x + v.y * v.y + v.z * v.z := Real.sq_sqrt (Vec3.dot_self_nonneg v)
    rw [← h1] at h2
    ext
    · show v.x = 0; nlinarith [mul_self_nonneg v.x, mul_self_nonneg v.y, mul_self_nonneg v.z]
    · show v.y = 0; nlinarith [mul_self_nonneg v.x, mul_self_nonneg v.y, mul_self_nonneg v.z]
    · show v.z = 0; nlinarith [mul_self_nonneg v.x, mul_self_nonneg v.y, mul_self_nonneg v.z]

theorem norm_sq (v : Vec3 ℝ) : Vec3.norm v ^ 2 = v.x * v.x + v.y * v.y + v.z * v.z := Real.sq_sqrt (Vec3.dot_self_nonneg v)

theorem ratio_bounds (v : Vec3 ℝ) : -1 ≤ v.z / Vec3.norm v ∧ v.z / Vec3.norm v ≤ 1 := by
  by_cases h : v = 0
  · subst h; simp
  · have hp := norm_pos h
    have h2 := norm_sq v
    have := abs_le_of_sq_le_sq (a := v.z) (b := Vec3.norm v) (by nlinarith [mul_self_nonneg v.x, mul_self_nonneg v.y]) hp.le
    rw [abs_le] at this
    rw [le_div_iff₀ hp, div_le_iff₀ hp]
    constructor <;> linarith [this.1, this.2]

theorem polar_lt_iff (v : Vec3 ℝ) (hv : v ≠ 0) (theta0 : ℝ) (h0 : 0 ≤ theta0) (h1 : theta0 ≤ π) :
    polar v < theta0 ↔ Vec3.norm v * cos theta0 - v.z < 0 := by
  have hp := norm_pos hv
  obtain ⟨b1, b2⟩ := ratio_bounds v
  have e : cos (polar v) = v.z / Vec3.norm v := cos_arccos b1 b2
  have e' : v.z = Vec3.norm v * cos (polar v) := by rw [e]; field_simp
  have hm : polar v ∈ Set.Icc 0 π := ⟨arccos_nonneg _, arccos_le_pi _⟩
  have := strictAntiOn_cos.lt_iff_gt (show theta0 ∈ Set.Icc 0 π from ⟨h0, h1⟩) hm
  rw [e', sub_neg, mul_lt_mul_iff_right₀ hp]
  exact ⟨fun h => this.2 h, fun h => this.1 h⟩

theorem lt_polar_iff (v : Vec3 ℝ) (hv : v ≠ 0) (theta0 : ℝ) (h0 : 0 ≤ theta0) (h1 : theta0 ≤ π) :
    theta0 < polar v ↔ -(Vec3.norm v * cos theta0 - v.z) < 0 := by
  have hp := norm_pos hv
  obtain ⟨b1, b2⟩ := ratio_bounds v
  have e : cos (polar v) = v.z / Vec3.norm v := cos_arccos b1 b2
  have e' : v.z = Vec3.norm v * cos (polar v) := by rw [e]; field_simp
  have hm : polar v ∈ Set.Icc 0 π := ⟨arccos_nonneg _, arccos_le_pi _⟩
  have := strictAntiOn_cos.lt_iff_gt hm (show theta0 ∈ Set.Icc 0 π from ⟨h0, h1⟩)
  rw [e', neg_sub, sub_neg, mul_lt_mul_iff_right₀ hp]
  exact ⟨fun h => this.2 h, fun h => this.1 h⟩

/-- `thetaInRange` of a point away from the origin. -/
theorem thetaInRange_eq (v : Vec3 ℝ) (start delta : ℝ) (hv : 1 / 10 ^ 15 ≤ Vec3.norm v) :
    thetaInRange v start delta = true ↔ start - 1 / 1000000000 ≤ polar v ∧ polar v ≤ start + delta + 1 / 1000000000 := by
  obtain ⟨b1, b2⟩ := ratio_bounds v
  unfold thetaInRange
  have e : Real.sqrt (v.x * v.x + v.y * v.y + v.z * v.z) = Vec3.norm v := rfl
  simp only [e]
  rw [if_neg (not_lt.2 hv), if_neg (by rw [if_neg (not_lt.2 b2)]; exact not_lt.2 b1), if_neg (not_lt.2 b2)]
  simp [polar]

/-- The signed distance from the boundary of polar angle `theta0`, scaled by `σ`. -/
noncomputable def H (σ theta0 : ℝ) (p d : Vec3 ℝ) (u : ℝ) : ℝ :=
  σ * (Vec3.norm (p + Vec3.smul u d) * cos theta0 - (p + Vec3.smul u d).z)

theorem H_cont (σ theta0 : ℝ) (p d : Vec3 ℝ) (t : ℝ) : ContinuousAt (H σ theta0 p d) t := by
  have : H σ theta0 p d = fun u => σ * (Real.sqrt ((p.x + u * d.x) * (p.x + u * d.x) + (p.y + u * d.y) * (p.y + u * d.y) +
      (p.z + u * d.z) * (p.z + u * d.z)) * cos theta0 - (p.z + u * d.z)) := by
    funext u; rfl
  rw [this]
  fun_prop

theorem form_line (theta0 : ℝ) (p d : Vec3 ℝ) (u : ℝ) : form theta0 (p + Vec3.smul u d) (p + Vec3.smul u d) =
    form theta0 d d * u ^ 2 + 2 * form theta0 p d * u + form theta0 p p := by
  simp only [form, Vec3.add_x, Vec3.add_y, Vec3.add_z, Vec3.smul_x, Vec3.smul_y, Vec3.smul_z]; ring

theorem form_slope (theta0 : ℝ) (p d : Vec3 ℝ) (u : ℝ) : form theta0 (p + Vec3.smul u d) d =
    form theta0 d d * u + form theta0 p d := by
  simp only [form, Vec3.add_x, Vec3.add_y, Vec3.add_z, Vec3.smul_x, Vec3.smul_y, Vec3.smul_z]; ring

theorem factor (theta0 : ℝ) (hc : cos theta0 ≠ 0) (v : Vec3 ℝ) :
    (Vec3.norm v * cos theta0 - v.z) * (Vec3.norm v * cos theta0 + v.z) = cos theta0 ^ 2 * form theta0 v v := by
  have h1 := norm_sq v
  have h2 : tan theta0 * tan theta0 * cos theta0 ^ 2 = 1 - cos theta0 ^ 2 := by
    rw [tan_eq_sin_div_cos]
    field_simp
    linarith [sin_sq_add_cos_sq theta0]
  unfold form
  linear_combination cos theta0 ^ 2 * h1 + v.z * v.z * h2

theorem zero_iff (theta0 : ℝ) (hc : cos theta0 ≠ 0) (v : Vec3 ℝ) (hv : v ≠ 0) :
    Vec3.norm v * cos theta0 - v.z = 0 ↔ form theta0 v v = 0 ∧ 0 < v.z * cos theta0 := by
  have hp := norm_pos hv
  have hf := factor theta0 hc v
  have hc2 : 0 < cos theta0 ^ 2 := by positivity
  constructor
  · intro h
    rw [h, zero_mul] at hf
    refine ⟨(mul_eq_zero.1 hf.symm).resolve_left hc2.ne', ?_⟩
    have : v.z = Vec3.norm v * cos theta0 := by linarith
    rw [this, mul_assoc, ← sq]
    positivity
  · rintro ⟨h1, h2⟩
    rw [h1, mul_zero] at hf
    rcases mul_eq_zero.1 hf with h | h
    · exact h
    · exfalso
      have : v.z = -(Vec3.norm v * cos theta0) := by linarith
      rw [this] at h2
      have : 0 < Vec3.norm v * cos theta0 ^ 2 := by positivity
      nlinarith

/-- Where the line crosses a cone, the side changes as the form does. -/
theorem cone_flips (σ theta0 : ℝ) (hσ : σ ≠ 0) (hc : cos theta0 ≠ 0) (p d : Vec3 ℝ) (t : ℝ) (hv : p + Vec3.smul t d ≠ 0)
    (h0 : H σ theta0 p d t = 0) (h1 : form theta0 (p + Vec3.smul t d) d ≠ 0) :
    Flips (fun u => ¬ H σ theta0 p d u < 0) t (decide (0 < σ * cos theta0 * form theta0 (p + Vec3.smul t d) d)) := by
  have hz : Vec3.norm (p + Vec3.smul t d) * cos theta0 - (p + Vec3.smul t d).z = 0 := by
    unfold H at h0; exact (mul_eq_zero.1 h0).resolve_left hσ
  obtain ⟨hf, hzc⟩ := (zero_iff theta0 hc _ hv).1 hz
  have hq : Flips (fun u => σ * cos theta0 * form theta0 (p + Vec3.smul u d) (p + Vec3.smul u d) < 0) t
      (decide (σ * cos theta0 * form theta0 (p + Vec3.smul t d) d < 0)) := by
    have := quadratic_flips (σ * cos theta0 * form theta0 d d) (σ * cos theta0 * (2 * form theta0 p d))
      (σ * cos theta0 * form theta0 p p) t (by
        rw [form_line] at hf
        linear_combination σ * cos theta0 * hf) (by
        rw [form_slope] at h1
        intro h
        have : σ * cos theta0 * 2 * (form theta0 d d * t + form theta0 p d) = 0 := by linear_combination h
        exact (mul_ne_zero (mul_ne_zero (mul_ne_zero hσ hc) two_ne_zero) h1) this)
    have e : ∀ u, σ * cos theta0 * form theta0 (p + Vec3.smul u d) (p + Vec3.smul u d) =
        σ * cos theta0 * form theta0 d d * u ^ 2 + σ * cos theta0 * (2 * form theta0 p d) * u +
          σ * cos theta0 * form theta0 p p := fun u => by rw [form_line]; ring
    simp only [e]
    convert this using 2
    rw [form_slope]
    constructor <;> intro h <;> nlinarith
  have hK : ∀ᶠ u in 𝓝 t, 0 < cos theta0 * (Vec3.norm (p + Vec3.smul u d) * cos theta0 + (p + Vec3.smul u d).z) := by
    refine eventually_pos (f := fun u => cos theta0 * (Vec3.norm (p + Vec3.smul u d) * cos theta0 + (p + Vec3.smul u d).z)) ?_ ?_
    · have : (fun u => cos theta0 * (Vec3.norm (p + Vec3.smul u d) * cos theta0 + (p + Vec3.smul u d).z)) =
          fun u => cos theta0 * (Real.sqrt ((p.x + u * d.x) * (p.x + u * d.x) + (p.y + u * d.y) * (p.y + u * d.y) +
            (p.z + u * d.z) * (p.z + u * d.z)) * cos theta0 + (p.z + u * d.z)) := rfl
      rw [this]
      fun_prop
    · show 0 < cos theta0 * (Vec3.norm (p + Vec3.smul t d) * cos theta0 + (p + Vec3.smul t d).z)
      rw [show Vec3.norm (p + Vec3.smul t d) * cos theta0 = (p + Vec3.smul t d).z by linarith]
      nlinarith
  have hs : Flips (fun u => H σ theta0 p d u < 0) t (decide (σ * cos theta0 * form theta0 (p + Vec3.smul t d) d < 0)) := by
    refine hq.congr (hK.mono fun u hu => ?_)
    have hf := factor theta0 hc (p + Vec3.smul u d)
    have hc2 : 0 < cos theta0 ^ 2 := by positivity
    have e : H σ theta0 p d u * (cos theta0 * (Vec3.norm (p + Vec3.smul u d) * cos theta0 + (p + Vec3.smul u d).z)) =
        cos theta0 ^ 2 * (σ * cos theta0 * form theta0 (p + Vec3.smul u d) (p + Vec3.smul u d)) := by
      unfold H; linear_combination σ * cos theta0 * hf
    constructor
    · intro h
      by_contra hn
      have := mul_nonneg (not_lt.1 hn) hu.le
      nlinarith
    · intro h
      by_contra hn
      have := mul_nonneg hc2.le (not_lt.1 hn)
      nlinarith
  have := hs.not
  rw [← decide_not] at this
  convert this using 2
  rw [not_lt]
  exact ⟨fun h => h.le, fun h => lt_of_le_of_ne h (Ne.symm (mul_ne_zero (mul_ne_zero hσ hc) h1))⟩

/-- The roots tried are the places where the line meets the double cone. -/
theorem mem_coneRoots (theta0 : ℝ) (p d : Vec3 ℝ) (hs : precision < |form theta0 d d| ∨
    (form theta0 d d = 0 ∧ (precision < |form theta0 p d| ∨ form theta0 p d = 0 ∧ form theta0 p p ≠ 0))) (t : ℝ) :
    t ∈ coneRoots theta0 p d ↔ form theta0 (p + Vec3.smul t d) (p + Vec3.smul t d) = 0 := by
  rw [form_line]
  unfold coneRoots
  simp only
  generalize form theta0 d d = A at hs ⊢
  generalize form theta0 p d = B at hs ⊢
  generalize form theta0 p p = C at hs ⊢
  by_cases hA : precision < |A|
  · have hA0 : A ≠ 0 := by rintro rfl; rw [abs_zero] at hA; exact absurd hA (not_lt.2 precision_pos.le)
    split
    · next hdet =>
      simp only [List.not_mem_nil, false_iff]
      intro h
      have : (A * t + B) ^ 2 = B * B - A * C := by linear_combination A * h
      nlinarith [sq_nonneg (A * t + B)]
    · next hdet =>
      have hm : max (B * B - A * C) 0 = B * B - A * C := max_eq_left (not_lt.1 hdet)
      have hsq : Real.sqrt (max (B * B - A * C) 0) ^ 2 = B * B - A * C := by rw [hm]; exact Real.sq_sqrt (not_lt.1 hdet)
      set sq := Real.sqrt (max (B * B - A * C) 0)
      simp only [List.mem_cons, List.not_mem_nil, or_false]
      rw [eq_div_iff hA0, eq_div_iff hA0]
      have e : A * (A * t ^ 2 + 2 * B * t + C) = (t * A - (-B - sq)) * (t * A - (-B + sq)) := by
        linear_combination hsq
      constructor
      · rintro (h | h)
        · have : A * (A * t ^ 2 + 2 * B * t + C) = 0 := by rw [e, h]; ring
          exact (mul_eq_zero.1 this).resolve_left hA0
        · have : A * (A * t ^ 2 + 2 * B * t + C) = 0 := by rw [e, h]; ring
          exact (mul_eq_zero.1 this).resolve_left hA0
      · intro h
        rw [h, mul_zero] at e
        rcases mul_eq_zero.1 e.symm with h | h
        · left; linarith
        · right; linarith
  · obtain ⟨rfl, hB⟩ := hs.resolve_left hA
    rw [if_neg (by nlinarith [mul_self_nonneg B]), if_neg (by simpa using hA)]
    rcases hB with hB | ⟨rfl, hC⟩
    · have hB0 : B ≠ 0 := by rintro rfl; rw [abs_zero] at hB; exact absurd hB (not_lt.2 precision_pos.le)
      rw [if_pos hB, List.mem_singleton, eq_div_iff (mul_ne_zero two_ne_zero hB0)]
      constructor <;> intro h <;> linarith
    · rw [if_neg (by simp [precision_pos.le])]
      simpa using hC

/-- The loop over the roots when no root is at the apex. -/
theorem fold_const (f : Bool → ℝ → List (ℝ × Bool) × Bool) (e : Bool) (l : List ℝ) (h : ∀ t ∈ l, (f e t).2 = e) :
    ∀ a0, l.foldl (fun acc t => (acc.1 ++ (f acc.2 t).1, (f acc.2 t).2)) (a0, e) = (a0 ++ l.flatMap (fun t => (f e t).1), e) := by
  induction l with
  | nil => intro a0; simp
  | cons a as ih =>
    intro a0
    rw [List.foldl_cons]
    simp only [h a (by simp)]
    rw [ih (fun t ht => h t (by simp [ht]))]
    simp

/-- The side of the boundary that counts for a face. -/
def side (face : Nat) : ℝ := if face = 0 then 1 else -1

theorem side_ne (face : Nat) : side face ≠ 0 := by unfold side; split <;> norm_num

/-- A face whose angle is a pole is not crossed. -/
theorem face_pole (start delta : ℝ) (p d : Vec3 ℝ) (e : Bool) :
    (start = 0 → thetaFace start delta p d 0 e = ([], e) ∧ ∀ u, ¬ H (side 0) start p d u < 0) ∧
    (start + delta = π → thetaFace start delta p d 1 e = ([], e) ∧ ∀ u, ¬ H (side 1) (start + delta) p d u < 0) := by
  have hb : ∀ v : Vec3 ℝ, |v.z| ≤ Vec3.norm v := fun v =>
    abs_le_of_sq_le_sq (by nlinarith [norm_sq v, mul_self_nonneg v.x, mul_self_nonneg v.y]) (Vec3.norm_nonneg v)
  refine ⟨?_, ?_⟩
  · rintro rfl
    refine ⟨?_, ?_⟩
    · unfold thetaFace
      simp
    · intro u
      have := abs_le.1 (hb (p + Vec3.smul u d))
      simp only [H, side, if_true, cos_zero, mul_one, one_mul]
      linarith [this.2]
  · intro h
    refine ⟨?_, ?_⟩
    · unfold thetaFace
      simp only [Nat.cast_one, one_mul, h]
      simp
    · intro u
      have := abs_le.1 (hb (p + Vec3.smul u d))
      simp only [H, side, one_ne_zero, if_false, h, cos_pi]
      linarith [this.1]

theorem cos_ne (theta0 : ℝ) (h0 : 0 < theta0) (h1 : theta0 < π) (h : theta0 ≠ π / 2) : cos theta0 ≠ 0 := by
  intro hc
  apply h
  have := injOn_cos (show theta0 ∈ Set.Icc 0 π from ⟨h0.le, h1.le⟩) (show π / 2 ∈ Set.Icc 0 π from ⟨by positivity, by linarith [pi_pos]⟩)
    (by rw [hc, cos_pi_div_two])
  exact this

theorem cos_pos_iff (theta0 : ℝ) (h0 : 0 < theta0) (h1 : theta0 < π) : 0 < cos theta0 ↔ theta0 < π / 2 := by
  have := strictAntiOn_cos.lt_iff_gt (show π / 2 ∈ Set.Icc 0 π from ⟨by positivity, by linarith [pi_pos]⟩)
    (show theta0 ∈ Set.Icc 0 π from ⟨h0.le, h1.le⟩)
  rw [cos_pi_div_two] at this
  exact this

/-- One root of a clean line, not at the apex. -/
theorem coneRoot_clean (start delta : ℝ) (p d : Vec3 ℝ) (face : Nat) (theta0 : ℝ) (h0 : 0 < theta0) (h1 : theta0 < π)
    (hne : theta0 ≠ π / 2) (hc : CleanFace theta0 p d) (e : Bool) (t : ℝ) (hv : p + Vec3.smul t d ≠ 0)
    (ht : form theta0 (p + Vec3.smul t d) (p + Vec3.smul t d) = 0) :
    (H (side face) theta0 p d t ≠ 0 ∧ coneRoot start delta p d face theta0 e t = ([], e)) ∨
    (H (side face) theta0 p d t = 0 ∧ coneRoot start delta p d face theta0 e t =
      ([(t, decide (0 < side face * cos theta0 * form theta0 (p + Vec3.smul t d) d))], e)) := by
  obtain ⟨g0, g1, g2⟩ := (hc.cross hne t ht).resolve_left hv
  have hcn := cos_ne theta0 h0 h1 hne
  have hcp := cos_pos_iff theta0 h0 h1
  have hH : H (side face) theta0 p d t = 0 ↔ 0 < (p + Vec3.smul t d).z * cos theta0 := by
    unfold H
    rw [mul_eq_zero, or_iff_right (side_ne face), zero_iff theta0 hcn _ hv]
    simp [ht]
  have hn : ¬ (p + Vec3.smul t d).x * (p + Vec3.smul t d).x + (p + Vec3.smul t d).y * (p + Vec3.smul t d).y +
      (p + Vec3.smul t d).z * (p + Vec3.smul t d).z < precision * 1000 * precision * 1000 := by
    rw [← norm_sq, not_lt]
    unfold precision
    nlinarith
  have hgf : (p + Vec3.smul t d).x * d.x + (p + Vec3.smul t d).y * d.y +
      (-(p + Vec3.smul t d).z * (tan theta0 * tan theta0)) * d.z = form theta0 (p + Vec3.smul t d) d := by
    unfold form; ring
  have hun : coneRoot start delta p d face theta0 e t =
      if theta0 < π / 2 ∧ (p + Vec3.smul t d).z < -precision then ([], e)
      else if theta0 > π / 2 ∧ (p + Vec3.smul t d).z > precision then ([], e)
      else ([(t, if face = 0 then decide ((if theta0 > π / 2 then -form theta0 (p + Vec3.smul t d) d
        else form theta0 (p + Vec3.smul t d) d) > 0) else decide ((if theta0 > π / 2 then -form theta0 (p + Vec3.smul t d) d
        else form theta0 (p + Vec3.smul t d) d) < 0))], e) := by
    unfold coneRoot
    simp only
    rw [← hgf]
    simp only [Vec3.add_x, Vec3.add_y, Vec3.add_z, Vec3.smul_x, Vec3.smul_y, Vec3.smul_z] at hn ⊢
    rw [if_neg hn]
    rfl
  rw [hun, hH]
  rcases lt_or_gt_of_ne hne with hlt | hgt
  · have hcp' := hcp.2 hlt
    by_cases hz : (p + Vec3.smul t d).z < -precision
    · left
      rw [if_pos ⟨hlt, hz⟩]
      exact ⟨fun h => absurd (mul_neg_of_neg_of_pos (lt_trans hz (neg_neg_of_pos precision_pos)) hcp') (not_lt.2 (hH.1 h).le), rfl⟩
    · right
      have hz' : precision < (p + Vec3.smul t d).z := by
        rcases lt_abs.1 g1 with h | h
        · exact h
        · exact absurd (by linarith) hz
      rw [if_neg (fun h => hz h.2), if_neg (fun h => absurd h.1 (not_lt.2 hlt.le)), if_neg (not_lt.2 hlt.le)]
      refine ⟨mul_pos (lt_trans precision_pos hz') hcp', ?_⟩
      congr 3
      unfold side
      split
      · congr 1
        rw [eq_iff_iff, one_mul, gt_iff_lt, mul_pos_iff_of_pos_left hcp']
      · congr 1
        rw [eq_iff_iff, neg_one_mul, neg_mul, neg_pos]
        constructor
        · intro h; exact mul_neg_of_pos_of_neg hcp' h
        · intro h; by_contra hn'; exact absurd (mul_nonneg hcp'.le (not_lt.1 hn')) (not_le.2 h)
  · have hcp' : cos theta0 < 0 := lt_of_le_of_ne (not_lt.1 fun h => absurd (hcp.1 h) (not_lt.2 hgt.le)) hcn
    by_cases hz : (p + Vec3.smul t d).z > precision
    · left
      rw [if_neg (fun h => absurd h.1 (not_lt.2 hgt.le)), if_pos ⟨hgt, hz⟩]
      exact ⟨fun h => absurd (mul_neg_of_pos_of_neg (lt_trans precision_pos hz) hcp') (not_lt.2 (hH.1 h).le), rfl⟩
    · right
      have hz' : (p + Vec3.smul t d).z < -precision := by
        rcases lt_abs.1 g1 with h | h
        · exact absurd h hz
        · linarith
      rw [if_neg (fun h => absurd h.1 (not_lt.2 hgt.le)), if_neg (fun h => hz h.2), if_pos hgt]
      refine ⟨mul_pos_of_neg_of_neg (lt_trans hz' (neg_neg_of_pos precision_pos)) hcp', ?_⟩
      congr 3
      unfold side
      split
      · congr 1
        rw [eq_iff_iff, one_mul, gt_iff_lt, neg_pos]
        constructor
        · intro h; exact mul_pos_of_neg_of_neg hcp' h
        · intro h; by_contra hn'; exact absurd (mul_nonpos_of_nonpos_of_nonneg hcp'.le (not_lt.1 hn')) (not_le.2 h)
      · congr 1
        rw [eq_iff_iff, neg_one_mul, neg_lt_zero]
        constructor
        · intro h; exact mul_pos (by linarith) h
        · intro h; by_contra hn'; exact absurd (mul_nonpos_of_nonneg_of_nonpos (by linarith) (not_lt.1 hn')) (not_le.2 h)

/-- What a face reports for a clean line that misses the centre. -/
theorem face_spec (start delta : ℝ) (hw : Wellformed start delta) (p d : Vec3 ℝ) (face : Nat) (hface : face = 0 ∨ face = 1)
    (hv : ∀ t : ℝ, p + Vec3.smul t d ≠ 0) (h0 : start + face * delta ≠ 0) (h1 : start + face * delta ≠ π)
    (hc : CleanFace (start + face * delta) p d) (e : Bool) :
    ∃ L, thetaFace start delta p d face e = (L, e) ∧ (L.map Prod.fst).Nodup ∧
      (∀ c ∈ L, H (side face) (start + face * delta) p d c.1 = 0 ∧
        Flips (fun u => ¬ H (side face) (start + face * delta) p d u < 0) c.1 c.2) ∧
      ∀ t, (∀ c ∈ L, c.1 ≠ t) → Steady (fun u => ¬ H (side face) (start + face * delta) p d u < 0) t := by
  have hpole : ¬ (start + face * delta < 1 / 10 ^ 12 ∨ |start + face * delta - π| < 1 / 10 ^ 12) ∧
      0 < start + face * delta ∧ start + face * delta < π ∧
      (start + face * delta = π / 2 ∨ 1 / 10 ^ 12 ≤ |start + face * delta - π / 2|) := by
    have e12 : (0 : ℝ) < 1 / 10 ^ 12 := by positivity
    obtain ⟨w1, w2, w3, w4, w5, ⟨w6, w7⟩, w8⟩ := hw
    rcases hface with rfl | rfl
    · simp only [Nat.cast_zero, zero_mul, add_zero] at h0 h1 ⊢
      have h2 := w4.resolve_left h0
      refine ⟨?_, by linarith, lt_of_le_of_lt w7 (by linarith), w8 _ (by simp)⟩
      rintro (h | h)
      · linarith
      · rw [abs_lt] at h; linarith [h.1]
    · simp only [Nat.cast_one, one_mul] at h0 h1 ⊢
      have h2 := w5.resolve_left h1
      refine ⟨?_, by linarith, by linarith, w8 _ (by simp)⟩
      rintro (h | h)
      · linarith
      · rw [abs_lt] at h; linarith [h.1]
  obtain ⟨hp, hpos, hlt, heq⟩ := hpole
  set theta0 := start + face * delta with hth
  have hstep : thetaFace start delta p d face e = if |theta0 - π / 2| < 1 / 10 ^ 12 then
        if |d.z| < precision then ([], e)
        else ([(-p.z / d.z, if face = 0 then decide (d.z < 0) else decide (d.z > 0))], e)
      else (coneRoots theta0 p d).foldl (fun acc t =>
        (acc.1 ++ (coneRoot start delta p d face theta0 acc.2 t).1, (coneRoot start delta p d face theta0 acc.2 t).2)) ([], e) := by
    unfold thetaFace
    simp only [← hth]
    rw [if_neg hp]
  have hs := side_ne face
  by_cases hpl : theta0 = π / 2
  · rw [if_pos (by rw [hpl]; simp)] at hstep
    have hH : ∀ u, H (side face) theta0 p d u = -side face * (p.z + u * d.z) := by
      intro u
      unfold H
      rw [hpl, cos_pi_div_two]
      simp only [Vec3.add_z, Vec3.smul_z]; ring
    rcases hc.plane hpl with hdz | ⟨hdz, hpz⟩
    · rw [if_neg (not_lt.2 hdz)] at hstep
      have hd0 : d.z ≠ 0 := by intro h; rw [h, abs_zero] at hdz; exact absurd hdz (not_le.2 precision_pos)
      refine ⟨_, hstep, by simp, ?_, ?_⟩
      · intro c hc'
        rw [List.mem_singleton] at hc'
        subst hc'
        have hz0 : p.z + -p.z / d.z * d.z = 0 := by field_simp; ring
        refine ⟨by rw [hH]; simp only [hz0, mul_zero], ?_⟩
        have hf := flips_of_factor (f := fun u => H (side face) theta0 p d u) (g := fun _ => -side face * d.z) (t := -p.z / d.z)
          (fun u => by rw [hH]; field_simp; ring) continuousAt_const (mul_ne_zero (neg_ne_zero.2 hs) hd0)
        have hf := hf.not
        rw [← decide_not] at hf
        convert hf using 2
        rcases hface with rfl | rfl
        · simp only [side, if_true]
          congr 1
          rw [eq_iff_iff, not_lt]
          constructor
          · intro h; linarith
          · intro h; exact lt_of_le_of_ne (by linarith) hd0
        · simp only [side, one_ne_zero, if_false]
          congr 1
          rw [eq_iff_iff, not_lt, gt_iff_lt]
          constructor
          · intro h; linarith
          · intro h; exact lt_of_le_of_ne (by linarith) (Ne.symm hd0)
      · intro t ht
        have := ht _ (List.mem_singleton.2 rfl)
        refine (steady_of_ne (H_cont _ _ _ _ _) ?_).not
        rw [hH]
        refine mul_ne_zero (neg_ne_zero.2 hs) fun h => this ?_
        show -p.z / d.z = t
        rw [div_eq_iff hd0]; linarith
    · rw [if_pos (by rw [hdz, abs_zero]; exact precision_pos)] at hstep
      refine ⟨_, hstep, by simp, by simp, ?_⟩
      intro t _
      refine (steady_of_ne (H_cont _ _ _ _ _) ?_).not
      rw [hH, hdz]
      simpa using ⟨hs, hpz⟩
  · rw [if_neg (not_lt.2 (heq.resolve_left hpl))] at hstep
    have hmem := mem_coneRoots theta0 p d (hc.slope hpl)
    have hroot := fun t (ht : t ∈ coneRoots theta0 p d) =>
      coneRoot_clean start delta p d face theta0 hpos hlt hpl hc e t (hv t) ((hmem t).1 ht)
    have hcn := cos_ne theta0 hpos hlt hpl
    rw [fold_const _ e _ (fun t ht => by rcases hroot t ht with h | h <;> rw [h.2])] at hstep
    rw [List.nil_append] at hstep
    refine ⟨_, hstep, ?_, ?_, ?_⟩
    · have hnd : (coneRoots theta0 p d).Nodup := by
        have hm2 := hmem
        unfold coneRoots at hm2 ⊢
        simp only at hm2 ⊢
        split
        · simp
        · next hdet =>
          split
          · next hA =>
            have hA0 : form theta0 d d ≠ 0 := by
              intro h; rw [h, abs_zero] at hA; exact absurd hA (not_lt.2 precision_pos.le)
            rw [List.nodup_cons]
            refine ⟨?_, List.nodup_singleton _⟩
            rw [List.mem_singleton, div_left_inj' hA0]
            intro h
            have hsq : Real.sqrt (max (form theta0 p d * form theta0 p d - form theta0 d d * form theta0 p p) 0) = 0 := by
              linarith
            have hr : form theta0 (p + Vec3.smul (-form theta0 p d / form theta0 d d) d)
                (p + Vec3.smul (-form theta0 p d / form theta0 d d) d) = 0 := by
              rw [← hm2, if_neg hdet, if_pos hA, hsq]
              simp
            have := (hc.cross hpl _ hr).resolve_left (hv _)
            apply this.1
            rw [form_slope]
            field_simp
            ring
          · split <;> simp
      have : ∀ l : List ℝ, l.Nodup → (∀ t ∈ l, t ∈ coneRoots theta0 p d) →
          ((l.flatMap fun t => (coneRoot start delta p d face theta0 e t).1).map Prod.fst).Sublist l := by
        intro l
        induction l with
        | nil => intro _ _; simp
        | cons a as ih =>
          intro h1 h2
          rw [List.flatMap_cons, List.map_append]
          have := ih (List.nodup_cons.1 h1).2 (fun t ht => h2 t (by simp [ht]))
          rcases hroot a (h2 a (by simp)) with h | h
          · rw [h.2]; simpa using this.trans (List.sublist_cons_self _ _)
          · rw [h.2]; simpa using this
      exact (this _ hnd (fun _ h => h)).nodup hnd
    · intro c hc'
      obtain ⟨t, ht, hct⟩ := List.mem_flatMap.1 hc'
      rcases hroot t ht with ⟨h, h'⟩ | ⟨h, h'⟩
      · rw [h'] at hct; simp at hct
      · rw [h', List.mem_singleton] at hct
        subst hct
        exact ⟨h, cone_flips _ _ hs hcn p d t (hv t) h ((hc.cross hpl t ((hmem t).1 ht)).resolve_left (hv t)).1⟩
    · intro t ht
      refine (steady_of_ne (H_cont _ _ _ _ _) ?_).not
      intro h
      have hz : Vec3.norm (p + Vec3.smul t d) * cos theta0 - (p + Vec3.smul t d).z = 0 := by
        unfold H at h; exact (mul_eq_zero.1 h).resolve_left hs
      have hr := (hmem t).2 ((zero_iff theta0 hcn _ (hv t)).1 hz).1
      rcases hroot t hr with ⟨h', _⟩ | ⟨_, h'⟩
      · exact h' h
      · exact ht (t, _) (List.mem_flatMap.2 ⟨t, hr, by rw [h']; exact List.mem_singleton.2 rfl⟩) rfl

/-- The band in terms of the two boundary functions. -/
theorem band_iff (start delta : ℝ) (hw : Wellformed start delta) (p d : Vec3 ℝ) (u : ℝ) (hv : p + Vec3.smul u d ≠ 0) :
    InBand start delta (p + Vec3.smul u d) ↔
      (¬ H (side 0) start p d u < 0) ∧ ¬ H (side 1) (start + delta) p d u < 0 := by
  have h1 := polar_lt_iff _ hv start hw.start_nonneg (by linarith [hw.delta_pos, hw.stop_le])
  have h2 := lt_polar_iff _ hv (start + delta) (by linarith [hw.delta_pos, hw.start_nonneg]) hw.stop_le
  unfold InBand H
  simp only [side, if_true, one_ne_zero, if_false, one_mul, neg_one_mul]
  rw [← h1, ← h2, not_lt, not_lt]

/-- The two boundaries do not meet away from the centre. -/
theorem sides_apart (start delta : ℝ) (hw : Wellformed start delta) (p d : Vec3 ℝ) (u : ℝ) (hv : p + Vec3.smul u d ≠ 0) :
    (H (side 0) start p d u = 0 → 0 < H (side 1) (start + delta) p d u) ∧
    (H (side 1) (start + delta) p d u = 0 → 0 < H (side 0) start p d u) := by
  have hp := norm_pos hv
  have hc : cos (start + delta) < cos start := strictAntiOn_cos
    ⟨hw.start_nonneg, by linarith [hw.delta_pos, hw.stop_le]⟩ ⟨by linarith [hw.delta_pos, hw.start_nonneg], hw.stop_le⟩
    (by linarith [hw.delta_pos])
  unfold H
  simp only [side, if_true, one_ne_zero, if_false, one_mul, neg_one_mul]
  have := mul_lt_mul_of_pos_left hc hp
  constructor <;> intro h <;> linarith

/-- Far behind, a line is on the side of the boundary of the direction it comes from. -/
theorem far_behind (σ theta0 : ℝ) (p d : Vec3 ℝ) (hd : Vec3.dot d d = 1) (h : σ * (cos theta0 + d.z) ≠ 0) :
    ∀ᶠ u in atBot, (H σ theta0 p d u < 0 ↔ σ * (cos theta0 + d.z) < 0) := by
  set F : ℝ → ℝ := fun w => σ * (Real.sqrt (Vec3.dot p p * w ^ 2 + 2 * Vec3.dot p d * w + 1) * cos theta0 + (p.z * w + d.z)) with hF
  have hF0 : F 0 = σ * (cos theta0 + d.z) := by simp [hF]
  have hcont : ContinuousAt F 0 := by rw [hF]; fun_prop
  have key : ∀ u < 0, H σ theta0 p d u = -u * F u⁻¹ := by
    intro u hu
    have hn : Vec3.norm (p + Vec3.smul u d) = -u * Real.sqrt (Vec3.dot p p * u⁻¹ ^ 2 + 2 * Vec3.dot p d * u⁻¹ + 1) := by
      have e : Vec3.dot (p + Vec3.smul u d) (p + Vec3.smul u d) =
          (-u) ^ 2 * (Vec3.dot p p * u⁻¹ ^ 2 + 2 * Vec3.dot p d * u⁻¹ + 1) := by
        have : Vec3.dot (p + Vec3.smul u d) (p + Vec3.smul u d) =
            u ^ 2 * Vec3.dot d d + 2 * u * Vec3.dot p d + Vec3.dot p p := by
          simp only [Vec3.dot, Vec3.add_x, Vec3.add_y, Vec3.add_z, Vec3.smul_x, Vec3.smul_y, Vec3.smul_z]; ring
        rw [this, hd]
        have : u ≠ 0 := hu.ne
        field_simp
        ring
      show Real.sqrt (Vec3.dot (p + Vec3.smul u d) (p + Vec3.smul u d)) = _
      rw [e, Real.sqrt_mul (sq_nonneg _), Real.sqrt_sq (by linarith)]
    unfold H
    rw [hn, hF]
    simp only [Vec3.add_z, Vec3.smul_z]
    have : u ≠ 0 := hu.ne
    field_simp
    ring
  have hev : ∀ᶠ u in atBot, (F u⁻¹ < 0 ↔ F 0 < 0) := by
    have ht : Tendsto (fun u : ℝ => u⁻¹) atBot (𝓝 0) := tendsto_inv_atBot_zero
    rcases lt_or_gt_of_ne (show F 0 ≠ 0 by rw [hF0]; exact h) with h0 | h0
    · exact (ht.eventually (eventually_neg hcont h0)).mono fun u hu => by simp [hu, h0]
    · exact (ht.eventually (eventually_pos hcont h0)).mono fun u hu => by simp [not_lt.2 hu.le, not_lt.2 h0.le]
  filter_upwards [hev, eventually_lt_atBot 0] with u h1 h2
  rw [key u h2, ← hF0, ← h1]
  constructor
  · intro h3
    by_contra h4
    nlinarith [not_lt.1 h4]
  · intro h3; nlinarith

/-- Directions: the range test agrees with the band unless an edge is within the tolerance. -/
theorem range_dir (start delta : ℝ) (hw : Wellformed start delta) (v : Vec3 ℝ) (hv : 1 / 10 ^ 15 ≤ Vec3.norm v)
    (h : ∀ theta0 ∈ [start, start + delta], theta0 ≠ 0 → theta0 ≠ π → 1 / 1000000000 < |polar v - theta0|) :
    thetaInRange v start delta = true ↔ InBand start delta v := by
  rw [thetaInRange_eq v start delta hv]
  have b1 : 0 ≤ polar v := arccos_nonneg _
  have b2 : polar v ≤ π := arccos_le_pi _
  unfold InBand
  have hpos := hw.delta_pos
  have hpi := hw.stop_le
  have h0 := hw.start_nonneg
  have e1 : start - 1 / 1000000000 ≤ polar v ↔ start ≤ polar v := by
    by_cases hs : start = 0
    · rw [hs]; constructor <;> intro _ <;> linarith
    · have := h start (by simp) hs (by linarith)
      constructor
      · intro h'
        by_contra hc
        rw [abs_of_neg (by linarith [not_le.1 hc])] at this
        linarith
      · intro h'; linarith
  have e2 : polar v ≤ start + delta + 1 / 1000000000 ↔ polar v ≤ start + delta := by
    by_cases hs : start + delta = π
    · rw [hs]; constructor <;> intro _ <;> linarith
    · have := h (start + delta) (by simp) (by linarith) hs
      constructor
      · intro h'
        by_contra hc
        rw [abs_of_pos (by linarith [not_le.1 hc])] at this
        linarith
      · intro h'; linarith
  rw [e1, e2]

theorem norm_dir (d : Vec3 ℝ) (hd : Vec3.dot d d = 1) : Vec3.norm d = 1 ∧ Vec3.norm (-d) = 1 := by
  constructor
  · show Real.sqrt (Vec3.dot d d) = 1; rw [hd]; simp
  · show Real.sqrt (Vec3.dot (-d) (-d)) = 1
    have : Vec3.dot (-d) (-d) = Vec3.dot d d := by simp [Vec3.dot]
    rw [this, hd]; simp

theorem ne_zero_of_norm {v : Vec3 ℝ} (h : Vec3.norm v = 1) : v ≠ 0 := by
  rintro rfl
  have : Vec3.norm (0 : Vec3 ℝ) = 0 := by simp [Vec3.norm, Vec3.dot]
  rw [this] at h; exact zero_ne_one h

/-- The state before the first crossing. -/
theorem start_state (start delta : ℝ) (hw : Wellformed start delta) (p d : Vec3 ℝ) (hc : Clean start delta p d) :
    ∀ᶠ u in atBot, (InBand start delta (p + Vec3.smul u d) ↔ thetaInRange (-d) start delta = true) := by
  obtain ⟨n1, n2⟩ := norm_dir d hc.unit
  have hdir := range_dir start delta hw (-d) (by rw [n2]; norm_num) (fun th h1 h2 h3 => (hc.faces th h1 h2 h3).away)
  have hb := band_iff start delta hw (-d) 0 0 (by
    have : -d + Vec3.smul 0 (0 : Vec3 ℝ) = -d := by ext <;> simp
    rw [this]; exact ne_zero_of_norm n2)
  have e0 : -d + Vec3.smul 0 (0 : Vec3 ℝ) = -d := by ext <;> simp
  rw [e0] at hb
  have hH : ∀ σ th, H σ th (-d) 0 0 = σ * (cos th + d.z) := by
    intro σ th
    unfold H
    rw [e0, n2]
    simp
  simp only [hH] at hb
  -- only finitely many parameters are at the centre
  have hv : ∀ᶠ u in atBot, p + Vec3.smul u d ≠ 0 := by
    by_cases hex : ∃ u0, p + Vec3.smul u0 d = 0
    · obtain ⟨u0, h0⟩ := hex
      filter_upwards [eventually_lt_atBot u0] with u hu h
      apply ne_zero_of_norm n1
      have e : ∀ f : Vec3 ℝ → ℝ, (f (p + Vec3.smul u d) = f p + u * f d) → (f (p + Vec3.smul u0 d) = f p + u0 * f d) → f 0 = 0 → f d = 0 := by
        intro f f1 f2 f3
        rw [h, f3] at f1
        rw [h0, f3] at f2
        have : (u - u0) * f d = 0 := by linarith
        exact (mul_eq_zero.1 this).resolve_left (by linarith)
      ext
      · exact e Vec3.x (by simp) (by simp) rfl
      · exact e Vec3.y (by simp) (by simp) rfl
      · exact e Vec3.z (by simp) (by simp) rfl
    · push Not at hex
      exact Eventually.of_forall hex
  have hside : ∀ σ th, σ ≠ 0 → 0 ≤ th → th ≤ π → 1 / 1000000000 < |polar (-d) - th| → σ * (cos th + d.z) ≠ 0 := by
    intro σ th hσ h0 h1 h2 h3
    have hz : cos th = (-d).z / Vec3.norm (-d) := by
      rw [n2, div_one]
      have := (mul_eq_zero.1 h3).resolve_left hσ
      simp only [Vec3.neg_z]; linarith
    have : polar (-d) = th := by unfold polar; rw [← hz, arccos_cos h0 h1]
    rw [this, sub_self, abs_zero] at h2
    norm_num at h2
  have hf : ∀ face : Nat, face = 0 ∨ face = 1 → ∀ᶠ u in atBot,
      ((¬ H (side face) (start + face * delta) p d u < 0) ↔ ¬ side face * (cos (start + face * delta) + d.z) < 0) := by
    intro face hface
    have hz2 : |d.z| ≤ 1 := by
      rw [← n1]
      exact abs_le_of_sq_le_sq (by nlinarith [norm_sq d, mul_self_nonneg d.x, mul_self_nonneg d.y]) (Vec3.norm_nonneg d)
    rw [abs_le] at hz2
    have w1 := hw.start_nonneg
    have w2 := hw.delta_pos
    have w3 := hw.stop_le
    by_cases ha : start + face * delta ≠ 0 ∧ start + face * delta ≠ π
    · refine (far_behind (side face) (start + face * delta) p d hc.unit (hside _ _ (side_ne face) ?_ ?_
        (hc.faces _ ?_ ha.1 ha.2).away)).mono fun u hu => not_congr hu
      · rcases hface with rfl | rfl
        · simpa using w1
        · simp; linarith
      · rcases hface with rfl | rfl
        · simp; linarith
        · simpa using w3
      · rcases hface with rfl | rfl <;> simp
    · refine Eventually.of_forall fun u => ?_
      rcases hface with rfl | rfl
      · have hs : start = 0 := by
          by_contra hs
          apply ha
          simp only [Nat.cast_zero, zero_mul, add_zero]
          exact ⟨hs, by linarith⟩
        simp only [Nat.cast_zero, zero_mul, add_zero]
        have := ((face_pole start delta p d false).1 hs).2 u
        simp only [this, not_false_iff, true_iff]
        rw [hs]; simp only [side, if_true, cos_zero, one_mul]; linarith [hz2.1]
      · have hs : start + delta = π := by
          by_contra hs
          apply ha
          simp only [Nat.cast_one, one_mul]
          exact ⟨by linarith, hs⟩
        simp only [Nat.cast_one, one_mul]
        have := ((face_pole start delta p d false).2 hs).2 u
        simp only [this, not_false_iff, true_iff]
        rw [hs]; simp only [side, one_ne_zero, if_false, cos_pi]; linarith [hz2.2]
  have f0 := hf 0 (Or.inl rfl)
  have f1 := hf 1 (Or.inr rfl)
  simp only [Nat.cast_zero, zero_mul, add_zero, Nat.cast_one, one_mul] at f0 f1
  filter_upwards [hv, f0, f1] with u h1 h2 h3
  rw [band_iff start delta hw p d u h1, h2, h3, hdir, hb]

theorem polar_of_H (σ : ℝ) (hσ : σ ≠ 0) (theta0 : ℝ) (h0 : 0 ≤ theta0) (h1 : theta0 ≤ π) (p d : Vec3 ℝ) (t : ℝ)
    (hv : p + Vec3.smul t d ≠ 0) (h : H σ theta0 p d t = 0) : polar (p + Vec3.smul t d) = theta0 := by
  have hz : Vec3.norm (p + Vec3.smul t d) * cos theta0 - (p + Vec3.smul t d).z = 0 := by
    unfold H at h; exact (mul_eq_zero.1 h).resolve_left hσ
  unfold polar
  have : (p + Vec3.smul t d).z / Vec3.norm (p + Vec3.smul t d) = cos theta0 := by
    rw [div_eq_iff (norm_pos hv).ne']; linarith
  rw [this, arccos_cos h0 h1]

/-- What the two faces report for a clean line that misses the centre. -/
theorem hits_spec (start delta : ℝ) (hw : Wellformed start delta) (p d : Vec3 ℝ) (hc : Clean start delta p d)
    (hv : ∀ t : ℝ, p + Vec3.smul t d ≠ 0) :
    ((thetaHits start delta p d).map Prod.fst).Nodup ∧
    (∀ c ∈ thetaHits start delta p d, Flips (fun u => InBand start delta (p + Vec3.smul u d)) c.1 c.2 ∧
      OnEdge start delta (p + Vec3.smul c.1 d)) ∧
    ∀ t, (∀ c ∈ thetaHits start delta p d, c.1 ≠ t) → Steady (fun u => InBand start delta (p + Vec3.smul u d)) t := by
  have w1 := hw.start_nonneg
  have w2 := hw.delta_pos
  have w3 := hw.stop_le
  have face : ∀ (face : Nat), face = 0 ∨ face = 1 → ∀ e, ∃ L, thetaFace start delta p d face e = (L, e) ∧ (L.map Prod.fst).Nodup ∧
      (∀ c ∈ L, H (side face) (start + face * delta) p d c.1 = 0 ∧
        Flips (fun u => ¬ H (side face) (start + face * delta) p d u < 0) c.1 c.2) ∧
      ∀ t, (∀ c ∈ L, c.1 ≠ t) → Steady (fun u => ¬ H (side face) (start + face * delta) p d u < 0) t := by
    intro face hface e
    by_cases ha : start + face * delta ≠ 0 ∧ start + face * delta ≠ π
    · refine face_spec start delta hw p d face hface hv ha.1 ha.2 (hc.faces _ ?_ ha.1 ha.2) e
      rcases hface with rfl | rfl <;> simp
    · rcases hface with rfl | rfl
      · have hs : start = 0 := by
          by_contra hs
          apply ha
          simp only [Nat.cast_zero, zero_mul, add_zero]
          exact ⟨hs, by linarith⟩
        obtain ⟨h1, h2⟩ := (face_pole start delta p d e).1 hs
        exact ⟨[], h1, by simp, by simp, fun t _ => Or.inl (Eventually.of_forall fun u => by simpa using h2 u)⟩
      · have hs : start + delta = π := by
          by_contra hs
          apply ha
          simp only [Nat.cast_one, one_mul]
          exact ⟨by linarith, hs⟩
        obtain ⟨h1, h2⟩ := (face_pole start delta p d e).2 hs
        exact ⟨[], h1, by simp, by simp, fun t _ => Or.inl (Eventually.of_forall fun u => by simpa using h2 u)⟩
  obtain ⟨L0, a1, a2, a3, a4⟩ := face 0 (Or.inl rfl) false
  obtain ⟨L1, b1, b2, b3, b4⟩ := face 1 (Or.inr rfl) false
  simp only [Nat.cast_zero, zero_mul, add_zero, Nat.cast_one, one_mul] at a3 a4 b3 b4
  have he : thetaHits start delta p d = L0 ++ L1 := by
    unfold thetaHits
    simp only [a1, b1]
  have hband : (fun u => InBand start delta (p + Vec3.smul u d)) =
      fun u => (¬ H (side 0) start p d u < 0) ∧ ¬ H (side 1) (start + delta) p d u < 0 :=
    funext fun u => propext (band_iff start delta hw p d u (hv u))
  rw [he, hband]
  refine ⟨?_, ?_, ?_⟩
  · rw [List.map_append, List.nodup_append]
    refine ⟨a2, b2, ?_⟩
    intro x hx y hy hxy
    obtain ⟨c, hc1, rfl⟩ := List.mem_map.1 hx
    obtain ⟨c', hc2, rfl⟩ := List.mem_map.1 hy
    have h1 := (sides_apart start delta hw p d c.1 (hv _)).1 (a3 c hc1).1
    have h2 := (b3 c' hc2).1
    rw [← hxy] at h2
    linarith
  · intro c hc'
    rcases List.mem_append.1 hc' with h | h
    · refine ⟨(a3 c h).2.and ?_, Or.inr (Or.inl (polar_of_H _ (side_ne 0) _ w1 (by linarith) p d c.1 (hv _) (a3 c h).1))⟩
      exact (eventually_pos (H_cont _ _ _ _ _) ((sides_apart start delta hw p d c.1 (hv _)).1 (a3 c h).1)).mono
        fun u hu => not_lt.2 hu.le
    · refine ⟨(b3 c h).2.and' ?_, Or.inr (Or.inr (polar_of_H _ (side_ne 1) _ (by linarith) w3 p d c.1 (hv _) (b3 c h).1))⟩
      exact (eventually_pos (H_cont _ _ _ _ _) ((sides_apart start delta hw p d c.1 (hv _)).2 (b3 c h).1)).mono
        fun u hu => not_lt.2 hu.le
  · intro t ht
    exact (a4 t fun c hc' => ht c (List.mem_append_left _ hc')).and (b4 t fun c hc' => ht c (List.mem_append_right _ hc'))

/-! Lines through the centre -/

theorem apex_line (p d : Vec3 ℝ) (u0 : ℝ) (h : p + Vec3.smul u0 d = 0) (u : ℝ) : p + Vec3.smul u d = Vec3.smul (u - u0) d := by
  have hx : p.x + u0 * d.x = 0 := congrArg Vec3.x h
  have hy : p.y + u0 * d.y = 0 := congrArg Vec3.y h
  have hz : p.z + u0 * d.z = 0 := congrArg Vec3.z h
  ext
  · simp only [Vec3.add_x, Vec3.smul_x]; linarith
  · simp only [Vec3.add_y, Vec3.smul_y]; linarith
  · simp only [Vec3.add_z, Vec3.smul_z]; linarith

theorem polar_smul (a : ℝ) (ha : 0 < a) (v : Vec3 ℝ) : polar (Vec3.smul a v) = polar v := by
  unfold polar
  congr 1
  have : Vec3.norm (Vec3.smul a v) = a * Vec3.norm v := by
    show Real.sqrt (Vec3.dot (Vec3.smul a v) (Vec3.smul a v)) = a * Real.sqrt (Vec3.dot v v)
    have : Vec3.dot (Vec3.smul a v) (Vec3.smul a v) = a ^ 2 * Vec3.dot v v := by
      simp only [Vec3.dot, Vec3.smul_x, Vec3.smul_y, Vec3.smul_z]; ring
    rw [this, Real.sqrt_mul (sq_nonneg _), Real.sqrt_sq ha.le]
  rw [this, Vec3.smul_z, mul_div_mul_left _ _ ha.ne']

/-- A cone whose apex is on the line. -/
theorem face_apex_cone (start delta : ℝ) (hw : Wellformed start delta) (p d : Vec3 ℝ) (face : Nat) (hface : face = 0 ∨ face = 1)
    (u0 : ℝ) (hu : p + Vec3.smul u0 d = 0) (h0 : start + face * delta ≠ 0) (h1 : start + face * delta ≠ π)
    (h2 : start + face * delta ≠ π / 2) (hc : CleanFace (start + face * delta) p d) (e : Bool) :
    thetaFace start delta p d face e =
      (if e then [] else [(u0, thetaInRange (Vec3.smul (1 / 1000000) d) start delta)], true) := by
  have hpole : ¬ (start + face * delta < 1 / 10 ^ 12 ∨ |start + face * delta - π| < 1 / 10 ^ 12) ∧
      0 < start + face * delta ∧ start + face * delta < π ∧
      (start + face * delta = π / 2 ∨ 1 / 10 ^ 12 ≤ |start + face * delta - π / 2|) := by
    have e12 : (0 : ℝ) < 1 / 10 ^ 12 := by positivity
    obtain ⟨w1, w2, w3, w4, w5, ⟨w6, w7⟩, w8⟩ := hw
    rcases hface with rfl | rfl
    · simp only [Nat.cast_zero, zero_mul, add_zero] at h0 h1 ⊢
      have h2 := w4.resolve_left h0
      refine ⟨?_, by linarith, lt_of_le_of_lt w7 (by linarith), w8 _ (by simp)⟩
      rintro (h | h)
      · linarith
      · rw [abs_lt] at h; linarith [h.1]
    · simp only [Nat.cast_one, one_mul] at h0 h1 ⊢
      have h2 := w5.resolve_left h1
      refine ⟨?_, by linarith, by linarith, w8 _ (by simp)⟩
      rintro (h | h)
      · linarith
      · rw [abs_lt] at h; linarith [h.1]
  obtain ⟨hp, hpos, hlt, heq⟩ := hpole
  set theta0 := start + face * delta with hth
  have hstep : thetaFace start delta p d face e = (coneRoots theta0 p d).foldl (fun acc t =>
        (acc.1 ++ (coneRoot start delta p d face theta0 acc.2 t).1, (coneRoot start delta p d face theta0 acc.2 t).2)) ([], e) := by
    unfold thetaFace
    simp only [← hth]
    rw [if_neg hp, if_neg (not_lt.2 (heq.resolve_left h2))]
  have hx : p.x + u0 * d.x = 0 := congrArg Vec3.x hu
  have hy : p.y + u0 * d.y = 0 := congrArg Vec3.y hu
  have hz : p.z + u0 * d.z = 0 := congrArg Vec3.z hu
  have hB : form theta0 p d = -u0 * form theta0 d d := by
    unfold form; linear_combination d.x * hx + d.y * hy - d.z * (tan theta0 * tan theta0) * hz
  have hC : form theta0 p p = u0 ^ 2 * form theta0 d d := by
    unfold form
    linear_combination (p.x - u0 * d.x) * hx + (p.y - u0 * d.y) * hy - (p.z - u0 * d.z) * (tan theta0 * tan theta0) * hz
  have hA : precision < |form theta0 d d| := by
    rcases hc.slope h2 with h | ⟨ha, h | h⟩
    · exact h
    · rw [hB, ha] at h; simp at h; exact absurd h (not_lt.2 precision_pos.le)
    · rw [hC, ha] at h; simp at h
  have hA0 : form theta0 d d ≠ 0 := by intro h; rw [h, abs_zero] at hA; exact absurd hA (not_lt.2 precision_pos.le)
  have hroots : coneRoots theta0 p d = [u0, u0] := by
    unfold coneRoots
    simp only
    have : form theta0 p d * form theta0 p d - form theta0 d d * form theta0 p p = 0 := by rw [hB, hC]; ring
    rw [this, if_neg (lt_irrefl _), max_self, Real.sqrt_zero, if_pos hA, hB]
    have e1 : (- (-u0 * form theta0 d d) - 0) / form theta0 d d = u0 := by field_simp; ring
    have e2 : (- (-u0 * form theta0 d d) + 0) / form theta0 d d = u0 := by field_simp; ring
    rw [e1, e2]
  have hone : ∀ e, coneRoot start delta p d face theta0 e u0 =
      (if e then [] else [(u0, thetaInRange (Vec3.smul (1 / 1000000) d) start delta)], true) := by
    intro e
    unfold coneRoot
    simp only [hx, hy, hz]
    rw [if_neg (by simp [precision_pos.le]), if_neg (by simp [precision_pos.le])]
    rw [if_pos (by unfold precision; norm_num)]
    have hvec : (⟨0 + precision * 1000 * d.x, 0 + precision * 1000 * d.y, 0 + precision * 1000 * d.z⟩ : Vec3 ℝ) =
        Vec3.smul (1 / 1000000) d := by
      unfold precision
      ext
      · simp only [Vec3.smul_x]; ring
      · simp only [Vec3.smul_y]; ring
      · simp only [Vec3.smul_z]; ring
    rw [hvec]
    cases e <;> simp
  rw [hstep, hroots]
  simp only [List.foldl_cons, List.foldl_nil, hone]
  cases e <;> simp

/-- What is reported for a clean line through the centre. -/
theorem hits_apex (start delta : ℝ) (hw : Wellformed start delta) (p d : Vec3 ℝ) (hc : Clean start delta p d) (u0 : ℝ)
    (hu : p + Vec3.smul u0 d = 0) :
    (thetaHits start delta p d = [] ∧ ∀ v, InBand start delta v) ∨
    ∃ b, thetaHits start delta p d = [(u0, b)] ∧ (b = true ↔ InBand start delta d) := by
  have w1 := hw.start_nonneg
  have w2 := hw.delta_pos
  have w3 := hw.stop_le
  obtain ⟨n1, n2⟩ := norm_dir d hc.unit
  have hd0 := ne_zero_of_norm n1
  obtain ⟨ha1, ha2⟩ := hc.apex u0 hu
  have hx : p.x + u0 * d.x = 0 := congrArg Vec3.x hu
  have hz : p.z + u0 * d.z = 0 := congrArg Vec3.z hu
  have htir : thetaInRange (Vec3.smul (1 / 1000000) d) start delta = true ↔ InBand start delta d := by
    have hn : Vec3.norm (Vec3.smul (1 / 1000000) d) = 1 / 1000000 := by
      show Real.sqrt (Vec3.dot (Vec3.smul (1 / 1000000) d) (Vec3.smul (1 / 1000000) d)) = _
      have : Vec3.dot (Vec3.smul (1 / 1000000) d) (Vec3.smul (1 / 1000000) d) = (1 / 1000000) ^ 2 * Vec3.dot d d := by
        simp only [Vec3.dot, Vec3.smul_x, Vec3.smul_y, Vec3.smul_z]; ring
      rw [this, hc.unit, mul_one, Real.sqrt_sq (by norm_num)]
    have hpol := polar_smul (1 / 1000000) (by norm_num) d
    rw [range_dir start delta hw _ (by rw [hn]; norm_num) (fun th h1 h2 h3 => by rw [hpol]; exact ha1 th h1 h2 h3)]
    unfold InBand
    rw [hpol]
  have pb : ∀ v, 0 ≤ polar v ∧ polar v ≤ π := fun v => ⟨arccos_nonneg _, arccos_le_pi _⟩
  -- the plane at the equator
  have plane : ∀ face : Nat, face = 0 ∨ face = 1 → start + face * delta = π / 2 → ∀ e, thetaFace start delta p d face e =
      ([(u0, if face = 0 then decide (d.z < 0) else decide (d.z > 0))], e) ∧ d.z ≠ 0 := by
    intro face hface hth e
    have hcf := hc.faces (start + face * delta) (by rcases hface with rfl | rfl <;> simp) (by rw [hth]; positivity)
      (by rw [hth]; linarith [pi_pos])
    have hdz : precision ≤ |d.z| := by
      rcases hcf.plane hth with h | ⟨h, h'⟩
      · exact h
      · rw [h, mul_zero, add_zero] at hz; exact absurd hz h'
    have hdz0 : d.z ≠ 0 := by intro h; rw [h, abs_zero] at hdz; exact absurd hdz (not_le.2 precision_pos)
    refine ⟨?_, hdz0⟩
    unfold thetaFace
    simp only [hth]
    have hpi : (3 : ℝ) < π := pi_gt_three
    rw [if_neg, if_pos (by simp), if_neg (not_lt.2 hdz)]
    · have : -p.z / d.z = u0 := by rw [div_eq_iff hdz0]; linarith
      rw [this]
    · rintro (h | h)
      · norm_num at h; linarith
      · rw [abs_lt] at h; norm_num at h; linarith [h.1]
  have cone : ∀ face : Nat, face = 0 ∨ face = 1 → start + face * delta ≠ 0 → start + face * delta ≠ π →
      start + face * delta ≠ π / 2 → ∀ e, thetaFace start delta p d face e =
        (if e then [] else [(u0, thetaInRange (Vec3.smul (1 / 1000000) d) start delta)], true) := by
    intro face hface h0 h1 h2 e
    exact face_apex_cone start delta hw p d face hface u0 hu h0 h1 h2 (hc.faces _ (by rcases hface with rfl | rfl <;> simp) h0 h1) e
  have pole0 : start = 0 → ∀ e, thetaFace start delta p d 0 e = ([], e) := fun h e => ((face_pole start delta p d e).1 h).1
  have pole1 : start + delta = π → ∀ e, thetaFace start delta p d 1 e = ([], e) := fun h e => ((face_pole start delta p d e).2 h).1
  have c0 := cone 0 (Or.inl rfl)
  have c1 := cone 1 (Or.inr rfl)
  have q0 := plane 0 (Or.inl rfl)
  have q1 := plane 1 (Or.inr rfl)
  simp only [Nat.cast_zero, zero_mul, add_zero, Nat.cast_one, one_mul] at c0 c1 q0 q1
  have heq : polar d < π / 2 ↔ 0 < d.z := by
    rw [polar_lt_iff d hd0 (π / 2) (by positivity) (by linarith [pi_pos]), cos_pi_div_two]; constructor <;> intro _ <;> linarith
  have heq' : π / 2 < polar d ↔ d.z < 0 := by
    rw [lt_polar_iff d hd0 (π / 2) (by positivity) (by linarith [pi_pos]), cos_pi_div_two]; constructor <;> intro _ <;> linarith
  unfold thetaHits
  by_cases s0 : start = 0
  · by_cases s1 : start + delta = π
    · left
      refine ⟨?_, ?_⟩
      · simp only [pole0 s0, pole1 s1, List.append_nil]
      · intro v; unfold InBand; rw [s1, s0]; exact pb v
    · right
      by_cases s2 : start + delta = π / 2
      · obtain ⟨e1, e2⟩ := q1 s2 false
        refine ⟨decide (d.z > 0), ?_, ?_⟩
        · simp only [pole0 s0, e1, List.nil_append, one_ne_zero, if_false]
        · unfold InBand
          rw [s0, zero_add] at *
          rw [s2, decide_eq_true_iff]
          constructor
          · intro h; exact ⟨(pb d).1, (heq.2 h).le⟩
          · intro h; by_contra hn; exact absurd (heq'.2 (lt_of_le_of_ne (not_lt.1 hn) e2)) (not_lt.2 h.2)
      · refine ⟨_, ?_, htir⟩
        simp only [pole0 s0, c1 (by linarith) s1 s2, List.nil_append]
        simp
  · by_cases s1 : start + delta = π
    · right
      by_cases s2 : start = π / 2
      · obtain ⟨e1, e2⟩ := q0 s2 false
        refine ⟨decide (d.z < 0), ?_, ?_⟩
        · simp only [e1, pole1 s1, List.append_nil, if_true]
        · unfold InBand
          rw [s1, s2, decide_eq_true_iff]
          constructor
          · intro h; exact ⟨(heq'.2 h).le, (pb d).2⟩
          · intro h; by_contra hn; exact absurd (heq.2 (lt_of_le_of_ne (not_lt.1 hn) (Ne.symm e2))) (not_lt.2 h.1)
      · refine ⟨_, ?_, htir⟩
        simp only [c0 s0 (by linarith) s2, pole1 s1, List.append_nil]
        simp
    · right
      obtain ⟨t1, t2⟩ := ha2 s0 s1
      refine ⟨_, ?_, htir⟩
      simp only [c0 s0 (by linarith) t1, c1 (by linarith) s1 t2]
      simp

/-- The exact crossings of the band in order. -/
theorem band_exact (start delta : ℝ) (hw : Wellformed start delta) (p d : Vec3 ℝ) (hc : Clean start delta p d)
    (E : List (ℝ × Bool)) (hE : E.Perm (thetaHits start delta p d)) (hs : E.Pairwise (fun a b => a.1 < b.1)) (t : ℝ)
    (ht : ∀ c ∈ E, c.1 ≠ t) :
    InBand start delta (p + Vec3.smul t d) ↔ stateFrom (thetaInRange (-d) start delta) (E.map plain) t = true := by
  have hbot := start_state start delta hw p d hc
  by_cases hv : ∀ t : ℝ, p + Vec3.smul t d ≠ 0
  · obtain ⟨_, h2, h3⟩ := hits_spec start delta hw p d hc hv
    exact state_of_flips hs (fun c h => (h2 c (hE.mem_iff.1 h)).1.after) (fun t h => h3 t fun c h' => h c (hE.mem_iff.2 h'))
      hbot t ht
  · push Not at hv
    obtain ⟨u0, hu⟩ := hv
    refine state_of_flips hs ?_ ?_ hbot t ht
    · intro c h
      rcases hits_apex start delta hw p d hc u0 hu with ⟨h1, h2⟩ | ⟨b, h1, h2⟩
      · rw [hE.mem_iff, h1] at h; simp at h
      · rw [hE.mem_iff, h1, List.mem_singleton] at h
        subst h
        filter_upwards [self_mem_nhdsWithin] with u hu'
        have hu' : u0 < u := hu'
        show InBand start delta (p + Vec3.smul u d) ↔ b = true
        rw [apex_line p d u0 hu, h2]
        unfold InBand
        rw [polar_smul (u - u0) (by linarith)]
    · intro t h
      rcases hits_apex start delta hw p d hc u0 hu with ⟨h1, h2⟩ | ⟨b, h1, h2⟩
      · exact Or.inl (Eventually.of_forall fun u => h2 _)
      · have hne : u0 ≠ t := h (u0, b) (hE.mem_iff.2 (by rw [h1]; exact List.mem_singleton.2 rfl))
        have hneg : ∀ u < u0, polar (p + Vec3.smul u d) = polar (-d) := by
          intro u h'
          rw [apex_line p d u0 hu, ← polar_smul (u0 - u) (by linarith) (-d)]
          congr 1
          ext
          · simp only [Vec3.smul_x, Vec3.neg_x]; ring
          · simp only [Vec3.smul_y, Vec3.neg_y]; ring
          · simp only [Vec3.smul_z, Vec3.neg_z]; ring
        have hpos : ∀ u > u0, polar (p + Vec3.smul u d) = polar d := by
          intro u h'
          rw [apex_line p d u0 hu, polar_smul (u - u0) (by linarith)]
        rcases lt_or_gt_of_ne hne with h' | h'
        · by_cases hb : InBand start delta d
          · left
            filter_upwards [lt_mem_nhds h'] with u hu'
            unfold InBand at hb ⊢; rwa [hpos u hu']
          · right
            filter_upwards [lt_mem_nhds h'] with u hu'
            unfold InBand at hb ⊢; rwa [hpos u hu']
        · by_cases hb : InBand start delta (-d)
          · left
            filter_upwards [gt_mem_nhds h'] with u hu'
            unfold InBand at hb ⊢; rwa [hneg u hu']
          · right
            filter_upwards [gt_mem_nhds h'] with u hu'
            unfold InBand at hb ⊢; rwa [hneg u hu']

/-- Every reported crossing is on an edge. -/
theorem hits_on_edge (start delta : ℝ) (hw : Wellformed start delta) (p d : Vec3 ℝ) (hc : Clean start delta p d) :
    ((thetaHits start delta p d).map Prod.fst).Nodup ∧
    ∀ c ∈ thetaHits start delta p d, OnEdge start delta (p + Vec3.smul c.1 d) := by
  by_cases hv : ∀ t : ℝ, p + Vec3.smul t d ≠ 0
  · obtain ⟨h1, h2, _⟩ := hits_spec start delta hw p d hc hv
    exact ⟨h1, fun c h => (h2 c h).2⟩
  · push Not at hv
    obtain ⟨u0, hu⟩ := hv
    rcases hits_apex start delta hw p d hc u0 hu with ⟨h1, _⟩ | ⟨b, h1, _⟩
    · rw [h1]; simp
    · rw [h1]
      refine ⟨by simp, ?_⟩
      intro c h
      rw [List.mem_singleton] at h
      subst h
      exact Or.inl hu

theorem snap_nodup (start delta : ℝ) (hw : Wellformed start delta) (p d : Vec3 ℝ) (hc : Clean start delta p d)
    (hsp : Spread start delta p d) : ((thetaHits start delta p d).map fun c => snap c.1).Nodup := by
  obtain ⟨h1, h2⟩ := hits_on_edge start delta hw p d hc
  have : ∀ l : List (ℝ × Bool), (∀ c ∈ l, OnEdge start delta (p + Vec3.smul c.1 d)) → (l.map Prod.fst).Nodup →
      (l.map fun c => snap c.1).Nodup := by
    intro l hl hn
    unfold List.Nodup at hn ⊢
    rw [List.pairwise_map] at hn ⊢
    refine hn.imp_of_mem ?_
    intro a b ha hb hab
    have := precision_pos
    rcases lt_or_gt_of_ne hab with h | h
    · have := snap_apart (hsp a.1 b.1 (hl a ha) (hl b hb) h)
      exact ne_of_lt (by linarith)
    · have := snap_apart (hsp b.1 a.1 (hl b hb) (hl a ha) h)
      exact ne_of_gt (by linarith)
  exact this _ h2 h1

/-- C76: along every line that crosses the band cleanly, the polar angle is in the band exactly when the state before the
first crossing, followed through the reported crossings in order of distance, says so. -/
theorem C76_band (start delta : ℝ) (hw : Wellformed start delta) (p d : Vec3 ℝ) (hc : Clean start delta p d)
    (hsp : Spread start delta p d) (l : List Isect)
    (hl : l.Perm ((thetaHits start delta p d).map fun c => hitAt p d c.1 c.2))
    (hs : l.Pairwise (fun a b => a.distance ≤ b.distance)) (t : ℝ) (ht : ∀ h ∈ l, precision ≤ |h.distance - t|) :
    InBand start delta (p + Vec3.smul t d) ↔ stateFrom (thetaInRange (-d) start delta) l t = true := by
  have hn : (l.map Isect.distance).Nodup := by
    rw [(hl.map Isect.distance).nodup_iff, List.map_map]
    exact snap_nodup start delta hw p d hc hsp
  obtain ⟨E, e1, e2, e3, e4⟩ := sorted_exact _ (fun c => hitAt p d c.1 c.2) (fun c => rfl) l hl hs hn
  have ht' : ∀ c ∈ E, precision ≤ |snap c.1 - t| := fun c hc => ht (hitAt p d c.1 c.2) (by rw [e3]; exact List.mem_map_of_mem hc)
  rw [band_exact start delta hw p d hc E e1 e2 t (fun c hc => snap_ne _ _ (ht' c hc))]
  rw [e3, stateFrom_map plain (fun c => hitAt p d c.1 c.2) E _ t (fun _ _ => rfl)
    (fun c hc => (snap_side c.1 t (ht' c hc)).symm)]

end Siren.Geometry.Theta
