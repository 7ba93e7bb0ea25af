import Verif.Geometry.Local
import Verif.Geometry.Phi
import Verif.Geometry.ShapeProps
import Mathlib.Analysis.SpecialFunctions.Trigonometric.Bounds

set_option autoImplicit false

/-!
# C74: crossings of an azimuthal wedge along a line

Models the block that computes the crossings of the two half planes bounding `[start_phi, start_phi + delta_phi]`, which
seven shapes share: Cylinder.cxx:164-191, Cone.cxx:389-415, CutTube.cxx:260-287, Torus.cxx:376-403, Polycone.cxx:482-508,
GenericPolycone.cxx:292-318 and Sphere.cxx:147-170 (geometry/private), and the state before the first of them. In
Sphere.cxx the hit is tested at its exact distance, elsewhere at the one moved to the start of the ray (`st`).
-/

namespace Siren.Geometry.Phi

open Siren Siren.Geometry Real Filter Topology

/-! ### Model -/

/-- `(nx, ny)` of a face (geometry/private/Cylinder.cxx:168-172). -/
noncomputable def faceNormal (start delta : ℝ) (face : Nat) : ℝ × ℝ :=
  let alpha := start + face * delta
  let ca := cos alpha
  let sa := sin alpha
  if face = 0 then (sa, -ca) else (-sa, ca)

/-- One pass of the loop over the faces (geometry/private/Cylinder.cxx:167-191): the hit, if any, at its exact distance,
and the new value of `z_axis_hit_emitted`. -/
noncomputable def wedgeFace (st : ℝ → ℝ) (start delta : ℝ) (p d : Vec3 ℝ) (face : Nat) (emitted : Bool) :
    List (ℝ × Bool) × Bool :=
  let alpha := start + face * delta
  let ca := cos alpha
  let sa := sin alpha
  let n := faceNormal start delta face
  let nd := n.1 * d.x + n.2 * d.y
  if |nd| < precision then ([], emitted)
  else
    let np := n.1 * p.x + n.2 * p.y
    let t := -np / nd
    let hx := p.x + st t * d.x
    let hy := p.y + st t * d.y
    if hx * ca + hy * sa < -precision then ([], emitted)
    else if hx * hx + hy * hy < precision * 1000 * precision * 1000 then
      if emitted then ([], emitted)
      else ([(t, zAxisWedgeEntering d.x d.y start delta)], true)
    else ([(t, decide (nd < 0))], emitted)

/-- The loop (geometry/private/Cylinder.cxx:166-191). -/
noncomputable def wedgeHits (st : ℝ → ℝ) (start delta : ℝ) (p d : Vec3 ℝ) : List (ℝ × Bool) :=
  let a := wedgeFace st start delta p d 0 false
  let b := wedgeFace st start delta p d 1 a.2
  a.1 ++ b.1

/-! ### Specification -/

/-- The azimuth of `v` is between `start` and `start + delta`, modulo full turns. -/
def InWedge (start delta : ℝ) (v : Vec3 ℝ) : Prop := Within (atan2 v.y v.x) start 0 delta

/-- The signed distance of `v` from the vertical plane through the axis with azimuth `alpha`. -/
noncomputable def planeDist (alpha : ℝ) (v : Vec3 ℝ) : ℝ := cos alpha * v.y - sin alpha * v.x

/-- A line that crosses the wedge cleanly: it is not within 1e-9 of parallel to one of the two planes, and it crosses them
either exactly on the axis or at least 2e-6 away from it. -/
structure Clean (start delta : ℝ) (p d : Vec3 ℝ) : Prop where
  unit : d.x * d.x + d.y * d.y ≤ 1
  steep : ∀ alpha ∈ [start, start + delta], precision ≤ |planeDist alpha d|
  axis : p.x * d.y = p.y * d.x ∨ ∀ alpha ∈ [start, start + delta], ∀ t : ℝ, planeDist alpha (p + Vec3.smul t d) = 0 →
    (2 / 1000000) ^ 2 ≤ (p.x + t * d.x) ^ 2 + (p.y + t * d.y) ^ 2

/-- A line along the axis, at least 1e-10 away from it, whose azimuth is not within 1e-9 of an edge of the wedge. -/
structure Vertical (start delta : ℝ) (p d : Vec3 ℝ) : Prop where
  dx : d.x = 0
  dy : d.y = 0
  off : 1 / 10 ^ 20 < p.x * p.x + p.y * p.y
  away : ∀ k : ℤ, tol < |atan2 p.y p.x - start + k * (2 * π)| ∧ tol < |atan2 p.y p.x - start - delta + k * (2 * π)|

/-- The two planes are crossed at one place or at two that are at least 2e-9 apart. -/
def Spread (start delta : ℝ) (p d : Vec3 ℝ) : Prop :=
  ∀ t u : ℝ, planeDist start (p + Vec3.smul t d) = 0 → planeDist (start + delta) (p + Vec3.smul u d) = 0 → t ≠ u →
    2 * precision ≤ |t - u|

/-! ### Proofs -/

/-- The wedge in terms of the two planes. -/
def both (delta : ℝ) (A B : Prop) : Prop := if delta ≤ π then A ∧ B else A ∨ B

theorem both_comm (delta : ℝ) (A B : Prop) : both delta A B ↔ both delta B A := by
  unfold both; split
  · exact and_comm
  · exact or_comm

theorem polar (x y : ℝ) : x = Real.sqrt (x * x + y * y) * cos (atan2 y x) ∧ y = Real.sqrt (x * x + y * y) * sin (atan2 y x) := by
  have e : ‖(⟨x, y⟩ : ℂ)‖ = Real.sqrt (x * x + y * y) := by
    rw [Complex.norm_def, Complex.normSq_mk]
  have h1 := Complex.norm_mul_cos_arg (⟨x, y⟩ : ℂ)
  have h2 := Complex.norm_mul_sin_arg (⟨x, y⟩ : ℂ)
  rw [e] at h1 h2
  exact ⟨h1.symm, h2.symm⟩

theorem planeDist_polar (alpha : ℝ) (v : Vec3 ℝ) :
    planeDist alpha v = Real.sqrt (v.x * v.x + v.y * v.y) * sin (atan2 v.y v.x - alpha) := by
  obtain ⟨hx, hy⟩ := polar v.x v.y
  rw [sin_sub]
  unfold planeDist
  linear_combination cos alpha * hy - sin alpha * hx

theorem along_polar (alpha : ℝ) (v : Vec3 ℝ) :
    v.x * cos alpha + v.y * sin alpha = Real.sqrt (v.x * v.x + v.y * v.y) * cos (atan2 v.y v.x - alpha) := by
  obtain ⟨hx, hy⟩ := polar v.x v.y
  rw [cos_sub]
  linear_combination cos alpha * hx + sin alpha * hy

/-- The open wedge as an intersection or union of half planes. -/
theorem open_wedge (start delta : ℝ) (h0 : 0 < delta) (h1 : delta < 2 * π) (v : Vec3 ℝ) (hv : 0 < v.x * v.x + v.y * v.y) :
    (∃ k : ℤ, 0 < atan2 v.y v.x - start + k * (2 * π) ∧ atan2 v.y v.x - start + k * (2 * π) < delta) ↔
      both delta (0 < planeDist start v) (planeDist (start + delta) v < 0) := by
  have hpi := Real.pi_pos
  obtain ⟨n0, n1, k, nk⟩ := C46_normalize (atan2 v.y v.x - start)
  set psi := normalizePhi (atan2 v.y v.x - start) with hpsi
  have hr : 0 < Real.sqrt (v.x * v.x + v.y * v.y) := Real.sqrt_pos.2 hv
  have e0 : sin (atan2 v.y v.x - start) = sin psi := by
    rw [nk, sin_add_int_mul_two_pi]
  have e1 : sin (atan2 v.y v.x - (start + delta)) = sin (psi - delta) := by
    rw [nk, show atan2 v.y v.x - start + k * (2 * π) - delta = atan2 v.y v.x - (start + delta) + k * (2 * π) by ring,
      sin_add_int_mul_two_pi]
  have hl : (∃ k : ℤ, 0 < atan2 v.y v.x - start + k * (2 * π) ∧ atan2 v.y v.x - start + k * (2 * π) < delta) ↔
      0 < psi ∧ psi < delta := by
    constructor
    · rintro ⟨m, m0, m1⟩
      have em : atan2 v.y v.x - start + m * (2 * π) = psi + ((m - k : ℤ) : ℝ) * (2 * π) := by rw [nk]; push_cast; ring
      rw [em] at m0 m1
      have hz : m - k = 0 := by
        by_contra hc
        rcases lt_or_gt_of_ne hc with hc | hc
        · have : ((m - k : ℤ) : ℝ) ≤ -1 := by exact_mod_cast (by omega : m - k ≤ -1)
          nlinarith
        · have : (1 : ℝ) ≤ ((m - k : ℤ) : ℝ) := by exact_mod_cast (by omega : 1 ≤ m - k)
          nlinarith
      rw [hz] at m0 m1
      simpa using And.intro m0 m1
    · rintro ⟨a, b⟩; exact ⟨k, by rw [← nk]; exact a, by rw [← nk]; exact b⟩
  rw [hl, planeDist_polar, planeDist_polar, e0, e1]
  have hp : ∀ x : ℝ, 0 < Real.sqrt (v.x * v.x + v.y * v.y) * x ↔ 0 < x := fun x => mul_pos_iff_of_pos_left hr
  have hn : ∀ x : ℝ, Real.sqrt (v.x * v.x + v.y * v.y) * x < 0 ↔ x < 0 := fun x => by
    constructor
    · intro h; by_contra hc; exact absurd h (not_lt.2 (mul_nonneg hr.le (not_lt.1 hc)))
    · intro h; exact mul_neg_of_pos_of_neg hr h
  rw [hp, hn]
  unfold both
  split
  · next hd =>
    constructor
    · rintro ⟨a, b⟩
      exact ⟨sin_pos_of_pos_of_lt_pi a (by linarith), sin_neg_of_neg_of_neg_pi_lt (by linarith) (by linarith)⟩
    · rintro ⟨a, b⟩
      have ha : 0 < psi := by
        rcases lt_or_eq_of_le n0 with h | h
        · exact h
        · rw [← h, sin_zero] at a; exact absurd a (lt_irrefl _)
      have hb : psi < π := by
        by_contra hc
        have : sin psi ≤ 0 := by
          have := sin_nonneg_of_nonneg_of_le_pi (x := psi - π) (by linarith [not_lt.1 hc]) (by linarith)
          rw [sin_sub_pi] at this; linarith
        linarith
      refine ⟨ha, ?_⟩
      by_contra hc
      have := sin_nonneg_of_nonneg_of_le_pi (x := psi - delta) (by linarith [not_lt.1 hc]) (by linarith)
      linarith
  · next hd =>
    have hd := not_le.1 hd
    constructor
    · rintro ⟨a, b⟩
      by_cases h : psi < π
      · left; exact sin_pos_of_pos_of_lt_pi a h
      · right; exact sin_neg_of_neg_of_neg_pi_lt (by linarith) (by linarith [not_lt.1 h])
    · intro h
      by_contra hc
      rw [not_and_or] at hc
      rcases hc with hc | hc
      · have hz : psi = 0 := le_antisymm (not_lt.1 hc) n0
        rw [hz, sin_zero, zero_sub, sin_neg] at h
        have : sin delta < 0 := by
          have := sin_pos_of_pos_of_lt_pi (x := delta - π) (by linarith) (by linarith)
          rw [sin_sub_pi] at this; linarith
        rcases h with h | h <;> linarith
      · have hge := not_lt.1 hc
        have s1 : sin psi ≤ 0 := by
          have := sin_nonneg_of_nonneg_of_le_pi (x := psi - π) (by linarith) (by linarith)
          rw [sin_sub_pi] at this; linarith
        have s2 : 0 ≤ sin (psi - delta) := sin_nonneg_of_nonneg_of_le_pi (by linarith) (by linarith)
        rcases h with h | h <;> linarith

/-- Off the two edges the closed wedge is the open one. -/
theorem inWedge_iff (start delta : ℝ) (h0 : 0 < delta) (h1 : delta < 2 * π) (v : Vec3 ℝ) (hv : 0 < v.x * v.x + v.y * v.y)
    (he : ∀ alpha ∈ [start, start + delta], planeDist alpha v = 0 → v.x * cos alpha + v.y * sin alpha ≤ 0) :
    InWedge start delta v ↔ both delta (0 < planeDist start v) (planeDist (start + delta) v < 0) := by
  rw [← open_wedge start delta h0 h1 v hv]
  have hr : 0 < Real.sqrt (v.x * v.x + v.y * v.y) := Real.sqrt_pos.2 hv
  have edge : ∀ alpha ∈ [start, start + delta], ∀ k : ℤ, atan2 v.y v.x - alpha + k * (2 * π) ≠ 0 := by
    intro alpha ha k hz
    have e : atan2 v.y v.x - alpha = -(k * (2 * π)) := by linarith
    have hs : planeDist alpha v = 0 := by
      rw [planeDist_polar, e, sin_neg, ← zero_add (k * (2 * π)), sin_add_int_mul_two_pi, sin_zero]; ring
    have hc := he alpha ha hs
    rw [along_polar, e, cos_neg, cos_int_mul_two_pi, mul_one] at hc
    linarith
  constructor
  · rintro ⟨k, a, b⟩
    refine ⟨k, lt_of_le_of_ne a (fun h => edge start (by simp) k h.symm), lt_of_le_of_ne b (fun h => ?_)⟩
    exact edge (start + delta) (by simp) k (by linarith)
  · rintro ⟨k, a, b⟩
    exact ⟨k, a.le, b.le⟩

theorem planeDist_line (alpha : ℝ) (p d : Vec3 ℝ) (t : ℝ) :
    planeDist alpha (p + Vec3.smul t d) = planeDist alpha p + t * planeDist alpha d := by
  simp only [planeDist, Vec3.add_x, Vec3.add_y, Vec3.smul_x, Vec3.smul_y]; ring

/-- On the plane of one edge, the distance from the plane of the other. -/
theorem other_plane (alpha beta : ℝ) (v : Vec3 ℝ) (h : planeDist alpha v = 0) :
    planeDist beta v = (v.x * cos alpha + v.y * sin alpha) * sin (alpha - beta) := by
  have h2 := sin_sq_add_cos_sq alpha
  unfold planeDist at h ⊢
  rw [sin_sub]
  have hx : v.x = (v.x * cos alpha + v.y * sin alpha) * cos alpha := by
    linear_combination (-v.x) * h2 - sin alpha * h
  have hy : v.y = (v.x * cos alpha + v.y * sin alpha) * sin alpha := by
    linear_combination (-v.y) * h2 + cos alpha * h
  linear_combination cos beta * hy - sin beta * hx

theorem along_sq (alpha : ℝ) (v : Vec3 ℝ) (h : planeDist alpha v = 0) :
    (v.x * cos alpha + v.y * sin alpha) ^ 2 = v.x * v.x + v.y * v.y := by
  have h2 := sin_sq_add_cos_sq alpha
  unfold planeDist at h
  linear_combination (v.x * v.x + v.y * v.y) * h2 - (cos alpha * v.y - sin alpha * v.x) * h

/-- The wedge along the line: intersection or union of two half lines. -/
theorem face_flip {delta : ℝ} (h0 : 0 < delta) (h1 : delta < 2 * π) (a b a' b' rho t : ℝ) (hf : a + t * b = 0) (hb : b ≠ 0)
    (hrho : 0 < rho) (ho : a' + t * b' = -rho * sin delta) (hsame : delta = π → ∀ u, a' + u * b' = a + u * b) :
    Flips (fun u => both delta (a + u * b < 0) (a' + u * b' < 0)) t (decide (b < 0)) := by
  have hfl : Flips (fun u => a + u * b < 0) t (decide (b < 0)) := by
    have := quadratic_flips 0 b a t (by linarith) (by simpa using hb)
    simp only [mul_zero, zero_mul, zero_add] at this
    exact this.congr (Eventually.of_forall fun u => by rw [show b * u + a = a + u * b by ring])
  have hcont : ContinuousAt (fun u => a' + u * b') t := by fun_prop
  unfold both
  rcases lt_trichotomy delta π with h | h | h
  · simp only [h.le, if_true]
    have hs := sin_pos_of_pos_of_lt_pi h0 h
    exact hfl.and (eventually_neg hcont (by rw [ho]; nlinarith))
  · simp only [h.le, if_true]
    exact hfl.congr (Eventually.of_forall fun u => by rw [hsame h u]; simp)
  · simp only [not_le.2 h, if_false]
    have hs : sin delta < 0 := by
      have := sin_pos_of_pos_of_lt_pi (x := delta - π) (by linarith) (by linarith)
      rw [sin_sub_pi] at this; linarith
    exact hfl.or ((eventually_pos hcont (by rw [ho]; nlinarith)).mono fun u hu => not_lt.2 hu.le)

theorem face_steady {delta : ℝ} (h0 : 0 < delta) (h1 : delta < 2 * π) (A : ℝ → Prop) (a' b' rho t : ℝ) (hrho : rho < 0)
    (ho : a' + t * b' = -rho * sin delta) (hne : delta ≠ π) :
    Steady (fun u => both delta (A u) (a' + u * b' < 0)) t := by
  have hcont : ContinuousAt (fun u => a' + u * b') t := by fun_prop
  unfold both
  rcases lt_or_gt_of_ne hne with h | h
  · simp only [h.le, if_true]
    have hs := sin_pos_of_pos_of_lt_pi h0 h
    right
    exact (eventually_pos hcont (by rw [ho]; nlinarith)).mono fun u hu hc => absurd hc.2 (not_lt.2 hu.le)
  · simp only [not_le.2 h, if_false]
    have hs : sin delta < 0 := by
      have := sin_pos_of_pos_of_lt_pi (x := delta - π) (by linarith) (by linarith)
      rw [sin_sub_pi] at this; linarith
    left
    exact (eventually_neg hcont (by rw [ho]; nlinarith)).mono fun u hu => Or.inr hu

theorem both_steady (delta : ℝ) {A B : ℝ → Prop} {t : ℝ} (hA : Steady A t) (hB : Steady B t) :
    Steady (fun u => both delta (A u) (B u)) t := by
  unfold both
  by_cases h : delta ≤ π
  · simp only [h, if_true]; exact hA.and hB
  · simp only [h, if_false]; exact hA.or hB

/-- A direction that is not within 1e-9 of parallel to the planes is not within 1e-9 of an edge in azimuth. -/
theorem away_of_steep (alpha : ℝ) (v : Vec3 ℝ) (hu : v.x * v.x + v.y * v.y ≤ 1) (h : precision ≤ |planeDist alpha v|) (k : ℤ) :
    tol < |atan2 v.y v.x - alpha + k * (2 * π)| := by
  rw [planeDist_polar, abs_mul, abs_of_nonneg (Real.sqrt_nonneg _)] at h
  have hr : Real.sqrt (v.x * v.x + v.y * v.y) ≤ 1 := Real.sqrt_le_one.2 hu
  have hsin : precision ≤ |sin (atan2 v.y v.x - alpha + k * (2 * π))| := by
    rw [sin_add_int_mul_two_pi]
    exact le_trans h (mul_le_of_le_one_left (abs_nonneg _) hr)
  have hp := precision_pos
  have hne : atan2 v.y v.x - alpha + k * (2 * π) ≠ 0 := by
    intro hz; rw [hz, sin_zero, abs_zero] at hsin; linarith
  have hlt : |sin (atan2 v.y v.x - alpha + k * (2 * π))| < |atan2 v.y v.x - alpha + k * (2 * π)| := abs_sin_lt_abs hne
  have : tol = precision := rfl
  linarith

/-- `n · v` for the outward normal of a face. -/
noncomputable def faceFun (start delta : ℝ) (face : Nat) (v : Vec3 ℝ) : ℝ :=
  (faceNormal start delta face).1 * v.x + (faceNormal start delta face).2 * v.y

theorem faceFun_zero (start delta : ℝ) (v : Vec3 ℝ) : faceFun start delta 0 v = -planeDist start v := by
  simp [faceFun, faceNormal, planeDist]; ring

theorem faceFun_one (start delta : ℝ) (v : Vec3 ℝ) : faceFun start delta 1 v = planeDist (start + delta) v := by
  simp [faceFun, faceNormal, planeDist]; ring

/-- The azimuth of a face. -/
def faceAngle (start delta : ℝ) (face : Nat) : ℝ := start + face * delta

theorem faceFun_zero_iff (start delta : ℝ) (face : Nat) (hf : face = 0 ∨ face = 1) (v : Vec3 ℝ) :
    faceFun start delta face v = 0 ↔ planeDist (faceAngle start delta face) v = 0 := by
  rcases hf with rfl | rfl
  · rw [faceFun_zero]; simp [faceAngle]
  · rw [faceFun_one]; simp [faceAngle]

theorem faceFun_abs (start delta : ℝ) (face : Nat) (hf : face = 0 ∨ face = 1) (v : Vec3 ℝ) :
    |faceFun start delta face v| = |planeDist (faceAngle start delta face) v| := by
  rcases hf with rfl | rfl
  · rw [faceFun_zero, abs_neg]; simp [faceAngle]
  · rw [faceFun_one]; simp [faceAngle]

theorem faceAngle_mem (start delta : ℝ) (face : Nat) (hf : face = 0 ∨ face = 1) :
    faceAngle start delta face ∈ [start, start + delta] := by
  rcases hf with rfl | rfl <;> simp [faceAngle]

theorem faceFun_line (start delta : ℝ) (face : Nat) (p d : Vec3 ℝ) (t : ℝ) :
    faceFun start delta face (p + Vec3.smul t d) = faceFun start delta face p + t * faceFun start delta face d := by
  simp only [faceFun, Vec3.add_x, Vec3.add_y, Vec3.smul_x, Vec3.smul_y]; ring

/-- On the plane of one face, the value of the other. -/
theorem faceFun_other (start delta : ℝ) (face : Nat) (hf : face = 0 ∨ face = 1) (v : Vec3 ℝ)
    (h : faceFun start delta face v = 0) :
    faceFun start delta (1 - face) v =
      -(v.x * cos (faceAngle start delta face) + v.y * sin (faceAngle start delta face)) * sin delta := by
  rw [faceFun_zero_iff _ _ _ hf] at h
  have key := fun beta => other_plane (faceAngle start delta face) beta v h
  rcases hf with rfl | rfl
  · rw [show 1 - 0 = 1 from rfl, faceFun_one, key]
    rw [show faceAngle start delta 0 - (start + delta) = -delta by simp [faceAngle], sin_neg]; ring
  · rw [show 1 - 1 = 0 from rfl, faceFun_zero, key]
    rw [show faceAngle start delta 1 - start = delta by simp [faceAngle]]; ring

/-- The part of the wedge's planes seen by the line parameter `u`. -/
def Lin (start delta : ℝ) (v : Vec3 ℝ) : Prop :=
  both delta (faceFun start delta 0 v < 0) (faceFun start delta 1 v < 0)

theorem lin_iff (start delta : ℝ) (v : Vec3 ℝ) :
    Lin start delta v ↔ both delta (0 < planeDist start v) (planeDist (start + delta) v < 0) := by
  unfold Lin; rw [faceFun_zero, faceFun_one, neg_lt_zero]

theorem lin_face (start delta : ℝ) (face : Nat) (hf : face = 0 ∨ face = 1) (v : Vec3 ℝ) :
    Lin start delta v ↔ both delta (faceFun start delta face v < 0) (faceFun start delta (1 - face) v < 0) := by
  rcases hf with rfl | rfl
  · exact Iff.rfl
  · exact both_comm _ _ _

/-- A direction not near an edge is classified correctly. -/
theorem phiInRange_lin (start delta : ℝ) (h0 : 0 < delta) (h1 : delta < 2 * π) (v : Vec3 ℝ)
    (hu : v.x * v.x + v.y * v.y ≤ 1) (hs : ∀ alpha ∈ [start, start + delta], precision ≤ |planeDist alpha v|) :
    phiInRange v.x v.y start delta = true ↔ Lin start delta v := by
  have hp := precision_pos
  have hne : ∀ alpha ∈ [start, start + delta], planeDist alpha v ≠ 0 := fun alpha ha hz => by
    have := hs alpha ha; rw [hz, abs_zero] at this; linarith
  have hv : 0 < v.x * v.x + v.y * v.y := by
    by_contra hc
    have hx : v.x = 0 := by nlinarith [mul_self_nonneg v.x, mul_self_nonneg v.y]
    have hy : v.y = 0 := by nlinarith [mul_self_nonneg v.x, mul_self_nonneg v.y]
    exact hne start (by simp) (by simp [planeDist, hx, hy])
  rw [lin_iff, ← inWedge_iff start delta h0 h1 v hv (fun alpha ha hz => absurd hz (hne alpha ha))]
  refine C46_exact v.x v.y start delta h1.le (fun k => ⟨away_of_steep start v hu (hs start (by simp)) k, ?_⟩)
  have := away_of_steep (start + delta) v hu (hs (start + delta) (by simp)) k
  rwa [← sub_sub] at this

/-- Hits are reported exactly where the line crosses the outer part of a face, when it stays away from the axis. -/
theorem wedgeFace_off_axis (st : ℝ → ℝ) (hst : ∀ t, |st t - t| ≤ precision) (start delta : ℝ) (p d : Vec3 ℝ)
    (hc : Clean start delta p d) (face : Nat) (hf : face = 0 ∨ face = 1) (e : Bool)
    (hoff : ∀ t : ℝ, planeDist (faceAngle start delta face) (p + Vec3.smul t d) = 0 →
      (2 / 1000000) ^ 2 ≤ (p.x + t * d.x) ^ 2 + (p.y + t * d.y) ^ 2) :
    ∃ t : ℝ, faceFun start delta face (p + Vec3.smul t d) = 0 ∧
      ((0 < (p.x + t * d.x) * cos (faceAngle start delta face) + (p.y + t * d.y) * sin (faceAngle start delta face) ∧
        wedgeFace st start delta p d face e = ([(t, decide (faceFun start delta face d < 0))], e)) ∨
      ((p.x + t * d.x) * cos (faceAngle start delta face) + (p.y + t * d.y) * sin (faceAngle start delta face) < 0 ∧
        wedgeFace st start delta p d face e = ([], e))) := by
  set nd := faceFun start delta face d with hnd
  have hsteep : precision ≤ |nd| := by
    rw [hnd, faceFun_abs _ _ _ hf]; exact hc.steep _ (faceAngle_mem _ _ _ hf)
  have hp := precision_pos
  have hnd0 : nd ≠ 0 := by intro h; rw [h, abs_zero] at hsteep; linarith
  set t := -faceFun start delta face p / nd with ht
  have hplane : faceFun start delta face (p + Vec3.smul t d) = 0 := by
    rw [faceFun_line, ← hnd, ht]; field_simp; ring
  refine ⟨t, hplane, ?_⟩
  set alpha := faceAngle start delta face with hal
  set rho := (p.x + t * d.x) * cos alpha + (p.y + t * d.y) * sin alpha with hrho
  have hpl : planeDist alpha (p + Vec3.smul t d) = 0 := (faceFun_zero_iff _ _ _ hf _).1 hplane
  have hsq : rho ^ 2 = (p.x + t * d.x) ^ 2 + (p.y + t * d.y) ^ 2 := by
    have := along_sq alpha (p + Vec3.smul t d) hpl
    simp only [Vec3.add_x, Vec3.add_y, Vec3.smul_x, Vec3.smul_y] at this
    rw [hrho, this]; ring
  have hbig := hoff t hpl
  rw [← hsq] at hbig
  have h2 := sin_sq_add_cos_sq alpha
  have hdir : |d.x * cos alpha + d.y * sin alpha| ≤ 1 := by
    rw [abs_le_one_iff_mul_self_le_one]
    have : (d.x * cos alpha + d.y * sin alpha) * (d.x * cos alpha + d.y * sin alpha) =
        (d.x * d.x + d.y * d.y) * (sin alpha ^ 2 + cos alpha ^ 2) - (d.x * sin alpha - d.y * cos alpha) ^ 2 := by ring
    rw [this, h2]
    nlinarith [hc.unit, sq_nonneg (d.x * sin alpha - d.y * cos alpha)]
  -- the tested point
  set hx := p.x + st t * d.x with hhx
  set hy := p.y + st t * d.y with hhy
  have hproj : |hx * cos alpha + hy * sin alpha - rho| ≤ precision := by
    have : hx * cos alpha + hy * sin alpha - rho = (st t - t) * (d.x * cos alpha + d.y * sin alpha) := by
      rw [hhx, hhy, hrho]; ring
    rw [this, abs_mul]
    calc |st t - t| * |d.x * cos alpha + d.y * sin alpha| ≤ precision * 1 :=
          mul_le_mul (hst t) hdir (abs_nonneg _) hp.le
      _ = precision := mul_one _
  rw [abs_le] at hproj
  have hcs : (hx * cos alpha + hy * sin alpha) ^ 2 ≤ hx * hx + hy * hy := by
    have : hx * hx + hy * hy = (hx * hx + hy * hy) * (sin alpha ^ 2 + cos alpha ^ 2) := by rw [h2, mul_one]
    rw [this]
    nlinarith [sq_nonneg (hx * sin alpha - hy * cos alpha)]
  have hunf : wedgeFace st start delta p d face e =
      if hx * cos alpha + hy * sin alpha < -precision then ([], e)
      else if hx * hx + hy * hy < precision * 1000 * precision * 1000 then
        if e then ([], e) else ([(t, zAxisWedgeEntering d.x d.y start delta)], true)
      else ([(t, decide (nd < 0))], e) := by
    unfold wedgeFace
    simp only
    rw [if_neg (by exact not_lt.2 hsteep)]
    rfl
  have hpr : precision = 1 / 1000000000 := rfl
  rcases lt_trichotomy rho 0 with h | h | h
  · right
    refine ⟨h, ?_⟩
    have : rho ≤ -(2 / 1000000) := by
      by_contra hcn
      have hcn := not_le.1 hcn
      have : rho ^ 2 < (2 / 1000000) ^ 2 := by nlinarith
      linarith
    rw [hunf, if_pos]
    rw [hpr] at hproj ⊢
    linarith [hproj.2]
  · exfalso
    rw [h] at hbig; norm_num at hbig
  · left
    refine ⟨h, ?_⟩
    have hge : 2 / 1000000 ≤ rho := by
      by_contra hcn
      have hcn := not_le.1 hcn
      have : rho ^ 2 < (2 / 1000000) ^ 2 := by nlinarith
      linarith
    rw [hunf, if_neg (by rw [hpr] at hproj ⊢; linarith [hproj.1]), if_neg]
    rw [hpr] at hproj ⊢
    have h3 : 1 / 1000000 ≤ hx * cos alpha + hy * sin alpha := by linarith [hproj.1]
    have h4 : (1 / 1000000 : ℝ) ^ 2 ≤ (hx * cos alpha + hy * sin alpha) ^ 2 := by
      apply pow_le_pow_left₀ (by norm_num) h3
    rw [not_lt]
    refine le_trans (le_of_eq (by norm_num)) (le_trans h4 hcs)

theorem snap_close (t : ℝ) : |snap t - t| ≤ precision := by
  rw [abs_le]; constructor <;> linarith [snap_le t, snap_near t, precision_pos]

/-- A line crosses the axis exactly where both planes are met. -/
theorem wedgeFace_axis (st : ℝ → ℝ) (hst : ∀ t, |st t - t| ≤ precision) (start delta : ℝ) (p d : Vec3 ℝ)
    (hc : Clean start delta p d) (face : Nat) (hf : face = 0 ∨ face = 1) (e : Bool) (t : ℝ) (hx0 : p.x + t * d.x = 0)
    (hy0 : p.y + t * d.y = 0) :
    wedgeFace st start delta p d face e = (if e then [] else [(t, zAxisWedgeEntering d.x d.y start delta)], true) := by
  set nd := faceFun start delta face d with hnd
  have hsteep : precision ≤ |nd| := by
    rw [hnd, faceFun_abs _ _ _ hf]; exact hc.steep _ (faceAngle_mem _ _ _ hf)
  have hp := precision_pos
  have hnd0 : nd ≠ 0 := by intro h; rw [h, abs_zero] at hsteep; linarith
  have ht : -faceFun start delta face p / nd = t := by
    rw [div_eq_iff hnd0, hnd]
    unfold faceFun
    linear_combination -(faceNormal start delta face).1 * hx0 - (faceNormal start delta face).2 * hy0
  set alpha := faceAngle start delta face with hal
  set hx := p.x + st t * d.x with hhx
  set hy := p.y + st t * d.y with hhy
  have hunf : wedgeFace st start delta p d face e =
      if hx * cos alpha + hy * sin alpha < -precision then ([], e)
      else if hx * hx + hy * hy < precision * 1000 * precision * 1000 then
        if e then ([], e) else ([(t, zAxisWedgeEntering d.x d.y start delta)], true)
      else ([(t, decide (nd < 0))], e) := by
    unfold wedgeFace
    simp only
    rw [if_neg (by exact not_lt.2 hsteep)]
    have e1 : -((faceNormal start delta face).1 * p.x + (faceNormal start delta face).2 * p.y) /
        ((faceNormal start delta face).1 * d.x + (faceNormal start delta face).2 * d.y) = t := ht
    rw [e1]
    rfl
  have ex : hx = (st t - t) * d.x := by rw [hhx]; linear_combination hx0
  have ey : hy = (st t - t) * d.y := by rw [hhy]; linear_combination hy0
  have hsq : (st t - t) ^ 2 ≤ precision ^ 2 := by
    rw [← sq_abs]; exact pow_le_pow_left₀ (abs_nonneg _) (hst t) 2
  have hr : hx * hx + hy * hy ≤ precision ^ 2 := by
    rw [ex, ey]
    have : (st t - t) * d.x * ((st t - t) * d.x) + (st t - t) * d.y * ((st t - t) * d.y) =
        (st t - t) ^ 2 * (d.x * d.x + d.y * d.y) := by ring
    rw [this]
    calc (st t - t) ^ 2 * (d.x * d.x + d.y * d.y) ≤ (st t - t) ^ 2 * 1 :=
          mul_le_mul_of_nonneg_left hc.unit (sq_nonneg _)
      _ ≤ precision ^ 2 := by rw [mul_one]; exact hsq
  have h2 := sin_sq_add_cos_sq alpha
  have hcs : (hx * cos alpha + hy * sin alpha) ^ 2 ≤ precision ^ 2 := by
    refine le_trans ?_ hr
    have : hx * hx + hy * hy = (hx * hx + hy * hy) * (sin alpha ^ 2 + cos alpha ^ 2) := by rw [h2, mul_one]
    rw [this]
    nlinarith [sq_nonneg (hx * sin alpha - hy * cos alpha)]
  have hproj := (abs_le.1 (abs_le_of_sq_le_sq hcs hp.le)).1
  rw [hunf, if_neg (not_lt.2 hproj), if_pos]
  · cases e <;> rfl
  · refine lt_of_le_of_lt hr ?_
    unfold precision; norm_num

/-- The exact wedge hits, in any order that is sorted, tell where the line is in the wedge. -/
theorem wedge_exact (st : ℝ → ℝ) (hst : ∀ t, |st t - t| ≤ precision) (start delta : ℝ) (h0 : 0 < delta) (h1 : delta < 2 * π)
    (p d : Vec3 ℝ) (hc : Clean start delta p d ∨ Vertical start delta p d) (E : List (ℝ × Bool))
    (hE : E.Perm (wedgeHits st start delta p d)) (hs : E.Pairwise (fun a b => a.1 < b.1)) (t : ℝ) (ht : ∀ c ∈ E, c.1 ≠ t) :
    InWedge start delta (p + Vec3.smul t d) ↔
      stateFrom (initialPhiState p.x p.y d.x d.y start delta) (E.map plain) t = true := by
  have hp := precision_pos
  rcases hc with hc | hv
  · have hsteep : ∀ face, face = 0 ∨ face = 1 → precision ≤ |faceFun start delta face d| := fun face hf => by
      rw [faceFun_abs _ _ _ hf]; exact hc.steep _ (faceAngle_mem _ _ _ hf)
    have hne : ∀ face, face = 0 ∨ face = 1 → faceFun start delta face d ≠ 0 := fun face hf h => by
      have := hsteep face hf; rw [h, abs_zero] at this; linarith
    -- the horizontal direction is not tiny
    have hbig : 1 / 10 ^ 20 < d.x * d.x + d.y * d.y := by
      have h1 := hsteep 0 (Or.inl rfl)
      rw [faceFun_abs _ _ _ (Or.inl rfl)] at h1
      have h2 := sin_sq_add_cos_sq (faceAngle start delta 0)
      have h3 : planeDist (faceAngle start delta 0) d ^ 2 ≤ d.x * d.x + d.y * d.y := by
        have : d.x * d.x + d.y * d.y = (d.x * d.x + d.y * d.y) * (sin (faceAngle start delta 0) ^ 2 + cos (faceAngle start delta 0) ^ 2) := by
          rw [h2, mul_one]
        rw [this]
        unfold planeDist
        nlinarith [sq_nonneg (d.x * cos (faceAngle start delta 0) + d.y * sin (faceAngle start delta 0))]
      have h4 : precision ^ 2 ≤ planeDist (faceAngle start delta 0) d ^ 2 := by
        rw [← sq_abs (planeDist _ _)]; exact pow_le_pow_left₀ hp.le h1 2
      refine lt_of_lt_of_le ?_ (le_trans h4 h3)
      unfold precision; norm_num
    -- before everything
    have hneg : (d.x * d.x + d.y * d.y = (Vec3.smul (-1) d).x * (Vec3.smul (-1) d).x + (Vec3.smul (-1) d).y * (Vec3.smul (-1) d).y) := by
      simp [Vec3.smul_x, Vec3.smul_y]
    have hinit : initialPhiState p.x p.y d.x d.y start delta = true ↔ Lin start delta (Vec3.smul (-1) d) := by
      unfold initialPhiState
      rw [if_pos hbig]
      have := phiInRange_lin start delta h0 h1 (Vec3.smul (-1) d) (by rw [← hneg]; exact hc.unit) (fun alpha ha => by
        have := hc.steep alpha ha
        rwa [show planeDist alpha (Vec3.smul (-1) d) = -planeDist alpha d by
          simp [planeDist, Vec3.smul_x, Vec3.smul_y]; ring, abs_neg])
      rw [← this]
      simp [Vec3.smul_x, Vec3.smul_y]
    set S : ℝ → Prop := fun u => both delta (faceFun start delta 0 p + u * faceFun start delta 0 d < 0)
      (faceFun start delta 1 p + u * faceFun start delta 1 d < 0) with hS
    have hSlin : ∀ u, S u ↔ Lin start delta (p + Vec3.smul u d) := fun u => by
      simp only [hS, Lin, faceFun_line]
    have hSface : ∀ face, face = 0 ∨ face = 1 → ∀ u, S u ↔ both delta (faceFun start delta face p + u * faceFun start delta face d < 0)
        (faceFun start delta (1 - face) p + u * faceFun start delta (1 - face) d < 0) := by
      rintro face (rfl | rfl) u
      · exact Iff.rfl
      · exact both_comm _ _ _
    have hbot : ∀ᶠ u in atBot, (S u ↔ initialPhiState p.x p.y d.x d.y start delta = true) := by
      rw [hinit]
      have hone : ∀ face, face = 0 ∨ face = 1 → ∀ᶠ u in atBot,
          (faceFun start delta face p + u * faceFun start delta face d < 0 ↔ faceFun start delta face (Vec3.smul (-1) d) < 0) := by
        intro face hf
        have e : faceFun start delta face (Vec3.smul (-1) d) = -faceFun start delta face d := by
          simp [faceFun, Vec3.smul_x, Vec3.smul_y]; ring
        rw [e]
        set a := faceFun start delta face p
        set b := faceFun start delta face d with hb
        have hb0 : b ≠ 0 := hne face hf
        filter_upwards [eventually_lt_atBot (-(|a| / |b|))] with u hu
        have hbp : 0 < |b| := abs_pos.2 hb0
        have hub : |a| < -u * |b| := by
          have : |a| / |b| < -u := by linarith
          rwa [div_lt_iff₀ hbp] at this
        have ha := abs_le.1 (le_refl |a|)
        rcases lt_or_gt_of_ne hb0 with h | h
        · rw [abs_of_neg h] at hub
          constructor
          · intro h'; nlinarith [ha.1]
          · intro h'; linarith
        · rw [abs_of_pos h] at hub
          constructor
          · intro h'; linarith
          · intro h'; nlinarith [ha.2]
      filter_upwards [hone 0 (Or.inl rfl), hone 1 (Or.inr rfl)] with u u1 u2
      simp only [hS, Lin, u1, u2]
    -- the spec off the hits
    have hspec : (∀ face, face = 0 ∨ face = 1 → faceFun start delta face (p + Vec3.smul t d) = 0 →
        (p.x + t * d.x) * cos (faceAngle start delta face) + (p.y + t * d.y) * sin (faceAngle start delta face) ≤ 0) →
        0 < (p.x + t * d.x) * (p.x + t * d.x) + (p.y + t * d.y) * (p.y + t * d.y) →
        (InWedge start delta (p + Vec3.smul t d) ↔ S t) := by
      intro he hr
      rw [hSlin, lin_iff]
      refine inWedge_iff start delta h0 h1 _ (by simpa [Vec3.add_x, Vec3.add_y, Vec3.smul_x, Vec3.smul_y] using hr) ?_
      intro alpha ha hz
      simp only [Vec3.add_x, Vec3.add_y, Vec3.smul_x, Vec3.smul_y]
      simp only [List.mem_cons, List.not_mem_nil, or_false] at ha
      rcases ha with rfl | rfl
      · have := he 0 (Or.inl rfl) (by rw [faceFun_zero, hz, neg_zero])
        simpa [faceAngle] using this
      · have := he 1 (Or.inr rfl) (by rw [faceFun_one, hz])
        simpa [faceAngle] using this
    by_cases hax : p.x * d.y = p.y * d.x
    · -- through the axis
      obtain ⟨t0, hx0, hy0⟩ : ∃ t0 : ℝ, p.x + t0 * d.x = 0 ∧ p.y + t0 * d.y = 0 := by
        by_cases hdx : d.x = 0
        · have hdy : d.y ≠ 0 := by
            intro h; rw [hdx, h] at hbig; norm_num at hbig
          have hpx : p.x = 0 := by
            rw [hdx, mul_zero] at hax
            rcases mul_eq_zero.1 hax with h | h
            · exact h
            · exact absurd h hdy
          exact ⟨-p.y / d.y, by rw [hdx, hpx]; ring, by field_simp; ring⟩
        · exact ⟨-p.x / d.x, by field_simp; ring, by field_simp; linarith⟩
      have hhits : wedgeHits st start delta p d = [(t0, zAxisWedgeEntering d.x d.y start delta)] := by
        unfold wedgeHits
        simp only
        rw [wedgeFace_axis st hst start delta p d hc 0 (Or.inl rfl) false t0 hx0 hy0,
          wedgeFace_axis st hst start delta p d hc 1 (Or.inr rfl) _ t0 hx0 hy0]
        simp
      rw [hhits, List.perm_singleton] at hE
      have hface : ∀ face u, faceFun start delta face p + u * faceFun start delta face d = (u - t0) * faceFun start delta face d := by
        intro face u
        unfold faceFun
        linear_combination (faceNormal start delta face).1 * hx0 + (faceNormal start delta face).2 * hy0
      rw [hE] at ht ⊢
      have htt : t ≠ t0 := fun e => ht _ (List.mem_singleton.2 rfl) e.symm
      rw [hspec]
      · refine state_of_flips (S := S) (by simp) ?_ ?_ hbot t ht
        · intro c hcm
          simp only [List.mem_singleton] at hcm
          rw [hcm]
          simp only
          have hz : zAxisWedgeEntering d.x d.y start delta = true ↔ Lin start delta d := by
            unfold zAxisWedgeEntering
            rw [if_pos hbig]
            exact phiInRange_lin start delta h0 h1 d hc.unit hc.steep
          filter_upwards [self_mem_nhdsWithin] with u hu
          have hu : t0 < u := hu
          rw [hz]
          have : ∀ x : ℝ, (u - t0) * x < 0 ↔ x < 0 := fun x => by
            constructor
            · intro h; by_contra hcn; nlinarith [not_lt.1 hcn]
            · intro h; nlinarith
          simp only [hS, hface, this, Lin]
        · intro u hu
          have hu : u ≠ t0 := fun e => hu _ (List.mem_singleton.2 rfl) e.symm
          refine both_steady delta ?_ ?_
          · refine steady_of_ne (f := fun u => faceFun start delta 0 p + u * faceFun start delta 0 d) (by fun_prop) ?_
            rw [hface]; exact mul_ne_zero (sub_ne_zero.2 hu) (hne 0 (Or.inl rfl))
          · refine steady_of_ne (f := fun u => faceFun start delta 1 p + u * faceFun start delta 1 d) (by fun_prop) ?_
            rw [hface]; exact mul_ne_zero (sub_ne_zero.2 hu) (hne 1 (Or.inr rfl))
      · intro face hf hz
        rw [faceFun_line, hface] at hz
        exact absurd hz (mul_ne_zero (sub_ne_zero.2 htt) (hne face hf))
      · have ex : p.x + t * d.x = (t - t0) * d.x := by linear_combination hx0
        have ey : p.y + t * d.y = (t - t0) * d.y := by linear_combination hy0
        rw [ex, ey]
        have hd : 0 < d.x * d.x + d.y * d.y := lt_trans (by norm_num) hbig
        have hsq : 0 < (t - t0) ^ 2 := by
          have := sub_ne_zero.2 htt; positivity
        have : (t - t0) * d.x * ((t - t0) * d.x) + (t - t0) * d.y * ((t - t0) * d.y) = (t - t0) ^ 2 * (d.x * d.x + d.y * d.y) := by ring
        rw [this]; exact mul_pos hsq hd
    · -- away from the axis
      have hoff := hc.axis.resolve_left hax
      have hr : ∀ u, 0 < (p.x + u * d.x) * (p.x + u * d.x) + (p.y + u * d.y) * (p.y + u * d.y) := by
        intro u
        by_contra hcn
        have hx : p.x + u * d.x = 0 := by nlinarith [mul_self_nonneg (p.x + u * d.x), mul_self_nonneg (p.y + u * d.y)]
        have hy : p.y + u * d.y = 0 := by nlinarith [mul_self_nonneg (p.x + u * d.x), mul_self_nonneg (p.y + u * d.y)]
        exact hax (by linear_combination d.y * hx - d.x * hy)
      have hfaces : ∀ face, face = 0 ∨ face = 1 → ∃ tf : ℝ, faceFun start delta face (p + Vec3.smul tf d) = 0 ∧
          ∀ e, ((0 < (p.x + tf * d.x) * cos (faceAngle start delta face) + (p.y + tf * d.y) * sin (faceAngle start delta face) ∧
            wedgeFace st start delta p d face e = ([(tf, decide (faceFun start delta face d < 0))], e)) ∨
          ((p.x + tf * d.x) * cos (faceAngle start delta face) + (p.y + tf * d.y) * sin (faceAngle start delta face) < 0 ∧
            wedgeFace st start delta p d face e = ([], e))) := by
        intro face hf
        have huniq : ∀ a b, faceFun start delta face (p + Vec3.smul a d) = 0 → faceFun start delta face (p + Vec3.smul b d) = 0 → a = b := by
          intro a b ha hb
          rw [faceFun_line] at ha hb
          have : (a - b) * faceFun start delta face d = 0 := by linear_combination ha - hb
          rcases mul_eq_zero.1 this with h | h
          · exact sub_eq_zero.1 h
          · exact absurd h (hne face hf)
        obtain ⟨tf, h1, _⟩ := wedgeFace_off_axis st hst start delta p d hc face hf false (hoff _ (faceAngle_mem _ _ _ hf))
        refine ⟨tf, h1, fun e => ?_⟩
        obtain ⟨tf', h1', h2'⟩ := wedgeFace_off_axis st hst start delta p d hc face hf e (hoff _ (faceAngle_mem _ _ _ hf))
        rw [huniq tf tf' h1 h1']
        exact h2'
      -- a parameter on a plane is a hit exactly on the outer side
      have hmem : ∀ c, c ∈ wedgeHits st start delta p d ↔ ∃ face, (face = 0 ∨ face = 1) ∧
          faceFun start delta face (p + Vec3.smul c.1 d) = 0 ∧ c.2 = decide (faceFun start delta face d < 0) ∧
          0 < (p.x + c.1 * d.x) * cos (faceAngle start delta face) + (p.y + c.1 * d.y) * sin (faceAngle start delta face) := by
        intro c
        have huniq : ∀ face, face = 0 ∨ face = 1 → ∀ a b, faceFun start delta face (p + Vec3.smul a d) = 0 → faceFun start delta face (p + Vec3.smul b d) = 0 → a = b := by
          intro face hf a b ha hb
          rw [faceFun_line] at ha hb
          have : (a - b) * faceFun start delta face d = 0 := by linear_combination ha - hb
          rcases mul_eq_zero.1 this with h | h
          · exact sub_eq_zero.1 h
          · exact absurd h (hne face hf)
        have hone : ∀ face, face = 0 ∨ face = 1 → ∀ e, (c ∈ (wedgeFace st start delta p d face e).1 ↔
            faceFun start delta face (p + Vec3.smul c.1 d) = 0 ∧ c.2 = decide (faceFun start delta face d < 0) ∧
            0 < (p.x + c.1 * d.x) * cos (faceAngle start delta face) + (p.y + c.1 * d.y) * sin (faceAngle start delta face)) := by
          intro face hf e
          obtain ⟨tf, g1, g2⟩ := hfaces face hf
          rcases g2 e with ⟨g3, g4⟩ | ⟨g3, g4⟩
          · rw [g4]
            simp only [List.mem_singleton]
            constructor
            · rintro rfl; exact ⟨g1, rfl, g3⟩
            · rintro ⟨q1, q2, q3⟩
              exact Prod.ext (huniq face hf _ _ q1 g1) q2
          · rw [g4]
            simp only [List.not_mem_nil, false_iff, not_and]
            intro q1 _ q3
            rw [huniq face hf _ _ q1 g1] at q3
            linarith
        unfold wedgeHits
        simp only [List.mem_append]
        rw [hone 0 (Or.inl rfl), hone 1 (Or.inr rfl)]
        constructor
        · rintro (h | h)
          · exact ⟨0, Or.inl rfl, h⟩
          · exact ⟨1, Or.inr rfl, h⟩
        · rintro ⟨face, rfl | rfl, h⟩
          · exact Or.inl h
          · exact Or.inr h
      have hother : ∀ face, face = 0 ∨ face = 1 → ∀ u, faceFun start delta face (p + Vec3.smul u d) = 0 →
          faceFun start delta (1 - face) p + u * faceFun start delta (1 - face) d =
            -((p.x + u * d.x) * cos (faceAngle start delta face) + (p.y + u * d.y) * sin (faceAngle start delta face)) * sin delta := by
        intro face hf u hu
        have := faceFun_other start delta face hf _ hu
        rw [faceFun_line] at this
        simpa only [Vec3.add_x, Vec3.add_y, Vec3.smul_x, Vec3.smul_y] using this
      have hrho : ∀ face, face = 0 ∨ face = 1 → ∀ u, faceFun start delta face (p + Vec3.smul u d) = 0 →
          (p.x + u * d.x) * cos (faceAngle start delta face) + (p.y + u * d.y) * sin (faceAngle start delta face) ≠ 0 := by
        intro face hf u hu hz
        have := along_sq _ _ ((faceFun_zero_iff _ _ _ hf _).1 hu)
        simp only [Vec3.add_x, Vec3.add_y, Vec3.smul_x, Vec3.smul_y] at this
        rw [hz] at this
        have := hr u
        nlinarith
      have hpi_same : delta = π → ∀ v, faceFun start delta 0 v = faceFun start delta 1 v := by
        intro h v
        rw [faceFun_zero, faceFun_one, h]
        simp [planeDist, sin_add_pi, cos_add_pi]; ring
      have hpi_same' : delta = π → ∀ face, face = 0 ∨ face = 1 → ∀ v, faceFun start delta (1 - face) v = faceFun start delta face v := by
        rintro h face (rfl | rfl) v
        · exact (hpi_same h v).symm
        · exact hpi_same h v
      have hnothit : ∀ u, (∀ c ∈ E, c.1 ≠ u) → ∀ face, face = 0 ∨ face = 1 → faceFun start delta face (p + Vec3.smul u d) = 0 →
          (p.x + u * d.x) * cos (faceAngle start delta face) + (p.y + u * d.y) * sin (faceAngle start delta face) < 0 := by
        intro u hu face hf hz
        rcases lt_trichotomy ((p.x + u * d.x) * cos (faceAngle start delta face) + (p.y + u * d.y) * sin (faceAngle start delta face)) 0 with h | h | h
        · exact h
        · exact absurd h (hrho face hf u hz)
        · exact absurd rfl (hu (u, decide (faceFun start delta face d < 0)) (hE.mem_iff.2 ((hmem _).2 ⟨face, hf, hz, rfl, h⟩)))
      rw [hspec (fun face hf hz => (hnothit t ht face hf hz).le) (hr t)]
      refine state_of_flips (S := S) hs ?_ ?_ hbot t ht
      · intro c hcm
        obtain ⟨face, hf, q1, q2, q3⟩ := (hmem c).1 (hE.mem_iff.1 hcm)
        have := face_flip h0 h1 (faceFun start delta face p) (faceFun start delta face d) (faceFun start delta (1 - face) p)
          (faceFun start delta (1 - face) d) _ c.1 (by rw [← faceFun_line]; exact q1) (hne face hf) q3 (hother face hf c.1 q1)
          (fun h u => by rw [← faceFun_line, ← faceFun_line]; exact hpi_same' h face hf _)
        rw [q2]
        exact (this.congr (Eventually.of_forall fun u => (hSface face hf u).symm)).after
      · intro u hu
        have hface : ∀ face, face = 0 ∨ face = 1 → faceFun start delta face (p + Vec3.smul u d) = 0 → Steady S u := by
          intro face hf hz
          have hlt := hnothit u hu face hf hz
          have hnpi : delta ≠ π := by
            intro h
            have hz' : faceFun start delta (1 - face) (p + Vec3.smul u d) = 0 := by rw [hpi_same' h face hf]; exact hz
            have hf' : 1 - face = 0 ∨ 1 - face = 1 := by omega
            have hlt' := hnothit u hu (1 - face) hf' hz'
            have : faceAngle start delta (1 - face) = faceAngle start delta face + π ∨
                faceAngle start delta face = faceAngle start delta (1 - face) + π := by
              rcases hf with rfl | rfl
              · left; simp [faceAngle, h]
              · right; simp [faceAngle, h]
            rcases this with e | e
            · rw [e, cos_add_pi, sin_add_pi] at hlt'; linarith
            · rw [e, cos_add_pi, sin_add_pi] at hlt; linarith
          have := face_steady h0 h1 (fun u => faceFun start delta face p + u * faceFun start delta face d < 0)
            (faceFun start delta (1 - face) p) (faceFun start delta (1 - face) d) _ u hlt (hother face hf u hz) hnpi
          exact this.of_congr (Eventually.of_forall fun u => (hSface face hf u).symm)
        by_cases z0 : faceFun start delta 0 (p + Vec3.smul u d) = 0
        · exact hface 0 (Or.inl rfl) z0
        by_cases z1 : faceFun start delta 1 (p + Vec3.smul u d) = 0
        · exact hface 1 (Or.inr rfl) z1
        rw [faceFun_line] at z0 z1
        refine both_steady delta ?_ ?_
        · exact steady_of_ne (f := fun u => faceFun start delta 0 p + u * faceFun start delta 0 d) (by fun_prop) z0
        · exact steady_of_ne (f := fun u => faceFun start delta 1 p + u * faceFun start delta 1 d) (by fun_prop) z1
  · -- along the axis
    have hzero : ∀ face, (faceNormal start delta face).1 * d.x + (faceNormal start delta face).2 * d.y = 0 := fun face => by
      rw [hv.dx, hv.dy]; ring
    have hhits : wedgeHits st start delta p d = [] := by
      have : ∀ face e, wedgeFace st start delta p d face e = ([], e) := by
        intro face e
        unfold wedgeFace
        simp only [hzero, abs_zero, hp, if_true]
      unfold wedgeHits
      simp [this]
    rw [hhits] at hE
    rw [hE.eq_nil]
    simp only [List.map_nil, stateFrom_nil]
    unfold initialPhiState
    rw [hv.dx, hv.dy]
    rw [if_neg (by norm_num), if_pos hv.off, C46_exact _ _ _ _ h1.le hv.away]
    unfold InWedge
    simp [Vec3.add_x, Vec3.add_y, Vec3.smul_x, Vec3.smul_y, hv.dx, hv.dy]

theorem snap_ne_of_apart {a b : ℝ} (h : 2 * precision ≤ |a - b|) : precision ≤ |snap a - snap b| := by
  have h1 := snap_le a
  have h2 := snap_near a
  have h3 := snap_le b
  have h4 := snap_near b
  have hp := precision_pos
  rcases le_total a b with hab | hab
  · rw [abs_of_nonpos (by linarith)] at h
    rw [abs_of_nonpos (by linarith)]; linarith
  · rw [abs_of_nonneg (by linarith)] at h
    rw [abs_of_nonneg (by linarith)]; linarith

/-- The wedge hits are reported at different distances. -/
theorem wedge_nodup (st : ℝ → ℝ) (hst : ∀ t, |st t - t| ≤ precision) (start delta : ℝ) (h0 : 0 < delta) (h1 : delta < 2 * π)
    (p d : Vec3 ℝ) (hc : Clean start delta p d ∨ Vertical start delta p d) (hsp : Spread start delta p d) :
    ((wedgeHits st start delta p d).map fun c => snap c.1).Nodup := by
  have hp := precision_pos
  rcases hc with hc | hv
  · by_cases hax : p.x * d.y = p.y * d.x
    · have hd : d.x ≠ 0 ∨ d.y ≠ 0 := by
        by_contra hcn
        push Not at hcn
        have := hc.steep start (by simp)
        rw [planeDist, hcn.1, hcn.2, mul_zero, mul_zero, sub_zero, abs_zero] at this
        linarith
      obtain ⟨t0, hx0, hy0⟩ : ∃ t0 : ℝ, p.x + t0 * d.x = 0 ∧ p.y + t0 * d.y = 0 := by
        by_cases hdx : d.x = 0
        · have hdy : d.y ≠ 0 := hd.resolve_left (fun h => h hdx)
          have hpx : p.x = 0 := by
            rw [hdx, mul_zero] at hax
            rcases mul_eq_zero.1 hax with h | h
            · exact h
            · exact absurd h hdy
          exact ⟨-p.y / d.y, by rw [hdx, hpx]; ring, by field_simp; ring⟩
        · exact ⟨-p.x / d.x, by field_simp; ring, by field_simp; linarith⟩
      unfold wedgeHits
      simp only
      rw [wedgeFace_axis st hst start delta p d hc 0 (Or.inl rfl) false t0 hx0 hy0,
        wedgeFace_axis st hst start delta p d hc 1 (Or.inr rfl) _ t0 hx0 hy0]
      simp
    · have hoff := hc.axis.resolve_left hax
      obtain ⟨t0, a1, a2⟩ := wedgeFace_off_axis st hst start delta p d hc 0 (Or.inl rfl) false (hoff _ (faceAngle_mem _ _ _ (Or.inl rfl)))
      obtain ⟨t1, b1, b2⟩ := wedgeFace_off_axis st hst start delta p d hc 1 (Or.inr rfl) (wedgeFace st start delta p d 0 false).2
        (hoff _ (faceAngle_mem _ _ _ (Or.inr rfl)))
      unfold wedgeHits
      simp only
      rcases a2 with ⟨a3, a4⟩ | ⟨a3, a4⟩ <;> rcases b2 with ⟨b3, b4⟩ | ⟨b3, b4⟩ <;> rw [b4, a4] <;> simp
      have hne : t0 ≠ t1 := by
        intro e
        rw [← e] at b1 b3
        have h3 := faceFun_other start delta 0 (Or.inl rfl) _ a1
        simp only [Nat.sub_zero] at h3
        rw [b1] at h3
        simp only [Vec3.add_x, Vec3.add_y, Vec3.smul_x, Vec3.smul_y] at h3
        have hsd : sin delta = 0 := by
          rcases mul_eq_zero.1 h3.symm with h | h
          · linarith
          · exact h
        have hpi : delta = π := by
          rcases lt_trichotomy delta π with h | h | h
          · exact absurd hsd (sin_pos_of_pos_of_lt_pi h0 h).ne'
          · exact h
          · have := sin_pos_of_pos_of_lt_pi (x := delta - π) (by linarith) (by linarith)
            rw [sin_sub_pi, hsd] at this; linarith
        have e1 : faceAngle start delta 1 = faceAngle start delta 0 + π := by simp [faceAngle, hpi]
        rw [e1, cos_add_pi, sin_add_pi] at b3
        linarith
      have := hsp t0 t1 (by have := (faceFun_zero_iff _ _ _ (Or.inl rfl) _).1 a1; simpa [faceAngle] using this)
        (by have := (faceFun_zero_iff _ _ _ (Or.inr rfl) _).1 b1; simpa [faceAngle] using this) hne
      have h5 := snap_ne_of_apart this
      intro e
      rw [e, sub_self, abs_zero] at h5
      linarith
  · have hzero : ∀ face, (faceNormal start delta face).1 * d.x + (faceNormal start delta face).2 * d.y = 0 := fun face => by
      rw [hv.dx, hv.dy]; ring
    have : ∀ face e, wedgeFace st start delta p d face e = ([], e) := by
      intro face e
      unfold wedgeFace
      simp only [hzero, abs_zero, hp, if_true]
    unfold wedgeHits
    simp [this]

/-- C74: the crossings of the wedge, in order of distance, tell at every distance (up to 1e-9 around the crossings) whether the
azimuth of the point of the line is within the wedge, for every wedge and every line that crosses it cleanly or runs along
the axis. -/
theorem C74_wedge (st : ℝ → ℝ) (hst : st = snap ∨ st = id) (start delta : ℝ) (h0 : 0 < delta) (h1 : delta < 2 * π)
    (p d : Vec3 ℝ) (hc : Clean start delta p d ∨ Vertical start delta p d) (hsp : Spread start delta p d) (l : List Isect)
    (hl : l.Perm ((wedgeHits st start delta p d).map fun c => hitAt p d c.1 c.2))
    (hs : l.Pairwise (fun a b => a.distance ≤ b.distance)) (t : ℝ) (ht : ∀ h ∈ l, precision ≤ |h.distance - t|) :
    InWedge start delta (p + Vec3.smul t d) ↔ stateFrom (initialPhiState p.x p.y d.x d.y start delta) l t = true := by
  have hst' : ∀ t, |st t - t| ≤ precision := by
    intro t
    rcases hst with rfl | rfl
    · exact snap_close t
    · simp [precision_pos.le]
  have hn : (l.map Isect.distance).Nodup := by
    rw [(hl.map Isect.distance).nodup_iff, List.map_map]
    exact wedge_nodup st hst' start delta h0 h1 p d hc hsp
  obtain ⟨E, e1, e2, e3, e4⟩ := sorted_exact _ (fun c => hitAt p d c.1 c.2) (fun c => rfl) l hl hs hn
  have ht' : ∀ c ∈ E, precision ≤ |snap c.1 - t| := fun c hc => ht (hitAt p d c.1 c.2) (by rw [e3]; exact List.mem_map_of_mem hc)
  rw [wedge_exact st hst' start delta h0 h1 p d hc E e1 e2 t (fun c hc => snap_ne _ _ (ht' c hc))]
  rw [e3, stateFrom_map plain (fun c => hitAt p d c.1 c.2) E _ t (fun _ _ => rfl)
    (fun c hc => (snap_side c.1 t (ht' c hc)).symm)]

/-- A line across a quarter-circle wedge, and one straight through its axis, are clean. -/
theorem clean_examples : Clean 0 (π / 2) ⟨0, -1, 0⟩ ⟨3 / 5, 4 / 5, 0⟩ ∧ Clean 0 (π / 2) ⟨-3, -4, 0⟩ ⟨3 / 5, 4 / 5, 0⟩ := by
  have key : ∀ alpha ∈ [(0 : ℝ), 0 + π / 2], precision ≤ |planeDist alpha ⟨3 / 5, 4 / 5, 0⟩| := by
    intro alpha ha
    simp only [zero_add, List.mem_cons, List.not_mem_nil, or_false] at ha
    rcases ha with rfl | rfl
    · simp [planeDist, precision]; norm_num
    · simp [planeDist, precision]; norm_num
  refine ⟨⟨by norm_num, key, Or.inr ?_⟩, ⟨by norm_num, key, Or.inl (by norm_num)⟩⟩
  intro alpha ha t ht
  simp only [zero_add, List.mem_cons, List.not_mem_nil, or_false] at ha
  rcases ha with rfl | rfl
  · simp [planeDist, Vec3.add_y, Vec3.smul_y] at ht
    have : t = 5 / 4 := by linarith
    rw [this]; norm_num
  · simp [planeDist, Vec3.add_x, Vec3.smul_x] at ht
    rw [ht]; norm_num

/-- The first of them crosses the planes far apart. -/
theorem spread_example : Spread 0 (π / 2) ⟨0, -1, 0⟩ ⟨3 / 5, 4 / 5, 0⟩ := by
  intro t u ht hu _
  simp [planeDist, Vec3.add_y, Vec3.smul_y] at ht
  simp [planeDist, Vec3.add_x, Vec3.smul_x] at hu
  have : t = 5 / 4 := by linarith
  rw [this, hu, precision]; norm_num

end Siren.Geometry.Phi
