import Verif.Geometry.Zeros
import Verif.Geometry.Quartic
import Verif.Geometry.Convex
import Mathlib.Analysis.Calculus.Deriv.Pow
import Mathlib.Analysis.Calculus.Deriv.Mul
import Mathlib.Analysis.Calculus.Deriv.Add

set_option autoImplicit false
set_option linter.unusedSectionVars false
set_option linter.unusedSimpArgs false

/-!
# Lines and tori

`geometry/private/Torus.cxx` without an azimuthal cut.
-/

namespace Siren.Geometry
namespace Torus

open Siren Quartic

/-! ### Model -/

/-- The radii (Torus.cxx:167-173). -/
structure Shape where
  rtor : ℝ
  rmax : ℝ
  rmin : ℝ

/-- `t_shift` (Torus.cxx:256). -/
def shift (o d : Vec3 ℝ) : ℝ := -(o.x * d.x + o.y * d.y + o.z * d.z)

/-- `qx`, `qy`, `qz` (Torus.cxx:257-259). -/
def near (o d : Vec3 ℝ) : Vec3 ℝ := ⟨o.x + shift o d * d.x, o.y + shift o d * d.y, o.z + shift o d * d.z⟩

/-- The coefficients (Torus.cxx:261-273). -/
def c3 (o d : Vec3 ℝ) : ℝ := 4 * ((near o d).x * d.x + (near o d).y * d.y + (near o d).z * d.z)
def alpha (R r : ℝ) (o d : Vec3 ℝ) : ℝ :=
  ((near o d).x * (near o d).x + (near o d).y * (near o d).y + (near o d).z * (near o d).z) + R * R - r * r
def c2 (R r : ℝ) (o d : Vec3 ℝ) : ℝ :=
  let qd := (near o d).x * d.x + (near o d).y * d.y + (near o d).z * d.z
  4 * qd * qd + 2 * alpha R r o d - 4 * R * R * (d.x * d.x + d.y * d.y)
def c1 (R r : ℝ) (o d : Vec3 ℝ) : ℝ :=
  let qd := (near o d).x * d.x + (near o d).y * d.y + (near o d).z * d.z
  4 * qd * alpha R r o d - 8 * R * R * ((near o d).x * d.x + (near o d).y * d.y)
def c0 (R r : ℝ) (o d : Vec3 ℝ) : ℝ :=
  alpha R r o d * alpha R r o d - 4 * R * R * ((near o d).x * (near o d).x + (near o d).y * (near o d).y)

open Classical in
/-- Newton's method (Torus.cxx:283-288). -/
noncomputable def newton (a b c d : ℝ) : ℕ → ℝ → ℝ
  | 0, s => s
  | n + 1, s =>
    let f := (((s + a) * s + b) * s + c) * s + d
    let fp := ((4 * s + 3 * a) * s + 2 * b) * s + c
    if |fp| < 1e-30 then s else newton a b c d n (s - f / fp)

/-- The point at a root (Torus.cxx:303-305). -/
def point (o d : Vec3 ℝ) (s : ℝ) : Vec3 ℝ := ⟨(near o d).x + s * d.x, (near o d).y + s * d.y, (near o d).z + s * d.z⟩

/-- The distance from the axis. -/
noncomputable def rho (q : Vec3 ℝ) : ℝ := Real.sqrt (q.x * q.x + q.y * q.y)

open Classical in
/-- Checking the roots and dropping repeated ones (Torus.cxx:301-317); `last` is the last root kept. -/
noncomputable def keep (R r : ℝ) (o d : Vec3 ℝ) : Option ℝ → List ℝ → List ℝ
  | _, [] => []
  | last, s :: ss =>
    let q := point o d s
    let residual := (rho q - R) * (rho q - R) + q.z * q.z - r * r
    if |residual| > 1e-4 * (r * r + R * R) then keep R r o d last ss
    else if ∃ l, last = some l ∧ |s - l| < 1e-6 * (1 + |s|) then keep R r o d last ss
    else s :: keep R r o d (some s) ss

open Classical in
/-- The report of a root (Torus.cxx:319-348). -/
noncomputable def hit (R : ℝ) (invert : Bool) (o d : Vec3 ℝ) (s : ℝ) : Isect :=
  let t := s + shift o d
  let snapped := t > 0 ∧ t < precision
  let t' := if snapped then 0 else t
  let s' := if snapped then -shift o d else s
  let q := point o d s'
  let n : Vec3 ℝ := if rho q > precision then ⟨q.x - R / rho q * q.x, q.y - R / rho q * q.y, q.z⟩ else q
  let entering := decide (n.x * d.x + n.y * d.y + n.z * d.z < 0)
  ⟨t', 0, if invert then !entering else entering, q⟩

/-- `solve_surface` (Torus.cxx:252-349); `srtR` is `std::sort`. -/
noncomputable def surface (srtR : List ℝ → List ℝ) (R r : ℝ) (invert : Bool) (o d : Vec3 ℝ) : List Isect :=
  let raw := (quartic (c3 o d) (c2 R r o d) (c1 R r o d) (c0 R r o d)).map (newton (c3 o d) (c2 R r o d) (c1 R r o d) (c0 R r o d) 3)
  (keep R r o d none (srtR raw)).map (hit R invert o d)

open Classical in
/-- `Torus::ComputeIntersections` without an azimuthal cut (Torus.cxx:227-375). -/
noncomputable def intersections (srtR : List ℝ → List ℝ) (srt : List Isect → List Isect) (T : Shape) (o d : Vec3 ℝ) : List Isect :=
  srt (surface srtR T.rtor T.rmax false o d ++ (if T.rmin > 0 then surface srtR T.rtor T.rmin true o d else []))

/-! ### Specification -/

/-- The square of the distance of a point from the central circle of the tube. -/
noncomputable def tube (R : ℝ) (q : Vec3 ℝ) : ℝ := (rho q - R) ^ 2 + q.z ^ 2

/-- The points of the torus. -/
def Shape.Has (T : Shape) (q : Vec3 ℝ) : Prop := T.rmin ^ 2 ≤ tube T.rtor q ∧ tube T.rtor q ≤ T.rmax ^ 2

/-- The point of a line. -/
def along (o d : Vec3 ℝ) (t : ℝ) : Vec3 ℝ := ⟨o.x + t * d.x, o.y + t * d.y, o.z + t * d.z⟩

/-- Half the rate at which the line moves away from the central circle. -/
noncomputable def rate (R : ℝ) (q d : Vec3 ℝ) : ℝ := (1 - R / rho q) * (q.x * d.x + q.y * d.y) + q.z * d.z

/-- `std::sort` on numbers. -/
def IsSort (srtR : List ℝ → List ℝ) : Prop := ∀ l, (srtR l).Perm l ∧ (srtR l).Pairwise (· ≤ ·)

/-- The situation of the theorem for one surface: no tolerance of the solver matters, the line is not tangent, its crossings are further
apart than those the code takes for one, and none is just after the start. -/
structure Fair (R r : ℝ) (o d : Vec3 ℝ) : Prop where
  clear : Clear (c3 o d) (c2 R r o d) (c1 R r o d) (c0 R r o d)
  transversal : ∀ t, tube R (along o d t) = r ^ 2 → rate R (along o d t) d ≠ 0
  apart : ∀ t t', tube R (along o d t) = r ^ 2 → tube R (along o d t') = r ^ 2 → t < t' → 1e-6 * (1 + |t' - shift o d|) ≤ t' - t
  away : ∀ t, tube R (along o d t) = r ^ 2 → ¬ (0 < t ∧ t < precision)

/-! ### Lemmas -/

variable {o d : Vec3 ℝ} {R r : ℝ} {srt : List Isect → List Isect} {srtR : List ℝ → List ℝ}

theorem rho_sq (q : Vec3 ℝ) : rho q ^ 2 = q.x * q.x + q.y * q.y :=
  Real.sq_sqrt (add_nonneg (mul_self_nonneg _) (mul_self_nonneg _))

theorem rho_nonneg (q : Vec3 ℝ) : 0 ≤ rho q := Real.sqrt_nonneg _

theorem point_along (o d : Vec3 ℝ) (s : ℝ) : point o d s = along o d (s + shift o d) := by
  unfold point near along
  ext <;> simp only <;> ring

/-- The function whose sign tells the sides of a surface. -/
noncomputable def F (R r : ℝ) (o d : Vec3 ℝ) (t : ℝ) : ℝ :=
  ((along o d t).x ^ 2 + (along o d t).y ^ 2 + (along o d t).z ^ 2 + R ^ 2 - r ^ 2) ^ 2 - 4 * R ^ 2 * ((along o d t).x ^ 2 + (along o d t).y ^ 2)

noncomputable def F' (R r : ℝ) (o d : Vec3 ℝ) (t : ℝ) : ℝ :=
  4 * ((along o d t).x ^ 2 + (along o d t).y ^ 2 + (along o d t).z ^ 2 + R ^ 2 - r ^ 2) *
    ((along o d t).x * d.x + (along o d t).y * d.y + (along o d t).z * d.z) - 8 * R ^ 2 * ((along o d t).x * d.x + (along o d t).y * d.y)

theorem F_deriv (R r : ℝ) (o d : Vec3 ℝ) (t : ℝ) : HasDerivAt (F R r o d) (F' R r o d t) t := by
  have lin : ∀ a b : ℝ, HasDerivAt (fun t : ℝ => a + t * b) b t := fun a b => by
    simpa using ((hasDerivAt_id t).mul_const b).const_add a
  have hx := lin o.x d.x
  have hy := lin o.y d.y
  have hz := lin o.z d.z
  have h1 := ((((((hx.pow 2).add (hy.pow 2)).add (hz.pow 2)).add_const (R ^ 2)).sub_const (r ^ 2)).pow 2).sub
    (((hx.pow 2).add (hy.pow 2)).const_mul (4 * R ^ 2))
  refine h1.congr_deriv ?_
  unfold F' along
  simp
  ring

theorem F_fac (t : ℝ) : F R r o d t = (tube R (along o d t) - r ^ 2) * ((rho (along o d t) + R) ^ 2 + (along o d t).z ^ 2 - r ^ 2) := by
  have h := rho_sq (along o d t)
  unfold F tube
  generalize rho (along o d t) = k at *
  have e : (along o d t).x ^ 2 + (along o d t).y ^ 2 = k ^ 2 := by rw [h]; ring
  rw [e]; ring

theorem second_pos (h0 : 0 ≤ r) (h1 : r < R) (t : ℝ) : 0 < (rho (along o d t) + R) ^ 2 + (along o d t).z ^ 2 - r ^ 2 := by
  have := rho_nonneg (along o d t)
  nlinarith [sq_nonneg (along o d t).z]

theorem F_zero (h0 : 0 ≤ r) (h1 : r < R) (t : ℝ) : F R r o d t = 0 ↔ tube R (along o d t) = r ^ 2 := by
  rw [F_fac, mul_eq_zero, or_iff_left (second_pos h0 h1 t).ne', sub_eq_zero]

theorem F_neg (h0 : 0 ≤ r) (h1 : r < R) (t : ℝ) : F R r o d t < 0 ↔ tube R (along o d t) < r ^ 2 := by
  have h2 := second_pos (o := o) (d := d) h0 h1 t
  rw [F_fac]
  constructor
  · intro h
    by_contra hc
    push Not at hc
    linarith [mul_nonneg (by linarith : 0 ≤ tube R (along o d t) - r ^ 2) h2.le]
  · intro h
    exact mul_neg_of_neg_of_pos (by linarith) h2

/-- On the surface the axis is not close. -/
theorem rho_ge (h0 : 0 ≤ r) (h1 : r < R) {t : ℝ} (h : tube R (along o d t) = r ^ 2) : R - r ≤ rho (along o d t) := by
  unfold tube at h
  by_contra hc
  push Not at hc
  have h2 := rho_nonneg (along o d t)
  nlinarith [sq_nonneg (along o d t).z]

theorem F'_rate (h0 : 0 ≤ r) (h1 : r < R) {t : ℝ} (h : tube R (along o d t) = r ^ 2) :
    F' R r o d t = 8 * R * rho (along o d t) * rate R (along o d t) d := by
  have hp : 0 < rho (along o d t) := lt_of_lt_of_le (by linarith) (rho_ge h0 h1 h)
  have hs := rho_sq (along o d t)
  unfold tube at h
  unfold F' rate
  generalize along o d t = q at *
  generalize rho q = k at *
  have e : q.x ^ 2 + q.y ^ 2 + q.z ^ 2 + R ^ 2 - r ^ 2 = 2 * R * k := by linear_combination h - hs
  rw [e]
  field_simp
  ring

theorem near_perp (hd : d.x * d.x + d.y * d.y + d.z * d.z = 1) : (near o d).x * d.x + (near o d).y * d.y + (near o d).z * d.z = 0 := by
  unfold near shift
  simp only
  linear_combination (-(o.x * d.x + o.y * d.y + o.z * d.z)) * hd

theorem poly_F (hd : d.x * d.x + d.y * d.y + d.z * d.z = 1) (s : ℝ) :
    poly (c3 o d) (c2 R r o d) (c1 R r o d) (c0 R r o d) s = F R r o d (s + shift o d) := by
  have hp := near_perp (o := o) hd
  unfold F
  rw [← point_along]
  unfold poly c3 c2 c1 c0 alpha point
  simp only
  rw [hp]
  generalize near o d = n at *
  have e : (n.x + s * d.x) ^ 2 + (n.y + s * d.y) ^ 2 + (n.z + s * d.z) ^ 2 = n.x * n.x + n.y * n.y + n.z * n.z + s ^ 2 := by
    linear_combination 2 * s * hp + s ^ 2 * hd
  rw [e]
  ring

theorem F_far (hd : d.x * d.x + d.y * d.y + d.z * d.z = 1) (h0 : 0 ≤ r) (h1 : r < R) {t : ℝ} (ht : R + r < |t - shift o d|) : 0 < F R r o d t := by
  rw [F_fac]
  apply mul_pos _ (second_pos h0 h1 t)
  have hp := near_perp (o := o) hd
  have e : (along o d t).x * (along o d t).x + (along o d t).y * (along o d t).y + (along o d t).z ^ 2 =
      ((near o d).x ^ 2 + (near o d).y ^ 2 + (near o d).z ^ 2) + (t - shift o d) ^ 2 := by
    have := point_along o d (t - shift o d)
    rw [sub_add_cancel] at this
    rw [← this]
    unfold point
    linear_combination 2 * (t - shift o d) * hp + (t - shift o d) ^ 2 * hd
  have hs := rho_sq (along o d t)
  have hr := rho_nonneg (along o d t)
  have hsq : (R + r) ^ 2 < (t - shift o d) ^ 2 := by
    rw [← sq_abs (t - shift o d)]
    exact pow_lt_pow_left₀ ht (by linarith) (by norm_num)
  unfold tube
  generalize rho (along o d t) = k at *
  have hn : 0 ≤ (near o d).x ^ 2 + (near o d).y ^ 2 + (near o d).z ^ 2 := by positivity
  have hbig : (R + r) ^ 2 < k ^ 2 + (along o d t).z ^ 2 := by rw [hs]; linarith
  generalize (along o d t).z = z at *
  -- the distance from the circle is at least that from the origin less the radius
  have hm : 0 ≤ k ^ 2 + z ^ 2 := by positivity
  have hm2 := Real.sq_sqrt hm
  have hm0 := Real.sqrt_nonneg (k ^ 2 + z ^ 2)
  generalize Real.sqrt (k ^ 2 + z ^ 2) = m at *
  have hmb : R + r < m := by nlinarith
  have hkm : k ≤ m := by nlinarith [sq_nonneg z]
  nlinarith

theorem newton_root {a b c e s : ℝ} (h : poly a b c e s = 0) : ∀ n, newton a b c e n s = s
  | 0 => rfl
  | n + 1 => by
    have h0 : (((s + a) * s + b) * s + c) * s + e = 0 := by unfold poly at h; linear_combination h
    rw [newton, h0, zero_div, sub_zero]
    split
    · rfl
    · exact newton_root h n

/-- What is kept of a list of roots in order: each root once. -/
theorem keep_spec (hf : Fair R r o d) : ∀ (l : List ℝ) (last : Option ℝ),
    (∀ s ∈ l, tube R (along o d (s + shift o d)) = r ^ 2) → (∀ x, last = some x → tube R (along o d (x + shift o d)) = r ^ 2) →
    (∀ x, last = some x → ∀ s ∈ l, x ≤ s) → l.Pairwise (· ≤ ·) →
    (keep R r o d last l).Pairwise (· < ·) ∧ (∀ s, s ∈ keep R r o d last l ↔ s ∈ l ∧ last ≠ some s) := by
  intro l
  induction l with
  | nil => intro last _ _ _ _; simp [keep]
  | cons s l ih =>
    intro last h1 h2 h3 h4
    obtain ⟨hsl, h4'⟩ := List.pairwise_cons.mp h4
    have hs := h1 s List.mem_cons_self
    rw [keep]
    have hres : (rho (point o d s) - R) * (rho (point o d s) - R) + (point o d s).z * (point o d s).z - r * r = 0 := by
      rw [point_along]; unfold tube at hs; linear_combination hs
    rw [hres, abs_zero, if_neg (by
      have : 0 ≤ r * r + R * R := add_nonneg (mul_self_nonneg _) (mul_self_nonneg _)
      have : 0 ≤ 1e-4 * (r * r + R * R) := by positivity
      linarith)]
    by_cases hl : ∃ x, last = some x ∧ |s - x| < 1e-6 * (1 + |s|)
    · rw [if_pos hl]
      obtain ⟨x, hx, hc⟩ := hl
      have hxs : x = s := by
        rcases (h3 x hx s List.mem_cons_self).lt_or_eq with h | h
        · have := hf.apart (x + shift o d) (s + shift o d) (h2 x hx) hs (by linarith)
          rw [add_sub_cancel_right] at this
          rw [abs_of_pos (by linarith)] at hc
          linarith
        · exact h
      obtain ⟨i1, i2⟩ := ih last (fun y hy => h1 y (List.mem_cons_of_mem _ hy)) h2
        (fun y hy z hz => h3 y hy z (List.mem_cons_of_mem _ hz)) h4'
      refine ⟨i1, fun y => ?_⟩
      rw [i2 y, List.mem_cons]
      constructor
      · rintro ⟨a, b⟩; exact ⟨Or.inr a, b⟩
      · rintro ⟨a | a, b⟩
        · exact absurd (by rw [hx, hxs, a]) b
        · exact ⟨a, b⟩
    · rw [if_neg hl]
      obtain ⟨i1, i2⟩ := ih (some s) (fun y hy => h1 y (List.mem_cons_of_mem _ hy)) (fun x hx => by cases hx; exact hs)
        (fun y hy z hz => by cases hy; exact hsl z hz) h4'
      refine ⟨List.pairwise_cons.mpr ⟨fun y hy => ?_, i1⟩, fun y => ?_⟩
      · obtain ⟨a, b⟩ := (i2 y).mp hy
        exact lt_of_le_of_ne (hsl y a) (fun e => b (by rw [e]))
      · rw [List.mem_cons, List.mem_cons, i2 y]
        have hns : last ≠ some s := by
          intro e
          apply hl
          refine ⟨s, e, ?_⟩
          rw [sub_self, abs_zero]
          positivity
        constructor
        · rintro (rfl | ⟨a, b⟩)
          · exact ⟨Or.inl rfl, hns⟩
          · refine ⟨Or.inr a, fun e => ?_⟩
            -- then the root was reported before
            have := h3 y e s List.mem_cons_self
            have h5 := hsl y a
            exact b (by rw [le_antisymm h5 this])
        · rintro ⟨a | a, b⟩
          · exact Or.inl a
          · by_cases e : y = s
            · exact Or.inl e
            · exact Or.inr ⟨a, fun h => e (by cases h; rfl)⟩

/-- The crossings of one surface. -/
theorem surface_spec (hsR : IsSort srtR) (hd : d.x * d.x + d.y * d.y + d.z * d.z = 1) (h0 : 0 ≤ r) (h1 : r + precision < R) (hf : Fair R r o d)
    (invert : Bool) : (surface srtR R r invert o d).Pairwise (fun a b => a.distance < b.distance) ∧
    (∀ t, tube R (along o d t) = r ^ 2 ↔ ∃ h ∈ surface srtR R r invert o d, h.distance = t) ∧
    (∀ h ∈ surface srtR R r invert o d, (h.entering = true ↔ (if invert then 0 < rate R (along o d h.distance) d else rate R (along o d h.distance) d < 0)) ∧
      h.position = along o d h.distance ∧ h.hierarchy = 0) := by
  have hrR : r < R := by linarith [precision_pos]
  have hroot : ∀ s, s ∈ quartic (c3 o d) (c2 R r o d) (c1 R r o d) (c0 R r o d) ↔ tube R (along o d (s + shift o d)) = r ^ 2 := by
    intro s
    rw [C132_quartic hf.clear, poly_F hd, F_zero h0 hrR]
  have hmap : (quartic (c3 o d) (c2 R r o d) (c1 R r o d) (c0 R r o d)).map (newton (c3 o d) (c2 R r o d) (c1 R r o d) (c0 R r o d) 3) =
      quartic (c3 o d) (c2 R r o d) (c1 R r o d) (c0 R r o d) := by
    rw [List.map_congr_left (g := id), List.map_id]
    intro s hs
    exact newton_root ((C132_quartic hf.clear s).mp hs) 3
  unfold surface
  simp only
  rw [hmap]
  obtain ⟨hperm, hsort⟩ := hsR (quartic (c3 o d) (c2 R r o d) (c1 R r o d) (c0 R r o d))
  generalize srtR (quartic (c3 o d) (c2 R r o d) (c1 R r o d) (c0 R r o d)) = l at *
  have hl : ∀ s, s ∈ l ↔ tube R (along o d (s + shift o d)) = r ^ 2 := fun s => by rw [hperm.mem_iff, hroot]
  obtain ⟨k1, k2⟩ := keep_spec hf l none (fun s hs => (hl s).mp hs) (by simp) (by simp) hsort
  have hk : ∀ s, s ∈ keep R r o d none l ↔ tube R (along o d (s + shift o d)) = r ^ 2 := fun s => by rw [k2, hl]; simp
  have hns : ∀ s ∈ keep R r o d none l, ¬ (s + shift o d > 0 ∧ s + shift o d < precision) := fun s hs => hf.away _ ((hk s).mp hs)
  have hdist : ∀ s ∈ keep R r o d none l, (hit R invert o d s).distance = s + shift o d := by
    intro s hs
    unfold hit
    simp only
    rw [if_neg (hns s hs)]
  refine ⟨?_, ?_, ?_⟩
  · rw [List.pairwise_map]
    refine k1.imp_of_mem ?_
    intro a b ha hb hab
    rw [hdist a ha, hdist b hb]
    linarith
  · intro t
    constructor
    · intro ht
      have hm : t - shift o d ∈ keep R r o d none l := (hk _).mpr (by rw [sub_add_cancel]; exact ht)
      exact ⟨_, List.mem_map_of_mem hm, by rw [hdist _ hm, sub_add_cancel]⟩
    · rintro ⟨h, hh, rfl⟩
      obtain ⟨s, hs, rfl⟩ := List.mem_map.mp hh
      rw [hdist s hs]
      exact (hk s).mp hs
  · intro h hh
    obtain ⟨s, hs, rfl⟩ := List.mem_map.mp hh
    rw [hdist s hs]
    have ht := (hk s).mp hs
    have hrho : precision < rho (point o d s) := by
      rw [point_along]
      have := rho_ge h0 hrR ht
      linarith
    have hrt := hf.transversal _ ht
    unfold hit
    simp only [if_neg (hns s hs), if_pos hrho, gt_iff_lt]
    rw [← point_along]
    refine ⟨?_, rfl, trivial⟩
    have e : (point o d s).x - R / rho (point o d s) * (point o d s).x = (1 - R / rho (point o d s)) * (point o d s).x := by ring
    have e' : (point o d s).y - R / rho (point o d s) * (point o d s).y = (1 - R / rho (point o d s)) * (point o d s).y := by ring
    have er : (1 - R / rho (point o d s)) * (point o d s).x * d.x + (1 - R / rho (point o d s)) * (point o d s).y * d.y + (point o d s).z * d.z =
        rate R (point o d s) d := by unfold rate; ring
    rw [e, e', er]
    rw [← point_along] at hrt
    cases invert with
    | true =>
      simp only [if_true, Bool.not_eq_true', decide_eq_false_iff_not, not_lt]
      exact ⟨fun h => lt_of_le_of_ne h (Ne.symm hrt), fun h => h.le⟩
    | false => simp

/-- Changing the set at the crossings changes nothing. -/
theorem describes_congr {eps : ℝ} {S S' : ℝ → Prop} {hits : List Isect} (heps : 0 < eps) (h : Describes eps S hits)
    (hS : ∀ t, (∀ x ∈ hits, x.distance ≠ t) → (S' t ↔ S t)) : Describes eps S' hits where
  strict := h.strict
  alternates := h.alternates
  exact := fun t ht => by
    rw [hS t, h.exact t ht]
    intro x hx e
    have := ht x hx
    rw [e, sub_self, abs_zero] at this
    linarith

/-- C132: where the tube is thinner than the ring, the line is not tangent to it and no tolerance of the solver or of the merging of
roots matters, the crossings reported describe exactly the part of the line in the torus. -/
theorem C132_describes_partial (hsR : IsSort srtR) (hs : IsIsectSort srt) (T : Shape) (hd : d.x * d.x + d.y * d.y + d.z * d.z = 1) (h0 : 0 ≤ T.rmin)
    (h1 : T.rmin < T.rmax) (h2 : T.rmax + precision < T.rtor) (ho : Fair T.rtor T.rmax o d) (hi : 0 < T.rmin → Fair T.rtor T.rmin o d)
    {eps : ℝ} (heps : 0 < eps) :
    Describes eps (fun t => T.Has (along o d t)) (intersections srtR srt T o d) ∧
    ∀ h ∈ intersections srtR srt T o d, h.position = along o d h.distance := by
  have hp := precision_pos
  have hm0 : 0 ≤ T.rmax := by linarith
  have hmR : T.rmax < T.rtor := by linarith
  have hnR : T.rmin < T.rtor := by linarith
  obtain ⟨so, zo, eo⟩ := surface_spec (srtR := srtR) hsR hd hm0 h2 ho false
  obtain ⟨hperm, hsorted⟩ := hs (surface srtR T.rtor T.rmax false o d ++ (if T.rmin > 0 then surface srtR T.rtor T.rmin true o d else []))
  have hmem : ∀ h, h ∈ intersections srtR srt T o d ↔ h ∈ surface srtR T.rtor T.rmax false o d ∨
      (0 < T.rmin ∧ h ∈ surface srtR T.rtor T.rmin true o d) := by
    intro h
    unfold intersections
    rw [hperm.mem_iff, List.mem_append]
    by_cases hr : T.rmin > 0
    · rw [if_pos hr]; simp [hr]
    · rw [if_neg hr]; simp [hr]
  have hsq : T.rmin ^ 2 < T.rmax ^ 2 := by nlinarith
  -- distances are distinct
  have hdiff : ∀ a ∈ surface srtR T.rtor T.rmax false o d, ∀ b, 0 < T.rmin → b ∈ surface srtR T.rtor T.rmin true o d → a.distance ≠ b.distance := by
    intro a ha b hb0 hb e
    obtain ⟨-, zi, -⟩ := surface_spec (srtR := srtR) hsR hd h0 (by linarith) (hi hb0) true
    have ea := (zo a.distance).mpr ⟨a, ha, rfl⟩
    have eb := (zi b.distance).mpr ⟨b, hb, rfl⟩
    rw [e, eb] at ea
    linarith
  have hstrict : (intersections srtR srt T o d).Pairwise (fun a b => a.distance < b.distance) := by
    have hne : (surface srtR T.rtor T.rmax false o d ++ (if T.rmin > 0 then surface srtR T.rtor T.rmin true o d else [])).Pairwise
        (fun a b => a.distance ≠ b.distance) := by
      rw [List.pairwise_append]
      refine ⟨so.imp (fun h => h.ne), ?_, ?_⟩
      · by_cases hr : T.rmin > 0
        · rw [if_pos hr]
          exact (surface_spec (srtR := srtR) hsR hd h0 (by linarith) (hi hr) true).1.imp (fun h => h.ne)
        · rw [if_neg hr]; exact List.Pairwise.nil
      · intro a ha b hb
        by_cases hr : T.rmin > 0
        · rw [if_pos hr] at hb; exact hdiff a ha b hr hb
        · rw [if_neg hr] at hb; simp at hb
    have hne' : (intersections srtR srt T o d).Pairwise (fun a b => a.distance ≠ b.distance) :=
      (hperm.pairwise_iff (fun h => Ne.symm h)).mpr hne
    exact (hsorted.and hne').imp (fun h => lt_of_le_of_ne h.1 h.2)
  constructor
  · by_cases hr : 0 < T.rmin
    · -- a hollow torus: the product of the two functions
      obtain ⟨-, zi, ei⟩ := surface_spec (srtR := srtR) hsR hd h0 (by linarith) (hi hr) true
      have hz : ∀ t, F T.rtor T.rmax o d t * F T.rtor T.rmin o d t = 0 ↔ ∃ h ∈ intersections srtR srt T o d, h.distance = t := by
        intro t
        rw [mul_eq_zero, F_zero hm0 hmR, F_zero h0 hnR, zo, zi]
        simp only [hmem]
        constructor
        · rintro (⟨h, a, b⟩ | ⟨h, a, b⟩)
          · exact ⟨h, Or.inl a, b⟩
          · exact ⟨h, Or.inr ⟨hr, a⟩, b⟩
        · rintro ⟨h, a | a, b⟩
          · exact Or.inl ⟨h, a, b⟩
          · exact Or.inr ⟨h, a.2, b⟩
      have hG : ∀ t, HasDerivAt (fun t => F T.rtor T.rmax o d t * F T.rtor T.rmin o d t)
          (F' T.rtor T.rmax o d t * F T.rtor T.rmin o d t + F T.rtor T.rmax o d t * F' T.rtor T.rmin o d t) t :=
        fun t => (F_deriv T.rtor T.rmax o d t).mul (F_deriv T.rtor T.rmin o d t)
      -- the sign of the slope at a crossing
      have hslope : ∀ h ∈ intersections srtR srt T o d,
          (F' T.rtor T.rmax o d h.distance * F T.rtor T.rmin o d h.distance + F T.rtor T.rmax o d h.distance * F' T.rtor T.rmin o d h.distance ≠ 0) ∧
          (h.entering = true ↔ F' T.rtor T.rmax o d h.distance * F T.rtor T.rmin o d h.distance +
            F T.rtor T.rmax o d h.distance * F' T.rtor T.rmin o d h.distance < 0) := by
        intro h hh
        rcases (hmem h).mp hh with a | ⟨-, a⟩
        · have ht := (zo h.distance).mpr ⟨h, a, rfl⟩
          have e0 := (F_zero hm0 hmR h.distance).mpr ht
          have hF' := F'_rate hm0 hmR ht
          have hrho : 0 < rho (along o d h.distance) := lt_of_lt_of_le (by linarith) (rho_ge hm0 hmR ht)
          have hpos : 0 < F T.rtor T.rmin o d h.distance := by
            rw [F_fac]
            exact mul_pos (by rw [ht]; linarith) (second_pos h0 hnR _)
          have hk : 0 < 8 * T.rtor * rho (along o d h.distance) * F T.rtor T.rmin o d h.distance := by
            have : 0 < T.rtor := by linarith
            positivity
          have hrt := ho.transversal _ ht
          have he := (eo h a).1
          simp only [Bool.false_eq_true, if_false] at he
          rw [e0, zero_mul, add_zero, he, hF']
          have e : 8 * T.rtor * rho (along o d h.distance) * rate T.rtor (along o d h.distance) d * F T.rtor T.rmin o d h.distance =
              8 * T.rtor * rho (along o d h.distance) * F T.rtor T.rmin o d h.distance * rate T.rtor (along o d h.distance) d := by ring
          rw [e]
          refine ⟨mul_ne_zero hk.ne' hrt, ?_⟩
          constructor
          · intro h; exact mul_neg_of_pos_of_neg hk h
          · intro h; by_contra hc; push Not at hc; linarith [mul_nonneg hk.le hc]
        · have ht := (zi h.distance).mpr ⟨h, a, rfl⟩
          have e0 := (F_zero h0 hnR h.distance).mpr ht
          have hF' := F'_rate h0 hnR ht
          have hrho : 0 < rho (along o d h.distance) := lt_of_lt_of_le (by linarith) (rho_ge h0 hnR ht)
          have hneg : F T.rtor T.rmax o d h.distance < 0 := (F_neg hm0 hmR _).mpr (by rw [ht]; exact hsq)
          have hk : 0 < 8 * T.rtor * rho (along o d h.distance) * -F T.rtor T.rmax o d h.distance := by
            have : 0 < T.rtor := by linarith
            have : 0 < -F T.rtor T.rmax o d h.distance := by linarith
            positivity
          have hrt := (hi hr).transversal _ ht
          have he := (ei h a).1
          simp only [if_true] at he
          rw [e0, mul_zero, zero_add, he, hF']
          have e : F T.rtor T.rmax o d h.distance * (8 * T.rtor * rho (along o d h.distance) * rate T.rtor (along o d h.distance) d) =
              -(8 * T.rtor * rho (along o d h.distance) * -F T.rtor T.rmax o d h.distance * rate T.rtor (along o d h.distance) d) := by ring
          rw [e]
          refine ⟨neg_ne_zero.mpr (mul_ne_zero hk.ne' hrt), ?_⟩
          constructor
          · intro h; linarith [mul_pos hk h]
          · intro h; by_contra hc; push Not at hc; linarith [mul_nonneg hk.le (by linarith : 0 ≤ -rate T.rtor (along o d _) d)]
      refine describes_congr heps (Zeros.describes hG hstrict hz (fun h hh => (hslope h hh).1) (fun h hh => (hslope h hh).2) ?_ ?_ heps) ?_
      · refine ⟨shift o d - (T.rtor + T.rmax), fun t ht => mul_pos (F_far hd hm0 hmR ?_) (F_far hd h0 hnR ?_)⟩ <;>
          rw [abs_of_neg (by linarith)] <;> linarith
      · refine ⟨shift o d + (T.rtor + T.rmax), fun t ht => mul_pos (F_far hd hm0 hmR ?_) (F_far hd h0 hnR ?_)⟩ <;>
          rw [abs_of_pos (by linarith)] <;> linarith
      · intro t ht
        have hn : F T.rtor T.rmax o d t * F T.rtor T.rmin o d t ≠ 0 := by
          intro e; obtain ⟨h, a, b⟩ := (hz t).mp e; exact ht h a b
        have n1 : tube T.rtor (along o d t) ≠ T.rmax ^ 2 := fun e => hn (by rw [(F_zero hm0 hmR t).mpr e, zero_mul])
        have n2 : tube T.rtor (along o d t) ≠ T.rmin ^ 2 := fun e => hn (by rw [(F_zero h0 hnR t).mpr e, mul_zero])
        have s1 := second_pos (o := o) (d := d) hm0 hmR t
        have s2 := second_pos (o := o) (d := d) h0 hnR t
        rw [F_fac, F_fac]
        unfold Shape.Has
        generalize tube T.rtor (along o d t) = w at *
        generalize (rho (along o d t) + T.rtor) ^ 2 + (along o d t).z ^ 2 - T.rmax ^ 2 = A at *
        generalize (rho (along o d t) + T.rtor) ^ 2 + (along o d t).z ^ 2 - T.rmin ^ 2 = B at *
        have e : (w - T.rmax ^ 2) * A * ((w - T.rmin ^ 2) * B) = A * B * ((w - T.rmax ^ 2) * (w - T.rmin ^ 2)) := by ring
        rw [e]
        have hAB := mul_pos s1 s2
        constructor
        · rintro ⟨a, b⟩
          exact mul_neg_of_pos_of_neg hAB (mul_neg_of_neg_of_pos (sub_neg.mpr (lt_of_le_of_ne b n1)) (sub_pos.mpr (lt_of_le_of_ne a (Ne.symm n2))))
        · intro h
          have hh : (w - T.rmax ^ 2) * (w - T.rmin ^ 2) < 0 := by
            by_contra hc; push Not at hc; linarith [mul_nonneg hAB.le hc]
          constructor
          · by_contra hc; push Not at hc
            linarith [mul_pos_of_neg_of_neg (by linarith : w - T.rmax ^ 2 < 0) (by linarith : w - T.rmin ^ 2 < 0)]
          · by_contra hc; push Not at hc
            linarith [mul_pos (by linarith : 0 < w - T.rmax ^ 2) (by linarith : 0 < w - T.rmin ^ 2)]
    · have hr0 : T.rmin = 0 := le_antisymm (not_lt.mp hr) h0
      have hz : ∀ t, F T.rtor T.rmax o d t = 0 ↔ ∃ h ∈ intersections srtR srt T o d, h.distance = t := by
        intro t
        rw [F_zero hm0 hmR, zo]
        simp only [hmem, hr, false_and, or_false]
      have hslope : ∀ h ∈ intersections srtR srt T o d, F' T.rtor T.rmax o d h.distance ≠ 0 ∧ (h.entering = true ↔ F' T.rtor T.rmax o d h.distance < 0) := by
        intro h hh
        have a : h ∈ surface srtR T.rtor T.rmax false o d := by simpa [hr] using (hmem h).mp hh
        have ht := (zo h.distance).mpr ⟨h, a, rfl⟩
        have hF' := F'_rate hm0 hmR ht
        have hrho : 0 < rho (along o d h.distance) := lt_of_lt_of_le (by linarith) (rho_ge hm0 hmR ht)
        have hk : 0 < 8 * T.rtor * rho (along o d h.distance) := by
          have : 0 < T.rtor := by linarith
          positivity
        have hrt := ho.transversal _ ht
        have he := (eo h a).1
        simp only [Bool.false_eq_true, if_false] at he
        rw [he, hF']
        refine ⟨mul_ne_zero hk.ne' hrt, ?_⟩
        constructor
        · intro h; exact mul_neg_of_pos_of_neg hk h
        · intro h; by_contra hc; push Not at hc; linarith [mul_nonneg hk.le hc]
      refine describes_congr heps (Zeros.describes (F_deriv T.rtor T.rmax o d) hstrict hz (fun h hh => (hslope h hh).1) (fun h hh => (hslope h hh).2) ?_ ?_ heps) ?_
      · refine ⟨shift o d - (T.rtor + T.rmax), fun t ht => F_far hd hm0 hmR ?_⟩
        rw [abs_of_neg (by linarith)]; linarith
      · refine ⟨shift o d + (T.rtor + T.rmax), fun t ht => F_far hd hm0 hmR ?_⟩
        rw [abs_of_pos (by linarith)]; linarith
      · intro t ht
        have n1 : tube T.rtor (along o d t) ≠ T.rmax ^ 2 := by
          intro e
          obtain ⟨h, a, b⟩ := (hz t).mp ((F_zero hm0 hmR t).mpr e)
          exact ht h a b
        rw [F_neg hm0 hmR]
        unfold Shape.Has
        rw [hr0]
        have : 0 ≤ tube T.rtor (along o d t) := by unfold tube; positivity
        constructor
        · rintro ⟨-, b⟩; exact lt_of_le_of_ne b n1
        · intro h; exact ⟨by linarith, h.le⟩
  · intro h hh
    rcases (hmem h).mp hh with a | ⟨hr, a⟩
    · exact (eo h a).2.1
    · exact ((surface_spec (srtR := srtR) hsR hd h0 (by linarith) (hi hr) true).2.2 h a).2.1

/-- C132, the buffer of sixteen crossings: a surface is crossed at most four times. -/
theorem keep_length : ∀ (l : List ℝ) (last : Option ℝ), (keep R r o d last l).length ≤ l.length
  | [], _ => by simp [keep]
  | s :: l, last => by
    rw [keep]
    split
    · exact (keep_length l last).trans (Nat.le_succ _)
    · split
      · exact (keep_length l last).trans (Nat.le_succ _)
      · simpa using keep_length l (some s)

theorem quartic_length (a b c e : ℝ) : (quartic a b c e).length ≤ 4 := by
  unfold quartic
  simp only
  split
  · unfold biquadratic
    simp only
    split
    · simp
    · rw [List.length_append]
      have h : ∀ (p : Prop) [Decidable p] (x y : ℝ), (if p then [x, y] else ([] : List ℝ)).length ≤ 2 := by
        intro p _ x y; split <;> simp
      exact Nat.add_le_add (h _ _ _) (h _ _ _)
  · unfold ferrari
    simp only
    rw [List.length_append]
    have h : ∀ (p : Prop) [Decidable p] (x y : ℝ), (if p then [x, y] else ([] : List ℝ)).length ≤ 2 := by
      intro p _ x y; split <;> simp
    exact Nat.add_le_add (h _ _ _) (h _ _ _)

theorem C132_array (hsR : IsSort srtR) (hs : IsIsectSort srt) (T : Shape) (o d : Vec3 ℝ) : (intersections srtR srt T o d).length ≤ 8 := by
  have h : ∀ r i, (surface srtR T.rtor r i o d).length ≤ 4 := by
    intro r i
    unfold surface
    simp only
    rw [List.length_map]
    refine (keep_length _ _).trans ?_
    rw [(hsR _).1.length_eq, List.length_map]
    exact quartic_length _ _ _ _
  unfold intersections
  rw [(hs _).1.length_eq, List.length_append]
  have h1 := h T.rmax false
  have h2 := h T.rmin true
  split
  · omega
  · simp; omega

/-- The box of a torus without an azimuthal cut (Torus.cxx:441-448): half its extents. -/
def box (T : Shape) : Vec3 ℝ := ⟨T.rtor + T.rmax, T.rtor + T.rmax, T.rmax⟩

/-- C132, the box: it contains the torus. -/
theorem C132_box (T : Shape) (h0 : 0 ≤ T.rmax) (h1 : 0 ≤ T.rtor) (q : Vec3 ℝ) (h : T.Has q) :
    |q.x| ≤ (box T).x ∧ |q.y| ≤ (box T).y ∧ |q.z| ≤ (box T).z := by
  obtain ⟨-, h⟩ := h
  unfold tube at h
  have hs := rho_sq q
  have hr := rho_nonneg q
  have hk : rho q ≤ T.rtor + T.rmax := by nlinarith [sq_nonneg q.z]
  have hk2 : rho q ^ 2 ≤ (T.rtor + T.rmax) ^ 2 := pow_le_pow_left₀ hr hk 2
  unfold box
  refine ⟨abs_le_of_sq_le_sq (by nlinarith [mul_self_nonneg q.y]) (by linarith),
    abs_le_of_sq_le_sq (by nlinarith [mul_self_nonneg q.x]) (by linarith), abs_le_of_sq_le_sq (by nlinarith [sq_nonneg (rho q - T.rtor)]) h0⟩

end Torus
end Siren.Geometry
