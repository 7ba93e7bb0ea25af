import Verif.Geometry.Convex
import Mathlib.Algebra.BigOperators.Intervals

set_option autoImplicit false
set_option linter.unusedSectionVars false
set_option linter.unusedSimpArgs false

/-!
# Lines and revolved polygons

`geometry/private/GenericPolycone.cxx` without an azimuthal cut.
-/

namespace Siren.Geometry
namespace GPoly

open Siren

/-! ### Model -/

/-- The vertices `r_[i]`, `z_[i]` for `i < n` (GenericPolycone.h, GenericPolycone.cxx:55-59). -/
structure Poly where
  n : ℕ
  r : ℕ → ℝ
  z : ℕ → ℝ

/-- `ComputeWinding` (GenericPolycone.cxx:44-52). -/
noncomputable def Poly.area (P : Poly) : ℝ :=
  ((List.range P.n).map fun i => P.r i * P.z ((i + 1) % P.n) - P.r ((i + 1) % P.n) * P.z i).sum

open Classical in
noncomputable def Poly.winding (P : Poly) : ℝ := if P.area ≥ 0 then 1 else -1

/-- The point of the line at `t`. -/
def line (o d : Vec3 ℝ) (t : ℝ) : Vec3 ℝ := ⟨o.x + t * d.x, o.y + t * d.y, o.z + t * d.z⟩

/-- `t_shift` and the shifted origin (GenericPolycone.cxx:123-126). -/
def shift (o d : Vec3 ℝ) : ℝ := -(o.x * d.x + o.y * d.y + o.z * d.z)
def near (o d : Vec3 ℝ) : Vec3 ℝ := ⟨o.x + shift o d * d.x, o.y + shift o d * d.y, o.z + shift o d * d.z⟩

/-- An edge from `(r0, z0)` to `(r1, z1)`. -/
structure Edge where
  r0 : ℝ
  z0 : ℝ
  r1 : ℝ
  z1 : ℝ

/-- The line `r = a + b z` of an edge (GenericPolycone.cxx:192-193). -/
noncomputable def Edge.b (e : Edge) : ℝ := (e.r1 - e.r0) / (e.z1 - e.z0)
noncomputable def Edge.a (e : Edge) : ℝ := e.r0 - e.b * e.z0

/-- The coefficients (GenericPolycone.cxx:197-199). -/
noncomputable def Edge.A (e : Edge) (_ d : Vec3 ℝ) : ℝ := d.x * d.x + d.y * d.y - e.b * e.b * d.z * d.z
noncomputable def Edge.B (e : Edge) (o d : Vec3 ℝ) : ℝ :=
  2 * ((near o d).x * d.x + (near o d).y * d.y - e.b * d.z * (e.a + e.b * (near o d).z))
noncomputable def Edge.C (e : Edge) (o d : Vec3 ℝ) : ℝ :=
  (near o d).x * (near o d).x + (near o d).y * (near o d).y - (e.a + e.b * (near o d).z) * (e.a + e.b * (near o d).z)
noncomputable def Edge.det (e : Edge) (o d : Vec3 ℝ) : ℝ := e.B o d * e.B o d - 4 * e.A o d * e.C o d

open Classical in
/-- `t` moved to the start of the line if it is just beyond it (GenericPolycone.cxx:204, 239). -/
noncomputable def snap (t : ℝ) : ℝ := if t > 0 ∧ t < precision then 0 else t

open Classical in
/-- `try_hit` (GenericPolycone.cxx:156-159, 201-220). -/
noncomputable def tryHit (w : ℝ) (e : Edge) (claim : Bool) (o d : Vec3 ℝ) (t0 : ℝ) : List Isect :=
  let t := snap t0
  let q := line o d t
  let s := (q.z - e.z0) / (e.z1 - e.z0)
  if s < 0 ∨ (if claim then s > 1 else s ≥ 1) then []
  else
    let r := e.a + e.b * q.z
    if r < -precision then []
    else
      let entering : Bool := if r < precision then decide (e.b * d.z > 0) else decide (q.x * d.x + q.y * d.y - e.b * r * d.z < 0)
      let flip : Bool := decide (w * (e.z1 - e.z0) < 0)
      [⟨t, 0, if flip then !entering else entering, q⟩]

open Classical in
/-- The roots tried for a sloped edge (GenericPolycone.cxx:222-234). -/
noncomputable def roots (e : Edge) (onAxis : Bool) (o d : Vec3 ℝ) : List ℝ :=
  if |e.A o d| > precision then
    if e.det o d > 0 then
      [(-e.B o d + Real.sqrt (e.det o d)) / (2 * e.A o d) + shift o d, (-e.B o d - Real.sqrt (e.det o d)) / (2 * e.A o d) + shift o d]
    else if onAxis = true ∧ e.det o d > -|e.A o d| * precision then [-e.B o d / (2 * e.A o d) + shift o d]
    else []
  else if |e.B o d| > precision then [-e.C o d / e.B o d + shift o d]
  else []

open Classical in
/-- A horizontal edge (GenericPolycone.cxx:234-254). -/
noncomputable def disk (w : ℝ) (e : Edge) (o d : Vec3 ℝ) : List Isect :=
  if |d.z| < precision then []
  else
    let t := snap ((e.z0 - o.z) / d.z)
    let q := line o d t
    let rHit := Real.sqrt (q.x * q.x + q.y * q.y)
    if |e.r1 - e.r0| < precision then []
    else
      let s := (rHit - e.r0) / (e.r1 - e.r0)
      if s < 0 ∨ (if e.r1 < precision then s > 1 else s ≥ 1) then []
      else [⟨t, 0, decide (d.z * w * (e.r1 - e.r0) > 0), q⟩]

open Classical in
/-- An edge (GenericPolycone.cxx:161-255); `dzNext` is the height of the next edge. -/
noncomputable def edgeHits (w : ℝ) (e : Edge) (dzNext : ℝ) (o d : Vec3 ℝ) : List Isect :=
  if |e.r1 - e.r0| < precision ∧ |e.z1 - e.z0| < precision then []
  else if e.r0 < precision ∧ e.r1 < precision then []
  else
    let claim : Bool := decide (|dzNext| ≤ precision) || decide (e.r1 < precision)
    let onAxis : Bool := decide (e.r0 < precision) || decide (e.r1 < precision)
    if |e.z1 - e.z0| > precision then (roots e onAxis o d).flatMap (tryHit w e claim o d)
    else disk w e o d

/-- The edge from vertex `i` to the next (GenericPolycone.cxx:162-170). -/
def Poly.edge (P : Poly) (i : ℕ) : Edge := ⟨P.r i, P.z i, P.r ((i + 1) % P.n), P.z ((i + 1) % P.n)⟩

/-- The crossings before sorting (GenericPolycone.cxx:161-255). -/
noncomputable def hits (P : Poly) (o d : Vec3 ℝ) : List Isect :=
  (List.range P.n).flatMap fun i => edgeHits P.winding (P.edge i) (P.z ((i + 2) % P.n) - P.z ((i + 1) % P.n)) o d

/-- `ComputeIntersections` without an azimuthal cut (GenericPolycone.cxx:106-270); `srt` is `std::sort`. -/
noncomputable def intersections (srt : List Isect → List Isect) (P : Poly) (o d : Vec3 ℝ) : List Isect :=
  if P.n < 3 then [] else srt (hits P o d)

/-- `GetBoundingBox` without an azimuthal cut (GenericPolycone.cxx:355-364): the largest radius and the least and largest heights. -/
noncomputable def Poly.maxR (P : Poly) : ℝ := ((List.range P.n).map P.r).foldl max (P.r 0)
noncomputable def Poly.zLo (P : Poly) : ℝ := ((List.range P.n).map P.z).foldl min (P.z 0)
noncomputable def Poly.zHi (P : Poly) : ℝ := ((List.range P.n).map P.z).foldl max (P.z 0)
noncomputable def Poly.boxLow (P : Poly) : Vec3 ℝ := ⟨-P.maxR, -P.maxR, P.zLo⟩
noncomputable def Poly.boxHigh (P : Poly) : Vec3 ℝ := ⟨P.maxR, P.maxR, P.zHi⟩

/-! ### Specification -/

/-- The point lies on the surface swept by the edge, at the share `s` of its length. -/
def Edge.On (e : Edge) (s : ℝ) (q : Vec3 ℝ) : Prop :=
  q.z = e.z0 + s * (e.z1 - e.z0) ∧ q.x ^ 2 + q.y ^ 2 = (e.r0 + s * (e.r1 - e.r0)) ^ 2

/-- The rate at which the line moves along the normal on the right of the edge, times the radius. -/
def Edge.rate (e : Edge) (s : ℝ) (q d : Vec3 ℝ) : ℝ :=
  (e.z1 - e.z0) * (q.x * d.x + q.y * d.y) - (e.r1 - e.r0) * (e.r0 + s * (e.r1 - e.r0)) * d.z

/-- How far the point is outside the cone through the edge. -/
noncomputable def Edge.out (e : Edge) (q : Vec3 ℝ) : ℝ := q.x ^ 2 + q.y ^ 2 - (e.a + e.b * q.z) ^ 2

/-- No tolerance of the code decides about the edge. -/
structure Edge.Clear (e : Edge) (o d : Vec3 ℝ) : Prop where
  height : e.z1 = e.z0 ∨ precision < |e.z1 - e.z0|
  width : e.r1 = e.r0 ∨ precision ≤ |e.r1 - e.r0|
  first : e.r0 = 0 ∨ precision ≤ e.r0
  second : e.r1 = 0 ∨ precision ≤ e.r1
  lead : e.z1 ≠ e.z0 → precision < |e.A o d| ∨ (e.A o d = 0 ∧ (precision < |e.B o d| ∨ e.B o d = 0))
  apex : e.z1 ≠ e.z0 → (e.r0 = 0 ∨ e.r1 = 0) → e.det o d ≤ 0 → e.det o d ≤ -|e.A o d| * precision
  start : ∀ s t, e.On s (line o d t) → 0 < t → precision ≤ t
  flat : e.z1 = e.z0 → 0 < (e.z0 - o.z) / d.z → precision ≤ (e.z0 - o.z) / d.z

/-- The line keeps away from the axis, from the circles of the vertices and from all tolerances. -/
structure Poly.Clear (P : Poly) (o d : Vec3 ℝ) : Prop where
  climbs : precision ≤ |d.z|
  axis : ∀ t, precision ^ 2 ≤ (line o d t).x ^ 2 + (line o d t).y ^ 2
  radii : ∀ i, 0 ≤ P.r i
  vertex : ∀ i < P.n, ∀ t, (line o d t).z = P.z i → (line o d t).x ^ 2 + (line o d t).y ^ 2 ≠ P.r i ^ 2
  edges : ∀ i < P.n, (P.edge i).Clear o d

/-- Entering crossings less leaving ones. -/
def balance (l : List Isect) : ℤ := (l.map fun h => if h.entering then (1 : ℤ) else -1).sum

/-! ### Quadratics -/

theorem two_roots (A p m lo hi : ℝ) (h : lo < hi) (hA : 0 < A * (p - m)) (hl : A * (lo - p) * (lo - m) ≠ 0) (hh : A * (hi - p) * (hi - m) ≠ 0) :
    (if lo < m ∧ m < hi then (1 : ℤ) else 0) - (if lo < p ∧ p < hi then (1 : ℤ) else 0) =
    (if 0 < A * (lo - p) * (lo - m) then (1 : ℤ) else 0) - (if 0 < A * (hi - p) * (hi - m) then (1 : ℤ) else 0) := by
  have hA0 : A ≠ 0 := by rintro rfl; simp at hA
  have key : ∀ x : ℝ, A * (x - p) * (x - m) ≠ 0 → x ≠ p ∧ x ≠ m ∧ (0 < A * (x - p) * (x - m) ↔
      (if 0 < A then x < m ∨ p < x else p < x ∧ x < m)) := by
    intro x hx
    have hxp : x ≠ p := by rintro rfl; simp at hx
    have hxm : x ≠ m := by rintro rfl; simp at hx
    refine ⟨hxp, hxm, ?_⟩
    rcases lt_or_gt_of_ne hA0 with h1 | h1
    · rw [if_neg (not_lt.mpr h1.le)]
      have hpm : p < m := by nlinarith
      constructor
      · intro h
        by_contra hc
        rcases lt_or_gt_of_ne hxp with a | a
        · have : 0 < (x - p) * (x - m) := mul_pos_of_neg_of_neg (by linarith) (by linarith)
          nlinarith
        · rcases lt_or_gt_of_ne hxm with b | b
          · exact hc ⟨a, b⟩
          · have : 0 < (x - p) * (x - m) := mul_pos (by linarith) (by linarith)
            nlinarith
      · rintro ⟨a, b⟩
        have : 0 < (x - p) * (m - x) := mul_pos (by linarith) (by linarith)
        nlinarith
    · rw [if_pos h1]
      have hpm : m < p := by nlinarith
      constructor
      · intro h
        by_contra hc
        push Not at hc
        have : 0 ≤ (x - m) * (p - x) := mul_nonneg (by linarith [hc.1]) (by linarith [hc.2])
        nlinarith
      · rintro (a | a)
        · have : 0 < (x - p) * (x - m) := mul_pos_of_neg_of_neg (by linarith) (by linarith)
          rw [mul_assoc]; exact mul_pos h1 this
        · have : 0 < (x - p) * (x - m) := mul_pos (by linarith) (by linarith)
          rw [mul_assoc]; exact mul_pos h1 this
  obtain ⟨a1, a2, a3⟩ := key lo hl
  obtain ⟨b1, b2, b3⟩ := key hi hh
  have c1 : p < lo ↔ ¬ lo < p := ⟨fun h => not_lt.mpr h.le, fun h => lt_of_le_of_ne (not_lt.mp h) a1.symm⟩
  have c2 : m < hi ↔ ¬ hi < m := ⟨fun h => not_lt.mpr h.le, fun h => lt_of_le_of_ne (not_lt.mp h) b2.symm⟩
  have c3 : p < hi ↔ ¬ hi < p := ⟨fun h => not_lt.mpr h.le, fun h => lt_of_le_of_ne (not_lt.mp h) b1.symm⟩
  have d1 : hi < p → lo < p := fun h' => h.trans h'
  have d2 : hi < m → lo < m := fun h' => h.trans h'
  simp only [a3, b3, c1, c2, c3]
  rcases lt_or_gt_of_ne hA0 with h1 | h1
  · simp only [if_neg (not_lt.mpr h1.le)]
    have hpm : p < m := by nlinarith
    have e1 : lo < p → lo < m := fun h' => h'.trans hpm
    have e2 : hi < p → hi < m := fun h' => h'.trans hpm
    clear a3 b3 key hA hl hh c1 c2 c3
    by_cases x1 : lo < p <;> by_cases x2 : lo < m <;> by_cases y1 : hi < p <;> by_cases y2 : hi < m <;>
      first | (exfalso; tauto) | simp only [x1, x2, y1, y2, not_true_eq_false, not_false_eq_true, and_true, true_and, and_false, false_and, or_true,
        true_or, or_false, false_or, if_true, if_false, sub_self, sub_zero, zero_sub]
  · simp only [if_pos h1]
    have hpm : m < p := by nlinarith
    have e1 : lo < m → lo < p := fun h' => h'.trans hpm
    have e2 : hi < m → hi < p := fun h' => h'.trans hpm
    clear a3 b3 key hA hl hh c1 c2 c3
    by_cases x1 : lo < p <;> by_cases x2 : lo < m <;> by_cases y1 : hi < p <;> by_cases y2 : hi < m <;>
      first | (exfalso; tauto) | simp only [x1, x2, y1, y2, not_true_eq_false, not_false_eq_true, and_true, true_and, and_false, false_and, or_true,
        true_or, or_false, false_or, if_true, if_false, sub_self, sub_zero, zero_sub]

/-! ### Sloped edges -/

variable {e : Edge} {o d : Vec3 ℝ} {w : ℝ}

theorem a_add (h : e.z1 ≠ e.z0) (s : ℝ) : e.a + e.b * (e.z0 + s * (e.z1 - e.z0)) = e.r0 + s * (e.r1 - e.r0) := by
  have : e.z1 - e.z0 ≠ 0 := sub_ne_zero.mpr h
  unfold Edge.a Edge.b
  field_simp
  ring

theorem out_eq (t : ℝ) : e.out (line o d t) = e.A o d * (t - shift o d) ^ 2 + e.B o d * (t - shift o d) + e.C o d := by
  unfold Edge.out Edge.A Edge.B Edge.C near line
  ring

theorem on_iff (h : e.z1 ≠ e.z0) (q : Vec3 ℝ) : e.On ((q.z - e.z0) / (e.z1 - e.z0)) q ↔ e.out q = 0 := by
  have h0 : e.z1 - e.z0 ≠ 0 := sub_ne_zero.mpr h
  have hz : q.z = e.z0 + (q.z - e.z0) / (e.z1 - e.z0) * (e.z1 - e.z0) := by field_simp; ring
  have := a_add h ((q.z - e.z0) / (e.z1 - e.z0))
  rw [← hz] at this
  unfold Edge.On Edge.out
  rw [this, sub_eq_zero]
  exact ⟨fun h => h.2, fun h => ⟨hz, h⟩⟩

/-- Half the derivative of `out`. -/
noncomputable def Edge.slope (e : Edge) (q d : Vec3 ℝ) : ℝ := q.x * d.x + q.y * d.y - e.b * (e.a + e.b * q.z) * d.z

theorem slope_eq (t : ℝ) : 2 * e.slope (line o d t) d = 2 * e.A o d * (t - shift o d) + e.B o d := by
  unfold Edge.slope Edge.A Edge.B near line
  ring

/-- What a root gives. -/
theorem tryHit_root (hz : e.z1 ≠ e.z0) (h0 : 0 ≤ e.r0) (h1 : 0 ≤ e.r1) (hw : w = 1 ∨ w = -1) (claim : Bool)
    (hax : ∀ t, precision ^ 2 ≤ (line o d t).x ^ 2 + (line o d t).y ^ 2)
    (hs : ∀ s t, e.On s (line o d t) → 0 < t → precision ≤ t)
    (v0 : ∀ t, (line o d t).z = e.z0 → (line o d t).x ^ 2 + (line o d t).y ^ 2 ≠ e.r0 ^ 2)
    (v1 : ∀ t, (line o d t).z = e.z1 → (line o d t).x ^ 2 + (line o d t).y ^ 2 ≠ e.r1 ^ 2)
    (t : ℝ) (ht : e.out (line o d t) = 0) (htr : e.slope (line o d t) d ≠ 0) :
    tryHit w e claim o d t = (if 0 < ((line o d t).z - e.z0) / (e.z1 - e.z0) ∧ ((line o d t).z - e.z0) / (e.z1 - e.z0) < 1 then
      [⟨t, 0, decide (w * e.rate (((line o d t).z - e.z0) / (e.z1 - e.z0)) (line o d t) d < 0), line o d t⟩] else []) := by
  have hp := precision_pos
  have hon := (on_iff hz (line o d t)).mpr ht
  have hsnap : snap t = t := by
    unfold snap
    rw [if_neg]
    rintro ⟨a, b⟩
    exact absurd (hs _ t hon a) (not_le.mpr b)
  have hax := hax t
  have v0 := v0 t
  have v1 := v1 t
  unfold tryHit
  simp only [hsnap]
  generalize line o d t = q at *
  have hd0 : e.z1 - e.z0 ≠ 0 := sub_ne_zero.mpr hz
  have hzq := hon.1
  have hr := a_add hz ((q.z - e.z0) / (e.z1 - e.z0))
  rw [← hzq] at hr
  have hon2 := hon.2
  rw [hr]
  generalize (q.z - e.z0) / (e.z1 - e.z0) = s at *
  have s0 : s ≠ 0 := by
    rintro rfl
    rw [zero_mul, add_zero] at hzq hon2
    exact v0 hzq hon2
  have s1 : s ≠ 1 := by
    rintro rfl
    rw [one_mul] at hzq hon2
    exact v1 (by linarith) (by rw [hon2]; ring)
  by_cases hin : 0 < s ∧ s < 1
  · rw [if_pos hin, if_neg]
    · have hrp : precision ≤ e.r0 + s * (e.r1 - e.r0) := by
        have : 0 ≤ e.r0 + s * (e.r1 - e.r0) := by nlinarith [hin.1, hin.2, mul_nonneg hin.1.le h1, mul_nonneg (sub_nonneg.mpr hin.2.le) h0]
        rw [hon2] at hax
        exact (sq_le_sq₀ hp.le this).mp hax
      rw [if_neg (by linarith), if_neg (not_lt.mpr hrp)]
      congr 2
      have hb : e.b * (e.z1 - e.z0) = e.r1 - e.r0 := by unfold Edge.b; field_simp
      have hrate : e.rate s q d = (e.z1 - e.z0) * (q.x * d.x + q.y * d.y - e.b * (e.r0 + s * (e.r1 - e.r0)) * d.z) := by
        unfold Edge.rate
        rw [← hb]; ring
      rw [hrate]
      unfold Edge.slope at htr
      rw [hr] at htr
      generalize q.x * d.x + q.y * d.y - e.b * (e.r0 + s * (e.r1 - e.r0)) * d.z = Q at *
      generalize e.z1 - e.z0 = D at *
      have hw0 : w * D ≠ 0 := by rcases hw with rfl | rfl <;> simpa using hd0
      rw [← mul_assoc]
      rcases lt_or_gt_of_ne hw0 with a | a <;> rcases lt_or_gt_of_ne htr with b | b
      · have := mul_pos_of_neg_of_neg a b
        simp [a, b, not_lt.mpr this.le]
      · have := mul_neg_of_neg_of_pos a b
        simp [a, b, not_lt.mpr b.le, this]
      · have := mul_neg_of_pos_of_neg a b
        simp [not_lt.mpr a.le, b, this]
      · have := mul_pos a b
        simp [not_lt.mpr a.le, not_lt.mpr b.le, not_lt.mpr this.le]
    · rintro (h | h)
      · linarith [hin.1]
      · cases claim
        · simp only [Bool.false_eq_true, if_false] at h; linarith [hin.2]
        · simp only [if_true] at h; linarith [hin.2]
  · rw [if_neg hin, if_pos]
    by_contra hc
    push Not at hc
    apply hin
    refine ⟨lt_of_le_of_ne hc.1 s0.symm, lt_of_le_of_ne ?_ s1⟩
    have := hc.2
    cases claim
    · simp only [Bool.false_eq_true, if_false] at this; linarith
    · simp only [if_true] at this; linarith


/-- Which side of the line a vertex is on: `1` if it is nearer to the axis. -/
noncomputable def side (r z : ℝ) (o d : Vec3 ℝ) : ℤ :=
  if r ^ 2 < (line o d ((z - o.z) / d.z)).x ^ 2 + (line o d ((z - o.z) / d.z)).y ^ 2 then 1 else 0

/-- One if the root at `t` is on the edge. -/
noncomputable def inside (e : Edge) (o d : Vec3 ℝ) (t : ℝ) : ℤ :=
  if 0 < ((line o d t).z - e.z0) / (e.z1 - e.z0) ∧ ((line o d t).z - e.z0) / (e.z1 - e.z0) < 1 then 1 else 0

theorem line_at (hd : d.z ≠ 0) (z : ℝ) : (line o d ((z - o.z) / d.z)).z = z := by
  unfold line
  field_simp
  ring

theorem out_at0 (hz : e.z1 ≠ e.z0) (hd : d.z ≠ 0) : e.out (line o d ((e.z0 - o.z) / d.z)) =
    (line o d ((e.z0 - o.z) / d.z)).x ^ 2 + (line o d ((e.z0 - o.z) / d.z)).y ^ 2 - e.r0 ^ 2 := by
  have := a_add hz 0
  unfold Edge.out
  rw [line_at hd]
  rw [zero_mul, zero_mul, add_zero, add_zero] at this
  rw [this]

theorem out_at1 (hz : e.z1 ≠ e.z0) (hd : d.z ≠ 0) : e.out (line o d ((e.z1 - o.z) / d.z)) =
    (line o d ((e.z1 - o.z) / d.z)).x ^ 2 + (line o d ((e.z1 - o.z) / d.z)).y ^ 2 - e.r1 ^ 2 := by
  have := a_add hz 1
  unfold Edge.out
  rw [line_at hd]
  rw [one_mul, one_mul, add_sub_cancel, add_sub_cancel] at this
  rw [this]

theorem inside_iff (hz : e.z1 ≠ e.z0) (hd : d.z ≠ 0) (t : ℝ) : inside e o d t =
    if 0 < d.z * (e.z1 - e.z0) then (if (e.z0 - o.z) / d.z < t ∧ t < (e.z1 - o.z) / d.z then 1 else 0)
    else (if (e.z1 - o.z) / d.z < t ∧ t < (e.z0 - o.z) / d.z then 1 else 0) := by
  have h0 : e.z1 - e.z0 ≠ 0 := sub_ne_zero.mpr hz
  have hs : ((line o d t).z - e.z0) / (e.z1 - e.z0) = d.z / (e.z1 - e.z0) * (t - (e.z0 - o.z) / d.z) := by
    unfold line; field_simp; ring
  have hs1 : ((line o d t).z - e.z0) / (e.z1 - e.z0) - 1 = d.z / (e.z1 - e.z0) * (t - (e.z1 - o.z) / d.z) := by
    unfold line; field_simp; ring
  have hne : d.z * (e.z1 - e.z0) ≠ 0 := mul_ne_zero hd h0
  have hk : d.z / (e.z1 - e.z0) = d.z * (e.z1 - e.z0) / (e.z1 - e.z0) ^ 2 := by field_simp
  have hsq : 0 < (e.z1 - e.z0) ^ 2 := by positivity
  unfold inside
  by_cases hp : 0 < d.z * (e.z1 - e.z0)
  · have hk' : 0 < d.z / (e.z1 - e.z0) := by rw [hk]; exact div_pos hp hsq
    rw [if_pos hp]
    refine if_congr (and_congr ?_ ?_) rfl rfl
    · rw [hs, mul_pos_iff_of_pos_left hk', sub_pos]
    · rw [← sub_neg, hs1]
      constructor
      · intro h; nlinarith
      · intro h; nlinarith
  · have hk' : d.z / (e.z1 - e.z0) < 0 := by
      rw [hk]; exact div_neg_of_neg_of_pos (lt_of_le_of_ne (not_lt.mp hp) hne) hsq
    rw [if_neg hp]
    refine if_congr (and_comm.trans (and_congr ?_ ?_)) rfl rfl
    · rw [← sub_neg, hs1]
      constructor
      · intro h; nlinarith
      · intro h; nlinarith
    · rw [hs]
      constructor
      · intro h; nlinarith
      · intro h; nlinarith

theorem side0 (hz : e.z1 ≠ e.z0) (hd : d.z ≠ 0) : side e.r0 e.z0 o d = if 0 < e.out (line o d ((e.z0 - o.z) / d.z)) then 1 else 0 := by
  unfold side
  rw [out_at0 hz hd]
  exact if_congr (by rw [sub_pos]) rfl rfl

theorem side1 (hz : e.z1 ≠ e.z0) (hd : d.z ≠ 0) : side e.r1 e.z1 o d = if 0 < e.out (line o d ((e.z1 - o.z) / d.z)) then 1 else 0 := by
  unfold side
  rw [out_at1 hz hd]
  exact if_congr (by rw [sub_pos]) rfl rfl

/-- The assumptions about an edge and its two vertices. -/
structure Good (e : Edge) (o d : Vec3 ℝ) : Prop where
  climbs : precision ≤ |d.z|
  axis : ∀ t, precision ^ 2 ≤ (line o d t).x ^ 2 + (line o d t).y ^ 2
  h0 : 0 ≤ e.r0
  h1 : 0 ≤ e.r1
  v0 : ∀ t, (line o d t).z = e.z0 → (line o d t).x ^ 2 + (line o d t).y ^ 2 ≠ e.r0 ^ 2
  v1 : ∀ t, (line o d t).z = e.z1 → (line o d t).x ^ 2 + (line o d t).y ^ 2 ≠ e.r1 ^ 2
  clear : e.Clear o d

theorem Good.dz (g : Good e o d) : d.z ≠ 0 := by
  have := g.climbs
  have hp := precision_pos
  intro h
  rw [h, abs_zero] at this
  linarith

/-- The roots tried are roots that are not tangent, and all such roots are tried. -/
theorem roots_spec (g : Good e o d) (hz : e.z1 ≠ e.z0) (onAxis : Bool) (hon : onAxis = true → e.r0 = 0 ∨ e.r1 = 0) (t : ℝ) :
    t ∈ roots e onAxis o d ↔ e.out (line o d t) = 0 ∧ e.slope (line o d t) d ≠ 0 := by
  have hp := precision_pos
  have hslope : e.slope (line o d t) d ≠ 0 ↔ 2 * e.A o d * (t - shift o d) + e.B o d ≠ 0 := by
    rw [← slope_eq]; simp
  rw [hslope, out_eq]
  have hapex := g.clear.apex hz
  have hlead := g.clear.lead hz
  unfold roots
  have hdet : e.det o d = e.B o d * e.B o d - 4 * e.A o d * e.C o d := rfl
  generalize e.det o d = D at *
  generalize e.A o d = A at *
  generalize e.B o d = B at *
  generalize e.C o d = C at *
  generalize shift o d = h at *
  have hiff : t ∈ ([] : List ℝ) ↔ False := by simp
  have hsq : (2 * A * (t - h) + B) ^ 2 = 4 * A * (A * (t - h) ^ 2 + B * (t - h) + C) + D := by rw [hdet]; ring
  by_cases hA : |A| > precision
  · have hA0 : A ≠ 0 := by rintro rfl; rw [abs_zero] at hA; linarith
    rw [if_pos hA]
    by_cases hD : D > 0
    · rw [if_pos hD]
      have hs := Real.sq_sqrt hD.le
      have hs0 := Real.sqrt_pos.mpr hD
      generalize Real.sqrt D = q at *
      simp only [List.mem_cons, List.not_mem_nil, or_false]
      have e1 : t = (-B + q) / (2 * A) + h ↔ 2 * A * (t - h) + B = q := by
        rw [← sub_eq_iff_eq_add, eq_div_iff (by simpa using hA0)]
        constructor <;> intro h <;> linarith
      have e2 : t = (-B - q) / (2 * A) + h ↔ 2 * A * (t - h) + B = -q := by
        rw [← sub_eq_iff_eq_add, eq_div_iff (by simpa using hA0)]
        constructor <;> intro h <;> linarith
      rw [e1, e2, ← sq_eq_sq_iff_eq_or_eq_neg, hsq, hs]
      constructor
      · intro hh
        have h1 : 4 * A * (A * (t - h) ^ 2 + B * (t - h) + C) = 0 := by linarith
        have h2 : A * (t - h) ^ 2 + B * (t - h) + C = 0 := by
          rcases mul_eq_zero.mp h1 with h' | h'
          · exact absurd h' (by simpa using hA0)
          · exact h'
        refine ⟨h2, ?_⟩
        intro h3
        rw [h3, h2] at hsq
        nlinarith
      · rintro ⟨h1, -⟩
        rw [h1]; ring
    · rw [if_neg hD]
      have hD := not_lt.mp hD
      have hno : ¬ (A * (t - h) ^ 2 + B * (t - h) + C = 0 ∧ 2 * A * (t - h) + B ≠ 0) := by
        rintro ⟨h1, h2⟩
        rw [h1] at hsq
        have := pow_pos (abs_pos.mpr h2) 2
        rw [sq_abs] at this
        linarith
      rw [if_neg]
      · simp only [List.not_mem_nil, hno]
      · rintro ⟨a, b⟩
        exact absurd (hapex (hon a) hD) (not_le.mpr b)
  · rw [if_neg hA]
    have hA0 : A = 0 := by
      rcases hlead with h' | ⟨h', -⟩
      · exact absurd h' hA
      · exact h'
    subst hA0
    have hB : precision < |B| ∨ B = 0 := by
      rcases hlead with h' | ⟨-, h'⟩
      · exact absurd h' hA
      · exact h'
    rcases hB with hB | hB
    · have hB0 : B ≠ 0 := by rintro rfl; rw [abs_zero] at hB; linarith
      rw [if_pos hB]
      simp only [List.mem_cons, List.not_mem_nil, or_false, mul_zero, zero_mul, zero_add, Ne, hB0, not_false_eq_true, and_true]
      rw [← sub_eq_iff_eq_add, eq_div_iff hB0]
      constructor <;> intro h <;> linarith
    · subst hB
      rw [if_neg (by rw [abs_zero]; linarith)]
      simp

theorem rate_eq (hz : e.z1 ≠ e.z0) (q : Vec3 ℝ) : e.rate ((q.z - e.z0) / (e.z1 - e.z0)) q d = (e.z1 - e.z0) * e.slope q d := by
  have h0 : e.z1 - e.z0 ≠ 0 := sub_ne_zero.mpr hz
  have hzq : q.z = e.z0 + (q.z - e.z0) / (e.z1 - e.z0) * (e.z1 - e.z0) := by field_simp; ring
  have := a_add hz ((q.z - e.z0) / (e.z1 - e.z0))
  rw [← hzq] at this
  have hb : e.b * (e.z1 - e.z0) = e.r1 - e.r0 := by unfold Edge.b; field_simp
  unfold Edge.rate Edge.slope
  rw [this, ← hb]
  ring

theorem balance_root (g : Good e o d) (hz : e.z1 ≠ e.z0) (hw : w = 1 ∨ w = -1) (claim : Bool) (t : ℝ) (ht : e.out (line o d t) = 0)
    (htr : e.slope (line o d t) d ≠ 0) : balance (tryHit w e claim o d t) =
    (if w * (e.z1 - e.z0) < 0 then -1 else 1) * ((if e.slope (line o d t) d < 0 then 1 else -1) * inside e o d t) := by
  rw [tryHit_root hz g.h0 g.h1 hw claim g.axis g.clear.start g.v0 g.v1 t ht htr]
  unfold inside
  have h0 : e.z1 - e.z0 ≠ 0 := sub_ne_zero.mpr hz
  by_cases hin : 0 < ((line o d t).z - e.z0) / (e.z1 - e.z0) ∧ ((line o d t).z - e.z0) / (e.z1 - e.z0) < 1
  · rw [if_pos hin, if_pos hin, rate_eq hz, ← mul_assoc]
    generalize e.slope (line o d t) d = Q at *
    generalize e.z1 - e.z0 = D at *
    have hw0 : w * D ≠ 0 := by rcases hw with rfl | rfl <;> simpa using h0
    unfold balance
    rcases lt_or_gt_of_ne hw0 with a | a <;> rcases lt_or_gt_of_ne htr with b | b
    · have := mul_pos_of_neg_of_neg a b
      simp [a, b, not_lt.mpr this.le]
    · have := mul_neg_of_neg_of_pos a b
      simp [a, b, not_lt.mpr b.le, this]
    · have := mul_neg_of_pos_of_neg a b
      simp [not_lt.mpr a.le, b, this]
    · have := mul_pos a b
      simp [not_lt.mpr a.le, not_lt.mpr b.le, not_lt.mpr this.le]
  · rw [if_neg hin, if_neg hin]
    simp [balance]

theorem balance_append (l l' : List Isect) : balance (l ++ l') = balance l + balance l' := by simp [balance]

/-- The balance of a sloped edge. -/
theorem balance_wall (g : Good e o d) (hz : e.z1 ≠ e.z0) (hw : w = 1 ∨ w = -1) (claim onAxis : Bool) (hon : onAxis = true → e.r0 = 0 ∨ e.r1 = 0) :
    balance ((roots e onAxis o d).flatMap (tryHit w e claim o d)) =
    (if w * (e.z1 - e.z0) < 0 then -1 else 1) * (if 0 < d.z * (e.z1 - e.z0) then side e.r0 e.z0 o d - side e.r1 e.z1 o d
      else side e.r1 e.z1 o d - side e.r0 e.z0 o d) := by
  have hp := precision_pos
  have hdz := g.dz
  have h0 : e.z1 - e.z0 ≠ 0 := sub_ne_zero.mpr hz
  have hspec := roots_spec g hz onAxis hon
  have hroot := fun t ht => balance_root g hz hw claim t ((hspec t).mp ht).1 ((hspec t).mp ht).2
  have n0 : e.out (line o d ((e.z0 - o.z) / d.z)) ≠ 0 := by
    rw [out_at0 hz hdz, sub_ne_zero]; exact g.v0 _ (line_at hdz _)
  have n1 : e.out (line o d ((e.z1 - o.z) / d.z)) ≠ 0 := by
    rw [out_at1 hz hdz, sub_ne_zero]; exact g.v1 _ (line_at hdz _)
  rw [side0 hz hdz, side1 hz hdz]
  -- the interval
  obtain ⟨lo, hi, hlt, hl, hh, hin, hgoal⟩ : ∃ lo hi : ℝ, lo < hi ∧ e.out (line o d lo) ≠ 0 ∧ e.out (line o d hi) ≠ 0 ∧
      (∀ t, inside e o d t = if lo < t ∧ t < hi then 1 else 0) ∧
      (if 0 < d.z * (e.z1 - e.z0) then
        (if 0 < e.out (line o d ((e.z0 - o.z) / d.z)) then (1 : ℤ) else 0) - (if 0 < e.out (line o d ((e.z1 - o.z) / d.z)) then 1 else 0)
      else (if 0 < e.out (line o d ((e.z1 - o.z) / d.z)) then 1 else 0) - (if 0 < e.out (line o d ((e.z0 - o.z) / d.z)) then 1 else 0)) =
      (if 0 < e.out (line o d lo) then (1 : ℤ) else 0) - (if 0 < e.out (line o d hi) then 1 else 0) := by
    have hsub : (e.z1 - o.z) / d.z - (e.z0 - o.z) / d.z = d.z * (e.z1 - e.z0) / d.z ^ 2 := by field_simp; ring
    have hsq : 0 < d.z ^ 2 := by positivity
    by_cases hk : 0 < d.z * (e.z1 - e.z0)
    · refine ⟨_, _, ?_, n0, n1, fun t => ?_, by rw [if_pos hk]⟩
      · rw [← sub_pos, hsub]; exact div_pos hk hsq
      · rw [inside_iff hz hdz, if_pos hk]
    · refine ⟨_, _, ?_, n1, n0, fun t => ?_, by rw [if_neg hk]⟩
      · rw [← sub_neg, hsub]
        exact div_neg_of_neg_of_pos (lt_of_le_of_ne (not_lt.mp hk) (mul_ne_zero hdz h0)) hsq
      · rw [inside_iff hz hdz, if_neg hk]
  rw [hgoal]
  clear hgoal n0 n1
  have hlead := g.clear.lead hz
  have hapex := g.clear.apex hz
  have hout := fun t => out_eq (e := e) (o := o) (d := d) t
  have hsl := fun t => slope_eq (e := e) (o := o) (d := d) t
  have hdet : e.det o d = e.B o d * e.B o d - 4 * e.A o d * e.C o d := rfl
  revert hroot
  unfold roots
  by_cases hA : |e.A o d| > precision
  · have hA0 : e.A o d ≠ 0 := by intro h; rw [h, abs_zero] at hA; linarith
    rw [if_pos hA]
    by_cases hD : e.det o d > 0
    · rw [if_pos hD]
      have hs := Real.sq_sqrt hD.le
      have hs0 := Real.sqrt_pos.mpr hD
      intro hroot
      generalize hq : Real.sqrt (e.det o d) = q at *
      generalize hp' : (-e.B o d + q) / (2 * e.A o d) + shift o d = p at *
      generalize hm' : (-e.B o d - q) / (2 * e.A o d) + shift o d = m at *
      have ep : 2 * e.A o d * (p - shift o d) + e.B o d = q := by rw [← hp']; field_simp; ring
      have em : 2 * e.A o d * (m - shift o d) + e.B o d = -q := by rw [← hm']; field_simp; ring
      have r1 := hroot p (by simp)
      have r2 := hroot m (by simp)
      have sp : ¬ e.slope (line o d p) d < 0 := by have := hsl p; linarith
      have sm : e.slope (line o d m) d < 0 := by have := hsl m; linarith
      rw [if_neg sp] at r1
      rw [if_pos sm] at r2
      simp only [List.flatMap_cons, List.flatMap_nil, List.append_nil]
      rw [balance_append, r1, r2, hin, hin]
      have hfac : ∀ t, e.out (line o d t) = e.A o d * (t - p) * (t - m) := by
        intro t
        rw [hout t]
        have h4 : 4 * e.A o d * (e.A o d * (t - shift o d) ^ 2 + e.B o d * (t - shift o d) + e.C o d) =
            4 * e.A o d * (e.A o d * (t - p) * (t - m)) := by
          have hp2 : 2 * e.A o d * (t - p) = 2 * e.A o d * (t - shift o d) + e.B o d - q := by linear_combination -ep
          have hm2 : 2 * e.A o d * (t - m) = 2 * e.A o d * (t - shift o d) + e.B o d + q := by linear_combination -em
          have : 4 * e.A o d * (e.A o d * (t - p) * (t - m)) = (2 * e.A o d * (t - p)) * (2 * e.A o d * (t - m)) := by ring
          rw [this, hp2, hm2]
          linear_combination hs + hdet
        exact mul_left_cancel₀ (by simpa using hA0) h4
      have := two_roots (e.A o d) p m lo hi hlt (by nlinarith) (by rw [← hfac]; exact hl) (by rw [← hfac]; exact hh)
      rw [hfac, hfac, ← this]
      ring
    · rw [if_neg hD, if_neg]
      · intro _
        have hD := not_lt.mp hD
        have hsame : ∀ t, e.out (line o d t) ≠ 0 → (0 < e.out (line o d t) ↔ 0 < e.A o d) := by
          intro t ht
          rw [hout t] at ht ⊢
          have : 0 ≤ e.A o d * (e.A o d * (t - shift o d) ^ 2 + e.B o d * (t - shift o d) + e.C o d) := by
            nlinarith [sq_nonneg (2 * e.A o d * (t - shift o d) + e.B o d)]
          generalize e.A o d * (t - shift o d) ^ 2 + e.B o d * (t - shift o d) + e.C o d = x at *
          have := lt_of_le_of_ne this (mul_ne_zero hA0 ht).symm
          constructor
          · intro h; exact (mul_pos_iff_of_pos_right h).mp this
          · intro h; exact (mul_pos_iff_of_pos_left h).mp this
        simp only [hsame lo hl, hsame hi hh, sub_self, mul_zero, List.flatMap_nil]
        simp [balance]
      · rintro ⟨a, b⟩
        exact absurd (hapex (hon a) (not_lt.mp hD)) (not_le.mpr b)
  · rw [if_neg hA]
    have hA0 : e.A o d = 0 := by
      rcases hlead with h' | ⟨h', -⟩
      · exact absurd h' hA
      · exact h'
    have hB : precision < |e.B o d| ∨ e.B o d = 0 := by
      rcases hlead with h' | ⟨-, h'⟩
      · exact absurd h' hA
      · exact h'
    rcases hB with hB | hB
    · have hB0 : e.B o d ≠ 0 := by intro h; rw [h, abs_zero] at hB; linarith
      rw [if_pos hB]
      intro hroot
      generalize hp' : -e.C o d / e.B o d + shift o d = p at *
      have r1 := hroot p (by simp)
      simp only [List.flatMap_cons, List.flatMap_nil, List.append_nil]
      rw [r1, hin]
      congr 1
      have hfac : ∀ t, e.out (line o d t) = e.B o d * (t - p) := by
        intro t
        rw [hout t, hA0, ← hp']
        field_simp
        ring
      have hsp : e.slope (line o d p) d < 0 ↔ e.B o d < 0 := by
        have := hsl p
        rw [hA0] at this
        constructor <;> intro h <;> linarith
      rw [hfac] at hl hh
      simp only [hfac, hsp]
      have l1 : lo ≠ p := by rintro rfl; simp at hl
      have l2 : hi ≠ p := by rintro rfl; simp at hh
      rcases lt_or_gt_of_ne hB0 with b | b
      · have k : ∀ x, 0 < e.B o d * (x - p) ↔ x < p := fun x => by
          constructor
          · intro h; by_contra hc; nlinarith
          · intro h; nlinarith
        simp only [k, if_pos b]
        rcases lt_or_gt_of_ne l1 with a | a <;> rcases lt_or_gt_of_ne l2 with c | c
        · simp [a, c, not_lt.mpr c.le]
        · simp [a, c, not_lt.mpr c.le]
        · linarith
        · simp [not_lt.mpr a.le, not_lt.mpr c.le]
      · have k : ∀ x, 0 < e.B o d * (x - p) ↔ p < x := fun x => by
          constructor
          · intro h; by_contra hc; nlinarith
          · intro h; nlinarith
        simp only [k, if_neg (not_lt.mpr b.le)]
        rcases lt_or_gt_of_ne l1 with a | a <;> rcases lt_or_gt_of_ne l2 with c | c
        · simp [a, not_lt.mpr c.le, not_lt.mpr a.le]
        · simp [a, c, not_lt.mpr a.le]
        · linarith
        · simp [a, c, not_lt.mpr a.le]
    · rw [if_neg (by rw [hB, abs_zero]; linarith)]
      intro _
      have hc : ∀ t, e.out (line o d t) = e.C o d := fun t => by rw [hout t, hA0, hB]; ring
      simp [hc, balance]

/-! ### Horizontal edges -/

theorem disk_spec (g : Good e o d) (hz : e.z1 = e.z0) (hr : e.r1 ≠ e.r0) (hw : w = 1 ∨ w = -1) (t : ℝ) (ht : t = (e.z0 - o.z) / d.z) (s : ℝ)
    (hs : s = (Real.sqrt ((line o d t).x ^ 2 + (line o d t).y ^ 2) - e.r0) / (e.r1 - e.r0)) :
    disk w e o d = (if 0 < s ∧ s < 1 then [⟨t, 0, decide (w * e.rate s (line o d t) d < 0), line o d t⟩] else []) ∧
    e.On s (line o d t) ∧ e.rate s (line o d t) d ≠ 0 ∧ s ≠ 0 ∧ s ≠ 1 ∧ (if 0 < d.z * w * (e.r1 - e.r0) then w * e.rate s (line o d t) d < 0
      else 0 < w * e.rate s (line o d t) d) := by
  have hp := precision_pos
  have hdz := g.dz
  have hrd : e.r1 - e.r0 ≠ 0 := sub_ne_zero.mpr hr
  have hsnap : snap ((e.z0 - o.z) / d.z) = t := by
    unfold snap
    rw [if_neg, ht]
    rintro ⟨a, b⟩
    exact absurd (g.clear.flat hz a) (not_le.mpr b)
  have hzt : (line o d t).z = e.z0 := by rw [ht]; exact line_at hdz _
  have hax := g.axis t
  have v0 := g.v0 t hzt
  have v1 := g.v1 t (by rw [hzt, hz])
  have hwid : ¬ |e.r1 - e.r0| < precision := by
    rcases g.clear.width with h | h
    · exact absurd h hr
    · exact not_lt.mpr h
  unfold disk
  simp only [hsnap]
  rw [if_neg (not_lt.mpr g.climbs), if_neg hwid, ← pow_two, ← pow_two]
  generalize line o d t = q at *
  have hnn : 0 ≤ q.x ^ 2 + q.y ^ 2 := by positivity
  have hsq := Real.sq_sqrt hnn
  have hrho : precision ≤ Real.sqrt (q.x ^ 2 + q.y ^ 2) := (Real.le_sqrt hp.le hnn).mpr hax
  generalize Real.sqrt (q.x ^ 2 + q.y ^ 2) = rho at *
  rw [← hs]
  have hrs : e.r0 + s * (e.r1 - e.r0) = rho := by rw [hs]; field_simp; ring
  have s0 : s ≠ 0 := by
    rintro rfl
    rw [zero_mul, add_zero] at hrs
    exact v0 (by rw [← hsq, hrs])
  have s1 : s ≠ 1 := by
    rintro rfl
    exact v1 (by rw [← hsq, ← hrs]; ring)
  have hrate : w * e.rate s q d = -(d.z * w * (e.r1 - e.r0)) * rho := by
    unfold Edge.rate
    rw [hrs, hz]; ring
  have hrho0 : 0 < rho := by linarith
  have hk : d.z * w * (e.r1 - e.r0) ≠ 0 := by
    rcases hw with rfl | rfl
    · simpa using ⟨hdz, hrd⟩
    · simpa using ⟨hdz, hrd⟩
  have hdec : w * e.rate s q d < 0 ↔ d.z * w * (e.r1 - e.r0) > 0 := by
    rw [hrate]
    constructor
    · intro h; by_contra hc; nlinarith
    · intro h; nlinarith
  refine ⟨?_, ⟨by rw [hzt, hz]; ring, by rw [hrs, hsq]⟩, ?_, s0, s1, ?_⟩
  · by_cases hin : 0 < s ∧ s < 1
    · rw [if_pos hin, if_neg]
      · simp only [hdec]
      · rintro (h | h)
        · linarith [hin.1]
        · split_ifs at h <;> linarith [hin.2]
    · rw [if_neg hin, if_pos]
      by_contra hc
      push Not at hc
      refine hin ⟨lt_of_le_of_ne hc.1 s0.symm, lt_of_le_of_ne ?_ s1⟩
      have := hc.2
      split_ifs at this <;> linarith
  · intro h
    rw [h, mul_zero] at hrate
    rcases mul_eq_zero.mp hrate.symm with h' | h'
    · exact hk (neg_eq_zero.mp h')
    · linarith
  · split_ifs with h
    · exact hdec.mpr h
    · rw [hrate]
      have : d.z * w * (e.r1 - e.r0) < 0 := lt_of_le_of_ne (not_lt.mp h) hk
      nlinarith

theorem balance_disk (g : Good e o d) (hz : e.z1 = e.z0) (hr : e.r1 ≠ e.r0) (hw : w = 1 ∨ w = -1) :
    balance (disk w e o d) = (if 0 < d.z * w then 1 else -1) * (side e.r0 e.z0 o d - side e.r1 e.z1 o d) := by
  obtain ⟨h1, h2, h3, s0, s1, h4⟩ := disk_spec g hz hr hw _ rfl _ rfl
  have hrd : e.r1 - e.r0 ≠ 0 := sub_ne_zero.mpr hr
  rw [h1]
  unfold side
  rw [hz]
  generalize line o d ((e.z0 - o.z) / d.z) = q at *
  have hnn : 0 ≤ q.x ^ 2 + q.y ^ 2 := by positivity
  have hrho := Real.sqrt_nonneg (q.x ^ 2 + q.y ^ 2)
  have hlt : ∀ r, 0 ≤ r → (r ^ 2 < q.x ^ 2 + q.y ^ 2 ↔ r < Real.sqrt (q.x ^ 2 + q.y ^ 2)) := fun r hr => (Real.lt_sqrt hr).symm
  simp only [hlt _ g.h0, hlt _ g.h1]
  generalize Real.sqrt (q.x ^ 2 + q.y ^ 2) = rho at *
  have hk : d.z * w ≠ 0 := by rcases hw with rfl | rfl <;> simpa using g.dz
  have hrs : e.r0 + (rho - e.r0) / (e.r1 - e.r0) * (e.r1 - e.r0) = rho := by field_simp; ring
  generalize (rho - e.r0) / (e.r1 - e.r0) = s at *
  have e0 : e.r0 < rho ↔ 0 < s * (e.r1 - e.r0) := by rw [← hrs]; constructor <;> intro h <;> linarith
  have e1 : e.r1 < rho ↔ 0 < (s - 1) * (e.r1 - e.r0) := by rw [← hrs]; constructor <;> intro h <;> linarith
  simp only [e0, e1]
  unfold balance
  rcases lt_or_gt_of_ne hrd with a | a <;> rcases lt_or_gt_of_ne s0 with b | b <;> rcases lt_or_gt_of_ne s1 with c | c <;>
    rcases lt_or_gt_of_ne hk with k | k
  all_goals first
    | (exfalso; linarith)
    | skip
  all_goals
    have p1 : 0 < s * (e.r1 - e.r0) ↔ (0 < s ∧ 0 < e.r1 - e.r0) ∨ (s < 0 ∧ e.r1 - e.r0 < 0) := mul_pos_iff
    have p2 : 0 < (s - 1) * (e.r1 - e.r0) ↔ (0 < s - 1 ∧ 0 < e.r1 - e.r0) ∨ (s - 1 < 0 ∧ e.r1 - e.r0 < 0) := mul_pos_iff
    have p3 : 0 < d.z * w * (e.r1 - e.r0) ↔ (0 < d.z * w ∧ 0 < e.r1 - e.r0) ∨ (d.z * w < 0 ∧ e.r1 - e.r0 < 0) := mul_pos_iff
    simp only [p3] at h4
    simp only [p1, p2, sub_pos, sub_neg] at h4 ⊢
    simp only [sub_pos, gt_iff_lt, sub_neg] at a
    have na := not_lt.mpr a.le
    have nb := not_lt.mpr b.le
    have nc := not_lt.mpr c.le
    have nk := not_lt.mpr k.le
    simp only [a, b, c, k, na, nb, nc, nk, and_true, true_and, and_false, false_and, or_true, true_or, or_false, false_or, if_true, if_false] at h4 ⊢
    try have h5 := not_lt.mpr h4.le
    simp_all

end GPoly
end Siren.Geometry
