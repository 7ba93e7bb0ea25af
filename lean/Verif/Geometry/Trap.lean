import Verif.Geometry.Para
import Verif.Geometry.Local

set_option autoImplicit false

/-!
# C98: general trapezoids

Models `geometry/private/Trap.cxx`. Real `tan`, `sin`, `cos` and square root instead of those of `<cmath>`.
-/

namespace Siren.Geometry.Trap

open Siren Siren.Geometry

/-! ### Model -/

/-- The members of `Trap` that are set by its user (geometry/public/SIREN/geometry/Trap.h:96-106). -/
structure Trp where
  dz : ℝ
  theta : ℝ
  phi : ℝ
  dy1 : ℝ
  dx1 : ℝ
  dx2 : ℝ
  alpha1 : ℝ
  dy2 : ℝ
  dx3 : ℝ
  dx4 : ℝ
  alpha2 : ℝ

/-- The constructor (geometry/private/Trap.cxx:26-35); `none` is `std::invalid_argument`. -/
noncomputable def make (dz theta phi dy1 dx1 dx2 alpha1 dy2 dx3 dx4 alpha2 : ℝ) : Option Trp :=
  if dz ≤ 0 then none
  else if dx1 < 0 ∨ dx2 < 0 ∨ dx3 < 0 ∨ dx4 < 0 then none
  else if dy1 < 0 ∨ dy2 < 0 then none
  else some ⟨dz, theta, phi, dy1, dx1, dx2, alpha1, dy2, dx3, dx4, alpha2⟩

/-- `tan_theta * cos_phi` times half the height (geometry/private/Trap.cxx:66, 90). -/
noncomputable def xc (c : Trp) : ℝ := c.dz * Real.tan c.theta * Real.cos c.phi

/-- `tan_theta * sin_phi` times half the height (geometry/private/Trap.cxx:67, 91). -/
noncomputable def yc (c : Trp) : ℝ := c.dz * Real.tan c.theta * Real.sin c.phi

/-- `vertices_[0]` (geometry/private/Trap.cxx:70-72). -/
noncomputable def v0 (c : Trp) : Vec3 ℝ := ⟨-xc c - c.dy1 * Real.tan c.alpha1 - c.dx1, -yc c - c.dy1, -c.dz⟩

/-- `vertices_[1]` (geometry/private/Trap.cxx:75-77). -/
noncomputable def v1 (c : Trp) : Vec3 ℝ := ⟨-xc c - c.dy1 * Real.tan c.alpha1 + c.dx1, -yc c - c.dy1, -c.dz⟩

/-- `vertices_[2]` (geometry/private/Trap.cxx:80-82). -/
noncomputable def v2 (c : Trp) : Vec3 ℝ := ⟨-xc c + c.dy1 * Real.tan c.alpha1 + c.dx2, -yc c + c.dy1, -c.dz⟩

/-- `vertices_[3]` (geometry/private/Trap.cxx:85-87). -/
noncomputable def v3 (c : Trp) : Vec3 ℝ := ⟨-xc c + c.dy1 * Real.tan c.alpha1 - c.dx2, -yc c + c.dy1, -c.dz⟩

/-- `vertices_[4]` (geometry/private/Trap.cxx:94-96). -/
noncomputable def v4 (c : Trp) : Vec3 ℝ := ⟨xc c - c.dy2 * Real.tan c.alpha2 - c.dx3, yc c - c.dy2, c.dz⟩

/-- `vertices_[5]` (geometry/private/Trap.cxx:99-101). -/
noncomputable def v5 (c : Trp) : Vec3 ℝ := ⟨xc c - c.dy2 * Real.tan c.alpha2 + c.dx3, yc c - c.dy2, c.dz⟩

/-- `vertices_[6]` (geometry/private/Trap.cxx:104-106). -/
noncomputable def v6 (c : Trp) : Vec3 ℝ := ⟨xc c + c.dy2 * Real.tan c.alpha2 + c.dx4, yc c + c.dy2, c.dz⟩

/-- `vertices_[7]` (geometry/private/Trap.cxx:109-111). -/
noncomputable def v7 (c : Trp) : Vec3 ℝ := ⟨xc c + c.dy2 * Real.tan c.alpha2 - c.dx4, yc c + c.dy2, c.dz⟩

/-- `Trap::ComputePlane` (geometry/private/Trap.cxx:115-144): normal and offset. -/
noncomputable def plane (a b e : Vec3 ℝ) : Vec3 ℝ × ℝ :=
  let n := Vec3.cross (b - a) (e - a)
  let len := Real.sqrt (n.x * n.x + n.y * n.y + n.z * n.z)
  let n := if len > 0 then (⟨n.x / len, n.y / len, n.z / len⟩ : Vec3 ℝ) else n
  (n, -(n.x * a.x + n.y * a.y + n.z * a.z))

/-- The centroid (geometry/private/Trap.cxx:149-157). -/
noncomputable def centroid (c : Trp) : Vec3 ℝ :=
  let s := v0 c + v1 c + v2 c + v3 c + v4 c + v5 c + v6 c + v7 c
  ⟨s.x / 8, s.y / 8, s.z / 8⟩

/-- Turning a plane outwards (geometry/private/Trap.cxx:191-198). -/
noncomputable def outward (o : Vec3 ℝ) (pl : Vec3 ℝ × ℝ) : Vec3 ℝ × ℝ :=
  if pl.1.x * o.x + pl.1.y * o.y + pl.1.z * o.z + pl.2 > 0 then (-pl.1, -pl.2) else pl

/-- `Trap::ComputePlanes` (geometry/private/Trap.cxx:147-200). -/
noncomputable def planes (c : Trp) : List (Vec3 ℝ × ℝ) :=
  [plane (v0 c) (v1 c) (v2 c), plane (v7 c) (v6 c) (v5 c), plane (v0 c) (v1 c) (v5 c), plane (v3 c) (v2 c) (v6 c),
    plane (v0 c) (v3 c) (v7 c), plane (v1 c) (v2 c) (v6 c)].map (outward (centroid c))

/-- The body of the loop over the planes (geometry/private/Trap.cxx:236-261); the result `none` is `return {}`. -/
noncomputable def clip (p d : Vec3 ℝ) (r : AABB.TRange ℝ) (f : Vec3 ℝ × ℝ) : Option (AABB.TRange ℝ) :=
  let ndotd := f.1.x * d.x + f.1.y * d.y + f.1.z * d.z
  let ndoto := f.1.x * p.x + f.1.y * p.y + f.1.z * p.z + f.2
  if |ndotd| < precision then
    if ndoto > 0 then none else some r
  else
    let t := -ndoto / ndotd
    if ndotd < 0 then some ⟨AABB.fmaxO r.tmin t, r.tmax⟩ else some ⟨r.tmin, AABB.fminO r.tmax t⟩

/-- The loop (geometry/private/Trap.cxx:236-261). -/
noncomputable def clipAll (p d : Vec3 ℝ) : List (Vec3 ℝ × ℝ) → AABB.TRange ℝ → Option (AABB.TRange ℝ)
  | [], r => some r
  | f :: fs, r =>
    match clip p d r f with
    | none => none
    | some r' => clipAll p d fs r'

/-- `Trap::ComputeIntersections` (geometry/private/Trap.cxx:222-279). The result `none` stands for infinite distances. -/
noncomputable def compute (c : Trp) (p d : Vec3 ℝ) : Option (List Isect) :=
  match clipAll p d (planes c) ⟨none, none⟩ with
  | none => some []
  | some ⟨some enter, some exit⟩ =>
    if enter ≥ exit then some []
    else some [⟨enter, 0, true, ⟨p.x + enter * d.x, p.y + enter * d.y, p.z + enter * d.z⟩⟩,
      ⟨exit, 0, false, ⟨p.x + exit * d.x, p.y + exit * d.y, p.z + exit * d.z⟩⟩]
  | some _ => none

/-- `Trap::GetBoundingBox` (geometry/private/Trap.cxx:282-288); `big` is the largest number. -/
noncomputable def boundingBox (big : ℝ) (c : Trp) : AABB ℝ :=
  [v0 c, v1 c, v2 c, v3 c, v4 c, v5 c, v6 c, v7 c].foldl AABB.expand (AABB.empty big)

/-! ### Specification -/

/-- The solid between a trapezoid at the bottom and one on top. At the fraction `s` of the height the section is a trapezoid
around the point reached by leaning `theta` towards the azimuth `phi`; at the fraction `r` of its depth, it extends
by at most its half width about its middle line, which leans by `alpha1` at the bottom and `alpha2` on top. -/
def Mem (c : Trp) (v : Vec3 ℝ) : Prop :=
  ∃ s r w : ℝ, 0 ≤ s ∧ s ≤ 1 ∧ 0 ≤ r ∧ r ≤ 1 ∧
    |w| ≤ (1 - s) * ((1 - r) * c.dx1 + r * c.dx2) + s * ((1 - r) * c.dx3 + r * c.dx4) ∧
    v.z = (2 * s - 1) * c.dz ∧
    v.y = (2 * s - 1) * c.dz * Real.tan c.theta * Real.sin c.phi + (2 * r - 1) * ((1 - s) * c.dy1 + s * c.dy2) ∧
    v.x = (2 * s - 1) * c.dz * Real.tan c.theta * Real.cos c.phi +
      (2 * r - 1) * ((1 - s) * c.dy1 * Real.tan c.alpha1 + s * c.dy2 * Real.tan c.alpha2) + w

/-- The left and right sides are flat: the trapezoids at the bottom and on top have parallel sides. -/
def Flat (c : Trp) : Prop :=
  Real.tan c.alpha1 = Real.tan c.alpha2 ∧ (c.dx1 - c.dx2) * c.dy2 = (c.dx3 - c.dx4) * c.dy1

/-- No half width or depth is zero. -/
def Solid (c : Trp) : Prop := 0 < c.dx1 ∧ 0 < c.dx2 ∧ 0 < c.dx3 ∧ 0 < c.dx4 ∧ 0 < c.dy1 ∧ 0 < c.dy2

/-- The direction is parallel to the plane through three corners or at an angle with it that exceeds the tolerance. -/
def Clear (a b e d : Vec3 ℝ) : Prop :=
  Vec3.dot (Vec3.cross (b - a) (e - a)) d = 0 ∨
    precision * Vec3.norm (Vec3.cross (b - a) (e - a)) ≤ |Vec3.dot (Vec3.cross (b - a) (e - a)) d|

/-- The direction is not nearly parallel to one of the six faces. -/
def NotNearlyParallel (c : Trp) (d : Vec3 ℝ) : Prop :=
  Clear (v0 c) (v1 c) (v2 c) d ∧ Clear (v7 c) (v6 c) (v5 c) d ∧ Clear (v0 c) (v1 c) (v5 c) d ∧
    Clear (v3 c) (v2 c) (v6 c) d ∧ Clear (v0 c) (v3 c) (v7 c) d ∧ Clear (v1 c) (v2 c) (v6 c) d

/-! ### Proofs: the loop -/

/-- The value of a plane at a point. -/
def at' (f : Vec3 ℝ × ℝ) (v : Vec3 ℝ) : ℝ := Vec3.dot f.1 v + f.2

theorem at_line (f : Vec3 ℝ × ℝ) (p d : Vec3 ℝ) (t : ℝ) : at' f (p + Vec3.smul t d) = at' f p + t * Vec3.dot f.1 d := by
  unfold at'; rw [Para.dot_line]; ring

theorem has_max (r : AABB.TRange ℝ) (a t : ℝ) : AABB.TRange.Has ⟨AABB.fmaxO r.tmin a, r.tmax⟩ t ↔ r.Has t ∧ a ≤ t := by
  cases r with
  | mk lo hi => cases lo <;> cases hi <;> simp [AABB.TRange.Has, AABB.fmaxO] <;> tauto

theorem has_min (r : AABB.TRange ℝ) (b t : ℝ) : AABB.TRange.Has ⟨r.tmin, AABB.fminO r.tmax b⟩ t ↔ r.Has t ∧ t ≤ b := by
  cases r with
  | mk lo hi => cases lo <;> cases hi <;> simp [AABB.TRange.Has, AABB.fminO] <;> tauto

/-- One plane keeps exactly the parameters on its inner side. -/
theorem clip_spec (p d : Vec3 ℝ) (f : Vec3 ℝ × ℝ) (r : AABB.TRange ℝ) (hn : Vec3.dot f.1 d = 0 ∨ precision ≤ |Vec3.dot f.1 d|) :
    match clip p d r f with
    | none => ∀ t, ¬ at' f (p + Vec3.smul t d) ≤ 0
    | some r' => ∀ t, r'.Has t ↔ r.Has t ∧ at' f (p + Vec3.smul t d) ≤ 0 := by
  have hpr := precision_pos
  simp only [at_line]
  unfold clip
  simp only
  rw [show f.1.x * d.x + f.1.y * d.y + f.1.z * d.z = Vec3.dot f.1 d from rfl,
    show f.1.x * p.x + f.1.y * p.y + f.1.z * p.z + f.2 = at' f p from rfl]
  obtain ⟨b, hb⟩ : ∃ z, z = Vec3.dot f.1 d := ⟨_, rfl⟩
  obtain ⟨a, ha⟩ : ∃ z, z = at' f p := ⟨_, rfl⟩
  rw [← hb] at hn
  rw [← hb, ← ha]
  by_cases h : |b| < precision
  · have hb0 : b = 0 := hn.resolve_right (not_le.2 h)
    rw [if_pos h, hb0]
    by_cases h2 : a > 0
    · rw [if_pos h2]; simp only [mul_zero, add_zero]; intro _; exact not_le.2 h2
    · rw [if_neg h2]; simp only [mul_zero, add_zero]; intro t; simp [not_lt.1 h2]
  · rw [if_neg h]
    have hb0 : b ≠ 0 := by rintro rfl; rw [abs_zero] at h; exact h hpr
    rcases lt_or_gt_of_ne hb0 with hs | hs
    · rw [if_pos hs]; simp only
      intro t
      rw [has_max, div_le_iff_of_neg hs]
      constructor <;> rintro ⟨h1, h2⟩ <;> exact ⟨h1, by linarith⟩
    · rw [if_neg (not_lt.2 hs.le)]; simp only
      intro t
      rw [has_min, le_div_iff₀ hs]
      constructor <;> rintro ⟨h1, h2⟩ <;> exact ⟨h1, by linarith⟩

theorem clipAll_spec (p d : Vec3 ℝ) (fs : List (Vec3 ℝ × ℝ)) (hn : ∀ f ∈ fs, Vec3.dot f.1 d = 0 ∨ precision ≤ |Vec3.dot f.1 d|) :
    ∀ r : AABB.TRange ℝ,
    match clipAll p d fs r with
    | none => ∀ t, ¬ ∀ f ∈ fs, at' f (p + Vec3.smul t d) ≤ 0
    | some r' => ∀ t, r'.Has t ↔ r.Has t ∧ ∀ f ∈ fs, at' f (p + Vec3.smul t d) ≤ 0 := by
  induction fs with
  | nil =>
    intro r
    simp only [clipAll, List.not_mem_nil, false_implies, implies_true, and_true]
  | cons f fs ih =>
    intro r
    have h1 := clip_spec p d f r (hn f (by simp))
    simp only [clipAll]
    cases hc : clip p d r f with
    | none =>
      rw [hc] at h1
      simp only at h1 ⊢
      intro t g; exact h1 t (g f (by simp))
    | some r' =>
      rw [hc] at h1
      simp only at h1 ⊢
      have h2 := ih (fun f hf => hn f (by simp [hf])) r'
      cases hA : clipAll p d fs r' with
      | none =>
        rw [hA] at h2
        simp only at h2 ⊢
        intro t g; exact h2 t fun f hf => g f (by simp [hf])
      | some r'' =>
        rw [hA] at h2
        simp only at h2 ⊢
        intro t
        rw [h2, h1]
        simp only [List.mem_cons, forall_eq_or_imp, and_assoc]

/-! ### Proofs: the planes -/

theorem centroid_zero (c : Trp) : centroid c = 0 := by
  unfold centroid
  ext <;> simp only [v0, v1, v2, v3, v4, v5, v6, v7, Vec3.add_x, Vec3.add_y, Vec3.add_z, Vec3.zero_x, Vec3.zero_y, Vec3.zero_z] <;> ring

/-- The plane through three points, turned away from the origin, keeps the points on the side of the origin. -/
theorem outward_iff (a b e v : Vec3 ℝ) (h0 : Vec3.dot (Vec3.cross (b - a) (e - a)) (0 - a) ≠ 0) :
    at' (outward 0 (plane a b e)) v ≤ 0 ↔
      0 ≤ Vec3.dot (Vec3.cross (b - a) (e - a)) (v - a) * Vec3.dot (Vec3.cross (b - a) (e - a)) (0 - a) := by
  obtain ⟨m, hm⟩ : ∃ z, z = Vec3.cross (b - a) (e - a) := ⟨_, rfl⟩
  have hne : Vec3.dot m m ≠ 0 := by
    intro hz
    have hx : m.x * m.x = 0 ∧ m.y * m.y = 0 ∧ m.z * m.z = 0 := by
      have := mul_self_nonneg m.x
      have := mul_self_nonneg m.y
      have := mul_self_nonneg m.z
      simp only [Vec3.dot] at hz
      refine ⟨?_, ?_, ?_⟩ <;> linarith
    rw [mul_self_eq_zero, mul_self_eq_zero, mul_self_eq_zero] at hx
    apply h0
    rw [← hm]
    simp [Vec3.dot, hx.1, hx.2.1, hx.2.2]
  have hpos : 0 < Vec3.norm m := by
    apply Real.sqrt_pos.2
    refine lt_of_le_of_ne ?_ (Ne.symm hne)
    exact add_nonneg (add_nonneg (mul_self_nonneg _) (mul_self_nonneg _)) (mul_self_nonneg _)
  have hpl : plane a b e = (⟨m.x / Vec3.norm m, m.y / Vec3.norm m, m.z / Vec3.norm m⟩,
      -(m.x / Vec3.norm m * a.x + m.y / Vec3.norm m * a.y + m.z / Vec3.norm m * a.z)) := by
    unfold plane
    simp only [← hm]
    rw [show Real.sqrt (m.x * m.x + m.y * m.y + m.z * m.z) = Vec3.norm m from rfl, if_pos hpos]
  rw [← hm] at h0 ⊢
  have hval : ∀ w, at' (plane a b e) w = Vec3.dot m (w - a) / Vec3.norm m := by
    intro w
    rw [hpl]
    simp only [at', Vec3.dot, Vec3.sub_x, Vec3.sub_y, Vec3.sub_z]; ring
  have hneg : ∀ f : Vec3 ℝ × ℝ, ∀ w, at' (-f.1, -f.2) w = -at' f w := by
    intro f w; simp only [at', Vec3.dot, Vec3.neg_x, Vec3.neg_y, Vec3.neg_z]; ring
  unfold outward
  rw [show (plane a b e).1.x * (0 : Vec3 ℝ).x + (plane a b e).1.y * (0 : Vec3 ℝ).y + (plane a b e).1.z * (0 : Vec3 ℝ).z +
    (plane a b e).2 = at' (plane a b e) 0 from rfl]
  rcases lt_or_gt_of_ne h0 with h | h
  · rw [if_neg (by rw [hval]; exact not_lt.2 (div_neg_of_neg_of_pos h hpos).le), hval, div_nonpos_iff]
    constructor
    · rintro (⟨_, h1⟩ | ⟨h1, _⟩)
      · exact absurd hpos (not_lt.2 h1)
      · exact mul_nonneg_of_nonpos_of_nonpos h1 h.le
    · intro h1; exact Or.inr ⟨nonpos_of_mul_nonneg_left h1 h, hpos.le⟩
  · rw [if_pos (by rw [hval]; exact div_pos h hpos), hneg, hval, neg_nonpos, div_nonneg_iff]
    constructor
    · rintro (⟨h1, _⟩ | ⟨_, h1⟩)
      · exact mul_nonneg h1 h.le
      · exact absurd hpos (not_lt.2 h1)
    · intro h1; exact Or.inl ⟨nonneg_of_mul_nonneg_left h1 h, hpos.le⟩

theorem outward_clear (o a b e d : Vec3 ℝ) (h : Clear a b e d) :
    Vec3.dot (outward o (plane a b e)).1 d = 0 ∨ precision ≤ |Vec3.dot (outward o (plane a b e)).1 d| := by
  obtain ⟨m, hm⟩ : ∃ z, z = Vec3.cross (b - a) (e - a) := ⟨_, rfl⟩
  unfold Clear at h
  rw [← hm] at h
  have key : Vec3.dot (plane a b e).1 d = 0 ∨ precision ≤ |Vec3.dot (plane a b e).1 d| := by
    unfold plane
    simp only [← hm]
    rw [show Real.sqrt (m.x * m.x + m.y * m.y + m.z * m.z) = Vec3.norm m from rfl]
    by_cases hpos : Vec3.norm m > 0
    · rw [if_pos hpos]
      have e1 : Vec3.dot (⟨m.x / Vec3.norm m, m.y / Vec3.norm m, m.z / Vec3.norm m⟩ : Vec3 ℝ) d = Vec3.dot m d / Vec3.norm m := by
        simp only [Vec3.dot]; ring
      rw [e1]
      rcases h with h | h
      · left; rw [h, zero_div]
      · right; rw [abs_div, abs_of_pos hpos, le_div_iff₀ hpos]; exact h
    · rw [if_neg hpos]
      left
      have hz : Vec3.dot m m ≤ 0 := Real.sqrt_eq_zero'.1 (le_antisymm (not_lt.1 hpos) (Real.sqrt_nonneg _))
      have := mul_self_nonneg m.x
      have := mul_self_nonneg m.y
      have := mul_self_nonneg m.z
      simp only [Vec3.dot] at hz
      have hx : m.x * m.x = 0 ∧ m.y * m.y = 0 ∧ m.z * m.z = 0 := by refine ⟨?_, ?_, ?_⟩ <;> linarith
      rw [mul_self_eq_zero, mul_self_eq_zero, mul_self_eq_zero] at hx
      simp [Vec3.dot, hx.1, hx.2.1, hx.2.2]
  unfold outward
  split
  · have e2 : Vec3.dot (-(plane a b e).1) d = -Vec3.dot (plane a b e).1 d := by
      simp only [Vec3.dot, Vec3.neg_x, Vec3.neg_y, Vec3.neg_z]; ring
    rw [e2, neg_eq_zero, abs_neg]; exact key
  · exact key

/-- Twice `dz` times the half depth of the section at the height `z`. -/
def depth (c : Trp) (v : Vec3 ℝ) : ℝ := (c.dz - v.z) * c.dy1 + (c.dz + v.z) * c.dy2

/-- The distance of a point from the middle of the section in depth. -/
noncomputable def eta (c : Trp) (v : Vec3 ℝ) : ℝ := v.y - v.z * (Real.tan c.theta * Real.sin c.phi)

/-- The distance of a point from the middle line of the section. -/
noncomputable def xi (c : Trp) (v : Vec3 ℝ) : ℝ := v.x - v.z * (Real.tan c.theta * Real.cos c.phi) - Real.tan c.alpha1 * eta c v

/-- `4 * dy1 * dz` times the half width of the section. -/
noncomputable def width (c : Trp) (v : Vec3 ℝ) : ℝ :=
  2 * c.dy1 * ((c.dz - v.z) * c.dx1 + (c.dz + v.z) * c.dx3) - (c.dx1 - c.dx2) * (2 * c.dz * eta c v + depth c v)

/-- The trapezoid as six linear inequalities. -/
def Ineqs (c : Trp) (v : Vec3 ℝ) : Prop :=
  (0 ≤ v.z + c.dz ∧ 0 ≤ c.dz - v.z) ∧ (0 ≤ 2 * c.dz * eta c v + depth c v ∧ 0 ≤ depth c v - 2 * c.dz * eta c v) ∧
    (0 ≤ width c v + 4 * c.dy1 * c.dz * xi c v ∧ 0 ≤ width c v - 4 * c.dy1 * c.dz * xi c v)

theorem mem_iff (c : Trp) (hz : 0 < c.dz) (hs : Solid c) (hf : Flat c) (v : Vec3 ℝ) : Mem c v ↔ Ineqs c v := by
  obtain ⟨_, _, _, _, hy1, hy2⟩ := hs
  obtain ⟨hT, hF⟩ := hf
  have hyz : 0 < 4 * c.dy1 * c.dz := by positivity
  constructor
  · rintro ⟨s, r, w, s0, s1, r0, r1, hw, ez, ey, ex⟩
    have e1 : eta c v = (2 * r - 1) * ((1 - s) * c.dy1 + s * c.dy2) := by rw [eta, ey, ez]; ring
    have e2 : depth c v = 2 * c.dz * ((1 - s) * c.dy1 + s * c.dy2) := by rw [depth, ez]; ring
    have e3 : xi c v = w := by rw [xi, e1, ex, ez, hT]; ring
    have e4 : width c v = 4 * c.dy1 * c.dz * ((1 - s) * ((1 - r) * c.dx1 + r * c.dx2) + s * ((1 - r) * c.dx3 + r * c.dx4)) := by
      rw [width, e1, e2, ez]; linear_combination (-4 * c.dz * r * s) * hF
    have hD : 0 ≤ (1 - s) * c.dy1 + s * c.dy2 := by
      have := mul_nonneg (sub_nonneg.2 s1) hy1.le
      have := mul_nonneg s0 hy2.le
      linarith
    obtain ⟨W, hW⟩ : ∃ W, W = (1 - s) * ((1 - r) * c.dx1 + r * c.dx2) + s * ((1 - r) * c.dx3 + r * c.dx4) := ⟨_, rfl⟩
    obtain ⟨D, hD'⟩ : ∃ D, D = (1 - s) * c.dy1 + s * c.dy2 := ⟨_, rfl⟩
    rw [← hW, abs_le] at hw
    rw [← hW] at e4
    rw [← hD'] at e1 e2 hD
    refine ⟨⟨?_, ?_⟩, ⟨?_, ?_⟩, ⟨?_, ?_⟩⟩
    · rw [ez]; linarith [mul_nonneg s0 hz.le]
    · rw [ez]; linarith [mul_nonneg (sub_nonneg.2 s1) hz.le]
    · rw [e1, e2]; linarith [mul_nonneg (mul_nonneg hz.le hD) r0]
    · rw [e1, e2]; linarith [mul_nonneg (mul_nonneg hz.le hD) (sub_nonneg.2 r1)]
    · rw [e3, e4, ← mul_add]; exact mul_nonneg hyz.le (by linarith [hw.1])
    · rw [e3, e4, ← mul_sub]; exact mul_nonneg hyz.le (by linarith [hw.2])
  · rintro ⟨⟨a1, a2⟩, ⟨b1, b2⟩, ⟨c1, c2⟩⟩
    have hD : 0 < depth c v := by
      unfold depth
      rcases lt_or_eq_of_le a1 with h | h
      · have := mul_pos h hy2
        have := mul_nonneg a2 hy1.le
        linarith
      · have : v.z = -c.dz := by linarith
        rw [this]; nlinarith
    have es : (2 * ((v.z + c.dz) / (2 * c.dz)) - 1) * c.dz = v.z := by field_simp; ring
    have es' : 1 - (v.z + c.dz) / (2 * c.dz) = (c.dz - v.z) / (2 * c.dz) := by field_simp; ring
    have eD : (1 - (v.z + c.dz) / (2 * c.dz)) * c.dy1 + (v.z + c.dz) / (2 * c.dz) * c.dy2 = depth c v / (2 * c.dz) := by
      rw [es', depth]; field_simp; ring
    have er : (2 * ((2 * c.dz * eta c v + depth c v) / (2 * depth c v)) - 1) * (depth c v / (2 * c.dz)) = eta c v := by
      field_simp; ring
    refine ⟨(v.z + c.dz) / (2 * c.dz), (2 * c.dz * eta c v + depth c v) / (2 * depth c v), xi c v, by positivity, ?_, by positivity,
      ?_, ?_, es.symm, ?_, ?_⟩
    · rw [div_le_one (by positivity)]; linarith
    · rw [div_le_one (by positivity)]; linarith
    · have ew : 4 * c.dy1 * c.dz * ((1 - (v.z + c.dz) / (2 * c.dz)) * ((1 - (2 * c.dz * eta c v + depth c v) / (2 * depth c v)) * c.dx1 +
          (2 * c.dz * eta c v + depth c v) / (2 * depth c v) * c.dx2) + (v.z + c.dz) / (2 * c.dz) *
          ((1 - (2 * c.dz * eta c v + depth c v) / (2 * depth c v)) * c.dx3 + (2 * c.dz * eta c v + depth c v) / (2 * depth c v) * c.dx4)) =
          width c v := by
        obtain ⟨q, hq⟩ : ∃ q, q = (2 * c.dz * eta c v + depth c v) / (2 * depth c v) := ⟨_, rfl⟩
        have hq' : 2 * c.dz * eta c v + depth c v = 2 * depth c v * q := by rw [hq]; field_simp
        rw [← hq, width, hq', es']
        unfold depth
        field_simp
        linear_combination 4 * (c.dz + v.z) * q * hF
      rw [abs_le]
      constructor
      · by_contra hc
        have := mul_lt_mul_of_pos_left (not_le.1 hc) hyz
        rw [mul_neg, ew] at this
        linarith
      · by_contra hc
        have := mul_lt_mul_of_pos_left (not_le.1 hc) hyz
        rw [ew] at this
        linarith
    · rw [eD, er, es, eta]; ring
    · rw [es, show (1 - (v.z + c.dz) / (2 * c.dz)) * c.dy1 * Real.tan c.alpha1 + (v.z + c.dz) / (2 * c.dz) * c.dy2 * Real.tan c.alpha2 =
        ((1 - (v.z + c.dz) / (2 * c.dz)) * c.dy1 + (v.z + c.dz) / (2 * c.dz) * c.dy2) * Real.tan c.alpha1 by rw [← hT]; ring, eD,
        ← mul_assoc, er, xi]
      ring

theorem planes_iff (c : Trp) (hz : 0 < c.dz) (hs : Solid c) (hf : Flat c) (v : Vec3 ℝ) :
    (∀ f ∈ planes c, at' f v ≤ 0) ↔ Ineqs c v := by
  obtain ⟨hx1, hx2, hx3, hx4, hy1, hy2⟩ := hs
  obtain ⟨hT, hF⟩ := hf
  have same : ∀ k g : ℝ, 0 < k → (0 ≤ g * k ↔ 0 ≤ g) := fun k g hk => ⟨fun h => nonneg_of_mul_nonneg_left h hk, fun h => mul_nonneg h hk.le⟩
  have d0 : ∀ w, Vec3.dot (Vec3.cross (v1 c - v0 c) (v2 c - v0 c)) (w - v0 c) = 4 * c.dx1 * c.dy1 * (w.z + c.dz) := by
    intro w; simp only [Vec3.dot, Vec3.cross, v0, v1, v2, Vec3.sub_x, Vec3.sub_y, Vec3.sub_z]; ring
  have d1 : ∀ w, Vec3.dot (Vec3.cross (v6 c - v7 c) (v5 c - v7 c)) (w - v7 c) = 4 * c.dx4 * c.dy2 * (c.dz - w.z) := by
    intro w; simp only [Vec3.dot, Vec3.cross, v5, v6, v7, Vec3.sub_x, Vec3.sub_y, Vec3.sub_z]; ring
  have d2 : ∀ w, Vec3.dot (Vec3.cross (v1 c - v0 c) (v5 c - v0 c)) (w - v0 c) = -2 * c.dx1 * (2 * c.dz * eta c w + depth c w) := by
    intro w; simp only [Vec3.dot, Vec3.cross, v0, v1, v5, xc, yc, eta, depth, Vec3.sub_x, Vec3.sub_y, Vec3.sub_z]; ring
  have d3 : ∀ w, Vec3.dot (Vec3.cross (v2 c - v3 c) (v6 c - v3 c)) (w - v3 c) = 2 * c.dx2 * (depth c w - 2 * c.dz * eta c w) := by
    intro w; simp only [Vec3.dot, Vec3.cross, v2, v3, v6, xc, yc, eta, depth, Vec3.sub_x, Vec3.sub_y, Vec3.sub_z]; ring
  have d4 : ∀ w, Vec3.dot (Vec3.cross (v3 c - v0 c) (v7 c - v0 c)) (w - v0 c) = width c w + 4 * c.dy1 * c.dz * xi c w := by
    intro w
    simp only [Vec3.dot, Vec3.cross, v0, v3, v7, xc, yc, eta, depth, width, xi, Vec3.sub_x, Vec3.sub_y, Vec3.sub_z]
    rw [← hT]; linear_combination 2 * (w.z + c.dz) * hF
  have d5 : ∀ w, Vec3.dot (Vec3.cross (v2 c - v1 c) (v6 c - v1 c)) (w - v1 c) = -(width c w - 4 * c.dy1 * c.dz * xi c w) := by
    intro w
    simp only [Vec3.dot, Vec3.cross, v1, v2, v6, xc, yc, eta, depth, width, xi, Vec3.sub_x, Vec3.sub_y, Vec3.sub_z]
    rw [← hT]; linear_combination -2 * (w.z + c.dz) * hF
  have z1 : eta c 0 = 0 := by simp [eta]
  have z2 : depth c 0 = c.dz * (c.dy1 + c.dy2) := by simp [depth]; ring
  have z3 : xi c 0 = 0 := by simp [xi, z1]
  have z4 : width c 0 = c.dz * c.dy1 * (c.dx1 + c.dx2 + c.dx3 + c.dx4) := by
    rw [width, z1, z2]; simp only [Vec3.zero_z]; linear_combination -c.dz * hF
  have p0 : 0 < 4 * c.dx1 * c.dy1 := by positivity
  have p1 : 0 < 4 * c.dx4 * c.dy2 := by positivity
  have p2 : 0 < depth c 0 := by rw [z2]; positivity
  have p4 : 0 < width c 0 := by rw [z4]; positivity
  have f0 : at' (outward 0 (plane (v0 c) (v1 c) (v2 c))) v ≤ 0 ↔ 0 ≤ v.z + c.dz := by
    have h0 : Vec3.dot (Vec3.cross (v1 c - v0 c) (v2 c - v0 c)) (0 - v0 c) = 4 * c.dx1 * c.dy1 * c.dz := by rw [d0]; simp
    rw [outward_iff _ _ _ _ (by rw [h0]; positivity), h0, d0, same _ _ (by positivity), mul_comm, same _ _ p0]
  have f1 : at' (outward 0 (plane (v7 c) (v6 c) (v5 c))) v ≤ 0 ↔ 0 ≤ c.dz - v.z := by
    have h0 : Vec3.dot (Vec3.cross (v6 c - v7 c) (v5 c - v7 c)) (0 - v7 c) = 4 * c.dx4 * c.dy2 * c.dz := by rw [d1]; simp
    rw [outward_iff _ _ _ _ (by rw [h0]; positivity), h0, d1, same _ _ (by positivity), mul_comm, same _ _ p1]
  have f2 : at' (outward 0 (plane (v0 c) (v1 c) (v5 c))) v ≤ 0 ↔ 0 ≤ 2 * c.dz * eta c v + depth c v := by
    have h0 : Vec3.dot (Vec3.cross (v1 c - v0 c) (v5 c - v0 c)) (0 - v0 c) = -(2 * c.dx1 * depth c 0) := by rw [d2, z1]; ring
    rw [outward_iff _ _ _ _ (by rw [h0]; exact ne_of_lt (by have := mul_pos hx1 p2; linarith)), h0, d2,
      show -2 * c.dx1 * (2 * c.dz * eta c v + depth c v) * -(2 * c.dx1 * depth c 0) =
        (2 * c.dz * eta c v + depth c v) * (4 * c.dx1 * c.dx1 * depth c 0) by ring, same _ _ (by positivity)]
  have f3 : at' (outward 0 (plane (v3 c) (v2 c) (v6 c))) v ≤ 0 ↔ 0 ≤ depth c v - 2 * c.dz * eta c v := by
    have h0 : Vec3.dot (Vec3.cross (v2 c - v3 c) (v6 c - v3 c)) (0 - v3 c) = 2 * c.dx2 * depth c 0 := by rw [d3, z1]; ring
    rw [outward_iff _ _ _ _ (by rw [h0]; positivity), h0, d3,
      show 2 * c.dx2 * (depth c v - 2 * c.dz * eta c v) * (2 * c.dx2 * depth c 0) =
        (depth c v - 2 * c.dz * eta c v) * (4 * c.dx2 * c.dx2 * depth c 0) by ring, same _ _ (by positivity)]
  have f4 : at' (outward 0 (plane (v0 c) (v3 c) (v7 c))) v ≤ 0 ↔ 0 ≤ width c v + 4 * c.dy1 * c.dz * xi c v := by
    have h0 : Vec3.dot (Vec3.cross (v3 c - v0 c) (v7 c - v0 c)) (0 - v0 c) = width c 0 := by rw [d4, z3]; ring
    rw [outward_iff _ _ _ _ (by rw [h0]; exact p4.ne'), h0, d4, same _ _ p4]
  have f5 : at' (outward 0 (plane (v1 c) (v2 c) (v6 c))) v ≤ 0 ↔ 0 ≤ width c v - 4 * c.dy1 * c.dz * xi c v := by
    have h0 : Vec3.dot (Vec3.cross (v2 c - v1 c) (v6 c - v1 c)) (0 - v1 c) = -width c 0 := by rw [d5, z3]; ring
    rw [outward_iff _ _ _ _ (by rw [h0]; exact neg_ne_zero.2 p4.ne'), h0, d5, neg_mul_neg, same _ _ p4]
  simp only [planes, centroid_zero, List.map_cons, List.map_nil, List.mem_cons, List.not_mem_nil, or_false, forall_eq_or_imp, forall_eq]
  rw [f0, f1, f2, f3, f4, f5, Ineqs]
  simp only [and_assoc]

theorem unit_mul (k m : ℝ) (h0 : -1 ≤ k) (h1 : k ≤ 1) : |k * m| ≤ |m| := by
  rw [abs_mul]
  have : |k| ≤ 1 := abs_le.2 ⟨h0, h1⟩
  nlinarith [abs_nonneg m]

/-- The coordinates of the points of a trapezoid are bounded. -/
theorem mem_bounds (c : Trp) (h1 : 0 ≤ c.dx1) (h2 : 0 ≤ c.dx2) (h3 : 0 ≤ c.dx3) (h4 : 0 ≤ c.dx4) (v : Vec3 ℝ) (h : Mem c v) :
    |v.z| ≤ |c.dz| ∧ |v.y| ≤ |yc c| + (|c.dy1| + |c.dy2|) ∧
    |v.x| ≤ |xc c| + (|c.dy1 * Real.tan c.alpha1| + |c.dy2 * Real.tan c.alpha2|) + (c.dx1 + c.dx2 + c.dx3 + c.dx4) := by
  obtain ⟨s, r, w, s0, s1, r0, r1, hw, ez, ey, ex⟩ := h
  have lerp : ∀ A B : ℝ, |(1 - s) * A + s * B| ≤ |A| + |B| := by
    intro A B
    refine le_trans (abs_add_le _ _) (add_le_add ?_ ?_)
    · exact unit_mul _ _ (by linarith) (by linarith)
    · exact unit_mul _ _ (by linarith) (by linarith)
  refine ⟨?_, ?_, ?_⟩
  · rw [ez]; exact unit_mul _ _ (by linarith) (by linarith)
  · rw [ey]
    refine le_trans (abs_add_le _ _) (add_le_add ?_ ?_)
    · rw [show (2 * s - 1) * c.dz * Real.tan c.theta * Real.sin c.phi = (2 * s - 1) * yc c by rw [yc]; ring]
      exact unit_mul _ _ (by linarith) (by linarith)
    · exact le_trans (unit_mul _ _ (by linarith) (by linarith)) (lerp _ _)
  · rw [ex]
    refine le_trans (abs_add_le _ _) (add_le_add (le_trans (abs_add_le _ _) (add_le_add ?_ ?_)) ?_)
    · rw [show (2 * s - 1) * c.dz * Real.tan c.theta * Real.cos c.phi = (2 * s - 1) * xc c by rw [xc]; ring]
      exact unit_mul _ _ (by linarith) (by linarith)
    · refine le_trans (unit_mul _ _ (by linarith) (by linarith)) ?_
      rw [mul_assoc, mul_assoc]; exact lerp _ _
    · refine le_trans hw ?_
      have u : ∀ k m : ℝ, 0 ≤ k → k ≤ 1 → 0 ≤ m → k * m ≤ m := fun k m _ hk hm => by nlinarith
      have a1 : (1 - r) * c.dx1 + r * c.dx2 ≤ c.dx1 + c.dx2 := add_le_add (u _ _ (by linarith) (by linarith) h1) (u _ _ r0 r1 h2)
      have a2 : (1 - r) * c.dx3 + r * c.dx4 ≤ c.dx3 + c.dx4 := add_le_add (u _ _ (by linarith) (by linarith) h3) (u _ _ r0 r1 h4)
      have b1 : 0 ≤ (1 - r) * c.dx1 + r * c.dx2 := add_nonneg (mul_nonneg (by linarith) h1) (mul_nonneg r0 h2)
      have b2 : 0 ≤ (1 - r) * c.dx3 + r * c.dx4 := add_nonneg (mul_nonneg (by linarith) h3) (mul_nonneg r0 h4)
      have := u (1 - s) _ (by linarith) (by linarith) b1
      have := u s _ s0 s1 b2
      linarith

/-- The trapezoid is bounded along every line. -/
theorem bounded (c : Trp) (hs : Solid c) (p d : Vec3 ℝ) (hd : d ≠ 0) : ∃ M, ∀ u, Mem c (p + Vec3.smul u d) → |u| ≤ M := by
  obtain ⟨hx1, hx2, hx3, hx4, hy1, hy2⟩ := hs
  have hb := mem_bounds c hx1.le hx2.le hx3.le hx4.le
  by_cases h1 : d.x = 0
  · by_cases h2 : d.y = 0
    · have h3 : d.z ≠ 0 := fun h3 => hd (Vec3.ext h1 h2 h3)
      refine ⟨(|c.dz| + |p.z|) / |d.z|, fun u hu => bounded_coordinate p.z d.z _ u h3 ?_⟩
      simpa only [Vec3.add_z, Vec3.smul_z] using (hb _ hu).1
    · refine ⟨(|yc c| + (|c.dy1| + |c.dy2|) + |p.y|) / |d.y|, fun u hu => bounded_coordinate p.y d.y _ u h2 ?_⟩
      simpa only [Vec3.add_y, Vec3.smul_y] using (hb _ hu).2.1
  · refine ⟨(|xc c| + (|c.dy1 * Real.tan c.alpha1| + |c.dy2 * Real.tan c.alpha2|) + (c.dx1 + c.dx2 + c.dx3 + c.dx4) + |p.x|) / |d.x|,
      fun u hu => bounded_coordinate p.x d.x _ u h1 ?_⟩
    simpa only [Vec3.add_x, Vec3.smul_x] using (hb _ hu).2.2

theorem planes_clear (c : Trp) (d : Vec3 ℝ) (h : NotNearlyParallel c d) :
    ∀ f ∈ planes c, Vec3.dot f.1 d = 0 ∨ precision ≤ |Vec3.dot f.1 d| := by
  obtain ⟨h0, h1, h2, h3, h4, h5⟩ := h
  simp only [planes, List.map_cons, List.map_nil, List.mem_cons, List.not_mem_nil, or_false, forall_eq_or_imp, forall_eq]
  exact ⟨outward_clear _ _ _ _ _ h0, outward_clear _ _ _ _ _ h1, outward_clear _ _ _ _ _ h2, outward_clear _ _ _ _ _ h3,
    outward_clear _ _ _ _ _ h4, outward_clear _ _ _ _ _ h5⟩

/-- What is reported about the solid between the six planes, if it is bounded along the line. -/
theorem compute_planes (c : Trp) (p d : Vec3 ℝ) (hn : NotNearlyParallel c d)
    (M : ℝ) (hM : ∀ t, (∀ f ∈ planes c, at' f (p + Vec3.smul t d) ≤ 0) → |t| ≤ M) :
    (compute c p d = some [] ∧ ∀ t u, (∀ f ∈ planes c, at' f (p + Vec3.smul t d) ≤ 0) →
      (∀ f ∈ planes c, at' f (p + Vec3.smul u d) ≤ 0) → t = u) ∨
    ∃ a b : ℝ, a < b ∧ (∀ t, (∀ f ∈ planes c, at' f (p + Vec3.smul t d) ≤ 0) ↔ a ≤ t ∧ t ≤ b) ∧
      compute c p d = some [⟨a, 0, true, p + Vec3.smul a d⟩, ⟨b, 0, false, p + Vec3.smul b d⟩] := by
  have hs := clipAll_spec p d (planes c) (planes_clear c d hn) ⟨none, none⟩
  have htriv : ∀ t, AABB.TRange.Has (⟨none, none⟩ : AABB.TRange ℝ) t := by simp [AABB.TRange.Has]
  unfold compute
  cases hcl : clipAll p d (planes c) ⟨none, none⟩ with
  | none =>
    rw [hcl] at hs
    left
    exact ⟨rfl, fun t _ ht _ => absurd ht (hs t)⟩
  | some r =>
    rw [hcl] at hs
    simp only [htriv, true_and] at hs
    have hbd : ∀ t, r.Has t → |t| ≤ M := fun t ht => hM t ((hs t).1 ht)
    obtain ⟨lo, hi⟩ := r
    cases lo with
    | none =>
      exfalso
      have h1 : AABB.TRange.Has (⟨none, hi⟩ : AABB.TRange ℝ) (min (-(|M| + 1)) (hi.getD 0)) := by
        cases hi <;> simp [AABB.TRange.Has]
      have h2 := hbd _ h1
      have h3 : min (-(|M| + 1)) (hi.getD 0) ≤ -(|M| + 1) := min_le_left _ _
      rw [abs_le] at h2
      linarith [le_abs_self M]
    | some a =>
      cases hi with
      | none =>
        exfalso
        have h1 : AABB.TRange.Has (⟨some a, none⟩ : AABB.TRange ℝ) (max (|M| + 1) a) := by simp [AABB.TRange.Has]
        have h2 := hbd _ h1
        have h3 : |M| + 1 ≤ max (|M| + 1) a := le_max_left _ _
        rw [abs_le] at h2
        linarith [le_abs_self M]
      | some b =>
        have hab : ∀ t, AABB.TRange.Has (⟨some a, some b⟩ : AABB.TRange ℝ) t ↔ a ≤ t ∧ t ≤ b := by
          intro t; simp [AABB.TRange.Has]
        simp only [hab] at hs
        simp only
        by_cases hge : a ≥ b
        · left
          rw [if_pos hge]
          refine ⟨rfl, fun t u ht hu => ?_⟩
          have h1 := (hs t).2 ht
          have h2 := (hs u).2 hu
          linarith [h1.1, h1.2, h2.1, h2.2]
        · right
          rw [if_neg hge]
          exact ⟨a, b, not_le.1 hge, fun t => (hs t).symm, rfl⟩

/-- C98: for every trapezoid with positive half widths and flat sides, start and non-zero direction that is not nearly
parallel to a face, either nothing is reported, and the line meets the trapezoid in one point at most, or an entry and an exit
whose distances delimit exactly the parameters inside; the positions belong to the distances. -/
theorem C98_exact_partial (c : Trp) (hz : 0 < c.dz) (hs : Solid c) (hf : Flat c) (p d : Vec3 ℝ) (hd : d ≠ 0)
    (hn : NotNearlyParallel c d) :
    (compute c p d = some [] ∧ ∀ t u, Mem c (p + Vec3.smul t d) → Mem c (p + Vec3.smul u d) → t = u) ∨
    ∃ a b : ℝ, a < b ∧ (∀ t, Mem c (p + Vec3.smul t d) ↔ a ≤ t ∧ t ≤ b) ∧
      compute c p d = some [⟨a, 0, true, p + Vec3.smul a d⟩, ⟨b, 0, false, p + Vec3.smul b d⟩] := by
  have e : ∀ t, (∀ f ∈ planes c, at' f (p + Vec3.smul t d) ≤ 0) ↔ Mem c (p + Vec3.smul t d) := fun t =>
    (planes_iff c hz hs hf _).trans (mem_iff c hz hs hf _).symm
  obtain ⟨M, hM⟩ := bounded c hs p d hd
  have := compute_planes c p d hn M fun t ht => hM t ((e t).1 ht)
  simp only [e] at this
  exact this

/-- C98: the crossings describe the trapezoid along the line. -/
theorem C98_describes_partial (c : Trp) (hz : 0 < c.dz) (hs : Solid c) (hf : Flat c) (p d : Vec3 ℝ) (hd : d ≠ 0)
    (hn : NotNearlyParallel c d) (hits : List Isect) (h : compute c p d = some hits)
    (htouch : ∀ t, Mem c (p + Vec3.smul t d) → ∃ u, u ≠ t ∧ Mem c (p + Vec3.smul u d)) :
    Describes precision (fun t => Mem c (p + Vec3.smul t d)) hits := by
  rcases C98_exact_partial c hz hs hf p d hd hn with ⟨h1, h2⟩ | ⟨a, b, hab, h2, h1⟩
  · rw [h1, Option.some.injEq] at h; subst h
    refine describes_nil _ _ fun t ht => ?_
    obtain ⟨u, hu, hm⟩ := htouch t ht
    exact hu (h2 u t hm ht)
  · rw [h1, Option.some.injEq] at h; subst h
    refine describes_pair _ _ _ _ rfl rfl hab ?_
    intro t ta tb
    simp only at ta tb ⊢
    rw [h2]
    refine ⟨fun h => ⟨lt_of_le_of_ne h.1 ?_, h.2⟩, fun h => ⟨h.1.le, h.2⟩⟩
    rintro rfl
    rw [sub_self, abs_zero] at ta
    exact absurd ta (not_le.2 precision_pos)

theorem lerp_le (m a b s : ℝ) (s0 : 0 ≤ s) (s1 : s ≤ 1) (ha : m ≤ a) (hb : m ≤ b) : m ≤ (1 - s) * a + s * b := by
  nlinarith

theorem le_lerp (m a b s : ℝ) (s0 : 0 ≤ s) (s1 : s ≤ 1) (ha : a ≤ m) (hb : b ≤ m) : (1 - s) * a + s * b ≤ m := by
  nlinarith

/-- Points between the corners. -/
theorem mem_corners (c : Trp) (v : Vec3 ℝ) (h : Mem c v) :
    ∃ s r u : ℝ, 0 ≤ s ∧ s ≤ 1 ∧ 0 ≤ r ∧ r ≤ 1 ∧ 0 ≤ u ∧ u ≤ 1 ∧ ∀ g : Vec3 ℝ → ℝ, g = Vec3.x ∨ g = Vec3.y ∨ g = Vec3.z →
      g v = (1 - s) * ((1 - r) * ((1 - u) * g (v0 c) + u * g (v1 c)) + r * ((1 - u) * g (v3 c) + u * g (v2 c))) +
        s * ((1 - r) * ((1 - u) * g (v4 c) + u * g (v5 c)) + r * ((1 - u) * g (v7 c) + u * g (v6 c))) := by
  obtain ⟨s, r, w, s0, s1, r0, r1, hw, ez, ey, ex⟩ := h
  obtain ⟨W, hW⟩ : ∃ W, W = (1 - s) * ((1 - r) * c.dx1 + r * c.dx2) + s * ((1 - r) * c.dx3 + r * c.dx4) := ⟨_, rfl⟩
  rw [← hW] at hw
  obtain ⟨u, u0, u1, hu⟩ : ∃ u, 0 ≤ u ∧ u ≤ 1 ∧ w = (2 * u - 1) * W := by
    rcases lt_or_eq_of_le (le_trans (abs_nonneg _) hw) with h | h
    · rw [abs_le] at hw
      refine ⟨(w / W + 1) / 2, ?_, ?_, by field_simp; ring⟩
      · have : -1 ≤ w / W := by rw [le_div_iff₀ h]; linarith [hw.1]
        linarith
      · have : w / W ≤ 1 := by rw [div_le_one h]; exact hw.2
        linarith
    · refine ⟨0, le_rfl, by norm_num, ?_⟩
      rw [← h] at hw ⊢
      rw [abs_nonpos_iff.1 hw]; ring
  refine ⟨s, r, u, s0, s1, r0, r1, u0, u1, ?_⟩
  rintro g (rfl | rfl | rfl)
  · rw [ex, hu, hW]; simp only [v0, v1, v2, v3, v4, v5, v6, v7, xc]; ring
  · rw [ey]; simp only [v0, v1, v2, v3, v4, v5, v6, v7, yc]; ring
  · rw [ez]; simp only [v0, v1, v2, v3, v4, v5, v6, v7]; ring

theorem corner_mem (c : Trp) (h1 : 0 ≤ c.dx1) (h2 : 0 ≤ c.dx2) (h3 : 0 ≤ c.dx3) (h4 : 0 ≤ c.dx4) :
    ∀ v ∈ [v0 c, v1 c, v2 c, v3 c, v4 c, v5 c, v6 c, v7 c], Mem c v := by
  have a : ∀ x : ℝ, 0 ≤ x → |x| ≤ x ∧ |-x| ≤ x := fun x hx => ⟨(abs_of_nonneg hx).le, by rw [abs_neg]; exact (abs_of_nonneg hx).le⟩
  simp only [List.mem_cons, List.not_mem_nil, or_false, forall_eq_or_imp, forall_eq]
  refine ⟨⟨0, 0, -c.dx1, ?_⟩, ⟨0, 0, c.dx1, ?_⟩, ⟨0, 1, c.dx2, ?_⟩, ⟨0, 1, -c.dx2, ?_⟩, ⟨1, 0, -c.dx3, ?_⟩, ⟨1, 0, c.dx3, ?_⟩,
    ⟨1, 1, c.dx4, ?_⟩, ⟨1, 1, -c.dx4, ?_⟩⟩ <;>
    refine ⟨by norm_num, by norm_num, by norm_num, by norm_num, ?_, ?_, ?_, ?_⟩ <;>
    simp only [v0, v1, v2, v3, v4, v5, v6, v7, xc, yc, sub_zero, sub_self, zero_mul, one_mul, mul_zero, mul_one, zero_add, add_zero] <;>
    first | exact (a _ ‹_›).1 | exact (a _ ‹_›).2 | ring

/-- C98: for every trapezoid, the bounding box is the smallest box that contains it. -/
theorem C98_bounding_box (dz theta phi dy1 dx1 dx2 alpha1 dy2 dx3 dx4 alpha2 : ℝ) (c : Trp)
    (hc : make dz theta phi dy1 dx1 dx2 alpha1 dy2 dx3 dx4 alpha2 = some c) (big : ℝ)
    (hbig : ∀ v, Mem c v → |v.x| ≤ big ∧ |v.y| ≤ big ∧ |v.z| ≤ big) :
    (∀ v, Mem c v → AABB.Mem v (boundingBox big c)) ∧
    (∀ b : AABB ℝ, (∀ v, Mem c v → AABB.Mem v b) → AABB.Sub (boundingBox big c) b) := by
  unfold make at hc
  split at hc
  · simp at hc
  split at hc
  · simp at hc
  next hx =>
  split at hc
  · simp at hc
  simp only [not_or, not_lt, Option.some.injEq] at hx hc
  subst hc
  obtain ⟨x1, x2, x3, x4⟩ := hx
  obtain ⟨c, hc⟩ : ∃ c : Trp, c = ⟨dz, theta, phi, dy1, dx1, dx2, alpha1, dy2, dx3, dx4, alpha2⟩ := ⟨_, rfl⟩
  have hcm := corner_mem c (by rw [hc]; exact x1) (by rw [hc]; exact x2) (by rw [hc]; exact x3) (by rw [hc]; exact x4)
  have hmc := mem_corners c
  rw [← hc] at hbig ⊢
  obtain ⟨f1, f2, f3⟩ := Para.foldl_expand [v0 c, v1 c, v2 c, v3 c, v4 c, v5 c, v6 c, v7 c] (AABB.empty big)
  refine ⟨fun v hm => ?_, fun b hb => ?_⟩
  · obtain ⟨s, r, u, s0, s1, r0, r1, u0, u1, hg⟩ := hmc v hm
    simp only [List.mem_cons, List.not_mem_nil, or_false, forall_eq_or_imp, forall_eq] at f2
    obtain ⟨c0, c1, c2, c3, c4, c5, c6, c7⟩ := f2
    have low : ∀ (g : Vec3 ℝ → ℝ) (m : ℝ), (g = Vec3.x ∨ g = Vec3.y ∨ g = Vec3.z) → m ≤ g (v0 c) → m ≤ g (v1 c) → m ≤ g (v2 c) → m ≤ g (v3 c) →
        m ≤ g (v4 c) → m ≤ g (v5 c) → m ≤ g (v6 c) → m ≤ g (v7 c) → m ≤ g v := by
      intro g m h k0 k1 k2 k3 k4 k5 k6 k7
      rw [hg g h]
      exact lerp_le _ _ _ _ s0 s1 (lerp_le _ _ _ _ r0 r1 (lerp_le _ _ _ _ u0 u1 k0 k1) (lerp_le _ _ _ _ u0 u1 k3 k2))
        (lerp_le _ _ _ _ r0 r1 (lerp_le _ _ _ _ u0 u1 k4 k5) (lerp_le _ _ _ _ u0 u1 k7 k6))
    have high : ∀ (g : Vec3 ℝ → ℝ) (m : ℝ), (g = Vec3.x ∨ g = Vec3.y ∨ g = Vec3.z) → g (v0 c) ≤ m → g (v1 c) ≤ m → g (v2 c) ≤ m → g (v3 c) ≤ m →
        g (v4 c) ≤ m → g (v5 c) ≤ m → g (v6 c) ≤ m → g (v7 c) ≤ m → g v ≤ m := by
      intro g m h k0 k1 k2 k3 k4 k5 k6 k7
      rw [hg g h]
      exact le_lerp _ _ _ _ s0 s1 (le_lerp _ _ _ _ r0 r1 (le_lerp _ _ _ _ u0 u1 k0 k1) (le_lerp _ _ _ _ u0 u1 k3 k2))
        (le_lerp _ _ _ _ r0 r1 (le_lerp _ _ _ _ u0 u1 k4 k5) (le_lerp _ _ _ _ u0 u1 k7 k6))
    exact ⟨⟨low Vec3.x _ (Or.inl rfl) c0.1.1 c1.1.1 c2.1.1 c3.1.1 c4.1.1 c5.1.1 c6.1.1 c7.1.1,
        high Vec3.x _ (Or.inl rfl) c0.1.2 c1.1.2 c2.1.2 c3.1.2 c4.1.2 c5.1.2 c6.1.2 c7.1.2⟩,
      ⟨low Vec3.y _ (Or.inr (Or.inl rfl)) c0.2.1.1 c1.2.1.1 c2.2.1.1 c3.2.1.1 c4.2.1.1 c5.2.1.1 c6.2.1.1 c7.2.1.1,
        high Vec3.y _ (Or.inr (Or.inl rfl)) c0.2.1.2 c1.2.1.2 c2.2.1.2 c3.2.1.2 c4.2.1.2 c5.2.1.2 c6.2.1.2 c7.2.1.2⟩,
      ⟨low Vec3.z _ (Or.inr (Or.inr rfl)) c0.2.2.1 c1.2.2.1 c2.2.2.1 c3.2.2.1 c4.2.2.1 c5.2.2.1 c6.2.2.1 c7.2.2.1,
        high Vec3.z _ (Or.inr (Or.inr rfl)) c0.2.2.2 c1.2.2.2 c2.2.2.2 c3.2.2.2 c4.2.2.2 c5.2.2.2 c6.2.2.2 c7.2.2.2⟩⟩
  · refine f3 b ?_ fun v hv => hb v (hcm v hv)
    have g1 := hb _ (hcm (v0 c) (by simp))
    have g2 := hbig _ (hcm (v0 c) (by simp))
    simp only [abs_le] at g2
    simp only [AABB.Mem, AABB.Sub, AABB.empty] at g1 ⊢
    refine ⟨?_, ?_, ?_⟩ <;> constructor <;> linarith [g1.1.1, g1.1.2, g1.2.1.1, g1.2.1.2, g1.2.2.1, g1.2.2.2, g2.1.1, g2.1.2, g2.2.1.1, g2.2.1.2, g2.2.2.1, g2.2.2.2]

/-! ### Examples and disagreements -/

theorem clear_of (a b e d : Vec3 ℝ) (h : Vec3.dot (Vec3.cross (b - a) (e - a)) (Vec3.cross (b - a) (e - a)) ≤
    (1000000000 * Vec3.dot (Vec3.cross (b - a) (e - a)) d) ^ 2) : Clear a b e d := by
  right
  have h1 : Vec3.norm (Vec3.cross (b - a) (e - a)) ≤ |1000000000 * Vec3.dot (Vec3.cross (b - a) (e - a)) d| := by
    rw [← Real.sqrt_sq_eq_abs]; exact Real.sqrt_le_sqrt h
  rw [abs_mul, abs_of_pos (by norm_num : (0 : ℝ) < 1000000000)] at h1
  unfold precision
  linarith

theorem outward_flat (a b e v : Vec3 ℝ) (h : Vec3.cross (b - a) (e - a) = 0) : at' (outward 0 (plane a b e)) v = 0 := by
  have hp : plane a b e = (0, 0) := by
    unfold plane
    simp only [h, Vec3.zero_x, Vec3.zero_y, Vec3.zero_z, mul_zero, add_zero, Real.sqrt_zero, gt_iff_lt, lt_irrefl, if_false, zero_mul, neg_zero]
  rw [hp]
  unfold outward
  simp [at', Vec3.dot]

/-- A trapezoid with slanted sides. -/
noncomputable def slanted : Trp := ⟨1, 0, 0, 1, 1, 2, 0, 1, 1, 2, 0⟩

/-- The hypotheses of C98 are met by a trapezoid with slanted sides, and the crossings are where they should be. -/
example : Solid slanted ∧ Flat slanted ∧ NotNearlyParallel slanted ⟨0, 1, 0⟩ ∧ ∃ h1 h2 : Isect,
    compute slanted ⟨0, -5, 0⟩ ⟨0, 1, 0⟩ = some [h1, h2] ∧ h1.distance = 4 ∧ h2.distance = 6 := by
  have hs : Solid slanted := by norm_num [Solid, slanted]
  have hf : Flat slanted := by norm_num [Flat, slanted]
  have hn : NotNearlyParallel slanted ⟨0, 1, 0⟩ := by
    refine ⟨Or.inl ?_, Or.inl ?_, clear_of _ _ _ _ ?_, clear_of _ _ _ _ ?_, clear_of _ _ _ _ ?_, clear_of _ _ _ _ ?_⟩ <;>
      norm_num [slanted, v0, v1, v2, v3, v5, v6, v7, xc, yc, Vec3.dot, Vec3.cross]
  refine ⟨hs, hf, hn, ?_⟩
  have hm : ∀ t : ℝ, Mem slanted ((⟨0, -5, 0⟩ : Vec3 ℝ) + Vec3.smul t ⟨0, 1, 0⟩) ↔ 4 ≤ t ∧ t ≤ 6 := by
    intro t
    rw [mem_iff slanted (by norm_num [slanted]) hs hf]
    simp only [Ineqs, slanted, eta, depth, width, xi, Vec3.add_x, Vec3.add_y, Vec3.add_z, Vec3.smul_x, Vec3.smul_y, Vec3.smul_z, Real.tan_zero]
    constructor
    · rintro ⟨_, ⟨h1, h2⟩, _⟩; constructor <;> linarith
    · rintro ⟨h1, h2⟩; refine ⟨⟨?_, ?_⟩, ⟨?_, ?_⟩, ⟨?_, ?_⟩⟩ <;> linarith
  rcases C98_exact_partial slanted (by norm_num [slanted]) hs hf ⟨0, -5, 0⟩ ⟨0, 1, 0⟩ (by intro h; have := congrArg Vec3.y h; simp at this)
    hn with ⟨_, h⟩ | ⟨a, b, hab, h2, h1⟩
  · exact absurd (h 4 5 ((hm 4).2 (by norm_num)) ((hm 5).2 (by norm_num))) (by norm_num)
  · have ha : a = 4 := le_antisymm ((h2 4).1 ((hm 4).2 (by norm_num))).1 ((hm a).1 ((h2 a).2 ⟨le_rfl, hab.le⟩)).1
    have hb : b = 6 := le_antisymm ((hm b).1 ((h2 b).2 ⟨hab.le, le_rfl⟩)).2 ((h2 6).1 ((hm 6).2 (by norm_num))).2
    exact ⟨_, _, h1, ha, hb⟩

/-- C98 fails where a half width is zero, which the constructor accepts: a prism over triangles, with the half width `dx1` of
one edge zero. The plane of its bottom is computed from three corners of which two coincide and is lost, and a ray that
crosses the bottom reports an entry at minus infinity. -/
theorem C98_thin_fails : ∃ c, make 1 0 0 1 0 1 0 1 0 1 0 = some c ∧ Flat c ∧ NotNearlyParallel c ⟨0, 0, 1⟩ ∧
    (∀ t : ℝ, Mem c ((⟨0, 1 / 2, 0⟩ : Vec3 ℝ) + Vec3.smul t ⟨0, 0, 1⟩) ↔ -1 ≤ t ∧ t ≤ 1) ∧
    compute c ⟨0, 1 / 2, 0⟩ ⟨0, 0, 1⟩ = none := by
  obtain ⟨c, hc⟩ : ∃ c : Trp, c = ⟨1, 0, 0, 1, 0, 1, 0, 1, 0, 1, 0⟩ := ⟨_, rfl⟩
  have hn : NotNearlyParallel c ⟨0, 0, 1⟩ := by
    rw [hc]
    refine ⟨Or.inl ?_, clear_of _ _ _ _ ?_, Or.inl ?_, Or.inl ?_, Or.inl ?_, Or.inl ?_⟩ <;>
      norm_num [v0, v1, v2, v3, v5, v6, v7, xc, yc, Vec3.dot, Vec3.cross]
  refine ⟨c, ?_, ?_, hn, ?_, ?_⟩
  · unfold make; rw [if_neg (by norm_num), if_neg (by norm_num), if_neg (by norm_num), hc]
  · rw [hc]; norm_num [Flat]
  · intro t
    rw [hc]
    constructor
    · rintro ⟨s, r, w, s0, s1, r0, r1, hw, ez, ey, ex⟩
      simp only [Vec3.add_z, Vec3.smul_z] at ez
      constructor <;> linarith
    · rintro ⟨h1, h2⟩
      refine ⟨(t + 1) / 2, 3 / 4, 0, by linarith, by linarith, by norm_num, by norm_num, ?_, ?_, ?_, ?_⟩
      · rw [abs_zero]
        nlinarith
      · simp only [Vec3.add_z, Vec3.smul_z]; ring
      · simp only [Vec3.add_y, Vec3.smul_y, Real.sin_zero]; ring
      · simp only [Vec3.add_x, Vec3.smul_x, Real.tan_zero]; ring
  · have hs := clipAll_spec ⟨0, 1 / 2, 0⟩ ⟨0, 0, 1⟩ (planes c) (planes_clear c _ hn) ⟨none, none⟩
    have hP : ∀ t : ℝ, t ≤ 1 → ∀ f ∈ planes c, at' f ((⟨0, 1 / 2, 0⟩ : Vec3 ℝ) + Vec3.smul t ⟨0, 0, 1⟩) ≤ 0 := by
      intro t ht
      simp only [planes, centroid_zero, List.map_cons, List.map_nil, List.mem_cons, List.not_mem_nil, or_false, forall_eq_or_imp, forall_eq]
      refine ⟨(outward_flat _ _ _ _ ?_).le, ?_, (outward_flat _ _ _ _ ?_).le, ?_, ?_, ?_⟩
      · rw [hc]; ext <;> norm_num [v0, v1, v2, xc, yc, Vec3.cross]
      · rw [outward_iff _ _ _ _ (by rw [hc]; norm_num [v5, v6, v7, xc, yc, Vec3.cross, Vec3.dot]), hc]
        norm_num [v5, v6, v7, xc, yc, Vec3.cross, Vec3.dot]; linarith
      · rw [hc]; ext <;> norm_num [v0, v1, v5, xc, yc, Vec3.cross]
      · rw [outward_iff _ _ _ _ (by rw [hc]; norm_num [v2, v3, v6, xc, yc, Vec3.cross, Vec3.dot]), hc]
        norm_num [v2, v3, v6, xc, yc, Vec3.cross, Vec3.dot]
      · rw [outward_iff _ _ _ _ (by rw [hc]; norm_num [v0, v3, v7, xc, yc, Vec3.cross, Vec3.dot]), hc]
        norm_num [v0, v3, v7, xc, yc, Vec3.cross, Vec3.dot]
      · rw [outward_iff _ _ _ _ (by rw [hc]; norm_num [v1, v2, v6, xc, yc, Vec3.cross, Vec3.dot]), hc]
        norm_num [v1, v2, v6, xc, yc, Vec3.cross, Vec3.dot]
    unfold compute
    cases hcl : clipAll ⟨0, 1 / 2, 0⟩ ⟨0, 0, 1⟩ (planes c) ⟨none, none⟩ with
    | none =>
      rw [hcl] at hs
      exact absurd (hP 0 (by norm_num)) (hs 0)
    | some r =>
      rw [hcl] at hs
      obtain ⟨lo, hi⟩ := r
      cases lo with
      | none => cases hi <;> rfl
      | some a =>
        have h1 := (hs (min (a - 1) 1)).2 ⟨by simp [AABB.TRange.Has], hP _ (min_le_right _ _)⟩
        have h2 : a ≤ min (a - 1) 1 := h1.1 a rfl
        have h3 := min_le_left (a - 1) (1 : ℝ)
        exact absurd (le_trans h2 h3) (by linarith)

/-- C98 fails where the sides are not flat, which the constructor does not check: the side through three of its corners
misses the fourth, and points outside the solid with the given corners are reported inside. -/
theorem C98_twisted_fails : ∃ c, make 1 0 0 1 1 1 0 1 1 3 0 = some c ∧ Solid c ∧ NotNearlyParallel c ⟨1, 0, 0⟩ ∧ ∃ a b : ℝ,
    compute c ⟨0, -1 / 2, 1 / 2⟩ ⟨1, 0, 0⟩ = some [⟨a, 0, true, (⟨0, -1 / 2, 1 / 2⟩ : Vec3 ℝ) + Vec3.smul a ⟨1, 0, 0⟩⟩,
      ⟨b, 0, false, (⟨0, -1 / 2, 1 / 2⟩ : Vec3 ℝ) + Vec3.smul b ⟨1, 0, 0⟩⟩] ∧ a = -5 / 2 ∧ b = 5 / 2 ∧
    ∀ t : ℝ, Mem c ((⟨0, -1 / 2, 1 / 2⟩ : Vec3 ℝ) + Vec3.smul t ⟨1, 0, 0⟩) → |t| ≤ 11 / 8 := by
  obtain ⟨c, hc⟩ : ∃ c : Trp, c = ⟨1, 0, 0, 1, 1, 1, 0, 1, 1, 3, 0⟩ := ⟨_, rfl⟩
  have hn : NotNearlyParallel c ⟨1, 0, 0⟩ := by
    rw [hc]
    refine ⟨Or.inl ?_, Or.inl ?_, Or.inl ?_, Or.inl ?_, clear_of _ _ _ _ ?_, clear_of _ _ _ _ ?_⟩ <;>
      norm_num [v0, v1, v2, v3, v5, v6, v7, xc, yc, Vec3.dot, Vec3.cross]
  have hP : ∀ t : ℝ, (∀ f ∈ planes c, at' f ((⟨0, -1 / 2, 1 / 2⟩ : Vec3 ℝ) + Vec3.smul t ⟨1, 0, 0⟩) ≤ 0) ↔ -5 / 2 ≤ t ∧ t ≤ 5 / 2 := by
    intro t
    have g0 : at' (outward 0 (plane (v0 c) (v1 c) (v2 c))) ((⟨0, -1 / 2, 1 / 2⟩ : Vec3 ℝ) + Vec3.smul t ⟨1, 0, 0⟩) ≤ 0 := by
      rw [outward_iff _ _ _ _ (by rw [hc]; norm_num [v0, v1, v2, xc, yc, Vec3.cross, Vec3.dot]), hc]
      norm_num [v0, v1, v2, xc, yc, Vec3.cross, Vec3.dot]
    have g1 : at' (outward 0 (plane (v7 c) (v6 c) (v5 c))) ((⟨0, -1 / 2, 1 / 2⟩ : Vec3 ℝ) + Vec3.smul t ⟨1, 0, 0⟩) ≤ 0 := by
      rw [outward_iff _ _ _ _ (by rw [hc]; norm_num [v5, v6, v7, xc, yc, Vec3.cross, Vec3.dot]), hc]
      norm_num [v5, v6, v7, xc, yc, Vec3.cross, Vec3.dot]
    have g2 : at' (outward 0 (plane (v0 c) (v1 c) (v5 c))) ((⟨0, -1 / 2, 1 / 2⟩ : Vec3 ℝ) + Vec3.smul t ⟨1, 0, 0⟩) ≤ 0 := by
      rw [outward_iff _ _ _ _ (by rw [hc]; norm_num [v0, v1, v5, xc, yc, Vec3.cross, Vec3.dot]), hc]
      norm_num [v0, v1, v5, xc, yc, Vec3.cross, Vec3.dot]
    have g3 : at' (outward 0 (plane (v3 c) (v2 c) (v6 c))) ((⟨0, -1 / 2, 1 / 2⟩ : Vec3 ℝ) + Vec3.smul t ⟨1, 0, 0⟩) ≤ 0 := by
      rw [outward_iff _ _ _ _ (by rw [hc]; norm_num [v2, v3, v6, xc, yc, Vec3.cross, Vec3.dot]), hc]
      norm_num [v2, v3, v6, xc, yc, Vec3.cross, Vec3.dot]
    have g4 : at' (outward 0 (plane (v0 c) (v3 c) (v7 c))) ((⟨0, -1 / 2, 1 / 2⟩ : Vec3 ℝ) + Vec3.smul t ⟨1, 0, 0⟩) ≤ 0 ↔ -5 / 2 ≤ t := by
      rw [outward_iff _ _ _ _ (by rw [hc]; norm_num [v0, v3, v7, xc, yc, Vec3.cross, Vec3.dot]), hc]
      norm_num [v0, v3, v7, xc, yc, Vec3.cross, Vec3.dot]
      constructor <;> intro h <;> linarith
    have g5 : at' (outward 0 (plane (v1 c) (v2 c) (v6 c))) ((⟨0, -1 / 2, 1 / 2⟩ : Vec3 ℝ) + Vec3.smul t ⟨1, 0, 0⟩) ≤ 0 ↔ t ≤ 5 / 2 := by
      rw [outward_iff _ _ _ _ (by rw [hc]; norm_num [v1, v2, v6, xc, yc, Vec3.cross, Vec3.dot]), hc]
      norm_num [v1, v2, v6, xc, yc, Vec3.cross, Vec3.dot]
      constructor <;> intro h <;> linarith
    simp only [planes, centroid_zero, List.map_cons, List.map_nil, List.mem_cons, List.not_mem_nil, or_false, forall_eq_or_imp, forall_eq]
    rw [g4, g5]; simp only [g0, g1, g2, g3, true_and]
  refine ⟨c, ?_, ?_, hn, ?_⟩
  · unfold make; rw [if_neg (by norm_num), if_neg (by norm_num), if_neg (by norm_num), hc]
  · rw [hc]; norm_num [Solid]
  · rcases compute_planes c ⟨0, -1 / 2, 1 / 2⟩ ⟨1, 0, 0⟩ hn (5 / 2) (fun t ht => by
      rw [hP] at ht; rw [abs_le]; constructor <;> linarith [ht.1, ht.2]) with ⟨_, h⟩ | ⟨a, b, hab, h2, h1⟩
    · exact absurd (h 0 1 ((hP 0).2 (by norm_num)) ((hP 1).2 (by norm_num))) (by norm_num)
    · simp only [hP] at h2
      refine ⟨a, b, h1, ?_, ?_, ?_⟩
      · exact le_antisymm ((h2 (-5 / 2)).1 (by norm_num)).1 ((h2 a).2 ⟨le_rfl, hab.le⟩).1
      · exact le_antisymm ((h2 b).2 ⟨hab.le, le_rfl⟩).2 ((h2 (5 / 2)).1 (by norm_num)).2
      · rw [hc]
        rintro t ⟨s, r, w, s0, s1, r0, r1, hw, ez, ey, ex⟩
        simp only [Vec3.add_x, Vec3.add_y, Vec3.add_z, Vec3.smul_x, Vec3.smul_y, Vec3.smul_z, Real.tan_zero, Real.sin_zero, Real.cos_zero] at ez ey ex hw
        have hs : s = 3 / 4 := by linarith
        have hr : r = 1 / 4 := by rw [hs] at ey; linarith
        have hwt : t = w := by linarith
        rw [hs, hr] at hw
        rw [hwt]
        norm_num at hw; exact hw

end Siren.Geometry.Trap
