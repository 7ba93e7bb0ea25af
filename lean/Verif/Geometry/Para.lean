import Verif.Geometry.Box
import Mathlib.Analysis.SpecialFunctions.Trigonometric.Arctan

set_option autoImplicit false

/-!
# C97: parallelepipeds

Models `geometry/private/Para.cxx`. Real `tan`, `sin`, `cos` and square root instead of those of `<cmath>`.
-/

namespace Siren.Geometry.Para

open Siren Siren.Geometry

/-! ### Model -/

/-- The members of `Para` that are set by its user (geometry/public/SIREN/geometry/Para.h). -/
structure Par where
  dx : ℝ
  dy : ℝ
  dz : ℝ
  alpha : ℝ
  theta : ℝ
  phi : ℝ

/-- The constructor (geometry/private/Para.cxx:73-78); `none` is `std::invalid_argument`. -/
noncomputable def make (dx dy dz alpha theta phi : ℝ) : Option Par :=
  if dx ≤ 0 ∨ dy ≤ 0 ∨ dz ≤ 0 then none else some ⟨dx, dy, dz, alpha, theta, phi⟩

/-- The first edge vector (geometry/private/Para.cxx:31). -/
def e1 (c : Par) : Vec3 ℝ := ⟨c.dx, 0, 0⟩

/-- The second edge vector (geometry/private/Para.cxx:26, 32). -/
noncomputable def e2 (c : Par) : Vec3 ℝ := ⟨c.dy * Real.tan c.alpha, c.dy, 0⟩

/-- The third edge vector (geometry/private/Para.cxx:27-29, 33). -/
noncomputable def e3 (c : Par) : Vec3 ℝ :=
  ⟨c.dz * Real.tan c.theta * Real.cos c.phi, c.dz * Real.tan c.theta * Real.sin c.phi, c.dz⟩

/-- The cross product of two edges, normalised if it is not zero (geometry/private/Para.cxx:37-41, 44-48, 51-55). -/
noncomputable def faceNormal (a b : Vec3 ℝ) : Vec3 ℝ :=
  let nx := a.y * b.z - a.z * b.y
  let ny := a.z * b.x - a.x * b.z
  let nz := a.x * b.y - a.y * b.x
  let mag := Real.sqrt (nx * nx + ny * ny + nz * nz)
  if mag > 0 then ⟨nx / mag, ny / mag, nz / mag⟩ else ⟨nx, ny, nz⟩

/-- `face_normals_` and `face_dists_` as set by `ComputeFaceData` (geometry/private/Para.cxx:21-65). -/
noncomputable def faces (c : Par) : List (Vec3 ℝ × ℝ) :=
  let n1 := faceNormal (e2 c) (e3 c)
  let n2 := faceNormal (e3 c) (e1 c)
  let n3 := faceNormal (e1 c) (e2 c)
  [(n1, |n1.x * (e1 c).x + n1.y * (e1 c).y + n1.z * (e1 c).z|),
   (n2, |n2.x * (e2 c).x + n2.y * (e2 c).y + n2.z * (e2 c).z|),
   (n3, |n3.x * (e3 c).x + n3.y * (e3 c).y + n3.z * (e3 c).z|)]

/-- The body of the loop over the faces (geometry/private/Para.cxx:141-165); the result `none` is `return {}`. -/
noncomputable def clip (p d : Vec3 ℝ) (r : AABB.TRange ℝ) (f : Vec3 ℝ × ℝ) : Option (AABB.TRange ℝ) :=
  let n := f.1
  let fd := f.2
  let ndotd := n.x * d.x + n.y * d.y + n.z * d.z
  let ndoto := n.x * p.x + n.y * p.y + n.z * p.z
  if |ndotd| < precision then
    if |ndoto| > fd then none else some r
  else
    let t1 := (-fd - ndoto) / ndotd
    let t2 := (fd - ndoto) / ndotd
    let lo := if ndotd < 0 then t2 else t1
    let hi := if ndotd < 0 then t1 else t2
    let r' : AABB.TRange ℝ := ⟨AABB.fmaxO r.tmin lo, AABB.fminO r.tmax hi⟩
    if r'.nonempty then some r' else none

/-- The loop (geometry/private/Para.cxx:141-165). -/
noncomputable def clipAll (p d : Vec3 ℝ) : List (Vec3 ℝ × ℝ) → AABB.TRange ℝ → Option (AABB.TRange ℝ)
  | [], r => some r
  | f :: fs, r =>
    match clip p d r f with
    | none => none
    | some r' => clipAll p d fs r'

/-- `Para::ComputeIntersections` (geometry/private/Para.cxx:127-182). The result `none` stands for infinite distances. -/
noncomputable def compute (c : Par) (p d : Vec3 ℝ) : Option (List Isect) :=
  match clipAll p d (faces c) ⟨none, none⟩ with
  | none => some []
  | some ⟨some enter, some exit⟩ =>
    let enter := snap enter
    let exit := snap exit
    some [⟨enter, 0, true, ⟨p.x + enter * d.x, p.y + enter * d.y, p.z + enter * d.z⟩⟩,
      ⟨exit, 0, false, ⟨p.x + exit * d.x, p.y + exit * d.y, p.z + exit * d.z⟩⟩]
  | some _ => none

/-- The vertices visited by `GetBoundingBox` (geometry/private/Para.cxx:197-203). -/
noncomputable def vertices (c : Par) : List (Vec3 ℝ) :=
  ([-1, 1] : List ℝ).flatMap fun s1 => ([-1, 1] : List ℝ).flatMap fun s2 => ([-1, 1] : List ℝ).map fun s3 =>
    ⟨s1 * (e1 c).x + s2 * (e2 c).x + s3 * (e3 c).x, s1 * (e1 c).y + s2 * (e2 c).y + s3 * (e3 c).y,
      s1 * (e1 c).z + s2 * (e2 c).z + s3 * (e3 c).z⟩

/-- `Para::GetBoundingBox` (geometry/private/Para.cxx:185-208); `big` is the largest number. -/
noncomputable def boundingBox (big : ℝ) (c : Par) : AABB ℝ := (vertices c).foldl AABB.expand (AABB.empty big)

/-! ### Specification -/

/-- The parallelepiped: everything reached from the centre by at most one half edge forwards or backwards along each of the
three edge directions: `x`; `y` leaning by the angle `alpha`; and `z` leaning by `theta` towards the azimuth `phi`. -/
def Mem (c : Par) (v : Vec3 ℝ) : Prop :=
  ∃ a b h : ℝ, |a| ≤ c.dx ∧ |b| ≤ c.dy ∧ |h| ≤ c.dz ∧
    v.z = h ∧ v.y = b + h * Real.tan c.theta * Real.sin c.phi ∧
    v.x = a + b * Real.tan c.alpha + h * Real.tan c.theta * Real.cos c.phi

/-- The direction is parallel to a face or at an angle with it that exceeds the tolerance. -/
def NotNearlyParallel (c : Par) (d : Vec3 ℝ) : Prop :=
  ∀ n : Vec3 ℝ, (n = Vec3.normalize (Vec3.cross (e2 c) (e3 c)) ∨ n = Vec3.normalize (Vec3.cross (e3 c) (e1 c)) ∨
    n = Vec3.normalize (Vec3.cross (e1 c) (e2 c))) → Vec3.dot n d = 0 ∨ precision ≤ |Vec3.dot n d|

/-! ### Proofs -/

theorem faceNormal_eq (a b : Vec3 ℝ) (h : Vec3.dot (Vec3.cross a b) (Vec3.cross a b) ≠ 0) :
    faceNormal a b = Vec3.normalize (Vec3.cross a b) := by
  have h0 : 0 < Vec3.dot (Vec3.cross a b) (Vec3.cross a b) := by
    refine lt_of_le_of_ne ?_ (Ne.symm h)
    exact add_nonneg (add_nonneg (mul_self_nonneg _) (mul_self_nonneg _)) (mul_self_nonneg _)
  have hs : Real.sqrt ((a.y * b.z - a.z * b.y) * (a.y * b.z - a.z * b.y) + (a.z * b.x - a.x * b.z) * (a.z * b.x - a.x * b.z) +
      (a.x * b.y - a.y * b.x) * (a.x * b.y - a.y * b.x)) = Vec3.norm (Vec3.cross a b) := rfl
  unfold faceNormal
  simp only [hs]
  rw [if_pos (show Vec3.norm (Vec3.cross a b) > 0 from Real.sqrt_pos.2 h0)]
  rfl

/-- One face pair keeps exactly the parameters between its planes. -/
theorem clip_spec (p d : Vec3 ℝ) (n : Vec3 ℝ) (fd : ℝ) (r : AABB.TRange ℝ)
    (hn : Vec3.dot n d = 0 ∨ precision ≤ |Vec3.dot n d|) :
    match clip p d r (n, fd) with
    | none => ∀ t, ¬ (r.Has t ∧ |Vec3.dot n p + t * Vec3.dot n d| ≤ fd)
    | some r' => (∀ t, r'.Has t ↔ r.Has t ∧ |Vec3.dot n p + t * Vec3.dot n d| ≤ fd) ∧
        ((Vec3.dot n d ≠ 0 ∨ (r.tmin.isSome ∧ r.tmax.isSome)) → r'.tmin.isSome ∧ r'.tmax.isSome) ∧
        ((∃ t, r.Has t) → ∃ t, r'.Has t) := by
  have hpr := precision_pos
  unfold clip
  simp only
  rw [show n.x * d.x + n.y * d.y + n.z * d.z = Vec3.dot n d from rfl,
    show n.x * p.x + n.y * p.y + n.z * p.z = Vec3.dot n p from rfl]
  obtain ⟨b, hb⟩ : ∃ z, z = Vec3.dot n d := ⟨_, rfl⟩
  obtain ⟨a, ha⟩ : ∃ z, z = Vec3.dot n p := ⟨_, rfl⟩
  rw [← hb] at hn
  rw [← hb, ← ha]
  by_cases h : |b| < precision
  · have hb0 : b = 0 := hn.resolve_right (not_le.2 h)
    rw [if_pos h]
    by_cases h2 : |a| > fd
    · rw [if_pos h2]
      simp only
      rintro t ⟨_, h3⟩
      rw [hb0, mul_zero, add_zero] at h3
      linarith
    · rw [if_neg h2]
      simp only
      refine ⟨fun t => ?_, ?_, fun h => h⟩
      · rw [hb0, mul_zero, add_zero]
        simp [not_lt.1 h2]
      · rintro (h3 | h3)
        · exact absurd hb0 h3
        · exact h3
  · rw [if_neg h]
    have hb0 : b ≠ 0 := by
      rintro rfl; rw [abs_zero] at h; exact h hpr
    have hmem : ∀ t, AABB.TRange.Has ⟨AABB.fmaxO r.tmin (if b < 0 then (fd - a) / b else (-fd - a) / b),
        AABB.fminO r.tmax (if b < 0 then (-fd - a) / b else (fd - a) / b)⟩ t ↔ r.Has t ∧ |a + t * b| ≤ fd := by
      intro t
      rw [AABB.has_clip, abs_le]
      rcases lt_or_gt_of_ne hb0 with hs | hs
      · simp only [if_pos hs]
        rw [div_le_iff_of_neg hs, le_div_iff_of_neg hs]
        constructor
        · rintro ⟨h1, h2, h3⟩; exact ⟨h1, by linarith, by linarith⟩
        · rintro ⟨h1, h2, h3⟩; exact ⟨h1, by linarith, by linarith⟩
      · simp only [if_neg (not_lt.2 hs.le)]
        rw [div_le_iff₀ hs, le_div_iff₀ hs]
        constructor
        · rintro ⟨h1, h2, h3⟩; exact ⟨h1, by linarith, by linarith⟩
        · rintro ⟨h1, h2, h3⟩; exact ⟨h1, by linarith, by linarith⟩
    by_cases hne : AABB.TRange.nonempty ⟨AABB.fmaxO r.tmin (if b < 0 then (fd - a) / b else (-fd - a) / b),
        AABB.fminO r.tmax (if b < 0 then (-fd - a) / b else (fd - a) / b)⟩ = true
    · rw [if_pos hne]
      refine ⟨hmem, fun _ => ⟨?_, ?_⟩, fun _ => (AABB.nonempty_iff _).1 hne⟩
      · simp only; cases r.tmin <;> rfl
      · simp only; cases r.tmax <;> rfl
    · rw [if_neg hne]
      intro t ht
      exact hne ((AABB.nonempty_iff _).2 ⟨t, (hmem t).2 ht⟩)

theorem clipAll_spec (p d : Vec3 ℝ) (fs : List (Vec3 ℝ × ℝ)) (hn : ∀ f ∈ fs, Vec3.dot f.1 d = 0 ∨ precision ≤ |Vec3.dot f.1 d|) :
    ∀ r : AABB.TRange ℝ, (∃ t, r.Has t) →
    match clipAll p d fs r with
    | none => ∀ t, ¬ (r.Has t ∧ ∀ f ∈ fs, |Vec3.dot f.1 p + t * Vec3.dot f.1 d| ≤ f.2)
    | some r' => (∀ t, r'.Has t ↔ r.Has t ∧ ∀ f ∈ fs, |Vec3.dot f.1 p + t * Vec3.dot f.1 d| ≤ f.2) ∧
        ((r.tmin.isSome ∧ r.tmax.isSome ∨ ∃ f ∈ fs, Vec3.dot f.1 d ≠ 0) → r'.tmin.isSome ∧ r'.tmax.isSome) ∧
        (∃ t, r'.Has t) := by
  induction fs with
  | nil =>
    intro r hr
    simp only [clipAll, List.not_mem_nil, false_implies, implies_true, and_true, false_and, exists_false, or_false]
    exact ⟨trivial, fun h => h, hr⟩
  | cons f fs ih =>
    intro r hr
    have h1 := clip_spec p d f.1 f.2 r (hn f (by simp))
    simp only [clipAll]
    rw [show (f.1, f.2) = f from rfl] at h1
    cases hc : clip p d r f with
    | none =>
      rw [hc] at h1
      simp only at h1 ⊢
      rintro t ⟨g1, g2⟩
      exact h1 t ⟨g1, g2 f (by simp)⟩
    | some r' =>
      rw [hc] at h1
      simp only at h1 ⊢
      obtain ⟨k1, k2, k3⟩ := h1
      have h2 := ih (fun f hf => hn f (by simp [hf])) r' (k3 hr)
      cases hA : clipAll p d fs r' with
      | none =>
        rw [hA] at h2
        simp only at h2 ⊢
        rintro t ⟨g1, g2⟩
        exact h2 t ⟨(k1 t).2 ⟨g1, g2 f (by simp)⟩, fun f hf => g2 f (by simp [hf])⟩
      | some r'' =>
        rw [hA] at h2
        simp only at h2 ⊢
        obtain ⟨m1, m2, m3⟩ := h2
        refine ⟨fun t => ?_, ?_, m3⟩
        · rw [m1, k1]
          simp only [List.mem_cons, forall_eq_or_imp, and_assoc]
        · rintro (g | ⟨f', hf', g⟩)
          · exact m2 (Or.inl (k2 (Or.inr g)))
          · rcases List.mem_cons.1 hf' with rfl | hf'
            · exact m2 (Or.inl (k2 (Or.inl g)))
            · exact m2 (Or.inr ⟨f', hf', g⟩)

/-- The slab of a normalised cross product, in terms of the cross product itself. -/
theorem slab_iff (m e v : Vec3 ℝ) (h : Vec3.dot m m ≠ 0) :
    |Vec3.dot (Vec3.normalize m) v| ≤ |Vec3.dot (Vec3.normalize m) e| ↔ |Vec3.dot m v| ≤ |Vec3.dot m e| := by
  have h0 : 0 < Vec3.norm m := by
    apply Real.sqrt_pos.2
    refine lt_of_le_of_ne ?_ (Ne.symm h)
    exact add_nonneg (add_nonneg (mul_self_nonneg _) (mul_self_nonneg _)) (mul_self_nonneg _)
  have e : ∀ w, Vec3.dot (Vec3.normalize m) w = Vec3.dot m w / Vec3.norm m := by
    intro w; simp only [Vec3.dot, Vec3.normalize]; ring
  rw [e, e, abs_div, abs_div, div_le_div_iff_of_pos_right (abs_pos.2 h0.ne')]

theorem dot_line (n p d : Vec3 ℝ) (t : ℝ) : Vec3.dot n (p + Vec3.smul t d) = Vec3.dot n p + t * Vec3.dot n d := by
  simp only [Vec3.dot, Vec3.add_x, Vec3.add_y, Vec3.add_z, Vec3.smul_x, Vec3.smul_y, Vec3.smul_z]; ring

theorem cross_ne (c : Par) (hx : 0 < c.dx) (hy : 0 < c.dy) (hz : 0 < c.dz) :
    Vec3.dot (Vec3.cross (e2 c) (e3 c)) (Vec3.cross (e2 c) (e3 c)) ≠ 0 ∧
    Vec3.dot (Vec3.cross (e3 c) (e1 c)) (Vec3.cross (e3 c) (e1 c)) ≠ 0 ∧
    Vec3.dot (Vec3.cross (e1 c) (e2 c)) (Vec3.cross (e1 c) (e2 c)) ≠ 0 := by
  refine ⟨ne_of_gt ?_, ne_of_gt ?_, ne_of_gt ?_⟩
  · have : 0 < c.dy * c.dz := mul_pos hy hz
    simp only [Vec3.dot, Vec3.cross, e2, e3]
    nlinarith [mul_pos this this, mul_self_nonneg (0 * (c.dz * Real.tan c.theta * Real.cos c.phi) - c.dy * Real.tan c.alpha * c.dz),
      mul_self_nonneg (c.dy * Real.tan c.alpha * (c.dz * Real.tan c.theta * Real.sin c.phi) - c.dy * (c.dz * Real.tan c.theta * Real.cos c.phi))]
  · have : 0 < c.dz * c.dx := mul_pos hz hx
    simp only [Vec3.dot, Vec3.cross, e1, e3]
    nlinarith [mul_pos this this, mul_self_nonneg (c.dz * Real.tan c.theta * Real.cos c.phi * 0 - c.dz * Real.tan c.theta * Real.sin c.phi * c.dx)]
  · have : 0 < c.dx * c.dy := mul_pos hx hy
    simp only [Vec3.dot, Vec3.cross, e1, e2]
    nlinarith [mul_pos this this]

/-- The three slabs together are the parallelepiped. -/
theorem faces_iff (c : Par) (hx : 0 < c.dx) (hy : 0 < c.dy) (hz : 0 < c.dz) (v : Vec3 ℝ) :
    (∀ f ∈ faces c, |Vec3.dot f.1 v| ≤ f.2) ↔ Mem c v := by
  obtain ⟨h1, h2, h3⟩ := cross_ne c hx hy hz
  have key : (∀ f ∈ faces c, |Vec3.dot f.1 v| ≤ f.2) ↔
      |Vec3.dot (Vec3.cross (e2 c) (e3 c)) v| ≤ |Vec3.dot (Vec3.cross (e2 c) (e3 c)) (e1 c)| ∧
      |Vec3.dot (Vec3.cross (e3 c) (e1 c)) v| ≤ |Vec3.dot (Vec3.cross (e3 c) (e1 c)) (e2 c)| ∧
      |Vec3.dot (Vec3.cross (e1 c) (e2 c)) v| ≤ |Vec3.dot (Vec3.cross (e1 c) (e2 c)) (e3 c)| := by
    rw [← slab_iff _ _ _ h1, ← slab_iff _ _ _ h2, ← slab_iff _ _ _ h3, ← faceNormal_eq _ _ h1, ← faceNormal_eq _ _ h2,
      ← faceNormal_eq _ _ h3]
    simp only [faces, List.mem_cons, List.not_mem_nil, or_false, forall_eq_or_imp, forall_eq]
    rfl
  rw [key]
  -- coordinates of the point along the edges
  obtain ⟨T, hT⟩ : ∃ z, z = Real.tan c.alpha := ⟨_, rfl⟩
  obtain ⟨C, hC⟩ : ∃ z, z = Real.tan c.theta * Real.cos c.phi := ⟨_, rfl⟩
  obtain ⟨S, hS⟩ : ∃ z, z = Real.tan c.theta * Real.sin c.phi := ⟨_, rfl⟩
  have q3 : Vec3.dot (Vec3.cross (e1 c) (e2 c)) v = c.dx * c.dy * v.z := by
    simp only [Vec3.dot, Vec3.cross, e1, e2]; ring
  have q2 : Vec3.dot (Vec3.cross (e3 c) (e1 c)) v = c.dx * c.dz * (v.y - v.z * S) := by
    rw [hS]; simp only [Vec3.dot, Vec3.cross, e1, e3]; ring
  have q1 : Vec3.dot (Vec3.cross (e2 c) (e3 c)) v = c.dy * c.dz * (v.x - (v.y - v.z * S) * T - v.z * C) := by
    rw [hS, hC, hT]; simp only [Vec3.dot, Vec3.cross, e2, e3]; ring
  have v3 : |Vec3.dot (Vec3.cross (e1 c) (e2 c)) (e3 c)| = c.dx * c.dy * c.dz := by
    rw [← abs_of_pos (mul_pos (mul_pos hx hy) hz)]; congr 1
    simp only [Vec3.dot, Vec3.cross, e1, e2, e3]; ring
  have v2 : |Vec3.dot (Vec3.cross (e3 c) (e1 c)) (e2 c)| = c.dx * c.dz * c.dy := by
    rw [← abs_of_pos (mul_pos (mul_pos hx hz) hy)]; congr 1
    simp only [Vec3.dot, Vec3.cross, e1, e2, e3]; ring
  have v1 : |Vec3.dot (Vec3.cross (e2 c) (e3 c)) (e1 c)| = c.dy * c.dz * c.dx := by
    rw [← abs_of_pos (mul_pos (mul_pos hy hz) hx)]; congr 1
    simp only [Vec3.dot, Vec3.cross, e1, e2, e3]; ring
  rw [q1, q2, q3, v1, v2, v3, abs_mul, abs_mul (c.dx * c.dz), abs_mul (c.dx * c.dy), abs_of_pos (mul_pos hx hy),
    abs_of_pos (mul_pos hx hz), abs_of_pos (mul_pos hy hz), mul_le_mul_iff_right₀ (mul_pos hx hy),
    mul_le_mul_iff_right₀ (mul_pos hx hz), mul_le_mul_iff_right₀ (mul_pos hy hz)]
  constructor
  · rintro ⟨k1, k2, k3⟩
    refine ⟨_, _, _, k1, k2, k3, rfl, ?_, ?_⟩
    · rw [hS]; ring
    · rw [hT, hC]; ring
  · rintro ⟨a, b, h, k1, k2, k3, g1, g2, g3⟩
    have w2 : v.y - v.z * S = b := by rw [g1, g2, hS]; ring
    have w1 : v.x - (v.y - v.z * S) * T - v.z * C = a := by rw [w2, g1, g3, hT, hC]; ring
    rw [w1, w2, g1]
    exact ⟨k1, k2, k3⟩

/-- A direction parallel to all the faces is zero. -/
theorem some_face (c : Par) (hx : 0 < c.dx) (hy : 0 < c.dy) (hz : 0 < c.dz) (d : Vec3 ℝ) (hd : d ≠ 0) :
    ∃ f ∈ faces c, Vec3.dot f.1 d ≠ 0 := by
  by_contra hc
  push Not at hc
  have hfar : ∀ t : ℝ, Mem c (Vec3.smul t d) := by
    intro t
    rw [← faces_iff c hx hy hz]
    intro f hf
    have e : Vec3.dot f.1 (Vec3.smul t d) = t * Vec3.dot f.1 d := by
      simp only [Vec3.dot, Vec3.smul_x, Vec3.smul_y, Vec3.smul_z]; ring
    rw [e, hc f hf, mul_zero, abs_zero]
    simp only [faces, List.mem_cons, List.not_mem_nil, or_false] at hf
    rcases hf with rfl | rfl | rfl <;> exact abs_nonneg _
  have small : ∀ x M : ℝ, (∀ t : ℝ, |t * x| ≤ M) → x = 0 := by
    intro x M h
    by_contra hx
    have := h ((M + 1) / x)
    rw [div_mul_cancel₀ _ hx] at this
    linarith [le_abs_self (M + 1)]
  have z0 : d.z = 0 := small d.z c.dz fun t => by
    obtain ⟨a, b, h, _, _, k3, g1, _, _⟩ := hfar t
    simp only [Vec3.smul_z] at g1
    rw [g1]; exact k3
  have y0 : d.y = 0 := small d.y c.dy fun t => by
    obtain ⟨a, b, h, _, k2, _, g1, g2, _⟩ := hfar t
    simp only [Vec3.smul_z, Vec3.smul_y, z0, mul_zero] at g1 g2
    rw [g2, ← g1]; simpa using k2
  have x0 : d.x = 0 := small d.x c.dx fun t => by
    obtain ⟨a, b, h, k1, _, _, g1, g2, g3⟩ := hfar t
    simp only [Vec3.smul_z, Vec3.smul_y, Vec3.smul_x, z0, y0, mul_zero] at g1 g2 g3
    have hb : b = 0 := by rw [← g1] at g2; linarith
    rw [g3, ← g1, hb]; simpa using k1
  exact hd (Vec3.ext x0 y0 z0)

theorem clear_faces (c : Par) (hx : 0 < c.dx) (hy : 0 < c.dy) (hz : 0 < c.dz) (d : Vec3 ℝ) (h : NotNearlyParallel c d) :
    ∀ f ∈ faces c, Vec3.dot f.1 d = 0 ∨ precision ≤ |Vec3.dot f.1 d| := by
  obtain ⟨h1, h2, h3⟩ := cross_ne c hx hy hz
  intro f hf
  apply h
  simp only [faces, List.mem_cons, List.not_mem_nil, or_false] at hf
  rw [← faceNormal_eq _ _ h1, ← faceNormal_eq _ _ h2, ← faceNormal_eq _ _ h3]
  rcases hf with rfl | rfl | rfl <;> simp

/-- C97: for every parallelepiped, start and non-zero direction that is not nearly parallel to a face, either nothing is
reported, and the line misses the parallelepiped, or an entry and an exit whose exact distances delimit exactly the
parameters inside. Distances in `(0, 1e-9)` are reported as 0, and the positions belong to the reported distances. -/
theorem C97_exact (dx dy dz alpha theta phi : ℝ) (c : Par) (hc : make dx dy dz alpha theta phi = some c) (p d : Vec3 ℝ)
    (hd : d ≠ 0) (hn : NotNearlyParallel c d) :
    (compute c p d = some [] ∧ ∀ t, ¬ Mem c (p + Vec3.smul t d)) ∨
    ∃ a b : ℝ, a ≤ b ∧ (∀ t, Mem c (p + Vec3.smul t d) ↔ a ≤ t ∧ t ≤ b) ∧
      compute c p d = some [⟨snap a, 0, true, p + Vec3.smul (snap a) d⟩, ⟨snap b, 0, false, p + Vec3.smul (snap b) d⟩] := by
  unfold make at hc
  split at hc
  · simp at hc
  next hpos =>
  simp only [not_or, not_le, Option.some.injEq] at hpos hc
  have hx : 0 < c.dx := by rw [← hc]; exact hpos.1
  have hy : 0 < c.dy := by rw [← hc]; exact hpos.2.1
  have hz : 0 < c.dz := by rw [← hc]; exact hpos.2.2
  have hs := clipAll_spec p d (faces c) (clear_faces c hx hy hz d hn) ⟨none, none⟩ ⟨0, by simp [AABB.TRange.Has]⟩
  have hall : ∀ t, (∀ f ∈ faces c, |Vec3.dot f.1 p + t * Vec3.dot f.1 d| ≤ f.2) ↔ Mem c (p + Vec3.smul t d) := by
    intro t
    rw [← faces_iff c hx hy hz]
    simp only [dot_line]
  have htriv : ∀ t, AABB.TRange.Has (⟨none, none⟩ : AABB.TRange ℝ) t := by simp [AABB.TRange.Has]
  unfold compute
  cases hcl : clipAll p d (faces c) ⟨none, none⟩ with
  | none =>
    rw [hcl] at hs
    left
    exact ⟨rfl, fun t ht => hs t ⟨htriv t, (hall t).2 ht⟩⟩
  | some r =>
    rw [hcl] at hs
    obtain ⟨k1, k2, k3⟩ := hs
    have hb := k2 (Or.inr (some_face c hx hy hz d hd))
    obtain ⟨lo, hi⟩ := r
    obtain ⟨a, rfl⟩ := Option.isSome_iff_exists.1 hb.1
    obtain ⟨b, rfl⟩ := Option.isSome_iff_exists.1 hb.2
    have hab : ∀ t, AABB.TRange.Has (⟨some a, some b⟩ : AABB.TRange ℝ) t ↔ a ≤ t ∧ t ≤ b := by
      intro t; simp [AABB.TRange.Has]
    right
    refine ⟨a, b, ?_, fun t => ?_, rfl⟩
    · obtain ⟨t, ht⟩ := k3
      rw [hab] at ht; linarith [ht.1, ht.2]
    · rw [← hab, k1, hall]; simp [htriv]

/-- C97: where the reported entry and exit differ, the crossings describe the parallelepiped along the line. -/
theorem C97_describes (dx dy dz alpha theta phi : ℝ) (c : Par) (hc : make dx dy dz alpha theta phi = some c) (p d : Vec3 ℝ)
    (hd : d ≠ 0) (hn : NotNearlyParallel c d) (hits : List Isect) (h : compute c p d = some hits)
    (hdiff : ∀ a b, hits = [a, b] → a.distance ≠ b.distance) :
    Describes precision (fun t => Mem c (p + Vec3.smul t d)) hits := by
  rcases C97_exact dx dy dz alpha theta phi c hc p d hd hn with ⟨h1, h2⟩ | ⟨a, b, hab, h2, h1⟩
  · rw [h1, Option.some.injEq] at h; subst h
    exact describes_nil _ _ h2
  · rw [h1, Option.some.injEq] at h; subst h
    refine describes_pair _ _ _ _ rfl rfl ?_ ?_
    · exact lt_of_le_of_ne (snap_mono hab) (hdiff _ _ rfl)
    · intro t ta tb
      simp only at ta tb ⊢
      rw [h2, snap_side a t ta, snap_side_le b t tb]
      exact ⟨fun h => ⟨lt_of_le_of_ne h.1 (snap_ne a t ta), h.2⟩, fun h => ⟨h.1.le, h.2⟩⟩

theorem foldl_expand (l : List (Vec3 ℝ)) : ∀ b : AABB ℝ, AABB.Sub b (l.foldl AABB.expand b) ∧
    (∀ v ∈ l, AABB.Mem v (l.foldl AABB.expand b)) ∧
    (∀ b' : AABB ℝ, AABB.Sub b b' → (∀ v ∈ l, AABB.Mem v b') → AABB.Sub (l.foldl AABB.expand b) b') := by
  induction l with
  | nil => intro b; exact ⟨AABB.Sub.refl b, by simp, fun b' h _ => h⟩
  | cons a l ih =>
    intro b
    obtain ⟨h1, h2, h3⟩ := ih (b.expand a)
    refine ⟨(AABB.sub_expand b a).trans h1, ?_, ?_⟩
    · intro v hv
      rcases List.mem_cons.1 hv with rfl | hv
      · exact h1.mem (AABB.mem_expand b v)
      · exact h2 v hv
    · intro b' hb' hm
      refine h3 b' ?_ fun v hv => hm v (by simp [hv])
      have ha := hm a (by simp)
      simp only [AABB.Sub, AABB.Mem, AABB.expand, le_min_iff, max_le_iff] at hb' ha ⊢
      tauto

/-- A sum of three terms with factors in `[-1, 1]` is at least the least of the eight sums with factors at the ends. -/
theorem lin8 (A B C m s1 s2 s3 : ℝ) (h1 : |s1| ≤ 1) (h2 : |s2| ≤ 1) (h3 : |s3| ≤ 1)
    (h : ∀ s ∈ ([-1, 1] : List ℝ), ∀ s' ∈ ([-1, 1] : List ℝ), ∀ s'' ∈ ([-1, 1] : List ℝ), m ≤ s * A + s' * B + s'' * C) :
    m ≤ s1 * A + s2 * B + s3 * C := by
  have k : ∀ s A : ℝ, |s| ≤ 1 → -|A| ≤ s * A := by
    intro s A hs
    have := neg_abs_le (s * A)
    rw [abs_mul] at this
    nlinarith [abs_nonneg A]
  have hm : m ≤ -|A| + -|B| + -|C| := by
    simp only [List.mem_cons, List.not_mem_nil, or_false, forall_eq_or_imp, forall_eq] at h
    rcases abs_cases A with ⟨e1, _⟩ | ⟨e1, _⟩ <;> rcases abs_cases B with ⟨e2, _⟩ | ⟨e2, _⟩ <;>
      rcases abs_cases C with ⟨e3, _⟩ | ⟨e3, _⟩ <;> rw [e1, e2, e3] <;> linarith [h.1.1.1, h.1.1.2, h.1.2.1, h.1.2.2, h.2.1.1, h.2.1.2, h.2.2.1, h.2.2.2]
  linarith [k s1 A h1, k s2 B h2, k s3 C h3]

theorem lin8' (A B C m s1 s2 s3 : ℝ) (h1 : |s1| ≤ 1) (h2 : |s2| ≤ 1) (h3 : |s3| ≤ 1)
    (h : ∀ s ∈ ([-1, 1] : List ℝ), ∀ s' ∈ ([-1, 1] : List ℝ), ∀ s'' ∈ ([-1, 1] : List ℝ), s * A + s' * B + s'' * C ≤ m) :
    s1 * A + s2 * B + s3 * C ≤ m := by
  have := lin8 (-A) (-B) (-C) (-m) s1 s2 s3 h1 h2 h3 fun s hs s' hs' s'' hs'' => by linarith [h s hs s' hs' s'' hs'']
  linarith

theorem mem_vertices (c : Par) (v : Vec3 ℝ) : v ∈ vertices c ↔ ∃ s ∈ ([-1, 1] : List ℝ), ∃ s' ∈ ([-1, 1] : List ℝ),
    ∃ s'' ∈ ([-1, 1] : List ℝ), (⟨s * (e1 c).x + s' * (e2 c).x + s'' * (e3 c).x, s * (e1 c).y + s' * (e2 c).y + s'' * (e3 c).y,
      s * (e1 c).z + s' * (e2 c).z + s'' * (e3 c).z⟩ : Vec3 ℝ) = v := by
  simp only [vertices, List.mem_flatMap, List.mem_map]

/-- Points of the parallelepiped in terms of the edge vectors. -/
theorem mem_edges (c : Par) (hx : 0 < c.dx) (hy : 0 < c.dy) (hz : 0 < c.dz) (v : Vec3 ℝ) : Mem c v ↔ ∃ s s' s'' : ℝ,
    |s| ≤ 1 ∧ |s'| ≤ 1 ∧ |s''| ≤ 1 ∧
    v = ⟨s * (e1 c).x + s' * (e2 c).x + s'' * (e3 c).x, s * (e1 c).y + s' * (e2 c).y + s'' * (e3 c).y,
      s * (e1 c).z + s' * (e2 c).z + s'' * (e3 c).z⟩ := by
  have div1 : ∀ a m : ℝ, 0 < m → |a| ≤ m → |a / m| ≤ 1 := by
    intro a m hm ha
    rw [abs_div, abs_of_pos hm, div_le_one hm]; exact ha
  have mul1 : ∀ s m : ℝ, 0 < m → |s| ≤ 1 → |s * m| ≤ m := by
    intro s m hm hs
    rw [abs_mul, abs_of_pos hm]; nlinarith
  constructor
  · rintro ⟨a, b, h, k1, k2, k3, g1, g2, g3⟩
    refine ⟨a / c.dx, b / c.dy, h / c.dz, div1 _ _ hx k1, div1 _ _ hy k2, div1 _ _ hz k3, ?_⟩
    ext
    · simp only [e1, e2, e3]; rw [g3]; field_simp
    · simp only [e1, e2, e3]; rw [g2]; field_simp; ring
    · simp only [e1, e2, e3]; rw [g1]; field_simp; ring
  · rintro ⟨s, s', s'', k1, k2, k3, rfl⟩
    refine ⟨s * c.dx, s' * c.dy, s'' * c.dz, mul1 _ _ hx k1, mul1 _ _ hy k2, mul1 _ _ hz k3, ?_, ?_, ?_⟩
    · simp only [e1, e2, e3]; ring
    · simp only [e1, e2, e3]; ring
    · simp only [e1, e2, e3]; ring

/-- C97: the bounding box contains every point of the parallelepiped and every side of it is reached. -/
theorem C97_bounding_box (dx dy dz alpha theta phi : ℝ) (c : Par) (hc : make dx dy dz alpha theta phi = some c) (big : ℝ)
    (hbig : ∀ v, Mem c v → |v.x| ≤ big ∧ |v.y| ≤ big ∧ |v.z| ≤ big) :
    (∀ v, Mem c v → AABB.Mem v (boundingBox big c)) ∧
    (∀ b : AABB ℝ, (∀ v, Mem c v → AABB.Mem v b) → AABB.Sub (boundingBox big c) b) := by
  unfold make at hc
  split at hc
  · simp at hc
  next hpos =>
  simp only [not_or, not_le, Option.some.injEq] at hpos hc
  have hx : 0 < c.dx := by rw [← hc]; exact hpos.1
  have hy : 0 < c.dy := by rw [← hc]; exact hpos.2.1
  have hz : 0 < c.dz := by rw [← hc]; exact hpos.2.2
  obtain ⟨f1, f2, f3⟩ := foldl_expand (vertices c) (AABB.empty big)
  have hv : ∀ v ∈ vertices c, Mem c v := by
    intro v hv
    rw [mem_vertices] at hv
    obtain ⟨s, hs, s', hs', s'', hs'', rfl⟩ := hv
    rw [mem_edges c hx hy hz]
    have one : ∀ s ∈ ([-1, 1] : List ℝ), |s| ≤ 1 := by
      intro s hs
      simp only [List.mem_cons, List.not_mem_nil, or_false] at hs
      rcases hs with rfl | rfl <;> norm_num
    exact ⟨s, s', s'', one s hs, one s' hs', one s'' hs'', rfl⟩
  refine ⟨fun v hm => ?_, fun b hb => ?_⟩
  · rw [mem_edges c hx hy hz] at hm
    obtain ⟨s, s', s'', k1, k2, k3, rfl⟩ := hm
    have hin : ∀ s ∈ ([-1, 1] : List ℝ), ∀ s' ∈ ([-1, 1] : List ℝ), ∀ s'' ∈ ([-1, 1] : List ℝ), AABB.Mem
        (⟨s * (e1 c).x + s' * (e2 c).x + s'' * (e3 c).x, s * (e1 c).y + s' * (e2 c).y + s'' * (e3 c).y,
          s * (e1 c).z + s' * (e2 c).z + s'' * (e3 c).z⟩ : Vec3 ℝ) (boundingBox big c) := fun s hs s' hs' s'' hs'' =>
      f2 _ ((mem_vertices c _).2 ⟨s, hs, s', hs', s'', hs'', rfl⟩)
    refine ⟨?_, ?_, ?_⟩
    · exact ⟨lin8 _ _ _ _ _ _ _ k1 k2 k3 fun s hs s' hs' s'' hs'' => (hin s hs s' hs' s'' hs'').1.1,
        lin8' _ _ _ _ _ _ _ k1 k2 k3 fun s hs s' hs' s'' hs'' => (hin s hs s' hs' s'' hs'').1.2⟩
    · exact ⟨lin8 _ _ _ _ _ _ _ k1 k2 k3 fun s hs s' hs' s'' hs'' => (hin s hs s' hs' s'' hs'').2.1.1,
        lin8' _ _ _ _ _ _ _ k1 k2 k3 fun s hs s' hs' s'' hs'' => (hin s hs s' hs' s'' hs'').2.1.2⟩
    · exact ⟨lin8 _ _ _ _ _ _ _ k1 k2 k3 fun s hs s' hs' s'' hs'' => (hin s hs s' hs' s'' hs'').2.2.1,
        lin8' _ _ _ _ _ _ _ k1 k2 k3 fun s hs s' hs' s'' hs'' => (hin s hs s' hs' s'' hs'').2.2.2⟩
  · refine f3 b ?_ fun v hv' => hb v (hv v hv')
    have h0 : Mem c ⟨0, 0, 0⟩ := ⟨0, 0, 0, by simp [hx.le], by simp [hy.le], by simp [hz.le], by simp, by simp, by simp⟩
    have g1 := hb _ h0
    have g2 := hbig _ h0
    simp only [AABB.Mem, AABB.Sub, AABB.empty, abs_zero] at g1 g2 ⊢
    refine ⟨?_, ?_, ?_⟩ <;> constructor <;> linarith [g1.1.1, g1.1.2, g1.2.1.1, g1.2.1.2, g1.2.2.1, g1.2.2.2, g2.1]

/-- A skewed parallelepiped crossed along its long axis: hypotheses met, and two crossings reported. -/
example : ∃ c, make 1 2 3 (Real.arctan 1) 0 0 = some c ∧ NotNearlyParallel c ⟨1, 0, 0⟩ ∧
    ∃ h1 h2 : Isect, compute c ⟨-5, 0, 0⟩ ⟨1, 0, 0⟩ = some [h1, h2] ∧ h1.distance = 4 ∧ h2.distance = 6 := by
  have hc : make 1 2 3 (Real.arctan 1) 0 0 = some ⟨1, 2, 3, Real.arctan 1, 0, 0⟩ := by
    unfold make; rw [if_neg (by norm_num)]
  have ht : Real.tan (Real.arctan 1) = 1 := Real.tan_arctan 1
  have hn : NotNearlyParallel ⟨1, 2, 3, Real.arctan 1, 0, 0⟩ ⟨1, 0, 0⟩ := by
    rintro n (rfl | rfl | rfl)
    · right
      simp only [e2, e3, Vec3.cross, Vec3.normalize, Vec3.norm, Vec3.dot, ht, Real.tan_zero]
      norm_num
      have h72 : Real.sqrt 72 ≤ 9 := by rw [Real.sqrt_le_left (by norm_num)]; norm_num
      have h0 : 0 < Real.sqrt 72 := Real.sqrt_pos.2 (by norm_num)
      rw [abs_of_pos (div_pos (by norm_num) h0), le_div_iff₀ h0]
      unfold precision
      linarith
    · left; simp [e1, e3, Vec3.cross, Vec3.normalize, Vec3.dot]
    · left; simp [e1, e2, Vec3.cross, Vec3.normalize, Vec3.dot]
  refine ⟨_, hc, hn, ?_⟩
  have hm : ∀ t : ℝ, Mem ⟨1, 2, 3, Real.arctan 1, 0, 0⟩ ((⟨-5, 0, 0⟩ : Vec3 ℝ) + Vec3.smul t ⟨1, 0, 0⟩) ↔ 4 ≤ t ∧ t ≤ 6 := by
    intro t
    constructor
    · rintro ⟨a, b, h, k1, k2, k3, g1, g2, g3⟩
      simp only [Vec3.add_x, Vec3.add_y, Vec3.add_z, Vec3.smul_x, Vec3.smul_y, Vec3.smul_z, ht, Real.tan_zero] at g1 g2 g3
      rw [abs_le] at k1
      have hb : b = 0 := by linarith
      rw [hb] at g3
      constructor <;> linarith [k1.1, k1.2]
    · rintro ⟨h1, h2⟩
      refine ⟨t - 5, 0, 0, by rw [abs_le]; constructor <;> simp only <;> linarith, by norm_num, by norm_num, ?_, ?_, ?_⟩
      · simp
      · simp
      · simp; ring
  rcases C97_exact _ _ _ _ _ _ _ hc ⟨-5, 0, 0⟩ ⟨1, 0, 0⟩ (by intro h; have := congrArg Vec3.x h; simp at this) hn with
    ⟨_, h⟩ | ⟨a, b, hab, h2, h1⟩
  · exact absurd ((hm 5).2 (by norm_num)) (h 5)
  · have ha : a = 4 := le_antisymm ((h2 4).1 ((hm 4).2 (by norm_num))).1 ((hm a).1 ((h2 a).2 ⟨le_rfl, hab⟩)).1
    have hb : b = 6 := le_antisymm ((hm b).1 ((h2 b).2 ⟨hab, le_rfl⟩)).2 ((h2 6).1 ((hm 6).2 (by norm_num))).2
    refine ⟨_, _, h1, ?_, ?_⟩
    · simp only [ha, snap, precision]; norm_num
    · simp only [hb, snap, precision]; norm_num

end Siren.Geometry.Para
