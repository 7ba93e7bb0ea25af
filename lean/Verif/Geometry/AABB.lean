import Verif.Geometry.Placement

set_option autoImplicit false
set_option linter.unusedSectionVars false

/-!
# C37, C38: axis-aligned bounding boxes

Models `geometry/public/SIREN/geometry/AABB.h` and `Geometry::RecomputeWorldAABB`
(geometry/private/Geometry.cxx:170-208).
Components are elements of an ordered field `K`. A box with an infinite or NaN component is represented separately
(`WorldBox.unbounded`).
-/

namespace Siren.Geometry

open Siren

/-- `AABB` (geometry/public/SIREN/geometry/AABB.h:16-29). -/
structure AABB (K : Type) where
  min : Vec3 K
  max : Vec3 K

namespace AABB

variable {K : Type}

section order
variable [LinearOrder K]

/-- `ExpandToInclude(point)` (AABB.h:32-43). -/
def expand (b : AABB K) (p : Vec3 K) : AABB K :=
  ⟨⟨Min.min b.min.x p.x, Min.min b.min.y p.y, Min.min b.min.z p.z⟩,
   ⟨Max.max b.max.x p.x, Max.max b.max.y p.y, Max.max b.max.z p.z⟩⟩

/-- `ExpandToInclude(AABB)` (AABB.h:46-49). -/
def expandBox (b o : AABB K) : AABB K := (b.expand o.min).expand o.max

/-- `IsValid` (AABB.h:99-103). -/
def isValid (b : AABB K) : Bool := decide (b.min.x ≤ b.max.x ∧ b.min.y ≤ b.max.y ∧ b.min.z ≤ b.max.z)

/-- `Contains` (AABB.h:106-110). -/
def contains (b : AABB K) (p : Vec3 K) : Bool :=
  decide (b.min.x ≤ p.x ∧ p.x ≤ b.max.x ∧ b.min.y ≤ p.y ∧ p.y ≤ b.max.y ∧ b.min.z ≤ p.z ∧ p.z ≤ b.max.z)

end order

/-- `AABB()` (AABB.h:20-26); `big` is `numeric_limits<double>::max()`. -/
def empty [Neg K] (big : K) : AABB K := ⟨⟨big, big, big⟩, ⟨-big, -big, -big⟩⟩

section field
variable [Field K] [LinearOrder K]

/-- `GetCentroidAxis` (AABB.h:89-96); `Centroid` (52-58) has the three as components. -/
def centroidAxis (b : AABB K) : Nat → K
  | 0 => 1 / 2 * (b.min.x + b.max.x)
  | 1 => 1 / 2 * (b.min.y + b.max.y)
  | 2 => 1 / 2 * (b.min.z + b.max.z)
  | _ => 0

/-- `Centroid` (AABB.h:52-58). -/
def centroid (b : AABB K) : Vec3 K := ⟨b.centroidAxis 0, b.centroidAxis 1, b.centroidAxis 2⟩

/-- `SurfaceArea` (AABB.h:61-66). -/
def surfaceArea (b : AABB K) : K :=
  let dx := b.max.x - b.min.x
  let dy := b.max.y - b.min.y
  let dz := b.max.z - b.min.z
  2 * (dx * dy + dy * dz + dz * dx)

/-- The running interval `[tmin, tmax]` of `RayAABBIntersect`; `none` is minus or plus infinity. -/
structure TRange (K : Type) where
  tmin : Option K
  tmax : Option K

/-- `std::fmax(tmin, x)` where `tmin` may be minus infinity. -/
def fmaxO (t : Option K) (x : K) : Option K :=
  match t with
  | none => some x
  | some a => some (Max.max a x)

/-- `std::fmin(tmax, x)` where `tmax` may be plus infinity. -/
def fminO (t : Option K) (x : K) : Option K :=
  match t with
  | none => some x
  | some a => some (Min.min a x)

/-- One of the three blocks of `RayAABBIntersect` (AABB.h:130-139, 141-150, 152-161). `inv = none` is an infinite inverse
direction; the result `none` is `return false`. -/
def slab (lo hi : K) (inv : Option K) (t : TRange K) : Option (TRange K) :=
  match inv with
  | none => if lo > 0 ∨ hi < 0 then none else some t
  | some i =>
    let t1 := lo * i
    let t2 := hi * i
    some ⟨fmaxO t.tmin (Min.min t1 t2), fminO t.tmax (Max.max t1 t2)⟩

/-- `return tmax >= tmin` (AABB.h:166). -/
def TRange.nonempty (t : TRange K) : Bool :=
  match t.tmin, t.tmax with
  | some a, some b => decide (a ≤ b)
  | _, _ => true

/-- `1.0 / direction` component by component; the inverse of zero is infinite. -/
def invDir (d : Vec3 K) : Vec3 (Option K) :=
  ⟨if d.x = 0 then none else some (1 / d.x), if d.y = 0 then none else some (1 / d.y),
   if d.z = 0 then none else some (1 / d.z)⟩

/-- `RayAABBIntersect` (AABB.h:119-167). -/
def rayIntersect (origin : Vec3 K) (inv : Vec3 (Option K)) (b : AABB K) : Bool :=
  match slab (b.min.x - origin.x) (b.max.x - origin.x) inv.x ⟨none, none⟩ with
  | none => false
  | some t =>
    match slab (b.min.y - origin.y) (b.max.y - origin.y) inv.y t with
    | none => false
    | some t =>
      match slab (b.min.z - origin.z) (b.max.z - origin.z) inv.z t with
      | none => false
      | some t => t.nonempty

end field

/-! ### Specification -/

/-- The point is in the closed box. -/
def Mem [LE K] (p : Vec3 K) (b : AABB K) : Prop :=
  (b.min.x ≤ p.x ∧ p.x ≤ b.max.x) ∧ (b.min.y ≤ p.y ∧ p.y ≤ b.max.y) ∧ (b.min.z ≤ p.z ∧ p.z ≤ b.max.z)

/-- The box is not empty. -/
def Nonempty' [LE K] (b : AABB K) : Prop := b.min.x ≤ b.max.x ∧ b.min.y ≤ b.max.y ∧ b.min.z ≤ b.max.z

/-! ### C37 -/

section proof37
variable [Field K] [LinearOrder K] [IsStrictOrderedRing K]

omit [Field K] [IsStrictOrderedRing K] in
theorem contains_iff (b : AABB K) (p : Vec3 K) : b.contains p = true ↔ Mem p b := by
  simp [contains, Mem, and_assoc]

omit [Field K] [IsStrictOrderedRing K] in
theorem isValid_iff (b : AABB K) : b.isValid = true ↔ b.Nonempty' := by simp [isValid, Nonempty']

/-- `t` is in the running interval. -/
def TRange.Has (r : TRange K) (t : K) : Prop := (∀ a ∈ r.tmin, a ≤ t) ∧ (∀ b ∈ r.tmax, t ≤ b)

omit [Field K] [IsStrictOrderedRing K] in
theorem has_clip (r : TRange K) (a b t : K) :
    TRange.Has ⟨fmaxO r.tmin a, fminO r.tmax b⟩ t ↔ r.Has t ∧ a ≤ t ∧ t ≤ b := by
  cases r with
  | mk lo hi =>
    cases lo <;> cases hi <;> simp [TRange.Has, fmaxO, fminO] <;> tauto

theorem slab_bounds (lo hi d : K) (hv : lo ≤ hi) (hd : d ≠ 0) (t : K) :
    (Min.min (lo * (1 / d)) (hi * (1 / d)) ≤ t ∧ t ≤ Max.max (lo * (1 / d)) (hi * (1 / d))) ↔ lo ≤ t * d ∧ t * d ≤ hi := by
  rcases lt_or_gt_of_ne hd with h | h
  · have hi' : hi * (1 / d) ≤ lo * (1 / d) := by
      rw [mul_one_div, mul_one_div]; exact div_le_div_of_nonpos_of_le h.le hv
    rw [min_eq_right hi', max_eq_left hi', mul_one_div, mul_one_div, div_le_iff_of_neg h, le_div_iff_of_neg h]
    exact and_comm
  · have hi' : lo * (1 / d) ≤ hi * (1 / d) := by
      rw [mul_one_div, mul_one_div]; exact div_le_div_of_nonneg_right hv h.le
    rw [min_eq_left hi', max_eq_right hi', mul_one_div, mul_one_div, div_le_iff₀ h, le_div_iff₀ h]

/-- One slab keeps exactly the parameters whose coordinate lies in the slab. -/
theorem slab_spec (lo hi d : K) (hv : lo ≤ hi) (r : TRange K) :
    match slab lo hi (if d = 0 then none else some (1 / d)) r with
    | none => ∀ t, ¬ (lo ≤ t * d ∧ t * d ≤ hi)
    | some r' => ∀ t, r'.Has t ↔ r.Has t ∧ lo ≤ t * d ∧ t * d ≤ hi := by
  by_cases hd : d = 0
  · simp only [hd, if_true, slab]
    by_cases h : lo > 0 ∨ hi < 0
    · rw [if_pos h]
      intro t ht
      simp only [mul_zero] at ht
      rcases h with h | h
      · exact absurd ht.1 (not_le.2 h)
      · exact absurd ht.2 (not_le.2 h)
    · rw [if_neg h]
      rw [not_or, not_lt, not_lt] at h
      intro t
      simp only [mul_zero, h.1, h.2, and_self, and_true]
  · simp only [hd, if_false, slab]
    intro t
    rw [has_clip, slab_bounds lo hi d hv hd]

theorem nonempty_iff (r : TRange K) : r.nonempty = true ↔ ∃ t, r.Has t := by
  cases r with
  | mk lo hi =>
    cases lo with
    | none =>
      cases hi with
      | none => simp [TRange.nonempty, TRange.Has]
      | some b => simp only [TRange.nonempty, TRange.Has, true_iff]; exact ⟨b, by simp⟩
    | some a =>
      cases hi with
      | none => simp only [TRange.nonempty, TRange.Has, true_iff]; exact ⟨a, by simp⟩
      | some b =>
        simp only [TRange.nonempty, TRange.Has, decide_eq_true_eq, Option.mem_def, Option.some.injEq, forall_eq']
        exact ⟨fun h => ⟨a, le_refl _, h⟩, fun ⟨t, h1, h2⟩ => le_trans h1 h2⟩

/-- C37: the test with the inverse of a direction is true exactly when the line through the origin point along the
direction meets the (valid) box. Directions with zero components, also the zero direction, are included. -/
theorem C37_ray_box (origin d : Vec3 K) (b : AABB K) (hv : b.isValid = true) :
    rayIntersect origin (invDir d) b = true ↔ ∃ t : K, Mem (origin + Vec3.smul t d) b := by
  rw [isValid_iff] at hv
  obtain ⟨vx, vy, vz⟩ := hv
  have sx := slab_spec (b.min.x - origin.x) (b.max.x - origin.x) d.x (by linarith)
  have sy := slab_spec (b.min.y - origin.y) (b.max.y - origin.y) d.y (by linarith)
  have sz := slab_spec (b.min.z - origin.z) (b.max.z - origin.z) d.z (by linarith)
  have hmem : ∀ t, Mem (origin + Vec3.smul t d) b ↔
      (b.min.x - origin.x ≤ t * d.x ∧ t * d.x ≤ b.max.x - origin.x) ∧
      (b.min.y - origin.y ≤ t * d.y ∧ t * d.y ≤ b.max.y - origin.y) ∧
      (b.min.z - origin.z ≤ t * d.z ∧ t * d.z ≤ b.max.z - origin.z) := by
    intro t
    simp only [Mem, Vec3.add_x, Vec3.add_y, Vec3.add_z, Vec3.smul_x, Vec3.smul_y, Vec3.smul_z]
    constructor <;> rintro ⟨⟨h1, h2⟩, ⟨h3, h4⟩, ⟨h5, h6⟩⟩ <;>
      exact ⟨⟨by linarith, by linarith⟩, ⟨by linarith, by linarith⟩, ⟨by linarith, by linarith⟩⟩
  simp only [hmem]
  unfold rayIntersect invDir
  simp only
  cases h1 : slab (b.min.x - origin.x) (b.max.x - origin.x) (if d.x = 0 then none else some (1 / d.x)) ⟨none, none⟩ with
  | none =>
    have := sx ⟨none, none⟩
    rw [h1] at this
    simp only [Bool.false_eq_true, false_iff, not_exists]
    intro t ht; exact this t ht.1
  | some r1 =>
    have p1 := sx ⟨none, none⟩
    rw [h1] at p1
    simp only
    cases h2 : slab (b.min.y - origin.y) (b.max.y - origin.y) (if d.y = 0 then none else some (1 / d.y)) r1 with
    | none =>
      have := sy r1
      rw [h2] at this
      simp only [Bool.false_eq_true, false_iff, not_exists]
      intro t ht; exact this t ht.2.1
    | some r2 =>
      have p2 := sy r1
      rw [h2] at p2
      simp only
      cases h3 : slab (b.min.z - origin.z) (b.max.z - origin.z) (if d.z = 0 then none else some (1 / d.z)) r2 with
      | none =>
        have := sz r2
        rw [h3] at this
        simp only [Bool.false_eq_true, false_iff, not_exists]
        intro t ht; exact this t ht.2.2
      | some r3 =>
        have p3 := sz r2
        rw [h3] at p3
        simp only
        rw [nonempty_iff]
        simp only at p1 p2 p3
        constructor
        · rintro ⟨t, ht⟩
          rw [p3, p2, p1] at ht
          exact ⟨t, ht.1.1.2, ht.1.2, ht.2⟩
        · rintro ⟨t, hx, hy, hz⟩
          refine ⟨t, ?_⟩
          rw [p3, p2, p1]
          exact ⟨⟨⟨by simp [TRange.Has], hx⟩, hy⟩, hz⟩

/-- A line parallel to two axes that touches a face of a box. -/
example : rayIntersect (⟨0, 2, 5⟩ : Vec3 ℚ) (invDir ⟨0, 0, 1⟩) ⟨⟨-1, -2, -3⟩, ⟨1, 2, 3⟩⟩ = true ∧
    isValid (⟨⟨-1, -2, -3⟩, ⟨1, 2, 3⟩⟩ : AABB ℚ) = true := by decide +kernel

/-- For an inverted box (minimum above maximum) the test can be true although the box is empty: C37 needs validity. -/
theorem C37_invalid_box_fails : rayIntersect (⟨0, 0, 0⟩ : Vec3 ℚ) (invDir ⟨1, 1, 1⟩) ⟨⟨1, 1, 1⟩, ⟨-1, -1, -1⟩⟩ = true ∧
    ∀ p : Vec3 ℚ, ¬ Mem p ⟨⟨1, 1, 1⟩, ⟨-1, -1, -1⟩⟩ := by
  constructor
  · decide +kernel
  · rintro p ⟨⟨h1, h2⟩, -⟩
    simp only at h1 h2
    linarith

end proof37

/-! ### Enlarging boxes -/

section expand
variable [LinearOrder K]

/-- `a` is inside `b` as a set of coordinate ranges. -/
def Sub (a b : AABB K) : Prop :=
  (b.min.x ≤ a.min.x ∧ a.max.x ≤ b.max.x) ∧ (b.min.y ≤ a.min.y ∧ a.max.y ≤ b.max.y) ∧
  (b.min.z ≤ a.min.z ∧ a.max.z ≤ b.max.z)

theorem Sub.mem {a b : AABB K} (h : Sub a b) {p : Vec3 K} (hp : Mem p a) : Mem p b :=
  ⟨⟨le_trans h.1.1 hp.1.1, le_trans hp.1.2 h.1.2⟩, ⟨le_trans h.2.1.1 hp.2.1.1, le_trans hp.2.1.2 h.2.1.2⟩,
    ⟨le_trans h.2.2.1 hp.2.2.1, le_trans hp.2.2.2 h.2.2.2⟩⟩

theorem Sub.refl (a : AABB K) : Sub a a := by simp [Sub]

theorem Sub.trans {a b c : AABB K} (h1 : Sub a b) (h2 : Sub b c) : Sub a c :=
  ⟨⟨le_trans h2.1.1 h1.1.1, le_trans h1.1.2 h2.1.2⟩, ⟨le_trans h2.2.1.1 h1.2.1.1, le_trans h1.2.1.2 h2.2.1.2⟩,
    ⟨le_trans h2.2.2.1 h1.2.2.1, le_trans h1.2.2.2 h2.2.2.2⟩⟩

theorem sub_expand (b : AABB K) (p : Vec3 K) : Sub b (b.expand p) := by simp [Sub, AABB.expand]

theorem mem_expand (b : AABB K) (p : Vec3 K) : Mem p (b.expand p) := by simp [Mem, AABB.expand]

theorem sub_expandBox_left (b o : AABB K) : Sub b (b.expandBox o) :=
  (sub_expand b o.min).trans (sub_expand _ o.max)

theorem sub_expandBox_right (b o : AABB K) : Sub o (b.expandBox o) := by
  simp [Sub, AABB.expandBox, AABB.expand]

/-- Including a valid box leaves every other side where it has to be: the result is the smallest box around both when the
first one is valid or empty. -/
theorem expandBox_least (b o c : AABB K) (hb : Sub b c) (ho : Sub o c) (hv : o.isValid = true) :
    Sub (b.expandBox o) c := by
  simp only [isValid, decide_eq_true_eq] at hv
  obtain ⟨vx, vy, vz⟩ := hv
  obtain ⟨⟨b1, b2⟩, ⟨b3, b4⟩, ⟨b5, b6⟩⟩ := hb
  obtain ⟨⟨o1, o2⟩, ⟨o3, o4⟩, ⟨o5, o6⟩⟩ := ho
  refine ⟨⟨?_, ?_⟩, ⟨?_, ?_⟩, ⟨?_, ?_⟩⟩ <;> simp only [expandBox, AABB.expand, le_min_iff, max_le_iff]
  · exact ⟨⟨b1, o1⟩, le_trans o1 vx⟩
  · exact ⟨⟨b2, le_trans vx o2⟩, o2⟩
  · exact ⟨⟨b3, o3⟩, le_trans o3 vy⟩
  · exact ⟨⟨b4, le_trans vy o4⟩, o4⟩
  · exact ⟨⟨b5, o5⟩, le_trans o5 vz⟩
  · exact ⟨⟨b6, le_trans vz o6⟩, o6⟩

end expand

end AABB

/-! ### C38: the world bounding box -/

/-- A bounding box as the detector model sees it. `unbounded` stands for a box with an infinite or NaN component. -/
inductive WorldBox where
  | unbounded
  | box (b : AABB ℝ)

/-- `big` stands for `numeric_limits<double>::max()`: all finite coordinates are within `[-big, big]`. -/
noncomputable def corners (b : AABB ℝ) : List (Vec3 ℝ) :=
  [⟨b.min.x, b.min.y, b.min.z⟩, ⟨b.min.x, b.min.y, b.max.z⟩, ⟨b.min.x, b.max.y, b.min.z⟩, ⟨b.min.x, b.max.y, b.max.z⟩,
   ⟨b.max.x, b.min.y, b.min.z⟩, ⟨b.max.x, b.min.y, b.max.z⟩, ⟨b.max.x, b.max.y, b.min.z⟩, ⟨b.max.x, b.max.y, b.max.z⟩]

/-- `Geometry::RecomputeWorldAABB` (geometry/private/Geometry.cxx:170-208) for the local box `local`. The test for
validity precedes the test for finiteness there; a box with infinite components here counts as valid (an inverted
infinite box does not occur among the shapes' `GetBoundingBox`). -/
noncomputable def worldBox (big : ℝ) (p : Placement) (localBox : WorldBox) : WorldBox :=
  match localBox with
  | .unbounded => .unbounded
  | .box b =>
    if b.isValid then
      .box ((corners b).foldl (fun r c => r.expand (p.localToGlobalPosition c)) (AABB.empty big))
    else .box (AABB.empty big)

theorem foldl_include_sub (f : Vec3 ℝ → Vec3 ℝ) (l : List (Vec3 ℝ)) : ∀ b : AABB ℝ,
    AABB.Sub b (l.foldl (fun r c => r.expand (f c)) b) ∧
    ∀ c ∈ l, AABB.Mem (f c) (l.foldl (fun r c => r.expand (f c)) b) := by
  induction l with
  | nil => intro b; exact ⟨AABB.Sub.refl b, by simp⟩
  | cons a l ih =>
    intro b
    simp only [List.foldl_cons]
    obtain ⟨h1, h2⟩ := ih (b.expand (f a))
    refine ⟨(AABB.sub_expand b (f a)).trans h1, ?_⟩
    intro c hc
    rcases List.mem_cons.1 hc with rfl | hc
    · exact h1.mem (AABB.mem_expand b (f c))
    · exact h2 c hc

/-- A function affine in each of three coordinates takes its extreme values at the corners. -/
theorem corner_bound (k a b c x0 x1 y0 y1 z0 z1 lo : ℝ)
    (h : ∀ x ∈ [x0, x1], ∀ y ∈ [y0, y1], ∀ z ∈ [z0, z1], lo ≤ k + a * x + b * y + c * z)
    (x y z : ℝ) (hx : x0 ≤ x ∧ x ≤ x1) (hy : y0 ≤ y ∧ y ≤ y1) (hz : z0 ≤ z ∧ z ≤ z1) :
    lo ≤ k + a * x + b * y + c * z := by
  have pick : ∀ (m u v t : ℝ), u ≤ t → t ≤ v → ∃ s ∈ [u, v], m * s ≤ m * t := by
    intro m u v t h1 h2
    rcases le_total 0 m with hm | hm
    · exact ⟨u, by simp, mul_le_mul_of_nonneg_left h1 hm⟩
    · exact ⟨v, by simp, mul_le_mul_of_nonpos_left h2 hm⟩
  obtain ⟨sx, hsx, e1⟩ := pick a x0 x1 x hx.1 hx.2
  obtain ⟨sy, hsy, e2⟩ := pick b y0 y1 y hy.1 hy.2
  obtain ⟨sz, hsz, e3⟩ := pick c z0 z1 z hz.1 hz.2
  have := h sx hsx sy hsy sz hsz
  linarith

theorem corners_mem (b : AABB ℝ) {x y z : ℝ} (hx : x ∈ [b.min.x, b.max.x]) (hy : y ∈ [b.min.y, b.max.y])
    (hz : z ∈ [b.min.z, b.max.z]) : (⟨x, y, z⟩ : Vec3 ℝ) ∈ corners b := by
  simp only [List.mem_cons, List.not_mem_nil, or_false] at hx hy hz
  rcases hx with rfl | rfl <;> rcases hy with rfl | rfl <;> rcases hz with rfl | rfl <;> simp [corners]

/-- C38: the world box contains the image of every point of the local box. -/
theorem C38_world_box_contains (big : ℝ) (p : Placement) (hp : p.Valid) (b w : AABB ℝ)
    (h : worldBox big p (.box b) = .box w) (v : Vec3 ℝ) (hv : AABB.Mem v b) :
    AABB.Mem (p.localToGlobalPosition v) w := by
  have hval : b.isValid = true := by
    rw [AABB.isValid_iff]
    exact ⟨le_trans hv.1.1 hv.1.2, le_trans hv.2.1.1 hv.2.1.2, le_trans hv.2.2.1 hv.2.2.2⟩
  unfold worldBox at h
  simp only [hval, if_true, WorldBox.box.injEq] at h
  obtain ⟨-, hc⟩ := foldl_include_sub p.localToGlobalPosition (corners b) (AABB.empty big)
  rw [h] at hc
  have lin : ∀ v : Vec3 ℝ, p.localToGlobalPosition v = Quat.sandwich p.quaternion v + p.position := by
    intro v
    unfold Placement.localToGlobalPosition
    rw [Quat.rotate_unit (show p.quaternion.IsUnit from hp)]; rfl
  set q := p.quaternion
  have hx : ∀ v : Vec3 ℝ, (p.localToGlobalPosition v).x = p.position.x +
      (q.w * q.w + q.x * q.x - q.y * q.y - q.z * q.z) * v.x + (2 * (q.x * q.y - q.w * q.z)) * v.y +
      (2 * (q.x * q.z + q.w * q.y)) * v.z := by
    intro v; rw [lin]; simp only [Quat.sandwich, Vec3.add_x]; ring
  have hy : ∀ v : Vec3 ℝ, (p.localToGlobalPosition v).y = p.position.y +
      (2 * (q.x * q.y + q.w * q.z)) * v.x + (q.w * q.w - q.x * q.x + q.y * q.y - q.z * q.z) * v.y +
      (2 * (q.y * q.z - q.w * q.x)) * v.z := by
    intro v; rw [lin]; simp only [Quat.sandwich, Vec3.add_y]; ring
  have hz : ∀ v : Vec3 ℝ, (p.localToGlobalPosition v).z = p.position.z +
      (2 * (q.x * q.z - q.w * q.y)) * v.x + (2 * (q.y * q.z + q.w * q.x)) * v.y +
      (q.w * q.w - q.x * q.x - q.y * q.y + q.z * q.z) * v.z := by
    intro v; rw [lin]; simp only [Quat.sandwich, Vec3.add_z]; ring
  obtain ⟨mx, my, mz⟩ := hv
  have neg : ∀ k a b' c x y z : ℝ, -(k + a * x + b' * y + c * z) = -k + (-a) * x + (-b') * y + (-c) * z := by
    intros; ring
  refine ⟨⟨?_, ?_⟩, ⟨?_, ?_⟩, ⟨?_, ?_⟩⟩
  · rw [hx]
    refine corner_bound _ _ _ _ _ _ _ _ _ _ _ (fun x h1 y h2 z h3 => ?_) _ _ _ mx my mz
    have := (hc _ (corners_mem b h1 h2 h3)).1.1
    rw [hx] at this; exact this
  · rw [hx]; apply le_of_neg_le_neg; rw [neg]
    refine corner_bound _ _ _ _ _ _ _ _ _ _ _ (fun x h1 y h2 z h3 => ?_) _ _ _ mx my mz
    have := (hc _ (corners_mem b h1 h2 h3)).1.2
    rw [hx] at this; rw [← neg]; exact neg_le_neg this
  · rw [hy]
    refine corner_bound _ _ _ _ _ _ _ _ _ _ _ (fun x h1 y h2 z h3 => ?_) _ _ _ mx my mz
    have := (hc _ (corners_mem b h1 h2 h3)).2.1.1
    rw [hy] at this; exact this
  · rw [hy]; apply le_of_neg_le_neg; rw [neg]
    refine corner_bound _ _ _ _ _ _ _ _ _ _ _ (fun x h1 y h2 z h3 => ?_) _ _ _ mx my mz
    have := (hc _ (corners_mem b h1 h2 h3)).2.1.2
    rw [hy] at this; rw [← neg]; exact neg_le_neg this
  · rw [hz]
    refine corner_bound _ _ _ _ _ _ _ _ _ _ _ (fun x h1 y h2 z h3 => ?_) _ _ _ mx my mz
    have := (hc _ (corners_mem b h1 h2 h3)).2.2.1
    rw [hz] at this; exact this
  · rw [hz]; apply le_of_neg_le_neg; rw [neg]
    refine corner_bound _ _ _ _ _ _ _ _ _ _ _ (fun x h1 y h2 z h3 => ?_) _ _ _ mx my mz
    have := (hc _ (corners_mem b h1 h2 h3)).2.2.2
    rw [hz] at this; rw [← neg]; exact neg_le_neg this

/-- C38: an infinite local box stays infinite, an invalid one becomes the (invalid) empty box, a valid one gives a valid
one. -/
theorem C38_world_box_kind (big : ℝ) (hbig : 0 < big) (p : Placement) :
    worldBox big p .unbounded = .unbounded ∧
    (∀ b : AABB ℝ, b.isValid = false → ∃ w, worldBox big p (.box b) = .box w ∧ w.isValid = false) ∧
    (∀ b : AABB ℝ, b.isValid = true → ∃ w, worldBox big p (.box b) = .box w ∧ w.isValid = true) := by
  refine ⟨rfl, fun b hb => ?_, fun b hb => ?_⟩
  · refine ⟨AABB.empty big, by simp [worldBox, hb], ?_⟩
    simp [AABB.isValid, AABB.empty, hbig]
  · refine ⟨(corners b).foldl (fun r c => r.expand (p.localToGlobalPosition c)) (AABB.empty big),
      by simp only [worldBox, hb, if_true], ?_⟩
    obtain ⟨-, hc⟩ := foldl_include_sub p.localToGlobalPosition (corners b) (AABB.empty big)
    have := hc b.min (by simp [corners])
    rw [AABB.isValid_iff]
    exact ⟨le_trans this.1.1 this.1.2, le_trans this.2.1.1 this.2.1.2, le_trans this.2.2.1 this.2.2.2⟩

/-- C38: the world box is the smallest box around the images of the eight corners (all within `[-big, big]`). -/
theorem C38_world_box_tight (big : ℝ) (p : Placement) (b w c : AABB ℝ) (hv : b.isValid = true)
    (h : worldBox big p (.box b) = .box w) (hbig : AABB.Sub (AABB.empty big) c)
    (hc : ∀ v ∈ corners b, AABB.Mem (p.localToGlobalPosition v) c) : AABB.Sub w c := by
  unfold worldBox at h
  simp only [hv, if_true, WorldBox.box.injEq] at h
  rw [← h]
  have step : ∀ (r : AABB ℝ) (v : Vec3 ℝ), AABB.Sub r c → AABB.Mem v c → AABB.Sub (r.expand v) c := by
    intro r v h1 h2
    obtain ⟨⟨a1, a2⟩, ⟨a3, a4⟩, ⟨a5, a6⟩⟩ := h1
    obtain ⟨⟨b1, b2⟩, ⟨b3, b4⟩, ⟨b5, b6⟩⟩ := h2
    refine ⟨⟨?_, ?_⟩, ⟨?_, ?_⟩, ⟨?_, ?_⟩⟩ <;> simp only [AABB.expand, le_min_iff, max_le_iff] <;> constructor <;> assumption
  have : ∀ (l : List (Vec3 ℝ)), (∀ v ∈ l, AABB.Mem (p.localToGlobalPosition v) c) → ∀ r : AABB ℝ, AABB.Sub r c →
      AABB.Sub (l.foldl (fun r c => r.expand (p.localToGlobalPosition c)) r) c := by
    intro l
    induction l with
    | nil => intro _ r hr; exact hr
    | cons a l ih =>
      intro hl r hr
      simp only [List.foldl_cons]
      exact ih (fun v hv => hl v (by simp [hv])) _ (step _ _ hr (hl a (by simp)))
  exact this _ hc _ hbig

/-- The unit cube turned by 120 degrees about its diagonal. -/
example : (Placement.make ⟨5, 0, 0⟩ ⟨1, 1, 1, 1⟩).Valid ∧ AABB.isValid (⟨⟨0, 0, 0⟩, ⟨1, 1, 1⟩⟩ : AABB ℝ) = true :=
  ⟨Placement.make_valid _ _ (by simp only [Quat.normSq]; norm_num), by simp [AABB.isValid]⟩

end Siren.Geometry
