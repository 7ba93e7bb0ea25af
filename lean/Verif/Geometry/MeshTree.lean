import Verif.Geometry.Mesh
import Verif.Geometry.Convex

set_option autoImplicit false
set_option linter.unusedSectionVars false

/-!
# Lines and meshes of triangles

The tree of bounding boxes and the intersections of a line with a mesh (`geometry/private/GeometryMesh.cxx`).
-/

namespace Siren.Geometry
namespace Mesh

open Siren

/-! ### Model -/

/-- `BVHNode::bounds`: the lower three and the upper three (GeometryMesh.h: `BVHNode`). -/
structure Bounds where
  lo : Vec3 ℝ
  hi : Vec3 ℝ

open Classical in
/-- `inv_dir` (GeometryMesh.cxx:388-392). -/
noncomputable def inv (x : ℝ) : ℝ := if x = 0 then 0 else 1 / x

open Classical in
/-- The first axis (GeometryMesh.cxx:125-135); `none` is `return false`. -/
noncomputable def slab1 (lo hi o i : ℝ) : Option (ℝ × ℝ) :=
  if i = 0 then (if o < lo ∨ o > hi then none else some (-1e308, 1e308))
  else some (min ((lo - o) * i) ((hi - o) * i), max ((lo - o) * i) ((hi - o) * i))

open Classical in
/-- The other axes (GeometryMesh.cxx:137-153). -/
noncomputable def slab (lo hi o i : ℝ) (s : ℝ × ℝ) : Option (ℝ × ℝ) :=
  if i = 0 then (if o < lo ∨ o > hi then none else some s)
  else some (max s.1 (min ((lo - o) * i) ((hi - o) * i)), min s.2 (max ((lo - o) * i) ((hi - o) * i)))

/-- `RayAABBIntersect` (GeometryMesh.cxx:120-156). -/
noncomputable def rayBox (b : Bounds) (o d : Vec3 ℝ) : Prop :=
  match ((slab1 b.lo.x b.hi.x o.x (inv d.x)).bind (slab b.lo.y b.hi.y o.y (inv d.y))).bind (slab b.lo.z b.hi.z o.z (inv d.z)) with
  | none => False
  | some s => s.2 ≥ s.1

/-- `info[i].bounds` and `info[i].centroid` (GeometryMesh.cxx:272-281); `rnd` is the conversion to `float`. -/
noncomputable def lowOf (rnd : ℝ → ℝ) (T : Tri) (k : Fin 3) : ℝ := rnd (min (comp T.a k) (min (comp T.b k) (comp T.c k)))
noncomputable def highOf (rnd : ℝ → ℝ) (T : Tri) (k : Fin 3) : ℝ := rnd (max (comp T.a k) (max (comp T.b k) (comp T.c k)))
noncomputable def centroid (rnd : ℝ → ℝ) (T : Tri) (k : Fin 3) : ℝ := rnd ((comp T.a k + comp T.b k + comp T.c k) / 3)

/-- The smallest and the largest of a value (GeometryMesh.cxx:310-317, 328-336). -/
noncomputable def least (f : Tri → ℝ) (l : List Tri) : ℝ := l.foldl (fun m T => min m (f T)) 1e30
noncomputable def greatest (f : Tri → ℝ) (l : List Tri) : ℝ := l.foldl (fun m T => max m (f T)) (-1e30)

/-- The bounds of a node (GeometryMesh.cxx:309-318). -/
noncomputable def boundsOf (rnd : ℝ → ℝ) (l : List Tri) : Bounds :=
  ⟨⟨least (fun T => lowOf rnd T 0) l, least (fun T => lowOf rnd T 1) l, least (fun T => lowOf rnd T 2) l⟩,
   ⟨greatest (fun T => highOf rnd T 0) l, greatest (fun T => highOf rnd T 1) l, greatest (fun T => highOf rnd T 2) l⟩⟩

/-- The extent of the centroids (GeometryMesh.cxx:328-341), without the rounding of the difference. -/
noncomputable def extent (rnd : ℝ → ℝ) (l : List Tri) (k : Fin 3) : ℝ :=
  greatest (fun T => centroid rnd T k) l - least (fun T => centroid rnd T k) l

open Classical in
/-- `axis` (GeometryMesh.cxx:338-341). -/
noncomputable def splitAxis (rnd : ℝ → ℝ) (l : List Tri) : Fin 3 :=
  let a : Fin 3 := if extent rnd l 1 > extent rnd l 0 then 1 else 0
  if extent rnd l 2 > extent rnd l a then 2 else a

/-- `std::nth_element` on a range: a permutation of it. Where the elements go only matters for speed. -/
structure Nth where
  f : (Tri → ℝ) → List Tri → List Tri
  perm : ∀ k l, (f k l).Perm l

/-- The tree; `bvh_nodes_` refers to children by their positions, `tri_indices_` to triangles by their numbers. -/
inductive Bvh where
  | leaf (b : Bounds) (l : List Tri)
  | node (b : Bounds) (left right : Bvh)

open Classical in
/-- `BuildBVH` (GeometryMesh.cxx:256-374), the stack of tasks as recursion. `count` has 16 bits. -/
noncomputable def build (rnd : ℝ → ℝ) (nth : Nth) (l : List Tri) : Bvh :=
  if l.length ≤ 8 then .leaf (boundsOf rnd l) l
  else if extent rnd l (splitAxis rnd l) < 1e-10 then .leaf (boundsOf rnd l) (l.take 65535)
  else .node (boundsOf rnd l)
    (build rnd nth ((nth.f (fun T => centroid rnd T (splitAxis rnd l)) l).take (l.length / 2)))
    (build rnd nth ((nth.f (fun T => centroid rnd T (splitAxis rnd l)) l).drop (l.length / 2)))
  termination_by l.length
  decreasing_by
    · have := (nth.perm (fun T => centroid rnd T (splitAxis rnd l)) l).length_eq
      simp only [List.length_take, this]; omega
    · have := (nth.perm (fun T => centroid rnd T (splitAxis rnd l)) l).length_eq
      simp only [List.length_drop, this]; omega

/-- The report of a triangle (GeometryMesh.cxx:420-430). -/
noncomputable def hitOf (o d : Vec3 ℝ) (T : Tri) : Option Isect :=
  (woop (prepareRay o d) T).map fun h => ⟨h.t, 0, h.front, o + Vec3.smul h.t d⟩

open Classical in
/-- The traversal (GeometryMesh.cxx:396-443), the stacks as recursion: the left child is taken first. What is spilled to the heap is
taken before what is on the stack, so both together are one stack. -/
noncomputable def Bvh.hits (o d : Vec3 ℝ) : Bvh → List Isect
  | .leaf b l => if rayBox b o d then l.filterMap (hitOf o d) else []
  | .node b l r => if rayBox b o d then l.hits o d ++ r.hits o d else []

open Classical in
/-- Skipping hits at nearly the same distance as the last one kept (GeometryMesh.cxx:459-467). -/
noncomputable def skip : ℝ → List Isect → List Isect
  | _, [] => []
  | p, h :: hs =>
    if |h.distance - p| < max 1 (max |p| |h.distance|) * 1e-12 then skip p hs else h :: skip h.distance hs

/-- GeometryMesh.cxx:451-469. -/
noncomputable def merge : List Isect → List Isect
  | [] => []
  | h :: hs => h :: skip h.distance hs

/-- `TriangularMesh::ComputeIntersections` (GeometryMesh.cxx:380-472); `srt` is `std::sort`. -/
noncomputable def intersections (rnd : ℝ → ℝ) (nth : Nth) (srt : List Isect → List Isect) (ts : List Tri) (o d : Vec3 ℝ) : List Isect :=
  if ts.isEmpty then [] else merge (srt ((build rnd nth ts).hits o d))

/-! ### Specification -/

/-- The line crosses the mesh at `t`, in a triangle it is not parallel to; `enter` tells whether against the normal. -/
def Crosses (ts : List Tri) (o d : Vec3 ℝ) (t : ℝ) (enter : Prop) : Prop :=
  ∃ T ∈ ts, Vec3.dot T.normal d ≠ 0 ∧ T.Has (at_ o d t) ∧ (enter ↔ Vec3.dot T.normal d < 0)

/-- The coordinates of the mesh are numbers of type `float`. -/
def Floats (rnd : ℝ → ℝ) (ts : List Tri) : Prop :=
  ∀ T ∈ ts, ∀ k, rnd (comp T.a k) = comp T.a k ∧ rnd (comp T.b k) = comp T.b k ∧ rnd (comp T.c k) = comp T.c k

/-! ### Boxes -/

theorem foldl_min_le (f : Tri → ℝ) : ∀ (l : List Tri) (m : ℝ), l.foldl (fun m T => min m (f T)) m ≤ m ∧
    ∀ T ∈ l, l.foldl (fun m T => min m (f T)) m ≤ f T
  | [], m => ⟨le_rfl, by simp⟩
  | T :: l, m => by
    obtain ⟨h1, h2⟩ := foldl_min_le f l (min m (f T))
    refine ⟨h1.trans (min_le_left _ _), fun S hS => ?_⟩
    rcases List.mem_cons.mp hS with rfl | hS
    · exact h1.trans (min_le_right _ _)
    · exact h2 S hS

theorem le_foldl_max (f : Tri → ℝ) : ∀ (l : List Tri) (m : ℝ), m ≤ l.foldl (fun m T => max m (f T)) m ∧
    ∀ T ∈ l, f T ≤ l.foldl (fun m T => max m (f T)) m
  | [], m => ⟨le_rfl, by simp⟩
  | T :: l, m => by
    obtain ⟨h1, h2⟩ := le_foldl_max f l (max m (f T))
    refine ⟨(le_max_left _ _).trans h1, fun S hS => ?_⟩
    rcases List.mem_cons.mp hS with rfl | hS
    · exact (le_max_right _ _).trans h1
    · exact h2 S hS

theorem low_le {rnd : ℝ → ℝ} {ts : List Tri} (h : Floats rnd ts) {T : Tri} (hT : T ∈ ts) (k : Fin 3) :
    lowOf rnd T k ≤ comp T.a k ∧ lowOf rnd T k ≤ comp T.b k ∧ lowOf rnd T k ≤ comp T.c k := by
  obtain ⟨h1, h2, h3⟩ := h T hT k
  have e : lowOf rnd T k = min (comp T.a k) (min (comp T.b k) (comp T.c k)) := by
    unfold lowOf
    rcases min_choice (comp T.a k) (min (comp T.b k) (comp T.c k)) with e | e
    · rw [e, h1]
    · rw [e]
      rcases min_choice (comp T.b k) (comp T.c k) with e | e
      · rw [e, h2]
      · rw [e, h3]
  rw [e]
  exact ⟨min_le_left _ _, (min_le_right _ _).trans (min_le_left _ _), (min_le_right _ _).trans (min_le_right _ _)⟩

theorem le_high {rnd : ℝ → ℝ} {ts : List Tri} (h : Floats rnd ts) {T : Tri} (hT : T ∈ ts) (k : Fin 3) :
    comp T.a k ≤ highOf rnd T k ∧ comp T.b k ≤ highOf rnd T k ∧ comp T.c k ≤ highOf rnd T k := by
  obtain ⟨h1, h2, h3⟩ := h T hT k
  have e : highOf rnd T k = max (comp T.a k) (max (comp T.b k) (comp T.c k)) := by
    unfold highOf
    rcases max_choice (comp T.a k) (max (comp T.b k) (comp T.c k)) with e | e
    · rw [e, h1]
    · rw [e]
      rcases max_choice (comp T.b k) (comp T.c k) with e | e
      · rw [e, h2]
      · rw [e, h3]
  rw [e]
  exact ⟨le_max_left _ _, (le_max_left _ _).trans (le_max_right _ _), (le_max_right _ _).trans (le_max_right _ _)⟩

theorem comb_between {u v w a b c lo hi : ℝ} (hu : 0 ≤ u) (hv : 0 ≤ v) (hw : 0 ≤ w) (hs : u + v + w = 1)
    (la : lo ≤ a) (lb : lo ≤ b) (lc : lo ≤ c) (ha : a ≤ hi) (hb : b ≤ hi) (hc : c ≤ hi) :
    lo ≤ u * a + v * b + w * c ∧ u * a + v * b + w * c ≤ hi := by
  have e : w = 1 - u - v := by linarith
  subst e
  constructor
  · nlinarith [mul_le_mul_of_nonneg_left la hu, mul_le_mul_of_nonneg_left lb hv, mul_le_mul_of_nonneg_left lc hw]
  · nlinarith [mul_le_mul_of_nonneg_left ha hu, mul_le_mul_of_nonneg_left hb hv, mul_le_mul_of_nonneg_left hc hw]

/-- A point is in a box. -/
def Bounds.Has (b : Bounds) (q : Vec3 ℝ) : Prop :=
  (b.lo.x ≤ q.x ∧ q.x ≤ b.hi.x) ∧ (b.lo.y ≤ q.y ∧ q.y ≤ b.hi.y) ∧ (b.lo.z ≤ q.z ∧ q.z ≤ b.hi.z)

theorem bounds_has {rnd : ℝ → ℝ} {ts l : List Tri} (h : Floats rnd ts) (hl : ∀ T ∈ l, T ∈ ts) {T : Tri} (hT : T ∈ l) {q : Vec3 ℝ}
    (hq : T.Has q) : (boundsOf rnd l).Has q := by
  obtain ⟨u, v, w, hu, hv, hw, hs, rfl⟩ := hq
  have key : ∀ k : Fin 3, least (fun T => lowOf rnd T k) l ≤ u * comp T.a k + v * comp T.b k + w * comp T.c k ∧
      u * comp T.a k + v * comp T.b k + w * comp T.c k ≤ greatest (fun T => highOf rnd T k) l := by
    intro k
    have h1 := (foldl_min_le (fun T => lowOf rnd T k) l 1e30).2 T hT
    have h2 := (le_foldl_max (fun T => highOf rnd T k) l (-1e30)).2 T hT
    obtain ⟨a1, a2, a3⟩ := low_le h (hl T hT) k
    obtain ⟨b1, b2, b3⟩ := le_high h (hl T hT) k
    exact comb_between hu hv hw hs (h1.trans a1) (h1.trans a2) (h1.trans a3) (b1.trans h2) (b2.trans h2) (b3.trans h2)
  exact ⟨key 0, key 1, key 2⟩

theorem slab_has {lo hi o d t : ℝ} (h1 : lo ≤ o + t * d) (h2 : o + t * d ≤ hi) (hd : d ≠ 0) :
    min ((lo - o) * inv d) ((hi - o) * inv d) ≤ t ∧ t ≤ max ((lo - o) * inv d) ((hi - o) * inv d) := by
  unfold inv
  rw [if_neg hd]
  rcases lt_or_gt_of_ne hd with h | h
  · have e1 : (hi - o) * (1 / d) ≤ t := by rw [mul_one_div, div_le_iff_of_neg h]; linarith
    have e2 : t ≤ (lo - o) * (1 / d) := by rw [mul_one_div, le_div_iff_of_neg h]; linarith
    exact ⟨(min_le_right _ _).trans e1, e2.trans (le_max_left _ _)⟩
  · have e1 : (lo - o) * (1 / d) ≤ t := by rw [mul_one_div, div_le_iff₀ h]; linarith
    have e2 : t ≤ (hi - o) * (1 / d) := by rw [mul_one_div, le_div_iff₀ h]; linarith
    exact ⟨(min_le_left _ _).trans e1, e2.trans (le_max_right _ _)⟩

theorem inv_zero {d : ℝ} : inv d = 0 ↔ d = 0 := by
  unfold inv
  split
  next h => simp [h]
  next h => simp [h]

/-- No point of a line in the box is missed. -/
theorem rayBox_has {b : Bounds} {o d : Vec3 ℝ} {t : ℝ} (ht : |t| ≤ 1e308) (h : b.Has (at_ o d t)) : rayBox b o d := by
  classical
  obtain ⟨⟨x1, x2⟩, ⟨y1, y2⟩, ⟨z1, z2⟩⟩ := h
  simp only [at_, Vec3.add_x, Vec3.add_y, Vec3.add_z, Vec3.smul_x, Vec3.smul_y, Vec3.smul_z] at x1 x2 y1 y2 z1 z2
  have first : ∃ s, slab1 b.lo.x b.hi.x o.x (inv d.x) = some s ∧ s.1 ≤ t ∧ t ≤ s.2 := by
    unfold slab1
    by_cases hx : d.x = 0
    · rw [if_pos (inv_zero.mpr hx)]
      rw [hx, mul_zero, add_zero] at x1 x2
      rw [if_neg (by push Not; exact ⟨x1, x2⟩)]
      exact ⟨_, rfl, (abs_le.mp ht).1, (abs_le.mp ht).2⟩
    · rw [if_neg (fun h => hx (inv_zero.mp h))]
      exact ⟨_, rfl, slab_has x1 x2 hx⟩
  have next : ∀ {lo hi o d : ℝ} {s : ℝ × ℝ}, lo ≤ o + t * d → o + t * d ≤ hi → s.1 ≤ t → t ≤ s.2 →
      ∃ s', slab lo hi o (inv d) s = some s' ∧ s'.1 ≤ t ∧ t ≤ s'.2 := by
    intro lo hi o d s h1 h2 h3 h4
    unfold slab
    by_cases hx : d = 0
    · rw [if_pos (inv_zero.mpr hx)]
      rw [hx, mul_zero, add_zero] at h1 h2
      rw [if_neg (by push Not; exact ⟨h1, h2⟩)]
      exact ⟨_, rfl, h3, h4⟩
    · rw [if_neg (fun h => hx (inv_zero.mp h))]
      obtain ⟨e1, e2⟩ := slab_has h1 h2 hx
      exact ⟨_, rfl, max_le h3 e1, le_min h4 e2⟩
  obtain ⟨s1, e1, a1, b1⟩ := first
  obtain ⟨s2, e2, a2, b2⟩ := next (s := s1) y1 y2 a1 b1
  obtain ⟨s3, e3, a3, b3⟩ := next (s := s2) z1 z2 a2 b2
  unfold rayBox
  rw [e1, Option.bind_some, e2, Option.bind_some, e3]
  exact a3.trans b3

/-! ### The tree -/

theorem hitOf_some {o d : Vec3 ℝ} (hd : d ≠ 0) {T : Tri} {i : Isect} : hitOf o d T = some i ↔
    Vec3.dot T.normal d ≠ 0 ∧ T.Has (at_ o d i.distance) ∧ (i.entering = true ↔ Vec3.dot T.normal d < 0) ∧
      i.position = at_ o d i.distance ∧ i.hierarchy = 0 := by
  unfold hitOf
  rw [Option.map_eq_some_iff]
  constructor
  · rintro ⟨⟨t, f⟩, h, rfl⟩
    obtain ⟨h1, h2, h3⟩ := (C131_triangle o hd T t f).mp h
    exact ⟨h1, h2, h3, rfl, rfl⟩
  · rintro ⟨h1, h2, h3, h4, h5⟩
    refine ⟨⟨i.distance, i.entering⟩, (C131_triangle o hd T _ _).mpr ⟨h1, h2, h3⟩, ?_⟩
    obtain ⟨a, b, c, e⟩ := i
    simp only at h4 h5
    subst h4 h5
    rfl

/-- Every hit of the tree is one of a triangle. -/
theorem build_sub (rnd : ℝ → ℝ) (nth : Nth) (o d : Vec3 ℝ) : ∀ (n : ℕ) (l : List Tri), l.length = n →
    ∀ i ∈ (build rnd nth l).hits o d, ∃ T ∈ l, hitOf o d T = some i := by
  intro n
  induction n using Nat.strong_induction_on with
  | _ n ih =>
    intro l hl i hi
    rw [build] at hi
    split at hi
    · simp only [Bvh.hits] at hi
      split at hi
      · exact List.mem_filterMap.mp hi
      · simp at hi
    next h8 =>
      split at hi
      · simp only [Bvh.hits] at hi
        split at hi
        · obtain ⟨T, hT, h⟩ := List.mem_filterMap.mp hi
          exact ⟨T, List.mem_of_mem_take hT, h⟩
        · simp at hi
      · have hp := nth.perm (fun T => centroid rnd T (splitAxis rnd l)) l
        have hlen := hp.length_eq
        simp only [Bvh.hits] at hi
        split at hi
        · rcases List.mem_append.mp hi with hi | hi
          · obtain ⟨T, hT, h⟩ := ih _ (by simp only [List.length_take, hlen]; omega) _ rfl i hi
            exact ⟨T, hp.subset (List.mem_of_mem_take hT), h⟩
          · obtain ⟨T, hT, h⟩ := ih _ (by simp only [List.length_drop, hlen]; omega) _ rfl i hi
            exact ⟨T, hp.subset (List.mem_of_mem_drop hT), h⟩
        · simp at hi

theorem none_of_box {rnd : ℝ → ℝ} {ts l : List Tri} (h : Floats rnd ts) (hl : ∀ T ∈ l, T ∈ ts) {o d : Vec3 ℝ} (hd : d ≠ 0)
    (ht : ∀ T ∈ ts, ∀ t, T.Has (at_ o d t) → |t| ≤ 1e308) (hb : ¬ rayBox (boundsOf rnd l) o d) : l.filterMap (hitOf o d) = [] := by
  rw [List.filterMap_eq_nil_iff]
  intro T hT
  cases hh : hitOf o d T with
  | none => rfl
  | some i =>
    obtain ⟨-, h2, -⟩ := (hitOf_some hd).mp hh
    exact absurd (rayBox_has (ht T (hl T hT) _ h2) (bounds_has h hl hT h2)) hb

/-- The hits of the tree are those of all triangles. -/
theorem build_perm {rnd : ℝ → ℝ} {ts : List Tri} (h : Floats rnd ts) (nth : Nth) {o d : Vec3 ℝ} (hd : d ≠ 0)
    (ht : ∀ T ∈ ts, ∀ t, T.Has (at_ o d t) → |t| ≤ 1e308) : ∀ (n : ℕ) (l : List Tri), l.length = n → n ≤ 65535 →
    (∀ T ∈ l, T ∈ ts) → ((build rnd nth l).hits o d).Perm (l.filterMap (hitOf o d)) := by
  classical
  intro n
  induction n using Nat.strong_induction_on with
  | _ n ih =>
    intro l hl hn hs
    rw [build]
    split
    · simp only [Bvh.hits]
      split
      · exact List.Perm.refl _
      next hb => rw [none_of_box h hs hd ht hb]
    next h8 =>
      split
      · rw [List.take_of_length_le (by omega)]
        simp only [Bvh.hits]
        split
        · exact List.Perm.refl _
        next hb => rw [none_of_box h hs hd ht hb]
      · have hp := nth.perm (fun T => centroid rnd T (splitAxis rnd l)) l
        have hlen := hp.length_eq
        simp only [Bvh.hits]
        split
        · have p1 := ih _ (by simp only [List.length_take, hlen]; omega) _ (rfl : ((nth.f (fun T => centroid rnd T (splitAxis rnd l)) l).take (l.length / 2)).length = _)
            (by simp only [List.length_take, hlen]; omega) (fun T hT => hs T (hp.subset (List.mem_of_mem_take hT)))
          have p2 := ih _ (by simp only [List.length_drop, hlen]; omega) _ (rfl : ((nth.f (fun T => centroid rnd T (splitAxis rnd l)) l).drop (l.length / 2)).length = _)
            (by simp only [List.length_drop, hlen]; omega) (fun T hT => hs T (hp.subset (List.mem_of_mem_drop hT)))
          refine (p1.append p2).trans ?_
          rw [← List.filterMap_append, List.take_append_drop]
          exact hp.filterMap _
        next hb => rw [none_of_box h hs hd ht hb]

/-- The number of entries of `bvh_nodes_`. -/
def Bvh.size : Bvh → ℕ
  | .leaf _ _ => 1
  | .node _ l r => 1 + l.size + r.size

/-! ### Merging -/

theorem skip_sublist : ∀ (l : List Isect) (p : ℝ), (skip p l).Sublist l
  | [], p => List.Sublist.refl _
  | h :: hs, p => by
    rw [skip]
    split
    · exact (skip_sublist hs p).cons _
    · exact (skip_sublist hs _).cons_cons _

theorem merge_sublist (l : List Isect) : (merge l).Sublist l := by
  cases l with
  | nil => exact List.Sublist.refl _
  | cons h hs => exact (skip_sublist hs _).cons_cons _

/-- Two distances the code takes for the same. -/
def Same (a b : ℝ) : Prop := |a - b| ≤ max 1 (max |b| |a|) * 1e-12

theorem same_refl (a : ℝ) : Same a a := by
  unfold Same
  rw [sub_self, abs_zero]
  have : (0 : ℝ) ≤ max 1 (max |a| |a|) := le_trans zero_le_one (le_max_left _ _)
  positivity

theorem skip_near : ∀ (l : List Isect) (p : ℝ), ∀ i ∈ l, Same i.distance p ∨ ∃ j ∈ skip p l, Same i.distance j.distance
  | [], p, i, hi => by simp at hi
  | h :: hs, p, i, hi => by
    rw [skip]
    rcases List.mem_cons.mp hi with rfl | hi
    · split
      next hc => left; exact hc.le
      next => right; exact ⟨i, List.mem_cons_self, same_refl _⟩
    · split
      next hc => exact skip_near hs p i hi
      next =>
        rcases skip_near hs h.distance i hi with h1 | ⟨j, hj, h1⟩
        · right; exact ⟨h, List.mem_cons_self, h1⟩
        · right; exact ⟨j, List.mem_cons_of_mem _ hj, h1⟩

theorem merge_near (l : List Isect) : ∀ i ∈ l, ∃ j ∈ merge l, Same i.distance j.distance := by
  cases l with
  | nil => simp
  | cons h hs =>
    intro i hi
    rcases List.mem_cons.mp hi with rfl | hi
    · exact ⟨i, List.mem_cons_self, same_refl _⟩
    · rcases skip_near hs h.distance i hi with h1 | ⟨j, hj, h1⟩
      · exact ⟨h, List.mem_cons_self, h1⟩
      · exact ⟨j, List.mem_cons_of_mem _ hj, h1⟩

theorem skip_all : ∀ (l : List Isect) (p : ℝ), (∀ i ∈ l, ¬ Same i.distance p) →
    l.Pairwise (fun a b => ¬ Same b.distance a.distance) → skip p l = l
  | [], p, _, _ => rfl
  | h :: hs, p, h1, h2 => by
    rw [skip, if_neg (fun hc => h1 h List.mem_cons_self hc.le)]
    obtain ⟨h3, h4⟩ := List.pairwise_cons.mp h2
    rw [skip_all hs h.distance h3 h4]

theorem merge_all (l : List Isect) (h : l.Pairwise (fun a b => ¬ Same b.distance a.distance)) : merge l = l := by
  cases l with
  | nil => rfl
  | cons a as =>
    obtain ⟨h3, h4⟩ := List.pairwise_cons.mp h
    show a :: skip a.distance as = a :: as
    rw [skip_all as _ h3 h4]

/-! ### The claims -/

variable {srt : List Isect → List Isect}

/-- C131, no false crossings: whatever the conversion to `float` does, the reported crossings come in order, and each is a point of
the line on a triangle of the mesh, entering exactly if against its normal. -/
theorem C131_sound (rnd : ℝ → ℝ) (nth : Nth) (hsrt : IsIsectSort srt) (ts : List Tri) (o : Vec3 ℝ) {d : Vec3 ℝ} (hd : d ≠ 0) :
    (intersections rnd nth srt ts o d).Pairwise (fun a b => a.distance ≤ b.distance) ∧
    ∀ i ∈ intersections rnd nth srt ts o d, i.position = at_ o d i.distance ∧ Crosses ts o d i.distance (i.entering = true) := by
  unfold intersections
  split
  · simp
  · obtain ⟨h1, h2⟩ := hsrt ((build rnd nth ts).hits o d)
    refine ⟨h2.sublist (merge_sublist _), fun i hi => ?_⟩
    obtain ⟨T, hT, h⟩ := build_sub rnd nth o d _ ts rfl i (h1.subset ((merge_sublist _).subset hi))
    obtain ⟨a, b, c, e, -⟩ := (hitOf_some hd).mp h
    exact ⟨e, T, hT, a, b, c⟩

/-- C131, no crossing is missed, for coordinates of type `float`: a reported crossing is at every crossing, up to the distance the
code takes for the same. -/
theorem C131_complete_partial {rnd : ℝ → ℝ} (nth : Nth) (hsrt : IsIsectSort srt) {ts : List Tri} (hf : Floats rnd ts)
    (hn : ts.length ≤ 65535) (o : Vec3 ℝ) {d : Vec3 ℝ} (hd : d ≠ 0) (ht : ∀ T ∈ ts, ∀ t, T.Has (at_ o d t) → |t| ≤ 1e308)
    {t : ℝ} {enter : Prop} (hc : Crosses ts o d t enter) :
    ∃ i ∈ intersections rnd nth srt ts o d, Same t i.distance := by
  classical
  obtain ⟨T, hT, h1, h2, h3⟩ := hc
  have hh : hitOf o d T = some ⟨t, 0, decide enter, at_ o d t⟩ := (hitOf_some hd).mpr ⟨h1, h2, by simpa using h3, rfl, rfl⟩
  have hm : (⟨t, 0, decide enter, at_ o d t⟩ : Isect) ∈ srt ((build rnd nth ts).hits o d) := by
    rw [(hsrt _).1.mem_iff, (build_perm hf nth hd ht _ ts rfl hn fun _ h => h).mem_iff]
    exact List.mem_filterMap.mpr ⟨T, hT, hh⟩
  unfold intersections
  rw [if_neg (by cases ts <;> simp_all)]
  exact merge_near _ _ hm

/-- C131 fails for other coordinates: the bounds of the tree are rounded to the nearest `float`, so they can cut off a part of a
triangle. The float nearest to 0.1 is larger; a line between the two is not reported to cross a triangle it crosses. -/
theorem C131_float_fails (rnd : ℝ → ℝ) (hr : rnd 0.1 = 13421773 / 134217728) (nth : Nth) (hsrt : IsIsectSort srt) :
    ∃ (ts : List Tri) (o d : Vec3 ℝ), d ≠ 0 ∧ Crosses ts o d 1 True ∧ intersections rnd nth srt ts o d = [] := by
  refine ⟨[⟨⟨0.1, 0, 0⟩, ⟨0.1, 1, 0⟩, ⟨1.1, 0, 0⟩⟩], ⟨0.1000000001, 0.5, -1⟩, ⟨0, 0, 1⟩, ?_, ?_, ?_⟩
  · intro h; have := congrArg Vec3.z h; simp at this
  · refine ⟨_, List.mem_singleton.mpr rfl, ?_, ⟨0.4999999999, 0.5, 0.0000000001, by norm_num, by norm_num, by norm_num, by norm_num, ?_⟩, ?_⟩
    · simp [Tri.normal, Vec3.dot, Vec3.cross]; norm_num
    · ext <;> simp [at_] <;> norm_num
    · simp [Tri.normal, Vec3.dot, Vec3.cross]; norm_num
  · have hb : build rnd nth [⟨⟨0.1, 0, 0⟩, ⟨0.1, 1, 0⟩, ⟨1.1, 0, 0⟩⟩] =
        .leaf (boundsOf rnd [⟨⟨0.1, 0, 0⟩, ⟨0.1, 1, 0⟩, ⟨1.1, 0, 0⟩⟩]) [⟨⟨0.1, 0, 0⟩, ⟨0.1, 1, 0⟩, ⟨1.1, 0, 0⟩⟩] := by
      rw [build, if_pos (by simp)]
    have hbox : ¬ rayBox (boundsOf rnd [⟨⟨0.1, 0, 0⟩, ⟨0.1, 1, 0⟩, ⟨1.1, 0, 0⟩⟩]) ⟨0.1000000001, 0.5, -1⟩ ⟨0, 0, 1⟩ := by
      have e : (boundsOf rnd [⟨⟨0.1, 0, 0⟩, ⟨0.1, 1, 0⟩, ⟨1.1, 0, 0⟩⟩]).lo.x = 13421773 / 134217728 := by
        show min 1e30 (rnd (min 0.1 (min 0.1 1.1))) = _
        have : min (0.1 : ℝ) (min 0.1 1.1) = 0.1 := by norm_num
        rw [this, hr]; norm_num
      have hs : slab1 (boundsOf rnd [⟨⟨0.1, 0, 0⟩, ⟨0.1, 1, 0⟩, ⟨1.1, 0, 0⟩⟩]).lo.x
          (boundsOf rnd [⟨⟨0.1, 0, 0⟩, ⟨0.1, 1, 0⟩, ⟨1.1, 0, 0⟩⟩]).hi.x 0.1000000001 (inv 0) = none := by
        unfold slab1
        rw [if_pos (inv_zero.mpr rfl), e, if_pos (Or.inl (by norm_num))]
      unfold rayBox
      rw [hs]
      simp
    unfold intersections
    rw [if_neg (by simp), hb]
    have hnil : srt [] = [] := List.perm_nil.mp (hsrt []).1
    simp only [Bvh.hits, if_neg hbox, hnil, merge]

/-- C131, the tree fits in what is reserved for it: twice the number of triangles (GeometryMesh.cxx:283-284). `BuildBVH` holds a
reference to a node while it adds others. -/
theorem C131_reserved (rnd : ℝ → ℝ) (nth : Nth) : ∀ (n : ℕ) (l : List Tri), l.length = n → l ≠ [] →
    (build rnd nth l).size < 2 * l.length := by
  intro n
  induction n using Nat.strong_induction_on with
  | _ n ih =>
    intro l hl h0
    have hpos := List.length_pos_of_ne_nil h0
    rw [build]
    split
    · simp only [Bvh.size]; omega
    next h8 =>
      split
      · simp only [Bvh.size]; omega
      · have hlen := (nth.perm (fun T => centroid rnd T (splitAxis rnd l)) l).length_eq
        generalize nth.f (fun T => centroid rnd T (splitAxis rnd l)) l = l' at hlen
        have l1 : (l'.take (l.length / 2)).length = l.length / 2 := by simp only [List.length_take, hlen]; omega
        have l2 : (l'.drop (l.length / 2)).length = l.length - l.length / 2 := by simp only [List.length_drop, hlen]
        have s1 := ih _ (by omega) (l'.take (l.length / 2)) rfl (List.ne_nil_of_length_pos (by omega))
        have s2 := ih _ (by omega) (l'.drop (l.length / 2)) rfl (List.ne_nil_of_length_pos (by omega))
        simp only [Bvh.size]
        omega

/-- The hypotheses of the theorems are met: a line along z through a triangle in the plane z = 0. -/
example : ∃ (ts : List Tri) (o d : Vec3 ℝ), d ≠ 0 ∧ Floats id ts ∧ ts.length ≤ 65535 ∧
    (∀ T ∈ ts, ∀ t, T.Has (at_ o d t) → |t| ≤ 1e308) ∧ Crosses ts o d 1 True := by
  refine ⟨[⟨⟨0, 0, 0⟩, ⟨0, 1, 0⟩, ⟨1, 0, 0⟩⟩], ⟨1 / 4, 1 / 4, -1⟩, ⟨0, 0, 1⟩, ?_, ?_, by simp, ?_, ?_⟩
  · intro h; have := congrArg Vec3.z h; simp at this
  · intro T _ k; exact ⟨rfl, rfl, rfl⟩
  · intro T hT t h
    rw [List.mem_singleton] at hT
    subst hT
    obtain ⟨u, v, w, -, -, -, -, h⟩ := h
    have := congrArg Vec3.z h
    simp [at_] at this
    have : t = 1 := by linarith
    rw [this]; norm_num
  · refine ⟨_, List.mem_singleton.mpr rfl, ?_, ⟨1 / 2, 1 / 4, 1 / 4, by norm_num, by norm_num, by norm_num, by norm_num, ?_⟩, ?_⟩
    · simp [Tri.normal, Vec3.dot, Vec3.cross]
    · ext <;> simp [at_]
    · simp [Tri.normal, Vec3.dot, Vec3.cross]

end Mesh
end Siren.Geometry
