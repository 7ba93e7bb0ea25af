import Verif.Math.QuadMain
import Mathlib.Data.List.MinMax
import Mathlib.Tactic.FieldSimp
import Mathlib.Tactic.LinearCombination
import Mathlib.Tactic.NormNum

set_option autoImplicit false
set_option linter.unusedSectionVars false

/-!
# C123: interpolation on a triangulation

Models `DelaunayIndexer2D`, the simplex operators and `LinearDelaunayInterpolator2D` of `math/public/SIREN/math/Interpolation.h`, over any
ordered field. The triangulation itself comes from the delabella library, whose source is not in the repository: it is a parameter.
-/

namespace Siren.Math.Delaunay

open Siren Quad

variable {K : Type} [Field K] [LinearOrder K]

/-- `DelaunayIndexer2D::Point` (Interpolation.h:1287-1294): `i` is the position in the table. -/
structure Point (K : Type) where
  x : K
  y : K
  i : Nat
  deriving DecidableEq

/-- `DelaunayIndexer2D::Tri` (Interpolation.h:1301-1308). -/
structure Tri (K : Type) where
  p0 : Point K
  p1 : Point K
  p2 : Point K
  deriving DecidableEq

/-- `GetBox` (Interpolation.h:1264-1273). -/
def triBox (t : Tri K) : Box K :=
  let xMin := min t.p0.x (min t.p1.x t.p2.x)
  let xMax := max t.p0.x (max t.p1.x t.p2.x)
  let yMin := min t.p0.y (min t.p1.y t.p2.y)
  let yMax := max t.p0.y (max t.p1.y t.p2.y)
  ⟨xMin, yMin, xMax - xMin, yMax - yMin⟩

/-- `PointInTriangle` (Interpolation.h:1313-1322). For a triangle without area both divisions are by zero; in floating point the last test
then fails, and here the first two do. -/
def pointInTriangle (x y : K) (t : Tri K) : Bool :=
  let v0 := t.p0
  let v1 := t.p1
  let v2 := t.p2
  let s := (y * (v0.x - v2.x) + v0.y * v2.x - v0.x * v2.y + x * (-v0.y + v2.y))
    / (-v1.y * v2.x + v0.y * (-v1.x + v2.x) + v0.x * (v1.y - v2.y) + v1.x * v2.y)
  let u := (y * (v0.x - v1.x) + v0.y * v1.x - v0.x * v1.y + x * (-v0.y + v1.y))
    / (v0.y * (v1.x - v2.x) + v1.y * v2.x - v1.x * v2.y + v0.x * (-v1.y + v2.y))
  decide (s > 0 ∧ u > 0 ∧ 1 - s - u > 0)

/-- A pointer into `all_tris`: the triangle and its position. -/
abbrev Ptr (K : Type) := Tri K × Nat

/-- `DelaunayIndexer2D` (Interpolation.h:1282-1311); `root` is the box of `q_tree`. -/
structure Indexer (K : Type) where
  root : Box K
  tree : Quad.Tree (Ptr K)
  tris : List (Tri K)

/-- `std::min_element` of a vector that is not empty, dereferenced. -/
def least (a : K) (l : List K) : K := l.foldl min a

/-- `std::max_element` of a vector that is not empty, dereferenced. -/
def greatest (a : K) (l : List K) : K := l.foldl max a

/-- The box of the tree (Interpolation.h:1341-1348). -/
def boundingBox (minX maxX minY maxY : K) : Box K :=
  let widthX := maxX - minX
  let widthY := maxY - minY
  ⟨minX - widthX * (1 / 10000), minY - widthY * (1 / 10000), widthX * (1 + 2 / 10000), widthY * (1 + 2 / 10000)⟩

/-- The constructor of `DelaunayIndexer2D` (Interpolation.h:1339-1385). `triangulate` stands for delabella: `none` if it finds no triangle
(1365-1367). The smallest element of an empty vector is read through the end iterator. -/
def build (checked : Bool) (triangulate : List K → List K → Option (List (Tri K))) (x y : List K) : Res (Indexer K) :=
  match x, y with
  | x0 :: xs, y0 :: ys =>
    let root := boundingBox (least x0 xs) (greatest x0 xs) (least y0 ys) (greatest y0 ys)
    match triangulate x y with
    | none => .throws .runtimeError
    | some tris =>
      (run checked (fun p : Ptr K => triBox p.1) root empty (tris.zipIdx.map .add)).bind fun t => .ok ⟨root, t, tris⟩
  | _, _ => .ub

/-- `operator()` of `DelaunayIndexer2D` (Interpolation.h:1387-1402). -/
def Indexer.find (checked : Bool) (ix : Indexer K) (x y : K) : Res (Option (Tri K)) :=
  (query checked (fun p : Ptr K => triBox p.1) ix.root ix.tree ⟨x, y, 0, 0⟩).bind fun l =>
    match l.find? fun p => pointInTriangle x y p.1 with
    | some p => .ok (some p.1)
    | none => .ok (ix.tris.find? fun t => pointInTriangle x y t)

/-- `SimplexLinearInterpolationOperator::operator()` (Interpolation.h:823-832). -/
def simplex (x y : K) (t : Tri K) (z1 z2 z3 : K) : K :=
  let v1 := t.p0
  let v2 := t.p1
  let v3 := t.p2
  let denominator := (v2.y - v3.y) * (v1.x - v3.x) + (v3.x - v2.x) * (v1.y - v3.y)
  let w1 := ((v2.y - v3.y) * (x - v3.x) + (v3.x - v2.x) * (y - v3.y)) / denominator
  let w2 := ((v3.y - v1.y) * (x - v3.x) + (v1.x - v3.x) * (y - v3.y)) / denominator
  let w3 := 1 - w1 - w2
  w1 * z1 + w2 * z2 + w3 * z3

/-- `DropSimplexLinearInterpolationOperator::operator()` (Interpolation.h:840-844), with the second value as it is passed on. -/
def dropSimplex (x y : K) (t : Tri K) (z1 z2 z3 : K) : K :=
  if z1 = 0 ∨ z2 = 0 ∨ z3 = 0 then 0 else simplex x y t z1 z1 z3

/-- A `Transform`: `Function` and `Inverse` (Interpolation.h:38-43). -/
structure Trans (K : Type) where
  fn : K → K
  inv : K → K

/-- `LinearDelaunayInterpolator2D` (Interpolation.h:1460-1477); `t_x` and `t_y` are not read after construction. -/
structure Interp (K : Type) where
  tz : List K
  indexer : Indexer K
  op : K → K → Tri K → K → K → K → K
  zt : Trans K

/-- The constructor of `LinearDelaunayInterpolator2D` (Interpolation.h:1479-1490). The indexer built first from the plain coordinates (1480)
is replaced (1489); building it must not fail either. The three vectors are read up to the size of the first. -/
def make (checked : Bool) (triangulate : List K → List K → Option (List (Tri K))) (x y z : List K) (xt yt zt : Trans K)
    (op : K → K → Tri K → K → K → K → K) : Res (Interp K) :=
  (build checked triangulate x y).bind fun _ =>
    if y.length < x.length ∨ z.length < x.length then .ub
    else
      (build checked triangulate (x.map xt.fn) ((y.take x.length).map yt.fn)).bind fun ix =>
        .ok ⟨(z.take x.length).map zt.fn, ix, op, zt⟩

/-- `operator[]` of a vector. -/
def rd (l : List K) (i : Nat) : Res K := match l[i]? with | some a => .ok a | none => .ub

/-- `operator()` of `LinearDelaunayInterpolator2D` (Interpolation.h:1492-1502). -/
def Interp.eval (checked : Bool) (f : Interp K) (x y : K) : Res K :=
  (f.indexer.find checked x y).bind fun r =>
    match r with
    | none => .throws .runtimeError
    | some t => (rd f.tz t.p0.i).bind fun z0 => (rd f.tz t.p1.i).bind fun z1 => (rd f.tz t.p2.i).bind fun z2 =>
        .ok (f.zt.inv (f.op x y t z0 z1 z2))

/-! ## Specification -/

/-- The weights describe the point in terms of the corners of the triangle. -/
def Weights (t : Tri K) (x y a b c : K) : Prop :=
  a + b + c = 1 ∧ x = a * t.p0.x + b * t.p1.x + c * t.p2.x ∧ y = a * t.p0.y + b * t.p1.y + c * t.p2.y

/-- The corners are not on one line. -/
def Proper (t : Tri K) : Prop :=
  (t.p1.x - t.p0.x) * (t.p2.y - t.p0.y) - (t.p2.x - t.p0.x) * (t.p1.y - t.p0.y) ≠ 0

/-- The point is strictly inside a triangle with area. -/
def Inside (t : Tri K) (x y : K) : Prop :=
  Proper t ∧ ∃ a b c, Weights t x y a b c ∧ 0 < a ∧ 0 < b ∧ 0 < c

/-- The corner is a point of the table. -/
def OnTable (x y : List K) (p : Point K) : Prop := x[p.i]? = some p.x ∧ y[p.i]? = some p.y

/-- The triangles have their corners in the table. -/
def Among (x y : List K) (tris : List (Tri K)) : Prop :=
  ∀ t ∈ tris, OnTable x y t.p0 ∧ OnTable x y t.p1 ∧ OnTable x y t.p2

/-! ## Triangles -/

variable [IsStrictOrderedRing K]

theorem weights_unique (t : Tri K) (x y a b c a' b' c' : K) (hp : Proper t) (h : Weights t x y a b c) (h' : Weights t x y a' b' c') :
    a = a' ∧ b = b' ∧ c = c' := by
  obtain ⟨h1, h2, h3⟩ := h
  obtain ⟨h1', h2', h3'⟩ := h'
  have ec : c = 1 - a - b := by linear_combination h1
  have ec' : c' = 1 - a' - b' := by linear_combination h1'
  subst ec ec'
  have hb : b = b' := by
    apply mul_left_cancel₀ hp
    linear_combination (t.p2.x - t.p0.x) * (h3 - h3') - (t.p2.y - t.p0.y) * (h2 - h2')
  subst hb
  have ha : a = a' := by
    apply mul_left_cancel₀ hp
    have e1 : (a - a') * (t.p0.x - t.p2.x) = 0 := by linear_combination h2' - h2
    have e2 : (a - a') * (t.p0.y - t.p2.y) = 0 := by linear_combination h3' - h3
    linear_combination (t.p1.y - t.p0.y) * e1 - (t.p1.x - t.p0.x) * e2
  exact ⟨ha, rfl, by rw [ha]⟩

theorem weights_exist (t : Tri K) (x y : K) (hp : Proper t) :
    Weights t x y
      (1 - (y * (t.p0.x - t.p2.x) + t.p0.y * t.p2.x - t.p0.x * t.p2.y + x * (-t.p0.y + t.p2.y))
          / (-t.p1.y * t.p2.x + t.p0.y * (-t.p1.x + t.p2.x) + t.p0.x * (t.p1.y - t.p2.y) + t.p1.x * t.p2.y)
        - (y * (t.p0.x - t.p1.x) + t.p0.y * t.p1.x - t.p0.x * t.p1.y + x * (-t.p0.y + t.p1.y))
          / (t.p0.y * (t.p1.x - t.p2.x) + t.p1.y * t.p2.x - t.p1.x * t.p2.y + t.p0.x * (-t.p1.y + t.p2.y)))
      ((y * (t.p0.x - t.p2.x) + t.p0.y * t.p2.x - t.p0.x * t.p2.y + x * (-t.p0.y + t.p2.y))
          / (-t.p1.y * t.p2.x + t.p0.y * (-t.p1.x + t.p2.x) + t.p0.x * (t.p1.y - t.p2.y) + t.p1.x * t.p2.y))
      ((y * (t.p0.x - t.p1.x) + t.p0.y * t.p1.x - t.p0.x * t.p1.y + x * (-t.p0.y + t.p1.y))
          / (t.p0.y * (t.p1.x - t.p2.x) + t.p1.y * t.p2.x - t.p1.x * t.p2.y + t.p0.x * (-t.p1.y + t.p2.y))) := by
  have d1 : -t.p1.y * t.p2.x + t.p0.y * (-t.p1.x + t.p2.x) + t.p0.x * (t.p1.y - t.p2.y) + t.p1.x * t.p2.y =
      (t.p1.x - t.p0.x) * (t.p2.y - t.p0.y) - (t.p2.x - t.p0.x) * (t.p1.y - t.p0.y) := by ring
  have d2 : t.p0.y * (t.p1.x - t.p2.x) + t.p1.y * t.p2.x - t.p1.x * t.p2.y + t.p0.x * (-t.p1.y + t.p2.y) =
      -((t.p1.x - t.p0.x) * (t.p2.y - t.p0.y) - (t.p2.x - t.p0.x) * (t.p1.y - t.p0.y)) := by ring
  rw [d1, d2]
  unfold Proper at hp
  obtain ⟨D, hD⟩ : ∃ D, D = (t.p1.x - t.p0.x) * (t.p2.y - t.p0.y) - (t.p2.x - t.p0.x) * (t.p1.y - t.p0.y) := ⟨_, rfl⟩
  rw [← hD] at hp ⊢
  refine ⟨by ring, ?_, ?_⟩ <;> field_simp <;> rw [hD] <;> ring

theorem pointInTriangle_iff (x y : K) (t : Tri K) : pointInTriangle x y t = true ↔ Inside t x y := by
  simp only [pointInTriangle, decide_eq_true_eq]
  by_cases hp : Proper t
  · have hw := weights_exist t x y hp
    constructor
    · rintro ⟨h1, h2, h3⟩
      exact ⟨hp, _, _, _, hw, h3, h1, h2⟩
    · rintro ⟨_, a, b, c, hw', ha, hb, hc⟩
      obtain ⟨e1, e2, e3⟩ := weights_unique t x y _ _ _ _ _ _ hp hw hw'
      refine ⟨?_, ?_, ?_⟩
      · rw [e2]; exact hb
      · rw [e3]; exact hc
      · rw [e1]; exact ha
  · constructor
    · rintro ⟨h1, _, _⟩
      exfalso
      unfold Proper at hp
      rw [not_not] at hp
      have d1 : -t.p1.y * t.p2.x + t.p0.y * (-t.p1.x + t.p2.x) + t.p0.x * (t.p1.y - t.p2.y) + t.p1.x * t.p2.y = 0 := by
        rw [← hp]; ring
      rw [d1, div_zero] at h1
      exact lt_irrefl _ h1
    · intro h
      exact absurd h.1 hp

theorem simplex_eq (x y : K) (t : Tri K) (z1 z2 z3 a b c : K) (hp : Proper t) (hw : Weights t x y a b c) :
    simplex x y t z1 z2 z3 = a * z1 + b * z2 + c * z3 := by
  have hd : (t.p1.y - t.p2.y) * (t.p0.x - t.p2.x) + (t.p2.x - t.p1.x) * (t.p0.y - t.p2.y) ≠ 0 := by
    intro h
    apply hp
    rw [← h]
    ring
  obtain ⟨h1, h2, h3⟩ := hw
  have ec : c = 1 - a - b := by linear_combination h1
  have e1 : ((t.p1.y - t.p2.y) * (x - t.p2.x) + (t.p2.x - t.p1.x) * (y - t.p2.y))
      / ((t.p1.y - t.p2.y) * (t.p0.x - t.p2.x) + (t.p2.x - t.p1.x) * (t.p0.y - t.p2.y)) = a := by
    rw [div_eq_iff hd, h2, h3, ec]
    ring
  have e2 : ((t.p2.y - t.p0.y) * (x - t.p2.x) + (t.p0.x - t.p2.x) * (y - t.p2.y))
      / ((t.p1.y - t.p2.y) * (t.p0.x - t.p2.x) + (t.p2.x - t.p1.x) * (t.p0.y - t.p2.y)) = b := by
    rw [div_eq_iff hd, h2, h3, ec]
    ring
  simp only [simplex, e1, e2]
  rw [ec]

/-! ## The indexer -/

theorem least_le (l : List K) : ∀ a : K, least a l ≤ a ∧ ∀ b ∈ l, least a l ≤ b := by
  induction l with
  | nil => intro a; exact ⟨le_refl _, by simp⟩
  | cons x l ih =>
    intro a
    have := ih (min a x)
    refine ⟨le_trans this.1 (min_le_left _ _), fun b hb => ?_⟩
    rcases List.mem_cons.1 hb with rfl | hb
    · exact le_trans this.1 (min_le_right _ _)
    · exact this.2 b hb

theorem le_greatest (l : List K) : ∀ a : K, a ≤ greatest a l ∧ ∀ b ∈ l, b ≤ greatest a l := by
  induction l with
  | nil => intro a; exact ⟨le_refl _, by simp⟩
  | cons x l ih =>
    intro a
    have := ih (max a x)
    refine ⟨le_trans (le_max_left _ _) this.1, fun b hb => ?_⟩
    rcases List.mem_cons.1 hb with rfl | hb
    · exact le_trans (le_max_right _ _) this.1
    · exact this.2 b hb

theorem between (a : K) (l : List K) (b : K) (hb : b ∈ a :: l) : least a l ≤ b ∧ b ≤ greatest a l := by
  rcases List.mem_cons.1 hb with rfl | hb
  · exact ⟨(least_le l b).1, (le_greatest l b).1⟩
  · exact ⟨(least_le l a).2 b hb, (le_greatest l a).2 b hb⟩

theorem boundingBox_contains (minX maxX minY maxY : K) (t : Tri K)
    (hx : ∀ v ∈ [t.p0.x, t.p1.x, t.p2.x], minX ≤ v ∧ v ≤ maxX) (hy : ∀ v ∈ [t.p0.y, t.p1.y, t.p2.y], minY ≤ v ∧ v ≤ maxY) :
    (boundingBox minX maxX minY maxY).contains (triBox t) := by
  simp only [List.mem_cons, List.not_mem_nil, or_false, forall_eq_or_imp, forall_eq] at hx hy
  have wx : 0 ≤ maxX - minX := by linarith [hx.1.1, hx.1.2]
  have wy : 0 ≤ maxY - minY := by linarith [hy.1.1, hy.1.2]
  have ax : minX ≤ min t.p0.x (min t.p1.x t.p2.x) := le_min hx.1.1 (le_min hx.2.1.1 hx.2.2.1)
  have bx : max t.p0.x (max t.p1.x t.p2.x) ≤ maxX := max_le hx.1.2 (max_le hx.2.1.2 hx.2.2.2)
  have ay : minY ≤ min t.p0.y (min t.p1.y t.p2.y) := le_min hy.1.1 (le_min hy.2.1.1 hy.2.2.1)
  have by' : max t.p0.y (max t.p1.y t.p2.y) ≤ maxY := max_le hy.1.2 (max_le hy.2.1.2 hy.2.2.2)
  simp only [Box.contains, boundingBox, triBox, Box.right, Box.bottom]
  refine ⟨?_, ?_, ?_, ?_⟩ <;> linarith

theorem mean_above (a b c u v w m : K) (h1 : a + b + c = 1) (ha : 0 < a) (hb : 0 < b) (hc : 0 < c) (u1 : m ≤ u) (v1 : m ≤ v) (w1 : m ≤ w)
    (hne : v ≠ u ∨ w ≠ u) : m < a * u + b * v + c * w := by
  by_contra hcon
  rw [not_lt] at hcon
  have p1 := mul_nonneg ha.le (sub_nonneg.2 u1)
  have p2 := mul_nonneg hb.le (sub_nonneg.2 v1)
  have p3 := mul_nonneg hc.le (sub_nonneg.2 w1)
  have hs : a * (u - m) + b * (v - m) + c * (w - m) = (a * u + b * v + c * w) - m := by linear_combination -m * h1
  have q1 : a * (u - m) = 0 := le_antisymm (by linarith) p1
  have q2 : b * (v - m) = 0 := le_antisymm (by linarith) p2
  have q3 : c * (w - m) = 0 := le_antisymm (by linarith) p3
  rw [mul_eq_zero, or_iff_right ha.ne'] at q1
  rw [mul_eq_zero, or_iff_right hb.ne'] at q2
  rw [mul_eq_zero, or_iff_right hc.ne'] at q3
  rcases hne with h | h <;> apply h <;> linarith

theorem inside_box (t : Tri K) (x y : K) (h : Inside t x y) : (⟨x, y, 0, 0⟩ : Box K).intersects (triBox t) := by
  obtain ⟨hp, a, b, c, ⟨h1, h2, h3⟩, ha, hb, hc⟩ := h
  rw [C122_point]
  simp only [triBox]
  have strict : ∀ u v w : K, (v ≠ u ∨ w ≠ u) → min u (min v w) < a * u + b * v + c * w ∧ a * u + b * v + c * w < max u (max v w) := by
    intro u v w hne
    constructor
    · exact mean_above a b c u v w _ h1 ha hb hc (min_le_left _ _) (le_trans (min_le_right _ _) (min_le_left _ _))
        (le_trans (min_le_right _ _) (min_le_right _ _)) hne
    · have := mean_above a b c (-u) (-v) (-w) (-max u (max v w)) h1 ha hb hc (neg_le_neg (le_max_left _ _))
        (neg_le_neg (le_trans (le_max_left _ _) (le_max_right _ _))) (neg_le_neg (le_trans (le_max_right _ _) (le_max_right _ _)))
        (by simpa [neg_inj] using hne)
      linarith
  have nx : t.p1.x ≠ t.p0.x ∨ t.p2.x ≠ t.p0.x := by
    by_contra hcon
    push Not at hcon
    apply hp
    rw [hcon.1, hcon.2]; ring
  have ny : t.p1.y ≠ t.p0.y ∨ t.p2.y ≠ t.p0.y := by
    by_contra hcon
    push Not at hcon
    apply hp
    rw [hcon.1, hcon.2]; ring
  have sx := strict t.p0.x t.p1.x t.p2.x nx
  have sy := strict t.p0.y t.p1.y t.p2.y ny
  rw [← h2] at sx
  rw [← h3] at sy
  exact ⟨sx.1, by linarith [sx.2], sy.1, by linarith [sy.2]⟩

theorem legal_adds (getBox : Ptr K → Box K) (root : Box K) (l : List (Ptr K)) (h : ∀ p ∈ l, root.contains (getBox p)) :
    ∀ s, Legal getBox root s (l.map .add) := by
  induction l with
  | nil => intro s; trivial
  | cons p l ih =>
    intro s
    exact ⟨h p (by simp), ih (fun q hq => h q (by simp [hq])) _⟩

theorem held_adds (l : List (Ptr K)) : ∀ s, held s (l.map .add) = s + (l : Multiset (Ptr K)) := by
  induction l with
  | nil => intro s; simp [held]
  | cons p l ih =>
    intro s
    rw [List.map_cons, held, ih, ← Multiset.cons_coe, Multiset.cons_add, Multiset.add_cons]

theorem find_spec (checked : Bool) (x y : List K) (tris : List (Tri K)) (triangulate : List K → List K → Option (List (Tri K)))
    (hx : x ≠ []) (hy : y ≠ []) (ht : triangulate x y = some tris) (ha : Among x y tris) :
    ∃ ix, build checked triangulate x y = .ok ix ∧
      (∃ x0 xs y0 ys, x = x0 :: xs ∧ y = y0 :: ys ∧
        ix.root = boundingBox (least x0 xs) (greatest x0 xs) (least y0 ys) (greatest y0 ys)) ∧ ix.tris = tris ∧
      ∀ u v : K, (checked = true → (⟨u, v, 0, 0⟩ : Box K).intersects ix.root) →
        ∃ r, ix.find checked u v = .ok r ∧ (∀ t, r = some t → t ∈ tris ∧ Inside t u v) ∧ (r = none → ∀ t ∈ tris, ¬ Inside t u v) := by
  obtain ⟨x0, xs, rfl⟩ := List.exists_cons_of_ne_nil hx
  obtain ⟨y0, ys, rfl⟩ := List.exists_cons_of_ne_nil hy
  have hc : ∀ p ∈ tris.zipIdx, (boundingBox (least x0 xs) (greatest x0 xs) (least y0 ys) (greatest y0 ys)).contains (triBox p.1) := by
    intro p hp
    obtain ⟨h0, h1, h2⟩ := ha p.1 (List.fst_mem_of_mem_zipIdx hp)
    apply boundingBox_contains
    · intro v hv
      simp only [List.mem_cons, List.not_mem_nil, or_false] at hv
      rcases hv with rfl | rfl | rfl
      · exact between x0 xs _ (List.mem_of_getElem? h0.1)
      · exact between x0 xs _ (List.mem_of_getElem? h1.1)
      · exact between x0 xs _ (List.mem_of_getElem? h2.1)
    · intro v hv
      simp only [List.mem_cons, List.not_mem_nil, or_false] at hv
      rcases hv with rfl | rfl | rfl
      · exact between y0 ys _ (List.mem_of_getElem? h0.2)
      · exact between y0 ys _ (List.mem_of_getElem? h1.2)
      · exact between y0 ys _ (List.mem_of_getElem? h2.2)
  obtain ⟨tree, e, hq⟩ := C122_query checked (fun p : Ptr K => triBox p.1)
    (boundingBox (least x0 xs) (greatest x0 xs) (least y0 ys) (greatest y0 ys)) (tris.zipIdx.map .add) (legal_adds _ _ _ hc 0)
  refine ⟨⟨boundingBox (least x0 xs) (greatest x0 xs) (least y0 ys) (greatest y0 ys), tree, tris⟩, by simp only [build, ht, e, Res.bind], ⟨x0, xs, y0, ys, rfl, rfl, rfl⟩, rfl, ?_⟩
  intro u v huv
  obtain ⟨l, e2, hl⟩ := hq ⟨u, v, 0, 0⟩ huv
  rw [held_adds, zero_add] at hl
  have hmem : ∀ p, p ∈ l → p ∈ tris.zipIdx := by
    intro p hp
    have : p ∈ (l : Multiset (Ptr K)) := hp
    rw [hl] at this
    simpa using (Multiset.mem_filter.1 this).1
  simp only [Indexer.find, e2, Res.bind]
  rcases hf : l.find? fun p => pointInTriangle u v p.1 with _ | p
  · refine ⟨tris.find? fun t => pointInTriangle u v t, by rw [hf], ?_, ?_⟩
    · intro t ht
      exact ⟨List.mem_of_find?_eq_some ht, (pointInTriangle_iff u v t).1 (by simpa using List.find?_some ht)⟩
    · intro hn t ht hi
      have := List.find?_eq_none.1 hn t ht
      exact this ((pointInTriangle_iff u v t).2 hi)
  · refine ⟨some p.1, by rw [hf], ?_, by simp⟩
    rintro t ht
    cases ht
    exact ⟨List.fst_mem_of_mem_zipIdx (hmem p (List.mem_of_find?_eq_some hf)),
      (pointInTriangle_iff u v p.1).1 (by simpa using List.find?_some hf)⟩

/-! ## C123 -/

/-- The indexer is built without failure, and returns a triangle that has the point strictly inside if there is one, and nothing otherwise.
With assertions compiled in, the point must lie in the box of the tree. -/
theorem C123_locate (checked : Bool) (x y : List K) (tris : List (Tri K)) (triangulate : List K → List K → Option (List (Tri K)))
    (hx : x ≠ []) (hy : y ≠ []) (ht : triangulate x y = some tris) (ha : Among x y tris) :
    ∃ ix, build checked triangulate x y = .ok ix ∧
      ∀ u v : K, (checked = true → ∃ a ∈ x, ∃ b ∈ x, ∃ c ∈ y, ∃ d ∈ y, a < u ∧ u < b ∧ c < v ∧ v < d) →
        ∃ r, ix.find checked u v = .ok r ∧ (∀ t, r = some t → t ∈ tris ∧ Inside t u v) ∧ (r = none → ∀ t ∈ tris, ¬ Inside t u v) := by
  obtain ⟨ix, e, ⟨x0, xs, y0, ys, rfl, rfl, hroot⟩, _, h⟩ := find_spec checked x y tris triangulate hx hy ht ha
  refine ⟨ix, e, fun u v huv => h u v fun hc => ?_⟩
  obtain ⟨a, ha', b, hb, c, hc', d, hd, h1, h2, h3, h4⟩ := huv hc
  have ba := between x0 xs a ha'
  have bb := between x0 xs b hb
  have bc := between y0 ys c hc'
  have bd := between y0 ys d hd
  rw [hroot, C122_point]
  simp only [boundingBox]
  have wx : 0 ≤ greatest x0 xs - least x0 xs := by linarith [ba.1, ba.2]
  have wy : 0 ≤ greatest y0 ys - least y0 ys := by linarith [bc.1, bc.2]
  refine ⟨?_, ?_, ?_, ?_⟩ <;> linarith [ba.1, ba.2, bb.1, bb.2, bc.1, bc.2, bd.1, bd.2]

theorem rd_ok (l : List K) (i : Nat) (a : K) (h : l[i]? = some a) : rd l i = .ok a := by
  simp [rd, h]

/-- For tables whose coordinates are not transformed: at a point strictly inside some triangle the interpolator returns the inverse transform
of the mean of the transformed values at the corners of one such triangle, with the weights that give the point from the corners. -/
theorem C123_mean_partial (checked : Bool) (x y z : List K) (tris : List (Tri K)) (triangulate : List K → List K → Option (List (Tri K)))
    (zt : Trans K) (hx : x ≠ []) (hy : y.length = x.length) (hz : z.length = x.length) (ht : triangulate x y = some tris) (ha : Among x y tris) :
    ∃ f, make checked triangulate x y z ⟨id, id⟩ ⟨id, id⟩ zt simplex = .ok f ∧
      ∀ u v : K, (∃ t ∈ tris, Inside t u v) →
        ∃ t ∈ tris, ∃ a b c z0 z1 z2, Weights t u v a b c ∧ 0 < a ∧ 0 < b ∧ 0 < c ∧
          z[t.p0.i]? = some z0 ∧ z[t.p1.i]? = some z1 ∧ z[t.p2.i]? = some z2 ∧
          f.eval checked u v = .ok (zt.inv (a * zt.fn z0 + b * zt.fn z1 + c * zt.fn z2)) := by
  have hy0 : y ≠ [] := by
    intro h
    rw [h] at hy
    exact hx (List.length_eq_zero_iff.1 hy.symm)
  obtain ⟨ix, e, ⟨x0, xs, y0, ys, hxe, hye, hroot⟩, _, h⟩ := find_spec checked x y tris triangulate hx hy0 ht ha
  have emake : make checked triangulate x y z ⟨id, id⟩ ⟨id, id⟩ zt simplex = .ok ⟨z.map zt.fn, ix, simplex, zt⟩ := by
    simp only [make, e, Res.bind, hy, hz, lt_irrefl, or_self, if_false, List.map_id]
    rw [show y.take x.length = y by rw [← hy]; exact List.take_length, e, show z.take x.length = z by rw [← hz]; exact List.take_length]
  refine ⟨_, emake, fun u v hin => ?_⟩
  have hbox : (⟨u, v, 0, 0⟩ : Box K).intersects ix.root := by
    obtain ⟨t, ht', hi⟩ := hin
    refine intersects_mono _ _ _ ?_ (inside_box t u v hi)
    obtain ⟨h0, h1, h2⟩ := ha t ht'
    rw [hroot]
    subst hxe hye
    apply boundingBox_contains
    · intro w hw
      simp only [List.mem_cons, List.not_mem_nil, or_false] at hw
      rcases hw with rfl | rfl | rfl
      · exact between x0 xs _ (List.mem_of_getElem? h0.1)
      · exact between x0 xs _ (List.mem_of_getElem? h1.1)
      · exact between x0 xs _ (List.mem_of_getElem? h2.1)
    · intro w hw
      simp only [List.mem_cons, List.not_mem_nil, or_false] at hw
      rcases hw with rfl | rfl | rfl
      · exact between y0 ys _ (List.mem_of_getElem? h0.2)
      · exact between y0 ys _ (List.mem_of_getElem? h1.2)
      · exact between y0 ys _ (List.mem_of_getElem? h2.2)
  obtain ⟨r, er, hr1, hr2⟩ := h u v (fun _ => hbox)
  rcases r with _ | t
  · obtain ⟨t, ht', hi⟩ := hin
    exact absurd hi (hr2 rfl t ht')
  · obtain ⟨htm, hi⟩ := hr1 t rfl
    obtain ⟨hp, a, b, c, hw, ha', hb', hc'⟩ := hi
    obtain ⟨h0, h1, h2⟩ := ha t htm
    have get : ∀ p : Point K, OnTable x y p → ∃ w, z[p.i]? = some w ∧ rd (z.map zt.fn) p.i = .ok (zt.fn w) := by
      intro p hp
      have hlt : p.i < z.length := by
        rw [hz]
        exact (List.getElem?_eq_some_iff.1 hp.1).1
      refine ⟨z[p.i], List.getElem?_eq_getElem hlt, rd_ok _ _ _ ?_⟩
      rw [List.getElem?_map, List.getElem?_eq_getElem hlt]
      rfl
    obtain ⟨z0, g0, r0⟩ := get t.p0 h0
    obtain ⟨z1, g1, r1⟩ := get t.p1 h1
    obtain ⟨z2, g2, r2⟩ := get t.p2 h2
    refine ⟨t, htm, a, b, c, z0, z1, z2, hw, ha', hb', hc', g0, g1, g2, ?_⟩
    simp only [Interp.eval, er, Res.bind, r0, r1, r2]
    rw [simplex_eq u v t _ _ _ a b c hp hw]

/-- Tables of a function that is affine after the transform of the values are interpolated without error. -/
theorem C123_affine_partial (checked : Bool) (x y z : List K) (tris : List (Tri K)) (triangulate : List K → List K → Option (List (Tri K)))
    (zt : Trans K) (hx : x ≠ []) (hy : y.length = x.length) (hz : z.length = x.length) (ht : triangulate x y = some tris) (ha : Among x y tris)
    (p q r : K) (haff : ∀ (i : Nat) (u v w : K), x[i]? = some u → y[i]? = some v → z[i]? = some w → zt.fn w = p * u + q * v + r) :
    ∃ f, make checked triangulate x y z ⟨id, id⟩ ⟨id, id⟩ zt simplex = .ok f ∧
      ∀ u v : K, (∃ t ∈ tris, Inside t u v) → f.eval checked u v = .ok (zt.inv (p * u + q * v + r)) := by
  obtain ⟨f, e, h⟩ := C123_mean_partial checked x y z tris triangulate zt hx hy hz ht ha
  refine ⟨f, e, fun u v huv => ?_⟩
  obtain ⟨t, htm, a, b, c, z0, z1, z2, ⟨hw1, hw2, hw3⟩, _, _, _, g0, g1, g2, ev⟩ := h u v huv
  obtain ⟨h0, h1, h2⟩ := ha t htm
  rw [ev, haff _ _ _ _ h0.1 h0.2 g0, haff _ _ _ _ h1.1 h1.2 g1, haff _ _ _ _ h2.1 h2.2 g2]
  congr 2
  rw [hw2, hw3]
  linear_combination r * hw1

/-- At a point strictly inside no triangle, an exception is thrown. -/
theorem C123_outside (x y z : List K) (tris : List (Tri K)) (triangulate : List K → List K → Option (List (Tri K)))
    (zt : Trans K) (op : K → K → Tri K → K → K → K → K) (hx : x ≠ []) (hy : y.length = x.length) (hz : z.length = x.length)
    (ht : triangulate x y = some tris) (ha : Among x y tris) :
    ∃ f, make false triangulate x y z ⟨id, id⟩ ⟨id, id⟩ zt op = .ok f ∧
      ∀ u v : K, (∀ t ∈ tris, ¬ Inside t u v) → f.eval false u v = .throws .runtimeError := by
  have hy0 : y ≠ [] := by
    intro h
    rw [h] at hy
    exact hx (List.length_eq_zero_iff.1 hy.symm)
  obtain ⟨ix, e, _, _, h⟩ := find_spec false x y tris triangulate hx hy0 ht ha
  have emake : make false triangulate x y z ⟨id, id⟩ ⟨id, id⟩ zt op = .ok ⟨z.map zt.fn, ix, op, zt⟩ := by
    simp only [make, e, Res.bind, hy, hz, lt_irrefl, or_self, if_false, List.map_id]
    rw [show y.take x.length = y by rw [← hy]; exact List.take_length, e, show z.take x.length = z by rw [← hz]; exact List.take_length]
  refine ⟨_, emake, fun u v hno => ?_⟩
  obtain ⟨r, er, hr1, _⟩ := h u v (by simp)
  rcases r with _ | t
  · simp [Interp.eval, er, Res.bind]
  · exact absurd (hr1 t rfl).2 (hno t (hr1 t rfl).1)

/-! ### Cases and failures -/

/-- The unit square with its centre. -/
def sx : List ℚ := [0, 1, 1, 0, 1 / 2]
def sy : List ℚ := [0, 0, 1, 1, 1 / 2]

/-- A triangulation of it; other tables are not triangulated. -/
def fan (x y : List ℚ) : Option (List (Tri ℚ)) :=
  match x, y with
  | [a, b, c, d, e], [f, g, h, i, j] => some
    [⟨⟨a, f, 0⟩, ⟨b, g, 1⟩, ⟨e, j, 4⟩⟩, ⟨⟨b, g, 1⟩, ⟨c, h, 2⟩, ⟨e, j, 4⟩⟩, ⟨⟨c, h, 2⟩, ⟨d, i, 3⟩, ⟨e, j, 4⟩⟩,
      ⟨⟨d, i, 3⟩, ⟨a, f, 0⟩, ⟨e, j, 4⟩⟩]
  | _, _ => none

/-- The hypotheses of the theorems hold for it. -/
example : ∃ tris, fan sx sy = some tris ∧ Among sx sy tris ∧ ∃ t ∈ tris, Inside t (1 / 2) (1 / 4) := by
  refine ⟨_, rfl, ?_, ⟨⟨0, 0, 0⟩, ⟨1, 0, 1⟩, ⟨1 / 2, 1 / 2, 4⟩⟩, by simp, ?_, 1 / 4, 1 / 4, 1 / 2, ?_⟩
  · intro t ht
    simp only [List.mem_cons, List.not_mem_nil, or_false] at ht
    rcases ht with rfl | rfl | rfl | rfl <;> simp [OnTable, sx, sy]
  · norm_num [Proper]
  · norm_num [Weights]

/-- At every point of the table an exception is thrown, although the table has a value there: a point of the table is on the edges of its
triangles and strictly inside none. -/
theorem C123_nodes_fails : ∃ f, make false fan sx sy [5, 6, 7, 8, 9] ⟨id, id⟩ ⟨id, id⟩ ⟨id, id⟩ simplex = .ok f ∧
    ∀ i < 5, f.eval false (sx.getD i 0) (sy.getD i 0) = .throws .runtimeError := by
  obtain ⟨f, e⟩ : ∃ f, make false fan sx sy [5, 6, 7, 8, 9] ⟨id, id⟩ ⟨id, id⟩ ⟨id, id⟩ simplex = .ok f := ⟨_, rfl⟩
  refine ⟨f, e, ?_⟩
  have key : ∀ i < 5, ((make false fan sx sy [5, 6, 7, 8, 9] ⟨id, id⟩ ⟨id, id⟩ ⟨id, id⟩ simplex).bind fun f =>
      f.eval false (sx.getD i 0) (sy.getD i 0)) = .throws .runtimeError := by decide +kernel
  intro i hi
  have := key i hi
  rw [e] at this
  exact this

/-- With a transform of the coordinates the triangles are built from the transformed coordinates and searched with the plain ones: here the
table is of the function `x`, the transform halves `x`, and at 1/4 the result is 1/2. -/
theorem C123_transform_fails :
    ((make false fan sx sy sx ⟨fun a => a / 2, fun a => a * 2⟩ ⟨id, id⟩ ⟨id, id⟩ simplex).bind fun f => f.eval false (1 / 4) (1 / 4)) =
      .ok (1 / 2) := by decide +kernel

/-- `DropSimplexLinearInterpolationOperator` does not use the value at the second corner: where no value is zero it does not agree with the
plain operator even near that corner. -/
theorem C123_drop_fails (x y : K) (t : Tri K) (z1 z2 z3 a b c : K) (hp : Proper t) (hw : Weights t x y a b c) (hb : 0 < b)
    (hz : z1 ≠ 0 ∧ z2 ≠ 0 ∧ z3 ≠ 0) (hne : z1 ≠ z2) : dropSimplex x y t z1 z2 z3 ≠ simplex x y t z1 z2 z3 := by
  rw [dropSimplex, if_neg (by tauto), simplex_eq x y t _ _ _ a b c hp hw, simplex_eq x y t _ _ _ a b c hp hw]
  intro h
  apply hne
  apply mul_left_cancel₀ hb.ne'
  linear_combination h

end Siren.Math.Delaunay
