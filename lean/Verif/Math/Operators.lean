import Verif.Math.Transforms

/-!
# Interpolation operators and the choice of the space to interpolate in

`projects/math/public/SIREN/math/Interpolation.h:251-401, 778-810`.
-/

set_option autoImplicit false
set_option linter.unusedSectionVars false

namespace Siren.Math.Operators

section
variable {K : Type} [Field K] [LinearOrder K]

/-- `LinearInterpolationOperator::operator()` (Interpolation.h:255-259). -/
def linear (x0 y0 x1 y1 x : K) : K := (x - x0) * (y1 - y0) / (x1 - x0) + y0

/-- `DropLinearInterpolationOperator::operator()` (Interpolation.h:292-296). -/
def dropLinear (x0 y0 x1 y1 x : K) : K := if y0 = 0 ∨ y1 = 0 then 0 else linear x0 y0 x1 y1 x

/-- `BiLinearInterpolationOperator::operator()` (Interpolation.h:782-798). -/
def biLinear (x0 y0 x1 y1 z00 z01 z10 z11 x y : K) : K :=
  let dx0 := x - x0
  let dx1 := x1 - x
  let dy0 := y - y0
  let dy1 := y1 - y
  (dx1 * dy1 * z00 + dx1 * dy0 * z01 + dx0 * dy1 * z10 + dx0 * dy0 * z11) / ((x1 - x0) * (y1 - y0))

/-- `DropBiLinearInterpolationOperator::operator()` (Interpolation.h:804-809). The second and third parameter have other names there, but are
passed on in the same places. -/
def dropBiLinear (x0 y0 x1 y1 z00 z01 z10 z11 x y : K) : K :=
  if (z00 = 0 ∧ (z01 = 0 ∨ z10 = 0)) ∨ (z11 = 0 ∧ (z01 = 0 ∨ z10 = 0)) then 0 else biLinear x0 y0 x1 y1 z00 z01 z10 z11 x y

variable [IsStrictOrderedRing K]

/-! ## C126: operators -/

/-- Between points with different abscissae the linear operator passes through both values, stays between them, and gives the values of every
straight line; the order of the points does not matter. -/
theorem C126_linear (x0 y0 x1 y1 : K) (h : x0 ≠ x1) :
    linear x0 y0 x1 y1 x0 = y0 ∧ linear x0 y0 x1 y1 x1 = y1 ∧
    (∀ x, min x0 x1 ≤ x → x ≤ max x0 x1 → min y0 y1 ≤ linear x0 y0 x1 y1 x ∧ linear x0 y0 x1 y1 x ≤ max y0 y1) ∧
    (∀ a b x, linear x0 (a * x0 + b) x1 (a * x1 + b) x = a * x + b) ∧
    (∀ x, linear x1 y1 x0 y0 x = linear x0 y0 x1 y1 x) := by
  have hd : x1 - x0 ≠ 0 := sub_ne_zero.2 (Ne.symm h)
  have hd' : x0 - x1 ≠ 0 := sub_ne_zero.2 h
  refine ⟨by simp [linear], ?_, ?_, ?_, ?_⟩
  · unfold linear
    rw [mul_div_right_comm, div_self hd]
    ring
  · intro x h1 h2
    have hw : ∃ w : K, 0 ≤ w ∧ w ≤ 1 ∧ linear x0 y0 x1 y1 x = (1 - w) * y0 + w * y1 := by
      refine ⟨(x - x0) / (x1 - x0), ?_, ?_, by unfold linear; field_simp; ring⟩
      · rcases lt_or_gt_of_ne h with hlt | hgt
        · rw [min_eq_left hlt.le] at h1
          exact div_nonneg (by linarith) (by linarith)
        · rw [max_eq_left hgt.le] at h2
          exact div_nonneg_of_nonpos (by linarith) (by linarith)
      · rcases lt_or_gt_of_ne h with hlt | hgt
        · rw [max_eq_right hlt.le] at h2
          exact (div_le_one (by linarith)).2 (by linarith)
        · rw [min_eq_right hgt.le] at h1
          exact (div_le_one_of_neg (by linarith)).2 (by linarith)
    obtain ⟨w, w0, w1, e⟩ := hw
    rw [e]
    have a0 := min_le_left y0 y1
    have a1 := min_le_right y0 y1
    have b0 := le_max_left y0 y1
    have b1 := le_max_right y0 y1
    constructor
    · nlinarith [mul_le_mul_of_nonneg_left a0 (by linarith : 0 ≤ 1 - w), mul_le_mul_of_nonneg_left a1 w0]
    · nlinarith [mul_le_mul_of_nonneg_left b0 (by linarith : 0 ≤ 1 - w), mul_le_mul_of_nonneg_left b1 w0]
  · intro a b x
    unfold linear
    field_simp
    ring
  · intro x
    have e : x0 - x1 = -(x1 - x0) := by ring
    unfold linear
    rw [e]
    field_simp
    ring

/-- The dropping operator is zero between two points one of which has the value zero, and the linear operator elsewhere. -/
theorem C126_drop_linear (x0 y0 x1 y1 x : K) :
    (y0 = 0 ∨ y1 = 0 → dropLinear x0 y0 x1 y1 x = 0) ∧ (y0 ≠ 0 → y1 ≠ 0 → dropLinear x0 y0 x1 y1 x = linear x0 y0 x1 y1 x) := by
  unfold dropLinear
  refine ⟨fun h => if_pos h, fun h0 h1 => if_neg (by simp [h0, h1])⟩

/-- In a rectangle the bilinear operator is the linear operator in one coordinate between its values in the other, in either order. -/
theorem biLinear_eq (x0 y0 x1 y1 z00 z01 z10 z11 x y : K) (hx : x0 ≠ x1) (hy : y0 ≠ y1) :
    biLinear x0 y0 x1 y1 z00 z01 z10 z11 x y = linear x0 (linear y0 z00 y1 z01 y) x1 (linear y0 z10 y1 z11 y) x ∧
    biLinear x0 y0 x1 y1 z00 z01 z10 z11 x y = linear y0 (linear x0 z00 x1 z10 x) y1 (linear x0 z01 x1 z11 x) y := by
  have hd : x1 - x0 ≠ 0 := sub_ne_zero.2 (Ne.symm hx)
  have he : y1 - y0 ≠ 0 := sub_ne_zero.2 (Ne.symm hy)
  unfold biLinear linear
  constructor
  · field_simp
    ring
  · field_simp
    ring

/-- The bilinear operator gives the values at the four corners, stays between the least and the greatest of them, is linear along each
coordinate, and gives the values of every function of the form `a + b x + c y + d x y`. -/
theorem C126_bilinear (x0 y0 x1 y1 z00 z01 z10 z11 : K) (hx : x0 < x1) (hy : y0 < y1) :
    biLinear x0 y0 x1 y1 z00 z01 z10 z11 x0 y0 = z00 ∧ biLinear x0 y0 x1 y1 z00 z01 z10 z11 x0 y1 = z01 ∧
    biLinear x0 y0 x1 y1 z00 z01 z10 z11 x1 y0 = z10 ∧ biLinear x0 y0 x1 y1 z00 z01 z10 z11 x1 y1 = z11 ∧
    (∀ x y, x0 ≤ x → x ≤ x1 → y0 ≤ y → y ≤ y1 → ∀ lo hi, lo ≤ z00 → lo ≤ z01 → lo ≤ z10 → lo ≤ z11 → z00 ≤ hi → z01 ≤ hi → z10 ≤ hi →
      z11 ≤ hi → lo ≤ biLinear x0 y0 x1 y1 z00 z01 z10 z11 x y ∧ biLinear x0 y0 x1 y1 z00 z01 z10 z11 x y ≤ hi) ∧
    (∀ x y, biLinear x0 y0 x1 y1 z00 z01 z10 z11 x y = linear x0 (linear y0 z00 y1 z01 y) x1 (linear y0 z10 y1 z11 y) x) ∧
    (∀ a b c d x y, biLinear x0 y0 x1 y1 (a + b * x0 + c * y0 + d * x0 * y0) (a + b * x0 + c * y1 + d * x0 * y1)
      (a + b * x1 + c * y0 + d * x1 * y0) (a + b * x1 + c * y1 + d * x1 * y1) x y = a + b * x + c * y + d * x * y) := by
  have lin := fun z0 z1 => C126_linear y0 z0 y1 z1 hy.ne
  have linx := fun z0 z1 => C126_linear x0 z0 x1 z1 hx.ne
  refine ⟨?_, ?_, ?_, ?_, ?_, fun x y => (biLinear_eq _ _ _ _ _ _ _ _ _ _ hx.ne hy.ne).1, ?_⟩
  · rw [(biLinear_eq _ _ _ _ _ _ _ _ _ _ hx.ne hy.ne).1, (linx _ _).1, (lin _ _).1]
  · rw [(biLinear_eq _ _ _ _ _ _ _ _ _ _ hx.ne hy.ne).1, (linx _ _).1, (lin _ _).2.1]
  · rw [(biLinear_eq _ _ _ _ _ _ _ _ _ _ hx.ne hy.ne).1, (linx _ _).2.1, (lin _ _).1]
  · rw [(biLinear_eq _ _ _ _ _ _ _ _ _ _ hx.ne hy.ne).1, (linx _ _).2.1, (lin _ _).2.1]
  · intro x y hx0 hx1 hy0 hy1 lo hi l1 l2 l3 l4 u1 u2 u3 u4
    rw [(biLinear_eq _ _ _ _ _ _ _ _ _ _ hx.ne hy.ne).1]
    have by0 : min y0 y1 ≤ y := le_trans (min_le_left _ _) hy0
    have by1 : y ≤ max y0 y1 := le_trans hy1 (le_max_right _ _)
    have bx0 : min x0 x1 ≤ x := le_trans (min_le_left _ _) hx0
    have bx1 : x ≤ max x0 x1 := le_trans hx1 (le_max_right _ _)
    have h1 := (lin z00 z01).2.2.1 y by0 by1
    have h2 := (lin z10 z11).2.2.1 y by0 by1
    have h3 := (linx (linear y0 z00 y1 z01 y) (linear y0 z10 y1 z11 y)).2.2.1 x bx0 bx1
    constructor
    · refine le_trans (le_min ?_ ?_) h3.1
      · exact le_trans (le_min l1 l2) h1.1
      · exact le_trans (le_min l3 l4) h2.1
    · refine le_trans h3.2 (max_le ?_ ?_)
      · exact le_trans h1.2 (max_le u1 u2)
      · exact le_trans h2.2 (max_le u3 u4)
  · intro a b c d x y
    have hd : x1 - x0 ≠ 0 := sub_ne_zero.2 hx.ne'
    have he : y1 - y0 ≠ 0 := sub_ne_zero.2 hy.ne'
    unfold biLinear
    field_simp
    ring

/-- The dropping operator is zero exactly where two corners on one side have the value zero, and the bilinear operator elsewhere. -/
theorem C126_drop_bilinear (x0 y0 x1 y1 z00 z01 z10 z11 x y : K) :
    ((z00 = 0 ∧ z01 = 0) ∨ (z00 = 0 ∧ z10 = 0) ∨ (z11 = 0 ∧ z01 = 0) ∨ (z11 = 0 ∧ z10 = 0) →
      dropBiLinear x0 y0 x1 y1 z00 z01 z10 z11 x y = 0) ∧
    (¬ ((z00 = 0 ∧ z01 = 0) ∨ (z00 = 0 ∧ z10 = 0) ∨ (z11 = 0 ∧ z01 = 0) ∨ (z11 = 0 ∧ z10 = 0)) →
      dropBiLinear x0 y0 x1 y1 z00 z01 z10 z11 x y = biLinear x0 y0 x1 y1 z00 z01 z10 z11 x y) := by
  unfold dropBiLinear
  constructor
  · intro h
    rw [if_pos]
    tauto
  · intro h
    rw [if_neg]
    tauto

example : linear (1 : ℚ) 5 3 9 2 = 7 ∧ dropLinear (1 : ℚ) 5 3 9 2 = 7 ∧ dropLinear (1 : ℚ) 5 3 0 1 = 0 ∧
    biLinear (0 : ℚ) 0 2 4 1 3 5 11 1 1 = 4 ∧ dropBiLinear (0 : ℚ) 0 2 4 0 3 5 0 1 1 = 9 / 4 ∧ dropBiLinear (0 : ℚ) 0 2 4 0 0 5 11 1 1 = 0 := by
  norm_num [linear, dropLinear, biLinear, dropBiLinear]

end

/-! ## `SelectInterpolationSpace1D` -/

open Transforms

noncomputable section

/-- The two operators. -/
inductive Op | linear | drop

open Classical in
/-- An operator on floating point numbers (Interpolation.h:255-259, 292-296): `none` if the result is infinite or not a number. -/
def Op.apply (o : Op) (x0 y0 x1 y1 x : ℝ) : Option ℝ :=
  match o with
  | .linear => if x1 - x0 = 0 then none else some (Operators.linear x0 y0 x1 y1 x)
  | .drop => if y0 = 0 ∨ y1 = 0 then some 0 else if x1 - x0 = 0 then none else some (Operators.linear x0 y0 x1 y1 x)

open Classical in
/-- What one point adds to a total (Interpolation.h:357-360, 363-366, 369-372, 375-378). -/
def err (y : ℝ) : Option ℝ → ℝ
  | none => 0
  | some e =>
    let den := max |y| |e|
    let den := if den < 1 / 10 ^ 8 then 1 else den
    (e - y) / den * ((e - y) / den)

/-- The total for the transforms `tx` and `ty`; the sum is over the points between the first and the last (Interpolation.h:350-379). -/
def total (o : Op) (tx ty : T) (x y : List ℝ) : ℝ :=
  ((List.range (x.length - 2)).map fun i =>
    err (y.getD (i + 1) 0) ((o.apply (tx.fn (x.getD i 0)) (ty.fn (y.getD i 0)) (tx.fn (x.getD (i + 2) 0)) (ty.fn (y.getD (i + 2) 0))
      (tx.fn (x.getD (i + 1) 0))).map ty.inv)).sum

open Classical in
/-- `std::min_element` on the four totals: the position of the first least (Interpolation.h:381-382). -/
def argmin4 (a b c d : ℝ) : Nat :=
  if a ≤ b ∧ a ≤ c ∧ a ≤ d then 0 else if b ≤ c ∧ b ≤ d then 1 else if c ≤ d then 2 else 3

/-- `SelectInterpolationSpace1D` (Interpolation.h:316-401). `first_y` is false from the start. For an empty table the last index wraps around
and the loop reads outside the vectors. -/
def select (o : Op) (x y : List ℝ) : Res (T × T) :=
  if x.length = 0 ∨ y.length < x.length then .ub
  else
    (symLog (x.foldl scanStep (true, 1)).2).bind fun tx =>
    (symLog ((y.take x.length).foldl scanStep (false, 1)).2).bind fun ty =>
    .ok (match argmin4 (total o .identity .identity x y) (total o .identity ty x y) (total o tx .identity x y) (total o tx ty x y) with
      | 0 => (.identity, .identity)
      | 1 => (.identity, ty)
      | 2 => (tx, .identity)
      | _ => (tx, ty))

/-! ## Lemmas -/

theorem scan_zero (l : List ℝ) (s : Bool × ℝ) (h : ∀ a ∈ l, a = 0) : l.foldl scanStep s = s := by
  induction l with
  | nil => rfl
  | cons a l ih =>
    rw [List.foldl_cons]
    have : scanStep s a = s := by unfold scanStep; rw [if_neg (by simpa using h a (by simp))]
    rw [this]
    exact ih fun b hb => h b (List.mem_cons_of_mem _ hb)

theorem scan_start (l : List ℝ) (c d : ℝ) (h : ∃ a ∈ l, a ≠ 0) : l.foldl scanStep (true, c) = l.foldl scanStep (true, d) := by
  induction l with
  | nil => simp at h
  | cons a l ih =>
    rw [List.foldl_cons, List.foldl_cons]
    by_cases ha : a = 0
    · have e : ∀ s, scanStep s a = s := by intro s; unfold scanStep; rw [if_neg (by simpa using ha)]
      rw [e, e]
      apply ih
      obtain ⟨b, hb, hb0⟩ := h
      rcases List.mem_cons.1 hb with rfl | hb
      · exact absurd ha hb0
      · exact ⟨b, hb, hb0⟩
    · have e : ∀ c, scanStep (true, c) a = (false, min |a| |a|) := by intro c; unfold scanStep; rw [if_pos ha]; simp
      rw [e, e]

/-- The thresholds are positive and no number of the data other than zero is below them. -/
theorem scan_x (l : List ℝ) : 0 < (l.foldl scanStep (true, 1)).2 ∧ ∀ a ∈ l, a ≠ 0 → (l.foldl scanStep (true, 1)).2 ≤ |a| := by
  by_cases h : ∃ a ∈ l, a ≠ 0
  · rw [scan_start l 1 0 h]
    rcases scan_spec l (true, 0) (Or.inl ⟨rfl, rfl⟩) with h1 | h1
    · obtain ⟨a, ha, ha0⟩ := h
      exact absurd (h1.2.2.1 a ha) ha0
    · exact ⟨h1.2.1, h1.2.2.1⟩
  · push Not at h
    rw [scan_zero l _ h]
    exact ⟨one_pos, fun a ha ha0 => absurd (h a ha) ha0⟩

theorem scan_y (l : List ℝ) : 0 < (l.foldl scanStep (false, 1)).2 ∧ ∀ a ∈ l, a ≠ 0 → (l.foldl scanStep (false, 1)).2 ≤ |a| := by
  rcases scan_spec l (false, 1) (Or.inr ⟨rfl, one_pos⟩) with h1 | h1
  · exact absurd h1.2.2.2 (by simp)
  · exact ⟨h1.2.1, h1.2.2.1⟩

theorem err_nonneg (y : ℝ) (e : Option ℝ) : 0 ≤ err y e := by
  cases e with
  | none => exact le_refl _
  | some e => exact mul_self_nonneg _

theorem err_zero (y e : ℝ) : err y (some e) = 0 ↔ e = y := by
  have hden : (if max |y| |e| < 1 / 10 ^ 8 then (1 : ℝ) else max |y| |e|) ≠ 0 := by
    split_ifs with h
    · exact one_ne_zero
    · have : (0 : ℝ) < 1 / 10 ^ 8 := by positivity
      exact (lt_of_lt_of_le this (not_lt.1 h)).ne'
  unfold err
  simp only
  rw [mul_self_eq_zero, div_eq_zero_iff, sub_eq_zero]
  exact or_iff_left hden

theorem total_nonneg (o : Op) (tx ty : T) (x y : List ℝ) : 0 ≤ total o tx ty x y :=
  List.sum_nonneg fun a ha => by
    obtain ⟨i, _, rfl⟩ := List.mem_map.1 ha
    exact err_nonneg _ _

/-- The transforms and the operator give the value at each inner point from its neighbours, if the operator gives a number. -/
def Exact (o : Op) (tx ty : T) (x y : List ℝ) : Prop :=
  ∀ i, i + 2 < x.length → ∀ e,
    o.apply (tx.fn (x.getD i 0)) (ty.fn (y.getD i 0)) (tx.fn (x.getD (i + 2) 0)) (ty.fn (y.getD (i + 2) 0)) (tx.fn (x.getD (i + 1) 0)) = some e →
      ty.inv e = y.getD (i + 1) 0

theorem sum_zero (l : List ℝ) (h : ∀ a ∈ l, 0 ≤ a) : l.sum = 0 ↔ ∀ a ∈ l, a = 0 := by
  induction l with
  | nil => simp
  | cons a l ih =>
    have h1 := h a (by simp)
    have h2 : 0 ≤ l.sum := List.sum_nonneg fun b hb => h b (List.mem_cons_of_mem _ hb)
    rw [List.sum_cons, List.forall_mem_cons, ← ih fun b hb => h b (List.mem_cons_of_mem _ hb)]
    constructor
    · intro e
      constructor <;> linarith
    · rintro ⟨e1, e2⟩
      rw [e1, e2, add_zero]

theorem getD_eq (l : List ℝ) (i : Nat) (h : i < l.length) : l.getD i 0 = l[i] := by
  simp [List.getD_eq_getElem?_getD, h]

theorem apply_linear (x0 y0 x1 y1 x : ℝ) (h : x0 ≠ x1) : Op.linear.apply x0 y0 x1 y1 x = some (Operators.linear x0 y0 x1 y1 x) := by
  unfold Op.apply
  rw [if_neg (sub_ne_zero.2 h.symm)]

/-- C126: the operators the choice of space works with are the linear and the dropping one. -/
theorem C126_same_operators (x0 y0 x1 y1 x : ℝ) (h : x0 ≠ x1) :
    Op.linear.apply x0 y0 x1 y1 x = some (Operators.linear x0 y0 x1 y1 x) ∧
      Op.drop.apply x0 y0 x1 y1 x = some (open Classical in if y0 = 0 ∨ y1 = 0 then 0 else Operators.linear x0 y0 x1 y1 x) := by
  refine ⟨apply_linear _ _ _ _ _ h, ?_⟩
  unfold Op.apply
  simp only
  split
  · rfl
  · rw [if_neg (sub_ne_zero.2 h.symm)]

theorem total_zero (o : Op) (tx ty : T) (x y : List ℝ) : total o tx ty x y = 0 ↔ Exact o tx ty x y := by
  unfold total
  rw [sum_zero _ (by
    intro a ha
    obtain ⟨i, _, rfl⟩ := List.mem_map.1 ha
    exact err_nonneg _ _)]
  constructor
  · intro h i hi e he
    have := h _ (List.mem_map.2 ⟨i, List.mem_range.2 (by omega), rfl⟩)
    rw [he, Option.map_some, err_zero] at this
    exact this
  · intro h a ha
    obtain ⟨i, hi, rfl⟩ := List.mem_map.1 ha
    have hi := List.mem_range.1 hi
    cases he : o.apply (tx.fn (x.getD i 0)) (ty.fn (y.getD i 0)) (tx.fn (x.getD (i + 2) 0)) (ty.fn (y.getD (i + 2) 0)) (tx.fn (x.getD (i + 1) 0)) with
    | none => rfl
    | some e =>
      rw [Option.map_some, err_zero]
      exact h i (by omega) e he

theorem argmin4_spec (a b c d : ℝ) :
    (argmin4 a b c d = 0 ∧ a ≤ b ∧ a ≤ c ∧ a ≤ d) ∨ (argmin4 a b c d = 1 ∧ b ≤ a ∧ b ≤ c ∧ b ≤ d ∧ b < a) ∨
    (argmin4 a b c d = 2 ∧ c ≤ a ∧ c ≤ b ∧ c ≤ d ∧ c < a) ∨ (argmin4 a b c d = 3 ∧ d ≤ a ∧ d ≤ b ∧ d ≤ c ∧ d < a) := by
  unfold argmin4
  by_cases h0 : a ≤ b ∧ a ≤ c ∧ a ≤ d
  · rw [if_pos h0]
    exact Or.inl ⟨rfl, h0⟩
  · rw [if_neg h0]
    by_cases h1 : b ≤ c ∧ b ≤ d
    · rw [if_pos h1]
      have : b < a := by
        by_contra hb
        exact h0 ⟨not_lt.1 hb, le_trans (not_lt.1 hb) h1.1, le_trans (not_lt.1 hb) h1.2⟩
      exact Or.inr (Or.inl ⟨rfl, this.le, h1.1, h1.2, this⟩)
    · rw [if_neg h1]
      by_cases h2 : c ≤ d
      · rw [if_pos h2]
        have hcb : c ≤ b := by
          by_contra hb
          have hb := (not_le.1 hb).le
          exact h1 ⟨hb, le_trans hb h2⟩
        have : c < a := by
          by_contra hc
          have hc := not_lt.1 hc
          exact h0 ⟨le_trans hc hcb, hc, le_trans hc h2⟩
        exact Or.inr (Or.inr (Or.inl ⟨rfl, this.le, hcb, h2, this⟩))
      · rw [if_neg h2]
        have h2 := not_le.1 h2
        have hdb : d ≤ b := by
          by_contra hb
          have hb := (not_le.1 hb).le
          exact h1 ⟨le_trans hb h2.le, hb⟩
        have : d < a := by
          by_contra hd
          have hd := not_lt.1 hd
          exact h0 ⟨le_trans hd hdb, le_trans hd h2.le, hd⟩
        exact Or.inr (Or.inr (Or.inr ⟨rfl, this.le, hdb, h2.le, this⟩))

/-- What `select` returns: transforms for the two coordinates, with thresholds that no number of the data other than zero is below, the first
of the four choices with the least total. -/
theorem select_spec (o : Op) (x y : List ℝ) (hx : x ≠ []) (hl : x.length ≤ y.length) :
    ∃ a b, 0 < a ∧ 0 < b ∧ (∀ u ∈ x, u ≠ 0 → a ≤ |u|) ∧ (∀ u ∈ y.take x.length, u ≠ 0 → b ≤ |u|) ∧
      ∃ tx ty, select o x y = .ok (tx, ty) ∧ (tx = .identity ∨ tx = .symLog a (Real.log a)) ∧ (ty = .identity ∨ ty = .symLog b (Real.log b)) ∧
      (∀ tx' ty', (tx' = .identity ∨ tx' = .symLog a (Real.log a)) → (ty' = .identity ∨ ty' = .symLog b (Real.log b)) →
        total o tx ty x y ≤ total o tx' ty' x y) ∧
      (total o .identity .identity x y = total o tx ty x y → tx = .identity ∧ ty = .identity) := by
  have hlen : x.length ≠ 0 := by simpa using hx
  obtain ⟨a0, a1⟩ := scan_x x
  obtain ⟨b0, b1⟩ := scan_y (y.take x.length)
  refine ⟨_, _, a0, b0, a1, b1, ?_⟩
  set a := (x.foldl scanStep (true, 1)).2
  set b := ((y.take x.length).foldl scanStep (false, 1)).2
  have e1 : symLog a = .ok (.symLog a (Real.log a)) := by
    rw [(C125_construct.2.1) a a0.ne', abs_of_pos a0]
  have e2 : symLog b = .ok (.symLog b (Real.log b)) := by
    rw [(C125_construct.2.1) b b0.ne', abs_of_pos b0]
  unfold select
  rw [if_neg (by omega), e1, e2]
  simp only [Res.bind]
  rcases argmin4_spec (total o .identity .identity x y) (total o .identity (.symLog b (Real.log b)) x y)
    (total o (.symLog a (Real.log a)) .identity x y) (total o (.symLog a (Real.log a)) (.symLog b (Real.log b)) x y)
    with ⟨e, h1, h2, h3⟩ | ⟨e, h1, h2, h3, h4⟩ | ⟨e, h1, h2, h3, h4⟩ | ⟨e, h1, h2, h3, h4⟩
  · rw [e]
    refine ⟨_, _, rfl, Or.inl rfl, Or.inl rfl, ?_, fun _ => ⟨rfl, rfl⟩⟩
    rintro _ _ (rfl | rfl) (rfl | rfl)
    exacts [le_refl _, h1, h2, h3]
  · rw [e]
    refine ⟨_, _, rfl, Or.inl rfl, Or.inr rfl, ?_, fun he => absurd he h4.ne'⟩
    rintro _ _ (rfl | rfl) (rfl | rfl)
    exacts [h1, le_refl _, h2, h3]
  · rw [e]
    refine ⟨_, _, rfl, Or.inr rfl, Or.inl rfl, ?_, fun he => absurd he h4.ne'⟩
    rintro _ _ (rfl | rfl) (rfl | rfl)
    exacts [h1, h2, le_refl _, h3]
  · rw [e]
    refine ⟨_, _, rfl, Or.inr rfl, Or.inr rfl, ?_, fun he => absurd he h4.ne'⟩
    rintro _ _ (rfl | rfl) (rfl | rfl)
    exacts [h1, h2, h3, le_refl _]

/-! ## C126: the choice -/

/-- For a table that is not empty the choice returns, for each coordinate, no transform or a symmetric logarithm whose threshold no number of the
table other than zero is below; these transforms leave the points of the table unchanged when applied and undone; and if any of the four
choices gives all inner points from their neighbours, the one returned does. -/
theorem C126_select (o : Op) (x y : List ℝ) (hx : x ≠ []) (hl : x.length = y.length) :
    ∃ a b, 0 < a ∧ 0 < b ∧ (∀ u ∈ x, u ≠ 0 → a ≤ |u|) ∧ (∀ u ∈ y, u ≠ 0 → b ≤ |u|) ∧
      ∃ tx ty, select o x y = .ok (tx, ty) ∧ (tx = .identity ∨ tx = .symLog a (Real.log a)) ∧ (ty = .identity ∨ ty = .symLog b (Real.log b)) ∧
      (∀ u, tx.inv (tx.fn u) = u) ∧ (∀ u, ty.inv (ty.fn u) = u) ∧
      (∀ tx' ty', (tx' = .identity ∨ tx' = .symLog a (Real.log a)) → (ty' = .identity ∨ ty' = .symLog b (Real.log b)) →
        Exact o tx' ty' x y → Exact o tx ty x y) := by
  obtain ⟨a, b, a0, b0, ha, hb, tx, ty, e, hx', hy', hmin, _⟩ := select_spec o x y hx hl.le
  have made : ∀ c t, 0 < c → (t = T.identity ∨ t = .symLog c (Real.log c)) → ∀ u, t.inv (t.fn u) = u := by
    rintro c t hc (rfl | rfl) u
    · rfl
    · refine C125_inverse _ (.symLog c _ ?_) u trivial
      rw [(C125_construct.2.1) c hc.ne', abs_of_pos hc]
  refine ⟨a, b, a0, b0, ha, ?_, tx, ty, e, hx', hy', made a tx a0 hx', made b ty b0 hy', ?_⟩
  · rwa [hl, List.take_length] at hb
  · intro tx' ty' h1 h2 hex
    rw [← total_zero] at hex ⊢
    exact le_antisymm (hex ▸ hmin tx' ty' h1 h2) (total_nonneg _ _ _ _ _)

/-- For points on a straight line with different abscissae the linear operator is used without transforms. -/
theorem C126_straight (x : List ℝ) (hx : x ≠ []) (hd : x.Nodup) (c d : ℝ) :
    select .linear x (x.map fun u => c * u + d) = .ok (.identity, .identity) := by
  obtain ⟨a, b, a0, b0, ha, hb, tx, ty, e, hx', hy', hmin, hid⟩ := select_spec .linear x (x.map fun u => c * u + d) hx (by simp)
  have h0 : total .linear .identity .identity x (x.map fun u => c * u + d) = 0 := by
    rw [total_zero]
    intro i hi e he
    have gx : ∀ j, j < x.length → (x.map fun u => c * u + d).getD j 0 = c * x.getD j 0 + d := by
      intro j hj
      simp [List.getD_eq_getElem?_getD, hj]
    have hne : x.getD i 0 ≠ x.getD (i + 2) 0 := by
      intro h
      rw [getD_eq _ _ (by omega), getD_eq _ _ hi] at h
      exact absurd (hd.getElem_inj_iff.1 h) (by omega)
    change Op.linear.apply (x.getD i 0) _ (x.getD (i + 2) 0) _ (x.getD (i + 1) 0) = some e at he
    rw [apply_linear _ _ _ _ _ hne] at he
    change some (Operators.linear _ ((x.map fun u => c * u + d).getD i 0) _ ((x.map fun u => c * u + d).getD (i + 2) 0) _) = some e at he
    rw [gx i (by omega), gx (i + 2) hi, (C126_linear _ 0 _ 0 hne).2.2.2.1] at he
    simp only [T.inv]
    rw [gx (i + 1) (by omega)]
    exact (Option.some.inj he).symm
  have := hmin .identity .identity (Or.inl rfl) (Or.inl rfl)
  rw [h0] at this
  obtain ⟨rfl, rfl⟩ := hid (by rw [h0]; exact le_antisymm (total_nonneg _ _ _ _ _) this)
  exact e

/-- For an empty table the number of points less one is taken as a large number, and the vectors are read outside. -/
theorem C126_empty_fails (o : Op) : select o [] [] = .ub := by
  simp [select]

/-! ### Cases -/

example : ([0, 1, 5] : List ℝ) ≠ [] ∧ ([0, 1, 5] : List ℝ).Nodup ∧ ([0, 1, 5] : List ℝ).length = ([2, 0, -3] : List ℝ).length := by
  refine ⟨by simp, by norm_num, rfl⟩

/-- Values that grow by the same factor need the logarithm of the values: the choice is then exact, and is not that without transforms. -/
example : ∃ tx ty, select .linear [0, 1, 2] [2, 4, 8] = .ok (tx, ty) ∧ Exact .linear tx ty [0, 1, 2] [2, 4, 8] ∧ ¬ (tx = .identity ∧ ty = .identity) := by
  obtain ⟨a, b, a0, b0, ha, hb, tx, ty, e, hx', hy', _, _, hex⟩ := C126_select .linear [0, 1, 2] [2, 4, 8] (by simp) rfl
  have hb2 : b ≤ 2 := by simpa using hb 2 (by simp) (by norm_num)
  have f : ∀ u, 2 ≤ u → (T.symLog b (Real.log b)).fn u = Real.log u - Real.log b + b := fun u hu =>
    ((symLog_fn b u b0).1 (by linarith)).1
  have h4 : Real.log 4 = 2 * Real.log 2 := by
    rw [show (4 : ℝ) = 2 ^ 2 by norm_num, Real.log_pow]; norm_num
  have h8 : Real.log 8 = 3 * Real.log 2 := by
    rw [show (8 : ℝ) = 2 ^ 3 by norm_num, Real.log_pow]; norm_num
  have key := hex .identity (.symLog b (Real.log b)) (Or.inl rfl) (Or.inr rfl) (by
    intro i hi v hv
    have hi : i = 0 := by simp at hi; omega
    subst hi
    change Op.linear.apply 0 ((T.symLog b (Real.log b)).fn 2) 2 ((T.symLog b (Real.log b)).fn 8) 1 = some v at hv
    change (T.symLog b (Real.log b)).inv v = 4
    rw [apply_linear _ _ _ _ _ (by norm_num), f 2 (le_refl _), f 8 (by norm_num), h8] at hv
    have hv := Option.some.inj hv
    have : v = (T.symLog b (Real.log b)).fn 4 := by
      rw [f 4 (by norm_num), h4, ← hv]
      unfold Operators.linear
      ring
    rw [this]
    refine C125_inverse _ (.symLog b _ ?_) 4 trivial
    rw [(C125_construct.2.1) b b0.ne', abs_of_pos b0])
  refine ⟨tx, ty, e, key, ?_⟩
  rintro ⟨rfl, rfl⟩
  have := key 0 (by simp) 5 (by
    change Op.linear.apply 0 2 2 8 1 = some 5
    rw [apply_linear _ _ _ _ _ (by norm_num)]
    norm_num [Operators.linear])
  change (5 : ℝ) = 4 at this
  norm_num at this

end

end Siren.Math.Operators
