import Verif.Geometry.GPolyTurns
import Verif.Geometry.GPolyExamples

set_option autoImplicit false
set_option linter.unusedSimpArgs false

/-!
# A simple polygon
-/

namespace Siren.Geometry
namespace GPoly

open Siren

/-- How often the cylinder winds around a point. -/
theorem drum_around (q : Vec3 ℝ) : drum.around q =
    (if 1 < q.x ^ 2 + q.y ^ 2 ∧ -1 < q.z ∧ q.z < 1 then -1 else 0) + (if 0 < q.x ^ 2 + q.y ^ 2 ∧ -1 < q.z ∧ q.z < 1 then 1 else 0) := by
  have hn : drum.n = 4 := rfl
  obtain ⟨e0, e1, e2, e3⟩ := drum_edges
  have n1 : ¬ (1 < q.z ∧ q.z < -1) := by rintro ⟨h1, h2⟩; linarith
  have n2 : ¬ (q.z < -1 ∧ 1 < q.z) := by rintro ⟨h1, h2⟩; linarith
  have c0 : ∀ r r' z : ℝ, (⟨r, z, r', z⟩ : Edge).passes q = 0 := by
    intro r r' z
    unfold Edge.passes
    have : ¬ (z < q.z ∧ q.z < z) := by rintro ⟨h1, h2⟩; linarith
    simp only [this, if_false, ite_self]
  have c1 : (⟨1, -1, 1, 1⟩ : Edge).passes q = if 1 < q.x ^ 2 + q.y ^ 2 ∧ -1 < q.z ∧ q.z < 1 then -1 else 0 := by
    unfold Edge.passes
    simp only [sub_self, mul_zero, add_zero, one_pow, n1, if_false]
    by_cases h1 : 1 < q.x ^ 2 + q.y ^ 2 <;> by_cases h2 : -1 < q.z ∧ q.z < 1 <;> simp only [h1, h2, and_self, and_true, true_and, false_and, and_false, if_true, if_false]
  have c3 : (⟨0, 1, 0, -1⟩ : Edge).passes q = if 0 < q.x ^ 2 + q.y ^ 2 ∧ -1 < q.z ∧ q.z < 1 then 1 else 0 := by
    unfold Edge.passes
    simp only [sub_self, mul_zero, add_zero, n1, if_false]
    norm_num only
    by_cases h1 : 0 < q.x ^ 2 + q.y ^ 2 <;> by_cases h2 : -1 < q.z ∧ q.z < 1 <;> simp [h1, h2, n1]
  unfold Poly.around
  rw [hn]
  simp only [List.range_succ, List.range_zero, List.nil_append, List.cons_append, List.map_cons, List.map_nil, List.sum_cons, List.sum_nil]
  rw [e0, e1, e2, e3, c0, c0, c1, c3]
  ring

/-- The cylinder is a simple polygon. -/
theorem drum_simple : drum.Simple := by
  obtain ⟨e0, e1, e2, e3⟩ := drum_edges
  refine ⟨?_, ?_⟩
  · intro i hi j hj hij s s' q h1 h2 h3 h4
    have hi : i < 4 := hi
    have hj : j < 4 := hj
    rintro ⟨a1, a2⟩ ⟨b1, b2⟩
    interval_cases i <;> interval_cases j <;> simp only [e0, e1, e2, e3, ne_eq, not_true_eq_false] at * <;> first | exact hij rfl | (rw [a1] at b1; linarith)
  · intro q hq
    rw [drum_winding, if_pos rfl, one_mul, drum_around]
    by_cases h1 : 1 < q.x ^ 2 + q.y ^ 2 <;> by_cases h0 : 0 < q.x ^ 2 + q.y ^ 2 <;> by_cases h2 : -1 < q.z ∧ q.z < 1 <;> simp [h1, h0, h2]
    linarith

/-- The theorem applies to the cylinder and the sloped line beside its axis, which is inside at `t = 5`. -/
example (srt : List Isect → List Isect) (hs : IsIsectSort srt) : Alternates false (intersections srt drum o₁ d₁) :=
  (C134_turns_partial hs (by decide) drum_clear drum_simple).2

example : drum.Off (line o₁ d₁ 5) ∧ drum.around (line o₁ d₁ 5) = 1 := by
  obtain ⟨e0, e1, e2, e3⟩ := drum_edges
  have hx : (line o₁ d₁ 5).x = 0 := by simp only [line, o₁, d₁]; norm_num
  have hy : (line o₁ d₁ 5).y = 1 / 2 := by simp only [line, o₁, d₁]; norm_num
  have hz : (line o₁ d₁ 5).z = 0 := by simp only [line, o₁, d₁]; norm_num
  constructor
  · intro i hi
    have hi : i < 4 := hi
    constructor
    · rw [hz]; simp only [drum]; split <;> norm_num
    · rintro s h1 h2 ⟨a1, a2⟩
      rw [hz] at a1
      rw [hx, hy] at a2
      interval_cases i <;> simp only [e0, e1, e2, e3] at a1 a2 <;> linarith
  · rw [drum_around, hx, hy, hz]; norm_num

end GPoly
end Siren.Geometry
