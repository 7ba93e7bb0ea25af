import Verif.Geometry.GPolyMain

set_option autoImplicit false
set_option linter.unusedSimpArgs false

/-!
# Examples for revolved polygons
-/

namespace Siren.Geometry
namespace GPoly

open Siren

/-- A cylinder of radius and half height one. -/
def drum : Poly := ⟨4, fun i => if i = 1 ∨ i = 2 then 1 else 0, fun i => if i = 2 ∨ i = 3 then 1 else -1⟩

theorem drum_edges : drum.edge 0 = ⟨0, -1, 1, -1⟩ ∧ drum.edge 1 = ⟨1, -1, 1, 1⟩ ∧ drum.edge 2 = ⟨1, 1, 0, 1⟩ ∧ drum.edge 3 = ⟨0, 1, 0, -1⟩ := by
  refine ⟨?_, ?_, ?_, ?_⟩ <;> simp [drum, Poly.edge]

theorem drum_winding : drum.winding = 1 := by
  have : drum.area = 4 := by
    simp [drum, Poly.area, List.range_succ]; norm_num
  unfold Poly.winding
  rw [this, if_pos (by norm_num)]

/-- A sloped line beside the axis. -/
noncomputable def o₁ : Vec3 ℝ := ⟨-3, 1 / 2, -4⟩
noncomputable def d₁ : Vec3 ℝ := ⟨3 / 5, 0, 4 / 5⟩

/-- The line meets the hypotheses of the theorems. -/
theorem drum_clear : drum.Clear o₁ d₁ := by
  have he := drum_edges
  have hx : ∀ t, (line o₁ d₁ t).x = -3 + t * (3 / 5) := fun t => rfl
  have hy : ∀ t, (line o₁ d₁ t).y = 1 / 2 + t * 0 := fun t => rfl
  have hzz : ∀ t, (line o₁ d₁ t).z = -4 + t * (4 / 5) := fun t => rfl
  refine ⟨?_, ?_, ?_, ?_, ?_⟩
  · unfold precision d₁; norm_num
  · intro t
    rw [hx, hy]
    unfold precision
    nlinarith [sq_nonneg (-3 + t * (3 / 5))]
  · intro i; simp only [drum]; split <;> norm_num
  · intro i hi t hz hr
    rw [hzz] at hz
    rw [hx, hy] at hr
    have hi : i < 4 := hi
    interval_cases i <;> simp [drum] at hz hr
    · have : t = 15 / 4 := by linarith
      subst this; norm_num at hr
    · have : t = 15 / 4 := by linarith
      subst this; norm_num at hr
    · have : t = 25 / 4 := by linarith
      subst this; norm_num at hr
    · have : t = 25 / 4 := by linarith
      subst this; norm_num at hr
  · intro i hi
    have hi : i < 4 := hi
    interval_cases i
    · rw [he.1]
      refine ⟨by norm_num, ?_, by norm_num, ?_, by simp, by simp, ?_, ?_⟩
      · right; unfold precision; norm_num
      · right; unfold precision; norm_num
      · rintro s t ⟨h, -⟩ ht
        rw [hzz] at h
        unfold precision
        simp at h
        linarith
      · intro _ _; unfold precision o₁ d₁; norm_num
    · rw [he.2.1]
      have hA : (⟨1, -1, 1, 1⟩ : Edge).A o₁ d₁ = 9 / 25 := by simp [Edge.A, Edge.b, d₁]; norm_num
      refine ⟨?_, by norm_num, ?_, ?_, ?_, by norm_num, ?_, by norm_num⟩
      · right; unfold precision; norm_num
      · right; unfold precision; norm_num
      · right; unfold precision; norm_num
      · intro _; left; rw [hA]; unfold precision; norm_num
      · rintro s t ⟨-, h⟩ ht
        rw [hx, hy] at h
        unfold precision
        simp at h
        by_contra hc
        push Not at hc
        have : t < 1 := by norm_num at hc; linarith
        nlinarith
    · rw [he.2.2.1]
      refine ⟨by norm_num, ?_, ?_, by norm_num, by simp, by simp, ?_, ?_⟩
      · right; unfold precision; norm_num
      · right; unfold precision; norm_num
      · rintro s t ⟨h, -⟩ ht
        rw [hzz] at h
        unfold precision
        simp at h
        linarith
      · intro _ _; unfold precision o₁ d₁; norm_num
    · rw [he.2.2.2]
      have hA : (⟨0, 1, 0, -1⟩ : Edge).A o₁ d₁ = 9 / 25 := by simp [Edge.A, Edge.b, d₁]; norm_num
      have hdet : (⟨0, 1, 0, -1⟩ : Edge).det o₁ d₁ = -9 / 25 := by
        unfold Edge.det
        rw [hA]
        simp [Edge.B, Edge.C, Edge.a, Edge.b, near, shift, o₁, d₁]; norm_num
      refine ⟨?_, by norm_num, by norm_num, by norm_num, ?_, ?_, ?_, by norm_num⟩
      · right; unfold precision; norm_num
      · intro _; left; rw [hA]; unfold precision; norm_num
      · intro _ _ _; rw [hdet, hA]; unfold precision; norm_num
      · rintro s t ⟨-, h⟩ ht
        rw [hx, hy] at h
        simp at h
        nlinarith [sq_nonneg (-3 + t * (3 / 5))]

/-- The line enters the cylinder through the bottom. -/
example : ∃ h, crossing drum.winding (drum.edge 0) o₁ d₁ (Real.sqrt (13 / 16)) (15 / 4) h ∧ h.entering = true := by
  have hs := Real.sq_sqrt (show (0 : ℝ) ≤ 13 / 16 by norm_num)
  have hs0 : 0 < Real.sqrt (13 / 16) := Real.sqrt_pos.mpr (by norm_num)
  rw [drum_edges.1, drum_winding]
  refine ⟨⟨15 / 4, 0, true, line o₁ d₁ (15 / 4)⟩, ⟨hs0, ?_, ⟨?_, ?_⟩, ?_, rfl, rfl, rfl, ?_⟩, rfl⟩
  · nlinarith
  · simp [line, o₁, d₁]; norm_num
  · simp [line, o₁, d₁] at hs ⊢; norm_num at hs ⊢; exact hs.symm
  · simp only [Edge.rate, line, o₁, d₁]; norm_num
  · simp only [Edge.rate, line, o₁, d₁]; norm_num

/-! ### Where the code disagrees -/

/-- A line into the cylinder through the circle at its upper rim. -/
noncomputable def o₂ : Vec3 ℝ := ⟨4, 0, 5⟩
noncomputable def d₂ : Vec3 ℝ := ⟨-3 / 5, 0, -4 / 5⟩

theorem snap_big (t : ℝ) (h : 1 ≤ t) : snap t = t := by
  unfold snap precision
  rw [if_neg]
  rintro ⟨-, h'⟩
  norm_num at h'
  linarith

theorem corner0 (dzn : ℝ) : ∃ q, edgeHits 1 ⟨0, -1, 1, -1⟩ dzn o₂ d₂ = [⟨15 / 2, 0, false, q⟩] := by
  have hp : precision = 1 / 1000000000 := rfl
  have ht : ((-1 : ℝ) - o₂.z) / d₂.z = 15 / 2 := by unfold o₂ d₂; norm_num
  have hq : Real.sqrt ((line o₂ d₂ (15 / 2)).x * (line o₂ d₂ (15 / 2)).x + (line o₂ d₂ (15 / 2)).y * (line o₂ d₂ (15 / 2)).y) = 1 / 2 := by
    rw [show (line o₂ d₂ (15 / 2)).x * (line o₂ d₂ (15 / 2)).x + (line o₂ d₂ (15 / 2)).y * (line o₂ d₂ (15 / 2)).y = (1 / 2) * (1 / 2) by
      unfold line o₂ d₂; norm_num]
    exact Real.sqrt_mul_self (by norm_num)
  unfold edgeHits disk
  simp only
  rw [if_neg (by rw [hp]; norm_num), if_neg (by rw [hp]; norm_num), if_neg (by rw [hp]; norm_num), if_neg (by rw [hp]; unfold d₂; norm_num [abs_of_neg]),
    if_neg (by rw [hp]; norm_num), ht, snap_big _ (by norm_num), hq, if_neg (by rw [hp]; norm_num)]
  exact ⟨_, by congr 2; unfold d₂; norm_num⟩

theorem corner1 : ∃ q, edgeHits 1 ⟨1, -1, 1, 1⟩ 0 o₂ d₂ = [⟨5, 0, true, q⟩] := by
  have hp : precision = 1 / 1000000000 := rfl
  have hb : (⟨1, -1, 1, 1⟩ : Edge).b = 0 := by simp [Edge.b]
  have ha : (⟨1, -1, 1, 1⟩ : Edge).a = 1 := by simp [Edge.a, hb]
  have hA : (⟨1, -1, 1, 1⟩ : Edge).A o₂ d₂ = 9 / 25 := by simp only [Edge.A, hb, d₂]; norm_num
  have hB : (⟨1, -1, 1, 1⟩ : Edge).B o₂ d₂ = -24 / 125 := by simp only [Edge.B, hb, ha, near, shift, o₂, d₂]; norm_num
  have hC : (⟨1, -1, 1, 1⟩ : Edge).C o₂ d₂ = -609 / 625 := by simp only [Edge.C, hb, ha, near, shift, o₂, d₂]; norm_num
  have hD : (⟨1, -1, 1, 1⟩ : Edge).det o₂ d₂ = (6 / 5) * (6 / 5) := by unfold Edge.det; rw [hA, hB, hC]; norm_num
  have hsh : shift o₂ d₂ = 32 / 5 := by unfold shift o₂ d₂; norm_num
  unfold edgeHits
  simp only
  rw [if_neg (by rw [hp]; norm_num), if_neg (by rw [hp]; norm_num), if_pos (by rw [hp]; norm_num)]
  unfold roots
  rw [hA, hB, hC, hD, hsh, if_pos (by rw [hp]; norm_num), if_pos (by norm_num), Real.sqrt_mul_self (by norm_num)]
  rw [show (-(-24 / 125) + 6 / 5) / (2 * (9 / 25)) + 32 / 5 = (25 / 3 : ℝ) by norm_num,
    show (-(-24 / 125) - 6 / 5) / (2 * (9 / 25)) + 32 / 5 = (5 : ℝ) by norm_num]
  have h1 : tryHit 1 ⟨1, -1, 1, 1⟩ (decide (|(0 : ℝ)| ≤ precision) || decide ((1 : ℝ) < precision)) o₂ d₂ (25 / 3) = [] := by
    unfold tryHit
    simp only
    rw [snap_big _ (by norm_num), if_pos]
    left; unfold line o₂ d₂; norm_num
  have hc : (decide (|(0 : ℝ)| ≤ precision) || decide ((1 : ℝ) < precision)) = true := by
    rw [hp]; simp
  have h2 : ∃ q, tryHit 1 ⟨1, -1, 1, 1⟩ (decide (|(0 : ℝ)| ≤ precision) || decide ((1 : ℝ) < precision)) o₂ d₂ 5 = [⟨5, 0, true, q⟩] := by
    unfold tryHit
    simp only
    rw [hc, snap_big _ (by norm_num), hb, ha, if_neg, if_neg]
    · refine ⟨line o₂ d₂ 5, ?_⟩
      congr 2
      simp only [line, o₂, d₂, hp]; norm_num
    · rw [hp]; norm_num
    · simp only [if_true, line, o₂, d₂]; norm_num
  obtain ⟨q, h2⟩ := h2
  exact ⟨q, by simp only [List.flatMap_cons, List.flatMap_nil, h1, h2, List.nil_append, List.append_nil]⟩

theorem corner2 (dzn : ℝ) : ∃ q, edgeHits 1 ⟨1, 1, 0, 1⟩ dzn o₂ d₂ = [⟨5, 0, true, q⟩] := by
  have hp : precision = 1 / 1000000000 := rfl
  have ht : ((1 : ℝ) - o₂.z) / d₂.z = 5 := by unfold o₂ d₂; norm_num
  have hq : Real.sqrt ((line o₂ d₂ 5).x * (line o₂ d₂ 5).x + (line o₂ d₂ 5).y * (line o₂ d₂ 5).y) = 1 := by
    rw [show (line o₂ d₂ 5).x * (line o₂ d₂ 5).x + (line o₂ d₂ 5).y * (line o₂ d₂ 5).y = 1 * 1 by unfold line o₂ d₂; norm_num]
    exact Real.sqrt_mul_self (by norm_num)
  unfold edgeHits disk
  simp only
  rw [if_neg (by rw [hp]; norm_num), if_neg (by rw [hp]; norm_num), if_neg (by rw [hp]; norm_num), if_neg (by rw [hp]; unfold d₂; norm_num [abs_of_neg]),
    if_neg (by rw [hp]; norm_num), ht, snap_big _ (by norm_num), hq, if_neg (by rw [hp]; norm_num)]
  exact ⟨_, by congr 2; unfold d₂; norm_num⟩

theorem corner3 (dzn : ℝ) : edgeHits 1 ⟨0, 1, 0, -1⟩ dzn o₂ d₂ = [] := by
  have hp : precision = 1 / 1000000000 := rfl
  unfold edgeHits
  rw [if_neg (by rw [hp]; norm_num), if_pos (by rw [hp]; norm_num)]

/-- C134 fails at corners: a line that goes into a cylinder through its upper rim and out of its bottom has two entering crossings and one
leaving crossing. -/
theorem C134_corner_fails (srt : List Isect → List Isect) (hs : IsIsectSort srt) :
    (intersections srt drum o₂ d₂).countP (·.entering) = 2 ∧ (intersections srt drum o₂ d₂).countP (fun h => !h.entering) = 1 := by
  have hn : drum.n = 4 := rfl
  unfold intersections
  rw [if_neg (by rw [hn]; norm_num), (hs _).1.countP_eq, (hs _).1.countP_eq]
  unfold hits
  rw [hn, drum_winding]
  obtain ⟨e0, e1, e2, e3⟩ := drum_edges
  simp only [show List.range 4 = [0, 1, 2, 3] from rfl, List.flatMap_cons, List.flatMap_nil, e0, e1, e2, e3]
  have hdz : drum.z ((1 + 2) % 4) - drum.z ((1 + 1) % 4) = 0 := by simp [drum]
  rw [hdz]
  obtain ⟨q0, h0⟩ := corner0 (drum.z ((0 + 2) % 4) - drum.z ((0 + 1) % 4))
  obtain ⟨q1, h1⟩ := corner1
  obtain ⟨q2, h2⟩ := corner2 (drum.z ((2 + 2) % 4) - drum.z ((2 + 1) % 4))
  rw [h0, h1, h2, corner3]
  simp

/-- A cone with its tip at the origin, and a line that passes beside the tip. -/
def cone : Poly := ⟨3, fun i => if i = 1 then 1 else 0, fun i => if i = 0 then 0 else -1⟩
noncomputable def o₃ : Vec3 ℝ := ⟨-1, 1 / 100000, -1 / 200000⟩
def d₃ : Vec3 ℝ := ⟨1, 0, 0⟩

theorem cone_edges : cone.edge 0 = ⟨0, 0, 1, -1⟩ ∧ cone.edge 1 = ⟨1, -1, 0, -1⟩ ∧ cone.edge 2 = ⟨0, -1, 0, 0⟩ := by
  refine ⟨?_, ?_, ?_⟩ <;> simp [cone, Poly.edge]

theorem cone_winding : cone.winding = -1 := by
  have : cone.area = -1 := by
    simp [cone, Poly.area, List.range_succ]
  unfold Poly.winding
  rw [this, if_neg (by norm_num)]

theorem tip0 (dzn : ℝ) : ∃ q, edgeHits (-1) ⟨0, 0, 1, -1⟩ dzn o₃ d₃ = [⟨1, 0, false, q⟩] := by
  have hp : precision = 1 / 1000000000 := rfl
  have hb : (⟨0, 0, 1, -1⟩ : Edge).b = -1 := by simp [Edge.b]
  have ha : (⟨0, 0, 1, -1⟩ : Edge).a = 0 := by simp [Edge.a]
  have hA : (⟨0, 0, 1, -1⟩ : Edge).A o₃ d₃ = 1 := by simp only [Edge.A, hb, d₃]; norm_num
  have hB : (⟨0, 0, 1, -1⟩ : Edge).B o₃ d₃ = 0 := by simp only [Edge.B, hb, ha, near, shift, o₃, d₃]; norm_num
  have hC : (⟨0, 0, 1, -1⟩ : Edge).C o₃ d₃ = 3 / 40000000000 := by simp only [Edge.C, hb, ha, near, shift, o₃, d₃]; norm_num
  have hD : (⟨0, 0, 1, -1⟩ : Edge).det o₃ d₃ = -3 / 10000000000 := by unfold Edge.det; rw [hA, hB, hC]; norm_num
  have hsh : shift o₃ d₃ = 1 := by unfold shift o₃ d₃; norm_num
  unfold edgeHits
  simp only
  rw [if_neg (by rw [hp]; norm_num), if_neg (by rw [hp]; norm_num), if_pos (by rw [hp]; norm_num)]
  unfold roots
  rw [hA, hB, hC, hD, hsh, if_pos (by rw [hp]; norm_num), if_neg (by norm_num), if_pos (by rw [hp]; norm_num)]
  rw [show (-0 / (2 * 1) + 1 : ℝ) = 1 by norm_num]
  simp only [List.flatMap_cons, List.flatMap_nil, List.append_nil]
  unfold tryHit
  simp only
  rw [snap_big _ (by norm_num), hb, ha, if_neg, if_neg]
  · refine ⟨line o₃ d₃ 1, ?_⟩
    congr 2
    simp only [line, o₃, d₃, hp]; norm_num
  · rw [hp]; simp only [line, o₃, d₃]; norm_num
  · simp only [line, o₃, d₃]; split_ifs <;> norm_num

/-- C134 fails beside tips: a line that does not touch a cone but passes a hundredth of a millimetre from its tip has one crossing, which
leaves. -/
theorem C134_tip_fails (srt : List Isect → List Isect) (hs : IsIsectSort srt) :
    (∀ i < cone.n, ∀ s t, 0 ≤ s → s ≤ 1 → ¬ (cone.edge i).On s (line o₃ d₃ t)) ∧
    ∃ h, intersections srt cone o₃ d₃ = [h] ∧ h.entering = false := by
  have hn : cone.n = 3 := rfl
  have hp : precision = 1 / 1000000000 := rfl
  obtain ⟨e0, e1, e2⟩ := cone_edges
  constructor
  · intro i hi s t h0 h1
    rw [hn] at hi
    interval_cases i
    · rw [e0]
      rintro ⟨a, b⟩
      simp only [line, o₃, d₃] at a b
      have hs : s = 1 / 200000 := by linarith
      rw [hs] at b
      nlinarith [sq_nonneg (-1 + t * 1)]
    · rw [e1]
      rintro ⟨a, -⟩
      simp only [line, o₃, d₃] at a
      norm_num at a
    · rw [e2]
      rintro ⟨-, b⟩
      simp only [line, o₃, d₃] at b
      nlinarith [sq_nonneg (-1 + t * 1)]
  · have h1 : ∀ x, edgeHits (-1) ⟨1, -1, 0, -1⟩ x o₃ d₃ = [] := by
      intro x
      unfold edgeHits disk
      simp only
      rw [if_neg (by rw [hp]; norm_num), if_neg (by rw [hp]; norm_num), if_neg (by rw [hp]; norm_num), if_pos (by rw [hp]; unfold d₃; norm_num)]
    have h2 : ∀ x, edgeHits (-1) ⟨0, -1, 0, 0⟩ x o₃ d₃ = [] := by
      intro x
      unfold edgeHits
      rw [if_neg (by rw [hp]; norm_num), if_pos (by rw [hp]; norm_num)]
    have hh : ∃ q, hits cone o₃ d₃ = [⟨1, 0, false, q⟩] := by
      unfold hits
      rw [hn, cone_winding]
      simp only [show List.range 3 = [0, 1, 2] from rfl, List.flatMap_cons, List.flatMap_nil, e0, e1, e2]
      obtain ⟨q0, h0⟩ := tip0 (cone.z ((0 + 2) % 3) - cone.z ((0 + 1) % 3))
      exact ⟨q0, by rw [h0, h1, h2]; rfl⟩
    obtain ⟨q, hh⟩ := hh
    unfold intersections
    rw [if_neg (by rw [hn]; norm_num), hh]
    exact ⟨_, List.perm_singleton.mp (hs _).1, rfl⟩

end GPoly
end Siren.Geometry
