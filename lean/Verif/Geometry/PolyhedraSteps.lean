import Verif.Geometry.PolyhedraHits

set_option autoImplicit false
set_option linter.unusedSimpArgs false

/-! # C136: caps at steps of polyhedra -/

namespace Siren.Geometry.Polyhedra

open Siren Real

variable {P : Solid}

/-- Between two polygons around the axis. -/
def Solid.Between (P : Solid) (r R x y : ℝ) : Prop := (∀ k < P.sides, P.reach k x y < R) ∧ ¬ ∀ k < P.sides, P.reach k x y < r

/-- The point is farther than the tolerance from the lines through the sides of the polygon. -/
def Solid.Clear (P : Solid) (r x y : ℝ) : Prop :=
  ∀ k < P.sides, precision < |2 * (r * P.scale) * sin (1 / 2 * P.dphi) * (r - P.reach k x y)|

theorem annular_iff (hv : P.Valid) (hc : P.cut = false) (r R x y : ℝ) (hr : 0 < r) (hR : 0 < R) (h1 : P.Clear r x y) (h2 : P.Clear R x y) :
    inAnnular P x y (r * P.scale) (R * P.scale) = true ↔ P.Between r R x y := by
  classical
  have hsc : 0 < P.scale := by have := cos_half_pos hv; unfold Solid.scale; positivity
  have i1 := inConvex_iff hv hc R x y hR h2
  have i2 := inConvex_iff hv hc r x y hr h1
  unfold inAnnular Solid.Between
  rw [if_pos (mul_pos hr hsc), ← i1, ← i2]
  by_cases ho : inConvex x y (fun k => R * P.scale * P.cosPhi k) (fun k => R * P.scale * P.sinPhi k) P.sides = true
  · by_cases hi : inConvex x y (fun k => r * P.scale * P.cosPhi k) (fun k => r * P.scale * P.sinPhi k) P.sides = true
    · simp [ho, hi]
    · simp [ho, hi]
  · simp [ho]

open Classical in
/-- C136, steps: where the outer radius changes at one height there is a face between the two polygons; a line going up enters there if the solid gets
    wider and leaves if it gets narrower. -/
theorem C136_step_outer (hv : P.Valid) (hc : P.cut = false) (below above : Polycone.Plane) (hin : below.rmin = above.rmin)
    (hb : 0 < below.rmax) (ha : 0 < above.rmax) (hne : below.rmax ≠ above.rmax) (hbig : precision ≤ max below.rmax above.rmax * P.scale)
    (o d : Vec3 ℝ) (t : ℝ) (ht : snap ((below.z - o.z) / d.z) = t)
    (h1 : P.Clear below.rmax (o.x + t * d.x) (o.y + t * d.y)) (h2 : P.Clear above.rmax (o.x + t * d.x) (o.y + t * d.y)) :
    stepHit P below above o d =
      if P.Between (min below.rmax above.rmax) (max below.rmax above.rmax) (o.x + t * d.x) (o.y + t * d.y) then
        [(t, if below.rmax < above.rmax then decide (d.z > 0) else decide (d.z < 0))] else [] := by
  have hsc : 0 < P.scale := by have := cos_half_pos hv; unfold Solid.scale; positivity
  unfold stepHit
  simp only [ht, hin, ne_eq, not_true_eq_false, false_and, if_false, List.append_nil]
  rw [← max_mul_of_nonneg _ _ hsc.le, ← min_mul_of_nonneg _ _ hsc.le]
  have hne' : ¬ below.rmax * P.scale = above.rmax * P.scale := fun h => hne (mul_right_cancel₀ hsc.ne' h)
  have hiff := annular_iff hv hc (min below.rmax above.rmax) (max below.rmax above.rmax) (o.x + t * d.x) (o.y + t * d.y)
    (lt_min hb ha) (lt_max_of_lt_left hb) (by rcases min_choice below.rmax above.rmax with h | h <;> rw [h] <;> assumption)
    (by rcases max_choice below.rmax above.rmax with h | h <;> rw [h] <;> assumption)
  have hlt : above.rmax * P.scale > below.rmax * P.scale ↔ below.rmax < above.rmax := mul_lt_mul_iff_left₀ hsc
  simp only [hne', not_false_eq_true, ge_iff_le, hbig, true_and, hiff, hlt]

open Classical in
/-- C136, steps: the same for the inner radius, where a line going up leaves if the hole gets wider and enters if it gets narrower. -/
theorem C136_step_inner (hv : P.Valid) (hc : P.cut = false) (below above : Polycone.Plane) (hout : below.rmax = above.rmax)
    (hb : 0 < below.rmin) (ha : 0 < above.rmin) (hne : below.rmin ≠ above.rmin) (hbig : precision ≤ max below.rmin above.rmin * P.scale)
    (o d : Vec3 ℝ) (t : ℝ) (ht : snap ((below.z - o.z) / d.z) = t)
    (h1 : P.Clear below.rmin (o.x + t * d.x) (o.y + t * d.y)) (h2 : P.Clear above.rmin (o.x + t * d.x) (o.y + t * d.y)) :
    stepHit P below above o d =
      if P.Between (min below.rmin above.rmin) (max below.rmin above.rmin) (o.x + t * d.x) (o.y + t * d.y) then
        [(t, if below.rmin < above.rmin then decide (d.z < 0) else decide (d.z > 0))] else [] := by
  have hsc : 0 < P.scale := by have := cos_half_pos hv; unfold Solid.scale; positivity
  unfold stepHit
  simp only [ht, hout, ne_eq, not_true_eq_false, false_and, if_false, List.nil_append]
  rw [← max_mul_of_nonneg _ _ hsc.le, ← min_mul_of_nonneg _ _ hsc.le]
  have hne' : ¬ below.rmin * P.scale = above.rmin * P.scale := fun h => hne (mul_right_cancel₀ hsc.ne' h)
  have hiff := annular_iff hv hc (min below.rmin above.rmin) (max below.rmin above.rmin) (o.x + t * d.x) (o.y + t * d.y)
    (lt_min hb ha) (lt_max_of_lt_left hb) (by rcases min_choice below.rmin above.rmin with h | h <;> rw [h] <;> assumption)
    (by rcases max_choice below.rmin above.rmin with h | h <;> rw [h] <;> assumption)
  have hlt : above.rmin * P.scale > below.rmin * P.scale ↔ below.rmin < above.rmin := mul_lt_mul_iff_left₀ hsc
  simp only [hne', not_false_eq_true, ge_iff_le, hbig, true_and, hiff, hlt]

/-- C136: a vertical line beside the narrow lower part of a solid with one step enters at the step and leaves at the top. -/
theorem C136_widening (z0 z1 z2 r R1 R2 : ℝ) (hv : P.Valid) (hc : P.cut = false)
    (hP : P.planes = [⟨z0, r, R1⟩, ⟨z1, r, R1⟩, ⟨z1, r, R2⟩, ⟨z2, r, R2⟩]) (hR : 0 < R1) (hR2 : R1 < R2) (hbig : precision ≤ R1)
    (o : Vec3 ℝ) (hs : skips P o ⟨0, 0, 1⟩ = false) (h : P.Between R1 R2 o.x o.y) (c0 : 0 < r → P.Clear r o.x o.y) (c1 : P.Clear R1 o.x o.y)
    (c2 : P.Clear R2 o.x o.y) (s1 : snap (z1 - o.z) = z1 - o.z) (s2 : snap (z2 - o.z) = z2 - o.z) :
    (hits P o ⟨0, 0, 1⟩).Perm [(z1 - o.z, true), (z2 - o.z, false)] := by
  classical
  have hp : precision < 1 := by unfold precision; norm_num
  have hpp := precision_pos
  have hsc : 0 < P.scale := by have := cos_half_pos hv; unfold Solid.scale; positivity
  have hsc1 : 1 ≤ P.scale := by
    have h1 := cos_half_pos hv
    unfold Solid.scale
    rw [le_div_iff₀ h1, one_mul]
    exact cos_le_one _
  have hr := hv.radii ⟨z0, r, R1⟩ (by rw [hP]; simp)
  simp only at hr
  have hbot : ¬ inCap P ⟨z0, r, R1⟩ o.x o.y = true := by
    intro hin
    rw [C136_cap hv hc ⟨z0, r, R1⟩ (by rw [hP]; simp) hR o.x o.y ?_] at hin
    · exact h.2 hin.1
    · rintro ρ (rfl | rfl) h0
      · exact c0 h0
      · exact c1
  have htop : inCap P ⟨z2, r, R2⟩ o.x o.y = true := by
    rw [C136_cap hv hc ⟨z2, r, R2⟩ (by rw [hP]; simp) (by simp only; linarith) o.x o.y ?_]
    · exact ⟨h.1, fun hh => h.2 fun k hk => lt_of_lt_of_le (hh.2 k hk) hr.2⟩
    · rintro ρ (rfl | rfl) h0
      · exact c0 h0
      · exact c2
  have hsec : ((P.planes.zip P.planes.tail).flatMap fun s => sectionHits P s.1 s.2 o ⟨0, 0, 1⟩) = [] := by
    have e1 := section_none hv ⟨z0, r, R1⟩ ⟨z1, r, R1⟩ rfl rfl o 1
    have e2 : sectionHits P ⟨z1, r, R1⟩ ⟨z1, r, R2⟩ o ⟨0, 0, 1⟩ = [] := by unfold sectionHits; rw [if_pos le_rfl]
    have e3 := section_none hv ⟨z1, r, R2⟩ ⟨z2, r, R2⟩ rfl rfl o 1
    rw [hP]
    simp only [List.tail_cons, List.zip_cons_cons, List.zip_nil_right, List.flatMap_cons, List.flatMap_nil, e1, e2, e3, List.append_nil]
  have hstep : stepHit P ⟨z1, r, R1⟩ ⟨z1, r, R2⟩ o ⟨0, 0, 1⟩ = [(z1 - o.z, true)] := by
    rw [C136_step_outer hv hc ⟨z1, r, R1⟩ ⟨z1, r, R2⟩ rfl hR (by simp only; linarith) hR2.ne
      (by simp only; rw [max_eq_right hR2.le]; nlinarith) o ⟨0, 0, 1⟩ (z1 - o.z) (by simp only; rw [div_one]; exact s1)
      (by simpa using c1) (by simpa using c2)]
    simp only [mul_zero, add_zero]
    rw [min_eq_left hR2.le, max_eq_right hR2.le, if_pos h, if_pos hR2]
    simp
  have hst : steps P o ⟨0, 0, 1⟩ P.planes.length P.planes.tail.dropLast = [(z1 - o.z, true)] := by
    rw [hP]
    simp [steps, hstep]
  unfold hits
  rw [hs, hsec, hst, hP]
  simp only [Bool.false_eq_true, if_false, abs_one, gt_iff_lt, hp, if_true, List.nil_append, List.head?_cons, List.getLast?_cons_cons,
    List.getLast?_singleton, Option.toList_some, List.flatMap_cons, List.flatMap_nil, List.append_nil]
  unfold capHit
  simp only [div_one, mul_zero, add_zero, s2, htop]
  rw [if_neg (fun hh => hbot hh.2), if_pos ⟨by linarith, trivial⟩]
  simp only [List.nil_append]
  have : decide ((1 : ℝ) < 0) = false := by norm_num
  rw [this]
  exact List.Perm.swap _ _ _

/-! ### Example -/

/-- A point between the polygons with distances 1 and 2, clear of both. -/
theorem stepped_between : stepped.Between 1 2 (3 / 2) 0 ∧ stepped.Clear 1 (3 / 2) 0 ∧ stepped.Clear 2 (3 / 2) 0 := by
  have hp : precision = 1 / 1000000000 := rfl
  refine ⟨⟨fun k _ => ?_, fun h => ?_⟩, fun k hk => ?_, fun k hk => ?_⟩
  · rw [stepped_reach]
    linarith [cos_le_one (k * (π / 2))]
  · have := h 0 (by decide)
    rw [stepped_reach] at this
    norm_num at this
  · rw [show 2 * (1 * stepped.scale) * sin (1 / 2 * stepped.dphi) = 2 by linear_combination 2 * stepped_side, stepped_reach, hp]
    have hk : k < 4 := hk
    interval_cases k
    · norm_num
    · norm_num
    · push_cast
      rw [show (2 : ℝ) * (π / 2) = π by ring, cos_pi]
      norm_num
    · push_cast
      rw [show (3 : ℝ) * (π / 2) = π / 2 + π by ring, cos_add_pi, cos_pi_div_two]
      norm_num
  · rw [show 2 * (2 * stepped.scale) * sin (1 / 2 * stepped.dphi) = 4 by linear_combination 4 * stepped_side, stepped_reach, hp]
    have := cos_le_one (k * (π / 2))
    rw [abs_of_pos (by linarith)]
    linarith

/-- The face the code would find if the step were not at the first plane. -/
example : stepHit stepped ⟨0, 0, 1⟩ ⟨0, 0, 2⟩ ⟨3 / 2, 0, -1⟩ ⟨0, 0, 1⟩ = [(1, true)] := by
  classical
  have hp : precision = 1 / 1000000000 := rfl
  have hx : (3 / 2 : ℝ) + 1 * 0 = 3 / 2 := by norm_num
  have hy : (0 : ℝ) + 1 * 0 = 0 := by norm_num
  have hsc : precision ≤ max 1 2 * stepped.scale := by
    have h : precision ≤ 1 * stepped.scale := cube_scale
    rw [max_eq_right (by norm_num : (1 : ℝ) ≤ 2)]
    rw [hp] at h ⊢
    linarith
  rw [C136_step_outer stepped_valid rfl ⟨0, 0, 1⟩ ⟨0, 0, 2⟩ rfl (by norm_num) (by norm_num) (by norm_num) hsc ⟨3 / 2, 0, -1⟩ ⟨0, 0, 1⟩ 1
    (by unfold snap; rw [if_neg]; · norm_num
        · rw [hp]; norm_num)
    (by simp only [hx, hy]; exact stepped_between.2.1) (by simp only [hx, hy]; exact stepped_between.2.2)]
  simp only [hx, hy]
  rw [min_eq_left (by norm_num : (1 : ℝ) ≤ 2), max_eq_right (by norm_num : (1 : ℝ) ≤ 2), if_pos stepped_between.1, if_pos (by norm_num)]
  norm_num

/-- A solid with a step in the middle. -/
noncomputable def widening : Solid := ⟨4, -(π / 4), 2 * π, false, [⟨-1, 0, 1⟩, ⟨0, 0, 1⟩, ⟨0, 0, 2⟩, ⟨1, 0, 2⟩]⟩

theorem widening_valid : widening.Valid := by
  have hpi := Real.pi_pos
  refine ⟨by decide, ⟨by simp only [widening]; linarith, le_rfl⟩, by simp [widening], ?_, ?_⟩
  · simp [widening]
  · intro p hp
    simp only [widening, List.mem_cons, List.not_mem_nil, or_false] at hp
    rcases hp with rfl | rfl | rfl | rfl <;> norm_num

example : (hits widening ⟨3 / 2, 0, -2⟩ ⟨0, 0, 1⟩).Perm [(0 - -2, true), (1 - -2, false)] := by
  have hpi := Real.pi_pos
  have hp : precision = 1 / 1000000000 := rfl
  have hd : widening.dphi = π / 2 := cube_dphi
  have hhas : widening.Has ⟨3 / 2, 0, 1⟩ := by
    refine ⟨2, ⟨0, 0, 2⟩, ⟨1, 0, 2⟩, rfl, rfl, 1, by norm_num, le_rfl, by simp, 0, by decide, 3 / 2, 0, by norm_num, by simp, by simp, ?_, ?_, ?_⟩
    · simp only [widening]; push_cast; linarith
    · rw [hd]; simp only [widening]; push_cast; linarith
    · rw [show widening.reach 0 (3 / 2) 0 = 3 / 2 * cos ((0 : ℕ) * (π / 2)) from stepped_reach 0]
      norm_num
  exact C136_widening (-1) 0 1 0 1 2 widening_valid rfl rfl (by norm_num) (by norm_num) (by rw [hp]; norm_num) ⟨3 / 2, 0, -2⟩
    (C136_kept_partial widening_valid _ _ (Or.inr (by rw [hp]; norm_num)) 3 (by norm_num at hhas ⊢; exact hhas))
    stepped_between.1 (fun h => absurd h (lt_irrefl 0)) stepped_between.2.1 stepped_between.2.2
    (by unfold snap; rw [if_neg]; rw [hp]; norm_num) (by unfold snap; rw [if_neg]; rw [hp]; norm_num)

end Siren.Geometry.Polyhedra
