import Verif.Geometry.PolyhedraTip

set_option autoImplicit false
set_option linter.unusedSimpArgs false

/-! # C136: all crossings of a polyhedron without an azimuthal cut

`Polyhedra::ComputeIntersections` (`projects/geometry/private/Polyhedra.cxx`) up to the sort, which does not change how many
crossings there are. Hits are distances with whether the line enters; the positions are left out. -/

namespace Siren.Geometry.Polyhedra

open Siren Real

open Classical in
/-- A distance just above zero is taken to be zero (geometry/private/Polyhedra.cxx:543-544, 570-571, 619-620). -/
noncomputable def snap (t : ℝ) : ℝ := if t > 0 ∧ t < precision then 0 else t

open Classical in
/-- The crossing with one end cap (geometry/private/Polyhedra.cxx:538-562, 565-589). -/
noncomputable def capHit (P : Solid) (p : Polycone.Plane) (enters : Bool) (o d : Vec3 ℝ) : List (ℝ × Bool) :=
  let t := snap ((p.z - o.z) / d.z)
  if p.rmax ≥ precision ∧ inCap P p (o.x + t * d.x) (o.y + t * d.y) = true then [(t, enters)] else []

open Classical in
/-- The crossings at a step, with the radii below and above (geometry/private/Polyhedra.cxx:605-660). -/
noncomputable def stepHit (P : Solid) (below above : Polycone.Plane) (o d : Vec3 ℝ) : List (ℝ × Bool) :=
  let t := snap ((below.z - o.z) / d.z)
  let x := o.x + t * d.x
  let y := o.y + t * d.y
  let b := P.scale
  (if below.rmax * b ≠ above.rmax * b ∧ max (below.rmax * b) (above.rmax * b) ≥ precision ∧
      inAnnular P x y (min (below.rmax * b) (above.rmax * b)) (max (below.rmax * b) (above.rmax * b)) = true then
    [(t, if above.rmax * b > below.rmax * b then decide (d.z > 0) else decide (d.z < 0))] else []) ++
  (if below.rmin * b ≠ above.rmin * b ∧ max (below.rmin * b) (above.rmin * b) ≥ precision ∧
      inAnnular P x y (min (below.rmin * b) (above.rmin * b)) (max (below.rmin * b) (above.rmin * b)) = true then
    [(t, if above.rmin * b > below.rmin * b then decide (d.z < 0) else decide (d.z > 0))] else [])

open Classical in
/-- The loop over groups of planes at one height, given the planes without the first and the last (geometry/private/Polyhedra.cxx:596-663).
    The first argument bounds the number of groups; the number of planes is enough. -/
noncomputable def steps (P : Solid) (o d : Vec3 ℝ) : ℕ → List Polycone.Plane → List (ℝ × Bool)
  | 0, _ => []
  | _, [] => []
  | m + 1, p :: l =>
    let group := l.takeWhile fun q => decide (q.z = p.z)
    stepHit P p ((p :: group).getLast (by simp)) o d ++ steps P o d m (l.dropWhile fun q => decide (q.z = p.z))

open Classical in
/-- The crossings with the sides of one section (geometry/private/Polyhedra.cxx:367-534). -/
noncomputable def sectionHits (P : Solid) (a b : Polycone.Plane) (o d : Vec3 ℝ) : List (ℝ × Bool) :=
  if b.z ≤ a.z then []
  else if |d.z| < precision ∧ (o.z < a.z ∨ o.z ≥ b.z) then []
  else (List.range P.sides).flatMap fun k =>
    (sideHit P k a.z b.z a.rmax b.rmax true o d).toList ++
    if a.rmin * P.scale > 0 ∨ b.rmin * P.scale > 0 then (sideHit P k a.z b.z a.rmin b.rmin false o d).toList else []

open Classical in
/-- The crossings of a solid without an azimuthal cut before they are sorted (geometry/private/Polyhedra.cxx:268-676). -/
noncomputable def hits (P : Solid) (o d : Vec3 ℝ) : List (ℝ × Bool) :=
  if skips P o d then []
  else
    ((P.planes.zip P.planes.tail).flatMap fun s => sectionHits P s.1 s.2 o d) ++
    if |d.z| > precision then
      ((P.planes.head?.toList.flatMap fun p => capHit P p (decide (d.z > 0)) o d) ++
        (P.planes.getLast?.toList.flatMap fun p => capHit P p (decide (d.z < 0)) o d)) ++
      steps P o d P.planes.length P.planes.tail.dropLast
    else []

/-! ### Vertical lines through upright solids -/

variable {P : Solid}

/-- A line parallel to a side does not cross it. -/
theorem side_none (hv : P.Valid) (k : ℕ) (hk : k < P.sides) (za zb r : ℝ) (outer : Bool) (o : Vec3 ℝ) (s : ℝ) :
    sideHit P k za zb r r outer o ⟨0, 0, s⟩ = none := by
  classical
  have hp : (0 : ℝ) < precision := by unfold precision; norm_num
  unfold sideHit
  simp only
  rw [normal_eq hv k hk, dot_out_any, if_neg]
  unfold Solid.reach
  simp only [sub_self, zero_mul, add_zero, mul_zero, abs_zero, gt_iff_lt, not_lt]
  exact hp.le

theorem section_none (hv : P.Valid) (a b : Polycone.Plane) (h1 : a.rmax = b.rmax) (h2 : a.rmin = b.rmin) (o : Vec3 ℝ) (s : ℝ) :
    sectionHits P a b o ⟨0, 0, s⟩ = [] := by
  classical
  unfold sectionHits
  split
  · rfl
  split
  · rfl
  rw [List.flatMap_eq_nil_iff]
  intro k hk
  rw [List.mem_range] at hk
  rw [h1, h2, side_none hv k hk, side_none hv k hk]
  simp

theorem steps_none (P : Solid) (o d : Vec3 ℝ) (r R : ℝ) (m : ℕ) (l : List Polycone.Plane) (h : ∀ p ∈ l, p.rmin = r ∧ p.rmax = R) :
    steps P o d m l = [] := by
  classical
  induction m generalizing l with
  | zero => rfl
  | succ m ih =>
    cases l with
    | nil => rfl
    | cons p l =>
      have hlast : ∀ q, q ∈ p :: l.takeWhile (fun q => decide (q.z = p.z)) → q.rmin = r ∧ q.rmax = R := by
        intro q hq
        rcases List.mem_cons.mp hq with rfl | hq
        · exact h _ (by simp)
        · exact h q (List.mem_cons_of_mem _ ((List.takeWhile_prefix _).subset hq))
      have h1 := h p (by simp)
      have h2 := hlast _ (List.getLast_mem (by simp : p :: l.takeWhile (fun q => decide (q.z = p.z)) ≠ []))
      unfold steps
      simp only
      rw [ih _ fun q hq => h q (List.mem_cons_of_mem _ ((List.dropWhile_suffix _).subset hq))]
      unfold stepHit
      simp only [h1.1, h1.2, h2.1, h2.2]
      simp

/-- C136: a vertical line crosses an upright solid, whose radii are the same at all planes, exactly at its ends, entering at the bottom and
    leaving at the top, if it is within the cap there; otherwise it does not cross it. -/
theorem C136_upright (hv : P.Valid) (r R : ℝ) (hr : ∀ p ∈ P.planes, p.rmin = r ∧ p.rmax = R) (hR : precision ≤ R) (o : Vec3 ℝ)
    (a b : Polycone.Plane) (ha : P.planes.head? = some a) (hb : P.planes.getLast? = some b)
    (hs : skips P o ⟨0, 0, 1⟩ = false) (h1 : snap (a.z - o.z) = a.z - o.z) (h2 : snap (b.z - o.z) = b.z - o.z) :
    hits P o ⟨0, 0, 1⟩ = if inCap P a o.x o.y = true then [(a.z - o.z, true), (b.z - o.z, false)] else [] := by
  classical
  have hp : precision < 1 := by unfold precision; norm_num
  have hma : a ∈ P.planes := List.mem_of_mem_head? ha
  have hmb : b ∈ P.planes := List.mem_of_mem_getLast? hb
  have hcap : inCap P b o.x o.y = inCap P a o.x o.y := by
    unfold inCap
    rw [(hr a hma).1, (hr a hma).2, (hr b hmb).1, (hr b hmb).2]
  have hsec : ((P.planes.zip P.planes.tail).flatMap fun s => sectionHits P s.1 s.2 o ⟨0, 0, 1⟩) = [] := by
    rw [List.flatMap_eq_nil_iff]
    intro s hs
    have m1 := hr _ (List.of_mem_zip hs).1
    have m2 := hr _ (List.mem_of_mem_tail (List.of_mem_zip hs).2)
    exact section_none hv _ _ (by rw [m1.2, m2.2]) (by rw [m1.1, m2.1]) o 1
  have hst := steps_none P o ⟨0, 0, 1⟩ r R P.planes.length P.planes.tail.dropLast fun p hp =>
    hr p (List.mem_of_mem_tail (List.mem_of_mem_dropLast hp))
  unfold hits
  rw [hs, hsec, hst, ha, hb]
  simp only [Bool.false_eq_true, if_false, abs_one, gt_iff_lt, hp, if_true, List.nil_append, List.append_nil, Option.toList_some,
    List.flatMap_cons, List.flatMap_nil]
  unfold capHit
  simp only [div_one, mul_zero, add_zero, h1, h2, hcap, (hr a hma).2, (hr b hmb).2, ge_iff_le, hR, true_and]
  by_cases hc : inCap P a o.x o.y = true
  · simp [hc]
  · simp [hc]

/-- The cube is upright. -/
example : hits cube ⟨1 / 2, 0, -3⟩ ⟨0, 0, 1⟩ = if inCap cube ⟨-1, 0, 1⟩ (1 / 2) 0 = true then [(2, true), (4, false)] else [] := by
  have hp : precision = 1 / 1000000000 := rfl
  have := C136_upright cube_valid 0 1 (by intro p h; simp [cube] at h; rcases h with rfl | rfl <;> exact ⟨rfl, rfl⟩) (by rw [hp]; norm_num)
    ⟨1 / 2, 0, -3⟩ ⟨-1, 0, 1⟩ ⟨1, 0, 1⟩ rfl rfl
    (C136_kept_partial cube_valid _ _ (Or.inr (by rw [hp]; norm_num)) 3 (by have := cube_has 0 (by norm_num) (by norm_num); norm_num at this ⊢; exact this))
    (by unfold snap; rw [if_neg]; rw [hp]; norm_num) (by unfold snap; rw [if_neg]; rw [hp]; norm_num)
  norm_num at this ⊢
  exact this

/-! ### A step at the first plane -/

/-- A prism whose first two planes are at the same height, with radii 1 and 2. -/
noncomputable def stepped : Solid := ⟨4, -(π / 4), 2 * π, false, [⟨0, 0, 1⟩, ⟨0, 0, 2⟩, ⟨1, 0, 2⟩]⟩

theorem stepped_valid : stepped.Valid := by
  have hpi := Real.pi_pos
  refine ⟨by decide, ⟨by simp only [stepped]; linarith, le_rfl⟩, by simp [stepped], ?_, ?_⟩
  · simp [stepped]
  · intro p hp
    simp only [stepped, List.mem_cons, List.not_mem_nil, or_false] at hp
    rcases hp with rfl | rfl | rfl <;> norm_num

/-- The constructor makes it. -/
theorem stepped_made : ∃ P, make 4 (-(π / 4)) [0, 0, 1] [0, 0, 0] [1, 2, 2] = some P ∧ P = stepped := by
  classical
  refine ⟨_, ?_, rfl⟩
  have h : Polycone.validate [0, 0, 1] [0, 0, 0] [1, 2, 2] = some [⟨0, 0, 1⟩, ⟨0, 0, 2⟩, ⟨1, 0, 2⟩] := by
    unfold Polycone.validate
    norm_num [Polycone.planesOf]
  unfold make
  rw [if_neg (by norm_num), if_neg (by norm_num), h]
  rfl

theorem stepped_reach (k : ℕ) : stepped.reach k (3 / 2) 0 = 3 / 2 * cos (k * (π / 2)) := by
  have : stepped.mid k = k * (π / 2) := cube_mid k
  unfold Solid.reach
  rw [this]
  ring

theorem stepped_side : stepped.scale * sin (1 / 2 * stepped.dphi) = 1 := cube_wid

theorem stepped_has (z : ℝ) (h0 : 0 ≤ z) (h1 : z ≤ 1) : stepped.Has ⟨3 / 2, 0, z⟩ := by
  have hpi := Real.pi_pos
  have hd : stepped.dphi = π / 2 := cube_dphi
  refine ⟨1, ⟨0, 0, 2⟩, ⟨1, 0, 2⟩, rfl, rfl, z, h0, h1, by simp, 0, by decide, 3 / 2, 0, by norm_num, by simp, by simp, ?_, ?_, ?_⟩
  · simp only [stepped]; push_cast; linarith
  · rw [hd]; simp only [stepped]; push_cast; linarith
  · rw [stepped_reach]
    norm_num

theorem stepped_bottom : inCap stepped ⟨0, 0, 1⟩ (3 / 2) 0 = false := by
  have hp : precision = 1 / 1000000000 := rfl
  have h : ¬ inCap stepped ⟨0, 0, 1⟩ (3 / 2) 0 = true := by
    rw [C136_cap stepped_valid rfl ⟨0, 0, 1⟩ (by simp [stepped]) (by norm_num) (3 / 2) 0 ?_]
    · rintro ⟨h, -⟩
      have := h 0 (by decide)
      rw [stepped_reach] at this
      norm_num at this
    · rintro r (rfl | rfl) h0 k hk
      · simp at h0
      · simp only
        rw [show 2 * (1 * stepped.scale) * sin (1 / 2 * stepped.dphi) = 2 by linear_combination 2 * stepped_side, stepped_reach, hp]
        have hk : k < 4 := hk
        interval_cases k
        · norm_num
        · norm_num
        · push_cast
          rw [show (2 : ℝ) * (π / 2) = π by ring, cos_pi]
          norm_num
        · push_cast
          rw [show (3 : ℝ) * (π / 2) = π / 2 + π by ring, cos_add_pi, cos_pi_div_two]
          norm_num
  simpa using h

theorem stepped_top : inCap stepped ⟨1, 0, 2⟩ (3 / 2) 0 = true := by
  have hp : precision = 1 / 1000000000 := rfl
  rw [C136_cap stepped_valid rfl ⟨1, 0, 2⟩ (by simp [stepped]) (by norm_num) (3 / 2) 0 ?_]
  · refine ⟨fun k _ => ?_, fun h => by simp at h⟩
    rw [stepped_reach]
    simp only
    linarith [cos_le_one (k * (π / 2))]
  · rintro r (rfl | rfl) h0 k hk
    · simp at h0
    · simp only
      rw [show 2 * (2 * stepped.scale) * sin (1 / 2 * stepped.dphi) = 4 by linear_combination 4 * stepped_side, stepped_reach, hp]
      have := cos_le_one (k * (π / 2))
      rw [abs_of_pos (by linarith)]
      linarith

/-- C136 is false of the code for solids that begin with a step: the part of the bottom beyond the first radius is not a face, and a line
    that comes up through it is reported to leave the solid without having entered it. -/
theorem C136_step_fails : (∃ P, make 4 (-(π / 4)) [0, 0, 1] [0, 0, 0] [1, 2, 2] = some P ∧ P = stepped) ∧
    (∀ z, 0 ≤ z → z ≤ 1 → stepped.Has ⟨3 / 2, 0, z⟩) ∧ hits stepped ⟨3 / 2, 0, -1⟩ ⟨0, 0, 1⟩ = [(2, false)] := by
  classical
  refine ⟨stepped_made, stepped_has, ?_⟩
  have hp : precision = 1 / 1000000000 := rfl
  have hs : skips stepped ⟨3 / 2, 0, -1⟩ ⟨0, 0, 1⟩ = false := by
    refine C136_kept_partial stepped_valid _ _ (Or.inr ?_) 2 ?_
    · rw [hp]; norm_num
    · have := stepped_has 1 (by norm_num) le_rfl
      norm_num at this ⊢
      exact this
  have hsec : ((stepped.planes.zip stepped.planes.tail).flatMap fun s => sectionHits stepped s.1 s.2 ⟨3 / 2, 0, -1⟩ ⟨0, 0, 1⟩) = [] := by
    have e1 : sectionHits stepped ⟨0, 0, 1⟩ ⟨0, 0, 2⟩ ⟨3 / 2, 0, -1⟩ ⟨0, 0, 1⟩ = [] := by unfold sectionHits; rw [if_pos le_rfl]
    have e2 := section_none stepped_valid ⟨0, 0, 2⟩ ⟨1, 0, 2⟩ rfl rfl ⟨3 / 2, 0, -1⟩ 1
    show sectionHits stepped ⟨0, 0, 1⟩ ⟨0, 0, 2⟩ _ _ ++ (sectionHits stepped ⟨0, 0, 2⟩ ⟨1, 0, 2⟩ _ _ ++ []) = []
    rw [e1, e2]
    rfl
  have hst : steps stepped ⟨3 / 2, 0, -1⟩ ⟨0, 0, 1⟩ stepped.planes.length stepped.planes.tail.dropLast = [] := by
    apply steps_none stepped _ _ 0 2
    intro p h
    simp [stepped] at h
    rw [h]
    exact ⟨rfl, rfl⟩
  unfold hits
  rw [hs, hsec, hst, show stepped.planes.head? = some ⟨0, 0, 1⟩ from rfl, show stepped.planes.getLast? = some ⟨1, 0, 2⟩ from rfl]
  simp only [Bool.false_eq_true, if_false, List.nil_append, List.append_nil, Option.toList_some, List.flatMap_cons, List.flatMap_nil]
  rw [if_pos (by rw [hp]; norm_num)]
  have s2 : snap 2 = 2 := by unfold snap; rw [if_neg (by rw [hp]; norm_num)]
  unfold capHit
  norm_num [stepped_bottom, stepped_top, s2, hp]

end Siren.Geometry.Polyhedra
