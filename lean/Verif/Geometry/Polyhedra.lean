import Verif.Geometry.PolyconeMain
import Mathlib.Algebra.BigOperators.Group.Finset.Basic
import Mathlib.Analysis.SpecialFunctions.Trigonometric.Bounds

set_option autoImplicit false
set_option linter.unusedSimpArgs false

/-!
# C136: polyhedra

Models the constructors, the corners, the caps, the test that skips lines far away and the bounding box of
`geometry/private/Polyhedra.cxx`. Real cosine and sine instead of `std::cos` and `std::sin`. The faces at the sides are in `PolyhedraSide.lean`; the caps
of a solid with an azimuthal cut are not modelled.
-/

namespace Siren.Geometry.Polyhedra

open Siren Siren.Geometry Real

/-! ### Model -/

/-- The members of `Polyhedra` (geometry/public/SIREN/geometry/Polyhedra.h); the three vectors as one. -/
structure Solid where
  sides : ℕ
  startPhi : ℝ
  deltaPhi : ℝ
  cut : Bool
  planes : List Polycone.Plane

/-- The constructor with all angles (geometry/private/Polyhedra.cxx:99-100) with `validate` (geometry/private/Polyhedra.cxx:23-70), whose checks
    of the planes are those of `Polycone`; `none` is an exception. -/
noncomputable def makePhi (n : ℤ) (startPhi : ℝ) (z rmin rmax : List ℝ) (deltaPhi : ℝ) : Option Solid :=
  open Classical in
  if deltaPhi ≤ 0 then none
  else
    let delta := if deltaPhi > 2 * π then 2 * π else deltaPhi
    let cut := if deltaPhi > 2 * π then false else decide (|deltaPhi - 2 * π| > 1 / 1000000000)
    if n < 3 then none
    else if n > 64 then none
    else (Polycone.validate z rmin rmax).map fun l => ⟨n.toNat, startPhi, delta, cut, l⟩

/-- The constructor of a full solid (geometry/private/Polyhedra.cxx:96, 98). -/
noncomputable def make (n : ℤ) (startPhi : ℝ) (z rmin rmax : List ℝ) : Option Solid :=
  if n < 3 then none
  else if n > 64 then none
  else (Polycone.validate z rmin rmax).map fun l => ⟨n.toNat, startPhi, 2 * π, false, l⟩

/-- `dphi` and `face_dphi` (geometry/private/Polyhedra.cxx:78, 286, 742). -/
noncomputable def Solid.dphi (P : Solid) : ℝ := if P.cut then P.deltaPhi / P.sides else 2 * π / P.sides

/-- `precompute_trig` (geometry/private/Polyhedra.cxx:72-93). -/
noncomputable def Solid.cosPhi (P : Solid) (k : ℕ) : ℝ :=
  if k < P.sides then cos (P.startPhi + k * P.dphi) else if P.cut then cos (P.startPhi + P.deltaPhi) else cos (P.startPhi + (0 : ℕ) * P.dphi)
noncomputable def Solid.sinPhi (P : Solid) (k : ℕ) : ℝ :=
  if k < P.sides then sin (P.startPhi + k * P.dphi) else if P.cut then sin (P.startPhi + P.deltaPhi) else sin (P.startPhi + (0 : ℕ) * P.dphi)

/-- `cr_scale` (geometry/private/Polyhedra.cxx:364). -/
noncomputable def Solid.scale (P : Solid) : ℝ := 1 / cos (1 / 2 * P.dphi)

/-- `max_cr` and `max_r` (geometry/private/Polyhedra.cxx:285, 741). -/
noncomputable def Solid.maxR (P : Solid) : ℝ := match P.planes.map Polycone.Plane.rmax with
  | [] => 0
  | a :: l => l.foldl max a

/-- `bounding_r` and `circum_r` (geometry/private/Polyhedra.cxx:287, 743). -/
noncomputable def Solid.boundR (P : Solid) : ℝ := P.maxR / cos (1 / 2 * P.dphi)

/-- `z_planes_.front()` and `z_planes_.back()`. -/
noncomputable def Solid.zLo (P : Solid) : ℝ := (P.planes.map Polycone.Plane.z).headD 0
noncomputable def Solid.zHi (P : Solid) : ℝ := (P.planes.map Polycone.Plane.z).getLastD 0

/-- The distance from the axis, squared, along the line. -/
def dist2 (o d : Vec3 ℝ) (t : ℝ) : ℝ := (o.x + t * d.x) * (o.x + t * d.x) + (o.y + t * d.y) * (o.y + t * d.y)

open Classical in
/-- Whether `ComputeIntersections` returns early (geometry/private/Polyhedra.cxx:289-325). -/
noncomputable def skips (P : Solid) (o d : Vec3 ℝ) : Bool :=
  let R2 := P.boundR * P.boundR
  let C := d.x * d.x + d.y * d.y
  let cross := o.x * d.y - o.y * d.x
  if (if C > 0 then decide (cross * cross > C * R2) else decide (o.x * o.x + o.y * o.y > R2)) then true
  else if |d.z| < precision then decide (o.z < P.zLo ∨ o.z > P.zHi)
  else
    let t1 := (P.zLo - o.z) / d.z
    let t2 := (P.zHi - o.z) / d.z
    let lo := if t1 > t2 then t2 else t1
    let hi := if t1 > t2 then t1 else t2
    let atLo := dist2 o d lo
    let atHi := dist2 o d hi
    let closest :=
      if C > 0 then
        let t := -(o.x * d.x + o.y * d.y) / C
        if t > lo ∧ t < hi then dist2 o d t else min atLo atHi
      else o.x * o.x + o.y * o.y
    decide (closest > R2 ∧ atLo > R2 ∧ atHi > R2)

open Classical in
/-- The loop of `PointInConvexPolygon` over the cross products (geometry/private/Polyhedra.cxx:139-147). -/
noncomputable def convexLoop (c : ℕ → ℝ) : List ℕ → Bool → Bool → Bool
  | [], _, _ => true
  | i :: l, pos, neg =>
    let pos := pos || decide (c i > precision)
    let neg := neg || decide (c i < -precision)
    if pos && neg then false else convexLoop c l pos neg

/-- The cross product of the edge from corner `i` with the way to the point (geometry/private/Polyhedra.cxx:140-143). -/
def cross (vx vy : ℕ → ℝ) (n : ℕ) (x y : ℝ) (i : ℕ) : ℝ :=
  (vx ((i + 1) % n) - vx i) * (y - vy i) - (vy ((i + 1) % n) - vy i) * (x - vx i)

/-- `PointInConvexPolygon` (geometry/private/Polyhedra.cxx:133-149). -/
noncomputable def inConvex (x y : ℝ) (vx vy : ℕ → ℝ) (n : ℕ) : Bool := convexLoop (cross vx vy n x y) (List.range n) false false

open Classical in
/-- `PointInAnnularPolygon` (geometry/private/Polyhedra.cxx:154-182). -/
noncomputable def inAnnular (P : Solid) (x y r R : ℝ) : Bool :=
  if !inConvex x y (fun k => R * P.cosPhi k) (fun k => R * P.sinPhi k) P.sides then false
  else if r > 0 then
    if inConvex x y (fun k => r * P.cosPhi k) (fun k => r * P.sinPhi k) P.sides then false else true
  else true

/-- Whether the line meets the cap at a plane of a solid without a cut (geometry/private/Polyhedra.cxx:536-560). -/
noncomputable def inCap (P : Solid) (p : Polycone.Plane) (x y : ℝ) : Bool := inAnnular P x y (p.rmin * P.scale) (p.rmax * P.scale)

/-- `GetBoundingBox` without a cut (geometry/private/Polyhedra.cxx:737-752). -/
noncomputable def boxLow (P : Solid) : Vec3 ℝ := ⟨-P.boundR, -P.boundR, P.zLo⟩
noncomputable def boxHigh (P : Solid) : Vec3 ℝ := ⟨P.boundR, P.boundR, P.zHi⟩

/-! ### Specification -/

/-- The azimuth of the middle of side `k`. -/
noncomputable def Solid.mid (P : Solid) (k : ℕ) : ℝ := P.startPhi + (k + 1 / 2) * P.dphi

/-- How far the point is out in the direction of side `k`. -/
noncomputable def Solid.reach (P : Solid) (k : ℕ) (x y : ℝ) : ℝ := x * cos (P.mid k) + y * sin (P.mid k)

/-- The point is between two neighbouring planes, and in the sector of a side not beyond that side, whose distance from the axis
    is the outer radius there. -/
def Solid.Has (P : Solid) (q : Vec3 ℝ) : Prop :=
  ∃ i, ∃ a b, P.planes[i]? = some a ∧ P.planes[i + 1]? = some b ∧ ∃ u, 0 ≤ u ∧ u ≤ 1 ∧ q.z = a.z + u * (b.z - a.z) ∧
    ∃ k < P.sides, ∃ ρ φ, 0 ≤ ρ ∧ q.x = ρ * cos φ ∧ q.y = ρ * sin φ ∧ P.startPhi + k * P.dphi ≤ φ ∧ φ ≤ P.startPhi + (k + 1) * P.dphi ∧
      P.reach k q.x q.y ≤ a.rmax + u * (b.rmax - a.rmax)

/-- What the constructors guarantee. -/
structure Solid.Valid (P : Solid) : Prop where
  sides : 3 ≤ P.sides
  delta : 0 < P.deltaPhi ∧ P.deltaPhi ≤ 2 * π
  two : 2 ≤ P.planes.length
  up : P.planes.Pairwise fun a b => a.z ≤ b.z
  radii : ∀ p ∈ P.planes, 0 ≤ p.rmin ∧ p.rmin ≤ p.rmax

/-! ### Construction -/

/-- C136, construction: the constructor accepts 3 to 64 sides, a positive angle and planes in ascending or descending order with
    sensible radii, and nothing else; it keeps the planes, in ascending order. -/
theorem C136_make (n : ℤ) (s : ℝ) (z rmin rmax : List ℝ) (w : ℝ) :
    ((∃ P, makePhi n s z rmin rmax w = some P) ↔ 0 < w ∧ 3 ≤ n ∧ n ≤ 64 ∧ Polycone.Accepted z rmin rmax) ∧
    ∀ P, makePhi n s z rmin rmax w = some P → P.Valid ∧ (P.sides : ℤ) = n ∧ P.startPhi = s ∧ P.deltaPhi = min w (2 * π) ∧
      (P.planes = Polycone.planesOf z rmin rmax ∨ P.planes = (Polycone.planesOf z rmin rmax).reverse) ∧
      (P.cut = true ↔ w < 2 * π - 1 / 1000000000) := by
  classical
  obtain ⟨h1, h2⟩ := Polycone.validate_spec z rmin rmax
  have hpi := Real.pi_pos
  constructor
  · constructor
    · rintro ⟨P, hP⟩
      unfold makePhi at hP
      simp only at hP
      split at hP
      · cases hP
      · split at hP
        · cases hP
        · split at hP
          · cases hP
          · next a b c =>
            rw [Option.map_eq_some_iff] at hP
            obtain ⟨l, hl, -⟩ := hP
            exact ⟨by push Not at a; exact a, by omega, by omega, (h1 l hl).1⟩
    · rintro ⟨a, b, c, hacc⟩
      obtain ⟨l, hl⟩ := h2 hacc
      unfold makePhi
      simp only
      rw [if_neg (not_le.mpr a), if_neg (not_lt.mpr b), if_neg (by omega), hl]
      exact ⟨_, rfl⟩
  · intro P hP
    unfold makePhi at hP
    simp only at hP
    split at hP
    · cases hP
    · split at hP
      · cases hP
      · split at hP
        · cases hP
        · next a b c =>
          push Not at a
          rw [Option.map_eq_some_iff] at hP
          obtain ⟨l, hl, rfl⟩ := hP
          obtain ⟨ha, hl1, hl2⟩ := h1 l hl
          obtain ⟨a1, a2, a3, a4, a5⟩ := ha
          have hlen : (Polycone.planesOf z rmin rmax).length = z.length := by unfold Polycone.planesOf; simp; omega
          refine ⟨⟨?_, ?_, ?_, hl2, ?_⟩, ?_, rfl, ?_, hl1, ?_⟩
          · simp only; omega
          · simp only
            split
            · exact ⟨by linarith, le_rfl⟩
            · next h => exact ⟨a, not_lt.mp h⟩
          · simp only
            rcases hl1 with h | h
            · rw [h, hlen]; exact a1
            · rw [h, List.length_reverse, hlen]; exact a1
          · intro p hp
            simp only at hp
            apply a5
            rcases hl1 with h | h <;> rw [h] at hp
            · exact hp
            · simpa using hp
          · simp only; omega
          · simp only
            split
            · next h => rw [min_eq_right h.le]
            · next h => rw [min_eq_left (not_lt.mp h)]
          · simp only
            split
            · next h => constructor
                        · intro h'; cases h'
                        · intro h'; linarith
            · next h =>
              rw [decide_eq_true_iff, abs_of_nonpos (by linarith)]
              constructor <;> intro h' <;> linarith

/-- The constructor of a full solid is the other one with the full angle. -/
theorem C136_full (n : ℤ) (s : ℝ) (z rmin rmax : List ℝ) : make n s z rmin rmax = makePhi n s z rmin rmax (2 * π) := by
  classical
  have hpi := Real.pi_pos
  unfold make makePhi
  simp only
  rw [if_neg (show ¬ 2 * π ≤ 0 by linarith), if_neg (lt_irrefl _), if_neg (lt_irrefl _), sub_self, abs_zero]
  rw [decide_eq_false (show ¬ (0 : ℝ) > 1 / 1000000000 by norm_num)]

theorem accepted_reverse (z rmin rmax : List ℝ) (h : Polycone.Accepted z rmin rmax) : Polycone.Accepted z.reverse rmin.reverse rmax.reverse := by
  obtain ⟨a1, a2, a3, a4, a5⟩ := h
  refine ⟨by simpa using a1, by simpa using a2, by simpa using a3, ?_, ?_⟩
  · rw [List.pairwise_reverse, List.pairwise_reverse]
    exact a4.symm
  · intro q hq
    rw [Polycone.planesOf_reverse z rmin rmax a2.symm a3.symm, List.mem_reverse] at hq
    exact a5 q hq

theorem validate_reverse (z rmin rmax : List ℝ) (hne : ∃ a ∈ z, ∃ b ∈ z, a < b) :
    Polycone.validate z.reverse rmin.reverse rmax.reverse = Polycone.validate z rmin rmax := by
  obtain ⟨h1, h2⟩ := Polycone.validate_spec z rmin rmax
  obtain ⟨k1, k2⟩ := Polycone.validate_spec z.reverse rmin.reverse rmax.reverse
  by_cases hacc : Polycone.Accepted z rmin rmax
  · obtain ⟨l, hl⟩ := h2 hacc
    obtain ⟨l', hl'⟩ := k2 (accepted_reverse _ _ _ hacc)
    obtain ⟨-, c1, c2⟩ := h1 l hl
    obtain ⟨-, c1', c2'⟩ := k1 l' hl'
    obtain ⟨-, a2, a3, -⟩ := hacc
    have hz := Polycone.planesOf_z z rmin rmax a2.symm a3.symm
    rw [Polycone.planesOf_reverse z rmin rmax a2.symm a3.symm, List.reverse_reverse] at c1'
    rw [hl, hl', Option.some.injEq]
    generalize Polycone.planesOf z rmin rmax = L at *
    have no : ¬ (L.Pairwise (fun a b => a.z ≤ b.z) ∧ L.reverse.Pairwise (fun a b => a.z ≤ b.z)) := by
      rintro ⟨u, v⟩
      rw [List.pairwise_reverse] at v
      have heq : L.Pairwise fun a b => a.z = b.z := (u.and v).imp fun h => le_antisymm h.1 h.2
      have hzz : z.Pairwise (· = ·) := by rw [← hz, List.pairwise_map]; exact heq
      obtain ⟨a, ha, b, hb, hab⟩ := hne
      have := hzz.forall_of_forall (fun _ _ => rfl) ha hb
      linarith
    rcases c1 with rfl | rfl <;> rcases c1' with rfl | rfl
    · exact absurd ⟨c2, c2'⟩ no
    · rfl
    · rfl
    · exact absurd ⟨c2', c2⟩ no
  · have e1 : Polycone.validate z rmin rmax = none := by
      cases h : Polycone.validate z rmin rmax with
      | none => rfl
      | some l => exact absurd (h1 l h).1 hacc
    have e2 : Polycone.validate z.reverse rmin.reverse rmax.reverse = none := by
      cases h : Polycone.validate z.reverse rmin.reverse rmax.reverse with
      | none => rfl
      | some l =>
        have := accepted_reverse _ _ _ (k1 l h).1
        simp only [List.reverse_reverse] at this
        exact absurd this hacc
    rw [e1, e2]

/-- C136, order: planes listed from the top make the same solid as planes listed from the bottom, unless all are at one height. -/
theorem C136_order (n : ℤ) (s : ℝ) (z rmin rmax : List ℝ) (w : ℝ) (hne : ∃ a ∈ z, ∃ b ∈ z, a < b) :
    makePhi n s z.reverse rmin.reverse rmax.reverse w = makePhi n s z rmin rmax w := by
  unfold makePhi
  rw [validate_reverse z rmin rmax hne]

/-! ### Angles -/

theorem dphi_bounds {P : Solid} (hv : P.Valid) : 0 < P.dphi ∧ P.dphi ≤ 2 * π / 3 := by
  have hpi := Real.pi_pos
  have hn : (3 : ℝ) ≤ P.sides := by exact_mod_cast hv.sides
  have h : ∀ w : ℝ, 0 < w → w ≤ 2 * π → 0 < w / P.sides ∧ w / P.sides ≤ 2 * π / 3 := by
    intro w h0 h1
    refine ⟨div_pos h0 (by linarith), ?_⟩
    rw [div_le_div_iff₀ (by linarith) (by norm_num)]
    nlinarith
  unfold Solid.dphi
  split
  · exact h _ hv.delta.1 hv.delta.2
  · exact h _ (by linarith) le_rfl

theorem cos_half_pos {P : Solid} (hv : P.Valid) : 0 < cos (1 / 2 * P.dphi) := by
  have hpi := Real.pi_pos
  obtain ⟨h0, h1⟩ := dphi_bounds hv
  exact cos_pos_of_mem_Ioo ⟨by linarith, by linarith⟩

theorem sin_half_pos {P : Solid} (hv : P.Valid) : 0 < sin (1 / 2 * P.dphi) := by
  have hpi := Real.pi_pos
  obtain ⟨h0, h1⟩ := dphi_bounds hv
  exact sin_pos_of_pos_of_lt_pi (by linarith) (by linarith)

/-! ### Bounds -/

theorem le_foldl_max (l : List ℝ) (a : ℝ) : a ≤ l.foldl max a ∧ ∀ x ∈ l, x ≤ l.foldl max a := by
  induction l generalizing a with
  | nil => simp
  | cons b l ih =>
    obtain ⟨h1, h2⟩ := ih (max a b)
    rw [List.foldl_cons]
    refine ⟨(le_max_left _ _).trans h1, ?_⟩
    intro x hx
    rcases List.mem_cons.mp hx with rfl | hx
    · exact (le_max_right _ _).trans h1
    · exact h2 x hx

theorem le_maxR (P : Solid) (p : Polycone.Plane) (hp : p ∈ P.planes) : p.rmax ≤ P.maxR := by
  have hm : p.rmax ∈ P.planes.map Polycone.Plane.rmax := List.mem_map_of_mem hp
  unfold Solid.maxR
  split
  · next h => rw [h] at hm; cases hm
  · next a l h =>
    rw [h] at hm
    rcases List.mem_cons.mp hm with h' | h'
    · rw [h']; exact (le_foldl_max l a).1
    · exact (le_foldl_max l a).2 _ h'

theorem z_bounds {P : Solid} (hv : P.Valid) (p : Polycone.Plane) (hp : p ∈ P.planes) : P.zLo ≤ p.z ∧ p.z ≤ P.zHi := by
  have hz : (P.planes.map Polycone.Plane.z).Pairwise (· ≤ ·) := by rw [List.pairwise_map]; exact hv.up
  have hm : p.z ∈ P.planes.map Polycone.Plane.z := List.mem_map_of_mem hp
  unfold Solid.zLo Solid.zHi
  generalize P.planes.map Polycone.Plane.z = l at hz hm
  cases l with
  | nil => cases hm
  | cons a l =>
    constructor
    · rcases List.mem_cons.mp hm with h | h
      · rw [h]; exact le_rfl
      · exact (List.pairwise_cons.mp hz).1 _ h
    · rw [List.getLastD_eq_getLast?, List.getLast?_eq_getLast_of_ne_nil (List.cons_ne_nil a l), Option.getD_some]
      have := hz
      rw [← List.dropLast_append_getLast (List.cons_ne_nil a l), List.pairwise_append] at this
      rw [← List.dropLast_append_getLast (List.cons_ne_nil a l), List.mem_append, List.mem_singleton] at hm
      rcases hm with h | h
      · exact this.2.2 _ h _ (List.mem_singleton.mpr rfl)
      · exact h.le

/-- Points of the solid are within the bounding radius and between the first and the last plane. -/
theorem has_bounds {P : Solid} (hv : P.Valid) (q : Vec3 ℝ) (hq : P.Has q) :
    q.x ^ 2 + q.y ^ 2 ≤ P.boundR ^ 2 ∧ 0 ≤ P.boundR ∧ P.zLo ≤ q.z ∧ q.z ≤ P.zHi := by
  obtain ⟨i, a, b, ha, hb, u, u0, u1, hz, k, -, ρ, φ, hρ, hx, hy, hφ0, hφ1, hr⟩ := hq
  have ha := List.mem_of_getElem? ha
  have hb := List.mem_of_getElem? hb
  have hpi := Real.pi_pos
  obtain ⟨d0, d1⟩ := dphi_bounds hv
  have hc := cos_half_pos hv
  have za := z_bounds hv a ha
  have zb := z_bounds hv b hb
  have ra := le_maxR P a ha
  have rb := le_maxR P b hb
  have r0 := hv.radii a ha
  have hM : 0 ≤ P.maxR := by linarith [r0.1, r0.2]
  have hB : 0 ≤ P.boundR := div_nonneg hM hc.le
  have hreach : P.reach k q.x q.y = ρ * cos (φ - P.mid k) := by
    unfold Solid.reach
    rw [hx, hy, cos_sub]; ring
  have hcos : cos (1 / 2 * P.dphi) ≤ cos (φ - P.mid k) := by
    rw [← cos_abs (φ - P.mid k)]
    apply cos_le_cos_of_nonneg_of_le_pi (abs_nonneg _) (by linarith)
    unfold Solid.mid
    rw [abs_le]
    constructor <;> linarith
  have hle : ρ * cos (1 / 2 * P.dphi) ≤ P.maxR := by
    have h1 : ρ * cos (1 / 2 * P.dphi) ≤ ρ * cos (φ - P.mid k) := mul_le_mul_of_nonneg_left hcos hρ
    have h2 : a.rmax + u * (b.rmax - a.rmax) ≤ P.maxR := by nlinarith
    rw [hreach] at hr
    linarith
  have hρB : ρ ≤ P.boundR := by unfold Solid.boundR; rw [le_div_iff₀ hc]; exact hle
  refine ⟨?_, hB, ?_, ?_⟩
  · have : q.x ^ 2 + q.y ^ 2 = ρ ^ 2 := by rw [hx, hy]; linear_combination ρ ^ 2 * sin_sq_add_cos_sq φ
    rw [this]
    exact pow_le_pow_left₀ hρ hρB 2
  · rw [hz]; nlinarith [za.1, zb.1]
  · rw [hz]; nlinarith [za.2, zb.2]

/-- C136, box: the bounding box of a solid without a cut contains it. -/
theorem C136_box {P : Solid} (hv : P.Valid) (q : Vec3 ℝ) (hq : P.Has q) :
    (boxLow P).x ≤ q.x ∧ q.x ≤ (boxHigh P).x ∧ (boxLow P).y ≤ q.y ∧ q.y ≤ (boxHigh P).y ∧ (boxLow P).z ≤ q.z ∧ q.z ≤ (boxHigh P).z := by
  obtain ⟨h1, h2, h3, h4⟩ := has_bounds hv q hq
  have hx := abs_le.mp (abs_le_of_sq_le_sq (a := q.x) (by nlinarith [sq_nonneg q.y]) h2)
  have hy := abs_le.mp (abs_le_of_sq_le_sq (a := q.y) (by nlinarith [sq_nonneg q.x]) h2)
  exact ⟨hx.1, hx.2, hy.1, hy.2, h3, h4⟩

/-- C136, early return: no line that meets the solid is skipped, except lines that are almost but not exactly horizontal. -/
theorem C136_kept_partial {P : Solid} (hv : P.Valid) (o d : Vec3 ℝ) (hd : d.z = 0 ∨ precision ≤ |d.z|) (t : ℝ)
    (hq : P.Has ⟨o.x + t * d.x, o.y + t * d.y, o.z + t * d.z⟩) : skips P o d = false := by
  classical
  obtain ⟨h1, h2, h3, h4⟩ := has_bounds hv _ hq
  simp only at h1 h3 h4
  have hp := precision_pos
  have hD : dist2 o d t ≤ P.boundR * P.boundR := by unfold dist2; nlinarith
  unfold skips
  simp only
  generalize P.boundR * P.boundR = R2 at *
  rw [if_neg]
  · rcases hd with hd | hd
    · rw [hd, abs_zero, if_pos hp, decide_eq_false]
      rw [hd] at h3 h4
      push Not
      constructor <;> linarith
    · have hdz : d.z ≠ 0 := by intro h; rw [h, abs_zero] at hd; linarith
      rw [if_neg (not_lt.mpr hd), decide_eq_false]
      rintro ⟨k1, k2, k3⟩
      have hlohi : (if (P.zLo - o.z) / d.z > (P.zHi - o.z) / d.z then (P.zHi - o.z) / d.z else (P.zLo - o.z) / d.z) ≤ t ∧
          t ≤ (if (P.zLo - o.z) / d.z > (P.zHi - o.z) / d.z then (P.zLo - o.z) / d.z else (P.zHi - o.z) / d.z) := by
        rcases lt_or_gt_of_ne hdz with h | h
        · have e1 : t ≤ (P.zLo - o.z) / d.z := by rw [le_div_iff_of_neg h]; linarith
          have e2 : (P.zHi - o.z) / d.z ≤ t := by rw [div_le_iff_of_neg h]; linarith
          by_cases h' : (P.zLo - o.z) / d.z > (P.zHi - o.z) / d.z
          · rw [if_pos h', if_pos h']; exact ⟨e2, e1⟩
          · rw [if_neg h', if_neg h']; constructor <;> linarith
        · have e1 : (P.zLo - o.z) / d.z ≤ t := by rw [div_le_iff₀ h]; linarith
          have e2 : t ≤ (P.zHi - o.z) / d.z := by rw [le_div_iff₀ h]; linarith
          rw [if_neg (by linarith), if_neg (by linarith)]
          exact ⟨e1, e2⟩
      generalize (if (P.zLo - o.z) / d.z > (P.zHi - o.z) / d.z then (P.zHi - o.z) / d.z else (P.zLo - o.z) / d.z) = lo at *
      generalize (if (P.zLo - o.z) / d.z > (P.zHi - o.z) / d.z then (P.zLo - o.z) / d.z else (P.zHi - o.z) / d.z) = hi at *
      by_cases hC : d.x * d.x + d.y * d.y > 0
      · rw [if_pos hC] at k1
        have hq : ∀ s, dist2 o d s = dist2 o d t + (s - t) * ((d.x * d.x + d.y * d.y) * (s + t) + 2 * (o.x * d.x + o.y * d.y)) := by
          intro s; unfold dist2; ring
        have hc : (d.x * d.x + d.y * d.y) * (-(o.x * d.x + o.y * d.y) / (d.x * d.x + d.y * d.y)) = -(o.x * d.x + o.y * d.y) := by
          rw [mul_div_assoc', mul_div_cancel_left₀ _ hC.ne']
        generalize -(o.x * d.x + o.y * d.y) / (d.x * d.x + d.y * d.y) = c at *
        generalize d.x * d.x + d.y * d.y = C at *
        by_cases hin : c > lo ∧ c < hi
        · rw [if_pos hin, hq c] at k1
          nlinarith [mul_nonneg hC.le (sq_nonneg (c - t))]
        · rw [hq lo] at k2
          rw [hq hi] at k3
          by_cases h' : c > lo
          · have : hi ≤ c := by by_contra h''; exact hin ⟨h', not_le.mp h''⟩
            have : C * (hi + t) - 2 * (C * c) ≤ 0 := by nlinarith
            nlinarith [mul_nonneg (sub_nonneg.mpr hlohi.2) (neg_nonneg.mpr this)]
          · have : 0 ≤ C * (lo + t) - 2 * (C * c) := by nlinarith
            nlinarith [mul_nonneg (sub_nonneg.mpr hlohi.1) this]
      · rw [if_neg hC] at k1
        have hx : d.x = 0 := by nlinarith [mul_self_nonneg d.x, mul_self_nonneg d.y]
        have hy : d.y = 0 := by nlinarith [mul_self_nonneg d.x, mul_self_nonneg d.y]
        unfold dist2 at hD
        rw [hx, hy] at hD
        simp only [mul_zero, add_zero] at hD
        linarith
  · by_cases hC : d.x * d.x + d.y * d.y > 0
    · rw [if_pos hC, decide_eq_true_iff, not_lt]
      have : (d.x * d.x + d.y * d.y) * dist2 o d t = (o.x * d.y - o.y * d.x) * (o.x * d.y - o.y * d.x) +
          (o.x * d.x + o.y * d.y + t * (d.x * d.x + d.y * d.y)) ^ 2 := by unfold dist2; ring
      nlinarith [sq_nonneg (o.x * d.x + o.y * d.y + t * (d.x * d.x + d.y * d.y)), mul_le_mul_of_nonneg_left hD hC.le]
    · rw [if_neg hC, decide_eq_true_iff, not_lt]
      have hx : d.x = 0 := by nlinarith [mul_self_nonneg d.x, mul_self_nonneg d.y]
      have hy : d.y = 0 := by nlinarith [mul_self_nonneg d.x, mul_self_nonneg d.y]
      unfold dist2 at hD
      rw [hx, hy] at hD
      simp only [mul_zero, add_zero] at hD
      exact hD

/-! ### Caps -/

theorem convexLoop_iff (c : ℕ → ℝ) (l : List ℕ) (pos neg : Bool) (h : ¬ (pos = true ∧ neg = true)) :
    convexLoop c l pos neg = true ↔ ¬ ((pos = true ∨ ∃ i ∈ l, c i > precision) ∧ (neg = true ∨ ∃ i ∈ l, c i < -precision)) := by
  classical
  induction l generalizing pos neg with
  | nil => simpa [convexLoop] using h
  | cons i l ih =>
    unfold convexLoop
    simp only
    by_cases hb : ((pos || decide (c i > precision)) && (neg || decide (c i < -precision))) = true
    · rw [if_pos hb]
      simp only [Bool.and_eq_true, Bool.or_eq_true, decide_eq_true_eq] at hb
      simp only [Bool.false_eq_true, false_iff, not_not]
      exact ⟨hb.1.imp id fun h => ⟨i, by simp, h⟩, hb.2.imp id fun h => ⟨i, by simp, h⟩⟩
    · rw [if_neg hb, ih _ _ (by simpa only [Bool.and_eq_true] using hb)]
      simp only [Bool.or_eq_true, decide_eq_true_eq, List.mem_cons, exists_eq_or_imp, or_assoc]

variable {P : Solid}

/-- Corners of a full solid. -/
theorem corner (hv : P.Valid) (hc : P.cut = false) (k : ℕ) (hk : k < P.sides) :
    P.cosPhi k = cos (P.mid k - 1 / 2 * P.dphi) ∧ P.sinPhi k = sin (P.mid k - 1 / 2 * P.dphi) ∧
    P.cosPhi ((k + 1) % P.sides) = cos (P.mid k + 1 / 2 * P.dphi) ∧ P.sinPhi ((k + 1) % P.sides) = sin (P.mid k + 1 / 2 * P.dphi) := by
  have e1 : P.mid k - 1 / 2 * P.dphi = P.startPhi + k * P.dphi := by unfold Solid.mid; ring
  have e2 : P.mid k + 1 / 2 * P.dphi = P.startPhi + (k + 1) * P.dphi := by unfold Solid.mid; ring
  rw [e1, e2]
  unfold Solid.cosPhi Solid.sinPhi
  rw [if_pos hk, if_pos hk, if_pos (Nat.mod_lt _ (by omega)), if_pos (Nat.mod_lt _ (by omega))]
  refine ⟨rfl, rfl, ?_⟩
  by_cases h : k + 1 < P.sides
  · rw [Nat.mod_eq_of_lt h]; push_cast; exact ⟨rfl, rfl⟩
  · have h' : k + 1 = P.sides := by omega
    have hs : (P.sides : ℝ) ≠ 0 := by have := hv.sides; positivity
    have : ((k : ℝ) + 1) * P.dphi = 2 * π := by
      rw [show (k : ℝ) + 1 = P.sides by exact_mod_cast h']
      unfold Solid.dphi
      rw [hc]
      simp only [Bool.false_eq_true, if_false]
      field_simp
    rw [h', Nat.mod_self, this, cos_add_two_pi, sin_add_two_pi]
    simp

/-- The cross product is how far the point is inside the side. -/
theorem cross_eq (hv : P.Valid) (hc : P.cut = false) (R x y : ℝ) (k : ℕ) (hk : k < P.sides) :
    cross (fun k => R * P.cosPhi k) (fun k => R * P.sinPhi k) P.sides x y k =
    2 * R * sin (1 / 2 * P.dphi) * (R * cos (1 / 2 * P.dphi) - P.reach k x y) := by
  obtain ⟨h1, h2, h3, h4⟩ := corner hv hc k hk
  unfold cross Solid.reach
  simp only
  rw [h1, h2, h3, h4, cos_sub, sin_sub, cos_add, sin_add]
  linear_combination (2 * R ^ 2 * sin (1 / 2 * P.dphi) * cos (1 / 2 * P.dphi)) * (sin_sq_add_cos_sq (P.mid k))

/-- In some direction a point is not out at all. -/
theorem some_side (hv : P.Valid) (hc : P.cut = false) (x y : ℝ) : ∃ k < P.sides, P.reach k x y ≤ 0 := by
  by_contra hcon
  push Not at hcon
  have hs := sin_half_pos hv
  have hsum : ∑ k ∈ Finset.range P.sides, 2 * sin (1 / 2 * P.dphi) * P.reach k x y = 0 := by
    have h1 : ∀ k ∈ Finset.range P.sides, 2 * sin (1 / 2 * P.dphi) * P.reach k x y =
        (x * sin (P.startPhi + ((k + 1 : ℕ) : ℝ) * P.dphi) - y * cos (P.startPhi + ((k + 1 : ℕ) : ℝ) * P.dphi)) -
        (x * sin (P.startPhi + (k : ℝ) * P.dphi) - y * cos (P.startPhi + (k : ℝ) * P.dphi)) := by
      intro k _
      have e1 : P.startPhi + (k : ℝ) * P.dphi = P.mid k - 1 / 2 * P.dphi := by unfold Solid.mid; ring
      have e2 : P.startPhi + ((k + 1 : ℕ) : ℝ) * P.dphi = P.mid k + 1 / 2 * P.dphi := by unfold Solid.mid; push_cast; ring
      rw [e1, e2, cos_sub, sin_sub, cos_add, sin_add]
      unfold Solid.reach
      ring
    rw [Finset.sum_congr rfl h1, Finset.sum_range_sub (fun k : ℕ => x * sin (P.startPhi + (k : ℝ) * P.dphi) - y * cos (P.startPhi + (k : ℝ) * P.dphi))]
    have hn : (P.sides : ℝ) ≠ 0 := by have := hv.sides; positivity
    have : (P.sides : ℝ) * P.dphi = 2 * π := by
      unfold Solid.dphi
      rw [hc]
      simp only [Bool.false_eq_true, if_false]
      field_simp
    rw [this, cos_add_two_pi, sin_add_two_pi]
    simp
  have hpos : 0 < ∑ k ∈ Finset.range P.sides, 2 * sin (1 / 2 * P.dphi) * P.reach k x y := by
    apply Finset.sum_pos
    · intro k hk
      exact mul_pos (by linarith) (hcon k (Finset.mem_range.mp hk))
    · exact ⟨0, Finset.mem_range.mpr (by have := hv.sides; omega)⟩
  linarith

/-- The polygon with a given distance of the sides from the axis, for points not within the tolerance of the line through a side. -/
theorem inConvex_iff (hv : P.Valid) (hc : P.cut = false) (r x y : ℝ) (hr : 0 < r)
    (hoff : ∀ k < P.sides, precision < |2 * (r * P.scale) * sin (1 / 2 * P.dphi) * (r - P.reach k x y)|) :
    inConvex x y (fun k => r * P.scale * P.cosPhi k) (fun k => r * P.scale * P.sinPhi k) P.sides = true ↔ ∀ k < P.sides, P.reach k x y < r := by
  have hp := precision_pos
  have hcp := cos_half_pos hv
  have hsp := sin_half_pos hv
  have hR : 0 < r * P.scale := mul_pos hr (by unfold Solid.scale; positivity)
  have hRc : r * P.scale * cos (1 / 2 * P.dphi) = r := by
    unfold Solid.scale
    rw [mul_assoc, one_div, inv_mul_cancel₀ hcp.ne', mul_one]
  have hcr : ∀ k < P.sides, cross (fun k => r * P.scale * P.cosPhi k) (fun k => r * P.scale * P.sinPhi k) P.sides x y k =
      2 * (r * P.scale) * sin (1 / 2 * P.dphi) * (r - P.reach k x y) := by
    intro k hk
    rw [cross_eq hv hc _ x y k hk, hRc]
  have hF : 0 < 2 * (r * P.scale) * sin (1 / 2 * P.dphi) := by positivity
  unfold inConvex
  rw [convexLoop_iff _ _ _ _ (by simp)]
  simp only [Bool.false_eq_true, false_or, List.mem_range]
  constructor
  · intro h k hk
    by_contra hk'
    push Not at hk'
    apply h
    obtain ⟨j, hj, hj'⟩ := some_side hv hc x y
    refine ⟨⟨j, hj, ?_⟩, k, hk, ?_⟩
    · have h1 : 0 < 2 * (r * P.scale) * sin (1 / 2 * P.dphi) * (r - P.reach j x y) := mul_pos hF (by linarith)
      have := hoff j hj
      rw [abs_of_pos h1] at this
      rw [hcr j hj]; exact this
    · have h1 : 2 * (r * P.scale) * sin (1 / 2 * P.dphi) * (r - P.reach k x y) ≤ 0 := mul_nonpos_of_nonneg_of_nonpos hF.le (by linarith)
      have := hoff k hk
      rw [abs_of_nonpos h1] at this
      rw [hcr k hk]; linarith
  · rintro h ⟨-, k, hk, hk'⟩
    rw [hcr k hk] at hk'
    have := mul_pos hF (sub_pos.mpr (h k hk))
    linarith

/-- C136, caps: a point that is not within the tolerance of the line through a side is on the cap at a plane of a full solid if
    it is inside all sides of the outer polygon and not inside all sides of the inner one. -/
theorem C136_cap (hv : P.Valid) (hc : P.cut = false) (p : Polycone.Plane) (hp : p ∈ P.planes) (hr : 0 < p.rmax) (x y : ℝ)
    (hoff : ∀ r, r = p.rmin ∨ r = p.rmax → 0 < r → ∀ k < P.sides,
      precision < |2 * (r * P.scale) * sin (1 / 2 * P.dphi) * (r - P.reach k x y)|) :
    inCap P p x y = true ↔ (∀ k < P.sides, P.reach k x y < p.rmax) ∧ ¬ (0 < p.rmin ∧ ∀ k < P.sides, P.reach k x y < p.rmin) := by
  classical
  have hsc : 0 < P.scale := by have := cos_half_pos hv; unfold Solid.scale; positivity
  have h1 := inConvex_iff hv hc p.rmax x y hr (hoff _ (Or.inr rfl) hr)
  unfold inCap inAnnular
  by_cases ho : inConvex x y (fun k => p.rmax * P.scale * P.cosPhi k) (fun k => p.rmax * P.scale * P.sinPhi k) P.sides = true
  · rw [ho]
    simp only [Bool.not_true, Bool.false_eq_true, if_false]
    by_cases hm : 0 < p.rmin
    · have h2 := inConvex_iff hv hc p.rmin x y hm (hoff _ (Or.inl rfl) hm)
      rw [if_pos (mul_pos hm hsc)]
      by_cases hi : inConvex x y (fun k => p.rmin * P.scale * P.cosPhi k) (fun k => p.rmin * P.scale * P.sinPhi k) P.sides = true
      · rw [if_pos hi]
        simp only [Bool.false_eq_true, false_iff]
        exact fun h => h.2 ⟨hm, h2.mp hi⟩
      · rw [if_neg hi]
        simp only [true_iff]
        exact ⟨h1.mp ho, fun h => hi (h2.mpr h.2)⟩
    · have hm0 : p.rmin = 0 := le_antisymm (not_lt.mp hm) (hv.radii p hp).1
      rw [if_neg (by rw [hm0, zero_mul]; exact lt_irrefl 0)]
      simp only [true_iff]
      exact ⟨h1.mp ho, fun h => hm h.1⟩
  · rw [Bool.not_eq_true] at ho
    rw [ho]
    simp only [Bool.not_false, if_true, Bool.false_eq_true, false_iff]
    rintro ⟨h, -⟩
    rw [h1.mpr h] at ho
    cases ho

/-- C136: the corners divide the angle of the solid, or the whole circle, into equal steps; the one after the last side is at the end
    of the angle, or is the first one again. -/
theorem C136_corners {P : Solid} (hP : P.Valid) (k : ℕ) (hk : k ≤ P.sides) :
    P.cosPhi k = cos (P.startPhi + k / P.sides * (if P.cut then P.deltaPhi else 2 * π)) ∧
    P.sinPhi k = sin (P.startPhi + k / P.sides * (if P.cut then P.deltaPhi else 2 * π)) := by
  have hn : 0 < P.sides := by have := hP.1; omega
  have hn' : (P.sides : ℝ) ≠ 0 := by positivity
  have hd : k * P.dphi = k / P.sides * (if P.cut then P.deltaPhi else 2 * π) := by
    unfold Solid.dphi
    split <;> ring
  unfold Solid.cosPhi Solid.sinPhi
  rcases Nat.lt_or_ge k P.sides with h | h
  · rw [if_pos h, if_pos h, hd]
    exact ⟨rfl, rfl⟩
  · have hk' : k = P.sides := by omega
    subst hk'
    rw [if_neg (lt_irrefl P.sides), if_neg (lt_irrefl P.sides), div_self hn', one_mul]
    by_cases hc : P.cut = true
    · simp only [hc, if_true, and_self]
    · simp only [hc, Bool.false_eq_true, if_false, Real.cos_add_two_pi, Real.sin_add_two_pi, Nat.cast_zero, zero_mul, add_zero, and_self]

/-! ### Examples -/

/-- A cube. -/
noncomputable def cube : Solid := ⟨4, -(π / 4), 2 * π, false, [⟨-1, 0, 1⟩, ⟨1, 0, 1⟩]⟩

theorem cube_valid : cube.Valid := by
  have hpi := Real.pi_pos
  refine ⟨by decide, ⟨by simp only [cube]; linarith, le_rfl⟩, by simp [cube], ?_, ?_⟩
  · simp [cube]
  · intro p hp
    simp only [cube, List.mem_cons, List.not_mem_nil, or_false] at hp
    rcases hp with rfl | rfl <;> norm_num

theorem cube_dphi : cube.dphi = π / 2 := by
  unfold Solid.dphi
  simp only [cube, Bool.false_eq_true, if_false]
  push_cast
  ring

theorem cube_mid (k : ℕ) : cube.mid k = k * (π / 2) := by
  unfold Solid.mid
  rw [cube_dphi]
  simp only [cube]
  ring

/-- The cube is what the constructor makes, planes listed from the top. -/
example : ∃ P, makePhi 4 (-(π / 4)) [1, -1] [0, 0] [1, 1] 7 = some P := by
  refine ((C136_make 4 (-(π / 4)) [1, -1] [0, 0] [1, 1] 7).1).mpr ⟨by norm_num, by norm_num, by norm_num, by simp, by simp, by simp, ?_, ?_⟩
  · right; simp
  · intro q hq
    simp only [Polycone.planesOf, List.zip_cons_cons, List.zip_nil_right, List.map_cons, List.map_nil, List.mem_cons, List.not_mem_nil, or_false] at hq
    rcases hq with rfl | rfl <;> norm_num

/-- A point of the cube at a given height. -/
theorem cube_has (z : ℝ) (h0 : -1 ≤ z) (h1 : z ≤ 1) : cube.Has ⟨1 / 2, 0, z⟩ := by
  have hpi := Real.pi_pos
  refine ⟨0, ⟨-1, 0, 1⟩, ⟨1, 0, 1⟩, rfl, rfl, (z + 1) / 2, by linarith, by linarith, by simp only; ring, 0, by decide, 1 / 2, 0, by norm_num, by simp, by simp, ?_, ?_, ?_⟩
  · simp only [cube]; push_cast; linarith
  · rw [cube_dphi]; simp only [cube]; push_cast; linarith
  · unfold Solid.reach
    rw [cube_mid]
    norm_num

/-- The point is on the caps. -/
example : inCap cube ⟨1, 0, 1⟩ (1 / 2) 0 = true := by
  have hr : ∀ k < cube.sides, cube.reach k (1 / 2) 0 ≤ 1 / 2 := by
    intro k _
    unfold Solid.reach
    linarith [cos_le_one (cube.mid k)]
  have hcs : 1 * cube.scale * sin (1 / 2 * cube.dphi) = 1 := by
    unfold Solid.scale
    rw [cube_dphi, show 1 / 2 * (π / 2) = π / 4 by ring, cos_pi_div_four, sin_pi_div_four, one_mul, one_div, inv_mul_cancel₀ (by positivity)]
  refine (C136_cap cube_valid rfl ⟨1, 0, 1⟩ (by simp [cube]) (by norm_num) (1 / 2) 0 ?_).mpr ⟨fun k hk => by have := hr k hk; simp only; linarith, fun h => by simp at h⟩
  intro r h h0 k hk
  rcases h with rfl | rfl
  · simp at h0
  · simp only
    have := hr k hk
    rw [show 2 * (1 * cube.scale) * sin (1 / 2 * cube.dphi) = 2 by linear_combination 2 * hcs, abs_of_pos (by linarith)]
    unfold precision
    norm_num
    linarith

theorem skips_low (P : Solid) (o d : Vec3 ℝ) (hd : |d.z| < precision) (ho : o.z < P.zLo) : skips P o d = true := by
  unfold skips
  simp only
  rw [if_pos hd, decide_eq_true (Or.inl ho), ite_self]

/-- C136 is false of the code for lines that are almost horizontal: one that rises through the bottom of the cube is skipped if it starts below. -/
theorem C136_shallow_fails : ¬ ∀ (P : Solid) (o d : Vec3 ℝ) (t : ℝ), P.Valid → d.x ^ 2 + d.y ^ 2 + d.z ^ 2 = 1 →
    P.Has ⟨o.x + t * d.x, o.y + t * d.y, o.z + t * d.z⟩ → skips P o d = false := by
  classical
  intro h
  -- the slope
  obtain ⟨m, hm⟩ : ∃ m : ℝ, m = 1 / 10000000000 := ⟨_, rfl⟩
  have hpos : 0 < 1 + m ^ 2 := by positivity
  have hz0 : 0 < 2 * m / (1 + m ^ 2) := by rw [hm]; positivity
  have hz1 : 2 * m / (1 + m ^ 2) < precision := by rw [hm]; unfold precision; norm_num
  have := h cube ⟨1 / 2 - (1 - m ^ 2) / (1 + m ^ 2), 0, -1 - 2 * m / (1 + m ^ 2)⟩ ⟨(1 - m ^ 2) / (1 + m ^ 2), 0, 2 * m / (1 + m ^ 2)⟩ 1 cube_valid
    (by simp only; field_simp; ring) (by
      have := cube_has (-1) le_rfl (by norm_num)
      simpa using this)
  rw [skips_low cube _ _ (by rw [abs_of_pos hz0]; exact hz1) (by
    simp only [Solid.zLo, cube, List.map_cons, List.headD_cons]
    linarith)] at this
  cases this

end Siren.Geometry.Polyhedra
