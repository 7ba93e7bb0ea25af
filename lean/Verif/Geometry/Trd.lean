import Verif.Geometry.Convex
import Verif.Geometry.AABB

set_option autoImplicit false

/-!
# C99: trapezoids (frusta of rectangular pyramids)

Models `geometry/private/Trd.cxx`.
-/

namespace Siren.Geometry.Trd

open Siren Siren.Geometry

/-! ### Model -/

/-- The members of `Trd` (geometry/public/SIREN/geometry/Trd.h). -/
structure Td where
  dx1 : ℝ
  dx2 : ℝ
  dy1 : ℝ
  dy2 : ℝ
  dz : ℝ

/-- The constructor (geometry/private/Trd.cxx:21-25, 27-31); `none` is `std::invalid_argument`. -/
noncomputable def make (dx1 dx2 dy1 dy2 dz : ℝ) : Option Td :=
  if dz ≤ 0 then none
  else if dx1 < 0 ∨ dx2 < 0 ∨ dy1 < 0 ∨ dy2 < 0 then none
  else some ⟨dx1, dx2, dy1, dy2, dz⟩

/-- The top (geometry/private/Trd.cxx:76-93): the exact parameter with its flag; it is moved to the start as in `report`
before the edges are checked. -/
noncomputable def top (c : Td) (p d : Vec3 ℝ) : List (ℝ × Bool) :=
  if |d.z| > precision then
    let t := (c.dz - p.z) / d.z
    let ix := p.x + snap t * d.x
    let iy := p.y + snap t * d.y
    if ix ≥ -c.dx2 ∧ ix ≤ c.dx2 ∧ iy ≥ -c.dy2 ∧ iy ≤ c.dy2 then [(t, decide (d.z < 0))] else []
  else []

/-- The bottom (geometry/private/Trd.cxx:96-113). -/
noncomputable def bottom (c : Td) (p d : Vec3 ℝ) : List (ℝ × Bool) :=
  if |d.z| > precision then
    let t := (-c.dz - p.z) / d.z
    let ix := p.x + snap t * d.x
    let iy := p.y + snap t * d.y
    if ix ≥ -c.dx1 ∧ ix ≤ c.dx1 ∧ iy ≥ -c.dy1 ∧ iy ≤ c.dy1 then [(t, decide (d.z > 0))] else []
  else []

/-- `inv2dz` (geometry/private/Trd.cxx:73). -/
noncomputable def inv2dz (c : Td) : ℝ := if c.dz > 0 then 1 / (2 * c.dz) else 0

/-- The four sides (geometry/private/Trd.cxx:133-161 with `n = 2 dz`, `e = dx1`; 164-190 with `n = -2 dz`, `e = -dx1`;
198-224 and 227-253 likewise in `y`). The first coordinate is the one of the side, the second the other one; `nz` is the
difference of the half widths in the first, `h1` and `h2` are those in the second. -/
noncomputable def side (c : Td) (n nz e h1 h2 pa da pb db pz dz : ℝ) : List (ℝ × Bool) :=
  let denom := n * da + nz * dz
  if |denom| > precision then
    let t := (n * (e - pa) + nz * (-c.dz - pz)) / denom
    let iz := pz + snap t * dz
    if iz ≥ -c.dz ∧ iz ≤ c.dz then
      let h := h1 + (h2 - h1) * (iz + c.dz) * inv2dz c
      let ib := pb + snap t * db
      if ib ≥ -h ∧ ib ≤ h then [(t, decide (denom < 0))] else []
    else []
  else []

/-- The crossings in the order in which they are found (geometry/private/Trd.cxx:75-253). -/
noncomputable def raw (c : Td) (p d : Vec3 ℝ) : List (ℝ × Bool) :=
  top c p d ++ bottom c p d ++
    side c (2 * c.dz) (c.dx1 - c.dx2) c.dx1 c.dy1 c.dy2 p.x d.x p.y d.y p.z d.z ++
    side c (-2 * c.dz) (c.dx1 - c.dx2) (-c.dx1) c.dy1 c.dy2 p.x d.x p.y d.y p.z d.z ++
    side c (2 * c.dz) (c.dy1 - c.dy2) c.dy1 c.dx1 c.dx2 p.y d.y p.x d.x p.z d.z ++
    side c (-2 * c.dz) (c.dy1 - c.dy2) (-c.dy1) c.dx1 c.dx2 p.y d.y p.x d.x p.z d.z

/-- `Trd::ComputeIntersections` (geometry/private/Trd.cxx:44-259); `srt` is `std::sort`. -/
noncomputable def compute (srt : List Isect → List Isect) (c : Td) (p d : Vec3 ℝ) : List Isect :=
  srt ((raw c p d).map (report p d))

/-- `Trd::GetBoundingBox` (geometry/private/Trd.cxx:262-269). -/
noncomputable def boundingBox (c : Td) : AABB ℝ :=
  ⟨⟨-max c.dx1 c.dx2, -max c.dy1 c.dy2, -c.dz⟩, ⟨max c.dx1 c.dx2, max c.dy1 c.dy2, c.dz⟩⟩

/-! ### Specification -/

/-- The half width at height `z` if it is `w1` at the bottom and `w2` on top. -/
noncomputable def halfWidth (c : Td) (w1 w2 z : ℝ) : ℝ := w1 + (w2 - w1) * ((z + c.dz) / (2 * c.dz))

/-- The inside of the solid. -/
def Inside (c : Td) (v : Vec3 ℝ) : Prop :=
  |v.z| < c.dz ∧ |v.x| < halfWidth c c.dx1 c.dx2 v.z ∧ |v.y| < halfWidth c c.dy1 c.dy2 v.z

/-- The solid with its surface. -/
def Mem (c : Td) (v : Vec3 ℝ) : Prop :=
  |v.z| ≤ c.dz ∧ |v.x| ≤ halfWidth c c.dx1 c.dx2 v.z ∧ |v.y| ≤ halfWidth c c.dy1 c.dy2 v.z

/-- It has an inside: not both half widths in a direction are zero. -/
def Solid (c : Td) : Prop := 0 < c.dx1 + c.dx2 ∧ 0 < c.dy1 + c.dy2

/-- The direction is parallel to a face or crosses its plane faster than the tolerance. -/
def NotNearlyParallel (c : Td) (d : Vec3 ℝ) : Prop :=
  ∀ m : ℝ, (m = d.z ∨ m = 2 * c.dz * d.x + (c.dx1 - c.dx2) * d.z ∨ m = -2 * c.dz * d.x + (c.dx1 - c.dx2) * d.z ∨
    m = 2 * c.dz * d.y + (c.dy1 - c.dy2) * d.z ∨ m = -2 * c.dz * d.y + (c.dy1 - c.dy2) * d.z) → m = 0 ∨ precision < |m|

/-- Wherever the line meets the plane of a face, it is clearly within the edges of the face or clearly not. -/
def ClearOfEdges (c : Td) (p d : Vec3 ℝ) : Prop :=
  ∀ t : ℝ,
    ((p + Vec3.smul t d).z = c.dz → Clearly (fun u => |(p + Vec3.smul u d).x| < c.dx2 ∧ |(p + Vec3.smul u d).y| < c.dy2)
      (fun u => |(p + Vec3.smul u d).x| ≤ c.dx2 ∧ |(p + Vec3.smul u d).y| ≤ c.dy2) t) ∧
    ((p + Vec3.smul t d).z = -c.dz → Clearly (fun u => |(p + Vec3.smul u d).x| < c.dx1 ∧ |(p + Vec3.smul u d).y| < c.dy1)
      (fun u => |(p + Vec3.smul u d).x| ≤ c.dx1 ∧ |(p + Vec3.smul u d).y| ≤ c.dy1) t) ∧
    ((p + Vec3.smul t d).x = halfWidth c c.dx1 c.dx2 (p + Vec3.smul t d).z ∨
        (p + Vec3.smul t d).x = -halfWidth c c.dx1 c.dx2 (p + Vec3.smul t d).z →
      Clearly (fun u => |(p + Vec3.smul u d).z| < c.dz ∧ |(p + Vec3.smul u d).y| < halfWidth c c.dy1 c.dy2 (p + Vec3.smul u d).z)
        (fun u => |(p + Vec3.smul u d).z| ≤ c.dz ∧ |(p + Vec3.smul u d).y| ≤ halfWidth c c.dy1 c.dy2 (p + Vec3.smul u d).z) t) ∧
    ((p + Vec3.smul t d).y = halfWidth c c.dy1 c.dy2 (p + Vec3.smul t d).z ∨
        (p + Vec3.smul t d).y = -halfWidth c c.dy1 c.dy2 (p + Vec3.smul t d).z →
      Clearly (fun u => |(p + Vec3.smul u d).z| < c.dz ∧ |(p + Vec3.smul u d).x| < halfWidth c c.dx1 c.dx2 (p + Vec3.smul u d).z)
        (fun u => |(p + Vec3.smul u d).z| ≤ c.dz ∧ |(p + Vec3.smul u d).x| ≤ halfWidth c c.dx1 c.dx2 (p + Vec3.smul u d).z) t)

/-! ### Proofs -/

/-- The six functions that are negative inside, at the start of the line. -/
noncomputable def A (c : Td) (p : Vec3 ℝ) : Fin 6 → ℝ :=
  ![p.z - c.dz, -p.z - c.dz, 2 * c.dz * (p.x - c.dx1) + (c.dx1 - c.dx2) * (p.z + c.dz),
    -2 * c.dz * (p.x + c.dx1) + (c.dx1 - c.dx2) * (p.z + c.dz), 2 * c.dz * (p.y - c.dy1) + (c.dy1 - c.dy2) * (p.z + c.dz),
    -2 * c.dz * (p.y + c.dy1) + (c.dy1 - c.dy2) * (p.z + c.dz)]

/-- Their slopes. -/
noncomputable def B (c : Td) (d : Vec3 ℝ) : Fin 6 → ℝ :=
  ![d.z, -d.z, 2 * c.dz * d.x + (c.dx1 - c.dx2) * d.z, -2 * c.dz * d.x + (c.dx1 - c.dx2) * d.z,
    2 * c.dz * d.y + (c.dy1 - c.dy2) * d.z, -2 * c.dz * d.y + (c.dy1 - c.dy2) * d.z]

/-- Their values in terms of the point. -/
noncomputable def G (c : Td) (v : Vec3 ℝ) : Fin 6 → ℝ :=
  ![v.z - c.dz, -v.z - c.dz, 2 * c.dz * (v.x - halfWidth c c.dx1 c.dx2 v.z), 2 * c.dz * (-v.x - halfWidth c c.dx1 c.dx2 v.z),
    2 * c.dz * (v.y - halfWidth c c.dy1 c.dy2 v.z), 2 * c.dz * (-v.y - halfWidth c c.dy1 c.dy2 v.z)]

theorem values (c : Td) (hz : 0 < c.dz) (p d : Vec3 ℝ) (u : ℝ) (j : Fin 6) : A c p j + u * B c d j = G c (p + Vec3.smul u d) j := by
  fin_cases j <;> simp [A, B, G, halfWidth] <;> first | ring1 | (field_simp; ring1)

theorem inside_iff (c : Td) (hz : 0 < c.dz) (p d : Vec3 ℝ) (u : ℝ) :
    (∀ j, A c p j + u * B c d j < 0) ↔ Inside c (p + Vec3.smul u d) := by
  simp only [values c hz]
  have h2 : 0 < 2 * c.dz := by linarith
  simp only [Fin.forall_fin_succ, IsEmpty.forall_iff, and_true, G, Inside, abs_lt]
  simp [h2, mul_neg_iff, h2.not_gt]
  constructor
  · rintro ⟨h1, h2, h3, h4, h5, h6⟩
    refine ⟨⟨?_, ?_⟩, ⟨?_, ?_⟩, ⟨?_, ?_⟩⟩ <;> linarith
  · rintro ⟨⟨h1, h2⟩, ⟨h3, h4⟩, ⟨h5, h6⟩⟩
    refine ⟨?_, ?_, ?_, ?_, ?_, ?_⟩ <;> linarith

theorem width_pos (c : Td) (w1 w2 z : ℝ) (h1 : 0 ≤ w1) (h2 : 0 ≤ w2) (h : 0 < w1 + w2) (hz : |z| < c.dz) :
    0 < halfWidth c w1 w2 z := by
  rw [abs_lt] at hz
  have hd : 0 < c.dz := by linarith
  have e : halfWidth c w1 w2 z = (w1 * (c.dz - z) + w2 * (z + c.dz)) / (2 * c.dz) := by
    unfold halfWidth; field_simp; ring
  rw [e]
  refine div_pos ?_ (by linarith)
  rcases h1.lt_or_eq with h1 | h1
  · have := mul_pos h1 (show 0 < c.dz - z by linarith)
    have := mul_nonneg h2 (show 0 ≤ z + c.dz by linarith)
    linarith
  · have h2 : 0 < w2 := by linarith
    have := mul_pos h2 (show 0 < z + c.dz by linarith)
    rw [← h1]; linarith

theorem mem_top (c : Td) (p d : Vec3 ℝ) (x : ℝ × Bool) : x ∈ top c p d ↔ precision < |d.z| ∧ p.z + x.1 * d.z = c.dz ∧
    (|(p + Vec3.smul (snap x.1) d).x| ≤ c.dx2 ∧ |(p + Vec3.smul (snap x.1) d).y| ≤ c.dy2) ∧ x.2 = decide (d.z < 0) := by
  obtain ⟨t, f⟩ := x
  unfold top
  by_cases h : |d.z| > precision
  · have h0 : d.z ≠ 0 := fun e => by rw [e, abs_zero] at h; linarith [precision_pos]
    have ht : p.z + t * d.z = c.dz ↔ t = (c.dz - p.z) / d.z := by
      rw [eq_div_iff h0]; constructor <;> intro h <;> linarith
    rw [if_pos h]
    simp only [ht, Vec3.add_x, Vec3.smul_x, Vec3.add_y, Vec3.smul_y, abs_le]
    split
    · next hc =>
      simp only [List.mem_singleton, Prod.mk.injEq]
      constructor
      · rintro ⟨rfl, rfl⟩; exact ⟨h, rfl, ⟨⟨hc.1, hc.2.1⟩, ⟨hc.2.2.1, hc.2.2.2⟩⟩, rfl⟩
      · rintro ⟨_, h1, _, h2⟩; exact ⟨h1, h2⟩
    · next hc =>
      simp only [List.not_mem_nil, false_iff]
      rintro ⟨_, h1, ⟨⟨h2, h3⟩, ⟨h4, h5⟩⟩, _⟩
      rw [h1] at h2 h3 h4 h5
      exact hc ⟨h2, h3, h4, h5⟩
  · rw [if_neg h]
    simp only [List.not_mem_nil, false_iff]
    exact fun h1 => h h1.1

theorem mem_bottom (c : Td) (p d : Vec3 ℝ) (x : ℝ × Bool) : x ∈ bottom c p d ↔ precision < |d.z| ∧ p.z + x.1 * d.z = -c.dz ∧
    (|(p + Vec3.smul (snap x.1) d).x| ≤ c.dx1 ∧ |(p + Vec3.smul (snap x.1) d).y| ≤ c.dy1) ∧ x.2 = decide (-d.z < 0) := by
  obtain ⟨t, f⟩ := x
  unfold bottom
  by_cases h : |d.z| > precision
  · have h0 : d.z ≠ 0 := fun e => by rw [e, abs_zero] at h; linarith [precision_pos]
    have ht : p.z + t * d.z = -c.dz ↔ t = (-c.dz - p.z) / d.z := by
      rw [eq_div_iff h0]; constructor <;> intro h <;> linarith
    rw [if_pos h]
    simp only [ht, Vec3.add_x, Vec3.smul_x, Vec3.add_y, Vec3.smul_y, abs_le]
    have hfl : (-d.z < 0) = (d.z > 0) := by rw [neg_lt_zero]
    simp only [hfl]
    split
    · next hc =>
      simp only [List.mem_singleton, Prod.mk.injEq]
      constructor
      · rintro ⟨rfl, rfl⟩; exact ⟨h, rfl, ⟨⟨hc.1, hc.2.1⟩, ⟨hc.2.2.1, hc.2.2.2⟩⟩, rfl⟩
      · rintro ⟨_, h1, _, h2⟩; exact ⟨h1, h2⟩
    · next hc =>
      simp only [List.not_mem_nil, false_iff]
      rintro ⟨_, h1, ⟨⟨h2, h3⟩, ⟨h4, h5⟩⟩, _⟩
      rw [h1] at h2 h3 h4 h5
      exact hc ⟨h2, h3, h4, h5⟩
  · rw [if_neg h]
    simp only [List.not_mem_nil, false_iff]
    exact fun h1 => h h1.1

theorem mem_side (c : Td) (hz : 0 < c.dz) (n nz e h1 h2 pa da pb db pz dz : ℝ) (x : ℝ × Bool) :
    x ∈ side c n nz e h1 h2 pa da pb db pz dz ↔ precision < |n * da + nz * dz| ∧
      n * (pa - e) + nz * (pz + c.dz) + x.1 * (n * da + nz * dz) = 0 ∧
      (|pz + snap x.1 * dz| ≤ c.dz ∧ |pb + snap x.1 * db| ≤ halfWidth c h1 h2 (pz + snap x.1 * dz)) ∧
      x.2 = decide (n * da + nz * dz < 0) := by
  obtain ⟨t, f⟩ := x
  unfold side
  simp only
  obtain ⟨D, hD⟩ : ∃ D, D = n * da + nz * dz := ⟨_, rfl⟩
  rw [← hD]
  have hw : ∀ z : ℝ, h1 + (h2 - h1) * (z + c.dz) * inv2dz c = halfWidth c h1 h2 z := by
    intro z; unfold inv2dz halfWidth; rw [if_pos hz]; ring
  simp only [hw]
  by_cases h : |D| > precision
  · have h0 : D ≠ 0 := fun e => by rw [e, abs_zero] at h; linarith [precision_pos]
    have ht : n * (pa - e) + nz * (pz + c.dz) + t * D = 0 ↔ t = (n * (e - pa) + nz * (-c.dz - pz)) / D := by
      rw [eq_div_iff h0]; constructor <;> intro h <;> linarith
    rw [if_pos h]
    simp only [ht, abs_le]
    split
    · next hc =>
      split
      · next hc2 =>
        simp only [List.mem_singleton, Prod.mk.injEq]
        constructor
        · rintro ⟨rfl, rfl⟩; exact ⟨h, rfl, ⟨⟨hc.1, hc.2⟩, ⟨hc2.1, hc2.2⟩⟩, rfl⟩
        · rintro ⟨_, h1, _, h2⟩; exact ⟨h1, h2⟩
      · next hc2 =>
        simp only [List.not_mem_nil, false_iff]
        rintro ⟨_, h1, ⟨_, ⟨h4, h5⟩⟩, _⟩
        rw [h1] at h4 h5
        exact hc2 ⟨h4, h5⟩
    · next hc =>
      simp only [List.not_mem_nil, false_iff]
      rintro ⟨_, h1, ⟨⟨h2, h3⟩, _⟩, _⟩
      rw [h1] at h2 h3
      exact hc ⟨h2, h3⟩
  · rw [if_neg h]
    simp only [List.not_mem_nil, false_iff]
    exact fun h1 => h h1.1

/-- What is known about the constructor's result. -/
theorem make_spec {dx1 dx2 dy1 dy2 dz : ℝ} {c : Td} (hc : make dx1 dx2 dy1 dy2 dz = some c) :
    0 < c.dz ∧ 0 ≤ c.dx1 ∧ 0 ≤ c.dx2 ∧ 0 ≤ c.dy1 ∧ 0 ≤ c.dy2 := by
  unfold make at hc
  split at hc
  · simp at hc
  · split at hc
    · simp at hc
    · next h1 h2 =>
      simp only [Option.some.injEq] at hc
      subst hc
      push Not at h1 h2
      exact ⟨h1, h2⟩

theorem raw_flips (c : Td) (hz : 0 < c.dz) (hx1 : 0 ≤ c.dx1) (hx2 : 0 ≤ c.dx2) (hy1 : 0 ≤ c.dy1) (hy2 : 0 ≤ c.dy2) (hs : Solid c)
    (p d : Vec3 ℝ) (he : ClearOfEdges c p d) (x : ℝ × Bool) (hx : x ∈ raw c p d) :
    Flips (fun u => Inside c (p + Vec3.smul u d)) x.1 x.2 := by
  obtain ⟨t, f⟩ := x
  have h2z : 0 < 2 * c.dz := by linarith
  have hne : ∀ b : ℝ, precision < |b| → b ≠ 0 := fun b hb e => by rw [e, abs_zero] at hb; linarith [precision_pos]
  obtain ⟨c1, c2, c3, c4⟩ := he t
  simp only [← inside_iff c hz p d]
  simp only [raw, List.mem_append, mem_top, mem_bottom, mem_side c hz] at hx
  have topw : ∀ w1 w2, halfWidth c w1 w2 c.dz = w2 := fun w1 w2 => by unfold halfWidth; field_simp; ring
  have botw : ∀ w1 w2, halfWidth c w1 w2 (-c.dz) = w1 := fun w1 w2 => by unfold halfWidth; simp
  obtain ⟨v, hv⟩ : ∃ v, v = p + Vec3.smul t d := ⟨_, rfl⟩
  have hvx : v.x = p.x + t * d.x := by rw [hv]; rfl
  have hvy : v.y = p.y + t * d.y := by rw [hv]; rfl
  have hvz : v.z = p.z + t * d.z := by rw [hv]; rfl
  have val : ∀ j, A c p j + t * B c d j = G c v j := fun j => by rw [hv]; exact values c hz p d t j
  have g0 : G c v 0 = v.z - c.dz := rfl
  have g1 : G c v 1 = -v.z - c.dz := rfl
  have g2 : G c v 2 = 2 * c.dz * (v.x - halfWidth c c.dx1 c.dx2 v.z) := rfl
  have g3 : G c v 3 = 2 * c.dz * (-v.x - halfWidth c c.dx1 c.dx2 v.z) := rfl
  have g4 : G c v 4 = 2 * c.dz * (v.y - halfWidth c c.dy1 c.dy2 v.z) := rfl
  have g5 : G c v 5 = 2 * c.dz * (-v.y - halfWidth c c.dy1 c.dy2 v.z) := rfl
  have hneg : ∀ y : ℝ, y < 0 → 2 * c.dz * y < 0 := fun y hy => mul_neg_of_pos_of_neg h2z hy
  -- from the strict condition within a face to the other five functions
  have hzero : ∀ i : Fin 6, (∃ y, A c p i + t * B c d i = y ∧ y = 0) → G c v i = 0 := fun i ⟨y, e1, e2⟩ => by rw [← val, e1, e2]
  have hxw : |v.z| < c.dz → 0 < halfWidth c c.dx1 c.dx2 v.z := width_pos c _ _ _ hx1 hx2 hs.1
  have hyw : |v.z| < c.dz → 0 < halfWidth c c.dy1 c.dy2 v.z := width_pos c _ _ _ hy1 hy2 hs.2
  have six : ∀ i : Fin 6, (∀ j : Fin 6, j ≠ i → G c v j < 0) ↔ ((0 ≠ i → G c v 0 < 0) ∧ (1 ≠ i → G c v 1 < 0) ∧ (2 ≠ i → G c v 2 < 0) ∧
      (3 ≠ i → G c v 3 < 0) ∧ (4 ≠ i → G c v 4 < 0) ∧ (5 ≠ i → G c v 5 < 0)) := by
    intro i
    constructor
    · intro h; exact ⟨h 0, h 1, h 2, h 3, h 4, h 5⟩
    · rintro ⟨h0, h1, h2, h3, h4, h5⟩ j
      fin_cases j
      · exact h0
      · exact h1
      · exact h2
      · exact h3
      · exact h4
      · exact h5
  rcases hx with ((((hx | hx) | hx) | hx) | hx) | hx
  · obtain ⟨h1, h2, h3, rfl⟩ := hx
    have hq := (((c1 h2).snap (fun u hu => ⟨hu.1.le, hu.2.le⟩)).1 h3)
    rw [← hv] at hq
    have hvz' : v.z = c.dz := hvz.trans h2
    refine flips_convex (A c p) (B c d) 0 t (by rw [val, g0]; linarith) (hne _ h1) ?_
    simp only [val]
    rw [six, g1, g2, g3, g4, g5, hvz', topw, topw]
    rw [abs_lt, abs_lt] at hq
    obtain ⟨⟨q1, q2⟩, q3, q4⟩ := hq
    exact ⟨fun h => absurd rfl h, fun _ => by linarith, fun _ => hneg _ (by linarith), fun _ => hneg _ (by linarith),
      fun _ => hneg _ (by linarith), fun _ => hneg _ (by linarith)⟩
  · obtain ⟨h1, h2, h3, rfl⟩ := hx
    have hq := (((c2 h2).snap (fun u hu => ⟨hu.1.le, hu.2.le⟩)).1 h3)
    rw [← hv] at hq
    have hvz' : v.z = -c.dz := hvz.trans h2
    refine flips_convex (A c p) (B c d) 1 t (by rw [val, g1]; linarith) (neg_ne_zero.2 (hne _ h1)) ?_
    simp only [val]
    rw [six, g0, g2, g3, g4, g5, hvz', botw, botw]
    rw [abs_lt, abs_lt] at hq
    obtain ⟨⟨q1, q2⟩, q3, q4⟩ := hq
    exact ⟨fun _ => by linarith, fun h => absurd rfl h, fun _ => hneg _ (by linarith), fun _ => hneg _ (by linarith),
      fun _ => hneg _ (by linarith), fun _ => hneg _ (by linarith)⟩
  · obtain ⟨h1, h2, h3, rfl⟩ := hx
    have e0 : G c v 2 = 0 := by rw [← val]; exact h2
    have hw : v.x = halfWidth c c.dx1 c.dx2 v.z := by
      rw [g2] at e0; rcases mul_eq_zero.1 e0 with e | e <;> linarith
    have hq := ((c3 (by rw [← hv]; exact Or.inl hw)).snap (fun u hu => ⟨hu.1.le, hu.2.le⟩)).1 h3
    rw [← hv] at hq
    have hp := hxw hq.1
    refine flips_convex (A c p) (B c d) 2 t (by rw [val, e0]) (hne _ h1) ?_
    simp only [val]
    rw [six, g0, g1, g3, g4, g5]
    rw [abs_lt, abs_lt] at hq
    obtain ⟨⟨q1, q2⟩, q3, q4⟩ := hq
    exact ⟨fun _ => by linarith, fun _ => by linarith, fun h => absurd rfl h, fun _ => hneg _ (by linarith),
      fun _ => hneg _ (by linarith), fun _ => hneg _ (by linarith)⟩
  · obtain ⟨h1, h2, h3, rfl⟩ := hx
    have e0 : G c v 3 = 0 := by rw [← val]; rw [sub_neg_eq_add] at h2; exact h2
    have hw : v.x = -halfWidth c c.dx1 c.dx2 v.z := by
      rw [g3] at e0; rcases mul_eq_zero.1 e0 with e | e <;> linarith
    have hq := ((c3 (by rw [← hv]; exact Or.inr hw)).snap (fun u hu => ⟨hu.1.le, hu.2.le⟩)).1 h3
    rw [← hv] at hq
    have hp := hxw hq.1
    refine flips_convex (A c p) (B c d) 3 t (by rw [val, e0]) (hne _ h1) ?_
    simp only [val]
    rw [six, g0, g1, g2, g4, g5]
    rw [abs_lt, abs_lt] at hq
    obtain ⟨⟨q1, q2⟩, q3, q4⟩ := hq
    exact ⟨fun _ => by linarith, fun _ => by linarith, fun _ => hneg _ (by linarith), fun h => absurd rfl h,
      fun _ => hneg _ (by linarith), fun _ => hneg _ (by linarith)⟩
  · obtain ⟨h1, h2, h3, rfl⟩ := hx
    have e0 : G c v 4 = 0 := by rw [← val]; exact h2
    have hw : v.y = halfWidth c c.dy1 c.dy2 v.z := by
      rw [g4] at e0; rcases mul_eq_zero.1 e0 with e | e <;> linarith
    have hq := ((c4 (by rw [← hv]; exact Or.inl hw)).snap (fun u hu => ⟨hu.1.le, hu.2.le⟩)).1 h3
    rw [← hv] at hq
    have hp := hyw hq.1
    refine flips_convex (A c p) (B c d) 4 t (by rw [val, e0]) (hne _ h1) ?_
    simp only [val]
    rw [six, g0, g1, g2, g3, g5]
    rw [abs_lt, abs_lt] at hq
    obtain ⟨⟨q1, q2⟩, q3, q4⟩ := hq
    exact ⟨fun _ => by linarith, fun _ => by linarith, fun _ => hneg _ (by linarith), fun _ => hneg _ (by linarith),
      fun h => absurd rfl h, fun _ => hneg _ (by linarith)⟩
  · obtain ⟨h1, h2, h3, rfl⟩ := hx
    have e0 : G c v 5 = 0 := by rw [← val]; rw [sub_neg_eq_add] at h2; exact h2
    have hw : v.y = -halfWidth c c.dy1 c.dy2 v.z := by
      rw [g5] at e0; rcases mul_eq_zero.1 e0 with e | e <;> linarith
    have hq := ((c4 (by rw [← hv]; exact Or.inr hw)).snap (fun u hu => ⟨hu.1.le, hu.2.le⟩)).1 h3
    rw [← hv] at hq
    have hp := hyw hq.1
    refine flips_convex (A c p) (B c d) 5 t (by rw [val, e0]) (hne _ h1) ?_
    simp only [val]
    rw [six, g0, g1, g2, g3, g4]
    rw [abs_lt, abs_lt] at hq
    obtain ⟨⟨q1, q2⟩, q3, q4⟩ := hq
    exact ⟨fun _ => by linarith, fun _ => by linarith, fun _ => hneg _ (by linarith), fun _ => hneg _ (by linarith),
      fun _ => hneg _ (by linarith), fun h => absurd rfl h⟩

/-- Not within the bounds of a face: one of the other functions is positive. -/
theorem outside_pos (c : Td) (hz : 0 < c.dz) (v : Vec3 ℝ) (w1 w2 : ℝ) (h : ¬ (|v.x| ≤ w1 ∧ |v.y| ≤ w2))
    (e1 : halfWidth c c.dx1 c.dx2 v.z = w1) (e2 : halfWidth c c.dy1 c.dy2 v.z = w2) : ∃ j, 0 < G c v j := by
  have h2z : 0 < 2 * c.dz := by linarith
  rw [not_and_or, abs_le, abs_le, not_and_or, not_and_or] at h
  push Not at h
  subst e1 e2
  rcases h with (h | h) | h | h
  · exact ⟨3, mul_pos h2z (by linarith)⟩
  · exact ⟨2, mul_pos h2z (by linarith)⟩
  · exact ⟨5, mul_pos h2z (by linarith)⟩
  · exact ⟨4, mul_pos h2z (by linarith)⟩

theorem outside_pos_x (c : Td) (hz : 0 < c.dz) (v : Vec3 ℝ) (h : ¬ (|v.z| ≤ c.dz ∧ |v.y| ≤ halfWidth c c.dy1 c.dy2 v.z)) :
    ∃ j, 0 < G c v j := by
  have h2z : 0 < 2 * c.dz := by linarith
  rw [not_and_or, abs_le, abs_le, not_and_or, not_and_or] at h
  push Not at h
  rcases h with (h | h) | h | h
  · exact ⟨1, by show 0 < -v.z - c.dz; linarith⟩
  · exact ⟨0, by show 0 < v.z - c.dz; linarith⟩
  · exact ⟨5, mul_pos h2z (by linarith)⟩
  · exact ⟨4, mul_pos h2z (by linarith)⟩

theorem outside_pos_y (c : Td) (hz : 0 < c.dz) (v : Vec3 ℝ) (h : ¬ (|v.z| ≤ c.dz ∧ |v.x| ≤ halfWidth c c.dx1 c.dx2 v.z)) :
    ∃ j, 0 < G c v j := by
  have h2z : 0 < 2 * c.dz := by linarith
  rw [not_and_or, abs_le, abs_le, not_and_or, not_and_or] at h
  push Not at h
  rcases h with (h | h) | h | h
  · exact ⟨1, by show 0 < -v.z - c.dz; linarith⟩
  · exact ⟨0, by show 0 < v.z - c.dz; linarith⟩
  · exact ⟨3, mul_pos h2z (by linarith)⟩
  · exact ⟨2, mul_pos h2z (by linarith)⟩

theorem raw_steady (c : Td) (hz : 0 < c.dz) (p d : Vec3 ℝ) (hn : NotNearlyParallel c d) (he : ClearOfEdges c p d) (t : ℝ)
    (ht : ∀ x ∈ raw c p d, x.1 ≠ t) : Steady (fun u => Inside c (p + Vec3.smul u d)) t := by
  have h2z : 0 < 2 * c.dz := by linarith
  obtain ⟨c1, c2, c3, c4⟩ := he t
  simp only [← inside_iff c hz p d]
  have topw : ∀ w1 w2, halfWidth c w1 w2 c.dz = w2 := fun w1 w2 => by unfold halfWidth; field_simp; ring
  have botw : ∀ w1 w2, halfWidth c w1 w2 (-c.dz) = w1 := fun w1 w2 => by unfold halfWidth; simp
  obtain ⟨v, hv⟩ : ∃ v, v = p + Vec3.smul t d := ⟨_, rfl⟩
  have hvz : v.z = p.z + t * d.z := by rw [hv]; rfl
  have val : ∀ j, A c p j + t * B c d j = G c v j := fun j => by rw [hv]; exact values c hz p d t j
  have nm : ∀ f : Bool, (t, f) ∉ raw c p d := fun f hf => ht _ hf rfl
  simp only [raw, List.mem_append, mem_top, mem_bottom, mem_side c hz, not_or] at nm
  refine steady_convex (A c p) (B c d) t fun i hi => ?_
  simp only [val]
  rw [val] at hi
  by_cases hb : B c d i = 0
  · exact Or.inl hb
  right
  fin_cases i
  · have hb' : precision < |d.z| := (hn d.z (Or.inl rfl)).resolve_left hb
    have hz' : v.z = c.dz := by have : v.z - c.dz = 0 := hi; linarith
    have h3 : ¬ _ := fun h3 => (nm _).1.1.1.1.1 ⟨hb', hvz ▸ hz', h3, rfl⟩
    have hq := ((c1 (by rw [← hv]; exact hz')).snap (fun u hu => ⟨hu.1.le, hu.2.le⟩)).2 h3
    rw [← hv] at hq
    exact outside_pos c hz v _ _ hq (by rw [hz', topw]) (by rw [hz', topw])
  · have hb' : precision < |d.z| := (hn d.z (Or.inl rfl)).resolve_left (fun e => hb (by show -d.z = 0; rw [e, neg_zero]))
    have hz' : v.z = -c.dz := by have : -v.z - c.dz = 0 := hi; linarith
    have h3 : ¬ _ := fun h3 => (nm _).1.1.1.1.2 ⟨hb', hvz ▸ hz', h3, rfl⟩
    have hq := ((c2 (by rw [← hv]; exact hz')).snap (fun u hu => ⟨hu.1.le, hu.2.le⟩)).2 h3
    rw [← hv] at hq
    exact outside_pos c hz v _ _ hq (by rw [hz', botw]) (by rw [hz', botw])
  · have hb' : precision < |2 * c.dz * d.x + (c.dx1 - c.dx2) * d.z| := (hn _ (Or.inr (Or.inl rfl))).resolve_left hb
    have hw : v.x = halfWidth c c.dx1 c.dx2 v.z := by
      have e0 : 2 * c.dz * (v.x - halfWidth c c.dx1 c.dx2 v.z) = 0 := hi
      rcases mul_eq_zero.1 e0 with e | e <;> linarith
    have hA : A c p 2 + t * B c d 2 = 0 := by rw [val]; exact hi
    have h3 : ¬ _ := fun h3 => (nm _).1.1.1.2 ⟨hb', hA, h3, rfl⟩
    have hq := ((c3 (by rw [← hv]; exact Or.inl hw)).snap (fun u hu => ⟨hu.1.le, hu.2.le⟩)).2 h3
    rw [← hv] at hq
    exact outside_pos_x c hz v hq
  · have hb' : precision < |-2 * c.dz * d.x + (c.dx1 - c.dx2) * d.z| := (hn _ (Or.inr (Or.inr (Or.inl rfl)))).resolve_left hb
    have hw : v.x = -halfWidth c c.dx1 c.dx2 v.z := by
      have e0 : 2 * c.dz * (-v.x - halfWidth c c.dx1 c.dx2 v.z) = 0 := hi
      rcases mul_eq_zero.1 e0 with e | e <;> linarith
    have hA : A c p 3 + t * B c d 3 = 0 := by rw [val]; exact hi
    have h3 : ¬ _ := fun h3 => (nm _).1.1.2 ⟨hb', by rw [sub_neg_eq_add]; exact hA, h3, rfl⟩
    have hq := ((c3 (by rw [← hv]; exact Or.inr hw)).snap (fun u hu => ⟨hu.1.le, hu.2.le⟩)).2 h3
    rw [← hv] at hq
    exact outside_pos_x c hz v hq
  · have hb' : precision < |2 * c.dz * d.y + (c.dy1 - c.dy2) * d.z| := (hn _ (Or.inr (Or.inr (Or.inr (Or.inl rfl))))).resolve_left hb
    have hw : v.y = halfWidth c c.dy1 c.dy2 v.z := by
      have e0 : 2 * c.dz * (v.y - halfWidth c c.dy1 c.dy2 v.z) = 0 := hi
      rcases mul_eq_zero.1 e0 with e | e <;> linarith
    have hA : A c p 4 + t * B c d 4 = 0 := by rw [val]; exact hi
    have h3 : ¬ _ := fun h3 => (nm _).1.2 ⟨hb', hA, h3, rfl⟩
    have hq := ((c4 (by rw [← hv]; exact Or.inl hw)).snap (fun u hu => ⟨hu.1.le, hu.2.le⟩)).2 h3
    rw [← hv] at hq
    exact outside_pos_y c hz v hq
  · have hb' : precision < |-2 * c.dz * d.y + (c.dy1 - c.dy2) * d.z| := (hn _ (Or.inr (Or.inr (Or.inr (Or.inr rfl))))).resolve_left hb
    have hw : v.y = -halfWidth c c.dy1 c.dy2 v.z := by
      have e0 : 2 * c.dz * (-v.y - halfWidth c c.dy1 c.dy2 v.z) = 0 := hi
      rcases mul_eq_zero.1 e0 with e | e <;> linarith
    have hA : A c p 5 + t * B c d 5 = 0 := by rw [val]; exact hi
    have h3 : ¬ _ := fun h3 => (nm _).2 ⟨hb', by rw [sub_neg_eq_add]; exact hA, h3, rfl⟩
    have hq := ((c4 (by rw [← hv]; exact Or.inr hw)).snap (fun u hu => ⟨hu.1.le, hu.2.le⟩)).2 h3
    rw [← hv] at hq
    exact outside_pos_y c hz v hq

/-- The half width lies between those at the ends. -/
theorem width_le (c : Td) (w1 w2 z : ℝ) (hd : 0 < c.dz) (hz : |z| ≤ c.dz) : halfWidth c w1 w2 z ≤ max w1 w2 := by
  rw [abs_le] at hz
  have e : halfWidth c w1 w2 z = (w1 * (c.dz - z) + w2 * (z + c.dz)) / (2 * c.dz) := by
    unfold halfWidth; field_simp; ring
  rw [e, div_le_iff₀ (by linarith)]
  have h1 := mul_le_mul_of_nonneg_right (le_max_left w1 w2) (show 0 ≤ c.dz - z by linarith)
  have h2 := mul_le_mul_of_nonneg_right (le_max_right w1 w2) (show 0 ≤ z + c.dz by linarith)
  linarith

theorem bounded (c : Td) (hz : 0 < c.dz) (p d : Vec3 ℝ) (hd : d ≠ 0) : ∃ M, ∀ u, Inside c (p + Vec3.smul u d) → |u| ≤ M := by
  by_cases h1 : d.x = 0
  · by_cases h2 : d.y = 0
    · have h3 : d.z ≠ 0 := fun h3 => hd (Vec3.ext h1 h2 h3)
      exact ⟨(c.dz + |p.z|) / |d.z|, fun u hu => bounded_coordinate p.z d.z _ u h3 hu.1.le⟩
    · exact ⟨(max c.dy1 c.dy2 + |p.y|) / |d.y|, fun u hu => bounded_coordinate p.y d.y _ u h2
        (hu.2.2.le.trans (width_le c _ _ _ hz hu.1.le))⟩
  · exact ⟨(max c.dx1 c.dx2 + |p.x|) / |d.x|, fun u hu => bounded_coordinate p.x d.x _ u h1
      (hu.2.1.le.trans (width_le c _ _ _ hz hu.1.le))⟩

/-! ### Theorems -/

/-- C99: for every trapezoid that can be constructed with an inside and every line that is not nearly parallel to a face
without being parallel to it, that is clear of the edges, and whose crossings are reported at different distances, the
reported crossings enter and leave in turn and say "inside" exactly where the line is inside the solid. -/
theorem C99_describes (srt : List Isect → List Isect) (hsrt : IsIsectSort srt) (dx1 dx2 dy1 dy2 dz : ℝ) (c : Td)
    (hc : make dx1 dx2 dy1 dy2 dz = some c) (hs : Solid c) (p d : Vec3 ℝ) (hd : d ≠ 0) (hn : NotNearlyParallel c d)
    (he : ClearOfEdges c p d) (hdiff : ((compute srt c p d).map Isect.distance).Nodup) :
    Describes precision (fun t => Inside c (p + Vec3.smul t d)) (compute srt c p d) := by
  obtain ⟨hz, hx1, hx2, hy1, hy2⟩ := make_spec hc
  obtain ⟨M, hM⟩ := bounded c hz p d hd
  exact describes_of_local srt hsrt (raw c p d) p d hdiff (raw_flips c hz hx1 hx2 hy1 hy2 hs p d he)
    (raw_steady c hz p d hn he) M hM

/-- C99: at most six crossings are found, as many as the array holds. -/
theorem C99_capacity (c : Td) (p d : Vec3 ℝ) : (raw c p d).length ≤ 6 := by
  have h1 : (top c p d).length ≤ 1 := by unfold top; simp only; split_ifs <;> simp
  have h2 : (bottom c p d).length ≤ 1 := by unfold bottom; simp only; split_ifs <;> simp
  have h3 : ∀ n nz e h1 h2 pa da pb db pz dz, (side c n nz e h1 h2 pa da pb db pz dz).length ≤ 1 := by
    intros; unfold side; simp only; split_ifs <;> simp
  unfold raw
  simp only [List.length_append]
  have a1 := h3 (2 * c.dz) (c.dx1 - c.dx2) c.dx1 c.dy1 c.dy2 p.x d.x p.y d.y p.z d.z
  have a2 := h3 (-2 * c.dz) (c.dx1 - c.dx2) (-c.dx1) c.dy1 c.dy2 p.x d.x p.y d.y p.z d.z
  have a3 := h3 (2 * c.dz) (c.dy1 - c.dy2) c.dy1 c.dx1 c.dx2 p.y d.y p.x d.x p.z d.z
  have a4 := h3 (-2 * c.dz) (c.dy1 - c.dy2) (-c.dy1) c.dx1 c.dx2 p.y d.y p.x d.x p.z d.z
  omega

/-- C99: the bounding box is the smallest that contains the solid. -/
theorem C99_bounding_box (dx1 dx2 dy1 dy2 dz : ℝ) (c : Td) (hc : make dx1 dx2 dy1 dy2 dz = some c) :
    (∀ v, Mem c v → AABB.Mem v (boundingBox c)) ∧
    (∀ b : AABB ℝ, (∀ v, Mem c v → AABB.Mem v b) → AABB.Sub (boundingBox c) b) := by
  obtain ⟨hz, hx1, hx2, hy1, hy2⟩ := make_spec hc
  have topw : ∀ w1 w2, halfWidth c w1 w2 c.dz = w2 := fun w1 w2 => by unfold halfWidth; field_simp; ring
  have botw : ∀ w1 w2, halfWidth c w1 w2 (-c.dz) = w1 := fun w1 w2 => by unfold halfWidth; simp
  refine ⟨fun v ⟨h1, h2, h3⟩ => ?_, fun b hb => ?_⟩
  · have h2' := abs_le.1 (h2.trans (width_le c _ _ _ hz h1))
    have h3' := abs_le.1 (h3.trans (width_le c _ _ _ hz h1))
    have h1' := abs_le.1 h1
    exact ⟨h2', h3', h1'⟩
  · have hzz : |c.dz| ≤ c.dz := (abs_of_pos hz).le
    have hzn : |-c.dz| ≤ c.dz := by rw [abs_neg]; exact hzz
    have t1 := hb ⟨c.dx2, c.dy2, c.dz⟩ ⟨hzz, by rw [topw, abs_of_nonneg hx2], by rw [topw, abs_of_nonneg hy2]⟩
    have t2 := hb ⟨-c.dx2, -c.dy2, c.dz⟩ ⟨hzz, by rw [topw, abs_neg, abs_of_nonneg hx2], by rw [topw, abs_neg, abs_of_nonneg hy2]⟩
    have b1 := hb ⟨c.dx1, c.dy1, -c.dz⟩ ⟨hzn, by rw [botw, abs_of_nonneg hx1], by rw [botw, abs_of_nonneg hy1]⟩
    have b2 := hb ⟨-c.dx1, -c.dy1, -c.dz⟩ ⟨hzn, by rw [botw, abs_neg, abs_of_nonneg hx1], by rw [botw, abs_neg, abs_of_nonneg hy1]⟩
    refine ⟨⟨?_, ?_⟩, ⟨?_, ?_⟩, ?_, ?_⟩
    · show b.min.x ≤ -max c.dx1 c.dx2
      have h1 : b.min.x ≤ -c.dx1 := b2.1.1
      have h2 : b.min.x ≤ -c.dx2 := t2.1.1
      rw [le_neg]; exact max_le (by linarith) (by linarith)
    · exact max_le b1.1.2 t1.1.2
    · show b.min.y ≤ -max c.dy1 c.dy2
      have h1 : b.min.y ≤ -c.dy1 := b2.2.1.1
      have h2 : b.min.y ≤ -c.dy2 := t2.2.1.1
      rw [le_neg]; exact max_le (by linarith) (by linarith)
    · exact max_le b1.2.1.2 t1.2.1.2
    · exact b1.2.2.1
    · exact t1.2.2.2

/-- A line across a frustum meets the hypotheses of C99, and both crossings are found on the slanted sides. -/
example : ∃ c, make 1 2 1 2 1 = some c ∧ Solid c ∧ NotNearlyParallel c ⟨1, 0, 0⟩ ∧ ClearOfEdges c ⟨-5, 0, 0⟩ ⟨1, 0, 0⟩ ∧
    raw c ⟨-5, 0, 0⟩ ⟨1, 0, 0⟩ = [(13 / 2, false), (7 / 2, true)] := by
  refine ⟨⟨1, 2, 1, 2, 1⟩, ?_, ?_, ?_, ?_, ?_⟩
  · unfold make; rw [if_neg (by norm_num), if_neg (by norm_num)]
  · constructor <;> norm_num
  · intro m hm
    unfold precision
    rcases hm with h | h | h | h | h <;> rw [h] <;> norm_num
  · intro t
    refine ⟨?_, ?_, ?_, ?_⟩
    · intro h; simp at h
    · intro h; simp at h
    · intro _; left
      intro u _
      norm_num [halfWidth]
    · rintro (h | h) <;> norm_num [halfWidth] at h
  · have s1 : snap (13 / 2) = 13 / 2 := by unfold snap precision; rw [if_neg (by norm_num)]
    have s2 : snap (7 / 2) = 7 / 2 := by unfold snap precision; rw [if_neg (by norm_num)]
    unfold raw top bottom side inv2dz
    unfold precision
    norm_num [s1, s2]

/-- Where a line passes through edges, both faces report it: a diagonal through two edges of a cube is reported to enter
twice and leave twice. -/
theorem C99_edge_fails : ∃ c, make 1 1 1 1 1 = some c ∧ Solid c ∧ NotNearlyParallel c ⟨-1, 0, -1⟩ ∧
    (∀ t : ℝ, Inside c ((⟨2, 0, 2⟩ : Vec3 ℝ) + Vec3.smul t ⟨-1, 0, -1⟩) ↔ 1 < t ∧ t < 3) ∧
    ∀ srt, IsIsectSort srt → (compute srt c ⟨2, 0, 2⟩ ⟨-1, 0, -1⟩).length = 4 ∧
      ¬ Describes precision (fun t => Inside c ((⟨2, 0, 2⟩ : Vec3 ℝ) + Vec3.smul t ⟨-1, 0, -1⟩)) (compute srt c ⟨2, 0, 2⟩ ⟨-1, 0, -1⟩) := by
  have s1 : snap 1 = 1 := by unfold snap precision; rw [if_neg (by norm_num)]
  have s3 : snap 3 = 3 := by unfold snap precision; rw [if_neg (by norm_num)]
  have hraw : raw ⟨1, 1, 1, 1, 1⟩ ⟨2, 0, 2⟩ ⟨-1, 0, -1⟩ = [(1, true), (3, false), (1, true), (3, false)] := by
    unfold raw top bottom side inv2dz
    unfold precision
    norm_num [s1, s3]
  refine ⟨⟨1, 1, 1, 1, 1⟩, ?_, ?_, ?_, ?_, ?_⟩
  · unfold make; rw [if_neg (by norm_num), if_neg (by norm_num)]
  · constructor <;> norm_num
  · intro m hm
    unfold precision
    rcases hm with h | h | h | h | h <;> rw [h] <;> norm_num
  · intro t
    simp only [Inside, halfWidth, Vec3.add_x, Vec3.add_y, Vec3.add_z, Vec3.smul_x, Vec3.smul_y, Vec3.smul_z, abs_lt]
    norm_num
    constructor <;> rintro ⟨h1, h2⟩ <;> constructor <;> linarith
  · intro srt hsrt
    have hp := (hsrt ((raw ⟨1, 1, 1, 1, 1⟩ ⟨2, 0, 2⟩ ⟨-1, 0, -1⟩).map (report ⟨2, 0, 2⟩ ⟨-1, 0, -1⟩))).1
    refine ⟨?_, fun h => ?_⟩
    · unfold compute; rw [hp.length_eq, hraw]; rfl
    · have hn : ((compute srt ⟨1, 1, 1, 1, 1⟩ ⟨2, 0, 2⟩ ⟨-1, 0, -1⟩).map Isect.distance).Nodup := by
        rw [List.Nodup, List.pairwise_map]
        exact h.strict.imp fun h => ne_of_lt h
      unfold compute at hn
      rw [(hp.map Isect.distance).nodup_iff, hraw] at hn
      simp [report] at hn

end Siren.Geometry.Trd
