import Verif.Geometry.Cut

set_option autoImplicit false

/-!
# C110: tubes with tilted ends

Models `geometry/private/CutTube.cxx`. Real square root, sine and cosine instead of the floating point ones.
-/

namespace Siren.Geometry.CutTube

open Siren Siren.Geometry Siren.Geometry.Cylinder Real Filter Topology

/-! ### Model -/

/-- The members of `CutTube` (geometry/public/SIREN/geometry/CutTube.h). -/
structure CTube where
  rmin : ℝ
  rmax : ℝ
  dz : ℝ
  low : Vec3 ℝ
  high : Vec3 ℝ
  startPhi : ℝ
  deltaPhi : ℝ
  hasPhiCut : Bool

/-- `prepare_normal` (geometry/private/CutTube.cxx:29-51). -/
noncomputable def prepareNormal (n : Vec3 ℝ) (wantPositive : Bool) : Vec3 ℝ :=
  let mag := Vec3.norm n
  if mag ≤ 0 then (if wantPositive then ⟨0, 0, 1⟩ else ⟨0, 0, -1⟩)
  else
    let n := (⟨n.x / mag, n.y / mag, n.z / mag⟩ : Vec3 ℝ)
    let n := if wantPositive ∧ n.z < 0 then -n else if ¬ wantPositive ∧ n.z > 0 then -n else n
    if n.z = 0 then (if wantPositive then ⟨0, 0, 1⟩ else ⟨0, 0, -1⟩) else n

/-- The constructor without angles (geometry/private/CutTube.cxx:54-63, 65-74); `none` is `std::invalid_argument`. -/
noncomputable def make (rmin rmax dz : ℝ) (low high : Vec3 ℝ) : Option CTube :=
  if rmin < 0 then none
  else if rmax < 0 then none
  else
    let r := if rmin > rmax then (rmax, rmin) else (rmin, rmax)
    if r.2 ≤ 0 then none
    else if dz ≤ 0 then none
    else some ⟨r.1, r.2, dz, prepareNormal low false, prepareNormal high true, 0, 2 * π, false⟩

/-- The constructor with angles (geometry/private/CutTube.cxx:75-86, 87-98); `none` is `std::invalid_argument`. -/
noncomputable def makePhi (rmin rmax dz : ℝ) (low high : Vec3 ℝ) (startPhi deltaPhi : ℝ) : Option CTube :=
  if rmin < 0 then none
  else if rmax < 0 then none
  else
    let r := if rmin > rmax then (rmax, rmin) else (rmin, rmax)
    if r.2 ≤ 0 then none
    else if dz ≤ 0 then none
    else if deltaPhi ≤ 0 then none
    else
      let delta := if deltaPhi > 2 * π then 2 * π else deltaPhi
      some ⟨r.1, r.2, dz, prepareNormal low false, prepareNormal high true, startPhi, delta,
        decide (delta < 2 * π - 1 / 1000000000)⟩

/-- `between_planes` (geometry/private/CutTube.cxx:167-171). -/
noncomputable def betweenPlanes (c : CTube) (x y z : ℝ) : Bool :=
  let lowDot := c.low.x * x + c.low.y * y + c.low.z * (z + c.dz)
  let highDot := c.high.x * x + c.high.y * y + c.high.z * (z - c.dz)
  decide (lowDot ≤ precision) && decide (highDot ≤ precision)

/-- `t_shift` (geometry/private/CutTube.cxx:136). -/
def tShift (p d : Vec3 ℝ) : ℝ := -(p.x * d.x + p.y * d.y + p.z * d.z)

/-- `test_barrel` (geometry/private/CutTube.cxx:176-199): exact distances with flags. -/
noncomputable def testBarrel (c : CTube) (p d : Vec3 ℝ) (r2 : ℝ) (invert : Bool) : List (ℝ × Bool) :=
  let ts := tShift p d
  let qx := p.x + ts * d.x
  let qy := p.y + ts * d.y
  let A := d.x * d.x + d.y * d.y
  if A = 0 then []
  else
    let B := qx * d.x + qy * d.y
    let C := qx * qx + qy * qy - r2
    let det := B * B - A * C
    if det ≤ 0 then []
    else
      let sq := Real.sqrt det
      let inv := 1 / A
      [(-B - sq) * inv + ts, (-B + sq) * inv + ts].filterMap fun t =>
        let ix := p.x + t * d.x
        let iy := p.y + t * d.y
        let iz := p.z + t * d.z
        if betweenPlanes c ix iy iz then
          let radial := decide (ix * d.x + iy * d.y < 0)
          some (t, if invert then !radial else radial)
        else none

/-- `test_cap` (geometry/private/CutTube.cxx:207-223); the centre is `(0, 0, cz)`. -/
noncomputable def testCap (c : CTube) (p d : Vec3 ℝ) (cz : ℝ) (n : Vec3 ℝ) : List (ℝ × Bool) :=
  let nd := n.x * d.x + n.y * d.y + n.z * d.z
  if |nd| < precision then []
  else
    let off := n.x * (p.x - 0) + n.y * (p.y - 0) + n.z * (p.z - cz)
    let t := -off / nd
    let ix := p.x + t * d.x
    let iy := p.y + t * d.y
    let r2 := ix * ix + iy * iy
    if r2 ≥ c.rmin * c.rmin - precision ∧ r2 ≤ c.rmax * c.rmax + precision then [(t, decide (nd < 0))] else []

/-- The surface hits (geometry/private/CutTube.cxx:225-235). -/
noncomputable def surfaceHits (c : CTube) (p d : Vec3 ℝ) : List (ℝ × Bool) :=
  testBarrel c p d (c.rmax * c.rmax) false ++ (if c.rmin > 0 then testBarrel c p d (c.rmin * c.rmin) true else []) ++
    testCap c p d (-c.dz) c.low ++ testCap c p d c.dz c.high

/-- `CutTube::ComputeIntersections` (geometry/private/CutTube.cxx:114-324). `add_hit` (156-163) is `Cylinder.surfaceHit`: the
distance is moved to the start of the ray, the position is not. With a cut the hits are sorted twice. -/
noncomputable def compute (srt : List SHit → List SHit) (c : CTube) (p d : Vec3 ℝ) : List Isect :=
  let surface := srt ((surfaceHits c p d).map fun h => (⟨surfaceHit p d h, 0⟩ : SHit))
  if !c.hasPhiCut then surface.map SHit.isect
  else
    let all := surface ++ (Phi.wedgeHits snap c.startPhi c.deltaPhi p d).map fun h => (⟨hitAt p d h.1 h.2, 1⟩ : SHit)
    let st : Nat → Bool := fun k =>
      if k = 0 then false else Phi.initialPhiState p.x p.y d.x d.y c.startPhi c.deltaPhi
    andWalk 2 st (allIn 2 st) (srt all)

/-- The running extents of the sector (geometry/private/CutTube.cxx:358). -/
structure Extent where
  xmin : ℝ
  xmax : ℝ
  ymin : ℝ
  ymax : ℝ

/-- One direction taken into account (geometry/private/CutTube.cxx:363-369, 379-384). -/
noncomputable def Extent.grow (r : ℝ) (e : Extent) (a : ℝ) : Extent :=
  let cx := cos a * r
  let cy := sin a * r
  ⟨if cx < e.xmin then cx else e.xmin, if cx > e.xmax then cx else e.xmax,
   if cy < e.ymin then cy else e.ymin, if cy > e.ymax then cy else e.ymax⟩

/-- The sector (geometry/private/CutTube.cxx:353-386). -/
noncomputable def sector (start delta r : ℝ) : Extent :=
  let sp := Phi.normalizePhi start
  let ep := sp + delta
  let edges := [sp, sp + delta].foldl (Extent.grow r) ⟨0, 0, 0, 0⟩
  [0, π / 2, π, 3 * π / 2].foldl (fun e c =>
    let cn := if c < sp then c + 2 * π else c
    if cn ≤ ep + 1 / 1000000000 then e.grow r c else e) edges

/-- `CutTube::GetBoundingBox` (geometry/private/CutTube.cxx:327-391). -/
noncomputable def boundingBox (c : CTube) : AABB ℝ :=
  let lowTilt := Real.sqrt (c.low.x * c.low.x + c.low.y * c.low.y) / |c.low.z|
  let highTilt := Real.sqrt (c.high.x * c.high.x + c.high.y * c.high.y) / |c.high.z|
  let zmin := -c.dz - c.rmax * lowTilt
  let zmax := c.dz + c.rmax * highTilt
  if !c.hasPhiCut then ⟨⟨-c.rmax, -c.rmax, zmin⟩, ⟨c.rmax, c.rmax, zmax⟩⟩
  else
    let e := sector c.startPhi c.deltaPhi c.rmax
    ⟨⟨e.xmin, e.ymin, zmin⟩, ⟨e.xmax, e.ymax, zmax⟩⟩

/-! ### Specification -/

/-- The signed distance beyond the plane through `(0, 0, -dz)` with the low normal. -/
def lowSide (c : CTube) (v : Vec3 ℝ) : ℝ := Vec3.dot c.low (v - ⟨0, 0, -c.dz⟩)

/-- The signed distance beyond the plane through `(0, 0, dz)` with the high normal. -/
def highSide (c : CTube) (v : Vec3 ℝ) : ℝ := Vec3.dot c.high (v - ⟨0, 0, c.dz⟩)

/-- The solid without its cut: between the radii and on the inner side of both planes. -/
def Solid (c : CTube) (v : Vec3 ℝ) : Prop := (c.rmin ≤ rad v ∧ rad v < c.rmax) ∧ lowSide c v < 0 ∧ highSide c v < 0

/-- A surface point of the solid. -/
def OnSurface (c : CTube) (v : Vec3 ℝ) : Prop :=
  ((rad v = c.rmax ∨ 0 < c.rmin ∧ rad v = c.rmin) ∧ lowSide c v < 0 ∧ highSide c v < 0) ∨
  ((c.rmin ≤ rad v ∧ rad v < c.rmax) ∧ (lowSide c v = 0 ∧ highSide c v < 0 ∨ lowSide c v < 0 ∧ highSide c v = 0))

/-- The dimensions make sense, and the two planes do not meet inside the outer barrel. -/
structure Valid (c : CTube) : Prop where
  rmin : 0 ≤ c.rmin
  rmax : c.rmin < c.rmax
  uncrossed : ∀ v, rad v ≤ c.rmax → lowSide c v < 0 ∨ highSide c v < 0

/-- A point is clearly between the planes or clearly beyond one of them. -/
def Settled (c : CTube) (v : Vec3 ℝ) : Prop :=
  (lowSide c v < 0 ∧ highSide c v < 0) ∨ precision < lowSide c v ∨ precision < highSide c v

/-- The line does not touch a rim, does not run within 1e-9 of parallel to an end without being parallel, and two places where
it meets the surface are at least 2e-9 apart. -/
structure Clear (c : CTube) (p d : Vec3 ℝ) : Prop where
  direction : d ≠ 0
  outer : ∀ t : ℝ, rad (p + Vec3.smul t d) = c.rmax → Settled c (p + Vec3.smul t d)
  inner : 0 < c.rmin → ∀ t : ℝ, rad (p + Vec3.smul t d) = c.rmin → Settled c (p + Vec3.smul t d)
  ring : ∀ t : ℝ, lowSide c (p + Vec3.smul t d) = 0 ∨ highSide c (p + Vec3.smul t d) = 0 →
    ¬ (c.rmax ^ 2 ≤ rad (p + Vec3.smul t d) ^ 2 ∧ rad (p + Vec3.smul t d) ^ 2 ≤ c.rmax ^ 2 + precision) ∧
    (0 < c.rmin → ¬ (c.rmin ^ 2 - precision ≤ rad (p + Vec3.smul t d) ^ 2 ∧ rad (p + Vec3.smul t d) ^ 2 ≤ c.rmin ^ 2))
  low : Vec3.dot c.low d = 0 ∨ precision ≤ |Vec3.dot c.low d|
  high : Vec3.dot c.high d = 0 ∨ precision ≤ |Vec3.dot c.high d|
  apart : ∀ t u : ℝ, t < u → OnSurface c (p + Vec3.smul t d) → OnSurface c (p + Vec3.smul u d) → t + 2 * precision ≤ u

/-! ### Proofs -/

theorem lowSide_line (c : CTube) (p d : Vec3 ℝ) (u : ℝ) : lowSide c (p + Vec3.smul u d) = lowSide c p + u * Vec3.dot c.low d := by
  unfold lowSide Vec3.dot
  simp only [Vec3.sub_x, Vec3.sub_y, Vec3.sub_z, Vec3.add_x, Vec3.add_y, Vec3.add_z, Vec3.smul_x, Vec3.smul_y, Vec3.smul_z]; ring

theorem highSide_line (c : CTube) (p d : Vec3 ℝ) (u : ℝ) : highSide c (p + Vec3.smul u d) = highSide c p + u * Vec3.dot c.high d := by
  unfold highSide Vec3.dot
  simp only [Vec3.sub_x, Vec3.sub_y, Vec3.sub_z, Vec3.add_x, Vec3.add_y, Vec3.add_z, Vec3.smul_x, Vec3.smul_y, Vec3.smul_z]; ring

theorem between_iff (c : CTube) (p d : Vec3 ℝ) (t : ℝ) :
    betweenPlanes c (p.x + t * d.x) (p.y + t * d.y) (p.z + t * d.z) = true ↔
      lowSide c (p + Vec3.smul t d) ≤ precision ∧ highSide c (p + Vec3.smul t d) ≤ precision := by
  unfold betweenPlanes lowSide highSide Vec3.dot
  simp only [Bool.and_eq_true, decide_eq_true_eq, Vec3.sub_x, Vec3.sub_y, Vec3.sub_z, Vec3.add_x, Vec3.add_y, Vec3.add_z, Vec3.smul_x,
    Vec3.smul_y, Vec3.smul_z, sub_zero, sub_neg_eq_add]

theorem xy_pos {d : Vec3 ℝ} (h : d.x * d.x + d.y * d.y ≠ 0) : 0 < d.x * d.x + d.y * d.y :=
  lt_of_le_of_ne (add_nonneg (mul_self_nonneg _) (mul_self_nonneg _)) (Ne.symm h)

theorem xy_zero {d : Vec3 ℝ} : d.x * d.x + d.y * d.y = 0 ↔ d.x = 0 ∧ d.y = 0 := by
  constructor
  · intro h
    exact ⟨by nlinarith [mul_self_nonneg d.x, mul_self_nonneg d.y], by nlinarith [mul_self_nonneg d.x, mul_self_nonneg d.y]⟩
  · rintro ⟨h1, h2⟩; rw [h1, h2]; ring

/-- The discriminant does not depend on the origin along the line. -/
theorem det_shift (p d : Vec3 ℝ) (r2 : ℝ) :
    ((p.x + tShift p d * d.x) * d.x + (p.y + tShift p d * d.y) * d.y) * ((p.x + tShift p d * d.x) * d.x + (p.y + tShift p d * d.y) * d.y) -
      (d.x * d.x + d.y * d.y) * ((p.x + tShift p d * d.x) * (p.x + tShift p d * d.x) + (p.y + tShift p d * d.y) * (p.y + tShift p d * d.y) - r2) =
      det p d r2 := by
  unfold det; ring

/-- The two distances computed from the shifted origin are the two places where the line meets the infinite barrel. -/
theorem roots (p d : Vec3 ℝ) (r2 t : ℝ) (hA : 0 < d.x * d.x + d.y * d.y) (hd : 0 < det p d r2) :
    t ∈ [(-((p.x + tShift p d * d.x) * d.x + (p.y + tShift p d * d.y) * d.y) - Real.sqrt (det p d r2)) * (1 / (d.x * d.x + d.y * d.y)) + tShift p d,
      (-((p.x + tShift p d * d.x) * d.x + (p.y + tShift p d * d.y) * d.y) + Real.sqrt (det p d r2)) * (1 / (d.x * d.x + d.y * d.y)) + tShift p d] ↔
      q p d r2 t = 0 := by
  have hs := Real.mul_self_sqrt hd.le
  obtain ⟨s, hs'⟩ : ∃ s, s = Real.sqrt (det p d r2) := ⟨_, rfl⟩
  rw [← hs'] at hs ⊢
  obtain ⟨A, hA'⟩ : ∃ A, A = d.x * d.x + d.y * d.y := ⟨_, rfl⟩
  obtain ⟨w, hw⟩ : ∃ w, w = tShift p d := ⟨_, rfl⟩
  have e := det_q p d r2 t
  rw [← hw]
  have eB : (p.x + w * d.x) * d.x + (p.y + w * d.y) * d.y = p.x * d.x + p.y * d.y + w * A := by rw [hA']; ring
  rw [eB, ← hA']
  rw [← hA'] at hA e
  obtain ⟨B, hB⟩ : ∃ B, B = p.x * d.x + p.y * d.y := ⟨_, rfl⟩
  rw [← hB] at e ⊢
  have e1 : ∀ x : ℝ, t = (-(B + w * A) + x) * (1 / A) + w ↔ A * t + B - x = 0 := by
    intro x
    have : (-(B + w * A) + x) * (1 / A) + w = (-B + x) / A := by field_simp; ring
    rw [this, eq_div_iff hA.ne']
    constructor <;> intro h <;> linarith
  simp only [List.mem_cons, List.not_mem_nil, or_false]
  rw [sub_eq_add_neg, e1, e1, ← mul_eq_zero]
  have e3 : (A * t + B - -s) * (A * t + B - s) = A * q p d r2 t := by rw [e, ← hs]; ring
  rw [e3, mul_eq_zero]
  exact ⟨fun h => h.resolve_left hA.ne', Or.inr⟩

/-- What `test_barrel` reports. -/
theorem mem_testBarrel (c : CTube) (p d : Vec3 ℝ) (r2 : ℝ) (invert : Bool) (h : ℝ × Bool) :
    h ∈ testBarrel c p d r2 invert ↔ ¬ (d.x = 0 ∧ d.y = 0) ∧ 0 < det p d r2 ∧ q p d r2 h.1 = 0 ∧
      (lowSide c (p + Vec3.smul h.1 d) ≤ precision ∧ highSide c (p + Vec3.smul h.1 d) ≤ precision) ∧
      h.2 = (invert ^^ decide ((d.x * d.x + d.y * d.y) * h.1 + (p.x * d.x + p.y * d.y) < 0)) := by
  unfold testBarrel
  simp only [det_shift]
  by_cases h0 : d.x * d.x + d.y * d.y = 0
  · rw [if_pos h0]; simp [xy_zero.1 h0]
  rw [if_neg h0]
  by_cases hd : det p d r2 ≤ 0
  · rw [if_pos hd]; simp [not_lt.2 hd]
  rw [if_neg hd]
  have hd := not_le.1 hd
  have hA := xy_pos h0
  have h0' : ¬ (d.x = 0 ∧ d.y = 0) := fun hc => h0 (xy_zero.2 hc)
  have hrad : ∀ t : ℝ, (p.x + t * d.x) * d.x + (p.y + t * d.y) * d.y = (d.x * d.x + d.y * d.y) * t + (p.x * d.x + p.y * d.y) := by
    intro t; ring
  rw [List.mem_filterMap]
  simp only [roots p d r2 _ hA hd]
  simp only [hrad]
  constructor
  · rintro ⟨t, ht, he⟩
    split at he
    · next hb =>
      simp only [Option.some.injEq] at he
      subst he
      exact ⟨h0', hd, ht, (between_iff c p d t).1 hb, by cases invert <;> simp⟩
    · exact absurd he (by simp)
  · rintro ⟨_, _, h1, h2, h3⟩
    refine ⟨h.1, h1, ?_⟩
    rw [if_pos ((between_iff c p d h.1).2 h2)]
    congr 1
    refine Prod.ext rfl ?_
    rw [h3]
    cases invert <;> simp

/-- What `test_cap` reports, in terms of a function that is linear along the line. -/
theorem mem_testCap (c : CTube) (p d : Vec3 ℝ) (cz : ℝ) (n : Vec3 ℝ) (h : ℝ × Bool) :
    h ∈ testCap c p d cz n ↔ precision ≤ |Vec3.dot n d| ∧ Vec3.dot n (p - ⟨0, 0, cz⟩) + h.1 * Vec3.dot n d = 0 ∧
      (c.rmin * c.rmin - precision ≤ q p d 0 h.1 ∧ q p d 0 h.1 ≤ c.rmax * c.rmax + precision) ∧
      h.2 = decide (Vec3.dot n d < 0) := by
  unfold testCap
  have e1 : n.x * d.x + n.y * d.y + n.z * d.z = Vec3.dot n d := rfl
  have e2 : n.x * (p.x - 0) + n.y * (p.y - 0) + n.z * (p.z - cz) = Vec3.dot n (p - ⟨0, 0, cz⟩) := rfl
  simp only [e1, e2]
  obtain ⟨b, hb⟩ : ∃ b, b = Vec3.dot n d := ⟨_, rfl⟩
  obtain ⟨a, ha⟩ : ∃ a, a = Vec3.dot n (p - ⟨0, 0, cz⟩) := ⟨_, rfl⟩
  rw [← hb, ← ha]
  by_cases h0 : |b| < precision
  · rw [if_pos h0]; simp [h0]
  rw [if_neg h0]
  have hbne : b ≠ 0 := by intro hc; rw [hc, abs_zero] at h0; exact h0 precision_pos
  have ht : ∀ t, t = -a / b ↔ a + t * b = 0 := by
    intro t; rw [eq_div_iff hbne]; constructor <;> intro h <;> linarith
  have hq : ∀ t, (p.x + t * d.x) * (p.x + t * d.x) + (p.y + t * d.y) * (p.y + t * d.y) = q p d 0 t := by
    intro t; rw [q_eq]; ring
  rw [hq]
  split
  · next hr =>
    simp only [List.mem_singleton]
    constructor
    · rintro rfl; exact ⟨not_lt.1 h0, (ht _).1 rfl, hr, rfl⟩
    · rintro ⟨_, h1, _, h4⟩; exact Prod.ext ((ht _).2 h1) h4
  · next hr =>
    simp only [List.not_mem_nil, false_iff, not_and]
    intro _ h1 h2 _
    rw [(ht _).2 h1] at h2
    exact hr h2

/-- The solid along a line in terms of polynomials. -/
theorem solid_iff (c : CTube) (hv : Valid c) (p d : Vec3 ℝ) (u : ℝ) :
    Solid c (p + Vec3.smul u d) ↔ (q p d (c.rmax * c.rmax) u < 0 ∧ ¬ q p d (c.rmin * c.rmin) u < 0) ∧
      (lowSide c p + u * Vec3.dot c.low d < 0 ∧ highSide c p + u * Vec3.dot c.high d < 0) := by
  unfold Solid
  rw [le_rad_iff _ _ _ _ hv.rmin, rad_lt_iff _ _ _ _ (lt_of_le_of_lt hv.rmin hv.rmax), lowSide_line, highSide_line]
  tauto

/-- A crossing of the surface with its direction. -/
def Crossing (c : CTube) (p d : Vec3 ℝ) (h : ℝ × Bool) : Prop :=
  (¬ (d.x = 0 ∧ d.y = 0) ∧ 0 < det p d (c.rmax * c.rmax) ∧ q p d (c.rmax * c.rmax) h.1 = 0 ∧
    (lowSide c (p + Vec3.smul h.1 d) < 0 ∧ highSide c (p + Vec3.smul h.1 d) < 0) ∧
    h.2 = decide ((d.x * d.x + d.y * d.y) * h.1 + (p.x * d.x + p.y * d.y) < 0)) ∨
  (0 < c.rmin ∧ ¬ (d.x = 0 ∧ d.y = 0) ∧ 0 < det p d (c.rmin * c.rmin) ∧ q p d (c.rmin * c.rmin) h.1 = 0 ∧
    (lowSide c (p + Vec3.smul h.1 d) < 0 ∧ highSide c (p + Vec3.smul h.1 d) < 0) ∧
    h.2 = !decide ((d.x * d.x + d.y * d.y) * h.1 + (p.x * d.x + p.y * d.y) < 0)) ∨
  (Vec3.dot c.low d ≠ 0 ∧ (q p d (c.rmax * c.rmax) h.1 < 0 ∧ (0 < c.rmin → 0 < q p d (c.rmin * c.rmin) h.1)) ∧
    (lowSide c (p + Vec3.smul h.1 d) = 0 ∧ highSide c (p + Vec3.smul h.1 d) < 0) ∧ h.2 = decide (Vec3.dot c.low d < 0)) ∨
  (Vec3.dot c.high d ≠ 0 ∧ (q p d (c.rmax * c.rmax) h.1 < 0 ∧ (0 < c.rmin → 0 < q p d (c.rmin * c.rmin) h.1)) ∧
    (lowSide c (p + Vec3.smul h.1 d) < 0 ∧ highSide c (p + Vec3.smul h.1 d) = 0) ∧ h.2 = decide (Vec3.dot c.high d < 0))

theorem settled_iff {c : CTube} {v : Vec3 ℝ} (h : Settled c v) :
    (lowSide c v ≤ precision ∧ highSide c v ≤ precision) ↔ (lowSide c v < 0 ∧ highSide c v < 0) := by
  have := precision_pos
  rcases h with h | h | h
  · exact ⟨fun _ => h, fun _ => ⟨by linarith [h.1], by linarith [h.2]⟩⟩
  · exact ⟨fun hc => absurd hc.1 (not_le.2 h), fun hc => by linarith [hc.1]⟩
  · exact ⟨fun hc => absurd hc.2 (not_le.2 h), fun hc => by linarith [hc.2]⟩

theorem q_diff (p d : Vec3 ℝ) (u r r' : ℝ) : q p d r u = q p d r' u + r' - r := by rw [q_eq, q_eq]; ring

theorem ring_iff (c : CTube) (hv : Valid c) (p d : Vec3 ℝ) (hc : Clear c p d) (t : ℝ)
    (h : lowSide c (p + Vec3.smul t d) = 0 ∨ highSide c (p + Vec3.smul t d) = 0) :
    (c.rmin * c.rmin - precision ≤ q p d 0 t ∧ q p d 0 t ≤ c.rmax * c.rmax + precision) ↔
      (q p d (c.rmax * c.rmax) t < 0 ∧ (0 < c.rmin → 0 < q p d (c.rmin * c.rmin) t)) := by
  have hpr := precision_pos
  obtain ⟨h1, h2⟩ := hc.ring t h
  rw [rad_sq p d t 0, add_zero] at h1 h2
  rw [q_diff p d t (c.rmax * c.rmax) 0, q_diff p d t (c.rmin * c.rmin) 0]
  obtain ⟨Q, hQ⟩ : ∃ Q, Q = q p d 0 t := ⟨_, rfl⟩
  have hQ0 : 0 ≤ Q := by rw [hQ, q_eq]; nlinarith [sq_nonneg (p.x + t * d.x), sq_nonneg (p.y + t * d.y)]
  rw [← hQ] at h1 h2 ⊢
  constructor
  · rintro ⟨a, b⟩
    refine ⟨?_, fun hi => ?_⟩
    · by_contra hn; exact h1 ⟨by nlinarith [not_lt.1 hn], by nlinarith⟩
    · by_contra hn; exact h2 hi ⟨by nlinarith, by nlinarith [not_lt.1 hn]⟩
  · rintro ⟨a, b⟩
    refine ⟨?_, by linarith⟩
    rcases lt_or_eq_of_le hv.rmin with hi | hi
    · have := b hi; linarith
    · rw [← hi]; linarith

/-- What is reported is exactly the crossings. -/
theorem mem_surface (c : CTube) (hv : Valid c) (p d : Vec3 ℝ) (hc : Clear c p d) (h : ℝ × Bool) :
    h ∈ surfaceHits c p d ↔ Crossing c p d h := by
  have hR : 0 < c.rmax := lt_of_le_of_lt hv.rmin hv.rmax
  have hpr := precision_pos
  have hO : q p d (c.rmax * c.rmax) h.1 = 0 → Settled c (p + Vec3.smul h.1 d) := fun e =>
    hc.outer h.1 ((rad_eq_iff p d _ _ hR.le).2 e)
  have hI : 0 < c.rmin → q p d (c.rmin * c.rmin) h.1 = 0 → Settled c (p + Vec3.smul h.1 d) := fun hi e =>
    hc.inner hi h.1 ((rad_eq_iff p d _ _ hv.rmin).2 e)
  have el : Vec3.dot c.low (p - ⟨0, 0, -c.dz⟩) + h.1 * Vec3.dot c.low d = lowSide c (p + Vec3.smul h.1 d) := (lowSide_line c p d h.1).symm
  have eh : Vec3.dot c.high (p - ⟨0, 0, c.dz⟩) + h.1 * Vec3.dot c.high d = highSide c (p + Vec3.smul h.1 d) := (highSide_line c p d h.1).symm
  have hin : q p d (c.rmax * c.rmax) h.1 < 0 → rad (p + Vec3.smul h.1 d) ≤ c.rmax := fun e => ((rad_lt_iff p d _ _ hR).2 e).le
  have steep : ∀ x : ℝ, (x = 0 ∨ precision ≤ |x|) → (precision ≤ |x| ↔ x ≠ 0) := by
    intro x hx
    constructor
    · rintro h rfl; rw [abs_zero] at h; linarith
    · intro h; exact hx.resolve_left h
  unfold surfaceHits Crossing
  simp only [List.mem_append]
  have e1 : h ∈ testBarrel c p d (c.rmax * c.rmax) false ↔ (¬ (d.x = 0 ∧ d.y = 0) ∧ 0 < det p d (c.rmax * c.rmax) ∧ q p d (c.rmax * c.rmax) h.1 = 0 ∧
      (lowSide c (p + Vec3.smul h.1 d) < 0 ∧ highSide c (p + Vec3.smul h.1 d) < 0) ∧
      h.2 = decide ((d.x * d.x + d.y * d.y) * h.1 + (p.x * d.x + p.y * d.y) < 0)) := by
    rw [mem_testBarrel, Bool.false_xor]
    constructor
    · rintro ⟨a, b, e, f, g⟩; exact ⟨a, b, e, (settled_iff (hO e)).1 f, g⟩
    · rintro ⟨a, b, e, f, g⟩; exact ⟨a, b, e, (settled_iff (hO e)).2 f, g⟩
  have e2 : (h ∈ if c.rmin > 0 then testBarrel c p d (c.rmin * c.rmin) true else []) ↔ (0 < c.rmin ∧ ¬ (d.x = 0 ∧ d.y = 0) ∧ 0 < det p d (c.rmin * c.rmin) ∧ q p d (c.rmin * c.rmin) h.1 = 0 ∧
      (lowSide c (p + Vec3.smul h.1 d) < 0 ∧ highSide c (p + Vec3.smul h.1 d) < 0) ∧
      h.2 = !decide ((d.x * d.x + d.y * d.y) * h.1 + (p.x * d.x + p.y * d.y) < 0)) := by
    by_cases hi : 0 < c.rmin
    · rw [if_pos hi, mem_testBarrel, Bool.true_xor]
      constructor
      · rintro ⟨a, b, e, f, g⟩; exact ⟨hi, a, b, e, (settled_iff (hI hi e)).1 f, g⟩
      · rintro ⟨_, a, b, e, f, g⟩; exact ⟨a, b, e, (settled_iff (hI hi e)).2 f, g⟩
    · rw [if_neg hi]; simp [hi]
  have e3 : h ∈ testCap c p d (-c.dz) c.low ↔ (Vec3.dot c.low d ≠ 0 ∧ (q p d (c.rmax * c.rmax) h.1 < 0 ∧ (0 < c.rmin → 0 < q p d (c.rmin * c.rmin) h.1)) ∧
      (lowSide c (p + Vec3.smul h.1 d) = 0 ∧ highSide c (p + Vec3.smul h.1 d) < 0) ∧ h.2 = decide (Vec3.dot c.low d < 0)) := by
    rw [mem_testCap, el, steep _ hc.low]
    constructor
    · rintro ⟨a, b, e, f⟩
      have e' := (ring_iff c hv p d hc h.1 (Or.inl b)).1 e
      exact ⟨a, e', ⟨b, (hv.uncrossed _ (hin e'.1)).resolve_left (by rw [b]; exact lt_irrefl _)⟩, f⟩
    · rintro ⟨a, e, b, f⟩
      exact ⟨a, b.1, (ring_iff c hv p d hc h.1 (Or.inl b.1)).2 e, f⟩
  have e4 : h ∈ testCap c p d c.dz c.high ↔ (Vec3.dot c.high d ≠ 0 ∧ (q p d (c.rmax * c.rmax) h.1 < 0 ∧ (0 < c.rmin → 0 < q p d (c.rmin * c.rmin) h.1)) ∧
      (lowSide c (p + Vec3.smul h.1 d) < 0 ∧ highSide c (p + Vec3.smul h.1 d) = 0) ∧ h.2 = decide (Vec3.dot c.high d < 0)) := by
    rw [mem_testCap, eh, steep _ hc.high]
    constructor
    · rintro ⟨a, b, e, f⟩
      have e' := (ring_iff c hv p d hc h.1 (Or.inr b)).1 e
      exact ⟨a, e', ⟨(hv.uncrossed _ (hin e'.1)).resolve_right (by rw [b]; exact lt_irrefl _), b⟩, f⟩
    · rintro ⟨a, e, b, f⟩
      exact ⟨a, b.2, (ring_iff c hv p d hc h.1 (Or.inr b.2)).2 e, f⟩
  rw [e1, e2, e3, e4, or_assoc, or_assoc]

theorem crossing_onSurface (c : CTube) (hv : Valid c) (p d : Vec3 ℝ) (h : ℝ × Bool) (hm : Crossing c p d h) :
    OnSurface c (p + Vec3.smul h.1 d) := by
  have hR : 0 < c.rmax := lt_of_le_of_lt hv.rmin hv.rmax
  have hring : (q p d (c.rmax * c.rmax) h.1 < 0 ∧ (0 < c.rmin → 0 < q p d (c.rmin * c.rmin) h.1)) →
      c.rmin ≤ rad (p + Vec3.smul h.1 d) ∧ rad (p + Vec3.smul h.1 d) < c.rmax := by
    rintro ⟨a, b⟩
    refine ⟨?_, (rad_lt_iff _ _ _ _ hR).2 a⟩
    rcases lt_or_eq_of_le hv.rmin with hi | hi
    · exact (le_rad_iff _ _ _ _ hv.rmin).2 (not_lt.2 (b hi).le)
    · rw [← hi]; exact rad_nonneg _
  rcases hm with ⟨_, _, a, b, _⟩ | ⟨hi, _, _, a, b, _⟩ | ⟨_, a, b, _⟩ | ⟨_, a, b, _⟩
  · exact Or.inl ⟨Or.inl ((rad_eq_iff _ _ _ _ hR.le).2 a), b⟩
  · exact Or.inl ⟨Or.inr ⟨hi, (rad_eq_iff _ _ _ _ hv.rmin).2 a⟩, b⟩
  · exact Or.inr ⟨hring a, Or.inl b⟩
  · exact Or.inr ⟨hring a, Or.inr b⟩

/-- At every crossing the line enters or leaves the solid as stated. -/
theorem crossing_flips (c : CTube) (hv : Valid c) (p d : Vec3 ℝ) (h : ℝ × Bool) (hm : Crossing c p d h) :
    Flips (fun u => Solid c (p + Vec3.smul u d)) h.1 h.2 := by
  have hrr : c.rmin * c.rmin < c.rmax * c.rmax := by nlinarith [hv.rmin, hv.rmax]
  obtain ⟨t, ht⟩ : ∃ t, t = h.1 := ⟨_, rfl⟩
  have zc : ∀ a b : ℝ, ContinuousAt (fun u : ℝ => a + u * b) t := fun a b => by fun_prop
  have hcongr := fun {b : Bool} (hf : Flips (fun u => (q p d (c.rmax * c.rmax) u < 0 ∧ ¬ q p d (c.rmin * c.rmin) u < 0) ∧
      (lowSide c p + u * Vec3.dot c.low d < 0 ∧ highSide c p + u * Vec3.dot c.high d < 0)) t b) =>
    hf.congr (Eventually.of_forall fun u => (solid_iff c hv p d u).symm)
  unfold Crossing at hm
  rw [← ht] at hm ⊢
  simp only [lowSide_line, highSide_line] at hm
  have planes : (lowSide c p + t * Vec3.dot c.low d < 0 ∧ highSide c p + t * Vec3.dot c.high d < 0) →
      ∀ᶠ u in 𝓝 t, lowSide c p + u * Vec3.dot c.low d < 0 ∧ highSide c p + u * Vec3.dot c.high d < 0 := fun h =>
    (eventually_neg (zc _ _) h.1).and (eventually_neg (zc _ _) h.2)
  have hring : (q p d (c.rmax * c.rmax) t < 0 ∧ (0 < c.rmin → 0 < q p d (c.rmin * c.rmin) t)) →
      ∀ᶠ u in 𝓝 t, q p d (c.rmax * c.rmax) u < 0 ∧ ¬ q p d (c.rmin * c.rmin) u < 0 := by
    rintro ⟨a, b⟩
    refine (eventually_neg (q_cont _ _ _ _) a).and ?_
    rcases lt_or_eq_of_le hv.rmin with hi | hi
    · exact (eventually_pos (q_cont _ _ _ _) (b hi)).mono fun u hu => not_lt.2 hu.le
    · refine Eventually.of_forall fun u => not_lt.2 ?_
      rw [← hi, q_eq]; nlinarith [sq_nonneg (p.x + u * d.x), sq_nonneg (p.y + u * d.y)]
  apply hcongr
  rcases hm with ⟨_, m2, m3, m4, m5⟩ | ⟨hi, _, m2, m3, m4, m5⟩ | ⟨m1, m2, m3, m4⟩ | ⟨m1, m2, m3, m4⟩
  · rw [m5]
    refine ((q_flips p d _ t m3 m2).and ?_).and (planes m4)
    refine (eventually_pos (q_cont p d _ t) ?_).mono fun u hu => not_lt.2 hu.le
    rw [q_diff p d t _ (c.rmax * c.rmax), m3]; linarith
  · rw [m5]
    refine ((q_flips p d _ t m3 m2).not.and' (eventually_neg (q_cont p d _ t) ?_)).and (planes m4)
    rw [q_diff p d t _ (c.rmin * c.rmin), m3]; linarith
  · rw [m4]
    exact ((linear_flips _ _ t m3.1 m1).and (eventually_neg (zc _ _) m3.2)).and' (hring m2)
  · rw [m4]
    exact ((linear_flips _ _ t m3.2 m1).and' (eventually_neg (zc _ _) m3.1)).and' (hring m2)

/-- Where there is no crossing, the line neither enters nor leaves the solid. -/
theorem crossing_steady (c : CTube) (hv : Valid c) (p d : Vec3 ℝ) (hc : Clear c p d) (t : ℝ) (ht : ∀ h, Crossing c p d h → h.1 ≠ t) :
    Steady (fun u => Solid c (p + Vec3.smul u d)) t := by
  have hR : 0 < c.rmax := lt_of_le_of_lt hv.rmin hv.rmax
  have hrr : c.rmin * c.rmin < c.rmax * c.rmax := by nlinarith [hv.rmin, hv.rmax]
  have hpr := precision_pos
  have zc : ∀ a b : ℝ, ContinuousAt (fun u : ℝ => a + u * b) t := fun a b => by fun_prop
  refine Steady.of_congr ?_ (Eventually.of_forall fun u => (solid_iff c hv p d u).symm)
  -- beyond an end
  have out : 0 < lowSide c (p + Vec3.smul t d) ∨ 0 < highSide c (p + Vec3.smul t d) →
      Steady (fun u => (q p d (c.rmax * c.rmax) u < 0 ∧ ¬ q p d (c.rmin * c.rmin) u < 0) ∧
      (lowSide c p + u * Vec3.dot c.low d < 0 ∧ highSide c p + u * Vec3.dot c.high d < 0)) t := by
    rw [lowSide_line, highSide_line]
    intro h
    right
    rcases h with h | h
    · exact (eventually_pos (f := fun u => lowSide c p + u * Vec3.dot c.low d) (zc _ _) h).mono fun u hu hc => absurd hc.2.1 (not_lt.2 hu.le)
    · exact (eventually_pos (f := fun u => highSide c p + u * Vec3.dot c.high d) (zc _ _) h).mono fun u hu hc => absurd hc.2.2 (not_lt.2 hu.le)
  have settled : Settled c (p + Vec3.smul t d) → (lowSide c (p + Vec3.smul t d) < 0 ∧ highSide c (p + Vec3.smul t d) < 0) ∨
      (0 < lowSide c (p + Vec3.smul t d) ∨ 0 < highSide c (p + Vec3.smul t d)) := by
    rintro (h | h | h)
    · exact Or.inl h
    · exact Or.inr (Or.inl (by linarith))
    · exact Or.inr (Or.inr (by linarith))
  by_cases hA : q p d (c.rmax * c.rmax) t = 0
  · by_cases hh : det p d (c.rmax * c.rmax) ≤ 0 ∨ d.x = 0 ∧ d.y = 0
    · right
      exact Eventually.of_forall fun u hc => absurd hc.1.1 (not_lt.2 (q_nonneg p d _ t hA hh u))
    · rw [not_or] at hh
      rcases settled (hc.outer t ((rad_eq_iff p d t _ hR.le).2 hA)) with h | h
      · exact absurd rfl (ht (t, decide ((d.x * d.x + d.y * d.y) * t + (p.x * d.x + p.y * d.y) < 0)) (Or.inl ⟨hh.2, not_le.1 hh.1, hA, h, rfl⟩))
      · exact out h
  by_cases hI : 0 < c.rmin ∧ q p d (c.rmin * c.rmin) t = 0 ∧ ¬ (det p d (c.rmin * c.rmin) ≤ 0 ∨ d.x = 0 ∧ d.y = 0)
  · obtain ⟨hi, hI, hh⟩ := hI
    rw [not_or] at hh
    rcases settled (hc.inner hi t ((rad_eq_iff p d t _ hv.rmin).2 hI)) with h | h
    · exact absurd rfl (ht (t, !decide ((d.x * d.x + d.y * d.y) * t + (p.x * d.x + p.y * d.y) < 0)) (Or.inr (Or.inl ⟨hi, hh.2, not_le.1 hh.1, hI, h, rfl⟩)))
    · exact out h
  have hin : Steady (fun u => q p d (c.rmin * c.rmin) u < 0) t := by
    by_cases h0 : q p d (c.rmin * c.rmin) t = 0
    · right
      rcases lt_or_eq_of_le hv.rmin with hi | hi
      · have hh : det p d (c.rmin * c.rmin) ≤ 0 ∨ d.x = 0 ∧ d.y = 0 := by
          by_contra hh; exact hI ⟨hi, h0, hh⟩
        exact Eventually.of_forall fun u => not_lt.2 (q_nonneg p d _ t h0 hh u)
      · refine Eventually.of_forall fun u => not_lt.2 ?_
        rw [← hi, q_eq]; nlinarith [sq_nonneg (p.x + u * d.x), sq_nonneg (p.y + u * d.y)]
    · exact steady_of_ne (q_cont p d _ t) h0
  have hrg := (steady_of_ne (q_cont p d _ t) hA).and hin.not
  -- on an end, outside the ring
  have offRing : (lowSide c (p + Vec3.smul t d) = 0 ∨ highSide c (p + Vec3.smul t d) = 0) →
      ¬ (q p d (c.rmax * c.rmax) t < 0 ∧ (0 < c.rmin → 0 < q p d (c.rmin * c.rmin) t)) →
      Steady (fun u => (q p d (c.rmax * c.rmax) u < 0 ∧ ¬ q p d (c.rmin * c.rmin) u < 0) ∧
      (lowSide c p + u * Vec3.dot c.low d < 0 ∧ highSide c p + u * Vec3.dot c.high d < 0)) t := by
    intro he hn
    right
    rw [← ring_iff c hv p d hc t he, not_and_or] at hn
    rcases hn with hn | hn
    · have : q p d (c.rmin * c.rmin) t < 0 := by rw [q_diff p d t _ 0]; linarith [not_le.1 hn]
      exact (eventually_neg (q_cont p d _ t) this).mono fun u hu h => h.1.2 hu
    · have : 0 < q p d (c.rmax * c.rmax) t := by rw [q_diff p d t _ 0]; linarith [not_le.1 hn]
      exact (eventually_pos (q_cont p d _ t) this).mono fun u hu h => absurd h.1.1 (not_lt.2 hu.le)
  by_cases hL : lowSide c (p + Vec3.smul t d) = 0
  · by_cases hb : Vec3.dot c.low d = 0
    · right
      rw [lowSide_line, hb, mul_zero, add_zero] at hL
      exact Eventually.of_forall fun u h => by have := h.2.1; rw [hb, mul_zero, hL, add_zero] at this; exact lt_irrefl _ this
    · by_cases hq : q p d (c.rmax * c.rmax) t < 0 ∧ (0 < c.rmin → 0 < q p d (c.rmin * c.rmin) t)
      · have hh := (hv.uncrossed _ ((rad_lt_iff p d t _ hR).2 hq.1).le).resolve_left (by rw [hL]; exact lt_irrefl _)
        exact absurd rfl (ht (t, _) (Or.inr (Or.inr (Or.inl ⟨hb, hq, ⟨hL, hh⟩, rfl⟩))))
      · exact offRing (Or.inl hL) hq
  by_cases hH : highSide c (p + Vec3.smul t d) = 0
  · by_cases hb : Vec3.dot c.high d = 0
    · right
      rw [highSide_line, hb, mul_zero, add_zero] at hH
      exact Eventually.of_forall fun u h => by have := h.2.2; rw [hb, mul_zero, hH, add_zero] at this; exact lt_irrefl _ this
    · by_cases hq : q p d (c.rmax * c.rmax) t < 0 ∧ (0 < c.rmin → 0 < q p d (c.rmin * c.rmin) t)
      · have hh := (hv.uncrossed _ ((rad_lt_iff p d t _ hR).2 hq.1).le).resolve_right (by rw [hH]; exact lt_irrefl _)
        exact absurd rfl (ht (t, _) (Or.inr (Or.inr (Or.inr ⟨hb, hq, ⟨hh, hH⟩, rfl⟩))))
      · exact offRing (Or.inr hH) hq
  rw [lowSide_line] at hL
  rw [highSide_line] at hH
  exact hrg.and ((steady_of_ne (zc _ _) hL).and (steady_of_ne (zc _ _) hH))

theorem testBarrel_nodup (c : CTube) (p d : Vec3 ℝ) (r2 : ℝ) (invert : Bool) : ((testBarrel c p d r2 invert).map Prod.fst).Nodup := by
  unfold testBarrel
  simp only [det_shift]
  split
  · simp
  · next h0 =>
    split
    · simp
    · next hd =>
      have hA := xy_pos h0
      have hs := Real.sqrt_pos.2 (not_le.1 hd)
      refine (filterMap_sublist _ ?_ _).nodup ?_
      · intro t b hb
        split at hb
        · simp only [Option.some.injEq] at hb; rw [← hb]
        · exact absurd hb (by simp)
      · simp only [List.nodup_cons, List.mem_singleton, List.not_mem_nil, not_false_eq_true, List.nodup_nil, and_true]
        intro e
        have e' := mul_right_cancel₀ (one_div_pos.2 hA).ne' (add_right_cancel e)
        linarith

theorem testCap_nodup (c : CTube) (p d : Vec3 ℝ) (cz : ℝ) (n : Vec3 ℝ) : ((testCap c p d cz n).map Prod.fst).Nodup := by
  unfold testCap
  simp only
  split
  · simp
  · split <;> simp

/-- No distance is reported twice. -/
theorem surface_nodup (c : CTube) (hv : Valid c) (p d : Vec3 ℝ) (hc : Clear c p d) : ((surfaceHits c p d).map Prod.fst).Nodup := by
  have hR : 0 < c.rmax := lt_of_le_of_lt hv.rmin hv.rmax
  have hrr : c.rmin * c.rmin < c.rmax * c.rmax := by nlinarith [hv.rmin, hv.rmax]
  have o1 : ∀ x ∈ testBarrel c p d (c.rmax * c.rmax) false, q p d (c.rmax * c.rmax) x.1 = 0 ∧
      lowSide c (p + Vec3.smul x.1 d) < 0 ∧ highSide c (p + Vec3.smul x.1 d) < 0 := by
    intro x hx
    obtain ⟨_, _, m3, m4, _⟩ := (mem_testBarrel _ _ _ _ _ _).1 hx
    exact ⟨m3, (settled_iff (hc.outer x.1 ((rad_eq_iff p d _ _ hR.le).2 m3))).1 m4⟩
  have o2 : ∀ x ∈ (if c.rmin > 0 then testBarrel c p d (c.rmin * c.rmin) true else []), q p d (c.rmin * c.rmin) x.1 = 0 ∧
      lowSide c (p + Vec3.smul x.1 d) < 0 ∧ highSide c (p + Vec3.smul x.1 d) < 0 := by
    intro x hx
    split at hx
    · next hi =>
      obtain ⟨_, _, m3, m4, _⟩ := (mem_testBarrel _ _ _ _ _ _).1 hx
      exact ⟨m3, (settled_iff (hc.inner hi x.1 ((rad_eq_iff p d _ _ hv.rmin).2 m3))).1 m4⟩
    · simp at hx
  have o3 : ∀ x ∈ testCap c p d (-c.dz) c.low, lowSide c (p + Vec3.smul x.1 d) = 0 ∧ highSide c (p + Vec3.smul x.1 d) < 0 := by
    intro x hx
    obtain ⟨_, m2, m3, _⟩ := (mem_testCap _ _ _ _ _ _).1 hx
    have e : lowSide c (p + Vec3.smul x.1 d) = 0 := by rw [lowSide_line]; exact m2
    have hr := (ring_iff c hv p d hc x.1 (Or.inl e)).1 m3
    exact ⟨e, (hv.uncrossed _ ((rad_lt_iff p d _ _ hR).2 hr.1).le).resolve_left (by rw [e]; exact lt_irrefl _)⟩
  have o4 : ∀ x ∈ testCap c p d c.dz c.high, highSide c (p + Vec3.smul x.1 d) = 0 := by
    intro x hx
    obtain ⟨_, m2, m3, _⟩ := (mem_testCap _ _ _ _ _ _).1 hx
    rw [highSide_line]; exact m2
  unfold surfaceHits
  simp only [List.map_append]
  refine List.nodup_append.2 ⟨List.nodup_append.2 ⟨List.nodup_append.2 ⟨testBarrel_nodup _ _ _ _ _, ?_, ?_⟩, testCap_nodup _ _ _ _ _, ?_⟩,
    testCap_nodup _ _ _ _ _, ?_⟩
  · split
    · exact testBarrel_nodup _ _ _ _ _
    · simp
  · intro a ha b hb e
    obtain ⟨x, hx, rfl⟩ := List.mem_map.1 ha
    obtain ⟨y, hy, rfl⟩ := List.mem_map.1 hb
    have h1 := (o1 x hx).1
    have h2 := (o2 y hy).1
    rw [← e, q_diff p d _ _ (c.rmax * c.rmax), h1] at h2
    linarith
  · intro a ha b hb e
    obtain ⟨y, hy, rfl⟩ := List.mem_map.1 hb
    have h2 := (o3 y hy).1
    rw [← e] at h2
    rcases List.mem_append.1 ha with ha | ha
    · obtain ⟨x, hx, rfl⟩ := List.mem_map.1 ha
      have h1 := (o1 x hx).2.1
      rw [h2] at h1; exact lt_irrefl _ h1
    · obtain ⟨x, hx, rfl⟩ := List.mem_map.1 ha
      have h1 := (o2 x hx).2.1
      rw [h2] at h1; exact lt_irrefl _ h1
  · intro a ha b hb e
    obtain ⟨y, hy, rfl⟩ := List.mem_map.1 hb
    have h2 := o4 y hy
    rw [← e] at h2
    rcases List.mem_append.1 ha with ha | ha
    · rcases List.mem_append.1 ha with ha | ha
      · obtain ⟨x, hx, rfl⟩ := List.mem_map.1 ha
        have h1 := (o1 x hx).2.2
        rw [h2] at h1; exact lt_irrefl _ h1
      · obtain ⟨x, hx, rfl⟩ := List.mem_map.1 ha
        have h1 := (o2 x hx).2.2
        rw [h2] at h1; exact lt_irrefl _ h1
    · obtain ⟨x, hx, rfl⟩ := List.mem_map.1 ha
      have h1 := (o3 x hx).2
      rw [h2] at h1; exact lt_irrefl _ h1

theorem line_bounded (c : CTube) (hl : c.low.z < 0) (hh : 0 < c.high.z) (p d : Vec3 ℝ) (hd : d ≠ 0) :
    ∃ M, ∀ u, Solid c (p + Vec3.smul u d) → |u| ≤ M := by
  have hx : ∀ v, Solid c v → |v.x| ≤ c.rmax := by
    intro v hv
    have := hv.1.2
    have h2 : rad v ^ 2 = v.x ^ 2 + v.y ^ 2 := Real.sq_sqrt (by positivity)
    have h3 := rad_nonneg v
    exact abs_le_of_sq_le_sq (by nlinarith [sq_nonneg v.y]) (by linarith)
  have hy : ∀ v, Solid c v → |v.y| ≤ c.rmax := by
    intro v hv
    have := hv.1.2
    have h2 : rad v ^ 2 = v.x ^ 2 + v.y ^ 2 := Real.sq_sqrt (by positivity)
    have h3 := rad_nonneg v
    exact abs_le_of_sq_le_sq (by nlinarith [sq_nonneg v.x]) (by linarith)
  by_cases h1 : d.x = 0
  · by_cases h2 : d.y = 0
    · have h3 : d.z ≠ 0 := by
        intro h3; apply hd; obtain ⟨x, y, z⟩ := d; simp only at h1 h2 h3; rw [h1, h2, h3]; rfl
      -- along the axis the two planes are crossed in opposite directions
      obtain ⟨a, ha⟩ : ∃ a, a = lowSide c p := ⟨_, rfl⟩
      obtain ⟨b, hb⟩ : ∃ b, b = highSide c p := ⟨_, rfl⟩
      have el : Vec3.dot c.low d = c.low.z * d.z := by unfold Vec3.dot; rw [h1, h2]; ring
      have eh : Vec3.dot c.high d = c.high.z * d.z := by unfold Vec3.dot; rw [h1, h2]; ring
      refine ⟨|a / (c.low.z * d.z)| + |b / (c.high.z * d.z)|, fun u hu => ?_⟩
      have hu := hu.2
      rw [lowSide_line, highSide_line, el, eh, ← ha, ← hb] at hu
      have i1 : u * d.z + a / c.low.z > 0 := by
        have : a + u * (c.low.z * d.z) = c.low.z * (u * d.z + a / c.low.z) := by
          have := hl.ne; field_simp; ring
        by_contra hc
        rw [this] at hu
        nlinarith [hu.1, mul_nonneg_of_nonpos_of_nonpos hl.le (not_lt.1 hc)]
      have i2 : u * d.z + b / c.high.z < 0 := by
        have : b + u * (c.high.z * d.z) = c.high.z * (u * d.z + b / c.high.z) := by
          have := hh.ne'; field_simp; ring
        by_contra hc
        rw [this] at hu
        nlinarith [hu.2, mul_nonneg hh.le (not_lt.1 hc)]
      have j1 : |a / (c.low.z * d.z)| = |a / c.low.z| / |d.z| := by rw [← abs_div, div_div]
      have j2 : |b / (c.high.z * d.z)| = |b / c.high.z| / |d.z| := by rw [← abs_div, div_div]
      have hdz := abs_pos.2 h3
      rw [j1, j2, ← add_div, le_div_iff₀ hdz, ← abs_mul]
      rw [abs_le]
      constructor
      · linarith [le_abs_self (a / c.low.z), abs_nonneg (b / c.high.z)]
      · linarith [neg_abs_le (b / c.high.z), abs_nonneg (a / c.low.z)]
    · refine ⟨_, fun u hu => bounded_coordinate p.y d.y c.rmax u h2 ?_⟩
      have := hy _ hu
      simpa only [Vec3.add_y, Vec3.smul_y] using this
  · refine ⟨_, fun u hu => bounded_coordinate p.x d.x c.rmax u h1 ?_⟩
    have := hx _ hu
    simpa only [Vec3.add_x, Vec3.smul_x] using this

/-- The normals point away from the solid along the axis. -/
structure Outward (c : CTube) : Prop where
  low : c.low.z < 0
  high : 0 < c.high.z

/-- C110: without a cut the crossings reported for a line clear of the rims are exactly those of the solid: in order,
alternating, right at every distance more than 1e-9 from a reported one, and each at a surface point of the line. -/
theorem C110_describes (srt : List SHit → List SHit) (hsrt : IsHitSort srt) (c : CTube) (hcut : c.hasPhiCut = false) (hv : Valid c)
    (ho : Outward c) (p d : Vec3 ℝ) (hc : Clear c p d) :
    Describes precision (fun t => Solid c (p + Vec3.smul t d)) (compute srt c p d) ∧
      ∀ h ∈ compute srt c p d, ∃ t : ℝ, OnSurface c (p + Vec3.smul t d) ∧ h.position = p + Vec3.smul t d ∧
        h.distance = if 0 < t ∧ t < 1 / 1000000000 then 0 else t := by
  obtain ⟨M, hM⟩ := line_bounded c ho.low ho.high p d hc.direction
  have hm := mem_surface c hv p d hc
  obtain ⟨hp, hs⟩ := hsrt ((surfaceHits c p d).map fun h => (⟨surfaceHit p d h, 0⟩ : SHit))
  have e : compute srt c p d = (srt ((surfaceHits c p d).map fun h => (⟨surfaceHit p d h, 0⟩ : SHit))).map SHit.isect := by
    unfold compute; rw [hcut]; simp
  obtain ⟨l, hl⟩ : ∃ l, l = (srt ((surfaceHits c p d).map fun h => (⟨surfaceHit p d h, 0⟩ : SHit))).map SHit.isect := ⟨_, rfl⟩
  rw [e, ← hl]
  have hperm : l.Perm ((surfaceHits c p d).map (surfaceHit p d)) := by
    have := hp.map SHit.isect
    rw [List.map_map] at this
    rw [hl]; exact this
  have hsort : l.Pairwise (fun a b => a.distance ≤ b.distance) := by rw [hl, List.pairwise_map]; exact hs
  obtain ⟨E, e1, e2, e3, e4⟩ := exact_of_local (surfaceHits c p d) (surfaceHit p d) (fun _ => rfl)
    (snap_pairwise _ (fun t => OnSurface c (p + Vec3.smul t d)) (surface_nodup c hv p d hc)
      (fun x hx => crossing_onSurface c hv p d x ((hm x).1 hx)) hc.apart)
    (fun x hx => crossing_flips c hv p d x ((hm x).1 hx))
    (fun t ht => crossing_steady c hv p d hc t fun x hx => ht x ((hm x).2 hx)) M hM l hperm hsort
  refine ⟨?_, fun h hh => ?_⟩
  · rw [e3]; exact e2.describes_with _ (fun _ => rfl) (fun _ => rfl) e4
  · obtain ⟨x, hx, rfl⟩ := List.mem_map.1 (hperm.mem_iff.1 hh)
    refine ⟨x.1, crossing_onSurface c hv p d x ((hm x).1 hx), rfl, ?_⟩
    show snap x.1 = _
    unfold snap precision
    by_cases hx : 0 < x.1 ∧ x.1 < 1 / 1000000000
    · rw [if_pos hx]
    · rw [if_neg hx]

open Classical in
/-- C110: with a cut the crossings are in order and alternate, and away from the surface and from the two cutting planes they
tell exactly which points of the line are in the solid and in the wedge. -/
theorem C110_cut (srt : List SHit → List SHit) (hsrt : IsHitSort srt) (c : CTube) (hcut : c.hasPhiCut = true) (hv : Valid c)
    (ho : Outward c) (hd0 : 0 < c.deltaPhi) (hd1 : c.deltaPhi < 2 * π) (p d : Vec3 ℝ) (hc : Clear c p d)
    (hw : Phi.Clean c.startPhi c.deltaPhi p d ∨ Phi.Vertical c.startPhi c.deltaPhi p d) (hsp : Phi.Spread c.startPhi c.deltaPhi p d) :
    (compute srt c p d).Pairwise (fun a b => a.distance ≤ b.distance) ∧ Alternates false (compute srt c p d) ∧
    ∀ t : ℝ, (∀ u : ℝ, OnSurface c (p + Vec3.smul u d) ∨ Phi.planeDist c.startPhi (p + Vec3.smul u d) = 0 ∨
        Phi.planeDist (c.startPhi + c.deltaPhi) (p + Vec3.smul u d) = 0 → 2 * precision ≤ |u - t|) →
      (stateFrom false (compute srt c p d) t = true ↔
        Solid c (p + Vec3.smul t d) ∧ Phi.InWedge c.startPhi c.deltaPhi (p + Vec3.smul t d)) := by
  obtain ⟨M, hM⟩ := line_bounded c ho.low ho.high p d hc.direction
  have hm := mem_surface c hv p d hc
  obtain ⟨surf, hsurf⟩ : ∃ surf, surf = (surfaceHits c p d).map fun h => (⟨surfaceHit p d h, 0⟩ : SHit) := ⟨_, rfl⟩
  obtain ⟨wed, hwed⟩ : ∃ wed, wed = (Phi.wedgeHits snap c.startPhi c.deltaPhi p d).map fun h => (⟨hitAt p d h.1 h.2, 1⟩ : SHit) := ⟨_, rfl⟩
  -- sorting the surface hits beforehand is a way of sorting all of them
  obtain ⟨srt', hsrt'⟩ : ∃ s : List SHit → List SHit, s = fun l => if l = surf ++ wed then srt (srt surf ++ wed) else srt l := ⟨_, rfl⟩
  have his : IsHitSort srt' := by
    intro l
    rw [hsrt']
    simp only
    split
    · next h =>
      refine ⟨?_, (hsrt _).2⟩
      rw [h]
      exact (hsrt _).1.trans ((hsrt surf).1.append_right wed)
    · exact hsrt l
  have key := describes_cut srt' his (surfaceHits c p d) (surfaceHit p d) (fun _ => rfl) (fun _ => rfl)
    (snap_pairwise _ (fun t => OnSurface c (p + Vec3.smul t d)) (surface_nodup c hv p d hc)
      (fun x hx => crossing_onSurface c hv p d x ((hm x).1 hx)) hc.apart)
    (fun x hx => crossing_flips c hv p d x ((hm x).1 hx))
    (fun t ht => crossing_steady c hv p d hc t fun x hx => ht x ((hm x).2 hx)) M hM c.startPhi c.deltaPhi hd0 hd1 p d hw hsp
    (fun k => if k = 0 then false else Phi.initialPhiState p.x p.y d.x d.y c.startPhi c.deltaPhi) rfl rfl (compute srt c p d) (by
      unfold compute
      simp only [hcut, Bool.not_true, Bool.false_eq_true, if_false]
      rw [← hsurf, ← hwed, hsrt']
      simp only [if_true])
  refine ⟨key.1, key.2.1, fun t ht => key.2.2 t fun u hu => ht u ?_⟩
  rcases hu with ⟨x, hx, rfl⟩ | hu
  · exact Or.inl (crossing_onSurface c hv p d x ((hm x).1 hx))
  · exact Or.inr hu

theorem barrel_length (c : CTube) (p d : Vec3 ℝ) (r2 : ℝ) (i : Bool) : (testBarrel c p d r2 i).length ≤ 2 := by
  unfold testBarrel
  simp only
  split
  · simp
  · split
    · simp
    · exact le_trans (List.length_filterMap_le _ _) (by simp)

theorem cap_length (c : CTube) (p d : Vec3 ℝ) (z : ℝ) (n : Vec3 ℝ) : (testCap c p d z n).length ≤ 1 := by
  unfold testCap
  simp only
  split
  · simp
  · split <;> simp

/-- C110: at most six hits are stored in the array of eight and at most eight in the array of ten. -/
theorem C110_capacity (c : CTube) (p d : Vec3 ℝ) : (surfaceHits c p d).length ≤ 6 ∧
    (surfaceHits c p d).length + (Phi.wedgeHits snap c.startPhi c.deltaPhi p d).length ≤ 8 := by
  have hw := Phi.wedgeHits_length snap c.startPhi c.deltaPhi p d
  have h : (surfaceHits c p d).length ≤ 6 := by
    unfold surfaceHits
    simp only [List.length_append]
    have h1 := barrel_length c p d (c.rmax * c.rmax) false
    have h2 : (if c.rmin > 0 then testBarrel c p d (c.rmin * c.rmin) true else []).length ≤ 2 := by
      split
      · exact barrel_length _ _ _ _ _
      · simp
    have h3 := cap_length c p d (-c.dz) c.low
    have h4 := cap_length c p d c.dz c.high
    omega
  exact ⟨h, by omega⟩

/-- A normal given to the constructor comes out with length one and the wanted sign along the axis; a normal without
component along the axis is replaced by the axis. -/
theorem prepare_spec (n : Vec3 ℝ) (b : Bool) : Vec3.dot (prepareNormal n b) (prepareNormal n b) = 1 ∧
    (if b then 0 < (prepareNormal n b).z else (prepareNormal n b).z < 0) ∧
    (n.z = 0 → prepareNormal n b = ⟨0, 0, if b then 1 else -1⟩) ∧
    (n.z ≠ 0 → ∃ k : ℝ, k ≠ 0 ∧ prepareNormal n b = Vec3.smul k n) := by
  have hdef : (if b then (⟨0, 0, 1⟩ : Vec3 ℝ) else ⟨0, 0, -1⟩) = ⟨0, 0, if b then 1 else -1⟩ := by cases b <;> rfl
  have haxis : ∀ w : Vec3 ℝ, w = ⟨0, 0, if b then 1 else -1⟩ → Vec3.dot w w = 1 ∧ (if b then 0 < w.z else w.z < 0) := by
    rintro w rfl; cases b <;> simp [Vec3.dot]
  by_cases h0 : Vec3.norm n ≤ 0
  · have e : prepareNormal n b = ⟨0, 0, if b then 1 else -1⟩ := by unfold prepareNormal; simp only; rw [if_pos h0, hdef]
    refine ⟨(haxis _ e).1, (haxis _ e).2, fun _ => e, fun hz => ?_⟩
    exfalso
    have : 0 < Vec3.dot n n := by
      unfold Vec3.dot
      have := mul_self_pos.2 hz
      linarith [mul_self_nonneg n.x, mul_self_nonneg n.y]
    have := Real.sqrt_pos.2 this
    unfold Vec3.norm at h0; linarith
  · have hm := not_le.1 h0
    obtain ⟨m, hm'⟩ : ∃ m, m = Vec3.norm n := ⟨_, rfl⟩
    have hmm : m * m = Vec3.dot n n := by
      rw [hm']; unfold Vec3.norm
      exact Real.mul_self_sqrt (by unfold Vec3.dot; linarith [mul_self_nonneg n.x, mul_self_nonneg n.y, mul_self_nonneg n.z])
    rw [← hm'] at hm
    by_cases hz : n.z = 0
    · have e : prepareNormal n b = ⟨0, 0, if b then 1 else -1⟩ := by
        unfold prepareNormal
        simp only
        rw [if_neg h0, hz]
        simp only [zero_div, lt_irrefl, and_false, if_false, if_true, hdef]
      exact ⟨(haxis _ e).1, (haxis _ e).2, fun _ => e, fun h => absurd hz h⟩
    · have hdz : n.z / m ≠ 0 := div_ne_zero hz hm.ne'
      have hpos : ∀ s : ℝ, s * s = 1 → Vec3.dot (Vec3.smul (s / m) n) (Vec3.smul (s / m) n) = 1 := by
        intro s hs
        have : Vec3.dot (Vec3.smul (s / m) n) (Vec3.smul (s / m) n) = s * s * (Vec3.dot n n / (m * m)) := by
          unfold Vec3.dot Vec3.smul; simp only; field_simp
        rw [this, hs, ← hmm, div_self (mul_pos hm hm).ne', one_mul]
      have key : ∃ s : ℝ, s * s = 1 ∧ prepareNormal n b = Vec3.smul (s / m) n ∧ (if b then 0 < s * (n.z / m) else s * (n.z / m) < 0) := by
        have hsm : ∀ s : ℝ, Vec3.smul (s / m) n = ⟨s * (n.x / m), s * (n.y / m), s * (n.z / m)⟩ := by
          intro s; unfold Vec3.smul; ext <;> simp only <;> ring
        have hneg : -(⟨n.x / m, n.y / m, n.z / m⟩ : Vec3 ℝ) = ⟨-1 * (n.x / m), -1 * (n.y / m), -1 * (n.z / m)⟩ := by
          ext <;> simp
        have hid : (⟨n.x / m, n.y / m, n.z / m⟩ : Vec3 ℝ) = ⟨1 * (n.x / m), 1 * (n.y / m), 1 * (n.z / m)⟩ := by
          ext <;> simp
        unfold prepareNormal
        simp only
        rw [if_neg h0, ← hm']
        cases b
        · rcases lt_or_gt_of_ne hdz with h | h
          · refine ⟨1, by norm_num, ?_, by simpa using h⟩
            rw [hsm, ← hid]
            simp [hdz, not_lt.2 h.le]
          · refine ⟨-1, by norm_num, ?_, by simpa using h⟩
            rw [hsm, ← hneg]
            simp [hdz, h]
        · rcases lt_or_gt_of_ne hdz with h | h
          · refine ⟨-1, by norm_num, ?_, by simpa using h⟩
            rw [hsm, ← hneg]
            simp [hdz, h]
          · refine ⟨1, by norm_num, ?_, by simpa using h⟩
            rw [hsm, ← hid]
            simp [hdz, not_lt.2 h.le]
      obtain ⟨s, hs, e, hsgn⟩ := key
      have hs0 : s ≠ 0 := by rintro rfl; norm_num at hs
      refine ⟨by rw [e]; exact hpos s hs, ?_, fun h => absurd h hz, fun _ => ⟨s / m, div_ne_zero hs0 hm.ne', e⟩⟩
      have : (prepareNormal n b).z = s * (n.z / m) := by rw [e]; simp only [Vec3.smul_z]; ring
      rw [this]; exact hsgn

/-- C110: the constructors refuse negative radii, an outer radius or a height that is not positive and an extent that is not
positive, order the radii, limit the extent to a full turn, and store normals of length one that point outward. -/
theorem C110_constructors (rmin rmax dz : ℝ) (low high : Vec3 ℝ) (start delta : ℝ) :
    (make rmin rmax dz low high = none ↔ rmin < 0 ∨ rmax < 0 ∨ max rmin rmax ≤ 0 ∨ dz ≤ 0) ∧
    (makePhi rmin rmax dz low high start delta = none ↔ rmin < 0 ∨ rmax < 0 ∨ max rmin rmax ≤ 0 ∨ dz ≤ 0 ∨ delta ≤ 0) ∧
    (∀ c, make rmin rmax dz low high = some c ∨ makePhi rmin rmax dz low high start delta = some c →
      c.rmin = min rmin rmax ∧ c.rmax = max rmin rmax ∧ 0 ≤ c.rmin ∧ 0 < c.rmax ∧ c.dz = dz ∧ 0 < dz ∧ Outward c ∧
      Vec3.dot c.low c.low = 1 ∧ Vec3.dot c.high c.high = 1 ∧
      (low.z = 0 → c.low = ⟨0, 0, -1⟩) ∧ (high.z = 0 → c.high = ⟨0, 0, 1⟩) ∧
      (low.z ≠ 0 → ∃ k : ℝ, k ≠ 0 ∧ c.low = Vec3.smul k low) ∧ (high.z ≠ 0 → ∃ k : ℝ, k ≠ 0 ∧ c.high = Vec3.smul k high) ∧
      0 < c.deltaPhi ∧ c.deltaPhi ≤ 2 * π) ∧
    (∀ c, make rmin rmax dz low high = some c → c.hasPhiCut = false) ∧
    ∀ c, makePhi rmin rmax dz low high start delta = some c → c.startPhi = start ∧ c.deltaPhi = min delta (2 * π) ∧
      (c.hasPhiCut = true ↔ c.deltaPhi < 2 * π - 1 / 1000000000) := by
  have hpi := Real.two_pi_pos
  have o : (if rmin > rmax then (rmax, rmin) else (rmin, rmax)) = (min rmin rmax, max rmin rmax) := by
    split
    · next h => rw [min_eq_right h.le, max_eq_left h.le]
    · next h => rw [min_eq_left (not_lt.1 h), max_eq_right (not_lt.1 h)]
  have hd : (if delta > 2 * π then 2 * π else delta) = min delta (2 * π) := by
    split
    · next h => rw [min_eq_right (le_of_lt h)]
    · next h => rw [min_eq_left (not_lt.1 h)]
  obtain ⟨l1, l2, l3, l4⟩ := prepare_spec low false
  obtain ⟨u1, u2, u3, u4⟩ := prepare_spec high true
  simp only [Bool.false_eq_true, if_false, if_true] at l2 l3 u2 u3
  refine ⟨?_, ?_, ?_, ?_, ?_⟩
  · unfold make; simp only [o]
    split_ifs <;> simp_all
  · unfold makePhi; simp only [o]
    split_ifs <;> simp_all
  · rintro c (h | h)
    · unfold make at h; simp only [o] at h
      split_ifs at h with a1 a2 a3 a4
      simp only [Option.some.injEq] at h
      subst h
      exact ⟨rfl, rfl, le_min (not_lt.1 a1) (not_lt.1 a2), not_le.1 a3, rfl, not_le.1 a4, ⟨l2, u2⟩, l1, u1, l3, u3, l4, u4, hpi, le_rfl⟩
    · unfold makePhi at h; simp only [o, hd] at h
      split_ifs at h with a1 a2 a3 a4 a5
      simp only [Option.some.injEq] at h
      subst h
      exact ⟨rfl, rfl, le_min (not_lt.1 a1) (not_lt.1 a2), not_le.1 a3, rfl, not_le.1 a4, ⟨l2, u2⟩, l1, u1, l3, u3, l4, u4,
        lt_min (not_le.1 a5) hpi, min_le_right _ _⟩
  · intro c h
    unfold make at h; simp only [o] at h
    split_ifs at h
    simp only [Option.some.injEq] at h
    subst h; rfl
  · intro c h
    unfold makePhi at h; simp only [o, hd] at h
    split_ifs at h
    simp only [Option.some.injEq] at h
    subst h
    simp

/-! ### The bounding box -/

theorem rad_cauchy (a b : ℝ) (v : Vec3 ℝ) : |a * v.x + b * v.y| ≤ Real.sqrt (a * a + b * b) * rad v := by
  have h1 : rad v ^ 2 = v.x ^ 2 + v.y ^ 2 := Real.sq_sqrt (by positivity)
  have h2 := Real.sq_sqrt (add_nonneg (mul_self_nonneg a) (mul_self_nonneg b))
  apply abs_le_of_sq_le_sq
  · rw [mul_pow, h1, h2]; nlinarith [sq_nonneg (a * v.y - b * v.x)]
  · exact mul_nonneg (Real.sqrt_nonneg _) (rad_nonneg v)

theorem low_bound (c : CTube) (ho : Outward c) (v : Vec3 ℝ) (h : lowSide c v ≤ 0) (hr : rad v ≤ c.rmax) :
    -c.dz - c.rmax * (Real.sqrt (c.low.x * c.low.x + c.low.y * c.low.y) / |c.low.z|) ≤ v.z := by
  have hz : 0 < -c.low.z := by linarith [ho.low]
  have h1 := (abs_le.1 (rad_cauchy c.low.x c.low.y v)).1
  obtain ⟨s, hs⟩ : ∃ s, s = Real.sqrt (c.low.x * c.low.x + c.low.y * c.low.y) := ⟨_, rfl⟩
  rw [← hs] at h1 ⊢
  have hs0 : 0 ≤ s := by rw [hs]; exact Real.sqrt_nonneg _
  rw [abs_of_neg ho.low]
  have e : lowSide c v = c.low.x * v.x + c.low.y * v.y + c.low.z * (v.z + c.dz) := by
    unfold lowSide Vec3.dot; simp only [Vec3.sub_x, Vec3.sub_y, Vec3.sub_z]; ring
  rw [e] at h
  have h2 : s * rad v ≤ s * c.rmax := mul_le_mul_of_nonneg_left hr hs0
  have h3 : -(s * c.rmax) / (-c.low.z) ≤ v.z + c.dz := by
    rw [div_le_iff₀ hz]; linarith
  have : c.rmax * (s / -c.low.z) = -(-(s * c.rmax) / (-c.low.z)) := by ring
  rw [this]; linarith

theorem high_bound (c : CTube) (ho : Outward c) (v : Vec3 ℝ) (h : highSide c v ≤ 0) (hr : rad v ≤ c.rmax) :
    v.z ≤ c.dz + c.rmax * (Real.sqrt (c.high.x * c.high.x + c.high.y * c.high.y) / |c.high.z|) := by
  have hz := ho.high
  have h1 := (abs_le.1 (rad_cauchy c.high.x c.high.y v)).1
  obtain ⟨s, hs⟩ : ∃ s, s = Real.sqrt (c.high.x * c.high.x + c.high.y * c.high.y) := ⟨_, rfl⟩
  rw [← hs] at h1 ⊢
  have hs0 : 0 ≤ s := by rw [hs]; exact Real.sqrt_nonneg _
  rw [abs_of_pos ho.high]
  have e : highSide c v = c.high.x * v.x + c.high.y * v.y + c.high.z * (v.z - c.dz) := by
    unfold highSide Vec3.dot; simp only [Vec3.sub_x, Vec3.sub_y, Vec3.sub_z]; ring
  rw [e] at h
  have h2 : s * rad v ≤ s * c.rmax := mul_le_mul_of_nonneg_left hr hs0
  have h3 : v.z - c.dz ≤ s * c.rmax / c.high.z := by
    rw [le_div_iff₀ hz]; linarith
  have : c.rmax * (s / c.high.z) = s * c.rmax / c.high.z := by ring
  rw [this]; linarith

/-- Over a range of angles the component of a point along a direction `a` is largest at an end of the range, unless the range
contains the direction. -/
theorem support (sp delta phi a r rmax B : ℝ) (h1 : sp ≤ phi) (h2 : phi ≤ sp + delta) (hs0 : 0 ≤ sp)
    (ha1 : a < 2 * π) (hr0 : 0 ≤ r) (hr : r ≤ rmax) (hB : 0 ≤ B) (b1 : cos (sp - a) * rmax ≤ B)
    (b2 : cos (sp + delta - a) * rmax ≤ B)
    (b3 : (if a < sp then a + 2 * π else a) ≤ sp + delta + 1 / 1000000000 → rmax ≤ B) : r * cos (phi - a) ≤ B := by
  have hpi := Real.pi_pos
  by_cases hc : cos (phi - a) ≤ 0
  · nlinarith [mul_nonneg hr0 (neg_nonneg.2 hc)]
  have hc := not_le.1 hc
  have hle : r * cos (phi - a) ≤ cos (phi - a) * rmax := by nlinarith
  obtain ⟨cn, hcn⟩ : ∃ cn, cn = if a < sp then a + 2 * π else a := ⟨_, rfl⟩
  have hcos : ∀ x, cos (x - a) = cos (x - cn) := by
    intro x
    rw [hcn]
    split
    · rw [show x - (a + 2 * π) = x - a - 2 * π by ring, cos_sub_two_pi]
    · rfl
  rw [← hcn] at b3
  by_cases hin : cn ≤ sp + delta + 1 / 1000000000
  · have := b3 hin
    have := cos_le_one (phi - a)
    nlinarith
  · have hin := not_le.1 hin
    have hlow : cn - 2 * π ≤ sp := by
      rw [hcn]; split
      · linarith
      · next h => linarith
    rw [hcos] at hle b1 b2 ⊢
    have hR : 0 ≤ rmax := le_trans hr0 hr
    by_cases hh : -π ≤ phi - cn
    · -- towards the end of the range
      have : cos (phi - cn) ≤ cos (sp + delta - cn) := by
        rw [← cos_neg (phi - cn), ← cos_neg (sp + delta - cn)]
        exact cos_le_cos_of_nonneg_of_le_pi (by linarith) (by linarith) (by linarith)
      nlinarith
    · have hh := not_le.1 hh
      have : cos (phi - cn) ≤ cos (sp - cn) := by
        rw [← cos_add_two_pi (phi - cn), ← cos_add_two_pi (sp - cn)]
        exact cos_le_cos_of_nonneg_of_le_pi (by linarith) (by linarith) (by linarith)
      nlinarith

/-- What the extents cover: the origin side of every bound, and every direction in the list. -/
theorem grow_spec (r : ℝ) (e : Extent) (a : ℝ) : (e.grow r a).xmin ≤ e.xmin ∧ e.xmax ≤ (e.grow r a).xmax ∧ (e.grow r a).ymin ≤ e.ymin ∧
    e.ymax ≤ (e.grow r a).ymax ∧ (e.grow r a).xmin ≤ cos a * r ∧ cos a * r ≤ (e.grow r a).xmax ∧ (e.grow r a).ymin ≤ sin a * r ∧
    sin a * r ≤ (e.grow r a).ymax := by
  unfold Extent.grow
  simp only
  refine ⟨?_, ?_, ?_, ?_, ?_, ?_, ?_, ?_⟩ <;> split <;> linarith

/-- The sector covers every point within the radius whose azimuth is in the range. -/
theorem sector_covers (start delta r : ℝ) (v : Vec3 ℝ) (hr : rad v ≤ r)
    (hw : Phi.InWedge start delta v) : ((sector start delta r).xmin ≤ v.x ∧ v.x ≤ (sector start delta r).xmax) ∧
      ((sector start delta r).ymin ≤ v.y ∧ v.y ≤ (sector start delta r).ymax) := by
  have hpi := Real.pi_pos
  obtain ⟨hs0, hs1, m, hm⟩ := Phi.C46_normalize start
  obtain ⟨k, k1, k2⟩ := hw
  obtain ⟨sp, hsp⟩ : ∃ sp, sp = Phi.normalizePhi start := ⟨_, rfl⟩
  rw [← hsp] at hs0 hs1 hm
  obtain ⟨phi, hphi⟩ : ∃ phi, phi = Phi.atan2 v.y v.x + (k + m : ℤ) * (2 * π) := ⟨_, rfl⟩
  have p1 : sp ≤ phi := by rw [hm, hphi]; push_cast; linarith
  have p2 : phi ≤ sp + delta := by rw [hm, hphi]; push_cast; linarith
  have hrad : Real.sqrt (v.x * v.x + v.y * v.y) = rad v := by unfold rad; congr 1; ring
  have hdir : ∀ a, v.x * cos a + v.y * sin a = rad v * cos (phi - a) := by
    intro a
    rw [Phi.along_polar, hrad, hphi]
    rw [show Phi.atan2 v.y v.x + (k + m : ℤ) * (2 * π) - a = Phi.atan2 v.y v.x - a + (k + m : ℤ) * (2 * π) by ring, cos_add_int_mul_two_pi]
  -- the extents after the edges and after each cardinal direction
  obtain ⟨e1, he1⟩ : ∃ e : Extent, e = Extent.grow r ⟨0, 0, 0, 0⟩ sp := ⟨_, rfl⟩
  obtain ⟨e2, he2⟩ : ∃ e : Extent, e = Extent.grow r e1 (sp + delta) := ⟨_, rfl⟩
  obtain ⟨step, hstep⟩ : ∃ s : Extent → ℝ → Extent, s = fun e c =>
    if (if c < sp then c + 2 * π else c) ≤ sp + delta + 1 / 1000000000 then e.grow r c else e := ⟨_, rfl⟩
  have hsec : sector start delta r = step (step (step (step e2 0) (π / 2)) π) (3 * π / 2) := by
    unfold sector
    simp only [List.foldl_cons, List.foldl_nil]
    rw [← hsp, he2, he1, hstep]
  have g1 := grow_spec r ⟨0, 0, 0, 0⟩ sp
  have g2 := grow_spec r e1 (sp + delta)
  rw [← he1] at g1
  rw [← he2] at g2
  simp only at g1
  have gs : ∀ e c, (step e c).xmin ≤ e.xmin ∧ e.xmax ≤ (step e c).xmax ∧ (step e c).ymin ≤ e.ymin ∧ e.ymax ≤ (step e c).ymax ∧
      ((if c < sp then c + 2 * π else c) ≤ sp + delta + 1 / 1000000000 → (step e c).xmin ≤ cos c * r ∧ cos c * r ≤ (step e c).xmax ∧
        (step e c).ymin ≤ sin c * r ∧ sin c * r ≤ (step e c).ymax) := by
    intro e c
    rw [hstep]
    simp only
    by_cases h : (if c < sp then c + 2 * π else c) ≤ sp + delta + 1 / 1000000000
    · rw [if_pos h]
      obtain ⟨a1, a2, a3, a4, a5⟩ := grow_spec r e c
      exact ⟨a1, a2, a3, a4, fun _ => a5⟩
    · rw [if_neg h]
      exact ⟨le_rfl, le_rfl, le_rfl, le_rfl, fun hc => absurd hc h⟩
  have s0 := gs e2 0
  have s1 := gs (step e2 0) (π / 2)
  have s2 := gs (step (step e2 0) (π / 2)) π
  have s3 := gs (step (step (step e2 0) (π / 2)) π) (3 * π / 2)
  rw [← hsec] at s3
  obtain ⟨a1, a2, a3, a4, a5, a6, a7, a8⟩ := g1
  obtain ⟨b1, b2, b3, b4, b5, b6, b7, b8⟩ := g2
  obtain ⟨c1, c2, c3, c4, c5⟩ := s0
  obtain ⟨d1, d2, d3, d4, d5⟩ := s1
  obtain ⟨f1, f2, f3, f4, f5⟩ := s2
  obtain ⟨i1, i2, i3, i4, i5⟩ := s3
  have hc3 : cos (3 * π / 2) = 0 := by
    rw [show 3 * π / 2 = π / 2 + π by ring, cos_add_pi, cos_pi_div_two, neg_zero]
  have hs3 : sin (3 * π / 2) = -1 := by
    rw [show 3 * π / 2 = π / 2 + π by ring, sin_add_pi, sin_pi_div_two]
  have hcos3 : ∀ x, cos (x - 3 * π / 2) = -sin x := by
    intro x; rw [cos_sub, hc3, hs3]; ring
  refine ⟨⟨?_, ?_⟩, ?_, ?_⟩
  · -- against x
    have := support sp delta phi π (rad v) r (-(sector start delta r).xmin) p1 p2 hs0 (by linarith) (rad_nonneg v) hr (by linarith)
      (by rw [cos_sub_pi]; linarith) (by rw [cos_sub_pi]; linarith) (fun h => by
        have := (f5 h).1; rw [cos_pi] at this; linarith)
    rw [← hdir, cos_pi, sin_pi] at this
    linarith
  · have := support sp delta phi 0 (rad v) r (sector start delta r).xmax p1 p2 hs0 (by linarith) (rad_nonneg v) hr (by linarith)
      (by rw [sub_zero]; linarith) (by rw [sub_zero]; linarith) (fun h => by
        have := (c5 h).2.1; rw [cos_zero] at this; linarith)
    rw [← hdir, cos_zero, sin_zero] at this
    linarith
  · have := support sp delta phi (3 * π / 2) (rad v) r (-(sector start delta r).ymin) p1 p2 hs0 (by linarith) (rad_nonneg v) hr (by linarith)
      (by rw [hcos3]; linarith) (by rw [hcos3]; linarith) (fun h => by
        have := (i5 h).2.2.1; rw [hs3] at this; linarith)
    rw [← hdir, hc3, hs3] at this
    linarith
  · have := support sp delta phi (π / 2) (rad v) r (sector start delta r).ymax p1 p2 hs0 (by linarith) (rad_nonneg v) hr (by linarith)
      (by rw [cos_sub_pi_div_two]; linarith) (by rw [cos_sub_pi_div_two]; linarith) (fun h => by
        have := (d5 h).2.2.2; rw [sin_pi_div_two] at this; linarith)
    rw [← hdir, cos_pi_div_two, sin_pi_div_two] at this
    linarith

/-- The closed solid, with its cut. -/
def Mem (c : CTube) (v : Vec3 ℝ) : Prop := (c.rmin ≤ rad v ∧ rad v ≤ c.rmax) ∧ (lowSide c v ≤ 0 ∧ highSide c v ≤ 0) ∧
  (c.hasPhiCut = true → Phi.InWedge c.startPhi c.deltaPhi v)

/-- C110: the bounding box contains the solid; without a cut it is the smallest box that does. -/
theorem C110_bounding_box (c : CTube) (hv : Valid c) (ho : Outward c) :
    (∀ v, Mem c v → AABB.Mem v (boundingBox c)) ∧
    (c.hasPhiCut = false → ∀ b : AABB ℝ, (∀ v, Mem c v → AABB.Mem v b) → AABB.Sub (boundingBox c) b) := by
  have hR : 0 < c.rmax := lt_of_le_of_lt hv.rmin hv.rmax
  refine ⟨fun v h => ?_, fun hcut b hb => ?_⟩
  · obtain ⟨⟨_, h1⟩, ⟨h2, h3⟩, h4⟩ := h
    have l := low_bound c ho v h2 h1
    have u := high_bound c ho v h3 h1
    have h5 : rad v ^ 2 = v.x ^ 2 + v.y ^ 2 := Real.sq_sqrt (by positivity)
    have h6 := rad_nonneg v
    unfold boundingBox
    simp only
    cases hcut : c.hasPhiCut
    · simp only [Bool.not_false, if_true]
      have hx := abs_le_of_sq_le_sq (a := v.x) (b := c.rmax) (by nlinarith [sq_nonneg v.y]) (by linarith)
      have hy := abs_le_of_sq_le_sq (a := v.y) (b := c.rmax) (by nlinarith [sq_nonneg v.x]) (by linarith)
      exact ⟨abs_le.1 hx, abs_le.1 hy, l, u⟩
    · simp only [Bool.not_true, Bool.false_eq_true, if_false]
      obtain ⟨a1, a2⟩ := sector_covers c.startPhi c.deltaPhi c.rmax v h1 (h4 hcut)
      exact ⟨a1, a2, l, u⟩
  · -- a point on either plane above a given point of the outer barrel
    have hlz := ho.low.ne
    have hhz := ho.high.ne'
    have sideL : ∀ v : Vec3 ℝ, lowSide c v = c.low.x * v.x + c.low.y * v.y + c.low.z * (v.z + c.dz) := by
      intro v; unfold lowSide Vec3.dot; simp only [Vec3.sub_x, Vec3.sub_y, Vec3.sub_z]; ring
    have sideH : ∀ v : Vec3 ℝ, highSide c v = c.high.x * v.x + c.high.y * v.y + c.high.z * (v.z - c.dz) := by
      intro v; unfold highSide Vec3.dot; simp only [Vec3.sub_x, Vec3.sub_y, Vec3.sub_z]; ring
    have memL : ∀ x y, rad ⟨x, y, 0⟩ = c.rmax → Mem c ⟨x, y, -c.dz + (c.low.x * x + c.low.y * y) / -c.low.z⟩ := by
      intro x y hxy
      have e : lowSide c ⟨x, y, -c.dz + (c.low.x * x + c.low.y * y) / -c.low.z⟩ = 0 := by rw [sideL]; simp only; field_simp; ring
      have hr : rad ⟨x, y, -c.dz + (c.low.x * x + c.low.y * y) / -c.low.z⟩ = c.rmax := hxy
      refine ⟨⟨by rw [hr]; exact hv.rmax.le, hr.le⟩, ⟨e.le, ?_⟩, fun h => by rw [hcut] at h; exact absurd h (by simp)⟩
      exact ((hv.uncrossed _ hr.le).resolve_left (by rw [e]; exact lt_irrefl _)).le
    have memH : ∀ x y, rad ⟨x, y, 0⟩ = c.rmax → Mem c ⟨x, y, c.dz + -(c.high.x * x + c.high.y * y) / c.high.z⟩ := by
      intro x y hxy
      have e : highSide c ⟨x, y, c.dz + -(c.high.x * x + c.high.y * y) / c.high.z⟩ = 0 := by rw [sideH]; simp only; field_simp; ring
      have hr : rad ⟨x, y, c.dz + -(c.high.x * x + c.high.y * y) / c.high.z⟩ = c.rmax := hxy
      refine ⟨⟨by rw [hr]; exact hv.rmax.le, hr.le⟩, ⟨?_, e.le⟩, fun h => by rw [hcut] at h; exact absurd h (by simp)⟩
      exact ((hv.uncrossed _ hr.le).resolve_right (by rw [e]; exact lt_irrefl _)).le
    -- the point of the barrel furthest along a horizontal direction
    have far : ∀ a b : ℝ, ∃ x y, rad ⟨x, y, 0⟩ = c.rmax ∧ a * x + b * y = Real.sqrt (a * a + b * b) * c.rmax := by
      intro a b
      have h2 := Real.mul_self_sqrt (add_nonneg (mul_self_nonneg a) (mul_self_nonneg b))
      obtain ⟨s, hs⟩ : ∃ s, s = Real.sqrt (a * a + b * b) := ⟨_, rfl⟩
      rw [← hs] at h2 ⊢
      by_cases h0 : s = 0
      · have : a = 0 ∧ b = 0 := by
          rw [h0] at h2
          exact ⟨by nlinarith [mul_self_nonneg a, mul_self_nonneg b], by nlinarith [mul_self_nonneg a, mul_self_nonneg b]⟩
        refine ⟨c.rmax, 0, ?_, by rw [this.1, this.2, h0]; ring⟩
        unfold rad; simp [Real.sqrt_sq hR.le]
      · refine ⟨c.rmax * a / s, c.rmax * b / s, ?_, ?_⟩
        · unfold rad
          simp only
          rw [show (c.rmax * a / s) ^ 2 + (c.rmax * b / s) ^ 2 = c.rmax ^ 2 * ((a * a + b * b) / (s * s)) by field_simp, h2,
            div_self (by rw [← h2]; exact mul_self_ne_zero.2 h0), mul_one, Real.sqrt_sq hR.le]
        · rw [show a * (c.rmax * a / s) + b * (c.rmax * b / s) = c.rmax * ((a * a + b * b) / s) by ring, ← h2]
          field_simp
    have rx : rad ⟨c.rmax, 0, 0⟩ = c.rmax := by unfold rad; simp [Real.sqrt_sq hR.le]
    have rx' : rad ⟨-c.rmax, 0, 0⟩ = c.rmax := by unfold rad; simp [Real.sqrt_sq hR.le]
    have ry : rad ⟨0, c.rmax, 0⟩ = c.rmax := by unfold rad; simp [Real.sqrt_sq hR.le]
    have ry' : rad ⟨0, -c.rmax, 0⟩ = c.rmax := by unfold rad; simp [Real.sqrt_sq hR.le]
    have k1 := (hb _ (memL _ _ rx)).1.2
    have k2 := (hb _ (memL _ _ rx')).1.1
    have k3 := (hb _ (memL _ _ ry)).2.1.2
    have k4 := (hb _ (memL _ _ ry')).2.1.1
    obtain ⟨x1, y1, r1, f1⟩ := far (-c.low.x) (-c.low.y)
    obtain ⟨x2, y2, r2, f2⟩ := far (-c.high.x) (-c.high.y)
    have k5 := (hb _ (memL _ _ r1)).2.2.1
    have k6 := (hb _ (memH _ _ r2)).2.2.2
    simp only [neg_mul_neg] at f1 f2
    simp only at k1 k2 k3 k4 k5 k6
    have q5 : -c.dz + (c.low.x * x1 + c.low.y * y1) / -c.low.z = -c.dz - c.rmax * (Real.sqrt (c.low.x * c.low.x + c.low.y * c.low.y) / |c.low.z|) := by
      rw [abs_of_neg ho.low, show c.low.x * x1 + c.low.y * y1 = -(Real.sqrt (c.low.x * c.low.x + c.low.y * c.low.y) * c.rmax) by linarith]
      ring
    have q6 : c.dz + -(c.high.x * x2 + c.high.y * y2) / c.high.z = c.dz + c.rmax * (Real.sqrt (c.high.x * c.high.x + c.high.y * c.high.y) / |c.high.z|) := by
      rw [abs_of_pos ho.high, show -(c.high.x * x2 + c.high.y * y2) = Real.sqrt (c.high.x * c.high.x + c.high.y * c.high.y) * c.rmax by linarith]
      ring
    rw [q5] at k5
    rw [q6] at k6
    unfold boundingBox
    simp only [hcut, Bool.not_false, if_true]
    exact ⟨⟨k2, k1⟩, ⟨k4, k3⟩, k5, k6⟩

/-- C110: the planes do not meet inside the outer barrel if the tilts are small enough for the height: then the hypothesis of
the theorems above holds for the tube that was built. -/
theorem C110_tilt (rmin rmax dz : ℝ) (low high : Vec3 ℝ) (c : CTube)
    (hc : make rmin rmax dz low high = some c ∨ ∃ start delta, makePhi rmin rmax dz low high start delta = some c) (hr : rmin ≠ rmax)
    (ht : c.rmax * (Real.sqrt (c.low.x * c.low.x + c.low.y * c.low.y) / |c.low.z|) +
      c.rmax * (Real.sqrt (c.high.x * c.high.x + c.high.y * c.high.y) / |c.high.z|) < 2 * dz) : Valid c ∧ Outward c := by
  obtain ⟨a1, a2, a3, a4, a5, a6, ho, _⟩ : c.rmin = min rmin rmax ∧ c.rmax = max rmin rmax ∧ 0 ≤ c.rmin ∧ 0 < c.rmax ∧ c.dz = dz ∧
      0 < dz ∧ Outward c ∧ True := by
    have key : ∀ start delta, make rmin rmax dz low high = some c ∨ makePhi rmin rmax dz low high start delta = some c → _ :=
      fun start delta => (C110_constructors rmin rmax dz low high start delta).2.2.1 c
    rcases hc with hc | ⟨start, delta, hc⟩
    · obtain ⟨a1, a2, a3, a4, a5, a6, ho, _⟩ := key 0 1 (Or.inl hc)
      exact ⟨a1, a2, a3, a4, a5, a6, ho, trivial⟩
    · obtain ⟨a1, a2, a3, a4, a5, a6, ho, _⟩ := key start delta (Or.inr hc)
      exact ⟨a1, a2, a3, a4, a5, a6, ho, trivial⟩
  refine ⟨⟨a3, ?_, ?_⟩, ho⟩
  · rw [a1, a2]; exact min_lt_max.2 hr
  · intro v hv
    by_contra hn
    rw [not_or, not_lt, not_lt] at hn
    -- a point beyond both planes is below the highest point of the low plane and above the lowest of the high one
    have hz : 0 < -c.low.z := by linarith [ho.low]
    have hz' := ho.high
    have h1 := (abs_le.1 (rad_cauchy c.low.x c.low.y v)).2
    have h2 := (abs_le.1 (rad_cauchy c.high.x c.high.y v)).2
    have e1 : lowSide c v = c.low.x * v.x + c.low.y * v.y + c.low.z * (v.z + c.dz) := by
      unfold lowSide Vec3.dot; simp only [Vec3.sub_x, Vec3.sub_y, Vec3.sub_z]; ring
    have e2 : highSide c v = c.high.x * v.x + c.high.y * v.y + c.high.z * (v.z - c.dz) := by
      unfold highSide Vec3.dot; simp only [Vec3.sub_x, Vec3.sub_y, Vec3.sub_z]; ring
    rw [e1, e2] at hn
    rw [abs_of_neg ho.low, abs_of_pos ho.high] at ht
    obtain ⟨s, hs⟩ : ∃ s, s = Real.sqrt (c.low.x * c.low.x + c.low.y * c.low.y) := ⟨_, rfl⟩
    obtain ⟨w, hw⟩ : ∃ w, w = Real.sqrt (c.high.x * c.high.x + c.high.y * c.high.y) := ⟨_, rfl⟩
    rw [← hs] at h1 ht
    rw [← hw] at h2 ht
    have m1 : s * rad v ≤ s * c.rmax := mul_le_mul_of_nonneg_left hv (by rw [hs]; exact Real.sqrt_nonneg _)
    have m2 : w * rad v ≤ w * c.rmax := mul_le_mul_of_nonneg_left hv (by rw [hw]; exact Real.sqrt_nonneg _)
    have i1 : v.z + c.dz ≤ s * c.rmax / -c.low.z := by rw [le_div_iff₀ hz]; linarith [hn.1]
    have i2 : -(w * c.rmax) / c.high.z ≤ v.z - c.dz := by rw [div_le_iff₀ hz']; linarith [hn.2]
    have j1 : c.rmax * (s / -c.low.z) = s * c.rmax / -c.low.z := by ring
    have j2 : c.rmax * (w / c.high.z) = -(-(w * c.rmax) / c.high.z) := by ring
    rw [j1, j2] at ht
    linarith

/-- The tube used in the counterexample. -/
theorem steep_tube : make 0 4 1 ⟨0, 0, -1⟩ ⟨4, 0, 3⟩ = some ⟨0, 4, 1, ⟨0, 0, -1⟩, ⟨4 / 5, 0, 3 / 5⟩, 0, 2 * π, false⟩ := by
  have n1 : Vec3.norm ⟨0, 0, -1⟩ = 1 := by unfold Vec3.norm Vec3.dot; norm_num
  have n2 : Vec3.norm ⟨4, 0, 3⟩ = 5 := by
    unfold Vec3.norm Vec3.dot
    rw [show (4 : ℝ) * 4 + 0 * 0 + 3 * 3 = 5 ^ 2 by norm_num, Real.sqrt_sq (by norm_num)]
  have p1 : prepareNormal ⟨0, 0, -1⟩ false = ⟨0, 0, -1⟩ := by unfold prepareNormal; rw [n1]; norm_num
  have p2 : prepareNormal ⟨4, 0, 3⟩ true = ⟨4 / 5, 0, 3 / 5⟩ := by unfold prepareNormal; rw [n2]; norm_num
  unfold make
  rw [p1, p2]
  norm_num

/-- C110: the constructor accepts ends that meet inside the tube. A line through the part where they have crossed is then
reported to leave the tube before it enters it, and everything behind counts as inside. -/
theorem C110_planes_fails : ∃ (c : CTube) (p d : Vec3 ℝ), make 0 4 1 ⟨0, 0, -1⟩ ⟨4, 0, 3⟩ = some c ∧ Vec3.dot d d = 1 ∧
    (∀ t, ¬ Solid c (p + Vec3.smul t d)) ∧
    ∀ srt, IsHitSort srt → (compute srt c p d).length = 2 ∧ stateFrom false (compute srt c p d) 100 = true := by
  obtain ⟨c, hc⟩ : ∃ c : CTube, c = ⟨0, 4, 1, ⟨0, 0, -1⟩, ⟨4 / 5, 0, 3 / 5⟩, 0, 2 * π, false⟩ := ⟨_, rfl⟩
  obtain ⟨p, hp⟩ : ∃ p : Vec3 ℝ, p = ⟨3, 0, -10⟩ := ⟨_, rfl⟩
  obtain ⟨d, hd⟩ : ∃ d : Vec3 ℝ, d = ⟨0, 0, 1⟩ := ⟨_, rfl⟩
  refine ⟨c, p, d, by rw [hc]; exact steep_tube, by rw [hd]; simp [Vec3.dot], ?_, ?_⟩
  · intro t h
    have h2 := h.2
    rw [lowSide_line, highSide_line, hc, hp, hd] at h2
    simp only [lowSide, highSide, Vec3.dot, Vec3.sub_x, Vec3.sub_y, Vec3.sub_z] at h2
    norm_num at h2
    linarith [h2.1, h2.2]
  · intro srt hsrt
    have b1 : ∀ r2 i, testBarrel c p d r2 i = [] := by
      intro r2 i; unfold testBarrel; simp only; rw [if_pos (by rw [hd]; norm_num)]
    have c1 : testCap c p d (-c.dz) c.low = [(9, true)] := by
      unfold testCap
      rw [hc, hp, hd]
      unfold precision
      norm_num
    have c2 : testCap c p d c.dz c.high = [(7, false)] := by
      unfold testCap
      rw [hc, hp, hd]
      unfold precision
      norm_num
    have hs : surfaceHits c p d = [(9, true), (7, false)] := by
      unfold surfaceHits
      rw [b1, b1, c1, c2]
      simp
    have sn : ∀ x : ℝ, 1 ≤ x → snap x = x := by
      intro x hx
      unfold snap precision
      rw [if_neg]
      rintro ⟨_, h⟩
      linarith
    obtain ⟨h1, h2⟩ := hsrt ((surfaceHits c p d).map fun h => (⟨surfaceHit p d h, 0⟩ : SHit))
    have hl : (srt ((surfaceHits c p d).map fun h => (⟨surfaceHit p d h, 0⟩ : SHit))).map SHit.isect =
        [surfaceHit p d (7, false), surfaceHit p d (9, true)] := by
      refine sorted_perm_eq ?_ ?_ (by rw [List.pairwise_map]; exact h2)
      · simp only [surfaceHit, List.pairwise_cons, List.mem_cons, List.not_mem_nil, or_false, forall_eq, false_implies, implies_true,
          List.Pairwise.nil, and_true]
        rw [sn 7 (by norm_num), sn 9 (by norm_num)]; norm_num
      · refine (h1.map _).trans ?_
        rw [hs]
        exact List.Perm.swap _ _ _
    have e : compute srt c p d = [surfaceHit p d (7, false), surfaceHit p d (9, true)] := by
      rw [← hl]
      unfold compute
      have : c.hasPhiCut = false := by rw [hc]
      rw [this]; simp
    rw [e]
    refine ⟨rfl, ?_⟩
    rw [stateFrom_cons_lt _ _ _ _ (by simp only [surfaceHit]; rw [sn 7 (by norm_num)]; norm_num),
      stateFrom_cons_lt _ _ _ _ (by simp only [surfaceHit]; rw [sn 9 (by norm_num)]; norm_num)]
    rfl

/-- A line along the axis of a tube with one tilted end: the hypotheses hold, and the tube is met. -/
example : ∃ c, make 0 1 2 ⟨0, 0, -1⟩ ⟨4, 0, 3⟩ = some c ∧ Valid c ∧ Outward c ∧ Clear c ⟨0, 0, -10⟩ ⟨0, 0, 1⟩ ∧
    Solid c ((⟨0, 0, -10⟩ : Vec3 ℝ) + Vec3.smul 10 ⟨0, 0, 1⟩) := by
  have n1 : Vec3.norm ⟨0, 0, -1⟩ = 1 := by unfold Vec3.norm Vec3.dot; norm_num
  have n2 : Vec3.norm ⟨4, 0, 3⟩ = 5 := by
    unfold Vec3.norm Vec3.dot
    rw [show (4 : ℝ) * 4 + 0 * 0 + 3 * 3 = 5 ^ 2 by norm_num, Real.sqrt_sq (by norm_num)]
  have p1 : prepareNormal ⟨0, 0, -1⟩ false = ⟨0, 0, -1⟩ := by unfold prepareNormal; rw [n1]; norm_num
  have p2 : prepareNormal ⟨4, 0, 3⟩ true = ⟨4 / 5, 0, 3 / 5⟩ := by unfold prepareNormal; rw [n2]; norm_num
  obtain ⟨c, hc⟩ : ∃ c : CTube, c = ⟨0, 1, 2, ⟨0, 0, -1⟩, ⟨4 / 5, 0, 3 / 5⟩, 0, 2 * π, false⟩ := ⟨_, rfl⟩
  have hm : make 0 1 2 ⟨0, 0, -1⟩ ⟨4, 0, 3⟩ = some c := by unfold make; rw [p1, p2, hc]; norm_num
  have hs : Real.sqrt (4 / 5 * (4 / 5)) = 4 / 5 := Real.sqrt_mul_self (by norm_num)
  obtain ⟨hv, ho⟩ := C110_tilt 0 1 2 ⟨0, 0, -1⟩ ⟨4, 0, 3⟩ c (Or.inl hm) (by norm_num) (by
    rw [hc]; simp only [mul_zero, add_zero, Real.sqrt_zero]; rw [hs]; norm_num)
  have hrad : ∀ t : ℝ, rad ((⟨0, 0, -10⟩ : Vec3 ℝ) + Vec3.smul t ⟨0, 0, 1⟩) = 0 := by
    intro t; unfold rad; simp
  have hlow : ∀ t : ℝ, lowSide c ((⟨0, 0, -10⟩ : Vec3 ℝ) + Vec3.smul t ⟨0, 0, 1⟩) = 8 - t := by
    intro t; rw [lowSide_line, hc]; simp [lowSide, Vec3.dot]; ring
  have hhigh : ∀ t : ℝ, highSide c ((⟨0, 0, -10⟩ : Vec3 ℝ) + Vec3.smul t ⟨0, 0, 1⟩) = 3 / 5 * (t - 12) := by
    intro t; rw [highSide_line, hc]; simp [highSide, Vec3.dot]; ring
  have hR : c.rmax = 1 := by rw [hc]
  have hr : c.rmin = 0 := by rw [hc]
  have hon : ∀ t : ℝ, OnSurface c ((⟨0, 0, -10⟩ : Vec3 ℝ) + Vec3.smul t ⟨0, 0, 1⟩) → t = 8 ∨ t = 12 := by
    intro t h
    unfold OnSurface at h
    rw [hrad, hlow, hhigh, hR, hr] at h
    rcases h with ⟨h | h, _⟩ | ⟨_, h | h⟩
    · norm_num at h
    · exact absurd h.1 (lt_irrefl _)
    · left; linarith [h.1]
    · right; linarith [h.2]
  refine ⟨c, hm, hv, ho, ⟨?_, ?_, ?_, ?_, ?_, ?_, ?_⟩, ?_⟩
  · intro h
    have : (⟨0, 0, 1⟩ : Vec3 ℝ).z = (0 : Vec3 ℝ).z := by rw [h]
    norm_num at this
  · intro t h; rw [hrad, hR] at h; norm_num at h
  · intro h; rw [hr] at h; exact absurd h (lt_irrefl _)
  · intro t _
    rw [hrad, hR, hr]
    refine ⟨fun h => by norm_num at h, fun h => absurd h (lt_irrefl _)⟩
  · right; rw [hc]; simp [Vec3.dot, precision]; norm_num
  · right; rw [hc]; simp [Vec3.dot, precision]; norm_num
  · intro t u hlt ht hu
    unfold precision
    rcases hon t ht with rfl | rfl <;> rcases hon u hu with rfl | rfl <;> first | (exfalso; norm_num at hlt; done) | norm_num
  · unfold Solid
    rw [hrad, hlow, hhigh, hR, hr]
    norm_num

/-- A line across half of a hollow tube with one tilted end: the hypotheses hold, with four crossings of the whole tube. -/
example : ∃ c, makePhi 1 2 4 ⟨0, 0, -1⟩ ⟨4, 0, 3⟩ (-(π / 2)) π = some c ∧ c.hasPhiCut = true ∧ Valid c ∧ Outward c ∧
    Clear c ⟨-5, 0, 0⟩ ⟨1, 0, 0⟩ ∧ Phi.Clean c.startPhi c.deltaPhi ⟨-5, 0, 0⟩ ⟨1, 0, 0⟩ ∧
    Phi.Spread c.startPhi c.deltaPhi ⟨-5, 0, 0⟩ ⟨1, 0, 0⟩ ∧ OnSurface c ((⟨-5, 0, 0⟩ : Vec3 ℝ) + Vec3.smul 4 ⟨1, 0, 0⟩) := by
  have hpi : 1 < π := lt_of_lt_of_le (by norm_num) Real.two_le_pi
  have n1 : Vec3.norm ⟨0, 0, -1⟩ = 1 := by unfold Vec3.norm Vec3.dot; norm_num
  have n2 : Vec3.norm ⟨4, 0, 3⟩ = 5 := by
    unfold Vec3.norm Vec3.dot
    rw [show (4 : ℝ) * 4 + 0 * 0 + 3 * 3 = 5 ^ 2 by norm_num, Real.sqrt_sq (by norm_num)]
  have p1 : prepareNormal ⟨0, 0, -1⟩ false = ⟨0, 0, -1⟩ := by unfold prepareNormal; rw [n1]; norm_num
  have p2 : prepareNormal ⟨4, 0, 3⟩ true = ⟨4 / 5, 0, 3 / 5⟩ := by unfold prepareNormal; rw [n2]; norm_num
  obtain ⟨c, hc⟩ : ∃ c : CTube, c = ⟨1, 2, 4, ⟨0, 0, -1⟩, ⟨4 / 5, 0, 3 / 5⟩, -(π / 2), π, true⟩ := ⟨_, rfl⟩
  have hm : makePhi 1 2 4 ⟨0, 0, -1⟩ ⟨4, 0, 3⟩ (-(π / 2)) π = some c := by
    unfold makePhi
    have g1 : ¬ π ≤ 0 := by linarith
    have g2 : ¬ π > 2 * π := by linarith
    have g3 : π < 2 * π - 1 / 1000000000 := by linarith
    have g4 : ¬ (1 : ℝ) > 2 := by norm_num
    have g5 : ¬ (2 : ℝ) ≤ 0 := by norm_num
    have g6 : ¬ (4 : ℝ) ≤ 0 := by norm_num
    have g7 : ¬ (1 : ℝ) < 0 := by norm_num
    have g8 : ¬ (2 : ℝ) < 0 := by norm_num
    rw [p1, p2, hc]
    simp only [g1, g2, g3, g4, g5, g6, g7, g8, if_false, decide_true]
  have hs : Real.sqrt (4 / 5 * (4 / 5)) = 4 / 5 := Real.sqrt_mul_self (by norm_num)
  obtain ⟨hv, ho⟩ := C110_tilt 1 2 4 ⟨0, 0, -1⟩ ⟨4, 0, 3⟩ c (Or.inr ⟨_, _, hm⟩) (by norm_num) (by
    rw [hc]; simp only [mul_zero, add_zero, Real.sqrt_zero]; rw [hs]; norm_num)
  have hrad : ∀ t : ℝ, rad ((⟨-5, 0, 0⟩ : Vec3 ℝ) + Vec3.smul t ⟨1, 0, 0⟩) = |t - 5| := by
    intro t
    unfold rad
    simp only [Vec3.add_x, Vec3.smul_x, Vec3.add_y, Vec3.smul_y]
    rw [show (-5 + t * 1) ^ 2 + (0 + t * 0) ^ 2 = (t - 5) ^ 2 by ring, Real.sqrt_sq_eq_abs]
  have hlow : ∀ t : ℝ, lowSide c ((⟨-5, 0, 0⟩ : Vec3 ℝ) + Vec3.smul t ⟨1, 0, 0⟩) = -4 := by
    intro t; rw [lowSide_line, hc]; simp [lowSide, Vec3.dot]
  have hhigh : ∀ t : ℝ, highSide c ((⟨-5, 0, 0⟩ : Vec3 ℝ) + Vec3.smul t ⟨1, 0, 0⟩) = 4 / 5 * (t - 8) := by
    intro t; rw [highSide_line, hc]; simp [highSide, Vec3.dot]; ring
  have hR : c.rmax = 2 := by rw [hc]
  have hr : c.rmin = 1 := by rw [hc]
  have hon : ∀ t : ℝ, OnSurface c ((⟨-5, 0, 0⟩ : Vec3 ℝ) + Vec3.smul t ⟨1, 0, 0⟩) → t = 3 ∨ t = 7 ∨ t = 4 ∨ t = 6 := by
    intro t h
    unfold OnSurface at h
    rw [hrad, hlow, hhigh, hR, hr] at h
    rcases h with ⟨h | h, _⟩ | ⟨h1, h | h⟩
    · rcases abs_eq (by norm_num : (0 : ℝ) ≤ 2) |>.1 h with h | h
      · right; left; linarith
      · left; linarith
    · rcases abs_eq (by norm_num : (0 : ℝ) ≤ 1) |>.1 h.2 with h | h
      · right; right; right; linarith
      · right; right; left; linarith
    · norm_num at h
    · have := (abs_lt.1 h1.2).2
      linarith [h.2]
  have hsettled : ∀ t : ℝ, |t - 5| ≤ 2 → Settled c ((⟨-5, 0, 0⟩ : Vec3 ℝ) + Vec3.smul t ⟨1, 0, 0⟩) := by
    intro t h
    left
    rw [hlow, hhigh]
    have := (abs_le.1 h).2
    exact ⟨by norm_num, by linarith⟩
  have hp2 : cos (-(π / 2) + π) = 0 ∧ sin (-(π / 2) + π) = 1 := by
    rw [show -(π / 2) + π = π / 2 by ring, cos_pi_div_two, sin_pi_div_two]; exact ⟨rfl, rfl⟩
  have hst : c.startPhi = -(π / 2) := by rw [hc]
  have hde : c.deltaPhi = π := by rw [hc]
  refine ⟨c, hm, by rw [hc], hv, ho, ⟨?_, ?_, ?_, ?_, ?_, ?_, ?_⟩, ?_, ?_, ?_⟩
  · intro h
    have : (⟨1, 0, 0⟩ : Vec3 ℝ).x = (0 : Vec3 ℝ).x := by rw [h]
    norm_num at this
  · intro t h; rw [hrad, hR] at h; exact hsettled t h.le
  · intro _ t h; rw [hrad, hr] at h; exact hsettled t (by linarith)
  · intro t h
    rw [hlow, hhigh] at h
    have ht : t = 8 := by
      rcases h with h | h
      · norm_num at h
      · linarith
    rw [hrad, hR, hr, ht]
    unfold precision
    norm_num
  · left; rw [hc]; simp [Vec3.dot]
  · right; rw [hc]; simp [Vec3.dot, precision]; norm_num
  · intro t u hlt ht hu
    unfold precision
    rcases hon t ht with rfl | rfl | rfl | rfl <;> rcases hon u hu with rfl | rfl | rfl | rfl <;>
      first | (exfalso; norm_num at hlt; done) | norm_num
  · rw [hst, hde]
    refine ⟨by norm_num, ?_, Or.inl (by norm_num)⟩
    intro alpha ha
    simp only [List.mem_cons, List.not_mem_nil, or_false] at ha
    rcases ha with rfl | rfl
    · simp [Phi.planeDist, precision]; norm_num
    · simp [Phi.planeDist, hp2, precision]; norm_num
  · rw [hst, hde]
    intro t u ht hu hne
    simp [Phi.planeDist, Vec3.add_x, Vec3.smul_x] at ht
    simp [Phi.planeDist, hp2, Vec3.add_x, Vec3.smul_x] at hu
    exact absurd (by linarith) hne
  · unfold OnSurface
    rw [hrad, hlow, hhigh, hR, hr]
    norm_num

end Siren.Geometry.CutTube
