import Verif.Geometry.Cut

set_option autoImplicit false

/-!
# C102: cones

Models `geometry/private/Cone.cxx`. Real square root instead of `std::sqrt`.
-/

namespace Siren.Geometry.Cone

open Siren Siren.Geometry Filter Topology

/-! ### Model -/

/-- The members of `Cone` (geometry/public/SIREN/geometry/Cone.h). -/
structure Con where
  rmin1 : ℝ
  rmax1 : ℝ
  rmin2 : ℝ
  rmax2 : ℝ
  z : ℝ
  startPhi : ℝ
  deltaPhi : ℝ
  hasPhiCut : Bool

/-- The constructor with five numbers (geometry/private/Cone.cxx:32-38, 49-55); `none` is `std::invalid_argument`. -/
noncomputable def make (rmin1 rmax1 rmin2 rmax2 z : ℝ) : Option Con :=
  if z ≤ 0 then none
  else
    let r1 := if rmin1 > rmax1 then (rmax1, rmin1) else (rmin1, rmax1)
    let r2 := if rmin2 > rmax2 then (rmax2, rmin2) else (rmin2, rmax2)
    if r1.2 ≤ 0 ∧ r2.2 ≤ 0 then none else some ⟨r1.1, r1.2, r2.1, r2.2, z, 0, 2 * Real.pi, false⟩

/-- The constructor with angles (geometry/private/Cone.cxx:39-47, 56-64); `none` is `std::invalid_argument`. -/
noncomputable def makePhi (rmin1 rmax1 rmin2 rmax2 z startPhi deltaPhi : ℝ) : Option Con :=
  if z ≤ 0 then none
  else
    let r1 := if rmin1 > rmax1 then (rmax1, rmin1) else (rmin1, rmax1)
    let r2 := if rmin2 > rmax2 then (rmax2, rmin2) else (rmin2, rmax2)
    if r1.2 ≤ 0 ∧ r2.2 ≤ 0 then none
    else if deltaPhi ≤ 0 then none
    else
      let delta := if deltaPhi > 2 * Real.pi then 2 * Real.pi else deltaPhi
      some ⟨r1.1, r1.2, r2.1, r2.2, z, startPhi, delta, decide (delta < 2 * Real.pi - 1 / 1000000000)⟩

/-- `a_outer` and `a_inner` (geometry/private/Cone.cxx:132, 262). -/
noncomputable def mean (r1 r2 : ℝ) : ℝ := (r1 + r2) * (1 / 2)

/-- `b_outer` and `b_inner` (geometry/private/Cone.cxx:133-136, 263-266). -/
noncomputable def slope (c : Con) (r1 r2 : ℝ) : ℝ := if c.z > 0 then (r2 - r1) / c.z else 0

/-- The coefficient `A` (geometry/private/Cone.cxx:140, 268). -/
def coeffA (b : ℝ) (d : Vec3 ℝ) : ℝ := d.x * d.x + d.y * d.y - b * b * d.z * d.z

/-- The coefficient `B` (geometry/private/Cone.cxx:141, 269). -/
def coeffB (a b : ℝ) (q d : Vec3 ℝ) : ℝ := 2 * (q.x * d.x + q.y * d.y - b * d.z * (a + b * q.z))

/-- The coefficient `C` (geometry/private/Cone.cxx:142, 270). -/
def coeffC (a b : ℝ) (q : Vec3 ℝ) : ℝ := q.x * q.x + q.y * q.y - (a + b * q.z) * (a + b * q.z)

/-- One root on a wall (geometry/private/Cone.cxx:182-195, 197-210, 221-234 with `inner = false`; 285-295, 297-307, 315-325 with
`inner = true`). `ok` is the condition on the height. -/
noncomputable def wallHit (ok : ℝ → Prop) (inner : Bool) (a b : ℝ) (p d : Vec3 ℝ) (t : ℝ) : List (ℝ × Bool) :=
  open Classical in
  let iz := p.z + snap t * d.z
  if ok iz then
    let ix := p.x + snap t * d.x
    let iy := p.y + snap t * d.y
    let r := a + b * iz
    if r ≥ 0 then
      let e := decide (ix * d.x + iy * d.y - b * r * d.z < 0)
      [(t, if inner then !e else e)]
    else []
  else []

/-- `t_shift` (geometry/private/Cone.cxx:126). -/
def shift (p d : Vec3 ℝ) : ℝ := -(p.x * d.x + p.y * d.y + p.z * d.z)

/-- `q` (geometry/private/Cone.cxx:127-129). -/
def shifted (p d : Vec3 ℝ) : Vec3 ℝ := ⟨p.x + shift p d * d.x, p.y + shift p d * d.y, p.z + shift p d * d.z⟩

/-- A wall without the treatment of the tip (geometry/private/Cone.cxx:147-161, 181-236; 272-327). -/
noncomputable def wall (ok : ℝ → Prop) (inner : Bool) (a b : ℝ) (p d : Vec3 ℝ) : List (ℝ × Bool) :=
  if d.x = 0 ∧ d.y = 0 ∧ b = 0 then []
  else
    let A := coeffA b d
    let B := coeffB a b (shifted p d) d
    let C := coeffC a b (shifted p d)
    let det := B * B - 4 * A * C
    if |A| > precision then
      if det > 0 then
        let sq := Real.sqrt det
        wallHit ok inner a b p d ((-B + sq) / (2 * A) + shift p d) ++ wallHit ok inner a b p d ((-B - sq) / (2 * A) + shift p d)
      else []
    else if |B| > precision then wallHit ok inner a b p d (-C / B + shift p d)
    else []

/-- `has_outer_apex_top` (geometry/private/Cone.cxx:120). -/
def apexTop (c : Con) : Prop := c.rmax2 ≤ 0 ∧ c.rmin2 ≤ 0

/-- `has_outer_apex_bot` (geometry/private/Cone.cxx:121). -/
def apexBot (c : Con) : Prop := c.rmax1 ≤ 0 ∧ c.rmin1 ≤ 0

/-- The condition on the height of a hit on the outer wall (geometry/private/Cone.cxx:183-184). -/
def okOuter (c : Con) (iz : ℝ) : Prop :=
  open Classical in
  (if apexBot c then iz ≥ -(1 / 2) * c.z else iz > -(1 / 2) * c.z - precision) ∧
  (if apexTop c then iz ≤ 1 / 2 * c.z else iz < 1 / 2 * c.z + precision)

/-- The condition on the height of a hit on the inner wall (geometry/private/Cone.cxx:286). -/
def okInner (c : Con) (iz : ℝ) : Prop := iz > -(1 / 2) * c.z - precision ∧ iz < 1 / 2 * c.z + precision

/-- `apex_z` (geometry/private/Cone.cxx:165, 243). -/
noncomputable def apexZ (c : Con) : ℝ := open Classical in if apexTop c then 1 / 2 * c.z else -(1 / 2) * c.z

/-- `apex_entering` (geometry/private/Cone.cxx:174, 249). -/
noncomputable def apexEntering (c : Con) (d : Vec3 ℝ) : Bool := open Classical in if apexTop c then decide (d.z < 0) else decide (d.z > 0)

/-- Both roots are at the height of the tip (geometry/private/Cone.cxx:147-170). -/
def bothAtApex (c : Con) (a b : ℝ) (p d : Vec3 ℝ) : Prop :=
  let A := coeffA b d
  let B := coeffB a b (shifted p d) d
  let C := coeffC a b (shifted p d)
  let det := B * B - 4 * A * C
  let t1 := snap ((-B + Real.sqrt det) / (2 * A) + shift p d)
  let t2 := snap ((-B - Real.sqrt det) / (2 * A) + shift p d)
  ¬ (d.x = 0 ∧ d.y = 0 ∧ b = 0) ∧ |A| > precision ∧ det > 0 ∧ (apexTop c ∨ apexBot c) ∧
    |p.z + t1 * d.z - apexZ c| < precision * 1000 ∧ |p.z + t2 * d.z - apexZ c| < precision * 1000

/-- The outer wall with its tip (geometry/private/Cone.cxx:131-258). -/
noncomputable def outer (c : Con) (p d : Vec3 ℝ) : List Isect :=
  open Classical in
  let a := mean c.rmax1 c.rmax2
  let b := slope c c.rmax1 c.rmax2
  let A := coeffA b d
  let B := coeffB a b (shifted p d) d
  let C := coeffC a b (shifted p d)
  let det := B * B - 4 * A * C
  if bothAtApex c a b p d then
    if C < -precision then
      let t1 := snap ((-B + Real.sqrt det) / (2 * A) + shift p d)
      let t2 := snap ((-B - Real.sqrt det) / (2 * A) + shift p d)
      let tmid := snap (1 / 2 * (t1 + t2))
      [⟨tmid, 0, apexEntering c d, ⟨p.x + tmid * d.x, p.y + tmid * d.y, apexZ c⟩⟩]
    else []
  else
    let hits := (wall (okOuter c) false a b p d).map (report p d)
    if (apexTop c ∨ apexBot c) ∧ |d.z| > precision ∧ ¬ (∃ h ∈ hits, |h.position.z - apexZ c| < precision * 1000) then
      let t := (apexZ c - p.z) / d.z
      let ix := p.x + t * d.x
      let iy := p.y + t * d.y
      if ix * ix + iy * iy < precision * precision * 1000000 ∧ C ≤ precision then
        hits ++ [⟨snap t, 0, apexEntering c d, ⟨ix, iy, apexZ c⟩⟩]
      else hits
    else hits

/-- The inner wall (geometry/private/Cone.cxx:261-328). -/
noncomputable def inner (c : Con) (p d : Vec3 ℝ) : List (ℝ × Bool) :=
  if c.rmin1 > 0 ∨ c.rmin2 > 0 then wall (okInner c) true (mean c.rmin1 c.rmin2) (slope c c.rmin1 c.rmin2) p d else []

/-- A cap (geometry/private/Cone.cxx:332-349, 353-370). -/
noncomputable def cap (skip : Prop) (zcap rmin rmax : ℝ) (p d : Vec3 ℝ) (e : Bool) : List (ℝ × Bool) :=
  open Classical in
  if |d.z| > precision ∧ ¬ skip then
    let t := (zcap - p.z) / d.z
    let ix := p.x + snap t * d.x
    let iy := p.y + snap t * d.y
    let r2 := ix * ix + iy * iy
    if r2 ≤ rmax * rmax + precision ∧ r2 ≥ rmin * rmin - precision then [(t, e)] else []
  else []

/-- The hits on the surface in the order in which they are found (geometry/private/Cone.cxx:131-370). -/
noncomputable def surface (c : Con) (p d : Vec3 ℝ) : List Isect :=
  outer c p d ++ (inner c p d ++ cap (apexTop c) (1 / 2 * c.z) c.rmin2 c.rmax2 p d (decide (d.z < 0)) ++
    cap (apexBot c) (-(1 / 2) * c.z) c.rmin1 c.rmax1 p d (decide (d.z > 0))).map (report p d)

/-- `Cone::ComputeIntersections` (geometry/private/Cone.cxx:81-454); `srt` is `std::sort`. The loops over the wedge and over the
sorted hits are those of `Cylinder::ComputeIntersections`. -/
noncomputable def compute (srt : List SHit → List SHit) (c : Con) (p d : Vec3 ℝ) : List Isect :=
  let surf := (surface c p d).map fun h => (⟨h, 0⟩ : SHit)
  if !c.hasPhiCut then Cylinder.dedup none ((srt surf).map SHit.isect)
  else
    let all := surf ++ (Phi.wedgeHits snap c.startPhi c.deltaPhi p d).map fun h => (⟨hitAt p d h.1 h.2, 1⟩ : SHit)
    let st : Nat → Bool := fun k =>
      if k = 0 then false else Phi.initialPhiState p.x p.y d.x d.y c.startPhi c.deltaPhi
    andWalk 2 st (allIn 2 st) (srt all)

/-- `Cone::GetBoundingBox` (geometry/private/Cone.cxx:457-464). -/
noncomputable def boundingBox (c : Con) : AABB ℝ :=
  let r := max c.rmax1 c.rmax2
  let hz := c.z * (1 / 2)
  ⟨⟨-r, -r, -hz⟩, ⟨r, r, hz⟩⟩

/-! ### Specification -/

/-- The radius at height `z` if it is `r1` at the bottom and `r2` on top. -/
noncomputable def radiusAt (c : Con) (r1 r2 z : ℝ) : ℝ := r1 + (r2 - r1) * (z / c.z + 1 / 2)

/-- The cone without its cut. -/
def Solid (c : Con) (v : Vec3 ℝ) : Prop :=
  |v.z| < c.z / 2 ∧ radiusAt c c.rmin1 c.rmin2 v.z ≤ Cylinder.rad v ∧ Cylinder.rad v < radiusAt c c.rmax1 c.rmax2 v.z

/-- The cone without its cut, with its surface. -/
def Mem (c : Con) (v : Vec3 ℝ) : Prop :=
  |v.z| ≤ c.z / 2 ∧ radiusAt c c.rmin1 c.rmin2 v.z ≤ Cylinder.rad v ∧ Cylinder.rad v ≤ radiusAt c c.rmax1 c.rmax2 v.z

/-- The square of the radius, less that of a wall: zero on the wall and on its mirror image beyond the tip. -/
noncomputable def wallEq (c : Con) (r1 r2 : ℝ) (v : Vec3 ℝ) : ℝ := v.x ^ 2 + v.y ^ 2 - radiusAt c r1 r2 v.z ^ 2

/-- The surface of the cone. -/
def OnSurface (c : Con) (v : Vec3 ℝ) : Prop :=
  Mem c v ∧ (wallEq c c.rmax1 c.rmax2 v = 0 ∨ (0 < c.rmin1 ∨ 0 < c.rmin2) ∧ wallEq c c.rmin1 c.rmin2 v = 0 ∨ |v.z| = c.z / 2)

/-- The line is parallel to a wall or clearly not. -/
def WallSteep (c : Con) (r1 r2 : ℝ) (p d : Vec3 ℝ) : Prop :=
  precision < |d.x * d.x + d.y * d.y - (r2 - r1) / c.z * ((r2 - r1) / c.z) * d.z * d.z| ∨
  (d.x * d.x + d.y * d.y - (r2 - r1) / c.z * ((r2 - r1) / c.z) * d.z * d.z = 0 ∧
    (p.x * d.x + p.y * d.y - (r2 - r1) / c.z * d.z * radiusAt c r1 r2 p.z = 0 ∨
      precision < |2 * (p.x * d.x + p.y * d.y - (r2 - r1) / c.z * d.z * radiusAt c r1 r2 p.z)|))

/-- Where the line meets a wall it is clearly between the ends or clearly not, and it does so at places that are apart. -/
def WallClear (c : Con) (r1 r2 : ℝ) (p d : Vec3 ℝ) : Prop :=
  (∀ t : ℝ, wallEq c r1 r2 (p + Vec3.smul t d) = 0 → Clearly (fun u => |(p + Vec3.smul u d).z| < c.z / 2)
    (fun u => |(p + Vec3.smul u d).z| < c.z / 2 + precision) t) ∧
  ∀ s t : ℝ, s < t → wallEq c r1 r2 (p + Vec3.smul s d) = 0 → wallEq c r1 r2 (p + Vec3.smul t d) = 0 → s + 2 * precision ≤ t

/-- Where the line meets an end it is clearly within the ring or clearly not. -/
def CapClear (zcap rmin rmax : ℝ) (p d : Vec3 ℝ) : Prop :=
  ∀ t : ℝ, (p + Vec3.smul t d).z = zcap → Clearly
    (fun u => (rmin = 0 ∨ rmin ^ 2 < Cylinder.rad (p + Vec3.smul u d) ^ 2) ∧ Cylinder.rad (p + Vec3.smul u d) ^ 2 < rmax ^ 2)
    (fun u => rmin ^ 2 - precision ≤ Cylinder.rad (p + Vec3.smul u d) ^ 2 ∧ Cylinder.rad (p + Vec3.smul u d) ^ 2 ≤ rmax ^ 2 + precision) t

/-- A line clear of the rims, of the tip if there is one, and not nearly parallel to walls or ends without being parallel. -/
structure Clear (c : Con) (p d : Vec3 ℝ) : Prop where
  direction : d ≠ 0
  outerSteep : WallSteep c c.rmax1 c.rmax2 p d
  innerSteep : 0 < c.rmin1 ∨ 0 < c.rmin2 → WallSteep c c.rmin1 c.rmin2 p d
  capSteep : d.z = 0 ∨ precision < |d.z|
  outer : WallClear c c.rmax1 c.rmax2 p d
  inner : 0 < c.rmin1 ∨ 0 < c.rmin2 → WallClear c c.rmin1 c.rmin2 p d
  top : CapClear (c.z / 2) c.rmin2 c.rmax2 p d
  bottom : CapClear (-(c.z / 2)) c.rmin1 c.rmax1 p d
  tip : (c.rmax2 = 0 → ∀ t u : ℝ, wallEq c c.rmax1 c.rmax2 (p + Vec3.smul t d) = 0 → |u - t| ≤ precision →
      precision * 1000 ≤ |(p + Vec3.smul u d).z - c.z / 2|) ∧
    (c.rmax1 = 0 → ∀ t u : ℝ, wallEq c c.rmax1 c.rmax2 (p + Vec3.smul t d) = 0 → |u - t| ≤ precision →
      precision * 1000 ≤ |(p + Vec3.smul u d).z - -(c.z / 2)|)
  apart : ∀ s t : ℝ, s < t → OnSurface c (p + Vec3.smul s d) → OnSurface c (p + Vec3.smul t d) → s + 2 * precision ≤ t

/-- What the constructors make of radii that are not negative and differ at one end. -/
structure Valid (c : Con) : Prop where
  z : 0 < c.z
  rmin1 : 0 ≤ c.rmin1
  rmin2 : 0 ≤ c.rmin2
  r1 : c.rmin1 ≤ c.rmax1
  r2 : c.rmin2 ≤ c.rmax2
  thick : c.rmin1 < c.rmax1 ∨ c.rmin2 < c.rmax2

/-! ### Proofs -/

theorem radiusAt_eq (c : Con) (hz : 0 < c.z) (r1 r2 z : ℝ) : radiusAt c r1 r2 z = mean r1 r2 + slope c r1 r2 * z := by
  unfold radiusAt mean slope; rw [if_pos hz]; field_simp; ring

/-- Along a line, the equation of a wall is a quadratic. -/
theorem wallEq_line (c : Con) (hz : 0 < c.z) (r1 r2 : ℝ) (p d : Vec3 ℝ) (u : ℝ) : wallEq c r1 r2 (p + Vec3.smul u d) =
    coeffA (slope c r1 r2) d * u ^ 2 + 2 * (coeffB (mean r1 r2) (slope c r1 r2) p d / 2) * u + coeffC (mean r1 r2) (slope c r1 r2) p := by
  unfold wallEq
  rw [radiusAt_eq c hz]
  unfold coeffA coeffB coeffC
  simp only [Vec3.add_x, Vec3.add_y, Vec3.add_z, Vec3.smul_x, Vec3.smul_y, Vec3.smul_z]
  ring

/-- The radius of a wall is positive between the ends. -/
theorem radiusAt_pos (c : Con) (hz : 0 < c.z) (r1 r2 z : ℝ) (h1 : 0 ≤ r1) (h2 : 0 ≤ r2) (h : 0 < r1 ∨ 0 < r2) (hzz : |z| < c.z / 2) :
    0 < radiusAt c r1 r2 z := by
  obtain ⟨a1, a2⟩ := abs_lt.1 hzz
  have e : radiusAt c r1 r2 z = r1 * (1 / 2 - z / c.z) + r2 * (z / c.z + 1 / 2) := by unfold radiusAt; ring
  have b1 : z / c.z < 1 / 2 := by rw [div_lt_iff₀ hz]; linarith
  have b2 : -(1 / 2) < z / c.z := by rw [lt_div_iff₀ hz]; linarith
  rw [e]
  rcases h with h | h
  · have := mul_pos h (show 0 < 1 / 2 - z / c.z by linarith)
    have := mul_nonneg h2 (show 0 ≤ z / c.z + 1 / 2 by linarith)
    linarith
  · have := mul_pos h (show 0 < z / c.z + 1 / 2 by linarith)
    have := mul_nonneg h1 (show 0 ≤ 1 / 2 - z / c.z by linarith)
    linarith

theorem radiusAt_lt (c : Con) (hz : 0 < c.z) (r1 r2 s1 s2 z : ℝ) (h1 : r1 ≤ s1) (h2 : r2 ≤ s2) (h : r1 < s1 ∨ r2 < s2)
    (hzz : |z| < c.z / 2) : radiusAt c r1 r2 z < radiusAt c s1 s2 z := by
  have := radiusAt_pos c hz (s1 - r1) (s2 - r2) z (by linarith) (by linarith) (by rcases h with h | h; exact Or.inl (by linarith); exact Or.inr (by linarith)) hzz
  have e : radiusAt c (s1 - r1) (s2 - r2) z = radiusAt c s1 s2 z - radiusAt c r1 r2 z := by unfold radiusAt; ring
  linarith

theorem mem_wallHit (c : Con) (hz : 0 < c.z) (r1 r2 : ℝ) (h1 : 0 ≤ r1) (h2 : 0 ≤ r2) (h : 0 < r1 ∨ 0 < r2) (ok : ℝ → Prop)
    (hok1 : ∀ z, |z| < c.z / 2 → ok z) (hok2 : ∀ z, ok z → |z| < c.z / 2 + precision) (inner : Bool) (p d : Vec3 ℝ) (t : ℝ)
    (hcl : Clearly (fun u => |(p + Vec3.smul u d).z| < c.z / 2) (fun u => |(p + Vec3.smul u d).z| < c.z / 2 + precision) t) (x : ℝ × Bool) :
    x ∈ wallHit ok inner (mean r1 r2) (slope c r1 r2) p d t ↔ |(p + Vec3.smul t d).z| < c.z / 2 ∧
      x = (t, xor inner (decide (coeffA (slope c r1 r2) d * snap t + coeffB (mean r1 r2) (slope c r1 r2) p d / 2 < 0))) := by
  obtain ⟨a, ha⟩ : ∃ a, a = mean r1 r2 := ⟨_, rfl⟩
  obtain ⟨b, hb⟩ : ∃ b, b = slope c r1 r2 := ⟨_, rfl⟩
  have e : (p.x + snap t * d.x) * d.x + (p.y + snap t * d.y) * d.y - b * (a + b * (p.z + snap t * d.z)) * d.z =
      coeffA b d * snap t + coeffB a b p d / 2 := by unfold coeffA coeffB; ring
  unfold wallHit
  simp only [← ha, ← hb, e]
  have ez : p.z + snap t * d.z = (p + Vec3.smul (snap t) d).z := rfl
  rw [ez]
  rcases hcl with hcl | hcl
  · have s1 := hcl (snap t) (by have := snap_near t; have := snap_le t; rw [abs_le]; constructor <;> linarith [precision_pos])
    have s2 := hcl t (by rw [sub_self, abs_zero]; exact precision_pos.le)
    have s3 : a + b * (p + Vec3.smul (snap t) d).z ≥ 0 := by
      rw [ha, hb, ← radiusAt_eq c hz]; exact (radiusAt_pos c hz r1 r2 _ h1 h2 h s1).le
    rw [if_pos (hok1 _ s1), if_pos s3, List.mem_singleton]
    simp only [s2, true_and]
    cases inner <;> simp
  · have s1 := hcl (snap t) (by have := snap_near t; have := snap_le t; rw [abs_le]; constructor <;> linarith [precision_pos])
    have s2 := hcl t (by rw [sub_self, abs_zero]; exact precision_pos.le)
    rw [if_neg fun h => s1 (hok2 _ h)]
    simp only [List.not_mem_nil, false_iff]
    intro h; exact s2 (by linarith [h.1, precision_pos])

theorem shift_B (a b : ℝ) (p d : Vec3 ℝ) : coeffB a b (shifted p d) d = coeffB a b p d + 2 * shift p d * coeffA b d := by
  unfold coeffA coeffB shifted; simp only; ring

theorem shift_C (a b : ℝ) (p d : Vec3 ℝ) : coeffC a b (shifted p d) = coeffC a b p + shift p d * coeffB a b p d + shift p d ^ 2 * coeffA b d := by
  unfold coeffA coeffB coeffC shifted; simp only; ring

theorem shift_det (a b : ℝ) (p d : Vec3 ℝ) :
    coeffB a b (shifted p d) d * coeffB a b (shifted p d) d - 4 * coeffA b d * coeffC a b (shifted p d) =
      4 * (coeffB a b p d / 2 * (coeffB a b p d / 2) - coeffA b d * coeffC a b p) := by
  rw [shift_B, shift_C]; ring

/-- The hits on a wall: the simple zeros of its equation between the ends. -/
theorem mem_wall (c : Con) (hz : 0 < c.z) (r1 r2 : ℝ) (h1 : 0 ≤ r1) (h2 : 0 ≤ r2) (h : 0 < r1 ∨ 0 < r2) (ok : ℝ → Prop)
    (hok1 : ∀ z, |z| < c.z / 2 → ok z) (hok2 : ∀ z, ok z → |z| < c.z / 2 + precision) (inner : Bool) (p d : Vec3 ℝ)
    (hs : WallSteep c r1 r2 p d) (hc : WallClear c r1 r2 p d) (x : ℝ × Bool) :
    x ∈ wall ok inner (mean r1 r2) (slope c r1 r2) p d ↔
      0 < coeffB (mean r1 r2) (slope c r1 r2) p d / 2 * (coeffB (mean r1 r2) (slope c r1 r2) p d / 2) -
        coeffA (slope c r1 r2) d * coeffC (mean r1 r2) (slope c r1 r2) p ∧
      wallEq c r1 r2 (p + Vec3.smul x.1 d) = 0 ∧ |(p + Vec3.smul x.1 d).z| < c.z / 2 ∧
      x.2 = xor inner (decide (coeffA (slope c r1 r2) d * x.1 + coeffB (mean r1 r2) (slope c r1 r2) p d / 2 < 0)) := by
  have hit := fun t ht => mem_wallHit c hz r1 r2 h1 h2 h ok hok1 hok2 inner p d t (hc.1 t ht) x
  have hline := wallEq_line c hz r1 r2 p d
  have hapart := hc.2
  have hA : coeffA (slope c r1 r2) d = d.x * d.x + d.y * d.y - (r2 - r1) / c.z * ((r2 - r1) / c.z) * d.z * d.z := by
    unfold coeffA slope; rw [if_pos hz]
  have hB : coeffB (mean r1 r2) (slope c r1 r2) p d = 2 * (p.x * d.x + p.y * d.y - (r2 - r1) / c.z * d.z * radiusAt c r1 r2 p.z) := by
    unfold coeffB; rw [← radiusAt_eq c hz]; unfold slope; rw [if_pos hz]
  unfold WallSteep at hs
  rw [← hA, ← hB] at hs
  have hs' : precision < |coeffA (slope c r1 r2) d| ∨ coeffA (slope c r1 r2) d = 0 ∧
      (coeffB (mean r1 r2) (slope c r1 r2) p d = 0 ∨ precision < |coeffB (mean r1 r2) (slope c r1 r2) p d|) := by
    refine hs.imp_right fun h => ⟨h.1, h.2.imp_left fun h => by rw [hB, h, mul_zero]⟩
  have hpar : d.x = 0 ∧ d.y = 0 ∧ slope c r1 r2 = 0 → coeffA (slope c r1 r2) d = 0 ∧ coeffB (mean r1 r2) (slope c r1 r2) p d = 0 := by
    rintro ⟨e1, e2, e3⟩; unfold coeffA coeffB; rw [e1, e2, e3]; constructor <;> ring
  have hshB := shift_B (mean r1 r2) (slope c r1 r2) p d
  have hshC := shift_C (mean r1 r2) (slope c r1 r2) p d
  have hdet := shift_det (mean r1 r2) (slope c r1 r2) p d
  clear hA hB hs
  unfold wall
  simp only [hdet]
  generalize shift p d = s at *
  generalize coeffB (mean r1 r2) (slope c r1 r2) (shifted p d) d = Bs at *
  generalize coeffC (mean r1 r2) (slope c r1 r2) (shifted p d) = Cs at *
  generalize coeffC (mean r1 r2) (slope c r1 r2) p = C at *
  generalize coeffB (mean r1 r2) (slope c r1 r2) p d = B2 at *
  generalize coeffA (slope c r1 r2) d = A at *
  obtain ⟨B, rfl⟩ : ∃ B, B2 = 2 * B := ⟨B2 / 2, by ring⟩
  rw [show 2 * B / 2 = B by ring] at *
  have hp0 := precision_pos
  split
  · next hp =>
    obtain ⟨e1, e2⟩ := hpar hp
    simp only [List.not_mem_nil, false_iff]
    intro h3
    have : B = 0 := by linarith
    rw [e1, this] at h3
    have := h3.1
    norm_num at this
  · split
    · next hbig =>
      have hA0 : A ≠ 0 := fun e => by rw [e, abs_zero] at hbig; linarith
      split
      · next hd =>
        have hd : 0 < B * B - A * C := by linarith
        obtain ⟨q, hq⟩ : ∃ q, q = Real.sqrt (B * B - A * C) := ⟨_, rfl⟩
        have hqq : q * q = B * B - A * C := by rw [hq]; exact Real.mul_self_sqrt hd.le
        have hq0 : 0 < q := by rw [hq]; exact Real.sqrt_pos.2 hd
        have hs4 : Real.sqrt (4 * (B * B - A * C)) = 2 * q := by
          rw [hq, show (4 : ℝ) * (B * B - A * C) = 2 ^ 2 * (B * B - A * C) by ring, Real.sqrt_mul (by norm_num), Real.sqrt_sq (by norm_num)]
        rw [hs4]
        have t1 : (-Bs + 2 * q) / (2 * A) + s = (-B + q) / A := by rw [hshB]; field_simp; ring
        have t2 : (-Bs - 2 * q) / (2 * A) + s = (-B - q) / A := by rw [hshB]; field_simp; ring
        rw [t1, t2]
        have hroot : ∀ t, wallEq c r1 r2 (p + Vec3.smul t d) = 0 ↔ t = (-B + q) / A ∨ t = (-B - q) / A := by
          intro t
          have e : A * wallEq c r1 r2 (p + Vec3.smul t d) = (A * t + B - q) * (A * t + B + q) := by rw [hline]; linear_combination hqq
          rw [eq_div_iff hA0, eq_div_iff hA0]
          constructor
          · intro h3
            rw [h3, mul_zero] at e
            rcases mul_eq_zero.1 e.symm with h4 | h4
            · left; linarith
            · right; linarith
          · intro h3
            have : A * wallEq c r1 r2 (p + Vec3.smul t d) = 0 := by
              rw [e]; rcases h3 with h3 | h3
              · rw [show A * t + B - q = 0 by linarith, zero_mul]
              · rw [show A * t + B + q = 0 by linarith, mul_zero]
            exact (mul_eq_zero.1 this).resolve_left hA0
        have z1 := (hroot _).2 (Or.inl rfl)
        have z2 := (hroot _).2 (Or.inr rfl)
        -- the sign of the slope does not change when the crossing is moved to the start
        have hsign : ∀ t u, wallEq c r1 r2 (p + Vec3.smul t d) = 0 → t - precision < u → u ≤ t → decide (A * u + B < 0) = decide (A * t + B < 0) := by
          intro t u ht hu1 hu2
          have e1 : A * ((-B + q) / A) = -B + q := by field_simp
          have e2 : A * ((-B - q) / A) = -B - q := by field_simp
          have hgap : |A| * precision ≤ q := by
            rcases lt_trichotomy A 0 with hn | hn | hn
            · have : (-B + q) / A < (-B - q) / A := by
                rw [div_lt_div_right_of_neg hn]; linarith
              have := mul_le_mul_of_nonpos_left (hapart _ _ this z1 z2) hn.le
              rw [abs_of_neg hn]
              linarith [mul_add A ((-B + q) / A) (2 * precision)]
            · exact absurd hn hA0
            · have : (-B - q) / A < (-B + q) / A := div_lt_div_of_pos_right (by linarith) hn
              have := mul_le_mul_of_nonneg_left (hapart _ _ this z2 z1) hn.le
              rw [abs_of_pos hn]
              linarith [mul_add A ((-B - q) / A) (2 * precision)]
          have hsm : |A * u - A * t| < q := by
            rw [← mul_sub, abs_mul]
            have : |u - t| < precision := by rw [abs_lt]; constructor <;> linarith
            exact lt_of_lt_of_le (mul_lt_mul_of_pos_left this (abs_pos.2 hA0)) hgap
          obtain ⟨s1, s2⟩ := abs_lt.1 hsm
          rcases (hroot t).1 ht with e | e
          · have : A * t = -B + q := by rw [e, e1]
            rw [decide_eq_false (by linarith), decide_eq_false (by linarith)]
          · have : A * t = -B - q := by rw [e, e2]
            rw [decide_eq_true (by linarith), decide_eq_true (by linarith)]
        rw [List.mem_append, hit _ z1, hit _ z2, hsign _ _ z1 (snap_near _) (snap_le _), hsign _ _ z2 (snap_near _) (snap_le _)]
        constructor
        · rintro (⟨h3, rfl⟩ | ⟨h3, rfl⟩)
          · exact ⟨hd, z1, h3, rfl⟩
          · exact ⟨hd, z2, h3, rfl⟩
        · rintro ⟨_, h3, h4, h5⟩
          rcases (hroot _).1 h3 with h6 | h6
          · left; rw [← h6]; exact ⟨h4, Prod.ext rfl h5⟩
          · right; rw [← h6]; exact ⟨h4, Prod.ext rfl h5⟩
      · next hd =>
        simp only [List.not_mem_nil, false_iff]
        intro h3
        exact hd (by linarith [h3.1])
    · next hsm =>
      obtain ⟨hA0, hB0⟩ := hs'.resolve_left hsm
      subst hA0
      have hBs : Bs = 2 * B := by rw [hshB]; ring
      have hCs : Cs = C + s * (2 * B) := by rw [hshC]; ring
      rw [hBs, hCs]
      split
      · next hb =>
        have hB1 : B ≠ 0 := fun e => by rw [e, mul_zero, abs_zero] at hb; linarith
        have ht : -(C + s * (2 * B)) / (2 * B) + s = -C / (2 * B) := by field_simp; ring
        rw [ht]
        have hroot : ∀ t, wallEq c r1 r2 (p + Vec3.smul t d) = 0 ↔ t = -C / (2 * B) := by
          intro t
          rw [hline, eq_div_iff (mul_ne_zero two_ne_zero hB1)]
          constructor <;> intro h <;> linarith
        have z1 := (hroot _).2 rfl
        rw [hit _ z1, zero_mul, zero_add]
        constructor
        · rintro ⟨h3, rfl⟩
          exact ⟨by have := mul_self_pos.2 hB1; linarith, z1, h3, by simp⟩
        · rintro ⟨_, h3, h4, h5⟩
          rw [← (hroot _).1 h3]
          exact ⟨h4, Prod.ext rfl (by rw [h5]; simp)⟩
      · next hb =>
        have : 2 * B = 0 := hB0.resolve_right hb
        simp only [List.not_mem_nil, false_iff]
        intro h3
        have hB1 : B = 0 := by linarith
        have := h3.1
        rw [hB1] at this
        norm_num at this

theorem rad_sq (v : Vec3 ℝ) : Cylinder.rad v ^ 2 = v.x ^ 2 + v.y ^ 2 := Real.sq_sqrt (by positivity)

theorem rad_nonneg (v : Vec3 ℝ) : 0 ≤ Cylinder.rad v := Real.sqrt_nonneg _

/-- If a wall is met at a double zero only, or the line lies on it, the line does not pass through it. -/
theorem wall_degenerate (c : Con) (hz : 0 < c.z) (r1 r2 : ℝ) (h1 : 0 ≤ r1) (h2 : 0 ≤ r2) (h : 0 < r1 ∨ 0 < r2) (p d : Vec3 ℝ) (t : ℝ)
    (h0 : wallEq c r1 r2 (p + Vec3.smul t d) = 0) (hin : |(p + Vec3.smul t d).z| < c.z / 2)
    (hd : coeffB (mean r1 r2) (slope c r1 r2) p d / 2 * (coeffB (mean r1 r2) (slope c r1 r2) p d / 2) -
        coeffA (slope c r1 r2) d * coeffC (mean r1 r2) (slope c r1 r2) p ≤ 0) (u : ℝ) : 0 ≤ wallEq c r1 r2 (p + Vec3.smul u d) := by
  have hline := wallEq_line c hz r1 r2 p d
  have hR := radiusAt_pos c hz r1 r2 _ h1 h2 h hin
  rw [radiusAt_eq c hz, Vec3.add_z, Vec3.smul_z] at hR
  have h0' := hline t
  rw [h0] at h0'
  have key : coeffA (slope c r1 r2) d * t + coeffB (mean r1 r2) (slope c r1 r2) p d / 2 = 0 := by
    have : (coeffA (slope c r1 r2) d * t + coeffB (mean r1 r2) (slope c r1 r2) p d / 2) ^ 2 ≤ 0 := by
      calc _ = coeffB (mean r1 r2) (slope c r1 r2) p d / 2 * (coeffB (mean r1 r2) (slope c r1 r2) p d / 2) -
        coeffA (slope c r1 r2) d * coeffC (mean r1 r2) (slope c r1 r2) p := by linear_combination -coeffA (slope c r1 r2) d * h0'
        _ ≤ 0 := hd
    exact pow_eq_zero_iff two_ne_zero |>.1 (le_antisymm this (sq_nonneg _))
  have hsq : ∀ u, wallEq c r1 r2 (p + Vec3.smul u d) = coeffA (slope c r1 r2) d * (u - t) ^ 2 := by
    intro u
    rw [hline]
    linear_combination (2 * u - 2 * t) * key - h0'
  rw [hsq]
  by_cases hA : 0 ≤ coeffA (slope c r1 r2) d
  · exact mul_nonneg hA (sq_nonneg _)
  · exfalso
    push Not at hA
    have hbd : slope c r1 r2 * d.z ≠ 0 := by
      intro e
      have : coeffA (slope c r1 r2) d = d.x * d.x + d.y * d.y - (slope c r1 r2 * d.z) * (slope c r1 r2 * d.z) := by unfold coeffA; ring
      rw [this, e] at hA
      linarith [mul_self_nonneg d.x, mul_self_nonneg d.y]
    obtain ⟨w, hw⟩ : ∃ w, w = -(mean r1 r2 + slope c r1 r2 * p.z) / (slope c r1 r2 * d.z) := ⟨_, rfl⟩
    have hw' : w * (slope c r1 r2 * d.z) = -(mean r1 r2 + slope c r1 r2 * p.z) := by rw [hw, div_mul_cancel₀ _ hbd]
    have e0 : wallEq c r1 r2 (p + Vec3.smul w d) = (p.x + w * d.x) ^ 2 + (p.y + w * d.y) ^ 2 := by
      unfold wallEq
      rw [radiusAt_eq c hz, Vec3.add_z, Vec3.smul_z,
        show mean r1 r2 + slope c r1 r2 * (p.z + w * d.z) = 0 by linear_combination hw']
      simp
    rw [hsq] at e0
    have hwt : w - t = 0 := by
      by_contra hne
      have := mul_neg_of_neg_of_pos hA (by positivity : 0 < (w - t) ^ 2)
      linarith [sq_nonneg (p.x + w * d.x), sq_nonneg (p.y + w * d.y)]
    have : t = w := by linarith
    rw [this, show mean r1 r2 + slope c r1 r2 * (p.z + w * d.z) = 0 by linear_combination hw'] at hR
    exact lt_irrefl _ hR

/-- The line inside, in terms of functions of the parameter. -/
theorem solid_iff (c : Con) (hv : Valid c) (p d : Vec3 ℝ) (u : ℝ) : Solid c (p + Vec3.smul u d) ↔
    ((p.z - c.z / 2) + u * d.z < 0 ∧ (-p.z - c.z / 2) + u * -d.z < 0) ∧
    ((0 < c.rmin1 ∨ 0 < c.rmin2) → ¬ wallEq c c.rmin1 c.rmin2 (p + Vec3.smul u d) < 0) ∧ wallEq c c.rmax1 c.rmax2 (p + Vec3.smul u d) < 0 := by
  have hzz : |(p + Vec3.smul u d).z| < c.z / 2 ↔ (p.z - c.z / 2) + u * d.z < 0 ∧ (-p.z - c.z / 2) + u * -d.z < 0 := by
    rw [abs_lt, Vec3.add_z, Vec3.smul_z]; constructor
    · rintro ⟨h1, h2⟩; constructor <;> linarith
    · rintro ⟨h1, h2⟩; constructor <;> linarith
  rw [← hzz]
  unfold Solid
  refine and_congr_right fun h => ?_
  generalize p + Vec3.smul u d = v at *
  have hR : 0 < radiusAt c c.rmax1 c.rmax2 v.z := by
    refine radiusAt_pos c hv.z _ _ _ (hv.rmin1.trans hv.r1) (hv.rmin2.trans hv.r2) ?_ h
    rcases hv.thick with h | h
    · exact Or.inl (lt_of_le_of_lt hv.rmin1 h)
    · exact Or.inr (lt_of_le_of_lt hv.rmin2 h)
  have hr := rad_nonneg v
  have h2 := rad_sq v
  refine and_congr ?_ ?_
  · constructor
    · intro h3 h4
      have := radiusAt_pos c hv.z _ _ _ hv.rmin1 hv.rmin2 h4 h
      unfold wallEq
      rw [← h2]
      nlinarith
    · intro h3
      by_cases h4 : 0 < c.rmin1 ∨ 0 < c.rmin2
      · have := radiusAt_pos c hv.z _ _ _ hv.rmin1 hv.rmin2 h4 h
        have h5 := h3 h4
        unfold wallEq at h5
        rw [← h2] at h5
        by_contra hc
        push Not at hc
        nlinarith
      · push Not at h4
        have e1 : c.rmin1 = 0 := le_antisymm h4.1 hv.rmin1
        have e2 : c.rmin2 = 0 := le_antisymm h4.2 hv.rmin2
        unfold radiusAt; rw [e1, e2]; simpa using hr
  · unfold wallEq
    rw [← h2]
    constructor
    · intro h3; nlinarith
    · intro h3; by_contra hc; push Not at hc; nlinarith

/-- The crossings of a clear line, exactly. -/
noncomputable def crossings (c : Con) (p d : Vec3 ℝ) : List (ℝ × Bool) :=
  wall (okOuter c) false (mean c.rmax1 c.rmax2) (slope c c.rmax1 c.rmax2) p d ++
    (inner c p d ++ cap (apexTop c) (1 / 2 * c.z) c.rmin2 c.rmax2 p d (decide (d.z < 0)) ++
      cap (apexBot c) (-(1 / 2) * c.z) c.rmin1 c.rmax1 p d (decide (d.z > 0)))

theorem okOuter_of (c : Con) (z : ℝ) (h : |z| < c.z / 2) : okOuter c z := by
  obtain ⟨h1, h2⟩ := abs_lt.1 h
  have := precision_pos
  unfold okOuter; constructor <;> split_ifs <;> linarith

theorem of_okOuter (c : Con) (z : ℝ) (h : okOuter c z) : |z| < c.z / 2 + precision := by
  have := precision_pos
  unfold okOuter at h
  rw [abs_lt]
  constructor
  · have := h.1; split_ifs at this <;> linarith
  · have := h.2; split_ifs at this <;> linarith

theorem okInner_of (c : Con) (z : ℝ) (h : |z| < c.z / 2) : okInner c z := by
  obtain ⟨h1, h2⟩ := abs_lt.1 h
  have := precision_pos
  unfold okInner; constructor <;> linarith

theorem of_okInner (c : Con) (z : ℝ) (h : okInner c z) : |z| < c.z / 2 + precision := by
  unfold okInner at h
  rw [abs_lt]; constructor <;> linarith [h.1, h.2]

theorem Valid.outer {c : Con} (hv : Valid c) : 0 < c.rmax1 ∨ 0 < c.rmax2 := by
  rcases hv.thick with h | h
  · exact Or.inl (lt_of_le_of_lt hv.rmin1 h)
  · exact Or.inr (lt_of_le_of_lt hv.rmin2 h)

/-- The disc of a wall: positive if its zeros are simple. -/
noncomputable def disc (c : Con) (r1 r2 : ℝ) (p d : Vec3 ℝ) : ℝ :=
  coeffB (mean r1 r2) (slope c r1 r2) p d / 2 * (coeffB (mean r1 r2) (slope c r1 r2) p d / 2) -
    coeffA (slope c r1 r2) d * coeffC (mean r1 r2) (slope c r1 r2) p

/-- The slope of the equation of a wall. -/
noncomputable def rate (c : Con) (r1 r2 : ℝ) (p d : Vec3 ℝ) (t : ℝ) : ℝ :=
  coeffA (slope c r1 r2) d * t + coeffB (mean r1 r2) (slope c r1 r2) p d / 2

theorem mem_outerWall (c : Con) (hv : Valid c) (p d : Vec3 ℝ) (hc : Clear c p d) (x : ℝ × Bool) :
    x ∈ wall (okOuter c) false (mean c.rmax1 c.rmax2) (slope c c.rmax1 c.rmax2) p d ↔
      0 < disc c c.rmax1 c.rmax2 p d ∧ wallEq c c.rmax1 c.rmax2 (p + Vec3.smul x.1 d) = 0 ∧ |(p + Vec3.smul x.1 d).z| < c.z / 2 ∧
        x.2 = decide (rate c c.rmax1 c.rmax2 p d x.1 < 0) := by
  rw [mem_wall c hv.z _ _ (hv.rmin1.trans hv.r1) (hv.rmin2.trans hv.r2) hv.outer _ (okOuter_of c) (of_okOuter c) _ _ _ hc.outerSteep hc.outer]
  rw [Bool.false_xor]; rfl

theorem mem_inner (c : Con) (hv : Valid c) (p d : Vec3 ℝ) (hc : Clear c p d) (x : ℝ × Bool) :
    x ∈ inner c p d ↔ (0 < c.rmin1 ∨ 0 < c.rmin2) ∧
      0 < disc c c.rmin1 c.rmin2 p d ∧ wallEq c c.rmin1 c.rmin2 (p + Vec3.smul x.1 d) = 0 ∧ |(p + Vec3.smul x.1 d).z| < c.z / 2 ∧
        x.2 = !decide (rate c c.rmin1 c.rmin2 p d x.1 < 0) := by
  unfold inner
  split
  · next h =>
    rw [mem_wall c hv.z _ _ hv.rmin1 hv.rmin2 h _ (okInner_of c) (of_okInner c) _ _ _ (hc.innerSteep h) (hc.inner h)]
    rw [Bool.true_xor]
    exact ⟨fun h3 => ⟨h, h3⟩, fun h3 => h3.2⟩
  · next h => simp only [List.not_mem_nil, false_iff]; exact fun h3 => h h3.1

theorem mem_cap (skip : Prop) (zcap rmin rmax : ℝ) (hskip : skip → rmax = 0) (p d : Vec3 ℝ) (hn : d.z = 0 ∨ precision < |d.z|)
    (hc : CapClear zcap rmin rmax p d) (e : Bool) (x : ℝ × Bool) : x ∈ cap skip zcap rmin rmax p d e ↔
      d.z ≠ 0 ∧ (p + Vec3.smul x.1 d).z = zcap ∧
        ((rmin = 0 ∨ rmin ^ 2 < Cylinder.rad (p + Vec3.smul x.1 d) ^ 2) ∧ Cylinder.rad (p + Vec3.smul x.1 d) ^ 2 < rmax ^ 2) ∧ x.2 = e := by
  obtain ⟨t, g⟩ := x
  have hp := precision_pos
  unfold cap
  by_cases h1 : |d.z| > precision
  · have h0 : d.z ≠ 0 := fun e => by rw [e, abs_zero] at h1; linarith
    have ht : ∀ t, (p + Vec3.smul t d).z = zcap ↔ t = (zcap - p.z) / d.z := by
      intro t
      rw [eq_div_iff h0, Vec3.add_z, Vec3.smul_z]; constructor <;> intro h <;> linarith
    by_cases h2 : skip
    · rw [if_neg (by simp [h2])]
      simp only [List.not_mem_nil, false_iff]
      rintro ⟨_, _, ⟨_, h3⟩, _⟩
      rw [hskip h2] at h3
      nlinarith [sq_nonneg (Cylinder.rad (p + Vec3.smul t d))]
    · rw [if_pos ⟨h1, h2⟩]
      obtain ⟨t0, ht0⟩ : ∃ t0, t0 = (zcap - p.z) / d.z := ⟨_, rfl⟩
      have hcl := (hc t0 ((ht t0).2 ht0)).snap ?_
      · simp only [ht, ← ht0]
        have er := rad_sq (p + Vec3.smul (snap t0) d)
        simp only [Vec3.add_x, Vec3.add_y, Vec3.smul_x, Vec3.smul_y] at er
        have er' : (p.x + snap t0 * d.x) * (p.x + snap t0 * d.x) + (p.y + snap t0 * d.y) * (p.y + snap t0 * d.y) =
            Cylinder.rad (p + Vec3.smul (snap t0) d) ^ 2 := by rw [er]; ring
        rw [er']
        split
        · next h3 =>
          have h4 := hcl.1 ⟨by linarith [h3.2, sq rmin], by linarith [h3.1, sq rmax]⟩
          simp only [List.mem_singleton, Prod.mk.injEq]
          constructor
          · rintro ⟨rfl, rfl⟩; exact ⟨h0, rfl, h4, rfl⟩
          · rintro ⟨_, h5, _, h6⟩; exact ⟨h5, h6⟩
        · next h3 =>
          have h4 := hcl.2 fun h => h3 ⟨by linarith [h.2, sq rmax], by linarith [h.1, sq rmin]⟩
          simp only [List.not_mem_nil, false_iff]
          rintro ⟨_, rfl, h5, _⟩
          refine h4 ⟨?_, by linarith [h5.2]⟩
          rcases h5.1 with h6 | h6
          · rw [h6]; nlinarith [sq_nonneg (Cylinder.rad (p + Vec3.smul t d))]
          · linarith
      · rintro u ⟨h3, h4⟩
        refine ⟨?_, by linarith⟩
        rcases h3 with h6 | h6
        · rw [h6]; nlinarith [sq_nonneg (Cylinder.rad (p + Vec3.smul u d))]
        · linarith
  · rw [if_neg fun h => h1 h.1]
    simp only [List.not_mem_nil, false_iff]
    rintro ⟨h3, _⟩
    exact h1 (hn.resolve_left h3)

/-- A crossing, said without the model. -/
def IsCrossing (c : Con) (p d : Vec3 ℝ) (x : ℝ × Bool) : Prop :=
  (0 < disc c c.rmax1 c.rmax2 p d ∧ wallEq c c.rmax1 c.rmax2 (p + Vec3.smul x.1 d) = 0 ∧ |(p + Vec3.smul x.1 d).z| < c.z / 2 ∧
    x.2 = decide (rate c c.rmax1 c.rmax2 p d x.1 < 0)) ∨
  ((0 < c.rmin1 ∨ 0 < c.rmin2) ∧ 0 < disc c c.rmin1 c.rmin2 p d ∧ wallEq c c.rmin1 c.rmin2 (p + Vec3.smul x.1 d) = 0 ∧
    |(p + Vec3.smul x.1 d).z| < c.z / 2 ∧ x.2 = !decide (rate c c.rmin1 c.rmin2 p d x.1 < 0)) ∨
  (d.z ≠ 0 ∧ (p + Vec3.smul x.1 d).z = c.z / 2 ∧ ((c.rmin2 = 0 ∨ c.rmin2 ^ 2 < Cylinder.rad (p + Vec3.smul x.1 d) ^ 2) ∧
    Cylinder.rad (p + Vec3.smul x.1 d) ^ 2 < c.rmax2 ^ 2) ∧ x.2 = decide (d.z < 0)) ∨
  (d.z ≠ 0 ∧ (p + Vec3.smul x.1 d).z = -(c.z / 2) ∧ ((c.rmin1 = 0 ∨ c.rmin1 ^ 2 < Cylinder.rad (p + Vec3.smul x.1 d) ^ 2) ∧
    Cylinder.rad (p + Vec3.smul x.1 d) ^ 2 < c.rmax1 ^ 2) ∧ x.2 = decide (d.z > 0))

theorem apexTop_zero {c : Con} (hv : Valid c) (h : apexTop c) : c.rmax2 = 0 := le_antisymm h.1 (hv.rmin2.trans hv.r2)

theorem apexBot_zero {c : Con} (hv : Valid c) (h : apexBot c) : c.rmax1 = 0 := le_antisymm h.1 (hv.rmin1.trans hv.r1)

theorem mem_crossings (c : Con) (hv : Valid c) (p d : Vec3 ℝ) (hc : Clear c p d) (x : ℝ × Bool) :
    x ∈ crossings c p d ↔ IsCrossing c p d x := by
  have e1 : (1 / 2 : ℝ) * c.z = c.z / 2 := by ring
  have e2 : -(1 / 2 : ℝ) * c.z = -(c.z / 2) := by ring
  unfold crossings IsCrossing
  rw [e1, e2, List.mem_append, List.mem_append, List.mem_append, mem_outerWall c hv p d hc, mem_inner c hv p d hc,
    mem_cap _ _ _ _ (apexTop_zero hv) p d hc.capSteep hc.top, mem_cap _ _ _ _ (apexBot_zero hv) p d hc.capSteep hc.bottom, or_assoc]

/-- The values of the equations of the walls at a crossing. -/
theorem radiusAt_top (c : Con) (hz : 0 < c.z) (r1 r2 : ℝ) : radiusAt c r1 r2 (c.z / 2) = r2 := by
  unfold radiusAt; field_simp; ring

theorem radiusAt_bottom (c : Con) (hz : 0 < c.z) (r1 r2 : ℝ) : radiusAt c r1 r2 (-(c.z / 2)) = r1 := by
  unfold radiusAt; field_simp; ring

theorem wallEq_cont (c : Con) (hz : 0 < c.z) (r1 r2 : ℝ) (p d : Vec3 ℝ) : Continuous fun u => wallEq c r1 r2 (p + Vec3.smul u d) := by
  simp only [wallEq_line c hz]; fun_prop

theorem wall_flips (c : Con) (hz : 0 < c.z) (r1 r2 : ℝ) (p d : Vec3 ℝ) (t : ℝ) (hd : 0 < disc c r1 r2 p d)
    (h0 : wallEq c r1 r2 (p + Vec3.smul t d) = 0) :
    Flips (fun u => wallEq c r1 r2 (p + Vec3.smul u d) < 0) t (decide (rate c r1 r2 p d t < 0)) := by
  simp only [wallEq_line c hz]
  exact quadratic_flips_disc _ _ _ t hd (by rw [← wallEq_line c hz]; exact h0)

/-- On the outer wall one is off the inner one. -/
theorem off_inner (c : Con) (hv : Valid c) (v : Vec3 ℝ) (hz : |v.z| < c.z / 2) (h : 0 < c.rmin1 ∨ 0 < c.rmin2) :
    wallEq c c.rmax1 c.rmax2 v < wallEq c c.rmin1 c.rmin2 v := by
  have h1 := radiusAt_pos c hv.z _ _ _ hv.rmin1 hv.rmin2 h hz
  have h2 := radiusAt_lt c hv.z _ _ _ _ _ hv.r1 hv.r2 hv.thick hz
  unfold wallEq
  nlinarith

theorem clear_at {strict closed : ℝ → Prop} {t : ℝ} (h : Clearly strict closed t) (hc : closed t) : strict t :=
  h.elim (fun h => h t (by rw [sub_self, abs_zero]; exact precision_pos.le))
    (fun h => absurd hc (h t (by rw [sub_self, abs_zero]; exact precision_pos.le)))

/-- At an end, within the ring, the inner wall is left behind. -/
theorem cap_inner (c : Con) (p d : Vec3 ℝ) (hc : Clear c p d) (t : ℝ) (h : 0 < c.rmin1 ∨ 0 < c.rmin2)
    (hz : |(p + Vec3.smul t d).z| = c.z / 2) (h0 : 0 ≤ wallEq c c.rmin1 c.rmin2 (p + Vec3.smul t d)) :
    0 < wallEq c c.rmin1 c.rmin2 (p + Vec3.smul t d) := by
  refine lt_of_le_of_ne h0 fun e => ?_
  have := clear_at ((hc.inner h).1 t e.symm) (by rw [hz]; linarith [precision_pos])
  rw [hz] at this
  exact lt_irrefl _ this

theorem crossing_flips (c : Con) (hv : Valid c) (p d : Vec3 ℝ) (hc : Clear c p d) (x : ℝ × Bool) (hx : IsCrossing c p d x) :
    Flips (fun u => Solid c (p + Vec3.smul u d)) x.1 x.2 := by
  obtain ⟨t, f⟩ := x
  have hz := hv.z
  simp only [solid_iff c hv]
  have zz : ∀ t, |(p + Vec3.smul t d).z| < c.z / 2 → ∀ᶠ u in 𝓝 t, ((p.z - c.z / 2) + u * d.z < 0 ∧ (-p.z - c.z / 2) + u * -d.z < 0) := by
    intro t h
    rw [abs_lt, Vec3.add_z, Vec3.smul_z] at h
    exact (eventually_neg (f := fun u => (p.z - c.z / 2) + u * d.z) (by fun_prop) (by linarith [h.2])).and
      (eventually_neg (f := fun u => (-p.z - c.z / 2) + u * -d.z) (by fun_prop) (by linarith [h.1]))
  have ii : ∀ t, ((0 < c.rmin1 ∨ 0 < c.rmin2) → 0 < wallEq c c.rmin1 c.rmin2 (p + Vec3.smul t d)) →
      ∀ᶠ u in 𝓝 t, ((0 < c.rmin1 ∨ 0 < c.rmin2) → ¬ wallEq c c.rmin1 c.rmin2 (p + Vec3.smul u d) < 0) := by
    intro t h
    by_cases hi : 0 < c.rmin1 ∨ 0 < c.rmin2
    · exact (eventually_pos (wallEq_cont c hz c.rmin1 c.rmin2 p d).continuousAt (h hi)).mono fun u hu _ => not_lt.2 hu.le
    · exact Eventually.of_forall fun u h => absurd h hi
  have oo : ∀ t, wallEq c c.rmax1 c.rmax2 (p + Vec3.smul t d) < 0 → ∀ᶠ u in 𝓝 t, wallEq c c.rmax1 c.rmax2 (p + Vec3.smul u d) < 0 :=
    fun t h => eventually_neg (wallEq_cont c hz c.rmax1 c.rmax2 p d).continuousAt h
  rcases hx with ⟨h1, h2, h3, h4⟩ | ⟨h0, h1, h2, h3, h4⟩ | ⟨h0, h1, h2, h4⟩ | ⟨h0, h1, h2, h4⟩
  · simp only at h2 h3 h4
    rw [h4]
    refine ((wall_flips c hz _ _ p d t h1 h2).and' (ii t fun hi => ?_)).and' (zz t h3)
    rw [← h2]; exact off_inner c hv _ h3 hi
  · simp only at h2 h3 h4
    rw [h4]
    have := ((wall_flips c hz _ _ p d t h1 h2).not.and (oo t (by rw [← h2]; exact off_inner c hv _ h3 h0))).and' (zz t h3)
    simpa only [h0, true_imp_iff] using this
  · simp only at h1 h2 h4
    rw [h4]
    have hw : wallEq c c.rmax1 c.rmax2 (p + Vec3.smul t d) < 0 := by
      unfold wallEq; rw [h1, radiusAt_top c hz, ← rad_sq]; linarith [h2.2]
    have hi : (0 < c.rmin1 ∨ 0 < c.rmin2) → 0 < wallEq c c.rmin1 c.rmin2 (p + Vec3.smul t d) := by
      intro hi
      refine cap_inner c p d hc t hi (by rw [h1, abs_of_pos (by linarith)]) ?_
      unfold wallEq; rw [h1, radiusAt_top c hz, ← rad_sq]
      rcases h2.1 with h5 | h5
      · rw [h5]; nlinarith [sq_nonneg (Cylinder.rad (p + Vec3.smul t d))]
      · linarith
    rw [Vec3.add_z, Vec3.smul_z] at h1
    refine Flips.and ?_ ((ii t hi).and (oo t hw))
    exact (linear_flips (p.z - c.z / 2) d.z t (by linarith) h0).and
      (eventually_neg (f := fun u => (-p.z - c.z / 2) + u * -d.z) (by fun_prop) (by linarith))
  · simp only at h1 h2 h4
    rw [h4]
    have hw : wallEq c c.rmax1 c.rmax2 (p + Vec3.smul t d) < 0 := by
      unfold wallEq; rw [h1, radiusAt_bottom c hz, ← rad_sq]; linarith [h2.2]
    have hi : (0 < c.rmin1 ∨ 0 < c.rmin2) → 0 < wallEq c c.rmin1 c.rmin2 (p + Vec3.smul t d) := by
      intro hi
      refine cap_inner c p d hc t hi (by rw [h1, abs_neg, abs_of_pos (by linarith)]) ?_
      unfold wallEq; rw [h1, radiusAt_bottom c hz, ← rad_sq]
      rcases h2.1 with h5 | h5
      · rw [h5]; nlinarith [sq_nonneg (Cylinder.rad (p + Vec3.smul t d))]
      · linarith
    rw [Vec3.add_z, Vec3.smul_z] at h1
    refine Flips.and ?_ ((ii t hi).and (oo t hw))
    have := (linear_flips (-p.z - c.z / 2) (-d.z) t (by linarith) (neg_ne_zero.2 h0)).and'
      (eventually_neg (f := fun u => (p.z - c.z / 2) + u * d.z) (by fun_prop) (by linarith))
    simpa only [neg_lt_zero] using this

theorem crossing_steady (c : Con) (hv : Valid c) (p d : Vec3 ℝ) (hc : Clear c p d) (t : ℝ)
    (hx : ∀ x, IsCrossing c p d x → x.1 ≠ t) : Steady (fun u => Solid c (p + Vec3.smul u d)) t := by
  have hz := hv.z
  have hp := precision_pos
  simp only [solid_iff c hv]
  have no := fun f h => hx (t, f) h rfl
  have n1 : ¬ (_ ∧ _ ∧ _) := fun h => no (decide (rate c c.rmax1 c.rmax2 p d t < 0)) (Or.inl ⟨h.1, h.2.1, h.2.2, rfl⟩)
  have n2 : ¬ (_ ∧ _ ∧ _ ∧ _) := fun h => no (!decide (rate c c.rmin1 c.rmin2 p d t < 0)) (Or.inr (Or.inl ⟨h.1, h.2.1, h.2.2.1, h.2.2.2, rfl⟩))
  have n3 : ¬ (_ ∧ _ ∧ _) := fun h => no (decide (d.z < 0)) (Or.inr (Or.inr (Or.inl ⟨h.1, h.2.1, h.2.2, rfl⟩)))
  have n4 : ¬ (_ ∧ _ ∧ _) := fun h => no (decide (d.z > 0)) (Or.inr (Or.inr (Or.inr ⟨h.1, h.2.1, h.2.2, rfl⟩)))
  simp only at n1 n2 n3 n4
  by_cases hT : 0 < (p.z - c.z / 2) + t * d.z
  · right
    filter_upwards [eventually_pos (f := fun u => (p.z - c.z / 2) + u * d.z) (by fun_prop) hT] with u hu hh
    exact absurd hh.1.1 (not_lt.2 hu.le)
  by_cases hL : 0 < (-p.z - c.z / 2) + t * -d.z
  · right
    filter_upwards [eventually_pos (f := fun u => (-p.z - c.z / 2) + u * -d.z) (by fun_prop) hL] with u hu hh
    exact absurd hh.1.2 (not_lt.2 hu.le)
  by_cases hO : 0 < wallEq c c.rmax1 c.rmax2 (p + Vec3.smul t d)
  · right
    filter_upwards [eventually_pos (wallEq_cont c hz c.rmax1 c.rmax2 p d).continuousAt hO] with u hu hh
    exact absurd hh.2.2 (not_lt.2 hu.le)
  by_cases hI : (0 < c.rmin1 ∨ 0 < c.rmin2) ∧ wallEq c c.rmin1 c.rmin2 (p + Vec3.smul t d) < 0
  · right
    filter_upwards [eventually_neg (wallEq_cont c hz c.rmin1 c.rmin2 p d).continuousAt hI.2] with u hu hh
    exact absurd hu (hh.2.1 hI.1)
  push Not at hT hL hO hI
  have hzle : |(p + Vec3.smul t d).z| ≤ c.z / 2 := by
    rw [abs_le, Vec3.add_z, Vec3.smul_z]; constructor <;> linarith
  rcases hO.lt_or_eq with hO | hO
  swap
  · -- on the outer wall
    have hin := clear_at (hc.outer.1 t hO) (by linarith)
    have hd : disc c c.rmax1 c.rmax2 p d ≤ 0 := by
      by_contra hd
      exact n1 ⟨not_le.1 hd, hO, hin⟩
    right
    refine Eventually.of_forall fun u hh => ?_
    exact absurd hh.2.2 (not_lt.2 (wall_degenerate c hz _ _ (hv.rmin1.trans hv.r1) (hv.rmin2.trans hv.r2) hv.outer p d t hO hin hd u))
  have hii : ∀ᶠ u in 𝓝 t, ((0 < c.rmin1 ∨ 0 < c.rmin2) → ¬ wallEq c c.rmin1 c.rmin2 (p + Vec3.smul u d) < 0) := by
    by_cases hi : 0 < c.rmin1 ∨ 0 < c.rmin2
    · rcases (hI hi).lt_or_eq with h | h
      · exact (eventually_pos (wallEq_cont c hz c.rmin1 c.rmin2 p d).continuousAt h).mono fun u hu _ => not_lt.2 hu.le
      · have hin := clear_at ((hc.inner hi).1 t h.symm) (by linarith)
        have hd : disc c c.rmin1 c.rmin2 p d ≤ 0 := by
          by_contra hd
          exact n2 ⟨hi, not_le.1 hd, h.symm, hin⟩
        exact Eventually.of_forall fun u _ => not_lt.2 (wall_degenerate c hz _ _ hv.rmin1 hv.rmin2 hi p d t h.symm hin hd u)
    · exact Eventually.of_forall fun u h => absurd h hi
  have hoo := eventually_neg (wallEq_cont c hz c.rmax1 c.rmax2 p d).continuousAt hO
  -- the ring at an end
  have ring : ∀ rmin rmax, radiusAt c c.rmin1 c.rmin2 (p + Vec3.smul t d).z = rmin → radiusAt c c.rmax1 c.rmax2 (p + Vec3.smul t d).z = rmax →
      rmin ^ 2 - precision ≤ Cylinder.rad (p + Vec3.smul t d) ^ 2 ∧ Cylinder.rad (p + Vec3.smul t d) ^ 2 ≤ rmax ^ 2 + precision := by
    intro rmin rmax e1 e2
    have hO' := hO
    unfold wallEq at hO'
    rw [e2, ← rad_sq] at hO'
    refine ⟨?_, by linarith⟩
    by_cases hi : 0 < c.rmin1 ∨ 0 < c.rmin2
    · have hI' := hI hi
      unfold wallEq at hI'
      rw [e1, ← rad_sq] at hI'
      linarith
    · push Not at hi
      have e3 : c.rmin1 = 0 := le_antisymm hi.1 hv.rmin1
      have e4 : c.rmin2 = 0 := le_antisymm hi.2 hv.rmin2
      rw [← e1]; unfold radiusAt; rw [e3, e4]
      nlinarith [sq_nonneg (Cylinder.rad (p + Vec3.smul t d))]
  rcases hT.lt_or_eq with hT | hT
  · rcases hL.lt_or_eq with hL | hL
    · left
      exact ((eventually_neg (f := fun u => (p.z - c.z / 2) + u * d.z) (by fun_prop) hT).and
        (eventually_neg (f := fun u => (-p.z - c.z / 2) + u * -d.z) (by fun_prop) hL)).and (hii.and hoo)
    · by_cases hd : d.z = 0
      · right
        refine Eventually.of_forall fun u hh => ?_
        have := hh.1.2
        rw [hd] at this hL; linarith
      · have hb : (p + Vec3.smul t d).z = -(c.z / 2) := by rw [Vec3.add_z, Vec3.smul_z]; linarith
        exact absurd ⟨hd, hb, clear_at (hc.bottom t hb) (ring _ _ (by rw [hb, radiusAt_bottom c hz]) (by rw [hb, radiusAt_bottom c hz]))⟩ n4
  · by_cases hd : d.z = 0
    · right
      refine Eventually.of_forall fun u hh => ?_
      have := hh.1.1
      rw [hd] at this hT; linarith
    · have hb : (p + Vec3.smul t d).z = c.z / 2 := by rw [Vec3.add_z, Vec3.smul_z]; linarith
      exact absurd ⟨hd, hb, clear_at (hc.top t hb) (ring _ _ (by rw [hb, radiusAt_top c hz]) (by rw [hb, radiusAt_top c hz]))⟩ n3

/-- A crossing is on the surface. -/
theorem crossing_onSurface (c : Con) (hv : Valid c) (p d : Vec3 ℝ) (x : ℝ × Bool) (hx : IsCrossing c p d x) :
    OnSurface c (p + Vec3.smul x.1 d) := by
  have hz := hv.z
  obtain ⟨t, f⟩ := x
  simp only [IsCrossing] at hx
  simp only
  generalize p + Vec3.smul t d = v at *
  have hr := rad_nonneg v
  have h2 := rad_sq v
  have wz : ∀ r1 r2, 0 ≤ radiusAt c r1 r2 v.z → wallEq c r1 r2 v = 0 → Cylinder.rad v = radiusAt c r1 r2 v.z := by
    intro r1 r2 h3 h4
    unfold wallEq at h4
    rw [← h2] at h4
    exact (pow_left_inj₀ hr h3 two_ne_zero).1 (by linarith)
  have lt : |v.z| < c.z / 2 → radiusAt c c.rmin1 c.rmin2 v.z < radiusAt c c.rmax1 c.rmax2 v.z := fun h => radiusAt_lt c hz _ _ _ _ _ hv.r1 hv.r2 hv.thick h
  rcases hx with ⟨_, h3, h4, _⟩ | ⟨h0, _, h3, h4, _⟩ | ⟨_, h3, h4, _⟩ | ⟨_, h3, h4, _⟩
  · have := wz _ _ (radiusAt_pos c hz _ _ _ (hv.rmin1.trans hv.r1) (hv.rmin2.trans hv.r2) hv.outer h4).le h3
    exact ⟨⟨h4.le, by rw [this]; exact (lt h4).le, this.le⟩, Or.inl h3⟩
  · have := wz _ _ (radiusAt_pos c hz _ _ _ hv.rmin1 hv.rmin2 h0 h4).le h3
    exact ⟨⟨h4.le, this.ge, by rw [this]; exact (lt h4).le⟩, Or.inr (Or.inl ⟨h0, h3⟩)⟩
  · have e : |v.z| = c.z / 2 := by rw [h3, abs_of_pos (by linarith)]
    refine ⟨⟨e.le, ?_, ?_⟩, Or.inr (Or.inr e)⟩
    · rw [h3, radiusAt_top c hz]
      rcases h4.1 with h5 | h5
      · rw [h5]; exact hr
      · exact (lt_of_pow_lt_pow_left₀ 2 hr h5).le
    · rw [h3, radiusAt_top c hz]; exact (lt_of_pow_lt_pow_left₀ 2 (hv.rmin2.trans hv.r2) h4.2).le
  · have e : |v.z| = c.z / 2 := by rw [h3, abs_neg, abs_of_pos (by linarith)]
    refine ⟨⟨e.le, ?_, ?_⟩, Or.inr (Or.inr e)⟩
    · rw [h3, radiusAt_bottom c hz]
      rcases h4.1 with h5 | h5
      · rw [h5]; exact hr
      · exact (lt_of_pow_lt_pow_left₀ 2 hr h5).le
    · rw [h3, radiusAt_bottom c hz]; exact (lt_of_pow_lt_pow_left₀ 2 (hv.rmin1.trans hv.r1) h4.2).le

theorem wallHit_fst (ok : ℝ → Prop) (inner : Bool) (a b : ℝ) (p d : Vec3 ℝ) (t : ℝ) :
    (wallHit ok inner a b p d t).map Prod.fst = [t] ∨ (wallHit ok inner a b p d t).map Prod.fst = [] := by
  unfold wallHit; simp only; split_ifs <;> simp

theorem wallHit_length (ok : ℝ → Prop) (inner : Bool) (a b : ℝ) (p d : Vec3 ℝ) (t : ℝ) : (wallHit ok inner a b p d t).length ≤ 1 := by
  have := wallHit_fst ok inner a b p d t
  rw [← List.length_map (f := Prod.fst)]
  rcases this with h | h <;> rw [h] <;> simp

theorem wall_nodup (ok : ℝ → Prop) (inner : Bool) (a b : ℝ) (p d : Vec3 ℝ) : ((wall ok inner a b p d).map Prod.fst).Nodup := by
  have one : ∀ t, ((wallHit ok inner a b p d t).map Prod.fst).Nodup := by
    intro t; rcases wallHit_fst ok inner a b p d t with h | h <;> rw [h] <;> simp
  unfold wall
  simp only
  split_ifs with h1 h2 h3 h4
  · simp
  · rw [List.map_append]
    obtain ⟨q, hq⟩ : ∃ q, q = Real.sqrt (coeffB a b (shifted p d) d * coeffB a b (shifted p d) d - 4 * coeffA b d * coeffC a b (shifted p d)) := ⟨_, rfl⟩
    have hq0 : 0 < q := by rw [hq]; exact Real.sqrt_pos.2 h3
    have hA : coeffA b d ≠ 0 := fun e => by rw [e, abs_zero] at h2; linarith [precision_pos]
    rw [← hq]
    refine List.Nodup.append (one _) (one _) ?_
    intro x hx hy
    rcases wallHit_fst ok inner a b p d ((-coeffB a b (shifted p d) d + q) / (2 * coeffA b d) + shift p d) with e1 | e1 <;> rw [e1] at hx
    · rcases wallHit_fst ok inner a b p d ((-coeffB a b (shifted p d) d - q) / (2 * coeffA b d) + shift p d) with e2 | e2 <;> rw [e2] at hy
      · rw [List.mem_singleton] at hx hy
        rw [hx] at hy
        have := add_right_cancel hy
        rw [div_left_inj' (by simpa using hA)] at this
        linarith
      · simp at hy
    · simp at hx
  · simp
  · exact one _
  · simp

theorem cap_fst (skip : Prop) (zcap rmin rmax : ℝ) (p d : Vec3 ℝ) (e : Bool) : ((cap skip zcap rmin rmax p d e).map Prod.fst).Nodup := by
  unfold cap; simp only; split_ifs <;> simp

theorem crossings_nodup (c : Con) (hv : Valid c) (p d : Vec3 ℝ) (hc : Clear c p d) : ((crossings c p d).map Prod.fst).Nodup := by
  have hz := hv.z
  have mo := mem_outerWall c hv p d hc
  have mi := mem_inner c hv p d hc
  have mt := mem_cap (apexTop c) (c.z / 2) c.rmin2 c.rmax2 (apexTop_zero hv) p d hc.capSteep hc.top (decide (d.z < 0))
  have mb := mem_cap (apexBot c) (-(c.z / 2)) c.rmin1 c.rmax1 (apexBot_zero hv) p d hc.capSteep hc.bottom (decide (d.z > 0))
  have e1 : (1 / 2 : ℝ) * c.z = c.z / 2 := by ring
  have e2 : -(1 / 2 : ℝ) * c.z = -(c.z / 2) := by ring
  have at1 : |c.z / 2| = c.z / 2 := abs_of_pos (by linarith)
  have at2 : |-(c.z / 2)| = c.z / 2 := by rw [abs_neg, at1]
  unfold crossings
  rw [e1, e2, List.map_append, List.map_append, List.map_append]
  have hi : ((inner c p d).map Prod.fst).Nodup := by
    unfold inner; split
    · exact wall_nodup _ _ _ _ _ _
    · simp
  refine List.Nodup.append (wall_nodup _ _ _ _ _ _) (List.Nodup.append (List.Nodup.append hi (cap_fst _ _ _ _ _ _ _) ?_) (cap_fst _ _ _ _ _ _ _) ?_) ?_
  · intro t h1 h2
    obtain ⟨x, hx, rfl⟩ := List.mem_map.1 h1
    obtain ⟨y, hy, hxy⟩ := List.mem_map.1 h2
    have a1 := ((mi x).1 hx).2.2.2.1
    have a2 := ((mt y).1 hy).2.1
    rw [hxy] at a2
    rw [a2, at1] at a1
    exact lt_irrefl _ a1
  · intro t h1 h2
    rw [← List.map_append] at h1
    obtain ⟨x, hx, rfl⟩ := List.mem_map.1 h1
    obtain ⟨y, hy, hxy⟩ := List.mem_map.1 h2
    have a2 := ((mb y).1 hy).2.1
    rw [hxy] at a2
    rcases List.mem_append.1 hx with hx | hx
    · have a1 := ((mi x).1 hx).2.2.2.1
      rw [a2, at2] at a1
      exact lt_irrefl _ a1
    · have a1 := ((mt x).1 hx).2.1
      rw [a2] at a1; linarith
  · intro t h1 h2
    rw [← List.map_append, ← List.map_append] at h2
    obtain ⟨x, hx, rfl⟩ := List.mem_map.1 h1
    obtain ⟨y, hy, hxy⟩ := List.mem_map.1 h2
    obtain ⟨_, a1, a3, _⟩ := (mo x).1 hx
    rcases List.mem_append.1 hy with hy | hy
    · rcases List.mem_append.1 hy with hy | hy
      · obtain ⟨b0, _, b1, _⟩ := (mi y).1 hy
        rw [hxy] at b1
        have := off_inner c hv _ a3 b0
        linarith
      · have a2 := ((mt y).1 hy).2.1
        rw [hxy] at a2
        rw [a2, at1] at a3
        exact lt_irrefl _ a3
    · have a2 := ((mb y).1 hy).2.1
      rw [hxy] at a2
      rw [a2, at2] at a3
      exact lt_irrefl _ a3

/-- The roots are zeros. -/
theorem root_zero (c : Con) (hz : 0 < c.z) (r1 r2 : ℝ) (p d : Vec3 ℝ) (hA : coeffA (slope c r1 r2) d ≠ 0) (q : ℝ)
    (hq : q * q = coeffB (mean r1 r2) (slope c r1 r2) (shifted p d) d * coeffB (mean r1 r2) (slope c r1 r2) (shifted p d) d -
      4 * coeffA (slope c r1 r2) d * coeffC (mean r1 r2) (slope c r1 r2) (shifted p d)) :
    wallEq c r1 r2 (p + Vec3.smul ((-coeffB (mean r1 r2) (slope c r1 r2) (shifted p d) d + q) / (2 * coeffA (slope c r1 r2) d) + shift p d) d) = 0 := by
  rw [wallEq_line c hz]
  rw [shift_det] at hq
  rw [shift_B]
  generalize coeffC (mean r1 r2) (slope c r1 r2) p = C at *
  generalize coeffB (mean r1 r2) (slope c r1 r2) p d = B at *
  generalize coeffA (slope c r1 r2) d = A at *
  generalize shift p d = s at *
  field_simp
  linear_combination hq

/-- Clear of the tip, the outer wall is treated like the inner one. -/
theorem outer_eq (c : Con) (hv : Valid c) (p d : Vec3 ℝ) (hc : Clear c p d) :
    outer c p d = (wall (okOuter c) false (mean c.rmax1 c.rmax2) (slope c c.rmax1 c.rmax2) p d).map (report p d) := by
  have hz := hv.z
  have hp := precision_pos
  have htip : ∀ t, wallEq c c.rmax1 c.rmax2 (p + Vec3.smul t d) = 0 → (apexTop c ∨ apexBot c) →
      ¬ |p.z + snap t * d.z - apexZ c| < precision * 1000 := by
    intro t ht ha hlt
    have hs : |snap t - t| ≤ precision := by
      have := snap_near t; have := snap_le t; rw [abs_le]; constructor <;> linarith
    unfold apexZ at hlt
    by_cases h1 : apexTop c
    · rw [if_pos h1] at hlt
      have := hc.tip.1 (apexTop_zero hv h1) t (snap t) ht hs
      rw [Vec3.add_z, Vec3.smul_z, show c.z / 2 = 1 / 2 * c.z by ring] at this
      linarith
    · rw [if_neg h1] at hlt
      have := hc.tip.2 (apexBot_zero hv (ha.resolve_left h1)) t (snap t) ht hs
      rw [Vec3.add_z, Vec3.smul_z, show -(c.z / 2) = -(1 / 2) * c.z by ring] at this
      linarith
  unfold outer
  simp only
  rw [if_neg]
  · split
    · next h =>
      rw [if_neg]
      rintro ⟨h1, _⟩
      have hdz : d.z ≠ 0 := fun e => by rw [e, abs_zero] at h; linarith [h.2.1]
      obtain ⟨t, ht⟩ : ∃ t, t = (apexZ c - p.z) / d.z := ⟨_, rfl⟩
      rw [← ht] at h1
      have hzt : (p + Vec3.smul t d).z = apexZ c := by rw [Vec3.add_z, Vec3.smul_z, ht, div_mul_cancel₀ _ hdz]; ring
      have hr := rad_sq (p + Vec3.smul t d)
      simp only [Vec3.add_x, Vec3.add_y, Vec3.smul_x, Vec3.smul_y] at hr
      have hr0 := sq_nonneg (Cylinder.rad (p + Vec3.smul t d))
      have h1' : Cylinder.rad (p + Vec3.smul t d) ^ 2 ≤ precision := by
        rw [hr]
        have : precision * precision * 1000000 ≤ precision := by unfold precision; norm_num
        nlinarith
      unfold apexZ at hzt
      by_cases hT : apexTop c
      · rw [if_pos hT] at hzt
        have e := apexTop_zero hv hT
        have e' : c.rmin2 = 0 := le_antisymm hT.2 hv.rmin2
        have := clear_at (hc.top t (by rw [hzt]; ring)) (by rw [e, e']; constructor <;> linarith)
        rw [e] at this
        nlinarith [this.2]
      · rw [if_neg hT] at hzt
        have hB := h.1.resolve_left hT
        have e := apexBot_zero hv hB
        have e' : c.rmin1 = 0 := le_antisymm hB.2 hv.rmin1
        have := clear_at (hc.bottom t (by rw [hzt]; ring)) (by rw [e, e']; constructor <;> linarith)
        rw [e] at this
        nlinarith [this.2]
    · rfl
  · rintro ⟨_, hA, hd, ha, h1, _⟩
    have hA0 : coeffA (slope c c.rmax1 c.rmax2) d ≠ 0 := fun e => by rw [e, abs_zero] at hA; linarith
    exact htip _ (root_zero c hz _ _ p d hA0 _ (Real.mul_self_sqrt hd.le)) ha h1

theorem surface_eq (c : Con) (hv : Valid c) (p d : Vec3 ℝ) (hc : Clear c p d) : surface c p d = (crossings c p d).map (report p d) := by
  unfold surface crossings
  rw [outer_eq c hv p d hc, ← List.map_append]

theorem mem_bounds (c : Con) (hv : Valid c) (v : Vec3 ℝ) (h : Mem c v) :
    |v.x| ≤ max c.rmax1 c.rmax2 ∧ |v.y| ≤ max c.rmax1 c.rmax2 ∧ |v.z| ≤ c.z / 2 := by
  have hz := hv.z
  obtain ⟨h1, _, h3⟩ := h
  have hm : radiusAt c c.rmax1 c.rmax2 v.z ≤ max c.rmax1 c.rmax2 := by
    obtain ⟨a1, a2⟩ := abs_le.1 h1
    have e : radiusAt c c.rmax1 c.rmax2 v.z = c.rmax1 * (1 / 2 - v.z / c.z) + c.rmax2 * (v.z / c.z + 1 / 2) := by unfold radiusAt; ring
    have b1 : v.z / c.z ≤ 1 / 2 := by rw [div_le_iff₀ hz]; linarith
    have b2 : -(1 / 2) ≤ v.z / c.z := by rw [le_div_iff₀ hz]; linarith
    have m1 := mul_le_mul_of_nonneg_right (le_max_left c.rmax1 c.rmax2) (show 0 ≤ 1 / 2 - v.z / c.z by linarith)
    have m2 := mul_le_mul_of_nonneg_right (le_max_right c.rmax1 c.rmax2) (show 0 ≤ v.z / c.z + 1 / 2 by linarith)
    rw [e]; nlinarith
  have hr := rad_nonneg v
  have h2 := rad_sq v
  have h4 : v.x ^ 2 + v.y ^ 2 ≤ max c.rmax1 c.rmax2 ^ 2 := by rw [← h2]; exact pow_le_pow_left₀ hr (h3.trans hm) 2
  refine ⟨abs_le_of_sq_le_sq (by nlinarith [sq_nonneg v.y]) (by linarith), abs_le_of_sq_le_sq (by nlinarith [sq_nonneg v.x]) (by linarith), h1⟩

theorem bounded (c : Con) (hv : Valid c) (p d : Vec3 ℝ) (hd : d ≠ 0) : ∃ M, ∀ u, Solid c (p + Vec3.smul u d) → |u| ≤ M := by
  have hb := fun u (h : Solid c (p + Vec3.smul u d)) => mem_bounds c hv _ ⟨h.1.le, h.2.1, h.2.2.le⟩
  by_cases h1 : d.x = 0
  · by_cases h2 : d.y = 0
    · have h3 : d.z ≠ 0 := by
        intro h3; apply hd; obtain ⟨x, y, z⟩ := d; simp only at h1 h2 h3; rw [h1, h2, h3]; rfl
      exact ⟨_, fun u hu => bounded_coordinate p.z d.z _ u h3 (hb u hu).2.2⟩
    · exact ⟨_, fun u hu => bounded_coordinate p.y d.y _ u h2 (hb u hu).2.1⟩
  · exact ⟨_, fun u hu => bounded_coordinate p.x d.x _ u h1 (hb u hu).1⟩

/-! ### Theorems -/

/-- C102: a cone without a cut. The crossings are reported in order, enter and leave in turn, each is on the surface, and inside is
exactly where the line is in the cone, but for 1e-9 on either side of a crossing. -/
theorem C102_describes (srt : List SHit → List SHit) (hsrt : IsHitSort srt) (c : Con) (hcut : c.hasPhiCut = false) (hv : Valid c)
    (p d : Vec3 ℝ) (hc : Clear c p d) :
    Describes precision (fun t => Solid c (p + Vec3.smul t d)) (compute srt c p d) ∧
      ∀ h ∈ compute srt c p d, h.position = p + Vec3.smul h.distance d ∧ ∃ t : ℝ, OnSurface c (p + Vec3.smul t d) ∧
        h.distance = if 0 < t ∧ t < 1 / 1000000000 then 0 else t := by
  obtain ⟨M, hM⟩ := bounded c hv p d hc.direction
  have hm := mem_crossings c hv p d hc
  have := describes_plain srt hsrt (crossings c p d) (report p d) (fun _ => rfl) (fun _ => rfl)
    (snap_pairwise _ (fun t => OnSurface c (p + Vec3.smul t d)) (crossings_nodup c hv p d hc)
      (fun x hx => crossing_onSurface c hv p d x ((hm x).1 hx)) hc.apart)
    (fun x hx => crossing_flips c hv p d hc x ((hm x).1 hx))
    (fun t ht => crossing_steady c hv p d hc t fun x hx => ht x ((hm x).2 hx)) M hM
  have e : compute srt c p d = Cylinder.dedup none ((srt ((crossings c p d).map fun h => (⟨report p d h, 0⟩ : SHit))).map SHit.isect) := by
    unfold compute
    rw [hcut, surface_eq c hv p d hc, List.map_map]; rfl
  rw [e]
  refine ⟨this.1, fun h hh => ?_⟩
  obtain ⟨x, hx, rfl⟩ := this.2 h hh
  exact ⟨rfl, x.1, crossing_onSurface c hv p d x ((hm x).1 hx), rfl⟩

/-- C102: a cone with a cut in azimuth. -/
theorem C102_cut (srt : List SHit → List SHit) (hsrt : IsHitSort srt) (c : Con) (hcut : c.hasPhiCut = true) (hv : Valid c)
    (hd0 : 0 < c.deltaPhi) (hd1 : c.deltaPhi < 2 * Real.pi) (p d : Vec3 ℝ) (hc : Clear c p d)
    (hw : Phi.Clean c.startPhi c.deltaPhi p d ∨ Phi.Vertical c.startPhi c.deltaPhi p d) (hsp : Phi.Spread c.startPhi c.deltaPhi p d) :
    (compute srt c p d).Pairwise (fun a b => a.distance ≤ b.distance) ∧ Alternates false (compute srt c p d) ∧
    ∀ t : ℝ, (∀ u : ℝ, OnSurface c (p + Vec3.smul u d) ∨ Phi.planeDist c.startPhi (p + Vec3.smul u d) = 0 ∨
        Phi.planeDist (c.startPhi + c.deltaPhi) (p + Vec3.smul u d) = 0 → 2 * precision ≤ |u - t|) →
      (stateFrom false (compute srt c p d) t = true ↔
        Solid c (p + Vec3.smul t d) ∧ Phi.InWedge c.startPhi c.deltaPhi (p + Vec3.smul t d)) := by
  obtain ⟨M, hM⟩ := bounded c hv p d hc.direction
  have hm := mem_crossings c hv p d hc
  have := describes_cut srt hsrt (crossings c p d) (report p d) (fun _ => rfl) (fun _ => rfl)
    (snap_pairwise _ (fun t => OnSurface c (p + Vec3.smul t d)) (crossings_nodup c hv p d hc)
      (fun x hx => crossing_onSurface c hv p d x ((hm x).1 hx)) hc.apart)
    (fun x hx => crossing_flips c hv p d hc x ((hm x).1 hx))
    (fun t ht => crossing_steady c hv p d hc t fun x hx => ht x ((hm x).2 hx)) M hM
    c.startPhi c.deltaPhi hd0 hd1 p d hw hsp
    (fun k => if k = 0 then false else Phi.initialPhiState p.x p.y d.x d.y c.startPhi c.deltaPhi) rfl rfl (compute srt c p d) (by
      unfold compute
      rw [hcut, surface_eq c hv p d hc, List.map_map]; rfl)
  refine ⟨this.1, this.2.1, fun t ht => this.2.2 t fun u hu => ht u ?_⟩
  rcases hu with ⟨x, hx, rfl⟩ | hu
  · exact Or.inl (crossing_onSurface c hv p d x ((hm x).1 hx))
  · exact Or.inr hu

/-- The line changes between outside and between the ends where it passes through the plane of an end. -/
theorem end_flips (c : Con) (hz : 0 < c.z) (p d : Vec3 ℝ) (t zt : ℝ) (e : Bool) (hd : d.z ≠ 0) (ht : p.z + t * d.z = zt)
    (h : zt = c.z / 2 ∧ e = decide (d.z < 0) ∨ zt = -(c.z / 2) ∧ e = decide (d.z > 0)) :
    Flips (fun u => (p.z - c.z / 2) + u * d.z < 0 ∧ (-p.z - c.z / 2) + u * -d.z < 0) t e := by
  rcases h with ⟨h, rfl⟩ | ⟨h, rfl⟩
  · exact (linear_flips (p.z - c.z / 2) d.z t (by linarith) hd).and
      (eventually_neg (f := fun u => (-p.z - c.z / 2) + u * -d.z) (by fun_prop) (by linarith))
  · have := (linear_flips (-p.z - c.z / 2) (-d.z) t (by linarith) (neg_ne_zero.2 hd)).and'
      (eventually_neg (f := fun u => (p.z - c.z / 2) + u * d.z) (by fun_prop) (by linarith))
    simpa only [neg_lt_zero] using this

/-- C102: a full cone with a tip, and a line through the tip that goes on within the cone and leaves it through its base: it is
reported to pass the tip and the base, and to be inside in between. -/
theorem C102_tip (srt : List SHit → List SHit) (hsrt : IsHitSort srt) (c : Con) (hcut : c.hasPhiCut = false) (hv : Valid c)
    (h1 : c.rmin1 = 0) (h2 : c.rmin2 = 0) (zt : ℝ) (htip : zt = c.z / 2 ∧ c.rmax2 = 0 ∨ zt = -(c.z / 2) ∧ c.rmax1 = 0)
    (p d : Vec3 ℝ) (t : ℝ) (ht : p + Vec3.smul t d = ⟨0, 0, zt⟩) (hunit : Vec3.dot d d = 1)
    (hin : d.x * d.x + d.y * d.y - (c.rmax2 - c.rmax1) / c.z * ((c.rmax2 - c.rmax1) / c.z) * d.z * d.z < -precision)
    (hdz : precision < |d.z|) (hbase : CapClear (-zt) 0 (max c.rmax1 c.rmax2) p d) (hlong : 2 * precision ≤ c.z) :
    Describes precision (fun u => Solid c (p + Vec3.smul u d)) (compute srt c p d) ∧ (compute srt c p d).length = 2 ∧
      ∃ h ∈ compute srt c p d, h.position = ⟨0, 0, zt⟩ := by
  have hz := hv.z
  have hp := precision_pos
  obtain ⟨b, hb⟩ : ∃ b, b = slope c c.rmax1 c.rmax2 := ⟨_, rfl⟩
  obtain ⟨a, ha⟩ : ∃ a, a = mean c.rmax1 c.rmax2 := ⟨_, rfl⟩
  have hA : coeffA b d < -precision := by
    rw [hb]; unfold coeffA slope; rw [if_pos hz]; exact hin
  have hdz0 : d.z ≠ 0 := fun e => by rw [e, abs_zero] at hdz; linarith
  have hx : p.x + t * d.x = 0 := congrArg Vec3.x ht
  have hy : p.y + t * d.y = 0 := congrArg Vec3.y ht
  have hzt : p.z + t * d.z = zt := congrArg Vec3.z ht
  have hat : |zt| = c.z / 2 := by
    rcases htip with h | h <;> rw [h.1]
    · exact abs_of_pos (by linarith)
    · rw [abs_neg]; exact abs_of_pos (by linarith)
  -- the tip has radius zero
  have hr0 : a + b * zt = 0 := by
    rw [ha, hb, ← radiusAt_eq c hz]
    rcases htip with h | h
    · rw [h.1, radiusAt_top c hz]; exact h.2
    · rw [h.1, radiusAt_bottom c hz]; exact h.2
  have hxd : p.x = -t * d.x := by linarith
  have hyd : p.y = -t * d.y := by linarith
  have hzd : a + b * p.z = -t * (b * d.z) := by linear_combination hr0 + b * hzt
  have hB : coeffB a b p d = -2 * t * coeffA b d := by
    unfold coeffA coeffB; rw [hzd, hxd, hyd]; ring
  have hC : coeffC a b p = t ^ 2 * coeffA b d := by
    unfold coeffA coeffC; rw [hzd, hxd, hyd]; ring
  have hline : ∀ u, wallEq c c.rmax1 c.rmax2 (p + Vec3.smul u d) = coeffA b d * (u - t) ^ 2 := by
    intro u; rw [wallEq_line c hz, ← ha, ← hb, hB, hC]; ring
  have hdet : coeffB a b (shifted p d) d * coeffB a b (shifted p d) d - 4 * coeffA b d * coeffC a b (shifted p d) = 0 := by
    rw [shift_det, hB, hC]; ring
  have hCs : coeffC a b (shifted p d) ≤ precision := by
    rw [shift_C, hB, hC]
    have : t ^ 2 * coeffA b d + shift p d * (-2 * t * coeffA b d) + shift p d ^ 2 * coeffA b d = coeffA b d * (shift p d - t) ^ 2 := by ring
    rw [this]
    nlinarith [sq_nonneg (shift p d - t)]
  have hwall : wall (okOuter c) false a b p d = [] := by
    unfold wall; simp only [hdet]
    split
    · rfl
    · rw [if_pos (by rw [abs_of_neg (by linarith)]; linarith), if_neg (lt_irrefl _)]
  -- which end
  have hends : (apexTop c ∨ apexBot c) ∧ apexZ c = zt ∧
      (zt = c.z / 2 ∧ apexEntering c d = decide (d.z < 0) ∨ zt = -(c.z / 2) ∧ apexEntering c d = decide (d.z > 0)) := by
    rcases htip with h | h
    · have hT : apexTop c := ⟨h.2.le, h2.le⟩
      refine ⟨Or.inl hT, ?_, Or.inl ⟨h.1, ?_⟩⟩
      · unfold apexZ; rw [if_pos hT, h.1]; ring
      · unfold apexEntering; rw [if_pos hT]
    · have hB : apexBot c := ⟨h.2.le, h1.le⟩
      have hT : ¬ apexTop c := fun hT => by
        have e1 := apexTop_zero hv hT
        rcases hv.outer with h3 | h3
        · linarith [h.2]
        · linarith
      refine ⟨Or.inr hB, ?_, Or.inr ⟨h.1, ?_⟩⟩
      · unfold apexZ; rw [if_neg hT, h.1]; ring
      · unfold apexEntering; rw [if_neg hT]
  have htt : (zt - p.z) / d.z = t := by rw [div_eq_iff hdz0]; linarith
  have hout : outer c p d = [⟨snap t, 0, apexEntering c d, ⟨0, 0, zt⟩⟩] := by
    subst ha hb
    unfold outer
    simp only
    rw [if_neg]
    · rw [hwall, if_pos ⟨hends.1, hdz, by simp⟩, hends.2.1, htt, hx, hy, if_pos ⟨by rw [mul_zero, add_zero]; positivity, hCs⟩]
      rfl
    · rintro ⟨_, _, h3, _⟩
      rw [hdet] at h3
      exact lt_irrefl _ h3
  have hinner : inner c p d = [] := by
    unfold inner; rw [if_neg]; rw [h1, h2]; simp
  -- the base
  obtain ⟨tb, htb⟩ : ∃ tb, tb = (-zt - p.z) / d.z := ⟨_, rfl⟩
  have hzb : p.z + tb * d.z = -zt := by rw [htb, div_mul_cancel₀ _ hdz0]; ring
  have hzpos : zt ≠ 0 := fun e => by rw [e, abs_zero] at hat; linarith
  have hne : tb ≠ t := fun e => by rw [e, hzt] at hzb; apply hzpos; linarith
  have hrad : Cylinder.rad (p + Vec3.smul tb d) ^ 2 < (max c.rmax1 c.rmax2) ^ 2 := by
    have := hline tb
    have hneg : coeffA b d * (tb - t) ^ 2 < 0 := mul_neg_of_neg_of_pos (by linarith) (by have := sub_ne_zero.2 hne; positivity)
    rw [← this] at hneg
    unfold wallEq at hneg
    rw [← rad_sq, Vec3.add_z, Vec3.smul_z, hzb] at hneg
    rcases htip with h | h
    · rw [h.1, radiusAt_bottom c hz] at hneg
      rw [h.2, max_eq_left (hv.rmin1.trans hv.r1)]; linarith
    · rw [h.1, neg_neg, radiusAt_top c hz] at hneg
      rw [h.2, max_eq_right (hv.rmin2.trans hv.r2)]; linarith
  have one : ∀ (l : List (ℝ × Bool)) x, l.length ≤ 1 → x ∈ l → l = [x] := by
    intro l x h3 h4
    match l, h3, h4 with
    | [y], _, h4 => rw [List.mem_singleton.1 h4]
  have clen : ∀ skip zcap rmin rmax e, (cap skip zcap rmin rmax p d e).length ≤ 1 := by
    intros; unfold cap; simp only; split_ifs <;> simp
  have hcaps : ∃ fb, (-zt = c.z / 2 ∧ fb = decide (d.z < 0) ∨ -zt = -(c.z / 2) ∧ fb = decide (d.z > 0)) ∧
      cap (apexTop c) (1 / 2 * c.z) c.rmin2 c.rmax2 p d (decide (d.z < 0)) ++
        cap (apexBot c) (-(1 / 2) * c.z) c.rmin1 c.rmax1 p d (decide (d.z > 0)) = [(tb, fb)] := by
    have e1 : (1 / 2 : ℝ) * c.z = c.z / 2 := by ring
    have e2 : -(1 / 2 : ℝ) * c.z = -(c.z / 2) := by ring
    rw [e1, e2]
    rcases htip with h | h
    · refine ⟨decide (d.z > 0), Or.inr ⟨by rw [h.1], rfl⟩, ?_⟩
      have s1 : cap (apexTop c) (c.z / 2) c.rmin2 c.rmax2 p d (decide (d.z < 0)) = [] := by
        unfold cap; rw [if_neg fun hh => hh.2 ⟨h.2.le, h2.le⟩]
      rw [s1, List.nil_append]
      refine one _ _ (clen _ _ _ _ _) ?_
      rw [h.1, h.2, max_eq_left (hv.rmin1.trans hv.r1), ← h1] at hbase
      rw [h.1] at hzb
      rw [h.2, max_eq_left (hv.rmin1.trans hv.r1)] at hrad
      exact (mem_cap _ _ _ _ (apexBot_zero hv) p d (Or.inr hdz) hbase _ _).2 ⟨hdz0, hzb, ⟨Or.inl h1, hrad⟩, rfl⟩
    · refine ⟨decide (d.z < 0), Or.inl ⟨by rw [h.1, neg_neg], rfl⟩, ?_⟩
      have s1 : cap (apexBot c) (-(c.z / 2)) c.rmin1 c.rmax1 p d (decide (d.z > 0)) = [] := by
        unfold cap; rw [if_neg fun hh => hh.2 ⟨h.2.le, h1.le⟩]
      rw [s1, List.append_nil]
      refine one _ _ (clen _ _ _ _ _) ?_
      rw [h.1, neg_neg, h.2, max_eq_right (hv.rmin2.trans hv.r2), ← h2] at hbase
      rw [h.1, neg_neg] at hzb
      rw [h.2, max_eq_right (hv.rmin2.trans hv.r2)] at hrad
      exact (mem_cap _ _ _ _ (apexTop_zero hv) p d (Or.inr hdz) hbase _ _).2 ⟨hdz0, hzb, ⟨Or.inl h2, hrad⟩, rfl⟩
  obtain ⟨fb, hfb, hcaps⟩ := hcaps
  obtain ⟨ft, hft⟩ : ∃ ft, ft = apexEntering c d := ⟨_, rfl⟩
  rw [← hft] at hends hout
  obtain ⟨f, hf⟩ : ∃ f : ℝ × Bool → Isect, f = fun x => if x.1 = t then ⟨snap x.1, 0, x.2, ⟨0, 0, zt⟩⟩ else report p d x := ⟨_, rfl⟩
  have hfd : ∀ x, (f x).distance = snap x.1 := by intro x; rw [hf]; simp only; split <;> rfl
  have hfe : ∀ x, (f x).entering = x.2 := by intro x; rw [hf]; simp only; split <;> rfl
  have hsurf : surface c p d = [(t, ft), (tb, fb)].map f := by
    unfold surface
    rw [hinner, List.nil_append, hcaps, hout, hf]
    simp [hne]
  -- the solid along the line
  have hS : ∀ u, Solid c (p + Vec3.smul u d) ↔ ((p.z - c.z / 2) + u * d.z < 0 ∧ (-p.z - c.z / 2) + u * -d.z < 0) ∧ u ≠ t := by
    intro u
    rw [solid_iff c hv, hline, h1, h2]
    refine and_congr_right fun _ => ?_
    constructor
    · rintro ⟨_, h⟩ rfl; simp at h
    · intro h
      exact ⟨fun h => by simp at h, mul_neg_of_neg_of_pos (by linarith) (by have := sub_ne_zero.2 h; positivity)⟩
  have hnt : ¬ ((p.z - c.z / 2) + t * d.z < 0 ∧ (-p.z - c.z / 2) + t * -d.z < 0) := by
    rintro ⟨h3, h4⟩
    rcases htip with h | h <;> linarith
  have hS' : (fun u => Solid c (p + Vec3.smul u d)) = fun u => (p.z - c.z / 2) + u * d.z < 0 ∧ (-p.z - c.z / 2) + u * -d.z < 0 := by
    funext u
    rw [hS]
    exact propext ⟨fun h => h.1, fun h => ⟨h, fun e => by rw [e] at h; exact hnt h⟩⟩
  have hdle : |d.z| ≤ 1 := by
    unfold Vec3.dot at hunit
    exact abs_le_of_sq_le_sq (b := 1) (by nlinarith [mul_self_nonneg d.x, mul_self_nonneg d.y]) (by norm_num)
  have hap : [(t, ft), (tb, fb)].Pairwise (fun a b => precision ≤ |snap a.1 - snap b.1|) := by
    refine snap_pairwise _ (fun u => |p.z + u * d.z| = c.z / 2) (by simpa using Ne.symm hne) ?_ ?_
    · intro x hx
      simp only [List.mem_cons, List.not_mem_nil, or_false] at hx
      rcases hx with rfl | rfl
      · rw [hzt, hat]
      · rw [hzb, abs_neg, hat]
    · intro s u hsu h3 h4
      by_contra hlt
      push Not at hlt
      have hne2 : (u - s) * d.z ≠ 0 := mul_ne_zero (by linarith) hdz0
      have hsm : |(u - s) * d.z| < c.z := by
        have hus : 0 < u - s := by linarith
        have : (u - s) * |d.z| ≤ u - s := mul_le_of_le_one_right hus.le hdle
        rw [abs_mul, abs_of_pos hus]
        linarith
      rcases abs_cases (p.z + s * d.z) with h5 | h5 <;> rcases abs_cases (p.z + u * d.z) with h6 | h6
      · exact hne2 (by linarith)
      · have : (u - s) * d.z = -c.z := by linarith
        rw [this, abs_neg, abs_of_pos hz] at hsm; linarith
      · have : (u - s) * d.z = c.z := by linarith
        rw [this, abs_of_pos hz] at hsm; linarith
      · exact hne2 (by linarith)
  have hfl : ∀ x ∈ [(t, ft), (tb, fb)], Flips (fun u => Solid c (p + Vec3.smul u d)) x.1 x.2 := by
    rw [hS']
    intro x hx
    simp only [List.mem_cons, List.not_mem_nil, or_false] at hx
    rcases hx with rfl | rfl
    · exact end_flips c hz p d t zt ft hdz0 hzt hends.2.2
    · exact end_flips c hz p d tb (-zt) fb hdz0 hzb hfb
  have hst : ∀ u, (∀ x ∈ [(t, ft), (tb, fb)], x.1 ≠ u) → Steady (fun u => Solid c (p + Vec3.smul u d)) u := by
    rw [hS']
    intro u hu
    have n1 : t ≠ u := hu (t, ft) (by simp)
    have n2 : tb ≠ u := hu (tb, fb) (by simp)
    have m1 : p.z + u * d.z ≠ zt := fun e => n1 (mul_right_cancel₀ hdz0 (by linarith))
    have m2 : p.z + u * d.z ≠ -zt := fun e => n2 (mul_right_cancel₀ hdz0 (by linarith))
    have m3 : p.z + u * d.z ≠ c.z / 2 ∧ p.z + u * d.z ≠ -(c.z / 2) := by
      rcases htip with h | h
      · rw [h.1] at m1 m2; exact ⟨m1, m2⟩
      · rw [h.1] at m1 m2; rw [neg_neg] at m2; exact ⟨m2, m1⟩
    rcases lt_or_gt_of_ne m3.1 with h3 | h3
    · rcases lt_or_gt_of_ne m3.2 with h4 | h4
      · right
        filter_upwards [eventually_pos (f := fun u => (-p.z - c.z / 2) + u * -d.z) (by fun_prop) (show 0 < (-p.z - c.z / 2) + u * -d.z by linarith)] with w hw hh
        exact absurd hh.2 (not_lt.2 hw.le)
      · left
        exact (eventually_neg (f := fun u => (p.z - c.z / 2) + u * d.z) (by fun_prop) (by linarith)).and
          (eventually_neg (f := fun u => (-p.z - c.z / 2) + u * -d.z) (by fun_prop) (by linarith))
    · right
      filter_upwards [eventually_pos (f := fun u => (p.z - c.z / 2) + u * d.z) (by fun_prop) (show 0 < (p.z - c.z / 2) + u * d.z by linarith)] with w hw hh
      exact absurd hh.1 (not_lt.2 hw.le)
  obtain ⟨M, hM⟩ := bounded c hv p d (fun e => by rw [e] at hdz0; exact hdz0 rfl)
  have hdes := describes_plain srt hsrt [(t, ft), (tb, fb)] f hfd hfe hap hfl hst M hM
  have e : compute srt c p d = Cylinder.dedup none ((srt ([(t, ft), (tb, fb)].map fun h => (⟨f h, 0⟩ : SHit))).map SHit.isect) := by
    unfold compute
    rw [hcut, hsurf, List.map_map]; rfl
  have hperm : ((srt ([(t, ft), (tb, fb)].map fun h => (⟨f h, 0⟩ : SHit))).map SHit.isect).Perm ([(t, ft), (tb, fb)].map f) := by
    have := (hsrt ([(t, ft), (tb, fb)].map fun h => (⟨f h, 0⟩ : SHit))).1.map SHit.isect
    rw [List.map_map] at this
    exact this
  have hgap : ((srt ([(t, ft), (tb, fb)].map fun h => (⟨f h, 0⟩ : SHit))).map SHit.isect).Pairwise (fun a b => precision ≤ |a.distance - b.distance|) := by
    have h2 : ([(t, ft), (tb, fb)].map f).Pairwise (fun a b => precision ≤ |a.distance - b.distance|) := by
      rw [List.pairwise_map]; exact hap.imp fun {a b} h => by rw [hfd, hfd]; exact h
    exact (hperm.pairwise_iff (fun {a b} h => by rwa [abs_sub_comm])).2 h2
  rw [e]
  refine ⟨hdes.1, ?_, ?_⟩
  · rw [(Cylinder.dedup_id _ hgap).2, hperm.length_eq]; rfl
  · rw [(Cylinder.dedup_id _ hgap).2]
    refine ⟨f (t, ft), hperm.mem_iff.2 (by simp), ?_⟩
    rw [hf]; simp

/-- C102: the constructors refuse a height or two outer radii that are not positive, and an extent in azimuth that is not; otherwise
they order the radii of each end and limit the extent. -/
theorem C102_constructors (rmin1 rmax1 rmin2 rmax2 z start delta : ℝ) :
    (make rmin1 rmax1 rmin2 rmax2 z = none ↔ z ≤ 0 ∨ max rmin1 rmax1 ≤ 0 ∧ max rmin2 rmax2 ≤ 0) ∧
    (makePhi rmin1 rmax1 rmin2 rmax2 z start delta = none ↔ z ≤ 0 ∨ max rmin1 rmax1 ≤ 0 ∧ max rmin2 rmax2 ≤ 0 ∨ delta ≤ 0) ∧
    (∀ c, make rmin1 rmax1 rmin2 rmax2 z = some c ∨ makePhi rmin1 rmax1 rmin2 rmax2 z start delta = some c →
      c.rmin1 = min rmin1 rmax1 ∧ c.rmax1 = max rmin1 rmax1 ∧ c.rmin2 = min rmin2 rmax2 ∧ c.rmax2 = max rmin2 rmax2 ∧ c.z = z ∧
      0 < c.deltaPhi ∧ c.deltaPhi ≤ 2 * Real.pi ∧
      (0 ≤ rmin1 → 0 ≤ rmax1 → 0 ≤ rmin2 → 0 ≤ rmax2 → (rmin1 ≠ rmax1 ∨ rmin2 ≠ rmax2) → Valid c)) ∧
    (∀ c, make rmin1 rmax1 rmin2 rmax2 z = some c → c.hasPhiCut = false) ∧
    ∀ c, makePhi rmin1 rmax1 rmin2 rmax2 z start delta = some c → c.startPhi = start ∧ c.deltaPhi = min delta (2 * Real.pi) ∧
      (c.hasPhiCut = true ↔ c.deltaPhi < 2 * Real.pi - 1 / 1000000000) := by
  have hpi := Real.two_pi_pos
  have o : ∀ a b : ℝ, (if a > b then (b, a) else (a, b)) = (min a b, max a b) := by
    intro a b; split
    · next h => rw [min_eq_right h.le, max_eq_left h.le]
    · next h => rw [min_eq_left (not_lt.1 h), max_eq_right (not_lt.1 h)]
  have m : (if delta > 2 * Real.pi then 2 * Real.pi else delta) = min delta (2 * Real.pi) := by
    split
    · next h => rw [min_eq_right h.le]
    · next h => rw [min_eq_left (not_lt.1 h)]
  have valid : ∀ c : Con, c.rmin1 = min rmin1 rmax1 → c.rmax1 = max rmin1 rmax1 → c.rmin2 = min rmin2 rmax2 → c.rmax2 = max rmin2 rmax2 →
      0 < c.z → 0 ≤ rmin1 → 0 ≤ rmax1 → 0 ≤ rmin2 → 0 ≤ rmax2 → (rmin1 ≠ rmax1 ∨ rmin2 ≠ rmax2) → Valid c := by
    intro c e1 e2 e3 e4 e5 a1 a2 a3 a4 a5
    refine ⟨e5, ?_, ?_, ?_, ?_, ?_⟩
    · rw [e1]; exact le_min a1 a2
    · rw [e3]; exact le_min a3 a4
    · rw [e1, e2]; exact min_le_max
    · rw [e3, e4]; exact min_le_max
    · rw [e1, e2, e3, e4]; exact a5.imp min_lt_max.2 min_lt_max.2
  unfold make makePhi
  simp only [o, m]
  by_cases h1 : z ≤ 0
  · simp [h1]
  · simp only [h1, false_or]
    by_cases h2 : max rmin1 rmax1 ≤ 0 ∧ max rmin2 rmax2 ≤ 0
    · simp only [h2]; simp
    · simp only [h2, false_or]
      by_cases h3 : delta ≤ 0
      · simp only [h3]
        refine ⟨by simp, by simp, ?_, ?_, by simp⟩
        · rintro c (h | h)
          · obtain rfl := (Option.some.inj h).symm
            exact ⟨rfl, rfl, rfl, rfl, rfl, hpi, le_rfl, valid _ rfl rfl rfl rfl (not_le.1 h1)⟩
          · simp at h
        · intro c h
          obtain rfl := (Option.some.inj h).symm
          rfl
      · simp only [h3]
        refine ⟨by simp, by simp, ?_, ?_, ?_⟩
        · rintro c (h | h)
          · obtain rfl := (Option.some.inj h).symm
            exact ⟨rfl, rfl, rfl, rfl, rfl, hpi, le_rfl, valid _ rfl rfl rfl rfl (not_le.1 h1)⟩
          · obtain rfl := (Option.some.inj h).symm
            exact ⟨rfl, rfl, rfl, rfl, rfl, lt_min (not_le.1 h3) hpi, min_le_right _ _, valid _ rfl rfl rfl rfl (not_le.1 h1)⟩
        · intro c h
          obtain rfl := (Option.some.inj h).symm
          rfl
        · intro c h
          obtain rfl := (Option.some.inj h).symm
          exact ⟨rfl, rfl, by simp⟩

theorem wall_length (ok : ℝ → Prop) (inner : Bool) (a b : ℝ) (p d : Vec3 ℝ) : (wall ok inner a b p d).length ≤ 2 := by
  unfold wall
  simp only
  split_ifs
  · simp
  · rw [List.length_append]; exact Nat.add_le_add (wallHit_length _ _ _ _ _ _ _) (wallHit_length _ _ _ _ _ _ _)
  · simp
  · exact (wallHit_length _ _ _ _ _ _ _).trans (by norm_num)
  · simp

/-- C102: the array holds all that is found (its length is twelve). -/
theorem C102_capacity (c : Con) (p d : Vec3 ℝ) :
    (surface c p d).length + (Phi.wedgeHits snap c.startPhi c.deltaPhi p d).length ≤ 12 := by
  have hw := Phi.wedgeHits_length snap c.startPhi c.deltaPhi p d
  have ho : (outer c p d).length ≤ 3 := by
    have := wall_length (okOuter c) false (mean c.rmax1 c.rmax2) (slope c c.rmax1 c.rmax2) p d
    unfold outer; simp only
    split_ifs <;> simp only [List.length_singleton, List.length_nil, List.length_append, List.length_map] <;> omega
  have hi : (inner c p d).length ≤ 2 := by
    unfold inner; split
    · exact wall_length _ _ _ _ _ _
    · simp
  have hcap : ∀ skip zcap rmin rmax e, (cap skip zcap rmin rmax p d e).length ≤ 1 := by
    intros; unfold cap; simp only; split_ifs <;> simp
  have h3 := hcap (apexTop c) (1 / 2 * c.z) c.rmin2 c.rmax2 (decide (d.z < 0))
  have h4 := hcap (apexBot c) (-(1 / 2) * c.z) c.rmin1 c.rmax1 (decide (d.z > 0))
  unfold surface
  simp only [List.length_append, List.length_map]
  omega

/-- C102: the bounding box contains the cone and, without a cut, is the smallest that does. -/
theorem C102_bounding_box (c : Con) (hv : Valid c) :
    (∀ v, Mem c v → AABB.Mem v (boundingBox c)) ∧
    (∀ b : AABB ℝ, (∀ v, Mem c v → AABB.Mem v b) → AABB.Sub (boundingBox c) b) := by
  have hz := hv.z
  refine ⟨fun v h => ?_, fun b hb => ?_⟩
  · obtain ⟨h1, h2, h3⟩ := mem_bounds c hv v h
    have h3 := abs_le.1 h3
    exact ⟨abs_le.1 h1, abs_le.1 h2, by simp only [boundingBox]; linarith [h3.1], by simp only [boundingBox]; linarith [h3.2]⟩
  · have rx : ∀ r z, 0 ≤ r → Cylinder.rad ⟨r, 0, z⟩ = r := by intro r z h; unfold Cylinder.rad; simp [Real.sqrt_sq h]
    have rx' : ∀ r z, 0 ≤ r → Cylinder.rad ⟨-r, 0, z⟩ = r := by intro r z h; unfold Cylinder.rad; simp [Real.sqrt_sq h]
    have ry : ∀ r z, 0 ≤ r → Cylinder.rad ⟨0, r, z⟩ = r := by intro r z h; unfold Cylinder.rad; simp [Real.sqrt_sq h]
    have ry' : ∀ r z, 0 ≤ r → Cylinder.rad ⟨0, -r, z⟩ = r := by intro r z h; unfold Cylinder.rad; simp [Real.sqrt_sq h]
    have bot : ∀ v : Vec3 ℝ, v.z = -(c.z / 2) → Cylinder.rad v = c.rmax1 → Mem c v := by
      intro v e1 e2
      refine ⟨by rw [e1, abs_neg, abs_of_pos (by linarith)], ?_, ?_⟩
      · rw [e1, radiusAt_bottom c hz, e2]; exact hv.r1
      · rw [e1, radiusAt_bottom c hz, e2]
    have top : ∀ v : Vec3 ℝ, v.z = c.z / 2 → Cylinder.rad v = c.rmax2 → Mem c v := by
      intro v e1 e2
      refine ⟨by rw [e1, abs_of_pos (by linarith)], ?_, ?_⟩
      · rw [e1, radiusAt_top c hz, e2]; exact hv.r2
      · rw [e1, radiusAt_top c hz, e2]
    have n1 := hv.rmin1.trans hv.r1
    have n2 := hv.rmin2.trans hv.r2
    have b1 := hb _ (bot ⟨c.rmax1, 0, -(c.z / 2)⟩ rfl (rx _ _ n1))
    have b2 := hb _ (bot ⟨-c.rmax1, 0, -(c.z / 2)⟩ rfl (rx' _ _ n1))
    have b3 := hb _ (bot ⟨0, c.rmax1, -(c.z / 2)⟩ rfl (ry _ _ n1))
    have b4 := hb _ (bot ⟨0, -c.rmax1, -(c.z / 2)⟩ rfl (ry' _ _ n1))
    have t1 := hb _ (top ⟨c.rmax2, 0, c.z / 2⟩ rfl (rx _ _ n2))
    have t2 := hb _ (top ⟨-c.rmax2, 0, c.z / 2⟩ rfl (rx' _ _ n2))
    have t3 := hb _ (top ⟨0, c.rmax2, c.z / 2⟩ rfl (ry _ _ n2))
    have t4 := hb _ (top ⟨0, -c.rmax2, c.z / 2⟩ rfl (ry' _ _ n2))
    refine ⟨⟨?_, ?_⟩, ⟨?_, ?_⟩, ?_, ?_⟩
    · simp only [boundingBox]; rcases max_choice c.rmax1 c.rmax2 with h | h <;> rw [h]; exacts [b2.1.1, t2.1.1]
    · simp only [boundingBox]; exact max_le b1.1.2 t1.1.2
    · simp only [boundingBox]; rcases max_choice c.rmax1 c.rmax2 with h | h <;> rw [h]; exacts [b4.2.1.1, t4.2.1.1]
    · simp only [boundingBox]; exact max_le b3.2.1.2 t3.2.1.2
    · simp only [boundingBox]; linarith [b1.2.2.1]
    · simp only [boundingBox]; linarith [t1.2.2.2]

/-- A line in through the base of a cone with a tip and out through its wall meets the hypotheses of C102; its continuation meets the
mirror image of the wall. -/
example : ∃ c, make 0 2 0 0 2 = some c ∧ Valid c ∧ Clear c ⟨1, 0, -3⟩ ⟨0, 0, 1⟩ ∧ Solid c ((⟨1, 0, -3⟩ : Vec3 ℝ) + Vec3.smul (5 / 2) ⟨0, 0, 1⟩) := by
  refine ⟨⟨0, 2, 0, 0, 2, 0, 2 * Real.pi, false⟩, ?_, ⟨by norm_num, le_rfl, le_rfl, by norm_num, le_rfl, Or.inl (by norm_num)⟩, ?_, ?_⟩
  · unfold make; norm_num
  · have hR : ∀ u : ℝ, Cylinder.rad ((⟨1, 0, -3⟩ : Vec3 ℝ) + Vec3.smul u ⟨0, 0, 1⟩) = 1 := by intro u; simp [Cylinder.rad]
    have hW : ∀ u : ℝ, wallEq ⟨0, 2, 0, 0, 2, 0, 2 * Real.pi, false⟩ 2 0 ((⟨1, 0, -3⟩ : Vec3 ℝ) + Vec3.smul u ⟨0, 0, 1⟩) = -(u - 3) * (u - 5) := by
      intro u; simp [wallEq, radiusAt]; ring
    have hZ : ∀ u : ℝ, ((⟨1, 0, -3⟩ : Vec3 ℝ) + Vec3.smul u ⟨0, 0, 1⟩).z = u - 3 := by intro u; simp; ring
    have hp : precision = 1 / 1000000000 := rfl
    have root : ∀ u : ℝ, -(u - 3) * (u - 5) = 0 → u = 3 ∨ u = 5 := by
      intro u h
      rcases mul_eq_zero.1 h with h | h
      · left; linarith
      · right; linarith
    refine ⟨by intro h; have := congrArg Vec3.z h; simp at this, ?_, by rintro (h | h) <;> norm_num at h, ?_, ⟨?_, ?_⟩, by rintro (h | h) <;> norm_num at h, ?_, ?_, ⟨?_, ?_⟩, ?_⟩
    · left; norm_num [hp]
    · right; norm_num [hp]
    · intro t ht
      simp only [hW] at ht
      simp only [hZ]
      rcases root t ht with rfl | rfl
      · left; intro u hu; rw [hp] at hu; rw [abs_le] at hu; rw [abs_lt]; constructor <;> linarith [hu.1, hu.2]
      · right; intro u hu h; rw [hp] at hu h; rw [abs_le] at hu; rw [abs_lt] at h; linarith [hu.1, h.2]
    · intro s t hst h1 h2
      simp only [hW] at h1 h2
      rw [hp]
      rcases root s h1 with rfl | rfl <;> rcases root t h2 with rfl | rfl <;> first | (exfalso; revert hst; norm_num; done) | norm_num
    · intro t ht
      right; intro u _ h
      rw [hR, hp] at h
      norm_num at h
    · intro t ht
      left; intro u _
      rw [hR]; norm_num
    · intro _ t u ht hu
      simp only [hW] at ht
      simp only [hZ]
      rw [hp] at hu ⊢
      rw [abs_le] at hu
      rcases root t ht with rfl | rfl
      · rw [abs_of_neg (by norm_num; linarith [hu.2])]; linarith [hu.2]
      · rw [abs_of_pos (by norm_num; linarith [hu.1])]; linarith [hu.1]
    · intro h; norm_num at h
    · have on : ∀ t : ℝ, OnSurface ⟨0, 2, 0, 0, 2, 0, 2 * Real.pi, false⟩ ((⟨1, 0, -3⟩ : Vec3 ℝ) + Vec3.smul t ⟨0, 0, 1⟩) → t = 2 ∨ t = 3 := by
        rintro t ⟨⟨h1, _, h2⟩, h3⟩
        simp only [hW, hZ, hR] at h1 h2 h3
        simp only [radiusAt] at h2
        norm_num at h1 h2 h3
        rw [abs_le] at h1
        rcases h3 with h3 | h3
        · rcases h3 with h3 | h3
          · right; linarith
          · linarith
        · rcases (abs_eq (by norm_num)).1 h3 with h3 | h3
          · linarith
          · left; linarith
      intro s t hst h1 h2
      rw [hp]
      rcases on s h1 with rfl | rfl <;> rcases on t h2 with rfl | rfl <;> first | (exfalso; revert hst; norm_num; done) | norm_num
  · refine ⟨?_, ?_, ?_⟩
    · norm_num [abs_lt]
    · simp [radiusAt, Cylinder.rad]
    · simp [radiusAt, Cylinder.rad]; norm_num

/-- The axis of a cone with a tip meets the hypotheses of `C102_tip`. -/
example : ∃ c, make 0 2 0 0 2 = some c ∧ Valid c ∧ (⟨0, 0, 3⟩ : Vec3 ℝ) + Vec3.smul 2 ⟨0, 0, -1⟩ = ⟨0, 0, 1⟩ ∧ c.z / 2 = 1 ∧ c.rmax2 = 0 ∧
    (0 : ℝ) * 0 + 0 * 0 - (c.rmax2 - c.rmax1) / c.z * ((c.rmax2 - c.rmax1) / c.z) * -1 * -1 < -precision ∧
    CapClear (-1) 0 (max c.rmax1 c.rmax2) ⟨0, 0, 3⟩ ⟨0, 0, -1⟩ := by
  refine ⟨⟨0, 2, 0, 0, 2, 0, 2 * Real.pi, false⟩, ?_, ⟨by norm_num, le_rfl, le_rfl, by norm_num, le_rfl, Or.inl (by norm_num)⟩, ?_, ?_, rfl, ?_, ?_⟩
  · unfold make; norm_num
  · ext <;> simp; norm_num
  · norm_num
  · norm_num [precision]
  · intro t _
    left; intro u _
    simp [Cylinder.rad]

/-- A line that only touches the tip of a cone, at a small angle to the plane of the tip, is reported to enter there and never to
leave. -/
theorem C102_tip_fails : ∃ (c : Con) (p d : Vec3 ℝ), make 0 1 0 0 2 = some c ∧ Vec3.dot d d = 1 ∧ (∀ t, ¬ Solid c (p + Vec3.smul t d)) ∧
    ∀ srt, IsHitSort srt → (compute srt c p d).length = 1 ∧ stateFrom false (compute srt c p d) 100 = true := by
  obtain ⟨c, hcd⟩ : ∃ c : Con, c = ⟨0, 1, 0, 0, 2, 0, 2 * Real.pi, false⟩ := ⟨_, rfl⟩
  obtain ⟨d, hd⟩ : ∃ d : Vec3 ℝ, d = ⟨9999999999 / 10000000001, 0, -200000 / 10000000001⟩ := ⟨_, rfl⟩
  obtain ⟨p, hp⟩ : ∃ p : Vec3 ℝ, p = ⟨-(9999999999 / 10000000001), 0, 1 + 200000 / 10000000001⟩ := ⟨_, rfl⟩
  have hT : apexTop c := by rw [hcd]; exact ⟨le_rfl, le_rfl⟩
  have hmean : mean c.rmax1 c.rmax2 = 1 / 2 := by rw [hcd]; unfold mean; norm_num
  have hslope : slope c c.rmax1 c.rmax2 = -1 / 2 := by rw [hcd]; unfold slope; norm_num
  have hdet : coeffB (1 / 2) (-1 / 2) (shifted p d) d * coeffB (1 / 2) (-1 / 2) (shifted p d) d -
      4 * coeffA (-1 / 2) d * coeffC (1 / 2) (-1 / 2) (shifted p d) = 0 := by
    rw [shift_det, hd, hp]; unfold coeffA coeffB coeffC; norm_num
  have hwall : wall (okOuter c) false (mean c.rmax1 c.rmax2) (slope c c.rmax1 c.rmax2) p d = [] := by
    rw [hmean, hslope]
    unfold wall
    simp only [hdet]
    rw [if_neg (by rw [hd]; norm_num), if_pos (by rw [hd]; unfold coeffA precision; norm_num [abs_of_pos]), if_neg (lt_irrefl _)]
  have hout : outer c p d = [⟨1, 0, true, ⟨0, 0, 1⟩⟩] := by
    have hz : apexZ c = 1 := by unfold apexZ; rw [if_pos hT, hcd]; norm_num
    have he : apexEntering c d = true := by unfold apexEntering; rw [if_pos hT, hd]; norm_num
    have ht : (1 - p.z) / d.z = 1 := by rw [hp, hd]; norm_num
    unfold outer
    simp only
    rw [if_neg]
    · rw [hwall, if_pos ⟨Or.inl hT, by rw [hd]; unfold precision; norm_num [abs_of_neg], by simp⟩, hz, he, ht, if_pos]
      · have : snap 1 = 1 := by unfold snap precision; norm_num
        rw [this, hp, hd]; norm_num
      · constructor
        · rw [hp, hd]; unfold precision; norm_num
        · rw [hmean, hslope, hp, hd]; unfold coeffC shifted shift precision; norm_num
    · rintro ⟨_, _, h3, _⟩
      rw [hmean, hslope, hdet] at h3
      exact lt_irrefl _ h3
  have hsurf : surface c p d = [⟨1, 0, true, ⟨0, 0, 1⟩⟩] := by
    have h1 : inner c p d = [] := by unfold inner; rw [if_neg]; rw [hcd]; norm_num
    have h2 : cap (apexTop c) (1 / 2 * c.z) c.rmin2 c.rmax2 p d (decide (d.z < 0)) = [] := by
      unfold cap; rw [if_neg fun h => h.2 hT]
    have h3 : cap (apexBot c) (-(1 / 2) * c.z) c.rmin1 c.rmax1 p d (decide (d.z > 0)) = [] := by
      unfold cap
      simp only
      split
      · rw [if_neg]
        have : (-(1 / 2) * c.z - p.z) / d.z = 10000100001 / 100000 := by rw [hcd, hp, hd]; norm_num
        rw [this]
        have : snap (10000100001 / 100000) = 10000100001 / 100000 := by unfold snap precision; norm_num
        rw [this, hcd, hp, hd]
        unfold precision
        norm_num
      · rfl
    unfold surface
    rw [h1, h2, h3, hout]; rfl
  refine ⟨c, p, d, ?_, ?_, ?_, ?_⟩
  · rw [hcd]; unfold make; norm_num
  · rw [hd]; unfold Vec3.dot; norm_num
  · rintro t ⟨h1, _, h3⟩
    have hr := rad_sq (p + Vec3.smul t d)
    have hr0 := rad_nonneg (p + Vec3.smul t d)
    generalize Cylinder.rad (p + Vec3.smul t d) = r at *
    rw [hcd] at h3 h1
    unfold radiusAt at h3
    rw [hp, hd] at h1 h3 hr
    norm_num at h1 h3 hr
    rw [abs_lt] at h1
    nlinarith [sq_nonneg (t - 1)]
  · intro srt hsrt
    have hs : srt [(⟨⟨1, 0, true, ⟨0, 0, 1⟩⟩, 0⟩ : SHit)] = [(⟨⟨1, 0, true, ⟨0, 0, 1⟩⟩, 0⟩ : SHit)] := List.perm_singleton.1 (hsrt _).1
    have : compute srt c p d = [⟨1, 0, true, ⟨0, 0, 1⟩⟩] := by
      unfold compute
      simp only [hsurf, List.map_cons, List.map_nil, hs]
      rw [hcd]
      simp [Cylinder.dedup]
    rw [this]
    refine ⟨rfl, ?_⟩
    rw [stateFrom_cons_lt _ _ _ _ (by norm_num)]
    rfl

end Siren.Geometry.Cone
