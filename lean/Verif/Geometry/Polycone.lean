import Verif.Geometry.PolyconeWall

set_option autoImplicit false

/-!
# C121: polycones

Models `geometry/private/Polycone.cxx`. Real square root instead of `std::sqrt`.
-/

namespace Siren.Geometry.Polycone

open Siren Siren.Geometry Filter Topology

/-! ### Model -/

/-- The entries of `z_planes_`, `rmin_` and `rmax_` at one index (geometry/public/SIREN/geometry/Polycone.h). -/
structure Plane where
  z : ℝ
  rmin : ℝ
  rmax : ℝ

/-- The members of `Polycone` (geometry/public/SIREN/geometry/Polycone.h). `validate` makes the three vectors equally long. -/
structure Poly where
  planes : List Plane
  startPhi : ℝ
  deltaPhi : ℝ
  hasPhiCut : Bool

/-- The three vectors as one. -/
def planesOf (z rmin rmax : List ℝ) : List Plane := (z.zip (rmin.zip rmax)).map fun q => ⟨q.1, q.2.1, q.2.2⟩

/-- `Polycone::validate` (geometry/private/Polycone.cxx:22-55); `none` is `std::runtime_error`. -/
noncomputable def validate (z rmin rmax : List ℝ) : Option (List Plane) :=
  open Classical in
  if z.length < 2 then none
  else if z.length ≠ rmin.length ∨ z.length ≠ rmax.length then none
  else
    let ascending := (z.zip z.tail).all fun q => !decide (q.2 < q.1)
    let descending := (z.zip z.tail).all fun q => !decide (q.2 > q.1)
    if !ascending && !descending then none
    else
      let planes := if descending && !ascending then planesOf z.reverse rmin.reverse rmax.reverse else planesOf z rmin rmax
      if planes.any fun q => decide (q.rmin < 0 ∨ q.rmax < 0) || decide (q.rmin > q.rmax) then none else some planes

/-- The constructor with three vectors (geometry/private/Polycone.cxx:58, 60). -/
noncomputable def make (z rmin rmax : List ℝ) : Option Poly := (validate z rmin rmax).map fun l => ⟨l, 0, 2 * Real.pi, false⟩

/-- The constructor with angles (geometry/private/Polycone.cxx:61-72); `none` is an exception. -/
noncomputable def makePhi (z rmin rmax : List ℝ) (startPhi deltaPhi : ℝ) : Option Poly :=
  (validate z rmin rmax).bind fun l =>
    if deltaPhi ≤ 0 then none
    else
      let delta := if deltaPhi > 2 * Real.pi then 2 * Real.pi else deltaPhi
      some ⟨l, startPhi, delta, decide (delta < 2 * Real.pi - 1 / 1000000000)⟩

/-- `b_outer` and `b_inner` (geometry/private/Polycone.cxx:191, 262). -/
noncomputable def slope (zlo zhi rlo rhi : ℝ) : ℝ := (rhi - rlo) / (zhi - zlo)

/-- `a_outer` and `a_inner` (geometry/private/Polycone.cxx:192, 263). -/
noncomputable def offset (zlo zhi rlo rhi : ℝ) : ℝ := rlo - slope zlo zhi rlo rhi * zlo

/-- One of the sections (geometry/private/Polycone.cxx:163-323). The two walls are treated like the inner wall of `Cone`. -/
noncomputable def section_ (p d : Vec3 ℝ) (q : Plane × Plane) : List (ℝ × Bool) :=
  let lo := q.1
  let hi := q.2
  if hi.z ≤ lo.z then []
  else if |d.z| < precision ∧ (p.z < lo.z ∨ p.z ≥ hi.z) then []
  else
    let ok : ℝ → Prop := fun iz => iz ≥ lo.z ∧ iz < hi.z
    Cone.wall ok false (offset lo.z hi.z lo.rmax hi.rmax) (slope lo.z hi.z lo.rmax hi.rmax) p d ++
      if lo.rmin > 0 ∨ hi.rmin > 0 then
        Cone.wall ok true (offset lo.z hi.z lo.rmin hi.rmin) (slope lo.z hi.z lo.rmin hi.rmin) p d
      else []

/-- One of the end caps (geometry/private/Polycone.cxx:326-371). -/
noncomputable def cap (q : Plane) (p d : Vec3 ℝ) (e : Bool) : List (ℝ × Bool) :=
  if |d.z| > precision then
    let t := (q.z - p.z) / d.z
    let ix := p.x + snap t * d.x
    let iy := p.y + snap t * d.y
    let r2 := ix * ix + iy * iy
    let tol := precision * max 1 (q.rmax * q.rmax)
    if r2 ≤ q.rmax * q.rmax + tol ∧ r2 ≥ q.rmin * q.rmin - tol then [(t, e)] else []
  else []

/-- The groups of planes at the same height among those between the first and the last: the first and the last of each group
(geometry/private/Polycone.cxx:379-387, 436). `b` is the plane at `i` and `c` that at `j`. -/
noncomputable def groupsFrom (b c : Plane) : List Plane → List (Plane × Plane)
  | [] => [(b, c)]
  | y :: ys => if y.z = b.z then groupsFrom b y ys else (b, c) :: groupsFrom y y ys

/-- The groups, starting at the second plane and ending before the last (geometry/private/Polycone.cxx:379-380). -/
noncomputable def groups (l : List Plane) : List (Plane × Plane) :=
  match l.tail.dropLast with
  | [] => []
  | x :: xs => groupsFrom x x xs

/-- A cap within the solid (geometry/private/Polycone.cxx:389-434). -/
noncomputable def step (p d : Vec3 ℝ) (g : Plane × Plane) : List (ℝ × Bool) :=
  open Classical in
  let b := g.1
  let a := g.2
  if |d.z| > precision then
    if b.rmax = a.rmax ∧ b.rmin = a.rmin then []
    else
      let t := (b.z - p.z) / d.z
      let ix := p.x + snap t * d.x
      let iy := p.y + snap t * d.y
      let r2 := ix * ix + iy * iy
      (if b.rmax ≠ a.rmax ∧ r2 ≥ min b.rmax a.rmax * min b.rmax a.rmax ∧ r2 ≤ max b.rmax a.rmax * max b.rmax a.rmax then
        [(t, if a.rmax > b.rmax then decide (d.z > 0) else decide (d.z < 0))] else []) ++
      (if b.rmin ≠ a.rmin ∧ r2 ≥ min b.rmin a.rmin * min b.rmin a.rmin ∧ r2 ≤ max b.rmin a.rmin * max b.rmin a.rmin then
        [(t, if a.rmin > b.rmin then decide (d.z < 0) else decide (d.z > 0))] else [])
  else []

/-- The hits in the order in which they are found (geometry/private/Polycone.cxx:160-438). That they move from the stack to the heap
when there are more than 32 of them makes no difference to their order. -/
noncomputable def crossings (l : List Plane) (p d : Vec3 ℝ) : List (ℝ × Bool) :=
  (l.zip l.tail).flatMap (section_ p d) ++
    ((match l.head? with
      | some f => cap f p d (decide (d.z > 0))
      | none => []) ++
    ((match l.getLast? with
      | some f => cap f p d (decide (d.z < 0))
      | none => []) ++ (groups l).flatMap (step p d)))

/-- `Polycone::ComputeIntersections` (geometry/private/Polycone.cxx:99-539); `srt` is `std::sort`. -/
noncomputable def compute (srt : List SHit → List SHit) (c : Poly) (p d : Vec3 ℝ) : List Isect :=
  if c.planes.length < 2 then []
  else
    let surf := (crossings c.planes p d).map fun h => (⟨report p d h, 0⟩ : SHit)
    if surf.isEmpty then []
    else if !c.hasPhiCut then (srt surf).map SHit.isect
    else
      let all := srt surf ++ (Phi.wedgeHits snap c.startPhi c.deltaPhi p d).map fun h => (⟨hitAt p d h.1 h.2, 1⟩ : SHit)
      let st : Nat → Bool := fun k =>
        if k = 0 then false else Phi.initialPhiState p.x p.y d.x d.y c.startPhi c.deltaPhi
      andWalk 2 st (allIn 2 st) (srt all)

/-! ### Specification -/

/-- The radius at height `z` if it is `r0` at `z0` and `r1` at `z1` and varies evenly in between. -/
noncomputable def between (z0 z1 r0 r1 z : ℝ) : ℝ := r0 + (r1 - r0) * ((z - z0) / (z1 - z0))

/-- The polycone without its cut: between two planes that follow one another the radii vary evenly. The lower plane of a section
belongs to it, the upper one does not. -/
def Solid (l : List Plane) (v : Vec3 ℝ) : Prop :=
  ∃ q ∈ l.zip l.tail, q.1.z ≤ v.z ∧ v.z < q.2.z ∧ between q.1.z q.2.z q.1.rmin q.2.rmin v.z ≤ Cylinder.rad v ∧
    Cylinder.rad v < between q.1.z q.2.z q.1.rmax q.2.rmax v.z

/-- Zero on a wall between two planes and on its continuation. -/
noncomputable def wallEq (z0 z1 r0 r1 : ℝ) (v : Vec3 ℝ) : ℝ := v.x ^ 2 + v.y ^ 2 - between z0 z1 r0 r1 v.z ^ 2

/-- The set of parameters changes at `t`: however close to it, some are in the set and some are not. -/
def Changes (S : ℝ → Prop) (t : ℝ) : Prop := ∀ e : ℝ, 0 < e → (∃ u, |u - t| < e ∧ S u) ∧ ∃ u, |u - t| < e ∧ ¬ S u

/-- The line is parallel to a wall or clearly not; where it meets the wall or its continuation it is clearly in the section or
clearly not; and it does so at places that are apart. -/
structure WallClear (z0 z1 r0 r1 : ℝ) (p d : Vec3 ℝ) : Prop where
  steep : precision < |d.x * d.x + d.y * d.y - (r1 - r0) / (z1 - z0) * ((r1 - r0) / (z1 - z0)) * d.z * d.z| ∨
    (d.x * d.x + d.y * d.y - (r1 - r0) / (z1 - z0) * ((r1 - r0) / (z1 - z0)) * d.z * d.z = 0 ∧
      (p.x * d.x + p.y * d.y - (r1 - r0) / (z1 - z0) * d.z * between z0 z1 r0 r1 p.z = 0 ∨
        precision < |2 * (p.x * d.x + p.y * d.y - (r1 - r0) / (z1 - z0) * d.z * between z0 z1 r0 r1 p.z)|))
  height : ∀ t, wallEq z0 z1 r0 r1 (p + Vec3.smul t d) = 0 →
    (∀ u, |u - t| ≤ precision → z0 ≤ (p + Vec3.smul u d).z ∧ (p + Vec3.smul u d).z < z1) ∨
    (∀ u, |u - t| ≤ precision → ¬ (z0 ≤ (p + Vec3.smul u d).z ∧ (p + Vec3.smul u d).z < z1))
  apart : ∀ s t, s < t → wallEq z0 z1 r0 r1 (p + Vec3.smul s d) = 0 → wallEq z0 z1 r0 r1 (p + Vec3.smul t d) = 0 → s + 2 * precision ≤ t

/-- Where the line passes through a plane it is clearly inside or clearly outside the circle with radius `r`. -/
def EdgeClear (q : Plane) (r : ℝ) (p d : Vec3 ℝ) : Prop :=
  ∀ t, (p + Vec3.smul t d).z = q.z →
    (∀ u, |u - t| ≤ precision → Cylinder.rad (p + Vec3.smul u d) ^ 2 < r ^ 2 - precision * max 1 (q.rmax ^ 2)) ∨
    (∀ u, |u - t| ≤ precision → r ^ 2 + precision * max 1 (q.rmax ^ 2) < Cylinder.rad (p + Vec3.smul u d) ^ 2)

/-- A line clear of the edges, and not nearly parallel to walls or planes without being parallel. -/
structure Clear (l : List Plane) (p d : Vec3 ℝ) : Prop where
  direction : d ≠ 0
  level : precision < |d.z| ∨ d.z = 0 ∧ ∀ q ∈ l, q.z = p.z → q.rmin < q.rmax
  outer : ∀ q ∈ l.zip l.tail, q.1.z < q.2.z → WallClear q.1.z q.2.z q.1.rmax q.2.rmax p d
  inner : ∀ q ∈ l.zip l.tail, q.1.z < q.2.z → 0 < q.1.rmin ∨ 0 < q.2.rmin → WallClear q.1.z q.2.z q.1.rmin q.2.rmin p d
  edges : d.z ≠ 0 → ∀ q ∈ l, EdgeClear q q.rmax p d ∧ (q.rmin ≠ 0 → EdgeClear q q.rmin p d)
  apart : ∀ s t, s < t → Changes (fun u => Solid l (p + Vec3.smul u d)) s → Changes (fun u => Solid l (p + Vec3.smul u d)) t →
    s + 2 * precision ≤ t

/-- At least two planes in order with radii in order, and more than what the constructor asks for: there is only one plane at the lowest
and one at the highest level, no section is without volume, and where planes are at the same height their rings overlap. -/
structure Valid (l : List Plane) : Prop where
  size : 2 ≤ l.length
  order : l.Pairwise fun a b => a.z ≤ b.z
  rmin : ∀ q ∈ l, 0 ≤ q.rmin
  radii : ∀ q ∈ l, q.rmin ≤ q.rmax
  thick : ∀ q ∈ l.zip l.tail, q.1.z < q.2.z → q.1.rmin < q.1.rmax ∨ q.2.rmin < q.2.rmax
  rings : ∀ a ∈ l, ∀ b ∈ l, a.z = b.z → a.rmin ≤ b.rmax
  bottom : ∀ f rest, l = f :: rest → ∀ q ∈ rest, f.z < q.z
  top : ∀ init f, l = init ++ [f] → ∀ q ∈ init, q.z < f.z

end Siren.Geometry.Polycone
