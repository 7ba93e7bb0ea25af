import Verif.Geometry.Wedge

set_option autoImplicit false

/-!
# C75: cylinders and tubes

Models `geometry/private/Cylinder.cxx`. Real square root instead of `std::sqrt`.
-/

namespace Siren.Geometry.Cylinder

open Siren Siren.Geometry Real Filter Topology

/-! ### Model -/

/-- The members of `Cylinder` (geometry/public/SIREN/geometry/Cylinder.h:85-90). -/
structure Cyl where
  radius : ℝ
  inner : ℝ
  z : ℝ
  startPhi : ℝ
  deltaPhi : ℝ
  hasPhiCut : Bool

/-- The constructor with three numbers (geometry/private/Cylinder.cxx:31-34, 36-39). -/
noncomputable def make (radius inner z : ℝ) : Cyl :=
  let r := if inner > radius then (inner, radius) else (radius, inner)
  ⟨r.1, r.2, z, 0, 2 * π, false⟩

/-- The constructor with angles (geometry/private/Cylinder.cxx:40-51); `none` is `std::invalid_argument`. -/
noncomputable def makePhi (radius inner z startPhi deltaPhi : ℝ) : Option Cyl :=
  let r := if inner > radius then (inner, radius) else (radius, inner)
  if deltaPhi ≤ 0 then none
  else
    let delta := if deltaPhi > 2 * π then 2 * π else deltaPhi
    some ⟨r.1, r.2, z, startPhi, delta, decide (delta < 2 * π - 1 / 1000000000)⟩

/-- `test_barrel` (geometry/private/Cylinder.cxx:99-123): exact distances with flags. -/
noncomputable def testBarrel (p d : Vec3 ℝ) (hz r2 : ℝ) (invert : Bool) : List (ℝ × Bool) :=
  if d.x = 0 ∧ d.y = 0 then []
  else
    let C := d.x * d.x + d.y * d.y
    let B := p.x * d.x + p.y * d.y
    let cross := p.x * d.y - p.y * d.x
    let det := C * r2 - cross * cross
    if det ≤ 0 then []
    else
      let sq := Real.sqrt det
      let inv := 1 / C
      [(-B - sq) * inv, (-B + sq) * inv].filterMap fun t =>
        let iz := p.z + t * d.z
        if iz > -hz - precision ∧ iz < hz + precision then
          let ix := p.x + t * d.x
          let iy := p.y + t * d.y
          let radial := decide (ix * d.x + iy * d.y < 0)
          some (t, if invert then !radial else radial)
        else none

/-- `test_cap` (geometry/private/Cylinder.cxx:126-135). -/
noncomputable def testCap (p d : Vec3 ℝ) (zcap lo hi : ℝ) (enter : Bool) : List (ℝ × Bool) :=
  if d.z = 0 then []
  else
    let t := (zcap - p.z) / d.z
    let ix := p.x + t * d.x
    let iy := p.y + t * d.y
    let r2 := ix * ix + iy * iy
    if r2 ≤ hi + precision ∧ r2 ≥ lo - precision then [(t, enter)] else []

/-- The surface hits (geometry/private/Cylinder.cxx:137-145). -/
noncomputable def surfaceHits (c : Cyl) (p d : Vec3 ℝ) : List (ℝ × Bool) :=
  let hz := 1 / 2 * c.z
  let outer2 := c.radius * c.radius
  let inner2 := c.inner * c.inner
  testBarrel p d hz outer2 false ++ testCap p d hz inner2 outer2 (decide (d.z < 0)) ++
    testCap p d (-hz) inner2 outer2 (decide (d.z > 0)) ++ (if c.inner > 0 then testBarrel p d hz inner2 true else [])

/-- `add_surface_hit` (geometry/private/Cylinder.cxx:91-95): the distance is moved to the start of the ray, the position is
not. -/
noncomputable def surfaceHit (p d : Vec3 ℝ) (c : ℝ × Bool) : Isect :=
  ⟨snap c.1, 0, c.2, ⟨p.x + c.1 * d.x, p.y + c.1 * d.y, p.z + c.1 * d.z⟩⟩

/-- The loop that skips hits next to the last reported one (geometry/private/Cylinder.cxx:154-164). -/
noncomputable def dedup : Option ℝ → List Isect → List Isect
  | _, [] => []
  | none, h :: hits => h :: dedup (some h.distance) hits
  | some last, h :: hits =>
    if |h.distance - last| < precision then dedup (some last) hits else h :: dedup (some h.distance) hits

/-- `Cylinder::ComputeIntersections` (geometry/private/Cylinder.cxx:66-219). -/
noncomputable def compute (srt : List SHit → List SHit) (c : Cyl) (p d : Vec3 ℝ) : List Isect :=
  let surface := (surfaceHits c p d).map fun h => (⟨surfaceHit p d h, 0⟩ : SHit)
  if !c.hasPhiCut then dedup none ((srt surface).map SHit.isect)
  else
    let all := surface ++ (Phi.wedgeHits snap c.startPhi c.deltaPhi p d).map fun h => (⟨hitAt p d h.1 h.2, 1⟩ : SHit)
    let st : Nat → Bool := fun k =>
      if k = 0 then false else Phi.initialPhiState p.x p.y d.x d.y c.startPhi c.deltaPhi
    andWalk 2 st (allIn 2 st) (srt all)

/-- `Cylinder::GetBoundingBox` (geometry/private/Cylinder.cxx:222-228). -/
noncomputable def boundingBox (c : Cyl) : AABB ℝ :=
  let hz := c.z * (1 / 2)
  ⟨⟨-c.radius, -c.radius, -hz⟩, ⟨c.radius, c.radius, hz⟩⟩

/-! ### Specification -/

/-- The distance of a point from the axis. -/
noncomputable def rad (v : Vec3 ℝ) : ℝ := Real.sqrt (v.x ^ 2 + v.y ^ 2)

/-- The tube without its cut: between the radii and between the end planes. -/
def Tube (c : Cyl) (v : Vec3 ℝ) : Prop := c.inner ≤ rad v ∧ rad v < c.radius ∧ |v.z| < c.z / 2

/-- A surface point of the tube. -/
def OnSurface (c : Cyl) (v : Vec3 ℝ) : Prop :=
  (rad v = c.radius ∧ |v.z| < c.z / 2) ∨ (0 < c.inner ∧ rad v = c.inner ∧ |v.z| < c.z / 2) ∨
    (|v.z| = c.z / 2 ∧ c.inner ≤ rad v ∧ rad v < c.radius)

/-- The line does not touch a rim: where it meets a barrel it is not at most 1e-9 above or below the ends, and where it
meets an end plane the squared distance from the axis is not within 1e-9 beyond the ring. -/
structure ClearOfRims (c : Cyl) (p d : Vec3 ℝ) : Prop where
  outer : ∀ t : ℝ, rad (p + Vec3.smul t d) = c.radius →
    ¬ (c.z / 2 ≤ |(p + Vec3.smul t d).z| ∧ |(p + Vec3.smul t d).z| < c.z / 2 + precision)
  inner : 0 < c.inner → ∀ t : ℝ, rad (p + Vec3.smul t d) = c.inner →
    ¬ (c.z / 2 ≤ |(p + Vec3.smul t d).z| ∧ |(p + Vec3.smul t d).z| < c.z / 2 + precision)
  caps : ∀ t : ℝ, |(p + Vec3.smul t d).z| = c.z / 2 →
    ¬ (c.radius ^ 2 ≤ rad (p + Vec3.smul t d) ^ 2 ∧ rad (p + Vec3.smul t d) ^ 2 ≤ c.radius ^ 2 + precision) ∧
    (0 < c.inner → ¬ (c.inner ^ 2 - precision ≤ rad (p + Vec3.smul t d) ^ 2 ∧ rad (p + Vec3.smul t d) ^ 2 ≤ c.inner ^ 2))

/-- Two places where the line meets the surface are at least 2e-9 apart. -/
def Apart (c : Cyl) (p d : Vec3 ℝ) : Prop :=
  ∀ t u : ℝ, OnSurface c (p + Vec3.smul t d) → OnSurface c (p + Vec3.smul u d) → t < u → t + 2 * precision ≤ u

/-! ### Proofs -/

/-- Squared distance from the axis along the line, less `r2`. -/
def q (p d : Vec3 ℝ) (r2 u : ℝ) : ℝ :=
  (d.x * d.x + d.y * d.y) * u ^ 2 + 2 * (p.x * d.x + p.y * d.y) * u + (p.x ^ 2 + p.y ^ 2 - r2)

theorem q_eq (p d : Vec3 ℝ) (r2 u : ℝ) : q p d r2 u = (p.x + u * d.x) ^ 2 + (p.y + u * d.y) ^ 2 - r2 := by unfold q; ring

theorem rad_sq (p d : Vec3 ℝ) (u r2 : ℝ) : rad (p + Vec3.smul u d) ^ 2 = q p d r2 u + r2 := by
  rw [rad, Real.sq_sqrt (by positivity), q_eq]
  simp only [Vec3.add_x, Vec3.add_y, Vec3.smul_x, Vec3.smul_y]; ring

theorem rad_nonneg (v : Vec3 ℝ) : 0 ≤ rad v := Real.sqrt_nonneg _

theorem rad_lt_iff (p d : Vec3 ℝ) (u r : ℝ) (hr : 0 < r) : rad (p + Vec3.smul u d) < r ↔ q p d (r * r) u < 0 := by
  have h := rad_sq p d u (r * r)
  have h0 := rad_nonneg (p + Vec3.smul u d)
  constructor
  · intro h1; nlinarith
  · intro h1
    by_contra hc
    nlinarith [not_lt.1 hc]

theorem le_rad_iff (p d : Vec3 ℝ) (u r : ℝ) (hr : 0 ≤ r) : r ≤ rad (p + Vec3.smul u d) ↔ ¬ q p d (r * r) u < 0 := by
  have h := rad_sq p d u (r * r)
  have h0 := rad_nonneg (p + Vec3.smul u d)
  constructor
  · intro h1; nlinarith
  · intro h1
    by_contra hc
    nlinarith [not_le.1 hc, not_lt.1 h1]

theorem rad_eq_iff (p d : Vec3 ℝ) (u r : ℝ) (hr : 0 ≤ r) : rad (p + Vec3.smul u d) = r ↔ q p d (r * r) u = 0 := by
  have h := rad_sq p d u (r * r)
  have h0 := rad_nonneg (p + Vec3.smul u d)
  constructor
  · intro h1; rw [h1] at h; linarith
  · intro h1
    rw [h1] at h
    have : rad (p + Vec3.smul u d) ^ 2 = r ^ 2 := by rw [h]; ring
    exact (pow_left_inj₀ h0 hr (by norm_num)).1 this

theorem q_cont (p d : Vec3 ℝ) (r2 t : ℝ) : ContinuousAt (q p d r2) t := by unfold q; fun_prop

/-- `det` of the barrel test. -/
def det (p d : Vec3 ℝ) (r2 : ℝ) : ℝ :=
  (d.x * d.x + d.y * d.y) * r2 - (p.x * d.y - p.y * d.x) * (p.x * d.y - p.y * d.x)

theorem det_q (p d : Vec3 ℝ) (r2 u : ℝ) : (d.x * d.x + d.y * d.y) * q p d r2 u =
    ((d.x * d.x + d.y * d.y) * u + (p.x * d.x + p.y * d.y)) ^ 2 - det p d r2 := by unfold q det; ring

/-- A line that runs along the axis or does not meet the infinite barrel properly stays outside or on it. -/
theorem q_nonneg (p d : Vec3 ℝ) (r2 t : ℝ) (ht : q p d r2 t = 0) (h : det p d r2 ≤ 0 ∨ d.x = 0 ∧ d.y = 0) (u : ℝ) : 0 ≤ q p d r2 u := by
  by_cases h0 : d.x = 0 ∧ d.y = 0
  · rw [q_eq, h0.1, h0.2] at ht ⊢
    simp only [mul_zero, add_zero] at ht ⊢
    exact ht.ge
  · have hd := h.resolve_right h0
    have hC : 0 < d.x * d.x + d.y * d.y := by
      by_contra hc
      exact h0 ⟨by nlinarith [mul_self_nonneg d.x, mul_self_nonneg d.y], by nlinarith [mul_self_nonneg d.x, mul_self_nonneg d.y]⟩
    have := det_q p d r2 u
    by_contra hc
    have h3 : (d.x * d.x + d.y * d.y) * q p d r2 u < 0 := mul_neg_of_pos_of_neg hC (not_le.1 hc)
    nlinarith [sq_nonneg ((d.x * d.x + d.y * d.y) * u + (p.x * d.x + p.y * d.y))]

/-- What `test_barrel` reports. -/
theorem mem_testBarrel (p d : Vec3 ℝ) (hz r2 : ℝ) (invert : Bool) (c : ℝ × Bool) :
    c ∈ testBarrel p d hz r2 invert ↔ ¬ (d.x = 0 ∧ d.y = 0) ∧ 0 < det p d r2 ∧ q p d r2 c.1 = 0 ∧
      |p.z + c.1 * d.z| < hz + precision ∧
      c.2 = (invert ^^ decide ((d.x * d.x + d.y * d.y) * c.1 + (p.x * d.x + p.y * d.y) < 0)) := by
  unfold testBarrel
  by_cases h0 : d.x = 0 ∧ d.y = 0
  · simp [h0]
  rw [if_neg h0]
  simp only
  rw [show (d.x * d.x + d.y * d.y) * r2 - (p.x * d.y - p.y * d.x) * (p.x * d.y - p.y * d.x) = det p d r2 from rfl]
  by_cases hd : det p d r2 ≤ 0
  · rw [if_pos hd]; simp [not_lt.2 hd]
  rw [if_neg hd]
  have hd := not_le.1 hd
  have hC : 0 < d.x * d.x + d.y * d.y := by
    by_contra hc
    exact h0 ⟨by nlinarith [mul_self_nonneg d.x, mul_self_nonneg d.y], by nlinarith [mul_self_nonneg d.x, mul_self_nonneg d.y]⟩
  set C := d.x * d.x + d.y * d.y with hCdef
  set B := p.x * d.x + p.y * d.y with hB
  set sq := Real.sqrt (det p d r2) with hsq
  have hs2 : sq ^ 2 = det p d r2 := Real.sq_sqrt hd.le
  have hroot : ∀ t, q p d r2 t = 0 ↔ t = (-B - sq) * (1 / C) ∨ t = (-B + sq) * (1 / C) := by
    intro t
    have e := det_q p d r2 t
    rw [← hCdef, ← hB, ← hs2] at e
    have e1 : t = (-B - sq) * (1 / C) ↔ C * t + B + sq = 0 := by
      rw [mul_one_div, eq_div_iff hC.ne']; constructor <;> intro h <;> linarith
    have e2 : t = (-B + sq) * (1 / C) ↔ C * t + B - sq = 0 := by
      rw [mul_one_div, eq_div_iff hC.ne']; constructor <;> intro h <;> linarith
    rw [e1, e2, ← mul_eq_zero]
    have e3 : (C * t + B + sq) * (C * t + B - sq) = C * q p d r2 t := by rw [e]; ring
    rw [e3, mul_eq_zero]
    constructor
    · exact Or.inr
    · intro h; exact h.resolve_left hC.ne'
  have hmem : ∀ t, t ∈ [(-B - sq) * (1 / C), (-B + sq) * (1 / C)] ↔ q p d r2 t = 0 := by
    intro t; rw [hroot]; simp
  rw [List.mem_filterMap]
  have habs : ∀ t : ℝ, (p.z + t * d.z > -hz - precision ∧ p.z + t * d.z < hz + precision) ↔ |p.z + t * d.z| < hz + precision := by
    intro t; rw [abs_lt]; constructor <;> rintro ⟨a, b⟩ <;> constructor <;> linarith
  constructor
  · rintro ⟨t, ht, he⟩
    rw [hmem] at ht
    split at he
    · next hzz =>
      simp only [Option.some.injEq] at he
      subst he
      refine ⟨h0, hd, ht, (habs t).1 hzz, ?_⟩
      simp only
      rw [show (p.x + t * d.x) * d.x + (p.y + t * d.y) * d.y = C * t + B by rw [hCdef, hB]; ring]
      cases invert <;> simp
    · exact absurd he (by simp)
  · rintro ⟨_, _, h1, h2, h3⟩
    refine ⟨c.1, (hmem _).2 h1, ?_⟩
    rw [if_pos ((habs _).2 h2)]
    rw [show (p.x + c.1 * d.x) * d.x + (p.y + c.1 * d.y) * d.y = C * c.1 + B by rw [hCdef, hB]; ring]
    congr 1
    refine Prod.ext rfl ?_
    rw [h3]
    cases invert <;> simp

theorem mem_testCap (p d : Vec3 ℝ) (zcap lo hi : ℝ) (enter : Bool) (c : ℝ × Bool) :
    c ∈ testCap p d zcap lo hi enter ↔ d.z ≠ 0 ∧ p.z + c.1 * d.z = zcap ∧ q p d 0 c.1 ≤ hi + precision ∧
      lo - precision ≤ q p d 0 c.1 ∧ c.2 = enter := by
  unfold testCap
  by_cases h0 : d.z = 0
  · simp [h0]
  rw [if_neg h0]
  simp only
  have ht : ∀ t, t = (zcap - p.z) / d.z ↔ p.z + t * d.z = zcap := by
    intro t; rw [eq_div_iff h0]; constructor <;> intro h <;> linarith
  have hq : ∀ t, (p.x + t * d.x) * (p.x + t * d.x) + (p.y + t * d.y) * (p.y + t * d.y) = q p d 0 t := by
    intro t; rw [q_eq]; ring
  rw [hq]
  split
  · next h =>
    simp only [List.mem_singleton]
    constructor
    · rintro rfl; exact ⟨h0, (ht _).1 rfl, h.1, h.2, rfl⟩
    · rintro ⟨_, h1, _, _, h4⟩; exact Prod.ext ((ht _).2 h1) h4
  · next h =>
    simp only [List.not_mem_nil, false_iff, not_and]
    intro _ h1 h2 h3
    rw [(ht _).2 h1] at h2 h3
    exact absurd ⟨h2, h3⟩ h

theorem z_flips (a b t : ℝ) (h : a + t * b = 0) (hb : b ≠ 0) : Flips (fun u => a + u * b < 0) t (decide (b < 0)) := by
  have := quadratic_flips 0 b a t (by linarith) (by simpa using hb)
  simp only [mul_zero, zero_mul, zero_add] at this
  exact this.congr (Eventually.of_forall fun u => by rw [show b * u + a = a + u * b by ring])

theorem q_flips (p d : Vec3 ℝ) (r2 t : ℝ) (h : q p d r2 t = 0) (hd : 0 < det p d r2) :
    Flips (fun u => q p d r2 u < 0) t (decide ((d.x * d.x + d.y * d.y) * t + (p.x * d.x + p.y * d.y) < 0)) := by
  have hne : (d.x * d.x + d.y * d.y) * t + (p.x * d.x + p.y * d.y) ≠ 0 := by
    intro hz
    have := det_q p d r2 t
    rw [h, hz] at this
    simp only [mul_zero] at this
    linarith [this]
  have := quadratic_flips (d.x * d.x + d.y * d.y) (2 * (p.x * d.x + p.y * d.y)) (p.x ^ 2 + p.y ^ 2 - r2) t h
    (by intro hz; exact hne (by linarith))
  have e : decide (2 * (d.x * d.x + d.y * d.y) * t + 2 * (p.x * d.x + p.y * d.y) < 0) =
      decide ((d.x * d.x + d.y * d.y) * t + (p.x * d.x + p.y * d.y) < 0) := by
    rw [decide_eq_decide]; constructor <;> intro h <;> linarith
  rw [e] at this
  exact this

/-- The tube along a line in terms of polynomials. -/
theorem tube_iff (c : Cyl) (h0 : 0 ≤ c.inner) (h1 : c.inner < c.radius) (p d : Vec3 ℝ) (u : ℝ) :
    Tube c (p + Vec3.smul u d) ↔ (q p d (c.radius * c.radius) u < 0 ∧ (p.z - c.z / 2) + u * d.z < 0 ∧
      (-p.z - c.z / 2) + u * -d.z < 0) ∧ ¬ q p d (c.inner * c.inner) u < 0 := by
  unfold Tube
  rw [le_rad_iff _ _ _ _ h0, rad_lt_iff _ _ _ _ (lt_of_le_of_lt h0 h1)]
  simp only [Vec3.add_z, Vec3.smul_z]
  rw [abs_lt]
  constructor
  · rintro ⟨a, b, e, f⟩; exact ⟨⟨b, by linarith, by linarith⟩, a⟩
  · rintro ⟨⟨b, e, f⟩, a⟩; exact ⟨a, b, by linarith, by linarith⟩

theorem tube_bounded (c : Cyl) (p d : Vec3 ℝ) (hd : d ≠ 0) : ∃ M, ∀ u, Tube c (p + Vec3.smul u d) → |u| ≤ M := by
  have hx : ∀ v, Tube c v → |v.x| ≤ c.radius := by
    intro v hv
    have := hv.2.1
    have h2 : rad v ^ 2 = v.x ^ 2 + v.y ^ 2 := Real.sq_sqrt (by positivity)
    have h3 := rad_nonneg v
    exact abs_le_of_sq_le_sq (by nlinarith [sq_nonneg v.y]) (by linarith)
  have hy : ∀ v, Tube c v → |v.y| ≤ c.radius := by
    intro v hv
    have := hv.2.1
    have h2 : rad v ^ 2 = v.x ^ 2 + v.y ^ 2 := Real.sq_sqrt (by positivity)
    have h3 := rad_nonneg v
    exact abs_le_of_sq_le_sq (by nlinarith [sq_nonneg v.x]) (by linarith)
  by_cases h1 : d.x = 0
  · by_cases h2 : d.y = 0
    · have h3 : d.z ≠ 0 := by
        intro h3; apply hd; obtain ⟨x, y, z⟩ := d; simp only at h1 h2 h3; rw [h1, h2, h3]; rfl
      refine ⟨_, fun u hu => bounded_coordinate p.z d.z (c.z / 2) u h3 ?_⟩
      have := hu.2.2
      simp only [Vec3.add_z, Vec3.smul_z] at this
      exact this.le
    · refine ⟨_, fun u hu => bounded_coordinate p.y d.y c.radius u h2 ?_⟩
      have := hy _ hu
      simpa only [Vec3.add_y, Vec3.smul_y] using this
  · refine ⟨_, fun u hu => bounded_coordinate p.x d.x c.radius u h1 ?_⟩
    have := hx _ hu
    simpa only [Vec3.add_x, Vec3.smul_x] using this

/-- At every surface hit the line enters or leaves the tube as stated, and the hit is on the surface. -/
theorem surface_flips (c : Cyl) (h0 : 0 ≤ c.inner) (h1 : c.inner < c.radius) (hz : 0 < c.z) (p d : Vec3 ℝ)
    (hr : ClearOfRims c p d) (h : ℝ × Bool) (hm : h ∈ surfaceHits c p d) :
    Flips (fun u => Tube c (p + Vec3.smul u d)) h.1 h.2 ∧ OnSurface c (p + Vec3.smul h.1 d) := by
  have hR : 0 < c.radius := lt_of_le_of_lt h0 h1
  have hpr := precision_pos
  set t := h.1 with ht
  have zc : ∀ a b : ℝ, ContinuousAt (fun u : ℝ => a + u * b) t := fun a b => by fun_prop
  have hcongr := fun {b : Bool} (hf : Flips (fun u => (q p d (c.radius * c.radius) u < 0 ∧ (p.z - c.z / 2) + u * d.z < 0 ∧
      (-p.z - c.z / 2) + u * -d.z < 0) ∧ ¬ q p d (c.inner * c.inner) u < 0) t b) =>
    hf.congr (Eventually.of_forall fun u => (tube_iff c h0 h1 p d u).symm)
  have hzline : ∀ u, (p + Vec3.smul u d).z = p.z + u * d.z := fun u => by simp only [Vec3.add_z, Vec3.smul_z]
  have hqd : ∀ u r r', q p d r u = q p d r' u + r' - r := fun u r r' => by rw [q_eq, q_eq]; ring
  unfold surfaceHits at hm
  simp only [List.mem_append] at hm
  have zin : |p.z + t * d.z| < c.z / 2 → ∀ᶠ u in 𝓝 t, (p.z - c.z / 2) + u * d.z < 0 ∧ (-p.z - c.z / 2) + u * -d.z < 0 := by
    intro hzt
    rw [abs_lt] at hzt
    exact (eventually_neg (zc _ _) (by linarith)).and (eventually_neg (zc _ _) (by linarith))
  have ring : ¬ (c.radius ^ 2 ≤ rad (p + Vec3.smul t d) ^ 2 ∧ rad (p + Vec3.smul t d) ^ 2 ≤ c.radius ^ 2 + precision) ∧
      (0 < c.inner → ¬ (c.inner ^ 2 - precision ≤ rad (p + Vec3.smul t d) ^ 2 ∧ rad (p + Vec3.smul t d) ^ 2 ≤ c.inner ^ 2)) →
      q p d 0 t ≤ c.radius * c.radius + precision → c.inner * c.inner - precision ≤ q p d 0 t →
      (∀ᶠ u in 𝓝 t, q p d (c.radius * c.radius) u < 0) ∧ (∀ᶠ u in 𝓝 t, ¬ q p d (c.inner * c.inner) u < 0) ∧
      c.inner ≤ rad (p + Vec3.smul t d) ∧ rad (p + Vec3.smul t d) < c.radius := by
    intro hcl a b
    rw [rad_sq p d t 0, add_zero] at hcl
    have hlt : q p d (c.radius * c.radius) t < 0 := by
      rw [hqd t _ 0]
      by_contra hc
      exact hcl.1 ⟨by nlinarith [not_lt.1 hc], by nlinarith⟩
    refine ⟨eventually_neg (q_cont _ _ _ _) hlt, ?_, ?_, (rad_lt_iff _ _ _ _ hR).2 hlt⟩
    · rcases lt_or_eq_of_le h0 with hi | hi
      · have : 0 < q p d (c.inner * c.inner) t := by
          rw [hqd t _ 0]
          by_contra hc
          exact hcl.2 hi ⟨by nlinarith, by nlinarith [not_lt.1 hc]⟩
        exact (eventually_pos (q_cont _ _ _ _) this).mono fun u hu => not_lt.2 hu.le
      · refine Eventually.of_forall fun u => not_lt.2 ?_
        rw [← hi, q_eq]; nlinarith [sq_nonneg (p.x + u * d.x), sq_nonneg (p.y + u * d.y)]
    · rcases lt_or_eq_of_le h0 with hi | hi
      · have : 0 < q p d (c.inner * c.inner) t := by
          rw [hqd t _ 0]
          by_contra hc
          exact hcl.2 hi ⟨by nlinarith, by nlinarith [not_lt.1 hc]⟩
        exact (le_rad_iff _ _ _ _ h0).2 (not_lt.2 this.le)
      · rw [← hi]; exact rad_nonneg _
  have half : 1 / 2 * c.z = c.z / 2 := by ring
  rw [half] at hm
  rcases hm with ((hm | hm) | hm) | hm
  · -- outer barrel
    rw [mem_testBarrel] at hm
    obtain ⟨_, m2, m3, m4, m5⟩ := hm
    rw [← ht] at m3 m4 m5
    have hrad := (rad_eq_iff p d t c.radius hR.le).2 m3
    have hzt : |p.z + t * d.z| < c.z / 2 := by
      by_contra hc
      refine hr.outer t hrad ?_
      rw [hzline]; exact ⟨not_lt.1 hc, m4⟩
    refine ⟨?_, Or.inl ⟨hrad, by rw [hzline]; exact hzt⟩⟩
    apply hcongr
    rw [m5, Bool.false_xor]
    refine ((q_flips p d _ t m3 m2).and (zin hzt)).and ?_
    refine (eventually_pos (q_cont p d _ t) ?_).mono fun u hu => not_lt.2 hu.le
    rw [hqd t _ (c.radius * c.radius), m3]; nlinarith
  · -- upper end
    rw [mem_testCap] at hm
    obtain ⟨m1, m2, m3, m4, m5⟩ := hm
    rw [← ht] at m2 m3 m4
    have habs : |p.z + t * d.z| = c.z / 2 := by rw [m2]; exact abs_of_pos (by linarith)
    obtain ⟨g1, g2, g3, g4⟩ := ring (hr.caps t (by rw [hzline]; exact habs)) m3 m4
    refine ⟨?_, Or.inr (Or.inr ⟨by rw [hzline]; exact habs, g3, g4⟩)⟩
    apply hcongr
    rw [m5]
    refine ((((z_flips (p.z - c.z / 2) d.z t (by linarith) m1).and ?_).and' g1).and g2)
    exact eventually_neg (zc _ _) (by linarith)
  · -- lower end
    rw [mem_testCap] at hm
    obtain ⟨m1, m2, m3, m4, m5⟩ := hm
    rw [← ht] at m2 m3 m4
    have habs : |p.z + t * d.z| = c.z / 2 := by rw [m2, abs_neg]; exact abs_of_pos (by linarith)
    obtain ⟨g1, g2, g3, g4⟩ := ring (hr.caps t (by rw [hzline]; exact habs)) m3 m4
    refine ⟨?_, Or.inr (Or.inr ⟨by rw [hzline]; exact habs, g3, g4⟩)⟩
    apply hcongr
    rw [m5, show decide (d.z > 0) = decide (-d.z < 0) by rw [decide_eq_decide]; constructor <;> intro h <;> linarith]
    refine ((((z_flips (-p.z - c.z / 2) (-d.z) t (by linarith) (neg_ne_zero.2 m1)).and' ?_).and' g1).and g2)
    exact eventually_neg (zc _ _) (by linarith)
  · -- inner barrel
    split at hm
    · next hi =>
      rw [mem_testBarrel] at hm
      obtain ⟨_, m2, m3, m4, m5⟩ := hm
      rw [← ht] at m3 m4 m5
      have hrad := (rad_eq_iff p d t c.inner h0).2 m3
      have hzt : |p.z + t * d.z| < c.z / 2 := by
        by_contra hc
        refine hr.inner hi t hrad ?_
        rw [hzline]; exact ⟨not_lt.1 hc, m4⟩
      refine ⟨?_, Or.inr (Or.inl ⟨hi, hrad, by rw [hzline]; exact hzt⟩)⟩
      apply hcongr
      rw [m5, Bool.true_xor]
      refine (q_flips p d _ t m3 m2).not.and' ((eventually_neg (q_cont p d _ t) ?_).and (zin hzt))
      rw [hqd t _ (c.inner * c.inner), m3]; nlinarith
    · simp at hm

/-- Where no hit is reported, the line neither enters nor leaves the tube. -/
theorem surface_steady (c : Cyl) (h0 : 0 ≤ c.inner) (h1 : c.inner < c.radius) (hz : 0 < c.z) (p d : Vec3 ℝ) (t : ℝ)
    (ht : ∀ h ∈ surfaceHits c p d, h.1 ≠ t) : Steady (fun u => Tube c (p + Vec3.smul u d)) t := by
  have hR : 0 < c.radius := lt_of_le_of_lt h0 h1
  have hpr := precision_pos
  have half : 1 / 2 * c.z = c.z / 2 := by ring
  have zc : ∀ a b : ℝ, ContinuousAt (fun u : ℝ => a + u * b) t := fun a b => by fun_prop
  have hqd : ∀ u r r', q p d r u = q p d r' u + r' - r := fun u r r' => by rw [q_eq, q_eq]; ring
  refine Steady.of_congr ?_ (Eventually.of_forall fun u => (tube_iff c h0 h1 p d u).symm)
  have hbar : ∀ b : Bool, ∀ h ∈ testBarrel p d (c.z / 2) (c.radius * c.radius) b, b = false → h.1 ≠ t := by
    rintro b h hh rfl
    exact ht h (by unfold surfaceHits; simp only [half, List.mem_append]; exact Or.inl (Or.inl (Or.inl hh)))
  have hup : ∀ h ∈ testCap p d (c.z / 2) (c.inner * c.inner) (c.radius * c.radius) (decide (d.z < 0)), h.1 ≠ t := by
    intro h hh
    exact ht h (by unfold surfaceHits; simp only [half, List.mem_append]; exact Or.inl (Or.inl (Or.inr hh)))
  have hlo : ∀ h ∈ testCap p d (-(c.z / 2)) (c.inner * c.inner) (c.radius * c.radius) (decide (d.z > 0)), h.1 ≠ t := by
    intro h hh
    exact ht h (by unfold surfaceHits; simp only [half, List.mem_append]; exact Or.inl (Or.inr hh))
  have hin : 0 < c.inner → ∀ h ∈ testBarrel p d (c.z / 2) (c.inner * c.inner) true, h.1 ≠ t := by
    intro hi h hh
    exact ht h (by unfold surfaceHits; simp only [half, List.mem_append]; right; rw [if_pos hi]; exact hh)
  -- beyond an end
  have zout : c.z / 2 < |p.z + t * d.z| → Steady (fun u => (q p d (c.radius * c.radius) u < 0 ∧ (p.z - c.z / 2) + u * d.z < 0 ∧
      (-p.z - c.z / 2) + u * -d.z < 0) ∧ ¬ q p d (c.inner * c.inner) u < 0) t := by
    intro h
    right
    rcases lt_abs.1 h with h | h
    · exact (eventually_pos (f := fun u => (p.z - c.z / 2) + u * d.z) (zc _ _) (by linarith)).mono fun u hu hc => absurd hc.1.2.1 (not_lt.2 hu.le)
    · exact (eventually_pos (f := fun u => (-p.z - c.z / 2) + u * -d.z) (zc _ _) (by linarith)).mono fun u hu hc => absurd hc.1.2.2 (not_lt.2 hu.le)
  by_cases hA : q p d (c.radius * c.radius) t = 0
  · by_cases hh : det p d (c.radius * c.radius) ≤ 0 ∨ d.x = 0 ∧ d.y = 0
    · right
      exact Eventually.of_forall fun u hc => absurd hc.1.1 (not_lt.2 (q_nonneg p d _ t hA hh u))
    · rw [not_or] at hh
      apply zout
      by_contra hc
      refine hbar false (t, decide ((d.x * d.x + d.y * d.y) * t + (p.x * d.x + p.y * d.y) < 0)) ?_ rfl rfl
      rw [mem_testBarrel]
      exact ⟨hh.2, not_le.1 hh.1, hA, by linarith [not_lt.1 hc], by simp⟩
  have cap : ∀ zcap, (∀ h ∈ testCap p d zcap (c.inner * c.inner) (c.radius * c.radius) (decide (zcap < 0) ^^ decide (d.z < 0)), h.1 ≠ t) → d.z ≠ 0 →
      p.z + t * d.z = zcap → Steady (fun u => (q p d (c.radius * c.radius) u < 0 ∧ (p.z - c.z / 2) + u * d.z < 0 ∧
      (-p.z - c.z / 2) + u * -d.z < 0) ∧ ¬ q p d (c.inner * c.inner) u < 0) t := by
    intro zcap hno hdz hzt
    by_cases hhi : q p d 0 t ≤ c.radius * c.radius + precision
    · have hlo : ¬ c.inner * c.inner - precision ≤ q p d 0 t := by
        intro hlo
        refine hno (t, decide (zcap < 0) ^^ decide (d.z < 0)) ?_ rfl
        rw [mem_testCap]
        exact ⟨hdz, hzt, hhi, hlo, rfl⟩
      right
      have : q p d (c.inner * c.inner) t < 0 := by rw [hqd t _ 0]; linarith [not_le.1 hlo]
      exact (eventually_neg (q_cont p d _ t) this).mono fun u hu hc => hc.2 hu
    · right
      have : 0 < q p d (c.radius * c.radius) t := by rw [hqd t _ 0]; linarith [not_le.1 hhi]
      exact (eventually_pos (q_cont p d _ t) this).mono fun u hu hc => absurd hc.1.1 (not_lt.2 hu.le)
  by_cases hZp : (p.z - c.z / 2) + t * d.z = 0
  · by_cases hdz : d.z = 0
    · right
      refine Eventually.of_forall fun u hc => absurd hc.1.2.1 ?_
      rw [hdz] at hZp ⊢; simp only [mul_zero, add_zero] at hZp ⊢; rw [hZp]; exact lt_irrefl _
    · refine cap (c.z / 2) ?_ hdz (by linarith)
      rw [show decide (c.z / 2 < 0) = false by simp; linarith, Bool.false_xor]
      exact hup
  by_cases hZm : (-p.z - c.z / 2) + t * -d.z = 0
  · by_cases hdz : d.z = 0
    · right
      refine Eventually.of_forall fun u hc => absurd hc.1.2.2 ?_
      rw [hdz] at hZm ⊢; simp only [neg_zero, mul_zero, add_zero] at hZm ⊢; rw [hZm]; exact lt_irrefl _
    · refine cap (-(c.z / 2)) ?_ hdz (by linarith)
      rw [show decide (-(c.z / 2) < 0) = true by simp; linarith, Bool.true_xor]
      have : (!decide (d.z < 0)) = decide (d.z > 0) := by
        rw [← decide_not, decide_eq_decide, not_lt]
        exact ⟨fun h => lt_of_le_of_ne h (Ne.symm hdz), fun h => le_of_lt h⟩
      rw [this]; exact hlo
  have hI : Steady (fun u => q p d (c.inner * c.inner) u < 0) t ∨ c.z / 2 < |p.z + t * d.z| := by
    by_cases hI : q p d (c.inner * c.inner) t = 0
    · by_cases hh : (det p d (c.inner * c.inner) ≤ 0 ∨ d.x = 0 ∧ d.y = 0)
      · left; right
        exact Eventually.of_forall fun u => not_lt.2 (q_nonneg p d _ t hI hh u)
      · rcases lt_or_eq_of_le h0 with hi | hi
        · right
          rw [not_or] at hh
          by_contra hc
          refine hin hi (t, !decide ((d.x * d.x + d.y * d.y) * t + (p.x * d.x + p.y * d.y) < 0)) ?_ rfl
          rw [mem_testBarrel]
          exact ⟨hh.2, not_le.1 hh.1, hI, by linarith [not_lt.1 hc], by simp⟩
        · left; right
          refine Eventually.of_forall fun u => not_lt.2 ?_
          rw [← hi, q_eq]; nlinarith [sq_nonneg (p.x + u * d.x), sq_nonneg (p.y + u * d.y)]
    · left; exact steady_of_ne (q_cont p d _ t) hI
  rcases hI with hI | hI
  · exact ((steady_of_ne (q_cont p d _ t) hA).and ((steady_of_ne (zc _ _) hZp).and (steady_of_ne (zc _ _) hZm))).and hI.not
  · exact zout hI

theorem filterMap_sublist (f : ℝ → Option (ℝ × Bool)) (hf : ∀ t b, f t = some b → b.1 = t) (l : List ℝ) :
    ((l.filterMap f).map Prod.fst).Sublist l := by
  induction l with
  | nil => simp
  | cons a as ih =>
    rw [List.filterMap_cons]
    cases h : f a with
    | none => exact ih.cons a
    | some b =>
      simp only [List.map_cons]
      rw [hf a b h]
      exact ih.cons_cons a

theorem testBarrel_nodup (p d : Vec3 ℝ) (hz r2 : ℝ) (invert : Bool) : ((testBarrel p d hz r2 invert).map Prod.fst).Nodup := by
  unfold testBarrel
  by_cases h0 : d.x = 0 ∧ d.y = 0
  · simp [h0]
  rw [if_neg h0]
  simp only
  split
  · simp
  · next hd =>
    have hC : 0 < d.x * d.x + d.y * d.y := by
      by_contra hc
      exact h0 ⟨by nlinarith [mul_self_nonneg d.x, mul_self_nonneg d.y], by nlinarith [mul_self_nonneg d.x, mul_self_nonneg d.y]⟩
    have hs := Real.sqrt_pos.2 (not_le.1 hd)
    set sq := Real.sqrt ((d.x * d.x + d.y * d.y) * r2 - (p.x * d.y - p.y * d.x) * (p.x * d.y - p.y * d.x))
    have hlt : (-(p.x * d.x + p.y * d.y) - sq) * (1 / (d.x * d.x + d.y * d.y)) ≠ (-(p.x * d.x + p.y * d.y) + sq) * (1 / (d.x * d.x + d.y * d.y)) := by
      have := one_div_pos.2 hC
      intro e
      have := mul_right_cancel₀ this.ne' e
      linarith
    refine (filterMap_sublist _ ?_ _).nodup (by simpa using hlt)
    intro t b hb
    split at hb
    · simp only [Option.some.injEq] at hb; rw [← hb]
    · exact absurd hb (by simp)

theorem testCap_nodup (p d : Vec3 ℝ) (zcap lo hi : ℝ) (enter : Bool) : ((testCap p d zcap lo hi enter).map Prod.fst).Nodup := by
  unfold testCap
  by_cases h0 : d.z = 0
  · simp [h0]
  · rw [if_neg h0]
    simp only
    split <;> simp

/-- No distance is reported twice. -/
theorem surface_nodup (c : Cyl) (h0 : 0 ≤ c.inner) (h1 : c.inner < c.radius) (hz : 0 < c.z) (p d : Vec3 ℝ)
    (hr : ClearOfRims c p d) : ((surfaceHits c p d).map Prod.fst).Nodup := by
  have hR : 0 < c.radius := lt_of_le_of_lt h0 h1
  have half : 1 / 2 * c.z = c.z / 2 := by ring
  have hzline : ∀ u, (p + Vec3.smul u d).z = p.z + u * d.z := fun u => by simp only [Vec3.add_z, Vec3.smul_z]
  have hqd : ∀ u r r', q p d r u = q p d r' u + r' - r := fun u r r' => by rw [q_eq, q_eq]; ring
  have bz : ∀ x, x ∈ testBarrel p d (c.z / 2) (c.radius * c.radius) false → |p.z + x.1 * d.z| < c.z / 2 ∧ q p d (c.radius * c.radius) x.1 = 0 := by
    intro x hx
    obtain ⟨_, m2, m3, m4, _⟩ := (mem_testBarrel _ _ _ _ _ _).1 hx
    refine ⟨?_, m3⟩
    by_contra hc
    refine hr.outer x.1 ((rad_eq_iff p d _ c.radius hR.le).2 m3) ?_
    rw [hzline]; exact ⟨not_lt.1 hc, m4⟩
  have iz : 0 < c.inner → ∀ x, x ∈ testBarrel p d (c.z / 2) (c.inner * c.inner) true → |p.z + x.1 * d.z| < c.z / 2 ∧ q p d (c.inner * c.inner) x.1 = 0 := by
    intro hi x hx
    obtain ⟨_, m2, m3, m4, _⟩ := (mem_testBarrel _ _ _ _ _ _).1 hx
    refine ⟨?_, m3⟩
    by_contra hc
    refine hr.inner hi x.1 ((rad_eq_iff p d _ c.inner h0).2 m3) ?_
    rw [hzline]; exact ⟨not_lt.1 hc, m4⟩
  have cz : ∀ x zcap b, x ∈ testCap p d zcap (c.inner * c.inner) (c.radius * c.radius) b → p.z + x.1 * d.z = zcap := by
    intro x zcap b hx
    exact ((mem_testCap _ _ _ _ _ _ _).1 hx).2.1
  have hpos : |c.z / 2| = c.z / 2 := abs_of_pos (by linarith)
  unfold surfaceHits
  simp only [half, List.map_append]
  refine List.nodup_append.2 ⟨List.nodup_append.2 ⟨List.nodup_append.2 ⟨testBarrel_nodup _ _ _ _ _, testCap_nodup _ _ _ _ _ _, ?_⟩,
    testCap_nodup _ _ _ _ _ _, ?_⟩, ?_, ?_⟩
  · intro a ha b hb e
    obtain ⟨x, hx, rfl⟩ := List.mem_map.1 ha
    obtain ⟨y, hy, rfl⟩ := List.mem_map.1 hb
    have h3 := (bz x hx).1
    rw [e, cz y _ _ hy, hpos] at h3
    exact lt_irrefl _ h3
  · intro a ha b hb e
    obtain ⟨y, hy, rfl⟩ := List.mem_map.1 hb
    rcases List.mem_append.1 ha with ha | ha
    · obtain ⟨x, hx, rfl⟩ := List.mem_map.1 ha
      have h3 := (bz x hx).1
      rw [e, cz y _ _ hy, abs_neg, hpos] at h3
      exact lt_irrefl _ h3
    · obtain ⟨x, hx, rfl⟩ := List.mem_map.1 ha
      have h3 := cz x _ _ hx
      rw [e, cz y _ _ hy] at h3
      linarith
  · split
    · exact testBarrel_nodup _ _ _ _ _
    · simp
  · intro a ha b hb e
    split at hb
    · next hi =>
      obtain ⟨y, hy, rfl⟩ := List.mem_map.1 hb
      have hy' := iz hi y hy
      rcases List.mem_append.1 ha with ha | ha
      · rcases List.mem_append.1 ha with ha | ha
        · obtain ⟨x, hx, rfl⟩ := List.mem_map.1 ha
          have h3 := (bz x hx).2
          have h4 := hy'.2
          rw [← e, hqd _ _ (c.radius * c.radius), h3] at h4
          nlinarith
        · obtain ⟨x, hx, rfl⟩ := List.mem_map.1 ha
          have h3 := hy'.1
          rw [← e, cz x _ _ hx, hpos] at h3
          exact lt_irrefl _ h3
      · obtain ⟨x, hx, rfl⟩ := List.mem_map.1 ha
        have h3 := hy'.1
        rw [← e, cz x _ _ hx, abs_neg, hpos] at h3
        exact lt_irrefl _ h3
    · simp at hb

/-- The reported distances are at least 1e-9 apart. -/
theorem surface_apart (c : Cyl) (h0 : 0 ≤ c.inner) (h1 : c.inner < c.radius) (hz : 0 < c.z) (p d : Vec3 ℝ)
    (hr : ClearOfRims c p d) (ha : Apart c p d) :
    (surfaceHits c p d).Pairwise (fun a b => precision ≤ |snap a.1 - snap b.1|) := by
  have hn := surface_nodup c h0 h1 hz p d hr
  rw [List.Nodup, List.pairwise_map] at hn
  refine hn.imp_of_mem ?_
  intro a b hma hmb hne
  apply Phi.snap_ne_of_apart
  have sa := (surface_flips c h0 h1 hz p d hr a hma).2
  have sb := (surface_flips c h0 h1 hz p d hr b hmb).2
  rcases lt_or_gt_of_ne hne with h | h
  · have := ha _ _ sa sb h
    rw [abs_of_neg (by linarith [precision_pos])]; linarith
  · have := ha _ _ sb sa h
    rw [abs_of_pos (by linarith [precision_pos])]; linarith

theorem dedup_id (l : List Isect) (h : l.Pairwise (fun a b => precision ≤ |a.distance - b.distance|)) :
    (∀ last, (∀ x ∈ l, precision ≤ |x.distance - last|) → dedup (some last) l = l) ∧ dedup none l = l := by
  induction l with
  | nil => exact ⟨fun _ _ => rfl, rfl⟩
  | cons a as ih =>
    obtain ⟨p1, p2⟩ := List.pairwise_cons.1 h
    have hrec := (ih p2).1 a.distance (fun x hx => by rw [abs_sub_comm]; exact p1 x hx)
    refine ⟨fun last hl => ?_, ?_⟩
    · show (if _ then _ else _) = _
      rw [if_neg (not_lt.2 (hl a (by simp))), hrec]
    · show a :: dedup (some a.distance) as = _
      rw [hrec]

/-- The exact surface crossings of the line in order. -/
theorem surface_exact (c : Cyl) (h0 : 0 ≤ c.inner) (h1 : c.inner < c.radius) (hz : 0 < c.z) (p d : Vec3 ℝ) (hd : d ≠ 0)
    (hr : ClearOfRims c p d) (l : List Isect) (hl : l.Perm ((surfaceHits c p d).map (surfaceHit p d)))
    (hs : l.Pairwise (fun a b => a.distance ≤ b.distance)) (ha : Apart c p d) :
    ∃ E : List (ℝ × Bool), E.Perm (surfaceHits c p d) ∧ Exactly (fun u => Tube c (p + Vec3.smul u d)) E ∧
      l = E.map (surfaceHit p d) ∧ (E.map fun c => snap c.1).Pairwise (· < ·) := by
  have hap := surface_apart c h0 h1 hz p d hr ha
  have hn : (l.map Isect.distance).Nodup := by
    rw [(hl.map Isect.distance).nodup_iff, List.map_map, List.Nodup, List.pairwise_map]
    refine hap.imp fun {a b} h e => ?_
    have e' : snap a.1 = snap b.1 := e
    rw [e', sub_self, abs_zero] at h
    linarith [precision_pos]
  obtain ⟨E, e1, e2, e3, e4⟩ := sorted_exact _ (surfaceHit p d) (fun c => rfl) l hl hs hn
  obtain ⟨M, hM⟩ := tube_bounded c p d hd
  obtain ⟨b1, b2⟩ := empty_at_infinity M hM
  refine ⟨E, e1, exactly_of_flips e2 ?_ ?_ b1 b2, e3, e4⟩
  · intro x hx
    exact (surface_flips c h0 h1 hz p d hr x (e1.mem_iff.1 hx)).1
  · intro t ht
    exact surface_steady c h0 h1 hz p d t (fun h hh => ht h (e1.mem_iff.2 hh))

/-- The computed crossings as exact crossings of the solid. -/
theorem compute_exact (srt : List SHit → List SHit) (hsrt : IsHitSort srt) (c : Cyl) (hcut : c.hasPhiCut = false)
    (h0 : 0 ≤ c.inner) (h1 : c.inner < c.radius) (hz : 0 < c.z) (p d : Vec3 ℝ) (hd : d ≠ 0) (hr : ClearOfRims c p d)
    (ha : Apart c p d) :
    ∃ E : List (ℝ × Bool), Exactly (fun u => Tube c (p + Vec3.smul u d)) E ∧ compute srt c p d = E.map (surfaceHit p d) := by
  obtain ⟨hp, hs⟩ := hsrt ((surfaceHits c p d).map fun h => (⟨surfaceHit p d h, 0⟩ : SHit))
  set l := (srt ((surfaceHits c p d).map fun h => (⟨surfaceHit p d h, 0⟩ : SHit))).map SHit.isect with hl
  have hperm : l.Perm ((surfaceHits c p d).map (surfaceHit p d)) := by
    have := hp.map SHit.isect
    rw [List.map_map] at this
    exact this
  have hsort : l.Pairwise (fun a b => a.distance ≤ b.distance) := by rw [hl, List.pairwise_map]; exact hs
  have hgap : l.Pairwise (fun a b => precision ≤ |a.distance - b.distance|) := by
    have := surface_apart c h0 h1 hz p d hr ha
    have h2 : ((surfaceHits c p d).map (surfaceHit p d)).Pairwise (fun a b => precision ≤ |a.distance - b.distance|) := by
      rw [List.pairwise_map]; exact this
    exact (hperm.pairwise_iff (fun {a b} h => by rwa [abs_sub_comm])).2 h2
  have hcomp : compute srt c p d = l := by
    unfold compute
    simp only [hcut, Bool.not_false, if_true]
    exact (dedup_id l hgap).2
  obtain ⟨E, e1, e2, e3, e4⟩ := surface_exact c h0 h1 hz p d hd hr l hperm hsort ha
  exact ⟨E, e2, by rw [hcomp, e3]⟩

/-- C75: for every full cylinder or tube and every line that does not touch a rim and whose crossings of the surface are
at least 2e-9 apart, the reported crossings are in strictly increasing order, enter and leave in turn, and describe exactly
which part of the line is inside. Each lies on the line and on the surface; a distance in `(0, 1e-9)` is reported as 0. -/
theorem C75_tube (srt : List SHit → List SHit) (hsrt : IsHitSort srt) (c : Cyl) (hcut : c.hasPhiCut = false)
    (h0 : 0 ≤ c.inner) (h1 : c.inner < c.radius) (hz : 0 < c.z) (p d : Vec3 ℝ) (hd : d ≠ 0) (hr : ClearOfRims c p d)
    (ha : Apart c p d) :
    Describes precision (fun t => Tube c (p + Vec3.smul t d)) (compute srt c p d) ∧
      ∀ h ∈ compute srt c p d, ∃ t : ℝ, h.position = p + Vec3.smul t d ∧ OnSurface c h.position ∧
        h.distance = if 0 < t ∧ t < 1 / 1000000000 then 0 else t := by
  obtain ⟨hp, hs⟩ := hsrt ((surfaceHits c p d).map fun h => (⟨surfaceHit p d h, 0⟩ : SHit))
  set l := (srt ((surfaceHits c p d).map fun h => (⟨surfaceHit p d h, 0⟩ : SHit))).map SHit.isect with hl
  have hperm : l.Perm ((surfaceHits c p d).map (surfaceHit p d)) := by
    have := hp.map SHit.isect
    rw [List.map_map] at this
    exact this
  have hsort : l.Pairwise (fun a b => a.distance ≤ b.distance) := by rw [hl, List.pairwise_map]; exact hs
  have hgap : l.Pairwise (fun a b => precision ≤ |a.distance - b.distance|) := by
    have := surface_apart c h0 h1 hz p d hr ha
    have h2 : ((surfaceHits c p d).map (surfaceHit p d)).Pairwise (fun a b => precision ≤ |a.distance - b.distance|) := by
      rw [List.pairwise_map]; exact this
    exact (hperm.pairwise_iff (fun {a b} h => by rwa [abs_sub_comm])).2 h2
  have hcomp : compute srt c p d = l := by
    unfold compute
    simp only [hcut, Bool.not_false, if_true]
    exact (dedup_id l hgap).2
  rw [hcomp]
  obtain ⟨E, e1, e2, e3, e4⟩ := surface_exact c h0 h1 hz p d hd hr l hperm hsort ha
  refine ⟨?_, ?_⟩
  · rw [e3]
    exact e2.describes_with (surfaceHit p d) (fun _ => rfl) (fun _ => rfl) e4
  · intro h hh
    rw [e3] at hh
    obtain ⟨x, hx, rfl⟩ := List.mem_map.1 hh
    refine ⟨x.1, rfl, (surface_flips c h0 h1 hz p d hr x (e1.mem_iff.1 hx)).2, rfl⟩

/-- C75: with a cut in azimuth, for lines that also cross the wedge cleanly, the reported crossings are in increasing order,
enter and leave in turn, and say "inside" exactly where the line is both in the tube and in the wedge. -/
theorem C75_cut (srt : List SHit → List SHit) (hsrt : IsHitSort srt) (c : Cyl) (hcut : c.hasPhiCut = true)
    (h0 : 0 ≤ c.inner) (h1 : c.inner < c.radius) (hz : 0 < c.z) (hd0 : 0 < c.deltaPhi) (hd1 : c.deltaPhi < 2 * π) (p d : Vec3 ℝ) (hd : d ≠ 0)
    (hr : ClearOfRims c p d) (ha : Apart c p d)
    (hw : Phi.Clean c.startPhi c.deltaPhi p d ∨ Phi.Vertical c.startPhi c.deltaPhi p d) (hsp : Phi.Spread c.startPhi c.deltaPhi p d) :
    (compute srt c p d).Pairwise (fun a b => a.distance ≤ b.distance) ∧ Alternates false (compute srt c p d) ∧
    ∀ t : ℝ, (∀ u : ℝ, OnSurface c (p + Vec3.smul u d) ∨ Phi.planeDist c.startPhi (p + Vec3.smul u d) = 0 ∨
        Phi.planeDist (c.startPhi + c.deltaPhi) (p + Vec3.smul u d) = 0 → 2 * precision ≤ |u - t|) →
      (stateFrom false (compute srt c p d) t = true ↔
        Tube c (p + Vec3.smul t d) ∧ Phi.InWedge c.startPhi c.deltaPhi (p + Vec3.smul t d)) := by
  set surf := (surfaceHits c p d).map (fun h => (⟨surfaceHit p d h, 0⟩ : SHit)) with hsurf
  set wed := (Phi.wedgeHits snap c.startPhi c.deltaPhi p d).map (fun h => (⟨hitAt p d h.1 h.2, 1⟩ : SHit)) with hwed
  set st : Nat → Bool := fun k => if k = 0 then false else Phi.initialPhiState p.x p.y d.x d.y c.startPhi c.deltaPhi with hst
  have hcomp : compute srt c p d = andWalk 2 st (allIn 2 st) (srt (surf ++ wed)) := by
    unfold compute
    simp only [hcut, Bool.not_true, Bool.false_eq_true, if_false]
    rfl
  have hin0 : allIn 2 st = false := by simp [allIn, hst, List.range_succ]
  obtain ⟨hp, hs⟩ := hsrt (surf ++ wed)
  have f0 : ofSource 0 (surf ++ wed) = (surfaceHits c p d).map (surfaceHit p d) := by
    rw [ofSource, List.filter_append, hsurf, hwed, List.filter_map, List.filter_map]
    simp [Function.comp_def]
  have f1 : ofSource 1 (surf ++ wed) = (Phi.wedgeHits snap c.startPhi c.deltaPhi p d).map (fun h => hitAt p d h.1 h.2) := by
    rw [ofSource, List.filter_append, hsurf, hwed, List.filter_map, List.filter_map]
    simp [Function.comp_def]
  have hsorted : ∀ k, (ofSource k (srt (surf ++ wed))).Pairwise (fun a b => a.distance ≤ b.distance) := by
    intro k; unfold ofSource; rw [List.pairwise_map]; exact hs.filter _
  have hperm0 : (ofSource 0 (srt (surf ++ wed))).Perm ((surfaceHits c p d).map (surfaceHit p d)) := by
    rw [← f0]; exact (hp.filter _).map _
  have hperm1 : (ofSource 1 (srt (surf ++ wed))).Perm ((Phi.wedgeHits snap c.startPhi c.deltaPhi p d).map (fun h => hitAt p d h.1 h.2)) := by
    rw [← f1]; exact (hp.filter _).map _
  obtain ⟨E, e1, e2, e3, e4⟩ := surface_exact c h0 h1 hz p d hd hr _ hperm0 (hsorted 0) ha
  have hdes := e2.describes_with (surfaceHit p d) (fun _ => rfl) (fun _ => rfl) e4
  refine ⟨?_, ?_, ?_⟩
  · rw [hcomp]; exact andWalk_pairwise 2 (· ≤ ·) _ hs _ _
  · rw [hcomp]
    have := andWalk_alternates 2 (srt (surf ++ wed)) st ⟨0, by norm_num, ?_⟩
    · rwa [hin0] at this
    · rw [e3]
      show ((List.map (surfaceHit p d) E).getLast?.map Isect.entering).getD false = false
      have hlast : ∀ (l : List Isect) (s : Bool), Alternates s l → (l.getLast?.map Isect.entering).getD s = false := by
        intro l
        induction l with
        | nil => intro s h; simpa [Alternates] using h
        | cons a as ih =>
          intro s h
          have := ih _ h.2
          rw [List.getLast?_cons]
          cases hl : as.getLast? with
          | none => rw [hl] at this; simpa using this
          | some x => rw [hl] at this; simpa using this
      exact hlast _ _ hdes.alternates
  · intro t ht
    have hnear : ∀ u, 2 * precision ≤ |u - t| → precision ≤ |snap u - t| := by
      intro u hu
      have h3 := snap_le u
      have h4 := snap_near u
      have := precision_pos
      rcases le_total u t with h | h
      · rw [abs_of_nonpos (by linarith)] at hu ⊢; linarith
      · rw [abs_of_nonneg (by linarith)] at hu
        rw [abs_of_nonneg (by linarith)]; linarith
    have ht0 : ∀ x ∈ E.map (surfaceHit p d), precision ≤ |x.distance - t| := by
      intro x hx
      obtain ⟨y, hy, rfl⟩ := List.mem_map.1 hx
      exact hnear _ (ht _ (Or.inl (surface_flips c h0 h1 hz p d hr y (e1.mem_iff.1 hy)).2))
    have ht1 : ∀ x ∈ ofSource 1 (srt (surf ++ wed)), precision ≤ |x.distance - t| := by
      intro x hx
      obtain ⟨y, hy, rfl⟩ := List.mem_map.1 (hperm1.mem_iff.1 hx)
      apply hnear
      apply ht
      right
      have : ∀ face, (face = 0 ∨ face = 1) → ∀ e, y ∈ (Phi.wedgeFace snap c.startPhi c.deltaPhi p d face e).1 →
          Phi.faceFun c.startPhi c.deltaPhi face (p + Vec3.smul y.1 d) = 0 := by
        intro face hf e hy
        unfold Phi.wedgeFace at hy
        simp only at hy
        split at hy
        · simp at hy
        · next hnd =>
          have hnd0 : (Phi.faceNormal c.startPhi c.deltaPhi face).1 * d.x + (Phi.faceNormal c.startPhi c.deltaPhi face).2 * d.y ≠ 0 := by
            intro h; rw [h, abs_zero] at hnd; exact hnd precision_pos
          have key : y.1 = -((Phi.faceNormal c.startPhi c.deltaPhi face).1 * p.x + (Phi.faceNormal c.startPhi c.deltaPhi face).2 * p.y) /
              ((Phi.faceNormal c.startPhi c.deltaPhi face).1 * d.x + (Phi.faceNormal c.startPhi c.deltaPhi face).2 * d.y) := by
            split at hy
            · simp at hy
            · split at hy
              · split at hy
                · simp at hy
                · simp only [List.mem_singleton] at hy; rw [hy]
              · simp only [List.mem_singleton] at hy; rw [hy]
          rw [Phi.faceFun_line, key]
          unfold Phi.faceFun
          field_simp
          ring
      unfold Phi.wedgeHits at hy
      simp only [List.mem_append] at hy
      rcases hy with hy | hy
      · left
        have := this 0 (Or.inl rfl) _ hy
        rw [Phi.faceFun_zero] at this
        linarith
      · right
        have := this 1 (Or.inr rfl) _ hy
        rwa [Phi.faceFun_one] at this
    have hw1 := Phi.C74_wedge snap (Or.inl rfl) c.startPhi c.deltaPhi hd0 hd1 p d hw hsp _ hperm1 (hsorted 1) t ht1
    have hwalk := andWalk_state 2 t (srt (surf ++ wed)) hs st
    rw [hin0] at hwalk
    rw [hcomp, hin0, hwalk]
    have : allIn 2 (fun k => stateFrom (st k) (ofSource k (srt (surf ++ wed))) t) =
        (stateFrom (st 0) (ofSource 0 (srt (surf ++ wed))) t && stateFrom (st 1) (ofSource 1 (srt (surf ++ wed))) t) := by
      simp [allIn, List.range_succ]
    rw [this, Bool.and_eq_true, hw1, hdes.exact t ht0, ← e3]
    rfl

/-- C75: at most eight hits are stored, so that the array of twelve does not overflow. -/
theorem C75_capacity (c : Cyl) (p d : Vec3 ℝ) :
    (surfaceHits c p d).length + (Phi.wedgeHits snap c.startPhi c.deltaPhi p d).length ≤ 8 := by
  have hb : ∀ hz r2 i, (testBarrel p d hz r2 i).length ≤ 2 := by
    intro hz r2 i
    unfold testBarrel
    split
    · simp
    · simp only
      split
      · simp
      · exact le_trans (List.length_filterMap_le _ _) (by simp)
  have hc : ∀ z lo hi e, (testCap p d z lo hi e).length ≤ 1 := by
    intro z lo hi e
    unfold testCap
    split
    · simp
    · simp only; split <;> simp
  have hf : ∀ f e, (Phi.wedgeFace snap c.startPhi c.deltaPhi p d f e).1.length ≤ 1 := by
    intro f e
    unfold Phi.wedgeFace
    simp only
    split
    · simp
    · split
      · simp
      · split
        · split <;> simp
        · simp
  unfold surfaceHits Phi.wedgeHits
  simp only [List.length_append]
  have h1 := hb (1 / 2 * c.z) (c.radius * c.radius) false
  have h2 := hc (1 / 2 * c.z) (c.inner * c.inner) (c.radius * c.radius) (decide (d.z < 0))
  have h3 := hc (-(1 / 2 * c.z)) (c.inner * c.inner) (c.radius * c.radius) (decide (d.z > 0))
  have h4 : (if c.inner > 0 then testBarrel p d (1 / 2 * c.z) (c.inner * c.inner) true else []).length ≤ 2 := by
    split
    · exact hb _ _ _
    · simp
  have h5 := hf 0 false
  have h6 := hf 1 (Phi.wedgeFace snap c.startPhi c.deltaPhi p d 0 false).2
  omega

/-- C75: the bounding box contains the tube. -/
theorem C75_bounding_box (c : Cyl) (v : Vec3 ℝ) (h : Tube c v) : AABB.Mem v (boundingBox c) := by
  obtain ⟨_, h1, h2⟩ := h
  have h3 : rad v ^ 2 = v.x ^ 2 + v.y ^ 2 := Real.sq_sqrt (by positivity)
  have h4 := rad_nonneg v
  have hx := abs_le_of_sq_le_sq (a := v.x) (b := c.radius) (by nlinarith [sq_nonneg v.y]) (by linarith)
  have hy := abs_le_of_sq_le_sq (a := v.y) (b := c.radius) (by nlinarith [sq_nonneg v.x]) (by linarith)
  have hz := abs_le.1 h2.le
  refine ⟨abs_le.1 hx, abs_le.1 hy, ?_⟩
  simp only [boundingBox]
  exact ⟨by linarith [hz.1], by linarith [hz.2]⟩

/-- C75: the constructors order the radii; the one with angles refuses an extent that is not positive, limits it to a full
turn, and notes a cut unless the extent is a full turn up to 1e-9. -/
theorem C75_constructors (radius inner z start delta : ℝ) :
    (make radius inner z).inner = min inner radius ∧ (make radius inner z).radius = max inner radius ∧
    (make radius inner z).hasPhiCut = false ∧ (makePhi radius inner z start delta = none ↔ delta ≤ 0) ∧
    ∀ c, makePhi radius inner z start delta = some c → c.inner = min inner radius ∧ c.radius = max inner radius ∧ c.z = z ∧
      c.startPhi = start ∧ 0 < c.deltaPhi ∧ c.deltaPhi = min delta (2 * π) ∧
      (c.hasPhiCut = true ↔ c.deltaPhi < 2 * π - 1 / 1000000000) := by
  have hr : (if inner > radius then (inner, radius) else (radius, inner)) = (max inner radius, min inner radius) := by
    split
    · next h => rw [max_eq_left h.le, min_eq_right h.le]
    · next h => rw [max_eq_right (not_lt.1 h), min_eq_left (not_lt.1 h)]
  refine ⟨by simp [make, hr], by simp [make, hr], rfl, ?_, ?_⟩
  · unfold makePhi
    simp only
    split
    · next h => simp [h]
    · next h => simp only [reduceCtorEq, false_iff]; exact h
  · intro c hc
    unfold makePhi at hc
    simp only [hr] at hc
    split at hc
    · exact absurd hc (by simp)
    · next h =>
      simp only [Option.some.injEq] at hc
      subst hc
      have hd : (if delta > 2 * π then 2 * π else delta) = min delta (2 * π) := by
        split
        · next h => rw [min_eq_right (le_of_lt h)]
        · next h => rw [min_eq_left (not_lt.1 h)]
      simp only [hd, decide_eq_true_eq]
      exact ⟨trivial, trivial, trivial, trivial, lt_min (not_le.1 h) (by positivity), trivial, trivial⟩

/-- C75: a line that clips a rim, entering through an end and leaving through the barrel less than 1e-9 later, is reported
with its entry only, so that everything behind the cylinder counts as inside. -/
theorem C75_rim_fails : ∃ (c : Cyl) (p d : Vec3 ℝ), c = make 1 0 2 ∧ Vec3.dot d d = 1 ∧
    ∀ srt, IsHitSort srt → (compute srt c p d).length = 1 ∧ stateFrom false (compute srt c p d) 100 = true ∧
      ¬ Tube c (p + Vec3.smul 100 d) := by
  set p : Vec3 ℝ := ⟨2 / 5 - 3 / 10000000000, 0, 9 / 5⟩ with hp
  set d : Vec3 ℝ := ⟨3 / 5, 0, -4 / 5⟩ with hd
  have hc : make 1 0 2 = ⟨1, 0, 2, 0, 2 * π, false⟩ := by
    unfold make; rw [if_neg (by norm_num)]
  have hsqrt : Real.sqrt (9 / 25) = 3 / 5 := by
    rw [show (9 / 25 : ℝ) = (3 / 5) ^ 2 by norm_num, Real.sqrt_sq (by norm_num)]
  have hbar : testBarrel p d (1 / 2 * 2) (1 * 1) false = [(1 + 5 / 10000000000, false)] := by
    unfold testBarrel
    rw [if_neg (by simp [hd])]
    simp only
    have e : (d.x * d.x + d.y * d.y) * (1 * 1) - (p.x * d.y - p.y * d.x) * (p.x * d.y - p.y * d.x) = 9 / 25 := by
      simp [hp, hd]; norm_num
    rw [e, if_neg (by norm_num), hsqrt]
    simp only [List.filterMap_cons, List.filterMap_nil]
    have e1 : (-(p.x * d.x + p.y * d.y) - 3 / 5) * (1 / (d.x * d.x + d.y * d.y)) = -7 / 3 + 5 / 10000000000 := by
      simp [hp, hd]; norm_num
    have e2 : (-(p.x * d.x + p.y * d.y) + 3 / 5) * (1 / (d.x * d.x + d.y * d.y)) = 1 + 5 / 10000000000 := by
      simp [hp, hd]; norm_num
    rw [e1, e2]
    rw [if_neg (by simp only [hp, hd, precision]; norm_num), if_pos (by simp only [hp, hd, precision]; norm_num)]
    simp [hp, hd]; norm_num
  have hup : testCap p d (1 / 2 * 2) (0 * 0) (1 * 1) (decide (d.z < 0)) = [(1, true)] := by
    unfold testCap
    rw [if_neg (by simp [hd])]
    simp only
    have e : (1 / 2 * 2 - p.z) / d.z = 1 := by simp [hp, hd]; norm_num
    rw [e, if_pos (by simp only [hp, hd, precision]; norm_num)]
    simp [hd]; norm_num
  have hlo : testCap p d (-(1 / 2 * 2)) (0 * 0) (1 * 1) (decide (d.z > 0)) = [] := by
    unfold testCap
    rw [if_neg (by simp [hd])]
    simp only
    have e : (-(1 / 2 * 2) - p.z) / d.z = 7 / 2 := by simp [hp, hd]; norm_num
    rw [e, if_neg (by simp only [hp, hd, precision]; norm_num)]
  have hs : surfaceHits (make 1 0 2) p d = [(1 + 5 / 10000000000, false), (1, true)] := by
    rw [hc]
    unfold surfaceHits
    simp only [hbar, hup, hlo]
    simp
  refine ⟨make 1 0 2, p, d, rfl, by simp [Vec3.dot, hd]; norm_num, ?_⟩
  intro srt hsrt
  have sn : ∀ x : ℝ, 1 ≤ x → snap x = x := by
    intro x hx
    unfold snap precision
    rw [if_neg]
    rintro ⟨_, h⟩
    linarith
  obtain ⟨h1, h2⟩ := hsrt ((surfaceHits (make 1 0 2) p d).map fun h => (⟨surfaceHit p d h, 0⟩ : SHit))
  have hl : (srt ((surfaceHits (make 1 0 2) p d).map fun h => (⟨surfaceHit p d h, 0⟩ : SHit))).map SHit.isect =
      [surfaceHit p d (1, true), surfaceHit p d (1 + 5 / 10000000000, false)] := by
    refine sorted_perm_eq ?_ ?_ (by rw [List.pairwise_map]; exact h2)
    · simp only [surfaceHit, List.pairwise_cons, List.mem_cons, List.not_mem_nil, or_false, forall_eq, false_implies, implies_true,
        List.Pairwise.nil, and_true]
      rw [sn 1 le_rfl, sn _ (by norm_num)]; norm_num
    · refine (h1.map _).trans ?_
      rw [hs]
      exact List.Perm.swap _ _ _
  have hcomp : compute srt (make 1 0 2) p d = [surfaceHit p d (1, true)] := by
    unfold compute
    simp only [hl]
    have : (make 1 0 2).hasPhiCut = false := rfl
    simp only [this, Bool.not_false, if_true, dedup]
    rw [if_pos]
    simp only [surfaceHit]
    rw [sn 1 le_rfl, sn _ (by norm_num)]
    unfold precision
    norm_num
  rw [hcomp]
  refine ⟨rfl, ?_, ?_⟩
  · rw [stateFrom_cons_lt _ _ _ _ (by simp only [surfaceHit]; rw [sn 1 le_rfl]; norm_num)]
    rfl
  · intro hT
    have := hT.2.2
    rw [hc] at this
    simp [Vec3.add_z, Vec3.smul_z, hp, hd] at this
    norm_num at this

/-- A line through a tube with a bore, off every rim, with four crossings; cut in half by a wedge on one side. -/
example : ClearOfRims (make 2 1 4) ⟨-5, 0, 0⟩ ⟨1, 0, 0⟩ ∧ Apart (make 2 1 4) ⟨-5, 0, 0⟩ ⟨1, 0, 0⟩ ∧
    Phi.Clean (-(π / 2)) π ⟨-5, 0, 0⟩ ⟨1, 0, 0⟩ ∧ Phi.Spread (-(π / 2)) π ⟨-5, 0, 0⟩ ⟨1, 0, 0⟩ ∧
    OnSurface (make 2 1 4) ((⟨-5, 0, 0⟩ : Vec3 ℝ) + Vec3.smul 4 ⟨1, 0, 0⟩) := by
  have hc : make 2 1 4 = ⟨2, 1, 4, 0, 2 * π, false⟩ := by
    unfold make; rw [if_neg (by norm_num)]
  have hz : ∀ t : ℝ, ((⟨-5, 0, 0⟩ : Vec3 ℝ) + Vec3.smul t ⟨1, 0, 0⟩).z = 0 := fun t => by simp [Vec3.add_z, Vec3.smul_z]
  have hrad : ∀ t : ℝ, rad ((⟨-5, 0, 0⟩ : Vec3 ℝ) + Vec3.smul t ⟨1, 0, 0⟩) = |t - 5| := fun t => by
    unfold rad
    simp only [Vec3.add_x, Vec3.smul_x, Vec3.add_y, Vec3.smul_y]
    rw [show (-5 + t * 1) ^ 2 + (0 + t * 0) ^ 2 = (t - 5) ^ 2 by ring, Real.sqrt_sq_eq_abs]
  have hon : ∀ t : ℝ, OnSurface (make 2 1 4) ((⟨-5, 0, 0⟩ : Vec3 ℝ) + Vec3.smul t ⟨1, 0, 0⟩) → t = 3 ∨ t = 7 ∨ t = 4 ∨ t = 6 := by
    intro t ht
    unfold OnSurface at ht
    rw [hz, hrad, hc] at ht
    simp only [abs_zero] at ht
    rcases ht with ⟨h, _⟩ | ⟨_, h, _⟩ | ⟨h, _⟩
    · rcases abs_eq (by norm_num : (0 : ℝ) ≤ 2) |>.1 h with h | h
      · right; left; linarith
      · left; linarith
    · rcases abs_eq (by norm_num : (0 : ℝ) ≤ 1) |>.1 h with h | h
      · right; right; right; linarith
      · right; right; left; linarith
    · norm_num at h
  have hp2 : cos (-(π / 2) + π) = 0 ∧ sin (-(π / 2) + π) = 1 := by
    rw [show -(π / 2) + π = π / 2 by ring, cos_pi_div_two, sin_pi_div_two]; exact ⟨rfl, rfl⟩
  refine ⟨⟨?_, ?_, ?_⟩, ?_, ⟨by norm_num, ?_, Or.inl (by norm_num)⟩, ?_, ?_⟩
  · intro t _ h; rw [hz, hc] at h; norm_num at h
  · intro _ t _ h; rw [hz, hc] at h; norm_num at h
  · intro t h; rw [hz, hc] at h; norm_num at h
  · intro t u ht hu hlt
    unfold precision
    rcases hon t ht with rfl | rfl | rfl | rfl <;> rcases hon u hu with rfl | rfl | rfl | rfl <;>
      first | (exfalso; norm_num at hlt; done) | norm_num
  · intro alpha ha
    simp only [List.mem_cons, List.not_mem_nil, or_false] at ha
    rcases ha with rfl | rfl
    · simp [Phi.planeDist, precision]; norm_num
    · simp [Phi.planeDist, hp2, precision]; norm_num
  · intro t u ht hu hne
    simp [Phi.planeDist, Vec3.add_x, Vec3.smul_x] at ht
    simp [Phi.planeDist, hp2, Vec3.add_x, Vec3.smul_x] at hu
    exact absurd (by linarith) hne
  · unfold OnSurface
    rw [hz, hrad, hc]
    norm_num

end Siren.Geometry.Cylinder
