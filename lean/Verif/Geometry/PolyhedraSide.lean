import Verif.Geometry.Polyhedra

set_option autoImplicit false
set_option linter.unusedSimpArgs false

/-! # C136: side faces of polyhedra

The loop over sections and sides of `Polyhedra::ComputeIntersections` (`projects/geometry/private/Polyhedra.cxx`), for solids with and
without an azimuthal cut. -/

namespace Siren.Geometry.Polyhedra

open Siren Real

/-- Differences and products of vectors written out in the code (geometry/private/Polyhedra.cxx:254-256, 415-427). -/
def sub3 (a b : Vec3 ℝ) : Vec3 ℝ := ⟨a.x - b.x, a.y - b.y, a.z - b.z⟩
def cross3 (a b : Vec3 ℝ) : Vec3 ℝ := ⟨a.y * b.z - a.z * b.y, a.z * b.x - a.x * b.z, a.x * b.y - a.y * b.x⟩
def dot3 (a b : Vec3 ℝ) : ℝ := a.x * b.x + a.y * b.y + a.z * b.z

/-- `c` in `PointInConvexFace3D` (geometry/private/Polyhedra.cxx:253-256). -/
def edgeSide (n q : Vec3 ℝ) (vs : List (Vec3 ℝ)) (i : ℕ) : ℝ :=
  let v := vs.getD i ⟨0, 0, 0⟩
  let w := vs.getD ((i + 1) % vs.length) ⟨0, 0, 0⟩
  dot3 n (cross3 (sub3 w v) (sub3 q v))

/-- `PointInConvexFace3D` (geometry/private/Polyhedra.cxx:246-262). -/
noncomputable def inFace (n q : Vec3 ℝ) (vs : List (Vec3 ℝ)) : Bool := convexLoop (edgeSide n q vs) (List.range vs.length) false false

/-- The corners `v0` to `v3` of the face of side `k` between two heights, with the distances of the face from the axis at these
    (geometry/private/Polyhedra.cxx:384-406). -/
noncomputable def v0 (P : Solid) (k : ℕ) (za ra : ℝ) : Vec3 ℝ := ⟨ra * P.scale * P.cosPhi k, ra * P.scale * P.sinPhi k, za⟩
noncomputable def v1 (P : Solid) (k : ℕ) (za ra : ℝ) : Vec3 ℝ := ⟨ra * P.scale * P.cosPhi (k + 1), ra * P.scale * P.sinPhi (k + 1), za⟩
noncomputable def v2 (P : Solid) (k : ℕ) (zb rb : ℝ) : Vec3 ℝ := ⟨rb * P.scale * P.cosPhi (k + 1), rb * P.scale * P.sinPhi (k + 1), zb⟩
noncomputable def v3 (P : Solid) (k : ℕ) (zb rb : ℝ) : Vec3 ℝ := ⟨rb * P.scale * P.cosPhi k, rb * P.scale * P.sinPhi k, zb⟩

open Classical in
/-- The normal (geometry/private/Polyhedra.cxx:408-421). -/
noncomputable def normal (P : Solid) (k : ℕ) (za zb ra rb : ℝ) : Vec3 ℝ :=
  if ra * P.scale < precision then cross3 (sub3 (v3 P k zb rb) (v2 P k zb rb)) (sub3 (v0 P k za ra) (v3 P k zb rb))
  else cross3 (sub3 (v1 P k za ra) (v0 P k za ra)) (sub3 (v3 P k zb rb) (v0 P k za ra))

open Classical in
/-- `fvx`, `fvy`, `fvz` (geometry/private/Polyhedra.cxx:447-462). -/
noncomputable def face (P : Solid) (k : ℕ) (za zb ra rb : ℝ) : List (Vec3 ℝ) :=
  if ra * P.scale < precision then [v0 P k za ra, v2 P k zb rb, v3 P k zb rb]
  else if rb * P.scale < precision then [v0 P k za ra, v1 P k za ra, v2 P k zb rb]
  else [v0 P k za ra, v1 P k za ra, v2 P k zb rb, v3 P k zb rb]

open Classical in
/-- The crossing with one side face, as distance and whether it enters (geometry/private/Polyhedra.cxx:399-468 with `outer`, 471-532
    without). -/
noncomputable def sideHit (P : Solid) (k : ℕ) (za zb ra rb : ℝ) (outer : Bool) (o d : Vec3 ℝ) : Option (ℝ × Bool) :=
  let n := normal P k za zb ra rb
  let nd := dot3 n d
  if |nd| > precision then
    let t := dot3 n (sub3 (v0 P k za ra) o) / nd
    let t := if t > 0 ∧ t < precision then 0 else t
    let q : Vec3 ℝ := ⟨o.x + t * d.x, o.y + t * d.y, o.z + t * d.z⟩
    if q.z ≥ za - precision ∧ q.z ≤ zb + precision then
      if inFace n q (face P k za zb ra rb) then some (t, if outer then decide (nd < 0) else decide (nd > 0)) else none
    else none
  else none

/-! ### Specification -/

/-- The point is on the plane of side `k`, whose distance from the axis goes from `ra` at height `za` to `rb` at `zb`. -/
def Solid.OnSide (P : Solid) (k : ℕ) (za zb ra rb : ℝ) (q : Vec3 ℝ) : Prop := (zb - za) * (P.reach k q.x q.y - ra) = (rb - ra) * (q.z - za)

/-- How fast a line goes away from the inner side of that plane. -/
noncomputable def Solid.outward (P : Solid) (k : ℕ) (za zb ra rb : ℝ) (d : Vec3 ℝ) : ℝ := (zb - za) * P.reach k d.x d.y - (rb - ra) * d.z

/-- How far the point is along side `k`, from its middle. -/
noncomputable def Solid.along (P : Solid) (k : ℕ) (x y : ℝ) : ℝ := y * cos (P.mid k) - x * sin (P.mid k)

/-! ### Lemmas -/

/-- Vectors along the side and up the side. -/
noncomputable def fr (P : Solid) (k : ℕ) (H D α β : ℝ) : Vec3 ℝ :=
  ⟨-α * sin (P.mid k) + β * D * cos (P.mid k), α * cos (P.mid k) + β * D * sin (P.mid k), β * H⟩

/-- The direction out of the side. -/
noncomputable def out (P : Solid) (k : ℕ) (H D l : ℝ) : Vec3 ℝ := ⟨l * (H * cos (P.mid k)), l * (H * sin (P.mid k)), l * (-D)⟩

theorem cross_fr (P : Solid) (k : ℕ) (H D α β γ δ : ℝ) : cross3 (fr P k H D α β) (fr P k H D γ δ) = out P k H D (α * δ - β * γ) := by
  have h := sin_sq_add_cos_sq (P.mid k)
  unfold cross3 fr out
  simp only [Vec3.mk.injEq]
  refine ⟨by ring, by ring, ?_⟩
  linear_combination ((β * γ - α * δ) * D) * h

theorem dot_out (P : Solid) (k : ℕ) (H D l m : ℝ) : dot3 (out P k H D l) (out P k H D m) = l * m * (H ^ 2 + D ^ 2) := by
  have h := sin_sq_add_cos_sq (P.mid k)
  unfold dot3 out
  simp only
  linear_combination (l * m * H ^ 2) * h

theorem dot_out_any (P : Solid) (k : ℕ) (H D l : ℝ) (d : Vec3 ℝ) : dot3 (out P k H D l) d = l * (H * P.reach k d.x d.y - D * d.z) := by
  unfold dot3 out Solid.reach
  simp only
  ring

variable {P : Solid}

theorem corner' (hv : P.Valid) (k : ℕ) (hk : k < P.sides) :
    P.cosPhi k = cos (P.mid k) * cos (1 / 2 * P.dphi) + sin (P.mid k) * sin (1 / 2 * P.dphi) ∧
    P.sinPhi k = sin (P.mid k) * cos (1 / 2 * P.dphi) - cos (P.mid k) * sin (1 / 2 * P.dphi) ∧
    P.cosPhi (k + 1) = cos (P.mid k) * cos (1 / 2 * P.dphi) - sin (P.mid k) * sin (1 / 2 * P.dphi) ∧
    P.sinPhi (k + 1) = sin (P.mid k) * cos (1 / 2 * P.dphi) + cos (P.mid k) * sin (1 / 2 * P.dphi) := by
  have hs : (P.sides : ℝ) ≠ 0 := by have := hv.sides; positivity
  have hd : ∀ j : ℕ, (j : ℝ) / P.sides * (if P.cut then P.deltaPhi else 2 * π) = j * P.dphi := by
    intro j
    unfold Solid.dphi
    split <;> ring
  obtain ⟨a, b⟩ := C136_corners hv k hk.le
  obtain ⟨c, d⟩ := C136_corners hv (k + 1) hk
  rw [a, b, c, d, hd, hd, ← cos_sub, ← sin_sub, ← cos_add, ← sin_add]
  have e1 : P.mid k - 1 / 2 * P.dphi = P.startPhi + k * P.dphi := by unfold Solid.mid; ring
  have e2 : P.mid k + 1 / 2 * P.dphi = P.startPhi + (k + 1 : ℕ) * P.dphi := by unfold Solid.mid; push_cast; ring
  rw [e1, e2]
  exact ⟨rfl, rfl, rfl, rfl⟩

theorem scale_cos (hv : P.Valid) : P.scale * cos (1 / 2 * P.dphi) = 1 := by
  have := cos_half_pos hv
  unfold Solid.scale
  rw [one_div, inv_mul_cancel₀ this.ne']

/-- Half the length of a side at distance one. -/
noncomputable def wid (P : Solid) : ℝ := P.scale * sin (1 / 2 * P.dphi)

theorem wid_pos (hv : P.Valid) : 0 < wid P := by
  have := cos_half_pos hv
  have := sin_half_pos hv
  unfold wid Solid.scale
  positivity

/-- A point seen from a corner, up to a height. -/
theorem verts (hv : P.Valid) (k : ℕ) (hk : k < P.sides) (z r : ℝ) :
    v0 P k z r = ⟨r * cos (P.mid k) + r * wid P * sin (P.mid k), r * sin (P.mid k) - r * wid P * cos (P.mid k), z⟩ ∧
    v1 P k z r = ⟨r * cos (P.mid k) - r * wid P * sin (P.mid k), r * sin (P.mid k) + r * wid P * cos (P.mid k), z⟩ ∧
    v2 P k z r = v1 P k z r ∧ v3 P k z r = v0 P k z r := by
  obtain ⟨a, b, c, d⟩ := corner' hv k hk
  have h := scale_cos hv
  unfold v0 v1 v2 v3 wid
  rw [a, b, c, d]
  simp only [Vec3.mk.injEq]
  refine ⟨⟨?_, ?_, trivial⟩, ⟨?_, ?_, trivial⟩, by simp, by simp⟩
  · linear_combination (r * cos (P.mid k)) * h
  · linear_combination (r * sin (P.mid k)) * h
  · linear_combination (r * cos (P.mid k)) * h
  · linear_combination (r * sin (P.mid k)) * h

/-- The normal points out of the side. -/
theorem normal_eq (hv : P.Valid) (k : ℕ) (hk : k < P.sides) (za zb ra rb : ℝ) :
    normal P k za zb ra rb = out P k (zb - za) (rb - ra) (2 * (if ra * P.scale < precision then rb else ra) * wid P) := by
  classical
  obtain ⟨a0, a1, -, -⟩ := verts hv k hk za ra
  obtain ⟨b0, b1, b2, b3⟩ := verts hv k hk zb rb
  unfold normal
  by_cases h : ra * P.scale < precision
  · rw [if_pos h, if_pos h, b2, b3, a0, b0, b1]
    rw [show sub3 ⟨rb * cos (P.mid k) + rb * wid P * sin (P.mid k), rb * sin (P.mid k) - rb * wid P * cos (P.mid k), zb⟩
        ⟨rb * cos (P.mid k) - rb * wid P * sin (P.mid k), rb * sin (P.mid k) + rb * wid P * cos (P.mid k), zb⟩ =
          fr P k (zb - za) (rb - ra) (-(2 * rb * wid P)) 0 by
        unfold sub3 fr; simp only [Vec3.mk.injEq]; refine ⟨by ring, by ring, by ring⟩,
      show sub3 ⟨ra * cos (P.mid k) + ra * wid P * sin (P.mid k), ra * sin (P.mid k) - ra * wid P * cos (P.mid k), za⟩
        ⟨rb * cos (P.mid k) + rb * wid P * sin (P.mid k), rb * sin (P.mid k) - rb * wid P * cos (P.mid k), zb⟩ =
          fr P k (zb - za) (rb - ra) ((rb - ra) * wid P) (-1) by
        unfold sub3 fr; simp only [Vec3.mk.injEq]; refine ⟨by ring, by ring, by ring⟩, cross_fr]
    congr 1; ring
  · rw [if_neg h, if_neg h, b3, a0, a1, b0]
    rw [show sub3 ⟨ra * cos (P.mid k) - ra * wid P * sin (P.mid k), ra * sin (P.mid k) + ra * wid P * cos (P.mid k), za⟩
        ⟨ra * cos (P.mid k) + ra * wid P * sin (P.mid k), ra * sin (P.mid k) - ra * wid P * cos (P.mid k), za⟩ =
          fr P k (zb - za) (rb - ra) (2 * ra * wid P) 0 by
        unfold sub3 fr; simp only [Vec3.mk.injEq]; refine ⟨by ring, by ring, by ring⟩,
      show sub3 ⟨rb * cos (P.mid k) + rb * wid P * sin (P.mid k), rb * sin (P.mid k) - rb * wid P * cos (P.mid k), zb⟩
        ⟨ra * cos (P.mid k) + ra * wid P * sin (P.mid k), ra * sin (P.mid k) - ra * wid P * cos (P.mid k), za⟩ =
          fr P k (zb - za) (rb - ra) (-((rb - ra) * wid P)) 1 by
        unfold sub3 fr; simp only [Vec3.mk.injEq]; refine ⟨by ring, by ring, by ring⟩, cross_fr]
    congr 1; ring

open Classical in
theorem hit_some (P : Solid) (k : ℕ) (za zb ra rb : ℝ) (outer : Bool) (o d : Vec3 ℝ) (t : ℝ) (e : Bool)
    (h : sideHit P k za zb ra rb outer o d = some (t, e)) :
    |dot3 (normal P k za zb ra rb) d| > precision ∧
    t = (if dot3 (normal P k za zb ra rb) (sub3 (v0 P k za ra) o) / dot3 (normal P k za zb ra rb) d > 0 ∧
        dot3 (normal P k za zb ra rb) (sub3 (v0 P k za ra) o) / dot3 (normal P k za zb ra rb) d < precision then 0
      else dot3 (normal P k za zb ra rb) (sub3 (v0 P k za ra) o) / dot3 (normal P k za zb ra rb) d) ∧
    e = if outer then decide (dot3 (normal P k za zb ra rb) d < 0) else decide (dot3 (normal P k za zb ra rb) d > 0) := by
  unfold sideHit at h
  extract_lets n nd t0 t1 q at h
  by_cases h1 : |nd| > precision
  · rw [if_pos h1] at h
    by_cases h2 : q.z ≥ za - precision ∧ q.z ≤ zb + precision
    · rw [if_pos h2] at h
      by_cases h3 : inFace n q (face P k za zb ra rb) = true
      · rw [if_pos h3] at h
        simp only [Option.some.injEq, Prod.mk.injEq] at h
        exact ⟨h1, h.1.symm, h.2.symm⟩
      · rw [if_neg h3] at h; cases h
    · rw [if_neg h2] at h; cases h
  · rw [if_neg h1] at h; cases h

/-- C136, sides: a crossing reported for a side face is on the plane of that side, unless it was moved to the start of the line, and is
    marked as entering if the line goes inward there, or outward for the inner side of a hollow solid. -/
theorem C136_side (hv : P.Valid) (k : ℕ) (hk : k < P.sides) (za zb ra rb : ℝ) (ha : 0 ≤ ra) (hb : 0 ≤ rb) (outer : Bool) (o d : Vec3 ℝ)
    (t : ℝ) (e : Bool) (h : sideHit P k za zb ra rb outer o d = some (t, e)) :
    (t ≠ 0 → P.OnSide k za zb ra rb ⟨o.x + t * d.x, o.y + t * d.y, o.z + t * d.z⟩) ∧
    (e = true ↔ if outer then P.outward k za zb ra rb d < 0 else 0 < P.outward k za zb ra rb d) := by
  classical
  obtain ⟨l, hl⟩ : ∃ l, l = 2 * (if ra * P.scale < precision then rb else ra) * wid P := ⟨_, rfl⟩
  have hn : normal P k za zb ra rb = out P k (zb - za) (rb - ra) l := by rw [hl]; exact normal_eq hv k hk za zb ra rb
  have hl0 : 0 ≤ l := by
    have := wid_pos hv
    rw [hl]
    split <;> positivity
  obtain ⟨a0, -, -, -⟩ := verts hv k hk za ra
  have hsq := sin_sq_add_cos_sq (P.mid k)
  obtain ⟨hbig, ht, he⟩ := hit_some P k za zb ra rb outer o d t e h
  simp only [hn, dot_out_any] at hbig ht he
  have ht := ht.symm
  have he := he.symm
  have hp : (0 : ℝ) < precision := by unfold precision; norm_num
  have hne : l * ((zb - za) * P.reach k d.x d.y - (rb - ra) * d.z) ≠ 0 := by
    intro h0; rw [h0, abs_zero] at hbig; linarith
  have hlp : 0 < l := lt_of_le_of_ne hl0 fun h0 => hne (by rw [← h0, zero_mul])
  constructor
  · intro ht0
    split at ht
    · exact absurd ht.symm ht0
    rw [div_eq_iff hne] at ht
    have hrv : P.reach k (sub3 (v0 P k za ra) o).x (sub3 (v0 P k za ra) o).y = ra - P.reach k o.x o.y := by
      rw [a0]
      unfold Solid.reach sub3
      simp only
      linear_combination ra * hsq
    have hzv : (sub3 (v0 P k za ra) o).z = za - o.z := rfl
    rw [hrv, hzv] at ht
    have : (zb - za) * (ra - P.reach k o.x o.y) - (rb - ra) * (za - o.z) = t * ((zb - za) * P.reach k d.x d.y - (rb - ra) * d.z) := by
      apply mul_left_cancel₀ hlp.ne'
      linear_combination ht
    unfold Solid.OnSide
    simp only
    rw [show P.reach k (o.x + t * d.x) (o.y + t * d.y) = P.reach k o.x o.y + t * P.reach k d.x d.y by unfold Solid.reach; ring]
    linear_combination -this
  · rw [← he]
    unfold Solid.outward
    cases outer
    · simp only [Bool.false_eq_true, if_false, decide_eq_true_eq, gt_iff_lt]
      exact mul_pos_iff_of_pos_left hlp
    · simp only [if_true, decide_eq_true_eq]
      exact ⟨fun h => by by_contra h'; push Not at h'; linarith [mul_nonneg hlp.le h'], fun h => mul_neg_of_pos_of_neg hlp h⟩

theorem edges (n q a b c d : Vec3 ℝ) : edgeSide n q [a, b, c, d] 0 = dot3 n (cross3 (sub3 b a) (sub3 q a)) ∧
    edgeSide n q [a, b, c, d] 1 = dot3 n (cross3 (sub3 c b) (sub3 q b)) ∧ edgeSide n q [a, b, c, d] 2 = dot3 n (cross3 (sub3 d c) (sub3 q c)) ∧
    edgeSide n q [a, b, c, d] 3 = dot3 n (cross3 (sub3 a d) (sub3 q d)) := by
  refine ⟨?_, ?_, ?_, ?_⟩ <;> simp [edgeSide]

set_option maxHeartbeats 1600000 in
/-- C136, sides: a point on the plane of a side that is not within the tolerance of an edge is in the face if it is between the heights
    and the azimuths of the corners. -/
theorem C136_face (hv : P.Valid) (k : ℕ) (hk : k < P.sides) (za zb ra rb : ℝ) (hz : za < zb) (ha : precision ≤ ra * P.scale)
    (hb : precision ≤ rb * P.scale) (q : Vec3 ℝ) (hq : P.OnSide k za zb ra rb q)
    (hoff : ∀ i < 4, precision < |edgeSide (normal P k za zb ra rb) q (face P k za zb ra rb) i|) :
    inFace (normal P k za zb ra rb) q (face P k za zb ra rb) = true ↔
      za < q.z ∧ q.z < zb ∧ |P.along k q.x q.y| * cos (1 / 2 * P.dphi) < P.reach k q.x q.y * sin (1 / 2 * P.dphi) := by
  classical
  have hp : (0 : ℝ) < precision := by unfold precision; norm_num
  have hw := wid_pos hv
  have hc := cos_half_pos hv
  have hsc : 0 < P.scale := by unfold Solid.scale; positivity
  have hra : 0 < ra := by by_contra h; push Not at h; nlinarith
  have hrb : 0 < rb := by by_contra h; push Not at h; nlinarith
  have hsq := sin_sq_add_cos_sq (P.mid k)
  have hH : 0 < zb - za := by linarith
  obtain ⟨a0, a1, -, -⟩ := verts hv k hk za ra
  obtain ⟨b0, b1, b2, b3⟩ := verts hv k hk zb rb
  -- coordinates on the side
  obtain ⟨u, hu⟩ : ∃ u, u = (q.z - za) / (zb - za) := ⟨_, rfl⟩
  obtain ⟨τ, hτ⟩ : ∃ τ, τ = P.along k q.x q.y := ⟨_, rfl⟩
  have hqz : q.z = za + u * (zb - za) := by rw [hu]; field_simp; ring
  have hqr : P.reach k q.x q.y = ra + u * (rb - ra) := by
    unfold Solid.OnSide at hq
    rw [hqz] at hq
    apply mul_left_cancel₀ hH.ne'
    linear_combination hq
  have hqx : q.x = (ra + u * (rb - ra)) * cos (P.mid k) - τ * sin (P.mid k) := by
    rw [← hqr, hτ]; unfold Solid.along Solid.reach; linear_combination (-q.x) * hsq
  have hqy : q.y = (ra + u * (rb - ra)) * sin (P.mid k) + τ * cos (P.mid k) := by
    rw [← hqr, hτ]; unfold Solid.along Solid.reach; linear_combination (-q.y) * hsq
  have hF : face P k za zb ra rb = [v0 P k za ra, v1 P k za ra, v1 P k zb rb, v0 P k zb rb] := by
    unfold face
    rw [if_neg (not_lt.mpr ha), if_neg (not_lt.mpr hb), b2, b3]
  obtain ⟨l, hl⟩ : ∃ l, l = 2 * ra * wid P := ⟨_, rfl⟩
  have hn : normal P k za zb ra rb = out P k (zb - za) (rb - ra) l := by
    rw [normal_eq hv k hk, if_neg (not_lt.mpr ha), hl]
  obtain ⟨K, hK⟩ : ∃ K, K = l * ((zb - za) ^ 2 + (rb - ra) ^ 2) := ⟨_, rfl⟩
  have hKp : 0 < K := by rw [hK, hl]; positivity
  have key : ∀ (v w : Vec3 ℝ) (α β γ δ : ℝ), sub3 w v = fr P k (zb - za) (rb - ra) α β → sub3 q v = fr P k (zb - za) (rb - ra) γ δ →
      dot3 (normal P k za zb ra rb) (cross3 (sub3 w v) (sub3 q v)) = K * (α * δ - β * γ) := by
    intro v w α β γ δ h1 h2
    rw [h1, h2, cross_fr, hn, dot_out, hK]
    ring
  have c0 : edgeSide (normal P k za zb ra rb) q (face P k za zb ra rb) 0 = K * (2 * ra * wid P * u) := by
    rw [hF]
    rw [(edges _ _ _ _ _ _).1]
    rw [key _ _ (2 * ra * wid P) 0 (τ + ra * wid P) u]
    · ring
    · rw [a0, a1]; unfold sub3 fr; simp only [Vec3.mk.injEq]; exact ⟨by ring, by ring, by ring⟩
    · rw [a0]; unfold sub3 fr; simp only [hqx, hqy, hqz, Vec3.mk.injEq]; exact ⟨by ring, by ring, by ring⟩
  have c1 : edgeSide (normal P k za zb ra rb) q (face P k za zb ra rb) 1 = K * ((ra + u * (rb - ra)) * wid P - τ) := by
    rw [hF]
    rw [(edges _ _ _ _ _ _).2.1]
    rw [key _ _ ((rb - ra) * wid P) 1 (τ - ra * wid P) u]
    · ring
    · rw [a1, b1]; unfold sub3 fr; simp only [Vec3.mk.injEq]; exact ⟨by ring, by ring, by ring⟩
    · rw [a1]; unfold sub3 fr; simp only [hqx, hqy, hqz, Vec3.mk.injEq]; exact ⟨by ring, by ring, by ring⟩
  have c2 : edgeSide (normal P k za zb ra rb) q (face P k za zb ra rb) 2 = K * (2 * rb * wid P * (1 - u)) := by
    rw [hF]
    rw [(edges _ _ _ _ _ _).2.2.1]
    rw [key _ _ (-(2 * rb * wid P)) 0 (τ - rb * wid P) (u - 1)]
    · ring
    · rw [b0, b1]; unfold sub3 fr; simp only [Vec3.mk.injEq]; exact ⟨by ring, by ring, by ring⟩
    · rw [b1]; unfold sub3 fr; simp only [hqx, hqy, hqz, Vec3.mk.injEq]; exact ⟨by ring, by ring, by ring⟩
  have c3 : edgeSide (normal P k za zb ra rb) q (face P k za zb ra rb) 3 = K * ((ra + u * (rb - ra)) * wid P + τ) := by
    rw [hF]
    rw [(edges _ _ _ _ _ _).2.2.2]
    rw [key _ _ ((rb - ra) * wid P) (-1) (τ + rb * wid P) (u - 1)]
    · ring
    · rw [a0, b0]; unfold sub3 fr; simp only [Vec3.mk.injEq]; exact ⟨by ring, by ring, by ring⟩
    · rw [b0]; unfold sub3 fr; simp only [hqx, hqy, hqz, Vec3.mk.injEq]; exact ⟨by ring, by ring, by ring⟩
  have hpos : (∀ i < 4, 0 < edgeSide (normal P k za zb ra rb) q (face P k za zb ra rb) i) ↔
      za < q.z ∧ q.z < zb ∧ |P.along k q.x q.y| * cos (1 / 2 * P.dphi) < P.reach k q.x q.y * sin (1 / 2 * P.dphi) := by
    have hws : wid P * cos (1 / 2 * P.dphi) = sin (1 / 2 * P.dphi) := by unfold wid; linear_combination sin (1 / 2 * P.dphi) * scale_cos hv
    have hz1 : za < q.z ↔ 0 < u := by rw [hqz, lt_add_iff_pos_right, mul_pos_iff_of_pos_right hH]
    have hz2 : q.z < zb ↔ 0 < 1 - u := by
      rw [hqz, ← mul_pos_iff_of_pos_right hH]
      constructor <;> intro h <;> linarith
    have hz3 : |P.along k q.x q.y| * cos (1 / 2 * P.dphi) < P.reach k q.x q.y * sin (1 / 2 * P.dphi) ↔
        0 < (ra + u * (rb - ra)) * wid P - τ ∧ 0 < (ra + u * (rb - ra)) * wid P + τ := by
      rw [← hτ, hqr, ← hws, ← mul_assoc, mul_lt_mul_iff_left₀ hc, abs_lt]
      constructor
      · rintro ⟨h1, h2⟩; exact ⟨by linarith, by linarith⟩
      · rintro ⟨h1, h2⟩; exact ⟨by linarith, by linarith⟩
    rw [hz1, hz2, hz3]
    constructor
    · intro h
      have e0 := h 0 (by norm_num)
      have e1 := h 1 (by norm_num)
      have e2 := h 2 (by norm_num)
      have e3 := h 3 (by norm_num)
      rw [c0] at e0; rw [c1] at e1; rw [c2] at e2; rw [c3] at e3
      exact ⟨pos_of_mul_pos_right (pos_of_mul_pos_right e0 hKp.le) (by positivity), pos_of_mul_pos_right (pos_of_mul_pos_right e2 hKp.le) (by positivity),
        pos_of_mul_pos_right e1 hKp.le, pos_of_mul_pos_right e3 hKp.le⟩
    · rintro ⟨h0, h2, h1, h3⟩ i hi
      interval_cases i
      · rw [c0]; positivity
      · rw [c1]; exact mul_pos hKp h1
      · rw [c2]; exact mul_pos hKp (mul_pos (by positivity) h2)
      · rw [c3]; exact mul_pos hKp h3
  rw [← hpos]
  have hlen : (face P k za zb ra rb).length = 4 := by rw [hF]; rfl
  unfold inFace
  rw [hlen, convexLoop_iff _ _ _ _ (by simp)]
  simp only [Bool.false_eq_true, false_or, List.mem_range]
  constructor
  · intro h i hi
    by_contra hneg
    push Not at hneg
    have hi' := hoff i hi
    rw [abs_of_nonpos hneg] at hi'
    apply h
    refine ⟨?_, i, hi, by linarith⟩
    -- the lower or the upper edge
    rcases lt_or_ge 0 u with hu0 | hu0
    · refine ⟨0, by norm_num, ?_⟩
      have := hoff 0 (by norm_num)
      rwa [abs_of_pos (by rw [c0]; positivity)] at this
    · refine ⟨2, by norm_num, ?_⟩
      have := hoff 2 (by norm_num)
      rwa [abs_of_pos (by rw [c2]; exact mul_pos hKp (mul_pos (by positivity) (by linarith)))] at this
  · rintro h ⟨-, i, hi, hi'⟩
    linarith [h i hi]

/-! ### Examples -/

theorem cube_wid : wid cube = 1 := by
  unfold wid Solid.scale
  rw [cube_dphi, show 1 / 2 * (π / 2) = π / 4 by ring, cos_pi_div_four, sin_pi_div_four, one_div, inv_mul_cancel₀ (by positivity)]

theorem cube_scale : precision ≤ 1 * cube.scale := by
  unfold Solid.scale
  rw [cube_dphi, show 1 / 2 * (π / 2) = π / 4 by ring, cos_pi_div_four, one_mul, le_div_iff₀ (by positivity)]
  have : √2 ≤ 2 := by rw [Real.sqrt_le_left (by norm_num)]; norm_num
  unfold precision
  linarith

theorem cube_face : normal cube 0 (-1) 1 1 1 = ⟨4, 0, 0⟩ ∧
    face cube 0 (-1) 1 1 1 = [⟨1, -1, -1⟩, ⟨1, 1, -1⟩, ⟨1, 1, 1⟩, ⟨1, -1, 1⟩] := by
  classical
  have hm : cube.mid 0 = 0 := by rw [cube_mid]; simp
  obtain ⟨a0, a1, -, -⟩ := verts cube_valid 0 (by decide) (-1) 1
  obtain ⟨b0, b1, b2, b3⟩ := verts cube_valid 0 (by decide) 1 1
  constructor
  · rw [normal_eq cube_valid 0 (by decide), cube_wid]
    unfold out
    rw [hm, ite_self]
    norm_num
  · unfold face
    rw [if_neg (not_lt.mpr cube_scale), if_neg (not_lt.mpr cube_scale), b2, b3, a0, a1, b0, b1, hm, cube_wid]
    norm_num

/-- The middle of a face of the cube. -/
theorem cube_middle : inFace (normal cube 0 (-1) 1 1 1) ⟨1, 0, 0⟩ (face cube 0 (-1) 1 1 1) = true := by
  have hm : cube.mid 0 = 0 := by rw [cube_mid]; simp
  refine (C136_face cube_valid 0 (by decide) (-1) 1 1 1 (by norm_num) cube_scale cube_scale ⟨1, 0, 0⟩ ?_ ?_).mpr ?_
  · unfold Solid.OnSide Solid.reach
    rw [hm]
    norm_num
  · intro i hi
    rw [cube_face.1, cube_face.2]
    obtain ⟨e0, e1, e2, e3⟩ := edges ⟨4, 0, 0⟩ ⟨1, 0, 0⟩ ⟨1, -1, -1⟩ ⟨1, 1, -1⟩ ⟨1, 1, 1⟩ ⟨1, -1, 1⟩
    interval_cases i
    · rw [e0]; norm_num [dot3, cross3, sub3, precision]
    · rw [e1]; norm_num [dot3, cross3, sub3, precision]
    · rw [e2]; norm_num [dot3, cross3, sub3, precision]
    · rw [e3]; norm_num [dot3, cross3, sub3, precision]
  · refine ⟨by norm_num, by norm_num, ?_⟩
    have := sin_half_pos cube_valid
    unfold Solid.along Solid.reach
    rw [hm]
    simpa using this

/-- A line that enters there. -/
example : sideHit cube 0 (-1) 1 1 1 true ⟨3, 0, 0⟩ ⟨-1, 0, 0⟩ = some (2, true) := by
  classical
  obtain ⟨a0, -, -, -⟩ := verts cube_valid 0 (by decide) (-1) 1
  have hm : cube.mid 0 = 0 := by rw [cube_mid]; simp
  have hv : v0 cube 0 (-1) 1 = ⟨1, -1, -1⟩ := by rw [a0, hm, cube_wid]; norm_num
  have h := cube_middle
  unfold sideHit
  rw [hv]
  simp only
  rw [cube_face.1] at h ⊢
  have e1 : dot3 ⟨4, 0, 0⟩ (⟨-1, 0, 0⟩ : Vec3 ℝ) = -4 := by norm_num [dot3]
  have e2 : dot3 ⟨4, 0, 0⟩ (sub3 ⟨1, -1, -1⟩ ⟨3, 0, 0⟩) = -8 := by norm_num [dot3, sub3]
  have hp : precision = 1 / 1000000000 := rfl
  rw [e1, e2, if_pos (by rw [hp]; norm_num), show (if (-8 : ℝ) / -4 > 0 ∧ (-8 : ℝ) / -4 < precision then 0 else (-8 : ℝ) / -4) = 2 by
    rw [if_neg (by rw [hp]; norm_num)]; norm_num]
  rw [if_pos (by rw [hp]; norm_num), show (3 : ℝ) + 2 * -1 = 1 by norm_num, show (0 : ℝ) + 2 * 0 = 0 by norm_num, if_pos h]
  norm_num

end Siren.Geometry.Polyhedra
