import Verif.Geometry.PolyhedraSide

set_option autoImplicit false
set_option linter.unusedSimpArgs false

/-! # C136: side faces of polyhedra that end in a tip -/

namespace Siren.Geometry.Polyhedra

open Siren Real

variable {P : Solid}

theorem edges3 (n q a b c : Vec3 ℝ) : edgeSide n q [a, b, c] 0 = dot3 n (cross3 (sub3 b a) (sub3 q a)) ∧
    edgeSide n q [a, b, c] 1 = dot3 n (cross3 (sub3 c b) (sub3 q b)) ∧ edgeSide n q [a, b, c] 2 = dot3 n (cross3 (sub3 a c) (sub3 q c)) := by
  refine ⟨?_, ?_, ?_⟩ <;> simp [edgeSide]

/-- Three numbers, of which one is positive if none is near zero. -/
theorem three (n q : Vec3 ℝ) (vs : List (Vec3 ℝ)) (hl : vs.length = 3) (hoff : ∀ i < 3, precision < |edgeSide n q vs i|)
    (hone : (∀ i < 3, edgeSide n q vs i ≤ 0) → False) : inFace n q vs = true ↔ ∀ i < 3, 0 < edgeSide n q vs i := by
  have hp : (0 : ℝ) < precision := by unfold precision; norm_num
  unfold inFace
  rw [hl, convexLoop_iff _ _ _ _ (by simp)]
  simp only [Bool.false_eq_true, false_or, List.mem_range]
  constructor
  · intro h i hi
    by_contra hneg
    push Not at hneg
    have hi' := hoff i hi
    rw [abs_of_nonpos hneg] at hi'
    apply h
    refine ⟨?_, i, hi, by linarith⟩
    by_contra hno
    push Not at hno
    apply hone
    intro j hj
    by_contra hj'
    push Not at hj'
    have := hoff j hj
    rw [abs_of_pos hj'] at this
    linarith [hno j hj]
  · rintro h ⟨-, i, hi, hi'⟩
    linarith [h i hi]

set_option maxHeartbeats 1600000 in
/-- C136, sides: as `C136_face` for a face with a tip on the axis, at its lower or at its upper end. -/
theorem C136_face_tip (hv : P.Valid) (k : ℕ) (hk : k < P.sides) (za zb ra rb : ℝ) (hz : za < zb)
    (hr : (ra = 0 ∧ 0 < rb) ∨ (precision ≤ ra * P.scale ∧ rb = 0)) (q : Vec3 ℝ) (hq : P.OnSide k za zb ra rb q)
    (hoff : ∀ i < 3, precision < |edgeSide (normal P k za zb ra rb) q (face P k za zb ra rb) i|) :
    inFace (normal P k za zb ra rb) q (face P k za zb ra rb) = true ↔
      za < q.z ∧ q.z < zb ∧ |P.along k q.x q.y| * cos (1 / 2 * P.dphi) < P.reach k q.x q.y * sin (1 / 2 * P.dphi) := by
  classical
  have hp : (0 : ℝ) < precision := by unfold precision; norm_num
  have hw := wid_pos hv
  have hc := cos_half_pos hv
  have hsc : 0 < P.scale := by unfold Solid.scale; positivity
  have hsq := sin_sq_add_cos_sq (P.mid k)
  have hH : 0 < zb - za := by linarith
  obtain ⟨a0, a1, -, -⟩ := verts hv k hk za ra
  obtain ⟨b0, b1, b2, b3⟩ := verts hv k hk zb rb
  obtain ⟨u, hu⟩ : ∃ u, u = (q.z - za) / (zb - za) := ⟨_, rfl⟩
  obtain ⟨τ, hτ⟩ : ∃ τ, τ = P.along k q.x q.y := ⟨_, rfl⟩
  have hqz : q.z = za + u * (zb - za) := by rw [hu]; field_simp; ring
  have hqr : P.reach k q.x q.y = ra + u * (rb - ra) := by
    unfold Solid.OnSide at hq
    rw [hqz] at hq
    apply mul_left_cancel₀ hH.ne'
    linear_combination hq
  have hqx : q.x = (ra + u * (rb - ra)) * cos (P.mid k) - τ * sin (P.mid k) := by
    rw [← hqr, hτ]; unfold Solid.along Solid.reach; linear_combination (-q.x) * hsq
  have hqy : q.y = (ra + u * (rb - ra)) * sin (P.mid k) + τ * cos (P.mid k) := by
    rw [← hqr, hτ]; unfold Solid.along Solid.reach; linear_combination (-q.y) * hsq
  have hws : wid P * cos (1 / 2 * P.dphi) = sin (1 / 2 * P.dphi) := by unfold wid; linear_combination sin (1 / 2 * P.dphi) * scale_cos hv
  have hz1 : za < q.z ↔ 0 < u := by rw [hqz, lt_add_iff_pos_right, mul_pos_iff_of_pos_right hH]
  have hz2 : q.z < zb ↔ 0 < 1 - u := by
    rw [hqz, ← mul_pos_iff_of_pos_right hH]
    constructor <;> intro h <;> linarith
  have hz3 : |P.along k q.x q.y| * cos (1 / 2 * P.dphi) < P.reach k q.x q.y * sin (1 / 2 * P.dphi) ↔
      0 < (ra + u * (rb - ra)) * wid P - τ ∧ 0 < (ra + u * (rb - ra)) * wid P + τ := by
    rw [← hτ, hqr, ← hws, ← mul_assoc, mul_lt_mul_iff_left₀ hc, abs_lt]
    constructor
    · rintro ⟨h1, h2⟩; exact ⟨by linarith, by linarith⟩
    · rintro ⟨h1, h2⟩; exact ⟨by linarith, by linarith⟩
  rw [hz1, hz2, hz3]
  obtain ⟨l, hl⟩ : ∃ l, l = 2 * (if ra * P.scale < precision then rb else ra) * wid P := ⟨_, rfl⟩
  have hn : normal P k za zb ra rb = out P k (zb - za) (rb - ra) l := by rw [normal_eq hv k hk, hl]
  obtain ⟨K, hK⟩ : ∃ K, K = l * ((zb - za) ^ 2 + (rb - ra) ^ 2) := ⟨_, rfl⟩
  have key : ∀ (v w : Vec3 ℝ) (α β γ δ : ℝ), sub3 w v = fr P k (zb - za) (rb - ra) α β → sub3 q v = fr P k (zb - za) (rb - ra) γ δ →
      dot3 (normal P k za zb ra rb) (cross3 (sub3 w v) (sub3 q v)) = K * (α * δ - β * γ) := by
    intro v w α β γ δ h1 h2
    rw [h1, h2, cross_fr, hn, dot_out, hK]
    ring
  rcases hr with ⟨h0, hb⟩ | ⟨ha, h0⟩
  · have hsmall : ra * P.scale < precision := by rw [h0, zero_mul]; exact hp
    have hKp : 0 < K := by rw [hK, hl, if_pos hsmall]; positivity
    have hF : face P k za zb ra rb = [v0 P k za ra, v1 P k zb rb, v0 P k zb rb] := by
      unfold face
      rw [if_pos hsmall, b2, b3]
    have c0 : edgeSide (normal P k za zb ra rb) q (face P k za zb ra rb) 0 = K * (u * rb * wid P - τ) := by
      rw [hF, (edges3 _ _ _ _ _).1, key _ _ (rb * wid P) 1 τ u]
      · ring
      · rw [a0, b1, h0]; unfold sub3 fr; simp only [Vec3.mk.injEq]; exact ⟨by ring, by ring, by ring⟩
      · rw [a0]; unfold sub3 fr; simp only [hqx, hqy, hqz, h0, Vec3.mk.injEq]; exact ⟨by ring, by ring, by ring⟩
    have c1 : edgeSide (normal P k za zb ra rb) q (face P k za zb ra rb) 1 = K * (2 * rb * wid P * (1 - u)) := by
      rw [hF, (edges3 _ _ _ _ _).2.1, key _ _ (-(2 * rb * wid P)) 0 (τ - rb * wid P) (u - 1)]
      · ring
      · rw [b0, b1]; unfold sub3 fr; simp only [Vec3.mk.injEq]; exact ⟨by ring, by ring, by ring⟩
      · rw [b1]; unfold sub3 fr; simp only [hqx, hqy, hqz, Vec3.mk.injEq]; exact ⟨by ring, by ring, by ring⟩
    have c2 : edgeSide (normal P k za zb ra rb) q (face P k za zb ra rb) 2 = K * (u * rb * wid P + τ) := by
      rw [hF, (edges3 _ _ _ _ _).2.2, key _ _ (rb * wid P) (-1) (τ + rb * wid P) (u - 1)]
      · ring
      · rw [a0, b0, h0]; unfold sub3 fr; simp only [Vec3.mk.injEq]; exact ⟨by ring, by ring, by ring⟩
      · rw [b0]; unfold sub3 fr; simp only [hqx, hqy, hqz, Vec3.mk.injEq]; exact ⟨by ring, by ring, by ring⟩
    have hbw : 0 < rb * wid P := by positivity
    rw [three _ _ _ (by rw [hF]; rfl) hoff ?_]
    · rw [show (ra + u * (rb - ra)) * wid P = u * rb * wid P by rw [h0]; ring]
      constructor
      · intro h
        have e0 := h 0 (by norm_num)
        have e1 := h 1 (by norm_num)
        have e2 := h 2 (by norm_num)
        rw [c0] at e0; rw [c1] at e1; rw [c2] at e2
        have e0 := pos_of_mul_pos_right e0 hKp.le
        have e2 := pos_of_mul_pos_right e2 hKp.le
        have e1 := pos_of_mul_pos_right (pos_of_mul_pos_right e1 hKp.le) (by positivity)
        refine ⟨?_, e1, e0, e2⟩
        have : 0 < u * (rb * wid P) := by linarith
        exact pos_of_mul_pos_left this hbw.le
      · rintro ⟨-, h1, h2, h3⟩ i hi
        interval_cases i
        · rw [c0]; exact mul_pos hKp h2
        · rw [c1]; exact mul_pos hKp (mul_pos (by positivity) h1)
        · rw [c2]; exact mul_pos hKp h3
    · intro h
      have e0 := h 0 (by norm_num)
      have e1 := h 1 (by norm_num)
      have e2 := h 2 (by norm_num)
      rw [c0] at e0; rw [c1] at e1; rw [c2] at e2
      have e0 := nonpos_of_mul_nonpos_right e0 hKp
      have e2 := nonpos_of_mul_nonpos_right e2 hKp
      have e1 := nonpos_of_mul_nonpos_right (nonpos_of_mul_nonpos_right e1 hKp) (by positivity)
      have : 0 < u * (rb * wid P) := mul_pos (by linarith) hbw
      linarith
  · have hra : 0 < ra := by by_contra h; push Not at h; nlinarith
    have hKp : 0 < K := by rw [hK, hl, if_neg (not_lt.mpr ha)]; positivity
    have hF : face P k za zb ra rb = [v0 P k za ra, v1 P k za ra, v1 P k zb rb] := by
      unfold face
      rw [if_neg (not_lt.mpr ha), if_pos (by rw [h0, zero_mul]; exact hp), b2]
    have c0 : edgeSide (normal P k za zb ra rb) q (face P k za zb ra rb) 0 = K * (2 * ra * wid P * u) := by
      rw [hF, (edges3 _ _ _ _ _).1, key _ _ (2 * ra * wid P) 0 (τ + ra * wid P) u]
      · ring
      · rw [a0, a1]; unfold sub3 fr; simp only [Vec3.mk.injEq]; exact ⟨by ring, by ring, by ring⟩
      · rw [a0]; unfold sub3 fr; simp only [hqx, hqy, hqz, Vec3.mk.injEq]; exact ⟨by ring, by ring, by ring⟩
    have c1 : edgeSide (normal P k za zb ra rb) q (face P k za zb ra rb) 1 = K * ((1 - u) * ra * wid P - τ) := by
      rw [hF, (edges3 _ _ _ _ _).2.1, key _ _ (-(ra * wid P)) 1 (τ - ra * wid P) u]
      · ring
      · rw [a1, b1, h0]; unfold sub3 fr; simp only [Vec3.mk.injEq]; exact ⟨by ring, by ring, by ring⟩
      · rw [a1]; unfold sub3 fr; simp only [hqx, hqy, hqz, Vec3.mk.injEq]; exact ⟨by ring, by ring, by ring⟩
    have c2 : edgeSide (normal P k za zb ra rb) q (face P k za zb ra rb) 2 = K * ((1 - u) * ra * wid P + τ) := by
      rw [hF, (edges3 _ _ _ _ _).2.2, key _ _ (-(ra * wid P)) (-1) τ (u - 1)]
      · ring
      · rw [a0, b1, h0]; unfold sub3 fr; simp only [Vec3.mk.injEq]; exact ⟨by ring, by ring, by ring⟩
      · rw [b1]; unfold sub3 fr; simp only [hqx, hqy, hqz, h0, Vec3.mk.injEq]; exact ⟨by ring, by ring, by ring⟩
    have haw : 0 < ra * wid P := by positivity
    rw [three _ _ _ (by rw [hF]; rfl) hoff ?_]
    · rw [show (ra + u * (rb - ra)) * wid P = (1 - u) * ra * wid P by rw [h0]; ring]
      constructor
      · intro h
        have e0 := h 0 (by norm_num)
        have e1 := h 1 (by norm_num)
        have e2 := h 2 (by norm_num)
        rw [c0] at e0; rw [c1] at e1; rw [c2] at e2
        have e1 := pos_of_mul_pos_right e1 hKp.le
        have e2 := pos_of_mul_pos_right e2 hKp.le
        have e0 := pos_of_mul_pos_right (pos_of_mul_pos_right e0 hKp.le) (by positivity)
        refine ⟨e0, ?_, e1, e2⟩
        have : 0 < (1 - u) * (ra * wid P) := by linarith
        exact pos_of_mul_pos_left this haw.le
      · rintro ⟨h1, -, h2, h3⟩ i hi
        interval_cases i
        · rw [c0]; exact mul_pos hKp (mul_pos (by positivity) h1)
        · rw [c1]; exact mul_pos hKp h2
        · rw [c2]; exact mul_pos hKp h3
    · intro h
      have e0 := h 0 (by norm_num)
      have e1 := h 1 (by norm_num)
      have e2 := h 2 (by norm_num)
      rw [c0] at e0; rw [c1] at e1; rw [c2] at e2
      have e1 := nonpos_of_mul_nonpos_right e1 hKp
      have e2 := nonpos_of_mul_nonpos_right e2 hKp
      have e0 := nonpos_of_mul_nonpos_right (nonpos_of_mul_nonpos_right e0 hKp) (by positivity)
      have : 0 < (1 - u) * (ra * wid P) := mul_pos (by linarith) haw
      linarith

/-! ### Example -/

/-- A pyramid on the cube's base: a point of its face. -/
example : inFace (normal cube 0 0 1 1 0) ⟨1 / 2, 0, 1 / 2⟩ (face cube 0 0 1 1 0) = true := by
  classical
  have hm : cube.mid 0 = 0 := by rw [cube_mid]; simp
  have hp : precision = 1 / 1000000000 := rfl
  obtain ⟨a0, a1, -, -⟩ := verts cube_valid 0 (by decide) 0 1
  obtain ⟨-, b1, b2, -⟩ := verts cube_valid 0 (by decide) 1 0
  have hN : normal cube 0 0 1 1 0 = ⟨2, 0, 2⟩ := by
    rw [normal_eq cube_valid 0 (by decide), cube_wid, if_neg (not_lt.mpr cube_scale)]
    unfold out
    rw [hm]
    norm_num
  have hF : face cube 0 0 1 1 0 = [⟨1, -1, 0⟩, ⟨1, 1, 0⟩, ⟨0, 0, 1⟩] := by
    unfold face
    rw [if_neg (not_lt.mpr cube_scale), if_pos (by rw [zero_mul, hp]; norm_num), b2, b1, a0, a1, hm, cube_wid]
    norm_num
  refine (C136_face_tip cube_valid 0 (by decide) 0 1 1 0 (by norm_num) (Or.inr ⟨cube_scale, rfl⟩) ⟨1 / 2, 0, 1 / 2⟩ ?_ ?_).mpr ?_
  · unfold Solid.OnSide Solid.reach
    rw [hm]
    norm_num
  · intro i hi
    rw [hN, hF]
    obtain ⟨e0, e1, e2⟩ := edges3 ⟨2, 0, 2⟩ ⟨1 / 2, 0, 1 / 2⟩ ⟨1, -1, 0⟩ ⟨1, 1, 0⟩ ⟨0, 0, 1⟩
    interval_cases i
    · rw [e0]; norm_num [dot3, cross3, sub3, precision]
    · rw [e1]; norm_num [dot3, cross3, sub3, precision]
    · rw [e2]; norm_num [dot3, cross3, sub3, precision]
  · refine ⟨by norm_num, by norm_num, ?_⟩
    have := sin_half_pos cube_valid
    unfold Solid.along Solid.reach
    rw [hm]
    simp only [cos_zero, sin_zero, mul_one, mul_zero, sub_zero, abs_zero, zero_mul, add_zero]
    positivity

end Siren.Geometry.Polyhedra
