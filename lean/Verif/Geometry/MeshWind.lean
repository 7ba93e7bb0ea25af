import Verif.Geometry.MeshTree
import Mathlib.Algebra.BigOperators.Group.List.Basic
import Mathlib.Tactic.Linarith

set_option autoImplicit false
set_option linter.unusedSectionVars false
set_option linter.unusedSimpArgs false

/-!
# How often a line winds around the edges of a triangle
-/

namespace Siren.Geometry
namespace Mesh

open Siren

/-- A point of an edge of a triangle. -/
def Tri.OnEdge (T : Tri) (q : Vec3 ℝ) : Prop :=
  ∃ u v w : ℝ, 0 ≤ u ∧ 0 ≤ v ∧ 0 ≤ w ∧ u + v + w = 1 ∧ (u = 0 ∨ v = 0 ∨ w = 0) ∧ q = Vec3.smul u T.a + Vec3.smul v T.b + Vec3.smul w T.c

/-- Twice the area of the triangle of two points of the plane and the origin. -/
def cr (p q : ℝ × ℝ) : ℝ := p.1 * q.2 - p.2 * q.1

/-- The origin is not between two points of the plane. -/
def Off (p q : ℝ × ℝ) : Prop := cr p q = 0 → 0 < p.1 * q.1 + p.2 * q.2

open Classical in
/-- How an edge crosses the positive half of the first axis: upwards, downwards or not. -/
noncomputable def wind (p q : ℝ × ℝ) : ℤ :=
  if p.2 < 0 ∧ 0 ≤ q.2 ∧ 0 < cr p q then 1 else if 0 ≤ p.2 ∧ q.2 < 0 ∧ cr p q < 0 then -1 else 0

open Classical in
/-- Whether the origin is in a triangle, with the sense of the triangle. -/
noncomputable def sgn (a b c : ℝ × ℝ) : ℤ :=
  if 0 < cr a b ∧ 0 < cr b c ∧ 0 < cr c a then 1 else if cr a b < 0 ∧ cr b c < 0 ∧ cr c a < 0 then -1 else 0

theorem cr_swap (p q : ℝ × ℝ) : cr q p = - cr p q := by unfold cr; ring

theorem off_swap {p q : ℝ × ℝ} (h : Off p q) : Off q p := by
  intro h0
  have := h (by rw [cr_swap q p, h0, neg_zero])
  linarith [mul_comm p.1 q.1, mul_comm p.2 q.2]

theorem wind_swap (p q : ℝ × ℝ) : wind q p = - wind p q := by
  unfold wind
  rw [cr_swap p q]
  by_cases h1 : p.2 < 0 ∧ 0 ≤ q.2 ∧ 0 < cr p q
  · rw [if_pos h1, if_neg (fun h => by linarith [h.2.2, h1.2.2]), if_pos ⟨h1.2.1, h1.1, by linarith [h1.2.2]⟩]
  · rw [if_neg h1]
    by_cases h2 : 0 ≤ p.2 ∧ q.2 < 0 ∧ cr p q < 0
    · rw [if_pos ⟨h2.2.1, h2.1, by linarith [h2.2.2]⟩, if_pos h2]; norm_num
    · rw [if_neg h2, if_neg (fun h => h2 ⟨h.2.1, h.1, by linarith [h.2.2]⟩), if_neg (fun h => h1 ⟨h.2.1, h.1, by linarith [h.2.2]⟩)]
      norm_num

theorem cr_ident (a b c : ℝ × ℝ) : a.2 * cr b c + b.2 * cr c a + c.2 * cr a b = 0 := by unfold cr; ring

theorem wind_up {p q : ℝ × ℝ} (h1 : p.2 < 0) (h2 : 0 ≤ q.2) : wind p q = if 0 < cr p q then 1 else 0 := by
  unfold wind
  by_cases h : 0 < cr p q
  · rw [if_pos ⟨h1, h2, h⟩, if_pos h]
  · rw [if_neg (fun hc => h hc.2.2), if_neg (fun hc => by linarith [hc.1]), if_neg h]

theorem wind_down {p q : ℝ × ℝ} (h1 : 0 ≤ p.2) (h2 : q.2 < 0) : wind p q = if cr p q < 0 then -1 else 0 := by
  unfold wind
  rw [if_neg (fun hc => by linarith [hc.1])]
  by_cases h : cr p q < 0
  · rw [if_pos ⟨h1, h2, h⟩, if_pos h]
  · rw [if_neg (fun hc => h hc.2.2), if_neg h]

theorem wind_above {p q : ℝ × ℝ} (h1 : 0 ≤ p.2) (h2 : 0 ≤ q.2) : wind p q = 0 := by
  unfold wind
  rw [if_neg (fun hc => by linarith [hc.1]), if_neg (fun hc => by linarith [hc.2.1])]

theorem wind_below {p q : ℝ × ℝ} (h1 : p.2 < 0) (h2 : q.2 < 0) : wind p q = 0 := by
  unfold wind
  rw [if_neg (fun hc => by linarith [hc.2.1]), if_neg (fun hc => by linarith [hc.1])]

theorem sgn_cyc (a b c : ℝ × ℝ) : sgn b c a = sgn a b c := by
  unfold sgn
  have e1 : (0 < cr b c ∧ 0 < cr c a ∧ 0 < cr a b) ↔ (0 < cr a b ∧ 0 < cr b c ∧ 0 < cr c a) := by tauto
  have e2 : (cr b c < 0 ∧ cr c a < 0 ∧ cr a b < 0) ↔ (cr a b < 0 ∧ cr b c < 0 ∧ cr c a < 0) := by tauto
  simp only [e1, e2]

theorem sgn_pos {a b c : ℝ × ℝ} (h1 : 0 < cr a b) (h2 : 0 < cr b c) (h3 : 0 < cr c a) : sgn a b c = 1 := by
  unfold sgn; rw [if_pos ⟨h1, h2, h3⟩]

theorem sgn_neg {a b c : ℝ × ℝ} (h1 : cr a b < 0) (h2 : cr b c < 0) (h3 : cr c a < 0) : sgn a b c = -1 := by
  unfold sgn; rw [if_neg (fun h => by linarith [h.1]), if_pos ⟨h1, h2, h3⟩]

theorem sgn_zero {a b c : ℝ × ℝ} (h1 : ¬ (0 < cr a b ∧ 0 < cr b c ∧ 0 < cr c a)) (h2 : ¬ (cr a b < 0 ∧ cr b c < 0 ∧ cr c a < 0)) :
    sgn a b c = 0 := by
  unfold sgn; rw [if_neg h1, if_neg h2]

/-- Two points on opposite sides of the axis are not in line with the origin unless it is between them. -/
theorem off_ne {p q : ℝ × ℝ} (h : Off p q) (h1 : 0 < p.2) (h2 : q.2 < 0) : cr p q ≠ 0 := by
  intro h0
  have h3 := h h0
  unfold cr at h0
  have : p.2 * (p.1 * q.1 + p.2 * q.2) = q.2 * (p.1 * p.1 + p.2 * p.2) := by linear_combination -p.1 * h0
  have h4 := mul_pos h1 h3
  rw [this] at h4
  have h5 : 0 ≤ p.1 * p.1 + p.2 * p.2 := add_nonneg (mul_self_nonneg _) (mul_self_nonneg _)
  linarith [mul_nonpos_of_nonpos_of_nonneg h2.le h5]

theorem off_ne' {p q : ℝ × ℝ} (h : Off p q) (h1 : 0 ≤ p.2) (h2 : q.2 < 0) (h3 : cr p q = 0) : False := by
  rcases h1.lt_or_eq with h1 | h1
  · exact off_ne h h1 h2 h3
  · have h4 := h h3
    unfold cr at h3
    rw [← h1] at h3 h4
    have : p.1 = 0 := by
      have : p.1 * q.2 = 0 := by linarith
      rcases mul_eq_zero.mp this with h | h
      · exact h
      · linarith
    rw [this] at h4
    linarith

theorem sum_above {a b c : ℝ × ℝ} (ha : 0 ≤ a.2) (hb : 0 ≤ b.2) (hc : 0 ≤ c.2) : wind a b + wind b c + wind c a = sgn a b c := by
  rw [wind_above ha hb, wind_above hb hc, wind_above hc ha]
  have hi := cr_ident a b c
  symm
  apply sgn_zero
  · rintro ⟨h1, h2, h3⟩
    have m1 := mul_nonneg ha h2.le
    have m2 := mul_nonneg hb h3.le
    have m3 := mul_nonneg hc h1.le
    have z1 : a.2 = 0 := by
      have : a.2 * cr b c = 0 := by linarith
      exact (mul_eq_zero.mp this).resolve_right h2.ne'
    have z2 : b.2 = 0 := by
      have : b.2 * cr c a = 0 := by linarith
      exact (mul_eq_zero.mp this).resolve_right h3.ne'
    unfold cr at h1
    rw [z1, z2] at h1
    linarith
  · rintro ⟨h1, h2, h3⟩
    have m1 := mul_nonneg_of_nonpos_of_nonpos (neg_nonpos.mpr ha) h2.le
    have m2 := mul_nonneg_of_nonpos_of_nonpos (neg_nonpos.mpr hb) h3.le
    have m3 := mul_nonneg_of_nonpos_of_nonpos (neg_nonpos.mpr hc) h1.le
    have z1 : a.2 = 0 := by
      have : a.2 * cr b c = 0 := by linarith
      exact (mul_eq_zero.mp this).resolve_right h2.ne
    have z2 : b.2 = 0 := by
      have : b.2 * cr c a = 0 := by linarith
      exact (mul_eq_zero.mp this).resolve_right h3.ne
    unfold cr at h1
    rw [z1, z2] at h1
    linarith

theorem sum_below {a b c : ℝ × ℝ} (ha : a.2 < 0) (hb : b.2 < 0) (hc : c.2 < 0) : wind a b + wind b c + wind c a = sgn a b c := by
  rw [wind_below ha hb, wind_below hb hc, wind_below hc ha]
  have hi := cr_ident a b c
  symm
  apply sgn_zero
  · rintro ⟨h1, h2, h3⟩
    linarith [mul_neg_of_neg_of_pos ha h2, mul_neg_of_neg_of_pos hb h3, mul_neg_of_neg_of_pos hc h1]
  · rintro ⟨h1, h2, h3⟩
    linarith [mul_pos_of_neg_of_neg ha h2, mul_pos_of_neg_of_neg hb h3, mul_pos_of_neg_of_neg hc h1]

theorem sum_one {a b c : ℝ × ℝ} (ha : 0 ≤ a.2) (hb : b.2 < 0) (hc : c.2 < 0) (h1 : Off a b) (h3 : Off c a) :
    wind a b + wind b c + wind c a = sgn a b c := by
  rw [wind_down ha hb, wind_below hb hc, wind_up hc ha]
  have hi := cr_ident a b c
  have n1 : cr a b ≠ 0 := fun h => off_ne' h1 ha hb h
  have n3 : cr c a ≠ 0 := fun h => off_ne' (off_swap h3) ha hc (by rw [cr_swap c a, h, neg_zero])
  rcases lt_or_gt_of_ne n1 with p1 | p1 <;> rcases lt_or_gt_of_ne n3 with p3 | p3
  · rw [if_pos p1, if_neg p3.not_gt]
    have : a.2 * cr b c < 0 := by linarith [mul_pos_of_neg_of_neg hb p3, mul_pos_of_neg_of_neg hc p1]
    have p2 : cr b c < 0 := by by_contra h; push Not at h; linarith [mul_nonneg ha h]
    rw [sgn_neg p1 p2 p3]; norm_num
  · rw [if_pos p1, if_pos p3, sgn_zero (fun h => by linarith [h.1]) (fun h => by linarith [h.2.2])]; norm_num
  · rw [if_neg p1.not_gt, if_neg p3.not_gt, sgn_zero (fun h => by linarith [h.2.2]) (fun h => by linarith [h.1])]; norm_num
  · rw [if_neg p1.not_gt, if_pos p3]
    have : 0 < a.2 * cr b c := by linarith [mul_neg_of_neg_of_pos hb p3, mul_neg_of_neg_of_pos hc p1]
    have p2 : 0 < cr b c := by by_contra h; push Not at h; linarith [mul_nonpos_of_nonneg_of_nonpos ha h]
    rw [sgn_pos p1 p2 p3]; norm_num

theorem sum_two {a b c : ℝ × ℝ} (ha : a.2 < 0) (hb : 0 ≤ b.2) (hc : 0 ≤ c.2) (h1 : Off a b) (h2 : Off b c) (h3 : Off c a) :
    wind a b + wind b c + wind c a = sgn a b c := by
  rw [wind_up ha hb, wind_above hb hc, wind_down hc ha]
  have hi := cr_ident a b c
  have n1 : cr a b ≠ 0 := fun h => off_ne' (off_swap h1) hb ha (by rw [cr_swap a b, h, neg_zero])
  have n3 : cr c a ≠ 0 := fun h => off_ne' h3 hc ha h
  rcases lt_or_gt_of_ne n1 with p1 | p1 <;> rcases lt_or_gt_of_ne n3 with p3 | p3
  · rw [if_neg p1.not_gt, if_pos p3]
    have m2 := mul_nonpos_of_nonneg_of_nonpos hb p3.le
    have m3 := mul_nonpos_of_nonneg_of_nonpos hc p1.le
    have p2 : cr b c < 0 := by
      have h0 : cr b c ≤ 0 := by by_contra h; push Not at h; linarith [mul_neg_of_neg_of_pos ha h]
      rcases h0.lt_or_eq with h | h
      · exact h
      · exfalso
        rw [h, mul_zero, zero_add] at hi
        have z2 : b.2 = 0 := (mul_eq_zero.mp (by linarith : b.2 * cr c a = 0)).resolve_right n3
        have z3 : c.2 = 0 := (mul_eq_zero.mp (by linarith : c.2 * cr a b = 0)).resolve_right n1
        unfold cr at p1 p3
        rw [z2] at p1
        rw [z3] at p3
        have q1 : 0 < -a.2 := by linarith
        have b1 : b.1 < 0 := by nlinarith
        have c1 : 0 < c.1 := by nlinarith
        have := h2 h
        rw [z2, z3] at this
        nlinarith
    rw [sgn_neg p1 p2 p3]; norm_num
  · rw [if_neg p1.not_gt, if_neg p3.not_gt, sgn_zero (fun h => by linarith [h.1]) (fun h => by linarith [h.2.2])]; norm_num
  · rw [if_pos p1, if_pos p3, sgn_zero (fun h => by linarith [h.2.2]) (fun h => by linarith [h.1])]; norm_num
  · rw [if_pos p1, if_neg p3.not_gt]
    have m2 := mul_nonneg hb p3.le
    have m3 := mul_nonneg hc p1.le
    have p2 : 0 < cr b c := by
      have h0 : 0 ≤ cr b c := by by_contra h; push Not at h; linarith [mul_pos_of_neg_of_neg ha h]
      rcases h0.lt_or_eq with h | h
      · exact h
      · exfalso
        rw [← h, mul_zero, zero_add] at hi
        have z2 : b.2 = 0 := (mul_eq_zero.mp (by linarith : b.2 * cr c a = 0)).resolve_right n3
        have z3 : c.2 = 0 := (mul_eq_zero.mp (by linarith : c.2 * cr a b = 0)).resolve_right n1
        unfold cr at p1 p3
        rw [z2] at p1
        rw [z3] at p3
        have q1 : 0 < -a.2 := by linarith
        have b1 : 0 < b.1 := by nlinarith
        have c1 : c.1 < 0 := by nlinarith
        have := h2 h.symm
        rw [z2, z3] at this
        nlinarith
    rw [sgn_pos p1 p2 p3]; norm_num

/-- The edges of a triangle wind around the origin once if it is inside, and else not at all. -/
theorem wind_sum {a b c : ℝ × ℝ} (h1 : Off a b) (h2 : Off b c) (h3 : Off c a) : wind a b + wind b c + wind c a = sgn a b c := by
  rcases lt_or_ge a.2 0 with ha | ha <;> rcases lt_or_ge b.2 0 with hb | hb <;> rcases lt_or_ge c.2 0 with hc | hc
  · exact sum_below ha hb hc
  · have := sum_one hc ha hb h3 h2
    rw [sgn_cyc b c a, sgn_cyc a b c] at this
    linarith
  · have := sum_one hb hc ha h2 h1
    rw [sgn_cyc a b c] at this
    linarith
  · exact sum_two ha hb hc h1 h2 h3
  · exact sum_one ha hb hc h1 h3
  · have := sum_two hb hc ha h2 h3 h1
    rw [sgn_cyc a b c] at this
    linarith
  · have := sum_two hc ha hb h3 h1 h2
    rw [sgn_cyc b c a, sgn_cyc a b c] at this
    linarith
  · exact sum_above ha hb hc

/-! ### Lines and triangles -/

/-- The coordinates of a point across the line. -/
noncomputable def across (o d v : Vec3 ℝ) : ℝ × ℝ := ((prepareRay o d).px v, (prepareRay o d).py v)

theorem between {a b : ℝ × ℝ} (h : ¬ Off a b) : ∃ s : ℝ, 0 ≤ s ∧ s ≤ 1 ∧ (1 - s) * a.1 + s * b.1 = 0 ∧ (1 - s) * a.2 + s * b.2 = 0 := by
  unfold Off at h
  push Not at h
  obtain ⟨h0, h1⟩ := h
  unfold cr at h0
  by_cases he : (a.1 - b.1) ^ 2 + (a.2 - b.2) ^ 2 = 0
  · have e1 : a.1 = b.1 := by nlinarith [sq_nonneg (a.1 - b.1), sq_nonneg (a.2 - b.2), sq_eq_zero_iff.mp (by nlinarith [sq_nonneg (a.1 - b.1), sq_nonneg (a.2 - b.2)] : (a.1 - b.1) ^ 2 = 0)]
    have e2 : a.2 = b.2 := by nlinarith [sq_eq_zero_iff.mp (by nlinarith [sq_nonneg (a.1 - b.1), sq_nonneg (a.2 - b.2)] : (a.2 - b.2) ^ 2 = 0)]
    rw [← e1, ← e2] at h1
    have z1 : a.1 = 0 := by
      have : a.1 * a.1 = 0 := by nlinarith [mul_self_nonneg a.1, mul_self_nonneg a.2]
      exact mul_self_eq_zero.mp this
    have z2 : a.2 = 0 := by
      have : a.2 * a.2 = 0 := by nlinarith [mul_self_nonneg a.1, mul_self_nonneg a.2]
      exact mul_self_eq_zero.mp this
    exact ⟨0, le_rfl, zero_le_one, by rw [z1]; ring, by rw [z2]; ring⟩
  · have hp : 0 < (a.1 - b.1) ^ 2 + (a.2 - b.2) ^ 2 := lt_of_le_of_ne (by positivity) (Ne.symm he)
    refine ⟨(a.1 * (a.1 - b.1) + a.2 * (a.2 - b.2)) / ((a.1 - b.1) ^ 2 + (a.2 - b.2) ^ 2), ?_, ?_, ?_, ?_⟩
    · apply div_nonneg _ hp.le
      nlinarith [mul_self_nonneg a.1, mul_self_nonneg a.2]
    · rw [div_le_one hp]
      nlinarith [mul_self_nonneg b.1, mul_self_nonneg b.2]
    · field_simp
      linear_combination -(a.2 - b.2) * h0
    · field_simp
      linear_combination (a.1 - b.1) * h0

variable {o d : Vec3 ℝ}

theorem off_line (hd : d ≠ 0) {T : Tri} (h : ∀ t, ¬ T.OnEdge (at_ o d t)) :
    Off (across o d T.a) (across o d T.b) ∧ Off (across o d T.b) (across o d T.c) ∧ Off (across o d T.c) (across o d T.a) := by
  have key : ∀ u v w : ℝ, 0 ≤ u → 0 ≤ v → 0 ≤ w → u + v + w = 1 → (u = 0 ∨ v = 0 ∨ w = 0) →
      u * (prepareRay o d).px T.a + v * (prepareRay o d).px T.b + w * (prepareRay o d).px T.c = 0 →
      u * (prepareRay o d).py T.a + v * (prepareRay o d).py T.b + w * (prepareRay o d).py T.c = 0 → False := by
    intro u v w hu hv hw hs h0 hx hy
    rw [← px_comb _ _ _ _ hs] at hx
    rw [← py_comb _ _ _ _ hs] at hy
    exact h _ ⟨u, v, w, hu, hv, hw, hs, h0, ((on_line hd o _).mp ⟨hx, hy⟩).symm⟩
  refine ⟨?_, ?_, ?_⟩
  · by_contra hn
    obtain ⟨s, h1, h2, h3, h4⟩ := between hn
    simp only [across] at h3 h4
    exact key (1 - s) s 0 (by linarith) h1 le_rfl (by ring) (Or.inr (Or.inr rfl)) (by linarith) (by linarith)
  · by_contra hn
    obtain ⟨s, h1, h2, h3, h4⟩ := between hn
    simp only [across] at h3 h4
    exact key 0 (1 - s) s le_rfl (by linarith) h1 (by ring) (Or.inl rfl) (by linarith) (by linarith)
  · by_contra hn
    obtain ⟨s, h1, h2, h3, h4⟩ := between hn
    simp only [across] at h3 h4
    exact key s 0 (1 - s) h1 le_rfl (by linarith) (by ring) (Or.inr (Or.inl rfl)) (by linarith) (by linarith)

/-- The hit of a triangle, counted with its direction: entering is minus one. -/
noncomputable def signed (o d : Vec3 ℝ) (T : Tri) : ℤ :=
  match hitOf o d T with
  | none => 0
  | some i => if i.entering then -1 else 1

/-- If two of the edge functions are zero the triangle is seen from the side. -/
theorem signed_eq (hd : d ≠ 0) {T : Tri} (h : ∀ t, ¬ T.OnEdge (at_ o d t)) :
    signed o d T = wind (across o d T.a) (across o d T.b) + wind (across o d T.b) (across o d T.c) + wind (across o d T.c) (across o d T.a) := by
  obtain ⟨h1, h2, h3⟩ := off_line hd h
  rw [wind_sum h1 h2 h3]
  have eU : (prepareRay o d).U T = - cr (across o d T.b) (across o d T.c) := by unfold WoopRay.U cr across; ring
  have eV : (prepareRay o d).V T = - cr (across o d T.c) (across o d T.a) := by unfold WoopRay.V cr across; ring
  have eW : (prepareRay o d).W T = - cr (across o d T.a) (across o d T.b) := by unfold WoopRay.W cr across; ring
  unfold signed hitOf
  cases hw : woop (prepareRay o d) T with
  | none =>
    simp only [Option.map_none]
    symm
    apply sgn_zero
    · rintro ⟨p1, p2, p3⟩
      obtain ⟨x, hx⟩ := woop_some (prepareRay o d) T (Or.inr ⟨by linarith, by linarith, by linarith⟩) (by rw [eU, eV, eW]; intro h; linarith)
      rw [hx] at hw; cases hw
    · rintro ⟨p1, p2, p3⟩
      obtain ⟨x, hx⟩ := woop_some (prepareRay o d) T (Or.inl ⟨by linarith, by linarith, by linarith⟩) (by rw [eU, eV, eW]; intro h; linarith)
      rw [hx] at hw; cases hw
  | some x =>
    obtain ⟨t, f⟩ := x
    simp only [Option.map_some]
    obtain ⟨q1, q2, -, q4⟩ := woop_eq _ _ hw
    obtain ⟨e1, e2, -⟩ := (C131_triangle o hd T t f).mp hw
    obtain ⟨u, v, w, hu, hv, hw', hs, hq⟩ := e2
    have nz : u ≠ 0 ∧ v ≠ 0 ∧ w ≠ 0 := by
      refine ⟨fun h0 => ?_, fun h0 => ?_, fun h0 => ?_⟩
      · exact h t ⟨u, v, w, hu, hv, hw', hs, Or.inl h0, hq⟩
      · exact h t ⟨u, v, w, hu, hv, hw', hs, Or.inr (Or.inl h0), hq⟩
      · exact h t ⟨u, v, w, hu, hv, hw', hs, Or.inr (Or.inr h0), hq⟩
    have hxy := (on_line hd o (at_ o d t)).mpr (by rw [pz_at hd])
    rw [hq, px_comb _ _ _ _ hs, py_comb _ _ _ _ hs] at hxy
    obtain ⟨hx, hy⟩ := hxy
    have E : (prepareRay o d).U T = u * ((prepareRay o d).U T + (prepareRay o d).V T + (prepareRay o d).W T) ∧
        (prepareRay o d).V T = v * ((prepareRay o d).U T + (prepareRay o d).V T + (prepareRay o d).W T) := by
      unfold WoopRay.U WoopRay.V WoopRay.W
      have : w = 1 - u - v := by linarith
      subst this
      generalize (prepareRay o d).px T.a = ax at *; generalize (prepareRay o d).px T.b = bx at *; generalize (prepareRay o d).px T.c = cx at *
      generalize (prepareRay o d).py T.a = ay at *; generalize (prepareRay o d).py T.b = b_y at *; generalize (prepareRay o d).py T.c = cy at *
      constructor
      · linear_combination (b_y - cy) * hx + (cx - bx) * hy
      · linear_combination (cy - ay) * hx + (ax - cx) * hy
    obtain ⟨eu, ev⟩ := E
    have ew : (prepareRay o d).W T = w * ((prepareRay o d).U T + (prepareRay o d).V T + (prepareRay o d).W T) := by
      have : w = 1 - u - v := by linarith
      subst this
      linear_combination -eu - ev
    have pu := lt_of_le_of_ne hu (Ne.symm nz.1)
    have pv := lt_of_le_of_ne hv (Ne.symm nz.2.1)
    have pw := lt_of_le_of_ne hw' (Ne.symm nz.2.2)
    generalize hD : (prepareRay o d).U T + (prepareRay o d).V T + (prepareRay o d).W T = D at *
    have q4 : f = true ↔ 0 < D := q4
    by_cases hp : 0 < D
    · rw [if_pos (q4.mpr hp)]
      symm
      apply sgn_neg
      · linarith [mul_pos pw hp]
      · linarith [mul_pos pu hp]
      · linarith [mul_pos pv hp]
    · have hf : ¬ f = true := fun h => hp (q4.mp h)
      rw [if_neg hf]
      have hn : D < 0 := lt_of_le_of_ne (not_lt.mp hp) q2
      symm
      apply sgn_pos
      · linarith [mul_neg_of_pos_of_neg pw hn]
      · linarith [mul_neg_of_pos_of_neg pu hn]
      · linarith [mul_neg_of_pos_of_neg pv hn]

end Mesh
end Siren.Geometry
