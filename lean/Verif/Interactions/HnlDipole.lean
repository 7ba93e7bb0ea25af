import Verif.Interactions.DarkNews

set_option autoImplicit false
set_option linter.unusedSectionVars false

/-!
# Dipole upscattering from tables

Models `interactions/private/HNLDipoleFromTable.cxx` (limits of y, cross sections, sampling). Doubles are real numbers; a square
root of a negative number and 0/0 are not numbers (`none`).
-/

namespace Siren
namespace HnlDipole

open Rk Dis

/-! ### Model: the limits of y -/

/-- `std::max` and `std::min` where an argument may not be a number: a comparison with it is false. -/
noncomputable def stdMax : Option ℝ → Option ℝ → Option ℝ
  | some a, some b => some (max a b)
  | a, _ => a

noncomputable def stdMin : Option ℝ → Option ℝ → Option ℝ
  | some a, some b => some (min a b)
  | a, _ => a

/-- `s` (HNLDipoleFromTable.cxx:74, 103). -/
def sOf (E M : ℝ) : ℝ := 2 * E * M + M * M

/-- `root_term` (HNLDipoleFromTable.cxx:85, 107). -/
def rootTerm (E m M : ℝ) : ℝ := 4 * E * E * (M * M) - 4 * E * M * (m * m) - 4 * (M * M) * (m * m) + m * m * (m * m)

open Classical in
/-- `DipoleyMin` (HNLDipoleFromTable.cxx:69-95). -/
noncomputable def yMin (E m M : ℝ) : Option ℝ :=
  let s := sOf E M
  let s2 := s * s
  let r2 := m * m / s
  let r4 := m * m * (m * m) / s2
  let m2 := M * M / s
  let m4 := M * M * (M * M) / s2
  let m2sub1sq := (m2 - 1) ^ 2
  let costh := (sqrtN (rootTerm E m M)).map fun r => (1 / (2 * s)) * (2 * E * M - m * m - M * (m * m) / E - r)
  let y := if r2 < 1e-6 then some ((s * m2 * r4 / m2sub1sq) / (2 * E * M))
    else (sqrtN (m2sub1sq + (r4 - 2 * (1 + m2) * r2))).map fun root =>
      0.5 * (1 + m4 - r2 - root + m2 * (-2 - r2 + root)) * s / (2 * E * M)
  stdMax y costh

/-- `DipoleyMax` (HNLDipoleFromTable.cxx:98-111): the root of the bound on the angle is outside the parenthesis. -/
noncomputable def yMax (E m M : ℝ) : Option ℝ :=
  let M2 := M * M
  let M4 := M2 * M2
  let m2 := m * m
  let s := sOf E M
  let s2 := s * s
  let costh := (sqrtN (rootTerm E m M)).map fun r => (1 / (2 * s)) * (2 * E * M - m2 - M * m2 / E) + r
  stdMin costh ((sqrtN (M4 + (m2 - s) ^ 2 - 2 * M2 * (m2 + s))).map fun r =>
    0.5 * (M4 - m2 * s + s2 - M2 * (m2 + 2 * s) + (s - M2) * r) / (s * (2 * E * M)))

/-- `InteractionThreshold` (HNLDipoleFromTable.cxx:242-244). -/
noncomputable def threshold (m M : ℝ) : ℝ := m + m * m / (2 * M)

/-! ### Specification -/

/-- A massless particle of energy `E` can produce a particle of mass `m` with energy `E (1 - y)` on a target of mass `M` at rest
that keeps its mass. -/
def Possible (E m M y : ℝ) : Prop :=
  ∃ p p3 : Vec3 ℝ, Vec3.dot p p = E ^ 2 ∧ 0 ≤ E * (1 - y) ∧ (E * (1 - y)) ^ 2 = Vec3.dot p3 p3 + m ^ 2 ∧
    (M + E * y) ^ 2 = Vec3.dot (p - p3) (p - p3) + M ^ 2

/-! ### Algebra of the limits -/

/-- The linear coefficient. -/
noncomputable def coef (E m M : ℝ) : ℝ := 2 * E * M - m * m - M * (m * m) / E

noncomputable def lo (E m M : ℝ) : ℝ := (coef E m M - Real.sqrt (rootTerm E m M)) / (2 * sOf E M)
noncomputable def hi (E m M : ℝ) : ℝ := (coef E m M + Real.sqrt (rootTerm E m M)) / (2 * sOf E M)

/-- The component along the primary of the momentum of the first secondary (HNLDipoleFromTable.cxx:422). -/
noncomputable def along (E m M y : ℝ) : ℝ := E * (1 - y) - M * y - m * m / (2 * E)

structure Above (E m M : ℝ) : Prop where
  energy : 0 < E
  target : 0 < M
  mass : 0 ≤ m
  threshold : threshold m M ≤ E

variable {E m M : ℝ}

theorem Above.two (h : Above E m M) : 2 * M * m + m * m ≤ 2 * E * M := by
  have := h.threshold
  have hM := h.target
  unfold HnlDipole.threshold at this
  have h2 : (m + m * m / (2 * M)) * (2 * M) ≤ E * (2 * M) := mul_le_mul_of_nonneg_right this (by linarith)
  have h3 : (m + m * m / (2 * M)) * (2 * M) = 2 * M * m + m * m := by field_simp
  linarith

theorem Above.le (h : Above E m M) : m ≤ E := by
  have := h.threshold
  have hM := h.target
  unfold HnlDipole.threshold at this
  have : 0 ≤ m * m / (2 * M) := by have := mul_self_nonneg m; positivity
  linarith

theorem Above.s_pos (h : Above E m M) : 0 < sOf E M := by
  have := h.energy; have := h.target
  unfold sOf; positivity

theorem Above.root (h : Above E m M) : 0 ≤ rootTerm E m M := by
  have h2 := h.two
  have hM := h.target
  have hm := h.mass
  have : rootTerm E m M = (2 * E * M - m * m - 2 * M * m) * (2 * E * M - m * m + 2 * M * m) := by
    unfold rootTerm; ring
  rw [this]
  apply mul_nonneg
  · linarith
  · have : 0 ≤ M * m := mul_nonneg hM.le hm
    nlinarith

theorem Above.coef_pos (h : Above E m M) : 0 < coef E m M := by
  have h2 := h.two
  have hM := h.target
  have hm := h.mass
  have hE := h.energy
  have hle := h.le
  have h1 : M * (m * m) / E ≤ M * m := by
    rw [div_le_iff₀ hE]
    have : M * m * m ≤ M * m * E := mul_le_mul_of_nonneg_left hle (mul_nonneg hM.le hm)
    linarith
  unfold coef
  rcases hm.eq_or_lt with h0 | h0
  · rw [← h0]; simp; positivity
  · have : 0 < M * m := mul_pos hM h0
    linarith

theorem coef_sq (hE : E ≠ 0) : coef E m M * coef E m M = rootTerm E m M + sOf E M * (m ^ 4 / E ^ 2) := by
  unfold coef rootTerm sOf
  field_simp
  ring

theorem Above.root_le (h : Above E m M) : Real.sqrt (rootTerm E m M) ≤ coef E m M := by
  apply Real.sqrt_le_iff.mpr
  refine ⟨h.coef_pos.le, ?_⟩
  have hs := h.s_pos
  have hE := h.energy
  have e := coef_sq (m := m) (M := M) hE.ne'
  have h3 : 0 ≤ sOf E M * (m ^ 4 / E ^ 2) := by
    have : 0 ≤ m ^ 4 := by positivity
    positivity
  nlinarith

/-- The square of the transverse momentum as a function of y. -/
theorem transverse (h : Above E m M) (y : ℝ) :
    (E * (1 - y)) ^ 2 - m ^ 2 - along E m M y ^ 2 = sOf E M * (y - lo E m M) * (hi E m M - y) := by
  have hs := h.s_pos
  have hE := h.energy
  have hq := Real.mul_self_sqrt h.root
  set r := Real.sqrt (rootTerm E m M) with hr
  have e1 : sOf E M * (y - lo E m M) * (hi E m M - y) =
      -(sOf E M) * y ^ 2 + coef E m M * y - (coef E m M * coef E m M - r * r) / (4 * sOf E M) := by
    unfold lo hi
    rw [← hr]
    field_simp
    ring
  rw [e1, hq, coef_sq hE.ne']
  have e2 : (rootTerm E m M + sOf E M * (m ^ 4 / E ^ 2) - rootTerm E m M) / (4 * sOf E M) = m ^ 4 / (4 * E ^ 2) := by
    field_simp
    ring
  rw [e2]
  unfold along coef sOf
  field_simp
  ring

theorem Above.hi_lt_one (h : Above E m M) : hi E m M < 1 := by
  have hs := h.s_pos
  have hr := h.root_le
  have hE := h.energy
  have hM := h.target
  unfold hi
  rw [div_lt_one (by positivity)]
  have : coef E m M < sOf E M := by
    unfold coef sOf
    have h1 : 0 ≤ M * (m * m) / E := by have := mul_self_nonneg m; positivity
    nlinarith [mul_self_nonneg m, mul_pos hM hM]
  linarith

theorem Above.lo_nonneg (h : Above E m M) : 0 ≤ lo E m M := by
  have hs := h.s_pos
  have hr := h.root_le
  unfold lo
  exact div_nonneg (by linarith) (by positivity)

theorem Above.lo_le_hi (h : Above E m M) : lo E m M ≤ hi E m M := by
  have hs := h.s_pos
  have hr := Real.sqrt_nonneg (rootTerm E m M)
  unfold lo hi
  apply div_le_div_of_nonneg_right _ (by positivity)
  linarith

theorem Above.prod (h : Above E m M) : lo E m M * hi E m M = m ^ 4 / (4 * E ^ 2 * sOf E M) := by
  have hs := h.s_pos
  have hE := h.energy
  have hq := Real.mul_self_sqrt h.root
  have hc := coef_sq (m := m) (M := M) hE.ne'
  have : lo E m M * hi E m M = (coef E m M * coef E m M - Real.sqrt (rootTerm E m M) * Real.sqrt (rootTerm E m M)) /
      (4 * sOf E M * sOf E M) := by
    unfold lo hi
    field_simp
    ring
  rw [this, hq, hc]
  field_simp
  ring

theorem Above.hi_pos (h : Above E m M) : 0 < hi E m M := by
  have hs := h.s_pos
  have hc := h.coef_pos
  have hr := Real.sqrt_nonneg (rootTerm E m M)
  unfold hi
  exact div_pos (by linarith) (by positivity)

/-- The expansion for small masses never exceeds the limit. -/
theorem Above.small_le (h : Above E m M) : m ^ 4 / (8 * E ^ 3 * M) ≤ lo E m M := by
  have hs := h.s_pos
  have hE := h.energy
  have hM := h.target
  have hh := h.hi_pos
  have hb : hi E m M ≤ 2 * E * M / sOf E M := by
    have hr := h.root_le
    unfold hi
    rw [div_le_div_iff₀ (by positivity) hs]
    have hc : coef E m M ≤ 2 * E * M := by
      unfold coef
      have h1 : 0 ≤ M * (m * m) / E := by have := mul_self_nonneg m; positivity
      nlinarith [mul_self_nonneg m]
    nlinarith
  have hp := h.prod
  have h1 : m ^ 4 / (4 * E ^ 2 * sOf E M) ≤ lo E m M * (2 * E * M / sOf E M) := by
    rw [← hp]; exact mul_le_mul_of_nonneg_left hb h.lo_nonneg
  have e : m ^ 4 / (4 * E ^ 2 * sOf E M) = m ^ 4 / (8 * E ^ 3 * M) * (2 * E * M / sOf E M) := by
    field_simp
    ring
  rw [e] at h1
  exact le_of_mul_le_mul_right h1 (by positivity)

theorem yMin_eq (h : Above E m M) : yMin E m M = some (lo E m M) := by
  have hs := h.s_pos
  have hE := h.energy
  have hM := h.target
  have hroot := h.root
  have hc : sqrtN (rootTerm E m M) = some (Real.sqrt (rootTerm E m M)) := by unfold sqrtN; rw [if_pos hroot]
  have hcost : (1 / (2 * sOf E M)) * (2 * E * M - m * m - M * (m * m) / E - Real.sqrt (rootTerm E m M)) = lo E m M := by
    unfold lo coef; field_simp
  unfold yMin
  simp only [hc, Option.map_some, hcost]
  have hsM : sOf E M - M * M = 2 * E * M := by unfold sOf; ring
  have hm2 : M * M / sOf E M - 1 = -(2 * E * M) / sOf E M := by
    rw [← hsM]; field_simp; ring
  split
  · have e : sOf E M * (M * M / sOf E M) * (m * m * (m * m) / (sOf E M * sOf E M)) / (M * M / sOf E M - 1) ^ 2 / (2 * E * M) =
        m ^ 4 / (8 * E ^ 3 * M) := by
      rw [hm2]
      field_simp
      ring
    rw [e]
    show some (max _ _) = _
    rw [max_eq_right h.small_le]
  · have e : (M * M / sOf E M - 1) ^ 2 + (m * m * (m * m) / (sOf E M * sOf E M) - 2 * (1 + M * M / sOf E M) * (m * m / sOf E M)) =
        rootTerm E m M / (sOf E M * sOf E M) := by
      rw [hm2]
      field_simp
      unfold rootTerm sOf
      ring
    have hsq : sqrtN (rootTerm E m M / (sOf E M * sOf E M)) = some (Real.sqrt (rootTerm E m M) / sOf E M) := by
      unfold sqrtN
      rw [if_pos (by positivity), Real.sqrt_div hroot, Real.sqrt_mul_self hs.le]
    rw [e, hsq]
    simp only [Option.map_some]
    set r := Real.sqrt (rootTerm E m M) with hr
    have e2 : 0.5 * (1 + M * M * (M * M) / (sOf E M * sOf E M) - m * m / sOf E M - r / sOf E M +
        M * M / sOf E M * (-2 - m * m / sOf E M + r / sOf E M)) * sOf E M / (2 * E * M) = lo E m M := by
      have hlo : lo E m M = (2 * E * M * (2 * E * M - m * m - r) - 2 * (M * M) * (m * m)) / (2 * sOf E M * (2 * E * M)) := by
        unfold lo coef
        rw [← hr]
        field_simp
        ring
      rw [hlo]
      have hd : (2 : ℝ) * E * M ≠ 0 := by positivity
      rw [div_eq_div_iff hd (by positivity)]
      field_simp
      unfold sOf
      ring
    rw [e2]
    show some (max _ _) = _
    rw [max_self]

theorem yMax_eq (h : Above E m M) (h2s : 1 ≤ 2 * sOf E M) : yMax E m M = some (hi E m M) := by
  have hs := h.s_pos
  have hE := h.energy
  have hM := h.target
  have hroot := h.root
  have hc : sqrtN (rootTerm E m M) = some (Real.sqrt (rootTerm E m M)) := by unfold sqrtN; rw [if_pos hroot]
  have e : M * M * (M * M) + (m * m - sOf E M) ^ 2 - 2 * (M * M) * (m * m + sOf E M) = rootTerm E m M := by
    unfold rootTerm sOf; ring
  unfold yMax
  simp only [e, hc, Option.map_some]
  set r := Real.sqrt (rootTerm E m M) with hr
  have e2 : 0.5 * (M * M * (M * M) - m * m * sOf E M + sOf E M * sOf E M - M * M * (m * m + 2 * sOf E M) +
      (sOf E M - M * M) * r) / (sOf E M * (2 * E * M)) = hi E m M := by
    have hhi : hi E m M = (2 * E * M * (2 * E * M - m * m + r) - 2 * (M * M) * (m * m)) / (2 * sOf E M * (2 * E * M)) := by
      unfold hi coef
      rw [← hr]
      field_simp
      ring
    rw [hhi, div_eq_div_iff (by positivity) (by positivity)]
    unfold sOf
    ring
  rw [e2]
  show some (min _ _) = _
  rw [min_eq_right]
  have : hi E m M = (1 / (2 * sOf E M)) * (2 * E * M - m * m - M * (m * m) / E) + r / (2 * sOf E M) := by
    unfold hi coef
    rw [← hr]
    field_simp
  rw [this]
  have : r / (2 * sOf E M) ≤ r := div_le_self (Real.sqrt_nonneg _) h2s
  linarith

theorem possible_iff (h : Above E m M) (y : ℝ) : Possible E m M y ↔ lo E m M ≤ y ∧ y ≤ hi E m M := by
  have hE := h.energy
  have hs := h.s_pos
  have ht := transverse h y
  have hlh := h.lo_le_hi
  constructor
  · rintro ⟨p, p3, hp, hpos, h3, h4⟩
    have hX : Vec3.dot p p3 = E * along E m M y := by
      have e1 : Vec3.dot (p - p3) (p - p3) = Vec3.dot p p - 2 * Vec3.dot p p3 + Vec3.dot p3 p3 := by
        simp only [Vec3.dot, Vec3.sub_x, Vec3.sub_y, Vec3.sub_z]; ring
      rw [e1, hp] at h4
      have : E * along E m M y = E * (E * (1 - y)) - E * (M * y) - m * m / 2 := by
        unfold along; field_simp
      rw [this]
      linear_combination (1 / 2) * h4 - (1 / 2) * h3
    have hCS : Vec3.dot p p3 * Vec3.dot p p3 ≤ Vec3.dot p p * Vec3.dot p3 p3 := by
      have e : Vec3.dot p p * Vec3.dot p3 p3 - Vec3.dot p p3 * Vec3.dot p p3 =
          (p.x * p3.y - p.y * p3.x) ^ 2 + (p.y * p3.z - p.z * p3.y) ^ 2 + (p.z * p3.x - p.x * p3.z) ^ 2 := by
        simp only [Vec3.dot]; ring
      nlinarith [sq_nonneg (p.x * p3.y - p.y * p3.x), sq_nonneg (p.y * p3.z - p.z * p3.y), sq_nonneg (p.z * p3.x - p.x * p3.z)]
    rw [hX, hp] at hCS
    have h5 : along E m M y ^ 2 ≤ Vec3.dot p3 p3 := by
      have : E ^ 2 * along E m M y ^ 2 ≤ E ^ 2 * Vec3.dot p3 p3 := by linarith [hCS, show E * along E m M y * (E * along E m M y) = E ^ 2 * along E m M y ^ 2 by ring]
      exact le_of_mul_le_mul_left this (by positivity)
    have h6 : 0 ≤ sOf E M * (y - lo E m M) * (hi E m M - y) := by rw [← ht]; linarith
    have h7 : 0 ≤ (y - lo E m M) * (hi E m M - y) := by
      by_contra hn
      push Not at hn
      have := mul_neg_of_pos_of_neg hs hn
      linarith
    constructor
    · by_contra hn
      push Not at hn
      have := mul_neg_of_neg_of_pos (show y - lo E m M < 0 by linarith) (show 0 < hi E m M - y by linarith)
      linarith
    · by_contra hn
      push Not at hn
      have := mul_neg_of_pos_of_neg (show 0 < y - lo E m M by linarith) (show hi E m M - y < 0 by linarith)
      linarith
  · rintro ⟨h1, h2⟩
    have h0 : 0 ≤ (E * (1 - y)) ^ 2 - m ^ 2 - along E m M y ^ 2 := by
      rw [ht]
      exact mul_nonneg (mul_nonneg hs.le (by linarith)) (by linarith)
    have hsq := Real.sq_sqrt h0
    have hlt := h.hi_lt_one
    refine ⟨⟨E, 0, 0⟩, ⟨along E m M y, Real.sqrt ((E * (1 - y)) ^ 2 - m ^ 2 - along E m M y ^ 2), 0⟩, ?_, ?_, ?_, ?_⟩
    · simp only [Vec3.dot]; ring
    · exact mul_nonneg hE.le (by linarith)
    · simp only [Vec3.dot]
      linear_combination -hsq
    · simp only [Vec3.dot, Vec3.sub_x, Vec3.sub_y, Vec3.sub_z]
      have : E * along E m M y = E * (E * (1 - y)) - E * (M * y) - m * m / 2 := by
        unfold along; field_simp
      linear_combination -hsq + 2 * this

/-! ### The claims about the limits -/

/-- C128: at and above the threshold the two limits are numbers, and a value of y is between them exactly if the process with this
energy transfer exists, for a target with `2 s` at least one (GeV squared; every nucleus). -/
theorem C128_limits (hE : 0 < E) (hM : 0 < M) (hm : 0 ≤ m) (ht : threshold m M ≤ E) (hs : 1 ≤ 2 * (2 * E * M + M ^ 2)) :
    ∃ a b, yMin E m M = some a ∧ yMax E m M = some b ∧ ∀ y, (a ≤ y ∧ y ≤ b) ↔ Possible E m M y := by
  have h : Above E m M := ⟨hE, hM, hm, ht⟩
  have h2 : 1 ≤ 2 * sOf E M := by unfold sOf; linarith [sq M]
  exact ⟨_, _, yMin_eq h, yMax_eq h h2, fun y => (possible_iff h y).symm⟩

/-- C128 fails for light targets: the misplaced root makes the upper limit too small, in a way that depends on the unit of mass. -/
theorem C128_limits_fails : ∃ E m M b y : ℝ, 0 < E ∧ 0 < M ∧ 0 < m ∧ threshold m M ≤ E ∧ yMax E m M = some b ∧ b < y ∧
    Possible E m M y := by
  have h : Above (1 / 2) (1 / 10) (1 / 10) :=
    ⟨by norm_num, by norm_num, by norm_num, by norm_num [threshold]⟩
  have hroot : rootTerm (1 / 2) (1 / 10) (1 / 10) = 77 / 10000 := by norm_num [rootTerm]
  have hsv : sOf (1 / 2) (1 / 10) = 11 / 100 := by norm_num [sOf]
  have hco : coef (1 / 2) (1 / 10) (1 / 10) = 88 / 1000 := by norm_num [coef]
  have hr1 : Real.sqrt (77 / 10000) < 88 / 1000 := by
    rw [Real.sqrt_lt' (by norm_num)]; norm_num
  have hr2 : 87 / 1000 < Real.sqrt (77 / 10000) := by
    apply Real.lt_sqrt_of_sq_lt; norm_num
  have hc : sqrtN (rootTerm (1 / 2) (1 / 10) (1 / 10)) = some (Real.sqrt (77 / 10000)) := by
    unfold sqrtN; rw [hroot, if_pos (by norm_num)]
  have e : (1 / 10 * (1 / 10) * (1 / 10 * (1 / 10)) + (1 / 10 * (1 / 10) - sOf (1 / 2) (1 / 10)) ^ 2 -
      2 * (1 / 10 * (1 / 10)) * (1 / 10 * (1 / 10) + sOf (1 / 2) (1 / 10)) : ℝ) = rootTerm (1 / 2) (1 / 10) (1 / 10) := by
    unfold rootTerm sOf; norm_num
  obtain ⟨b, hb, hlt⟩ : ∃ b, yMax (1 / 2) (1 / 10) (1 / 10) = some b ∧ b < hi (1 / 2) (1 / 10) (1 / 10) := by
    unfold yMax
    simp only [e, hc, Option.map_some]
    refine ⟨_, rfl, lt_of_le_of_lt (min_le_left _ _) ?_⟩
    unfold hi
    rw [hco, hroot, hsv]
    rw [lt_div_iff₀ (by norm_num)]
    norm_num at hr1 hr2 ⊢
    linarith
  exact ⟨1 / 2, 1 / 10, 1 / 10, b, hi (1 / 2) (1 / 10) (1 / 10), by norm_num, by norm_num, by norm_num, h.threshold, hb, hlt,
    (possible_iff h _).mpr ⟨h.lo_le_hi, le_refl _⟩⟩

/-- The hypotheses are met: a neutrino of energy 10 on a proton and a lepton of mass one tenth. -/
example : (0 : ℝ) < 10 ∧ (0 : ℝ) < 938 / 1000 ∧ threshold (1 / 10) (938 / 1000) ≤ 10 ∧
    1 ≤ 2 * (2 * 10 * (938 / 1000 : ℝ) + (938 / 1000) ^ 2) := by
  unfold threshold; norm_num

end HnlDipole
end Siren
