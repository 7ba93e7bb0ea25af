import Verif.Interactions.Charm

set_option autoImplicit false
set_option linter.unusedSectionVars false

/-!
# The reported density of charm decays: the average of the V-A weight over the angle
-/

namespace Siren
namespace Charm

open Rk MeasureTheory Set

variable (D : Masses)

/-! ### Model -/

/-- `C`, `D`, `A`, `B` and `pref` (CharmDecayKinematics.h:133-143). -/
structure Coefs where
  C : ℝ
  D : ℝ
  A : ℝ
  B : ℝ
  pref : ℝ

/-- CharmDecayKinematics.h:133-143. -/
noncomputable def Masses.coefs (m : ℝ) : Coefs :=
  let p1 := D.kMom m
  let p23 := D.lMom m
  let E23 := Real.sqrt (p1 * p1 + m * m)
  let bz := -p1 / E23
  let gamma := E23 / m
  let Elrest := Real.sqrt (p23 * p23 + D.ml * D.ml)
  let EK := Real.sqrt (p1 * p1 + D.mK * D.mK)
  ⟨Elrest, bz * p23, EK - p1 * bz, p1 - EK * bz, D.mD * gamma * gamma * p23⟩

/-- `a2`, `a1`, `a0` (CharmDecayKinematics.h:146-148). -/
def Coefs.a2 (k : Coefs) : ℝ := k.D * k.B
def Coefs.a1 (k : Coefs) : ℝ := k.C * k.B + k.D * k.A
def Coefs.a0 (k : Coefs) : ℝ := k.C * k.A

open Classical in
/-- `VAWeightAngleAverage` (CharmDecayKinematics.h:126-156). -/
noncomputable def Masses.vaAverage (m : ℝ) : ℝ :=
  if D.kMom m ≤ 0 ∨ D.lMom m ≤ 0 then 0
  else
    let k := D.coefs m
    if k.pref ≤ 0 then 0
    else
      let qmax := D.vaMax / k.pref
      let integral := positivePart k.a2 k.a1 k.a0 (-1) 1 - positivePart k.a2 k.a1 (k.a0 - qmax) (-1) 1
      0.5 * k.pref * integral

open Classical in
/-- `SampledQ2Density` (CharmDecayKinematics.h:160-184). -/
noncomputable def Masses.density (q2 : ℝ) : ℝ :=
  let m := Real.sqrt q2
  if m ≤ D.ml ∨ m ≥ D.top then 0
  else if D.kMom m ≤ 0 ∨ D.lMom m ≤ 0 then 0
  else
    let wtPS := D.kMom m * D.lMom m
    let wtPS := if wtPS > D.psMax then D.psMax else wtPS
    let me := if D.va then D.vaAverage m else 1
    wtPS * me / (2 * m)

/-! ### Specification -/

/-- Half the integral over the cosine of the weight, cut at the ceiling. -/
noncomputable def vaMean (m : ℝ) : ℝ := 1 / 2 * ∫ c in Ioc (-1 : ℝ) 1, min D.vaMax (wt D m c)

/-- The linear fallback of `integratePositivePartQuadratic` is not taken for the part above the ceiling
(CharmDecayKinematics.h:93-94). -/
def Masses.NoFallback (m : ℝ) : Prop :=
  ¬ |(D.coefs m).a2| < 1e-12 * (|(D.coefs m).a1| + |(D.coefs m).a0 - D.vaMax / (D.coefs m).pref| + 1)

/-- The ceiling lies above all weights, by a margin. -/
structure Masses.Ceiling : Prop where
  room : 1.0001 * ((D.mD ^ 2 + D.ml ^ 2 - D.mK ^ 2) ^ 2 / 16) ≤ D.vaMax
  scale : 1e-5 * D.mD ^ 3 ≤ D.ml * D.vaMax

/-! ### Proof -/

variable {D}

theorem vaMax_pos (h : D.Possible) : 0 < D.vaMax := by
  obtain ⟨hl, hk, ht⟩ := h
  have hD : 0 < D.mD := by linarith
  unfold Masses.vaMax
  apply lt_min (by positivity)
  exact mul_pos (mul_pos (mul_pos hD (by linarith)) (by linarith)) (by linarith)

theorem eL_sum (h : D.Possible) {m : ℝ} (h0 : D.ml ≤ m) : eL D m + D.lMom m = m := by
  have hl := h.lepton
  have hm : 0 < m := by linarith
  rw [lMom_eq h h0]; unfold eL; field_simp; ring

theorem eW_sum (h : D.Possible) (m : ℝ) : eK D m + eW D m = D.mD := by
  have hD : 0 < D.mD := by have := h.hadron; have := h.threshold; have := h.lepton; linarith
  unfold eK eW; field_simp; ring

/-- The weight in terms of the energy of the lepton. -/
theorem wt_eq (h : D.Possible) {m : ℝ} (h0 : D.ml ≤ m) (h1 : m < D.top) (c : ℝ) :
    wt D m c = (D.mD * (eW D m / m * eL D m - D.kMom m / m * (D.lMom m * c))) *
      ((D.mD ^ 2 + D.ml ^ 2 - D.mK ^ 2) / 2 - D.mD * (eW D m / m * eL D m - D.kMom m / m * (D.lMom m * c))) := by
  have hl := h.lepton
  have hm : 0 < m := by linarith
  have hD : 0 < D.mD := by have := h.hadron; have := h.threshold; linarith
  have hs := eL_sum h h0
  have hK := eW_sum h m
  have hk2 : D.kMom m ^ 2 = eW D m ^ 2 - m ^ 2 := by rw [(kMom_sq h h0 h1.le).1]; unfold eW; field_simp; ring
  unfold wt
  congr 1
  have hconst : D.lMom m * (eW D m / m * eK D m + D.kMom m / m * D.kMom m) =
      (D.mD ^ 2 + D.ml ^ 2 - D.mK ^ 2) / 2 - D.mD * (eW D m / m * eL D m) := by
    have e1 : D.lMom m * (eW D m / m * eK D m + D.kMom m / m * D.kMom m) =
        D.lMom m * (eW D m * eK D m + D.kMom m ^ 2) / m := by ring
    rw [e1, hk2]
    have e2 : eW D m * eK D m + (eW D m ^ 2 - m ^ 2) = eW D m * D.mD - m ^ 2 := by rw [← hK]; ring
    rw [e2]
    have e3 : D.lMom m = m - eL D m := by linarith
    have e4 : D.lMom m * (eW D m * D.mD - m ^ 2) / m = eW D m * D.mD - D.mD * (eW D m / m * eL D m) - D.lMom m * m := by
      rw [e3]; field_simp
    rw [e4, lMom_eq h h0]
    unfold eW
    field_simp
    ring
  have hlin : D.lMom m * (eW D m / m * D.kMom m + D.kMom m / m * eK D m) = D.mD * (D.kMom m / m * D.lMom m) := by
    rw [← hK]; ring
  rw [hconst, hlin]
  ring

/-- No weight is above a sixteenth of the square of the energy scale. -/
theorem wt_le (h : D.Possible) {m : ℝ} (h0 : D.ml ≤ m) (h1 : m < D.top) (c : ℝ) :
    wt D m c ≤ (D.mD ^ 2 + D.ml ^ 2 - D.mK ^ 2) ^ 2 / 16 := by
  rw [wt_eq h h0 h1]
  set t := D.mD * (eW D m / m * eL D m - D.kMom m / m * (D.lMom m * c))
  set S := D.mD ^ 2 + D.ml ^ 2 - D.mK ^ 2
  nlinarith [sq_nonneg (t - S / 4)]

theorem factor_pos {El q EK k r c : ℝ} (hq : 0 < q) (hL : q < El) (hk : 0 < k) (hK : k < EK) (hr0 : 0 < r) (hr : r < 1)
    (c1 : -1 ≤ c) (c2 : c ≤ 1) : 0 < (El - r * q * c) * (EK + k * r + (k + EK * r) * c) := by
  apply mul_pos
  · have h1 : r * q * c ≤ r * q := by
      have : 0 ≤ r * q := by positivity
      nlinarith
    nlinarith
  · have h2 : 0 ≤ (k + EK * r) * (c + 1) := mul_nonneg (by nlinarith) (by linarith)
    have h3 := mul_pos (sub_pos.mpr hK) (sub_pos.mpr hr)
    nlinarith

/-- The quadratic, and the signs of its factors. -/
theorem coefs_spec (h : D.Possible) {m : ℝ} (h0 : D.ml < m) (h1 : m < D.top) :
    0 < (D.coefs m).pref ∧ (∀ c, wt D m c = (D.coefs m).pref * quad (D.coefs m).a2 (D.coefs m).a1 (D.coefs m).a0 c) ∧
      (D.coefs m).a2 ≤ 0 ∧ (∀ c, -1 ≤ c → c ≤ 1 → 0 < quad (D.coefs m).a2 (D.coefs m).a1 (D.coefs m).a0 c) ∧
      (D.coefs m).pref ≤ D.mD ^ 3 / (2 * D.ml) ∧ 0 < D.kMom m ∧ 0 < D.lMom m := by
  have hl := h.lepton
  have hm : 0 < m := by linarith
  have hKp := h.hadron
  have hD : 0 < D.mD := by have := h.threshold; linarith
  obtain ⟨hk2, -, hkp⟩ := kMom_sq h h0.le h1.le
  have hk := hkp h1
  obtain ⟨sL, sK, sW, pL, pK, pW⟩ := energies h h0.le h1
  have hq : 0 < D.lMom m := by rw [lMom_eq h h0.le]; apply div_pos _ (by linarith); nlinarith
  have hqm : D.lMom m ≤ m / 2 := by
    rw [lMom_eq h h0.le, div_le_div_iff₀ (by linarith) (by norm_num)]; nlinarith [sq_nonneg D.ml]
  have hsum := eL_sum h h0.le
  have hsumW := eW_sum h m
  have hW2 : eW D m ^ 2 = m * m + D.kMom m ^ 2 := by rw [← sW, Real.sq_sqrt (by positivity)]
  have hK2 : eK D m ^ 2 = D.mK * D.mK + D.kMom m ^ 2 := by rw [← sK, Real.sq_sqrt (by positivity)]
  have hL2 : eL D m ^ 2 = D.ml * D.ml + D.lMom m ^ 2 := by rw [← sL, Real.sq_sqrt (by positivity)]
  have hc : D.coefs m = ⟨eL D m, -D.kMom m / eW D m * D.lMom m, eK D m - D.kMom m * (-D.kMom m / eW D m),
      D.kMom m - eK D m * (-D.kMom m / eW D m), D.mD * (eW D m / m) * (eW D m / m) * D.lMom m⟩ := by
    unfold Masses.coefs
    have e1 : D.kMom m * D.kMom m + m * m = m * m + D.kMom m ^ 2 := by ring
    have e2 : D.lMom m * D.lMom m + D.ml * D.ml = D.ml * D.ml + D.lMom m ^ 2 := by ring
    have e3 : D.kMom m * D.kMom m + D.mK * D.mK = D.mK * D.mK + D.kMom m ^ 2 := by ring
    simp only
    rw [e1, e2, e3, sL, sK, sW]
  have hquad : ∀ c, quad (D.coefs m).a2 (D.coefs m).a1 (D.coefs m).a0 c =
      (eL D m - D.kMom m / eW D m * D.lMom m * c) * (eK D m + D.kMom m * D.kMom m / eW D m + (D.kMom m + eK D m * D.kMom m / eW D m) * c) := by
    intro c
    rw [hc]
    simp only [quad, Coefs.a2, Coefs.a1, Coefs.a0]
    ring
  have hkW : D.kMom m < eW D m := by nlinarith
  have hkK : D.kMom m < eK D m := by nlinarith
  have hlL : D.lMom m < eL D m := by nlinarith
  have hr : D.kMom m / eW D m < 1 := by rw [div_lt_one pW]; exact hkW
  have hr0 : 0 < D.kMom m / eW D m := by positivity
  refine ⟨?_, ?_, ?_, ?_, ?_, hk, hq⟩
  · rw [hc]; show 0 < D.mD * (eW D m / m) * (eW D m / m) * D.lMom m; positivity
  · intro c
    rw [hquad, hc]
    show _ = D.mD * (eW D m / m) * (eW D m / m) * D.lMom m * _
    unfold wt
    field_simp
  · rw [hc]
    show -D.kMom m / eW D m * D.lMom m * (D.kMom m - eK D m * (-D.kMom m / eW D m)) ≤ 0
    have : -D.kMom m / eW D m * D.lMom m * (D.kMom m - eK D m * (-D.kMom m / eW D m)) =
        -((D.kMom m / eW D m) * D.lMom m * (D.kMom m + eK D m * (D.kMom m / eW D m))) := by ring
    rw [this]
    have : 0 ≤ (D.kMom m / eW D m) * D.lMom m * (D.kMom m + eK D m * (D.kMom m / eW D m)) := by positivity
    linarith
  · intro c c1 c2
    rw [hquad]
    set r := D.kMom m / eW D m with hrd
    have e : eK D m + D.kMom m * D.kMom m / eW D m + (D.kMom m + eK D m * D.kMom m / eW D m) * c =
        eK D m + D.kMom m * r + (D.kMom m + eK D m * r) * c := by rw [hrd]; ring
    rw [e]
    exact factor_pos hq hlL hk hkK hr0 hr c1 c2
  · rw [hc]
    show D.mD * (eW D m / m) * (eW D m / m) * D.lMom m ≤ _
    have hWD : eW D m ≤ D.mD := by linarith
    have e1 : D.mD * (eW D m / m) * (eW D m / m) * D.lMom m ≤ D.mD * (D.mD / m) * (D.mD / m) * (m / 2) := by gcongr
    have e2 : D.mD * (D.mD / m) * (D.mD / m) * (m / 2) = D.mD ^ 3 / (2 * m) := by field_simp
    rw [e2] at e1
    refine e1.trans ?_
    gcongr

theorem wt_pos (h : D.Possible) {m : ℝ} (h0 : D.ml < m) (h1 : m < D.top) {c : ℝ} (c1 : -1 ≤ c) (c2 : c ≤ 1) : 0 < wt D m c := by
  obtain ⟨hp, hw, -, hq, -⟩ := coefs_spec h h0 h1
  rw [hw]
  exact mul_pos hp (hq c c1 c2)

/-- The two integrals are exact. -/
theorem first_exact (h : D.Possible) {m : ℝ} (h0 : D.ml < m) (h1 : m < D.top) :
    positivePart (D.coefs m).a2 (D.coefs m).a1 (D.coefs m).a0 (-1) 1 =
      positiveIntegral (D.coefs m).a2 (D.coefs m).a1 (D.coefs m).a0 (-1) 1 := by
  obtain ⟨hp, hw, ha, hq, -⟩ := coefs_spec h h0 h1
  by_cases hf : |(D.coefs m).a2| < 1e-12 * (|(D.coefs m).a1| + |(D.coefs m).a0| + 1)
  · have q1 := hq (-1) (by norm_num) (by norm_num)
    have q2 := hq 1 (by norm_num) (by norm_num)
    unfold quad at q1 q2
    exact positivePart_linear_pos hf (by linarith) (by linarith) (fun c hc => (hq c hc.1.le hc.2).le)
  · exact positivePart_quadratic hf

theorem second_exact (h : D.Possible) {m : ℝ} (h0 : D.ml < m) (h1 : m < D.top) (hx : D.NoFallback m ∨ D.Ceiling) :
    positivePart (D.coefs m).a2 (D.coefs m).a1 ((D.coefs m).a0 - D.vaMax / (D.coefs m).pref) (-1) 1 =
      positiveIntegral (D.coefs m).a2 (D.coefs m).a1 ((D.coefs m).a0 - D.vaMax / (D.coefs m).pref) (-1) 1 := by
  by_cases hf : D.NoFallback m
  · exact positivePart_quadratic hf
  · have hC := hx.resolve_left hf
    obtain ⟨hp, hw, ha, hq, hub, -⟩ := coefs_spec h h0 h1
    unfold Masses.NoFallback at hf
    rw [not_not] at hf
    have hM := vaMax_pos h
    set k := D.coefs m with hk
    set qmax := D.vaMax / k.pref with hqm
    set X := (D.mD ^ 2 + D.ml ^ 2 - D.mK ^ 2) ^ 2 / 16 / k.pref with hX
    have hl := h.lepton
    have hD : 0 < D.mD := by have := h.hadron; have := h.threshold; linarith
    have hqX : ∀ c, quad k.a2 k.a1 k.a0 c ≤ X := by
      intro c
      rw [hX, le_div_iff₀ hp]
      have := wt_le h h0.le h1 c
      rw [hw c] at this
      linarith
    have hX0 : 0 ≤ X := by positivity
    have hXq : 1.0001 * X ≤ qmax := by
      rw [hX, hqm, ← mul_div_assoc]
      gcongr
      exact hC.room
    have hq0 : 2e-5 ≤ qmax := by
      rw [hqm, le_div_iff₀ hp]
      calc 2e-5 * k.pref ≤ 2e-5 * (D.mD ^ 3 / (2 * D.ml)) := by gcongr
        _ = (1e-5 * D.mD ^ 3) / D.ml := by field_simp; norm_num
        _ ≤ D.vaMax := by rw [div_le_iff₀ hl]; linarith [hC.scale]
    have q1 := hq (-1) (by norm_num) (by norm_num)
    have q2 := hq 1 (by norm_num) (by norm_num)
    have qz := hq 0 (by norm_num) (by norm_num)
    have x1 := hqX (-1)
    have x2 := hqX 1
    have xz := hqX 0
    unfold quad at q1 q2 qz x1 x2 xz
    have a1b : |k.a1| ≤ X := abs_le.mpr ⟨by linarith, by linarith⟩
    have a0b : |k.a0 - qmax| ≤ qmax := abs_le.mpr ⟨by linarith, by linarith⟩
    have hsmall : -k.a2 ≤ 1e-12 * (X + qmax + 1) := by
      have := neg_abs_le k.a2
      have e : (1e-12 : ℝ) * (|k.a1| + |k.a0 - qmax| + 1) ≤ 1e-12 * (X + qmax + 1) := by gcongr
      linarith [neg_le_abs k.a2]
    refine positivePart_linear_neg hf ?_ ?_ ?_
    · norm_num at hsmall hXq hq0 ⊢; linarith
    · norm_num at hsmall hXq hq0 ⊢; linarith
    · intro c _
      have := hqX c
      have e : quad k.a2 k.a1 (k.a0 - qmax) c = quad k.a2 k.a1 k.a0 c - qmax := by unfold quad; ring
      rw [e]
      norm_num at hXq
      linarith

theorem cut {M p q : ℝ} (hp : 0 < p) (hq : 0 ≤ q) : min M (p * q) = p * (max 0 q - max 0 (q - M / p)) := by
  rw [max_eq_right hq]
  rcases le_total (p * q) M with h | h
  · have : q - M / p ≤ 0 := by rw [sub_nonpos, le_div_iff₀ hp]; linarith
    rw [min_eq_right h, max_eq_left this, sub_zero]
  · have : 0 ≤ q - M / p := by rw [sub_nonneg, div_le_iff₀ hp]; linarith
    rw [min_eq_left h, max_eq_right this]
    field_simp
    ring

/-- C129, the closed form: the average of the V-A weight over the angle, cut at the ceiling, is exact where the linear fallback is
not taken, and everywhere if the ceiling lies above all weights. -/
theorem C129_average (h : D.Possible) {m : ℝ} (h0 : D.ml < m) (h1 : m < D.top) (hx : D.NoFallback m ∨ D.Ceiling) :
    D.vaAverage m = vaMean D m := by
  obtain ⟨hp, hw, ha, hq, -, hk, hl⟩ := coefs_spec h h0 h1
  unfold Masses.vaAverage
  rw [if_neg (by push Not; exact ⟨hk, hl⟩)]
  simp only
  rw [if_neg (not_le.mpr hp), first_exact h h0 h1, second_exact h h0 h1 hx]
  unfold vaMean positiveIntegral
  set k := D.coefs m
  have i1 : IntegrableOn (fun c => max 0 (quad k.a2 k.a1 k.a0 c)) (Ioc (-1 : ℝ) 1) :=
    ((continuous_const.max (continuous_quad _ _ _)).integrableOn_Icc).mono_set Ioc_subset_Icc_self
  have i2 : IntegrableOn (fun c => max 0 (quad k.a2 k.a1 (k.a0 - D.vaMax / k.pref) c)) (Ioc (-1 : ℝ) 1) :=
    ((continuous_const.max (continuous_quad _ _ _)).integrableOn_Icc).mono_set Ioc_subset_Icc_self
  rw [← integral_sub i1 i2]
  have e : ∫ c in Ioc (-1 : ℝ) 1, min D.vaMax (wt D m c) =
      ∫ c in Ioc (-1 : ℝ) 1, k.pref * (max 0 (quad k.a2 k.a1 k.a0 c) - max 0 (quad k.a2 k.a1 (k.a0 - D.vaMax / k.pref) c)) := by
    refine setIntegral_congr_fun measurableSet_Ioc fun c hc => ?_
    rw [hw c, cut hp (hq c hc.1.le hc.2).le]
    have e : quad k.a2 k.a1 (k.a0 - D.vaMax / k.pref) c = quad k.a2 k.a1 k.a0 c - D.vaMax / k.pref := by unfold quad; ring
    rw [e]
  rw [e, integral_const_mul]
  norm_num
  ring

end Charm
end Siren
