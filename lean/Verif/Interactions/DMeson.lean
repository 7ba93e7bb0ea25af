import Verif.Interactions.BoxMuller
import Verif.Interactions.FourVector
import Mathlib.MeasureTheory.Integral.IntervalIntegral.Basic
import Mathlib.Analysis.SpecialFunctions.Log.Basic
import Mathlib.Analysis.SpecialFunctions.Integrals.Basic

set_option autoImplicit false
set_option linter.unusedSimpArgs false

/-!
# Energy loss of D mesons

Models `interactions/private/DMesonELoss.cxx`. Doubles are real numbers; `rombergIntegrate` is the exact integral.
-/

namespace Siren.Interactions.DMeson

open MeasureTheory Real Set ENNReal Siren Siren.Rk

/-! ### Model -/

/-- `z_min_`, `z_max_` (DMesonELoss.h:48-49), `z0`, `sigma` (DMesonELoss.cxx:130-131, 168-169). -/
noncomputable def zMin : ℝ := 1 / 1000
def zMax : ℝ := 1
noncomputable def z0 : ℝ := 0.56
noncomputable def sigma : ℝ := 0.2

/-- `TotalCrossSection` for a supported primary (DMesonELoss.cxx:97-108). -/
noncomputable def total (E : ℝ) : ℝ :=
  let l := log E / log 10
  (exp (1.891 + 0.205 * l) - 2.157 + 1.264 * l) * 1e-27

/-- The integrand (DMesonELoss.cxx:132-134). -/
noncomputable def bell (z : ℝ) : ℝ := exp (-((z - z0) ^ 2) / (2 * sigma ^ 2))

open Classical in
/-- `DifferentialCrossSection` (DMesonELoss.cxx:110-141) for a primary of energy `E` and mass `m` and a D meson of energy `Ef`. -/
noncomputable def diff (E m Ef : ℝ) : ℝ :=
  let z := 1 - Ef / E
  let zKin := 1 - m / E
  let zHi := if zMax < zKin then zMax else zKin
  if zHi ≤ zMin ∨ z < zMin ∨ z > zHi then 0
  else
    let unnormalized := ∫ x in zMin..zHi, bell x
    let normalization := total E / unnormalized
    normalization * bell z

open Classical in
/-- `FinalStateProbability` (DMesonELoss.cxx:224-232). -/
noncomputable def prob (E m Ef : ℝ) : ℝ := if diff E m Ef = 0 then 0 else diff E m Ef / total E

open Classical in
/-- `accept` (DMesonELoss.cxx:193-198). -/
noncomputable def accept (E m z : ℝ) : Bool :=
  let final := E * (1 - z)
  decide (z ≥ zMin) && decide (z ≤ zMax) && decide (final ^ 2 - m ^ 2 ≥ 0)

/-- The inelasticity of a trial (DMesonELoss.cxx:191). -/
noncomputable def trial (u1 u2 : ℝ) : ℝ := BoxMuller.draw sigma z0 u1 u2

/-- An inelasticity, `InjectionFailure`, or not enough random numbers in the list. -/
inductive Outcome where
  | ok (z : ℝ)
  | failure
  | more

open Classical in
/-- The loops (DMesonELoss.cxx:177-199) with the number of trials left; the random numbers are a list. -/
noncomputable def loop (E m : ℝ) : ℕ → List ℝ → Outcome
  | 0, _ => .failure
  | _ + 1, [] => .more
  | n + 1, [u1] => if u1 = 0 then loop E m (n + 1) [] else .more
  | n + 1, u1 :: u2 :: us =>
    if u1 = 0 then loop E m (n + 1) (u2 :: us)
    else if accept E m (trial u1 u2) then .ok (trial u1 u2)
    else loop E m n us
termination_by n us => n + us.length

open Classical in
/-- The choice of the inelasticity in `SampleFinalState` (DMesonELoss.cxx:162-199). -/
noncomputable def sample (E m : ℝ) (us : List ℝ) : Outcome := if E ≤ m then .failure else loop E m 1000 us

/-- The final state of `SampleFinalState` (DMesonELoss.cxx:193, 202-209): the D meson and the hadrons. -/
noncomputable def final (p : Vec3 ℝ) (m z : ℝ) : P4 × P4 :=
  let p1 := P4.ofMass p m
  let e := p1.e * (1 - z)
  let p3f := sqrt (e ^ 2 - m ^ 2)
  let p3i := sqrt (p.x ^ 2 + p.y ^ 2 + p.z ^ 2)
  let pf := P4.ofMass (Vec3.smul (p3f / p3i) p) m
  let eH := p1.e - pf.e
  (pf, P4.ofMass (Vec3.smul (eH / p3i) p) 0)

/-! ### Theorems -/

variable {E m z : ℝ}

theorem accept_iff (hm : 0 ≤ m) (hE : 0 < E) : accept E m z = true ↔ zMin ≤ z ∧ z ≤ 1 - m / E := by
  have key : z ≤ 1 - m / E ↔ m ≤ E * (1 - z) := by
    rw [le_sub_comm, div_le_iff₀ hE, mul_comm]
  unfold accept zMax
  simp only [Bool.and_eq_true, decide_eq_true_eq, ge_iff_le]
  rw [key]
  constructor
  · rintro ⟨⟨h1, h2⟩, h3⟩
    refine ⟨h1, ?_⟩
    have h0 : 0 ≤ E * (1 - z) := mul_nonneg hE.le (by linarith)
    nlinarith
  · rintro ⟨h1, h2⟩
    refine ⟨⟨h1, ?_⟩, by nlinarith⟩
    have : 0 ≤ E * (1 - z) := by linarith
    by_contra hc
    push Not at hc
    nlinarith

/-- C133, the outcome: an inelasticity returned is at least one in a thousand and leaves the D meson its mass. -/
theorem C133_accepted (hm : 0 ≤ m) (us : List ℝ) (h : sample E m us = .ok z) : m < E ∧ 1 / 1000 ≤ z ∧ m ≤ E * (1 - z) := by
  unfold sample at h
  split at h
  · cases h
  · next hE =>
    push Not at hE
    have hE0 : 0 < E := by linarith
    have : ∀ n us, loop E m n us = .ok z → accept E m z = true := by
      intro n us
      induction n, us using loop.induct E m with
      | case1 us => intro h; rw [loop] at h; cases h
      | case2 n => intro h; rw [loop] at h; cases h
      | case3 n ih => intro h; rw [loop, if_pos rfl] at h; exact ih h
      | case4 n u1 hu => intro h; rw [loop, if_neg hu] at h; cases h
      | case5 n u2 us ih => intro h; rw [loop, if_pos rfl] at h; exact ih h
      | case6 n u1 u2 us hu ha =>
        intro h
        rw [loop, if_neg hu, if_pos ha] at h
        cases h
        exact ha
      | case7 n u1 u2 us hu ha ih =>
        intro h
        rw [loop, if_neg hu, if_neg ha] at h
        exact ih h
    obtain ⟨h1, h2⟩ := (accept_iff hm hE0).mp (this _ _ h)
    refine ⟨hE, h1, ?_⟩
    rw [le_sub_comm, div_le_iff₀ hE0] at h2
    linarith

/-- The random numbers of some trials. -/
def numbers (l : List (ℝ × ℝ)) : List ℝ := l.flatMap (fun p => [p.1, p.2])

/-- C133, the loop: zeros are skipped as first number of a trial; the first of a thousand trials that is accepted is returned, and the
attempt fails if none is. -/
theorem C133_trials (hE : m < E) (l : List (ℝ × ℝ)) (hl : l.length = 1000) (h0 : ∀ p ∈ l, p.1 ≠ 0) (us : List ℝ) :
    sample E m (numbers l ++ us) = (match l.find? (fun p => accept E m (trial p.1 p.2)) with
      | some p => .ok (trial p.1 p.2)
      | none => .failure) := by
  unfold sample
  rw [if_neg (not_le.mpr hE), ← hl]
  clear hl
  induction l with
  | nil => simp [loop]
  | cons p l ih =>
    have hp := h0 p List.mem_cons_self
    have ih := ih (fun q hq => h0 q (List.mem_cons_of_mem _ hq))
    rw [List.length_cons, show numbers (p :: l) ++ us = p.1 :: p.2 :: (numbers l ++ us) by simp [numbers], loop, if_neg hp, List.find?_cons]
    by_cases ha : accept E m (trial p.1 p.2) = true
    · rw [if_pos ha, ha]
    · rw [if_neg ha, ih, Bool.not_eq_true _ |>.mp ha]

theorem C133_zero (n : ℕ) (us : List ℝ) : loop E m (n + 1) (0 :: us) = loop E m (n + 1) us := by
  cases us with
  | nil => simp [loop]
  | cons u us => rw [loop, if_pos rfl]

/-- C133, the final state: both particles fly along the primary, the D meson is on its mass shell with the share `1 - z` of the energy, the
hadrons are massless and have the rest, and the D meson loses energy. -/
theorem C133_final (p : Vec3 ℝ) (hp : 0 < Vec3.dot p p) (hm : 0 ≤ m) (hz : 1 / 1000 ≤ z) (hk : m ≤ (P4.ofMass p m).e * (1 - z)) :
    (final p m z).1.OnShell m ∧ (final p m z).2.OnShell 0 ∧ (final p m z).1.e = (P4.ofMass p m).e * (1 - z) ∧
    (final p m z).2.e = (P4.ofMass p m).e * z ∧ (final p m z).1.e + (final p m z).2.e = (P4.ofMass p m).e ∧
    (final p m z).1.e < (P4.ofMass p m).e ∧
    (∃ k, 0 ≤ k ∧ (final p m z).1.p = Vec3.smul k p) ∧ (∃ k, 0 < k ∧ (final p m z).2.p = Vec3.smul k p) := by
  have hE2 : (P4.ofMass p m).e * (P4.ofMass p m).e = m * m + Vec3.dot p p := by
    have := (onShell_ofMass p m).shell
    have e : (P4.ofMass p m).p = p := rfl
    rw [e] at this
    linarith
  have hEp : 0 < (P4.ofMass p m).e := by
    refine lt_of_le_of_ne (onShell_ofMass p m).pos ?_
    intro h
    rw [← h] at hE2
    nlinarith [mul_self_nonneg m]
  have h1 : (final p m z).1 = P4.ofMass (Vec3.smul (sqrt (((P4.ofMass p m).e * (1 - z)) ^ 2 - m ^ 2) / sqrt (p.x ^ 2 + p.y ^ 2 + p.z ^ 2)) p) m := rfl
  have h2 : (final p m z).2 = P4.ofMass (Vec3.smul (((P4.ofMass p m).e - (final p m z).1.e) / sqrt (p.x ^ 2 + p.y ^ 2 + p.z ^ 2)) p) 0 := rfl
  generalize (P4.ofMass p m).e = E at *
  have hd : p.x ^ 2 + p.y ^ 2 + p.z ^ 2 = Vec3.dot p p := by simp only [Vec3.dot]; ring
  rw [hd] at h1 h2
  have hs := Real.sq_sqrt hp.le
  have hsp := Real.sqrt_pos.mpr hp
  generalize Real.sqrt (Vec3.dot p p) = s at *
  have hdot : ∀ k : ℝ, Vec3.dot (Vec3.smul k p) (Vec3.smul k p) = k ^ 2 * s ^ 2 := by
    intro k; rw [hs]; simp only [Vec3.dot, Vec3.smul_x, Vec3.smul_y, Vec3.smul_z]; ring
  have hf : 0 ≤ (E * (1 - z)) ^ 2 - m ^ 2 := by nlinarith
  have hfs := Real.sq_sqrt hf
  have hf0 := Real.sqrt_nonneg ((E * (1 - z)) ^ 2 - m ^ 2)
  generalize Real.sqrt ((E * (1 - z)) ^ 2 - m ^ 2) = f at *
  have e1 : (final p m z).1.e = E * (1 - z) := by
    rw [h1]
    show Real.sqrt _ = _
    rw [hdot]
    have : m * m + (f / s) ^ 2 * s ^ 2 = (E * (1 - z)) ^ 2 := by
      rw [div_pow, div_mul_cancel₀ _ (by positivity)]
      linear_combination hfs
    rw [this, Real.sqrt_sq (by linarith)]
  have e2 : (final p m z).2.e = E * z := by
    rw [h2, e1]
    show Real.sqrt _ = _
    rw [hdot]
    have : 0 * 0 + ((E - E * (1 - z)) / s) ^ 2 * s ^ 2 = (E * z) ^ 2 := by
      rw [div_pow, div_mul_cancel₀ _ (by positivity)]
      ring
    rw [this, Real.sqrt_sq (mul_nonneg hEp.le (by linarith))]
  refine ⟨by rw [h1]; exact onShell_ofMass _ _, by rw [h2]; exact onShell_ofMass _ _, e1, e2, by rw [e1, e2]; ring, ?_, ?_, ?_⟩
  · rw [e1]; nlinarith
  · exact ⟨f / s, by positivity, by rw [h1]; rfl⟩
  · refine ⟨(E - E * (1 - z)) / s, div_pos ?_ hsp, by rw [h2, e1]; rfl⟩
    have : 0 < E * z := mul_pos hEp (by linarith)
    linarith

/-- C133, the total cross section is positive and rises with the energy above one GeV. -/
theorem C133_total (hE : 1 ≤ E) : 0 < total E ∧ ∀ E', E < E' → total E < total E' := by
  have h10 : 0 < log (10 : ℝ) := log_pos (by norm_num)
  have hl : 0 ≤ log E / log 10 := div_nonneg (log_nonneg hE) h10.le
  constructor
  · unfold total
    simp only
    have h1 : 1.891 + 0.205 * (log E / log 10) + 1 ≤ exp (1.891 + 0.205 * (log E / log 10)) := add_one_le_exp _
    have : 0 < exp (1.891 + 0.205 * (log E / log 10)) - 2.157 + 1.264 * (log E / log 10) := by norm_num at h1 ⊢; linarith
    positivity
  · intro E' h
    unfold total
    simp only
    have hll : log E / log 10 < log E' / log 10 := div_lt_div_of_pos_right (log_lt_log (by linarith) h) h10
    have : exp (1.891 + 0.205 * (log E / log 10)) < exp (1.891 + 0.205 * (log E' / log 10)) := exp_lt_exp.mpr (by linarith)
    refine mul_lt_mul_of_pos_right ?_ (by norm_num)
    linarith

/-! ### The law of the inelasticity -/

theorem bell_pos (x : ℝ) : 0 < bell x := exp_pos _

theorem bell_cont : Continuous bell := by unfold bell; fun_prop

theorem mass_pos (h : zMin < 1 - m / E) : 0 < ∫ x in zMin..(1 - m / E), bell x :=
  intervalIntegral.intervalIntegral_pos_of_pos (bell_cont.intervalIntegrable _ _) bell_pos h

theorem zHi_eq (hm : 0 ≤ m) (hE : 0 < E) : (if zMax < 1 - m / E then zMax else 1 - m / E) = 1 - m / E := by
  have : 0 ≤ m / E := by positivity
  unfold zMax
  rw [if_neg (by linarith)]

open Classical in
theorem prob_eq (hm : 0 ≤ m) (hE : 1 ≤ E) (h : zMin < 1 - m / E) (z : ℝ) :
    prob E m (E * (1 - z)) = if accept E m z then bell z / ∫ x in zMin..(1 - m / E), bell x else 0 := by
  have hE0 : 0 < E := by linarith
  have hz : 1 - E * (1 - z) / E = z := by field_simp; ring
  have ht := (C133_total hE).1
  have hN := mass_pos h
  have hacc := accept_iff (z := z) hm hE0
  have hd : diff E m (E * (1 - z)) = if accept E m z then total E / (∫ x in zMin..(1 - m / E), bell x) * bell z else 0 := by
    unfold diff
    simp only
    rw [zHi_eq hm hE0, hz]
    by_cases ha : accept E m z = true
    · obtain ⟨a, b⟩ := hacc.mp ha
      rw [if_pos ha, if_neg (by push Not; exact ⟨h, a, b⟩)]
    · rw [if_neg ha, if_pos]
      by_contra hc
      push Not at hc
      exact ha (hacc.mpr hc.2)
  unfold prob
  rw [hd]
  by_cases ha : accept E m z = true
  · rw [if_pos ha, if_pos ha]
    have hpos : 0 < total E / (∫ x in zMin..(1 - m / E), bell x) * bell z := mul_pos (div_pos ht hN) (bell_pos z)
    rw [if_neg hpos.ne']
    field_simp
  · rw [if_neg ha, if_neg ha, if_pos rfl]

/-- C133, the support: the density is positive exactly at the inelasticities the sampler accepts. -/
theorem C133_support (hm : 0 ≤ m) (hE : 1 ≤ E) (h : 1 / 1000 < 1 - m / E) (z : ℝ) :
    accept E m z = true ↔ 0 < prob E m (E * (1 - z)) := by
  rw [prob_eq hm hE h]
  by_cases ha : accept E m z = true
  · rw [if_pos ha]
    exact ⟨fun _ => div_pos (bell_pos z) (mass_pos h), fun _ => ha⟩
  · rw [if_neg ha]
    exact ⟨fun h => absurd h ha, fun h => absurd h (lt_irrefl _)⟩

open Classical in
/-- C133, closure: for two independent uniform random numbers, the inelasticity of an accepted trial has the law whose density is the
probability the code assigns to the final state. -/
theorem C133_closure (hm : 0 ≤ m) (hE : 1 ≤ E) (h : 1 / 1000 < 1 - m / E) (f : ℝ → ℝ≥0∞) (hf : Measurable f) :
    ∃ A : ℝ≥0∞, A ≠ 0 ∧ A ≠ ∞ ∧
    A = (∫⁻ u1 in Ioo (0 : ℝ) 1, ∫⁻ u2 in Ioo (0 : ℝ) 1, if accept E m (trial u1 u2) then 1 else 0) ∧
    (∫⁻ u1 in Ioo (0 : ℝ) 1, ∫⁻ u2 in Ioo (0 : ℝ) 1, if accept E m (trial u1 u2) then f (trial u1 u2) else 0) =
      A * ∫⁻ z : ℝ, ENNReal.ofReal (prob E m (E * (1 - z))) * f z := by
  have hE0 : 0 < E := by linarith
  have hN := mass_pos h
  have hpi := pi_pos
  have hK : 0 < sigma * sqrt (2 * π) := mul_pos (by unfold sigma; norm_num) (sqrt_pos.mpr (by linarith))
  have hset : ∀ z, accept E m z = true ↔ z ∈ Icc zMin (1 - m / E) := fun z => accept_iff hm hE0
  -- any function of an accepted trial
  have key : ∀ g : ℝ → ℝ≥0∞, Measurable g →
      (∫⁻ u1 in Ioo (0 : ℝ) 1, ∫⁻ u2 in Ioo (0 : ℝ) 1, if accept E m (trial u1 u2) then g (trial u1 u2) else 0) =
      ENNReal.ofReal ((∫ x in zMin..(1 - m / E), bell x) / (sigma * sqrt (2 * π))) * ∫⁻ z : ℝ, ENNReal.ofReal (prob E m (E * (1 - z))) * g z := by
    intro g hg
    have hmeas : Measurable (fun z => if accept E m z then g z else 0) := by
      have : (fun z => if accept E m z then g z else 0) = (Icc zMin (1 - m / E)).indicator g := by
        funext z
        simp only [indicator]
        by_cases hz : z ∈ Icc zMin (1 - m / E)
        · rw [if_pos ((hset z).mpr hz), if_pos hz]
        · rw [if_neg (fun h => hz ((hset z).mp h)), if_neg hz]
      rw [this]
      exact hg.indicator measurableSet_Icc
    have hlaw := BoxMuller.law (sigma := sigma) (by unfold sigma; norm_num) z0 (fun z => if accept E m z then g z else 0) hmeas
    unfold trial
    rw [hlaw, ← lintegral_const_mul' _ _ ofReal_ne_top]
    refine lintegral_congr fun z => ?_
    rw [prob_eq hm hE h]
    by_cases ha : accept E m z = true
    · rw [if_pos ha, if_pos ha, ← mul_assoc, ← ofReal_mul (div_pos hN hK).le]
      congr 2
      have hne := hN.ne'
      have hb : exp (-(z - z0) ^ 2 / (2 * sigma ^ 2)) = bell z := rfl
      rw [hb]
      generalize (∫ x in zMin..(1 - m / E), bell x) = N at *
      generalize sigma * sqrt (2 * π) = K at *
      have := hK.ne'
      field_simp
    · rw [if_neg ha, if_neg ha, ofReal_zero, zero_mul, mul_zero, mul_zero]
  -- the density integrates to one
  have hone : ∫⁻ z : ℝ, ENNReal.ofReal (prob E m (E * (1 - z))) * 1 = 1 := by
    have e : ∀ z : ℝ, ENNReal.ofReal (prob E m (E * (1 - z))) * 1 =
        (Icc zMin (1 - m / E)).indicator (fun z => ENNReal.ofReal (bell z / ∫ x in zMin..(1 - m / E), bell x)) z := by
      intro z
      rw [prob_eq hm hE h, mul_one, indicator]
      by_cases hz : z ∈ Icc zMin (1 - m / E)
      · rw [if_pos ((hset z).mpr hz), if_pos hz]
      · rw [if_neg (fun h => hz ((hset z).mp h)), if_neg hz, ofReal_zero]
    simp only [e]
    rw [lintegral_indicator measurableSet_Icc, setLIntegral_congr Ioc_ae_eq_Icc.symm]
    have hint : IntegrableOn (fun z => bell z / ∫ x in zMin..(1 - m / E), bell x) (Ioc zMin (1 - m / E)) :=
      ((bell_cont.div_const _).intervalIntegrable _ _).1
    rw [← ofReal_integral_eq_lintegral_ofReal hint (Filter.Eventually.of_forall fun z => (div_pos (bell_pos z) hN).le),
      ← intervalIntegral.integral_of_le (show zMin ≤ 1 - m / E from h.le), intervalIntegral.integral_div, div_self hN.ne', ofReal_one]
  refine ⟨ENNReal.ofReal ((∫ x in zMin..(1 - m / E), bell x) / (sigma * sqrt (2 * π))), ?_, ofReal_ne_top, ?_, key f hf⟩
  · rw [Ne, ofReal_eq_zero, not_le]; exact div_pos hN hK
  · rw [key (fun _ => 1) measurable_const, hone, mul_one]

/-- C133, the density is normalized. -/
theorem C133_normalized (hm : 0 ≤ m) (hE : 1 ≤ E) (h : 1 / 1000 < 1 - m / E) : ∫⁻ z : ℝ, ENNReal.ofReal (prob E m (E * (1 - z))) = 1 := by
  obtain ⟨A, h0, h1, h2, h3⟩ := C133_closure hm hE h (fun _ => 1) measurable_const
  simp only [mul_one] at h3
  rw [← h2] at h3
  have : A * 1 = A * ∫⁻ z : ℝ, ENNReal.ofReal (prob E m (E * (1 - z))) := by rw [mul_one]; exact h3
  exact ((ENNReal.mul_right_inj h0 h1).mp this).symm

/-- A D meson of a hundred GeV meets the hypotheses. -/
example : (0 : ℝ) ≤ 1.87 ∧ (1 : ℝ) ≤ 100 ∧ (1 : ℝ) / 1000 < 1 - 1.87 / 100 ∧ (1.87 : ℝ) ≤ 100 * (1 - 0.56) := by norm_num

/-- A trial that is accepted: the angle is a quarter turn, and the inelasticity the mean. -/
example : accept 100 1.87 (trial (1 / 2) (1 / 4)) = true := by
  have : trial (1 / 2) (1 / 4) = 0.56 := by
    unfold trial BoxMuller.draw z0
    rw [show 2 * π * (1 / 4) = π / 2 by ring, cos_pi_div_two]
    ring
  rw [this, accept_iff (by norm_num) (by norm_num)]
  unfold zMin
  norm_num

end Siren.Interactions.DMeson
