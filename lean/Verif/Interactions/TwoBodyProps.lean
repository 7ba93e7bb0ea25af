import Verif.Interactions.TwoBody
import Mathlib.MeasureTheory.Function.JacobianOneDim
import Mathlib.Analysis.Calculus.Deriv.Pow

set_option autoImplicit false

/-!
# C87, C88: two-body decays are physical and sampled with the reported density

Specification: `Physical` (four-momentum is conserved and both products are on their mass shells), `restCos` (the angle to the
direction of flight in the rest frame, from the Lorentz transformation).
-/

namespace Siren
namespace TwoBody

open Rk Signatures MeasureTheory Set
open Dis (uniform)
open scoped ENNReal

/-- **Specification.**  The energy of the primary. -/
noncomputable def Primary.e (r : Primary) : ℝ := Real.sqrt (r.mass ^ 2 + Vec3.dot r.p r.p)

/-- **Specification.**  Four-momentum is conserved; the products are on the mass shells of `mX` and `mY`, have energies that are
not negative, and carry these masses. -/
structure Physical (r : Primary) (mX mY : ℝ) (X Y : Product) : Prop where
  momentum : X.p + Y.p = r.p
  energy : X.e + Y.e = r.e
  shellX : X.e ^ 2 - Vec3.dot X.p X.p = mX ^ 2
  shellY : Y.e ^ 2 - Vec3.dot Y.p Y.p = mY ^ 2
  posX : 0 ≤ X.e
  posY : 0 ≤ Y.e
  massX : X.mass = some mX
  massY : Y.mass = some mY

/-- **Specification.**  Cosine of the angle between a product and the direction `n` of the primary, in the rest frame of the
primary: the longitudinal momentum `(E n·q - |p| q₀)/M` over the momentum `√(q*₀² - q²)`, where `q*₀ = (E q₀ - p·q)/M`. -/
noncomputable def restCos (r : Primary) (X : Product) : ℝ :=
  ((r.e * Vec3.dot (direction r.p) X.p - r.p.norm * X.e) / r.mass) /
    Real.sqrt (((r.e * X.e - Vec3.dot r.p X.p) / r.mass) ^ 2 - (X.e ^ 2 - Vec3.dot X.p X.p))

/-! ### Kinematics -/

theorem sin_arccos_sq {c : ℝ} (h1 : -1 ≤ c) (h2 : c ≤ 1) : Real.sin (Real.arccos c) ^ 2 = 1 - c ^ 2 := by
  have := Real.sin_sq_add_cos_sq (Real.arccos c)
  rw [Real.cos_arccos h1 h2] at this
  linarith

theorem atAngle_dot {k c : ℝ} (h1 : -1 ≤ c) (h2 : c ≤ 1) : Vec3.dot (atAngle k c) (atAngle k c) = k ^ 2 := by
  have := sin_arccos_sq h1 h2
  simp only [atAngle, Vec3.dot, Vec3.smul]
  linear_combination k ^ 2 * this

/-- The product after the rotations: its length, and its component along the direction of the primary. -/
theorem toLab_spec (p : Vec3 ℝ) {M : ℝ} (hM : 0 < M) (k : Vec3 ℝ) (m phi : ℝ) :
    ∃ K Q, toLab p M k m phi = some Q ∧ Vec3.dot K K = Vec3.dot k k ∧
      (Apart ⟨1, 0, 0⟩ (direction p) → Vec3.dot (direction p) K = k.x) ∧ Q.OnShell m ∧ Q.nonneg = true ∧
      Q.e = ((P4.ofMass p M).e * Real.sqrt (m * m + Vec3.dot k k) + p.norm * Vec3.dot (direction p) K) / M ∧
      Q.p = K + Vec3.smul (((P4.ofMass p M).e / M - 1) * Vec3.dot (direction p) K + Real.sqrt (m * m + Vec3.dot k k) * (p.norm / M))
        (direction p) := by
  set n := direction p with hn
  have hnu : Vec3.dot n n = 1 := direction_unit p
  have hxu : Vec3.dot (⟨1, 0, 0⟩ : Vec3 ℝ) ⟨1, 0, 0⟩ = 1 := by simp [Vec3.dot]
  set R := rotationBetween ⟨1, 0, 0⟩ n with hR
  set A := axisAngle n phi with hA
  have hRu : R.IsUnit := rotationBetween_unit _ _
  have hAu : A.IsUnit := axisAngle_unit hnu phi
  set K := rotApply A (rotApply R k) with hK
  have hKK : Vec3.dot K K = Vec3.dot k k := by rw [hK, rotApply_dot hAu, rotApply_dot hRu]
  obtain ⟨_, hl, _, hp⟩ := boosts_of (onShell_ofMass p M) hM
  set K4 : P4 := ((P4.ofMass k m).rotate R).rotate A with hK4
  have hshell : K4.OnShell m := by
    refine ⟨rfl, ?_, Real.sqrt_nonneg _⟩
    show Real.sqrt (m * m + Vec3.dot k k) * Real.sqrt (m * m + Vec3.dot k k) - Vec3.dot K K = m * m
    rw [hKK, Real.mul_self_sqrt (add_nonneg (mul_self_nonneg m) (Vec3.dot_self_nonneg k))]
    ring
  obtain ⟨Q, hQ, hQs, qe, qp⟩ := boost_spec hshell hp
  refine ⟨K, Q, ?_, hKK, ?_, hQs, ?_, ?_, ?_⟩
  · unfold toLab
    rw [hl]
    exact hQ
  · intro hap
    have hRx : rotApply R ⟨1, 0, 0⟩ = n := rotationBetween_spec hxu hnu hap
    have hAn : rotApply A n = n := axisAngle_axis hnu phi
    calc Vec3.dot n K = Vec3.dot (rotApply A n) K := by rw [hAn]
      _ = Vec3.dot n (rotApply R k) := by rw [hK, rotApply_dot hAu]
      _ = Vec3.dot (rotApply R ⟨1, 0, 0⟩) (rotApply R k) := by rw [hRx]
      _ = k.x := by rw [rotApply_dot hRu]; simp [Vec3.dot]
  · rw [P4.boost] at hQ
    have : K4.known = some m := rfl
    rw [this] at hQ
    simp only [Option.map_some, Option.some.injEq] at hQ
    rw [← hQ]
    simp [hK4, P4.rotate, P4.ofMass]
  · rw [qe]
    simp only [sub_add_cancel]
    show (P4.ofMass p M).e / M * Real.sqrt (m * m + Vec3.dot k k) - -p.norm / M * Vec3.dot n K = _
    field_simp
    ring
  · rw [qp]
    show K + Vec3.smul (((P4.ofMass p M).e / M - 1) * Vec3.dot n K - Real.sqrt (m * m + Vec3.dot k k) * (-p.norm / M)) n = _
    congr 2
    ring

/-- The invariant product with the primary, the longitudinal momentum in the rest frame, and the energy that is left. -/
theorem toLab_invariants (p : Vec3 ℝ) {M : ℝ} (hM : 0 < M) {K Qp : Vec3 ℝ} {E Ek Qe : ℝ}
    (hE : E * E - Vec3.dot p p = M * M)
    (he : Qe = (E * Ek + p.norm * Vec3.dot (direction p) K) / M)
    (hp : Qp = K + Vec3.smul ((E / M - 1) * Vec3.dot (direction p) K + Ek * (p.norm / M)) (direction p)) :
    E * Qe - Vec3.dot p Qp = M * Ek ∧ (E * Vec3.dot (direction p) Qp - p.norm * Qe) / M = Vec3.dot (direction p) K := by
  have hpn := norm_direction p
  have hnu := direction_unit p
  have hns := norm_sq p
  set n := direction p
  set l := p.norm
  have hdot : Vec3.dot n Qp = E / M * Vec3.dot n K + Ek * (l / M) := by
    rw [hp]
    have : ∀ t, Vec3.dot n (K + Vec3.smul t n) = Vec3.dot n K + t * Vec3.dot n n := by
      intro t
      simp only [Vec3.dot, Vec3.add_x, Vec3.add_y, Vec3.add_z, Vec3.smul]
      ring
    rw [this, hnu]
    ring
  have hpq : Vec3.dot p Qp = l * Vec3.dot n Qp := by
    conv_lhs => rw [← hpn]
    simp only [Vec3.dot, Vec3.smul]
    ring
  have hE' : E * E - l * l = M * M := by rw [hns]; exact hE
  constructor
  · rw [hpq, hdot, he]
    field_simp
    linear_combination Ek * hE'
  · rw [hdot, he]
    field_simp
    linear_combination Vec3.dot n K * hE'

/-- The energies and the momentum in the rest frame of a decay that is kinematically possible. -/
theorem rest_energies {M mX mY : ℝ} (hX : 0 ≤ mX) (hY : 0 ≤ mY) (hM : 0 < M) (h : mX + mY ≤ M) {EX : ℝ}
    (hE : EX = (M * M - mY * mY + mX * mX) / (2 * M)) :
    0 ≤ EX * EX - mX * mX ∧ 0 ≤ EX ∧ EX ≤ M ∧ (M - EX) ^ 2 - (EX * EX - mX * mX) = mY ^ 2 ∧
      (mX + mY < M → 0 < EX * EX - mX * mX) := by
  have h2 : EX * (2 * M) = M * M - mY * mY + mX * mX := by rw [hE]; field_simp
  have hk : (EX * EX - mX * mX) * (4 * M * M) = ((M - mX) ^ 2 - mY ^ 2) * ((M + mX) ^ 2 - mY ^ 2) := by
    have : EX * EX * (4 * M * M) = (EX * (2 * M)) * (EX * (2 * M)) := by ring
    calc (EX * EX - mX * mX) * (4 * M * M) = (EX * (2 * M)) * (EX * (2 * M)) - mX * mX * (4 * M * M) := by ring
      _ = _ := by rw [h2]; ring
  have hM2 : 0 < 4 * M * M := by positivity
  have f1 : 0 ≤ (M - mX) ^ 2 - mY ^ 2 := by nlinarith
  have f2 : 0 < (M + mX) ^ 2 - mY ^ 2 ∨ (M + mX) ^ 2 - mY ^ 2 = 0 := by
    rcases eq_or_lt_of_le (show (0 : ℝ) ≤ (M + mX) ^ 2 - mY ^ 2 by nlinarith) with e | e
    · exact Or.inr e.symm
    · exact Or.inl e
  refine ⟨?_, ?_, ?_, ?_, ?_⟩
  · have : 0 ≤ (EX * EX - mX * mX) * (4 * M * M) := by
      rw [hk]
      exact mul_nonneg f1 (by rcases f2 with e | e <;> linarith)
    exact nonneg_of_mul_nonneg_left this hM2
  · have : 0 ≤ EX * (2 * M) := by rw [h2]; nlinarith
    exact nonneg_of_mul_nonneg_left this (by linarith)
  · have : EX * (2 * M) ≤ M * (2 * M) := by rw [h2]; nlinarith
    exact le_of_mul_le_mul_right this (by linarith)
  · linear_combination -h2
  · intro hlt
    have : 0 < (EX * EX - mX * mX) * (4 * M * M) := by
      rw [hk]
      exact mul_pos (by nlinarith) (by nlinarith)
    exact (pos_iff_pos_of_mul_pos this).mpr hM2

/-- What is left of the primary when the first product has been placed. -/
theorem rest_of (p : Vec3 ℝ) {M mX mY : ℝ} (hX : 0 ≤ mX) (hY : 0 ≤ mY) (hM : 0 < M) (h : mX + mY ≤ M) {EX k c : ℝ}
    (hE : EX = (M * M - mY * mY + mX * mX) / (2 * M)) (hk : k = Real.sqrt (EX * EX - mX * mX)) (h1 : -1 ≤ c) (h2 : c ≤ 1)
    (phi : ℝ) :
    ∃ Q, toLab p M (atAngle k c) mX phi = some Q ∧ Q.OnShell mX ∧ Q.nonneg = true ∧
      0 ≤ (P4.ofMass p M).e - Q.e ∧
      ((P4.ofMass p M).e - Q.e) ^ 2 - Vec3.dot (p - Q.p) (p - Q.p) = mY ^ 2 ∧
      ((P4.ofMass p M).e * Q.e - Vec3.dot p Q.p = M * EX) ∧
      (Apart ⟨1, 0, 0⟩ (direction p) →
        ((P4.ofMass p M).e * Vec3.dot (direction p) Q.p - p.norm * Q.e) / M = k * c) := by
  obtain ⟨e1, e2, e3, e4, _⟩ := rest_energies hX hY hM h hE
  obtain ⟨K, Q, hQ, hKK, hap, hs, hnn, qe, qp⟩ := toLab_spec p hM (atAngle k c) mX phi
  have hk2 : k ^ 2 = EX * EX - mX * mX := by rw [hk, Real.sq_sqrt e1]
  rw [atAngle_dot h1 h2, hk2] at hKK qe qp
  have hsq : Real.sqrt (mX * mX + (EX * EX - mX * mX)) = EX := by
    rw [show mX * mX + (EX * EX - mX * mX) = EX * EX by ring, Real.sqrt_mul_self e2]
  rw [hsq] at qe qp
  have hP := onShell_ofMass p M
  obtain ⟨i1, i2⟩ := toLab_invariants p hM hP.shell qe qp
  set E := (P4.ofMass p M).e with hEd
  have hEp : E * E - Vec3.dot p p = M * M := hP.shell
  have hE0 : 0 ≤ E := hP.pos
  have hns := norm_sq p
  have hn0 := Vec3.norm_nonneg p
  have hEl : p.norm ≤ E := by
    by_contra hc
    push Not at hc
    nlinarith
  refine ⟨Q, hQ, hs, hnn, ?_, ?_, i1, fun ha => by rw [i2, hap ha]; simp [atAngle, Vec3.smul]⟩
  · have hd := dot_sq_le (k := K) (direction_unit p)
    rw [hKK] at hd
    set d := Vec3.dot (direction p) K
    have hY' : (M - EX) ^ 2 = EX * EX - mX * mX + mY ^ 2 := by linarith
    have hle : d * d ≤ (M - EX) * (M - EX) := by nlinarith [sq_nonneg mY]
    have hle2 : d ≤ M - EX := by
      have := Real.sqrt_le_sqrt hle
      rw [Real.sqrt_mul_self (by linarith : (0 : ℝ) ≤ M - EX), Real.sqrt_mul_self_eq_abs] at this
      exact (le_abs_self d).trans this
    have hkey : E * EX + p.norm * d ≤ E * M := by nlinarith
    rw [qe]
    have : (E * EX + p.norm * d) / M ≤ E := by rw [div_le_iff₀ hM]; exact hkey
    linarith
  · have hx := hs.shell
    have hexp : Vec3.dot (p - Q.p) (p - Q.p) = Vec3.dot p p - 2 * Vec3.dot p Q.p + Vec3.dot Q.p Q.p := by
      simp only [Vec3.dot, Vec3.sub_x, Vec3.sub_y, Vec3.sub_z]
      ring
    rw [hexp]
    linear_combination hEp + hx - 2 * i1 + e4

theorem primary_e (r : Primary) : (P4.ofMass r.p r.mass).e = r.e := by
  simp only [P4.ofMass, Primary.e, pow_two]

theorem primary_e_pos {r : Primary} (h : 0 < r.mass) : 0 < r.e :=
  Real.sqrt_pos.mpr (by have := Vec3.dot_self_nonneg r.p; positivity)

theorem uniform_mem {a b u : ℝ} (h : a ≤ b) (h0 : 0 ≤ u) (h1 : u ≤ 1) : a ≤ uniform a b u ∧ uniform a b u ≤ b := by
  unfold uniform
  rw [if_neg (not_lt.mpr h)]
  constructor <;> nlinarith

/-- The event of the samplers that write the second product as the difference of four-momenta. -/
theorem physical_sub {r : Primary} {mX mY : ℝ} (hY : 0 ≤ mY) {Q : P4} (hs : Q.OnShell mX)
    (h0 : 0 ≤ r.e - Q.e) (h1 : (r.e - Q.e) ^ 2 - Vec3.dot (r.p - Q.p) (r.p - Q.p) = mY ^ 2) :
    Physical r mX mY (Product.of Q) (Product.of ((P4.ofMass r.p r.mass).sub Q)) := by
  have hx := hs.shell
  have hsub : ((P4.ofMass r.p r.mass).sub Q).e = r.e - Q.e := by rw [← primary_e]; rfl
  refine ⟨?_, ?_, ?_, ?_, hs.pos, ?_, ?_, ?_⟩
  · show Q.p + (r.p - Q.p) = r.p
    ext <;> simp
  · show Q.e + ((P4.ofMass r.p r.mass).sub Q).e = r.e
    rw [hsub]; ring
  · show Q.e ^ 2 - Vec3.dot Q.p Q.p = mX ^ 2
    rw [pow_two, pow_two]; exact hx
  · show ((P4.ofMass r.p r.mass).sub Q).e ^ 2 - Vec3.dot (r.p - Q.p) (r.p - Q.p) = mY ^ 2
    rw [hsub]; exact h1
  · show 0 ≤ ((P4.ofMass r.p r.mass).sub Q).e
    rw [hsub]; exact h0
  · show Q.m = some mX
    simp only [P4.m, hs.mass]
  · show ((P4.ofMass r.p r.mass).sub Q).m = some mY
    have hq : ((P4.ofMass r.p r.mass).sub Q).e * ((P4.ofMass r.p r.mass).sub Q).e -
        Vec3.dot ((P4.ofMass r.p r.mass).sub Q).p ((P4.ofMass r.p r.mass).sub Q).p = mY * mY := by
      rw [hsub]
      show (r.e - Q.e) * (r.e - Q.e) - Vec3.dot (r.p - Q.p) (r.p - Q.p) = mY * mY
      rw [← pow_two, ← pow_two]; exact h1
    have hk : ((P4.ofMass r.p r.mass).sub Q).known = none := rfl
    simp only [P4.m, hk, hq]
    rw [if_neg (not_lt.mpr (mul_self_nonneg mY)), sqrtN, if_pos (mul_self_nonneg mY), Real.sqrt_mul_self hY]
    simp

/-- The event of the samplers that give the second product the momentum that is left and its mass. -/
theorem physical_left {r : Primary} {mX mY : ℝ} {Q : P4} (hs : Q.OnShell mX)
    (h0 : 0 ≤ r.e - Q.e) (h1 : (r.e - Q.e) ^ 2 - Vec3.dot (r.p - Q.p) (r.p - Q.p) = mY ^ 2) :
    Physical r mX mY (Product.of Q) (Product.of (P4.ofMass (r.p - Q.p) mY)) := by
  have hx := hs.shell
  have hsub : (P4.ofMass (r.p - Q.p) mY).e = r.e - Q.e := by
    show Real.sqrt _ = _
    rw [show mY * mY + Vec3.dot (r.p - Q.p) (r.p - Q.p) = (r.e - Q.e) * (r.e - Q.e) by
      rw [← pow_two, ← h1, ← pow_two]; ring, Real.sqrt_mul_self h0]
  refine ⟨?_, ?_, ?_, ?_, hs.pos, ?_, ?_, rfl⟩
  · show Q.p + (r.p - Q.p) = r.p
    ext <;> simp
  · show Q.e + (P4.ofMass (r.p - Q.p) mY).e = r.e
    rw [hsub]; ring
  · show Q.e ^ 2 - Vec3.dot Q.p Q.p = mX ^ 2
    rw [pow_two, pow_two]; exact hx
  · show (P4.ofMass (r.p - Q.p) mY).e ^ 2 - Vec3.dot (r.p - Q.p) (r.p - Q.p) = mY ^ 2
    rw [hsub]; exact h1
  · show 0 ≤ (P4.ofMass (r.p - Q.p) mY).e
    rw [hsub]; exact h0
  · show Q.m = some mX
    simp only [P4.m, hs.mass]

/-! ### The sampled cosines -/

/-- The distribution function of the cosine whose density is `(1 + α c) / 2`. -/
noncomputable def cdf (α c : ℝ) : ℝ := (c + 1) / 2 + α * (c ^ 2 - 1) / 4

/-- The formula for the cosine inverts the distribution function. -/
theorem cosine_spec {α X : ℝ} (h0 : α ≠ 0) (ha : |α| ≤ 1) (hX0 : 0 ≤ X) (hX1 : X ≤ 1) :
    ∃ c, cosine α X = some c ∧ -1 ≤ c ∧ c ≤ 1 ∧ cdf α c = X := by
  obtain ⟨a1, a2⟩ := abs_le.mp ha
  have hD : 1 - 2 * α * (1 - α / 2 - 2 * X) = (1 - α) ^ 2 * (1 - X) + (1 + α) ^ 2 * X := by ring
  have hD0 : 0 ≤ 1 - 2 * α * (1 - α / 2 - 2 * X) := by
    rw [hD]
    have : 0 ≤ 1 - X := by linarith
    positivity
  set root := Real.sqrt (1 - 2 * α * (1 - α / 2 - 2 * X)) with hr
  have hr0 : 0 ≤ root := Real.sqrt_nonneg _
  have hr2 : root ^ 2 = 1 - 2 * α * (1 - α / 2 - 2 * X) := Real.sq_sqrt hD0
  have hb : |root - 1| ≤ |α| := by
    rcases le_total 0 α with hα | hα
    · rw [abs_of_nonneg hα, abs_le]
      constructor <;> nlinarith
    · rw [abs_of_nonpos hα, abs_le]
      constructor <;> nlinarith
  have hc : |(root - 1) / α| ≤ 1 := by
    rw [abs_div, div_le_one (abs_pos.mpr h0)]
    exact hb
  refine ⟨(root - 1) / α, ?_, (abs_le.mp hc).1, (abs_le.mp hc).2, ?_⟩
  · simp only [cosine, sqrtN, if_pos hD0, Option.map_some, ← hr]
  · have hm : α * ((root - 1) / α) = root - 1 := by field_simp
    unfold cdf
    set c := (root - 1) / α
    have h1 : (α * c + 1) ^ 2 = 1 - 2 * α * (1 - α / 2 - 2 * X) := by rw [hm, ← hr2]; ring
    have h2 : α * (c + α * c ^ 2 / 2 - α / 2 + 1 - 2 * X) = 0 := by linear_combination h1 / 2
    rcases mul_eq_zero.mp h2 with h | h
    · exact absurd h h0
    · linear_combination h / 2

theorem signed_abs (α : ℝ) (r : Primary) : |signed α r| = |α| := by
  unfold signed
  split_ifs <;> simp

theorem getAlpha_le (M : ℝ) (X : Int) : |getAlpha M X| ≤ 1 := by
  have hv : ∀ m : ℝ, |(M * M - 2 * m * m) / (M * M + 2 * m * m)| ≤ 1 := by
    intro m
    have h1 := mul_self_nonneg M
    have h2 : 0 ≤ 2 * m * m := by nlinarith [mul_self_nonneg m]
    rw [abs_div]
    refine div_le_one_of_le₀ ?_ (abs_nonneg _)
    rw [abs_of_nonneg (a := M * M + 2 * m * m) (by linarith), abs_le]
    constructor <;> linarith
  unfold getAlpha
  simp only
  split_ifs <;> first | exact hv _ | norm_num

/-- The cosine drawn for a dipole decay. -/
theorem dipoleCosine_spec (nature : Nature) (r : Primary) {u : ℝ} (h0 : 0 ≤ u) (h1 : u ≤ 1) :
    ∃ c, dipoleCosine nature r u = some c ∧ -1 ≤ c ∧ c ≤ 1 ∧
      cdf (match nature with | .majorana => 0 | .dirac => signed 1 r) c = u := by
  cases nature
  · have ha := signed_abs 1 r
    rw [abs_one] at ha
    have hu : uniform 0 1 u = u := by simp [uniform]
    obtain ⟨c, e, b1, b2, hc⟩ := cosine_spec (α := signed 1 r) (X := u) (by intro h; rw [h] at ha; norm_num at ha) ha.le h0 h1
    exact ⟨c, by simp only [dipoleCosine, hu]; exact e, b1, b2, hc⟩
  · obtain ⟨b1, b2⟩ := uniform_mem (a := -1) (b := 1) (by norm_num) h0 h1
    exact ⟨_, rfl, b1, b2, by unfold cdf uniform; norm_num⟩

/-- The cosine drawn for the two-body modes of a heavy neutral lepton. -/
theorem hnlCosine_spec (nature : Nature) (M : ℝ) (X : Int) (r : Primary) {u : ℝ} (h0 : 0 ≤ u) (h1 : u ≤ 1) :
    ∃ c, hnlCosine nature M X r u = some c ∧ -1 ≤ c ∧ c ≤ 1 ∧
      ((nature = .majorana ∨ |getAlpha M X| < 1e-12) → cdf 0 c = u) ∧
      (¬ (nature = .majorana ∨ |getAlpha M X| < 1e-12) → cdf (signed (getAlpha M X) r) c = u) := by
  have ha := signed_abs (getAlpha M X) r
  unfold hnlCosine
  simp only [ha]
  split_ifs with h
  · obtain ⟨b1, b2⟩ := uniform_mem (a := -1) (b := 1) (by norm_num) h0 h1
    exact ⟨_, rfl, b1, b2, fun _ => by unfold cdf uniform; norm_num, fun hn => absurd h hn⟩
  · have hu : uniform 0 1 u = u := by simp [uniform]
    obtain ⟨c, e, b1, b2, hc⟩ := cosine_spec (α := signed (getAlpha M X) r) (X := u)
      (by
        intro hz
        rw [hz, abs_zero] at ha
        exact h (Or.inr (by rw [← ha]; norm_num)))
      (by rw [ha]; exact getAlpha_le M X) h0 h1
    exact ⟨c, by rw [hu]; exact e, b1, b2, fun hn => absurd hn h, fun _ => hc⟩

/-! ### C87 -/

/-- What the three samplers have in common. -/
theorem sampled {r : Primary} {mX mY : ℝ} (hX : 0 ≤ mX) (hY : 0 ≤ mY) (hM : 0 < r.mass) (h : mX + mY ≤ r.mass) {EX k c : ℝ}
    (hE : EX = (r.mass * r.mass - mY * mY + mX * mX) / (2 * r.mass)) (hk : k = Real.sqrt (EX * EX - mX * mX)) (h1 : -1 ≤ c)
    (h2 : c ≤ 1) (phi : ℝ) :
    ∃ Q, toLab r.p r.mass (atAngle k c) mX phi = some Q ∧ Q.OnShell mX ∧
      Physical r mX mY (Product.of Q) (Product.of ((P4.ofMass r.p r.mass).sub Q)) ∧
      Physical r mX mY (Product.of Q) (Product.of (P4.ofMass (r.p - Q.p) mY)) ∧
      (mX + mY < r.mass → Apart ⟨1, 0, 0⟩ (direction r.p) → restCos r (Product.of Q) = c) := by
  obtain ⟨Q, hQ, hs, _, h0, hsh, hi, hc⟩ := rest_of r.p hX hY hM h hE hk h1 h2 phi
  obtain ⟨e1, _, _, _, e5⟩ := rest_energies hX hY hM h hE
  rw [primary_e] at h0 hsh hi hc
  refine ⟨Q, hQ, hs, physical_sub hY hs h0 hsh, physical_left hs h0 hsh, fun hlt ha => ?_⟩
  have hx := hs.shell
  have hk0 : 0 < k := by rw [hk]; exact Real.sqrt_pos.mpr (e5 hlt)
  show ((r.e * Vec3.dot (direction r.p) Q.p - r.p.norm * Q.e) / r.mass) /
    Real.sqrt (((r.e * Q.e - Vec3.dot r.p Q.p) / r.mass) ^ 2 - (Q.e ^ 2 - Vec3.dot Q.p Q.p)) = c
  rw [hc ha, hi, mul_div_cancel_left₀ _ hM.ne', pow_two, pow_two Q.e, hx, ← hk]
  field_simp

theorem ewMass_nonneg {p : Int} {m : ℝ} (hp : ewMass p = some m) : 0 ≤ m := by
  unfold ewMass at hp
  split_ifs at hp <;> (have e := Option.some.inj hp; subst e; norm_num)

/-- **C87.**  Weak bosons: for every pair of products the boson is heavy enough for, four-momentum is conserved and both products
are on their mass shells. -/
theorem C87_boson (r : Primary) (secondaries : List Int) (a b : Int) (rest : List Int) (hl : secondaries = a :: b :: rest)
    {mX mY : ℝ} (ha : ewMass a = some mX) (hb : ewMass b = some mY) (hM : 0 < r.mass) (h : mX + mY ≤ r.mass)
    {u v : ℝ} (h0 : 0 ≤ u) (h1 : u ≤ 1) :
    ∃ X Y, boson r secondaries u v = .ok (some (X, Y)) ∧ Physical r mX mY X Y := by
  obtain ⟨b1, b2⟩ := uniform_mem (a := -1) (b := 1) (by norm_num) h0 h1
  obtain ⟨e1, _⟩ := rest_energies (ewMass_nonneg ha) (ewMass_nonneg hb) hM h rfl
  obtain ⟨Q, hQ, _, hp, _⟩ := sampled (ewMass_nonneg ha) (ewMass_nonneg hb) hM h rfl rfl b1 b2 (uniform 0 (2.0 * Real.pi) v)
  refine ⟨Product.of Q, Product.of ((P4.ofMass r.p r.mass).sub Q), ?_, hp⟩
  subst hl
  simp only [boson, ha, hb, bosonSample]
  rw [sqrtN, if_pos e1, Option.bind_some, hQ, Option.map_some]

/-- **C87.**  Dipole decay into a photon and a neutrino. -/
theorem C87_dipole (nature : Nature) (r : Primary) (hM : 0 < r.mass) {u v : ℝ} (h0 : 0 ≤ u) (h1 : u ≤ 1) :
    ∃ X Y, dipoleSample nature r.mass r u v = some (X, Y) ∧ Physical r 0 0 X Y := by
  obtain ⟨c, hc, b1, b2, _⟩ := dipoleCosine_spec nature r h0 h1
  have hk : r.mass / 2 = Real.sqrt (((r.mass * r.mass - 0 * 0 + 0 * 0) / (2 * r.mass)) *
      ((r.mass * r.mass - 0 * 0 + 0 * 0) / (2 * r.mass)) - 0 * 0) := by
    rw [show (r.mass * r.mass - 0 * 0 + 0 * 0) / (2 * r.mass) = r.mass / 2 by field_simp; ring, mul_zero, sub_zero,
      Real.sqrt_mul_self (by linarith)]
  obtain ⟨Q, hQ, _, _, hp, _⟩ := sampled (mX := 0) (mY := 0) le_rfl le_rfl hM (by linarith) rfl hk b1 b2
    (uniform 0 (2.0 * Real.pi) v)
  refine ⟨Product.of Q, Product.of (P4.ofMass (r.p - Q.p) 0), ?_, hp⟩
  simp only [dipoleSample, hc, Option.bind_some, hQ, Option.map_some]
  rfl

/-- **C87.**  Two-body modes of a heavy neutral lepton. -/
theorem C87_hnl (nature : Nature) (X : Int) (r : Primary) {mX mLep : ℝ} (hX : 0 ≤ mX) (hL : 0 ≤ mLep) (hM : 0 < r.mass)
    (h : mX + mLep ≤ r.mass) {u v : ℝ} (h0 : 0 ≤ u) (h1 : u ≤ 1) :
    ∃ A B, hnlSample nature r.mass X mX mLep r u v = some (A, B) ∧ Physical r mX mLep A B := by
  obtain ⟨c, hc, b1, b2, _⟩ := hnlCosine_spec nature r.mass X r h0 h1
  obtain ⟨e1, _⟩ := rest_energies hX hL hM h rfl
  obtain ⟨Q, hQ, _, _, hp, _⟩ := sampled hX hL hM h rfl rfl b1 b2 (uniform 0 (2.0 * Real.pi) v)
  refine ⟨Product.of Q, Product.of (P4.ofMass (r.p - Q.p) mLep), ?_, hp⟩
  have he : (r.mass * r.mass + mX * mX - mLep * mLep) / (2 * r.mass) =
      (r.mass * r.mass - mLep * mLep + mX * mX) / (2 * r.mass) := by congr 1; ring
  simp only [hnlSample, hc, Option.bind_some, he, pow_two]
  rw [sqrtN, if_pos e1, Option.bind_some, hQ, Option.map_some]
  rfl

/-- A muon pair from a Z boson of 91.1876 GeV in flight, and the photon of a dipole decay in flight. -/
example : ∃ r : Primary, 0 < r.mass ∧ r.p ≠ 0 ∧ ewMass 13 = some 0.105658374 ∧ ewMass (-13) = some 0.105658374 ∧
    0.105658374 + 0.105658374 ≤ r.mass := by
  refine ⟨⟨23, ⟨3, 4, 0⟩, 91.1876, 0⟩, by norm_num, ?_, ?_, ?_, by norm_num⟩
  · intro h
    have := congrArg Vec3.x h
    norm_num at this
  · simp (decide := true) only [ewMass, if_true, if_false]
  · simp (decide := true) only [ewMass, if_true, if_false]

/-! ### C88 -/

/-- **Specification.**  The cosine of an event. -/
noncomputable def eventCos (r : Primary) (s : Option (Product × Product)) : ℝ :=
  match s with
  | some (X, _) => restCos r X
  | none => 0

/-- The cosine the code computes from a record is the one of the specification, for a primary in motion. -/
theorem restCosine_eq {r : Primary} (hM : 0 < r.mass) (hp : r.p ≠ 0) {X : Product} {m : ℝ}
    (hs : X.e ^ 2 - Vec3.dot X.p X.p = m ^ 2) (h0 : 0 ≤ X.e) : restCosine r X.p m = some (restCos r X) := by
  obtain ⟨hr, _, hpr, _⟩ := boosts_of (onShell_ofMass r.p r.mass) hM
  obtain ⟨R, hR, hRs, re, rp⟩ := boost_spec (onShell_ofMass X.p m) hpr
  have he : (P4.ofMass X.p m).e = X.e := by
    show Real.sqrt _ = _
    rw [show m * m + Vec3.dot X.p X.p = X.e * X.e by rw [← pow_two, ← hs]; ring, Real.sqrt_mul_self h0]
  simp only [restCosine, hr, Option.bind_some, hR, Option.map_some, Option.some.injEq]
  simp only [he, primary_e, sub_add_cancel] at re rp
  have hxp : (P4.ofMass X.p m).p = X.p := rfl
  have hrp : (P4.ofMass r.p r.mass).p = r.p := rfl
  rw [hxp, hrp] at re rp
  set n := direction r.p with hn
  have hnu : Vec3.dot n n = 1 := direction_unit r.p
  have hns : Vec3.smul r.p.norm n = r.p := norm_direction r.p
  have hdp : ∀ w : Vec3 ℝ, Vec3.dot r.p w = r.p.norm * Vec3.dot n w := by
    intro w
    conv_lhs => rw [← hns]
    simp only [Vec3.dot, Vec3.smul]; ring
  have hre : R.e = (r.e * X.e - Vec3.dot r.p X.p) / r.mass := by rw [re, hdp]; field_simp
  have hrn : Vec3.dot n R.p = (r.e * Vec3.dot n X.p - r.p.norm * X.e) / r.mass := by
    rw [rp]
    have : Vec3.dot n (X.p + Vec3.smul ((r.e / r.mass - 1) * Vec3.dot n X.p - X.e * (r.p.norm / r.mass)) n) =
        Vec3.dot n X.p + ((r.e / r.mass - 1) * Vec3.dot n X.p - X.e * (r.p.norm / r.mass)) * Vec3.dot n n := by
      simp only [Vec3.dot, Vec3.add_x, Vec3.add_y, Vec3.add_z, Vec3.smul]; ring
    rw [this, hnu]
    field_simp
    ring
  have hRn : R.p.norm = Real.sqrt (((r.e * X.e - Vec3.dot r.p X.p) / r.mass) ^ 2 - (X.e ^ 2 - Vec3.dot X.p X.p)) := by
    rw [← hre, hs]
    have : R.e ^ 2 - m ^ 2 = Vec3.dot R.p R.p := by
      have := hRs.shell
      linear_combination this
    rw [this]; rfl
  have hpn := norm_pos hp
  have hnd : normalizeOrZero r.p = n := by
    rw [normalizeOrZero, if_neg hpn.ne', hn, direction, if_pos hpn]
  unfold restCos
  rw [← hn, ← hrn, ← hRn, hnd, normalizeOrZero]
  by_cases hz : R.p.norm = 0
  · rw [if_pos hz, hz, div_zero, eq_zero_of_norm hz]
    simp [Vec3.dot]
  · rw [if_neg hz]
    simp only [Vec3.normalize, Vec3.dot]
    field_simp

theorem cdf_deriv (α c : ℝ) : HasDerivAt (cdf α) ((1 + α * c) / 2) c := by
  have h1 : HasDerivAt (fun x : ℝ => (x + 1) / 2) (1 / 2) c := ((hasDerivAt_id c).add_const 1).div_const 2
  have h2 : HasDerivAt (fun x : ℝ => α * (x ^ 2 - 1) / 4) (α * (2 * c) / 4) c := by
    have := (((hasDerivAt_id c).pow 2).sub_const 1).const_mul α
    have := this.div_const 4
    simpa using this
  have := h1.add h2
  have e : (1 + α * c) / 2 = 1 / 2 + α * (2 * c) / 4 := by ring
  rw [e]
  exact this

theorem cdf_inj {α : ℝ} (ha : |α| ≤ 1) : InjOn (cdf α) (Icc (-1) 1) := by
  obtain ⟨a1, a2⟩ := abs_le.mp ha
  intro x hx y hy h
  unfold cdf at h
  by_contra hne
  have h2 : (x - y) * (2 + α * (x + y)) = 0 := by linear_combination 4 * h
  rcases mul_eq_zero.mp h2 with h3 | h3
  · exact hne (by linarith)
  · obtain ⟨x1, x2⟩ := hx
    obtain ⟨y1, y2⟩ := hy
    rcases lt_or_gt_of_ne hne with hl | hl
    · rcases le_total 0 α with hα | hα <;> nlinarith
    · rcases le_total 0 α with hα | hα <;> nlinarith

/-- The cosine that inverts the distribution function with a uniform number has the density `(1 + α c) / 2`. -/
theorem law {α : ℝ} (ha : |α| ≤ 1) {f : ℝ → ℝ} (hf : ∀ u ∈ Icc (0 : ℝ) 1, f u ∈ Icc (-1 : ℝ) 1 ∧ cdf α (f u) = u) (g : ℝ → ℝ≥0∞) :
    ∫⁻ u in Icc 0 1, g (f u) = ∫⁻ c in Icc (-1) 1, g c * ENNReal.ofReal ((1 + α * c) / 2) := by
  obtain ⟨a1, a2⟩ := abs_le.mp ha
  have hmaps : ∀ c ∈ Icc (-1 : ℝ) 1, cdf α c ∈ Icc (0 : ℝ) 1 := by
    rintro c ⟨c1, c2⟩
    unfold cdf
    have : 0 ≤ 1 - c ^ 2 := by nlinarith
    constructor <;> nlinarith
  have himg : cdf α '' Icc (-1) 1 = Icc 0 1 := by
    apply Subset.antisymm
    · rintro _ ⟨c, hc, rfl⟩
      exact hmaps c hc
    · intro u hu
      exact ⟨f u, (hf u hu).1, (hf u hu).2⟩
  have := lintegral_image_eq_lintegral_abs_deriv_mul (s := Icc (-1 : ℝ) 1) measurableSet_Icc
    (fun c _ => (cdf_deriv α c).hasDerivWithinAt) (cdf_inj ha) (fun u => g (f u))
  rw [himg] at this
  rw [this]
  refine setLIntegral_congr_fun measurableSet_Icc fun c hc => ?_
  have hfc : f (cdf α c) = c :=
    cdf_inj ha (hf _ (hmaps c hc)).1 hc (hf _ (hmaps c hc)).2
  obtain ⟨c1, c2⟩ := hc
  have hpos : 0 ≤ (1 + α * c) / 2 := by
    rcases le_total 0 α with hα | hα <;> nlinarith
  simp only [hfc, abs_of_nonneg hpos]
  rw [mul_comm]

/-- **Specification.**  Events are drawn with the density that is reported: for every azimuth, the cosines of the events have, with
respect to the uniform random number, a density `ρ` on `[-1, 1]`, and `ρ` is what `reported` returns for each event. -/
def DrawnAsReported (r : Primary) (sample : ℝ → ℝ → Option (Product × Product)) (reported : Product → Option ℝ) : Prop :=
  ∃ ρ : ℝ → ℝ,
    (∀ u ∈ Icc (0 : ℝ) 1, ∀ v, ∃ X Y, sample u v = some (X, Y) ∧ restCos r X ∈ Icc (-1 : ℝ) 1 ∧
      reported X = some (ρ (restCos r X))) ∧
    ∀ v (g : ℝ → ℝ≥0∞), ∫⁻ u in Icc 0 1, g (eventCos r (sample u v)) = ∫⁻ c in Icc (-1) 1, g c * ENNReal.ofReal (ρ c)

theorem drawn {r : Primary} {sample : ℝ → ℝ → Option (Product × Product)} {reported : Product → Option ℝ} {α : ℝ} (ha : |α| ≤ 1)
    (hs : ∀ u ∈ Icc (0 : ℝ) 1, ∀ v, ∃ X Y, sample u v = some (X, Y) ∧ restCos r X ∈ Icc (-1 : ℝ) 1 ∧ cdf α (restCos r X) = u ∧
      reported X = some ((1 + α * restCos r X) / 2)) : DrawnAsReported r sample reported := by
  refine ⟨fun c => (1 + α * c) / 2, ?_, ?_⟩
  · intro u hu v
    obtain ⟨X, Y, h1, h2, _, h3⟩ := hs u hu v
    exact ⟨X, Y, h1, h2, h3⟩
  · intro v g
    refine law ha (f := fun u => eventCos r (sample u v)) (fun u hu => ?_) g
    obtain ⟨X, Y, h1, h2, h3, _⟩ := hs u hu v
    simp only [h1, eventCos]
    exact ⟨h2, h3⟩

theorem quotient_of {a td : ℝ} (htd : td ≠ 0) : quotient (td * a) td = a := by
  unfold quotient
  by_cases h : td * a = 0
  · rw [if_pos h]
    exact ((mul_eq_zero.mp h).resolve_left htd).symm
  · rw [if_neg h, if_neg htd, mul_div_cancel_left₀ _ htd]

/-- **C88.**  Weak bosons: every direction is equally likely, and the density reported for every event is one half. -/
theorem C88_boson (r : Primary) (a b : Int) (rest : List Int) {mX mY : ℝ} (ha : ewMass a = some mX) (hb : ewMass b = some mY)
    (hM : 0 < r.mass) (h : mX + mY < r.mass) (hap : Apart ⟨1, 0, 0⟩ (direction r.p)) {td : ℝ}
    (htd : ewWidth r.mass ⟨r.type, decayTarget, a :: b :: rest⟩ = .ok td) (hne : td ≠ 0) :
    bosonProbability r (a :: b :: rest) = .ok (1 / 2) ∧
    DrawnAsReported r (bosonSample r mX mY) (fun _ => some (1 / 2)) ∧
    ∀ u v, boson r (a :: b :: rest) u v = .ok (bosonSample r mX mY u v) := by
  refine ⟨?_, ?_, fun u v => by simp only [boson, ha, hb]⟩
  · unfold bosonProbability
    rw [htd]
    simp only [Res.ok_bind, Res.pure_eq]
    rw [mul_comm, quotient_of hne]
  · refine drawn (α := 0) (by simp) fun u hu v => ?_
    obtain ⟨b1, b2⟩ := uniform_mem (a := -1) (b := 1) (by norm_num) hu.1 hu.2
    obtain ⟨e1, _⟩ := rest_energies (ewMass_nonneg ha) (ewMass_nonneg hb) hM h.le rfl
    obtain ⟨Q, hQ, _, _, _, hc⟩ := sampled (ewMass_nonneg ha) (ewMass_nonneg hb) hM h.le rfl rfl b1 b2 (uniform 0 (2.0 * Real.pi) v)
    refine ⟨Product.of Q, Product.of ((P4.ofMass r.p r.mass).sub Q), ?_, ?_, ?_, by simp⟩
    · simp only [bosonSample]
      rw [sqrtN, if_pos e1, Option.bind_some, hQ, Option.map_some]
    · rw [hc h hap]; exact ⟨b1, b2⟩
    · rw [hc h hap]; unfold cdf uniform; norm_num

/-- **C88.**  Dipole decays of a heavy neutral lepton in motion. -/
theorem C88_dipole (nature : Nature) (r : Primary) (hM : 0 < r.mass) (hp : r.p ≠ 0) (hap : Apart ⟨1, 0, 0⟩ (direction r.p))
    {td : ℝ} (htd : td ≠ 0) :
    DrawnAsReported r (dipoleSample nature r.mass r) (fun X => X.mass.bind fun m => dipoleProbability nature r td X.p m) := by
  have hα : |(match nature with | .majorana => 0 | .dirac => signed 1 r : ℝ)| ≤ 1 := by
    cases nature
    · simp only [signed_abs, abs_one, le_refl]
    · simp
  refine drawn hα fun u hu v => ?_
  obtain ⟨c, hc, b1, b2, hcdf⟩ := dipoleCosine_spec nature r hu.1 hu.2
  have hk : r.mass / 2 = Real.sqrt (((r.mass * r.mass - 0 * 0 + 0 * 0) / (2 * r.mass)) *
      ((r.mass * r.mass - 0 * 0 + 0 * 0) / (2 * r.mass)) - 0 * 0) := by
    rw [show (r.mass * r.mass - 0 * 0 + 0 * 0) / (2 * r.mass) = r.mass / 2 by field_simp; ring, mul_zero, sub_zero,
      Real.sqrt_mul_self (by linarith)]
  obtain ⟨Q, hQ, _, _, hph, hcos⟩ := sampled (mX := 0) (mY := 0) le_rfl le_rfl hM (by linarith) rfl hk b1 b2
    (uniform 0 (2.0 * Real.pi) v)
  have hco := hcos (by linarith) hap
  refine ⟨Product.of Q, Product.of (P4.ofMass (r.p - Q.p) 0), ?_, ?_, ?_, ?_⟩
  · simp only [dipoleSample, hc, Option.bind_some, hQ, Option.map_some]
    rfl
  · rw [hco]; exact ⟨b1, b2⟩
  · rw [hco]; exact hcdf
  · have hrc := restCosine_eq hM hp hph.shellX hph.posX
    simp only [hph.massX, Option.bind_some]
    cases nature
    · simp only [dipoleProbability, dipoleDifferential, hrc, Option.map_some, Option.some.injEq]
      rw [show td / 2 * (1 + signed 1 r * restCos r (Product.of Q)) = td * ((1 + signed 1 r * restCos r (Product.of Q)) / 2) by ring,
        quotient_of htd]
    · simp only [dipoleProbability, dipoleDifferential, Option.map_some, Option.some.injEq]
      rw [show td / 2 = td * (1 / 2) by ring, quotient_of htd]
      ring

/-- **C88.**  Two-body modes of a heavy neutral lepton in motion; the asymmetry parameter of the mode is zero or not smaller than the
threshold below which the sampler is isotropic. -/
theorem C88_hnl (nature : Nature) (X : Int) (r : Primary) {mX mLep : ℝ} (hX : 0 ≤ mX) (hL : 0 ≤ mLep) (hM : 0 < r.mass)
    (h : mX + mLep < r.mass) (hp : r.p ≠ 0) (hap : Apart ⟨1, 0, 0⟩ (direction r.p))
    (hα : getAlpha r.mass X = 0 ∨ 1e-12 ≤ |getAlpha r.mass X|) {td : ℝ} (htd : td ≠ 0) :
    DrawnAsReported r (hnlSample nature r.mass X mX mLep r)
      (fun A => A.mass.bind fun m => hnlProbability nature r.mass X r td A.p m) := by
  have hle : |(match nature with | .majorana => 0 | .dirac => signed (getAlpha r.mass X) r : ℝ)| ≤ 1 := by
    cases nature
    · simp only [signed_abs]; exact getAlpha_le _ _
    · simp
  refine drawn hle fun u hu v => ?_
  obtain ⟨c, hc, b1, b2, hu1, hu2⟩ := hnlCosine_spec nature r.mass X r hu.1 hu.2
  obtain ⟨e1, _⟩ := rest_energies hX hL hM h.le rfl
  obtain ⟨Q, hQ, _, _, hph, hcos⟩ := sampled hX hL hM h.le rfl rfl b1 b2 (uniform 0 (2.0 * Real.pi) v)
  have hco := hcos h hap
  have he : (r.mass * r.mass + mX * mX - mLep * mLep) / (2 * r.mass) =
      (r.mass * r.mass - mLep * mLep + mX * mX) / (2 * r.mass) := by congr 1; ring
  refine ⟨Product.of Q, Product.of (P4.ofMass (r.p - Q.p) mLep), ?_, ?_, ?_, ?_⟩
  · simp only [hnlSample, hc, Option.bind_some, he, pow_two]
    rw [sqrtN, if_pos e1, Option.bind_some, hQ, Option.map_some]
    rfl
  · rw [hco]; exact ⟨b1, b2⟩
  · rw [hco]
    cases nature
    · simp only
      by_cases hs : |getAlpha r.mass X| < 1e-12
      · have hz : getAlpha r.mass X = 0 := hα.resolve_right (not_le.mpr hs)
        have hz' : signed (getAlpha r.mass X) r = 0 := by
          have := signed_abs (getAlpha r.mass X) r
          rw [hz, abs_zero] at this
          rw [hz]
          exact abs_eq_zero.mp this
        rw [hz']
        exact hu1 (Or.inr hs)
      · exact hu2 (by simp [hs])
    · exact hu1 (Or.inl rfl)
  · have hrc := restCosine_eq hM hp hph.shellX hph.posX
    simp only [hph.massX, Option.bind_some]
    cases nature
    · simp only [hnlProbability, hnlDifferential, hrc, Option.map_some, Option.some.injEq]
      rw [show ∀ z : ℝ, td / 2 * (1 + z) = td * ((1 + z) / 2) by intro z; ring, quotient_of htd]
    · simp only [hnlProbability, hnlDifferential, Option.map_some, Option.some.injEq]
      rw [show td / 2 = td * (1 / 2) by ring, quotient_of htd]
      ring

/-- **C88** does not hold for a primary at rest: the sampler prefers one side of the x axis, the reported density is one half for
every event. The Dirac lepton of mass 2 below is at rest; its dipole decays are drawn with the density `(1 - c) / 2` in the cosine
to the x axis. -/
theorem C88_rest_fails : ∃ r : Primary, 0 < r.mass ∧ r.p = 0 ∧
    (∀ u ∈ Icc (0 : ℝ) 1, ∀ v, ∃ X Y, dipoleSample .dirac r.mass r u v = some (X, Y) ∧
      ∀ td ≠ 0, dipoleProbability .dirac r td X.p 0 = some (1 / 2)) ∧
    ∀ v (g : ℝ → ℝ≥0∞), ∫⁻ u in Icc 0 1, g (eventCos r (dipoleSample .dirac r.mass r u v)) =
      ∫⁻ c in Icc (-1) 1, g c * ENNReal.ofReal ((1 - c) / 2) := by
  set r : Primary := ⟨n4, 0, 2, 1⟩ with hr
  have hn : (0 : Vec3 ℝ).norm = 0 := by simp [Vec3.norm, Vec3.dot]
  have hd : direction r.p = ⟨1, 0, 0⟩ := by
    rw [direction, if_neg]
    show ¬ (0 : Vec3 ℝ).norm > 0
    rw [hn]; exact lt_irrefl _
  have hap : Apart ⟨1, 0, 0⟩ (direction r.p) := by
    rw [hd]
    constructor <;> intro h <;> simp [Vec3.dot] at h ⊢
    norm_num at h
  have hs1 : signed 1 r = -1 := by
    have : (0 : ℝ) ≤ r.helicity := by simp [hr]
    simp [signed, hr]
  have hM : 0 < r.mass := by simp [hr]
  have hall : ∀ u ∈ Icc (0 : ℝ) 1, ∀ v, ∃ X Y, dipoleSample .dirac r.mass r u v = some (X, Y) ∧ restCos r X ∈ Icc (-1 : ℝ) 1 ∧
      cdf (-1) (restCos r X) = u ∧ ∀ td ≠ 0, dipoleProbability .dirac r td X.p 0 = some (1 / 2) := by
    intro u hu v
    obtain ⟨c, hc, b1, b2, hcdf⟩ := dipoleCosine_spec .dirac r hu.1 hu.2
    have hk : r.mass / 2 = Real.sqrt (((r.mass * r.mass - 0 * 0 + 0 * 0) / (2 * r.mass)) *
        ((r.mass * r.mass - 0 * 0 + 0 * 0) / (2 * r.mass)) - 0 * 0) := by
      rw [show (r.mass * r.mass - 0 * 0 + 0 * 0) / (2 * r.mass) = r.mass / 2 by field_simp; ring, mul_zero, sub_zero,
        Real.sqrt_mul_self (by linarith)]
    obtain ⟨Q, hQ, _, _, hph, hcos⟩ := sampled (mX := 0) (mY := 0) le_rfl le_rfl hM (by linarith) rfl hk b1 b2
      (uniform 0 (2.0 * Real.pi) v)
    have hco := hcos (by linarith) hap
    refine ⟨Product.of Q, Product.of (P4.ofMass (r.p - Q.p) 0), ?_, ?_, ?_, ?_⟩
    · simp only [dipoleSample, hc, Option.bind_some, hQ, Option.map_some]
      rfl
    · rw [hco]; exact ⟨b1, b2⟩
    · rw [hco, ← hs1]; exact hcdf
    · intro td htd
      obtain ⟨hrb, _, hpr, _⟩ := boosts_of (onShell_ofMass r.p r.mass) hM
      obtain ⟨R, hR, -, -, -⟩ := boost_spec (onShell_ofMass (Product.of Q).p 0) hpr
      have hz : normalizeOrZero r.p = 0 := by
        rw [normalizeOrZero, if_pos]
        exact hn
      have hrc : restCosine r (Product.of Q).p 0 = some 0 := by
        simp only [restCosine, hrb, Option.bind_some, hR, Option.map_some, hz]
        simp [Vec3.dot]
      simp only [dipoleProbability, dipoleDifferential, hrc, Option.map_some, Option.some.injEq]
      rw [mul_zero, add_zero, mul_one, show td / 2 = td * (1 / 2) by ring, quotient_of htd]
  refine ⟨r, hM, rfl, ?_, ?_⟩
  · intro u hu v
    obtain ⟨X, Y, h1, _, _, h4⟩ := hall u hu v
    exact ⟨X, Y, h1, h4⟩
  · intro v g
    have := law (α := -1) (by norm_num) (f := fun u => eventCos r (dipoleSample .dirac r.mass r u v)) (fun u hu => by
      obtain ⟨X, Y, h1, h2, h3, _⟩ := hall u hu v
      simp only [h1, eventCos]
      exact ⟨h2, h3⟩) g
    rw [this]
    refine setLIntegral_congr_fun measurableSet_Icc fun c _ => ?_
    simp only [neg_mul, one_mul, sub_eq_add_neg]

/-- A Dirac lepton in motion decaying to a pion meets the hypotheses of the density theorems, with asymmetry one. -/
example : ∃ r : Primary, 0 < r.mass ∧ r.p ≠ 0 ∧ Apart ⟨1, 0, 0⟩ (direction r.p) ∧ getAlpha r.mass 111 = 1 ∧
    (0.135 : ℝ) + 0 < r.mass := by
  refine ⟨⟨n4, ⟨0, 0, 5⟩, 1, 1⟩, by norm_num, ?_, ?_, by simp [getAlpha], by norm_num⟩
  · intro h
    have := congrArg Vec3.z h
    norm_num at this
  · have : Vec3.dot (⟨1, 0, 0⟩ : Vec3 ℝ) (direction ⟨0, 0, 5⟩) = 0 := by
      simp only [direction, Vec3.normalize, Vec3.dot]
      split_ifs with h
      · simp
      · exfalso
        apply h
        simp [Vec3.norm, Vec3.dot]
    simp only [Apart, this]
    constructor <;> intro h <;> norm_num at h

end TwoBody
end Siren
