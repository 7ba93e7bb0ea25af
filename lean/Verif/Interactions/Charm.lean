import Verif.Interactions.FourVector
import Verif.Interactions.TwoBodyProps
import Verif.Interactions.CharmIntegral
import Verif.Util.Random

set_option autoImplicit false
set_option linter.unusedSectionVars false

/-!
# Semileptonic decays of charmed mesons

`CharmMesonDecay::SampleFinalState`, `CharmMesonDecay::FinalStateProbability` and the helpers of `CharmDecayKinematics.h`.
-/

namespace Siren
namespace Charm

open Rk
open Siren.Util (uniform)

/-! ### Model -/

/-- The masses of the meson, the hadron and the charged lepton, and whether the V-A weight applies (CharmMesonDecay.cxx:303-345).
The neutrino is massless (CharmMesonDecay.cxx:309). -/
structure Masses where
  mD : ℝ
  mK : ℝ
  ml : ℝ
  va : Bool

variable (D : Masses)

/-- `p1Abs` (CharmMesonDecay.cxx:389-390; CharmDecayKinematics.h:128-129, 165-166). -/
noncomputable def Masses.kMom (m : ℝ) : ℝ :=
  0.5 * Real.sqrt ((D.mD - D.mK - m) * (D.mD + D.mK + m) * (D.mD + D.mK - m) * (D.mD - D.mK + m)) / D.mD

/-- `p23Abs` (CharmMesonDecay.cxx:392-393; CharmDecayKinematics.h:130-131, 167-168). -/
noncomputable def Masses.lMom (m : ℝ) : ℝ :=
  0.5 * Real.sqrt ((m - D.ml - 0) * (m + D.ml + 0) * (m + D.ml - 0) * (m - D.ml + 0)) / m

/-- `m23Max` (CharmMesonDecay.cxx:356). -/
def Masses.top : ℝ := D.mD - D.mK

/-- `wtPSmax` (CharmMesonDecay.cxx:361-366; CharmDecayKinematics.h:173-178). -/
noncomputable def Masses.psMax : ℝ := 0.5 * D.kMom (D.ml + 0) * D.lMom D.top

/-- The matrix-element ceiling with the V-A weight (CharmMesonDecay.cxx:374-375; CharmDecayKinematics.h:150-151). -/
noncomputable def Masses.vaMax : ℝ :=
  min (D.mD ^ 4 / 16) (D.mD * (D.mD - D.mK - D.ml) * (D.mD - D.mK - 0) * (D.mD - D.ml - 0))

/-- `wtMEmax` (CharmMesonDecay.cxx:372-375). -/
noncomputable def Masses.meMax : ℝ := if D.va then D.vaMax else 1

/-- `dir23` and `dir1` (CharmMesonDecay.cxx:399-405, 411-416). -/
noncomputable def dir (c f : ℝ) : Vec3 ℝ := ⟨Real.sin (Real.arccos c) * Real.cos f, Real.sin (Real.arccos c) * Real.sin f, c⟩

/-- The hadron, the charged lepton and the neutrino. -/
structure Three where
  K : P4
  l : P4
  nu : P4

/-- Steps 2 to 4 (CharmMesonDecay.cxx:402-425). -/
noncomputable def Masses.event (m c23 f23 c1 f1 : ℝ) : Option Three :=
  let lep := P4.ofMass (Vec3.smul (D.lMom m) (dir c23 f23)) D.ml
  let nu := P4.ofMass (Vec3.smul (-D.lMom m) (dir c23 f23)) 0
  let K := P4.ofMass (Vec3.smul (D.kMom m) (dir c1 f1)) D.mK
  let W := P4.ofMass (Vec3.smul (-D.kMom m) (dir c1 f1)) m
  W.labBoost.bind fun b => (lep.boost b).bind fun l => (nu.boost b).map fun n => ⟨K, l, n⟩

/-- `wtME` (CharmMesonDecay.cxx:381, 430-432). -/
def Masses.weight (t : Three) : ℝ := if D.va then D.mD * t.l.e * t.nu.dot t.K else 1

/-- The random numbers of one pass, each in [0, 1) before `Uniform` scales it. The inner and the outer loop both go back to drawing
`m`; a pass the inner loop rejects leaves the last five numbers undrawn, which are here part of every pass. -/
structure Pass where
  m : ℝ
  ps : ℝ
  c23 : ℝ
  f23 : ℝ
  c1 : ℝ
  f1 : ℝ
  me : ℝ

/-- What a pass leads to. `broken`: a boost is not defined. -/
inductive Step where
  | again
  | broken
  | accept (t : Three)

open Classical in
/-- One pass of the loops (CharmMesonDecay.cxx:380-437). -/
noncomputable def Masses.attempt (r : Pass) : Step :=
  let m := (D.ml + 0) + uniform 0 1 r.m * (D.top - (D.ml + 0))
  if D.kMom m * D.lMom m < uniform 0 1 r.ps * D.psMax then .again
  else match D.event m (uniform (-1) 1 r.c23) (uniform 0 (2 * Real.pi) r.f23) (uniform (-1) 1 r.c1)
      (uniform 0 (2 * Real.pi) r.f1) with
    | none => .broken
    | some t => if D.weight t < uniform 0 1 r.me * D.meMax then .again else .accept t

/-- The loops (CharmMesonDecay.cxx:380-437), with the passes the generator has numbers for. -/
noncomputable def Masses.loop : List Pass → Step
  | [] => .again
  | r :: rs => match D.attempt r with
    | .again => Masses.loop rs
    | s => s

/-- The boosts to the laboratory (CharmMesonDecay.cxx:348-351, 440-443). `p` and `M` are the momentum and the mass in the
record. -/
noncomputable def toLab (p : Vec3 ℝ) (M : ℝ) (t : Three) : Option Three :=
  (P4.ofMass p M).labBoost.bind fun b =>
    (t.K.boost b).bind fun k => (t.l.boost b).bind fun l => (t.nu.boost b).map fun n => ⟨k, l, n⟩

/-! ### Specification -/

/-- The decay is possible. -/
structure Masses.Possible : Prop where
  lepton : 0 < D.ml
  hadron : 0 < D.mK
  threshold : D.ml + D.mK < D.mD

/-- Four-momentum and mass of each product: on its mass shell, with the mass it is recorded with, of an energy that is not
negative; the total is the four-momentum `(E, p)`. -/
structure Products (mK ml E : ℝ) (p : Vec3 ℝ) (t : Three) : Prop where
  hadron : t.K.OnShell mK
  lepton : t.l.OnShell ml
  neutrino : t.nu.OnShell 0
  energy : t.K.e + t.l.e + t.nu.e = E
  momentum : t.K.p + t.l.p + t.nu.p = p

/-- The square of the mass of charged lepton and neutrino together. -/
def q2 (t : Three) : ℝ := (t.l.e + t.nu.e) ^ 2 - Vec3.dot (t.l.p + t.nu.p) (t.l.p + t.nu.p)

/-! ### Kinematics -/

variable {D}

theorem kMom_sq (h : D.Possible) {m : ℝ} (h0 : D.ml ≤ m) (h1 : m ≤ D.top) :
    D.kMom m ^ 2 = (D.mD ^ 2 + m ^ 2 - D.mK ^ 2) ^ 2 / (4 * D.mD ^ 2) - m ^ 2 ∧ 0 ≤ D.kMom m ∧ (m < D.top → 0 < D.kMom m) := by
  obtain ⟨hl, hk, ht⟩ := h
  unfold Masses.top at h1 ⊢
  have hD : 0 < D.mD := by linarith
  have hm : 0 < m := by linarith
  have e1 : 0 < D.mD + D.mK + m := by linarith
  have e2 : 0 < D.mD + D.mK - m := by linarith
  have e3 : 0 < D.mD - D.mK + m := by linarith
  have hp : 0 ≤ (D.mD - D.mK - m) * (D.mD + D.mK + m) * (D.mD + D.mK - m) * (D.mD - D.mK + m) :=
    mul_nonneg (mul_nonneg (mul_nonneg (by linarith) e1.le) e2.le) e3.le
  refine ⟨?_, ?_, fun h => ?_⟩
  · unfold Masses.kMom
    rw [div_pow, mul_pow, Real.sq_sqrt hp]
    field_simp
    ring
  · unfold Masses.kMom
    positivity
  · unfold Masses.kMom
    have hpp : 0 < (D.mD - D.mK - m) * (D.mD + D.mK + m) * (D.mD + D.mK - m) * (D.mD - D.mK + m) :=
      mul_pos (mul_pos (mul_pos (by linarith) e1) e2) e3
    have := Real.sqrt_pos.mpr hpp
    positivity

theorem lMom_eq (h : D.Possible) {m : ℝ} (h0 : D.ml ≤ m) : D.lMom m = (m ^ 2 - D.ml ^ 2) / (2 * m) := by
  have hl := h.lepton
  have hm : 0 < m := by linarith
  unfold Masses.lMom
  have e : (m - D.ml - 0) * (m + D.ml + 0) * (m + D.ml - 0) * (m - D.ml + 0) = (m ^ 2 - D.ml ^ 2) ^ 2 := by ring
  rw [e, Real.sqrt_sq (by nlinarith)]
  field_simp
  norm_num
  ring

theorem dir_unit {c : ℝ} (h1 : -1 ≤ c) (h2 : c ≤ 1) (f : ℝ) : Vec3.dot (dir c f) (dir c f) = 1 := by
  have := TwoBody.sin_arccos_sq h1 h2
  have := Real.sin_sq_add_cos_sq f
  simp only [dir, Vec3.dot]
  nlinarith

theorem dot_smul_smul (a b : ℝ) (u v : Vec3 ℝ) : Vec3.dot (Vec3.smul a u) (Vec3.smul b v) = a * b * Vec3.dot u v := by
  simp only [Vec3.dot, Vec3.smul]; ring

/-- The energy of lepton, neutrino, hadron and the pair. -/
noncomputable def eL (D : Masses) (m : ℝ) : ℝ := (m ^ 2 + D.ml ^ 2) / (2 * m)
noncomputable def eW (D : Masses) (m : ℝ) : ℝ := (D.mD ^ 2 + m ^ 2 - D.mK ^ 2) / (2 * D.mD)
noncomputable def eK (D : Masses) (m : ℝ) : ℝ := (D.mD ^ 2 + D.mK ^ 2 - m ^ 2) / (2 * D.mD)

/-- The weight in terms of the cosine of the angle between lepton and hadron. -/
noncomputable def wt (D : Masses) (m c : ℝ) : ℝ :=
  D.mD * (eW D m / m * eL D m - D.kMom m / m * (D.lMom m * c)) *
    (D.lMom m * (eW D m / m * eK D m + D.kMom m / m * D.kMom m) + D.lMom m * (eW D m / m * D.kMom m + D.kMom m / m * eK D m) * c)

theorem energies (h : D.Possible) {m : ℝ} (h0 : D.ml ≤ m) (h1 : m < D.top) :
    Real.sqrt (D.ml * D.ml + D.lMom m ^ 2) = eL D m ∧ Real.sqrt (D.mK * D.mK + D.kMom m ^ 2) = eK D m ∧
      Real.sqrt (m * m + D.kMom m ^ 2) = eW D m ∧ 0 < eL D m ∧ 0 < eK D m ∧ 0 < eW D m := by
  have hl := h.lepton
  have hk := h.hadron
  have ht := h.threshold
  have hm : 0 < m := by linarith
  have hD : 0 < D.mD := by linarith
  have h1' : m < D.mD - D.mK := h1
  have p1 : 0 < eL D m := by unfold eL; positivity
  have p2 : 0 < eK D m := by unfold eK; apply div_pos _ (by linarith); nlinarith
  have p3 : 0 < eW D m := by unfold eW; apply div_pos _ (by linarith); nlinarith
  refine ⟨?_, ?_, ?_, p1, p2, p3⟩
  · rw [lMom_eq h h0, Real.sqrt_eq_iff_eq_sq (by positivity) p1.le]
    unfold eL; field_simp; ring
  · rw [(kMom_sq h h0 h1.le).1, Real.sqrt_eq_iff_eq_sq _ p2.le]
    · unfold eK; field_simp; ring
    · have : D.mK * D.mK + ((D.mD ^ 2 + m ^ 2 - D.mK ^ 2) ^ 2 / (4 * D.mD ^ 2) - m ^ 2) = eK D m ^ 2 := by
        unfold eK; field_simp; ring
      rw [this]; positivity
  · rw [(kMom_sq h h0 h1.le).1, Real.sqrt_eq_iff_eq_sq _ p3.le]
    · unfold eW; field_simp; ring
    · have : m * m + ((D.mD ^ 2 + m ^ 2 - D.mK ^ 2) ^ 2 / (4 * D.mD ^ 2) - m ^ 2) = eW D m ^ 2 := by
        unfold eW; field_simp; ring
      rw [this]; positivity

theorem norm_smul_unit {k : ℝ} (hk : 0 ≤ k) {u : Vec3 ℝ} (hu : Vec3.dot u u = 1) : (Vec3.smul (-k) u).norm = k := by
  rw [Vec3.norm, dot_smul_smul, hu, mul_one, neg_mul_neg, Real.sqrt_mul_self hk]

theorem direction_neg {k : ℝ} (hk : 0 < k) {u : Vec3 ℝ} (hu : Vec3.dot u u = 1) : direction (Vec3.smul (-k) u) = Vec3.smul (-1) u := by
  have h := norm_direction (Vec3.smul (-k) u)
  rw [norm_smul_unit hk.le hu] at h
  have hx := congrArg Vec3.x h
  have hy := congrArg Vec3.y h
  have hz := congrArg Vec3.z h
  simp only [Vec3.smul] at hx hy hz
  ext
  · simp only [Vec3.smul]; apply mul_left_cancel₀ hk.ne'; linarith
  · simp only [Vec3.smul]; apply mul_left_cancel₀ hk.ne'; linarith
  · simp only [Vec3.smul]; apply mul_left_cancel₀ hk.ne'; linarith

/-- What steps 2 to 4 produce. -/
theorem event_spec (h : D.Possible) {m : ℝ} (h0 : D.ml ≤ m) (h1 : m < D.top) {c23 c1 : ℝ} (a1 : -1 ≤ c23) (a2 : c23 ≤ 1)
    (b1 : -1 ≤ c1) (b2 : c1 ≤ 1) (f23 f1 : ℝ) :
    ∃ t, D.event m c23 f23 c1 f1 = some t ∧ Products D.mK D.ml D.mD 0 t ∧ q2 t = m ^ 2 ∧
      t.K.e = eK D m ∧ t.K.p = Vec3.smul (D.kMom m) (dir c1 f1) ∧
      D.mD * t.l.e * t.nu.dot t.K = wt D m (Vec3.dot (dir c1 f1) (dir c23 f23)) := by
  have hl := h.lepton
  have hm : 0 < m := by linarith
  have hD : 0 < D.mD := by have := h.hadron; have := h.threshold; linarith
  obtain ⟨hk2, -, hkp⟩ := kMom_sq h h0 h1.le
  have hk := hkp h1
  obtain ⟨sL, sK, sW, pL, pK, pW⟩ := energies h h0 h1
  have u1 := dir_unit b1 b2 f1
  have u23 := dir_unit a1 a2 f23
  have hlm := lMom_eq h h0
  have hlm0 : 0 ≤ D.lMom m := by rw [hlm]; apply div_nonneg _ (by linarith); nlinarith
  set k := D.kMom m with hkd
  set q := D.lMom m with hqd
  set n1 := dir c1 f1 with hn1
  set n2 := dir c23 f23 with hn2
  have shW := onShell_ofMass (Vec3.smul (-k) n1) m
  have shl := onShell_ofMass (Vec3.smul q n2) D.ml
  have shn := onShell_ofMass (Vec3.smul (-q) n2) 0
  have shK := onShell_ofMass (Vec3.smul k n1) D.mK
  have eWe : (P4.ofMass (Vec3.smul (-k) n1) m).e = eW D m := by
    show Real.sqrt (m * m + Vec3.dot _ _) = _
    rw [dot_smul_smul, u1, ← sW]; congr 1; ring
  have eLe : (P4.ofMass (Vec3.smul q n2) D.ml).e = eL D m := by
    show Real.sqrt (D.ml * D.ml + Vec3.dot _ _) = _
    rw [dot_smul_smul, u23, ← sL]; congr 1; ring
  have eNe : (P4.ofMass (Vec3.smul (-q) n2) 0).e = q := by
    show Real.sqrt (0 * 0 + Vec3.dot _ _) = _
    rw [dot_smul_smul, u23, mul_one, mul_zero, zero_add, neg_mul_neg, Real.sqrt_mul_self hlm0]
  have eKe : (P4.ofMass (Vec3.smul k n1) D.mK).e = eK D m := by
    show Real.sqrt (D.mK * D.mK + Vec3.dot _ _) = _
    rw [dot_smul_smul, u1, ← sK]; congr 1; ring
  obtain ⟨-, hlab, -, hprop⟩ := boosts_of shW hm
  have hpW : (P4.ofMass (Vec3.smul (-k) n1) m).p = Vec3.smul (-k) n1 := rfl
  rw [hpW, eWe, norm_smul_unit hk.le u1, direction_neg hk u1] at hlab hprop
  obtain ⟨l, bl, osl, le, lp⟩ := boost_spec shl hprop
  obtain ⟨n, bn, osn, ne, np⟩ := boost_spec shn hprop
  rw [eLe] at le lp
  rw [eNe] at ne np
  have hpl : (P4.ofMass (Vec3.smul q n2) D.ml).p = Vec3.smul q n2 := rfl
  have hpn : (P4.ofMass (Vec3.smul (-q) n2) 0).p = Vec3.smul (-q) n2 := rfl
  rw [hpl] at le lp
  rw [hpn] at ne np
  simp only [dot_smul_smul] at le lp ne np
  set c := Vec3.dot n1 n2 with hc
  have hsum : eL D m + q = m := by rw [hlm]; unfold eL; field_simp; ring
  have hKW : eK D m + eW D m = D.mD := by unfold eK eW; field_simp; ring
  have le' : l.e = eW D m / m * eL D m - k / m * (q * c) := by rw [le]; ring
  have ne' : n.e = eW D m / m * q + k / m * (q * c) := by rw [ne]; ring
  have hE : l.e + n.e = eW D m := by rw [le', ne', ← hsum]; rw [hsum]; field_simp; linear_combination (eW D m) * hsum
  have hP : l.p + n.p = Vec3.smul (-k) n1 := by
    rw [lp, np]
    have hx : eL D m * (k / m) + q * (k / m) = k := by
      have : eL D m * (k / m) + q * (k / m) = (eL D m + q) * k / m := by ring
      rw [this, hsum]; field_simp
    ext
    · simp only [Vec3.add_x, Vec3.smul]; linear_combination (-n1.x) * hx
    · simp only [Vec3.add_y, Vec3.smul]; linear_combination (-n1.y) * hx
    · simp only [Vec3.add_z, Vec3.smul]; linear_combination (-n1.z) * hx
  refine ⟨⟨P4.ofMass (Vec3.smul k n1) D.mK, l, n⟩, ?_, ⟨shK, osl, osn, ?_, ?_⟩, ?_, eKe, rfl, ?_⟩
  · unfold Masses.event
    simp only
    rw [← hkd, ← hqd, ← hn1, ← hn2, hlab]
    simp only [Option.bind_some, bl, bn, Option.map_some]
  · show (P4.ofMass (Vec3.smul k n1) D.mK).e + l.e + n.e = D.mD
    rw [eKe]; linarith
  · show Vec3.smul k n1 + l.p + n.p = 0
    have hx := congrArg Vec3.x hP
    have hy := congrArg Vec3.y hP
    have hz := congrArg Vec3.z hP
    simp only [Vec3.add_x, Vec3.add_y, Vec3.add_z, Vec3.smul] at hx hy hz
    ext
    · simp only [Vec3.add_x, Vec3.smul, Vec3.zero_x]; linarith
    · simp only [Vec3.add_y, Vec3.smul, Vec3.zero_y]; linarith
    · simp only [Vec3.add_z, Vec3.smul, Vec3.zero_z]; linarith
  · unfold q2
    show (l.e + n.e) ^ 2 - Vec3.dot (l.p + n.p) (l.p + n.p) = m ^ 2
    rw [hE, hP, dot_smul_smul, u1]
    have : eW D m ^ 2 = m * m + k ^ 2 := by
      rw [← sW, Real.sq_sqrt (by positivity)]
    rw [this]; ring
  · show D.mD * l.e * (n.e * (P4.ofMass (Vec3.smul k n1) D.mK).e - Vec3.dot n.p (Vec3.smul k n1)) = _
    have hd : Vec3.dot n.p (Vec3.smul k n1) = -k * (q * (eW D m / m) * c + q * (k / m)) := by
      rw [np]
      have hu := u1
      have hcd := hc
      simp only [Vec3.dot] at hu hcd
      simp only [Vec3.dot, Vec3.add_x, Vec3.add_y, Vec3.add_z, Vec3.smul]
      rw [hcd]
      linear_combination (k * (-(eW D m / m - 1) * (q * (n1.x * n2.x + n1.y * n2.y + n1.z * n2.z)) - q * (k / m))) * hu
    rw [hd, eKe, le', ne']
    unfold wt
    rw [← hkd, ← hqd]
    ring

/-- A Lorentz transformation keeps the length of a four-vector. -/
theorem boost_length {b : Boost} (hb : b.Proper) {e e' : ℝ} {p p' : Vec3 ℝ} (he : e' = (b.c + 1) * e - b.s * Vec3.dot b.dir p)
    (hp : p' = p + Vec3.smul (b.c * Vec3.dot b.dir p - e * b.s) b.dir) :
    e' ^ 2 - Vec3.dot p' p' = e ^ 2 - Vec3.dot p p := by
  obtain ⟨hu, hh, -⟩ := hb
  set x := Vec3.dot b.dir p with hx
  have : Vec3.dot p' p' = Vec3.dot p p + 2 * (b.c * x - e * b.s) * x + (b.c * x - e * b.s) ^ 2 * Vec3.dot b.dir b.dir := by
    rw [hp, hx]; simp only [Vec3.dot, Vec3.add_x, Vec3.add_y, Vec3.add_z, Vec3.smul]; ring
  rw [this, hu, he]
  linear_combination (e ^ 2 - x ^ 2) * hh

/-- The boost to the laboratory, for any recorded mass `M`. -/
theorem toLab_spec {M : ℝ} (hM : 0 < M) (p : Vec3 ℝ) {mK ml mD : ℝ} {t : Three} (ht : Products mK ml mD 0 t) :
    ∃ t', toLab p M t = some t' ∧
      Products mK ml (mD / M * Real.sqrt (M * M + Vec3.dot p p)) (Vec3.smul (mD / M) p) t' ∧ q2 t' = q2 t := by
  obtain ⟨hK, hl, hn, hE, hP⟩ := ht
  obtain ⟨-, hlab, -, hprop⟩ := boosts_of (onShell_ofMass p M) hM
  have he : (P4.ofMass p M).e = Real.sqrt (M * M + Vec3.dot p p) := rfl
  have hpp : (P4.ofMass p M).p = p := rfl
  rw [hpp, he] at hlab hprop
  set E := Real.sqrt (M * M + Vec3.dot p p) with hEd
  obtain ⟨k, bk, osk, ke, kp⟩ := boost_spec hK hprop
  obtain ⟨l, bl, osl, le, lp⟩ := boost_spec hl hprop
  obtain ⟨n, bn, osn, ne, np⟩ := boost_spec hn hprop
  simp only [sub_add_cancel] at ke le ne
  have hdir := norm_direction p
  set d := direction p with hd
  have hx := congrArg Vec3.x hP
  have hy := congrArg Vec3.y hP
  have hz := congrArg Vec3.z hP
  simp only [Vec3.add_x, Vec3.add_y, Vec3.add_z, Vec3.zero_x, Vec3.zero_y, Vec3.zero_z] at hx hy hz
  have h0 : Vec3.dot d t.K.p + Vec3.dot d t.l.p + Vec3.dot d t.nu.p = 0 := by
    simp only [Vec3.dot]; linear_combination d.x * hx + d.y * hy + d.z * hz
  have hdx := congrArg Vec3.x hdir
  have hdy := congrArg Vec3.y hdir
  have hdz := congrArg Vec3.z hdir
  simp only [Vec3.smul] at hdx hdy hdz
  refine ⟨⟨k, l, n⟩, ?_, ⟨osk, osl, osn, ?_, ?_⟩, ?_⟩
  · unfold toLab
    rw [hlab]
    simp only [Option.bind_some, bk, bl, bn, Option.map_some]
  · show k.e + l.e + n.e = _
    rw [ke, le, ne]
    linear_combination (E / M) * hE + (p.norm / M) * h0
  · show k.p + l.p + n.p = _
    rw [kp, lp, np]
    ext
    · simp only [Vec3.add_x, Vec3.smul]
      rw [← hdx]
      linear_combination hx + (E / M - 1) * d.x * h0 + (p.norm / M) * d.x * hE
    · simp only [Vec3.add_y, Vec3.smul]
      rw [← hdy]
      linear_combination hy + (E / M - 1) * d.y * h0 + (p.norm / M) * d.y * hE
    · simp only [Vec3.add_z, Vec3.smul]
      rw [← hdz]
      linear_combination hz + (E / M - 1) * d.z * h0 + (p.norm / M) * d.z * hE
  · unfold q2
    apply boost_length hprop
    · show l.e + n.e = _
      simp only [sub_add_cancel]
      rw [le, ne]
      simp only [Vec3.dot, Vec3.add_x, Vec3.add_y, Vec3.add_z]
      ring
    · show l.p + n.p = _
      rw [lp, np]
      ext
      · simp only [Vec3.add_x, Vec3.smul, Vec3.dot, Vec3.add_y, Vec3.add_z]; ring
      · simp only [Vec3.add_x, Vec3.smul, Vec3.dot, Vec3.add_y, Vec3.add_z]; ring
      · simp only [Vec3.add_x, Vec3.smul, Vec3.dot, Vec3.add_y, Vec3.add_z]; ring

/-- The numbers the generator returns. -/
structure Pass.Ok (r : Pass) : Prop where
  m : r.m ∈ Set.Ico 0 1
  ps : r.ps ∈ Set.Ico 0 1
  c23 : r.c23 ∈ Set.Ico 0 1
  f23 : r.f23 ∈ Set.Ico 0 1
  c1 : r.c1 ∈ Set.Ico 0 1
  f1 : r.f1 ∈ Set.Ico 0 1
  me : r.me ∈ Set.Ico 0 1

theorem uniform_le (a b g : ℝ) (h : a ≤ b) : uniform a b g = (b - a) * g + a := by
  unfold uniform; rw [if_neg (not_lt.mpr h)]

theorem uniform_cos {g : ℝ} (h : g ∈ Set.Ico (0 : ℝ) 1) : -1 ≤ uniform (-1) 1 g ∧ uniform (-1) 1 g ≤ 1 := by
  obtain ⟨h0, h1⟩ := h
  rw [uniform_le _ _ _ (by norm_num)]
  constructor <;> linarith

/-- The mass of lepton and neutrino. -/
noncomputable def Masses.draw (D : Masses) (u : ℝ) : ℝ := D.ml + u * (D.top - D.ml)

theorem draw_mem (h : D.Possible) {u : ℝ} (hu : u ∈ Set.Ico (0 : ℝ) 1) : D.ml ≤ D.draw u ∧ D.draw u < D.top := by
  obtain ⟨h0, h1⟩ := hu
  have : 0 < D.top - D.ml := by unfold Masses.top; have := h.threshold; linarith
  unfold Masses.draw
  constructor <;> nlinarith

/-- The event of a pass. -/
noncomputable def Masses.eventOf (D : Masses) (r : Pass) : Option Three :=
  D.event (D.draw r.m) (uniform (-1) 1 r.c23) (uniform 0 (2 * Real.pi) r.f23) (uniform (-1) 1 r.c1) (uniform 0 (2 * Real.pi) r.f1)

open Classical in
theorem attempt_eq (D : Masses) (r : Pass) : D.attempt r =
    if D.kMom (D.draw r.m) * D.lMom (D.draw r.m) < r.ps * D.psMax then .again
    else match D.eventOf r with
      | none => .broken
      | some t => if D.weight t < r.me * D.meMax then .again else .accept t := by
  unfold Masses.attempt Masses.eventOf Masses.draw
  simp only [uniform_le 0 1 _ zero_le_one, sub_zero, one_mul, add_zero]

theorem attempt_accept (h : D.Possible) {r : Pass} (hr : r.Ok) :
    D.attempt r = .again ∨ ∃ t, D.attempt r = .accept t ∧ D.eventOf r = some t := by
  classical
  rw [attempt_eq]
  obtain ⟨m0, m1⟩ := draw_mem h hr.m
  obtain ⟨a1, a2⟩ := uniform_cos hr.c23
  obtain ⟨b1, b2⟩ := uniform_cos hr.c1
  obtain ⟨t, ht, -⟩ := event_spec h m0 m1 a1 a2 b1 b2 (uniform 0 (2 * Real.pi) r.f23) (uniform 0 (2 * Real.pi) r.f1)
  have ht' : D.eventOf r = some t := ht
  split
  · exact Or.inl rfl
  · rw [ht']
    simp only
    split
    · exact Or.inl rfl
    · exact Or.inr ⟨t, rfl, rfl⟩

theorem loop_accept (h : D.Possible) : ∀ {rs : List Pass}, (∀ r ∈ rs, r.Ok) →
    D.loop rs = .again ∨ ∃ t r, r ∈ rs ∧ D.loop rs = .accept t ∧ D.eventOf r = some t
  | [], _ => Or.inl rfl
  | r :: rs, hrs => by
    rcases attempt_accept h (hrs r (by simp)) with ha | ⟨t, ha, he⟩
    · have e : D.loop (r :: rs) = D.loop rs := by simp only [Masses.loop, ha]
      rw [e]
      rcases loop_accept h (rs := rs) (fun r' hr' => hrs r' (List.mem_cons_of_mem _ hr')) with h1 | ⟨t, r', h1, h2, h3⟩
      · exact Or.inl h1
      · exact Or.inr ⟨t, r', by simp [h1], h2, h3⟩
    · refine Or.inr ⟨t, r, by simp, ?_, he⟩
      simp only [Masses.loop, ha]

/-! ### The claims -/

/-- C129, kinematics: for every sequence of random numbers the loops either ask for more or end with three products whose boost to
the laboratory is defined; for a primary of the nominal mass four-momentum is conserved there, and hadron, charged lepton and
neutrino are on the mass shells of the masses they are recorded with. -/
theorem C129_products (h : D.Possible) (p : Vec3 ℝ) {rs : List Pass} (hrs : ∀ r ∈ rs, r.Ok) :
    D.loop rs = .again ∨ ∃ t t', D.loop rs = .accept t ∧ toLab p D.mD t = some t' ∧
      Products D.mK D.ml (Real.sqrt (D.mD * D.mD + Vec3.dot p p)) p t' ∧ q2 t' = q2 t ∧
      D.ml ^ 2 ≤ q2 t' ∧ q2 t' < (D.mD - D.mK) ^ 2 := by
  rcases loop_accept h hrs with ha | ⟨t, r, hr, ha, he⟩
  · exact Or.inl ha
  · right
    have hr := hrs r hr
    obtain ⟨m0, m1⟩ := draw_mem h hr.m
    obtain ⟨a1, a2⟩ := uniform_cos hr.c23
    obtain ⟨b1, b2⟩ := uniform_cos hr.c1
    obtain ⟨t1, ht, hp, hq, -⟩ := event_spec h m0 m1 a1 a2 b1 b2 (uniform 0 (2 * Real.pi) r.f23) (uniform 0 (2 * Real.pi) r.f1)
    have e : t1 = t := Option.some.inj (ht.symm.trans he)
    subst e
    have hD : 0 < D.mD := by have := h.hadron; have := h.threshold; have := h.lepton; linarith
    obtain ⟨t', h1, h2, h3⟩ := toLab_spec hD p hp
    refine ⟨t1, t', ha, h1, ?_, h3, ?_, ?_⟩
    · have e1 : D.mD / D.mD = 1 := div_self hD.ne'
      rw [e1, one_mul] at h2
      have e2 : Vec3.smul 1 p = p := by ext <;> simp [Vec3.smul]
      rwa [e2] at h2
    · rw [h3, hq]; have := h.lepton; nlinarith
    · rw [h3, hq]
      have : D.draw r.m < D.mD - D.mK := m1
      have := h.lepton
      nlinarith

/-- C129 without the condition on the mass: if the record carries another mass than the nominal one, the products have the
four-momentum of the primary scaled by the ratio of the masses. -/
theorem C129_mass_fails (h : D.Possible) {M : ℝ} (hM : 0 < M) (hne : M ≠ D.mD) (p : Vec3 ℝ) {rs : List Pass} (hrs : ∀ r ∈ rs, r.Ok)
    {t : Three} (ha : D.loop rs = .accept t) :
    ∃ t', toLab p M t = some t' ∧ t'.K.e + t'.l.e + t'.nu.e ≠ Real.sqrt (M * M + Vec3.dot p p) := by
  rcases loop_accept h hrs with hc | ⟨t0, r, hr, hb, he⟩
  · rw [hc] at ha; cases ha
  · rw [hb] at ha
    cases ha
    have hr := hrs r hr
    obtain ⟨m0, m1⟩ := draw_mem h hr.m
    obtain ⟨a1, a2⟩ := uniform_cos hr.c23
    obtain ⟨b1, b2⟩ := uniform_cos hr.c1
    obtain ⟨t1, ht, hp, -⟩ := event_spec h m0 m1 a1 a2 b1 b2 (uniform 0 (2 * Real.pi) r.f23) (uniform 0 (2 * Real.pi) r.f1)
    have e : t1 = t := Option.some.inj (ht.symm.trans he)
    subst e
    obtain ⟨t', h1, h2, h3⟩ := toLab_spec hM p hp
    refine ⟨t', h1, ?_⟩
    rw [h2.energy]
    have hs : 0 < Real.sqrt (M * M + Vec3.dot p p) := Real.sqrt_pos.mpr (by have := Vec3.dot_self_nonneg p; positivity)
    intro hc
    have : D.mD / M = 1 := by
      apply mul_right_cancel₀ hs.ne'
      rw [hc, one_mul]
    rw [div_eq_one_iff_eq hM.ne'] at this
    exact hne this.symm

end Charm
end Siren
