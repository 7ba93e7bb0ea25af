import Verif.Interactions.CharmLaw
import Verif.Base

set_option autoImplicit false
set_option linter.unusedSectionVars false

/-!
# Decays of charmed mesons: choice of the hadron, reported probability, cached normalisation
-/

namespace Siren
namespace Charm

open Rk MeasureTheory Set
open Siren.Util (uniform)
open scoped Real ENNReal

/-! ### Model -/

/-- `particleMass` (CharmDecayKinematics.h:37-74), with the values of utilities/Constants.h:53-77; particles by their codes
(dataclasses/ParticleTypes.def:15-74). -/
noncomputable def particleMass (p : ℤ) : ℝ :=
  if p = 421 ∨ p = -421 then 1.86484
  else if p = 411 ∨ p = -411 then 1.86966
  else if p = 311 ∨ p = -311 then 0.497614
  else if p = 321 then 0.493677
  else if p = -321 then 0.493677
  else if p = -11 ∨ p = 11 then 0.000511
  else if p = -13 ∨ p = 13 then 0.105658374
  else if p = -15 ∨ p = 15 then 1.77686
  else if p = 431 ∨ p = -431 then 1.96835
  else 0

/-- `KStarMass` (CharmDecayKinematics.h:78-80; Constants.h:64). -/
noncomputable def kStar : ℝ := 0.89167

/-- `EtaMass`, `EtaPrimeMass`, `PhiMass` (Constants.h:66-72). -/
noncomputable def eta : ℝ := 0.547862
noncomputable def etaPrime : ℝ := 0.95778
noncomputable def phi : ℝ := 1.019461

/-- `ParticleType::Hadrons` (dataclasses/ParticleTypes.def:209). -/
def hadrons : ℤ := -2000001006

/-- The parts of an `InteractionSignature` that matter here. -/
structure Sig where
  primary : ℤ
  secondaries : List ℤ

/-- `is_Ds` (CharmMesonDecay.cxx:304-305, 484-485). -/
def isDs (p : ℤ) : Bool := p = 431 || p = -431

/-- `fracK` (CharmMesonDecay.cxx:333-343, 517-523). -/
noncomputable def fracK (p : ℤ) : ℝ := if p = 411 ∨ p = -411 then 8.74 / (8.74 + 5.33) else 3.41 / (3.41 + 2.17)

open Classical in
/-- `mK` (CharmMesonDecay.cxx:311-345); `first` is the type of the first secondary, `r` the number drawn. -/
noncomputable def hadronMass (p first : ℤ) (r : ℝ) : ℝ :=
  if isDs p then
    (if r < 2.3 / 5 then eta else if r < 3.1 / 5 then etaPrime else phi)
  else if r < fracK p then particleMass first else kStar

/-- The result of sampling. -/
inductive Outcome where
  | more
  | broken
  | single (h : P4)
  | three (t : Three)

/-- The masses of a decay (CharmMesonDecay.cxx:307-345). -/
noncomputable def massesOf (p second : ℤ) (mK : ℝ) : Masses := ⟨particleMass p, mK, particleMass second, !isDs p⟩

/-- `SampleFinalState` (CharmMesonDecay.cxx:277-463). `p` and `M` are the momentum and the mass of the primary in the record. Fewer
types than the code reads are undefined behaviour. -/
noncomputable def sample (s : Sig) (p : Vec3 ℝ) (M r : ℝ) (rs : List Pass) : Res Outcome :=
  if s.secondaries = [hadrons] then .ok (.single (P4.ofMass p M))
  else match s.secondaries with
    | a :: b :: _ :: _ =>
      match (massesOf s.primary b (hadronMass s.primary a (uniform 0 1 r))).loop rs with
      | .again => .ok .more
      | .broken => .ok .broken
      | .accept t => match toLab p M t with
        | none => .ok .broken
        | some t' => .ok (.three t')
    | _ => .ub

/-- An interaction record. -/
structure Record where
  sig : Sig
  mass : ℝ
  p : Vec3 ℝ
  masses : List ℝ
  momenta : List (Vec3 ℝ)

/-- `masses` and `fractions` (CharmMesonDecay.cxx:503-526). -/
noncomputable def components (p first : ℤ) : List (ℝ × ℝ) :=
  if isDs p then [(eta, 2.3 / 5), (etaPrime, 0.8 / 5), (phi, 1.9 / 5)]
  else [(particleMass first, fracK p), (kStar, 1 - fracK p)]

open Classical in
/-- The loop over the components (CharmMesonDecay.cxx:529-534). -/
noncomputable def nearest (mK : ℝ) : List (ℝ × ℝ) → ℝ → Option (ℝ × ℝ) → Option (ℝ × ℝ)
  | [], _, c => c
  | x :: xs, best, c => if |mK - x.1| < best then nearest mK xs |mK - x.1| (some x) else nearest mK xs best c

/-- `SampledQ2Normalization` without its cache: the integral (CharmDecayKinematics.h:195-200). `rombergIntegrate` is a parameter. -/
abbrev Norm := Masses → ℝ

open Classical in
/-- The last part of `FinalStateProbability` (CharmMesonDecay.cxx:528-544), given the normalisation. -/
noncomputable def reported (norm : Norm) (s : Sig) (mD mK ml q2 : ℝ) : ℝ :=
  match nearest mK (components s.primary (s.secondaries.headD 0)) 1e30 none with
  | none => 0
  | some x =>
    let D : Masses := ⟨mD, x.1, ml, !isDs s.primary⟩
    let g := D.density q2
    if g ≤ 0 then 0
    else
      let n := norm D
      if n ≤ 0 then 0 else x.2 * g / n

/-- `FinalStateProbability` (CharmMesonDecay.cxx:469-545), given the normalisation. -/
noncomputable def probability (norm : Norm) (R : Record) : Res ℝ :=
  if R.sig.secondaries = [] then .throws .runtimeError
  else if R.sig.secondaries = [hadrons] then .ok 1
  else match R.masses, R.momenta with
    | mK :: ml :: _, k :: _ =>
      let d := (P4.ofMass R.p R.mass).sub (P4.ofMass k mK)
      .ok (reported norm R.sig R.mass mK ml (d.dot d))
    | _, _ => .throws .runtimeError

/-- The record of a sampled event: four-momenta and masses as `SampleFinalState` sets them (CharmMesonDecay.cxx:446-461). -/
noncomputable def recordOf (s : Sig) (p : Vec3 ℝ) (M : ℝ) (t : Three) : Record :=
  ⟨s, M, p, [t.K.m.getD 0, t.l.m.getD 0, t.nu.m.getD 0], [t.K.p, t.l.p, t.nu.p]⟩

/-! ### Specification -/

/-- The semileptonic final states the class lists (CharmMesonDecay.cxx:184-265), without their neutrinos: a hadron and an electron
or muon of either charge. -/
structure Listed (p first second : ℤ) : Prop where
  lepton : second = 11 ∨ second = -11 ∨ second = 13 ∨ second = -13
  parent : (p = 411 ∨ p = -411) ∧ (first = 311 ∨ first = -311) ∨ (p = 421 ∨ p = -421) ∧ (first = 321 ∨ first = -321) ∨
    (p = 431 ∨ p = -431)

/-- The expected value of `G`, a function of the mass of the hadron and the square of the mass of lepton and neutrino, over the
sampled events. -/
noncomputable def drawn (p first second : ℤ) (G : ℝ → ℝ → ℝ≥0∞) : ℝ≥0∞ :=
  ∫⁻ r in Ico (0 : ℝ) 1, (massesOf p second (hadronMass p first (uniform 0 1 r))).sampled
    (G (hadronMass p first (uniform 0 1 r)))

/-- The region of q2. -/
def Masses.region (D : Masses) : Set ℝ := Ioo (D.ml * D.ml) (D.top * D.top)

/-- The normalisation is the integral of the reported density. -/
def Exactly (norm : Norm) (D : Masses) : Prop :=
  ENNReal.ofReal (norm D) = ∫⁻ q in Ioo (D.ml * D.ml) (D.top * D.top), ENNReal.ofReal (D.density q)

/-! ### The listed decays -/

theorem lepton_mass {b : ℤ} (h : b = 11 ∨ b = -11 ∨ b = 13 ∨ b = -13) :
    particleMass b = 0.000511 ∨ particleMass b = 0.105658374 := by
  rcases h with h | h | h | h <;> subst h <;> simp [particleMass]

theorem isDs_ds {p : ℤ} (h : p = 431 ∨ p = -431) : isDs p = true := by rcases h with h | h <;> subst h <;> decide
theorem isDs_plus {p : ℤ} (h : p = 411 ∨ p = -411) : isDs p = false := by rcases h with h | h <;> subst h <;> decide
theorem isDs_zero {p : ℤ} (h : p = 421 ∨ p = -421) : isDs p = false := by rcases h with h | h <;> subst h <;> decide

theorem mass_plus {p : ℤ} (h : p = 411 ∨ p = -411) : particleMass p = 1.86966 ∧ fracK p = 8.74 / (8.74 + 5.33) := by
  rcases h with h | h <;> subst h <;> simp [particleMass, fracK]
theorem mass_zero {p : ℤ} (h : p = 421 ∨ p = -421) : particleMass p = 1.86484 ∧ fracK p = 3.41 / (3.41 + 2.17) := by
  rcases h with h | h <;> subst h <;> simp [particleMass, fracK]
theorem mass_ds {p : ℤ} (h : p = 431 ∨ p = -431) : particleMass p = 1.96835 := by
  rcases h with h | h <;> subst h <;> simp [particleMass]
theorem mass_k0 {p : ℤ} (h : p = 311 ∨ p = -311) : particleMass p = 0.497614 := by
  rcases h with h | h <;> subst h <;> simp [particleMass]
theorem mass_k {p : ℤ} (h : p = 321 ∨ p = -321) : particleMass p = 0.493677 := by
  rcases h with h | h <;> subst h <;> simp [particleMass]

theorem ceiling_of {mD mK ml : ℝ} {va : Bool} (h1 : 1.0001 * ((mD ^ 2 + ml ^ 2 - mK ^ 2) ^ 2 / 16) ≤ mD ^ 4 / 16)
    (h2 : 1.0001 * ((mD ^ 2 + ml ^ 2 - mK ^ 2) ^ 2 / 16) ≤ mD * (mD - mK - ml) * (mD - mK - 0) * (mD - ml - 0))
    (h3 : 1e-5 * mD ^ 3 ≤ ml * (mD ^ 4 / 16)) (h4 : 1e-5 * mD ^ 3 ≤ ml * (mD * (mD - mK - ml) * (mD - mK - 0) * (mD - ml - 0))) :
    (⟨mD, mK, ml, va⟩ : Masses).Ceiling := by
  constructor
  · exact le_min h1 h2
  · show 1e-5 * mD ^ 3 ≤ ml * min _ _
    rcases min_choice (mD ^ 4 / 16) (mD * (mD - mK - ml) * (mD - mK - 0) * (mD - ml - 0)) with h | h
    · rw [h]; exact h3
    · rw [h]; exact h4

/-- Every listed decay is possible for each hadron, and the closed form of its angular average is exact. -/
theorem listed_spec {p a b : ℤ} (h : Listed p a b) : ∀ x ∈ components p a,
    (massesOf p b x.1).Possible ∧ (massesOf p b x.1).Exact ∧ 0 ≤ x.2 ∧
      ∃ c ∈ components p a, nearest x.1 (components p a) 1e30 none = some c ∧ c = x := by
  intro x hx
  rcases h.parent with ⟨hp, ha⟩ | ⟨hp, ha⟩ | hp
  · obtain ⟨e1, e2⟩ := mass_plus hp
    have e3 := mass_k0 ha
    have hc : components p a = [(0.497614, 8.74 / (8.74 + 5.33)), (0.89167, 1 - 8.74 / (8.74 + 5.33))] := by
      unfold components; rw [isDs_plus hp, e2, e3]; rfl
    rw [hc] at hx ⊢
    unfold massesOf
    rw [e1, isDs_plus hp]
    simp only [List.mem_cons, List.not_mem_nil, or_false] at hx
    rcases lepton_mass h.lepton with e4 | e4 <;> rw [e4] <;> rcases hx with hx | hx <;> subst hx <;>
      (have hP : ∀ {u v w : ℝ} {q : Bool}, 0 < w → 0 < v → w + v < u → (⟨u, v, w, q⟩ : Masses).Possible := fun a b c => ⟨a, b, c⟩
       refine ⟨hP (by norm_num) (by norm_num) (by norm_num), exact_of (hP (by norm_num) (by norm_num) (by norm_num))
        (fun _ _ _ => Or.inr (ceiling_of (by norm_num) (by norm_num) (by norm_num) (by norm_num))), by norm_num, _, ?_, ?_, rfl⟩
       · simp
       · simp only [nearest]; norm_num [abs_of_neg, abs_of_pos])
  · obtain ⟨e1, e2⟩ := mass_zero hp
    have e3 := mass_k ha
    have hc : components p a = [(0.493677, 3.41 / (3.41 + 2.17)), (0.89167, 1 - 3.41 / (3.41 + 2.17))] := by
      unfold components; rw [isDs_zero hp, e2, e3]; rfl
    rw [hc] at hx ⊢
    unfold massesOf
    rw [e1, isDs_zero hp]
    simp only [List.mem_cons, List.not_mem_nil, or_false] at hx
    rcases lepton_mass h.lepton with e4 | e4 <;> rw [e4] <;> rcases hx with hx | hx <;> subst hx <;>
      (have hP : ∀ {u v w : ℝ} {q : Bool}, 0 < w → 0 < v → w + v < u → (⟨u, v, w, q⟩ : Masses).Possible := fun a b c => ⟨a, b, c⟩
       refine ⟨hP (by norm_num) (by norm_num) (by norm_num), exact_of (hP (by norm_num) (by norm_num) (by norm_num))
        (fun _ _ _ => Or.inr (ceiling_of (by norm_num) (by norm_num) (by norm_num) (by norm_num))), by norm_num, _, ?_, ?_, rfl⟩
       · simp
       · simp only [nearest]; norm_num [abs_of_neg, abs_of_pos])
  · have e1 := mass_ds hp
    have hc : components p a = [(0.547862, 2.3 / 5), (0.95778, 0.8 / 5), (1.019461, 1.9 / 5)] := by
      unfold components; rw [isDs_ds hp]; rfl
    rw [hc] at hx ⊢
    unfold massesOf
    rw [e1, isDs_ds hp]
    simp only [List.mem_cons, List.not_mem_nil, or_false] at hx
    rcases lepton_mass h.lepton with e4 | e4 <;> rw [e4] <;> rcases hx with hx | hx | hx <;> subst hx <;>
      (have hP : ∀ {u v w : ℝ} {q : Bool}, 0 < w → 0 < v → w + v < u → (⟨u, v, w, q⟩ : Masses).Possible := fun a b c => ⟨a, b, c⟩
       refine ⟨hP (by norm_num) (by norm_num) (by norm_num), fun hva => by simp at hva, by norm_num, _, ?_, ?_, rfl⟩
       · simp
       · simp only [nearest]; norm_num [abs_of_neg, abs_of_pos])

/-- The hadron is one of the components. -/
theorem hadronMass_mem (p a : ℤ) (r : ℝ) : ∃ x ∈ components p a, x.1 = hadronMass p a r := by
  unfold components hadronMass
  by_cases h : isDs p = true
  · rw [if_pos h, if_pos h]
    split
    · exact ⟨_, List.mem_cons_self, rfl⟩
    · split
      · exact ⟨(etaPrime, 0.8 / 5), by simp, rfl⟩
      · exact ⟨(phi, 1.9 / 5), by simp, rfl⟩
  · rw [if_neg h, if_neg h]
    split
    · exact ⟨_, List.mem_cons_self, rfl⟩
    · exact ⟨(kStar, 1 - fracK p), by simp, rfl⟩

theorem onShell_e {P : P4} {m : ℝ} (h : P.OnShell m) : (P4.ofMass P.p m).e = P.e := by
  have : m * m + Vec3.dot P.p P.p = P.e * P.e := by linarith [h.shell]
  show Real.sqrt (m * m + Vec3.dot P.p P.p) = P.e
  rw [this, Real.sqrt_mul_self h.pos]

theorem onShell_m {P : P4} {m : ℝ} (h : P.OnShell m) : P.m = some m := by
  unfold P4.m; rw [h.mass]

/-! ### The claims -/

/-- C129, listed decays: for every listed final state, a primary of the nominal mass and every sequence of random numbers, sampling
asks for more numbers or returns hadron, charged lepton and neutrino on their mass shells with the four-momentum of the primary in
total; the hadron has the mass of one of the components, and the probability reported for the event is the one for this mass and the
square of the mass of lepton and neutrino. -/
theorem C129_sampled {s : Sig} {a b c : ℤ} {rest : List ℤ} (hs : s.secondaries = a :: b :: c :: rest) (hL : Listed s.primary a b)
    (p : Vec3 ℝ) (r : ℝ) {rs : List Pass} (hrs : ∀ r ∈ rs, r.Ok) :
    sample s p (particleMass s.primary) r rs = .ok .more ∨
    ∃ t, ∃ x ∈ components s.primary a, sample s p (particleMass s.primary) r rs = .ok (.three t) ∧
      Products x.1 (particleMass b) (Real.sqrt (particleMass s.primary * particleMass s.primary + Vec3.dot p p)) p t ∧
      particleMass b ^ 2 ≤ q2 t ∧ q2 t < (particleMass s.primary - x.1) ^ 2 ∧
      ∀ norm, probability norm (recordOf s p (particleMass s.primary) t) =
        .ok (reported norm s (particleMass s.primary) x.1 (particleMass b) (q2 t)) := by
  obtain ⟨x, hx, he⟩ := hadronMass_mem s.primary a (uniform 0 1 r)
  obtain ⟨hP, -, -, -⟩ := listed_spec hL x hx
  have hne : s.secondaries ≠ [hadrons] := by rw [hs]; simp
  have hne2 : s.secondaries ≠ [] := by rw [hs]; simp
  have h := C129_products (D := massesOf s.primary b x.1) hP p hrs
  unfold sample
  rw [if_neg hne, hs]
  simp only
  rw [← he]
  rcases h with h | ⟨t, t', h1, h2, h3, h4, h5, h6⟩
  · left; rw [h]
  · right
    have h2' : toLab p (particleMass s.primary) t = some t' := h2
    refine ⟨t', x, hx, by rw [h1]; simp only; rw [h2'], h3, h5, h6, fun norm => ?_⟩
    unfold probability recordOf
    simp only
    rw [if_neg hne2, if_neg hne, onShell_m h3.hadron, onShell_m h3.lepton]
    simp only [Option.getD_some]
    congr 2
    have hKe := onShell_e h3.hadron
    have hx0 := h3.energy
    have hp := h3.momentum
    show ((P4.ofMass p (particleMass s.primary)).e - (P4.ofMass t'.K.p x.1).e) *
      ((P4.ofMass p (particleMass s.primary)).e - (P4.ofMass t'.K.p x.1).e) - Vec3.dot (p - t'.K.p) (p - t'.K.p) = q2 t'
    have hK' : (P4.ofMass t'.K.p x.1).e = t'.K.e := hKe
    have hE : (P4.ofMass p (particleMass s.primary)).e = t'.K.e + t'.l.e + t'.nu.e := hx0.symm
    have hd : p - t'.K.p = t'.l.p + t'.nu.p := by
      rw [← hp]
      ext
      · simp only [Vec3.sub_x, Vec3.add_x]; ring
      · simp only [Vec3.sub_y, Vec3.add_y]; ring
      · simp only [Vec3.sub_z, Vec3.add_z]; ring
    rw [hK', hE, hd]
    unfold q2
    ring

/-- C129, one hadron standing for all: it carries the four-momentum of the primary, and the reported probability is one. -/
theorem C129_single {s : Sig} (hs : s.secondaries = [hadrons]) (p : Vec3 ℝ) (M r : ℝ) (rs : List Pass) :
    (∃ h, sample s p M r rs = .ok (.single h) ∧ h.OnShell M ∧ h.p = p ∧ h.e = Real.sqrt (M * M + Vec3.dot p p)) ∧
    ∀ norm R, R.sig = s → probability norm R = .ok 1 := by
  constructor
  · refine ⟨P4.ofMass p M, ?_, onShell_ofMass p M, rfl, rfl⟩
    unfold sample; rw [if_pos hs]
  · intro norm R hR
    unfold probability
    rw [hR, hs]
    simp

/-- C129: a record without secondaries is refused, as is one whose secondaries have no masses or momenta. -/
theorem C129_refused (norm : Norm) (R : Record) :
    (R.sig.secondaries = [] → probability norm R = .throws .runtimeError) ∧
    (R.sig.secondaries ≠ [hadrons] → (R.masses.length < 2 ∨ R.momenta = []) → probability norm R = .throws .runtimeError) := by
  constructor
  · intro h; unfold probability; rw [if_pos h]
  · intro h1 h2
    unfold probability
    by_cases h0 : R.sig.secondaries = []
    · rw [if_pos h0]
    · rw [if_neg h0, if_neg h1]
      rcases hm : R.masses with _ | ⟨x, _ | ⟨y, l⟩⟩ <;> rcases hk : R.momenta with _ | ⟨k, ks⟩ <;>
        simp_all

theorem split3 {a b : ℝ} (h0 : 0 ≤ a) (h1 : a ≤ b) (h2 : b ≤ 1) (X Y Z : ℝ≥0∞) [∀ r : ℝ, Decidable (r < a)]
    [∀ r : ℝ, Decidable (r < b)] :
    ∫⁻ r in Ico (0 : ℝ) 1, (if r < a then X else if r < b then Y else Z) =
      ENNReal.ofReal a * X + ENNReal.ofReal (b - a) * Y + ENNReal.ofReal (1 - b) * Z := by
  have e : Ico (0 : ℝ) 1 = (Ico 0 a ∪ Ico a b) ∪ Ico b 1 := by
    rw [Ico_union_Ico_eq_Ico h0 h1, Ico_union_Ico_eq_Ico (h0.trans h1) h2]
  rw [e, lintegral_union measurableSet_Ico, lintegral_union measurableSet_Ico]
  · have e1 : ∫⁻ r in Ico 0 a, (if r < a then X else if r < b then Y else Z) = ENNReal.ofReal a * X := by
      rw [setLIntegral_congr_fun measurableSet_Ico (g := fun _ => X) fun r hr => if_pos hr.2]
      simp [mul_comm]
    have e2 : ∫⁻ r in Ico a b, (if r < a then X else if r < b then Y else Z) = ENNReal.ofReal (b - a) * Y := by
      rw [setLIntegral_congr_fun measurableSet_Ico (g := fun _ => Y)
        fun r hr => by rw [if_neg (not_lt.mpr hr.1), if_pos hr.2]]
      simp [mul_comm]
    have e3 : ∫⁻ r in Ico b 1, (if r < a then X else if r < b then Y else Z) = ENNReal.ofReal (1 - b) * Z := by
      rw [setLIntegral_congr_fun measurableSet_Ico (g := fun _ => Z)
        fun r hr => by rw [if_neg (not_lt.mpr (h1.trans hr.1)), if_neg (not_lt.mpr hr.1)]]
      simp [mul_comm]
    rw [e1, e2, e3]
  · rw [Set.disjoint_left]; rintro r ⟨-, h⟩ ⟨h', -⟩; linarith
  · rw [Set.disjoint_left]
    rintro r (⟨-, h⟩ | ⟨-, h⟩) ⟨h', -⟩
    · linarith
    · linarith

theorem region_eq (D : Masses) : D.region = Ioo (D.ml * D.ml) (D.top * D.top) := rfl

theorem density_nonneg {D : Masses} (h : D.Possible) (hx : D.Exact) {q : ℝ} (hq : q ∈ D.region) : 0 ≤ D.density q := by
  have hl := h.lepton
  have ht : 0 < D.top := by unfold Masses.top; have := h.threshold; linarith
  have hq0 : 0 ≤ q := le_trans (mul_self_nonneg _) hq.1.le
  have h1 : D.ml < Real.sqrt q := by rw [Real.lt_sqrt hl.le]; nlinarith [hq.1]
  have h2 : Real.sqrt q < D.top := by rw [Real.sqrt_lt' ht]; nlinarith [hq.2]
  have e := density_eq h hx h1 h2
  rw [Real.sq_sqrt hq0] at e
  have ha := (acc_mem h h1.le h2).1
  have hps := psMax_pos h
  have hme := meMax_pos h
  have : 0 ≤ 2 * Real.sqrt q * D.density q := by rw [e]; positivity
  exact nonneg_of_mul_nonneg_right this (by linarith)

/-- The part of a component in the reported probability. -/
theorem component_part {s : Sig} {a b : ℤ} (hs : s.secondaries.headD 0 = a) (hL : Listed s.primary a b) {norm : Norm} {x : ℝ × ℝ}
    (hx : x ∈ components s.primary a) (hn : Exactly norm (massesOf s.primary b x.1)) {G : ℝ → ℝ≥0∞} (hG : Measurable G) :
    ∫⁻ q in (massesOf s.primary b x.1).region,
      ENNReal.ofReal (reported norm s (particleMass s.primary) x.1 (particleMass b) q) * G q =
      ENNReal.ofReal x.2 * (massesOf s.primary b x.1).sampled G := by
  obtain ⟨hP, hE, hx2, c, hc, hnear, hcx⟩ := listed_spec hL x hx
  rw [hcx] at hnear
  set D := massesOf s.primary b x.1 with hD
  have hn0 : 0 < norm D := by
    by_contra hcon
    have h0 : ENNReal.ofReal (norm D) = 0 := ENNReal.ofReal_of_nonpos (not_lt.mp hcon)
    have hg := gain_pos hP
    rw [gain_density hP hE 1] at hg
    simp only [Pi.one_apply, mul_one] at hg
    rw [← hn, h0, mul_zero] at hg
    exact hg rfl
  have hr : ∀ q ∈ D.region, ENNReal.ofReal (reported norm s (particleMass s.primary) x.1 (particleMass b) q) * G q =
      (ENNReal.ofReal x.2 * (ENNReal.ofReal (norm D))⁻¹) * (ENNReal.ofReal (D.density q) * G q) := by
    intro q hq
    have hd := density_nonneg hP hE hq
    have : reported norm s (particleMass s.primary) x.1 (particleMass b) q = x.2 * D.density q / norm D := by
      unfold reported
      rw [hs, hnear]
      simp only
      have e : (⟨particleMass s.primary, x.1, particleMass b, !isDs s.primary⟩ : Masses) = D := rfl
      rw [e]
      split
      next hg => rw [le_antisymm hg hd]; simp
      next hg => rw [if_neg (not_le.mpr hn0)]
    rw [this, ENNReal.ofReal_div_of_pos hn0, ENNReal.ofReal_mul hx2, ENNReal.div_eq_inv_mul]
    ring
  rw [region_eq] at hr ⊢
  rw [setLIntegral_congr_fun measurableSet_Ioo hr, lintegral_const_mul', C129_component hP hE hG, ← hn, ENNReal.div_eq_inv_mul,
    mul_assoc]
  exact ENNReal.mul_ne_top ENNReal.ofReal_ne_top (ENNReal.inv_ne_top.mpr (ENNReal.ofReal_pos.mpr hn0).ne')

/-- C129, the law: for every listed final state and a primary of the nominal mass, the hadron mass and the square of the mass of
lepton and neutrino of the sampled events have the reported probability as their density, provided the normalisation is exact. -/
theorem C129_law {s : Sig} {a b c : ℤ} {rest : List ℤ} (hs : s.secondaries = a :: b :: c :: rest) (hL : Listed s.primary a b)
    {norm : Norm} (hn : ∀ x ∈ components s.primary a, Exactly norm (massesOf s.primary b x.1)) {G : ℝ → ℝ → ℝ≥0∞}
    (hG : ∀ mK, Measurable (G mK)) :
    drawn s.primary a b G = ((components s.primary a).map fun x => ∫⁻ q in (massesOf s.primary b x.1).region,
      ENNReal.ofReal (reported norm s (particleMass s.primary) x.1 (particleMass b) q) * G x.1 q).sum := by
  classical
  have hd : s.secondaries.headD 0 = a := by rw [hs]; rfl
  have hparts : ((components s.primary a).map fun x => ∫⁻ q in (massesOf s.primary b x.1).region,
      ENNReal.ofReal (reported norm s (particleMass s.primary) x.1 (particleMass b) q) * G x.1 q) =
      (components s.primary a).map fun x => ENNReal.ofReal x.2 * (massesOf s.primary b x.1).sampled (G x.1) :=
    List.map_congr_left fun x hx => component_part hd hL hx (hn x hx) (hG x.1)
  rw [hparts]
  unfold drawn
  simp only [uniform_le 0 1 _ zero_le_one, sub_zero, one_mul, add_zero]
  unfold hadronMass components
  by_cases h : isDs s.primary = true
  · simp only [if_pos h, List.map_cons, List.map_nil, List.sum_cons, List.sum_nil, add_zero]
    have e : ∀ r : ℝ, (massesOf s.primary b (if r < 2.3 / 5 then eta else if r < 3.1 / 5 then etaPrime else phi)).sampled
        (G (if r < 2.3 / 5 then eta else if r < 3.1 / 5 then etaPrime else phi)) =
        if r < 2.3 / 5 then (massesOf s.primary b eta).sampled (G eta)
        else if r < 3.1 / 5 then (massesOf s.primary b etaPrime).sampled (G etaPrime)
        else (massesOf s.primary b phi).sampled (G phi) := by
      intro r; split
      · rfl
      · split <;> rfl
    simp only [e]
    rw [split3 (by norm_num) (by norm_num) (by norm_num)]
    norm_num
    ring
  · simp only [if_neg h, List.map_cons, List.map_nil, List.sum_cons, List.sum_nil, add_zero]
    have hf : 0 ≤ fracK s.primary ∧ fracK s.primary ≤ 1 := by
      unfold fracK; split <;> norm_num
    have e : ∀ r : ℝ, (massesOf s.primary b (if r < fracK s.primary then particleMass a else kStar)).sampled
        (G (if r < fracK s.primary then particleMass a else kStar)) =
        if r < fracK s.primary then (massesOf s.primary b (particleMass a)).sampled (G (particleMass a))
        else if r < fracK s.primary then (massesOf s.primary b kStar).sampled (G kStar)
        else (massesOf s.primary b kStar).sampled (G kStar) := by
      intro r; split
      · rfl
      · rfl
    simp only [e]
    rw [split3 hf.1 le_rfl hf.2]
    simp

/-- The hypotheses are met: a positive D meson to a neutral kaon, a muon and its neutrino; and a normalisation that is exact. -/
example : Listed 411 (-311) (-13) ∧ Listed 431 hadrons 11 ∧
    ∃ norm : Norm, ∀ x ∈ components 411 (-311), Exactly norm (massesOf 411 (-13) x.1) := by
  have hL : Listed 411 (-311) (-13) := ⟨by simp, by simp⟩
  refine ⟨hL, ⟨by simp, by simp⟩, fun D =>
    (∫⁻ q in Ioo (D.ml * D.ml) (D.top * D.top), ENNReal.ofReal (D.density q)).toReal, fun x hx => ?_⟩
  obtain ⟨hP, hE, -, -⟩ := listed_spec hL x hx
  unfold Exactly
  apply ENNReal.ofReal_toReal
  have h1 := gain_le hP
  rw [gain_density hP hE 1] at h1
  simp only [Pi.one_apply, mul_one] at h1
  intro hc
  rw [hc] at h1
  have ht : 0 < (massesOf 411 (-13) x.1).top - (massesOf 411 (-13) x.1).ml := by
    unfold Masses.top; have := hP.threshold; linarith
  have hps := psMax_pos hP
  have hme := meMax_pos hP
  rw [ENNReal.mul_top (ENNReal.ofReal_pos.mpr (by positivity)).ne'] at h1
  exact absurd h1 (by simp)

end Charm
end Siren
