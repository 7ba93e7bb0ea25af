import Verif.Interactions.DisProps
import Verif.Interactions.Metropolis
import Mathlib.MeasureTheory.Integral.IntervalIntegral.Basic

set_option autoImplicit false

/-!
# Elastic scattering of neutrinos on electrons

Models `interactions/private/ElasticScattering.cxx`. Doubles are real numbers; `rombergIntegrate` is the exact integral.
-/

namespace Siren
namespace Elastic

open Rk Dis

/-! ### Model -/

/-- `Constants::electronMass` (utilities/Constants.h:53). -/
noncomputable def me : ℝ := electronMass

/-- The member `CLR` (ElasticScattering.h:36). -/
noncomputable def clr : ℝ := 0.2334

/-- `FermiConstant` squared over `pi` and `invGeVsq_per_cmsq` (utilities/Constants.h:19, 126, 130). -/
noncomputable def unit : ℝ := (1.16639e-5) ^ 2 / Real.pi / 2.568189461147501e27

/-- `CLL` for electron and muon neutrinos; other primaries throw (`none`) (ElasticScattering.cxx:43-49, 82-88). -/
noncomputable def cll (t : ℤ) : Option ℝ := if t = 12 then some 0.7276 else if t = 14 then some (-0.2730) else none

/-- The tree level formula (ElasticScattering.cxx:71-76, 94-98). -/
noncomputable def formula (C E s m y : ℝ) : ℝ :=
  max (unit * s * (C * C + clr * clr * (1 - y) * (1 - y) + -C * clr * m * y / E)) 0

/-- `DifferentialCrossSection(primary_type, energy, y)` after the choice of `CLL` (ElasticScattering.cxx:90-98). -/
noncomputable def dsdy (C E y : ℝ) : ℝ := formula C E (2 * me * E + me * me) me y

/-- The upper limit of y (ElasticScattering.cxx:114, 141). -/
noncomputable def yMax (E : ℝ) : ℝ := 2 * E / (2 * E + me)

/-- `TotalCrossSection(primary_type, energy)` (ElasticScattering.cxx:113-119). -/
noncomputable def total (t : ℤ) (E : ℝ) : Option ℝ := (cll t).map fun C => ∫ y in (0 : ℝ)..yMax E, dsdy C E y

/-- The first secondary is the neutrino (ElasticScattering.cxx:57, 128). -/
def nuFirst (r : Record) : Bool := r.t0 = 12 || r.t0 = 14

/-- `DifferentialCrossSection(record)` (ElasticScattering.cxx:41-77) for the primary type `t` and the secondaries `s0`,
`s1`. A failing `assert` and an exception give `none`. -/
noncomputable def diffRecord (t : ℤ) (r : Record) (s0 s1 : Secondary) : Option ℝ :=
  (cll t).bind fun C =>
    let p1 := P4.ofMass r.p r.mass
    let p2 := P4.ofMass ⟨0, 0, 0⟩ r.targetMass
    let msq := r.mass * r.mass + r.targetMass * r.targetMass + 2 * p1.dot p2
    (sqrtN msq).bind fun w =>
      if !(nuFirst r || r.t1 = 12 || r.t1 = 14) then none
      else
        let nu := if nuFirst r then s0 else s1
        let el := if nuFirst r then s1 else s0
        let p3 := P4.ofMass nu.p nu.mass
        let y := 1 - p2.dot p3 / p2.dot p1
        some (formula C r.energy (w ^ 2) el.mass y)

/-- `FinalStateProbability` (ElasticScattering.cxx:273-283). -/
noncomputable def probability (t : ℤ) (r : Record) (s0 s1 : Secondary) : Option ℝ := by
  classical exact
  (diffRecord t r s0 s1).bind fun dxs =>
    (if r.energy < 0 then some 0 else total t r.energy).map fun txs =>
      if dxs = 0 then 0 else if txs = 0 then 0 else dxs / txs

/-- The Metropolis chain: `y` and `cross_section`. -/
structure Chain where
  y : ℝ
  w : ℝ

open Classical in
/-- The chain after a pass with the proposed `y` and the number `v` for the decision (ElasticScattering.cxx:169-186). -/
noncomputable def next (C E : ℝ) (c : Chain) (y v : ℝ) : Chain :=
  if dsdy C E y ≤ 0 then c
  else if accepts c.w (dsdy C E y) v then ⟨y, dsdy C E y⟩ else c

/-- The proposal for the generator value `u`: uniform in the logarithm (ElasticScattering.cxx:140-144, 155, 170). -/
noncomputable def propose (E u : ℝ) : ℝ := pow10 (uniform (log10 1e-15) (log10 (yMax E)) u)

/-- One pass of the loop (ElasticScattering.cxx:168-187). The number for the decision is drawn only if it is needed. -/
noncomputable def step (C E : ℝ) (c : Chain) : List ℝ → Option (Chain × List ℝ) := by
  classical exact fun rs =>
  match rs with
  | [] => none
  | u :: rs =>
    let y := propose E u
    if dsdy C E y ≤ 0 ∨ c.w = 0 ∨ dsdy C E y / c.w > 1 then some (next C E c y 0, rs)
    else match rs with
      | [] => none
      | v :: rs => some (next C E c y v, rs)

/-- `n` passes. -/
noncomputable def run (C E : ℝ) : Nat → Chain → List ℝ → Option (Chain × List ℝ)
  | 0, c, rs => some (c, rs)
  | n + 1, c, rs =>
    match step C E c rs with
    | none => none
    | some (c, rs) => run C E n c rs

/-- The recoil electron for given y and azimuth (ElasticScattering.cxx:194-218). `none` if it is not a number. -/
noncomputable def electron (p : Vec3 ℝ) (E y phi : ℝ) : Option Secondary :=
  let e3 := E * y + me
  let psq := e3 * e3 - me * me
  (sqrtN ((e3 - me) / (e3 + me))).bind fun root =>
  (sqrtN psq).bind fun pabs =>
  let cosTh := (me + E) / E * root
  let px := cosTh * pabs
  (sqrtN (psq - px * px)).map fun py =>
    let dir := direction p
    let v := rotApply (axisAngle dir phi) (rotApply (rotationBetween ⟨1, 0, 0⟩ dir) ⟨px, py, 0⟩)
    let P := P4.ofMass v me
    ⟨P.e, P.p, me⟩

/-- `SampleFinalState` (ElasticScattering.cxx:121-232): the two secondaries and the recorded `bjorken_y`. The electron gets
its momentum; the neutrino gets the momentum of the primary. -/
noncomputable def sample (t : ℤ) (r : Record) (rs : List ℝ) : Outcome :=
  match cll t with
  | none => .throws
  | some C =>
    match rs with
    | [] => .waiting
    | u :: rs =>
      match run C r.energy 41 ⟨0, dsdy C r.energy (propose r.energy u)⟩ rs with
      | none => .waiting
      | some (c, rs) =>
        match rs with
        | [] => .waiting
        | v :: _ =>
          let y := c.y + 1e-16
          match electron r.p r.energy y (uniform 0 (2 * Real.pi) v) with
          | none => .nan
          | some el =>
            let p1 := P4.ofMass r.p r.mass
            let nu : Secondary := ⟨p1.e, p1.p, r.mass⟩
            if nuFirst r then .done nu el 0 y else .done el nu 0 y

/-! ### Specification -/

/-- The electron of an event. -/
def electronOf (r : Record) (s0 s1 : Secondary) : Secondary := if nuFirst r then s1 else s0

/-- The electron belongs to the scattering of a massless particle with momentum `p` and energy `E` on an electron at rest
with energy transfer `E y`: it is on its mass shell, has the energy transferred, and what is left of the momentum of the
primary has exactly the energy left. -/
structure Recoil (p : Vec3 ℝ) (E y : ℝ) (el : Secondary) : Prop where
  mass : el.mass = me
  energy : el.e = me + E * y
  shell : el.e ^ 2 = Vec3.dot el.p el.p + me ^ 2
  rest : (p - el.p).norm = E + me - el.e

/-! ### The recoil electron -/

theorem me_pos : 0 < me := by norm_num [me, electronMass]

theorem yMax_lt_one {E : ℝ} (hE : 0 < E) : yMax E < 1 := by
  have := me_pos
  unfold yMax; rw [div_lt_one (by positivity)]; linarith

theorem yMax_pos {E : ℝ} (hE : 0 < E) : 0 < yMax E := by
  have := me_pos
  unfold yMax; positivity

theorem electron_spec {p : Vec3 ℝ} (hp : p ≠ 0) (hA : Apart ⟨1, 0, 0⟩ (direction p)) {y : ℝ} (phi : ℝ) (hy : 0 < y)
    : (y ≤ yMax p.norm → ∃ el, electron p p.norm y phi = some el ∧ Recoil p p.norm y el) ∧
      (yMax p.norm < y → electron p p.norm y phi = none) := by
  have hE := norm_pos hp
  have hnn := norm_sq p
  have hm := me_pos
  set E := p.norm with hEd
  set n := direction p with hnd
  have hnu : Vec3.dot n n = 1 := direction_unit p
  have hxu : Vec3.dot (⟨1, 0, 0⟩ : Vec3 ℝ) ⟨1, 0, 0⟩ = 1 := by simp [Vec3.dot]
  set R := rotationBetween ⟨1, 0, 0⟩ n with hR
  set A := axisAngle n phi with hAx
  have hRu : R.IsUnit := rotationBetween_unit _ _
  have hAu : A.IsUnit := axisAngle_unit hnu phi
  have hRx : rotApply R ⟨1, 0, 0⟩ = n := rotationBetween_spec hxu hnu hA
  have hAn : rotApply A n = n := axisAngle_axis hnu phi
  have ha : 0 ≤ E * y := by positivity
  have hq0 : 0 ≤ (E * y + me - me) / (E * y + me + me) := by
    rw [add_sub_cancel_right]; positivity
  have hp0 : 0 ≤ (E * y + me) * (E * y + me) - me * me := by nlinarith
  have hprod : Real.sqrt ((E * y + me - me) / (E * y + me + me)) * Real.sqrt ((E * y + me) * (E * y + me) - me * me) =
      E * y := by
    rw [← Real.sqrt_mul hq0]
    have : (E * y + me - me) / (E * y + me + me) * ((E * y + me) * (E * y + me) - me * me) = (E * y) ^ 2 := by
      have : E * y + me + me ≠ 0 := by positivity
      field_simp; ring
    rw [this]; exact Real.sqrt_sq ha
  have hpx : (me + E) / E * Real.sqrt ((E * y + me - me) / (E * y + me + me)) *
      Real.sqrt ((E * y + me) * (E * y + me) - me * me) = (me + E) * y := by
    rw [mul_assoc, hprod]; field_simp
  have hdiff : (E * y + me) * (E * y + me) - me * me - (me + E) * y * ((me + E) * y) =
      y * ((2 * E + me) * me) * (yMax E - y) := by
    have h2 : (2 * E + me) * yMax E = 2 * E := by
      unfold yMax; field_simp
    linear_combination (-(y * me)) * h2
  have hstep : electron p E y phi = (sqrtN (y * ((2 * E + me) * me) * (yMax E - y))).map fun py =>
      (⟨(P4.ofMass (rotApply A (rotApply R ⟨(me + E) * y, py, 0⟩)) me).e,
        rotApply A (rotApply R ⟨(me + E) * y, py, 0⟩), me⟩ : Secondary) := by
    unfold electron
    have e1 : sqrtN ((E * y + me - me) / (E * y + me + me)) = some (Real.sqrt ((E * y + me - me) / (E * y + me + me))) := by
      unfold sqrtN; rw [if_pos hq0]
    have e2 : sqrtN ((E * y + me) * (E * y + me) - me * me) =
        some (Real.sqrt ((E * y + me) * (E * y + me) - me * me)) := by
      unfold sqrtN; rw [if_pos hp0]
    simp only [e1, e2, Option.bind_some, hpx, hdiff]
    rfl
  constructor
  · intro hle
    have hd0 : 0 ≤ y * ((2 * E + me) * me) * (yMax E - y) := mul_nonneg (by positivity) (by linarith)
    have e3 : sqrtN (y * ((2 * E + me) * me) * (yMax E - y)) = some (Real.sqrt (y * ((2 * E + me) * me) * (yMax E - y))) := by
      unfold sqrtN; rw [if_pos hd0]
    set py := Real.sqrt (y * ((2 * E + me) * me) * (yMax E - y)) with hpy
    have hpy2 : py * py = y * ((2 * E + me) * me) * (yMax E - y) := Real.mul_self_sqrt hd0
    set v := rotApply A (rotApply R ⟨(me + E) * y, py, 0⟩) with hv
    have hvv : Vec3.dot v v = (E * y + me) * (E * y + me) - me * me := by
      rw [hv, rotApply_dot hAu, rotApply_dot hRu]
      simp only [Vec3.dot]; linarith
    have hvn : Vec3.dot n v = (me + E) * y := by
      calc Vec3.dot n v = Vec3.dot (rotApply A n) (rotApply A (rotApply R ⟨(me + E) * y, py, 0⟩)) := by rw [hAn]
        _ = Vec3.dot (rotApply R ⟨1, 0, 0⟩) (rotApply R ⟨(me + E) * y, py, 0⟩) := by rw [rotApply_dot hAu, hRx]
        _ = (me + E) * y := by rw [rotApply_dot hRu]; simp [Vec3.dot]
    have hpn : Vec3.smul E n = p := norm_direction p
    have hpv : Vec3.dot p v = E * ((me + E) * y) := by
      rw [← hvn, ← hpn]; simp only [Vec3.dot, Vec3.smul]; ring
    have hev : (P4.ofMass v me).e = me + E * y := by
      show Real.sqrt (me * me + Vec3.dot v v) = _
      rw [hvv, show me * me + ((E * y + me) * (E * y + me) - me * me) = (me + E * y) ^ 2 by ring]
      exact Real.sqrt_sq (by positivity)
    rw [hstep, e3]
    simp only [Option.map_some]
    refine ⟨_, rfl, ⟨rfl, hev, ?_, ?_⟩⟩
    · show (P4.ofMass v me).e ^ 2 = Vec3.dot v v + me ^ 2
      rw [hev, hvv]; ring
    · show (p - v).norm = E + me - (P4.ofMass v me).e
      rw [hev]
      have hy1 := yMax_lt_one hE
      have : Vec3.dot (p - v) (p - v) = (E + me - (me + E * y)) ^ 2 := by
        have e1 : Vec3.dot (p - v) (p - v) = Vec3.dot p p - 2 * Vec3.dot p v + Vec3.dot v v := by
          simp only [Vec3.dot, Vec3.sub_x, Vec3.sub_y, Vec3.sub_z]; ring
        rw [e1, hpv, hvv, ← hnn]; ring
      unfold Vec3.norm
      rw [this]
      exact Real.sqrt_sq (by nlinarith)
  · intro hgt
    rw [hstep]
    have : ¬ 0 ≤ y * ((2 * E + me) * me) * (yMax E - y) := by
      have : 0 < y * ((2 * E + me) * me) := by positivity
      nlinarith
    unfold sqrtN
    rw [if_neg this]; rfl

/-! ### Sampled events -/

theorem propose_pos (E u : ℝ) : 0 < propose E u := pow10_pos _

theorem next_pos {C E : ℝ} {c : Chain} (hc : 0 ≤ c.y) {y v : ℝ} (hy : 0 < y) : 0 ≤ (next C E c y v).y := by
  unfold next
  split
  · exact hc
  · split
    · exact hy.le
    · exact hc

theorem run_nonneg {C E : ℝ} : ∀ (n : Nat) {c c' : Chain} {rs rs' : List ℝ}, 0 ≤ c.y →
    run C E n c rs = some (c', rs') → 0 ≤ c'.y
  | 0, c, c', rs, rs', hc, h => by
    simp only [run, Option.some.injEq, Prod.mk.injEq] at h; rw [← h.1]; exact hc
  | n + 1, c, c', rs, rs', hc, h => by
    unfold run at h
    split at h
    · exact absurd h (by simp)
    next c1 rs1 hs =>
      refine run_nonneg n ?_ h
      unfold step at hs
      split at hs
      · exact absurd hs (by simp)
      next u rs2 =>
        simp only at hs
        split at hs
        · simp only [Option.some.injEq, Prod.mk.injEq] at hs
          rw [← hs.1]; exact next_pos hc (propose_pos _ _)
        · split at hs
          · exact absurd hs (by simp)
          · simp only [Option.some.injEq, Prod.mk.injEq] at hs
            rw [← hs.1]; exact next_pos hc (propose_pos _ _)

theorem sample_cases {t : ℤ} {r : Record} {rs : List ℝ} {s0 s1 : Secondary} {x y : ℝ}
    (h : sample t r rs = .done s0 s1 x y) :
    ∃ C phi el, cll t = some C ∧ 1e-16 ≤ y ∧ electron r.p r.energy y phi = some el ∧
      (if nuFirst r then s0 = ⟨(P4.ofMass r.p r.mass).e, r.p, r.mass⟩ ∧ s1 = el
        else s1 = ⟨(P4.ofMass r.p r.mass).e, r.p, r.mass⟩ ∧ s0 = el) := by
  unfold sample at h
  split at h
  · exact absurd h (by simp)
  next C hC =>
    split at h
    · exact absurd h (by simp)
    next u rs1 =>
      split at h
      · exact absurd h (by simp)
      next c rs2 hrun =>
        split at h
        · exact absurd h (by simp)
        next v rs3 =>
          simp only at h
          split at h
          · exact absurd h (by simp)
          next el hel =>
            have hc := run_nonneg 41 (le_refl 0) hrun
            split at h
            next hn =>
              simp only [Outcome.done.injEq] at h
              obtain ⟨h1, h2, -, h4⟩ := h
              refine ⟨C, _, el, hC, by rw [← h4]; linarith, by rw [← h4]; exact hel, ?_⟩
              rw [if_pos hn]
              exact ⟨h1.symm, h2.symm⟩
            next hn =>
              simp only [Outcome.done.injEq] at h
              obtain ⟨h1, h2, -, h4⟩ := h
              refine ⟨C, _, el, hC, by rw [← h4]; linarith, by rw [← h4]; exact hel, ?_⟩
              rw [if_neg hn]
              exact ⟨h2.symm, h1.symm⟩

/-- C79: in every completed event the recoil electron is physical: on its mass shell, with the energy and the angle of the
scattering of a massless particle off an electron at rest at the recorded y, which lies in the allowed range. -/
theorem C79_electron {t : ℤ} {r : Record} {rs : List ℝ} {s0 s1 : Secondary} {x y : ℝ}
    (hp : r.p ≠ 0) (hA : Apart ⟨1, 0, 0⟩ (direction r.p)) (hE : r.energy = r.p.norm)
    (h : sample t r rs = .done s0 s1 x y) :
    0 < y ∧ y ≤ yMax r.energy ∧ Recoil r.p r.energy y (electronOf r s0 s1) := by
  obtain ⟨C, phi, el, -, hy, hel, hs⟩ := sample_cases h
  have hy0 : 0 < y := by norm_num at hy; linarith
  rw [hE] at hel ⊢
  obtain ⟨h1, h2⟩ := electron_spec hp hA phi hy0
  by_cases hle : y ≤ yMax r.p.norm
  · obtain ⟨el', hel', hrec⟩ := h1 hle
    rw [hel] at hel'
    simp only [Option.some.injEq] at hel'
    refine ⟨hy0, hle, ?_⟩
    unfold electronOf
    split at hs
    next hn => rw [if_pos hn, hs.2, hel']; exact hrec
    next hn => rw [if_neg hn, hs.2, hel']; exact hrec
  · rw [h2 (not_le.mp hle)] at hel
    exact absurd hel (by simp)

/-- C80 fails for the neutrino: it leaves with the momentum of the primary, so that in every completed event the energies
add up to too much, by the energy transferred to the electron, and the momenta do not add up either. -/
theorem C80_conservation_fails {t : ℤ} {r : Record} {rs : List ℝ} {s0 s1 : Secondary} {x y : ℝ}
    (hp : r.p ≠ 0) (hA : Apart ⟨1, 0, 0⟩ (direction r.p)) (hE : r.energy = r.p.norm) (hm : r.mass = 0)
    (h : sample t r rs = .done s0 s1 x y) :
    s0.e + s1.e = r.energy + me + r.energy * y ∧ ¬ Conserves r.p r.energy me s0 s1 := by
  obtain ⟨hy, -, hrec⟩ := C79_electron hp hA hE h
  obtain ⟨C, phi, el, -, -, -, hs⟩ := sample_cases h
  have hpos := norm_pos hp
  have he : (P4.ofMass r.p r.mass).e = r.energy := by rw [hm, energy_massless, hE]
  have hsum : s0.e + s1.e = r.energy + me + r.energy * y := by
    unfold electronOf at hrec
    split at hs
    next hn =>
      rw [if_pos hn] at hrec
      rw [hrec.energy, hs.1, he]; ring
    next hn =>
      rw [if_neg hn] at hrec
      rw [hrec.energy, hs.1, he]; ring
  refine ⟨hsum, ?_⟩
  rintro ⟨-, h2⟩
  rw [hsum] at h2
  rw [hE] at h2
  nlinarith

/-- C80 fails for the probability: since the neutrino is unchanged, the record of every completed event is taken to have
y = 0, so that events of different y get the same probability. For electron neutrinos the reported differential cross
section is larger than the one at the sampled y in every event. -/
theorem C80_probability_fails {t : ℤ} {r : Record} {rs : List ℝ} {s0 s1 : Secondary} {x y : ℝ}
    (hp : r.p ≠ 0) (hA : Apart ⟨1, 0, 0⟩ (direction r.p)) (hE : r.energy = r.p.norm) (hm : r.mass = 0)
    (hM : r.targetMass = me) (hsig : (r.t0 = t ∧ r.t1 = 11) ∨ (r.t1 = t ∧ r.t0 = 11))
    (h : sample t r rs = .done s0 s1 x y) :
    ∃ C, cll t = some C ∧ diffRecord t r s0 s1 = some (dsdy C r.energy 0) ∧
      (t = 12 → dsdy C r.energy y < dsdy C r.energy 0) := by
  obtain ⟨hy, hyM, hrec⟩ := C79_electron hp hA hE h
  obtain ⟨C, phi, el, hC, -, -, hs⟩ := sample_cases h
  have hpos := norm_pos hp
  have hmp := me_pos
  have he : (P4.ofMass r.p r.mass).e = r.energy := by rw [hm, energy_massless, hE]
  have hEp : 0 < r.energy := by rw [hE]; exact hpos
  have ht : t = 12 ∨ t = 14 := by
    unfold cll at hC
    split at hC
    · left; assumption
    · split at hC
      · right; assumption
      · exact absurd hC (by simp)
  have hnu : (nuFirst r || r.t1 = 12 || r.t1 = 14) = true := by
    unfold nuFirst
    rcases hsig with ⟨h1, h2⟩ | ⟨h1, h2⟩ <;> rcases ht with h3 | h3 <;> simp [h1, h2, h3]
  have hdot : (P4.ofMass r.p r.mass).dot (P4.ofMass ⟨0, 0, 0⟩ r.targetMass) = me * r.energy := by
    simp only [P4.dot, he, energy_at_rest (M := r.targetMass) (by rw [hM]; exact hmp.le)]
    rw [hM]
    show r.energy * me - Vec3.dot r.p ⟨0, 0, 0⟩ = _
    simp [Vec3.dot]; ring
  have hdot' : (P4.ofMass ⟨0, 0, 0⟩ r.targetMass).dot (P4.ofMass r.p r.mass) = me * r.energy := by
    simp only [P4.dot, he, energy_at_rest (M := r.targetMass) (by rw [hM]; exact hmp.le)]
    rw [hM]
    show me * r.energy - Vec3.dot ⟨0, 0, 0⟩ r.p = _
    simp [Vec3.dot]
  have hnup : (if nuFirst r then s0 else s1).p = r.p ∧ (if nuFirst r then s0 else s1).mass = r.mass := by
    split at hs
    next hn => rw [if_pos hn, hs.1]; exact ⟨rfl, rfl⟩
    next hn => rw [if_neg hn, hs.1]; exact ⟨rfl, rfl⟩
  have helm : (if nuFirst r then s1 else s0).mass = me := hrec.mass
  refine ⟨C, hC, ?_, ?_⟩
  · unfold diffRecord
    rw [hC]
    simp only [Option.bind_some, hdot]
    have hs2 : r.mass * r.mass + r.targetMass * r.targetMass + 2 * (me * r.energy) = 2 * me * r.energy + me * me := by
      rw [hm, hM]; ring
    have hs0 : 0 ≤ 2 * me * r.energy + me * me := by positivity
    rw [hs2]
    have e1 : sqrtN (2 * me * r.energy + me * me) = some (Real.sqrt (2 * me * r.energy + me * me)) := by
      unfold sqrtN; rw [if_pos hs0]
    rw [e1]
    simp only [Option.bind_some]
    rw [if_neg (by rw [hnu]; simp)]
    rw [hnup.1, hnup.2, hdot', helm, Real.sq_sqrt hs0, div_self (mul_pos hmp hEp).ne', sub_self]
    rfl
  · rintro rfl
    have hCv : C = 0.7276 := by
      unfold cll at hC; rw [if_pos rfl] at hC
      simpa using hC.symm
    have hunit : 0 < unit := by
      unfold unit
      have := Real.pi_pos
      positivity
    have hs : 0 < 2 * me * r.energy + me * me := by positivity
    have hy1 : y < 1 := lt_of_le_of_lt hyM (yMax_lt_one hEp)
    have hk : 0 < me * y / r.energy := by positivity
    unfold dsdy formula
    rw [hCv]
    set K := unit * (2 * me * r.energy + me * me) with hK
    have hKp : 0 < K := mul_pos hunit hs
    have h0 : (0.7276 : ℝ) * 0.7276 + clr * clr * (1 - 0) * (1 - 0) + -0.7276 * clr * me * 0 / r.energy > 0 := by
      norm_num [clr]
    have hlt : (0.7276 : ℝ) * 0.7276 + clr * clr * (1 - y) * (1 - y) + -0.7276 * clr * me * y / r.energy <
        0.7276 * 0.7276 + clr * clr * (1 - 0) * (1 - 0) + -0.7276 * clr * me * 0 / r.energy := by
      have e1 : -0.7276 * clr * me * y / r.energy = -(0.7276 * clr * (me * y / r.energy)) := by ring
      rw [e1]
      have hc : 0 < clr := by norm_num [clr]
      have : 0 < 0.7276 * clr * (me * y / r.energy) := by positivity
      have h2 : clr * clr * (1 - y) * (1 - y) ≤ clr * clr := by
        have : (1 - y) * (1 - y) ≤ 1 := by nlinarith
        have hcc : 0 < clr * clr := by positivity
        nlinarith
      simp only [mul_zero, zero_div, add_zero, sub_zero, mul_one]
      linarith
    apply max_lt
    · exact lt_of_lt_of_le (mul_lt_mul_of_pos_left hlt hKp) (le_max_left _ _)
    · exact lt_of_lt_of_le (mul_pos hKp h0) (le_max_left _ _)

/-- C80, what is reported: the differential cross section found for the record over the total cross section at the energy of the
primary. -/
theorem C80_ratio_partial {t : ℤ} {r : Record} {s0 s1 : Secondary} {dxs txs : ℝ} (hE : 0 ≤ r.energy)
    (hd : diffRecord t r s0 s1 = some dxs) (ht : total t r.energy = some txs) :
    probability t r s0 s1 = some (dxs / txs) := by
  unfold probability
  rw [hd, if_neg (not_lt.mpr hE), ht]
  simp only [Option.bind_some, Option.map_some, Option.some.injEq]
  split_ifs with h1 h2
  · rw [h1, zero_div]
  · rw [h2, div_zero]
  · rfl

end Elastic
end Siren
