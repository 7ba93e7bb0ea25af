import Verif.Interactions.Dis

set_option autoImplicit false

/-!
# What a sampled deep inelastic scattering event satisfies
-/

namespace Siren
namespace Dis

open Rk

theorem energy_massless (p : Vec3 ℝ) : (P4.ofMass p 0).e = p.norm := by
  simp [P4.ofMass, Vec3.norm]

theorem energy_at_rest {M : ℝ} (hM : 0 ≤ M) : (P4.ofMass ⟨0, 0, 0⟩ M).e = M := by
  simp [P4.ofMass, Vec3.dot, hM]

/-- The final state for an allowed point. -/
theorem finalState_spec {p : Vec3 ℝ} (hp : p ≠ 0) (hA : Apart ⟨1, 0, 0⟩ (direction p)) {M m x y phi : ℝ} (hM : 0 < M)
    (hx : 0 < x) (hx1 : x ≤ 1) (hy : 0 < y) (hq : Quad x y p.norm M m ≤ 0) :
    ∃ l h, finalState p 0 M m x y phi = some (l, h) ∧ l.p + h.p = p ∧ l.e = p.norm * (1 - y) ∧ h.e = M + p.norm * y ∧
      l.mass = m ∧ l.e ^ 2 = Vec3.dot l.p l.p + m ^ 2 ∧ 0 ≤ h.mass ∧ h.e ^ 2 = Vec3.dot h.p h.p + h.mass ^ 2 ∧
      Vec3.dot h.p h.p = 2 * M * p.norm * x * y + (p.norm * y) ^ 2 := by
  have hE := norm_pos hp
  have hy1 := y_lt_one hx hE hM hy hq
  have hnn := norm_sq p
  have hpsq : Real.sqrt (p.x * p.x + p.y * p.y + p.z * p.z) = p.norm := rfl
  have hq' := hq
  rw [quad_eq hE] at hq'
  set E := p.norm with hEd
  set n := direction p with hnd
  have hnu : Vec3.dot n n = 1 := direction_unit p
  have hxu : Vec3.dot (⟨1, 0, 0⟩ : Vec3 ℝ) ⟨1, 0, 0⟩ = 1 := by simp [Vec3.dot]
  set R := rotationBetween ⟨1, 0, 0⟩ n with hR
  set A := axisAngle n phi with hAx
  have hRu : R.IsUnit := rotationBetween_unit _ _
  have hAu : A.IsUnit := axisAngle_unit hnu phi
  have hRx : rotApply R ⟨1, 0, 0⟩ = n := rotationBetween_spec hxu hnu hA
  have hAn : rotApply A n = n := axisAngle_axis hnu phi
  -- the momentum transfer
  set pqx := (0 * 0 + m * m + 2 * E * E + 2 * E * M * (x * y) + 2 * E * E * (y - 1)) / (2 * E) with hpqx
  set mq := 0 * 0 + E * E + 2 * E * M * (x * y) + E * E * (y * y - 1) with hmq
  have hmqv : mq = 2 * M * E * x * y + (E * y) ^ 2 := by rw [hmq]; ring
  have hmq0 : 0 ≤ mq := by rw [hmqv]; positivity
  have hpqxv : pqx = E - (E * (1 - y) - m ^ 2 / (2 * E) - M * x * y) := by
    rw [hpqx]; field_simp; ring
  have hle : pqx * pqx ≤ mq := by
    rw [hmqv, hpqxv]
    have h2 : 2 * E * (m ^ 2 / (2 * E)) = m ^ 2 := by field_simp
    nlinarith
  have hs := Real.mul_self_sqrt hmq0
  have hngt : ¬ pqx > Real.sqrt mq := by
    intro hc
    have := Real.sqrt_nonneg mq
    nlinarith
  set pqy := Real.sqrt (Real.sqrt mq * Real.sqrt mq - pqx * pqx) with hpqy
  have hpqy2 : pqy * pqy = mq - pqx * pqx := by
    rw [hpqy, Real.mul_self_sqrt (by rw [hs]; linarith), hs]
  set q : Vec3 ℝ := rotApply A (rotApply R ⟨pqx, pqy, 0⟩) with hqd
  have hqq : Vec3.dot q q = mq := by
    rw [hqd, rotApply_dot hAu, rotApply_dot hRu]
    simp only [Vec3.dot]; linarith
  have hqn : Vec3.dot n q = pqx := by
    calc Vec3.dot n q = Vec3.dot (rotApply A n) (rotApply A (rotApply R ⟨pqx, pqy, 0⟩)) := by rw [hAn]
      _ = Vec3.dot (rotApply R ⟨1, 0, 0⟩) (rotApply R ⟨pqx, pqy, 0⟩) := by rw [rotApply_dot hAu, hRx]
      _ = pqx := by rw [rotApply_dot hRu]; simp [Vec3.dot]
  have hpn : Vec3.smul E n = p := norm_direction p
  have hpq : Vec3.dot p q = E * pqx := by
    rw [← hqn, ← hpn]; simp only [Vec3.dot, Vec3.smul]; ring
  have hl2 : Vec3.dot (p - q) (p - q) = (E * (1 - y)) ^ 2 - m ^ 2 := by
    have e1 : Vec3.dot (p - q) (p - q) = Vec3.dot p p - 2 * Vec3.dot p q + Vec3.dot q q := by
      simp only [Vec3.dot, Vec3.sub_x, Vec3.sub_y, Vec3.sub_z]; ring
    rw [e1, hpq, hqq, ← hnn, hmqv, hpqxv]
    field_simp
    ring
  have hle3 : Real.sqrt (m * m + Vec3.dot (p - q) (p - q)) = E * (1 - y) := by
    rw [hl2, show m * m + ((E * (1 - y)) ^ 2 - m ^ 2) = (E * (1 - y)) ^ 2 by ring]
    exact Real.sqrt_sq (mul_nonneg hE.le (by linarith))
  have hW : (M + E * y) * (M + E * y) - mq = M ^ 2 + 2 * M * E * y * (1 - x) := by rw [hmqv]; ring
  have hW0 : 0 ≤ (M + E * y) * (M + E * y) - mq := by
    rw [hW]
    have : 0 ≤ 2 * M * E * y * (1 - x) := mul_nonneg (by positivity) (by linarith)
    positivity
  have hz : (⟨0, 0, 0⟩ : Vec3 ℝ) + q = q := by ext <;> simp
  have hfs : finalState p 0 M m x y phi =
      some (⟨E * (1 - y), p - q, m⟩, ⟨M + E * y, q, Real.sqrt ((M + E * y) * (M + E * y) - mq)⟩) := by
    unfold finalState
    simp only [energy_massless, energy_at_rest hM.le, hpsq]
    rw [if_neg hE.ne']
    rw [← hEd, ← hnd, ← hR, ← hAx, ← hmq, ← hpqx]
    have e1 : sqrtN mq = some (Real.sqrt mq) := by unfold sqrtN; rw [if_pos hmq0]
    rw [e1]
    simp only [Option.bind_some]
    rw [if_neg hngt]
    have e2 : sqrtN (Real.sqrt mq * Real.sqrt mq - pqx * pqx) = some pqy := by
      unfold sqrtN; rw [if_pos (by rw [hs]; linarith)]
    rw [e2]
    simp only [Option.bind_some, P4.ofEnergy, P4.rotate]
    rw [← hqd]
    have e3 : (P4.ofMass ((P4.ofMass p 0).sub ⟨q, E * y, none, false⟩).p m).e = E * (1 - y) := hle3
    have e4 : ((P4.ofMass ⟨0, 0, 0⟩ M).add ⟨q, E * y, none, false⟩).m =
        some (Real.sqrt ((M + E * y) * (M + E * y) - mq)) := by
      simp only [P4.m, P4.add, Bool.and_false, Bool.false_and, energy_at_rest hM.le]
      have : (P4.ofMass ⟨0, 0, 0⟩ M).p + q = q := hz
      rw [this, hqq, if_neg (by simp)]
      unfold sqrtN; rw [if_pos hW0]
    rw [e4, e3]
    simp only [P4.m, P4.ofMass, P4.sub, P4.add, Option.bind_some, Option.map_some, hz]
    have e5 : Real.sqrt (M * M + Vec3.dot (⟨0, 0, 0⟩ : Vec3 ℝ) ⟨0, 0, 0⟩) = M := energy_at_rest hM.le
    rw [e5]
  refine ⟨_, _, hfs, ?_, rfl, rfl, rfl, ?_, Real.sqrt_nonneg _, ?_, ?_⟩
  · ext <;> simp
  · show (E * (1 - y)) ^ 2 = Vec3.dot (p - q) (p - q) + m ^ 2
    rw [hl2]; ring
  · show (M + E * y) ^ 2 = Vec3.dot q q + (Real.sqrt _) ^ 2
    rw [Real.sq_sqrt hW0, hqq]; ring
  · show Vec3.dot q q = _
    rw [hqq, hmqv]

/-! ### The sampler -/

theorem pow10_pos (a : ℝ) : 0 < pow10 a := Real.rpow_pos_of_pos (by norm_num) a

theorem log10_pow10 (a : ℝ) : log10 (pow10 a) = a := by
  unfold log10 pow10
  rw [Real.logb_rpow (by norm_num) (by norm_num)]

theorem pow10_add (a b : ℝ) : pow10 (a + b) = pow10 a * pow10 b := Real.rpow_add (by norm_num) a b

/-- The points the chain can be at. -/
structure Good (D : Config) (E1 E2 m le lx ly : ℝ) : Prop where
  adm : D.admissible E1 E2 m lx ly = true
  tab : D.inTable le lx ly = true

theorem propose_spec {D : Config} {E1 E2 m : ℝ} {b : ℝ × ℝ × ℝ} {more : ℝ → ℝ → Bool} :
    ∀ (rs : List ℝ) {lx ly : ℝ} {rs' : List ℝ}, D.propose E1 E2 m b more rs = some ((lx, ly), rs') →
      D.admissible E1 E2 m lx ly = true ∧ more lx ly = true
  | [], _, _, _, h => by simp [Config.propose] at h
  | [_], _, _, _, h => by simp [Config.propose] at h
  | u :: v :: rs, lx, ly, rs', h => by
    unfold Config.propose at h
    simp only at h
    split at h
    next hc =>
      simp only [Option.some.injEq, Prod.mk.injEq] at h
      obtain ⟨⟨rfl, rfl⟩, -⟩ := h
      simpa using hc
    next => exact propose_spec rs h

theorem step_spec {D : Config} {E1 E2 m le : ℝ} {b : ℝ × ℝ × ℝ} {c c' : Chain} {rs rs' : List ℝ}
    (hc : Good D E1 E2 m le c.lx c.ly ∧ c.weight = D.weight le c.lx c.ly)
    (h : D.step E1 E2 m le b c rs = some (c', rs')) :
    Good D E1 E2 m le c'.lx c'.ly ∧ c'.weight = D.weight le c'.lx c'.ly := by
  unfold Config.step at h
  simp only at h
  split at h
  · exact absurd h (by simp)
  next lx ly rs1 hp =>
    have hadm := (propose_spec rs hp).1
    split at h
    · simp only [Option.some.injEq, Prod.mk.injEq] at h; rw [← h.1]; exact hc
    next hin =>
      have hin' : D.inTable le lx ly = true := by simpa using hin
      split at h
      · simp only [Option.some.injEq, Prod.mk.injEq] at h; rw [← h.1]; exact hc
      next w' hw =>
        split at h
        next w hcw =>
          split at h
          · simp only [Option.some.injEq, Prod.mk.injEq] at h; rw [← h.1]
            exact ⟨⟨hadm, hin'⟩, hw.symm⟩
          · split at h
            · exact absurd h (by simp)
            · split at h
              · simp only [Option.some.injEq, Prod.mk.injEq] at h; rw [← h.1]
                exact ⟨⟨hadm, hin'⟩, hw.symm⟩
              · simp only [Option.some.injEq, Prod.mk.injEq] at h; rw [← h.1]; exact hc
        next =>
          split at h
          · exact absurd h (by simp)
          · simp only [Option.some.injEq, Prod.mk.injEq] at h; rw [← h.1]; exact hc

theorem run_spec {D : Config} {E1 E2 m le : ℝ} {b : ℝ × ℝ × ℝ} : ∀ (n : Nat) {c c' : Chain} {rs rs' : List ℝ},
    Good D E1 E2 m le c.lx c.ly ∧ c.weight = D.weight le c.lx c.ly → D.run E1 E2 m le b n c rs = some (c', rs') →
    Good D E1 E2 m le c'.lx c'.ly ∧ c'.weight = D.weight le c'.lx c'.ly
  | 0, c, c', rs, rs', hc, h => by
    simp only [Config.run, Option.some.injEq, Prod.mk.injEq] at h; rw [← h.1]; exact hc
  | n + 1, c, c', rs, rs', hc, h => by
    unfold Config.run at h
    split at h
    · exact absurd h (by simp)
    next c1 rs1 h1 => exact run_spec n (step_spec hc h1) h

/-- Outcome of a sampling as the final state of an admissible point in the table. -/
theorem sample_cases (D : Config) (r : Record) (rs : List ℝ) :
    D.sample r rs = .throws ∨ D.sample r rs = .waiting ∨
    ∃ m lx ly phi, leptonMass r.leptonType = some m ∧ m < (P4.ofMass r.p r.mass).e ∧
      D.table.lower 0 ≤ log10 (P4.ofMass r.p r.mass).e ∧ log10 (P4.ofMass r.p r.mass).e ≤ D.table.upper 0 ∧
      Good D (P4.ofMass r.p r.mass).e (P4.ofMass ⟨0, 0, 0⟩ r.targetMass).e m (log10 (P4.ofMass r.p r.mass).e) lx ly ∧
      D.sample r rs = match finalState r.p r.mass r.targetMass m (pow10 lx) (pow10 ly) phi with
        | none => .nan
        | some (l, h) => if isLepton r.t0 then .done l h (pow10 lx) (pow10 ly) else .done h l (pow10 lx) (pow10 ly) := by
  unfold Config.sample
  simp only
  split
  · exact Or.inl rfl
  cases hm : leptonMass r.leptonType with
  | none => exact Or.inl rfl
  | some m =>
    simp only
    split
    · exact Or.inl rfl
    next hext =>
    push Not at hext
    cases hb : D.bounds (P4.ofMass r.p r.mass).e (P4.ofMass ⟨0, 0, 0⟩ r.targetMass).e m with
    | none => exact Or.inr (Or.inl rfl)
    | some b =>
      simp only
      have hmE : m < (P4.ofMass r.p r.mass).e := by
        unfold Config.bounds at hb
        simp only at hb
        split at hb
        next hbb =>
          have hE0 : 0 ≤ (P4.ofMass r.p r.mass).e := Real.sqrt_nonneg _
          have hEpos : 0 < (P4.ofMass r.p r.mass).e := by
            rcases hE0.lt_or_eq with h | h
            · exact h
            · exfalso; have := hbb.2.1; rw [← h] at this; simp at this
          have h1 := hbb.1
          rw [sub_pos, div_lt_one hEpos] at h1
          exact h1
        next => exact absurd hb (by simp)
      split
      · exact Or.inr (Or.inl rfl)
      next lx ly rs1 hpr =>
        split
        · exact Or.inr (Or.inl rfl)
        next c rs2 hrun =>
          split
          · exact Or.inr (Or.inl rfl)
          next u rs3 =>
            refine Or.inr (Or.inr ⟨m, c.lx, c.ly, _, rfl, hmE, hext.1, hext.2, ?_, rfl⟩)
            have h0 := propose_spec rs hpr
            exact (run_spec 41 (c := ⟨lx, ly, _⟩) ⟨⟨h0.1, h0.2⟩, rfl⟩ hrun).1

theorem leptonMass_nonneg {t : ℤ} {m : ℝ} (h : leptonMass t = some m) : 0 ≤ m := by
  unfold leptonMass at h
  split at h <;> simp only [Option.some.injEq, reduceCtorEq] at h <;> rw [← h] <;>
    norm_num [electronMass, muonMass, tauMass]

/-- What an admissible point satisfies. -/
theorem admissible_spec {D : Config} {E M m lx ly : ℝ} (h : D.admissible E M m lx ly = true) :
    D.minQ2 ≤ 2 * E * M * (pow10 lx * pow10 ly) ∧
    D.minW2 ≤ D.targetMass ^ 2 + 2 * E * M * (pow10 lx * pow10 ly) / pow10 lx * (1 - pow10 lx) ∧
    allowed (pow10 lx) (pow10 ly) E D.targetMass m = true := by
  unfold Config.admissible at h
  simp only [pow10_add, Bool.not_eq_true', Bool.or_eq_false_iff, decide_eq_false_iff_not, not_lt, Bool.not_eq_false'] at h
  exact ⟨h.1.1, h.1.2, h.2⟩

/-! ### Specification of a sampled event -/

/-- Four-momentum is conserved: a primary of momentum `p` and energy `E`, and a target of mass `M` at rest. -/
def Conserves (p : Vec3 ℝ) (E M : ℝ) (a b : Secondary) : Prop := a.p + b.p = p ∧ a.e + b.e = E + M

/-- The recorded mass of a particle is its invariant mass, and its energy is not negative. -/
def OnShell (s : Secondary) : Prop := 0 ≤ s.mass ∧ 0 ≤ s.e ∧ s.e ^ 2 = Vec3.dot s.p s.p + s.mass ^ 2

/-- The lepton among the secondaries of a record. -/
def lepton (r : Record) (s0 s1 : Secondary) : Secondary := if isLepton r.t0 then s0 else s1

/-- C77: sampling a final state never writes values that are not numbers, and whatever random numbers it is given, the
secondaries it writes conserve energy and momentum and lie on their mass shells, the lepton with the mass of its type. The
kinematics that `DifferentialCrossSection` recomputes from them are the energy and the `x` and `y` that were sampled.
Assumes a massless primary that moves, with a direction that is either exactly along the x axis or not within the rounding
tolerance of it, and the target mass of the table. -/
theorem C77_final_state (D : Config) (r : Record) (rs : List ℝ) (hM : 0 < D.targetMass)
    (ht : r.targetMass = D.targetMass) (hmass : r.mass = 0) (hp : r.p ≠ 0) (hE : r.energy = r.p.norm)
    (hA : Apart ⟨1, 0, 0⟩ (direction r.p)) :
    D.sample r rs ≠ .nan ∧
    ∀ s0 s1 x y, D.sample r rs = .done s0 s1 x y →
      Conserves r.p r.energy r.targetMass s0 s1 ∧ OnShell s0 ∧ OnShell s1 ∧
      leptonMass r.leptonType = some (lepton r s0 s1).mass ∧
      r.kinematics s0 s1 = (r.energy, x, y, 2 * r.targetMass * r.energy * x * y) := by
  have hEpos := norm_pos hp
  rcases sample_cases D r rs with h | h | ⟨m, lx, ly, phi, hlm, hmE, hext1, hext2, hgood, hs⟩
  · rw [h]; exact ⟨by simp, by simp⟩
  · rw [h]; exact ⟨by simp, by simp⟩
  · rw [hmass, energy_massless, ht, energy_at_rest hM.le] at hgood
    rw [hmass, energy_massless] at hmE
    obtain ⟨-, -, hal⟩ := admissible_spec hgood.adm
    rw [allowed_iff_quad (pow10_pos _) hEpos hM] at hal
    obtain ⟨l, h, hfs, hpp, hle, hhe, hlm2, hls, hh0, hhs, hqq⟩ :=
      finalState_spec hp hA (phi := phi) hM (pow10_pos lx) hal.1 (pow10_pos ly) hal.2.2
    have hy1 := y_lt_one (pow10_pos lx) hEpos hM (pow10_pos ly) hal.2.2
    have hm0 := leptonMass_nonneg hlm
    rw [hmass, ht, hfs] at hs
    simp only at hs
    have hl : OnShell l := by
      refine ⟨by rw [hlm2]; exact hm0, ?_, by rw [hlm2]; exact hls⟩
      rw [hle]; exact mul_nonneg hEpos.le (by linarith)
    have hh : OnShell h := by
      refine ⟨hh0, ?_, hhs⟩
      rw [hhe]; have := pow10_pos ly; positivity
    have hcons : Conserves r.p r.energy r.targetMass l h := by
      refine ⟨hpp, ?_⟩
      rw [hle, hhe, hE, ht]; ring
    -- what the cross section recomputes
    have hkin : (let p1 := P4.ofMass r.p r.mass
        let p2 := P4.ofMass ⟨0, 0, 0⟩ r.targetMass
        let p3 := P4.ofMass l.p l.mass
        let q := p1.sub p3
        (r.energy, -(q.dot q) / (2 * p2.dot q), 1 - p2.dot p3 / p2.dot p1, -(q.dot q))) =
        (r.energy, pow10 lx, pow10 ly, 2 * r.targetMass * r.energy * pow10 lx * pow10 ly) := by
      have e3 : (P4.ofMass l.p l.mass).e = r.p.norm * (1 - pow10 ly) := by
        show Real.sqrt (l.mass * l.mass + Vec3.dot l.p l.p) = _
        rw [show l.mass * l.mass + Vec3.dot l.p l.p = l.e ^ 2 by rw [hls, hlm2]; ring, hle]
        exact Real.sqrt_sq (mul_nonneg hEpos.le (by linarith))
      have hph : r.p - l.p = h.p := by rw [← hpp]; ext <;> simp
      have hqdot : (((P4.ofMass r.p r.mass).sub (P4.ofMass l.p l.mass)).dot
          ((P4.ofMass r.p r.mass).sub (P4.ofMass l.p l.mass))) =
          -(2 * r.targetMass * r.energy * pow10 lx * pow10 ly) := by
        simp only [P4.dot, P4.sub, e3, hmass, energy_massless]
        have : (P4.ofMass r.p 0).p - (P4.ofMass l.p l.mass).p = h.p := hph
        rw [this, hqq, ht, hE]; ring
      have h23 : (P4.ofMass ⟨0, 0, 0⟩ r.targetMass).dot (P4.ofMass l.p l.mass) =
          D.targetMass * (r.p.norm * (1 - pow10 ly)) := by
        simp only [P4.dot, e3, ht, energy_at_rest hM.le]
        simp [P4.ofMass, Vec3.dot]
      have h21 : (P4.ofMass ⟨0, 0, 0⟩ r.targetMass).dot (P4.ofMass r.p r.mass) = D.targetMass * r.p.norm := by
        simp only [P4.dot, hmass, energy_massless, ht, energy_at_rest hM.le]
        simp [P4.ofMass, Vec3.dot]
      have h2q : (P4.ofMass ⟨0, 0, 0⟩ r.targetMass).dot ((P4.ofMass r.p r.mass).sub (P4.ofMass l.p l.mass)) =
          D.targetMass * (r.p.norm * pow10 ly) := by
        simp only [P4.dot, P4.sub, e3, hmass, energy_massless, ht, energy_at_rest hM.le]
        simp [P4.ofMass, Vec3.dot]
        left; ring
      simp only
      rw [hqdot, h23, h21, h2q, hE, ht]
      have := pow10_pos ly
      refine Prod.ext rfl (Prod.ext ?_ (Prod.ext ?_ ?_))
      · simp only; field_simp
      · simp only; field_simp; ring
      · simp
    rw [hs]
    refine ⟨by split <;> simp, ?_⟩
    intro s0 s1 x y hdone
    by_cases hl0 : isLepton r.t0 = true
    · rw [if_pos hl0] at hdone
      simp only [Outcome.done.injEq] at hdone
      obtain ⟨rfl, rfl, rfl, rfl⟩ := hdone
      refine ⟨hcons, hl, hh, ?_, ?_⟩
      · rw [hlm]; simp [lepton, hl0, hlm2]
      · simp only [Record.kinematics, hl0, if_true]; exact hkin
    · rw [if_neg hl0] at hdone
      simp only [Outcome.done.injEq] at hdone
      obtain ⟨rfl, rfl, rfl, rfl⟩ := hdone
      refine ⟨⟨?_, ?_⟩, hh, hl, ?_, ?_⟩
      · rw [← hcons.1]; ext <;> simp [add_comm]
      · rw [← hcons.2]; ring
      · rw [hlm]; simp [lepton, hl0, hlm2]
      · simp only [Record.kinematics, if_neg hl0]; exact hkin

/-- C77: on a sampled event the differential cross section is the value of the table at the sampled point: the tests that
would make it zero never reject what was sampled. -/
theorem C77_cross_section (D : Config) (r : Record) (rs : List ℝ) (hM : 0 < D.targetMass)
    (ht : r.targetMass = D.targetMass) (hmass : r.mass = 0) (hp : r.p ≠ 0) (hE : r.energy = r.p.norm)
    (hA : Apart ⟨1, 0, 0⟩ (direction r.p)) {s0 s1 : Secondary} {x y : ℝ} (h : D.sample r rs = .done s0 s1 x y) :
    0 < x ∧ x < 1 ∧ 0 < y ∧ y < 1 ∧ D.table.found (log10 r.energy) (log10 x) (log10 y) = true ∧
    D.diffRecord r s0 s1 = (D.table.eval (log10 r.energy) (log10 x) (log10 y)).map fun v => D.unit * pow10 v := by
  have hEpos := norm_pos hp
  have hk := (C77_final_state D r rs hM ht hmass hp hE hA).2 s0 s1 x y h
  rcases sample_cases D r rs with h' | h' | ⟨m, lx, ly, phi, hlm, hmE, hext1, hext2, hgood, hs⟩
  · rw [h'] at h; exact absurd h (by simp)
  · rw [h'] at h; exact absurd h (by simp)
  · have hxy : x = pow10 lx ∧ y = pow10 ly := by
      rw [h] at hs
      split at hs
      · exact absurd hs (by simp)
      · split at hs <;> simp only [Outcome.done.injEq] at hs <;> exact ⟨hs.2.2.1, hs.2.2.2⟩
    obtain ⟨rfl, rfl⟩ := hxy
    rw [hmass, energy_massless, ht, energy_at_rest hM.le, ← hE] at hgood
    rw [hmass, energy_massless, ← hE] at hext1 hext2
    rw [← hE] at hEpos
    obtain ⟨h1, h2, h3⟩ := admissible_spec hgood.adm
    have hal := (allowed_iff_quad (pow10_pos lx) hEpos hM).mp h3
    have hx0 := pow10_pos lx
    have hy0 := pow10_pos ly
    have hy1 := y_lt_one hx0 hEpos hM hy0 hal.2.2
    have hx1 : pow10 lx < 1 := by
      rcases hal.1.lt_or_eq with h4 | h4
      · exact h4
      · exfalso
        rw [h4] at h2
        simp only [sub_self, mul_zero, add_zero, Config.minW2] at h2
        have : 0 < pi0Mass := by norm_num [pi0Mass]
        nlinarith
    have hfound : D.table.found (log10 r.energy) (log10 (pow10 lx)) (log10 (pow10 ly)) = true := by
      rw [log10_pow10, log10_pow10]
      have := hgood.tab
      unfold Config.inTable at this
      split at this
      · exact absurd this (by simp)
      · split at this
        · exact absurd this (by simp)
        · exact this
    refine ⟨hx0, hx1, hy0, hy1, hfound, ?_⟩
    unfold Config.diffRecord
    rw [hlm, hk.2.2.2.2]
    simp only [Option.bind_some]
    unfold Config.diff
    simp only
    have hQ : 2 * r.targetMass * r.energy * pow10 lx * pow10 ly = 2 * r.energy * D.targetMass * (pow10 lx * pow10 ly) := by
      rw [ht]; ring
    rw [hQ, if_neg (by rintro (h4 | h4) <;> linarith), if_neg (by rintro (h4 | h4) <;> linarith),
      if_neg (by rintro (h4 | h4) <;> linarith), if_neg (not_lt.mpr h1), if_neg (not_lt.mpr h2), if_neg (by simp [h3]),
      if_neg (by simp [hfound])]

/-- C77: the probability reported for a sampled event does not depend on the unit of the tables and is the ratio of the
two table values. -/
theorem C77_probability (D : Config) (T : TotalTable) (primaries : List ℤ) (primary : ℤ) (r : Record) (rs : List ℝ)
    (hM : 0 < D.targetMass) (hu : 0 < D.unit) (ht : r.targetMass = D.targetMass) (hmass : r.mass = 0) (hp : r.p ≠ 0)
    (hE : r.energy = r.p.norm) (hA : Apart ⟨1, 0, 0⟩ (direction r.p)) {s0 s1 : Secondary} {x y v : ℝ}
    (h : D.sample r rs = .done s0 s1 x y) (hv : D.table.eval (log10 r.energy) (log10 x) (log10 y) = some v)
    (hprim : primary ∈ primaries) (hT : T.lower ≤ log10 r.energy ∧ log10 r.energy ≤ T.upper) :
    D.probability T primaries primary r s0 s1 = some (pow10 v / pow10 (T.eval (log10 r.energy))) := by
  have h1 := (C77_cross_section D r rs hM ht hmass hp hE hA h).2.2.2.2.2
  have hEpos := norm_pos hp
  unfold Config.probability Config.total
  rw [h1, hv, if_neg (by rw [hE]; exact not_lt.mpr hEpos.le), if_neg (by simpa using hprim),
    if_neg (by rintro (h4 | h4) <;> linarith [hT.1, hT.2])]
  simp only [Option.map_some, Option.bind_some]
  have hpos := pow10_pos v
  have hpos2 := pow10_pos (T.eval (log10 r.energy))
  rw [if_neg (by positivity)]
  congr 1
  field_simp

/-- C77: the charged lepton of a sampled event has the mass of its species (PDG codes 11, 13, 15 and their antiparticles),
and a neutrino has none; the other secondary is the hadronic system, wherever the two stand in the signature. -/
theorem C77_lepton_mass (D : Config) (r : Record) (rs : List ℝ) (hM : 0 < D.targetMass)
    (ht : r.targetMass = D.targetMass) (hmass : r.mass = 0) (hp : r.p ≠ 0) (hE : r.energy = r.p.norm)
    (hA : Apart ⟨1, 0, 0⟩ (direction r.p)) {s0 s1 : Secondary} {x y : ℝ} (h : D.sample r rs = .done s0 s1 x y)
    (t : ℤ) (m : ℝ)
    (htm : (t, m) ∈ [(11, 0.000511), (-11, 0.000511), (13, 0.105658374), (-13, 0.105658374), (15, 1.77686), (-15, 1.77686),
      (12, 0), (-12, 0), (14, 0), (-14, 0), (16, 0), ((-16 : ℤ), (0 : ℝ))]) :
    (r.t0 = t → s0.mass = m) ∧ (r.t0 = hadrons → r.t1 = t → s1.mass = m) := by
  have hk := ((C77_final_state D r rs hM ht hmass hp hE hA).2 s0 s1 x y h).2.2.2.1
  have hl : isLepton t = true ∧ leptonMass t = some m := by
    simp only [List.mem_cons, Prod.mk.injEq, List.not_mem_nil, or_false] at htm
    rcases htm with ⟨rfl, rfl⟩ | ⟨rfl, rfl⟩ | ⟨rfl, rfl⟩ | ⟨rfl, rfl⟩ | ⟨rfl, rfl⟩ | ⟨rfl, rfl⟩ | ⟨rfl, rfl⟩ | ⟨rfl, rfl⟩ |
      ⟨rfl, rfl⟩ | ⟨rfl, rfl⟩ | ⟨rfl, rfl⟩ | ⟨rfl, rfl⟩ <;>
      simp [isLepton, leptonMass, electronMass, muonMass, tauMass]
  unfold Record.leptonType lepton at hk
  constructor
  · intro h0
    rw [if_pos (by rw [h0]; exact hl.1), if_pos (by rw [h0]; exact hl.1), h0, hl.2] at hk
    exact (Option.some.inj hk).symm
  · intro h0 h1
    have hh : ¬ isLepton r.t0 = true := by rw [h0]; decide
    rw [if_neg hh, if_neg hh, h1, hl.2] at hk
    exact (Option.some.inj hk).symm

/-! ### The cases where the code departs from the property -/

/-- C77 fails for the third interaction type (resonance on electrons): its signature has hadrons only
(DISFromSpline.cxx:258-264), and sampling any such event throws. -/
theorem C77_hadrons_only_fails (D : Config) (r : Record) (rs : List ℝ) (h0 : r.t0 = hadrons) (h1 : r.t1 = hadrons) :
    D.sample r rs = .throws := by
  have : leptonMass r.leptonType = none := by
    unfold Record.leptonType
    rw [h0, h1]
    simp [isLepton, hadrons, leptonMass]
  unfold Config.sample
  simp only [this]
  split <;> rfl

end Dis
end Siren
