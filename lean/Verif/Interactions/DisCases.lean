import Verif.Interactions.DisProps

set_option autoImplicit false

/-!
# Concrete deep inelastic events: an ordinary one, and one close to the x axis
-/

namespace Siren
namespace Dis

open Rk

/-! ### A sampling that completes -/

/-- A table that is one everywhere. -/
noncomputable def flat : Config :=
  { targetMass := 1
    minQ2 := 1
    unit := 1
    table :=
      { ndim := 3
        lower := fun _ => -10
        upper := fun _ => 10
        found := fun _ _ _ => true
        eval := fun _ _ _ => some 0 } }

/-- A neutrino of energy 50 along the z axis on a target of mass one; neutral current. -/
noncomputable def beam : Record :=
  { energy := 50
    p := ⟨0, 0, 50⟩
    mass := 0
    targetMass := 1
    t0 := 14
    t1 := hadrons }

theorem beam_norm : (⟨0, 0, 50⟩ : Vec3 ℝ).norm = 50 := by
  have : Vec3.dot (⟨0, 0, 50⟩ : Vec3 ℝ) ⟨0, 0, 50⟩ = 50 ^ 2 := by simp [Vec3.dot]; norm_num
  rw [Vec3.norm, this]; exact Real.sqrt_sq (by norm_num)

theorem beam_direction : direction (⟨0, 0, 50⟩ : Vec3 ℝ) = ⟨0, 0, 1⟩ := by
  unfold direction
  rw [if_pos (by rw [beam_norm]; norm_num)]
  simp [Vec3.normalize, beam_norm]

theorem log10_hundredth : log10 (1 / 100) = -2 := by
  have : (1 / 100 : ℝ) = pow10 (-2) := by
    unfold pow10
    rw [show (-2 : ℝ) = ((-2 : ℤ) : ℝ) by norm_num, Real.rpow_intCast]; norm_num
  rw [this, log10_pow10]

theorem pow10_neg_one : pow10 (-1) = 1 / 10 := by
  unfold pow10
  rw [show (-1 : ℝ) = ((-1 : ℤ) : ℝ) by norm_num, Real.rpow_intCast]; norm_num

theorem flat_admissible : flat.admissible 50 1 0 (-1) (-1) = true := by
  have hal : allowed (1 / 10) (1 / 10) 50 1 0 = true := by
    rw [allowed_iff_quad (by norm_num) (by norm_num) (by norm_num)]
    refine ⟨by norm_num, by norm_num, ?_⟩
    unfold Quad; norm_num
  unfold Config.admissible
  simp only [pow10_add, pow10_neg_one, Config.minW2]
  have h1 : ¬ (2 * 50 * 1 * (1 / 10 * (1 / 10)) < flat.minQ2) := by norm_num [flat]
  have h2 : ¬ (flat.targetMass ^ 2 + 2 * 50 * 1 * (1 / 10 * (1 / 10)) / (1 / 10) * (1 - 1 / 10) <
      (flat.targetMass + pi0Mass) ^ 2) := by norm_num [flat, pi0Mass]
  have h3 : allowed (1 / 10) (1 / 10) 50 flat.targetMass 0 = true := hal
  simp only [decide_eq_false h1, decide_eq_false h2, h3]
  rfl

theorem flat_inTable (le : ℝ) : flat.inTable le (-1) (-1) = true := by
  unfold Config.inTable
  rw [if_neg (by simp only [flat]; norm_num), if_neg (by simp only [flat]; norm_num)]
  rfl

theorem uniform_half : uniform (-2) 0 (1 / 2) = -1 := by
  unfold uniform; rw [if_neg (by norm_num)]; norm_num

theorem flat_propose (more : ℝ → ℝ → Bool) (hmore : more (-1) (-1) = true) (rs : List ℝ) :
    flat.propose 50 1 0 (-2, -2, 0) more (1 / 2 :: 1 / 2 :: rs) = some ((-1, -1), rs) := by
  unfold Config.propose
  simp only [uniform_half, flat_admissible, hmore, Bool.and_self, if_true]

theorem flat_run (le : ℝ) (rs : List ℝ) : ∀ n,
    flat.run 50 1 0 le (-2, -2, 0) n ⟨-1, -1, flat.weight le (-1) (-1)⟩ (List.replicate (3 * n) (1 / 2) ++ rs) =
      some (⟨-1, -1, flat.weight le (-1) (-1)⟩, rs)
  | 0 => by simp [Config.run]
  | n + 1 => by
    have hw : flat.weight le (-1) (-1) = some (1 / 100) := by
      simp [Config.weight, flat, pow10_add, pow10_neg_one]
      simp [pow10]; norm_num
    have hl : List.replicate (3 * (n + 1)) (1 / 2 : ℝ) ++ rs =
        1 / 2 :: 1 / 2 :: 1 / 2 :: (List.replicate (3 * n) (1 / 2) ++ rs) := by
      rw [show 3 * (n + 1) = 3 * n + 1 + 1 + 1 by ring]
      simp [List.replicate_succ]
    have ih := flat_run le rs n
    unfold Config.run
    rw [hl]
    have hs : flat.step 50 1 0 le (-2, -2, 0) ⟨-1, -1, flat.weight le (-1) (-1)⟩
        (1 / 2 :: 1 / 2 :: 1 / 2 :: (List.replicate (3 * n) (1 / 2) ++ rs)) =
        some (⟨-1, -1, flat.weight le (-1) (-1)⟩, List.replicate (3 * n) (1 / 2) ++ rs) := by
      unfold Config.step
      simp only [flat_propose (fun _ _ => true) rfl, flat_inTable, hw, Bool.not_true, Bool.false_eq_true, if_false]
      rw [if_neg (by norm_num)]
      split <;> rfl
    rw [hs]
    exact ih

/-- The hypotheses of `C77_final_state` and `C77_cross_section` are met, and the sampling completes, with x = y = 1/10. -/
example : 0 < flat.targetMass ∧ beam.targetMass = flat.targetMass ∧ beam.mass = 0 ∧ beam.p ≠ 0 ∧
    beam.energy = beam.p.norm ∧ Apart ⟨1, 0, 0⟩ (direction beam.p) ∧
    ∃ rs s0 s1, flat.sample beam rs = .done s0 s1 (1 / 10) (1 / 10) := by
  have hA : Apart ⟨1, 0, 0⟩ (direction beam.p) := by
    show Apart ⟨1, 0, 0⟩ (direction ⟨0, 0, 50⟩)
    rw [beam_direction]
    constructor <;> intro h <;> exfalso <;> simp [Vec3.dot] at h <;> norm_num at h
  have hp : beam.p ≠ 0 := by
    intro h
    have : (50 : ℝ) = 0 := congrArg Vec3.z h
    norm_num at this
  have hM : 0 < flat.targetMass := by norm_num [flat]
  have hE : beam.energy = beam.p.norm := beam_norm.symm
  refine ⟨hM, rfl, rfl, hp, hE, hA, ?_⟩
  refine ⟨1 / 2 :: 1 / 2 :: (List.replicate (3 * 41) (1 / 2) ++ [1 / 2]), ?_⟩
  have hnan := (C77_final_state flat beam (1 / 2 :: 1 / 2 :: (List.replicate (3 * 41) (1 / 2) ++ [1 / 2])) hM rfl rfl hp hE
    hA).1
  have hlep : leptonMass beam.leptonType = some 0 := by
    simp [Record.leptonType, beam, isLepton, leptonMass]
  have hb : flat.bounds 50 1 0 = some (-2, -2, 0) := by
    unfold Config.bounds
    have e1 : flat.minQ2 / (2 * 50 * 1) = 1 / 100 := by norm_num [flat]
    have e2 : flat.minQ2 / (2 * 50 * 1 * (1 - 0 / 50)) = 1 / 100 := by norm_num [flat]
    simp only [e1, e2]
    rw [if_pos (by norm_num), log10_hundredth]
    simp [log10]
  have hext : ¬ (log10 50 < flat.table.lower 0 ∨ log10 50 > flat.table.upper 0) := by
    have h1 : 0 ≤ log10 50 := Real.logb_nonneg (by norm_num) (by norm_num)
    have h2 : log10 50 ≤ 10 := by
      unfold log10
      rw [Real.logb_le_iff_le_rpow (by norm_num) (by norm_num)]
      rw [show (10 : ℝ) ^ (10 : ℝ) = (10 : ℝ) ^ (10 : ℕ) by rw [← Real.rpow_natCast]; norm_num]
      norm_num
    simp only [flat]
    push Not
    exact ⟨by linarith, h2⟩
  revert hnan
  unfold Config.sample
  have e1 : (P4.ofMass beam.p beam.mass).e = 50 := by
    show (P4.ofMass ⟨0, 0, 50⟩ 0).e = 50
    rw [energy_massless, beam_norm]
  have e2 : (P4.ofMass ⟨0, 0, 0⟩ beam.targetMass).e = 1 := energy_at_rest (show (0 : ℝ) ≤ 1 by norm_num)
  simp only [e1, e2, hlep, hb]
  rw [if_neg (by simp [flat]), if_neg hext]
  simp only [flat_propose (flat.inTable (log10 50)) (flat_inTable _), flat_run (log10 50) [1 / 2] 41, pow10_neg_one]
  cases finalState beam.p beam.mass beam.targetMass 0 (1 / 10) (1 / 10) (uniform 0 (2 * Real.pi) (1 / 2)) with
  | none => intro h; exact absurd rfl h
  | some lh =>
    intro _
    refine ⟨lh.1, lh.2, ?_⟩
    obtain ⟨l, h⟩ := lh
    simp [beam, isLepton]

/-! ### Close to the x axis -/

/-- The axis of `C77_near_axis_fails`: two units in 10^5 away from the x axis. -/
noncomputable def nearX : Vec3 ℝ := ⟨50 * ((1 - 1e-10) / (1 + 1e-10)), 50 * (2e-5 / (1 + 1e-10)), 0⟩

theorem nearX_norm : nearX.norm = 50 := by
  have : Vec3.dot nearX nearX = 50 ^ 2 := by simp only [Vec3.dot, nearX]; norm_num
  rw [Vec3.norm, this]; exact Real.sqrt_sq (by norm_num)

theorem nearX_direction : direction nearX = ⟨(1 - 1e-10) / (1 + 1e-10), 2e-5 / (1 + 1e-10), 0⟩ := by
  unfold direction
  rw [if_pos (by rw [nearX_norm]; norm_num)]
  unfold Vec3.normalize
  rw [nearX_norm]
  simp only [nearX]
  ext <;> norm_num

/-- C77 fails for directions that are close to the x axis but not along it: `rotationBetween` takes the two directions for
equal, the momentum transfer is not rotated to the direction of the neutrino, and energy is not conserved, although the
sampled x and y are kinematically allowed. -/
theorem C77_near_axis_fails : ∃ (p : Vec3 ℝ) (M m x y phi : ℝ), p ≠ 0 ∧ 0 < M ∧ allowed x y p.norm M m = true ∧
    ∃ l h, finalState p 0 M m x y phi = some (l, h) ∧ l.e + h.e ≠ p.norm + M := by
  refine ⟨nearX, 1, 0, 1 / 2, 1 / 2, 0, ?_, by norm_num, ?_, ?_⟩
  · intro h
    have := nearX_norm
    rw [h] at this
    simp [Vec3.norm, Vec3.dot] at this
  · rw [nearX_norm, allowed_iff_quad (by norm_num) (by norm_num) (by norm_num)]
    refine ⟨by norm_num, by norm_num, ?_⟩
    unfold Quad; norm_num
  · set n := direction nearX with hn
    have hnu : Vec3.dot n n = 1 := direction_unit _
    have hid : rotationBetween ⟨1, 0, 0⟩ n = ⟨0, 0, 0, 1⟩ := by
      unfold rotationBetween
      simp only
      rw [if_pos]
      rw [nearX_direction] at hn
      rw [hn]
      simp only [Vec3.dot]
      rw [abs_lt]; constructor <;> norm_num
    have hone : ∀ v : Vec3 ℝ, rotApply ⟨0, 0, 0, 1⟩ v = v := by
      intro v
      rw [rotApply_eq (by simp [Quat.IsUnit, Quat.normSq])]
      ext <;> simp [Quat.sandwich]
    have hax : axisAngle n 0 = ⟨0, 0, 0, 1⟩ := by simp [axisAngle]
    have hpsq : Real.sqrt (nearX.x * nearX.x + nearX.y * nearX.y + nearX.z * nearX.z) = 50 := nearX_norm
    have hmq : (0 * 0 + 50 * 50 + 2 * 50 * 1 * (1 / 2 * (1 / 2)) + 50 * 50 * (1 / 2 * (1 / 2) - 1) : ℝ) = 650 := by norm_num
    have hpqx : ((0 * 0 + 0 * 0 + 2 * 50 * 50 + 2 * 50 * 1 * (1 / 2 * (1 / 2)) + 2 * 50 * 50 * (1 / 2 - 1)) / (2 * 50) : ℝ) =
        101 / 4 := by norm_num
    have h650 := Real.mul_self_sqrt (show (0 : ℝ) ≤ 650 by norm_num)
    have hlt : ¬ ((101 / 4 : ℝ) > Real.sqrt 650) := by
      intro hc
      have := Real.sqrt_nonneg 650
      nlinarith
    set b := Real.sqrt (Real.sqrt 650 * Real.sqrt 650 - 101 / 4 * (101 / 4)) with hb
    have hb2 : b * b = 199 / 16 := by
      rw [hb, Real.mul_self_sqrt (by rw [h650]; norm_num), h650]; norm_num
    have hb0 : 0 ≤ b := Real.sqrt_nonneg _
    have hb1 : 3 < b := by nlinarith
    have hdq : Vec3.dot (⟨101 / 4, b, 0⟩ : Vec3 ℝ) ⟨101 / 4, b, 0⟩ = 650 := by simp only [Vec3.dot]; nlinarith
    have hfs : finalState nearX 0 1 0 (1 / 2) (1 / 2) 0 = some
        (⟨Real.sqrt (0 * 0 + Vec3.dot (nearX - ⟨101 / 4, b, 0⟩) (nearX - ⟨101 / 4, b, 0⟩)), nearX - ⟨101 / 4, b, 0⟩, 0⟩,
         ⟨1 + 50 * (1 / 2), ⟨101 / 4, b, 0⟩, Real.sqrt (26 * 26 - 650)⟩) := by
      unfold finalState
      simp only [energy_massless, energy_at_rest (zero_le_one), hpsq, nearX_norm]
      rw [if_neg (by norm_num), hmq, hpqx]
      have e1 : sqrtN 650 = some (Real.sqrt 650) := by unfold sqrtN; rw [if_pos (by norm_num)]
      rw [e1]
      simp only [Option.bind_some]
      rw [if_neg hlt]
      have e2 : sqrtN (Real.sqrt 650 * Real.sqrt 650 - 101 / 4 * (101 / 4)) = some b := by
        unfold sqrtN; rw [if_pos (by rw [h650]; norm_num)]
      rw [e2]
      simp only [Option.bind_some, P4.ofEnergy, P4.rotate]
      rw [← hn, hid, hax, hone, hone]
      have hz : (⟨0, 0, 0⟩ : Vec3 ℝ) + ⟨101 / 4, b, 0⟩ = ⟨101 / 4, b, 0⟩ := by ext <;> simp
      have e4 : ((P4.ofMass ⟨0, 0, 0⟩ 1).add ⟨⟨101 / 4, b, 0⟩, 50 * (1 / 2), none, false⟩).m =
          some (Real.sqrt (26 * 26 - 650)) := by
        simp only [P4.m, P4.add, Bool.and_false, Bool.false_and, energy_at_rest (zero_le_one)]
        have : (P4.ofMass ⟨0, 0, 0⟩ 1).p + (⟨101 / 4, b, 0⟩ : Vec3 ℝ) = ⟨101 / 4, b, 0⟩ := hz
        rw [this, hdq, if_neg (by simp)]
        unfold sqrtN; rw [if_pos (by norm_num)]; norm_num
      rw [e4]
      simp only [P4.m, P4.ofMass, P4.sub, P4.add, Option.bind_some, Option.map_some, hz]
      have e5 : Real.sqrt (1 * 1 + Vec3.dot (⟨0, 0, 0⟩ : Vec3 ℝ) ⟨0, 0, 0⟩) = 1 := energy_at_rest (zero_le_one)
      rw [e5, Vec3.norm]
      simp only [mul_zero, zero_add]
    refine ⟨_, _, hfs, ?_⟩
    rw [nearX_norm]
    simp only
    intro hc
    have hl : Real.sqrt (0 * 0 + Vec3.dot (nearX - ⟨101 / 4, b, 0⟩) (nearX - ⟨101 / 4, b, 0⟩)) = 25 := by linarith
    have h2 := Real.mul_self_sqrt (show 0 ≤ 0 * 0 + Vec3.dot (nearX - ⟨101 / 4, b, 0⟩) (nearX - ⟨101 / 4, b, 0⟩) by
      have := Vec3.dot_self_nonneg (nearX - ⟨101 / 4, b, 0⟩); linarith)
    rw [hl] at h2
    simp only [Vec3.dot, Vec3.sub_x, Vec3.sub_y, Vec3.sub_z, nearX] at h2
    norm_num at h2
    nlinarith

end Dis
end Siren
