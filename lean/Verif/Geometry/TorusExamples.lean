import Verif.Geometry.Torus
import Mathlib.Analysis.SpecialFunctions.Trigonometric.Basic

set_option autoImplicit false
set_option linter.unusedSimpArgs false

/-!
# Lines and tori: a case of the theorem, and where the code fails
-/

namespace Siren.Geometry
namespace Torus

open Siren Quartic

theorem exists_sort : ∃ srtR, IsSort srtR := by
  refine ⟨fun l => l.insertionSort (fun a b => a ≤ b), fun l => ⟨List.perm_insertionSort _ _, ?_⟩⟩
  exact List.pairwise_insertionSort _ _

/-! ### A line parallel to the axis -/

/-- A line parallel to the axis, below the torus. -/
def start (x : ℝ) : Vec3 ℝ := ⟨x, 0, -5⟩
def up : Vec3 ℝ := ⟨0, 0, 1⟩

theorem shift_up (x : ℝ) : shift (start x) up = 5 := by unfold shift start up; norm_num

theorem near_up (x : ℝ) : near (start x) up = ⟨x, 0, 0⟩ := by
  unfold near; rw [shift_up]; unfold start up; norm_num

theorem along_up (x t : ℝ) : along (start x) up t = ⟨x, 0, t - 5⟩ := by
  unfold along start up; ext <;> simp
  ring

theorem rho_up {x : ℝ} (hx : 0 ≤ x) (z : ℝ) : rho ⟨x, 0, z⟩ = x := by
  unfold rho; simp only; rw [mul_zero, add_zero, Real.sqrt_mul_self hx]

theorem coeffs (R r x : ℝ) : c3 (start x) up = 0 ∧ c2 R r (start x) up = 2 * (x * x + R * R - r * r) ∧ c1 R r (start x) up = 0 ∧
    c0 R r (start x) up = (x * x + R * R - r * r) ^ 2 - 4 * R * R * (x * x) := by
  unfold c3 c2 c1 c0 alpha
  rw [near_up]
  unfold up
  simp only
  refine ⟨by ring, by ring, by ring, by ring⟩

theorem fair_up {r : ℝ} (h0 : 1e-4 ≤ r) (h1 : r ≤ 1) : Fair 2 r (start 2) up := by
  have ht : ∀ t, tube 2 (along (start 2) up t) = r ^ 2 ↔ t = 5 + r ∨ t = 5 - r := by
    intro t
    rw [along_up]
    unfold tube
    rw [rho_up (by norm_num)]
    simp only
    have : (2 - 2 : ℝ) ^ 2 + (t - 5) ^ 2 = r ^ 2 ↔ (t - (5 + r)) * (t - (5 - r)) = 0 := by
      constructor <;> intro h <;> linear_combination h
    rw [this, mul_eq_zero, sub_eq_zero, sub_eq_zero]
  refine ⟨?_, ?_, ?_, ?_⟩
  · obtain ⟨e3, e2, e1, e0⟩ := coeffs 2 r 2
    rw [e3, e2, e1, e0]
    left
    have hp : depP 0 (2 * (2 * 2 + 2 * 2 - r * r)) = 16 - 2 * r ^ 2 := by unfold depP; ring
    have hr : depR 0 (2 * (2 * 2 + 2 * 2 - r * r)) 0 ((2 * 2 + 2 * 2 - r * r) ^ 2 - 4 * 2 * 2 * (2 * 2)) = (8 - r ^ 2) ^ 2 - 64 := by unfold depR; ring
    refine ⟨by unfold depQ; ring, Or.inr ?_⟩
    rw [hp, hr]
    have hd : (16 - 2 * r ^ 2) * (16 - 2 * r ^ 2) - 4 * ((8 - r ^ 2) ^ 2 - 64) = 16 * 16 := by ring
    rw [hd, Real.sqrt_mul_self (by norm_num)]
    have hr1 : r ^ 2 ≤ 1 := by nlinarith
    have hr0 : 0 ≤ r ^ 2 := sq_nonneg _
    have hm : max |16 - 2 * r ^ 2| 16 = 16 := by
      apply max_eq_right
      rw [abs_of_pos (by linarith)]
      linarith
    rw [hm]
    refine ⟨by norm_num, fun u hu => ?_, Or.inr (by norm_num)⟩
    have : (u - r ^ 2) * (u - (r ^ 2 - 16)) = 0 := by linear_combination hu
    rcases mul_eq_zero.mp this with h | h
    · left; linarith
    · right; norm_num; linarith
  · intro t h
    rw [along_up]
    unfold rate
    rw [rho_up (by norm_num)]
    unfold up
    simp only
    rcases (ht t).mp h with rfl | rfl <;> norm_num <;> linarith
  · intro t t' h h' hlt
    rw [shift_up]
    rcases (ht t).mp h with rfl | rfl <;> rcases (ht t').mp h' with rfl | rfl
    · exact absurd hlt (lt_irrefl _)
    · linarith
    · rw [add_sub_cancel_left, abs_of_pos (by linarith)]
      norm_num
      linarith
    · exact absurd hlt (lt_irrefl _)
  · intro t h hc
    unfold precision at hc
    rcases (ht t).mp h with rfl | rfl
    · norm_num at hc; linarith
    · norm_num at hc; linarith

/-- A line through the middle of the tube of a hollow torus. -/
example : ∃ srtR srt, IsSort srtR ∧ IsIsectSort srt ∧ up.x * up.x + up.y * up.y + up.z * up.z = 1 ∧ (0 : ℝ) < 1 / 2 ∧ (1 / 2 : ℝ) < 1 ∧
    (1 : ℝ) + precision < 2 ∧ Fair 2 1 (start 2) up ∧ Fair 2 (1 / 2) (start 2) up ∧
    (⟨2, 1, 1 / 2⟩ : Shape).Has (along (start 2) up (5 + 3 / 4)) ∧ ¬ (⟨2, 1, 1 / 2⟩ : Shape).Has (along (start 2) up 5) ∧
    Describes 1e-9 (fun t => (⟨2, 1, 1 / 2⟩ : Shape).Has (along (start 2) up t)) (intersections srtR srt ⟨2, 1, 1 / 2⟩ (start 2) up) := by
  obtain ⟨srtR, hR⟩ := exists_sort
  obtain ⟨srt, hs⟩ := exists_isectSort
  have hu : up.x * up.x + up.y * up.y + up.z * up.z = 1 := by unfold up; norm_num
  have f1 : Fair 2 1 (start 2) up := fair_up (by norm_num) le_rfl
  have f2 : Fair 2 (1 / 2) (start 2) up := fair_up (by norm_num) (by norm_num)
  have hp : (1 : ℝ) + precision < 2 := by unfold precision; norm_num
  refine ⟨srtR, srt, hR, hs, hu, by norm_num, by norm_num, hp, f1, f2, ?_, ?_, ?_⟩
  · rw [along_up]; unfold Shape.Has tube; rw [rho_up (by norm_num)]; norm_num
  · rw [along_up]; unfold Shape.Has tube; rw [rho_up (by norm_num)]; norm_num
  · exact (C132_describes_partial hR hs ⟨2, 1, 1 / 2⟩ hu (by norm_num) (by norm_num) hp f1 (fun _ => f2) (by norm_num)).1

/-! ### A short chord -/

theorem pair_sort {srtR : List ℝ → List ℝ} (h : IsSort srtR) {a b : ℝ} (hab : a ≤ b) : srtR [b, a] = [a, b] := by
  obtain ⟨h1, h2⟩ := h [b, a]
  have h3 : (srtR [b, a]).Perm [a, b] := h1.trans (List.Perm.swap _ _ _)
  exact h3.eq_of_pairwise (fun x y _ _ p q => le_antisymm p q) h2 (by simp [hab])

/-- C132 fails for a chord shorter than a millionth: the line enters the torus and, as reported, never leaves. -/
theorem C132_chord_fails {srtR : List ℝ → List ℝ} (hR : IsSort srtR) {srt : List Isect → List Isect} (hs : IsIsectSort srt) :
    ∃ T : Shape, 0 ≤ T.rmin ∧ T.rmin < T.rmax ∧ T.rmax + precision < T.rtor ∧ T.Has (along (start 3) up 5) ∧
      (∀ t, 6 ≤ t → ¬ T.Has (along (start 3) up t)) ∧
      ∃ h, intersections srtR srt T (start 3) up = [h] ∧ h.entering = true ∧ h.distance < 5 := by
  set e : ℝ := 4e-7 with he
  have he0 : 0 < e := by rw [he]; norm_num
  have hr0 : (0 : ℝ) ≤ 1 + e ^ 2 := by positivity
  set r := Real.sqrt (1 + e ^ 2) with hrdef
  have hr2 : r * r = 1 + e ^ 2 := Real.mul_self_sqrt hr0
  have hrp : 0 < r := Real.sqrt_pos.mpr (by positivity)
  have hr1 : r < 3 / 2 := by
    have : e ^ 2 < 1 := by rw [he]; norm_num
    nlinarith
  have htube : ∀ t, tube 2 (along (start 3) up t) = 1 + (t - 5) ^ 2 := by
    intro t; rw [along_up]; unfold tube; rw [rho_up (by norm_num)]; norm_num
  refine ⟨⟨2, r, 0⟩, le_rfl, hrp, by simp only; unfold precision; linarith, ?_, ?_, ?_⟩
  · unfold Shape.Has; rw [htube]; simp only
    constructor
    · norm_num
    · have := sq_nonneg e; nlinarith
  · intro t ht h
    unfold Shape.Has at h
    rw [htube] at h
    simp only at h
    have : e ^ 2 < 1 := by rw [he]; norm_num
    nlinarith [h.2]
  · -- the quartic
    obtain ⟨e3, e2, e1, e0⟩ := coeffs 2 r 3
    have e2' : c2 2 r (start 3) up = 2 * (12 - e ^ 2) := by rw [e2, hr2]; ring
    have e0' : c0 2 r (start 3) up = (12 - e ^ 2) ^ 2 - 144 := by rw [e0, hr2]; ring
    have hse : e ^ 2 < 1 := by rw [he]; norm_num
    have hq : quartic 0 (2 * (12 - e ^ 2)) 0 ((12 - e ^ 2) ^ 2 - 144) = [e, -e] := by
      unfold quartic
      have hQ : depQ 0 (2 * (12 - e ^ 2)) 0 = 0 := by unfold depQ; ring
      have hP : depP 0 (2 * (12 - e ^ 2)) = 2 * (12 - e ^ 2) := by unfold depP; ring
      have hRr : depR 0 (2 * (12 - e ^ 2)) 0 ((12 - e ^ 2) ^ 2 - 144) = (12 - e ^ 2) ^ 2 - 144 := by unfold depR; ring
      simp only
      rw [hQ, hP, hRr, abs_zero, if_pos (by
        have : (1 : ℝ) ≤ scale (2 * (12 - e ^ 2)) ((12 - e ^ 2) ^ 2 - 144) := le_max_left _ _
        positivity)]
      unfold biquadratic
      simp only
      have hd : 2 * (12 - e ^ 2) * (2 * (12 - e ^ 2)) - 4 * ((12 - e ^ 2) ^ 2 - 144) = 24 * 24 := by ring
      rw [hd, if_neg (by
        have : 0 ≤ 1e-10 * max (2 * (12 - e ^ 2) * (2 * (12 - e ^ 2))) |(12 - e ^ 2) ^ 2 - 144| :=
          mul_nonneg (by norm_num) (le_trans (abs_nonneg _) (le_max_right _ _))
        linarith), if_neg (by norm_num : ¬ (24 * 24 : ℝ) < 0), Real.sqrt_mul_self (by norm_num)]
      have hm : max |2 * (12 - e ^ 2)| 24 = 24 := by
        apply max_eq_right
        rw [abs_of_pos (by linarith)]
        linarith [sq_nonneg e]
      rw [hm]
      have hu1 : (-(2 * (12 - e ^ 2)) + 24) / 2 = e ^ 2 := by ring
      have hu2 : (-(2 * (12 - e ^ 2)) - 24) / 2 = e ^ 2 - 24 := by ring
      rw [hu1, hu2, if_pos (by have := sq_nonneg e; norm_num), if_neg (by have := sq_nonneg e; linarith), if_neg (by
        rintro ⟨h, -⟩
        norm_num at h), Real.sqrt_sq he0.le]
      simp
    have hroot : ∀ x : ℝ, x ^ 2 = e ^ 2 → poly 0 (2 * (12 - e ^ 2)) 0 ((12 - e ^ 2) ^ 2 - 144) x = 0 := by
      intro x hx
      unfold poly
      have : x ^ 4 = e ^ 4 := by calc x ^ 4 = (x ^ 2) ^ 2 := by ring
        _ = _ := by rw [hx]; ring
      rw [this, hx]; ring
    have hres : ∀ x : ℝ, x ^ 2 = e ^ 2 → (rho (point (start 3) up x) - 2) * (rho (point (start 3) up x) - 2) +
        (point (start 3) up x).z * (point (start 3) up x).z - r * r = 0 := by
      intro x hx
      have := htube (x + 5)
      rw [point_along, shift_up]
      unfold tube at this
      rw [hr2]
      linear_combination this + hx
    have htol : ¬ |(0 : ℝ)| > 1e-4 * (r * r + 2 * 2) := by
      rw [abs_zero]
      have : 0 ≤ 1e-4 * (r * r + 2 * 2) := by positivity
      linarith
    have hsurf : surface srtR 2 r false (start 3) up = [hit 2 false (start 3) up (-e)] := by
      unfold surface
      simp only
      rw [e3, e2', e1, e0', hq, List.map_cons, List.map_cons, List.map_nil, newton_root (hroot e rfl), newton_root (hroot (-e) (by ring)),
        pair_sort hR (by linarith), keep]
      rw [hres (-e) (by ring), if_neg htol, if_neg (by simp), keep, hres e rfl, if_neg htol, if_pos, keep]
      · rfl
      · refine ⟨-e, rfl, ?_⟩
        rw [abs_of_pos (by linarith), abs_of_pos he0, he]
        norm_num
    refine ⟨hit 2 false (start 3) up (-e), ?_, ?_, ?_⟩
    · unfold intersections
      simp only
      rw [if_neg (by norm_num), List.append_nil, hsurf]
      exact List.perm_singleton.mp (hs _).1
    · have hsn : ¬ (-e + 5 > 0 ∧ -e + 5 < precision) := by
        rintro ⟨-, h⟩
        unfold precision at h
        rw [he] at h
        norm_num at h
      unfold hit
      simp only [shift_up, if_neg hsn, Bool.false_eq_true, if_false]
      rw [point_along, shift_up, along_up, rho_up (by norm_num), if_pos (by unfold precision; norm_num)]
      unfold up
      simp
      linarith
    · have hsn : ¬ (-e + 5 > 0 ∧ -e + 5 < precision) := by
        rintro ⟨-, h⟩
        unfold precision at h
        rw [he] at h
        norm_num at h
      unfold hit
      simp only [shift_up, if_neg hsn]
      linarith

/-! ### The box with an azimuthal cut -/

/-- `while(shifted < start_phi_) shifted += 2.0 * M_PI;` (Torus.cxx:464-465): the number of turns added. -/
noncomputable def turnedUp (s a : ℝ) : ℝ := a + 2 * Real.pi * (⌈(s - a) / (2 * Real.pi)⌉₊ : ℝ)

open Classical in
/-- The angles at which `Torus::GetBoundingBox` takes the circle (Torus.cxx:452-472). -/
noncomputable def boxAngles (s w : ℝ) : List ℝ :=
  [s, s + w] ++ ((List.range 4).map (fun k : ℕ => (k : ℝ) * Real.pi / 2)).filter (fun a => decide (turnedUp s a ≤ s + w + 1e-12))

/-- A point is in the box with an azimuthal cut (Torus.cxx:452-473). -/
def InBox (T : Shape) (s w : ℝ) (q : Vec3 ℝ) : Prop :=
  (∃ a ∈ boxAngles s w, T.rtor * Real.cos a - T.rmax ≤ q.x) ∧ (∃ a ∈ boxAngles s w, q.x ≤ T.rtor * Real.cos a + T.rmax) ∧
  (∃ a ∈ boxAngles s w, T.rtor * Real.sin a - T.rmax ≤ q.y) ∧ (∃ a ∈ boxAngles s w, q.y ≤ T.rtor * Real.sin a + T.rmax) ∧
  -T.rmax ≤ q.z ∧ q.z ≤ T.rmax

/-- The points between two azimuths. -/
def Sector (s w : ℝ) (q : Vec3 ℝ) : Prop := ∃ a, s ≤ a ∧ a ≤ s + w ∧ q.x = rho q * Real.cos a ∧ q.y = rho q * Real.sin a

/-- C132 fails for the box of a torus cut at a negative azimuth: a point of the torus is outside. -/
theorem C132_box_fails : ∃ (T : Shape) (s w : ℝ) (q : Vec3 ℝ), 0 ≤ T.rmin ∧ T.rmin < T.rmax ∧ T.rmax < T.rtor ∧ 0 < w ∧ w < 2 * Real.pi ∧
    T.Has q ∧ Sector s w q ∧ ¬ InBox T s w q := by
  have hpi := Real.pi_pos
  have hpi3 := Real.two_le_pi
  have hrho : rho ⟨0, -3, 0⟩ = 3 := by
    unfold rho; simp only
    rw [show (0 : ℝ) * 0 + -3 * -3 = 3 * 3 by norm_num, Real.sqrt_mul_self (by norm_num)]
  refine ⟨⟨2, 1, 0⟩, -(3 * Real.pi / 4), 3 * Real.pi / 2, ⟨0, -3, 0⟩, by norm_num, by norm_num, by norm_num, by linarith, by linarith, ?_, ?_, ?_⟩
  · unfold Shape.Has tube; rw [hrho]; norm_num
  · refine ⟨-(Real.pi / 2), by linarith, by linarith, ?_, ?_⟩
    · rw [hrho, Real.cos_neg, Real.cos_pi_div_two]; norm_num
    · rw [hrho, Real.sin_neg, Real.sin_pi_div_two]; norm_num
  · rintro ⟨-, -, ⟨a, ha, h⟩, -⟩
    simp only at h
    have hs : Real.sin (3 * Real.pi / 4) = Real.sqrt 2 / 2 := by
      rw [show 3 * Real.pi / 4 = Real.pi - Real.pi / 4 by ring, Real.sin_pi_sub, Real.sin_pi_div_four]
    have h2 : Real.sqrt 2 < 3 / 2 := by
      rw [Real.sqrt_lt' (by norm_num)]; norm_num
    have h20 := Real.sqrt_nonneg 2
    unfold boxAngles at ha
    rcases List.mem_append.mp ha with ha | ha
    · simp only [List.mem_cons, List.not_mem_nil, or_false] at ha
      rcases ha with rfl | rfl
      · rw [Real.sin_neg, hs] at h; linarith
      · rw [show -(3 * Real.pi / 4) + 3 * Real.pi / 2 = 3 * Real.pi / 4 by ring, hs] at h; linarith
    · obtain ⟨ha, hk⟩ := List.mem_filter.mp ha
      obtain ⟨k, -, rfl⟩ := List.mem_map.mp ha
      simp only [decide_eq_true_eq] at hk
      have hup : (k : ℝ) * Real.pi / 2 ≤ turnedUp (-(3 * Real.pi / 4)) ((k : ℝ) * Real.pi / 2) := by
        unfold turnedUp
        have : 0 ≤ 2 * Real.pi * (⌈(-(3 * Real.pi / 4) - (k : ℝ) * Real.pi / 2) / (2 * Real.pi)⌉₊ : ℝ) := by positivity
        linarith
      have hk2 : k < 2 := by
        by_contra hc
        push Not at hc
        have : (2 : ℝ) ≤ k := by exact_mod_cast hc
        have : 2 * Real.pi ≤ k * Real.pi := by nlinarith
        norm_num at hk
        linarith
      have h0 : 0 ≤ Real.sin ((k : ℝ) * Real.pi / 2) := by
        rcases (by omega : k = 0 ∨ k = 1) with rfl | rfl
        · simp
        · norm_num
      linarith

end Torus
end Siren.Geometry
