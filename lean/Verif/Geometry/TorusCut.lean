import Verif.Geometry.TorusExamples
import Verif.Geometry.SphereCut

set_option autoImplicit false
set_option linter.unusedSimpArgs false

/-!
# Lines and tori with an azimuthal cut, and their box
-/

namespace Siren.Geometry
namespace Torus

open Siren Quartic Real

/-! ### Model -/

open Classical in
/-- The crossings of both surfaces, in the order of their computation (Torus.cxx:352-356). -/
noncomputable def surfaces (srtR : List ℝ → List ℝ) (T : Shape) (o d : Vec3 ℝ) : List Isect :=
  surface srtR T.rtor T.rmax false o d ++ (if T.rmin > 0 then surface srtR T.rtor T.rmin true o d else [])

/-- `Torus::ComputeIntersections` with an azimuthal cut (Torus.cxx:377-433). -/
noncomputable def intersectionsCut (srtR : List ℝ → List ℝ) (srt : List SHit → List SHit) (T : Shape) (s w : ℝ) (o d : Vec3 ℝ) : List Isect :=
  let st : Nat → Bool := fun k => if k = 0 then false else Phi.initialPhiState o.x o.y d.x d.y s w
  andWalk 2 st (allIn 2 st) (srt ((surfaces srtR T o d).map (fun h => (⟨h, 0⟩ : SHit)) ++
    (Phi.wedgeHits snap s w o d).map (fun h => (⟨hitAt o d h.1 h.2, 1⟩ : SHit))))

/-! ### Theorems -/

variable {o d : Vec3 ℝ} {srtR : List ℝ → List ℝ}

theorem along_eq (o d : Vec3 ℝ) (t : ℝ) : along o d t = o + Vec3.smul t d := rfl

theorem alternates_last : ∀ (l : List Isect) (s : Bool), Alternates s l → (l.getLast?.map Isect.entering).getD s = false := by
  intro l
  induction l with
  | nil => intro s h; simpa [Alternates] using h
  | cons a as ih =>
    intro s h
    have := ih _ h.2
    rw [List.getLast?_cons]
    cases hl : as.getLast? with
    | none => rw [hl] at this; simpa using this
    | some x => rw [hl] at this; simpa using this

/-- C132 with an azimuthal cut: in addition the line crosses the half planes cleanly; then the crossings are in order, alternate, and tell
away from the boundaries whether the point is in the torus and in the sector. -/
theorem C132_cut_partial (hsR : IsSort srtR) {srt : List SHit → List SHit} (hs : IsHitSort srt) (T : Shape)
    (hd : d.x * d.x + d.y * d.y + d.z * d.z = 1) (h0 : 0 ≤ T.rmin) (h1 : T.rmin < T.rmax) (h2 : T.rmax + precision < T.rtor)
    (ho : Fair T.rtor T.rmax o d) (hi : 0 < T.rmin → Fair T.rtor T.rmin o d) {s w : ℝ} (hw0 : 0 < w) (hw1 : w < 2 * π)
    (hw : Phi.Clean s w o d ∨ Phi.Vertical s w o d) (hsp : Phi.Spread s w o d) :
    (intersectionsCut srtR srt T s w o d).Pairwise (fun a b => a.distance ≤ b.distance) ∧
    Alternates false (intersectionsCut srtR srt T s w o d) ∧
    ∀ t : ℝ, (∀ u : ℝ, tube T.rtor (along o d u) = T.rmax ^ 2 ∨ tube T.rtor (along o d u) = T.rmin ^ 2 ∨
        Phi.planeDist s (along o d u) = 0 ∨ Phi.planeDist (s + w) (along o d u) = 0 → 2 * precision ≤ |u - t|) →
      (stateFrom false (intersectionsCut srtR srt T s w o d) t = true ↔ T.Has (along o d t) ∧ Phi.InWedge s w (along o d t)) := by
  have hp := precision_pos
  obtain ⟨srtI, hI⟩ := exists_isectSort
  obtain ⟨hdes, -⟩ := C132_describes_partial hsR hI T hd h0 h1 h2 ho hi hp
  have hpermI : (intersections srtR srtI T o d).Perm (surfaces srtR T o d) := (hI _).1
  unfold intersectionsCut
  simp only
  set st : Nat → Bool := fun k => if k = 0 then false else Phi.initialPhiState o.x o.y d.x d.y s w with hst
  have hst0 : st 0 = false := rfl
  have hst1 : st 1 = Phi.initialPhiState o.x o.y d.x d.y s w := rfl
  obtain ⟨surf, hsurf⟩ : ∃ l, l = (surfaces srtR T o d).map (fun h => (⟨h, 0⟩ : SHit)) := ⟨_, rfl⟩
  obtain ⟨wed, hwed⟩ : ∃ l, l = (Phi.wedgeHits snap s w o d).map (fun h => (⟨hitAt o d h.1 h.2, 1⟩ : SHit)) := ⟨_, rfl⟩
  rw [← hsurf, ← hwed]
  have hin0 : allIn 2 st = false := by simp [allIn, hst0, List.range_succ]
  obtain ⟨hperm, hsorted⟩ := hs (surf ++ wed)
  have f0 : ofSource 0 (surf ++ wed) = surfaces srtR T o d := by
    rw [ofSource, List.filter_append, hsurf, hwed, List.filter_map, List.filter_map]
    simp [Function.comp_def]
  have f1 : ofSource 1 (surf ++ wed) = (Phi.wedgeHits snap s w o d).map (fun h => hitAt o d h.1 h.2) := by
    rw [ofSource, List.filter_append, hsurf, hwed, List.filter_map, List.filter_map]
    simp [Function.comp_def]
  have hsort : ∀ k, (ofSource k (srt (surf ++ wed))).Pairwise (fun a b => a.distance ≤ b.distance) := by
    intro k; unfold ofSource; rw [List.pairwise_map]; exact hsorted.filter _
  have hperm0 : (ofSource 0 (srt (surf ++ wed))).Perm (surfaces srtR T o d) := by
    rw [← f0]; exact (hperm.filter _).map _
  have hperm1 : (ofSource 1 (srt (surf ++ wed))).Perm ((Phi.wedgeHits snap s w o d).map (fun h => hitAt o d h.1 h.2)) := by
    rw [← f1]; exact (hperm.filter _).map _
  have e0 : ofSource 0 (srt (surf ++ wed)) = intersections srtR srtI T o d :=
    sorted_perm_eq hdes.strict (hperm0.trans hpermI.symm) (hsort 0)
  refine ⟨andWalk_pairwise 2 (· ≤ ·) _ hsorted _ _, ?_, ?_⟩
  · have := andWalk_alternates 2 (srt (surf ++ wed)) st ⟨0, by norm_num, ?_⟩
    · rwa [hin0] at this ⊢
    · rw [e0, hst0]
      exact alternates_last _ _ hdes.alternates
  · intro t ht
    have hnear : ∀ u, 2 * precision ≤ |u - t| → precision ≤ |snap u - t| := by
      intro u hu
      have h3 := snap_le u
      have h4 := snap_near u
      rcases le_total u t with h | h
      · rw [abs_of_nonpos (by linarith)] at hu ⊢; linarith
      · rw [abs_of_nonneg (by linarith)] at hu
        rw [abs_of_nonneg (by linarith)]; linarith
    have ht0 : ∀ x ∈ intersections srtR srtI T o d, precision ≤ |x.distance - t| := by
      intro x hx
      have hx' : x ∈ surfaces srtR T o d := hpermI.mem_iff.mp hx
      unfold surfaces at hx'
      have : 2 * precision ≤ |x.distance - t| := by
        rcases List.mem_append.mp hx' with h | h
        · exact ht _ (Or.inl (((surface_spec (srtR := srtR) hsR hd (by linarith) h2 ho false).2.1 _).mpr ⟨x, h, rfl⟩))
        · by_cases hr : T.rmin > 0
          · rw [if_pos hr] at h
            exact ht _ (Or.inr (Or.inl (((surface_spec (srtR := srtR) hsR hd h0 (by linarith) (hi hr) true).2.1 _).mpr ⟨x, h, rfl⟩)))
          · rw [if_neg hr] at h; simp at h
      linarith
    have ht1 : ∀ x ∈ ofSource 1 (srt (surf ++ wed)), precision ≤ |x.distance - t| := by
      intro x hx
      obtain ⟨y, hy, rfl⟩ := List.mem_map.1 (hperm1.mem_iff.1 hx)
      apply hnear
      apply ht
      right; right
      exact Sphere.wedge_on_plane snap s w o d y hy
    have hw1' := Phi.C74_wedge snap (Or.inl rfl) s w hw0 hw1 o d hw hsp _ hperm1 (hsort 1) t ht1
    have hwalk := andWalk_state 2 t (srt (surf ++ wed)) hsorted st
    rw [hin0] at hwalk
    rw [hin0, hwalk]
    have : allIn 2 (fun k => stateFrom (st k) (ofSource k (srt (surf ++ wed))) t) =
        (stateFrom (st 0) (ofSource 0 (srt (surf ++ wed))) t && stateFrom (st 1) (ofSource 1 (srt (surf ++ wed))) t) := by
      simp [allIn, List.range_succ]
    rw [this, Bool.and_eq_true, hst1, along_eq, hw1', ← along_eq, hdes.exact t ht0, ← e0, hst0]

/-- C132, a crossing less than 1e-9 after the start is reported at the start. -/
theorem C132_snap (R : ℝ) (invert : Bool) (o d : Vec3 ℝ) (x : ℝ) (h0 : 0 < x + shift o d) (h1 : x + shift o d < precision) :
    (hit R invert o d x).distance = 0 ∧ (hit R invert o d x).position = o := by
  have h : x + shift o d > 0 ∧ x + shift o d < precision := ⟨h0, h1⟩
  unfold hit
  simp only [if_pos h, true_and]
  rw [point_along]
  unfold along
  ext <;> simp

/-- Over a range of azimuths the component along an axis is largest at an end, unless the range contains the axis. -/
theorem support {s w φ a : ℝ} (hs : 0 ≤ s) (ha : a < 2 * π) (h1 : s ≤ φ) (h2 : φ ≤ s + w) (hc : ¬ turnedUp s a ≤ s + w + 1e-12) :
    cos (φ - a) ≤ cos (s - a) ∨ cos (φ - a) ≤ cos (s + w - a) := by
  have hpi := Real.pi_pos
  unfold turnedUp at hc
  set m := ⌈(s - a) / (2 * π)⌉₊ with hm
  push Not at hc
  have hlow : a + 2 * π * ((m : ℝ) - 1) < s := by
    by_cases h : m = 0
    · rw [h]; push_cast; linarith
    · have h3 : (m : ℝ) < (s - a) / (2 * π) + 1 := by
        apply Nat.ceil_lt_add_one
        by_contra hneg
        push Not at hneg
        exact h (Nat.ceil_eq_zero.mpr hneg.le)
      have h4 : ((m : ℝ) - 1) < (s - a) / (2 * π) := by linarith
      rw [lt_div_iff₀ (by linarith)] at h4
      linarith
  have hcos : ∀ x, cos (x - a) = cos (x - a - 2 * π * ((m : ℝ) - 1)) := by
    intro x
    have := Real.cos_sub_int_mul_two_pi (x - a) ((m : ℤ) - 1)
    rw [← this]
    push_cast
    congr 1
    ring
  rw [hcos φ, hcos s, hcos (s + w)]
  have hup : s + w < a + 2 * π * m := by norm_num at hc; linarith
  rcases le_total (φ - a - 2 * π * ((m : ℝ) - 1)) π with h | h
  · left
    exact Real.cos_le_cos_of_nonneg_of_le_pi (by linarith) h (by linarith)
  · right
    rw [← Real.cos_two_pi_sub (φ - a - 2 * π * ((m : ℝ) - 1)), ← Real.cos_two_pi_sub (s + w - a - 2 * π * ((m : ℝ) - 1))]
    exact Real.cos_le_cos_of_nonneg_of_le_pi (by linarith) (by linarith) (by linarith)

theorem support_mem {s w φ : ℝ} (k : ℕ) (hk : k < 4) (hs : 0 ≤ s) (h1 : s ≤ φ) (h2 : φ ≤ s + w) :
    ∃ b ∈ boxAngles s w, cos (φ - k * π / 2) ≤ cos (b - k * π / 2) := by
  have hpi := Real.pi_pos
  have hk' : (k : ℝ) ≤ 3 := by exact_mod_cast Nat.le_of_lt_succ hk
  by_cases hc : turnedUp s (k * π / 2) ≤ s + w + 1e-12
  · refine ⟨k * π / 2, ?_, ?_⟩
    · unfold boxAngles
      refine List.mem_append_right _ (List.mem_filter.mpr ⟨List.mem_map.mpr ⟨k, List.mem_range.mpr hk, rfl⟩, by simpa using hc⟩)
    · rw [sub_self, cos_zero]; exact cos_le_one _
  · rcases support hs (by nlinarith) h1 h2 hc with h | h
    · exact ⟨s, by simp [boxAngles], h⟩
    · exact ⟨s + w, by simp [boxAngles], h⟩

/-- C132, the box with an azimuthal cut: if the sector does not start at a negative azimuth, the box contains the part of the torus in it. -/
theorem C132_box_cut (T : Shape) (hR : 0 ≤ T.rtor) (hr : 0 ≤ T.rmax) {s w : ℝ} (hs : 0 ≤ s) (q : Vec3 ℝ) (hq : T.Has q) (hsec : Sector s w q) :
    InBox T s w q := by
  obtain ⟨φ, g1, g2, gx, gy⟩ := hsec
  obtain ⟨-, hq⟩ := hq
  unfold tube at hq
  have hz : |q.z| ≤ T.rmax := abs_le_of_sq_le_sq (by nlinarith [sq_nonneg (rho q - T.rtor)]) hr
  have hk : |rho q - T.rtor| ≤ T.rmax := abs_le_of_sq_le_sq (by nlinarith [sq_nonneg q.z]) hr
  -- along a unit vector
  have key : ∀ c b : ℝ, |c| ≤ 1 → c ≤ b → rho q * c ≤ T.rtor * b + T.rmax := by
    intro c b hc hb
    have e1 : (rho q - T.rtor) * c ≤ T.rmax := by
      calc (rho q - T.rtor) * c ≤ |(rho q - T.rtor) * c| := le_abs_self _
        _ = |rho q - T.rtor| * |c| := abs_mul _ _
        _ ≤ T.rmax * 1 := mul_le_mul hk hc (abs_nonneg _) hr
        _ = T.rmax := mul_one _
    have e2 := mul_le_mul_of_nonneg_left hb hR
    linarith
  have c1 := Real.abs_cos_le_one φ
  have s1 := Real.abs_sin_le_one φ
  obtain ⟨b0, m0, i0⟩ := support_mem (s := s) (w := w) (φ := φ) 0 (by norm_num) hs g1 g2
  obtain ⟨b1, m1, i1⟩ := support_mem (s := s) (w := w) (φ := φ) 1 (by norm_num) hs g1 g2
  obtain ⟨b2, m2, i2⟩ := support_mem (s := s) (w := w) (φ := φ) 2 (by norm_num) hs g1 g2
  obtain ⟨b3, m3, i3⟩ := support_mem (s := s) (w := w) (φ := φ) 3 (by norm_num) hs g1 g2
  have t0 : ∀ x : ℝ, cos (x - (0 : ℕ) * π / 2) = cos x := fun x => by congr 1; push_cast; ring
  have t1 : ∀ x : ℝ, cos (x - (1 : ℕ) * π / 2) = sin x := fun x => by
    rw [← Real.cos_sub_pi_div_two]; congr 1; push_cast; ring
  have t2 : ∀ x : ℝ, cos (x - (2 : ℕ) * π / 2) = -cos x := fun x => by
    rw [← Real.cos_sub_pi]; congr 1; push_cast; ring
  have t3 : ∀ x : ℝ, cos (x - (3 : ℕ) * π / 2) = -sin x := fun x => by
    rw [← Real.cos_add_pi_div_two, ← Real.cos_sub_two_pi (x + π / 2)]; congr 1; push_cast; ring
  rw [t0, t0] at i0
  rw [t1, t1] at i1
  rw [t2, t2] at i2
  rw [t3, t3] at i3
  refine ⟨⟨b2, m2, ?_⟩, ⟨b0, m0, ?_⟩, ⟨b3, m3, ?_⟩, ⟨b1, m1, ?_⟩, (abs_le.mp hz).1, (abs_le.mp hz).2⟩
  · rw [gx]; have := key (-cos φ) (-cos b2) (by rwa [abs_neg]) i2; linarith
  · rw [gx]; exact key _ _ c1 i0
  · rw [gy]; have := key (-sin φ) (-sin b3) (by rwa [abs_neg]) i3; linarith
  · rw [gy]; exact key _ _ s1 i1

/-- A sector of three quarters, and a point of the torus in it. -/
example : (⟨2, 1, 0⟩ : Shape).Has ⟨-3, 0, 0⟩ ∧ Sector 1 (3 * π / 2) ⟨-3, 0, 0⟩ ∧ (0 : ℝ) ≤ 1 := by
  have hrho : rho ⟨-3, 0, 0⟩ = 3 := by
    unfold rho; simp only
    rw [show (-3 : ℝ) * -3 + 0 * 0 = 3 * 3 by norm_num, Real.sqrt_mul_self (by norm_num)]
  have := Real.two_le_pi
  refine ⟨?_, ⟨π, by linarith, by linarith, ?_, ?_⟩, by norm_num⟩
  · unfold Shape.Has tube; rw [hrho]; norm_num
  · rw [hrho, cos_pi]; norm_num
  · rw [hrho, sin_pi]; norm_num

/-- A line along the axis through the tube, and a sector around it. -/
example : ∃ srtR srt, IsSort srtR ∧ IsHitSort srt ∧ Fair 2 1 (start 2) up ∧ Fair 2 (1 / 2) (start 2) up ∧ Phi.Vertical (-1) 2 (start 2) up ∧
    Phi.Spread (-1) 2 (start 2) up ∧
    (stateFrom false (intersectionsCut srtR srt ⟨2, 1, 1 / 2⟩ (-1) 2 (start 2) up) (5 + 3 / 4) = true ↔
      (⟨2, 1, 1 / 2⟩ : Shape).Has (along (start 2) up (5 + 3 / 4)) ∧ Phi.InWedge (-1) 2 (along (start 2) up (5 + 3 / 4))) := by
  obtain ⟨srtR, hR⟩ := exists_sort
  have hpi := Real.two_le_pi
  have hsrt : ∃ srt, IsHitSort srt := by
    refine ⟨fun l => l.insertionSort (fun a b => a.isect.distance ≤ b.isect.distance), fun l => ⟨List.perm_insertionSort _ _, ?_⟩⟩
    have : Std.Total (fun a b : SHit => a.isect.distance ≤ b.isect.distance) := ⟨fun a b => le_total _ _⟩
    have : IsTrans SHit (fun a b : SHit => a.isect.distance ≤ b.isect.distance) := ⟨fun a b c => le_trans⟩
    exact List.pairwise_insertionSort _ _
  obtain ⟨srt, hs⟩ := hsrt
  have f1 : Fair 2 1 (start 2) up := fair_up (by norm_num) le_rfl
  have f2 : Fair 2 (1 / 2) (start 2) up := fair_up (by norm_num) (by norm_num)
  have hsin : sin (1 : ℝ) ≠ 0 := (sin_pos_of_pos_of_lt_pi (by norm_num) (by linarith)).ne'
  have hplane : ∀ t, Phi.planeDist (-1) (along (start 2) up t) ≠ 0 ∧ Phi.planeDist (-1 + 2) (along (start 2) up t) ≠ 0 := by
    intro t
    rw [along_up]
    unfold Phi.planeDist
    simp only
    rw [sin_neg, show (-1 + 2 : ℝ) = 1 by norm_num]
    constructor <;> (intro h; apply hsin; linarith)
  have hat : Phi.atan2 (start 2).y (start 2).x = 0 := by
    unfold Phi.atan2 start
    have : (⟨2, 0⟩ : ℂ) = ((2 : ℝ) : ℂ) := by apply Complex.ext <;> simp
    rw [this, Complex.arg_ofReal_of_nonneg (by norm_num)]
  have hfar : ∀ (k : ℤ) (c : ℝ), c = 1 ∨ c = -1 → Phi.tol < |c + k * (2 * π)| := by
    intro k c hc
    unfold Phi.tol
    have hk : k ≤ -1 ∨ k = 0 ∨ 1 ≤ k := by omega
    rcases hk with hk | hk | hk
    · have h : (k : ℝ) ≤ -1 := by exact_mod_cast hk
      have h5 : (k : ℝ) * (2 * π) ≤ -(2 * π) := by nlinarith
      rw [lt_abs]; right
      rcases hc with rfl | rfl <;> linarith
    · rw [hk, Int.cast_zero, zero_mul, add_zero]
      rcases hc with rfl | rfl <;> norm_num
    · have h : (1 : ℝ) ≤ k := by exact_mod_cast hk
      have h5 : 2 * π ≤ (k : ℝ) * (2 * π) := by nlinarith
      rw [lt_abs]; left
      rcases hc with rfl | rfl <;> linarith
  have hv : Phi.Vertical (-1) 2 (start 2) up := by
    refine ⟨rfl, rfl, by unfold start; norm_num, fun k => ⟨?_, ?_⟩⟩
    · rw [hat]; exact hfar k _ (Or.inl (by norm_num))
    · rw [hat]; exact hfar k _ (Or.inr (by norm_num))
  have hsp : Phi.Spread (-1) 2 (start 2) up := fun t u h _ _ => absurd h (hplane t).1
  refine ⟨srtR, srt, hR, hs, f1, f2, hv, hsp, ?_⟩
  refine (C132_cut_partial hR hs ⟨2, 1, 1 / 2⟩ (by unfold up; norm_num) (by norm_num) (by norm_num) (by simp only; unfold precision; norm_num) f1 (fun _ => f2)
    (by norm_num) (by linarith) (Or.inr hv) hsp).2.2 (5 + 3 / 4) ?_
  intro u hu
  have ht : tube 2 (along (start 2) up u) = (u - 5) ^ 2 := by
    rw [along_up]; unfold tube; rw [rho_up (by norm_num)]; norm_num
  have h18 : (1 : ℝ) / 8 ≤ |u - (5 + 3 / 4)| := by
    simp only [ht] at hu
    rcases hu with h | h | h | h
    · have : (u - 6) * (u - 4) = 0 := by linear_combination h
      rcases mul_eq_zero.mp this with h | h
      · rw [le_abs]; left; linarith
      · rw [le_abs]; right; linarith
    · have : (u - 11 / 2) * (u - 9 / 2) = 0 := by linear_combination h
      rcases mul_eq_zero.mp this with h | h
      · rw [le_abs]; right; linarith
      · rw [le_abs]; right; linarith
    · exact absurd h (hplane u).1
    · exact absurd h (hplane u).2
  unfold precision
  linarith

end Torus
end Siren.Geometry
