import Verif.Geometry.Cone

set_option autoImplicit false

/-!
# The walls of a polycone

What `Cone.wall` returns for a wall given by its radius `a + b * z` and any condition on the height. The model of the code is in
`Verif.Geometry.Polycone`.
-/

namespace Siren.Geometry.Polycone

open Siren Siren.Geometry Siren.Geometry.Cone Filter Topology

/-- The square of the distance from the axis, less that of a wall with radius `a + b * z`. -/
noncomputable def wq (a b : ℝ) (v : Vec3 ℝ) : ℝ := v.x ^ 2 + v.y ^ 2 - (a + b * v.z) ^ 2

/-- Positive if the zeros of `wq` along the line are simple. -/
noncomputable def wdisc (a b : ℝ) (p d : Vec3 ℝ) : ℝ := coeffB a b p d / 2 * (coeffB a b p d / 2) - coeffA b d * coeffC a b p

/-- Half the slope of `wq` along the line. -/
noncomputable def wrate (a b : ℝ) (p d : Vec3 ℝ) (t : ℝ) : ℝ := coeffA b d * t + coeffB a b p d / 2

theorem wq_line (a b : ℝ) (p d : Vec3 ℝ) (u : ℝ) : wq a b (p + Vec3.smul u d) =
    coeffA b d * u ^ 2 + 2 * (coeffB a b p d / 2) * u + coeffC a b p := by
  unfold wq coeffA coeffB coeffC
  simp only [Vec3.add_x, Vec3.add_y, Vec3.add_z, Vec3.smul_x, Vec3.smul_y, Vec3.smul_z]
  ring

theorem wq_cont (a b : ℝ) (p d : Vec3 ℝ) : Continuous fun u => wq a b (p + Vec3.smul u d) := by
  simp only [wq_line]; fun_prop

theorem wq_flips (a b : ℝ) (p d : Vec3 ℝ) (t : ℝ) (hd : 0 < wdisc a b p d) (h0 : wq a b (p + Vec3.smul t d) = 0) :
    Flips (fun u => wq a b (p + Vec3.smul u d) < 0) t (decide (wrate a b p d t < 0)) := by
  simp only [wq_line]
  exact quadratic_flips_disc _ _ _ t hd (by rw [← wq_line]; exact h0)

/-- The line is parallel to a wall or clearly not. -/
def Steep (a b : ℝ) (p d : Vec3 ℝ) : Prop :=
  precision < |d.x * d.x + d.y * d.y - b * b * d.z * d.z| ∨
  (d.x * d.x + d.y * d.y - b * b * d.z * d.z = 0 ∧
    (p.x * d.x + p.y * d.y - b * d.z * (a + b * p.z) = 0 ∨ precision < |2 * (p.x * d.x + p.y * d.y - b * d.z * (a + b * p.z))|))

theorem mem_wallHit (a b : ℝ) (ok : ℝ → Prop) (hpos : ∀ z, ok z → 0 ≤ a + b * z) (inner : Bool) (p d : Vec3 ℝ) (t : ℝ)
    (hcl : Clearly (fun u => ok (p + Vec3.smul u d).z) (fun u => ok (p + Vec3.smul u d).z) t) (x : ℝ × Bool) :
    x ∈ wallHit ok inner a b p d t ↔ ok (p + Vec3.smul t d).z ∧
      x = (t, xor inner (decide (coeffA b d * snap t + coeffB a b p d / 2 < 0))) := by
  have e : (p.x + snap t * d.x) * d.x + (p.y + snap t * d.y) * d.y - b * (a + b * (p.z + snap t * d.z)) * d.z =
      coeffA b d * snap t + coeffB a b p d / 2 := by unfold coeffA coeffB; ring
  unfold wallHit
  simp only [e]
  have ez : p.z + snap t * d.z = (p + Vec3.smul (snap t) d).z := rfl
  rw [ez]
  have hs : |snap t - t| ≤ precision := by
    have := snap_near t; have := snap_le t; rw [abs_le]; constructor <;> linarith [precision_pos]
  have ht : |t - t| ≤ precision := by rw [sub_self, abs_zero]; exact precision_pos.le
  rcases hcl with hcl | hcl
  · have s1 := hcl (snap t) hs
    have s2 := hcl t ht
    rw [if_pos s1, if_pos (hpos _ s1), List.mem_singleton]
    simp only [s2, true_and]
    cases inner <;> simp
  · rw [if_neg (hcl _ hs)]
    simp only [List.not_mem_nil, false_iff]
    intro h; exact hcl t ht h.1

/-- The hits on a wall: the simple zeros of its equation at the right height. -/
theorem mem_wall (a b : ℝ) (ok : ℝ → Prop) (hpos : ∀ z, ok z → 0 ≤ a + b * z) (inner : Bool) (p d : Vec3 ℝ) (hs : Steep a b p d)
    (hc : ∀ t, wq a b (p + Vec3.smul t d) = 0 → Clearly (fun u => ok (p + Vec3.smul u d).z) (fun u => ok (p + Vec3.smul u d).z) t)
    (hapart : ∀ s t, s < t → wq a b (p + Vec3.smul s d) = 0 → wq a b (p + Vec3.smul t d) = 0 → s + 2 * precision ≤ t) (x : ℝ × Bool) :
    x ∈ wall ok inner a b p d ↔ 0 < wdisc a b p d ∧ wq a b (p + Vec3.smul x.1 d) = 0 ∧ ok (p + Vec3.smul x.1 d).z ∧
      x.2 = xor inner (decide (wrate a b p d x.1 < 0)) := by
  have hit := fun t ht => mem_wallHit a b ok hpos inner p d t (hc t ht) x
  have hline := wq_line a b p d
  have hA : coeffA b d = d.x * d.x + d.y * d.y - b * b * d.z * d.z := rfl
  have hB : coeffB a b p d = 2 * (p.x * d.x + p.y * d.y - b * d.z * (a + b * p.z)) := rfl
  unfold Steep at hs
  rw [← hA, ← hB] at hs
  have hs' : precision < |coeffA b d| ∨ coeffA b d = 0 ∧ (coeffB a b p d = 0 ∨ precision < |coeffB a b p d|) := by
    refine hs.imp_right fun h => ⟨h.1, h.2.imp_left fun h => by rw [hB, h, mul_zero]⟩
  have hpar : d.x = 0 ∧ d.y = 0 ∧ b = 0 → coeffA b d = 0 ∧ coeffB a b p d = 0 := by
    rintro ⟨e1, e2, e3⟩; unfold coeffA coeffB; rw [e1, e2, e3]; constructor <;> ring
  have hshB := shift_B a b p d
  have hshC := shift_C a b p d
  have hdet := shift_det a b p d
  clear hA hB hs
  unfold wall wdisc wrate
  simp only [hdet]
  generalize shift p d = s at *
  generalize coeffB a b (shifted p d) d = Bs at *
  generalize coeffC a b (shifted p d) = Cs at *
  generalize coeffC a b p = C at *
  generalize coeffB a b p d = B2 at *
  generalize coeffA b d = A at *
  obtain ⟨B, rfl⟩ : ∃ B, B2 = 2 * B := ⟨B2 / 2, by ring⟩
  rw [show 2 * B / 2 = B by ring] at *
  have hp0 := precision_pos
  split
  · next hp =>
    obtain ⟨e1, e2⟩ := hpar hp
    simp only [List.not_mem_nil, false_iff]
    intro h3
    have : B = 0 := by linarith
    rw [e1, this] at h3
    have := h3.1
    norm_num at this
  · split
    · next hbig =>
      have hA0 : A ≠ 0 := fun e => by rw [e, abs_zero] at hbig; linarith
      split
      · next hd =>
        have hd : 0 < B * B - A * C := by linarith
        obtain ⟨q, hq⟩ : ∃ q, q = Real.sqrt (B * B - A * C) := ⟨_, rfl⟩
        have hqq : q * q = B * B - A * C := by rw [hq]; exact Real.mul_self_sqrt hd.le
        have hq0 : 0 < q := by rw [hq]; exact Real.sqrt_pos.2 hd
        have hs4 : Real.sqrt (4 * (B * B - A * C)) = 2 * q := by
          rw [hq, show (4 : ℝ) * (B * B - A * C) = 2 ^ 2 * (B * B - A * C) by ring, Real.sqrt_mul (by norm_num), Real.sqrt_sq (by norm_num)]
        rw [hs4]
        have t1 : (-Bs + 2 * q) / (2 * A) + s = (-B + q) / A := by rw [hshB]; field_simp; ring
        have t2 : (-Bs - 2 * q) / (2 * A) + s = (-B - q) / A := by rw [hshB]; field_simp; ring
        rw [t1, t2]
        have hroot : ∀ t, wq a b (p + Vec3.smul t d) = 0 ↔ t = (-B + q) / A ∨ t = (-B - q) / A := by
          intro t
          have e : A * wq a b (p + Vec3.smul t d) = (A * t + B - q) * (A * t + B + q) := by rw [hline]; linear_combination hqq
          rw [eq_div_iff hA0, eq_div_iff hA0]
          constructor
          · intro h3
            rw [h3, mul_zero] at e
            rcases mul_eq_zero.1 e.symm with h4 | h4
            · left; linarith
            · right; linarith
          · intro h3
            have : A * wq a b (p + Vec3.smul t d) = 0 := by
              rw [e]; rcases h3 with h3 | h3
              · rw [show A * t + B - q = 0 by linarith, zero_mul]
              · rw [show A * t + B + q = 0 by linarith, mul_zero]
            exact (mul_eq_zero.1 this).resolve_left hA0
        have z1 := (hroot _).2 (Or.inl rfl)
        have z2 := (hroot _).2 (Or.inr rfl)
        have hsign : ∀ t u, wq a b (p + Vec3.smul t d) = 0 → t - precision < u → u ≤ t → decide (A * u + B < 0) = decide (A * t + B < 0) := by
          intro t u ht hu1 hu2
          have e1 : A * ((-B + q) / A) = -B + q := by field_simp
          have e2 : A * ((-B - q) / A) = -B - q := by field_simp
          have hgap : |A| * precision ≤ q := by
            rcases lt_trichotomy A 0 with hn | hn | hn
            · have : (-B + q) / A < (-B - q) / A := by
                rw [div_lt_div_right_of_neg hn]; linarith
              have := mul_le_mul_of_nonpos_left (hapart _ _ this z1 z2) hn.le
              rw [abs_of_neg hn]
              linarith [mul_add A ((-B + q) / A) (2 * precision)]
            · exact absurd hn hA0
            · have : (-B - q) / A < (-B + q) / A := div_lt_div_of_pos_right (by linarith) hn
              have := mul_le_mul_of_nonneg_left (hapart _ _ this z2 z1) hn.le
              rw [abs_of_pos hn]
              linarith [mul_add A ((-B - q) / A) (2 * precision)]
          have hsm : |A * u - A * t| < q := by
            rw [← mul_sub, abs_mul]
            have : |u - t| < precision := by rw [abs_lt]; constructor <;> linarith
            exact lt_of_lt_of_le (mul_lt_mul_of_pos_left this (abs_pos.2 hA0)) hgap
          obtain ⟨s1, s2⟩ := abs_lt.1 hsm
          rcases (hroot t).1 ht with e | e
          · have : A * t = -B + q := by rw [e, e1]
            rw [decide_eq_false (by linarith), decide_eq_false (by linarith)]
          · have : A * t = -B - q := by rw [e, e2]
            rw [decide_eq_true (by linarith), decide_eq_true (by linarith)]
        rw [List.mem_append, hit _ z1, hit _ z2, hsign _ _ z1 (snap_near _) (snap_le _), hsign _ _ z2 (snap_near _) (snap_le _)]
        constructor
        · rintro (⟨h3, rfl⟩ | ⟨h3, rfl⟩)
          · exact ⟨hd, z1, h3, rfl⟩
          · exact ⟨hd, z2, h3, rfl⟩
        · rintro ⟨_, h3, h4, h5⟩
          rcases (hroot _).1 h3 with h6 | h6
          · left; rw [← h6]; exact ⟨h4, Prod.ext rfl h5⟩
          · right; rw [← h6]; exact ⟨h4, Prod.ext rfl h5⟩
      · next hd =>
        simp only [List.not_mem_nil, false_iff]
        intro h3
        exact hd (by linarith [h3.1])
    · next hsm =>
      obtain ⟨hA0, hB0⟩ := hs'.resolve_left hsm
      subst hA0
      have hBs : Bs = 2 * B := by rw [hshB]; ring
      have hCs : Cs = C + s * (2 * B) := by rw [hshC]; ring
      rw [hBs, hCs]
      split
      · next hb =>
        have hB1 : B ≠ 0 := fun e => by rw [e, mul_zero, abs_zero] at hb; linarith
        have ht : -(C + s * (2 * B)) / (2 * B) + s = -C / (2 * B) := by field_simp; ring
        rw [ht]
        have hroot : ∀ t, wq a b (p + Vec3.smul t d) = 0 ↔ t = -C / (2 * B) := by
          intro t
          rw [hline, eq_div_iff (mul_ne_zero two_ne_zero hB1)]
          constructor <;> intro h <;> linarith
        have z1 := (hroot _).2 rfl
        rw [hit _ z1, zero_mul, zero_add]
        constructor
        · rintro ⟨h3, rfl⟩
          exact ⟨by have := mul_self_pos.2 hB1; linarith, z1, h3, by simp⟩
        · rintro ⟨_, h3, h4, h5⟩
          rw [← (hroot _).1 h3]
          exact ⟨h4, Prod.ext rfl (by rw [h5]; simp)⟩
      · next hb =>
        have : 2 * B = 0 := hB0.resolve_right hb
        simp only [List.not_mem_nil, false_iff]
        intro h3
        have hB1 : B = 0 := by linarith
        have := h3.1
        rw [hB1] at this
        norm_num at this

/-- If a wall is met at a double zero only, or the line lies on it, the line does not pass through it. -/
theorem wall_degenerate (a b : ℝ) (p d : Vec3 ℝ) (t : ℝ) (h0 : wq a b (p + Vec3.smul t d) = 0)
    (hR : d.z ≠ 0 → 0 < a + b * (p + Vec3.smul t d).z) (hd : wdisc a b p d ≤ 0) (u : ℝ) : 0 ≤ wq a b (p + Vec3.smul u d) := by
  have hline := wq_line a b p d
  rw [Vec3.add_z, Vec3.smul_z] at hR
  have h0' := hline t
  rw [h0] at h0'
  have key : coeffA b d * t + coeffB a b p d / 2 = 0 := by
    have : (coeffA b d * t + coeffB a b p d / 2) ^ 2 ≤ 0 := by
      calc _ = coeffB a b p d / 2 * (coeffB a b p d / 2) - coeffA b d * coeffC a b p := by linear_combination -coeffA b d * h0'
        _ ≤ 0 := hd
    exact pow_eq_zero_iff two_ne_zero |>.1 (le_antisymm this (sq_nonneg _))
  have hsq : ∀ u, wq a b (p + Vec3.smul u d) = coeffA b d * (u - t) ^ 2 := by
    intro u
    rw [hline]
    linear_combination (2 * u - 2 * t) * key - h0'
  rw [hsq]
  by_cases hA : 0 ≤ coeffA b d
  · exact mul_nonneg hA (sq_nonneg _)
  · exfalso
    push Not at hA
    have hbd : b * d.z ≠ 0 := by
      intro e
      have : coeffA b d = d.x * d.x + d.y * d.y - (b * d.z) * (b * d.z) := by unfold coeffA; ring
      rw [this, e] at hA
      linarith [mul_self_nonneg d.x, mul_self_nonneg d.y]
    have hR := hR (right_ne_zero_of_mul hbd)
    obtain ⟨w, hw⟩ : ∃ w, w = -(a + b * p.z) / (b * d.z) := ⟨_, rfl⟩
    have hw' : w * (b * d.z) = -(a + b * p.z) := by rw [hw, div_mul_cancel₀ _ hbd]
    have e0 : wq a b (p + Vec3.smul w d) = (p.x + w * d.x) ^ 2 + (p.y + w * d.y) ^ 2 := by
      unfold wq
      rw [Vec3.add_z, Vec3.smul_z, show a + b * (p.z + w * d.z) = 0 by linear_combination hw']
      simp
    rw [hsq] at e0
    have hwt : w - t = 0 := by
      by_contra hne
      have := mul_neg_of_neg_of_pos hA (by positivity : 0 < (w - t) ^ 2)
      linarith [sq_nonneg (p.x + w * d.x), sq_nonneg (p.y + w * d.y)]
    have : t = w := by linarith
    rw [this, show a + b * (p.z + w * d.z) = 0 by linear_combination hw'] at hR
    exact lt_irrefl _ hR

end Siren.Geometry.Polycone
