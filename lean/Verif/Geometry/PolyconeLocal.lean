import Verif.Geometry.PolyconeTower

set_option autoImplicit false

/-!
# Where a line enters and leaves a polycone
-/

namespace Siren.Geometry.Polycone

open Siren Siren.Geometry Filter Topology

theorem between_eq {z0 z1 : ℝ} (h : z0 < z1) (r0 r1 z : ℝ) : between z0 z1 r0 r1 z = offset z0 z1 r0 r1 + slope z0 z1 r0 r1 * z := by
  have : z1 - z0 ≠ 0 := by linarith [sub_pos.2 h]
  unfold between offset slope; field_simp; ring

theorem wallEq_eq {z0 z1 : ℝ} (h : z0 < z1) (r0 r1 : ℝ) (v : Vec3 ℝ) : wallEq z0 z1 r0 r1 v = wq (offset z0 z1 r0 r1) (slope z0 z1 r0 r1) v := by
  unfold wallEq wq; rw [between_eq h]

theorem between_lo (z0 z1 r0 r1 : ℝ) : between z0 z1 r0 r1 z0 = r0 := by unfold between; simp

theorem between_hi {z0 z1 : ℝ} (h : z0 < z1) (r0 r1 : ℝ) : between z0 z1 r0 r1 z1 = r1 := by
  have : z1 - z0 ≠ 0 := by linarith [sub_pos.2 h]
  unfold between; rw [div_self this]; ring

theorem between_nonneg {z0 z1 : ℝ} (h : z0 < z1) {r0 r1 z : ℝ} (h0 : 0 ≤ r0) (h1 : 0 ≤ r1) (hz0 : z0 ≤ z) (hz1 : z ≤ z1) :
    0 ≤ between z0 z1 r0 r1 z := by
  have hp : 0 < z1 - z0 := sub_pos.2 h
  have e : between z0 z1 r0 r1 z = r0 * (1 - (z - z0) / (z1 - z0)) + r1 * ((z - z0) / (z1 - z0)) := by unfold between; ring
  have b1 : 0 ≤ (z - z0) / (z1 - z0) := div_nonneg (by linarith) hp.le
  have b2 : (z - z0) / (z1 - z0) ≤ 1 := by rw [div_le_one hp]; linarith
  rw [e]
  exact add_nonneg (mul_nonneg h0 (by linarith)) (mul_nonneg h1 b1)

theorem between_pos {z0 z1 : ℝ} (h : z0 < z1) {r0 r1 z : ℝ} (h0 : 0 ≤ r0) (h1 : 0 ≤ r1) (hr : 0 < r0 ∨ 0 < r1) (hz0 : z0 < z) (hz1 : z < z1) :
    0 < between z0 z1 r0 r1 z := by
  have hp : 0 < z1 - z0 := sub_pos.2 h
  have e : between z0 z1 r0 r1 z = r0 * (1 - (z - z0) / (z1 - z0)) + r1 * ((z - z0) / (z1 - z0)) := by unfold between; ring
  have b1 : 0 < (z - z0) / (z1 - z0) := div_pos (by linarith) hp
  have b2 : (z - z0) / (z1 - z0) < 1 := by rw [div_lt_one hp]; linarith
  rw [e]
  rcases hr with hr | hr
  · exact add_pos_of_pos_of_nonneg (mul_pos hr (by linarith)) (mul_nonneg h1 b1.le)
  · exact add_pos_of_nonneg_of_pos (mul_nonneg h0 (by linarith)) (mul_pos hr b1)

theorem between_sub (z0 z1 r0 r1 s0 s1 z : ℝ) : between z0 z1 (s0 - r0) (s1 - r1) z = between z0 z1 s0 s1 z - between z0 z1 r0 r1 z := by
  unfold between; ring

/-- The equation of the outer wall of a section. -/
noncomputable def mo (s : Plane × Plane) (v : Vec3 ℝ) : ℝ := wallEq s.1.z s.2.z s.1.rmax s.2.rmax v

/-- The equation of the inner wall of a section. -/
noncomputable def mi (s : Plane × Plane) (v : Vec3 ℝ) : ℝ := wallEq s.1.z s.2.z s.1.rmin s.2.rmin v

/-- There is an inner wall. -/
def guard (s : Plane × Plane) : Prop := 0 < s.1.rmin ∨ 0 < s.2.rmin

/-- Between the walls of a section. -/
def W (s : Plane × Plane) (v : Vec3 ℝ) : Prop := mo s v < 0 ∧ (guard s → ¬ mi s v < 0)

/-- A section with a height and radii in order. -/
structure Sec (s : Plane × Plane) : Prop where
  z : s.1.z < s.2.z
  m1 : 0 ≤ s.1.rmin
  m2 : 0 ≤ s.2.rmin
  r1 : s.1.rmin ≤ s.1.rmax
  r2 : s.2.rmin ≤ s.2.rmax
  thick : s.1.rmin < s.1.rmax ∨ s.2.rmin < s.2.rmax

theorem mem_planes {l : List Plane} {s : Plane × Plane} (h : s ∈ secs l) : s.1 ∈ l ∧ s.2 ∈ l := by
  have := List.of_mem_zip ((mem_secs l s).1 h).1
  exact ⟨this.1, List.mem_of_mem_tail this.2⟩

theorem Valid.sec {l : List Plane} (hv : Valid l) {s : Plane × Plane} (h : s ∈ secs l) : Sec s := by
  obtain ⟨h1, h2⟩ := (mem_secs l s).1 h
  obtain ⟨m1, m2⟩ := mem_planes h
  exact ⟨h2, hv.rmin _ m1, hv.rmin _ m2, hv.radii _ m1, hv.radii _ m2, hv.thick s h1 h2⟩

theorem W_iff {s : Plane × Plane} (hs : Sec s) (v : Vec3 ℝ) (h1 : s.1.z ≤ v.z) (h2 : v.z ≤ s.2.z) :
    W s v ↔ between s.1.z s.2.z s.1.rmin s.2.rmin v.z ≤ Cylinder.rad v ∧ Cylinder.rad v < between s.1.z s.2.z s.1.rmax s.2.rmax v.z := by
  have hR := between_nonneg hs.z (hs.m1.trans hs.r1) (hs.m2.trans hs.r2) h1 h2
  have hr := between_nonneg hs.z hs.m1 hs.m2 h1 h2
  have hq := Cone.rad_nonneg v
  have h3 := Cone.rad_sq v
  unfold W mo mi wallEq
  rw [← h3, and_comm]
  refine and_congr ?_ ?_
  · constructor
    · intro h
      by_cases hg : guard s
      · have := h hg
        by_contra hc
        push Not at hc
        exact this (by nlinarith)
      · unfold guard at hg
        push Not at hg
        have e1 : s.1.rmin = 0 := le_antisymm hg.1 hs.m1
        have e2 : s.2.rmin = 0 := le_antisymm hg.2 hs.m2
        unfold between; rw [e1, e2]; simpa using hq
    · intro h _ hc
      nlinarith
  · constructor
    · intro h; by_contra hc; push Not at hc; nlinarith
    · intro h; nlinarith

theorem solid_iff {l : List Plane} (hv : Valid l) (v : Vec3 ℝ) : Solid l v ↔ ∃ s ∈ secs l, s.1.z ≤ v.z ∧ v.z < s.2.z ∧ W s v := by
  unfold Solid
  constructor
  · rintro ⟨s, hs, h1, h2, h3⟩
    have hm : s ∈ secs l := (mem_secs l s).2 ⟨hs, lt_of_le_of_lt h1 h2⟩
    exact ⟨s, hm, h1, h2, (W_iff (hv.sec hm) v h1 h2.le).2 h3⟩
  · rintro ⟨s, hm, h1, h2, h3⟩
    exact ⟨s, ((mem_secs l s).1 hm).1, h1, h2, (W_iff (hv.sec hm) v h1 h2.le).1 h3⟩

/-- Within a section, the solid is what is between its walls. -/
theorem solid_in {l : List Plane} (hv : Valid l) {s : Plane × Plane} (hs : s ∈ secs l) {v : Vec3 ℝ} (h1 : s.1.z ≤ v.z) (h2 : v.z < s.2.z) :
    Solid l v ↔ W s v := by
  rw [solid_iff hv]
  constructor
  · rintro ⟨s', hs', h3, h4, h5⟩
    rwa [(secs_tower l hv.order).1.unique hs hs' h1 h2 h3 h4]
  · intro h; exact ⟨s, hs, h1, h2, h⟩

/-! ### The walls -/

/-- A crossing of a wall of a section. -/
def WallX (p d : Vec3 ℝ) (s : Plane × Plane) (x : ℝ × Bool) : Prop :=
  (0 < wdisc (offset s.1.z s.2.z s.1.rmax s.2.rmax) (slope s.1.z s.2.z s.1.rmax s.2.rmax) p d ∧ mo s (p + Vec3.smul x.1 d) = 0 ∧
    (s.1.z ≤ (p + Vec3.smul x.1 d).z ∧ (p + Vec3.smul x.1 d).z < s.2.z) ∧
    x.2 = decide (wrate (offset s.1.z s.2.z s.1.rmax s.2.rmax) (slope s.1.z s.2.z s.1.rmax s.2.rmax) p d x.1 < 0)) ∨
  (guard s ∧ 0 < wdisc (offset s.1.z s.2.z s.1.rmin s.2.rmin) (slope s.1.z s.2.z s.1.rmin s.2.rmin) p d ∧ mi s (p + Vec3.smul x.1 d) = 0 ∧
    (s.1.z ≤ (p + Vec3.smul x.1 d).z ∧ (p + Vec3.smul x.1 d).z < s.2.z) ∧
    x.2 = !decide (wrate (offset s.1.z s.2.z s.1.rmin s.2.rmin) (slope s.1.z s.2.z s.1.rmin s.2.rmin) p d x.1 < 0))

/-- The walls of a section are clear. -/
def SecClear (p d : Vec3 ℝ) (s : Plane × Plane) : Prop :=
  WallClear s.1.z s.2.z s.1.rmax s.2.rmax p d ∧ (guard s → WallClear s.1.z s.2.z s.1.rmin s.2.rmin p d)

theorem Clear.sec {l : List Plane} {p d : Vec3 ℝ} (hc : Clear l p d) {s : Plane × Plane} (h : s ∈ secs l) : SecClear p d s := by
  obtain ⟨h1, h2⟩ := (mem_secs l s).1 h
  exact ⟨hc.outer s h1 h2, hc.inner s h1 h2⟩

theorem WallClear.mem {z0 z1 r0 r1 : ℝ} {p d : Vec3 ℝ} (h : WallClear z0 z1 r0 r1 p d) (hz : z0 < z1) (h0 : 0 ≤ r0) (h1 : 0 ≤ r1) (inner : Bool)
    (x : ℝ × Bool) : x ∈ Cone.wall (fun iz => iz ≥ z0 ∧ iz < z1) inner (offset z0 z1 r0 r1) (slope z0 z1 r0 r1) p d ↔
      0 < wdisc (offset z0 z1 r0 r1) (slope z0 z1 r0 r1) p d ∧ wallEq z0 z1 r0 r1 (p + Vec3.smul x.1 d) = 0 ∧
        (z0 ≤ (p + Vec3.smul x.1 d).z ∧ (p + Vec3.smul x.1 d).z < z1) ∧
        x.2 = xor inner (decide (wrate (offset z0 z1 r0 r1) (slope z0 z1 r0 r1) p d x.1 < 0)) := by
  rw [mem_wall, wallEq_eq hz]
  · intro z hh; rw [← between_eq hz]; exact between_nonneg hz h0 h1 hh.1 hh.2.le
  · have := h.steep
    rw [between_eq hz] at this
    exact this
  · intro t ht
    rw [← wallEq_eq hz] at ht
    exact h.height t ht
  · intro s t hst h2 h3
    rw [← wallEq_eq hz] at h2 h3
    exact h.apart s t hst h2 h3

theorem mem_section {p d : Vec3 ℝ} {s : Plane × Plane} (hs : Sec s) (hn : precision < |d.z| ∨ d.z = 0) (hc : SecClear p d s) (x : ℝ × Bool) :
    x ∈ section_ p d s ↔ WallX p d s x := by
  have hp := precision_pos
  unfold section_ WallX mo mi
  simp only
  rw [if_neg (not_le.2 hs.z)]
  split
  · next h =>
    have h0 : d.z = 0 := hn.resolve_left (not_lt.2 h.1.le)
    have hh : ¬ (s.1.z ≤ (p + Vec3.smul x.1 d).z ∧ (p + Vec3.smul x.1 d).z < s.2.z) := by
      rw [Vec3.add_z, Vec3.smul_z, h0, mul_zero, add_zero]
      rintro ⟨h1, h2⟩; rcases h.2 with h | h <;> linarith
    simp only [hh, List.not_mem_nil, false_and, and_false, or_self]
  · rw [List.mem_append, hc.1.mem hs.z (hs.m1.trans hs.r1) (hs.m2.trans hs.r2), Bool.false_xor]
    refine or_congr Iff.rfl ?_
    split
    · next hg =>
      rw [(hc.2 hg).mem hs.z hs.m1 hs.m2, Bool.true_xor]
      exact ⟨fun h => ⟨hg, h⟩, fun h => h.2⟩
    · next hg =>
      simp only [List.not_mem_nil, false_iff]
      exact fun h => hg h.1

theorem mo_cont {s : Plane × Plane} (hs : Sec s) (p d : Vec3 ℝ) : Continuous fun u => mo s (p + Vec3.smul u d) := by
  unfold mo; simp only [wallEq_eq hs.z]; exact wq_cont _ _ p d

theorem mi_cont {s : Plane × Plane} (hs : Sec s) (p d : Vec3 ℝ) : Continuous fun u => mi s (p + Vec3.smul u d) := by
  unfold mi; simp only [wallEq_eq hs.z]; exact wq_cont _ _ p d

theorem z_cont (p d : Vec3 ℝ) : Continuous fun u => (p + Vec3.smul u d).z := by
  simp only [Vec3.add_z, Vec3.smul_z]; fun_prop

/-- The inner wall is within the outer one. -/
theorem walls_apart {s : Plane × Plane} (hs : Sec s) {v : Vec3 ℝ} (h1 : s.1.z ≤ v.z) (h2 : v.z < s.2.z) (hh : s.1.z < v.z ∨ s.1.rmin < s.1.rmax) :
    mo s v < mi s v := by
  have hr := between_nonneg hs.z hs.m1 hs.m2 h1 h2.le
  have : 0 < between s.1.z s.2.z (s.1.rmax - s.1.rmin) (s.2.rmax - s.2.rmin) v.z := by
    rcases h1.lt_or_eq with h | h
    · refine between_pos hs.z (by linarith [hs.r1]) (by linarith [hs.r2]) ?_ h h2
      exact hs.thick.imp (by intro h; linarith) (by intro h; linarith)
    · rw [← h, between_lo]
      have := hh.resolve_left (by rw [h]; exact lt_irrefl _)
      linarith
  rw [between_sub] at this
  unfold mo mi wallEq
  nlinarith

/-- The line stays in a section near `t`. -/
def Stays (p d : Vec3 ℝ) (s : Plane × Plane) (t : ℝ) : Prop := ∀ᶠ u in 𝓝 t, s.1.z ≤ (p + Vec3.smul u d).z ∧ (p + Vec3.smul u d).z < s.2.z

theorem Stays.at {p d : Vec3 ℝ} {s : Plane × Plane} {t : ℝ} (h : Stays p d s t) : s.1.z ≤ (p + Vec3.smul t d).z ∧ (p + Vec3.smul t d).z < s.2.z :=
  h.self_of_nhds

/-- A line that is not level and stays in a section is above its lower plane. -/
theorem Stays.above {p d : Vec3 ℝ} {s : Plane × Plane} {t : ℝ} (h : Stays p d s t) (hd : d.z ≠ 0) : s.1.z < (p + Vec3.smul t d).z := by
  refine lt_of_le_of_ne h.at.1 fun e => ?_
  obtain ⟨e1, he1, hb⟩ := Metric.eventually_nhds_iff.1 h
  rw [Vec3.add_z, Vec3.smul_z] at e
  rcases lt_or_gt_of_ne hd with h | h
  · have := (@hb (t + e1 / 2) (by rw [Real.dist_eq, add_sub_cancel_left, abs_of_pos (by linarith)]; linarith)).1
    rw [Vec3.add_z, Vec3.smul_z] at this
    have := mul_neg_of_pos_of_neg (half_pos he1) h
    linarith [add_mul t (e1 / 2) d.z]
  · have := (@hb (t - e1 / 2) (by rw [Real.dist_eq, sub_sub_cancel_left, abs_neg, abs_of_pos (by linarith)]; linarith)).1
    rw [Vec3.add_z, Vec3.smul_z] at this
    have := mul_pos (half_pos he1) h
    linarith [sub_mul t (e1 / 2) d.z]

theorem eventually_of_near {P : ℝ → Prop} {t : ℝ} (h : ∀ u, |u - t| ≤ precision → P u) : ∀ᶠ u in 𝓝 t, P u := by
  rw [Metric.eventually_nhds_iff]
  exact ⟨precision, precision_pos, fun u hu => h u (by rw [Real.dist_eq] at hu; exact hu.le)⟩

/-- Where the line meets a wall it stays in the section or is away from it. -/
theorem WallClear.stays {p d : Vec3 ℝ} {s : Plane × Plane} {r0 r1 : ℝ} (h : WallClear s.1.z s.2.z r0 r1 p d) {t : ℝ}
    (h0 : wallEq s.1.z s.2.z r0 r1 (p + Vec3.smul t d) = 0) (hz : s.1.z ≤ (p + Vec3.smul t d).z ∧ (p + Vec3.smul t d).z < s.2.z) : Stays p d s t := by
  rcases h.height t h0 with h1 | h1
  · exact eventually_of_near h1
  · exact absurd hz (h1 t (by rw [sub_self, abs_zero]; exact precision_pos.le))

/-- A line that is not level does not meet a wall at the height of a plane. -/
theorem WallClear.off {z0 z1 : ℝ} {p d : Vec3 ℝ} {r0 r1 : ℝ} (h : WallClear z0 z1 r0 r1 p d) (hz : z0 < z1) (hd : d.z ≠ 0) {t : ℝ}
    (hh : (p + Vec3.smul t d).z = z0 ∨ (p + Vec3.smul t d).z = z1) : wallEq z0 z1 r0 r1 (p + Vec3.smul t d) ≠ 0 := by
  intro h0
  have hp := precision_pos
  have at0 : |t - t| ≤ precision := by rw [sub_self, abs_zero]; exact hp.le
  -- a small move up or down
  have move : ∀ σ : ℝ, (σ = 1 ∨ σ = -1) → ∀ e : ℝ, 0 < e → ∃ u, |u - t| ≤ precision ∧ 0 < σ * ((p + Vec3.smul u d).z - (p + Vec3.smul t d).z) ∧
      |(p + Vec3.smul u d).z - (p + Vec3.smul t d).z| ≤ e := by
    intro σ hσ e he
    have ha : 0 < |d.z| := abs_pos.2 hd
    obtain ⟨m, hm⟩ : ∃ m, m = min precision (e / |d.z|) := ⟨_, rfl⟩
    have hm0 : 0 < m := by rw [hm]; exact lt_min hp (div_pos he ha)
    have hm1 : m ≤ precision := by rw [hm]; exact min_le_left _ _
    have hm2 : m * |d.z| ≤ e := by
      have : m ≤ e / |d.z| := by rw [hm]; exact min_le_right _ _
      rwa [le_div_iff₀ ha] at this
    have hσ1 : |σ| = 1 := by rcases hσ with rfl | rfl <;> simp
    have hσ2 : σ * σ = 1 := by rcases hσ with rfl | rfl <;> norm_num
    have hsg : SignType.sign d.z * d.z = |d.z| := sign_mul_self d.z
    have hsa : |((SignType.sign d.z : SignType) : ℝ)| = 1 := by
      rcases lt_or_gt_of_ne hd with h | h
      · rw [sign_neg h]; simp
      · rw [sign_pos h]; simp
    refine ⟨t + σ * (SignType.sign d.z * m), ?_, ?_, ?_⟩
    · rw [add_sub_cancel_left, abs_mul, abs_mul, hσ1, hsa, abs_of_pos hm0]; linarith
    · simp only [Vec3.add_z, Vec3.smul_z]
      have : σ * (p.z + (t + σ * (SignType.sign d.z * m)) * d.z - (p.z + t * d.z)) = m * |d.z| := by
        rw [← hsg]; linear_combination (m * d.z * SignType.sign d.z) * hσ2
      rw [this]; exact mul_pos hm0 ha
    · simp only [Vec3.add_z, Vec3.smul_z]
      have : p.z + (t + σ * (SignType.sign d.z * m)) * d.z - (p.z + t * d.z) = σ * (m * |d.z|) := by
        rw [← hsg]; ring
      rw [this, abs_mul, hσ1, abs_of_pos (mul_pos hm0 ha)]; linarith
  rcases hh with hh | hh
  · obtain ⟨u, h1, h2, h3⟩ := move (-1) (Or.inr rfl) 1 one_pos
    rcases h.height t h0 with h4 | h4
    · have := (h4 u h1).1; rw [hh] at h2; linarith
    · exact h4 t at0 ⟨hh.ge, by rw [hh]; exact hz⟩
  · obtain ⟨u, h1, h2, h3⟩ := move (-1) (Or.inr rfl) (z1 - z0) (by linarith)
    rcases h.height t h0 with h4 | h4
    · have := (h4 t at0).2; linarith
    · refine h4 u h1 ⟨?_, ?_⟩
      · rw [hh] at h3; linarith [(abs_le.1 h3).1]
      · rw [hh] at h2; linarith

/-- In a section, a crossing of a wall changes whether the line is between the walls. -/
theorem wallX_flips {p d : Vec3 ℝ} {s : Plane × Plane} (hs : Sec s) {t : ℝ} (hst : Stays p d s t)
    (hh : d.z = 0 → s.1.z = p.z → s.1.rmin < s.1.rmax) {f : Bool} (hx : WallX p d s (t, f)) : Flips (fun u => W s (p + Vec3.smul u d)) t f := by
  have hap : mo s (p + Vec3.smul t d) < mi s (p + Vec3.smul t d) := by
    refine walls_apart hs hst.at.1 hst.at.2 ?_
    by_cases hd : d.z = 0
    · by_cases he : s.1.z = p.z
      · exact Or.inr (hh hd he)
      · left
        refine lt_of_le_of_ne hst.at.1 ?_
        rw [Vec3.add_z, Vec3.smul_z, hd, mul_zero, add_zero]; exact he
    · exact Or.inl (hst.above hd)
  rcases hx with ⟨h1, h2, h3, h4⟩ | ⟨h0, h1, h2, h3, h4⟩
  · simp only at h2 h4
    rw [h4]
    have e : ∀ᶠ u in 𝓝 t, (guard s → ¬ mi s (p + Vec3.smul u d) < 0) :=
      (eventually_pos (mi_cont hs p d).continuousAt (by rw [h2] at hap; exact hap)).mono fun u hu _ => not_lt.2 hu.le
    have hf := wq_flips (offset s.1.z s.2.z s.1.rmax s.2.rmax) (slope s.1.z s.2.z s.1.rmax s.2.rmax) p d t h1 (by rw [← wallEq_eq hs.z]; exact h2)
    simp only [← wallEq_eq hs.z] at hf
    exact hf.and e
  · simp only at h2 h4
    rw [h4]
    have e : ∀ᶠ u in 𝓝 t, mo s (p + Vec3.smul u d) < 0 :=
      eventually_neg (mo_cont hs p d).continuousAt (by rw [h2] at hap; exact hap)
    have hf := wq_flips (offset s.1.z s.2.z s.1.rmin s.2.rmin) (slope s.1.z s.2.z s.1.rmin s.2.rmin) p d t h1 (by rw [← wallEq_eq hs.z]; exact h2)
    simp only [← wallEq_eq hs.z] at hf
    have := hf.not.and' e
    unfold W
    simp only [h0, true_imp_iff]
    exact this

theorem wallX_steady {p d : Vec3 ℝ} {s : Plane × Plane} (hs : Sec s) {t : ℝ} (hst : Stays p d s t) (hx : ∀ f, ¬ WallX p d s (t, f)) :
    Steady (fun u => W s (p + Vec3.smul u d)) t := by
  have hpos : ∀ r0 r1, 0 ≤ r0 → 0 ≤ r1 → (0 < r0 ∨ 0 < r1) → d.z ≠ 0 →
      0 < offset s.1.z s.2.z r0 r1 + slope s.1.z s.2.z r0 r1 * (p + Vec3.smul t d).z := by
    intro r0 r1 h0 h1 h hd
    rw [← between_eq hs.z]
    exact between_pos hs.z h0 h1 h (hst.above hd) hst.at.2
  have n1 : ¬ (_ ∧ _) := fun h => hx (decide (wrate (offset s.1.z s.2.z s.1.rmax s.2.rmax) (slope s.1.z s.2.z s.1.rmax s.2.rmax) p d t < 0))
    (Or.inl ⟨h.1, h.2, hst.at, rfl⟩)
  have n2 : ¬ (_ ∧ _ ∧ _) := fun h => hx (!decide (wrate (offset s.1.z s.2.z s.1.rmin s.2.rmin) (slope s.1.z s.2.z s.1.rmin s.2.rmin) p d t < 0))
    (Or.inr ⟨h.1, h.2.1, h.2.2, hst.at, rfl⟩)
  simp only at n1 n2
  have thick : 0 < s.1.rmax ∨ 0 < s.2.rmax := hs.thick.imp (lt_of_le_of_lt hs.m1) (lt_of_le_of_lt hs.m2)
  rcases lt_trichotomy (mo s (p + Vec3.smul t d)) 0 with hO | hO | hO
  · by_cases hg : guard s
    · rcases lt_trichotomy (mi s (p + Vec3.smul t d)) 0 with hI | hI | hI
      · right
        filter_upwards [eventually_neg (mi_cont hs p d).continuousAt hI] with u hu hh
        exact hh.2 hg hu
      · left
        have hd : wdisc (offset s.1.z s.2.z s.1.rmin s.2.rmin) (slope s.1.z s.2.z s.1.rmin s.2.rmin) p d ≤ 0 := by
          by_contra hd
          exact n2 ⟨hg, not_le.1 hd, hI⟩
        filter_upwards [eventually_neg (mo_cont hs p d).continuousAt hO] with u hu
        refine ⟨hu, fun _ => not_lt.2 ?_⟩
        have := wall_degenerate _ _ p d t (by rw [← wallEq_eq hs.z]; exact hI) (hpos _ _ hs.m1 hs.m2 hg) hd u
        rw [← wallEq_eq hs.z] at this
        exact this
      · left
        filter_upwards [eventually_neg (mo_cont hs p d).continuousAt hO, eventually_pos (mi_cont hs p d).continuousAt hI] with u hu hu'
        exact ⟨hu, fun _ => not_lt.2 hu'.le⟩
    · left
      filter_upwards [eventually_neg (mo_cont hs p d).continuousAt hO] with u hu
      exact ⟨hu, fun h => absurd h hg⟩
  · right
    have hd : wdisc (offset s.1.z s.2.z s.1.rmax s.2.rmax) (slope s.1.z s.2.z s.1.rmax s.2.rmax) p d ≤ 0 := by
      by_contra hd
      exact n1 ⟨not_le.1 hd, hO⟩
    refine Eventually.of_forall fun u hh => ?_
    have := wall_degenerate _ _ p d t (by rw [← wallEq_eq hs.z]; exact hO) (hpos _ _ (hs.m1.trans hs.r1) (hs.m2.trans hs.r2) thick) hd u
    rw [← wallEq_eq hs.z] at this
    exact absurd hh.1 (not_lt.2 this)
  · right
    filter_upwards [eventually_pos (mo_cont hs p d).continuousAt hO] with u hu hh
    exact absurd hh.1 (not_lt.2 hu.le)

end Siren.Geometry.Polycone
