import Verif.Distributions.DepthPositionProps
import Verif.Distributions.DecayRangeModel
import Verif.Distributions.VolumeProps
import Mathlib.MeasureTheory.Function.JacobianOneDim

set_option autoImplicit false

/-! # C72, C73: lines drawn from a disk, and vertices drawn according to a decay length -/

namespace Siren.Distributions

open Siren Siren.Util Siren.Detector Siren.Detector.Path Real MeasureTheory Set

/-! ### Specification -/

/-- The point of the plane through the origin spanned by `e1`, `e2`, in polar coordinates. -/
noncomputable def planePoint (e1 e2 : Vec3 ℝ) (r t : ℝ) : Vec3 ℝ := Vec3.smul (r * cos t) e1 + Vec3.smul (r * sin t) e2

/-- The integral over the disk of the given radius in that plane, in polar coordinates. -/
noncomputable def diskIntegral (e1 e2 : Vec3 ℝ) (radius : ℝ) (F : Vec3 ℝ → ℝ) : ℝ :=
  ∫ t in (0 : ℝ)..2 * π, ∫ r in (0 : ℝ)..radius, F (planePoint e1 e2 r t) * r

/-- The density in space of decays along a path of length `L`, `s` metres behind its start, with decay length `l`, for lines spread evenly over
a disk. -/
noncomputable def decayDensity (radius l L s : ℝ) : ℝ := exp (-s / l) / (l * (1 - exp (-L / l))) / (π * radius * radius)

/-! ### Changes of variables -/

/-- A quantity drawn by inverting an increasing function `f` has the density `f'`. -/
theorem inverse_law {L : ℝ} (hL : 0 < L) {f f' inv : ℝ → ℝ} (hc : ContinuousOn f (Icc 0 L)) (hm : StrictMonoOn f (Icc 0 L)) (h0 : f 0 = 0)
    (h1 : f L = 1) (hd : ∀ s ∈ Ioo 0 L, HasDerivAt f (f' s) s) (hp : ∀ s ∈ Ioo 0 L, 0 ≤ f' s) (hi : ∀ s ∈ Ioo 0 L, inv (f s) = s) (H : ℝ → ℝ) :
    (∫ y in (0 : ℝ)..1, H (inv y)) = ∫ s in (0 : ℝ)..L, H s * f' s := by
  have himg : f '' Ioo 0 L = Ioo 0 1 := by
    apply Subset.antisymm
    · rintro _ ⟨s, hs, rfl⟩
      have a := hm (left_mem_Icc.2 hL.le) (Ioo_subset_Icc_self hs) hs.1
      have b := hm (Ioo_subset_Icc_self hs) (right_mem_Icc.2 hL.le) hs.2
      rw [h0] at a
      rw [h1] at b
      exact ⟨a, b⟩
    · have := intermediate_value_Ioo hL.le hc
      rwa [h0, h1] at this
  have hj := integral_image_eq_integral_abs_deriv_smul (s := Ioo 0 L) measurableSet_Ioo (fun s hs => (hd s hs).hasDerivWithinAt)
    (hm.injOn.mono Ioo_subset_Icc_self) (fun y => H (inv y))
  rw [himg] at hj
  rw [intervalIntegral.integral_of_le zero_le_one, intervalIntegral.integral_of_le hL.le, integral_Ioc_eq_integral_Ioo, integral_Ioc_eq_integral_Ioo, hj]
  refine setIntegral_congr_fun measurableSet_Ioo fun s hs => ?_
  simp only [smul_eq_mul]
  rw [abs_of_nonneg (hp s hs), hi s hs, mul_comm]

theorem angle_law (H : ℝ → ℝ) : (∫ g in (0 : ℝ)..1, H (uniform 0 (2 * π) g)) = 1 / (2 * π) * ∫ t in (0 : ℝ)..2 * π, H t := by
  have h := intervalIntegral.integral_comp_mul_add (a := 0) (b := 1) H (c := 2 * π - 0) (by simp [Real.pi_pos.ne']) 0
  simp only [uniform_le (by positivity : (0 : ℝ) ≤ 2 * π)]
  rw [h]
  simp

theorem sqrt_law {R : ℝ} (hR : 0 < R) (H : ℝ → ℝ) : (∫ g in (0 : ℝ)..1, H (R * sqrt (uniform 0 1 g))) = 2 / (R * R) * ∫ r in (0 : ℝ)..R, H r * r := by
  simp only [uniform_le (zero_le_one' ℝ), sub_zero, one_mul, add_zero]
  have hm : StrictMonoOn (fun r => r * r / (R * R)) (Icc 0 R) := by
    intro x hx y hy hxy
    have : x * x < y * y := by nlinarith [hx.1]
    exact div_lt_div_of_pos_right this (by positivity)
  rw [inverse_law (f := fun r => r * r / (R * R)) (f' := fun r => 2 * r / (R * R)) (inv := fun g => R * sqrt g) hR (by fun_prop) hm (by simp)
      (div_self (by positivity)), ← intervalIntegral.integral_const_mul]
  · refine intervalIntegral.integral_congr fun r _ => ?_
    ring
  · intro s _
    exact (((hasDerivAt_id' s).mul (hasDerivAt_id' s)).div_const (R * R)).congr_deriv (by ring)
  · intro s hs
    have := hs.1
    positivity
  · intro s hs
    show R * sqrt (s * s / (R * R)) = s
    rw [← div_mul_div_comm, sqrt_mul_self (div_nonneg hs.1.le hR.le)]
    field_simp

theorem decay_law {l L : ℝ} (hl : 0 < l) (hL : 0 < L) (H : ℝ → ℝ) :
    (∫ y in (0 : ℝ)..1, H (-l * log (y * (exp (-L / l) - 1) + 1))) = ∫ s in (0 : ℝ)..L, H s * (exp (-s / l) / (l * (1 - exp (-L / l)))) := by
  have hE : exp (-L / l) < 1 := by
    rw [← exp_zero]; exact exp_lt_exp.2 (by rw [neg_div]; exact neg_lt_zero.2 (by positivity))
  have hE' : 0 < 1 - exp (-L / l) := by linarith
  have hm : StrictMonoOn (fun s => (1 - exp (-s / l)) / (1 - exp (-L / l))) (Icc 0 L) := by
    intro x _ y _ hxy
    have : exp (-y / l) < exp (-x / l) := exp_lt_exp.2 (div_lt_div_of_pos_right (neg_lt_neg hxy) hl)
    exact div_lt_div_of_pos_right (by linarith) hE'
  refine inverse_law hL (by fun_prop) hm (by simp) (div_self hE'.ne') ?_ ?_ ?_ H
  · intro s _
    have h1 : HasDerivAt (fun s : ℝ => exp (-s / l)) (exp (-s / l) * (-1 / l)) s := (((hasDerivAt_id' s).neg).div_const l).exp
    exact ((h1.const_sub 1).div_const _).congr_deriv (by field_simp)
  · intro s _
    have := exp_pos (-s / l)
    positivity
  · intro s _
    have e : (1 - exp (-s / l)) / (1 - exp (-L / l)) * (exp (-L / l) - 1) + 1 = exp (-s / l) := by
      rw [show exp (-L / l) - 1 = -(1 - exp (-L / l)) by ring, mul_neg, div_mul_cancel₀ _ hE'.ne']; ring
    simp only [e, log_exp]
    field_simp

/-! ### The disk -/

/-- A frame of the plane of the disk. -/
theorem disk_frame {dir : Vec3 ℝ} (hd : Vec3.dot dir dir = 1) :
    ∃ e1 e2, Frame e1 e2 dir ∧ ∀ r t, Quat.rotate (Quat.rotationBetween ⟨0, 0, 1⟩ dir) ⟨r * cos t, r * sin t, 0⟩ false = planePoint e1 e2 r t := by
  have hz : (⟨0, 0, 1⟩ : Vec3 ℝ) ≠ 0 := fun h => by simpa using congrArg Vec3.z h
  have hdn : dir ≠ 0 := fun h => by rw [h] at hd; simp [Vec3.dot] at hd
  obtain ⟨hq, hr⟩ := Quat.C43_rotation_between_partial ⟨0, 0, 1⟩ dir hz hdn (by intro _; simp)
  have hz1 : Vec3.normalize (⟨0, 0, 1⟩ : Vec3 ℝ) = ⟨0, 0, 1⟩ := normalize_of_unit (by simp [Vec3.dot])
  rw [normalize_of_unit hd, hz1] at hr
  set q := Quat.rotationBetween ⟨0, 0, 1⟩ dir
  have r := Quat.C43_is_rotation hq false
  refine ⟨q.rotate ⟨1, 0, 0⟩ false, q.rotate ⟨0, 1, 0⟩ false, ⟨?_, ?_, hd, ?_, ?_, ?_, ?_⟩, ?_⟩
  · refine (r.dot _ _).trans ?_; simp [Vec3.dot]
  · refine (r.dot _ _).trans ?_; simp [Vec3.dot]
  · refine (r.dot _ _).trans ?_; simp [Vec3.dot]
  · rw [← hr]; refine (r.dot _ _).trans ?_; simp [Vec3.dot]
  · rw [← hr]; refine (r.dot _ _).trans ?_; simp [Vec3.dot]
  · rw [← hr]; refine (r.cross _ _).trans ?_; simp [Vec3.cross]
  · intro r t
    simp only [Quat.rotate_unit hq, Bool.false_eq_true, if_false]
    ext <;> simp only [planePoint, Quat.sandwich, Vec3.add_x, Vec3.add_y, Vec3.add_z, Vec3.smul_x, Vec3.smul_y, Vec3.smul_z] <;> ring

theorem planePoint_dot {e1 e2 dir : Vec3 ℝ} (h : Frame e1 e2 dir) (r t : ℝ) :
    Vec3.dot dir (planePoint e1 e2 r t) = 0 ∧ Vec3.norm (planePoint e1 e2 r t) = |r| := by
  constructor
  · have e : Vec3.dot dir (planePoint e1 e2 r t) = r * cos t * Vec3.dot e1 dir + r * sin t * Vec3.dot e2 dir := by
      simp only [planePoint, Vec3.dot, Vec3.add_x, Vec3.add_y, Vec3.add_z, Vec3.smul_x, Vec3.smul_y, Vec3.smul_z]; ring
    rw [e, h.orth1, h.orth2]; ring
  · have e : Vec3.dot (planePoint e1 e2 r t) (planePoint e1 e2 r t) =
        (r * cos t) ^ 2 * Vec3.dot e1 e1 + (r * sin t) ^ 2 * Vec3.dot e2 e2 + 2 * (r * cos t) * (r * sin t) * Vec3.dot e1 e2 := by
      simp only [planePoint, Vec3.dot, Vec3.add_x, Vec3.add_y, Vec3.add_z, Vec3.smul_x, Vec3.smul_y, Vec3.smul_z]; ring
    rw [Vec3.norm, e, h.unit1, h.unit2, h.orth, ← sqrt_sq_eq_abs]
    congr 1
    nlinarith [Real.sin_sq_add_cos_sq t]

/-- C72, C73: the points of closest approach drawn are spread evenly over the disk of the given radius around the origin, perpendicular to the
direction: the average of any function over the generator outputs is its integral over the disk, divided by the area. They are at right angles
to the direction and nearer to the origin than the radius. -/
theorem C72_disk_law {dir : Vec3 ℝ} (hd : Vec3.dot dir dir = 1) {radius : ℝ} (hR : 0 < radius) :
    ∃ e1 e2, Frame e1 e2 dir ∧
      (∀ F : Vec3 ℝ → ℝ, (∫ u0 in (0 : ℝ)..1, ∫ u1 in (0 : ℝ)..1, F (fromDisk radius dir u0 u1)) =
        diskIntegral e1 e2 radius fun x => F x * (1 / (π * radius * radius))) ∧
      ∀ u0 u1, 0 ≤ u1 → u1 < 1 → Vec3.dot dir (fromDisk radius dir u0 u1) = 0 ∧ Vec3.norm (fromDisk radius dir u0 u1) < radius := by
  obtain ⟨e1, e2, hf, hq⟩ := disk_frame hd
  refine ⟨e1, e2, hf, fun F => ?_, fun u0 u1 h0 h1 => ?_⟩
  · simp only [fromDisk, hq]
    have h1 : ∀ u0 : ℝ, (∫ u1 in (0 : ℝ)..1, F (planePoint e1 e2 (radius * sqrt (uniform 0 1 u1)) (uniform 0 (2 * π) u0))) =
        2 / (radius * radius) * ∫ r in (0 : ℝ)..radius, F (planePoint e1 e2 r (uniform 0 (2 * π) u0)) * r :=
      fun u0 => sqrt_law hR fun r => F (planePoint e1 e2 r (uniform 0 (2 * π) u0))
    simp only [h1]
    rw [angle_law fun t => 2 / (radius * radius) * ∫ r in (0 : ℝ)..radius, F (planePoint e1 e2 r t) * r, diskIntegral,
      ← intervalIntegral.integral_const_mul]
    refine intervalIntegral.integral_congr fun t _ => ?_
    show 1 / (2 * π) * (2 / (radius * radius) * ∫ r in (0 : ℝ)..radius, F (planePoint e1 e2 r t) * r) = _
    rw [← mul_assoc, ← intervalIntegral.integral_const_mul]
    refine intervalIntegral.integral_congr fun r _ => ?_
    field_simp
  · simp only [fromDisk, hq]
    obtain ⟨a, b⟩ := planePoint_dot hf (radius * sqrt (uniform 0 1 u1)) (uniform 0 (2 * π) u0)
    refine ⟨a, ?_⟩
    rw [b, abs_of_nonneg (by positivity), uniform_le zero_le_one]
    simp only [sub_zero, one_mul, add_zero]
    have : sqrt u1 < 1 := by rw [sqrt_lt' one_pos]; simpa using h1
    nlinarith

/-! ### The line of the path -/

theorem clip_line {p q : Path} {D : PathDetector} (S : D.Sound) {a0 u0 a u : Vec3 ℝ} {d : EReal} {L : ℝ} (hi : p.Inv D a0 u0 d) (hf : p.Fits D a0 u0)
    (hc : p.clip = .ok q) (hr : q.Runs D a u L) : u = u0 ∧ ∃ t, a = a0 + Vec3.smul t u0 := by
  obtain ⟨r, r1, r2, r3, r4, r5, -⟩ := hi.prepare S.proper (fun _ : True => hf)
  have r3 := r3 trivial
  unfold Path.clip at hc
  rw [r1] at hc
  simp only [Res.bind] at hc
  obtain ⟨g1, g2, -⟩ := r2.geo r4
  obtain ⟨x, v, hv, hx, ⟨t, ht⟩, hu⟩ := r3 r5
  have hpos : r.hits.position = x := by rw [hx, (S.casts x v).1]
  have hdir : r.hits.direction = v := by rw [hx, (S.casts x v).2]
  split at hc
  · rw [Res.ok.injEq] at hc
    subst hc
    obtain ⟨e1, e2, -⟩ := runs_unique S.proper hr r2
    exact ⟨e2.symm, 0, by rw [e1]; ext <;> simp⟩
  · simp at hc
  · split at hc
    · simp at hc
    split at hc
    · simp at hc
    rw [Res.ok.injEq] at hc
    have hline : ∃ t', q.geo.first = x + Vec3.smul t' v := by
      rw [← hc]
      simp only [hpos, hdir]
      split_ifs
      all_goals first
        | exact ⟨_, rfl⟩
        | exact ⟨t, by rw [g1, ht]⟩
    have hgeo : q.setGeo = true := by rw [← hc]; exact r4
    have hdir' : q.geo.dir = D.frame.toGeoDir u0 := by rw [← hc]; exact g2
    have hgf : q.geo.first = D.frame.toGeo a := by
      have := hr.geoFirst; unfold Path.geoFirstPoint at this; rwa [update_geo hgeo] at this
    have hgd : q.geo.dir = D.frame.toGeoDir u := by
      have := hr.geoDir; unfold Path.geoDirection at this; rwa [update_geo hgeo] at this
    have inv := fun p d => Frame.C28_inverse S.proper p d
    have huu : u = u0 := by
      have := congrArg D.frame.toDetDir (hgd.symm.trans hdir')
      rwa [(inv a u).2.2.1, (inv a u0).2.2.1] at this
    refine ⟨huu, ?_⟩
    obtain ⟨t', ht'⟩ := hline
    rw [hgf] at ht'
    have key : ∃ c, D.frame.toGeo a = D.frame.toGeo (a0 + Vec3.smul c u0) := by
      rcases hu with hu | hu
      · exact ⟨t' - t, by rw [← toGeo_move S.proper, ht', ht, hu]; ext <;> simp <;> ring⟩
      · exact ⟨t - t', by rw [← toGeo_move S.proper, ht', ht, hu]; ext <;> simp <;> ring⟩
    obtain ⟨c, hc'⟩ := key
    have := congrArg D.frame.toDet hc'
    rw [(inv a u).1, (inv (a0 + Vec3.smul c u0) u).1] at this
    exact ⟨c, this⟩

/-- The paths of the distributions that draw from a disk lie on the line through the point of closest approach. -/
theorem range_line {D : PathDetector} (S : D.Sound) {pca dir : Vec3 ℝ} (hd : Vec3.dot dir dir = 1) {endcap range : ℝ} (he : 0 ≤ endcap) {p : Path}
    (hp : rangePath D pca dir endcap range = .ok p) {a u : Vec3 ℝ} {L : ℝ} (hr : p.Runs D a u L) : u = dir ∧ ∃ t, a = pca + Vec3.smul t dir := by
  obtain ⟨h1, h2⟩ := ray_good (start := pca - Vec3.smul endcap dir) (dir := dir) (length := ((endcap * 2 : ℝ) : EReal)) S
    (by rw [norm_of_unit hd]; exact one_ne_zero) (by exact_mod_cast (by positivity : (0 : ℝ) ≤ endcap * 2))
  rw [normalize_of_unit hd] at h1 h2
  obtain ⟨q, q1, q2, q3, q4⟩ := h1.extendStart S.proper range
  obtain ⟨q', h', hc⟩ := bind_ok hp
  rw [q1, Res.ok.injEq] at h'
  subst h'
  obtain ⟨e, t, ht⟩ := clip_line S q2 (h2.move S.proper _ q3 q4) hc hr
  exact ⟨e, _, by rw [ht, smul_add_smul, show ∀ s, pca - Vec3.smul endcap dir + Vec3.smul s dir = pca + Vec3.smul (s - endcap) dir by
    intro s; ext <;> simp <;> ring]⟩

theorem column_line {D : PathDetector} (S : D.Sound) {pca dir : Vec3 ℝ} (hd : Vec3.dot dir dir = 1) {endcap depth : ℝ} (he : 0 ≤ endcap) {p : Path}
    (hp : columnPath D pca dir endcap depth = .ok p) {a u : Vec3 ℝ} {L : ℝ} (hr : p.Runs D a u L) : u = dir ∧ ∃ t, a = pca + Vec3.smul t dir := by
  obtain ⟨h1, h2⟩ := ray_good (start := pca - Vec3.smul endcap dir) (dir := dir) (length := ((endcap * 2 : ℝ) : EReal)) S
    (by rw [norm_of_unit hd]; exact one_ne_zero) (by exact_mod_cast (by positivity : (0 : ℝ) ≤ endcap * 2))
  rw [normalize_of_unit hd] at h1 h2
  obtain ⟨q', h', hc⟩ := bind_ok hp
  unfold Path.extendStartBy Path.moveBy at h'
  obtain ⟨e, -, h'⟩ := bind_ok h'
  split_ifs at h'
  obtain ⟨r, r1, r2, r3, -⟩ := h1.prepare S.proper (fun _ : True => h2)
  rw [r1] at h'
  simp only [Res.bind] at h'
  obtain ⟨q, q1, q2, q3, q4⟩ := r2.extendStart S.proper e.toReal
  rw [q1, Res.ok.injEq] at h'
  subst h'
  obtain ⟨e, t, ht⟩ := clip_line S q2 ((r3 trivial).move S.proper _ q3 q4) hc hr
  exact ⟨e, _, by rw [ht, smul_add_smul, show ∀ s, pca - Vec3.smul endcap dir + Vec3.smul s dir = pca + Vec3.smul (s - endcap) dir by
    intro s; ext <;> simp <;> ring]⟩

theorem closest_line {dir pca : Vec3 ℝ} (hd : Vec3.dot dir dir = 1) (hp : Vec3.dot dir pca = 0) (t : ℝ) : closest dir (pca + Vec3.smul t dir) = pca := by
  have : Vec3.dot dir (pca + Vec3.smul t dir) = t := by
    have e : Vec3.dot dir (pca + Vec3.smul t dir) = Vec3.dot dir pca + t * Vec3.dot dir dir := by simp [Vec3.dot]; ring
    rw [e, hp, hd]; ring
  unfold closest
  rw [this]
  ext <;> simp

/-- C72: the distributions that draw the line from a disk report, for every vertex on the path of a line that can be drawn, the density along that
path divided by the area of the disk; the path is found again from the vertex. Together with `C72_disk_law` and `C72_vertex` for that path, this is the
density in space of the vertices drawn. -/
theorem C72_disk_density {D : PathDetector} (S : D.Sound) {dir : Vec3 ℝ} (hd : Vec3.dot dir dir = 1) {radius endcap : ℝ} (he : 0 ≤ endcap)
    {path : Vec3 ℝ → Res Path}
    (hpath : (∃ range, path = fun pca => rangePath D pca dir endcap range) ∨ ∃ depth, path = fun pca => columnPath D pca dir endcap depth)
    {pca : Vec3 ℝ} (h0 : Vec3.dot dir pca = 0) (h1 : Vec3.norm pca < radius) {p : Path} (hp : path pca = .ok p) {a u : Vec3 ℝ} {L : ℝ} (hr : p.Runs D a u L)
    (k : Totals) (s q : ℝ) (hq : densityOn false p k (a + Vec3.smul s u) = .ok q) :
    Made D p ∧ u = dir ∧ diskProbability radius path dir k (a + Vec3.smul s u) = .ok (q / (π * radius * radius)) := by
  have hn : Vec3.norm dir ≠ 0 := by rw [norm_of_unit hd]; exact one_ne_zero
  have hline : Made D p ∧ u = dir ∧ ∃ t, a = pca + Vec3.smul t dir := by
    rcases hpath with ⟨r, rfl⟩ | ⟨x, rfl⟩
    · exact ⟨.range pca dir endcap r p hn he hp, range_line S hd he hp hr⟩
    · exact ⟨.column pca dir endcap x p hn he hp, column_line S hd he hp hr⟩
  obtain ⟨hm, rfl, t, rfl⟩ := hline
  refine ⟨hm, rfl, ?_⟩
  unfold diskProbability
  have e : pca + Vec3.smul t u + Vec3.smul s u = pca + Vec3.smul (t + s) u := smul_add_smul _ _ _ _
  rw [e] at hq
  rw [e, closest_line hd h0]
  simp only [not_le.2 h1, if_false, hp, Res.bind, hq]

/-- C72: these distributions draw a vertex on the path of the line drawn from the disk, with the law of `C72_vertex`, and report the start of
that path as initial position. -/
theorem C72_disk_sample {D : PathDetector} (S : D.Sound) {k : Totals} (hk : k.Usable D) {dir : Vec3 ℝ} (hd : Vec3.dot dir dir = 1) {radius endcap : ℝ}
    (he : 0 ≤ endcap) {path : Vec3 ℝ → Res Path}
    (hpath : (∃ range, path = fun pca => rangePath D pca dir endcap range) ∨ ∃ depth, path = fun pca => columnPath D pca dir endcap depth)
    (u0 u1 : ℝ) {p : Path} (hp : path (fromDisk radius dir u0 u1) = .ok p) {a u : Vec3 ℝ} {L : ℝ} (hr : p.Runs D a u L) (h0 : 0 < L)
    (hL : k.targets = [] ∨ 1e-5 < L) :
    u = dir ∧ ∃ lam X, PathDensity p a u k lam X ∧
      ∀ y, 0 ≤ y → y ≤ 1 → ∃ s, 0 ≤ s ∧ s ≤ L ∧ diskSample radius path dir k u0 u1 y = .ok (a, a + Vec3.smul s u) ∧
        ∀ x, 0 ≤ x → x ≤ L → (s ≤ x ↔ y ≤ ∫ t in (0 : ℝ)..x, vertexDensity lam L t) := by
  have hn : Vec3.norm dir ≠ 0 := by rw [norm_of_unit hd]; exact one_ne_zero
  have hline : Made D p ∧ u = dir := by
    rcases hpath with ⟨r, rfl⟩ | ⟨x, rfl⟩
    · exact ⟨.range _ dir endcap r p hn he hp, (range_line S hd he hp hr).1⟩
    · exact ⟨.column _ dir endcap x p hn he hp, (column_line S hd he hp hr).1⟩
  obtain ⟨lam, X, h1, h2, -⟩ := C72_vertex S hk hline.1 hr h0 hL
  refine ⟨hline.2, lam, X, h1, fun y hy0 hy1 => ?_⟩
  obtain ⟨s, s0, s1, hv, hs⟩ := h2 y hy0 hy1
  exact ⟨s, s0, s1, by simp [diskSample, hp, hv, Res.bind, hr.first], hs⟩

/-! ### Where the paths run -/

/-- The line through `a` in direction `u` has the detector's outer bounds at the distances `c0` and `c1` from `a`. -/
def BoundsAt (D : PathDetector) (a u : Vec3 ℝ) (c0 c1 : ℝ) : Prop :=
  ∃ b0 b1, outerBounds (D.cast (D.frame.toGeo a) (D.frame.toGeoDir u)).hits = [b0, b1] ∧ b0.distance = (c0 : EReal) ∧ b1.distance = (c1 : EReal) ∧ c0 < c1

theorem min_toReal (x y : ℝ) : (min (x : EReal) (y : EReal)).toReal = min x y := by
  rcases le_total x y with h | h
  · rw [min_eq_left h, min_eq_left (by exact_mod_cast h), EReal.toReal_coe]
  · rw [min_eq_right h, min_eq_right (by exact_mod_cast h), EReal.toReal_coe]

theorem clip_known {D : PathDetector} (S : D.Sound) {p : Path} {a u : Vec3 ℝ} {d : EReal} (hi : p.Inv D a u d) (hf : p.Fits D a u) {e : ℝ}
    (hits : ∀ q, p.prepare = .ok q → q.hits = D.cast (D.frame.toGeo (a + Vec3.smul e u)) (D.frame.toGeoDir u)) {c0 c1 : ℝ}
    (hb : BoundsAt D (a + Vec3.smul e u) u c0 c1) (hle : max 0 (e + c0) ≤ (min d ((e + c1 : ℝ) : EReal)).toReal) :
    ∃ r, p.clip = .ok r ∧ r.detector = some D ∧
      r.Runs D (a + Vec3.smul (max 0 (e + c0)) u) u ((min d ((e + c1 : ℝ) : EReal)).toReal - max 0 (e + c0)) := by
  obtain ⟨q, q1, q2, q3, q4, q5, -⟩ := hi.prepare S.proper (fun _ : True => hf)
  have hq := hits q q1
  obtain ⟨b0, b1, hb, h0, h1, hlt⟩ := hb
  obtain ⟨s0, s1, hs, hpts, hA, -⟩ := clip_inv S.proper S.casts q1 q2 (q3 trivial) q4 q5 (by rw [hq]; exact hb) h0 h1 hlt
  rw [hq, (S.casts _ _).1, (S.casts _ _).2, toGeo_move S.proper, toGeo_move S.proper, smul_add_smul, smul_add_smul] at hpts
  have : e + c0 = s0 ∧ e + c1 = s1 := by
    rcases hpts with ⟨e1, e2⟩ | ⟨e1, e2⟩
    · exact ⟨toGeo_inj S.proper hi.unit e1, toGeo_inj S.proper hi.unit e2⟩
    · have := toGeo_inj S.proper hi.unit e1
      have := toGeo_inj S.proper hi.unit e2
      linarith
  rw [← this.1, ← this.2] at hA
  obtain ⟨r, r1, r2⟩ := hA hle
  refine ⟨r, r1, ?_, r2⟩
  obtain ⟨-, -, -, -, r', e1, -, -, e2, -⟩ := clip_core S.proper S.casts q1 q2 (q3 trivial) q4 q5 (by rw [hq]; exact hb) h0 h1 hlt
  rw [r1] at e1
  cases e1
  exact e2

theorem clip_fresh {D : PathDetector} (S : D.Sound) {p : Path} {a u : Vec3 ℝ} {d : EReal} (hi : p.Inv D a u d) (hs : p.setHits = false) {c0 c1 : ℝ}
    (hb : BoundsAt D a u c0 c1) (hle : max 0 c0 ≤ (min d (c1 : EReal)).toReal) :
    ∃ r, p.clip = .ok r ∧ r.detector = some D ∧ r.Runs D (a + Vec3.smul (max 0 c0) u) u ((min d (c1 : EReal)).toReal - max 0 c0) := by
  have hf : p.Fits D a u := fun hh => by rw [hs] at hh; exact absurd hh (by simp)
  have h := clip_known S hi hf (e := 0) (c0 := c0) (c1 := c1) (fun q hq => by rw [prepare_fresh S.proper hi hs hq, smul_zero']) (by rw [smul_zero']; exact hb)
    (by rw [zero_add, zero_add]; exact hle)
  rwa [zero_add, zero_add] at h

/-- C72: a ray is followed from its start to its end, as far as it lies between the outer bounds of the detector. -/
theorem C72_ray_path {D : PathDetector} (S : D.Sound) {start dir : Vec3 ℝ} (hd : Vec3.dot dir dir = 1) {length : EReal} (hl : 0 ≤ length) {c0 c1 : ℝ}
    (hb : BoundsAt D start dir c0 c1) (hle : max 0 c0 ≤ (min length (c1 : EReal)).toReal) :
    ∃ r, rayPath D start dir length = .ok r ∧ r.Runs D (start + Vec3.smul (max 0 c0) dir) dir ((min length (c1 : EReal)).toReal - max 0 c0) := by
  have hn : Vec3.norm dir ≠ 0 := by rw [norm_of_unit hd]; exact one_ne_zero
  obtain ⟨i1, i2⟩ := inv_rayDet (p := Path.new (some D)) S.proper rfl start dir hn length hl
  rw [normalize_of_unit hd] at i1
  obtain ⟨r, r1, -, r2⟩ := clip_fresh S i1 (i2 rfl) hb hle
  exact ⟨r, r1, r2⟩

/-- C72: a path restricted to a fiducial volume entered at distance `f` and left at distance `l` runs where the ray is inside the volume, if it is. -/
theorem C72_bounded_path {D : PathDetector} (S : D.Sound) {start dir : Vec3 ℝ} (hd : Vec3.dot dir dir = 1) {length : EReal} (hl : 0 ≤ length) {c0 c1 : ℝ}
    (hb : BoundsAt D start dir c0 c1) (hle : max 0 c0 ≤ (min length (c1 : EReal)).toReal) (hits : List (ℝ × Vec3 ℝ)) (f l : ℝ)
    (h1 : hits.head? = some (f, start + Vec3.smul f dir)) (h2 : hits.getLast? = some (l, start + Vec3.smul l dir)) (hfl : f < l)
    (hf : (f : EReal) < length) (hl0 : 0 < l) (hlen : 0 < length) :
    ∃ r, boundedPath D start dir length (some hits) = .ok r ∧
      r.Runs D (start + Vec3.smul (max 0 f) dir) dir ((min length (l : EReal)).toReal - max 0 f) := by
  have hn : Vec3.norm dir ≠ 0 := by rw [norm_of_unit hd]; exact one_ne_zero
  obtain ⟨i1, i2⟩ := inv_rayDet (p := Path.new (some D)) S.proper rfl start dir hn length hl
  rw [normalize_of_unit hd] at i1
  obtain ⟨r, r1, r3, r2⟩ := clip_fresh S i1 (i2 rfl) hb hle
  have hA : (if 0 < f then start + Vec3.smul f dir else start) = start + Vec3.smul (max 0 f) dir := by
    split_ifs with h
    · rw [max_eq_right h.le]
    · rw [max_eq_left (not_lt.1 h)]; ext <;> simp
  have hB : (if (l : EReal) < length then start + Vec3.smul l dir else start + Vec3.smul length.toReal dir) =
      start + Vec3.smul (min length (l : EReal)).toReal dir := by
    split_ifs with h
    · rw [min_eq_right h.le, EReal.toReal_coe]
    · rw [min_eq_left (not_lt.1 h)]
  have hlt : max 0 f < (min length (l : EReal)).toReal := by
    by_cases h : (l : EReal) < length
    · rw [min_eq_right h.le, EReal.toReal_coe]
      exact max_lt hl0 hfl
    · have h' := not_lt.1 h
      rw [min_eq_left h']
      have hx : length ≠ ⊤ := fun e => by rw [e] at h'; exact absurd h' (by simp)
      have hy : length ≠ ⊥ := fun e => by rw [e] at hlen; exact absurd hlen (by simp)
      lift length to ℝ using ⟨hx, hy⟩
      rw [EReal.toReal_coe]
      exact max_lt (by exact_mod_cast hlen) (by exact_mod_cast hf)
  refine ⟨r.setPointsDet (start + Vec3.smul (max 0 f) dir) (start + Vec3.smul (min length (l : EReal)).toReal dir), ?_, ?_⟩
  · unfold boundedPath
    rw [show rayPath D start dir length = .ok r from r1]
    simp only [Res.bind, h1, h2, hf, hl0, and_self, if_true]
    rw [hA, hB]
  · have e : start + Vec3.smul (min length (l : EReal)).toReal dir - (start + Vec3.smul (max 0 f) dir) =
        Vec3.smul ((min length (l : EReal)).toReal - max 0 f) dir := by ext <;> simp <;> ring
    have en : Vec3.norm (Vec3.smul ((min length (l : EReal)).toReal - max 0 f) dir) = (min length (l : EReal)).toReal - max 0 f := by
      rw [Vec3.norm_smul_unit _ _ hd, abs_of_pos (by linarith)]
    have ed : Vec3.normalize (Vec3.smul ((min length (l : EReal)).toReal - max 0 f) dir) = dir := by
      have : (min length (l : EReal)).toReal - max 0 f ≠ 0 := by linarith
      ext <;> simp only [Vec3.normalize, en, Vec3.smul_x, Vec3.smul_y, Vec3.smul_z] <;> field_simp
    obtain ⟨j1, -⟩ := inv_pointsDet S.proper r3 (start + Vec3.smul (max 0 f) dir) (start + Vec3.smul (min length (l : EReal)).toReal dir)
      (by rw [e, en]; linarith)
    rw [e, en, ed] at j1
    exact j1.runs S.proper

/-- C72, C73: the path for a range runs from the range before the first end cap to the second one, as far as it lies between the outer bounds of
the detector. -/
theorem C72_range_path {D : PathDetector} (S : D.Sound) {pca dir : Vec3 ℝ} (hd : Vec3.dot dir dir = 1) {endcap range : ℝ} (he : 0 ≤ endcap) (hr : 0 ≤ range)
    {c0 c1 : ℝ} (hb : BoundsAt D (pca - Vec3.smul (endcap + range) dir) dir c0 c1) (hle : max 0 c0 ≤ min (2 * endcap + range) c1) :
    ∃ r, rangePath D pca dir endcap range = .ok r ∧
      r.Runs D (pca - Vec3.smul (endcap + range) dir + Vec3.smul (max 0 c0) dir) dir (min (2 * endcap + range) c1 - max 0 c0) := by
  have hn : Vec3.norm dir ≠ 0 := by rw [norm_of_unit hd]; exact one_ne_zero
  obtain ⟨i1, i2⟩ := inv_rayDet (p := Path.new (some D)) S.proper rfl (pca - Vec3.smul endcap dir) dir hn ((endcap * 2 : ℝ) : EReal)
    (by exact_mod_cast (by positivity : (0 : ℝ) ≤ endcap * 2))
  rw [normalize_of_unit hd] at i1
  obtain ⟨q, q1, q2, q3, q4⟩ := i1.extendStart S.proper range
  rw [max_eq_right (by linarith)] at q2
  have e : pca - Vec3.smul endcap dir + Vec3.smul (endcap * 2 - (endcap * 2 + range)) dir = pca - Vec3.smul (endcap + range) dir := by
    ext <;> simp <;> ring
  rw [e, show endcap * 2 + range = 2 * endcap + range by ring] at q2
  have hm : (min (((2 * endcap + range : ℝ) : EReal)) (c1 : EReal)).toReal = min (2 * endcap + range) c1 := by
    exact min_toReal _ _
  obtain ⟨r, r1, -, r2⟩ := clip_fresh S q2 (q3.trans (i2 rfl)) hb (by rw [hm]; exact hle)
  rw [hm] at r2
  refine ⟨r, ?_, r2⟩
  unfold rangePath
  rw [q1]
  exact r1

/-- C72: the path for a column depth runs from the distance `e` before the first end cap, at which that column depth is reached (C66), as far as it lies
between the outer bounds. -/
theorem C72_column_path {D : PathDetector} (S : D.Sound) {pca dir : Vec3 ℝ} (hd : Vec3.dot dir dir = 1) {endcap depth : ℝ} (he : 0 ≤ endcap) {e : ℝ}
    (hreach : ((Path.new (some D)).setRayDet (pca - Vec3.smul endcap dir) dir ((endcap * 2 : ℝ) : EReal)).distanceFromStartInReverse depth .column =
      .ok (e : EReal)) (h0 : 0 ≤ e)
    {c0 c1 : ℝ} (hb : BoundsAt D (pca - Vec3.smul endcap dir) dir c0 c1) (hle : max 0 (e + c0) ≤ min (2 * endcap + e) (e + c1)) :
    ∃ r, columnPath D pca dir endcap depth = .ok r ∧
      r.Runs D (pca - Vec3.smul (endcap + e) dir + Vec3.smul (max 0 (e + c0)) dir) dir (min (2 * endcap + e) (e + c1) - max 0 (e + c0)) := by
  have hn : Vec3.norm dir ≠ 0 := by rw [norm_of_unit hd]; exact one_ne_zero
  obtain ⟨i1, i2⟩ := inv_rayDet (p := Path.new (some D)) S.proper rfl (pca - Vec3.smul endcap dir) dir hn ((endcap * 2 : ℝ) : EReal)
    (by exact_mod_cast (by positivity : (0 : ℝ) ≤ endcap * 2))
  have i2 := i2 rfl
  rw [normalize_of_unit hd] at i1
  obtain ⟨r, r1, r2, r3, -, r5, -⟩ := i1.prepare S.proper (F := True) (fun _ hh => by rw [i2] at hh; exact absurd hh (by simp))
  have hh := prepare_fresh S.proper i1 i2 r1
  obtain ⟨q, q1, q2, q3, q4⟩ := r2.extendStart S.proper e
  have hF := (r3 trivial).move S.proper (endcap * 2 - max 0 (endcap * 2 + e)) q3 q4
  rw [max_eq_right (by linarith)] at q2 hF
  have ea : pca - Vec3.smul endcap dir + Vec3.smul (endcap * 2 - (endcap * 2 + e)) dir = pca - Vec3.smul (endcap + e) dir := by
    ext <;> simp <;> ring
  have eb : pca - Vec3.smul (endcap + e) dir + Vec3.smul e dir = pca - Vec3.smul endcap dir := by ext <;> simp <;> ring
  rw [ea] at q2 hF
  rw [show endcap * 2 + e = 2 * endcap + e by ring] at q2
  obtain ⟨r', e1, -, e2⟩ := clip_known S q2 hF (e := e) (c0 := c0) (c1 := c1)
    (fun q' hq' => by
      obtain ⟨q'', g1, -, -, -, -, g6, -⟩ := q2.prepare S.proper (F := False) (by simp)
      rw [hq', Res.ok.injEq] at g1
      rw [g1, g6 (q3.trans r5), q4, hh, eb]) (by rw [eb]; exact hb) (by rw [min_toReal]; exact hle)
  rw [min_toReal] at e2
  refine ⟨r', ?_, e2⟩
  unfold columnPath Path.extendStartBy Path.moveBy
  rw [hreach]
  simp only [Res.bind, EReal.coe_ne_top, EReal.coe_ne_bot, or_self, if_false, EReal.toReal_coe]
  rw [r1]
  simp only
  rw [q1]
  exact e1

/-! ### A ball of material in the universe -/

/-- Half the length of the chord of the ball of radius 100 m around the origin, squared (negative: the line misses it). -/
noncomputable def ballHalf (x v : Vec3 ℝ) : ℝ := Vec3.dot x v * Vec3.dot x v - Vec3.dot x x + 10000

/-- Chords of the ball. -/
noncomputable def ballChords (x v : Vec3 ℝ) : List (EReal × EReal) :=
  if 0 < ballHalf x v then [((-Vec3.dot x v - sqrt (ballHalf x v) : ℝ), (-Vec3.dot x v + sqrt (ballHalf x v) : ℝ))] else []

/-- A ball of radius 100 m and density 2 in a universe of density 1, both with one target of each kind per gram. -/
noncomputable def ballDetector : PathDetector :=
  ⟨⟨0, ⟨0, 0, 0, 1⟩⟩, ⟨[⟨intMin, 0, constDensity 1⟩, ⟨1, 0, constDensity 2⟩], fun _ _ => 1⟩,
    fun x v => ⟨x, v, ⟨⊥, intMin, true⟩ :: (ballChords x v).flatMap (chordHits 1) ++ [⟨⊤, intMin, false⟩]⟩⟩

theorem ball_geo (x : Vec3 ℝ) : ballDetector.frame.toGeo x = x ∧ ballDetector.frame.toGeoDir x = x := by
  constructor
  · ext <;> simp [ballDetector, Frame.toGeo, Quat.rotate, Quat.sandwich, Quat.normSq]
  · simp [ballDetector, Frame.toGeoDir, Quat.rotate, Quat.sandwich, Quat.normSq]

theorem comp_later {a b : Hit EReal} (h : a.distance < b.distance) : comp b a = false := by
  simp [comp, not_lt.2 h.le, h.ne']

theorem ball_sound : ballDetector.Sound := by
  have hsec : ∀ sec ∈ ballDetector.model.sectors, sec = ⟨intMin, 0, constDensity 1⟩ ∨ sec = ⟨1, 0, constDensity 2⟩ := by
    intro sec h
    simpa [ballDetector] using h
  refine ⟨Or.inl (by simp [ballDetector, Quat.IsUnit, Quat.normSq]), fun _ _ => ⟨rfl, rfl⟩, ?_, ?_, ?_⟩
  · intro x v hv
    refine ⟨⟨intMin, ⊥, ⊤, [⟨1, ballChords x v⟩]⟩, ⟨hv, ?_, ?_, ?_, ?_, ?_⟩, rfl, rfl⟩
    · refine ⟨bot_lt_top, by simp, by simp [intMin], ?_, ?_⟩
      · intro s hs
        simp only [List.mem_singleton] at hs
        subst hs
        unfold LineSector.Ordered ballChords
        split_ifs with h
        · have := sqrt_pos.2 h
          simp only [List.mem_singleton, forall_eq, List.pairwise_singleton, and_true]
          exact EReal.coe_lt_coe_iff.2 (by linarith)
        · simp
      · intro s hs
        simp only [List.mem_singleton] at hs
        subst hs
        unfold ballChords
        split_ifs with h
        · simp only [List.mem_singleton, forall_eq]
          exact ⟨EReal.bot_lt_coe _, EReal.coe_lt_top _⟩
        · simp
    · show IsSortOf (⟨⊥, intMin, true⟩ :: (ballChords x v).flatMap (chordHits 1) ++ [⟨⊤, intMin, false⟩]) _
      refine ⟨?_, ?_⟩
      · simp only [Layout.hits, Layout.sectors, Layout.outer, LineSector.hits, List.flatMap_cons, List.flatMap_nil, List.append_nil, chordHits]
        refine List.Perm.cons _ ?_
        exact List.perm_append_comm
      · unfold ballChords
        split_ifs with h
        · have := sqrt_pos.2 h
          have h1 : ((-Vec3.dot x v - sqrt (ballHalf x v) : ℝ) : EReal) < ((-Vec3.dot x v + sqrt (ballHalf x v) : ℝ) : EReal) :=
            EReal.coe_lt_coe_iff.2 (by linarith)
          simp only [List.flatMap_cons, List.flatMap_nil, chordHits, List.append_nil, List.cons_append, List.nil_append]
          refine .cons ?_ (.cons ?_ (.cons ?_ (.cons ?_ .nil)))
          · simp only [List.mem_cons, List.not_mem_nil, or_false]
            rintro _ (rfl | rfl | rfl)
            · exact comp_later (EReal.bot_lt_coe _)
            · exact comp_later (EReal.bot_lt_coe _)
            · exact comp_later bot_lt_top
          · simp only [List.mem_cons, List.not_mem_nil, or_false]
            rintro _ (rfl | rfl)
            · exact comp_later h1
            · exact comp_later (EReal.coe_lt_top _)
          · simp only [List.mem_cons, List.not_mem_nil, or_false]
            rintro _ rfl
            exact comp_later (EReal.coe_lt_top _)
          · simp
        · simp only [List.flatMap_nil, List.cons_append, List.nil_append]
          refine .cons ?_ (.cons (by simp) .nil)
          simp only [List.mem_cons, List.not_mem_nil, or_false]
          rintro _ rfl
          exact comp_later bot_lt_top
    · intro s hs
      simp only [Layout.sectors, Layout.outer, List.mem_cons, List.not_mem_nil, or_false] at hs
      rcases hs with rfl | rfl <;> simp [ballDetector]
    · simp [ballDetector, intMin]
    · intro sec h
      rcases hsec sec h with rfl | rfl <;> exact constDensity_lawful _
  · intro sec h p
    rcases hsec sec h with rfl | rfl <;> simp [constDensity]
  · intro sec h
    rcases hsec sec h with rfl | rfl <;> exact constDensity_inverse _ (by norm_num)

theorem ball_bounds {x v : Vec3 ℝ} (h : 0 < ballHalf x v) :
    BoundsAt ballDetector x v (-Vec3.dot x v - sqrt (ballHalf x v)) (-Vec3.dot x v + sqrt (ballHalf x v)) := by
  have := sqrt_pos.2 h
  refine ⟨⟨((-Vec3.dot x v - sqrt (ballHalf x v) : ℝ) : EReal), 1, true⟩, ⟨((-Vec3.dot x v + sqrt (ballHalf x v) : ℝ) : EReal), 1, false⟩, ?_, rfl, rfl,
    by linarith⟩
  rw [(ball_geo x).1, (ball_geo v).2]
  simp only [ballDetector, ballChords, if_pos h]
  simp [outerBounds, chordHits, intMin, List.findIdx?_cons]

/-- The hypotheses of the theorems on paths are met: lines across the ball, with a fiducial volume, a range and a column depth. -/
example : ballDetector.Sound ∧ (⟨[(2212, 1)], none⟩ : Totals).Usable ballDetector ∧ BoundsAt ballDetector 0 ⟨0, 0, 1⟩ (-100) 100 ∧
    BoundsAt ballDetector (⟨1, 0, 0⟩ - Vec3.smul (5 + 3) ⟨0, 0, 1⟩) ⟨0, 0, 1⟩ (8 - sqrt 9999) (8 + sqrt 9999) := by
  refine ⟨ball_sound, Or.inl ⟨by simp, rfl, ?_, ?_⟩, ?_, ?_⟩
  · intro sec _
    simp [DetModel.composition, ballDetector]
  · intro sec _ x hx
    simp only [List.mem_cons, List.not_mem_nil, or_false] at hx
    subst hx
    simp [ballDetector]
  · have hh : ballHalf 0 ⟨0, 0, 1⟩ = 100 ^ 2 := by simp [ballHalf, Vec3.dot]; norm_num
    have := ball_bounds (x := 0) (v := ⟨0, 0, 1⟩) (by rw [hh]; norm_num)
    rw [hh, sqrt_sq (by norm_num)] at this
    simpa [Vec3.dot] using this
  · have hh : ballHalf (⟨1, 0, 0⟩ - Vec3.smul (5 + 3) ⟨0, 0, 1⟩) ⟨0, 0, 1⟩ = 9999 := by simp [ballHalf, Vec3.dot]; norm_num
    have := ball_bounds (x := ⟨1, 0, 0⟩ - Vec3.smul (5 + 3) ⟨0, 0, 1⟩) (v := ⟨0, 0, 1⟩) (by rw [hh]; norm_num)
    rw [hh] at this
    have e : Vec3.dot ((⟨1, 0, 0⟩ : Vec3 ℝ) - Vec3.smul (5 + 3) ⟨0, 0, 1⟩) ⟨0, 0, 1⟩ = -8 := by simp [Vec3.dot]; norm_num
    rw [e, neg_neg] at this
    exact this

/-- C72: no density for vertices on lines outside the disk. -/
theorem C72_disk_outside (radius : ℝ) (path : Vec3 ℝ → Res Path) (dir : Vec3 ℝ) (hd : Vec3.dot dir dir = 1) (k : Totals) {x : Vec3 ℝ}
    (h0 : Vec3.dot dir x = 0) (h1 : radius ≤ Vec3.norm x) (t : ℝ) : diskProbability radius path dir k (x + Vec3.smul t dir) = .ok 0 := by
  unfold diskProbability
  simp only [closest_line hd h0, h1, if_true]

/-! ### C73 -/

/-- C73: no density and no bounds for vertices on lines outside the disk, and no density more than 1 mm off the ends of the path. -/
theorem C73_outside {D : PathDetector} (S : D.Sound) (d : DecayRangePosition) {dir : Vec3 ℝ} (hd : Vec3.dot dir dir = 1) (energy : ℝ) {x : Vec3 ℝ}
    (h0 : Vec3.dot dir x = 0) (t : ℝ) :
    (d.radius ≤ Vec3.norm x → d.probability D dir energy (x + Vec3.smul t dir) = .ok 0 ∧ d.bounds D dir energy (x + Vec3.smul t dir) = .ok (0, 0)) ∧
    (0 ≤ d.endcap → Vec3.norm x < d.radius → ∀ p s L, d.path D dir energy x = .ok p → p.Runs D (x + Vec3.smul s dir) dir L →
      t < s - 1e-3 ∨ s + L + 1e-3 < t → d.probability D dir energy (x + Vec3.smul t dir) = .ok 0) := by
  constructor
  · intro h1
    unfold DecayRangePosition.probability DecayRangePosition.bounds
    simp only [normalize_of_unit hd, closest_line hd h0, h1, if_true, and_self]
  · intro he h1 p s L hp hr ht
    have hn : Vec3.norm dir ≠ 0 := by rw [norm_of_unit hd]; exact one_ne_zero
    have hm : Made D p := .range x dir d.endcap _ p hn he hp
    have hw : p.withinDet (x + Vec3.smul t dir) = .ok false := by
      refine outside_within S hm hr _ ?_
      rw [show x + Vec3.smul t dir - (x + Vec3.smul s dir) = Vec3.smul (t - s) dir by ext <;> simp <;> ring, dot_smul_unit hd]
      rcases ht with h | h
      · left; linarith
      · right; linarith
    unfold DecayRangePosition.probability
    simp only [normalize_of_unit hd, closest_line hd h0, not_le.2 h1, if_false, hp, Res.bind, hw, Bool.not_false, if_true]

/-- C73: the density reported for every vertex on the path of a line through the disk. -/
theorem C73_density {D : PathDetector} (S : D.Sound) (d : DecayRangePosition) {dir : Vec3 ℝ} (hd : Vec3.dot dir dir = 1) (he : 0 ≤ d.endcap) (energy : ℝ)
    {pca : Vec3 ℝ} (h0 : Vec3.dot dir pca = 0) (h1 : Vec3.norm pca < d.radius) {p : Path} (hp : d.path D dir energy pca = .ok p) {a u : Vec3 ℝ} {L : ℝ}
    (hr : p.Runs D a u L) {s : ℝ} (hs0 : 0 ≤ s) (hs1 : s ≤ L) :
    u = dir ∧ d.probability D dir energy (a + Vec3.smul s dir) = .ok (decayDensity d.radius (d.function.decayLength energy) L s) ∧
      d.bounds D dir energy (a + Vec3.smul s dir) = .ok (a, a + Vec3.smul L dir) := by
  obtain ⟨rfl, t, rfl⟩ := range_line S hd he hp hr
  have hn : Vec3.norm u ≠ 0 := by rw [norm_of_unit hd]; exact one_ne_zero
  have hm : Made D p := .range pca u d.endcap _ p hn he hp
  obtain ⟨hi, -⟩ := made_good S hm hr
  have e : pca + Vec3.smul t u + Vec3.smul s u = pca + Vec3.smul (t + s) u := smul_add_smul _ _ _ _
  have hw := within_eq S.proper hi hs0 hs1
  have hb := C72_bounds S hm hr hs0 hs1 true
  refine ⟨rfl, ?_, ?_⟩
  · unfold DecayRangePosition.probability
    simp only [normalize_of_unit hd]
    rw [show closest u (pca + Vec3.smul t u + Vec3.smul s u) = pca by rw [e, closest_line hd h0]]
    simp only [not_le.2 h1, if_false, hp, Res.bind, hw, Bool.not_true, Bool.false_eq_true, hr.distance, EReal.coe_ne_top, EReal.coe_ne_bot, or_self,
      EReal.toReal_coe, hr.dir, hr.first, decayDensity]
    rw [show pca + Vec3.smul t u + Vec3.smul s u - (pca + Vec3.smul t u) = Vec3.smul s u by ext <;> simp, dot_smul_unit hd]
  · unfold DecayRangePosition.bounds
    simp only [normalize_of_unit hd]
    rw [show closest u (pca + Vec3.smul t u + Vec3.smul s u) = pca by rw [e, closest_line hd h0]]
    simp only [not_le.2 h1, if_false, hp, Res.bind]
    exact hb

/-- C73: the law of the vertices. The path of the line with closest approach `x` begins at `a x` and has length `L x`. A vertex is drawn for all generator
outputs, and the average of any function of it is the integral, over the disk and along the paths, of the function times the density that
`GenerationProbability` reports there. -/
theorem C73_law {D : PathDetector} (S : D.Sound) (d : DecayRangePosition) {dir : Vec3 ℝ} (hd : Vec3.dot dir dir = 1) (he : 0 ≤ d.endcap) (hR : 0 < d.radius)
    (energy : ℝ) (hl : 0 < d.function.decayLength energy) (a : Vec3 ℝ → Vec3 ℝ) (L : Vec3 ℝ → ℝ)
    (hpath : ∀ x, Vec3.dot dir x = 0 → Vec3.norm x < d.radius → ∃ p, d.path D dir energy x = .ok p ∧ p.Runs D (a x) dir (L x) ∧ 0 < L x) :
    ∃ (V : ℝ → ℝ → ℝ → Vec3 ℝ) (e1 e2 : Vec3 ℝ), Frame e1 e2 dir ∧
      (∀ u0 u1 y, 0 ≤ u1 → u1 < 1 → ∃ init, d.sample D dir energy u0 u1 y = .ok (init, V u0 u1 y)) ∧
      (∀ x, Vec3.dot dir x = 0 → Vec3.norm x < d.radius → ∀ s, 0 ≤ s → s ≤ L x →
        d.probability D dir energy (a x + Vec3.smul s dir) = .ok (decayDensity d.radius (d.function.decayLength energy) (L x) s)) ∧
      ∀ F : Vec3 ℝ → ℝ, (∫ u0 in (0 : ℝ)..1, ∫ u1 in (0 : ℝ)..1, ∫ y in (0 : ℝ)..1, F (V u0 u1 y)) =
        diskIntegral e1 e2 d.radius fun x => ∫ s in (0 : ℝ)..L x, F (a x + Vec3.smul s dir) *
          decayDensity d.radius (d.function.decayLength energy) (L x) s := by
  obtain ⟨e1, e2, hf, hlaw, hin⟩ := C72_disk_law hd hR
  set l := d.function.decayLength energy
  let V : ℝ → ℝ → ℝ → Vec3 ℝ := fun u0 u1 y =>
    a (fromDisk d.radius dir u0 u1) + Vec3.smul (-l * log (y * (exp (-L (fromDisk d.radius dir u0 u1) / l) - 1) + 1)) dir
  refine ⟨V, e1, e2, hf, ?_, ?_, ?_⟩
  · intro u0 u1 y h0 h1
    obtain ⟨i1, i2⟩ := hin u0 u1 h0 h1
    obtain ⟨p, hp, hr, -⟩ := hpath _ i1 i2
    refine ⟨a (fromDisk d.radius dir u0 u1), ?_⟩
    unfold DecayRangePosition.sample
    simp only [normalize_of_unit hd, hp, Res.bind, hr.distance, EReal.coe_ne_top, EReal.coe_ne_bot, or_self, if_false, EReal.toReal_coe, hr.first, hr.dir]
    rfl
  · intro x h0 h1 s hs0 hs1
    obtain ⟨p, hp, hr, -⟩ := hpath x h0 h1
    exact (C73_density S d hd he energy h0 h1 hp hr hs0 hs1).2.1
  · intro F
    let G : Vec3 ℝ → ℝ := fun x => ∫ s in (0 : ℝ)..L x, F (a x + Vec3.smul s dir) * (exp (-s / l) / (l * (1 - exp (-L x / l))))
    have h1 : (∫ u0 in (0 : ℝ)..1, ∫ u1 in (0 : ℝ)..1, ∫ y in (0 : ℝ)..1, F (V u0 u1 y)) =
        ∫ u0 in (0 : ℝ)..1, ∫ u1 in (0 : ℝ)..1, G (fromDisk d.radius dir u0 u1) := by
      refine intervalIntegral.integral_congr fun u0 _ => ?_
      show (∫ u1 in (0 : ℝ)..1, ∫ y in (0 : ℝ)..1, F (V u0 u1 y)) = ∫ u1 in (0 : ℝ)..1, G (fromDisk d.radius dir u0 u1)
      rw [intervalIntegral.integral_of_le zero_le_one, intervalIntegral.integral_of_le zero_le_one, integral_Ioc_eq_integral_Ioo,
        integral_Ioc_eq_integral_Ioo]
      refine setIntegral_congr_fun measurableSet_Ioo fun u1 hu1 => ?_
      obtain ⟨i1, i2⟩ := hin u0 u1 hu1.1.le hu1.2
      obtain ⟨p, hp, hr, hL⟩ := hpath _ i1 i2
      exact decay_law hl hL fun s => F (a (fromDisk d.radius dir u0 u1) + Vec3.smul s dir)
    rw [h1, hlaw G]
    unfold diskIntegral
    refine intervalIntegral.integral_congr fun t _ => intervalIntegral.integral_congr fun r _ => ?_
    simp only [G]
    congr 1
    rw [← intervalIntegral.integral_mul_const]
    refine intervalIntegral.integral_congr fun s _ => ?_
    simp only [decayDensity]
    ring

/-- C73: the decay length of a particle of mass `m`, width `Γ` and energy `E > m` is `p / (m Γ)`, in metres. -/
theorem C73_decay_length (f : DecayRangeFunction) {energy : ℝ} (hm : 0 < f.mass) (hw : 0 < f.width) (hE : f.mass < energy) :
    0 < f.decayLength energy ∧ f.decayLength energy * (f.mass * f.width) = sqrt (energy ^ 2 - f.mass ^ 2) * iGeVInM := by
  have h1 : 0 < energy * energy - f.mass * f.mass := by nlinarith
  have h2 := sqrt_pos.2 h1
  have hE0 : 0 < energy := hm.trans hE
  have h3 : (0 : ℝ) < iGeVInM := by unfold iGeVInM; norm_num
  unfold DecayRangeFunction.decayLength
  refine ⟨by positivity, ?_⟩
  simp only
  rw [show energy ^ 2 - f.mass ^ 2 = energy * energy - f.mass * f.mass by ring]
  field_simp

/-- Whatever the direction of an unclipped line. -/
theorem filled_clip {D : PathDetector} (hD : D = filled) {p : Path} {a u : Vec3 ℝ} {d : EReal} (h : p.Inv D a u d) (hf : p.Fits D a u) :
    ∃ q, p.clip = .ok q ∧ q.Inv D a u d := by
  subst hD
  obtain ⟨r, r1, r2, r3, r4, r5, -⟩ := h.prepare filled_sound.proper (fun _ : True => hf)
  refine ⟨r, ?_, r2⟩
  obtain ⟨x, v, -, hx, -⟩ := r3 trivial r5
  unfold Path.clip
  rw [r1]
  simp only [Res.bind]
  rw [filled_bounds hx]

/-- In the filled detector nothing is clipped: the path for a closest approach `x` starts `endcap + l * multiplier` before it. -/
theorem filled_path (d : DecayRangePosition) {dir : Vec3 ℝ} (hd : Vec3.dot dir dir = 1) (he : 0 < d.endcap) (energy : ℝ)
    (hl : 0 ≤ d.function.decayLength energy * d.function.multiplier) (x : Vec3 ℝ) :
    ∃ p, d.path filled dir energy x = .ok p ∧ p.Runs filled (x - Vec3.smul (d.endcap + d.function.decayLength energy * d.function.multiplier) dir) dir
      (2 * d.endcap + d.function.decayLength energy * d.function.multiplier) := by
  set range := d.function.decayLength energy * d.function.multiplier
  obtain ⟨h1, h2⟩ := ray_good (start := x - Vec3.smul d.endcap dir) (dir := dir) (length := ((d.endcap * 2 : ℝ) : EReal)) filled_sound
    (by rw [norm_of_unit hd]; exact one_ne_zero) (by exact_mod_cast (by positivity : (0 : ℝ) ≤ d.endcap * 2))
  rw [normalize_of_unit hd] at h1 h2
  obtain ⟨q, q1, q2, q3, q4⟩ := h1.extendStart filled_sound.proper range
  obtain ⟨r, r1, r2⟩ := filled_clip rfl q2 (h2.move filled_sound.proper _ q3 q4)
  refine ⟨r, ?_, ?_⟩
  · show (Path.extendStart _ range).bind Path.clip = _
    rw [q1]
    exact r1
  · rw [max_eq_right (by linarith)] at r2
    have := r2.runs filled_sound.proper
    have e : x - Vec3.smul d.endcap dir + Vec3.smul (d.endcap * 2 - (d.endcap * 2 + range)) dir = x - Vec3.smul (d.endcap + range) dir := by
      ext <;> simp <;> ring
    rw [e, show d.endcap * 2 + range = 2 * d.endcap + range by ring] at this
    exact this

/-- The hypotheses of `C73_law` are met. -/
example : filled.Sound ∧ ∃ (d : DecayRangePosition) (energy : ℝ) (a : Vec3 ℝ → Vec3 ℝ) (L : Vec3 ℝ → ℝ), 0 ≤ d.endcap ∧ 0 < d.radius ∧
    0 < d.function.decayLength energy ∧ ∀ x, Vec3.dot (⟨0, 0, 1⟩ : Vec3 ℝ) x = 0 → Vec3.norm x < d.radius →
      ∃ p, d.path filled ⟨0, 0, 1⟩ energy x = .ok p ∧ p.Runs filled (a x) ⟨0, 0, 1⟩ (L x) ∧ 0 < L x := by
  have hl := (C73_decay_length (⟨1, 1 / 10 ^ 16, 2, 5⟩ : DecayRangeFunction) one_pos (by norm_num) (by norm_num : (1 : ℝ) < 2)).1
  let d : DecayRangePosition := ⟨3, 2, ⟨1, 1 / 10 ^ 16, 2, 5⟩⟩
  refine ⟨filled_sound, d, 2, fun x => x - Vec3.smul (d.endcap + d.function.decayLength 2 * d.function.multiplier) ⟨0, 0, 1⟩,
    fun _ => 2 * d.endcap + d.function.decayLength 2 * d.function.multiplier, by norm_num [d], by norm_num [d], hl, fun x _ _ => ?_⟩
  have h2 : 0 < d.function.decayLength 2 * d.function.multiplier := mul_pos hl (by norm_num [d])
  obtain ⟨p, hp, hr⟩ := filled_path d (dir := ⟨0, 0, 1⟩) (by simp [Vec3.dot]) (by norm_num [d]) 2 h2.le x
  exact ⟨p, hp, hr, by have : 0 < d.endcap := (by norm_num [d]); linarith⟩

/-- C73, `MaxDistance`: the range function answers at most the maximal distance, but the position distribution does not use that answer. Here the
maximal distance is 0 and vertices are drawn arbitrarily far before the end caps. -/
theorem C73_max_distance_fails (b : ℝ) (hb : 0 < b) : ∃ (d : DecayRangePosition) (energy u0 u1 y : ℝ) (init vertex : Vec3 ℝ),
    d.endcap = 1 ∧ d.function.range energy = 0 ∧ 0 ≤ u1 ∧ u1 < 1 ∧ 0 ≤ y ∧ y ≤ 1 ∧
      d.sample filled ⟨0, 0, 1⟩ energy u0 u1 y = .ok (init, vertex) ∧ vertex.z < -(1 + b) := by
  have hl := (C73_decay_length (⟨1, 1, 1, 0⟩ : DecayRangeFunction) one_pos one_pos (by norm_num : (1 : ℝ) < 2)).1
  set l := (⟨1, 1, 1, 0⟩ : DecayRangeFunction).decayLength 2 with hldef
  have hl' : ∀ m x, (⟨1, 1, m, x⟩ : DecayRangeFunction).decayLength 2 = l := fun m x => rfl
  let d : DecayRangePosition := ⟨1, 1, ⟨1, 1, (b + 1) / l, 0⟩⟩
  have hm : d.function.decayLength 2 * d.function.multiplier = b + 1 := by
    show l * ((b + 1) / l) = b + 1
    field_simp
  obtain ⟨p, hp, hr⟩ := filled_path d (dir := ⟨0, 0, 1⟩) (by simp [Vec3.dot]) one_pos 2 (by rw [hm]; linarith) (fromDisk 1 ⟨0, 0, 1⟩ 0 0)
  rw [hm] at hr
  refine ⟨d, 2, 0, 0, 0, fromDisk 1 ⟨0, 0, 1⟩ 0 0 - Vec3.smul (d.endcap + (b + 1)) ⟨0, 0, 1⟩,
    fromDisk 1 ⟨0, 0, 1⟩ 0 0 - Vec3.smul (d.endcap + (b + 1)) ⟨0, 0, 1⟩, rfl, ?_, le_refl _, one_pos, le_refl _, zero_le_one, ?_, ?_⟩
  · unfold DecayRangeFunction.range
    rw [hm]
    exact min_eq_right (by linarith)
  · unfold DecayRangePosition.sample
    rw [normalize_of_unit (by simp [Vec3.dot] : Vec3.dot (⟨0, 0, 1⟩ : Vec3 ℝ) ⟨0, 0, 1⟩ = 1)]
    simp only
    rw [show fromDisk d.radius ⟨0, 0, 1⟩ 0 0 = fromDisk 1 ⟨0, 0, 1⟩ 0 0 from rfl, hp]
    simp only [Res.bind, hr.distance, EReal.coe_ne_top, EReal.coe_ne_bot, or_self, if_false, hr.first, hr.dir]
    rw [show ∀ c : ℝ, (0 : ℝ) * c + 1 = 1 from fun c => by ring, log_one, mul_zero]
    congr 2
    ext <;> simp
  · obtain ⟨e1, e2, hf, hq⟩ := disk_frame (dir := ⟨0, 0, 1⟩) (by simp [Vec3.dot])
    have h0 : (fromDisk 1 ⟨0, 0, 1⟩ 0 0).z = 0 := by
      have h := (planePoint_dot hf (1 * sqrt (uniform 0 1 0)) (uniform 0 (2 * π) 0)).1
      unfold fromDisk
      simp only [hq]
      simpa [Vec3.dot] using h
    simp only [Vec3.sub_z, Vec3.smul_z, h0]
    show 0 - (1 + (b + 1)) * 1 < -(1 + b)
    linarith

end Siren.Distributions
