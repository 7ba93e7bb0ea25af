import Verif.Distributions.VolumeModel
import Verif.Geometry.Cylinder
import Mathlib.Analysis.SpecialFunctions.PolarCoord
import Mathlib.MeasureTheory.Measure.Lebesgue.EqHaar
import Mathlib.MeasureTheory.Function.JacobianOneDim
import Mathlib.MeasureTheory.Measure.Haar.Unique

set_option autoImplicit false

/-!
# Volume integrals over placed cylinders

Lemmas on Lebesgue measure in space: rotations and translations keep it, and points drawn as `CylinderVolumePositionDistribution`,
`FixedTargetAreaDistribution` and `FixedTargetPositionDistribution` do have the uniform law on the tube.
-/

namespace Siren.Distributions.Space

open Siren Siren.Util Siren.Geometry MeasureTheory
open scoped Real ENNReal

/-- Points of space as triples. -/
abbrev R3 := ℝ × ℝ × ℝ

/-- A triple as a vector. -/
def vec (x : R3) : Vec3 ℝ := ⟨x.1, x.2.1, x.2.2⟩

/-- A vector as a triple. -/
def coords (v : Vec3 ℝ) : R3 := (v.x, v.y, v.z)

@[simp] theorem coords_vec (x : R3) : coords (vec x) = x := rfl
@[simp] theorem vec_coords (v : Vec3 ℝ) : vec (coords v) = v := rfl

instance : (volume : Measure (ℝ × ℝ)).IsAddHaarMeasure := inferInstanceAs ((volume : Measure ℝ).prod (volume : Measure ℝ)).IsAddHaarMeasure

instance : (volume : Measure R3).IsAddHaarMeasure := inferInstanceAs ((volume : Measure ℝ).prod (volume : Measure (ℝ × ℝ))).IsAddHaarMeasure

/-! ### Linear isometries -/

/-- The squared length. -/
def nsq (x : R3) : ℝ := x.1 ^ 2 + x.2.1 ^ 2 + x.2.2 ^ 2

theorem nsq_pos (x : R3) (h : nsq x = 0) : x = 0 := by
  unfold nsq at h
  have h1 : x.1 = 0 := by nlinarith [sq_nonneg x.1, sq_nonneg x.2.1, sq_nonneg x.2.2]
  have h2 : x.2.1 = 0 := by nlinarith [sq_nonneg x.1, sq_nonneg x.2.1, sq_nonneg x.2.2]
  have h3 : x.2.2 = 0 := by nlinarith [sq_nonneg x.1, sq_nonneg x.2.1, sq_nonneg x.2.2]
  exact Prod.ext h1 (Prod.ext h2 h3)

theorem isometry_preserves (L : R3 →ₗ[ℝ] R3) (h : ∀ x, nsq (L x) = nsq x) : MeasurePreserving L volume volume := by
  have hinj : Function.Injective L := by
    rw [← LinearMap.ker_eq_bot, LinearMap.ker_eq_bot']
    intro x hx
    refine nsq_pos x ?_
    rw [← h, hx]
    simp [nsq]
  have hdet : LinearMap.det L ≠ 0 := by
    have := (LinearEquiv.ofInjectiveEndo L hinj).isUnit_det'
    exact this.ne_zero
  have hcont : Continuous L := L.continuous_of_finiteDimensional
  have hpre : L ⁻¹' {x | nsq x < 1} = {x | nsq x < 1} := by
    ext x
    simp only [Set.mem_preimage, Set.mem_ofPred_eq, h]
  have hopen : IsOpen {x : R3 | nsq x < 1} := by
    have : Continuous nsq := by unfold nsq; fun_prop
    exact isOpen_lt this continuous_const
  have hpos : (volume : Measure R3) {x | nsq x < 1} ≠ 0 := (hopen.measure_pos volume ⟨0, by simp [nsq]⟩).ne'
  have hfin : (volume : Measure R3) {x | nsq x < 1} ≠ ∞ := by
    have hsub : {x : R3 | nsq x < 1} ⊆ Set.Icc ((-1 : ℝ), (-1 : ℝ), (-1 : ℝ)) ((1 : ℝ), (1 : ℝ), (1 : ℝ)) := by
      intro x hx
      have hx' : x.1 ^ 2 + x.2.1 ^ 2 + x.2.2 ^ 2 < 1 := hx
      have e : ∀ a : ℝ, a ^ 2 < 1 → -1 ≤ a ∧ a ≤ 1 := fun a ha => ⟨by nlinarith, by nlinarith⟩
      have e1 := e x.1 (by nlinarith [sq_nonneg x.2.1, sq_nonneg x.2.2])
      have e2 := e x.2.1 (by nlinarith [sq_nonneg x.1, sq_nonneg x.2.2])
      have e3 := e x.2.2 (by nlinarith [sq_nonneg x.2.1, sq_nonneg x.1])
      exact ⟨⟨e1.1, e2.1, e3.1⟩, ⟨e1.2, e2.2, e3.2⟩⟩
    exact ((measure_mono hsub).trans_lt (isCompact_Icc.measure_lt_top)).ne
  have hscale := Measure.addHaar_preimage_linearMap (volume : Measure R3) hdet {x | nsq x < 1}
  rw [hpre] at hscale
  have hone : ENNReal.ofReal |(LinearMap.det L)⁻¹| = 1 := by
    have : 1 * (volume : Measure R3) {x | nsq x < 1} = ENNReal.ofReal |(LinearMap.det L)⁻¹| * (volume : Measure R3) {x | nsq x < 1} := by
      rw [one_mul]; exact hscale
    exact ((ENNReal.mul_left_inj hpos hfin).mp this).symm
  refine ⟨hcont.measurable, ?_⟩
  rw [Measure.map_linearMap_addHaar_eq_smul_addHaar volume hdet, hone, one_smul]

/-- A function of space that keeps sums, multiples and lengths, and adds a constant vector. -/
theorem placement_preserves (p : Placement) (hp : p.Valid) :
    MeasurePreserving (fun x : R3 => coords (p.localToGlobalPosition (vec x))) volume volume := by
  have hq : p.quaternion.IsUnit := hp
  have hrot := Quat.C43_is_rotation hq false
  let L : R3 →ₗ[ℝ] R3 :=
    { toFun := fun x => coords (p.quaternion.rotate (vec x) false)
      map_add' := fun x y => by
        change coords (p.quaternion.rotate (vec x + vec y) false) = _
        rw [hrot.add]; rfl
      map_smul' := fun k x => by
        change coords (p.quaternion.rotate (Vec3.smul k (vec x)) false) = _
        rw [hrot.smul]; rfl }
  have hL : MeasurePreserving L volume volume := by
    refine isometry_preserves L fun x => ?_
    have := hrot.dot (vec x) (vec x)
    simp only [Vec3.dot] at this
    simp only [nsq]
    change (p.quaternion.rotate (vec x) false).x ^ 2 + (p.quaternion.rotate (vec x) false).y ^ 2 + (p.quaternion.rotate (vec x) false).z ^ 2 = _
    simp only [vec] at this ⊢
    nlinarith
  have hadd : MeasurePreserving (fun x : R3 => x + coords p.position) volume volume := measurePreserving_add_right volume _
  have := hadd.comp hL
  exact this

/-- Coordinates with respect to an orthonormal frame. -/
theorem frame_preserves (e1 e2 e3 : Vec3 ℝ) (h11 : Vec3.dot e1 e1 = 1) (h22 : Vec3.dot e2 e2 = 1) (h33 : Vec3.dot e3 e3 = 1)
    (h12 : Vec3.dot e1 e2 = 0) (h13 : Vec3.dot e1 e3 = 0) (h23 : Vec3.dot e2 e3 = 0) :
    MeasurePreserving (fun x : R3 => coords (Vec3.smul x.1 e1 + Vec3.smul x.2.1 e2 + Vec3.smul x.2.2 e3)) volume volume := by
  let L : R3 →ₗ[ℝ] R3 :=
    { toFun := fun x => coords (Vec3.smul x.1 e1 + Vec3.smul x.2.1 e2 + Vec3.smul x.2.2 e3)
      map_add' := fun x y => by simp [coords]; refine ⟨by ring, by ring, by ring⟩
      map_smul' := fun k x => by simp [coords]; refine ⟨by ring, by ring, by ring⟩ }
  have hL : MeasurePreserving L volume volume := by
    refine isometry_preserves L fun x => ?_
    change (x.1 * e1.x + x.2.1 * e2.x + x.2.2 * e3.x) ^ 2 + (x.1 * e1.y + x.2.1 * e2.y + x.2.2 * e3.y) ^ 2 +
      (x.1 * e1.z + x.2.1 * e2.z + x.2.2 * e3.z) ^ 2 = x.1 ^ 2 + x.2.1 ^ 2 + x.2.2 ^ 2
    simp only [Vec3.dot] at h11 h22 h33 h12 h13 h23
    linear_combination x.1 ^ 2 * h11 + x.2.1 ^ 2 * h22 + x.2.2 ^ 2 * h33 + 2 * x.1 * x.2.1 * h12 + 2 * x.1 * x.2.2 * h13 +
      2 * x.2.1 * x.2.2 * h23
  exact hL

/-! ### Changes of variables on the line -/

theorem affine_lintegral (a b : ℝ) (hab : a < b) (H : ℝ → ℝ≥0∞) :
    ∫⁻ g in Set.Ico 0 1, H ((b - a) * g + a) = ENNReal.ofReal (1 / (b - a)) * ∫⁻ x in Set.Ioo a b, H x := by
  have hc : 0 < b - a := sub_pos.mpr hab
  have himg : (fun g : ℝ => (b - a) * g + a) '' Set.Ioo 0 1 = Set.Ioo a b := by
    ext x
    constructor
    · rintro ⟨g, ⟨h0, h1⟩, rfl⟩
      constructor <;> simp only <;> nlinarith
    · rintro ⟨h0, h1⟩
      refine ⟨(x - a) / (b - a), ⟨div_pos (by linarith) hc, by rw [div_lt_one hc]; linarith⟩, ?_⟩
      simp only
      field_simp
      ring
  have h := lintegral_image_eq_lintegral_abs_deriv_mul (s := Set.Ioo 0 1) (f := fun g : ℝ => (b - a) * g + a) (f' := fun _ => b - a)
    measurableSet_Ioo (fun x _ => by
      have := ((hasDerivAt_id' x).const_mul (b - a)).add_const a
      simpa using this.hasDerivWithinAt) (fun x _ y _ hxy => by
      have : (b - a) * x + a = (b - a) * y + a := hxy
      have : (b - a) * x = (b - a) * y := by linarith
      exact mul_left_cancel₀ hc.ne' this) H
  rw [himg, abs_of_pos hc, lintegral_const_mul' _ _ ENNReal.ofReal_ne_top] at h
  rw [h, ← mul_assoc, ← ENNReal.ofReal_mul (by positivity), one_div, inv_mul_cancel₀ hc.ne', ENNReal.ofReal_one, one_mul,
    restrict_Ico_eq_restrict_Ioc, ← restrict_Ioo_eq_restrict_Ioc]

theorem uniform_lintegral (a b : ℝ) (hab : a < b) (H : ℝ → ℝ≥0∞) :
    ∫⁻ g in Set.Ico 0 1, H (uniform a b g) = ENNReal.ofReal (1 / (b - a)) * ∫⁻ x in Set.Ioo a b, H x := by
  rw [← affine_lintegral a b hab H]
  congr 1
  funext g
  rw [uniform_eq, max_eq_right hab.le, min_eq_left hab.le]

theorem sqrt_lintegral (a b : ℝ) (ha : 0 ≤ a) (hab : a < b) (H : ℝ → ℝ≥0∞) :
    ∫⁻ u in Set.Ioo (a * a) (b * b), H (Real.sqrt u) = ∫⁻ r in Set.Ioo a b, ENNReal.ofReal (2 * r) * H r := by
  have himg : (fun r : ℝ => r * r) '' Set.Ioo a b = Set.Ioo (a * a) (b * b) := by
    ext u
    constructor
    · rintro ⟨r, ⟨h0, h1⟩, rfl⟩
      constructor <;> simp only <;> nlinarith
    · rintro ⟨h0, h1⟩
      have hu : 0 ≤ u := (mul_self_nonneg a).trans h0.le
      refine ⟨Real.sqrt u, ⟨?_, ?_⟩, Real.mul_self_sqrt hu⟩
      · exact Real.lt_sqrt_of_sq_lt (by nlinarith)
      · rw [Real.sqrt_lt' (by linarith)]; nlinarith
  have h := lintegral_image_eq_lintegral_abs_deriv_mul (s := Set.Ioo a b) (f := fun r : ℝ => r * r) (f' := fun r => 2 * r)
    measurableSet_Ioo (fun x _ => ((hasDerivAt_id' x).mul (hasDerivAt_id' x)).hasDerivWithinAt.congr_deriv (by ring))
    (fun x hx y hy hxy => by
      have : x * x = y * y := hxy
      have hx0 := hx.1
      have hy0 := hy.1
      nlinarith [sq_nonneg (x - y)]) fun u => H (Real.sqrt u)
  rw [himg] at h
  rw [h]
  refine setLIntegral_congr_fun measurableSet_Ioo fun r hr => ?_
  have hr0 : 0 ≤ r := ha.trans hr.1.le
  simp only [Real.sqrt_mul_self hr0, abs_of_nonneg (by linarith : (0 : ℝ) ≤ 2 * r)]

/-! ### Polar coordinates -/

/-- The ring between two radii. -/
def ring (a b : ℝ) : Set (ℝ × ℝ) := {p | a ≤ Real.sqrt (p.1 ^ 2 + p.2 ^ 2) ∧ Real.sqrt (p.1 ^ 2 + p.2 ^ 2) < b}

theorem ring_measurable (a b : ℝ) : MeasurableSet (ring a b) := by
  have : Measurable fun p : ℝ × ℝ => Real.sqrt (p.1 ^ 2 + p.2 ^ 2) := by fun_prop
  exact (measurableSet_le measurable_const this).inter (measurableSet_lt this measurable_const)

theorem polar_lintegral (a b : ℝ) (ha : 0 ≤ a) (F : ℝ × ℝ → ℝ≥0∞) (hF : Measurable F) :
    ∫⁻ r in Set.Ioo a b, ENNReal.ofReal r * ∫⁻ t in Set.Ioo 0 (2 * π), F (r * Real.cos t, r * Real.sin t) =
      ∫⁻ p, (ring a b).indicator F p := by
  have hI : Measurable ((ring a b).indicator F) := hF.indicator (ring_measurable a b)
  have hneg : ∫⁻ p, (ring a b).indicator F p = ∫⁻ p, (ring a b).indicator F (-p) := (lintegral_neg_eq_self _).symm
  rw [hneg, ← lintegral_comp_polarCoord_symm]
  have htar : polarCoord.target = Set.Ioi (0 : ℝ) ×ˢ Set.Ioo (-π) π := rfl
  have hm : Measurable fun p : ℝ × ℝ => ENNReal.ofReal p.1 * (ring a b).indicator F (-(p.1 * Real.cos p.2), -(p.1 * Real.sin p.2)) := by
    refine (by fun_prop : Measurable fun p : ℝ × ℝ => ENNReal.ofReal p.1).mul (hI.comp ?_)
    fun_prop
  have he : (fun p : ℝ × ℝ => ENNReal.ofReal p.1 • (fun q => (ring a b).indicator F (-q)) (polarCoord.symm p)) =
      fun p : ℝ × ℝ => ENNReal.ofReal p.1 * (ring a b).indicator F (-(p.1 * Real.cos p.2), -(p.1 * Real.sin p.2)) := rfl
  change _ = ∫⁻ p in polarCoord.target, (fun p : ℝ × ℝ => ENNReal.ofReal p.1 • (fun q => (ring a b).indicator F (-q)) (polarCoord.symm p)) p
  rw [he, htar, Measure.volume_eq_prod, ← Measure.prod_restrict, lintegral_prod _ hm.aemeasurable]
  have hind : ∀ r ∈ Set.Ioi (0 : ℝ), (∫⁻ s in Set.Ioo (-π) π, ENNReal.ofReal r * (ring a b).indicator F (-(r * Real.cos s), -(r * Real.sin s))) =
      (Set.Ico a b).indicator (fun r => ENNReal.ofReal r * ∫⁻ t in Set.Ioo 0 (2 * π), F (r * Real.cos t, r * Real.sin t)) r := by
    intro r hr
    have hr0 : 0 < r := hr
    have hrad : ∀ s, Real.sqrt ((-(r * Real.cos s)) ^ 2 + (-(r * Real.sin s)) ^ 2) = r := by
      intro s
      rw [show (-(r * Real.cos s)) ^ 2 + (-(r * Real.sin s)) ^ 2 = r ^ 2 * (Real.sin s ^ 2 + Real.cos s ^ 2) by ring,
        Real.sin_sq_add_cos_sq, mul_one, Real.sqrt_sq hr0.le]
    by_cases hin : r ∈ Set.Ico a b
    · rw [Set.indicator_of_mem hin, lintegral_const_mul' _ _ ENNReal.ofReal_ne_top]
      congr 1
      have hval : ∀ s, (ring a b).indicator F (-(r * Real.cos s), -(r * Real.sin s)) = F (-(r * Real.cos s), -(r * Real.sin s)) := by
        intro s
        refine Set.indicator_of_mem ?_ _
        simp only [ring, Set.mem_ofPred_eq, hrad]
        exact hin
      simp only [hval]
      have hpre : (fun t : ℝ => t + -π) ⁻¹' Set.Ioo (-π) π = Set.Ioo 0 (2 * π) := by
        ext t
        simp only [Set.mem_preimage, Set.mem_Ioo]
        constructor <;> rintro ⟨h1, h2⟩ <;> constructor <;> linarith
      have hmp := (measurePreserving_add_right (volume : Measure ℝ) (-π)).setLIntegral_comp_preimage
        (measurableSet_Ioo (a := -π) (b := π)) (f := fun s => F (-(r * Real.cos s), -(r * Real.sin s)))
        (hF.comp (by fun_prop : Measurable fun s : ℝ => (-(r * Real.cos s), -(r * Real.sin s))))
      rw [hpre] at hmp
      rw [← hmp]
      congr 1
      funext t
      rw [← sub_eq_add_neg, Real.cos_sub_pi, Real.sin_sub_pi]
      congr 2 <;> ring
    · rw [Set.indicator_of_notMem hin]
      have hval : ∀ s, (ring a b).indicator F (-(r * Real.cos s), -(r * Real.sin s)) = 0 := by
        intro s
        refine Set.indicator_of_notMem ?_ _
        simp only [ring, Set.mem_ofPred_eq, hrad]
        exact hin
      simp [hval]
  simp only
  rw [setLIntegral_congr_fun measurableSet_Ioi hind, setLIntegral_indicator measurableSet_Ico]
  refine setLIntegral_congr ?_
  rcases ha.eq_or_lt with rfl | ha
  · have : Set.Ico 0 b ∩ Set.Ioi 0 = Set.Ioo 0 b := by
      ext r
      exact ⟨fun h => ⟨h.2, h.1.2⟩, fun h => ⟨⟨h.1.le, h.2⟩, h.1⟩⟩
    exact Filter.EventuallyEq.of_eq this.symm
  · have : Set.Ico a b ∩ Set.Ioi 0 = Set.Ico a b := by
      refine Set.inter_eq_left.mpr fun r hr => ?_
      exact ha.trans_le hr.1
    rw [this]
    exact Ioo_ae_eq_Ico

/-! ### The uniform law on a placed tube -/

/-- The points of the placed tube (without regard to a cut in azimuth). -/
def solid (c : CylinderShape) : Set R3 :=
  {x | c.innerRadius ≤ Cylinder.rad (c.placement.globalToLocalPosition (vec x)) ∧
    Cylinder.rad (c.placement.globalToLocalPosition (vec x)) < c.radius ∧ |(c.placement.globalToLocalPosition (vec x)).z| < c.z / 2}

/-- Its volume. -/
noncomputable def tubeVolume (c : CylinderShape) : ℝ := π * (c.radius ^ 2 - c.innerRadius ^ 2) * c.z

theorem tubeVolume_pos (c : CylinderShape) (hi : 0 ≤ c.innerRadius) (hir : c.innerRadius < c.radius) (hz : 0 < c.z) : 0 < tubeVolume c := by
  have : 0 < c.radius ^ 2 - c.innerRadius ^ 2 := by nlinarith
  unfold tubeVolume
  positivity

/-- The tube in its own coordinates. -/
def localSolid (c : CylinderShape) : Set R3 := {x | (x.1, x.2.1) ∈ ring c.innerRadius c.radius ∧ x.2.2 ∈ Set.Ioo (-c.z / 2) (c.z / 2)}

theorem localSolid_measurable (c : CylinderShape) : MeasurableSet (localSolid c) := by
  have h1 : Measurable fun x : R3 => (x.1, x.2.1) := by fun_prop
  have h2 : Measurable fun x : R3 => x.2.2 := by fun_prop
  exact (h1 (ring_measurable _ _)).inter (h2 measurableSet_Ioo)

theorem local_law (c : CylinderShape) (hi : 0 ≤ c.innerRadius) (hir : c.innerRadius < c.radius) (hz : 0 < c.z)
    (G : R3 → ℝ≥0∞) (hG : Measurable G) :
    ∫⁻ g3 in Set.Ico 0 1, ∫⁻ g2 in Set.Ico 0 1, ∫⁻ g1 in Set.Ico 0 1,
        G (Real.sqrt (uniform (c.innerRadius * c.innerRadius) (c.radius * c.radius) g2) * Real.cos (uniform 0 (2 * π) g1),
          Real.sqrt (uniform (c.innerRadius * c.innerRadius) (c.radius * c.radius) g2) * Real.sin (uniform 0 (2 * π) g1),
          uniform (-c.z / 2) (c.z / 2) g3) =
      ENNReal.ofReal (1 / tubeVolume c) * ∫⁻ x, (localSolid c).indicator G x := by
  have hsq : c.innerRadius * c.innerRadius < c.radius * c.radius := by nlinarith
  have h1 : ∀ r z, (∫⁻ g1 in Set.Ico (0 : ℝ) 1, G (r * Real.cos (uniform 0 (2 * π) g1), r * Real.sin (uniform 0 (2 * π) g1), z)) =
      ENNReal.ofReal (1 / (2 * π)) * ∫⁻ t in Set.Ioo 0 (2 * π), G (r * Real.cos t, r * Real.sin t, z) := by
    intro r z
    have := uniform_lintegral 0 (2 * π) (by positivity) fun t => G (r * Real.cos t, r * Real.sin t, z)
    rw [this, sub_zero]
  have h2 : ∀ z, (∫⁻ g2 in Set.Ico (0 : ℝ) 1, ENNReal.ofReal (1 / (2 * π)) * ∫⁻ t in Set.Ioo 0 (2 * π),
      G (Real.sqrt (uniform (c.innerRadius * c.innerRadius) (c.radius * c.radius) g2) * Real.cos t,
        Real.sqrt (uniform (c.innerRadius * c.innerRadius) (c.radius * c.radius) g2) * Real.sin t, z)) =
      ENNReal.ofReal (1 / (π * (c.radius ^ 2 - c.innerRadius ^ 2))) * ∫⁻ p, (ring c.innerRadius c.radius).indicator (fun p => G (p.1, p.2, z)) p := by
    intro z
    rw [lintegral_const_mul' _ _ ENNReal.ofReal_ne_top]
    rw [uniform_lintegral _ _ hsq fun u => ∫⁻ t in Set.Ioo 0 (2 * π), G (Real.sqrt u * Real.cos t, Real.sqrt u * Real.sin t, z)]
    rw [sqrt_lintegral _ _ hi hir fun r => ∫⁻ t in Set.Ioo 0 (2 * π), G (r * Real.cos t, r * Real.sin t, z)]
    have hp := polar_lintegral c.innerRadius c.radius hi (fun p => G (p.1, p.2, z)) (hG.comp (by fun_prop))
    have h2r : ∀ r : ℝ, ENNReal.ofReal (2 * r) = ENNReal.ofReal 2 * ENNReal.ofReal r := fun r => ENNReal.ofReal_mul (by norm_num)
    simp only [h2r, mul_assoc]
    rw [lintegral_const_mul' _ _ ENNReal.ofReal_ne_top, hp]
    rw [← mul_assoc, ← mul_assoc, ← ENNReal.ofReal_mul (by positivity), ← ENNReal.ofReal_mul (by
      have := hsq; have h : 0 < c.radius * c.radius - c.innerRadius * c.innerRadius := by linarith
      positivity)]
    congr 2
    have h : c.radius * c.radius - c.innerRadius * c.innerRadius ≠ 0 := by linarith
    have h' : c.radius ^ 2 - c.innerRadius ^ 2 ≠ 0 := by rw [pow_two, pow_two]; exact h
    have := Real.pi_pos.ne'
    field_simp
  simp only [h1, h2]
  rw [lintegral_const_mul' _ _ ENNReal.ofReal_ne_top]
  rw [uniform_lintegral (-c.z / 2) (c.z / 2) (by linarith) fun z => ∫⁻ p, (ring c.innerRadius c.radius).indicator (fun p => G (p.1, p.2, z)) p]
  have hpos : 0 < c.radius ^ 2 - c.innerRadius ^ 2 := by nlinarith
  rw [← mul_assoc, ← ENNReal.ofReal_mul (by positivity)]
  congr 1
  · congr 1
    unfold tubeVolume
    have := Real.pi_pos.ne'
    rw [show c.z / 2 - -c.z / 2 = c.z by ring]
    field_simp
  · have hmi : Measurable ((localSolid c).indicator G) := hG.indicator (localSolid_measurable c)
    have e0 : ∫⁻ x, (localSolid c).indicator G x = ∫⁻ x : ℝ, ∫⁻ q : ℝ × ℝ, (localSolid c).indicator G (x, q) :=
      lintegral_prod (μ := volume) (ν := volume) _ hmi.aemeasurable
    rw [e0]
    have e1 : ∀ x : ℝ, ∫⁻ q : ℝ × ℝ, (localSolid c).indicator G (x, q) = ∫⁻ y, ∫⁻ z, (localSolid c).indicator G (x, y, z) := by
      intro x
      exact lintegral_prod (μ := volume) (ν := volume) _ (hmi.comp (by fun_prop : Measurable fun q : ℝ × ℝ => (x, q))).aemeasurable
    simp only [e1]
    have e2 : ∀ z : ℝ, ∫⁻ p, (ring c.innerRadius c.radius).indicator (fun p => G (p.1, p.2, z)) p =
        ∫⁻ x, ∫⁻ y, (ring c.innerRadius c.radius).indicator (fun p => G (p.1, p.2, z)) (x, y) := by
      intro z
      have : Measurable ((ring c.innerRadius c.radius).indicator (fun p : ℝ × ℝ => G (p.1, p.2, z))) :=
        (hG.comp (by fun_prop : Measurable fun p : ℝ × ℝ => (p.1, p.2, z))).indicator (ring_measurable _ _)
      exact lintegral_prod (μ := volume) (ν := volume) _ this.aemeasurable
    simp only [e2]
    have e3 : ∀ x y z : ℝ, (localSolid c).indicator G (x, y, z) =
        (Set.Ioo (-c.z / 2) (c.z / 2)).indicator (fun z => (ring c.innerRadius c.radius).indicator (fun p => G (p.1, p.2, z)) (x, y)) z := by
      intro x y z
      by_cases hz : z ∈ Set.Ioo (-c.z / 2) (c.z / 2)
      · rw [Set.indicator_of_mem hz]
        by_cases hr : (x, y) ∈ ring c.innerRadius c.radius
        · rw [Set.indicator_of_mem hr, Set.indicator_of_mem (show (x, y, z) ∈ localSolid c from ⟨hr, hz⟩)]
        · rw [Set.indicator_of_notMem hr, Set.indicator_of_notMem (show (x, y, z) ∉ localSolid c from fun h => hr h.1)]
      · rw [Set.indicator_of_notMem hz, Set.indicator_of_notMem (show (x, y, z) ∉ localSolid c from fun h => hz h.2)]
    rw [← lintegral_indicator measurableSet_Ioo]
    have hm3 : Measurable fun q : ℝ × ℝ × ℝ => (localSolid c).indicator G (q.1, q.2.1, q.2.2) := hmi
    have e4 : ∀ z, (Set.Ioo (-c.z / 2) (c.z / 2)).indicator
        (fun z => ∫⁻ x, ∫⁻ y, (ring c.innerRadius c.radius).indicator (fun p => G (p.1, p.2, z)) (x, y)) z =
        ∫⁻ x, ∫⁻ y, (localSolid c).indicator G (x, y, z) := by
      intro z
      simp only [e3]
      by_cases hz : z ∈ Set.Ioo (-c.z / 2) (c.z / 2)
      · simp only [Set.indicator_of_mem hz]
      · simp only [Set.indicator_of_notMem hz, lintegral_zero]
    simp only [e4]
    have hm4 : Measurable (Function.uncurry fun z x : ℝ => ∫⁻ y, (localSolid c).indicator G (x, y, z)) := by
      apply Measurable.lintegral_prod_right (f := fun (w : ℝ × ℝ) (y : ℝ) => (localSolid c).indicator G (w.2, y, w.1))
      exact hmi.comp (by fun_prop)
    rw [lintegral_lintegral_swap hm4.aemeasurable]
    congr 1
    funext x
    exact lintegral_lintegral_swap (hmi.comp (by fun_prop : Measurable fun w : ℝ × ℝ => (x, w.2, w.1))).aemeasurable

theorem solid_preimage (c : CylinderShape) (hp : c.placement.Valid) :
    (fun x : R3 => coords (c.placement.localToGlobalPosition (vec x))) ⁻¹' solid c = localSolid c := by
  ext x
  have hinv : c.placement.globalToLocalPosition (c.placement.localToGlobalPosition (vec x)) = vec x := (Placement.C41_inverse _ hp _).2.1
  simp only [Set.mem_preimage, solid, Set.mem_ofPred_eq, vec_coords, hinv, localSolid, ring, Cylinder.rad, Set.mem_Ioo, abs_lt]
  simp only [vec, neg_div]
  tauto

theorem placement_measurable (p : Placement) (hp : p.Valid) : Measurable fun x : R3 => p.globalToLocalPosition (vec x) |> coords := by
  have hq : p.quaternion.IsUnit := hp
  have : Continuous fun x : R3 => coords (p.globalToLocalPosition (vec x)) := by
    simp only [Placement.globalToLocalPosition, Quat.rotate_unit hq, if_true, Quat.sandwich, coords, vec, Vec3.sub_x, Vec3.sub_y, Vec3.sub_z]
    fun_prop
  exact this.measurable

theorem solid_measurable (c : CylinderShape) (hp : c.placement.Valid) : MeasurableSet (solid c) := by
  have hm := placement_measurable c.placement hp
  have h1 : Measurable fun x : R3 => Cylinder.rad (c.placement.globalToLocalPosition (vec x)) := by
    have : Measurable fun y : R3 => Real.sqrt (y.1 ^ 2 + y.2.1 ^ 2) := by fun_prop
    exact this.comp hm
  have h2 : Measurable fun x : R3 => |(c.placement.globalToLocalPosition (vec x)).z| := by
    have : Measurable fun y : R3 => |y.2.2| := by fun_prop
    exact this.comp hm
  exact (measurableSet_le measurable_const h1).inter ((measurableSet_lt h1 measurable_const).inter (measurableSet_lt h2 measurable_const))

/-- Averages over the generator outputs are averages over the tube with respect to volume. -/
theorem cylinder_law (c : CylinderShape) (hp : c.placement.Valid) (hi : 0 ≤ c.innerRadius) (hir : c.innerRadius < c.radius) (hz : 0 < c.z)
    (G : R3 → ℝ≥0∞) (hG : Measurable G) :
    ∫⁻ g3 in Set.Ico 0 1, ∫⁻ g2 in Set.Ico 0 1, ∫⁻ g1 in Set.Ico 0 1, G (coords (c.draw g1 g2 g3)) =
      ENNReal.ofReal (1 / tubeVolume c) * ∫⁻ x in solid c, G x := by
  have hpm := placement_preserves c.placement hp
  have h := local_law c hi hir hz (fun x => G (coords (c.placement.localToGlobalPosition (vec x)))) (hG.comp hpm.measurable)
  rw [← lintegral_indicator (solid_measurable c hp), ← hpm.lintegral_comp (hG.indicator (solid_measurable c hp))]
  rw [← solid_preimage c hp] at h
  exact h

end Siren.Distributions.Space
