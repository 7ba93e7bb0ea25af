import Verif.Distributions.Space
import Verif.Distributions.VolumeProps
import Verif.Geometry.ShapeProps

set_option autoImplicit false

/-!
# Points of closest approach for a fixed target (C105)

Models `distributions/private/primary/area/FixedTargetAreaDistribution.cxx`. Doubles are real numbers and `M_PI` is π. The direction of a record has
length one.
-/

namespace Siren.Distributions.FixedTargetArea

open Siren Siren.Util Siren.Geometry Siren.Distributions Siren.Distributions.Space MeasureTheory
open scoped Real ENNReal

/-! ## Model -/

/-- `FixedTargetAreaDistribution::SamplePointOfClosestApproach` (FixedTargetAreaDistribution.cxx:28-45) for the outputs `g1 g2 g3` of the generator.
Lines 30-37 are the same as in `CylinderVolumePositionDistribution`. -/
noncomputable def samplePoint (c : CylinderShape) (dir : Vec3 ℝ) (g1 g2 g3 : ℝ) : Vec3 ℝ :=
  let init := c.draw g1 g2 g3
  init - Vec3.smul (Vec3.dot dir init) dir

/-- The loop that adds the lengths between crossings (FixedTargetAreaDistribution.cxx:60-62): with an odd number it reads beyond the end. The sum is
taken from the other end. -/
def pathSum : List Isect → Res ℝ
  | [] => .ok 0
  | [_] => .ub
  | a :: b :: rest => (pathSum rest).bind fun s => .ok (b.distance - a.distance + s)

/-- `FixedTargetAreaDistribution::GenerationProbability` (FixedTargetAreaDistribution.cxx:47-71); `hits` are the sorted crossings of the line through
the vertex along the momentum with the cylinder. -/
noncomputable def generationProbability (c : CylinderShape) (hits : List Isect) : Res ℝ :=
  if hits.length = 0 then .ok 0
  else (pathSum hits).bind fun distance =>
    .ok (|distance| / (π * (c.radius * c.radius - c.innerRadius * c.innerRadius) * c.z))

/-! ## Specification -/

/-- Three orthonormal vectors. -/
structure Frame (e1 e2 e3 : Vec3 ℝ) : Prop where
  h11 : Vec3.dot e1 e1 = 1
  h22 : Vec3.dot e2 e2 = 1
  h33 : Vec3.dot e3 e3 = 1
  h12 : Vec3.dot e1 e2 = 0
  h13 : Vec3.dot e1 e3 = 0
  h23 : Vec3.dot e2 e3 = 0

/-- The length of the part of a line that is in the target. -/
noncomputable def chord (c : CylinderShape) (point dir : Vec3 ℝ) : ℝ := volume.real {s : ℝ | coords (point + Vec3.smul s dir) ∈ solid c}

/-- The dimensions of a target: a tube or a full cylinder with a rotation as placement. -/
structure Target (c : CylinderShape) : Prop where
  placement : c.placement.Valid
  inner : 0 ≤ c.innerRadius
  outer : c.innerRadius < c.radius
  height : 0 < c.z

/-! ## Lines and the target -/

theorem in_solid (c : CylinderShape) (cut : Bool) (v : Vec3 ℝ) :
    coords v ∈ solid c ↔ Cylinder.Tube ⟨c.radius, c.innerRadius, c.z, c.startPhi, c.deltaPhi, cut⟩ (c.placement.globalToLocalPosition v) := Iff.rfl

theorem chord_finite (c : CylinderShape) (hc : Target c) (point dir : Vec3 ℝ) (hd : Vec3.dot dir dir = 1) :
    volume {s : ℝ | coords (point + Vec3.smul s dir) ∈ solid c} ≠ ∞ := by
  have hne : c.placement.globalToLocalDirection dir ≠ 0 := by
    intro h
    have := (Placement.C41_isometry c.placement hc.placement dir dir).2.2.2
    rw [h, hd] at this
    simp [Vec3.dot] at this
  obtain ⟨M, hM⟩ := Cylinder.tube_bounded ⟨c.radius, c.innerRadius, c.z, c.startPhi, c.deltaPhi, false⟩
    (c.placement.globalToLocalPosition point) (c.placement.globalToLocalDirection dir) hne
  have hsub : {s : ℝ | coords (point + Vec3.smul s dir) ∈ solid c} ⊆ Set.Icc (-M) M := by
    intro s hs
    have h1 := (in_solid c false _).mp hs
    rw [Placement.C41_line _ hc.placement] at h1
    exact abs_le.mp (hM s h1)
  exact ((measure_mono hsub).trans_lt (by rw [Real.volume_Icc]; exact ENNReal.ofReal_lt_top)).ne

/-- The point of closest approach of a point given in a frame. -/
theorem approach (e1 e2 e3 : Vec3 ℝ) (h : Frame e1 e2 e3) (a b s : ℝ) :
    let v := Vec3.smul a e1 + Vec3.smul b e2 + Vec3.smul s e3
    v - Vec3.smul (Vec3.dot e3 v) e3 = Vec3.smul a e1 + Vec3.smul b e2 := by
  have hdot : Vec3.dot e3 (Vec3.smul a e1 + Vec3.smul b e2 + Vec3.smul s e3) = s := by
    have h13 := h.h13
    have h23 := h.h23
    have h33 := h.h33
    simp only [Vec3.dot, Vec3.add_x, Vec3.add_y, Vec3.add_z, Vec3.smul_x, Vec3.smul_y, Vec3.smul_z] at h13 h23 h33 ⊢
    linear_combination a * h13 + b * h23 + s * h33
  simp only
  rw [hdot]
  ext <;> simp

/-- C105: the sampled points lie in the plane through the origin across the direction, and the line through them meets the target. -/
theorem C105_plane (c : CylinderShape) (hc : Target c) (dir : Vec3 ℝ) (hd : Vec3.dot dir dir = 1) (g1 g2 g3 : ℝ) (h2 : 0 ≤ g2 ∧ g2 < 1)
    (h3 : 0 ≤ g3 ∧ g3 < 1) :
    Vec3.dot dir (samplePoint c dir g1 g2 g3) = 0 ∧ ∃ s r t z, samplePoint c dir g1 g2 g3 + Vec3.smul s dir = cylPoint c.placement r t z ∧
      c.innerRadius ≤ r ∧ r ≤ c.radius ∧ -(c.z / 2) ≤ z ∧ z ≤ c.z / 2 := by
  constructor
  · simp only [samplePoint]
    generalize c.draw g1 g2 g3 = v
    simp only [Vec3.dot, Vec3.sub_x, Vec3.sub_y, Vec3.sub_z, Vec3.smul_x, Vec3.smul_y, Vec3.smul_z] at hd ⊢
    linear_combination -(dir.x * v.x + dir.y * v.y + dir.z * v.z) * hd
  · obtain ⟨r, t, z, e, h⟩ := C71_cylinder_inside c hc.inner hc.outer.le hc.height.le g1 g2 g3 h2 h3
    refine ⟨Vec3.dot dir (c.draw g1 g2 g3), r, t, z, ?_, h⟩
    rw [← e, samplePoint]
    ext <;> simp

/-- C105: the sampled points of closest approach have the density "length of the line in the target over the volume of the target" with respect to
area in the plane across the direction. -/
theorem C105_law (c : CylinderShape) (hc : Target c) (e1 e2 dir : Vec3 ℝ) (hf : Frame e1 e2 dir) (G : R3 → ℝ≥0∞) (hG : Measurable G) :
    ∫⁻ g3 in Set.Ico 0 1, ∫⁻ g2 in Set.Ico 0 1, ∫⁻ g1 in Set.Ico 0 1, G (coords (samplePoint c dir g1 g2 g3)) =
      ∫⁻ a, ∫⁻ b, G (coords (Vec3.smul a e1 + Vec3.smul b e2)) *
        ENNReal.ofReal (chord c (Vec3.smul a e1 + Vec3.smul b e2) dir / tubeVolume c) := by
  have hV := tubeVolume_pos c hc.inner hc.outer hc.height
  have hproj : Measurable fun x : R3 => coords (vec x - Vec3.smul (Vec3.dot dir (vec x)) dir) := by
    simp only [coords, vec, Vec3.dot, Vec3.sub_x, Vec3.sub_y, Vec3.sub_z, Vec3.smul_x, Vec3.smul_y, Vec3.smul_z]
    fun_prop
  have hlaw := cylinder_law c hc.placement hc.inner hc.outer hc.height
    (fun x => G (coords (vec x - Vec3.smul (Vec3.dot dir (vec x)) dir))) (hG.comp hproj)
  have hS := solid_measurable c hc.placement
  have hGI := (hG.comp hproj).indicator hS
  have hfr := frame_preserves e1 e2 dir hf.h11 hf.h22 hf.h33 hf.h12 hf.h13 hf.h23
  change ∫⁻ g3 in Set.Ico 0 1, ∫⁻ g2 in Set.Ico 0 1, ∫⁻ g1 in Set.Ico 0 1,
    G (coords (vec (coords (c.draw g1 g2 g3)) - Vec3.smul (Vec3.dot dir (vec (coords (c.draw g1 g2 g3)))) dir)) = _
  rw [hlaw, ← lintegral_indicator hS]
  have h1 : ∫⁻ x, (solid c).indicator (fun x => G (coords (vec x - Vec3.smul (Vec3.dot dir (vec x)) dir))) x =
      ∫⁻ x : R3, (solid c).indicator (fun x => G (coords (vec x - Vec3.smul (Vec3.dot dir (vec x)) dir)))
        (coords (Vec3.smul x.1 e1 + Vec3.smul x.2.1 e2 + Vec3.smul x.2.2 dir)) := (hfr.lintegral_comp hGI).symm
  have hmc := hGI.comp hfr.measurable
  have h2 : ∀ x : R3, (solid c).indicator (fun x => G (coords (vec x - Vec3.smul (Vec3.dot dir (vec x)) dir)))
        (coords (Vec3.smul x.1 e1 + Vec3.smul x.2.1 e2 + Vec3.smul x.2.2 dir)) =
      G (coords (Vec3.smul x.1 e1 + Vec3.smul x.2.1 e2)) *
        {s : ℝ | coords (Vec3.smul x.1 e1 + Vec3.smul x.2.1 e2 + Vec3.smul s dir) ∈ solid c}.indicator 1 x.2.2 := by
    intro x
    by_cases hx : coords (Vec3.smul x.1 e1 + Vec3.smul x.2.1 e2 + Vec3.smul x.2.2 dir) ∈ solid c
    · have hx' : x.2.2 ∈ {s : ℝ | coords (Vec3.smul x.1 e1 + Vec3.smul x.2.1 e2 + Vec3.smul s dir) ∈ solid c} := hx
      rw [Set.indicator_of_mem hx, Set.indicator_of_mem hx', show ∀ v, vec (coords v) = v from fun _ => rfl]
      have := approach e1 e2 dir hf x.1 x.2.1 x.2.2
      simp only at this
      rw [this, Pi.one_apply, mul_one]
    · have hx' : x.2.2 ∉ {s : ℝ | coords (Vec3.smul x.1 e1 + Vec3.smul x.2.1 e2 + Vec3.smul s dir) ∈ solid c} := hx
      rw [Set.indicator_of_notMem hx, Set.indicator_of_notMem hx', mul_zero]
  have hmc' : Measurable fun x : R3 => G (coords (Vec3.smul x.1 e1 + Vec3.smul x.2.1 e2)) *
      {s : ℝ | coords (Vec3.smul x.1 e1 + Vec3.smul x.2.1 e2 + Vec3.smul s dir) ∈ solid c}.indicator (1 : ℝ → ℝ≥0∞) x.2.2 := by
    have : (fun x : R3 => G (coords (Vec3.smul x.1 e1 + Vec3.smul x.2.1 e2)) *
      {s : ℝ | coords (Vec3.smul x.1 e1 + Vec3.smul x.2.1 e2 + Vec3.smul s dir) ∈ solid c}.indicator (1 : ℝ → ℝ≥0∞) x.2.2) = _ :=
      funext fun x => (h2 x).symm
    rw [this]
    exact hmc
  rw [h1]
  simp only [h2]
  have h3 : ∫⁻ x : R3, G (coords (Vec3.smul x.1 e1 + Vec3.smul x.2.1 e2)) *
      {s : ℝ | coords (Vec3.smul x.1 e1 + Vec3.smul x.2.1 e2 + Vec3.smul s dir) ∈ solid c}.indicator (1 : ℝ → ℝ≥0∞) x.2.2 =
      ∫⁻ a : ℝ, ∫⁻ q : ℝ × ℝ, G (coords (Vec3.smul a e1 + Vec3.smul q.1 e2)) *
        {s : ℝ | coords (Vec3.smul a e1 + Vec3.smul q.1 e2 + Vec3.smul s dir) ∈ solid c}.indicator (1 : ℝ → ℝ≥0∞) q.2 :=
    lintegral_prod (μ := volume) (ν := volume) _ hmc'.aemeasurable
  have h4 : ∀ a : ℝ, ∫⁻ q : ℝ × ℝ, G (coords (Vec3.smul a e1 + Vec3.smul q.1 e2)) *
        {s : ℝ | coords (Vec3.smul a e1 + Vec3.smul q.1 e2 + Vec3.smul s dir) ∈ solid c}.indicator (1 : ℝ → ℝ≥0∞) q.2 =
      ∫⁻ b : ℝ, ∫⁻ s : ℝ, G (coords (Vec3.smul a e1 + Vec3.smul b e2)) *
        {s : ℝ | coords (Vec3.smul a e1 + Vec3.smul b e2 + Vec3.smul s dir) ∈ solid c}.indicator (1 : ℝ → ℝ≥0∞) s := fun a =>
    lintegral_prod (μ := volume) (ν := volume) _ (hmc'.comp (by fun_prop : Measurable fun q : ℝ × ℝ => ((a, q) : R3))).aemeasurable
  rw [h3]
  simp only [h4]
  have hline : ∀ a b : ℝ, MeasurableSet {s : ℝ | coords (Vec3.smul a e1 + Vec3.smul b e2 + Vec3.smul s dir) ∈ solid c} := by
    intro a b
    have : Measurable fun s : ℝ => coords (Vec3.smul a e1 + Vec3.smul b e2 + Vec3.smul s dir) := by
      simp only [coords, Vec3.add_x, Vec3.add_y, Vec3.add_z, Vec3.smul_x, Vec3.smul_y, Vec3.smul_z]
      fun_prop
    exact this hS
  have h5 : ∀ a b : ℝ, ∫⁻ s : ℝ, G (coords (Vec3.smul a e1 + Vec3.smul b e2)) *
        {s : ℝ | coords (Vec3.smul a e1 + Vec3.smul b e2 + Vec3.smul s dir) ∈ solid c}.indicator (1 : ℝ → ℝ≥0∞) s =
      G (coords (Vec3.smul a e1 + Vec3.smul b e2)) * ENNReal.ofReal (chord c (Vec3.smul a e1 + Vec3.smul b e2) dir) := by
    intro a b
    rw [lintegral_const_mul _ (measurable_one.indicator (hline a b)), lintegral_indicator_one (hline a b), chord, Measure.real,
      ENNReal.ofReal_toReal (chord_finite c hc _ dir hf.h33)]
  simp only [h5]
  rw [← lintegral_const_mul' _ _ ENNReal.ofReal_ne_top]
  congr 1
  funext a
  rw [← lintegral_const_mul' _ _ ENNReal.ofReal_ne_top]
  congr 1
  funext b
  rw [mul_left_comm, ← ENNReal.ofReal_mul (by positivity)]
  congr 2
  ring

/-- C105: the density has the integral one over the plane. -/
theorem C105_normalized (c : CylinderShape) (hc : Target c) (e1 e2 dir : Vec3 ℝ) (hf : Frame e1 e2 dir) :
    ∫⁻ a, ∫⁻ b, ENNReal.ofReal (chord c (Vec3.smul a e1 + Vec3.smul b e2) dir / tubeVolume c) = 1 := by
  have h := C105_law c hc e1 e2 dir hf (fun _ => 1) measurable_const
  simp only [one_mul] at h
  rw [← h]
  simp

/-! ## The reported density -/

/-- Crossings in order that enter and leave in turn: the sum is the length of the part of the line they mark. -/
theorem pathSum_measure (hits : List Isect) (hs : hits.Pairwise fun a b => a.distance < b.distance) (ha : Alternates false hits) :
    ∃ v, pathSum hits = .ok v ∧ 0 ≤ v ∧ MeasurableSet {t | stateFrom false hits t = true} ∧
      volume {t | stateFrom false hits t = true} = ENNReal.ofReal v := by
  match hits, hs, ha with
  | [], _, _ => exact ⟨0, rfl, le_rfl, by simp, by simp⟩
  | [a], _, ha =>
    have h1 : a.entering = true := by simpa using ha.1
    have h2 : a.entering = false := ha.2
    rw [h1] at h2; cases h2
  | a :: b :: rest, hs, ha =>
    have h1 : a.entering = true := by simpa using ha.1
    have h2 : b.entering = false := by have := ha.2.1; rw [h1] at this; simpa using this
    have h3 : Alternates false rest := by have := ha.2.2; rwa [h2] at this
    obtain ⟨p1, p2⟩ := List.pairwise_cons.mp hs
    obtain ⟨p3, p4⟩ := List.pairwise_cons.mp p2
    have hab := p1 b (by simp)
    obtain ⟨v, e, h0, hm, hv⟩ := pathSum_measure rest p4 h3
    have hset : {t | stateFrom false (a :: b :: rest) t = true} = Set.Ioc a.distance b.distance ∪ {t | stateFrom false rest t = true} := by
      ext t
      simp only [Set.mem_ofPred_eq, Set.mem_union, Set.mem_Ioc]
      by_cases k1 : a.distance < t
      · rw [stateFrom_cons_lt _ _ _ _ k1]
        by_cases k2 : b.distance < t
        · rw [stateFrom_cons_lt _ _ _ _ k2, h2]
          simp [not_le.mpr k2]
        · rw [stateFrom_cons_ge _ _ _ _ k2, h1, stateFrom_all_ge _ _ _ fun x hx => (not_lt.mp k2).trans (p3 x hx).le]
          simp [k1, not_lt.mp k2]
      · rw [stateFrom_all_ge]
        · rw [stateFrom_all_ge]
          · simp [k1]
          · intro x hx
            exact (not_lt.mp k1).trans ((hab.trans (p3 x hx)).le)
        · intro x hx
          rcases List.mem_cons.mp hx with rfl | hx
          · exact not_lt.mp k1
          · exact (not_lt.mp k1).trans (p1 x hx).le
    have hdis : Disjoint (Set.Ioc a.distance b.distance) {t | stateFrom false rest t = true} := by
      rw [Set.disjoint_left]
      intro t ht ht'
      have : stateFrom false rest t = true := ht'
      rw [stateFrom_all_ge _ _ _ fun x hx => ht.2.trans (p3 x hx).le] at this
      cases this
    refine ⟨b.distance - a.distance + v, ?_, by linarith, ?_, ?_⟩
    · rw [pathSum, e]; rfl
    · rw [hset]; exact measurableSet_Ioc.union hm
    · rw [hset, measure_union hdis hm, Real.volume_Ioc, hv, ENNReal.ofReal_add (by linarith) h0]

theorem near_volume (eps : ℝ) (heps : 0 ≤ eps) (hits : List Isect) :
    volume {t : ℝ | ∃ h ∈ hits, |h.distance - t| < eps} ≤ ENNReal.ofReal (2 * eps * hits.length) := by
  induction hits with
  | nil => simp
  | cons a hits ih =>
    have hsub : {t : ℝ | ∃ h ∈ a :: hits, |h.distance - t| < eps} ⊆
        Set.Ioo (a.distance - eps) (a.distance + eps) ∪ {t : ℝ | ∃ h ∈ hits, |h.distance - t| < eps} := by
      rintro t ⟨h, hh, ht⟩
      rcases List.mem_cons.mp hh with rfl | hh
      · left
        have := abs_lt.mp ht
        exact ⟨by linarith, by linarith⟩
      · right; exact ⟨h, hh, ht⟩
    refine (measure_mono hsub).trans ((measure_union_le _ _).trans ?_)
    rw [Real.volume_Ioo]
    refine (add_le_add le_rfl ih).trans ?_
    rw [← ENNReal.ofReal_add (by linarith) (by positivity)]
    apply ENNReal.ofReal_le_ofReal
    push_cast [List.length_cons]
    nlinarith

/-- C105: if the crossings describe the target along the line up to a tolerance, the reported density is the length of the line in the target over the
volume, up to twice the tolerance for each crossing. -/
theorem C105_density (c : CylinderShape) (hc : Target c) (vertex dir : Vec3 ℝ) (hd : Vec3.dot dir dir = 1) (eps : ℝ) (heps : 0 ≤ eps)
    (hits : List Isect) (hdes : Describes eps (fun t => coords (vertex + Vec3.smul t dir) ∈ solid c) hits) :
    ∃ p, generationProbability c hits = .ok p ∧ |p * tubeVolume c - chord c vertex dir| ≤ 2 * eps * hits.length := by
  have hV := tubeVolume_pos c hc.inner hc.outer hc.height
  obtain ⟨v, e, h0, hm, hv⟩ := pathSum_measure hits hdes.strict hdes.alternates
  have hfin := chord_finite c hc vertex dir hd
  have hsub1 : {s : ℝ | coords (vertex + Vec3.smul s dir) ∈ solid c} ⊆
      {t | stateFrom false hits t = true} ∪ {t : ℝ | ∃ h ∈ hits, |h.distance - t| < eps} := by
    intro t ht
    by_cases hn : ∃ h ∈ hits, |h.distance - t| < eps
    · exact Or.inr hn
    · left
      push Not at hn
      exact (hdes.exact t hn).mp ht
  have hsub2 : {t | stateFrom false hits t = true} ⊆
      {s : ℝ | coords (vertex + Vec3.smul s dir) ∈ solid c} ∪ {t : ℝ | ∃ h ∈ hits, |h.distance - t| < eps} := by
    intro t ht
    by_cases hn : ∃ h ∈ hits, |h.distance - t| < eps
    · exact Or.inr hn
    · left
      push Not at hn
      exact (hdes.exact t hn).mpr ht
  have hnear := near_volume eps heps hits
  have hpos : 0 ≤ 2 * eps * hits.length := by positivity
  have hchord : ENNReal.ofReal (chord c vertex dir) = volume {s : ℝ | coords (vertex + Vec3.smul s dir) ∈ solid c} := by
    rw [chord, Measure.real, ENNReal.ofReal_toReal hfin]
  have hc0 : 0 ≤ chord c vertex dir := measureReal_nonneg
  have b1 : chord c vertex dir ≤ v + 2 * eps * hits.length := by
    have := (measure_mono hsub1).trans ((measure_union_le _ _).trans (add_le_add hv.le hnear))
    rw [← hchord, ← ENNReal.ofReal_add h0 hpos] at this
    exact (ENNReal.ofReal_le_ofReal_iff (by linarith)).mp this
  have b2 : v ≤ chord c vertex dir + 2 * eps * hits.length := by
    have := (measure_mono hsub2).trans ((measure_union_le _ _).trans (add_le_add hchord.ge hnear))
    rw [hv, ← ENNReal.ofReal_add hc0 hpos] at this
    exact (ENNReal.ofReal_le_ofReal_iff (by linarith)).mp this
  have hval : generationProbability c hits = .ok (v / tubeVolume c) := by
    rw [generationProbability]
    split
    · next h =>
      have hnil : hits = [] := List.length_eq_zero_iff.mp h
      subst hnil
      rw [pathSum] at e
      rw [← Res.ok.inj e, zero_div]
    · rw [e]
      change Res.ok _ = _
      rw [abs_of_nonneg h0, tubeVolume, pow_two, pow_two]
  refine ⟨_, hval, ?_⟩
  rw [div_mul_cancel₀ _ hV.ne', abs_le]
  constructor <;> linarith

/-- C105: with the crossings computed for the cylinder, the reported density is the length of the line in the target over the volume up to `16e-9` over
the volume. The line may not touch a rim, and its crossings are at least `2e-9` apart (C75). -/
theorem C105_reported (c : CylinderShape) (hc : Target c) (hsh : c.placement.Sharp) (vertex dir : Vec3 ℝ) (hd : Vec3.dot dir dir = 1)
    (srt : List SHit → List SHit) (hsrt : IsHitSort srt)
    (hr : Cylinder.ClearOfRims ⟨c.radius, c.innerRadius, c.z, c.startPhi, c.deltaPhi, false⟩ (c.placement.globalToLocalPosition vertex)
      (c.placement.globalToLocalDirection dir))
    (ha : Cylinder.Apart ⟨c.radius, c.innerRadius, c.z, c.startPhi, c.deltaPhi, false⟩ (c.placement.globalToLocalPosition vertex)
      (c.placement.globalToLocalDirection dir)) :
    ∃ p, generationProbability c
        (placed c.placement (Cylinder.compute srt ⟨c.radius, c.innerRadius, c.z, c.startPhi, c.deltaPhi, false⟩) vertex dir) = .ok p ∧
      |p - chord c vertex dir / tubeVolume c| ≤ 16 / 1000000000 / tubeVolume c := by
  have hV := tubeVolume_pos c hc.inner hc.outer hc.height
  have hne : c.placement.globalToLocalDirection dir ≠ 0 := by
    intro h
    have := (Placement.C41_isometry c.placement hc.placement dir dir).2.2.2
    rw [h, hd] at this
    simp [Vec3.dot] at this
  obtain ⟨hdes, -⟩ := Cylinder.C75_tube srt hsrt ⟨c.radius, c.innerRadius, c.z, c.startPhi, c.deltaPhi, false⟩ rfl hc.inner hc.outer hc.height
    _ _ hne hr ha
  obtain ⟨f, hf, e⟩ := placed_keeps c.placement hsh (Cylinder.compute srt ⟨c.radius, c.innerRadius, c.z, c.startPhi, c.deltaPhi, false⟩) vertex dir
  have hlen : (Cylinder.compute srt ⟨c.radius, c.innerRadius, c.z, c.startPhi, c.deltaPhi, false⟩ (c.placement.globalToLocalPosition vertex)
      (c.placement.globalToLocalDirection dir)).length ≤ 8 := by
    have hcap := Cylinder.C75_capacity ⟨c.radius, c.innerRadius, c.z, c.startPhi, c.deltaPhi, false⟩ (c.placement.globalToLocalPosition vertex)
      (c.placement.globalToLocalDirection dir)
    have hdd : ∀ (l : List Isect) (o : Option ℝ), (Cylinder.dedup o l).length ≤ l.length := by
      intro l
      induction l with
      | nil => intro o; cases o <;> simp [Cylinder.dedup]
      | cons h t ih =>
        intro o
        cases o with
        | none => simpa [Cylinder.dedup] using ih _
        | some x =>
          simp only [Cylinder.dedup]
          split
          · exact (ih _).trans (by simp)
          · simpa using ih _
    simp only [Cylinder.compute, Bool.not_false, if_true]
    refine (hdd _ _).trans ?_
    rw [List.length_map, ((hsrt _).1).length_eq, List.length_map]
    omega
  have hdes' : Describes precision (fun t => coords (vertex + Vec3.smul t dir) ∈ solid c)
      (placed c.placement (Cylinder.compute srt ⟨c.radius, c.innerRadius, c.z, c.startPhi, c.deltaPhi, false⟩) vertex dir) := by
    rw [e]
    refine ⟨hf.pairwise hdes.strict, hf.alternates _ _ hdes.alternates, ?_⟩
    intro t ht
    rw [hf.state, in_solid c false, Placement.C41_line _ hc.placement]
    apply hdes.exact
    intro h hh
    rw [← (hf h).1]
    exact ht _ (List.mem_map_of_mem hh)
  obtain ⟨p, hp, hb⟩ := C105_density c hc vertex dir hd precision precision_pos.le _ hdes'
  refine ⟨p, hp, ?_⟩
  rw [e, List.length_map] at hb
  have hb' : |p * tubeVolume c - chord c vertex dir| ≤ 16 / 1000000000 := by
    refine hb.trans ?_
    have : ((Cylinder.compute srt ⟨c.radius, c.innerRadius, c.z, c.startPhi, c.deltaPhi, false⟩ (c.placement.globalToLocalPosition vertex)
      (c.placement.globalToLocalDirection dir)).length : ℝ) ≤ 8 := by exact_mod_cast hlen
    unfold precision
    linarith
  rw [show p - chord c vertex dir / tubeVolume c = (p * tubeVolume c - chord c vertex dir) / tubeVolume c by field_simp, abs_div,
    abs_of_pos hV]
  exact div_le_div_of_nonneg_right hb' hV.le

/-- C105 fails for a target that is cut to a wedge: the sampler ignores the cut, so that it draws points of closest approach whose line has no point
in the target; their reported density is zero. -/
theorem C105_wedge_fails :
    ∃ (c : CylinderShape) (dir : Vec3 ℝ), Target c ∧ Vec3.dot dir dir = 1 ∧ c.startPhi = 0 ∧ c.deltaPhi = π / 2 ∧
      (∀ s : ℝ, let v := c.placement.globalToLocalPosition (samplePoint c dir (1 / 2) (1 / 2) (1 / 2) + Vec3.smul s dir)
        ¬ Phi.Within (Phi.atan2 v.y v.x) c.startPhi 0 c.deltaPhi) ∧
      generationProbability c [] = .ok 0 := by
  have hv := Placement.translation_valid 0
  refine ⟨⟨.translation 0, 2, 0, 2, 0, π / 2⟩, ⟨0, 0, 1⟩, ⟨hv, le_rfl, by norm_num, by norm_num⟩, by norm_num [Vec3.dot], rfl, rfl, ?_, ?_⟩
  swap
  · simp [generationProbability]
  intro s
  have ht : uniform 0 (2 * π) (1 / 2) = π := by rw [uniform_le (by positivity)]; ring
  have hr : uniform (0 * 0) (2 * 2) (1 / 2) = 2 := by rw [uniform_le (by norm_num)]; norm_num
  have hz : uniform (-2 / 2) (2 / 2) (1 / 2) = 0 := by rw [uniform_le (by norm_num)]; norm_num
  have hs1 : 0 < Real.sqrt 2 := by positivity
  have hdraw : (CylinderShape.mk (.translation 0) 2 0 2 0 (π / 2)).draw (1 / 2) (1 / 2) (1 / 2) = cylPoint (.translation 0) (Real.sqrt 2) π 0 := by
    simp only [CylinderShape.draw, ht, hr, hz, cylPoint]
  have hg : (cylPoint (.translation 0) (Real.sqrt 2) π 0 : Vec3 ℝ) = ⟨-Real.sqrt 2, 0, 0⟩ := by
    have h1 := (Placement.C41_inverse (.translation 0) hv ⟨Real.sqrt 2 * Real.cos π, Real.sqrt 2 * Real.sin π, 0⟩).2.1
    rw [Placement.translation_back] at h1
    have h2 : (cylPoint (.translation 0) (Real.sqrt 2) π 0 : Vec3 ℝ) - 0 = ⟨Real.sqrt 2 * Real.cos π, Real.sqrt 2 * Real.sin π, 0⟩ := h1
    have hx := congrArg Vec3.x h2
    have hy := congrArg Vec3.y h2
    have hz := congrArg Vec3.z h2
    simp only [Vec3.sub_x, Vec3.sub_y, Vec3.sub_z, Real.cos_pi, Real.sin_pi, show (0 : Vec3 ℝ).x = 0 from rfl, show (0 : Vec3 ℝ).y = 0 from rfl,
      show (0 : Vec3 ℝ).z = 0 from rfl, sub_zero, mul_zero] at hx hy hz
    ext
    · rw [hx]; ring
    · rw [hy]
    · rw [hz]
  simp only [samplePoint, hdraw, hg, Placement.translation_back]
  have ex : ((⟨-Real.sqrt 2, 0, 0⟩ : Vec3 ℝ) - Vec3.smul (Vec3.dot ⟨0, 0, 1⟩ ⟨-Real.sqrt 2, 0, 0⟩) ⟨0, 0, 1⟩ + Vec3.smul s ⟨0, 0, 1⟩ - 0).x =
      -Real.sqrt 2 := by
    simp only [Vec3.add_x, Vec3.sub_x, Vec3.smul_x, show (0 : Vec3 ℝ).x = 0 from rfl]; ring
  have ey : ((⟨-Real.sqrt 2, 0, 0⟩ : Vec3 ℝ) - Vec3.smul (Vec3.dot ⟨0, 0, 1⟩ ⟨-Real.sqrt 2, 0, 0⟩) ⟨0, 0, 1⟩ + Vec3.smul s ⟨0, 0, 1⟩ - 0).y =
      0 := by
    simp only [Vec3.add_y, Vec3.sub_y, Vec3.smul_y, show (0 : Vec3 ℝ).y = 0 from rfl]; ring
  rw [ex, ey]
  have : Phi.atan2 0 (-Real.sqrt 2) = π := by
    rw [Phi.atan2, show (⟨-Real.sqrt 2, 0⟩ : ℂ) = ((-Real.sqrt 2 : ℝ) : ℂ) from rfl, Complex.arg_ofReal_of_neg (by linarith)]
  rw [this]
  rintro ⟨k, h1, h2⟩
  have hpi := Real.pi_pos
  rcases le_or_gt 0 k with h | h
  · have : (0 : ℝ) ≤ k := by exact_mod_cast h
    nlinarith
  · have : (k : ℝ) ≤ -1 := by exact_mod_cast (by omega : k ≤ -1)
    nlinarith

/-- A tilted tube is a target; the axes are a frame; and the crossings at 3, 4, 6 and 7 of a line through a tube of radii 1 and 2 and height 4 give the
density `2 / (12π)`. -/
example : Target ⟨.make ⟨1, 2, 3⟩ ⟨1, 0, 0, 1⟩, 5, 2, 10, 0, 7⟩ ∧ Frame ⟨1, 0, 0⟩ ⟨0, 1, 0⟩ ⟨0, 0, 1⟩ ∧
    generationProbability ⟨.translation 0, 2, 1, 4, 0, 2 * π⟩
      [⟨3, 0, true, ⟨0, 0, 0⟩⟩, ⟨4, 0, false, ⟨0, 0, 0⟩⟩, ⟨6, 0, true, ⟨0, 0, 0⟩⟩, ⟨7, 0, false, ⟨0, 0, 0⟩⟩] = .ok (2 / (12 * π)) := by
  refine ⟨⟨Placement.make_valid _ _ (by norm_num [Quat.normSq]), by norm_num, by norm_num, by norm_num⟩,
    ⟨by norm_num [Vec3.dot], by norm_num [Vec3.dot], by norm_num [Vec3.dot], by norm_num [Vec3.dot], by norm_num [Vec3.dot], by norm_num [Vec3.dot]⟩, ?_⟩
  simp only [generationProbability, pathSum, List.length_cons, List.length_nil, Res.bind]
  norm_num
  ring

end Siren.Distributions.FixedTargetArea
