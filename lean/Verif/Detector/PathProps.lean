import Verif.Detector.PathModel
import Verif.Detector.FrameProps

set_option autoImplicit false

/-! # C34: paths stay straight segments -/

namespace Siren.Detector

open Siren

/-! ### Specification -/

/-- In detector coordinates the path starts at `a` and runs over the distance `d` in the unit direction `u`; the getters in geometry
coordinates say the same. -/
structure Path.Runs (p : Path) (D : PathDetector) (a u : Vec3 ℝ) (d : ℝ) : Prop where
  nonneg : 0 ≤ d
  unit : Vec3.dot u u = 1
  distance : p.distance = (d : EReal)
  first : p.firstPoint = a
  last : p.lastPoint = a + Vec3.smul d u
  dir : p.direction = u
  geoFirst : p.geoFirstPoint = D.frame.toGeo a
  geoLast : p.geoLastPoint = D.frame.toGeo (a + Vec3.smul d u)
  geoDir : p.geoDirection = D.frame.toGeoDir u

/-- Operations on a path: everything but `ClipToOuterBounds`, `SetDetectorModel` and the versions with depths, which are treated apart.
`look` is any getter, `prepare` any depth query. -/
inductive PathOp
  | look
  | prepare
  | flip
  | extendEnd (e : ℝ)
  | extendStart (e : ℝ)
  | shrinkEnd (e : ℝ)
  | shrinkStart (e : ℝ)
  | extendEndTo (x : ℝ)
  | extendStartTo (x : ℝ)
  | shrinkEndTo (x : ℝ)
  | shrinkStartTo (x : ℝ)

/-- The operation in the model. -/
noncomputable def PathOp.run : PathOp → Path → Res Path
  | look, p => .ok p.update
  | prepare, p => p.prepare
  | flip, p => .ok p.flip
  | extendEnd e, p => p.extendEnd e
  | extendStart e, p => p.extendStart e
  | shrinkEnd e, p => p.shrinkEnd e
  | shrinkStart e, p => p.shrinkStart e
  | extendEndTo x, p => p.extendEndTo x
  | extendStartTo x, p => p.extendStartTo x
  | shrinkEndTo x, p => p.shrinkEndTo x
  | shrinkStartTo x, p => p.shrinkStartTo x

/-- A history of operations. -/
noncomputable def runOps : List PathOp → Path → Res Path
  | [], p => .ok p
  | o :: os, p => (o.run p).bind (runOps os)

/-- A segment: start, direction, length. -/
structure Stretch where
  start : Vec3 ℝ
  dir : Vec3 ℝ
  length : ℝ

/-- The far end fixed or not: the segment with length `d` instead, keeping its start. -/
def Stretch.endAt (s : Stretch) (d : ℝ) : Stretch := { s with length := d }

/-- The segment with length `d` instead, keeping its last point. -/
def Stretch.startAt (s : Stretch) (d : ℝ) : Stretch := { s with start := s.start + Vec3.smul (s.length - d) s.dir, length := d }

/-- What each operation should do. Lengths never become negative. -/
noncomputable def PathOp.spec : PathOp → Stretch → Stretch
  | look, s => s
  | prepare, s => s
  | flip, s => ⟨s.start + Vec3.smul s.length s.dir, -s.dir, s.length⟩
  | extendEnd e, s => s.endAt (max 0 (s.length + e))
  | extendStart e, s => s.startAt (max 0 (s.length + e))
  | shrinkEnd e, s => s.endAt (max 0 (s.length - e))
  | shrinkStart e, s => s.startAt (max 0 (s.length - e))
  | extendEndTo x, s => s.endAt (max s.length x)
  | extendStartTo x, s => s.startAt (max s.length x)
  | shrinkEndTo x, s => s.endAt (min s.length (max 0 x))
  | shrinkStartTo x, s => s.startAt (min s.length (max 0 x))

/-- The ways to begin a finite path. Directions need not be normalized. -/
inductive PathStart
  | rayDet (a v : Vec3 ℝ) (d : ℝ)
  | rayGeo (a v : Vec3 ℝ) (d : ℝ)
  | pointsDet (a b : Vec3 ℝ)
  | pointsGeo (a b : Vec3 ℝ)

/-- A path, new or used before, so set. -/
noncomputable def PathStart.set (p : Path) : PathStart → Path
  | rayDet a v d => p.setRayDet a v (d : EReal)
  | rayGeo a v d => p.setRayGeo a v (d : EReal)
  | pointsDet a b => p.setPointsDet a b
  | pointsGeo a b => p.setPointsGeo a b

/-- The path so begun: the four constructors with a detector model (Path.cxx:63-98). -/
noncomputable def PathStart.build (D : PathDetector) (st : PathStart) : Path := st.set (Path.new (some D))

/-- The segment meant, in detector coordinates. -/
noncomputable def PathStart.stretch (D : PathDetector) : PathStart → Stretch
  | rayDet a v d => ⟨a, Vec3.normalize v, d⟩
  | rayGeo a v d => ⟨D.frame.toDet a, D.frame.toDetDir (Vec3.normalize v), d⟩
  | pointsDet a b => ⟨a, Vec3.normalize (b - a), Vec3.norm (b - a)⟩
  | pointsGeo a b => ⟨D.frame.toDet a, D.frame.toDetDir (Vec3.normalize (b - a)), Vec3.norm (b - a)⟩

/-- The direction is not zero and the distance not negative. -/
def PathStart.Ok : PathStart → Prop
  | rayDet _ v d => Vec3.norm v ≠ 0 ∧ 0 ≤ d
  | rayGeo _ v d => Vec3.norm v ≠ 0 ∧ 0 ≤ d
  | pointsDet a b => Vec3.norm (b - a) ≠ 0
  | pointsGeo a b => Vec3.norm (b - a) ≠ 0

/-- The intersections cached by the path belong to its detector and to its line. -/
def Path.CacheFits (p : Path) (D : PathDetector) : Prop :=
  p.setHits = true → ∃ x v : Vec3 ℝ, Vec3.dot v v = 1 ∧ p.hits = D.cast x v ∧ (∃ t, p.geoFirstPoint = x + Vec3.smul t v) ∧
    (p.geoDirection = v ∨ p.geoDirection = -v)

/-! ### The invariant -/

/-- The state of a path that runs from `a` in direction `u` over a distance `d`, which may be infinite. -/
structure Path.Inv (p : Path) (D : PathDetector) (a u : Vec3 ℝ) (d : EReal) : Prop where
  det : p.detector = some D
  any : p.setGeo = true ∨ p.setDet = true
  geo : p.setGeo = true → p.geo.first = D.frame.toGeo a ∧ p.geo.dir = D.frame.toGeoDir u ∧
    (d ≠ ⊤ → p.geo.last = D.frame.toGeo (a + Vec3.smul d.toReal u))
  dets : p.setDet = true → p.det.first = a ∧ p.det.dir = u ∧ (d ≠ ⊤ → p.det.last = a + Vec3.smul d.toReal u)
  dist : p.distance = d
  nonneg : 0 ≤ d
  unit : Vec3.dot u u = 1
  firstInf : p.firstInf = false
  lastInf : p.lastInf = decide (d = ⊤)

namespace Path

theorem update_of_det {p : Path} {D : PathDetector} (h : p.detector = some D) (hg : p.setGeo = false) (hd : p.setDet = true) :
    p.update = { p with geo := D.geoSeg p.det, setGeo := true } := by
  cases p; simp only at h hg hd; subst h hg hd; rfl

theorem update_of_geo {p : Path} {D : PathDetector} (h : p.detector = some D) (hg : p.setGeo = true) (hd : p.setDet = false) :
    p.update = { p with det := D.detSeg p.geo, setDet := true } := by
  cases p; simp only at h hg hd; subst h hg hd; rfl

theorem update_of_both {p : Path} (hg : p.setGeo = true) (hd : p.setDet = true) : p.update = p := by
  unfold Path.update
  cases p.detector <;> simp [hg, hd]

theorem update_hits (p : Path) : p.update.setHits = p.setHits ∧ p.update.hits = p.hits := by
  unfold Path.update
  cases p.detector with
  | none => exact ⟨rfl, rfl⟩
  | some D => simp only; split_ifs <;> exact ⟨rfl, rfl⟩

theorem Inv.update {p : Path} {D : PathDetector} (hD : D.frame.Proper) {a u : Vec3 ℝ} {d : EReal} (h : p.Inv D a u d) :
    p.update.Inv D a u d ∧ p.update.setGeo = true ∧ p.update.setDet = true := by
  have hi := fun x y => Frame.C28_inverse hD x y
  cases hg : p.setGeo <;> cases hd : p.setDet
  · rcases h.any with h' | h' <;> simp_all
  · obtain ⟨h1, h2, h3⟩ := h.dets hd
    rw [update_of_det h.det hg hd]
    refine ⟨⟨h.det, Or.inr hd, fun _ => ⟨?_, ?_, ?_⟩, h.dets, h.dist, h.nonneg, h.unit, h.firstInf, h.lastInf⟩, rfl, hd⟩
    · simp [PathDetector.geoSeg, h1]
    · simp [PathDetector.geoSeg, h2]
    · intro hne
      simp [PathDetector.geoSeg, h3 hne]
  · obtain ⟨h1, h2, h3⟩ := h.geo hg
    rw [update_of_geo h.det hg hd]
    refine ⟨⟨h.det, Or.inl hg, h.geo, fun _ => ⟨?_, ?_, ?_⟩, h.dist, h.nonneg, h.unit, h.firstInf, h.lastInf⟩, hg, rfl⟩
    · simp [PathDetector.detSeg, h1, (hi a u).1]
    · simp [PathDetector.detSeg, h2, (hi a u).2.2.1]
    · intro hne
      simp [PathDetector.detSeg, h3 hne, (hi (a + Vec3.smul d.toReal u) u).1]
  · rw [update_of_both hg hd]
    exact ⟨h, hg, hd⟩

theorem Inv.runs {p : Path} {D : PathDetector} (hD : D.frame.Proper) {a u : Vec3 ℝ} {d : ℝ} (h : p.Inv D a u (d : EReal)) : p.Runs D a u d := by
  obtain ⟨hu, hg, hd⟩ := h.update hD
  obtain ⟨g1, g2, g3⟩ := hu.geo hg
  obtain ⟨d1, d2, d3⟩ := hu.dets hd
  have hne : ((d : ℝ) : EReal) ≠ ⊤ := EReal.coe_ne_top d
  have d3 := d3 hne
  have g3 := g3 hne
  simp only [EReal.toReal_coe] at d3 g3
  exact ⟨by exact_mod_cast h.nonneg, h.unit, h.dist, d1, d3, d2, g1, g3, g2⟩

theorem Inv.ensurePoints {p : Path} {D : PathDetector} (hD : D.frame.Proper) {a u : Vec3 ℝ} {d : EReal} (h : p.Inv D a u d) :
    p.ensurePoints = .ok p.update := by
  unfold Path.ensurePoints
  rw [if_pos (h.update hD).2.1]

/-- Moving a point of the path along it, in geometry coordinates. -/
theorem toGeo_move {D : PathDetector} (hD : D.frame.Proper) (a u : Vec3 ℝ) (s : ℝ) :
    D.frame.toGeo a + Vec3.smul s (D.frame.toGeoDir u) = D.frame.toGeo (a + Vec3.smul s u) := (Frame.C28_line hD a u s).1.symm

theorem smul_add_smul (a u : Vec3 ℝ) (s t : ℝ) : a + Vec3.smul s u + Vec3.smul t u = a + Vec3.smul (s + t) u := by
  ext <;> simp <;> ring

theorem smul_zero' (a u : Vec3 ℝ) : a + Vec3.smul 0 u = a := by ext <;> simp

theorem Inv.extendEnd {p : Path} {D : PathDetector} (hD : D.frame.Proper) {a u : Vec3 ℝ} {d : ℝ} (h : p.Inv D a u (d : EReal)) (e : ℝ) :
    ∃ q, p.extendEnd e = .ok q ∧ q.Inv D a u ((max 0 (d + e) : ℝ) : EReal) ∧ q.setHits = p.setHits ∧ q.hits = p.hits := by
  obtain ⟨hu, hg, hd⟩ := h.update hD
  obtain ⟨g1, g2, g3⟩ := hu.geo hg
  have g3 := g3 (EReal.coe_ne_top d)
  have hk := update_hits p
  unfold Path.extendEnd
  rw [h.ensurePoints hD]
  simp only [Res.bind]
  have hL : p.update.lastInf = false := by simp [hu.lastInf]
  have hdist : p.update.distance + (e : EReal) = ((d + e : ℝ) : EReal) := by rw [hu.dist, EReal.coe_add]
  rw [if_neg (by simp [hL])]
  simp only [hdist]
  simp only [EReal.toReal_coe] at g3
  by_cases hneg : d + e < 0
  · rw [if_pos (by exact_mod_cast hneg), max_eq_left hneg.le]
    refine ⟨_, rfl, ⟨hu.det, Or.inl hg, ?_, by simp, rfl, by simp, hu.unit, hu.firstInf, ?_⟩, hk⟩
    · intro _
      simp only [g1, g2, EReal.coe_zero, EReal.toReal_zero, true_and]
      intro _
      rw [smul_zero']
    · simp [hL]
  · rw [if_neg (by exact_mod_cast hneg), max_eq_right (not_lt.1 hneg)]
    refine ⟨_, rfl, ⟨hu.det, Or.inl hg, ?_, by simp, rfl, by exact_mod_cast not_lt.1 hneg, hu.unit, hu.firstInf,
      hL.trans (decide_eq_false (EReal.coe_ne_top _)).symm⟩, hk⟩
    · intro _
      simp only [g1, g2, g3, true_and]
      intro _
      rw [toGeo_move hD, smul_add_smul, EReal.toReal_coe]

theorem Inv.extendStart {p : Path} {D : PathDetector} (hD : D.frame.Proper) {a u : Vec3 ℝ} {d : ℝ} (h : p.Inv D a u (d : EReal)) (e : ℝ) :
    ∃ q, p.extendStart e = .ok q ∧ q.Inv D (a + Vec3.smul (d - max 0 (d + e)) u) u ((max 0 (d + e) : ℝ) : EReal) ∧ q.setHits = p.setHits ∧
      q.hits = p.hits := by
  obtain ⟨hu, hg, hd⟩ := h.update hD
  obtain ⟨g1, g2, g3⟩ := hu.geo hg
  have g3 := g3 (EReal.coe_ne_top d)
  have hk := update_hits p
  unfold Path.extendStart
  rw [h.ensurePoints hD]
  simp only [Res.bind]
  have hL : p.update.lastInf = false := by simp [hu.lastInf]
  have hdist : p.update.distance + (e : EReal) = ((d + e : ℝ) : EReal) := by rw [hu.dist, EReal.coe_add]
  rw [if_neg (by simp [hu.firstInf])]
  simp only [hdist]
  simp only [EReal.toReal_coe] at g3
  by_cases hneg : d + e < 0
  · rw [if_pos (by exact_mod_cast hneg), max_eq_left hneg.le]
    refine ⟨_, rfl, ⟨hu.det, Or.inl hg, ?_, by simp, rfl, by simp, hu.unit, hu.firstInf, ?_⟩, hk⟩
    · intro _
      simp only [g2, g3, EReal.coe_zero, EReal.toReal_zero, true_and, sub_zero]
      intro _
      rw [smul_zero']
    · simp [hL]
  · rw [if_neg (by exact_mod_cast hneg), max_eq_right (not_lt.1 hneg)]
    refine ⟨_, rfl, ⟨hu.det, Or.inl hg, ?_, by simp, rfl, by exact_mod_cast not_lt.1 hneg, hu.unit, hu.firstInf,
      hL.trans (decide_eq_false (EReal.coe_ne_top _)).symm⟩, hk⟩
    · intro _
      have e1 : d - (d + e) = -e := by ring
      simp only [g1, g2, g3, true_and, e1, toGeo_move hD, EReal.toReal_coe]
      intro _
      rw [smul_add_smul]
      congr 2
      ring_nf

theorem Inv.flip {p : Path} {D : PathDetector} (hD : D.frame.Proper) {a u : Vec3 ℝ} {d : ℝ} (h : p.Inv D a u (d : EReal)) :
    p.flip.Inv D (a + Vec3.smul d u) (-u) (d : EReal) := by
  have hn : D.frame.toGeoDir (-u) = -D.frame.toGeoDir u := (Frame.toGeoDir_neg hD u).symm
  have hb : a + Vec3.smul d u + Vec3.smul d (-u) = a := by ext <;> simp
  refine ⟨h.det, h.any, ?_, ?_, h.dist, h.nonneg, by simpa [Vec3.dot] using h.unit, ?_, ?_⟩
  · intro hg
    obtain ⟨g1, g2, g3⟩ := h.geo hg
    refine ⟨by simpa [Path.flip] using g3 (EReal.coe_ne_top d), by simp [Path.flip, g2, hn], ?_⟩
    intro _
    simp only [Path.flip, EReal.toReal_coe, hb]
    exact g1
  · intro hg
    obtain ⟨g1, g2, g3⟩ := h.dets hg
    refine ⟨by simpa [Path.flip] using g3 (EReal.coe_ne_top d), by simp [Path.flip, g2], ?_⟩
    intro _
    simp only [Path.flip, EReal.toReal_coe, hb]
    exact g1
  · simp [Path.flip, h.lastInf]
  · simp [Path.flip, h.firstInf]

/-- The cached intersections in terms of the segment. -/
def Fits (p : Path) (D : PathDetector) (a u : Vec3 ℝ) : Prop :=
  p.setHits = true → ∃ x v : Vec3 ℝ, Vec3.dot v v = 1 ∧ p.hits = D.cast x v ∧ (∃ t, D.frame.toGeo a = x + Vec3.smul t v) ∧
    (D.frame.toGeoDir u = v ∨ D.frame.toGeoDir u = -v)

theorem Fits.move {p q : Path} {D : PathDetector} (hD : D.frame.Proper) {a u : Vec3 ℝ} (h : p.Fits D a u) (s : ℝ) (h1 : q.setHits = p.setHits)
    (h2 : q.hits = p.hits) : q.Fits D (a + Vec3.smul s u) u := by
  intro hq
  obtain ⟨x, v, hv, hh, ⟨t, ht⟩, hu⟩ := h (h1 ▸ hq)
  refine ⟨x, v, hv, h2.trans hh, ?_, hu⟩
  rw [← toGeo_move hD, ht]
  rcases hu with hu | hu
  · exact ⟨t + s, by rw [hu, smul_add_smul]⟩
  · exact ⟨t - s, by rw [hu]; ext <;> simp <;> ring⟩

theorem Fits.stay {p q : Path} {D : PathDetector} {a u : Vec3 ℝ} (h : p.Fits D a u) (h1 : q.setHits = p.setHits)
    (h2 : q.hits = p.hits) : q.Fits D a u := by
  intro hq
  obtain ⟨x, v, hv, hh, r⟩ := h (h1 ▸ hq)
  exact ⟨x, v, hv, h2.trans hh, r⟩

theorem Fits.flip {p : Path} {D : PathDetector} (hD : D.frame.Proper) {a u : Vec3 ℝ} (h : p.Fits D a u) (d : ℝ) :
    p.flip.Fits D (a + Vec3.smul d u) (-u) := by
  intro hq
  obtain ⟨x, v, hv, hh, ht, hu⟩ := h.move hD d (q := p.flip) rfl rfl hq
  refine ⟨x, v, hv, hh, ht, ?_⟩
  rw [← Frame.toGeoDir_neg hD u]
  rcases hu with hu | hu
  · exact Or.inr (by rw [hu])
  · refine Or.inl ?_
    rw [hu]
    ext <;> simp

theorem Inv.prepare {p : Path} {D : PathDetector} (hD : D.frame.Proper) {a u : Vec3 ℝ} {d : EReal} (h : p.Inv D a u d) {F : Prop}
    (hf : F → p.Fits D a u) : ∃ q, p.prepare = .ok q ∧ q.Inv D a u d ∧ (F → q.Fits D a u) ∧ q.setGeo = true ∧ q.setHits = true ∧ (p.setHits = true → q.hits = p.hits) ∧
      q.setDet = true := by
  unfold Path.prepare
  cases hh : p.setHits
  · simp only [Bool.false_eq_true, if_false]
    unfold Path.computeIntersections
    rw [h.det, h.ensurePoints hD]
    obtain ⟨hu, hg, hd⟩ := h.update hD
    simp only [Res.bind]
    rw [if_neg (by simp [hu.firstInf])]
    simp only
    obtain ⟨g1, g2, g3⟩ := hu.geo hg
    have hq : Path.Inv { p.update with hits := D.cast p.update.geo.first p.update.geo.dir, setHits := true } D a u d :=
      ⟨hu.det, hu.any, hu.geo, hu.dets, hu.dist, hu.nonneg, hu.unit, hu.firstInf, hu.lastInf⟩
    rw [hq.ensurePoints hD]
    obtain ⟨hq', hg', hd'⟩ := hq.update hD
    have hk := update_hits { p.update with hits := D.cast p.update.geo.first p.update.geo.dir, setHits := true }
    refine ⟨_, rfl, hq', ?_, hg', hk.1, by simp, hd'⟩
    intro _ _
    refine ⟨_, _, ?_, hk.2, ⟨0, ?_⟩, Or.inl ?_⟩
    · rw [g2, (Frame.C28_isometry hD a a u u).2.2.1]
      exact h.unit
    · rw [smul_zero', g1]
    · exact g2.symm
  · simp only [if_true, Res.bind]
    rw [h.ensurePoints hD]
    have hk := update_hits p
    exact ⟨_, rfl, (h.update hD).1, fun f => (hf f).stay hk.1 hk.2, (h.update hD).2.1, hk.1.trans hh, fun _ => hk.2, (h.update hD).2.2⟩

theorem Inv.shiftTo {p : Path} {D : PathDetector} {a u : Vec3 ℝ} {d : ℝ} (h : p.Inv D a u (d : EReal)) (x sign : ℝ) (f : ℝ → Res Path) :
    p.shiftTo x f sign = if 0 < sign * (x - d) then f (sign * (x - d)) else .ok p := by
  unfold Path.shiftTo
  rw [if_neg (by rw [h.dist]; exact EReal.coe_ne_top d), if_neg (by rw [h.dist]; exact EReal.coe_ne_bot d), h.dist, EReal.toReal_coe]

/-- One operation. -/
theorem op_inv {p : Path} {D : PathDetector} (hD : D.frame.Proper) (s : Stretch) (h : p.Inv D s.start s.dir (s.length : EReal))
    {F : Prop} (hf : F → p.Fits D s.start s.dir) (o : PathOp) :
    ∃ q, o.run p = .ok q ∧ q.Inv D (o.spec s).start (o.spec s).dir ((o.spec s).length : EReal) ∧
      (F → q.Fits D (o.spec s).start (o.spec s).dir) := by
  have hn : 0 ≤ s.length := by exact_mod_cast h.nonneg
  cases o with
  | look =>
    have hk := update_hits p
    exact ⟨_, rfl, (h.update hD).1, fun f => (hf f).stay hk.1 hk.2⟩
  | prepare =>
    obtain ⟨q, h1, h2, h3, -⟩ := h.prepare hD hf
    exact ⟨q, h1, h2, h3⟩
  | flip => exact ⟨_, rfl, h.flip hD, fun f => (hf f).flip hD _⟩
  | extendEnd e =>
    obtain ⟨q, h1, h2, h3, h4⟩ := h.extendEnd hD e
    exact ⟨q, h1, h2, fun f => (hf f).stay h3 h4⟩
  | extendStart e =>
    obtain ⟨q, h1, h2, h3, h4⟩ := h.extendStart hD e
    exact ⟨q, h1, h2, fun f => (hf f).move hD _ h3 h4⟩
  | shrinkEnd e =>
    obtain ⟨q, h1, h2, h3, h4⟩ := h.extendEnd hD (-e)
    exact ⟨q, h1, h2, fun f => (hf f).stay h3 h4⟩
  | shrinkStart e =>
    obtain ⟨q, h1, h2, h3, h4⟩ := h.extendStart hD (-e)
    exact ⟨q, h1, h2, fun f => (hf f).move hD _ h3 h4⟩
  | extendEndTo x =>
    simp only [PathOp.run, PathOp.spec, Path.extendEndTo, Stretch.endAt]
    rw [h.shiftTo]
    by_cases hx : 0 < 1 * (x - s.length)
    · rw [if_pos hx]
      obtain ⟨q, h1, h2, h3, h4⟩ := h.extendEnd hD (1 * (x - s.length))
      refine ⟨q, h1, ?_, fun f => (hf f).stay h3 h4⟩
      have : max 0 (s.length + 1 * (x - s.length)) = max s.length x := by
        rw [max_eq_right (by linarith), max_eq_right (by linarith)]; ring
      rwa [this] at h2
    · rw [if_neg hx]
      have : max s.length x = s.length := max_eq_left (by linarith)
      rw [this]
      exact ⟨p, rfl, h, hf⟩
  | extendStartTo x =>
    simp only [PathOp.run, PathOp.spec, Path.extendStartTo, Stretch.startAt]
    rw [h.shiftTo]
    by_cases hx : 0 < 1 * (x - s.length)
    · rw [if_pos hx]
      obtain ⟨q, h1, h2, h3, h4⟩ := h.extendStart hD (1 * (x - s.length))
      have : max 0 (s.length + 1 * (x - s.length)) = max s.length x := by
        rw [max_eq_right (by linarith), max_eq_right (by linarith)]; ring
      rw [this] at h2
      exact ⟨q, h1, h2, fun f => (hf f).move hD _ h3 h4⟩
    · rw [if_neg hx]
      have : max s.length x = s.length := max_eq_left (by linarith)
      rw [this, sub_self, smul_zero']
      exact ⟨p, rfl, h, hf⟩
  | shrinkEndTo x =>
    simp only [PathOp.run, PathOp.spec, Path.shrinkEndTo, Stretch.endAt]
    rw [h.shiftTo]
    by_cases hx : 0 < -1 * (x - s.length)
    · rw [if_pos hx]
      obtain ⟨q, h1, h2, h3, h4⟩ := h.extendEnd hD (-(-1 * (x - s.length)))
      refine ⟨q, h1, ?_, fun f => (hf f).stay h3 h4⟩
      have : max 0 (s.length + -(-1 * (x - s.length))) = min s.length (max 0 x) := by
        have : s.length + -(-1 * (x - s.length)) = x := by ring
        rw [this, min_eq_right (max_le hn (by linarith))]
      rwa [this] at h2
    · rw [if_neg hx]
      have : min s.length (max 0 x) = s.length := min_eq_left (le_trans (by linarith) (le_max_right _ _))
      rw [this]
      exact ⟨p, rfl, h, hf⟩
  | shrinkStartTo x =>
    simp only [PathOp.run, PathOp.spec, Path.shrinkStartTo, Stretch.startAt]
    rw [h.shiftTo]
    by_cases hx : 0 < -1 * (x - s.length)
    · rw [if_pos hx]
      obtain ⟨q, h1, h2, h3, h4⟩ := h.extendStart hD (-(-1 * (x - s.length)))
      have : max 0 (s.length + -(-1 * (x - s.length))) = min s.length (max 0 x) := by
        have : s.length + -(-1 * (x - s.length)) = x := by ring
        rw [this, min_eq_right (max_le hn (by linarith))]
      rw [this] at h2
      exact ⟨q, h1, h2, fun f => (hf f).move hD _ h3 h4⟩
    · rw [if_neg hx]
      have : min s.length (max 0 x) = s.length := min_eq_left (le_trans (by linarith) (le_max_right _ _))
      rw [this, sub_self, smul_zero']
      exact ⟨p, rfl, h, hf⟩

/-- Any history. -/
theorem ops_inv {D : PathDetector} (hD : D.frame.Proper) {F : Prop} (os : List PathOp) : ∀ (p : Path) (s : Stretch),
    p.Inv D s.start s.dir (s.length : EReal) → (F → p.Fits D s.start s.dir) →
    ∃ q, runOps os p = .ok q ∧ q.Inv D (os.foldl (fun s o => o.spec s) s).start (os.foldl (fun s o => o.spec s) s).dir
      ((os.foldl (fun s o => o.spec s) s).length : EReal) ∧
      (F → q.Fits D (os.foldl (fun s o => o.spec s) s).start (os.foldl (fun s o => o.spec s) s).dir) := by
  induction os with
  | nil => intro p s h hf; exact ⟨p, rfl, h, hf⟩
  | cons o os ih =>
    intro p s h hf
    obtain ⟨q, h1, h2, h3⟩ := op_inv hD s h hf o
    obtain ⟨r, g1, g2⟩ := ih q (o.spec s) h2 h3
    exact ⟨r, by simp [runOps, h1, Res.bind, g1], g2⟩

/-! ### Beginnings -/

/-- Unit vectors. -/
theorem normalize_unit {v : Vec3 ℝ} (hv : Vec3.norm v ≠ 0) : Vec3.dot (Vec3.normalize v) (Vec3.normalize v) = 1 := by
  have h1 : Vec3.norm v * Vec3.norm v = Vec3.dot v v := Real.mul_self_sqrt (Vec3.dot_self_nonneg v)
  have : Vec3.dot (Vec3.normalize v) (Vec3.normalize v) = Vec3.dot v v / (Vec3.norm v * Vec3.norm v) := by
    simp only [Vec3.dot, Vec3.normalize]
    field_simp
  rw [this, h1, div_self]
  rw [← h1]
  exact mul_ne_zero hv hv

theorem smul_norm_normalize {v : Vec3 ℝ} (hv : Vec3.norm v ≠ 0) : Vec3.smul (Vec3.norm v) (Vec3.normalize v) = v := by
  ext <;> simp [Vec3.normalize] <;> field_simp

/-- Starting with a ray, in detector coordinates. -/
theorem inv_rayDet {p : Path} {D : PathDetector} (hD : D.frame.Proper) (hp : p.detector = some D) (a v : Vec3 ℝ) (hv : Vec3.norm v ≠ 0)
    (d : EReal) (hd : 0 ≤ d) :
    (p.setRayDet a v d).Inv D a (Vec3.normalize v) d ∧ (p.setHits = false → (p.setRayDet a v d).setHits = false) := by
  have hb : d ≠ ⊥ := fun h => by rw [h] at hd; exact absurd hd (by simp)
  unfold Path.setRayDet
  refine ⟨(Inv.update hD (d := d) (a := a) (u := Vec3.normalize v) ?_).1, fun h => by rw [(update_hits _).1]; simp [h]⟩
  exact ⟨hp, Or.inr rfl, by simp, fun _ => ⟨rfl, rfl, fun _ => rfl⟩, rfl, hd, normalize_unit hv, rfl, by simp [hb]⟩

/-- Starting with a ray, in geometry coordinates. -/
theorem inv_rayGeo {p : Path} {D : PathDetector} (hD : D.frame.Proper) (hp : p.detector = some D) (a v : Vec3 ℝ) (hv : Vec3.norm v ≠ 0)
    (d : EReal) (hd : 0 ≤ d) :
    (p.setRayGeo a v d).Inv D (D.frame.toDet a) (D.frame.toDetDir (Vec3.normalize v)) d ∧
      (p.setHits = false → (p.setRayGeo a v d).setHits = false) := by
  have hb : d ≠ ⊥ := fun h => by rw [h] at hd; exact absurd hd (by simp)
  have hi := Frame.C28_inverse hD a (Vec3.normalize v)
  unfold Path.setRayGeo
  refine ⟨(Inv.update hD (d := d) (a := D.frame.toDet a) (u := D.frame.toDetDir (Vec3.normalize v)) ?_).1,
    fun h => by rw [(update_hits _).1]; simp [h]⟩
  refine ⟨hp, Or.inl rfl, fun _ => ⟨hi.2.1.symm, hi.2.2.2.symm, fun _ => ?_⟩, by simp, rfl, hd, ?_, rfl, by simp [hb]⟩
  · rw [← toGeo_move hD, hi.2.1, hi.2.2.2]
  · rw [(Frame.C28_isometry hD a a _ _).2.2.2.1, normalize_unit hv]

/-- Starting with two points, in detector coordinates. -/
theorem inv_pointsDet {p : Path} {D : PathDetector} (hD : D.frame.Proper) (hp : p.detector = some D) (a b : Vec3 ℝ)
    (hv : Vec3.norm (b - a) ≠ 0) :
    (p.setPointsDet a b).Inv D a (Vec3.normalize (b - a)) (Vec3.norm (b - a) : ℝ) ∧ (p.setPointsDet a b).setHits = false := by
  unfold Path.setPointsDet
  have hb : a + Vec3.smul (Vec3.norm (b - a)) (Vec3.normalize (b - a)) = b := by rw [smul_norm_normalize hv]; ext <;> simp
  refine ⟨(Inv.update hD (d := (Vec3.norm (b - a) : ℝ)) (a := a) (u := Vec3.normalize (b - a)) ?_).1, by rw [(update_hits _).1]⟩
  exact ⟨hp, Or.inr rfl, by simp, fun _ => ⟨rfl, rfl, fun _ => by rw [EReal.toReal_coe, hb]⟩, rfl, by exact_mod_cast Vec3.norm_nonneg _,
    normalize_unit hv, rfl, by simp⟩

/-- Starting with two points, in geometry coordinates. -/
theorem inv_pointsGeo {p : Path} {D : PathDetector} (hD : D.frame.Proper) (hp : p.detector = some D) (a b : Vec3 ℝ)
    (hv : Vec3.norm (b - a) ≠ 0) :
    (p.setPointsGeo a b).Inv D (D.frame.toDet a) (D.frame.toDetDir (Vec3.normalize (b - a))) (Vec3.norm (b - a) : ℝ) ∧
      (p.setPointsGeo a b).setHits = false := by
  unfold Path.setPointsGeo
  have hi := Frame.C28_inverse hD a (Vec3.normalize (b - a))
  have hb : a + Vec3.smul (Vec3.norm (b - a)) (Vec3.normalize (b - a)) = b := by rw [smul_norm_normalize hv]; ext <;> simp
  refine ⟨(Inv.update hD (d := (Vec3.norm (b - a) : ℝ)) (a := D.frame.toDet a) (u := D.frame.toDetDir (Vec3.normalize (b - a))) ?_).1,
    by rw [(update_hits _).1]⟩
  refine ⟨hp, Or.inl rfl, fun _ => ⟨hi.2.1.symm, hi.2.2.2.symm, fun _ => ?_⟩, by simp, rfl, by exact_mod_cast Vec3.norm_nonneg _, ?_, rfl, by simp⟩
  · rw [← toGeo_move hD, hi.2.1, hi.2.2.2, EReal.toReal_coe, hb]
  · rw [(Frame.C28_isometry hD a a _ _).2.2.2.1, normalize_unit hv]

/-! ### Clipping -/

/-- The distance along the path of a point of its line. -/
theorem clip_core {D : PathDetector} (hD : D.frame.Proper) (hcast : ∀ x v, (D.cast x v).position = x ∧ (D.cast x v).direction = v)
    {p q : Path} {a u : Vec3 ℝ} {d : EReal} (hp : p.prepare = .ok q) (hq : q.Inv D a u d) (hf : q.Fits D a u) (hg : q.setGeo = true)
    (hh : q.setHits = true) {b0 b1 : Hit EReal} (hb : outerBounds q.hits.hits = [b0, b1]) {c0 c1 : ℝ} (h0 : b0.distance = (c0 : EReal))
    (h1 : b1.distance = (c1 : EReal)) (hlt : c0 < c1) :
    ∃ s0 s1 : ℝ, s0 < s1 ∧
      ((q.hits.position + Vec3.smul c0 q.hits.direction = D.frame.toGeo (a + Vec3.smul s0 u) ∧
        q.hits.position + Vec3.smul c1 q.hits.direction = D.frame.toGeo (a + Vec3.smul s1 u)) ∨
       (q.hits.position + Vec3.smul c1 q.hits.direction = D.frame.toGeo (a + Vec3.smul s0 u) ∧
        q.hits.position + Vec3.smul c0 q.hits.direction = D.frame.toGeo (a + Vec3.smul s1 u))) ∧
      ∃ r, p.clip = .ok r ∧ r.setGeo = true ∧ r.setDet = false ∧ r.detector = some D ∧ r.firstInf = false ∧ r.lastInf = false ∧
        r.geo.dir = D.frame.toGeoDir u ∧ r.geo.first = D.frame.toGeo (a + Vec3.smul (max 0 s0) u) ∧
        r.geo.last = D.frame.toGeo (a + Vec3.smul (min d (s1 : EReal)).toReal u) ∧
        ((max 0 s0 : ℝ) ≤ (min d (s1 : EReal)).toReal → r.distance = (((min d (s1 : EReal)).toReal - max 0 s0 : ℝ) : EReal)) ∧
        ((min d (s1 : EReal)).toReal < (max 0 s0 : ℝ) → r.distance = ((max 0 s0 - (min d (s1 : EReal)).toReal : ℝ) : EReal)) := by
  obtain ⟨g1, g2, g3⟩ := hq.geo hg
  obtain ⟨x, v, hv, hx, ⟨t, ht⟩, hu⟩ := hf hh
  have hposn : q.hits.position = x := by rw [hx, (hcast x v).1]
  have hdirn : q.hits.direction = v := by rw [hx, (hcast x v).2]
  have hgu : Vec3.dot (D.frame.toGeoDir u) (D.frame.toGeoDir u) = 1 := by rw [(Frame.C28_isometry hD a a u u).2.2.1, hq.unit]
  -- the two bounds
  have hnorm : Vec3.normalize (x + Vec3.smul c1 v - (x + Vec3.smul c0 v)) = v := by
    have e1 : x + Vec3.smul c1 v - (x + Vec3.smul c0 v) = Vec3.smul (c1 - c0) v := by ext <;> simp <;> ring
    have e2 : Vec3.norm (Vec3.smul (c1 - c0) v) = c1 - c0 := by rw [Vec3.norm_smul_unit _ _ hv, abs_of_pos (by linarith)]
    have e3 : c1 - c0 ≠ 0 := by linarith
    rw [e1]
    ext <;> simp only [Vec3.normalize, e2, Vec3.smul_x, Vec3.smul_y, Vec3.smul_z] <;> field_simp
  -- distances along the path
  have hdot : ∀ s r : ℝ, Vec3.dot (D.frame.toGeo (a + Vec3.smul s u) - D.frame.toGeo (a + Vec3.smul r u)) (D.frame.toGeoDir u) = s - r := by
    intro s r
    rw [← toGeo_move hD, ← toGeo_move hD]
    have e : D.frame.toGeo a + Vec3.smul s (D.frame.toGeoDir u) - (D.frame.toGeo a + Vec3.smul r (D.frame.toGeoDir u)) =
        Vec3.smul (s - r) (D.frame.toGeoDir u) := by ext <;> simp <;> ring
    rw [e]
    have e' : Vec3.dot (Vec3.smul (s - r) (D.frame.toGeoDir u)) (D.frame.toGeoDir u) = (s - r) * Vec3.dot (D.frame.toGeoDir u) (D.frame.toGeoDir u) := by
      simp [Vec3.dot]; ring
    rw [e', hgu, mul_one]
  have hnrm : ∀ s r : ℝ, Vec3.norm (D.frame.toGeo (a + Vec3.smul s u) - D.frame.toGeo (a + Vec3.smul r u)) = |s - r| := by
    intro s r
    rw [← toGeo_move hD, ← toGeo_move hD]
    have e : D.frame.toGeo a + Vec3.smul s (D.frame.toGeoDir u) - (D.frame.toGeo a + Vec3.smul r (D.frame.toGeoDir u)) =
        Vec3.smul (s - r) (D.frame.toGeoDir u) := by ext <;> simp <;> ring
    rw [e, Vec3.norm_smul_unit _ _ hgu]
  have hfirst : D.frame.toGeo a = D.frame.toGeo (a + Vec3.smul 0 u) := by rw [smul_zero']
  -- the rest, once the bounds are named in the order of the path
  have rest : ∀ (s0 s1 : ℝ) (dot : ℝ), s0 < s1 → (dot = 1 ∨ dot = -1) →
      Vec3.dot q.geo.dir (Vec3.normalize (x + Vec3.smul c1 v - (x + Vec3.smul c0 v))) = dot →
      (if dot < 0 then x + Vec3.smul c1 v else x + Vec3.smul c0 v) = D.frame.toGeo (a + Vec3.smul s0 u) →
      (if dot < 0 then x + Vec3.smul c0 v else x + Vec3.smul c1 v) = D.frame.toGeo (a + Vec3.smul s1 u) →
      ∃ r, p.clip = .ok r ∧ r.setGeo = true ∧ r.setDet = false ∧ r.detector = some D ∧ r.firstInf = false ∧ r.lastInf = false ∧
        r.geo.dir = D.frame.toGeoDir u ∧ r.geo.first = D.frame.toGeo (a + Vec3.smul (max 0 s0) u) ∧
        r.geo.last = D.frame.toGeo (a + Vec3.smul (min d (s1 : EReal)).toReal u) ∧
        ((max 0 s0 : ℝ) ≤ (min d (s1 : EReal)).toReal → r.distance = (((min d (s1 : EReal)).toReal - max 0 s0 : ℝ) : EReal)) ∧
        ((min d (s1 : EReal)).toReal < (max 0 s0 : ℝ) → r.distance = ((max 0 s0 - (min d (s1 : EReal)).toReal : ℝ) : EReal)) := by
    intro s0 s1 dot hs hdots hd hr0 hr1
    unfold Path.clip
    rw [hp]
    simp only [Res.bind]
    rw [hb]
    simp only [h0, h1, hposn, hdirn, hd, EReal.toReal_coe]
    rw [if_neg (by simp), if_neg (by rcases hdots with h | h <;> rw [h] <;> norm_num), hr0, hr1, g1]
    -- the two tests
    have hc0 : (q.firstInf || decide (0 < Vec3.dot (D.frame.toGeo (a + Vec3.smul s0 u) - D.frame.toGeo a) q.geo.dir)) = decide (0 < s0) := by
      rw [hq.firstInf, g2, hfirst, hdot]; simp
    have hc1 : (q.lastInf || decide (Vec3.dot (D.frame.toGeo (a + Vec3.smul s1 u) - q.geo.last) q.geo.dir < 0)) = decide ((s1 : EReal) < d) := by
      by_cases htop : d = ⊤
      · rw [hq.lastInf, htop]; simp
      · rw [hq.lastInf, g2, g3 htop, hdot]
        have hbot : d ≠ ⊥ := fun h => by have := hq.nonneg; rw [h] at this; exact absurd this (by simp)
        have : ((d.toReal : ℝ) : EReal) = d := EReal.coe_toReal htop hbot
        rw [← this]
        simp [EReal.coe_ne_top]
    rw [hc0, hc1]
    have hF : (if decide (0 < s0) = true then D.frame.toGeo (a + Vec3.smul s0 u) else D.frame.toGeo a) = D.frame.toGeo (a + Vec3.smul (max 0 s0) u) := by
      by_cases h : 0 < s0
      · rw [if_pos (by simpa using h), max_eq_right h.le]
      · rw [if_neg (by simpa using h), max_eq_left (not_lt.1 h), smul_zero']
    have hL : (if decide ((s1 : EReal) < d) = true then D.frame.toGeo (a + Vec3.smul s1 u) else q.geo.last) =
        D.frame.toGeo (a + Vec3.smul (min d (s1 : EReal)).toReal u) := by
      by_cases h : (s1 : EReal) < d
      · rw [if_pos (by simpa using h), min_eq_right h.le, EReal.toReal_coe]
      · rw [if_neg (by simpa using h), min_eq_left (not_lt.1 h)]
        exact g3 (fun htop => h (by rw [htop]; exact EReal.coe_lt_top _))
    rw [hF, hL]
    refine ⟨_, rfl, hg, rfl, hq.det, ?_, ?_, g2, rfl, rfl, ?_, ?_⟩
    · by_cases h : 0 < s0 <;> simp [h, hq.firstInf]
    · by_cases h : (s1 : EReal) < d
      · simp [h]
      · have : d ≠ ⊤ := fun htop => h (by rw [htop]; exact EReal.coe_lt_top _)
        simp [h, hq.lastInf, this]
    · intro hle
      simp only [hnrm, abs_of_nonneg (sub_nonneg.2 hle)]
      by_cases h : 0 < s0 ∨ (s1 : EReal) < d
      · rw [if_pos (by simpa using h)]
      · rw [if_neg (by simpa using h)]
        simp only [not_or, not_lt] at h
        have htop : d ≠ ⊤ := fun htop => absurd h.2 (by rw [htop]; simp)
        have hbot : d ≠ ⊥ := fun h => by have := hq.nonneg; rw [h] at this; exact absurd this (by simp)
        rw [max_eq_left h.1, min_eq_left h.2, sub_zero, EReal.coe_toReal htop hbot, hq.dist]
    · intro hgt
      simp only [hnrm]
      rw [abs_of_neg (sub_neg.2 hgt), neg_sub]
      rw [if_pos]
      simp only [Bool.or_eq_true, decide_eq_true_eq]
      by_contra h
      simp only [not_or, not_lt] at h
      rw [max_eq_left h.1, min_eq_left h.2] at hgt
      have htop : d ≠ ⊤ := fun htop => absurd h.2 (by rw [htop]; simp)
      have := EReal.toReal_nonneg hq.nonneg
      linarith
  rcases hu with hu | hu
  · refine ⟨c0 - t, c1 - t, by linarith, Or.inl ?_, rest (c0 - t) (c1 - t) 1 (by linarith) (Or.inl rfl) ?_ ?_ ?_⟩
    · rw [hposn, hdirn]
      constructor <;> (rw [← toGeo_move hD, hu, ht, smul_add_smul]; congr 2; ring)
    · rw [hnorm, g2, hu, hv]
    · rw [if_neg (by norm_num), ← toGeo_move hD, hu, ht, smul_add_smul]; congr 2; ring
    · rw [if_neg (by norm_num), ← toGeo_move hD, hu, ht, smul_add_smul]; congr 2; ring
  · refine ⟨t - c1, t - c0, by linarith, Or.inr ?_, rest (t - c1) (t - c0) (-1) (by linarith) (Or.inr rfl) ?_ ?_ ?_⟩
    · rw [hposn, hdirn]
      constructor <;> (rw [← toGeo_move hD, hu, ht]; ext <;> simp <;> ring)
    · rw [hnorm, g2, hu, ← hv]; simp [Vec3.dot]; ring
    · rw [if_pos (by norm_num), ← toGeo_move hD, hu, ht]; ext <;> simp <;> ring
    · rw [if_pos (by norm_num), ← toGeo_move hD, hu, ht]; ext <;> simp <;> ring

theorem start_inv {p : Path} {D : PathDetector} (hD : D.frame.Proper) (hp : p.detector = some D) (st : PathStart) (h : st.Ok) :
    (st.set p).Inv D (st.stretch D).start (st.stretch D).dir ((st.stretch D).length : EReal) ∧ (p.setHits = false → (st.set p).setHits = false) := by
  cases st with
  | rayDet a v d => exact inv_rayDet hD hp a v h.1 d (by exact_mod_cast h.2)
  | rayGeo a v d => exact inv_rayGeo hD hp a v h.1 d (by exact_mod_cast h.2)
  | pointsDet a b => exact ⟨(inv_pointsDet hD hp a b h).1, fun _ => (inv_pointsDet hD hp a b h).2⟩
  | pointsGeo a b => exact ⟨(inv_pointsGeo hD hp a b h).1, fun _ => (inv_pointsGeo hD hp a b h).2⟩

theorem history_inv {p0 : Path} {D : PathDetector} (hD : D.frame.Proper) (hp0 : p0.detector = some D) (st : PathStart) (h : st.Ok)
    (os : List PathOp) :
    ∃ q, runOps os (st.set p0) = .ok q ∧ q.Inv D (os.foldl (fun s o => o.spec s) (st.stretch D)).start (os.foldl (fun s o => o.spec s) (st.stretch D)).dir
      ((os.foldl (fun s o => o.spec s) (st.stretch D)).length : EReal) ∧
      (p0.setHits = false → q.Fits D (os.foldl (fun s o => o.spec s) (st.stretch D)).start (os.foldl (fun s o => o.spec s) (st.stretch D)).dir) := by
  obtain ⟨h1, h2⟩ := start_inv hD hp0 st h
  exact ops_inv hD os _ _ h1 (fun hh h3 => by rw [h2 hh] at h3; exact absurd h3 (by simp))

/-! ### C34 -/

/-- C34: through any history of operations on a path, new or used before, set in any of the four ways, no operation fails and the path is the segment that
the operations describe: the last point is the first one plus the distance times the direction, which has length one, and the distance is
never negative, in both coordinate systems. -/
theorem C34_history (D : PathDetector) (hD : D.frame.Proper) (p0 : Path) (hp0 : p0.detector = some D) (st : PathStart) (h : st.Ok) (os : List PathOp) :
    ∃ q, runOps os (st.set p0) = .ok q ∧
      let s := os.foldl (fun s o => o.spec s) (st.stretch D)
      q.Runs D s.start s.dir s.length := by
  obtain ⟨q, h1, h2, -⟩ := history_inv hD hp0 st h os
  exact ⟨q, h1, h2.runs hD⟩

/-- C34: extending or shrinking one end never moves the other, nor changes the direction, and the distance changes by the amount asked for,
down to zero; after any history. -/
theorem C34_far_end (D : PathDetector) (hD : D.frame.Proper) (p0 : Path) (hp0 : p0.detector = some D) (st : PathStart) (h : st.Ok) (os : List PathOp) (p : Path)
    (hp : runOps os (st.set p0) = .ok p) (e : ℝ) :
    (∃ q, p.extendEnd e = .ok q ∧ q.firstPoint = p.firstPoint ∧ q.direction = p.direction ∧ q.distance = max 0 (p.distance + (e : EReal))) ∧
    (∃ q, p.extendStart e = .ok q ∧ q.lastPoint = p.lastPoint ∧ q.direction = p.direction ∧ q.distance = max 0 (p.distance + (e : EReal))) ∧
    (∃ q, p.shrinkEnd e = .ok q ∧ q.firstPoint = p.firstPoint ∧ q.direction = p.direction ∧ q.distance = max 0 (p.distance - (e : EReal))) ∧
    (∃ q, p.shrinkStart e = .ok q ∧ q.lastPoint = p.lastPoint ∧ q.direction = p.direction ∧ q.distance = max 0 (p.distance - (e : EReal))) := by
  obtain ⟨p', h1, h2, -⟩ := history_inv hD hp0 st h os
  rw [hp] at h1
  cases h1
  have hr := h2.runs hD
  generalize os.foldl (fun s o => o.spec s) (st.stretch D) = s at h2 hr
  have hE : ∀ e : ℝ, ∃ q, p.extendEnd e = .ok q ∧ q.firstPoint = p.firstPoint ∧ q.direction = p.direction ∧
      q.distance = max 0 (p.distance + (e : EReal)) := by
    intro e
    obtain ⟨q, g1, g2, -⟩ := h2.extendEnd hD e
    have g := g2.runs hD
    refine ⟨q, g1, by rw [g.first, hr.first], by rw [g.dir, hr.dir], ?_⟩
    rw [g.distance, hr.distance, ← EReal.coe_add, ← EReal.coe_zero]
    exact (EReal.coe_strictMono.monotone.map_max)
  have hS : ∀ e : ℝ, ∃ q, p.extendStart e = .ok q ∧ q.lastPoint = p.lastPoint ∧ q.direction = p.direction ∧
      q.distance = max 0 (p.distance + (e : EReal)) := by
    intro e
    obtain ⟨q, g1, g2, -⟩ := h2.extendStart hD e
    have g := g2.runs hD
    refine ⟨q, g1, by rw [g.last, hr.last, smul_add_smul]; congr 2; ring, by rw [g.dir, hr.dir], ?_⟩
    rw [g.distance, hr.distance, ← EReal.coe_add, ← EReal.coe_zero]
    exact (EReal.coe_strictMono.monotone.map_max)
  refine ⟨hE e, hS e, ?_, ?_⟩
  · obtain ⟨q, g⟩ := hE (-e)
    exact ⟨q, by rw [sub_eq_add_neg]; exact g⟩
  · obtain ⟨q, g⟩ := hS (-e)
    exact ⟨q, by rw [sub_eq_add_neg]; exact g⟩

/-- C34: extending by a distance and then shrinking the same end by the same distance restores the path, in all that its getters tell;
flipping twice does too. -/
theorem C34_restore (D : PathDetector) (hD : D.frame.Proper) (p0 : Path) (hp0 : p0.detector = some D) (st : PathStart) (h : st.Ok) (os : List PathOp) (p : Path)
    (hp : runOps os (st.set p0) = .ok p) (e : ℝ) (he : 0 ≤ e) :
    ∀ os' ∈ [[PathOp.extendEnd e, .shrinkEnd e], [.extendStart e, .shrinkStart e], [.flip, .flip]],
      ∃ q, runOps os' p = .ok q ∧ q.distance = p.distance ∧ q.firstPoint = p.firstPoint ∧ q.lastPoint = p.lastPoint ∧ q.direction = p.direction ∧
        q.geoFirstPoint = p.geoFirstPoint ∧ q.geoLastPoint = p.geoLastPoint ∧ q.geoDirection = p.geoDirection := by
  obtain ⟨p', h1, h2, h3⟩ := history_inv hD hp0 st h os
  rw [hp] at h1
  cases h1
  have hr := h2.runs hD
  generalize os.foldl (fun s o => o.spec s) (st.stretch D) = s at h2 h3 hr
  intro os' ho
  obtain ⟨q, g1, g2, -⟩ := ops_inv hD os' p s h2 h3
  have g := g2.runs hD
  have hn : 0 ≤ s.length := hr.nonneg
  have hs : os'.foldl (fun s o => o.spec s) s = s := by
    obtain ⟨a, u, d⟩ := s
    simp only at hn
    simp only [List.mem_cons, List.not_mem_nil, or_false] at ho
    rcases ho with rfl | rfl | rfl
    · simp only [List.foldl_cons, List.foldl_nil, PathOp.spec, Stretch.endAt]
      rw [max_eq_right (by linarith : 0 ≤ d + e), max_eq_right (by linarith), add_sub_cancel_right]
    · simp only [List.foldl_cons, List.foldl_nil, PathOp.spec, Stretch.startAt]
      rw [max_eq_right (by linarith : 0 ≤ d + e), max_eq_right (by linarith), add_sub_cancel_right, smul_add_smul]
      congr 1
      ext <;> simp
    · simp only [List.foldl_cons, List.foldl_nil, PathOp.spec, Stretch.mk.injEq]
      refine ⟨by ext <;> simp, by ext <;> simp, trivial⟩
  rw [hs] at g
  exact ⟨q, g1, by rw [g.distance, hr.distance], by rw [g.first, hr.first], by rw [g.last, hr.last], by rw [g.dir, hr.dir],
    by rw [g.geoFirst, hr.geoFirst], by rw [g.geoLast, hr.geoLast], by rw [g.geoDir, hr.geoDir]⟩

/-- C34: the operations given by a depth move an end along the path, if they succeed. -/
theorem C34_depth_operations (D : PathDetector) (hD : D.frame.Proper) (p0 : Path) (hp0 : p0.detector = some D) (st : PathStart) (h : st.Ok) (os : List PathOp) (p q : Path)
    (hp : runOps os (st.set p0) = .ok p) (x : ℝ) (k : Depth) :
    let s := os.foldl (fun s o => o.spec s) (st.stretch D)
    (p.extendEndBy x k = .ok q ∨ p.shrinkEndBy x k = .ok q ∨ p.extendEndToDepth x k = .ok q ∨ p.shrinkEndToDepth x k = .ok q →
      ∃ d, q.Runs D s.start s.dir d) ∧
    (p.extendStartBy x k = .ok q ∨ p.shrinkStartBy x k = .ok q ∨ p.extendStartToDepth x k = .ok q ∨ p.shrinkStartToDepth x k = .ok q →
      ∃ d, q.Runs D (s.start + Vec3.smul (s.length - d) s.dir) s.dir d) := by
  obtain ⟨p', h1, h2, h3⟩ := history_inv hD hp0 st h os
  rw [hp] at h1
  cases h1
  simp only
  generalize os.foldl (fun s o => o.spec s) (st.stretch D) = s at h2 h3
  obtain ⟨r, r1, r2, r3, -⟩ := h2.prepare hD h3
  have hE : ∀ (d : Res EReal) (f : Path → ℝ → Res Path), (f = Path.extendEnd ∨ f = Path.shrinkEnd) → p.moveBy d f = .ok q →
      ∃ d, q.Runs D s.start s.dir d := by
    intro d f hf hq
    unfold Path.moveBy at hq
    cases d with
    | throws e => simp [Res.bind] at hq
    | ub => simp [Res.bind] at hq
    | ok d =>
      simp only [Res.bind] at hq
      split_ifs at hq
      rw [r1] at hq
      simp only at hq
      rcases hf with rfl | rfl
      · obtain ⟨q', g1, g2, -⟩ := r2.extendEnd hD d.toReal
        rw [hq] at g1; cases g1
        exact ⟨_, g2.runs hD⟩
      · obtain ⟨q', g1, g2, -⟩ := r2.extendEnd hD (-d.toReal)
        rw [Path.shrinkEnd] at hq
        rw [hq] at g1; cases g1
        exact ⟨_, g2.runs hD⟩
  have hS : ∀ (d : Res EReal) (f : Path → ℝ → Res Path), (f = Path.extendStart ∨ f = Path.shrinkStart) → p.moveBy d f = .ok q →
      ∃ d, q.Runs D (s.start + Vec3.smul (s.length - d) s.dir) s.dir d := by
    intro d f hf hq
    unfold Path.moveBy at hq
    cases d with
    | throws e => simp [Res.bind] at hq
    | ub => simp [Res.bind] at hq
    | ok d =>
      simp only [Res.bind] at hq
      split_ifs at hq
      rw [r1] at hq
      simp only at hq
      rcases hf with rfl | rfl
      · obtain ⟨q', g1, g2, -⟩ := r2.extendStart hD d.toReal
        rw [hq] at g1; cases g1
        exact ⟨_, g2.runs hD⟩
      · obtain ⟨q', g1, g2, -⟩ := r2.extendStart hD (-d.toReal)
        rw [Path.shrinkStart] at hq
        rw [hq] at g1; cases g1
        exact ⟨_, g2.runs hD⟩
  have hT : ∀ (f : ℝ → Res Path) (sign : ℝ), p.shiftToDepth x k f sign = .ok q → (∃ y, f y = .ok q) ∨ q = r := by
    intro f sign hq
    unfold Path.shiftToDepth at hq
    cases hd : p.depthInBounds k with
    | throws e => rw [hd] at hq; simp [Res.bind] at hq
    | ub => rw [hd] at hq; simp [Res.bind] at hq
    | ok t =>
      rw [hd] at hq
      simp only [Res.bind] at hq
      split_ifs at hq
      · exact Or.inl ⟨_, hq⟩
      · rw [r1] at hq; cases hq; exact Or.inr rfl
  have hr0 : ∃ d, r.Runs D (s.start + Vec3.smul (s.length - d) s.dir) s.dir d := by
    refine ⟨s.length, ?_⟩
    rw [sub_self, smul_zero']
    exact r2.runs hD
  constructor
  · rintro (hq | hq | hq | hq)
    · exact hE _ _ (Or.inl rfl) hq
    · exact hE _ _ (Or.inr rfl) hq
    · rcases hT _ _ hq with ⟨y, hy⟩ | rfl
      · exact hE _ _ (Or.inl rfl) hy
      · exact ⟨_, r2.runs hD⟩
    · rcases hT _ _ hq with ⟨y, hy⟩ | rfl
      · exact hE _ _ (Or.inr rfl) hy
      · exact ⟨_, r2.runs hD⟩
  · rintro (hq | hq | hq | hq)
    · exact hS _ _ (Or.inl rfl) hq
    · exact hS _ _ (Or.inr rfl) hq
    · rcases hT _ _ hq with ⟨y, hy⟩ | rfl
      · exact hS _ _ (Or.inl rfl) hy
      · exact hr0
    · rcases hT _ _ hq with ⟨y, hy⟩ | rfl
      · exact hS _ _ (Or.inr rfl) hy
      · exact hr0

theorem clip_inv {D : PathDetector} (hD : D.frame.Proper) (hcast : ∀ x v, (D.cast x v).position = x ∧ (D.cast x v).direction = v)
    {p q : Path} {a u : Vec3 ℝ} {d : EReal} (hp : p.prepare = .ok q) (hq : q.Inv D a u d) (hf : q.Fits D a u) (hg : q.setGeo = true)
    (hh : q.setHits = true) {b0 b1 : Hit EReal} (hb : outerBounds q.hits.hits = [b0, b1]) {c0 c1 : ℝ} (h0 : b0.distance = (c0 : EReal))
    (h1 : b1.distance = (c1 : EReal)) (hlt : c0 < c1) :
    ∃ s0 s1 : ℝ, s0 < s1 ∧
      ((q.hits.position + Vec3.smul c0 q.hits.direction = D.frame.toGeo (a + Vec3.smul s0 u) ∧
        q.hits.position + Vec3.smul c1 q.hits.direction = D.frame.toGeo (a + Vec3.smul s1 u)) ∨
       (q.hits.position + Vec3.smul c1 q.hits.direction = D.frame.toGeo (a + Vec3.smul s0 u) ∧
        q.hits.position + Vec3.smul c0 q.hits.direction = D.frame.toGeo (a + Vec3.smul s1 u))) ∧
      ((max 0 s0 : ℝ) ≤ (min d (s1 : EReal)).toReal → ∃ r, p.clip = .ok r ∧
        r.Runs D (a + Vec3.smul (max 0 s0) u) u ((min d (s1 : EReal)).toReal - max 0 s0)) ∧
      ((min d (s1 : EReal)).toReal < (max 0 s0 : ℝ) → ∃ r, p.clip = .ok r ∧
        r.firstPoint = a + Vec3.smul (max 0 s0) u ∧ r.lastPoint = a + Vec3.smul (min d (s1 : EReal)).toReal u ∧ r.direction = u ∧
        r.distance = ((max 0 s0 - (min d (s1 : EReal)).toReal : ℝ) : EReal)) := by
  obtain ⟨s0, s1, hs, hpts, r, e1, e2, e3, e4, e5, e6, e7, e8, e9, e10, e11⟩ := clip_core hD hcast hp hq hf hg hh hb h0 h1 hlt
  refine ⟨s0, s1, hs, hpts, ?_, ?_⟩
  · intro hle
    refine ⟨r, e1, Inv.runs hD ⟨e4, Or.inl e2, fun _ => ⟨e8, e7, fun _ => ?_⟩, by simp [e3], e10 hle, ?_, hq.unit, e5, ?_⟩⟩
    · rw [e9, EReal.toReal_coe, smul_add_smul]; congr 3; ring
    · exact_mod_cast sub_nonneg.2 hle
    · rw [e6, decide_eq_false (EReal.coe_ne_top _)]
  · intro hgt
    refine ⟨r, e1, ?_, ?_, ?_, e11 hgt⟩
    · show r.update.det.first = _
      rw [update_of_geo e4 e2 e3]
      simp [PathDetector.detSeg, e8, (Frame.C28_inverse hD _ u).1]
    · show r.update.det.last = _
      rw [update_of_geo e4 e2 e3]
      simp [PathDetector.detSeg, e9, (Frame.C28_inverse hD _ u).1]
    · show r.update.det.dir = _
      rw [update_of_geo e4 e2 e3]
      simp [PathDetector.detSeg, e7, (Frame.C28_inverse hD a u).2.2.1]

/-- C34: clipping to the outer bounds, after any history, gives the part of the path between the outer bounds, provided that there is one.
`s0` and `s1` are the distances along the path of the two outer crossings. If there is none, the new distance is that between the first
point and the last one, which then lies against the direction. -/
theorem C34_clip (D : PathDetector) (hD : D.frame.Proper) (hcast : ∀ x v, (D.cast x v).position = x ∧ (D.cast x v).direction = v)
    (st : PathStart) (h : st.Ok) (os : List PathOp) (p q : Path) (hp : runOps os (st.build D) = .ok p) (hq : p.prepare = .ok q)
    {b0 b1 : Hit EReal} (hb : outerBounds q.hits.hits = [b0, b1]) {c0 c1 : ℝ} (h0 : b0.distance = (c0 : EReal))
    (h1 : b1.distance = (c1 : EReal)) (hlt : c0 < c1) :
    let s := os.foldl (fun s o => o.spec s) (st.stretch D)
    ∃ s0 s1 : ℝ, s0 < s1 ∧
      ((q.hits.position + Vec3.smul c0 q.hits.direction = D.frame.toGeo (s.start + Vec3.smul s0 s.dir) ∧
        q.hits.position + Vec3.smul c1 q.hits.direction = D.frame.toGeo (s.start + Vec3.smul s1 s.dir)) ∨
       (q.hits.position + Vec3.smul c1 q.hits.direction = D.frame.toGeo (s.start + Vec3.smul s0 s.dir) ∧
        q.hits.position + Vec3.smul c0 q.hits.direction = D.frame.toGeo (s.start + Vec3.smul s1 s.dir))) ∧
      (max 0 s0 ≤ min s.length s1 → ∃ r, p.clip = .ok r ∧
        r.Runs D (s.start + Vec3.smul (max 0 s0) s.dir) s.dir (min s.length s1 - max 0 s0)) ∧
      (min s.length s1 < max 0 s0 → ∃ r, p.clip = .ok r ∧
        r.firstPoint = s.start + Vec3.smul (max 0 s0) s.dir ∧ r.lastPoint = s.start + Vec3.smul (min s.length s1) s.dir ∧ r.direction = s.dir ∧
        r.distance = ((max 0 s0 - min s.length s1 : ℝ) : EReal)) := by
  obtain ⟨p', g1, g2, g3⟩ := history_inv (p0 := Path.new (some D)) hD rfl st h os
  have g3 := g3 rfl
  rw [show st.set (Path.new (some D)) = st.build D from rfl, hp] at g1
  cases g1
  simp only
  generalize os.foldl (fun s o => o.spec s) (st.stretch D) = s at g2 g3
  obtain ⟨r, r1, r2, r3, r4, r5, -⟩ := g2.prepare hD (fun _ : True => g3)
  rw [hq] at r1
  cases r1
  obtain ⟨s0, s1, hs, hpts, hA, hB⟩ := clip_inv hD hcast hq r2 (r3 trivial) r4 r5 hb h0 h1 hlt
  have hm : (min (s.length : EReal) (s1 : EReal)).toReal = min s.length s1 := by
    rw [← EReal.coe_strictMono.monotone.map_min, EReal.toReal_coe]
  rw [hm] at hA hB
  exact ⟨s0, s1, hs, hpts, hA, hB⟩

theorem prepare_fresh {p q : Path} {D : PathDetector} (hD : D.frame.Proper) {a u : Vec3 ℝ} {d : EReal} (h : p.Inv D a u d) (hh : p.setHits = false)
    (hq : p.prepare = .ok q) : q.hits = D.cast (D.frame.toGeo a) (D.frame.toGeoDir u) := by
  unfold Path.prepare Path.computeIntersections at hq
  rw [hh, h.det, h.ensurePoints hD] at hq
  obtain ⟨hu, hg, hd⟩ := h.update hD
  simp only [Res.bind, Bool.false_eq_true, if_false] at hq
  rw [if_neg (by simp [hu.firstInf])] at hq
  obtain ⟨g1, g2, g3⟩ := hu.geo hg
  have hi : Path.Inv { p.update with hits := D.cast p.update.geo.first p.update.geo.dir, setHits := true } D a u d :=
    ⟨hu.det, hu.any, hu.geo, hu.dets, hu.dist, hu.nonneg, hu.unit, hu.firstInf, hu.lastInf⟩
  simp only at hq
  rw [hi.ensurePoints hD] at hq
  cases hq
  rw [(update_hits _).2, g1, g2]

theorem toGeo_inj {D : PathDetector} (hD : D.frame.Proper) {a u : Vec3 ℝ} (hu : Vec3.dot u u = 1) {s t : ℝ}
    (h : D.frame.toGeo (a + Vec3.smul s u) = D.frame.toGeo (a + Vec3.smul t u)) : s = t := by
  have h' := congrArg D.frame.toDet h
  rw [(Frame.C28_inverse hD _ u).1, (Frame.C28_inverse hD _ u).1] at h'
  have hx : (s - t) * Vec3.dot u u = 0 := by
    have h1 := congrArg Vec3.x h'
    have h2 := congrArg Vec3.y h'
    have h3 := congrArg Vec3.z h'
    simp only [Vec3.add_x, Vec3.add_y, Vec3.add_z, Vec3.smul_x, Vec3.smul_y, Vec3.smul_z] at h1 h2 h3
    simp only [Vec3.dot]
    linear_combination u.x * h1 + u.y * h2 + u.z * h3
  rw [hu, mul_one] at hx
  linarith

/-- C34: clipping an infinite ray gives the part of it between the outer bounds, which are at the distances `c0` and `c1` along it. -/
theorem C34_clip_ray (D : PathDetector) (hD : D.frame.Proper) (hcast : ∀ x v, (D.cast x v).position = x ∧ (D.cast x v).direction = v)
    (a v : Vec3 ℝ) (hv : Vec3.norm v ≠ 0) (q : Path) (hq : ((Path.new (some D)).setRayDet a v ⊤).prepare = .ok q)
    {b0 b1 : Hit EReal} (hb : outerBounds q.hits.hits = [b0, b1]) {c0 c1 : ℝ} (h0 : b0.distance = (c0 : EReal))
    (h1 : b1.distance = (c1 : EReal)) (hlt : c0 < c1) (hpos : 0 ≤ c1) :
    ∃ r, ((Path.new (some D)).setRayDet a v ⊤).clip = .ok r ∧
        r.Runs D (a + Vec3.smul (max 0 c0) (Vec3.normalize v)) (Vec3.normalize v) (c1 - max 0 c0) := by
  obtain ⟨i1, i2⟩ := inv_rayDet (p := Path.new (some D)) hD rfl a v hv ⊤ le_top
  have i2 := i2 rfl
  have hf : ((Path.new (some D)).setRayDet a v ⊤).Fits D a (Vec3.normalize v) := fun hh => by rw [i2] at hh; exact absurd hh (by simp)
  obtain ⟨r, r1, r2, r3, r4, r5, r6⟩ := i1.prepare hD (fun _ : True => hf)
  rw [hq] at r1
  cases r1
  obtain ⟨s0, s1, hs, hpts, hA, -⟩ := clip_inv hD hcast hq r2 (r3 trivial) r4 r5 hb h0 h1 hlt
  rw [prepare_fresh hD i1 i2 hq, (hcast _ _).1, (hcast _ _).2, toGeo_move hD, toGeo_move hD] at hpts
  have hu := i1.unit
  have : c0 = s0 ∧ c1 = s1 := by
    rcases hpts with ⟨e1, e2⟩ | ⟨e1, e2⟩
    · exact ⟨toGeo_inj hD hu e1, toGeo_inj hD hu e2⟩
    · have := toGeo_inj hD hu e1
      have := toGeo_inj hD hu e2
      linarith
  rw [← this.1, ← this.2, min_eq_right le_top, EReal.toReal_coe] at hA
  exact hA (max_le hpos hlt.le)

/-- A detector whose coordinate systems coincide, with one sector between the distances 2 and 3 along every line. -/
noncomputable def sample : PathDetector :=
  ⟨⟨0, ⟨0, 0, 0, 1⟩⟩, ⟨[], fun _ _ => 0⟩, fun x v => ⟨x, v, [⟨(2 : ℝ), 1, true⟩, ⟨(3 : ℝ), 1, false⟩]⟩⟩

theorem sample_proper : sample.frame.Proper := Or.inl (by simp [sample, Quat.IsUnit, Quat.normSq])

theorem sample_toGeo (x : Vec3 ℝ) : sample.frame.toGeo x = x ∧ sample.frame.toGeoDir x = x := by
  constructor
  · simp [sample, Frame.toGeo, Quat.rotate, Quat.sandwich, Quat.normSq]
    ext <;> simp
  · simp [sample, Frame.toGeoDir, Quat.rotate, Quat.sandwich, Quat.normSq]

theorem unitZ : Vec3.norm (⟨0, 0, 1⟩ : Vec3 ℝ) = 1 ∧ Vec3.normalize (⟨0, 0, 1⟩ : Vec3 ℝ) = ⟨0, 0, 1⟩ := by
  have : Vec3.norm (⟨0, 0, 1⟩ : Vec3 ℝ) = 1 := by simp [Vec3.norm, Vec3.dot]
  exact ⟨this, by simp [Vec3.normalize, this]⟩

/-- C34 fails for paths that do not meet the outer bounds: clipped, their last point lies against the direction of the path from the first
one, and is not where first point, direction and distance say (Path.cxx:296-309). -/
theorem C34_clip_fails : ∃ (D : PathDetector) (st : PathStart), D.frame.Proper ∧ st.Ok ∧ ∃ r, (st.build D).clip = .ok r ∧ r.distance = ((1 : ℝ) : EReal) ∧
    r.firstPoint = ⟨0, 0, 2⟩ ∧ r.direction = ⟨0, 0, 1⟩ ∧ r.lastPoint = ⟨0, 0, 1⟩ := by
  have hok : (PathStart.rayDet 0 ⟨0, 0, 1⟩ 1).Ok := ⟨by rw [unitZ.1]; exact one_ne_zero, zero_le_one⟩
  refine ⟨sample, .rayDet 0 ⟨0, 0, 1⟩ 1, sample_proper, hok, ?_⟩
  obtain ⟨i1, i2⟩ := start_inv (p := Path.new (some sample)) sample_proper rfl _ hok
  obtain ⟨q, q1, -⟩ := i1.prepare sample_proper (F := False) (by simp)
  have hh := prepare_fresh sample_proper i1 (i2 rfl) q1
  obtain ⟨s0, s1, hs, hpts, -, hB⟩ := C34_clip sample sample_proper (fun _ _ => ⟨rfl, rfl⟩) _ hok [] _ q rfl q1
    (b0 := ⟨(2 : ℝ), 1, true⟩) (b1 := ⟨(3 : ℝ), 1, false⟩) (by rw [hh]; rfl) rfl rfl (by norm_num)
  rw [hh] at hpts
  simp only [List.foldl_nil, PathStart.stretch, sample_toGeo, unitZ.2] at hpts hB
  have hS : s0 = 2 ∧ s1 = 3 := by
    rcases hpts with ⟨e1, e2⟩ | ⟨e1, e2⟩
    · have e1 := congrArg Vec3.z e1
      have e2 := congrArg Vec3.z e2
      simp [sample] at e1 e2
      exact ⟨e1.symm, e2.symm⟩
    · have e1 := congrArg Vec3.z e1
      have e2 := congrArg Vec3.z e2
      simp [sample] at e1 e2
      linarith
  rw [hS.1, hS.2] at hB
  norm_num at hB
  obtain ⟨r, r1, r2, r3, r4, r5⟩ := hB
  refine ⟨r, r1, by rw [r5]; rfl, ?_, r4, ?_⟩
  · rw [r2]; ext <;> simp
  · rw [r3]; ext <;> simp

/-- C34 fails for rays of negative distance: `GetDistance` is negative (Path.cxx:217-251). -/
theorem C34_negative_ray_fails (D : PathDetector) (a v : Vec3 ℝ) :
    ((Path.new (some D)).setRayDet a v ((-1 : ℝ) : EReal)).distance = ((-1 : ℝ) : EReal) := rfl

/-- C34 fails for paths between equal points: they have no direction, so that extending them changes the distance but not the end. -/
theorem C34_degenerate_fails (a : Vec3 ℝ) : ∃ q, ((Path.new (some sample)).setPointsDet a a).extendEnd 1 = .ok q ∧ q.distance = ((1 : ℝ) : EReal) ∧
    q.firstPoint = a ∧ q.lastPoint = a := by
  have h0 : Vec3.norm (a - a) = 0 := by simp [Vec3.norm, Vec3.dot]
  have h1 : Vec3.normalize (a - a) = 0 := by ext <;> simp [Vec3.normalize]
  have e : (Path.new (some sample)).setPointsDet a a =
      { Path.new (some sample) with det := ⟨a, a, 0⟩, geo := ⟨a, a, 0⟩, distance := ((0 : ℝ) : EReal), setGeo := true, setDet := true } := by
    unfold Path.setPointsDet
    rw [update_of_det (D := sample) rfl rfl rfl, h0, h1]
    simp [PathDetector.geoSeg, sample_toGeo, Path.new]
  rw [e]
  unfold Path.extendEnd Path.ensurePoints
  rw [update_of_both rfl rfl]
  simp only [Path.new, if_true, Res.bind, Bool.false_eq_true, if_false]
  rw [if_neg (by simp)]
  refine ⟨_, rfl, by simp, ?_, ?_⟩
  · show (Path.update _).det.first = a
    rw [update_of_geo (D := sample) rfl rfl rfl]
    have := (Frame.C28_inverse sample_proper a a).1
    rw [(sample_toGeo a).1] at this
    exact this
  · show (Path.update _).det.last = a
    rw [update_of_geo (D := sample) rfl rfl rfl]
    have := (Frame.C28_inverse sample_proper a a).1
    rw [(sample_toGeo a).1] at this
    simp only [PathDetector.detSeg]
    rw [show a + Vec3.smul 1 0 = a by ext <;> simp]
    exact this

/-! ### C35: points -/

/-- The distance along a path at which a point projects onto it. -/
def along (s : Stretch) (y : Vec3 ℝ) : ℝ := Vec3.dot s.dir (y - s.start)

theorem project {D : PathDetector} (hD : D.frame.Proper) (a u y : Vec3 ℝ) :
    Vec3.dot (D.frame.toGeoDir u) (D.frame.toGeo y - D.frame.toGeo a) = Vec3.dot u (y - a) := by
  rw [Frame.toGeo_sub hD, (Frame.C28_isometry hD a a u (y - a)).2.2.1]

/-- C35: for a path after any history, the test of a point in geometry coordinates is exactly whether it projects onto the path, that in
detector coordinates allows one more millimetre on either side. -/
theorem C35_within (D : PathDetector) (hD : D.frame.Proper) (p0 : Path) (hp0 : p0.detector = some D) (st : PathStart) (h : st.Ok) (os : List PathOp)
    (p : Path) (hp : runOps os (st.set p0) = .ok p) (y : Vec3 ℝ) :
    let s := os.foldl (fun s o => o.spec s) (st.stretch D)
    p.withinGeo (D.frame.toGeo y) = .ok (decide (0 ≤ along s y ∧ along s y ≤ s.length)) ∧
    p.withinDet y = .ok (decide (-1e-3 < along s y ∧ along s y < s.length + 1e-3)) := by
  obtain ⟨p', h1, h2, -⟩ := history_inv hD hp0 st h os
  rw [hp] at h1
  cases h1
  simp only
  generalize os.foldl (fun s o => o.spec s) (st.stretch D) = s at h2
  obtain ⟨hu, hg, hd⟩ := h2.update hD
  obtain ⟨g1, g2, g3⟩ := hu.geo hg
  obtain ⟨d1, d2, d3⟩ := hu.dets hd
  have g3 := g3 (EReal.coe_ne_top _)
  have d3 := d3 (EReal.coe_ne_top _)
  have hl : p.update.lastInf = false := by rw [hu.lastInf]; exact decide_eq_false (EReal.coe_ne_top _)
  rw [EReal.toReal_coe] at g3 d3
  have neg : ∀ a b c : Vec3 ℝ, Vec3.dot a (b - c) = -Vec3.dot a (c - b) := by intro a b c; simp [Vec3.dot]; ring
  have e1 : Vec3.dot s.dir (s.start - y) = -along s y := neg _ _ _
  have e2 : Vec3.dot s.dir (s.start + Vec3.smul s.length s.dir - y) = s.length - along s y := by
    have : Vec3.dot s.dir (s.start + Vec3.smul s.length s.dir - y) = s.length * Vec3.dot s.dir s.dir - along s y := by
      simp [along, Vec3.dot]; ring
    rw [this, h2.unit, mul_one]
  constructor
  · unfold Path.withinGeo
    simp only [hu.firstInf, hl, hg, Bool.or_self, Bool.false_eq_true, if_false, if_true, g1, g2, g3, Frame.toGeo_sub hD, (Frame.C28_isometry hD s.start s.start _ _).2.2.1, e1, e2]
    congr 1
    rw [Bool.eq_iff_iff]
    simp
  · unfold Path.withinDet
    simp only [hu.firstInf, hl, hd, Bool.or_self, Bool.false_eq_true, if_false, if_true, d1, d2, d3, e1, e2]
    congr 1
    rw [Bool.eq_iff_iff]
    simp only [Bool.and_eq_true, decide_eq_true_eq]
    apply and_congr
    · split_ifs with hc
      · simp only [le_refl, true_iff]; linarith [hc.2]
      · constructor
        · intro h'; linarith
        · intro h'
          by_contra h''
          exact hc ⟨by linarith, by linarith⟩
    · split_ifs with hc
      · simp only [le_refl, true_iff]; linarith [hc.2]
      · constructor
        · intro h'; linarith
        · intro h'
          by_contra h''
          exact hc ⟨by linarith, by linarith⟩

/-- C35 fails at the margins: there are points for which the two versions of `IsWithinBounds` disagree (Path.cxx:858-863), for every path. -/
theorem C35_within_fails (D : PathDetector) (hD : D.frame.Proper) (p0 : Path) (hp0 : p0.detector = some D) (st : PathStart) (h : st.Ok)
    (os : List PathOp) (p : Path) (hp : runOps os (st.set p0) = .ok p) :
    ∃ y, p.withinGeo (D.frame.toGeo y) = .ok false ∧ p.withinDet y = .ok true := by
  obtain ⟨p', h1, h2, -⟩ := history_inv hD hp0 st h os
  rw [hp] at h1
  cases h1
  have hn : (0 : ℝ) ≤ (os.foldl (fun s o => o.spec s) (st.stretch D)).length := by exact_mod_cast h2.nonneg
  have hu := h2.unit
  refine ⟨(os.foldl (fun s o => o.spec s) (st.stretch D)).start + Vec3.smul (-5e-4) (os.foldl (fun s o => o.spec s) (st.stretch D)).dir, ?_⟩
  obtain ⟨w1, w2⟩ := C35_within D hD p0 hp0 st h os p hp
    ((os.foldl (fun s o => o.spec s) (st.stretch D)).start + Vec3.smul (-5e-4) (os.foldl (fun s o => o.spec s) (st.stretch D)).dir)
  generalize os.foldl (fun s o => o.spec s) (st.stretch D) = s at *
  have e : along s (s.start + Vec3.smul (-5e-4) s.dir) = -5e-4 := by
    have : along s (s.start + Vec3.smul (-5e-4) s.dir) = -5e-4 * Vec3.dot s.dir s.dir := by simp [along, Vec3.dot]; ring
    rw [this, hu, mul_one]
  rw [w1, w2, e]
  constructor
  · congr 1; exact decide_eq_false (by norm_num)
  · congr 1; exact decide_eq_true ⟨by norm_num, by linarith⟩

/-- C35: the distance of a point from the start is where it projects onto the line of the path, and zero before the start; both versions
agree. It is not bounded by the length of the path. -/
theorem C35_point (D : PathDetector) (hD : D.frame.Proper) (p0 : Path) (hp0 : p0.detector = some D) (st : PathStart) (h : st.Ok) (os : List PathOp)
    (p : Path) (hp : runOps os (st.set p0) = .ok p) (y : Vec3 ℝ) :
    let s := os.foldl (fun s o => o.spec s) (st.stretch D)
    p.pointFromStartGeo (D.frame.toGeo y) = .ok (max 0 (along s y)) ∧ p.pointFromStartDet y = .ok (max 0 (along s y)) := by
  obtain ⟨p', h1, h2, -⟩ := history_inv hD hp0 st h os
  rw [hp] at h1
  cases h1
  simp only
  generalize os.foldl (fun s o => o.spec s) (st.stretch D) = s at h2
  obtain ⟨hu, hg, hd⟩ := h2.update hD
  obtain ⟨g1, g2, -⟩ := hu.geo hg
  obtain ⟨d1, d2, -⟩ := hu.dets hd
  constructor
  · unfold Path.pointFromStartGeo
    simp only [hu.firstInf, hg, Bool.false_eq_true, if_false, if_true, g1, g2, project hD]
    rfl
  · unfold Path.pointFromStartDet
    simp only [hu.firstInf, hd, Bool.false_eq_true, if_false, if_true, d1, d2]
    rfl

/-- C35 fails for the distance of a point: for every path there are points whose distance from the start "in bounds" is beyond its end
(Path.cxx:837-847, 870-881). -/
theorem C35_point_fails (D : PathDetector) (hD : D.frame.Proper) (p0 : Path) (hp0 : p0.detector = some D) (st : PathStart) (h : st.Ok)
    (os : List PathOp) (p : Path) (hp : runOps os (st.set p0) = .ok p) :
    ∃ y d, p.pointFromStartDet y = .ok d ∧ p.distance < (d : EReal) := by
  obtain ⟨p', h1, h2, -⟩ := history_inv hD hp0 st h os
  rw [hp] at h1
  cases h1
  have hn : (0 : ℝ) ≤ (os.foldl (fun s o => o.spec s) (st.stretch D)).length := by exact_mod_cast h2.nonneg
  have hu := h2.unit
  have hd := h2.dist
  refine ⟨_, _, (C35_point D hD p0 hp0 st h os p hp ((os.foldl (fun s o => o.spec s) (st.stretch D)).start +
    Vec3.smul ((os.foldl (fun s o => o.spec s) (st.stretch D)).length + 1) (os.foldl (fun s o => o.spec s) (st.stretch D)).dir)).2, ?_⟩
  generalize os.foldl (fun s o => o.spec s) (st.stretch D) = s at *
  have e : along s (s.start + Vec3.smul (s.length + 1) s.dir) = s.length + 1 := by
    have : along s (s.start + Vec3.smul (s.length + 1) s.dir) = (s.length + 1) * Vec3.dot s.dir s.dir := by simp [along, Vec3.dot]; ring
    rw [this, hu, mul_one]
  rw [hd, e, max_eq_right (by linarith)]
  exact_mod_cast lt_add_one _

/-! ### C65: cached intersections -/

/-- C65: after any history on a path that was new or without cached intersections, or was set between two points, the cached intersections
are those of the detector for the line on which the path lies. -/
theorem C65_history (D : PathDetector) (hD : D.frame.Proper) (p0 : Path) (hp0 : p0.detector = some D) (st : PathStart) (h : st.Ok)
    (hfresh : p0.setHits = false ∨ ∃ a b, st = .pointsDet a b ∨ st = .pointsGeo a b) (os : List PathOp) :
    ∃ q, runOps os (st.set p0) = .ok q ∧ q.CacheFits D := by
  obtain ⟨h1, h2⟩ := start_inv hD hp0 st h
  have h3 : (st.set p0).setHits = false := by
    rcases hfresh with hf | ⟨a, b, rfl | rfl⟩
    · exact h2 hf
    · exact (inv_pointsDet hD hp0 a b h).2
    · exact (inv_pointsGeo hD hp0 a b h).2
  obtain ⟨q, q1, q2, q3⟩ := ops_inv hD (F := True) os _ _ h1 (fun _ hh => by rw [h3] at hh; exact absurd hh (by simp))
  refine ⟨q, q1, fun hh => ?_⟩
  obtain ⟨x, v, hv, hx, ht, hu⟩ := q3 trivial hh
  have hr := q2.runs hD
  exact ⟨x, v, hv, hx, by rw [hr.geoFirst]; exact ht, by rw [hr.geoDir]; exact hu⟩

/-- A path of length 1 from the origin along z in the sample detector. -/
noncomputable def sampleStart : PathStart := .rayDet 0 ⟨0, 0, 1⟩ 1

theorem sampleStart_ok : sampleStart.Ok := ⟨by rw [unitZ.1]; exact one_ne_zero, zero_le_one⟩

/-- The same with cached intersections. -/
theorem sample_prepared : ∃ q, (sampleStart.build sample).prepare = .ok q ∧ q.Inv sample 0 ⟨0, 0, 1⟩ ((1 : ℝ) : EReal) ∧ q.setHits = true ∧
    q.setGeo = true ∧ q.setDet = true ∧ q.hits = ⟨0, ⟨0, 0, 1⟩, [⟨(2 : ℝ), 1, true⟩, ⟨(3 : ℝ), 1, false⟩]⟩ := by
  obtain ⟨i1, i2⟩ := start_inv (p := Path.new (some sample)) sample_proper rfl _ sampleStart_ok
  obtain ⟨q, q1, q2, -, q3, q4, -, q5⟩ := i1.prepare sample_proper (F := False) (by simp)
  have hh := prepare_fresh sample_proper i1 (i2 rfl) q1
  simp only [sampleStart, PathStart.stretch, unitZ.2, sample_toGeo] at q2 hh
  exact ⟨q, q1, q2, q4, q3, q5, hh⟩

/-- C65 fails for `SetDetectorModel`: the intersections with the old detector stay in the cache and are used for the new one
(Path.cxx:138-145, 272-276). -/
theorem C65_detector_fails : ∃ (D D' : PathDetector) (st : PathStart) (q : Path), D.frame.Proper ∧ D'.frame = D.frame ∧ st.Ok ∧
    (st.build D).prepare = .ok q ∧ q.CacheFits D ∧ (q.setDetector D').setHits = true ∧ ¬ (q.setDetector D').CacheFits D' := by
  obtain ⟨q, q1, q2, q3, q4, q5, q6⟩ := sample_prepared
  have hs : (q.setDetector { sample with cast := fun x v => ⟨x, v, []⟩ }).setHits = true ∧
      (q.setDetector { sample with cast := fun x v => ⟨x, v, []⟩ }).hits = q.hits := by
    unfold Path.setDetector
    simp only [q2.det, q5, Option.isSome_some, Bool.and_self, if_true]
    rw [(update_hits _).1, (update_hits _).2]
    exact ⟨q3, rfl⟩
  refine ⟨sample, { sample with cast := fun x v => ⟨x, v, []⟩ }, sampleStart, q, sample_proper, rfl, sampleStart_ok, q1, ?_, hs.1, ?_⟩
  · obtain ⟨q', h1, h2⟩ := C65_history sample sample_proper (Path.new (some sample)) rfl sampleStart sampleStart_ok (Or.inl rfl) [.prepare]
    have : q' = q := by
      simp only [runOps, PathOp.run] at h1
      rw [show sampleStart.set (Path.new (some sample)) = sampleStart.build sample from rfl, q1] at h1
      simp only [Res.bind] at h1
      cases h1
      rfl
    exact this ▸ h2
  · intro hc
    obtain ⟨x, v, -, hx, -⟩ := hc hs.1
    rw [hs.2, q6] at hx
    have := congrArg Line.hits hx
    simp at this

theorem setDetector_geo {p : Path} (D' : PathDetector) (hg : p.setGeo = true) (hd : p.setDet = false) :
    (p.setDetector D').firstPoint = D'.frame.toDet p.geo.first := by
  cases p with
  | mk d sg sd g dt di fi li sh h =>
    simp only at hg hd
    subst hg hd
    cases d <;> rfl

theorem setDetector_det {p : Path} {D : PathDetector} (D' : PathDetector) (hp : p.detector = some D) (hd : p.setDet = true) :
    (p.setDetector D').firstPoint = p.det.first := by
  cases p with
  | mk d sg sd g dt di fi li sh h =>
    simp only at hp hd
    subst hp hd
    rfl

/-- C65 fails for `SetDetectorModel` in another way: which of the points stay where they are, those in detector coordinates or those in
geometry coordinates, depends on whether a getter was called before. -/
theorem C65_hidden_state_fails : ∃ (D D' : PathDetector) (st : PathStart) (p : Path), D.frame.Proper ∧ D'.frame.Proper ∧ st.Ok ∧
    runOps [.extendEnd 1] (st.build D) = .ok p ∧ (p.setDetector D').firstPoint ≠ (p.update.setDetector D').firstPoint := by
  obtain ⟨i1, -⟩ := start_inv (p := Path.new (some sample)) sample_proper rfl _ sampleStart_ok
  obtain ⟨hu, hg, hd⟩ := i1.update sample_proper
  obtain ⟨g1, -⟩ := hu.geo hg
  have hrot : ∀ x : Vec3 ℝ, (⟨⟨0, 0, 5⟩, ⟨0, 0, 0, 1⟩⟩ : Frame).toDet x = x - ⟨0, 0, 5⟩ := by
    intro x
    simp [Frame.toDet, Quat.rotate, Quat.sandwich, Quat.normSq]
    try (ext <;> simp)
  have hdet : ∀ x : Vec3 ℝ, sample.frame.toDet x = x := by
    intro x
    have := (Frame.C28_inverse sample_proper x x).1
    rwa [(sample_toGeo x).1] at this
  obtain ⟨p, p1, p2, p3, p4, p5⟩ : ∃ p, runOps [.extendEnd 1] (sampleStart.build sample) = .ok p ∧ p.setGeo = true ∧ p.setDet = false ∧
      p.detector = some sample ∧ p.geo.first = 0 := by
    simp only [runOps, PathOp.run, Path.extendEnd]
    rw [show sampleStart.build sample = sampleStart.set (Path.new (some sample)) from rfl, i1.ensurePoints sample_proper]
    simp only [Res.bind]
    have hl : (sampleStart.set (Path.new (some sample))).update.lastInf = false := by
      rw [hu.lastInf]; exact decide_eq_false (EReal.coe_ne_top _)
    rw [if_neg (by simp [hl])]
    split_ifs
    · exact ⟨_, rfl, hg, rfl, hu.det, g1.trans (sample_toGeo _).1⟩
    · exact ⟨_, rfl, hg, rfl, hu.det, g1.trans (sample_toGeo _).1⟩
  refine ⟨sample, { sample with frame := ⟨⟨0, 0, 5⟩, ⟨0, 0, 0, 1⟩⟩ }, sampleStart, p, sample_proper, Or.inl (by simp [Quat.IsUnit, Quat.normSq]),
    sampleStart_ok, p1, ?_⟩
  have e1 : (p.setDetector { sample with frame := ⟨⟨0, 0, 5⟩, ⟨0, 0, 0, 1⟩⟩ }).firstPoint = ⟨0, 0, -5⟩ := by
    rw [setDetector_geo _ p2 p3, p5]
    simp only [hrot]
    ext <;> simp
  have e2 : (p.update.setDetector { sample with frame := ⟨⟨0, 0, 5⟩, ⟨0, 0, 0, 1⟩⟩ }).firstPoint = 0 := by
    rw [update_of_geo p4 p2 p3]
    refine (setDetector_det (p := { p with det := sample.detSeg p.geo, setDet := true }) (D := sample) _ p4 rfl).trans ?_
    simp [PathDetector.detSeg, p5, hdet]
  rw [e1, e2]
  intro h
  have := congrArg Vec3.z h
  simp at this

/-- C65 holds only up to a tolerance for `SetPointsWithRay` on a path with cached intersections: those of a line a tenth of a micrometre
away are kept (Path.cxx:188-199, 221-234). -/
theorem C65_ray_fails : ∃ (D : PathDetector) (p : Path) (st : PathStart), D.frame.Proper ∧ p.detector = some D ∧ p.CacheFits D ∧ st.Ok ∧
    (st.set p).setHits = true ∧ ¬ (st.set p).CacheFits D := by
  obtain ⟨q, q1, q2, q3, q4, q5, q6⟩ := sample_prepared
  have hr := q2.runs sample_proper
  have hok : (PathStart.rayDet ⟨1e-7, 0, 0⟩ ⟨0, 0, 1⟩ 1).Ok := ⟨by rw [unitZ.1]; exact one_ne_zero, zero_le_one⟩
  obtain ⟨i1, -⟩ := start_inv (p := q) sample_proper q2.det _ hok
  have hr' := i1.runs sample_proper
  have hs : ((PathStart.rayDet ⟨1e-7, 0, 0⟩ ⟨0, 0, 1⟩ 1).set q).setHits = true ∧ ((PathStart.rayDet ⟨1e-7, 0, 0⟩ ⟨0, 0, 1⟩ 1).set q).hits = q.hits := by
    simp only [PathStart.set]
    unfold Path.setRayDet
    rw [(update_hits _).1, (update_hits _).2]
    refine ⟨?_, rfl⟩
    simp only [q2.det, q3, Bool.true_and, sample_toGeo, q6, Path.collinear, unitZ.2]
    rw [Bool.and_eq_true]
    constructor
    · apply decide_eq_true
      simp [Vec3.dot]
      norm_num
    · apply decide_eq_true
      have e1 : Vec3.norm (Vec3.cross (⟨1e-7, 0, 0⟩ - 0) ⟨0, 0, 1⟩ : Vec3 ℝ) = 1e-7 := by
        rw [Vec3.norm]
        have : Vec3.dot (Vec3.cross (⟨1e-7, 0, 0⟩ - 0) ⟨0, 0, 1⟩ : Vec3 ℝ) (Vec3.cross (⟨1e-7, 0, 0⟩ - 0) ⟨0, 0, 1⟩) = 1e-7 * 1e-7 := by
          simp [Vec3.dot, Vec3.cross]
        rw [this, Real.sqrt_mul_self (by norm_num)]
      rw [e1]
      have := Vec3.norm_nonneg (⟨1e-7, 0, 0⟩ - 0 : Vec3 ℝ)
      nlinarith
  refine ⟨sample, q, .rayDet ⟨1e-7, 0, 0⟩ ⟨0, 0, 1⟩ 1, sample_proper, q2.det, ?_, hok, hs.1, ?_⟩
  · intro _
    exact ⟨0, ⟨0, 0, 1⟩, by simp [Vec3.dot], q6, ⟨0, by rw [hr.geoFirst, (sample_toGeo _).1, smul_zero']⟩,
      Or.inl (by rw [hr.geoDir, (sample_toGeo _).2])⟩
  · intro hc
    obtain ⟨x, v, -, hx, ⟨t, ht⟩, -⟩ := hc hs.1
    rw [hs.2, q6] at hx
    have hx1 := congrArg Line.position hx
    have hx2 := congrArg Line.direction hx
    simp only [sample] at hx1 hx2
    rw [hr'.geoFirst, (sample_toGeo _).1, ← hx1, ← hx2] at ht
    have := congrArg Vec3.x ht
    simp [PathStart.stretch] at this
    norm_num at this

end Path

/-- The crossings of sectors other than the default one. -/
def inner (l : List (Hit EReal)) : List (Hit EReal) := l.filter fun h => decide (intMin < h.hierarchy)

/-- **C34**: the bounds used for clipping are the first and the last crossing of a sector other than the default one: none if there is no such crossing, and
one alone if there is only one. -/
theorem C34_outer_bounds (l : List (Hit EReal)) :
    outerBounds l = (inner l).head?.toList ++ (if 2 ≤ (inner l).length then (inner l).getLast?.toList else []) := by
  induction l with
  | nil => rfl
  | cons h l ih =>
    by_cases hp : intMin < h.hierarchy
    · have hi : inner (h :: l) = h :: inner l := List.filter_cons_of_pos (by simpa using hp)
      have hr : (l.reverse.find? fun h => decide (intMin < h.hierarchy)) = (inner l).getLast? := by
        rw [← List.head?_filter, List.filter_reverse, List.head?_reverse]
        rfl
      unfold outerBounds
      simp only [List.findIdx?_cons, decide_eq_true hp, if_true, Option.getD_some, List.drop_succ_cons, List.drop_zero, List.find?_cons, hr, hi,
        List.head?_cons]
      congr 1
      cases h2 : inner l with
      | nil => simp
      | cons a t => simp [List.getLast?_cons_cons]
    · have hi : inner (h :: l) = inner l := List.filter_cons_of_neg (by simpa using hp)
      rw [hi, ← ih]
      unfold outerBounds
      simp only [List.findIdx?_cons, decide_eq_false hp, Bool.false_eq_true, if_false, List.find?_cons]
      cases hf : l.findIdx? (fun h => decide (intMin < h.hierarchy)) with
      | some i => simp
      | none =>
        have hall : ∀ x ∈ l, ¬ intMin < x.hierarchy := by
          intro x hx
          have := List.findIdx?_eq_none_iff.mp hf x hx
          simpa using this
        have e : ∀ m : List (Hit EReal), (∀ x ∈ m, x ∈ l) → (m.find? fun h => decide (intMin < h.hierarchy)) = none := by
          intro m hm
          rw [List.find?_eq_none]
          intro x hx
          simpa using hall x (hm x hx)
        simp only [Option.map_none, Option.getD_none, Nat.zero_add, List.drop_succ_cons, List.drop_zero]
        rw [e l.reverse fun x hx => List.mem_reverse.mp hx, e _ fun x hx => List.mem_of_mem_drop (List.mem_reverse.mp hx)]

/-- The crossings of the default sector are passed over. -/
example : outerBounds [⟨⊥, intMin, true⟩, ⟨(1 : ℝ), 3, true⟩, ⟨(2 : ℝ), 3, false⟩, ⟨⊤, intMin, false⟩] =
    [⟨(1 : ℝ), 3, true⟩, ⟨(2 : ℝ), 3, false⟩] := by
  rw [C34_outer_bounds]
  rfl

end Siren.Detector
