import Verif.Distributions.DepthPositionModel
import Verif.Distributions.DirectionProps
import Verif.Detector.PathDepthProps
import Verif.Detector.InteractionProps
import Verif.Detector.PointProps
import Verif.Injection.DepthProps
import Mathlib.MeasureTheory.Integral.IntervalIntegral.AbsolutelyContinuousFun
import Mathlib.MeasureTheory.Integral.IntervalIntegral.LebesgueDifferentiationThm

set_option autoImplicit false

/-! # C72: vertices drawn according to interaction depth -/

namespace Siren.Distributions

open Siren Siren.Detector Siren.Detector.Path Siren.Injection Real MeasureTheory Set

/-! ### Specification -/

/-- The targets are present in every sector and there is no decay, or there are no targets and the decay length is finite. With targets and a
decay length the distances for a depth are wrong when several sectors are crossed (C22). -/
def Totals.Usable (k : Totals) (D : PathDetector) : Prop :=
  (k.targets ≠ [] ∧ k.decay = none ∧ (∀ sec ∈ D.model.sectors, 0 < D.model.composition k.targets sec) ∧
    ∀ sec ∈ D.model.sectors, ∀ x ∈ k.targets, 0 ≤ D.model.particleFraction sec.materialId x.1 * x.2) ∨
  (k.targets = [] ∧ ∃ l : ℝ, 0 < l ∧ k.decay = some l)

/-- `lam s` is the interaction density `GetInteractionDensity` reports `s` metres behind `a` in direction `u`, except at finitely many points
`X`, where sectors begin or end (C19 says what it reports). -/
structure PathDensity (p : Path) (a u : Vec3 ℝ) (k : Totals) (lam : ℝ → ℝ) (X : Set ℝ) : Prop where
  fin : X.Finite
  pos : ∀ s, 0 < lam s
  int : ∀ s r : ℝ, IntervalIntegrable lam volume s r
  dens : ∀ s, s ∉ X → densityAt p k (a + Vec3.smul s u) = .ok (lam s)

/-- Total depth over a length. -/
noncomputable def depthOver (lam : ℝ → ℝ) (s : ℝ) : ℝ := ∫ t in (0 : ℝ)..s, lam t

/-- The density with which a vertex should be found `s` metres from the start of a path of length `L`: the interaction density, attenuated, and
normalized on the path; for very thin paths without attenuation. -/
noncomputable def vertexDensity (lam : ℝ → ℝ) (L s : ℝ) : ℝ :=
  if depthOver lam L < 1 / 1000000 then lam s / depthOver lam L
  else lam s * exp (-depthOver lam s) / (1 - exp (-depthOver lam L))

/-! ### The depth along a line -/

/-- All queries of the detector agree with the density `lam` along the line. -/
structure Along (D : PathDetector) (I : Line) (a u : Vec3 ℝ) (k : Totals) (lam : ℝ → ℝ) (X : Set ℝ) : Prop where
  fin : X.Finite
  pos : ∀ s, 0 < lam s
  int : ∀ s r : ℝ, IntervalIntegrable lam volume s r
  dens : ∀ s, s ∉ X → D.model.interactionDensity I (D.frame.toGeo (a + Vec3.smul s u)) k.targets k.decay = .ok (lam s)
  depth : ∀ s r : ℝ, s ≤ r → (k.targets = [] ∨ 1e-5 < r - s) →
    D.model.interactionDepth I (D.frame.toGeo (a + Vec3.smul s u)) (D.frame.toGeo (a + Vec3.smul r u)) k.targets k.decay = .ok (∫ t in s..r, lam t)
  short : ∀ s r : ℝ, s ≤ r → k.targets ≠ [] → r - s ≤ 1e-5 →
    D.model.interactionDepth I (D.frame.toGeo (a + Vec3.smul s u)) (D.frame.toGeo (a + Vec3.smul r u)) k.targets k.decay = .ok 0
  reach : ∀ s e : ℝ, 0 ≤ e →
    D.model.distanceForInteractionDepth I (D.frame.toGeo (a + Vec3.smul s u)) (D.frame.toGeoDir u) (∫ t in s..s + e, lam t) k.targets k.decay =
      .ok (e : EReal)

theorem geo_norm {D : PathDetector} (hD : D.frame.Proper) {u : Vec3 ℝ} (hu : Vec3.dot u u = 1) (a : Vec3 ℝ) (s r : ℝ) :
    Vec3.norm (D.frame.toGeo (a + Vec3.smul r u) - D.frame.toGeo (a + Vec3.smul s u)) = |r - s| := by
  have hgu : Vec3.dot (D.frame.toGeoDir u) (D.frame.toGeoDir u) = 1 := by rw [(Frame.C28_isometry hD a a u u).2.2.1, hu]
  rw [← toGeo_move hD, ← toGeo_move hD]
  have e : D.frame.toGeo a + Vec3.smul r (D.frame.toGeoDir u) - (D.frame.toGeo a + Vec3.smul s (D.frame.toGeoDir u)) =
      Vec3.smul (r - s) (D.frame.toGeoDir u) := by ext <;> simp <;> ring
  rw [e, Vec3.norm_smul_unit _ _ hgu]

/-- Short stretches of material count nothing. -/
theorem depth_short {D : PathDetector} (hD : D.frame.Proper) {u : Vec3 ℝ} (hu : Vec3.dot u u = 1) (a : Vec3 ℝ) (I : Line) (ts : List (Int × ℝ))
    {s r : ℝ} (h : s ≤ r) (h5 : r - s ≤ 1e-5) :
    D.model.interactionDepth I (D.frame.toGeo (a + Vec3.smul s u)) (D.frame.toGeo (a + Vec3.smul r u)) ts none = .ok 0 := by
  unfold DetModel.interactionDepth
  rw [geo_norm hD hu, abs_of_nonneg (by linarith)]
  by_cases h0 : r - s = 0
  · simp [h0]
  · simp only [h0, h5, if_true, overDecay, ite_self]

theorem along_decay {D : PathDetector} (hD : D.frame.Proper) {u : Vec3 ℝ} (hu : Vec3.dot u u = 1) (a : Vec3 ℝ) (I : Line) {l : ℝ} (hl : 0 < l) :
    Along D I a u ⟨[], some l⟩ (fun _ => 1 / l) ∅ := by
  refine ⟨finite_empty, fun _ => by positivity, fun _ _ => intervalIntegrable_const, ?_, ?_, ?_, ?_⟩
  · intro s _
    simp [DetModel.interactionDensity, overDecay]
  · intro s r h _
    unfold DetModel.interactionDepth
    rw [geo_norm hD hu, abs_of_nonneg (by linarith)]
    by_cases h0 : r - s = 0
    · simp [h0]
    · simp [h0, overDecay, intervalIntegral.integral_const, div_eq_mul_inv]
  · intro s r _ h
    exact absurd rfl h
  · intro s e he
    have : (∫ t in s..s + e, 1 / l) = e / l := by
      rw [intervalIntegral.integral_const]; simp [div_eq_mul_inv]
    simp only [DetModel.distanceForInteractionDepth, this]
    have h0 : ¬ e / l < 0 := not_lt.2 (by positivity)
    simp only [h0, decide_false, Bool.false_eq_true, if_false, if_true]
    rw [div_mul_cancel₀ _ hl.ne']

theorem along_targets {D : PathDetector} (S : D.Sound) {x v a u : Vec3 ℝ} (hv : Vec3.dot v v = 1) {t : ℝ}
    (ht : D.frame.toGeo a = x + Vec3.smul t v) (hu : D.frame.toGeoDir u = v ∨ D.frame.toGeoDir u = -v) (huu : Vec3.dot u u = 1)
    (ts : List (Int × ℝ)) (hne : ts ≠ []) (hcomp : ∀ sec ∈ D.model.sectors, 0 < D.model.composition ts sec)
    (hnn : ∀ sec ∈ D.model.sectors, ∀ x ∈ ts, 0 ≤ D.model.particleFraction sec.materialId x.1 * x.2) :
    ∃ lam X, Along D (D.cast x v) a u ⟨ts, none⟩ lam X := by
  obtain ⟨L, hS, hlo, hhi⟩ := S.setup x v hv
  obtain ⟨c1, c2⟩ := S.casts x v
  obtain ⟨ρ, hρ⟩ := interactionDensity_exists hS ts
  have hspan : ∀ y : ℝ, L.Spans y := fun y => ⟨by rw [hlo]; exact EReal.bot_lt_coe y, by rw [hhi]; exact EReal.coe_lt_top y⟩
  obtain ⟨back, hback⟩ : ∃ back : Bool, (D.cast x v).dir back = D.frame.toGeoDir u := by
    rcases hu with hu | hu
    · exact ⟨false, by simp [Line.dir, c2, hu]⟩
    · exact ⟨true, by simp [Line.dir, c2, hu]⟩
  have hat : ∀ s, D.frame.toGeo (a + Vec3.smul s u) = (D.cast x v).at (walked t back s) := by
    intro s
    rw [← toGeo_move S.proper, ht, ← hback, Line.at, c1]
    cases back
    · simp only [Line.dir, walked, Bool.false_eq_true, if_false, c2]
      ext <;> simp <;> ring
    · simp only [Line.dir, walked, if_true, c2]
      ext <;> simp <;> ring
  have hstep : ∀ s e, walked (walked t back s) back e = walked t back (s + e) := by
    intro s e; cases back <;> simp [walked] <;> ring
  have hwinj : ∀ s r, |walked t back r - walked t back s| = |r - s| := by
    intro s r
    cases back
    · simp [walked]
    · simp only [walked, if_true]; rw [← abs_neg]; congr 1; ring
  have hint0 : ∀ y z : ℝ, IntervalIntegrable ρ volume y z := by
    have far : ∀ y z : ℝ, 1e-5 < |z - y| → IntervalIntegrable ρ volume y z := fun y z hyz =>
      (C22_interaction_depth hS ts none hρ y z (hspan _) (hspan _).reaches hyz).1
    intro y z
    by_cases hyz : 1e-5 < |z - y|
    · exact far y z hyz
    · have h1 : 1e-5 < |z + 1 - y| := by
        rw [not_lt, abs_le] at hyz
        exact lt_of_lt_of_le (by norm_num at hyz ⊢; linarith) (le_abs_self _)
      have h2 : (1e-5 : ℝ) < |z - (z + 1)| := by
        rw [show z - (z + 1) = -1 by ring, abs_neg, abs_one]; norm_num
      exact (far y (z + 1) h1).trans (far (z + 1) z h2)
  have hint : ∀ s r : ℝ, IntervalIntegrable (fun y => ρ (walked t back y)) volume s r := by
    intro s r
    have h0 : ∀ s, IntervalIntegrable (fun y => ρ (walked t back y)) volume 0 s := fun s => walked_integrable (hint0 _ _)
    exact (h0 s).symm.trans (h0 r)
  have hval : ∀ y, ∃ sec ∈ D.model.sectors, L.Owner ((y : ℝ) : EReal) sec.level ∧ ρ y = sec.density.evaluate ((D.cast x v).at y) * D.model.composition ts sec := by
    intro y
    obtain ⟨sec, hsec, ho⟩ := owner_exists hS y (hspan y)
    exact ⟨sec, hsec, ho, hρ y sec hsec ho⟩
  have hposρ : ∀ y, 0 < ρ y := by
    intro y
    obtain ⟨sec, hsec, -, e⟩ := hval y
    rw [e]
    exact mul_pos (S.pos sec hsec _) (hcomp sec hsec)
  have hwalk : ∀ s r, s ≤ r → 100 * (∫ y in min (walked t back s) (walked t back r)..max (walked t back s) (walked t back r), ρ y) =
      ∫ y in s..r, 100 * ρ (walked t back y) := by
    intro s r h
    have h1 := walked_integral ρ (walked t back s) back (r - s) (by linarith)
    rw [hstep, show s + (r - s) = r by ring] at h1
    rw [h1, intervalIntegral.integral_const_mul]
    simp only [hstep]
    rw [intervalIntegral.integral_comp_add_left (fun y => ρ (walked t back y)) s]
    congr 2 <;> ring
  have hpos : ∀ s r : ℝ, s ≤ r → 0 ≤ ∫ y in s..r, 100 * ρ (walked t back y) := fun s r h =>
    intervalIntegral.integral_nonneg h (fun y _ => by have := hposρ (walked t back y); positivity)
  refine ⟨fun s => 100 * ρ (walked t back s), {s | ∃ h ∈ (D.cast x v).hits, h.distance = ((walked t back s : ℝ) : EReal)}, ?_, ?_, ?_, ?_, ?_, ?_, ?_⟩
  · have hsub : {s : ℝ | ∃ h ∈ (D.cast x v).hits, h.distance = ((walked t back s : ℝ) : EReal)} ⊆
        (fun y => walked 0 back (y - t)) '' {y : ℝ | ∃ h ∈ (D.cast x v).hits, h.distance = (y : EReal)} := by
      intro s hs
      refine ⟨walked t back s, hs, ?_⟩
      cases back <;> simp [walked]
    refine Finite.subset (Finite.image _ ?_) hsub
    refine Finite.subset (Set.toFinite ((((D.cast x v).hits.map fun h => h.distance.toReal).toFinset : Finset ℝ) : Set ℝ)) ?_
    rintro y ⟨h, hh, e⟩
    simp only [Finset.mem_coe, List.mem_toFinset, List.mem_map]
    exact ⟨h, hh, by rw [e, EReal.toReal_coe]⟩
  · intro s
    have := hposρ (walked t back s)
    positivity
  · intro s r
    exact (hint s r).const_mul 100
  · intro s hs
    obtain ⟨sec, hsec, ho, e⟩ := hval (walked t back s)
    simp only
    rw [hat, C19_interaction_density hS _ (hspan _) ?_ sec hsec ho ts none ?_, e]
    · simp only [add_zero]
      congr 2
      rw [DetModel.composition, ← List.sum_map_mul_left]
      congr 1
      apply List.map_congr_left
      intro z _
      ring
    · intro h hh e
      exact hs ⟨h, hh, e⟩
    · intro z hz
      rw [mul_assoc]
      exact mul_nonneg (S.pos sec hsec _).le (hnn sec hsec z hz)
  · intro s r h h5
    have h5 := h5.resolve_left hne
    rw [hat, hat, (C22_interaction_depth hS ts none hρ _ _ (hspan _) (hspan _).reaches (by rw [hwinj, abs_of_nonneg (by linarith)]; exact h5)).2,
      hwalk s r h]
    simp
  · intro s r h _ h5
    exact depth_short S.proper huu a _ ts h h5
  · intro s e he
    rw [hat, ← hback]
    refine interaction_inverts hS S.pos S.inv ts hne hcomp hρ _ (hspan _) back _ e (Or.inl ⟨hpos _ _ (by linarith), he⟩) (hspan _).reaches ?_
    rw [hstep, hwalk s (s + e) (by linarith), abs_of_nonneg (hpos _ _ (by linarith))]

theorem exists_along {D : PathDetector} (S : D.Sound) {x v a u : Vec3 ℝ} (hv : Vec3.dot v v = 1) {t : ℝ}
    (ht : D.frame.toGeo a = x + Vec3.smul t v) (hu : D.frame.toGeoDir u = v ∨ D.frame.toGeoDir u = -v) (huu : Vec3.dot u u = 1)
    {k : Totals} (hk : k.Usable D) : ∃ lam X, Along D (D.cast x v) a u k lam X := by
  obtain ⟨ts, dec⟩ := k
  rcases hk with ⟨h1, h2, h3, h4⟩ | ⟨h1, l, h2, h3⟩
  · simp only at h1 h2 h3 h4
    subst h2
    exact along_targets S hv ht hu huu ts h1 h3 h4
  · simp only at h1 h3
    subst h1 h3
    exact ⟨_, _, along_decay S.proper huu a _ h2⟩

/-! ### Attenuation -/

theorem exp_abs_le {x y : ℝ} (hx : 0 ≤ x) (hy : 0 ≤ y) : dist (exp (-x)) (exp (-y)) ≤ dist x y := by
  have key : ∀ x y : ℝ, 0 ≤ x → x ≤ y → exp (-x) - exp (-y) ≤ y - x := by
    intro x y hx h
    have h1 : exp (-y) = exp (-x) * exp (-(y - x)) := by rw [← exp_add]; congr 1; ring
    have h2 := add_one_le_exp (-(y - x))
    have h3 : exp (-x) ≤ 1 := exp_le_one_iff.2 (by linarith)
    have h4 := exp_pos (-x)
    rw [h1]
    nlinarith
  rw [Real.dist_eq, Real.dist_eq]
  rcases le_total x y with h | h
  · rw [abs_of_nonneg (sub_nonneg.2 (exp_le_exp.2 (by linarith))), abs_of_nonpos (by linarith)]
    linarith [key x y hx h]
  · rw [abs_of_nonpos (sub_nonpos.2 (exp_le_exp.2 (by linarith))), abs_of_nonneg (by linarith)]
    linarith [key y x hy h]

theorem depthOver_nonneg {lam : ℝ → ℝ} (hpos : ∀ s, 0 < lam s) {s : ℝ} (h : 0 ≤ s) : 0 ≤ depthOver lam s :=
  intervalIntegral.integral_nonneg h (fun y _ => (hpos y).le)

theorem depthOver_strictMono {lam : ℝ → ℝ} (hpos : ∀ s, 0 < lam s) (hint : ∀ s r : ℝ, IntervalIntegrable lam volume s r) : StrictMono (depthOver lam) := by
  intro s r h
  have h1 := intervalIntegral.intervalIntegral_pos_of_pos (hint s r) hpos h
  have h2 := intervalIntegral.integral_interval_sub_left (hint 0 r) (hint 0 s)
  unfold depthOver
  linarith

/-- The integral of the attenuated density. -/
theorem integral_attenuated {lam : ℝ → ℝ} (hpos : ∀ s, 0 < lam s) (hint : ∀ s r : ℝ, IntervalIntegrable lam volume s r) {x : ℝ} (hx : 0 ≤ x) :
    ∫ t in (0 : ℝ)..x, lam t * exp (-depthOver lam t) = 1 - exp (-depthOver lam x) := by
  have hac := (hint 0 x).absolutelyContinuousOnInterval_intervalIntegral (c := 0) left_mem_uIcc
  have hac' : AbsolutelyContinuousOnInterval (fun t => exp (-depthOver lam t)) 0 x := by
    rw [absolutelyContinuousOnInterval_iff] at hac ⊢
    intro ε hε
    obtain ⟨δ, hδ, h⟩ := hac ε hε
    refine ⟨δ, hδ, fun E hE hs => lt_of_le_of_lt (Finset.sum_le_sum fun i hi => ?_) (h E hE hs)⟩
    have hm := hE.1 i hi
    rw [uIcc_of_le hx] at hm
    exact exp_abs_le (depthOver_nonneg hpos hm.1.1) (depthOver_nonneg hpos hm.2.1)
  have h := hac'.integral_deriv_eq_sub
  have he : ∫ t in (0 : ℝ)..x, deriv (fun t => exp (-depthOver lam t)) t = ∫ t in (0 : ℝ)..x, -(lam t * exp (-depthOver lam t)) := by
    apply intervalIntegral.integral_congr_ae
    filter_upwards [(hint 0 x).ae_hasDerivAt_integral] with t ht hm
    have h1 := ht (uIoc_subset_uIcc hm) 0 left_mem_uIcc
    have h2 : HasDerivAt (depthOver lam) (lam t) t := h1
    have h3 : deriv (fun t => exp (-depthOver lam t)) t = exp (-depthOver lam t) * -lam t := h2.neg.exp.deriv
    rw [h3]
    ring
  rw [he, intervalIntegral.integral_neg] at h
  have h0 : depthOver lam 0 = 0 := intervalIntegral.integral_same
  rw [h0] at h
  simp only [neg_zero, exp_zero] at h
  linarith

/-- The part of the vertices up to a distance. -/
theorem integral_vertexDensity {lam : ℝ → ℝ} (hpos : ∀ s, 0 < lam s) (hint : ∀ s r : ℝ, IntervalIntegrable lam volume s r) (L : ℝ) {x : ℝ} (hx : 0 ≤ x) :
    ∫ t in (0 : ℝ)..x, vertexDensity lam L t =
      if depthOver lam L < 1 / 1000000 then depthOver lam x / depthOver lam L else (1 - exp (-depthOver lam x)) / (1 - exp (-depthOver lam L)) := by
  unfold vertexDensity
  by_cases h : depthOver lam L < 1 / 1000000
  · simp only [h, if_true]
    rw [intervalIntegral.integral_div]
    rfl
  · simp only [h, if_false]
    rw [intervalIntegral.integral_div, integral_attenuated hpos hint hx]

theorem one_sub_exp_pos {T : ℝ} (h : 0 < T) : 0 < 1 - exp (-T) := by
  have := exp_lt_exp.2 (show -T < 0 by linarith)
  rw [exp_zero] at this
  linarith

/-- The depth drawn is the quantile. -/
theorem traversed_spec {T y : ℝ} (hT : 0 < T) (h0 : 0 ≤ y) (h1 : y ≤ 1) :
    0 ≤ traversedDepth T y ∧ traversedDepth T y ≤ T ∧ ∀ τ, traversedDepth T y ≤ τ ↔
      y ≤ if T < 1 / 1000000 then τ / T else (1 - exp (-τ)) / (1 - exp (-T)) := by
  unfold traversedDepth
  by_cases h : T < 1 / 1000000
  · simp only [h, if_true]
    exact ⟨by positivity, by nlinarith, fun τ => by rw [le_div_iff₀ hT]⟩
  · simp only [h, if_false]
    have hq := one_sub_exp_pos hT
    have he := exp_pos (-T)
    have hz : 0 < y * exp (-T) + (1 - y) := by
      rcases h0.eq_or_lt with hy | hy
      · rw [← hy]; norm_num
      · have := mul_pos hy he
        linarith
    have hz1 : y * exp (-T) + (1 - y) ≤ 1 := by nlinarith
    have hzT : exp (-T) ≤ y * exp (-T) + (1 - y) := by nlinarith
    refine ⟨by have := log_nonpos hz.le hz1; linarith, ?_, ?_⟩
    · have := (le_log_iff_exp_le hz).2 hzT
      linarith
    · intro τ
      rw [neg_le, le_log_iff_exp_le hz, le_div_iff₀ hq]
      constructor <;> intro h <;> linarith

/-! ### Paths with the depth along them -/

/-- A path, the same path with its intersections, and the interaction density along it. -/
structure OnLine (p r : Path) (D : PathDetector) (a u : Vec3 ℝ) (L : ℝ) (k : Totals) (lam : ℝ → ℝ) (X : Set ℝ) : Prop where
  inv : p.Inv D a u (L : EReal)
  prep : p.prepare = .ok r
  rinv : r.Inv D a u (L : EReal)
  rfits : r.Fits D a u
  geo : r.setGeo = true
  hits : r.setHits = true
  along : Along D r.hits a u k lam X

theorem onLine {D : PathDetector} (S : D.Sound) {p : Path} {a u : Vec3 ℝ} {L : ℝ} {k : Totals} (hk : k.Usable D)
    (hi : p.Inv D a u (L : EReal)) (hf : p.Fits D a u) : ∃ r lam X, OnLine p r D a u L k lam X := by
  obtain ⟨r, r1, r2, r3, r4, r5, -⟩ := hi.prepare S.proper (fun _ : True => hf)
  obtain ⟨x, v, hv, hx, ⟨t, ht⟩, hu⟩ := r3 trivial r5
  obtain ⟨lam, X, h⟩ := exists_along S hv ht hu hi.unit hk
  exact ⟨r, lam, X, hi, r1, r2, r3 trivial, r4, r5, by rw [hx]; exact h⟩

variable {p r : Path} {D : PathDetector} {a u : Vec3 ℝ} {L : ℝ} {k : Totals} {lam : ℝ → ℝ} {X : Set ℝ}

theorem OnLine.query (h : OnLine p r D a u L k lam X) {α : Type} (nf nl : Bool)
    (f : PathDetector → Path → Res α) : p.query nf nl f = f D r := by
  unfold Path.query
  rw [h.prep]
  have hl : r.lastInf = false := by rw [h.rinv.lastInf]; exact decide_eq_false (EReal.coe_ne_top _)
  simp only [Res.bind, h.rinv.firstInf, hl, Bool.and_false, Bool.or_self, Bool.false_eq_true, if_false, h.rinv.det]

theorem OnLine.points (h : OnLine p r D a u L k lam X) :
    0 ≤ L ∧ r.geo.dir = D.frame.toGeoDir u ∧ r.geo.first = D.frame.toGeo (a + Vec3.smul 0 u) ∧ r.geo.last = D.frame.toGeo (a + Vec3.smul L u) := by
  obtain ⟨g1, g2, g3⟩ := h.rinv.geo h.geo
  have g3 := g3 (EReal.coe_ne_top _)
  rw [EReal.toReal_coe] at g3
  exact ⟨by exact_mod_cast h.inv.nonneg, g2, by rw [g1, smul_zero'], g3⟩

theorem OnLine.depthInBounds (h : OnLine p r D a u L k lam X) (hL : k.targets = [] ∨ 1e-5 < L) :
    p.depthInBounds k.depth = .ok (depthOver lam L) := by
  obtain ⟨h0, g1, g2, g3⟩ := h.points
  unfold Path.depthInBounds
  rw [h.query]
  simp only [PathDetector.depth, Totals.depth]
  rw [g2, g3, h.along.depth 0 L h0 (by rwa [sub_zero])]
  rfl

theorem OnLine.depthShort (h : OnLine p r D a u L k lam X) (hne : k.targets ≠ []) (hL : L ≤ 1e-5) :
    p.depthInBounds k.depth = .ok 0 := by
  obtain ⟨h0, g1, g2, g3⟩ := h.points
  unfold Path.depthInBounds
  rw [h.query]
  simp only [PathDetector.depth, Totals.depth]
  rw [g2, g3, h.along.short 0 L h0 hne (by rwa [sub_zero])]

theorem OnLine.distance (h : OnLine p r D a u L k lam X) {s : ℝ} (hs : 0 ≤ s) :
    p.distanceFromStartAlongPath (depthOver lam s) k.depth = .ok (s : EReal) := by
  obtain ⟨h0, g1, g2, g3⟩ := h.points
  unfold Path.distanceFromStartAlongPath
  rw [h.query]
  simp only [PathDetector.distanceFor, Totals.depth]
  have := h.along.reach 0 s hs
  rw [zero_add] at this
  rw [g1, g2]
  exact this

theorem prepare_hits {p r : Path} (h : p.prepare = .ok r) :
    ∃ m : Path, (if p.setHits then Res.ok p else p.computeIntersections) = .ok m ∧ m.hits = r.hits ∧ m.detector = r.detector := by
  unfold Path.prepare at h
  cases hm : (if p.setHits then Res.ok p else p.computeIntersections) with
  | throws e => rw [hm] at h; simp [Res.bind] at h
  | ub => rw [hm] at h; simp [Res.bind] at h
  | ok m =>
    rw [hm] at h
    simp only [Res.bind, Path.ensurePoints] at h
    split_ifs at h
    rw [Res.ok.injEq] at h
    refine ⟨m, rfl, by rw [← h, (update_hits m).2], ?_⟩
    rw [← h]
    obtain ⟨det, sg, sd, g, d, dist, fi, li, sh, hi⟩ := m
    cases det with
    | none => rfl
    | some D => simp only [Path.update]; split_ifs <;> rfl

theorem OnLine.densityAt (h : OnLine p r D a u L k lam X) {s : ℝ} (hs : s ∉ X) :
    densityAt p k (a + Vec3.smul s u) = .ok (lam s) := by
  obtain ⟨m, m1, m2, m3⟩ := prepare_hits h.prep
  unfold Distributions.densityAt
  rw [m1]
  simp only [Res.bind]
  rw [m3, h.rinv.det]
  simp only
  rw [m2, h.along.dens s hs]

theorem OnLine.isDensity (h : OnLine p r D a u L k lam X) : PathDensity p a u k lam X :=
  ⟨h.along.fin, h.along.pos, h.along.int, fun _ hs => h.densityAt hs⟩

theorem OnLine.total_pos (h : OnLine p r D a u L k lam X) (hL : 0 < L) : 0 < depthOver lam L := by
  have := depthOver_strictMono h.along.pos h.along.int hL
  rwa [show depthOver lam 0 = 0 from intervalIntegral.integral_same] at this

theorem OnLine.reach (h : OnLine p r D a u L k lam X) (hL : 0 ≤ L) {x : ℝ} (h0 : 0 ≤ x) (h1 : x ≤ depthOver lam L) :
    ∃ s, 0 ≤ s ∧ s ≤ L ∧ depthOver lam s = x := by
  have hc : Continuous (depthOver lam) := intervalIntegral.continuous_primitive h.along.int 0
  obtain ⟨s, ⟨hs1, hs2⟩, hs⟩ := intermediate_value_Icc hL hc.continuousOn ⟨(by rwa [show depthOver lam 0 = 0 from intervalIntegral.integral_same] : depthOver lam 0 ≤ x), h1⟩
  exact ⟨s, hs1, hs2, hs⟩

/-- The vertex on the path. -/
theorem OnLine.vertex (hD : D.frame.Proper) (h : OnLine p r D a u L k lam X) (hL : k.targets = [] ∨ 1e-5 < L) (h0 : 0 < L) {y : ℝ} (hy0 : 0 ≤ y) (hy1 : y ≤ 1) :
    ∃ s, 0 ≤ s ∧ s ≤ L ∧ vertexOn p k y = .ok (a + Vec3.smul s u) ∧
      ∀ x, 0 ≤ x → x ≤ L → (s ≤ x ↔ y ≤ ∫ t in (0 : ℝ)..x, vertexDensity lam L t) := by
  have hT := h.total_pos h0
  obtain ⟨t0, t1, t2⟩ := traversed_spec hT hy0 hy1
  obtain ⟨s, s0, s1, s2⟩ := h.reach h0.le t0 t1
  have hr := h.inv.runs hD
  refine ⟨s, s0, s1, ?_, ?_⟩
  · unfold vertexOn
    rw [h.depthInBounds hL]
    simp only [Res.bind]
    rw [if_neg hT.ne', ← s2, h.distance s0]
    simp [hr.first, hr.dir]
  · intro x hx0 _
    rw [integral_vertexDensity h.along.pos h.along.int L hx0, ← t2, ← s2]
    exact (depthOver_strictMono h.along.pos h.along.int).le_iff_le.symm

theorem dot_smul_unit {u : Vec3 ℝ} (hu : Vec3.dot u u = 1) (s : ℝ) : Vec3.dot u (Vec3.smul s u) = s := by
  have : Vec3.dot u (Vec3.smul s u) = s * Vec3.dot u u := by simp [Vec3.dot]; ring
  rw [this, hu, mul_one]

theorem within_eq (hD : D.frame.Proper) (h : p.Inv D a u (L : EReal)) {s : ℝ} (h0 : 0 ≤ s) (h1 : s ≤ L) :
    p.withinDet (a + Vec3.smul s u) = .ok true := by
  obtain ⟨hu, hg, hd⟩ := h.update hD
  obtain ⟨d1, d2, d3⟩ := hu.dets hd
  have d3 := d3 (EReal.coe_ne_top _)
  rw [EReal.toReal_coe] at d3
  unfold Path.withinDet
  have hl : p.update.lastInf = false := by rw [hu.lastInf]; exact decide_eq_false (EReal.coe_ne_top _)
  simp only [hu.firstInf, hl, Bool.or_self, Bool.false_eq_true, if_false, hd, if_true, d1, d2, d3]
  have e0 : Vec3.dot u (a - (a + Vec3.smul s u)) = -s := by
    rw [show a - (a + Vec3.smul s u) = Vec3.smul (-s) u by ext <;> simp, dot_smul_unit h.unit]
  have e1 : Vec3.dot u (a + Vec3.smul L u - (a + Vec3.smul s u)) = L - s := by
    rw [show a + Vec3.smul L u - (a + Vec3.smul s u) = Vec3.smul (L - s) u by ext <;> simp <;> ring, dot_smul_unit h.unit]
  rw [e0, e1]
  have n0 : ¬ (0 < -s ∧ -s < (1e-3 : ℝ)) := fun h => by linarith [h.1]
  have n1 : ¬ (L - s < 0 ∧ (-1e-3 : ℝ) < L - s) := fun h => by linarith [h.1]
  rw [if_neg n0, if_neg n1]
  simp [h0, h1]

theorem point_eq (hD : D.frame.Proper) (h : p.Inv D a u (L : EReal)) {s : ℝ} (h0 : 0 ≤ s) :
    p.pointFromStartDet (a + Vec3.smul s u) = .ok s := by
  obtain ⟨hu, hg, hd⟩ := h.update hD
  obtain ⟨d1, d2, d3⟩ := hu.dets hd
  unfold Path.pointFromStartDet
  simp only [hu.firstInf, Bool.false_eq_true, if_false, hd, if_true, d1, d2]
  rw [show a + Vec3.smul s u - a = Vec3.smul s u by ext <;> simp, dot_smul_unit h.unit, max_eq_right h0]

theorem norm_of_unit {u : Vec3 ℝ} (hu : Vec3.dot u u = 1) : Vec3.norm u = 1 := by simp [Vec3.norm, hu]

/-- The part of the path up to a vertex. -/
theorem OnLine.upTo (S : D.Sound) (h : OnLine p r D a u L k lam X) {s : ℝ} (h0 : 0 ≤ s) :
    ∃ r', OnLine (r.setRayDet r.firstPoint r.direction (s : EReal)) r' D a u s k lam X := by
  have hr := h.rinv.runs S.proper
  rw [hr.first, hr.dir]
  have hu := h.inv.unit
  obtain ⟨i1, -⟩ := inv_rayDet S.proper h.rinv.det a u (by rw [norm_of_unit hu]; exact one_ne_zero) (s : EReal) (by exact_mod_cast h0)
  rw [normalize_of_unit hu] at i1
  obtain ⟨x, v, hv, hx, ⟨t, ht⟩, hd⟩ := h.rfits h.hits
  have hgu : Vec3.dot (D.frame.toGeoDir u) (D.frame.toGeoDir u) = 1 := by rw [(Frame.C28_isometry S.proper a a u u).2.2.1, hu]
  have hcol : Path.collinear r.hits (D.frame.toGeo a) (D.frame.toGeoDir u) = true := by
    unfold Path.collinear
    rw [hx, (S.casts x v).1, (S.casts x v).2, normalize_of_unit hgu, ht]
    have e1 : |Vec3.dot (D.frame.toGeoDir u) v| = 1 := by
      rcases hd with hd | hd
      · rw [hd, hv, abs_one]
      · rw [hd, show Vec3.dot (-v) v = -Vec3.dot v v by simp [Vec3.dot]; ring, hv, abs_neg, abs_one]
    have e2 : x + Vec3.smul t v - x = Vec3.smul t v := by ext <;> simp
    have e3 : Vec3.cross (Vec3.smul t v) v = 0 := by ext <;> simp [Vec3.cross] <;> ring
    have e4 : Vec3.norm (0 : Vec3 ℝ) = 0 := by simp [Vec3.norm, Vec3.dot]
    simp only [e1, e2, e3, e4]
    have := Vec3.norm_nonneg (Vec3.smul t v)
    rw [Bool.and_eq_true, decide_eq_true_eq, decide_eq_true_eq]
    constructor
    · norm_num
    · positivity
  have hk' : (r.setRayDet a u (s : EReal)).setHits = true ∧ (r.setRayDet a u (s : EReal)).hits = r.hits := by
    unfold Path.setRayDet
    rw [(update_hits _).1, (update_hits _).2]
    simp [h.rinv.det, h.hits, hcol]
  have hf : (r.setRayDet a u (s : EReal)).Fits D a u := fun _ => ⟨x, v, hv, by rw [hk'.2, hx], ⟨t, ht⟩, hd⟩
  obtain ⟨r', r1, r2, r3, r4, r5, r6, -⟩ := i1.prepare S.proper (fun _ : True => hf)
  exact ⟨r', i1, r1, r2, r3 trivial, r4, r5, by rw [r6 hk'.1, hk'.2]; exact h.along⟩

/-- The density reported. -/
theorem OnLine.reported (S : D.Sound) (h : OnLine p r D a u L k lam X) (hL : k.targets = [] ∨ 1e-5 < L) (h0 : 0 < L) (guard : Bool) {s : ℝ} (hs0 : 0 ≤ s)
    (hs1 : s ≤ L) (hs : s ∉ X) :
    densityOn guard p k (a + Vec3.smul s u) =
      .ok (positionProbability (depthOver lam L) (if k.targets = [] ∨ 1e-5 < s then depthOver lam s else 0) (lam s)) := by
  have hT := h.total_pos h0
  obtain ⟨r', h'⟩ := h.upTo S hs0
  unfold densityOn
  rw [within_eq S.proper h.inv hs0 hs1]
  simp only [Res.bind, Bool.not_true, Bool.false_eq_true, if_false]
  rw [h.depthInBounds hL]
  simp only
  rw [h.prep]
  simp only
  rw [point_eq S.proper h.rinv hs0]
  simp only
  have hd : (r.setRayDet r.firstPoint r.direction (s : EReal)).depthInBounds k.depth =
      .ok (if k.targets = [] ∨ 1e-5 < s then depthOver lam s else 0) := by
    by_cases hc : k.targets = [] ∨ 1e-5 < s
    · rw [if_pos hc, h'.depthInBounds hc]
    · rw [if_neg hc]
      push Not at hc
      exact h'.depthShort hc.1 hc.2
  rw [hd]
  simp only
  rw [h'.densityAt hs]
  simp [not_le.2 hT]

/-! ### The paths of the distributions -/

/-- The paths along which the distributions draw: a ray clipped to the detector (`PrimaryPhysicalVertexDistribution`,
`SecondaryPhysicalVertexDistribution`, `PointSourcePositionDistribution`), such a ray restricted to a fiducial volume
(`PrimaryBoundedVertexDistribution`, `SecondaryBoundedVertexDistribution`), or a ray extended backwards by a range or a column depth
(`RangePositionDistribution`, `ColumnDepthPositionDistribution`). -/
inductive Made (D : PathDetector) : Path → Prop
  | ray (start dir : Vec3 ℝ) (length : EReal) (p : Path) : Vec3.norm dir ≠ 0 → 0 ≤ length → rayPath D start dir length = .ok p → Made D p
  | bounded (start dir : Vec3 ℝ) (length : EReal) (fiducial : Option (List (ℝ × Vec3 ℝ))) (p : Path) :
      Vec3.norm dir ≠ 0 → 0 ≤ length → boundedPath D start dir length fiducial = .ok p → Made D p
  | range (pca dir : Vec3 ℝ) (endcap range : ℝ) (p : Path) : Vec3.norm dir ≠ 0 → 0 ≤ endcap → rangePath D pca dir endcap range = .ok p → Made D p
  | column (pca dir : Vec3 ℝ) (endcap depth : ℝ) (p : Path) : Vec3.norm dir ≠ 0 → 0 ≤ endcap → columnPath D pca dir endcap depth = .ok p → Made D p

theorem update_geo {p : Path} (h : p.setGeo = true) : p.update.geo = p.geo := by
  obtain ⟨det, sg, sd, g, d, dist, fi, li, sh, hi⟩ := p
  simp only at h
  subst h
  cases det with
  | none => rfl
  | some D => cases sd <;> rfl

/-- Two segments that are the same. -/
theorem runs_unique {p : Path} {D : PathDetector} (hD : D.frame.Proper) {a a' u u' : Vec3 ℝ} {L : ℝ} {d : EReal} (hr : p.Runs D a u L) (hi : p.Inv D a' u' d) :
    a' = a ∧ u' = u ∧ d = (L : EReal) := by
  have hd : d = (L : EReal) := by rw [← hi.dist, hr.distance]
  subst hd
  have h := hi.runs hD
  exact ⟨by rw [← h.first, hr.first], by rw [← h.dir, hr.dir], rfl⟩

theorem clip_good {p q : Path} {D : PathDetector} (S : D.Sound) {a0 u0 a u : Vec3 ℝ} {d : EReal} {L : ℝ} (hi : p.Inv D a0 u0 d) (hf : p.Fits D a0 u0)
    (hc : p.clip = .ok q) (hr : q.Runs D a u L) : q.Inv D a u (L : EReal) ∧ q.Fits D a u := by
  obtain ⟨r, r1, r2, r3, r4, r5, -⟩ := hi.prepare S.proper (fun _ : True => hf)
  have r3 := r3 trivial
  unfold Path.clip at hc
  rw [r1] at hc
  simp only [Res.bind] at hc
  obtain ⟨g1, g2, -⟩ := r2.geo r4
  obtain ⟨x, v, hv, hx, ⟨t, ht⟩, hu⟩ := r3 r5
  have hpos : r.hits.position = x := by rw [hx, (S.casts x v).1]
  have hdir : r.hits.direction = v := by rw [hx, (S.casts x v).2]
  split at hc
  · rw [Res.ok.injEq] at hc
    subst hc
    obtain ⟨e1, e2, e3⟩ := runs_unique S.proper hr r2
    subst e1 e2 e3
    exact ⟨r2, r3⟩
  · simp at hc
  · split at hc
    · simp at hc
    split at hc
    · simp at hc
    rw [Res.ok.injEq] at hc
    have hline : ∃ t', q.geo.first = x + Vec3.smul t' v := by
      rw [← hc]
      simp only [hpos, hdir]
      split_ifs
      all_goals first
        | exact ⟨_, rfl⟩
        | exact ⟨t, by rw [g1, ht]⟩
    have hgeo : q.setGeo = true := by rw [← hc]; exact r4
    have hsd : q.setDet = false := by rw [← hc]
    have hdir' : q.geo.dir = D.frame.toGeoDir u0 := by rw [← hc]; exact g2
    have hgf : q.geo.first = D.frame.toGeo a := by
      have := hr.geoFirst; unfold Path.geoFirstPoint at this; rwa [update_geo hgeo] at this
    have hgd : q.geo.dir = D.frame.toGeoDir u := by
      have := hr.geoDir; unfold Path.geoDirection at this; rwa [update_geo hgeo] at this
    have hgl : q.geo.last = D.frame.toGeo (a + Vec3.smul L u) := by
      have := hr.geoLast; unfold Path.geoLastPoint at this; rwa [update_geo hgeo] at this
    have hfi : q.firstInf = false := by rw [← hc]; simp [r2.firstInf]
    have hli : q.lastInf = false := by
      rw [← hc]
      simp only
      cases r.lastInf <;> simp
    have hhits : q.hits = D.cast x v := by rw [← hc]; exact hx
    refine ⟨⟨by rw [← hc]; exact r2.det, Or.inl hgeo, fun _ => ⟨hgf, hgd, fun _ => by rw [EReal.toReal_coe]; exact hgl⟩, by simp [hsd], hr.distance,
      by exact_mod_cast hr.nonneg, hr.unit, hfi, hli.trans (decide_eq_false (EReal.coe_ne_top _)).symm⟩, fun _ => ⟨x, v, hv, hhits, ?_, ?_⟩⟩
    · obtain ⟨t', ht'⟩ := hline
      exact ⟨t', by rw [← hgf, ht']⟩
    · rw [← hgd, hdir']; exact hu

theorem ray_good {D : PathDetector} (S : D.Sound) {start dir : Vec3 ℝ} {length : EReal} (hd : Vec3.norm dir ≠ 0) (hl : 0 ≤ length) :
    ((Path.new (some D)).setRayDet start dir length).Inv D start (Vec3.normalize dir) length ∧
      ((Path.new (some D)).setRayDet start dir length).Fits D start (Vec3.normalize dir) := by
  obtain ⟨i1, i2⟩ := inv_rayDet (p := Path.new (some D)) S.proper rfl start dir hd length hl
  exact ⟨i1, fun hh => by rw [i2 rfl] at hh; exact absurd hh (by simp)⟩

theorem points_good {p0 p : Path} {D : PathDetector} (S : D.Sound) (hdet : p0.detector = some D) {A B a u : Vec3 ℝ} {L : ℝ}
    (hr : (p0.setPointsDet A B).Runs D a u L) (h : p0.setPointsDet A B = p) : p.Inv D a u (L : EReal) ∧ p.Fits D a u := by
  subst h
  by_cases hz : Vec3.norm (B - A) = 0
  · have hdirn : (p0.setPointsDet A B).direction = Vec3.normalize (B - A) := by
      obtain ⟨det, sg, sd, g, d, dist, fi, li, sh, hi⟩ := p0
      simp only at hdet
      subst hdet
      rfl
    have h0 := hr.unit
    rw [← hr.dir, hdirn] at h0
    simp [Vec3.normalize, hz, Vec3.dot] at h0
  · obtain ⟨i1, i2⟩ := inv_pointsDet S.proper hdet A B hz
    obtain ⟨e1, e2, e3⟩ := runs_unique S.proper hr i1
    rw [e3] at i1
    rw [← e1, ← e2]
    exact ⟨i1, fun hh => by rw [i2] at hh; exact absurd hh (by simp)⟩

theorem bind_ok {α β : Type} {x : Res α} {f : α → Res β} {y : β} (h : x.bind f = .ok y) : ∃ z, x = .ok z ∧ f z = .ok y := by
  cases x with
  | ok z => exact ⟨z, rfl, h⟩
  | throws e => simp [Res.bind] at h
  | ub => simp [Res.bind] at h

theorem made_good {p : Path} {D : PathDetector} (S : D.Sound) (hp : Made D p) {a u : Vec3 ℝ} {L : ℝ} (hr : p.Runs D a u L) :
    p.Inv D a u (L : EReal) ∧ p.Fits D a u := by
  cases hp with
  | ray start dir length _ hd hl h =>
    obtain ⟨h1, h2⟩ := ray_good (start := start) S hd hl
    exact clip_good S h1 h2 h hr
  | bounded start dir length fiducial _ hd hl h =>
    obtain ⟨h1, h2⟩ := ray_good (start := start) S hd hl
    obtain ⟨p0, hp0, h⟩ := bind_ok h
    have same : Res.ok p0 = Res.ok p → p.Inv D a u (L : EReal) ∧ p.Fits D a u := fun h => by
      rw [Res.ok.injEq] at h
      subst h
      exact clip_good S h1 h2 hp0 hr
    have hdet : p0.detector = some D := by
      obtain ⟨r, r1, r2, -⟩ := h1.prepare S.proper (F := False) (by simp)
      unfold rayPath Path.clip at hp0
      rw [r1] at hp0
      simp only [Res.bind] at hp0
      split at hp0
      · rw [Res.ok.injEq] at hp0; rw [← hp0]; exact r2.det
      · simp at hp0
      · split at hp0
        · simp at hp0
        split at hp0
        · simp at hp0
        rw [Res.ok.injEq] at hp0
        rw [← hp0]
        exact r2.det
    cases fiducial with
    | none => exact same h
    | some hits =>
      simp only at h
      split at h
      · split at h
        · rw [Res.ok.injEq] at h
          exact points_good S hdet (by rw [h]; exact hr) h
        · exact same h
      · exact same h
  | range pca dir endcap range _ hd hl h =>
    obtain ⟨h1, h2⟩ := ray_good (start := pca - Vec3.smul endcap dir) (length := ((endcap * 2 : ℝ) : EReal)) S hd
      (by exact_mod_cast (by positivity : (0 : ℝ) ≤ endcap * 2))
    obtain ⟨q, q1, q2, q3, q4⟩ := h1.extendStart S.proper range
    obtain ⟨q', h', hc⟩ := bind_ok h
    rw [q1, Res.ok.injEq] at h'
    subst h'
    exact clip_good S q2 (h2.move S.proper _ q3 q4) hc hr
  | column pca dir endcap depth _ hd hl h =>
    obtain ⟨h1, h2⟩ := ray_good (start := pca - Vec3.smul endcap dir) (length := ((endcap * 2 : ℝ) : EReal)) S hd
      (by exact_mod_cast (by positivity : (0 : ℝ) ≤ endcap * 2))
    obtain ⟨q', h', hc⟩ := bind_ok h
    unfold Path.extendStartBy Path.moveBy at h'
    obtain ⟨e, -, h'⟩ := bind_ok h'
    split_ifs at h'
    obtain ⟨r, r1, r2, r3, -⟩ := h1.prepare S.proper (fun _ : True => h2)
    rw [r1] at h'
    simp only [Res.bind] at h'
    obtain ⟨q, q1, q2, q3, q4⟩ := r2.extendStart S.proper e.toReal
    rw [q1, Res.ok.injEq] at h'
    subst h'
    exact clip_good S q2 ((r3 trivial).move S.proper _ q3 q4) hc hr

/-! ### C72 -/

/-- C72: on every path of a vertex distribution that is longer than 1e-5 m (or of any length, when only decays count), with the interaction
density `lam` along it: a vertex is always drawn, on the path; the share of generator outputs with a vertex in the first `x` metres is the
integral of `vertexDensity`, which is 1 over the whole path; and the density reported for any vertex on the path is `vertexDensity`, to 1e-9
of its value, or exactly for thin paths. Within 1e-5 m of the start the attenuation is left out. -/
theorem C72_vertex {D : PathDetector} (S : D.Sound) {k : Totals} (hk : k.Usable D) {p : Path} (hp : Made D p) {a u : Vec3 ℝ} {L : ℝ}
    (hr : p.Runs D a u L) (h0 : 0 < L) (hL : k.targets = [] ∨ 1e-5 < L) :
    ∃ lam X, PathDensity p a u k lam X ∧
      (∀ y, 0 ≤ y → y ≤ 1 → ∃ s, 0 ≤ s ∧ s ≤ L ∧ vertexOn p k y = .ok (a + Vec3.smul s u) ∧
        ∀ x, 0 ≤ x → x ≤ L → (s ≤ x ↔ y ≤ ∫ t in (0 : ℝ)..x, vertexDensity lam L t)) ∧
      ∫ t in (0 : ℝ)..L, vertexDensity lam L t = 1 ∧
      ∀ guard s, 0 ≤ s → s ≤ L → s ∉ X → ∃ q, densityOn guard p k (a + Vec3.smul s u) = .ok q ∧
        (depthOver lam L < 1 / 1000000 → q = vertexDensity lam L s) ∧
        (k.targets = [] ∨ 1e-5 < s → |q - vertexDensity lam L s| ≤ vertexDensity lam L s / 10 ^ 9) ∧
        vertexDensity lam L s * (1 - 1 / 10 ^ 9) ≤ q ∧ q ≤ vertexDensity lam L s * exp (depthOver lam s) * (1 + 1 / 10 ^ 9) := by
  obtain ⟨hi, hf⟩ := made_good S hp hr
  obtain ⟨r, lam, X, h⟩ := onLine S hk hi hf
  have hT := h.total_pos h0
  refine ⟨lam, X, h.isDensity, fun y hy0 hy1 => h.vertex S.proper hL h0 hy0 hy1, ?_, ?_⟩
  · rw [integral_vertexDensity h.along.pos h.along.int L h0.le]
    split_ifs
    · exact div_self hT.ne'
    · exact div_self (one_sub_exp_pos hT).ne'
  · intro guard s hs0 hs1 hs
    refine ⟨_, h.reported S hL h0 guard hs0 hs1 hs, ?_⟩
    have hls := h.along.pos s
    have hts := depthOver_nonneg h.along.pos hs0
    unfold positionProbability vertexDensity
    by_cases hthin : depthOver lam L < 1 / 1000000
    · simp only [hthin, if_true]
      have hq : 0 < lam s / depthOver lam L := div_pos hls hT
      have he : 1 ≤ exp (depthOver lam s) := one_le_exp hts
      refine ⟨fun _ => trivial, fun _ => by rw [sub_self, abs_zero]; positivity, by norm_num; linarith, ?_⟩
      rw [mul_assoc]
      exact le_mul_of_one_le_right hq.le (by norm_num; linarith)
    · simp only [hthin, if_false]
      have hq := one_sub_exp_pos hT
      have hlog := log_close (depthOver lam L) (not_lt.1 hthin)
      rw [abs_le] at hlog
      generalize hτ : (if k.targets = [] ∨ 1e-5 < s then depthOver lam s else 0 : ℝ) = τ'
      have hτ0 : 0 ≤ τ' ∧ τ' ≤ depthOver lam s := by
        rw [← hτ]
        split_ifs
        · exact ⟨hts, le_refl _⟩
        · exact ⟨le_refl _, hts⟩
      have hV : 0 < lam s * exp (-depthOver lam s) / (1 - exp (-depthOver lam L)) := by have := exp_pos (-depthOver lam s); positivity
      have hq' : lam s * exp (-logOneMinusExpOfNegative (depthOver lam L) - τ') =
          lam s * exp (-depthOver lam s) / (1 - exp (-depthOver lam L)) * exp (depthOver lam s - τ') *
            (exp (-logOneMinusExpOfNegative (depthOver lam L)) * (1 - exp (-depthOver lam L))) := by
        have e1 : exp (-logOneMinusExpOfNegative (depthOver lam L) - τ') =
            exp (-logOneMinusExpOfNegative (depthOver lam L)) * (exp (-depthOver lam s) * exp (depthOver lam s - τ')) := by
          rw [← exp_add, ← exp_add]; congr 1; ring
        rw [e1]
        field_simp
      rw [hq']
      have hE1 : 1 ≤ exp (depthOver lam s - τ') := one_le_exp (by linarith)
      have hE2 : exp (depthOver lam s - τ') ≤ exp (depthOver lam s) := exp_le_exp.2 (by linarith)
      generalize exp (-logOneMinusExpOfNegative (depthOver lam L)) * (1 - exp (-depthOver lam L)) = c at *
      generalize lam s * exp (-depthOver lam s) / (1 - exp (-depthOver lam L)) = V at *
      have hc0 : (0 : ℝ) < 1 - 1 / 10 ^ 9 := by norm_num
      refine ⟨fun h => h.elim, fun hs' => ?_, ?_, ?_⟩
      · rw [if_pos hs'] at hτ
        rw [← hτ, sub_self, exp_zero, mul_one, show V * c - V = V * (c - 1) by ring, abs_mul, abs_of_pos hV, div_eq_mul_one_div]
        exact mul_le_mul_of_nonneg_left (abs_le.2 hlog) hV.le
      · have h1 : V * (1 - 1 / 10 ^ 9) ≤ V * c := mul_le_mul_of_nonneg_left (by linarith [hlog.1]) hV.le
        have h2 : V * c ≤ V * exp (depthOver lam s - τ') * c := by
          have : 0 ≤ c := by linarith [hlog.1]
          exact mul_le_mul_of_nonneg_right (le_mul_of_one_le_right hV.le hE1) this
        linarith
      · have hE0 := exp_pos (depthOver lam s)
        exact mul_le_mul (mul_le_mul_of_nonneg_left hE2 hV.le) (by linarith [hlog.2]) (by linarith [hlog.1]) (by positivity)

theorem outside_within {D : PathDetector} (S : D.Sound) {p : Path} (hp : Made D p) {a u : Vec3 ℝ} {L : ℝ}
    (hr : p.Runs D a u L) (x : Vec3 ℝ) (hx : Vec3.dot u (x - a) < -1e-3 ∨ L + 1e-3 < Vec3.dot u (x - a)) : p.withinDet x = .ok false := by
  obtain ⟨h, -⟩ := made_good S hp hr
  obtain ⟨hu, hg, hd⟩ := h.update S.proper
  obtain ⟨d1, d2, d3⟩ := hu.dets hd
  have d3 := d3 (EReal.coe_ne_top _)
  rw [EReal.toReal_coe] at d3
  have hl : p.update.lastInf = false := by rw [hu.lastInf]; exact decide_eq_false (EReal.coe_ne_top _)
  unfold Path.withinDet
  simp only [hu.firstInf, hl, Bool.or_self, Bool.false_eq_true, if_false, hd, if_true, d1, d2, d3]
  have e0 : Vec3.dot u (a - x) = -Vec3.dot u (x - a) := by simp [Vec3.dot]; ring
  have e1 : Vec3.dot u (a + Vec3.smul L u - x) = L * Vec3.dot u u - Vec3.dot u (x - a) := by simp [Vec3.dot]; ring
  rw [e0, e1, h.unit, mul_one]
  rw [Res.ok.injEq, Bool.and_eq_false_iff, decide_eq_false_iff_not, decide_eq_false_iff_not]
  rcases hx with hx | hx
  · left
    rw [if_neg (by intro h; linarith [h.2])]
    norm_num at hx ⊢
    linarith
  · right
    rw [if_neg (by intro h; linarith [h.2])]
    norm_num at hx ⊢
    linarith

/-- C72: no density is reported for points more than 1 mm before the start or behind the end of the path. -/
theorem C72_outside {D : PathDetector} (S : D.Sound) {k : Totals} {p : Path} (hp : Made D p) {a u : Vec3 ℝ} {L : ℝ}
    (hr : p.Runs D a u L) (x : Vec3 ℝ) (hx : Vec3.dot u (x - a) < -1e-3 ∨ L + 1e-3 < Vec3.dot u (x - a)) (guard : Bool) :
    densityOn guard p k x = .ok 0 := by
  unfold densityOn
  rw [outside_within S hp hr x hx]
  simp [Res.bind]

/-- C72: the bounds reported for a vertex on the path are the ends of the path. -/
theorem C72_bounds {D : PathDetector} (S : D.Sound) {p : Path} (hp : Made D p) {a u : Vec3 ℝ} {L : ℝ}
    (hr : p.Runs D a u L) {s : ℝ} (h0 : 0 ≤ s) (h1 : s ≤ L) (check : Bool) :
    boundsOn check p (a + Vec3.smul s u) = .ok (a, a + Vec3.smul L u) := by
  obtain ⟨h, -⟩ := made_good S hp hr
  unfold boundsOn
  rw [within_eq S.proper h h0 h1, hr.first, hr.last]
  cases check <;> simp [Res.bind]

/-- C72 does not reach paths of at most 1e-5 m through material: whatever the density, no vertex is ever drawn there. -/
theorem C72_short_fails {D : PathDetector} (S : D.Sound) {k : Totals} (hk : k.Usable D) (hne : k.targets ≠ []) {p : Path} (hp : Made D p) {a u : Vec3 ℝ} {L : ℝ}
    (hr : p.Runs D a u L) (hL : L ≤ 1e-5) (y : ℝ) : vertexOn p k y = .throws .injectionFailure := by
  obtain ⟨hi, hf⟩ := made_good S hp hr
  obtain ⟨r, lam, X, h⟩ := onLine S hk hi hf
  unfold vertexOn
  rw [h.depthShort hne hL]
  simp [Res.bind]

/-- A detector filled with one material that has one target of each kind per gram. -/
noncomputable def filled : PathDetector := { homogeneous with model := ⟨homogeneous.model.sectors, fun _ _ => 1⟩ }

theorem filled_sound : filled.Sound := by
  have h := homogeneous_sound
  refine ⟨h.proper, h.casts, ?_, h.pos, h.inv⟩
  intro x v hv
  obtain ⟨L, ⟨h1, h2, h3, h4, h5, h6⟩, h7⟩ := h.setup x v hv
  exact ⟨L, ⟨h1, h2, h3, h4, h5, h6⟩, h7⟩

/-- Its lines have no outer bounds. -/
theorem filled_bounds {I : Line} {x v : Vec3 ℝ} (hx : I = filled.cast x v) : outerBounds I.hits = [] := by
  rw [hx]
  obtain ⟨hp, -⟩ := C26_sort_exists [(⟨⊥, intMin, true⟩ : Hit EReal), ⟨⊤, intMin, false⟩]
  have hm : ∀ h ∈ (filled.cast x v).hits, ¬ intMin < h.hierarchy := by
    intro h hh
    have := hp.mem_iff.1 hh
    simp only [List.mem_cons, List.not_mem_nil, or_false] at this
    rcases this with rfl | rfl <;> simp
  have h1 : ∀ l : List (Hit EReal), (∀ h ∈ l, ¬ intMin < h.hierarchy) → l.find? (fun h : Hit EReal => decide (intMin < h.hierarchy)) = none := by
    intro l hl
    rw [List.find?_eq_none]
    intro h hh
    simpa using hl h hh
  unfold outerBounds
  simp only
  rw [h1 _ hm, h1 _ (fun h hh => hm h (List.mem_of_mem_drop (List.mem_reverse.1 hh)))]
  rfl

/-- The hypotheses are met: a ray of 5 m in a filled detector, with two targets. -/
example : filled.Sound ∧ (⟨[(2212, 1), (2112, 3)], none⟩ : Totals).Usable filled ∧ ∃ p, Made filled p ∧ p.Runs filled 0 ⟨0, 0, 1⟩ 5 := by
  refine ⟨filled_sound, Or.inl ⟨by simp, rfl, ?_, ?_⟩, ?_⟩
  · intro sec _
    simp [DetModel.composition, filled]
    norm_num
  · intro sec _ x hx
    simp only [List.mem_cons, List.not_mem_nil, or_false] at hx
    rcases hx with rfl | rfl <;> simp [filled]
  · have hn : Vec3.norm (⟨0, 0, 1⟩ : Vec3 ℝ) = 1 := by simp [Vec3.norm, Vec3.dot]
    obtain ⟨i1, i2⟩ := ray_good (start := 0) (dir := ⟨0, 0, 1⟩) (length := ((5 : ℝ) : EReal)) filled_sound (by rw [hn]; exact one_ne_zero)
      (by exact_mod_cast (by norm_num : (0 : ℝ) ≤ 5))
    obtain ⟨r, r1, r2, r3, r4, r5, -⟩ := i1.prepare filled_sound.proper (fun _ : True => i2)
    have hdir : Vec3.normalize (⟨0, 0, 1⟩ : Vec3 ℝ) = ⟨0, 0, 1⟩ := normalize_of_unit (by simp [Vec3.dot])
    rw [hdir] at r2
    refine ⟨r, .ray 0 ⟨0, 0, 1⟩ ((5 : ℝ) : EReal) r (by rw [hn]; exact one_ne_zero) (by exact_mod_cast (by norm_num : (0 : ℝ) ≤ 5)) ?_, r2.runs filled_sound.proper⟩
    obtain ⟨x, v, -, hx, -⟩ := r3 trivial r5
    unfold rayPath Path.clip
    rw [r1]
    simp only [Res.bind]
    rw [filled_bounds hx]

end Siren.Distributions
