import Verif.Detector.InverseLemmas
import Mathlib.MeasureTheory.Integral.DominatedConvergence

set_option autoImplicit false

/-! # C21: the distance for a column depth -/

namespace Siren.Detector

open MeasureTheory

/-- The contract of `InverseIntegral` (see C52 for the distributions proved to satisfy it): the distance at which the
integral reaches the request, or a negative number if it is not reached within the given length (which may be
infinite). -/
structure Density.LawfulInverse (d : Density) : Prop where
  found : ∀ (p dir : Vec3 ℝ) (T : ℝ) (max : EReal) (x : ℝ), Vec3.dot dir dir = 1 → 0 ≤ T → 0 ≤ x → (x : EReal) ≤ max →
    d.integral p dir (x : EReal) = T → d.inverse p dir (T : EReal) max = x
  notFound : ∀ (p dir : Vec3 ℝ) (T : ℝ) (max : EReal), Vec3.dot dir dir = 1 → 0 ≤ T →
    (∀ x : ℝ, 0 ≤ x → (x : EReal) ≤ max → d.integral p dir (x : EReal) ≠ T) → d.inverse p dir (T : EReal) max < 0

/-- The direction of the line, or its opposite. -/
def Line.dir (I : Line) (back : Bool) : Vec3 ℝ := if back then -I.direction else I.direction

/-- The parameter reached from `a` after walking the (signed) distance `x` in `I.dir back`. -/
def walked (a : ℝ) (back : Bool) (x : ℝ) : ℝ := if back then a - x else a + x

/-- The distance from parameter `a` to the end of the enclosing sector in `I.dir back`. -/
noncomputable def Layout.toEnd (L : Layout EReal) (a : ℝ) (back : Bool) : EReal :=
  if back then (a : EReal) - L.lo else L.hi - (a : EReal)

/-! ### Lemmas -/

theorem list_exists_max {α : Type} (f : α → Int) (P : α → Prop) (l : List α) (h : ∃ a ∈ l, P a) :
    ∃ a ∈ l, P a ∧ ∀ b ∈ l, P b → f b ≤ f a := by
  classical
  have hne : (l.toFinset.filter P).Nonempty := by
    obtain ⟨a, ha, hp⟩ := h
    exact ⟨a, by simp [ha, hp]⟩
  obtain ⟨a, ha, hm⟩ := Finset.exists_max_image _ f hne
  simp only [Finset.mem_filter, List.mem_toFinset] at ha hm
  exact ⟨a, ha.1, ha.2, fun b hb hp => hm b ⟨hb, hp⟩⟩

theorem owner_exists {m : DetModel} {L : Layout EReal} {I : Line} (S : Setup m L I) (t : ℝ) (ht : L.Spans t) :
    ∃ sec ∈ m.sectors, L.Owner (t : EReal) sec.level := by
  obtain ⟨s, hs, hin, hmax⟩ := list_exists_max LineSector.level (fun s => s.Inside (t : EReal)) L.sectors
    ⟨L.outer, by simp [Layout.sectors], (L.lo, L.hi), by simp [Layout.outer], ht.1, ht.2⟩
  obtain ⟨sec, hsec, hl⟩ := S.known s hs
  exact ⟨sec, hsec, ⟨s, hs, hl.symm, hin⟩, fun s' hs' h' => hl ▸ hmax s' hs' h'⟩

theorem coe_le_along (o : ℝ) (neg : Bool) (d : EReal) (s : ℝ) :
    (s : EReal) ≤ along o neg d ↔ if neg then d ≤ ((o - s : ℝ) : EReal) else ((s - o : ℝ) : EReal) ≤ d := by
  rw [← not_lt, along_lt_coe]
  cases neg <;> simp

theorem along_toEnd (L : Layout EReal) (a : ℝ) (neg : Bool) :
    along (if neg then a else -a) neg (if neg then L.lo else L.hi) = L.toEnd a neg := by
  cases neg
  · simp only [along, Layout.toEnd, Bool.false_eq_true, if_false, EReal.coe_neg, sub_eq_add_neg]
    rw [add_comm]
  · simp only [along, Layout.toEnd, if_true, sub_eq_add_neg]

theorem walked_reaches {L : Layout EReal} {a : ℝ} (ha : L.Spans a) (neg : Bool) (s : ℝ) (hs : 0 ≤ s)
    (h : (s : EReal) ≤ L.toEnd a neg) : L.Reaches (walked a neg s) := by
  rw [← along_toEnd, coe_le_along] at h
  cases neg
  · simp only [Bool.false_eq_true, if_false, sub_neg_eq_add] at h
    simp only [walked, Bool.false_eq_true, if_false]
    refine ⟨le_trans (le_of_lt ha.1) ?_, by rwa [add_comm]⟩
    rw [EReal.coe_le_coe_iff]; linarith
  · simp only [if_true] at h
    simp only [walked, if_true]
    refine ⟨h, le_trans ?_ (le_of_lt ha.2)⟩
    rw [EReal.coe_le_coe_iff]; linarith

theorem walked_spans {L : Layout EReal} {a : ℝ} (ha : L.Spans a) (neg : Bool) (s : ℝ) (hs : 0 ≤ s)
    (h : (s : EReal) < L.toEnd a neg) : L.Spans (walked a neg s) := by
  rw [← along_toEnd, coe_lt_along] at h
  cases neg
  · simp only [Bool.false_eq_true, if_false, sub_neg_eq_add] at h
    simp only [walked, Bool.false_eq_true, if_false]
    refine ⟨lt_of_lt_of_le ha.1 ?_, by rwa [add_comm]⟩
    rw [EReal.coe_le_coe_iff]; linarith
  · simp only [if_true] at h
    simp only [walked, if_true]
    refine ⟨h, lt_of_le_of_lt ?_ ha.2⟩
    rw [EReal.coe_le_coe_iff]; linarith

theorem reaches_walked {L : Layout EReal} {a : ℝ} (neg : Bool) (s : ℝ) (h : L.Reaches (walked a neg s)) :
    (s : EReal) ≤ L.toEnd a neg := by
  rw [← along_toEnd, coe_le_along]
  cases neg
  · simp only [walked, Bool.false_eq_true, if_false] at h ⊢
    rw [sub_neg_eq_add, add_comm]; exact h.2
  · simp only [walked, if_true] at h ⊢
    exact h.1

theorem walked_integral (ρ : ℝ → ℝ) (a : ℝ) (neg : Bool) (s : ℝ) (hs : 0 ≤ s) :
    ∫ t in min a (walked a neg s)..max a (walked a neg s), ρ t = ∫ u in (0 : ℝ)..s, ρ (walked a neg u) := by
  cases neg
  · simp only [walked, Bool.false_eq_true, if_false]
    rw [intervalIntegral.integral_comp_add_left, min_eq_left (by linarith), max_eq_right (by linarith)]
    congr 1; ring
  · simp only [walked, if_true]
    rw [intervalIntegral.integral_comp_sub_left, min_eq_right (by linarith), max_eq_left (by linarith)]
    congr 1; ring

theorem walked_integrable {ρ : ℝ → ℝ} {a : ℝ} {neg : Bool} {s : ℝ} (h : IntervalIntegrable ρ volume a (walked a neg s)) :
    IntervalIntegrable (fun u => ρ (walked a neg u)) volume 0 s := by
  cases neg
  · simp only [walked, Bool.false_eq_true, if_false] at h ⊢
    have := h.comp_add_left a
    simpa using this
  · simp only [walked, if_true] at h ⊢
    have := h.comp_sub_left a
    simpa using this

theorem walkDensity' {m : DetModel} {L : Layout EReal} {I : Line} (S : Setup m L I) {ρ : ℝ → ℝ}
    (hρ : IsDensityAlong m L I ρ) (a : ℝ) (neg : Bool) (s : ℝ) (lvl : Int) (hl : Known m lvl)
    (ho : L.Owner ((walked a neg s : ℝ) : EReal) lvl) :
    ρ (walked a neg s) = levelDensity m (I.at a) (I.dir neg) lvl s := walkDensity S hρ a neg s lvl hl ho

theorem density_pos {m : DetModel} {L : Layout EReal} {I : Line} (S : Setup m L I) {ρ : ℝ → ℝ}
    (hρ : IsDensityAlong m L I ρ) (hpos : ∀ sec ∈ m.sectors, ∀ p, 0 < sec.density.evaluate p) (t : ℝ) (ht : L.Spans t) :
    0 < ρ t := by
  obtain ⟨sec, hsec, ho⟩ := owner_exists S t ht
  rw [hρ t sec hsec ho]; exact hpos sec hsec _

/-- Walk segments from parameter `a` in either direction. -/
theorem walk_from {m : DetModel} {L : Layout EReal} {I : Line} (S : Setup m L I) (a : ℝ) (ha : L.Spans a) (neg : Bool) :
    ∃ segs x, GoodSegs (Known m) (fun s lvl => L.Owner ((walked a neg s : ℝ) : EReal) lvl)
        (along (if neg then a else -a) neg) x (L.toEnd a neg) segs ∧ segs ≠ [] ∧
      (∀ pre g post, segs = pre ++ g :: post → post ≠ [] → along (if neg then a else -a) neg g.next.distance ≠ ⊤) ∧
      max x 0 = ((0 : ℝ) : EReal) ∧ 0 < L.toEnd a neg ∧
      ∀ (σ : Type) (cb : σ → Hit EReal → Hit EReal → EReal → Res (Bool × σ)) (s : σ),
        sectorLoop cb I.hits neg s = runSegments cb segs s := by
  obtain ⟨segs, g1, g2, g3, g4⟩ := walk_good L S.wf I.hits S.sorted neg (if neg then a else -a)
  rw [along_toEnd] at g1
  have hx : along (if neg then a else -a) neg (if neg then L.hi else L.lo) < ((0 : ℝ) : EReal) := by
    rw [along_lt_coe]
    cases neg
    · simpa using ha.1
    · simpa using ha.2
  have hy : ((0 : ℝ) : EReal) < L.toEnd a neg := by
    rw [← along_toEnd, coe_lt_along]
    cases neg
    · simpa using ha.2
    · simpa using ha.1
  rw [EReal.coe_zero] at hx hy
  refine ⟨segs, _, ?_, ?_, g4, by rw [EReal.coe_zero]; exact max_eq_right (le_of_lt hx), hy, g2⟩
  · have hmono : ∀ (segs : List (Segment EReal)) (lv lv' : Int → Prop) (own own' : ℝ → Int → Prop) (τ : EReal → EReal) (x y),
        (∀ l, lv l → lv' l) → (∀ s l, own s l → own' s l) → GoodSegs lv own τ x y segs → GoodSegs lv' own' τ x y segs := by
      intro segs lv lv' own own' τ
      induction segs with
      | nil => intro x y _ _ h; exact h
      | cons g gs ih =>
        rintro x y h1 h2 ⟨e1, e2, e3, e4, e5, e6⟩
        exact ⟨e1, e2, e3, h1 _ e4, fun s a b => h2 _ _ (e5 s a b), ih _ _ h1 h2 e6⟩
    refine hmono segs _ _ _ _ _ _ _ ?_ ?_ g1
    · rintro l ⟨s, hs, rfl⟩; exact S.known s hs
    · intro s l h
      cases neg
      · simp only [Bool.false_eq_true, if_false, walked] at h ⊢
        rwa [show a + s = s - -a by ring]
      · exact h
  · rintro rfl
    have : along (if neg then a else -a) neg (if neg then L.hi else L.lo) = L.toEnd a neg := g1
    rw [this] at hx
    exact absurd (lt_trans hx hy) (lt_irrefl _)

/-- The inverse query on a walk from `a`, in terms of the integral of the density. -/
theorem distance_walk {m : DetModel} {L : Layout EReal} {I : Line} (S : Setup m L I) {ρ : ℝ → ℝ}
    (hρ : IsDensityAlong m L I ρ) (hpos : ∀ sec ∈ m.sectors, ∀ p, 0 < sec.density.evaluate p)
    (hinv : ∀ sec ∈ m.sectors, sec.density.LawfulInverse) (a : ℝ) (ha : L.Spans a) (neg : Bool) (depth : ℝ)
    (hd : 0 ≤ depth) :
    (∀ s : ℝ, 0 ≤ s → (s : EReal) ≤ L.toEnd a neg → ∫ u in (0 : ℝ)..s, ρ (walked a neg u) = depth →
      ∃ c, sectorLoop (m.distanceCallback (I.at a) (I.dir neg) (if neg then a else -a) neg depth) I.hits neg (0, 0) =
        .ok (c, (s : EReal))) ∧
    ((∀ s : ℝ, 0 ≤ s → (s : EReal) ≤ L.toEnd a neg → ∫ u in (0 : ℝ)..s, ρ (walked a neg u) ≤ depth) →
      ∃ c, sectorLoop (m.distanceCallback (I.at a) (I.dir neg) (if neg then a else -a) neg depth) I.hits neg (0, 0) =
        .ok (c, L.toEnd a neg)) := by
  obtain ⟨segs, x, w1, w2, w3, w4, w5, w6⟩ := walk_from S a ha neg
  have hu : Vec3.dot (I.dir neg) (I.dir neg) = 1 := unit_dir S.unit neg
  have hint0 : ∀ v : ℝ, 0 ≤ v → (v : EReal) ≤ L.toEnd a neg →
      IntervalIntegrable (fun u => ρ (walked a neg u)) volume 0 v := fun v h0 h1 =>
    walked_integrable (C20_column_depth_is_integral S hρ a _ ha (walked_reaches ha neg v h0 h1)).1
  have key := invert_segs (Known m) (fun s lvl => L.Owner ((walked a neg s : ℝ) : EReal) lvl) (if neg then a else -a) neg
    (levelDensity m (I.at a) (I.dir neg)) (fun u => ρ (walked a neg u)) (L.toEnd a neg) depth
    (fun s lvl h1 h2 => walkDensity' S hρ a neg s lvl h1 h2)
    (fun u v h0 h1 h2 => (hint0 u h0 (le_trans (by exact_mod_cast h1) h2)).symm.trans (hint0 v (le_trans h0 h1) h2))
    (fun s h0 h1 => density_pos S hρ hpos _ (walked_spans ha neg s (le_of_lt h0) h1))
    (fun lvl start T seg => match m.getSector lvl with
      | .ok sec => sec.density.inverse (I.at a + Vec3.smul start (I.dir neg)) (I.dir neg) (T : EReal) seg
      | _ => 0)
    (fun lvl start seg => match m.getSector lvl with
      | .ok sec => sec.density.integral (I.at a + Vec3.smul start (I.dir neg)) (I.dir neg) seg
      | _ => 0)
    (by
      rintro _ start len ⟨sec, hsec, rfl⟩ hlen
      simp only [getSector_of_mem S.distinct hsec, levelDensity_of_mem S.distinct hsec]
      exact integral_shift _ (S.lawful sec hsec) _ _ hu _ _ hlen)
    (by
      rintro _ start T seg z ⟨sec, hsec, rfl⟩ hT hz hzs hi
      simp only [getSector_of_mem S.distinct hsec]
      refine (hinv sec hsec).found _ _ _ _ _ hu hT hz hzs ?_
      rw [levelDensity_of_mem S.distinct hsec] at hi
      rw [integral_shift _ (S.lawful sec hsec) _ _ hu _ _ hz, hi])
    (by
      rintro _ start T seg ⟨sec, hsec, rfl⟩ hT hne
      simp only [getSector_of_mem S.distinct hsec]
      refine (hinv sec hsec).notFound _ _ _ _ hu hT ?_
      intro z hz hzs
      rw [integral_shift _ (S.lawful sec hsec) _ _ hu _ _ hz]
      have := hne z hz hzs
      rwa [levelDensity_of_mem S.distinct hsec] at this)
    (m.distanceCallback (I.at a) (I.dir neg) (if neg then a else -a) neg depth)
    (by
      rintro s cur i last ⟨sec, hsec, hl⟩
      unfold DetModel.distanceCallback genCallback
      rw [← hl]
      simp only [getSector_of_mem S.distinct hsec, Res.bind, decide_eq_true_eq])
    w5 segs x 0 0 0 w1 w2 w3 w4 hd
  simp only [zero_add] at key
  rw [w6]
  exact key

theorem distance_unfold {m : DetModel} {L : Layout EReal} {I : Line} (S : Setup m L I) (a : ℝ) (back : Bool) (D : ℝ) :
    m.distanceForColumnDepth I (I.at a) (I.dir back) D =
      (sectorLoop (m.distanceCallback (I.at a) (I.dir (xor back (decide (D < 0))))
        (if xor back (decide (D < 0)) then a else -a) (xor back (decide (D < 0))) (|D| / 100)) I.hits
        (xor back (decide (D < 0))) (0, 0)).bind fun s => .ok (if D < 0 then -s.2 else s.2) := by
  have hneg : (D / 100 < 0) ↔ D < 0 := by constructor <;> intro h <;> linarith
  have hdir : (if D < 0 then -I.dir back else I.dir back) = I.dir (xor back (decide (D < 0))) := by
    by_cases h : D < 0 <;> cases back <;> simp [h, Line.dir]
    ext <;> simp
  have habs : (if D < 0 then D / 100 * (-1) else D / 100) = |D| / 100 := by
    by_cases h : D < 0
    · rw [if_pos h, abs_of_neg h]; ring
    · rw [if_neg h, abs_of_nonneg (not_lt.1 h)]
  have hdot : ∀ n : Bool, Vec3.dot I.direction (I.dir n) = if n then -1 else 1 := by
    intro n
    cases n
    · simp [Line.dir, S.unit]
    · have : Vec3.dot I.direction (-I.direction) = - Vec3.dot I.direction I.direction := by simp [Vec3.dot]; ring
      simp [Line.dir, this, S.unit]
  have hoff : ∀ n : Bool, Vec3.dot (I.position - I.at a) (I.dir n) = if n then a else -a := by
    intro n
    have e : Vec3.dot (I.position - I.at a) I.direction = -a := by
      have : Vec3.dot (I.position - I.at a) I.direction = -a * Vec3.dot I.direction I.direction := by
        simp [Line.at, Vec3.dot]; ring
      rw [this, S.unit, mul_one]
    cases n
    · simpa [Line.dir] using e
    · have : Vec3.dot (I.position - I.at a) (-I.direction) = -Vec3.dot (I.position - I.at a) I.direction := by
        simp [Vec3.dot]; ring
      simp [Line.dir, this, e]
  unfold DetModel.distanceForColumnDepth
  simp only [hneg, decide_eq_true_eq, hdir, habs, hdot, hoff]
  generalize xor back (decide (D < 0)) = n
  cases n
  · norm_num
  · norm_num

/-! ### The property -/

/-- C21 (inverse): if walking the signed distance `x` from a point of the line (forward for a non-negative request,
backward for a negative one) accumulates exactly the requested column depth, then `DistanceForColumnDepthFromPoint`
returns `x`, for every layout, point, direction along the line and request. In particular that distance is unique. -/
theorem C21_inverts {m : DetModel} {L : Layout EReal} {I : Line} (S : Setup m L I)
    (hpos : ∀ sec ∈ m.sectors, ∀ p, 0 < sec.density.evaluate p)
    (hinv : ∀ sec ∈ m.sectors, sec.density.LawfulInverse) (a : ℝ) (ha : L.Spans a) (back : Bool) (D x : ℝ)
    (hsign : (0 ≤ D ∧ 0 ≤ x) ∨ (D < 0 ∧ x < 0)) (hx : L.Reaches (walked a back x))
    (hD : m.columnDepth I (I.at a) (I.at (walked a back x)) = .ok |D|) :
    m.distanceForColumnDepth I (I.at a) (I.dir back) D = .ok (x : EReal) := by
  obtain ⟨ρ, hρ⟩ := C20_density_exists S
  rw [(C20_column_depth_is_integral S hρ a _ ha hx).2] at hD
  simp only [Res.ok.injEq] at hD
  have hw : walked a back x = walked a (xor back (decide (D < 0))) |x| := by
    rcases hsign with ⟨h1, h2⟩ | ⟨h1, h2⟩
    · simp [not_lt.2 h1, abs_of_nonneg h2]
    · simp only [h1, decide_true, abs_of_neg h2]
      cases back <;> simp [walked, sub_eq_add_neg]
  rw [hw] at hx hD
  rw [walked_integral _ _ _ _ (abs_nonneg x)] at hD
  obtain ⟨c, hc⟩ := (distance_walk S hρ hpos hinv a ha (xor back (decide (D < 0))) (|D| / 100)
    (by positivity)).1 |x| (abs_nonneg x) (reaches_walked _ _ hx) (by linarith)
  rw [distance_unfold S, hc]
  simp only [Res.bind]
  rcases hsign with ⟨h1, h2⟩ | ⟨h1, h2⟩
  · rw [if_neg (not_lt.2 h1), abs_of_nonneg h2]
  · rw [if_pos h1, abs_of_neg h2, EReal.coe_neg, neg_neg]

/-- C21 (available requests): every request that does not exceed the depth available up to some point ahead is answered
with a distance over which exactly the request accumulates, and which is not beyond that point. -/
theorem C21_answers {m : DetModel} {L : Layout EReal} {I : Line} (S : Setup m L I)
    (hpos : ∀ sec ∈ m.sectors, ∀ p, 0 < sec.density.evaluate p)
    (hinv : ∀ sec ∈ m.sectors, sec.density.LawfulInverse) (a : ℝ) (ha : L.Spans a) (back : Bool) (D x c : ℝ)
    (hD0 : 0 ≤ D) (hx0 : 0 ≤ x) (hx : L.Reaches (walked a back x))
    (hc : m.columnDepth I (I.at a) (I.at (walked a back x)) = .ok c) (hD : D ≤ c) :
    ∃ d : ℝ, 0 ≤ d ∧ d ≤ x ∧ m.distanceForColumnDepth I (I.at a) (I.dir back) D = .ok (d : EReal) ∧
      m.columnDepth I (I.at a) (I.at (walked a back d)) = .ok D := by
  obtain ⟨ρ, hρ⟩ := C20_density_exists S
  have hfull := C20_column_depth_is_integral S hρ a _ ha hx
  rw [hfull.2, walked_integral _ _ _ _ hx0] at hc
  simp only [Res.ok.injEq] at hc
  have hint := walked_integrable hfull.1
  have hcont : ContinuousOn (fun d => ∫ u in (0 : ℝ)..d, ρ (walked a back u)) (Set.Icc 0 x) := by
    have := intervalIntegral.continuousOn_primitive_interval (μ := volume) (a := 0) (b := x)
      (f := fun u => ρ (walked a back u)) (by
        rw [intervalIntegrable_iff_integrableOn_Icc_of_le hx0] at hint
        rwa [Set.uIcc_of_le hx0])
    rwa [Set.uIcc_of_le hx0] at this
  have hmem : D / 100 ∈ Set.Icc (∫ u in (0 : ℝ)..0, ρ (walked a back u)) (∫ u in (0 : ℝ)..x, ρ (walked a back u)) := by
    rw [intervalIntegral.integral_same]
    exact ⟨by positivity, by linarith⟩
  obtain ⟨d, ⟨hd0, hdx⟩, hd⟩ := intermediate_value_Icc hx0 hcont hmem
  have hd : ∫ u in (0 : ℝ)..d, ρ (walked a back u) = D / 100 := hd
  have hreach : L.Reaches (walked a back d) := walked_reaches ha back d hd0
    (le_trans (by exact_mod_cast hdx) (reaches_walked back x hx))
  have hcol : m.columnDepth I (I.at a) (I.at (walked a back d)) = .ok D := by
    rw [(C20_column_depth_is_integral S hρ a _ ha hreach).2, walked_integral _ _ _ _ hd0, hd]
    congr 1; ring
  exact ⟨d, hd0, hdx, C21_inverts S hpos hinv a ha back D d (Or.inl ⟨hD0, hd0⟩) hreach
    (by rw [abs_of_nonneg hD0]; exact hcol), hcol⟩

/-- C21 (requests beyond the available depth): the returned distance is the one to the end of the enclosing sector in
the direction of the walk (infinite for the default sector). The code does not signal this case otherwise. -/
theorem C21_beyond {m : DetModel} {L : Layout EReal} {I : Line} (S : Setup m L I)
    (hpos : ∀ sec ∈ m.sectors, ∀ p, 0 < sec.density.evaluate p)
    (hinv : ∀ sec ∈ m.sectors, sec.density.LawfulInverse) (a : ℝ) (ha : L.Spans a) (back : Bool) (D : ℝ)
    (hD : ∀ x : ℝ, (0 ≤ D ∧ 0 ≤ x) ∨ (D < 0 ∧ x < 0) → L.Reaches (walked a back x) →
      ∃ c, m.columnDepth I (I.at a) (I.at (walked a back x)) = .ok c ∧ c ≤ |D|) :
    m.distanceForColumnDepth I (I.at a) (I.dir back) D =
      .ok (if D < 0 then -(L.toEnd a (!back)) else L.toEnd a back) := by
  obtain ⟨ρ, hρ⟩ := C20_density_exists S
  obtain ⟨c, hc⟩ := (distance_walk S hρ hpos hinv a ha (xor back (decide (D < 0))) (|D| / 100)
    (by positivity)).2 (by
      intro s hs0 hs
      have hr := walked_reaches ha _ s hs0 hs
      rcases eq_or_lt_of_le hs0 with h0 | h0
      · rw [← h0]; simp; positivity
      have hw : ∃ x, ((0 ≤ D ∧ 0 ≤ x) ∨ (D < 0 ∧ x < 0)) ∧ walked a back x = walked a (xor back (decide (D < 0))) s := by
        by_cases h : D < 0
        · refine ⟨-s, Or.inr ⟨h, by linarith⟩, ?_⟩
          cases back <;> simp [h, walked, sub_eq_add_neg]
        · exact ⟨s, Or.inl ⟨not_lt.1 h, hs0⟩, by simp [h]⟩
      obtain ⟨x, hx1, hx2⟩ := hw
      rw [← hx2] at hr
      obtain ⟨c, hc1, hc2⟩ := hD x hx1 hr
      rw [(C20_column_depth_is_integral S hρ a _ ha hr).2, hx2, walked_integral _ _ _ _ hs0] at hc1
      simp only [Res.ok.injEq] at hc1
      linarith)
  rw [distance_unfold S, hc]
  simp only [Res.bind]
  by_cases h : D < 0
  · simp [h]
  · simp [h]

/-- C21: `DistanceForColumnDepthToPoint` walks against the given direction. -/
theorem C21_to_point {m : DetModel} {L : Layout EReal} {I : Line} (S : Setup m L I)
    (hpos : ∀ sec ∈ m.sectors, ∀ p, 0 < sec.density.evaluate p)
    (hinv : ∀ sec ∈ m.sectors, sec.density.LawfulInverse) (a : ℝ) (ha : L.Spans a) (D x : ℝ)
    (hD0 : 0 ≤ D) (hx0 : 0 ≤ x) (hx : L.Reaches (a - x))
    (hD : m.columnDepth I (I.at (a - x)) (I.at a) = .ok D) (hx' : L.Spans (a - x)) :
    m.distanceForColumnDepthToPoint I (I.at a) I.direction D = .ok (x : EReal) := by
  obtain ⟨ρ, hρ⟩ := C20_density_exists S
  have h := C21_inverts S hpos hinv a ha true D x (Or.inl ⟨hD0, hx0⟩) hx (by
    rw [abs_of_nonneg hD0, ← hD]
    exact C20_symmetric S hρ a (a - x) ha hx')
  exact h

/-! ### A concrete case -/

theorem constDensity_inverse (c : ℝ) (hc : 0 < c) : (constDensity c).LawfulInverse := by
  refine ⟨?_, ?_⟩
  · intro p dir T max x _ _ _ hxm hT
    simp only [constDensity, EReal.toReal_coe] at hT ⊢
    have : T / c = x := by rw [← hT]; field_simp
    simp only [this, EReal.coe_ne_top, or_false, not_lt.2 hxm, if_false]
  · intro p dir T max _ hT hne
    simp only [constDensity, EReal.toReal_coe, EReal.coe_ne_top, or_false] at hne ⊢
    by_cases h : max < ((T / c : ℝ) : EReal)
    · simp [h]
    · exact absurd (by field_simp) (hne (T / c) (by positivity) (not_lt.1 h))

/-- The remaining hypotheses hold in the example of C20, with positive densities in every sector. -/
example : (∀ sec ∈ depthExampleModel.sectors, ∀ p, 0 < sec.density.evaluate p) ∧
    ∀ sec ∈ depthExampleModel.sectors, sec.density.LawfulInverse := by
  constructor
  · intro sec hsec p
    simp only [depthExampleModel, List.mem_cons, List.not_mem_nil, or_false] at hsec
    rcases hsec with rfl | rfl | rfl <;> simp [constDensity]
  · intro sec hsec
    simp only [depthExampleModel, List.mem_cons, List.not_mem_nil, or_false] at hsec
    rcases hsec with rfl | rfl | rfl <;> exact constDensity_inverse _ (by norm_num)

end Siren.Detector
