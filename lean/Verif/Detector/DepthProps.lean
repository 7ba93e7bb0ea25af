import Verif.Detector.DepthLemmas

set_option autoImplicit false

/-!
# C20: column depth along a line

Specification: `Setup` says that an intersection list belongs to a line through a set of sectors; `IsDensityAlong` says
that a function gives, at each point of the line, the density of the highest-level sector containing the point.
-/

namespace Siren.Detector

open MeasureTheory

/-- The point of the line at parameter `t`. -/
def Line.at (I : Line) (t : ℝ) : Vec3 ℝ := I.position + Vec3.smul t I.direction

/-- The contract of a density distribution: `Integral` is the integral of `Evaluate` along the direction (see C52 for
the distributions that are proved to satisfy it), and `Evaluate` is integrable along every line. -/
structure Density.Lawful (d : Density) : Prop where
  integral_eq : ∀ (p dir : Vec3 ℝ) (len : ℝ), Vec3.dot dir dir = 1 → 0 ≤ len →
    d.integral p dir (len : EReal) = ∫ u in (0 : ℝ)..len, d.evaluate (p + Vec3.smul u dir)
  integrable : ∀ (p dir : Vec3 ℝ) (x y : ℝ), Vec3.dot dir dir = 1 →
    IntervalIntegrable (fun u => d.evaluate (p + Vec3.smul u dir)) volume x y

/-- `I` is the sorted intersection list of a line with unit direction through the sectors `L`, which the model knows. -/
structure Setup (m : DetModel) (L : Layout EReal) (I : Line) : Prop where
  unit : Vec3.dot I.direction I.direction = 1
  wf : L.WF
  sorted : IsSortOf I.hits L.hits
  known : ∀ s ∈ L.sectors, ∃ sec ∈ m.sectors, sec.level = s.level
  distinct : (m.sectors.map Sector.level).Nodup
  lawful : ∀ sec ∈ m.sectors, sec.density.Lawful

/-- `ρ t` is the density, at parameter `t`, of the highest-level sector containing that point. -/
def IsDensityAlong (m : DetModel) (L : Layout EReal) (I : Line) (ρ : ℝ → ℝ) : Prop :=
  ∀ t : ℝ, ∀ sec ∈ m.sectors, L.Owner (t : EReal) sec.level → ρ t = sec.density.evaluate (I.at t)

/-- The parameter is inside the all-enclosing sector. -/
def Layout.Spans (L : Layout EReal) (t : ℝ) : Prop := L.lo < (t : EReal) ∧ (t : EReal) < L.hi

/-- The parameter is inside the all-enclosing sector or at one of its ends. -/
def Layout.Reaches (L : Layout EReal) (t : ℝ) : Prop := L.lo ≤ (t : EReal) ∧ (t : EReal) ≤ L.hi

theorem Layout.Spans.reaches {L : Layout EReal} {t : ℝ} (h : L.Spans t) : L.Reaches t := ⟨le_of_lt h.1, le_of_lt h.2⟩

/-! ### Lemmas -/

theorem getSector_of_mem {m : DetModel} (hn : (m.sectors.map Sector.level).Nodup) {sec : Sector} (h : sec ∈ m.sectors) :
    m.getSector sec.level = .ok sec := by
  unfold DetModel.getSector
  have : m.sectors.find? (fun s => s.level == sec.level) = some sec := by
    generalize m.sectors = l at hn h
    induction l with
    | nil => simp at h
    | cons a l ih =>
      simp only [List.map_cons, List.nodup_cons] at hn
      rcases List.mem_cons.1 h with rfl | h
      · simp
      · have : a.level ≠ sec.level := fun e => hn.1 (by rw [e]; exact List.mem_map_of_mem h)
        rw [List.find?_cons_of_neg (by simpa using this)]
        exact ih hn.2 h
  rw [this]

theorem withLine_forward {α : Type} (I : Line) (hu : Vec3.dot I.direction I.direction = 1) (a b : ℝ) (h : a < b)
    (zero : α) (f : Vec3 ℝ → ℝ → ℝ → Bool → Res α) :
    withLine I (I.at a) (I.at b) zero f = f I.direction (b - a) (-a) false := by
  have e1 : I.at b - I.at a = Vec3.smul (b - a) I.direction := by
    ext <;> simp [Line.at] <;> ring
  have e2 : Vec3.norm (I.at b - I.at a) = b - a := by
    rw [e1, Vec3.norm_smul_unit _ _ hu, abs_of_pos (by linarith)]
  have hne : b - a ≠ 0 := by linarith
  have e3 : Vec3.normalize (I.at b - I.at a) = I.direction := by
    unfold Vec3.normalize; rw [e2, e1]
    ext <;> simp <;> field_simp
  have e4 : Vec3.dot (I.position - I.at a) I.direction = -a := by
    have : Vec3.dot (I.position - I.at a) I.direction = -a * Vec3.dot I.direction I.direction := by
      simp [Line.at, Vec3.dot]; ring
    rw [this, hu, mul_one]
  unfold withLine
  simp only [e2, hne, if_false, e3, hu, e4]
  norm_num

theorem withLine_backward {α : Type} (I : Line) (hu : Vec3.dot I.direction I.direction = 1) (a b : ℝ) (h : b < a)
    (zero : α) (f : Vec3 ℝ → ℝ → ℝ → Bool → Res α) :
    withLine I (I.at a) (I.at b) zero f = f (-I.direction) (a - b) a true := by
  have e1 : I.at b - I.at a = Vec3.smul (b - a) I.direction := by
    ext <;> simp [Line.at] <;> ring
  have e2 : Vec3.norm (I.at b - I.at a) = a - b := by
    rw [e1, Vec3.norm_smul_unit _ _ hu, abs_of_neg (by linarith)]; ring
  have hne : a - b ≠ 0 := by linarith
  have e3 : Vec3.normalize (I.at b - I.at a) = -I.direction := by
    unfold Vec3.normalize; rw [e2, e1]
    ext <;> simp <;> field_simp <;> ring
  have e4 : Vec3.dot (I.position - I.at a) (-I.direction) = a := by
    have : Vec3.dot (I.position - I.at a) (-I.direction) = a * Vec3.dot I.direction I.direction := by
      simp [Line.at, Vec3.dot]; ring
    rw [this, hu, mul_one]
  have e5 : Vec3.dot I.direction (-I.direction) = -1 := by
    have : Vec3.dot I.direction (-I.direction) = - Vec3.dot I.direction I.direction := by
      simp [Vec3.dot]; ring
    rw [this, hu]
  unfold withLine
  simp only [e2, hne, if_false, e3, e4, e5]
  norm_num

theorem withLine_same {α : Type} (I : Line) (p : Vec3 ℝ) (zero : α) (f : Vec3 ℝ → ℝ → ℝ → Bool → Res α) :
    withLine I p p zero f = .ok zero := by
  have : Vec3.norm (p - p) = 0 := by
    simp [Vec3.norm, Vec3.dot]
  unfold withLine
  simp only [this, if_true]

theorem pieces_integral (lv : Int → Prop) (own : ℝ → Int → Prop) (ev : Int → ℝ → ℝ) (R : ℝ → ℝ)
    (hR : ∀ s lvl, lv lvl → own s lvl → R s = ev lvl s)
    (hint : ∀ lvl, lv lvl → ∀ x y, IntervalIntegrable (ev lvl) volume x y) (pieces : List Piece) :
    ∀ x y, GoodPieces lv own x y pieces → x ≤ y ∧ IntervalIntegrable R volume x y := by
  induction pieces with
  | nil => intro x y h; rw [show x = y from h]; exact ⟨le_refl _, by simp⟩
  | cons p ps ih =>
    rintro x y ⟨e1, e2, e3, e4, e5⟩
    obtain ⟨i1, i2⟩ := ih _ _ e5
    refine ⟨le_trans e2 i1, IntervalIntegrable.trans ?_ i2⟩
    refine (hint p.level e3 x p.stop).congr_uIoo ?_
    rw [Set.uIoo_of_le e2]
    intro s hs
    exact (hR s _ e3 (e4 s hs.1 hs.2)).symm

theorem pieces_sum (lv : Int → Prop) (own : ℝ → Int → Prop) (ev : Int → ℝ → ℝ) (R : ℝ → ℝ)
    (hR : ∀ s lvl, lv lvl → own s lvl → R s = ev lvl s)
    (hint : ∀ lvl, lv lvl → ∀ x y, IntervalIntegrable (ev lvl) volume x y)
    (add : ℝ → Int → ℝ → ℝ → Res ℝ)
    (hadd : ∀ acc lvl start len, lv lvl → 0 ≤ len → add acc lvl start len = .ok (acc + ∫ s in start..start + len, ev lvl s))
    (pieces : List Piece) : ∀ x y acc, GoodPieces lv own x y pieces →
      runPieces add pieces acc = .ok (acc + ∫ s in x..y, R s) := by
  induction pieces with
  | nil => intro x y acc h; rw [show x = y from h]; simp [runPieces]
  | cons p ps ih =>
    rintro x y acc ⟨e1, e2, e3, e4, e5⟩
    have hi2 := pieces_integral lv own ev R hR hint ps _ _ e5
    have hc : ∫ s in x..p.stop, ev p.level s = ∫ s in x..p.stop, R s := by
      refine intervalIntegral.integral_congr_Ioo_of_le e2 ?_
      intro s hs
      exact (hR s _ e3 (e4 s hs.1 hs.2)).symm
    have hi1 : IntervalIntegrable R volume x p.stop := by
      refine (hint p.level e3 x p.stop).congr_uIoo ?_
      rw [Set.uIoo_of_le e2]
      intro s hs
      exact (hR s _ e3 (e4 s hs.1 hs.2)).symm
    unfold runPieces
    rw [hadd acc p.level p.start _ e3 (by rw [e1]; linarith)]
    simp only [Res.bind]
    rw [ih _ _ _ e5, e1, add_sub_cancel, hc, add_assoc, intervalIntegral.integral_add_adjacent_intervals hi1 hi2.2]

/-- Level `lvl` belongs to a known sector. -/
def Known (m : DetModel) (lvl : Int) : Prop := ∃ sec ∈ m.sectors, sec.level = lvl

theorem GoodPieces.mono {lv lv' : Int → Prop} {own own' : ℝ → Int → Prop} (h : ∀ l, lv l → lv' l)
    (h' : ∀ s l, own s l → own' s l) (pieces : List Piece) :
    ∀ x y, GoodPieces lv own x y pieces → GoodPieces lv' own' x y pieces := by
  induction pieces with
  | nil => intro x y h; exact h
  | cons p ps ih =>
    rintro x y ⟨e1, e2, e3, e4, e5⟩
    exact ⟨e1, e2, h _ e3, fun s a b => h' _ _ (e4 s a b), ih _ _ e5⟩

/-- The density of a level, evaluated along a walk. -/
noncomputable def levelDensity (m : DetModel) (p dir : Vec3 ℝ) (lvl : Int) (s : ℝ) : ℝ :=
  match m.getSector lvl with
  | .ok sec => sec.density.evaluate (p + Vec3.smul s dir)
  | _ => 0

theorem levelDensity_of_mem {m : DetModel} (hn : (m.sectors.map Sector.level).Nodup) {sec : Sector}
    (h : sec ∈ m.sectors) (p dir : Vec3 ℝ) :
    levelDensity m p dir sec.level = fun s => sec.density.evaluate (p + Vec3.smul s dir) := by
  funext s; unfold levelDensity; rw [getSector_of_mem hn h]

theorem integral_shift (d : Density) (hd : d.Lawful) (p dir : Vec3 ℝ) (hu : Vec3.dot dir dir = 1) (start len : ℝ)
    (hl : 0 ≤ len) :
    d.integral (p + Vec3.smul start dir) dir (len : EReal) =
      ∫ s in start..start + len, d.evaluate (p + Vec3.smul s dir) := by
  rw [hd.integral_eq _ _ _ hu hl]
  have := intervalIntegral.integral_comp_add_left (a := 0) (b := len)
    (fun s => d.evaluate (p + Vec3.smul s dir)) start
  rw [add_zero] at this
  rw [← this]
  congr 1; funext u
  congr 1
  ext <;> simp <;> ring

/-- What a depth query sees: the walk from parameter `a` to parameter `b`, in walk coordinates `0 .. |b - a|`. -/
theorem query_pieces {m : DetModel} {L : Layout EReal} {I : Line} (S : Setup m L I) (a b : ℝ) (hab : a ≠ b)
    (ha : L.Spans a) (hb : L.Reaches b) :
    ∃ (neg : Bool) (pieces : List Piece),
      (neg = decide (b < a)) ∧
      GoodPieces (Known m) (fun s lvl => L.Owner ((if neg then a - s else a + s : ℝ) : EReal) lvl) 0 |b - a| pieces ∧
      (∀ {α : Type} (zero : α) (f : Vec3 ℝ → ℝ → ℝ → Bool → Res α),
        withLine I (I.at a) (I.at b) zero f =
          f (if neg then -I.direction else I.direction) |b - a| (if neg then a else -a) neg) ∧
      ∀ (σ : Type) (add : σ → Int → ℝ → ℝ → Res σ) (s : σ),
        sectorLoop (depthCallback (if neg then a else -a) neg |b - a| add) I.hits neg s = runPieces add pieces s := by
  rcases lt_or_gt_of_ne hab with h | h
  · refine ⟨false, ?_⟩
    have habs : |b - a| = b - a := abs_of_pos (by linarith)
    obtain ⟨pieces, p1, p2⟩ := line_pieces L S.wf I.hits S.sorted false (-a) (b - a) (by linarith)
      (by simpa using ha.1) (by simp only [Bool.false_eq_true, if_false]; rw [show b - a - -a = b by ring]; exact hb.2)
    refine ⟨pieces, by simp [le_of_lt h], ?_, ?_, ?_⟩
    · rw [habs]
      refine GoodPieces.mono ?_ ?_ pieces _ _ p1
      · rintro l ⟨s, hs, rfl⟩; exact S.known s hs
      · intro s l hl
        simp only [Bool.false_eq_true, if_false] at hl ⊢
        rwa [show a + s = s - -a by ring]
    · intro α zero f
      rw [withLine_forward I S.unit a b h, habs]; rfl
    · intro σ add s
      rw [habs]; exact p2 σ add s
  · refine ⟨true, ?_⟩
    have habs : |b - a| = a - b := by rw [abs_of_neg (by linarith)]; ring
    obtain ⟨pieces, p1, p2⟩ := line_pieces L S.wf I.hits S.sorted true a (a - b) (by linarith)
      (by simpa using ha.2) (by simp only [if_true]; rw [show a - (a - b) = b by ring]; exact hb.1)
    refine ⟨pieces, by simp [h], ?_, ?_, ?_⟩
    · rw [habs]
      refine GoodPieces.mono ?_ ?_ pieces _ _ p1
      · rintro l ⟨s, hs, rfl⟩; exact S.known s hs
      · intro s l hl; exact hl
    · intro α zero f
      rw [withLine_backward I S.unit a b h, habs]; rfl
    · intro σ add s
      rw [habs]; exact p2 σ add s

/-- Change of variable between walk coordinates and line parameters. -/
theorem integral_walk (ρ : ℝ → ℝ) (a b : ℝ) :
    ∫ s in (0 : ℝ)..|b - a|, ρ (if b < a then a - s else a + s) = ∫ t in min a b..max a b, ρ t := by
  by_cases h : b < a
  · simp only [h, if_true]
    rw [abs_of_neg (by linarith), intervalIntegral.integral_comp_sub_left]
    rw [min_eq_right (le_of_lt h), max_eq_left (le_of_lt h)]
    congr 1 <;> ring
  · have h' := not_lt.1 h
    simp only [h, if_false]
    rw [abs_of_nonneg (by linarith), intervalIntegral.integral_comp_add_left]
    rw [min_eq_left h', max_eq_right h']
    congr 1 <;> ring

theorem integrable_walk (ρ : ℝ → ℝ) (a b : ℝ)
    (h : IntervalIntegrable (fun s => ρ (if b < a then a - s else a + s)) volume 0 |b - a|) :
    IntervalIntegrable ρ volume a b := by
  by_cases hab : b < a
  · simp only [hab, if_true] at h
    rw [abs_of_neg (by linarith)] at h
    have := h.comp_sub_left a
    simp only [sub_sub_cancel, sub_zero] at this
    convert this using 1; ring
  · simp only [hab, if_false] at h
    rw [abs_of_nonneg (by linarith)] at h
    have := h.comp_sub_right a
    simp only [add_sub_cancel, zero_add, sub_add_cancel] at this
    exact this

theorem walkDensity {m : DetModel} {L : Layout EReal} {I : Line} (S : Setup m L I) {ρ : ℝ → ℝ}
    (hρ : IsDensityAlong m L I ρ) (a : ℝ) (neg : Bool) (s : ℝ) (lvl : Int) (hl : Known m lvl)
    (ho : L.Owner ((if neg then a - s else a + s : ℝ) : EReal) lvl) :
    ρ (if neg then a - s else a + s) =
      levelDensity m (I.at a) (if neg then -I.direction else I.direction) lvl s := by
  obtain ⟨sec, hsec, rfl⟩ := hl
  rw [levelDensity_of_mem S.distinct hsec, hρ _ sec hsec ho]
  congr 1
  cases neg <;> ext <;> simp [Line.at] <;> ring

theorem unit_dir {I : Line} (hu : Vec3.dot I.direction I.direction = 1) (neg : Bool) :
    Vec3.dot (if neg then -I.direction else I.direction) (if neg then -I.direction else I.direction) = 1 := by
  rw [← hu]; cases neg <;> simp [Vec3.dot]

theorem levelDensity_integrable {m : DetModel} {L : Layout EReal} {I : Line} (S : Setup m L I) (p dir : Vec3 ℝ)
    (hu : Vec3.dot dir dir = 1) (lvl : Int) (hl : Known m lvl) (x y : ℝ) : IntervalIntegrable (levelDensity m p dir lvl) volume x y := by
  obtain ⟨sec, hsec, rfl⟩ := hl
  rw [levelDensity_of_mem S.distinct hsec]
  exact (S.lawful sec hsec).integrable _ _ _ _ hu

/-! ### The property -/

/-- C20 (column depth is the integral of the density of the containing sector, in g/cm² for distances in m): for every
layout, every line through it and every two points of the line, the first inside the enclosing sector and the second
inside or at its end. -/
theorem C20_column_depth_is_integral {m : DetModel} {L : Layout EReal} {I : Line} (S : Setup m L I) {ρ : ℝ → ℝ}
    (hρ : IsDensityAlong m L I ρ) (a b : ℝ) (ha : L.Spans a) (hb : L.Reaches b) :
    IntervalIntegrable ρ volume a b ∧
    m.columnDepth I (I.at a) (I.at b) = .ok (100 * ∫ t in min a b..max a b, ρ t) := by
  by_cases hab : a = b
  · subst hab
    refine ⟨by simp, ?_⟩
    unfold DetModel.columnDepth
    rw [withLine_same]; simp
  · obtain ⟨neg, pieces, hneg, hp, hw, hl⟩ := query_pieces S a b hab ha hb
    have hR := fun s lvl h1 h2 => walkDensity S hρ a neg s lvl h1 h2
    have hint := fun lvl h => levelDensity_integrable S (I.at a) (if neg then -I.direction else I.direction)
      (unit_dir S.unit neg) lvl h
    have hI := (pieces_integral _ _ _ _ hR hint pieces _ _ hp).2
    refine ⟨?_, ?_⟩
    · apply integrable_walk
      subst hneg
      simpa using hI
    · unfold DetModel.columnDepth
      rw [hw, hl, pieces_sum _ _ _ _ hR hint _ ?_ pieces _ _ 0 hp]
      · simp only [Res.bind, zero_add]
        have := integral_walk ρ a b
        subst hneg
        simp only [decide_eq_true_eq]
        rw [this, mul_comm]
      · intro acc lvl start len hlv hlen
        obtain ⟨sec, hsec, rfl⟩ := hlv
        rw [getSector_of_mem S.distinct hsec, levelDensity_of_mem S.distinct hsec]
        simp only [Res.bind]
        rw [integral_shift _ (S.lawful sec hsec) _ _ (unit_dir S.unit neg) _ _ hlen]

/-- C20: swapping the endpoints does not change the column depth. -/
theorem C20_symmetric {m : DetModel} {L : Layout EReal} {I : Line} (S : Setup m L I) {ρ : ℝ → ℝ}
    (hρ : IsDensityAlong m L I ρ) (a b : ℝ) (ha : L.Spans a) (hb : L.Spans b) :
    m.columnDepth I (I.at a) (I.at b) = m.columnDepth I (I.at b) (I.at a) := by
  rw [(C20_column_depth_is_integral S hρ a b ha hb.reaches).2, (C20_column_depth_is_integral S hρ b a hb ha.reaches).2, min_comm,
    max_comm]

/-- C20: the column depth from `a` to `c` is the sum of those from `a` to `b` and from `b` to `c` for `b` between. -/
theorem C20_additive {m : DetModel} {L : Layout EReal} {I : Line} (S : Setup m L I) {ρ : ℝ → ℝ}
    (hρ : IsDensityAlong m L I ρ) (a b c : ℝ) (ha : L.Spans a) (hb : L.Spans b) (hc : L.Reaches c)
    (h : (a ≤ b ∧ b ≤ c) ∨ (c ≤ b ∧ b ≤ a)) :
    ∃ x y z, m.columnDepth I (I.at a) (I.at b) = .ok x ∧ m.columnDepth I (I.at b) (I.at c) = .ok y ∧
      m.columnDepth I (I.at a) (I.at c) = .ok z ∧ z = x + y := by
  obtain ⟨i1, h1⟩ := C20_column_depth_is_integral S hρ a b ha hb.reaches
  obtain ⟨i2, h2⟩ := C20_column_depth_is_integral S hρ b c hb hc
  obtain ⟨i3, h3⟩ := C20_column_depth_is_integral S hρ a c ha hc
  refine ⟨_, _, _, h1, h2, h3, ?_⟩
  rcases h with ⟨hab, hbc⟩ | ⟨hcb, hba⟩
  · rw [min_eq_left hab, max_eq_right hab, min_eq_left hbc, max_eq_right hbc, min_eq_left (hab.trans hbc),
      max_eq_right (hab.trans hbc), ← intervalIntegral.integral_add_adjacent_intervals i1 i2]
    ring
  · rw [min_eq_right hba, max_eq_left hba, min_eq_right hcb, max_eq_left hcb, min_eq_right (hcb.trans hba),
      max_eq_left (hcb.trans hba), ← intervalIntegral.integral_add_adjacent_intervals i2.symm i1.symm]
    ring

/-- C20: the column depth is non-negative when the densities are. -/
theorem C20_nonneg {m : DetModel} {L : Layout EReal} {I : Line} (S : Setup m L I) {ρ : ℝ → ℝ}
    (hρ : IsDensityAlong m L I ρ) (hpos : ∀ t, 0 ≤ ρ t) (a b : ℝ) (ha : L.Spans a) (hb : L.Reaches b) :
    ∃ x, m.columnDepth I (I.at a) (I.at b) = .ok x ∧ 0 ≤ x := by
  refine ⟨_, (C20_column_depth_is_integral S hρ a b ha hb).2, ?_⟩
  have := intervalIntegral.integral_nonneg (μ := volume) (f := ρ) (le_trans (min_le_left a b) (le_max_left a b))
    (fun t _ => hpos t)
  linarith

/-- Every setup has exactly one such density inside the enclosing sector: the specification `IsDensityAlong` is
satisfiable and determines the density. -/
theorem C20_density_exists {m : DetModel} {L : Layout EReal} {I : Line} (S : Setup m L I) :
    ∃ ρ, IsDensityAlong m L I ρ := by
  classical
  refine ⟨fun t => if h : ∃ sec ∈ m.sectors, L.Owner (t : EReal) sec.level then
    h.choose.density.evaluate (I.at t) else 0, ?_⟩
  intro t sec hsec ho
  have h : ∃ sec ∈ m.sectors, L.Owner (t : EReal) sec.level := ⟨sec, hsec, ho⟩
  simp only [h, dif_pos]
  have hc := h.choose_spec
  have hlvl : h.choose.level = sec.level := C18_owner_unique L _ _ _ hc.2 ho
  have e1 := getSector_of_mem S.distinct hc.1
  have e2 := getSector_of_mem S.distinct hsec
  rw [hlvl, e2] at e1
  simp only [Res.ok.injEq] at e1
  rw [← e1]

/-! ### A concrete case -/

/-- A constant density (detector/public/SIREN/detector/ConstantDensityDistribution.h:69-92, see C52). -/
noncomputable def constDensity (c : ℝ) : Density where
  evaluate _ := c
  integral _ _ len := len.toReal * c
  inverse _ _ i max := if (max : EReal) < ((i.toReal / c : ℝ) : EReal) ∨ i = ⊤ then -1 else i.toReal / c
  inverseC _ _ k i max := if (max : EReal) < ((i.toReal / (c + k) : ℝ) : EReal) ∨ i = ⊤ then -1 else i.toReal / (c + k)

theorem constDensity_lawful (c : ℝ) : (constDensity c).Lawful := by
  refine ⟨?_, ?_⟩
  · intro p dir len _ _
    simp [constDensity]
  · intro p dir x y _
    simp [constDensity]

/-- An infinite enclosing sector and two overlapping inner ones. -/
noncomputable def depthExampleLayout : Layout EReal :=
  { outerLevel := -5, lo := ⊥, hi := ⊤, inner := [⟨1, [((0 : ℝ), (10 : ℝ)), ((20 : ℝ), (30 : ℝ))]⟩, ⟨2, [((5 : ℝ), (25 : ℝ))]⟩] }

noncomputable def depthExampleModel : DetModel :=
  { sectors := [⟨-5, 0, constDensity 1⟩, ⟨1, 1, constDensity 2⟩, ⟨2, 2, constDensity 3⟩]
    particleFraction := fun m t => if m = t then 1 else 0 }

noncomputable def depthExampleLine : Line :=
  { position := ⟨0, 0, 0⟩, direction := ⟨0, 0, 1⟩, hits := sortIntersections depthExampleLayout.hits }

theorem depthExample_wf : depthExampleLayout.WF := by
  have lt : ∀ x y : ℝ, x < y → (x : EReal) < (y : EReal) := fun _ _ h => EReal.coe_lt_coe_iff.2 h
  refine ⟨bot_lt_top, by simp [depthExampleLayout], by simp [depthExampleLayout], ?_, ?_⟩
  · intro s hs
    simp only [depthExampleLayout, List.mem_cons, List.not_mem_nil, or_false] at hs
    rcases hs with rfl | rfl
    · refine ⟨?_, ?_⟩
      · intro c hc
        simp only [List.mem_cons, List.not_mem_nil, or_false] at hc
        rcases hc with rfl | rfl
        · exact lt 0 10 (by norm_num)
        · exact lt 20 30 (by norm_num)
      · simpa using le_of_lt (lt 10 20 (by norm_num))
    · refine ⟨?_, by simp⟩
      intro c hc
      simp only [List.mem_cons, List.not_mem_nil, or_false] at hc
      subst hc
      exact lt 5 25 (by norm_num)
  · intro s hs c hc
    simp only [depthExampleLayout, List.mem_cons, List.not_mem_nil, or_false] at hs
    rcases hs with rfl | rfl <;> simp only [List.mem_cons, List.not_mem_nil, or_false] at hc
    · rcases hc with rfl | rfl <;> exact ⟨EReal.bot_lt_coe _, EReal.coe_lt_top _⟩
    · subst hc; exact ⟨EReal.bot_lt_coe _, EReal.coe_lt_top _⟩

/-- The hypotheses of the C20 theorems are met by a non-trivial case with an infinite enclosing sector. -/
theorem depthExample_setup : Setup depthExampleModel depthExampleLayout depthExampleLine := by
  refine ⟨by simp [depthExampleLine, Vec3.dot], depthExample_wf, C26_sort_exists _, ?_, by simp [depthExampleModel], ?_⟩
  · intro s hs
    simp only [Layout.sectors, Layout.outer, depthExampleLayout, List.mem_cons, List.not_mem_nil, or_false] at hs
    rcases hs with rfl | rfl | rfl <;> simp [depthExampleModel]
  · intro sec hsec
    simp only [depthExampleModel, List.mem_cons, List.not_mem_nil, or_false] at hsec
    rcases hsec with rfl | rfl | rfl <;> exact constDensity_lawful _

example : depthExampleLayout.Spans (-7) ∧ depthExampleLayout.Spans 22 :=
  ⟨⟨EReal.bot_lt_coe _, EReal.coe_lt_top _⟩, ⟨EReal.bot_lt_coe _, EReal.coe_lt_top _⟩⟩

end Siren.Detector
