import Verif.Detector.InverseProps

set_option autoImplicit false

/-! # C22: interaction depth and its inverse -/

namespace Siren.Detector

open MeasureTheory

/-- Interactions per gram and cm² in a sector: the sum over targets of particle fraction times cross section. -/
def DetModel.composition (m : DetModel) (targets : List (Int × ℝ)) (sec : Sector) : ℝ :=
  (targets.map fun t => m.particleFraction sec.materialId t.1 * t.2).sum

/-- `κ t` is the material interaction density (per cm) at parameter `t`: the density of the highest-level sector
containing that point times its composition. -/
def IsInteractionDensityAlong (m : DetModel) (L : Layout EReal) (I : Line) (targets : List (Int × ℝ)) (κ : ℝ → ℝ) : Prop :=
  ∀ t : ℝ, ∀ sec ∈ m.sectors, L.Owner (t : EReal) sec.level →
    κ t = sec.density.evaluate (I.at t) * m.composition targets sec

/-! ### Lemmas -/

theorem zipWith_zipWith_add (targets : List (Int × ℝ)) (f g : Int × ℝ → ℝ) : ∀ acc : List ℝ,
    List.zipWith (fun c t => c + g t) (List.zipWith (fun c t => c + f t) acc targets) targets =
      List.zipWith (fun c t => c + (f t + g t)) acc targets := by
  induction targets with
  | nil => intro acc; simp
  | cons t ts ih =>
    intro acc
    cases acc with
    | nil => rfl
    | cons c cs => simp [ih, add_assoc]

theorem pieces_sum_list (lv : Int → Prop) (own : ℝ → Int → Prop) (targets : List (Int × ℝ))
    (ev : Int × ℝ → Int → ℝ → ℝ) (R : Int × ℝ → ℝ → ℝ)
    (hR : ∀ t s lvl, lv lvl → own s lvl → R t s = ev t lvl s)
    (hint : ∀ t lvl, lv lvl → ∀ x y, IntervalIntegrable (ev t lvl) volume x y)
    (add : List ℝ → Int → ℝ → ℝ → Res (List ℝ))
    (hadd : ∀ acc lvl start len, lv lvl → 0 ≤ len → add acc lvl start len =
      .ok (List.zipWith (fun c t => c + ∫ s in start..start + len, ev t lvl s) acc targets))
    (pieces : List Piece) : ∀ x y acc, acc.length = targets.length → GoodPieces lv own x y pieces →
      runPieces add pieces acc = .ok (List.zipWith (fun c t => c + ∫ s in x..y, R t s) acc targets) := by
  induction pieces with
  | nil =>
    intro x y acc hlen h
    rw [show x = y from h]
    simp only [runPieces, intervalIntegral.integral_same, add_zero]
    congr 1
    clear hadd
    induction acc generalizing targets with
    | nil => simp
    | cons c cs ih =>
      cases targets with
      | nil => simp at hlen
      | cons t ts => simp only [List.zipWith_cons_cons]; rw [← ih ts (by simpa using hlen)]
  | cons p ps ih =>
    rintro x y acc hlen ⟨e1, e2, e3, e4, e5⟩
    have hc : ∀ t, ∫ s in x..p.stop, ev t p.level s = ∫ s in x..p.stop, R t s := by
      intro t
      refine intervalIntegral.integral_congr_Ioo_of_le e2 ?_
      intro s hs
      exact (hR t s _ e3 (e4 s hs.1 hs.2)).symm
    have hi1 : ∀ t, IntervalIntegrable (R t) volume x p.stop := by
      intro t
      refine (hint t p.level e3 x p.stop).congr_uIoo ?_
      rw [Set.uIoo_of_le e2]
      intro s hs
      exact (hR t s _ e3 (e4 s hs.1 hs.2)).symm
    have hi2 := fun t => (pieces_integral lv own (ev t) (R t) (hR t) (hint t) ps _ _ e5).2
    unfold runPieces
    rw [hadd acc p.level p.start _ e3 (by rw [e1]; linarith)]
    simp only [Res.bind]
    rw [ih _ _ _ (by simp [hlen]) e5, e1, zipWith_zipWith_add]
    congr 2
    funext c t
    rw [add_sub_cancel, hc t, intervalIntegral.integral_add_adjacent_intervals (hi1 t) (hi2 t)]

theorem zipWith_zero (targets : List (Int × ℝ)) (f : Int × ℝ → ℝ) :
    List.zipWith (fun (d : ℝ) (t : Int × ℝ) => d * t.2)
      (List.zipWith (fun c t => c + f t) (targets.map fun _ => 0) targets) targets = targets.map fun t => f t * t.2 := by
  induction targets with
  | nil => rfl
  | cons t ts ih => simp only [List.map_cons, List.zipWith_cons_cons, zero_add, ih]

theorem sum_integral (targets : List (Int × ℝ)) (f : Int × ℝ → ℝ → ℝ) (x y : ℝ)
    (h : ∀ t ∈ targets, IntervalIntegrable (f t) volume x y) :
    IntervalIntegrable (fun s => (targets.map fun t => f t s).sum) volume x y ∧
    ∫ s in x..y, (targets.map fun t => f t s).sum = (targets.map fun t => ∫ s in x..y, f t s).sum := by
  induction targets with
  | nil => simp
  | cons t ts ih =>
    obtain ⟨h1, h2⟩ := ih (fun t ht => h t (by simp [ht]))
    have h3 := h t (by simp)
    simp only [List.map_cons, List.sum_cons]
    exact ⟨h3.add h1, by rw [intervalIntegral.integral_add h3 h1, h2]⟩

/-! ### The property -/

/-- C22 (interaction depth): beyond the distance threshold of 1e-5 m, the interaction depth between two points of the
line is the integral of the material interaction density plus the distance over the decay length, for every layout,
targets, cross sections and decay length. -/
theorem C22_interaction_depth {m : DetModel} {L : Layout EReal} {I : Line} (S : Setup m L I) (targets : List (Int × ℝ))
    (decay : Option ℝ) {κ : ℝ → ℝ} (hκ : IsInteractionDensityAlong m L I targets κ) (a b : ℝ) (ha : L.Spans a)
    (hb : L.Reaches b) (hthr : 1e-5 < |b - a|) :
    IntervalIntegrable κ volume a b ∧
    m.interactionDepth I (I.at a) (I.at b) targets decay =
      .ok (100 * (∫ t in min a b..max a b, κ t) + match decay with | some l => |b - a| / l | none => 0) := by
  have hab : a ≠ b := by rintro rfl; norm_num at hthr
  obtain ⟨neg, pieces, hneg, hp, hw, hl⟩ := query_pieces S a b hab ha hb
  have hnorm : Vec3.norm (I.at b - I.at a) = |b - a| := by
    have e1 : I.at b - I.at a = Vec3.smul (b - a) I.direction := by ext <;> simp [Line.at] <;> ring
    rw [e1, Vec3.norm_smul_unit _ _ S.unit]
  have hdec : overDecay |b - a| decay = match decay with | some l => |b - a| / l | none => 0 := by cases decay <;> rfl
  have hu : Vec3.dot (I.dir neg) (I.dir neg) = 1 := unit_dir S.unit neg
  -- the weight of a level
  let wt : Int × ℝ → Int → ℝ := fun t lvl => match m.getSector lvl with
    | .ok sec => 100 * m.particleFraction sec.materialId t.1
    | _ => 0
  obtain ⟨ρ, hρ⟩ := C20_density_exists S
  have hfrac : ∃ φ : Int × ℝ → ℝ → ℝ, ∀ t x sec, sec ∈ m.sectors → L.Owner ((x : ℝ) : EReal) sec.level →
      φ t x = 100 * m.particleFraction sec.materialId t.1 := by
    classical
    refine ⟨fun t x => if h : ∃ sec ∈ m.sectors, L.Owner ((x : ℝ) : EReal) sec.level then
      100 * m.particleFraction h.choose.materialId t.1 else 0, ?_⟩
    intro t x sec hsec ho
    have h : ∃ sec ∈ m.sectors, L.Owner ((x : ℝ) : EReal) sec.level := ⟨sec, hsec, ho⟩
    simp only [h, dif_pos]
    have hc := h.choose_spec
    have hlvl : h.choose.level = sec.level := C18_owner_unique L _ _ _ hc.2 ho
    have e1 := getSector_of_mem S.distinct hc.1
    rw [hlvl, getSector_of_mem S.distinct hsec] at e1
    simp only [Res.ok.injEq] at e1
    rw [← e1]
  obtain ⟨φ, hφ⟩ := hfrac
  have hR : ∀ t s lvl, Known m lvl → L.Owner ((if neg then a - s else a + s : ℝ) : EReal) lvl →
      ρ (if neg then a - s else a + s) * φ t (if neg then a - s else a + s) =
        levelDensity m (I.at a) (I.dir neg) lvl s * wt t lvl := by
    rintro t s _ ⟨sec, hsec, rfl⟩ ho
    have h1 := walkDensity S hρ a neg s sec.level ⟨sec, hsec, rfl⟩ ho
    rw [h1, hφ t _ sec hsec ho]
    simp only [wt, getSector_of_mem S.distinct hsec]
    rfl
  have hint : ∀ t lvl, Known m lvl → ∀ x y,
      IntervalIntegrable (fun s => levelDensity m (I.at a) (I.dir neg) lvl s * wt t lvl) volume x y :=
    fun t lvl h x y => (levelDensity_integrable S _ _ hu lvl h x y).mul_const _
  have hrun := fun add hadd => pieces_sum_list (Known m) _ targets
    (fun t lvl s => levelDensity m (I.at a) (I.dir neg) lvl s * wt t lvl)
    (fun t s => ρ (if neg then a - s else a + s) * φ t (if neg then a - s else a + s)) hR hint add hadd pieces 0 |b - a|
    (targets.map fun _ => 0) (by simp) hp
  have hRi := fun t => (pieces_integral (Known m) _ _ _ (hR t) (hint t) pieces _ _ hp).2
  -- κ and the weighted densities
  have hκ' : ∀ s : ℝ, 0 < s → s < |b - a| → 100 * κ (if neg then a - s else a + s) =
      (targets.map fun t => ρ (if neg then a - s else a + s) * φ t (if neg then a - s else a + s) * t.2).sum := by
    intro s hs0 hs1
    have hsp : L.Spans (if neg then a - s else a + s) := by
      have hsl : s < |b - a| := hs1
      have habs : |b - a| = if neg then a - b else b - a := by
        rw [hneg]
        by_cases h : b < a
        · simp only [h, decide_true, if_true]; rw [abs_of_neg (by linarith)]; ring
        · simp only [h, decide_false, Bool.false_eq_true, if_false]; rw [abs_of_nonneg (by linarith)]
      cases neg
      · simp only [Bool.false_eq_true, if_false] at habs ⊢
        refine ⟨lt_trans ha.1 (by exact_mod_cast by linarith), lt_of_lt_of_le ?_ hb.2⟩
        rw [EReal.coe_lt_coe_iff]; linarith
      · simp only [if_true] at habs ⊢
        refine ⟨lt_of_le_of_lt hb.1 ?_, lt_trans ?_ ha.2⟩
        · rw [EReal.coe_lt_coe_iff]; linarith
        · rw [EReal.coe_lt_coe_iff]; linarith
    obtain ⟨sec, hsec, ho⟩ := owner_exists S _ hsp
    rw [hκ _ sec hsec ho, hρ _ sec hsec ho]
    have : ∀ t : Int × ℝ, sec.density.evaluate (I.at (if neg then a - s else a + s)) *
        φ t (if neg then a - s else a + s) * t.2 =
        (100 * sec.density.evaluate (I.at (if neg then a - s else a + s))) *
          (m.particleFraction sec.materialId t.1 * t.2) := by
      intro t; rw [hφ t _ sec hsec ho]; ring
    simp only [this, DetModel.composition]
    rw [List.sum_map_mul_left]; ring
  have hsum := sum_integral targets (fun t s => ρ (if neg then a - s else a + s) * φ t (if neg then a - s else a + s) * t.2)
    0 |b - a| (fun t _ => (hRi t).mul_const _)
  have hκint : IntervalIntegrable (fun s => 100 * κ (if neg then a - s else a + s)) volume 0 |b - a| := by
    refine hsum.1.congr_uIoo ?_
    rw [Set.uIoo_of_le (abs_nonneg _)]
    intro s hs
    exact (hκ' s hs.1 hs.2).symm
  have hκeq : ∫ s in (0 : ℝ)..|b - a|, 100 * κ (if neg then a - s else a + s) =
      (targets.map fun t => (∫ s in (0 : ℝ)..|b - a|,
        ρ (if neg then a - s else a + s) * φ t (if neg then a - s else a + s)) * t.2).sum := by
    rw [intervalIntegral.integral_congr_Ioo_of_le (abs_nonneg _) (fun s hs => hκ' s hs.1 hs.2), hsum.2]
    congr 1
    refine List.map_congr_left ?_
    intro t _
    rw [intervalIntegral.integral_mul_const]
  refine ⟨?_, ?_⟩
  · apply integrable_walk
    have := hκint.const_mul (1 / 100 : ℝ)
    subst hneg
    simpa [← mul_assoc] using this
  · have hwalk := integral_walk κ a b
    have hK : 100 * (∫ t in min a b..max a b, κ t) =
        (targets.map fun t => (∫ s in (0 : ℝ)..|b - a|,
          ρ (if neg then a - s else a + s) * φ t (if neg then a - s else a + s)) * t.2).sum := by
      rw [← hκeq, intervalIntegral.integral_const_mul, ← hwalk]
      subst hneg; simp
    have hpos : (0 : ℝ) < |b - a| := lt_trans (by norm_num) hthr
    unfold DetModel.interactionDepth
    rw [hnorm]
    simp only [ne_of_gt hpos, if_false, not_le.2 hthr]
    by_cases hnil : targets = []
    · subst hnil
      simp only [if_true, hdec]
      rw [hK]; simp
    · simp only [hnil, if_false]
      rw [hw, hl, hrun]
      · simp only [Res.bind]
        rw [zipWith_zero, hK, hdec]
      · rintro acc _ start len ⟨sec, hsec, rfl⟩ hlen
        rw [getSector_of_mem S.distinct hsec]
        simp only [Res.bind]
        congr 2
        funext c t
        congr 1
        rw [intervalIntegral.integral_mul_const, levelDensity_of_mem S.distinct hsec]
        have := integral_shift _ (S.lawful sec hsec) (I.at a) (I.dir neg) hu start len hlen
        simp only [wt, getSector_of_mem S.distinct hsec]
        rw [← this]
        simp only [Line.dir]
        ring

theorem interaction_unfold {m : DetModel} {L : Layout EReal} {I : Line} (S : Setup m L I) (a : ℝ) (back : Bool) (D : ℝ)
    (targets : List (Int × ℝ)) (hne : targets ≠ []) (decay : Option ℝ) :
    m.distanceForInteractionDepth I (I.at a) (I.dir back) D targets decay =
      (sectorLoop (m.interactionCallback (I.at a) (I.dir (xor back (decide (D < 0))))
        (if xor back (decide (D < 0)) then a else -a) (xor back (decide (D < 0))) |D| targets decay) I.hits
        (xor back (decide (D < 0))) (0, 0)).bind fun s => .ok (if D < 0 then -s.2 else s.2) := by
  have hdir : (if D < 0 then -I.dir back else I.dir back) = I.dir (xor back (decide (D < 0))) := by
    by_cases h : D < 0 <;> cases back <;> simp [h, Line.dir]
    ext <;> simp
  have habs : (if D < 0 then D * (-1) else D) = |D| := by
    by_cases h : D < 0
    · rw [if_pos h, abs_of_neg h]; ring
    · rw [if_neg h, abs_of_nonneg (not_lt.1 h)]
  have hdot : ∀ n : Bool, Vec3.dot I.direction (I.dir n) = if n then -1 else 1 := by
    intro n
    cases n
    · simp [Line.dir, S.unit]
    · have : Vec3.dot I.direction (-I.direction) = - Vec3.dot I.direction I.direction := by simp [Vec3.dot]; ring
      simp [Line.dir, this, S.unit]
  have hoff : ∀ n : Bool, Vec3.dot (I.position - I.at a) (I.dir n) = if n then a else -a := by
    intro n
    have e : Vec3.dot (I.position - I.at a) I.direction = -a := by
      have : Vec3.dot (I.position - I.at a) I.direction = -a * Vec3.dot I.direction I.direction := by
        simp [Line.at, Vec3.dot]; ring
      rw [this, S.unit, mul_one]
    cases n
    · simpa [Line.dir] using e
    · have : Vec3.dot (I.position - I.at a) (-I.direction) = -Vec3.dot (I.position - I.at a) I.direction := by
        simp [Vec3.dot]; ring
      simp [Line.dir, this, e]
  unfold DetModel.distanceForInteractionDepth
  simp only [hne, if_false, decide_eq_true_eq, hdir, habs, hdot, hoff]
  generalize xor back (decide (D < 0)) = n
  cases n
  · norm_num
  · norm_num

theorem interactionDensity_exists {m : DetModel} {L : Layout EReal} {I : Line} (S : Setup m L I)
    (targets : List (Int × ℝ)) : ∃ κ, IsInteractionDensityAlong m L I targets κ := by
  classical
  refine ⟨fun t => if h : ∃ sec ∈ m.sectors, L.Owner (t : EReal) sec.level then
    h.choose.density.evaluate (I.at t) * m.composition targets h.choose else 0, ?_⟩
  intro t sec hsec ho
  have h : ∃ sec ∈ m.sectors, L.Owner (t : EReal) sec.level := ⟨sec, hsec, ho⟩
  simp only [h, dif_pos]
  have hc := h.choose_spec
  have hlvl : h.choose.level = sec.level := C18_owner_unique L _ _ _ hc.2 ho
  have e1 := getSector_of_mem S.distinct hc.1
  rw [hlvl, getSector_of_mem S.distinct hsec] at e1
  simp only [Res.ok.injEq] at e1
  rw [← e1]

/-- The inverse, in terms of the integral of the material interaction density. -/
theorem interaction_inverts {m : DetModel} {L : Layout EReal} {I : Line} (S : Setup m L I)
    (hpos : ∀ sec ∈ m.sectors, ∀ p, 0 < sec.density.evaluate p)
    (hinv : ∀ sec ∈ m.sectors, sec.density.LawfulInverse) (targets : List (Int × ℝ)) (hne : targets ≠ [])
    (hcomp : ∀ sec ∈ m.sectors, 0 < m.composition targets sec) {κ : ℝ → ℝ} (hκ : IsInteractionDensityAlong m L I targets κ)
    (a : ℝ) (ha : L.Spans a) (back : Bool) (D x : ℝ)
    (hsign : (0 ≤ D ∧ 0 ≤ x) ∨ (D < 0 ∧ x < 0)) (hx : L.Reaches (walked a back x))
    (hD : 100 * (∫ t in min a (walked a back x)..max a (walked a back x), κ t) = |D|) :
    m.distanceForInteractionDepth I (I.at a) (I.dir back) D targets none = .ok (x : EReal) := by
  have hw : walked a back x = walked a (xor back (decide (D < 0))) |x| := by
    rcases hsign with ⟨h1, h2⟩ | ⟨h1, h2⟩
    · simp [not_lt.2 h1, abs_of_nonneg h2]
    · simp only [h1, decide_true, abs_of_neg h2]
      cases back <;> simp [walked, sub_eq_add_neg]
  rw [hw] at hx hD
  rw [walked_integral _ _ _ _ (abs_nonneg x)] at hD
  rw [interaction_unfold S _ _ _ _ hne]
  generalize xor back (decide (D < 0)) = neg at hx hD ⊢
  obtain ⟨segs, x0, w1, w2, w3, w4, w5, w6⟩ := walk_from S a ha neg
  have hu : Vec3.dot (I.dir neg) (I.dir neg) = 1 := unit_dir S.unit neg
  have hint0 : ∀ v : ℝ, 0 ≤ v → (v : EReal) ≤ L.toEnd a neg →
      IntervalIntegrable (fun u => 100 * κ (walked a neg u)) volume 0 v := by
    intro v h0 h1
    -- integrability on a larger stretch is not available beyond the end, so use the density's
    obtain ⟨ρ, hρ⟩ := C20_density_exists S
    rcases eq_or_lt_of_le h0 with h | h
    · rw [← h]
    · obtain ⟨neg', pieces, hn', hp, -, -⟩ := query_pieces S a (walked a neg v)
        (by
          have := ne_of_gt h
          cases neg
          · simpa [walked] using this
          · intro e; simp only [walked, if_true] at e; linarith) ha (walked_reaches ha neg v h0 h1)
      have hnn : neg' = neg := by
        rw [hn']; cases neg <;> simp [walked, h, le_of_lt h]
      rw [hnn] at hp
      have hab : |walked a neg v - a| = v := by cases neg <;> simp [walked, abs_of_pos h]
      rw [hab] at hp
      refine (pieces_integral (Known m) _ (fun lvl s => levelDensity m (I.at a) (I.dir neg) lvl s *
        (match m.getSector lvl with | .ok sec => m.composition targets sec * 100 | _ => 0)) _ ?_ ?_ pieces _ _ hp).2
      · rintro s _ ⟨sec, hsec, rfl⟩ ho
        have h1 := walkDensity S hρ a neg s sec.level ⟨sec, hsec, rfl⟩ ho
        have h2 := hκ (walked a neg s) sec hsec ho
        have h3 := hρ (walked a neg s) sec hsec ho
        have h4 : ρ (walked a neg s) = levelDensity m (I.at a) (I.dir neg) sec.level s := h1
        rw [getSector_of_mem S.distinct hsec, ← h4, h3, h2]
        ring
      · intro lvl h x y
        exact (levelDensity_integrable S _ _ hu lvl h x y).mul_const _
  have key := invert_segs (Known m) (fun s lvl => L.Owner ((walked a neg s : ℝ) : EReal) lvl) (if neg then a else -a) neg
    (fun lvl s => levelDensity m (I.at a) (I.dir neg) lvl s *
        (match m.getSector lvl with | .ok sec => m.composition targets sec * 100 | _ => 0))
    (fun u => 100 * κ (walked a neg u)) (L.toEnd a neg) |D|
    (by
      rintro s _ ⟨sec, hsec, rfl⟩ ho
      rw [hκ (walked a neg s) sec hsec ho, getSector_of_mem S.distinct hsec, levelDensity_of_mem S.distinct hsec]
      have e : I.at (walked a neg s) = I.at a + Vec3.smul s (I.dir neg) := by
        cases neg <;> ext <;> simp [Line.at, walked, Line.dir] <;> ring
      rw [e]; ring)
    (fun u v h0 h1 h2 => (hint0 u h0 (le_trans (by exact_mod_cast h1) h2)).symm.trans (hint0 v (le_trans h0 h1) h2))
    (by
      intro s h0 h1
      obtain ⟨sec, hsec, ho⟩ := owner_exists S _ (walked_spans ha neg s (le_of_lt h0) h1)
      rw [hκ _ sec hsec ho]
      have := mul_pos (hpos sec hsec (I.at (walked a neg s))) (hcomp sec hsec)
      linarith)
    (fun lvl start T seg => match m.getSector lvl with
      | .ok sec => sec.density.inverse (I.at a + Vec3.smul start (I.dir neg)) (I.dir neg)
          ((T / 100 / m.composition targets sec : ℝ) : EReal) seg
      | _ => 0)
    (fun lvl start seg => match m.getSector lvl with
      | .ok sec => sec.density.integral (I.at a + Vec3.smul start (I.dir neg)) (I.dir neg) seg *
          (m.composition targets sec * 100)
      | _ => 0)
    (by
      rintro _ start len ⟨sec, hsec, rfl⟩ hlen
      simp only [getSector_of_mem S.distinct hsec, levelDensity_of_mem S.distinct hsec]
      rw [intervalIntegral.integral_mul_const, integral_shift _ (S.lawful sec hsec) _ _ hu _ _ hlen])
    (by
      rintro _ start T seg z ⟨sec, hsec, rfl⟩ hT hz hzs hi
      simp only [getSector_of_mem S.distinct hsec, levelDensity_of_mem S.distinct hsec] at hi ⊢
      have hc := hcomp sec hsec
      refine (hinv sec hsec).found _ _ _ _ _ hu (by positivity) hz hzs ?_
      rw [intervalIntegral.integral_mul_const] at hi
      rw [integral_shift _ (S.lawful sec hsec) _ _ hu _ _ hz, ← hi]
      field_simp)
    (by
      rintro _ start T seg ⟨sec, hsec, rfl⟩ hT hn
      simp only [getSector_of_mem S.distinct hsec, levelDensity_of_mem S.distinct hsec] at hn ⊢
      have hc := hcomp sec hsec
      refine (hinv sec hsec).notFound _ _ _ _ hu (by positivity) ?_
      intro z hz hzs h
      apply hn z hz hzs
      rw [intervalIntegral.integral_mul_const, ← integral_shift _ (S.lawful sec hsec) _ _ hu _ _ hz, h]
      field_simp)
    (m.interactionCallback (I.at a) (I.dir neg) (if neg then a else -a) neg |D| targets none)
    (by
      rintro s cur i last ⟨sec, hsec, hl⟩
      unfold DetModel.interactionCallback genCallback
      rw [← hl]
      have hc : (targets.map fun t => m.particleFraction sec.materialId t.1 * t.2).sum ≠ 0 := ne_of_gt (hcomp sec hsec)
      simp only [getSector_of_mem S.distinct hsec, Res.bind, decide_eq_true_eq, hc, if_false, DetModel.composition])
    w5 segs x0 0 0 0 w1 w2 w3 w4 (abs_nonneg D)
  rw [w6]
  obtain ⟨c, hc⟩ := key.1 |x| (abs_nonneg x) (reaches_walked _ _ hx) (by
    rw [intervalIntegral.integral_const_mul, zero_add, hD])
  rw [hc]
  simp only [Res.bind]
  rcases hsign with ⟨h1, h2⟩ | ⟨h1, h2⟩
  · rw [if_neg (not_lt.2 h1), abs_of_nonneg h2]
  · rw [if_pos h1, abs_of_neg h2, EReal.coe_neg, neg_neg]

/-- C22 (inverse, no decays): for targets with a positive composition in every sector and an infinite decay length, if
walking the signed distance `x` (of more than the code's distance threshold) accumulates exactly the requested
interaction depth, `DistanceForInteractionDepthFromPoint` returns `x`.

Partial: with a finite decay length and more than one sector the returned distance is wrong
(`C22_decay_and_two_sectors_fails`). -/
theorem C22_inverts_partial {m : DetModel} {L : Layout EReal} {I : Line} (S : Setup m L I)
    (hpos : ∀ sec ∈ m.sectors, ∀ p, 0 < sec.density.evaluate p)
    (hinv : ∀ sec ∈ m.sectors, sec.density.LawfulInverse) (targets : List (Int × ℝ)) (hne : targets ≠ [])
    (hcomp : ∀ sec ∈ m.sectors, 0 < m.composition targets sec)
    (a : ℝ) (ha : L.Spans a) (back : Bool) (D x : ℝ)
    (hsign : (0 ≤ D ∧ 0 ≤ x) ∨ (D < 0 ∧ x < 0)) (hx : L.Reaches (walked a back x)) (hthr : 1e-5 < |x|)
    (hD : m.interactionDepth I (I.at a) (I.at (walked a back x)) targets none = .ok |D|) :
    m.distanceForInteractionDepth I (I.at a) (I.dir back) D targets none = .ok (x : EReal) := by
  obtain ⟨κ, hκ⟩ := interactionDensity_exists S targets
  have hdist : |walked a back x - a| = |x| := by cases back <;> simp [walked]
  rw [(C22_interaction_depth S targets none hκ a _ ha hx (by rw [hdist]; exact hthr)).2] at hD
  simp only [Res.ok.injEq, add_zero] at hD
  exact interaction_inverts S hpos hinv targets hne hcomp hκ a ha back D x hsign hx hD

/-! ### Where the code disagrees, and a concrete case -/

/-- The example of C20 with targets that interact in every sector meets the hypotheses of the theorems above. -/
example : ∀ sec ∈ depthExampleModel.sectors, 0 < depthExampleModel.composition [(0, 1), (1, 2), (2, 3)] sec := by
  intro sec hsec
  simp only [depthExampleModel, List.mem_cons, List.not_mem_nil, or_false] at hsec
  rcases hsec with rfl | rfl | rfl <;> simp [DetModel.composition, depthExampleModel]

theorem along_coe (o d : ℝ) : along o false (d : EReal) = ((o + d : ℝ) : EReal) := by
  simp [along]

theorem along_bot (o : ℝ) : along o false ⊥ = ⊥ := by simp [along]

theorem along_top (o : ℝ) : along o false ⊤ = ⊤ := by simp [along]

theorem coe_max' (a b : ℝ) : max (a : EReal) (b : EReal) = ((max a b : ℝ) : EReal) := by
  rcases le_total a b with h | h
  · rw [max_eq_right h, max_eq_right (by exact_mod_cast h)]
  · rw [max_eq_left h, max_eq_left (by exact_mod_cast h)]

/-- Two sectors of density 1 g/cm³ in which one target has fraction 1. -/
noncomputable def decayModel : DetModel :=
  { sectors := [⟨-5, 0, constDensity 1⟩, ⟨1, 0, constDensity 1⟩], particleFraction := fun _ _ => 1 }

/-- A line entering the inner sector at 0 and leaving it at 10. -/
noncomputable def decayLine : Line :=
  { position := ⟨0, 0, 0⟩, direction := ⟨0, 0, 1⟩
    hits := [⟨⊥, -5, true⟩, ⟨((0 : ℝ) : EReal), 1, true⟩, ⟨((10 : ℝ) : EReal), 1, false⟩, ⟨⊤, -5, false⟩] }

/-- The three segments of `decayLine` as the sector loop visits them. -/
theorem decayLine_loop {σ : Type} (cb : σ → Hit EReal → Hit EReal → EReal → Res (Bool × σ)) (s0 s1 s2 s3 : σ)
    (c1 : cb s0 ⟨⊥, -5, true⟩ ⟨((0 : ℝ) : EReal), 1, true⟩ ⊥ = .ok (false, s1))
    (c2 : cb s1 ⟨((0 : ℝ) : EReal), 1, true⟩ ⟨((10 : ℝ) : EReal), 1, false⟩ ((0 : ℝ) : EReal) = .ok (false, s2))
    (c3 : cb s2 ⟨⊥, -5, true⟩ ⟨⊤, -5, false⟩ ((10 : ℝ) : EReal) = .ok (true, s3)) :
    sectorLoop cb decayLine.hits false s0 = .ok s3 := by
  simp only [EReal.coe_zero] at c1 c2
  simp [sectorLoop, decayLine, loop, Stack.insert, Stack.erase, Stack.pred, c1, c2, c3, Res.bind]

/-- C22 fails with decays and more than one sector: with an interaction density of 1 per metre everywhere and a decay
length of 1 m (2 per metre in total), a request of 12 from a point 5 m before a sector boundary is answered with 8.5 m
instead of 6 m, because the decay contribution of the traversed sector is forgotten
(detector/private/DetectorModel.cxx:1976-1978). The interaction depth over 8.5 m is 17. -/
theorem C22_decay_and_two_sectors_fails :
    decayModel.distanceForInteractionDepth decayLine (decayLine.at 5) decayLine.direction 12 [(0, 1 / 100)] (some 1) =
      .ok ((8.5 : ℝ) : EReal) ∧
    decayModel.interactionDepth decayLine (decayLine.at 5) (decayLine.at 13.5) [(0, 1 / 100)] (some 1) = .ok 17 := by
  have hunit : Vec3.dot decayLine.direction decayLine.direction = 1 := by simp [decayLine, Vec3.dot]
  have hg1 : decayModel.getSector 1 = .ok ⟨1, 0, constDensity 1⟩ := rfl
  have hg2 : decayModel.getSector (-5) = .ok ⟨-5, 0, constDensity 1⟩ := rfl
  have hoff : Vec3.dot (decayLine.position - decayLine.at 5) decayLine.direction = -5 := by
    simp [decayLine, Line.at, Vec3.dot]
  constructor
  · unfold DetModel.distanceForInteractionDepth
    have h0 : ¬ ((12 : ℝ) < 0) := by norm_num
    simp only [h0, decide_false, Bool.false_eq_true, if_false, List.cons_ne_nil, hunit, hoff]
    have e1 : ¬ ¬ (|1 - (|(1 : ℝ)|)| < 1e-6) := by norm_num
    have e2 : decide ((1 : ℝ) < 0) = false := by norm_num
    simp only [e1, if_false, e2]
    have c1 : ∀ dir, decayModel.interactionCallback (decayLine.at 5) dir (-5) false 12 [(0, 1 / 100)] (some 1) (0, 0)
        ⟨⊥, -5, true⟩ ⟨((0 : ℝ) : EReal), 1, true⟩ ⊥ = .ok (false, (0, 0)) := by
      intro dir
      unfold DetModel.interactionCallback
      have : ¬ (0 : EReal) < ((-5 + 0 : ℝ) : EReal) := by
        rw [← EReal.coe_zero, EReal.coe_lt_coe_iff]; norm_num
      simp only [along_coe, this, if_false]
    have c2 : ∀ dir, decayModel.interactionCallback (decayLine.at 5) dir (-5) false 12 [(0, 1 / 100)] (some 1) (0, 0)
        ⟨((0 : ℝ) : EReal), 1, true⟩ ⟨((10 : ℝ) : EReal), 1, false⟩ ((0 : ℝ) : EReal) =
        .ok (false, (5, ((5 : ℝ) : EReal))) := by
      intro dir
      unfold DetModel.interactionCallback
      have h1 : (0 : EReal) < ((-5 + 10 : ℝ) : EReal) := by
        rw [← EReal.coe_zero, EReal.coe_lt_coe_iff]; norm_num
      have h2 : max (max ((-5 + 0 : ℝ) : EReal) 0) ((-5 + 0 : ℝ) : EReal) = ((0 : ℝ) : EReal) := by
        rw [← EReal.coe_zero, coe_max', coe_max']; norm_num
      have h3 : ((-5 + 10 : ℝ) : EReal) - ((0 : ℝ) : EReal) = ((5 : ℝ) : EReal) := by
        rw [← EReal.coe_sub]; norm_num
      simp only [along_coe, h1, if_true, h2, h3, hg1, Res.bind, constDensity, EReal.toReal_coe]
      have h4 : ((List.map (fun t : Int × ℝ => decayModel.particleFraction 0 t.1 * t.2) [(0, 1 / 100)]).sum) = 1 / 100 := by
        simp [decayModel]
      rw [h4]
      have h5 : (1 / 100 : ℝ) ≠ 0 := by norm_num
      have h6 : (12 - (0 : ℝ)) / 100 / (1 / 100) = 12 := by norm_num
      have h7 : (12 : ℝ) / (1 + 1 / (1 * 100 * (1 / 100))) = 6 := by norm_num
      simp only [h5, if_false, h6, EReal.toReal_coe, h7]
      have h8 : ((5 : ℝ) : EReal) < ((6 : ℝ) : EReal) := by rw [EReal.coe_lt_coe_iff]; norm_num
      simp only [h8, true_or, if_true]
      norm_num
    have c3 : ∀ dir, decayModel.interactionCallback (decayLine.at 5) dir (-5) false 12 [(0, 1 / 100)] (some 1)
        (5, ((5 : ℝ) : EReal)) ⟨⊥, -5, true⟩ ⟨⊤, -5, false⟩ ((10 : ℝ) : EReal) =
        .ok (true, (5, ((8.5 : ℝ) : EReal))) := by
      intro dir
      unfold DetModel.interactionCallback
      have h2 : max (max (⊥ : EReal) 0) ((-5 + 10 : ℝ) : EReal) = ((5 : ℝ) : EReal) := by
        rw [max_eq_right bot_le, ← EReal.coe_zero, coe_max']; norm_num
      have h3 : (⊤ : EReal) - ((5 : ℝ) : EReal) = ⊤ := by simp
      simp only [along_coe, along_bot, along_top, EReal.zero_lt_top, if_true, h2, h3, hg2, Res.bind, constDensity,
        EReal.toReal_top]
      have h4 : ((List.map (fun t : Int × ℝ => decayModel.particleFraction 0 t.1 * t.2) [(0, 1 / 100)]).sum) = 1 / 100 := by
        simp [decayModel]
      rw [h4]
      have h5 : (1 / 100 : ℝ) ≠ 0 := by norm_num
      have h6 : (12 - (5 : ℝ)) / 100 / (1 / 100) = 7 := by norm_num
      have h7 : (7 : ℝ) / (1 + 1 / (1 * 100 * (1 / 100))) = 3.5 := by norm_num
      simp only [h5, if_false, h6, EReal.toReal_coe, h7, not_top_lt, EReal.coe_ne_top, or_self]
      norm_num
      rw [← EReal.coe_add]; norm_num
    rw [decayLine_loop _ _ _ _ _ (c1 _) (c2 _) (c3 _)]
    rfl
  · have hs : (8.5 : ℝ) = 13.5 - 5 := by norm_num
    have hnorm : Vec3.norm (decayLine.at 13.5 - decayLine.at 5) = 8.5 := by
      have e1 : decayLine.at 13.5 - decayLine.at 5 = Vec3.smul 8.5 decayLine.direction := by
        ext <;> simp [Line.at, decayLine] <;> norm_num
      rw [e1, Vec3.norm_smul_unit _ _ hunit]; norm_num
    unfold DetModel.interactionDepth
    rw [hnorm]
    have n1 : ¬ ((8.5 : ℝ) = 0) := by norm_num
    have n2 : ¬ ((8.5 : ℝ) ≤ 1e-5) := by norm_num
    simp only [n1, n2, if_false, List.cons_ne_nil]
    rw [withLine_forward decayLine hunit 5 13.5 (by norm_num)]
    have hd : (13.5 - 5 : ℝ) = 8.5 := by norm_num
    rw [hd]
    -- evaluate the three segments
    have d1 : ∀ add : List ℝ → Int → ℝ → ℝ → Res (List ℝ), ∀ s, depthCallback (-5) false 8.5 add s
        ⟨⊥, -5, true⟩ ⟨((0 : ℝ) : EReal), 1, true⟩ ⊥ = .ok (false, s) := by
      intro add s
      unfold depthCallback
      have h1 : ¬ (0 : EReal) < min ((-5 + 0 : ℝ) : EReal) ((8.5 : ℝ) : EReal) := by
        rw [lt_min_iff, ← EReal.coe_zero, EReal.coe_lt_coe_iff]; norm_num
      have h2 : ¬ (((8.5 : ℝ) : EReal) ≤ ((-5 + 0 : ℝ) : EReal)) := by rw [EReal.coe_le_coe_iff]; norm_num
      simp only [along_coe, h1, if_false, h2, decide_false]
    have d2 : ∀ add : List ℝ → Int → ℝ → ℝ → Res (List ℝ), ∀ s, depthCallback (-5) false 8.5 add s
        ⟨((0 : ℝ) : EReal), 1, true⟩ ⟨((10 : ℝ) : EReal), 1, false⟩ ((0 : ℝ) : EReal) =
        (add s 1 0 5).bind fun s => .ok (false, s) := by
      intro add s
      unfold depthCallback
      have h1 : min ((-5 + 10 : ℝ) : EReal) ((8.5 : ℝ) : EReal) = ((5 : ℝ) : EReal) := by
        rw [min_eq_left (by rw [EReal.coe_le_coe_iff]; norm_num)]; norm_num
      have h2 : ¬ (((8.5 : ℝ) : EReal) ≤ ((-5 + 10 : ℝ) : EReal)) := by rw [EReal.coe_le_coe_iff]; norm_num
      have h3 : max (max ((-5 + 0 : ℝ) : EReal) 0) ((-5 + 0 : ℝ) : EReal) = ((0 : ℝ) : EReal) := by
        rw [← EReal.coe_zero, coe_max', coe_max']; norm_num
      have h4 : (0 : EReal) < ((5 : ℝ) : EReal) := by rw [← EReal.coe_zero, EReal.coe_lt_coe_iff]; norm_num
      simp only [along_coe, h1, h2, decide_false, h3, EReal.toReal_coe, h4, if_true, sub_zero]
    have d3 : ∀ add : List ℝ → Int → ℝ → ℝ → Res (List ℝ), ∀ s, depthCallback (-5) false 8.5 add s
        ⟨⊥, -5, true⟩ ⟨⊤, -5, false⟩ ((10 : ℝ) : EReal) = (add s (-5) 5 3.5).bind fun s => .ok (true, s) := by
      intro add s
      unfold depthCallback
      have h3 : max (max (⊥ : EReal) 0) ((-5 + 10 : ℝ) : EReal) = ((5 : ℝ) : EReal) := by
        rw [max_eq_right bot_le, ← EReal.coe_zero, coe_max']; norm_num
      have h4 : (0 : EReal) < ((8.5 : ℝ) : EReal) := by rw [← EReal.coe_zero, EReal.coe_lt_coe_iff]; norm_num
      have h5 : (8.5 - 5 : ℝ) = 3.5 := by norm_num
      simp only [along_coe, along_bot, along_top, min_eq_right le_top, le_top, decide_true, h3, EReal.toReal_coe, h4,
        if_true, h5]
    simp only [List.map_cons, List.map_nil]
    rw [decayLine_loop _ _ [0] [5 * 100] [5 * 100 + 3.5 * 100] (d1 _ _)]
    · simp only [Res.bind, List.zipWith_cons_cons, List.zipWith_nil_right, List.sum_cons, List.sum_nil, overDecay]
      norm_num
    · rw [d2]
      simp only [hg1, Res.bind]
      simp [constDensity, decayModel]
    · rw [d3]
      simp only [hg2, Res.bind]
      simp [constDensity, decayModel]

/-- C22 fails for a negative request when there are only decays: the returned distance has the wrong sign
(detector/private/DetectorModel.cxx:1927-1929), unlike the case with targets. -/
theorem C22_negative_request_only_decays_fails (m : DetModel) (I : Line) (p dir : Vec3 ℝ) :
    m.distanceForInteractionDepth I p dir (-1) [] (some 2) = .ok ((2 : ℝ) : EReal) := by
  simp [DetModel.distanceForInteractionDepth]

/-- C22 fails for short distances: up to 1e-5 m the material contribution is dropped
(detector/private/DetectorModel.cxx:1236-1238), whatever the densities, so requests reached within that distance are not
matched by `GetInteractionDepth`. -/
theorem C22_short_distance_fails (m : DetModel) (I : Line) (p : Vec3 ℝ) (targets : List (Int × ℝ)) (x : ℝ)
    (hx : |x| ≤ 1e-5) (hu : Vec3.dot I.direction I.direction = 1) :
    m.interactionDepth I p (p + Vec3.smul x I.direction) targets none = .ok 0 := by
  have hnorm : Vec3.norm (p + Vec3.smul x I.direction - p) = |x| := by
    have : p + Vec3.smul x I.direction - p = Vec3.smul x I.direction := by ext <;> simp
    rw [this, Vec3.norm_smul_unit _ _ hu]
  unfold DetModel.interactionDepth
  rw [hnorm]
  by_cases h : |x| = 0
  · simp [h]
  · by_cases h' : targets = [] <;> simp [h, h', hx, overDecay]

end Siren.Detector
