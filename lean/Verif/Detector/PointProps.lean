import Verif.Detector.DepthProps

set_option autoImplicit false

/-!
# C19: point densities and the containing sector

The queries that walk an intersection list. The direct containment query is modelled in `Verif/Bvh`; that both agree is
`C19_direct_agrees` there.
-/

namespace Siren.Detector

theorem along_ne_zero (t : ℝ) (neg : Bool) (d : EReal) (h : d ≠ (t : EReal)) :
    along (if neg then t else -t) neg d ≠ 0 := by
  intro e
  apply h
  have h1 := along_lt_coe (if neg then t else -t) neg d 0
  have h2 := coe_lt_along (if neg then t else -t) neg d 0
  rw [e] at h1 h2
  simp only [EReal.coe_zero, lt_irrefl, false_iff] at h1 h2
  cases neg
  · simp only [Bool.false_eq_true, if_false, zero_sub, neg_neg, not_lt] at h1 h2
    exact le_antisymm h2 h1
  · simp only [if_true, sub_zero, not_lt] at h1 h2
    exact le_antisymm h1 h2

/-- The segment a point query finds, walking either way. -/
theorem point_query {m : DetModel} {L : Layout EReal} {I : Line} (S : Setup m L I) (t : ℝ) (ht : L.Spans t)
    (hn : ∀ h ∈ I.hits, h.distance ≠ (t : EReal)) (neg : Bool) :
    ∃ sec ∈ m.sectors, L.Owner (t : EReal) sec.level ∧
      ∀ (σ : Type) (cb : σ → Hit EReal → Hit EReal → EReal → Res (Bool × σ)) (s : σ) (r : Res σ),
        (∀ cur next last, along (if neg then t else -t) neg next.distance < 0 →
          along (if neg then t else -t) neg last < 0 → along (if neg then t else -t) neg cur.distance < 0 →
          cb s cur next last = .ok (false, s)) →
        (∀ cur next last, 0 < along (if neg then t else -t) neg next.distance →
          along (if neg then t else -t) neg last < 0 → along (if neg then t else -t) neg cur.distance < 0 →
          cur.hierarchy = sec.level → cb s cur next last = r.bind fun s => .ok (true, s)) →
        sectorLoop cb I.hits neg s = r := by
  obtain ⟨segs, g1, g2, g3, -⟩ := walk_good L S.wf I.hits S.sorted neg (if neg then t else -t)
  have hx : along (if neg then t else -t) neg (if neg then L.hi else L.lo) < ((0 : ℝ) : EReal) := by
    rw [along_lt_coe]
    cases neg
    · simpa using ht.1
    · simpa using ht.2
  have hy : ((0 : ℝ) : EReal) < along (if neg then t else -t) neg (if neg then L.lo else L.hi) := by
    rw [coe_lt_along]
    cases neg
    · simpa using ht.2
    · simpa using ht.1
  rw [EReal.coe_zero] at hx hy
  obtain ⟨pre, g, post, q1, q2, q3, q4, q5, q6, q7⟩ := point_segs _ _ _ segs _ _ g1 hx hy
    (fun g hg => along_ne_zero t neg _ (hn _ (g3 g hg)))
  obtain ⟨s, hs, hlev⟩ := q6
  obtain ⟨sec, hsec, hlev'⟩ := S.known s hs
  refine ⟨sec, hsec, ?_, ?_⟩
  · rw [hlev', hlev]
    cases neg
    · simpa using q7
    · simpa using q7
  · intro σ cb s r h1 h2
    rw [g2, q1]
    exact runSegments_skip cb s pre g post r (fun p hp => h1 _ _ _ (q2 p hp).1 (q2 p hp).2.1 (q2 p hp).2.2)
      (h2 _ _ _ q5 q3 q4 (by rw [hlev', hlev]))

theorem withPoint_at {α : Type} (I : Line) (hu : Vec3.dot I.direction I.direction = 1) (t : ℝ)
    (f : ℝ → Bool → Res α) :
    withPoint I (I.at t) f = f (if t < 0 then t else -t) (decide (t < 0)) := by
  have e1 : I.at t - I.position = Vec3.smul t I.direction := by ext <;> simp [Line.at]
  have e2 : Vec3.norm (I.at t - I.position) = |t| := by rw [e1, Vec3.norm_smul_unit _ _ hu]
  have e4 : Vec3.dot (I.position - I.at t) I.direction = -t := by
    have : Vec3.dot (I.position - I.at t) I.direction = -t * Vec3.dot I.direction I.direction := by
      simp [Line.at, Vec3.dot]; ring
    rw [this, hu, mul_one]
  have e4' : Vec3.dot (I.position - I.at t) (-I.direction) = t := by
    have : Vec3.dot (I.position - I.at t) (-I.direction) = -Vec3.dot (I.position - I.at t) I.direction := by
      simp [Vec3.dot]; ring
    rw [this, e4, neg_neg]
  have e5 : Vec3.dot (-I.direction) I.direction = -1 := by
    have : Vec3.dot (-I.direction) I.direction = -Vec3.dot I.direction I.direction := by simp [Vec3.dot]; ring
    rw [this, hu]
  unfold withPoint
  simp only [e2]
  rcases lt_trichotomy t 0 with h | h | h
  · have e3 : Vec3.normalize (I.at t - I.position) = -I.direction := by
      unfold Vec3.normalize; rw [e2, e1, abs_of_neg h]
      have := ne_of_lt h
      ext <;> simp <;> field_simp
    have hne : |t| ≠ 0 := abs_ne_zero.2 (ne_of_lt h)
    simp only [hne, if_false, e3, e5, e4', h, if_true]
    norm_num
  · subst h
    simp only [abs_zero, if_true, hu, e4, lt_irrefl, if_false]
    norm_num
  · have e3 : Vec3.normalize (I.at t - I.position) = I.direction := by
      unfold Vec3.normalize; rw [e2, e1, abs_of_pos h]
      have := ne_of_gt h
      ext <;> simp <;> field_simp
    have hne : |t| ≠ 0 := abs_ne_zero.2 (ne_of_gt h)
    simp only [hne, if_false, e3, hu, e4, not_lt.2 (le_of_lt h)]
    norm_num

/-- What a point query with `pointCallback` returns. -/
theorem point_found {m : DetModel} {L : Layout EReal} {I : Line} (S : Setup m L I) (t : ℝ) (ht : L.Spans t)
    (hn : ∀ h ∈ I.hits, h.distance ≠ (t : EReal)) (neg : Bool) (sec : Sector) (hsec : sec ∈ m.sectors)
    (ho : L.Owner (t : EReal) sec.level) (v : Sector → ℝ) :
    sectorLoop (pointCallback (if neg then t else -t) neg (fun (_ : Option ℝ) level =>
      (m.getSector level).bind fun sector => .ok (some (v sector)))) I.hits neg none = .ok (some (v sec)) := by
  obtain ⟨sec', hsec', ho', hq⟩ := point_query S t ht hn neg
  have hlev := C18_owner_unique L _ _ _ ho' ho
  apply hq
  · intro cur next last h1 h2 h3
    simp only [pointCallback, not_le.2 h1, and_false, if_false]
  · intro cur next last h1 h2 h3 h4
    simp only [pointCallback, le_of_lt h1, and_true, le_of_lt (max_lt h3 h2), if_true]
    rw [h4, hlev, getSector_of_mem S.distinct hsec]
    rfl

/-- C19: at every point of the line inside the enclosing sector and not on a boundary crossing, exactly one sector is the
highest-level one whose crossings enclose the point; `GetContainingSector` returns it. -/
theorem C19_containing_sector {m : DetModel} {L : Layout EReal} {I : Line} (S : Setup m L I) (t : ℝ) (ht : L.Spans t)
    (hn : ∀ h ∈ I.hits, h.distance ≠ (t : EReal)) :
    ∃ sec ∈ m.sectors, L.Owner (t : EReal) sec.level ∧ m.containingSector I (I.at t) = .ok (some sec) := by
  obtain ⟨sec, hsec, ho, hq⟩ := point_query S t ht hn false
  refine ⟨sec, hsec, ho, ?_⟩
  have e4 : Vec3.dot (I.position - I.at t) I.direction = -t := by
    have : Vec3.dot (I.position - I.at t) I.direction = -t * Vec3.dot I.direction I.direction := by
      simp [Line.at, Vec3.dot]; ring
    rw [this, S.unit, mul_one]
  unfold DetModel.containingSector
  simp only [e4]
  simp only [Bool.false_eq_true, if_false] at hq
  apply hq
  · intro cur next last h1 h2 h3
    simp only [not_lt.2 (le_of_lt h1), and_false, ne_of_lt h3, or_self, if_false]
  · intro cur next last h1 h2 h3 h4
    simp only [h1, h3, and_self, true_or, if_true]
    rw [h4, getSector_of_mem S.distinct hsec]
    rfl

/-- C19: at every point of the line inside the enclosing sector, also on a boundary crossing, `GetContainingSector`
returns a sector, namely the one that owns all points of the line just after the point. -/
theorem C19_containing_sector_everywhere {m : DetModel} {L : Layout EReal} {I : Line} (S : Setup m L I) (t : ℝ)
    (ht : L.Spans t) :
    ∃ sec ∈ m.sectors, m.containingSector I (I.at t) = .ok (some sec) ∧
      ∃ e : EReal, (t : EReal) < e ∧ ∀ s : EReal, (t : EReal) < s → s < e → L.Owner s sec.level := by
  obtain ⟨segs, c1, c2, c3⟩ := C18_forward_strict L S.wf I.hits S.sorted
  have e4 : Vec3.dot (I.position - I.at t) I.direction = -t := by
    have : Vec3.dot (I.position - I.at t) I.direction = -t * Vec3.dot I.direction I.direction := by
      simp [Line.at, Vec3.dot]; ring
    rw [this, S.unit, mul_one]
  have hal : ∀ d : EReal, (along (-t) false d < 0 ↔ d < (t : EReal)) ∧ (0 < along (-t) false d ↔ (t : EReal) < d) ∧
      (along (-t) false d = 0 ↔ d = (t : EReal)) := by
    intro d
    have h1 := along_lt_coe (-t) false d 0
    have h2 := coe_lt_along (-t) false d 0
    simp only [EReal.coe_zero, Bool.false_eq_true, if_false, zero_sub, neg_neg] at h1 h2
    refine ⟨h1, h2, ?_⟩
    constructor
    · intro h
      rw [h] at h1 h2
      simp only [lt_irrefl, false_iff, not_lt] at h1 h2
      exact le_antisymm h2 h1
    · rintro rfl
      simp only [lt_irrefl, iff_false, not_lt] at h1 h2
      exact le_antisymm h2 h1
  have split : ∀ (segs : List (Segment EReal)) (a : EReal), Covers (· ≤ ·) a L.hi segs → a ≤ (t : EReal) →
      ∃ pre g post, segs = pre ++ g :: post ∧ (∀ p ∈ pre, p.next.distance ≤ (t : EReal)) ∧
        g.lastPoint ≤ (t : EReal) ∧ (t : EReal) < g.next.distance := by
    intro segs
    induction segs with
    | nil => intro a h ha; rw [show a = L.hi from h] at ha; exact absurd ht.2 (not_lt.2 ha)
    | cons g gs ih =>
      rintro a ⟨f1, f2, f3⟩ ha
      by_cases hg : (t : EReal) < g.next.distance
      · exact ⟨[], g, gs, rfl, by simp, f1 ▸ ha, hg⟩
      · obtain ⟨pre, g', post, q1, q2, q3⟩ := ih _ f3 (not_lt.1 hg)
        refine ⟨g :: pre, g', post, by rw [q1]; rfl, ?_, q3⟩
        intro p hp
        rcases List.mem_cons.1 hp with rfl | hp
        · exact not_lt.1 hg
        · exact q2 p hp
  obtain ⟨pre, g, post, q1, q2, q3, q4⟩ := split segs _ c1 (le_of_lt ht.1)
  have hg : g ∈ segs := by rw [q1]; simp
  obtain ⟨g1, g2, g3, g4⟩ := c2 g hg
  obtain ⟨s, hs, hlev⟩ : ∃ s ∈ L.sectors, s.level = g.current.hierarchy := by
    obtain ⟨s, hs', hh⟩ := List.mem_flatMap.1 (S.sorted.1.mem_iff.1 g1)
    obtain ⟨c, _, hh⟩ := mem_flat.1 hh
    refine ⟨s, hs', ?_⟩
    rcases hh with hh | hh <;> rw [hh]
  obtain ⟨sec, hsec, hlev'⟩ := S.known s hs
  refine ⟨sec, hsec, ?_, g.next.distance, q4, ?_⟩
  · unfold DetModel.containingSector
    simp only [e4]
    rw [c3, q1]
    refine runSegments_skip _ _ pre g post _ ?_ ?_
    · intro p hp
      have hp' : p ∈ segs := by rw [q1]; simp [hp]
      have hlt := lt_of_lt_of_le (c2 p hp').2.1 (q2 p hp)
      have hne : ¬ ((along (-t) false p.current.distance < 0 ∧ 0 < along (-t) false p.next.distance) ∨
          along (-t) false p.current.distance = 0) := by
        rw [(hal _).1, (hal _).2.1, (hal _).2.2]
        rintro (⟨_, h⟩ | h)
        · exact absurd h (not_lt.2 (q2 p hp))
        · exact absurd h (ne_of_lt hlt)
      simp only [hne, if_false]
    · have hyes : ((along (-t) false g.current.distance < 0 ∧ 0 < along (-t) false g.next.distance) ∨
          along (-t) false g.current.distance = 0) := by
        rw [(hal _).1, (hal _).2.1, (hal _).2.2]
        rcases lt_or_eq_of_le (le_trans g3 q3) with h | h
        · exact Or.inl ⟨h, q4⟩
        · exact Or.inr h
      simp only [hyes, if_true]
      rw [← hlev, ← hlev', getSector_of_mem S.distinct hsec]
      rfl
  · intro x h1 h2
    rw [hlev', hlev]
    exact g4 x (lt_of_le_of_lt q3 h1) h2

/-- C19: `GetMassDensity` is the density of the highest-level sector enclosing the point. -/
theorem C19_mass_density {m : DetModel} {L : Layout EReal} {I : Line} (S : Setup m L I) (t : ℝ) (ht : L.Spans t)
    (hn : ∀ h ∈ I.hits, h.distance ≠ (t : EReal)) (sec : Sector) (hsec : sec ∈ m.sectors)
    (ho : L.Owner (t : EReal) sec.level) (hpos : 0 ≤ sec.density.evaluate (I.at t)) :
    m.massDensity I (I.at t) = .ok (sec.density.evaluate (I.at t)) := by
  have h := point_found S t ht hn (decide (t < 0)) sec hsec ho (fun s => s.density.evaluate (I.at t))
  unfold DetModel.massDensity
  rw [withPoint_at I S.unit]
  simp only [decide_eq_true_eq] at h
  rw [h]
  simp only [Res.bind, hpos, if_true]

/-- C19: `GetParticleDensity` is that density times the particle fraction of the sector's material. -/
theorem C19_particle_density {m : DetModel} {L : Layout EReal} {I : Line} (S : Setup m L I) (t : ℝ) (ht : L.Spans t)
    (hn : ∀ h ∈ I.hits, h.distance ≠ (t : EReal)) (sec : Sector) (hsec : sec ∈ m.sectors)
    (ho : L.Owner (t : EReal) sec.level) (target : Int)
    (hpos : 0 ≤ sec.density.evaluate (I.at t) * m.particleFraction sec.materialId target) :
    m.particleDensity I (I.at t) target =
      .ok (sec.density.evaluate (I.at t) * m.particleFraction sec.materialId target) := by
  have h := point_found S t ht hn (decide (t < 0)) sec hsec ho
    (fun s => s.density.evaluate (I.at t) * m.particleFraction s.materialId target)
  unfold DetModel.particleDensity
  rw [withPoint_at I S.unit]
  simp only [decide_eq_true_eq] at h
  rw [h]
  simp only [Res.bind, hpos, if_true]

/-- C19: `GetInteractionDensity` (per metre) is 100 times the sum over targets of density, fraction and cross section,
plus one over the decay length. -/
theorem C19_interaction_density {m : DetModel} {L : Layout EReal} {I : Line} (S : Setup m L I) (t : ℝ) (ht : L.Spans t)
    (hn : ∀ h ∈ I.hits, h.distance ≠ (t : EReal)) (sec : Sector) (hsec : sec ∈ m.sectors)
    (ho : L.Owner (t : EReal) sec.level) (targets : List (Int × ℝ)) (decay : Option ℝ)
    (hpos : ∀ x ∈ targets, 0 ≤ sec.density.evaluate (I.at t) * m.particleFraction sec.materialId x.1 * x.2) :
    m.interactionDensity I (I.at t) targets decay =
      .ok (100 * (targets.map fun x => sec.density.evaluate (I.at t) * m.particleFraction sec.materialId x.1 * x.2).sum
        + match decay with | some l => 1 / l | none => 0) := by
  have hdec : overDecay 1 decay = match decay with | some l => 1 / l | none => 0 := by cases decay <;> rfl
  by_cases hnil : targets = []
  · subst hnil
    simp [DetModel.interactionDensity, hdec]
  · have hsum : 0 ≤ (targets.map fun x => sec.density.evaluate (I.at t) * m.particleFraction sec.materialId x.1 * x.2).sum := by
      apply List.sum_nonneg
      intro a ha
      obtain ⟨x, hx, rfl⟩ := List.mem_map.1 ha
      exact hpos x hx
    -- the direction is that of the list, up to sign
    have e1 : I.at t - I.position = Vec3.smul t I.direction := by ext <;> simp [Line.at]
    have e2 : Vec3.norm (I.at t - I.position) = |t| := by rw [e1, Vec3.norm_smul_unit _ _ S.unit]
    have e4 : Vec3.dot (I.position - I.at t) I.direction = -t := by
      have : Vec3.dot (I.position - I.at t) I.direction = -t * Vec3.dot I.direction I.direction := by
        simp [Line.at, Vec3.dot]; ring
      rw [this, S.unit, mul_one]
    have e4' : Vec3.dot (I.position - I.at t) (-I.direction) = t := by
      have : Vec3.dot (I.position - I.at t) (-I.direction) = -Vec3.dot (I.position - I.at t) I.direction := by
        simp [Vec3.dot]; ring
      rw [this, e4, neg_neg]
    have e5 : Vec3.dot (-I.direction) I.direction = -1 := by
      have : Vec3.dot (-I.direction) I.direction = -Vec3.dot I.direction I.direction := by simp [Vec3.dot]; ring
      rw [this, S.unit]
    have key : ∀ neg : Bool, (if Vec3.norm (I.at t - I.position) ≤ 1e-5 then I.direction
        else Vec3.normalize (I.at t - I.position)) = (if neg then -I.direction else I.direction) →
        m.interactionDensity I (I.at t) targets decay =
        .ok (100 * (targets.map fun x =>
          sec.density.evaluate (I.at t) * m.particleFraction sec.materialId x.1 * x.2).sum + overDecay 1 decay) := by
      intro neg hdir
      have h := point_found S t ht hn neg sec hsec ho
        (fun s => (targets.map fun x =>
          s.density.evaluate (I.at t) * m.particleFraction s.materialId x.1 * x.2).sum * 100)
      unfold DetModel.interactionDensity
      simp only [hnil, if_false, hdir]
      cases neg
      · simp only [Bool.false_eq_true, if_false, S.unit, e4] at h ⊢
        rw [show decide ((1 : ℝ) < 0) = false by norm_num, h]
        have : 0 ≤ (targets.map fun x =>
          sec.density.evaluate (I.at t) * m.particleFraction sec.materialId x.1 * x.2).sum * 100 := by linarith
        simp only [Res.bind, this, if_true]
        norm_num [mul_comm]
      · simp only [if_true, e5, e4'] at h ⊢
        rw [show decide ((-1 : ℝ) < 0) = true by norm_num, h]
        have : 0 ≤ (targets.map fun x =>
          sec.density.evaluate (I.at t) * m.particleFraction sec.materialId x.1 * x.2).sum * 100 := by linarith
        simp only [Res.bind, this, if_true]
        norm_num [mul_comm]
    rw [← hdec]
    rw [e2] at key
    by_cases hsmall : |t| ≤ 1e-5
    · exact key false (by simp [hsmall])
    · rcases lt_trichotomy t 0 with h | h | h
      · refine key true ?_
        simp only [hsmall, if_false, if_true]
        unfold Vec3.normalize; rw [e2, e1, abs_of_neg h]
        have := ne_of_lt h
        ext <;> simp <;> field_simp
      · subst h; exfalso; apply hsmall; norm_num
      · refine key false ?_
        simp only [hsmall, if_false, Bool.false_eq_true]
        unfold Vec3.normalize; rw [e2, e1, abs_of_pos h]
        have := ne_of_gt h
        ext <;> simp <;> field_simp

/-- The hypotheses are met: the point at parameter 7 of the example is inside sectors 1 and 2 and the enclosing one. -/
example : (∀ h ∈ depthExampleLine.hits, h.distance ≠ ((7 : ℝ) : EReal)) ∧ depthExampleLayout.Spans 7 ∧
    depthExampleLayout.Owner ((7 : ℝ) : EReal) 2 := by
  have ne : ∀ x : ℝ, x ≠ 7 → ((x : ℝ) : EReal) ≠ ((7 : ℝ) : EReal) := fun x h e => h (by exact_mod_cast e)
  refine ⟨?_, ⟨EReal.bot_lt_coe _, EReal.coe_lt_top _⟩, ?_, ?_⟩
  · intro h hh
    have hm : h ∈ depthExampleLayout.hits := (C26_sort_exists depthExampleLayout.hits).1.mem_iff.1 hh
    simp only [Layout.hits, Layout.sectors, Layout.outer, depthExampleLayout, LineSector.hits, chordHits,
      List.flatMap_cons, List.flatMap_nil, List.append_nil, List.cons_append, List.nil_append, List.mem_cons,
      List.not_mem_nil, or_false] at hm
    rcases hm with rfl | rfl | rfl | rfl | rfl | rfl | rfl | rfl
    · exact (EReal.bot_lt_coe _).ne
    · exact (EReal.coe_lt_top _).ne'
    · exact ne 0 (by norm_num)
    · exact ne 10 (by norm_num)
    · exact ne 20 (by norm_num)
    · exact ne 30 (by norm_num)
    · exact ne 5 (by norm_num)
    · exact ne 25 (by norm_num)
  · refine ⟨⟨2, [((5 : ℝ), (25 : ℝ))]⟩, by simp [Layout.sectors, depthExampleLayout], rfl, ((5 : ℝ), (25 : ℝ)), by simp, ?_, ?_⟩
    · exact (EReal.coe_lt_coe_iff.2 (by norm_num : (5 : ℝ) < 7))
    · exact (EReal.coe_lt_coe_iff.2 (by norm_num : (7 : ℝ) < 25))
  · intro s hs _
    simp only [Layout.sectors, Layout.outer, depthExampleLayout, List.mem_cons, List.not_mem_nil, or_false] at hs
    rcases hs with rfl | rfl | rfl <;> norm_num

end Siren.Detector
