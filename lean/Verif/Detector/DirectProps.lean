import Verif.Detector.PointProps
import Verif.Detector.BVHProps

set_option autoImplicit false

/-!
# C19: the direct containment query agrees with the intersection list

`GetContainingSector(p)` and `GetMassDensity(p)` ask every sector whether it contains the point (through the
bounding-volume hierarchy); the overloads with an intersection list walk along a line instead. Both give the same sector.
-/

namespace Siren.Detector

open Siren Siren.Geometry

/-- `GetMassDensity(p0)` (detector/private/DetectorModel.cxx:861-872). `fallback` is the answer from the intersection list
along `(1, 0, 0)`. The density of the sector found is read off the sector list by its level. -/
noncomputable def DetModel.massDensityAt (m : DetModel) (secs : List BVH.Sector) (ix : BVH.Index) (fuel : Nat) (p0 : Vec3 ℝ)
    (fallback : Res ℝ) : Res ℝ :=
  (BVH.containingDirect secs ix p0 fuel).bind fun
    | none => fallback
    | some s => (m.getSector s.level).bind fun sec =>
      let density := sec.density.evaluate p0
      if 0 ≤ density then .ok density else .ub

/-- The sectors `secs` of the detector and the chords `L` of a line belong to the same point sets `V level`, as far as the
point at parameter `t` is concerned: the sectors' own containment tests and the chords both tell whether the point is in the
set. (For the first see `C42_is_inside`, for the second `C36_boolean_shape`, `C39_box_exact` and `C40_shell_exact`.) -/
structure SameSets (secs : List BVH.Sector) (L : Layout EReal) (I : Line) (V : Int → Vec3 ℝ → Prop) (t : ℝ) : Prop where
  levels : ∀ l : Int, (∃ s ∈ secs, s.level = l) ↔ ∃ s ∈ L.sectors, s.level = l
  tests : ∀ s ∈ secs, s.isInside (I.at t) = true ↔ V s.level (I.at t)
  chords : ∀ s ∈ L.sectors, s.Inside (t : EReal) ↔ V s.level (I.at t)

/-- C19: the containing sector found by testing the point directly, through the bounding-volume hierarchy, is the one found
by walking along a line through the point. -/
theorem C19_direct_agrees {m : DetModel} {L : Layout EReal} {I : Line} (S : Setup m L I) (t : ℝ) (ht : L.Spans t)
    (hn : ∀ h ∈ I.hits, h.distance ≠ (t : EReal)) {big : ℝ} {secs : List BVH.Sector} {V : Int → Vec3 ℝ → Prop}
    (hV : SameSets secs L I V t) (hs : ∀ s ∈ secs, s.PointSound big (I.at t)) (hlev : (secs.map BVH.Sector.level).Nodup)
    (ix : BVH.Index) (tree : Option BVH.Tree) (hix : BVH.Indexes big secs ix tree) (fuel : Nat)
    (hfuel : ix.nodes.length < fuel) :
    ∃ sec ∈ m.sectors, ∃ s ∈ secs, s.level = sec.level ∧
      m.containingSector I (I.at t) = .ok (some sec) ∧ BVH.containingDirect secs ix (I.at t) fuel = .ok (some s) := by
  obtain ⟨sec, hsec, ⟨⟨ls, hls, el, hin⟩, hmax⟩, hc⟩ := C19_containing_sector S t ht hn
  obtain ⟨r, hr, hspec⟩ := BVH.C24_containing_sector secs (I.at t) hs hlev ix tree hix fuel hfuel
  obtain ⟨s, hsm, esl⟩ := (hV.levels sec.level).2 ⟨ls, hls, el⟩
  refine ⟨sec, hsec, s, hsm, esl, hc, ?_⟩
  rw [hr]
  congr 1
  rw [hspec]
  refine ⟨hsm, ?_, ?_⟩
  · rw [hV.tests s hsm, esl, ← el, ← hV.chords ls hls]; exact hin
  · intro s' hs' hi'
    obtain ⟨ls', hls', el'⟩ := (hV.levels s'.level).1 ⟨s', hs', rfl⟩
    rw [esl, ← el']
    apply hmax ls' hls'
    rw [hV.chords ls' hls', el', ← hV.tests s' hs']
    exact hi'

/-- C19: the density found by testing the point directly is the one found from the intersection list. -/
theorem C19_direct_density {m : DetModel} {L : Layout EReal} {I : Line} (S : Setup m L I) (t : ℝ) (ht : L.Spans t)
    (hn : ∀ h ∈ I.hits, h.distance ≠ (t : EReal)) {big : ℝ} {secs : List BVH.Sector} {V : Int → Vec3 ℝ → Prop}
    (hV : SameSets secs L I V t) (hs : ∀ s ∈ secs, s.PointSound big (I.at t)) (hlev : (secs.map BVH.Sector.level).Nodup)
    (ix : BVH.Index) (tree : Option BVH.Tree) (hix : BVH.Indexes big secs ix tree) (fuel : Nat)
    (hfuel : ix.nodes.length < fuel) (fallback : Res ℝ) (hpos : ∀ sec ∈ m.sectors, 0 ≤ sec.density.evaluate (I.at t)) :
    ∃ sec ∈ m.sectors, L.Owner (t : EReal) sec.level ∧
      m.massDensityAt secs ix fuel (I.at t) fallback = .ok (sec.density.evaluate (I.at t)) ∧
      m.massDensity I (I.at t) = .ok (sec.density.evaluate (I.at t)) := by
  obtain ⟨sec, hsec, s, -, e, hc, hd⟩ := C19_direct_agrees S t ht hn hV hs hlev ix tree hix fuel hfuel
  obtain ⟨sec', hsec', ho, hc'⟩ := C19_containing_sector S t ht hn
  have es : sec' = sec := by rw [hc] at hc'; simpa using hc'.symm
  subst es
  refine ⟨sec', hsec, ho, ?_, C19_mass_density S t ht hn sec' hsec ho (hpos _ hsec)⟩
  unfold DetModel.massDensityAt
  rw [hd]
  simp only [Res.bind, e, getSector_of_mem S.distinct hsec, hpos _ hsec, if_true]

/-! ### A detector that meets the hypotheses -/

/-- An unbounded sector: everything. -/
noncomputable def everything : BVH.Sector :=
  ⟨0, 0, Placement.translation 0, ⟨⟨⊥, ⊥, ⊥⟩, ⟨⊤, ⊤, ⊤⟩⟩, fun _ _ => [⟨-1000, 0, true, 0⟩, ⟨1000, 0, false, 0⟩]⟩

/-- The chords of the line along the z axis through an infinite sector and a box. -/
noncomputable def directLayout : Layout EReal :=
  { outerLevel := 0, lo := ⊥, hi := ⊤, inner := [⟨1, [((-1 : ℝ), (1 : ℝ))]⟩] }

noncomputable def directModel : DetModel :=
  { sectors := [⟨0, 0, constDensity 1⟩, ⟨1, 1, constDensity 2⟩], particleFraction := fun _ _ => 1 }

noncomputable def directLine : Line :=
  { position := ⟨0, 0, 0⟩, direction := ⟨0, 0, 1⟩, hits := sortIntersections directLayout.hits }

/-- All the hypotheses of `C19_direct_agrees` hold for an infinite sector with a box inside, at the centre of the box. -/
example : ∃ V, Setup directModel directLayout directLine ∧ directLayout.Spans 0 ∧
    (∀ h ∈ directLine.hits, h.distance ≠ ((0 : ℝ) : EReal)) ∧
    SameSets [everything, BVH.unitBox 1] directLayout directLine V 0 ∧
    (∀ s ∈ [everything, BVH.unitBox 1], s.PointSound 10 (directLine.at 0)) ∧
    ([everything, BVH.unitBox 1].map BVH.Sector.level).Nodup := by
  have e0 : directLine.at 0 = ⟨0, 0, 0⟩ := by
    ext <;> simp [Line.at, directLine]
  have lt : ∀ x y : ℝ, x < y → (x : EReal) < (y : EReal) := fun _ _ h => EReal.coe_lt_coe_iff.2 h
  have hev : everything.isInside ⟨0, 0, 0⟩ = true := by
    unfold BVH.Sector.isInside everything firstAhead
    rw [if_neg (by unfold precision; norm_num), firstAhead, if_pos (by unfold precision; norm_num)]
    rfl
  have hfin : ¬ BoolBox.AllFin (everything.worldBox 10) := by
    have : everything.worldBox 10 = ⟨⟨⊥, ⊥, ⊥⟩, ⟨⊤, ⊤, ⊤⟩⟩ := by
      unfold BVH.Sector.worldBox BoolBox.world
      rw [if_neg (by simp [everything, AABB.isValid]), if_pos (by simp [everything, BoolBox.AllFin, BoolBox.isFin])]
      rfl
    rw [this]; simp [BoolBox.AllFin, BoolBox.isFin]
  refine ⟨fun _ _ => True, ⟨by simp [directLine, Vec3.dot], ?_, C26_sort_exists _, ?_, by simp [directModel], ?_⟩,
    ⟨EReal.bot_lt_coe _, EReal.coe_lt_top _⟩, ?_, ⟨?_, ?_, ?_⟩, ?_, by simp [everything, BVH.unitBox]⟩
  · refine ⟨bot_lt_top, by simp [directLayout], by simp [directLayout], ?_, ?_⟩
    · intro s hs
      simp only [directLayout, List.mem_singleton] at hs
      subst hs
      refine ⟨?_, by simp⟩
      intro c hc
      simp only [List.mem_singleton] at hc
      subst hc
      exact lt (-1) 1 (by norm_num)
    · intro s hs c hc
      simp only [directLayout, List.mem_singleton] at hs
      subst hs
      simp only [List.mem_singleton] at hc
      subst hc
      exact ⟨EReal.bot_lt_coe _, EReal.coe_lt_top _⟩
  · intro s hs
    simp only [Layout.sectors, Layout.outer, directLayout, List.mem_cons, List.not_mem_nil, or_false] at hs
    rcases hs with rfl | rfl <;> simp [directModel]
  · intro sec hsec
    simp only [directModel, List.mem_cons, List.not_mem_nil, or_false] at hsec
    rcases hsec with rfl | rfl <;> exact constDensity_lawful _
  · intro h hh
    have hm : h ∈ directLayout.hits := (C26_sort_exists directLayout.hits).1.mem_iff.1 hh
    simp only [Layout.hits, Layout.sectors, Layout.outer, directLayout, LineSector.hits, chordHits,
      List.flatMap_cons, List.flatMap_nil, List.append_nil, List.cons_append, List.nil_append, List.mem_cons,
      List.not_mem_nil, or_false] at hm
    rcases hm with rfl | rfl | rfl | rfl
    · exact (EReal.bot_lt_coe _).ne
    · exact (EReal.coe_lt_top _).ne'
    · exact (lt (-1) 0 (by norm_num)).ne
    · exact (lt 0 1 (by norm_num)).ne'
  · intro l
    simp only [Layout.sectors, Layout.outer, directLayout, List.mem_cons, List.not_mem_nil, or_false, exists_eq_or_imp,
      exists_eq_left]
    rfl
  · intro s hs
    rw [e0]
    simp only [List.mem_cons, List.not_mem_nil, or_false] at hs
    rcases hs with rfl | rfl
    · simp [hev]
    · simp [BVH.unitBox_origin]
  · intro s hs
    simp only [Layout.sectors, Layout.outer, directLayout, List.mem_cons, List.not_mem_nil, or_false] at hs
    rcases hs with rfl | rfl
    · simp only [LineSector.Inside, List.mem_singleton, exists_eq_left, iff_true]
      exact ⟨EReal.bot_lt_coe _, EReal.coe_lt_top _⟩
    · simp only [LineSector.Inside, List.mem_singleton, exists_eq_left, iff_true]
      exact ⟨lt (-1) 0 (by norm_num), lt 0 1 (by norm_num)⟩
  · intro s hs
    rw [e0]
    simp only [List.mem_cons, List.not_mem_nil, or_false] at hs
    rcases hs with rfl | rfl
    · exact ⟨fun _ h => absurd h hfin, fun _ => hev, by decide, fun h => absurd h hfin⟩
    · refine ⟨?_, ?_, by decide, ?_⟩
      · intro _ _ _
        rw [BVH.unitBox_world, BoolBox.in_lift]; norm_num [AABB.Mem]
      · intro h; exact absurd (by rw [BVH.unitBox_world]; exact BoolBox.allFin_lift _) h
      · intro _; decide

end Siren.Detector
