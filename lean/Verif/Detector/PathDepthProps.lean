import Verif.Detector.PathProps
import Verif.Detector.InverseProps

set_option autoImplicit false

/-! # C35, C66: column depths along a path -/

namespace Siren.Detector

open Siren MeasureTheory

/-! ### Specification -/

/-- What is assumed of the detector: casting a ray gives the sorted crossings of a layout of sectors (C23, C26) in which one sector covers
the whole line; the densities are positive and their integrals and inverse integrals are right (C52). -/
structure PathDetector.Sound (D : PathDetector) : Prop where
  proper : D.frame.Proper
  casts : ∀ x v, (D.cast x v).position = x ∧ (D.cast x v).direction = v
  setup : ∀ x v, Vec3.dot v v = 1 → ∃ L, Setup D.model L (D.cast x v) ∧ L.lo = ⊥ ∧ L.hi = ⊤
  pos : ∀ sec ∈ D.model.sectors, ∀ p, 0 < sec.density.evaluate p
  inv : ∀ sec ∈ D.model.sectors, sec.density.LawfulInverse

namespace Path

/-! ### The depth along a line as a function -/

/-- `G` tells the column depth along the line of the path, and all queries agree with it. -/
structure Profile (D : PathDetector) (I : Line) (a u : Vec3 ℝ) (G : ℝ → ℝ) : Prop where
  mono : StrictMono G
  cont : Continuous G
  depth : ∀ s r : ℝ, D.model.columnDepth I (D.frame.toGeo (a + Vec3.smul s u)) (D.frame.toGeo (a + Vec3.smul r u)) = .ok |G r - G s|
  fwd : ∀ s e : ℝ, D.model.distanceForColumnDepth I (D.frame.toGeo (a + Vec3.smul s u)) (D.frame.toGeoDir u) (G (s + e) - G s) = .ok (e : EReal)
  bwd : ∀ s e : ℝ, D.model.distanceForColumnDepth I (D.frame.toGeo (a + Vec3.smul s u)) (-(D.frame.toGeoDir u)) (G s - G (s - e)) = .ok (e : EReal)
  fwdBeyond : ∀ s x : ℝ, 0 ≤ x → (∀ e, 0 ≤ e → G (s + e) - G s ≤ x) →
    D.model.distanceForColumnDepth I (D.frame.toGeo (a + Vec3.smul s u)) (D.frame.toGeoDir u) x = .ok ⊤
  bwdBeyond : ∀ s x : ℝ, 0 ≤ x → (∀ e, 0 ≤ e → G s - G (s - e) ≤ x) →
    D.model.distanceForColumnDepth I (D.frame.toGeo (a + Vec3.smul s u)) (-(D.frame.toGeoDir u)) x = .ok ⊤
  fwdBelow : ∀ s x : ℝ, x < 0 → (∀ e, e < 0 → G s - G (s + e) ≤ -x) →
    D.model.distanceForColumnDepth I (D.frame.toGeo (a + Vec3.smul s u)) (D.frame.toGeoDir u) x = .ok ⊥
  bwdBelow : ∀ s x : ℝ, x < 0 → (∀ e, e < 0 → G (s - e) - G s ≤ -x) →
    D.model.distanceForColumnDepth I (D.frame.toGeo (a + Vec3.smul s u)) (-(D.frame.toGeoDir u)) x = .ok ⊥

theorem exists_profile {D : PathDetector} (S : D.Sound) {x v a u : Vec3 ℝ} (hv : Vec3.dot v v = 1) {t : ℝ}
    (ht : D.frame.toGeo a = x + Vec3.smul t v) (hu : D.frame.toGeoDir u = v ∨ D.frame.toGeoDir u = -v) :
    ∃ G, Profile D (D.cast x v) a u G := by
  obtain ⟨L, hS, hlo, hhi⟩ := S.setup x v hv
  obtain ⟨c1, c2⟩ := S.casts x v
  obtain ⟨ρ, hρ⟩ := C20_density_exists hS
  have hspan : ∀ y : ℝ, L.Spans y := fun y => ⟨by rw [hlo]; exact EReal.bot_lt_coe y, by rw [hhi]; exact EReal.coe_lt_top y⟩
  obtain ⟨back, hback⟩ : ∃ back : Bool, (D.cast x v).dir back = D.frame.toGeoDir u := by
    rcases hu with hu | hu
    · exact ⟨false, by simp [Line.dir, c2, hu]⟩
    · exact ⟨true, by simp [Line.dir, c2, hu]⟩
  have hneg : (D.cast x v).dir (!back) = -(D.frame.toGeoDir u) := by
    rw [← hback]
    cases back
    · simp [Line.dir]
    · simp only [Line.dir, Bool.not_true, Bool.false_eq_true, if_false, if_true]
      ext <;> simp
  have hat : ∀ s, D.frame.toGeo (a + Vec3.smul s u) = (D.cast x v).at (walked t back s) := by
    intro s
    rw [← toGeo_move S.proper, ht, ← hback, Line.at, c1]
    cases back
    · simp only [Line.dir, walked, Bool.false_eq_true, if_false, c2]
      ext <;> simp <;> ring
    · simp only [Line.dir, walked, if_true, c2]
      ext <;> simp <;> ring
  have hstep : ∀ s e, walked (walked t back s) back e = walked t back (s + e) := by
    intro s e; cases back <;> simp [walked] <;> ring
  have hstep' : ∀ s e, walked (walked t back s) (!back) e = walked t back (s - e) := by
    intro s e; cases back <;> simp [walked] <;> ring
  have hint : ∀ s r : ℝ, IntervalIntegrable (fun y => ρ (walked t back y)) volume s r := by
    intro s r
    have h0 : ∀ s, IntervalIntegrable (fun y => ρ (walked t back y)) volume 0 s := fun s =>
      walked_integrable (C20_column_depth_is_integral hS hρ t _ (hspan _) (hspan _).reaches).1
    exact (h0 s).symm.trans (h0 r)
  have hposρ : ∀ y, 0 < ρ (walked t back y) := fun y => density_pos hS hρ S.pos _ (hspan _)
  set G : ℝ → ℝ := fun s => 100 * ∫ y in (0 : ℝ)..s, ρ (walked t back y) with hG
  have hdiff : ∀ s r, G r - G s = 100 * ∫ y in s..r, ρ (walked t back y) := by
    intro s r
    have := intervalIntegral.integral_interval_sub_left (hint 0 r) (hint 0 s)
    simp only [hG]
    linarith
  have hmono : StrictMono G := by
    intro s r h
    have := intervalIntegral.intervalIntegral_pos_of_pos (hint s r) hposρ h
    have := hdiff s r
    linarith
  have hle : ∀ s r, s ≤ r → D.model.columnDepth (D.cast x v) ((D.cast x v).at (walked t back s)) ((D.cast x v).at (walked t back r)) = .ok (G r - G s) := by
    intro s r h
    rw [(C20_column_depth_is_integral hS hρ _ _ (hspan _) (hspan _).reaches).2]
    have h1 := walked_integral ρ (walked t back s) back (r - s) (by linarith)
    rw [hstep, show s + (r - s) = r by ring] at h1
    rw [h1, hdiff]
    simp only [hstep]
    rw [intervalIntegral.integral_comp_add_left (fun y => ρ (walked t back y)) s]
    congr 3 <;> ring
  have hdep : ∀ s r, D.model.columnDepth (D.cast x v) ((D.cast x v).at (walked t back s)) ((D.cast x v).at (walked t back r)) = .ok |G r - G s| := by
    intro s r
    rcases le_total s r with h | h
    · rw [hle s r h, abs_of_nonneg (sub_nonneg.2 (hmono.monotone h))]
    · rw [C20_symmetric hS hρ _ _ (hspan _) (hspan _), hle r s h, abs_of_nonpos (sub_nonpos.2 (hmono.monotone h)), neg_sub]
  have hend : ∀ y b, L.toEnd y b = ⊤ := by
    intro y b
    cases b <;> simp [Layout.toEnd, hlo, hhi]
  refine ⟨G, hmono, ?_, ?_, ?_, ?_, ?_, ?_, ?_, ?_⟩
  · exact continuous_const.mul (intervalIntegral.continuous_primitive hint 0)
  · intro s r; rw [hat, hat, hdep]
  · intro s e
    rw [hat, ← hback]
    refine C21_inverts hS S.pos S.inv _ (hspan _) back _ e ?_ (hspan _).reaches ?_
    · rcases le_or_gt 0 e with h | h
      · exact Or.inl ⟨sub_nonneg.2 (hmono.monotone (by linarith)), h⟩
      · exact Or.inr ⟨sub_neg.2 (hmono (by linarith)), h⟩
    · rw [hstep, hdep]
  · intro s e
    rw [hat, ← hneg]
    refine C21_inverts hS S.pos S.inv _ (hspan _) (!back) _ e ?_ (hspan _).reaches ?_
    · rcases le_or_gt 0 e with h | h
      · exact Or.inl ⟨sub_nonneg.2 (hmono.monotone (by linarith)), h⟩
      · exact Or.inr ⟨sub_neg.2 (hmono (by linarith)), h⟩
    · rw [hstep', hdep, abs_sub_comm]
  · intro s y hy h
    rw [hat, ← hback, C21_beyond hS S.pos S.inv _ (hspan _) back y, if_neg (not_lt.2 hy), hend]
    rintro e (⟨-, he⟩ | ⟨he, -⟩) -
    · refine ⟨_, by rw [hstep]; exact hdep _ _, ?_⟩
      rw [abs_of_nonneg hy, abs_of_nonneg (sub_nonneg.2 (hmono.monotone (by linarith)))]
      exact h e he
    · linarith
  · intro s y hy h
    rw [hat, ← hneg, C21_beyond hS S.pos S.inv _ (hspan _) (!back) y, if_neg (not_lt.2 hy), hend]
    rintro e (⟨-, he⟩ | ⟨he, -⟩) -
    · refine ⟨_, by rw [hstep']; exact hdep _ _, ?_⟩
      rw [abs_of_nonneg hy, abs_sub_comm, abs_of_nonneg (sub_nonneg.2 (hmono.monotone (by linarith)))]
      exact h e he
    · linarith
  · intro s y hy h
    rw [hat, ← hback, C21_beyond hS S.pos S.inv _ (hspan _) back y, if_pos hy, hend, EReal.neg_top]
    rintro e (⟨he, -⟩ | ⟨-, he⟩) -
    · linarith
    · refine ⟨_, by rw [hstep]; exact hdep _ _, ?_⟩
      rw [abs_of_neg hy, abs_sub_comm, abs_of_nonneg (sub_nonneg.2 (hmono.monotone (by linarith)))]
      exact h e he
  · intro s y hy h
    rw [hat, ← hneg, C21_beyond hS S.pos S.inv _ (hspan _) (!back) y, if_pos hy, hend, EReal.neg_top]
    rintro e (⟨he, -⟩ | ⟨-, he⟩) -
    · linarith
    · refine ⟨_, by rw [hstep']; exact hdep _ _, ?_⟩
      rw [abs_of_neg hy, abs_of_nonneg (sub_nonneg.2 (hmono.monotone (by linarith)))]
      exact h e he

theorem Profile.shift {D : PathDetector} {I : Line} {a u : Vec3 ℝ} {G : ℝ → ℝ} (h : Profile D I a u G) (c : ℝ) :
    Profile D I (a + Vec3.smul c u) u (fun s => G (s + c)) := by
  have e : ∀ s, a + Vec3.smul c u + Vec3.smul s u = a + Vec3.smul (s + c) u := by intro s; rw [smul_add_smul, add_comm]
  refine ⟨fun s r hh => h.mono (by linarith), h.cont.comp (by fun_prop), ?_, ?_, ?_, ?_, ?_, ?_, ?_⟩
  · intro s r; rw [e, e, h.depth]
  · intro s y
    rw [e]
    have := h.fwd (s + c) y
    rwa [show s + c + y = s + y + c by ring] at this
  · intro s y
    rw [e]
    have := h.bwd (s + c) y
    rwa [show s + c - y = s - y + c by ring] at this
  · intro s x hx hh
    rw [e]
    refine h.fwdBeyond (s + c) x hx (fun y hy => ?_)
    have := hh y hy
    rwa [show s + y + c = s + c + y by ring] at this
  · intro s x hx hh
    rw [e]
    refine h.bwdBeyond (s + c) x hx (fun y hy => ?_)
    have := hh y hy
    rwa [show s - y + c = s + c - y by ring] at this
  · intro s x hx hh
    rw [e]
    refine h.fwdBelow (s + c) x hx (fun y hy => ?_)
    have := hh y hy
    rwa [show s + y + c = s + c + y by ring] at this
  · intro s x hx hh
    rw [e]
    refine h.bwdBelow (s + c) x hx (fun y hy => ?_)
    have := hh y hy
    rwa [show s - y + c = s + c - y by ring] at this

/-- Between two points of the line every depth between occurs. -/
theorem Profile.reach {D : PathDetector} {I : Line} {a u : Vec3 ℝ} {G : ℝ → ℝ} (h : Profile D I a u G) {s r x : ℝ} (hsr : s ≤ r)
    (h0 : G s ≤ x) (h1 : x ≤ G r) : ∃ y, s ≤ y ∧ y ≤ r ∧ G y = x := by
  obtain ⟨y, ⟨hy1, hy2⟩, hy⟩ := intermediate_value_Icc hsr h.cont.continuousOn ⟨h0, h1⟩
  exact ⟨y, hy1, hy2, hy⟩

/-- Every query forwards. -/
theorem Profile.fwd_total {D : PathDetector} {I : Line} {a u : Vec3 ℝ} {G : ℝ → ℝ} (h : Profile D I a u G) (s x : ℝ) :
    (∃ e, G (s + e) - G s = x ∧
      D.model.distanceForColumnDepth I (D.frame.toGeo (a + Vec3.smul s u)) (D.frame.toGeoDir u) x = .ok (e : EReal)) ∨
    (0 < x ∧ (∀ e, G (s + e) - G s < x) ∧
      D.model.distanceForColumnDepth I (D.frame.toGeo (a + Vec3.smul s u)) (D.frame.toGeoDir u) x = .ok ⊤) ∨
    (x < 0 ∧ (∀ e, x < G (s + e) - G s) ∧
      D.model.distanceForColumnDepth I (D.frame.toGeo (a + Vec3.smul s u)) (D.frame.toGeoDir u) x = .ok ⊥) := by
  by_cases hr : ∃ e, G (s + e) - G s = x
  · obtain ⟨e, he⟩ := hr
    exact Or.inl ⟨e, he, by rw [← he]; exact h.fwd s e⟩
  · push Not at hr
    have h0 : x ≠ 0 := fun hx => hr 0 (by rw [add_zero, sub_self, hx])
    rcases lt_or_gt_of_ne h0 with hx | hx
    · have key : ∀ e, x < G (s + e) - G s := by
        intro e
        by_contra hc
        have hle : s + e ≤ s := by
          by_contra hlt
          have := h.mono (not_le.1 hlt)
          linarith
        obtain ⟨y, -, -, hy⟩ := h.reach (x := G s + x) hle (by linarith) (by linarith)
        exact hr (y - s) (by rw [show s + (y - s) = y by ring, hy]; ring)
      exact Or.inr (Or.inr ⟨hx, key, h.fwdBelow s x hx (fun e _ => by have := key e; linarith)⟩)
    · have key : ∀ e, G (s + e) - G s < x := by
        intro e
        by_contra hc
        have hle : s ≤ s + e := by
          by_contra hlt
          have := h.mono (not_le.1 hlt)
          linarith
        obtain ⟨y, -, -, hy⟩ := h.reach (x := G s + x) hle (by linarith) (by linarith)
        exact hr (y - s) (by rw [show s + (y - s) = y by ring, hy]; ring)
      exact Or.inr (Or.inl ⟨hx, key, h.fwdBeyond s x hx.le (fun e _ => (key e).le)⟩)

/-- Every query backwards. -/
theorem Profile.bwd_total {D : PathDetector} {I : Line} {a u : Vec3 ℝ} {G : ℝ → ℝ} (h : Profile D I a u G) (s x : ℝ) :
    (∃ e, G s - G (s - e) = x ∧
      D.model.distanceForColumnDepth I (D.frame.toGeo (a + Vec3.smul s u)) (-(D.frame.toGeoDir u)) x = .ok (e : EReal)) ∨
    (0 < x ∧ (∀ e, G s - G (s - e) < x) ∧
      D.model.distanceForColumnDepth I (D.frame.toGeo (a + Vec3.smul s u)) (-(D.frame.toGeoDir u)) x = .ok ⊤) ∨
    (x < 0 ∧ (∀ e, x < G s - G (s - e)) ∧
      D.model.distanceForColumnDepth I (D.frame.toGeo (a + Vec3.smul s u)) (-(D.frame.toGeoDir u)) x = .ok ⊥) := by
  by_cases hr : ∃ e, G s - G (s - e) = x
  · obtain ⟨e, he⟩ := hr
    exact Or.inl ⟨e, he, by rw [← he]; exact h.bwd s e⟩
  · push Not at hr
    have h0 : x ≠ 0 := fun hx => hr 0 (by rw [sub_zero, sub_self, hx])
    rcases lt_or_gt_of_ne h0 with hx | hx
    · have key : ∀ e, x < G s - G (s - e) := by
        intro e
        by_contra hc
        have hle : s ≤ s - e := by
          by_contra hlt
          have := h.mono (not_le.1 hlt)
          linarith
        obtain ⟨y, -, -, hy⟩ := h.reach (x := G s - x) hle (by linarith) (by linarith)
        exact hr (s - y) (by rw [show s - (s - y) = y by ring, hy]; ring)
      exact Or.inr (Or.inr ⟨hx, key, h.bwdBelow s x hx (fun e _ => by have := key e; linarith)⟩)
    · have key : ∀ e, G s - G (s - e) < x := by
        intro e
        by_contra hc
        have hle : s - e ≤ s := by
          by_contra hlt
          have := h.mono (not_le.1 hlt)
          linarith
        obtain ⟨y, -, -, hy⟩ := h.reach (x := G s - x) hle (by linarith) (by linarith)
        exact hr (s - y) (by rw [show s - (s - y) = y by ring, hy]; ring)
      exact Or.inr (Or.inl ⟨hx, key, h.bwdBeyond s x hx.le (fun e _ => (key e).le)⟩)

/-- A path, the same path with its intersections, and the depth along it. -/
structure Has (p r : Path) (D : PathDetector) (a u : Vec3 ℝ) (L : ℝ) (G : ℝ → ℝ) : Prop where
  inv : p.Inv D a u (L : EReal)
  prep : p.prepare = .ok r
  rinv : r.Inv D a u (L : EReal)
  geo : r.setGeo = true
  hits : r.setHits = true
  prof : Profile D r.hits a u G

theorem has_history {D : PathDetector} (S : D.Sound) (st : PathStart) (h : st.Ok) (os : List PathOp) {p : Path}
    (hp : runOps os (st.build D) = .ok p) :
    ∃ r G, Has p r D (os.foldl (fun s o => o.spec s) (st.stretch D)).start (os.foldl (fun s o => o.spec s) (st.stretch D)).dir
      (os.foldl (fun s o => o.spec s) (st.stretch D)).length G := by
  obtain ⟨p', g1, g2, g3⟩ := history_inv (p0 := Path.new (some D)) S.proper rfl st h os
  rw [show st.set (Path.new (some D)) = st.build D from rfl, hp] at g1
  cases g1
  obtain ⟨r, r1, r2, r3, r4, r5, -⟩ := g2.prepare S.proper (fun _ : True => g3 rfl)
  obtain ⟨x, v, hv, hx, ⟨t, ht⟩, hu⟩ := r3 trivial r5
  obtain ⟨G, hG⟩ := exists_profile S hv ht hu
  exact ⟨r, G, g2, r1, r2, r4, r5, by rw [hx]; exact hG⟩

theorem Has.extendEnd {p r : Path} {D : PathDetector} (S : D.Sound) {a u : Vec3 ℝ} {L : ℝ} {G : ℝ → ℝ} (h : Has p r D a u L G) (e : ℝ) :
    ∃ q r', r.extendEnd e = .ok q ∧ Has q r' D a u (max 0 (L + e)) G := by
  obtain ⟨q, q1, q2, q3, q4⟩ := h.rinv.extendEnd S.proper e
  obtain ⟨r', r1, r2, -, r4, r5, r6, -⟩ := q2.prepare S.proper (F := False) (by simp)
  refine ⟨q, r', q1, q2, r1, r2, r4, r5, ?_⟩
  rw [r6 (q3.trans h.hits), q4]
  exact h.prof

theorem Has.extendStart {p r : Path} {D : PathDetector} (S : D.Sound) {a u : Vec3 ℝ} {L : ℝ} {G : ℝ → ℝ} (h : Has p r D a u L G) (e : ℝ) :
    ∃ q r', r.extendStart e = .ok q ∧
      Has q r' D (a + Vec3.smul (L - max 0 (L + e)) u) u (max 0 (L + e)) (fun s => G (s + (L - max 0 (L + e)))) := by
  obtain ⟨q, q1, q2, q3, q4⟩ := h.rinv.extendStart S.proper e
  obtain ⟨r', r1, r2, -, r4, r5, r6, -⟩ := q2.prepare S.proper (F := False) (by simp)
  refine ⟨q, r', q1, q2, r1, r2, r4, r5, ?_⟩
  rw [r6 (q3.trans h.hits), q4]
  exact h.prof.shift _

theorem Has.query {p r : Path} {D : PathDetector} {a u : Vec3 ℝ} {L : ℝ} {G : ℝ → ℝ} (h : Has p r D a u L G) {α : Type} (nf nl : Bool)
    (f : PathDetector → Path → Res α) : p.query nf nl f = f D r := by
  unfold Path.query
  rw [h.prep]
  have hl : r.lastInf = false := by rw [h.rinv.lastInf]; exact decide_eq_false (EReal.coe_ne_top _)
  simp only [Res.bind, h.rinv.firstInf, hl, Bool.and_false, Bool.or_self, Bool.false_eq_true, if_false, h.rinv.det]

theorem Has.points {p r : Path} {D : PathDetector} (S : D.Sound) {a u : Vec3 ℝ} {L : ℝ} {G : ℝ → ℝ} (h : Has p r D a u L G) :
    0 ≤ L ∧ r.geo.dir = D.frame.toGeoDir u ∧ r.geo.first = D.frame.toGeo (a + Vec3.smul 0 u) ∧ r.geo.last = D.frame.toGeo (a + Vec3.smul L u) ∧
      (∀ y, r.geo.first + Vec3.smul y r.geo.dir = D.frame.toGeo (a + Vec3.smul y u)) ∧
      (∀ y, r.geo.last + Vec3.smul y r.geo.dir = D.frame.toGeo (a + Vec3.smul (L + y) u)) := by
  obtain ⟨g1, g2, g3⟩ := h.rinv.geo h.geo
  have g3 := g3 (EReal.coe_ne_top _)
  rw [EReal.toReal_coe] at g3
  refine ⟨by exact_mod_cast h.inv.nonneg, g2, by rw [g1, smul_zero'], g3, ?_, ?_⟩
  · intro y; rw [g1, g2, toGeo_move S.proper]
  · intro y; rw [g3, g2, toGeo_move S.proper, smul_add_smul]

theorem Has.depthInBounds {p r : Path} {D : PathDetector} (S : D.Sound) {a u : Vec3 ℝ} {L : ℝ} {G : ℝ → ℝ} (h : Has p r D a u L G) :
    p.depthInBounds .column = .ok (G L - G 0) := by
  obtain ⟨hL, g1, g2, g3, -⟩ := h.points S
  unfold Path.depthInBounds
  rw [h.query]
  simp only [PathDetector.depth]
  rw [g2, g3, h.prof.depth, abs_of_nonneg (sub_nonneg.2 (h.prof.mono.monotone hL))]

theorem Has.depthFromStart {p r : Path} {D : PathDetector} (S : D.Sound) {a u : Vec3 ℝ} {L : ℝ} {G : ℝ → ℝ} (h : Has p r D a u L G) (y : ℝ) :
    p.depthFromStartInBounds y .column = .ok (G (max 0 (min y L)) - G 0) := by
  obtain ⟨hL, g1, g2, g3, g4, g5⟩ := h.points S
  unfold Path.depthFromStartInBounds
  rw [h.inv.dist]
  simp only [EReal.coe_lt_coe_iff, EReal.toReal_coe]
  by_cases h1 : L < y
  · rw [if_neg (by simp [h1]), h.query, if_pos h1]
    simp only [PathDetector.depth]
    rw [g4, g2, h.prof.depth, min_eq_right h1.le, max_eq_right hL, abs_of_nonneg (sub_nonneg.2 (h.prof.mono.monotone hL))]
  · rw [if_neg h1, min_eq_left (not_lt.1 h1)]
    by_cases h2 : y ≤ 0
    · rw [if_pos ⟨h1, h2⟩, max_eq_left h2, sub_self]
    · rw [if_neg (by simp [h2]), h.query, max_eq_right (not_le.1 h2).le]
      simp only [PathDetector.depth]
      rw [g4, g2, h.prof.depth, abs_of_nonneg (sub_nonneg.2 (h.prof.mono.monotone (not_le.1 h2).le))]

theorem Has.depthFromEnd {p r : Path} {D : PathDetector} (S : D.Sound) {a u : Vec3 ℝ} {L : ℝ} {G : ℝ → ℝ} (h : Has p r D a u L G) (y : ℝ) :
    p.depthFromEndInBounds y .column = .ok (G L - G (L - max 0 (min y L))) := by
  obtain ⟨hL, g1, g2, g3, g4, g5⟩ := h.points S
  unfold Path.depthFromEndInBounds
  rw [h.inv.dist]
  simp only [EReal.coe_lt_coe_iff, EReal.toReal_coe]
  by_cases h1 : L < y
  · rw [if_neg (by simp [h1]), h.query, if_pos h1]
    simp only [PathDetector.depth]
    rw [g5, g3, h.prof.depth, min_eq_right h1.le, max_eq_right hL, abs_sub_comm, ← sub_eq_add_neg,
      abs_of_nonneg (sub_nonneg.2 (h.prof.mono.monotone (by linarith)))]
  · rw [if_neg h1, min_eq_left (not_lt.1 h1)]
    by_cases h2 : y ≤ 0
    · rw [if_pos ⟨h1, h2⟩, max_eq_left h2, sub_zero, sub_self]
    · rw [if_neg (by simp [h2]), h.query, max_eq_right (not_le.1 h2).le]
      simp only [PathDetector.depth]
      rw [g5, g3, h.prof.depth, abs_sub_comm, ← sub_eq_add_neg, abs_of_nonneg (sub_nonneg.2 (h.prof.mono.monotone (by linarith)))]

/-- The four queries for a distance. -/
theorem Has.distances {p r : Path} {D : PathDetector} (S : D.Sound) {a u : Vec3 ℝ} {L : ℝ} {G : ℝ → ℝ} (h : Has p r D a u L G) (x : ℝ) :
    p.distanceFromStartAlongPath x .column = D.model.distanceForColumnDepth r.hits (D.frame.toGeo (a + Vec3.smul 0 u)) (D.frame.toGeoDir u) x ∧
    p.distanceFromEndAlongPath x .column = D.model.distanceForColumnDepth r.hits (D.frame.toGeo (a + Vec3.smul L u)) (D.frame.toGeoDir u) x ∧
    p.distanceFromStartInReverse x .column = D.model.distanceForColumnDepth r.hits (D.frame.toGeo (a + Vec3.smul 0 u)) (-(D.frame.toGeoDir u)) x ∧
    p.distanceFromEndInReverse x .column = D.model.distanceForColumnDepth r.hits (D.frame.toGeo (a + Vec3.smul L u)) (-(D.frame.toGeoDir u)) x := by
  obtain ⟨hL, g1, g2, g3, -⟩ := h.points S
  unfold Path.distanceFromStartAlongPath Path.distanceFromEndAlongPath Path.distanceFromStartInReverse Path.distanceFromEndInReverse
  simp only [h.query, PathDetector.distanceFor, g1, g2, g3]
  exact ⟨trivial, trivial, trivial, trivial⟩

theorem clampDistance_eq {p : Path} {L : ℝ} (hd : p.distance = (L : EReal)) (x e : ℝ) :
    p.clampDistance x (e : EReal) = ((if L < e then L else if x ≤ 0 then 0 else e : ℝ) : EReal) := by
  unfold Path.clampDistance
  rw [hd]
  simp only [EReal.coe_lt_coe_iff]
  split_ifs <;> rfl

theorem Has.distanceFromStart {p r : Path} {D : PathDetector} (S : D.Sound) {a u : Vec3 ℝ} {L : ℝ} {G : ℝ → ℝ} (h : Has p r D a u L G) (x : ℝ) :
    ∃ d : ℝ, p.distanceFromStartInBounds x .column = .ok (d : EReal) ∧ 0 ≤ d ∧ d ≤ L ∧ G d - G 0 = max 0 (min x (G L - G 0)) := by
  obtain ⟨hL, -⟩ := h.points S
  have hm := h.prof.mono
  have hT : 0 ≤ G L - G 0 := sub_nonneg.2 (hm.monotone hL)
  unfold Path.distanceFromStartInBounds
  rw [(h.distances S x).1]
  rcases h.prof.fwd_total 0 x with ⟨e, he, hq⟩ | ⟨hx, hlt, hq⟩ | ⟨hx, hlt, hq⟩
  · rw [hq]
    simp only [Res.bind, clampDistance_eq h.inv.dist]
    rw [zero_add] at he
    refine ⟨_, rfl, ?_⟩
    split_ifs with h1 h2
    · have := hm h1
      exact ⟨hL, le_refl _, by rw [min_eq_right (by linarith), max_eq_right hT]⟩
    · exact ⟨le_refl _, hL, by rw [sub_self, max_eq_left (le_trans (min_le_left _ _) h2)]⟩
    · have he0 : 0 < e := hm.lt_iff_lt.1 (by linarith [not_le.1 h2] : G 0 < G e)
      have := hm.monotone (not_lt.1 h1)
      exact ⟨he0.le, not_lt.1 h1, by rw [he, min_eq_left (by linarith), max_eq_right (not_le.1 h2).le]⟩
  · rw [hq]
    simp only [Res.bind, Path.clampDistance, h.inv.dist, EReal.coe_lt_top, if_true]
    have := hlt L
    rw [zero_add] at this
    exact ⟨L, rfl, hL, le_refl _, by rw [min_eq_right this.le, max_eq_right hT]⟩
  · rw [hq]
    simp only [Res.bind, Path.clampDistance, h.inv.dist, not_lt_bot, if_false, hx.le, if_true]
    exact ⟨0, rfl, le_refl _, hL, by rw [sub_self, max_eq_left (le_trans (min_le_left _ _) hx.le)]⟩

theorem Has.distanceFromEnd {p r : Path} {D : PathDetector} (S : D.Sound) {a u : Vec3 ℝ} {L : ℝ} {G : ℝ → ℝ} (h : Has p r D a u L G) (x : ℝ) :
    ∃ d : ℝ, p.distanceFromEndInBounds x .column = .ok (d : EReal) ∧ 0 ≤ d ∧ d ≤ L ∧ G L - G (L - d) = max 0 (min x (G L - G 0)) := by
  obtain ⟨hL, -⟩ := h.points S
  have hm := h.prof.mono
  have hT : 0 ≤ G L - G 0 := sub_nonneg.2 (hm.monotone hL)
  unfold Path.distanceFromEndInBounds
  rw [(h.distances S x).2.2.2]
  rcases h.prof.bwd_total L x with ⟨e, he, hq⟩ | ⟨hx, hlt, hq⟩ | ⟨hx, hlt, hq⟩
  · rw [hq]
    simp only [Res.bind, clampDistance_eq h.inv.dist]
    refine ⟨_, rfl, ?_⟩
    split_ifs with h1 h2
    · have := hm (show L - e < 0 by linarith)
      exact ⟨hL, le_refl _, by rw [sub_self, min_eq_right (by linarith), max_eq_right hT]⟩
    · exact ⟨le_refl _, hL, by rw [sub_zero, sub_self, max_eq_left (le_trans (min_le_left _ _) h2)]⟩
    · have he0 : L - e < L := hm.lt_iff_lt.1 (by linarith [not_le.1 h2])
      have := hm.monotone (show 0 ≤ L - e by linarith)
      exact ⟨by linarith, not_lt.1 h1, by rw [he, min_eq_left (by linarith), max_eq_right (not_le.1 h2).le]⟩
  · rw [hq]
    simp only [Res.bind, Path.clampDistance, h.inv.dist, EReal.coe_lt_top, if_true]
    have := hlt L
    rw [sub_self] at this
    exact ⟨L, rfl, hL, le_refl _, by rw [sub_self, min_eq_right this.le, max_eq_right hT]⟩
  · rw [hq]
    simp only [Res.bind, Path.clampDistance, h.inv.dist, not_lt_bot, if_false, hx.le, if_true]
    exact ⟨0, rfl, le_refl _, hL, by rw [sub_zero, sub_self, max_eq_left (le_trans (min_le_left _ _) hx.le)]⟩

theorem Has.distance_eq {p r : Path} {D : PathDetector} {a u : Vec3 ℝ} {L : ℝ} {G : ℝ → ℝ} (h : Has p r D a u L G) : p.distance = (L : EReal) :=
  h.inv.dist

/-! ### C35: distances for depths -/

/-- C35: the distance from the start, or from the end, at which a column depth is reached "in bounds" always lies between zero and the
length of the path, after any history; the column depth up to there is the request, limited to between zero and the whole column depth. -/
theorem C35_distance {D : PathDetector} (S : D.Sound) (st : PathStart) (h : st.Ok) (os : List PathOp) (p : Path)
    (hp : runOps os (st.build D) = .ok p) (x : ℝ) :
    ∃ T, p.depthInBounds .column = .ok T ∧
    (∃ d : ℝ, p.distanceFromStartInBounds x .column = .ok (d : EReal) ∧ 0 ≤ d ∧ (d : EReal) ≤ p.distance ∧
      p.depthFromStartInBounds d .column = .ok (max 0 (min x T))) ∧
    (∃ d : ℝ, p.distanceFromEndInBounds x .column = .ok (d : EReal) ∧ 0 ≤ d ∧ (d : EReal) ≤ p.distance ∧
      p.depthFromEndInBounds d .column = .ok (max 0 (min x T))) := by
  obtain ⟨r, G, hG⟩ := has_history S st h os hp
  refine ⟨_, hG.depthInBounds S, ?_, ?_⟩
  · obtain ⟨d, d1, d2, d3, d4⟩ := hG.distanceFromStart S x
    refine ⟨d, d1, d2, by rw [hG.distance_eq]; exact_mod_cast d3, ?_⟩
    rw [hG.depthFromStart S, min_eq_left d3, max_eq_right d2, d4]
  · obtain ⟨d, d1, d2, d3, d4⟩ := hG.distanceFromEnd S x
    refine ⟨d, d1, d2, by rw [hG.distance_eq]; exact_mod_cast d3, ?_⟩
    rw [hG.depthFromEnd S, min_eq_left d3, max_eq_right d2, d4]

/-- C35: for interaction depths too, the distance never exceeds the length of the path. -/
theorem C35_distance_upper (D : PathDetector) (hD : D.frame.Proper) (p0 : Path) (hp0 : p0.detector = some D) (st : PathStart) (h : st.Ok)
    (os : List PathOp) (p : Path) (hp : runOps os (st.set p0) = .ok p) (x : ℝ) (k : Depth) (d : EReal)
    (hd : p.distanceFromStartInBounds x k = .ok d ∨ p.distanceFromEndInBounds x k = .ok d) : d ≤ p.distance := by
  obtain ⟨p', h1, h2, -⟩ := history_inv hD hp0 st h os
  rw [hp] at h1
  cases h1
  have hn : 0 ≤ p.distance := by rw [h2.dist]; exact h2.nonneg
  have key : ∀ y : Res EReal, (y.bind fun d => Res.ok (p.clampDistance x d)) = .ok d → d ≤ p.distance := by
    intro y hy
    cases y with
    | throws e => simp [Res.bind] at hy
    | ub => simp [Res.bind] at hy
    | ok e =>
      simp only [Res.bind, Res.ok.injEq] at hy
      rw [← hy]
      unfold Path.clampDistance
      split_ifs with h1 h2
      · exact le_refl _
      · exact hn
      · exact not_lt.1 h1
  rcases hd with hd | hd <;> exact key _ hd

/-! ### C66: paths cut to a depth -/

/-- C66: asking for the distance of a depth that was asked for a distance gives that distance back, limited to the path. -/
theorem C66_round_trip {D : PathDetector} (S : D.Sound) (st : PathStart) (h : st.Ok) (os : List PathOp) (p : Path)
    (hp : runOps os (st.build D) = .ok p) (y : ℝ) :
    ∃ L : ℝ, p.distance = (L : EReal) ∧
    (∃ c, p.depthFromStartInBounds y .column = .ok c ∧ p.distanceFromStartInBounds c .column = .ok ((max 0 (min y L) : ℝ) : EReal)) ∧
    (∃ c, p.depthFromEndInBounds y .column = .ok c ∧ p.distanceFromEndInBounds c .column = .ok ((max 0 (min y L) : ℝ) : EReal)) := by
  obtain ⟨r, G, hG⟩ := has_history S st h os hp
  have hm := hG.prof.mono
  obtain ⟨hL, -⟩ := hG.points S
  generalize (os.foldl (fun s o => o.spec s) (st.stretch D)).length = L at *
  have hy0 : 0 ≤ max 0 (min y L) := le_max_left _ _
  have hyL : max 0 (min y L) ≤ L := max_le hL (min_le_right _ _)
  refine ⟨L, hG.distance_eq, ⟨_, hG.depthFromStart S y, ?_⟩, ⟨_, hG.depthFromEnd S y, ?_⟩⟩
  · obtain ⟨d, d1, d2, d3, d4⟩ := hG.distanceFromStart S (G (max 0 (min y L)) - G 0)
    rw [d1]
    have h1 := hm.monotone hy0
    have h2 := hm.monotone hyL
    rw [min_eq_left (by linarith), max_eq_right (by linarith)] at d4
    have : d = max 0 (min y L) := hm.injective (by linarith)
    rw [this]
  · obtain ⟨d, d1, d2, d3, d4⟩ := hG.distanceFromEnd S (G L - G (L - max 0 (min y L)))
    rw [d1]
    have h1 := hm.monotone (show L - max 0 (min y L) ≤ L by linarith)
    have h2 := hm.monotone (show 0 ≤ L - max 0 (min y L) by linarith)
    rw [min_eq_left (by linarith), max_eq_right (by linarith)] at d4
    have : L - d = L - max 0 (min y L) := hm.injective (by linarith)
    have : d = max 0 (min y L) := by linarith
    rw [this]

theorem Has.moveEnd {p r : Path} {D : PathDetector} (S : D.Sound) {a u : Vec3 ℝ} {L : ℝ} {G : ℝ → ℝ} (h : Has p r D a u L G) (e : ℝ)
    (he : -L ≤ e) : ∃ q, r.extendEnd e = .ok q ∧ q.depthInBounds .column = .ok (G (L + e) - G 0) ∧ q.firstPoint = p.firstPoint ∧
      q.direction = p.direction := by
  obtain ⟨q, r', q1, q2⟩ := h.extendEnd S e
  rw [max_eq_right (by linarith)] at q2
  have hp := h.inv.runs S.proper
  have hq := q2.inv.runs S.proper
  exact ⟨q, q1, q2.depthInBounds S, by rw [hq.first, hp.first], by rw [hq.dir, hp.dir]⟩

theorem Has.moveStart {p r : Path} {D : PathDetector} (S : D.Sound) {a u : Vec3 ℝ} {L : ℝ} {G : ℝ → ℝ} (h : Has p r D a u L G) (e : ℝ)
    (he : -L ≤ e) : ∃ q, r.extendStart e = .ok q ∧ q.depthInBounds .column = .ok (G L - G (-e)) ∧ q.lastPoint = p.lastPoint ∧
      q.direction = p.direction := by
  obtain ⟨q, r', q1, q2⟩ := h.extendStart S e
  rw [max_eq_right (by linarith)] at q2
  have hp := h.inv.runs S.proper
  have hq := q2.inv.runs S.proper
  refine ⟨q, q1, ?_, ?_, by rw [hq.dir, hp.dir]⟩
  · rw [q2.depthInBounds S]
    congr 3 <;> ring
  · rw [hq.last, hp.last, smul_add_smul]
    congr 2
    ring

theorem Has.moveBy {p r : Path} {D : PathDetector} {a u : Vec3 ℝ} {L : ℝ} {G : ℝ → ℝ} (h : Has p r D a u L G) {x : Res EReal} {e : ℝ}
    (hx : x = .ok (e : EReal)) (f : Path → ℝ → Res Path) : p.moveBy x f = f r e := by
  unfold Path.moveBy
  rw [hx]
  simp [Res.bind, h.prep]

theorem Has.shrinkEndBy {p r : Path} {D : PathDetector} (S : D.Sound) {a u : Vec3 ℝ} {L : ℝ} {G : ℝ → ℝ} (h : Has p r D a u L G) {x : ℝ}
    (h0 : 0 ≤ x) (h1 : x ≤ G L - G 0) : ∃ q, p.shrinkEndBy x .column = .ok q ∧ q.depthInBounds .column = .ok (G L - G 0 - x) ∧
      q.firstPoint = p.firstPoint ∧ q.direction = p.direction := by
  obtain ⟨hL, -⟩ := h.points S
  obtain ⟨y, y1, y2, y3⟩ := h.prof.reach (x := G L - x) hL (by linarith) (by linarith)
  have hq : p.distanceFromEndInReverse x .column = .ok ((L - y : ℝ) : EReal) := by
    rw [(h.distances S x).2.2.2]
    have := h.prof.bwd L (L - y)
    rwa [show L - (L - y) = y by ring, y3, show G L - (G L - x) = x by ring] at this
  obtain ⟨q, q1, q2, q3, q4⟩ := h.moveEnd S (-(L - y)) (by linarith)
  refine ⟨q, ?_, ?_, q3, q4⟩
  · unfold Path.shrinkEndBy
    rw [h.moveBy hq]
    exact q1
  · rw [q2, show L + -(L - y) = y by ring, y3]
    congr 1; ring

theorem Has.shrinkStartBy {p r : Path} {D : PathDetector} (S : D.Sound) {a u : Vec3 ℝ} {L : ℝ} {G : ℝ → ℝ} (h : Has p r D a u L G) {x : ℝ}
    (h0 : 0 ≤ x) (h1 : x ≤ G L - G 0) : ∃ q, p.shrinkStartBy x .column = .ok q ∧ q.depthInBounds .column = .ok (G L - G 0 - x) ∧
      q.lastPoint = p.lastPoint ∧ q.direction = p.direction := by
  obtain ⟨hL, -⟩ := h.points S
  obtain ⟨y, y1, y2, y3⟩ := h.prof.reach (x := G 0 + x) hL (by linarith) (by linarith)
  have hq : p.distanceFromStartAlongPath x .column = .ok ((y : ℝ) : EReal) := by
    rw [(h.distances S x).1]
    have := h.prof.fwd 0 y
    rwa [zero_add, y3, show G 0 + x - G 0 = x by ring] at this
  obtain ⟨q, q1, q2, q3, q4⟩ := h.moveStart S (-y) (by linarith)
  refine ⟨q, ?_, ?_, q3, q4⟩
  · unfold Path.shrinkStartBy
    rw [h.moveBy hq]
    exact q1
  · rw [q2, neg_neg, y3]
    congr 1; ring

theorem Has.extendEndBy {p r : Path} {D : PathDetector} (S : D.Sound) {a u : Vec3 ℝ} {L : ℝ} {G : ℝ → ℝ} (h : Has p r D a u L G) {x e c : ℝ}
    (h0 : 0 ≤ x) (he : 0 ≤ e) (hc : p.depthFromEndAlongPath e .column = .ok c) (hx : x ≤ c) :
    ∃ q, p.extendEndBy x .column = .ok q ∧ q.depthInBounds .column = .ok (G L - G 0 + x) ∧
      q.firstPoint = p.firstPoint ∧ q.direction = p.direction := by
  obtain ⟨hL, g1, g2, g3, g4, g5⟩ := h.points S
  have hcG : c = G (L + e) - G L := by
    unfold Path.depthFromEndAlongPath at hc
    rw [h.query] at hc
    simp only [PathDetector.depth] at hc
    rw [g5, g3, h.prof.depth] at hc
    simp only [Res.bind, Res.ok.injEq, Path.copysign, not_lt.2 he, if_false, abs_abs] at hc
    rw [← hc, abs_of_nonneg (sub_nonneg.2 (h.prof.mono.monotone (by linarith)))]
  obtain ⟨y, y1, y2, y3⟩ := h.prof.reach (x := G L + x) (show L ≤ L + e by linarith) (by linarith) (by linarith)
  have hq : p.distanceFromEndAlongPath x .column = .ok ((y - L : ℝ) : EReal) := by
    rw [(h.distances S x).2.1]
    have := h.prof.fwd L (y - L)
    rwa [show L + (y - L) = y by ring, y3, show G L + x - G L = x by ring] at this
  obtain ⟨q, q1, q2, q3, q4⟩ := h.moveEnd S (y - L) (by linarith)
  refine ⟨q, ?_, ?_, q3, q4⟩
  · unfold Path.extendEndBy
    rw [h.moveBy hq]
    exact q1
  · rw [q2, show L + (y - L) = y by ring, y3]
    congr 1; ring

theorem Has.extendStartBy {p r : Path} {D : PathDetector} (S : D.Sound) {a u : Vec3 ℝ} {L : ℝ} {G : ℝ → ℝ} (h : Has p r D a u L G) {x e c : ℝ}
    (h0 : 0 ≤ x) (he : 0 ≤ e) (hc : p.depthFromStartInReverse e .column = .ok c) (hx : x ≤ c) :
    ∃ q, p.extendStartBy x .column = .ok q ∧ q.depthInBounds .column = .ok (G L - G 0 + x) ∧
      q.lastPoint = p.lastPoint ∧ q.direction = p.direction := by
  obtain ⟨hL, g1, g2, g3, g4, g5⟩ := h.points S
  have hcG : c = G 0 - G (-e) := by
    unfold Path.depthFromStartInReverse at hc
    rw [h.query] at hc
    simp only [PathDetector.depth] at hc
    rw [g4, g2, h.prof.depth] at hc
    simp only [Res.bind, Res.ok.injEq, Path.copysign, not_lt.2 he, if_false, abs_abs] at hc
    rw [← hc, abs_sub_comm, abs_of_nonneg (sub_nonneg.2 (h.prof.mono.monotone (by linarith)))]
  obtain ⟨y, y1, y2, y3⟩ := h.prof.reach (x := G 0 - x) (show -e ≤ 0 by linarith) (by linarith) (by linarith)
  have hq : p.distanceFromStartInReverse x .column = .ok ((-y : ℝ) : EReal) := by
    rw [(h.distances S x).2.2.1]
    have := h.prof.bwd 0 (-y)
    rwa [show (0 : ℝ) - -y = y by ring, y3, show G 0 - (G 0 - x) = x by ring] at this
  obtain ⟨q, q1, q2, q3, q4⟩ := h.moveStart S (-y) (by linarith)
  refine ⟨q, ?_, ?_, q3, q4⟩
  · unfold Path.extendStartBy
    rw [h.moveBy hq]
    exact q1
  · rw [q2, neg_neg, y3]
    congr 1; ring

theorem Has.unchanged {p r : Path} {D : PathDetector} (S : D.Sound) {a u : Vec3 ℝ} {L : ℝ} {G : ℝ → ℝ} (h : Has p r D a u L G) :
    r.depthInBounds .column = .ok (G L - G 0) ∧ r.firstPoint = p.firstPoint ∧ r.lastPoint = p.lastPoint ∧ r.direction = p.direction := by
  obtain ⟨r', r1, r2, -, r4, r5, r6, -⟩ := h.rinv.prepare S.proper (F := False) (by simp)
  have hr : Has r r' D a u L G := ⟨h.rinv, r1, r2, r4, r5, by rw [r6 h.hits]; exact h.prof⟩
  have hp := h.inv.runs S.proper
  have hq := h.rinv.runs S.proper
  exact ⟨hr.depthInBounds S, by rw [hq.first, hp.first], by rw [hq.last, hp.last], by rw [hq.dir, hp.dir]⟩

/-- C66: shrinking by a column depth that the path holds takes away exactly that column depth, and leaves the other end. -/
theorem C66_shrink_by {D : PathDetector} (S : D.Sound) (st : PathStart) (h : st.Ok) (os : List PathOp) (p : Path)
    (hp : runOps os (st.build D) = .ok p) (T x : ℝ) (hT : p.depthInBounds .column = .ok T) (h0 : 0 ≤ x) (h1 : x ≤ T) :
    (∃ q, p.shrinkEndBy x .column = .ok q ∧ q.depthInBounds .column = .ok (T - x) ∧ q.firstPoint = p.firstPoint ∧ q.direction = p.direction) ∧
    (∃ q, p.shrinkStartBy x .column = .ok q ∧ q.depthInBounds .column = .ok (T - x) ∧ q.lastPoint = p.lastPoint ∧ q.direction = p.direction) := by
  obtain ⟨r, G, hG⟩ := has_history S st h os hp
  rw [hG.depthInBounds S] at hT
  cases hT
  exact ⟨hG.shrinkEndBy S h0 h1, hG.shrinkStartBy S h0 h1⟩

/-- C66: extending by a column depth adds exactly that column depth, and leaves the other end, provided that it is reached at some distance
`e` beyond the end. -/
theorem C66_extend_by {D : PathDetector} (S : D.Sound) (st : PathStart) (h : st.Ok) (os : List PathOp) (p : Path)
    (hp : runOps os (st.build D) = .ok p) (T x e c : ℝ) (hT : p.depthInBounds .column = .ok T) (h0 : 0 ≤ x) (he : 0 ≤ e) (hx : x ≤ c) :
    (p.depthFromEndAlongPath e .column = .ok c →
      ∃ q, p.extendEndBy x .column = .ok q ∧ q.depthInBounds .column = .ok (T + x) ∧ q.firstPoint = p.firstPoint ∧ q.direction = p.direction) ∧
    (p.depthFromStartInReverse e .column = .ok c →
      ∃ q, p.extendStartBy x .column = .ok q ∧ q.depthInBounds .column = .ok (T + x) ∧ q.lastPoint = p.lastPoint ∧ q.direction = p.direction) := by
  obtain ⟨r, G, hG⟩ := has_history S st h os hp
  rw [hG.depthInBounds S] at hT
  cases hT
  exact ⟨fun hc => hG.extendEndBy S h0 he hc hx, fun hc => hG.extendStartBy S h0 he hc hx⟩

/-- C66: a path shrunk to a column depth has that column depth, or the one it had if that is less, and keeps its other end. -/
theorem C66_shrink_to {D : PathDetector} (S : D.Sound) (st : PathStart) (h : st.Ok) (os : List PathOp) (p : Path)
    (hp : runOps os (st.build D) = .ok p) (T x : ℝ) (hT : p.depthInBounds .column = .ok T) (h0 : 0 ≤ x) :
    (∃ q, p.shrinkEndToDepth x .column = .ok q ∧ q.depthInBounds .column = .ok (min T x) ∧ q.firstPoint = p.firstPoint ∧
      q.direction = p.direction) ∧
    (∃ q, p.shrinkStartToDepth x .column = .ok q ∧ q.depthInBounds .column = .ok (min T x) ∧ q.lastPoint = p.lastPoint ∧
      q.direction = p.direction) := by
  obtain ⟨r, G, hG⟩ := has_history S st h os hp
  have hT' := hT
  rw [hG.depthInBounds S] at hT'
  cases hT'
  obtain ⟨u1, u2, u3, u4⟩ := hG.unchanged S
  unfold Path.shrinkEndToDepth Path.shrinkStartToDepth Path.shiftToDepth
  rw [hT]
  simp only [Res.bind]
  by_cases hlt : x < G (os.foldl (fun s o => o.spec s) (st.stretch D)).length - G 0
  · rw [if_pos (by linarith), if_pos (by linarith), min_eq_right hlt.le]
    obtain ⟨q, q1, q2, q3⟩ := hG.shrinkEndBy S (x := -1 * (x - (G (os.foldl (fun s o => o.spec s) (st.stretch D)).length - G 0)))
      (by linarith) (by linarith)
    obtain ⟨q', q1', q2', q3'⟩ := hG.shrinkStartBy S (x := -1 * (x - (G (os.foldl (fun s o => o.spec s) (st.stretch D)).length - G 0)))
      (by linarith) (by linarith)
    exact ⟨⟨q, q1, by rw [q2]; congr 1; ring, q3⟩, ⟨q', q1', by rw [q2']; congr 1; ring, q3'⟩⟩
  · rw [if_neg (by linarith), if_neg (by linarith), min_eq_left (not_lt.1 hlt), hG.prep]
    exact ⟨⟨r, rfl, u1, u2, u4⟩, ⟨r, rfl, u1, u3, u4⟩⟩

/-- C66: a path extended to a column depth has that column depth, or the one it had if that is more, and keeps its other end, provided that
the missing part is reached at some distance `e` beyond the end. -/
theorem C66_extend_to {D : PathDetector} (S : D.Sound) (st : PathStart) (h : st.Ok) (os : List PathOp) (p : Path)
    (hp : runOps os (st.build D) = .ok p) (T x e c : ℝ) (hT : p.depthInBounds .column = .ok T) (he : 0 ≤ e) (hx : x - T ≤ c) :
    (p.depthFromEndAlongPath e .column = .ok c →
      ∃ q, p.extendEndToDepth x .column = .ok q ∧ q.depthInBounds .column = .ok (max T x) ∧ q.firstPoint = p.firstPoint ∧
        q.direction = p.direction) ∧
    (p.depthFromStartInReverse e .column = .ok c →
      ∃ q, p.extendStartToDepth x .column = .ok q ∧ q.depthInBounds .column = .ok (max T x) ∧ q.lastPoint = p.lastPoint ∧
        q.direction = p.direction) := by
  obtain ⟨r, G, hG⟩ := has_history S st h os hp
  have hT' := hT
  rw [hG.depthInBounds S] at hT'
  cases hT'
  obtain ⟨u1, u2, u3, u4⟩ := hG.unchanged S
  unfold Path.extendEndToDepth Path.extendStartToDepth Path.shiftToDepth
  rw [hT]
  simp only [Res.bind]
  by_cases hlt : G (os.foldl (fun s o => o.spec s) (st.stretch D)).length - G 0 < x
  · rw [if_pos (by linarith), if_pos (by linarith), max_eq_right hlt.le]
    constructor
    · intro hc
      obtain ⟨q, q1, q2, q3⟩ := hG.extendEndBy S (x := 1 * (x - (G (os.foldl (fun s o => o.spec s) (st.stretch D)).length - G 0)))
        (by linarith) he hc (by linarith)
      exact ⟨q, q1, by rw [q2]; congr 1; ring, q3⟩
    · intro hc
      obtain ⟨q, q1, q2, q3⟩ := hG.extendStartBy S (x := 1 * (x - (G (os.foldl (fun s o => o.spec s) (st.stretch D)).length - G 0)))
        (by linarith) he hc (by linarith)
      exact ⟨q, q1, by rw [q2]; congr 1; ring, q3⟩
  · rw [if_neg (by linarith), if_neg (by linarith), max_eq_left (not_lt.1 hlt), hG.prep]
    exact ⟨fun _ => ⟨r, rfl, u1, u2, u4⟩, fun _ => ⟨r, rfl, u1, u3, u4⟩⟩

/-! ### A concrete case -/

/-- A universe of density 1 in coordinates moved and turned. -/
noncomputable def homogeneous : PathDetector :=
  ⟨⟨⟨1, 2, 3⟩, ⟨3, 0, 0, 4⟩⟩, ⟨[⟨intMin, 0, constDensity 1⟩], fun _ _ => 0⟩, fun x v => ⟨x, v, sortIntersections [⟨⊥, intMin, true⟩, ⟨⊤, intMin, false⟩]⟩⟩

theorem homogeneous_sound : homogeneous.Sound := by
  refine ⟨?_, fun _ _ => ⟨rfl, rfl⟩, ?_, ?_, ?_⟩
  · exact Or.inr ⟨by simp [homogeneous, Quat.normSq]; norm_num, by simp [homogeneous, Quat.normSq]; norm_num⟩
  · intro x v hv
    refine ⟨⟨intMin, ⊥, ⊤, []⟩, ⟨hv, ?_, ?_, ?_, ?_, ?_⟩, rfl, rfl⟩
    · exact ⟨bot_lt_top, by simp, by simp, by simp, by simp⟩
    · exact C26_sort_exists _
    · intro s hs
      simp only [Layout.sectors, Layout.outer, List.mem_cons, List.not_mem_nil, or_false] at hs
      subst hs
      simp [homogeneous]
    · simp [homogeneous]
    · intro sec hsec
      simp only [homogeneous, List.mem_cons, List.not_mem_nil, or_false] at hsec
      subst hsec
      exact constDensity_lawful _
  · intro sec hsec p
    simp only [homogeneous, List.mem_cons, List.not_mem_nil, or_false] at hsec
    subst hsec
    simp [constDensity]
  · intro sec hsec
    simp only [homogeneous, List.mem_cons, List.not_mem_nil, or_false] at hsec
    subst hsec
    exact constDensity_inverse _ (by norm_num)

/-- The hypotheses of the theorems above are met after a history in a sound detector, and of `C66_extend_to` for every depth. -/
example : homogeneous.Sound ∧ sampleStart.Ok ∧ ∃ p, runOps [.look, .extendStart 2, .flip, .prepare, .shrinkEndTo 2] (sampleStart.build homogeneous) = .ok p := by
  obtain ⟨q, hq, -⟩ := C34_history homogeneous homogeneous_sound.proper (Path.new (some homogeneous)) rfl sampleStart sampleStart_ok
    [.look, .extendStart 2, .flip, .prepare, .shrinkEndTo 2]
  exact ⟨homogeneous_sound, sampleStart_ok, q, hq⟩

end Path

end Siren.Detector
