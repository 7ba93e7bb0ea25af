import Verif.Detector.DepthModel
import Verif.Detector.Props
import Mathlib.MeasureTheory.Integral.IntervalIntegral.Basic

set_option autoImplicit false

/-! # Helper lemmas for the depth queries -/

namespace Siren.Detector

open scoped Interval

/-! ### `along` -/

theorem along_lt_coe (o : ℝ) (neg : Bool) (d : EReal) (s : ℝ) :
    along o neg d < (s : EReal) ↔ if neg then ((o - s : ℝ) : EReal) < d else d < ((s - o : ℝ) : EReal) := by
  cases neg with
  | false =>
    simp only [along, Bool.false_eq_true, if_false]
    induction d with
    | bot => simp [-EReal.coe_sub, EReal.bot_lt_coe]
    | top => simp
    | coe d =>
      rw [← EReal.coe_add, EReal.coe_lt_coe_iff, EReal.coe_lt_coe_iff]; constructor <;> intro h <;> linarith
  | true =>
    simp only [along, if_true]
    induction d with
    | bot => simp
    | top => simp [-EReal.coe_sub, EReal.bot_lt_coe, EReal.coe_lt_top]
    | coe d =>
      rw [← EReal.coe_neg, ← EReal.coe_add, EReal.coe_lt_coe_iff, EReal.coe_lt_coe_iff]
      constructor <;> intro h <;> linarith

theorem coe_lt_along (o : ℝ) (neg : Bool) (d : EReal) (s : ℝ) :
    (s : EReal) < along o neg d ↔ if neg then d < ((o - s : ℝ) : EReal) else ((s - o : ℝ) : EReal) < d := by
  cases neg with
  | false =>
    simp only [along, Bool.false_eq_true, if_false]
    induction d with
    | bot => simp
    | top => simp [-EReal.coe_sub, EReal.coe_lt_top]
    | coe d =>
      rw [← EReal.coe_add, EReal.coe_lt_coe_iff, EReal.coe_lt_coe_iff]; constructor <;> intro h <;> linarith
  | true =>
    simp only [along, if_true]
    induction d with
    | bot => simp [-EReal.coe_sub, EReal.bot_lt_coe, EReal.coe_lt_top]
    | top => simp
    | coe d =>
      rw [← EReal.coe_neg, ← EReal.coe_add, EReal.coe_lt_coe_iff, EReal.coe_lt_coe_iff]
      constructor <;> intro h <;> linarith

theorem along_mono (o : ℝ) (neg : Bool) (d d' : EReal) (h : if neg then d' ≤ d else d ≤ d') :
    along o neg d ≤ along o neg d' := by
  cases neg with
  | false => exact add_le_add le_rfl (by simpa using h)
  | true => exact add_le_add le_rfl (by simpa using h)

/-! ### Segments in walk coordinates -/

/-- The segments of a walk in walk coordinates `τ`, with the owner of each. -/
def GoodSegs (lv : Int → Prop) (own : ℝ → Int → Prop) (τ : EReal → EReal) : EReal → EReal → List (Segment EReal) → Prop
  | x, y, [] => x = y
  | x, y, g :: gs => τ g.lastPoint = x ∧ x ≤ τ g.next.distance ∧ τ g.current.distance ≤ x ∧ lv g.current.hierarchy ∧
      (∀ s : ℝ, x < (s : EReal) → (s : EReal) < τ g.next.distance → own s g.current.hierarchy) ∧
      GoodSegs lv own τ (τ g.next.distance) y gs

theorem covers_last {le : EReal → EReal → Prop} (segs : List (Segment EReal)) :
    ∀ a b, Covers le a b segs → segs ≠ [] → ∃ g ∈ segs, g.next.distance = b := by
  induction segs with
  | nil => intro a b _ h; exact absurd rfl h
  | cons g gs ih =>
    rintro a b ⟨e1, e2, e3⟩ _
    cases gs with
    | nil => exact ⟨g, by simp, e3⟩
    | cons g' gs' =>
      obtain ⟨x, hx, h⟩ := ih _ _ e3 (by simp)
      exact ⟨x, List.mem_cons_of_mem _ hx, h⟩

theorem covers_drop {le : EReal → EReal → Prop} (pre : List (Segment EReal)) (g : Segment EReal)
    (post : List (Segment EReal)) : ∀ a b, Covers le a b (pre ++ g :: post) → Covers le g.next.distance b post := by
  induction pre with
  | nil => rintro a b ⟨_, _, h⟩; exact h
  | cons p ps ih => rintro a b ⟨_, _, h⟩; exact ih _ _ h

theorem layout_hits_range {L : Layout EReal} (w : L.WF) {h : Hit EReal} (hh : h ∈ L.hits) :
    L.lo ≤ h.distance ∧ h.distance ≤ L.hi := by
  obtain ⟨s, hs, hh⟩ := List.mem_flatMap.1 hh
  obtain ⟨c, hc, hh⟩ := mem_flat.1 hh
  rcases List.mem_cons.1 hs with rfl | hs
  · simp only [Layout.outer, List.mem_cons, List.not_mem_nil, or_false] at hc
    subst hc
    rcases hh with rfl | rfl
    · exact ⟨le_refl _, le_of_lt w.lo_lt_hi⟩
    · exact ⟨le_of_lt w.lo_lt_hi, le_refl _⟩
  · have h1 := w.within s hs c hc
    have h2 := (w.ordered s hs).1 c hc
    rcases hh with rfl | rfl
    · exact ⟨le_of_lt h1.1, le_of_lt (lt_trans h2 h1.2)⟩
    · exact ⟨le_of_lt (lt_trans h1.1 h2), le_of_lt h1.2⟩

/-- Each end of the enclosing sector is crossed once. -/
theorem layout_ends_once {L : Layout EReal} (w : L.WF) (x : EReal) (hx : x = L.lo ∨ x = L.hi) :
    (L.hits.map Hit.distance).count x = 1 := by
  have hin : ∀ d ∈ (L.inner.flatMap LineSector.hits).map Hit.distance, d ≠ x := by
    intro d hd
    obtain ⟨h, hh, rfl⟩ := List.mem_map.1 hd
    obtain ⟨s, hs, hh⟩ := List.mem_flatMap.1 hh
    obtain ⟨c, hc, hh⟩ := mem_flat.1 hh
    have h1 := w.within s hs c hc
    have h2 := (w.ordered s hs).1 c hc
    rcases hh with rfl | rfl <;> rcases hx with rfl | rfl
    · exact ne_of_gt h1.1
    · exact ne_of_lt (lt_trans h2 h1.2)
    · exact ne_of_gt (lt_trans h1.1 h2)
    · exact ne_of_lt h1.2
  have e : L.hits.map Hit.distance = L.lo :: L.hi :: (L.inner.flatMap LineSector.hits).map Hit.distance := by
    simp [Layout.hits, Layout.sectors, Layout.outer, LineSector.hits, chordHits]
  have hne := ne_of_lt w.lo_lt_hi
  rw [e, List.count_cons, List.count_cons, List.count_eq_zero.2 (fun h => hin x h rfl)]
  rcases hx with rfl | rfl
  · simp [hne.symm]
  · simp [hne]

theorem walk_good (L : Layout EReal) (w : L.WF) (hits : List (Hit EReal)) (hs : IsSortOf hits L.hits) (neg : Bool)
    (o : ℝ) :
    ∃ segs, GoodSegs (fun lvl => ∃ s ∈ L.sectors, s.level = lvl) (fun s lvl => L.Owner ((if neg then o - s else s - o : ℝ) : EReal) lvl) (along o neg)
        (along o neg (if neg then L.hi else L.lo)) (along o neg (if neg then L.lo else L.hi)) segs ∧
      (∀ (σ : Type) (cb : σ → Hit EReal → Hit EReal → EReal → Res (Bool × σ)) (s : σ),
        sectorLoop cb hits neg s = runSegments cb segs s) ∧ (∀ g ∈ segs, g.next ∈ hits) ∧
      ∀ pre g post, segs = pre ++ g :: post → post ≠ [] → along o neg g.next.distance ≠ ⊤ := by
  obtain ⟨segs, h1, hsub, h2, h3⟩ := C18_walk_attribution L w hits hs neg
  have hlev : ∀ h ∈ hits, ∃ s ∈ L.sectors, s.level = h.hierarchy := by
    intro h hh
    obtain ⟨s, hs', hh⟩ := List.mem_flatMap.1 (hs.1.mem_iff.1 hh)
    obtain ⟨c, _, hh⟩ := mem_flat.1 hh
    refine ⟨s, hs', ?_⟩
    rcases hh with rfl | rfl <;> rfl
  have hend : ∀ pre g post, segs = pre ++ g :: post → post ≠ [] → along o neg g.next.distance ≠ ⊤ := by
    intro pre g post he hne htop
    have hrange := layout_hits_range w (hs.1.mem_iff.1 (h2 g (by rw [he]; simp)).1.2)
    -- the far end
    have hfar : g.next.distance = (if neg then L.lo else L.hi) := by
      cases neg
      · have : g.next.distance = ⊤ := by
          simp only [along, Bool.false_eq_true, if_false] at htop
          generalize g.next.distance = d at htop
          induction d with
          | bot => simp at htop
          | top => rfl
          | coe d => rw [← EReal.coe_add] at htop; exact absurd htop (EReal.coe_ne_top _)
        rw [this] at hrange ⊢
        exact (top_le_iff.1 hrange.2).symm
      · have : g.next.distance = ⊥ := by
          simp only [along, if_true] at htop
          generalize g.next.distance = d at htop
          induction d with
          | bot => rfl
          | top => simp at htop
          | coe d => rw [← EReal.coe_neg, ← EReal.coe_add] at htop; exact absurd htop (EReal.coe_ne_top _)
        rw [this] at hrange ⊢
        exact (le_bot_iff.1 hrange.1).symm
    have hlast : ∃ g' ∈ post, g'.next.distance = (if neg then L.lo else L.hi) := by
      cases neg
      · simp only [Bool.false_eq_true, if_false] at h1 ⊢
        rw [he] at h1
        exact covers_last post _ _ (covers_drop pre g post _ _ h1) hne
      · simp only [if_true] at h1 ⊢
        rw [he] at h1
        exact covers_last post _ _ (covers_drop pre g post _ _ h1) hne
    obtain ⟨g', hg', hd'⟩ := hlast
    have hc1 : (hits.map Hit.distance).count (if neg then L.lo else L.hi) = 1 := by
      rw [(hs.1.map Hit.distance).count_eq]
      exact layout_ends_once w _ (by cases neg <;> simp)
    have hc2 : ((segs.map Segment.next).map Hit.distance).count (if neg then L.lo else L.hi) ≤ 1 := by
      rw [← hc1]
      refine le_trans ((hsub.map Hit.distance).count_le _) (le_of_eq ?_)
      cases neg
      · rfl
      · simp only [if_true, List.map_reverse, List.count_reverse]
    rw [he] at hc2
    simp only [List.map_append, List.map_cons, List.count_append] at hc2
    rw [hfar, List.count_cons_self] at hc2
    have : 0 < ((post.map Segment.next).map Hit.distance).count (if neg then L.lo else L.hi) := by
      rw [List.count_pos_iff, ← hd']
      exact List.mem_map_of_mem (List.mem_map_of_mem hg')
    omega
  refine ⟨segs, ?_, h3, fun g hg => (h2 g hg).1.2, hend⟩
  clear hend hsub
  cases neg with
  | false =>
    simp only [Bool.false_eq_true, if_false] at h1 h2 ⊢
    clear h3
    generalize L.lo = a at h1
    induction segs generalizing a with
    | nil => exact congrArg _ h1
    | cons g gs ih =>
      obtain ⟨e1, e2, e3⟩ := h1
      have hg := h2 g (by simp)
      refine ⟨by rw [e1], along_mono o false _ _ (by simpa using e2), ?_, hlev _ hg.1.1, ?_,
        ih (fun g hg => h2 g (by simp [hg])) _ e3⟩
      · rw [← e1]; exact along_mono o false _ _ (by simpa using hg.2.1)
      · intro s hs1 hs2
        apply hg.2.2
        left
        rw [e1]
        exact ⟨by simpa using (along_lt_coe o false a s).1 hs1, by simpa using (coe_lt_along o false _ s).1 hs2⟩
  | true =>
    simp only [if_true] at h1 h2 ⊢
    clear h3
    generalize L.hi = a at h1
    induction segs generalizing a with
    | nil => exact congrArg _ h1
    | cons g gs ih =>
      obtain ⟨e1, e2, e3⟩ := h1
      have hg := h2 g (by simp)
      refine ⟨by rw [e1], along_mono o true _ _ (by simpa using e2), ?_, hlev _ hg.1.1, ?_,
        ih (fun g hg => h2 g (by simp [hg])) _ e3⟩
      · rw [← e1]; exact along_mono o true _ _ (by simpa using hg.2.1)
      · intro s hs1 hs2
        apply hg.2.2
        right
        rw [e1]
        exact ⟨(coe_lt_along o true _ s).1 hs2, (along_lt_coe o true a s).1 hs1⟩

/-! ### The segment containing the origin of the walk -/

theorem point_segs (lv : Int → Prop) (own : ℝ → Int → Prop) (τ : EReal → EReal) (segs : List (Segment EReal)) :
    ∀ (x y : EReal), GoodSegs lv own τ x y segs → x < 0 → 0 < y → (∀ g ∈ segs, τ g.next.distance ≠ 0) →
    ∃ pre g post, segs = pre ++ g :: post ∧
      (∀ p ∈ pre, τ p.next.distance < 0 ∧ τ p.lastPoint < 0 ∧ τ p.current.distance < 0) ∧
      τ g.lastPoint < 0 ∧ τ g.current.distance < 0 ∧ 0 < τ g.next.distance ∧ lv g.current.hierarchy ∧
      own 0 g.current.hierarchy := by
  induction segs with
  | nil => intro x y h hx hy _; rw [show x = y from h] at hx; exact absurd (lt_trans hx hy) (lt_irrefl _)
  | cons g gs ih =>
    rintro x y ⟨e1, e2, e3, e4, e5, e6⟩ hx hy hn
    rcases lt_trichotomy (τ g.next.distance) 0 with h | h | h
    · obtain ⟨pre, g', post, q1, q2, q3⟩ := ih _ y e6 h hy (fun g hg => hn g (by simp [hg]))
      refine ⟨g :: pre, g', post, by rw [q1]; rfl, ?_, q3⟩
      intro p hp
      rcases List.mem_cons.1 hp with rfl | hp
      · exact ⟨h, e1 ▸ hx, lt_of_le_of_lt e3 hx⟩
      · exact q2 p hp
    · exact absurd h (hn g (by simp))
    · exact ⟨[], g, gs, rfl, by simp, e1 ▸ hx, lt_of_le_of_lt e3 hx, h, e4, e5 0 hx h⟩

theorem runSegments_skip {σ : Type} (cb : σ → Hit EReal → Hit EReal → EReal → Res (Bool × σ)) (s : σ)
    (pre : List (Segment EReal)) (g : Segment EReal) (post : List (Segment EReal)) (r : Res σ)
    (h : ∀ p ∈ pre, cb s p.current p.next p.lastPoint = .ok (false, s))
    (hg : cb s g.current g.next g.lastPoint = r.bind fun s => .ok (true, s)) :
    runSegments cb (pre ++ g :: post) s = r := by
  induction pre with
  | nil =>
    simp only [List.nil_append, runSegments, hg]
    cases r <;> rfl
  | cons p ps ih =>
    simp only [List.cons_append, runSegments, h p (by simp), Res.bind, Bool.false_eq_true, if_false]
    exact ih (fun p hp => h p (by simp [hp]))

/-! ### Clipped pieces -/

structure Piece where
  level : Int
  start : ℝ
  stop : ℝ

def runPieces {σ : Type} (add : σ → Int → ℝ → ℝ → Res σ) : List Piece → σ → Res σ
  | [], s => .ok s
  | p :: ps, s => (add s p.level p.start (p.stop - p.start)).bind (runPieces add ps)

def GoodPieces (lv : Int → Prop) (own : ℝ → Int → Prop) : ℝ → ℝ → List Piece → Prop
  | x, y, [] => x = y
  | x, y, p :: ps => p.start = x ∧ x ≤ p.stop ∧ lv p.level ∧ (∀ s, x < s → s < p.stop → own s p.level) ∧ GoodPieces lv own p.stop y ps

theorem depth_pieces (lv : Int → Prop) (own : ℝ → Int → Prop) (o : ℝ) (neg : Bool) (dist : ℝ) (hdist : 0 < dist)
    (segs : List (Segment EReal)) : ∀ (x y : EReal), GoodSegs lv own (along o neg) x y segs → x < (dist : EReal) →
    (dist : EReal) ≤ y →
    ∃ pieces, GoodPieces lv own (max x 0).toReal dist pieces ∧
      ∀ (σ : Type) (add : σ → Int → ℝ → ℝ → Res σ) (s : σ),
        runSegments (depthCallback o neg dist add) segs s = runPieces add pieces s := by
  induction segs with
  | nil =>
    intro x y h1 h2 h3
    exact absurd (lt_of_lt_of_le h2 h3) (by rw [show x = y from h1]; exact lt_irrefl _)
  | cons g gs ih =>
    rintro x y ⟨e1, e2, e3, elv, e4, e5⟩ h2 h3
    have hst : max (max (along o neg g.current.distance) 0) (along o neg g.lastPoint) = max x 0 := by
      rw [e1, max_assoc, max_comm 0 x, ← max_assoc, max_eq_right e3]
    have hmx : max x 0 < (dist : EReal) := max_lt h2 (by exact_mod_cast hdist)
    obtain ⟨st, hst'⟩ : ∃ st : ℝ, max x 0 = (st : EReal) :=
      ⟨(max x 0).toReal, (EReal.coe_toReal (ne_of_lt (lt_of_lt_of_le hmx le_top))
        (ne_of_gt (lt_of_lt_of_le EReal.bot_lt_zero (le_max_right _ _)))).symm⟩
    have hst0 : 0 ≤ st := by
      have : (0 : EReal) ≤ (st : EReal) := hst' ▸ le_max_right _ _
      exact_mod_cast this
    have hxst : x ≤ (st : EReal) := hst' ▸ le_max_left _ _
    by_cases hd : (dist : EReal) ≤ along o neg g.next.distance
    · -- the last piece
      refine ⟨[⟨g.current.hierarchy, st, dist⟩], ?_, ?_⟩
      · rw [hst', EReal.toReal_coe]
        refine ⟨rfl, ?_, elv, ?_, rfl⟩
        · rw [hst'] at hmx; exact_mod_cast le_of_lt hmx
        · intro s hs1 hs2
          apply e4 s
          · exact lt_of_le_of_lt hxst (by exact_mod_cast hs1)
          · exact lt_of_lt_of_le (by exact_mod_cast hs2) hd
      · intro σ add s
        have hmin : min (along o neg g.next.distance) (dist : EReal) = dist := min_eq_right hd
        simp only [runSegments, runPieces, depthCallback, hmin, hst, hst', EReal.toReal_coe, hd, decide_true]
        have : (0 : EReal) < (dist : EReal) := by exact_mod_cast hdist
        simp only [this, if_true]
        cases add s g.current.hierarchy st (dist - st) <;> rfl
    · have hd' := lt_of_not_ge hd
      have hmin : min (along o neg g.next.distance) (dist : EReal) = along o neg g.next.distance :=
        min_eq_left (le_of_lt hd')
      obtain ⟨pieces, hp1, hp2⟩ := ih _ y e5 hd' h3
      by_cases hpos : 0 < along o neg g.next.distance
      · obtain ⟨en, hen⟩ : ∃ en : ℝ, along o neg g.next.distance = (en : EReal) :=
          ⟨_, (EReal.coe_toReal (ne_of_lt (lt_of_lt_of_le hd' le_top)) (ne_of_gt (lt_trans EReal.bot_lt_zero hpos))).symm⟩
        have hmax : max (along o neg g.next.distance) 0 = (en : EReal) := by
          rw [max_eq_left (le_of_lt hpos), hen]
        rw [hmax, EReal.toReal_coe] at hp1
        refine ⟨⟨g.current.hierarchy, st, en⟩ :: pieces, ?_, ?_⟩
        · rw [hst', EReal.toReal_coe]
          refine ⟨rfl, ?_, elv, ?_, hp1⟩
          · have : (st : EReal) ≤ en := by
              rw [← hst', ← hen]; exact max_le e2 (le_of_lt hpos)
            exact_mod_cast this
          · intro s hs1 hs2
            apply e4 s
            · exact lt_of_le_of_lt hxst (by exact_mod_cast hs1)
            · rw [hen]; exact_mod_cast hs2
        · intro σ add s
          simp only [runSegments, runPieces, depthCallback, hmin, hst, hst', EReal.toReal_coe, hd, decide_false, hpos,
            if_true]
          rw [hen, EReal.toReal_coe]
          cases add s g.current.hierarchy st (en - st) with
          | ok r => simp only [Res.bind, Bool.false_eq_true, if_false, hp2]
          | throws e => rfl
          | ub => rfl
      · have hx0 : max x 0 = 0 := max_eq_right (le_trans e2 (not_lt.1 hpos))
        have hm0 : max (along o neg g.next.distance) 0 = 0 := max_eq_right (not_lt.1 hpos)
        rw [hm0] at hp1
        refine ⟨pieces, by rw [hx0]; exact hp1, ?_⟩
        intro σ add s
        simp only [runSegments, depthCallback, hmin, hpos, if_false, hd, decide_false, Res.bind,
          Bool.false_eq_true, hp2]

/-- The pieces of a whole query. -/
theorem line_pieces (L : Layout EReal) (w : L.WF) (hits : List (Hit EReal)) (hs : IsSortOf hits L.hits) (neg : Bool)
    (o dist : ℝ) (hdist : 0 < dist)
    (h1 : if neg then (o : EReal) < L.hi else L.lo < ((-o : ℝ) : EReal))
    (h2 : if neg then L.lo ≤ ((o - dist : ℝ) : EReal) else ((dist - o : ℝ) : EReal) ≤ L.hi) :
    ∃ pieces, GoodPieces (fun lvl => ∃ s ∈ L.sectors, s.level = lvl)
        (fun s lvl => L.Owner ((if neg then o - s else s - o : ℝ) : EReal) lvl) 0 dist pieces ∧
      ∀ (σ : Type) (add : σ → Int → ℝ → ℝ → Res σ) (s : σ),
        sectorLoop (depthCallback o neg dist add) hits neg s = runPieces add pieces s := by
  obtain ⟨segs, g1, g2, -⟩ := walk_good L w hits hs neg o
  have hx : along o neg (if neg then L.hi else L.lo) < ((0 : ℝ) : EReal) := by
    rw [along_lt_coe]
    cases neg with
    | false => simpa using h1
    | true => simpa using h1
  have hx' : along o neg (if neg then L.hi else L.lo) < ((dist : ℝ) : EReal) :=
    lt_trans hx (by exact_mod_cast hdist)
  have hy : (dist : EReal) ≤ along o neg (if neg then L.lo else L.hi) := by
    rw [← not_lt, along_lt_coe]
    cases neg with
    | false => simpa using h2
    | true => simpa using h2
  obtain ⟨pieces, p1, p2⟩ := depth_pieces _ _ o neg dist hdist segs _ _ g1 hx' hy
  have hm : max (along o neg (if neg then L.hi else L.lo)) 0 = 0 := max_eq_right (by exact_mod_cast le_of_lt hx)
  rw [hm] at p1
  exact ⟨pieces, by simpa using p1, fun σ add s => by rw [g2]; exact p2 σ add s⟩

end Siren.Detector
