import Verif.Detector.DepthProps

set_option autoImplicit false

/-! # Helper lemmas for the inverse depth queries -/

namespace Siren.Detector

open MeasureTheory

/-- The shape shared by the two inverse callbacks. -/
noncomputable def genCallback (o : ℝ) (neg : Bool) (depth : ℝ) (inv : Int → ℝ → ℝ → EReal → ℝ)
    (integ : Int → ℝ → EReal → ℝ) (s : ℝ × EReal) (cur i : Hit EReal) (last : EReal) : Res (Bool × (ℝ × EReal)) :=
  let e := along o neg i.distance
  if 0 < e then
    let st : EReal := max (max (along o neg cur.distance) 0) (along o neg last)
    let distance := inv cur.hierarchy st.toReal (depth - s.1) (e - st)
    .ok (decide (0 ≤ distance), (s.1 + integ cur.hierarchy st.toReal (e - st),
      if 0 ≤ distance then st + (distance : EReal) else st + (e - st)))
  else .ok (false, s)

theorem add_sub_cancel_coe (st : ℝ) (e : EReal) : (st : EReal) + (e - (st : EReal)) = e := by
  induction e with
  | bot => simp [sub_eq_add_neg]
  | top => simp
  | coe e => rw [← EReal.coe_sub, ← EReal.coe_add]; congr 1; ring

theorem le_sub_coe (x st : ℝ) (e : EReal) : (x : EReal) ≤ e - (st : EReal) ↔ ((st + x : ℝ) : EReal) ≤ e := by
  induction e with
  | bot => simp [sub_eq_add_neg, -EReal.coe_add]
  | top => simp [-EReal.coe_add]
  | coe e =>
    rw [← EReal.coe_sub, EReal.coe_le_coe_iff, EReal.coe_le_coe_iff]; constructor <;> intro h <;> linarith

theorem GoodSegs.le {lv : Int → Prop} {own : ℝ → Int → Prop} {τ : EReal → EReal} (segs : List (Segment EReal)) :
    ∀ x y, GoodSegs lv own τ x y segs → x ≤ y := by
  induction segs with
  | nil => intro x y h; exact le_of_eq h
  | cons g gs ih => intro x y h; exact le_trans h.2.1 (ih _ _ h.2.2.2.2.2)

theorem invert_segs (lv : Int → Prop) (own : ℝ → Int → Prop) (o : ℝ) (neg : Bool) (ev : Int → ℝ → ℝ) (R : ℝ → ℝ)
    (y : EReal) (depth : ℝ)
    (hR : ∀ s lvl, lv lvl → own s lvl → R s = ev lvl s)
    (hRint : ∀ u v : ℝ, 0 ≤ u → u ≤ v → (v : EReal) ≤ y → IntervalIntegrable R volume u v)
    (hRpos : ∀ s : ℝ, 0 < s → (s : EReal) < y → 0 < R s)
    (inv : Int → ℝ → ℝ → EReal → ℝ) (integ : Int → ℝ → EReal → ℝ)
    (hinteg : ∀ lvl start (len : ℝ), lv lvl → 0 ≤ len → integ lvl start (len : EReal) = ∫ s in start..start + len, ev lvl s)
    (hinv : ∀ lvl start (T : ℝ) (seg : EReal) (x : ℝ), lv lvl → 0 ≤ T → 0 ≤ x → (x : EReal) ≤ seg →
      ∫ s in start..start + x, ev lvl s = T → inv lvl start T seg = x)
    (hinv' : ∀ lvl start (T : ℝ) (seg : EReal), lv lvl → 0 ≤ T →
      (∀ x : ℝ, 0 ≤ x → (x : EReal) ≤ seg → ∫ s in start..start + x, ev lvl s ≠ T) → inv lvl start T seg < 0)
    (cb : ℝ × EReal → Hit EReal → Hit EReal → EReal → Res (Bool × (ℝ × EReal)))
    (hcb : ∀ s cur i last, lv cur.hierarchy → cb s cur i last = genCallback o neg depth inv integ s cur i last)
    (hy : 0 < y) (segs : List (Segment EReal)) :
    ∀ (x : EReal) (st acc : ℝ) (dist : EReal), GoodSegs lv own (along o neg) x y segs → segs ≠ [] →
      (∀ pre g post, segs = pre ++ g :: post → post ≠ [] → along o neg g.next.distance ≠ ⊤) →
      max x 0 = (st : EReal) → acc ≤ depth →
      (∀ d : ℝ, st ≤ d → (d : EReal) ≤ y → acc + (∫ s in st..d, R s) = depth →
        ∃ a, runSegments cb segs (acc, dist) = .ok (a, (d : EReal))) ∧
      ((∀ d : ℝ, st ≤ d → (d : EReal) ≤ y → acc + (∫ s in st..d, R s) ≤ depth) →
        ∃ a, runSegments cb segs (acc, dist) = .ok (a, y)) := by
  induction segs with
  | nil => intro x st acc dist _ h; exact absurd rfl h
  | cons g gs ih =>
    rintro x st acc dist ⟨e1, e2, e3, elv, e4, e5⟩ _ hends hst hacc
    have hy_of_nil : gs = [] → along o neg g.next.distance = y := by
      intro h; rw [h] at e5; exact e5
    -- monotone along the rest
    have hle_y : along o neg g.next.distance ≤ y := GoodSegs.le gs _ _ e5
    have hstm : max (max (along o neg g.current.distance) 0) (along o neg g.lastPoint) = (st : EReal) := by
      rw [e1, max_assoc, max_comm 0 x, ← max_assoc, max_eq_right e3, hst]
    have hst0 : 0 ≤ st := by
      have : (0 : EReal) ≤ (st : EReal) := hst ▸ le_max_right _ _
      exact_mod_cast this
    have hxst : x ≤ (st : EReal) := hst ▸ le_max_left _ _
    have hends' : ∀ pre g' post, gs = pre ++ g' :: post → post ≠ [] → along o neg g'.next.distance ≠ ⊤ := by
      intro pre g' post h hne
      exact hends (g :: pre) g' post (by rw [h]; rfl) hne
    simp only [runSegments]
    rw [hcb _ _ _ _ elv]
    unfold genCallback
    simp only [hstm, EReal.toReal_coe]
    by_cases hpos : 0 < along o neg g.next.distance
    · simp only [hpos, if_true, Res.bind]
      have hst_le : (st : EReal) ≤ along o neg g.next.distance := by
        rw [← hst]; exact max_le e2 (le_of_lt hpos)
      -- integrals of the level and of `R` agree inside the segment
      have hag : ∀ d : ℝ, st ≤ d → (d : EReal) ≤ along o neg g.next.distance →
          ∫ s in st..d, ev g.current.hierarchy s = ∫ s in st..d, R s := by
        intro d h1 h2
        refine intervalIntegral.integral_congr_Ioo_of_le h1 ?_
        intro s hs
        refine (hR s _ elv (e4 s ?_ ?_)).symm
        · exact lt_of_le_of_lt hxst (by exact_mod_cast hs.1)
        · exact lt_of_lt_of_le (by exact_mod_cast hs.2) h2
      have hT : 0 ≤ depth - acc := by linarith
      have hmono : ∀ u v : ℝ, st ≤ u → u < v → (v : EReal) ≤ y → (∫ s in st..u, R s) < ∫ s in st..v, R s := by
        intro u v h1 h2 h3
        have hu : (u : EReal) ≤ y := le_trans (by exact_mod_cast le_of_lt h2) h3
        rw [← intervalIntegral.integral_add_adjacent_intervals (hRint st u hst0 h1 hu)
          (hRint u v (by linarith) (le_of_lt h2) h3)]
        have := intervalIntegral.intervalIntegral_pos_of_pos_on (hRint u v (by linarith) (le_of_lt h2) h3)
          (fun s hs => hRpos s (by linarith [hs.1]) (lt_of_lt_of_le (by exact_mod_cast hs.2) h3)) h2
        linarith
      -- continue with the rest when the request is not met here
      have hcont : inv g.current.hierarchy st (depth - acc) (along o neg g.next.distance - (st : EReal)) < 0 → gs ≠ [] →
          ∃ en : ℝ, along o neg g.next.distance = (en : EReal) ∧ st ≤ en := by
        intro _ hne
        have hnt := hends [] g gs rfl hne
        refine ⟨(along o neg g.next.distance).toReal, (EReal.coe_toReal hnt ?_).symm, ?_⟩
        · exact ne_of_gt (lt_trans EReal.bot_lt_zero hpos)
        · rw [← EReal.coe_le_coe_iff, EReal.coe_toReal hnt (ne_of_gt (lt_trans EReal.bot_lt_zero hpos))]
          exact hst_le
      refine ⟨?_, ?_⟩
      · intro d hd1 hd2 hd3
        by_cases hde : (d : EReal) ≤ along o neg g.next.distance
        · have hx : inv g.current.hierarchy st (depth - acc) (along o neg g.next.distance - (st : EReal)) = d - st := by
            apply hinv _ _ _ _ _ elv hT (by linarith)
            · rw [le_sub_coe]; rw [show st + (d - st) = d by ring]; exact hde
            · rw [show st + (d - st) = d by ring, hag d hd1 hde]; linarith
          have h0 : 0 ≤ d - st := by linarith
          simp only [hx, h0, decide_true, if_true]
          rw [← EReal.coe_add, show st + (d - st) = d by ring]
          exact ⟨_, rfl⟩
        · have hde' := lt_of_not_ge hde
          have hne : gs ≠ [] := fun h => absurd (lt_of_lt_of_le hde' hd2) (by rw [hy_of_nil h]; exact lt_irrefl _)
          have hneg : inv g.current.hierarchy st (depth - acc) (along o neg g.next.distance - (st : EReal)) < 0 := by
            apply hinv' _ _ _ _ elv hT
            intro z hz1 hz2 hz3
            rw [le_sub_coe] at hz2
            rw [hag _ (by linarith) hz2] at hz3
            have hlt : st + z < d := by
              have := lt_of_le_of_lt hz2 hde'
              exact_mod_cast this
            have := hmono (st + z) d (by linarith) hlt hd2
            linarith
          obtain ⟨en, hen, hsten⟩ := hcont hneg hne
          have hend : en < d := by rw [hen] at hde'; exact_mod_cast hde'
          simp only [not_le.2 hneg, decide_false, Bool.false_eq_true, if_false]
          have hint1 := hRint st en hst0 hsten (by rw [← hen]; exact hle_y)
          have hint2 := hRint en d (by linarith) (le_of_lt hend) hd2
          have hstep : integ g.current.hierarchy st (along o neg g.next.distance - (st : EReal)) = ∫ s in st..en, R s := by
            rw [hen, ← EReal.coe_sub, hinteg _ _ _ elv (by linarith), show st + (en - st) = en by ring,
              hag en hsten (by rw [hen])]
          rw [hstep]
          have hle : acc + (∫ s in st..en, R s) ≤ depth := by
            have := hmono en d hsten hend hd2
            linarith
          refine (ih (along o neg g.next.distance) en _ _ e5 hne hends' ?_ hle).1 d (le_of_lt hend) hd2 ?_
          · rw [max_eq_left (le_of_lt hpos), hen]
          · rw [add_assoc, intervalIntegral.integral_add_adjacent_intervals hint1 hint2, hd3]
      · intro hall
        by_cases hex : ∃ z : ℝ, 0 ≤ z ∧ (z : EReal) ≤ along o neg g.next.distance - (st : EReal) ∧
            ∫ s in st..st + z, ev g.current.hierarchy s = depth - acc
        · obtain ⟨z, hz1, hz2, hz3⟩ := hex
          have hx := hinv _ _ _ _ z elv hT hz1 hz2 hz3
          simp only [hx, hz1, decide_true, if_true]
          rw [← EReal.coe_add]
          rw [le_sub_coe] at hz2
          rw [hag _ (by linarith) hz2] at hz3
          have hzy : ((st + z : ℝ) : EReal) ≤ y := le_trans hz2 hle_y
          rcases lt_or_eq_of_le hzy with hlt | heq
          · exfalso
            obtain ⟨v, hv1, hv2⟩ := EReal.exists_between_coe_real hlt
            have hv1' : st + z < v := by exact_mod_cast hv1
            have h1 := hmono (st + z) v (by linarith) hv1' (le_of_lt hv2)
            have h2 := hall v (by linarith) (le_of_lt hv2)
            linarith
          · rw [heq]; exact ⟨_, rfl⟩
        · have hneg : inv g.current.hierarchy st (depth - acc) (along o neg g.next.distance - (st : EReal)) < 0 := by
            apply hinv' _ _ _ _ elv hT
            intro z hz1 hz2 hz3
            exact hex ⟨z, hz1, hz2, hz3⟩
          simp only [not_le.2 hneg, decide_false, Bool.false_eq_true, if_false]
          by_cases hne : gs = []
          · have := hy_of_nil hne
            subst hne
            simp only [runSegments]
            rw [add_sub_cancel_coe, this]
            exact ⟨_, rfl⟩
          · obtain ⟨en, hen, hsten⟩ := hcont hneg hne
            have hint1 := hRint st en hst0 hsten (by rw [← hen]; exact hle_y)
            have hstep : integ g.current.hierarchy st (along o neg g.next.distance - (st : EReal)) =
                ∫ s in st..en, R s := by
              rw [hen, ← EReal.coe_sub, hinteg _ _ _ elv (by linarith), show st + (en - st) = en by ring,
                hag en hsten (by rw [hen])]
            rw [hstep]
            refine (ih (along o neg g.next.distance) en _ _ e5 hne hends' ?_ (hall en hsten (by rw [← hen]; exact hle_y))).2 ?_
            · rw [max_eq_left (le_of_lt hpos), hen]
            · intro d hd1 hd2
              rw [add_assoc, intervalIntegral.integral_add_adjacent_intervals hint1 (hRint en d (by linarith) hd1 hd2)]
              exact hall d (by linarith) hd2
    · simp only [hpos, if_false, Res.bind, Bool.false_eq_true]
      have hne : gs ≠ [] := fun h => hpos (by rw [hy_of_nil h]; exact hy)
      have hst' : st = 0 := by
        have : max x 0 = 0 := max_eq_right (le_trans e2 (not_lt.1 hpos))
        rw [this] at hst
        exact_mod_cast hst.symm
      refine ih (along o neg g.next.distance) st acc dist e5 hne hends' ?_ hacc
      rw [max_eq_right (not_lt.1 hpos), hst', EReal.coe_zero]

end Siren.Detector
