import Verif.Math.Integrate
import Verif.Math.PolyProps
import Mathlib.Analysis.SpecialFunctions.Integrals.Basic

set_option autoImplicit false

/-!
# Trapezoid integration of tables (C50)
-/

namespace Siren.Math.Integrate

open Siren Polynom MeasureTheory

/-! ## Specification -/

/-- `f` is the function the table stands for: between two neighbouring abscissas the straight line through the two points, and zero outside
the table. (Its values at the abscissas themselves are left open.) -/
structure Interpolant (x y : List ℝ) (f : ℝ → ℝ) : Prop where
  line : ∀ (i : Nat) (x0 x1 y0 y1 : ℝ), x[i]? = some x0 → x[i + 1]? = some x1 → y[i]? = some y0 → y[i + 1]? = some y1 →
    ∀ t, x0 < t → t < x1 → f t = y0 + (y1 - y0) * (t - x0) / (x1 - x0)
  outside : ∀ t, ((∀ v ∈ x, t < v) ∨ ∀ v ∈ x, v < t) → f t = 0

/-! ## Lemmas -/

theorem rd_ok (v : List ℝ) (i : Nat) (h : i < v.length) : rd v i = .ok (v.getD i 0) := by
  simp [rd, h, List.getD]

theorem getElem?_getD (v : List ℝ) (i : Nat) (h : i < v.length) : v[i]? = some (v.getD i 0) := by
  simp [h, List.getD]

theorem okBind {α β : Type} (x : α) (k : α → Res β) : (Res.ok x).bind k = k x := rfl

theorem getD_getElem (v : List ℝ) (i : Nat) (h : i < v.length) : v.getD i 0 = v[i] := by
  simp [h, List.getD]

theorem findIdx_lt (p : ℝ → Bool) (v : List ℝ) (i : Nat) (h : i < v.findIdx p) : p (v.getD i 0) = false := by
  have hl : i < v.length := lt_of_lt_of_le h List.findIdx_le_length
  have := List.not_of_lt_findIdx h
  simpa [List.getD, hl] using this

theorem findIdx_at (p : ℝ → Bool) (v : List ℝ) (h : v.findIdx p < v.length) : p (v.getD (v.findIdx p) 0) = true := by
  have := List.findIdx_getElem (w := h)
  simpa [List.getD, h] using this

theorem sorted_getD (x : List ℝ) (hx : x.Pairwise (· ≤ ·)) (i j : Nat) (hij : i ≤ j) (hj : j < x.length) : x.getD i 0 ≤ x.getD j 0 := by
  rcases Nat.eq_or_lt_of_le hij with rfl | h
  · exact le_rfl
  · have := List.pairwise_iff_getElem.mp hx i j (by omega) hj h
    simpa [List.getD, hj, lt_trans h hj] using this

/-- The line of the interval that ends at index `i`. -/
noncomputable def lineAt (x y : List ℝ) (i : Nat) (t : ℝ) : ℝ :=
  y.getD (i - 1) 0 + (y.getD i 0 - y.getD (i - 1) 0) * (t - x.getD (i - 1) 0) / (x.getD i 0 - x.getD (i - 1) 0)

theorem lerp_ok (x y : List ℝ) (h : x.length = y.length) (i : Nat) (hi : i < x.length) (t : ℝ) : lerp x y i t = .ok (lineAt x y i t) := by
  rw [lerp, rd_ok y _ (by omega), rd_ok y _ (by omega), rd_ok x _ (by omega), rd_ok x _ (by omega)]
  rfl

/-- `f` is integrable between `c` and `d`, with integral `v`. -/
def HasInt (f : ℝ → ℝ) (c d v : ℝ) : Prop := IntervalIntegrable f volume c d ∧ ∫ t in c..d, f t = v

theorem HasInt.trans {f : ℝ → ℝ} {a b c u v : ℝ} (h1 : HasInt f a b u) (h2 : HasInt f b c v) : HasInt f a c (u + v) :=
  ⟨h1.1.trans h2.1, by rw [← h1.2, ← h2.2, intervalIntegral.integral_add_adjacent_intervals h1.1 h2.1]⟩

theorem HasInt.refl (f : ℝ → ℝ) (a : ℝ) : HasInt f a a 0 := ⟨by simp, by simp⟩

theorem HasInt.of_eq {f : ℝ → ℝ} {a b u v : ℝ} (h : HasInt f a b u) (e : u = v) : HasInt f a b v := e ▸ h

theorem hasInt_zero (f : ℝ → ℝ) (c d : ℝ) (hcd : c ≤ d) (h : ∀ t, c < t → t < d → f t = 0) : HasInt f c d 0 := by
  have e : Set.EqOn f (fun _ => 0) (Set.Ioo c d) := fun t ht => h t ht.1 ht.2
  refine ⟨?_, ?_⟩
  · rw [intervalIntegrable_congr_uIoo (by rwa [Set.uIoo_of_le hcd])]
    exact intervalIntegrable_const
  · rw [intervalIntegral.integral_congr_Ioo_of_le hcd e]
    simp

theorem lineAt_left (x y : List ℝ) (i : Nat) : lineAt x y i (x.getD (i - 1) 0) = y.getD (i - 1) 0 := by simp [lineAt]

theorem lineAt_right (x y : List ℝ) (i : Nat) (h : x.getD (i - 1) 0 < x.getD i 0) : lineAt x y i (x.getD i 0) = y.getD i 0 := by
  have : x.getD i 0 - x.getD (i - 1) 0 ≠ 0 := (sub_pos.mpr h).ne'
  rw [lineAt, mul_div_assoc, div_self this]
  ring

/-- The integral over part of one interval of the table. -/
theorem hasInt_piece (x y : List ℝ) (f : ℝ → ℝ) (hf : Interpolant x y f) (h : x.length = y.length) (i : Nat) (h0 : 0 < i) (hi : i < x.length)
    (c d : ℝ) (hc : x.getD (i - 1) 0 ≤ c) (hcd : c ≤ d) (hd : d ≤ x.getD i 0) :
    HasInt f c d ((lineAt x y i c + lineAt x y i d) / 2 * (d - c)) := by
  have e : Set.EqOn f (lineAt x y i) (Set.Ioo c d) := fun t ht => by
    obtain ⟨j, rfl⟩ : ∃ j, i = j + 1 := ⟨i - 1, by omega⟩
    exact hf.line j _ _ _ _ (getElem?_getD x j (by omega)) (getElem?_getD x (j + 1) hi) (getElem?_getD y j (by omega))
      (getElem?_getD y (j + 1) (by omega)) t (lt_of_le_of_lt hc ht.1) (lt_of_lt_of_le ht.2 hd)
  have hcont : Continuous (lineAt x y i) := by unfold lineAt; fun_prop
  refine ⟨?_, ?_⟩
  · rw [intervalIntegrable_congr_uIoo (by rwa [Set.uIoo_of_le hcd])]
    exact hcont.intervalIntegrable _ _
  · rw [intervalIntegral.integral_congr_Ioo_of_le hcd e]
    set m := (y.getD i 0 - y.getD (i - 1) 0) / (x.getD i 0 - x.getD (i - 1) 0) with hm
    have hl : ∀ t, lineAt x y i t = m * t + (y.getD (i - 1) 0 - m * x.getD (i - 1) 0) := fun t => by rw [lineAt, hm]; ring
    simp only [hl]
    rw [intervalIntegral.integral_add (by fun_prop |> fun h : Continuous (fun x : ℝ => m * x) => h.intervalIntegrable _ _) (by simp),
      intervalIntegral.integral_const_mul, integral_id, intervalIntegral.integral_const, smul_eq_mul]
    ring

theorem hasInt_whole (x y : List ℝ) (f : ℝ → ℝ) (hf : Interpolant x y f) (h : x.length = y.length) (hx : x.Pairwise (· ≤ ·)) (i : Nat)
    (h0 : 0 < i) (hi : i < x.length) :
    HasInt f (x.getD (i - 1) 0) (x.getD i 0) ((y.getD (i - 1) 0 + y.getD i 0) / 2 * (x.getD i 0 - x.getD (i - 1) 0)) := by
  have hle := sorted_getD x hx (i - 1) i (by omega) hi
  refine (hasInt_piece x y f hf h i h0 hi _ _ le_rfl hle le_rfl).of_eq ?_
  rcases hle.lt_or_eq with hlt | heq
  · rw [lineAt_left, lineAt_right x y i hlt]
  · rw [heq]; ring

/-- Summing whole intervals in a loop. -/
theorem hasInt_loop (x y : List ℝ) (f : ℝ → ℝ) (hf : Interpolant x y f) (h : x.length = y.length) (hx : x.Pairwise (· ≤ ·))
    (body : Nat → ℝ → Res ℝ)
    (hbody : ∀ i s, 0 < i → i < x.length → body i s = .ok (s + (y.getD (i - 1) 0 + y.getD i 0) / 2 * (x.getD i 0 - x.getD (i - 1) 0)))
    (p n : Nat) (hp : 0 < p) (hn : p + n ≤ x.length) (c s : ℝ) (hs : HasInt f c (x.getD (p - 1) 0) s) :
    ∃ t, forLoop body (List.range' p n) s = .ok t ∧ HasInt f c (x.getD (p + n - 1) 0) t := by
  refine forLoop_range' body (fun m s => HasInt f c (x.getD (m - 1) 0) s) p n s hs ?_
  intro i s h1 h2 hs
  refine ⟨_, hbody i s (by omega) (by omega), ?_⟩
  rw [Nat.add_sub_cancel]
  exact hs.trans (hasInt_whole x y f hf h hx i (by omega) (by omega))

theorem hasInt_below (x y : List ℝ) (f : ℝ → ℝ) (hf : Interpolant x y f) (hx : x.Pairwise (· ≤ ·)) (c d : ℝ) (hcd : c ≤ d)
    (hd : 0 < x.length → d ≤ x.getD 0 0) : HasInt f c d 0 := by
  refine hasInt_zero f c d hcd fun t _ ht => hf.outside t (.inl fun v hv => ?_)
  obtain ⟨i, hi, rfl⟩ := List.mem_iff_getElem.mp hv
  have h1 := sorted_getD x hx 0 i (by omega) hi
  rw [getD_getElem x _ hi] at h1
  have h2 := hd (by omega)
  linarith

theorem hasInt_above (x y : List ℝ) (f : ℝ → ℝ) (hf : Interpolant x y f) (hx : x.Pairwise (· ≤ ·)) (c d : ℝ) (hcd : c ≤ d)
    (hc : 0 < x.length → x.getD (x.length - 1) 0 ≤ c) : HasInt f c d 0 := by
  refine hasInt_zero f c d hcd fun t ht _ => hf.outside t (.inr fun v hv => ?_)
  obtain ⟨i, hi, rfl⟩ := List.mem_iff_getElem.mp hv
  have h1 := sorted_getD x hx i (x.length - 1) (by omega) (by omega)
  rw [getD_getElem x _ hi] at h1
  have h2 := hc (by omega)
  linarith

/-- The core of C50. -/
theorem trapezoidRange_hasInt (x y : List ℝ) (f : ℝ → ℝ) (hf : Interpolant x y f) (hlen : x.length = y.length) (hx : x.Pairwise (· ≤ ·))
    (a b : ℝ) (hab : a ≤ b) : ∃ v, trapezoidRange x y a b = .ok v ∧ HasInt f a b v := by
  rw [trapezoidRange, if_neg (by simpa using hlen)]
  by_cases h2 : x.length < 2
  · rw [if_pos h2]
    refine ⟨0, rfl, ?_⟩
    rcases Nat.eq_zero_or_pos x.length with h0 | h0
    · exact hasInt_below x y f hf hx a b hab (fun h => by omega)
    · have h1 : x.length - 1 = 0 := by omega
      rcases le_total (x.getD 0 0) a with h | h
      · exact hasInt_above x y f hf hx a b hab (fun _ => by rw [h1]; exact h)
      · rcases le_total b (x.getD 0 0) with h' | h'
        · exact hasInt_below x y f hf hx a b hab (fun _ => h')
        · exact ((hasInt_below x y f hf hx a _ h (fun _ => le_rfl)).trans
            (hasInt_above x y f hf hx _ b h' (fun _ => by rw [h1]))).of_eq (by ring)
  rw [if_neg h2]
  have hU1 : ∀ i, i < upperBound x a → x.getD i 0 ≤ a := fun i hi => by simpa using findIdx_lt _ x i hi
  have hU2 : upperBound x a < x.length → a < x.getD (upperBound x a) 0 := fun hi =>
    of_decide_eq_true (findIdx_at (fun t => decide (a < t)) x hi)
  have hU3 : upperBound x a ≤ x.length := List.findIdx_le_length
  have hL1 : ∀ i, i < lowerBound x b → x.getD i 0 < b := fun i hi => by simpa using findIdx_lt _ x i hi
  have hL2 : lowerBound x b < x.length → b ≤ x.getD (lowerBound x b) 0 := fun hi =>
    of_decide_eq_true (findIdx_at (fun t => decide (b ≤ t)) x hi)
  have hL3 : lowerBound x b ≤ x.length := List.findIdx_le_length
  generalize upperBound x a = ub at hU1 hU2 hU3
  generalize lowerBound x b = lb at hL1 hL2 hL3
  simp only
  by_cases hse : min (x.length - 1) lb < max 1 ub
  · rw [if_pos hse]
    refine ⟨0, rfl, ?_⟩
    by_cases hu : ub = x.length
    · exact hasInt_above x y f hf hx a b hab (fun _ => hU1 _ (by omega))
    · by_cases hl : lb = 0
      · refine hasInt_below x y f hf hx a b hab (fun h => ?_)
        subst hl
        exact hL2 h
      · have h1 : lb < ub := by omega
        have h3 := hU1 lb h1
        have h4 := hL2 (by omega)
        have : a = b := le_antisymm hab (h4.trans h3)
        subst this
        exact HasInt.refl f a
  · rw [if_neg hse]
    obtain ⟨s, hs⟩ : ∃ s, max 1 ub = s := ⟨_, rfl⟩
    obtain ⟨e, he⟩ : ∃ e, min (x.length - 1) lb = e := ⟨_, rfl⟩
    rw [hs, he]
    rw [hs, he] at hse
    have hs1 : 1 ≤ s := by omega
    have hsn : s < x.length := by omega
    have hen : e < x.length := by omega
    have hsle := sorted_getD x hx (s - 1) s (by omega) hsn
    have hele := sorted_getD x hx (e - 1) e (by omega) hen
    have haS : a < x.getD s 0 := by
      rcases Nat.eq_zero_or_pos ub with h0 | h0
      · have := hU2 (by omega)
        rw [h0] at this
        exact lt_of_lt_of_le this (sorted_getD x hx 0 s (by omega) hsn)
      · have : s = ub := by omega
        rw [this]
        exact hU2 (by omega)
    have hEb : x.getD (e - 1) 0 < b := hL1 _ (by omega)
    -- the left edge
    have hleft : HasInt f a (max (x.getD (s - 1) 0) a) 0 := by
      rcases le_total (x.getD (s - 1) 0) a with h | h
      · rw [max_eq_right h]; exact HasInt.refl f a
      · rw [max_eq_left h]
        rcases Nat.eq_zero_or_pos ub with h0 | h0
        · have : s - 1 = 0 := by omega
          rw [this] at h ⊢
          exact hasInt_below x y f hf hx a _ h (fun _ => le_rfl)
        · have h3 := hU1 (s - 1) (by omega)
          have : x.getD (s - 1) 0 = a := le_antisymm h3 h
          rw [this]; exact HasInt.refl f a
    have hyl : (if a ≤ x.getD (s - 1) 0 then Res.ok (y.getD (s - 1) 0) else lerp x y s a) = .ok (lineAt x y s (max (x.getD (s - 1) 0) a)) := by
      by_cases h : a ≤ x.getD (s - 1) 0
      · rw [if_pos h, max_eq_left h, lineAt_left]
      · rw [if_neg h, lerp_ok x y hlen s hsn, max_eq_right (le_of_not_ge h)]
    -- the right edge
    have hright : HasInt f (min (x.getD e 0) b) b 0 := by
      rcases le_total b (x.getD e 0) with h | h
      · rw [min_eq_right h]; exact HasInt.refl f b
      · rw [min_eq_left h]
        by_cases h0 : lb < x.length
        · have : e = lb ∨ e = x.length - 1 := by omega
          rcases this with h5 | h5
          · have h3 := hL2 h0
            rw [← h5] at h3
            have : x.getD e 0 = b := le_antisymm h h3
            rw [this]; exact HasInt.refl f b
          · refine hasInt_above x y f hf hx _ b h (fun _ => by rw [h5])
        · have : e = x.length - 1 := by omega
          exact hasInt_above x y f hf hx _ b h (fun _ => by rw [this])
    have hyr : (if x.getD e 0 ≤ b then Res.ok (y.getD e 0) else lerp x y e b) = .ok (if x.getD e 0 ≤ b then y.getD e 0 else lineAt x y e b) := by
      by_cases h : x.getD e 0 ≤ b
      · rw [if_pos h, if_pos h]
      · rw [if_neg h, if_neg h, lerp_ok x y hlen e hen]
    have hright_val : ∀ c, c ≤ min (x.getD e 0) b → x.getD (e - 1) 0 ≤ c →
        HasInt f c (min (x.getD e 0) b) ((lineAt x y e c + (if x.getD e 0 ≤ b then y.getD e 0 else lineAt x y e b)) / 2 * (min (x.getD e 0) b - c)) := by
      intro c hc hc'
      refine (hasInt_piece x y f hf hlen e (by omega) hen c _ hc' hc (min_le_left _ _)).of_eq ?_
      by_cases h : x.getD e 0 ≤ b
      · rw [if_pos h, min_eq_left h]
        rcases hele.lt_or_eq with hlt | heq
        · rw [lineAt_right x y e hlt]
        · have : c = x.getD e 0 := le_antisymm (hc.trans (min_le_left _ _)) (heq ▸ hc')
          rw [this]; ring
      · rw [if_neg h, min_eq_right (le_of_not_ge h)]
    rw [rd_ok x _ (by omega), rd_ok x _ (by omega), rd_ok y _ (by omega), rd_ok y _ (by omega)]
    simp only [okBind]
    rw [hyl]
    simp only [okBind]
    by_cases hcase : s = e
    · subst hcase
      rw [if_pos rfl, hyr]
      simp only [okBind]
      refine ⟨_, rfl, ?_⟩
      have hlr : max (x.getD (s - 1) 0) a ≤ min (x.getD s 0) b := max_le (le_min hsle hEb.le) (le_min haS.le hab)
      exact ((hleft.trans (hright_val _ hlr (le_max_left _ _))).trans hright).of_eq (by ring)
    · rw [if_neg hcase]
      have hfirst : HasInt f a (x.getD s 0) (0 + (lineAt x y s (max (x.getD (s - 1) 0) a) + y.getD s 0) / 2 * (x.getD s 0 - max (x.getD (s - 1) 0) a)) := by
        have hl : max (x.getD (s - 1) 0) a ≤ x.getD s 0 := max_le hsle haS.le
        refine hleft.trans ((hasInt_piece x y f hf hlen s (by omega) hsn _ _ (le_max_left _ _) hl le_rfl).of_eq ?_)
        rcases hsle.lt_or_eq with hlt | heq
        · rw [lineAt_right x y s hlt]
        · have : max (x.getD (s - 1) 0) a = x.getD s 0 := le_antisymm hl (heq ▸ le_max_left _ _)
          rw [this]; ring
      obtain ⟨t, ht, hti⟩ := hasInt_loop x y f hf hlen hx
        (fun i s => (rd y (i - 1)).bind fun yp => (rd y i).bind fun yi => (rd x i).bind fun xi => (rd x (i - 1)).bind fun xp =>
          .ok (s + (yp + yi) / 2 * (xi - xp)))
        (fun i s h1 h2 => by
          simp only [rd_ok y (i - 1) (by omega), rd_ok y i (by omega), rd_ok x (i - 1) (by omega), rd_ok x i (by omega), Res.bind])
        (s + 1) (e - (s + 1)) (by omega) (by omega) a _ (by rw [Nat.add_sub_cancel]; exact hfirst)
      rw [ht]
      simp only [okBind]
      rw [rd_ok x _ (by omega), rd_ok x _ (by omega), rd_ok y _ (by omega), rd_ok y _ (by omega)]
      simp only [okBind]
      rw [hyr]
      simp only [okBind]
      refine ⟨_, rfl, ?_⟩
      rw [show s + 1 + (e - (s + 1)) - 1 = e - 1 by omega] at hti
      have hl := (hti.trans (hright_val _ (le_min hele hEb.le) le_rfl)).trans hright
      rw [lineAt_left] at hl
      exact hl.of_eq (by ring)

/-- Every sorted table has such a function. -/
theorem exists_interpolant (x y : List ℝ) (hlen : x.length = y.length) (hx : x.Pairwise (· ≤ ·)) : ∃ f, Interpolant x y f := by
  classical
  refine ⟨fun t => if h : ∃ i, i + 1 < x.length ∧ x.getD i 0 < t ∧ t < x.getD (i + 1) 0 then lineAt x y (h.choose + 1) t else 0, ?_, ?_⟩
  · intro i x0 x1 y0 y1 h0 h1 g0 g1 t ht0 ht1
    have hi : i + 1 < x.length := by
      by_contra hc
      rw [List.getElem?_eq_none (by omega)] at h1
      cases h1
    have e0 : x.getD i 0 = x0 := by simp [List.getD, h0]
    have e1 : x.getD (i + 1) 0 = x1 := by simp [List.getD, h1]
    have e2 : y.getD i 0 = y0 := by simp [List.getD, g0]
    have e3 : y.getD (i + 1) 0 = y1 := by simp [List.getD, g1]
    have hex : ∃ i, i + 1 < x.length ∧ x.getD i 0 < t ∧ t < x.getD (i + 1) 0 := ⟨i, hi, by rwa [e0], by rwa [e1]⟩
    have hsame : hex.choose = i := by
      obtain ⟨c1, c2, c3⟩ := hex.choose_spec
      rcases lt_trichotomy hex.choose i with hc | hc | hc
      · have := sorted_getD x hx (hex.choose + 1) i (by omega) (by omega)
        rw [e0] at this
        linarith
      · exact hc
      · have := sorted_getD x hx (i + 1) hex.choose (by omega) (by omega)
        rw [e1] at this
        linarith
    simp only [dif_pos hex, hsame]
    rw [lineAt, Nat.add_sub_cancel, e0, e1, e2, e3]
  · intro t ht
    have hno : ¬ ∃ i, i + 1 < x.length ∧ x.getD i 0 < t ∧ t < x.getD (i + 1) 0 := by
      rintro ⟨i, hi, h1, h2⟩
      rcases ht with ht | ht
      · have := ht (x.getD i 0) (by rw [getD_getElem x _ (by omega)]; exact List.getElem_mem _)
        linarith
      · have := ht (x.getD (i + 1) 0) (by rw [getD_getElem x _ hi]; exact List.getElem_mem _)
        linarith
    simp only [dif_neg hno]

/-! ## The property -/

/-- C50: over a range `[a, b]`, the result is the integral of the function the table stands for. -/
theorem C50_range (x y : List ℝ) (f : ℝ → ℝ) (hf : Interpolant x y f) (hlen : x.length = y.length) (hx : x.Pairwise (· ≤ ·))
    (a b : ℝ) (hab : a ≤ b) : trapezoidRange x y a b = .ok (∫ t in a..b, f t) := by
  obtain ⟨v, h1, h2⟩ := trapezoidRange_hasInt x y f hf hlen hx a b hab
  rw [h1, h2.2]

/-- C50: integrals over adjacent ranges add up. -/
theorem C50_additive (x y : List ℝ) (hlen : x.length = y.length) (hx : x.Pairwise (· ≤ ·)) (a b c : ℝ) (hab : a ≤ b) (hbc : b ≤ c) :
    ∃ u v, trapezoidRange x y a b = .ok u ∧ trapezoidRange x y b c = .ok v ∧ trapezoidRange x y a c = .ok (u + v) := by
  obtain ⟨f, hf⟩ := exists_interpolant x y hlen hx
  obtain ⟨u, h1, h2⟩ := trapezoidRange_hasInt x y f hf hlen hx a b hab
  obtain ⟨v, h3, h4⟩ := trapezoidRange_hasInt x y f hf hlen hx b c hbc
  obtain ⟨w, h5, h6⟩ := trapezoidRange_hasInt x y f hf hlen hx a c (hab.trans hbc)
  refine ⟨u, v, h1, h3, ?_⟩
  rw [h5, ← h6.2, (h2.trans h4).2]

/-- C50: over a range that covers the table, the result is that of the version without a range. -/
theorem C50_full (x y : List ℝ) (hlen : x.length = y.length) (hx : x.Pairwise (· ≤ ·)) (a b : ℝ) (hab : a ≤ b)
    (hcov : ∀ v ∈ x, a ≤ v ∧ v ≤ b) : trapezoidRange x y a b = trapezoidAll x y := by
  obtain ⟨f, hf⟩ := exists_interpolant x y hlen hx
  rw [C50_range x y f hf hlen hx a b hab, trapezoidAll, if_neg (by simpa using hlen)]
  by_cases h0 : x.length = 0
  · rw [h0]
    simp only [Nat.zero_sub, List.range'_zero, forLoop]
    rw [(hasInt_below x y f hf hx a b hab (fun h => by omega)).2]
  · have hmem : ∀ i, i < x.length → a ≤ x.getD i 0 ∧ x.getD i 0 ≤ b := fun i hi =>
      hcov _ (by rw [getD_getElem x _ hi]; exact List.getElem_mem _)
    obtain ⟨t, ht, hti⟩ := hasInt_loop x y f hf hlen hx
      (fun i s => (rd x i).bind fun xi => (rd x (i - 1)).bind fun xp => (rd y i).bind fun yi => (rd y (i - 1)).bind fun yp =>
          .ok (s + (xi - xp) * ((yi + yp) / 2)))
      (fun i s h1 h2 => by
        simp only [rd_ok y (i - 1) (by omega), rd_ok y i (by omega), rd_ok x (i - 1) (by omega), rd_ok x i (by omega), Res.bind]
        congr 1; ring)
      1 (x.length - 1) (by omega) (by omega) a 0
      (hasInt_below x y f hf hx a _ (hmem 0 (by omega)).1 (fun _ => le_rfl))
    rw [ht]
    rw [show 1 + (x.length - 1) - 1 = x.length - 1 by omega] at hti
    have := hti.trans (hasInt_above x y f hf hx _ b (hmem _ (by omega)).2 (fun _ => le_rfl))
    rw [this.2, add_zero]

/-- C50: tables of different lengths are rejected by both versions. -/
theorem C50_mismatch (x y : List ℝ) (h : x.length ≠ y.length) (a b : ℝ) :
    trapezoidAll x y = .throws .runtimeError ∧ trapezoidRange x y a b = .throws .runtimeError := by
  rw [trapezoidAll, trapezoidRange, if_pos h, if_pos h]
  exact ⟨rfl, rfl⟩

/-- The table 0, 1, 3 ↦ 0, 2, 2 between -1 and 2: the triangle has area 1, the strip up to 2 area 2. -/
example : trapezoidRange [0, 1, 3] [0, 2, 2] (-1) 2 = .ok 3 := by
  norm_num [trapezoidRange, upperBound, lowerBound, rd, lerp, Res.bind, forLoop, List.findIdx, List.findIdx.go]

example : ([0, 1, 3] : List ℝ).Pairwise (· ≤ ·) := by norm_num

/-- C50: for descending limits the result depends on where the table has its points: the same line gives minus the integral as one interval,
and zero when its middle is tabulated as well. -/
theorem C50_reversed_fails :
    trapezoidRange [0, 2] [1, 1] (3 / 2) (1 / 2) = .ok (-1) ∧ trapezoidRange [0, 1, 2] [1, 1, 1] (3 / 2) (1 / 2) = .ok 0 := by
  constructor <;> norm_num [trapezoidRange, upperBound, lowerBound, rd, lerp, Res.bind, List.findIdx, List.findIdx.go]

end Siren.Math.Integrate
