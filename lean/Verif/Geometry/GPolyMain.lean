import Verif.Geometry.GPoly

set_option autoImplicit false
set_option linter.unusedSectionVars false
set_option linter.unusedSimpArgs false

/-!
# Crossings of revolved polygons
-/

namespace Siren.Geometry
namespace GPoly

open Siren

variable {e : Edge} {o d : Vec3 ℝ} {w : ℝ} {P : Poly} {srt : List Isect → List Isect}

/-- The crossing of the surface of an edge at `t`, at the share `s` of the edge. -/
def crossing (w : ℝ) (e : Edge) (o d : Vec3 ℝ) (s t : ℝ) (h : Isect) : Prop :=
  0 < s ∧ s < 1 ∧ e.On s (line o d t) ∧ e.rate s (line o d t) d ≠ 0 ∧ h.distance = t ∧ h.hierarchy = 0 ∧ h.position = line o d t ∧
  (h.entering = true ↔ w * e.rate s (line o d t) d < 0)

theorem isect_eq (h : Isect) (t : ℝ) (q : Vec3 ℝ) (p : Prop) [Decidable p] :
    h = ⟨t, 0, decide p, q⟩ ↔ h.distance = t ∧ h.hierarchy = 0 ∧ h.position = q ∧ (h.entering = true ↔ p) := by
  rcases h with ⟨a, b, c, f⟩
  simp only [Isect.mk.injEq]
  constructor
  · rintro ⟨h1, h2, h3, h4⟩
    exact ⟨h1, h2, h4, by rw [h3, decide_eq_true_iff]⟩
  · rintro ⟨h1, h2, h3, h4⟩
    refine ⟨h1, h2, ?_, h3⟩
    rw [Bool.eq_iff_iff, h4, decide_eq_true_iff]

theorem small_zero (g : Good e o d) : (e.r0 < precision → e.r0 = 0) ∧ (e.r1 < precision → e.r1 = 0) ∧
    (|e.z1 - e.z0| < precision → e.z1 = e.z0) ∧ (¬ |e.z1 - e.z0| > precision → e.z1 = e.z0) ∧ (|e.r1 - e.r0| < precision → e.r1 = e.r0) := by
  refine ⟨fun h => ?_, fun h => ?_, fun h => ?_, fun h => ?_, fun h => ?_⟩
  · rcases g.clear.first with h' | h'
    · exact h'
    · linarith
  · rcases g.clear.second with h' | h'
    · exact h'
    · linarith
  · rcases g.clear.height with h' | h'
    · exact h'
    · linarith
  · rcases g.clear.height with h' | h'
    · exact h'
    · exact absurd h' h
  · rcases g.clear.width with h' | h'
    · exact h'
    · linarith

theorem edge_mem (g : Good e o d) (hw : w = 1 ∨ w = -1) (dzn : ℝ) (h : Isect) :
    h ∈ edgeHits w e dzn o d ↔ ∃ s t, crossing w e o d s t h := by
  have hp := precision_pos
  obtain ⟨k1, k2, k3, k4, k5⟩ := small_zero g
  unfold edgeHits
  by_cases c1 : |e.r1 - e.r0| < precision ∧ |e.z1 - e.z0| < precision
  · rw [if_pos c1]
    have a := k5 c1.1
    have b := k3 c1.2
    constructor
    · intro h; simp at h
    · rintro ⟨s, t, -, -, ⟨h1, h2⟩, -⟩
      rw [a, b, sub_self, mul_zero, add_zero] at *
      exact absurd h2 (g.v0 t h1)
  rw [if_neg c1]
  by_cases c2 : e.r0 < precision ∧ e.r1 < precision
  · rw [if_pos c2]
    have a := k1 c2.1
    have b := k2 c2.2
    constructor
    · intro h; simp at h
    · rintro ⟨s, t, -, -, ⟨h1, h2⟩, -⟩
      rw [a, b] at h2
      have := g.axis t
      rw [h2] at this
      nlinarith [sq_nonneg precision, mul_pos hp hp]
  rw [if_neg c2]
  simp only
  by_cases c3 : |e.z1 - e.z0| > precision
  · have hz : e.z1 ≠ e.z0 := by
      intro h
      rw [h, sub_self, abs_zero] at c3
      linarith
    have h0 : e.z1 - e.z0 ≠ 0 := sub_ne_zero.mpr hz
    rw [if_pos c3, List.mem_flatMap]
    have hspec := roots_spec g hz (decide (e.r0 < precision) || decide (e.r1 < precision)) (by
      intro h
      rw [Bool.or_eq_true, decide_eq_true_iff, decide_eq_true_iff] at h
      exact h.imp k1 k2)
    have hsl : ∀ q, e.rate ((q.z - e.z0) / (e.z1 - e.z0)) q d ≠ 0 ↔ e.slope q d ≠ 0 := by
      intro q
      rw [rate_eq hz]
      simp [h0]
    constructor
    · rintro ⟨t, ht, hh⟩
      obtain ⟨h1, h2⟩ := (hspec t).mp ht
      rw [tryHit_root hz g.h0 g.h1 hw _ g.axis g.clear.start g.v0 g.v1 t h1 h2] at hh
      split at hh
      · next hin =>
        rw [List.mem_singleton, isect_eq] at hh
        exact ⟨_, t, hin.1, hin.2, (on_iff hz _).mpr h1, (hsl _).mpr h2, hh⟩
      · simp at hh
    · rintro ⟨s, t, s0, s1, hon, hr, hh⟩
      have hs : s = ((line o d t).z - e.z0) / (e.z1 - e.z0) := by rw [hon.1]; field_simp; ring
      subst hs
      have h1 := (on_iff hz _).mp hon
      have h2 := (hsl _).mp hr
      refine ⟨t, (hspec t).mpr ⟨h1, h2⟩, ?_⟩
      rw [tryHit_root hz g.h0 g.h1 hw _ g.axis g.clear.start g.v0 g.v1 t h1 h2, if_pos ⟨s0, s1⟩, List.mem_singleton, isect_eq]
      exact hh
  · have hz := k4 c3
    rw [if_neg c3]
    have hr : e.r1 ≠ e.r0 := by
      intro h
      exact c1 ⟨by rw [h, sub_self, abs_zero]; exact hp, by rw [hz, sub_self, abs_zero]; exact hp⟩
    have hrd : e.r1 - e.r0 ≠ 0 := sub_ne_zero.mpr hr
    obtain ⟨h1, h2, h3, s0, s1, -⟩ := disk_spec g hz hr hw _ rfl _ rfl
    rw [h1]
    constructor
    · intro hh
      split at hh
      · next hin =>
        rw [List.mem_singleton, isect_eq] at hh
        exact ⟨_, _, hin.1, hin.2, h2, h3, hh⟩
      · simp at hh
    · rintro ⟨s, t, a, b, hon, hrr, hh⟩
      have ht : t = (e.z0 - o.z) / d.z := by
        have := hon.1
        rw [hz, sub_self, mul_zero, add_zero] at this
        rw [eq_div_iff g.dz, ← this]
        unfold line; ring
      subst ht
      have hs : s = (Real.sqrt ((line o d ((e.z0 - o.z) / d.z)).x ^ 2 + (line o d ((e.z0 - o.z) / d.z)).y ^ 2) - e.r0) / (e.r1 - e.r0) := by
        have h0 : 0 ≤ e.r0 + s * (e.r1 - e.r0) := by nlinarith [mul_nonneg a.le g.h1, mul_nonneg (sub_nonneg.mpr b.le) g.h0]
        rw [hon.2, Real.sqrt_sq h0]
        field_simp
        ring
      rw [← hs, if_pos ⟨a, b⟩, List.mem_singleton, isect_eq]
      exact hh

theorem edge_balance (g : Good e o d) (hw : w = 1 ∨ w = -1) (dzn : ℝ) :
    balance (edgeHits w e dzn o d) = (if 0 < d.z * w then 1 else -1) * (side e.r0 e.z0 o d - side e.r1 e.z1 o d) := by
  have hp := precision_pos
  obtain ⟨k1, k2, k3, k4, k5⟩ := small_zero g
  unfold edgeHits
  by_cases c1 : |e.r1 - e.r0| < precision ∧ |e.z1 - e.z0| < precision
  · rw [if_pos c1, k5 c1.1, k3 c1.2]
    simp [balance]
  rw [if_neg c1]
  by_cases c2 : e.r0 < precision ∧ e.r1 < precision
  · rw [if_pos c2, k1 c2.1, k2 c2.2]
    have : ∀ z, side 0 z o d = 1 := by
      intro z
      unfold side
      rw [if_pos]
      have := g.axis ((z - o.z) / d.z)
      nlinarith [mul_pos hp hp]
    rw [this, this]
    simp [balance]
  rw [if_neg c2]
  simp only
  by_cases c3 : |e.z1 - e.z0| > precision
  · have hz : e.z1 ≠ e.z0 := by
      intro h
      rw [h, sub_self, abs_zero] at c3
      linarith
    have h0 : e.z1 - e.z0 ≠ 0 := sub_ne_zero.mpr hz
    rw [if_pos c3, balance_wall g hz hw]
    · have hdz := g.dz
      generalize side e.r0 e.z0 o d = x
      generalize side e.r1 e.z1 o d = y
      generalize e.z1 - e.z0 = D at *
      rcases lt_or_gt_of_ne h0 with a | a <;> rcases lt_or_gt_of_ne hdz with b | b <;> rcases hw with rfl | rfl
      · have := mul_pos_of_neg_of_neg b a
        simp [a, this, not_lt.mpr b.le]
      · have := mul_pos_of_neg_of_neg b a
        simp [a, this, not_lt.mpr a.le, b]
      · have := mul_neg_of_pos_of_neg b a
        simp [a, not_lt.mpr this.le, b]
      · have := mul_neg_of_pos_of_neg b a
        simp [not_lt.mpr a.le, not_lt.mpr this.le, not_lt.mpr b.le]
      · have := mul_neg_of_neg_of_pos b a
        simp [not_lt.mpr a.le, not_lt.mpr this.le, not_lt.mpr b.le]
      · have := mul_neg_of_neg_of_pos b a
        simp [a, not_lt.mpr this.le, b]
      · have := mul_pos b a
        simp [not_lt.mpr a.le, this, b]
      · have := mul_pos b a
        simp [a, this, not_lt.mpr b.le]
    · intro h
      rw [Bool.or_eq_true, decide_eq_true_iff, decide_eq_true_iff] at h
      exact h.imp k1 k2
  · have hz := k4 c3
    rw [if_neg c3]
    refine balance_disk g hz ?_ hw
    intro h
    exact c1 ⟨by rw [h, sub_self, abs_zero]; exact hp, by rw [hz, sub_self, abs_zero]; exact hp⟩

/-! ### The polygon -/

theorem winding_cases (P : Poly) : P.winding = 1 ∨ P.winding = -1 := by
  unfold Poly.winding
  split
  · left; rfl
  · right; rfl

theorem good (h : P.Clear o d) (i : ℕ) (hi : i < P.n) : Good (P.edge i) o d :=
  ⟨h.climbs, h.axis, h.radii _, h.radii _, h.vertex i hi, h.vertex _ (Nat.mod_lt _ (by omega)), h.edges i hi⟩

theorem cyclic_sum (n : ℕ) (u : ℕ → ℤ) : ((List.range n).map fun i => u i - u ((i + 1) % n)).sum = 0 := by
  cases n with
  | zero => simp
  | succ k =>
    have h1 : ∀ j ≤ k, ((List.range j).map fun i => u i - u ((i + 1) % (k + 1))).sum = u 0 - u j := by
      intro j
      induction j with
      | zero => simp
      | succ j ih =>
        intro hj
        rw [List.range_succ, List.map_append, List.sum_append, ih (by omega)]
        simp [Nat.mod_eq_of_lt (show j + 1 < k + 1 by omega)]
    rw [List.range_succ, List.map_append, List.sum_append, h1 k le_rfl]
    simp

/-- C134, the crossings: for a line clear of tolerances, the crossings come in order of distance, and they are exactly the points where the
line passes through the surface swept by an edge of the polygon; a crossing enters if the line moves against the normal that points out of
the polygon. -/
theorem C134_crossings_partial (hs : IsIsectSort srt) (h3 : 3 ≤ P.n) (hc : P.Clear o d) :
    (intersections srt P o d).Pairwise (fun a b => a.distance ≤ b.distance) ∧
    ∀ h, h ∈ intersections srt P o d ↔ ∃ i < P.n, ∃ s t, crossing P.winding (P.edge i) o d s t h := by
  unfold intersections
  rw [if_neg (not_lt.mpr h3)]
  refine ⟨(hs _).2, fun h => ?_⟩
  rw [(hs _).1.mem_iff]
  unfold hits
  rw [List.mem_flatMap]
  constructor
  · rintro ⟨i, hi, hh⟩
    have hi := List.mem_range.mp hi
    exact ⟨i, hi, (edge_mem (good hc i hi) (winding_cases P) _ h).mp hh⟩
  · rintro ⟨i, hi, hh⟩
    exact ⟨i, List.mem_range.mpr hi, (edge_mem (good hc i hi) (winding_cases P) _ h).mpr hh⟩

theorem balance_perm {l l' : List Isect} (h : l.Perm l') : balance l = balance l' := (h.map _).sum_eq

theorem balance_flatMap (f : ℕ → List Isect) (l : List ℕ) : balance (l.flatMap f) = (l.map fun i => balance (f i)).sum := by
  induction l with
  | nil => simp [balance]
  | cons a l ih => rw [List.flatMap_cons, balance_append, ih]; simp

/-- C134, balance: a line clear of tolerances enters the solid as often as it leaves it. -/
theorem C134_balanced_partial (hs : IsIsectSort srt) (h3 : 3 ≤ P.n) (hc : P.Clear o d) :
    (intersections srt P o d).countP (·.entering) = (intersections srt P o d).countP (fun h => !h.entering) := by
  have key : balance (intersections srt P o d) = 0 := by
    unfold intersections
    rw [if_neg (not_lt.mpr h3), balance_perm (hs _).1]
    unfold hits
    rw [balance_flatMap]
    have : ((List.range P.n).map fun i => balance (edgeHits P.winding (P.edge i) (P.z ((i + 2) % P.n) - P.z ((i + 1) % P.n)) o d)) =
        (List.range P.n).map fun i => ((if 0 < d.z * P.winding then 1 else -1) * side (P.r i) (P.z i) o d -
          (if 0 < d.z * P.winding then 1 else -1) * side (P.r ((i + 1) % P.n)) (P.z ((i + 1) % P.n)) o d) := by
      refine List.map_congr_left fun i hi => ?_
      rw [edge_balance (good hc i (List.mem_range.mp hi)) (winding_cases P), mul_sub]
      rfl
    rw [this]
    exact cyclic_sum P.n (fun i => (if 0 < d.z * P.winding then 1 else -1) * side (P.r i) (P.z i) o d)
  have hb : ∀ l : List Isect, balance l = (l.countP (·.entering) : ℤ) - l.countP (fun h => !h.entering) := by
    intro l
    induction l with
    | nil => simp [balance]
    | cons a l ih =>
      have : balance (a :: l) = (if a.entering then 1 else -1) + balance l := by simp [balance]
      rw [this, ih, List.countP_cons, List.countP_cons]
      cases a.entering <;> simp <;> ring
  rw [hb] at key
  omega

/-! ### The box -/

theorem le_foldl_max (l : List ℝ) (a : ℝ) : a ≤ l.foldl max a ∧ ∀ x ∈ l, x ≤ l.foldl max a := by
  induction l generalizing a with
  | nil => simp
  | cons b l ih =>
    obtain ⟨h1, h2⟩ := ih (max a b)
    refine ⟨(le_max_left a b).trans h1, fun x hx => ?_⟩
    rcases List.mem_cons.mp hx with rfl | hx
    · exact (le_max_right a x).trans h1
    · exact h2 x hx

theorem foldl_min_le (l : List ℝ) (a : ℝ) : l.foldl min a ≤ a ∧ ∀ x ∈ l, l.foldl min a ≤ x := by
  induction l generalizing a with
  | nil => simp
  | cons b l ih =>
    obtain ⟨h1, h2⟩ := ih (min a b)
    refine ⟨h1.trans (min_le_left a b), fun x hx => ?_⟩
    rcases List.mem_cons.mp hx with rfl | hx
    · exact h1.trans (min_le_right a x)
    · exact h2 x hx

/-- C134, the box: the surface lies in the bounding box. -/
theorem C134_box (hr : ∀ i < P.n, 0 ≤ P.r i) (i : ℕ) (hi : i < P.n) (s : ℝ) (h0 : 0 ≤ s) (h1 : s ≤ 1) (q : Vec3 ℝ) (hq : (P.edge i).On s q) :
    P.boxLow.x ≤ q.x ∧ q.x ≤ P.boxHigh.x ∧ P.boxLow.y ≤ q.y ∧ q.y ≤ P.boxHigh.y ∧ P.boxLow.z ≤ q.z ∧ q.z ≤ P.boxHigh.z := by
  have hj : (i + 1) % P.n < P.n := Nat.mod_lt _ (by omega)
  have mr : ∀ k < P.n, P.r k ≤ P.maxR := fun k hk => (le_foldl_max _ _).2 _ (List.mem_map.mpr ⟨k, List.mem_range.mpr hk, rfl⟩)
  have mh : ∀ k < P.n, P.z k ≤ P.zHi := fun k hk => (le_foldl_max _ _).2 _ (List.mem_map.mpr ⟨k, List.mem_range.mpr hk, rfl⟩)
  have ml : ∀ k < P.n, P.zLo ≤ P.z k := fun k hk => (foldl_min_le _ _).2 _ (List.mem_map.mpr ⟨k, List.mem_range.mpr hk, rfl⟩)
  have hs : 0 ≤ 1 - s := by linarith
  obtain ⟨hz, hxy⟩ := hq
  simp only [Poly.edge] at hz hxy
  have r0 := hr i hi
  have r1 := hr _ hj
  have a0 := mr i hi
  have a1 := mr _ hj
  have b0 := mh i hi
  have b1 := mh _ hj
  have c0 := ml i hi
  have c1 := ml _ hj
  generalize P.r ((i + 1) % P.n) = r' at *
  generalize P.z ((i + 1) % P.n) = z' at *
  have hR0 : 0 ≤ P.r i + s * (r' - P.r i) := by nlinarith [mul_nonneg h0 r1, mul_nonneg hs r0]
  have hR : P.r i + s * (r' - P.r i) ≤ P.maxR := by nlinarith [mul_le_mul_of_nonneg_left a1 h0, mul_le_mul_of_nonneg_left a0 hs]
  have hx : |q.x| ≤ P.maxR := (abs_le_of_sq_le_sq (by nlinarith [sq_nonneg q.y]) hR0).trans hR
  have hy : |q.y| ≤ P.maxR := (abs_le_of_sq_le_sq (by nlinarith [sq_nonneg q.x]) hR0).trans hR
  refine ⟨(abs_le.mp hx).1, (abs_le.mp hx).2, (abs_le.mp hy).1, (abs_le.mp hy).2, ?_, ?_⟩
  · show P.zLo ≤ q.z
    nlinarith [mul_le_mul_of_nonneg_left c1 h0, mul_le_mul_of_nonneg_left c0 hs]
  · show q.z ≤ P.zHi
    nlinarith [mul_le_mul_of_nonneg_left b1 h0, mul_le_mul_of_nonneg_left b0 hs]

end GPoly
end Siren.Geometry
