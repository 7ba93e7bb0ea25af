import Verif.Geometry.GPolyMain

set_option autoImplicit false
set_option linter.unusedSectionVars false
set_option linter.unusedSimpArgs false

/-!
# Crossings of revolved polygons and the winding number
-/

namespace Siren.Geometry
namespace GPoly

open Siren

variable {e : Edge} {o d : Vec3 ℝ} {w : ℝ} {P : Poly} {srt : List Isect → List Isect}

/-! ### Specification -/

open Classical in
/-- How often the edge passes downwards, less upwards, between the point and the axis. -/
noncomputable def Edge.passes (e : Edge) (q : Vec3 ℝ) : ℤ :=
  if (e.r0 + (q.z - e.z0) / (e.z1 - e.z0) * (e.r1 - e.r0)) ^ 2 < q.x ^ 2 + q.y ^ 2 then
    (if e.z1 < q.z ∧ q.z < e.z0 then 1 else if e.z0 < q.z ∧ q.z < e.z1 then -1 else 0)
  else 0

/-- How often the polygon winds around the point in the plane of radius and height. -/
noncomputable def Poly.around (P : Poly) (q : Vec3 ℝ) : ℤ := ((List.range P.n).map fun i => (P.edge i).passes q).sum

/-- The height of the point is not that of a vertex, and it is not on the surface. -/
def Poly.Off (P : Poly) (q : Vec3 ℝ) : Prop := ∀ i < P.n, q.z ≠ P.z i ∧ ∀ s, 0 < s → s < 1 → ¬ (P.edge i).On s q

/-! ### Sloped edges -/

/-- The roots between two points, by the signs there. -/
theorem root_sum (g : Good e o d) (hz : e.z1 ≠ e.z0) (onAxis : Bool) (hon : onAxis = true → e.r0 = 0 ∨ e.r1 = 0) (lo hi : ℝ) (hlt : lo < hi)
    (hl : e.out (line o d lo) ≠ 0) (hh : e.out (line o d hi) ≠ 0) :
    ((roots e onAxis o d).map fun t => (if e.slope (line o d t) d < 0 then (1 : ℤ) else -1) * (if lo < t ∧ t < hi then 1 else 0)).sum =
    (if 0 < e.out (line o d lo) then (1 : ℤ) else 0) - (if 0 < e.out (line o d hi) then 1 else 0) := by
  have hp := precision_pos
  have hlead := g.clear.lead hz
  have hapex := g.clear.apex hz
  have hout := fun t => out_eq (e := e) (o := o) (d := d) t
  have hsl := fun t => slope_eq (e := e) (o := o) (d := d) t
  have hdet : e.det o d = e.B o d * e.B o d - 4 * e.A o d * e.C o d := rfl
  unfold roots
  by_cases hA : |e.A o d| > precision
  · have hA0 : e.A o d ≠ 0 := by intro h; rw [h, abs_zero] at hA; linarith
    rw [if_pos hA]
    by_cases hD : e.det o d > 0
    · rw [if_pos hD]
      have hs := Real.sq_sqrt hD.le
      have hs0 := Real.sqrt_pos.mpr hD
      generalize hq : Real.sqrt (e.det o d) = q at *
      generalize hp' : (-e.B o d + q) / (2 * e.A o d) + shift o d = p at *
      generalize hm' : (-e.B o d - q) / (2 * e.A o d) + shift o d = m at *
      have ep : 2 * e.A o d * (p - shift o d) + e.B o d = q := by rw [← hp']; field_simp; ring
      have em : 2 * e.A o d * (m - shift o d) + e.B o d = -q := by rw [← hm']; field_simp; ring
      have sp : ¬ e.slope (line o d p) d < 0 := by have := hsl p; linarith
      have sm : e.slope (line o d m) d < 0 := by have := hsl m; linarith
      simp only [List.map_cons, List.map_nil, List.sum_cons, List.sum_nil]
      rw [if_neg sp, if_pos sm]
      have hfac : ∀ t, e.out (line o d t) = e.A o d * (t - p) * (t - m) := by
        intro t
        rw [hout t]
        have h4 : 4 * e.A o d * (e.A o d * (t - shift o d) ^ 2 + e.B o d * (t - shift o d) + e.C o d) =
            4 * e.A o d * (e.A o d * (t - p) * (t - m)) := by
          have hp2 : 2 * e.A o d * (t - p) = 2 * e.A o d * (t - shift o d) + e.B o d - q := by linear_combination -ep
          have hm2 : 2 * e.A o d * (t - m) = 2 * e.A o d * (t - shift o d) + e.B o d + q := by linear_combination -em
          have : 4 * e.A o d * (e.A o d * (t - p) * (t - m)) = (2 * e.A o d * (t - p)) * (2 * e.A o d * (t - m)) := by ring
          rw [this, hp2, hm2]
          linear_combination hs + hdet
        exact mul_left_cancel₀ (by simpa using hA0) h4
      have := two_roots (e.A o d) p m lo hi hlt (by nlinarith) (by rw [← hfac]; exact hl) (by rw [← hfac]; exact hh)
      rw [hfac, hfac, ← this]
      ring
    · rw [if_neg hD, if_neg]
      · have hD := not_lt.mp hD
        have hsame : ∀ t, e.out (line o d t) ≠ 0 → (0 < e.out (line o d t) ↔ 0 < e.A o d) := by
          intro t ht
          rw [hout t] at ht ⊢
          have : 0 ≤ e.A o d * (e.A o d * (t - shift o d) ^ 2 + e.B o d * (t - shift o d) + e.C o d) := by
            nlinarith [sq_nonneg (2 * e.A o d * (t - shift o d) + e.B o d)]
          generalize e.A o d * (t - shift o d) ^ 2 + e.B o d * (t - shift o d) + e.C o d = x at *
          have := lt_of_le_of_ne this (mul_ne_zero hA0 ht).symm
          constructor
          · intro h; exact (mul_pos_iff_of_pos_right h).mp this
          · intro h; exact (mul_pos_iff_of_pos_left h).mp this
        simp only [hsame lo hl, hsame hi hh, sub_self, List.map_nil, List.sum_nil]
      · rintro ⟨a, b⟩
        exact absurd (hapex (hon a) (not_lt.mp hD)) (not_le.mpr b)
  · rw [if_neg hA]
    have hA0 : e.A o d = 0 := by
      rcases hlead with h' | ⟨h', -⟩
      · exact absurd h' hA
      · exact h'
    have hB : precision < |e.B o d| ∨ e.B o d = 0 := by
      rcases hlead with h' | ⟨-, h'⟩
      · exact absurd h' hA
      · exact h'
    rcases hB with hB | hB
    · have hB0 : e.B o d ≠ 0 := by intro h; rw [h, abs_zero] at hB; linarith
      rw [if_pos hB]
      generalize hp' : -e.C o d / e.B o d + shift o d = p at *
      simp only [List.map_cons, List.map_nil, List.sum_cons, List.sum_nil]
      have hfac : ∀ t, e.out (line o d t) = e.B o d * (t - p) := by
        intro t
        rw [hout t, hA0, ← hp']
        field_simp
        ring
      have hsp : e.slope (line o d p) d < 0 ↔ e.B o d < 0 := by
        have := hsl p
        rw [hA0] at this
        constructor <;> intro h <;> linarith
      rw [hfac] at hl hh
      simp only [hfac, hsp]
      have l1 : lo ≠ p := by rintro rfl; simp at hl
      have l2 : hi ≠ p := by rintro rfl; simp at hh
      rcases lt_or_gt_of_ne hB0 with b | b
      · have k : ∀ x, 0 < e.B o d * (x - p) ↔ x < p := fun x => by
          constructor
          · intro h; by_contra hc; nlinarith
          · intro h; nlinarith
        simp only [k, if_pos b]
        rcases lt_or_gt_of_ne l1 with a | a <;> rcases lt_or_gt_of_ne l2 with c | c
        · simp [a, c, not_lt.mpr c.le]
        · simp [a, c, not_lt.mpr c.le]
        · linarith
        · simp [not_lt.mpr a.le, not_lt.mpr c.le]
      · have k : ∀ x, 0 < e.B o d * (x - p) ↔ p < x := fun x => by
          constructor
          · intro h; by_contra hc; nlinarith
          · intro h; nlinarith
        simp only [k, if_neg (not_lt.mpr b.le)]
        rcases lt_or_gt_of_ne l1 with a | a <;> rcases lt_or_gt_of_ne l2 with c | c
        · simp [a, not_lt.mpr c.le, not_lt.mpr a.le]
        · simp [a, c, not_lt.mpr a.le]
        · linarith
        · simp [a, c, not_lt.mpr a.le]
    · rw [if_neg (by rw [hB, abs_zero]; linarith)]
      have hc : ∀ t, e.out (line o d t) = e.C o d := fun t => by rw [hout t, hA0, hB]; ring
      simp [hc]

/-- The crossings before `T`. -/
noncomputable def before (T : ℝ) (l : List Isect) : List Isect := l.filter fun h => decide (h.distance < T)

theorem before_append (T : ℝ) (l l' : List Isect) : before T (l ++ l') = before T l ++ before T l' := by simp [before]

theorem before_root (g : Good e o d) (hz : e.z1 ≠ e.z0) (hw : w = 1 ∨ w = -1) (claim : Bool) (T t : ℝ) (ht : e.out (line o d t) = 0)
    (htr : e.slope (line o d t) d ≠ 0) : balance (before T (tryHit w e claim o d t)) =
    (if w * (e.z1 - e.z0) < 0 then -1 else 1) * ((if e.slope (line o d t) d < 0 then 1 else -1) * (if t < T then inside e o d t else 0)) := by
  have h := balance_root g hz hw claim t ht htr
  have hs := tryHit_root hz g.h0 g.h1 hw claim g.axis g.clear.start g.v0 g.v1 t ht htr
  by_cases hT : t < T
  · rw [if_pos hT, ← h]
    congr 1
    rw [hs]
    split
    · simp [before, hT]
    · simp [before]
  · rw [if_neg hT, mul_zero, mul_zero, hs]
    split
    · simp [before, hT, balance]
    · simp [before, balance]

/-- The height of a vertex is passed before `T`, and the vertex is nearer to the axis. -/
noncomputable def cut (T r z : ℝ) (o d : Vec3 ℝ) : ℤ := if (z - o.z) / d.z < T then side r z o d else 0

/-- One if the edge is nearer to the axis than the point. -/
noncomputable def inner (e : Edge) (q : Vec3 ℝ) : ℤ :=
  if (e.r0 + (q.z - e.z0) / (e.z1 - e.z0) * (e.r1 - e.r0)) ^ 2 < q.x ^ 2 + q.y ^ 2 then 1 else 0

theorem inner_eq (hz : e.z1 ≠ e.z0) (q : Vec3 ℝ) : inner e q = if 0 < e.out q then 1 else 0 := by
  have h0 : e.z1 - e.z0 ≠ 0 := sub_ne_zero.mpr hz
  have hzq : q.z = e.z0 + (q.z - e.z0) / (e.z1 - e.z0) * (e.z1 - e.z0) := by field_simp; ring
  have := a_add hz ((q.z - e.z0) / (e.z1 - e.z0))
  rw [← hzq] at this
  unfold inner Edge.out
  rw [← this]
  exact if_congr (by rw [sub_pos]) rfl rfl

theorem before_wall (g : Good e o d) (hz : e.z1 ≠ e.z0) (hw : w = 1 ∨ w = -1) (claim onAxis : Bool) (hon : onAxis = true → e.r0 = 0 ∨ e.r1 = 0)
    (T : ℝ) (n0 : (e.z0 - o.z) / d.z ≠ T) (n1 : (e.z1 - o.z) / d.z ≠ T) (hT : ∀ s, 0 < s → s < 1 → ¬ e.On s (line o d T)) :
    balance (before T ((roots e onAxis o d).flatMap (tryHit w e claim o d))) =
    (if w * (e.z1 - e.z0) < 0 then -1 else 1) * (if 0 < d.z * (e.z1 - e.z0) then
      cut T e.r0 e.z0 o d - cut T e.r1 e.z1 o d - (if (e.z0 - o.z) / d.z < T ∧ T < (e.z1 - o.z) / d.z then inner e (line o d T) else 0)
      else cut T e.r1 e.z1 o d - cut T e.r0 e.z0 o d - (if (e.z1 - o.z) / d.z < T ∧ T < (e.z0 - o.z) / d.z then inner e (line o d T) else 0)) := by
  have hdz := g.dz
  have h0 : e.z1 - e.z0 ≠ 0 := sub_ne_zero.mpr hz
  have hspec := roots_spec g hz onAxis hon
  have m0 : e.out (line o d ((e.z0 - o.z) / d.z)) ≠ 0 := by
    rw [out_at0 hz hdz, sub_ne_zero]; exact g.v0 _ (line_at hdz _)
  have m1 : e.out (line o d ((e.z1 - o.z) / d.z)) ≠ 0 := by
    rw [out_at1 hz hdz, sub_ne_zero]; exact g.v1 _ (line_at hdz _)
  have hsum : balance (before T ((roots e onAxis o d).flatMap (tryHit w e claim o d))) = (if w * (e.z1 - e.z0) < 0 then -1 else 1) *
      ((roots e onAxis o d).map fun t => (if e.slope (line o d t) d < 0 then (1 : ℤ) else -1) * (if t < T then inside e o d t else 0)).sum := by
    have : ∀ l : List ℝ, (∀ t ∈ l, e.out (line o d t) = 0 ∧ e.slope (line o d t) d ≠ 0) →
        balance (before T (l.flatMap (tryHit w e claim o d))) = (if w * (e.z1 - e.z0) < 0 then -1 else 1) *
        (l.map fun t => (if e.slope (line o d t) d < 0 then (1 : ℤ) else -1) * (if t < T then inside e o d t else 0)).sum := by
      intro l
      induction l with
      | nil => intro _; simp [before, balance]
      | cons a l ih =>
        intro hl
        obtain ⟨h1, h2⟩ := hl a List.mem_cons_self
        rw [List.flatMap_cons, before_append, balance_append, before_root g hz hw claim T a h1 h2, ih (fun t ht => hl t (List.mem_cons_of_mem _ ht)),
          List.map_cons, List.sum_cons, mul_add]
    exact this _ fun t ht => (hspec t).mp ht
  rw [hsum]
  congr 1
  unfold cut
  rw [side0 hz hdz, side1 hz hdz, inner_eq hz]
  -- the interval
  obtain ⟨lo, hi, hlt, hl, hh, hin, nlo, nhi, hgoal⟩ : ∃ lo hi : ℝ, lo < hi ∧ e.out (line o d lo) ≠ 0 ∧ e.out (line o d hi) ≠ 0 ∧
      (∀ t, inside e o d t = if lo < t ∧ t < hi then 1 else 0) ∧ lo ≠ T ∧ hi ≠ T ∧
      (if 0 < d.z * (e.z1 - e.z0) then
        (if (e.z0 - o.z) / d.z < T then (if 0 < e.out (line o d ((e.z0 - o.z) / d.z)) then (1 : ℤ) else 0) else 0) -
        (if (e.z1 - o.z) / d.z < T then (if 0 < e.out (line o d ((e.z1 - o.z) / d.z)) then 1 else 0) else 0) -
        (if (e.z0 - o.z) / d.z < T ∧ T < (e.z1 - o.z) / d.z then (if 0 < e.out (line o d T) then 1 else 0) else 0)
      else (if (e.z1 - o.z) / d.z < T then (if 0 < e.out (line o d ((e.z1 - o.z) / d.z)) then (1 : ℤ) else 0) else 0) -
        (if (e.z0 - o.z) / d.z < T then (if 0 < e.out (line o d ((e.z0 - o.z) / d.z)) then 1 else 0) else 0) -
        (if (e.z1 - o.z) / d.z < T ∧ T < (e.z0 - o.z) / d.z then (if 0 < e.out (line o d T) then 1 else 0) else 0)) =
      (if lo < T then (if 0 < e.out (line o d lo) then (1 : ℤ) else 0) else 0) - (if hi < T then (if 0 < e.out (line o d hi) then 1 else 0) else 0) -
        (if lo < T ∧ T < hi then (if 0 < e.out (line o d T) then 1 else 0) else 0) := by
    have hsub : (e.z1 - o.z) / d.z - (e.z0 - o.z) / d.z = d.z * (e.z1 - e.z0) / d.z ^ 2 := by field_simp; ring
    have hsq : 0 < d.z ^ 2 := by positivity
    by_cases hk : 0 < d.z * (e.z1 - e.z0)
    · refine ⟨_, _, ?_, m0, m1, fun t => ?_, n0, n1, by rw [if_pos hk]⟩
      · rw [← sub_pos, hsub]; exact div_pos hk hsq
      · rw [inside_iff hz hdz, if_pos hk]
    · refine ⟨_, _, ?_, m1, m0, fun t => ?_, n1, n0, by rw [if_neg hk]⟩
      · rw [← sub_neg, hsub]
        exact div_neg_of_neg_of_pos (lt_of_le_of_ne (not_lt.mp hk) (mul_ne_zero hdz h0)) hsq
      · rw [inside_iff hz hdz, if_neg hk]
  rw [hgoal]
  rcases lt_or_gt_of_ne nlo with a | a
  · rcases lt_or_gt_of_ne nhi with b | b
    · -- all of the edge
      rw [if_pos a, if_pos b, if_neg (show ¬ (lo < T ∧ T < hi) by rintro ⟨-, h⟩; linarith), sub_zero, ← root_sum g hz onAxis hon lo hi hlt hl hh]
      congr 1
      refine List.map_congr_left fun t _ => ?_
      congr 1
      rw [hin]
      by_cases ht : lo < t ∧ t < hi
      · rw [if_pos (by linarith [ht.2]), if_pos ht]
      · rw [if_neg ht]; split <;> rfl
    · -- a part
      have hTT : e.out (line o d T) ≠ 0 := by
        intro h
        have hi1 : inside e o d T = 1 := by rw [hin, if_pos ⟨a, b⟩]
        unfold inside at hi1
        split at hi1
        · next hc => exact hT _ hc.1 hc.2 ((on_iff hz _).mpr h)
        · simp at hi1
      rw [if_pos a, if_neg (show ¬ hi < T from not_lt.mpr (le_of_lt b)), if_pos (show lo < T ∧ T < hi from ⟨a, b⟩), sub_zero, ← root_sum g hz onAxis hon lo T a hl hTT]
      congr 1
      refine List.map_congr_left fun t _ => ?_
      congr 1
      rw [hin]
      by_cases ht : t < T
      · rw [if_pos ht]
        exact if_congr ⟨fun h => ⟨h.1, ht⟩, fun h => ⟨h.1, by linarith⟩⟩ rfl rfl
      · rw [if_neg ht, if_neg (fun h => ht h.2)]
  · -- none
    have b : T < hi := lt_trans a hlt
    rw [if_neg (show ¬ lo < T from not_lt.mpr (le_of_lt a)), if_neg (show ¬ hi < T from not_lt.mpr b.le),
      if_neg (show ¬ (lo < T ∧ T < hi) from fun h => not_lt.mpr (le_of_lt a) h.1)]
    have : ∀ t, (if e.slope (line o d t) d < 0 then (1 : ℤ) else -1) * (if t < T then inside e o d t else 0) = 0 := by
      intro t
      rw [hin]
      by_cases ht : t < T
      · rw [if_pos ht, if_neg (show ¬ (lo < t ∧ t < hi) from fun h => by linarith [h.1]), mul_zero]
      · rw [if_neg ht, mul_zero]
    simp [this]

/-! ### All edges -/

/-- The orientation as an integer. -/
noncomputable def orient (w : ℝ) : ℤ := if w = 1 then 1 else -1

theorem passes_eq (e : Edge) (q : Vec3 ℝ) : e.passes q = inner e q * (if e.z1 < q.z ∧ q.z < e.z0 then 1 else if e.z0 < q.z ∧ q.z < e.z1 then -1 else 0) := by
  unfold Edge.passes inner
  split
  · rw [one_mul]
  · rw [zero_mul]

theorem time_lt (hd : 0 < d.z) (z T : ℝ) : ((z - o.z) / d.z < T ↔ z < (line o d T).z) ∧ (T < (z - o.z) / d.z ↔ (line o d T).z < z) := by
  constructor
  · rw [div_lt_iff₀ hd]; unfold line; constructor <;> intro h <;> simp at h ⊢ <;> linarith
  · rw [lt_div_iff₀ hd]; unfold line; constructor <;> intro h <;> simp at h ⊢ <;> linarith

theorem time_gt (hd : d.z < 0) (z T : ℝ) : ((z - o.z) / d.z < T ↔ (line o d T).z < z) ∧ (T < (z - o.z) / d.z ↔ z < (line o d T).z) := by
  constructor
  · rw [div_lt_iff_of_neg hd]; unfold line; constructor <;> intro h <;> simp at h ⊢ <;> linarith
  · rw [lt_div_iff_of_neg hd]; unfold line; constructor <;> intro h <;> simp at h ⊢ <;> linarith

theorem signs (hd : d.z ≠ 0) (hz : e.z1 ≠ e.z0) (hw : w = 1 ∨ w = -1) (T : ℝ) (c0 c1 : ℤ) :
    (if w * (e.z1 - e.z0) < 0 then -1 else 1) * (if 0 < d.z * (e.z1 - e.z0) then
      c0 - c1 - (if (e.z0 - o.z) / d.z < T ∧ T < (e.z1 - o.z) / d.z then inner e (line o d T) else 0)
      else c1 - c0 - (if (e.z1 - o.z) / d.z < T ∧ T < (e.z0 - o.z) / d.z then inner e (line o d T) else 0)) =
    (if 0 < d.z * w then 1 else -1) * (c0 - c1) + orient w * e.passes (line o d T) := by
  have h0 : e.z1 - e.z0 ≠ 0 := sub_ne_zero.mpr hz
  rw [passes_eq]
  unfold orient
  have hm : ¬ ((-1 : ℝ) = 1) := by norm_num
  rcases lt_or_gt_of_ne hd with b | b
  · simp only [(time_gt b _ T).1, (time_gt b _ T).2]
    generalize inner e (line o d T) = n
    generalize (line o d T).z = x
    rcases lt_or_gt_of_ne h0 with a | a
    · have k := mul_pos_of_neg_of_neg b a
      have z : ¬ (e.z0 < x ∧ x < e.z1) := by rintro ⟨h1, h2⟩; linarith
      rcases hw with rfl | rfl
      · rw [if_pos (by linarith), if_pos k, if_neg (show ¬ 0 < d.z * 1 by linarith), if_pos rfl, if_neg z]
        simp only [and_comm (a := x < e.z0), and_comm (a := x < e.z1)]
        split <;> ring
      · rw [if_neg (by linarith), if_pos k, if_pos (show 0 < d.z * -1 by linarith), if_neg hm, if_neg z]
        simp only [and_comm (a := x < e.z0), and_comm (a := x < e.z1)]
        split <;> ring
    · have k := mul_neg_of_neg_of_pos b a
      have z : ¬ (e.z1 < x ∧ x < e.z0) := by rintro ⟨h1, h2⟩; linarith
      rcases hw with rfl | rfl
      · rw [if_neg (by linarith), if_neg (not_lt.mpr k.le), if_neg (show ¬ 0 < d.z * 1 by linarith), if_pos rfl, if_neg z]
        simp only [and_comm (a := x < e.z0), and_comm (a := x < e.z1)]
        split <;> ring
      · rw [if_pos (by linarith), if_neg (not_lt.mpr k.le), if_pos (show 0 < d.z * -1 by linarith), if_neg hm, if_neg z]
        simp only [and_comm (a := x < e.z0), and_comm (a := x < e.z1)]
        split <;> ring
  · simp only [(time_lt b _ T).1, (time_lt b _ T).2]
    generalize inner e (line o d T) = n
    generalize (line o d T).z = x
    rcases lt_or_gt_of_ne h0 with a | a
    · have k := mul_neg_of_pos_of_neg b a
      have z : ¬ (e.z0 < x ∧ x < e.z1) := by rintro ⟨h1, h2⟩; linarith
      rcases hw with rfl | rfl
      · rw [if_pos (by linarith), if_neg (not_lt.mpr k.le), if_pos (show 0 < d.z * 1 by linarith), if_pos rfl, if_neg z]
        split <;> ring
      · rw [if_neg (by linarith), if_neg (not_lt.mpr k.le), if_neg (show ¬ 0 < d.z * -1 by linarith), if_neg hm, if_neg z]
        split <;> ring
    · have k := mul_pos b a
      have z : ¬ (e.z1 < x ∧ x < e.z0) := by rintro ⟨h1, h2⟩; linarith
      rcases hw with rfl | rfl
      · rw [if_neg (by linarith), if_pos k, if_pos (show 0 < d.z * 1 by linarith), if_pos rfl, if_neg z]
        split <;> ring
      · rw [if_pos (by linarith), if_pos k, if_neg (show ¬ 0 < d.z * -1 by linarith), if_neg hm, if_neg z]
        split <;> ring

theorem passes_flat (hz : e.z1 = e.z0) (q : Vec3 ℝ) : e.passes q = 0 := by
  rw [passes_eq, hz, if_neg (by rintro ⟨h1, h2⟩; linarith), if_neg (by rintro ⟨h1, h2⟩; linarith), mul_zero]

theorem before_edge (g : Good e o d) (hw : w = 1 ∨ w = -1) (dzn T : ℝ) (n0 : (line o d T).z ≠ e.z0) (n1 : (line o d T).z ≠ e.z1)
    (hT : ∀ s, 0 < s → s < 1 → ¬ e.On s (line o d T)) :
    balance (before T (edgeHits w e dzn o d)) =
    (if 0 < d.z * w then 1 else -1) * (cut T e.r0 e.z0 o d - cut T e.r1 e.z1 o d) + orient w * e.passes (line o d T) := by
  have hp := precision_pos
  have hdz := g.dz
  have m0 : (e.z0 - o.z) / d.z ≠ T := by rintro rfl; exact n0 (line_at hdz _)
  have m1 : (e.z1 - o.z) / d.z ≠ T := by rintro rfl; exact n1 (line_at hdz _)
  obtain ⟨k1, k2, k3, k4, k5⟩ := small_zero g
  unfold edgeHits
  by_cases c1 : |e.r1 - e.r0| < precision ∧ |e.z1 - e.z0| < precision
  · rw [if_pos c1, passes_flat (k3 c1.2), k5 c1.1, k3 c1.2]
    simp [before, balance]
  rw [if_neg c1]
  by_cases c2 : e.r0 < precision ∧ e.r1 < precision
  · rw [if_pos c2]
    have hz : e.z1 ≠ e.z0 := by
      intro h
      exact c1 ⟨by rw [k1 c2.1, k2 c2.2, sub_self, abs_zero]; exact hp, by rw [h, sub_self, abs_zero]; exact hp⟩
    have hs : ∀ z, side 0 z o d = 1 := by
      intro z
      unfold side
      rw [if_pos]
      have := g.axis ((z - o.z) / d.z)
      nlinarith [mul_pos hp hp]
    rw [← signs hdz hz hw]
    have hi : inner e (line o d T) = 1 := by
      unfold inner
      rw [k1 c2.1, k2 c2.2, if_pos]
      have := g.axis T
      nlinarith [mul_pos hp hp]
    rw [hi, k1 c2.1, k2 c2.2]
    unfold cut
    rw [hs, hs]
    have hsub : (e.z1 - o.z) / d.z - (e.z0 - o.z) / d.z = d.z * (e.z1 - e.z0) / d.z ^ 2 := by field_simp; ring
    have hsq : 0 < d.z ^ 2 := by positivity
    have hb : balance (before T []) = 0 := by simp [before, balance]
    rw [hb]
    have h0 : e.z1 - e.z0 ≠ 0 := sub_ne_zero.mpr hz
    rcases lt_or_gt_of_ne (mul_ne_zero hdz h0) with k | k
    · rw [if_neg (show ¬ 0 < d.z * (e.z1 - e.z0) from not_lt.mpr k.le)]
      have hlt : (e.z1 - o.z) / d.z < (e.z0 - o.z) / d.z := by rw [← sub_neg, hsub]; exact div_neg_of_neg_of_pos k hsq
      generalize (e.z0 - o.z) / d.z = t0 at *
      generalize (e.z1 - o.z) / d.z = t1 at *
      rcases lt_or_gt_of_ne m0 with a | a <;> rcases lt_or_gt_of_ne m1 with b | b
      · simp [a, b, not_lt.mpr a.le]
      · linarith
      · simp [a, b, not_lt.mpr a.le]
      · simp [a, b, not_lt.mpr a.le, not_lt.mpr b.le]
    · rw [if_pos k]
      have hlt : (e.z0 - o.z) / d.z < (e.z1 - o.z) / d.z := by rw [← sub_pos, hsub]; exact div_pos k hsq
      generalize (e.z0 - o.z) / d.z = t0 at *
      generalize (e.z1 - o.z) / d.z = t1 at *
      rcases lt_or_gt_of_ne m0 with a | a <;> rcases lt_or_gt_of_ne m1 with b | b
      · simp [a, b, not_lt.mpr b.le]
      · simp [a, b, not_lt.mpr b.le]
      · linarith
      · simp [a, b, not_lt.mpr a.le, not_lt.mpr b.le]
  rw [if_neg c2]
  simp only
  by_cases c3 : |e.z1 - e.z0| > precision
  · have hz : e.z1 ≠ e.z0 := by
      intro h
      rw [h, sub_self, abs_zero] at c3
      linarith
    rw [if_pos c3, before_wall g hz hw _ _ _ T m0 m1 hT, signs hdz hz hw]
    intro h
    rw [Bool.or_eq_true, decide_eq_true_iff, decide_eq_true_iff] at h
    exact h.imp k1 k2
  · have hz := k4 c3
    have hr : e.r1 ≠ e.r0 := by
      intro h
      exact c1 ⟨by rw [h, sub_self, abs_zero]; exact hp, by rw [hz, sub_self, abs_zero]; exact hp⟩
    rw [if_neg c3, passes_flat hz, mul_zero, add_zero]
    obtain ⟨h1, -⟩ := disk_spec g hz hr hw _ rfl _ rfl
    have hbal := balance_disk g hz hr hw
    unfold cut
    rw [hz] at hbal ⊢
    by_cases hlt : (e.z0 - o.z) / d.z < T
    · rw [if_pos hlt, if_pos hlt, ← hbal]
      congr 1
      rw [h1]
      split
      · simp [before, hlt]
      · simp [before]
    · rw [if_neg hlt, if_neg hlt, sub_self, mul_zero, h1]
      split
      · simp [before, hlt, balance]
      · simp [before, balance]

/-- C134, the winding number: for a line clear of tolerances, the crossings before a point that enter, less those that leave, are as many as the
polygon winds around the point, in the sense of its orientation. -/
theorem C134_around_partial (hs : IsIsectSort srt) (h3 : 3 ≤ P.n) (hc : P.Clear o d) (T : ℝ) (hT : P.Off (line o d T)) :
    (((intersections srt P o d).filter fun h => decide (h.distance < T)).countP (·.entering) : ℤ) -
      ((intersections srt P o d).filter fun h => decide (h.distance < T)).countP (fun h => !h.entering) =
    (if P.winding = 1 then 1 else -1) * P.around (line o d T) := by
  have key : balance (before T (intersections srt P o d)) = orient P.winding * P.around (line o d T) := by
    unfold intersections
    have hpm : (before T (srt (hits P o d))).Perm (before T (hits P o d)) := (hs _).1.filter _
    rw [if_neg (not_lt.mpr h3), balance_perm hpm]
    unfold hits Poly.around
    have hfl : ∀ l : List ℕ, (∀ i ∈ l, i < P.n) → balance (before T (l.flatMap fun i =>
        edgeHits P.winding (P.edge i) (P.z ((i + 2) % P.n) - P.z ((i + 1) % P.n)) o d)) =
        (l.map fun i => ((if 0 < d.z * P.winding then 1 else -1) * cut T (P.r i) (P.z i) o d -
          (if 0 < d.z * P.winding then 1 else -1) * cut T (P.r ((i + 1) % P.n)) (P.z ((i + 1) % P.n)) o d)).sum +
        orient P.winding * (l.map fun i => (P.edge i).passes (line o d T)).sum := by
      intro l
      induction l with
      | nil => intro _; simp [before, balance]
      | cons i l ih =>
        intro hl
        have hi := hl i List.mem_cons_self
        have hj : (i + 1) % P.n < P.n := Nat.mod_lt _ (by omega)
        rw [List.flatMap_cons, before_append, balance_append, ih (fun j h => hl j (List.mem_cons_of_mem _ h)),
          before_edge (good hc i hi) (winding_cases P) _ T (hT i hi).1 (hT _ hj).1 (hT i hi).2]
        simp only [List.map_cons, List.sum_cons, Poly.edge]
        ring
    rw [hfl _ (fun i hi => List.mem_range.mp hi),
      cyclic_sum P.n (fun i => (if 0 < d.z * P.winding then 1 else -1) * cut T (P.r i) (P.z i) o d), zero_add]
  have hb : ∀ l : List Isect, balance l = (l.countP (·.entering) : ℤ) - l.countP (fun h => !h.entering) := by
    intro l
    induction l with
    | nil => simp [balance]
    | cons a l ih =>
      have : balance (a :: l) = (if a.entering then 1 else -1) + balance l := by simp [balance]
      rw [this, ih, List.countP_cons, List.countP_cons]
      cases a.entering <;> simp <;> ring
  rw [hb] at key
  exact key

end GPoly
end Siren.Geometry
