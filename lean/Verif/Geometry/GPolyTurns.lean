import Verif.Geometry.GPolyWind
import Mathlib.Data.Set.Finite.Lattice
import Mathlib.Order.Interval.Set.Infinite
import Mathlib.Data.Set.Finite.Range

set_option autoImplicit false
set_option linter.unusedSectionVars false
set_option linter.unusedSimpArgs false

/-!
# Crossings of simple polygons come in turns
-/

namespace Siren.Geometry
namespace GPoly

open Siren

variable {e : Edge} {o d : Vec3 ℝ} {w : ℝ} {P : Poly} {srt : List Isect → List Isect}

/-- A simple polygon: edges do not meet inside, and it winds once around the points inside and not around the others. -/
structure Poly.Simple (P : Poly) : Prop where
  apart : ∀ i < P.n, ∀ j < P.n, i ≠ j → ∀ s s' q, 0 < s → s < 1 → 0 < s' → s' < 1 → (P.edge i).On s q → ¬ (P.edge j).On s' q
  around : ∀ q, P.Off q → (if P.winding = 1 then 1 else -1) * P.around q = 0 ∨ (if P.winding = 1 then 1 else -1) * P.around q = 1

/-! ### Lists -/

theorem alternates_of_prefix (l : List Isect) (b : ℤ) (h : ∀ k ≤ l.length, b + balance (l.take k) = 0 ∨ b + balance (l.take k) = 1)
    (h0 : b + balance l = 0) : Alternates (decide (b = 1)) l := by
  induction l generalizing b with
  | nil =>
    simp only [balance, List.map_nil, List.sum_nil, add_zero] at h0
    subst h0
    simp [Alternates]
  | cons a l ih =>
    have hc : ∀ l', balance (a :: l') = (if a.entering then 1 else -1) + balance l' := fun l' => by simp [balance]
    have hb := h 0 (Nat.zero_le _)
    simp only [List.take_zero, balance, List.map_nil, List.sum_nil, add_zero] at hb
    have h1 := h 1 (by simp)
    rw [List.take_succ_cons, List.take_zero, hc] at h1
    simp only [balance, List.map_nil, List.sum_nil, add_zero] at h1
    have ih' := ih (b + (if a.entering then 1 else -1)) (fun k hk => by
      have := h (k + 1) (by simpa using hk)
      rw [List.take_succ_cons, hc] at this
      rwa [add_assoc]) (by rw [hc] at h0; rwa [add_assoc])
    unfold Alternates
    cases he : a.entering with
    | true =>
      rw [he] at ih' h1
      simp only [if_true] at ih' h1
      have hb0 : b = 0 := by omega
      subst hb0
      exact ⟨by simp, by simpa using ih'⟩
    | false =>
      rw [he] at ih' h1
      simp only [Bool.false_eq_true, if_false] at ih' h1
      have hb0 : b = 1 := by omega
      subst hb0
      exact ⟨by simp, by simpa using ih'⟩

/-- A prefix of an ordered list is what lies before some point outside a finite set. -/
theorem prefix_before (l : List Isect) (hl : l.Pairwise (fun a b => a.distance < b.distance)) (S : Set ℝ) (hS : S.Finite) (k : ℕ) :
    ∃ T, T ∉ S ∧ before T l = l.take k := by
  have hsplit := List.take_append_drop k l
  have hp : (l.take k ++ l.drop k).Pairwise (fun a b => a.distance < b.distance) := by rw [hsplit]; exact hl
  rw [List.pairwise_append] at hp
  obtain ⟨p1, p2, p3⟩ := hp
  -- a lower and an upper end
  obtain ⟨lo, hi, hlt, h1, h2⟩ : ∃ lo hi : ℝ, lo < hi ∧ (∀ a ∈ l.take k, a.distance ≤ lo) ∧ (∀ b ∈ l.drop k, hi ≤ b.distance) := by
    have low : ∀ m : List Isect, m.Pairwise (fun a b => a.distance < b.distance) → m ≠ [] → ∃ x ∈ m, ∀ a ∈ m, a.distance ≤ x.distance := by
      intro m
      induction m with
      | nil => intro _ h; exact absurd rfl h
      | cons a m ih =>
        intro hm _
        rw [List.pairwise_cons] at hm
        by_cases hn : m = []
        · subst hn; exact ⟨a, by simp, by simp⟩
        · obtain ⟨x, hx, hx'⟩ := ih hm.2 hn
          refine ⟨x, List.mem_cons_of_mem _ hx, fun y hy => ?_⟩
          rcases List.mem_cons.mp hy with rfl | hy
          · exact (hm.1 x hx).le
          · exact hx' y hy
    have high : ∀ m : List Isect, m.Pairwise (fun a b => a.distance < b.distance) → m ≠ [] → ∃ x ∈ m, ∀ a ∈ m, x.distance ≤ a.distance := by
      intro m hm hn
      cases m with
      | nil => exact absurd rfl hn
      | cons a m =>
        rw [List.pairwise_cons] at hm
        refine ⟨a, by simp, fun y hy => ?_⟩
        rcases List.mem_cons.mp hy with rfl | hy
        · exact le_rfl
        · exact (hm.1 y hy).le
    by_cases e1 : l.take k = [] <;> by_cases e2 : l.drop k = []
    · exact ⟨0, 1, by norm_num, by simp [e1], by simp [e2]⟩
    · obtain ⟨y, hy, hy'⟩ := high _ p2 e2
      exact ⟨y.distance - 1, y.distance, by linarith, by simp [e1], hy'⟩
    · obtain ⟨x, hx, hx'⟩ := low _ p1 e1
      exact ⟨x.distance, x.distance + 1, by linarith, hx', by simp [e2]⟩
    · obtain ⟨x, hx, hx'⟩ := low _ p1 e1
      obtain ⟨y, hy, hy'⟩ := high _ p2 e2
      exact ⟨x.distance, y.distance, p3 x hx y hy, hx', hy'⟩
  obtain ⟨T, hT, hTS⟩ := ((Set.Ioo_infinite hlt).sdiff hS).nonempty
  refine ⟨T, hTS, ?_⟩
  conv_lhs => rw [← hsplit]
  rw [before_append]
  have b1 : before T (l.take k) = l.take k := by
    unfold before
    rw [List.filter_eq_self]
    intro a ha
    rw [decide_eq_true_iff]
    linarith [h1 a ha, hT.1]
  have b2 : before T (l.drop k) = [] := by
    unfold before
    rw [List.filter_eq_nil_iff]
    intro a ha
    rw [decide_eq_true_iff]
    linarith [h2 a ha, hT.2]
  rw [b1, b2, List.append_nil]

/-! ### Finitely many points are not clear -/

theorem quadratic_finite (A B C h : ℝ) (hne : ∃ x, A * (x - h) ^ 2 + B * (x - h) + C ≠ 0) : {x : ℝ | A * (x - h) ^ 2 + B * (x - h) + C = 0}.Finite := by
  by_cases hA : A = 0
  · subst hA
    by_cases hB : B = 0
    · subst hB
      obtain ⟨x, hx⟩ := hne
      simp only [zero_mul, zero_add] at hx
      simp [hx]
    · refine (Set.finite_singleton (-C / B + h)).subset ?_
      intro x hx
      simp only [Set.mem_ofPred_eq, zero_mul, zero_add] at hx
      rw [Set.mem_singleton_iff, ← sub_eq_iff_eq_add, eq_div_iff hB]
      linarith
  · refine (Set.toFinite {(Real.sqrt (B ^ 2 - 4 * A * C) - B) / (2 * A) + h, (-Real.sqrt (B ^ 2 - 4 * A * C) - B) / (2 * A) + h}).subset ?_
    intro x hx
    simp only [Set.mem_ofPred_eq] at hx
    have hsq : (2 * A * (x - h) + B) ^ 2 = B ^ 2 - 4 * A * C := by linear_combination 4 * A * hx
    have hnn : 0 ≤ B ^ 2 - 4 * A * C := by rw [← hsq]; positivity
    rw [← Real.sq_sqrt hnn, sq_eq_sq_iff_eq_or_eq_neg] at hsq
    rw [Set.mem_insert_iff, Set.mem_singleton_iff, ← sub_eq_iff_eq_add, ← sub_eq_iff_eq_add, eq_div_iff (by simpa using hA), eq_div_iff (by simpa using hA)]
    rcases hsq with h | h
    · left; linarith
    · right; linarith

theorem off_finite (hc : P.Clear o d) : {T : ℝ | ¬ P.Off (line o d T)}.Finite := by
  have hsub : {T : ℝ | ¬ P.Off (line o d T)} ⊆ ⋃ i ∈ Finset.range P.n, ({(P.z i - o.z) / d.z} ∪
      {T | (P.edge i).z1 ≠ (P.edge i).z0 ∧ (P.edge i).out (line o d T) = 0}) := by
    intro T hT
    simp only [Set.mem_ofPred_eq, Poly.Off] at hT
    push Not at hT
    obtain ⟨i, hi, hT⟩ := hT
    have hdz := (good hc i hi).dz
    simp only [Set.mem_iUnion, Finset.mem_range]
    refine ⟨i, hi, ?_⟩
    have hzt : ∀ z, (line o d T).z = z → T = (z - o.z) / d.z := by
      intro z h
      rw [eq_div_iff hdz, ← h]; unfold line; ring
    by_cases hz : (line o d T).z = P.z i
    · left; exact hzt _ hz
    · obtain ⟨s, s0, s1, hon⟩ := hT hz
      right
      by_cases hzz : (P.edge i).z1 = (P.edge i).z0
      · exfalso
        have := hon.1
        rw [hzz, sub_self, mul_zero, add_zero] at this
        exact hz this
      · refine ⟨hzz, ?_⟩
        have h0 : (P.edge i).z1 - (P.edge i).z0 ≠ 0 := sub_ne_zero.mpr hzz
        have hs : s = ((line o d T).z - (P.edge i).z0) / ((P.edge i).z1 - (P.edge i).z0) := by rw [hon.1]; field_simp; ring
        rw [hs] at hon
        exact (on_iff hzz _).mp hon
  refine Set.Finite.subset ?_ hsub
  refine Set.Finite.biUnion (Finset.finite_toSet _) fun i hi => ?_
  have hi : i < P.n := by simpa using hi
  have g := good hc i hi
  refine (Set.finite_singleton _).union ?_
  by_cases hzz : (P.edge i).z1 = (P.edge i).z0
  · simp [hzz]
  · have := quadratic_finite ((P.edge i).A o d) ((P.edge i).B o d) ((P.edge i).C o d) (shift o d)
      ⟨((P.edge i).z0 - o.z) / d.z, by rw [← out_eq, out_at0 hzz g.dz, sub_ne_zero]; exact g.v0 _ (line_at g.dz _)⟩
    refine this.subset fun T hT => ?_
    simp only [Set.mem_ofPred_eq] at hT ⊢
    rw [← out_eq]
    exact hT.2

/-! ### Crossings at different distances -/

theorem roots_distinct (onAxis : Bool) : (roots e onAxis o d).Pairwise (· ≠ ·) := by
  have hp := precision_pos
  unfold roots
  split
  · next hA =>
    have hA0 : e.A o d ≠ 0 := by intro h; rw [h, abs_zero] at hA; linarith
    split
    · next hD =>
      have hs0 := Real.sqrt_pos.mpr hD
      simp only [List.pairwise_cons, List.mem_cons, List.not_mem_nil, or_false, forall_eq, List.Pairwise.nil, and_true, IsEmpty.forall_iff, implies_true]
      intro h
      rw [add_left_inj, div_left_inj' (by simpa using hA0)] at h
      linarith
    · split <;> simp
  · split <;> simp

theorem edge_distinct (g : Good e o d) (hw : w = 1 ∨ w = -1) (dzn : ℝ) : (edgeHits w e dzn o d).Pairwise (fun a b => a.distance ≠ b.distance) := by
  have hp := precision_pos
  obtain ⟨k1, k2, k3, k4, k5⟩ := small_zero g
  unfold edgeHits
  split
  · simp
  · next c1 =>
    split
    · simp
    · simp only
      split
      · next c3 =>
        have hz : e.z1 ≠ e.z0 := by
          intro h
          rw [h, sub_self, abs_zero] at c3
          linarith
        have hspec := roots_spec g hz (decide (e.r0 < precision) || decide (e.r1 < precision)) (by
          intro h
          rw [Bool.or_eq_true, decide_eq_true_iff, decide_eq_true_iff] at h
          exact h.imp k1 k2)
        have hdist : ∀ claim, ∀ t ∈ roots e (decide (e.r0 < precision) || decide (e.r1 < precision)) o d, ∀ h ∈ tryHit w e claim o d t, h.distance = t := by
          intro claim t ht h hh
          obtain ⟨h1, h2⟩ := (hspec t).mp ht
          rw [tryHit_root hz g.h0 g.h1 hw claim g.axis g.clear.start g.v0 g.v1 t h1 h2] at hh
          split at hh
          · rw [List.mem_singleton] at hh; rw [hh]
          · simp at hh
        rw [List.pairwise_flatMap]
        constructor
        · intro t ht
          obtain ⟨h1, h2⟩ := (hspec t).mp ht
          rw [tryHit_root hz g.h0 g.h1 hw _ g.axis g.clear.start g.v0 g.v1 t h1 h2]
          split <;> simp
        · refine (roots_distinct _).imp_of_mem ?_
          intro a b ha hb hab x hx y hy
          rw [hdist _ a ha x hx, hdist _ b hb y hy]
          exact hab
      · next c3 =>
        have hz := k4 c3
        have hr : e.r1 ≠ e.r0 := by
          intro h
          exact c1 ⟨by rw [h, sub_self, abs_zero]; exact hp, by rw [hz, sub_self, abs_zero]; exact hp⟩
        obtain ⟨h1, -⟩ := disk_spec g hz hr hw _ rfl _ rfl
        rw [h1]
        split <;> simp

/-- C134, turns: for a simple polygon and a line clear of tolerances, the crossings have different distances and enter and leave in turn. -/
theorem C134_turns_partial (hs : IsIsectSort srt) (h3 : 3 ≤ P.n) (hc : P.Clear o d) (hp : P.Simple) :
    (intersections srt P o d).Pairwise (fun a b => a.distance < b.distance) ∧ Alternates false (intersections srt P o d) := by
  have hne : (intersections srt P o d).Pairwise (fun a b => a.distance ≠ b.distance) := by
    have h1 : (hits P o d).Pairwise (fun a b => a.distance ≠ b.distance) := by
      unfold hits
      rw [List.pairwise_flatMap]
      constructor
      · intro i hi
        exact edge_distinct (good hc i (List.mem_range.mp hi)) (winding_cases P) _
      · refine (List.nodup_range (n := P.n)).imp_of_mem ?_
        intro i j hi hj hij x hx y hy hxy
        have hi := List.mem_range.mp hi
        have hj := List.mem_range.mp hj
        obtain ⟨s, t, a1, a2, a3, -, a4, -⟩ := (edge_mem (good hc i hi) (winding_cases P) _ x).mp hx
        obtain ⟨s', t', b1, b2, b3, -, b4, -⟩ := (edge_mem (good hc j hj) (winding_cases P) _ y).mp hy
        rw [a4, b4] at hxy
        rw [← hxy] at b3
        exact hp.apart i hi j hj hij s s' _ a1 a2 b1 b2 a3 b3
    unfold intersections
    rw [if_neg (not_lt.mpr h3)]
    exact ((hs _).1.pairwise_iff (fun h => h.symm)).mpr h1
  have hlt : (intersections srt P o d).Pairwise (fun a b => a.distance < b.distance) := by
    refine ((C134_crossings_partial hs h3 hc).1.and hne).imp ?_
    rintro a b ⟨h1, h2⟩
    exact lt_of_le_of_ne h1 h2
  refine ⟨hlt, ?_⟩
  have hb : ∀ l : List Isect, balance l = (l.countP (·.entering) : ℤ) - l.countP (fun h => !h.entering) := by
    intro l
    induction l with
    | nil => simp [balance]
    | cons a l ih =>
      have : balance (a :: l) = (if a.entering then 1 else -1) + balance l := by simp [balance]
      rw [this, ih, List.countP_cons, List.countP_cons]
      cases a.entering <;> simp <;> ring
  have := alternates_of_prefix (intersections srt P o d) 0 (fun k _ => by
    obtain ⟨T, hT, hT'⟩ := prefix_before _ hlt _ (off_finite hc) k
    have hoff : P.Off (line o d T) := by simpa using hT
    rw [← hT', zero_add, hb]
    have := C134_around_partial hs h3 hc T hoff
    unfold before
    rw [this]
    exact hp.around _ hoff) (by rw [zero_add, hb, C134_balanced_partial hs h3 hc, sub_self])
  simpa using this

/-! ### Tips -/

/-- C134, tips: a line through the tip in which an edge ends on the axis crosses that edge once, there, and enters if it
    moves against the side of the tip. -/
theorem C134_tip (hw : w = 1 ∨ w = -1) (hz : precision < |e.z1 - e.z0|) (h0 : precision < e.r0) (h1 : e.r1 = 0) (hd : d.z ≠ 0)
    (t : ℝ) (ht : t ≤ 0 ∨ precision ≤ t) (htip : line o d t = ⟨0, 0, e.z1⟩) (hA : precision < |e.A o d|) (dzn : ℝ) :
    edgeHits w e dzn o d = [⟨t, 0, decide (w * d.z < 0), ⟨0, 0, e.z1⟩⟩] := by
  have hp := precision_pos
  have hzz : e.z1 - e.z0 ≠ 0 := by intro h; rw [h, abs_zero] at hz; linarith
  have hA0 : e.A o d ≠ 0 := by intro h; rw [h, abs_zero] at hA; linarith
  have hr : e.a + e.b * e.z1 = 0 := by
    have := a_add (e := e) (sub_ne_zero.mp hzz) 1
    rw [one_mul, one_mul, h1] at this
    rw [show e.z1 = e.z0 + (e.z1 - e.z0) by ring, this]; ring
  have hout := out_eq (e := e) (o := o) (d := d) t
  have hsl := slope_eq (e := e) (o := o) (d := d) t
  rw [htip] at hout hsl
  have h3 : e.out ⟨0, 0, e.z1⟩ = 0 := by unfold Edge.out; rw [hr]; ring
  have h4 : e.slope ⟨0, 0, e.z1⟩ d = 0 := by unfold Edge.slope; simp only [hr]; ring
  rw [h3] at hout
  rw [h4] at hsl
  have hdet : e.det o d = 0 := by
    unfold Edge.det
    linear_combination (-(2 * e.A o d * (t - shift o d) + e.B o d)) * hsl + 4 * e.A o d * hout
  have hroot : -e.B o d / (2 * e.A o d) + shift o d = t := by
    rw [← eq_sub_iff_add_eq, div_eq_iff (by simpa using hA0)]
    linear_combination hsl
  have hsnap : snap t = t := by
    unfold snap
    rw [if_neg]
    rintro ⟨a, b⟩
    rcases ht with h | h <;> linarith
  unfold edgeHits
  rw [if_neg (show ¬ (|e.r1 - e.r0| < precision ∧ |e.z1 - e.z0| < precision) from fun h => by linarith [h.2]),
    if_neg (show ¬ (e.r0 < precision ∧ e.r1 < precision) from fun h => by linarith [h.1])]
  simp only
  rw [if_pos hz]
  have hr1 : e.r1 < precision := by rw [h1]; exact hp
  have hroots : roots e (decide (e.r0 < precision) || decide (e.r1 < precision)) o d = [t] := by
    unfold roots
    rw [if_pos hA, hdet, if_neg (lt_irrefl 0), if_pos, hroot]
    refine ⟨by simp [hr1], ?_⟩
    have : 0 < |e.A o d| * precision := mul_pos (by linarith) hp
    linarith
  rw [hroots, List.flatMap_cons, List.flatMap_nil, List.append_nil]
  unfold tryHit
  simp only [hsnap, htip, hr, div_self hzz, hr1, decide_true, Bool.or_true, if_true]
  rw [if_neg (show ¬ ((1 : ℝ) < 0 ∨ (1 : ℝ) > 1) by norm_num), if_neg (show ¬ (0 : ℝ) < -precision by linarith), if_pos hp]
  have hb : e.b = -e.r0 / (e.z1 - e.z0) := by unfold Edge.b; rw [h1]; ring
  have hr0 : 0 < e.r0 := by linarith
  have : (if decide (w * (e.z1 - e.z0) < 0) = true then !decide (e.b * d.z > 0) else decide (e.b * d.z > 0)) = decide (w * d.z < 0) := by
    have hbd : e.b * d.z > 0 ↔ d.z * (e.z1 - e.z0) < 0 := by
      have hsq : 0 < (e.z1 - e.z0) ^ 2 := by positivity
      have : e.b * d.z = e.r0 * (-(d.z * (e.z1 - e.z0))) / (e.z1 - e.z0) ^ 2 := by rw [hb]; field_simp
      rw [this, gt_iff_lt, lt_div_iff₀ hsq, zero_mul, mul_pos_iff_of_pos_left hr0, neg_pos]
    simp only [hbd]
    rcases lt_or_gt_of_ne hzz with h | h <;> rcases lt_or_gt_of_ne hd with h' | h' <;> rcases hw with rfl | rfl
    · rw [if_pos (by simpa using h), decide_eq_false (not_lt.mpr (mul_nonneg_of_nonpos_of_nonpos h'.le h.le)), decide_eq_true (by linarith)]; rfl
    · rw [if_neg (by simp; linarith), decide_eq_false (not_lt.mpr (mul_nonneg_of_nonpos_of_nonpos h'.le h.le)), decide_eq_false (by linarith)]
    · rw [if_pos (by simpa using h), decide_eq_true (mul_neg_of_pos_of_neg h' h), decide_eq_false (by linarith)]; rfl
    · rw [if_neg (by simp; linarith), decide_eq_true (mul_neg_of_pos_of_neg h' h), decide_eq_true (by linarith)]
    · rw [if_neg (by simp; linarith), decide_eq_true (mul_neg_of_neg_of_pos h' h), decide_eq_true (by linarith)]
    · rw [if_pos (by simp; linarith), decide_eq_true (mul_neg_of_neg_of_pos h' h), decide_eq_false (by linarith)]; rfl
    · rw [if_neg (by simp; linarith), decide_eq_false (not_lt.mpr (mul_nonneg h'.le h.le)), decide_eq_false (by linarith)]
    · rw [if_pos (by simp; linarith), decide_eq_false (not_lt.mpr (mul_nonneg h'.le h.le)), decide_eq_true (by linarith)]; rfl
  rw [this]

/-- A line down into the tip of a cone. -/
example (dzn : ℝ) : edgeHits 1 ⟨1, 0, 0, 1⟩ dzn ⟨0, 0, 2⟩ ⟨0, 0, -1⟩ = [⟨1, 0, true, ⟨0, 0, 1⟩⟩] := by
  have := C134_tip (w := 1) (e := ⟨1, 0, 0, 1⟩) (o := ⟨0, 0, 2⟩) (d := ⟨0, 0, -1⟩) (Or.inl rfl) (by unfold precision; norm_num)
    (by unfold precision; norm_num) rfl (by norm_num) 1 (by right; unfold precision; norm_num) (by unfold line; norm_num)
    (by unfold Edge.A Edge.b precision; norm_num) dzn
  rw [this]
  norm_num

end GPoly
end Siren.Geometry
