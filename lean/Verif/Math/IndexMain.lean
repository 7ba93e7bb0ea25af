import Verif.Math.IndexProps
import Mathlib.Algebra.Order.BigOperators.Group.List
import Mathlib.Tactic.Positivity

set_option autoImplicit false
set_option linter.unusedSectionVars false

/-!
# C124: looking up cells of a table, continued
-/

namespace Siren.Math.Index

open Siren Delaunay

variable {K : Type} [Field K] [LinearOrder K] [IsStrictOrderedRing K]

/-! ## The choice of an indexer -/

/-- The sum of the squared rounding errors of the points. -/
def rounding (eps : K) (x : List K) : K := (x.dropLast.map fun a => eps * |a| * (eps * |a|)).sum

theorem rounding_nonneg (eps : K) (x : List K) : 0 ≤ rounding eps x := by
  apply List.sum_nonneg
  intro b hb
  obtain ⟨a, _, rfl⟩ := List.mem_map.1 hb
  exact mul_self_nonneg _

theorem sum_le (l : List K) (f g : K → K) (h : ∀ a ∈ l, f a ≤ g a) : (l.map f).sum ≤ (l.map g).sum :=
  List.sum_le_sum h

theorem irregular_ge (eps : K) (x : List K) (back : K → K) (he : 0 ≤ eps) (hs : eps * x.length ≤ 1) :
    rounding eps x * (1 - eps * x.length) ≤ metricIrregular eps x back := by
  have h : rounding eps x ≤ (x.dropLast.map fun a => max |a - back a| (eps * |a|) * max |a - back a| (eps * |a|)).sum := by
    apply sum_le
    intro a _
    have h1 : eps * |a| ≤ max |a - back a| (eps * |a|) := le_max_right _ _
    have h0 : 0 ≤ eps * |a| := mul_nonneg he (abs_nonneg a)
    exact mul_le_mul h1 h1 h0 (le_trans h0 h1)
  have := mul_le_mul_of_nonneg_right h (sub_nonneg.2 hs)
  unfold metricIrregular
  simp only
  linarith

theorem irregular_id (eps : K) (x : List K) (he : 0 ≤ eps) : metricIrregular eps x id = rounding eps x * (1 - eps * x.length) := by
  have h : (x.dropLast.map fun a => max |a - id a| (eps * |a|) * max |a - id a| (eps * |a|)) = x.dropLast.map fun a => eps * |a| * (eps * |a|) := by
    apply List.map_congr_left
    intro a _
    have : max |a - id a| (eps * |a|) = eps * |a| := by
      simp only [id, sub_self, abs_zero]
      exact max_eq_right (mul_nonneg he (abs_nonneg a))
    rw [this]
  unfold metricIrregular rounding
  rw [h]
  ring

theorem zip_sum (f : K → K) (l : List K) : (l.zipIdx.map fun p => f p.1).sum = (l.map f).sum := by
  congr 1
  rw [show (fun p : K × Nat => f p.1) = f ∘ Prod.fst from rfl, ← List.map_map, List.zipIdx_map_fst]

theorem regular_ge (eps : K) (x : List K) (grid : Nat → K) (he : 0 ≤ eps) (ht : 0 < thresh eps x) :
    thresh eps x * rounding eps x ≤ metricRegular eps x grid := by
  unfold metricRegular
  rw [le_div_iff₀ ht]
  have e : thresh eps x * rounding eps x * thresh eps x =
      (x.dropLast.zipIdx.map fun p => eps * |p.1| * thresh eps x * (eps * |p.1| * thresh eps x)).sum := by
    rw [zip_sum (fun a => eps * |a| * thresh eps x * (eps * |a| * thresh eps x)), rounding, mul_comm, ← mul_assoc, ← List.sum_map_mul_left]
    congr 1
    apply List.map_congr_left
    intro a _
    ring
  rw [e]
  apply List.sum_le_sum
  intro p _
  have h0 : 0 ≤ eps * |p.1| * thresh eps x := mul_nonneg (mul_nonneg he (abs_nonneg _)) ht.le
  have h1 : eps * |p.1| * thresh eps x ≤ max (eps * |p.1| * thresh eps x) (min |p.1 - grid p.2| (eps * |p.1|)) := le_max_left _ _
  exact mul_le_mul h1 h1 h0 (le_trans h0 h1)

theorem regular_on_grid (eps : K) (x : List K) (grid : Nat → K) (he : 0 ≤ eps) (ht : 0 < thresh eps x)
    (h : ∀ p ∈ x.dropLast.zipIdx, p.1 = grid p.2 ∨ p.1 = 0) : metricRegular eps x grid = thresh eps x * rounding eps x := by
  unfold metricRegular
  rw [div_eq_iff ht.ne']
  have e : thresh eps x * rounding eps x * thresh eps x =
      (x.dropLast.zipIdx.map fun p => eps * |p.1| * thresh eps x * (eps * |p.1| * thresh eps x)).sum := by
    rw [zip_sum (fun a => eps * |a| * thresh eps x * (eps * |a| * thresh eps x)), rounding, mul_comm, ← mul_assoc, ← List.sum_map_mul_left]
    congr 1
    apply List.map_congr_left
    intro a _
    ring
  rw [e]
  congr 1
  apply List.map_congr_left
  intro p hp
  have h0 : 0 ≤ eps * |p.1| * thresh eps x := mul_nonneg (mul_nonneg he (abs_nonneg _)) ht.le
  have hm : max (eps * |p.1| * thresh eps x) (min |p.1 - grid p.2| (eps * |p.1|)) = eps * |p.1| * thresh eps x := by
    apply max_eq_left
    rcases h p hp with h | h
    · rw [← h, sub_self, abs_zero]
      exact le_trans (min_le_left _ _) h0
    · rw [h] at h0 ⊢
      refine le_trans (min_le_right _ _) ?_
      simp
  simp only [hm]

theorem argmin_le_one (a b : WithTop K) (l : List (WithTop K)) (h : ∀ c ∈ l, b ≤ c) : argmin (a :: b :: l) ≤ 1 := by
  unfold argmin
  split
  · omega
  · unfold argmin
    rw [if_pos h]

theorem argmin_one (a b : WithTop K) (l : List (WithTop K)) (hab : b < a) (h : ∀ c ∈ l, b ≤ c) : argmin (a :: b :: l) = 1 := by
  rw [argmin, if_neg]
  · rw [argmin, if_pos h]
  · intro h'
    exact absurd (h' b (by simp)) (not_le.2 hab)

/-- All metrics after the second are at least the smallest that a regular grid can have. -/
theorem select_small (eps : K) (symlogOf : List K → Res (Trans K)) (data : List K) (t : Option (Trans K)) (isSymLog : Bool)
    (he : 0 ≤ eps) (ht : 0 < thresh eps (sorted data)) (hsym : isSymLog = true ∨ ∃ s, symlogOf (sorted data) = .ok s)
    (hgrid : ∀ p ∈ (sorted data).dropLast.zipIdx, p.1 = gridPoint (sorted data).length (low (sorted data)) (high (sorted data)) p.2 ∨ p.1 = 0) :
    ∃ best ≤ 1, (0 < eps → 0 < rounding eps (sorted data) → best = 1) ∧
      select eps symlogOf data t isSymLog = if best = 0 then (Irregular.make data).bind fun s => .ok (.irregular s)
        else (Regular.make data).bind fun s => .ok (.regular s) := by
  obtain ⟨x, hx⟩ : ∃ x, x = sorted data := ⟨_, rfl⟩
  rw [← hx] at ht hsym hgrid ⊢
  have hn : (0 : K) ≤ x.length := by positivity
  have hen : 0 ≤ eps * x.length := mul_nonneg he hn
  have ht' : eps * 100 * x.length < 1 := by unfold thresh at ht; linarith
  have hs : eps * x.length ≤ 1 := by nlinarith
  have hth : thresh eps x ≤ 1 - eps * x.length := by unfold thresh; nlinarith
  have hreg := regular_on_grid eps x _ he ht hgrid
  have b1 : ∀ back, metricRegular eps x (gridPoint x.length (low x) (high x)) ≤ metricIrregular eps x back := by
    intro back
    rw [hreg]
    refine le_trans ?_ (irregular_ge eps x back he hs)
    rw [mul_comm]
    exact mul_le_mul_of_nonneg_left hth (rounding_nonneg eps x)
  have b2 : ∀ grid, metricRegular eps x (gridPoint x.length (low x) (high x)) ≤ metricRegular eps x grid := by
    intro grid
    rw [hreg]
    exact regular_ge eps x grid he ht
  have strict : 0 < eps → 0 < rounding eps x → metricRegular eps x (gridPoint x.length (low x) (high x)) < metricIrregular eps x id := by
    intro he0 hr0
    rw [hreg, irregular_id eps x he, mul_comm]
    apply mul_lt_mul_of_pos_left _ hr0
    unfold thresh
    have : 0 < (x.length : K) := by
      have : x.length ≠ 0 := by
        intro h0
        rw [List.length_eq_zero_iff.1 h0] at hr0
        simp [rounding] at hr0
      positivity
    nlinarith [mul_pos he0 this]
  have fin : ∀ sl : WithTop K × WithTop K,
      ((metricRegular eps x (gridPoint x.length (low x) (high x)) : K) : WithTop K) ≤ sl.1 →
      ((metricRegular eps x (gridPoint x.length (low x) (high x)) : K) : WithTop K) ≤ sl.2 →
      (∀ c ∈ [suppliedIrregular eps x t, suppliedRegular eps x t, sl.1, sl.2],
        ((metricRegular eps x (gridPoint x.length (low x) (high x)) : K) : WithTop K) ≤ c) := by
    intro sl h1 h2 c hc
    simp only [List.mem_cons, List.not_mem_nil, or_false] at hc
    rcases hc with rfl | rfl | rfl | rfl
    · cases t with
      | none => exact le_top
      | some t => exact WithTop.coe_le_coe.2 (b1 _)
    · cases t with
      | none => exact le_top
      | some t => exact WithTop.coe_le_coe.2 (b2 _)
    · exact h1
    · exact h2
  have main : ∀ sl : WithTop K × WithTop K,
      ((metricRegular eps x (gridPoint x.length (low x) (high x)) : K) : WithTop K) ≤ sl.1 →
      ((metricRegular eps x (gridPoint x.length (low x) (high x)) : K) : WithTop K) ≤ sl.2 →
      (if isSymLog then Res.ok ((⊤, ⊤) : WithTop K × WithTop K) else (symlogOf x).bind fun s =>
        .ok (((metricIrregular eps x fun a => s.inv (s.fn a) : K) : WithTop K),
          ((metricRegular eps x fun i => s.inv (gridPoint x.length (s.fn (low x)) (s.fn (high x)) i) : K) : WithTop K))) = .ok sl →
      ∃ best ≤ 1, (0 < eps → 0 < rounding eps x → best = 1) ∧
      select eps symlogOf data t isSymLog = if best = 0 then (Irregular.make data).bind fun s => .ok (.irregular s)
        else (Regular.make data).bind fun s => .ok (.regular s) := by
    intro sl h1 h2 hsl
    have hle := argmin_le_one ((metricIrregular eps x id : K) : WithTop K) _ _ (fin sl h1 h2)
    refine ⟨_, hle, fun he0 hr0 => argmin_one _ _ _ (WithTop.coe_lt_coe.2 (strict he0 hr0)) (fin sl h1 h2), ?_⟩
    unfold select
    simp only [← hx]
    rw [hsl]
    simp only [Res.bind]
    rw [if_pos hle]
  cases hb : isSymLog with
  | true =>
    rw [hb] at main
    exact main (⊤, ⊤) le_top le_top (by simp)
  | false =>
    rw [hb] at main hsym
    obtain ⟨s, hs'⟩ := hsym.resolve_left (by simp)
    refine main (((metricIrregular eps x fun a => s.inv (s.fn a) : K) : WithTop K),
      ((metricRegular eps x fun i => s.inv (gridPoint x.length (s.fn (low x)) (s.fn (high x)) i) : K) : WithTop K)) ?_ ?_
      (by simp only [Bool.false_eq_true, if_false, hs', Res.bind])
    · exact WithTop.coe_le_coe.2 (b1 _)
    · exact WithTop.coe_le_coe.2 (b2 _)

/-! ## C124 -/

/-- For ascending data that are not all equal the irregular indexer returns neighbouring positions whose cell holds the argument. -/
theorem C124_irregular_partial (data : List K) (hs : data.Pairwise (· ≤ ·)) (hl : 2 ≤ data.length) (hr : data.getD 0 0 < data.getD (data.length - 1) 0) :
    ∃ s, Irregular.make data = .ok s ∧ ∀ x, ∃ i : Nat, s.find x = ((i : Int), (i : Int) + 1) ∧ InCell data x i := by
  have h := irregular_spec data hl (by
    rw [sorted_eq _ hs, high_eq, low_eq, not_le, abs_pos]
    linarith)
  rwa [sorted_eq _ hs] at h

/-- Within the data the cell is the one that the argument is above the lower end of and not above the upper end of. -/
theorem C124_strict (data : List K) (s : Irregular K) (hm : Irregular.make data = .ok s) (hs : data.Pairwise (· ≤ ·)) (x : K)
    (h1 : data.getD 0 0 < x) (h2 : x < data.getD (data.length - 1) 0) :
    ∃ i : Nat, s.find x = ((i : Int), (i : Int) + 1) ∧ i + 1 < data.length ∧ data.getD i 0 < x ∧ x ≤ data.getD (i + 1) 0 := by
  unfold Irregular.make at hm
  split at hm
  · cases hm
  · rename_i hl
    simp only at hm
    split at hm
    · cases hm
    · rename_i hr
      cases hm
      simp only [sorted_eq _ hs]
      rw [sorted_eq _ hs] at hr
      obtain ⟨g1, g2, g3⟩ := lowerBound_spec data x hs
      have hpos : 0 < lowerBound data x := by
        by_contra h0
        have h0 : lowerBound data x = 0 := by omega
        have := g3 (by omega)
        rw [h0] at this
        exact absurd h1 (not_lt.2 this)
      have hlt : lowerBound data x < data.length := by
        by_contra h0
        have := g2 (data.length - 1) (by omega)
        exact absurd h2 (not_lt.2 this.le)
      refine ⟨lowerBound data x - 1, ?_, by omega, g2 _ (by omega), ?_⟩
      · unfold Irregular.find
        simp only
        rw [low_eq, high_eq, if_neg (not_le.2 h1), if_neg (not_le.2 h2), not_reversed data (by rwa [sorted_eq _ hs])]
        simp only [Bool.false_eq_true, if_false]
        rw [if_neg (by omega)]
      · rw [show lowerBound data x - 1 + 1 = lowerBound data x by omega]
        exact g3 hlt

/-- Both indexers refuse data with fewer than two points or with all points equal, with an exception, and accept all others. -/
theorem C124_accepts (data : List K) :
    (Irregular.make data = .throws .runtimeError ↔ data.length < 2 ∨ ∀ a ∈ data, ∀ b ∈ data, a = b) ∧
    (Regular.make data = .throws .runtimeError ↔ data.length < 2 ∨ ∀ a ∈ data, ∀ b ∈ data, a = b) ∧
    ((∃ s, Irregular.make data = .ok s) ↔ ¬ (data.length < 2 ∨ ∀ a ∈ data, ∀ b ∈ data, a = b)) ∧
    ((∃ s, Regular.make data = .ok s) ↔ ¬ (data.length < 2 ∨ ∀ a ∈ data, ∀ b ∈ data, a = b)) := by
  have key : 2 ≤ data.length → (|high (sorted data) - low (sorted data)| ≤ 0 ↔ ∀ a ∈ data, ∀ b ∈ data, a = b) := by
    intro hl
    have hlen := sorted_length data
    have hmem : ∀ a, a ∈ sorted data ↔ a ∈ data := fun a => List.mem_insertionSort _
    have hs := sorted_pairwise data
    have hend : ∀ a ∈ sorted data, low (sorted data) ≤ a ∧ a ≤ high (sorted data) := by
      intro a ha
      refine ⟨low_le _ hs a ha, ?_⟩
      obtain ⟨i, hi, rfl⟩ := List.getElem_of_mem ha
      rw [high_eq, ← getD_eq _ _ hi]
      exact getD_mono _ hs _ _ (by omega) (by omega)
    rw [abs_nonpos_iff, sub_eq_zero]
    constructor
    · intro h a ha b hb
      have h1 := hend a ((hmem a).2 ha)
      have h2 := hend b ((hmem b).2 hb)
      rw [h] at h1 h2
      exact le_antisymm (le_trans h1.2 h2.1) (le_trans h2.2 h1.1)
    · intro h
      apply h
      · rw [← hmem, high_eq, getD_eq _ _ (by omega)]
        exact List.getElem_mem _
      · rw [← hmem, low_eq, getD_eq _ _ (by omega)]
        exact List.getElem_mem _
  unfold Irregular.make Regular.make
  by_cases hl : data.length < 2
  · simp [hl]
  · have hk := key (by omega)
    by_cases hr : |high (sorted data) - low (sorted data)| ≤ 0
    · have := hk.1 hr
      simp only [hl, if_false, hr, if_true, false_or]
      simpa using this
    · simp only [hl, if_false, hr, false_or]
      have : ¬ ∀ a ∈ data, ∀ b ∈ data, a = b := fun h => hr (hk.2 h)
      simp [this]

/-- For evenly spaced points the regular indexer returns neighbouring positions whose cell holds the argument, as long as the number of steps
from the first point fits an `int`. -/
theorem C124_regular_partial [FloorRing K] (n : Nat) (a d : K) (hn : 2 ≤ n) (hd : 0 < d) :
    ∃ s, Regular.make (even n a d) = .ok s ∧ ∀ x, -2 ^ 31 ≤ (x - a) / d → (x - a) / d < 2 ^ 31 →
      ∃ i : Nat, s.find x = .ok ((i : Int), (i : Int) + 1) ∧ InCell (even n a d) x i := by
  obtain ⟨s, e, h⟩ := regular_spec n a d hn hd
  refine ⟨s, e, fun x h1 h2 => ?_⟩
  have := h x
  rw [if_neg] at this
  · exact this
  · push Not
    refine ⟨Int.le_floor.2 (by push_cast; norm_num at h1 ⊢; exact h1), Int.floor_lt.2 (by push_cast; norm_num at h2 ⊢; exact h2)⟩

theorem inCell_map (data : List K) (f : K → K) (S : Set K) (hf : StrictMonoOn f S) (hd : ∀ a ∈ data, a ∈ S) (x : K) (hx : x ∈ S) (i : Nat)
    (h : InCell (data.map f) (f x) i) : InCell data x i := by
  obtain ⟨h1, h2, h3⟩ := h
  rw [List.length_map] at h1 h3
  refine ⟨h1, fun hi => ?_, fun hi => ?_⟩
  · have := h2 hi
    rw [getD_eq _ _ (by rw [List.length_map]; omega), List.getElem_map] at this
    rw [getD_eq _ _ (by omega)]
    exact (hf.le_iff_le (hd _ (List.getElem_mem _)) hx).1 this
  · have := h3 hi
    rw [getD_eq _ _ (by rw [List.length_map]; omega), List.getElem_map] at this
    rw [getD_eq _ _ (by omega)]
    exact (hf.le_iff_le hx (hd _ (List.getElem_mem _))).1 this

/-- An indexer of data transformed by an increasing function, asked through the same function, finds the cell of the data. -/
theorem C124_transform_partial [FloorRing K] (data : List K) (t : Trans K) (S : Set K) (hf : StrictMonoOn t.fn S) (hd : ∀ a ∈ data, a ∈ S)
    (hs : data.Pairwise (· ≤ ·)) (hl : 2 ≤ data.length) (hr : data.getD 0 0 < data.getD (data.length - 1) 0) :
    ∃ s, Irregular.make (data.map t.fn) = .ok s ∧
      ∀ x ∈ S, ∃ i : Nat, (Indexer.transformed (.irregular s) t).find x = .ok ((i : Int), (i : Int) + 1) ∧ InCell data x i := by
  have hs' : (data.map t.fn).Pairwise (· ≤ ·) := by
    rw [List.pairwise_map]
    exact hs.imp_of_mem fun ha hb hab => (hf.le_iff_le (hd _ ha) (hd _ hb)).2 hab
  obtain ⟨s, e, h⟩ := C124_irregular_partial (data.map t.fn) hs' (by simpa using hl) (by
    rw [getD_eq _ _ (by rw [List.length_map]; omega), getD_eq _ _ (by rw [List.length_map]; omega), List.getElem_map, List.getElem_map]
    rw [getD_eq _ _ (by omega), getD_eq _ _ (by omega)] at hr
    simp only [List.length_map]
    exact (hf.lt_iff_lt (hd _ (List.getElem_mem _)) (hd _ (List.getElem_mem _))).2 hr)
  refine ⟨s, e, fun x hx => ?_⟩
  obtain ⟨i, h1, h2⟩ := h (t.fn x)
  exact ⟨i, by simp [Indexer.find, h1], inCell_map data t.fn S hf hd x hx i h2⟩

/-- Whatever transform is supplied and whatever the rounding error, the indexer chosen for evenly spaced points finds the right cells. -/
theorem C124_select_partial [FloorRing K] (eps : K) (symlogOf : List K → Res (Trans K)) (t : Option (Trans K)) (isSymLog : Bool) (n : Nat) (a d : K)
    (hn : 2 ≤ n) (hd : 0 < d) (he : 0 ≤ eps) (hsmall : eps * 100 * n < 1)
    (hsym : isSymLog = true ∨ ∃ s, symlogOf (even n a d) = .ok s) :
    ∃ ix, select eps symlogOf (even n a d) t isSymLog = .ok ix ∧ ∀ x, -2 ^ 31 ≤ (x - a) / d → (x - a) / d < 2 ^ 31 →
      ∃ i : Nat, ix.find x = .ok ((i : Int), (i : Int) + 1) ∧ InCell (even n a d) x i := by
  have hs := even_pairwise n a d hd
  have hse := sorted_eq _ hs
  have hends := even_ends n a d hn
  have hn1 : (n : K) - 1 ≠ 0 := by
    have : (1 : K) < n := by exact_mod_cast hn
    linarith
  obtain ⟨best, _, _, hb⟩ := select_small eps symlogOf (even n a d) t isSymLog he
    (by rw [hse]; unfold thresh; rw [even_length]; linarith) (by rwa [hse]) (by
      rw [hse, even_length, hends.1, hends.2]
      intro p hp
      left
      obtain ⟨hp1, hp2⟩ := List.mem_zipIdx' hp
      rw [hp2, List.getElem_dropLast, ← getD_eq _ _ (by rw [even_length]; rw [List.length_dropLast, even_length] at hp1; omega),
        even_getD _ _ _ _ (by rw [List.length_dropLast, even_length] at hp1; omega)]
      unfold gridPoint
      field_simp
      ring)
  rw [hb]
  by_cases h0 : best = 0
  · rw [if_pos h0]
    obtain ⟨s, e, h⟩ := irregular_spec (even n a d) (by rw [even_length]; exact hn) (by rw [hse]; exact even_range n a d hn hd)
    refine ⟨.irregular s, by rw [e]; rfl, fun x _ _ => ?_⟩
    obtain ⟨i, h1, h2⟩ := h x
    exact ⟨i, by rw [Indexer.find, h1], by rwa [hse] at h2⟩
  · rw [if_neg h0]
    obtain ⟨s, e, h⟩ := C124_regular_partial n a d hn hd
    exact ⟨.regular s, by rw [e]; rfl, h⟩

/-! ### Failures -/

/-- Data given in descending order are not recognised: the positions returned refer to the ascending order, and the cell they name in the
data does not hold the argument. -/
theorem C124_descending_fails : ∃ (data : List ℚ) (s : Irregular ℚ) (r : Regular ℚ) (x : ℚ),
    data.Pairwise (· > ·) ∧ Irregular.make data = .ok s ∧ Regular.make data = .ok r ∧
    s.find x = (0, 1) ∧ r.find x = .ok (0, 1) ∧ ¬ (data.getD 1 0 ≤ x ∧ x ≤ data.getD 0 0) :=
  ⟨[2, 1, 0], ⟨[0, 1, 2], 0, 2, false, 3⟩, ⟨0, 2, false, 3⟩, 1 / 2, by decide +kernel, by decide +kernel, by decide +kernel,
    by decide +kernel, by decide +kernel, by decide +kernel⟩

/-- An argument `2 ^ 31` steps above the first point, which the last cell should hold, is converted to an `int` that cannot hold it. -/
theorem C124_far_fails [FloorRing K] (n : Nat) (a d : K) (hn : 2 ≤ n) (hd : 0 < d) :
    ∃ s, Regular.make (even n a d) = .ok s ∧ s.find (a + 2 ^ 31 * d) = .ub := by
  obtain ⟨s, e, h⟩ := regular_spec n a d hn hd
  refine ⟨s, e, ?_⟩
  have := h (a + 2 ^ 31 * d)
  rw [if_pos] at this
  · exact this
  · right
    rw [Int.le_floor, add_sub_cancel_left, mul_div_cancel_right₀ _ hd.ne']
    norm_num

/-- A point at zero does not count in the choice, so that a regular indexer is chosen for points that are not evenly spaced: -1/2 lies between
-3 and 0, but the cell returned is that from 0 to 1. -/
theorem C124_select_fails (eps : ℚ) (symlogOf : List ℚ → Res (Trans ℚ)) (he : 0 < eps) (hsmall : eps * 400 < 1)
    (hsym : ∃ s, symlogOf [-3, 0, 1, 3] = .ok s) :
    ∃ ix, select eps symlogOf [-3, 0, 1, 3] none false = .ok ix ∧ ix.find (-1 / 2) = .ok (1, 2) := by
  have hs : sorted ([-3, 0, 1, 3] : List ℚ) = [-3, 0, 1, 3] := by decide +kernel
  obtain ⟨best, _, h1, hb⟩ := select_small eps symlogOf [-3, 0, 1, 3] none false he.le
    (by rw [hs]; unfold thresh; norm_num; linarith) (by rw [hs]; exact Or.inr hsym) (by
      rw [hs]
      decide +kernel)
  have hone : best = 1 := h1 he (by
    rw [hs]
    simp only [rounding, List.dropLast_cons_cons, List.dropLast_singleton, List.map_cons, List.map_nil, List.sum_cons, List.sum_nil]
    norm_num
    positivity)
  rw [hb, if_neg (by omega)]
  have e : Regular.make ([-3, 0, 1, 3] : List ℚ) = .ok ⟨-3, 6, false, 4⟩ := by decide +kernel
  refine ⟨.regular ⟨-3, 6, false, 4⟩, by rw [e]; rfl, ?_⟩
  have : (⟨-3, 6, false, 4⟩ : Regular ℚ).find (-1 / 2) = .ok (1, 2) := by decide +kernel
  exact this

/-! ### Cases -/

example : ([-2, 1, 1, 5] : List ℚ).Pairwise (· ≤ ·) ∧
    (∃ s, Irregular.make ([-2, 1, 1, 5] : List ℚ) = .ok s ∧ s.find 3 = (2, 3) ∧ s.find 1 = (0, 1) ∧ s.find (-7) = (0, 1) ∧ s.find 9 = (2, 3)) :=
  ⟨by decide +kernel, ⟨[-2, 1, 1, 5], -2, 5, false, 4⟩, by decide +kernel⟩

example : even 4 (1 : ℚ) (1 / 2) = [1, 3 / 2, 2, 5 / 2] ∧
    (∃ s, Regular.make (even 4 (1 : ℚ) (1 / 2)) = .ok s ∧ s.find (7 / 4) = .ok (1, 2) ∧ s.find 0 = .ok (0, 1) ∧ s.find 9 = .ok (2, 3)) :=
  ⟨by decide +kernel, ⟨1, 3 / 2, false, 4⟩, by decide +kernel⟩

end Siren.Math.Index
