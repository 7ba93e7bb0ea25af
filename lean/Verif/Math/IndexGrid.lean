import Verif.Math.IndexMain

/-!
# C124: the grid indexer

`Grid.find` returns four rows of the table. `Brackets` and `FirstRow` say in terms of the table what these must be.
-/

set_option autoImplicit false
set_option linter.unusedSectionVars false

namespace Siren.Math.Index

variable {K : Type} [Field K] [LinearOrder K] [IsStrictOrderedRing K]

/-- `lo` and `hi` are neighbours among the values `v`, and `p` lies between them or, beyond the ends, next to them. -/
def Brackets (v : List K) (p lo hi : K) : Prop :=
  lo ∈ v ∧ hi ∈ v ∧ lo < hi ∧ (∀ a ∈ v, a ≤ lo ∨ hi ≤ a) ∧ (lo ≤ p ∨ ∀ a ∈ v, lo ≤ a) ∧ (p ≤ hi ∨ ∀ a ∈ v, a ≤ hi)

/-- `k` is the first row with coordinates `a` and `b`. -/
def FirstRow (x y : List K) (a b : K) (k : Nat) : Prop :=
  k < x.length ∧ x.getD k 0 = a ∧ y.getD k 0 = b ∧ ∀ k' < x.length, x.getD k' 0 = a → y.getD k' 0 = b → k ≤ k'

theorem mem_unique (v : List K) (a : K) : a ∈ unique v ↔ a ∈ v := by
  unfold unique sorted
  rw [List.mem_insertionSort, List.mem_dedup]

theorem unique_nodup (v : List K) : (unique v).Nodup := by
  unfold unique sorted
  exact (List.perm_insertionSort _ _).nodup_iff.2 (List.nodup_dedup v)

theorem unique_pairwise (v : List K) : (unique v).Pairwise (· ≤ ·) := sorted_pairwise _

theorem unique_lt (v : List K) (i j : Nat) (hij : i < j) (hj : j < (unique v).length) : (unique v).getD i 0 < (unique v).getD j 0 := by
  refine lt_of_le_of_ne (getD_mono _ (unique_pairwise v) _ _ hij.le hj) fun h => ?_
  rw [getD_eq _ _ (by omega), getD_eq _ _ hj] at h
  exact absurd ((unique_nodup v).getElem_inj_iff.1 h) (by omega)

theorem inCell_brackets (v : List K) (p : K) (i : Nat) (h : InCell (unique v) p i) :
    Brackets v p ((unique v).getD i 0) ((unique v).getD (i + 1) 0) := by
  obtain ⟨h1, h2, h3⟩ := h
  have hm : ∀ j < (unique v).length, (unique v).getD j 0 ∈ v := by
    intro j hj
    rw [← mem_unique, getD_eq _ _ hj]
    exact List.getElem_mem _
  have hall : ∀ a ∈ v, ∃ j < (unique v).length, (unique v).getD j 0 = a := by
    intro a ha
    obtain ⟨j, hj, e⟩ := List.getElem_of_mem ((mem_unique v a).2 ha)
    exact ⟨j, hj, by rw [getD_eq _ _ hj, e]⟩
  have mono := fun i j (hij : i ≤ j) hj => getD_mono _ (unique_pairwise v) i j hij hj
  refine ⟨hm i (by omega), hm _ h1, unique_lt v _ _ (by omega) h1, ?_, ?_, ?_⟩
  · intro a ha
    obtain ⟨j, hj, rfl⟩ := hall a ha
    by_cases hji : j ≤ i
    · exact Or.inl (mono _ _ hji (by omega))
    · exact Or.inr (mono _ _ (by omega) hj)
  · by_cases hi : 0 < i
    · exact Or.inl (h2 hi)
    · right
      intro a ha
      obtain ⟨j, hj, rfl⟩ := hall a ha
      exact mono _ _ (by omega) hj
  · by_cases hi : i + 2 < (unique v).length
    · exact Or.inl (h3 hi)
    · right
      intro a ha
      obtain ⟨j, hj, rfl⟩ := hall a ha
      exact mono _ _ (by omega) h1

theorem find_range (n : Nat) (p : Nat → Bool) :
    (∀ k, (List.range n).find? p = some k → k < n ∧ p k = true ∧ ∀ k' < n, p k' = true → k ≤ k') ∧
    ((List.range n).find? p = none → ∀ k < n, p k = false) := by
  constructor
  · intro k h
    rw [List.find?_range_eq_some] at h
    obtain ⟨h1, h2, h3⟩ := h
    refine ⟨List.mem_range.1 h2, h1, fun k' _ hp => ?_⟩
    by_contra hlt
    have := h3 k' (by omega)
    rw [hp] at this
    cases this
  · intro h k hk
    rw [List.find?_eq_none] at h
    simpa using h k (List.mem_range.2 hk)

theorem idxOf_iff (v : List K) (a : K) (_ : a ∈ v) (i : Nat) (hi : i < (unique v).length) :
    (((unique v).idxOf a : Nat) : Int) = (i : Int) ↔ a = (unique v).getD i 0 := by
  rw [getD_eq _ _ hi]
  constructor
  · intro h
    have h : (unique v).idxOf a = i := by exact_mod_cast h
    subst h
    rw [List.getElem_idxOf]
  · intro h
    rw [h, (unique_nodup v).idxOf_getElem]

theorem rows_spec (x y : List K) (hl : x.length ≤ y.length) (i j : Nat) (hi : i < (unique x).length) (hj : j < (unique y).length) :
    (∀ k, rowsOf (unique x) (unique y) x y ((i : Int), (j : Int)) = some k ↔ FirstRow x y ((unique x).getD i 0) ((unique y).getD j 0) k) := by
  have hp : ∀ k < x.length, (decide ((((unique x).idxOf (x.getD k 0) : Nat) : Int) = (i : Int) ∧ (((unique y).idxOf (y.getD k 0) : Nat) : Int) = (j : Int)) = true ↔
      x.getD k 0 = (unique x).getD i 0 ∧ y.getD k 0 = (unique y).getD j 0) := by
    intro k hk
    rw [decide_eq_true_iff, idxOf_iff x _ (by rw [getD_eq _ _ hk]; exact List.getElem_mem _) i hi,
      idxOf_iff y _ (by rw [getD_eq _ _ (by omega)]; exact List.getElem_mem _) j hj]
  have hr := find_range x.length fun k => decide ((((unique x).idxOf (x.getD k 0) : Nat) : Int) = (i : Int) ∧ (((unique y).idxOf (y.getD k 0) : Nat) : Int) = (j : Int))
  have fwd : ∀ k, rowsOf (unique x) (unique y) x y ((i : Int), (j : Int)) = some k → FirstRow x y ((unique x).getD i 0) ((unique y).getD j 0) k := by
    intro k h
    obtain ⟨h1, h2, h3⟩ := hr.1 k h
    have := (hp k h1).1 h2
    exact ⟨h1, this.1, this.2, fun k' hk' e1 e2 => h3 k' hk' ((hp k' hk').2 ⟨e1, e2⟩)⟩
  intro k
  refine ⟨fwd k, fun h => ?_⟩
  cases e : rowsOf (unique x) (unique y) x y ((i : Int), (j : Int)) with
  | none =>
    have := hr.2 e k h.1
    rw [(hp k h.1).2 ⟨h.2.1, h.2.2.1⟩] at this
    cases this
  | some k' =>
    have h' := fwd k' e
    rw [le_antisymm (h'.2.2.2 k h.1 h.2.1 h.2.2.1) (h.2.2.2 k' h'.1 h'.2.1 h'.2.2.1)]

/-- The four corners that a grid lookup needs. -/
theorem grid_find [FloorRing K] (x y : List K) (hl : x.length ≤ y.length) (xi yi : Indexer K) (px py : K) (i j : Nat)
    (hx : xi.find px = .ok ((i : Int), (i : Int) + 1)) (hy : yi.find py = .ok ((j : Int), (j : Int) + 1))
    (cx : InCell (unique x) px i) (cy : InCell (unique y) py j) :
    ∃ x0 x1 y0 y1, Brackets x px x0 x1 ∧ Brackets y py y0 y1 ∧
      ((∃ c, (Grid.find ⟨xi, yi, rowsOf (unique x) (unique y) x y⟩ px py) = .ok c ∧
        FirstRow x y x0 y0 c.z00 ∧ FirstRow x y x0 y1 c.z01 ∧ FirstRow x y x1 y0 c.z10 ∧ FirstRow x y x1 y1 c.z11) ∨
       ((Grid.find ⟨xi, yi, rowsOf (unique x) (unique y) x y⟩ px py) = .throws .outOfRange ∧
        ∃ a ∈ [x0, x1], ∃ b ∈ [y0, y1], ∀ k < x.length, ¬ (x.getD k 0 = a ∧ y.getD k 0 = b))) := by
  refine ⟨(unique x).getD i 0, (unique x).getD (i + 1) 0, (unique y).getD j 0, (unique y).getD (j + 1) 0, inCell_brackets x px i cx,
    inCell_brackets y py j cy, ?_⟩
  have hi := cx.1
  have hj := cy.1
  have key : ∀ i' j' : Nat, i' < (unique x).length → j' < (unique y).length →
      ((∃ k, rowsOf (unique x) (unique y) x y ((i' : Int), (j' : Int)) = some k ∧ FirstRow x y ((unique x).getD i' 0) ((unique y).getD j' 0) k) ∨
       (rowsOf (unique x) (unique y) x y ((i' : Int), (j' : Int)) = none ∧
        ∀ k < x.length, ¬ (x.getD k 0 = (unique x).getD i' 0 ∧ y.getD k 0 = (unique y).getD j' 0))) := by
    intro i' j' hi' hj'
    cases e : rowsOf (unique x) (unique y) x y ((i' : Int), (j' : Int)) with
    | some k => exact Or.inl ⟨k, rfl, (rows_spec x y hl i' j' hi' hj' k).1 e⟩
    | none =>
      right
      refine ⟨rfl, fun k hk h => ?_⟩
      have hr := (find_range x.length fun k => decide ((((unique x).idxOf (x.getD k 0) : Nat) : Int) = (i' : Int) ∧ (((unique y).idxOf (y.getD k 0) : Nat) : Int) = (j' : Int))).2 e k hk
      rw [decide_eq_false_iff_not, idxOf_iff x _ (by rw [getD_eq _ _ hk]; exact List.getElem_mem _) i' hi',
        idxOf_iff y _ (by rw [getD_eq _ _ (by omega)]; exact List.getElem_mem _) j' hj'] at hr
      exact hr h
  have c1 : ((i : Int) + 1) = ((i + 1 : Nat) : Int) := by push_cast; rfl
  have c2 : ((j : Int) + 1) = ((j + 1 : Nat) : Int) := by push_cast; rfl
  unfold Grid.find
  simp only [hx, hy, Res.bind, c1, c2]
  rcases key i j (by omega) (by omega) with ⟨k00, e00, f00⟩ | ⟨e00, f00⟩
  · rcases key i (j + 1) (by omega) hj with ⟨k01, e01, f01⟩ | ⟨e01, f01⟩
    · rcases key (i + 1) j hi (by omega) with ⟨k10, e10, f10⟩ | ⟨e10, f10⟩
      · rcases key (i + 1) (j + 1) hi hj with ⟨k11, e11, f11⟩ | ⟨e11, f11⟩
        · left
          rw [e00, e01, e10, e11]
          exact ⟨_, rfl, f00, f01, f10, f11⟩
        · right
          rw [e00, e01, e10, e11]
          exact ⟨rfl, _, by simp, _, by simp, f11⟩
      · right
        rw [e00, e01, e10]
        exact ⟨rfl, _, by simp, _, by simp, f10⟩
    · right
      rw [e00, e01]
      exact ⟨rfl, _, by simp, _, by simp, f01⟩
  · right
    rw [e00]
    exact ⟨rfl, _, by simp, _, by simp, f00⟩

theorem unique_two (v : List K) (a b : K) (ha : a ∈ v) (hb : b ∈ v) (hab : a ≠ b) : 2 ≤ (unique v).length := by
  by_contra hlt
  have hlen : (unique v).length ≤ 1 := by omega
  obtain ⟨i, hi, ei⟩ := List.getElem_of_mem ((mem_unique v a).2 ha)
  obtain ⟨j, hj, ej⟩ := List.getElem_of_mem ((mem_unique v b).2 hb)
  have hij : i = j := by omega
  subst hij
  exact hab (ei.symm.trans ej)

/-- A grid on irregular indexers: for a table with two different values in each coordinate and a row for each pair of values, every point
gets the rows of the four corners of the cell around it. When a row is missing, the answer is that or an exception, and an exception
only if one of the four corners is missing. -/
theorem C124_grid [FloorRing K] (x y : List K) (hl : x.length = y.length) (hx : ∃ a ∈ x, ∃ b ∈ x, a ≠ b) (hy : ∃ a ∈ y, ∃ b ∈ y, a ≠ b) :
    ∃ g, Grid.make (fun v => (Irregular.make v).bind fun s => .ok (.irregular s)) x y = .ok g ∧
      ∀ px py, ∃ x0 x1 y0 y1, Brackets x px x0 x1 ∧ Brackets y py y0 y1 ∧
      ((∃ c, g.find px py = .ok c ∧
        FirstRow x y x0 y0 c.z00 ∧ FirstRow x y x0 y1 c.z01 ∧ FirstRow x y x1 y0 c.z10 ∧ FirstRow x y x1 y1 c.z11) ∨
       (g.find px py = .throws .outOfRange ∧
        ∃ a ∈ [x0, x1], ∃ b ∈ [y0, y1], ∀ k < x.length, ¬ (x.getD k 0 = a ∧ y.getD k 0 = b))) := by
  have mk : ∀ v : List K, (∃ a ∈ v, ∃ b ∈ v, a ≠ b) → ∃ s, Irregular.make (unique v) = .ok s ∧
      ∀ p, ∃ i : Nat, s.find p = ((i : Int), (i : Int) + 1) ∧ InCell (unique v) p i := by
    rintro v ⟨a, ha, b, hb, hab⟩
    have h2 := unique_two v a b ha hb hab
    exact C124_irregular_partial (unique v) (unique_pairwise v) h2 (unique_lt v _ _ (by omega) (by omega))
  obtain ⟨sx, ex, fx⟩ := mk x hx
  obtain ⟨sy, ey, fy⟩ := mk y hy
  refine ⟨⟨.irregular sx, .irregular sy, rowsOf (unique x) (unique y) x y⟩, by
    simp only [Grid.make, ex, ey, Res.bind]
    rw [if_neg (by omega)], fun px py => ?_⟩
  obtain ⟨i, hi, ci⟩ := fx px
  obtain ⟨j, hj, cj⟩ := fy py
  exact grid_find x y hl.le _ _ px py i j (by simp [Indexer.find, hi]) (by simp [Indexer.find, hj]) ci cj

/-- The same for regular indexers when the values of each coordinate are evenly spaced. -/
theorem C124_grid_regular_partial [FloorRing K] (x y : List K) (hl : x.length = y.length) (n m : Nat) (a b d e : K) (hn : 2 ≤ n) (hm : 2 ≤ m)
    (hd : 0 < d) (he : 0 < e) (hx : unique x = even n a d) (hy : unique y = even m b e) :
    ∃ g, Grid.make (fun v => (Regular.make v).bind fun s => .ok (.regular s)) x y = .ok g ∧
      ∀ px py, -2 ^ 31 ≤ (px - a) / d → (px - a) / d < 2 ^ 31 → -2 ^ 31 ≤ (py - b) / e → (py - b) / e < 2 ^ 31 →
      ∃ x0 x1 y0 y1, Brackets x px x0 x1 ∧ Brackets y py y0 y1 ∧
      ((∃ c, g.find px py = .ok c ∧
        FirstRow x y x0 y0 c.z00 ∧ FirstRow x y x0 y1 c.z01 ∧ FirstRow x y x1 y0 c.z10 ∧ FirstRow x y x1 y1 c.z11) ∨
       (g.find px py = .throws .outOfRange ∧
        ∃ a ∈ [x0, x1], ∃ b ∈ [y0, y1], ∀ k < x.length, ¬ (x.getD k 0 = a ∧ y.getD k 0 = b))) := by
  obtain ⟨sx, ex, fx⟩ := C124_regular_partial n a d hn hd
  obtain ⟨sy, ey, fy⟩ := C124_regular_partial m b e hm he
  rw [← hx] at ex fx
  rw [← hy] at ey fy
  refine ⟨⟨.regular sx, .regular sy, rowsOf (unique x) (unique y) x y⟩, by
    simp only [Grid.make, ex, ey, Res.bind]
    rw [if_neg (by omega)], fun px py h1 h2 h3 h4 => ?_⟩
  obtain ⟨i, hi, ci⟩ := fx px h1 h2
  obtain ⟨j, hj, cj⟩ := fy py h3 h4
  exact grid_find x y hl.le _ _ px py i j (by simp [Indexer.find, hi]) (by simp [Indexer.find, hj]) ci cj

/-! ### Cases: a full table in arbitrary order with one row twice, and one with a corner missing -/

example : (([0, 3, 0, 3, 1, 1, 3] : List ℚ).length = ([5, 7, 7, 5, 5, 7, 5] : List ℚ).length) ∧
    ((Grid.make (fun v => (Irregular.make v).bind fun s => .ok (.irregular s)) ([0, 3, 0, 3, 1, 1, 3] : List ℚ) [5, 7, 7, 5, 5, 7, 5]).bind
      fun g => g.find 2 6) = .ok ⟨1, 0, 2, 1, 4, 5, 3, 1⟩ :=
  ⟨rfl, by decide +kernel⟩

example : ((Grid.make (fun v => (Irregular.make v).bind fun s => .ok (.irregular s)) ([0, 3, 0, 1, 1] : List ℚ) [5, 7, 7, 5, 7]).bind
      fun g => g.find 2 6) = .throws .outOfRange ∧
    ((Grid.make (fun v => (Irregular.make v).bind fun s => .ok (.irregular s)) ([0, 3, 0, 1, 1] : List ℚ) [5, 7, 7, 5, 7]).bind
      fun g => g.find (1 / 2) 6) = .ok ⟨0, 0, 1, 1, 0, 2, 3, 4⟩ := by decide +kernel

example : unique ([0, 1, 0, 1, 2, 2] : List ℚ) = even 3 0 1 ∧ unique ([5, 7, 7, 5, 5, 7] : List ℚ) = even 2 5 2 ∧
    ((Grid.make (fun v => (Regular.make v).bind fun s => .ok (.regular s)) ([0, 1, 0, 1, 2, 2] : List ℚ) [5, 7, 7, 5, 5, 7]).bind
      fun g => g.find (3 / 2) 6) = .ok ⟨1, 0, 2, 1, 3, 1, 4, 5⟩ := by decide +kernel

end Siren.Math.Index
