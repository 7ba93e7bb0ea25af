import Verif.Math.TableModel
import Verif.Math.TableIntProps
import Mathlib.Analysis.SpecialFunctions.Pow.Real

set_option autoImplicit false

/-!
# Table interpolation (C49)
-/

namespace Siren.Math.Table

open Siren Integrate

/-! ## Specification -/

/-- The table has the points `(x0, f0)` and `(x1, f1)`, in this order, and no abscissa between them. -/
structure Neighbours (t : Data) (x0 f0 x1 f1 : ℝ) : Prop where
  first : (x0, f0) ∈ t.x.zip t.f
  second : (x1, f1) ∈ t.x.zip t.f
  lt : x0 < x1
  between : ∀ v ∈ t.x, v ≤ x0 ∨ x1 ≤ v

/-- All neighbouring abscissas have the same distance. -/
def EquallySpaced (t : Data) : Prop := ∃ d, ∀ x0 f0 x1 f1, Neighbours t x0 f0 x1 f1 → x1 - x0 = d

/-- All neighbouring abscissas have the same ratio. -/
def Geometric (t : Data) : Prop := ∃ q, ∀ x0 f0 x1 f1, Neighbours t x0 f0 x1 f1 → x1 / x0 = q

/-- The straight line through two points. -/
noncomputable def line (x0 f0 x1 f1 v : ℝ) : ℝ := f0 + (f1 - f0) * (v - x0) / (x1 - x0)

/-! ## Sorted abscissas -/

theorem setOf_sorted (x : List ℝ) : (setOf x).Pairwise (· < ·) := (Finset.sortedLT_sort _).pairwise

theorem mem_setOf (x : List ℝ) (v : ℝ) : v ∈ setOf x ↔ v ∈ x := by simp [setOf]

theorem setOf_of_sorted (x : List ℝ) (h : x.Pairwise (· < ·)) : setOf x = x := by
  have hp : (setOf x).Perm x := by
    rw [List.perm_ext_iff_of_nodup ((setOf_sorted x).imp fun h => ne_of_lt h) (h.imp fun h => ne_of_lt h)]
    exact fun v => mem_setOf x v
  exact hp.eq_of_pairwise (fun a b _ _ h1 h2 => absurd h1 (not_lt.mpr h2.le)) (setOf_sorted x) h

theorem getD_lt (L : List ℝ) (hL : L.Pairwise (· < ·)) (i j : Nat) (hij : i < j) (hj : j < L.length) : L.getD i 0 < L.getD j 0 := by
  have := List.pairwise_iff_getElem.mp hL i j (by omega) hj hij
  rwa [getD_getElem _ _ (by omega), getD_getElem _ _ hj]

theorem lt_of_getD_lt (L : List ℝ) (hL : L.Pairwise (· < ·)) (i j : Nat) (hi : i < L.length) (h : L.getD i 0 < L.getD j 0) : i < j := by
  by_contra hc
  rcases Nat.eq_or_lt_of_le (not_lt.mp hc) with rfl | hc
  · exact lt_irrefl _ h
  · exact absurd (getD_lt L hL j i hc hi) (not_lt.mpr h.le)

theorem mem_getD (L : List ℝ) (v : ℝ) (h : v ∈ L) : ∃ i, i < L.length ∧ L.getD i 0 = v := by
  obtain ⟨i, hi, rfl⟩ := List.mem_iff_getElem.mp h
  exact ⟨i, hi, getD_getElem L i hi⟩

theorem getD_mem (L : List ℝ) (i : Nat) (h : i < L.length) : L.getD i 0 ∈ L := by
  rw [getD_getElem L i h]; exact List.getElem_mem _

/-- Neighbours are adjacent in the sorted list. -/
theorem neighbours_index (t : Data) (x0 f0 x1 f1 : ℝ) (h : Neighbours t x0 f0 x1 f1) :
    ∃ k, k + 1 < (setOf t.x).length ∧ (setOf t.x).getD k 0 = x0 ∧ (setOf t.x).getD (k + 1) 0 = x1 := by
  obtain ⟨k, hk, e0⟩ := mem_getD _ x0 ((mem_setOf t.x x0).mpr (List.of_mem_zip h.first).1)
  obtain ⟨m, hm, e1⟩ := mem_getD _ x1 ((mem_setOf t.x x1).mpr (List.of_mem_zip h.second).1)
  have hs := setOf_sorted t.x
  have hkm : k < m := lt_of_getD_lt _ hs k m hk (by rw [e0, e1]; exact h.lt)
  refine ⟨k, by omega, e0, ?_⟩
  have h1 := getD_lt _ hs k (k + 1) (by omega) (by omega)
  rw [e0] at h1
  rcases h.between _ ((mem_setOf t.x _).mp (getD_mem (setOf t.x) (k + 1) (by omega))) with h2 | h2
  · exact absurd h1 (not_lt.mpr h2)
  · rcases h2.lt_or_eq with h3 | h3
    · rw [← e1] at h3
      have := lt_of_getD_lt _ hs m (k + 1) hm h3
      omega
    · exact h3.symm

/-! ## Finding the interval -/

/-- The interval found has consecutive points as edges and contains the argument. -/
def Fits (L : List ℝ) (v : ℝ) (r : Found) : Prop :=
  r.index + 1 < L.length ∧ r.val = v ∧ r.xa = L.getD r.index 0 ∧ r.delta = L.getD (r.index + 1) 0 - L.getD r.index 0 ∧
    L.getD r.index 0 ≤ v ∧ v ≤ L.getD (r.index + 1) 0

theorem irregular_fits (L : List ℝ) (v : ℝ) (hn : 2 ≤ L.length) (h0 : L.getD 0 0 < v)
    (h1 : v ≤ L.getD (L.length - 1) 0) : ∃ r, (Irregular.mk L).find v = .ok r ∧ Fits L v r ∧ L.getD r.index 0 < v := by
  have hb1 : ∀ i, i < lowerBound L v → L.getD i 0 < v := fun i hi => by simpa using findIdx_lt _ L i hi
  have hb2 : lowerBound L v < L.length → v ≤ L.getD (lowerBound L v) 0 := fun hi =>
    of_decide_eq_true (findIdx_at (fun t => decide (v ≤ t)) L hi)
  have hb3 : lowerBound L v ≤ L.length := List.findIdx_le_length
  simp only [Irregular.find]
  generalize lowerBound L v = d at hb1 hb2 hb3
  have hd0 : d ≠ 0 := by
    rintro rfl
    exact absurd (hb2 (by omega)) (not_le.mpr h0)
  have hdn : d < L.length := by
    by_contra hc
    have := hb1 (L.length - 1) (by omega)
    exact absurd h1 (not_le.mpr this)
  rw [if_neg hd0, if_neg (by omega), rd_ok L _ (by omega), Irregular.diff, if_pos (by simp only; omega)]
  simp only [okBind]
  have hlt : L.getD (d - 1) 0 < v := hb1 _ (by omega)
  refine ⟨_, rfl, ⟨by simp only; omega, rfl, rfl, rfl, hlt.le, ?_⟩, hlt⟩
  simp only
  rw [show d - 1 + 1 = d by omega]
  exact hb2 hdn

theorem regular_fits (L : List ℝ) (hL : L.Pairwise (· < ·)) (v : ℝ) (hn : 2 ≤ L.length) (d : ℝ)
    (hd : ∀ k, k + 1 < L.length → L.getD (k + 1) 0 - L.getD k 0 = d) (h0 : L.getD 0 0 ≤ v) (h1 : v ≤ L.getD (L.length - 1) 0) :
    Fits L v ((Regular.of L).find v) := by
  have hk : ∀ k, k < L.length → L.getD k 0 = L.getD 0 0 + k * d := by
    intro k
    induction k with
    | zero => simp
    | succ k ih =>
      intro h
      have h2 := hd k h
      have h3 := ih (by omega)
      push_cast
      linarith
  have hdpos : 0 < d := by rw [← hd 0 (by omega)]; exact sub_pos.mpr (getD_lt L hL 0 1 (by omega) (by omega))
  have hhigh := hk (L.length - 1) (by omega)
  have hcast : ((L.length - 1 : ℕ) : ℝ) = (L.length : ℝ) - 1 := by rw [Nat.cast_sub (by omega)]; simp
  rw [hcast] at hhigh
  have hn1 : (0 : ℝ) < (L.length : ℝ) - 1 := by
    have : (2 : ℝ) ≤ L.length := by exact_mod_cast hn
    linarith
  have hrange : (Regular.of L).range = ((L.length : ℝ) - 1) * d := by simp only [Regular.range, Regular.of]; rw [hhigh]; ring
  have hdelta : (Regular.of L).delta = d := by
    rw [Regular.delta, hrange]; simp only [Regular.of]; field_simp
  have hq : (v - (Regular.of L).low) / (Regular.of L).range * (((Regular.of L).n : ℝ) - 1) = (v - L.getD 0 0) / d := by
    rw [hrange]; simp only [Regular.of]; field_simp
  simp only [Regular.find, hq, hdelta]
  set i := ⌊(v - L.getD 0 0) / d⌋ with hi
  have hlow : (Regular.of L).low = L.getD 0 0 := rfl
  have hnn : (Regular.of L).n = L.length := rfl
  rw [hlow, hnn]
  have hi0 : 0 ≤ i := Int.floor_nonneg.mpr (div_nonneg (by linarith) hdpos.le)
  have hle : (i : ℝ) * d ≤ v - L.getD 0 0 := by
    have := Int.floor_le ((v - L.getD 0 0) / d)
    rwa [le_div_iff₀ hdpos] at this
  have hlt : v - L.getD 0 0 < ((i : ℝ) + 1) * d := by
    have := Int.lt_floor_add_one ((v - L.getD 0 0) / d)
    rwa [div_lt_iff₀ hdpos] at this
  rw [if_neg (by omega)]
  by_cases hc : (L.length : Int) - 1 ≤ i
  · rw [if_pos hc]
    have ht : ((L.length : Int) - 2).toNat = L.length - 2 := by omega
    have hcastI : (((L.length : Int) - 2 : Int) : ℝ) = ((L.length - 2 : ℕ) : ℝ) := by
      rw [Nat.cast_sub hn]; push_cast; ring
    have e1 := hk (L.length - 2) (by omega)
    refine ⟨by simp only; omega, rfl, ?_, ?_, ?_, ?_⟩
    · simp only [ht]; rw [hcastI, e1]
    · simp only [ht]; rw [hd _ (by omega)]
    · simp only [ht]
      rw [e1]
      have h3 : ((L.length - 2 : ℕ) : ℝ) ≤ (i : ℝ) := by
        have : ((L.length - 2 : ℕ) : Int) ≤ i := by omega
        exact_mod_cast this
      nlinarith [mul_le_mul_of_nonneg_right h3 hdpos.le]
    · simp only [ht]
      rw [show L.length - 2 + 1 = L.length - 1 by omega]
      exact h1
  · rw [if_neg hc]
    have e1 := hk i.toNat (by omega)
    have e2 := hk (i.toNat + 1) (by omega)
    have hcastI : ((i.toNat : ℕ) : ℝ) = (i : ℝ) := by
      have : ((i.toNat : ℕ) : Int) = i := Int.toNat_of_nonneg hi0
      exact_mod_cast this
    refine ⟨by simp only; omega, rfl, ?_, ?_, ?_, ?_⟩
    · simp only; rw [e1, hcastI]
    · simp only; rw [hd _ (by omega)]
    · simp only; rw [e1, hcastI]; linarith
    · simp only; rw [e2]; push_cast; rw [hcastI]; linarith

/-- Whichever interval containing the argument is found, the line through its points has the same value. -/
theorem line_unique (L : List ℝ) (hL : L.Pairwise (· < ·)) (F : Nat → ℝ) (v : ℝ) (j k : Nat) (hj : j + 1 < L.length) (hk : k + 1 < L.length)
    (h1 : L.getD j 0 ≤ v) (h2 : v ≤ L.getD (j + 1) 0) (h3 : L.getD k 0 ≤ v) (h4 : v ≤ L.getD (k + 1) 0) :
    line (L.getD j 0) (F j) (L.getD (j + 1) 0) (F (j + 1)) v = line (L.getD k 0) (F k) (L.getD (k + 1) 0) (F (k + 1)) v := by
  have key : ∀ a b : Nat, b + 1 < L.length → a < b → v ≤ L.getD (a + 1) 0 → L.getD b 0 ≤ v →
      line (L.getD a 0) (F a) (L.getD (a + 1) 0) (F (a + 1)) v = line (L.getD b 0) (F b) (L.getD (b + 1) 0) (F (b + 1)) v := by
    intro a b hb hab ha hbv
    have hab' : b = a + 1 := by
      by_contra hne
      have := getD_lt L hL (a + 1) b (by omega) (by omega)
      linarith
    subst hab'
    have hv : v = L.getD (a + 1) 0 := le_antisymm ha hbv
    have hp := getD_lt L hL a (a + 1) (by omega) (by omega)
    rw [hv]
    simp only [line, sub_self, mul_zero, zero_div, add_zero]
    rw [mul_div_assoc, div_self (sub_pos.mpr hp).ne']
    ring
  rcases lt_trichotomy j k with h | h | h
  · exact key j k hk h h2 h3
  · rw [h]
  · exact (key k j hj h h4 h1).symm

/-! ## The stored values -/

theorem findIdx_eq (L : List ℝ) (hL : L.Pairwise (· < ·)) (k : Nat) (hk : k < L.length) :
    L.findIdx (fun v => decide (v = L.getD k 0)) = k := by
  have hlt : L.findIdx (fun v => decide (v = L.getD k 0)) < L.length :=
    List.findIdx_lt_length_of_exists ⟨L.getD k 0, getD_mem L k hk, by simp⟩
  have h := of_decide_eq_true (findIdx_at (fun v => decide (v = L.getD k 0)) L hlt)
  rcases lt_trichotomy (L.findIdx (fun v => decide (v = L.getD k 0))) k with h1 | h1 | h1
  · exact absurd h (getD_lt L hL _ _ h1 hk).ne
  · exact h1
  · exact absurd h (getD_lt L hL _ _ h1 hlt).ne'

theorem fill_other (L X F : List ℝ) (m : Nat → Option ℝ) (k : Nat) (h : ∀ x ∈ X, k ≠ L.findIdx (fun v => decide (v = x))) :
    fill L X F m k = m k := by
  induction X generalizing F m with
  | nil => rw [fill]; simp
  | cons x X ih =>
    cases F with
    | nil => rw [fill]; simp
    | cons f F =>
      rw [fill, ih _ _ (fun x hx => h x (List.mem_cons_of_mem _ hx))]
      rw [if_neg (h x List.mem_cons_self)]

theorem fill_mem (L : List ℝ) (hL : L.Pairwise (· < ·)) (X F : List ℝ) (m : Nat → Option ℝ) (hX : X.Nodup) (hsub : ∀ x ∈ X, x ∈ L)
    (k : Nat) (hk : k < L.length) (f : ℝ) (h : (L.getD k 0, f) ∈ X.zip F) : fill L X F m k = some f := by
  induction X generalizing F m with
  | nil => simp at h
  | cons x X ih =>
    cases F with
    | nil => simp at h
    | cons g F =>
      rw [List.zip_cons_cons, List.mem_cons] at h
      have hX' := List.nodup_cons.mp hX
      rcases h with h | h
      · obtain ⟨rfl, rfl⟩ := Prod.mk.inj h
        rw [fill, fill_other]
        · rw [if_pos (findIdx_eq L hL k hk).symm]
        · intro y hy he
          obtain ⟨j, hj, rfl⟩ := mem_getD L y (hsub y (List.mem_cons_of_mem _ hy))
          rw [findIdx_eq L hL j hj] at he
          subst he
          exact hX'.1 hy
      · rw [fill]
        exact ih F _ hX'.2 (fun y hy => hsub y (List.mem_cons_of_mem _ hy)) h

theorem setOf_length (x : List ℝ) : (setOf x).length ≤ x.length := by
  rw [setOf, Finset.length_sort]
  exact List.toFinset_card_le x

theorem nodup_of_length (x : List ℝ) (h : x.length ≤ (setOf x).length) : x.Nodup := by
  have h1 := setOf_length x
  rw [setOf, Finset.length_sort] at h h1
  exact Multiset.toFinset_card_eq_card_iff_nodup.mp (le_antisymm h1 h)

/-- What a successful `AddTable` tells about the table. -/
theorem addTable_ok (t : Data) (s : Interp) (h : addTable t = .ok s) :
    s = build t ∧ (build t).indexer.isLog = false ∧ 2 ≤ (setOf t.x).length ∧ (setOf t.x).length = t.f.length ∧ t.x.length = t.f.length ∧
      t.x.Nodup := by
  rw [addTable] at h
  split at h
  · cases h
  · rename_i hc
    split at h
    · cases h
    · rename_i hl
      have h1 := setOf_length t.x
      refine ⟨(Res.ok.inj h).symm, by simpa using hl, by omega, by omega, by omega, nodup_of_length t.x (by omega)⟩

theorem zip_map_snd (X F : List ℝ) (g : ℝ → ℝ) (x f : ℝ) (h : (x, f) ∈ X.zip F) : (x, g f) ∈ X.zip (F.map g) := by
  induction X generalizing F with
  | nil => simp at h
  | cons y X ih =>
    cases F with
    | nil => simp at h
    | cons e F =>
      rw [List.zip_cons_cons, List.mem_cons] at h
      rw [List.map_cons, List.zip_cons_cons, List.mem_cons]
      rcases h with h | h
      · left; obtain ⟨rfl, rfl⟩ := Prod.mk.inj h; rfl
      · right; exact ih F h

/-- Every point of the sorted list has its value. -/
theorem values_exist (t : Data) (hlen : t.x.length = t.f.length) (k : Nat) (hk : k < (setOf t.x).length) :
    ∃ f, ((setOf t.x).getD k 0, f) ∈ t.x.zip t.f := by
  have hm := (mem_setOf t.x _).mp (getD_mem (setOf t.x) k hk)
  obtain ⟨i, hi, e⟩ := List.mem_iff_getElem.mp hm
  refine ⟨t.f[i]'(by omega), ?_⟩
  rw [List.mem_iff_getElem]
  exact ⟨i, by rw [List.length_zip]; omega, by rw [List.getElem_zip, e]⟩

theorem zip_functional (X F : List ℝ) (hX : X.Nodup) (x f g : ℝ) (h1 : (x, f) ∈ X.zip F) (h2 : (x, g) ∈ X.zip F) : f = g := by
  induction X generalizing F with
  | nil => simp at h1
  | cons y X ih =>
    cases F with
    | nil => simp at h1
    | cons e F =>
      rw [List.zip_cons_cons, List.mem_cons] at h1 h2
      have hX' := List.nodup_cons.mp hX
      rcases h1 with h1 | h1 <;> rcases h2 with h2 | h2
      · rw [(Prod.mk.inj h1).2, (Prod.mk.inj h2).2]
      · exact absurd ((Prod.mk.inj h1).1 ▸ (List.of_mem_zip h2).1) hX'.1
      · exact absurd ((Prod.mk.inj h2).1 ▸ (List.of_mem_zip h1).1) hX'.1
      · exact ih F hX'.2 h1 h2

theorem spaced_index (t : Data) (hlen : t.x.length = t.f.length) (k : Nat) (hk : k + 1 < (setOf t.x).length) :
    ∃ f0 f1, Neighbours t ((setOf t.x).getD k 0) f0 ((setOf t.x).getD (k + 1) 0) f1 := by
  obtain ⟨f0, h0⟩ := values_exist t hlen k (by omega)
  obtain ⟨f1, h1⟩ := values_exist t hlen (k + 1) hk
  have hs := setOf_sorted t.x
  refine ⟨f0, f1, h0, h1, getD_lt _ hs k (k + 1) (by omega) hk, fun v hv => ?_⟩
  obtain ⟨i, hi, rfl⟩ := mem_getD _ v ((mem_setOf t.x v).mpr hv)
  rcases Nat.lt_or_ge k i with h | h
  · right
    rcases Nat.eq_or_lt_of_le h with h | h
    · rw [← h]
    · exact (getD_lt _ hs _ _ h hi).le
  · left
    rcases Nat.eq_or_lt_of_le h with h | h
    · rw [h]
    · exact (getD_lt _ hs _ _ h (by omega)).le

theorem relDist_zero (L : List ℝ) (hL : L.Pairwise (· < ·)) (hn : 2 ≤ L.length) (d : ℝ)
    (hd : ∀ k, k + 1 < L.length → L.getD (k + 1) 0 - L.getD k 0 = d) : relDist L = 0 := by
  have hk : ∀ k, k < L.length → L.getD k 0 = L.getD 0 0 + k * d := by
    intro k
    induction k with
    | zero => simp
    | succ k ih => intro h; have h2 := hd k h; have h3 := ih (by omega); push_cast; linarith
  have hdpos : 0 < d := by rw [← hd 0 (by omega)]; exact sub_pos.mpr (getD_lt L hL 0 1 (by omega) (by omega))
  have hhigh := hk (L.length - 1) (by omega)
  have hcast : ((L.length - 1 : ℕ) : ℝ) = (L.length : ℝ) - 1 := by rw [Nat.cast_sub (by omega)]; simp
  rw [hcast] at hhigh
  have hn1 : (0 : ℝ) < (L.length : ℝ) - 1 := by
    have : (2 : ℝ) ≤ L.length := by exact_mod_cast hn
    linarith
  have hdelta : (Regular.of L).delta = d := by
    rw [Regular.delta, Regular.range]; simp only [Regular.of]; rw [hhigh]; field_simp; ring
  have hm : maxDist L d = 0 := by
    rw [maxDist]
    have : ∀ l : List ℝ, (∀ x ∈ l, x = 0) → l.foldl max 0 = 0 := by
      intro l
      induction l with
      | nil => intro; rfl
      | cons x l ih => intro h; rw [List.foldl_cons, h x List.mem_cons_self, max_self]; exact ih fun y hy => h y (List.mem_cons_of_mem _ hy)
    refine this _ fun x hx => ?_
    obtain ⟨i, hi, rfl⟩ := List.mem_map.mp hx
    have hi' := List.mem_range.mp hi
    rw [hd i (by omega), abs_of_pos hdpos, sub_self, abs_zero]
  rw [relDist, hdelta, hm, zero_div]

/-! ## Linear interpolation -/

theorem indexer_points (t : Data) : (Indexer.of t).points = if (Indexer.of t).isLog then (setOf t.x).map Real.log else setOf t.x := rfl

theorem indexer_irregular (t : Data) :
    (Indexer.of t).irregular = ⟨if (Indexer.of t).isLog then (setOf t.x).map Real.log else setOf t.x⟩ := rfl

theorem indexer_log_regular (t : Data) (h : (Indexer.of t).isLog = false) : (Indexer.of t).regular = Regular.of (setOf t.x) := by
  simp only [Indexer.of] at h ⊢
  generalize logBelow (setOf t.x) (1 / 10000) = b at h ⊢
  cases b
  · rfl
  · simp at h

theorem indexer_linear (t : Data) (hlen : t.x.length = t.f.length) (h2 : 2 ≤ (setOf t.x).length) (h : EquallySpaced t) :
    (Indexer.of t).isRegular = true := by
  obtain ⟨d, hd⟩ := h
  have h0 : relDist (setOf t.x) = 0 := by
    refine relDist_zero _ (setOf_sorted _) h2 d fun k hk => ?_
    obtain ⟨f0, f1, hnb⟩ := spaced_index t hlen k hk
    exact hd _ _ _ _ hnb
  simp only [Indexer.of, h0]
  norm_num

/-- The abscissas bound a point between neighbours. -/
theorem bounds_of_neighbours (L : List ℝ) (hL : L.Pairwise (· < ·)) (k : Nat) (hk : k + 1 < L.length) (v : ℝ) (h0 : L.getD k 0 ≤ v)
    (h1 : v ≤ L.getD (k + 1) 0) : L.getD 0 0 ≤ v ∧ v ≤ L.getD (L.length - 1) 0 := by
  constructor
  · rcases Nat.eq_zero_or_pos k with rfl | h
    · exact h0
    · exact (getD_lt L hL 0 k h (by omega)).le.trans h0
  · rcases Nat.eq_or_lt_of_le (show k + 1 ≤ L.length - 1 by omega) with h | h
    · rw [← h]; exact h1
    · exact h1.trans (getD_lt L hL _ _ h (by omega)).le

/-- An accepted table is interpolated linearly: between neighbouring abscissas the result is the straight line through the two table points, or
zero where that is negative. This holds for equally spaced tables on their whole range, and for tables the code does not take for equally
spaced on all of it except the smallest abscissa. -/
theorem C49_linear (t : Data) (s : Interp) (hs : addTable t = .ok s) (x0 f0 x1 f1 : ℝ) (hn : Neighbours t x0 f0 x1 f1) (v : ℝ)
    (h0 : x0 ≤ v) (h1 : v ≤ x1) (hc : EquallySpaced t ∨ (s.indexer.isRegular = false ∧ ∃ w ∈ t.x, w < v)) :
    s.eval v = .ok (max 0 (line x0 f0 x1 f1 v)) := by
  obtain ⟨rfl, hlog, h2, -, hlen, hnd⟩ := addTable_ok t s hs
  have hlog' : (Indexer.of t).isLog = false := hlog
  have hsrt := setOf_sorted t.x
  obtain ⟨k, hk, e0, e1⟩ := neighbours_index t x0 f0 x1 f1 hn
  have hb := bounds_of_neighbours _ hsrt k hk v (e0 ▸ h0) (e1 ▸ h1)
  obtain ⟨r, hr, hfit⟩ : ∃ r, (Indexer.of t).find v = .ok r ∧ Fits (setOf t.x) v r := by
    rcases hc with hc | ⟨hc, w, hw, hwv⟩
    · refine ⟨(Regular.of (setOf t.x)).find v, ?_, ?_⟩
      · rw [Indexer.find, if_pos (indexer_linear t hlen h2 hc), indexer_log_regular t hlog', hlog']
        simp
      · obtain ⟨d, hd⟩ := hc
        refine regular_fits _ hsrt v h2 d (fun j hj => ?_) hb.1 hb.2
        obtain ⟨g0, g1, hnb⟩ := spaced_index t hlen j hj
        exact hd _ _ _ _ hnb
    · have hf : (setOf t.x).getD 0 0 < v := by
        obtain ⟨i, hi, rfl⟩ := mem_getD _ w ((mem_setOf t.x w).mpr hw)
        rcases Nat.eq_zero_or_pos i with rfl | h
        · exact hwv
        · exact (getD_lt _ hsrt 0 i h hi).trans hwv
      obtain ⟨r, hr, hfit, -⟩ := irregular_fits _ v h2 hf hb.2
      refine ⟨r, ?_, hfit⟩
      have hc' : (Indexer.of t).isRegular = false := hc
      rw [Indexer.find, hc', hlog', indexer_irregular, hlog']
      simpa using hr
  obtain ⟨j, val, xa, delta⟩ := r
  simp only [Fits] at hfit
  obtain ⟨hj, rfl, rfl, rfl, hj0, hj1⟩ := hfit
  set L := setOf t.x with hL
  obtain ⟨g0, m0⟩ := values_exist t hlen j (by change j < L.length; omega)
  obtain ⟨g1, m1⟩ := values_exist t hlen (j + 1) hj
  have hsub : ∀ x ∈ t.x, x ∈ L := fun x hx => (mem_setOf t.x x).mpr hx
  have hfun : (build t).function = fill L t.x t.f (fun _ => none) := by simp [build, hlog', hL]
  have hat : ∀ i f, i < L.length → (L.getD i 0, f) ∈ t.x.zip t.f → (build t).at_ i = .ok f := by
    intro i f hi hm
    rw [Interp.at_, hfun, fill_mem L hsrt t.x t.f _ hnd hsub i hi f hm]
  have hval : line (L.getD j 0) g0 (L.getD (j + 1) 0) g1 val = line x0 f0 x1 f1 val := by
    have hF : ∀ i, i < L.length → ∃ f, (L.getD i 0, f) ∈ t.x.zip t.f := fun i hi => values_exist t hlen i hi
    classical
    let F : Nat → ℝ := fun i => if h : i < L.length then (hF i h).choose else 0
    have hFe : ∀ i f, i < L.length → (L.getD i 0, f) ∈ t.x.zip t.f → F i = f := by
      intro i f hi hm
      simp only [F, dif_pos hi]
      exact zip_functional t.x t.f hnd _ _ _ (hF i hi).choose_spec hm
    have := line_unique L hsrt F val j k hj hk hj0 hj1 (e0 ▸ h0) (e1 ▸ h1)
    rw [hFe j g0 (by omega) m0, hFe (j + 1) g1 hj m1, hFe k f0 (by omega) (e0 ▸ hn.first), hFe (k + 1) f1 hk (e1 ▸ hn.second), e0, e1] at this
    exact this
  have hpl : (build t).indexer.points.length = L.length := by
    change (Indexer.of t).points.length = _
    rw [indexer_points, hlog']; rfl
  rw [Interp.eval]
  change ((Indexer.of t).find val).bind _ = _
  rw [hr, okBind, hpl]
  simp only
  rw [if_neg (by omega), hat j g0 (by omega) m0, okBind, hat (j + 1) g1 hj m1, okBind, hlog, if_neg (by simp), okBind]
  rw [line] at hval
  rw [hval]
  congr 1
  rcases lt_or_ge (line x0 f0 x1 f1 val) 0 with h | h
  · rw [if_pos h, max_eq_left h.le]
  · rw [if_neg (not_lt.mpr h), max_eq_right h]

/-- Every value that is not negative is reproduced at its abscissa. -/
theorem C49_values (t : Data) (s : Interp) (hs : addTable t = .ok s) (x f : ℝ) (hm : (x, f) ∈ t.x.zip t.f) (hf : 0 ≤ f)
    (hc : EquallySpaced t ∨ (s.indexer.isRegular = false ∧ ∃ w ∈ t.x, w < x)) : s.eval x = .ok f := by
  obtain ⟨rfl, hlog, h2, -, hlen, hnd⟩ := addTable_ok t s hs
  have hsrt := setOf_sorted t.x
  obtain ⟨k, hk, e⟩ := mem_getD _ x ((mem_setOf t.x x).mpr (List.of_mem_zip hm).1)
  by_cases hlast : k + 1 < (setOf t.x).length
  · obtain ⟨g0, g1, hnb⟩ := spaced_index t hlen k hlast
    rw [e] at hnb
    have hg : g0 = f := zip_functional t.x t.f hnd _ _ _ hnb.first hm
    subst hg
    rw [C49_linear t _ hs _ _ _ _ hnb x le_rfl hnb.lt.le hc]
    simp [line, hf]
  · obtain ⟨g0, g1, hnb⟩ := spaced_index t hlen (k - 1) (by omega)
    rw [show k - 1 + 1 = k by omega, e] at hnb
    have hg : g1 = f := zip_functional t.x t.f hnd _ _ _ hnb.second hm
    subst hg
    rw [C49_linear t _ hs _ _ _ _ hnb x hnb.lt.le le_rfl hc]
    have : line ((setOf t.x).getD (k - 1) 0) g0 x g1 x = g1 := by
      rw [line, mul_div_assoc, div_self (sub_pos.mpr hnb.lt).ne']; ring
    rw [this, max_eq_right hf]

/-- Unless both values are negative the interpolated value lies between those of the neighbouring points. -/
theorem C49_between (t : Data) (s : Interp) (hs : addTable t = .ok s) (x0 f0 x1 f1 : ℝ) (hn : Neighbours t x0 f0 x1 f1) (v : ℝ)
    (h0 : x0 ≤ v) (h1 : v ≤ x1) (hc : EquallySpaced t ∨ (s.indexer.isRegular = false ∧ ∃ w ∈ t.x, w < v)) (hf : 0 ≤ max f0 f1) :
    ∃ y, s.eval v = .ok y ∧ min f0 f1 ≤ y ∧ y ≤ max f0 f1 := by
  have hlt := sub_pos.mpr hn.lt
  have hq0 : 0 ≤ (v - x0) / (x1 - x0) := div_nonneg (by linarith) hlt.le
  have hq1 : (v - x0) / (x1 - x0) ≤ 1 := by rw [div_le_one hlt]; linarith
  have hline : line x0 f0 x1 f1 v = (1 - (v - x0) / (x1 - x0)) * f0 + (v - x0) / (x1 - x0) * f1 := by rw [line]; ring
  generalize (v - x0) / (x1 - x0) = q at hq0 hq1 hline
  have hlo : min f0 f1 ≤ line x0 f0 x1 f1 v := by
    rw [hline]; nlinarith [min_le_left f0 f1, min_le_right f0 f1, mul_le_mul_of_nonneg_left (min_le_right f0 f1) hq0, mul_le_mul_of_nonneg_left (min_le_left f0 f1) (sub_nonneg.mpr hq1)]
  have hhi : line x0 f0 x1 f1 v ≤ max f0 f1 := by
    rw [hline]; nlinarith [mul_le_mul_of_nonneg_left (le_max_right f0 f1) hq0, mul_le_mul_of_nonneg_left (le_max_left f0 f1) (sub_nonneg.mpr hq1)]
  refine ⟨_, C49_linear t s hs x0 f0 x1 f1 hn v h0 h1 hc, ?_, ?_⟩
  · exact le_max_of_le_right hlo
  · exact max_le hf hhi

/-! ## Interpolation on the logarithmic scale -/

theorem logBelow_pos (x : List ℝ) (b : ℝ) (h : logBelow x b = true) : ∀ v ∈ x, 0 < v := by
  rw [logBelow, logRelDist] at h
  by_contra hc
  rw [if_neg hc] at h
  simp at h

theorem isLog_pos (t : Data) (h : (Indexer.of t).isLog = true) : ∀ v ∈ setOf t.x, 0 < v := by
  simp only [Indexer.of] at h
  by_cases h1 : logBelow (setOf t.x) (1 / 10000) = true
  · exact logBelow_pos _ _ h1
  · rw [if_neg h1] at h
    split at h
    · simp at h
    · exact logBelow_pos _ _ h

theorem getD_log (L : List ℝ) (k : Nat) : (L.map Real.log).getD k 0 = Real.log (L.getD k 0) := by
  rw [List.getD_eq_getElem?_getD, List.getD_eq_getElem?_getD, List.getElem?_map]
  cases L[k]? <;> simp

theorem log_sorted (L : List ℝ) (hL : L.Pairwise (· < ·)) (hp : ∀ v ∈ L, 0 < v) : (L.map Real.log).Pairwise (· < ·) := by
  rw [List.pairwise_map]
  exact hL.imp_of_mem fun ha _ h => Real.log_lt_log (hp _ ha) h

/-- What `AddTable` intends on the logarithmic scale, if the flags for zero values were stored: between neighbours of a table of positive values
the result is the power law through the two table points. -/
theorem C49_log_intended (t : Data) (h2 : 2 ≤ (setOf t.x).length) (hlen : t.x.length = t.f.length) (hnd : t.x.Nodup)
    (hlog : (build t).indexer.isLog = true) (hpos : ∀ f ∈ t.f, 0 < f) (x0 f0 x1 f1 : ℝ) (hn : Neighbours t x0 f0 x1 f1) (v : ℝ) (h0 : x0 ≤ v)
    (h1 : v ≤ x1) (hc : Geometric t ∨ ((build t).indexer.isRegular = false ∧ ∃ w ∈ t.x, w < v)) :
    (build t).eval v = .ok (f0 * (f1 / f0) ^ (Real.log (v / x0) / Real.log (x1 / x0))) := by
  have hlog' : (Indexer.of t).isLog = true := hlog
  have hxpos := isLog_pos t hlog'
  have hsrt := setOf_sorted t.x
  have hlsrt := log_sorted _ hsrt hxpos
  obtain ⟨k, hk, e0, e1⟩ := neighbours_index t x0 f0 x1 f1 hn
  have hx0 : 0 < x0 := by rw [← e0]; exact hxpos _ (getD_mem _ _ (by omega))
  have hx1 : 0 < x1 := hx0.trans hn.lt
  have hv : 0 < v := hx0.trans_le h0
  have hf0 : 0 < f0 := hpos _ (List.of_mem_zip hn.first).2
  have hf1 : 0 < f1 := hpos _ (List.of_mem_zip hn.second).2
  have hl0 : Real.log x0 ≤ Real.log v := Real.log_le_log hx0 h0
  have hl1 : Real.log v ≤ Real.log x1 := Real.log_le_log hv h1
  set L := setOf t.x with hL
  have hll : (L.map Real.log).length = L.length := List.length_map _
  have hb := bounds_of_neighbours _ hlsrt k (by rw [hll]; exact hk) (Real.log v) (by rw [getD_log, e0]; exact hl0) (by rw [getD_log, e1]; exact hl1)
  obtain ⟨r, hr, hfit⟩ : ∃ r, (Indexer.of t).find v = .ok r ∧ Fits (L.map Real.log) (Real.log v) r := by
    rcases hc with ⟨q, hq⟩ | ⟨hc, w, hw, hwv⟩
    · have hd : ∀ j, j + 1 < (L.map Real.log).length → (L.map Real.log).getD (j + 1) 0 - (L.map Real.log).getD j 0 = Real.log q := by
        intro j hj
        rw [hll] at hj
        obtain ⟨g0, g1, hnb⟩ := spaced_index t hlen j hj
        rw [getD_log, getD_log, ← hq _ _ _ _ hnb, Real.log_div (hxpos _ (getD_mem _ _ hj)).ne' (hxpos _ (getD_mem _ _ (by omega))).ne']
      have hreg : logBelow L (1 / 10000) = true := by
        rw [logBelow, logRelDist, if_pos hxpos]
        simp only
        rw [relDist_zero _ hlsrt (by rw [hll]; exact h2) _ hd]
        norm_num
      refine ⟨(Regular.of (L.map Real.log)).find (Real.log v), ?_, regular_fits _ hlsrt _ (by rw [hll]; exact h2) _ hd hb.1 hb.2⟩
      have ha : (Indexer.of t).isRegular = true := by simp only [Indexer.of, ← hL, hreg]; rfl
      have hb : (Indexer.of t).regular = Regular.of (L.map Real.log) := by simp only [Indexer.of, ← hL, hreg]; rfl
      rw [Indexer.find, ha, hlog', hb]
      simp
    · have hf : (L.map Real.log).getD 0 0 < Real.log v := by
        rw [getD_log]
        refine Real.log_lt_log (hxpos _ (getD_mem _ _ (by omega))) ?_
        obtain ⟨i, hi, rfl⟩ := mem_getD _ w ((mem_setOf t.x w).mpr hw)
        rcases Nat.eq_zero_or_pos i with rfl | h
        · exact hwv
        · exact (getD_lt _ hsrt 0 i h hi).trans hwv
      obtain ⟨r, hr, hfit, -⟩ := irregular_fits _ (Real.log v) (by rw [hll]; exact h2) hf hb.2
      refine ⟨r, ?_, hfit⟩
      have hc' : (Indexer.of t).isRegular = false := hc
      rw [Indexer.find, hc', hlog', indexer_irregular, hlog']
      simpa using hr
  obtain ⟨j, val, xa, delta⟩ := r
  simp only [Fits] at hfit
  obtain ⟨hj, rfl, rfl, rfl, hj0, hj1⟩ := hfit
  rw [hll] at hj
  obtain ⟨g0, m0⟩ := values_exist t hlen j (by change j < L.length; omega)
  obtain ⟨g1, m1⟩ := values_exist t hlen (j + 1) hj
  have hsub : ∀ x ∈ t.x, x ∈ L := fun x hx => (mem_setOf t.x x).mpr hx
  let G : ℝ → ℝ := fun v => if 0 < v then Real.log v else v
  have hfun : (build t).function = fill L t.x (t.f.map G) (fun _ => none) := by simp [build, hlog', hL, G]
  have hat : ∀ i f, i < L.length → (L.getD i 0, f) ∈ t.x.zip t.f → (build t).at_ i = .ok (Real.log f) := by
    intro i f hi hm
    rw [Interp.at_, hfun, fill_mem L hsrt t.x _ _ hnd hsub i hi (G f) (zip_map_snd _ _ _ _ _ hm)]
    simp only [G, if_pos (hpos _ (List.of_mem_zip hm).2)]
  have hval : line (Real.log (L.getD j 0)) (Real.log g0) (Real.log (L.getD (j + 1) 0)) (Real.log g1) (Real.log v) =
      line (Real.log x0) (Real.log f0) (Real.log x1) (Real.log f1) (Real.log v) := by
    have hF : ∀ i, i < L.length → ∃ f, (L.getD i 0, f) ∈ t.x.zip t.f := fun i hi => values_exist t hlen i hi
    classical
    let F : Nat → ℝ := fun i => if h : i < L.length then Real.log (hF i h).choose else 0
    have hFe : ∀ i f, i < L.length → (L.getD i 0, f) ∈ t.x.zip t.f → F i = Real.log f := by
      intro i f hi hm
      simp only [F, dif_pos hi]
      rw [zip_functional t.x t.f hnd _ _ _ (hF i hi).choose_spec hm]
    have := line_unique (L.map Real.log) hlsrt F (Real.log v) j k (by rw [hll]; exact hj) (by rw [hll]; exact hk) hj0 hj1
      (by rw [getD_log, e0]; exact hl0) (by rw [getD_log, e1]; exact hl1)
    rw [hFe j g0 (by omega) m0, hFe (j + 1) g1 hj m1, hFe k f0 (by omega) (e0 ▸ hn.first), hFe (k + 1) f1 hk (e1 ▸ hn.second)] at this
    simp only [getD_log, e0, e1] at this
    exact this
  have hpl : (build t).indexer.points.length = L.length := by
    change (Indexer.of t).points.length = _
    rw [indexer_points, hlog']; simp [hL]
  have hfl : t.f.length = L.length := by
    rw [← hlen, hL, setOf, Finset.length_sort, List.toFinset_card_of_nodup hnd]
  have hmask : ∀ i, i < L.length → (build t).zero i = .ok false := by
    intro i hi
    have hm : (build t).mask = t.f.map fun v => decide (v ≤ 0) := by simp [build, hlog']
    rw [Interp.zero, hm, List.getElem?_map, List.getElem?_eq_getElem (by omega)]
    simp [hpos _ (List.getElem_mem _)]
  rw [Interp.eval]
  change ((Indexer.of t).find v).bind _ = _
  rw [hr, okBind, hpl]
  simp only
  rw [if_neg (by omega), hat j g0 (by omega) m0, okBind, hat (j + 1) g1 hj m1, okBind, hlog, if_pos rfl, hmask j (by omega), okBind,
    hmask (j + 1) hj, okBind, okBind, getD_log, getD_log]
  rw [line] at hval
  simp only [Bool.false_eq_true, if_false]
  rw [hval, if_neg (not_lt.mpr (Real.exp_pos _).le), line, Real.exp_add, Real.exp_log hf0, Real.rpow_def_of_pos (div_pos hf1 hf0),
    Real.log_div hf1.ne' hf0.ne', Real.log_div hv.ne' hx0.ne', Real.log_div hx1.ne' hx0.ne', mul_div_assoc]

/-! ## Disagreements -/

theorem sorted3 (a b c : ℝ) (h1 : a < b) (h2 : b < c) : setOf [a, b, c] = [a, b, c] :=
  setOf_of_sorted _ (by simp [h1, h2, h1.trans h2])

theorem delta3 (a b c : ℝ) : (Regular.of [a, b, c]).delta = (c - a) / 2 := by
  simp only [Regular.delta, Regular.range, Regular.of]
  norm_num

theorem relDist3 (a b c : ℝ) (h1 : a < b) (h2 : b < c) : relDist [a, b, c] = |b - (a + c) / 2| / ((c - a) / 2) := by
  rw [relDist, delta3]
  congr 1
  simp only [maxDist, List.length_cons, List.length_nil]
  norm_num [List.range_succ]
  rw [abs_of_pos (sub_pos.mpr h1), abs_of_pos (sub_pos.mpr h2), show c - b - (c - a) / 2 = -(b - a - (c - a) / 2) by ring, abs_neg, max_self]
  congr 1
  ring

/-- The indexer of a table of three abscissas the first of which is zero. -/
theorem indexer3 (b c : ℝ) (f : List ℝ) (h1 : 0 < b) (h2 : b < c) :
    Indexer.of ⟨[0, b, c], f⟩ = ⟨false, decide (relDist [0, b, c] < 1 / 10000), [0, b, c], Regular.of [0, b, c], ⟨[0, b, c]⟩⟩ := by
  have hb : ∀ x, logBelow [0, b, c] x = false := by
    intro x
    by_contra hc
    have := logBelow_pos _ _ (by simpa using hc) 0 (by simp)
    exact lt_irrefl _ this
  simp only [Indexer.of, sorted3 0 b c h1 h2, hb]
  simp

theorem add3 (b c f0 f1 f2 : ℝ) (h1 : 0 < b) (h2 : b < c) :
    addTable ⟨[0, b, c], [f0, f1, f2]⟩ = .ok (build ⟨[0, b, c], [f0, f1, f2]⟩) := by
  rw [addTable]
  simp only [sorted3 0 b c h1 h2, build, indexer3 b c _ h1 h2]
  simp

theorem function3 (b c f0 f1 f2 : ℝ) (h1 : 0 < b) (h2 : b < c) :
    (build ⟨[0, b, c], [f0, f1, f2]⟩).at_ 0 = .ok f0 ∧ (build ⟨[0, b, c], [f0, f1, f2]⟩).at_ 1 = .ok f1 ∧
      (build ⟨[0, b, c], [f0, f1, f2]⟩).at_ 2 = .ok f2 := by
  obtain ⟨-, hlog, h2', -, hlen, hnd⟩ := addTable_ok _ _ (add3 b c f0 f1 f2 h1 h2)
  have hs := sorted3 0 b c h1 h2
  have hfun : (build ⟨[0, b, c], [f0, f1, f2]⟩).function = fill [0, b, c] [0, b, c] [f0, f1, f2] (fun _ => none) := by
    simp only [build, hs, indexer3 b c _ h1 h2]
    simp
  have key : ∀ i f, i < 3 → (([0, b, c] : List ℝ).getD i 0, f) ∈ ([0, b, c] : List ℝ).zip [f0, f1, f2] →
      (build ⟨[0, b, c], [f0, f1, f2]⟩).at_ i = .ok f := by
    intro i f hi hm
    rw [Interp.at_, hfun, fill_mem [0, b, c] (hs ▸ setOf_sorted _) _ _ _ hnd (fun x hx => hx) i hi f hm]
  exact ⟨key 0 f0 (by omega) (by simp), key 1 f1 (by omega) (by simp), key 2 f2 (by omega) (by simp)⟩

/-- In a table that is not equally spaced, the value at the smallest abscissa is not the table's: it is extrapolated from the last interval. -/
theorem C49_first_point_fails : ∃ s, addTable ⟨[0, 1, 3], [1, 2, 6]⟩ = .ok s ∧ s.eval 0 = .ok 0 := by
  refine ⟨_, add3 1 3 1 2 6 (by norm_num) (by norm_num), ?_⟩
  obtain ⟨-, h1, h2⟩ := function3 1 3 1 2 6 (by norm_num) (by norm_num)
  rw [Interp.eval]
  have hi : (build ⟨[0, 1, 3], [1, 2, 6]⟩).indexer = _ := indexer3 1 3 [1, 2, 6] (by norm_num) (by norm_num)
  have hr : relDist [0, 1, 3] = 1 / 3 := by rw [relDist3 _ _ _ (by norm_num) (by norm_num)]; norm_num [abs_of_neg]
  have hf : (Irregular.mk [0, 1, 3]).find 0 = .ok ⟨1, 0, 1, 2⟩ := by
    have hd : lowerBound ([0, 1, 3] : List ℝ) 0 = 0 := by simp [lowerBound, List.findIdx_cons]
    simp only [Irregular.find, hd, Irregular.diff, rd]
    norm_num [Res.bind]
  rw [hi, hr]
  simp only [Indexer.find]
  norm_num [hf, h1, h2, okBind]

theorem log2 (a b f0 f1 : ℝ) (ha : 0 < a) (hab : a < b) : (build ⟨[a, b], [f0, f1]⟩).indexer.isLog = true := by
  have hs : setOf [a, b] = [a, b] := setOf_of_sorted _ (by simp [hab])
  have : logBelow [a, b] (1 / 10000) = true := by
    rw [logBelow, logRelDist, if_pos (by simp [ha, ha.trans hab])]
    simp only
    rw [relDist_zero _ (log_sorted [a, b] (by simp [hab]) (by simp [ha, ha.trans hab])) (by simp) (Real.log b - Real.log a)]
    · norm_num
    · intro k hk
      obtain rfl : k = 0 := by simp at hk; exact hk
      simp
  simp only [build, Indexer.of, hs, this]
  rfl

/-- Two abscissas that are both positive always select the logarithmic scale, on which adding the table is undefined. -/
theorem C49_log_fails (a b f0 f1 : ℝ) (ha : 0 < a) (hab : a < b) : addTable ⟨[a, b], [f0, f1]⟩ = .ub := by
  rw [addTable, log2 a b f0 f1 ha hab]
  simp

/-- A table whose spacing deviates by less than a ten-thousandth is treated as equally spaced and does not give back its values. -/
theorem C49_almost_regular_fails : ∃ s y, addTable ⟨[0, 20001 / 20000, 2], [0, 1, 0]⟩ = .ok s ∧ s.eval (20001 / 20000) = .ok y ∧ y < 1 := by
  refine ⟨_, 19999 / 20000, add3 _ 2 0 1 0 (by norm_num) (by norm_num), ?_, by norm_num⟩
  obtain ⟨-, h1, h2⟩ := function3 (20001 / 20000) 2 0 1 0 (by norm_num) (by norm_num)
  rw [Interp.eval]
  have hi : (build ⟨[0, 20001 / 20000, 2], [0, 1, 0]⟩).indexer = _ := indexer3 (20001 / 20000) 2 [0, 1, 0] (by norm_num) (by norm_num)
  have hr : relDist [0, 20001 / 20000, 2] = 5 / 100000 := by rw [relDist3 _ _ _ (by norm_num) (by norm_num)]; norm_num [abs_of_pos]
  have hf : (Regular.of [0, 20001 / 20000, 2]).find (20001 / 20000) = ⟨1, 20001 / 20000, 1, 1⟩ := by
    simp only [Regular.find, delta3]
    simp only [Regular.range, Regular.of]
    norm_num
  rw [hi, hr]
  simp only [Indexer.find]
  norm_num [hf, h1, h2, okBind]

/-- A negative table value is not given back. -/
theorem C49_negative_fails : ∃ s, addTable ⟨[0, 1, 2], [0, -1, 0]⟩ = .ok s ∧ s.eval 1 = .ok 0 := by
  refine ⟨_, add3 1 2 0 (-1) 0 (by norm_num) (by norm_num), ?_⟩
  have hn : Neighbours ⟨[0, 1, 2], [0, -1, 0]⟩ 0 0 1 (-1) :=
    ⟨by simp, by simp, by norm_num, by simp⟩
  rw [C49_linear _ _ (add3 1 2 0 (-1) 0 (by norm_num) (by norm_num)) _ _ _ _ hn 1 (by norm_num) le_rfl]
  · norm_num [line]
  · left
    refine ⟨1, fun x0 f0 x1 f1 h => ?_⟩
    obtain ⟨k, hk, e0, e1⟩ := neighbours_index _ _ _ _ _ h
    simp only [sorted3 0 1 2 (by norm_num) (by norm_num)] at hk e0 e1
    have : k = 0 ∨ k = 1 := by simp at hk; omega
    rcases this with rfl | rfl <;> (norm_num at e0 e1; rw [← e0, ← e1]; norm_num)

/-! ## The hypotheses are met -/

example : ∃ s, addTable ⟨[0, 1, 3], [1, 2, 6]⟩ = .ok s ∧ s.indexer.isRegular = false ∧ s.eval 2 = .ok 4 ∧ s.eval 1 = .ok 2 := by
  have hadd := add3 1 3 1 2 6 (by norm_num) (by norm_num)
  have hi : (build ⟨[0, 1, 3], [1, 2, 6]⟩).indexer = _ := indexer3 1 3 [1, 2, 6] (by norm_num) (by norm_num)
  have hr : relDist [0, 1, 3] = 1 / 3 := by rw [relDist3 _ _ _ (by norm_num) (by norm_num)]; norm_num [abs_of_neg]
  have hreg : (build ⟨[0, 1, 3], [1, 2, 6]⟩).indexer.isRegular = false := by rw [hi, hr]; norm_num
  refine ⟨_, hadd, hreg, ?_, ?_⟩
  · have hn : Neighbours ⟨[0, 1, 3], [1, 2, 6]⟩ 1 2 3 6 := ⟨by simp, by simp, by norm_num, by simp⟩
    rw [C49_linear _ _ hadd _ _ _ _ hn 2 (by norm_num) (by norm_num) (Or.inr ⟨hreg, 0, by simp, by norm_num⟩)]
    norm_num [line]
  · exact C49_values _ _ hadd 1 2 (by simp) (by norm_num) (Or.inr ⟨hreg, 0, by simp, by norm_num⟩)

example : (build ⟨[1, 4], [1, 9]⟩).eval 2 = .ok 3 := by
  have hs : setOf [1, 4] = [1, 4] := setOf_of_sorted _ (by norm_num)
  have hn : Neighbours ⟨[1, 4], [1, 9]⟩ 1 1 4 9 := ⟨by simp, by simp, by norm_num, by simp⟩
  rw [C49_log_intended ⟨[1, 4], [1, 9]⟩ (by simp [hs]) rfl (by simp) (log2 1 4 1 9 (by norm_num) (by norm_num)) (by simp) 1 1 4 9 hn 2
    (by norm_num) (by norm_num)]
  · have h4 : Real.log 4 = 2 * Real.log 2 := by rw [show (4 : ℝ) = 2 ^ 2 by norm_num, Real.log_pow]; norm_num
    have h2 : Real.log 2 ≠ 0 := (Real.log_pos (by norm_num)).ne'
    rw [div_one, div_one, div_one, one_mul, h4, show Real.log 2 / (2 * Real.log 2) = 1 / 2 by field_simp, ← Real.sqrt_eq_rpow,
      show (9 : ℝ) = 3 ^ 2 by norm_num, Real.sqrt_sq (by norm_num)]
  · left
    refine ⟨4, fun x0 f0 x1 f1 h => ?_⟩
    obtain ⟨k, hk, e0, e1⟩ := neighbours_index _ _ _ _ _ h
    simp only [hs] at hk e0 e1
    obtain rfl : k = 0 := by simp at hk; exact hk
    simp at e0 e1
    rw [← e0, ← e1]; norm_num

end Siren.Math.Table
