import Verif.Math.IndexModel
import Mathlib.Order.Monotone.Basic
import Mathlib.Data.Rat.Floor
import Mathlib.Tactic.Push

set_option autoImplicit false
set_option linter.unusedSectionVars false

/-!
# C124: looking up cells of a table
-/

namespace Siren.Math.Index

open Siren Delaunay

variable {K : Type} [Field K] [LinearOrder K] [IsStrictOrderedRing K]

/-! ## Specification -/

/-- `i` is the position of the lower end of a cell of `data` that holds `x`; the first and the last cell hold all that lies beyond them. -/
def InCell (data : List K) (x : K) (i : Nat) : Prop :=
  i + 1 < data.length ∧ (0 < i → data.getD i 0 ≤ x) ∧ (i + 2 < data.length → x ≤ data.getD (i + 1) 0)

/-- `n` points from `a` in steps of `d`. -/
def even (n : Nat) (a d : K) : List K := (List.range n).map fun i : Nat => a + (i : K) * d

/-! ## Sorting -/

theorem sorted_eq (l : List K) (h : l.Pairwise (· ≤ ·)) : sorted l = l := List.Pairwise.insertionSort_eq h

theorem sorted_length (l : List K) : (sorted l).length = l.length := List.length_insertionSort _ _

theorem sorted_pairwise (l : List K) : (sorted l).Pairwise (· ≤ ·) := List.pairwise_insertionSort _ _

theorem low_le (l : List K) (h : l.Pairwise (· ≤ ·)) (a : K) (ha : a ∈ l) : low l ≤ a := by
  cases l with
  | nil => simp at ha
  | cons b l =>
    rcases List.mem_cons.1 ha with rfl | ha
    · exact le_refl _
    · exact (List.pairwise_cons.1 h).1 a ha

theorem getD_eq (l : List K) (i : Nat) (h : i < l.length) : l.getD i 0 = l[i] := by
  rw [List.getD_eq_getElem?_getD, List.getElem?_eq_getElem h]; rfl

theorem high_eq (l : List K) : high l = l.getD (l.length - 1) 0 := by
  unfold high
  rw [List.getLastD_eq_getLast?, List.getLast?_eq_getElem?, List.getD_eq_getElem?_getD]

theorem low_eq (l : List K) : low l = l.getD 0 0 := by
  cases l <;> rfl

theorem getD_mono (l : List K) (h : l.Pairwise (· ≤ ·)) (i j : Nat) (hij : i ≤ j) (hj : j < l.length) : l.getD i 0 ≤ l.getD j 0 := by
  rw [getD_eq l i (by omega), getD_eq l j hj]
  rcases Nat.lt_or_eq_of_le hij with h' | rfl
  · exact List.pairwise_iff_getElem.1 h i j (by omega) hj h'
  · exact le_refl _

/-- Sorted data equal their reverse only if all are the same. -/
theorem palindrome (l : List K) (hne : l ≠ []) (he : l = l.reverse) : high l = low l := by
  have hl : 0 < l.length := List.length_pos_iff.2 hne
  rw [high_eq l, low_eq, getD_eq l _ (by omega), getD_eq l 0 hl]
  have : l[0] = l.reverse[0]'(by simpa using hl) := by congr 1
  rw [this, List.getElem_reverse]
  simp

/-- `reversed` is never set for data an indexer accepts. -/
theorem not_reversed (data : List K) (h : ¬ |high (sorted data) - low (sorted data)| ≤ 0) : reversedFlag data = false := by
  unfold reversedFlag
  split
  · rfl
  · split
    · rename_i he
      exfalso
      apply h
      by_cases hn : sorted data = []
      · rw [hn]; simp [high, low]
      · rw [palindrome _ hn he]
        simp
    · rfl

/-! ## The irregular indexer -/

theorem lowerBound_spec (l : List K) (x : K) (h : l.Pairwise (· ≤ ·)) :
    lowerBound l x ≤ l.length ∧ (∀ i < lowerBound l x, l.getD i 0 < x) ∧ (lowerBound l x < l.length → x ≤ l.getD (lowerBound l x) 0) := by
  induction l with
  | nil => simp [lowerBound]
  | cons a l ih =>
    obtain ⟨h1, h2, h3⟩ := ih (List.pairwise_cons.1 h).2
    unfold lowerBound at *
    rw [List.takeWhile_cons]
    by_cases ha : a < x
    · simp only [ha, decide_true, if_true, List.length_cons]
      refine ⟨by omega, ?_, ?_⟩
      · intro i hi
        cases i with
        | zero => simpa using ha
        | succ i => simpa using h2 i (by omega)
      · intro hlt
        simpa using h3 (by omega)
    · simp only [ha, decide_false, Bool.false_eq_true, if_false, List.length_nil]
      refine ⟨by omega, by simp, ?_⟩
      intro _
      simpa using not_lt.1 ha

theorem irregular_spec (data : List K) (hl : 2 ≤ data.length) (hr : ¬ |high (sorted data) - low (sorted data)| ≤ 0) :
    ∃ s, Irregular.make data = .ok s ∧ ∀ x, ∃ i : Nat, s.find x = ((i : Int), (i : Int) + 1) ∧ InCell (sorted data) x i := by
  refine ⟨⟨sorted data, low (sorted data), high (sorted data), reversedFlag data, (sorted data).length⟩,
    by rw [Irregular.make, if_neg (by omega)]; simp only [hr, if_false], fun x => ?_⟩
  have hlen := sorted_length data
  have hs := sorted_pairwise data
  have hne : sorted data ≠ [] := by
    intro h
    rw [h] at hlen
    simp at hlen
    omega
  simp only [Irregular.find, not_reversed data hr, Bool.false_eq_true, if_false]
  split
  · rename_i hx
    refine ⟨0, by simp, by omega, by omega, fun _ => ?_⟩
    rw [low_eq] at hx
    exact le_trans hx (getD_mono _ hs 0 1 (by omega) (by omega))
  · rename_i hx
    split
    · rename_i hx2
      refine ⟨data.length - 2, by rw [hlen]; ext <;> simp <;> omega, by omega, fun _ => ?_, by omega⟩
      rw [high_eq _] at hx2
      exact le_trans (getD_mono _ hs _ _ (by omega) (by omega)) hx2
    · rename_i hx2
      obtain ⟨h1, h2, h3⟩ := lowerBound_spec (sorted data) x hs
      have hpos : 0 < lowerBound (sorted data) x := by
        by_contra h0
        have h0 : lowerBound (sorted data) x = 0 := by omega
        have := h3 (by omega)
        rw [h0, ← low_eq] at this
        exact hx this
      have hlt : lowerBound (sorted data) x < (sorted data).length := by
        by_contra h0
        have h0 : lowerBound (sorted data) x = (sorted data).length := by omega
        have := h2 ((sorted data).length - 1) (by omega)
        rw [← high_eq _] at this
        exact hx2 this.le
      rw [if_neg (by omega)]
      refine ⟨_, rfl, by omega, fun _ => (h2 _ (by omega)).le, fun _ => ?_⟩
      rw [show lowerBound (sorted data) x - 1 + 1 = lowerBound (sorted data) x by omega]
      exact h3 hlt

/-! ## The regular indexer -/

theorem even_length (n : Nat) (a d : K) : (even n a d).length = n := by simp [even]

theorem even_getD (n : Nat) (a d : K) (i : Nat) (h : i < n) : (even n a d).getD i 0 = a + i * d := by
  rw [getD_eq _ _ (by rwa [even_length])]
  simp [even]

theorem even_pairwise (n : Nat) (a d : K) (hd : 0 < d) : (even n a d).Pairwise (· ≤ ·) := by
  unfold even
  rw [List.pairwise_map]
  apply List.Pairwise.imp _ List.pairwise_lt_range
  intro i j hij
  have : (i : K) ≤ j := by exact_mod_cast hij.le
  nlinarith

theorem even_ends (n : Nat) (a d : K) (hn : 2 ≤ n) : low (even n a d) = a ∧ high (even n a d) = a + ((n : K) - 1) * d := by
  have hne : even n a d ≠ [] := by
    intro h
    have := even_length n a d
    rw [h] at this
    simp at this
    omega
  constructor
  · rw [low_eq, even_getD _ _ _ _ (by omega)]; simp
  · rw [high_eq _, even_length, even_getD _ _ _ _ (by omega), Nat.cast_sub (by omega)]; simp

theorem even_range (n : Nat) (a d : K) (hn : 2 ≤ n) (hd : 0 < d) : ¬ |high (even n a d) - low (even n a d)| ≤ 0 := by
  obtain ⟨h1, h2⟩ := even_ends n a d hn
  rw [h1, h2, not_le, abs_pos]
  have : (1 : K) < n := by exact_mod_cast hn
  have : 0 < ((n : K) - 1) * d := mul_pos (by linarith) hd
  linarith

theorem regular_spec [FloorRing K] (n : Nat) (a d : K) (hn : 2 ≤ n) (hd : 0 < d) :
    ∃ s, Regular.make (even n a d) = .ok s ∧
      ∀ x, (if ⌊(x - a) / d⌋ < -2 ^ 31 ∨ 2 ^ 31 ≤ ⌊(x - a) / d⌋ then s.find x = .ub
        else ∃ i : Nat, s.find x = .ok ((i : Int), (i : Int) + 1) ∧ InCell (even n a d) x i) := by
  have hs := even_pairwise n a d hd
  have he := even_ends n a d hn
  have hr := even_range n a d hn hd
  have hn1 : (1 : K) < n := by exact_mod_cast hn
  have hn1' : (n : K) - 1 ≠ 0 := by linarith
  refine ⟨⟨a, ((n : K) - 1) * d, false, n⟩, ?_, fun x => ?_⟩
  · rw [Regular.make, if_neg (by rw [even_length]; omega)]
    simp only [sorted_eq _ hs, hr, if_false, not_reversed _ (by rwa [sorted_eq _ hs]), even_length]
    rw [he.1, he.2, add_sub_cancel_left]
  · have hk : (x - a) / (((n : K) - 1) * d) * ((n : K) - 1) = (x - a) / d := by
      field_simp
    simp only [Regular.find, hk, Bool.false_eq_true, if_false]
    split
    · rfl
    · obtain ⟨k, hkd⟩ : ∃ k, k = ⌊(x - a) / d⌋ := ⟨_, rfl⟩
      rw [← hkd]
      have hk1 : (k : K) * d ≤ x - a := by
        have := Int.floor_le ((x - a) / d)
        rw [← hkd] at this
        rwa [le_div_iff₀ hd] at this
      have hk2 : x - a < ((k : K) + 1) * d := by
        have := Int.lt_floor_add_one ((x - a) / d)
        rw [← hkd] at this
        rwa [div_lt_iff₀ hd] at this
      by_cases h0 : k < 0
      · refine ⟨0, by simp [h0], by rw [even_length]; omega, by omega, fun hlt => ?_⟩
        rw [even_length] at hlt
        rw [even_getD _ _ _ _ (by omega)]
        have : (k : K) + 1 ≤ 0 := by exact_mod_cast h0
        have : ((k : K) + 1) * d ≤ 0 := mul_nonpos_of_nonpos_of_nonneg this hd.le
        push_cast
        linarith
      · by_cases h1 : k ≥ (n : Int) - 1
        · refine ⟨n - 2, ?_, by rw [even_length]; omega, fun _ => ?_, by rw [even_length]; omega⟩
          · rw [if_neg h0, if_pos h1]
            congr 2 <;> omega
          · rw [even_getD _ _ _ _ (by omega)]
            have hkn : ((n - 2 : Nat) : K) ≤ k := by
              have : ((n - 2 : Nat) : Int) ≤ k := by omega
              exact_mod_cast this
            have := mul_le_mul_of_nonneg_right hkn hd.le
            linarith
        · obtain ⟨m, rfl⟩ : ∃ m : Nat, k = m := ⟨k.toNat, by omega⟩
          refine ⟨m, by rw [if_neg h0, if_neg h1], by rw [even_length]; omega, fun _ => ?_, fun hlt => ?_⟩
          · rw [even_getD _ _ _ _ (by omega)]
            push_cast at hk1
            linarith
          · rw [even_length] at hlt
            rw [even_getD _ _ _ _ (by omega)]
            push_cast at hk2 ⊢
            linarith

end Siren.Math.Index
