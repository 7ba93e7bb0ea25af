import Verif.Math.QuadModel
import Mathlib.Algebra.Order.BigOperators.Group.List
import Mathlib.Data.Multiset.Filter
import Mathlib.Data.Multiset.AddSub
import Mathlib.Data.Multiset.Bind
import Mathlib.Data.Sym.Sym2
import Mathlib.Data.Fintype.Card
import Mathlib.Algebra.BigOperators.Fin
import Mathlib.Algebra.Order.BigOperators.Group.Multiset
import Mathlib.Data.Multiset.Basic
import Mathlib.Tactic.Linarith
import Mathlib.Tactic.Ring
import Mathlib.Tactic.FinCases
import Mathlib.Tactic.Abel

set_option autoImplicit false
set_option linter.unusedSectionVars false

/-!
# What a quadtree holds

Lemmas for C122: where values are stored, and what the operations do to the collection of all stored values.
-/

namespace Siren.Math.Quad

open Siren

variable {K : Type} [Field K] [LinearOrder K] {α : Type} [DecidableEq α]

/-- All values of a node and its descendants, as a collection with repetitions. -/
def Node.bag : Node α → Multiset α
  | .leaf vs => (vs : Multiset α)
  | .inner vs c => (vs : Multiset α) + ∑ i, (c i).bag

omit [DecidableEq α] in
theorem mem_bag_inner (vs : List α) (c : Fin 4 → Node α) (v : α) :
    v ∈ (Node.inner vs c).bag ↔ v ∈ vs ∨ ∃ i, v ∈ (c i).bag := by
  simp [Node.bag, Multiset.mem_sum]

omit [DecidableEq α] in
theorem bag_update (c : Fin 4 → Node α) (i : Fin 4) (n : Node α) :
    ∑ j, (Function.update c i n j).bag = n.bag + ∑ j ∈ Finset.univ.erase i, (c j).bag := by
  rw [← Finset.add_sum_erase _ _ (Finset.mem_univ i)]
  congr 1
  · simp
  · apply Finset.sum_congr rfl
    intro j hj
    rw [Function.update_of_ne (Finset.ne_of_mem_erase hj)]

/-- Values lie where the search expects them. -/
def Placed (getBox : α → Box K) : Box K → Node α → Prop
  | box, .leaf vs => ∀ v ∈ vs, box.contains (getBox v)
  | box, .inner vs c => (∀ v ∈ vs, box.contains (getBox v) ∧ getQuadrant box (getBox v) = none) ∧
      ∀ i, (∀ v ∈ (c i).bag, box.contains (getBox v) ∧ getQuadrant box (getBox v) = some i) ∧ Placed getBox (computeBox box i) (c i)

section
variable [IsStrictOrderedRing K]

theorem contains_child (b v : Box K) (i : Fin 4) (h : b.contains v) (hq : getQuadrant b v = some i) :
    (computeBox b i).contains v := by
  obtain ⟨h1, h2, h3, h4⟩ := h
  simp only [getQuadrant] at hq
  have e1 : b.left + b.width / 2 + b.width / 2 = b.right := by unfold Box.right; ring
  have e2 : b.top + b.height / 2 + b.height / 2 = b.bottom := by unfold Box.bottom; ring
  split_ifs at hq <;> cases hq <;>
    refine ⟨?_, ?_, ?_, ?_⟩ <;>
    first | assumption | exact le_of_lt ‹_› | exact le_of_le_of_eq h2 e1.symm | exact le_of_le_of_eq h4 e2.symm

end

theorem intersects_comm (a b : Box K) : a.intersects b ↔ b.intersects a := by
  unfold Box.intersects
  constructor <;> intro h h' <;> apply h <;> rcases h' with h' | h' | h' | h'
  · exact Or.inr (Or.inl h')
  · exact Or.inl h'
  · exact Or.inr (Or.inr (Or.inr h'))
  · exact Or.inr (Or.inr (Or.inl h'))
  · exact Or.inr (Or.inl h')
  · exact Or.inl h'
  · exact Or.inr (Or.inr (Or.inr h'))
  · exact Or.inr (Or.inr (Or.inl h'))

/-- A box that overlaps a part overlaps the whole. -/
theorem intersects_mono (q a b : Box K) (h : a.contains b) (hq : q.intersects b) : q.intersects a := by
  obtain ⟨h1, h2, h3, h4⟩ := h
  intro h'
  apply hq
  rcases h' with h' | h' | h' | h'
  · exact Or.inl (le_trans h2 h')
  · exact Or.inr (Or.inl (le_trans h' h1))
  · exact Or.inr (Or.inr (Or.inl (le_trans h4 h')))
  · exact Or.inr (Or.inr (Or.inr (le_trans h' h3)))

/-- Boxes in different quadrants do not overlap. -/
theorem quadrants_apart (b v w : Box K) (i j : Fin 4) (hv : getQuadrant b v = some i) (hw : getQuadrant b w = some j) (hij : i ≠ j) :
    ¬ v.intersects w := by
  simp only [getQuadrant] at hv hw
  unfold Box.intersects
  rw [not_not]
  split_ifs at hv with a1 a2 a3 a4 a5 a6 <;> split_ifs at hw with b1 b2 b3 b4 b5 b6 <;> cases hv <;> cases hw <;>
    first
    | exact absurd rfl hij
    | exact Or.inl (le_of_lt (lt_of_lt_of_le ‹_› ‹_›))
    | exact Or.inr (Or.inl (le_of_lt (lt_of_lt_of_le ‹_› ‹_›)))
    | exact Or.inr (Or.inr (Or.inl (le_of_lt (lt_of_lt_of_le ‹_› ‹_›))))
    | exact Or.inr (Or.inr (Or.inr (le_of_lt (lt_of_lt_of_le ‹_› ‹_›))))

/-! ## Adding -/

omit [DecidableEq α] in
theorem bag_split (getBox : α → Box K) (box : Box K) (vs : List α) :
    (kept getBox box vs : Multiset α) + ∑ i, (moved getBox box vs i : Multiset α) = (vs : Multiset α) := by
  induction vs with
  | nil => simp [kept, moved]
  | cons v vs ih =>
    have h1 : kept getBox box (v :: vs) = (if getQuadrant box (getBox v) = none then [v] else []) ++ kept getBox box vs := by
      unfold kept
      rw [List.filter_cons]
      split <;> simp_all
    have h2 : ∀ i, moved getBox box (v :: vs) i = (if getQuadrant box (getBox v) = some i then [v] else []) ++ moved getBox box vs i := by
      intro i
      unfold moved
      rw [List.filter_cons]
      split <;> simp_all
    rw [h1]
    simp only [h2, ← Multiset.coe_add, Finset.sum_add_distrib]
    rw [← Multiset.cons_coe, ← ih]
    rcases hq : getQuadrant box (getBox v) with _ | i
    · simp [← Multiset.cons_coe]
    · have : ∑ x : Fin 4, ((if some i = some x then [v] else [] : List α) : Multiset α) = {v} := by
        rw [Finset.sum_eq_single i]
        · simp
        · intro j _ hj
          simp [Ne.symm hj]
        · simp
      rw [this]
      simp

omit [DecidableEq α] in
theorem mem_kept (getBox : α → Box K) (box : Box K) (vs : List α) (v : α) :
    v ∈ kept getBox box vs ↔ v ∈ vs ∧ getQuadrant box (getBox v) = none := by
  simp [kept]

omit [DecidableEq α] in
theorem mem_moved (getBox : α → Box K) (box : Box K) (vs : List α) (i : Fin 4) (v : α) :
    v ∈ moved getBox box vs i ↔ v ∈ vs ∧ getQuadrant box (getBox v) = some i := by
  simp [moved]

omit [DecidableEq α] in
theorem placed_contains (getBox : α → Box K) (box : Box K) (t : Node α) (h : Placed getBox box t) (v : α) (hv : v ∈ t.bag) :
    box.contains (getBox v) := by
  cases t with
  | leaf vs => exact h v (by simpa [Node.bag] using hv)
  | inner vs c =>
    rcases (mem_bag_inner vs c v).1 hv with hv | ⟨i, hv⟩
    · exact (h.1 v hv).1
    · exact ((h.2 i).1 v hv).1

variable [IsStrictOrderedRing K]

theorem addLeaf_spec (checked : Bool) (getBox : α → Box K) (v : α) : ∀ (room : Nat) (box : Box K) (vs : List α),
    box.contains (getBox v) → Placed getBox box (.leaf vs) →
    ∃ n, addLeaf checked getBox room box vs v = .ok n ∧ n.bag = v ::ₘ (vs : Multiset α) ∧ Placed getBox box n := by
  intro room
  induction room with
  | zero =>
    intro box vs hb hp
    refine ⟨.leaf (vs ++ [v]), by simp [addLeaf, hb], ?_, ?_⟩
    · simp only [Node.bag, ← Multiset.coe_add, Multiset.coe_singleton]
      rw [add_comm, Multiset.singleton_add]
    · intro w hw
      rcases List.mem_append.1 hw with hw | hw
      · exact hp w hw
      · rw [List.mem_singleton.1 hw]; exact hb
  | succ room ih =>
    intro box vs hb hp
    by_cases hl : vs.length < 16
    · refine ⟨.leaf (vs ++ [v]), by simp [addLeaf, hb, hl], ?_, ?_⟩
      · simp only [Node.bag, ← Multiset.coe_add, Multiset.coe_singleton]
        rw [add_comm, Multiset.singleton_add]
      · intro w hw
        rcases List.mem_append.1 hw with hw | hw
        · exact hp w hw
        · rw [List.mem_singleton.1 hw]; exact hb
    · have pk : ∀ w ∈ kept getBox box vs, box.contains (getBox w) ∧ getQuadrant box (getBox w) = none := fun w hw => by
        rw [mem_kept] at hw
        exact ⟨hp w hw.1, hw.2⟩
      have pm : ∀ j, (∀ w ∈ moved getBox box vs j, box.contains (getBox w) ∧ getQuadrant box (getBox w) = some j) ∧
          Placed getBox (computeBox box j) (.leaf (moved getBox box vs j)) := fun j => by
        refine ⟨fun w hw => ?_, fun w hw => ?_⟩ <;> rw [mem_moved] at hw
        · exact ⟨hp w hw.1, hw.2⟩
        · exact contains_child _ _ _ (hp w hw.1) hw.2
      rcases hq : getQuadrant box (getBox v) with _ | i
      · refine ⟨.inner (kept getBox box vs ++ [v]) fun i => .leaf (moved getBox box vs i),
          by simp only [addLeaf, hb, not_true_eq_false, and_false, if_false, hl, hq], ?_, ?_, ?_⟩
        · rw [← bag_split getBox box vs]
          simp only [Node.bag, ← Multiset.coe_add]
          rw [← Multiset.singleton_add]
          simp only [Multiset.coe_singleton]
          abel
        · intro w hw
          rcases List.mem_append.1 hw with hw | hw
          · exact pk w hw
          · rw [List.mem_singleton.1 hw]; exact ⟨hb, hq⟩
        · intro j
          exact ⟨fun w hw => (pm j).1 w (by simpa [Node.bag] using hw), (pm j).2⟩
      · obtain ⟨n, e, hn, hpn⟩ := ih (computeBox box i) (moved getBox box vs i) (contains_child _ _ _ hb hq) (pm i).2
        refine ⟨.inner (kept getBox box vs) (Function.update (fun j => .leaf (moved getBox box vs j)) i n), ?_, ?_, ?_, ?_⟩
        · simp only [addLeaf, hb, not_true_eq_false, and_false, if_false, hl, hq, e, Res.bind]
        · rw [← bag_split getBox box vs, Node.bag, bag_update, hn, ← Finset.add_sum_erase _ _ (Finset.mem_univ i)]
          simp only [Node.bag, ← Multiset.singleton_add]
          abel
        · exact pk
        · intro j
          by_cases hj : j = i
          · subst hj
            rw [Function.update_self]
            refine ⟨fun w hw => ?_, hpn⟩
            rw [hn, Multiset.mem_cons] at hw
            rcases hw with hw | hw
            · rw [hw]; exact ⟨hb, hq⟩
            · exact (pm j).1 w (by simpa using hw)
          · rw [Function.update_of_ne hj]
            exact ⟨fun w hw => (pm j).1 w (by simpa [Node.bag] using hw), (pm j).2⟩

theorem addNode_spec (checked : Bool) (getBox : α → Box K) (v : α) (t : Node α) : ∀ (depth : Nat) (box : Box K),
    box.contains (getBox v) → Placed getBox box t →
    ∃ n, addNode checked getBox t depth box v = .ok n ∧ n.bag = v ::ₘ t.bag ∧ Placed getBox box n := by
  induction t with
  | leaf vs => intro depth box hb hp; exact addLeaf_spec checked getBox v (8 - depth) box vs hb hp
  | inner vs c ih =>
    intro depth box hb hp
    rcases hq : getQuadrant box (getBox v) with _ | i
    · refine ⟨.inner (vs ++ [v]) c, by simp [addNode, hb, hq], ?_, ?_, hp.2⟩
      · simp only [Node.bag, ← Multiset.coe_add, ← Multiset.singleton_add, Multiset.coe_singleton]
        abel
      · intro w hw
        rcases List.mem_append.1 hw with hw | hw
        · exact hp.1 w hw
        · rw [List.mem_singleton.1 hw]; exact ⟨hb, hq⟩
    · obtain ⟨n, e, hn, hpn⟩ := ih i (depth + 1) (computeBox box i) (contains_child _ _ _ hb hq) (hp.2 i).2
      refine ⟨.inner vs (Function.update c i n), by simp [addNode, hb, hq, e, Res.bind], ?_, hp.1, ?_⟩
      · rw [Node.bag, bag_update, hn, Node.bag, ← Finset.add_sum_erase _ _ (Finset.mem_univ i)]
        simp only [← Multiset.singleton_add]
        abel
      · intro j
        by_cases hj : j = i
        · subst hj
          rw [Function.update_self]
          refine ⟨fun w hw => ?_, hpn⟩
          rw [hn, Multiset.mem_cons] at hw
          rcases hw with hw | hw
          · rw [hw]; exact ⟨hb, hq⟩
          · exact (hp.2 j).1 w hw
        · rw [Function.update_of_ne hj]
          exact hp.2 j

/-! ## Removing -/

theorem removeValue_spec (vs : List α) (v : α) (h : v ∈ vs) :
    ∃ l, removeValue vs v = .ok l ∧ (l : Multiset α) = (vs : Multiset α).erase v := by
  have hne : vs ≠ [] := List.ne_nil_of_mem h
  obtain ⟨front, l, rfl⟩ : ∃ front l, vs = front ++ [l] := ⟨vs.dropLast, vs.getLast hne, (List.dropLast_append_getLast hne).symm⟩
  refine ⟨_, by rw [removeValue, if_pos h, List.getLast?_append]; rfl, ?_⟩
  by_cases hf : v ∈ front
  · have hi : (front ++ [l]).idxOf v = front.idxOf v := List.idxOf_append_of_mem hf
    have hlt : front.idxOf v < front.length := List.idxOf_lt_length_of_mem hf
    have : (((front ++ [l]).set (front.idxOf v) l).dropLast) = front.set (front.idxOf v) l := by
      rw [List.set_append_left _ _ hlt, List.dropLast_concat]
    simp only [hi, List.getLast_singleton]
    rw [this, Multiset.coe_erase, Multiset.coe_eq_coe, List.erase_append_left _ hf]
    clear this hi h hne
    induction front with
    | nil => simp at hf
    | cons a front ih =>
      by_cases ha : a = v
      · subst ha
        simp
        exact (List.perm_append_singleton l front).symm
      · have hv : v ∈ front := by simpa [Ne.symm ha] using hf
        rw [List.idxOf_cons_ne _ ha, List.set_cons_succ, List.erase_cons_tail (by simpa using ha), List.cons_append]
        exact List.Perm.cons _ (ih hv (List.idxOf_lt_length_of_mem hv))
  · have hl : v = l := by simpa [hf] using h
    subst hl
    have hi : (front ++ [v]).idxOf v = front.length := by
      rw [List.idxOf_append_of_notMem hf]; simp
    simp only [hi]
    rw [List.set_append_right _ _ (le_refl _), Multiset.coe_erase, List.erase_append_right _ hf]
    simp

omit [DecidableEq α] in
theorem mem_of_leafValues (n : Node α) (vs : List α) (h : n.leafValues? = some vs) : n = .leaf vs := by
  cases n with
  | leaf ws => simpa [Node.leafValues?] using h
  | inner _ _ => simp [Node.leafValues?] at h

omit [DecidableEq α] [IsStrictOrderedRing K] in
theorem tryMerge_spec (getBox : α → Box K) (box : Box K) (vs : List α) (c : Fin 4 → Node α) (hp : Placed getBox box (.inner vs c)) :
    (tryMerge vs c).1.bag = (Node.inner vs c).bag ∧ Placed getBox box (tryMerge vs c).1 := by
  unfold tryMerge
  split
  · rename_i a b d e h0 h1 h2 h3
    split
    · have e0 := mem_of_leafValues _ _ h0
      have e1 := mem_of_leafValues _ _ h1
      have e2 := mem_of_leafValues _ _ h2
      have e3 := mem_of_leafValues _ _ h3
      refine ⟨?_, ?_⟩
      · simp only [Node.bag, Fin.sum_univ_four, e0, e1, e2, e3, ← Multiset.coe_add]
        abel
      · intro w hw
        apply placed_contains getBox box (.inner vs c) hp w
        simp only [Node.bag, Fin.sum_univ_four, e0, e1, e2, e3]
        simpa [or_assoc] using hw
    · exact ⟨rfl, hp⟩
  · exact ⟨rfl, hp⟩

omit [IsStrictOrderedRing K] in
theorem removeNode_spec (checked : Bool) (getBox : α → Box K) (v : α) (t : Node α) : ∀ (box : Box K),
    Placed getBox box t → v ∈ t.bag →
    ∃ r, removeNode checked getBox t box v = .ok r ∧ r.1.bag = t.bag.erase v ∧ Placed getBox box r.1 := by
  induction t with
  | leaf vs =>
    intro box hp hv
    have hb := placed_contains getBox box _ hp v hv
    obtain ⟨l, e, hl⟩ := removeValue_spec vs v (by simpa [Node.bag] using hv)
    refine ⟨(.leaf l, true), by simp [removeNode, hb, e, Res.bind], by simpa [Node.bag] using hl, ?_⟩
    intro w hw
    apply hp w
    have : w ∈ (l : Multiset α) := by simpa using hw
    rw [hl] at this
    simpa using Multiset.mem_of_mem_erase this
  | inner vs c ih =>
    intro box hp hv
    have hb := placed_contains getBox box _ hp v hv
    rcases hq : getQuadrant box (getBox v) with _ | i
    · have hvs : v ∈ vs := by
        rcases (mem_bag_inner vs c v).1 hv with h | ⟨i, h⟩
        · exact h
        · have := ((hp.2 i).1 v h).2
          rw [hq] at this; cases this
      obtain ⟨l, e, hl⟩ := removeValue_spec vs v hvs
      refine ⟨(.inner l c, false), by simp [removeNode, hb, hq, e, Res.bind], ?_, ?_, hp.2⟩
      · simp only [Node.bag, hl]
        rw [Multiset.erase_add_left_pos _ (by simpa using hvs)]
      · intro w hw
        apply hp.1 w
        have : w ∈ (l : Multiset α) := by simpa using hw
        rw [hl] at this
        simpa using Multiset.mem_of_mem_erase this
    · have hvi : v ∈ (c i).bag := by
        rcases (mem_bag_inner vs c v).1 hv with h | ⟨j, h⟩
        · have := (hp.1 v h).2
          rw [hq] at this; cases this
        · have := ((hp.2 j).1 v h).2
          rw [hq] at this; cases this; exact h
      obtain ⟨r, e, hr, hpr⟩ := ih i (computeBox box i) (hp.2 i).2 hvi
      have hbag : (Node.inner vs (Function.update c i r.1)).bag = (Node.inner vs c).bag.erase v := by
        rw [Node.bag, bag_update, hr, Node.bag, ← Finset.add_sum_erase _ _ (Finset.mem_univ i)]
        rw [show (vs : Multiset α) + ((c i).bag + ∑ x ∈ Finset.univ.erase i, (c x).bag) =
          (c i).bag + (vs + ∑ x ∈ Finset.univ.erase i, (c x).bag) by abel, Multiset.erase_add_left_pos _ hvi]
        abel
      have hpl : Placed getBox box (.inner vs (Function.update c i r.1)) := by
        refine ⟨hp.1, fun j => ?_⟩
        by_cases hj : j = i
        · subst hj
          rw [Function.update_self]
          refine ⟨fun w hw => ?_, hpr⟩
          rw [hr] at hw
          exact (hp.2 j).1 w (Multiset.mem_of_mem_erase hw)
        · rw [Function.update_of_ne hj]
          exact hp.2 j
      by_cases h2 : r.2
      · have := tryMerge_spec getBox box vs _ hpl
        refine ⟨_, by simp only [removeNode, hb, not_true_eq_false, and_false, if_false, hq, e, Res.bind, h2, if_true], ?_, this.2⟩
        rw [this.1, hbag]
      · exact ⟨(.inner vs (Function.update c i r.1), false), by simp [removeNode, hb, hq, e, Res.bind, h2], hbag, hpl⟩

end Siren.Math.Quad
