import Verif.Math.QuadProps
import Mathlib.Data.Multiset.Powerset
import Mathlib.Algebra.Order.Ring.Rat
import Mathlib.Algebra.Field.Rat

set_option autoImplicit false
set_option linter.unusedSectionVars false

/-!
# C122: a quadtree returns what was put into it

For every sequence of additions and removals, whatever it makes of the tree.
-/

namespace Siren.Math.Quad

open Siren

variable {K : Type} [Field K] [LinearOrder K] {α : Type} [DecidableEq α]

/-! ## Specification -/

/-- A call that changes the tree. -/
inductive Op (α : Type) where
  | add (v : α)
  | remove (v : α)

/-- What a plain collection holds after the calls. -/
def held : Multiset α → List (Op α) → Multiset α
  | s, [] => s
  | s, .add v :: ops => held (v ::ₘ s) ops
  | s, .remove v :: ops => held (s.erase v) ops

/-- Only values inside the box of the tree are added, and only values it holds are removed. -/
def Legal (getBox : α → Box K) (root : Box K) : Multiset α → List (Op α) → Prop
  | _, [] => True
  | s, .add v :: ops => root.contains (getBox v) ∧ Legal getBox root (v ::ₘ s) ops
  | s, .remove v :: ops => v ∈ s ∧ Legal getBox root (s.erase v) ops

/-- The two elements of a pair overlap. -/
def Overlapping (getBox : α → Box K) (m : Multiset α) : Prop :=
  ∃ a b, m = {a, b} ∧ (getBox a).intersects (getBox b)

/-- No node lies more than `room` levels down, and a leaf holds at most 16 values unless it lies on the last level. -/
def Balanced : Nat → Node α → Prop
  | room, .leaf vs => room = 0 ∨ vs.length ≤ 16
  | room, .inner _ c => ∃ r, room = r + 1 ∧ ∀ i, Balanced r (c i)

/-- The calls, one after the other. -/
def run (checked : Bool) (getBox : α → Box K) (root : Box K) : Tree α → List (Op α) → Res (Tree α)
  | t, [] => .ok t
  | t, .add v :: ops => (add checked getBox root t v).bind fun t' => run checked getBox root t' ops
  | t, .remove v :: ops => (remove checked getBox root t v).bind fun t' => run checked getBox root t' ops

/-! ## Queries -/

omit [DecidableEq α] in
theorem gather_ok {β : Type} (f : Fin 4 → Res (List β)) (g : Fin 4 → List β) (h : ∀ i, f i = .ok (g i)) :
    gather f = .ok (g 0 ++ g 1 ++ g 2 ++ g 3) := by
  simp [gather, h, Res.bind]

theorem queryNode_spec (checked : Bool) (getBox : α → Box K) (q : Box K) (t : Node α) : ∀ box : Box K,
    (checked = true → q.intersects box) → Placed getBox box t →
    ∃ l, queryNode checked getBox t box q = .ok l ∧ (l : Multiset α) = t.bag.filter fun v => q.intersects (getBox v) := by
  induction t with
  | leaf vs =>
    intro box hc _
    refine ⟨vs.filter fun v => q.intersects (getBox v), ?_, by simp [Node.bag]⟩
    rw [queryNode, if_neg]
    rintro ⟨h1, h2⟩
    exact h2 (hc h1)
  | inner vs c ih =>
    intro box hc hp
    have hi : ∀ i, ∃ l, (if q.intersects (computeBox box i) then queryNode checked getBox (c i) (computeBox box i) q else .ok []) = .ok l ∧
        (l : Multiset α) = (c i).bag.filter fun v => q.intersects (getBox v) := by
      intro i
      by_cases hb : q.intersects (computeBox box i)
      · rw [if_pos hb]
        exact ih i _ (fun _ => hb) (hp.2 i).2
      · refine ⟨[], if_neg hb, ?_⟩
        rw [Multiset.coe_nil, eq_comm, Multiset.filter_eq_nil]
        intro v hv hq
        exact hb (intersects_mono q _ _ (placed_contains getBox _ _ (hp.2 i).2 v hv) hq)
    choose g hg1 hg2 using hi
    refine ⟨(vs.filter fun v => q.intersects (getBox v)) ++ (g 0 ++ g 1 ++ g 2 ++ g 3), ?_, ?_⟩
    · rw [queryNode, if_neg, gather_ok _ g hg1]
      · rfl
      · rintro ⟨h1, h2⟩
        exact h2 (hc h1)
    · rw [Node.bag, Fin.sum_univ_four]
      simp only [← Multiset.coe_add, Multiset.filter_add, hg2]
      rw [Multiset.filter_coe]

/-! ## Pairs -/

open Classical in
/-- The overlapping pairs of a collection. -/
noncomputable def overlaps (getBox : α → Box K) (s : Multiset α) : Multiset (Multiset α) :=
  (Multiset.powersetCard 2 s).filter (Overlapping getBox)

/-- Pairs of a value with the elements of a collection it overlaps. -/
def withOne (getBox : α → Box K) (a : α) (s : Multiset α) : Multiset (Multiset α) :=
  (s.filter fun b => (getBox a).intersects (getBox b)).map fun b => {a, b}

theorem overlapping_pair (getBox : α → Box K) (a b : α) :
    Overlapping getBox {a, b} ↔ (getBox a).intersects (getBox b) := by
  constructor
  · rintro ⟨c, d, h, hi⟩
    have h' : ({a, b} : Multiset α) = {c, d} := h
    simp only [Multiset.insert_eq_cons] at h'
    rw [Multiset.cons_eq_cons] at h'
    rcases h' with ⟨rfl, h2⟩ | ⟨_, cs, h2, h3⟩
    · rw [Multiset.singleton_inj.1 h2]; exact hi
    · have e : b = c := by
        have : c ∈ ({b} : Multiset α) := by rw [h2]; exact Multiset.mem_cons_self _ _
        exact (Multiset.mem_singleton.1 this).symm
      have e2 : d = a := by
        have : a ∈ ({d} : Multiset α) := by rw [h3]; exact Multiset.mem_cons_self _ _
        exact (Multiset.mem_singleton.1 this).symm
      subst e e2
      exact (intersects_comm _ _).1 hi
  · intro h
    exact ⟨a, b, rfl, h⟩

theorem overlaps_cons (getBox : α → Box K) (a : α) (s : Multiset α) :
    overlaps getBox (a ::ₘ s) = overlaps getBox s + withOne getBox a s := by
  classical
  unfold overlaps withOne
  rw [Multiset.powersetCard_cons, Multiset.filter_add, Multiset.powersetCard_one, Multiset.map_map]
  congr 1
  rw [Multiset.filter_map]
  congr 1
  apply Multiset.filter_congr
  intro b _
  exact overlapping_pair getBox a b

theorem overlaps_zero (getBox : α → Box K) : overlaps getBox (0 : Multiset α) = 0 := by
  classical
  unfold overlaps
  rw [Multiset.powersetCard_zero_right]
  simp

theorem withOne_add (getBox : α → Box K) (a : α) (s t : Multiset α) :
    withOne getBox a (s + t) = withOne getBox a s + withOne getBox a t := by
  simp [withOne, Multiset.filter_add]

theorem overlaps_add (getBox : α → Box K) (s t : Multiset α) :
    overlaps getBox (s + t) = overlaps getBox s + overlaps getBox t + s.bind fun a => withOne getBox a t := by
  induction s using Multiset.induction with
  | empty => simp [overlaps_zero]
  | cons a s ih =>
    rw [Multiset.cons_add, overlaps_cons, overlaps_cons, ih, Multiset.cons_bind, withOne_add]
    abel

/-- A pair as a collection of two. -/
def unordered (p : α × α) : Multiset α := {p.1, p.2}

theorem pairsIn_spec (getBox : α → Box K) (vs : List α) : ∀ before : List α,
    ((pairsIn getBox before vs).map unordered : Multiset (Multiset α)) + overlaps getBox (before : Multiset α) =
      overlaps getBox ((before : Multiset α) + (vs : Multiset α)) := by
  induction vs with
  | nil => intro before; simp [pairsIn]
  | cons v vs ih =>
    intro before
    rw [pairsIn, List.map_append, ← Multiset.coe_add]
    have h := ih (before ++ [v])
    have e1 : ((before ++ [v] : List α) : Multiset α) = v ::ₘ (before : Multiset α) := by
      rw [← Multiset.coe_add, Multiset.coe_singleton, add_comm, Multiset.singleton_add]
    have e2 : (before : Multiset α) + ((v :: vs : List α) : Multiset α) = ((before ++ [v] : List α) : Multiset α) + (vs : Multiset α) := by
      rw [e1, ← Multiset.cons_coe, Multiset.add_cons, Multiset.cons_add]
    rw [e2, ← h, e1, overlaps_cons]
    have e3 : ((((before.filter fun w => (getBox v).intersects (getBox w)).map fun w => (v, w)).map unordered : List (Multiset α)) :
        Multiset (Multiset α)) = withOne getBox v (before : Multiset α) := by
      unfold withOne
      rw [Multiset.filter_coe, Multiset.map_coe, List.map_map]
      rfl
    rw [e3]
    abel

theorem pairsBelow_spec (getBox : α → Box K) (v : α) (t : Node α) :
    ((pairsBelow getBox t v).map unordered : Multiset (Multiset α)) = withOne getBox v t.bag := by
  induction t with
  | leaf vs =>
    unfold withOne
    rw [Node.bag, Multiset.filter_coe, Multiset.map_coe, pairsBelow, List.map_map]
    rfl
  | inner vs c ih =>
    rw [Node.bag, withOne_add, pairsBelow, List.map_append, ← Multiset.coe_add]
    congr 1
    · unfold withOne
      rw [Multiset.filter_coe, Multiset.map_coe, List.map_map]
      rfl
    · rw [Fin.sum_univ_four]
      simp only [withOne_add, ← ih]
      simp [List.finRange_succ, ← Multiset.coe_add, add_assoc]

theorem withOne_apart (getBox : α → Box K) (a : α) (s : Multiset α) (h : ∀ b ∈ s, ¬ (getBox a).intersects (getBox b)) :
    withOne getBox a s = 0 := by
  unfold withOne
  rw [Multiset.filter_eq_nil.2 h]
  rfl

theorem bind_apart (getBox : α → Box K) (s t : Multiset α) (h : ∀ a ∈ s, ∀ b ∈ t, ¬ (getBox a).intersects (getBox b)) :
    (s.bind fun a => withOne getBox a t) = 0 := by
  rw [Multiset.bind_congr (g := fun _ => 0) (fun a ha => withOne_apart getBox a t (h a ha))]
  simp

theorem pairsNode_spec (getBox : α → Box K) (t : Node α) : ∀ box : Box K, Placed getBox box t →
    ((pairsNode getBox t).map unordered : Multiset (Multiset α)) = overlaps getBox t.bag := by
  induction t with
  | leaf vs =>
    intro box _
    have := pairsIn_spec getBox vs []
    simpa [overlaps_zero, Node.bag, pairsNode] using this
  | inner vs c ih =>
    intro box hp
    have hin := pairsIn_spec getBox vs []
    simp only [Multiset.coe_nil, overlaps_zero, add_zero, zero_add] at hin
    have far : ∀ i j, i ≠ j → ∀ a ∈ (c i).bag, ∀ b ∈ (c j).bag, ¬ (getBox a).intersects (getBox b) := by
      intro i j hij a ha b hb
      exact quadrants_apart box _ _ i j ((hp.2 i).1 a ha).2 ((hp.2 j).1 b hb).2 hij
    rw [pairsNode, List.map_append, List.map_append, ← Multiset.coe_add, ← Multiset.coe_add, hin, Node.bag, overlaps_add, add_right_comm]
    congr 1
    · congr 1
      · rw [Fin.sum_univ_four, overlaps_add, overlaps_add, overlaps_add]
        rw [bind_apart getBox (c 0).bag (c 1).bag (far 0 1 (by decide)),
          bind_apart getBox ((c 0).bag + (c 1).bag) (c 2).bag (fun a ha b hb => by
            rcases Multiset.mem_add.1 ha with ha | ha
            · exact far 0 2 (by decide) a ha b hb
            · exact far 1 2 (by decide) a ha b hb),
          bind_apart getBox ((c 0).bag + (c 1).bag + (c 2).bag) (c 3).bag (fun a ha b hb => by
            rcases Multiset.mem_add.1 ha with ha | ha
            · rcases Multiset.mem_add.1 ha with ha | ha
              · exact far 0 3 (by decide) a ha b hb
              · exact far 1 3 (by decide) a ha b hb
            · exact far 2 3 (by decide) a ha b hb)]
        simp only [add_zero, ← fun i => ih i _ (hp.2 i).2]
        simp [List.finRange_succ, ← Multiset.coe_add, add_assoc]
    · rw [Fin.sum_univ_four]
      have e : ∀ i, ((vs.flatMap fun v => pairsBelow getBox (c i) v).map unordered : Multiset (Multiset α)) =
          (vs : Multiset α).bind fun a => withOne getBox a (c i).bag := by
        intro i
        simp only [← pairsBelow_spec]
        rw [Multiset.coe_bind, List.map_flatMap]
      simp only [withOne_add, Multiset.bind_add, ← e]
      simp [List.finRange_succ, ← Multiset.coe_add, add_assoc, List.map_flatMap]

/-! ## Depth -/

theorem addLeaf_balanced (checked : Bool) (getBox : α → Box K) (v : α) : ∀ (room : Nat) (box : Box K) (vs : List α) (n : Node α),
    Balanced room (.leaf vs) → addLeaf checked getBox room box vs v = .ok n → Balanced room n := by
  intro room
  induction room with
  | zero =>
    intro box vs n _ h
    rw [addLeaf] at h
    split at h
    · cases h
    · cases h; exact Or.inl rfl
  | succ room ih =>
    intro box vs n hb h
    have hvs : vs.length ≤ 16 := by
      rcases hb with hb | hb
      · omega
      · exact hb
    have hm : ∀ i, Balanced room (.leaf (moved getBox box vs i)) := fun i =>
      Or.inr (le_trans (List.length_filter_le _ _) hvs)
    rw [addLeaf] at h
    split at h
    · cases h
    · split at h
      · cases h
        right
        simp only [List.length_append, List.length_singleton]
        omega
      · split at h
        · cases h
          exact ⟨room, rfl, hm⟩
        · rename_i i _
          rcases e : addLeaf checked getBox room (computeBox box i) (moved getBox box vs i) v with m | x | _ <;>
            rw [e] at h <;> simp only [Res.bind] at h <;> cases h
          refine ⟨room, rfl, fun j => ?_⟩
          by_cases hj : j = i
          · subst hj
            rw [Function.update_self]
            exact ih _ _ _ (hm j) e
          · rw [Function.update_of_ne hj]
            exact hm j

theorem addNode_balanced (checked : Bool) (getBox : α → Box K) (v : α) (t : Node α) : ∀ (depth : Nat) (box : Box K) (n : Node α),
    Balanced (8 - depth) t → addNode checked getBox t depth box v = .ok n → Balanced (8 - depth) n := by
  induction t with
  | leaf vs => intro depth box n hb h; exact addLeaf_balanced checked getBox v _ box vs n hb h
  | inner vs c ih =>
    intro depth box n hb h
    obtain ⟨r, hr, hc⟩ := hb
    rw [addNode] at h
    split at h
    · cases h
    · split at h
      · cases h
        exact ⟨r, hr, hc⟩
      · rename_i i _
        rcases e : addNode checked getBox (c i) (depth + 1) (computeBox box i) v with m | x | _ <;>
          rw [e] at h <;> simp only [Res.bind] at h <;> cases h
        refine ⟨r, hr, fun j => ?_⟩
        have hr' : r = 8 - (depth + 1) := by omega
        by_cases hj : j = i
        · subst hj
          rw [Function.update_self, hr']
          exact ih j _ _ _ (by rw [← hr']; exact hc j) e
        · rw [Function.update_of_ne hj]
          exact hc j

theorem removeValue_length (vs l : List α) (v : α) (h : removeValue vs v = .ok l) : l.length ≤ vs.length := by
  unfold removeValue at h
  split at h
  · split at h
    · cases h; simp
    · cases h
  · cases h

theorem removeNode_balanced (checked : Bool) (getBox : α → Box K) (v : α) (t : Node α) : ∀ (room : Nat) (box : Box K) (r : Node α × Bool),
    Balanced room t → removeNode checked getBox t box v = .ok r → Balanced room r.1 := by
  induction t with
  | leaf vs =>
    intro room box r hb h
    rw [removeNode] at h
    split at h
    · cases h
    · rcases e : removeValue vs v with l | x | _ <;> rw [e] at h <;> simp only [Res.bind] at h <;> cases h
      have := removeValue_length vs l v e
      rcases hb with hb | hb
      · exact Or.inl hb
      · exact Or.inr (le_trans this hb)
  | inner vs c ih =>
    intro room box r hb h
    obtain ⟨k, hk, hc⟩ := hb
    rw [removeNode] at h
    split at h
    · cases h
    · split at h
      · rename_i i _
        rcases e : removeNode checked getBox (c i) (computeBox box i) v with m | x | _ <;> rw [e] at h <;> simp only [Res.bind] at h
        · have hn : Balanced room (.inner vs (Function.update c i m.1)) := by
            refine ⟨k, hk, fun j => ?_⟩
            by_cases hj : j = i
            · subst hj
              rw [Function.update_self]
              exact ih j _ _ _ (hc j) e
            · rw [Function.update_of_ne hj]
              exact hc j
          split at h
          · cases h
            unfold tryMerge
            split
            · split
              · rename_i hl
                right
                simp only [List.length_append]
                omega
              · exact hn
            · exact hn
          · cases h
            exact hn
        · cases h
        · cases h
      · rcases e : removeValue vs v with l | x | _ <;> rw [e] at h <;> simp only [Res.bind] at h <;> cases h
        exact ⟨k, hk, hc⟩

/-! ## C122 -/

variable [IsStrictOrderedRing K]

theorem run_spec (checked : Bool) (getBox : α → Box K) (root : Box K) (ops : List (Op α)) : ∀ t : Tree α,
    Placed getBox root t → Balanced 8 t → Legal getBox root t.bag ops →
    ∃ t', run checked getBox root t ops = .ok t' ∧ t'.bag = held t.bag ops ∧ Placed getBox root t' ∧ Balanced 8 t' := by
  induction ops with
  | nil => intro t hp hb _; exact ⟨t, rfl, rfl, hp, hb⟩
  | cons op ops ih =>
    intro t hp hb hl
    cases op with
    | add v =>
      obtain ⟨n, e, hn, hpn⟩ := addNode_spec checked getBox v t 0 root hl.1 hp
      obtain ⟨t', e', h1, h2, h3⟩ := ih n hpn (addNode_balanced checked getBox v t 0 root n hb e) (by rw [hn]; exact hl.2)
      refine ⟨t', by simp [run, add, e, Res.bind, e'], by rw [h1, hn, held], h2, h3⟩
    | remove v =>
      obtain ⟨r, e, hr, hpr⟩ := removeNode_spec checked getBox v t root hp hl.1
      obtain ⟨t', e', h1, h2, h3⟩ := ih r.1 hpr (removeNode_balanced checked getBox v t 8 root r hb e) (by rw [hr]; exact hl.2)
      refine ⟨t', by simp [run, remove, e, Res.bind, e'], by rw [h1, hr, held], h2, h3⟩

/-- After any legal sequence of additions and removals, with assertions compiled in or not, no call has failed and a query returns exactly
the values held whose boxes overlap the queried box, each as often as it is held. With assertions the queried box must overlap the box of
the tree. -/
theorem C122_query (checked : Bool) (getBox : α → Box K) (root : Box K) (ops : List (Op α)) (hl : Legal getBox root 0 ops) :
    ∃ t, run checked getBox root empty ops = .ok t ∧
      ∀ q : Box K, (checked = true → q.intersects root) →
        ∃ l, query checked getBox root t q = .ok l ∧ (l : Multiset α) = (held 0 ops).filter fun v => q.intersects (getBox v) := by
  obtain ⟨t, e, hb, hp, _⟩ := run_spec checked getBox root ops empty (by intro v hv; cases hv) (Or.inr (by simp)) hl
  refine ⟨t, e, fun q hq => ?_⟩
  obtain ⟨l, h1, h2⟩ := queryNode_spec checked getBox q t root hq hp
  exact ⟨l, h1, by rw [h2, hb]; rfl⟩

/-- The pairs reported are exactly the two-element selections from the values held whose boxes overlap, each reported once. -/
theorem C122_pairs (checked : Bool) (getBox : α → Box K) (root : Box K) (ops : List (Op α)) (hl : Legal getBox root 0 ops) (t : Tree α)
    (ht : run checked getBox root empty ops = .ok t) :
    ((findAllIntersections getBox t).map fun p => ({p.1, p.2} : Multiset α) : Multiset (Multiset α)) =
      open Classical in (Multiset.powersetCard 2 (held 0 ops)).filter (Overlapping getBox) := by
  obtain ⟨t', e, hb, hp, _⟩ := run_spec checked getBox root ops empty (by intro v hv; cases hv) (Or.inr (by simp)) hl
  rw [ht] at e
  cases e
  have := pairsNode_spec getBox t root hp
  rw [hb] at this
  exact this

/-- Whatever the history, the tree is at most eight levels deep and a leaf above the last level holds at most sixteen values. -/
theorem C122_depth (checked : Bool) (getBox : α → Box K) (root : Box K) (ops : List (Op α)) (hl : Legal getBox root 0 ops) (t : Tree α)
    (ht : run checked getBox root empty ops = .ok t) : Balanced 8 t := by
  obtain ⟨t', e, _, _, hb⟩ := run_spec checked getBox root ops empty (by intro v hv; cases hv) (Or.inr (by simp)) hl
  rw [ht] at e
  cases e
  exact hb

/-- Boxes of positive size overlap when some point lies strictly inside both. -/
theorem C122_overlap (a b : Box K) (ha : 0 < a.width ∧ 0 < a.height) (hb : 0 < b.width ∧ 0 < b.height) :
    a.intersects b ↔ ∃ x y, (a.left < x ∧ x < a.left + a.width ∧ a.top < y ∧ y < a.top + a.height) ∧
      (b.left < x ∧ x < b.left + b.width ∧ b.top < y ∧ y < b.top + b.height) := by
  unfold Box.intersects Box.right Box.bottom
  constructor
  · intro h
    push Not at h
    obtain ⟨h1, h2, h3, h4⟩ := h
    obtain ⟨x, hx1, hx2⟩ := exists_between (show max a.left b.left < min (a.left + a.width) (b.left + b.width) by
      rw [lt_min_iff, max_lt_iff, max_lt_iff]
      exact ⟨⟨by linarith [ha.1], h2⟩, h1, by linarith [hb.1]⟩)
    obtain ⟨y, hy1, hy2⟩ := exists_between (show max a.top b.top < min (a.top + a.height) (b.top + b.height) by
      rw [lt_min_iff, max_lt_iff, max_lt_iff]
      exact ⟨⟨by linarith [ha.2], h4⟩, h3, by linarith [hb.2]⟩)
    rw [max_lt_iff] at hx1 hy1
    rw [lt_min_iff] at hx2 hy2
    exact ⟨x, y, ⟨hx1.1, hx2.1, hy1.1, hy2.1⟩, hx1.2, hx2.2, hy1.2, hy2.2⟩
  · rintro ⟨x, y, ⟨h1, h2, h3, h4⟩, h5, h6, h7, h8⟩ h
    rcases h with h | h | h | h
    · exact absurd (lt_of_le_of_lt h h1) (by linarith)
    · exact absurd (lt_of_lt_of_le h2 h) (by linarith)
    · exact absurd (lt_of_le_of_lt h h3) (by linarith)
    · exact absurd (lt_of_lt_of_le h4 h) (by linarith)

/-- A query with a point, given as a box without extent, returns the boxes the point lies strictly inside of. -/
theorem C122_point (x y : K) (b : Box K) : (⟨x, y, 0, 0⟩ : Box K).intersects b ↔
    b.left < x ∧ x < b.left + b.width ∧ b.top < y ∧ y < b.top + b.height := by
  unfold Box.intersects Box.right Box.bottom
  push Not
  simp only [add_zero]
  tauto

/-! ### Cases -/

/-- Small boxes along a diagonal of the square from 0 to 64. -/
def diag (n : Nat) : Box ℚ := ⟨n, n, 3 / 2, 3 / 2⟩

/-- Twenty boxes, of which one is taken out again. -/
def calls : List (Op Nat) := (List.range 20).map .add ++ [.remove 7]

instance decLegal (getBox : α → Box K) (root : Box K) : (s : Multiset α) → (ops : List (Op α)) → Decidable (Legal getBox root s ops)
  | _, [] => isTrue trivial
  | s, .add v :: ops => @instDecidableAnd _ _ _ (decLegal getBox root (v ::ₘ s) ops)
  | s, .remove v :: ops => @instDecidableAnd _ _ _ (decLegal getBox root (s.erase v) ops)

/-- The hypotheses hold for a tree that has been split, and the removed value is gone. -/
example : Legal diag ⟨0, 0, 64, 64⟩ 0 calls ∧
    ((run true diag ⟨0, 0, 64, 64⟩ empty calls).bind fun t => query true diag ⟨0, 0, 64, 64⟩ t ⟨6, 6, 3, 3⟩) = .ok [5, 6, 8] ∧
    ((run true diag ⟨0, 0, 64, 64⟩ empty calls).bind fun t => .ok (findAllIntersections diag t)) =
      .ok [(15, 14), (15, 16), (1, 0), (2, 1), (3, 2), (4, 3), (5, 4), (6, 5), (9, 8), (10, 9), (11, 10), (12, 11), (13, 14), (13, 12),
        (17, 16), (18, 17), (19, 18)] := by decide +kernel

/-- A box outside the box of the tree is not refused when assertions are not compiled in, and a query for it does not find it. -/
theorem C122_outside_fails : ∃ (getBox : Nat → Box ℚ) (root q : Box ℚ), q.intersects (getBox 16) ∧ ¬ root.contains (getBox 16) ∧
    ((run false getBox root empty ((List.range 17).map .add)).bind fun t => query false getBox root t q) = .ok [] :=
  ⟨fun n => if n < 16 then ⟨0, 0, 1, 1⟩ else ⟨100, 100, 1, 1⟩, ⟨0, 0, 64, 64⟩, ⟨99, 99, 3, 3⟩, by decide +kernel⟩

/-- Removing a value that is not held writes past the end of a vector, or fails an assertion. -/
theorem C122_absent_fails (checked : Bool) (getBox : α → Box K) (root : Box K) (v : α) :
    remove checked getBox root (empty : Tree α) v = .ub := by
  unfold remove empty removeNode removeValue
  split <;> simp [Res.bind]

end Siren.Math.Quad
