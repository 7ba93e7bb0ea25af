import Verif.Injection.EventModel
import Mathlib.Data.List.Nodup
import Mathlib.Data.List.Perm.Basic
import Mathlib.Data.List.Range

set_option autoImplicit false

/-!
# C11 and C12: what `GenerateEvent` returns
-/

namespace Siren.Injection

open Siren

section
variable {G T A : Type}

/-! ## Specification of an event -/

/-- The record is the sampled one, but for the production times of the secondaries. -/
structure SameButTimes (a b : Rec T A) : Prop where
  types : a.types = b.types
  initial : a.initial = b.initial
  rest : a.rest = b.rest
  times : a.times.length = b.times.length

/-- `tree` is a complete event: `made k` is the record sampled for the entry at position `k`, `origin k` are the entry and
the index of the secondary that interacts in it (`k > 0`), `seen p` is the tree when the entry at position `p` had just been
added. -/
structure IsEvent (w : World G T A) (first : Rec T A) (tree : EventTree T A) (made : Nat → Rec T A) (origin : Nat → Nat × Nat)
    (seen : Nat → EventTree T A) : Prop where
  /-- the root is the primary interaction -/
  root : made 0 = first ∧ ∃ node, tree[0]? = some node ∧ node.parent = none
  /-- every other entry is the interaction of a secondary of an earlier entry, its parent -/
  entry : ∀ k, 0 < k → k < tree.length →
    (origin k).1 < k ∧ (∃ node, tree[k]? = some node ∧ node.parent = some (origin k).1) ∧
    ∃ g g', w.sample g (made (origin k).1) (origin k).2 = (.ok (made k), g')
  /-- no secondary has two entries -/
  unique : ∀ j k, 0 < j → 0 < k → j < tree.length → k < tree.length → origin j = origin k → j = k
  /-- a secondary has an entry exactly when its type has a process and the stopping condition did not fire -/
  eligible : ∀ p i, p < tree.length →
    ((∃ k, 0 < k ∧ k < tree.length ∧ origin k = (p, i)) ↔
      ∃ type, (made p).types[i]? = some type ∧ w.registered type = true ∧ w.stop (seen p) p i = false)
  /-- records are kept as sampled -/
  records : ∀ k node, tree[k]? = some node → SameButTimes node.record (made k)
  /-- the production time of a secondary that has an entry is the one in that entry -/
  synced : ∀ k p i, 0 < k → k < tree.length → origin k = (p, i) → i < (made p).times.length →
    ∃ node, tree[p]? = some node ∧ node.record.times[i]? = some (made k).initial
  /-- the others are kept as sampled -/
  unsynced : ∀ p i node, tree[p]? = some node → (∀ k, 0 < k → k < tree.length → origin k ≠ (p, i)) →
    node.record.times[i]? = (made p).times[i]?
  /-- the tree seen by the stopping condition was the tree of the entries up to that one -/
  past : ∀ p, p < tree.length → (seen p).length = p + 1 ∧ ∀ j node, (seen p)[j]? = some node →
    (tree[j]?).map Node.parent = some node.parent ∧ SameButTimes node.record (made j)

/-! ## The loop invariant -/

/-- The secondaries that have an entry or are pending. -/
def pairs (n : Nat) (origin : Nat → Nat × Nat) (queue : List (Pending T A)) : List (Nat × Nat) :=
  (List.range' 1 (n - 1)).map origin ++ queue.map fun q => (q.parent, q.index)

structure Inv (w : World G T A) (first : Rec T A) (tree : EventTree T A) (queue : List (Pending T A)) (made : Nat → Rec T A)
    (origin : Nat → Nat × Nat) (seen : Nat → EventTree T A) : Prop where
  root : made 0 = first ∧ ∃ node, tree[0]? = some node ∧ node.parent = none
  entry : ∀ k, 0 < k → k < tree.length →
    (origin k).1 < k ∧ (∃ node, tree[k]? = some node ∧ node.parent = some (origin k).1) ∧
    ∃ g g', w.sample g (made (origin k).1) (origin k).2 = (.ok (made k), g')
  nodup : (pairs tree.length origin queue).Nodup
  pending : ∀ q ∈ queue, q.parent < tree.length ∧ q.source = made q.parent
  eligible : ∀ p i, p < tree.length →
    ((p, i) ∈ pairs tree.length origin queue ↔
      ∃ type, (made p).types[i]? = some type ∧ w.registered type = true ∧ w.stop (seen p) p i = false)
  records : ∀ k node, tree[k]? = some node → SameButTimes node.record (made k)
  synced : ∀ k p i, 0 < k → k < tree.length → origin k = (p, i) → i < (made p).times.length →
    ∃ node, tree[p]? = some node ∧ node.record.times[i]? = some (made k).initial
  unsynced : ∀ p i node, tree[p]? = some node → (∀ k, 0 < k → k < tree.length → origin k ≠ (p, i)) →
    node.record.times[i]? = (made p).times[i]?
  past : ∀ p, p < tree.length → (seen p).length = p + 1 ∧ ∀ j node, (seen p)[j]? = some node →
    (tree[j]?).map Node.parent = some node.parent ∧ SameButTimes node.record (made j)

theorem mem_addSecondaries (w : World G T A) (tree : EventTree T A) (p : Nat) (r : Rec T A) (q : Pending T A) :
    q ∈ addSecondaries w tree p r ↔ q.parent = p ∧ q.source = r ∧
      ∃ type, r.types[q.index]? = some type ∧ w.registered type = true ∧ w.stop tree p q.index = false := by
  unfold addSecondaries
  rw [List.mem_filterMap]
  constructor
  · rintro ⟨i, hi, h⟩
    split at h
    · cases h
    · rename_i type ht
      split at h
      · cases h
      · rename_i hr
        split at h
        · cases h
        · rename_i hs
          cases h
          exact ⟨rfl, rfl, type, ht, by simpa using hr, by simpa using hs⟩
  · rintro ⟨rfl, rfl, type, ht, hr, hs⟩
    refine ⟨q.index, ?_, ?_⟩
    · rw [List.mem_range]
      exact (List.getElem?_eq_some_iff.1 ht).1
    · rw [ht]
      simp [hr, hs]

theorem addSecondaries_pairs_nodup (w : World G T A) (tree : EventTree T A) (p : Nat) (r : Rec T A) :
    ((addSecondaries w tree p r).map fun q => (q.parent, q.index)).Nodup := by
  unfold addSecondaries
  have hl := List.nodup_range (n := r.types.length)
  generalize List.range r.types.length = l at *
  induction l with
  | nil => simp
  | cons a l ih =>
    rw [List.nodup_cons] at hl
    rw [List.filterMap_cons]
    split
    · exact ih hl.2
    · rename_i q hq
      have ha : (q.parent, q.index) = (p, a) := by
        split at hq
        · cases hq
        · split at hq
          · cases hq
          · split at hq
            · cases hq
            · cases hq; rfl
      rw [List.map_cons, ha, List.nodup_cons]
      refine ⟨?_, ih hl.2⟩
      intro hm
      obtain ⟨q', hq', he⟩ := List.mem_map.1 hm
      obtain ⟨b, hb, hf⟩ := List.mem_filterMap.1 hq'
      have hi : q'.index = b := by
        split at hf
        · cases hf
        · split at hf
          · cases hf
          · split at hf
            · cases hf
            · cases hf; rfl
      simp only [Prod.mk.injEq] at he
      rw [← hi, he.2] at hb
      exact hl.1 hb

theorem syncTime_getElem? (tree : EventTree T A) (p i : Nat) (t : T) (k : Nat) :
    (syncTime tree p i t)[k]? = (tree[k]?).map fun n => if p = k then
      { n with record := { n.record with times := n.record.times.set i t } } else n := by
  unfold syncTime
  rw [List.getElem?_modify]
  cases tree[k]? with
  | none => rfl
  | some n =>
    by_cases h : p = k
    · simp only [h, if_true, Option.map_some, Option.map_eq_map, Option.some.injEq]
      split
      · rfl
      · rename_i hi
        rw [List.set_eq_of_length_le (not_lt.1 hi)]
    · simp [h]

theorem syncTime_length (tree : EventTree T A) (p i : Nat) (t : T) : (syncTime tree p i t).length = tree.length := by
  simp [syncTime]

theorem pairs_congr {n : Nat} {origin origin' : Nat → Nat × Nat} (h : ∀ k, k < n → origin' k = origin k) :
    (List.range' 1 (n - 1)).map origin' = (List.range' 1 (n - 1)).map origin := by
  apply List.map_congr_left
  intro k hk
  rw [List.mem_range'_1] at hk
  exact h k (by omega)

theorem mem_pairs {n : Nat} {origin : Nat → Nat × Nat} {queue : List (Pending T A)} {x : Nat × Nat} :
    x ∈ pairs n origin queue ↔ (∃ k, 0 < k ∧ k < n ∧ origin k = x) ∨ ∃ q ∈ queue, (q.parent, q.index) = x := by
  unfold pairs
  rw [List.mem_append, List.mem_map, List.mem_map]
  apply or_congr_left
  constructor
  · rintro ⟨k, hk, e⟩
    rw [List.mem_range'_1] at hk
    exact ⟨k, by omega, by omega, e⟩
  · rintro ⟨k, h1, h2, e⟩
    exact ⟨k, by rw [List.mem_range'_1]; omega, e⟩

theorem grown_last (tree : EventTree T A) (r : Rec T A) (p i : Nat) (t : T) (hp : p < tree.length) :
    (syncTime (tree ++ [⟨r, some p⟩]) p i t)[tree.length]? = some ⟨r, some p⟩ := by
  rw [syncTime_getElem?]
  simp [(ne_of_lt hp)]

theorem grown_old (tree : EventTree T A) (r : Rec T A) (p i : Nat) (t : T) (k : Nat) (hk : k < tree.length) :
    (syncTime (tree ++ [⟨r, some p⟩]) p i t)[k]? = (tree[k]?).map fun n => if p = k then
      { n with record := { n.record with times := n.record.times.set i t } } else n := by
  rw [syncTime_getElem?, List.getElem?_append_left hk]

theorem grown_parent (tree : EventTree T A) (r : Rec T A) (p i : Nat) (t : T) (k : Nat) (hk : k < tree.length) :
    ((syncTime (tree ++ [⟨r, some p⟩]) p i t)[k]?).map Node.parent = (tree[k]?).map Node.parent := by
  rw [grown_old tree r p i t k hk, Option.map_map]
  congr 1
  funext n
  simp only [Function.comp]
  split <;> rfl

theorem SameButTimes.set {a b : Rec T A} (h : SameButTimes a b) (i : Nat) (t : T) :
    SameButTimes { a with times := a.times.set i t } b :=
  ⟨h.types, h.initial, h.rest, by simpa using h.times⟩

/-- One step keeps the invariant. -/
theorem loopStep_inv {w : World G T A} {first : Rec T A} {s s' : LoopState G T A} {i : Nat} {made : Nat → Rec T A}
    {origin : Nat → Nat × Nat} {seen : Nat → EventTree T A} (h : Inv w first s.tree s.queue made origin seen)
    (hs : loopStep w i s = .ok s') :
    ∃ made origin seen, Inv w first s'.tree s'.queue made origin seen := by
  unfold loopStep at hs
  split at hs
  · cases hs
  rename_i q hq
  simp only at hs
  split at hs
  · rename_i r gen hr
    obtain ⟨hi, hqe⟩ := List.getElem?_eq_some_iff.1 hq
    have hqm : q ∈ s.queue := List.mem_of_getElem? hq
    obtain ⟨hpl, hsrc⟩ := h.pending q hqm
    rw [grown_last s.tree r q.parent q.index r.initial hpl] at hs
    cases hs
    obtain ⟨tree, queue, g⟩ := s
    simp only at *
    have hn0 : 0 < tree.length := by
      obtain ⟨-, node, hn, -⟩ := h.root
      exact (List.getElem?_eq_some_iff.1 hn).1
    obtain ⟨N, hN⟩ : ∃ N, syncTime (tree ++ [⟨r, some q.parent⟩]) q.parent q.index r.initial = N := ⟨_, rfl⟩
    have hlen : N.length = tree.length + 1 := by rw [← hN, syncTime_length]; simp
    have hlast : N[tree.length]? = some ⟨r, some q.parent⟩ := hN ▸ grown_last tree r q.parent q.index r.initial hpl
    have hold := fun k hk => hN ▸ grown_old tree r q.parent q.index r.initial k hk
    have hpar := fun k hk => hN ▸ grown_parent tree r q.parent q.index r.initial k hk
    rw [hN]
    obtain ⟨made', hm'⟩ : ∃ m : Nat → Rec T A, m = fun k => if k = tree.length then r else made k := ⟨_, rfl⟩
    obtain ⟨origin', ho'⟩ : ∃ m : Nat → Nat × Nat, m = fun k => if k = tree.length then (q.parent, q.index) else origin k := ⟨_, rfl⟩
    obtain ⟨seen', hse'⟩ : ∃ m : Nat → EventTree T A, m = fun k => if k = tree.length then N else seen k := ⟨_, rfl⟩
    have mn : made' tree.length = r := by simp [hm']
    have mo : ∀ k, k < tree.length → made' k = made k := fun k hk => by simp [hm', ne_of_lt hk]
    have on : origin' tree.length = (q.parent, q.index) := by simp [ho']
    have oo : ∀ k, k < tree.length → origin' k = origin k := fun k hk => by simp [ho', ne_of_lt hk]
    have sn : seen' tree.length = N := by simp [hse']
    have so : ∀ k, k < tree.length → seen' k = seen k := fun k hk => by simp [hse', ne_of_lt hk]
    clear hm' ho' hse'
    have hfresh : ∀ k, 0 < k → k < tree.length → origin k ≠ (q.parent, q.index) := by
      intro k h1 h2 e
      have hnd := h.nodup
      unfold pairs at hnd
      rw [List.nodup_append] at hnd
      refine hnd.2.2 (origin k) ?_ (q.parent, q.index) ?_ e
      · exact List.mem_map.2 ⟨k, by rw [List.mem_range'_1]; omega, rfl⟩
      · exact List.mem_map.2 ⟨q, hqm, rfl⟩
    have hperm : (pairs N.length origin' (queue.eraseIdx i ++ addSecondaries w N tree.length r)).Perm
        (pairs tree.length origin queue ++ (addSecondaries w N tree.length r).map fun q => (q.parent, q.index)) := by
      unfold pairs
      have e1 : (List.range' 1 (N.length - 1)).map origin' = (List.range' 1 (tree.length - 1)).map origin ++ [(q.parent, q.index)] := by
        rw [hlen, Nat.add_sub_cancel]
        obtain ⟨m, hm⟩ : ∃ m, tree.length = m + 1 := ⟨tree.length - 1, by omega⟩
        rw [← pairs_congr oo, hm, Nat.add_sub_cancel, List.range'_concat, List.map_append, List.map_cons, List.map_nil, Nat.one_mul,
          Nat.add_comm 1 m, ← hm, on]
      rw [e1, List.map_append, List.append_assoc, List.append_assoc]
      apply List.Perm.append_left
      rw [← List.append_assoc]
      apply List.Perm.append_right
      rw [← List.map_singleton (f := fun q : Pending T A => (q.parent, q.index)), ← List.map_append]
      apply List.Perm.map
      rw [List.singleton_append, ← hqe]
      exact (List.getElem_cons_eraseIdx_perm hi)
    refine ⟨made', origin', seen', ?_⟩
    constructor
    · obtain ⟨h1, node, h2, h3⟩ := h.root
      refine ⟨by rw [mo 0 hn0, h1], ?_⟩
      have := hpar 0 hn0
      rw [h2] at this
      simpa [h3] using this
    · intro k h1 h2
      rcases Nat.lt_succ_iff_lt_or_eq.1 (hlen ▸ h2) with hk | rfl
      · obtain ⟨a, ⟨node, b1, b2⟩, c⟩ := h.entry k h1 hk
        rw [oo k hk, mo k hk, mo _ (by omega)]
        refine ⟨a, ?_, c⟩
        have := hpar k hk
        rw [b1] at this
        simpa [b2] using this
      · rw [on, mn, mo _ hpl]
        exact ⟨hpl, ⟨_, hlast, rfl⟩, _, _, hsrc ▸ hr⟩
    · rw [hperm.nodup_iff, List.nodup_append]
      refine ⟨h.nodup, addSecondaries_pairs_nodup _ _ _ _, ?_⟩
      rintro x hx y hy rfl
      obtain ⟨q', hq', rfl⟩ := List.mem_map.1 hy
      rw [mem_addSecondaries] at hq'
      rw [mem_pairs] at hx
      rcases hx with ⟨k, h1, h2, h3⟩ | ⟨q'', h1, h2⟩
      · have := (h.entry k h1 h2).1
        rw [h3] at this
        simp only at this
        omega
      · have := (h.pending q'' h1).1
        simp only [Prod.mk.injEq] at h2
        omega
    · intro q' hq'
      rw [hlen]
      rcases List.mem_append.1 hq' with hq' | hq'
      · obtain ⟨a, b⟩ := h.pending q' (List.mem_of_mem_eraseIdx hq')
        exact ⟨by omega, by rw [b, mo _ a]⟩
      · obtain ⟨a, b, -⟩ := (mem_addSecondaries _ _ _ _ _).1 hq'
        exact ⟨by omega, by rw [a, b, mn]⟩
    · intro p j hp
      rw [hperm.mem_iff, List.mem_append]
      rcases Nat.lt_succ_iff_lt_or_eq.1 (hlen ▸ hp) with hk | rfl
      · rw [mo p hk, so p hk, ← h.eligible p j hk]
        constructor
        · rintro (hx | hx)
          · exact hx
          · obtain ⟨q', hq', e⟩ := List.mem_map.1 hx
            have := ((mem_addSecondaries _ _ _ _ _).1 hq').1
            simp only [Prod.mk.injEq] at e
            omega
        · exact .inl
      · rw [mn, sn]
        constructor
        · rintro (hx | hx)
          · rw [mem_pairs] at hx
            rcases hx with ⟨k, h1, h2, h3⟩ | ⟨q'', h1, h2⟩
            · have := (h.entry k h1 h2).1
              rw [h3] at this
              simp only at this
              omega
            · have := (h.pending q'' h1).1
              simp only [Prod.mk.injEq] at h2
              omega
          · obtain ⟨q', hq', e⟩ := List.mem_map.1 hx
            obtain ⟨a, b, c⟩ := (mem_addSecondaries _ _ _ _ _).1 hq'
            simp only [Prod.mk.injEq] at e
            rw [e.2] at c
            exact c
        · intro hx
          exact .inr (List.mem_map.2 ⟨⟨tree.length, r, j⟩, (mem_addSecondaries _ _ _ _ _).2 ⟨rfl, rfl, hx⟩, rfl⟩)
    · intro k node hk
      rcases Nat.lt_succ_iff_lt_or_eq.1 (hlen ▸ (List.getElem?_eq_some_iff.1 hk).1) with hlt | rfl
      · rw [hold k hlt] at hk
        obtain ⟨node', h1, rfl⟩ := Option.map_eq_some_iff.1 hk
        have := h.records k node' h1
        rw [mo k hlt]
        split
        · exact this.set _ _
        · exact this
      · rw [hlast] at hk
        cases hk
        rw [mn]
        exact ⟨rfl, rfl, rfl, rfl⟩
    · intro k p j h1 h2 h3 h4
      rcases Nat.lt_succ_iff_lt_or_eq.1 (hlen ▸ h2) with hk | rfl
      · rw [oo k hk] at h3
        have hpk : p < k := by have := (h.entry k h1 hk).1; rw [h3] at this; exact this
        rw [mo p (by omega)] at h4
        obtain ⟨node, b1, b2⟩ := h.synced k p j h1 hk h3 h4
        refine ⟨_, by rw [hold p (by omega), b1]; rfl, ?_⟩
        rw [mo k hk]
        simp only
        by_cases hp : q.parent = p
        · rw [if_pos hp]
          simp only
          rw [List.getElem?_set_ne, b2]
          intro hj
          exact hfresh k h1 hk (by rw [h3, hp, hj])
        · rw [if_neg hp, b2]
      · rw [on] at h3
        simp only [Prod.mk.injEq] at h3
        obtain ⟨rfl, rfl⟩ := h3
        rw [mo _ hpl] at h4
        obtain ⟨node, hnode⟩ : ∃ node, tree[q.parent]? = some node := ⟨_, List.getElem?_eq_getElem hpl⟩
        have hr := h.records _ node hnode
        refine ⟨_, by rw [hold _ hpl, hnode]; rfl, ?_⟩
        simp only
        rw [if_pos trivial, mn]
        simp only
        rw [List.getElem?_set_self (by rw [hr.times]; exact h4)]
    · intro p j node hp hno
      rcases Nat.lt_succ_iff_lt_or_eq.1 (hlen ▸ (List.getElem?_eq_some_iff.1 hp).1) with hlt | rfl
      · rw [hold p hlt] at hp
        obtain ⟨node', h1, rfl⟩ := Option.map_eq_some_iff.1 hp
        have := h.unsynced p j node' h1 fun k a b => by
          have := hno k a (by omega)
          rwa [oo k b] at this
        rw [mo p hlt, ← this]
        split
        · rename_i hq'
          simp only
          rw [List.getElem?_set_ne]
          intro hj
          exact hno tree.length hn0 (by omega) (by rw [on, hq', hj])
        · rfl
      · rw [hlast] at hp
        cases hp
        rw [mn]
    · intro p hp
      rcases Nat.lt_succ_iff_lt_or_eq.1 (hlen ▸ hp) with hk | rfl
      · obtain ⟨a, b⟩ := h.past p hk
        rw [so p hk]
        refine ⟨a, fun j node hj => ?_⟩
        have hj' : j < tree.length := by have := (List.getElem?_eq_some_iff.1 hj).1; omega
        rw [hpar j hj', mo j hj']
        exact b j node hj
      · rw [sn]
        refine ⟨hlen, fun j node hj => ⟨by rw [hj]; rfl, ?_⟩⟩
        rcases Nat.lt_succ_iff_lt_or_eq.1 (hlen ▸ (List.getElem?_eq_some_iff.1 hj).1) with hlt | rfl
        · rw [hold j hlt] at hj
          obtain ⟨node', h1, rfl⟩ := Option.map_eq_some_iff.1 hj
          have := h.records j node' h1
          rw [mo j hlt]
          split
          · exact this.set _ _
          · exact this
        · rw [hlast] at hj
          cases hj
          rw [mn]
          exact ⟨rfl, rfl, rfl, rfl⟩
  · cases hs
  · cases hs

theorem inner_inv {w : World G T A} {first : Rec T A} : ∀ (i : Nat) {s s' : LoopState G T A},
    (∃ made origin seen, Inv w first s.tree s.queue made origin seen) → inner w i s = .ok s' →
    ∃ made origin seen, Inv w first s'.tree s'.queue made origin seen
  | 0, s, s', h, hs => by cases hs; exact h
  | i + 1, s, s', ⟨made, origin, seen, h⟩, hs => by
    unfold inner at hs
    cases hstep : loopStep w i s with
    | ok t =>
      rw [hstep] at hs
      exact inner_inv i (loopStep_inv h hstep) hs
    | throws e => rw [hstep] at hs; cases hs
    | ub => rw [hstep] at hs; cases hs

theorem outer_inv {w : World G T A} {first : Rec T A} : ∀ (fuel : Nat) {s s' : LoopState G T A},
    (∃ made origin seen, Inv w first s.tree s.queue made origin seen) → outer w fuel s = some (.ok s') →
    s'.queue = [] ∧ ∃ made origin seen, Inv w first s'.tree s'.queue made origin seen
  | 0, s, s', h, hs => by cases hs
  | fuel + 1, s, s', h, hs => by
    unfold outer at hs
    split at hs
    · cases hi : inner w s.queue.length s with
      | ok t =>
        rw [hi] at hs
        exact outer_inv fuel (inner_inv _ h hi) hs
      | throws e => rw [hi] at hs; cases hs
      | ub => rw [hi] at hs; cases hs
    · rename_i hl
      cases hs
      exact ⟨List.length_eq_zero_iff.1 (by omega), h⟩

theorem start_inv (w : World G T A) (r : Rec T A) :
    Inv w r [⟨r, none⟩] (addSecondaries w [⟨r, none⟩] 0 r) (fun _ => r) (fun _ => (0, 0)) (fun _ => [⟨r, none⟩]) := by
  constructor
  · exact ⟨rfl, _, rfl, rfl⟩
  · intro k h1 h2
    simp at h2
    omega
  · simpa [pairs] using addSecondaries_pairs_nodup w [⟨r, none⟩] 0 r
  · intro q hq
    obtain ⟨a, b, -⟩ := (mem_addSecondaries _ _ _ _ _).1 hq
    exact ⟨by simp [a], b⟩
  · intro p i hp
    simp only [List.length_singleton, Nat.lt_one_iff] at hp
    subst hp
    simp only [pairs, List.length_singleton, Nat.sub_self, List.range'_zero, List.map_nil, List.nil_append]
    constructor
    · intro hx
      obtain ⟨q, hq, e⟩ := List.mem_map.1 hx
      obtain ⟨-, -, c⟩ := (mem_addSecondaries _ _ _ _ _).1 hq
      simp only [Prod.mk.injEq] at e
      rw [e.2] at c
      exact c
    · intro hx
      exact List.mem_map.2 ⟨⟨0, r, i⟩, (mem_addSecondaries _ _ _ _ _).2 ⟨rfl, rfl, hx⟩, rfl⟩
  · intro k node hk
    have : k = 0 := by have := (List.getElem?_eq_some_iff.1 hk).1; simpa using this
    subst this
    cases hk
    exact ⟨rfl, rfl, rfl, rfl⟩
  · intro k p i h1 h2
    simp at h2
    omega
  · intro p i node hp _
    have : p = 0 := by have := (List.getElem?_eq_some_iff.1 hp).1; simpa using this
    subst this
    cases hp
    rfl
  · intro p hp
    simp only [List.length_singleton, Nat.lt_one_iff] at hp
    subst hp
    refine ⟨rfl, fun j node hj => ?_⟩
    have : j = 0 := by have := (List.getElem?_eq_some_iff.1 hj).1; simpa using this
    subst this
    cases hj
    exact ⟨rfl, rfl, rfl, rfl, rfl⟩

theorem generate_cases {fuel : Nat} {w : World G T A} {c c' : Counters} {e : Event T A}
    (h : generate fuel w c = some (.ok e, c')) :
    (e = {} ∧ c' = { c with attempts := c.attempts + 1 } ∧ c.attempts < c.toInject) ∨
    ∃ r gen s, w.primary = (.ok r, gen) ∧ outer w fuel ⟨[⟨r, none⟩], addSecondaries w [⟨r, none⟩] 0 r, gen⟩ = some (.ok s) ∧
      e = ⟨c.injected, s.tree⟩ ∧ c' = { c with attempts := c.attempts + 1, injected := c.injected + 1 } ∧ c.attempts < c.toInject := by
  unfold generate at h
  split at h
  · cases h
  rename_i hc
  simp only at h
  split at h
  · cases h; exact .inl ⟨rfl, rfl, by omega⟩
  · cases h
  · cases h
  · rename_i r gen hp
    split at h
    · cases h
    · cases h; exact .inl ⟨rfl, rfl, by omega⟩
    · cases h
    · cases h
    · rename_i s hs
      cases h
      exact .inr ⟨r, gen, s, hp, hs, rfl, rfl, by omega⟩

/-- C12. The tree of a successful `GenerateEvent` is a complete event. -/
theorem C12_event (fuel : Nat) (w : World G T A) (c c' : Counters) (e : Event T A)
    (h : generate fuel w c = some (.ok e, c')) (hne : e.entries ≠ []) :
    ∃ first gen made origin seen, w.primary = (.ok first, gen) ∧ IsEvent w first e.entries made origin seen := by
  rcases generate_cases h with ⟨rfl, -⟩ | ⟨r, gen, s, hp, hs, rfl, -⟩
  · exact absurd rfl hne
  · obtain ⟨hq, made, origin, seen, hi⟩ := outer_inv fuel ⟨_, _, _, start_inv w r⟩ hs
    refine ⟨r, gen, made, origin, seen, hp, ?_⟩
    have hmem : ∀ p i, (p, i) ∈ pairs s.tree.length origin s.queue ↔ ∃ k, 0 < k ∧ k < s.tree.length ∧ origin k = (p, i) := by
      intro p i
      rw [mem_pairs, hq]
      simp
    refine ⟨hi.root, hi.entry, ?_, ?_, hi.records, hi.synced, hi.unsynced, hi.past⟩
    · intro j k hj hk hj' hk' he
      simp only at hj' hk'
      have hnd := hi.nodup
      simp only [pairs, hq, List.map_nil, List.append_nil] at hnd
      exact List.inj_on_of_nodup_map hnd (by rw [List.mem_range'_1]; omega) (by rw [List.mem_range'_1]; omega) he
    · intro p i hp
      rw [← hmem, hi.eligible p i hp]

/-! ## C11 -/

/-- The event a call to `GenerateEvent` returned, if it was accepted: an empty tree is a failed attempt. -/
def accepted : Res (Event T A) → Option (Event T A)
  | .ok e => if e.entries.isEmpty then none else some e
  | _ => none

/-- What one call does to the counters. -/
theorem generate_counters {fuel : Nat} {w : World G T A} {c c' : Counters} {o : Res (Event T A)}
    (h : generate fuel w c = some (o, c')) :
    (c.toInject ≤ c.attempts ∧ o = .throws .runtimeError ∧ c' = c) ∨
    (c.attempts < c.toInject ∧ accepted o = none ∧ c' = { c with attempts := c.attempts + 1 }) ∨
    (c.attempts < c.toInject ∧ (∃ e, o = .ok e ∧ accepted o = some e ∧ e.number = c.injected) ∧
      c' = { c with attempts := c.attempts + 1, injected := c.injected + 1 }) := by
  cases o with
  | ok e =>
    rcases generate_cases h with ⟨rfl, rfl, hc⟩ | ⟨r, gen, s, hp, hs, rfl, rfl, hc⟩
    · exact .inr (.inl ⟨hc, rfl, rfl⟩)
    · obtain ⟨hq, made, origin, seen, hi⟩ := outer_inv fuel ⟨_, _, _, start_inv w r⟩ hs
      obtain ⟨-, node, hn, -⟩ := hi.root
      have hne : s.tree.isEmpty = false := by
        cases ht : s.tree with
        | nil => rw [ht] at hn; cases hn
        | cons => rfl
      refine .inr (.inr ⟨hc, ⟨_, rfl, ?_, rfl⟩, rfl⟩)
      simp [accepted, hne]
  | throws x =>
    unfold generate at h
    split at h
    · cases h; exact .inl ⟨by omega, rfl, rfl⟩
    · rename_i hc
      refine .inr (.inl ⟨by omega, rfl, ?_⟩)
      simp only at h
      split at h
      · cases h
      · cases h; rfl
      · cases h
      · split at h
        · cases h
        · cases h
        · cases h; rfl
        · cases h
        · cases h
  | ub =>
    unfold generate at h
    split at h
    · cases h
    · rename_i hc
      refine .inr (.inl ⟨by omega, rfl, ?_⟩)
      simp only at h
      split at h
      · cases h
      · cases h
      · cases h; rfl
      · split at h
        · cases h
        · cases h
        · cases h
        · cases h; rfl
        · cases h

/-- C11. Any history of `GenerateEvent` calls, from any counters: each call is an attempt until the requested number is
reached and an exception from then on, and the accepted events are numbered consecutively. -/
theorem C11_history (calls : List (Nat × World G T A)) : ∀ (c c' : Counters) (os : List (Res (Event T A))),
    runInjector c (calls.map fun x => .generate x.1 x.2) = some (os, c') →
    os.length = calls.length ∧ c'.toInject = c.toInject ∧
    c'.attempts = max c.attempts (min c.toInject (c.attempts + calls.length)) ∧
    (∀ k, c.toInject ≤ c.attempts + k → k < calls.length → os[k]? = some (.throws .runtimeError)) ∧
    (os.filterMap accepted).map Event.number = List.range' c.injected (os.filterMap accepted).length ∧
    c'.injected = c.injected + (os.filterMap accepted).length ∧
    (os.filterMap accepted).length ≤ c'.attempts - c.attempts := by
  induction calls with
  | nil =>
    intro c c' os h
    cases h
    simp
    omega
  | cons x calls ih =>
    intro c c' os h
    simp only [List.map_cons, runInjector] at h
    cases hg : generate x.1 x.2 c with
    | none => rw [hg] at h; cases h
    | some g =>
      obtain ⟨o, c1⟩ := g
      rw [hg] at h
      simp only [Option.bind_some] at h
      obtain ⟨⟨os', c2⟩, hr, he⟩ := Option.map_eq_some_iff.1 h
      cases he
      obtain ⟨h1, h2, h3, h4, h5, h6, h7⟩ := ih c1 c2 os' hr
      rcases generate_counters hg with ⟨ha, rfl, rfl⟩ | ⟨ha, hno, rfl⟩ | ⟨ha, ⟨e, rfl, hacc, hnum⟩, rfl⟩
      · have hacc : accepted (.throws .runtimeError : Res (Event T A)) = none := rfl
        simp only [List.length_cons, List.filterMap_cons, hacc]
        refine ⟨by omega, h2, by omega, ?_, h5, h6, by omega⟩
        intro k hk hl
        cases k with
        | zero => rfl
        | succ k => exact h4 k (by omega) (by simpa using hl)
      · simp only [List.length_cons, List.filterMap_cons, hno] at *
        refine ⟨by omega, h2, by omega, ?_, h5, h6, by omega⟩
        intro k hk hl
        cases k with
        | zero => omega
        | succ k => exact h4 k (by omega) (by omega)
      · simp only [List.length_cons, List.filterMap_cons, hacc, List.map_cons] at *
        refine ⟨by omega, h2, by omega, ?_, ?_, by omega, by omega⟩
        · intro k hk hl
          cases k with
          | zero => omega
          | succ k => exact h4 k (by omega) (by omega)
        · rw [h5, hnum, List.range'_succ]

/-- C11. Starting with a new injector. -/
theorem C11_new_injector (n : Nat) (calls : List (Nat × World G T A)) (c' : Counters) (os : List (Res (Event T A)))
    (h : runInjector ⟨n, 0, 0⟩ (calls.map fun x => .generate x.1 x.2) = some (os, c')) :
    c'.attempts = min n calls.length ∧ c'.injected ≤ c'.attempts ∧ c'.attempts ≤ n ∧
    c'.injected = (os.filterMap accepted).length ∧
    (os.filterMap accepted).map Event.number = List.range c'.injected := by
  obtain ⟨-, -, h3, -, h5, h6, h7⟩ := C11_history calls _ _ _ h
  simp only at h3 h5 h6 h7
  refine ⟨by omega, by omega, by omega, by omega, ?_⟩
  rw [h5, List.range_eq_range', h6, Nat.zero_add]

/-- C11. With resets of the event counter in between, attempts never exceed the requested number and accepted events never
exceed attempts. -/
theorem C11_bounds (n : Nat) (calls : List (InjCall G T A)) (c' : Counters) (os : List (Res (Event T A)))
    (h : runInjector ⟨n, 0, 0⟩ calls = some (os, c')) : c'.injected ≤ c'.attempts ∧ c'.attempts ≤ n := by
  suffices H : ∀ (calls : List (InjCall G T A)) (c c' : Counters) (os : List (Res (Event T A))), c.injected ≤ c.attempts →
      c.attempts ≤ c.toInject → runInjector c calls = some (os, c') →
      c'.injected ≤ c'.attempts ∧ c'.attempts ≤ c.toInject from H calls _ _ _ (Nat.le_refl _) (Nat.zero_le _) h
  intro calls
  induction calls with
  | nil => intro c c' os h1 h2 h; cases h; exact ⟨h1, h2⟩
  | cons x calls ih =>
    intro c c' os h1 h2 h
    cases x with
    | reset => exact ih { c with injected := 0 } _ _ (Nat.zero_le _) h2 h
    | generate fuel w =>
      simp only [runInjector] at h
      cases hg : generate fuel w c with
      | none => rw [hg] at h; cases h
      | some g =>
        obtain ⟨o, c1⟩ := g
        rw [hg] at h
        simp only [Option.bind_some] at h
        obtain ⟨⟨os', c2⟩, hr, he⟩ := Option.map_eq_some_iff.1 h
        cases he
        rcases generate_counters hg with ⟨ha, rfl, rfl⟩ | ⟨ha, hno, rfl⟩ | ⟨ha, -, rfl⟩
        · exact ih _ _ _ h1 h2 hr
        · exact ih { c with attempts := c.attempts + 1 } _ _ (by simp only; omega) (by simp only; omega) hr
        · exact ih { c with attempts := c.attempts + 1, injected := c.injected + 1 } _ _ (by simp only; omega) (by simp only; omega) hr

/-- C11. An attempt whose primary, or any of whose secondaries, cannot be sampled returns an empty tree and only counts as an
attempt. -/
theorem C11_failed_attempt (fuel : Nat) (w : World G T A) (c : Counters) (hc : c.attempts < c.toInject)
    (hf : w.primary.1 = .throws .injectionFailure ∨
      ∃ r gen, w.primary = (.ok r, gen) ∧
        outer w fuel ⟨[⟨r, none⟩], addSecondaries w [⟨r, none⟩] 0 r, gen⟩ = some (.throws .injectionFailure)) :
    generate fuel w c = some (.ok ⟨0, []⟩, { c with attempts := c.attempts + 1 }) := by
  unfold generate
  rw [if_neg (by omega)]
  simp only
  rcases hf with h | ⟨r, gen, h, ho⟩
  · cases hw : w.primary with
    | mk a b =>
    rw [hw] at h
    simp only at h
    subst h
    rfl
  · rw [h]
    simp only
    rw [ho]

end

/-- C11 and `operator bool`: an injector can report that there are more events although `GenerateEvent` will throw: here the
only attempt has failed. -/
theorem C11_more_events_fails : ∃ (w : World Unit Unit Unit) (c : Counters),
    runInjector ⟨1, 0, 0⟩ [.generate 1 w] = some ([.ok ⟨0, []⟩], c) ∧ c.more = true ∧
      ∀ fuel (w' : World Unit Unit Unit), generate fuel w' c = some (.throws .runtimeError, c) := by
  refine ⟨⟨(.throws .injectionFailure, ()), fun _ _ _ => (.ub, ()), fun _ => false, fun _ _ _ => true⟩, ⟨1, 1, 0⟩, rfl, rfl, ?_⟩
  intro fuel w'
  rfl

/-- A cascade: the primary makes a tau and a muon, the tau (registered) a muon and a neutrino; muons are registered, but the
stopping condition stops at depth one. -/
def exampleWorld : World Unit Int Unit where
  primary := (.ok ⟨[15, 13], [1, 2], 0, ()⟩, ())
  sample _ r i := if r.types[i]? = some 15 then (.ok ⟨[13, 16], [5, 5], 7, ()⟩, ()) else (.ok ⟨[11], [9], 8, ()⟩, ())
  registered t := t == 15 || t == 13
  stop tree p _ := (tree[p]?.bind Node.parent).isSome

example : generate 3 exampleWorld ⟨5, 2, 1⟩ =
    some (.ok ⟨1, [⟨⟨[15, 13], [7, 8], 0, ()⟩, none⟩, ⟨⟨[11], [9], 8, ()⟩, some 0⟩, ⟨⟨[13, 16], [5, 5], 7, ()⟩, some 0⟩]⟩, ⟨5, 3, 2⟩) := by
  rfl

end Siren.Injection
