import Verif.Tree.Model
import Verif.Tactics

set_option autoImplicit false

/-!
# Properties C01, C02, C03 of interaction trees
-/

namespace Siren.Tree

variable {R : Type}

/-! ## Specification -/

/-- A history of `add_entry` calls: each call passes an object address and, as parent, either nothing or the pointer
returned by an earlier call, named by that call's number. -/
abbrev History := List (Ptr × Option Nat)

/-- Running a history on an empty tree over an arbitrary initial heap. -/
def run (h0 : Heap R) (calls : History) : State R :=
  calls.foldl (fun s c => addEntry s c.1 (c.2.bind fun j => s.tree[j]?.join)) { heap := h0, tree := [] }

/-- What the caller must respect: a fresh object per call, parents returned by earlier calls, and fewer than `2^32`
calls (`node_id` is 32 bits wide and its largest value means "no parent"). -/
structure Legal (calls : History) : Prop where
  fresh : (calls.map Prod.fst).Nodup
  earlier : ∀ i j : Nat, (calls[i]?.bind Prod.snd) = some j → j < i
  small : calls.length ≤ kNoParent

/-- The parent (as call number) given to call `i`. -/
def parentOf (calls : History) (i : Nat) : Option Nat := calls[i]?.bind Prod.snd

/-- Calls whose parent is `j`, in order. -/
def daughtersOf (calls : History) (j : Nat) : List Nat :=
  (List.range calls.length).filter fun k => parentOf calls k = some j

/-- Number of proper ancestors of entry `i` in a tree: `HasDepth s i n` holds when following parent links from `i`
reaches a root after exactly `n` steps. -/
inductive HasDepth (s : State R) : Nat → Nat → Prop where
  | root (i q) : s.tree[i]? = some (some q) → (s.heap q).parent_index = kNoParent → HasDepth s i 0
  | child (i q j n) : s.tree[i]? = some (some q) → (s.heap q).parent_index = j → j ≠ kNoParent →
      HasDepth s j n → HasDepth s i (n + 1)

/-! ## C01 -/

/-- The shape of the state after a legal history. -/
structure Built (h0 : Heap R) (calls : History) (s : State R) : Prop where
  tree_eq : s.tree = calls.map (fun c => some c.1)
  entry : ∀ i c, calls[i]? = some c →
    (s.heap c.1).record = (h0 c.1).record ∧
    (s.heap c.1).node_id = i ∧
    (s.heap c.1).parent_index = c.2.getD kNoParent ∧
    (s.heap c.1).daughter_indices = daughtersOf calls i
  other : ∀ p, p ∉ calls.map Prod.fst → s.heap p = h0 p

theorem run_snoc (h0 : Heap R) (calls : History) (c : Ptr × Option Nat) :
    run h0 (calls ++ [c]) =
      addEntry (run h0 calls) c.1 (c.2.bind fun j => (run h0 calls).tree[j]?.join) := by
  simp [run, List.foldl_append]

theorem Legal.prefix {calls : History} {c : Ptr × Option Nat} (h : Legal (calls ++ [c])) : Legal calls where
  fresh := by
    have := h.fresh
    rw [List.map_append, List.nodup_append] at this
    exact this.1
  earlier := by
    intro i j hij
    apply h.earlier i j
    by_cases hi : i < calls.length
    · rw [List.getElem?_append_left hi]; exact hij
    · rw [List.getElem?_eq_none (by omega)] at hij
      simp at hij
  small := by have := h.small; simp at this; omega

theorem daughtersOf_snoc (calls : History) (c : Ptr × Option Nat) (j : Nat) :
    daughtersOf (calls ++ [c]) j =
      daughtersOf calls j ++ (if c.2 = some j then [calls.length] else []) := by
  unfold daughtersOf
  rw [List.length_append, List.length_singleton, List.range_succ, List.filter_append]
  congr 1
  · apply List.filter_congr
    intro k hk
    have hk : k < calls.length := by simpa using hk
    have : parentOf (calls ++ [c]) k = parentOf calls k := by
      unfold parentOf; rw [List.getElem?_append_left hk]
    rw [this]
  · simp [parentOf]
    by_cases h : c.2 = some j <;> simp [h]

theorem built_run (h0 : Heap R) (calls : History) (hl : Legal calls) : Built h0 calls (run h0 calls) := by
  induction calls using List.reverseRecOn with
  | nil => exact ⟨rfl, by simp, by simp [run]⟩
  | append_singleton calls c ih =>
    have hb := ih hl.prefix
    rw [run_snoc]
    generalize hs : run h0 calls = s at hb
    have hlen : s.tree.length = calls.length := by rw [hb.tree_eq]; simp
    have hsmall : calls.length < 2 ^ 32 - 1 := by
      have := hl.small; simp [kNoParent] at this; omega
    have hu : u32 s.tree.length = calls.length := by
      rw [hlen]; unfold u32; exact Nat.mod_eq_of_lt (by omega)
    have hnew : c.1 ∉ calls.map Prod.fst := by
      have := hl.fresh
      rw [List.map_append, List.nodup_append] at this
      intro hmem
      exact this.2.2 _ hmem c.1 (by simp) rfl
    have hinj : ∀ (i j : Nat) (ci cj : Ptr × Option Nat), calls[i]? = some ci → calls[j]? = some cj → ci.1 = cj.1 → i = j := by
      intro i j ci cj hi hj he
      have hnd := hl.prefix.fresh
      have h1 : (calls.map Prod.fst)[i]? = some ci.1 := by simp [hi]
      have h2 : (calls.map Prod.fst)[j]? = some ci.1 := by simp [hj, he]
      exact (List.getElem?_inj (by
        rw [List.length_map]; by_contra hlt
        rw [List.getElem?_eq_none (by omega)] at hi; cases hi) hnd).1 (h1.trans h2.symm)
    -- resolve the parent pointer
    have hpar : ∀ j, c.2 = some j → ∃ cj, calls[j]? = some cj ∧ s.tree[j]?.join = some cj.1 := by
      intro j hj
      have hlt : j < calls.length := by
        have := hl.earlier calls.length j (by simp [hj])
        simpa using this
      refine ⟨calls[j], by simp [hlt], ?_⟩
      rw [hb.tree_eq]; simp [hlt]
    refine ⟨?_, ?_, ?_⟩
    · cases hc : c.2 with
      | none => simp [addEntry, hb.tree_eq]
      | some j => 
        obtain ⟨cj, hcj, hpj⟩ := hpar j hc
        simp [addEntry, hb.tree_eq]
    · intro i ci hci
      cases hc : c.2 with
      | none =>
        by_cases hi : i < calls.length
        · rw [List.getElem?_append_left hi] at hci
          have hne : ci.1 ≠ c.1 := by
            intro he; apply hnew; rw [← he]
            exact List.mem_map_of_mem (List.mem_of_getElem? hci)
          have := hb.entry i ci hci
          rw [daughtersOf_snoc]
          simp [addEntry, Heap.set, hne, hc, this]
        · have hi' : i = calls.length := by
            rcases Nat.lt_or_ge i (calls.length + 1) with h | h
            · omega
            · rw [List.getElem?_eq_none (by simp; omega)] at hci; cases hci
          subst hi'
          simp at hci; subst hci
          rw [daughtersOf_snoc]
          have hd : daughtersOf calls calls.length = [] := by
            unfold daughtersOf
            rw [List.filter_eq_nil_iff]
            intro k hk hk2
            have := hl.prefix.earlier k calls.length (of_decide_eq_true hk2)
            simp at hk; omega
          have ho := hb.other c.1 hnew
          simp [addEntry, Heap.set, hc, hu, ho, hd]
      | some j =>
        obtain ⟨cj, hcj, hpj⟩ := hpar j hc
        have hcjne : cj.1 ≠ c.1 := by
          intro he; apply hnew; rw [← he]
          exact List.mem_map_of_mem (List.mem_of_getElem? hcj)
        have hjl : j < calls.length := by
          have := hl.earlier calls.length j (by simp [hc]); simpa using this
        by_cases hi : i < calls.length
        · rw [List.getElem?_append_left hi] at hci
          have hne : ci.1 ≠ c.1 := by
            intro he; apply hnew; rw [← he]
            exact List.mem_map_of_mem (List.mem_of_getElem? hci)
          have he := hb.entry i ci hci
          rw [daughtersOf_snoc]
          by_cases hij : ci.1 = cj.1
          · have : i = j := hinj i j ci cj hci hcj hij
            subst this
            have hcic : ci = cj := by rw [hcj] at hci; cases hci; rfl
            subst hcic
            simp [addEntry, Heap.set, hne, hc, he, hpj, hu]
          · have : j ≠ i := by
              intro h; subst h; rw [hcj] at hci; cases hci; exact hij rfl
            simp [addEntry, Heap.set, hne, hc, he, hpj, hij, this]
        · have hi' : i = calls.length := by
            rcases Nat.lt_or_ge i (calls.length + 1) with h | h
            · omega
            · rw [List.getElem?_eq_none (by simp; omega)] at hci; cases hci
          subst hi'
          simp at hci; subst hci
          rw [daughtersOf_snoc]
          have hd : daughtersOf calls calls.length = [] := by
            unfold daughtersOf
            rw [List.filter_eq_nil_iff]
            intro k hk hk2
            have := hl.prefix.earlier k calls.length (of_decide_eq_true hk2)
            simp at hk; omega
          have ho := hb.other c.1 hnew
          have hej := hb.entry j cj hcj
          have hjn : j ≠ calls.length := by omega
          simp [addEntry, Heap.set, hc, hu, ho, hd, hpj, hcjne, Ne.symm hcjne, hej, hjn]
    · intro p hp
      have hp1 : p ∉ calls.map Prod.fst := by
        intro h; apply hp; rw [List.map_append]; exact List.mem_append_left _ h
      have hp2 : p ≠ c.1 := by intro h; apply hp; simp [h]
      cases hc : c.2 with
      | none => simp [addEntry, Heap.set, hp2, hb.other p hp1]
      | some j =>
        obtain ⟨cj, hcj, hpj⟩ := hpar j hc
        have hp3 : p ≠ cj.1 := by
          intro h; apply hp1; rw [h]; exact List.mem_map_of_mem (List.mem_of_getElem? hcj)
        simp [addEntry, Heap.set, hp2, hp3, hpj, hb.other p hp1]

/-- **C01**. After any legal history of `add_entry` calls on an empty tree (over any initial heap contents), the entry
created by call `i` sits at position `i`, has node id `i`, the record it was given, the parent it was given (which
precedes it) and, as daughters, exactly the calls that named it as parent, in call order. -/
theorem C01_add_entry_forest (h0 : Heap R) (calls : History) (hl : Legal calls) :
    (run h0 calls).tree.length = calls.length ∧
    ∀ i c, calls[i]? = some c →
      (run h0 calls).tree[i]? = some (some c.1) ∧
      ((run h0 calls).heap c.1).record = (h0 c.1).record ∧
      ((run h0 calls).heap c.1).node_id = i ∧
      ((run h0 calls).heap c.1).parent_index = c.2.getD kNoParent ∧
      (∀ j, c.2 = some j → j < i) ∧
      ((run h0 calls).heap c.1).daughter_indices =
        (List.range calls.length).filter (fun k => calls[k]?.bind Prod.snd = some i) := by
  have hb := built_run h0 calls hl
  refine ⟨by rw [hb.tree_eq]; simp, fun i c hc => ?_⟩
  obtain ⟨h1, h2, h3, h4⟩ := hb.entry i c hc
  refine ⟨by rw [hb.tree_eq]; simp [hc], h1, h2, h3, fun j hj => hl.earlier i j (by simp [hc, hj]), ?_⟩
  rw [h4]; rfl

/-- The hypotheses of C01 are met by a primary with two daughters, the first of which has one daughter itself. -/
example : Legal [(10, none), (11, some 0), (12, some 0), (13, some 1)] where
  fresh := by decide
  earlier := by
    intro i j h
    match i, h with
    | 0, h => simp at h
    | 1, h => simp at h; omega
    | 2, h => simp at h; omega
    | 3, h => simp at h; omega
    | (k + 4), h => simp at h
  small := by decide

/-- Without the freshness requirement the invariant breaks: adding one object twice leaves the entry at position 0 with
node id 1. -/
theorem C01_same_object_twice_fails :
    ((run (fun _ => { record := () } : Heap Unit) [(10, none), (10, none)]).heap 10).node_id = 1 ∧
    (run (fun _ => { record := () } : Heap Unit) [(10, none), (10, none)]).tree[0]? = some (some 10) := by
  decide

/-! ## C02 -/

theorem HasDepth.unique {s : State R} {i n m : Nat} (h1 : HasDepth s i n) (h2 : HasDepth s i m) : n = m := by
  induction h1 generalizing m with
  | root i q hq hp =>
    cases h2 with
    | root => rfl
    | child _ q' j m hq' hp' hne _ =>
      rw [hq] at hq'; cases hq'; exact absurd (hp'.symm.trans hp) hne
  | child i q j n hq hp hne _ ih =>
    cases h2 with
    | root _ q' hq' hp' => rw [hq] at hq'; cases hq'; exact absurd (hp.symm.trans hp') hne
    | child _ q' j' m hq' hp' hne' h2 =>
      rw [hq] at hq'; cases hq'
      have : j = j' := hp.symm.trans hp'
      subst this
      rw [ih h2]

theorem HasDepth.lt_length {s : State R} {i n : Nat} (h : HasDepth s i n) : i < s.tree.length := by
  have : ∃ q, s.tree[i]? = some (some q) := by
    cases h with
    | root _ q hq _ => exact ⟨q, hq⟩
    | child _ q _ _ hq _ _ _ => exact ⟨q, hq⟩
  obtain ⟨q, hq⟩ := this
  by_contra hlt
  rw [List.getElem?_eq_none (by omega)] at hq
  cases hq

theorem HasDepth.chain {s : State R} {i n : Nat} (h : HasDepth s i n) :
    ∃ l : List Nat, l.Nodup ∧ l.length = n + 1 ∧ ∀ x ∈ l, ∃ m, m ≤ n ∧ HasDepth s x m := by
  induction h with
  | root i q hq hp => exact ⟨[i], by simp, rfl, by simpa using HasDepth.root i q hq hp⟩
  | child i q j n hq hp hne hj ih =>
    obtain ⟨l, hnd, hlen, hall⟩ := ih
    have hi : HasDepth s i (n + 1) := .child i q j n hq hp hne hj
    refine ⟨i :: l, ?_, by simp [hlen], ?_⟩
    · refine List.nodup_cons.2 ⟨fun hmem => ?_, hnd⟩
      obtain ⟨m, hm, hd⟩ := hall i hmem
      have := hi.unique hd
      omega
    · intro x hx
      rcases List.mem_cons.1 hx with rfl | hx
      · exact ⟨n + 1, le_refl _, hi⟩
      · obtain ⟨m, hm, hd⟩ := hall x hx
        exact ⟨m, by omega, hd⟩

theorem HasDepth.lt_size {s : State R} {i n : Nat} (h : HasDepth s i n) : n < s.tree.length := by
  obtain ⟨l, hnd, hlen, hall⟩ := h.chain
  have hsub : l ⊆ List.range s.tree.length := by
    intro x hx
    obtain ⟨m, _, hd⟩ := hall x hx
    simpa using hd.lt_length
  have := (List.subperm_of_subset hnd hsub).length_le
  simp at this; omega

theorem depthLoop_of_hasDepth {s : State R} {j n : Nat} (h : HasDepth s j n) (hj : j ≠ kNoParent) (k : Nat)
    (hk : k + n + 1 ≤ s.tree.length) : depthLoop s j k = .ok (k + n + 1) := by
  induction h generalizing k with
  | root i q hq hp =>
    rw [depthLoop, if_neg hj, dif_neg (by omega), hq]
    simp only [hp]
    rw [depthLoop, if_pos rfl]
  | child i q j' n hq hp hne _ ih =>
    rw [depthLoop, if_neg hj, dif_neg (by omega), hq]
    simp only [hp]
    rw [ih hne (k + 1) (by omega)]
    congr 1; omega

/-- Consequences of a successful `validate_indices`. -/
theorem valid_parent {s : State R} (hv : validateIndices s = .ok ()) (hn : s.tree.length ≤ kNoParent) {i : Nat}
    (hi : i < s.tree.length) : ∃ q, s.tree[i]? = some (some q) ∧
      ((s.heap q).parent_index = kNoParent ∨ (s.heap q).parent_index < s.tree.length) := by
  have hu : u32 s.tree.length = s.tree.length := by
    unfold u32; exact Nat.mod_eq_of_lt (by simp [kNoParent] at hn; omega)
  unfold validateIndices at hv
  split at hv
  case isFalse => cases hv
  case isTrue hall =>
    rw [List.all_eq_true] at hall
    have := hall i (by rw [hu]; simpa using hi)
    unfold validEntry at this
    split at this
    case h_2 => cases this
    case h_1 q hq =>
      refine ⟨q, hq, ?_⟩
      simp only [Bool.and_eq_true, Bool.or_eq_true, beq_iff_eq, decide_eq_true_eq] at this
      obtain ⟨⟨_, h⟩, _⟩ := this
      rcases h with h | h
      · exact Or.inl h
      · rw [hu] at h; exact Or.inr h.1

/-- **C02** (a). In a tree accepted by index validation, `depth` of an entry whose parent links reach a root after `n`
steps is exactly `n`. -/
theorem C02_depth_is_number_of_ancestors (s : State R) (i n : Nat) (h : HasDepth s i n) : depth s i = .ok n := by
  unfold depth
  cases h with
  | root _ q hq hp => rw [hq]; simp only [hp]; rw [depthLoop, if_pos rfl]
  | child _ q j n hq hp hne hj =>
    have hlt : n + 1 < s.tree.length := (HasDepth.child i q j n hq hp hne hj).lt_size
    rw [hq]; simp only [hp]
    rw [depthLoop_of_hasDepth hj hne 0 (by omega)]
    congr 1; omega

theorem depthLoop_cyclic {s : State R} (hv : validateIndices s = .ok ()) (hn : s.tree.length ≤ kNoParent) :
    ∀ (fuel j k : Nat), s.tree.length - k = fuel → j ≠ kNoParent → j < s.tree.length →
      (∀ n, ¬ HasDepth s j n) → depthLoop s j k = .throws .runtimeError := by
  intro fuel
  induction fuel with
  | zero =>
    intro j k hf hj _ _
    rw [depthLoop, if_neg hj, dif_pos (by omega)]
  | succ fuel ih =>
    intro j k hf hj hlt hno
    rw [depthLoop, if_neg hj]
    by_cases hk : k + 1 > s.tree.length
    · rw [dif_pos hk]
    · rw [dif_neg hk]
      obtain ⟨q, hq, hp⟩ := valid_parent hv hn hlt
      rw [hq]
      have hp' : (s.heap q).parent_index ≠ kNoParent := fun h => hno 0 (.root j q hq h)
      refine ih _ _ (by omega) hp' (hp.resolve_left hp') ?_
      intro n hd
      exact hno (n + 1) (.child j q _ n hq rfl hp' hd)

/-- **C02** (b). In a tree accepted by index validation (and of representable size), `depth` of an entry whose parent
links never reach a root throws; it does not loop and does not access memory out of range. Together with (a) this
determines `depth` for every entry of every validated tree. -/
theorem C02_depth_detects_cycles (s : State R) (hv : validateIndices s = .ok ()) (hn : s.tree.length ≤ kNoParent)
    (i : Nat) (hi : i < s.tree.length) (hno : ∀ n, ¬ HasDepth s i n) : depth s i = .throws .runtimeError := by
  obtain ⟨q, hq, hp⟩ := valid_parent hv hn hi
  unfold depth; rw [hq]
  have hp' : (s.heap q).parent_index ≠ kNoParent := fun h => hno 0 (.root i q hq h)
  refine depthLoop_cyclic hv hn _ _ _ rfl hp' (hp.resolve_left hp') ?_
  intro n hd
  exact hno (n + 1) (.child i q _ n hq rfl hp' hd)

/-- An index out of range is reported by `at`. -/
theorem C02_depth_out_of_range (s : State R) (i : Nat) (hi : s.tree.length ≤ i) : depth s i = .throws .outOfRange := by
  unfold depth; rw [List.getElem?_eq_none hi]

/-- A two-entry cyclic archive passes validation: case (b) is not vacuous. -/
def cyclic : State Unit where
  tree := [some 0, some 1]
  heap := fun p => if p = 0 then { record := (), node_id := 0, parent_index := 1 }
                   else { record := (), node_id := 1, parent_index := 0 }

example : validateIndices cyclic = .ok () := by decide

example : ∀ n, ¬ HasDepth cyclic 0 n := by
  have key : ∀ n, ¬ HasDepth cyclic 0 n ∧ ¬ HasDepth cyclic 1 n := by
    intro n
    induction n with
    | zero =>
      constructor <;> intro h <;> cases h with | root _ q hq hp => ?_
      · simp [cyclic] at hq; subst hq; simp [cyclic, kNoParent] at hp
      · simp [cyclic] at hq; subst hq; simp [cyclic, kNoParent] at hp
    | succ n ih =>
      constructor <;> intro h <;> cases h with | child _ q j _ hq hp _ hj => ?_
      · simp [cyclic] at hq; subst hq; simp [cyclic] at hp; subst hp; exact ih.2 hj
      · simp [cyclic] at hq; subst hq; simp [cyclic] at hp; subst hp; exact ih.1 hj
  exact fun n => (key n).1

/-- Every entry of a tree built by a legal history has a depth, so `depth` never throws on it. -/
theorem C02_built_entries_have_depth (h0 : Heap R) (calls : History) (hl : Legal calls) (i : Nat)
    (hi : i < calls.length) : ∃ n, HasDepth (run h0 calls) i n := by
  induction i using Nat.strongRecOn with
  | ind i ih =>
    obtain ⟨_, hall⟩ := C01_add_entry_forest h0 calls hl
    obtain ⟨htree, _, _, hpar, hlt, _⟩ := hall i calls[i] (by simp [hi])
    cases hc : calls[i].2 with
    | none => exact ⟨0, .root i _ htree (by rw [hpar, hc]; rfl)⟩
    | some j =>
      have hji := hlt j hc
      obtain ⟨n, hn⟩ := ih j hji (by omega)
      refine ⟨n + 1, .child i _ j n htree (by rw [hpar, hc]; rfl) ?_ hn⟩
      have := hl.small; omega

/-! ## C03 -/

/-- Specification of a well-indexed tree: no null entries, ids are positions, links stay in range. -/
def WellIndexed (s : State R) : Prop :=
  ∀ i, i < s.tree.length → ∃ q, s.tree[i]? = some (some q) ∧ (s.heap q).node_id = i ∧
    ((s.heap q).parent_index = kNoParent ∨ (s.heap q).parent_index < s.tree.length) ∧
    ∀ k ∈ (s.heap q).daughter_indices, k < s.tree.length

/-- **C03** (a). Validation accepts exactly the well-indexed trees and throws on every other one. -/
theorem C03_validation_exact (s : State R) (hn : s.tree.length ≤ kNoParent) :
    (WellIndexed s → validateIndices s = .ok ()) ∧ (¬ WellIndexed s → validateIndices s = .throws .runtimeError) := by
  have hu : u32 s.tree.length = s.tree.length := by
    unfold u32; exact Nat.mod_eq_of_lt (by simp [kNoParent] at hn; omega)
  have hiff : (List.range (u32 s.tree.length)).all (validEntry s) = true ↔ WellIndexed s := by
    rw [List.all_eq_true, hu]
    constructor
    · intro hall i hi
      have := hall i (by simpa using hi)
      unfold validEntry at this
      split at this
      case h_2 => cases this
      case h_1 q hq =>
        simp only [Bool.and_eq_true, Bool.or_eq_true, beq_iff_eq, decide_eq_true_eq, List.all_eq_true, hu] at this
        obtain ⟨⟨h1, h2⟩, h3⟩ := this
        exact ⟨q, hq, h1, h2.imp id And.left, fun k hk => (h3 k hk).1⟩
    · intro hw i hi
      have hi : i < s.tree.length := by simpa using hi
      have hsome : ∀ k, k < s.tree.length → (s.tree[k]?.join).isSome = true := by
        intro k hk
        obtain ⟨q, hq, _⟩ := hw k hk
        simp [hq]
      obtain ⟨q, hq, h1, h2, h3⟩ := hw i hi
      unfold validEntry
      rw [hq]
      simp only [Bool.and_eq_true, Bool.or_eq_true, beq_iff_eq, decide_eq_true_eq, List.all_eq_true, hu]
      exact ⟨⟨h1, h2.imp id fun h => ⟨h, hsome _ h⟩⟩, fun k hk => ⟨h3 k hk, hsome k (h3 k hk)⟩⟩
  constructor
  · intro h; unfold validateIndices; rw [if_pos (hiff.2 h)]
  · intro h; unfold validateIndices; rw [if_neg (fun h' => h (hiff.1 h'))]

/-- The observable content of a tree: what `InteractionTree::operator==` (`InteractionTree.cxx:42-52`, `29-34`)
compares, plus pointer identity. -/
def SameTree (s t : State R) : Prop :=
  s.tree = t.tree ∧ ∀ (i : Nat) (q : Ptr), s.tree[i]? = some (some q) →
    (s.heap q).record = (t.heap q).record ∧ (s.heap q).node_id = (t.heap q).node_id ∧
    (s.heap q).parent_index = (t.heap q).parent_index ∧ (s.heap q).daughter_indices = (t.heap q).daughter_indices

/-- **C03** (b). Loading a saved well-indexed tree succeeds and returns the same tree. -/
theorem C03_save_load_roundtrip (s : State R) (hn : s.tree.length ≤ kNoParent) (hw : WellIndexed s) :
    ∃ t, load (save s) = .ok t ∧ SameTree s t := by
  have hw' : WellIndexed { heap := (save s).objects, tree := (save s).tree } := hw
  refine ⟨{ heap := (save s).objects, tree := (save s).tree }, ?_, rfl, fun _ q _ => ⟨rfl, rfl, rfl, rfl⟩⟩
  have := (C03_validation_exact (R := R) { heap := (save s).objects, tree := (save s).tree } hn).1 hw'
  show (validateIndices { heap := (save s).objects, tree := (save s).tree } >>= fun _ => pure _) = _
  rw [this]
  rfl

/-- Trees produced by `add_entry` are well-indexed, hence survive save/load. -/
theorem C03_built_trees_wellIndexed (h0 : Heap R) (calls : History) (hl : Legal calls) :
    WellIndexed (run h0 calls) := by
  obtain ⟨hlen, hall⟩ := C01_add_entry_forest h0 calls hl
  intro i hi
  rw [hlen] at hi
  obtain ⟨htree, _, hid, hpar, hlt, hd⟩ := hall i calls[i] (by simp [hi])
  refine ⟨_, htree, hid, ?_, ?_⟩
  · cases hc : calls[i].2 with
    | none => left; rw [hpar, hc]; rfl
    | some j =>
      right; rw [hpar, hc, hlen]
      have := hlt j hc
      show j < _
      omega
  · intro k hk
    rw [hd] at hk
    have := (List.mem_filter.1 hk).1
    rw [hlen]; simpa using this

theorem indexOf_of_getElem {ptrs : List Ptr} (hnd : ptrs.Nodup) {k : Nat} {p : Ptr} (h : ptrs[k]? = some p) :
    indexOf (ptrs.map some) (some p) = some k := by
  induction ptrs generalizing k with
  | nil => simp at h
  | cons a as ih =>
    rw [List.nodup_cons] at hnd
    cases k with
    | zero =>
      simp at h; subst h
      have hnone : indexOf (as.map some) (some a) = none := by
        have : ∀ bs : List Ptr, a ∉ bs → indexOf (bs.map some) (some a) = none := by
          intro bs hb
          induction bs with
          | nil => rfl
          | cons b bs ihb =>
            simp only [List.mem_cons, not_or] at hb
            simp [indexOf, ihb hb.2, Ne.symm hb.1]
        exact this as hnd.1
      simp [indexOf, hnone]
    | succ k =>
      simp at h
      simp [indexOf, ih hnd.2 h]

theorem indexOf_none {ptrs : List Ptr} {p : Ptr} (h : p ∉ ptrs) : indexOf (ptrs.map some) (some p) = none := by
  induction ptrs with
  | nil => rfl
  | cons b bs ih =>
    simp only [List.mem_cons, not_or] at h
    simp [indexOf, ih h.2, Ne.symm h.1]

theorem indexOf_null (ptrs : List Ptr) : indexOf (ptrs.map some) none = none := by
  induction ptrs with
  | nil => rfl
  | cons b bs ih => simp [indexOf, ih]

theorem rebuildLoop_spec (T : List (Option Ptr)) (ptrs : List Ptr) (hnd : ptrs.Nodup) (i : Nat) (h : Heap R) :
    ∃ h', rebuildLoop T (ptrs.map some) i h = .ok h' ∧
      (∀ k p, ptrs[k]? = some p → h' p = rebuiltDatum T (i + k) (h p)) ∧ (∀ p, p ∉ ptrs → h' p = h p) := by
  induction ptrs generalizing i h with
  | nil => exact ⟨h, rfl, by simp, by simp⟩
  | cons a as ih =>
    rw [List.nodup_cons] at hnd
    obtain ⟨h', he, h1, h2⟩ := ih hnd.2 (i + 1) (h.set a (rebuiltDatum T i (h a)))
    refine ⟨h', by simpa [rebuildLoop] using he, ?_, ?_⟩
    · intro k p hk
      cases k with
      | zero =>
        simp at hk; subst hk
        rw [h2 a hnd.1]; simp [Heap.set]
      | succ k =>
        simp at hk
        have hne : p ≠ a := by
          intro hpa; subst hpa; exact hnd.1 (List.mem_of_getElem? hk)
        rw [h1 k p hk]
        have : i + 1 + k = i + (k + 1) := by omega
        simp [Heap.set, hne, this]
    · intro p hp
      simp only [List.mem_cons, not_or] at hp
      rw [h2 p hp.2]; simp [Heap.set, hp.1]

theorem clearLegacy_spec (ptrs : List Ptr) (h : Heap R) (p : Ptr) :
    clearLegacy (ptrs.map some) h p =
      if p ∈ ptrs then { h p with legacy_parent := none, legacy_daughters := [] } else h p := by
  induction ptrs generalizing h with
  | nil => simp [clearLegacy]
  | cons a as ih =>
    simp only [List.map_cons, clearLegacy, ih, List.mem_cons]
    by_cases hpa : p = a
    · subst hpa; simp [Heap.set]
    · simp [Heap.set, hpa]

/-- Position of an object in the tree vector, if it occurs there. -/
def position (ptrs : List Ptr) (q : Option Ptr) : Option Nat := q.bind fun p => ptrs.findIdx? (· == p)

theorem position_eq_indexOf {ptrs : List Ptr} (hnd : ptrs.Nodup) (q : Option Ptr) :
    position ptrs q = indexOf (ptrs.map some) q := by
  cases q with
  | none => rw [indexOf_null]; rfl
  | some p =>
    by_cases hp : p ∈ ptrs
    · obtain ⟨k, hk⟩ := List.getElem?_of_mem hp
      rw [indexOf_of_getElem hnd hk]
      show ptrs.findIdx? (· == p) = some k
      have hklt : k < ptrs.length := by
        by_contra hlt; rw [List.getElem?_eq_none (by omega)] at hk; cases hk
      rw [List.findIdx?_eq_some_iff_getElem]
      refine ⟨hklt, ?_, ?_⟩
      · rw [List.getElem?_eq_getElem hklt] at hk; simpa using hk
      · intro j hj hjp
        rw [List.getElem?_eq_getElem hklt] at hk
        have : ptrs[j] = ptrs[k] := by
          simp at hk hjp; rw [hk, hjp]
        have := (List.Nodup.getElem_inj_iff hnd).1 this
        omega
    · rw [indexOf_none hp]
      show ptrs.findIdx? (· == p) = none
      rw [List.findIdx?_eq_none_iff]
      intro x hx
      simp only [beq_eq_false_iff_ne]
      intro h; subst h; exact hp hx

theorem findIdx?_lt {ptrs : List Ptr} {q : Option Ptr} {k : Nat} (h : position ptrs q = some k) : k < ptrs.length := by
  cases q with
  | none => cases h
  | some p =>
    have h : ptrs.findIdx? (· == p) = some k := h
    rw [List.findIdx?_eq_some_iff_getElem] at h
    exact h.1

/-- **C03** (c). Loading a legacy archive whose tree vector holds distinct non-null objects succeeds; entry `i` then has
node id `i`, its parent index is the position of the object its legacy parent pointer refers to (no parent if null or not
in the tree), its daughter indices are the positions of its legacy daughters that are in the tree, in order, and no
legacy pointer survives. -/
theorem C03_legacy_load (objects : Heap R) (ptrs : List Ptr) (hnd : ptrs.Nodup) (hn : ptrs.length ≤ kNoParent) :
    ∃ t, load { version := 0, tree := ptrs.map some, objects := objects } = .ok t ∧
      t.tree = ptrs.map some ∧
      ∀ i p, ptrs[i]? = some p →
        t.heap p = { record := (objects p).record
                     node_id := i
                     parent_index := (position ptrs (objects p).legacy_parent).getD kNoParent
                     daughter_indices := (objects p).legacy_daughters.filterMap (position ptrs)
                     legacy_parent := none
                     legacy_daughters := [] } := by
  have hu : ∀ k, k < ptrs.length → u32 k = k := by
    intro k hk; unfold u32; exact Nat.mod_eq_of_lt (by simp [kNoParent] at hn; omega)
  obtain ⟨h', he, h1, _⟩ := rebuildLoop_spec (ptrs.map some) ptrs hnd 0 objects
  let t : State R := { heap := clearLegacy (ptrs.map some) h', tree := ptrs.map some }
  have hdat : ∀ i p, ptrs[i]? = some p →
        t.heap p = { record := (objects p).record
                     node_id := i
                     parent_index := (position ptrs (objects p).legacy_parent).getD kNoParent
                     daughter_indices := (objects p).legacy_daughters.filterMap (position ptrs)
                     legacy_parent := none
                     legacy_daughters := [] } := by
    intro i p hp
    have hi : i < ptrs.length := by
      by_contra hlt; rw [List.getElem?_eq_none (by omega)] at hp; cases hp
    show clearLegacy (ptrs.map some) h' p = _
    rw [clearLegacy_spec, if_pos (List.mem_of_getElem? hp), h1 i p hp]
    have hfm : (objects p).legacy_daughters.filterMap (fun q => (indexOf (ptrs.map some) q).map u32)
        = (objects p).legacy_daughters.filterMap (position ptrs) := by
      apply List.filterMap_congr
      intro q _
      rw [← position_eq_indexOf hnd]
      cases hq : position ptrs q with
      | none => rfl
      | some k => simp [hu k (findIdx?_lt hq)]
    have hpar : (match (objects p).legacy_parent with
        | some par => match indexOf (ptrs.map some) (some par) with
          | some k => u32 k
          | none => kNoParent
        | none => kNoParent) = (position ptrs (objects p).legacy_parent).getD kNoParent := by
      cases hlp : (objects p).legacy_parent with
      | none => rfl
      | some par =>
        simp only
        rw [← position_eq_indexOf hnd]
        cases hq : position ptrs (some par) with
        | none => rfl
        | some k => simp [hu k (findIdx?_lt hq)]
    rw [← hpar]
    simp only [rebuiltDatum, Nat.zero_add, hu i hi, hfm]
    rfl
  have hw : WellIndexed t := by
    intro i hi
    have hi : i < ptrs.length := by simpa [t] using hi
    have hp : ptrs[i]? = some ptrs[i] := by simp [hi]
    refine ⟨ptrs[i], by simp [t, hi], ?_, ?_, ?_⟩
    · rw [hdat i _ hp]
    · rw [hdat i _ hp]
      simp only
      cases hq : position ptrs (objects ptrs[i]).legacy_parent with
      | none => exact Or.inl rfl
      | some k => right; simpa [t] using findIdx?_lt hq
    · rw [hdat i _ hp]
      simp only
      intro k hk
      rw [List.mem_filterMap] at hk
      obtain ⟨q, _, hq⟩ := hk
      simpa [t] using findIdx?_lt hq
  refine ⟨t, ?_, rfl, hdat⟩
  have hv := (C03_validation_exact t (by simpa [t] using hn)).1 hw
  show rebuildFromLegacy { heap := objects, tree := ptrs.map some } = .ok t
  unfold rebuildFromLegacy
  simp only [he, Res.ok_bind]
  show (validateIndices t >>= fun _ => pure t) = _
  rw [hv]; rfl

/-- What the old (version 0) writer stored for a tree: parent and daughters as pointers. -/
def asLegacy (s : State R) : Archive R :=
  { version := 0, tree := s.tree,
    objects := fun p =>
      { record := (s.heap p).record
        legacy_parent := if (s.heap p).parent_index = kNoParent then none else s.tree[(s.heap p).parent_index]?.join
        legacy_daughters := (s.heap p).daughter_indices.map fun k => s.tree[k]?.join } }

theorem position_at {ptrs : List Ptr} (hnd : ptrs.Nodup) {k : Nat} (hk : k < ptrs.length) :
    position ptrs ((ptrs.map some)[k]?.join) = some k := by
  have : ((ptrs.map some)[k]?.join) = some ptrs[k] := by simp [hk]
  rw [this, position_eq_indexOf hnd, indexOf_of_getElem hnd (k := k) (by simp [hk])]

/-- **C03** (d). Pointer form and index form describe the same tree: writing a well-indexed tree of distinct objects the
old way and loading it gives the tree back. -/
theorem C03_legacy_roundtrip (s : State R) (ptrs : List Ptr) (ht : s.tree = ptrs.map some) (hnd : ptrs.Nodup)
    (hn : ptrs.length ≤ kNoParent) (hw : WellIndexed s) : ∃ t, load (asLegacy s) = .ok t ∧ SameTree s t := by
  obtain ⟨t, he, htree, hdat⟩ := C03_legacy_load (asLegacy s).objects ptrs hnd hn
  refine ⟨t, ?_, ht.trans htree.symm, ?_⟩
  · rw [← he]
    have : asLegacy s = { version := 0, tree := ptrs.map some, objects := (asLegacy s).objects } := by
      show Archive.mk 0 s.tree (asLegacy s).objects = _
      congr 1
    rw [← this]
  · intro i q hq
    have hq' : ptrs[i]? = some q := by
      rw [ht] at hq; simpa using hq
    have hi : i < s.tree.length := by
      by_contra hlt; rw [List.getElem?_eq_none (by omega)] at hq; cases hq
    have hlen : s.tree.length = ptrs.length := by rw [ht]; simp
    obtain ⟨q', hq2, hid, hpar, hdau⟩ := hw i hi
    rw [hq] at hq2; cases hq2
    rw [hdat i q hq']
    refine ⟨rfl, hid, ?_, ?_⟩
    · simp only [asLegacy]
      by_cases hk : (s.heap q).parent_index = kNoParent
      · rw [if_pos hk, hk]; rfl
      · rw [if_neg hk]
        have hlt := hpar.resolve_left hk
        rw [ht, position_at hnd (by omega)]; rfl
    · simp only [asLegacy]
      rw [List.filterMap_map]
      have : ∀ l : List Nat, (∀ k ∈ l, k < s.tree.length) →
          l.filterMap (position ptrs ∘ fun k => s.tree[k]?.join) = l := by
        intro l hl
        induction l with
        | nil => rfl
        | cons a as ih =>
          have ha := hl a (by simp)
          have : (position ptrs ∘ fun k => s.tree[k]?.join) a = some a := by
            simp only [Function.comp_apply, ht]
            exact position_at hnd (by omega)
          rw [List.filterMap_cons, this]
          simp only
          rw [ih fun k hk => hl k (by simp [hk])]
      exact (this _ hdau).symm

/-- **C03** (e). Archives of any other version are rejected. -/
theorem C03_unknown_version (a : Archive R) (h0 : a.version ≠ 0) (h1 : a.version ≠ 1) :
    load a = .throws .runtimeError := by
  unfold load; rw [if_neg h1, if_neg h0]

/-- **C03** (f). A version-1 archive with an out-of-range link, wrong node id or null entry is rejected. -/
theorem C03_corrupt_v1_rejected (a : Archive R) (h1 : a.version = 1) (hn : a.tree.length ≤ kNoParent)
    (hbad : ¬ WellIndexed { heap := a.objects, tree := a.tree }) : load a = .throws .runtimeError := by
  unfold load
  rw [if_pos h1]
  simp only [(C03_validation_exact { heap := a.objects, tree := a.tree } hn).2 hbad]
  rfl

/-- The rejection claim does not extend to legacy archives: a version-0 archive with a null entry is dereferenced before
it is validated, which is undefined behaviour instead of an exception. -/
theorem C03_legacy_null_entry_fails :
    load ({ version := 0, tree := [none], objects := fun _ => { record := () } } : Archive Unit) = .ub := by
  rfl

/-- The hypotheses of C03 are met by a three-entry tree. -/
example : WellIndexed (run (fun _ => { record := () } : Heap Unit) [(5, none), (7, some 0), (9, some 1)]) :=
  C03_built_trees_wellIndexed _ _
    { fresh := by decide
      earlier := by
        intro i j h
        match i, h with
        | 0, h => simp at h
        | 1, h => simp at h; omega
        | 2, h => simp at h; omega
        | (k + 3), h => simp at h
      small := by decide }

end Siren.Tree
