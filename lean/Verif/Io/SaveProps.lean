import Verif.Io.Model
import Mathlib.Data.Nat.Digits.Lemmas
import Mathlib.Data.List.Sort
import Mathlib.Algebra.BigOperators.Group.List.Basic
import Mathlib.Algebra.BigOperators.Group.Finset.Basic

set_option autoImplicit false

/-!
# Saving trees: event numbers (C58), process identifiers (C59) and weight totals (C68)
-/

namespace Siren.Io

open Siren Siren.Records Siren.Geometry.Compare

variable {K : Type} [Field K]

/-! ## Specification -/

/-- The trees that are written: those that exist and are not empty, in order. -/
def Written (trees : List (Option (ITree K))) : List (ITree K) := (trees.filterMap id).filter fun t => t.nodes ≠ []

/-- The signature of the first interaction of a tree. -/
def rootSignature (t : ITree K) : Option Signature := t.nodes.head?.map fun n => n.record.signature

/-! ## Event numbers -/

theorem skipUsed_spec (used : List Nat) : ∀ (fuel n : Nat), (used.filter (fun x => n ≤ x)).length < fuel →
    n ≤ skipUsed used fuel n ∧ skipUsed used fuel n ∉ used := by
  intro fuel
  induction fuel with
  | zero => intro n h; omega
  | succ fuel ih =>
    intro n h
    rw [skipUsed]
    by_cases hn : n ∈ used
    · rw [if_pos (by simpa using hn)]
      have hlt : (used.filter (fun x => decide (n + 1 ≤ x))).length < (used.filter (fun x => decide (n ≤ x))).length := by
        have hsub : used.filter (fun x => decide (n + 1 ≤ x)) = (used.filter (fun x => decide (n ≤ x))).filter (fun x => decide (n + 1 ≤ x)) := by
          rw [List.filter_filter]
          apply List.filter_congr
          intro x _
          by_cases h1 : n + 1 ≤ x
          · simp [h1, show n ≤ x by omega]
          · simp [h1]
        rw [hsub]
        apply List.length_filter_lt_length_iff_exists.mpr
        exact ⟨n, by simp [hn], by simp⟩
      have := ih (n + 1) (by omega)
      exact ⟨by omega, this.2⟩
    · rw [if_neg (by simpa using hn)]
      exact ⟨le_rfl, hn⟩

theorem skipUsed_ok (used : List Nat) (n : Nat) :
    n ≤ skipUsed used (used.length + 1) n ∧ skipUsed used (used.length + 1) n ∉ used :=
  skipUsed_spec used _ n (Nat.lt_succ_of_le (List.length_filter_le _ _))

/-- The numbers the loop chooses itself. -/
def chosen (out : List (Nat × ITree K)) : List Nat := (out.filter fun e => e.2.number = 0).map Prod.fst

theorem writeLoop_spec (used : List Nat) (trees : List (Option (ITree K))) : ∀ next,
    (writeLoop used trees next).map Prod.snd = Written trees ∧
    (∀ e ∈ writeLoop used trees next, e.2.number ≠ 0 → e.1 = e.2.number) ∧
    (chosen (writeLoop used trees next)).Pairwise (· < ·) ∧
    (∀ n ∈ chosen (writeLoop used trees next), next ≤ n ∧ n ∉ used) := by
  induction trees with
  | nil => intro next; simp [writeLoop, Written, chosen]
  | cons t rest ih =>
    intro next
    cases t with
    | none => simpa [writeLoop, Written] using ih next
    | some t =>
      rw [writeLoop]
      by_cases he : t.nodes = []
      · rw [if_pos (by simp [he])]
        have hw : Written (some t :: rest) = Written rest := by simp [Written, he]
        rw [hw]; exact ih next
      · rw [if_neg (by simp [he])]
        have hw : Written (some t :: rest) = t :: Written rest := by simp [Written, he]
        rw [hw]
        by_cases h0 : t.number = 0
        · rw [if_neg (by simp [h0])]
          obtain ⟨h1, h2⟩ := skipUsed_ok used next
          generalize hn : skipUsed used (used.length + 1) next = n at h1 h2
          obtain ⟨i1, i2, i3, i4⟩ := ih (n + 1)
          simp only
          have hc : chosen ((n, t) :: writeLoop used rest (n + 1)) = n :: chosen (writeLoop used rest (n + 1)) := by
            simp [chosen, h0]
          refine ⟨by simp [i1], ?_, ?_, ?_⟩
          · intro e hm
            rcases List.mem_cons.mp hm with rfl | hm
            · intro h; exact absurd h0 h
            · exact i2 e hm
          · rw [hc, List.pairwise_cons]
            exact ⟨fun m hm => by have := (i4 m hm).1; omega, i3⟩
          · rw [hc]
            intro m hm
            rcases List.mem_cons.mp hm with rfl | hm
            · exact ⟨h1, h2⟩
            · exact ⟨by have := (i4 m hm).1; omega, (i4 m hm).2⟩
        · rw [if_pos h0]
          obtain ⟨i1, i2, i3, i4⟩ := ih next
          have hc : chosen ((t.number, t) :: writeLoop used rest next) = chosen (writeLoop used rest next) := by
            simp [chosen, h0]
          refine ⟨by simp [i1], ?_, by rwa [hc], by rwa [hc]⟩
          intro e hm
          rcases List.mem_cons.mp hm with rfl | hm
          · intro _; rfl
          · exact i2 e hm

theorem explicitNumbers_mem (trees : List (Option (ITree K))) (n : Nat) :
    n ∈ explicitNumbers trees ↔ ∃ t ∈ Written trees, t.number ≠ 0 ∧ t.number = n := by
  have key : ∀ (acc : List Nat), n ∈ trees.foldl (fun s tree => match tree with
      | none => s
      | some t => if !t.nodes.isEmpty && decide (t.number ≠ 0) then s ++ [t.number] else s) acc ↔
      n ∈ acc ∨ ∃ t ∈ Written trees, t.number ≠ 0 ∧ t.number = n := by
    induction trees with
    | nil => intro acc; simp [Written]
    | cons t rest ih =>
      intro acc
      rw [List.foldl_cons, ih]
      cases t with
      | none => simp [Written]
      | some t =>
        by_cases he : t.nodes = []
        · simp [Written, he]
        · have hw : Written (some t :: rest) = t :: Written rest := by simp [Written, he]
          rw [hw]
          by_cases h0 : t.number = 0
          · simp [h0]
          · have hb : (!t.nodes.isEmpty && decide (t.number ≠ 0)) = true := by simp [he, h0]
            simp only [hb, if_true, List.mem_append, List.mem_singleton, List.mem_cons, exists_eq_or_imp]
            rw [or_assoc]
            refine or_congr_right (or_congr_left ?_)
            simp only [List.not_mem_nil, or_false]
            exact ⟨fun h => ⟨h0, h.symm⟩, fun h => h.2.symm⟩
  have := key []
  simp only [List.not_mem_nil, false_or] at this
  exact this

/-- Every tree that exists and is not empty is written once and in order; an explicit number is kept; the numbers given to the other trees are
different from each other and from every explicit number. -/
theorem C58_numbers (o : Options K) (trees : List (Option (ITree K))) (out : List (Nat × ITree K)) (h : (save o trees).2 = out) :
    out.map Prod.snd = Written trees ∧
    (∀ e ∈ out, e.2.number ≠ 0 → e.1 = e.2.number) ∧
    ((out.filter fun e => e.2.number = 0).map Prod.fst).Nodup ∧
    (∀ e ∈ out, e.2.number = 0 → ∀ t ∈ Written trees, t.number ≠ 0 → e.1 ≠ t.number) := by
  subst h
  obtain ⟨h1, h2, h3, h4⟩ := writeLoop_spec (explicitNumbers trees) trees 0
  refine ⟨h1, h2, h3.imp (fun h => h.ne), fun e he h0 t ht hn hc => ?_⟩
  have hm : e.1 ∈ chosen (writeLoop (explicitNumbers trees) trees 0) :=
    List.mem_map.mpr ⟨e, List.mem_filter.mpr ⟨he, by simpa using h0⟩, rfl⟩
  exact (h4 _ hm).2 ((explicitNumbers_mem trees _).mpr ⟨t, ht, hn, hc.symm⟩)

/-! ## Process keys -/

theorem digitChar_inj {a b : Nat} (ha : a < 10) (hb : b < 10) (h : Nat.digitChar a = Nat.digitChar b) : a = b := by
  interval_cases a <;> interval_cases b <;> first | rfl | (exact absurd h (by decide))

theorem digitChar_ne {a : Nat} (ha : a < 10) : Nat.digitChar a ≠ '-' ∧ Nat.digitChar a ≠ '|' ∧ Nat.digitChar a ≠ '>' ∧ Nat.digitChar a ≠ ',' := by
  interval_cases a <;> decide

theorem mem_showNat {n : Nat} {c : Char} (h : c ∈ showNat n) : ∃ a, a < 10 ∧ c = Nat.digitChar a := by
  unfold showNat at h
  split at h
  · exact ⟨0, by norm_num, (List.mem_singleton.mp h).trans (by decide)⟩
  · simp only [List.mem_map, List.mem_reverse] at h
    obtain ⟨a, ha, rfl⟩ := h
    exact ⟨a, Nat.digits_lt_base (by norm_num) ha, rfl⟩

theorem showNat_inj {m n : Nat} (h : showNat m = showNat n) : m = n := by
  have key : ∀ k, k ≠ 0 → showNat k ≠ ['0'] := by
    intro k hk he
    rw [showNat, if_neg hk] at he
    have hlen := congrArg List.length he
    simp only [List.length_map, List.length_reverse, List.length_singleton] at hlen
    obtain ⟨d, hd⟩ := List.length_eq_one_iff.mp hlen
    rw [hd] at he
    have hd10 : d < 10 := Nat.digits_lt_base (b := 10) (m := k) (by norm_num) (by rw [hd]; simp)
    have : d = 0 := digitChar_inj hd10 (by norm_num) ((List.cons.inj he).1.trans (by decide))
    have hk' := Nat.ofDigits_digits 10 k
    rw [hd, this] at hk'
    simp at hk'
    exact hk hk'.symm
  by_cases hm : m = 0
  · by_cases hn : n = 0
    · rw [hm, hn]
    · subst hm; exact absurd h.symm (key n hn)
  · by_cases hn : n = 0
    · subst hn; exact absurd h (key m hm)
    · rw [showNat, if_neg hm, showNat, if_neg hn] at h
      have hinj : ∀ (l l' : List Nat), (∀ x ∈ l, x < 10) → (∀ x ∈ l', x < 10) → l.map Nat.digitChar = l'.map Nat.digitChar → l = l' := by
        intro l
        induction l with
        | nil => intro l' _ _ h; cases l' with
          | nil => rfl
          | cons => simp at h
        | cons a l ih =>
          intro l' h1 h2 h
          cases l' with
          | nil => simp at h
          | cons b l' =>
            simp only [List.map_cons, List.cons.injEq] at h
            rw [digitChar_inj (h1 a (by simp)) (h2 b (by simp)) h.1,
              ih l' (fun x hx => h1 x (by simp [hx])) (fun x hx => h2 x (by simp [hx])) h.2]
      have := hinj _ _ (fun x hx => Nat.digits_lt_base (by norm_num) (List.mem_reverse.mp hx))
        (fun x hx => Nat.digits_lt_base (by norm_num) (List.mem_reverse.mp hx)) h
      exact Nat.digits_inj_iff.mp (List.reverse_injective this)

theorem mem_showInt {z : Int} {c : Char} (h : c ∈ showInt z) : c = '-' ∨ ∃ a, a < 10 ∧ c = Nat.digitChar a := by
  unfold showInt at h
  split at h
  · rcases List.mem_cons.mp h with h | h
    · exact .inl h
    · exact .inr (mem_showNat h)
  · exact .inr (mem_showNat h)

theorem showInt_inj {a b : Int} (h : showInt a = showInt b) : a = b := by
  have hno : ∀ n l, showNat n ≠ '-' :: l := by
    intro n l he
    obtain ⟨a, ha, hc⟩ := mem_showNat (n := n) (c := '-') (by rw [he]; simp)
    exact (digitChar_ne ha).1 hc.symm
  unfold showInt at h
  split at h <;> split at h
  · have := showNat_inj (List.cons.inj h).2; omega
  · exact absurd h.symm (hno _ _)
  · exact absurd h (hno _ _)
  · have := showNat_inj h; omega

theorem sep_not_mem (z : Int) : '|' ∉ showInt z ∧ '>' ∉ showInt z ∧ ',' ∉ showInt z := by
  refine ⟨fun h => ?_, fun h => ?_, fun h => ?_⟩ <;>
  · rcases mem_showInt h with h | ⟨a, ha, h⟩
    · exact absurd h (by decide)
    · have := digitChar_ne ha
      simp_all

/-- A separator that occurs in neither part splits a text uniquely. -/
theorem split_unique {c : Char} : ∀ {a b r s : List Char}, c ∉ a → c ∉ b → a ++ c :: r = b ++ c :: s → a = b ∧ r = s := by
  intro a
  induction a with
  | nil =>
    intro b r s _ hb h
    cases b with
    | nil => exact ⟨rfl, (List.cons.inj h).2⟩
    | cons d b =>
      have := (List.cons.inj h).1
      exact absurd (this ▸ List.mem_cons_self) hb
  | cons d a ih =>
    intro b r s ha hb h
    cases b with
    | nil =>
      have := (List.cons.inj h).1
      exact absurd (this ▸ List.mem_cons_self) ha
    | cons e b =>
      have h' := List.cons.inj h
      obtain ⟨h1, h2⟩ := ih (fun hm => ha (by simp [hm])) (fun hm => hb (by simp [hm])) h'.2
      exact ⟨by rw [h'.1, h1], h2⟩

theorem processKey_inj {s t : Signature} (h : processKey s = processKey t) : s = t := by
  simp only [processKey, List.append_assoc, List.singleton_append] at h
  obtain ⟨h1, h2⟩ := split_unique (sep_not_mem _).1 (sep_not_mem _).1 h
  obtain ⟨h3, h4⟩ := split_unique (sep_not_mem _).2.1 (sep_not_mem _).2.1 h2
  have h5 : ∀ (l l' : List Int), l.flatMap (fun t => showInt t ++ [',']) = l'.flatMap (fun t => showInt t ++ [',']) → l = l' := by
    intro l
    induction l with
    | nil => intro l' h; cases l' with
      | nil => rfl
      | cons => simp at h
    | cons a l ih =>
      intro l' h
      cases l' with
      | nil => simp at h
      | cons b l' =>
        simp only [List.flatMap_cons, List.append_assoc, List.singleton_append] at h
        obtain ⟨h1, h2⟩ := split_unique (sep_not_mem _).2.2 (sep_not_mem _).2.2 h
        rw [showInt_inj h1, ih l' h2]
  cases s; cases t
  simp only [Signature.mk.injEq]
  exact ⟨showInt_inj h1, showInt_inj h3, h5 _ _ h4⟩

/-! ## Process identifiers -/

theorem emplace_spec (m : List (List Char × Signature)) (sig : Signature) (h1 : (m.map Prod.snd).Nodup) (h2 : ∀ e ∈ m, e.1 = processKey e.2) :
    ((emplace m (processKey sig) sig).map Prod.snd).Nodup ∧ (∀ e ∈ emplace m (processKey sig) sig, e.1 = processKey e.2) ∧
      ∀ x, x ∈ (emplace m (processKey sig) sig).map Prod.snd ↔ x ∈ m.map Prod.snd ∨ x = sig := by
  unfold emplace
  split
  · rename_i h
    obtain ⟨e, he, hk⟩ := List.any_eq_true.mp h
    have hs : e.2 = sig := processKey_inj ((h2 e he).symm.trans (by simpa using hk))
    refine ⟨h1, h2, fun x => ⟨.inl, ?_⟩⟩
    rintro (hx | rfl)
    · exact hx
    · exact List.mem_map.mpr ⟨e, he, hs⟩
  · rename_i h
    have hn : sig ∉ m.map Prod.snd := by
      intro hm
      obtain ⟨e, he, hs⟩ := List.mem_map.mp hm
      exact h (List.any_eq_true.mpr ⟨e, he, by simp [h2 e he, hs]⟩)
    refine ⟨?_, ?_, fun x => by simp⟩
    · rw [List.map_append, List.nodup_append]
      exact ⟨h1, by simp, by rintro a ha b hb rfl; simp at hb; exact hn (hb ▸ ha)⟩
    · intro e he
      rcases List.mem_append.mp he with he | he
      · exact h2 e he
      · simp only [List.mem_singleton] at he; rw [he]

/-- The weight of the first slot, 1 if the tree has no weight. -/
def cvWeight (t : ITree K) : K := t.weights.headD 1

/-- The trees with a given primary type. -/
def withPrimary (p : Int) (ts : List (ITree K)) : List (ITree K) := ts.filter fun t => (rootSignature t).map Signature.primary = some p

theorem scan_spec (trees : List (Option (ITree K))) : ∀ (s : Scan K), (s.sigs.map Prod.snd).Nodup → (∀ e ∈ s.sigs, e.1 = processKey e.2) →
    let r := trees.foldl scanStep s
    (r.sigs.map Prod.snd).Nodup ∧ (∀ x, x ∈ r.sigs.map Prod.snd ↔ x ∈ s.sigs.map Prod.snd ∨ ∃ t ∈ Written trees, rootSignature t = some x) ∧
    r.opts.processIds = s.opts.processIds ∧ r.opts.processNames = s.opts.processNames ∧ r.opts.accepted = s.opts.accepted ∧
    r.opts.unweighted = s.opts.unweighted ∧ r.count = s.count + (Written trees).length ∧
    r.opts.weightSum = s.opts.weightSum + ((Written trees).map cvWeight).sum ∧
    (∀ p, (r.opts.weightSumOf p).getD 0 = (s.opts.weightSumOf p).getD 0 + ((withPrimary p (Written trees)).map cvWeight).sum) ∧
    (∀ p, (r.opts.acceptedOf p).getD 0 = (s.opts.acceptedOf p).getD 0 + (withPrimary p (Written trees)).length) ∧
    (∀ p, (r.opts.weightSumOf p).isSome = ((s.opts.weightSumOf p).isSome || !(withPrimary p (Written trees)).isEmpty)) := by
  induction trees with
  | nil => intro s h1 h2; simp [Written, h1, withPrimary]
  | cons t rest ih =>
    intro s h1 h2
    rw [List.foldl_cons]
    cases t with
    | none =>
      have hw : Written (none :: rest) = Written rest := by simp [Written]
      rw [hw]; exact ih s h1 h2
    | some t =>
      cases hn : t.nodes with
      | nil =>
        have hw : Written (some t :: rest) = Written rest := by simp [Written, hn]
        have hs : scanStep s (some t) = s := by simp [scanStep, hn]
        rw [hw, hs]; exact ih s h1 h2
      | cons root more =>
        have hw : Written (some t :: rest) = t :: Written rest := by simp [Written, hn]
        have hroot : rootSignature t = some root.record.signature := by simp [rootSignature, hn]
        have hs : scanStep s (some t) = ⟨⟨s.opts.unweighted, s.opts.accepted, s.opts.processIds, s.opts.processNames,
            s.opts.weightSum + cvWeight t,
            put s.opts.weightSumOf root.record.signature.primary ((s.opts.weightSumOf root.record.signature.primary).getD 0 + cvWeight t),
            put s.opts.acceptedOf root.record.signature.primary ((s.opts.acceptedOf root.record.signature.primary).getD 0 + 1)⟩,
            emplace s.sigs (processKey root.record.signature) root.record.signature, s.count + 1⟩ := by simp only [scanStep, hn]; rfl
        obtain ⟨e1, e2, e3⟩ := emplace_spec s.sigs root.record.signature h1 h2
        rw [hw, hs]
        obtain ⟨i1, i2, i3, i4, i5, i6, i7, i8, i9, i10, i11⟩ := ih ⟨⟨s.opts.unweighted, s.opts.accepted, s.opts.processIds, s.opts.processNames,
            s.opts.weightSum + cvWeight t,
            put s.opts.weightSumOf root.record.signature.primary ((s.opts.weightSumOf root.record.signature.primary).getD 0 + cvWeight t),
            put s.opts.acceptedOf root.record.signature.primary ((s.opts.acceptedOf root.record.signature.primary).getD 0 + 1)⟩,
            emplace s.sigs (processKey root.record.signature) root.record.signature, s.count + 1⟩ e1 e2
        have hp : ∀ p, withPrimary p (t :: Written rest) =
            if p = root.record.signature.primary then t :: withPrimary p (Written rest) else withPrimary p (Written rest) := by
          intro p
          simp only [withPrimary, List.filter_cons, hroot, Option.map_some, Option.some.injEq, decide_eq_true_eq]
          by_cases h : p = root.record.signature.primary
          · rw [if_pos h.symm, if_pos h]
          · rw [if_neg (fun h' => h h'.symm), if_neg h]
        refine ⟨i1, fun x => ?_, i3, i4, i5, i6, ?_, ?_, fun p => ?_, fun p => ?_, fun p => ?_⟩
        · rw [i2, e3]
          simp only [List.mem_cons, exists_eq_or_imp, hroot, Option.some.injEq]
          rw [or_assoc, eq_comm]
        · rw [i7]; simp only [List.length_cons]; omega
        · rw [i8]; simp only [List.map_cons, List.sum_cons]; ring
        · rw [i9, hp]
          simp only [put]
          split <;> rename_i h
          · subst h; simp; ring
          · rfl
        · rw [i10, hp]
          simp only [put]
          split <;> rename_i h
          · subst h; simp; ring
          · rfl
        · rw [i11, hp]
          simp only [put]
          split <;> simp

theorem assign_spec (l : List Signature) : ∀ (o : Options K) (n : Nat), l.Nodup → (∀ s ∈ l, o.processIds (processKey s) = none) →
    let r := (l.foldl assignStep (o, n)).1
    (∀ s, s ∈ l → r.processIds (processKey s) = some (n + l.idxOf s)) ∧ (∀ k, (∀ s ∈ l, k ≠ processKey s) → r.processIds k = o.processIds k) ∧
    (∀ s, s ∈ l → r.processNames (n + l.idxOf s) = some (processName s)) ∧
    (∀ i, (i < n ∨ n + l.length ≤ i) → r.processNames i = o.processNames i) ∧
    r.accepted = o.accepted ∧ r.unweighted = o.unweighted := by
  induction l with
  | nil => intro o n _ _; simp
  | cons s l ih =>
    intro o n hnd hnone
    rw [List.nodup_cons] at hnd
    have hstep : assignStep (o, n) s = (⟨o.unweighted, o.accepted, put o.processIds (processKey s) n, put o.processNames n (processName s),
        o.weightSum, o.weightSumOf, o.acceptedOf⟩, n + 1) := by
      simp [assignStep, hnone s (by simp)]
    rw [List.foldl_cons, hstep]
    obtain ⟨i1, i2, i3, i4, i5, i6⟩ := ih ⟨o.unweighted, o.accepted, put o.processIds (processKey s) n,
        put o.processNames n (processName s), o.weightSum, o.weightSumOf, o.acceptedOf⟩ (n + 1) hnd.2 (by
          intro t ht
          simp only [put]
          rw [if_neg (fun h => hnd.1 (by rw [← processKey_inj h]; exact ht))]
          exact hnone t (by simp [ht]))
    have hidx : ∀ t ∈ l, (s :: l).idxOf t = l.idxOf t + 1 := by
      intro t ht
      rw [List.idxOf_cons_ne]
      rintro rfl; exact hnd.1 ht
    refine ⟨fun t ht => ?_, fun k hk => ?_, fun t ht => ?_, fun i hi => ?_, i5, i6⟩
    · rcases List.mem_cons.mp ht with rfl | ht
      · rw [i2 _ (fun u hu h => hnd.1 (by rw [processKey_inj h]; exact hu))]
        simp [put]
      · rw [i1 t ht, hidx t ht]; congr 1; omega
    · rw [i2 k (fun u hu => hk u (by simp [hu]))]
      simp only [put]
      rw [if_neg (hk s (by simp))]
    · rcases List.mem_cons.mp ht with rfl | ht
      · rw [i4 _ (by simp)]
        simp [put]
      · rw [hidx t ht, ← i3 t ht]; congr 1; omega
    · rw [i4 i (by simp only [List.length_cons] at hi; omega)]
      simp only [put]
      rw [if_neg (by simp only [List.length_cons] at hi; omega)]

theorem sortSigs_perm (m : List (List Char × Signature)) : (sortSigs m).Perm (m.map Prod.snd) := List.mergeSort_perm _ _

theorem le_total (a b : Signature) : ((!b.lt a) || !a.lt b) = true := by
  cases h : b.lt a with
  | false => rfl
  | true => simp [strictTotal_signature.asymm _ _ h]

theorem le_trans' (a b c : Signature) (h1 : (!b.lt a) = true) (h2 : (!c.lt b) = true) : (!c.lt a) = true := by
  simp only [Bool.not_eq_true'] at *
  by_contra hc
  have hc : c.lt a = true := by simpa using hc
  rcases Bool.eq_false_or_eq_true (a.lt b) with h | h
  · rw [strictTotal_signature.trans c a b hc h] at h2; exact absurd h2 (by simp)
  · have := strictTotal_signature.total a b h h1
    subst this
    rw [hc] at h2; exact absurd h2 (by simp)

theorem sortSigs_eq {m m' : List (List Char × Signature)} (h : (m.map Prod.snd).Perm (m'.map Prod.snd)) : sortSigs m = sortSigs m' := by
  have hp : (sortSigs m).Perm (sortSigs m') := (sortSigs_perm m).trans (h.trans (sortSigs_perm m').symm)
  refine hp.eq_of_pairwise (le := fun a b => (!b.lt a) = true) ?_ ?_ ?_
  · intro a b _ _ h1 h2
    simp only [Bool.not_eq_true'] at h1 h2
    exact strictTotal_signature.total a b h2 h1
  · exact List.pairwise_mergeSort le_trans' le_total _
  · exact List.pairwise_mergeSort le_trans' le_total _

/-- The signatures in the order in which they are numbered. -/
theorem prescan_spec (o : Options K) (trees : List (Option (ITree K))) (ho : ∀ k, o.processIds k = none) (hn : ∀ i, o.processNames i = none) :
    ∃ l : List Signature, l.Nodup ∧ l.Pairwise (fun a b => (!b.lt a) = true) ∧ (∀ s, s ∈ l ↔ ∃ t ∈ Written trees, rootSignature t = some s) ∧
      (∀ s ∈ l, (prescan o trees).processIds (processKey s) = some (700 + l.idxOf s)) ∧
      (∀ k, (∀ s ∈ l, k ≠ processKey s) → (prescan o trees).processIds k = none) ∧
      (∀ s ∈ l, (prescan o trees).processNames (700 + l.idxOf s) = some (processName s)) ∧
      (∀ i, (i < 700 ∨ 700 + l.length ≤ i) → (prescan o trees).processNames i = none) ∧
      (prescan o trees).unweighted = o.unweighted ∧
      (prescan o trees).accepted = if o.accepted < 0 then ((Written trees).length : Int) else o.accepted := by
  obtain ⟨h1, h2, h3, h4, h5, h6, h7, -⟩ := scan_spec trees (⟨o, [], 0⟩ : Scan K) (by simp) (by simp)
  generalize hr : trees.foldl scanStep (⟨o, [], 0⟩ : Scan K) = r at *
  simp only at h1 h2 h3 h4 h5 h6 h7
  set opts := if r.opts.accepted < 0 then { r.opts with accepted := (r.count : Int) } else r.opts with hopts
  have hids : opts.processIds = o.processIds := by rw [hopts]; split <;> exact h3
  have hnames : opts.processNames = o.processNames := by rw [hopts]; split <;> exact h4
  have hun : opts.unweighted = o.unweighted := by rw [hopts]; split <;> exact h6
  have hacc : opts.accepted = if o.accepted < 0 then ((Written trees).length : Int) else o.accepted := by
    rw [hopts, h5]; split
    · simp [h7]
    · exact h5
  have hp : prescan o trees = ((sortSigs r.sigs).foldl assignStep (opts, 700)).1 := by
    rw [prescan, hr]
  obtain ⟨a1, a2, a3, a4, a5, a6⟩ := assign_spec (sortSigs r.sigs) opts 700 ((sortSigs_perm _).nodup_iff.mpr h1) (by
    intro s _; rw [hids]; exact ho _)
  refine ⟨sortSigs r.sigs, (sortSigs_perm _).nodup_iff.mpr h1, List.pairwise_mergeSort le_trans' le_total _, fun s => ?_, ?_, ?_, ?_, ?_, ?_, ?_⟩
  · rw [(sortSigs_perm _).mem_iff, h2]; simp
  · rw [hp]; exact a1
  · rw [hp]; intro k hk; rw [a2 k hk, hids]; exact ho k
  · rw [hp]; exact a3
  · rw [hp]; intro i hi; rw [a4 i hi, hnames]; exact hn i
  · rw [hp, a6, hun]
  · rw [hp, a5, hacc]

/-- A process registry as a caller leaves it: empty. -/
def NoProcesses (o : Options K) : Prop := (∀ k, o.processIds k = none) ∧ ∀ i, o.processNames i = none

theorem mem_written {trees : List (Option (ITree K))} {t : ITree K} : t ∈ Written trees ↔ some t ∈ trees ∧ t.nodes ≠ [] := by
  simp [Written, List.mem_filterMap]

theorem rootSignature_written {trees : List (Option (ITree K))} {t : ITree K} (h : t ∈ Written trees) :
    ∃ n rest, t.nodes = n :: rest ∧ rootSignature t = some n.record.signature := by
  obtain ⟨n, rest, e⟩ := List.exists_cons_of_ne_nil (mem_written.mp h).2
  exact ⟨n, rest, e, by simp [rootSignature, e]⟩

theorem conformant_of (o : Options K) (trees : List (Option (ITree K))) (hp : NoProcesses o) (hw : o.unweighted = false)
    (ha : o.accepted ≠ 0) (t : ITree K) (ht : t ∈ Written trees) : (prescan o trees).conformant = true := by
  obtain ⟨l, -, -, -, -, -, -, -, h1, h2⟩ := prescan_spec o trees hp.1 hp.2
  have : 0 < (Written trees).length := List.length_pos_of_mem ht
  simp only [Options.conformant, h1, hw, h2, Bool.not_false, Bool.true_and, decide_eq_true_eq]
  split <;> omega

/-- In a weighted file every event has a process identifier of 700 or more, declared in the registry with the name of its root process. Events
have the same identifier exactly if their root signatures are the same. Nothing else is declared. -/
theorem C59_ids (o : Options K) (trees : List (Option (ITree K))) (hp : NoProcesses o) (hw : o.unweighted = false) (ha : o.accepted ≠ 0)
    (opts : Options K) (h : (save o trees).1 = opts) :
    (∀ t ∈ Written trees, ∃ id s, signalProcess opts t = some id ∧ 700 ≤ id ∧ rootSignature t = some s ∧ registry opts id = some (processName s)) ∧
    (∀ t ∈ Written trees, ∀ u ∈ Written trees, signalProcess opts t = signalProcess opts u ↔ rootSignature t = rootSignature u) ∧
    (∀ id name, registry opts id = some name → ∃ t ∈ Written trees, signalProcess opts t = some id) := by
  subst h
  obtain ⟨l, l1, -, l2, l3, -, l4, l5, -, -⟩ := prescan_spec o trees hp.1 hp.2
  have hsig : ∀ t ∈ Written trees, ∃ s ∈ l, rootSignature t = some s ∧ signalProcess (prescan o trees) t = some (700 + l.idxOf s) := by
    intro t ht
    obtain ⟨n, rest, e, hr⟩ := rootSignature_written ht
    have hm := (l2 n.record.signature).mpr ⟨t, ht, hr⟩
    refine ⟨_, hm, hr, ?_⟩
    rw [signalProcess, if_pos (conformant_of o trees hp hw ha t ht), e]
    exact l3 _ hm
  refine ⟨fun t ht => ?_, fun t ht u hu => ?_, fun id name hreg => ?_⟩
  · obtain ⟨s, hs, h1, h2⟩ := hsig t ht
    refine ⟨_, s, h2, by omega, h1, ?_⟩
    show registry (prescan o trees) _ = _
    rw [registry, if_pos (conformant_of o trees hp hw ha t ht)]
    exact l4 s hs
  · obtain ⟨s, hs, h1, h2⟩ := hsig t ht
    obtain ⟨r, hr, h3, h4⟩ := hsig u hu
    show signalProcess (prescan o trees) t = signalProcess (prescan o trees) u ↔ _
    rw [h2, h4, h1, h3, Option.some.injEq, Option.some.injEq, Nat.add_left_cancel_iff]
    exact ⟨fun h => List.idxOf_inj hs |>.mp h, fun h => by rw [h]⟩
  · change registry (prescan o trees) id = some name at hreg
    rw [registry] at hreg
    split at hreg
    · by_cases hi : id < 700 ∨ 700 + l.length ≤ id
      · rw [l5 id hi] at hreg; exact absurd hreg (by simp)
      · push Not at hi
        have hlt : id - 700 < l.length := by omega
        obtain ⟨t, ht, hr⟩ := (l2 l[id - 700]).mp (List.getElem_mem hlt)
        obtain ⟨s, -, h1, h2⟩ := hsig t ht
        refine ⟨t, ht, ?_⟩
        rw [hr] at h1
        have : s = l[id - 700] := (Option.some.inj h1).symm
        have hidx := l1.idxOf_getElem (id - 700) hlt
        show signalProcess (prescan o trees) t = _
        rw [h2, this, hidx, show 700 + (id - 700) = id by omega]
    · exact absurd hreg (by simp)

/-- The identifiers depend only on which root signatures occur: two lists of trees with the same ones, in whatever order and number, give every
process the same identifier. -/
theorem C59_order (o : Options K) (trees trees' : List (Option (ITree K))) (hp : NoProcesses o) (hw : o.unweighted = false) (ha : o.accepted ≠ 0)
    (hsame : ∀ s, (∃ t ∈ Written trees, rootSignature t = some s) ↔ ∃ t ∈ Written trees', rootSignature t = some s)
    (t t' : ITree K) (ht : t ∈ Written trees) (ht' : t' ∈ Written trees') (hr : rootSignature t = rootSignature t') :
    signalProcess (save o trees).1 t = signalProcess (save o trees').1 t' := by
  obtain ⟨l, l1, l1', l2, l3, -⟩ := prescan_spec o trees hp.1 hp.2
  obtain ⟨m, m1, m1', m2, m3, -⟩ := prescan_spec o trees' hp.1 hp.2
  have hlm : l = m := by
    have hperm : l.Perm m := (List.perm_ext_iff_of_nodup l1 m1).mpr fun s => by rw [l2, m2, hsame]
    refine hperm.eq_of_pairwise (le := fun a b => (!b.lt a) = true) ?_ l1' m1'
    intro a b _ _ h1 h2
    simp only [Bool.not_eq_true'] at h1 h2
    exact strictTotal_signature.total a b h2 h1
  obtain ⟨n, rest, e, h1⟩ := rootSignature_written ht
  obtain ⟨n', rest', e', h1'⟩ := rootSignature_written ht'
  have hs : n.record.signature = n'.record.signature := by rw [h1, h1'] at hr; exact Option.some.inj hr
  show signalProcess (prescan o trees) t = signalProcess (prescan o trees') t'
  rw [signalProcess, if_pos (conformant_of o trees hp hw ha t ht), signalProcess, if_pos (conformant_of o trees' hp hw ha t' ht'), e, e']
  simp only
  rw [l3 _ ((l2 _).mpr ⟨t, ht, h1⟩), hs, m3 _ ((m2 _).mpr ⟨t', ht', h1'⟩), hlm]

/-! ## Totals -/

/-- Saving adds to the weight total the first weight of every event, as it is written to the file; the totals for each primary type are the sums
over the events with that primary and add up to the whole, and the number of accepted events is counted if it was not given. -/
theorem C68_totals (u : Units K) (nweights : Nat) (hw : 0 < nweights) (o : Options K) (trees : List (Option (ITree K)))
    (h0 : o.weightSum = 0) (h1 : ∀ p, o.weightSumOf p = none) (h2 : ∀ p, o.acceptedOf p = none)
    (opts : Options K) (out : List (Nat × ITree K)) (h : save o trees = (opts, out)) :
    opts.weightSum = (out.map fun e => (writeEvent u nweights e.2 e.1).weights.headD 0).sum ∧
    (∀ p, opts.weightSumOf p = if withPrimary p (Written trees) = [] then none else
      some (((withPrimary p (Written trees)).map cvWeight).sum)) ∧
    (∀ p, (opts.acceptedOf p).getD 0 = (withPrimary p (Written trees)).length) ∧
    opts.weightSum = ∑ p ∈ ((Written trees).filterMap fun t => (rootSignature t).map Signature.primary).toFinset, (opts.weightSumOf p).getD 0 ∧
    (o.accepted < 0 → opts.accepted = out.length) := by
  obtain ⟨-, -, -, -, h5, -, h7, h8, h9, h10, h11⟩ := scan_spec trees (⟨o, [], 0⟩ : Scan K) (by simp) (by simp)
  obtain ⟨rfl, rfl⟩ : opts = prescan o trees ∧ out = writeLoop (explicitNumbers trees) trees 0 := by
    rw [save] at h; exact ⟨(Prod.mk.inj h).1.symm, (Prod.mk.inj h).2.symm⟩
  have hout : (writeLoop (explicitNumbers trees) trees 0).map Prod.snd = Written trees := (writeLoop_spec _ trees 0).1
  have hassign : ∀ (l : List Signature) (p : Options K × Nat), (l.foldl assignStep p).1.weightSum = p.1.weightSum ∧
      (l.foldl assignStep p).1.weightSumOf = p.1.weightSumOf ∧ (l.foldl assignStep p).1.acceptedOf = p.1.acceptedOf ∧
      (l.foldl assignStep p).1.accepted = p.1.accepted := by
    intro l
    induction l with
    | nil => intro p; simp
    | cons s l ih =>
      intro p
      rw [List.foldl_cons]
      have : (assignStep p s).1.weightSum = p.1.weightSum ∧ (assignStep p s).1.weightSumOf = p.1.weightSumOf ∧
          (assignStep p s).1.acceptedOf = p.1.acceptedOf ∧ (assignStep p s).1.accepted = p.1.accepted := by
        simp only [assignStep]; split <;> simp
      rw [(ih _).1, (ih _).2.1, (ih _).2.2.1, (ih _).2.2.2]; exact this
  obtain ⟨p1, p2, p3, p4⟩ : (prescan o trees).weightSum = (trees.foldl scanStep (⟨o, [], 0⟩ : Scan K)).opts.weightSum ∧
      (prescan o trees).weightSumOf = (trees.foldl scanStep (⟨o, [], 0⟩ : Scan K)).opts.weightSumOf ∧
      (prescan o trees).acceptedOf = (trees.foldl scanStep (⟨o, [], 0⟩ : Scan K)).opts.acceptedOf ∧
      (o.accepted < 0 → (prescan o trees).accepted = (trees.foldl scanStep (⟨o, [], 0⟩ : Scan K)).count) := by
    rw [prescan]
    simp only
    rw [(hassign _ _).1, (hassign _ _).2.1, (hassign _ _).2.2.1, (hassign _ _).2.2.2]
    refine ⟨by split <;> rfl, by split <;> rfl, by split <;> rfl, fun h => ?_⟩
    rw [if_pos (by rw [h5]; exact h)]
  have hcv : ∀ t : ITree K, ∀ n, (writeEvent u nweights t n).weights.headD 0 = cvWeight t := by
    intro t n
    simp only [writeEvent, eventWeights, cvWeight]
    split
    · cases nweights with
      | zero => omega
      | succ k => simp [List.replicate_succ]
    · rename_i hl
      push Not at hl
      cases hw' : t.weights with
      | nil => rw [hw'] at hl; simp at hl; omega
      | cons a l => simp
  have hof : ∀ p, (prescan o trees).weightSumOf p = if withPrimary p (Written trees) = [] then none else
      some (((withPrimary p (Written trees)).map cvWeight).sum) := by
    intro p
    have i11 := h11 p
    have i9 := h9 p
    simp only [h1, Option.getD_none, zero_add, Option.isSome_none, Bool.false_or] at i9 i11
    rw [p2]
    split
    · rename_i he
      rw [he] at i11
      simpa using i11
    · rename_i he
      cases hx : (trees.foldl scanStep (⟨o, [], 0⟩ : Scan K)).opts.weightSumOf p with
      | none => rw [hx] at i11; simp at i11; exact absurd i11 he
      | some v => rw [hx] at i9; simpa using i9
  have htot : (prescan o trees).weightSum = ((Written trees).map cvWeight).sum := by rw [p1, h8, h0, zero_add]
  refine ⟨?_, hof, ?_, ?_, ?_⟩
  · rw [htot, ← hout, List.map_map]
    congr 1
    apply List.map_congr_left
    intro e _
    exact (hcv _ _).symm
  · intro p; rw [p3, h10, h2]; simp
  · rw [htot]
    have hget : ∀ p, ((prescan o trees).weightSumOf p).getD 0 = ((withPrimary p (Written trees)).map cvWeight).sum := by
      intro p; rw [hof]; split
      · rename_i he; simp [he]
      · simp
    simp only [hget]
    have key : ∀ (ts : List (ITree K)) (S : Finset Int), (∀ t ∈ ts, ∃ p ∈ S, (rootSignature t).map Signature.primary = some p) →
        (ts.map cvWeight).sum = ∑ p ∈ S, ((withPrimary p ts).map cvWeight).sum := by
      intro ts S
      induction ts with
      | nil => intro _; simp [withPrimary]
      | cons t ts ih =>
        intro hS
        obtain ⟨q, hq, hqe⟩ := hS t (by simp)
        have hcons : ∀ p, ((withPrimary p (t :: ts)).map cvWeight).sum = (if p = q then cvWeight t else 0) + ((withPrimary p ts).map cvWeight).sum := by
          intro p
          simp only [withPrimary, List.filter_cons, hqe, Option.some.injEq, decide_eq_true_eq]
          by_cases h : p = q
          · rw [if_pos h.symm, if_pos h]; simp
          · rw [if_neg (fun h' => h h'.symm), if_neg h]; simp
        simp only [hcons]
        rw [Finset.sum_add_distrib, Finset.sum_ite_eq' S q, if_pos hq, ← ih (fun t ht => hS t (by simp [ht]))]
        simp
    apply key
    intro t ht
    obtain ⟨n, rest, e, hr⟩ := rootSignature_written ht
    refine ⟨n.record.signature.primary, ?_, by simp [hr]⟩
    simp only [List.mem_toFinset, List.mem_filterMap]
    exact ⟨t, ht, by simp [hr]⟩
  · intro ha
    rw [p4 ha, h7, ← hout]
    simp

/-! ## Instances -/

/-- An event with one interaction. -/
def sample (number : Nat) (w : List ℚ) (sig : Signature) : ITree ℚ :=
  ⟨number, w, [⟨{ (emptyRecord : Record ℚ) with signature := sig }, none⟩]⟩

/-- Options as a caller leaves them. -/
def plain : Options ℚ := ⟨false, -1, fun _ => none, fun _ => none, 0, fun _ => none, fun _ => none⟩

example : NoProcesses plain ∧ plain.unweighted = false ∧ plain.accepted ≠ 0 := ⟨⟨fun _ => rfl, fun _ => rfl⟩, rfl, by decide⟩

/-- Three trees, one with the explicit number 0 would get next; an empty tree is left out. -/
example : ((save plain [some (sample 0 [] ⟨14, 0, []⟩), some ⟨7, [], []⟩, some (sample 1 [2] ⟨12, 1, [11]⟩), none, some (sample 0 [3, 4] ⟨14, 0, []⟩)]).2.map
    Prod.fst) = [0, 1, 2] := by decide +kernel

example : ∃ a b : ITree ℚ, ∃ trees, a ∈ Written trees ∧ b ∈ Written trees ∧ rootSignature a ≠ rootSignature b :=
  ⟨sample 0 [] ⟨14, 0, []⟩, sample 1 [2] ⟨12, 1, [11]⟩, [some (sample 0 [] ⟨14, 0, []⟩), some (sample 1 [2] ⟨12, 1, [11]⟩)],
    by simp [mem_written, sample], by simp [mem_written, sample], by simp [rootSignature, sample]⟩

/-- The same processes in another order and number. -/
example (a b : Signature) (s : Signature) :
    (∃ t ∈ Written [some (sample 0 [] a), some (sample 1 [2] b)], rootSignature t = some s) ↔
      ∃ t ∈ Written [some (sample 2 [] b), none, some (sample 5 [] a), some (sample 0 [1] b)], rootSignature t = some s := by
  simp [Written, rootSignature, sample]
  tauto

/-- If the caller supplies an identifier of its own, a new process can get the same one. -/
theorem C59_supplied_fails (a b : Signature) (hab : a ≠ b) (o : Options ℚ) (ho : o = { plain with processIds := put (fun _ => none) (processKey a) 700 }) :
    rootSignature (sample 0 [] a) ≠ rootSignature (sample 0 [] b) ∧
    signalProcess (save o [some (sample 0 [] a), some (sample 0 [] b)]).1 (sample 0 [] a) = some 700 ∧
    signalProcess (save o [some (sample 0 [] a), some (sample 0 [] b)]).1 (sample 0 [] b) = some 700 := by
  subst ho
  have hk : processKey a ≠ processKey b := fun h => hab (processKey_inj h)
  refine ⟨by simpa [rootSignature, sample] using hab, ?_⟩
  have hperm : (sortSigs [(processKey a, a), (processKey b, b)]).Perm [a, b] := sortSigs_perm _
  have hl : sortSigs [(processKey a, a), (processKey b, b)] = [a, b] ∨ sortSigs [(processKey a, a), (processKey b, b)] = [b, a] := by
    generalize sortSigs [(processKey a, a), (processKey b, b)] = l at hperm
    match l, hperm.length_eq with
    | [x, y], _ =>
      have hx : x ∈ [a, b] := hperm.subset (by simp)
      have hnd : [x, y].Nodup := hperm.nodup_iff.mpr (by simpa using hab)
      have hy : y ∈ [a, b] := hperm.subset (by simp)
      simp only [List.mem_cons, List.not_mem_nil, or_false] at hx hy
      simp only [List.nodup_cons, List.mem_singleton] at hnd
      rcases hx with rfl | rfl <;> rcases hy with rfl | rfl <;> simp_all
  have hsigs : ∀ q : Scan ℚ, q.sigs = [] → (([some (sample 0 [] a), some (sample 0 [] b)].foldl scanStep q).sigs =
      [(processKey a, a), (processKey b, b)]) := by
    intro q hq
    simp [scanStep, sample, emplace, hq, hk]
  simp only [save, prescan, signalProcess]
  rw [hsigs _ rfl]
  rcases hl with hl | hl <;> rw [hl] <;> simp [scanStep, sample, assignStep, put, plain, Options.conformant, hk, hk.symm]

example : (⟨14, 0, []⟩ : Signature) ≠ ⟨12, 1, [11]⟩ := by decide

end Siren.Io
