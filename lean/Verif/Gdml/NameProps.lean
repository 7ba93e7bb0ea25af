import Verif.Gdml.NameModel
import Mathlib.Data.List.Induction

set_option autoImplicit false

/-! # C114: references in a GDML file find the definition they name -/

namespace Siren.Gdml.Names

open Siren

variable {T : Type}

/-! ## Specification -/

/-- `x` is what the file defines last under the name `o`, as it is written. -/
def LastUnder (defs : List (Name × T)) (o : Name) (x : T) : Prop :=
  ∃ pre post, defs = pre ++ (o, x) :: post ∧ ∀ p ∈ post, p.1 ≠ o

/-- `x` is what the file defines last under a name that is `n` without pointer suffix. -/
def LastStripped (on : Bool) (defs : List (Name × T)) (n : Name) (x : T) : Prop :=
  ∃ pre post o, defs = pre ++ (o, x) :: post ∧ strip on o = n ∧ ∀ p ∈ post, strip on p.1 ≠ n

/-- All definitions of the file under `n` (without pointer suffix) are equal to the first, `x`. -/
def Unique (on : Bool) (eq : T → T → Bool) (defs : List (Name × T)) (n : Name) (x : T) : Prop :=
  ∃ pre post o, defs = pre ++ (o, x) :: post ∧ strip on o = n ∧ (∀ p ∈ pre, strip on p.1 ≠ n) ∧
    ∀ p ∈ post, strip on p.1 = n → eq x p.2 = true

/-- The same definition, as far as the code can tell. -/
def Same (eq : T → T → Bool) (y x : T) : Prop := y = x ∨ eq y x = true

/-- No name of the file looks like another name with a number: `a__1` beside `a`. -/
def Plain (on : Bool) (defs : List (Name × T)) : Prop :=
  ∀ p ∈ defs, ∀ q ∈ defs, ∀ i, strip on p.1 ≠ flat (strip on q.1) i

/-! ## Numbered names -/

theorem lastSplit_cons (a b c : Char) (t : Name) : lastSplit a b (c :: t) = match lastSplit a b t with
    | some (p, r) => some (c :: p, r)
    | none => match t with
      | [] => none
      | d :: r => if c = a ∧ d = b then some ([], r) else none := by
  conv => lhs; rw [lastSplit.eq_def]
  rfl

theorem lastSplit_none {a b : Char} : ∀ {s : Name}, a ∉ s → lastSplit a b s = none
  | [], _ => rfl
  | c :: t, h => by
    rw [List.mem_cons, not_or] at h
    rw [lastSplit_cons, lastSplit_none h.2]
    cases t with
    | nil => rfl
    | cons d r => simp only; rw [if_neg (fun hc => h.1 hc.1.symm)]

theorem lastSplit_flat {s : Name} (hs : '_' ∉ s) : ∀ (n : Name), lastSplit '_' '_' (n ++ '_' :: '_' :: s) = some (n, s)
  | [] => by
    have h1 : lastSplit '_' '_' ('_' :: s) = none := by
      rw [lastSplit_cons, lastSplit_none hs]
      cases s with
      | nil => rfl
      | cons d r =>
        simp only
        rw [if_neg]
        rintro ⟨-, rfl⟩
        simp at hs
    rw [List.nil_append, lastSplit_cons, h1]
    simp
  | c :: n => by rw [List.cons_append, lastSplit_cons, lastSplit_flat hs n]

theorem digits_isDigit (n : Nat) : ∀ c ∈ Nat.toDigits 10 n, isDigit c = true := by
  intro c hc
  have h := Nat.isDigit_of_mem_toDigits (by decide) (by decide) hc
  simp only [Char.isDigit, Bool.and_eq_true, decide_eq_true_eq] at h
  simp only [isDigit, decide_eq_true_eq]
  exact h

theorem digits_no_underscore (n : Nat) : '_' ∉ Nat.toDigits 10 n := by
  intro h
  have := digits_isDigit n _ h
  exact absurd this (by decide)

theorem parse_flat {n : Name} (hn : n ≠ []) (i : Nat) : parseFlat (flat n i) = some (n, i) := by
  have hne : Nat.toDigits 10 (i + 1) ≠ [] := by
    have := @Nat.length_toDigits_pos 10 (i + 1)
    intro h
    rw [h] at this
    simp at this
  rw [parseFlat, flat, lastSplit_flat (digits_no_underscore _)]
  simp only
  rw [if_neg]
  · rw [Nat.ofDigitChars_toDigits (by decide) (by decide)]
  · simp only [hn, hne, false_or, Bool.not_eq_false, List.all_eq_true]
    exact digits_isDigit _

theorem flat_inj {n m : Name} {i j : Nat} (h : flat n i = flat m j) : n = m ∧ i = j := by
  have hs : (some (n, Nat.toDigits 10 (i + 1)) : Option (Name × Name)) = some (m, Nat.toDigits 10 (j + 1)) := by
    rw [← lastSplit_flat (digits_no_underscore _) n, ← lastSplit_flat (digits_no_underscore _) m]
    exact congrArg _ h
  simp only [Option.some.injEq, Prod.mk.injEq] at hs
  refine ⟨hs.1, ?_⟩
  have : Nat.ofDigitChars 10 (Nat.toDigits 10 (i + 1)) 0 = Nat.ofDigitChars 10 (Nat.toDigits 10 (j + 1)) 0 := by rw [hs.2]
  rw [Nat.ofDigitChars_toDigits (by decide) (by decide), Nat.ofDigitChars_toDigits (by decide) (by decide)] at this
  omega

theorem strip_ne_nil {on : Bool} {o : Name} (h : strip on o ≠ o) : strip on o ≠ [] := by
  unfold strip at h ⊢
  split at h
  · exact absurd rfl h
  · rename_i hon
    rw [if_neg hon]
    split at h
    · exact absurd rfl h
    · rename_i p r hp
      split at h
      · exact absurd rfl h
      · rename_i hc
        rw [if_neg hc]
        exact fun h' => hc (.inl h')

theorem lastSplit_some {a b : Char} : ∀ {s p r : Name}, lastSplit a b s = some (p, r) → s = p ++ a :: b :: r
  | [], _, _, h => by cases h
  | c :: t, p, r, h => by
    rw [lastSplit_cons] at h
    cases ht : lastSplit a b t with
    | some q =>
      rw [ht] at h
      simp only [Option.some.injEq, Prod.mk.injEq] at h
      have := lastSplit_some ht
      rw [this, ← h.1, ← h.2]
      rfl
    | none =>
      rw [ht] at h
      cases t with
      | nil => cases h
      | cons d r' =>
        simp only at h
        split at h
        · rename_i hc
          simp only [Option.some.injEq, Prod.mk.injEq] at h
          rw [← h.1, ← h.2, hc.1, hc.2]
          rfl
        · cases h

theorem lastSplit_pointer {s : Name} (hs : 'x' ∉ s) : ∀ (n : Name), lastSplit '0' 'x' (n ++ '0' :: 'x' :: s) = some (n, s)
  | [] => by
    have h0 : lastSplit '0' 'x' s = none := by
      cases h : lastSplit '0' 'x' s with
      | none => rfl
      | some q => exact absurd (by rw [lastSplit_some h]; simp) hs
    have h1 : lastSplit '0' 'x' ('x' :: s) = none := by
      rw [lastSplit_cons, h0]
      cases s with
      | nil => rfl
      | cons d r =>
        simp only
        rw [if_neg (fun hc => absurd hc.1 (by decide))]
    rw [List.nil_append, lastSplit_cons, h1]
    simp
  | c :: n => by rw [List.cons_append, lastSplit_cons, lastSplit_pointer hs n]

theorem hex_chars (c : Char) : isHex c = true ↔ c ∈ "0123456789abcdefABCDEF".toList := by
  constructor
  · intro h
    have key : ∀ n : Nat, (48 ≤ n ∧ n ≤ 57) ∨ (97 ≤ n ∧ n ≤ 102) ∨ (65 ≤ n ∧ n ≤ 70) →
        Char.ofNat n ∈ "0123456789abcdefABCDEF".toList := by
      have : ∀ n < 128, (48 ≤ n ∧ n ≤ 57) ∨ (97 ≤ n ∧ n ≤ 102) ∨ (65 ≤ n ∧ n ≤ 70) →
        Char.ofNat n ∈ "0123456789abcdefABCDEF".toList := by decide +kernel
      exact fun n hn => this n (by omega) hn
    simp only [isHex, decide_eq_true_eq, Char.le_def, UInt32.le_iff_toNat_le] at h
    have := key c.toNat h
    rwa [Char.ofNat_toNat] at this
  · have : ∀ c ∈ "0123456789abcdefABCDEF".toList, isHex c = true := by decide +kernel
    exact this c

/-- C114: what a pointer suffix is: `0x` and at least seven hexadecimal digits after a name that is not empty. Only this is taken off. -/
theorem C114_suffix (o n : Name) : (strip true o = n ∧ n ≠ o) ↔
    n ≠ [] ∧ ∃ r, o = n ++ '0' :: 'x' :: r ∧ 7 ≤ r.length ∧ ∀ c ∈ r, c ∈ "0123456789abcdefABCDEF".toList := by
  have hex := hex_chars
  constructor
  · rintro ⟨h, hne⟩
    have hs : strip true o ≠ o := by rw [h]; exact hne
    refine ⟨by rw [← h]; exact strip_ne_nil hs, ?_⟩
    unfold strip at h
    rw [if_neg (by decide)] at h
    cases hl : lastSplit '0' 'x' o with
    | none => rw [hl] at h; exact absurd h.symm hne
    | some q =>
      obtain ⟨p, r⟩ := q
      rw [hl] at h
      simp only at h
      split at h
      · exact absurd h.symm hne
      · rename_i hc
        push Not at hc
        refine ⟨r, by rw [← h]; exact lastSplit_some hl, by omega, fun c hcr => ?_⟩
        have := hc.2.2
        simp only [ne_eq, Bool.not_eq_false, List.all_eq_true] at this
        exact (hex c).1 (this c hcr)
  · rintro ⟨hn, r, rfl, hr, hh⟩
    refine ⟨?_, fun h => by simpa using congrArg List.length h⟩
    unfold strip
    rw [if_neg (by decide), lastSplit_pointer (fun hx => absurd (hh _ hx) (by decide))]
    simp only
    rw [if_neg]
    simp only [hn, false_or, not_or, Bool.not_eq_false, List.all_eq_true]
    exact ⟨by omega, fun c hc => (hex c).2 (hh c hc)⟩

/-! ## Histories of definitions -/

variable {on : Bool} {eq : T → T → Bool}

theorem storeAll_snoc (s : State T) (defs : List (Name × T)) (p : Name × T) :
    storeAll on eq s (defs ++ [p]) = store on eq (storeAll on eq s defs) p.1 p.2 := by
  rw [storeAll, List.foldl_append]; rfl

/-- What one definition does to the instances: nothing or one more at the end, and in either case the last one is the same definition. -/
theorem store_instances (s : State T) (o : Name) (x : T) :
    (∀ k, k ≠ strip on o → (store on eq s o x).instances k = s.instances k) ∧
    (∃ l, (store on eq s o x).instances (strip on o) = s.instances (strip on o) ++ l) ∧
    (∃ y, (store on eq s o x).instances (strip on o) = (s.instances (strip on o)).take ((store on eq s o x).instances (strip on o) |>.length.pred) ++ [y] ∧ Same eq y x) ∧
    ∀ k, (store on eq s o x).aliases k = if k = o ∧ strip on o ≠ o then
      some (flat (strip on o) ((store on eq s o x).instances (strip on o)).length.pred) else s.aliases k := by
  unfold store
  simp only
  by_cases h : ((s.instances (strip on o)).getLast?.map fun y => eq y x) = some true
  · rw [if_pos h]
    rw [Option.map_eq_some_iff] at h
    obtain ⟨y, hy, he⟩ := h
    refine ⟨fun k _ => rfl, ⟨[], by simp⟩, ⟨y, ?_, .inr he⟩, fun k => ?_⟩
    · have hd := List.getLast?_eq_some_iff.1 hy
      obtain ⟨ys, hys⟩ := hd
      rw [hys]
      simp
    · by_cases hk : strip on o = o
      · simp [hk]
      · by_cases hko : k = o
        · simp [put, hk, hko]
        · simp [put, hk, hko]
  · rw [if_neg h]
    refine ⟨fun k hk => by simp [hk], ⟨[x], by simp⟩, ⟨x, by simp, .inl rfl⟩, fun k => ?_⟩
    by_cases hk : strip on o = o
    · simp [hk]
    · by_cases hko : k = o
      · simp [put, hk, hko]
      · simp [put, hk, hko]

theorem get_append_some {l l' : List T} {j : Nat} {y : T} (h : l[j]? = some y) : (l ++ l')[j]? = some y := by
  have hj : j < l.length := by
    by_contra hc
    rw [List.getElem?_eq_none (by omega)] at h
    cases h
  rw [List.getElem?_append_left hj, h]

theorem store_get {s : State T} {o : Name} {x : T} {n : Name} {j : Nat} {y : T} (h : (s.instances n)[j]? = some y) :
    ((store on eq s o x).instances n)[j]? = some y := by
  obtain ⟨h1, ⟨l, h2⟩, -⟩ := store_instances (on := on) (eq := eq) s o x
  by_cases hn : n = strip on o
  · subst hn; rw [h2]; exact get_append_some h
  · rw [h1 n hn]; exact h

/-- The alias of a written name leads to the instance of its last definition. -/
theorem alias_history (s : State T) (defs : List (Name × T)) (o : Name) (ho : strip on o ≠ o) (x : T) (h : LastUnder defs o x) :
    ∃ j y, (storeAll on eq s defs).aliases o = some (flat (strip on o) j) ∧
      ((storeAll on eq s defs).instances (strip on o))[j]? = some y ∧ Same eq y x := by
  obtain ⟨pre, post, rfl, hpost⟩ := h
  induction post using List.reverseRecOn with
  | nil =>
    rw [storeAll_snoc]
    obtain ⟨-, -, ⟨y, h3, h4⟩, h5⟩ := store_instances (on := on) (eq := eq) (storeAll on eq s pre) o x
    refine ⟨_, y, by rw [h5, if_pos ⟨rfl, ho⟩], ?_, h4⟩
    have hlen : 0 < ((store on eq (storeAll on eq s pre) o x).instances (strip on o)).length := by
      rw [h3]; simp
    have hl := List.getLast?_eq_getElem? (l := (store on eq (storeAll on eq s pre) o x).instances (strip on o))
    rw [Nat.pred_eq_sub_one, ← hl, h3]
    simp
  | append_singleton post p ih =>
    obtain ⟨j, y, h1, h2, h3⟩ := ih (fun q hq => hpost q (by simp [hq]))
    rw [show pre ++ (o, x) :: (post ++ [p]) = (pre ++ (o, x) :: post) ++ [p] by simp, storeAll_snoc]
    refine ⟨j, y, ?_, store_get h2, h3⟩
    obtain ⟨-, -, -, h5⟩ := store_instances (on := on) (eq := eq) (storeAll on eq s (pre ++ (o, x) :: post)) p.1 p.2
    rw [h5, if_neg (fun hc => hpost p (by simp) hc.1.symm), h1]

/-- The last instance of a name is its last definition. -/
theorem last_history (s : State T) (defs : List (Name × T)) (n : Name) (x : T) (h : LastStripped on defs n x) :
    ∃ y, ((storeAll on eq s defs).instances n).getLast? = some y ∧ Same eq y x := by
  obtain ⟨pre, post, o, rfl, ho, hpost⟩ := h
  induction post using List.reverseRecOn with
  | nil =>
    rw [storeAll_snoc]
    obtain ⟨-, -, ⟨y, h3, h4⟩, -⟩ := store_instances (on := on) (eq := eq) (storeAll on eq s pre) o x
    refine ⟨y, ?_, h4⟩
    subst ho
    rw [h3]
    simp
  | append_singleton post p ih =>
    obtain ⟨y, h1, h2⟩ := ih (fun q hq => hpost q (by simp [hq]))
    rw [show pre ++ (o, x) :: (post ++ [p]) = (pre ++ (o, x) :: post) ++ [p] by simp, storeAll_snoc]
    obtain ⟨h3, -⟩ := store_instances (on := on) (eq := eq) (storeAll on eq s (pre ++ (o, x) :: post)) p.1 p.2
    exact ⟨y, by rw [h3 n (Ne.symm (hpost p (by simp)))]; exact h1, h2⟩

theorem alias_other (s : State T) (o : Name) : ∀ (defs : List (Name × T)), (∀ p ∈ defs, p.1 = o → strip on o = o) →
    (storeAll on eq s defs).aliases o = s.aliases o := by
  intro defs
  induction defs using List.reverseRecOn with
  | nil => intro _; rfl
  | append_singleton defs p ih =>
    intro h
    rw [storeAll_snoc]
    obtain ⟨-, -, -, h5⟩ := store_instances (on := on) (eq := eq) (storeAll on eq s defs) p.1 p.2
    rw [h5, if_neg, ih (fun q hq => h q (by simp [hq]))]
    rintro ⟨rfl, hc⟩
    exact hc (h p (by simp) rfl)

/-- C114: while a file is read, a reference that is written with a pointer suffix finds what was last defined under exactly this text, and one
written without finds the last definition of its name, with or without suffix. -/
theorem C114_lookup (aliases : Name → Option Name) (defs : List (Name × T)) (o : Name) (x : T) :
    (strip on o ≠ o → LastUnder defs o x → ∃ y, lookup on (storeAll on eq (fresh aliases) defs) o = some y ∧ Same eq y x) ∧
    (strip on o = o → aliases o = none → LastStripped on defs o x →
      ∃ y, lookup on (storeAll on eq (fresh aliases) defs) o = some y ∧ Same eq y x) := by
  constructor
  · intro ho h
    obtain ⟨j, y, h1, h2, h3⟩ := alias_history (on := on) (eq := eq) (fresh aliases) defs o ho x h
    refine ⟨y, ?_, h3⟩
    unfold lookup
    simp only
    rw [h1]
    simp only
    rw [parse_flat (strip_ne_nil ho)]
    simp only
    rw [h2]
  · intro ho ha h
    obtain ⟨y, h1, h2⟩ := last_history (on := on) (eq := eq) (fresh aliases) defs o x h
    refine ⟨y, ?_, h2⟩
    unfold lookup
    simp only
    rw [alias_other (fresh aliases) o defs (fun _ _ _ => ho), show (fresh aliases : State T).aliases o = none from ha]
    simp only
    rw [ho, h1]

/-! ## Keys -/

/-- The keys are the names with an instance, without repetition, and come from the file. -/
theorem keys_history (aliases : Name → Option Name) : ∀ (defs : List (Name × T)),
    (storeAll on eq (fresh aliases) defs).keys.Nodup ∧
    (∀ n, n ∈ (storeAll on eq (fresh aliases) defs).keys ↔ (storeAll on eq (fresh aliases) defs).instances n ≠ []) ∧
    ∀ n ∈ (storeAll on eq (fresh aliases) defs).keys, ∃ p ∈ defs, strip on p.1 = n := by
  intro defs
  induction defs using List.reverseRecOn with
  | nil => exact ⟨List.nodup_nil, by simp [storeAll, fresh], by simp [storeAll, fresh]⟩
  | append_singleton defs p ih =>
    obtain ⟨h1, h2, h3⟩ := ih
    rw [storeAll_snoc]
    generalize hs : storeAll on eq (fresh aliases) defs = s at h1 h2 h3
    unfold store
    simp only
    split
    · exact ⟨h1, h2, fun n hn => by
        obtain ⟨q, hq, e⟩ := h3 n hn
        exact ⟨q, by simp [hq], e⟩⟩
    · refine ⟨?_, fun n => ?_, fun n hn => ?_⟩
      · simp only
        split
        · exact h1
        · rename_i hk
          rw [List.nodup_append]
          refine ⟨h1, by simp, ?_⟩
          intro a ha b hb
          rw [List.mem_singleton] at hb
          rintro rfl
          exact hk (hb ▸ ha)
      · simp only
        by_cases hn : n = strip on p.1
        · simp only [hn, if_true, ne_eq, List.append_eq_nil_iff, List.cons_ne_self, and_false, not_false_eq_true, iff_true]
          split
          · assumption
          · simp
        · rw [if_neg hn, ← h2]
          split
          · rfl
          · simp [hn]
      · simp only at hn
        have : n ∈ s.keys ∨ n = strip on p.1 := by
          split at hn
          · exact .inl hn
          · simpa using hn
        rcases this with h | rfl
        · obtain ⟨q, hq, e⟩ := h3 n h
          exact ⟨q, by simp [hq], e⟩
        · exact ⟨p, by simp, rfl⟩

/-! ## Flatten -/

theorem number_one (n : Name) : ∀ (l : List T) (k : Nat) (d : Name → Option T),
    (∀ i y, l[i]? = some y → (l.zipIdx k).foldl (fun d p => put d (flat n p.2) p.1) d (flat n (k + i)) = some y) ∧
    ∀ m, (∀ i < l.length, m ≠ flat n (k + i)) → (l.zipIdx k).foldl (fun d p => put d (flat n p.2) p.1) d m = d m
  | [], k, d => ⟨by simp, by simp⟩
  | a :: l, k, d => by
    obtain ⟨h1, h2⟩ := number_one n l (k + 1) (put d (flat n k) a)
    rw [List.zipIdx_cons, List.foldl_cons]
    refine ⟨fun i y hy => ?_, fun m hm => ?_⟩
    · rcases i with _ | i
      · simp only [List.getElem?_cons_zero, Option.some.injEq] at hy
        subst hy
        rw [h2]
        · simp [put]
        · intro i _ h
          have := (flat_inj h).2
          omega
      · rw [show k + (i + 1) = k + 1 + i by omega]
        exact h1 i y (by simpa using hy)
    · rw [h2 m (fun i hi => by rw [show k + 1 + i = k + (i + 1) by omega]; exact hm (i + 1) (by simpa using hi))]
      have : m ≠ flat n k := hm 0 (by simp)
      simp [put, this]

theorem number_all (s : State T) : ∀ (order : List Name) (d : Name → Option T), order.Nodup →
    (∀ n ∈ order, ∀ i y, (s.instances n)[i]? = some y → number s order d (flat n i) = some y) ∧
    ∀ m, (∀ n ∈ order, ∀ i < (s.instances n).length, m ≠ flat n i) → number s order d m = d m
  | [], d, _ => ⟨by simp, fun m _ => rfl⟩
  | n :: order, d, hd => by
    rw [List.nodup_cons] at hd
    have h1 := number_one n (s.instances n) 0 d
    have ih := number_all s order ((s.instances n).zipIdx.foldl (fun d p => put d (flat n p.2) p.1) d) hd.2
    simp only [Nat.zero_add] at h1
    refine ⟨fun m hm i y hy => ?_, fun m hm => ?_⟩
    · rw [List.mem_cons] at hm
      rcases hm with rfl | hm
      · have := ih.2 (flat m i) (fun n' hn' j _ h => hd.1 ((flat_inj h).1 ▸ hn'))
        exact this.trans (h1.1 i y hy)
      · exact ih.1 m hm i y hy
    · exact (ih.2 m (fun n' hn' => hm n' (by simp [hn']))).trans (h1.2 m (hm n (by simp)))

/-- The loop that drops numbers, when no name looks like a numbered one. -/
theorem unnumber_all : ∀ (order : List Name) (d : Name → Option T), order.Nodup → (∀ n ∈ order, ∀ m ∈ order, ∀ i, n ≠ flat m i) →
    (∀ n ∈ order, ∃ y, d (flat n 0) = some y) →
    (∀ n ∈ order, unnumber order d n = d (flat n 0)) ∧
    ∀ m, m ∉ order → (∀ n ∈ order, m ≠ flat n 0) → unnumber order d m = d m
  | [], d, _, _, _ => ⟨by simp, fun m _ _ => rfl⟩
  | n :: order, d, hd, hp, hs => by
    rw [List.nodup_cons] at hd
    obtain ⟨y, hy⟩ := hs n (by simp)
    have hne : n ≠ flat n 0 := hp n (by simp) n (by simp) 0
    have step : unnumber (n :: order) d = unnumber order (put (erase d (flat n 0)) n y) := by
      rw [unnumber, List.foldl_cons, hy]; rfl
    have hkeep : ∀ m ∈ order, put (erase d (flat n 0)) n y (flat m 0) = d (flat m 0) := by
      intro m hm
      have h1 : flat m 0 ≠ n := fun h => hp n (by simp) m (by simp [hm]) 0 h.symm
      have h2 : flat m 0 ≠ flat n 0 := fun h => hd.1 ((flat_inj h).1 ▸ hm)
      simp [put, erase, h1, h2]
    obtain ⟨ih1, ih2⟩ := unnumber_all order (put (erase d (flat n 0)) n y) hd.2
      (fun a ha b hb => hp a (by simp [ha]) b (by simp [hb]))
      (fun m hm => by rw [hkeep m hm]; exact hs m (by simp [hm]))
    rw [step]
    refine ⟨fun m hm => ?_, fun m hm hm' => ?_⟩
    · rw [List.mem_cons] at hm
      rcases hm with rfl | hm
      · rw [ih2 m hd.1 (fun k hk => hp m (by simp) k (by simp [hk]) 0), hy]
        simp [put]
      · rw [ih1 m hm, hkeep m hm]
    · rw [List.mem_cons, not_or] at hm
      rw [ih2 m hm.2 (fun k hk => hm' k (by simp [hk]))]
      have := hm' n (by simp)
      simp [put, erase, hm.1, this]

theorem unnumberAlias_sole {order : List Name} {n : Name} (hn : n ∈ order) : unnumberAlias order (flat n 0) = n := by
  unfold unnumberAlias
  cases h : order.find? fun m => decide (flat m 0 = flat n 0) with
  | none =>
    rw [List.find?_eq_none] at h
    exact absurd (decide_eq_true rfl) (h n hn)
  | some m =>
    have := List.find?_some h
    simp only [decide_eq_true_eq] at this
    exact (flat_inj this).1

theorem unnumberAlias_other {order : List Name} {t : Name} (ht : ∀ n ∈ order, t ≠ flat n 0) : unnumberAlias order t = t := by
  unfold unnumberAlias
  cases h : order.find? fun m => decide (flat m 0 = t) with
  | none => rfl
  | some m =>
    have h1 := List.find?_some h
    simp only [decide_eq_true_eq] at h1
    exact absurd h1.symm (ht m (List.mem_of_find?_eq_some h))

/-- Where the instances are after `Flatten`. -/
theorem flatten_get {s : State T} {o1 o2 : List Name} (h1 : o1.Perm s.keys) (h2 : o2.Perm (sole s)) (hk : s.keys.Nodup)
    (hi : ∀ n, n ∈ s.keys ↔ s.instances n ≠ []) (hp : ∀ n ∈ s.keys, ∀ m ∈ s.keys, ∀ i, n ≠ flat m i) (dest : Name → Option T)
    {n : Name} {i : Nat} {y : T} (hy : (s.instances n)[i]? = some y) :
    (flatten s o1 o2 dest).1 (unnumberAlias o2 (flat n i)) = some y := by
  have hn : n ∈ s.keys := by
    rw [hi]; intro h; rw [h] at hy; simp at hy
  have hnum := number_all s o1 dest ((h1.nodup_iff).2 hk)
  have hsole : ∀ m, m ∈ o2 ↔ m ∈ s.keys ∧ (s.instances m).length = 1 := by
    intro m; rw [h2.mem_iff, sole, List.mem_filter, decide_eq_true_eq]
  have hun := unnumber_all o2 (number s o1 dest) ((h2.nodup_iff).2 (hk.filter _))
    (fun a ha b hb => hp a ((hsole a).1 ha).1 b ((hsole b).1 hb).1)
    (fun m hm => by
      obtain ⟨hm1, hm2⟩ := (hsole m).1 hm
      obtain ⟨z, hz⟩ := List.length_eq_one_iff.1 hm2
      exact ⟨z, hnum.1 m (h1.mem_iff.2 hm1) 0 z (by rw [hz]; rfl)⟩)
  have hget := hnum.1 n (h1.mem_iff.2 hn) i y hy
  by_cases hs : n ∈ o2
  · have hlen := ((hsole n).1 hs).2
    obtain rfl : i = 0 := by
      by_contra h
      rw [List.getElem?_eq_none (by omega)] at hy
      cases hy
    rw [unnumberAlias_sole hs]
    exact (hun.1 n hs).trans hget
  · have hother : ∀ m ∈ o2, flat n i ≠ flat m 0 := fun m hm h => hs ((flat_inj h).1 ▸ hm)
    rw [unnumberAlias_other hother]
    exact (hun.2 _ (fun hm => hp _ ((hsole _).1 hm).1 n hn i rfl) hother).trans hget

theorem plain_keys {aliases : Name → Option Name} {defs : List (Name × T)} (hp : Plain on defs) :
    ∀ n ∈ (storeAll on eq (fresh aliases) defs).keys, ∀ m ∈ (storeAll on eq (fresh aliases) defs).keys, ∀ i, n ≠ flat m i := by
  intro n hn m hm i
  obtain ⟨p, hp1, rfl⟩ := (keys_history (on := on) (eq := eq) aliases defs).2.2 n hn
  obtain ⟨q, hq1, rfl⟩ := (keys_history (on := on) (eq := eq) aliases defs).2.2 m hm
  exact hp p hp1 q hq1 i

/-- C114: when the section has been read, the reference of a volume that is written with a pointer suffix leads to what was last defined under
exactly this text, for every order in which the hash maps are walked. -/
theorem C114_reference (aliases : Name → Option Name) (defs : List (Name × T)) (hp : Plain on defs) (dest : Name → Option T) (o1 o2 : List Name)
    (h1 : o1.Perm (storeAll on eq (fresh aliases) defs).keys) (h2 : o2.Perm (sole (storeAll on eq (fresh aliases) defs)))
    {o : Name} {x : T} (ho : strip on o ≠ o) (hx : LastUnder defs o x) :
    let f := flatten (storeAll on eq (fresh aliases) defs) o1 o2 dest
    ∃ k y, f.2 o = some k ∧ f.1 k = some y ∧ Same eq y x := by
  obtain ⟨j, y, h3, h4, h5⟩ := alias_history (on := on) (eq := eq) (fresh aliases) defs o ho x hx
  have hk := keys_history (on := on) (eq := eq) aliases defs
  refine ⟨unnumberAlias o2 (flat (strip on o) j), y, ?_, flatten_get h1 h2 hk.1 hk.2.1 (plain_keys hp) dest h4, h5⟩
  simp only [flatten, h3, Option.map_some]

theorem flatten_alias (s : State T) (o1 o2 : List Name) (dest : Name → Option T) (o : Name) :
    (flatten s o1 o2 dest).2 o = (s.aliases o).map (unnumberAlias o2) := rfl

/-- C114: a later section keeps the reference as it is, when none of its names is the name of the reference or looks like a numbered one. -/
theorem C114_kept {U : Type} {eq' : U → U → Bool} (aliases : Name → Option Name) (defs : List (Name × T)) (later : List (Name × U)) (o : Name)
    (ho : strip on o ≠ o) (hl : ∀ p ∈ later, strip on p.1 ≠ strip on o) (hn : ∀ p ∈ later, ∀ i, strip on o ≠ flat (strip on p.1) i)
    {x : T} (hx : LastUnder defs o x) (dest : Name → Option T) (o1 o2 : List Name) (dest' : Name → Option U) (o1' o2' : List Name)
    (h2 : o2'.Perm (sole (storeAll on eq' (fresh (flatten (storeAll on eq (fresh aliases) defs) o1 o2 dest).2) later))) :
    let f := flatten (storeAll on eq (fresh aliases) defs) o1 o2 dest
    (flatten (storeAll on eq' (fresh f.2) later) o1' o2' dest').2 o = f.2 o := by
  intro f
  obtain ⟨j, y, h3, -, -⟩ := alias_history (on := on) (eq := eq) (fresh aliases) defs o ho x hx
  have hf : f.2 o = some (unnumberAlias o2 (flat (strip on o) j)) := by
    rw [flatten_alias, h3, Option.map_some]
  rw [flatten_alias, alias_other (fresh f.2) o later (fun p hp e => absurd (by rw [e]) (hl p hp)),
    show (fresh f.2 : State U).aliases o = f.2 o from rfl, hf, Option.map_some, Option.some.injEq]
  apply unnumberAlias_other
  intro m hm h
  have hm' := h2.mem_iff.1 hm
  rw [sole, List.mem_filter] at hm'
  obtain ⟨p, hp, rfl⟩ := (keys_history (on := on) (eq := eq') _ later).2.2 m hm'.1
  by_cases hs : strip on o ∈ o2 ∧ j = 0
  · rw [hs.2, unnumberAlias_sole hs.1] at h
    exact hn p hp 0 h
  · have hno : ∀ n ∈ o2, flat (strip on o) j ≠ flat n 0 := by
      intro n hn' e
      obtain ⟨rfl, rfl⟩ := flat_inj e
      exact hs ⟨hn', rfl⟩
    rw [unnumberAlias_other hno] at h
    exact hl p hp (flat_inj h).1.symm

theorem unique_history (s : State T) (hs : ∀ n, s.instances n = []) (defs : List (Name × T)) (n : Name) (x : T) (h : Unique on eq defs n x) :
    (storeAll on eq s defs).instances n = [x] := by
  obtain ⟨pre, post, o, rfl, ho, hpre, hpost⟩ := h
  have h0 : ∀ pre : List (Name × T), (∀ p ∈ pre, strip on p.1 ≠ n) → (storeAll on eq s pre).instances n = [] := by
    intro pre
    induction pre using List.reverseRecOn with
    | nil => intro _; exact hs n
    | append_singleton pre p ih =>
      intro h
      rw [storeAll_snoc, (store_instances (on := on) (eq := eq) _ p.1 p.2).1 n (Ne.symm (h p (by simp)))]
      exact ih fun q hq => h q (by simp [hq])
  induction post using List.reverseRecOn with
  | nil =>
    rw [storeAll_snoc]
    unfold store
    simp only
    rw [ho, h0 pre hpre]
    simp
  | append_singleton post p ih =>
    have ih := ih (fun q hq => hpost q (by simp [hq]))
    rw [show pre ++ (o, x) :: (post ++ [p]) = (pre ++ (o, x) :: post) ++ [p] by simp, storeAll_snoc]
    by_cases hn : strip on p.1 = n
    · unfold store
      simp only
      rw [hn, ih]
      rw [if_pos (by simp [hpost p (by simp) hn])]
      exact ih
    · rw [(store_instances (on := on) (eq := eq) _ p.1 p.2).1 n (Ne.symm hn)]
      exact ih

/-- C114: a name all of whose definitions are equal is found under the bare name, once, and not refused. -/
theorem C114_bare (aliases : Name → Option Name) (defs : List (Name × T)) (hp : Plain on defs) (dest : Name → Option T) (o1 o2 : List Name)
    (h1 : o1.Perm (storeAll on eq (fresh aliases) defs).keys) (h2 : o2.Perm (sole (storeAll on eq (fresh aliases) defs)))
    {n : Name} {x : T} (hx : Unique on eq defs n x) :
    (flatten (storeAll on eq (fresh aliases) defs) o1 o2 dest).1 n = some x ∧
      ((storeAll on eq (fresh aliases) defs).instances n).length = 1 := by
  have hi := unique_history (fresh aliases) (fun _ => rfl) defs n x hx
  have hk := keys_history (on := on) (eq := eq) aliases defs
  have hn : n ∈ o2 := by
    rw [h2.mem_iff, sole, List.mem_filter, decide_eq_true_eq, hk.2.1, hi]
    simp
  have := flatten_get h1 h2 hk.1 hk.2.1 (plain_keys hp) dest (n := n) (i := 0) (y := x) (by rw [hi]; rfl)
  rw [unnumberAlias_sole hn] at this
  exact ⟨this, by rw [hi]; rfl⟩

theorem instances_grow (s : State T) (post : List (Name × T)) (n : Name) : ∃ l, (storeAll on eq s post).instances n = s.instances n ++ l := by
  induction post using List.reverseRecOn with
  | nil => exact ⟨[], by simp [storeAll]⟩
  | append_singleton post p ih =>
    obtain ⟨l, hl⟩ := ih
    rw [storeAll_snoc]
    obtain ⟨h1, ⟨l', h2⟩, -⟩ := store_instances (on := on) (eq := eq) (storeAll on eq s post) p.1 p.2
    by_cases hn : n = strip on p.1
    · subst hn; exact ⟨l ++ l', by rw [h2, hl, List.append_assoc]⟩
    · exact ⟨l, by rw [h1 n hn, hl]⟩

/-- C114: a volume's bare reference to a name with different definitions is refused. -/
theorem C114_ambiguous (aliases aliases' : Name → Option Name) (defs : List (Name × T)) {pre mid post : List (Name × T)} {o o' n : Name} {x x' : T}
    (hd : defs = pre ++ (o, x) :: mid ++ (o', x') :: post) (ho : strip on o = n) (ho' : strip on o' = n) (hn : n ≠ [])
    (hmid : ∀ p ∈ mid, strip on p.1 ≠ n) (heq : ∀ y, Same eq y x → eq y x' = false) (ha : aliases' n = none) :
    volumeRef aliases' (fun k => ((storeAll on eq (fresh aliases) defs).instances k).length) n = .throws .runtimeError := by
  have hlast := last_history (on := on) (eq := eq) (fresh aliases) (pre ++ (o, x) :: mid) n x ⟨pre, mid, o, rfl, ho, hmid⟩
  obtain ⟨y, hy, hyx⟩ := hlast
  have hst : (storeAll on eq (fresh aliases) (pre ++ (o, x) :: mid ++ [(o', x')])).instances n =
      (storeAll on eq (fresh aliases) (pre ++ (o, x) :: mid)).instances n ++ [x'] := by
    rw [storeAll_snoc]
    unfold store
    simp only
    rw [ho', hy, if_neg (by simp [heq y hyx])]
    simp
  have hgrow : ∃ l, (storeAll on eq (fresh aliases) defs).instances n =
      (storeAll on eq (fresh aliases) (pre ++ (o, x) :: mid ++ [(o', x')])).instances n ++ l := by
    rw [hd, show pre ++ (o, x) :: mid ++ (o', x') :: post = (pre ++ (o, x) :: mid ++ [(o', x')]) ++ post by simp]
    conv => enter [1, l, 1]; rw [storeAll, List.foldl_append]
    exact instances_grow _ post n
  obtain ⟨l, hl⟩ := hgrow
  have h0 : 0 < ((storeAll on eq (fresh aliases) (pre ++ (o, x) :: mid)).instances n).length := by
    rw [List.length_pos_iff]; intro h; rw [h] at hy; cases hy
  unfold volumeRef
  simp only
  rw [ha, Option.getD_none, if_pos]
  refine ⟨rfl, hn, ?_⟩
  rw [hl, hst]
  simp only [List.length_append, List.length_cons, List.length_nil]
  omega

/-! ## Failures -/

/-- C114 fails for materials and solids of the same name: the aliases of all kinds share one map. Two different materials `Steel` with pointer
suffixes, then one solid `Steel`: the reference to the first material now leads to the bare name `Steel`, under which there is no material. -/
theorem C114_shared_fails : ∃ (materials solids : List (Name × Nat)) (o : Name),
    LastUnder materials o 1 ∧ strip true o ≠ o ∧ Plain true materials ∧ Plain true solids ∧
    let m := storeAll true (· == ·) (fresh fun _ => none) materials
    let fm := flatten m m.keys (sole m) fun _ => none
    let s := storeAll true (· == ·) (fresh fm.2) solids
    let fs := flatten s s.keys (sole s) fun _ => none
    (∃ k, fm.2 o = some k ∧ fm.1 k = some 1) ∧
    volumeRef fs.2 (fun k => (m.instances k).length) o = .ok "Steel".toList ∧ fm.1 "Steel".toList = none := by
  refine ⟨[("Steel0x1111111".toList, 1), ("Steel0x2222222".toList, 2)], [("Steel".toList, 7)], "Steel0x1111111".toList,
    ⟨[], [("Steel0x2222222".toList, 2)], rfl, by decide +kernel⟩, by decide +kernel, ?_, ?_, ⟨"Steel__1".toList, by decide +kernel, by decide +kernel⟩,
    by decide +kernel, by decide +kernel⟩
  · intro p hp q hq i h
    have hs : ∀ p ∈ [("Steel0x1111111".toList, 1), ("Steel0x2222222".toList, 2)], strip true p.1 = "Steel".toList := by decide +kernel
    rw [hs p hp, hs q hq] at h
    have := congrArg List.length h
    simp [flat] at this
  · intro p hp q hq i h
    have hs : ∀ p ∈ [("Steel".toList, 7)], strip true p.1 = "Steel".toList := by decide +kernel
    rw [hs p hp, hs q hq] at h
    have := congrArg List.length h
    simp [flat] at this

/-- C114 fails for the components of materials: they go through `Resolve`, which takes the most recent definition whatever the suffix. Of two
elements `Si` with different pointer suffixes, a component that names the first gets the second. -/
theorem C114_component_fails : ∃ (elements : List (Name × Nat)) (o : Name), LastUnder elements o 1 ∧ strip true o ≠ o ∧ Plain true elements ∧
    let s := storeAll true (· == ·) (fresh fun _ => none) elements
    lookup true s o = some 1 ∧ (flatten s s.keys (sole s) fun _ => none).1 (resolve true s o) = some 2 := by
  refine ⟨[("Si0x1111111".toList, 1), ("Si0x2222222".toList, 2)], "Si0x1111111".toList,
    ⟨[], [("Si0x2222222".toList, 2)], rfl, by decide +kernel⟩, by decide +kernel, ?_, by decide +kernel, by decide +kernel⟩
  intro p hp q hq i h
  have hs : ∀ p ∈ [("Si0x1111111".toList, 1), ("Si0x2222222".toList, 2)], strip true p.1 = "Si".toList := by decide +kernel
  rw [hs p hp, hs q hq] at h
  have := congrArg List.length h
  simp [flat] at this

/-- C114 fails when one name looks like another with a number: of `a` and `a__1`, defined once each, one is lost, for one of the two orders in which
the renames may be walked. -/
theorem C114_numbered_fails : ∃ (defs : List (Name × Nat)), Unique true (· == ·) defs "a".toList 1 ∧ Unique true (· == ·) defs "a__1".toList 2 ∧
    let s := storeAll true (· == ·) (fresh fun _ => none) defs
    ∃ o2 : List Name, o2.Perm (sole s) ∧ (flatten s s.keys o2 fun _ => none).1 "a".toList = some 2 ∧
      (flatten s s.keys o2 fun _ => none).1 "a__1".toList = none := by
  refine ⟨[("a".toList, 1), ("a__1".toList, 2)], ⟨[], _, _, rfl, by decide +kernel, by simp, by decide +kernel⟩,
    ⟨[("a".toList, 1)], [], _, rfl, by decide +kernel, by decide +kernel, by simp⟩, ["a__1".toList, "a".toList], ?_, by decide +kernel, by decide +kernel⟩
  rw [show sole (storeAll true (· == ·) (fresh fun _ => none) [("a".toList, 1), ("a__1".toList, 2)]) = ["a".toList, "a__1".toList] by decide +kernel]
  exact List.Perm.swap _ _ _

/-! ## Example -/

/-- Two different tubes exported as `Tube0x1234567` and `Tube0x89abcde`, the first of them twice, and a `Box`. -/
def example1 : List (Name × Nat) :=
  [("Tube0x1234567".toList, 5), ("Box".toList, 3), ("Tube0x1234567".toList, 5), ("Tube0x89abcde".toList, 6)]

example : strip true "Tube0x1234567".toList = "Tube".toList ∧ strip true "Hut0x12".toList = "Hut0x12".toList := by decide +kernel

example : LastUnder example1 "Tube0x1234567".toList 5 ∧ Plain true example1 ∧
    (storeAll true (· == ·) (fresh fun _ => none) example1).keys = ["Tube".toList, "Box".toList] ∧
    Unique true (· == ·) example1 "Box".toList 3 := by
  refine ⟨⟨[("Tube0x1234567".toList, 5), ("Box".toList, 3)], [("Tube0x89abcde".toList, 6)], rfl, by decide +kernel⟩, ?_, by decide +kernel,
    ⟨[("Tube0x1234567".toList, 5)], [("Tube0x1234567".toList, 5), ("Tube0x89abcde".toList, 6)], _, rfl, by decide +kernel, by decide +kernel,
      by decide +kernel⟩⟩
  have hs : ∀ p ∈ example1, '_' ∉ strip true p.1 := by decide +kernel
  intro p hp q hq i h
  apply hs p hp
  rw [h]
  simp [flat]

end Siren.Gdml.Names
