import Verif.Gdml.MaterialModel
import Mathlib.Tactic.Ring
import Mathlib.Tactic.Linarith
import Mathlib.Tactic.NormNum
import Mathlib.Tactic.FieldSimp
import Mathlib.Tactic.Set
import Mathlib.Algebra.BigOperators.Group.List.Basic
import Mathlib.Algebra.Order.BigOperators.Group.List
import Mathlib.Data.List.Nodup

set_option autoImplicit false

/-! # C30: GDML material composition -/

namespace Siren.Gdml

open Siren

/-! ### Specification -/

/-- The nucleus with the numbers of a component: an atomic number of at least one and a mass that rounds to at least one. -/
noncomputable def Comp.nucleus (c : Comp) : Option Int :=
  open Classical in if 1 ≤ c.Z ∧ 1 / 2 ≤ c.A then some (1000000000 + ⌊c.Z⌋ * 10000 + ⌊c.A + 1 / 2⌋ * 10) else none

/-- The numbers are of ordinary size. -/
def Comp.Ordinary (c : Comp) : Prop := |c.Z| ≤ 10000 ∧ |c.A| ≤ 10000

/-- Follow a path of positions in compositions: the product of the fractions on the way, the names entered, and the component
arrived at. -/
def MatData.route (d : MatData) : List Nat → Comp → Option (ℝ × List String × Comp)
  | [], c => some (1, [], c)
  | i :: path, c => do
    let e ← c.composition[i]?
    let sub ← d.find e.1
    let r ← d.route path sub
    some (e.2 * r.1, e.1 :: r.2.1, r.2.2)

/-- Nothing is wrong below a component: no chain of components passes through the same name twice, and every name met is defined. -/
def MatData.Sound (d : MatData) (c : Comp) : Prop :=
  ∀ path x names e, d.route path c = some (x, names, e) →
    names.Nodup ∧ ∀ p ∈ e.composition, (d.find p.1).isSome

/-- The path ends at a component without composition. -/
def MatData.Ends (d : MatData) (c : Comp) (path : List Nat) : Prop :=
  ∃ x names e, d.route path c = some (x, names, e) ∧ e.composition = []

/-- The product of the declared fractions along a path. -/
noncomputable def MatData.share (d : MatData) (c : Comp) (path : List Nat) : ℝ :=
  match d.route path c with
  | some r => r.1
  | none => 0

/-- The nucleus at the end of a path. -/
noncomputable def MatData.nucleusAt (d : MatData) (c : Comp) (path : List Nat) : Option Int :=
  match d.route path c with
  | some r => r.2.2.nucleus
  | none => none

/-- The fraction recorded for a nucleus. -/
noncomputable def amount (m : Fractions) (k : Int) : ℝ := (m.lookup k).getD 0

/-- The fractions recorded together. -/
def total (m : Fractions) : ℝ := (m.map Prod.snd).sum

/-- The fractions recorded for a component are the product-sums of the declared fractions: nucleus by nucleus, summed over all
ways in which the component contains it. -/
structure MatData.Correct (d : MatData) (c : Comp) (w : ℝ) (m : Fractions) : Prop where
  once : (m.map Prod.fst).Nodup
  sums : ∃ paths : List (List Nat), paths.Nodup ∧ (∀ p, p ∈ paths ↔ d.Ends c p) ∧
    (∀ k, amount m k = w * ((paths.filter (fun p => decide (d.nucleusAt c p = some k))).map (d.share c)).sum) ∧
    total m = w * ((paths.filter (fun p => (d.nucleusAt c p).isSome)).map (d.share c)).sum ∧
    (m = [] ↔ ∀ p ∈ paths, d.nucleusAt c p = none)

/-! ### Adding fractions -/

theorem amount_bump (m : Fractions) (k : Int) (v : ℝ) (k' : Int) :
    amount (bump m k v) k' = amount m k' + if k' = k then v else 0 := by
  induction m with
  | nil =>
    by_cases h : k' = k
    · subst h; simp [amount, bump, List.lookup]
    · have : (k' == k) = false := by simpa using h
      simp [amount, bump, List.lookup, this, h]
  | cons e m ih =>
    obtain ⟨a, b⟩ := e
    simp only [bump]
    by_cases hak : a = k
    · rw [if_pos hak]
      subst hak
      by_cases h : k' = a
      · subst h; simp [amount, List.lookup]
      · have : (k' == a) = false := by simpa using h
        simp [amount, List.lookup, this, h]
    · rw [if_neg hak]
      by_cases h : k' = a
      · subst h
        simp [amount, List.lookup, hak]
      · have hb : (k' == a) = false := by simpa using h
        have e1 : amount ((a, b) :: bump m k v) k' = amount (bump m k v) k' := by simp [amount, List.lookup, hb]
        have e2 : amount ((a, b) :: m) k' = amount m k' := by simp [amount, List.lookup, hb]
        rw [e1, e2, ih]

theorem bump_keys (m : Fractions) (k : Int) (v : ℝ) :
    ((bump m k v).map Prod.fst) = if k ∈ m.map Prod.fst then m.map Prod.fst else m.map Prod.fst ++ [k] := by
  induction m with
  | nil => simp [bump]
  | cons e m ih =>
    obtain ⟨a, b⟩ := e
    simp only [bump]
    by_cases hak : a = k
    · subst hak; simp
    · rw [if_neg hak]
      simp only [List.map_cons, ih]
      have : k ≠ a := fun h => hak h.symm
      by_cases hk : k ∈ m.map Prod.fst
      · rw [if_pos hk, if_pos (List.mem_cons_of_mem _ hk)]
      · rw [if_neg hk, if_neg (by simp only [List.mem_cons, not_or]; exact ⟨this, hk⟩)]
        rfl

theorem bump_nodup {m : Fractions} (h : (m.map Prod.fst).Nodup) (k : Int) (v : ℝ) : ((bump m k v).map Prod.fst).Nodup := by
  rw [bump_keys]
  split
  · exact h
  · rename_i hk
    rw [List.nodup_append]
    refine ⟨h, by simp, ?_⟩
    intro a ha b hb hab
    simp only [List.mem_singleton] at hb
    exact hk (hb ▸ hab ▸ ha)

theorem total_bump (m : Fractions) (k : Int) (v : ℝ) : total (bump m k v) = total m + v := by
  induction m with
  | nil => simp [bump, total]
  | cons e m ih =>
    obtain ⟨a, b⟩ := e
    simp only [bump]
    split
    · simp [total]; ring
    · simp only [total, List.map_cons, List.sum_cons] at ih ⊢
      rw [ih]; ring

theorem bump_ne_nil (m : Fractions) (k : Int) (v : ℝ) : bump m k v ≠ [] := by
  cases m with
  | nil => simp [bump]
  | cons e m => obtain ⟨a, b⟩ := e; simp only [bump]; split <;> simp

theorem amount_cons_nodup {k : Int} {v : ℝ} {m : Fractions} (h : k ∉ m.map Prod.fst) (k' : Int) :
    amount ((k, v) :: m) k' = (if k' = k then v else 0) + amount m k' := by
  by_cases hk : k' = k
  · subst hk
    have : amount m k' = 0 := by
      have : m.lookup k' = none := by
        rw [List.lookup_eq_none_iff]
        intro p hp
        have : p.1 ≠ k' := fun e => h (List.mem_map.2 ⟨p, hp, e⟩)
        simpa [bne] using fun e : k' = p.1 => this e.symm
      simp [amount, this]
    rw [this]
    simp [amount, List.lookup]
  · have hb : (k' == k) = false := by simpa using hk
    simp [amount, List.lookup, hb, hk]

theorem bumpAll_spec (sub : Fractions) : ∀ (acc : Fractions), (acc.map Prod.fst).Nodup → (sub.map Prod.fst).Nodup →
    ((bumpAll acc sub).map Prod.fst).Nodup ∧ (∀ k, amount (bumpAll acc sub) k = amount acc k + amount sub k) ∧
    total (bumpAll acc sub) = total acc + total sub ∧ (bumpAll acc sub = [] ↔ acc = [] ∧ sub = []) := by
  induction sub with
  | nil => intro acc h _; exact ⟨h, by simp [bumpAll, amount], by simp [bumpAll, total], by simp [bumpAll]⟩
  | cons e sub ih =>
    intro acc hacc hsub
    obtain ⟨k, v⟩ := e
    rw [List.map_cons, List.nodup_cons] at hsub
    obtain ⟨h1, h2, h3, h4⟩ := ih (bump acc k v) (bump_nodup hacc k v) hsub.2
    have hb : bumpAll acc ((k, v) :: sub) = bumpAll (bump acc k v) sub := rfl
    rw [hb]
    refine ⟨h1, fun k' => ?_, ?_, ?_⟩
    · rw [h2, amount_bump, amount_cons_nodup hsub.1]; ring
    · rw [h3, total_bump]; simp only [total, List.map_cons, List.sum_cons]; ring
    · rw [h4]
      simp [bump_ne_nil]

/-! ### Nuclei -/

theorem toInt_ok {x : ℝ} (h : |x| ≤ 10001) : toInt x = .ok (if 0 ≤ x then ⌊x⌋ else -⌊-x⌋) := by
  have h1 := abs_le.1 h
  unfold toInt
  have hb : -2147483648 ≤ (if 0 ≤ x then ⌊x⌋ else -⌊-x⌋) ∧ (if 0 ≤ x then ⌊x⌋ else -⌊-x⌋) ≤ 2147483647 := by
    split
    · have a1 : (0 : ℤ) ≤ ⌊x⌋ := Int.floor_nonneg.2 (by assumption)
      have a2 : ⌊x⌋ ≤ 10001 := by
        have : ⌊x⌋ ≤ ⌊(10001 : ℝ)⌋ := Int.floor_le_floor h1.2
        simpa using this
      omega
    · have a1 : (0 : ℤ) ≤ ⌊-x⌋ := Int.floor_nonneg.2 (by linarith)
      have a2 : ⌊-x⌋ ≤ 10001 := by
        have : ⌊-x⌋ ≤ ⌊(10001 : ℝ)⌋ := Int.floor_le_floor (by linarith)
        simpa using this
      omega
  simp only
  rw [if_pos hb]

theorem pdgOf_spec {c : Comp} (h : c.Ordinary) : pdgOf c = .ok c.nucleus := by
  obtain ⟨hZ, hA⟩ := h
  have hA' := abs_le.1 hA
  have hZ' := abs_le.1 hZ
  have hr : |roundAway c.A| ≤ 10001 := by
    unfold roundAway
    split
    · have a1 : (0 : ℤ) ≤ ⌊c.A + 1 / 2⌋ := Int.floor_nonneg.2 (by linarith)
      have a2 := Int.floor_le (c.A + 1 / 2)
      rw [abs_of_nonneg (by exact_mod_cast a1)]
      linarith
    · have a1 : (0 : ℤ) ≤ ⌊-c.A + 1 / 2⌋ := Int.floor_nonneg.2 (by linarith)
      have a2 := Int.floor_le (-c.A + 1 / 2)
      rw [abs_neg, abs_of_nonneg (by exact_mod_cast a1)]
      linarith
  unfold pdgOf
  rw [toInt_ok (by linarith), toInt_ok hr]
  simp only [Res.bind]
  have hAint : (if 0 ≤ roundAway c.A then ⌊roundAway c.A⌋ else -⌊-roundAway c.A⌋) > 0 ↔ 1 / 2 ≤ c.A := by
    unfold roundAway
    by_cases h0 : 0 ≤ c.A
    · simp only [if_pos h0]
      have a1 : (0 : ℤ) ≤ ⌊c.A + 1 / 2⌋ := Int.floor_nonneg.2 (by linarith)
      rw [if_pos (by exact_mod_cast a1), Int.floor_intCast, gt_iff_lt, Int.lt_iff_add_one_le, Int.le_floor]
      push_cast
      constructor <;> intro h <;> linarith
    · simp only [if_neg h0]
      have a1 : (0 : ℤ) ≤ ⌊-c.A + 1 / 2⌋ := Int.floor_nonneg.2 (by linarith)
      have a1' : (0 : ℝ) ≤ ((⌊-c.A + 1 / 2⌋ : ℤ) : ℝ) := by exact_mod_cast a1
      constructor
      · intro h
        exfalso
        split at h
        · rename_i h2
          have : ((⌊-c.A + 1 / 2⌋ : ℤ) : ℝ) = 0 := by linarith
          rw [this] at h
          simp at h
        · rw [neg_neg, Int.floor_intCast] at h
          omega
      · intro h; linarith
  have hAval : 1 / 2 ≤ c.A → (if 0 ≤ roundAway c.A then ⌊roundAway c.A⌋ else -⌊-roundAway c.A⌋) = ⌊c.A + 1 / 2⌋ := by
    intro h
    have h0 : 0 ≤ c.A := by linarith
    unfold roundAway
    simp only [if_pos h0]
    have a1 : (0 : ℤ) ≤ ⌊c.A + 1 / 2⌋ := Int.floor_nonneg.2 (by linarith)
    rw [if_pos (by exact_mod_cast a1), Int.floor_intCast]
  have hZint : (if 0 ≤ c.Z then ⌊c.Z⌋ else -⌊-c.Z⌋) > 0 ↔ 1 ≤ c.Z := by
    by_cases h0 : 0 ≤ c.Z
    · rw [if_pos h0, gt_iff_lt, Int.lt_iff_add_one_le, Int.le_floor]
      push_cast
      constructor <;> intro h <;> linarith
    · rw [if_neg h0]
      have a1 : (0 : ℤ) ≤ ⌊-c.Z⌋ := Int.floor_nonneg.2 (by linarith)
      constructor
      · intro h; omega
      · intro h; linarith
  have hZval : 1 ≤ c.Z → (if 0 ≤ c.Z then ⌊c.Z⌋ else -⌊-c.Z⌋) = ⌊c.Z⌋ := by
    intro h; rw [if_pos (by linarith)]
  unfold Comp.nucleus
  by_cases hc : 1 ≤ c.Z ∧ 1 / 2 ≤ c.A
  · rw [if_pos ⟨hZint.2 hc.1, hAint.2 hc.2⟩, if_pos hc, hZval hc.1, hAval hc.2]
    have b1 : ⌊c.Z⌋ ≤ 10000 := by
      have : ⌊c.Z⌋ ≤ ⌊(10000 : ℝ)⌋ := Int.floor_le_floor hZ'.2
      simpa using this
    have b2 : ⌊c.A + 1 / 2⌋ ≤ 10001 := by
      have : ⌊c.A + 1 / 2⌋ ≤ ⌊(10001 : ℝ)⌋ := Int.floor_le_floor (by linarith)
      simpa using this
    rw [if_pos (by omega)]
  · rw [if_neg (fun h => hc ⟨hZint.1 h.1, hAint.1 h.2⟩), if_neg hc]

/-! ### Routes -/

theorem route_step (d : MatData) (c : Comp) (i : Nat) (path : List Nat) (x : ℝ) (names : List String) (e : Comp) :
    d.route (i :: path) c = some (x, names, e) ↔ ∃ p sub x' names', c.composition[i]? = some p ∧ d.find p.1 = some sub ∧
      d.route path sub = some (x', names', e) ∧ x = p.2 * x' ∧ names = p.1 :: names' := by
  simp only [MatData.route, Option.bind_eq_bind]
  cases c.composition[i]? with
  | none => simp
  | some p =>
    simp only [Option.bind_some]
    cases hf : d.find p.1 with
    | none =>
      simp only [Option.bind_none, reduceCtorEq, false_iff]
      rintro ⟨p', sub, x', n', h1, h2, -⟩
      cases h1
      rw [hf] at h2
      cases h2
    | some sub =>
      simp only [Option.bind_some]
      cases hr : d.route path sub with
      | none =>
        simp only [Option.bind_none, reduceCtorEq, false_iff]
        rintro ⟨p', sub', x', n', h1, h2, h3, -⟩
        cases h1
        rw [hf] at h2
        cases h2
        rw [hr] at h3
        cases h3
      | some r =>
        obtain ⟨x0, n0, e0⟩ := r
        simp only [Option.bind_some, Option.some.injEq, Prod.mk.injEq]
        constructor
        · rintro ⟨rfl, rfl, rfl⟩
          exact ⟨p, sub, x0, n0, rfl, hf, hr, rfl, rfl⟩
        · rintro ⟨p', sub', x', n', rfl, h2, h3, rfl, rfl⟩
          rw [hf] at h2
          cases h2
          rw [hr] at h3
          simp only [Option.some.injEq, Prod.mk.injEq] at h3
          obtain ⟨rfl, rfl, rfl⟩ := h3
          exact ⟨rfl, rfl, rfl⟩

/-- Nothing is wrong below a component reached through the names `visited`. -/
def SoundFrom (d : MatData) (visited : List String) (c : Comp) : Prop :=
  ∀ path x names e, d.route path c = some (x, names, e) →
    (names.Nodup ∧ ∀ n ∈ names, n ∉ visited) ∧ ∀ p ∈ e.composition, (d.find p.1).isSome

/-- One entry of a composition is sound. -/
def EntrySound (d : MatData) (visited : List String) (p : String × ℝ) : Prop :=
  ∃ sub, d.find p.1 = some sub ∧ p.1 ∉ visited ∧ SoundFrom d (p.1 :: visited) sub

theorem soundFrom_iff (d : MatData) (visited : List String) (c : Comp) :
    SoundFrom d visited c ↔ ∀ p ∈ c.composition, EntrySound d visited p := by
  constructor
  · intro h p hp
    obtain ⟨i, hi⟩ := List.mem_iff_getElem?.1 hp
    have h0 := h [] 1 [] c rfl
    obtain ⟨sub, hsub⟩ := Option.isSome_iff_exists.1 (h0.2 p hp)
    refine ⟨sub, hsub, ?_, ?_⟩
    · have := h [i] (p.2 * 1) [p.1] sub ((route_step _ _ _ _ _ _ _).2 ⟨p, sub, 1, [], hi, hsub, rfl, rfl, rfl⟩)
      exact this.1.2 p.1 (by simp)
    · intro path x names e hr
      obtain ⟨⟨h1, h2⟩, h3⟩ := h (i :: path) (p.2 * x) (p.1 :: names) e
        ((route_step _ _ _ _ _ _ _).2 ⟨p, sub, x, names, hi, hsub, hr, rfl, rfl⟩)
      rw [List.nodup_cons] at h1
      refine ⟨⟨h1.2, fun n hn => ?_⟩, h3⟩
      rw [List.mem_cons, not_or]
      exact ⟨fun e => h1.1 (e ▸ hn), h2 n (by simp [hn])⟩
  · intro h path x names e hr
    cases path with
    | nil =>
      simp only [MatData.route, Option.some.injEq, Prod.mk.injEq] at hr
      obtain ⟨-, rfl, rfl⟩ := hr
      refine ⟨by simp, fun p hp => ?_⟩
      obtain ⟨sub, hs, -⟩ := h p hp
      simp [hs]
    | cons i path =>
      obtain ⟨p, sub, x', names', hi, hf, hr', rfl, rfl⟩ := (route_step _ _ _ _ _ _ _).1 hr
      obtain ⟨sub', hs, hv, hsound⟩ := h p (List.mem_of_getElem? hi)
      rw [hf] at hs
      cases hs
      obtain ⟨⟨h1, h2⟩, h3⟩ := hsound path x' names' e hr'
      refine ⟨⟨?_, ?_⟩, h3⟩
      · rw [List.nodup_cons]
        refine ⟨fun hm => ?_, h1⟩
        exact h2 _ hm (by simp)
      · intro n hn
        rcases List.mem_cons.1 hn with rfl | hn
        · exact hv
        · intro hm
          exact h2 n hn (by simp [hm])

theorem ends_step (d : MatData) (c : Comp) (i : Nat) (path : List Nat) :
    d.Ends c (i :: path) ↔ ∃ p sub, c.composition[i]? = some p ∧ d.find p.1 = some sub ∧ d.Ends sub path := by
  constructor
  · rintro ⟨x, names, e, hr, he⟩
    obtain ⟨p, sub, x', names', hi, hf, hr', -, -⟩ := (route_step _ _ _ _ _ _ _).1 hr
    exact ⟨p, sub, hi, hf, x', names', e, hr', he⟩
  · rintro ⟨p, sub, hi, hf, x, names, e, hr, he⟩
    exact ⟨p.2 * x, p.1 :: names, e, (route_step _ _ _ _ _ _ _).2 ⟨p, sub, x, names, hi, hf, hr, rfl, rfl⟩, he⟩

theorem route_below {d : MatData} {c : Comp} {i : Nat} {p : String × ℝ} {sub : Comp} (hi : c.composition[i]? = some p)
    (hf : d.find p.1 = some sub) (path : List Nat) :
    d.route (i :: path) c = (d.route path sub).map (fun r => (p.2 * r.1, p.1 :: r.2.1, r.2.2)) := by
  simp only [MatData.route, hi, hf, Option.bind_eq_bind, Option.bind_some]
  cases d.route path sub <;> rfl

theorem share_below {d : MatData} {c : Comp} {i : Nat} {p : String × ℝ} {sub : Comp} (hi : c.composition[i]? = some p)
    (hf : d.find p.1 = some sub) (path : List Nat) : d.share c (i :: path) = p.2 * d.share sub path := by
  unfold MatData.share
  rw [route_below hi hf]
  cases d.route path sub <;> simp

theorem nucleus_below {d : MatData} {c : Comp} {i : Nat} {p : String × ℝ} {sub : Comp} (hi : c.composition[i]? = some p)
    (hf : d.find p.1 = some sub) (path : List Nat) : d.nucleusAt c (i :: path) = d.nucleusAt sub path := by
  unfold MatData.nucleusAt
  rw [route_below hi hf]
  cases d.route path sub <;> simp

/-! ### Resolving -/

/-- All numbers in the file are of ordinary size. -/
def MatData.Ordinary (d : MatData) : Prop := ∀ name c, d.find name = some c → c.Ordinary

/-- What resolving a component should give. -/
def Resolves (d : MatData) (c : Comp) (w : ℝ) (visited : List String) (r : Option (Res (Fractions × List String))) : Prop :=
  (SoundFrom d visited c → ∃ m, r = some (.ok (m, visited)) ∧ d.Correct c w m) ∧
  (¬ SoundFrom d visited c → r = some (.throws .runtimeError))

/-- The sum of the shares of the paths that satisfy a test on their nucleus. -/
noncomputable def sumOf (d : MatData) (c : Comp) (test : Option Int → Bool) (paths : List (List Nat)) : ℝ :=
  ((paths.filter (fun p => test (d.nucleusAt c p))).map (d.share c)).sum

theorem sumOf_append (d : MatData) (c : Comp) (test : Option Int → Bool) (a b : List (List Nat)) :
    sumOf d c test (a ++ b) = sumOf d c test a + sumOf d c test b := by
  simp [sumOf]

theorem sumOf_below {d : MatData} {c : Comp} {i : Nat} {p : String × ℝ} {sub : Comp} (hi : c.composition[i]? = some p)
    (hf : d.find p.1 = some sub) (test : Option Int → Bool) (paths : List (List Nat)) :
    sumOf d c test (paths.map (fun q => i :: q)) = p.2 * sumOf d sub test paths := by
  induction paths with
  | nil => simp [sumOf]
  | cons q paths ih =>
    simp only [sumOf] at ih ⊢
    rw [List.map_cons, List.filter_cons, List.filter_cons, nucleus_below hi hf]
    split
    · rw [List.map_cons, List.map_cons, List.sum_cons, List.sum_cons, share_below hi hf, ih]; ring
    · exact ih

/-- `Correct` in terms of `sumOf`. -/
theorem correct_iff (d : MatData) (c : Comp) (w : ℝ) (m : Fractions) : d.Correct c w m ↔ (m.map Prod.fst).Nodup ∧
    ∃ paths : List (List Nat), paths.Nodup ∧ (∀ p, p ∈ paths ↔ d.Ends c p) ∧
      (∀ k, amount m k = w * sumOf d c (fun n => decide (n = some k)) paths) ∧
      total m = w * sumOf d c Option.isSome paths ∧ (m = [] ↔ ∀ p ∈ paths, d.nucleusAt c p = none) :=
  ⟨fun h => ⟨h.once, h.sums⟩, fun h => ⟨h.1, h.2⟩⟩

theorem resolveList_spec (d : MatData) (c : Comp) (w : ℝ) (f : String → ℝ → List String → Option (Res (Fractions × List String)))
    (visited : List String)
    (hf : ∀ p ∈ c.composition, ∀ w, (EntrySound d visited p → ∃ sub m, d.find p.1 = some sub ∧ f p.1 w visited = some (.ok (m, visited)) ∧
        d.Correct sub w m) ∧ (¬ EntrySound d visited p → f p.1 w visited = some (.throws .runtimeError)))
    (before rest : List (String × ℝ)) (hc : c.composition = before ++ rest) (acc : Fractions) (hacc : (acc.map Prod.fst).Nodup) :
    ((∀ p ∈ rest, EntrySound d visited p) → ∃ m, resolveList f rest w acc visited = some (.ok (m, visited)) ∧ (m.map Prod.fst).Nodup ∧
      ∃ paths : List (List Nat), paths.Nodup ∧ (∀ q, q ∈ paths ↔ d.Ends c q ∧ ∃ i q', q = i :: q' ∧ before.length ≤ i) ∧
        (∀ k, amount m k = amount acc k + w * sumOf d c (fun n => decide (n = some k)) paths) ∧
        total m = total acc + w * sumOf d c Option.isSome paths ∧
        (m = [] ↔ acc = [] ∧ ∀ p ∈ paths, d.nucleusAt c p = none)) ∧
    (¬ (∀ p ∈ rest, EntrySound d visited p) → resolveList f rest w acc visited = some (.throws .runtimeError)) := by
  induction rest generalizing before acc with
  | nil =>
    refine ⟨fun _ => ⟨acc, rfl, hacc, [], by simp, ?_, by simp [sumOf], by simp [sumOf], by simp⟩, fun h => absurd (by simp) h⟩
    intro q
    simp only [List.not_mem_nil, false_iff]
    rintro ⟨he, i, q', rfl, hi⟩
    obtain ⟨p, sub, hp, -⟩ := (ends_step _ _ _ _).1 he
    rw [hc, List.append_nil, List.getElem?_eq_none hi] at hp
    cases hp
  | cons e rest ih =>
    obtain ⟨name, x⟩ := e
    have hmem : (name, x) ∈ c.composition := by rw [hc]; simp
    have hi : c.composition[before.length]? = some (name, x) := by rw [hc]; simp
    obtain ⟨hgood, hbad⟩ := hf (name, x) hmem (w * x)
    by_cases hs : EntrySound d visited (name, x)
    · obtain ⟨sub, m, hsub, hr, hcor⟩ := hgood hs
      obtain ⟨hnd, paths1, hp1, hp2, hp3, hp4, hp5⟩ := (correct_iff _ _ _ _).1 hcor
      obtain ⟨hb1, hb2, hb3, hb4⟩ := bumpAll_spec m acc hacc hnd
      obtain ⟨ihgood, ihbad⟩ := ih (before ++ [(name, x)]) (by rw [hc]; simp) (bumpAll acc m) hb1
      have hstep : resolveList f ((name, x) :: rest) w acc visited = resolveList f rest w (bumpAll acc m) visited := by
        simp only [resolveList]
        simp only at hr
        rw [hr]
      constructor
      · intro hall
        obtain ⟨m', hr', hnd', paths2, hq1, hq2, hq3, hq4, hq5⟩ := ihgood (fun p hp => hall p (by simp [hp]))
        refine ⟨m', by rw [hstep, hr'], hnd', paths1.map (fun q => before.length :: q) ++ paths2, ?_, ?_, ?_, ?_, ?_⟩
        · rw [List.nodup_append]
          refine ⟨List.Nodup.map (fun a b hab => by simpa using hab) hp1, hq1, ?_⟩
          intro a ha b hb hab
          obtain ⟨q, -, rfl⟩ := List.mem_map.1 ha
          obtain ⟨-, i, q', rfl, hle⟩ := (hq2 b).1 hb
          simp only [List.cons.injEq] at hab
          simp only [List.length_append, List.length_singleton] at hle
          omega
        · intro q
          rw [List.mem_append, hq2]
          constructor
          · rintro (h | ⟨h1, i, q', rfl, h2⟩)
            · obtain ⟨q', hq', rfl⟩ := List.mem_map.1 h
              exact ⟨(ends_step _ _ _ _).2 ⟨(name, x), sub, hi, hsub, (hp2 q').1 hq'⟩, _, _, rfl, le_refl _⟩
            · simp only [List.length_append, List.length_singleton] at h2
              exact ⟨h1, i, q', rfl, by omega⟩
          · rintro ⟨h1, i, q', rfl, h2⟩
            rcases Nat.lt_or_ge before.length i with h | h
            · right
              exact ⟨h1, i, q', rfl, by simp; omega⟩
            · left
              have : i = before.length := by omega
              subst this
              obtain ⟨p, sub', hp, hsub', he⟩ := (ends_step _ _ _ _).1 h1
              rw [hi] at hp
              cases hp
              simp only at hsub'
              rw [show d.find name = some sub from hsub] at hsub'
              cases hsub'
              exact List.mem_map.2 ⟨q', (hp2 q').2 he, rfl⟩
        · intro k
          rw [hq3, hb2, hp3, sumOf_append, sumOf_below hi hsub]
          ring
        · rw [hq4, hb3, hp4, sumOf_append, sumOf_below hi hsub]
          ring
        · rw [hq5, hb4, hp5]
          constructor
          · rintro ⟨⟨h1, h2⟩, h3⟩
            refine ⟨h1, fun q hq => ?_⟩
            rcases List.mem_append.1 hq with hq | hq
            · obtain ⟨q', hq', rfl⟩ := List.mem_map.1 hq
              rw [nucleus_below hi hsub]
              exact h2 q' hq'
            · exact h3 q hq
          · rintro ⟨h1, h2⟩
            refine ⟨⟨h1, fun q hq => ?_⟩, fun q hq => h2 q (List.mem_append_right _ hq)⟩
            have := h2 (before.length :: q) (List.mem_append_left _ (List.mem_map.2 ⟨q, hq, rfl⟩))
            rwa [nucleus_below hi hsub] at this
      · intro hall
        rw [hstep]
        apply ihbad
        intro h
        apply hall
        intro p hp
        rcases List.mem_cons.1 hp with rfl | hp
        · exact hs
        · exact h p hp
    · constructor
      · intro hall; exact absurd (hall _ (by simp)) hs
      · intro _
        have := hbad hs
        simp only at this
        simp only [resolveList]
        rw [this]

theorem resolveSimple_spec (d : MatData) {c : Comp} (ho : c.Ordinary) (hc : c.composition = []) (w : ℝ) (visited : List String) :
    ∃ m, resolveSimple c w visited = .ok (m, visited) ∧ d.Correct c w m := by
  have hroute : ∀ path, d.Ends c path ↔ path = [] := by
    intro path
    cases path with
    | nil => simp only [iff_true]; exact ⟨1, [], c, rfl, hc⟩
    | cons i path =>
      rw [ends_step]
      simp [hc]
  have hn : d.nucleusAt c [] = c.nucleus := rfl
  have hsh : d.share c [] = 1 := rfl
  unfold resolveSimple
  rw [pdgOf_spec ho]
  cases hk : c.nucleus with
  | none =>
    refine ⟨[], rfl, (correct_iff _ _ _ _).2 ⟨by simp, [[]], by simp, by simp [hroute], ?_, ?_, ?_⟩⟩
    · intro k; simp [amount, sumOf, hn, hk]
    · simp [total, sumOf, hn, hk]
    · simp [hn, hk]
  | some k0 =>
    refine ⟨[(k0, w)], rfl, (correct_iff _ _ _ _).2 ⟨by simp, [[]], by simp, by simp [hroute], ?_, ?_, ?_⟩⟩
    · intro k
      by_cases h : k = k0
      · subst h; simp [amount, sumOf, hn, hk, hsh, List.lookup]
      · have h1 : (k == k0) = false := by simpa using h
        have h2 : ¬ k0 = k := fun e => h e.symm
        simp [amount, sumOf, hn, hk, List.lookup, h1, h2]
    · simp [total, sumOf, hn, hk, hsh]
    · simp [hn, hk]

/-- The names a file defines. -/
def MatData.names (d : MatData) : List String := (d.isotopes ++ d.elements ++ d.materials).map Prod.fst

theorem lookup_mem {l : List (String × Comp)} {n : String} {c : Comp} (h : l.lookup n = some c) : n ∈ l.map Prod.fst := by
  induction l with
  | nil => simp at h
  | cons e l ih =>
    obtain ⟨a, b⟩ := e
    rw [List.lookup] at h
    split at h
    · rename_i hab
      simp [beq_iff_eq.1 hab]
    · simp only [List.map_cons, List.mem_cons]
      exact .inr (ih h)

theorem find_mem {d : MatData} {n : String} {c : Comp} (h : d.find n = some c) : n ∈ d.names := by
  unfold MatData.find at h
  unfold MatData.names
  rw [List.map_append, List.map_append]
  split at h
  · rename_i c' hc
    exact List.mem_append_left _ (List.mem_append_left _ (lookup_mem hc))
  · split at h
    · rename_i c' hc
      have := lookup_mem hc
      exact List.mem_append_left _ (List.mem_append_right _ this)
    · exact List.mem_append_right _ (lookup_mem h)

theorem unused_lt (names visited : List String) (n : String) (h : n ∈ names) (hn : n ∉ visited) :
    (names.filter (fun e => decide (e ∉ n :: visited))).length < (names.filter (fun e => decide (e ∉ visited))).length := by
  have e1 : names.filter (fun e => decide (e ∉ n :: visited)) =
      (names.filter (fun e => decide (e ∉ visited))).filter (fun e => decide (e ≠ n)) := by
    rw [List.filter_filter]
    apply List.filter_congr
    intro e _
    simp
  rw [e1, List.length_filter_lt_length_iff_exists]
  exact ⟨n, by simp [h, hn], by simp⟩

/-- `resolve_component` with enough fuel. -/
theorem resolve_spec (d : MatData) (ho : d.Ordinary) (fuel : Nat) : ∀ (p : String × ℝ) (w : ℝ) (visited : List String),
    (d.names.filter (fun e => decide (e ∉ visited))).length < fuel →
    (EntrySound d visited p → ∃ sub m, d.find p.1 = some sub ∧ resolve d fuel p.1 w visited = some (.ok (m, visited)) ∧ d.Correct sub w m) ∧
    (¬ EntrySound d visited p → resolve d fuel p.1 w visited = some (.throws .runtimeError)) := by
  induction fuel with
  | zero => intro _ _ _ h; omega
  | succ fuel ih =>
    intro p w visited hfuel
    simp only [resolve]
    cases hfind : d.find p.1 with
    | none =>
      refine ⟨?_, fun _ => rfl⟩
      rintro ⟨sub, hs, -⟩
      rw [hfind] at hs
      cases hs
    | some c =>
      simp only
      by_cases hv : p.1 ∈ visited
      · rw [if_pos hv]
        refine ⟨?_, fun _ => rfl⟩
        rintro ⟨sub, -, h, -⟩
        exact absurd hv h
      · rw [if_neg hv]
        have hfuel' : (d.names.filter (fun e => decide (e ∉ p.1 :: visited))).length < fuel := by
          have := unused_lt d.names visited p.1 (find_mem hfind) hv
          omega
        have hiff : EntrySound d visited p ↔ SoundFrom d (p.1 :: visited) c := by
          constructor
          · rintro ⟨sub, hs, -, h⟩
            rw [hfind] at hs
            cases hs
            exact h
          · intro h; exact ⟨c, hfind, hv, h⟩
        have herase : (p.1 :: visited).filter (fun n => decide (n ≠ p.1)) = visited := by
          rw [List.filter_cons_of_neg (by simp), List.filter_eq_self]
          intro n hn
          have : n ≠ p.1 := fun e => hv (e ▸ hn)
          simpa using this
        rw [hiff]
        by_cases hcomp : c.composition = []
        · rw [if_neg (by simpa using hcomp)]
          obtain ⟨m, hm, hcor⟩ := resolveSimple_spec d (ho _ _ hfind) hcomp w (p.1 :: visited)
          rw [hm]
          simp only [herase]
          refine ⟨fun _ => ⟨c, m, rfl, rfl, hcor⟩, fun h => ?_⟩
          exfalso
          apply h
          rw [soundFrom_iff]
          simp [hcomp]
        · rw [if_pos hcomp]
          obtain ⟨g, b⟩ := resolveList_spec d c w (resolve d fuel) (p.1 :: visited)
            (fun p' _ w' => ih p' w' (p.1 :: visited) hfuel') [] c.composition rfl [] (by simp)
          rw [soundFrom_iff]
          constructor
          · intro hs
            obtain ⟨m, hr, hnd, paths, h1, h2, h3, h4, h5⟩ := g hs
            rw [hr]
            simp only [herase]
            refine ⟨c, m, rfl, rfl, (correct_iff _ _ _ _).2 ⟨hnd, paths, h1, fun q => ?_, fun k => ?_, ?_, ?_⟩⟩
            · rw [h2]
              constructor
              · exact fun h => h.1
              · intro h
                refine ⟨h, ?_⟩
                cases q with
                | nil =>
                  obtain ⟨x, names, e, hr, he⟩ := h
                  simp only [MatData.route, Option.some.injEq, Prod.mk.injEq] at hr
                  obtain ⟨-, -, rfl⟩ := hr
                  exact absurd he hcomp
                | cons i q => exact ⟨i, q, rfl, by simp⟩
            · rw [h3]; simp [amount]
            · rw [h4]; simp [total]
            · rw [h5]; simp
          · intro hs
            rw [b hs]

theorem materialFractions_spec (d : MatData) (ho : d.Ordinary) (fuel : Nat) (hfuel : d.names.length < fuel) (c : Comp) (hoc : c.Ordinary) :
    Resolves d c 1 [] (materialFractions d fuel c []) := by
  unfold materialFractions
  have hfuel' : (d.names.filter (fun e => decide (e ∉ ([] : List String)))).length < fuel :=
    lt_of_le_of_lt (List.length_filter_le _ _) hfuel
  rw [Resolves, soundFrom_iff]
  by_cases hcomp : c.composition = []
  · rw [if_neg (by simpa using hcomp)]
    obtain ⟨m, hm, hcor⟩ := resolveSimple_spec d hoc hcomp 1 []
    rw [hm]
    exact ⟨fun _ => ⟨m, rfl, hcor⟩, fun h => absurd (by simp [hcomp]) h⟩
  · rw [if_pos hcomp]
    obtain ⟨g, b⟩ := resolveList_spec d c 1 (resolve d fuel) [] (fun p' _ w' => resolve_spec d ho fuel p' w' [] hfuel') []
      c.composition rfl [] (by simp)
    refine ⟨fun hs => ?_, b⟩
    obtain ⟨m, hr, hnd, paths, h1, h2, h3, h4, h5⟩ := g hs
    refine ⟨m, hr, (correct_iff _ _ _ _).2 ⟨hnd, paths, h1, fun q => ?_, fun k => ?_, ?_, ?_⟩⟩
    · rw [h2]
      constructor
      · exact fun h => h.1
      · intro h
        refine ⟨h, ?_⟩
        cases q with
        | nil =>
          obtain ⟨x, names, e, hr, he⟩ := h
          simp only [MatData.route, Option.some.injEq, Prod.mk.injEq] at hr
          obtain ⟨-, -, rfl⟩ := hr
          exact absurd he hcomp
        | cons i q => exact ⟨i, q, rfl, by simp⟩
    · rw [h3]; simp [amount]
    · rw [h4]; simp [total]
    · rw [h5]; simp

theorem soundFrom_nil (d : MatData) (c : Comp) : SoundFrom d [] c ↔ d.Sound c := by
  unfold SoundFrom MatData.Sound
  simp

/-! ### The claims -/

/-- **C30, composition.** If nothing is wrong below any material, the import terminates and hands over every material that contains
a nucleus, once and in order; for each, the fraction of a nucleus is the sum, over all ways in which the material contains it, of
the product of the declared fractions. -/
theorem C30_composition (d : MatData) (ho : d.Ordinary) (hm : ∀ p ∈ d.materials, p.2.Ordinary) (fuel : Nat) (hfuel : d.names.length < fuel)
    (hs : ∀ p ∈ d.materials, d.Sound p.2) :
    ∃ all : List (String × Fractions), List.Forall₂ (fun p q => q.1 = p.1 ∧ d.Correct p.2 1 q.2) d.materials all ∧
      loadMaterials d fuel d.materials [] = some (.ok (all.filter (fun q => decide (q.2 ≠ [])))) := by
  have main : ∀ ms : List (String × Comp), (∀ p ∈ ms, p.2.Ordinary) → (∀ p ∈ ms, d.Sound p.2) →
      ∃ all : List (String × Fractions), List.Forall₂ (fun p q => q.1 = p.1 ∧ d.Correct p.2 1 q.2) ms all ∧
      loadMaterials d fuel ms [] = some (.ok (all.filter (fun q => decide (q.2 ≠ [])))) := by
    intro ms
    induction ms with
    | nil => intro _ _; exact ⟨[], .nil, rfl⟩
    | cons p ms ih =>
      intro h1 h2
      obtain ⟨m, hr, hcor⟩ := (materialFractions_spec d ho fuel hfuel p.2 (h1 p (by simp))).1
        ((soundFrom_nil _ _).2 (h2 p (by simp)))
      obtain ⟨all, ha, hl⟩ := ih (fun q hq => h1 q (by simp [hq])) (fun q hq => h2 q (by simp [hq]))
      refine ⟨(p.1, m) :: all, .cons ⟨rfl, hcor⟩ ha, ?_⟩
      simp only [loadMaterials, hr, hl]
      by_cases hm : m = []
      · simp [hm]
      · simp [hm]
  exact main d.materials hm hs

/-- **C30, faults.** If a component is missing or contains itself, the import ends with an exception. -/
theorem C30_faults (d : MatData) (ho : d.Ordinary) (hm : ∀ p ∈ d.materials, p.2.Ordinary) (fuel : Nat) (hfuel : d.names.length < fuel)
    (hbad : ∃ p ∈ d.materials, ¬ d.Sound p.2) : loadMaterials d fuel d.materials [] = some (.throws .runtimeError) := by
  have main : ∀ ms : List (String × Comp), (∀ p ∈ ms, p.2.Ordinary) → (∃ p ∈ ms, ¬ d.Sound p.2) →
      loadMaterials d fuel ms [] = some (.throws .runtimeError) := by
    intro ms
    induction ms with
    | nil => rintro _ ⟨p, hp, -⟩; simp at hp
    | cons p ms ih =>
      intro h1 h2
      have hspec := materialFractions_spec d ho fuel hfuel p.2 (h1 p (by simp))
      by_cases hp : d.Sound p.2
      · obtain ⟨m, hr, -⟩ := hspec.1 ((soundFrom_nil _ _).2 hp)
        have : ∃ q ∈ ms, ¬ d.Sound q.2 := by
          obtain ⟨q, hq, hqs⟩ := h2
          rcases List.mem_cons.1 hq with rfl | hq
          · exact absurd hp hqs
          · exact ⟨q, hq, hqs⟩
        simp only [loadMaterials, hr, ih (fun q hq => h1 q (by simp [hq])) this]
      · have := hspec.2 (fun h => hp ((soundFrom_nil _ _).1 h))
        simp only [loadMaterials, this]
  exact main d.materials hm hbad

/-- Everything below a component is complete: declared fractions sum to one and every component without composition is a nucleus. -/
structure MatData.Complete (d : MatData) (c : Comp) : Prop where
  ones : ∀ path x names e, d.route path c = some (x, names, e) → e.composition ≠ [] → (e.composition.map Prod.snd).sum = 1
  nuclei : ∀ path x names e, d.route path c = some (x, names, e) → e.composition = [] → 1 ≤ e.Z ∧ 1 / 2 ≤ e.A

theorem MatData.Complete.below {d : MatData} {c : Comp} (h : d.Complete c) {p : String × ℝ} (hp : p ∈ c.composition) {sub : Comp}
    (hf : d.find p.1 = some sub) : d.Complete sub := by
  obtain ⟨i, hi⟩ := List.mem_iff_getElem?.1 hp
  constructor
  · intro path x names e hr
    exact h.ones (i :: path) _ _ e ((route_step _ _ _ _ _ _ _).2 ⟨p, sub, x, names, hi, hf, hr, rfl, rfl⟩)
  · intro path x names e hr
    exact h.nuclei (i :: path) _ _ e ((route_step _ _ _ _ _ _ _).2 ⟨p, sub, x, names, hi, hf, hr, rfl, rfl⟩)

theorem total_bumpAll (sub : Fractions) : ∀ acc, total (bumpAll acc sub) = total acc + total sub := by
  induction sub with
  | nil => intro acc; simp [bumpAll, total]
  | cons e sub ih =>
    intro acc
    have hb : bumpAll acc (e :: sub) = bumpAll (bump acc e.1 e.2) sub := rfl
    rw [hb, ih, total_bump]
    simp only [total, List.map_cons, List.sum_cons]
    ring

theorem resolveList_total (f : String → ℝ → List String → Option (Res (Fractions × List String))) (w : ℝ)
    (l : List (String × ℝ)) (hf : ∀ p ∈ l, ∀ w visited m v', f p.1 w visited = some (.ok (m, v')) → total m = w) :
    ∀ acc visited m v', resolveList f l w acc visited = some (.ok (m, v')) → total m = total acc + w * (l.map Prod.snd).sum := by
  induction l with
  | nil =>
    intro acc visited m v' h
    simp only [resolveList, Option.some.injEq, Res.ok.injEq, Prod.mk.injEq] at h
    simp [h.1]
  | cons e l ih =>
    intro acc visited m v' h
    obtain ⟨name, x⟩ := e
    simp only [resolveList] at h
    split at h
    · rename_i sub v'' hsub
      have h1 := hf (name, x) (by simp) (w * x) visited sub v'' hsub
      have h2 := ih (fun p hp => hf p (by simp [hp])) _ _ _ _ h
      rw [h2, total_bumpAll, h1]
      simp only [List.map_cons, List.sum_cons]
      ring
    · rename_i hne
      exact absurd h (hne _ _)

theorem simple_total {c : Comp} (ho : c.Ordinary) (hn : 1 ≤ c.Z ∧ 1 / 2 ≤ c.A) (w : ℝ) (visited : List String) (m : Fractions)
    (v' : List String) (h : resolveSimple c w visited = .ok (m, v')) : total m = w := by
  unfold resolveSimple at h
  rw [pdgOf_spec ho] at h
  have : c.nucleus = some (1000000000 + ⌊c.Z⌋ * 10000 + ⌊c.A + 1 / 2⌋ * 10) := by
    unfold Comp.nucleus; rw [if_pos hn]
  rw [this] at h
  simp only [Res.bind, Res.ok.injEq, Prod.mk.injEq] at h
  rw [← h.1]
  simp [total]

theorem resolve_total (d : MatData) (ho : d.Ordinary) (fuel : Nat) : ∀ (name : String) (c : Comp), d.find name = some c → d.Complete c →
    ∀ w visited m v', resolve d fuel name w visited = some (.ok (m, v')) → total m = w := by
  induction fuel with
  | zero => intro name c _ _ w visited m v' h; simp [resolve] at h
  | succ fuel ih =>
    intro name c hfind hcomp w visited m v' h
    simp only [resolve, hfind] at h
    split at h
    · simp at h
    · by_cases hc : c.composition = []
      · rw [if_neg (by simpa using hc)] at h
        split at h
        · rename_i m0 v0 hm0
          simp only [Option.some.injEq, Res.ok.injEq, Prod.mk.injEq] at h hm0
          have := simple_total (ho _ _ hfind) (hcomp.nuclei [] 1 [] c rfl hc) w _ m0 v0 hm0
          rw [← h.1, this]
        · rename_i hne
          exact absurd h (hne _ _)
      · rw [if_pos hc] at h
        split at h
        · rename_i m0 v0 hm0
          simp only [Option.some.injEq, Res.ok.injEq, Prod.mk.injEq] at h
          have := resolveList_total (resolve d fuel) w c.composition (fun p hp w' vis m' v'' hr => by
            cases hf : d.find p.1 with
            | none =>
              cases fuel with
              | zero => simp [resolve] at hr
              | succ n => simp [resolve, hf] at hr
            | some sub => exact ih p.1 sub hf (hcomp.below hp hf) w' vis m' v'' hr) [] _ m0 v0 hm0
          rw [hcomp.ones [] 1 [] c rfl hc] at this
          rw [← h.1, this]
          simp [total]
        · rename_i hne
          exact absurd h (hne _ _)

/-- **C30, conservation.** If nothing is wrong below a material and everything below it is complete, the fractions recorded for it
sum to one. -/
theorem C30_conservation (d : MatData) (ho : d.Ordinary) (c : Comp) (hoc : c.Ordinary) (fuel : Nat) (hfuel : d.names.length < fuel)
    (hs : d.Sound c) (hcomp : d.Complete c) :
    ∃ m, materialFractions d fuel c [] = some (.ok (m, [])) ∧ d.Correct c 1 m ∧ total m = 1 := by
  obtain ⟨m, hr, hcor⟩ := (materialFractions_spec d ho fuel hfuel c hoc).1 ((soundFrom_nil _ _).2 hs)
  refine ⟨m, hr, hcor, ?_⟩
  unfold materialFractions at hr
  by_cases hc : c.composition = []
  · rw [if_neg (by simpa using hc)] at hr
    simp only [Option.some.injEq] at hr
    exact simple_total hoc (hcomp.nuclei [] 1 [] c rfl hc) 1 [] m [] hr
  · rw [if_pos hc] at hr
    have := resolveList_total (resolve d fuel) 1 c.composition (fun p hp w' vis m' v'' hr => by
      cases hf : d.find p.1 with
      | none =>
        cases fuel with
        | zero => simp [resolve] at hr
        | succ n => simp [resolve, hf] at hr
      | some sub => exact resolve_total d ho fuel p.1 sub hf (hcomp.below hp hf) w' vis m' v'' hr) [] _ m [] hr
    rw [hcomp.ones [] 1 [] c rfl hc] at this
    rw [this]
    simp [total]

/-- **C30 fails for components that are not nuclei.** Half of this material is a component without numbers (an element whose `atom`
is missing); the fractions recorded for it sum to one half. -/
theorem C30_no_nucleus_fails :
    let d : MatData := ⟨[], [("H", ⟨1, 1, []⟩), ("X", ⟨0, 0, []⟩)], [("M", ⟨0, 0, [("H", 1 / 2), ("X", 1 / 2)]⟩)]⟩
    ∃ m, loadMaterials d 4 d.materials [] = some (.ok [("M", m)]) ∧ total m = 1 / 2 := by
  intro d
  have hH : pdgOf ⟨1, 1, []⟩ = .ok (some 1000010010) := by
    rw [pdgOf_spec ⟨by norm_num, by norm_num⟩]
    unfold Comp.nucleus
    rw [if_pos (by norm_num)]
    norm_num
  have hX : pdgOf ⟨0, 0, []⟩ = .ok none := by
    rw [pdgOf_spec ⟨by norm_num, by norm_num⟩]
    unfold Comp.nucleus
    rw [if_neg (by norm_num)]
  refine ⟨[(1000010010, 1 / 2)], ?_, by simp [total]⟩
  simp [d, loadMaterials, materialFractions, resolveList, resolve, MatData.find, resolveSimple, hH, hX, Res.bind, bumpAll, bump, List.lookup]

/-! ### Atom counts -/

theorem assign_fresh (m : List (String × ℝ)) (k : String) (v : ℝ) (h : k ∉ m.map Prod.fst) : assign m k v = m ++ [(k, v)] := by
  induction m with
  | nil => rfl
  | cons e m ih =>
    obtain ⟨a, b⟩ := e
    simp only [List.map_cons, List.mem_cons, not_or] at h
    simp only [assign]
    rw [if_neg (fun e => h.1 e.symm), ih h.2]
    rfl

theorem assign_all (g : String × ℝ → ℝ) (entries : List (String × ℝ)) : ∀ start : List (String × ℝ),
    ((start.map Prod.fst) ++ entries.map Prod.fst).Nodup →
    entries.foldl (fun m e => assign m e.1 (g e)) start = start ++ entries.map (fun e => (e.1, g e)) := by
  induction entries with
  | nil => intro start _; simp
  | cons e entries ih =>
    intro start h
    rw [List.foldl_cons, assign_fresh, ih]
    · simp
    · simpa using h
    · intro hm
      rw [List.nodup_append] at h
      exact h.2.2 _ hm e.1 (by simp) rfl

/-- **C30, atom counts.** A material given by numbers of atoms of different components whose masses are known gets the mass fractions
`nᵢ Aᵢ / Σ nⱼ Aⱼ`, which sum to one. -/
theorem C30_atom_counts (massOf : String → ℝ) (entries : List (String × ℝ)) (hne : entries ≠ []) (hnd : (entries.map Prod.fst).Nodup)
    (hpos : ∀ e ∈ entries, 0 < e.2 ∧ 0 < massOf e.1) :
    compositeEntries massOf [] entries =
        entries.map (fun e => (e.1, e.2 * massOf e.1 / (entries.map (fun e => e.2 * massOf e.1)).sum)) ∧
      ((compositeEntries massOf [] entries).map Prod.snd).sum = 1 := by
  have htot : 0 < (entries.map (fun e => e.2 * massOf e.1)).sum := by
    apply List.sum_pos
    · intro x hx
      obtain ⟨e, he, rfl⟩ := List.mem_map.1 hx
      exact mul_pos (hpos e he).1 (hpos e he).2
    · simpa using hne
  have h1 : compositeEntries massOf [] entries =
        entries.map (fun e => (e.1, e.2 * massOf e.1 / (entries.map (fun e => e.2 * massOf e.1)).sum)) := by
    unfold compositeEntries
    rw [if_neg hne]
    simp only
    rw [if_pos htot, assign_all (fun e => e.2 * massOf e.1 / (entries.map (fun e => e.2 * massOf e.1)).sum) entries [] (by simpa using hnd)]
    simp
  refine ⟨h1, ?_⟩
  rw [h1, List.map_map]
  have : (entries.map (Prod.snd ∘ fun e => (e.1, e.2 * massOf e.1 / (entries.map (fun e => e.2 * massOf e.1)).sum))).sum =
      (entries.map (fun e => e.2 * massOf e.1)).sum / (entries.map (fun e => e.2 * massOf e.1)).sum := by
    have key : ∀ (T : ℝ) (l : List (String × ℝ)), (l.map (Prod.snd ∘ fun e => (e.1, e.2 * massOf e.1 / T))).sum =
        (l.map (fun e => e.2 * massOf e.1)).sum / T := by
      intro T l
      induction l with
      | nil => simp
      | cons e l ih =>
        simp only [List.map_cons, List.sum_cons, ih, Function.comp]
        ring
    exact key _ _
  rw [this, div_self (ne_of_gt htot)]

/-- Declared mass fractions are taken over unchanged when every component is named once. -/
theorem C30_mass_fractions (entries : List (String × ℝ)) (hnd : (entries.map Prod.fst).Nodup) : fractionEntries entries = entries := by
  unfold fractionEntries
  rw [assign_all (fun e => e.2) entries [] (by simpa using hnd)]
  simp

/-- **C30 fails for atom counts of elements without a mass of their own.** Water made of two elements that are mixtures of isotopes
(whose own mass is zero): the atom counts themselves become the fractions, and these sum to three. -/
theorem C30_atom_counts_fails :
    ((compositeEntries (fun _ => 0) [] [("H", 2), ("O", 1)]).map Prod.snd).sum = 3 := by
  simp [compositeEntries, assign]
  norm_num

/-- **C30 fails for a component named twice.** Two declared halves of the same component: one is lost. -/
theorem C30_repeated_fails : ((fractionEntries [("H", 1 / 2), ("H", 1 / 2)]).map Prod.snd).sum = 1 / 2 := by
  simp [fractionEntries, assign]

/-! ### A file -/

/-- Water with heavy hydrogen: an element mixed from isotopes, an element with numbers, and a brine mixed from water and salt. -/
noncomputable def brine : MatData :=
  ⟨[("H1", ⟨1, 1, []⟩), ("H2", ⟨1, 2, []⟩)], [("H", ⟨1, 0, [("H1", 0.9), ("H2", 0.1)]⟩), ("O", ⟨8, 16, []⟩)],
    [("water", ⟨0, 0, [("H", 0.2), ("O", 0.8)]⟩), ("brine", ⟨0, 0, [("O", 0.5), ("water", 0.5)]⟩)]⟩

theorem brine_find (n : String) (c : Comp) (h : brine.find n = some c) :
    (n = "H1" ∧ c = ⟨1, 1, []⟩) ∨ (n = "H2" ∧ c = ⟨1, 2, []⟩) ∨ (n = "H" ∧ c = ⟨1, 0, [("H1", 0.9), ("H2", 0.1)]⟩) ∨
    (n = "O" ∧ c = ⟨8, 16, []⟩) ∨ (n = "water" ∧ c = ⟨0, 0, [("H", 0.2), ("O", 0.8)]⟩) ∨
    (n = "brine" ∧ c = ⟨0, 0, [("O", 0.5), ("water", 0.5)]⟩) := by
  by_cases h1 : n = "H1"
  · subst h1; left; simp [MatData.find, brine, List.lookup] at h; exact ⟨rfl, h.symm⟩
  by_cases h2 : n = "H2"
  · subst h2; right; left; simp [MatData.find, brine, List.lookup] at h; exact ⟨rfl, h.symm⟩
  by_cases h3 : n = "H"
  · subst h3; right; right; left; simp [MatData.find, brine, List.lookup] at h; exact ⟨rfl, h.symm⟩
  by_cases h4 : n = "O"
  · subst h4; right; right; right; left; simp [MatData.find, brine, List.lookup] at h; exact ⟨rfl, h.symm⟩
  by_cases h5 : n = "water"
  · subst h5; right; right; right; right; left; simp [MatData.find, brine, List.lookup] at h; exact ⟨rfl, h.symm⟩
  by_cases h6 : n = "brine"
  · subst h6; right; right; right; right; right; simp [MatData.find, brine, List.lookup] at h; exact ⟨rfl, h.symm⟩
  · exfalso
    have e : ∀ s : String, n ≠ s → (n == s) = false := fun s hs => by simpa using hs
    simp [MatData.find, brine, List.lookup, e _ h1, e _ h2, e _ h3, e _ h4, e _ h5, e _ h6] at h

theorem brine_ordinary : brine.Ordinary := by
  intro n c h
  rcases brine_find n c h with ⟨-, rfl⟩ | ⟨-, rfl⟩ | ⟨-, rfl⟩ | ⟨-, rfl⟩ | ⟨-, rfl⟩ | ⟨-, rfl⟩ <;>
    constructor <;> norm_num

theorem brine_sound (v : List String) (hv : ∀ n ∈ v, n = "brine") : SoundFrom brine v ⟨0, 0, [("O", 0.5), ("water", 0.5)]⟩ := by
  have hn : ∀ s, s ≠ "brine" → s ∉ v := fun s hs hm => hs (hv s hm)
  have hO : ∀ v, SoundFrom brine v ⟨8, 16, []⟩ := fun v => (soundFrom_iff _ _ _).2 (by simp)
  have h1 : ∀ v, SoundFrom brine v ⟨1, 1, []⟩ := fun v => (soundFrom_iff _ _ _).2 (by simp)
  have h2 : ∀ v, SoundFrom brine v ⟨1, 2, []⟩ := fun v => (soundFrom_iff _ _ _).2 (by simp)
  have hH : SoundFrom brine ("H" :: "water" :: v) ⟨1, 0, [("H1", 0.9), ("H2", 0.1)]⟩ := by
    rw [soundFrom_iff]
    intro p hp
    simp only [List.mem_cons, List.not_mem_nil, or_false] at hp
    rcases hp with rfl | rfl
    · exact ⟨_, by simp [MatData.find, brine, List.lookup], by simp [hn], h1 _⟩
    · exact ⟨_, by simp [MatData.find, brine, List.lookup], by simp [hn], h2 _⟩
  have hw : SoundFrom brine ("water" :: v) ⟨0, 0, [("H", 0.2), ("O", 0.8)]⟩ := by
    rw [soundFrom_iff]
    intro p hp
    simp only [List.mem_cons, List.not_mem_nil, or_false] at hp
    rcases hp with rfl | rfl
    · exact ⟨_, by simp [MatData.find, brine, List.lookup], by simp [hn], hH⟩
    · exact ⟨_, by simp [MatData.find, brine, List.lookup], by simp [hn], hO _⟩
  rw [soundFrom_iff]
  intro p hp
  simp only [List.mem_cons, List.not_mem_nil, or_false] at hp
  rcases hp with rfl | rfl
  · exact ⟨_, by simp [MatData.find, brine, List.lookup], by simp [hn], hO _⟩
  · exact ⟨_, by simp [MatData.find, brine, List.lookup], by simp [hn], hw⟩

theorem brine_complete : brine.Complete ⟨0, 0, [("O", 0.5), ("water", 0.5)]⟩ := by
  have step : ∀ path x names e, brine.route path ⟨0, 0, [("O", 0.5), ("water", 0.5)]⟩ = some (x, names, e) →
      e = ⟨0, 0, [("O", 0.5), ("water", 0.5)]⟩ ∨ ∃ n, brine.find n = some e := by
    intro path
    generalize hc : (⟨0, 0, [("O", 0.5), ("water", 0.5)]⟩ : Comp) = c
    have : c = c ∨ ∃ n, brine.find n = some c := .inl rfl
    clear hc
    revert c
    induction path with
    | nil => intro c _ x names e h; simp [MatData.route] at h; exact .inl h.2.2.symm
    | cons i path ih =>
      intro c _ x names e h
      obtain ⟨p, sub, x', names', -, hf, hr, -, -⟩ := (route_step _ _ _ _ _ _ _).1 h
      rcases ih sub (.inl rfl) x' names' e hr with rfl | h
      · exact .inr ⟨_, hf⟩
      · exact .inr h
  constructor
  · intro path x names e h hne
    rcases step path x names e h with rfl | ⟨n, hn⟩
    · norm_num
    · rcases brine_find n e hn with ⟨-, rfl⟩ | ⟨-, rfl⟩ | ⟨-, rfl⟩ | ⟨-, rfl⟩ | ⟨-, rfl⟩ | ⟨-, rfl⟩ <;> simp at hne <;> norm_num
  · intro path x names e h hne
    rcases step path x names e h with rfl | ⟨n, hn⟩
    · simp at hne
    · rcases brine_find n e hn with ⟨-, rfl⟩ | ⟨-, rfl⟩ | ⟨-, rfl⟩ | ⟨-, rfl⟩ | ⟨-, rfl⟩ | ⟨-, rfl⟩ <;> simp at hne <;> norm_num

/-- The brine meets the hypotheses. -/
example : ∃ m, materialFractions brine 7 ⟨0, 0, [("O", 0.5), ("water", 0.5)]⟩ [] = some (.ok (m, [])) ∧ total m = 1 := by
  obtain ⟨m, h1, -, h2⟩ := C30_conservation brine brine_ordinary _ ⟨by norm_num, by norm_num⟩ 7 (by simp [MatData.names, brine])
    ((soundFrom_nil _ _).1 (brine_sound [] (by simp))) brine_complete
  exact ⟨m, h1, h2⟩

/-- A material that contains itself is refused. -/
example : loadMaterials ⟨[], [], [("A", ⟨0, 0, [("A", 1)]⟩)]⟩ 2 [("A", ⟨0, 0, [("A", 1)]⟩)] [] = some (.throws .runtimeError) := by
  refine C30_faults ⟨[], [], [("A", ⟨0, 0, [("A", 1)]⟩)]⟩ ?_ ?_ 2 (by simp [MatData.names]) ⟨("A", ⟨0, 0, [("A", 1)]⟩), by simp, ?_⟩
  · intro n c h
    by_cases hn : n = "A"
    · subst hn
      simp [MatData.find, List.lookup] at h
      subst h
      constructor <;> norm_num
    · have e : (n == "A") = false := by simpa using hn
      simp [MatData.find, List.lookup, e] at h
  · intro p hp
    simp at hp
    subst hp
    constructor <;> norm_num
  · intro h
    have := (h [0, 0] _ ["A", "A"] _ ((route_step _ _ _ _ _ _ _).2 ⟨("A", 1), ⟨0, 0, [("A", 1)]⟩, _, _, rfl, rfl,
      (route_step _ _ _ _ _ _ _).2 ⟨("A", 1), ⟨0, 0, [("A", 1)]⟩, 1, [], rfl, rfl, rfl, rfl, rfl⟩, rfl, rfl⟩)).1
    simp at this

/-- Water by atom counts. -/
example : ((compositeEntries (fun n => if n = "O" then 16 else 1) [] [("H", 2), ("O", 1)]).map Prod.snd).sum = 1 :=
  (C30_atom_counts _ _ (by simp) (by simp) (by
    intro e he
    simp only [List.mem_cons, List.not_mem_nil, or_false] at he
    rcases he with rfl | rfl <;> constructor <;> simp)).2

end Siren.Gdml
