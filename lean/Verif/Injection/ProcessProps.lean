import Verif.Injection.ProcessModel
import Mathlib.Data.List.Nodup
import Mathlib.Data.List.Induction

set_option autoImplicit false

/-!
# C16 and C17: the lists of distributions and of secondary processes
-/

namespace Siren.Injection

open Siren

section
variable {P : Type} [DecidableEq P] (eq : P → P → Bool)

/-! ## Distribution lists -/

theorem repeats_iff (l : List P) : repeats l = false ↔ l.Nodup := by
  induction l with
  | nil => simp [repeats]
  | cons a l ih =>
    simp only [repeats, Bool.or_eq_false_iff, ih, List.nodup_cons]
    apply and_congr_left
    intro _
    simp only [List.any_eq_false, decide_eq_true_eq]
    exact ⟨fun h hm => h a hm rfl, fun h x hx e => h (e ▸ hx)⟩

/-- No distribution in the list equals an earlier one. -/
def Distinct (l : List P) : Prop := l.Pairwise fun a b => eq a b = false

omit [DecidableEq P] in
theorem distinct_snoc {l : List P} {d : P} (h : Distinct eq l) (hd : (l.any fun x => eq x d) = false) : Distinct eq (l ++ [d]) := by
  unfold Distinct at *
  rw [List.pairwise_append]
  refine ⟨h, by simp, fun a ha b hb => ?_⟩
  rw [List.mem_singleton] at hb
  subst hb
  simpa using List.any_eq_false.1 hd a ha

/-- The calls that add one distribution. -/
def ProcCall.IsAdd : ProcCall P → Prop
  | .addPhysical _ => True
  | .addInjection _ => True
  | _ => False

/-- What holds after any history of additions. -/
structure AddInv (p : Proc P) : Prop where
  injection : Distinct eq p.injection
  physical : Distinct eq p.physical
  same : p.kind ≠ .physical → p.physical = p.injection
  plain : p.kind = .physical → p.injection = []

theorem call_addInv {p : Proc P} (h : AddInv eq p) {c : ProcCall P} (hc : c.IsAdd) :
    AddInv eq (p.call eq c).2 ∧ (p.call eq c).2.kind = p.kind := by
  obtain ⟨kind, inj, phys⟩ := p
  obtain ⟨h1, h2, h3, h4⟩ := h
  cases c with
  | setPhysical => exact hc.elim
  | setInjection => exact hc.elim
  | addPhysical d =>
    cases kind with
    | physical =>
      simp only [Proc.call, Proc.addPhysical]
      split
      · exact ⟨⟨h1, h2, h3, h4⟩, rfl⟩
      · rename_i hd
        exact ⟨⟨h1, distinct_snoc eq h2 (by simpa using hd), by simp, h4⟩, rfl⟩
    | primary => exact ⟨⟨h1, h2, h3, h4⟩, rfl⟩
    | secondary => exact ⟨⟨h1, h2, h3, h4⟩, rfl⟩
  | addInjection d =>
    cases kind with
    | physical => exact ⟨⟨h1, h2, h3, h4⟩, rfl⟩
    | primary =>
      have hp : phys = inj := h3 (by simp)
      simp only [Proc.call, Proc.addInjection]
      split
      · exact ⟨⟨h1, h2, h3, h4⟩, rfl⟩
      · rename_i hd
        subst hp
        exact ⟨⟨distinct_snoc eq h1 (by simpa using hd), distinct_snoc eq h1 (by simpa using hd), by simp, by simp⟩, rfl⟩
    | secondary =>
      have hp : phys = inj := h3 (by simp)
      simp only [Proc.call, Proc.addInjection]
      split
      · exact ⟨⟨h1, h2, h3, h4⟩, rfl⟩
      · rename_i hd
        subst hp
        exact ⟨⟨distinct_snoc eq h1 (by simpa using hd), distinct_snoc eq h1 (by simpa using hd), by simp, by simp⟩, rfl⟩

theorem run_addInv (calls : List (ProcCall P)) (hc : ∀ c ∈ calls, c.IsAdd) :
    ∀ p : Proc P, AddInv eq p → AddInv eq (p.run eq calls) ∧ (p.run eq calls).kind = p.kind := by
  induction calls with
  | nil => intro p hp; exact ⟨hp, rfl⟩
  | cons c calls ih =>
    intro p hp
    have hcs : ∀ c ∈ calls, c.IsAdd := fun c h => hc c (List.mem_cons_of_mem _ h)
    simp only [Proc.run, List.foldl_cons]
    obtain ⟨h1, h2⟩ := call_addInv eq hp (hc c List.mem_cons_self)
    have := ih hcs _ h1
    exact ⟨this.1, this.2.trans h2⟩

/-- C17. After any history of additions to a new process no distribution equals an earlier one, and the physical
distributions of an injection process are exactly its injection distributions. -/
theorem C17_add_history (kind : Kind) (calls : List (ProcCall P)) (hc : ∀ c ∈ calls, c.IsAdd) :
    let p := (⟨kind, [], []⟩ : Proc P).run eq calls
    p.injection.Pairwise (fun a b => eq a b = false) ∧ p.physical.Pairwise (fun a b => eq a b = false) ∧
    (kind ≠ .physical → p.physical = p.injection) := by
  intro p
  obtain ⟨h, hk⟩ := run_addInv eq calls hc ⟨kind, [], []⟩ ⟨by simp [Distinct], by simp [Distinct], by simp, by simp⟩
  exact ⟨h.injection, h.physical, fun hne => h.same (by rw [hk]; exact hne)⟩

omit [DecidableEq P] in
/-- C17. Adding a physical distribution: an injection process refuses, a plain process refuses exactly when it holds an equal
one, and otherwise appends. A refused call leaves the process as it was. -/
theorem C17_add_physical (p : Proc P) (d : P) :
    (p.kind ≠ .physical ∨ (∃ x ∈ p.physical, eq x d = true) → p.addPhysical eq d = (.throws .runtimeError, p)) ∧
    (p.kind = .physical → (∀ x ∈ p.physical, eq x d = false) →
      p.addPhysical eq d = (.ok (), { p with physical := p.physical ++ [d] })) := by
  obtain ⟨kind, inj, phys⟩ := p
  constructor
  · rintro (h | ⟨x, hx, he⟩)
    · cases kind <;> first | exact absurd rfl h | rfl
    · cases kind
      · simp only [Proc.addPhysical]
        rw [if_pos (List.any_eq_true.2 ⟨x, hx, he⟩)]
      · rfl
      · rfl
  · intro hk h
    simp only at hk
    subst hk
    simp only [Proc.addPhysical]
    rw [if_neg]
    rw [List.any_eq_true]
    rintro ⟨x, hx, he⟩
    rw [h x hx] at he
    cases he

omit [DecidableEq P] in
/-- C17. Adding an injection distribution throws exactly when the process holds an equal one, and leaves the process as it
was; otherwise it is appended to both lists. -/
theorem C17_add_injection (p : Proc P) (d : P) (hk : p.kind ≠ .physical) :
    ((∃ x ∈ p.injection, eq x d = true) → p.addInjection eq d = (.throws .runtimeError, p)) ∧
    ((∀ x ∈ p.injection, eq x d = false) →
      p.addInjection eq d = (.ok (), { p with injection := p.injection ++ [d], physical := p.physical ++ [d] })) := by
  obtain ⟨kind, inj, phys⟩ := p
  have hn : (∀ x ∈ inj, eq x d = false) → ¬ (inj.any fun x => eq x d) = true := by
    intro h ha
    obtain ⟨x, hx, he⟩ := List.any_eq_true.1 ha
    rw [h x hx] at he
    cases he
  constructor
  · rintro ⟨x, hx, he⟩
    cases kind
    · exact absurd rfl hk
    all_goals
      simp only [Proc.addInjection]
      rw [if_pos (List.any_eq_true.2 ⟨x, hx, he⟩)]
  · intro h
    cases kind
    · exact absurd rfl hk
    all_goals
      simp only [Proc.addInjection]
      rw [if_neg (hn h)]

/-- The calls of the injection interface. -/
def ProcCall.NotSetPhysical : ProcCall P → Prop
  | .setPhysical _ => False
  | _ => True

/-- C17. With setters too, as long as the physical distributions of an injection process are not set directly: no object
occurs twice, and the physical distributions are exactly the injection distributions. -/
theorem C17_set_history (hr : ∀ d, eq d d = true) (kind : Kind) (hk : kind ≠ .physical) (calls : List (ProcCall P))
    (hc : ∀ c ∈ calls, c.NotSetPhysical) :
    let p := (⟨kind, [], []⟩ : Proc P).run eq calls
    p.injection.Nodup ∧ p.physical = p.injection := by
  intro p
  suffices H : ∀ (calls : List (ProcCall P)), (∀ c ∈ calls, c.NotSetPhysical) → ∀ p : Proc P, p.kind = kind → p.injection.Nodup →
      p.physical = p.injection → (p.run eq calls).injection.Nodup ∧ (p.run eq calls).physical = (p.run eq calls).injection from
    H calls hc _ rfl (by simp) rfl
  clear p hc calls
  intro calls
  induction calls with
  | nil => intro _ p _ h1 h2; exact ⟨h1, h2⟩
  | cons c calls ih =>
    intro hc p hp h1 h2
    have ih := ih fun c h => hc c (List.mem_cons_of_mem _ h)
    have hc := hc c List.mem_cons_self
    simp only [Proc.run, List.foldl_cons]
    have hstep : (p.call eq c).2.kind = kind ∧ (p.call eq c).2.injection.Nodup ∧
        (p.call eq c).2.physical = (p.call eq c).2.injection := by
      obtain ⟨k, inj, phys⟩ := p
      simp only at hp h1 h2
      subst hp h2
      have hadd : ∀ d, ¬ (phys.any fun x => eq x d) = true → (phys ++ [d]).Nodup := by
        intro d hd
        rw [List.nodup_append]
        refine ⟨h1, by simp, fun a ha b hb => ?_⟩
        rw [List.mem_singleton] at hb
        rintro rfl
        subst hb
        exact hd (List.any_eq_true.2 ⟨a, ha, hr a⟩)
      cases c with
      | setPhysical => exact hc.elim
      | addPhysical d => cases k <;> first | exact absurd rfl hk | exact ⟨rfl, h1, rfl⟩
      | addInjection d =>
        cases k
        · exact absurd rfl hk
        all_goals
          simp only [Proc.call, Proc.addInjection]
          split
          · exact ⟨rfl, h1, rfl⟩
          · rename_i hd
            exact ⟨rfl, hadd d hd, rfl⟩
      | setInjection ds =>
        cases k
        · exact absurd rfl hk
        all_goals
          simp only [Proc.call, Proc.setInjection]
          split
          · exact ⟨rfl, h1, rfl⟩
          · rename_i hd
            exact ⟨rfl, (repeats_iff ds).1 (by simpa using hd), rfl⟩
    exact ih _ hstep.1 hstep.2.1 hstep.2.2

/-- C17. The setters throw, without effect, exactly when the same object is listed twice. -/
theorem C17_set (p : Proc P) (ds : List P) :
    (ds.Nodup → p.setPhysical ds = (.ok (), { p with physical := ds }) ∧
      (p.kind ≠ .physical → p.setInjection ds = (.ok (), { p with injection := ds, physical := ds }))) ∧
    (¬ ds.Nodup → p.setPhysical ds = (.throws .runtimeError, p) ∧
      (p.kind ≠ .physical → p.setInjection ds = (.throws .runtimeError, p))) := by
  obtain ⟨kind, inj, phys⟩ := p
  unfold Proc.setPhysical Proc.setInjection
  constructor
  · intro h
    have h := (repeats_iff ds).2 h
    refine ⟨by simp [h], ?_⟩
    cases kind <;> simp [h]
  · intro h
    rw [← repeats_iff] at h
    simp only [Bool.not_eq_false] at h
    refine ⟨by simp [h], ?_⟩
    cases kind <;> simp [h]

end

/-- C17 does not extend to the setters: two distinct objects that compare equal are accepted. -/
theorem C17_set_duplicates_fails : ∃ (eq : Nat → Nat → Bool) (p : Proc Nat), (∀ d, eq d d = true) ∧
    p = (⟨.primary, [], []⟩ : Proc Nat).run eq [.setInjection [1, 2]] ∧ ¬ p.injection.Pairwise (fun a b => eq a b = false) :=
  ⟨fun _ _ => true, ⟨.primary, [1, 2], [1, 2]⟩, fun _ => rfl, rfl, by simp⟩

/-- C17: setting the physical distributions of an injection process directly loses its injection distributions, although
adding to them is forbidden. -/
theorem C17_set_physical_fails : ∃ (p : Proc Nat),
    p = (⟨.primary, [], []⟩ : Proc Nat).run (fun a b => a == b) [.addInjection 1, .setPhysical []] ∧ p.kind = .primary ∧
      1 ∈ p.injection ∧ 1 ∉ p.physical :=
  ⟨⟨.primary, [1], []⟩, rfl, rfl, by simp, by simp⟩

/-- Distributions are compared, not pointers, when one is added: 2 and 12 are different objects but equal. -/
example : (⟨.secondary, [], []⟩ : Proc Nat).run (fun a b => a % 10 == b % 10)
    [.addInjection 2, .addInjection 3, .addInjection 12, .addPhysical 5] = ⟨.secondary, [2, 3], [2, 3]⟩ := rfl

/-! ## The registry -/

section
variable {Q V : Type} [DecidableEq Q] (vertex : Q → Option V)

/-- The registered processes, each with the type it had when it was registered: a setter replaces the list, the other calls
extend it. The first component is the present type of the process objects. -/
def held (typeOf : Q → Int) (calls : List (RegCall Q)) : (Q → Int) × List (Int × Q) :=
  calls.foldl (fun s c => match c with
    | .add q => (s.1, s.2 ++ [(s.1 q, q)])
    | .set qs => (s.1, qs.map fun q => (s.1 q, q))
    | .load qs => (s.1, s.2 ++ qs.map fun q => (s.1 q, q))
    | .retype q t => (fun x => if x = q then t else s.1 x, s.2)) (typeOf, [])

/-- The processes a call registers. -/
def RegCall.registers : RegCall Q → List Q
  | .add q => [q]
  | .set qs => qs
  | .load qs => qs
  | .retype _ _ => []

theorem insertFirst_spec {W : Type} (m : List (Int × W)) (k : Int) (v : W) (l : List (Int × W))
    (h : ∀ t, lookupMap m t = lookupMap l t) (t : Int) : lookupMap (insertFirst m k v) t = lookupMap (l ++ [(k, v)]) t := by
  unfold insertFirst
  have hl := h t
  unfold lookupMap at *
  rw [List.find?_append]
  by_cases hm : (m.any fun e => e.1 = k) = true
  · rw [if_pos hm, hl]
    cases hf : l.find? fun e => decide (e.1 = t) with
    | some e => rfl
    | none =>
      rw [hf] at hl
      have : k ≠ t := by
        rintro rfl
        have hn : (m.find? fun e => decide (e.1 = k)) = none := by simpa using hl
        obtain ⟨x, hx, he⟩ := List.any_eq_true.1 hm
        exact (List.find?_eq_none.1 hn) x hx he
      simp [this]
  · rw [if_neg hm, List.find?_append]
    cases hf : l.find? fun e => decide (e.1 = t) with
    | some e =>
      rw [hf] at hl
      cases hg : m.find? fun e => decide (e.1 = t) with
      | none => rw [hg] at hl; simp at hl
      | some x => rw [hg] at hl; simpa using hl
    | none =>
      rw [hf] at hl
      have hn : (m.find? fun e => decide (e.1 = t)) = none := by simpa using hl
      rw [hn]

/-- The registry holds the list `l` of processes with the types they were registered under. -/
structure Holds (r : Registry Q V) (l : List (Int × Q)) : Prop where
  processes : r.processes = l.map Prod.snd
  positions : r.positions.map some = l.map fun e => vertex e.2
  map : ∀ t, lookupMap r.processMap t = lookupMap l t
  positionMap : ∀ t, lookupMap r.positionMap t = (lookupMap l t).bind vertex

omit [DecidableEq Q] in
theorem lookup_vertex (l : List (Int × Q)) (k : Int) (q : Q) (v : V) (hv : vertex q = some v) (m : List (Int × V))
    (h : ∀ t, lookupMap m t = (lookupMap l t).bind vertex) (hl : ∀ e ∈ l, (vertex e.2).isSome) (t : Int) :
    lookupMap (insertFirst m k v) t = (lookupMap (l ++ [(k, q)]) t).bind vertex := by
  have key : ∀ (l : List (Int × Q)), (∀ e ∈ l, (vertex e.2).isSome) → ∀ t,
      lookupMap (l.filterMap fun e => (vertex e.2).map fun v => (e.1, v)) t = (lookupMap l t).bind vertex := by
    intro l
    induction l with
    | nil => intro _ t; rfl
    | cons e l ih =>
      intro hl t
      have ih := ih fun e h => hl e (List.mem_cons_of_mem _ h)
      obtain ⟨w, hw⟩ := Option.isSome_iff_exists.1 (hl e List.mem_cons_self)
      simp only [List.filterMap_cons, hw, Option.map_some]
      unfold lookupMap at *
      by_cases he : e.1 = t
      · simp [he, hw]
      · simp only [List.find?_cons, he, decide_false]
        exact ih t
  rw [insertFirst_spec m k v (l.filterMap fun e => (vertex e.2).map fun v => (e.1, v)) (fun t => by rw [h, key l hl])]
  rw [← key (l ++ [(k, q)])]
  · simp [hv]
  · intro e he
    rcases List.mem_append.1 he with he | he
    · exact hl e he
    · rw [List.mem_singleton] at he
      subst he
      simp [hv]

omit [DecidableEq Q] in
theorem add_holds {r : Registry Q V} {l : List (Int × Q)} (h : Holds vertex r l) (hl : ∀ e ∈ l, (vertex e.2).isSome) (q : Q)
    (hq : (vertex q).isSome) : ∃ r', r.add vertex q = some r' ∧ r'.typeOf = r.typeOf ∧ Holds vertex r' (l ++ [(r.typeOf q, q)]) := by
  obtain ⟨v, hv⟩ := Option.isSome_iff_exists.1 hq
  simp only [Registry.add, hv]
  refine ⟨_, rfl, rfl, ?_, ?_, ?_, ?_⟩
  · simp [h.processes]
  · simp [h.positions, hv]
  · exact insertFirst_spec _ _ _ _ h.map
  · exact lookup_vertex vertex l _ q v hv _ h.positionMap hl

omit [DecidableEq Q] in
theorem addAll_holds (qs : List Q) (hq : ∀ q ∈ qs, (vertex q).isSome) : ∀ {r : Registry Q V} {l : List (Int × Q)},
    Holds vertex r l → (∀ e ∈ l, (vertex e.2).isSome) →
    ∃ r', r.addAll vertex qs = some r' ∧ r'.typeOf = r.typeOf ∧ Holds vertex r' (l ++ qs.map fun q => (r.typeOf q, q)) := by
  induction qs with
  | nil => intro r l h _; exact ⟨r, rfl, rfl, by simpa using h⟩
  | cons q qs ih =>
    intro r l h hl
    have hq0 := hq q List.mem_cons_self
    obtain ⟨r1, h1, ht, hr1⟩ := add_holds vertex h hl q hq0
    obtain ⟨r2, h2, ht2, hr2⟩ := ih (fun q h => hq q (List.mem_cons_of_mem _ h)) hr1 (by
      intro e he
      rcases List.mem_append.1 he with he | he
      · exact hl e he
      · rw [List.mem_singleton] at he
        subst he
        exact hq0)
    refine ⟨r2, ?_, ht2.trans ht, ?_⟩
    · simp [Registry.addAll, h1, h2]
    · simpa [ht] using hr2

/-- C16. After any history of calls that register processes with a vertex distribution: the registered processes are those
since the last `SetSecondaryProcesses`, in order; the process used for a particle type is the first of them that had this type
when it was registered; and the vertex distribution used is that process's. -/
theorem C16_registry (typeOf : Q → Int) (calls : List (RegCall Q)) (hv : ∀ c ∈ calls, ∀ q ∈ c.registers, (vertex q).isSome) :
    ∃ r, (⟨typeOf, [], [], [], []⟩ : Registry Q V).run vertex calls = some r ∧
      r.typeOf = (held typeOf calls).1 ∧
      r.processes = (held typeOf calls).2.map Prod.snd ∧
      (∀ t, lookupMap r.processMap t = ((held typeOf calls).2.find? fun e => e.1 = t).map Prod.snd) ∧
      (∀ t, lookupMap r.positionMap t = (((held typeOf calls).2.find? fun e => e.1 = t).map Prod.snd).bind vertex) := by
  suffices H : ∃ r, (⟨typeOf, [], [], [], []⟩ : Registry Q V).run vertex calls = some r ∧
      r.typeOf = (held typeOf calls).1 ∧ Holds vertex r (held typeOf calls).2 ∧ ∀ e ∈ (held typeOf calls).2, (vertex e.2).isSome by
    obtain ⟨r, h1, h2, h3, -⟩ := H
    exact ⟨r, h1, h2, h3.processes, h3.map, h3.positionMap⟩
  induction calls using List.reverseRecOn with
  | nil =>
    exact ⟨_, rfl, rfl, ⟨rfl, rfl, fun _ => rfl, fun _ => rfl⟩, by simp [held]⟩
  | append_singleton calls c ih =>
    obtain ⟨r, h1, h2, h3, h4⟩ := ih fun c hc => hv c (List.mem_append_left _ hc)
    have hc := hv c (by simp)
    simp only [Registry.run, held, List.foldl_append, List.foldl_cons, List.foldl_nil] at *
    rw [h1]
    generalize List.foldl (fun (s : (Q → Int) × List (Int × Q)) (c : RegCall Q) => match c with
      | .add q => (s.1, s.2 ++ [(s.1 q, q)])
      | .set qs => (s.1, qs.map fun q => (s.1 q, q))
      | .load qs => (s.1, s.2 ++ qs.map fun q => (s.1 q, q))
      | .retype q t => (fun x => if x = q then t else s.1 x, s.2)) (typeOf, []) calls = s at *
    obtain ⟨types, l⟩ := s
    simp only at h2 h3 h4 ⊢
    subst h2
    cases c with
    | add q =>
      obtain ⟨r', a, b, d⟩ := add_holds vertex h3 h4 q (hc q (by simp [RegCall.registers]))
      refine ⟨r', by simpa [Registry.call] using a, b, d, ?_⟩
      intro e he
      rcases List.mem_append.1 he with he | he
      · exact h4 e he
      · rw [List.mem_singleton] at he
        subst he
        exact hc q (by simp [RegCall.registers])
    | set qs =>
      obtain ⟨r', a, b, d⟩ := addAll_holds vertex qs (fun q hq => hc q (by simpa [RegCall.registers] using hq))
        (r := ⟨r.typeOf, [], [], [], []⟩) (l := []) ⟨rfl, rfl, fun _ => rfl, fun _ => rfl⟩ (by simp)
      refine ⟨r', by simpa [Registry.call, Registry.set] using a, b, by simpa using d, ?_⟩
      intro e he
      obtain ⟨q, hq, rfl⟩ := List.mem_map.1 he
      exact hc q (by simpa [RegCall.registers] using hq)
    | load qs =>
      obtain ⟨r', a, b, d⟩ := addAll_holds vertex qs (fun q hq => hc q (by simpa [RegCall.registers] using hq)) h3 h4
      refine ⟨r', by simpa [Registry.call] using a, b, d, ?_⟩
      intro e he
      rcases List.mem_append.1 he with he | he
      · exact h4 e he
      · obtain ⟨q, hq, rfl⟩ := List.mem_map.1 he
        exact hc q (by simpa [RegCall.registers] using hq)
    | retype q t =>
      exact ⟨_, rfl, rfl, ⟨h3.processes, h3.positions, h3.map, h3.positionMap⟩, h4⟩

/-- C16. Setting the registry forgets everything registered before. -/
theorem C16_set_replaces (typeOf : Q → Int) (calls : List (RegCall Q)) (qs : List Q)
    (hv : ∀ c ∈ calls ++ [.set qs], ∀ q ∈ c.registers, (vertex q).isSome) :
    ∃ r, (⟨typeOf, [], [], [], []⟩ : Registry Q V).run vertex (calls ++ [.set qs]) = some r ∧ r.processes = qs ∧
      (∀ t, lookupMap r.processMap t = qs.find? fun q => (r.typeOf q) = t) ∧
      (∀ t, lookupMap r.positionMap t = (qs.find? fun q => (r.typeOf q) = t).bind vertex) := by
  obtain ⟨r, h1, h2, h3, h4, h5⟩ := C16_registry vertex typeOf (calls ++ [.set qs]) hv
  have hh : held typeOf (calls ++ [.set qs]) = ((held typeOf calls).1, qs.map fun q => ((held typeOf calls).1 q, q)) := by
    simp [held, List.foldl_append]
  have hf : ∀ (f : Q → Int) t, ((qs.map fun q => (f q, q)).find? fun e => e.1 = t).map Prod.snd = qs.find? fun q => f q = t := by
    intro f t
    rw [List.find?_map, Option.map_map]
    simp [Function.comp_def]
  rw [hh] at h2 h3 h4 h5
  refine ⟨r, h1, by simpa [Function.comp_def] using h3, fun t => ?_, fun t => ?_⟩
  · rw [h4, hf, h2]
  · rw [h5, hf, h2]

omit [DecidableEq Q] in
/-- C16. A process without a vertex distribution ends the program. -/
theorem C16_no_vertex (r : Registry Q V) (q : Q) (h : vertex q = none) : r.add vertex q = none := by
  simp [Registry.add, h]

end

/-- C16 and loading: loading an archive into an injector that already has secondary processes keeps the old ones, and the old
one is used for a type that both have. -/
theorem C16_load_fails : ∃ r : Registry Nat Nat,
    (⟨fun _ => 13, [], [], [], []⟩ : Registry Nat Nat).run some [.add 1, .load [2]] = some r ∧
      r.processes ≠ [2] ∧ lookupMap r.processMap 13 = some 1 :=
  ⟨⟨fun _ => 13, [1, 2], [1, 2], [(13, 1)], [(13, 1)]⟩, rfl, by simp, rfl⟩

/-- C16 and the present type: changing the type of a registered process does not move it to the new type. -/
theorem C16_retype_fails : ∃ r : Registry Nat Nat,
    (⟨fun _ => 13, [], [], [], []⟩ : Registry Nat Nat).run some [.set [1], .retype 1 15] = some r ∧
      r.typeOf 1 = 15 ∧ lookupMap r.processMap 15 = none ∧ lookupMap r.processMap 13 = some 1 :=
  ⟨_, rfl, rfl, rfl, rfl⟩

/-- Two processes of the same type: the first is used. -/
example : ∃ r : Registry Nat Nat,
    (⟨fun n => (n : Int) % 10, [], [], [], []⟩ : Registry Nat Nat).run some [.add 7, .set [11, 2, 21], .add 3] = some r ∧
      r.processes = [11, 2, 21, 3] ∧ lookupMap r.processMap 1 = some 11 ∧ lookupMap r.processMap 3 = some 3 ∧
      lookupMap r.processMap 7 = none :=
  ⟨_, rfl, by decide, by decide, by decide, by decide⟩

end Siren.Injection
