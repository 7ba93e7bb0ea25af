import Verif.Injection.WeightModel
import Mathlib.Algebra.BigOperators.Group.List.Basic
import Mathlib.Algebra.BigOperators.Ring.List
import Mathlib.Data.List.Perm.Basic
import Mathlib.Tactic.FieldSimp
import Mathlib.Tactic.Ring
import Mathlib.Tactic.Linarith
import Mathlib.Tactic.NormNum

set_option autoImplicit false

/-!
# The event weight formula
-/

namespace Siren.Injection

open Siren

section
variable {P I R B : Type}

/-! ## Specification: nothing is cancelled -/

/-- The generation density of an interaction: the channel probability times the density of every injection distribution. -/
noncomputable def fullGeneration (e : Densities P I R B) (inj : WProc P I) (r : R) : ℝ :=
  e.channel inj.interactions r * (inj.distributions.map fun d => e.density d inj.interactions r).prod

/-- The physical density of an interaction: interaction probability, position density, channel probability, the density of
every physical distribution, and every normalization that is set. -/
noncomputable def fullPhysical (e : Densities P I R B) (phys inj : WProc P I) (r : R) : ℝ :=
  (phys.distributions.filterMap e.norm).prod *
    (e.interaction (e.bounds inj r) phys.interactions r * e.position (e.bounds inj r) phys.interactions r *
      e.channel phys.interactions r * (phys.distributions.map fun d => e.density d phys.interactions r).prod)

/-- The physical process responsible for a node of the event. -/
def physFor (primary : WProc P I) (secondary : List (WProc P I)) (n : WNode R) : Option (WProc P I) :=
  if n.root then some primary else secondary.find? fun p => p.type = n.type

/-- The injection process of an injector responsible for a node of the event. -/
def injFor (inj : WInj P I) (n : WNode R) : Option (WProc P I) :=
  if n.root then some inj.primary else (inj.secondaries.find? fun e => e.1 = n.type).map Prod.snd

/-- The product of `f phys inj record` over the nodes of the event. -/
noncomputable def overNodes (primary : WProc P I) (secondary : List (WProc P I)) (inj : WInj P I)
    (f : WProc P I → WProc P I → R → ℝ) (tree : List (WNode R)) : ℝ :=
  (tree.map fun n => match physFor primary secondary n, injFor inj n with
    | some p, some g => f p g n.record
    | _, _ => 1).prod

/-- `N_i * prod generation / prod physical`. -/
noncomputable def invTerm (e : Densities P I R B) (primary : WProc P I) (secondary : List (WProc P I)) (tree : List (WNode R))
    (inj : WInj P I) : ℝ :=
  inj.events * overNodes primary secondary inj (fun _ g r => fullGeneration e g r) tree /
    overNodes primary secondary inj (fullPhysical e) tree

/-- The injector has exactly one secondary process for each secondary physical process. -/
def Matches (secondary : List (WProc P I)) (inj : WInj P I) : Prop :=
  (secondary.map WProc.type).Nodup ∧ (secondary.map WProc.type).Perm (inj.secondaries.map Prod.fst)

/-- Distributions listed on both sides give the same, non-zero density for the record. -/
def SharedAgree (e : Densities P I R B) (phys inj : WProc P I) (r : R) : Prop :=
  ∀ d ∈ inj.distributions, d ∈ phys.distributions →
    e.density d inj.interactions r = e.density d phys.interactions r ∧ e.density d phys.interactions r ≠ 0

/-! ## Cancellation -/

variable [DecidableEq P]

theorem eraseLast_perm (l : List P) (a : P) (h : a ∈ l) : l.Perm (a :: eraseLast l a) := by
  unfold eraseLast
  have h1 := List.perm_cons_erase (List.mem_reverse.2 h)
  exact (List.reverse_perm l).symm.trans (h1.trans ((List.reverse_perm _).symm.cons a))

theorem cancel_perm (gen : List P) : ∀ phys : List P, ∃ common : List P,
    gen.Perm ((cancel gen phys).1 ++ common) ∧ phys.Perm ((cancel gen phys).2 ++ common) := by
  induction gen with
  | nil => intro phys; exact ⟨[], by simp [cancel], by simp [cancel]⟩
  | cons g rest ih =>
    intro phys
    by_cases hg : g ∈ phys
    · obtain ⟨c, h1, h2⟩ := ih (eraseLast phys g)
      refine ⟨g :: c, ?_, ?_⟩
      · rw [cancel, if_pos hg]
        exact (h1.cons g).trans List.perm_middle.symm
      · rw [cancel, if_pos hg]
        exact ((eraseLast_perm phys g hg).trans (h2.cons g)).trans List.perm_middle.symm
    · obtain ⟨c, h1, h2⟩ := ih phys
      refine ⟨c, ?_, ?_⟩
      · rw [cancel, if_neg hg]
        simp only [List.append_assoc, List.singleton_append]
        exact (h1.cons g).trans List.perm_middle.symm
      · rw [cancel, if_neg hg]
        exact h2

theorem foldl_mul_eq {α : Type} (f : α → ℝ) (l : List α) : ∀ a : ℝ,
    l.foldl (fun p d => p * f d) a = a * (l.map f).prod := by
  induction l with
  | nil => intro a; simp
  | cons x l ih => intro a; rw [List.foldl_cons, ih, List.map_cons, List.prod_cons]; ring

omit [DecidableEq P] in
theorem foldl_norm_eq (f : P → Option ℝ) (l : List P) : ∀ a : ℝ,
    l.foldl (fun n d => match f d with | some x => n * x | none => n) a = a * (l.filterMap f).prod := by
  induction l with
  | nil => intro a; simp
  | cons x l ih =>
    intro a
    rw [List.foldl_cons, ih]
    cases h : f x with
    | none => rw [List.filterMap_cons_none h]
    | some y => rw [List.filterMap_cons_some h, List.prod_cons]; ring

/-- The cancelled factor is the same in the generation and the physical density of a node. -/
theorem make_factor (e : Densities P I R B) (phys inj : WProc P I) (r : R) (h : SharedAgree e phys inj r) :
    ∃ c : ℝ, c ≠ 0 ∧
      fullGeneration e inj r = (ProcWeighter.make e phys inj).generationProbability e r * c ∧
      fullPhysical e phys inj r = (ProcWeighter.make e phys inj).physicalProbability e (e.bounds inj r) r * c := by
  obtain ⟨common, hg, hp⟩ := cancel_perm inj.distributions.reverse phys.distributions
  have hg' := (List.reverse_perm inj.distributions).symm.trans hg
  have hin : ∀ d ∈ common, d ∈ inj.distributions ∧ d ∈ phys.distributions := fun d hd =>
    ⟨hg'.mem_iff.2 (List.mem_append_right _ hd), hp.mem_iff.2 (List.mem_append_right _ hd)⟩
  have hsame : (common.map fun d => e.density d inj.interactions r) = common.map fun d => e.density d phys.interactions r :=
    List.map_congr_left fun d hd => (h d (hin d hd).1 (hin d hd).2).1
  refine ⟨(common.map fun d => e.density d phys.interactions r).prod, ?_, ?_, ?_⟩
  · intro h0
    obtain ⟨d, hd, h0⟩ := List.mem_map.1 (List.prod_eq_zero_iff.1 h0)
    exact (h d (hin d hd).1 (hin d hd).2).2 h0
  · have hprod := (hg'.map fun d => e.density d inj.interactions r).prod_eq
    rw [List.map_append, List.prod_append, hsame] at hprod
    rw [fullGeneration, hprod, ProcWeighter.generationProbability, foldl_mul_eq]
    simp only [ProcWeighter.make]
    ring
  · have hprod := (hp.map fun d => e.density d phys.interactions r).prod_eq
    rw [List.map_append, List.prod_append] at hprod
    rw [fullPhysical, hprod, ProcWeighter.physicalProbability, foldl_mul_eq]
    have hn : (ProcWeighter.make e phys inj).normalization = (phys.distributions.filterMap e.norm).prod := by
      have := foldl_norm_eq e.norm phys.distributions 1
      rw [one_mul] at this
      exact this
    rw [hn]
    simp only [ProcWeighter.make]
    ring

/-! ## Initialization -/

/-- The injection process of an injector for a secondary physical process. -/
def secOf (inj : WInj P I) (p : WProc P I) : WProc P I := (mapAt inj.secondaries p.type).getD inj.primary

noncomputable def secMap (e : Densities P I R B) (secondary : List (WProc P I)) (inj : WInj P I) :
    List (Int × ProcWeighter P I) := secondary.map fun p => (p.type, ProcWeighter.make e p (secOf inj p))

omit [DecidableEq P] in
theorem mapAt_isSome {V : Type} (m : List (Int × V)) (k : Int) (h : k ∈ m.map Prod.fst) : ∃ v, mapAt m k = some v := by
  obtain ⟨x, hx, hk⟩ := List.mem_map.1 h
  cases hf : m.find? (fun e => e.1 = k) with
  | none => exact absurd (List.find?_eq_none.1 hf x hx) (by simp [hk])
  | some y => exact ⟨y.2, by simp [mapAt, hf]⟩

omit [DecidableEq P] in
theorem mapAt_none {V : Type} (m : List (Int × V)) (k : Int) (h : k ∉ m.map Prod.fst) : mapAt m k = none := by
  have : m.find? (fun e => e.1 = k) = none := by
    refine List.find?_eq_none.2 fun x hx hk => h ?_
    exact List.mem_map.2 ⟨x, hx, by simpa using hk⟩
  simp [mapAt, this]

theorem secondaryMap_eq (e : Densities P I R B) (inj : WInj P I) (ps : List (WProc P I)) :
    ∀ acc : List (Int × ProcWeighter P I), (acc.map Prod.fst ++ ps.map WProc.type).Nodup →
    (∀ p ∈ ps, p.type ∈ inj.secondaries.map Prod.fst) →
    secondaryMap e inj.secondaries ps acc = some (acc ++ secMap e ps inj) := by
  induction ps with
  | nil => intro acc _ _; simp [secondaryMap, secMap]
  | cons p ps ih =>
    intro acc hnd hin
    obtain ⟨v, hv⟩ := mapAt_isSome inj.secondaries p.type (hin p (by simp))
    have hnot : ¬ (acc.any fun e => e.1 = p.type) = true := by
      intro h
      obtain ⟨x, hx, hxp⟩ := List.any_eq_true.1 h
      have hd := (List.nodup_append.1 hnd).2.2 x.1 (List.mem_map_of_mem hx) p.type (by simp)
      exact hd (by simpa using hxp)
    have hset : mapSet acc p.type (ProcWeighter.make e p v) = acc ++ [(p.type, ProcWeighter.make e p v)] := by
      unfold mapSet; rw [if_neg hnot]
    have hsec : secOf inj p = v := by simp [secOf, hv]
    simp only [secondaryMap, hv, hset]
    rw [ih _ (by simpa using hnd) fun q hq => hin q (List.mem_cons_of_mem _ hq)]
    simp [secMap, hsec]

theorem initialize_eq (e : Densities P I R B) (all : List (WInj P I)) (primary : WProc P I) (secondary : List (WProc P I))
    (injs : List (WInj P I)) : ∀ w : Weighter P I, (∀ inj ∈ injs, Matches secondary inj) →
    Weighter.initialize e all primary secondary injs w =
      ⟨w.injectors, w.primaries ++ injs.map fun inj => ProcWeighter.make e primary inj.primary,
        w.secondaries ++ injs.map fun inj => secMap e secondary inj⟩ := by
  induction injs with
  | nil => intro w _; simp [Weighter.initialize]
  | cons inj injs ih =>
    intro w h
    obtain ⟨hnd, hperm⟩ := h inj (by simp)
    have hm := secondaryMap_eq e inj secondary [] (by simpa using hnd) fun p hp =>
      hperm.mem_iff.1 (List.mem_map_of_mem hp)
    have hlen : ¬ (secMap e secondary inj).length ≠ inj.secondaries.length := by
      have := hperm.length_eq
      simp only [List.length_map] at this
      simp [secMap, this]
    simp only [Weighter.initialize, hm, List.nil_append, if_neg hlen]
    rw [ih _ fun x hx => h x (List.mem_cons_of_mem _ hx)]
    simp

theorem make_eq (e : Densities P I R B) (injectors : List (WInj P I)) (primary : WProc P I) (secondary : List (WProc P I))
    (h : ∀ inj ∈ injectors, Matches secondary inj) :
    Weighter.make e injectors primary secondary =
      ⟨injectors, injectors.map fun inj => ProcWeighter.make e primary inj.primary,
        injectors.map fun inj => secMap e secondary inj⟩ := by
  rw [Weighter.make, initialize_eq e _ _ _ _ _ h]; rfl

theorem mapAt_secMap (e : Densities P I R B) (secondary : List (WProc P I)) (inj : WInj P I) (t : Int) :
    mapAt (secMap e secondary inj) t =
      (secondary.find? fun p => p.type = t).map fun p => ProcWeighter.make e p (secOf inj p) := by
  simp only [mapAt, secMap, List.find?_map, Option.map_map]
  rfl

/-! ## The loops -/

theorem nodeLoop_eq (e : Densities P I R B) (w : Weighter P I) (primary : WProc P I) (secondary : List (WProc P I))
    (i : Nat) (inj : WInj P I)
    (hprim : w.primaries[i]? = some (ProcWeighter.make e primary inj.primary))
    (hsec : w.secondaries[i]? = some (secMap e secondary inj)) (hmatch : Matches secondary inj) (tree : List (WNode R)) :
    ∀ acc : ℝ × ℝ, (∀ n ∈ tree, n.root = false → n.type ∈ secondary.map WProc.type) →
    (∀ n ∈ tree, ∀ p g, physFor primary secondary n = some p → injFor inj n = some g → SharedAgree e p g n.record) →
    ∃ c : ℝ, c ≠ 0 ∧ nodeLoop e w i inj tree acc =
      .ok (some (acc.1 * overNodes primary secondary inj (fun _ g r => fullGeneration e g r) tree / c,
        acc.2 * overNodes primary secondary inj (fullPhysical e) tree / c)) := by
  induction tree with
  | nil => intro acc _ _; exact ⟨1, one_ne_zero, by simp [nodeLoop, overNodes]⟩
  | cons n rest ih =>
    intro acc hreg hshared
    have ih' := fun acc => ih acc (fun m hm => hreg m (List.mem_cons_of_mem _ hm))
      (fun m hm => hshared m (List.mem_cons_of_mem _ hm))
    -- the processes responsible for the node
    have key : ∀ p g : WProc P I, physFor primary secondary n = some p → injFor inj n = some g →
        (∀ acc : ℝ × ℝ, nodeLoop e w i inj (n :: rest) acc = nodeLoop e w i inj rest
          (acc.1 * (ProcWeighter.make e p g).generationProbability e n.record,
            acc.2 * (ProcWeighter.make e p g).physicalProbability e (e.bounds g n.record) n.record)) →
        ∃ c : ℝ, c ≠ 0 ∧ nodeLoop e w i inj (n :: rest) acc =
          .ok (some (acc.1 * overNodes primary secondary inj (fun _ g r => fullGeneration e g r) (n :: rest) / c,
            acc.2 * overNodes primary secondary inj (fullPhysical e) (n :: rest) / c)) := by
      intro p g hp hg hstep
      obtain ⟨c, hc, hcg, hcp⟩ := make_factor e p g n.record (hshared n (by simp) p g hp hg)
      obtain ⟨c', hc', hrest⟩ := ih' (acc.1 * (ProcWeighter.make e p g).generationProbability e n.record,
            acc.2 * (ProcWeighter.make e p g).physicalProbability e (e.bounds g n.record) n.record)
      refine ⟨c * c', mul_ne_zero hc hc', ?_⟩
      rw [hstep, hrest]
      have h1 : overNodes primary secondary inj (fun _ g r => fullGeneration e g r) (n :: rest) =
          (ProcWeighter.make e p g).generationProbability e n.record * c *
            overNodes primary secondary inj (fun _ g r => fullGeneration e g r) rest := by
        rw [← hcg]
        simp only [overNodes, List.map_cons, List.prod_cons, hp, hg]
      have h2 : overNodes primary secondary inj (fullPhysical e) (n :: rest) =
          (ProcWeighter.make e p g).physicalProbability e (e.bounds g n.record) n.record * c *
            overNodes primary secondary inj (fullPhysical e) rest := by
        rw [← hcp]
        simp only [overNodes, List.map_cons, List.prod_cons, hp, hg]
      rw [h1, h2]
      congr 3
      · field_simp
      · field_simp
    cases hroot : n.root with
    | true =>
      refine key primary inj.primary (by simp [physFor, hroot]) (by simp [injFor, hroot]) fun acc => ?_
      simp only [nodeLoop, hroot, if_true, hprim]
    | false =>
      have hreg' := hreg n (by simp) hroot
      obtain ⟨g, hg⟩ := mapAt_isSome inj.secondaries n.type (hmatch.2.mem_iff.1 hreg')
      obtain ⟨q, hq, hqt⟩ := List.mem_map.1 hreg'
      cases hf : secondary.find? (fun p => p.type = n.type) with
      | none => exact absurd (List.find?_eq_none.1 hf q hq) (by simp [hqt])
      | some p =>
        have hpt : p.type = n.type := by simpa using List.find?_some hf
        have hso : secOf inj p = g := by simp [secOf, hpt, hg]
        refine key p g (by simp [physFor, hroot, hf]) (by simpa [injFor, hroot, mapAt] using hg) fun acc => ?_
        have hm : mapAt (secMap e secondary inj) n.type = some (ProcWeighter.make e p g) := by
          rw [mapAt_secMap, hf, Option.map_some, hso]
        simp only [nodeLoop, hroot, Bool.false_eq_true, if_false, hg, hsec, hm]

/-- The value added for each injector. -/
theorem injectorLoop_eq (e : Densities P I R B) (primary : WProc P I) (secondary : List (WProc P I)) (tree : List (WNode R))
    (injectors : List (WInj P I)) (w : Weighter P I)
    (hw : w = ⟨injectors, injectors.map fun inj => ProcWeighter.make e primary inj.primary,
        injectors.map fun inj => secMap e secondary inj⟩)
    (hreg : ∀ n ∈ tree, n.root = false → n.type ∈ secondary.map WProc.type) (rest : List (WInj P I)) :
    ∀ (pre : List (WInj P I)) (inv : Flt), injectors = pre ++ rest → (∀ inj ∈ rest, Matches secondary inj) →
    (∀ inj ∈ rest, ∀ n ∈ tree, ∀ p g, physFor primary secondary n = some p → injFor inj n = some g →
      SharedAgree e p g n.record) →
    injectorLoop e w tree pre.length rest inv = .ok (rest.foldl (fun inv inj => inv.add
      (Flt.quot (inj.events * overNodes primary secondary inj (fun _ g r => fullGeneration e g r) tree)
        (overNodes primary secondary inj (fullPhysical e) tree))) inv).inv := by
  induction rest with
  | nil => intro pre inv _ _ _; rfl
  | cons inj rest ih =>
    intro pre inv hpre hmatch hshared
    have hat : injectors[pre.length]? = some inj := by rw [hpre]; simp
    obtain ⟨c, hc, hloop⟩ := nodeLoop_eq e w primary secondary pre.length inj
      (by rw [hw]; simp [hat]) (by rw [hw]; simp [hat]) (hmatch inj (by simp)) tree (inj.events, 1) hreg
      (hshared inj (by simp))
    have hquot : ∀ a b : ℝ, Flt.quot (a / c) (1 * b / c) = Flt.quot a b := by
      intro a b
      unfold Flt.quot
      by_cases hb : b = 0
      · by_cases ha : a = 0 <;> simp [ha, hb, hc]
      · rw [if_neg (by simp [hb, hc]), if_neg hb]
        congr 1
        field_simp
    have := ih (pre ++ [inj]) (inv.add (Flt.quot
      (inj.events * overNodes primary secondary inj (fun _ g r => fullGeneration e g r) tree)
      (overNodes primary secondary inj (fullPhysical e) tree))) (by simp [hpre])
      (fun x hx => hmatch x (List.mem_cons_of_mem _ hx)) (fun x hx => hshared x (List.mem_cons_of_mem _ hx))
    rw [List.length_append, List.length_singleton] at this
    simp only [injectorLoop, hloop, hquot, this, List.foldl_cons]

end

section
variable {P I R B : Type} [DecidableEq P]

/-- **C13.** The weight of an event is `1 / Σ_i (N_i ∏ generation / ∏ physical)`, with the complete products: dropping the
distributions common to both sides does not change it. The hypotheses: each injector has exactly the secondary processes of the
weighter, every secondary interaction has a process, shared distributions have the same non-zero density on both sides, the
event is physically possible, and at least one injector can generate it. -/
theorem C13_event_weight (e : Densities P I R B) (injectors : List (WInj P I)) (primary : WProc P I)
    (secondary : List (WProc P I)) (tree : List (WNode R))
    (hmatch : ∀ inj ∈ injectors, Matches secondary inj)
    (hreg : ∀ n ∈ tree, n.root = false → n.type ∈ secondary.map WProc.type)
    (hshared : ∀ inj ∈ injectors, ∀ n ∈ tree, ∀ p g, physFor primary secondary n = some p → injFor inj n = some g →
      SharedAgree e p g n.record)
    (hphys : ∀ inj ∈ injectors, overNodes primary secondary inj (fullPhysical e) tree ≠ 0)
    (hsum : (injectors.map (invTerm e primary secondary tree)).sum ≠ 0) :
    (Weighter.make e injectors primary secondary).eventWeight e tree =
      .ok (.fin (1 / (injectors.map (invTerm e primary secondary tree)).sum)) := by
  have h := injectorLoop_eq e primary secondary tree injectors _ (make_eq e injectors primary secondary hmatch) hreg
    injectors [] (.fin 0) rfl hmatch hshared
  have hfold : ∀ (l : List (WInj P I)) (a : ℝ),
      (∀ inj ∈ l, overNodes primary secondary inj (fullPhysical e) tree ≠ 0) →
      l.foldl (fun inv inj => inv.add
        (Flt.quot (inj.events * overNodes primary secondary inj (fun _ g r => fullGeneration e g r) tree)
          (overNodes primary secondary inj (fullPhysical e) tree))) (Flt.fin a) =
      .fin (a + (l.map (invTerm e primary secondary tree)).sum) := by
    intro l
    induction l with
    | nil => intro a _; simp
    | cons x l ih =>
      intro a hx
      rw [List.foldl_cons, Flt.quot, if_neg (hx x (by simp)), Flt.add, ih _ fun y hy => hx y (List.mem_cons_of_mem _ hy)]
      simp only [List.map_cons, List.sum_cons, invTerm]
      rw [add_assoc]
  rw [hfold injectors 0 hphys] at h
  have hw : (Weighter.make e injectors primary secondary).injectors = injectors := by
    rw [make_eq e injectors primary secondary hmatch]
  rw [Weighter.eventWeight, hw]
  refine h.trans ?_
  rw [zero_add, Flt.inv, Flt.quot, if_neg hsum]

/-- **C13, impossible events.** If, of the injectors that could have produced the event, one finds it physically impossible (and
no quotient is 0/0), the weight is 0. -/
theorem C13_impossible (e : Densities P I R B) (injectors : List (WInj P I)) (primary : WProc P I)
    (secondary : List (WProc P I)) (tree : List (WNode R))
    (hmatch : ∀ inj ∈ injectors, Matches secondary inj)
    (hreg : ∀ n ∈ tree, n.root = false → n.type ∈ secondary.map WProc.type)
    (hshared : ∀ inj ∈ injectors, ∀ n ∈ tree, ∀ p g, physFor primary secondary n = some p → injFor inj n = some g →
      SharedAgree e p g n.record)
    (hnan : ∀ inj ∈ injectors, overNodes primary secondary inj (fullPhysical e) tree = 0 →
      inj.events * overNodes primary secondary inj (fun _ g r => fullGeneration e g r) tree ≠ 0)
    (himp : ∃ inj ∈ injectors, overNodes primary secondary inj (fullPhysical e) tree = 0) :
    (Weighter.make e injectors primary secondary).eventWeight e tree = .ok (.fin 0) := by
  have h := injectorLoop_eq e primary secondary tree injectors _ (make_eq e injectors primary secondary hmatch) hreg
    injectors [] (.fin 0) rfl hmatch hshared
  have hinf : ∀ l : List (WInj P I), (∀ inj ∈ l, overNodes primary secondary inj (fullPhysical e) tree = 0 →
      inj.events * overNodes primary secondary inj (fun _ g r => fullGeneration e g r) tree ≠ 0) →
      l.foldl (fun inv inj => inv.add
        (Flt.quot (inj.events * overNodes primary secondary inj (fun _ g r => fullGeneration e g r) tree)
          (overNodes primary secondary inj (fullPhysical e) tree))) Flt.inf = .inf := by
    intro l
    induction l with
    | nil => intro _; rfl
    | cons x l ih =>
      intro hx
      rw [List.foldl_cons]
      have : Flt.add .inf (Flt.quot
        (x.events * overNodes primary secondary x (fun _ g r => fullGeneration e g r) tree)
          (overNodes primary secondary x (fullPhysical e) tree)) = .inf := by
        unfold Flt.quot
        split_ifs with h1 h2
        · exact absurd h2 (hx x (by simp) h1)
        · rfl
        · rfl
      rw [this]
      exact ih fun y hy => hx y (List.mem_cons_of_mem _ hy)
  have hfold : ∀ (l : List (WInj P I)) (a : ℝ), (∀ inj ∈ l, overNodes primary secondary inj (fullPhysical e) tree = 0 →
      inj.events * overNodes primary secondary inj (fun _ g r => fullGeneration e g r) tree ≠ 0) →
      (∃ inj ∈ l, overNodes primary secondary inj (fullPhysical e) tree = 0) →
      l.foldl (fun inv inj => inv.add
        (Flt.quot (inj.events * overNodes primary secondary inj (fun _ g r => fullGeneration e g r) tree)
          (overNodes primary secondary inj (fullPhysical e) tree))) (Flt.fin a) = .inf := by
    intro l
    induction l with
    | nil => intro _ _ ⟨x, hx, _⟩; simp at hx
    | cons x l ih =>
      intro a hx hex
      rw [List.foldl_cons]
      by_cases h0 : overNodes primary secondary x (fullPhysical e) tree = 0
      · have : Flt.add (.fin a) (Flt.quot
          (x.events * overNodes primary secondary x (fun _ g r => fullGeneration e g r) tree)
            (overNodes primary secondary x (fullPhysical e) tree)) = .inf := by
          rw [Flt.quot, if_pos h0, if_neg (hx x (by simp) h0)]; rfl
        rw [this]
        exact hinf l fun y hy => hx y (List.mem_cons_of_mem _ hy)
      · rw [Flt.quot, if_neg h0, Flt.add]
        refine ih _ (fun y hy => hx y (List.mem_cons_of_mem _ hy)) ?_
        obtain ⟨y, hy, hy0⟩ := hex
        rcases List.mem_cons.1 hy with rfl | hy
        · exact absurd hy0 h0
        · exact ⟨y, hy, hy0⟩
  rw [hfold injectors 0 hnan himp] at h
  have hw : (Weighter.make e injectors primary secondary).injectors = injectors := by
    rw [make_eq e injectors primary secondary hmatch]
  rw [Weighter.eventWeight, hw]
  exact h

/-- **C13, unknown secondaries.** An event with a secondary interaction for which there is no process has weight 0. -/
theorem C13_no_process (e : Densities P I R B) (injectors : List (WInj P I)) (primary : WProc P I)
    (secondary : List (WProc P I)) (tree : List (WNode R))
    (hne : injectors ≠ []) (hmatch : ∀ inj ∈ injectors, Matches secondary inj)
    (hmiss : ∃ n ∈ tree, n.root = false ∧ n.type ∉ secondary.map WProc.type) :
    (Weighter.make e injectors primary secondary).eventWeight e tree = .ok (.fin 0) := by
  rw [make_eq e injectors primary secondary hmatch, Weighter.eventWeight]
  cases injectors with
  | nil => exact absurd rfl hne
  | cons inj rest =>
    have hm := hmatch inj (by simp)
    have hnode : ∀ (tree : List (WNode R)) (acc : ℝ × ℝ),
        (∃ n ∈ tree, n.root = false ∧ n.type ∉ secondary.map WProc.type) →
        nodeLoop e ⟨inj :: rest, (inj :: rest).map fun inj => ProcWeighter.make e primary inj.primary,
          (inj :: rest).map fun inj => secMap e secondary inj⟩ 0 inj tree acc = .ok none := by
      intro tree
      induction tree with
      | nil => intro _ ⟨n, hn, _⟩; simp at hn
      | cons m tree ih =>
        intro acc hex
        cases hroot : m.root with
        | true =>
          have hex' : ∃ n ∈ tree, n.root = false ∧ n.type ∉ secondary.map WProc.type := by
            obtain ⟨n, hn, hr, ht⟩ := hex
            rcases List.mem_cons.1 hn with rfl | hn
            · rw [hroot] at hr; cases hr
            · exact ⟨n, hn, hr, ht⟩
          simp only [nodeLoop, hroot, if_true, List.map_cons, List.getElem?_cons_zero]
          exact ih _ hex'
        | false =>
          by_cases ht : m.type ∈ secondary.map WProc.type
          · have hex' : ∃ n ∈ tree, n.root = false ∧ n.type ∉ secondary.map WProc.type := by
              obtain ⟨n, hn, hr, htn⟩ := hex
              rcases List.mem_cons.1 hn with rfl | hn
              · exact absurd ht htn
              · exact ⟨n, hn, hr, htn⟩
            obtain ⟨g, hg⟩ := mapAt_isSome inj.secondaries m.type (hm.2.mem_iff.1 ht)
            obtain ⟨v, hv⟩ := mapAt_isSome (secMap e secondary inj) m.type
              (by simpa [secMap, List.map_map, Function.comp_def] using ht)
            simp only [nodeLoop, hroot, Bool.false_eq_true, if_false, List.map_cons, List.getElem?_cons_zero, hg, hv]
            exact ih _ hex'
          · have hg := mapAt_none inj.secondaries m.type fun h => ht (hm.2.mem_iff.2 h)
            simp only [nodeLoop, hroot, Bool.false_eq_true, if_false, hg]
    simp only [injectorLoop, hnode tree _ hmiss]

/-- **C13, ungenerated events (negative).** An event that no injector can produce does not get weight 0: the sum is 0 and the
weight is infinite. -/
theorem C13_not_generated_fails (e : Densities P I R B) (injectors : List (WInj P I)) (primary : WProc P I)
    (secondary : List (WProc P I)) (tree : List (WNode R))
    (hmatch : ∀ inj ∈ injectors, Matches secondary inj)
    (hreg : ∀ n ∈ tree, n.root = false → n.type ∈ secondary.map WProc.type)
    (hshared : ∀ inj ∈ injectors, ∀ n ∈ tree, ∀ p g, physFor primary secondary n = some p → injFor inj n = some g →
      SharedAgree e p g n.record)
    (hphys : ∀ inj ∈ injectors, overNodes primary secondary inj (fullPhysical e) tree ≠ 0)
    (hgen : ∀ inj ∈ injectors, overNodes primary secondary inj (fun _ g r => fullGeneration e g r) tree = 0) :
    (Weighter.make e injectors primary secondary).eventWeight e tree = .ok .inf := by
  have h := injectorLoop_eq e primary secondary tree injectors _ (make_eq e injectors primary secondary hmatch) hreg
    injectors [] (.fin 0) rfl hmatch hshared
  have hfold : ∀ l : List (WInj P I),
      (∀ inj ∈ l, overNodes primary secondary inj (fullPhysical e) tree ≠ 0) →
      (∀ inj ∈ l, overNodes primary secondary inj (fun _ g r => fullGeneration e g r) tree = 0) →
      l.foldl (fun inv inj => inv.add
        (Flt.quot (inj.events * overNodes primary secondary inj (fun _ g r => fullGeneration e g r) tree)
          (overNodes primary secondary inj (fullPhysical e) tree))) (Flt.fin 0) = .fin 0 := by
    intro l
    induction l with
    | nil => intro _ _; rfl
    | cons x l ih =>
      intro h1 h2
      rw [List.foldl_cons, h2 x (by simp), Flt.quot, if_neg (h1 x (by simp)), Flt.add, mul_zero, zero_div, add_zero]
      exact ih (fun y hy => h1 y (List.mem_cons_of_mem _ hy)) fun y hy => h2 y (List.mem_cons_of_mem _ hy)
  rw [hfold injectors hphys hgen] at h
  have hw : (Weighter.make e injectors primary secondary).injectors = injectors := by
    rw [make_eq e injectors primary secondary hmatch]
  rw [Weighter.eventWeight, hw]
  refine h.trans ?_
  simp [Flt.inv, Flt.quot]

end

/-! ## Concrete cases -/

/-- Two distributions: 0 is shared, 1 belongs to the physical process only, 2 to the injector only. Distribution 1 carries a
normalization of 10. -/
noncomputable def exampleDensities : Densities Nat Nat ℝ Unit where
  density := fun d _ r => (d + 2) * r
  norm := fun d => if d = 1 then some 10 else none
  channel := fun _ _ => 1 / 4
  interaction := fun _ _ _ => 1 / 2
  position := fun _ _ r => r
  bounds := fun _ _ => ()

def examplePrimary : WProc Nat Nat := ⟨14, 0, [0, 1]⟩
def exampleSecondary : List (WProc Nat Nat) := [⟨15, 1, [0]⟩]
def exampleInjectors : List (WInj Nat Nat) := [⟨100, ⟨14, 0, [2, 0]⟩, [(15, ⟨15, 1, [2]⟩)]⟩]

theorem example_matches : ∀ inj ∈ exampleInjectors, Matches exampleSecondary inj := by
  intro inj h
  simp only [exampleInjectors, List.mem_singleton] at h
  subst h
  simp [Matches, exampleSecondary]

/-- An event with a root and one secondary interaction. -/
noncomputable def exampleEvent : List (WNode ℝ) := [⟨true, 14, 1⟩, ⟨false, 15, 2⟩]

/-- The hypotheses of `C13_event_weight` are met, and the weight is that of the complete products: root
`(1/4·4·2)/(10·(1/2·1·1/4·2·3))`, secondary `(1/4·8)/(1/2·2·1/4·4)`. -/
example : (Weighter.make exampleDensities exampleInjectors examplePrimary exampleSecondary).eventWeight exampleDensities
    exampleEvent = .ok (.fin (3 / 160)) := by
  have hsum : (exampleInjectors.map (invTerm exampleDensities examplePrimary exampleSecondary exampleEvent)).sum = 160 / 3 := by
    simp [exampleInjectors, invTerm, overNodes, exampleEvent, physFor, injFor, exampleSecondary, examplePrimary, fullGeneration,
      fullPhysical, exampleDensities]
    norm_num
  rw [C13_event_weight _ _ _ _ _ example_matches, hsum]
  · norm_num
  · simp [exampleEvent, exampleSecondary]
  · intro inj hinj n hn p g hp hg d hd hd'
    simp only [exampleInjectors, List.mem_singleton] at hinj
    subst hinj
    simp only [exampleEvent, List.mem_cons, List.not_mem_nil, or_false] at hn
    rcases hn with rfl | rfl <;>
      simp [physFor, injFor, exampleSecondary, examplePrimary] at hp hg <;> subst hp <;> subst hg <;>
      simp [exampleDensities] <;> norm_cast
  · intro inj hinj
    simp only [exampleInjectors, List.mem_singleton] at hinj
    subst hinj
    simp [overNodes, exampleEvent, physFor, injFor, exampleSecondary, examplePrimary, fullPhysical, exampleDensities]
    norm_num
  · rw [hsum]; norm_num

/-- **C13, incomplete initialization (negative).** If an injector lacks one of the weighter's secondary processes the
constructor returns early, and weighting an event with a secondary interaction then reads beyond the end of a vector, even
though the injector has a process for that interaction. -/
theorem C13_incomplete_fails :
    (Weighter.make exampleDensities exampleInjectors examplePrimary
      (exampleSecondary ++ [⟨16, 1, []⟩])).eventWeight exampleDensities exampleEvent = .ub := by
  simp [Weighter.make, exampleInjectors, examplePrimary, exampleSecondary, Weighter.initialize, secondaryMap, mapAt,
    Weighter.eventWeight, injectorLoop, exampleEvent, nodeLoop]

/-- An event no injector produces (density 0 of the injector's own distribution) has infinite weight. -/
theorem C13_infinite_weight_fails :
    ∃ (e : Densities Nat Nat ℝ Unit) (tree : List (WNode ℝ)),
      (Weighter.make e exampleInjectors examplePrimary []).eventWeight e tree ≠ .ok (.fin 0) := by
  refine ⟨{ exampleDensities with density := fun d _ _ => if d = 2 then 0 else 1 }, [⟨true, 14, 1⟩], ?_⟩
  simp [Weighter.make, exampleInjectors, examplePrimary, Weighter.initialize, secondaryMap, Weighter.eventWeight, injectorLoop,
    nodeLoop, ProcWeighter.make, cancel, eraseLast, ProcWeighter.generationProbability, ProcWeighter.physicalProbability,
    exampleDensities, Flt.quot, Flt.add, Flt.inv]

end Siren.Injection
