import Verif.Math.TableProps
import Mathlib.MeasureTheory.Integral.IntervalIntegral.Basic

set_option autoImplicit false

/-!
# C96: energies drawn from a flux table

Models `TabulatedFluxDistribution` (distributions/private/primary/energy/TabulatedFluxDistribution.cxx), made from two vectors. Doubles are real numbers. The interpolation tables, the trapezoid rule
and the Romberg integration are those of `Verif.Math`.
-/

namespace Siren.Distributions.Tabulated

open Siren Siren.Math Table Integrate MeasureTheory Set

/-- `TabulatedFluxDistribution` (TabulatedFluxDistribution.h:37-50). `norm` is the normalization of the base class, if set. -/
structure Flux where
  eMin : ℝ
  eMax : ℝ
  romberg : Bool
  table : Interp
  inverse : Interp
  integral : ℝ
  cdfValues : List ℝ
  nodes : List ℝ
  values : List ℝ
  cdfNodes : List ℝ
  norm : Option ℝ

/-- `unnormed_pdf` (TabulatedFluxDistribution.cxx:101-103) where it returns. -/
noncomputable def unnormedPdf (table : Interp) (e : ℝ) : ℝ := match table.eval e with | .ok v => v | _ => 0

/-- `ComputeIntegral` (TabulatedFluxDistribution.cxx:34-43). The Romberg integration is modelled for a function that always returns. -/
noncomputable def computeIntegral (romberg : Bool) (table : Interp) (nodes values : List ℝ) (eMin eMax : ℝ) : Res ℝ :=
  if romberg then rombergIntegrate (unnormedPdf table) eMin eMax 1e-6 else trapezoidRange nodes values eMin eMax

/-- `pdf` (TabulatedFluxDistribution.cxx:117-119). -/
noncomputable def pdf (table : Interp) (integral e : ℝ) : Res ℝ := (table.eval e).bind fun v => .ok (v / integral)

open Classical in
/-- The energies used by `ComputeCDF` (TabulatedFluxDistribution.cxx:128-137). -/
noncomputable def energies (nodes : List ℝ) (eMin eMax : ℝ) : List ℝ := eMin :: (nodes.filter fun v => decide (v > eMin ∧ v < eMax)) ++ [eMax]

open Classical in
/-- The loop of `ComputeCDF` (TabulatedFluxDistribution.cxx:148-168): `prev` is `energies[i-1]`, then come the energies left; the state has `cdf_vector` and `cdf_energy_nodes`, which are never empty. -/
noncomputable def steps (p : ℝ → Res ℝ) : ℝ → List ℝ → List ℝ × List ℝ → Res (List ℝ × List ℝ)
  | _, [], s => .ok s
  | prev, e :: es, s =>
    (p prev).bind fun p1 => (p e).bind fun p2 =>
    if p1 + p2 ≤ 0 then steps p e es s
    else
      let s := if s.2.getLastD 0 ≠ prev then (s.1 ++ [s.1.getLastD 0 + 1e-12], s.2 ++ [prev]) else s
      let area := 0.5 * (p1 + p2) * (e - prev)
      steps p e es (s.1 ++ [s.1.getLastD 0 + area], s.2 ++ [e])

/-- `*std::max_element` of a vector that is not empty (TabulatedFluxDistribution.cxx:172-173). -/
noncomputable def maxElement (l : List ℝ) : ℝ := l.tail.foldl max (l.headD 0)

/-- `*std::min_element` of a vector that is not empty. -/
noncomputable def minElement (l : List ℝ) : ℝ := l.tail.foldl min (l.headD 0)

/-- `ComputeCDF` (TabulatedFluxDistribution.cxx:125-187): the values of the cumulative distribution and the table of its inverse. -/
noncomputable def computeCDF (table : Interp) (integral : ℝ) (nodes : List ℝ) (eMin eMax : ℝ) : Res (List ℝ × Interp) :=
  (steps (pdf table integral) eMin (energies nodes eMin eMax).tail ([0], [eMin])).bind fun s =>
  let cdf := s.1.map fun v => v * (1 / maxElement s.1)
  (addTable ⟨cdf, s.2⟩).bind fun inv => .ok (cdf, inv)

/-- The constructors from two vectors (TabulatedFluxDistribution.cxx:229-255, with LoadFluxTable in 81-99). The assertion on the lengths is left undefined when violated. The member `cdf_energy_nodes` is
never written: `ComputeCDF` has a local variable of that name (line 144). -/
noncomputable def construct (bounds : Option (ℝ × ℝ)) (energies flux : List ℝ) (physical romberg : Bool) : Res Flux :=
  if energies.length ≠ flux.length ∨ energies = [] then .ub else
  let lo := match bounds with | some b => b.1 | none => minElement energies
  let hi := match bounds with | some b => b.2 | none => maxElement energies
  (addTable ⟨energies, flux⟩).bind fun table =>
  (computeIntegral romberg table energies flux lo hi).bind fun integral =>
  (computeCDF table integral energies lo hi).bind fun c =>
  .ok ⟨lo, hi, romberg, table, c.2, integral, c.1, energies, flux, [], if physical then some integral else none⟩

/-- `SetEnergyBounds` (TabulatedFluxDistribution.cxx:197-203). -/
noncomputable def Flux.setEnergyBounds (d : Flux) (lo hi : ℝ) : Res Flux :=
  (computeIntegral d.romberg d.table d.nodes d.values lo hi).bind fun integral =>
  (computeCDF d.table integral d.nodes lo hi).bind fun c =>
  .ok { d with eMin := lo, eMax := hi, integral := integral, cdfValues := c.1, inverse := c.2 }

/-- `SampleEnergy` (TabulatedFluxDistribution.cxx:261-266), with the output `u` of the random generator. -/
noncomputable def Flux.sampleEnergy (d : Flux) (u : ℝ) : Res ℝ := d.inverse.eval u

open Classical in
/-- `GenerationProbability` (TabulatedFluxDistribution.cxx:269-275). -/
noncomputable def Flux.generationProbability (d : Flux) (e : ℝ) : Res ℝ :=
  if e < d.eMin ∨ e > d.eMax then .ok 0 else pdf d.table d.integral e

/-! ### Specification -/

/-- **Specification.** A distribution made by a constructor and any number of calls of `SetEnergyBounds`. -/
inductive Made : Flux → Prop
  | new {bounds : Option (ℝ × ℝ)} {es fl : List ℝ} {physical romberg : Bool} {d : Flux} : construct bounds es fl physical romberg = .ok d → Made d
  | bounds {d d' : Flux} {lo hi : ℝ} : Made d → d.setEnergyBounds lo hi = .ok d' → Made d'

/-- **Specification.** The reported density as a function; `0` where the call does not return. -/
noncomputable def density (d : Flux) (e : ℝ) : ℝ := match d.generationProbability e with | .ok v => v | _ => 0

/-- **Specification.** A flux table with energies in ascending order and fluxes that are not negative, and not zero at two neighbouring energies; and a range of energies inside of the table. The table is one that is interpolated
exactly: its energies are equally spaced, or not taken for equally spaced and above the first one (compare C49). -/
structure Good (d : Flux) : Prop where
  sorted : d.nodes.Pairwise (· < ·)
  nonneg : ∀ v ∈ d.values, 0 ≤ v
  pos : ∀ x0 f0 x1 f1, Neighbours ⟨d.nodes, d.values⟩ x0 f0 x1 f1 → 0 < f0 + f1
  lt : d.eMin < d.eMax
  first : ∃ v ∈ d.nodes, v ≤ d.eMin
  last : ∃ v ∈ d.nodes, d.eMax ≤ v
  zero : 0 ≤ d.eMin
  exact_ : EquallySpaced ⟨d.nodes, d.values⟩ ∨ (d.table.indexer.isRegular = false ∧ ∃ v ∈ d.nodes, v < d.eMin)

/-! ### Lists in ascending order -/

theorem bracket {L : List ℝ} {v : ℝ} (hn : 0 < L.length) (h0 : L.getD 0 0 ≤ v) (h1 : v < L.getD (L.length - 1) 0) :
    ∃ k, k + 1 < L.length ∧ L.getD k 0 ≤ v ∧ v < L.getD (k + 1) 0 := by
  classical
  have hex : ∃ k, v < L.getD k 0 := ⟨_, h1⟩
  obtain ⟨m, hm⟩ : ∃ m, m = Nat.find hex := ⟨_, rfl⟩
  have hs : v < L.getD m 0 := hm ▸ Nat.find_spec hex
  have hle : m ≤ L.length - 1 := hm ▸ Nat.find_min' hex h1
  have hmin : ∀ k, k < m → L.getD k 0 ≤ v := fun k hk => not_lt.mp (Nat.find_min hex (hm ▸ hk))
  rcases m with _ | m
  · linarith
  · exact ⟨m, by omega, hmin m (by omega), hs⟩

theorem bracket' {L : List ℝ} {v : ℝ} (hn : 0 < L.length) (h0 : L.getD 0 0 < v) (h1 : v ≤ L.getD (L.length - 1) 0) :
    ∃ k, k + 1 < L.length ∧ L.getD k 0 < v ∧ v ≤ L.getD (k + 1) 0 := by
  classical
  have hex : ∃ k, v ≤ L.getD k 0 := ⟨_, h1⟩
  obtain ⟨m, hm⟩ : ∃ m, m = Nat.find hex := ⟨_, rfl⟩
  have hs : v ≤ L.getD m 0 := hm ▸ Nat.find_spec hex
  have hle : m ≤ L.length - 1 := hm ▸ Nat.find_min' hex h1
  have hmin : ∀ k, k < m → L.getD k 0 < v := fun k hk => not_le.mp (Nat.find_min hex (hm ▸ hk))
  rcases m with _ | m
  · linarith
  · exact ⟨m, by omega, hmin m (by omega), hs⟩

theorem energies_sorted {nodes : List ℝ} (h : nodes.Pairwise (· < ·)) {lo hi : ℝ} (hl : lo < hi) : (energies nodes lo hi).Pairwise (· < ·) := by
  classical
  simp only [energies, List.cons_append, List.pairwise_cons, List.pairwise_append, List.mem_append, List.mem_filter, decide_eq_true_eq, List.mem_singleton]
  refine ⟨?_, h.filter _, by simp, fun a ha b hb => hb ▸ ha.2.2⟩
  rintro a (⟨-, h, -⟩ | rfl)
  · exact h
  · exact hl

/-- Two neighbouring energies: in ascending order, inside of the range, and without an energy of the table between them. -/
def Next (nodes : List ℝ) (lo hi a b : ℝ) : Prop := a < b ∧ lo ≤ a ∧ b ≤ hi ∧ ∀ v ∈ nodes, v ≤ a ∨ b ≤ v

theorem energies_chain {nodes : List ℝ} (h : nodes.Pairwise (· < ·)) {lo hi : ℝ} (hl : lo < hi) : (energies nodes lo hi).IsChain (Next nodes lo hi) := by
  classical
  have hs := energies_sorted h hl
  have hmem : ∀ v, v ∈ energies nodes lo hi ↔ v = lo ∨ (v ∈ nodes ∧ lo < v ∧ v < hi) ∨ v = hi := by
    intro v
    simp [energies]
  rw [List.isChain_iff_getElem]
  intro i hi'
  have hlt : (energies nodes lo hi)[i] < (energies nodes lo hi)[i + 1] := List.pairwise_iff_getElem.mp hs i (i + 1) (by omega) hi' (by omega)
  have hlo : lo ≤ (energies nodes lo hi)[i] := by
    rcases (hmem _).mp (List.getElem_mem (by omega : i < (energies nodes lo hi).length)) with h | h | h
    · exact h.ge
    · exact h.2.1.le
    · exact h.ge.trans' hl.le
  have hhi : (energies nodes lo hi)[i + 1] ≤ hi := by
    rcases (hmem _).mp (List.getElem_mem hi') with h | h | h
    · exact h.le.trans hl.le
    · exact h.2.2.le
    · exact h.le
  refine ⟨hlt, hlo, hhi, fun v hv => ?_⟩
  by_contra hc
  push Not at hc
  have hvm : v ∈ energies nodes lo hi := (hmem v).mpr (Or.inr (Or.inl ⟨hv, by linarith, by linarith⟩))
  obtain ⟨j, hj, rfl⟩ := List.mem_iff_getElem.mp hvm
  rcases Nat.lt_or_ge i j with hij | hij
  · rcases Nat.eq_or_lt_of_le (Nat.succ_le_of_lt hij) with he | he
    · subst he; exact absurd hc.2 (lt_irrefl _)
    · have := List.pairwise_iff_getElem.mp hs (i + 1) j hi' hj he
      linarith [hc.2]
  · rcases Nat.eq_or_lt_of_le hij with he | he
    · subst he; exact absurd hc.1 (lt_irrefl _)
    · have := List.pairwise_iff_getElem.mp hs j i hj (by omega) he
      linarith [hc.1]

/-! ### The flux between two neighbouring energies -/

/-- The flux is linear between two energies, not negative at either and positive at one. -/
structure Lin (φ : ℝ → ℝ) (a b : ℝ) : Prop where
  lt : a < b
  left : 0 ≤ φ a
  right : 0 ≤ φ b
  pos : 0 < φ a + φ b
  line : ∀ t ∈ Icc a b, φ t = line a (φ a) b (φ b) t

theorem hasInt_line (a b p q : ℝ) (hab : a < b) : HasInt (line a p b q) a b ((b - a) * (p + q) / 2) := by
  have hne : b - a ≠ 0 := by linarith
  have hd : ∀ x, HasDerivAt (fun t => p * t + (q - p) / (b - a) * (t - a) ^ 2 / 2) (line a p b q x) x := by
    intro x
    have h1 : HasDerivAt (fun t : ℝ => (t - a) ^ 2) (2 * (x - a)) x := by
      simpa using ((hasDerivAt_id x).sub_const a).fun_pow 2
    have h2 := ((hasDerivAt_id x).const_mul p).add ((h1.const_mul ((q - p) / (b - a))).div_const 2)
    refine h2.congr_deriv ?_
    simp only [Table.line]
    ring
  have hc : Continuous (line a p b q) := by unfold Table.line; fun_prop
  refine ⟨hc.intervalIntegrable _ _, ?_⟩
  rw [intervalIntegral.integral_eq_sub_of_hasDerivAt (fun x _ => hd x) (hc.intervalIntegrable _ _)]
  field_simp
  ring

theorem hasInt_congr {f g : ℝ → ℝ} {a b v : ℝ} (hab : a ≤ b) (h : ∀ t ∈ Icc a b, f t = g t) (hg : HasInt g a b v) : HasInt f a b v := by
  refine ⟨hg.1.congr fun t ht => ?_, ?_⟩
  · rw [uIoc_of_le hab] at ht
    exact (h t ⟨ht.1.le, ht.2⟩).symm
  · rw [← hg.2]
    refine intervalIntegral.integral_congr fun t ht => ?_
    rw [uIcc_of_le hab] at ht
    exact h t ht

theorem Lin.hasInt {φ : ℝ → ℝ} {a b : ℝ} (h : Lin φ a b) : HasInt φ a b ((b - a) * (φ a + φ b) / 2) :=
  hasInt_congr h.lt.le h.line (hasInt_line a b _ _ h.lt)

/-- Between neighbouring abscissas of a table. -/
theorem lin_of_line {φ : ℝ → ℝ} {x0 f0 x1 f1 a b : ℝ} (h0 : x0 ≤ a) (hab : a < b) (h1 : b ≤ x1) (hf0 : 0 ≤ f0) (hf1 : 0 ≤ f1) (hp : 0 < f0 + f1)
    (h : ∀ t ∈ Icc a b, φ t = max 0 (line x0 f0 x1 f1 t)) : Lin φ a b := by
  have hd : 0 < x1 - x0 := by linarith
  have hl : ∀ t, line x0 f0 x1 f1 t = (f0 * (x1 - t) + f1 * (t - x0)) / (x1 - x0) := by
    intro t
    rw [Table.line]
    field_simp
    ring
  have hnn : ∀ t ∈ Icc a b, 0 ≤ line x0 f0 x1 f1 t := by
    intro t ht
    rw [hl]
    exact div_nonneg (add_nonneg (mul_nonneg hf0 (by linarith [ht.2])) (mul_nonneg hf1 (by linarith [ht.1]))) hd.le
  have he : ∀ t ∈ Icc a b, φ t = line x0 f0 x1 f1 t := fun t ht => by rw [h t ht, max_eq_right (hnn t ht)]
  have ha : a ∈ Icc a b := ⟨le_rfl, hab.le⟩
  have hb : b ∈ Icc a b := ⟨hab.le, le_rfl⟩
  refine ⟨hab, he a ha ▸ hnn a ha, he b hb ▸ hnn b hb, ?_, fun t ht => ?_⟩
  · rw [he a ha, he b hb, hl, hl, ← add_div]
    refine div_pos ?_ hd
    rcases hf0.lt_or_eq with h2 | h2
    · have h3 : 0 < f0 * (x1 - a) := mul_pos h2 (by linarith)
      have h4 := mul_nonneg hf0 (by linarith : 0 ≤ x1 - b)
      have h5 := mul_nonneg hf1 (by linarith : 0 ≤ a - x0)
      have h6 := mul_nonneg hf1 (by linarith : 0 ≤ b - x0)
      linarith
    · have h3 : 0 < f1 * (b - x0) := mul_pos (by linarith) (by linarith)
      have h5 := mul_nonneg hf1 (by linarith : 0 ≤ a - x0)
      rw [← h2]
      linarith
  · rw [he t ht, he a ha, he b hb, Table.line, Table.line, Table.line, Table.line]
    have : b - a ≠ 0 := by linarith
    field_simp
    ring

/-! ### The cumulative distribution -/

theorem steps_spec {φ : ℝ → ℝ} {I : ℝ} (hI : 0 < I) {p : ℝ → Res ℝ} {G : ℝ → ℝ} : ∀ (es : List ℝ) (prev : ℝ) (c n : List ℝ), (prev :: es).IsChain (Lin φ) →
    (∀ e ∈ prev :: es, p e = .ok (φ e / I)) → (∀ a b, a ∈ prev :: es → b ∈ prev :: es → Lin φ a b → G b - G a = (b - a) * (φ a + φ b) / 2 / I) →
    steps p prev es (c ++ [G prev], n ++ [prev]) = .ok (c ++ (prev :: es).map G, n ++ prev :: es) := by
  intro es
  induction es with
  | nil => intro prev c n _ _ _; simp [steps]
  | cons e es ih =>
    intro prev c n hch hp hG
    obtain ⟨hlin, hch'⟩ := List.isChain_cons_cons.mp hch
    rw [steps, hp prev (by simp), hp e (by simp), okBind, okBind]
    have hpos : ¬φ prev / I + φ e / I ≤ 0 := by
      rw [← add_div, not_le]
      exact div_pos hlin.pos hI
    rw [if_neg hpos]
    have hl : (n ++ [prev]).getLastD 0 = prev := by simp
    have hl' : (c ++ [G prev]).getLastD 0 = G prev := by simp
    simp only [hl, ne_eq, not_true_eq_false, if_false, hl']
    have harea : G prev + 0.5 * (φ prev / I + φ e / I) * (e - prev) = G e := by
      have := hG prev e (by simp) (by simp) hlin
      have h2 : (e - prev) * (φ prev + φ e) / 2 / I = 0.5 * (φ prev / I + φ e / I) * (e - prev) := by
        norm_num
        field_simp
      linarith
    rw [harea]
    rw [ih e (c ++ [G prev]) (n ++ [prev]) hch' (fun x hx => hp x (List.mem_cons_of_mem _ hx))
      (fun a b ha hb => hG a b (List.mem_cons_of_mem _ ha) (List.mem_cons_of_mem _ hb))]
    simp

theorem foldl_max_sorted : ∀ (l : List ℝ) (a : ℝ), (a :: l).Pairwise (· < ·) → l.foldl max a = (a :: l).getLastD 0 := by
  intro l
  induction l with
  | nil => intro a _; rfl
  | cons b l ih =>
    intro a h
    rw [List.foldl_cons, max_eq_right (List.rel_of_pairwise_cons h List.mem_cons_self).le, ih b h.of_cons]
    simp

theorem chain_hasInt {φ : ℝ → ℝ} : ∀ (es : List ℝ) (prev : ℝ), (prev :: es).IsChain (Lin φ) → ∀ e ∈ prev :: es, ∃ v, HasInt φ prev e v := by
  intro es
  induction es with
  | nil => intro prev _ e he; simp at he; subst he; exact ⟨0, HasInt.refl φ e⟩
  | cons b es ih =>
    intro prev hch e he
    obtain ⟨hlin, hch'⟩ := List.isChain_cons_cons.mp hch
    rcases List.mem_cons.mp he with rfl | he
    · exact ⟨0, HasInt.refl φ e⟩
    · obtain ⟨v, hv⟩ := ih b hch' e he
      exact ⟨_, hlin.hasInt.trans hv⟩

/-! ### Distributions -/

theorem bind_ok {α β : Type} {x : Res α} {f : α → Res β} {b : β} (h : x.bind f = .ok b) : ∃ a, x = .ok a ∧ f a = .ok b := by
  cases x with
  | ok a => exact ⟨a, rfl, h⟩
  | throws e => cases h
  | ub => cases h

/-- What holds of every distribution. -/
structure Consistent (d : Flux) : Prop where
  table : addTable ⟨d.nodes, d.values⟩ = .ok d.table
  integral : computeIntegral d.romberg d.table d.nodes d.values d.eMin d.eMax = .ok d.integral
  cdf : computeCDF d.table d.integral d.nodes d.eMin d.eMax = .ok (d.cdfValues, d.inverse)
  empty : d.cdfNodes = []

theorem consistent {d : Flux} (h : Made d) : Consistent d := by
  induction h with
  | new h =>
    unfold construct at h
    split at h
    · cases h
    · obtain ⟨t, ht, h⟩ := bind_ok h
      obtain ⟨i, hi, h⟩ := bind_ok h
      obtain ⟨c, hc, h⟩ := bind_ok h
      cases h
      exact ⟨ht, hi, hc, rfl⟩
  | bounds _ h ih =>
    rw [Flux.setEnergyBounds] at h
    obtain ⟨i, hi, h⟩ := bind_ok h
    obtain ⟨c, hc, h⟩ := bind_ok h
    cases h
    exact ⟨ih.table, hi, hc, ih.empty⟩

theorem Good.getD_first {d : Flux} (hg : Good d) : d.nodes.getD 0 0 ≤ d.eMin := by
  obtain ⟨v, hv, hle⟩ := hg.first
  obtain ⟨i, hi, rfl⟩ := mem_getD _ v hv
  rcases Nat.eq_zero_or_pos i with rfl | h
  · exact hle
  · exact (getD_lt _ hg.sorted 0 i h hi).le.trans hle

theorem Good.getD_last {d : Flux} (hg : Good d) : d.eMax ≤ d.nodes.getD (d.nodes.length - 1) 0 := by
  obtain ⟨v, hv, hle⟩ := hg.last
  obtain ⟨i, hi, rfl⟩ := mem_getD _ v hv
  rcases Nat.eq_or_lt_of_le (show i ≤ d.nodes.length - 1 by omega) with h | h
  · rw [← h]; exact hle
  · exact hle.trans (getD_lt _ hg.sorted i _ h (by omega)).le

theorem Good.length {d : Flux} (hg : Good d) : 0 < d.nodes.length := by
  obtain ⟨v, hv, _⟩ := hg.first
  exact List.length_pos_of_mem hv

theorem Good.eval {d : Flux} (hc : Consistent d) (hg : Good d) {x0 f0 x1 f1 v : ℝ} (hn : Neighbours ⟨d.nodes, d.values⟩ x0 f0 x1 f1) (h0 : x0 ≤ v) (h1 : v ≤ x1) (hv : d.eMin ≤ v) :
    d.table.eval v = .ok (max 0 (line x0 f0 x1 f1 v)) := by
  refine C49_linear _ _ hc.table x0 f0 x1 f1 hn v h0 h1 ?_
  rcases hg.exact_ with h | ⟨h, w, hw, hlt⟩
  · exact Or.inl h
  · exact Or.inr ⟨h, w, hw, hlt.trans_le hv⟩

theorem Good.neighbours {d : Flux} (hc : Consistent d) (hg : Good d) {k : Nat} (hk : k + 1 < d.nodes.length) :
    ∃ f0 f1, Neighbours ⟨d.nodes, d.values⟩ (d.nodes.getD k 0) f0 (d.nodes.getD (k + 1) 0) f1 ∧ 0 ≤ f0 ∧ 0 ≤ f1 := by
  obtain ⟨-, -, -, -, hlen, -⟩ := addTable_ok _ _ hc.table
  have hs : setOf d.nodes = d.nodes := setOf_of_sorted _ hg.sorted
  obtain ⟨f0, f1, hn⟩ := spaced_index ⟨d.nodes, d.values⟩ hlen k (by simpa [hs] using hk)
  simp only [hs] at hn
  exact ⟨f0, f1, hn, hg.nonneg _ (List.of_mem_zip hn.first).2, hg.nonneg _ (List.of_mem_zip hn.second).2⟩

theorem Good.lin {d : Flux} (hc : Consistent d) (hg : Good d) {a b : ℝ} (h : Next d.nodes d.eMin d.eMax a b) : Lin (unnormedPdf d.table) a b := by
  obtain ⟨hab, hlo, hhi, hno⟩ := h
  obtain ⟨k, hk, h0, h1⟩ := bracket (v := a) hg.length (hg.getD_first.trans hlo) (hab.trans_le (hhi.trans hg.getD_last))
  have h2 : b ≤ d.nodes.getD (k + 1) 0 := (hno _ (getD_mem _ _ hk)).resolve_left (not_le.mpr h1)
  obtain ⟨f0, f1, hn, hf0, hf1⟩ := hg.neighbours hc hk
  refine lin_of_line h0 hab h2 hf0 hf1 (hg.pos _ _ _ _ hn) fun t ht => ?_
  rw [unnormedPdf, hg.eval hc hn (h0.trans ht.1) (ht.2.trans h2) (hlo.trans ht.1)]

theorem Good.chain {d : Flux} (hc : Consistent d) (hg : Good d) : (energies d.nodes d.eMin d.eMax).IsChain (Lin (unnormedPdf d.table)) :=
  (energies_chain hg.sorted hg.lt).imp fun _ _ h => hg.lin hc h

theorem Good.returns {d : Flux} (hc : Consistent d) (hg : Good d) {e : ℝ} (h0 : d.eMin ≤ e) (h1 : e ≤ d.eMax) :
    d.table.eval e = .ok (unnormedPdf d.table e) ∧ 0 ≤ unnormedPdf d.table e := by
  have key : ∃ k, k + 1 < d.nodes.length ∧ d.nodes.getD k 0 ≤ e ∧ e ≤ d.nodes.getD (k + 1) 0 := by
    rcases (h1.trans hg.getD_last).lt_or_eq with h | h
    · obtain ⟨k, hk, h2, h3⟩ := bracket (v := e) hg.length (hg.getD_first.trans h0) h
      exact ⟨k, hk, h2, h3.le⟩
    · have hl : d.nodes.getD 0 0 < d.nodes.getD (d.nodes.length - 1) 0 := (hg.getD_first.trans_lt hg.lt).trans_le hg.getD_last
      obtain ⟨k, hk, h2, h3⟩ := bracket' (v := e) hg.length (by rw [h]; exact hl) h.le
      exact ⟨k, hk, h2.le, h3⟩
  obtain ⟨k, hk, h2, h3⟩ := key
  obtain ⟨f0, f1, hn, _⟩ := hg.neighbours hc hk
  have := hg.eval hc hn h2 h3 h0
  rw [unnormedPdf, this]
  exact ⟨rfl, le_max_left _ _⟩

/-- The integral of the flux from the lower bound to an energy of the list. -/
theorem Good.hasInt {d : Flux} (hc : Consistent d) (hg : Good d) {e : ℝ} (he : e ∈ energies d.nodes d.eMin d.eMax) :
    HasInt (unnormedPdf d.table) d.eMin e (∫ t in d.eMin..e, unnormedPdf d.table t) := by
  obtain ⟨v, hv⟩ := chain_hasInt _ _ (by simpa [energies] using hg.chain hc) e (by simpa [energies] using he)
  exact ⟨hv.1, rfl⟩

/-- The part of the flux up to an energy. -/
noncomputable def share (d : Flux) (e : ℝ) : ℝ := (∫ t in d.eMin..e, unnormedPdf d.table t) / ∫ t in d.eMin..d.eMax, unnormedPdf d.table t

theorem Good.diff {d : Flux} (hc : Consistent d) (hg : Good d) {a b : ℝ} (ha : a ∈ energies d.nodes d.eMin d.eMax) (hl : Lin (unnormedPdf d.table) a b) :
    (∫ t in d.eMin..b, unnormedPdf d.table t) - (∫ t in d.eMin..a, unnormedPdf d.table t) = (b - a) * (unnormedPdf d.table a + unnormedPdf d.table b) / 2 := by
  have := ((hg.hasInt hc ha).trans hl.hasInt).2
  linarith

theorem Good.increasing {d : Flux} (hc : Consistent d) (hg : Good d) :
    ((energies d.nodes d.eMin d.eMax).map fun e => ∫ t in d.eMin..e, unnormedPdf d.table t).Pairwise (· < ·) := by
  rw [← List.isChain_iff_pairwise, List.isChain_map]
  refine List.IsChain.imp_of_mem_imp ?_ (hg.chain hc)
  intro a b ha hb hl
  have := hg.diff hc ha hl
  have h2 : 0 < (b - a) * (unnormedPdf d.table a + unnormedPdf d.table b) / 2 := by
    have := mul_pos (sub_pos.mpr hl.lt) hl.pos
    linarith
  linarith

theorem mem_lo (nodes : List ℝ) (lo hi : ℝ) : lo ∈ energies nodes lo hi := by simp [energies]

theorem mem_hi (nodes : List ℝ) (lo hi : ℝ) : hi ∈ energies nodes lo hi := by simp [energies]

theorem Good.total_pos {d : Flux} (hc : Consistent d) (hg : Good d) : 0 < ∫ t in d.eMin..d.eMax, unnormedPdf d.table t := by
  have h := hg.increasing hc
  simp only [energies, List.cons_append, List.map_cons, List.pairwise_cons] at h
  have := h.1 (∫ t in d.eMin..d.eMax, unnormedPdf d.table t) (List.mem_map.mpr ⟨d.eMax, by simp, rfl⟩)
  simpa using this

theorem Good.cdf {d : Flux} (hc : Consistent d) (hg : Good d) (hI : 0 < d.integral) :
    d.cdfValues = (energies d.nodes d.eMin d.eMax).map (share d) ∧ addTable ⟨d.cdfValues, energies d.nodes d.eMin d.eMax⟩ = .ok d.inverse := by
  have h := hc.cdf
  obtain ⟨es, hes⟩ : ∃ es, energies d.nodes d.eMin d.eMax = d.eMin :: es := ⟨_, rfl⟩
  have hch := hg.chain hc
  have hinc := hg.increasing hc
  have hsteps : steps (pdf d.table d.integral) d.eMin es ([0], [d.eMin]) =
      .ok ((d.eMin :: es).map fun e => (∫ t in d.eMin..e, unnormedPdf d.table t) / d.integral, d.eMin :: es) := by
    have hmem : ∀ e ∈ d.eMin :: es, e ∈ energies d.nodes d.eMin d.eMax := fun e he => hes ▸ he
    have := steps_spec (φ := unnormedPdf d.table) (p := pdf d.table d.integral) (G := fun e => (∫ t in d.eMin..e, unnormedPdf d.table t) / d.integral) hI es d.eMin [] []
      (hes ▸ hch) (fun e he => ?_) (fun a b ha hb hl => ?_)
    · simpa using this
    · have hb : d.eMin ≤ e ∧ e ≤ d.eMax := by
        have := hmem e he
        simp only [energies, List.cons_append, List.mem_cons, List.mem_append, List.mem_filter, decide_eq_true_eq, List.not_mem_nil, or_false] at this
        rcases this with rfl | ⟨_, h1, h2⟩ | rfl
        · exact ⟨le_rfl, hg.lt.le⟩
        · exact ⟨h1.le, h2.le⟩
        · exact ⟨hg.lt.le, le_rfl⟩
      rw [pdf, (hg.returns hc hb.1 hb.2).1, okBind]
    · rw [← hg.diff hc (hmem a ha) hl]
      ring
  unfold computeCDF at h
  rw [hes, List.tail_cons, hsteps, okBind] at h
  have hmax : maxElement ((d.eMin :: es).map fun e => (∫ t in d.eMin..e, unnormedPdf d.table t) / d.integral) = (∫ t in d.eMin..d.eMax, unnormedPdf d.table t) / d.integral := by
    rw [maxElement, List.map_cons, List.tail_cons, List.headD_cons, foldl_max_sorted]
    · have hlast : (d.eMin :: es).getLastD 0 = d.eMax := by rw [← hes, energies, List.getLastD_concat]
      rw [← List.map_cons (f := fun e => (∫ t in d.eMin..e, unnormedPdf d.table t) / d.integral)]
      rw [List.getLastD_eq_getLast?, List.getLast?_map]
      rw [List.getLastD_eq_getLast?] at hlast
      cases hq : (d.eMin :: es).getLast? with
      | none => simp at hq
      | some q => rw [hq] at hlast; simp at hlast; subst hlast; simp
    · rw [← List.map_cons (f := fun e => (∫ t in d.eMin..e, unnormedPdf d.table t) / d.integral), ← hes]
      rw [List.pairwise_map] at hinc ⊢
      exact hinc.imp fun h => div_lt_div_of_pos_right h hI
  have hmap : (((d.eMin :: es).map fun e => (∫ t in d.eMin..e, unnormedPdf d.table t) / d.integral).map fun v =>
      v * (1 / maxElement ((d.eMin :: es).map fun e => (∫ t in d.eMin..e, unnormedPdf d.table t) / d.integral))) = (d.eMin :: es).map (share d) := by
    rw [hmax, List.map_map]
    refine List.map_congr_left fun e _ => ?_
    have := (hg.total_pos hc).ne'
    have := hI.ne'
    simp only [Function.comp, share]
    field_simp
  simp only at h
  rw [hmap] at h
  obtain ⟨inv, hinv, he⟩ := bind_ok h
  have he' := Res.ok.inj he
  have h1 : (d.eMin :: es).map (share d) = d.cdfValues := congrArg Prod.fst he'
  have h2 : inv = d.inverse := congrArg Prod.snd he'
  rw [hes, ← h1, ← h2]
  exact ⟨rfl, hinv⟩

/-! ### Sampling -/

/-- The table of the inverse is interpolated exactly: its abscissas, the values of the cumulative distribution, are equally spaced or not taken for equally spaced. -/
def Exact (d : Flux) : Prop := EquallySpaced ⟨d.cdfValues, energies d.nodes d.eMin d.eMax⟩ ∨ d.inverse.indexer.isRegular = false

theorem Good.sample {d : Flux} (hc : Consistent d) (hg : Good d) (hI : 0 < d.integral) (hx : Exact d) {u : ℝ} (h0 : 0 < u) (h1 : u ≤ 1) :
    ∃ a b, Next d.nodes d.eMin d.eMax a b ∧ a ∈ energies d.nodes d.eMin d.eMax ∧ b ∈ energies d.nodes d.eMin d.eMax ∧ share d a < u ∧ u ≤ share d b ∧
      d.sampleEnergy u = .ok (line (share d a) a (share d b) b u) := by
  obtain ⟨hcdf, hadd⟩ := hg.cdf hc hI
  obtain ⟨L, hL⟩ : ∃ L, L = energies d.nodes d.eMin d.eMax := ⟨_, rfl⟩
  have hsorted : d.cdfValues.Pairwise (· < ·) := by
    have hinc := hg.increasing hc
    rw [hcdf, List.pairwise_map]
    rw [List.pairwise_map] at hinc
    exact hinc.imp fun h => div_lt_div_of_pos_right h (hg.total_pos hc)
  have hlen : d.cdfValues.length = L.length := by rw [hcdf, List.length_map, hL]
  have hget : ∀ i, i < L.length → d.cdfValues.getD i 0 = share d (L.getD i 0) := by
    intro i hi
    rw [hcdf, ← hL, List.getD_eq_getElem?_getD, List.getD_eq_getElem?_getD, List.getElem?_map, List.getElem?_eq_getElem hi]
    rfl
  have hLpos : 2 ≤ L.length := by rw [hL, energies]; simp
  have hfst : L.getD 0 0 = d.eMin := by rw [hL, energies]; simp
  have hlst : L.getD (L.length - 1) 0 = d.eMax := by
    rw [hL, energies]
    simp
  have hs0 : share d d.eMin = 0 := by simp [share]
  have hs1 : share d d.eMax = 1 := by rw [share, div_self (hg.total_pos hc).ne']
  obtain ⟨k, hk, hk0, hk1⟩ := bracket' (L := d.cdfValues) (v := u) (by omega) (by rw [hget 0 (by omega), hfst, hs0]; exact h0)
    (by rw [hlen, hget _ (by omega), hlst, hs1]; exact h1)
  rw [hlen] at hk
  rw [hget k (by omega)] at hk0
  rw [hget (k + 1) hk] at hk1
  have hnext : Next d.nodes d.eMin d.eMax (L.getD k 0) (L.getD (k + 1) 0) := by
    have := List.isChain_iff_getElem.mp (energies_chain hg.sorted hg.lt) k (by rw [← hL]; omega)
    rw [getD_getElem _ _ (by omega), getD_getElem _ _ hk]
    simpa only [hL] using this
  have ha : L.getD k 0 ∈ L := getD_mem _ _ (by omega)
  have hb : L.getD (k + 1) 0 ∈ L := getD_mem _ _ hk
  have hmem : ∀ i, i < L.length → (share d (L.getD i 0), L.getD i 0) ∈ d.cdfValues.zip L := by
    intro i hi
    rw [List.mem_iff_getElem]
    refine ⟨i, by rw [List.length_zip]; omega, ?_⟩
    rw [List.getElem_zip, ← hget i hi, getD_getElem _ _ (by omega), getD_getElem _ _ hi]
  have hn : Neighbours ⟨d.cdfValues, L⟩ (share d (L.getD k 0)) (L.getD k 0) (share d (L.getD (k + 1) 0)) (L.getD (k + 1) 0) := by
    refine ⟨hmem k (by omega), hmem (k + 1) hk, by linarith, fun v hv => ?_⟩
    obtain ⟨i, hi, rfl⟩ := mem_getD _ v hv
    rw [← hget k (by omega), ← hget (k + 1) hk]
    rcases Nat.lt_or_ge k i with h | h
    · right
      rcases Nat.eq_or_lt_of_le h with h | h
      · rw [← h]
      · exact (getD_lt _ hsorted _ _ h hi).le
    · left
      rcases Nat.eq_or_lt_of_le h with h | h
      · rw [h]
      · exact (getD_lt _ hsorted _ _ h (by omega)).le
  rw [Exact, ← hL] at hx
  rw [← hL] at hadd
  have hev := C49_linear _ _ hadd _ _ _ _ hn u hk0.le hk1 (by
    rcases hx with hx | hx
    · exact Or.inl hx
    · exact Or.inr ⟨hx, 0, by
        have := getD_mem d.cdfValues 0 (by omega)
        rwa [hget 0 (by omega), hfst, hs0] at this, h0⟩)
  refine ⟨L.getD k 0, L.getD (k + 1) 0, hnext, hL ▸ ha, hL ▸ hb, hk0, hk1, ?_⟩
  rw [Flux.sampleEnergy, hev, max_eq_right]
  have hq : 0 ≤ (L.getD (k + 1) 0 - L.getD k 0) * (u - share d (L.getD k 0)) / (share d (L.getD (k + 1) 0) - share d (L.getD k 0)) :=
    div_nonneg (mul_nonneg (by linarith [hnext.1]) (by linarith)) (by linarith)
  rw [Table.line]
  linarith [hg.zero, hnext.2.1]

theorem line_between {a b s t u : ℝ} (hab : a < b) (hs : s < u) (ht : u ≤ t) : a < line s a t b u ∧ line s a t b u ≤ b := by
  have hst : 0 < t - s := by linarith
  rw [Table.line]
  constructor
  · have : 0 < (b - a) * (u - s) / (t - s) := div_pos (mul_pos (by linarith) (by linarith)) hst
    linarith
  · have : (b - a) * (u - s) / (t - s) ≤ b - a := by
      rw [div_le_iff₀ hst]
      exact mul_le_mul_of_nonneg_left (by linarith) (by linarith)
    linarith

theorem Good.share_le {d : Flux} (hc : Consistent d) (hg : Good d) {a b : ℝ} (ha : a ∈ energies d.nodes d.eMin d.eMax) (hb : b ∈ energies d.nodes d.eMin d.eMax) :
    a ≤ b → share d a ≤ share d b := by
  intro hab
  rcases hab.eq_or_lt with rfl | hab
  · exact le_rfl
  have hinc := hg.increasing hc
  have hs := energies_sorted hg.sorted hg.lt
  obtain ⟨i, hi, rfl⟩ := List.mem_iff_getElem.mp ha
  obtain ⟨j, hj, rfl⟩ := List.mem_iff_getElem.mp hb
  have hij : i < j := by
    rcases lt_trichotomy i j with h | h | h
    · exact h
    · subst h; exact absurd hab (lt_irrefl _)
    · exact absurd (List.pairwise_iff_getElem.mp hs j i hj hi h) (not_lt.mpr hab.le)
  have := List.pairwise_iff_getElem.mp hinc i j (by simpa using hi) (by simpa using hj) hij
  simp only [List.getElem_map] at this
  exact (div_lt_div_of_pos_right this (hg.total_pos hc)).le

theorem Good.density_eq {d : Flux} (hc : Consistent d) (hg : Good d) {e : ℝ} (h0 : d.eMin ≤ e) (h1 : e ≤ d.eMax) : density d e = unnormedPdf d.table e / d.integral := by
  rw [density, Flux.generationProbability, if_neg (by push Not; exact ⟨h0, h1⟩), pdf, (hg.returns hc h0 h1).1, okBind]

theorem Good.integral_density {d : Flux} (hc : Consistent d) (hg : Good d) {e : ℝ} (h0 : d.eMin ≤ e) (h1 : e ≤ d.eMax) :
    ∫ t in d.eMin..e, density d t = (∫ t in d.eMin..e, unnormedPdf d.table t) / d.integral := by
  rw [← intervalIntegral.integral_div]
  refine intervalIntegral.integral_congr fun t ht => ?_
  rw [uIcc_of_le h0] at ht
  exact hg.density_eq hc ht.1 (ht.2.trans h1)

/-- With the trapezoid rule the integral is that of the interpolated flux. -/
theorem Good.integral_eq {d : Flux} (hc : Consistent d) (hg : Good d) (hr : d.romberg = false) : d.integral = ∫ t in d.eMin..d.eMax, unnormedPdf d.table t := by
  obtain ⟨-, -, -, -, hlen, -⟩ := addTable_ok _ _ hc.table
  have h := hc.integral
  rw [computeIntegral, hr] at h
  simp only [Bool.false_eq_true, if_false] at h
  obtain ⟨f, hf⟩ := exists_interpolant d.nodes d.values hlen (hg.sorted.imp le_of_lt)
  rw [C50_range _ _ f hf hlen (hg.sorted.imp le_of_lt) _ _ hg.lt.le] at h
  rw [← Res.ok.inj h]
  refine intervalIntegral.integral_congr_ae ?_
  have hnull : volume {t | t ∈ d.nodes} = 0 := by
    have : {t | t ∈ d.nodes}.Finite := List.finite_toSet d.nodes
    exact this.measure_zero _
  filter_upwards [compl_mem_ae_iff.mpr hnull] with t ht hi
  rw [uIoc_of_le hg.lt.le] at hi
  have ht' : t ∉ d.nodes := ht
  have hlt : t < d.nodes.getD (d.nodes.length - 1) 0 :=
    lt_of_le_of_ne (hi.2.trans hg.getD_last) fun he => ht' (he ▸ getD_mem _ _ (by have := hg.length; omega))
  obtain ⟨k, hk, h0, h1⟩ := bracket (v := t) hg.length (hg.getD_first.trans hi.1.le) hlt
  have h0' : d.nodes.getD k 0 < t := lt_of_le_of_ne h0 fun he => ht' (he ▸ getD_mem _ _ (by omega))
  have hlen' : d.nodes.length = d.values.length := hlen
  have hget := hf.line k (d.nodes.getD k 0) (d.nodes.getD (k + 1) 0) (d.values.getD k 0) (d.values.getD (k + 1) 0) (getElem?_getD _ _ (by omega)) (getElem?_getD _ _ hk)
    (getElem?_getD _ _ (by omega)) (getElem?_getD _ _ (by omega)) t h0' h1
  obtain ⟨f0, f1, hn, hf0, hf1⟩ := hg.neighbours hc hk
  have hnd : d.nodes.Nodup := hg.sorted.imp fun h => ne_of_lt h
  have hz : ∀ i, i < d.nodes.length → (d.nodes.getD i 0, d.values.getD i 0) ∈ d.nodes.zip d.values := by
    intro i hi
    rw [List.mem_iff_getElem]
    exact ⟨i, by rw [List.length_zip]; omega, by rw [List.getElem_zip, getD_getElem _ _ hi, getD_getElem _ _ (by omega)]⟩
  have e0 : f0 = d.values.getD k 0 := zip_functional _ _ hnd _ _ _ hn.first (hz k (by omega))
  have e1 : f1 = d.values.getD (k + 1) 0 := zip_functional _ _ hnd _ _ _ hn.second (hz (k + 1) hk)
  have hlin := lin_of_line (φ := fun t => max 0 (line (d.nodes.getD k 0) f0 (d.nodes.getD (k + 1) 0) f1 t)) le_rfl hn.lt le_rfl hf0 hf1 (hg.pos _ _ _ _ hn) (fun _ _ => rfl)
  rw [hget, unnormedPdf, hg.eval hc hn h0 h1.le hi.1.le]
  simp only
  rw [max_eq_right, Table.line, e0, e1]
  have hd : 0 < d.nodes.getD (k + 1) 0 - d.nodes.getD k 0 := by linarith [hn.lt]
  have : line (d.nodes.getD k 0) f0 (d.nodes.getD (k + 1) 0) f1 t = (f0 * (d.nodes.getD (k + 1) 0 - t) + f1 * (t - d.nodes.getD k 0)) / (d.nodes.getD (k + 1) 0 - d.nodes.getD k 0) := by
    rw [Table.line]
    field_simp
    ring
  rw [this]
  exact div_nonneg (add_nonneg (mul_nonneg hf0 (by linarith)) (mul_nonneg hf1 (by linarith))) hd.le

/-! ### Theorems -/

/-- C96: with the trapezoid rule the reported density is not negative, vanishes outside of the range of energies, and its integral is 1. -/
theorem C96_density {d : Flux} (hm : Made d) (hg : Good d) (hr : d.romberg = false) :
    (∀ e, ∃ p, d.generationProbability e = .ok p ∧ 0 ≤ p) ∧ (∀ e, e ∉ Icc d.eMin d.eMax → d.generationProbability e = .ok 0) ∧ ∫ e, density d e = 1 := by
  have hc := consistent hm
  have hI : d.integral = _ := hg.integral_eq hc hr
  have hpos : 0 < d.integral := hI ▸ hg.total_pos hc
  have hout : ∀ e, e ∉ Icc d.eMin d.eMax → d.generationProbability e = .ok 0 := by
    intro e he
    rw [Flux.generationProbability, if_pos]
    by_contra h
    push Not at h
    exact he ⟨h.1, h.2⟩
  refine ⟨fun e => ?_, hout, ?_⟩
  · by_cases he : e ∈ Icc d.eMin d.eMax
    · obtain ⟨h1, h2⟩ := hg.returns hc he.1 he.2
      refine ⟨_, ?_, div_nonneg h2 hpos.le⟩
      rw [Flux.generationProbability, if_neg (by push Not; exact ⟨he.1, he.2⟩), pdf, h1, okBind]
    · exact ⟨0, hout e he, le_rfl⟩
  · rw [← setIntegral_eq_integral_of_forall_compl_eq_zero (s := Icc d.eMin d.eMax) (fun x hx => by rw [density, hout x hx]), integral_Icc_eq_integral_Ioc,
      ← intervalIntegral.integral_of_le hg.lt.le, hg.integral_density hc hg.lt.le le_rfl, ← hI, div_self hpos.ne']

/-- C96: every sampled energy is inside of the range. -/
theorem C96_range {d : Flux} (hm : Made d) (hg : Good d) (hI : 0 < d.integral) (hx : Exact d) {u : ℝ} (h0 : 0 < u) (h1 : u ≤ 1) :
    ∃ e, d.sampleEnergy u = .ok e ∧ d.eMin < e ∧ e ≤ d.eMax := by
  have hc := consistent hm
  obtain ⟨a, b, hn, _, _, hs, ht, he⟩ := hg.sample hc hI hx h0 h1
  obtain ⟨h2, h3⟩ := line_between hn.1 hs ht
  exact ⟨_, he, hn.2.1.trans_lt h2, h3.trans hn.2.2.1⟩

/-- C96: at every energy of the table the sampled energies have the probability the reported density gives. -/
theorem C96_nodes_partial {d : Flux} (hm : Made d) (hg : Good d) (hI : 0 < d.integral) (hx : Exact d) {e : ℝ} (he : e ∈ d.nodes ∨ e = d.eMin ∨ e = d.eMax) (h0 : d.eMin ≤ e) (h1 : e ≤ d.eMax) :
    volume {u | u ∈ Icc (0 : ℝ) 1 ∧ ∃ x, d.sampleEnergy u = .ok x ∧ x ≤ e} = ENNReal.ofReal ((∫ t in d.eMin..e, density d t) / ∫ t in d.eMin..d.eMax, density d t) := by
  classical
  have hc := consistent hm
  have hmem : e ∈ energies d.nodes d.eMin d.eMax := by
    rw [energies]
    rcases he with he | rfl | rfl
    · rcases h0.eq_or_lt with rfl | h0
      · simp
      rcases h1.eq_or_lt with rfl | h1
      · simp
      simp [he, h0, h1]
    · simp
    · simp
  have hrhs : (∫ t in d.eMin..e, density d t) / ∫ t in d.eMin..d.eMax, density d t = share d e := by
    rw [hg.integral_density hc h0 h1, hg.integral_density hc hg.lt.le le_rfl, share, div_div_div_cancel_right₀ hI.ne']
  have hs0 : share d d.eMin = 0 := by simp [share]
  have hs1 : share d d.eMax = 1 := by rw [share, div_self (hg.total_pos hc).ne']
  have hle1 : share d e ≤ 1 := hs1 ▸ hg.share_le hc hmem (mem_hi _ _ _) h1
  have hge0 : 0 ≤ share d e := hs0 ▸ hg.share_le hc (mem_lo _ _ _) hmem h0
  rw [hrhs]
  apply le_antisymm
  · have hsub : {u | u ∈ Icc (0 : ℝ) 1 ∧ ∃ x, d.sampleEnergy u = .ok x ∧ x ≤ e} ⊆ Icc 0 (share d e) := by
      rintro u ⟨hu, x, hx', hle⟩
      refine ⟨hu.1, ?_⟩
      rcases hu.1.eq_or_lt with rfl | hu0
      · exact hge0
      obtain ⟨a, b, hn, ha, hb, hs, ht, hev⟩ := hg.sample hc hI hx hu0 hu.2
      rw [hx'] at hev
      obtain rfl := Res.ok.inj hev
      have hae : a < e := (line_between hn.1 hs ht).1.trans_le hle
      have hbe : b ≤ e := by
        rcases he with he | rfl | rfl
        · exact (hn.2.2.2 e he).resolve_left (not_le.mpr hae)
        · exact absurd hn.2.1 (not_le.mpr hae)
        · exact hn.2.2.1
      exact ht.trans (hg.share_le hc hb hmem hbe)
    calc volume _ ≤ volume (Icc 0 (share d e)) := measure_mono hsub
      _ = _ := by rw [Real.volume_Icc, sub_zero]
  · have hsub : Ioc 0 (share d e) ⊆ {u | u ∈ Icc (0 : ℝ) 1 ∧ ∃ x, d.sampleEnergy u = .ok x ∧ x ≤ e} := by
      intro u hu
      have hu1 : u ≤ 1 := hu.2.trans hle1
      obtain ⟨a, b, hn, ha, hb, hs, ht, hev⟩ := hg.sample hc hI hx hu.1 hu1
      refine ⟨⟨hu.1.le, hu1⟩, _, hev, (line_between hn.1 hs ht).2.trans ?_⟩
      by_contra hlt
      push Not at hlt
      have hea : e ≤ a := by
        rcases he with he | rfl | rfl
        · exact (hn.2.2.2 e he).resolve_right (not_le.mpr hlt)
        · exact hn.2.1
        · exact absurd hn.2.2.1 (not_le.mpr hlt)
      have := hg.share_le hc hmem ha hea
      linarith [hu.2]
    calc ENNReal.ofReal (share d e) = volume (Ioc 0 (share d e)) := by rw [Real.volume_Ioc, sub_zero]
      _ ≤ _ := measure_mono hsub

/-- C96: the physical normalization is the integral of the flux over the range, for a distribution just made with the trapezoid rule. -/
theorem C96_norm {bounds : Option (ℝ × ℝ)} {es fl : List ℝ} {d : Flux} (h : construct bounds es fl true false = .ok d) (hg : Good d) :
    d.norm = some (∫ t in d.eMin..d.eMax, unnormedPdf d.table t) := by
  have hr : d.romberg = false ∧ d.norm = some d.integral := by
    unfold construct at h
    split at h
    · cases h
    · obtain ⟨t, ht, h⟩ := bind_ok h
      obtain ⟨i, hi, h⟩ := bind_ok h
      obtain ⟨c, hc, h⟩ := bind_ok h
      cases h
      exact ⟨rfl, rfl⟩
  rw [hr.2, hg.integral_eq (consistent (.new h)) hr.1]

/-! ### Where the code falls short -/

theorem build_two {b f0 f1 : ℝ} (hb : 0 < b) : addTable ⟨[0, b], [f0, f1]⟩ = .ok (build ⟨[0, b], [f0, f1]⟩) ∧
    (∀ v, (build ⟨[0, b], [f0, f1]⟩).eval v = .ok (max 0 (line 0 f0 b f1 v))) ∧ EquallySpaced ⟨[0, b], [f0, f1]⟩ := by
  have hs : setOf [0, b] = [0, b] := setOf_of_sorted _ (by simp [hb])
  have hlb : ∀ x, logBelow [0, b] x = false := by
    intro x
    by_contra hc
    exact lt_irrefl _ (logBelow_pos _ _ (by simpa using hc) 0 (by simp))
  have hr : relDist [0, b] = 0 := by
    refine relDist_zero _ (by simp [hb]) (by simp) b fun k hk => ?_
    obtain rfl : k = 0 := by simp at hk; exact hk
    simp
  have hix : Indexer.of ⟨[0, b], [f0, f1]⟩ = ⟨false, true, [0, b], Regular.of [0, b], ⟨[0, b]⟩⟩ := by
    simp only [Indexer.of, hs, hlb, hr]
    norm_num
  have hadd : addTable ⟨[0, b], [f0, f1]⟩ = .ok (build ⟨[0, b], [f0, f1]⟩) := by
    rw [addTable]
    simp only [hs, build, hix]
    simp
  refine ⟨hadd, fun v => ?_, ?_⟩
  · have hfun : (build ⟨[0, b], [f0, f1]⟩).function = fill [0, b] [0, b] [f0, f1] (fun _ => none) := by
      simp only [build, hs, hix]
      simp
    have hat : ∀ i f, i < 2 → (([0, b] : List ℝ).getD i 0, f) ∈ ([0, b] : List ℝ).zip [f0, f1] → (build ⟨[0, b], [f0, f1]⟩).at_ i = .ok f := by
      intro i f hi hm
      rw [Interp.at_, hfun, fill_mem [0, b] (by simp [hb]) _ _ _ (by simp [hb.ne]) (fun x hx => hx) i hi f hm]
    have hfind : (Indexer.of ⟨[0, b], [f0, f1]⟩).find v = .ok ⟨0, v, 0, b⟩ := by
      have hz : ∀ i : Int, (if i < 0 then (0 : Int) else if ((2 : Nat) : Int) - 1 ≤ i then ((2 : Nat) : Int) - 2 else i) = 0 := by
        intro i
        split_ifs <;> omega
      have hreg : Regular.of [0, b] = ⟨0, b, 2⟩ := rfl
      rw [hix, Indexer.find, hreg]
      simp only [Bool.false_eq_true, if_false, if_true, Regular.find, hz, Regular.delta, Regular.range]
      norm_num
    have hix' : (build ⟨[0, b], [f0, f1]⟩).indexer = Indexer.of ⟨[0, b], [f0, f1]⟩ := rfl
    rw [Interp.eval, hix', hfind, okBind, hix]
    simp only [List.length_cons, List.length_nil]
    norm_num
    rw [hat 0 f0 (by omega) (by simp), okBind, hat 1 f1 (by omega) (by simp), okBind, okBind, Table.line, sub_zero, sub_zero]
    congr 1
    rcases lt_or_ge (f0 + (f1 - f0) * v / b) 0 with h | h
    · rw [if_pos h, max_eq_left h.le]
    · rw [if_neg (not_lt.mpr h), max_eq_right h]
  · refine ⟨b, fun x0 g0 x1 g1 h => ?_⟩
    obtain ⟨k, hk, e0, e1⟩ := neighbours_index _ _ _ _ _ h
    simp only [hs] at hk e0 e1
    obtain rfl : k = 0 := by simp at hk; exact hk
    simp at e0 e1
    rw [← e0, ← e1, sub_zero]

/-- The distribution made of the table `0, 1 ↦ f0, f1`. -/
theorem construct_two {f0 f1 : ℝ} (h0 : 0 ≤ f0) (h1 : 0 ≤ f1) (hp : 0 < f0 + f1) (physical : Bool) :
    construct none [0, 1] [f0, f1] physical false = .ok ⟨0, 1, false, build ⟨[0, 1], [f0, f1]⟩, build ⟨[0, 1], [0, 1]⟩, (f0 + f1) / 2, [0, 1], [0, 1], [f0, f1], [],
      if physical then some ((f0 + f1) / 2) else none⟩ := by
  obtain ⟨ha, hev, -⟩ := build_two (b := 1) (f0 := f0) (f1 := f1) one_pos
  have hT : trapezoidRange [0, 1] [f0, f1] 0 1 = .ok ((f0 + f1) / 2) := by
    norm_num [trapezoidRange, upperBound, lowerBound, rd, lerp, Res.bind, List.findIdx, List.findIdx.go]
  have hC : computeCDF (build ⟨[0, 1], [f0, f1]⟩) ((f0 + f1) / 2) [0, 1] 0 1 = .ok ([0, 1], build ⟨[0, 1], [0, 1]⟩) := by
    have e0 : line 0 f0 1 f1 0 = f0 := by simp [Table.line]
    have e1 : line 0 f0 1 f1 1 = f1 := by simp [Table.line]
    have hen : energies [0, 1] 0 1 = [0, 1] := by simp [energies]
    have hst : steps (pdf (build ⟨[0, 1], [f0, f1]⟩) ((f0 + f1) / 2)) 0 [1] ([0], [0]) = .ok ([0, 1], [0, 1]) := by
      rw [steps, pdf, pdf, hev, hev, okBind, okBind, okBind, okBind, e0, e1, max_eq_right h0, max_eq_right h1]
      have hs : f0 / ((f0 + f1) / 2) + f1 / ((f0 + f1) / 2) = 2 := by field_simp
      rw [hs]
      norm_num [steps]
    unfold computeCDF
    rw [hen, List.tail_cons, hst, okBind]
    have : (([0, 1] : List ℝ).map fun v => v * (1 / maxElement [0, 1])) = [0, 1] := by norm_num [maxElement]
    simp only [this]
    rw [(build_two (b := 1) (f0 := 0) (f1 := 1) one_pos).1, okBind]
  unfold construct
  rw [if_neg (by simp)]
  have hmin : minElement [0, 1] = 0 := by norm_num [minElement]
  have hmax : maxElement [0, 1] = 1 := by norm_num [maxElement]
  simp only [hmin, hmax]
  rw [ha, okBind]
  rw [computeIntegral]
  simp only [Bool.false_eq_true, if_false]
  rw [hT, okBind, hC, okBind]

/-- C96: between the energies of the table the sampled energies do not follow the reported density. For the flux `1 + 2 E` on `[0, 1]`, given at both ends, an energy up to 1/2 has probability 3/8; it is sampled with
probability 1/2. -/
theorem C96_between_fails : ∃ d, Made d ∧ Good d ∧ Exact d ∧ d.romberg = false ∧ ∫ t in d.eMin..(1 / 2 : ℝ), density d t = 3 / 8 ∧
    volume {u | u ∈ Icc (0 : ℝ) 1 ∧ ∃ x, d.sampleEnergy u = .ok x ∧ x ≤ 1 / 2} = ENNReal.ofReal (1 / 2) := by
  obtain ⟨ha, hev, heq⟩ := build_two (b := 1) (f0 := 1) (f1 := 3) one_pos
  obtain ⟨ha', hev', heq'⟩ := build_two (b := 1) (f0 := 0) (f1 := 1) one_pos
  have hc := construct_two (f0 := 1) (f1 := 3) (by norm_num) (by norm_num) (by norm_num) false
  refine ⟨_, .new hc, ?_, ?_, rfl, ?_, ?_⟩
  · refine ⟨by simp, by simp, ?_, one_pos, ⟨0, by simp, le_rfl⟩, ⟨1, by simp, le_rfl⟩, le_rfl, Or.inl heq⟩
    intro x0 f0 x1 f1 h
    have h0 := h.first
    have h1 := h.second
    simp at h0 h1
    rcases h0 with ⟨-, rfl⟩ | ⟨-, rfl⟩ <;> rcases h1 with ⟨-, rfl⟩ | ⟨-, rfl⟩ <;> norm_num
  · left
    have : energies [0, 1] 0 1 = [0, 1] := by simp [energies]
    simp only [this]
    exact heq'
  · simp only
    have hd : ∀ t ∈ uIcc (0 : ℝ) (1 / 2), density ⟨0, 1, false, build ⟨[0, 1], [1, 3]⟩, build ⟨[0, 1], [0, 1]⟩, (1 + 3) / 2, [0, 1], [0, 1], [1, 3], [], none⟩ t = line 0 (1 / 2) (1 / 2) 1 t := by
      intro t ht
      rw [uIcc_of_le (by norm_num)] at ht
      rw [density, Flux.generationProbability]
      simp only
      rw [if_neg (by push Not; exact ⟨ht.1, by linarith [ht.2]⟩), pdf, hev, okBind]
      simp only [Table.line]
      rw [max_eq_right (by norm_num; linarith [ht.1])]
      ring
    rw [show (if false = true then some ((1 + 3 : ℝ) / 2) else none) = none from rfl, intervalIntegral.integral_congr hd, (hasInt_line 0 (1 / 2) (1 / 2) 1 (by norm_num)).2]
    norm_num
  · have : {u | u ∈ Icc (0 : ℝ) 1 ∧ ∃ x, (build ⟨[0, 1], [0, 1]⟩).eval u = .ok x ∧ x ≤ 1 / 2} = Icc 0 (1 / 2) := by
      ext u
      simp only [mem_ofPred_eq, hev']
      constructor
      · rintro ⟨hu, x, hx, hle⟩
        obtain rfl := Res.ok.inj hx
        refine ⟨hu.1, ?_⟩
        have := le_max_right 0 (line 0 0 1 1 u)
        have e : line 0 0 1 1 u = u := by simp [Table.line]
        linarith
      · intro hu
        have e : line 0 0 1 1 u = u := by simp [Table.line]
        refine ⟨⟨hu.1, by linarith [hu.2]⟩, _, rfl, ?_⟩
        rw [e, max_eq_right hu.1]
        exact hu.2
    simp only [Flux.sampleEnergy]
    rw [this, Real.volume_Icc, sub_zero]

/-- C96: `SetEnergyBounds` leaves the physical normalization as it was. For the flux 1 on `[0, 1]`, restricted to `[0, 1/2]`, it is 1 and the integral is 1/2. -/
theorem C96_norm_fails : ∃ d d', construct none [0, 1] [1, 1] true false = .ok d ∧ d.setEnergyBounds 0 (1 / 2) = .ok d' ∧ d'.integral = 1 / 2 ∧ d'.norm = some 1 := by
  obtain ⟨ha, hev, heq⟩ := build_two (b := 1) (f0 := 1) (f1 := 1) one_pos
  have hc := construct_two (f0 := 1) (f1 := 1) (by norm_num) (by norm_num) (by norm_num) true
  have hT : trapezoidRange [0, 1] [1, 1] 0 (1 / 2) = .ok (1 / 2) := by
    norm_num [trapezoidRange, upperBound, lowerBound, rd, lerp, Res.bind, List.findIdx, List.findIdx.go]
  have hl : ∀ v, line 0 1 1 1 v = 1 := by intro v; simp [Table.line]
  have hC : computeCDF (build ⟨[0, 1], [1, 1]⟩) (1 / 2) [0, 1] 0 (1 / 2) = .ok ([0, 1], build ⟨[0, 1], [0, 1 / 2]⟩) := by
    have hen : energies [0, 1] 0 (1 / 2) = [0, 1 / 2] := by norm_num [energies]
    have hst : steps (pdf (build ⟨[0, 1], [1, 1]⟩) (1 / 2)) 0 [1 / 2] ([0], [0]) = .ok ([0, 1], [0, 1 / 2]) := by
      rw [steps, pdf, pdf, hev, hev, okBind, okBind, okBind, okBind, hl, hl]
      norm_num [steps]
    unfold computeCDF
    rw [hen, List.tail_cons, hst, okBind]
    have : (([0, 1] : List ℝ).map fun v => v * (1 / maxElement [0, 1])) = [0, 1] := by norm_num [maxElement]
    simp only [this]
    rw [(build_two (b := 1) (f0 := 0) (f1 := 1 / 2) one_pos).1, okBind]
  refine ⟨_, ⟨0, 1 / 2, false, build ⟨[0, 1], [1, 1]⟩, build ⟨[0, 1], [0, 1 / 2]⟩, 1 / 2, [0, 1], [0, 1], [1, 1], [], some 1⟩, hc, ?_, rfl, rfl⟩
  · rw [Flux.setEnergyBounds, computeIntegral]
    simp only [Bool.false_eq_true, if_false]
    rw [hT, okBind, hC, okBind]
    norm_num

/-- C96: a range that is wider than the table. The flux 1 given at 0 and 1, for the range `[0, 2]`: the interpolation goes on beyond the table, the integral does not, and the integral of the reported density is 2. -/
theorem C96_bounds_fails : ∃ d, construct (some (0, 2)) [0, 1] [1, 1] false false = .ok d ∧ ∫ t in d.eMin..d.eMax, density d t = 2 := by
  obtain ⟨ha, hev, heq⟩ := build_two (b := 1) (f0 := 1) (f1 := 1) one_pos
  have hT : trapezoidRange [0, 1] [1, 1] 0 2 = .ok 1 := by
    norm_num [trapezoidRange, upperBound, lowerBound, rd, lerp, Res.bind, List.findIdx, List.findIdx.go]
  have hl : ∀ v, line 0 1 1 1 v = 1 := by intro v; simp [Table.line]
  have hC : computeCDF (build ⟨[0, 1], [1, 1]⟩) 1 [0, 1] 0 2 = .ok ([0, 1 / 2, 1], build ⟨[0, 1 / 2, 1], [0, 1, 2]⟩) := by
    have hen : energies [0, 1] 0 2 = [0, 1, 2] := by norm_num [energies]
    have hst : steps (pdf (build ⟨[0, 1], [1, 1]⟩) 1) 0 [1, 2] ([0], [0]) = .ok ([0, 1, 2], [0, 1, 2]) := by
      rw [steps, pdf, pdf, hev, hev, okBind, okBind, okBind, okBind, hl, hl]
      norm_num
      rw [steps, pdf, pdf, hev, hev, okBind, okBind, okBind, okBind, hl, hl]
      norm_num [steps]
    unfold computeCDF
    rw [hen, List.tail_cons, hst, okBind]
    have : (([0, 1, 2] : List ℝ).map fun v => v * (1 / maxElement [0, 1, 2])) = [0, 1 / 2, 1] := by norm_num [maxElement]
    simp only [this]
    rw [add3 (1 / 2) 1 0 1 2 (by norm_num) (by norm_num), okBind]
  refine ⟨⟨0, 2, false, build ⟨[0, 1], [1, 1]⟩, build ⟨[0, 1 / 2, 1], [0, 1, 2]⟩, 1, [0, 1 / 2, 1], [0, 1], [1, 1], [], none⟩, ?_, ?_⟩
  · unfold construct
    rw [if_neg (by simp)]
    simp only
    rw [ha, okBind, computeIntegral]
    simp only [Bool.false_eq_true, if_false]
    rw [hT, okBind, hC, okBind]
  · have hd : ∀ t ∈ uIcc (0 : ℝ) 2, density ⟨0, 2, false, build ⟨[0, 1], [1, 1]⟩, build ⟨[0, 1 / 2, 1], [0, 1, 2]⟩, 1, [0, 1 / 2, 1], [0, 1], [1, 1], [], none⟩ t = 1 := by
      intro t ht
      rw [uIcc_of_le (by norm_num)] at ht
      rw [density, Flux.generationProbability]
      simp only
      rw [if_neg (by push Not; exact ⟨ht.1, ht.2⟩), pdf, hev, okBind, hl]
      norm_num
    simp only
    rw [intervalIntegral.integral_congr hd]
    norm_num

/-- C96: a table that is not equally spaced, over its whole range. For the flux 1, 1, 5 at 0, 1, 3 an energy up to 1 has probability 1/7; the value of the interpolation at the first energy is 0 (compare C49), and it is
sampled with probability 1/13. -/
theorem C96_first_fails : ∃ d, construct none [0, 1, 3] [1, 1, 5] false false = .ok d ∧ ∫ t in d.eMin..(1 : ℝ), density d t = 1 / 7 ∧
    volume {u | u ∈ Icc (0 : ℝ) 1 ∧ ∃ x, d.sampleEnergy u = .ok x ∧ x ≤ 1} ≤ ENNReal.ofReal (1 / 13) := by
  have ha := add3 1 3 1 1 5 (by norm_num) (by norm_num)
  have hi : (build ⟨[0, 1, 3], [1, 1, 5]⟩).indexer = _ := indexer3 1 3 [1, 1, 5] (by norm_num) (by norm_num)
  have hr : relDist [0, 1, 3] = 1 / 3 := by rw [relDist3 _ _ _ (by norm_num) (by norm_num)]; norm_num [abs_of_neg]
  have hirr : (build ⟨[0, 1, 3], [1, 1, 5]⟩).indexer.isRegular = false := by rw [hi, hr]; norm_num
  have hn1 : Neighbours ⟨[0, 1, 3], [1, 1, 5]⟩ 0 1 1 1 := ⟨by simp, by simp, by norm_num, by simp⟩
  have hn2 : Neighbours ⟨[0, 1, 3], [1, 1, 5]⟩ 1 1 3 5 := ⟨by simp, by simp, by norm_num, by simp⟩
  have e0 : (build ⟨[0, 1, 3], [1, 1, 5]⟩).eval 0 = .ok 0 := by
    obtain ⟨-, h1, h2⟩ := function3 1 3 1 1 5 (by norm_num) (by norm_num)
    rw [Interp.eval]
    have hf : (Irregular.mk [0, 1, 3]).find 0 = .ok ⟨1, 0, 1, 2⟩ := by
      have hd : lowerBound ([0, 1, 3] : List ℝ) 0 = 0 := by simp [lowerBound, List.findIdx_cons]
      simp only [Irregular.find, hd, Irregular.diff, rd]
      norm_num [Res.bind]
    rw [hi, hr]
    simp only [Indexer.find]
    norm_num [hf, h1, h2, okBind]
  have e1 : ∀ t : ℝ, 0 < t → t ≤ 1 → (build ⟨[0, 1, 3], [1, 1, 5]⟩).eval t = .ok 1 := by
    intro t h0 h1
    rw [C49_linear _ _ ha _ _ _ _ hn1 t h0.le h1 (Or.inr ⟨hirr, 0, by simp, h0⟩)]
    norm_num [Table.line]
  have e3 : (build ⟨[0, 1, 3], [1, 1, 5]⟩).eval 3 = .ok 5 := by
    rw [C49_linear _ _ ha _ _ _ _ hn2 3 (by norm_num) le_rfl (Or.inr ⟨hirr, 0, by simp, by norm_num⟩)]
    norm_num [Table.line]
  have hT : trapezoidRange [0, 1, 3] [1, 1, 5] 0 3 = .ok 7 := by
    norm_num [trapezoidRange, upperBound, lowerBound, rd, lerp, Res.bind, Polynom.forLoop, List.findIdx, List.findIdx.go]
  have hC : computeCDF (build ⟨[0, 1, 3], [1, 1, 5]⟩) 7 [0, 1, 3] 0 3 = .ok ([0, 1 / 13, 1], build ⟨[0, 1 / 13, 1], [0, 1, 3]⟩) := by
    have hen : energies [0, 1, 3] 0 3 = [0, 1, 3] := by norm_num [energies]
    have hst : steps (pdf (build ⟨[0, 1, 3], [1, 1, 5]⟩) 7) 0 [1, 3] ([0], [0]) = .ok ([0, 1 / 14, 13 / 14], [0, 1, 3]) := by
      rw [steps, pdf, pdf, e0, e1 1 one_pos le_rfl, okBind, okBind, okBind, okBind]
      norm_num
      rw [steps, pdf, pdf, e1 1 one_pos le_rfl, e3, okBind, okBind, okBind, okBind]
      norm_num [steps]
    unfold computeCDF
    rw [hen, List.tail_cons, hst, okBind]
    have : (([0, 1 / 14, 13 / 14] : List ℝ).map fun v => v * (1 / maxElement [0, 1 / 14, 13 / 14])) = [0, 1 / 13, 1] := by norm_num [maxElement]
    simp only [this]
    rw [add3 (1 / 13) 1 0 1 3 (by norm_num) (by norm_num), okBind]
  refine ⟨⟨0, 3, false, build ⟨[0, 1, 3], [1, 1, 5]⟩, build ⟨[0, 1 / 13, 1], [0, 1, 3]⟩, 7, [0, 1 / 13, 1], [0, 1, 3], [1, 1, 5], [], none⟩, ?_, ?_, ?_⟩
  · unfold construct
    rw [if_neg (by simp)]
    have hmin : minElement [0, 1, 3] = 0 := by norm_num [minElement]
    have hmax : maxElement [0, 1, 3] = 3 := by norm_num [maxElement]
    simp only [hmin, hmax]
    rw [ha, okBind, computeIntegral]
    simp only [Bool.false_eq_true, if_false]
    rw [hT, okBind, hC, okBind]
  · have hd : ∀ t ∈ Ioc (0 : ℝ) 1, density ⟨0, 3, false, build ⟨[0, 1, 3], [1, 1, 5]⟩, build ⟨[0, 1 / 13, 1], [0, 1, 3]⟩, 7, [0, 1 / 13, 1], [0, 1, 3], [1, 1, 5], [], none⟩ t = 1 / 7 := by
      intro t ht
      rw [density, Flux.generationProbability]
      simp only
      rw [if_neg (by push Not; exact ⟨ht.1.le, by linarith [ht.2]⟩), pdf, e1 t ht.1 ht.2, okBind]
    simp only
    rw [intervalIntegral.integral_of_le zero_le_one, setIntegral_congr_fun measurableSet_Ioc hd]
    simp
  · have hi' : (build ⟨[0, 1 / 13, 1], [0, 1, 3]⟩).indexer = _ := indexer3 (1 / 13) 1 [0, 1, 3] (by norm_num) (by norm_num)
    have hr' : relDist [0, 1 / 13, 1] = 11 / 13 := by rw [relDist3 _ _ _ (by norm_num) (by norm_num)]; norm_num [abs_of_neg]
    have hirr' : (build ⟨[0, 1 / 13, 1], [0, 1, 3]⟩).indexer.isRegular = false := by rw [hi', hr']; norm_num
    have hn : Neighbours ⟨[0, 1 / 13, 1], [0, 1, 3]⟩ (1 / 13) 1 1 3 := ⟨by simp, by simp, by norm_num, by simp⟩
    have hsub : {u | u ∈ Icc (0 : ℝ) 1 ∧ ∃ x, (build ⟨[0, 1 / 13, 1], [0, 1, 3]⟩).eval u = .ok x ∧ x ≤ 1} ⊆ Icc 0 (1 / 13) := by
      rintro u ⟨hu, x, hx, hle⟩
      refine ⟨hu.1, ?_⟩
      by_contra hc
      push Not at hc
      rw [C49_linear _ _ (add3 (1 / 13) 1 0 1 3 (by norm_num) (by norm_num)) _ _ _ _ hn u hc.le hu.2 (Or.inr ⟨hirr', 0, by simp, by linarith⟩)] at hx
      have := Res.ok.inj hx
      have h2 := le_max_right 0 (line (1 / 13) 1 1 3 u)
      rw [this, Table.line] at h2
      norm_num at h2
      linarith
    calc volume _ ≤ volume (Icc (0 : ℝ) (1 / 13)) := measure_mono hsub
      _ = _ := by rw [Real.volume_Icc, sub_zero]

/-- C96: the energies belonging to the cumulative distribution are never reported. -/
theorem C96_cdf_nodes_fails {d : Flux} (hm : Made d) : d.cdfNodes = [] := (consistent hm).empty

/-- The hypotheses are met: the flux `1 + 2 E` on `[0, 1]`. -/
example : ∃ d, Made d ∧ Good d ∧ Exact d ∧ ∫ e, density d e = 1 := by
  obtain ⟨d, hm, hg, hx, hr, _⟩ := C96_between_fails
  exact ⟨d, hm, hg, hx, (C96_density hm hg hr).2.2⟩

end Siren.Distributions.Tabulated
