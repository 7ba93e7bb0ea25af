import Verif.Interactions.DisCases
import Verif.Interactions.Metropolis

set_option autoImplicit false

/-!
# The Metropolis chain of the deep inelastic cross section samples the differential cross section
-/

namespace Siren
namespace Dis

open Rk MeasureTheory ENNReal Set

open Classical in
/-- The chain after one pass, given the proposed point and the number drawn for the decision (DISFromSpline.cxx:501-528). -/
noncomputable def Config.next (D : Config) (le : ℝ) (c : Chain) (lx ly u : ℝ) : Chain :=
  if !D.inTable le lx ly then c
  else match D.weight le lx ly with
    | none => c
    | some w' => match c.weight with
      | some w => if accepts w w' u then ⟨lx, ly, some w'⟩ else c
      | none => c

/-- A pass of the loop moves to what `next` gives for the point proposed and a number of the stream (which is drawn only if
the decision needs it). -/
theorem step_next {D : Config} {E1 E2 m le : ℝ} {b : ℝ × ℝ × ℝ} {c c' : Chain} {rs rs' : List ℝ}
    (h : D.step E1 E2 m le b c rs = some (c', rs')) :
    ∃ lx ly u rs1, D.propose E1 E2 m b (fun _ _ => true) rs = some ((lx, ly), rs1) ∧ c' = D.next le c lx ly u ∧
      (rs1 = rs' ∨ rs1 = u :: rs') := by
  unfold Config.step at h
  simp only at h
  split at h
  · exact absurd h (by simp)
  next lx ly rs1 hp =>
    refine ⟨lx, ly, ?_⟩
    unfold Config.next
    split at h
    next hin =>
      simp only [Option.some.injEq, Prod.mk.injEq] at h
      exact ⟨0, rs1, hp, by rw [if_pos hin]; exact h.1.symm, Or.inl h.2⟩
    next hin =>
      simp only [if_neg hin]
      split at h
      next hw =>
        simp only [Option.some.injEq, Prod.mk.injEq] at h
        exact ⟨0, rs1, hp, by rw [hw]; exact h.1.symm, Or.inl h.2⟩
      next w' hw =>
        simp only [hw]
        split at h
        next w hcw =>
          simp only [hcw]
          split at h
          next hacc =>
            simp only [Option.some.injEq, Prod.mk.injEq] at h
            refine ⟨0, rs1, hp, ?_, Or.inl h.2⟩
            rw [if_pos (by rcases hacc with h1 | h1; exacts [Or.inl h1, Or.inr (Or.inl h1)])]
            exact h.1.symm
          next hacc =>
            split at h
            · exact absurd h (by simp)
            next u rs2 =>
              refine ⟨u, _, hp, ?_⟩
              split at h
              next ha =>
                simp only [Option.some.injEq, Prod.mk.injEq] at h
                exact ⟨by rw [if_pos ha]; exact h.1.symm, Or.inr (by rw [h.2])⟩
              next ha =>
                simp only [Option.some.injEq, Prod.mk.injEq] at h
                exact ⟨by rw [if_neg ha]; exact h.1.symm, Or.inr (by rw [h.2])⟩
        next hcw =>
          simp only [hcw]
          split at h
          · exact absurd h (by simp)
          next u rs2 =>
            simp only [Option.some.injEq, Prod.mk.injEq] at h
            exact ⟨u, _, hp, h.1.symm, Or.inr (by rw [h.2])⟩

/-! ### Specification -/

/-- The region of `(log10 x, log10 y)` the proposals are drawn from: the rectangle of the bounds, without the points the
loop rejects. -/
def Config.region (D : Config) (E m : ℝ) : Set (ℝ × ℝ) :=
  {z | (log10 (D.minQ2 / (2 * E * D.targetMass * (1 - m / E))) ≤ z.1 ∧ z.1 ≤ 0) ∧
    (log10 (D.minQ2 / (2 * E * D.targetMass)) ≤ z.2 ∧ z.2 ≤ log10 (1 - m / E)) ∧
    D.admissible E D.targetMass m z.1 z.2 = true}

/-- The differential cross section in x and y as `DifferentialCrossSection` reports it, zero where it is not a number. -/
noncomputable def Config.sigma (D : Config) (E m x y : ℝ) : ℝ≥0∞ :=
  ENNReal.ofReal ((D.diff E x y m (2 * D.targetMass * E * x * y)).getD 0)

/-- The expected value of `g (x, y)` after one pass of the loop from the point `(x, y)`: the proposal is uniform in the
region, the number for the decision uniform in `[0, 1]`. -/
noncomputable def Config.after (D : Config) (E m : ℝ) (g : ℝ → ℝ → ℝ≥0∞) (x y : ℝ) : ℝ≥0∞ :=
  (volume (D.region E m))⁻¹ * ∫⁻ z in D.region E m, ∫⁻ u in Icc (0 : ℝ) 1,
    let c := D.next (log10 E) ⟨log10 x, log10 y, D.weight (log10 E) (log10 x) (log10 y)⟩ z.1 z.2 u
    g (pow10 c.lx) (pow10 c.ly)

/-- The table is a measurable function, and `searchcenters` finds nothing outside the extents. -/
structure Table.Regular (T : Table) (le : ℝ) : Prop where
  found : MeasurableSet {z : ℝ × ℝ | T.found le z.1 z.2 = true}
  valid : MeasurableSet {z : ℝ × ℝ | (T.eval le z.1 z.2).isSome = true}
  value : Measurable fun z : ℝ × ℝ => (T.eval le z.1 z.2).getD 0
  inside : ∀ lx ly, T.found le lx ly = true →
    (T.lower 1 ≤ lx ∧ lx ≤ T.upper 1) ∧ (T.lower 2 ≤ ly ∧ ly ≤ T.upper 2)

/-! ### The density in the logarithms -/

theorem pow10_log10 {x : ℝ} (hx : 0 < x) : pow10 (log10 x) = x := Real.rpow_logb (by norm_num) (by norm_num) hx

theorem y_le_max {x y E M m : ℝ} (hx : 0 < x) (hE : 0 < E) (hM : 0 < M) (hy : 0 < y)
    (h : Quad x y E M m ≤ 0) : y ≤ 1 - m / E := by
  have hy1 := y_lt_one hx hE hM hy h
  rw [quad_eq hE] at h
  have h1 : m ^ 2 ≤ (E * (1 - y)) ^ 2 := by
    nlinarith [sq_nonneg (E * (1 - y) - m ^ 2 / (2 * E) - M * x * y)]
  have h2 : m ≤ E * (1 - y) := abs_le_of_sq_le_sq' h1 (mul_nonneg hE.le (by linarith)) |>.2
  have h3 : m / E ≤ 1 - y := by rw [div_le_iff₀ hE]; linarith
  linarith

theorem measurable_pow10 : Measurable pow10 := by
  unfold pow10
  exact measurable_const.pow measurable_id

theorem measurableSet_admissible (D : Config) {E m : ℝ} (hE : 0 < E) (hM : 0 < D.targetMass) :
    MeasurableSet {z : ℝ × ℝ | D.admissible E D.targetMass m z.1 z.2 = true} := by
  have hset : {z : ℝ × ℝ | D.admissible E D.targetMass m z.1 z.2 = true} =
      {z : ℝ × ℝ | D.minQ2 ≤ 2 * E * D.targetMass * (pow10 z.1 * pow10 z.2)} ∩
      {z | D.minW2 ≤ D.targetMass ^ 2 + 2 * E * D.targetMass * (pow10 z.1 * pow10 z.2) / pow10 z.1 * (1 - pow10 z.1)} ∩
      {z | pow10 z.1 ≤ 1 ∧ (m * m) / (2 * D.targetMass * (E - m)) ≤ pow10 z.1} ∩
      {z | Quad (pow10 z.1) (pow10 z.2) E D.targetMass m ≤ 0} := by
    ext z
    simp only [mem_ofPred_eq, mem_inter_iff]
    constructor
    · intro h
      obtain ⟨h1, h2, h3⟩ := admissible_spec h
      rw [allowed_iff_quad (pow10_pos _) hE hM] at h3
      exact ⟨⟨⟨h1, h2⟩, h3.1, h3.2.1⟩, h3.2.2⟩
    · rintro ⟨⟨⟨h1, h2⟩, h3, h4⟩, h5⟩
      have h6 := (allowed_iff_quad (m := m) (pow10_pos z.1) hE hM).mpr ⟨h3, h4, h5⟩
      unfold Config.admissible
      simp only [pow10_add, h6, decide_eq_false (not_lt.mpr h1), decide_eq_false (not_lt.mpr h2)]
      rfl
  have m1 : Measurable fun z : ℝ × ℝ => pow10 z.1 := measurable_pow10.comp measurable_fst
  have m2 : Measurable fun z : ℝ × ℝ => pow10 z.2 := measurable_pow10.comp measurable_snd
  rw [hset]
  refine MeasurableSet.inter (MeasurableSet.inter (MeasurableSet.inter ?_ ?_) ?_) ?_
  · exact measurableSet_le measurable_const (by fun_prop)
  · exact measurableSet_le measurable_const (by fun_prop)
  · exact (measurableSet_le m1 measurable_const).inter (measurableSet_le measurable_const m1)
  · unfold Quad
    exact measurableSet_le (by fun_prop) measurable_const

theorem measurableSet_region (D : Config) {E m : ℝ} (hE : 0 < E) (hM : 0 < D.targetMass) :
    MeasurableSet (D.region E m) := by
  unfold Config.region
  have h1 : MeasurableSet {z : ℝ × ℝ | log10 (D.minQ2 / (2 * E * D.targetMass * (1 - m / E))) ≤ z.1 ∧ z.1 ≤ 0} :=
    (measurableSet_le measurable_const measurable_fst).inter (measurableSet_le measurable_fst measurable_const)
  have h2 : MeasurableSet {z : ℝ × ℝ | log10 (D.minQ2 / (2 * E * D.targetMass)) ≤ z.2 ∧ z.2 ≤ log10 (1 - m / E)} :=
    (measurableSet_le measurable_const measurable_snd).inter (measurableSet_le measurable_snd measurable_const)
  exact h1.inter (h2.inter (measurableSet_admissible D hE hM))

theorem volume_region (D : Config) (E m : ℝ) : volume (D.region E m) ≠ ∞ := by
  have hsub : D.region E m ⊆ Icc (log10 (D.minQ2 / (2 * E * D.targetMass * (1 - m / E)))) 0 ×ˢ
      Icc (log10 (D.minQ2 / (2 * E * D.targetMass))) (log10 (1 - m / E)) := by
    rintro z ⟨⟨h1, h2⟩, ⟨h3, h4⟩, -⟩
    exact ⟨⟨h1, h2⟩, ⟨h3, h4⟩⟩
  refine ne_top_of_le_ne_top ?_ (measure_mono hsub)
  rw [Measure.volume_eq_prod, Measure.prod_prod, Real.volume_Icc, Real.volume_Icc]
  exact ENNReal.mul_ne_top ENNReal.ofReal_ne_top ENNReal.ofReal_ne_top

/-- Where the chain can be: the region, in the table, with a weight. -/
def Config.support (D : Config) (E m : ℝ) : Set (ℝ × ℝ) :=
  {z | z ∈ D.region E m ∧ D.inTable (log10 E) z.1 z.2 = true ∧ (D.table.eval (log10 E) z.1 z.2).isSome = true}

/-- The weight as a number. -/
noncomputable def Config.w (D : Config) (E : ℝ) (z : ℝ × ℝ) : ℝ := (D.weight (log10 E) z.1 z.2).getD 0

theorem w_nonneg (D : Config) (E : ℝ) (z : ℝ × ℝ) : 0 ≤ D.w E z := by
  unfold Config.w Config.weight
  cases D.table.eval (log10 E) z.1 z.2 with
  | none => simp
  | some v =>
    simp only [Option.map_some, Option.getD_some]
    have := pow10_pos (z.1 + z.2); have := pow10_pos v; positivity

open Classical in
/-- The density in the logarithms. -/
noncomputable def Config.f (D : Config) (E m : ℝ) (z : ℝ × ℝ) : ℝ≥0∞ :=
  if z ∈ D.support E m then ENNReal.ofReal (D.w E z) else 0

theorem measurable_f (D : Config) {E m : ℝ} (hE : 0 < E) (hM : 0 < D.targetMass) (hT : D.table.Regular (log10 E)) :
    Measurable (D.f E m) := by
  have hin : MeasurableSet {z : ℝ × ℝ | D.inTable (log10 E) z.1 z.2 = true} := by
    have : {z : ℝ × ℝ | D.inTable (log10 E) z.1 z.2 = true} = {z : ℝ × ℝ | D.table.found (log10 E) z.1 z.2 = true} := by
      ext z
      simp only [mem_ofPred_eq]
      unfold Config.inTable
      constructor
      · intro h
        split at h
        · exact absurd h (by simp)
        · split at h
          · exact absurd h (by simp)
          · exact h
      · intro h
        have := hT.inside _ _ h
        rw [if_neg (by rintro (h1 | h1) <;> linarith [this.1.1, this.1.2]),
          if_neg (by rintro (h1 | h1) <;> linarith [this.2.1, this.2.2])]
        exact h
    rw [this]; exact hT.found
  have hsup : MeasurableSet (D.support E m) := (measurableSet_region D hE hM).inter (hin.inter hT.valid)
  have hw : Measurable fun z : ℝ × ℝ => pow10 (z.1 + z.2) * pow10 ((D.table.eval (log10 E) z.1 z.2).getD 0) :=
    (measurable_pow10.comp (measurable_fst.add measurable_snd)).mul (measurable_pow10.comp hT.value)
  have heq : D.f E m = (D.support E m).indicator
      fun z => ENNReal.ofReal (pow10 (z.1 + z.2) * pow10 ((D.table.eval (log10 E) z.1 z.2).getD 0)) := by
    ext z
    unfold Config.f Set.indicator
    by_cases h : z ∈ D.support E m
    · rw [if_pos h, if_pos h]
      obtain ⟨v, hv⟩ := Option.isSome_iff_exists.mp h.2.2
      simp [Config.w, Config.weight, hv]
    · rw [if_neg h, if_neg h]
  rw [heq]
  exact (ENNReal.measurable_ofReal.comp hw).indicator hsup

/-- In the logarithms, the differential cross section times `x y` is the weight of the chain. -/
theorem sigma_eq (D : Config) {E m : ℝ} (hm : 0 ≤ m) (hmE : m < E) (hM : 0 < D.targetMass)
    (hQ : 0 < D.minQ2) (hu : 0 < D.unit) (hext : D.table.lower 0 ≤ log10 E ∧ log10 E ≤ D.table.upper 0)
    (hT : D.table.Regular (log10 E)) (z : ℝ × ℝ) :
    ENNReal.ofReal (pow10 z.1) * (ENNReal.ofReal (pow10 z.2) * D.sigma E m (pow10 z.1) (pow10 z.2)) =
      ENNReal.ofReal D.unit * D.f E m z := by
  have hE : 0 < E := lt_of_le_of_lt hm hmE
  have hx := pow10_pos z.1
  have hy := pow10_pos z.2
  by_cases hz : z ∈ D.region E m ∧ D.inTable (log10 E) z.1 z.2 = true
  · obtain ⟨hreg, htab⟩ := hz
    obtain ⟨h1, h2, h3⟩ := admissible_spec hreg.2.2
    have hal := (allowed_iff_quad (m := m) hx hE hM).mp h3
    have hy1 := y_lt_one hx hE hM hy hal.2.2
    have hx1 : pow10 z.1 < 1 := by
      rcases hal.1.lt_or_eq with h4 | h4
      · exact h4
      · exfalso
        rw [h4] at h2
        simp only [sub_self, mul_zero, add_zero, Config.minW2] at h2
        have : 0 < pi0Mass := by norm_num [pi0Mass]
        nlinarith
    have hfound : D.table.found (log10 E) z.1 z.2 = true := by
      have := htab
      unfold Config.inTable at this
      split at this
      · exact absurd this (by simp)
      · split at this
        · exact absurd this (by simp)
        · exact this
    have hdiff : D.diff E (pow10 z.1) (pow10 z.2) m (2 * D.targetMass * E * pow10 z.1 * pow10 z.2) =
        (D.table.eval (log10 E) z.1 z.2).map fun v => D.unit * pow10 v := by
      unfold Config.diff
      simp only [log10_pow10]
      have e : 2 * D.targetMass * E * pow10 z.1 * pow10 z.2 = 2 * E * D.targetMass * (pow10 z.1 * pow10 z.2) := by ring
      rw [e, if_neg (by rintro (h4 | h4) <;> linarith [hext.1, hext.2]), if_neg (by rintro (h4 | h4) <;> linarith),
        if_neg (by rintro (h4 | h4) <;> linarith), if_neg (not_lt.mpr h1), if_neg (not_lt.mpr h2), if_neg (by simp [h3]),
        if_neg (by simp [hfound])]
    unfold Config.sigma Config.f
    rw [hdiff]
    cases hev : D.table.eval (log10 E) z.1 z.2 with
    | none =>
      rw [if_neg (by rintro ⟨-, -, h⟩; rw [hev] at h; simp at h)]
      simp
    | some v =>
      rw [if_pos ⟨hreg, htab, by rw [hev]; rfl⟩]
      simp only [Option.map_some, Option.getD_some, Config.w, Config.weight, hev]
      have := pow10_pos v
      rw [← ENNReal.ofReal_mul hy.le, ← ENNReal.ofReal_mul hx.le, ← ENNReal.ofReal_mul hu.le, pow10_add]
      congr 1; ring
  · have hf0 : D.f E m z = 0 := by
      unfold Config.f
      rw [if_neg (by rintro ⟨h1, h2, -⟩; exact hz ⟨h1, h2⟩)]
    have hd0 : D.diff E (pow10 z.1) (pow10 z.2) m (2 * D.targetMass * E * pow10 z.1 * pow10 z.2) = some 0 := by
      by_contra hne
      apply hz
      unfold Config.diff at hne
      simp only [log10_pow10] at hne
      have e : 2 * D.targetMass * E * pow10 z.1 * pow10 z.2 = 2 * E * D.targetMass * (pow10 z.1 * pow10 z.2) := by ring
      rw [e] at hne
      split at hne
      · exact absurd rfl hne
      split at hne
      · exact absurd rfl hne
      split at hne
      · exact absurd rfl hne
      split at hne
      · exact absurd rfl hne
      split at hne
      · exact absurd rfl hne
      split at hne
      · exact absurd rfl hne
      split at hne
      · exact absurd rfl hne
      next c1 c2 c3 c4 c5 c6 c7 =>
        have hallow : allowed (pow10 z.1) (pow10 z.2) E D.targetMass m = true := by simpa using c6
        have hfound : D.table.found (log10 E) z.1 z.2 = true := by simpa using c7
        have hal := (allowed_iff_quad (m := m) hx hE hM).mp hallow
        have hymax := y_le_max hx hE hM hy hal.2.2
        have hQ2 := not_lt.mp c4
        have hadm : D.admissible E D.targetMass m z.1 z.2 = true := by
          unfold Config.admissible
          simp only [pow10_add, hallow, decide_eq_false c4, decide_eq_false c5]
          rfl
        have hyM : 0 < 1 - m / E := lt_of_lt_of_le hy hymax
        have hmono : ∀ {a : ℝ} {t : ℝ}, 0 < a → a ≤ pow10 t → log10 a ≤ t := by
          intro a t ha hat
          have : log10 a ≤ log10 (pow10 t) := Real.logb_le_logb_of_le (by norm_num) ha hat
          rwa [log10_pow10] at this
        have hin := hT.inside _ _ hfound
        have h2EM : 0 < 2 * E * D.targetMass := by positivity
        refine ⟨⟨⟨?_, ?_⟩, ⟨?_, ?_⟩, hadm⟩, ?_⟩
        · apply hmono (by positivity)
          rw [div_le_iff₀ (by positivity)]
          have : pow10 z.1 * pow10 z.2 ≤ pow10 z.1 * (1 - m / E) := mul_le_mul_of_nonneg_left hymax hx.le
          nlinarith
        · have : log10 (pow10 z.1) ≤ log10 1 := Real.logb_le_logb_of_le (by norm_num) hx hal.1
          rwa [log10_pow10, show log10 1 = 0 from Real.logb_one] at this
        · apply hmono (by positivity)
          rw [div_le_iff₀ (by positivity)]
          have : pow10 z.1 * pow10 z.2 ≤ 1 * pow10 z.2 := mul_le_mul_of_nonneg_right hal.1 hy.le
          nlinarith
        · have : log10 (pow10 z.2) ≤ log10 (1 - m / E) := Real.logb_le_logb_of_le (by norm_num) hy hymax
          rwa [log10_pow10] at this
        · unfold Config.inTable
          rw [if_neg (by rintro (h1 | h1) <;> linarith [hin.1.1, hin.1.2]),
            if_neg (by rintro (h1 | h1) <;> linarith [hin.2.1, hin.2.2])]
          exact hfound
    unfold Config.sigma
    rw [hd0, hf0]
    simp

open Classical in
/-- The probability that a proposal is accepted. -/
noncomputable def Config.a (D : Config) (E m : ℝ) (s z : ℝ × ℝ) : ℝ≥0∞ :=
  if z ∈ D.support E m then (if D.w E s = 0 then 1 else ENNReal.ofReal (min 1 (D.w E z / D.w E s))) else 0

theorem f_balance (D : Config) (E m : ℝ) (s z : ℝ × ℝ) : D.f E m s * D.a E m s z = min (D.f E m s) (D.f E m z) := by
  unfold Config.a
  by_cases hs : s ∈ D.support E m
  · by_cases hz : z ∈ D.support E m
    · rw [if_pos hz]
      unfold Config.f
      rw [if_pos hs, if_pos hz]
      exact Metropolis.balance (w_nonneg D E s)
    · rw [if_neg hz]
      unfold Config.f
      rw [if_neg hz]; simp
  · unfold Config.f
    rw [if_neg hs]; simp

theorem f_finite (D : Config) (E m : ℝ) (z : ℝ × ℝ) : D.f E m z ≠ ∞ := by
  unfold Config.f; split
  · exact ENNReal.ofReal_ne_top
  · simp

/-- Averaging over the decision number. -/
theorem next_average (D : Config) {E m : ℝ} (g : ℝ → ℝ → ℝ≥0∞) {s z : ℝ × ℝ} (hs : s ∈ D.support E m)
    (hz : z ∈ D.region E m) :
    (∫⁻ u in Icc (0 : ℝ) 1, g (pow10 (D.next (log10 E) ⟨s.1, s.2, D.weight (log10 E) s.1 s.2⟩ z.1 z.2 u).lx)
      (pow10 (D.next (log10 E) ⟨s.1, s.2, D.weight (log10 E) s.1 s.2⟩ z.1 z.2 u).ly)) =
    D.a E m s z * g (pow10 z.1) (pow10 z.2) + (1 - D.a E m s z) * g (pow10 s.1) (pow10 s.2) := by
  have hvol : volume (Icc (0 : ℝ) 1) = 1 := by simp
  by_cases hin : D.inTable (log10 E) z.1 z.2 = true
  · cases hev : D.table.eval (log10 E) z.1 z.2 with
    | none =>
      have ha : D.a E m s z = 0 := by
        unfold Config.a; rw [if_neg (by rintro ⟨-, -, h⟩; rw [hev] at h; simp at h)]
      have hw : D.weight (log10 E) z.1 z.2 = none := by simp [Config.weight, hev]
      have : ∀ u, D.next (log10 E) ⟨s.1, s.2, D.weight (log10 E) s.1 s.2⟩ z.1 z.2 u =
          ⟨s.1, s.2, D.weight (log10 E) s.1 s.2⟩ := by
        intro u; unfold Config.next; rw [if_neg (by simp [hin])]; simp only [hw]
      simp only [this, ha, lintegral_const, Measure.restrict_apply_univ, hvol]
      simp
    | some v =>
      have hsup : z ∈ D.support E m := ⟨hz, hin, by rw [hev]; rfl⟩
      obtain ⟨v', hv'⟩ := Option.isSome_iff_exists.mp hs.2.2
      have hwz : D.weight (log10 E) z.1 z.2 = some (D.w E z) := by simp [Config.w, Config.weight, hev]
      have hws : D.weight (log10 E) s.1 s.2 = some (D.w E s) := by simp [Config.w, Config.weight, hv']
      have hn : ∀ u, g (pow10 (D.next (log10 E) ⟨s.1, s.2, D.weight (log10 E) s.1 s.2⟩ z.1 z.2 u).lx)
          (pow10 (D.next (log10 E) ⟨s.1, s.2, D.weight (log10 E) s.1 s.2⟩ z.1 z.2 u).ly) =
          (open Classical in if accepts (D.w E s) (D.w E z) u then g (pow10 z.1) (pow10 z.2)
            else g (pow10 s.1) (pow10 s.2)) := by
        intro u
        unfold Config.next
        rw [if_neg (by simp [hin])]
        simp only [hwz, hws]
        split <;> rfl
      simp only [hn]
      rw [Metropolis.decision (w_nonneg D E s) (w_nonneg D E z)]
      unfold Config.a
      rw [if_pos hsup]
  · have ha : D.a E m s z = 0 := by
      unfold Config.a; rw [if_neg (by rintro ⟨-, h, -⟩; exact hin h)]
    have : ∀ u, D.next (log10 E) ⟨s.1, s.2, D.weight (log10 E) s.1 s.2⟩ z.1 z.2 u =
        ⟨s.1, s.2, D.weight (log10 E) s.1 s.2⟩ := by
      intro u; unfold Config.next; rw [if_pos (by simp [hin])]
    simp only [this, ha, lintegral_const, Measure.restrict_apply_univ, hvol]
    simp

/-- C78: one pass of the Metropolis loop leaves the distribution with density `DifferentialCrossSection` in x and y
unchanged: for every function `g` of x and y, its average over that distribution is the same before and after the pass.
(So the chain samples the density that `FinalStateProbability` reports, not a density in the logarithms, and no part of
the region where the cross section is not zero is left out of the proposals.) -/
theorem C78_stationary (D : Config) {E m : ℝ} (hm : 0 ≤ m) (hmE : m < E) (hM : 0 < D.targetMass) (hQ : 0 < D.minQ2)
    (hu : 0 < D.unit) (hext : D.table.lower 0 ≤ log10 E ∧ log10 E ≤ D.table.upper 0) (hT : D.table.Regular (log10 E))
    (hR : volume (D.region E m) ≠ 0) {g : ℝ → ℝ → ℝ≥0∞} (hg : Measurable (Function.uncurry g)) :
    ∫⁻ x in Ioi (0 : ℝ), ∫⁻ y in Ioi (0 : ℝ), D.sigma E m x y * D.after E m g x y =
      ∫⁻ x in Ioi (0 : ℝ), ∫⁻ y in Ioi (0 : ℝ), D.sigma E m x y * g x y := by
  have hE : 0 < E := lt_of_le_of_lt hm hmE
  have hfin := volume_region D E m
  have hS := measurableSet_region D (m := m) hE hM
  set S := D.region E m with hSd
  set G : ℝ × ℝ → ℝ≥0∞ := fun z => g (pow10 z.1) (pow10 z.2) with hG
  have hGm : Measurable G :=
    hg.comp ((measurable_pow10.comp measurable_fst).prodMk (measurable_pow10.comp measurable_snd))
  set μ : Measure (ℝ × ℝ) := (volume S)⁻¹ • volume.restrict S with hμ
  have hprob : IsProbabilityMeasure μ := by
    constructor
    rw [hμ]
    simp only [Measure.smul_apply, Measure.restrict_apply_univ, smul_eq_mul]
    exact ENNReal.inv_mul_cancel hR hfin
  have hf := measurable_f D (m := m) hE hM hT
  have hinv := Metropolis.invariant μ hf (f_finite D E m) (f_balance D E m) hGm
  have hmeas := Metropolis.measurable_after μ hf (f_finite D E m) (f_balance D E m) hGm
  -- the step in the logarithms
  have hafter : ∀ s, D.f E m s * D.after E m g (pow10 s.1) (pow10 s.2) =
      D.f E m s * ∫⁻ z, (D.a E m s z * G z + (1 - D.a E m s z) * G s) ∂μ := by
    intro s
    by_cases hs : s ∈ D.support E m
    · congr 1
      unfold Config.after
      rw [hμ, lintegral_smul_measure, smul_eq_mul]
      congr 1
      apply lintegral_congr_ae
      filter_upwards [ae_restrict_mem hS] with z hz
      simp only [log10_pow10]
      exact next_average D g hs hz
    · unfold Config.f
      rw [if_neg hs]; simp
  -- only the support counts
  have hrestrict : ∀ h : ℝ × ℝ → ℝ≥0∞, ∫⁻ z, D.f E m z * h z = volume S * ∫⁻ z, D.f E m z * h z ∂μ := by
    intro h
    rw [hμ, lintegral_smul_measure, smul_eq_mul, ← mul_assoc, ENNReal.mul_inv_cancel hR hfin, one_mul,
      ← lintegral_indicator hS]
    congr 1
    ext z
    unfold Set.indicator
    split
    · rfl
    next hz =>
      unfold Config.f
      rw [if_neg (by rintro ⟨h1, -⟩; exact hz h1)]; simp
  have hsig : ∀ (z : ℝ × ℝ) (c : ℝ≥0∞), ENNReal.ofReal (pow10 z.1) * (ENNReal.ofReal (pow10 z.2) *
      (D.sigma E m (pow10 z.1) (pow10 z.2) * c)) = ENNReal.ofReal D.unit * (D.f E m z * c) := by
    intro z c
    have := sigma_eq D hm hmE hM hQ hu hext hT z
    rw [← mul_assoc, ← mul_assoc, ← mul_assoc, ← this]
    ring
  rw [Metropolis.lintegral_pow10_two, Metropolis.lintegral_pow10_two]
  · congr 2
    simp only [hsig]
    rw [lintegral_const_mul' _ _ ENNReal.ofReal_ne_top, lintegral_const_mul' _ _ ENNReal.ofReal_ne_top]
    congr 1
    rw [hrestrict, hrestrict]
    congr 1
    simp only [hafter]
    exact hinv
  · simp only [hsig]
    exact measurable_const.mul (hf.mul hGm)
  · simp only [hsig, hafter]
    exact measurable_const.mul hmeas

open Classical in
/-- The flat table, found only within its extents. -/
noncomputable def boxed : Config :=
  { flat with
    table :=
      { flat.table with found := fun _ lx ly => decide ((-10 ≤ lx ∧ lx ≤ 10) ∧ (-10 ≤ ly ∧ ly ≤ 10)) } }

/-- The hypotheses of `C78_stationary` are met: the flat table at energy 50, where the region contains every x and y
between 1/10 and 1/2. -/
example : 0 < boxed.targetMass ∧ 0 < boxed.minQ2 ∧ 0 < boxed.unit ∧
    (boxed.table.lower 0 ≤ log10 50 ∧ log10 50 ≤ boxed.table.upper 0) ∧ boxed.table.Regular (log10 50) ∧
    volume (boxed.region 50 0) ≠ 0 := by
  have hl50 : 0 ≤ log10 50 ∧ log10 50 ≤ 10 := by
    constructor
    · exact Real.logb_nonneg (by norm_num) (by norm_num)
    · have : log10 50 ≤ log10 (pow10 10) := Real.logb_le_logb_of_le (by norm_num) (by norm_num) (by
        unfold pow10
        rw [show (10 : ℝ) ^ (10 : ℝ) = (10 : ℝ) ^ (10 : ℕ) by rw [← Real.rpow_natCast]; norm_num]
        norm_num)
      rwa [log10_pow10] at this
  refine ⟨by norm_num [boxed, flat], by norm_num [boxed, flat], by norm_num [boxed, flat],
    ⟨by simp only [boxed, flat]; linarith [hl50.1], by simp only [boxed, flat]; exact hl50.2⟩, ?_, ?_⟩
  · have hset : {z : ℝ × ℝ | boxed.table.found (log10 50) z.1 z.2 = true} = Icc (-10) 10 ×ˢ Icc (-10) 10 := by
      ext z
      simp only [boxed, mem_ofPred_eq, decide_eq_true_eq, mem_prod, mem_Icc]
    refine ⟨?_, ?_, ?_, ?_⟩
    · rw [hset]; exact measurableSet_Icc.prod measurableSet_Icc
    · simp [boxed, flat]
    · simp [boxed, flat]
    · intro lx ly h
      simpa [boxed, flat] using h
  · have hhalf : -1 < log10 (1 / 2) ∧ log10 (1 / 2) ≤ 0 := by
      constructor
      · have : log10 (pow10 (-1)) < log10 (1 / 2) :=
          Real.logb_lt_logb (by norm_num) (pow10_pos _) (by rw [pow10_neg_one]; norm_num)
        rwa [log10_pow10] at this
      · exact Real.logb_nonpos (by norm_num) (by norm_num) (by norm_num)
    have hb : ∀ t, -1 ≤ t → t ≤ log10 (1 / 2) → 1 / 10 ≤ pow10 t ∧ pow10 t ≤ 1 / 2 := by
      intro t h1 h2
      constructor
      · rw [← pow10_neg_one]; exact Real.rpow_le_rpow_of_exponent_le (by norm_num) h1
      · calc pow10 t ≤ pow10 (log10 (1 / 2)) := Real.rpow_le_rpow_of_exponent_le (by norm_num) h2
          _ = 1 / 2 := pow10_log10 (by norm_num)
    have hsub : Icc (-1 : ℝ) (log10 (1 / 2)) ×ˢ Icc (-1 : ℝ) (log10 (1 / 2)) ⊆ boxed.region 50 0 := by
      rintro z ⟨⟨h1, h2⟩, ⟨h3, h4⟩⟩
      obtain ⟨x1, x2⟩ := hb _ h1 h2
      obtain ⟨y1, y2⟩ := hb _ h3 h4
      have e1 : log10 (flat.minQ2 / (2 * 50 * flat.targetMass * (1 - 0 / 50))) = -2 := by
        rw [← log10_hundredth]; congr 1; norm_num [flat]
      have e2 : log10 (flat.minQ2 / (2 * 50 * flat.targetMass)) = -2 := by
        rw [← log10_hundredth]; congr 1; norm_num [flat]
      have e3 : log10 (1 - 0 / 50) = 0 := by norm_num [log10]
      refine ⟨⟨(by rw [e1]; linarith : log10 (flat.minQ2 / (2 * 50 * flat.targetMass * (1 - 0 / 50))) ≤ z.1),
        by linarith [hhalf.2]⟩, ⟨(by rw [e2]; linarith : log10 (flat.minQ2 / (2 * 50 * flat.targetMass)) ≤ z.2),
         by rw [e3]; linarith [hhalf.2]⟩, ?_⟩
      have hal : allowed (pow10 z.1) (pow10 z.2) 50 flat.targetMass 0 = true := by
        rw [allowed_iff_quad (by linarith) (by norm_num) (by norm_num [flat])]
        refine ⟨by linarith, by norm_num; linarith, ?_⟩
        have : Quad (pow10 z.1) (pow10 z.2) 50 flat.targetMass 0 =
            pow10 z.1 * pow10 z.2 * (pow10 z.2 * (100 + pow10 z.1) - 100) := by
          simp only [Quad, flat]; ring
        rw [this]
        exact mul_nonpos_of_nonneg_of_nonpos (mul_nonneg (by linarith) (by linarith)) (by nlinarith)
      show flat.admissible 50 flat.targetMass 0 z.1 z.2 = true
      unfold Config.admissible
      have q1 : ¬ (2 * 50 * flat.targetMass * (pow10 z.1 * pow10 z.2) < flat.minQ2) := by
        simp only [flat]; nlinarith
      have q2 : ¬ (flat.targetMass ^ 2 + 2 * 50 * flat.targetMass * (pow10 z.1 * pow10 z.2) / pow10 z.1 *
          (1 - pow10 z.1) < flat.minW2) := by
        have : 2 * 50 * flat.targetMass * (pow10 z.1 * pow10 z.2) / pow10 z.1 = 100 * pow10 z.2 := by
          have : pow10 z.1 ≠ 0 := by linarith
          simp only [flat]; field_simp; norm_num
        rw [this]
        simp only [flat, Config.minW2, pi0Mass]
        nlinarith
      simp only [pow10_add, hal, decide_eq_false q1, decide_eq_false q2]
      rfl
    refine (lt_of_lt_of_le ?_ (measure_mono hsub)).ne'
    rw [Measure.volume_eq_prod, Measure.prod_prod, Real.volume_Icc]
    have : (0 : ℝ≥0∞) < ENNReal.ofReal (log10 (1 / 2) - -1) := ENNReal.ofReal_pos.mpr (by linarith [hhalf.1])
    exact ENNReal.mul_pos this.ne' this.ne'

/-- Every admissible point lies in the rectangle of the bounds. -/
theorem mem_region (D : Config) {E m : ℝ} (hm : 0 ≤ m) (hmE : m < E) (hM : 0 < D.targetMass) (hQ : 0 < D.minQ2) {z : ℝ × ℝ}
    (h : D.admissible E D.targetMass m z.1 z.2 = true) : z ∈ D.region E m := by
  have hE : 0 < E := lt_of_le_of_lt hm hmE
  obtain ⟨h1, -, h3⟩ := admissible_spec h
  have hal := (allowed_iff_quad (pow10_pos z.1) hE hM).mp h3
  have hx0 := pow10_pos z.1
  have hy0 := pow10_pos z.2
  have hy := y_le_max hx0 hE hM hy0 hal.2.2
  have hx := hal.1
  have hl : ∀ t : ℝ, log10 (pow10 t) = t := fun t => Real.logb_rpow (by norm_num) (by norm_num)
  have hymax : 0 < 1 - m / E := by rw [sub_pos, div_lt_one hE]; exact hmE
  have hEM : 0 < 2 * E * D.targetMass := by positivity
  have hx' : D.minQ2 / (2 * E * D.targetMass * (1 - m / E)) ≤ pow10 z.1 := by
    rw [div_le_iff₀ (by positivity)]
    calc D.minQ2 ≤ 2 * E * D.targetMass * (pow10 z.1 * pow10 z.2) := h1
      _ ≤ 2 * E * D.targetMass * (pow10 z.1 * (1 - m / E)) := by gcongr
      _ = _ := by ring
  have hy' : D.minQ2 / (2 * E * D.targetMass) ≤ pow10 z.2 := by
    rw [div_le_iff₀ (by positivity)]
    calc D.minQ2 ≤ 2 * E * D.targetMass * (pow10 z.1 * pow10 z.2) := h1
      _ ≤ 2 * E * D.targetMass * (1 * pow10 z.2) := by gcongr
      _ = _ := by ring
  have mono : ∀ {a b : ℝ}, 0 < a → a ≤ b → log10 a ≤ log10 b := fun ha hab =>
    Real.logb_le_logb_of_le (by norm_num) ha hab
  refine ⟨⟨?_, ?_⟩, ⟨?_, ?_⟩, h⟩
  · rw [← hl z.1]; exact mono (by positivity) hx'
  · rw [← hl z.1]; calc log10 (pow10 z.1) ≤ log10 1 := mono hx0 hx
      _ = 0 := by simp [log10]
  · rw [← hl z.2]; exact mono (by positivity) hy'
  · rw [← hl z.2]; exact mono hy0 hy

theorem uniform_onto {a b t : ℝ} (h1 : a ≤ t) (h2 : t ≤ b) : ∃ u, (0 ≤ u ∧ u ≤ 1) ∧ uniform a b u = t := by
  have hab := h1.trans h2
  rcases hab.lt_or_eq with h | h
  · refine ⟨(t - a) / (b - a), ⟨div_nonneg (by linarith) (by linarith), ?_⟩, ?_⟩
    · rw [div_le_one (by linarith)]; linarith
    · unfold uniform
      rw [if_neg (not_lt.mpr hab)]
      have : b - a ≠ 0 := by linarith
      field_simp
      ring
  · refine ⟨0, by norm_num, ?_⟩
    unfold uniform
    rw [if_neg (not_lt.mpr hab)]
    linarith

/-- C78: the region of `C78_stationary` is the one the program proposes from. The bounds are finite, the points that a pair of
random numbers in `[0, 1]` makes the program propose are exactly the points of the region, and these are all the points of
the kinematically allowed phase space with enough `Q2` and invariant mass. -/
theorem C78_proposals (D : Config) {E m : ℝ} (hm : 0 ≤ m) (hmE : m < E) (hM : 0 < D.targetMass) (hQ : 0 < D.minQ2) :
    ∃ b, D.bounds E D.targetMass m = some b ∧ ∀ z : ℝ × ℝ,
      (z ∈ D.region E m ↔ ∃ u v, (0 ≤ u ∧ u ≤ 1) ∧ (0 ≤ v ∧ v ≤ 1) ∧
        ∀ rs, D.propose E D.targetMass m b (fun _ _ => true) (u :: v :: rs) = some (z, rs)) ∧
      (z ∈ D.region E m ↔ D.minQ2 ≤ 2 * E * D.targetMass * (pow10 z.1 * pow10 z.2) ∧
        D.minW2 ≤ D.targetMass ^ 2 + 2 * E * D.targetMass * pow10 z.2 * (1 - pow10 z.1) ∧
        allowed (pow10 z.1) (pow10 z.2) E D.targetMass m = true) := by
  have hE : 0 < E := lt_of_le_of_lt hm hmE
  have hymax : 0 < 1 - m / E := by rw [sub_pos, div_lt_one hE]; exact hmE
  refine ⟨(log10 (D.minQ2 / (2 * E * D.targetMass * (1 - m / E))), log10 (D.minQ2 / (2 * E * D.targetMass)),
    log10 (1 - m / E)), ?_, fun z => ⟨⟨?_, ?_⟩, ?_⟩⟩
  · unfold Config.bounds
    simp only
    rw [if_pos ⟨hymax, by positivity, by positivity⟩]
  · rintro ⟨⟨a1, a2⟩, ⟨b1, b2⟩, hadm⟩
    obtain ⟨u, hu, hux⟩ := uniform_onto a1 a2
    obtain ⟨v, hv, hvy⟩ := uniform_onto b1 b2
    refine ⟨u, v, hu, hv, fun rs => ?_⟩
    rw [Config.propose]
    simp only [hux, hvy, hadm, Bool.and_true, if_true]
  · rintro ⟨u, v, -, -, h⟩
    have h := h []
    rw [Config.propose] at h
    split at h
    next hadm =>
      simp only [Bool.and_true, Option.some.injEq, Prod.mk.injEq, and_true] at h hadm
      subst h
      exact mem_region D hm hmE hM hQ hadm
    next => exact absurd h (by simp [Config.propose])
  · have hx0 := pow10_pos z.1
    have hw : 2 * E * D.targetMass * (pow10 z.1 * pow10 z.2) / pow10 z.1 * (1 - pow10 z.1) =
        2 * E * D.targetMass * pow10 z.2 * (1 - pow10 z.1) := by field_simp
    have hadd : pow10 (z.1 + z.2) = pow10 z.1 * pow10 z.2 := Real.rpow_add (by norm_num) _ _
    have hiff : D.admissible E D.targetMass m z.1 z.2 = true ↔
        D.minQ2 ≤ 2 * E * D.targetMass * (pow10 z.1 * pow10 z.2) ∧
        D.minW2 ≤ D.targetMass ^ 2 + 2 * E * D.targetMass * pow10 z.2 * (1 - pow10 z.1) ∧
        allowed (pow10 z.1) (pow10 z.2) E D.targetMass m = true := by
      rw [← hw]
      unfold Config.admissible
      simp only [hadd, Bool.not_eq_true', Bool.or_eq_false_iff, decide_eq_false_iff_not, not_lt, Bool.not_eq_false', and_assoc]
    rw [← hiff]
    exact ⟨fun h => h.2.2, fun h => mem_region D hm hmE hM hQ h⟩

/-- The hypotheses of `C78_proposals` are met. -/
example : (0 : ℝ) ≤ 0 ∧ (0 : ℝ) < 50 ∧ 0 < boxed.targetMass ∧ 0 < boxed.minQ2 := by
  norm_num [boxed, flat]

end Dis
end Siren
