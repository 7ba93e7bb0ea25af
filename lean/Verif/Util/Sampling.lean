import Verif.Interactions.Metropolis

set_option autoImplicit false

/-!
# C90: the Metropolis-Hastings sampler

Models `MetropolisHasting_Sample` (`projects/utilities/public/SIREN/utilities/Sampling.h`). A draw is a proposed sample, the density
the caller declares for it, and the number for the decision (drawn by the code only if it is needed; leaving out draws that are not
used does not change the law of independent draws).
-/

namespace Siren
namespace Sampling

open MeasureTheory Set
open Dis (uniform)
open scoped ENNReal

variable {X : Type}

open Classical in
/-- `(q > 0) ? llh / q : 0.0` (`Sampling.h:32`, `39`). -/
noncomputable def weight (q llh : ℝ) : ℝ := if q > 0 then llh / q else 0

/-- `vars` and `weight` (`Sampling.h:28-32`). -/
structure State (X : Type) where
  vars : X
  weight : ℝ

/-- `weight <= 0`, or `(test_weight >= weight) || (random->Uniform(0,1) < test_weight / weight)` (`Sampling.h:41-46`). -/
def accepts (w w' u : ℝ) : Prop := w ≤ 0 ∨ w' ≥ w ∨ uniform 0 1 u < w' / w

open Classical in
/-- One pass of the loop (`Sampling.h:34-52`). -/
noncomputable def step (L : X → ℝ) (s : State X) (d : X × ℝ × ℝ) : State X :=
  let w' := weight d.2.1 (L d.1)
  if accepts s.weight w' d.2.2 then ⟨d.1, w'⟩ else s

/-- `MetropolisHasting_Sample` (`Sampling.h:24-55`): the first sample with its declared density, then `burnin + 1` draws. -/
noncomputable def sample (L : X → ℝ) (x₀ : X) (q₀ : ℝ) (draws : List (X × ℝ × ℝ)) : X :=
  (draws.foldl (step L) ⟨x₀, weight q₀ (L x₀)⟩).vars

/-! ### Specification -/

variable [MeasurableSpace X]

/-- **Specification.**  The mean of `F` over `n` independent draws: the proposal has the law `ν`, its declared density is `q`, and the
number for the decision is uniform. -/
noncomputable def mean (ν : Measure X) (q : X → ℝ) : Nat → (List (X × ℝ × ℝ) → ℝ≥0∞) → ℝ≥0∞
  | 0, F => F []
  | n + 1, F => ∫⁻ y, (∫⁻ u in Icc (0 : ℝ) 1, mean ν q n (fun ds => F ((y, q y, u) :: ds))) ∂ν

/-- **Specification.**  The mean of `g` of the sample that is returned when the loop runs `n` times. -/
noncomputable def returned (ν : Measure X) (q L : X → ℝ) (n : Nat) (g : X → ℝ≥0∞) : ℝ≥0∞ :=
  ∫⁻ x, mean ν q n (fun ds => g (sample L x (q x) ds)) ∂ν

/-- **Specification.**  The mean of `g` over the distribution whose density with respect to `μ` is proportional to `L`. -/
noncomputable def target (μ : Measure X) (L : X → ℝ) (g : X → ℝ≥0∞) : ℝ≥0∞ :=
  (∫⁻ x, ENNReal.ofReal (L x) * g x ∂μ) / ∫⁻ x, ENNReal.ofReal (L x) ∂μ

/-! ### One pass -/

theorem weight_nonneg {q l : ℝ} (hl : 0 ≤ l) : 0 ≤ weight q l := by
  unfold weight
  split_ifs with h
  · exact div_nonneg hl h.le
  · exact le_rfl

/-- Averaging over the number for the decision. -/
theorem decision {w w' : ℝ} (hw : 0 ≤ w) (hw' : 0 ≤ w') (new old : ℝ≥0∞) :
    (∫⁻ u in Icc (0 : ℝ) 1, (open Classical in if accepts w w' u then new else old)) =
      (if w = 0 then 1 else ENNReal.ofReal (min 1 (w' / w))) * new +
        (1 - (if w = 0 then 1 else ENNReal.ofReal (min 1 (w' / w)))) * old := by
  classical
  rw [← Metropolis.decision hw hw']
  apply lintegral_congr_ae
  have hne : ∀ᵐ u ∂(volume.restrict (Icc (0 : ℝ) 1)), u ≠ 1 := by
    apply ae_restrict_of_ae
    exact Measure.ae_ne volume 1
  filter_upwards [ae_restrict_mem measurableSet_Icc, hne] with u hu hu1
  have huni : uniform 0 1 u = u := by unfold uniform; rw [if_neg (by norm_num)]; ring
  have hiff : accepts w w' u ↔ Dis.accepts w w' u := by
    unfold accepts Dis.accepts
    rw [huni]
    rcases eq_or_lt_of_le hw with h0 | h0
    · exact ⟨fun _ => Or.inl h0.symm, fun _ => Or.inl h0.symm.le⟩
    · have hlt : u < 1 := lt_of_le_of_ne hu.2 hu1
      constructor
      · rintro (h | h | h)
        · exact absurd h0 (not_lt.mpr h)
        · right; right
          have : 1 ≤ w' / w := (one_le_div h0).mpr h
          linarith
        · exact Or.inr (Or.inr h)
      · rintro (h | h | h)
        · exact Or.inl h.le
        · exact Or.inr (Or.inl ((one_lt_div h0).mp h).le)
        · exact Or.inr (Or.inr h)
  simp only [hiff]

/-- The probability that a proposal is accepted, in terms of the weights. -/
noncomputable def prob (w w' : ℝ) : ℝ≥0∞ := open Classical in if w = 0 then 1 else ENNReal.ofReal (min 1 (w' / w))

theorem prob_le_one (w w' : ℝ) : prob w w' ≤ 1 := by
  classical
  unfold prob
  split_ifs
  · exact le_rfl
  · rw [← ENNReal.ofReal_one]
    exact ENNReal.ofReal_le_ofReal (min_le_left _ _)

variable (ν : Measure X) (q L : X → ℝ)

/-- The mean of `g` after one pass from `x`. -/
noncomputable def pass (g : X → ℝ≥0∞) (x : X) : ℝ≥0∞ :=
  ∫⁻ y, (prob (weight (q x) (L x)) (weight (q y) (L y)) * g y + (1 - prob (weight (q x) (L x)) (weight (q y) (L y))) * g x) ∂ν

/-- The passes of the loop one after the other. -/
theorem mean_sample {L : X → ℝ} (hL : ∀ x, 0 ≤ L x) (g : X → ℝ≥0∞) :
    ∀ (n : Nat) (x : X), mean ν q n (fun ds => g (sample L x (q x) ds)) = (pass ν q L)^[n] g x
  | 0, x => by simp [mean, sample]
  | n + 1, x => by
    classical
    rw [Function.iterate_succ_apply']
    unfold mean pass
    refine lintegral_congr fun y => ?_
    have hstep : ∀ u : ℝ, mean ν q n (fun ds => g (sample L x (q x) ((y, q y, u) :: ds))) =
        if accepts (weight (q x) (L x)) (weight (q y) (L y)) u then (pass ν q L)^[n] g y else (pass ν q L)^[n] g x := by
      intro u
      split_ifs with h
      · rw [← mean_sample hL g n y]
        congr 1
        funext ds
        simp only [sample, List.foldl_cons, step, h, if_true]
      · rw [← mean_sample hL g n x]
        congr 1
        funext ds
        simp only [sample, List.foldl_cons, step, h, if_false]
    simp only [hstep]
    exact decision (weight_nonneg (hL x)) (weight_nonneg (hL y)) _ _

theorem returned_eq {L : X → ℝ} (hL : ∀ x, 0 ≤ L x) (n : Nat) (g : X → ℝ≥0∞) :
    returned ν q L n g = ∫⁻ x, (pass ν q L)^[n] g x ∂ν := by
  unfold returned
  exact lintegral_congr fun x => mean_sample ν q hL g n x

variable {ν q L}

/-- The weight of a sample. -/
noncomputable def wt (q L : X → ℝ) (x : X) : ℝ≥0∞ := ENNReal.ofReal (weight (q x) (L x))

theorem measurable_weight (hq : Measurable q) (hL : Measurable L) : Measurable fun x => weight (q x) (L x) := by
  unfold weight
  exact Measurable.ite (measurableSet_lt measurable_const hq) (hL.div hq) measurable_const

theorem measurable_prob (hq : Measurable q) (hL : Measurable L) :
    Measurable fun z : X × X => prob (weight (q z.1) (L z.1)) (weight (q z.2) (L z.2)) := by
  have hw := measurable_weight hq hL
  unfold prob
  refine Measurable.ite ?_ measurable_const ?_
  · exact (hw.comp measurable_fst) (measurableSet_singleton 0)
  · exact (measurable_const.min ((hw.comp measurable_snd).div (hw.comp measurable_fst))).ennreal_ofReal

theorem measurable_pass [SFinite ν] (hq : Measurable q) (hL : Measurable L) {g : X → ℝ≥0∞} (hg : Measurable g) :
    Measurable (pass ν q L g) := by
  have hp := measurable_prob hq hL
  have : Measurable fun z : X × X => prob (weight (q z.1) (L z.1)) (weight (q z.2) (L z.2)) * g z.2 +
      (1 - prob (weight (q z.1) (L z.1)) (weight (q z.2) (L z.2))) * g z.1 :=
    (hp.mul (hg.comp measurable_snd)).add ((measurable_const.sub hp).mul (hg.comp measurable_fst))
  exact Measurable.lintegral_prod_right' this

/-- One pass does not change the mean over the distribution with the weight as density. -/
theorem pass_invariant [IsProbabilityMeasure ν] (hq : Measurable q) (hL : Measurable L) (hL0 : ∀ x, 0 ≤ L x) {g : X → ℝ≥0∞}
    (hg : Measurable g) : ∫⁻ x, wt q L x * pass ν q L g x ∂ν = ∫⁻ x, wt q L x * g x ∂ν := by
  have hw : Measurable (wt q L) := (measurable_weight hq hL).ennreal_ofReal
  refine Metropolis.invariant (f := wt q L) ν hw (fun _ => ENNReal.ofReal_ne_top) (fun s y => ?_) hg
  exact Metropolis.balance (weight_nonneg (hL0 s))

theorem iterate_measurable [SFinite ν] (hq : Measurable q) (hL : Measurable L) {g : X → ℝ≥0∞} (hg : Measurable g) (n : Nat) :
    Measurable ((pass ν q L)^[n] g) := by
  induction n with
  | zero => exact hg
  | succ n ih => rw [Function.iterate_succ_apply']; exact measurable_pass hq hL ih

/-- Whatever is returned after a pass, the target is reached with a fixed probability. -/
theorem pass_minor [IsProbabilityMeasure ν] {L : X → ℝ} (hq : Measurable q) (hL : Measurable L) (hL0 : ∀ x, 0 ≤ L x) {W : ℝ} (hW : 0 < W)
    (hbound : ∀ x, weight (q x) (L x) ≤ W) {g : X → ℝ≥0∞} (hg : Measurable g) {m : ℝ≥0∞} (hm : ∀ x, m ≤ g x) (x : X) :
    (∫⁻ y, wt q L y * g y ∂ν) / ENNReal.ofReal W + (1 - (∫⁻ y, wt q L y ∂ν) / ENNReal.ofReal W) * m ≤ pass ν q L g x := by
  have hw : Measurable (wt q L) := (measurable_weight hq hL).ennreal_ofReal
  have hW0 : ENNReal.ofReal W ≠ 0 := by simpa using hW
  have hWt : ENNReal.ofReal W ≠ ∞ := ENNReal.ofReal_ne_top
  -- the part common to all states
  set b : X → ℝ≥0∞ := fun y => wt q L y / ENNReal.ofReal W with hb
  have hbm : Measurable b := hw.div_const _
  have hb1 : ∀ y, b y ≤ 1 := fun y => by
    rw [hb]
    exact ENNReal.div_le_of_le_mul (by rw [one_mul]; exact ENNReal.ofReal_le_ofReal (hbound y))
  have hba : ∀ y, b y ≤ prob (weight (q x) (L x)) (weight (q y) (L y)) := by
    intro y
    classical
    unfold prob
    split_ifs with h
    · exact hb1 y
    · have hwx : 0 < weight (q x) (L x) := lt_of_le_of_ne (weight_nonneg (hL0 x)) (Ne.symm h)
      have hwy := weight_nonneg (q := q y) (hL0 y)
      rw [hb]
      simp only [wt]
      rw [← ENNReal.ofReal_div_of_pos hW]
      refine ENNReal.ofReal_le_ofReal (le_min ?_ ?_)
      · rw [div_le_one hW]; exact hbound y
      · exact div_le_div_of_nonneg_left hwy hwx (hbound x)
  have hbi : ∫⁻ y, b y ∂ν = (∫⁻ y, wt q L y ∂ν) / ENNReal.ofReal W := by
    simp only [hb, div_eq_mul_inv]
    rw [lintegral_mul_const _ hw]
  have hbg : ∫⁻ y, b y * g y ∂ν = (∫⁻ y, wt q L y * g y ∂ν) / ENNReal.ofReal W := by
    simp only [hb, div_eq_mul_inv]
    have hwg : Measurable fun y => wt q L y * g y := hw.mul hg
    rw [← lintegral_mul_const _ hwg]
    exact lintegral_congr fun y => by ring
  have hfin : ∫⁻ y, b y ∂ν ≠ ∞ := by
    refine ne_top_of_le_ne_top ENNReal.one_ne_top ?_
    calc ∫⁻ y, b y ∂ν ≤ ∫⁻ _, 1 ∂ν := lintegral_mono hb1
      _ = 1 := by simp
  have h1b : ∫⁻ y, (1 - b y) ∂ν = 1 - ∫⁻ y, b y ∂ν := by
    rw [lintegral_sub hbm hfin (Filter.Eventually.of_forall hb1)]
    simp
  have h1m : Measurable fun y => 1 - b y := measurable_const.sub hbm
  have hbgm : Measurable fun y => b y * g y := hbm.mul hg
  rw [← hbi, ← hbg, ← h1b, ← lintegral_mul_const _ h1m, ← lintegral_add_left hbgm]
  refine lintegral_mono fun y => ?_
  show b y * g y + (1 - b y) * m ≤ _
  set a := prob (weight (q x) (L x)) (weight (q y) (L y)) with ha
  have ha1 : a ≤ 1 := prob_le_one _ _
  have e1 : a = b y + (a - b y) := (add_tsub_cancel_of_le (hba y)).symm
  have e2 : 1 - b y = (a - b y) + (1 - a) := by
    have hbt : b y ≠ ∞ := ne_top_of_le_ne_top ENNReal.one_ne_top (hb1 y)
    apply ENNReal.sub_eq_of_eq_add hbt
    have h3 : a + (1 - a) = 1 := add_tsub_cancel_of_le ha1
    calc (1 : ℝ≥0∞) = a + (1 - a) := h3.symm
      _ = b y + (a - b y) + (1 - a) := by rw [← e1]
      _ = a - b y + (1 - a) + b y := by ring
  calc b y * g y + (1 - b y) * m = b y * g y + ((a - b y) * m + (1 - a) * m) := by rw [e2, add_mul]
    _ ≤ b y * g y + ((a - b y) * g y + (1 - a) * g x) := by
        gcongr
        · exact hm y
        · exact hm x
    _ = (b y + (a - b y)) * g y + (1 - a) * g x := by ring
    _ = a * g y + (1 - a) * g x := by rw [← e1]

/-- Two functions whose sum is at most one keep that after any number of passes. -/
theorem iterate_add [IsProbabilityMeasure ν] (hq : Measurable q) (hL : Measurable L) (n : Nat) :
    ∀ {f g : X → ℝ≥0∞}, Measurable f → Measurable g → (∀ x, f x + g x ≤ 1) → ∀ x,
    (pass ν q L)^[n] f x + (pass ν q L)^[n] g x ≤ 1 := by
  induction n with
  | zero => intro f g _ _ h x; exact h x
  | succ n ih =>
    intro f g hf hg h x
    rw [Function.iterate_succ_apply, Function.iterate_succ_apply]
    refine ih (measurable_pass hq hL hf) (measurable_pass hq hL hg) (fun z => ?_) x
    unfold pass
    have hp : Measurable fun y => prob (weight (q z) (L z)) (weight (q y) (L y)) :=
      (measurable_prob hq hL).comp (measurable_const.prodMk measurable_id)
    have hm : Measurable fun y => prob (weight (q z) (L z)) (weight (q y) (L y)) * f y +
        (1 - prob (weight (q z) (L z)) (weight (q y) (L y))) * f z :=
      (hp.mul hf).add ((measurable_const.sub hp).mul measurable_const)
    rw [← lintegral_add_left hm]
    calc _ ≤ ∫⁻ _, (1 : ℝ≥0∞) ∂ν := lintegral_mono fun y => ?_
      _ = 1 := by simp
    set a := prob (weight (q z) (L z)) (weight (q y) (L y))
    have ha1 : a ≤ 1 := prob_le_one _ _
    show a * f y + (1 - a) * f z + (a * g y + (1 - a) * g z) ≤ 1
    calc a * f y + (1 - a) * f z + (a * g y + (1 - a) * g z) = a * (f y + g y) + (1 - a) * (f z + g z) := by ring
      _ ≤ a * 1 + (1 - a) * 1 := by gcongr; exacts [h y, h z]
      _ = 1 := by rw [mul_one, mul_one, add_tsub_cancel_of_le ha1]

/-! ### C90 -/

/-- After `n` passes all but the fraction `(1 - ε)ⁿ` of the returned samples have the law of the target. -/
theorem iterate_minor [IsProbabilityMeasure ν] {L : X → ℝ} (hq : Measurable q) (hL : Measurable L) (hL0 : ∀ x, 0 ≤ L x) {W : ℝ} (hW : 0 < W)
    (hbound : ∀ x, weight (q x) (L x) ≤ W) (hS : ∫⁻ y, wt q L y ∂ν ≠ 0) {ε : ℝ≥0∞}
    (hε : ε = (∫⁻ y, wt q L y ∂ν) / ENNReal.ofReal W) (hε1 : ε ≤ 1) (n : Nat) :
    ∀ {g : X → ℝ≥0∞}, Measurable g → ∀ {m : ℝ≥0∞}, (∀ x, m ≤ g x) →
    (1 - (1 - ε) ^ n) * ((∫⁻ y, wt q L y * g y ∂ν) / ∫⁻ y, wt q L y ∂ν) + (1 - ε) ^ n * m ≤
      ∫⁻ x, (pass ν q L)^[n] g x ∂ν := by
  have hSt : ∫⁻ y, wt q L y ∂ν ≠ ∞ := by
    refine ne_top_of_le_ne_top (b := ENNReal.ofReal W) ENNReal.ofReal_ne_top ?_
    calc ∫⁻ y, wt q L y ∂ν ≤ ∫⁻ _, ENNReal.ofReal W ∂ν := lintegral_mono fun y => ENNReal.ofReal_le_ofReal (hbound y)
      _ = ENNReal.ofReal W := by simp
  set S := ∫⁻ y, wt q L y ∂ν with hSd
  induction n with
  | zero =>
    intro g hg m hm
    simp only [pow_zero, tsub_self, zero_mul, zero_add, one_mul, Function.iterate_zero, id]
    calc m = ∫⁻ _, m ∂ν := by simp
      _ ≤ _ := lintegral_mono hm
  | succ n ih =>
    intro g hg m hm
    set P := (∫⁻ y, wt q L y * g y ∂ν) / S with hP
    have hmin : ∀ x, ε * P + (1 - ε) * m ≤ pass ν q L g x := by
      intro x
      have := pass_minor (ν := ν) hq hL hL0 hW hbound hg hm x
      have e : (∫⁻ y, wt q L y * g y ∂ν) / ENNReal.ofReal W = ε * P := by
        rw [hε, hP, div_eq_mul_inv, div_eq_mul_inv, div_eq_mul_inv]
        calc (∫⁻ y, wt q L y * g y ∂ν) * (ENNReal.ofReal W)⁻¹ =
            (S * S⁻¹) * ((∫⁻ y, wt q L y * g y ∂ν) * (ENNReal.ofReal W)⁻¹) := by rw [ENNReal.mul_inv_cancel hS hSt, one_mul]
          _ = _ := by ring
      rw [e, ← hε] at this
      exact this
    have h := ih (measurable_pass hq hL hg) hmin
    have hinv : (∫⁻ y, wt q L y * pass ν q L g y ∂ν) / S = P := by rw [pass_invariant hq hL hL0 hg]
    rw [hinv] at h
    simp only [← Function.iterate_succ_apply] at h
    refine le_trans (le_of_eq ?_) h
    -- arithmetic
    set d := (1 - ε) ^ n with hd
    have hd1 : d ≤ 1 := pow_le_one₀ bot_le tsub_le_self
    have hdt : d ≠ ∞ := ne_top_of_le_ne_top ENNReal.one_ne_top hd1
    have h1 : 1 - (1 - ε) ^ (n + 1) = (1 - d) + d * ε := by
      apply ENNReal.sub_eq_of_eq_add
      · exact ENNReal.pow_ne_top (ne_top_of_le_ne_top ENNReal.one_ne_top tsub_le_self)
      · rw [pow_succ, ← hd, add_assoc, ← mul_add, add_tsub_cancel_of_le hε1, mul_one, tsub_add_cancel_of_le hd1]
    rw [h1, pow_succ, ← hd]
    ring

/-- Over the target: with correctly declared densities the weights are the likelihood up to a factor. -/
theorem target_eq {μ : Measure X} {κ : ℝ} (hκ : 0 < κ) (hq : Measurable q) (hL : Measurable L)
    (hsup : ∀ x, 0 < L x → 0 < q x) (hL0 : ∀ x, 0 ≤ L x) (hν : ν = μ.withDensity fun x => ENNReal.ofReal (κ * q x))
    {g : X → ℝ≥0∞} (hg : Measurable g) :
    ∫⁻ x, wt q L x * g x ∂ν = ENNReal.ofReal κ * ∫⁻ x, ENNReal.ofReal (L x) * g x ∂μ := by
  have hw : Measurable (wt q L) := (measurable_weight hq hL).ennreal_ofReal
  have hwg : Measurable fun x => wt q L x * g x := hw.mul hg
  have hLg : Measurable fun x => ENNReal.ofReal (L x) * g x := hL.ennreal_ofReal.mul hg
  rw [hν, lintegral_withDensity_eq_lintegral_mul _ (hq.const_mul κ).ennreal_ofReal hwg, ← lintegral_const_mul _ hLg]
  refine lintegral_congr fun x => ?_
  simp only [Pi.mul_apply]
  rw [← mul_assoc, ← mul_assoc]
  congr 1
  simp only [wt, weight]
  rcases lt_or_ge 0 (q x) with h | h
  · rw [if_pos h, ← ENNReal.ofReal_mul (by positivity), ← ENNReal.ofReal_mul hκ.le]
    congr 1
    field_simp
  · have hl : L x = 0 := by
      rcases eq_or_lt_of_le (hL0 x) with h2 | h2
      · exact h2.symm
      · exact absurd (hsup x h2) (not_lt.mpr h)
    rw [if_neg (not_lt.mpr h), hl]
    simp

/-- **C90.**  If the proposals have the declared density, up to a factor, then a chain that starts with the target distribution keeps
it: the mean of every function of the returned sample is its mean over the target. -/
theorem C90_stationary [IsProbabilityMeasure ν] {μ : Measure X} {κ : ℝ} (hκ : 0 < κ) (hq : Measurable q) (hL : Measurable L)
    (hsup : ∀ x, 0 < L x → 0 < q x) (hL0 : ∀ x, 0 ≤ L x) (hν : ν = μ.withDensity fun x => ENNReal.ofReal (κ * q x))
    (n : Nat) {g : X → ℝ≥0∞} (hg : Measurable g) :
    ∫⁻ x, ENNReal.ofReal (L x) * mean ν q n (fun ds => g (sample L x (q x) ds)) ∂μ = ∫⁻ x, ENNReal.ofReal (L x) * g x ∂μ := by
  simp only [mean_sample ν q hL0 g n]
  have hκ0 : ENNReal.ofReal κ ≠ 0 := by simpa using hκ
  rw [← ENNReal.mul_right_inj hκ0 ENNReal.ofReal_ne_top, ← target_eq hκ hq hL hsup hL0 hν (iterate_measurable hq hL hg n),
    ← target_eq hκ hq hL hsup hL0 hν hg]
  induction n with
  | zero => rfl
  | succ n ih => rw [Function.iterate_succ_apply', pass_invariant hq hL hL0 (iterate_measurable hq hL hg n), ih]

/-- **C90.**  If moreover the likelihood is at most `W` times the declared density, the law of the returned sample approaches the
target: after `n` passes the probability of every event differs from its target value by at most `(1 - ε)ⁿ`, where `ε` is the mean
over the target's normalization divided by `W`. -/
theorem C90_converges [IsProbabilityMeasure ν] {μ : Measure X} {κ : ℝ} (hκ : 0 < κ) (hq : Measurable q) (hL : Measurable L)
    (hsup : ∀ x, 0 < L x → 0 < q x) (hL0 : ∀ x, 0 ≤ L x) (hν : ν = μ.withDensity fun x => ENNReal.ofReal (κ * q x))
    {W : ℝ} (hW : 0 < W) (hbound : ∀ x, 0 < q x → L x ≤ W * q x) (hZ : ∫⁻ x, ENNReal.ofReal (L x) ∂μ ≠ 0)
    {ε : ℝ≥0∞} (hε : ε = ENNReal.ofReal κ * (∫⁻ x, ENNReal.ofReal (L x) ∂μ) / ENNReal.ofReal W) (n : Nat) {A : Set X} (hA : MeasurableSet A) :
    returned ν q L n (A.indicator 1) ≤ target μ L (A.indicator 1) + (1 - ε) ^ n ∧
    target μ L (A.indicator 1) ≤ returned ν q L n (A.indicator 1) + (1 - ε) ^ n ∧ 0 < ε ∧ ε ≤ 1 := by
  have hκ0 : ENNReal.ofReal κ ≠ 0 := by simpa using hκ
  have hW0 : ENNReal.ofReal W ≠ 0 := by simpa using hW
  have hb : ∀ x, weight (q x) (L x) ≤ W := by
    intro x
    unfold weight
    split_ifs with h
    · rw [div_le_iff₀ h]; exact hbound x h
    · exact hW.le
  have hone : ∫⁻ x, wt q L x ∂ν = ENNReal.ofReal κ * ∫⁻ x, ENNReal.ofReal (L x) ∂μ := by
    have := target_eq hκ hq hL hsup hL0 hν (g := fun _ => 1) measurable_const
    simpa using this
  have hS0 : ∫⁻ x, wt q L x ∂ν ≠ 0 := by rw [hone]; exact mul_ne_zero hκ0 hZ
  have hSW : ∫⁻ y, wt q L y ∂ν ≤ ENNReal.ofReal W := by
    calc ∫⁻ y, wt q L y ∂ν ≤ ∫⁻ _, ENNReal.ofReal W ∂ν := lintegral_mono fun y => ENNReal.ofReal_le_ofReal (hb y)
      _ = ENNReal.ofReal W := by simp
  have hSt : ∫⁻ x, wt q L x ∂ν ≠ ∞ := ne_top_of_le_ne_top ENNReal.ofReal_ne_top hSW
  have hε' : ε = (∫⁻ y, wt q L y ∂ν) / ENNReal.ofReal W := by rw [hε, hone]
  have hε1 : ε ≤ 1 := by
    rw [hε']
    exact ENNReal.div_le_of_le_mul (by rw [one_mul]; exact hSW)
  have htar : ∀ B : Set X, MeasurableSet B → (∫⁻ y, wt q L y * B.indicator 1 y ∂ν) / ∫⁻ y, wt q L y ∂ν = target μ L (B.indicator 1) := by
    intro B hB
    rw [hone, target_eq hκ hq hL hsup hL0 hν (measurable_one.indicator hB)]
    unfold target
    exact ENNReal.mul_div_mul_left _ _ hκ0 ENNReal.ofReal_ne_top
  have hlow : ∀ B : Set X, MeasurableSet B → (1 - (1 - ε) ^ n) * target μ L (B.indicator 1) ≤ returned ν q L n (B.indicator 1) := by
    intro B hB
    have := iterate_minor hq hL hL0 hW hb hS0 hε' hε1 n (measurable_one.indicator hB) (m := 0) (fun _ => bot_le)
    rw [mul_zero, add_zero, htar B hB, ← returned_eq ν q hL0] at this
    exact this
  have hmono : ∀ B : Set X, MeasurableSet B → target μ L (B.indicator 1) ≤ returned ν q L n (B.indicator 1) + (1 - ε) ^ n ∧
      target μ L (B.indicator 1) ≤ 1 := by
    intro B hB
    have ht1 : target μ L (B.indicator 1) ≤ 1 := by
      rw [← htar B hB]
      refine ENNReal.div_le_of_le_mul ?_
      rw [one_mul]
      refine lintegral_mono fun y => ?_
      by_cases hy : y ∈ B <;> simp [hy]
    refine ⟨?_, ht1⟩
    set d := (1 - ε) ^ n
    have hd1 : d ≤ 1 := pow_le_one₀ bot_le tsub_le_self
    calc target μ L (B.indicator 1) = ((1 - d) + d) * target μ L (B.indicator 1) := by rw [tsub_add_cancel_of_le hd1, one_mul]
      _ = (1 - d) * target μ L (B.indicator 1) + d * target μ L (B.indicator 1) := add_mul _ _ _
      _ ≤ returned ν q L n (B.indicator 1) + d * 1 := by gcongr; exact hlow B hB
      _ = _ := by rw [mul_one]
  refine ⟨?_, (hmono A hA).1, ?_, hε1⟩
  · -- the complement
    have hc := (hmono Aᶜ hA.compl).1
    have htot : target μ L (A.indicator 1) + target μ L (Aᶜ.indicator 1) = 1 := by
      have hwA : Measurable fun y => wt q L y * A.indicator 1 y :=
        ((measurable_weight hq hL).ennreal_ofReal).mul (measurable_one.indicator hA)
      rw [← htar A hA, ← htar _ hA.compl, ← ENNReal.add_div, ← lintegral_add_left hwA]
      have : ∀ y, wt q L y * A.indicator 1 y + wt q L y * Aᶜ.indicator 1 y = wt q L y := by
        intro y
        by_cases hy : y ∈ A <;> simp [hy]
      simp only [this]
      exact ENNReal.div_self hS0 hSt
    have hrtot : returned ν q L n (A.indicator 1) + returned ν q L n (Aᶜ.indicator 1) ≤ 1 := by
      rw [returned_eq ν q hL0, returned_eq ν q hL0, ← lintegral_add_left (iterate_measurable hq hL (measurable_one.indicator hA) n)]
      calc _ ≤ ∫⁻ _, (1 : ℝ≥0∞) ∂ν := lintegral_mono fun x => ?_
        _ = 1 := by simp
      exact iterate_add hq hL n (measurable_one.indicator hA) (measurable_one.indicator hA.compl)
        (fun y => by by_cases hy : y ∈ A <;> simp [hy]) x
    have hr1 : returned ν q L n (Aᶜ.indicator 1) ≠ ∞ :=
      ne_top_of_le_ne_top ENNReal.one_ne_top (le_trans le_add_self hrtot)
    have hle : returned ν q L n (A.indicator 1) + returned ν q L n (Aᶜ.indicator 1) ≤
        target μ L (A.indicator 1) + (1 - ε) ^ n + returned ν q L n (Aᶜ.indicator 1) := by
      calc _ ≤ 1 := hrtot
        _ = target μ L (A.indicator 1) + target μ L (Aᶜ.indicator 1) := htot.symm
        _ ≤ target μ L (A.indicator 1) + (returned ν q L n (Aᶜ.indicator 1) + (1 - ε) ^ n) := by gcongr
        _ = _ := by ring
    exact (ENNReal.add_le_add_iff_right hr1).mp hle
  · rw [hε']
    exact ENNReal.div_pos hS0 ENNReal.ofReal_ne_top

/-- The hypotheses are met: uniform proposals on `[0, 1]` declared with density one, a likelihood of one or two. -/
example (n : Nat) {A : Set ℝ} (hA : MeasurableSet A) :
    target (volume.restrict (Icc (0 : ℝ) 1)) (fun x => if x ≤ 1 / 2 then 1 else 2) (A.indicator 1) ≤
      returned (volume.restrict (Icc (0 : ℝ) 1)) (fun _ => 1) (fun x => if x ≤ 1 / 2 then 1 else 2) n (A.indicator 1) +
      (1 - ENNReal.ofReal 1 * (∫⁻ x in Icc (0 : ℝ) 1, ENNReal.ofReal (if x ≤ 1 / 2 then 1 else 2)) / ENNReal.ofReal 2) ^ n := by
  have : IsProbabilityMeasure (volume.restrict (Icc (0 : ℝ) 1)) := ⟨by simp⟩
  have hL : Measurable fun x : ℝ => if x ≤ 1 / 2 then (1 : ℝ) else 2 :=
    Measurable.ite measurableSet_Iic measurable_const measurable_const
  refine (C90_converges (κ := 1) one_pos measurable_const hL (fun _ _ => one_pos) (fun x => ?_) ?_ (W := 2) two_pos
    (fun x _ => ?_) ?_ rfl n hA).2.1
  · split_ifs <;> norm_num
  · simp
  · split_ifs <;> norm_num
  · refine ne_of_gt (lt_of_lt_of_le one_pos ?_)
    calc (1 : ℝ≥0∞) = ∫⁻ _ in Icc (0 : ℝ) 1, 1 := by simp
      _ ≤ _ := lintegral_mono fun x => by
        show 1 ≤ ENNReal.ofReal _
        rw [← ENNReal.ofReal_one]
        exact ENNReal.ofReal_le_ofReal (by split_ifs <;> norm_num)

end Sampling
end Siren
