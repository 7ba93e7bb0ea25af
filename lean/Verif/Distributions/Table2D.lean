import Verif.Distributions.DirectionModel
import Verif.Math.SimpsonProps
import Verif.Util.Sampling
import Mathlib.MeasureTheory.Integral.IntervalIntegral.Basic
import Mathlib.Analysis.SpecialFunctions.Integrals.Basic

set_option autoImplicit false

/-!
# C103: energies and directions drawn from a two-dimensional flux table

Models `Tabulated2DFluxDistribution` (distributions/private/primary/energy_direction/Tabulated2DFluxDistribution.cxx), made from three vectors. Doubles are real numbers; a division by an integral of zero is
not modelled. The interpolation table (`Interpolator2D`) is a parameter: a function of the energy and the cosine of the zenith angle, and whether its axes are logarithmic. A draw is the pair of numbers for a
proposed point and the number for the decision (drawn by the code only if it is needed; leaving out draws that are not used does not change the law of independent draws).
-/

namespace Siren.Distributions.Table2D

open Siren.Math Integrate MeasureTheory Set
open Dis (uniform pow10 log10)
open scoped ENNReal

/-- What the distribution uses of `Interpolator2D`: `operator()`, `IsLogX` and `IsLogY` (Interpolator.h:472-720). -/
structure Table where
  eval : ℝ → ℝ → ℝ
  logX : Bool
  logY : Bool

/-- `Tabulated2DFluxDistribution` (Tabulated2DFluxDistribution.h:37-55), with the state of the Metropolis-Hastings sampler. `norm` is the normalization of the base class, if set. -/
structure Dist where
  eMin : ℝ
  eMax : ℝ
  czMin : ℝ
  czMax : ℝ
  table : Table
  integral : ℝ
  norm : Option ℝ
  points : Nat
  density : ℝ

/-- `integrand` (Tabulated2DFluxDistribution.cxx:35-37, 44-46). -/
noncomputable def Table.integrand (T : Table) (x y : ℝ) : ℝ :=
  if T.logX then Real.log 10 * pow10 x * T.eval (pow10 x) y else T.eval x y

open Classical in
/-- `ComputeIntegral` (Tabulated2DFluxDistribution.cxx:27-50), with the default tolerance, numbers of intervals and of rounds (Integration.h:167-169). -/
noncomputable def computeIntegral (T : Table) (eMin eMax czMin czMax : ℝ) : Res ℝ :=
  if T.logY then .throws .runtimeError
  else if T.logX = true ∧ (eMin ≤ 0 ∨ eMax ≤ 0) then .throws .runtimeError
  else simpsonIntegrate2D T.integrand (if T.logX then log10 eMin else eMin) (if T.logX then log10 eMax else eMax) czMin czMax (1 / 1000) 10 10 15

/-- `minmax_element` of a vector that is not empty. -/
noncomputable def minmax (l : List ℝ) : ℝ × ℝ := (l.tail.foldl min (l.headD 0), l.tail.foldl max (l.headD 0))

/-- The constructors from three vectors (Tabulated2DFluxDistribution.cxx:224-256, with LoadFluxTable in 101-129); `make` builds the interpolation table. (The bounds of the cosine are given only together with
those of the energy.) -/
noncomputable def construct (make : List ℝ → List ℝ → List ℝ → Res Table) (eBounds czBounds : Option (ℝ × ℝ)) (es czs flux : List ℝ) (physical : Bool) : Res Dist :=
  if es = [] then .throws .runtimeError
  else if es.length ≠ flux.length ∨ czs.length ≠ flux.length then .throws .runtimeError
  else
    let e := eBounds.getD (minmax es)
    let c := czBounds.getD (minmax czs)
    (make es czs flux).bind fun T =>
    (computeIntegral T e.1 e.2 c.1 c.2).bind fun I =>
    .ok ⟨e.1, e.2, c.1, c.2, T, I, if physical then some I else none, 0, 0⟩

/-- The end of the two functions that set bounds: `ComputeIntegral`, which may throw after the members have been written. -/
noncomputable def Dist.recompute (d : Dist) : Dist × Res Unit :=
  match computeIntegral d.table d.eMin d.eMax d.czMin d.czMax with
  | .ok I => ({ d with integral := I }, .ok ())
  | .throws e => (d, .throws e)
  | .ub => (d, .ub)

/-- `SetEnergyBounds` (Tabulated2DFluxDistribution.cxx:159-166): the object afterwards, and how the call ends. -/
noncomputable def Dist.setEnergyBounds (d : Dist) (lo hi : ℝ) : Dist × Res Unit :=
  { d with eMin := lo, eMax := hi, points := 0, density := 0 }.recompute

open Classical in
/-- `SetCosZenithBounds` (Tabulated2DFluxDistribution.cxx:168-181). -/
noncomputable def Dist.setCosZenithBounds (d : Dist) (lo hi : ℝ) : Dist × Res Unit :=
  if lo < -1 ∨ hi > 1 then (d, .throws .runtimeError)
  else if lo > hi then (d, .throws .runtimeError)
  else { d with czMin := lo, czMax := hi, points := 0, density := 0 }.recompute

/-- `pdf` (Tabulated2DFluxDistribution.cxx:151-153). -/
noncomputable def Dist.pdf (d : Dist) (e cz : ℝ) : ℝ := d.table.eval e cz / d.integral

/-- `SampleTablePoint` (Tabulated2DFluxDistribution.cxx:258-275). -/
noncomputable def Dist.tablePoint (d : Dist) (z : ℝ × ℝ) : ℝ × ℝ :=
  let u1 := uniform 0 1 z.1
  let u2 := uniform 0 1 z.2
  (if d.table.logX then pow10 (log10 d.eMin + u1 * (log10 d.eMax - log10 d.eMin)) else d.eMin + u1 * (d.eMax - d.eMin),
    d.czMin + u2 * (d.czMax - d.czMin))

/-- The numbers for one pass of a loop. -/
abbrev Draw := (ℝ × ℝ) × ℝ

/-- `accept` (Tabulated2DFluxDistribution.cxx:288, 301). -/
def accepts (density test u : ℝ) : Prop := density ≤ 0 ∨ test ≥ density ∨ uniform 0 1 u < test / density

open Classical in
/-- One pass of either loop (Tabulated2DFluxDistribution.cxx:284-292, 297-305): the object and the point if the point is accepted. -/
noncomputable def Dist.attempt (d : Dist) (t : Draw) : Option (Dist × (ℝ × ℝ)) :=
  let p := d.tablePoint t.1
  if accepts d.density (d.pdf p.1 p.2) t.2 then some ({ d with density := d.pdf p.1 p.2, points := d.points + 1 }, p) else none

/-- The burn-in (Tabulated2DFluxDistribution.cxx:283-293; `burnin` is 40): the object afterwards and the draws left, `none` if it needs more draws. -/
noncomputable def Dist.burn (d : Dist) : List Draw → Option (Dist × List Draw)
  | [] => if d.points ≤ 40 then none else some (d, [])
  | t :: l => if d.points ≤ 40 then (match d.attempt t with | some r => r.1.burn l | none => d.burn l) else some (d, t :: l)

/-- The loop after the burn-in (Tabulated2DFluxDistribution.cxx:295-306). -/
noncomputable def Dist.draw (d : Dist) : List Draw → Option (Dist × (ℝ × ℝ))
  | [] => none
  | t :: l => match d.attempt t with | some r => some r | none => d.draw l

/-- The direction for a cosine and the number for the azimuth (Tabulated2DFluxDistribution.cxx:308-313). -/
noncomputable def direction (cz u : ℝ) : Vec3 ℝ :=
  let sinTheta := Real.sqrt (1 - cz * cz)
  let phi := uniform (-Real.pi) Real.pi u
  Vec3.normalize ⟨sinTheta * Real.cos phi, sinTheta * Real.sin phi, cz⟩

/-- `SampleEnergyAndDirection` (Tabulated2DFluxDistribution.cxx:277-315): the object afterwards, the energy and the direction. -/
noncomputable def Dist.sample (d : Dist) (draws : List Draw) (u : ℝ) : Option (Dist × ℝ × Vec3 ℝ) :=
  (d.burn draws).bind fun b => (b.1.draw b.2).bind fun r => some (r.1, r.2.1, direction r.2.2 u)

open Classical in
/-- `GenerationProbability` (Tabulated2DFluxDistribution.cxx:318-331) for the energy and the momentum of the record. -/
noncomputable def Dist.generationProbability (d : Dist) (energy : ℝ) (p : Vec3 ℝ) : ℝ :=
  let pMag := Real.sqrt (p.x ^ 2 + p.y ^ 2 + p.z ^ 2)
  if pMag = 0 then 0
  else if energy < d.eMin ∨ energy > d.eMax then 0
  else if p.z / pMag < d.czMin ∨ p.z / pMag > d.czMax then 0
  else d.pdf energy (p.z / pMag)

/-! ### Specification -/

/-- **Specification.** Bounds a user may choose: in order, the cosines between -1 and 1, and positive energies for a logarithmic table. -/
structure Bounds (d : Dist) : Prop where
  energy : d.eMin ≤ d.eMax
  low : -1 ≤ d.czMin
  cosine : d.czMin ≤ d.czMax
  high : d.czMax ≤ 1
  log : d.table.logX = true → 0 < d.eMin

/-- **Specification.** The unit vector with cosine `cz` of the zenith angle and azimuth `phi`. -/
noncomputable def unitVector (cz phi : ℝ) : Vec3 ℝ := ⟨Real.sqrt (1 - cz ^ 2) * Real.cos phi, Real.sqrt (1 - cz ^ 2) * Real.sin phi, cz⟩

/-- **Specification.** A distribution made by a constructor, any number of draws, and any number of calls that set bounds and return. -/
inductive Made (make : List ℝ → List ℝ → List ℝ → Res Table) : Dist → Prop
  | new {eb cb : Option (ℝ × ℝ)} {es czs flux : List ℝ} {physical : Bool} {d : Dist} : construct make eb cb es czs flux physical = .ok d → Made make d
  | energy {d : Dist} {lo hi : ℝ} : Made make d → (d.setEnergyBounds lo hi).2 = .ok () → Made make (d.setEnergyBounds lo hi).1
  | cosine {d : Dist} {lo hi : ℝ} : Made make d → (d.setCosZenithBounds lo hi).2 = .ok () → Made make (d.setCosZenithBounds lo hi).1
  | sample {d d' : Dist} {draws : List Draw} {u e : ℝ} {v : Vec3 ℝ} : Made make d → d.sample draws u = some (d', e, v) → Made make d'

/-- **Specification.** The uniform law of a pair of numbers of the generator. -/
noncomputable def square : Measure (ℝ × ℝ) := (volume.restrict (Icc (0 : ℝ) 1)).prod (volume.restrict (Icc (0 : ℝ) 1))

/-- **Specification.** The mean of `F` over `n` independent draws of uniform numbers. -/
noncomputable def mean : Nat → (List Draw → ℝ≥0∞) → ℝ≥0∞
  | 0, F => F []
  | n + 1, F => ∫⁻ z, (∫⁻ u in Icc (0 : ℝ) 1, mean n fun l => F ((z, u) :: l)) ∂square

/-- **Specification.** The mean of `g` of the point (energy and cosine) the loop after the burn-in returns, for as many draws as it takes. -/
noncomputable def Dist.drawn (d : Dist) (g : ℝ × ℝ → ℝ≥0∞) : ℝ≥0∞ :=
  ⨆ n, mean n fun l => match d.draw l with | some r => g r.2 | none => 0

/-- **Specification.** The object once the last accepted point was `p`. -/
noncomputable def Dist.at (d : Dist) (p : ℝ × ℝ) : Dist := { d with density := d.pdf p.1 p.2 }

/-- **Specification.** The probability that a pass of the loop after the burn-in accepts its point. -/
noncomputable def Dist.accepting (d : Dist) : ℝ≥0∞ := mean 1 fun l => match d.draw l with | some _ => 1 | none => 0

/-! ### What a call changes -/

/-- The same distribution in another state of the sampler. -/
def Same (d d' : Dist) : Prop :=
  d'.eMin = d.eMin ∧ d'.eMax = d.eMax ∧ d'.czMin = d.czMin ∧ d'.czMax = d.czMax ∧ d'.table = d.table ∧ d'.integral = d.integral ∧ d'.norm = d.norm

theorem Same.refl (d : Dist) : Same d d := ⟨rfl, rfl, rfl, rfl, rfl, rfl, rfl⟩

theorem Same.trans {a b c : Dist} (h : Same a b) (h' : Same b c) : Same a c := by
  obtain ⟨h1, h2, h3, h4, h5, h6, h7⟩ := h
  obtain ⟨k1, k2, k3, k4, k5, k6, k7⟩ := h'
  exact ⟨k1.trans h1, k2.trans h2, k3.trans h3, k4.trans h4, k5.trans h5, k6.trans h6, k7.trans h7⟩

theorem attempt_spec {d d' : Dist} {t : Draw} {p : ℝ × ℝ} (h : d.attempt t = some (d', p)) :
    Same d d' ∧ p = d.tablePoint t.1 ∧ d'.density = d.pdf p.1 p.2 ∧ accepts d.density (d.pdf p.1 p.2) t.2 ∧ d'.points = d.points + 1 := by
  classical
  unfold Dist.attempt at h
  simp only at h
  split at h
  next hacc =>
    obtain ⟨rfl, rfl⟩ := Prod.mk.inj (Option.some.inj h)
    exact ⟨Same.refl d, rfl, rfl, hacc, rfl⟩
  · cases h

theorem burn_spec : ∀ (l : List Draw) {d d' : Dist} {rest : List Draw}, d.burn l = some (d', rest) → Same d d' ∧ (∀ t ∈ rest, t ∈ l) ∧ 40 < d'.points
  | [], d, d', rest, h => by
    unfold Dist.burn at h
    split at h
    · cases h
    · obtain ⟨rfl, rfl⟩ := Prod.mk.inj (Option.some.inj h)
      exact ⟨Same.refl d, fun t ht => ht, by omega⟩
  | t :: l, d, d', rest, h => by
    unfold Dist.burn at h
    split at h
    · split at h
      next r hr =>
        obtain ⟨h1, h2, h3⟩ := burn_spec l h
        exact ⟨(attempt_spec (p := r.2) hr).1.trans h1, fun t' ht' => List.mem_cons_of_mem _ (h2 t' ht'), h3⟩
      next hr =>
        obtain ⟨h1, h2, h3⟩ := burn_spec l h
        exact ⟨h1, fun t' ht' => List.mem_cons_of_mem _ (h2 t' ht'), h3⟩
    · obtain ⟨rfl, rfl⟩ := Prod.mk.inj (Option.some.inj h)
      exact ⟨Same.refl d, fun t ht => ht, by omega⟩

theorem draw_spec : ∀ (l : List Draw) {d d' : Dist} {p : ℝ × ℝ}, d.draw l = some (d', p) →
    Same d d' ∧ d'.density = d.pdf p.1 p.2 ∧ ∃ t ∈ l, p = d.tablePoint t.1 ∧ accepts d.density (d.pdf p.1 p.2) t.2
  | [], d, d', p, h => by cases h
  | t :: l, d, d', p, h => by
    unfold Dist.draw at h
    split at h
    next r hr =>
      cases h
      obtain ⟨h1, h2, h3, h4, -⟩ := attempt_spec hr
      exact ⟨h1, h3, t, List.mem_cons_self, h2, h4⟩
    next hr =>
      obtain ⟨h1, h2, t', ht', h3⟩ := draw_spec l h
      exact ⟨h1, h2, t', List.mem_cons_of_mem _ ht', h3⟩

theorem uniform01 (u : ℝ) : uniform 0 1 u = u := by
  unfold Dis.uniform
  rw [if_neg (by norm_num)]
  ring

theorem pow10_log10 {x : ℝ} (hx : 0 < x) : pow10 (log10 x) = x := Real.rpow_logb (by norm_num) (by norm_num) hx

theorem tablePoint_mem {d : Dist} (hb : Bounds d) {z : ℝ × ℝ} (h1 : 0 ≤ z.1 ∧ z.1 ≤ 1) (h2 : 0 ≤ z.2 ∧ z.2 ≤ 1) :
    (d.eMin ≤ (d.tablePoint z).1 ∧ (d.tablePoint z).1 ≤ d.eMax) ∧ d.czMin ≤ (d.tablePoint z).2 ∧ (d.tablePoint z).2 ≤ d.czMax := by
  unfold Dist.tablePoint
  simp only [uniform01]
  have lin : ∀ {a b u : ℝ}, a ≤ b → 0 ≤ u → u ≤ 1 → a ≤ a + u * (b - a) ∧ a + u * (b - a) ≤ b := by
    intro a b u hab h0 h1
    have := mul_nonneg h0 (sub_nonneg.mpr hab)
    have := mul_nonneg (sub_nonneg.mpr h1) (sub_nonneg.mpr hab)
    constructor <;> linarith
  refine ⟨?_, lin hb.cosine h2.1 h2.2⟩
  split_ifs with hl
  · have hp := hb.log hl
    have hp' := lt_of_lt_of_le hp hb.energy
    obtain ⟨h3, h4⟩ := lin (Real.logb_le_logb_of_le (b := 10) (by norm_num) hp hb.energy) h1.1 h1.2
    have hm : ∀ {a b : ℝ}, a ≤ b → pow10 a ≤ pow10 b := fun h => Real.rpow_le_rpow_of_exponent_le (by norm_num) h
    exact ⟨(pow10_log10 hp).symm.le.trans (hm h3), (hm h4).trans (pow10_log10 hp').le⟩
  · exact lin hb.energy h1.1 h1.2

theorem direction_eq {cz u : ℝ} (h1 : -1 ≤ cz) (h2 : cz ≤ 1) : direction cz u = unitVector cz (uniform (-Real.pi) Real.pi u) := by
  have hs : 0 ≤ 1 - cz * cz := by nlinarith
  have hu : Vec3.norm ⟨Real.sqrt (1 - cz * cz) * Real.cos (uniform (-Real.pi) Real.pi u), Real.sqrt (1 - cz * cz) * Real.sin (uniform (-Real.pi) Real.pi u), cz⟩ = 1 := by
    unfold Vec3.norm Vec3.dot
    rw [show Real.sqrt (1 - cz * cz) * Real.cos (uniform (-Real.pi) Real.pi u) * (Real.sqrt (1 - cz * cz) * Real.cos (uniform (-Real.pi) Real.pi u)) +
      Real.sqrt (1 - cz * cz) * Real.sin (uniform (-Real.pi) Real.pi u) * (Real.sqrt (1 - cz * cz) * Real.sin (uniform (-Real.pi) Real.pi u)) + cz * cz = 1 by
        have h3 := Real.mul_self_sqrt hs
        have h4 := Real.sin_sq_add_cos_sq (uniform (-Real.pi) Real.pi u)
        linear_combination h3 * (Real.sin (uniform (-Real.pi) Real.pi u) ^ 2 + Real.cos (uniform (-Real.pi) Real.pi u) ^ 2) + (1 - cz * cz) * h4]
    exact Real.sqrt_one
  unfold direction unitVector
  simp only [Vec3.normalize, hu, div_one, pow_two]

theorem unitVector_norm {cz phi : ℝ} (h1 : -1 ≤ cz) (h2 : cz ≤ 1) : (unitVector cz phi).x ^ 2 + (unitVector cz phi).y ^ 2 + (unitVector cz phi).z ^ 2 = 1 := by
  have hs : 0 ≤ 1 - cz ^ 2 := by nlinarith
  have h3 := Real.sq_sqrt hs
  have h4 := Real.sin_sq_add_cos_sq phi
  simp only [unitVector]
  linear_combination h3 * (Real.sin phi ^ 2 + Real.cos phi ^ 2) + (1 - cz ^ 2) * h4

theorem generationProbability_unit {d : Dist} {e cz phi k : ℝ} (hk : 0 < k) (h1 : -1 ≤ cz) (h2 : cz ≤ 1) :
    d.generationProbability e (Vec3.smul k (unitVector cz phi)) =
      open Classical in if e < d.eMin ∨ e > d.eMax then 0 else if cz < d.czMin ∨ cz > d.czMax then 0 else d.pdf e cz := by
  classical
  have hm : Real.sqrt ((Vec3.smul k (unitVector cz phi)).x ^ 2 + (Vec3.smul k (unitVector cz phi)).y ^ 2 + (Vec3.smul k (unitVector cz phi)).z ^ 2) = k := by
    rw [show (Vec3.smul k (unitVector cz phi)).x ^ 2 + (Vec3.smul k (unitVector cz phi)).y ^ 2 + (Vec3.smul k (unitVector cz phi)).z ^ 2 = k ^ 2 by
      have := unitVector_norm (phi := phi) h1 h2
      simp only [Vec3.smul]
      linear_combination k ^ 2 * this]
    exact Real.sqrt_sq hk.le
  have hz : (Vec3.smul k (unitVector cz phi)).z / k = cz := by
    simp only [Vec3.smul, unitVector]
    field_simp
  unfold Dist.generationProbability
  simp only [hm, hz, if_neg hk.ne']

theorem foldl_range_congr {α : Type} {f g : α → Nat → α} : ∀ (n : Nat) (s : α), (∀ a k, k < n → f a k = g a k) → (List.range n).foldl f s = (List.range n).foldl g s
  | 0, s, _ => rfl
  | n + 1, s, h => by
    rw [List.range_succ, List.foldl_append, List.foldl_append, foldl_range_congr n s fun a k hk => h a k (by omega)]
    exact h _ n (by omega)

theorem estimate_congr {f g : ℝ → ℝ → ℝ} {a1 b1 a2 b2 : ℝ} (h1 : a1 ≤ b1) (h2 : a2 ≤ b2) (h : ∀ x y, a1 ≤ x → x ≤ b1 → a2 ≤ y → y ≤ b2 → f x y = g x y) {n1 n2 : Nat} (hn1 : 0 < n1) (hn2 : 0 < n2) :
    simpsonEstimate f a1 b1 a2 b2 n1 n2 = simpsonEstimate g a1 b1 a2 b2 n1 n2 := by
  have key : ∀ {a b : ℝ} {n j : Nat}, a ≤ b → 0 < n → j < n + 1 → a ≤ a + j * ((b - a) / n) ∧ a + j * ((b - a) / n) ≤ b := by
    intro a b n j hab hn hj
    have hn' : (0 : ℝ) < n := by exact_mod_cast hn
    have hj' : (j : ℝ) ≤ n := by exact_mod_cast Nat.lt_succ_iff.mp hj
    have h0 : 0 ≤ (b - a) / n := div_nonneg (by linarith) hn'.le
    have h3 := mul_le_mul_of_nonneg_right hj' h0
    rw [mul_div_cancel₀ _ hn'.ne'] at h3
    have h4 := mul_nonneg (Nat.cast_nonneg (α := ℝ) j) h0
    constructor <;> linarith
  unfold simpsonEstimate
  simp only
  congr 1
  refine foldl_range_congr _ _ fun e j hj => foldl_range_congr _ _ fun e k hk => ?_
  rw [h _ _ (key h1 hn1 hj).1 (key h1 hn1 hj).2 (key h2 hn2 hk).1 (key h2 hn2 hk).2]

theorem simpson_congr {f g : ℝ → ℝ → ℝ} {a1 b1 a2 b2 tol : ℝ} (h1 : a1 ≤ b1) (h2 : a2 ≤ b2) (h : ∀ x y, a1 ≤ x → x ≤ b1 → a2 ≤ y → y ≤ b2 → f x y = g x y) {n1 n2 m : Nat} (hn1 : 0 < n1) (hn2 : 0 < n2) :
    simpsonIntegrate2D f a1 b1 a2 b2 tol n1 n2 m = simpsonIntegrate2D g a1 b1 a2 b2 tol n1 n2 m := by
  have hl : ∀ (m i : Nat) (prev : ℝ), simpsonLoop f a1 b1 a2 b2 tol n1 n2 m i prev = simpsonLoop g a1 b1 a2 b2 tol n1 n2 m i prev := by
    intro m
    induction m with
    | zero => intro i prev; rfl
    | succ m ih =>
      intro i prev
      unfold simpsonLoop
      simp only [estimate_congr h1 h2 h (n1 := 2 ^ i * n1) (n2 := 2 ^ i * n2) (by positivity) (by positivity), ih]
  unfold simpsonIntegrate2D
  rw [hl]

/-! ### The property -/

/-- C103: whatever the numbers of the generator, a sampled energy lies in its range, the direction has length one and the cosine of its zenith angle lies in its range; its azimuth is the one drawn. The reported
density there is the flux of the table divided by the integral, hence positive if the table is positive. Only the state of the sampler changes. -/
theorem C103_sample {d d' : Dist} {draws : List Draw} {u e : ℝ} {v : Vec3 ℝ} (hb : Bounds d)
    (hd : ∀ t ∈ draws, (0 ≤ t.1.1 ∧ t.1.1 < 1) ∧ 0 ≤ t.1.2 ∧ t.1.2 < 1) (h : d.sample draws u = some (d', e, v)) :
    (d.eMin ≤ e ∧ e ≤ d.eMax) ∧ v.x ^ 2 + v.y ^ 2 + v.z ^ 2 = 1 ∧ (d.czMin ≤ v.z ∧ v.z ≤ d.czMax) ∧ v = unitVector v.z (-Real.pi + 2 * Real.pi * u) ∧
      d' = { d with points := d'.points, density := d'.density } ∧ 40 < d'.points ∧
      (∀ k, 0 < k → d'.generationProbability e (Vec3.smul k v) = d.table.eval e v.z / d.integral) ∧
      (0 < d.integral → (∀ x y, d.eMin ≤ x → x ≤ d.eMax → d.czMin ≤ y → y ≤ d.czMax → 0 < d.table.eval x y) → ∀ k, 0 < k → 0 < d'.generationProbability e (Vec3.smul k v)) := by
  classical
  unfold Dist.sample at h
  obtain ⟨⟨b, rest⟩, hburn, h⟩ := Option.bind_eq_some_iff.mp h
  obtain ⟨⟨d1, p⟩, hdraw, h⟩ := Option.bind_eq_some_iff.mp h
  simp only [Option.some.injEq, Prod.mk.injEq] at h hdraw
  obtain ⟨rfl, rfl, rfl⟩ := h
  obtain ⟨hs1, hmem, hpts⟩ := burn_spec draws hburn
  obtain ⟨hs2, -, t, ht, hp, -⟩ := draw_spec rest hdraw
  have hpts2 : ∀ (l : List Draw) {d d' : Dist} {p : ℝ × ℝ}, d.draw l = some (d', p) → d'.points = d.points + 1 := by
    intro l
    induction l with
    | nil => intro d d' p h; cases h
    | cons t l ih =>
      intro d d' p h
      unfold Dist.draw at h
      split at h
      next r hr => cases h; exact (attempt_spec hr).2.2.2.2
      next hr => exact ih h
  have hs := hs1.trans hs2
  have hbp : b.tablePoint t.1 = d.tablePoint t.1 := by
    obtain ⟨e1, e2, e3, e4, e5, -, -⟩ := hs1
    simp only [Dist.tablePoint, e1, e2, e3, e4, e5]
  obtain ⟨h1, h2⟩ := hd t (hmem t ht)
  obtain ⟨hm1, hm2⟩ := tablePoint_mem hb ⟨h1.1, h1.2.le⟩ ⟨h2.1, h2.2.le⟩
  rw [← hbp, ← hp] at hm1 hm2
  have hlo := hb.low.trans hm2.1
  have hhi := hm2.2.trans hb.high
  have hdir : direction p.2 u = unitVector p.2 (-Real.pi + 2 * Real.pi * u) := by
    rw [direction_eq hlo hhi]
    congr 1
    unfold Dis.uniform
    rw [if_neg (by linarith [Real.pi_pos])]
    ring
  have hz : (direction p.2 u).z = p.2 := by rw [hdir]; rfl
  obtain ⟨e1, e2, e3, e4, e5, e6, e7⟩ := hs
  have hgp : ∀ k, 0 < k → d1.generationProbability p.1 (Vec3.smul k (direction p.2 u)) = d.table.eval p.1 p.2 / d.integral := by
    intro k hk
    rw [hdir, generationProbability_unit hk hlo hhi, e1, e2, e3, e4, if_neg (by rintro (h | h) <;> linarith [hm1.1, hm1.2]),
      if_neg (by rintro (h | h) <;> linarith [hm2.1, hm2.2]), Dist.pdf, e5, e6]
  refine ⟨hm1, by rw [hdir]; exact unitVector_norm hlo hhi, by rw [hz]; exact hm2, by rw [hz]; exact hdir, ?_, ?_, by rw [hz]; exact hgp, fun hI hT k hk => ?_⟩
  · cases d1; cases d
    simp only at e1 e2 e3 e4 e5 e6 e7
    subst e1 e2 e3 e4 e5 e6 e7
    rfl
  · have := hpts2 rest hdraw
    omega
  · rw [hgp k hk]
    exact div_pos (hT _ _ hm1.1 hm1.2 hm2.1 hm2.2) hI

/-- C103: the integral of a distribution is the Simpson rule for the flux in the energy and the cosine, or in the logarithm of the energy if the table is logarithmic; and it is the exact integral of the flux
over the ranges if the table is not logarithmic and the flux there is a polynomial of degree at most three in each variable (so, if it is interpolated linearly in both). -/
theorem C103_integral {make : List ℝ → List ℝ → List ℝ → Res Table} {d : Dist} (h : Made make d) :
    computeIntegral d.table d.eMin d.eMax d.czMin d.czMax = .ok d.integral ∧
    (∀ c : Nat → Nat → ℝ, d.table.logX = false → d.eMin ≤ d.eMax → d.czMin ≤ d.czMax →
      (∀ x y, d.eMin ≤ x → x ≤ d.eMax → d.czMin ≤ y → y ≤ d.czMax → d.table.eval x y = ∑ i ∈ Finset.range 4, (∑ j ∈ Finset.range 4, c i j * y ^ j) * x ^ i) →
      d.integral = ∫ x in d.eMin..d.eMax, ∫ y in d.czMin..d.czMax, d.table.eval x y) := by
  have hcons : computeIntegral d.table d.eMin d.eMax d.czMin d.czMax = .ok d.integral := by
    have hre : ∀ d : Dist, d.recompute.2 = .ok () →
        computeIntegral d.recompute.1.table d.recompute.1.eMin d.recompute.1.eMax d.recompute.1.czMin d.recompute.1.czMax = .ok d.recompute.1.integral := by
      intro d hd
      unfold Dist.recompute at hd ⊢
      cases hc : computeIntegral d.table d.eMin d.eMax d.czMin d.czMax with
      | ok I => simp only [hc]
      | throws e => rw [hc] at hd; cases hd
      | ub => rw [hc] at hd; cases hd
    induction h with
    | @new eb cb es czs flux physical d h =>
      unfold construct at h
      split at h
      · cases h
      split at h
      · cases h
      cases hm : make es czs flux with
      | throws e => rw [hm] at h; cases h
      | ub => rw [hm] at h; cases h
      | ok T =>
        simp only [hm, Res.bind] at h
        cases hc : computeIntegral T (eb.getD (minmax es)).1 (eb.getD (minmax es)).2 (cb.getD (minmax czs)).1 (cb.getD (minmax czs)).2 with
        | throws e => rw [hc] at h; cases h
        | ub => rw [hc] at h; cases h
        | ok I =>
          rw [hc] at h
          cases h
          exact hc
    | energy _ hok _ => exact hre _ hok
    | @cosine d lo hi _ hok _ =>
      unfold Dist.setCosZenithBounds at hok ⊢
      split at hok
      · cases hok
      split at hok
      · cases hok
      next h1 h2 =>
        rw [if_neg h1, if_neg h2]
        exact hre _ hok
    | @sample d d' draws u e v _ hs ih =>
      unfold Dist.sample at hs
      obtain ⟨⟨b, rest⟩, hburn, hs⟩ := Option.bind_eq_some_iff.mp hs
      obtain ⟨⟨d1, p⟩, hdraw, hs⟩ := Option.bind_eq_some_iff.mp hs
      simp only [Option.some.injEq, Prod.mk.injEq] at hs hdraw
      obtain ⟨rfl, -, -⟩ := hs
      obtain ⟨e1, e2, e3, e4, e5, e6, -⟩ := (burn_spec draws hburn).1.trans (draw_spec rest hdraw).1
      rw [e1, e2, e3, e4, e5, e6]
      exact ih
  refine ⟨hcons, fun c hl he hz hpoly => ?_⟩
  unfold computeIntegral at hcons
  have hint : d.table.integrand = d.table.eval := by
    funext x y
    simp [Table.integrand, hl]
  split at hcons
  · cases hcons
  split at hcons
  · cases hcons
  rw [hint] at hcons
  simp only [hl, Bool.false_eq_true, if_false] at hcons
  rw [simpson_congr he hz hpoly (by norm_num) (by norm_num)] at hcons
  rw [(C67_cubic c d.eMin d.eMax d.czMin d.czMax (1 / 1000) 10 10 15 (by norm_num) (by norm_num)).1 _ hcons]
  refine intervalIntegral.integral_congr fun x hx => intervalIntegral.integral_congr fun y hy => ?_
  rw [uIcc_of_le he] at hx
  rw [uIcc_of_le hz] at hy
  exact (hpoly x y hx.1 hx.2 hy.1 hy.2).symm

/-- C103: for a logarithmic table, what the Simpson rule integrates over the logarithm of the energy has the integral of the flux over the energy. -/
theorem C103_integrand (T : Table) (hl : T.logX = true) {lo hi y : ℝ} (h0 : 0 < lo) (h1 : lo ≤ hi) (hc : Continuous fun x => T.eval x y) :
    (∫ x in log10 lo..log10 hi, T.integrand x y) = ∫ e in lo..hi, T.eval e y := by
  have hd : ∀ x ∈ uIcc (log10 lo) (log10 hi), HasDerivAt pow10 (pow10 x * Real.log 10) x := fun x _ => by
    unfold Dis.pow10
    simpa using (Real.hasStrictDerivAt_const_rpow (show (0 : ℝ) < 10 by norm_num) x).hasDerivAt
  have hcp : Continuous pow10 := by
    unfold Dis.pow10
    exact Real.continuous_const_rpow (by norm_num)
  have h := intervalIntegral.integral_comp_mul_deriv hd (by fun_prop) hc
  rw [pow10_log10 h0, pow10_log10 (h0.trans_le h1)] at h
  rw [← h]
  refine intervalIntegral.integral_congr fun x _ => ?_
  simp only [Table.integrand, hl, if_true, Function.comp]
  ring

/-- C103: with the exact integral, the reported density has the integral one over the energy and the cosine of the zenith angle, for every azimuth and magnitude of the momentum; it is zero outside of the
ranges. -/
theorem C103_normalized {d : Dist} (hb : Bounds d) (hI : d.integral ≠ 0) (hex : d.integral = ∫ x in d.eMin..d.eMax, ∫ y in d.czMin..d.czMax, d.table.eval x y) :
    (∀ phi k, 0 < k → (∫ e in d.eMin..d.eMax, ∫ cz in d.czMin..d.czMax, d.generationProbability e (Vec3.smul k (unitVector cz phi))) = 1) ∧
    ∀ e cz phi k, 0 < k → -1 ≤ cz → cz ≤ 1 → ¬((d.eMin ≤ e ∧ e ≤ d.eMax) ∧ d.czMin ≤ cz ∧ cz ≤ d.czMax) → d.generationProbability e (Vec3.smul k (unitVector cz phi)) = 0 := by
  classical
  constructor
  · intro phi k hk
    have hgp : ∀ e ∈ uIcc d.eMin d.eMax, (∫ cz in d.czMin..d.czMax, d.generationProbability e (Vec3.smul k (unitVector cz phi))) =
        (∫ cz in d.czMin..d.czMax, d.table.eval e cz) / d.integral := by
      intro e he
      rw [uIcc_of_le hb.energy] at he
      rw [← intervalIntegral.integral_div]
      refine intervalIntegral.integral_congr fun cz hcz => ?_
      rw [uIcc_of_le hb.cosine] at hcz
      rw [generationProbability_unit hk (hb.low.trans hcz.1) (hcz.2.trans hb.high), if_neg (by rintro (h | h) <;> linarith [he.1, he.2]),
        if_neg (by rintro (h | h) <;> linarith [hcz.1, hcz.2]), Dist.pdf]
    rw [intervalIntegral.integral_congr hgp, intervalIntegral.integral_div, ← hex, div_self hI]
  · intro e cz phi k hk h1 h2 hout
    rw [generationProbability_unit hk h1 h2]
    split_ifs with h3 h4
    · rfl
    · rfl
    · push Not at h3 h4
      exact absurd ⟨⟨h3.1, h3.2⟩, h4.1, h4.2⟩ hout

/-- C103 does not hold for the density of a direction: over the energies and the solid angle the reported density has the integral `2 π`, because the factor `1 / (2 π)` for the azimuth is missing. (`DensityVariables`
names the direction, and the densities of the other distributions of directions are per solid angle: see C70.) -/
theorem C103_solid_angle_fails {d : Dist} (hb : Bounds d) (hI : d.integral ≠ 0) (hex : d.integral = ∫ x in d.eMin..d.eMax, ∫ y in d.czMin..d.czMax, d.table.eval x y) {k : ℝ} (hk : 0 < k) :
    (∫ phi in (-Real.pi)..Real.pi, ∫ e in d.eMin..d.eMax, ∫ cz in d.czMin..d.czMax, d.generationProbability e (Vec3.smul k (unitVector cz phi))) = 2 * Real.pi := by
  have h := (C103_normalized hb hI hex).1
  simp only [h _ k hk]
  rw [intervalIntegral.integral_const]
  simp
  ring

/-! ### The law of a drawn point -/

instance : IsProbabilityMeasure square := by
  have : IsProbabilityMeasure (volume.restrict (Icc (0 : ℝ) 1)) := ⟨by simp⟩
  unfold square
  infer_instance

theorem mean_const : ∀ (n : Nat) (c : ℝ≥0∞), mean n (fun _ => c) = c
  | 0, c => rfl
  | n + 1, c => by
    unfold mean
    simp only [mean_const n c, lintegral_const, Measure.restrict_apply_univ, measure_univ, mul_one]
    simp

theorem measurable_tablePoint (d : Dist) : Measurable d.tablePoint := by
  have hp : Measurable pow10 := by
    unfold Dis.pow10
    exact measurable_const.pow measurable_id
  have h1 : Measurable fun z : ℝ × ℝ => uniform 0 1 z.1 := by simp only [uniform01]; exact measurable_fst
  have h2 : Measurable fun z : ℝ × ℝ => uniform 0 1 z.2 := by simp only [uniform01]; exact measurable_snd
  unfold Dist.tablePoint
  refine Measurable.prodMk ?_ (by fun_prop)
  cases d.table.logX with
  | true => exact hp.comp (measurable_const.add (h1.mul measurable_const))
  | false => exact measurable_const.add (h1.mul measurable_const)

/-- The probability that a proposed point is accepted when the last density is `w`. -/
noncomputable def Dist.chance (d : Dist) (w : ℝ) (p : ℝ × ℝ) : ℝ≥0∞ := Sampling.prob w (d.pdf p.1 p.2)

/-- The probability that a pass accepts its point when the last density is `w`. -/
noncomputable def Dist.rate (d : Dist) (w : ℝ) : ℝ≥0∞ := ∫⁻ z, d.chance w (d.tablePoint z) ∂square

theorem measurable_pdf {d : Dist} (hT : Measurable fun p : ℝ × ℝ => d.table.eval p.1 p.2) : Measurable fun p : ℝ × ℝ => d.pdf p.1 p.2 := hT.div_const _

theorem measurable_chance {d : Dist} (hT : Measurable fun p : ℝ × ℝ => d.table.eval p.1 p.2) : Measurable fun q : ℝ × ℝ × ℝ => d.chance q.1 q.2 := by
  unfold Dist.chance Sampling.prob
  refine Measurable.ite (measurable_fst (measurableSet_singleton 0)) measurable_const ?_
  exact (measurable_const.min (((measurable_pdf hT).comp measurable_snd).div measurable_fst)).ennreal_ofReal

theorem measurable_chance' {d : Dist} (hT : Measurable fun p : ℝ × ℝ => d.table.eval p.1 p.2) (w : ℝ) : Measurable fun z => d.chance w (d.tablePoint z) :=
  (measurable_chance hT).comp (measurable_const.prodMk (measurable_tablePoint d))

/-- One pass more. -/
theorem mean_succ {d : Dist} (hw : 0 ≤ d.density) (hpos : ∀ᵐ z ∂square, 0 ≤ d.pdf (d.tablePoint z).1 (d.tablePoint z).2) (hT : Measurable fun p : ℝ × ℝ => d.table.eval p.1 p.2) {g : ℝ × ℝ → ℝ≥0∞} (hg : Measurable g) (n : Nat) :
    mean (n + 1) (fun l => match d.draw l with | some r => g r.2 | none => 0) =
      ∫⁻ z, d.chance d.density (d.tablePoint z) * g (d.tablePoint z) ∂square +
        ((1 : ℝ≥0∞) - d.rate d.density) * mean n (fun l => match d.draw l with | some r => g r.2 | none => 0) := by
  classical
  obtain ⟨M, hM⟩ : ∃ M, M = mean n (fun l => match d.draw l with | some r => g r.2 | none => 0) := ⟨_, rfl⟩
  have hstep : ∀ z u, mean n (fun l => match d.draw ((z, u) :: l) with | some r => g r.2 | none => 0) =
      if Sampling.accepts d.density (d.pdf (d.tablePoint z).1 (d.tablePoint z).2) u then g (d.tablePoint z) else M := by
    intro z u
    have hiff : Sampling.accepts d.density (d.pdf (d.tablePoint z).1 (d.tablePoint z).2) u ↔ accepts d.density (d.pdf (d.tablePoint z).1 (d.tablePoint z).2) u := Iff.rfl
    by_cases h : accepts d.density (d.pdf (d.tablePoint z).1 (d.tablePoint z).2) u
    · rw [if_pos (hiff.mpr h)]
      have : ∀ l, d.draw ((z, u) :: l) = some ({ d with density := d.pdf (d.tablePoint z).1 (d.tablePoint z).2, points := d.points + 1 }, d.tablePoint z) := by
        intro l
        simp only [Dist.draw, Dist.attempt, if_pos h]
      simp only [this]
      exact mean_const n _
    · rw [if_neg (fun h' => h (hiff.mp h')), hM]
      have : ∀ l, d.draw ((z, u) :: l) = d.draw l := by
        intro l
        simp only [Dist.draw, Dist.attempt, if_neg h]
      simp only [this]
  rw [mean, ← hM]
  simp only [hstep]
  have hdec : ∀ᵐ z ∂square, (∫⁻ u in Icc (0 : ℝ) 1, if Sampling.accepts d.density (d.pdf (d.tablePoint z).1 (d.tablePoint z).2) u then g (d.tablePoint z) else M) =
      d.chance d.density (d.tablePoint z) * g (d.tablePoint z) + (1 - d.chance d.density (d.tablePoint z)) * M := by
    filter_upwards [hpos] with z hz
    exact Sampling.decision hw hz _ _
  rw [lintegral_congr_ae hdec]
  have hmc := measurable_chance' hT d.density
  have hmg : Measurable fun z => d.chance d.density (d.tablePoint z) * g (d.tablePoint z) := hmc.mul (hg.comp (measurable_tablePoint d))
  have hm1 : Measurable fun z => (1 : ℝ≥0∞) - d.chance d.density (d.tablePoint z) := measurable_const.sub hmc
  rw [lintegral_add_left hmg, lintegral_mul_const _ hm1]
  congr 2
  rw [lintegral_sub hmc]
  · simp [Dist.rate]
  · refine ne_top_of_le_ne_top ENNReal.one_ne_top ?_
    calc ∫⁻ z, d.chance d.density (d.tablePoint z) ∂square ≤ ∫⁻ _, 1 ∂square := lintegral_mono fun z => Sampling.prob_le_one _ _
      _ = 1 := by simp
  · exact Filter.Eventually.of_forall fun z => Sampling.prob_le_one _ _

theorem rate_le_one (d : Dist) (w : ℝ) : d.rate w ≤ 1 := by
  calc ∫⁻ z, d.chance w (d.tablePoint z) ∂square ≤ ∫⁻ _, 1 ∂square := lintegral_mono fun z => Sampling.prob_le_one _ _
    _ = 1 := by simp

/-- The law of the point a call draws, given the density of the last point: that of the proposed points, weighted with the probability that they are accepted. -/
theorem drawn_eq {d : Dist} (hw : 0 ≤ d.density) (hpos : ∀ᵐ z ∂square, 0 ≤ d.pdf (d.tablePoint z).1 (d.tablePoint z).2) (hT : Measurable fun p : ℝ × ℝ => d.table.eval p.1 p.2) {g : ℝ × ℝ → ℝ≥0∞} (hg : Measurable g) :
    d.drawn g = (∫⁻ z, d.chance d.density (d.tablePoint z) * g (d.tablePoint z) ∂square) / d.rate d.density := by
  obtain ⟨I, hI⟩ : ∃ I, I = ∫⁻ z, d.chance d.density (d.tablePoint z) * g (d.tablePoint z) ∂square := ⟨_, rfl⟩
  obtain ⟨M, hM⟩ : ∃ M : Nat → ℝ≥0∞, ∀ n, M n = mean n (fun l => match d.draw l with | some r => g r.2 | none => 0) := ⟨_, fun _ => rfl⟩
  have hsum : ∀ n, M n = ∑ k ∈ Finset.range n, ((1 : ℝ≥0∞) - d.rate d.density) ^ k * I := by
    intro n
    induction n with
    | zero => rw [hM]; rfl
    | succ n ih =>
      rw [hM, mean_succ hw hpos hT hg n, ← hM n, ih, ← hI, Finset.sum_range_succ', pow_zero, one_mul, add_comm, Finset.mul_sum]
      congr 1
      exact Finset.sum_congr rfl fun k _ => by rw [pow_succ]; ring
  unfold Dist.drawn
  simp only [← hM, hsum]
  rw [← ENNReal.tsum_eq_iSup_nat, ENNReal.tsum_mul_right, ENNReal.tsum_geometric, ENNReal.sub_sub_cancel ENNReal.one_ne_top (rate_le_one d _), ← hI, mul_comm]
  rfl

theorem chance_at {d : Dist} (p q : ℝ × ℝ) : (d.at p).chance (d.at p).density q = d.chance (d.pdf p.1 p.2) q := rfl

theorem drawn_at {d : Dist} (hpos : ∀ᵐ z ∂square, 0 ≤ d.pdf (d.tablePoint z).1 (d.tablePoint z).2) (hT : Measurable fun p : ℝ × ℝ => d.table.eval p.1 p.2) {p : ℝ × ℝ} (hp : 0 ≤ d.pdf p.1 p.2)
    {g : ℝ × ℝ → ℝ≥0∞} (hg : Measurable g) :
    (d.at p).drawn g = (∫⁻ z, d.chance (d.pdf p.1 p.2) (d.tablePoint z) * g (d.tablePoint z) ∂square) / d.rate (d.pdf p.1 p.2) :=
  drawn_eq (d := d.at p) hp hpos hT hg

theorem accepting_at {d : Dist} (hpos : ∀ᵐ z ∂square, 0 ≤ d.pdf (d.tablePoint z).1 (d.tablePoint z).2) (hT : Measurable fun p : ℝ × ℝ => d.table.eval p.1 p.2) {p : ℝ × ℝ} (hp : 0 ≤ d.pdf p.1 p.2) :
    (d.at p).accepting = d.rate (d.pdf p.1 p.2) := by
  have h := mean_succ (d := d.at p) hp hpos hT (g := fun _ => 1) measurable_const 0
  have h0 : mean 0 (fun l => match (d.at p).draw l with | some r => (fun _ : ℝ × ℝ => (1 : ℝ≥0∞)) r.2 | none => 0) = 0 := rfl
  rw [h0, mul_zero, add_zero] at h
  simp only [mul_one] at h
  exact h

/-- C103: the law of the point a call draws after the burn-in, when the density at the last point was positive: that of the proposed points, each weighted with the smaller of one and the ratio of its density to
the last one. (Missing for the full claim: see `C103_stationary_partial`.) -/
theorem C103_drawn_partial {d : Dist} (hw : 0 < d.density) (hpos : ∀ᵐ z ∂square, 0 ≤ d.pdf (d.tablePoint z).1 (d.tablePoint z).2) (hT : Measurable fun p : ℝ × ℝ => d.table.eval p.1 p.2)
    {g : ℝ × ℝ → ℝ≥0∞} (hg : Measurable g) :
    d.drawn g = (∫⁻ z, ENNReal.ofReal (min 1 (d.pdf (d.tablePoint z).1 (d.tablePoint z).2 / d.density)) * g (d.tablePoint z) ∂square) /
      ∫⁻ z, ENNReal.ofReal (min 1 (d.pdf (d.tablePoint z).1 (d.tablePoint z).2 / d.density)) ∂square := by
  rw [drawn_eq hw.le hpos hT hg]
  simp only [Dist.rate, Dist.chance, Sampling.prob, if_neg hw.ne']

/-- C103: the law that a call leaves unchanged. If the last point has the law with the density of the proposals times the reported density times the probability that the next pass accepts, so has the point
that is drawn next. (Missing for the full claim: that this law is the reported density. It is not: see `C103_density_fails` and `C103_log_fails`.) -/
theorem C103_stationary_partial {d : Dist} (hpos : ∀ᵐ z ∂square, 0 ≤ d.pdf (d.tablePoint z).1 (d.tablePoint z).2) (hT : Measurable fun p : ℝ × ℝ => d.table.eval p.1 p.2) {g : ℝ × ℝ → ℝ≥0∞} (hg : Measurable g) :
    ∫⁻ z, ENNReal.ofReal (d.pdf (d.tablePoint z).1 (d.tablePoint z).2) * (d.at (d.tablePoint z)).accepting * (d.at (d.tablePoint z)).drawn g ∂square =
      ∫⁻ z, ENNReal.ofReal (d.pdf (d.tablePoint z).1 (d.tablePoint z).2) * (d.at (d.tablePoint z)).accepting * g (d.tablePoint z) ∂square := by
  obtain ⟨f, hf⟩ : ∃ f : ℝ × ℝ → ℝ≥0∞, ∀ z, f z = ENNReal.ofReal (d.pdf (d.tablePoint z).1 (d.tablePoint z).2) := ⟨_, fun _ => rfl⟩
  have hfm : Measurable f := by
    have : f = fun z => ENNReal.ofReal (d.pdf (d.tablePoint z).1 (d.tablePoint z).2) := funext hf
    rw [this]
    exact ((measurable_pdf hT).comp (measurable_tablePoint d)).ennreal_ofReal
  have hgm : Measurable fun z => g (d.tablePoint z) := hg.comp (measurable_tablePoint d)
  have hbal : ∀ x, 0 ≤ d.pdf (d.tablePoint x).1 (d.tablePoint x).2 → ∀ z, f x * d.chance (d.pdf (d.tablePoint x).1 (d.tablePoint x).2) (d.tablePoint z) = min (f x) (f z) := by
    intro x hx z
    rw [hf, hf]
    exact Metropolis.balance hx
  have hm := fun w => measurable_chance' (d := d) hT w
  have hleft : ∀ᵐ x ∂square, ENNReal.ofReal (d.pdf (d.tablePoint x).1 (d.tablePoint x).2) * (d.at (d.tablePoint x)).accepting * (d.at (d.tablePoint x)).drawn g =
      ∫⁻ z, min (f x) (f z) * g (d.tablePoint z) ∂square := by
    filter_upwards [hpos] with x hx
    rw [accepting_at hpos hT hx, drawn_at hpos hT hx hg, mul_assoc, ← hf]
    have hcancel : d.rate (d.pdf (d.tablePoint x).1 (d.tablePoint x).2) * ((∫⁻ z, d.chance (d.pdf (d.tablePoint x).1 (d.tablePoint x).2) (d.tablePoint z) * g (d.tablePoint z) ∂square) /
        d.rate (d.pdf (d.tablePoint x).1 (d.tablePoint x).2)) = ∫⁻ z, d.chance (d.pdf (d.tablePoint x).1 (d.tablePoint x).2) (d.tablePoint z) * g (d.tablePoint z) ∂square := by
      refine ENNReal.mul_div_cancel' (fun h0 => ?_) (fun h => absurd h (ne_top_of_le_ne_top ENNReal.one_ne_top (rate_le_one d _)))
      have hz := (lintegral_eq_zero_iff (hm _)).mp h0
      refine (lintegral_eq_zero_iff ((hm _).mul hgm)).mpr ?_
      filter_upwards [hz] with z hz
      simp only [Pi.zero_apply] at hz
      simp [hz]
    rw [hcancel, ← lintegral_const_mul' _ _ (by rw [hf]; exact ENNReal.ofReal_ne_top)]
    refine lintegral_congr fun z => ?_
    rw [← mul_assoc, hbal x hx]
  have hright : ∀ᵐ x ∂square, ENNReal.ofReal (d.pdf (d.tablePoint x).1 (d.tablePoint x).2) * (d.at (d.tablePoint x)).accepting * g (d.tablePoint x) =
      ∫⁻ z, min (f x) (f z) * g (d.tablePoint x) ∂square := by
    filter_upwards [hpos] with x hx
    have hmin : Measurable fun z => min (f x) (f z) := measurable_const.min hfm
    rw [accepting_at hpos hT hx, lintegral_mul_const _ hmin, ← hf, Dist.rate, ← lintegral_const_mul' _ _ (by rw [hf]; exact ENNReal.ofReal_ne_top)]
    congr 1
    exact lintegral_congr fun z => hbal x hx z
  rw [lintegral_congr_ae hleft, lintegral_congr_ae hright]
  have hm2 : Measurable fun q : (ℝ × ℝ) × (ℝ × ℝ) => min (f q.1) (f q.2) * g (d.tablePoint q.2) :=
    ((hfm.comp measurable_fst).min (hfm.comp measurable_snd)).mul (hgm.comp measurable_snd)
  rw [lintegral_lintegral_swap hm2.aemeasurable]
  exact lintegral_congr fun x => lintegral_congr fun z => by rw [min_comm]

/-! ### Where the code and the property disagree -/

theorem square_fst {s : Set ℝ} : square (Prod.fst ⁻¹' s) = volume.restrict (Icc (0 : ℝ) 1) s := by
  rw [← Set.prod_univ, square, Measure.prod_prod]
  simp

theorem ae_square : ∀ᵐ z ∂square, (0 ≤ z.1 ∧ z.1 ≤ 1) ∧ 0 ≤ z.2 ∧ z.2 ≤ 1 := by
  have h : square = (volume.prod volume).restrict (Icc (0 : ℝ) 1 ×ˢ Icc (0 : ℝ) 1) := by
    rw [square, Measure.prod_restrict]
  rw [h]
  filter_upwards [ae_restrict_mem (measurableSet_Icc.prod measurableSet_Icc)] with z hz
  exact ⟨hz.1, hz.2⟩

/-- A table whose flux is the energy. -/
def ramp : Table := ⟨fun x _ => x, false, false⟩

/-- The distribution made from it for energies from 1 to 3 and all cosines. -/
noncomputable def rampDist : Dist := ⟨1, 3, -1, 1, ramp, 8, none, 0, 0⟩

theorem simpson_ramp {lo hi : ℝ} : simpsonIntegrate2D (fun x _ => x) lo hi (-1) 1 (1 / 1000) 10 10 15 = .ok (hi ^ 2 - lo ^ 2) := by
  have h := C67_cubic (fun i j => if i = 1 ∧ j = 0 then 1 else 0) lo hi (-1) 1 (1 / 1000) 10 10 15 (by norm_num) (by norm_num)
  have e : ∀ x y : ℝ, ∑ i ∈ Finset.range 4, (∑ j ∈ Finset.range 4, (if i = 1 ∧ j = 0 then (1 : ℝ) else 0) * y ^ j) * x ^ i = x := by
    intro x y
    simp [Finset.sum_range_succ]
  simp only [e] at h
  obtain ⟨v, hv⟩ := h.2 (by norm_num) (by norm_num)
  rw [hv, h.1 v hv]
  congr 1
  have hi' : ∀ x : ℝ, ∫ _ in (-1 : ℝ)..1, x = 2 * x := fun x => by
    rw [intervalIntegral.integral_const]; norm_num
  simp only [hi']
  rw [intervalIntegral.integral_const_mul, integral_id]
  ring

theorem rampDist_made : Made (fun _ _ _ => .ok ramp) rampDist := by
  refine Made.new (eb := none) (cb := none) (es := [1, 3, 1, 3]) (czs := [-1, -1, 1, 1]) (flux := [1, 3, 1, 3]) (physical := false) ?_
  have h1 : minmax [1, 3, 1, 3] = (1, 3) := by norm_num [minmax]
  have h2 : minmax [-1, -1, 1, 1] = (-1, 1) := by norm_num [minmax]
  have h3 : computeIntegral ramp 1 3 (-1) 1 = .ok 8 := by
    have h4 : ramp.integrand = fun x _ => x := by funext x y; simp [Table.integrand, ramp]
    unfold computeIntegral
    rw [h4]
    simp only [ramp, Bool.false_eq_true, false_and, if_false]
    rw [simpson_ramp]
    norm_num
  unfold construct
  simp only [h1, h2, Option.getD_none, Res.bind, h3]
  rw [if_neg (by simp), if_neg (by simp)]
  rfl

/-- C103 does not hold for the law of the sampled points: the sampler does not leave the reported density unchanged. A pass that rejects its point does not return the last point again, as the Metropolis-Hastings
algorithm would, but tries another one; so points from where many proposals are rejected are returned too rarely. Here the flux is the energy, between 1 and 3. -/
theorem C103_density_fails : ∃ (make : List ℝ → List ℝ → List ℝ → Res Table) (d : Dist) (g : ℝ × ℝ → ℝ≥0∞), Made make d ∧ Bounds d ∧
    d.integral = (∫ x in d.eMin..d.eMax, ∫ y in d.czMin..d.czMax, d.table.eval x y) ∧ Measurable g ∧
    ∫⁻ z, ENNReal.ofReal (d.pdf (d.tablePoint z).1 (d.tablePoint z).2) * g (d.tablePoint z) ∂square <
      ∫⁻ z, ENNReal.ofReal (d.pdf (d.tablePoint z).1 (d.tablePoint z).2) * (d.at (d.tablePoint z)).drawn g ∂square := by
  classical
  have hint : rampDist.integral = ∫ x in rampDist.eMin..rampDist.eMax, ∫ y in rampDist.czMin..rampDist.czMax, rampDist.table.eval x y := by
    refine (C103_integral rampDist_made).2 (fun i j => if i = 1 ∧ j = 0 then 1 else 0) rfl (by norm_num [rampDist]) (by norm_num [rampDist]) fun x y _ _ _ _ => ?_
    simp [Finset.sum_range_succ, rampDist, ramp]
  have hgm : Measurable ({p : ℝ × ℝ | p.1 ≤ 51 / 50}.indicator fun _ => (1 : ℝ≥0∞)) :=
    measurable_const.indicator (measurableSet_le measurable_fst measurable_const)
  refine ⟨_, rampDist, {p : ℝ × ℝ | p.1 ≤ 51 / 50}.indicator fun _ => 1, rampDist_made, ⟨by norm_num [rampDist], by norm_num [rampDist], by norm_num [rampDist], by norm_num [rampDist], by simp [rampDist, ramp]⟩,
    hint, hgm, ?_⟩
  have hpt : ∀ z, (rampDist.tablePoint z).1 = 1 + 2 * z.1 := by
    intro z
    simp only [Dist.tablePoint, rampDist, ramp, uniform01, Bool.false_eq_true, if_false]
    ring
  have hpdf : ∀ p : ℝ × ℝ, rampDist.pdf p.1 p.2 = p.1 / 8 := fun p => rfl
  have hT : Measurable fun p : ℝ × ℝ => rampDist.table.eval p.1 p.2 := measurable_fst
  have hpos : ∀ᵐ z ∂square, 0 ≤ rampDist.pdf (rampDist.tablePoint z).1 (rampDist.tablePoint z).2 := by
    filter_upwards [ae_square] with z hz
    rw [hpdf, hpt]
    linarith [hz.1.1]
  obtain ⟨G, hG⟩ : ∃ G, G = ∫⁻ z, ({p : ℝ × ℝ | p.1 ≤ 51 / 50}.indicator fun _ => (1 : ℝ≥0∞)) (rampDist.tablePoint z) ∂square := ⟨_, rfl⟩
  have hGv : G = ENNReal.ofReal (1 / 100) := by
    have h1 : ∀ z, ({p : ℝ × ℝ | p.1 ≤ 51 / 50}.indicator fun _ => (1 : ℝ≥0∞)) (rampDist.tablePoint z) = (Prod.fst ⁻¹' Iic (1 / 100 : ℝ)).indicator (fun _ => 1) z := by
      intro z
      simp only [indicator, Set.mem_ofPred_eq, hpt, mem_preimage, mem_Iic]
      refine if_congr ⟨fun h => by linarith, fun h => by linarith⟩ rfl rfl
    rw [hG]
    simp only [h1]
    rw [lintegral_indicator_const (measurable_fst measurableSet_Iic), one_mul, square_fst, Measure.restrict_apply measurableSet_Iic]
    have : Iic (1 / 100 : ℝ) ∩ Icc 0 1 = Icc 0 (1 / 100) := by
      ext x
      simp only [mem_inter_iff, mem_Iic, mem_Icc]
      exact ⟨fun h => ⟨h.2.1, h.1⟩, fun h => ⟨h.2, h.1, by linarith [h.2]⟩⟩
    rw [this, Real.volume_Icc]
    norm_num
  -- the average with the reported density
  have hleft : ∫⁻ z, ENNReal.ofReal (rampDist.pdf (rampDist.tablePoint z).1 (rampDist.tablePoint z).2) * ({p : ℝ × ℝ | p.1 ≤ 51 / 50}.indicator fun _ => (1 : ℝ≥0∞)) (rampDist.tablePoint z) ∂square ≤
      ENNReal.ofReal (51 / 400) * G := by
    rw [hG, ← lintegral_const_mul' _ _ ENNReal.ofReal_ne_top]
    refine lintegral_mono fun z => ?_
    by_cases h : (rampDist.tablePoint z).1 ≤ 51 / 50
    · rw [hpdf]
      exact mul_le_mul_left (ENNReal.ofReal_le_ofReal (by linarith)) _
    · rw [indicator_of_notMem (by exact h), mul_zero]
      exact zero_le
  -- what is drawn
  have hnum : ∀ z : ℝ × ℝ, 0 ≤ z.1 → ENNReal.ofReal (1 / (1 + 2 * z.1)) * G ≤
      ∫⁻ y, rampDist.chance (rampDist.pdf (rampDist.tablePoint z).1 (rampDist.tablePoint z).2) (rampDist.tablePoint y) * ({p : ℝ × ℝ | p.1 ≤ 51 / 50}.indicator fun _ => (1 : ℝ≥0∞)) (rampDist.tablePoint y) ∂square := by
    intro z hz
    rw [hG, ← lintegral_const_mul' _ _ ENNReal.ofReal_ne_top]
    refine lintegral_mono_ae ?_
    filter_upwards [ae_square] with y hy
    gcongr
    rw [Dist.chance, Sampling.prob, if_neg (by rw [hpdf, hpt]; linarith)]
    refine ENNReal.ofReal_le_ofReal ?_
    rw [hpdf, hpdf, hpt, hpt]
    refine le_min ?_ ?_
    · rw [div_le_one (by linarith)]; linarith
    · rw [div_div_div_cancel_right₀ (by norm_num)]
      gcongr
      linarith [hy.1.1]
  have hrate : ∀ z : ℝ × ℝ, 1 / 2 ≤ z.1 → rampDist.rate (rampDist.pdf (rampDist.tablePoint z).1 (rampDist.tablePoint z).2) ≤ ENNReal.ofReal (15 / 16) := by
    intro z hz
    have hle : ∀ᵐ y ∂square, rampDist.chance (rampDist.pdf (rampDist.tablePoint z).1 (rampDist.tablePoint z).2) (rampDist.tablePoint y) ≤
        (Prod.fst ⁻¹' Iic (1 / 4 : ℝ)).indicator (fun _ => ENNReal.ofReal (3 / 4)) y + (Prod.fst ⁻¹' Ioi (1 / 4 : ℝ)).indicator (fun _ => 1) y := by
      filter_upwards [ae_square] with y hy
      by_cases h : y.1 ≤ 1 / 4
      · rw [indicator_of_mem (by exact h), indicator_of_notMem (by simpa using h), add_zero, Dist.chance, Sampling.prob, if_neg (by rw [hpdf, hpt]; linarith)]
        refine ENNReal.ofReal_le_ofReal ((min_le_right _ _).trans ?_)
        rw [hpdf, hpdf, hpt, hpt, div_div_div_cancel_right₀ (by norm_num), div_le_iff₀ (by linarith)]
        linarith
      · rw [indicator_of_notMem (by exact h), indicator_of_mem (by simpa using h), zero_add]
        exact Sampling.prob_le_one _ _
    refine (lintegral_mono_ae hle).trans ?_
    rw [lintegral_add_left (measurable_const.indicator (measurable_fst measurableSet_Iic)), lintegral_indicator_const (measurable_fst measurableSet_Iic),
      lintegral_indicator_const (measurable_fst measurableSet_Ioi), one_mul, square_fst, square_fst, Measure.restrict_apply measurableSet_Iic, Measure.restrict_apply measurableSet_Ioi]
    have e1 : Iic (1 / 4 : ℝ) ∩ Icc 0 1 = Icc 0 (1 / 4) := by
      ext x
      simp only [mem_inter_iff, mem_Iic, mem_Icc]
      exact ⟨fun h => ⟨h.2.1, h.1⟩, fun h => ⟨h.2, h.1, by linarith [h.2]⟩⟩
    have e2 : Ioi (1 / 4 : ℝ) ∩ Icc 0 1 = Ioc (1 / 4) 1 := by
      ext x
      simp only [mem_inter_iff, mem_Ioi, mem_Icc, mem_Ioc]
      exact ⟨fun h => ⟨h.1, h.2.2⟩, fun h => ⟨h.1, by linarith [h.1], h.2⟩⟩
    rw [e1, e2, Real.volume_Icc, Real.volume_Ioc, ← ENNReal.ofReal_mul (by norm_num), ← ENNReal.ofReal_add (by norm_num) (by norm_num)]
    exact ENNReal.ofReal_le_ofReal (by norm_num)
  have hright : ENNReal.ofReal (31 / 240) * G ≤
      ∫⁻ z, ENNReal.ofReal (rampDist.pdf (rampDist.tablePoint z).1 (rampDist.tablePoint z).2) * (rampDist.at (rampDist.tablePoint z)).drawn ({p : ℝ × ℝ | p.1 ≤ 51 / 50}.indicator fun _ => 1) ∂square := by
    have hlow : ∀ᵐ z ∂square, (Prod.fst ⁻¹' Iio (1 / 2 : ℝ)).indicator (fun _ => ENNReal.ofReal (1 / 8) * G) z + (Prod.fst ⁻¹' Ici (1 / 2 : ℝ)).indicator (fun _ => ENNReal.ofReal (2 / 15) * G) z ≤
        ENNReal.ofReal (rampDist.pdf (rampDist.tablePoint z).1 (rampDist.tablePoint z).2) * (rampDist.at (rampDist.tablePoint z)).drawn ({p : ℝ × ℝ | p.1 ≤ 51 / 50}.indicator fun _ => 1) := by
      filter_upwards [ae_square, hpos] with z hz hp
      rw [drawn_at hpos hT hp hgm]
      have hx : 0 < 1 + 2 * z.1 := by linarith [hz.1.1]
      have hbase : ∀ r : ℝ, 0 < r → rampDist.rate (rampDist.pdf (rampDist.tablePoint z).1 (rampDist.tablePoint z).2) ≤ ENNReal.ofReal r →
          ENNReal.ofReal (1 / 8 / r) * G ≤ ENNReal.ofReal (rampDist.pdf (rampDist.tablePoint z).1 (rampDist.tablePoint z).2) *
            ((∫⁻ y, rampDist.chance (rampDist.pdf (rampDist.tablePoint z).1 (rampDist.tablePoint z).2) (rampDist.tablePoint y) *
              ({p : ℝ × ℝ | p.1 ≤ 51 / 50}.indicator fun _ => (1 : ℝ≥0∞)) (rampDist.tablePoint y) ∂square) / rampDist.rate (rampDist.pdf (rampDist.tablePoint z).1 (rampDist.tablePoint z).2)) := by
        intro r hr hle
        calc ENNReal.ofReal (1 / 8 / r) * G = ENNReal.ofReal ((1 + 2 * z.1) / 8) * (ENNReal.ofReal (1 / (1 + 2 * z.1)) * G / ENNReal.ofReal r) := by
              rw [div_eq_mul_inv (_ * G), ← ENNReal.ofReal_inv_of_pos hr, mul_assoc (ENNReal.ofReal (1 / (1 + 2 * z.1))), mul_comm G, ← mul_assoc, ← mul_assoc, ← ENNReal.ofReal_mul (by positivity),
                ← ENNReal.ofReal_mul (by positivity)]
              congr 2
              field_simp
          _ ≤ _ := by
              rw [hpdf, hpt] at hle ⊢
              have := hnum z hz.1.1
              rw [hpdf, hpt] at this
              gcongr
      by_cases h : z.1 < 1 / 2
      · rw [indicator_of_mem (by exact h), indicator_of_notMem (by simpa using h), add_zero]
        have := hbase 1 one_pos (by rw [ENNReal.ofReal_one]; exact rate_le_one _ _)
        rwa [div_one] at this
      · rw [indicator_of_notMem (by simpa using h), indicator_of_mem (by simpa using h), zero_add]
        have := hbase (15 / 16) (by norm_num) (hrate z (not_lt.mp h))
        rwa [show (1 / 8 / (15 / 16) : ℝ) = 2 / 15 by norm_num] at this
    refine le_trans (le_of_eq ?_) (lintegral_mono_ae hlow)
    rw [lintegral_add_left (measurable_const.indicator (measurable_fst measurableSet_Iio)), lintegral_indicator_const (measurable_fst measurableSet_Iio),
      lintegral_indicator_const (measurable_fst measurableSet_Ici), square_fst, square_fst, Measure.restrict_apply measurableSet_Iio, Measure.restrict_apply measurableSet_Ici]
    have e1 : Iio (1 / 2 : ℝ) ∩ Icc 0 1 = Ico 0 (1 / 2) := by
      ext x
      simp only [mem_inter_iff, mem_Iio, mem_Icc, mem_Ico]
      exact ⟨fun h => ⟨h.2.1, h.1⟩, fun h => ⟨h.2, h.1, by linarith [h.2]⟩⟩
    have e2 : Ici (1 / 2 : ℝ) ∩ Icc 0 1 = Icc (1 / 2) 1 := by
      ext x
      simp only [mem_inter_iff, mem_Ici, mem_Icc]
      exact ⟨fun h => ⟨h.1, h.2.2⟩, fun h => ⟨h.1, by linarith [h.1], h.2⟩⟩
    rw [e1, e2, Real.volume_Ico, Real.volume_Icc, hGv]
    simp only [← ENNReal.ofReal_mul (show (0 : ℝ) ≤ 1 / 8 by norm_num), ← ENNReal.ofReal_mul (show (0 : ℝ) ≤ 2 / 15 by norm_num), ← ENNReal.ofReal_mul (show (0 : ℝ) ≤ 31 / 240 by norm_num)]
    rw [← ENNReal.ofReal_mul (by norm_num), ← ENNReal.ofReal_mul (by norm_num), ← ENNReal.ofReal_add (by norm_num) (by norm_num)]
    norm_num
  refine lt_of_le_of_lt hleft (lt_of_lt_of_le ?_ hright)
  rw [hGv, ← ENNReal.ofReal_mul (by norm_num), ← ENNReal.ofReal_mul (by norm_num)]
  exact (ENNReal.ofReal_lt_ofReal_iff (by norm_num)).mpr (by norm_num)

/-- C103 does not hold for a logarithmic table, not even where every proposed point is accepted: the points are proposed uniformly in the logarithm of the energy, but accepted by the density in the energy. With a
constant flux from 1 to 100 half of the energies drawn are below 10, where the reported density has one eleventh of its integral. -/
theorem C103_log_fails (d : Dist) (hd : d.table = ⟨fun _ _ => 1, true, false⟩) (hb : d.eMin = 1 ∧ d.eMax = 100 ∧ d.czMin = -1 ∧ d.czMax = 1) (hI : 0 < d.integral) (p : ℝ × ℝ) :
    (d.at p).drawn ({q | q.1 ≤ 10}.indicator fun _ => 1) = 1 / 2 ∧
    ∀ phi k, 0 < k → (∫ e in (1 : ℝ)..10, ∫ cz in (-1 : ℝ)..1, d.generationProbability e (Vec3.smul k (unitVector cz phi))) =
      1 / 11 * ∫ e in (1 : ℝ)..100, ∫ cz in (-1 : ℝ)..1, d.generationProbability e (Vec3.smul k (unitVector cz phi)) := by
  classical
  obtain ⟨h1, h2, h3, h4⟩ := hb
  have hpdf : ∀ x y, d.pdf x y = 1 / d.integral := fun x y => by rw [Dist.pdf, hd]
  constructor
  · have hc : ∀ q, d.chance (d.pdf p.1 p.2) q = 1 := by
      intro q
      have : d.integral⁻¹ ≠ 0 := by positivity
      rw [Dist.chance, Sampling.prob, hpdf, hpdf, if_neg (by positivity), div_self (by positivity), min_self, ENNReal.ofReal_one]
    rw [drawn_at (Filter.Eventually.of_forall fun z => by rw [hpdf]; positivity) (by rw [hd]; exact measurable_const) (by rw [hpdf]; positivity)
      (measurable_const.indicator (measurableSet_le measurable_fst measurable_const)), Dist.rate]
    simp only [hc, lintegral_const, measure_univ, mul_one, one_mul, div_one]
    have hlog : log10 100 = 2 := by
      rw [Dis.log10, show (100 : ℝ) = 10 ^ (2 : ℕ) by norm_num, Real.logb_pow, Real.logb_self_eq_one (by norm_num)]
      norm_num
    have hset : ∀ z, ({q : ℝ × ℝ | q.1 ≤ 10}.indicator fun _ => (1 : ℝ≥0∞)) (d.tablePoint z) = (Prod.fst ⁻¹' Iic (1 / 2 : ℝ)).indicator (fun _ => 1) z := by
      intro z
      simp only [indicator, Set.mem_ofPred_eq, mem_preimage, mem_Iic, Dist.tablePoint, hd, if_true, uniform01, h1, h2, hlog]
      refine if_congr ?_ rfl rfl
      have e : log10 1 = 0 := Real.logb_one
      have e10 : (10 : ℝ) = (10 : ℝ) ^ (1 : ℝ) := (Real.rpow_one 10).symm
      rw [e, Dis.pow10]
      conv_lhs => rhs; rw [e10]
      rw [Real.rpow_le_rpow_left_iff (by norm_num)]
      constructor <;> intro h <;> linarith
    simp only [hset]
    rw [lintegral_indicator_const (measurable_fst measurableSet_Iic), one_mul, square_fst, Measure.restrict_apply measurableSet_Iic]
    have : Iic (1 / 2 : ℝ) ∩ Icc 0 1 = Icc 0 (1 / 2) := by
      ext x
      simp only [mem_inter_iff, mem_Iic, mem_Icc]
      exact ⟨fun h => ⟨h.2.1, h.1⟩, fun h => ⟨h.2, h.1, by linarith [h.2]⟩⟩
    rw [this, Real.volume_Icc, sub_zero, ENNReal.ofReal_div_of_pos (by norm_num)]
    simp
  · intro phi k hk
    have hgp : ∀ b : ℝ, 1 ≤ b → b ≤ 100 → (∫ e in (1 : ℝ)..b, ∫ cz in (-1 : ℝ)..1, d.generationProbability e (Vec3.smul k (unitVector cz phi))) = (b - 1) * (2 / d.integral) := by
      intro b hb1 hb2
      have : ∀ e ∈ uIcc 1 b, (∫ cz in (-1 : ℝ)..1, d.generationProbability e (Vec3.smul k (unitVector cz phi))) = 2 / d.integral := by
        intro e he
        rw [uIcc_of_le hb1] at he
        have hin : ∀ cz ∈ uIcc (-1 : ℝ) 1, d.generationProbability e (Vec3.smul k (unitVector cz phi)) = 1 / d.integral := by
          intro cz hcz
          rw [uIcc_of_le (by norm_num)] at hcz
          rw [generationProbability_unit hk hcz.1 hcz.2, if_neg (by rw [h1, h2]; rintro (h | h) <;> linarith [he.1, he.2]),
            if_neg (by rw [h3, h4]; rintro (h | h) <;> linarith [hcz.1, hcz.2]), hpdf]
        rw [intervalIntegral.integral_congr hin, intervalIntegral.integral_const]
        simp
        ring
      rw [intervalIntegral.integral_congr this, intervalIntegral.integral_const, smul_eq_mul]
    rw [hgp 10 (by norm_num) (by norm_num), hgp 100 (by norm_num) le_rfl]
    ring

/-- C103 does not hold where the flux is zero: while the density at the last point is zero every point is accepted, so a call can return a point whose reported density is zero. Here the flux is zero below the
energy 1, and the generator returns zeros. -/
theorem C103_zero_fails : ∃ (d d' : Dist) (e : ℝ) (v : Vec3 ℝ), Bounds d ∧ d.points = 0 ∧ d.density = 0 ∧ d.integral = 1 ∧ d.table = ⟨fun x _ => max 0 (x - 1), false, false⟩ ∧
    d.sample (List.replicate 42 ((0, 0), 0)) 0 = some (d', e, v) ∧ ∀ k, 0 < k → d'.generationProbability e (Vec3.smul k v) = 0 := by
  classical
  obtain ⟨d, hd⟩ : ∃ d : Nat → Dist, ∀ n, d n = ⟨0, 2, -1, 1, ⟨fun x _ => max 0 (x - 1), false, false⟩, 1, none, n, 0⟩ := ⟨_, fun _ => rfl⟩
  have hbd : Bounds (d 0) := by
    rw [hd]
    exact ⟨by norm_num, by norm_num, by norm_num, by norm_num, by simp⟩
  have htry : ∀ n, (d n).attempt ((0, 0), 0) = some (d (n + 1), (0, -1)) := by
    intro n
    have hp : (d n).tablePoint (0, 0) = (0, -1) := by
      rw [hd]
      simp [Dist.tablePoint, uniform01]
    have hz : (d n).pdf 0 (-1) = 0 := by
      rw [hd]
      norm_num [Dist.pdf]
    unfold Dist.attempt
    simp only [hp, hz]
    have hacc : accepts (d n).density 0 0 := Or.inl (by rw [hd])
    rw [if_pos hacc, hd, hd]
  have hburn : ∀ m n, n + m = 41 → (d n).burn (List.replicate (m + 1) ((0, 0), 0)) = some (d 41, [((0, 0), 0)]) := by
    intro m
    induction m with
    | zero =>
      intro n hn
      obtain rfl : n = 41 := by omega
      have : ¬(d 41).points ≤ 40 := by rw [hd]; simp
      simp only [List.replicate, Dist.burn, if_neg this]
    | succ m ih =>
      intro n hn
      have : (d n).points ≤ 40 := by rw [hd]; simp only; omega
      rw [List.replicate_succ, Dist.burn, if_pos this, htry]
      exact ih (n + 1) (by omega)
  have hs : (d 0).sample (List.replicate 42 ((0, 0), 0)) 0 = some (d 42, 0, direction (-1) 0) := by
    unfold Dist.sample
    rw [hburn 41 0 rfl]
    simp only [Option.bind_some, Dist.draw, htry]
  refine ⟨d 0, d 42, 0, direction (-1) 0, hbd, by rw [hd], by rw [hd], by rw [hd], by rw [hd], hs, fun k hk => ?_⟩
  rw [direction_eq le_rfl (by norm_num), generationProbability_unit hk le_rfl (by norm_num), hd]
  norm_num [Dist.pdf]

/-- C103 does not hold after a call of `SetEnergyBounds` that throws: the object has the new bounds, and the integral of the old ones. (A call of `SetCosZenithBounds` with bounds out of order or of range leaves the
object as it was.) -/
theorem C103_bounds_fails (d : Dist) (lo hi : ℝ) (hl : d.table.logX = true) (hy : d.table.logY = false) (h : lo ≤ 0) :
    (d.setEnergyBounds lo hi).2 = .throws .runtimeError ∧ (d.setEnergyBounds lo hi).1.eMin = lo ∧ (d.setEnergyBounds lo hi).1.integral = d.integral := by
  classical
  have hc : computeIntegral d.table lo hi d.czMin d.czMax = .throws .runtimeError := by
    unfold computeIntegral
    rw [if_neg (by simp [hy]), if_pos ⟨hl, Or.inl h⟩]
  unfold Dist.setEnergyBounds Dist.recompute
  simp only [hc, and_self]

/-- C103: a call of `SetCosZenithBounds` with bounds out of order or outside of -1 and 1 throws and changes nothing; one that returns has set the bounds and started the burn-in again.
(Missing for the full claim: the same of `SetEnergyBounds`, see `C103_bounds_fails`.) -/
theorem C103_bounds_partial (d : Dist) (lo hi : ℝ) :
    (lo < -1 ∨ 1 < hi ∨ hi < lo → d.setCosZenithBounds lo hi = (d, .throws .runtimeError)) ∧
    ((d.setCosZenithBounds lo hi).2 = .ok () → (-1 ≤ lo ∧ lo ≤ hi ∧ hi ≤ 1) ∧ (d.setCosZenithBounds lo hi).1.czMin = lo ∧ (d.setCosZenithBounds lo hi).1.czMax = hi ∧
      (d.setCosZenithBounds lo hi).1.points = 0 ∧ (d.setCosZenithBounds lo hi).1.density = 0) := by
  classical
  unfold Dist.setCosZenithBounds
  by_cases h1 : lo < -1 ∨ hi > 1
  · rw [if_pos h1]
    exact ⟨fun _ => rfl, fun h => by cases h⟩
  · rw [if_neg h1]
    push Not at h1
    by_cases h2 : lo > hi
    · rw [if_pos h2]
      exact ⟨fun _ => rfl, fun h => by cases h⟩
    · rw [if_neg h2]
      refine ⟨fun h => ?_, fun h => ?_⟩
      · rcases h with h | h | h
        · linarith [h1.1]
        · linarith [h1.2]
        · exact absurd h h2
      · refine ⟨⟨h1.1, not_lt.mp h2, h1.2⟩, ?_⟩
        unfold Dist.recompute at h ⊢
        cases hc : computeIntegral d.table d.eMin d.eMax lo hi with
        | ok I => simp only [and_self]
        | throws e => simp only [hc] at h; cases h
        | ub => simp only [hc] at h; cases h

/-- C103 does not hold for the physical normalization, which is the integral at construction: setting other bounds changes the integral, not the normalization. -/
theorem C103_normalization_fails : ∃ d, construct (fun _ _ _ => .ok ramp) none none [1, 3, 1, 3] [-1, -1, 1, 1] [1, 3, 1, 3] true = .ok d ∧ d.norm = some d.integral ∧
    (d.setEnergyBounds 1 2).2 = .ok () ∧ (d.setEnergyBounds 1 2).1.integral = 3 ∧ (d.setEnergyBounds 1 2).1.norm = some 8 := by
  have h1 : minmax [1, 3, 1, 3] = (1, 3) := by norm_num [minmax]
  have h2 : minmax [-1, -1, 1, 1] = (-1, 1) := by norm_num [minmax]
  have h3 : ∀ hi : ℝ, computeIntegral ramp 1 hi (-1) 1 = .ok (hi ^ 2 - 1) := by
    intro hi
    have h4 : ramp.integrand = fun x _ => x := by funext x y; simp [Table.integrand, ramp]
    unfold computeIntegral
    rw [h4]
    simp only [ramp, Bool.false_eq_true, false_and, if_false]
    rw [simpson_ramp]
    norm_num
  refine ⟨⟨1, 3, -1, 1, ramp, 8, some 8, 0, 0⟩, ?_, rfl, ?_⟩
  · unfold construct
    simp only [h1, h2, Option.getD_none, Res.bind, h3]
    rw [if_neg (by simp), if_neg (by simp)]
    norm_num
  · unfold Dist.setEnergyBounds Dist.recompute
    simp only [h3]
    norm_num

/-- The hypotheses of `C103_sample` are met by a run that returns: the ramp, whose first point is at energy 2 and whose 42 draws are the same. -/
example : ∃ d' e v, rampDist.sample (List.replicate 42 ((1 / 2, 1 / 2), 0)) 0 = some (d', e, v) ∧ e = 2 := by
  classical
  obtain ⟨d, hd⟩ : ∃ d : Nat → Dist, ∀ n, d n = ⟨1, 3, -1, 1, ramp, 8, none, n, if n = 0 then 0 else 1 / 4⟩ := ⟨_, fun _ => rfl⟩
  have htry : ∀ n, (d n).attempt ((1 / 2, 1 / 2), 0) = some (d (n + 1), (2, 0)) := by
    intro n
    have hp : (d n).tablePoint (1 / 2, 1 / 2) = (2, 0) := by
      rw [hd]
      norm_num [Dist.tablePoint, uniform01, ramp]
    have hz : (d n).pdf 2 0 = 1 / 4 := by
      rw [hd]
      norm_num [Dist.pdf, ramp]
    unfold Dist.attempt
    simp only [hp, hz]
    have hacc : accepts (d n).density (1 / 4) 0 := by
      rw [hd]
      by_cases h : n = 0
      · exact Or.inl (by simp [h])
      · exact Or.inr (Or.inl (by simp [h]))
    rw [if_pos hacc, hd, hd]
    simp
  have hburn : ∀ m n, n + m = 41 → (d n).burn (List.replicate (m + 1) ((1 / 2, 1 / 2), 0)) = some (d 41, [((1 / 2, 1 / 2), 0)]) := by
    intro m
    induction m with
    | zero =>
      intro n hn
      obtain rfl : n = 41 := by omega
      have : ¬(d 41).points ≤ 40 := by rw [hd]; simp
      simp only [List.replicate, Dist.burn, if_neg this]
    | succ m ih =>
      intro n hn
      have : (d n).points ≤ 40 := by rw [hd]; simp only; omega
      rw [List.replicate_succ, Dist.burn, if_pos this, htry]
      exact ih (n + 1) (by omega)
  have h0 : rampDist = d 0 := by rw [hd]; simp [rampDist]
  refine ⟨d 42, 2, direction 0 0, ?_, rfl⟩
  rw [h0]
  unfold Dist.sample
  rw [hburn 41 0 rfl]
  simp only [Option.bind_some, Dist.draw, htry]

end Siren.Distributions.Table2D
