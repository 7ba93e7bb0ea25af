import Verif.Base
import Mathlib.Algebra.Order.Field.Basic
import Mathlib.Algebra.Order.AbsoluteValue.Basic
import Mathlib.Order.Interval.Set.UnorderedInterval
import Mathlib.Algebra.Order.Group.Unbundled.Abs
import Mathlib.Tactic.FieldSimp
import Mathlib.Tactic.Ring
import Mathlib.Tactic.NormNum
import Mathlib.Tactic.Linarith

set_option autoImplicit false

/-!
# Finding roots

Models `NewtonRaphson` (math/private/Polynomial.cxx:129-215). Numbers are those of an ordered field; `none` stands for NaN, which arises when the
function and the derivative both vanish at an iterate (`0 / 0` in line 185). Once an iterate is NaN so are all further ones, whatever the
branch, if the function of NaN is NaN; the model returns NaN at once.
-/

namespace Siren.Math

open Siren

universe u

variable {K : Type u} [Field K] [LinearOrder K] [IsStrictOrderedRing K]

namespace Newton

/-- The variables of the loop (Polynomial.cxx:144-145). -/
structure State (K : Type u) where
  xl : K
  xh : K
  rts : K
  dxold : K
  dx : K
  f : K
  df : K

/-- One round: either a value is returned (`none`: NaN) or the loop goes on. -/
inductive Out (K : Type u)
  | ret (x : Option K)
  | go (s : State K)

/-- The end of a round after the step `dx` to `rts` (Polynomial.cxx:193-206). -/
def finish (func dfunc : K → K) (xacc : K) (s : State K) : Out K :=
  if |s.dx| < xacc then .ret (some s.rts)
  else
    let f := func s.rts
    let s := { s with f := f, df := dfunc s.rts }
    if f < 0 then .go { s with xl := s.rts } else .go { s with xh := s.rts }

/-- One round of the loop (Polynomial.cxx:171-207). -/
def step (func dfunc : K → K) (xacc : K) (s : State K) : Out K :=
  if 0 < ((s.rts - s.xh) * s.df - s.f) * ((s.rts - s.xl) * s.df - s.f) ∨ |s.dxold * s.df| < |2 * s.f| then
    let dx := (s.xh - s.xl) / 2
    let rts := s.xl + dx
    if s.xl = rts then .ret (some rts) else finish func dfunc xacc { s with dxold := s.dx, dx := dx, rts := rts }
  else if s.df = 0 then .ret none
  else
    let dx := s.f / s.df
    let rts := s.rts - dx
    if s.rts = rts then .ret (some rts) else finish func dfunc xacc { s with dxold := s.dx, dx := dx, rts := rts }

/-- The loop for at most `n` rounds, and the value returned after it (Polynomial.cxx:170-211). -/
def loop (func dfunc : K → K) (xacc : K) : Nat → State K → Option K
  | 0, s => some s.rts
  | n + 1, s => match step func dfunc xacc s with
    | .ret x => x
    | .go s => loop func dfunc xacc n s

/-- `NewtonRaphson(func, dfunc, x1, x2, xinit, MAX_STEPS, xacc)` (Polynomial.cxx:129-212). -/
def newtonRaphson (func dfunc : K → K) (x1 x2 xinit : K) (maxSteps : Int) (xacc : K) : Res (Option K) :=
  let fl := func x1
  let fh := func x2
  if 0 < fl * fh then .throws .mathError
  else if fl = 0 then .ok (some x1)
  else if fh = 0 then .ok (some x2)
  else
    let xl := if fl < 0 then x1 else x2
    let xh := if fl < 0 then x2 else x1
    .ok (loop func dfunc xacc (maxSteps - 1).toNat
      { xl := xl, xh := xh, rts := xinit, dxold := |x2 - x1|, dx := |x2 - x1|, f := func xinit, df := dfunc xinit })

/-! ### C48 -/

/-- What holds at the beginning of every round: the function changes sign between the ends of the bracket, which lies within the first one, and
the values belong to the current point. -/
structure Inv (func dfunc : K → K) (x1 x2 : K) (s : State K) : Prop where
  low : func s.xl < 0
  high : 0 ≤ func s.xh
  xl : s.xl ∈ Set.uIcc x1 x2
  xh : s.xh ∈ Set.uIcc x1 x2
  f : s.f = func s.rts
  df : s.df = dfunc s.rts

theorem between {a b x1 x2 r : K} (ha : a ∈ Set.uIcc x1 x2) (hb : b ∈ Set.uIcc x1 x2) (h : (r - a) * (r - b) ≤ 0) : r ∈ Set.uIcc x1 x2 := by
  rw [Set.mem_uIcc] at *
  rcases le_total a b with hab | hab
  · have h1 : a ≤ r ∧ r ≤ b := by constructor <;> by_contra hc <;> push Not at hc <;> nlinarith
    rcases ha with ha | ha <;> rcases hb with hb | hb <;> first | (left; constructor <;> linarith) | (right; constructor <;> linarith)
  · have h1 : b ≤ r ∧ r ≤ a := by constructor <;> by_contra hc <;> push Not at hc <;> nlinarith
    rcases ha with ha | ha <;> rcases hb with hb | hb <;> first | (left; constructor <;> linarith) | (right; constructor <;> linarith)

/-- What a round does: a returned number is in the bracket, NaN means a root with zero derivative, and if the loop goes on so does the
invariant, the new point is in the bracket, and either the bracket has been halved or the step is at most half of the step before the last. -/
theorem step_spec (func dfunc : K → K) (xacc x1 x2 : K) (s : State K) (h : Inv func dfunc x1 x2 s) :
    match step func dfunc xacc s with
    | .ret none => func s.rts = 0 ∧ dfunc s.rts = 0
    | .ret (some x) => x ∈ Set.uIcc x1 x2 ∧ ((x = s.rts ∧ func x = 0) ∨ (x = s.xl + (s.xh - s.xl) / 2 ∧ |(s.xh - s.xl) / 2| < xacc) ∨
        (dfunc s.rts ≠ 0 ∧ x = s.rts - func s.rts / dfunc s.rts ∧ |func s.rts / dfunc s.rts| < xacc))
    | .go t => Inv func dfunc x1 x2 t ∧ t.rts ∈ Set.uIcc x1 x2 ∧ t.dxold = s.dx ∧ xacc ≤ |t.dx| ∧
        ((2 * |t.dx| = |s.xh - s.xl| ∧ 2 * |t.xh - t.xl| = |s.xh - s.xl|) ∨ (2 * |t.dx| ≤ |s.dxold| ∧ |t.xh - t.xl| ≤ |s.xh - s.xl|)) := by
  obtain ⟨hl, hh, hxl, hxh, hf, hdf⟩ := h
  have hne : s.xl ≠ s.xh := fun e => by rw [e] at hl; exact absurd hl (not_lt.mpr hh)
  have fin : ∀ (dx rts : K), rts ∈ Set.uIcc x1 x2 → (rts - s.xl) * (rts - s.xh) ≤ 0 →
      match finish func dfunc xacc { s with dxold := s.dx, dx := dx, rts := rts } with
      | .ret none => False
      | .ret (some x) => x = rts ∧ |dx| < xacc
      | .go t => Inv func dfunc x1 x2 t ∧ t.rts = rts ∧ t.dxold = s.dx ∧ t.dx = dx ∧ xacc ≤ |dx| ∧
          (|t.xh - t.xl| = |rts - s.xl| ∨ |t.xh - t.xl| = |rts - s.xh|) := by
    intro dx rts hr hb
    unfold finish
    by_cases hx : |dx| < xacc
    · rw [if_pos hx]; exact ⟨rfl, hx⟩
    · rw [if_neg hx]
      simp only
      by_cases h0 : func rts < 0
      · rw [if_pos h0]
        exact ⟨⟨h0, hh, hr, hxh, rfl, rfl⟩, rfl, rfl, rfl, not_lt.mp hx, Or.inr (abs_sub_comm _ _)⟩
      · rw [if_neg h0]
        exact ⟨⟨hl, not_lt.mp h0, hxl, hr, rfl, rfl⟩, rfl, rfl, rfl, not_lt.mp hx, Or.inl rfl⟩
  unfold step
  by_cases hb : 0 < ((s.rts - s.xh) * s.df - s.f) * ((s.rts - s.xl) * s.df - s.f) ∨ |s.dxold * s.df| < |2 * s.f|
  · rw [if_pos hb]
    simp only
    have hmid : s.xl + (s.xh - s.xl) / 2 ∈ Set.uIcc x1 x2 := by
      refine between hxl hxh ?_
      have : (s.xl + (s.xh - s.xl) / 2 - s.xl) * (s.xl + (s.xh - s.xl) / 2 - s.xh) = -((s.xh - s.xl) / 2 * ((s.xh - s.xl) / 2)) := by ring
      rw [this]
      exact neg_nonpos.mpr (mul_self_nonneg _)
    rw [if_neg]
    swap
    · intro e
      exact hne (by linarith)
    have := fin ((s.xh - s.xl) / 2) (s.xl + (s.xh - s.xl) / 2) hmid (by
      have : (s.xl + (s.xh - s.xl) / 2 - s.xl) * (s.xl + (s.xh - s.xl) / 2 - s.xh) = -((s.xh - s.xl) / 2 * ((s.xh - s.xl) / 2)) := by ring
      rw [this]
      exact neg_nonpos.mpr (mul_self_nonneg _))
    have half : 2 * |(s.xh - s.xl) / 2| = |s.xh - s.xl| := by
      rw [abs_div, abs_two]; ring
    revert this
    cases finish func dfunc xacc { s with dxold := s.dx, dx := (s.xh - s.xl) / 2, rts := s.xl + (s.xh - s.xl) / 2 } with
    | ret x =>
      cases x with
      | none => exact False.elim
      | some x =>
        rintro ⟨rfl, h⟩
        exact ⟨hmid, Or.inr (Or.inl ⟨rfl, h⟩)⟩
    | go t =>
      rintro ⟨h1, h2, h3, h4, h5, h6⟩
      refine ⟨h1, h2 ▸ hmid, h3, h4 ▸ h5, Or.inl ⟨by rw [h4, half], ?_⟩⟩
      rcases h6 with h6 | h6
      · rw [h6, add_sub_cancel_left, half]
      · rw [h6, show s.xl + (s.xh - s.xl) / 2 - s.xh = -((s.xh - s.xl) / 2) by ring, abs_neg, half]
  · rw [if_neg hb]
    push Not at hb
    obtain ⟨hb1, hb2⟩ := hb
    by_cases hd : s.df = 0
    · rw [if_pos hd]
      simp only
      rw [hd, mul_zero, abs_zero] at hb2
      have : s.f = 0 := by
        have h2 := abs_eq_zero.mp (le_antisymm hb2 (abs_nonneg _))
        linarith
      exact ⟨hf ▸ this, hdf ▸ hd⟩
    · rw [if_neg hd]
      simp only
      have hprod : (s.rts - s.f / s.df - s.xl) * (s.rts - s.f / s.df - s.xh) ≤ 0 := by
        have e : ((s.rts - s.xh) * s.df - s.f) * ((s.rts - s.xl) * s.df - s.f) =
            s.df * s.df * ((s.rts - s.f / s.df - s.xl) * (s.rts - s.f / s.df - s.xh)) := by field_simp; ring
        rw [e] at hb1
        by_contra hc
        push Not at hc
        have : 0 < s.df * s.df := mul_self_pos.mpr hd
        exact absurd hb1 (not_le.mpr (mul_pos this hc))
      have hin := between hxl hxh hprod
      by_cases he : s.rts = s.rts - s.f / s.df
      · rw [if_pos he]
        have h0 : s.f / s.df = 0 := by linarith
        have hf0 : s.f = 0 := by
          rcases div_eq_zero_iff.mp h0 with h | h
          · exact h
          · exact absurd h hd
        refine ⟨hin, Or.inl ⟨he.symm, ?_⟩⟩
        rw [← he, ← hf, hf0]
      · rw [if_neg he]
        have := fin (s.f / s.df) (s.rts - s.f / s.df) hin hprod
        revert this
        cases finish func dfunc xacc { s with dxold := s.dx, dx := s.f / s.df, rts := s.rts - s.f / s.df } with
        | ret x =>
          cases x with
          | none => exact False.elim
          | some x =>
            rintro ⟨rfl, h⟩
            rw [hf, hdf] at h ⊢
            exact ⟨by rw [hf, hdf] at hin; exact hin, Or.inr (Or.inr ⟨hdf ▸ hd, rfl, h⟩)⟩
        | go t =>
          rintro ⟨h1, h2, h3, h4, h5, h6⟩
          refine ⟨h1, h2 ▸ hin, h3, h4 ▸ h5, Or.inr ⟨?_, ?_⟩⟩
          · rw [h4, abs_div]
            have : 0 < |s.df| := abs_pos.mpr hd
            rw [abs_mul, abs_mul, abs_two] at hb2
            rw [← mul_div_assoc, div_le_iff₀ this]
            exact hb2
          · have k : ∀ a b r : K, (r - a) * (r - b) ≤ 0 → |r - a| ≤ |b - a| ∧ |r - b| ≤ |b - a| := by
              intro a b r h
              rcases le_total a b with hab | hab
              · have h1 : a ≤ r ∧ r ≤ b := by constructor <;> by_contra hc <;> push Not at hc <;> nlinarith
                rw [abs_of_nonneg (by linarith : 0 ≤ b - a), abs_of_nonneg (by linarith : 0 ≤ r - a), abs_of_nonpos (by linarith : r - b ≤ 0)]
                constructor <;> linarith
              · have h1 : b ≤ r ∧ r ≤ a := by constructor <;> by_contra hc <;> push Not at hc <;> nlinarith
                rw [abs_of_nonpos (by linarith : b - a ≤ 0), abs_of_nonpos (by linarith : r - a ≤ 0), abs_of_nonneg (by linarith : 0 ≤ r - b)]
                constructor <;> linarith
            rcases h6 with h6 | h6
            · rw [h6]; exact (k s.xl s.xh _ hprod).1
            · rw [h6]; exact (k s.xl s.xh _ hprod).2

theorem loop_bracket (func dfunc : K → K) (xacc x1 x2 : K) (n : Nat) (s : State K) (h : Inv func dfunc x1 x2 s) (hs : s.rts ∈ Set.uIcc x1 x2 ∨ n ≠ 0) :
    match loop func dfunc xacc n s with
    | some x => x ∈ Set.uIcc x1 x2
    | none => ∃ r, (r = s.rts ∨ r ∈ Set.uIcc x1 x2) ∧ func r = 0 ∧ dfunc r = 0 := by
  induction n generalizing s with
  | zero => exact hs.resolve_right (by simp)
  | succ n ih =>
    rw [loop]
    have := step_spec func dfunc xacc x1 x2 s h
    revert this
    cases step func dfunc xacc s with
    | ret x =>
      cases x with
      | none => exact fun h => ⟨s.rts, Or.inl rfl, h⟩
      | some x => exact fun h => h.1
    | go t =>
      rintro ⟨h1, h2, -⟩
      have := ih t h1 (Or.inl h2)
      revert this
      simp only
      cases loop func dfunc xacc n t with
      | some x => exact id
      | none =>
        rintro ⟨r, hr, h⟩
        refine ⟨r, Or.inr ?_, h⟩
        rcases hr with rfl | hr
        · exact h2
        · exact hr

/-- The state before the first round satisfies the invariant. -/
theorem start_inv (func dfunc : K → K) (x1 x2 xinit : K) (h : ¬ 0 < func x1 * func x2) (h1 : func x1 ≠ 0) (h2 : func x2 ≠ 0) :
    Inv func dfunc x1 x2 { xl := if func x1 < 0 then x1 else x2, xh := if func x1 < 0 then x2 else x1, rts := xinit, dxold := |x2 - x1|,
                           dx := |x2 - x1|, f := func xinit, df := dfunc xinit } := by
  by_cases h0 : func x1 < 0
  · simp only [h0, if_true]
    have : 0 < func x2 := by
      by_contra hc
      have : func x2 < 0 := lt_of_le_of_ne (not_lt.mp hc) h2
      exact h (mul_pos_of_neg_of_neg h0 this)
    exact ⟨h0, this.le, Set.left_mem_uIcc, Set.right_mem_uIcc, rfl, rfl⟩
  · simp only [h0, if_false]
    have hp : 0 < func x1 := lt_of_le_of_ne (not_lt.mp h0) (Ne.symm h1)
    have : func x2 < 0 := by
      by_contra hc
      have : 0 < func x2 := lt_of_le_of_ne (not_lt.mp hc) (Ne.symm h2)
      exact h (mul_pos hp this)
    exact ⟨this, hp.le, Set.right_mem_uIcc, Set.left_mem_uIcc, rfl, rfl⟩

/-- **C48**: an error is reported exactly if the function has the same strict sign at both ends. -/
theorem C48_error (func dfunc : K → K) (x1 x2 xinit xacc : K) (maxSteps : Int) :
    newtonRaphson func dfunc x1 x2 xinit maxSteps xacc = .throws .mathError ↔
      (0 < func x1 ∧ 0 < func x2) ∨ (func x1 < 0 ∧ func x2 < 0) := by
  rw [← mul_pos_iff]
  unfold newtonRaphson
  simp only
  by_cases h : 0 < func x1 * func x2
  · rw [if_pos h]; simp [h]
  · rw [if_neg h]
    split_ifs <;> simp [h]

/-- **C48**: with a sign change (or a zero at an end) a number is returned that lies in the bracket, if the starting point does or there is at
least one round. The only exception is NaN, and then there is a point of the bracket (or the starting point) where function and derivative both
vanish. -/
theorem C48_bracket (func dfunc : K → K) (x1 x2 xinit xacc : K) (maxSteps : Int) (hsign : func x1 * func x2 ≤ 0)
    (hinit : xinit ∈ Set.uIcc x1 x2 ∨ 2 ≤ maxSteps) :
    (∃ x, newtonRaphson func dfunc x1 x2 xinit maxSteps xacc = .ok (some x) ∧ x ∈ Set.uIcc x1 x2) ∨
      (newtonRaphson func dfunc x1 x2 xinit maxSteps xacc = .ok none ∧
        ∃ r, (r = xinit ∨ r ∈ Set.uIcc x1 x2) ∧ func r = 0 ∧ dfunc r = 0) := by
  unfold newtonRaphson
  simp only
  rw [if_neg (not_lt.mpr hsign)]
  by_cases h1 : func x1 = 0
  · rw [if_pos h1]; exact Or.inl ⟨x1, rfl, Set.left_mem_uIcc⟩
  rw [if_neg h1]
  by_cases h2 : func x2 = 0
  · rw [if_pos h2]; exact Or.inl ⟨x2, rfl, Set.right_mem_uIcc⟩
  rw [if_neg h2]
  have := loop_bracket func dfunc xacc x1 x2 (maxSteps - 1).toNat _ (start_inv func dfunc x1 x2 xinit (not_lt.mpr hsign) h1 h2)
    (hinit.imp id (fun h => by omega))
  revert this
  cases loop func dfunc xacc (maxSteps - 1).toNat _ with
  | some x => exact fun h => Or.inl ⟨x, rfl, h⟩
  | none => exact fun h => Or.inr ⟨rfl, h⟩

/-- `x² - 2` on `[1, 2]` from 3/2: two Newton steps, and then the third is shorter than the accuracy. -/
example : newtonRaphson (fun x : ℚ => x * x - 2) (fun x => 2 * x) 1 2 (3 / 2) 101 (1 / 100) = .ok (some (577 / 408)) := by decide +kernel

/-- `x³` on `[-1, 1]` from 0: the starting point is the root, and the result is NaN. -/
theorem C48_flat_root_fails : newtonRaphson (fun x : ℚ => x * x * x) (fun x => 3 * x * x) (-1) 1 0 101 (1 / 1000000) = .ok none := by
  decide +kernel

/-- Without any round the starting point is returned, wherever it is. -/
theorem C48_no_rounds_fails : newtonRaphson (fun x : ℚ => x) (fun _ => 1) (-1) 1 5 1 (1 / 1000000) = .ok (some 5) := by decide +kernel

/-- The number of rounds limits the accuracy: a sign change at 1/3, searched for on `[0, 2¹³⁰]` by bisection, is missed by far. -/
theorem C48_limit_fails : ∃ x : ℚ, newtonRaphson (fun x : ℚ => if x < 1 / 3 then -1 else 1) (fun _ => 0) 0 (2 ^ 130) (2 ^ 129) 101 (1 / 1000000) = .ok (some x) ∧
    1000000 < |x - 1 / 3| := ⟨2 ^ 30, by decide +kernel, by decide +kernel⟩

/-! ### Accuracy -/

/-- How far the steps still are from the accuracy: exponents of two that bound the bracket, the step before the last and the last step. -/
structure Budget (xacc : K) (s : State K) (w a b : Nat) : Prop where
  width : |s.xh - s.xl| ≤ 2 ^ w * xacc
  old : |s.dxold| ≤ 2 ^ a * xacc
  last : |s.dx| ≤ 2 ^ b * xacc

theorem step_budget (func dfunc : K → K) (xacc x1 x2 : K) (hacc : 0 < xacc) (s t : State K) (h : Inv func dfunc x1 x2 s) (w a b : Nat)
    (hb : Budget xacc s w a b) (hgo : step func dfunc xacc s = .go t) :
    (∃ v, w = v + 1 ∧ Budget xacc t v b v) ∨ ∃ c, a = c + 1 ∧ Budget xacc t w b c := by
  obtain ⟨hw, ha, hl⟩ := hb
  have := step_spec func dfunc xacc x1 x2 s h
  rw [hgo] at this
  obtain ⟨-, -, ho, hx, h | h⟩ := this
  · left
    obtain ⟨h1, h2⟩ := h
    cases w with
    | zero =>
      rw [pow_zero, one_mul] at hw
      linarith
    | succ v =>
      rw [pow_succ] at hw
      exact ⟨v, rfl, by linarith, ho ▸ hl, by linarith⟩
  · right
    obtain ⟨h1, h2⟩ := h
    cases a with
    | zero =>
      rw [pow_zero, one_mul] at ha
      linarith
    | succ c =>
      rw [pow_succ] at ha
      exact ⟨c, rfl, h2.trans hw, ho ▸ hl, by linarith⟩

/-- What the value returned by a finished search is: a root, the middle of a bracket shorter than twice the accuracy with a sign change, or a
Newton step shorter than the accuracy. -/
def Found (func dfunc : K → K) (xacc x1 x2 : K) (x : K) : Prop :=
  func x = 0 ∨ (∃ a b, a ∈ Set.uIcc x1 x2 ∧ b ∈ Set.uIcc x1 x2 ∧ func a < 0 ∧ 0 ≤ func b ∧ x = a + (b - a) / 2 ∧ |(b - a) / 2| < xacc) ∨
    ∃ y, y ∈ Set.uIcc x1 x2 ∧ dfunc y ≠ 0 ∧ x = y - func y / dfunc y ∧ |func y / dfunc y| < xacc

theorem loop_found (func dfunc : K → K) (xacc x1 x2 : K) (hacc : 0 < xacc) (hflat : ∀ y ∈ Set.uIcc x1 x2, func y = 0 → dfunc y ≠ 0) (n : Nat)
    (s : State K) (h : Inv func dfunc x1 x2 s) (hr : s.rts ∈ Set.uIcc x1 x2) (w a b : Nat) (hb : Budget xacc s w a b)
    (hn : w * (w + 1) / 2 + a + b < n) : ∃ x, loop func dfunc xacc n s = some x ∧ x ∈ Set.uIcc x1 x2 ∧ Found func dfunc xacc x1 x2 x := by
  induction n generalizing s w a b with
  | zero => omega
  | succ n ih =>
    rw [loop]
    have hs := step_spec func dfunc xacc x1 x2 s h
    have hg := step_budget func dfunc xacc x1 x2 hacc s
    revert hs hg
    cases step func dfunc xacc s with
    | ret x =>
      cases x with
      | none =>
        rintro ⟨h1, h2⟩ -
        exact absurd h2 (hflat _ hr h1)
      | some x =>
        rintro ⟨hx, h1⟩ -
        refine ⟨x, rfl, hx, ?_⟩
        rcases h1 with h1 | h1 | h1
        · exact Or.inl h1.2
        · exact Or.inr (Or.inl ⟨s.xl, s.xh, h.xl, h.xh, h.low, h.high, h1⟩)
        · exact Or.inr (Or.inr ⟨s.rts, hr, h1⟩)
    | go t =>
      rintro ⟨h1, h2, -⟩ hg
      simp only
      rcases hg t h w a b hb rfl with ⟨v, rfl, hb'⟩ | ⟨c, rfl, hb'⟩
      · refine ih t h1 h2 v b v hb' ?_
        have : (v + 1) * (v + 1 + 1) / 2 = v * (v + 1) / 2 + (v + 1) := by
          rw [show (v + 1) * (v + 1 + 1) = v * (v + 1) + (v + 1) * 2 by ring, Nat.add_mul_div_right _ _ (by norm_num)]
        omega
      · exact ih t h1 h2 w b c hb' (by omega)

/-- **C48**: if the bracket is at most `2ᴸ` times the accuracy and more than `L(L+1)/2 + 2L` rounds are allowed, the search ends by itself: the result
is a root, or the middle of an interval shorter than twice the accuracy across which the function changes sign, or the end of a Newton step shorter
than the accuracy. -/
theorem C48_ends (func dfunc : K → K) (x1 x2 xinit xacc : K) (maxSteps : Int) (L : Nat) (hacc : 0 < xacc) (hsign : func x1 * func x2 ≤ 0)
    (hinit : xinit ∈ Set.uIcc x1 x2) (hflat : ∀ y ∈ Set.uIcc x1 x2, func y = 0 → dfunc y ≠ 0) (hL : |x2 - x1| ≤ 2 ^ L * xacc)
    (hsteps : (L * (L + 1) / 2 + 2 * L + 1 : Nat) < maxSteps) :
    ∃ x, newtonRaphson func dfunc x1 x2 xinit maxSteps xacc = .ok (some x) ∧ x ∈ Set.uIcc x1 x2 ∧ Found func dfunc xacc x1 x2 x := by
  unfold newtonRaphson
  simp only
  rw [if_neg (not_lt.mpr hsign)]
  by_cases h1 : func x1 = 0
  · rw [if_pos h1]; exact ⟨x1, rfl, Set.left_mem_uIcc, Or.inl h1⟩
  rw [if_neg h1]
  by_cases h2 : func x2 = 0
  · rw [if_pos h2]; exact ⟨x2, rfl, Set.right_mem_uIcc, Or.inl h2⟩
  rw [if_neg h2]
  obtain ⟨x, hx, h⟩ := loop_found func dfunc xacc x1 x2 hacc hflat (maxSteps - 1).toNat _
    (start_inv func dfunc x1 x2 xinit (not_lt.mpr hsign) h1 h2) hinit L L L
    ⟨by
      simp only
      split_ifs
      · exact hL
      · rw [abs_sub_comm]; exact hL, by simpa using hL, by simpa using hL⟩ (by omega)
  exact ⟨x, by rw [hx], h⟩

/-- **C48**: and for a function that increases with slope at least `m > 0` and whose derivative is at most `M` the result is within
`(1 + M/m)` times the accuracy of the root. -/
theorem C48_accuracy (func dfunc : K → K) (x1 x2 xinit xacc : K) (maxSteps : Int) (L : Nat) (hacc : 0 < xacc) (hinit : xinit ∈ Set.uIcc x1 x2)
    (m M r : K) (hm : 0 < m) (hslope : ∀ x ∈ Set.uIcc x1 x2, ∀ y ∈ Set.uIcc x1 x2, x ≤ y → m * (y - x) ≤ func y - func x)
    (hd : ∀ x ∈ Set.uIcc x1 x2, 0 < dfunc x ∧ dfunc x ≤ M) (hr : r ∈ Set.uIcc x1 x2) (hroot : func r = 0) (hL : |x2 - x1| ≤ 2 ^ L * xacc)
    (hsteps : (L * (L + 1) / 2 + 2 * L + 1 : Nat) < maxSteps) :
    ∃ x, newtonRaphson func dfunc x1 x2 xinit maxSteps xacc = .ok (some x) ∧ x ∈ Set.uIcc x1 x2 ∧ |x - r| ≤ (1 + M / m) * xacc := by
  have hM : 0 < M := lt_of_lt_of_le (hd r hr).1 (hd r hr).2
  have hMm : 0 < M / m := div_pos hM hm
  -- the function is at least `m` times the distance from the root
  have hfar : ∀ x ∈ Set.uIcc x1 x2, m * |x - r| ≤ |func x| := by
    intro x hx
    rcases le_total x r with h | h
    · have := hslope x hx r hr h
      rw [hroot] at this
      have h2 : func x ≤ 0 := by nlinarith
      rw [abs_of_nonpos (by linarith : x - r ≤ 0), abs_of_nonpos h2]
      linarith
    · have := hslope r hr x hx h
      rw [hroot] at this
      have h2 : 0 ≤ func x := by nlinarith
      rw [abs_of_nonneg (by linarith : 0 ≤ x - r), abs_of_nonneg h2]
      linarith
  have hsign : func x1 * func x2 ≤ 0 := by
    rw [Set.mem_uIcc] at hr
    have l := Set.left_mem_uIcc (a := x1) (b := x2)
    have l' := Set.right_mem_uIcc (a := x1) (b := x2)
    have hr' : r ∈ Set.uIcc x1 x2 := Set.mem_uIcc.mpr hr
    rcases hr with ⟨h1, h2⟩ | ⟨h1, h2⟩
    · have e1 := hslope x1 l r hr' h1
      have e2 := hslope r hr' x2 l' h2
      rw [hroot] at e1 e2
      exact mul_nonpos_of_nonpos_of_nonneg (by nlinarith) (by nlinarith)
    · have e1 := hslope x2 l' r hr' h1
      have e2 := hslope r hr' x1 l h2
      rw [hroot] at e1 e2
      exact mul_nonpos_of_nonneg_of_nonpos (by nlinarith) (by nlinarith)
  obtain ⟨x, hx, hin, hfound⟩ := C48_ends func dfunc x1 x2 xinit xacc maxSteps L hacc hsign hinit (fun y hy _ => (hd y hy).1.ne') hL hsteps
  refine ⟨x, hx, hin, ?_⟩
  rcases hfound with h | ⟨a, b, ha, hb, hfa, hfb, rfl, hlt⟩ | ⟨y, hy, -, rfl, hlt⟩
  · have := hfar x hin
    rw [h, abs_zero] at this
    have h0 : |x - r| ≤ 0 := by
      by_contra hc
      push Not at hc
      exact absurd this (not_le.mpr (mul_pos hm hc))
    exact h0.trans (by positivity)
  · -- the root is between the ends
    have h1 : a ≤ r := by
      by_contra hc
      push Not at hc
      have := hslope r hr a ha hc.le
      rw [hroot] at this
      nlinarith
    have h2 : r ≤ b := by
      by_contra hc
      push Not at hc
      have := hslope b hb r hr hc.le
      rw [hroot] at this
      nlinarith
    have hab : 0 ≤ (b - a) / 2 := by linarith
    rw [abs_of_nonneg hab] at hlt
    have : |a + (b - a) / 2 - r| ≤ xacc := by
      rw [abs_le]
      constructor <;> linarith
    nlinarith
  · obtain ⟨hd0, hd1⟩ := hd y hy
    have h1 := hfar y hy
    rw [abs_div, abs_of_pos hd0, div_lt_iff₀ hd0] at hlt
    have h2 : |y - r| ≤ M / m * xacc := by
      rw [div_mul_eq_mul_div, le_div_iff₀ hm]
      nlinarith
    have h3 : |y - func y / dfunc y - r| ≤ |y - r| + |func y / dfunc y| := by
      rw [show y - func y / dfunc y - r = (y - r) - func y / dfunc y by ring]
      exact abs_sub _ _
    have h4 : |func y / dfunc y| ≤ xacc := by
      rw [abs_div, abs_of_pos hd0, div_le_iff₀ hd0]
      exact hlt.le
    linarith

/-- `x² - 2` on `[1, 2]` satisfies the conditions with slopes between 2 and 4; the bracket is `2⁷` times an accuracy of 1/128, and 44 rounds are
enough. -/
example : (∀ x ∈ Set.uIcc (1 : ℚ) 2, ∀ y ∈ Set.uIcc (1 : ℚ) 2, x ≤ y → 2 * (y - x) ≤ (y * y - 2) - (x * x - 2)) ∧
    (∀ x ∈ Set.uIcc (1 : ℚ) 2, 0 < 2 * x ∧ 2 * x ≤ 4) ∧ |(2 : ℚ) - 1| ≤ 2 ^ 7 * (1 / 128) ∧ ((7 * (7 + 1) / 2 + 2 * 7 + 1 : Nat) : Int) < 45 := by
  refine ⟨?_, ?_, by norm_num, by norm_num⟩
  · intro x hx y hy h
    rw [Set.uIcc_of_le (by norm_num)] at hx hy
    nlinarith [hx.1, hx.2, hy.1, hy.2]
  · intro x hx
    rw [Set.uIcc_of_le (by norm_num)] at hx
    constructor <;> linarith [hx.1, hx.2]

end Newton

end Siren.Math
