import Mathlib.Analysis.SpecialFunctions.Log.Basic
import Verif.Base
import Verif.Math.Delaunay

/-!
# Transforms of interpolation tables

`projects/math/public/SIREN/math/Interpolation.h:38-249`. Numbers are real numbers.
-/

set_option autoImplicit false

namespace Siren.Math.Transforms

open Siren.Math.Delaunay (Trans)

/-- The subclasses of `Transform` and their members (Interpolation.h:67-69, 96-99, 125-128, 200-203). -/
inductive T where
  | identity
  | log
  | symLog (minX logMinX : ℝ)
  | range (minX range : ℝ)

noncomputable section

open Classical in
/-- The constructor of `SymLogTransform` from a number (Interpolation.h:130-134). -/
def symLog (minX : ℝ) : Res T :=
  if minX = 0 then .throws .runtimeError else .ok (.symLog |minX| (Real.log |minX|))

open Classical in
/-- The body of the loop of the constructor from data (Interpolation.h:139-145); the state is `first` and `min_x`. -/
def scanStep (s : Bool × ℝ) (x : ℝ) : Bool × ℝ :=
  if x ≠ 0 then
    let m := if s.1 then |x| else s.2
    (false, min m |x|)
  else s

open Classical in
/-- The constructor of `SymLogTransform` from data (Interpolation.h:135-151). -/
def symLogOf (x : List ℝ) : Res T :=
  let minX := (x.foldl scanStep (true, 0)).2
  if minX = 0 then .throws .runtimeError else .ok (.symLog minX (Real.log minX))

open Classical in
/-- The constructor of `RangeTransform` (Interpolation.h:205-209). -/
def range (minX maxX : ℝ) : Res T :=
  if maxX - minX = 0 then .throws .runtimeError else .ok (.range minX (maxX - minX))

open Classical in
/-- `std::copysign` where the second argument is not zero. -/
def copysign (a x : ℝ) : ℝ := if x < 0 then -|a| else |a|

open Classical in
/-- `Function` (Interpolation.h:71, 100, 152-159, 210-212). The logarithm of a number that is not positive is not a number; here it has some
value, and statements about it are about positive numbers. -/
def T.fn : T → ℝ → ℝ
  | .identity, x => x
  | .log, x => Real.log x
  | .symLog m l, x => if |x| < m then x else copysign (Real.log |x| - l + m) x
  | .range m r, x => (x - m) / r

open Classical in
/-- `Inverse` (Interpolation.h:74, 103, 160-167, 213-215). -/
def T.inv : T → ℝ → ℝ
  | .identity, x => x
  | .log, x => Real.exp x
  | .symLog m l, x => if |x| < m then x else copysign (Real.exp (|x| - m + l)) x
  | .range m r, x => x * r + m

/-- `equal`, which `operator==` calls for different objects (Interpolation.h:46-51, 77-82, 106-111, 168-173, 216-221). -/
def T.equal : T → T → Bool
  | .identity, .identity => true
  | .log, .log => true
  | .symLog _ _, .symLog _ _ => true
  | .range _ _, .range _ _ => true
  | _, _ => false

open Classical in
/-- `operator<` (Interpolation.h:52-57, 83-85, 112-114, 174-177, 222-225). `typeid(this)` and `typeid(&other)` are both the type of a pointer
to the base class, so that `less` is called for all pairs; its result of `dynamic_cast` is not checked. -/
def T.lt : T → T → Res Bool
  | .identity, _ => .ok false
  | .log, _ => .ok false
  | .symLog m _, .symLog m' _ => .ok (decide (m < m'))
  | .symLog _ _, _ => .ub
  | .range m r, .range m' r' => .ok (decide (m < m' ∨ (m = m' ∧ r < r')))
  | .range _ _, _ => .ub

/-- The archive: the class and the fields written (Interpolation.h:86-93, 115-122, 178-186, 226-235). -/
inductive Archive where
  | identity
  | log
  | symLog (minX : ℝ)
  | range (minX maxX : ℝ)

def T.save : T → Archive
  | .identity => .identity
  | .log => .log
  | .symLog m _ => .symLog m
  | .range m r => .range m (m + r)

/-- `load_and_construct` (Interpolation.h:187-197, 236-248). -/
def Archive.load : Archive → Res T
  | .identity => .ok .identity
  | .log => .ok .log
  | .symLog m => Transforms.symLog m
  | .range a b => Transforms.range a b

/-- As the indexers and interpolators of C123 and C124 see it. -/
def T.trans (t : T) : Trans ℝ := ⟨t.fn, t.inv⟩

/-! ## Specification -/

/-- `t` is what one of the constructors returns. -/
inductive Made : T → Prop
  | identity : Made .identity
  | log : Made .log
  | symLog (m : ℝ) (t : T) : Transforms.symLog m = .ok t → Made t
  | symLogOf (x : List ℝ) (t : T) : Transforms.symLogOf x = .ok t → Made t
  | range (a b : ℝ) (t : T) : Transforms.range a b = .ok t → Made t

/-- The numbers a transform is for: positive ones for the logarithm, all for the others. -/
def T.domain : T → Set ℝ
  | .log => {x | 0 < x}
  | _ => Set.univ

/-! ## Lemmas -/

theorem copysign_of_pos (a x : ℝ) (ha : 0 ≤ a) (hx : 0 < x) : copysign a x = a := by
  unfold copysign
  rw [if_neg (not_lt.2 hx.le), abs_of_nonneg ha]

theorem copysign_of_neg (a x : ℝ) (ha : 0 ≤ a) (hx : x < 0) : copysign a x = -a := by
  unfold copysign
  rw [if_pos hx, abs_of_nonneg ha]

/-- What the members satisfy after construction. -/
def Wf : T → Prop
  | .symLog m l => 0 < m ∧ l = Real.log m
  | .range _ r => r ≠ 0
  | _ => True

theorem scan_spec (x : List ℝ) (s : Bool × ℝ) (h : s.1 = true ∧ s.2 = 0 ∨ s.1 = false ∧ 0 < s.2) :
    ((x.foldl scanStep s).1 = true ∧ (x.foldl scanStep s).2 = 0 ∧ (∀ a ∈ x, a = 0) ∧ s.1 = true) ∨
    ((x.foldl scanStep s).1 = false ∧ 0 < (x.foldl scanStep s).2 ∧ (∀ a ∈ x, a ≠ 0 → (x.foldl scanStep s).2 ≤ |a|) ∧
      (s.1 = false → (x.foldl scanStep s).2 ≤ s.2) ∧
      ((s.1 = false ∧ (x.foldl scanStep s).2 = s.2) ∨ ∃ a ∈ x, a ≠ 0 ∧ (x.foldl scanStep s).2 = |a|)) := by
  induction x generalizing s with
  | nil =>
    rcases h with ⟨h1, h2⟩ | ⟨h1, h2⟩
    · left; exact ⟨h1, h2, by simp, h1⟩
    · right
      exact ⟨h1, h2, by simp, fun _ => le_refl _, Or.inl ⟨h1, rfl⟩⟩
  | cons a l ih =>
    rw [List.foldl_cons]
    by_cases ha : a = 0
    · have hs : scanStep s a = s := by unfold scanStep; rw [if_neg (by simpa using ha)]
      rw [hs]
      rcases ih s h with ⟨h1, h2, h3, h4⟩ | ⟨h1, h2, h3, h4, h5⟩
      · left
        refine ⟨h1, h2, ?_, h4⟩
        intro b hb
        rcases List.mem_cons.1 hb with rfl | hb
        · exact ha
        · exact h3 b hb
      · right
        refine ⟨h1, h2, ?_, h4, ?_⟩
        · intro b hb hb0
          rcases List.mem_cons.1 hb with rfl | hb
          · exact absurd ha hb0
          · exact h3 b hb hb0
        · rcases h5 with h5 | ⟨b, hb, h6⟩
          · exact Or.inl h5
          · exact Or.inr ⟨b, List.mem_cons_of_mem _ hb, h6⟩
    · have hpos : 0 < |a| := abs_pos.2 ha
      have hs : scanStep s a = (false, min (if s.1 then |a| else s.2) |a|) := by
        unfold scanStep; rw [if_pos ha]
      have hm : 0 < (scanStep s a).2 := by
        rw [hs]
        refine lt_min ?_ hpos
        rcases h with ⟨h1, _⟩ | ⟨h1, h2⟩
        · rw [h1]; simpa using ha
        · rw [h1]; simpa using h2
      have hf : (scanStep s a).1 = false := by rw [hs]
      rcases ih (scanStep s a) (Or.inr ⟨hf, hm⟩) with ⟨_, _, _, h4⟩ | ⟨h1, h2, h3, h4, h5⟩
      · rw [hf] at h4; cases h4
      · right
        have hle : (scanStep s a).2 ≤ |a| := by rw [hs]; exact min_le_right _ _
        refine ⟨h1, h2, ?_, ?_, ?_⟩
        · intro b hb hb0
          rcases List.mem_cons.1 hb with rfl | hb
          · exact le_trans (h4 hf) hle
          · exact h3 b hb hb0
        · intro hsf
          refine le_trans (h4 hf) ?_
          rw [hs, hsf]
          simp
        · rcases h5 with ⟨_, h5⟩ | ⟨b, hb, h6⟩
          · rw [h5, hs]
            rcases h with ⟨h1', _⟩ | ⟨h1', _⟩
            · right
              refine ⟨a, by simp, ha, ?_⟩
              rw [h1']; simp
            · rw [h1']
              simp only [Bool.false_eq_true, if_false]
              rcases le_total s.2 |a| with hl | hl
              · left; exact ⟨trivial, min_eq_left hl⟩
              · right; exact ⟨a, by simp, ha, min_eq_right hl⟩
          · exact Or.inr ⟨b, List.mem_cons_of_mem _ hb, h6⟩

theorem made_wf (t : T) (h : Made t) : Wf t := by
  cases h with
  | identity => trivial
  | log => trivial
  | symLog m t h =>
    unfold symLog at h
    split_ifs at h with h0
    cases h
    exact ⟨abs_pos.2 h0, rfl⟩
  | symLogOf x t h =>
    unfold symLogOf at h
    simp only at h
    split_ifs at h with h0
    cases h
    rcases scan_spec x (true, 0) (Or.inl ⟨rfl, rfl⟩) with h1 | h1
    · exact absurd h1.2.1 h0
    · exact ⟨h1.2.1, rfl⟩
  | range a b t h =>
    unfold range at h
    split_ifs at h with h0
    cases h
    exact h0

/-- `SymLogTransform::Function` on the three parts of the line. -/
theorem symLog_fn (m x : ℝ) (hm : 0 < m) :
    (m ≤ x → (T.symLog m (Real.log m)).fn x = Real.log x - Real.log m + m ∧ m ≤ Real.log x - Real.log m + m) ∧
    (x ≤ -m → (T.symLog m (Real.log m)).fn x = -(Real.log (-x) - Real.log m + m) ∧ m ≤ Real.log (-x) - Real.log m + m) ∧
    (-m < x → x < m → (T.symLog m (Real.log m)).fn x = x) := by
  have aux : ∀ z, m ≤ z → m ≤ Real.log z - Real.log m + m := by
    intro z hz
    have := Real.log_le_log hm hz
    linarith
  refine ⟨fun h => ⟨?_, aux x h⟩, fun h => ⟨?_, aux (-x) (by linarith)⟩, fun h1 h2 => ?_⟩
  · have hx : 0 < x := lt_of_lt_of_le hm h
    simp only [T.fn, abs_of_pos hx]
    rw [if_neg (not_lt.2 h), copysign_of_pos _ _ (le_trans hm.le (aux x h)) hx]
  · have hx : x < 0 := by linarith
    simp only [T.fn, abs_of_neg hx]
    rw [if_neg (by linarith), copysign_of_neg _ _ (le_trans hm.le (aux (-x) (by linarith))) hx]
  · simp only [T.fn]
    rw [if_pos (abs_lt.2 ⟨h1, h2⟩)]

theorem symLog_inv (m x : ℝ) (hm : 0 < m) :
    (m ≤ x → (T.symLog m (Real.log m)).inv x = m * Real.exp (x - m)) ∧
    (x ≤ -m → (T.symLog m (Real.log m)).inv x = -(m * Real.exp (-x - m))) ∧
    (-m < x → x < m → (T.symLog m (Real.log m)).inv x = x) := by
  have aux : ∀ z, Real.exp (z - m + Real.log m) = m * Real.exp (z - m) := by
    intro z
    rw [Real.exp_add, Real.exp_log hm, mul_comm]
  refine ⟨fun h => ?_, fun h => ?_, fun h1 h2 => ?_⟩
  · have hx : 0 < x := lt_of_lt_of_le hm h
    simp only [T.inv, abs_of_pos hx]
    rw [if_neg (not_lt.2 h), copysign_of_pos _ _ (Real.exp_pos _).le hx, aux]
  · have hx : x < 0 := by linarith
    simp only [T.inv, abs_of_neg hx]
    rw [if_neg (by linarith), copysign_of_neg _ _ (Real.exp_pos _).le hx, aux]
  · simp only [T.inv]
    rw [if_pos (abs_lt.2 ⟨h1, h2⟩)]

/-- The three parts of the line. -/
theorem parts (m x : ℝ) : m ≤ x ∨ x ≤ -m ∨ (-m < x ∧ x < m) := by
  by_cases h1 : m ≤ x
  · exact Or.inl h1
  · by_cases h2 : x ≤ -m
    · exact Or.inr (Or.inl h2)
    · exact Or.inr (Or.inr ⟨not_le.1 h2, not_le.1 h1⟩)

/-! ## C125 -/

/-- Transforming a number and transforming it back gives the number. -/
theorem C125_inverse (t : T) (h : Made t) (x : ℝ) (hx : x ∈ t.domain) : t.inv (t.fn x) = x := by
  have hw := made_wf t h
  cases t with
  | identity => rfl
  | log => exact Real.exp_log hx
  | range m r =>
    have hr : r ≠ 0 := hw
    simp only [T.fn, T.inv]
    field_simp
    ring
  | symLog m l =>
    obtain ⟨hm, rfl⟩ := hw
    obtain ⟨f1, f2, f3⟩ := symLog_fn m x hm
    rcases parts m x with h1 | h1 | h1
    · rw [(f1 h1).1, (symLog_inv m _ hm).1 (f1 h1).2]
      have hx0 : 0 < x := lt_of_lt_of_le hm h1
      rw [show Real.log x - Real.log m + m - m = Real.log x - Real.log m by ring, Real.exp_sub, Real.exp_log hx0, Real.exp_log hm]
      field_simp
    · rw [(f2 h1).1, (symLog_inv m _ hm).2.1 (by linarith [(f2 h1).2])]
      have hx0 : 0 < -x := by linarith
      rw [show - -(Real.log (-x) - Real.log m + m) - m = Real.log (-x) - Real.log m by ring, Real.exp_sub, Real.exp_log hx0, Real.exp_log hm]
      field_simp
    · rw [f3 h1.1 h1.2, (symLog_inv m _ hm).2.2 h1.1 h1.2]

/-- Every number is the transform of its inverse, which is in the domain. -/
theorem C125_onto (t : T) (h : Made t) (u : ℝ) : t.inv u ∈ t.domain ∧ t.fn (t.inv u) = u := by
  have hw := made_wf t h
  cases t with
  | identity => exact ⟨trivial, rfl⟩
  | log => exact ⟨Real.exp_pos u, Real.log_exp u⟩
  | range m r =>
    have hr : r ≠ 0 := hw
    refine ⟨trivial, ?_⟩
    simp only [T.fn, T.inv]
    field_simp
    ring
  | symLog m l =>
    obtain ⟨hm, rfl⟩ := hw
    refine ⟨trivial, ?_⟩
    obtain ⟨g1, g2, g3⟩ := symLog_inv m u hm
    have aux : ∀ z, m ≤ z → m ≤ m * Real.exp (z - m) := by
      intro z hz
      have : 1 ≤ Real.exp (z - m) := Real.one_le_exp (by linarith)
      nlinarith
    have lg : ∀ z, Real.log (m * Real.exp (z - m)) = Real.log m + (z - m) := by
      intro z
      rw [Real.log_mul hm.ne' (Real.exp_pos _).ne', Real.log_exp]
    rcases parts m u with h1 | h1 | h1
    · rw [g1 h1, ((symLog_fn m _ hm).1 (aux u h1)).1, lg]
      ring
    · rw [g2 h1, ((symLog_fn m _ hm).2.1 (by linarith [aux (-u) (by linarith)])).1, neg_neg, lg]
      ring
    · rw [g3 h1.1 h1.2, (symLog_fn m _ hm).2.2 h1.1 h1.2]

/-- The transforms are strictly increasing; the one to a range is when the second end is above the first, and decreasing otherwise. -/
theorem C125_monotone (t : T) (h : Made t) :
    ((∀ m r, t = .range m r → 0 < r) → StrictMonoOn t.fn t.domain) ∧ (∀ m r, t = .range m r → r < 0 → StrictAnti t.fn) := by
  have hw := made_wf t h
  constructor
  · intro hr
    cases t with
    | identity => exact fun a _ b _ hab => hab
    | log => exact fun a ha b _ hab => Real.log_lt_log ha hab
    | range m r =>
      intro a _ b _ hab
      simp only [T.fn]
      exact div_lt_div_of_pos_right (by linarith) (hr m r rfl)
    | symLog m l =>
      obtain ⟨hm, rfl⟩ := hw
      intro a _ b _ hab
      obtain ⟨f1, f2, f3⟩ := symLog_fn m a hm
      obtain ⟨g1, g2, g3⟩ := symLog_fn m b hm
      rcases parts m a with h1 | h1 | h1 <;> rcases parts m b with h2 | h2 | h2
      · rw [(f1 h1).1, (g1 h2).1]
        have := Real.log_lt_log (by linarith : 0 < a) hab
        linarith
      · linarith
      · linarith [h2.2]
      · rw [(f2 h1).1, (g1 h2).1]
        linarith [(f2 h1).2, (g1 h2).2]
      · rw [(f2 h1).1, (g2 h2).1]
        have := Real.log_lt_log (by linarith : 0 < -b) (by linarith : -b < -a)
        linarith
      · rw [(f2 h1).1, g3 h2.1 h2.2]
        linarith [(f2 h1).2, h2.1]
      · rw [f3 h1.1 h1.2, (g1 h2).1]
        linarith [(g1 h2).2, h1.2]
      · linarith [h1.1]
      · rw [f3 h1.1 h1.2, g3 h2.1 h2.2]
        exact hab
  · rintro m r rfl hr a b hab
    simp only [T.fn]
    exact div_lt_div_of_neg_of_lt hr (by linarith)

/-- The symmetric logarithm does not change numbers below its threshold, changes with the sign of its argument, and has no jump at the
threshold. -/
theorem C125_symlog (t : T) (m l : ℝ) (h : Made t) (e : t = .symLog m l) :
    0 < m ∧ (∀ x, |x| ≤ m → t.fn x = x) ∧ (∀ x, t.fn (-x) = -t.fn x) ∧ (∀ x, m ≤ x → t.fn x = m + Real.log (x / m)) := by
  subst e
  obtain ⟨hm, rfl⟩ := made_wf _ h
  have hpos : ∀ x, m ≤ x → (T.symLog m (Real.log m)).fn x = m + Real.log (x / m) := by
    intro x hx
    rw [((symLog_fn m x hm).1 hx).1, Real.log_div (by linarith) hm.ne']
    ring
  have hneg : ∀ x, (T.symLog m (Real.log m)).fn (-x) = -(T.symLog m (Real.log m)).fn x := by
    intro x
    rcases parts m x with h1 | h1 | h1
    · rw [((symLog_fn m x hm).1 h1).1, ((symLog_fn m (-x) hm).2.1 (by linarith)).1, neg_neg]
    · rw [((symLog_fn m x hm).2.1 h1).1, ((symLog_fn m (-x) hm).1 (by linarith)).1, neg_neg]
    · rw [(symLog_fn m x hm).2.2 h1.1 h1.2, (symLog_fn m (-x) hm).2.2 (by linarith [h1.2]) (by linarith [h1.1])]
  refine ⟨hm, ?_, hneg, hpos⟩
  intro x hx
  rcases lt_or_eq_of_le hx with h1 | h1
  · exact (symLog_fn m x hm).2.2 (abs_lt.1 h1).1 (abs_lt.1 h1).2
  · have hmm : (T.symLog m (Real.log m)).fn m = m := by rw [hpos m (le_refl _), div_self hm.ne', Real.log_one, add_zero]
    rcases abs_eq hm.le |>.1 h1 with rfl | rfl
    · exact hmm
    · rw [hneg, hmm]

/-- A strictly increasing map of the line onto the line has no jumps: the symmetric logarithm is continuous. -/
theorem C125_continuous (t : T) (m l : ℝ) (h : Made t) (e : t = .symLog m l) : Continuous t.fn := by
  have hmono : StrictMono t.fn := by
    have := (C125_monotone t h).1 (by rw [e]; intro _ _ h; cases h)
    intro a b hab
    exact this (by rw [e]; trivial) (by rw [e]; trivial) hab
  exact hmono.monotone.continuous_of_surjective fun u => ⟨t.inv u, (C125_onto t h u).2⟩

/-- The constructors throw exactly for a threshold of zero, for data without a number other than zero, and for a range of zero; from data the
threshold is the smallest magnitude other than zero. -/
theorem C125_construct :
    (∀ m, symLog m = .throws .runtimeError ↔ m = 0) ∧ (∀ m, m ≠ 0 → symLog m = .ok (.symLog |m| (Real.log |m|))) ∧
    (∀ x : List ℝ, symLogOf x = .throws .runtimeError ↔ ∀ a ∈ x, a = 0) ∧
    (∀ x : List ℝ, (∃ a ∈ x, a ≠ 0) → ∃ a ∈ x, a ≠ 0 ∧ (∀ b ∈ x, b ≠ 0 → |a| ≤ |b|) ∧ symLogOf x = .ok (.symLog |a| (Real.log |a|))) ∧
    (∀ a b, range a b = .throws .runtimeError ↔ a = b) ∧
    (∀ a b, a ≠ b → ∃ t, range a b = .ok t ∧ t.fn a = 0 ∧ t.fn b = 1) := by
  refine ⟨fun m => ?_, fun m hm => ?_, fun x => ?_, fun x hx => ?_, fun a b => ?_, fun a b hab => ?_⟩
  · unfold symLog
    split_ifs with h <;> simp [h]
  · unfold symLog
    rw [if_neg hm]
  · unfold symLogOf
    rcases scan_spec x (true, 0) (Or.inl ⟨rfl, rfl⟩) with h | h
    · simp only
      rw [if_pos h.2.1]
      simpa using h.2.2.1
    · simp only
      rw [if_neg h.2.1.ne']
      refine ⟨fun h => (by cases h), fun hz => ?_⟩
      rcases h.2.2.2.2 with h5 | ⟨a, ha, ha0, _⟩
      · exact absurd h5.1 (by simp)
      · exact absurd (hz a ha) ha0
  · unfold symLogOf
    rcases scan_spec x (true, 0) (Or.inl ⟨rfl, rfl⟩) with h | h
    · obtain ⟨a, ha, ha0⟩ := hx
      exact absurd (h.2.2.1 a ha) ha0
    · simp only
      rcases h.2.2.2.2 with h5 | ⟨a, ha, ha0, e⟩
      · exact absurd h5.1 (by simp)
      · refine ⟨a, ha, ha0, fun b hb hb0 => by rw [← e]; exact h.2.2.1 b hb hb0, ?_⟩
        rw [if_neg h.2.1.ne', e]
  · unfold range
    split_ifs with h
    · simp [sub_eq_zero.1 h]
    · simp only [false_iff]
      exact fun e => h (by rw [e, sub_self])
  · have h : b - a ≠ 0 := sub_ne_zero.2 (Ne.symm hab)
    refine ⟨.range a (b - a), by unfold range; rw [if_neg h], ?_, ?_⟩
    · simp [T.fn]
    · simp [T.fn, div_self h]

/-- A transform read back from an archive is the one that was saved. -/
theorem C125_archive (t : T) (h : Made t) : t.save.load = .ok t := by
  have hw := made_wf t h
  cases t with
  | identity => rfl
  | log => rfl
  | symLog m l =>
    obtain ⟨hm, rfl⟩ := hw
    simp only [T.save, Archive.load, Transforms.symLog]
    rw [if_neg hm.ne', abs_of_pos hm]
  | range m r =>
    have hr : r ≠ 0 := hw
    simp only [T.save, Archive.load, Transforms.range]
    rw [add_sub_cancel_left, if_neg hr]

/-- Transforms that compare equal are of the same kind, and those of the same kind and threshold or range compare equal. -/
theorem C125_equal_partial (t : T) : t.equal t = true ∧ (∀ u, t.equal u = u.equal t) ∧ (∀ u v, t.equal u = true → u.equal v = true → t.equal v = true) := by
  refine ⟨by cases t <;> rfl, fun u => by cases t <;> cases u <;> rfl, fun u v => ?_⟩
  cases t <;> cases u <;> cases v <;> simp [T.equal]

/-- Within one kind the order tells transforms with different thresholds or ranges apart and is a strict order. -/
theorem C125_order_partial (t u : T) (ht : Made t) (hu : Made u) (h : t.equal u = true) :
    ∃ a b, t.lt u = .ok a ∧ u.lt t = .ok b ∧ (a = true → b = false) ∧ (a = false → b = false → t = u) := by
  have wt := made_wf t ht
  have wu := made_wf u hu
  cases t with
  | identity => cases u with
    | identity => exact ⟨_, _, rfl, rfl, by simp, by simp⟩
    | _ => cases h
  | log => cases u with
    | log => exact ⟨_, _, rfl, rfl, by simp, by simp⟩
    | _ => cases h
  | symLog m l => cases u with
    | symLog m' l' =>
      refine ⟨_, _, rfl, rfl, ?_, ?_⟩
      · simp only [decide_eq_true_eq, decide_eq_false_iff_not, not_lt]
        exact le_of_lt
      · simp only [decide_eq_false_iff_not, not_lt]
        intro h1 h2
        have e : m = m' := le_antisymm h2 h1
        rw [wt.2, wu.2, e]
    | _ => cases h
  | range m r => cases u with
    | range m' r' =>
      refine ⟨_, _, rfl, rfl, ?_, ?_⟩
      · simp only [decide_eq_true_eq, decide_eq_false_iff_not]
        rintro (h1 | ⟨h1, h2⟩) (h3 | ⟨h3, h4⟩) <;> linarith
      · simp only [decide_eq_false_iff_not, not_or, not_and, not_lt]
        rintro ⟨h1, h2⟩ ⟨h3, h4⟩
        have e : m = m' := le_antisymm h3 h1
        subst e
        rw [le_antisymm (h4 rfl) (h2 rfl)]
    | _ => cases h

/-- Transforms that compare equal need not be: the threshold and the range are not compared. -/
theorem C125_equal_fails : ∃ t u v w, symLog 1 = .ok t ∧ symLog 2 = .ok u ∧ t.equal u = true ∧ t.fn 3 ≠ u.fn 3 ∧
    range 0 1 = .ok v ∧ range 0 2 = .ok w ∧ v.equal w = true ∧ v.fn 1 ≠ w.fn 1 := by
  refine ⟨.symLog 1 (Real.log 1), .symLog 2 (Real.log 2), .range 0 1, .range 0 2, by simp [symLog], by simp [symLog], rfl, ?_,
    by simp [range], by simp [range], rfl, by simp [T.fn]⟩
  rw [((symLog_fn 1 3 one_pos).1 (by norm_num)).1, ((symLog_fn 2 3 two_pos).1 (by norm_num)).1, Real.log_one]
  have : Real.log 2 < 1 := lt_of_lt_of_eq (Real.log_lt_sub_one_of_pos two_pos (by norm_num)) (by norm_num)
  intro h
  linarith

/-- Transforms of different kinds cannot be ordered: one comparison reads through a null pointer, and the other says that neither is less. -/
theorem C125_order_fails : ∃ t u, symLog 1 = .ok t ∧ range 0 1 = .ok u ∧ t.lt .identity = .ub ∧ u.lt t = .ub ∧ t.lt u = .ub ∧
    T.identity.lt .log = .ok false ∧ T.log.lt .identity = .ok false ∧ T.identity.equal .log = false :=
  ⟨.symLog 1 (Real.log 1), .range 0 1, by simp [symLog], by simp [range], rfl, rfl, rfl, rfl, rfl, rfl⟩

/-! ### Cases -/

example : Made (.symLog 2 (Real.log 2)) ∧ Made (.range 1 3) ∧ (-7 : ℝ) ∈ (T.symLog 2 (Real.log 2)).domain ∧ (5 : ℝ) ∈ T.log.domain :=
  ⟨.symLog (-2) _ (by simp [symLog]), .range 1 4 _ (by norm_num [range]), trivial, by norm_num [T.domain]⟩

example : symLogOf [0, -3, 2, 0, 5] = .ok (.symLog 2 (Real.log 2)) := by
  obtain ⟨a, ha, ha0, hmin, e⟩ := C125_construct.2.2.2.1 [0, -3, 2, 0, 5] ⟨2, by simp, by norm_num⟩
  simp only [List.mem_cons, List.not_mem_nil, or_false] at ha
  rcases ha with rfl | rfl | rfl | rfl | rfl
  · exact absurd rfl ha0
  · have := hmin 2 (by simp) (by norm_num); norm_num at this
  · rw [e]; norm_num
  · exact absurd rfl ha0
  · have := hmin 2 (by simp) (by norm_num); norm_num at this

end

end Siren.Math.Transforms
