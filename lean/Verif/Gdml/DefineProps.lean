import Verif.Gdml.DefineModel
import Mathlib.Tactic.Linarith
import Mathlib.Tactic.FieldSimp
import Mathlib.Tactic.NormNum
import Mathlib.Tactic.Ring
import Mathlib.Data.List.Iterate

set_option autoImplicit false

/-! # C112: definitions of a GDML file are read in document order, loops unrolled

The specification is the big-step reading of a section: elements one after the other, and a loop as its body once for each of its values.
The code does this with a stack and restarts loop frames from the variable's present value. -/

namespace Siren.Gdml.Define

open Siren Siren.Gdml

/-! ## Specification -/

/-- The values a loop takes: `from`, `from + step`, ... as long as they have not passed `to` by more than `1e-9`. -/
def loopValues (f t s : ℚ) : List ℚ :=
  List.iterate (· + s) f (⌊((if s > 0 then t + tol else t - tol) - f) / s⌋ + 1).toNat

/-- Run `body` once for each value of the variable. -/
def forEach (body : Data → Res Data) (var : String) : List ℚ → Data → Res Data
  | [], d => .ok d
  | v :: vs, d => do
      let d ← body { d with constants := put d.constants var v }
      forEach body var vs d

mutual
/-- Meaning of an element: a loop over a built-in name is refused with a warning, a loop without body does nothing. -/
def exec (C : Calls) (strict : Bool) (inLoop : Bool) : Node → Data → Res Data
  | .loop var start stop step body, d =>
      if isBuiltIn var then warn strict d
      else do
        let b ← bounds C d var start stop step
        if body = [] then .ok d
        else forEach (execAll C strict true body) var (loopValues b.1 b.2.1 b.2.2) d
  | .constant name value, d => leaf C strict inLoop (.constant name value) d
  | .quantity name value unit type, d => leaf C strict inLoop (.quantity name value unit type) d
  | .position name unit x y z, d => leaf C strict inLoop (.position name unit x y z) d
  | .rotation name unit x y z, d => leaf C strict inLoop (.rotation name unit x y z) d
  | .matrix name coldim values, d => leaf C strict inLoop (.matrix name coldim values) d
  | .scale name, d => leaf C strict inLoop (.scale name) d
  | .other, d => leaf C strict inLoop .other d
/-- Meaning of a sequence of elements: one after the other. -/
def execAll (C : Calls) (strict : Bool) (inLoop : Bool) : List Node → Data → Res Data
  | [], d => .ok d
  | n :: ns, d => do
      let d ← exec C strict inLoop n d
      execAll C strict inLoop ns d
end

mutual
/-- The element never assigns the name `x`, whatever its brackets evaluate to. -/
def Avoids (C : Calls) (x : String) : Node → Prop
  | .loop var _ _ _ body => var ≠ x ∧ AvoidsAll C x body
  | .constant name _ => ∀ d, resolve C d name ≠ .ok x
  | .quantity name _ _ _ => ∀ d, resolve C d name ≠ .ok x
  | _ => True
/-- No element assigns the name `x`. -/
def AvoidsAll (C : Calls) (x : String) : List Node → Prop
  | [] => True
  | n :: ns => Avoids C x n ∧ AvoidsAll C x ns
end

mutual
/-- No loop assigns its own variable in its body. -/
def Steady (C : Calls) : Node → Prop
  | .loop var _ _ _ body => AvoidsAll C var body ∧ SteadyAll C body
  | _ => True
/-- No loop of the sequence assigns its own variable in its body. -/
def SteadyAll (C : Calls) : List Node → Prop
  | [] => True
  | n :: ns => Steady C n ∧ SteadyAll C ns
end

mutual
/-- How deeply loops are nested. -/
def loopDepth : Node → Nat
  | .loop _ _ _ _ body => 1 + loopDepthAll body
  | _ => 0
/-- How deeply loops are nested in a sequence. -/
def loopDepthAll : List Node → Nat
  | [] => 0
  | n :: ns => max (loopDepth n) (loopDepthAll ns)
end

/-! ## Values of a loop -/

theorem count_iff (f t : ℚ) {s : ℚ} (hs : s ≠ 0) (k : Nat) :
    k < (⌊((if s > 0 then t + tol else t - tol) - f) / s⌋ + 1).toNat ↔ inRange (f + k * s) t s := by
  rw [Int.lt_toNat, Int.lt_add_one_iff, Int.le_floor]
  unfold inRange
  rcases lt_or_gt_of_ne hs with h | h
  · rw [if_neg (by linarith), if_neg (by linarith), le_div_iff_of_neg h]
    push_cast
    constructor <;> intro h' <;> linarith
  · rw [if_pos h, if_pos h, le_div_iff₀ h]
    push_cast
    constructor <;> intro h' <;> linarith

theorem mem_iterate {s v : ℚ} : ∀ (n : Nat) (f : ℚ), v ∈ List.iterate (· + s) f n ↔ ∃ k : Nat, k < n ∧ v = f + k * s
  | 0, f => by simp [List.iterate]
  | n + 1, f => by
    rw [List.iterate, List.mem_cons, mem_iterate n]
    constructor
    · rintro (h | ⟨k, hk, h⟩)
      · exact ⟨0, by omega, by simp [h]⟩
      · exact ⟨k + 1, by omega, by rw [h]; push_cast; ring⟩
    · rintro ⟨k, hk, h⟩
      rcases k with _ | k
      · left; simpa using h
      · right; exact ⟨k, by omega, by rw [h]; push_cast; ring⟩

/-! ## What an element can change -/

theorem bind_ok {α β : Type} {x : Res α} {f : α → Res β} {b : β} (h : (x >>= f) = .ok b) : ∃ a, x = .ok a ∧ f a = .ok b := by
  cases x with
  | ok a => exact ⟨a, rfl, h⟩
  | throws e => cases h
  | ub => cases h

theorem warn_constants {strict : Bool} {d d' : Data} (h : warn strict d = .ok d') : d'.constants = d.constants := by
  unfold warn at h
  split at h
  · cases h
  · cases h; rfl

/-- Name a constant or quantity is stored under, before its brackets are resolved. -/
def target : Node → Option String
  | .constant name _ => some name
  | .quantity name _ _ _ => some name
  | _ => none

theorem leaf_constants {C : Calls} {strict inLoop : Bool} {n : Node} {d d' : Data} (h : leaf C strict inLoop n d = .ok d') (x : String) :
    d'.constants x = d.constants x ∨ ∃ name, target n = some name ∧ resolve C d name = .ok x ∧ isBuiltIn x = false := by
  cases n with
  | loop => cases h; exact .inl rfl
  | other => cases h; exact .inl rfl
  | scale => exact .inl (by rw [warn_constants h])
  | constant name value =>
    unfold leaf at h
    obtain ⟨nm, h1, h⟩ := bind_ok h
    split at h
    · cases h; exact .inl rfl
    split at h
    · exact .inl (by rw [warn_constants h])
    rename_i h3
    obtain ⟨s, -, h⟩ := bind_ok h
    obtain ⟨v, -, h⟩ := bind_ok h
    cases h
    by_cases hx : x = nm
    · subst hx; exact .inr ⟨name, rfl, h1, by simpa using h3⟩
    · exact .inl (by simp [put, hx])
  | quantity name value unit type =>
    unfold leaf at h
    obtain ⟨nm, h1, h⟩ := bind_ok h
    split at h
    · cases h; exact .inl rfl
    split at h
    · exact .inl (by rw [warn_constants h])
    rename_i h3
    obtain ⟨s, -, h⟩ := bind_ok h
    obtain ⟨v, -, h⟩ := bind_ok h
    obtain ⟨d1, hd, h⟩ := bind_ok h
    obtain ⟨u, -, h⟩ := bind_ok h
    have hc : d1.constants = d.constants := by
      split at hd
      · exact warn_constants hd
      · cases hd; rfl
    have hd' : d'.constants = put d1.constants nm (v * u) := by
      revert h
      cases (resolveType type unit).1 with
      | none => intro h; cases h; rfl
      | some t => intro h; cases h; rfl
    by_cases hx : x = nm
    · subst hx; exact .inr ⟨name, rfl, h1, by simpa using h3⟩
    · exact .inl (by simp [hd', put, hx, hc])
  | position name unit a b c =>
    unfold leaf at h
    obtain ⟨nm, h1, h⟩ := bind_ok h
    split at h
    · cases h; exact .inl rfl
    obtain ⟨_, -, h⟩ := bind_ok h
    obtain ⟨_, -, h⟩ := bind_ok h
    obtain ⟨_, -, h⟩ := bind_ok h
    obtain ⟨_, -, h⟩ := bind_ok h
    obtain ⟨_, -, h⟩ := bind_ok h
    obtain ⟨_, -, h⟩ := bind_ok h
    cases h; exact .inl rfl
  | rotation name unit a b c =>
    unfold leaf at h
    obtain ⟨nm, h1, h⟩ := bind_ok h
    split at h
    · cases h; exact .inl rfl
    obtain ⟨_, -, h⟩ := bind_ok h
    obtain ⟨_, -, h⟩ := bind_ok h
    obtain ⟨_, -, h⟩ := bind_ok h
    obtain ⟨_, -, h⟩ := bind_ok h
    obtain ⟨_, -, h⟩ := bind_ok h
    obtain ⟨_, -, h⟩ := bind_ok h
    cases h; exact .inl rfl
  | matrix name coldim values =>
    unfold leaf at h
    obtain ⟨nm, h1, h⟩ := bind_ok h
    split at h
    · cases h; exact .inl rfl
    obtain ⟨_, -, h⟩ := bind_ok h
    split at h
    · cases h; exact .inl rfl
    · cases h; exact .inl rfl

theorem forEach_keeps {body : Data → Res Data} {var x : String} (hx : var ≠ x)
    (hb : ∀ d d', body d = .ok d' → d'.constants x = d.constants x) : ∀ (vs : List ℚ) (d d' : Data),
    forEach body var vs d = .ok d' → d'.constants x = d.constants x
  | [], d, d', h => by cases h; rfl
  | v :: vs, d, d', h => by
    obtain ⟨d1, h1, h2⟩ := bind_ok h
    rw [forEach_keeps hx hb vs d1 d' h2, hb _ _ h1]
    simp [put, Ne.symm hx]

mutual
theorem exec_keeps {C : Calls} {strict inLoop : Bool} {x : String} : ∀ (n : Node), Avoids C x n → ∀ d d',
    exec C strict inLoop n d = .ok d' → d'.constants x = d.constants x
  | .loop var start stop step body, ha, d, d', h => by
    rw [Avoids] at ha
    rw [exec] at h
    split at h
    · rw [warn_constants h]
    obtain ⟨b, -, h⟩ := bind_ok h
    split at h
    · cases h; rfl
    exact forEach_keeps ha.1 (fun d d' h => execAll_keeps body ha.2 d d' h) _ _ _ h
  | .constant name value, ha, d, d', h => by
    rw [Avoids] at ha
    rw [exec] at h
    rcases leaf_constants h x with h | ⟨nm, h1, h2, -⟩
    · exact h
    · cases h1; exact absurd h2 (ha d)
  | .quantity name value unit type, ha, d, d', h => by
    rw [Avoids] at ha
    rw [exec] at h
    rcases leaf_constants h x with h | ⟨nm, h1, h2, -⟩
    · exact h
    · cases h1; exact absurd h2 (ha d)
  | .position .., _, d, d', h => by
    rw [exec] at h
    rcases leaf_constants h x with h | ⟨nm, h1, -⟩
    · exact h
    · cases h1
  | .rotation .., _, d, d', h => by
    rw [exec] at h
    rcases leaf_constants h x with h | ⟨nm, h1, -⟩
    · exact h
    · cases h1
  | .matrix .., _, d, d', h => by
    rw [exec] at h
    rcases leaf_constants h x with h | ⟨nm, h1, -⟩
    · exact h
    · cases h1
  | .scale .., _, d, d', h => by
    rw [exec] at h
    rcases leaf_constants h x with h | ⟨nm, h1, -⟩
    · exact h
    · cases h1
  | .other, _, d, d', h => by
    rw [exec] at h
    rcases leaf_constants h x with h | ⟨nm, h1, -⟩
    · exact h
    · cases h1
theorem execAll_keeps {C : Calls} {strict inLoop : Bool} {x : String} : ∀ (ns : List Node), AvoidsAll C x ns → ∀ d d',
    execAll C strict inLoop ns d = .ok d' → d'.constants x = d.constants x
  | [], _, d, d', h => by rw [execAll] at h; cases h; rfl
  | n :: ns, ha, d, d', h => by
    rw [AvoidsAll] at ha
    rw [execAll] at h
    obtain ⟨d1, h1, h2⟩ := bind_ok h
    rw [execAll_keeps ns ha.2 d1 d' h2, exec_keeps n ha.1 d d1 h1]
end

/-! ## Runs of the machine -/

/-- The machine gets from `m` to `r`. -/
def Goes (C : Calls) (strict : Bool) (m : Mach) (r : Res (Mach ⊕ Data)) : Prop := ∃ k, rounds C strict k m = r

variable {C : Calls} {strict : Bool}

theorem goes_refl (m : Mach) : Goes C strict m (.ok (.inl m)) := ⟨0, rfl⟩

theorem goes_step {m m' : Mach} {r : Res (Mach ⊕ Data)} (h : step C strict m = .ok (.inl m')) (hr : Goes C strict m' r) :
    Goes C strict m r := by
  obtain ⟨k, hk⟩ := hr
  exact ⟨k + 1, by rw [rounds, h]; exact hk⟩

theorem goes_stop {m : Mach} {r : Res (Mach ⊕ Data)} (h : step C strict m = r) (hr : ∀ m', r ≠ .ok (.inl m')) : Goes C strict m r := by
  refine ⟨1, ?_⟩
  rw [rounds, h]
  split
  · exact absurd rfl (hr _)
  · rfl

theorem rounds_add (j : Nat) : ∀ (k : Nat) (m m' : Mach), rounds C strict k m = .ok (.inl m') →
    rounds C strict (k + j) m = rounds C strict j m'
  | 0, m, m', h => by cases h; rw [Nat.zero_add]
  | k + 1, m, m', h => by
    rw [rounds] at h
    rw [Nat.succ_add, rounds]
    split at h
    · exact rounds_add j k _ _ h
    · rename_i h'
      exact absurd h (h' _)

theorem goes_trans {m m' : Mach} {r : Res (Mach ⊕ Data)} (h : Goes C strict m (.ok (.inl m'))) (hr : Goes C strict m' r) :
    Goes C strict m r := by
  obtain ⟨k, hk⟩ := h
  obtain ⟨j, hj⟩ := hr
  exact ⟨k + j, by rw [rounds_add j k m m' hk, hj]⟩

/-- Continue with a machine when the result is data. -/
def lift (r : Res Data) (f : Data → Mach) : Res (Mach ⊕ Data) :=
  match r with
  | .ok d => .ok (.inl (f d))
  | .throws e => .throws e
  | .ub => .ub

theorem lift_bind {m : Mach} {x : Res Data} {g : Data → Res Data} {f f' : Data → Mach} (h : Goes C strict m (lift x f))
    (h' : ∀ d, x = .ok d → Goes C strict (f d) (lift (g d) f')) : Goes C strict m (lift (x >>= g) f') := by
  cases x with
  | ok d => exact goes_trans h (h' d rfl)
  | throws e => exact h
  | ub => exact h

/-- The iterations of a loop, given that the body is run correctly. -/
theorem sim_iter {var : String} {t s : ℚ} {body : List Node} (hs : s ≠ 0) (hav : AvoidsAll C var body) (rest : List Frame) (depth : Nat)
    (hb : ∀ d, Goes C strict ⟨⟨body, some ⟨var, t, s, body⟩⟩ :: rest, depth + 1, d⟩
      (lift (execAll C strict true body d) fun d' => ⟨⟨[], some ⟨var, t, s, body⟩⟩ :: rest, depth + 1, d'⟩)) :
    ∀ (n : Nat) (v : ℚ) (d : Data), (∀ k : Nat, k < n + 1 ↔ inRange (v + k * s) t s) →
      Goes C strict ⟨⟨body, some ⟨var, t, s, body⟩⟩ :: rest, depth + 1, { d with constants := put d.constants var v }⟩
        (lift (forEach (execAll C strict true body) var (List.iterate (· + s) v (n + 1)) d) fun d' => ⟨rest, depth, d'⟩)
  | n, v, d, hn => by
    rw [List.iterate, forEach]
    refine lift_bind (hb _) fun d1 h1 => ?_
    have hk : d1.constants var = some v := by
      rw [execAll_keeps body hav _ _ h1]; simp [put]
    have h1' := hn 1
    rw [Nat.cast_one, one_mul] at h1'
    cases n with
    | zero =>
      rw [List.iterate, forEach]
      refine goes_step ?_ (goes_refl _)
      simp only [step, hk, Option.getD_some]
      rw [if_neg (fun h => absurd (h1'.2 h) (by omega))]
      rfl
    | succ n =>
      refine goes_step ?_ (sim_iter hs hav rest depth hb n (v + s) d1 fun k => ?_)
      · simp only [step, hk, Option.getD_some]
        rw [if_pos (h1'.1 (by omega))]
      · have := hn (k + 1)
        push_cast at this
        rw [show v + ((k : ℚ) + 1) * s = v + s + k * s by ring] at this
        rw [← this]
        omega

theorem bounds_step {d : Data} {var a b c : String} {r : ℚ × ℚ × ℚ} (h : bounds C d var a b c = .ok r) : r.2.2 ≠ 0 := by
  unfold bounds at h
  obtain ⟨f, -, h⟩ := bind_ok h
  obtain ⟨t, -, h⟩ := bind_ok h
  obtain ⟨s, -, h⟩ := bind_ok h
  cases h
  dsimp only
  split
  · exact one_ne_zero
  · assumption

theorem leaf_step {n : Node} (hn : ∀ a b c e f, n ≠ .loop a b c e f) (ns : List Node) (l : Option LoopInfo) (rest : List Frame) (depth : Nat)
    (d : Data) : step C strict ⟨⟨n :: ns, l⟩ :: rest, depth, d⟩ =
      lift (leaf C strict (decide (0 < depth)) n d) fun d' => ⟨⟨ns, l⟩ :: rest, depth, d'⟩ := by
  cases n with
  | loop a b c e f => exact absurd rfl (hn a b c e f)
  | _ => simp only [step]; cases leaf C strict (decide (0 < depth)) _ d <;> rfl

theorem leaf_goes {n : Node} (hn : ∀ a b c e f, n ≠ .loop a b c e f) (ns : List Node) (l : Option LoopInfo) (rest : List Frame) (depth : Nat)
    (d : Data) : Goes C strict ⟨⟨n :: ns, l⟩ :: rest, depth, d⟩
      (lift (leaf C strict (decide (0 < depth)) n d) fun d' => ⟨⟨ns, l⟩ :: rest, depth, d'⟩) := by
  have h := leaf_step (C := C) (strict := strict) hn ns l rest depth d
  cases hl : leaf C strict (decide (0 < depth)) n d with
  | ok d' => rw [hl] at h; exact goes_step h (goes_refl _)
  | throws e => rw [hl] at h; exact goes_stop h (by intro m h; cases h)
  | ub => rw [hl] at h; exact goes_stop h (by intro m h; cases h)

mutual
theorem sim_node : ∀ (n : Node), Steady C n → ∀ (ns : List Node) (l : Option LoopInfo) (rest : List Frame) (depth : Nat) (d : Data),
    rest.length + 1 + loopDepth n ≤ 64 → Goes C strict ⟨⟨n :: ns, l⟩ :: rest, depth, d⟩
      (lift (exec C strict (decide (0 < depth)) n d) fun d' => ⟨⟨ns, l⟩ :: rest, depth, d'⟩)
  | .loop var a b c body, hw, ns, l, rest, depth, d, hd => by
    rw [Steady] at hw
    rw [loopDepth] at hd
    have h64 : ¬ 64 ≤ (⟨.loop var a b c body :: ns, l⟩ :: rest : List Frame).length := by
      rw [List.length_cons]; omega
    rw [exec]
    by_cases hbi : isBuiltIn var = true
    · rw [if_pos hbi]
      have h : step C strict ⟨⟨.loop var a b c body :: ns, l⟩ :: rest, depth, d⟩ =
          lift (warn strict d) fun d' => ⟨⟨ns, l⟩ :: rest, depth, d'⟩ := by
        simp only [step]
        rw [if_neg h64, if_pos hbi]
        cases warn strict d <;> rfl
      cases hl : warn strict d with
      | ok d' => rw [hl] at h; exact goes_step h (goes_refl _)
      | throws e => rw [hl] at h; exact goes_stop h (by intro m h; cases h)
      | ub => rw [hl] at h; exact goes_stop h (by intro m h; cases h)
    rw [if_neg hbi]
    cases hb : bounds C d var a b c with
    | throws e =>
      refine goes_stop ?_ (by intro m h; cases h)
      simp only [step]
      rw [if_neg h64, if_neg hbi, hb]; rfl
    | ub =>
      refine goes_stop ?_ (by intro m h; cases h)
      simp only [step]
      rw [if_neg h64, if_neg hbi, hb]; rfl
    | ok r =>
      obtain ⟨f, t, s⟩ := r
      have hs : s ≠ 0 := bounds_step hb
      have hc := count_iff f t hs
      rw [Res.ok_bind]
      dsimp only
      by_cases hnil : body = []
      · rw [if_pos hnil]
        refine goes_step ?_ (goes_refl _)
        simp only [step]
        rw [if_neg h64, if_neg hbi, hb, Res.ok_bind, if_pos (.inr hnil)]; rfl
      rw [if_neg hnil, loopValues]
      obtain ⟨N, hN⟩ : ∃ N, N = (⌊((if s > 0 then t + tol else t - tol) - f) / s⌋ + 1).toNat := ⟨_, rfl⟩
      rw [← hN] at hc ⊢
      by_cases hr : inRange f t s
      · obtain ⟨n, rfl⟩ : ∃ n, N = n + 1 := ⟨N - 1, by have := (hc 0).2 (by simpa using hr); omega⟩
        refine goes_step ?_ (sim_iter hs hw.1 (⟨ns, l⟩ :: rest) depth (fun d => ?_) n f d hc)
        · simp only [step]
          rw [if_neg h64, if_neg hbi, hb, Res.ok_bind, if_neg (by simp [hr, hnil])]; rfl
        · have := sim_list body hw.2 (some ⟨var, t, s, body⟩) (⟨ns, l⟩ :: rest) (depth + 1) d (by rw [List.length_cons]; omega)
          simpa using this
      · obtain rfl : N = 0 := by
          by_contra hne
          exact hr (by simpa using (hc 0).1 (by omega))
        refine goes_step ?_ (goes_refl _)
        simp only [step]
        rw [if_neg h64, if_neg hbi, hb, Res.ok_bind, if_pos (.inl hr)]; rfl
  | .constant .., _, ns, l, rest, depth, d, _ => by rw [exec]; exact leaf_goes (by intros; simp) ns l rest depth d
  | .quantity .., _, ns, l, rest, depth, d, _ => by rw [exec]; exact leaf_goes (by intros; simp) ns l rest depth d
  | .position .., _, ns, l, rest, depth, d, _ => by rw [exec]; exact leaf_goes (by intros; simp) ns l rest depth d
  | .rotation .., _, ns, l, rest, depth, d, _ => by rw [exec]; exact leaf_goes (by intros; simp) ns l rest depth d
  | .matrix .., _, ns, l, rest, depth, d, _ => by rw [exec]; exact leaf_goes (by intros; simp) ns l rest depth d
  | .scale .., _, ns, l, rest, depth, d, _ => by rw [exec]; exact leaf_goes (by intros; simp) ns l rest depth d
  | .other, _, ns, l, rest, depth, d, _ => by rw [exec]; exact leaf_goes (by intros; simp) ns l rest depth d
theorem sim_list : ∀ (ns : List Node), SteadyAll C ns → ∀ (l : Option LoopInfo) (rest : List Frame) (depth : Nat) (d : Data),
    rest.length + 1 + loopDepthAll ns ≤ 64 → Goes C strict ⟨⟨ns, l⟩ :: rest, depth, d⟩
      (lift (execAll C strict (decide (0 < depth)) ns d) fun d' => ⟨⟨[], l⟩ :: rest, depth, d'⟩)
  | [], _, l, rest, depth, d, _ => by rw [execAll]; exact goes_refl _
  | n :: ns, hw, l, rest, depth, d, hd => by
    rw [SteadyAll] at hw
    rw [loopDepthAll] at hd
    rw [execAll]
    exact lift_bind (sim_node n hw.1 ns l rest depth d (by omega)) fun d1 _ => sim_list ns hw.2 l rest depth d1 (by omega)
end

theorem execAll_append (C : Calls) (strict inLoop : Bool) (b : List Node) : ∀ (a : List Node) (d : Data),
    execAll C strict inLoop (a ++ b) d = (execAll C strict inLoop a d >>= execAll C strict inLoop b)
  | [], d => by rw [List.nil_append, execAll]; rfl
  | n :: a, d => by
    rw [List.cons_append, execAll, execAll]
    cases exec C strict inLoop n d with
    | ok d1 => exact execAll_append C strict inLoop b a d1
    | throws e => rfl
    | ub => rfl

theorem sim_sections : ∀ (secs : List (List Node)) (d : Data), (∀ s ∈ secs, SteadyAll C s ∧ secs.length + loopDepthAll s ≤ 64) →
    Goes C strict (start secs d) (lift (execAll C strict false secs.flatten d) fun d' => ⟨[], 0, d'⟩)
  | [], d, _ => by rw [List.flatten_nil, execAll]; exact goes_refl _
  | s :: secs, d, h => by
    rw [List.flatten_cons, execAll_append]
    have h1 := h s (by simp)
    have := sim_list (strict := strict) s h1.1 none (secs.map fun s => ⟨s, none⟩) 0 d (by
      rw [List.length_map]; have := h1.2; rw [List.length_cons] at this; omega)
    refine lift_bind this fun d1 _ => goes_step (by rfl) (sim_sections secs d1 fun s' hs' => ?_)
    have h2 := h s' (by simp [hs'])
    rw [List.length_cons] at h2
    exact ⟨h2.1, by omega⟩

theorem rounds_stop {r : Res (Mach ⊕ Data)} (hr : ∀ m', r ≠ .ok (.inl m')) (j : Nat) : ∀ (k : Nat) (m : Mach),
    rounds C strict k m = r → rounds C strict (k + j) m = r
  | 0, m, h => absurd h.symm (by rw [rounds]; exact hr m)
  | k + 1, m, h => by
    rw [rounds] at h
    rw [Nat.succ_add, rounds]
    split at h
    · exact rounds_stop hr j k _ h
    · rename_i h'
      exact h

theorem ends_unique {m : Mach} {r r' : Res Data} (h : Ends C strict m r) (h' : Ends C strict m r') : r = r' := by
  obtain ⟨k, hk⟩ := h
  obtain ⟨j, hj⟩ := h'
  have h1 := rounds_stop (r := _) (by intro m'; cases r <;> simp) j k m hk
  have h2 := rounds_stop (r := _) (by intro m'; cases r' <;> simp) k j m hj
  rw [Nat.add_comm, h1] at h2
  cases r <;> cases r' <;> simp_all

/-- C112: the definitions of a file are those of its sections read one after the other, every loop as its body once for each value:
`ResolveDefineInOrder` ends, with exactly this result (data, exception or undefined behaviour), for every file in which no loop assigns
its own variable and in which sections and nesting of loops are at most 64 together. -/
theorem C112_document_order (sections : List (List Node)) (d : Data)
    (h : ∀ s ∈ sections, SteadyAll C s ∧ sections.length + loopDepthAll s ≤ 64) (r : Res Data) :
    Ends C strict (start sections d) r ↔ r = execAll C strict false sections.flatten d := by
  have key : Ends C strict (start sections d) (execAll C strict false sections.flatten d) := by
    have := sim_sections (strict := strict) sections d h
    cases hx : execAll C strict false sections.flatten d with
    | ok d' =>
      rw [hx] at this
      exact goes_trans this (goes_stop rfl (by intro m h; cases h))
    | throws e => rw [hx] at this; exact this
    | ub => rw [hx] at this; exact this
  exact ⟨fun hr => ends_unique hr key, fun hr => hr ▸ key⟩

/-- C112: a loop takes the values `from + k * step` that have not passed `to` (by more than `1e-9`), in order. -/
theorem C112_loop_values (f t : ℚ) {s : ℚ} (hs : s ≠ 0) :
    (∀ v, v ∈ loopValues f t s ↔ (∃ k : Nat, v = f + k * s) ∧ if 0 < s then v ≤ t + 1e-9 else t - 1e-9 ≤ v) ∧
      ∀ i (hi : i < (loopValues f t s).length), (loopValues f t s)[i] = f + i * s := by
  have hin : ∀ v, inRange v t s ↔ if 0 < s then v ≤ t + 1e-9 else t - 1e-9 ≤ v := fun v => Iff.rfl
  refine ⟨fun v => ?_, fun i hi => ?_⟩
  · rw [loopValues, mem_iterate, ← hin]
    constructor
    · rintro ⟨k, hk, rfl⟩
      exact ⟨⟨k, rfl⟩, (count_iff f t hs k).1 hk⟩
    · rintro ⟨⟨k, rfl⟩, h⟩
      exact ⟨k, (count_iff f t hs k).2 h, rfl⟩
  · have key : ∀ (n : Nat) (f : ℚ) (i : Nat) (hi : i < (List.iterate (· + s) f n).length), (List.iterate (· + s) f n)[i] = f + i * s := by
      intro n
      induction n with
      | zero => intro f i hi; simp [List.iterate] at hi
      | succ n ih =>
        intro f i hi
        rcases i with _ | i
        · simp [List.iterate]
        · simp only [List.iterate, List.getElem_cons_succ]
          rw [ih]
          push_cast
          ring
    exact key _ f i hi

/-! ## Built-in names -/

/-- Loop frames never have a built-in variable, and built-in constants have their values. -/
def Builtin (m : Mach) : Prop :=
  (∀ f ∈ m.stack, ∀ l, f.loop = some l → isBuiltIn l.var = false) ∧ ∀ x, isBuiltIn x = true → m.data.constants x = builtIn x

theorem builtin_put {d : Data} (h : ∀ x, isBuiltIn x = true → d.constants x = builtIn x) {var : String} (hv : isBuiltIn var = false) (v : ℚ) :
    ∀ x, isBuiltIn x = true → put d.constants var v x = builtIn x := by
  intro x hx
  have : x ≠ var := by rintro rfl; rw [hv] at hx; cases hx
  simp [put, this, h x hx]

theorem builtin_leaf {n : Node} {inLoop : Bool} {d d' : Data} (h : ∀ x, isBuiltIn x = true → d.constants x = builtIn x)
    (hl : leaf C strict inLoop n d = .ok d') : ∀ x, isBuiltIn x = true → d'.constants x = builtIn x := by
  intro x hx
  rcases leaf_constants hl x with h' | ⟨_, -, -, h'⟩
  · rw [h', h x hx]
  · rw [h'] at hx; cases hx

theorem builtin_step {m : Mach} (h : Builtin m) :
    (∀ m', step C strict m = .ok (.inl m') → Builtin m') ∧
      ∀ d, step C strict m = .ok (.inr d) → ∀ x, isBuiltIn x = true → d.constants x = builtIn x := by
  obtain ⟨stack, depth, d⟩ := m
  obtain ⟨h1, h2⟩ := h
  dsimp only at h1 h2
  rcases stack with _ | ⟨⟨_ | ⟨n, ns⟩, l⟩, rest⟩
  · refine ⟨fun m' hm => ?_, fun d' hm => ?_⟩
    · simp [step] at hm
    · simp only [step] at hm; cases hm; exact h2
  · have hrest : ∀ f ∈ rest, ∀ l, f.loop = some l → isBuiltIn l.var = false := fun f hf => h1 f (by simp [hf])
    rcases l with _ | l
    · refine ⟨fun m' hm => ?_, fun d' hm => ?_⟩
      · simp only [step] at hm; cases hm; exact ⟨hrest, h2⟩
      · simp [step] at hm
    · have hl := h1 ⟨[], some l⟩ (by simp) l rfl
      refine ⟨fun m' hm => ?_, fun d' hm => ?_⟩
      · simp only [step] at hm
        split at hm
        · cases hm
          refine ⟨fun f hf l' hl' => ?_, builtin_put h2 hl _⟩
          simp only [List.mem_cons] at hf
          rcases hf with rfl | hf
          · cases hl'; exact hl
          · exact hrest f hf l' hl'
        · cases hm; exact ⟨hrest, h2⟩
      · simp only [step] at hm
        split at hm <;> cases hm
  · have htop : ∀ f ∈ (⟨ns, l⟩ :: rest : List Frame), ∀ l, f.loop = some l → isBuiltIn l.var = false := by
      intro f hf l' hl'
      simp only [List.mem_cons] at hf
      rcases hf with rfl | hf
      · exact h1 ⟨n :: ns, l⟩ (by simp) l' hl'
      · exact h1 f (by simp [hf]) l' hl'
    by_cases hn : ∀ a b c e f, n ≠ .loop a b c e f
    · rw [leaf_step hn]
      refine ⟨fun m' hm => ?_, fun d' hm => ?_⟩
      · cases hx : leaf C strict (decide (0 < depth)) n d with
        | ok d1 => rw [hx] at hm; cases hm; exact ⟨htop, builtin_leaf h2 hx⟩
        | throws e => rw [hx] at hm; cases hm
        | ub => rw [hx] at hm; cases hm
      · cases hx : leaf C strict (decide (0 < depth)) n d <;> rw [hx] at hm <;> cases hm
    · push Not at hn
      obtain ⟨var, a, b, c, body, rfl⟩ := hn
      refine ⟨fun m' hm => ?_, fun d' hm => ?_⟩
      · simp only [step] at hm
        split at hm
        · cases hm; exact ⟨htop, h2⟩
        split at hm
        · obtain ⟨d1, hd1, hm⟩ := bind_ok hm
          cases hm
          exact ⟨htop, by dsimp only; rw [warn_constants hd1]; exact h2⟩
        · rename_i hbi
          obtain ⟨r, -, hm⟩ := bind_ok hm
          have hbi : isBuiltIn var = false := by simpa using hbi
          split at hm
          · cases hm; exact ⟨htop, h2⟩
          · cases hm
            refine ⟨fun f hf l' hl' => ?_, builtin_put h2 hbi _⟩
            simp only [List.mem_cons] at hf
            rcases hf with rfl | hf
            · cases hl'; exact hbi
            · exact htop f (by simpa using hf) l' hl'
      · simp only [step] at hm
        split at hm
        · cases hm
        split at hm
        · obtain ⟨d1, hd1, hm⟩ := bind_ok hm
          cases hm
        · obtain ⟨r, -, hm⟩ := bind_ok hm
          split at hm <;> cases hm

/-- C112: whatever a file defines, and also while it is being read, the built-in constants keep their values. No condition on the file. -/
theorem C112_builtins (sections : List (List Node)) (d : Data) (hd : ∀ x v, builtIn x = some v → d.constants x = some v) (k : Nat) :
    ∀ x v, builtIn x = some v →
      (∀ m, rounds C strict k (start sections d) = .ok (.inl m) → m.data.constants x = some v) ∧
      ∀ d', rounds C strict k (start sections d) = .ok (.inr d') → d'.constants x = some v := by
  have key : ∀ (k : Nat) (m : Mach), Builtin m →
      (∀ m', rounds C strict k m = .ok (.inl m') → Builtin m') ∧
        ∀ d', rounds C strict k m = .ok (.inr d') → ∀ x, isBuiltIn x = true → d'.constants x = builtIn x := by
    intro k
    induction k with
    | zero =>
      intro m hm
      exact ⟨fun m' h => by cases h; exact hm, fun d' h => by cases h⟩
    | succ k ih =>
      intro m hm
      have hs := builtin_step (C := C) (strict := strict) hm
      rw [rounds]
      cases hx : step C strict m with
      | ok r =>
        cases r with
        | inl m1 => exact ih m1 (hs.1 m1 hx)
        | inr d1 => exact ⟨fun m' h => (by cases h), fun d' h => by cases h; exact hs.2 _ hx⟩
      | throws e => exact ⟨fun m' h => (by cases h), fun d' h => by cases h⟩
      | ub => exact ⟨fun m' h => (by cases h), fun d' h => by cases h⟩
  have h0 : Builtin (start sections d) := by
    refine ⟨fun f hf l hl => ?_, fun x hx => ?_⟩
    · simp only [start, List.mem_map] at hf
      obtain ⟨s, -, rfl⟩ := hf
      cases hl
    · obtain ⟨v, hv⟩ := Option.isSome_iff_exists.1 hx
      rw [hv]; exact hd x v hv
  intro x v hv
  have hx : isBuiltIn x = true := by rw [isBuiltIn, hv]; rfl
  refine ⟨fun m hm => ?_, fun d' hm => ?_⟩
  · rw [((key k _ h0).1 m hm).2 x hx, hv]
  · rw [(key k _ h0).2 d' hm x hx, hv]

end Siren.Gdml.Define
