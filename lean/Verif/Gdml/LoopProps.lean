import Verif.Gdml.LoopWords
import Verif.Gdml.DefineProps

set_option autoImplicit false

/-! # C120: loops in the sections of a GDML file are unrolled -/

namespace Siren.Gdml.Loop

open Siren Siren.Gdml
open Siren.Gdml.Define (put digits inRange loopValues count_iff tol)

/-! ## Specification -/

mutual
/-- Number of levels of an element. -/
def height : Node → Nat
  | .elem _ _ children => 1 + heightAll children
/-- Number of levels of a sequence. -/
def heightAll : List Node → Nat
  | [] => 0
  | n :: ns => max (height n) (heightAll ns)
end

/-- Copies of a body for a sequence of values, one after the other. -/
def copyAll (C : Calls) (var : String) (body : List Node) : List ℚ → State → Res (List Node × State)
  | [], st => .ok ([], st)
  | v :: vs, st => do
      let r ← cloneAll C var (valueText C v) body { st with constants := put st.constants var v }
      let rs ← copyAll C var body vs r.2
      pure (r.1 ++ rs.1, rs.2)

/-- The copies of the body of a loop: more than 10000 are refused. -/
def repeated (C : Calls) (var : String) (body : List Node) (vs : List ℚ) (st : State) : Res (List Node × State) :=
  if vs.length ≤ 10000 then copyAll C var body vs st
  else do
    let _ ← copyAll C var body (vs.take 10000) st
    .throws .runtimeError

mutual
theorem clone_height {C : Calls} {var val : String} : ∀ (n : Node) (st : State) (r : Node × State), clone C var val n st = .ok r →
    height r.1 = height n
  | .elem tag attrs children, st, r, h => by
    rw [clone] at h
    obtain ⟨a, -, h⟩ := Define.bind_ok h
    obtain ⟨c, hc, h⟩ := Define.bind_ok h
    cases h
    rw [height, height, cloneAll_height children _ _ hc]
theorem cloneAll_height {C : Calls} {var val : String} : ∀ (ns : List Node) (st : State) (r : List Node × State),
    cloneAll C var val ns st = .ok r → heightAll r.1 = heightAll ns
  | [], st, r, h => by cases h; rfl
  | n :: ns, st, r, h => by
    rw [cloneAll] at h
    obtain ⟨a, ha, h⟩ := Define.bind_ok h
    obtain ⟨c, hc, h⟩ := Define.bind_ok h
    cases h
    rw [heightAll, heightAll, clone_height n _ _ ha, cloneAll_height ns _ _ hc]
end

theorem heightAll_append (b : List Node) : ∀ (a : List Node), heightAll (a ++ b) = max (heightAll a) (heightAll b)
  | [] => by simp [heightAll]
  | n :: a => by rw [List.cons_append, heightAll, heightAll, heightAll_append b a, max_assoc]

theorem copyAll_height {C : Calls} {var : String} {body : List Node} : ∀ (vs : List ℚ) (st : State) (r : List Node × State),
    copyAll C var body vs st = .ok r → heightAll r.1 ≤ heightAll body
  | [], st, r, h => by cases h; simp [heightAll]
  | v :: vs, st, r, h => by
    rw [copyAll] at h
    obtain ⟨a, ha, h⟩ := Define.bind_ok h
    obtain ⟨c, hc, h⟩ := Define.bind_ok h
    cases h
    rw [heightAll_append, cloneAll_height _ _ _ ha]
    exact max_le le_rfl (copyAll_height vs _ _ hc)

theorem repeated_ok {C : Calls} {var : String} {body : List Node} {vs : List ℚ} {st : State} {r : List Node × State}
    (h : repeated C var body vs st = .ok r) : copyAll C var body vs st = .ok r := by
  unfold repeated at h
  split at h
  · exact h
  · obtain ⟨_, -, h⟩ := Define.bind_ok h
    cases h

/-- Meaning of a sequence of elements: elements other than loops stay, with their children unrolled. A loop over a built-in name is
left out. Any other loop stands for the copies of its body, one for each value from `from` to `to`, and these are unrolled in turn. -/
def unroll (C : Calls) : List Node → State → Res (List Node × State)
  | [], st => .ok ([], st)
  | .elem tag attrs children :: ns, st =>
    if tag = "loop" then
      if isBuiltIn (attrVal attrs "for") then unroll C ns st
      else match bounds C st attrs with
        | .ok b => match _h : repeated C (attrVal attrs "for") children (loopValues b.1 b.2.1 b.2.2) st with
          | .ok r => match unroll C r.1 r.2 with
            | .ok r1 => match unroll C ns r1.2 with
              | .ok r2 => .ok (r1.1 ++ r2.1, r2.2)
              | .throws e => .throws e
              | .ub => .ub
            | .throws e => .throws e
            | .ub => .ub
          | .throws e => .throws e
          | .ub => .ub
        | .throws e => .throws e
        | .ub => .ub
    else match unroll C children st with
      | .ok r1 => match unroll C ns r1.2 with
        | .ok r2 => .ok (.elem tag attrs r1.1 :: r2.1, r2.2)
        | .throws e => .throws e
        | .ub => .ub
      | .throws e => .throws e
      | .ub => .ub
termination_by ns => (heightAll ns, ns.length)
decreasing_by
  all_goals simp only [heightAll, height, List.length_cons, Prod.lex_def]
  · omega
  · have := copyAll_height _ _ _ (repeated_ok _h)
    omega
  · omega
  · omega
  · omega

mutual
/-- How deeply elements are nested that are not loops and not empty. -/
def depth : Node → Nat
  | .elem tag _ children => if tag = "loop" then depthAll children else if children.isEmpty then 0 else 1 + depthAll children
/-- The same for a sequence. -/
def depthAll : List Node → Nat
  | [] => 0
  | n :: ns => max (depth n) (depthAll ns)
end

mutual
/-- No element is a loop. -/
def LoopFree : Node → Prop
  | .elem tag _ children => tag ≠ "loop" ∧ LoopFreeAll children
/-- No element of the sequence is a loop. -/
def LoopFreeAll : List Node → Prop
  | [] => True
  | n :: ns => LoopFree n ∧ LoopFreeAll ns
end

/-- What becomes of the text of an attribute in a copy: brackets are evaluated, then words equal to the variable are replaced. -/
def TextCopy (C : Calls) (constants : String → Option ℚ) (var val : String) (s s' : String) : Prop :=
  ∃ b e, brackets (C.eval constants) none s.toList = .ok (b, e) ∧ s'.toList = replaceWord var.toList val.toList b

mutual
/-- An element and its copy: the same tags and names of attributes, and texts copied one by one. -/
def Copy (C : Calls) (constants : String → Option ℚ) (var val : String) : Node → Node → Prop
  | .elem tag attrs children, .elem tag' attrs' children' =>
    tag' = tag ∧ List.Forall₂ (fun a a' => a'.1 = a.1 ∧ TextCopy C constants var val a.2 a'.2) attrs attrs' ∧
      CopyAll C constants var val children children'
/-- The same for a sequence. -/
def CopyAll (C : Calls) (constants : String → Option ℚ) (var val : String) : List Node → List Node → Prop
  | [], [] => True
  | n :: ns, n' :: ns' => Copy C constants var val n n' ∧ CopyAll C constants var val ns ns'
  | _, _ => False
end

/-! ## Equations -/

variable {C : Calls}

theorem unroll_nil (st : State) : unroll C [] st = .ok ([], st) := by rw [unroll]

theorem unroll_elem {tag : String} (ht : tag ≠ "loop") (attrs : List (String × String)) (children ns : List Node) (st : State) :
    unroll C (.elem tag attrs children :: ns) st = (do
      let r1 ← unroll C children st
      let r2 ← unroll C ns r1.2
      pure (.elem tag attrs r1.1 :: r2.1, r2.2)) := by
  rw [unroll, if_neg ht]
  cases unroll C children st with
  | ok r1 => rw [Res.ok_bind]; dsimp only; cases unroll C ns r1.2 <;> rfl
  | throws e => rfl
  | ub => rfl

theorem unroll_builtin {attrs : List (String × String)} (hb : isBuiltIn (attrVal attrs "for") = true) (children ns : List Node) (st : State) :
    unroll C (.elem "loop" attrs children :: ns) st = unroll C ns st := by
  rw [unroll, if_pos rfl, if_pos hb]

theorem unroll_loop {attrs : List (String × String)} (hb : isBuiltIn (attrVal attrs "for") = false) (children ns : List Node) (st : State) :
    unroll C (.elem "loop" attrs children :: ns) st = (do
      let b ← bounds C st attrs
      let r ← repeated C (attrVal attrs "for") children (loopValues b.1 b.2.1 b.2.2) st
      let r1 ← unroll C r.1 r.2
      let r2 ← unroll C ns r1.2
      pure (r1.1 ++ r2.1, r2.2)) := by
  rw [unroll, if_pos rfl, if_neg (by simp [hb])]
  cases bounds C st attrs with
  | throws e => rfl
  | ub => rfl
  | ok b =>
    rw [Res.ok_bind]
    dsimp only
    split
    · rename_i r h
      rw [h, Res.ok_bind]
      cases unroll C r.1 r.2 with
      | throws e => rfl
      | ub => rfl
      | ok r1 => rw [Res.ok_bind]; dsimp only; cases unroll C ns r1.2 <;> rfl
    · rename_i h; rw [h]; rfl
    · rename_i h; rw [h]; rfl

/-! ## The copies of a body -/

theorem copies_eq {var : String} {body : List Node} {t s : ℚ} (hs : s ≠ 0) : ∀ (n : Nat) (f : ℚ) (st : State),
    copies C var body t s n f st =
      (if (loopValues f t s).length ≤ n then copyAll C var body (loopValues f t s) st
       else do
        let _ ← copyAll C var body ((loopValues f t s).take n) st
        .throws .runtimeError) := by
  have hv : ∀ f, inRange f t s → loopValues f t s = f :: loopValues (f + s) t s := by
    intro f hf
    have hc := count_iff f t hs
    have hc' := count_iff (f + s) t hs
    unfold loopValues
    obtain ⟨N, hN⟩ : ∃ N, N = (⌊((if s > 0 then t + tol else t - tol) - f) / s⌋ + 1).toNat := ⟨_, rfl⟩
    obtain ⟨M, hM⟩ : ∃ M, M = (⌊((if s > 0 then t + tol else t - tol) - (f + s)) / s⌋ + 1).toNat := ⟨_, rfl⟩
    rw [← hN] at hc ⊢
    rw [← hM] at hc' ⊢
    have hNM : N = M + 1 := by
      have h0 : 0 < N := (hc 0).2 (by simpa using hf)
      have h1 : ∀ k, k < M ↔ k + 1 < N := by
        intro k
        rw [hc', hc]
        push_cast
        rw [show f + s + k * s = f + (k + 1) * s by ring]
      have a := h1 M
      have b := h1 (N - 1)
      have c := h1 (N - 2)
      omega
    rw [hNM, List.iterate]
  have hnil : ∀ f, ¬ inRange f t s → loopValues f t s = [] := by
    intro f hf
    have hc := count_iff f t hs 0
    unfold loopValues
    obtain ⟨N, hN⟩ : ∃ N, N = (⌊((if s > 0 then t + tol else t - tol) - f) / s⌋ + 1).toNat := ⟨_, rfl⟩
    rw [← hN] at hc ⊢
    have : N = 0 := by
      by_contra h
      exact hf (by simpa using hc.1 (by omega))
    rw [this]; rfl
  intro n
  induction n with
  | zero =>
    intro f st
    rw [copies]
    by_cases hf : inRange f t s
    · rw [if_pos hf, hv f hf, if_neg (by simp), List.take_zero, copyAll]; rfl
    · rw [if_neg hf, hnil f hf, if_pos (by simp), copyAll]
  | succ n ih =>
    intro f st
    rw [copies]
    by_cases hf : inRange f t s
    · rw [if_pos hf, hv f hf]
      simp only [List.length_cons, Nat.add_le_add_iff_right, List.take_succ_cons, copyAll, ih]
      cases cloneAll C var (valueText C f) body { st with constants := put st.constants var f } with
      | throws e => simp
      | ub => simp
      | ok r =>
        simp only [Res.ok_bind]
        split
        · rfl
        · cases copyAll C var body ((loopValues (f + s) t s).take n) r.2 <;> rfl
    · rw [if_neg hf, hnil f hf, if_pos (by simp), copyAll]

theorem bounds_step {st : State} {attrs : List (String × String)} {b : ℚ × ℚ × ℚ} (h : bounds C st attrs = .ok b) : b.2.2 ≠ 0 := by
  unfold bounds at h
  obtain ⟨f, -, h⟩ := Define.bind_ok h
  obtain ⟨t, -, h⟩ := Define.bind_ok h
  obtain ⟨s, -, h⟩ := Define.bind_ok h
  cases h
  dsimp only
  split
  · exact one_ne_zero
  · assumption

mutual
theorem clone_depth {var val : String} : ∀ (n : Node) (st : State) (r : Node × State), clone C var val n st = .ok r →
    depth r.1 = depth n
  | .elem tag attrs children, st, r, h => by
    rw [clone] at h
    obtain ⟨a, -, h⟩ := Define.bind_ok h
    obtain ⟨c, hc, h⟩ := Define.bind_ok h
    cases h
    have hd := cloneAll_depth children _ _ hc
    have hn : c.1 = [] ↔ children = [] := by
      cases children with
      | nil => rw [cloneAll] at hc; cases hc; simp
      | cons n ns =>
        rw [cloneAll] at hc
        obtain ⟨a, -, h⟩ := Define.bind_ok hc
        obtain ⟨c, hc, h⟩ := Define.bind_ok h
        cases h
        simp
    simp only [depth]
    rw [hd, Bool.eq_iff_iff.mpr (show c.1.isEmpty = true ↔ children.isEmpty = true by simpa using hn)]
theorem cloneAll_depth {var val : String} : ∀ (ns : List Node) (st : State) (r : List Node × State),
    cloneAll C var val ns st = .ok r → depthAll r.1 = depthAll ns
  | [], st, r, h => by cases h; rfl
  | n :: ns, st, r, h => by
    rw [cloneAll] at h
    obtain ⟨a, ha, h⟩ := Define.bind_ok h
    obtain ⟨c, hc, h⟩ := Define.bind_ok h
    cases h
    rw [depthAll, depthAll, clone_depth n _ _ ha, cloneAll_depth ns _ _ hc]
end

theorem depthAll_append (b : List Node) : ∀ (a : List Node), depthAll (a ++ b) = max (depthAll a) (depthAll b)
  | [] => by simp [depthAll]
  | n :: a => by rw [List.cons_append, depthAll, depthAll, depthAll_append b a, max_assoc]

theorem copyAll_depth {var : String} {body : List Node} : ∀ (vs : List ℚ) (st : State) (r : List Node × State),
    copyAll C var body vs st = .ok r → depthAll r.1 ≤ depthAll body
  | [], st, r, h => by cases h; simp [depthAll]
  | v :: vs, st, r, h => by
    rw [copyAll] at h
    obtain ⟨a, ha, h⟩ := Define.bind_ok h
    obtain ⟨c, hc, h⟩ := Define.bind_ok h
    cases h
    rw [depthAll_append, cloneAll_depth _ _ _ ha]
    exact max_le le_rfl (copyAll_depth vs _ _ hc)

theorem substAttrs_copy {var val : String} (hne : var ≠ "") (hv : ∀ c ∈ var.toList, isIdChar c = true) :
    ∀ (as : List (String × String)) (st : State) (r : List (String × String) × State), substAttrs C var val as st = .ok r →
    List.Forall₂ (fun a a' => a'.1 = a.1 ∧ TextCopy C st.constants var val a.2 a'.2) as r.1 ∧ r.2.constants = st.constants
  | [], st, r, h => by cases h; exact ⟨.nil, rfl⟩
  | (k, v) :: as, st, r, h => by
    rw [substAttrs] at h
    obtain ⟨a, ha, h⟩ := Define.bind_ok h
    obtain ⟨b, hb, h⟩ := Define.bind_ok h
    cases h
    unfold subst at ha
    obtain ⟨x, hx, ha⟩ := Define.bind_ok ha
    rw [if_neg hne] at ha
    cases ha
    obtain ⟨h1, h2⟩ := substAttrs_copy hne hv as _ _ hb
    refine ⟨.cons ⟨rfl, x.1, x.2, hx, ?_⟩ h1, h2⟩
    rw [String.toList_ofList]
    exact C120_words _ _ _ (by simpa using hne) hv

mutual
theorem clone_copy {var val : String} (hne : var ≠ "") (hv : ∀ c ∈ var.toList, isIdChar c = true) :
    ∀ (n : Node) (st : State) (r : Node × State), clone C var val n st = .ok r →
    Copy C st.constants var val n r.1 ∧ r.2.constants = st.constants
  | .elem tag attrs children, st, r, h => by
    rw [clone] at h
    obtain ⟨a, ha, h⟩ := Define.bind_ok h
    obtain ⟨c, hc, h⟩ := Define.bind_ok h
    cases h
    obtain ⟨h1, h2⟩ := substAttrs_copy hne hv _ _ _ ha
    obtain ⟨h3, h4⟩ := cloneAll_copy hne hv children _ _ hc
    rw [h2] at h3 h4
    exact ⟨⟨rfl, h1, h3⟩, h4⟩
theorem cloneAll_copy {var val : String} (hne : var ≠ "") (hv : ∀ c ∈ var.toList, isIdChar c = true) :
    ∀ (ns : List Node) (st : State) (r : List Node × State), cloneAll C var val ns st = .ok r →
    CopyAll C st.constants var val ns r.1 ∧ r.2.constants = st.constants
  | [], st, r, h => by cases h; exact ⟨trivial, rfl⟩
  | n :: ns, st, r, h => by
    rw [cloneAll] at h
    obtain ⟨a, ha, h⟩ := Define.bind_ok h
    obtain ⟨c, hc, h⟩ := Define.bind_ok h
    cases h
    obtain ⟨h1, h2⟩ := clone_copy hne hv n _ _ ha
    obtain ⟨h3, h4⟩ := cloneAll_copy hne hv ns _ _ hc
    rw [h2] at h3 h4
    exact ⟨⟨h1, h3⟩, h4⟩
end

/-- C120: the copies of a body are one after the other, one for each value, and in each one the variable has this value, with which
brackets are evaluated and whose text replaces the variable. -/
theorem C120_copies {var : String} (hne : var ≠ "") (hv : ∀ c ∈ var.toList, isIdChar c = true) (body : List Node) :
    ∀ (vs : List ℚ) (st : State) (r : List Node × State), copyAll C var body vs st = .ok r →
    ∃ cs : List (List Node), r.1 = cs.flatten ∧ List.Forall₂ (fun v c => CopyAll C
      (fun x => if x = var then some v else st.constants x) var (valueText C v) body c) vs cs
  | [], st, r, h => by cases h; exact ⟨[], rfl, .nil⟩
  | v :: vs, st, r, h => by
    rw [copyAll] at h
    obtain ⟨a, ha, h⟩ := Define.bind_ok h
    obtain ⟨c, hc, h⟩ := Define.bind_ok h
    cases h
    obtain ⟨h1, h2⟩ := cloneAll_copy hne hv body _ _ ha
    obtain ⟨cs, h3, h4⟩ := C120_copies hne hv body vs _ _ hc
    refine ⟨a.1 :: cs, by simp [h3], .cons h1 ?_⟩
    rw [h2] at h4
    convert h4 using 5 with v' c'
    rename_i x
    by_cases hx : x = var <;> simp [put, hx]

/-- C120: an integer value is written as such. -/
theorem C120_value_text (k : ℤ) (hk : |k| < 10 ^ 15) : valueText C k = toString k := by
  unfold valueText
  rw [if_pos ⟨by simp, by exact_mod_cast hk⟩, Int.floor_intCast]

/-- C120: the bounds of a loop are its attributes; without `from` it starts at the present value of its variable, or 0; without `step`, or
with 0, the step is 1. -/
theorem C120_bounds (st : State) {x a b c : String} {f t s : ℚ} (ha : a ≠ "") (hb : b ≠ "") (hc : c ≠ "")
    (hf : C.strtod a = some (.ok f)) (ht : C.strtod b = some (.ok t)) (hs : C.strtod c = some (.ok s)) :
    bounds C st [("for", x), ("from", a), ("to", b), ("step", c)] = .ok (f, t, if s = 0 then 1 else s) ∧
    bounds C st [("for", x), ("from", a), ("to", b)] = .ok (f, t, 1) ∧
    bounds C st [("for", x), ("to", b), ("step", c)] = .ok ((st.constants x).getD 0, t, if s = 0 then 1 else s) ∧
    attrVal [("for", x), ("from", a), ("to", b), ("step", c)] "for" = x := by
  refine ⟨?_, ?_, ?_, ?_⟩ <;> simp [bounds, attrVal, parseDouble, ha, hb, hc, hf, ht, hs]

/-! ## The stack -/

/-- The stack and the state. -/
abbrev Mach := List Frame × State

/-- The machine gets from `m` to `r`. -/
def Goes (C : Calls) (m : Mach) (r : Res (Mach ⊕ (Node × State))) : Prop := ∃ k, rounds C k m = r

theorem goes_refl (m : Mach) : Goes C m (.ok (.inl m)) := ⟨0, rfl⟩

theorem goes_step {m m' : Mach} {r : Res (Mach ⊕ (Node × State))} (h : step C m = .ok (.inl m')) (hr : Goes C m' r) : Goes C m r := by
  obtain ⟨k, hk⟩ := hr
  exact ⟨k + 1, by rw [rounds, h]; exact hk⟩

theorem goes_stop {m : Mach} {r : Res (Mach ⊕ (Node × State))} (h : step C m = r) (hr : ∀ m', r ≠ .ok (.inl m')) : Goes C m r := by
  refine ⟨1, ?_⟩
  rw [rounds, h]
  split
  · exact absurd rfl (hr _)
  · rfl

theorem rounds_add (j : Nat) : ∀ (k : Nat) (m m' : Mach), rounds C k m = .ok (.inl m') → rounds C (k + j) m = rounds C j m'
  | 0, m, m', h => by cases h; rw [Nat.zero_add]
  | k + 1, m, m', h => by
    rw [rounds] at h
    rw [Nat.succ_add, rounds]
    split at h
    · exact rounds_add j k _ _ h
    · rename_i h'
      exact absurd h (h' _)

theorem goes_trans {m m' : Mach} {r : Res (Mach ⊕ (Node × State))} (h : Goes C m (.ok (.inl m'))) (hr : Goes C m' r) : Goes C m r := by
  obtain ⟨k, hk⟩ := h
  obtain ⟨j, hj⟩ := hr
  exact ⟨k + j, by rw [rounds_add j k m m' hk, hj]⟩

/-- Continue with a machine when there is a result. -/
def lift {α : Type} (r : Res α) (f : α → Mach) : Res (Mach ⊕ (Node × State)) :=
  match r with
  | .ok d => .ok (.inl (f d))
  | .throws e => .throws e
  | .ub => .ub

theorem lift_bind {α β : Type} {m : Mach} {x : Res α} {g : α → Res β} {f : α → Mach} {f' : β → Mach} (h : Goes C m (lift x f))
    (h' : ∀ d, x = .ok d → Goes C (f d) (lift (g d) f')) : Goes C m (lift (x >>= g) f') := by
  cases x with
  | ok d => exact goes_trans h (h' d rfl)
  | throws e => exact h
  | ub => exact h

/-- One step that ends in a result, an exception or undefined behaviour. -/
theorem lift_step {α : Type} {m : Mach} {x : Res α} {f : α → Mach} (h : step C m = lift x f) : Goes C m (lift x f) := by
  cases x with
  | ok d => exact goes_step h (goes_refl _)
  | throws e => exact goes_stop h (by intro m h; cases h)
  | ub => exact goes_stop h (by intro m h; cases h)

theorem sim : ∀ (ns : List Node) (st : State) (tag : String) (attrs : List (String × String)) (before tl : List Node) (rest : List Frame),
    rest.length + 1 + depthAll ns ≤ 64 →
    Goes C (⟨tag, attrs, before, ns ++ tl⟩ :: rest, st)
      (lift (unroll C ns st) fun r => (⟨tag, attrs, r.1.reverse ++ before, tl⟩ :: rest, r.2))
  | [], st, tag, attrs, before, tl, rest, _ => by
    rw [unroll_nil]; exact goes_refl _
  | .elem t as ch :: ns, st, tag, attrs, before, tl, rest, hd => by
    rw [depthAll] at hd
    have h64 : ¬ (⟨tag, attrs, before, .elem t as ch :: ns ++ tl⟩ :: rest : List Frame).length > 64 := by
      rw [List.length_cons]; omega
    by_cases ht : t = "loop"
    · subst ht
      have hd1 : depth (.elem "loop" as ch) = depthAll ch := by simp [depth]
      cases hb : isBuiltIn (attrVal as "for") with
      | true =>
        rw [unroll_builtin hb]
        refine goes_step (m' := (⟨tag, attrs, before, ns ++ tl⟩ :: rest, st)) ?_ (sim ns st tag attrs before tl rest (by omega))
        simp only [step]
        rw [if_neg h64]
        simp [hb]
      | false =>
        rw [unroll_loop hb]
        have hst : step C (⟨tag, attrs, before, .elem "loop" as ch :: ns ++ tl⟩ :: rest, st) =
            lift (do
              let b ← bounds C st as
              repeated C (attrVal as "for") ch (loopValues b.1 b.2.1 b.2.2) st)
            fun r => (⟨tag, attrs, before, r.1 ++ (ns ++ tl)⟩ :: rest, r.2) := by
          simp only [step]
          rw [if_neg h64]
          simp only [List.cons_append, ne_eq, not_true_eq_false, if_false, hb, Bool.false_eq_true]
          cases hbd : bounds C st as with
          | throws e => rfl
          | ub => rfl
          | ok b =>
            simp only [Res.ok_bind]
            rw [copies_eq (bounds_step hbd)]
            unfold repeated
            split
            · cases copyAll C (attrVal as "for") ch (loopValues b.1 b.2.1 b.2.2) st <;> rfl
            · cases copyAll C (attrVal as "for") ch ((loopValues b.1 b.2.1 b.2.2).take 10000) st <;> rfl
        have assoc : (do
            let b ← bounds C st as
            let r ← repeated C (attrVal as "for") ch (loopValues b.1 b.2.1 b.2.2) st
            let r1 ← unroll C r.1 r.2
            let r2 ← unroll C ns r1.2
            pure (r1.1 ++ r2.1, r2.2) : Res (List Node × State)) =
          ((do
            let b ← bounds C st as
            repeated C (attrVal as "for") ch (loopValues b.1 b.2.1 b.2.2) st) >>= fun r =>
          (unroll C r.1 r.2 >>= fun r1 => (unroll C ns r1.2 >>= fun r2 => pure (r1.1 ++ r2.1, r2.2)))) := by
          cases bounds C st as <;> rfl
        rw [assoc]
        refine lift_bind (lift_step hst) fun r hr => ?_
        obtain ⟨b, hb1, hr⟩ := Define.bind_ok hr
        have hdr := copyAll_depth _ _ _ (repeated_ok hr)
        have hhr := copyAll_height _ _ _ (repeated_ok hr)
        refine lift_bind (sim r.1 r.2 tag attrs before (ns ++ tl) rest (by omega)) fun r1 _ => ?_
        refine lift_bind (sim ns r1.2 tag attrs _ tl rest (by omega)) fun r2 _ => ?_
        simpa [lift] using goes_refl _
    · rw [unroll_elem ht]
      by_cases hch : ch = []
      · refine goes_step (m' := (⟨tag, attrs, .elem t as [] :: before, ns ++ tl⟩ :: rest, st)) ?_ ?_
        · simp only [step]
          rw [if_neg h64, hch]
          simp [ht]
        · rw [hch, unroll_nil, Res.ok_bind]
          refine lift_bind (sim ns st tag attrs _ tl rest (by omega)) fun r2 _ => ?_
          simpa [lift] using goes_refl _
      · have hd1 : depth (.elem t as ch) = 1 + depthAll ch := by simp [depth, ht, hch]
        refine goes_step (m' := (⟨t, as, [], ch⟩ :: ⟨tag, attrs, before, ns ++ tl⟩ :: rest, st)) ?_ ?_
        · simp only [step]
          rw [if_neg h64]
          cases ch with
          | nil => exact absurd rfl hch
          | cons x xs => simp [ht]
        · have h1 := sim ch st t as [] [] (⟨tag, attrs, before, ns ++ tl⟩ :: rest) (by rw [List.length_cons]; omega)
          rw [List.append_nil] at h1
          refine lift_bind h1 fun r1 _ => ?_
          refine goes_step (m' := (⟨tag, attrs, .elem t as r1.1 :: before, ns ++ tl⟩ :: rest, r1.2)) ?_ ?_
          · simp [step, pop, Frame.node]
          · refine lift_bind (sim ns r1.2 tag attrs _ tl rest (by omega)) fun r2 _ => ?_
            simpa [lift] using goes_refl _
termination_by ns => (heightAll ns, ns.length)
decreasing_by
  all_goals simp only [heightAll, height, List.length_cons, Prod.lex_def]
  all_goals omega

theorem rounds_stop {r : Res (Mach ⊕ (Node × State))} (hr : ∀ m', r ≠ .ok (.inl m')) (j : Nat) : ∀ (k : Nat) (m : Mach),
    rounds C k m = r → rounds C (k + j) m = r
  | 0, m, h => absurd h.symm (by rw [rounds]; exact hr m)
  | k + 1, m, h => by
    rw [rounds] at h
    rw [Nat.succ_add, rounds]
    split at h
    · exact rounds_stop hr j k _ h
    · rename_i h'
      exact h

theorem ends_unique {root : Node} {st : State} {r r' : Res (Node × State)} (h : Ends C root st r) (h' : Ends C root st r') : r = r' := by
  obtain ⟨k, hk⟩ := h
  obtain ⟨j, hj⟩ := h'
  have h1 := rounds_stop (r := _) (by intro m'; cases r <;> simp) j k _ hk
  have h2 := rounds_stop (r := _) (by intro m'; cases r' <;> simp) k j _ hj
  rw [Nat.add_comm, h1] at h2
  cases r <;> cases r' <;> simp_all

/-- C120: `ExpandLoops` ends, and its result is the file with all loops unrolled, for every file whose elements are nested at most 64
deep. -/
theorem C120_unrolled (tag : String) (attrs : List (String × String)) (children : List Node) (st : State) (hd : depthAll children ≤ 63)
    (r : Res (Node × State)) :
    Ends C (.elem tag attrs children) st r ↔ r = (do
      let x ← unroll C children st
      pure (.elem tag attrs x.1, x.2)) := by
  have key : Ends C (.elem tag attrs children) st (do
      let x ← unroll C children st
      pure (.elem tag attrs x.1, x.2)) := by
    have := sim (C := C) children st tag attrs [] [] [] (by simp only [List.length_nil]; omega)
    rw [List.append_nil] at this
    cases hx : unroll C children st with
    | ok d =>
      rw [hx] at this
      refine goes_trans this (goes_stop (r := .ok (.inr (.elem tag attrs d.1, d.2))) ?_ (by intro m h; cases h))
      simp [step, pop, Frame.node]
    | throws e => rw [hx] at this; exact this
    | ub => rw [hx] at this; exact this
  exact ⟨fun hr => ends_unique hr key, fun hr => hr ▸ key⟩

theorem loopFreeAll_append (b : List Node) : ∀ (a : List Node), LoopFreeAll (a ++ b) ↔ LoopFreeAll a ∧ LoopFreeAll b
  | [] => by simp [LoopFreeAll]
  | n :: a => by rw [List.cons_append, LoopFreeAll, LoopFreeAll, loopFreeAll_append b a, and_assoc]

theorem unroll_loopFree : ∀ (ns : List Node) (st : State) (r : List Node × State), unroll C ns st = .ok r → LoopFreeAll r.1
  | [], st, r, h => by rw [unroll_nil] at h; cases h; trivial
  | .elem t as ch :: ns, st, r, h => by
    by_cases ht : t = "loop"
    · subst ht
      cases hb : isBuiltIn (attrVal as "for") with
      | true => rw [unroll_builtin hb] at h; exact unroll_loopFree ns st r h
      | false =>
        rw [unroll_loop hb] at h
        obtain ⟨b, -, h⟩ := Define.bind_ok h
        obtain ⟨c, hc, h⟩ := Define.bind_ok h
        obtain ⟨r1, h1, h⟩ := Define.bind_ok h
        obtain ⟨r2, h2, h⟩ := Define.bind_ok h
        cases h
        have hh := copyAll_height _ _ _ (repeated_ok hc)
        exact (loopFreeAll_append _ _).2 ⟨unroll_loopFree c.1 _ _ h1, unroll_loopFree ns _ _ h2⟩
    · rw [unroll_elem ht] at h
      obtain ⟨r1, h1, h⟩ := Define.bind_ok h
      obtain ⟨r2, h2, h⟩ := Define.bind_ok h
      cases h
      exact ⟨⟨ht, unroll_loopFree ch _ _ h1⟩, unroll_loopFree ns _ _ h2⟩
termination_by ns => (heightAll ns, ns.length)
decreasing_by
  all_goals simp only [heightAll, height, List.length_cons, Prod.lex_def]
  all_goals omega

theorem unroll_free : ∀ (ns : List Node) (st : State), LoopFreeAll ns → unroll C ns st = .ok (ns, st)
  | [], st, _ => unroll_nil st
  | .elem t as ch :: ns, st, h => by
    rw [LoopFreeAll, LoopFree] at h
    rw [unroll_elem h.1.1, unroll_free ch st h.1.2, Res.ok_bind, unroll_free ns st h.2]; rfl

/-- C120: no loop is left in the file. -/
theorem C120_no_loops {tag : String} {attrs : List (String × String)} {children : List Node} {st : State}
    (hd : depthAll children ≤ 63) {tag' : String} {attrs' : List (String × String)} {children' : List Node} {st' : State}
    (h : Ends C (.elem tag attrs children) st (.ok (.elem tag' attrs' children', st'))) :
    tag' = tag ∧ attrs' = attrs ∧ LoopFreeAll children' := by
  rw [C120_unrolled tag attrs children st hd] at h
  obtain ⟨x, hx, h⟩ := Define.bind_ok h.symm
  cases h
  exact ⟨rfl, rfl, unroll_loopFree _ _ _ hx⟩

/-- C120: a file without loops is not changed. -/
theorem C120_unchanged (tag : String) (attrs : List (String × String)) {children : List Node} (st : State)
    (hd : depthAll children ≤ 63) (hf : LoopFreeAll children) : Ends C (.elem tag attrs children) st (.ok (.elem tag attrs children, st)) := by
  rw [C120_unrolled tag attrs children st hd, unroll_free _ _ hf]; rfl

/-- C120: a loop whose body has no loops, over a variable that is not built in, is replaced by the copies of its body for the values of
C112, unless there are more than 10000. -/
theorem C120_loop {attrs : List (String × String)} (hb : isBuiltIn (attrVal attrs "for") = false) {st : State} {f t s : ℚ}
    (hbd : bounds C st attrs = .ok (f, t, s)) (body : List Node) (hn : (loopValues f t s).length ≤ 10000)
    {c : List Node × State} (hc : copyAll C (attrVal attrs "for") body (loopValues f t s) st = .ok c) (hf : LoopFreeAll c.1) (ns : List Node) :
    unroll C (.elem "loop" attrs body :: ns) st = (do
      let r ← unroll C ns c.2
      pure (c.1 ++ r.1, r.2)) := by
  rw [unroll_loop hb, hbd, Res.ok_bind, repeated, if_pos hn, hc, Res.ok_bind, unroll_free _ _ hf]; rfl

/-- C120: a loop with more than 10000 iterations is refused (or the import ends before in another way). -/
theorem C120_limit {attrs : List (String × String)} (hb : isBuiltIn (attrVal attrs "for") = false) {st : State} {f t s : ℚ}
    (hbd : bounds C st attrs = .ok (f, t, s)) (body : List Node) (hn : 10000 < (loopValues f t s).length) (ns : List Node)
    (r : List Node × State) : unroll C (.elem "loop" attrs body :: ns) st ≠ .ok r := by
  rw [unroll_loop hb, hbd, Res.ok_bind, repeated, if_neg (by simpa using hn)]
  intro h
  obtain ⟨_, h1, -⟩ := Define.bind_ok h
  obtain ⟨_, -, h2⟩ := Define.bind_ok h1
  cases h2

end Siren.Gdml.Loop
