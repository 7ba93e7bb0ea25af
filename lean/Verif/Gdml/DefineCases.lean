import Verif.Gdml.DefineProps

set_option autoImplicit false

/-! # C112 and C113: cases of `<define>` sections, and units -/

namespace Siren.Gdml.Define

open Siren Siren.Gdml

variable {C : Calls} {strict : Bool}

theorem brackets_plain (ev : String → Res ℚ) : ∀ (l : List Char), '[' ∉ l → brackets ev none l = .ok l
  | [], _ => rfl
  | c :: t, h => by
    rw [List.mem_cons, not_or] at h
    rw [brackets, if_neg (fun hc => h.1 hc.symm), brackets_plain ev t h.2]
    rfl

/-- A name without brackets stands for itself. -/
theorem resolve_plain (C : Calls) (d : Data) {s : String} (h : '[' ∉ s.toList) : resolve C d s = .ok s := by
  rw [resolve, brackets_plain _ _ h, Res.ok_bind, Res.pure_eq, String.ofList_toList]

/-! ## A loop that assigns its own variable -/

/-- `<loop for="i" from="1" to="2"><variable name="i" value="1"/></loop>`. -/
def stuck : Node := .loop "i" "1" "2" "" [.constant "i" "1"]

/-- C112 fails for a loop that assigns its own variable: the import of this file never ends. -/
theorem C112_own_variable_fails (h1 : C.strtod "1" = some (.ok 1)) (h2 : C.strtod "2" = some (.ok 2)) (d : Data) :
    ∀ r, ¬ Ends C strict (start [[stuck]] d) r := by
  have hres : ∀ d, resolve C d "i" = .ok "i" := fun d => resolve_plain C d (by decide)
  have hbi : isBuiltIn "i" = false := by decide
  have key : ∀ k, (∀ depth d rest, ∃ m, rounds C strict k
        ⟨⟨[.constant "i" "1"], some ⟨"i", 2, 1, [.constant "i" "1"]⟩⟩ :: rest, depth, d⟩ = .ok (.inl m)) ∧
      ∀ depth d rest, d.constants "i" = some 1 → ∃ m, rounds C strict k
        ⟨⟨[], some ⟨"i", 2, 1, [.constant "i" "1"]⟩⟩ :: rest, depth, d⟩ = .ok (.inl m) := by
    intro k
    induction k with
    | zero => exact ⟨fun depth d rest => ⟨_, rfl⟩, fun depth d rest _ => ⟨_, rfl⟩⟩
    | succ k ih =>
      refine ⟨fun depth d rest => ?_, fun depth d rest hd => ?_⟩
      · obtain ⟨m, hm⟩ := ih.2 depth { d with constants := put d.constants "i" 1 } rest (by simp [put])
        refine ⟨m, ?_⟩
        rw [rounds]
        have : step C strict ⟨⟨[.constant "i" "1"], some ⟨"i", 2, 1, [.constant "i" "1"]⟩⟩ :: rest, depth, d⟩ =
            .ok (.inl ⟨⟨[], some ⟨"i", 2, 1, [.constant "i" "1"]⟩⟩ :: rest, depth, { d with constants := put d.constants "i" 1 }⟩) := by
          have ha : ∀ b, attr C b d "1" = .ok "1" := by
            intro b
            unfold attr
            split
            · exact resolve_plain C d (by decide)
            · rfl
          have hp : parseDouble C d "1" = .ok 1 := by
            rw [parseDouble, if_neg (by decide), h1]
          simp [step, leaf, hres, hbi, ha, hp]
        rw [this]
        exact hm
      · obtain ⟨m, hm⟩ := ih.1 depth { d with constants := put d.constants "i" 2 } rest
        refine ⟨m, ?_⟩
        rw [rounds]
        have : step C strict ⟨⟨[], some ⟨"i", 2, 1, [.constant "i" "1"]⟩⟩ :: rest, depth, d⟩ =
            .ok (.inl ⟨⟨[.constant "i" "1"], some ⟨"i", 2, 1, [.constant "i" "1"]⟩⟩ :: rest, depth,
              { d with constants := put d.constants "i" 2 }⟩) := by
          simp only [step, hd, Option.getD_some]
          rw [if_pos (by rw [inRange, if_pos (by norm_num)]; norm_num [tol])]
          norm_num
        rw [this]
        exact hm
  have first : step C strict (start [[stuck]] d) = .ok (.inl ⟨[⟨[.constant "i" "1"], some ⟨"i", 2, 1, [.constant "i" "1"]⟩⟩, ⟨[], none⟩], 1,
      { d with constants := put d.constants "i" 1 }⟩) := by
    have hb : bounds C d "i" "1" "2" "" = .ok (1, 2, 1) := by
      simp [bounds, parseDouble, h1, h2]
    simp only [start, stuck, List.map_cons, List.map_nil, step, List.length_cons, List.length_nil]
    rw [if_neg (by omega), hbi, if_neg (by simp), hb, Res.ok_bind, if_neg]
    · rfl
    · rw [inRange, if_pos (by norm_num)]; norm_num [tol]
  rintro r ⟨k, hk⟩
  rcases k with _ | k
  · cases r <;> cases hk
  · rw [rounds, first] at hk
    obtain ⟨m, hm⟩ := (key k).1 1 { d with constants := put d.constants "i" 1 } [⟨[], none⟩]
    dsimp only at hk
    rw [hm] at hk
    cases r <;> cases hk

/-! ## Many sections -/

theorem pop_sections (d : Data) : ∀ n : Nat, Goes C strict (start (List.replicate n []) d) (.ok (.inl ⟨[], 0, d⟩))
  | 0 => goes_refl _
  | n + 1 => goes_step rfl (pop_sections d n)

/-- `<loop for="i" from="1" to="1"><constant name="a" value="1"/></loop>`. -/
def once : Node := .loop "i" "1" "1" "" [.constant "a" "1"]

/-- C112 fails for files of 64 or more sections: the loops of the first ones are skipped, without a warning. Here the first of 64 sections
defines `a` in a loop and the others are empty: after the import nothing is defined, although the file defines `a` as 1. -/
theorem C112_sections_fails (h1 : C.strtod "1" = some (.ok 1)) (d : Data) (hd : d.constants "a" = none) :
    (∃ r, Ends C strict (start ([once] :: List.replicate 63 []) d) (.ok r) ∧ r.constants "a" = none ∧ r.warnings = d.warnings) ∧
      ∃ d', execAll C strict false ([once] :: List.replicate 63 []).flatten d = .ok d' ∧ d'.constants "a" = some 1 := by
  constructor
  · have h : Goes C strict (start ([once] :: List.replicate 63 []) d) (.ok (.inl ⟨[], 0, d⟩)) := by
      refine goes_step (m' := start ([] :: List.replicate 63 []) d) ?_ (pop_sections d 64)
      simp only [start, once, List.map_cons, step]
      rw [if_pos (by simp)]
    exact ⟨d, goes_trans h (goes_stop rfl (by intro m h; cases h)), hd, rfl⟩
  · have hfl : ([once] :: List.replicate 63 []).flatten = [once] := by
      rw [List.flatten_cons]
      simp
    have hb : bounds C d "i" "1" "1" "" = .ok (1, 1, 1) := by
      simp [bounds, parseDouble, h1]
    have hv : loopValues 1 1 1 = [1] := by
      have : (⌊((if (1 : ℚ) > 0 then (1 : ℚ) + tol else 1 - tol) - 1) / 1⌋ + 1).toNat = 1 := by
        rw [if_pos (by norm_num)]
        have : ⌊((1 : ℚ) + tol - 1) / 1⌋ = 0 := by
          rw [Int.floor_eq_iff]; norm_num [tol]
        rw [this]; rfl
      rw [loopValues, this]; rfl
    rw [hfl]
    refine ⟨{ d with constants := put (put d.constants "i" 1) "a" 1 }, ?_, ?_⟩
    · have hbi : isBuiltIn "i" = false := by decide
      have hba : isBuiltIn "a" = false := by decide
      have hres : ∀ d, resolve C d "a" = .ok "a" := fun d => resolve_plain C d (by decide)
      have hres1 : ∀ d, resolve C d "1" = .ok "1" := fun d => resolve_plain C d (by decide)
      simp [execAll, exec, once, hb, hv, hbi, forEach, leaf, hres, hba, attr, hres1, parseDouble, h1]
    · simp [put]

/-! ## Example: nested loops -/

namespace Example

/-- Enough of an evaluator for the example: names of constants and the one sum. -/
def calls : Calls where
  eval := fun c _ s => if s = "s+j" then .ok ((c "s").getD 0 + (c "j").getD 0) else match c s with
    | some v => .ok v
    | none => .throws .runtimeError
  strtod := fun s => if s = "0" then some (.ok 0) else if s = "1" then some (.ok 1) else if s = "3" then some (.ok 3) else none
  stoi := fun _ => none

/-- `for i = 1..3: for j = 1..i: s = s + j`, then `t = s`. -/
def doc : List (List Node) :=
  [[.constant "s" "0", .loop "i" "1" "3" "1" [.loop "j" "1" "i" "" [.constant "s" "s+j"]]], [.constant "t" "s"]]

/-- Only the built-in constants. -/
def empty : Data := ⟨builtIn, fun _ => none, fun _ => none, fun _ => none, fun _ => none, 0⟩

theorem doc_steady : ∀ s ∈ doc, SteadyAll calls s ∧ doc.length + loopDepthAll s ≤ 64 := by
  have hs : ∀ x ∈ ["i", "j"], ∀ d, resolve calls d "s" ≠ .ok x := by
    intro x hx d
    rw [resolve_plain calls d (by decide)]
    simp only [List.mem_cons, List.not_mem_nil, or_false] at hx
    rcases hx with rfl | rfl <;> simp
  intro s hsec
  simp only [doc, List.mem_cons, List.not_mem_nil, or_false] at hsec
  rcases hsec with rfl | rfl
  · refine ⟨?_, by simp [doc, loopDepthAll, loopDepth]⟩
    simp only [SteadyAll, Steady, AvoidsAll, Avoids]
    exact ⟨trivial, ⟨⟨⟨by decide, hs "i" (by simp), trivial⟩, trivial⟩, ⟨⟨hs "j" (by simp), trivial⟩, trivial, trivial⟩, trivial⟩, trivial⟩
  · refine ⟨?_, by simp [doc, loopDepthAll, loopDepth]⟩
    simp only [SteadyAll, Steady, and_self]

/-- The file is read to its end and `t` is 1 + (1 + 2) + (1 + 2 + 3). -/
example : ∃ d, Ends calls false (start doc empty) (.ok d) ∧ d.constants "t" = some 10 := by
  have h : (match execAll calls false false doc.flatten empty with
    | .ok d => d.constants "t"
    | _ => none) = some 10 := by decide +kernel
  cases hx : execAll calls false false doc.flatten empty with
  | ok d =>
    rw [hx] at h
    exact ⟨d, (C112_document_order doc empty doc_steady _).2 hx.symm, h⟩
  | throws e => rw [hx] at h; cases h
  | ub => rw [hx] at h; cases h

/-- A loop counting down with a fractional step. -/
example : loopValues 1 0 (-1 / 2) = [1, 1 / 2, 0] := by decide +kernel

end Example

end Siren.Gdml.Define
