import Verif.Gdml.LoopProps
import Verif.Gdml.ExprProps

set_option autoImplicit false

/-! # C120: cases of loops -/

namespace Siren.Gdml.Loop

open Siren Siren.Gdml

/-- Expressions that are names, numbers that are digits. -/
def calls : Calls where
  eval c s := match c s with
    | some v => .ok v
    | none => .throws .runtimeError
  strtod s := if s = "0" then some (.ok 0) else if s = "1" then some (.ok 1) else if s = "2" then some (.ok 2) else none
  format _ := "0.5"

/-- No constants; `j` declared with the value 0. -/
def empty : State := ⟨fun _ => none, 0⟩
def declared : State := ⟨fun x => if x = "j" then some 0 else none, 0⟩

/-- The `name` attributes of the children when the expansion has ended, and the number of errors. -/
def names (r : Res ((List Frame × State) ⊕ (Node × State))) : Option (List String × Nat) :=
  match r with
  | .ok (.inr (.elem _ _ ch, st)) => some (ch.map (fun | .elem _ as _ => attrVal as "name"), st.errors)
  | _ => none

/-- `<loop for="i" from="0" to="2"><volume name="v_[i]"/></loop>`. -/
def single : Node := .elem "structure" [] [.elem "loop" [("for", "i"), ("from", "0"), ("to", "2")] [.elem "volume" [("name", "v_[i]")] []]]

/-- A loop over three values. -/
example : names (rounds calls 10 (start single empty)) = some (["v_0", "v_1", "v_2"], 0) := by decide +kernel

/-- The hypotheses of `C120_unrolled` and `C120_no_loops` for it. -/
example : ∃ tag attrs children, single = .elem tag attrs children ∧ depthAll children ≤ 63 :=
  ⟨_, _, _, rfl, by simp [depthAll, depth]⟩

/-- Two loops, one in the other, with a volume `v_[i]_[j]`. -/
def nested : Node := .elem "structure" [] [.elem "loop" [("for", "i"), ("from", "0"), ("to", "1")]
  [.elem "loop" [("for", "j"), ("from", "0"), ("to", "1")] [.elem "volume" [("name", "v_[i]_[j]")] []]]]

/-- Nested loops over expressions without brackets work. -/
example : names (rounds calls 20 (start (.elem "structure" [] [.elem "loop" [("for", "i"), ("from", "0"), ("to", "1")]
    [.elem "loop" [("for", "j"), ("from", "0"), ("to", "1")] [.elem "volume" [("name", "v i j")] []]]]) empty)) =
    some (["v 0 0", "v 0 1", "v 1 0", "v 1 1"], 0) := by decide +kernel

/-- C120 fails for bracketed names in nested loops: the brackets of the inner body are evaluated while the outer loop is unrolled, when the
inner variable has no value or an old one. With `j` declared as a variable, as GDML demands, the four volumes get two names; without,
there are errors and the import fails. -/
theorem C120_nested_fails :
    names (rounds calls 20 (start nested declared)) = some (["v_0_0", "v_0_0", "v_1_0", "v_1_0"], 0) ∧
      Imports calls nested empty (.throws .runtimeError) := by
  constructor
  · decide +kernel
  · have h : (match rounds calls 20 (start nested empty) with
      | .ok (.inr r) => decide (r.2.errors = 2)
      | _ => false) = true := by decide +kernel
    split at h
    · rename_i r hr
      rw [decide_eq_true_eq] at h
      exact ⟨.ok r, ⟨20, hr⟩, by simp [h]⟩
    · cases h

/-- An element in `k` others. -/
def wrap (n : Node) : Nat → Node
  | 0 => n
  | k + 1 => .elem "box" [] [wrap n k]

/-- Whether there is a loop at the bottom of a tree of single children. -/
def bottom : Nat → Node → Bool
  | 0, .elem tag _ _ => decide (tag = "loop")
  | k + 1, .elem _ _ ch => match ch with
    | [c] => bottom k c
    | _ => false

/-- C120 fails for elements nested more deeply than 64 levels: the loop stays and there is no message. -/
theorem C120_depth_fails : ∃ r, rounds calls 200 (start (wrap (.elem "loop" [("for", "i"), ("from", "0"), ("to", "0")]
    [.elem "volume" [] []]) 65) empty) = .ok (.inr r) ∧ bottom 65 r.1 = true ∧ r.2.errors = 0 := by
  have h : (match rounds calls 200 (start (wrap (.elem "loop" [("for", "i"), ("from", "0"), ("to", "0")]
      [.elem "volume" [] []]) 65) empty) with
    | .ok (.inr r) => bottom 65 r.1 && decide (r.2.errors = 0)
    | _ => false) = true := by decide +kernel
  split at h
  · rename_i r hr
    rw [Bool.and_eq_true, decide_eq_true_eq] at h
    exact ⟨r, hr, h⟩
  · cases h

/-- C120 fails for negative values: the text of the value is put into the expression without parentheses, so `i^2` is `-1^2` for `i = -1`,
which is -1. Evaluated with the variable, as in `<define>`, it is 1. -/
theorem C120_negative_fails :
    words "i".toList (valueText calls (-1)).toList 3 none "i^2".toList = "-1^2".toList ∧
    evalExpression ExprExample.env 10 "-1^2".toList = some (.ok (-1)) ∧
    evalExpression { ExprExample.env with constants := fun n => if n = "i".toList then some (-1) else none } 10 "i^2".toList = some (.ok 1) := by
  refine ⟨?_, ?_, ?_⟩ <;> decide +kernel

/-- C120 fails for a loop without a variable: the substitution in its body never ends. -/
theorem C120_no_variable_fails (C : Calls) (val : String) (st : State) : subst C "" val st "x" = .ub := by
  simp [subst, brackets]

end Siren.Gdml.Loop
