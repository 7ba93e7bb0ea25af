import Verif.Gdml.DefineModel
import Verif.Gdml.ExprModel

set_option autoImplicit false

/-! # Loops in the other sections of a GDML file

`ExpandLoops`, `CloneNodeWithSubst` and `SubstLoopVar` (`projects/detector/private/gdml/GDMLPreprocess.cxx:303-484`): the tree of the file
is rewritten before solids, materials and volumes are read. An element is its tag, its attributes in order and its children; text between
elements is left out, nothing reads it. `EvalExpression`, `strtod` and the formatting of numbers that are not integers are parameters.
Numbers are rationals, without rounding. -/

namespace Siren.Gdml.Loop

open Siren Siren.Gdml
open Siren.Gdml.Define (put digits inRange)

/-- An XML element. -/
inductive Node where
  | elem (tag : String) (attrs : List (String × String)) (children : List Node)

/-- `EvalExpression` with constants and without matrices, `strtod` on a whole text (`none`: not a number), and `operator<<` of
`std::ostringstream` for numbers. -/
structure Calls where
  eval : (String → Option ℚ) → String → Res ℚ
  strtod : String → Option (Res ℚ)
  format : ℚ → String

/-- What the expansion changes besides the tree: the constants and the number of entries of `data.errors`. -/
structure State where
  constants : String → Option ℚ
  errors : Nat

/-- The first pass of `SubstLoopVar` (GDMLPreprocess.cxx:323-340). The second argument is the part read since an open bracket; the
result has the number of brackets that could not be evaluated. -/
def brackets (ev : String → Res ℚ) : Option (List Char) → List Char → Res (List Char × Nat)
  | none, [] => .ok ([], 0)
  | none, c :: t => if c = '[' then brackets ev (some []) t else do
      let r ← brackets ev none t
      pure (c :: r.1, r.2)
  | some acc, [] => .ok ('[' :: acc, 0)
  | some acc, c :: t =>
      if c = ']' then
        match ev (String.ofList acc) with
        | .ok v => do
            let ds ← digits v
            let r ← brackets ev none t
            pure (ds ++ r.1, r.2)
        | .throws _ => do
            let r ← brackets ev none t
            pure ('[' :: acc ++ ']' :: r.1, r.2 + 1)
        | .ub => .ub
      else brackets ev (some (acc ++ [c])) t

/-- `IsIdentChar` of a neighbour, if there is one (GDMLPreprocess.cxx:345-346). -/
def boundary : Option Char → Bool
  | none => true
  | some c => !isIdChar c

/-- The second pass of `SubstLoopVar` (GDMLPreprocess.cxx:342-353), for a name that is not empty. The arguments are the number of rounds
(the length of the text suffices), the character before the present position, and the text from there. -/
def words (var val : List Char) : Nat → Option Char → List Char → List Char
  | 0, _, s => s
  | _ + 1, _, [] => []
  | n + 1, prev, c :: t =>
      if var.isPrefixOf (c :: t) then
        let rest := (c :: t).drop var.length
        if boundary prev && boundary rest.head? then val ++ words var val n val.getLast? rest
        else var ++ words var val n var.getLast? rest
      else c :: words var val n (some c) t

/-- `SubstLoopVar` (GDMLPreprocess.cxx:315-356). With an empty name the second pass never ends: `find` succeeds everywhere, and once the
character before the position belongs to a word, the position is advanced by the length of the name. A loop without side effects that
never ends is undefined behaviour. -/
def subst (C : Calls) (var val : String) (st : State) (s : String) : Res (String × State) := do
  let r ← brackets (C.eval st.constants) none s.toList
  if var = "" then .ub
  else pure (String.ofList (words var.toList val.toList r.1.length none r.1), { st with errors := st.errors + r.2 })

/-- The loop over the attributes (GDMLPreprocess.cxx:371-377). -/
def substAttrs (C : Calls) (var val : String) : List (String × String) → State → Res (List (String × String) × State)
  | [], st => .ok ([], st)
  | (k, v) :: as, st => do
      let r ← subst C var val st v
      let rs ← substAttrs C var val as r.2
      pure ((k, r.1) :: rs.1, rs.2)

mutual
/-- `CloneNodeWithSubst` (GDMLPreprocess.cxx:360-383). -/
def clone (C : Calls) (var val : String) : Node → State → Res (Node × State)
  | .elem tag attrs children, st => do
      let a ← substAttrs C var val attrs st
      let c ← cloneAll C var val children a.2
      pure (.elem tag a.1 c.1, c.2)
/-- The loop over the children (GDMLPreprocess.cxx:379-381) and over the body of a loop (463-467). -/
def cloneAll (C : Calls) (var val : String) : List Node → State → Res (List Node × State)
  | [], st => .ok ([], st)
  | n :: ns, st => do
      let r ← clone C var val n st
      let rs ← cloneAll C var val ns r.2
      pure (r.1 :: rs.1, rs.2)
end

/-- `SafeAttrVal` (GDMLExpression.cxx:14-18): the first attribute of this name, empty if there is none. -/
def attrVal (attrs : List (String × String)) (k : String) : String := ((attrs.find? fun a => a.1 == k).map Prod.snd).getD ""

/-- `SafeParseDouble` with constants only (GDMLExpression.cxx:373-385). -/
def parseDouble (C : Calls) (st : State) (s : String) : Res ℚ :=
  if s = "" then .ok 0 else match C.strtod s with
    | some r => r
    | none => C.eval st.constants s

/-- `from`, `to` and `step` (GDMLPreprocess.cxx:431-441). -/
def bounds (C : Calls) (st : State) (attrs : List (String × String)) : Res (ℚ × ℚ × ℚ) := do
  let f ← (if attrVal attrs "from" = "" then .ok ((st.constants (attrVal attrs "for")).getD 0)
    else parseDouble C st (attrVal attrs "from") : Res ℚ)
  let t ← parseDouble C st (attrVal attrs "to")
  let s ← parseDouble C st (attrVal attrs "step")
  pure (f, t, if s = 0 then 1 else s)

/-- The text of a value (GDMLPreprocess.cxx:454-461). -/
def valueText (C : Calls) (v : ℚ) : String := if v = ⌊v⌋ ∧ |v| < 10 ^ 15 then toString ⌊v⌋ else C.format v

/-- The `for` loop (GDMLPreprocess.cxx:446-468), with the number of iterations still allowed. The copies of the body are put in front of the
loop, one after the other. -/
def copies (C : Calls) (var : String) (body : List Node) (limit step : ℚ) : Nat → ℚ → State → Res (List Node × State)
  | 0, v, st => if inRange v limit step then .throws .runtimeError else .ok ([], st)
  | n + 1, v, st =>
      if inRange v limit step then do
        let r ← cloneAll C var (valueText C v) body { st with constants := put st.constants var v }
        let rs ← copies C var body limit step n (v + step) r.2
        pure (r.1 ++ rs.1, rs.2)
      else .ok ([], st)

/-- `Frame` (GDMLPreprocess.cxx:397-400): an element whose children are walked, with the children before `current` (the last one first)
and those from `current` on. -/
structure Frame where
  tag : String
  attrs : List (String × String)
  before : List Node
  todo : List Node

/-- The element of a frame as it is at present. -/
def Frame.node (f : Frame) : Node := .elem f.tag f.attrs (f.before.reverse ++ f.todo)

/-- Removing the top of the stack: the element is a child of the element below; at the end the tree is left. -/
def pop (f : Frame) : List Frame → State → (List Frame × State) ⊕ (Node × State)
  | [], st => .inr (f.node, st)
  | g :: rest, st => .inl ({ g with before := f.node :: g.before } :: rest, st)

/-- One round of the `while` loop (GDMLPreprocess.cxx:407-477); `inr` is the end, when the stack becomes empty. -/
def step (C : Calls) (m : List Frame × State) : Res ((List Frame × State) ⊕ (Node × State)) :=
  match m.1 with
  | [] => .ok (.inl m)
  | f :: rest =>
    if (f :: rest).length > 64 then .ok (pop f rest m.2)
    else match f.todo with
      | [] => .ok (pop f rest m.2)
      | .elem tag attrs children :: ns =>
        if tag ≠ "loop" then
          match children with
          | [] => .ok (.inl ({ f with before := .elem tag attrs [] :: f.before, todo := ns } :: rest, m.2))
          | _ :: _ => .ok (.inl (⟨tag, attrs, [], children⟩ :: { f with todo := ns } :: rest, m.2))
        else if isBuiltIn (attrVal attrs "for") then .ok (.inl ({ f with todo := ns } :: rest, m.2))
        else do
          let b ← bounds C m.2 attrs
          let r ← copies C (attrVal attrs "for") children b.2.1 b.2.2 10000 b.1 m.2
          pure (.inl ({ f with todo := r.1 ++ ns } :: rest, r.2))

/-- `k` rounds. -/
def rounds (C : Calls) : Nat → List Frame × State → Res ((List Frame × State) ⊕ (Node × State))
  | 0, m => .ok (.inl m)
  | k + 1, m => match step C m with
    | .ok (.inl m') => rounds C k m'
    | r => r

/-- The stack at the start (GDMLPreprocess.cxx:402-403). -/
def start (root : Node) (st : State) : List Frame × State :=
  match root with
  | .elem tag attrs children => ([⟨tag, attrs, [], children⟩], st)

/-- `ExpandLoops` ends with `r` after some number of rounds. -/
def Ends (C : Calls) (root : Node) (st : State) (r : Res (Node × State)) : Prop :=
  ∃ k, rounds C k (start root st) = match r with
    | .ok d => .ok (.inr d)
    | .throws e => .throws e
    | .ub => .ub

/-- `ExpandLoops` as it is called, followed by `ThrowIfErrors` (GDMLParser.cxx:216-219, 19-27). -/
def Imports (C : Calls) (root : Node) (st : State) (r : Res (Node × State)) : Prop :=
  ∃ r0, Ends C root st r0 ∧ r = (do let x ← r0; if x.2.errors = 0 then pure x else .throws .runtimeError)

end Siren.Gdml.Loop
