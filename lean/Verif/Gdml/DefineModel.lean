import Verif.Gdml.UnitModel
import Mathlib.Algebra.Order.Floor.Defs
import Mathlib.Data.Rat.Floor

set_option autoImplicit false

/-! # The `<define>` sections of a GDML file

`ResolveDefineInOrder` (`projects/detector/private/gdml/GDMLDefineParser.cxx:25-220`): an explicit stack walks the sections in document
order and runs the loops in place. The XML tree is given: an element is its tag with the text of the attributes the code reads, empty
when absent. `EvalExpression` and `strtod` are parameters (`EvalExpression` is the subject of C31). Numbers are rationals, without
rounding. -/

namespace Siren.Gdml.Define

open Siren Siren.Gdml

/-- The maps of `GDMLData` a `<define>` section writes (GDMLParser.h:67-100). A rotation is kept as its three angles: `QFromXYZs` turns
them into a quaternion. -/
structure Data where
  constants : String → Option ℚ
  matrices : String → Option (ℤ × List ℚ)
  quantityTypes : String → Option QType
  positions : String → Option (ℚ × ℚ × ℚ)
  rotations : String → Option (ℚ × ℚ × ℚ)
  warnings : Nat

/-- What the code calls: `EvalExpression` with the constants and matrices known so far, `strtod` on a whole text (`none`: not a number),
`std::stoi` (`none`: it throws). -/
structure Calls where
  eval : (String → Option ℚ) → (String → Option (ℤ × List ℚ)) → String → Res ℚ
  strtod : String → Option (Res ℚ)
  stoi : String → Option ℤ

/-- Children of a `<define>` or `<loop>` element. `values` of a matrix are the white-space separated words of the attribute. -/
inductive Node where
  | loop (var start stop step : String) (body : List Node)
  | constant (name value : String)
  | quantity (name value unit type : String)
  | position (name unit x y z : String)
  | rotation (name unit x y z : String)
  | matrix (name coldim : String) (values : List String)
  | scale (name : String)
  | other

/-- Assignment to an entry of an `unordered_map`. -/
def put {α : Type} (m : String → Option α) (k : String) (v : α) : String → Option α := fun x => if x = k then some v else m x

/-- `static_cast<long long>` and `std::to_string` (GDMLDefineParser.cxx:39-40): truncation; a value out of range is undefined. -/
def digits (v : ℚ) : Res (List Char) :=
  let i : ℤ := if 0 ≤ v then ⌊v⌋ else ⌈v⌉
  if -(2 ^ 63) ≤ i ∧ i < 2 ^ 63 then .ok (toString i).toList else .ub

/-- `resolveBrackets` (GDMLDefineParser.cxx:31-47): each bracketed part that evaluates becomes its truncated value, one that does not
stays. The second argument is the part read since an open bracket. -/
def brackets (ev : String → Res ℚ) : Option (List Char) → List Char → Res (List Char)
  | none, [] => .ok []
  | none, c :: t => if c = '[' then brackets ev (some []) t else do
      let r ← brackets ev none t
      pure (c :: r)
  | some acc, [] => .ok ('[' :: acc)
  | some acc, c :: t =>
      if c = ']' then
        match ev (String.ofList acc) with
        | .ok v => do
            let ds ← digits v
            let r ← brackets ev none t
            pure (ds ++ r)
        | .throws _ => do
            let r ← brackets ev none t
            pure ('[' :: acc ++ ']' :: r)
        | .ub => .ub
      else brackets ev (some (acc ++ [c])) t

/-- `resolveBrackets` on an attribute. -/
def resolve (C : Calls) (d : Data) (s : String) : Res String := do
  let r ← brackets (C.eval d.constants d.matrices) none s.toList
  pure (String.ofList r)

/-- `SafeParseDouble` with constants and matrices (GDMLExpression.cxx:373-385). -/
def parseDouble (C : Calls) (d : Data) (s : String) : Res ℚ :=
  if s = "" then .ok 0 else match C.strtod s with
    | some r => r
    | none => C.eval d.constants d.matrices s

/-- `ParseLength` (GDMLUnits.cxx:196-202): the matrices are not passed on. -/
def parseLength (C : Calls) (d : Data) (s unit : String) : Res ℚ :=
  if s = "" then .ok 0 else do
    let v ← C.eval d.constants (fun _ => none) s
    let u ← lengthScale unit
    pure (v * u)

/-- `ParseAngle` (GDMLUnits.cxx:219-224). -/
def parseAngle (C : Calls) (d : Data) (s unit : String) : Res ℚ :=
  if s = "" then .ok 0 else do
    let v ← C.eval d.constants (fun _ => none) s
    let u ← angleScale unit
    pure (v * u)

/-- `EmitWarning` (GDMLPreprocess.cxx:294-299). -/
def warn (strict : Bool) (d : Data) : Res Data :=
  if strict then .throws .runtimeError else .ok { d with warnings := d.warnings + 1 }

/-- Inside a loop the brackets of a value are resolved as well (GDMLDefineParser.cxx:133-139). -/
def attr (C : Calls) (inLoop : Bool) (d : Data) (s : String) : Res String := if inLoop then resolve C d s else .ok s

/-- `EvalExpression` over the words of a matrix (GDMLDefineParser.cxx:203-208). -/
def matrixValues (C : Calls) (d : Data) : List String → Res (List ℚ)
  | [] => .ok []
  | w :: ws => do
      let v ← C.eval d.constants d.matrices w
      let vs ← matrixValues C d ws
      pure (v :: vs)

/-- The branches for elements other than loops (GDMLDefineParser.cxx:124-217). -/
def leaf (C : Calls) (strict inLoop : Bool) (n : Node) (d : Data) : Res Data :=
  match n with
  | .constant name value => do
      let name ← resolve C d name
      if name = "" then .ok d
      else if isBuiltIn name then warn strict d
      else do
        let s ← attr C inLoop d value
        let v ← parseDouble C d s
        pure { d with constants := put d.constants name v }
  | .quantity name value unit type => do
      let name ← resolve C d name
      if name = "" then .ok d
      else if isBuiltIn name then warn strict d
      else do
        let s ← attr C inLoop d value
        let v ← parseDouble C d s
        let d ← (if (resolveType type unit).2 then warn strict d else .ok d : Res Data)
        let u ← quantityScale unit (resolveType type unit).1
        let d : Data := { d with constants := put d.constants name (v * u) }
        match (resolveType type unit).1 with
        | none => pure d
        | some t => pure { d with quantityTypes := put d.quantityTypes name t }
  | .position name unit x y z => do
      let name ← resolve C d name
      if name = "" then .ok d
      else do
        let x ← attr C inLoop d x
        let x ← parseLength C d x unit
        let y ← attr C inLoop d y
        let y ← parseLength C d y unit
        let z ← attr C inLoop d z
        let z ← parseLength C d z unit
        pure { d with positions := put d.positions name (x, y, z) }
  | .rotation name unit x y z => do
      let name ← resolve C d name
      if name = "" then .ok d
      else do
        let x ← attr C inLoop d x
        let x ← parseAngle C d x unit
        let y ← attr C inLoop d y
        let y ← parseAngle C d y unit
        let z ← attr C inLoop d z
        let z ← parseAngle C d z unit
        pure { d with rotations := put d.rotations name (x, y, z) }
  | .matrix name coldim values => do
      let name ← resolve C d name
      if name = "" then .ok d
      else do
        let c := if coldim = "" then 1 else (C.stoi coldim).getD 1
        let c := if c < 1 then 1 else c
        let vs ← matrixValues C d values
        if vs = [] then .ok d else pure { d with matrices := put d.matrices name (c, vs) }
  | .scale _ => warn strict d
  | .loop .. => .ok d
  | .other => .ok d

/-- The bounds of a loop (GDMLDefineParser.cxx:106-115): without `from` it starts at the present value of its variable or at 0, and a step
of 0 is 1. -/
def bounds (C : Calls) (d : Data) (var start stop step : String) : Res (ℚ × ℚ × ℚ) := do
  let f ← (if start = "" then .ok ((d.constants var).getD 0) else parseDouble C d start : Res ℚ)
  let t ← parseDouble C d stop
  let s ← parseDouble C d step
  pure (f, t, if s = 0 then 1 else s)

/-- The tolerance of the loop tests. -/
def tol : ℚ := 1e-9

/-- The loop tests (GDMLDefineParser.cxx:81-83, 118). -/
def inRange (v limit step : ℚ) : Prop := if step > 0 then v ≤ limit + tol else v ≥ limit - tol

instance (v limit step : ℚ) : Decidable (inRange v limit step) := by unfold inRange; infer_instance

/-- What a loop frame remembers (GDMLDefineParser.cxx:50-57). -/
structure LoopInfo where
  var : String
  limit : ℚ
  step : ℚ
  body : List Node

/-- `Frame` (GDMLDefineParser.cxx:50-57): the siblings still to come, and the loop if it is one. -/
structure Frame where
  current : List Node
  loop : Option LoopInfo

/-- The stack (top first), `loop_depth` and the data. -/
structure Mach where
  stack : List Frame
  depth : Nat
  data : Data

/-- One round of the `while` loop (GDMLDefineParser.cxx:73-218); `inr` is the end. -/
def step (C : Calls) (strict : Bool) (m : Mach) : Res (Mach ⊕ Data) :=
  match m.stack with
  | [] => .ok (.inr m.data)
  | ⟨[], none⟩ :: rest => .ok (.inl { m with stack := rest })
  | ⟨[], some l⟩ :: rest =>
      let next := (m.data.constants l.var).getD 0 + l.step
      if inRange next l.limit l.step then
        .ok (.inl { m with stack := ⟨l.body, some l⟩ :: rest, data := { m.data with constants := put m.data.constants l.var next } })
      else .ok (.inl { m with stack := rest, depth := m.depth - 1 })
  | ⟨.loop var start stop stp body :: ns, l⟩ :: rest =>
      let m' : Mach := { m with stack := ⟨ns, l⟩ :: rest }
      if 64 ≤ m.stack.length then .ok (.inl m')
      else if isBuiltIn var then do
        let d ← warn strict m.data
        pure (.inl { m' with data := d })
      else do
        let b ← bounds C m.data var start stop stp
        if ¬ inRange b.1 b.2.1 b.2.2 ∨ body = [] then pure (.inl m')
        else pure (.inl ⟨⟨body, some ⟨var, b.2.1, b.2.2, body⟩⟩ :: ⟨ns, l⟩ :: rest, m.depth + 1,
          { m.data with constants := put m.data.constants var b.1 }⟩)
  | ⟨n :: ns, l⟩ :: rest => do
      let d ← leaf C strict (decide (0 < m.depth)) n m.data
      pure (.inl { m with stack := ⟨ns, l⟩ :: rest, data := d })

/-- The stack at the start (GDMLDefineParser.cxx:60-69): the sections, the first on top. -/
def start (sections : List (List Node)) (d : Data) : Mach := ⟨sections.map fun s => ⟨s, none⟩, 0, d⟩

/-- `k` rounds. -/
def rounds (C : Calls) (strict : Bool) : Nat → Mach → Res (Mach ⊕ Data)
  | 0, m => .ok (.inl m)
  | k + 1, m => match step C strict m with
    | .ok (.inl m') => rounds C strict k m'
    | r => r

/-- `ResolveDefineInOrder` ends with `r` after some number of rounds. -/
def Ends (C : Calls) (strict : Bool) (m : Mach) (r : Res Data) : Prop :=
  ∃ k, rounds C strict k m = match r with
    | .ok d => .ok (.inr d)
    | .throws e => .throws e
    | .ub => .ub

end Siren.Gdml.Define
