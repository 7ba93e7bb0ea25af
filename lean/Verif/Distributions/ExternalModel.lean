import Verif.Util.Strings
import Verif.Util.Random
import Verif.Records.PrimaryModel

set_option autoImplicit false

/-!
# External events from a file

Models `distributions/private/primary/PrimaryExternalDistribution.cxx`. Strings are lists of characters. `stod` is any function that either
returns a number or throws; numbers are real.
-/

namespace Siren.Distributions

open Siren Siren.Util Siren.Records

/-- The white space of `trim` (PrimaryExternalDistribution.cxx:21-26). -/
def blank (c : Char) : Bool := c == ' ' || c == '\t' || c == '\r' || c == '\n'

/-- `trim` (PrimaryExternalDistribution.cxx:21-26). -/
def trim (s : List Char) : List Char := (s.dropWhile blank).rdropWhile blank

/-- The members of `PrimaryExternalDistribution`; `emin` is a parameter below. -/
structure External where
  keys : List (List Char)
  data : List (List ℝ)
  initPosSet : Bool
  vertexSet : Bool
  momSet : Bool

/-- The loop over the values of one row (PrimaryExternalDistribution.cxx:80-93). `cells` are the remaining values. The state has `ikey`, `passed`
and `tmp_data`. -/
noncomputable def readCells (stod : List Char → Res ℝ) (emin : ℝ) (keys : List (List Char)) :
    List (List Char) → Nat → Bool → List ℝ → Res (Nat × Bool × List ℝ)
  | [], ikey, passed, tmp => .ok (ikey, passed, tmp)
  | value :: rest, ikey, passed, tmp =>
    match keys[ikey]? with
    | none => .throws .runtimeError
    | some key =>
      (if key = "E".toList then (stod value).bind fun v => .ok (if v < emin then false else passed) else .ok passed).bind fun passed =>
      (stod value).bind fun v => readCells stod emin keys rest (ikey + 1) passed (tmp ++ [v])

/-- The loop over the lines after the header (PrimaryExternalDistribution.cxx:76-98). -/
noncomputable def readRows (stod : List Char → Res ℝ) (emin : ℝ) (keys : List (List Char)) : List (List Char) → List (List ℝ) → Res (List (List ℝ))
  | [], data => .ok data
  | line :: rest, data =>
    let trimmed := trim line
    if trimmed = [] ∨ trimmed.head? = some '#' then readRows stod emin keys rest data else
    (readCells stod emin keys (getlines ',' line) 0 true []).bind fun (ikey, passed, tmp) =>
      if ikey ≠ keys.length then .throws .runtimeError
      else readRows stod emin keys rest (if passed then data ++ [tmp] else data)

/-- Whether some, and whether all of three keys are in the header (PrimaryExternalDistribution.cxx:46-74). -/
def anyOf (keys : List (List Char)) (a b c : String) : Bool := keys.contains a.toList || keys.contains b.toList || keys.contains c.toList
def allOf (keys : List (List Char)) (a b c : String) : Bool := keys.contains a.toList && keys.contains b.toList && keys.contains c.toList

/-- `LoadInputFile` (PrimaryExternalDistribution.cxx:28-103); `none` is a file that cannot be opened. The header of an empty file is empty. -/
noncomputable def load (stod : List Char → Res ℝ) (emin : ℝ) : Option (List Char) → Res External
  | none => .throws .runtimeError
  | some text =>
    let lines := getlines '\n' text
    let keys := (getlines ',' (lines.headD [])).map trim
    let initPosSet := allOf keys "x0" "y0" "z0"
    let vertexSet := allOf keys "x" "y" "z"
    let momSet := allOf keys "px" "py" "pz"
    if anyOf keys "x0" "y0" "z0" && !initPosSet then .throws .runtimeError
    else if anyOf keys "x" "y" "z" && !vertexSet then .throws .runtimeError
    else if anyOf keys "px" "py" "pz" && !momSet then .throws .runtimeError
    else (readRows stod emin keys lines.tail []).bind fun data =>
      if data = [] then .throws .runtimeError else .ok ⟨keys, data, initPosSet, vertexSet, momSet⟩

/-- The record that is filled: the kinematics and the interaction parameters. -/
structure Filled where
  record : Prim
  parameter : List Char → Option ℝ

/-- Three numbers that start uninitialised (PrimaryExternalDistribution.cxx:127-129). -/
structure Triple where
  x : Option ℝ
  y : Option ℝ
  z : Option ℝ

/-- Reading all three; an uninitialised one is undefined behaviour. -/
def Triple.read (t : Triple) : Res (Vec3 ℝ) :=
  match t.x, t.y, t.z with
  | some x, some y, some z => .ok ⟨x, y, z⟩
  | _, _, _ => .ub

/-- The state of the loop in `Sample`. -/
structure Filling where
  out : Filled
  initial : Triple
  vertex : Triple
  momentum : Triple

/-- One round of the loop (PrimaryExternalDistribution.cxx:131-170). -/
noncomputable def fillKey (s : Filling) (key : List Char) (v : ℝ) : Filling :=
  if key = "x0".toList then { s with initial := { s.initial with x := some v } }
  else if key = "y0".toList then { s with initial := { s.initial with y := some v } }
  else if key = "z0".toList then { s with initial := { s.initial with z := some v } }
  else if key = "x".toList then { s with vertex := { s.vertex with x := some v } }
  else if key = "y".toList then { s with vertex := { s.vertex with y := some v } }
  else if key = "z".toList then { s with vertex := { s.vertex with z := some v } }
  else if key = "px".toList then { s with momentum := { s.momentum with x := some v } }
  else if key = "py".toList then { s with momentum := { s.momentum with y := some v } }
  else if key = "pz".toList then { s with momentum := { s.momentum with z := some v } }
  else if key = "t0".toList then { s with out := { s.out with record := { s.out.record with initialTime := v } } }
  else if key = "E".toList then { s with out := { s.out with record := { s.out.record with energy := .given v } } }
  else if key = "m".toList then { s with out := { s.out with record := { s.out.record with mass := .given v } } }
  else { s with out := { s.out with parameter := fun k => if k = key then some v else s.out.parameter k } }

/-- The loop over the keys (PrimaryExternalDistribution.cxx:130-171) reading `input_data[i][i_key]`. -/
noncomputable def fillKeys (row : List ℝ) : List (List Char) → Nat → Filling → Res Filling
  | [], _, s => .ok s
  | key :: rest, i, s => match row[i]? with
    | none => .ub
    | some v => fillKeys row rest (i + 1) (fillKey s key v)

/-- The row number (PrimaryExternalDistribution.cxx:126); `g` is the output of the generator. -/
noncomputable def rowNumber (n : Nat) (g : ℝ) : Nat := min ⌊uniform 0 1 g * n⌋₊ (n - 1)

/-- `Sample` (PrimaryExternalDistribution.cxx:121-178). -/
noncomputable def External.sample (s : External) (g : ℝ) (r : Filled) : Res Filled :=
  match s.data[rowNumber s.data.length g]? with
  | none => .ub
  | some row =>
    (fillKeys row s.keys 0 ⟨r, ⟨none, none, none⟩, ⟨none, none, none⟩, ⟨none, none, none⟩⟩).bind fun f =>
    (if s.momSet then f.momentum.read.bind fun p => .ok { f.out with record := { f.out.record with momentum := .given p } }
      else .ok f.out).bind fun out =>
    (if s.initPosSet then f.initial.read.bind fun p => .ok { out with record := { out.record with initial := .given p } }
      else .ok out).bind fun out =>
    if s.vertexSet then f.vertex.read.bind fun p =>
      let out := { out with record := { out.record with vertex := .given p } }
      .ok (if !s.initPosSet then { out with record := { out.record with initial := .given p } } else out)
    else .ok out

/-- `GenerationProbability` (PrimaryExternalDistribution.cxx:188-194) at the energy of the record. -/
noncomputable def External.generationProbability (emin energy : ℝ) : ℝ := if emin ≤ energy then 1 else 0

end Siren.Distributions
