import Verif.Base
import Mathlib.Data.List.Basic
import Mathlib.Data.Nat.Notation

set_option autoImplicit false

/-! # GDML expressions

`EvalExpression` of `projects/detector/private/gdml/GDMLExpression.cxx`, with the tokenizer, the shunting-yard loop and the evaluation
of the postfix form. Strings are lists of characters. Nothing is assumed about the numbers: `V` is any type with the operations
the code calls, so the results hold for doubles as they are. Matrices are not modelled: the map of matrices is empty, as it is by
default and in every nested call. -/

namespace Siren.Gdml

open Siren

/-- The operations of `<cmath>` and the arithmetic operators the evaluator uses. -/
structure Arith (V : Type) where
  zero : V
  add : V → V → V
  sub : V → V → V
  mul : V → V → V
  div : V → V → V
  pow : V → V → V
  neg : V → V
  isZero : V → Bool
  sin : V → V
  cos : V → V
  tan : V → V
  asin : V → V
  acos : V → V
  atan : V → V
  exp : V → V
  log : V → V
  sqrt : V → V
  abs : V → V
  atan2 : V → V → V
  min : V → V → V
  max : V → V → V

/-- `Token` (GDMLExpression.cxx:34-42). -/
inductive Tok (V : Type) where
  | num (v : V)
  | op (c : Char)
  | lp
  | rp
  | comma
  | func (name : List Char) (argc : Nat)
  | neg
  deriving DecidableEq

variable {V : Type}

/-- `OpPrecedence` (GDMLExpression.cxx:44-49). -/
def opPrec (c : Char) : Nat :=
  if c = '+' ∨ c = '-' then 1 else if c = '*' ∨ c = '/' then 2 else if c = '^' then 3 else 0

/-- `IsRightAssociative` (GDMLExpression.cxx:51-53). -/
def rightAssoc (c : Char) : Bool := decide (c = '^')

/-- `ApplyFunc` (GDMLExpression.cxx:57-79) for one argument. -/
def apply1 (A : Arith V) (name : List Char) (a : V) : Res V :=
  if name = "sin".toList then .ok (A.sin a)
  else if name = "cos".toList then .ok (A.cos a)
  else if name = "tan".toList then .ok (A.tan a)
  else if name = "asin".toList then .ok (A.asin a)
  else if name = "acos".toList then .ok (A.acos a)
  else if name = "atan".toList then .ok (A.atan a)
  else if name = "exp".toList then .ok (A.exp a)
  else if name = "log".toList then .ok (A.log a)
  else if name = "sqrt".toList then .ok (A.sqrt a)
  else if name = "abs".toList then .ok (A.abs a)
  else .throws .runtimeError

/-- `ApplyFunc` (GDMLExpression.cxx:57-79) for two arguments. -/
def apply2 (A : Arith V) (name : List Char) (a b : V) : Res V :=
  if name = "pow".toList then .ok (A.pow a b)
  else if name = "atan2".toList then .ok (A.atan2 a b)
  else if name = "min".toList then .ok (A.min a b)
  else if name = "max".toList then .ok (A.max a b)
  else .throws .runtimeError

/-- The characters skipped by the tokenizer (GDMLExpression.cxx:91) and removed by `TrimWhitespace` (22-27). -/
def isWs (c : Char) : Bool := decide (c = ' ' ∨ c = '\t' ∨ c = '\n' ∨ c = '\r')

/-- The characters skipped between a function name and its parenthesis (GDMLExpression.cxx:126). -/
def isBlank (c : Char) : Bool := decide (c = ' ' ∨ c = '\t')

/-- `std::isdigit` in the C locale. -/
def isDig (c : Char) : Bool := decide ('0' ≤ c ∧ c ≤ '9')

/-- `IsIdentStart` (GDMLParserPrivate.h:72-74), `std::isalpha` in the C locale. -/
def isIdStart (c : Char) : Bool := decide (('a' ≤ c ∧ c ≤ 'z') ∨ ('A' ≤ c ∧ c ≤ 'Z') ∨ c = '_')

/-- `IsIdentChar` (GDMLParserPrivate.h:76-78). -/
def isIdChar (c : Char) : Bool := isIdStart c || isDig c

/-- What the evaluator is given: `strtod` (value, number of characters used, whether `errno` is `ERANGE`; `none` if there is no number
at the start) and the map of constants. -/
structure Env (V : Type) where
  arith : Arith V
  strtod : List Char → Option (V × Nat × Bool)
  constants : List Char → Option V

/-- Whether `+` or `-` is a sign rather than an operator (GDMLExpression.cxx:98-101). -/
def isUnary (tokens : List (Tok V)) : Bool :=
  match tokens.getLast? with
  | none => true
  | some .lp => true
  | some (.op _) => true
  | some .comma => true
  | some .neg => true
  | _ => false

/-- `Tokenize` (GDMLExpression.cxx:84-198). `none` when the fuel does not suffice. -/
def tokenize (E : Env V) : Nat → List Char → List (Tok V) → Option (Res (List (Tok V)))
  | 0, _, _ => none
  | _ + 1, [], tokens => some (.ok tokens)
  | fuel + 1, c :: s, tokens =>
    if isWs c then tokenize E fuel s tokens
    else if c = '(' then tokenize E fuel s (tokens ++ [.lp])
    else if c = ')' then tokenize E fuel s (tokens ++ [.rp])
    else if c = ',' then tokenize E fuel s (tokens ++ [.comma])
    else if c = '+' ∨ c = '-' ∨ c = '*' ∨ c = '/' ∨ c = '^' then
      if (c = '-' ∨ c = '+') ∧ isUnary tokens ∧ c = '-' then tokenize E fuel s (tokens ++ [.neg])
      else if (c = '-' ∨ c = '+') ∧ isUnary tokens ∧ c = '+' then tokenize E fuel s tokens
      else tokenize E fuel s (tokens ++ [.op c])
    else if isDig c ∨ c = '.' then
      match E.strtod (c :: s) with
      | some (v, n, _) => tokenize E fuel ((c :: s).drop n) (tokens ++ [.num v])
      | none => tokenize E fuel (c :: s) (tokens ++ [.num E.arith.zero])
    else if isIdStart c then
      let name := c :: s.takeWhile isIdChar
      let rest := s.dropWhile isIdChar
      match rest.dropWhile isBlank with
      | '(' :: _ => tokenize E fuel rest (tokens ++ [.func name 1])
      | '[' :: _ => some (.throws .runtimeError)
      | _ =>
        match E.constants name with
        | some v => tokenize E fuel rest (tokens ++ [.num v])
        | none => some (.throws .runtimeError)
    else some (.throws .runtimeError)

/-- The loops moving operators to the output up to a parenthesis (GDMLExpression.cxx:250-253, 288-291). Top of the stack first. -/
def popTo (out : List (Tok V)) : List (Tok V) → List (Tok V) × List (Tok V)
  | [] => (out, [])
  | .lp :: ops => (out, .lp :: ops)
  | t :: ops => popTo (out ++ [t]) ops

/-- The precedence of a token on the operator stack, if it is an operator (GDMLExpression.cxx:266, 269-270). -/
def stackPrec : Tok V → Option Nat
  | .op c => some (opPrec c)
  | .neg => some 3
  | _ => none

/-- The loop before an operator is pushed (GDMLExpression.cxx:268-278). -/
def popPrec (prec : Nat) (right : Bool) (out : List (Tok V)) : List (Tok V) → List (Tok V) × List (Tok V)
  | [] => (out, [])
  | t :: ops =>
    match stackPrec t with
    | some p => if (if right then decide (p > prec) else decide (p ≥ prec)) then popPrec prec right (out ++ [t]) ops else (out, t :: ops)
    | none => (out, t :: ops)

/-- One more argument for the function below the parenthesis (GDMLExpression.cxx:254-257). -/
def countArg : List (Tok V) → List (Tok V)
  | t :: .func name argc :: ops => t :: .func name (argc + 1) :: ops
  | ops => ops

/-- One turn of the shunting-yard loop (GDMLExpression.cxx:239-303). -/
def shuntStep (st : List (Tok V) × List (Tok V)) : Tok V → Res (List (Tok V) × List (Tok V))
  | .num v => .ok (st.1 ++ [.num v], st.2)
  | .func name argc => .ok (st.1, .func name argc :: st.2)
  | .comma =>
    let st := popTo st.1 st.2
    .ok (st.1, countArg st.2)
  | .neg =>
    let st := popPrec 3 true st.1 st.2
    .ok (st.1, .neg :: st.2)
  | .op c =>
    let st := popPrec (opPrec c) (rightAssoc c) st.1 st.2
    .ok (st.1, .op c :: st.2)
  | .lp => .ok (st.1, .lp :: st.2)
  | .rp =>
    match popTo st.1 st.2 with
    | (_, []) => .throws .runtimeError
    | (out, _ :: .func name argc :: ops) => .ok (out ++ [.func name argc], ops)
    | (out, _ :: ops) => .ok (out, ops)

/-- The shunting-yard loop (GDMLExpression.cxx:237-304). -/
def shunt (st : List (Tok V) × List (Tok V)) : List (Tok V) → Res (List (Tok V) × List (Tok V))
  | [] => .ok st
  | t :: ts => (shuntStep st t).bind fun st => shunt st ts

/-- The operators left over (GDMLExpression.cxx:305-311). -/
def flush (out : List (Tok V)) : List (Tok V) → Res (List (Tok V))
  | [] => .ok out
  | .lp :: _ => .throws .runtimeError
  | t :: ops => flush (out ++ [t]) ops

/-- One binary operator (GDMLExpression.cxx:328-339). -/
def applyOp (A : Arith V) (c : Char) (a b : V) (vs : List V) : Res (List V) :=
  if c = '+' then .ok (A.add a b :: vs)
  else if c = '-' then .ok (A.sub a b :: vs)
  else if c = '*' then .ok (A.mul a b :: vs)
  else if c = '/' then (if A.isZero b then .throws .runtimeError else .ok (A.div a b :: vs))
  else if c = '^' then .ok (A.pow a b :: vs)
  else .ok vs

/-- One token of the postfix form; top of the value stack first (GDMLExpression.cxx:316-366). -/
def evalTok (A : Arith V) (vs : List V) : Tok V → Res (List V)
  | .num v => .ok (v :: vs)
  | .op c =>
    match vs with
    | b :: a :: vs => applyOp A c a b vs
    | _ => .throws .runtimeError
  | .neg =>
    match vs with
    | a :: vs => .ok (A.neg a :: vs)
    | [] => .throws .runtimeError
  | .func name argc =>
    if argc > 2 then .throws .runtimeError
    else match argc, vs with
    | 1, a :: vs => (apply1 A name a).bind fun r => .ok (r :: vs)
    | 2, b :: a :: vs => (apply2 A name a b).bind fun r => .ok (r :: vs)
    | _, _ => .throws .runtimeError
  | _ => .throws .runtimeError

/-- The evaluation of the postfix form (GDMLExpression.cxx:314-367). -/
def evalRpn (A : Arith V) (vs : List V) : List (Tok V) → Res (List V)
  | [] => .ok vs
  | t :: ts => (evalTok A vs t).bind fun vs => evalRpn A vs ts

/-- `TrimWhitespace` (GDMLExpression.cxx:22-27). -/
def trim (s : List Char) : List Char := ((s.dropWhile isWs).reverse.dropWhile isWs).reverse

/-- The part of `EvalExpression` after the tokenizer (GDMLExpression.cxx:231-371). -/
def evalTokens (A : Arith V) (tokens : List (Tok V)) : Res V :=
  (shunt ([], []) tokens).bind fun st =>
  (flush st.1 st.2).bind fun out =>
  (evalRpn A [] out).bind fun vs =>
    match vs with
    | [v] => .ok v
    | _ => .throws .runtimeError

/-- `EvalExpression` (GDMLExpression.cxx:200-371). -/
def evalExpression (E : Env V) (fuel : Nat) (expr : List Char) : Option (Res V) :=
  let s := trim expr
  if s = [] then some (.ok E.arith.zero)
  else
    let slow : Option (Res V) :=
      if s.all isIdChar ∧ (s.head?.map isIdStart = some true) then
        match E.constants s with
        | some v => some (.ok v)
        | none => some (.throws .runtimeError)
      else
        match tokenize E fuel s [] with
        | some (.ok tokens) => some (evalTokens E.arith tokens)
        | some (.throws e) => some (.throws e)
        | some .ub => some .ub
        | none => none
    match E.strtod s with
    | some (v, n, range) => if n = s.length then (if range then some (.throws .runtimeError) else some (.ok v)) else slow
    | none => slow

end Siren.Gdml
