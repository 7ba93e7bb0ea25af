import Verif.Base
import Mathlib.Algebra.Polynomial.Eval.Defs
import Mathlib.Algebra.Polynomial.Derivative
import Mathlib.Algebra.Polynomial.Degree.Lemmas
import Mathlib.Algebra.Order.Field.Basic
import Mathlib.Tactic.FieldSimp
import Mathlib.Tactic.Ring
import Mathlib.Tactic.NormNum
import Mathlib.Tactic.Linarith

set_option autoImplicit false

/-!
# Polynomials given by their coefficients

Models `math/private/Polynomial.cxx`. A `Polynom` is its list of coefficients, lowest first (`N_` is the length of `coeff_`: both
constructors and `operator=` keep it so). Numbers are those of an ordered field: rounding is not modelled.
-/

namespace Siren.Math

open Siren

universe u

variable {K : Type u} [Field K] [LinearOrder K] [IsStrictOrderedRing K]

namespace Polynom

/-- The loop of `evaluate`: `aux` is multiplied by `x` and the next lower coefficient added (Polynomial.cxx:42-43); the argument has the
coefficients below the highest, highest first. -/
def horner (x : K) (aux : K) : List K → K
  | [] => aux
  | c :: cs => horner x (aux * x + c) cs

/-- `evaluate` (Polynomial.cxx:36-46). -/
def evaluate (p : List K) (x : K) : K :=
  match p.reverse with
  | [] => 0
  | c :: cs => horner x c cs

/-- The two-dimensional array `t` of `shift` (Polynomial.cxx:58-60) with `N` rows and columns; `none` is memory not yet written. -/
structure Table (K : Type u) where
  size : Nat
  at_ : Nat → Nat → Option K

/-- Writing `t[i][j]`. -/
def Table.write (t : Table K) (i j : Nat) (v : K) : Res (Table K) :=
  if i < t.size ∧ j < t.size then .ok { t with at_ := fun a b => if a = i ∧ b = j then some v else t.at_ a b } else .ub

/-- Reading `t[i][j]`; reading outside or before writing is undefined. -/
def Table.read (t : Table K) (i j : Nat) : Res K :=
  if i < t.size ∧ j < t.size then (match t.at_ i j with | some v => .ok v | none => .ub) else .ub

/-- A `for` loop over the numbers of a list. -/
def forLoop {σ : Type u} (body : Nat → σ → Res σ) : List Nat → σ → Res σ
  | [], s => .ok s
  | i :: is, s => (body i s).bind (forLoop body is)

/-- The first loop of `shift` (Polynomial.cxx:62-65). -/
def shiftInit (p : List K) (x : K) (n : Nat) (t : Table K) : Res (Table K) :=
  forLoop (fun i t => (t.write i 0 (p.getD (n - i - 1) 0 * x ^ (n - i - 1))).bind fun t => t.write i (i + 1) (p.getD n 0 * x ^ n)) (List.range n) t

/-- The inner loop, column `j + 1` for rows `j + 1` to `n` (Polynomial.cxx:68-70). -/
def shiftColumn (n j : Nat) (t : Table K) : Res (Table K) :=
  forLoop (fun i t => (t.read (i - 1) j).bind fun a => (t.read (i - 1) (j + 1)).bind fun b => t.write i (j + 1) (a + b)) (List.range' (j + 1) (n - j)) t

/-- The third loop (Polynomial.cxx:73-75). -/
def shiftOut (x : K) (n : Nat) (t : Table K) (p : List K) : Res (List K) :=
  forLoop (fun i p => (t.read n (i + 1)).bind fun v => .ok (p.set i (v / x ^ i))) (List.range n) p

/-- `shift` (Polynomial.cxx:48-80). Releasing the rows with `delete` instead of `delete[]` (line 78) is not modelled. -/
def shift (p : List K) (x : K) : Res (List K) :=
  if (1 : K) / 1000000000 < |x| then
    match p.length with
    | 0 => .ok p
    | n + 1 =>
      (shiftInit p x n ⟨n + 1, fun _ _ => none⟩).bind fun t =>
      (forLoop (shiftColumn n) (List.range n) t).bind fun t => shiftOut x n t p
  else .ok p

/-- `scale` (Polynomial.cxx:82-86). -/
def scale (p : List K) (x : K) : List K := p.mapIdx fun i c => c * x ^ i

/-- `GetDerivative` (Polynomial.cxx:88-95). -/
def derivative (p : List K) : List K := (p.mapIdx fun i c => c * (i : K)).drop 1

/-- `GetAntiderivative` (Polynomial.cxx:97-104). -/
def antiderivative (p : List K) (constant : K) : List K := constant :: p.mapIdx fun i c => c / ((i : K) + 1)

end Polynom

end Siren.Math
