/-!
# Outcomes of C++ calls

Shared by all areas of the model. A C++ call either returns normally, throws an exception, or runs into undefined
behaviour (null dereference, out-of-range access through `operator[]`, ...). Undefined behaviour is kept as a separate
outcome so that no theorem can assume it away silently.
-/

namespace Siren

/-- The exception classes the modelled code distinguishes. `injectionFailure` is
`utilities/public/SIREN/utilities/Errors.h:InjectionFailure` (derived from `std::runtime_error`); `outOfRange` is
`std::out_of_range`, thrown by `vector::at` and `map::at`. -/
inductive Exn where
  | runtimeError
  | outOfRange
  | injectionFailure
  | mathError
  deriving DecidableEq, Repr

/-- Outcome of a C++ call. -/
inductive Res (α : Type _) where
  | ok (a : α)
  | throws (e : Exn)
  | ub
  deriving DecidableEq, Repr

namespace Res

/-- Sequencing: exceptions and undefined behaviour propagate. -/
def bind {α β} (x : Res α) (f : α → Res β) : Res β :=
  match x with
  | ok a => f a
  | throws e => throws e
  | ub => ub

instance : Monad Res where
  pure := Res.ok
  bind := Res.bind

@[simp] theorem pure_eq {α} (a : α) : (pure a : Res α) = Res.ok a := rfl
@[simp] theorem ok_bind {α β} (a : α) (f : α → Res β) : (Res.ok a >>= f) = f a := rfl
@[simp] theorem throws_bind {α β} (e : Exn) (f : α → Res β) : (Res.throws e >>= f) = Res.throws e := rfl
@[simp] theorem ub_bind {α β} (f : α → Res β) : (Res.ub >>= f) = Res.ub := rfl

end Res

end Siren
