import Verif.Base

set_option autoImplicit false

/-!
# Generating an event

Models `Injector::GenerateEvent` (injection/private/Injector.cxx:300-365) with the counters and
`operator bool`, `ResetInjectedEvents` (500-506).

What is sampled is external: the primary interaction, and the interaction of a secondary, come from functions of the state `G`
of the random generator. The stopping condition is a function of the tree, the entry and the secondary's index. Entries are
referred to by their position in the tree instead of by pointer (see `Verif.Tree` for `add_entry` with pointers). Positions and
queue lengths are natural numbers; the `int` of line 341 would overflow at 2^31 pending secondaries.
-/

namespace Siren.Injection

open Siren

/-- The part of `InteractionRecord` the loop uses: the secondary types, the production times of the secondaries, the time at
which the primary was produced; and the rest. -/
structure Rec (T A : Type) where
  types : List Int
  times : List T
  initial : T
  rest : A

/-- `InteractionTreeDatum`: the record and the parent. -/
structure Node (T A : Type) where
  record : Rec T A
  parent : Option Nat

abbrev EventTree (T A : Type) := List (Node T A)

/-- What the event loop calls. -/
structure World (G T A : Type) where
  /-- Injector.cxx:306-314: sampling of the primary interaction. -/
  primary : Res (Rec T A) × G
  /-- `SampleSecondaryProcess` (287-298) of the secondary with this index of the parent record it was created from. -/
  sample : G → Rec T A → Nat → Res (Rec T A) × G
  /-- whether `secondary_process_map` has this type -/
  registered : Int → Bool
  stop : EventTree T A → Nat → Nat → Bool

section
variable {G T A : Type}

/-- An element of the deque (321): the parent's position, and the `SecondaryDistributionRecord` made from a copy of the
parent's record and the index. -/
structure Pending (T A : Type) where
  parent : Nat
  source : Rec T A
  index : Nat

/-- The local variables of the loop. -/
structure LoopState (G T A : Type) where
  tree : EventTree T A
  queue : List (Pending T A)
  gen : G

/-- `add_secondaries` (322-337): the new elements for the entry at position `p` with record `r`. -/
def addSecondaries (w : World G T A) (tree : EventTree T A) (p : Nat) (r : Rec T A) : List (Pending T A) :=
  (List.range r.types.length).filterMap fun i =>
    match r.types[i]? with
    | none => none
    | some type =>
      if !w.registered type then none
      else if w.stop tree p i then none
      else some ⟨p, r, i⟩

/-- `parent->record.secondary_times[sidx] = ...` if `sidx` is in range (350-352). -/
def syncTime (tree : EventTree T A) (p i : Nat) (t : T) : EventTree T A :=
  tree.modify p fun n =>
    if i < n.record.times.length then { n with record := { n.record with times := n.record.times.set i t } } else n

/-- The body of the inner loop for position `i` of the deque (342-353). -/
def loopStep (w : World G T A) (i : Nat) (s : LoopState G T A) : Res (LoopState G T A) :=
  match s.queue[i]? with
  | none => .ub
  | some q =>
    let queue := s.queue.eraseIdx i
    match w.sample s.gen q.source q.index with
    | (.ok r, gen) =>
      let n := s.tree.length
      let tree := s.tree ++ [⟨r, some q.parent⟩]
      let tree := syncTime tree q.parent q.index r.initial
      match tree[n]? with
      | none => .ub
      | some node => .ok ⟨tree, queue ++ addSecondaries w tree n node.record, gen⟩
    | (.throws e, _) => .throws e
    | (.ub, _) => .ub

/-- `for(int i = secondaries.size() - 1; i >= 0; --i)` with `i+1` in the first argument. -/
def inner (w : World G T A) : Nat → LoopState G T A → Res (LoopState G T A)
  | 0, s => .ok s
  | i + 1, s => (loopStep w i s).bind (inner w i)

/-- `while(secondaries.size() > 0)`, at most `fuel` times; `none` when more are needed. -/
def outer (w : World G T A) : Nat → LoopState G T A → Option (Res (LoopState G T A))
  | 0, _ => none
  | fuel + 1, s =>
    if s.queue.length > 0 then
      match inner w s.queue.length s with
      | .ok s => outer w fuel s
      | .throws e => some (.throws e)
      | .ub => some .ub
    else some (.ok s)

/-- The returned `InteractionTree`: its header's event number, and its entries. -/
structure Event (T A : Type) where
  number : Nat := 0
  entries : EventTree T A := []

/-- The counters of `Injector` (Injector.h:56-58). -/
structure Counters where
  toInject : Nat
  attempts : Nat := 0
  injected : Nat := 0
deriving DecidableEq

/-- `GenerateEvent` (300-365): how the call ends, and the counters after it. `none` is a loop that needs more than `fuel`
rounds. -/
def generate (fuel : Nat) (w : World G T A) (c : Counters) : Option (Res (Event T A) × Counters) :=
  if c.attempts ≥ c.toInject then some (.throws .runtimeError, c)
  else
    let c := { c with attempts := c.attempts + 1 }
    match w.primary with
    | (.throws .injectionFailure, _) => some (.ok {}, c)
    | (.throws e, _) => some (.throws e, c)
    | (.ub, _) => some (.ub, c)
    | (.ok r, gen) =>
      let tree := [⟨r, none⟩]
      match outer w fuel ⟨tree, addSecondaries w tree 0 r, gen⟩ with
      | none => none
      | some (.throws .injectionFailure) => some (.ok {}, c)
      | some (.throws e) => some (.throws e, c)
      | some .ub => some (.ub, c)
      | some (.ok s) => some (.ok ⟨c.injected, s.tree⟩, { c with injected := c.injected + 1 })

/-- `operator bool` (504-506). -/
def Counters.more (c : Counters) : Bool := c.toInject = 0 || c.injected < c.toInject

/-- A call on an injector. -/
inductive InjCall (G T A : Type) where
  | generate (fuel : Nat) (w : World G T A)
  | reset

/-- A history of calls: the outcomes of the `GenerateEvent` calls and the counters at the end; `none` if a call does not
return. `ResetInjectedEvents` is 500-502. -/
def runInjector (c : Counters) : List (InjCall G T A) → Option (List (Res (Event T A)) × Counters)
  | [] => some ([], c)
  | .reset :: rest => runInjector { c with injected := 0 } rest
  | .generate fuel w :: rest =>
    (generate fuel w c).bind fun (o, c) => (runInjector c rest).map fun (os, c) => (o :: os, c)

end

end Siren.Injection
