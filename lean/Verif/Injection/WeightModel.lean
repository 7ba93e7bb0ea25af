import Verif.Base
import Mathlib.Data.Real.Basic

set_option autoImplicit false

/-!
# Event weights

Models `ProcessWeighter` (injection/public/SIREN/injection/Weighter.tcc:70-93, 211-239) and `Weighter::Initialize`,
`Weighter::EventWeight` (injection/private/Weighter.cxx:51-140).

Distributions (`P`) and interaction collections (`I`) are pointers; the densities, the interaction and position probabilities
and the channel probability are parameters, so their values are arbitrary real numbers. Only the last quotients can leave the
real numbers; there infinity and NaN are explicit.
-/

namespace Siren.Injection

open Siren

/-- A non-negative floating-point result. -/
inductive Flt where
  | fin (x : ℝ)
  | inf
  | nan

/-- `a / b` for non-negative numbers. -/
noncomputable def Flt.quot (a b : ℝ) : Flt := if b = 0 then (if a = 0 then .nan else .inf) else .fin (a / b)

noncomputable def Flt.add : Flt → Flt → Flt
  | .fin a, .fin b => .fin (a + b)
  | .nan, _ => .nan
  | _, .nan => .nan
  | .inf, _ => .inf
  | _, .inf => .inf

/-- `1. / x`. -/
noncomputable def Flt.inv : Flt → Flt
  | .fin a => Flt.quot 1 a
  | .inf => .fin 0
  | .nan => .nan

/-- A physical or injection process: its particle type, interactions and the distributions (physical ones of a physical
process, injection ones of an injection process). -/
structure WProc (P I : Type) where
  type : Int
  interactions : I
  distributions : List P

/-- `Injector`: number of events, primary process, secondary process map. -/
structure WInj (P I : Type) where
  events : Nat
  primary : WProc P I
  secondaries : List (Int × WProc P I)

/-- An `InteractionTreeDatum`: whether it is a root, the primary type of its record, the record. -/
structure WNode (R : Type) where
  root : Bool
  type : Int
  record : R

/-- What the weighter calls. -/
structure Densities (P I R B : Type) where
  /-- `WeightableDistribution::GenerationProbability` -/
  density : P → I → R → ℝ
  /-- the normalization of a `PhysicallyNormalizedDistribution` for which it is set -/
  norm : P → Option ℝ
  /-- `CrossSectionProbability` -/
  channel : I → R → ℝ
  /-- `InteractionProbability` and `NormalizedPositionProbability` with the physical process's interactions -/
  interaction : B → I → R → ℝ
  position : B → I → R → ℝ
  /-- the bounds given by the vertex distribution of an injection process -/
  bounds : WProc P I → R → B

/-- `ProcessWeighter` (Weighter.h): the two processes and what `Initialize` computes. -/
structure ProcWeighter (P I : Type) where
  phys : WProc P I
  inj : WProc P I
  normalization : ℝ
  gen : List P
  physical : List P

section
variable {P I R B : Type} [DecidableEq P]

/-- Erase the last occurrence (Weighter.tcc:85-91, the inner loop from the back). -/
def eraseLast (l : List P) (a : P) : List P := (l.reverse.erase a).reverse

/-- The nested loop of `Initialize` (Weighter.tcc:83-92) with the generation distributions reversed; the result's first
component is again in the original order. The erased reverse iterators are formally invalidated by `erase`; on a contiguous
vector they continue with the next earlier element, and that is what is modelled. -/
def cancel : List P → List P → List P × List P
  | [], phys => ([], phys)
  | g :: rest, phys =>
    if g ∈ phys then cancel rest (eraseLast phys g)
    else
      let (kept, phys) := cancel rest phys
      (kept ++ [g], phys)

/-- The constructor and `Initialize` (Weighter.tcc:70-93, 247-255). -/
noncomputable def ProcWeighter.make (e : Densities P I R B) (phys inj : WProc P I) : ProcWeighter P I :=
  let (gen, physical) := cancel inj.distributions.reverse phys.distributions
  { phys := phys, inj := inj, gen := gen, physical := physical
    normalization := phys.distributions.foldl (fun n d => match e.norm d with | some x => n * x | none => n) 1 }

/-- `PhysicalProbability` (Weighter.tcc:211-229). -/
noncomputable def ProcWeighter.physicalProbability (e : Densities P I R B) (w : ProcWeighter P I) (bounds : B) (r : R) : ℝ :=
  let p := 1 * e.interaction bounds w.phys.interactions r
  let p := p * e.position bounds w.phys.interactions r
  let p := p * e.channel w.phys.interactions r
  let p := w.physical.foldl (fun p d => p * e.density d w.phys.interactions r) p
  w.normalization * p

/-- `GenerationProbability` (Weighter.tcc:232-239). -/
noncomputable def ProcWeighter.generationProbability (e : Densities P I R B) (w : ProcWeighter P I) (r : R) : ℝ :=
  w.gen.foldl (fun p d => p * e.density d w.inj.interactions r) (e.channel w.inj.interactions r)

/-- `std::map::at`: `none` for `std::out_of_range`. -/
def mapAt {V : Type} (m : List (Int × V)) (k : Int) : Option V := (m.find? fun e => e.1 = k).map Prod.snd

/-- `m[k] = v`. -/
def mapSet {V : Type} (m : List (Int × V)) (k : Int) (v : V) : List (Int × V) :=
  if m.any fun e => e.1 = k then m.map fun e => if e.1 = k then (k, v) else e else m ++ [(k, v)]

/-- The loop over the secondary physical processes (Weighter.cxx:66-82); `none` is the early return. -/
noncomputable def secondaryMap (e : Densities P I R B) (m : List (Int × WProc P I)) :
    List (WProc P I) → List (Int × ProcWeighter P I) → Option (List (Int × ProcWeighter P I))
  | [], acc => some acc
  | phys :: rest, acc =>
    match mapAt m phys.type with
    | none => none
    | some inj => secondaryMap e m rest (mapSet acc phys.type (ProcWeighter.make e phys inj))

/-- `Weighter` after `Initialize` (Weighter.h). -/
structure Weighter (P I : Type) where
  injectors : List (WInj P I)
  primaries : List (ProcWeighter P I)
  secondaries : List (List (Int × ProcWeighter P I))

/-- `Initialize` (Weighter.cxx:51-89): the loop over the injectors. The `assert`s are compiled out. -/
noncomputable def Weighter.initialize (e : Densities P I R B) (all : List (WInj P I)) (primary : WProc P I)
    (secondary : List (WProc P I)) : List (WInj P I) → Weighter P I → Weighter P I
  | [], w => w
  | inj :: rest, w =>
    let w := { w with primaries := w.primaries ++ [ProcWeighter.make e primary inj.primary] }
    match secondaryMap e inj.secondaries secondary [] with
    | none => w
    | some m =>
      if m.length ≠ inj.secondaries.length then w
      else Weighter.initialize e all primary secondary rest { w with secondaries := w.secondaries ++ [m] }

/-- The constructor (Weighter.cxx:226-242). -/
noncomputable def Weighter.make (e : Densities P I R B) (injectors : List (WInj P I)) (primary : WProc P I)
    (secondary : List (WProc P I)) : Weighter P I :=
  Weighter.initialize e injectors primary secondary injectors ⟨injectors, [], []⟩

/-- The loop over the tree for the injector at position `i` (Weighter.cxx:117-138): the generation and physical products.
`.ok none` is the `return 0` of line 134. Indexing beyond the end of the weighter lists is undefined behaviour. -/
noncomputable def nodeLoop (e : Densities P I R B) (w : Weighter P I) (i : Nat) (inj : WInj P I) :
    List (WNode R) → ℝ × ℝ → Res (Option (ℝ × ℝ))
  | [], acc => .ok (some acc)
  | n :: rest, acc =>
    if n.root then
      let bounds := e.bounds inj.primary n.record
      match w.primaries[i]? with
      | none => .ub
      | some p => nodeLoop e w i inj rest
          (acc.1 * p.generationProbability e n.record, acc.2 * p.physicalProbability e bounds n.record)
    else
      match mapAt inj.secondaries n.type with
      | none => .ok none
      | some process =>
        let bounds := e.bounds process n.record
        match w.secondaries[i]? with
        | none => .ub
        | some m =>
          match mapAt m n.type with
          | none => .ok none
          | some p => nodeLoop e w i inj rest
              (acc.1 * p.generationProbability e n.record, acc.2 * p.physicalProbability e bounds n.record)

/-- The loop over the injectors (Weighter.cxx:112-139). -/
noncomputable def injectorLoop (e : Densities P I R B) (w : Weighter P I) (tree : List (WNode R)) :
    Nat → List (WInj P I) → Flt → Res Flt
  | _, [], inv => .ok inv.inv
  | i, inj :: rest, inv =>
    match nodeLoop e w i inj tree (inj.events, 1) with
    | .ok (some (gen, phys)) => injectorLoop e w tree (i + 1) rest (inv.add (Flt.quot gen phys))
    | .ok none => .ok (.fin 0)
    | .throws x => .throws x
    | .ub => .ub

/-- `EventWeight` (Weighter.cxx:91-140). -/
noncomputable def Weighter.eventWeight (e : Densities P I R B) (w : Weighter P I) (tree : List (WNode R)) : Res Flt :=
  injectorLoop e w tree 0 w.injectors (.fin 0)

end

end Siren.Injection
