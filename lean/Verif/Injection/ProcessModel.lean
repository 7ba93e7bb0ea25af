import Verif.Base

set_option autoImplicit false

/-!
# Processes and the registry of secondary processes

Models the distribution lists of injection/private/Process.cxx and the registry of injection/private/Injector.cxx:94-146 and
injection/public/SIREN/injection/Injector.h:118-155.

A `std::shared_ptr` to a distribution or process is a value of an abstract type: equality of values is equality of pointers.
`eq` is the virtual `operator==` of the distributions pointed to.
-/

namespace Siren.Injection

open Siren

/-- The concrete class of a process. -/
inductive Kind where
  | physical
  | primary
  | secondary
deriving DecidableEq

/-- `PhysicalProcess` and its two subclasses (injection/public/SIREN/injection/Process.h:58-153): the distribution lists. -/
structure Proc (P : Type) where
  kind : Kind
  injection : List P := []
  physical : List P := []

section
variable {P : Type} [DecidableEq P] (eq : P → P → Bool)

/-- `AddPhysicalDistribution` (Process.cxx:83-89; overridden at 121-123 and 179-181): how the call ends, and the process
after it. -/
def Proc.addPhysical (p : Proc P) (d : P) : Res Unit × Proc P :=
  match p.kind with
  | .physical =>
    if p.physical.any fun x => eq x d then (.throws .runtimeError, p)
    else (.ok (), { p with physical := p.physical ++ [d] })
  | .primary => (.throws .runtimeError, p)
  | .secondary => (.throws .runtimeError, p)

/-- `AddPrimaryInjectionDistribution` (Process.cxx:124-131) and `AddSecondaryInjectionDistribution` (183-190). A plain
`PhysicalProcess` has no such member; the model leaves it unchanged. -/
def Proc.addInjection (p : Proc P) (d : P) : Res Unit × Proc P :=
  match p.kind with
  | .physical => (.ok (), p)
  | .primary =>
    if p.injection.any fun x => eq x d then (.throws .runtimeError, p)
    else (.ok (), { p with injection := p.injection ++ [d], physical := p.physical ++ [d] })
  | .secondary =>
    if p.injection.any fun x => eq x d then (.throws .runtimeError, p)
    else (.ok (), { p with physical := p.physical ++ [d], injection := p.injection ++ [d] })

/-- The double loop of the setters (Process.cxx:96-101, 134-139, 193-198): it compares the pointers. -/
def repeats : List P → Bool
  | [] => false
  | d :: rest => rest.any (fun x => d = x) || repeats rest

/-- `SetPhysicalDistributions` (Process.cxx:95-103), not overridden by the subclasses. -/
def Proc.setPhysical (p : Proc P) (ds : List P) : Res Unit × Proc P :=
  if repeats ds then (.throws .runtimeError, p) else (.ok (), { p with physical := ds })

/-- `SetPrimaryInjectionDistributions` (Process.cxx:133-146) and `SetSecondaryInjectionDistributions` (192-205). -/
def Proc.setInjection (p : Proc P) (ds : List P) : Res Unit × Proc P :=
  match p.kind with
  | .physical => (.ok (), p)
  | _ => if repeats ds then (.throws .runtimeError, p) else (.ok (), { p with injection := ds, physical := ds })

/-- A call on a process. -/
inductive ProcCall (P : Type) where
  | addPhysical (d : P)
  | addInjection (d : P)
  | setPhysical (ds : List P)
  | setInjection (ds : List P)

def Proc.call (p : Proc P) : ProcCall P → Res Unit × Proc P
  | .addPhysical d => p.addPhysical eq d
  | .addInjection d => p.addInjection eq d
  | .setPhysical ds => p.setPhysical ds
  | .setInjection ds => p.setInjection ds

/-- A history of calls; the caller catches exceptions and goes on. -/
def Proc.run (p : Proc P) (calls : List (ProcCall P)) : Proc P := calls.foldl (fun p c => (p.call eq c).2) p

end

/-! ## The registry -/

/-- `std::map::insert`: an existing key keeps its value. The map is a list of entries. -/
def insertFirst {V : Type} (m : List (Int × V)) (k : Int) (v : V) : List (Int × V) :=
  if m.any fun e => e.1 = k then m else m ++ [(k, v)]

/-- `std::map::find`, `at`. -/
def lookupMap {V : Type} (m : List (Int × V)) (k : Int) : Option V := (m.find? fun e => e.1 = k).map Prod.snd

/-- The registry members of `Injector` (Injector.h:69-73), and the present type of every process object. -/
structure Registry (Q V : Type) where
  typeOf : Q → Int
  processes : List Q := []
  positions : List V := []
  processMap : List (Int × Q) := []
  positionMap : List (Int × V) := []

section
variable {Q V : Type} [DecidableEq Q] (vertex : Q → Option V)

/-- `AddSecondaryProcess` (Injector.cxx:124-136). `vertex` is the first vertex distribution of the process
(`FindSecondaryVertexDistribution`, 103-110). Without one the program exits: `none`. -/
def Registry.add (r : Registry Q V) (q : Q) : Option (Registry Q V) :=
  match vertex q with
  | none => none
  | some v => some { r with
      processes := r.processes ++ [q]
      positions := r.positions ++ [v]
      processMap := insertFirst r.processMap (r.typeOf q) q
      positionMap := insertFirst r.positionMap (r.typeOf q) v }

/-- The loops over `AddSecondaryProcess` (Injector.cxx:88-90, 143-145; Injector.h:148-150). -/
def Registry.addAll (r : Registry Q V) : List Q → Option (Registry Q V)
  | [] => some r
  | q :: rest => (r.add vertex q).bind fun r => r.addAll rest

/-- `SetSecondaryProcesses` (Injector.cxx:138-146). -/
def Registry.set (r : Registry Q V) (qs : List Q) : Option (Registry Q V) :=
  ({ r with processes := [], positions := [], processMap := [], positionMap := [] } : Registry Q V).addAll vertex qs

/-- A call that concerns the registry: `AddSecondaryProcess`, `SetSecondaryProcesses`, `load` of an archive with these
processes (Injector.h:135-155), and `SetPrimaryType` of a process object (Process.cxx:36-40). -/
inductive RegCall (Q : Type) where
  | add (q : Q)
  | set (qs : List Q)
  | load (qs : List Q)
  | retype (q : Q) (t : Int)

def Registry.call (r : Registry Q V) : RegCall Q → Option (Registry Q V)
  | .add q => r.add vertex q
  | .set qs => r.set vertex qs
  | .load qs => r.addAll vertex qs
  | .retype q t => some { r with typeOf := fun x => if x = q then t else r.typeOf x }

/-- A history of calls on a new injector. -/
def Registry.run (r : Registry Q V) (calls : List (RegCall Q)) : Option (Registry Q V) :=
  calls.foldl (fun r c => r.bind fun r => r.call vertex c) (some r)

end

end Siren.Injection
