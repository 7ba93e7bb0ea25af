import Verif.Base
import Mathlib.Data.List.Basic

set_option autoImplicit false

/-! # Names of GDML definitions

`StripPointerSuffix`, `ResolveAlias` and `InstanceTracker` (`projects/detector/private/gdml/GDMLParserPrivate.h:49-69, 149-300`) and the
check for ambiguous references of `ParseStructure`. Names are lists of characters. A `std::unordered_map` is a function to `Option`; where
the code iterates over one, the order is a parameter. The `name` field of the stored items, which `Flatten` sets to the key, is not
modelled. -/

namespace Siren.Gdml.Names

open Siren

abbrev Name := List Char

/-- A character of `[0-9a-fA-F]` (GDMLParserPrivate.h:57). -/
def isHex (c : Char) : Bool := decide (('0' ≤ c ∧ c ≤ '9') ∨ ('a' ≤ c ∧ c ≤ 'f') ∨ ('A' ≤ c ∧ c ≤ 'F'))

/-- A character of `[0-9]`. -/
def isDigit (c : Char) : Bool := decide ('0' ≤ c ∧ c ≤ '9')

/-- `std::string::rfind` of a pattern of two characters: what stands before and after its last occurrence. -/
def lastSplit (a b : Char) : Name → Option (Name × Name)
  | [] => none
  | c :: t => match lastSplit a b t with
    | some (p, r) => some (c :: p, r)
    | none => match t with
      | [] => none
      | d :: r => if c = a ∧ d = b then some ([], r) else none

/-- `StripPointerSuffix` (GDMLParserPrivate.h:49-61). -/
def strip (on : Bool) (name : Name) : Name :=
  if on = false then name
  else match lastSplit '0' 'x' name with
    | none => name
    | some (p, r) => if p = [] ∨ r.length < 7 ∨ r.all isHex = false then name else p

/-- `FlatName` (GDMLParserPrivate.h:274-276). -/
def flat (name : Name) (i : Nat) : Name := name ++ '_' :: '_' :: Nat.toDigits 10 (i + 1)

/-- `ParseFlatName` (GDMLParserPrivate.h:280-296). -/
def parseFlat (s : Name) : Option (Name × Nat) :=
  match lastSplit '_' '_' s with
  | none => none
  | some (p, r) =>
    if p = [] ∨ r = [] ∨ r.all isDigit = false then none
    else match Nat.ofDigitChars 10 r 0 with
      | 0 => none
      | i + 1 => some (p, i)

/-- Assignment to an entry of a map. -/
def put {α : Type} (m : Name → Option α) (k : Name) (v : α) : Name → Option α := fun x => if x = k then some v else m x

/-- Removal of an entry. -/
def erase {α : Type} (m : Name → Option α) (k : Name) : Name → Option α := fun x => if x = k then none else m x

/-- An `InstanceTracker` (the keys of `instances_`, and its entries; `counts_` are their lengths) with the alias map it shares with the
other trackers of the file. -/
structure State (T : Type) where
  keys : List Name
  instances : Name → List T
  aliases : Name → Option Name

variable {T : Type}

/-- A new tracker (GDMLParserPrivate.h:160-161). -/
def fresh (aliases : Name → Option Name) : State T := ⟨[], fun _ => [], aliases⟩

/-- `Store` (GDMLParserPrivate.h:166-181). -/
def store (on : Bool) (eq : T → T → Bool) (s : State T) (name : Name) (x : T) : State T :=
  let key := strip on name
  let vec := s.instances key
  let link := fun i => if key ≠ name then put s.aliases name (flat key i) else s.aliases
  if (vec.getLast?.map fun y => eq y x) = some true then { s with aliases := link (vec.length - 1) }
  else ⟨if key ∈ s.keys then s.keys else s.keys ++ [key], fun k => if k = key then vec ++ [x] else s.instances k, link vec.length⟩

/-- `Resolve` (GDMLParserPrivate.h:185-192). -/
def resolve (on : Bool) (s : State T) (ref : Name) : Name :=
  let n := strip on ref
  match (s.instances n).length with
  | 0 => n
  | i + 1 => flat n i

/-- `Lookup` (GDMLParserPrivate.h:196-213). -/
def lookup (on : Bool) (s : State T) (name : Name) : Option T :=
  let latest := (s.instances (strip on name)).getLast?
  match s.aliases name with
  | none => latest
  | some t => match parseFlat t with
    | none => latest
    | some (n, i) => match (s.instances n)[i]? with
      | some y => some y
      | none => latest

/-- First loop of `Flatten` (GDMLParserPrivate.h:236-247): every instance under its numbered name, names in the order `order`. -/
def number (s : State T) (order : List Name) (dest : Name → Option T) : Name → Option T :=
  order.foldl (fun d n => (s.instances n).zipIdx.foldl (fun d p => put d (flat n p.2) p.1) d) dest

/-- Third loop of `Flatten` (GDMLParserPrivate.h:255-263): names with one instance lose the number, in the order `order`. -/
def unnumber (order : List Name) (dest : Name → Option T) : Name → Option T :=
  order.foldl (fun d n => match d (flat n 0) with
    | none => d
    | some v => put (erase d (flat n 0)) n v) dest

/-- Fourth loop of `Flatten` (GDMLParserPrivate.h:265-270). -/
def unnumberAlias (order : List Name) (t : Name) : Name :=
  match order.find? fun n => decide (flat n 0 = t) with
  | some n => n
  | none => t

/-- Names with exactly one instance (GDMLParserPrivate.h:249-254). -/
def sole (s : State T) : List Name := s.keys.filter fun n => decide ((s.instances n).length = 1)

/-- `Flatten` (GDMLParserPrivate.h:232-272): the filled map and the aliases. `o1` is the order of `instances_`, `o2` that of `renames`. -/
def flatten (s : State T) (o1 o2 : List Name) (dest : Name → Option T) : (Name → Option T) × (Name → Option Name) :=
  (unnumber o2 (number s o1 dest), fun k => (s.aliases k).map (unnumberAlias o2))

/-- Material and solid references of a volume (GDMLStructureParser.cxx:152-190): alias, and a check for ambiguity of bare names. -/
def volumeRef (aliases : Name → Option Name) (counts : Name → Nat) (raw : Name) : Res Name :=
  let r := (aliases raw).getD raw
  if r = raw ∧ r ≠ [] ∧ 1 < counts r then .throws .runtimeError else .ok r

/-- A sequence of definitions. -/
def storeAll (on : Bool) (eq : T → T → Bool) (s : State T) (defs : List (Name × T)) : State T :=
  defs.foldl (fun s p => store on eq s p.1 p.2) s

end Siren.Gdml.Names
