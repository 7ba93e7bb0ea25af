import Verif.Base
import Mathlib.Data.Rat.Defs
import Mathlib.Algebra.Order.Ring.Rat

set_option autoImplicit false

/-! # GDML units

`projects/detector/private/gdml/GDMLUnits.cxx`. Numbers are rationals: every double is one, and products are taken without rounding.
`M_PI` is the double of that name. Decimal literals stand for themselves. An attribute that is absent is the empty string, as
`SafeAttrVal` returns it. -/

namespace Siren.Gdml

open Siren

/-- `M_PI` as a double. -/
def mPi : ℚ := 884279719003555 / 281474976710656

/-- `kBuiltInConstants` (GDMLUnits.cxx:35-105). -/
def builtIns : List (String × ℚ) := [
  ("pi", mPi), ("twopi", 2 * mPi), ("TWOPI", 2 * mPi), ("halfpi", mPi / 2), ("e", 2.7182818284590452354), ("gamma", 0.5772156649015328606),
  ("rad", 1), ("radian", 1), ("mrad", 1e-3), ("milliradian", 1e-3), ("deg", mPi / 180), ("degree", mPi / 180),
  ("mm", 1), ("millimeter", 1), ("cm", 10), ("centimeter", 10), ("m", 1000), ("meter", 1000), ("km", 1e6), ("kilometer", 1e6),
  ("um", 1e-3), ("micrometer", 1e-3), ("nm", 1e-6), ("nanometer", 1e-6), ("angstrom", 1e-7), ("fermi", 1e-12), ("inch", 25.4), ("in", 25.4),
  ("eV", 1e-6), ("keV", 1e-3), ("MeV", 1), ("GeV", 1e3), ("TeV", 1e6), ("PeV", 1e9), ("joule", 6.241509074460763e12),
  ("ns", 1), ("nanosecond", 1), ("ps", 1e-3), ("picosecond", 1e-3), ("us", 1e3), ("microsecond", 1e3), ("ms", 1e6), ("millisecond", 1e6),
  ("second", 1e9),
  ("milligram", 6.241509074460763e18), ("gram", 6.241509074460763e21), ("kg", 6.241509074460763e24), ("kilogram", 6.241509074460763e24),
  ("g/cm3", 6.241509074460763e18), ("mg/cm3", 6.241509074460763e15), ("kg/m3", 6.241509074460763e15),
  ("mole", 1), ("mol", 1), ("kelvin", 1)]

/-- `GetBuiltInMap().find` (GDMLUnits.cxx:107-114); the names are distinct. -/
def builtIn (name : String) : Option ℚ := builtIns.lookup name

/-- `IsBuiltInConstant` (GDMLUnits.cxx:125-127). -/
def isBuiltIn (name : String) : Bool := (builtIn name).isSome

/-- `GDMLQuantityType` without `NONE`, which is `none` (GDMLParser.h:52-54). -/
inductive QType where
  | length
  | angle
  | energy
  | time
  | density
  | temperature
  | amount
  deriving DecidableEq, Repr

/-- `TypeFromUnit` (GDMLUnits.cxx:236-262). -/
def typeFromUnit (u : String) : Option QType :=
  if u ∈ ["mm", "cm", "m", "km", "um", "nm", "in", "millimeter", "centimeter", "meter", "kilometer", "micrometer", "nanometer",
      "angstrom", "fermi", "inch"] then some .length
  else if u ∈ ["rad", "deg", "mrad", "radian", "degree", "milliradian"] then some .angle
  else if u ∈ ["eV", "keV", "MeV", "GeV", "TeV", "PeV", "joule"] then some .energy
  else if u ∈ ["ns", "ps", "us", "ms", "nanosecond", "picosecond", "microsecond", "millisecond", "second"] then some .time
  else if u ∈ ["g/cm3", "mg/cm3", "kg/m3"] then some .density
  else if u ∈ ["kelvin"] then some .temperature
  else if u ∈ ["mole", "mol"] then some .amount
  else none

/-- `TypeFromTypeAttr` (GDMLUnits.cxx:265-277). The attribute is given in lower case, as `std::transform` leaves it. -/
def typeFromAttr (t : String) : Option QType :=
  if t ∈ ["length", "lenght", "coordinate"] then some .length
  else if t ∈ ["angle"] then some .angle
  else if t ∈ ["energy", "threshold"] then some .energy
  else if t ∈ ["time"] then some .time
  else if t ∈ ["density"] then some .density
  else if t ∈ ["temperature"] then some .temperature
  else none

/-- `siren::utilities::Constants::mm` (Constants.h:29-35). -/
def sirenMm : ℚ := 1e-3

/-- `LengthScale` (GDMLUnits.cxx:176-192). -/
def lengthScale (unit : String) : Res ℚ :=
  if unit = "" then .ok sirenMm
  else if typeFromUnit unit ≠ some .length then .throws .runtimeError
  else match builtIn unit with
    | none => .throws .runtimeError
    | some v => .ok (v * sirenMm)

/-- `AngleScale` (GDMLUnits.cxx:205-215), with `Constants::degrees`, `radian` and `mrad` (Constants.h:21-26). -/
def angleScale (unit : String) : Res ℚ :=
  if unit = "" then .ok 1
  else if unit = "deg" ∨ unit = "degree" then .ok (mPi / 180)
  else if unit = "rad" ∨ unit = "radian" then .ok 1
  else if unit = "mrad" ∨ unit = "milliradian" then .ok 1e-3
  else .throws .runtimeError

/-- `QuantityUnitScale` (GDMLUnits.cxx:313-328). -/
def quantityScale (unit : String) (type : Option QType) : Res ℚ :=
  if unit = "" then .ok 1
  else if type = some .density then
    if unit = "g/cm3" then .ok 1
    else if unit = "mg/cm3" then .ok 1e-3
    else if unit = "kg/m3" then .ok 1e-3
    else .throws .runtimeError
  else match builtIn unit with
    | some v => .ok v
    | none => .throws .runtimeError

/-- The type of `ResolveQuantityType` (GDMLUnits.cxx:281-301) and whether it warns: when attribute and unit disagree. -/
def resolveType (attr unit : String) : Option QType × Bool :=
  match typeFromAttr attr, typeFromUnit unit with
  | some a, some u => (some u, decide (a ≠ u))
  | none, some u => (some u, false)
  | a, none => (a, false)

end Siren.Gdml
