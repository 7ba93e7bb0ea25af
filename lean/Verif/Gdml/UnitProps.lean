import Verif.Gdml.DefineCases

set_option autoImplicit false

/-! # C113: lengths, angles and quantities of a GDML file are converted by their unit -/

namespace Siren.Gdml.Define

open Siren Siren.Gdml

/-! ## Specification -/

/-- The length units of GDML, in metres. -/
def metres : List (String × ℚ) := [
  ("fermi", 10 ^ (-15 : ℤ)), ("angstrom", 10 ^ (-10 : ℤ)), ("nm", 10 ^ (-9 : ℤ)), ("nanometer", 10 ^ (-9 : ℤ)),
  ("um", 10 ^ (-6 : ℤ)), ("micrometer", 10 ^ (-6 : ℤ)), ("mm", 10 ^ (-3 : ℤ)), ("millimeter", 10 ^ (-3 : ℤ)),
  ("cm", 10 ^ (-2 : ℤ)), ("centimeter", 10 ^ (-2 : ℤ)), ("m", 1), ("meter", 1), ("km", 10 ^ (3 : ℤ)), ("kilometer", 10 ^ (3 : ℤ)),
  ("in", 254 / 10000), ("inch", 254 / 10000)]

/-- The angle units of GDML, in radians. -/
def radians : List (String × ℚ) := [
  ("rad", 1), ("radian", 1), ("mrad", 1 / 1000), ("milliradian", 1 / 1000), ("deg", mPi / 180), ("degree", mPi / 180)]

/-- The density units of GDML, in grams per cubic centimetre. -/
def gramsPerCm3 : List (String × ℚ) := [("g/cm3", 1), ("mg/cm3", 1 / 1000), ("kg/m3", 1 / 1000)]

/-- The energy units of GDML, in MeV. -/
def mev : List (String × ℚ) := [
  ("eV", 10 ^ (-6 : ℤ)), ("keV", 10 ^ (-3 : ℤ)), ("MeV", 1), ("GeV", 10 ^ (3 : ℤ)), ("TeV", 10 ^ (6 : ℤ)), ("PeV", 10 ^ (9 : ℤ)),
  ("joule", 6.241509074460763e12)]

variable {C : Calls} {strict : Bool}

theorem metres_scale : ∀ p ∈ metres, lengthScale p.1 = .ok p.2 ∧ p.1 ≠ "" ∧ typeFromUnit p.1 = some .length ∧
    builtIn p.1 = some (p.2 * 1000) := by
  decide +kernel

theorem radians_scale : ∀ p ∈ radians, angleScale p.1 = .ok p.2 ∧ p.1 ≠ "" ∧ typeFromUnit p.1 = some .angle ∧ builtIn p.1 = some p.2 := by
  decide +kernel

theorem density_scale : ∀ p ∈ gramsPerCm3, p.1 ≠ "" ∧ typeFromUnit p.1 = some .density ∧ quantityScale p.1 (some .density) = .ok p.2 := by
  decide +kernel

theorem mev_scale : ∀ p ∈ mev, p.1 ≠ "" ∧ typeFromUnit p.1 = some .energy ∧ builtIn p.1 = some p.2 := by
  decide +kernel

/-- A unit that is not one of the names has no length scale. -/
theorem length_unknown {u : String} (hu : u ≠ "") (h : ∀ p ∈ metres, p.1 ≠ u) : lengthScale u = .throws .runtimeError := by
  rw [lengthScale, if_neg hu, if_pos]
  unfold typeFromUnit
  rw [if_neg]
  · split
    · simp
    split
    · simp
    split
    · simp
    split
    · simp
    split
    · simp
    split
    · simp
    · simp
  · intro hm
    simp only [List.mem_cons, List.not_mem_nil, or_false] at hm
    simp only [metres, List.forall_mem_cons] at h
    rcases hm with rfl | rfl | rfl | rfl | rfl | rfl | rfl | rfl | rfl | rfl | rfl | rfl | rfl | rfl | rfl | rfl <;> simp_all

theorem angle_unknown {u : String} (hu : u ≠ "") (h : ∀ p ∈ radians, p.1 ≠ u) : angleScale u = .throws .runtimeError := by
  simp only [radians, List.forall_mem_cons] at h
  obtain ⟨h1, h2, h3, h4, h5, h6, -⟩ := h
  rw [angleScale, if_neg hu, if_neg (by simp [Ne.symm h5, Ne.symm h6]), if_neg (by simp [Ne.symm h1, Ne.symm h2]),
    if_neg (by simp [Ne.symm h3, Ne.symm h4])]

/-- C113: a length is the value of its text times its unit in metres, millimetres when there is no unit; another unit is refused, and so is
a text that does not evaluate. -/
theorem C113_length (d : Data) (text unit : String) (htext : text ≠ "") :
    (∀ v m, C.eval d.constants (fun _ => none) text = .ok v → (unit, m) ∈ metres → parseLength C d text unit = .ok (v * m)) ∧
    (∀ v, C.eval d.constants (fun _ => none) text = .ok v → unit = "" → parseLength C d text unit = .ok (v / 1000)) ∧
    (unit ≠ "" → (∀ p ∈ metres, p.1 ≠ unit) → ∀ v, parseLength C d text unit ≠ .ok v) ∧
    (∀ e, C.eval d.constants (fun _ => none) text = .throws e → parseLength C d text unit = .throws e) := by
  unfold parseLength
  rw [if_neg htext]
  refine ⟨fun v m hv hm => ?_, fun v hv hu => ?_, fun hu hm v => ?_, fun e he => ?_⟩
  · rw [hv, Res.ok_bind, (metres_scale _ hm).1]; rfl
  · subst hu
    rw [hv, Res.ok_bind, lengthScale, if_pos rfl, Res.ok_bind, Res.pure_eq, sirenMm]
    congr 1
    ring
  · rw [length_unknown hu hm]
    intro h
    obtain ⟨a, -, h⟩ := bind_ok h
    cases h
  · rw [he]; rfl

/-- C113: an angle is the value of its text times its unit in radians, radians when there is no unit; another unit is refused. -/
theorem C113_angle (d : Data) (text unit : String) (htext : text ≠ "") :
    (∀ v m, C.eval d.constants (fun _ => none) text = .ok v → (unit, m) ∈ radians → parseAngle C d text unit = .ok (v * m)) ∧
    (∀ v, C.eval d.constants (fun _ => none) text = .ok v → unit = "" → parseAngle C d text unit = .ok v) ∧
    (unit ≠ "" → (∀ p ∈ radians, p.1 ≠ unit) → ∀ v, parseAngle C d text unit ≠ .ok v) := by
  unfold parseAngle
  rw [if_neg htext]
  refine ⟨fun v m hv hm => ?_, fun v hv hu => ?_, fun hu hm v => ?_⟩
  · rw [hv, Res.ok_bind, (radians_scale _ hm).1]; rfl
  · subst hu
    rw [hv, Res.ok_bind, angleScale, if_pos rfl, Res.ok_bind, Res.pure_eq, mul_one]
  · rw [angle_unknown hu hm]
    intro h
    obtain ⟨a, -, h⟩ := bind_ok h
    cases h

/-- What `<quantity>` stores. -/
theorem quantity_stores {name value unit type : String} (hname : '[' ∉ name.toList) (hne : name ≠ "") (hb : isBuiltIn name = false)
    {inLoop : Bool} {d d' : Data} (h : exec C strict inLoop (.quantity name value unit type) d = .ok d') :
    ∃ text v u, attr C inLoop d value = .ok text ∧ parseDouble C d text = .ok v ∧
      quantityScale unit (resolveType type unit).1 = .ok u ∧ d'.constants name = some (v * u) ∧
      ∀ t, (resolveType type unit).1 = some t → d'.quantityTypes name = some t := by
  rw [exec] at h
  unfold leaf at h
  dsimp only at h
  rw [resolve_plain C d hname, Res.ok_bind, if_neg hne, hb, if_neg (by simp)] at h
  obtain ⟨s, h1, h⟩ := bind_ok h
  obtain ⟨v, h2, h⟩ := bind_ok h
  obtain ⟨d1, -, h⟩ := bind_ok h
  obtain ⟨u, h3, h⟩ := bind_ok h
  refine ⟨s, v, u, h1, h2, h3, ?_⟩
  revert h
  cases (resolveType type unit).1 with
  | none => intro h; cases h; exact ⟨by simp [put], fun t ht => by cases ht⟩
  | some t => intro h; cases h; exact ⟨by simp [put], fun t' ht => by cases ht; simp [put]⟩

theorem resolveType_unit (type unit : String) {t : QType} (h : typeFromUnit unit = some t) : (resolveType type unit).1 = some t := by
  unfold resolveType
  rw [h]
  cases typeFromAttr type <;> rfl

/-- C113: a length quantity, used without unit anywhere after its definition, is the length given in its definition: its value times its unit
in metres. The evaluator returns the constant of a bare name (C31). -/
theorem C113_quantity_length {name value unit type : String} {m : ℚ} (hm : (unit, m) ∈ metres) (hname : '[' ∉ name.toList) (hne : name ≠ "")
    (hb : isBuiltIn name = false) (heval : ∀ c w, c name = some w → C.eval c (fun _ => none) name = .ok w)
    {inLoop : Bool} {d d' : Data} (h : exec C strict inLoop (.quantity name value unit type) d = .ok d') :
    ∃ text v, attr C inLoop d value = .ok text ∧ parseDouble C d text = .ok v ∧
      ∀ e : Data, e.constants name = d'.constants name → parseLength C e name "" = .ok (v * m) := by
  obtain ⟨s, v, u, h1, h2, h3, h4, -⟩ := quantity_stores hname hne hb h
  refine ⟨s, v, h1, h2, fun e he => ?_⟩
  obtain ⟨-, hu, ht, hbu⟩ := metres_scale _ hm
  rw [resolveType_unit type unit ht, quantityScale, if_neg hu, if_neg (by simp), hbu] at h3
  cases h3
  rw [parseLength, if_neg hne, heval _ _ (he.trans h4), Res.ok_bind, lengthScale, if_pos rfl, Res.ok_bind, Res.pure_eq, sirenMm]
  congr 1
  norm_num
  ring

/-- C113: the same for angles. -/
theorem C113_quantity_angle {name value unit type : String} {m : ℚ} (hm : (unit, m) ∈ radians) (hname : '[' ∉ name.toList) (hne : name ≠ "")
    (hb : isBuiltIn name = false) (heval : ∀ c w, c name = some w → C.eval c (fun _ => none) name = .ok w)
    {inLoop : Bool} {d d' : Data} (h : exec C strict inLoop (.quantity name value unit type) d = .ok d') :
    ∃ text v, attr C inLoop d value = .ok text ∧ parseDouble C d text = .ok v ∧
      ∀ e : Data, e.constants name = d'.constants name → parseAngle C e name "" = .ok (v * m) := by
  obtain ⟨s, v, u, h1, h2, h3, h4, -⟩ := quantity_stores hname hne hb h
  refine ⟨s, v, h1, h2, fun e he => ?_⟩
  obtain ⟨-, hu, ht, hbu⟩ := radians_scale _ hm
  rw [resolveType_unit type unit ht, quantityScale, if_neg hu, if_neg (by simp), hbu] at h3
  cases h3
  rw [parseAngle, if_neg hne, heval _ _ (he.trans h4), Res.ok_bind, angleScale, if_pos rfl, Res.ok_bind, Res.pure_eq, mul_one]

/-- C113: densities are stored in grams per cubic centimetre and energies in MeV, with their type, whatever the type attribute says. -/
theorem C113_quantity_other {name value unit type : String} (hname : '[' ∉ name.toList) (hne : name ≠ "") (hb : isBuiltIn name = false)
    {inLoop : Bool} {d d' : Data} (h : exec C strict inLoop (.quantity name value unit type) d = .ok d') :
    ∃ text v, attr C inLoop d value = .ok text ∧ parseDouble C d text = .ok v ∧
      (∀ m, (unit, m) ∈ gramsPerCm3 → d'.constants name = some (v * m) ∧ d'.quantityTypes name = some .density) ∧
      (∀ m, (unit, m) ∈ mev → d'.constants name = some (v * m) ∧ d'.quantityTypes name = some .energy) ∧
      (unit = "" → d'.constants name = some v) := by
  obtain ⟨s, v, u, h1, h2, h3, h4, h5⟩ := quantity_stores hname hne hb h
  refine ⟨s, v, h1, h2, fun m hm => ?_, fun m hm => ?_, fun hu => ?_⟩
  · obtain ⟨hu, ht, hs⟩ := density_scale _ hm
    have hr := resolveType_unit type unit ht
    rw [hr, hs] at h3
    cases h3
    exact ⟨h4, h5 _ hr⟩
  · obtain ⟨hu, ht, hs⟩ := mev_scale _ hm
    have hr := resolveType_unit type unit ht
    rw [hr, quantityScale, if_neg hu, if_neg (by simp), hs] at h3
    cases h3
    exact ⟨h4, h5 _ hr⟩
  · rw [quantityScale, if_pos hu] at h3
    cases h3
    rw [h4, mul_one]

/-- `<quantity name="w" value="3" unit="inch"/>` and then `w` used as a length. -/
example : ∃ d', exec Example.calls false false (.quantity "w" "3" "inch" "") Example.empty = .ok d' ∧
    parseLength Example.calls d' "w" "" = .ok (3 * (254 / 10000)) := by
  have hok : ∃ d', exec Example.calls false false (.quantity "w" "3" "inch" "") Example.empty = .ok d' := by
    have h : (match exec Example.calls false false (.quantity "w" "3" "inch" "") Example.empty with
      | .ok _ => true
      | _ => false) = true := by decide +kernel
    cases hx : exec Example.calls false false (.quantity "w" "3" "inch" "") Example.empty with
    | ok d => exact ⟨d, rfl⟩
    | throws e => rw [hx] at h; cases h
    | ub => rw [hx] at h; cases h
  obtain ⟨d', hd⟩ := hok
  obtain ⟨t, v, h1, h2, h3⟩ := C113_quantity_length (C := Example.calls) (m := 254 / 10000) (by simp [metres]) (by decide) (by decide)
    (by decide) (fun c w hc => by
      simp [Example.calls, hc]) hd
  obtain rfl : "3" = t := by simpa [attr] using h1
  have : v = 3 := by
    have h : parseDouble Example.calls Example.empty "3" = .ok 3 := by decide +kernel
    rw [h] at h2
    exact (Res.ok.inj h2).symm
  subst this
  exact ⟨d', hd, h3 d' rfl⟩

end Siren.Gdml.Define
