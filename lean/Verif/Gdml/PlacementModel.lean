import Verif.Gdml.LoopModel
import Mathlib.Data.List.Nodup
import Verif.Geometry.PolyconeMain

set_option autoImplicit false

/-! # C137: placements and planes in GDML files

`ReadPlacement` and `ValidateZPlaneMonotonicity` (`projects/detector/private/gdml/GDMLReadUtils.cxx`). A rotation is kept as its three
angles, as in the model of `<define>`; the identity is the rotation by zero. -/

namespace Siren.Gdml.Placement

open Siren Siren.Gdml Siren.Gdml.Define
open Siren.Gdml.Loop (attrVal)

/-- An XML element without its children (`rapidxml::xml_node`, used in GDMLReadUtils.cxx:55-133). -/
structure Child where
  tag : String
  attrs : List (String × String)

/-- `first_node` with a name (GDMLReadUtils.cxx:97, 103, 114, 120). -/
def first (kids : List Child) (tag : String) : Option Child := kids.find? fun c => c.tag == tag

/-- The tags `ReadPlacement` is called with (GDMLStructureParser.cxx:126-127, GDMLSolidParser.cxx:443-446). -/
structure Tags where
  pos : String
  posRef : String
  rot : String
  rotRef : String

def volumeTags : Tags := ⟨"position", "positionref", "rotation", "rotationref"⟩
def firstTags : Tags := ⟨"firstposition", "firstpositionref", "firstrotation", "firstrotationref"⟩

/-- `ReadPositionXYZ` and `ReadRotationXYZ` (GDMLReadUtils.cxx:55-73). -/
def readXYZ (parse : String → String → Res ℚ) (n : Child) : Res (ℚ × ℚ × ℚ) := do
  let unit := attrVal n.attrs "unit"
  let x ← parse (attrVal n.attrs "x") unit
  let y ← parse (attrVal n.attrs "y") unit
  let z ← parse (attrVal n.attrs "z") unit
  pure (x, y, z)

/-- `GDMLPlacement` (GDMLParserPrivate.h:25-29). -/
structure Place where
  position : ℚ × ℚ × ℚ
  rotation : ℚ × ℚ × ℚ
  specified : Bool
  deriving DecidableEq

/-- One half of `ReadPlacement` (GDMLReadUtils.cxx:98-113, 115-130): the element with numbers, then the one with a reference, each
    over the value so far. -/
def readHalf (parse : String → String → Res ℚ) (named : String → Option (ℚ × ℚ × ℚ)) (tag refTag : String) (kids : List Child)
    (value : ℚ × ℚ × ℚ) (specified : Bool) : Res ((ℚ × ℚ × ℚ) × Bool) := do
  let s ← match first kids tag with
    | none => Res.ok (value, specified)
    | some n => do
        let v ← readXYZ parse n
        pure (v, true)
  match first kids refTag with
  | none => pure s
  | some n => match named (attrVal n.attrs "ref") with
    | none => Res.throws .runtimeError
    | some v => pure (v, true)

/-- `ReadPlacement` (GDMLReadUtils.cxx:89-133). -/
def readPlacement (C : Calls) (d : Data) (T : Tags) (kids : List Child) : Res Place := do
  let p ← readHalf (parseLength C d) d.positions T.pos T.posRef kids (0, 0, 0) false
  let r ← readHalf (parseAngle C d) d.rotations T.rot T.rotRef kids (0, 0, 0) p.2
  pure ⟨p.1, r.1, r.2⟩

open Classical in
/-- `ValidateZPlaneMonotonicity` (GDMLReadUtils.cxx:148-158). -/
noncomputable def validatePlanes (z : List ℝ) : Bool :=
  if z.length < 2 then false
  else
    let ascending := (z.zip z.tail).all fun q => !decide (q.2 < q.1)
    let descending := (z.zip z.tail).all fun q => !decide (q.2 > q.1)
    ascending || descending

/-! ### Specification -/

/-- The element gives these three texts and this unit. -/
def Child.Gives (c : Child) (unit x y z : String) : Prop :=
  attrVal c.attrs "unit" = unit ∧ attrVal c.attrs "x" = x ∧ attrVal c.attrs "y" = y ∧ attrVal c.attrs "z" = z

/-- The four tags differ. -/
def Tags.Differ (T : Tags) : Prop := [T.pos, T.posRef, T.rot, T.rotRef].Nodup

theorem tags_differ : volumeTags.Differ ∧ firstTags.Differ := ⟨by unfold Tags.Differ volumeTags; decide, by unfold Tags.Differ firstTags; decide⟩

/-! ### Lemmas -/

theorem first_iff {kids : List Child} (h : (kids.map Child.tag).Nodup) (t : String) (c : Child) : first kids t = some c ↔ c ∈ kids ∧ c.tag = t := by
  induction kids with
  | nil => simp [first]
  | cons a l ih =>
    rw [List.map_cons, List.nodup_cons] at h
    have ih := ih h.2
    unfold first at ih ⊢
    rw [List.find?_cons]
    by_cases ha : a.tag = t
    · have hb : (a.tag == t) = true := by simpa using ha
      rw [hb]
      simp only [Option.some.injEq, List.mem_cons]
      constructor
      · rintro rfl; exact ⟨Or.inl rfl, ha⟩
      · rintro ⟨h' | h', h''⟩
        · exact h'.symm
        · exact absurd (List.mem_map.mpr ⟨c, h', by rw [h'', ha]⟩) h.1
    · have hb : (a.tag == t) = false := by simpa using ha
      rw [hb]
      simp only [List.mem_cons]
      rw [ih]
      constructor
      · rintro ⟨h1, h2⟩; exact ⟨Or.inr h1, h2⟩
      · rintro ⟨rfl | h1, h2⟩
        · exact absurd h2 ha
        · exact ⟨h1, h2⟩

theorem first_perm {kids kids' : List Child} (hp : kids.Perm kids') (h : (kids.map Child.tag).Nodup) (t : String) : first kids t = first kids' t := by
  have h' : (kids'.map Child.tag).Nodup := (hp.map _).nodup_iff.mp h
  apply Option.ext
  intro c
  rw [first_iff h, first_iff h', hp.mem_iff]

theorem first_cons (a : Child) (l : List Child) (t : String) : first (a :: l) t = if a.tag = t then some a else first l t := by
  unfold first
  rw [List.find?_cons]
  by_cases h : a.tag = t
  · rw [if_pos h, show (a.tag == t) = true by simpa using h]
  · rw [if_neg h, show (a.tag == t) = false by simpa using h]

/-! ### Theorems -/

/-- C137: the order of the elements does not matter. -/
theorem C137_order (C : Calls) (d : Data) (T : Tags) {kids kids' : List Child} (hp : kids.Perm kids') (h : (kids.map Child.tag).Nodup) :
    readPlacement C d T kids = readPlacement C d T kids' := by
  unfold readPlacement readHalf
  simp only [first_perm hp h]

/-- C137: elements with other tags do not matter. -/
theorem C137_others (C : Calls) (d : Data) (T : Tags) (a : Child) (kids : List Child)
    (ha : a.tag ∉ [T.pos, T.posRef, T.rot, T.rotRef]) : readPlacement C d T (a :: kids) = readPlacement C d T kids := by
  simp only [List.mem_cons, List.not_mem_nil, or_false, not_or] at ha
  unfold readPlacement readHalf
  simp only [first_cons, if_neg ha.1, if_neg ha.2.1, if_neg ha.2.2.1, if_neg ha.2.2.2]

/-- C137: a position that a `<define>` section names and a placement refers to is the same as its numbers in the placement. -/
theorem C137_position (C : Calls) (strict : Bool) (d d' : Data) (name ref unit x y z : String)
    (hdef : leaf C strict false (.position name unit x y z) d = .ok d') (hname : resolve C d name = .ok ref) (hne : ref ≠ "")
    (T : Tags) (hT : T.Differ) (a b : Child) (hb : b.tag = T.posRef ∧ attrVal b.attrs "ref" = ref) (ha : a.tag = T.pos ∧ a.Gives unit x y z)
    (kids : List Child) (h1 : first kids T.pos = none) (h2 : first kids T.posRef = none) :
    readPlacement C d' T (b :: kids) = readPlacement C d' T (a :: kids) ∧ ∃ v, d'.positions ref = some v ∧
      ∀ p, readPlacement C d' T (b :: kids) = .ok p → p.position = v ∧ p.specified = true := by
  obtain ⟨b1, b2⟩ := hb
  obtain ⟨a1, a2, a3, a4, a5⟩ := ha
  unfold Tags.Differ at hT
  simp only [List.nodup_cons, List.mem_cons, List.not_mem_nil, or_false, not_or, not_false_eq_true, List.nodup_nil, and_true] at hT
  obtain ⟨⟨t1, t2, t3⟩, ⟨t4, t5⟩, t6⟩ := hT
  simp only [leaf, hname, Res.ok_bind, if_neg hne, attr, Bool.false_eq_true, if_false] at hdef
  -- the definition
  cases hx : parseLength C d x unit with
  | throws e => rw [hx] at hdef; cases hdef
  | ub => rw [hx] at hdef; cases hdef
  | ok vx =>
  cases hy : parseLength C d y unit with
  | throws e => rw [hx, hy] at hdef; cases hdef
  | ub => rw [hx, hy] at hdef; cases hdef
  | ok vy =>
  cases hz : parseLength C d z unit with
  | throws e => rw [hx, hy, hz] at hdef; cases hdef
  | ub => rw [hx, hy, hz] at hdef; cases hdef
  | ok vz =>
  rw [hx, hy, hz] at hdef
  simp only [Res.ok_bind, Res.pure_eq, Res.ok.injEq] at hdef
  have hp : d'.positions ref = some (vx, vy, vz) := by rw [← hdef]; simp [put]
  have hpl : ∀ s u, parseLength C d' s u = parseLength C d s u := by intro s u; rw [← hdef]; rfl
  have e1 : readHalf (parseLength C d') d'.positions T.pos T.posRef (b :: kids) (0, 0, 0) false = .ok ((vx, vy, vz), true) := by
    unfold readHalf
    have n1 : ¬ T.posRef = T.pos := fun h => t1 h.symm
    simp only [first_cons, b1, n1, h1, if_true, if_false, Res.ok_bind, b2, hp, Res.pure_eq]
  have e2 : readHalf (parseLength C d') d'.positions T.pos T.posRef (a :: kids) (0, 0, 0) false = .ok ((vx, vy, vz), true) := by
    unfold readHalf readXYZ
    simp only [first_cons, a1, t1, h2, if_true, if_false, a2, a3, a4, a5, hpl, hx, hy, hz, Res.ok_bind, Res.pure_eq]
  have e3 : readHalf (parseAngle C d') d'.rotations T.rot T.rotRef (b :: kids) (0, 0, 0) true =
      readHalf (parseAngle C d') d'.rotations T.rot T.rotRef (a :: kids) (0, 0, 0) true := by
    unfold readHalf
    simp only [first_cons, b1, a1, t2, t3, t4, t5, if_false]
  refine ⟨?_, _, hp, ?_⟩
  · unfold readPlacement
    rw [e1, e2]
    simp only [Res.ok_bind, e3]
  · intro p h
    unfold readPlacement at h
    rw [e1] at h
    simp only [Res.ok_bind] at h
    cases hr : readHalf (parseAngle C d') d'.rotations T.rot T.rotRef (b :: kids) (0, 0, 0) true with
    | throws e => rw [hr] at h; cases h
    | ub => rw [hr] at h; cases h
    | ok r =>
      rw [hr] at h
      simp only [Res.ok_bind, Res.pure_eq, Res.ok.injEq] at h
      subst h
      refine ⟨rfl, ?_⟩
      simp only
      unfold readHalf at hr
      have key : ∀ s : (ℚ × ℚ × ℚ) × Bool, s.2 = true → (match first (b :: kids) T.rotRef with
          | none => pure s
          | some n => match d'.rotations (attrVal n.attrs "ref") with
            | none => Res.throws .runtimeError
            | some v => pure (v, true) : Res _) = .ok r → r.2 = true := by
        intro s hs h
        split at h
        · cases h; exact hs
        · split at h
          · cases h
          · cases h; rfl
      cases hf : first (b :: kids) T.rot with
      | none => rw [hf] at hr; exact key _ rfl hr
      | some n =>
        rw [hf] at hr
        simp only at hr
        cases hv : readXYZ (parseAngle C d') n with
        | throws e => rw [hv] at hr; cases hr
        | ub => rw [hv] at hr; cases hr
        | ok v => rw [hv] at hr; exact key (v, true) rfl hr

/-- C137: a rotation that a `<define>` section names and a placement refers to is the same as its angles in the placement. -/
theorem C137_rotation (C : Calls) (strict : Bool) (d d' : Data) (name ref unit x y z : String)
    (hdef : leaf C strict false (.rotation name unit x y z) d = .ok d') (hname : resolve C d name = .ok ref) (hne : ref ≠ "")
    (T : Tags) (hT : T.Differ) (a b : Child) (hb : b.tag = T.rotRef ∧ attrVal b.attrs "ref" = ref) (ha : a.tag = T.rot ∧ a.Gives unit x y z)
    (kids : List Child) (h1 : first kids T.rot = none) (h2 : first kids T.rotRef = none) :
    readPlacement C d' T (b :: kids) = readPlacement C d' T (a :: kids) ∧ ∃ v, d'.rotations ref = some v ∧
      ∀ p, readPlacement C d' T (b :: kids) = .ok p → p.rotation = v ∧ p.specified = true := by
  obtain ⟨b1, b2⟩ := hb
  obtain ⟨a1, a2, a3, a4, a5⟩ := ha
  unfold Tags.Differ at hT
  simp only [List.nodup_cons, List.mem_cons, List.not_mem_nil, or_false, not_or, not_false_eq_true, List.nodup_nil, and_true] at hT
  obtain ⟨⟨t1, t2, t3⟩, ⟨t4, t5⟩, t6⟩ := hT
  simp only [leaf, hname, Res.ok_bind, if_neg hne, attr, Bool.false_eq_true, if_false] at hdef
  cases hx : parseAngle C d x unit with
  | throws e => rw [hx] at hdef; cases hdef
  | ub => rw [hx] at hdef; cases hdef
  | ok vx =>
  cases hy : parseAngle C d y unit with
  | throws e => rw [hx, hy] at hdef; cases hdef
  | ub => rw [hx, hy] at hdef; cases hdef
  | ok vy =>
  cases hz : parseAngle C d z unit with
  | throws e => rw [hx, hy, hz] at hdef; cases hdef
  | ub => rw [hx, hy, hz] at hdef; cases hdef
  | ok vz =>
  rw [hx, hy, hz] at hdef
  simp only [Res.ok_bind, Res.pure_eq, Res.ok.injEq] at hdef
  have hp : d'.rotations ref = some (vx, vy, vz) := by rw [← hdef]; simp [put]
  have hpl : ∀ s u, parseAngle C d' s u = parseAngle C d s u := by intro s u; rw [← hdef]; rfl
  have e1 : ∀ sp, readHalf (parseAngle C d') d'.rotations T.rot T.rotRef (b :: kids) (0, 0, 0) sp = .ok ((vx, vy, vz), true) := by
    intro sp
    unfold readHalf
    have n1 : ¬ T.rotRef = T.rot := fun h => t6 h.symm
    simp only [first_cons, b1, n1, h1, if_true, if_false, Res.ok_bind, b2, hp, Res.pure_eq]
  have e2 : ∀ sp, readHalf (parseAngle C d') d'.rotations T.rot T.rotRef (a :: kids) (0, 0, 0) sp = .ok ((vx, vy, vz), true) := by
    intro sp
    unfold readHalf readXYZ
    simp only [first_cons, a1, t6, h2, if_true, if_false, a2, a3, a4, a5, hpl, hx, hy, hz, Res.ok_bind, Res.pure_eq]
  have e3 : readHalf (parseLength C d') d'.positions T.pos T.posRef (b :: kids) (0, 0, 0) false =
      readHalf (parseLength C d') d'.positions T.pos T.posRef (a :: kids) (0, 0, 0) false := by
    unfold readHalf
    have n2 : ¬ T.rot = T.pos := fun h => t2 h.symm
    have n3 : ¬ T.rotRef = T.pos := fun h => t3 h.symm
    have n4 : ¬ T.rot = T.posRef := fun h => t4 h.symm
    have n5 : ¬ T.rotRef = T.posRef := fun h => t5 h.symm
    simp only [first_cons, b1, a1, n2, n3, n4, n5, if_false]
  refine ⟨?_, _, hp, ?_⟩
  · unfold readPlacement
    simp only [e1, e2, e3]
  · intro p h
    unfold readPlacement at h
    simp only [e1] at h
    cases hr : readHalf (parseLength C d') d'.positions T.pos T.posRef (b :: kids) (0, 0, 0) false with
    | throws e => rw [hr] at h; cases h
    | ub => rw [hr] at h; cases h
    | ok r =>
      rw [hr] at h
      simp only [Res.ok_bind, Res.pure_eq, Res.ok.injEq] at h
      subst h
      exact ⟨rfl, rfl⟩

/-- C137: a reference to a name nothing defines is an error. -/
theorem C137_dangling (C : Calls) (d : Data) (T : Tags) (kids : List Child) (c : Child)
    (h : (first kids T.posRef = some c ∧ d.positions (attrVal c.attrs "ref") = none) ∨ (first kids T.rotRef = some c ∧ d.rotations (attrVal c.attrs "ref") = none))
    (p : Place) : readPlacement C d T kids ≠ .ok p := by
  have key : ∀ (parse : String → String → Res ℚ) (named : String → Option (ℚ × ℚ × ℚ)) (tag refTag : String) (v : ℚ × ℚ × ℚ) (s : Bool) r,
      first kids refTag = some c → named (attrVal c.attrs "ref") = none → readHalf parse named tag refTag kids v s ≠ .ok r := by
    intro parse named tag refTag v s r h1 h2 h
    unfold readHalf at h
    rw [h1] at h
    simp only [h2] at h
    cases hf : first kids tag with
    | none => rw [hf] at h; cases h
    | some n =>
      rw [hf] at h
      simp only at h
      cases hv : readXYZ parse n with
      | throws e => rw [hv] at h; cases h
      | ub => rw [hv] at h; cases h
      | ok v => rw [hv] at h; cases h
  intro hp
  unfold readPlacement at hp
  cases h1 : readHalf (parseLength C d) d.positions T.pos T.posRef kids (0, 0, 0) false with
  | throws e => rw [h1] at hp; cases hp
  | ub => rw [h1] at hp; cases hp
  | ok r1 =>
    rcases h with ⟨a, b⟩ | ⟨a, b⟩
    · exact key _ _ _ _ _ _ _ a b h1
    · rw [h1] at hp
      simp only [Res.ok_bind] at hp
      cases h2 : readHalf (parseAngle C d) d.rotations T.rot T.rotRef kids (0, 0, 0) r1.2 with
      | throws e => rw [h2] at hp; cases hp
      | ub => rw [h2] at hp; cases hp
      | ok r2 => exact key _ _ _ _ _ _ _ a b h2

/-- C137: without any of the elements the placement is at the origin and not turned. -/
theorem C137_absent (C : Calls) (d : Data) (T : Tags) (kids : List Child) (h : ∀ c ∈ kids, c.tag ∉ [T.pos, T.posRef, T.rot, T.rotRef]) :
    readPlacement C d T kids = .ok ⟨(0, 0, 0), (0, 0, 0), false⟩ := by
  induction kids with
  | nil => rfl
  | cons a l ih =>
    rw [C137_others C d T a l (h a (by simp))]
    exact ih fun c hc => h c (by simp [hc])

/-- C137: the planes of a polycone or polyhedron pass exactly if there are at least two and their heights only increase or only
    decrease, which is what the constructors demand of heights. -/
theorem C137_planes (z : List ℝ) : validatePlanes z = true ↔ 2 ≤ z.length ∧ (z.Pairwise (· ≤ ·) ∨ z.Pairwise (· ≥ ·)) := by
  classical
  have ha := Siren.Geometry.Polycone.ascending_iff z
  have hd := Siren.Geometry.Polycone.descending_iff z
  unfold validatePlanes
  by_cases h : z.length < 2
  · rw [if_pos h]
    constructor
    · intro h'; cases h'
    · rintro ⟨h', -⟩; omega
  · rw [if_neg h]
    simp only
    rw [Bool.or_eq_true]
    constructor
    · rintro (h' | h')
      · exact ⟨by omega, Or.inl (ha.mp (by convert h'))⟩
      · exact ⟨by omega, Or.inr (hd.mp (by convert h'))⟩
    · rintro ⟨-, h' | h'⟩
      · left; convert ha.mpr h'
      · right; convert hd.mpr h'

/-! ### Examples -/

/-- Expressions that are single digits. -/
def calls : Calls := ⟨fun _ _ s => if s = "1" then .ok 1 else if s = "2" then .ok 2 else .throws .runtimeError, fun _ => none, fun _ => none⟩

def empty : Data := ⟨fun _ => none, fun _ => none, fun _ => none, fun _ => none, fun _ => none, 0⟩

/-- A position in metres is defined. -/
example : ∃ d', leaf calls true false (.position "p" "m" "1" "2" "") empty = .ok d' ∧ resolve calls empty "p" = .ok "p" ∧
    readPlacement calls d' volumeTags [⟨"rotation", [("x", "1"), ("unit", "rad")]⟩, ⟨"positionref", [("ref", "p")]⟩] =
      .ok ⟨(1, 2, 0), (1, 0, 0), true⟩ := by
  refine ⟨_, rfl, rfl, ?_⟩
  decide +kernel

example : readPlacement calls empty volumeTags [⟨"positionref", [("ref", "p")]⟩] = .throws .runtimeError := rfl

example : validatePlanes [3, 3, 1] = true := (C137_planes _).mpr ⟨by simp, Or.inr (by simp)⟩
example : validatePlanes [1, 3, 1] = false := by
  rw [← Bool.not_eq_true, C137_planes]
  rintro ⟨-, h | h⟩ <;> simp at h

end Siren.Gdml.Placement
