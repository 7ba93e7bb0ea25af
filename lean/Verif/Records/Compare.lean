import Verif.Geometry.Compare
import Verif.Records.ParticleID
import Verif.Tactics
import Mathlib.Data.String.Basic

set_option autoImplicit false

/-!
# C05: comparing identifiers, signatures and records

Models `operator<` and `operator==` of `ParticleID` (dataclasses/private/ParticleID.cxx:72-78), `InteractionSignature`
(dataclasses/private/InteractionSignature.cxx:10-26) and `InteractionRecord` (dataclasses/private/InteractionRecord.cxx:1208-1288).

Numbers are elements of a linear order (no NaN). Particle types are integers. A `std::map` is its list of key-value pairs in
key order, which is what its comparison operators look at.
-/

namespace Siren.Records

open Siren.Geometry.Compare (lexLt StrictTotal strictTotal_lt strictTotal_lex)

/-- `std::tuple::operator<`: the fields in turn; each entry says whether this side's field is less, and whether the other
side's is. -/
def tieLt : List (Bool × Bool) → Bool
  | [] => false
  | (lt, gt) :: rest => if lt then true else if gt then false else tieLt rest

/-- `operator<` of `bool`. -/
def boolLt (a b : Bool) : Bool := !a && b

/-- `operator<` of numbers, types and strings. -/
def ltOf {A : Type} [LinearOrder A] (a b : A) : Bool := decide (a < b)

/-- `ParticleID::operator<` (dataclasses/private/ParticleID.cxx:72-74). -/
def ParticleID.lt (a b : ParticleID) : Bool :=
  tieLt [(boolLt a.set b.set, boolLt b.set a.set), (ltOf a.major b.major, ltOf b.major a.major),
    (ltOf a.minor b.minor, ltOf b.minor a.minor)]

/-- `ParticleID::operator==` (dataclasses/private/ParticleID.cxx:76-78). -/
def ParticleID.eq (a b : ParticleID) : Bool :=
  decide (a.set = b.set) && decide (a.major = b.major) && decide (a.minor = b.minor)

/-- `InteractionSignature` (dataclasses/public/SIREN/dataclasses/InteractionSignature.h). -/
structure Signature where
  primary : Int
  target : Int
  secondaries : List Int
  deriving DecidableEq, Repr

/-- `InteractionSignature::operator<` (dataclasses/private/InteractionSignature.cxx:21-26). -/
def Signature.lt (a b : Signature) : Bool :=
  tieLt [(ltOf a.primary b.primary, ltOf b.primary a.primary), (ltOf a.target b.target, ltOf b.target a.target),
    (lexLt ltOf a.secondaries b.secondaries, lexLt ltOf b.secondaries a.secondaries)]

/-- `InteractionSignature::operator==` (dataclasses/private/InteractionSignature.cxx:10-15). -/
def Signature.eq (a b : Signature) : Bool :=
  decide (a.primary = b.primary) && decide (a.target = b.target) && decide (a.secondaries = b.secondaries)

variable {K : Type} [LinearOrder K]

/-- `InteractionRecord` (dataclasses/public/SIREN/dataclasses/InteractionRecord.h:303-322). Arrays are lists. -/
structure Record (K : Type) where
  signature : Signature
  primaryId : ParticleID
  primaryInitialPosition : List K
  primaryInitialTime : K
  primaryMass : K
  primaryMomentum : List K
  primaryHelicity : K
  targetId : ParticleID
  targetMass : K
  targetHelicity : K
  interactionVertex : List K
  interactionTime : K
  secondaryIds : List ParticleID
  secondaryMasses : List K
  secondaryMomenta : List (List K)
  secondaryHelicities : List K
  secondaryTimes : List K
  interactionParameters : List (String × K)

/-- `std::pair::operator<` on map entries. -/
def entryLt (a b : String × K) : Bool := tieLt [(ltOf a.1 b.1, ltOf b.1 a.1), (ltOf a.2 b.2, ltOf b.2 a.2)]

/-- One field of the comparison, by its own `operator<`. -/
def field {A : Type} (lt : A → A → Bool) (a b : A) : Bool × Bool := (lt a b, lt b a)

/-- `InteractionRecord::operator<` (dataclasses/private/InteractionRecord.cxx:1249-1288). -/
def Record.lt (a b : Record K) : Bool :=
  tieLt [field Signature.lt a.signature b.signature,
    field ParticleID.lt a.primaryId b.primaryId,
    field (lexLt ltOf) a.primaryInitialPosition b.primaryInitialPosition,
    field ltOf a.primaryInitialTime b.primaryInitialTime,
    field ltOf a.primaryMass b.primaryMass,
    field (lexLt ltOf) a.primaryMomentum b.primaryMomentum,
    field ltOf a.primaryHelicity b.primaryHelicity,
    field ParticleID.lt a.targetId b.targetId,
    field ltOf a.targetMass b.targetMass,
    field ltOf a.targetHelicity b.targetHelicity,
    field (lexLt ltOf) a.interactionVertex b.interactionVertex,
    field ltOf a.interactionTime b.interactionTime,
    field (lexLt ParticleID.lt) a.secondaryIds b.secondaryIds,
    field (lexLt ltOf) a.secondaryMasses b.secondaryMasses,
    field (lexLt (lexLt ltOf)) a.secondaryMomenta b.secondaryMomenta,
    field (lexLt ltOf) a.secondaryHelicities b.secondaryHelicities,
    field (lexLt ltOf) a.secondaryTimes b.secondaryTimes,
    field (lexLt entryLt) a.interactionParameters b.interactionParameters]

/-- Equality of sequences, element by element. -/
def listEq {A : Type} (eq : A → A → Bool) : List A → List A → Bool
  | [], [] => true
  | a :: as, b :: bs => eq a b && listEq eq as bs
  | _, _ => false

/-- `InteractionRecord::operator==` (dataclasses/private/InteractionRecord.cxx:1208-1247). -/
def Record.eq (a b : Record K) : Bool :=
  Signature.eq a.signature b.signature && ParticleID.eq a.primaryId b.primaryId &&
  decide (a.primaryInitialPosition = b.primaryInitialPosition) && decide (a.primaryInitialTime = b.primaryInitialTime) &&
  decide (a.primaryMass = b.primaryMass) && decide (a.primaryMomentum = b.primaryMomentum) &&
  decide (a.primaryHelicity = b.primaryHelicity) && ParticleID.eq a.targetId b.targetId &&
  decide (a.targetMass = b.targetMass) && decide (a.targetHelicity = b.targetHelicity) &&
  decide (a.interactionVertex = b.interactionVertex) && decide (a.interactionTime = b.interactionTime) &&
  listEq ParticleID.eq a.secondaryIds b.secondaryIds && decide (a.secondaryMasses = b.secondaryMasses) &&
  decide (a.secondaryMomenta = b.secondaryMomenta) && decide (a.secondaryHelicities = b.secondaryHelicities) &&
  decide (a.secondaryTimes = b.secondaryTimes) && decide (a.interactionParameters = b.interactionParameters)

/-! ### Specification -/

/-- A strict order in which any two elements are equal or comparable, with an equality test that decides equality. -/
structure Comparison {A : Type} (lt eq : A → A → Bool) : Prop where
  equality : ∀ a b, eq a b = true ↔ a = b
  irrefl : ∀ a, lt a a = false
  trans : ∀ a b c, lt a b = true → lt b c = true → lt a c = true
  trichotomy : ∀ a b, (lt a b = true ∧ eq a b = false ∧ lt b a = false) ∨ (lt a b = false ∧ eq a b = true ∧ lt b a = false) ∨
    (lt a b = false ∧ eq a b = false ∧ lt b a = true)

/-! ### Proofs -/

theorem comparison_of {A : Type} {lt eq : A → A → Bool} (h : StrictTotal lt) (he : ∀ a b, eq a b = true ↔ a = b) :
    Comparison lt eq := by
  refine ⟨he, h.irrefl, h.trans, ?_⟩
  intro a b
  by_cases e : a = b
  · subst e; exact Or.inr (Or.inl ⟨h.irrefl a, (he a a).2 rfl, h.irrefl a⟩)
  · have e1 : eq a b = false := by rw [Bool.eq_false_iff]; exact fun h => e ((he a b).1 h)
    cases hab : lt a b
    · cases hba : lt b a
      · exact absurd (h.total a b hab hba) e
      · exact Or.inr (Or.inr ⟨rfl, e1, rfl⟩)
    · exact Or.inl ⟨rfl, e1, h.asymm a b hab⟩

theorem strictTotal_ltOf {A : Type} [LinearOrder A] : StrictTotal (ltOf : A → A → Bool) := strictTotal_lt A

theorem strictTotal_bool : StrictTotal boolLt :=
  ⟨by decide, by decide, by decide⟩

/-- Lexicographic order of pairs. -/
def pairLt {A B : Type} (ltA : A → A → Bool) (ltB : B → B → Bool) (x y : A × B) : Bool :=
  if ltA x.1 y.1 then true else if ltA y.1 x.1 then false else ltB x.2 y.2

theorem strictTotal_pair {A B : Type} {ltA : A → A → Bool} {ltB : B → B → Bool} (ha : StrictTotal ltA) (hb : StrictTotal ltB) :
    StrictTotal (pairLt ltA ltB) := by
  refine ⟨?_, ?_, ?_⟩
  · intro x; simp [pairLt, ha.irrefl, hb.irrefl]
  · rintro ⟨a, b⟩ ⟨a', b'⟩ ⟨a'', b''⟩ h1 h2
    simp only [pairLt] at *
    cases h12 : ltA a a' <;> cases h21 : ltA a' a <;> simp only [h12, h21, if_true, if_false, Bool.false_eq_true] at h1
    · have e := ha.total a a' h12 h21; subst e
      cases h23 : ltA a a'' <;> cases h32 : ltA a'' a <;> simp only [h23, h32, if_true, if_false, Bool.false_eq_true] at h2 ⊢
      exact hb.trans b b' b'' h1 h2
    · cases h23 : ltA a' a'' <;> cases h32 : ltA a'' a' <;> simp only [h23, h32, if_true, if_false, Bool.false_eq_true] at h2
      · have e := ha.total a' a'' h23 h32; subst e; simp [h12]
      · simp [ha.trans a a' a'' h12 h23]
      · simp [ha.trans a a' a'' h12 h23]
    · cases h23 : ltA a' a'' <;> cases h32 : ltA a'' a' <;> simp only [h23, h32, if_true, if_false, Bool.false_eq_true] at h2
      · have e := ha.total a' a'' h23 h32; subst e; simp [h12]
      · simp [ha.trans a a' a'' h12 h23]
      · simp [ha.trans a a' a'' h12 h23]
  · rintro ⟨a, b⟩ ⟨a', b'⟩ h1 h2
    simp only [pairLt] at *
    cases h12 : ltA a a' <;> cases h21 : ltA a' a <;> simp only [h12, h21, if_true, if_false, Bool.false_eq_true] at h1 h2
    · have e := ha.total a a' h12 h21; subst e
      rw [hb.total b b' h1 h2]
    all_goals first | simp at h2 | simp at h1

theorem strictTotal_unit : StrictTotal (fun _ _ : Unit => false) := ⟨fun _ => rfl, fun _ _ _ h => by simp at h, fun _ _ _ _ => rfl⟩

/-- An injective view carries an order over. -/
theorem strictTotal_comap {A B : Type} {lt : B → B → Bool} (h : StrictTotal lt) (f : A → B) (hf : ∀ a b, f a = f b → a = b)
    (lt' : A → A → Bool) (he : ∀ a b, lt' a b = lt (f a) (f b)) : StrictTotal lt' :=
  ⟨fun a => by rw [he]; exact h.irrefl _, fun a b c h1 h2 => by rw [he] at *; exact h.trans _ _ _ h1 h2,
    fun a b h1 h2 => hf a b (h.total _ _ (by rw [← he]; exact h1) (by rw [← he]; exact h2))⟩

theorem strictTotal_id : StrictTotal ParticleID.lt :=
  strictTotal_comap (strictTotal_pair strictTotal_bool (strictTotal_pair (strictTotal_ltOf (A := Nat))
    (strictTotal_pair (strictTotal_ltOf (A := Int)) strictTotal_unit)))
    (fun a => (a.set, a.major, a.minor, ()))
    (fun a b h => by cases a; cases b; simp at h; simp [h]) _ (fun _ _ => rfl)

theorem strictTotal_signature : StrictTotal Signature.lt :=
  strictTotal_comap (strictTotal_pair (strictTotal_ltOf (A := Int)) (strictTotal_pair (strictTotal_ltOf (A := Int))
    (strictTotal_pair (strictTotal_lex (strictTotal_ltOf (A := Int))) strictTotal_unit)))
    (fun a => (a.primary, a.target, a.secondaries, ()))
    (fun a b h => by cases a; cases b; simp at h; simp [h]) _ (fun _ _ => rfl)

theorem strictTotal_entry : StrictTotal (entryLt (K := K)) :=
  strictTotal_comap (strictTotal_pair (strictTotal_ltOf (A := String)) (strictTotal_pair (strictTotal_ltOf (A := K)) strictTotal_unit))
    (fun a => (a.1, a.2, ())) (fun a b h => by cases a; cases b; simp at h; simp [h]) _ (fun _ _ => rfl)

theorem strictTotal_record : StrictTotal (Record.lt (K := K)) :=
  have d : StrictTotal (ltOf : K → K → Bool) := strictTotal_ltOf
  have v := strictTotal_lex d
  have i := strictTotal_id
  strictTotal_comap
    (strictTotal_pair strictTotal_signature <| strictTotal_pair i <| strictTotal_pair v <| strictTotal_pair d <|
      strictTotal_pair d <| strictTotal_pair v <| strictTotal_pair d <| strictTotal_pair i <| strictTotal_pair d <|
      strictTotal_pair d <| strictTotal_pair v <| strictTotal_pair d <| strictTotal_pair (strictTotal_lex i) <|
      strictTotal_pair v <| strictTotal_pair (strictTotal_lex v) <| strictTotal_pair v <| strictTotal_pair v <|
      strictTotal_pair (strictTotal_lex strictTotal_entry) strictTotal_unit)
    (fun a => (a.signature, a.primaryId, a.primaryInitialPosition, a.primaryInitialTime, a.primaryMass, a.primaryMomentum,
      a.primaryHelicity, a.targetId, a.targetMass, a.targetHelicity, a.interactionVertex, a.interactionTime, a.secondaryIds,
      a.secondaryMasses, a.secondaryMomenta, a.secondaryHelicities, a.secondaryTimes, a.interactionParameters, ()))
    (fun a b h => by cases a; cases b; simp only [Prod.mk.injEq] at h; simp [h]) _ (fun _ _ => rfl)

theorem id_eq (a b : ParticleID) : ParticleID.eq a b = true ↔ a = b := by
  cases a; cases b; simp [ParticleID.eq, and_assoc]

theorem signature_eq (a b : Signature) : Signature.eq a b = true ↔ a = b := by
  cases a; cases b; simp [Signature.eq, and_assoc]

theorem listEq_iff {A : Type} {eq : A → A → Bool} (h : ∀ a b, eq a b = true ↔ a = b) : ∀ l l', listEq eq l l' = true ↔ l = l'
  | [], [] => by simp [listEq]
  | [], _ :: _ => by simp [listEq]
  | _ :: _, [] => by simp [listEq]
  | a :: as, b :: bs => by simp [listEq, h a b, listEq_iff h as bs]

theorem record_eq (a b : Record K) : Record.eq a b = true ↔ a = b := by
  cases a; cases b
  simp only [Record.eq, Bool.and_eq_true, decide_eq_true_eq, id_eq, signature_eq, listEq_iff id_eq, Record.mk.injEq, and_assoc]

/-- C05: identifiers. -/
theorem C05_particle_id : Comparison ParticleID.lt ParticleID.eq := comparison_of strictTotal_id id_eq

/-- C05: signatures. -/
theorem C05_signature : Comparison Signature.lt Signature.eq := comparison_of strictTotal_signature signature_eq

/-- C05: interaction records. -/
theorem C05_record : Comparison (Record.lt (K := K)) Record.eq := comparison_of strictTotal_record record_eq

/-- The order is not empty: an unset identifier comes before a set one, whatever the numbers. -/
example : ParticleID.lt ⟨false, 7, 7⟩ ⟨true, 0, -3⟩ = true ∧ Signature.lt ⟨14, 2212, [13]⟩ ⟨14, 2212, [13, 211]⟩ = true := by
  decide

end Siren.Records
