import Verif.Geometry.Shape

set_option autoImplicit false

/-!
# C45: comparing shapes

Models `Geometry::operator==`, `operator<` (geometry/private/Geometry.cxx:89-115), the macros behind every primitive's
`equal` and `less` (geometry/private/GeometryMacros.h:96-108), `BooleanGeometry::equal`, `less`
(geometry/private/BooleanGeometry.cxx:42-85), and `Placement::operator==`, `operator<`
(geometry/private/Placement.cxx:94-112).

Numbers are elements of a linear order (no NaN). A primitive's members are a list of fields, each one a list of numbers
(a plain number is a list of length one; `std::tie` and `std::vector` both compare lexicographically). The name is
any linearly ordered type. `std::type_index` order is an injective rank; it is the same for all comparisons of one run.
-/

namespace Siren.Geometry.Compare

open Siren Siren.Geometry

variable {K N : Type} [LinearOrder K] [LinearOrder N]

/-- Lexicographic `<` on sequences of equal or different length (`std::tuple` and `std::vector`): the first position at which
one is less than the other decides; a proper prefix is less. -/
def lexLt {A : Type} (lt : A → A → Bool) : List A → List A → Bool
  | [], [] => false
  | [], _ :: _ => true
  | _ :: _, [] => false
  | a :: as, b :: bs => if lt a b then true else if lt b a then false else lexLt lt as bs

/-- Fields compare like vectors of numbers. -/
def fieldsLt (a b : List (List K)) : Bool := lexLt (lexLt (fun x y : K => decide (x < y))) a b

/-- `Geometry` with what its comparison looks at. `null` is a missing operand of a boolean shape. `placement` holds the
members of position and quaternion. -/
inductive Shp (K N : Type)
  | null
  | prim (type : Nat) (name : N) (placement : List (List K)) (fields : List (List K))
  | bool (name : N) (placement : List (List K)) (op : BoolOp) (left right : Shp K N)

/-- The position of an operation in `enum class BooleanOperation` (BooleanGeometry.h:27). -/
def opRank : BoolOp → Nat
  | .union => 0
  | .subtraction => 1
  | .intersection => 2

/-- Position in the order of `std::type_index`; `rank` is the implementation's order of the primitive classes and
`boolRank` the place of `BooleanGeometry`. A missing operand comes first (BooleanGeometry.cxx:75-83). -/
def typeRank (rank : Nat → Nat) (boolRank : Nat) : Shp K N → Nat
  | .null => 0
  | .prim t _ _ _ => rank t + 1
  | .bool _ _ _ _ _ => boolRank + 1

/-- `Geometry::operator==` (geometry/private/Geometry.cxx:89-95): name and placement, then the virtual `equal`, which
compares dynamic type and members (GeometryMacros.h:96-101; BooleanGeometry.cxx:42-60). On missing operands this is the
comparison of `BooleanGeometry::equal`. -/
def eq : Shp K N → Shp K N → Bool
  | .null, .null => true
  | .prim t n p f, .prim t' n' p' f' =>
    if n ≠ n' ∨ p ≠ p' then false else decide (t = t') && decide (f = f')
  | .bool n p o l r, .bool n' p' o' l' r' =>
    if n ≠ n' ∨ p ≠ p' then false
    else if o ≠ o' then false
    else eq l l' && eq r r'
  | _, _ => false

/-- `Geometry::operator<` (geometry/private/Geometry.cxx:98-109) with the virtual `less` (GeometryMacros.h:103-108;
BooleanGeometry.cxx:63-85). -/
def lt (rank : Nat → Nat) (boolRank : Nat) : Shp K N → Shp K N → Bool
  | .prim t n p f, .prim t' n' p' f' =>
    if rank t = rank t' then
      if n ≠ n' then decide (n < n') else if p ≠ p' then fieldsLt p p' else fieldsLt f f'
    else decide (rank t < rank t')
  | .bool n p o l r, .bool n' p' o' l' r' =>
    if n ≠ n' then decide (n < n')
    else if p ≠ p' then fieldsLt p p'
    else if o ≠ o' then decide (opRank o < opRank o')
    else if !eq l l' then lt rank boolRank l l'
    else lt rank boolRank r r'
  | .null, .null => false
  | a, b => decide (typeRank rank boolRank a < typeRank rank boolRank b)

/-! ### Specification -/

/-- A strict total order. -/
structure StrictTotal {A : Type} (lt : A → A → Bool) : Prop where
  irrefl : ∀ a, lt a a = false
  trans : ∀ a b c, lt a b = true → lt b c = true → lt a c = true
  total : ∀ a b, lt a b = false → lt b a = false → a = b

/-! ### Proofs -/

theorem StrictTotal.asymm {A : Type} {lt : A → A → Bool} (h : StrictTotal lt) (a b : A) (hab : lt a b = true) :
    lt b a = false := by
  by_contra hc
  have := h.trans a b a hab (by simpa using hc)
  rw [h.irrefl] at this; simp at this

theorem strictTotal_lt (A : Type) [LinearOrder A] : StrictTotal (fun a b : A => decide (a < b)) :=
  ⟨by simp, fun a b c h1 h2 => by simp at *; exact h1.trans h2, fun a b h1 h2 => by simp at *; exact le_antisymm h2 h1⟩

theorem strictTotal_lex {A : Type} {lt : A → A → Bool} (h : StrictTotal lt) : StrictTotal (lexLt lt) := by
  refine ⟨?_, ?_, ?_⟩
  · intro a
    induction a with
    | nil => rfl
    | cons a as ih => simp [lexLt, h.irrefl, ih]
  · intro a
    induction a with
    | nil =>
      intro b c h1 h2
      cases b with
      | nil => simp [lexLt] at h1
      | cons b bs => cases c with
        | nil => simp [lexLt] at h2
        | cons c cs => rfl
    | cons a as ih =>
      intro b c h1 h2
      cases b with
      | nil => simp [lexLt] at h1
      | cons b bs =>
        cases c with
        | nil => simp [lexLt] at h2
        | cons c cs =>
          simp only [lexLt] at h1 h2 ⊢
          by_cases ab : lt a b = true
          · by_cases bc : lt b c = true
            · simp [h.trans a b c ab bc]
            · by_cases cb : lt c b = true
              · simp [bc, cb] at h2
              · have := h.total b c (by simpa using bc) (by simpa using cb)
                subst this; simp [ab]
          · by_cases ba : lt b a = true
            · simp [ab, ba] at h1
            · have := h.total a b (by simpa using ab) (by simpa using ba)
              subst this
              simp only [h.irrefl, Bool.false_eq_true, if_false] at h1
              by_cases bc : lt a c = true
              · simp [bc]
              · by_cases cb : lt c a = true
                · simp [bc, cb] at h2
                · simp [bc, cb] at h2 ⊢
                  exact ih bs cs h1 h2
  · intro a
    induction a with
    | nil => intro b h1 h2; cases b with
      | nil => rfl
      | cons b bs => simp [lexLt] at h1
    | cons a as ih =>
      intro b h1 h2
      cases b with
      | nil => simp [lexLt] at h2
      | cons b bs =>
        simp only [lexLt] at h1 h2
        by_cases ab : lt a b = true
        · simp [ab] at h1
        · by_cases ba : lt b a = true
          · simp [ba] at h2
          · have := h.total a b (by simpa using ab) (by simpa using ba)
            subst this
            simp [ab] at h1 h2
            rw [ih bs h1 h2]

theorem strictTotal_fields : StrictTotal (fieldsLt (K := K)) := strictTotal_lex (strictTotal_lex (strictTotal_lt K))

/-- C45: two shapes compare equal exactly when they have the same type, name, placement and members, and so on for the
operands of boolean shapes; equality is therefore reflexive, symmetric and transitive. -/
theorem C45_equality (a b : Shp K N) : eq a b = true ↔ a = b := by
  induction a generalizing b with
  | null => cases b <;> simp [eq]
  | prim t n p f =>
    cases b with
    | prim t' n' p' f' =>
      simp only [eq]
      split
      · next h =>
        simp only [Bool.false_eq_true, Shp.prim.injEq, false_iff]
        rintro ⟨-, h1, h2, -⟩
        rcases h with h | h
        · exact h h1
        · exact h h2
      · next h =>
        simp only [ne_eq, not_or, not_not] at h
        simp [h.1, h.2]
    | _ => simp [eq]
  | bool n p o l r ihl ihr =>
    cases b with
    | bool n' p' o' l' r' =>
      simp only [eq]
      split
      · next h =>
        simp only [Bool.false_eq_true, Shp.bool.injEq, false_iff]
        rintro ⟨h1, h2, -⟩
        rcases h with h | h
        · exact h h1
        · exact h h2
      · next h =>
        simp only [ne_eq, not_or, not_not] at h
        split
        · next ho =>
          simp only [Bool.false_eq_true, Shp.bool.injEq, false_iff]
          rintro ⟨-, -, h, -⟩
          exact ho h
        · next ho => simp [h.1, h.2, not_not.1 ho, ihl, ihr]
    | _ => simp [eq]

theorem neSymm {A : Sort _} {a b : A} (h : ¬a = b) : (b = a) = False := eq_false (fun e => h e.symm)

theorem opRank_inj : ∀ a b : BoolOp, opRank a = opRank b → a = b := by
  intro a b; cases a <;> cases b <;> simp [opRank]

/-- `lt` decides like a comparison of type ranks when these differ. -/
theorem lt_of_rank (rank : Nat → Nat) (br : Nat) (a b : Shp K N)
    (h : typeRank rank br a ≠ typeRank rank br b) :
    lt rank br a b = decide (typeRank rank br a < typeRank rank br b) := by
  cases a <;> cases b <;> simp only [typeRank] at h ⊢ <;> simp only [lt, typeRank]
  · exact absurd rfl h
  · next t _ _ _ t' _ _ _ =>
    rw [if_neg (by intro e; exact h (by rw [e]))]
    simp
  · exact absurd rfl h

/-- The comparison within one type, as a function of the comparison of the operands. -/
theorem lt_trans_aux (rank : Nat → Nat) (hinj : Function.Injective rank) (br : Nat) (hbr : ∀ t, rank t ≠ br)
    (a : Shp K N) : ∀ b c : Shp K N,
    (lt rank br a a = false) ∧ (lt rank br a b = true → lt rank br b c = true → lt rank br a c = true) ∧
    (lt rank br a b = false → lt rank br b a = false → a = b) := by
  have hf := strictTotal_fields (K := K)
  induction a with
  | null =>
    intro b c
    refine ⟨rfl, ?_, ?_⟩
    · intro h1 h2
      cases b <;> cases c <;> simp [lt, typeRank] at h1 h2 ⊢
    · intro h1 h2
      cases b <;> simp [lt, typeRank] at h1 h2 ⊢
  | prim t n p f =>
    intro b c
    refine ⟨by simp [lt, hf.irrefl], ?_, ?_⟩
    · intro h1 h2
      by_cases hab : typeRank rank br (.prim t n p f : Shp K N) = typeRank rank br b
      · by_cases hbc : typeRank rank br b = typeRank rank br c
        · cases b with
          | null => simp [typeRank] at hab
          | bool => simp [typeRank] at hab; exact absurd hab (hbr t)
          | prim t' n' p' f' =>
            cases c with
            | null => simp [typeRank] at hbc
            | bool => simp [typeRank] at hbc; exact absurd hbc (hbr t')
            | prim t'' n'' p'' f'' =>
              simp only [typeRank, Nat.add_right_cancel_iff] at hab hbc
              simp only [lt, hab, hbc, if_true] at h1 h2 ⊢
              by_cases e1 : n = n'
              · subst e1
                by_cases e2 : n = n''
                · subst e2
                  simp only [ne_eq, not_true_eq_false, if_false] at h1 h2 ⊢
                  by_cases e3 : p = p'
                  · subst e3
                    by_cases e4 : p = p''
                    · subst e4
                      simp only [not_true_eq_false, if_false] at h1 h2 ⊢
                      exact hf.trans _ _ _ h1 h2
                    · simpa [e4] using h2
                  · simp only [e3, not_false_eq_true, if_true] at h1
                    by_cases e4 : p' = p''
                    · subst e4
                      simpa [e3] using h1
                    · simp only [e4, not_false_eq_true, if_true] at h2
                      have h3 := hf.trans _ _ _ h1 h2
                      have : p ≠ p'' := by
                        rintro rfl; rw [hf.irrefl] at h3; simp at h3
                      simpa [this] using h3
                · simpa [e2] using h2
              · simp only [ne_eq, e1, not_false_eq_true, if_true, decide_eq_true_eq] at h1
                by_cases e2 : n' = n''
                · subst e2
                  simp [e1, h1]
                · simp only [ne_eq, e2, not_false_eq_true, if_true, decide_eq_true_eq] at h2
                  have := h1.trans h2
                  simp [this.ne, this]
        · rw [lt_of_rank rank br b c hbc] at h2
          rw [lt_of_rank rank br _ c (by rw [hab]; exact hbc), hab]
          exact h2
      · rw [lt_of_rank rank br _ b hab, decide_eq_true_eq] at h1
        have hle : typeRank rank br b ≤ typeRank rank br c := by
          by_cases hbc : typeRank rank br b = typeRank rank br c
          · exact hbc.le
          · rw [lt_of_rank rank br b c hbc, decide_eq_true_eq] at h2; exact h2.le
        rw [lt_of_rank rank br _ c (by omega), decide_eq_true_eq]
        omega
    · intro h1 h2
      by_cases hab : typeRank rank br (.prim t n p f : Shp K N) = typeRank rank br b
      · cases b with
        | null => simp [typeRank] at hab
        | bool => simp [typeRank] at hab; exact absurd hab (hbr t)
        | prim t' n' p' f' =>
          simp only [typeRank, Nat.add_right_cancel_iff] at hab
          have ht := hinj hab
          subst ht
          simp only [lt, if_true] at h1 h2
          by_cases e1 : n = n'
          · subst e1
            by_cases e3 : p = p'
            · subst e3
              simp only [ne_eq, not_true_eq_false, if_false] at h1 h2
              rw [hf.total _ _ h1 h2]
            · simp only [ne_eq, not_true_eq_false, if_false, e3, not_false_eq_true, if_true,
                neSymm e3] at h1 h2
              exact absurd (hf.total _ _ h1 h2) e3
          · simp only [ne_eq, e1, not_false_eq_true, if_true, neSymm e1, decide_eq_false_iff_not,
              not_lt] at h1 h2
            exact absurd (le_antisymm h2 h1) e1
      · rw [lt_of_rank rank br _ b hab, decide_eq_false_iff_not] at h1
        rw [lt_of_rank rank br b _ (Ne.symm hab), decide_eq_false_iff_not] at h2
        omega
  | bool n p o l r ihl ihr =>
    intro b c
    classical
    have heq : ∀ a b : Shp K N, eq a b = decide (a = b) := by
      intro a b
      rw [Bool.eq_iff_iff, C45_equality]; simp
    refine ⟨?_, ?_, ?_⟩
    · have := (ihr r r).1
      simp [lt, (C45_equality l l).2 rfl, this]
    · intro h1 h2
      by_cases hab : typeRank rank br (.bool n p o l r : Shp K N) = typeRank rank br b
      · by_cases hbc : typeRank rank br b = typeRank rank br c
        · cases b with
          | null => simp [typeRank] at hab
          | prim t => simp [typeRank] at hab; exact absurd hab.symm (hbr t)
          | bool n' p' o' l' r' =>
            cases c with
            | null => simp [typeRank] at hbc
            | prim t => simp [typeRank] at hbc; exact absurd hbc.symm (hbr t)
            | bool n'' p'' o'' l'' r'' =>
              simp only [lt, heq, Bool.not_eq_true', decide_eq_false_iff_not] at h1 h2 ⊢
              by_cases e1 : n = n'
              · subst e1
                by_cases e2 : n = n''
                · subst e2
                  simp only [ne_eq, not_true_eq_false, if_false] at h1 h2 ⊢
                  by_cases e3 : p = p'
                  · subst e3
                    by_cases e4 : p = p''
                    · subst e4
                      simp only [not_true_eq_false, if_false] at h1 h2 ⊢
                      by_cases e5 : o = o'
                      · subst e5
                        by_cases e6 : o = o''
                        · subst e6
                          simp only [not_true_eq_false, if_false] at h1 h2 ⊢
                          by_cases e7 : l = l'
                          · subst e7
                            by_cases e8 : l = l''
                            · subst e8
                              simp only [not_true_eq_false, if_false] at h1 h2 ⊢
                              exact (ihr r' r'').2.1 h1 h2
                            · simpa [e8] using h2
                          · simp only [e7, not_false_eq_true, if_true] at h1
                            by_cases e8 : l' = l''
                            · subst e8; simpa [e7] using h1
                            · simp only [e8, not_false_eq_true, if_true] at h2
                              have h3 := (ihl l' l'').2.1 h1 h2
                              have : l ≠ l'' := by
                                rintro rfl; rw [(ihl l l).1] at h3; simp at h3
                              simpa [this] using h3
                        · simpa [e6] using h2
                      · simp only [e5, not_false_eq_true, if_true, decide_eq_true_eq] at h1
                        by_cases e6 : o' = o''
                        · subst e6; simp [e5, h1]
                        · simp only [e6, not_false_eq_true, if_true, decide_eq_true_eq] at h2
                          have : o ≠ o'' := by rintro rfl; omega
                          simp [this]; omega
                    · simpa [e4] using h2
                  · simp only [e3, not_false_eq_true, if_true] at h1
                    by_cases e4 : p' = p''
                    · subst e4
                      simpa [e3] using h1
                    · simp only [e4, not_false_eq_true, if_true] at h2
                      have h3 := hf.trans _ _ _ h1 h2
                      have : p ≠ p'' := by
                        rintro rfl; rw [hf.irrefl] at h3; simp at h3
                      simpa [this] using h3
                · simpa [e2] using h2
              · simp only [ne_eq, e1, not_false_eq_true, if_true, decide_eq_true_eq] at h1
                by_cases e2 : n' = n''
                · subst e2
                  simp [e1, h1]
                · simp only [ne_eq, e2, not_false_eq_true, if_true, decide_eq_true_eq] at h2
                  have := h1.trans h2
                  simp [this.ne, this]
        · rw [lt_of_rank rank br b c hbc] at h2
          rw [lt_of_rank rank br _ c (by rw [hab]; exact hbc), hab]
          exact h2
      · rw [lt_of_rank rank br _ b hab, decide_eq_true_eq] at h1
        have hle : typeRank rank br b ≤ typeRank rank br c := by
          by_cases hbc : typeRank rank br b = typeRank rank br c
          · exact hbc.le
          · rw [lt_of_rank rank br b c hbc, decide_eq_true_eq] at h2; exact h2.le
        rw [lt_of_rank rank br _ c (by omega), decide_eq_true_eq]
        omega
    · intro h1 h2
      by_cases hab : typeRank rank br (.bool n p o l r : Shp K N) = typeRank rank br b
      · cases b with
        | null => simp [typeRank] at hab
        | prim t => simp [typeRank] at hab; exact absurd hab.symm (hbr t)
        | bool n' p' o' l' r' =>
          simp only [lt, heq, Bool.not_eq_true', decide_eq_false_iff_not] at h1 h2
          by_cases e1 : n = n'
          · subst e1
            by_cases e3 : p = p'
            · subst e3
              simp only [ne_eq, not_true_eq_false, if_false] at h1 h2
              by_cases e5 : o = o'
              · subst e5
                simp only [not_true_eq_false, if_false] at h1 h2
                by_cases e7 : l = l'
                · subst e7
                  simp only [not_true_eq_false, if_false] at h1 h2
                  rw [(ihr r' r').2.2 h1 h2]
                · simp only [e7, not_false_eq_true, if_true, neSymm e7] at h1 h2
                  exact absurd ((ihl l' l').2.2 h1 h2) e7
              · simp only [e5, not_false_eq_true, if_true, neSymm e5, decide_eq_false_iff_not,
                  not_lt] at h1 h2
                exact absurd (opRank_inj o o' (by omega)) e5
            · simp only [ne_eq, not_true_eq_false, if_false, e3, not_false_eq_true, if_true,
                neSymm e3] at h1 h2
              exact absurd (hf.total _ _ h1 h2) e3
          · simp only [ne_eq, e1, not_false_eq_true, if_true, neSymm e1, decide_eq_false_iff_not,
              not_lt] at h1 h2
            exact absurd (le_antisymm h2 h1) e1
      · rw [lt_of_rank rank br _ b hab, decide_eq_false_iff_not] at h1
        rw [lt_of_rank rank br b _ (Ne.symm hab), decide_eq_false_iff_not] at h2
        omega

/-- C45: `<` on shapes is a strict order for which two shapes, neither of which is less than the other, compare equal. It
holds for every type order of the implementation. -/
theorem C45_order (rank : Nat → Nat) (hinj : Function.Injective rank) (br : Nat) (hbr : ∀ t, rank t ≠ br) :
    (∀ a : Shp K N, lt rank br a a = false) ∧
    (∀ a b c : Shp K N, lt rank br a b = true → lt rank br b c = true → lt rank br a c = true) ∧
    (∀ a b : Shp K N, (lt rank br a b = false ∧ lt rank br b a = false) ↔ eq a b = true) := by
  refine ⟨fun a => (lt_trans_aux rank hinj br hbr a a a).1, fun a b c => (lt_trans_aux rank hinj br hbr a b c).2.1, ?_⟩
  intro a b
  rw [C45_equality]
  constructor
  · rintro ⟨h1, h2⟩
    exact (lt_trans_aux rank hinj br hbr a b b).2.2 h1 h2
  · rintro rfl
    exact ⟨(lt_trans_aux rank hinj br hbr a a a).1, (lt_trans_aux rank hinj br hbr a a a).1⟩

/-- Two nested boolean shapes that differ in the innermost box. -/
example : lt (K := Nat) (N := Nat) (fun t => t + 1) 0
    (.bool 0 [] .union (.bool 0 [] .subtraction (.prim 0 0 [] [[1], [2], [3]]) .null) (.prim 1 0 [] [[7]]))
    (.bool 0 [] .union (.bool 0 [] .subtraction (.prim 0 0 [] [[1], [2], [4]]) .null) (.prim 1 0 [] [[5]])) = true := by
  decide

end Siren.Geometry.Compare
