import Verif.Gdml.ExprProps

set_option autoImplicit false

/-! # C31: numbers side by side -/

namespace Siren.Gdml

variable {V : Type}

/-- C31: two numbers side by side are an error, neither of them is taken for the value. -/
theorem C31_leftover {E : Env V} {lit : List Char → V → Prop} (hE : E.Strtod lit) {l m : List Char} {a b : V} (hl : lit l a) (hm : lit m b)
    {fuel : Nat} (hf : (l ++ ' ' :: m).length < fuel) : evalExpression E fuel (l ++ ' ' :: m) = some (.throws .runtimeError) := by
  have spells : Spells E lit (l ++ ' ' :: m) [.num a, .num b] := by
    have h2 : Spells E lit (m ++ []) [.num b] := .word (.num hm) .nil (by intro c t hc; cases hc)
    rw [List.append_nil] at h2
    refine .word (.num hl) (.space (by decide) h2) ?_
    intro c t hc
    simp at hc
    rw [← hc.1]
    decide
  obtain ⟨c, t, rfl, hc⟩ := hE.start _ _ hl
  have hws : isWs c = false := hE.solid _ _ hl c (by simp)
  obtain ⟨c', t', hm', -⟩ := hE.start _ _ hm
  have hmne : m ≠ [] := by rw [hm']; simp
  have htrim : trim ((c :: t) ++ ' ' :: m) = (c :: t) ++ ' ' :: m := by
    have h1 : ((c :: t) ++ ' ' :: m).dropWhile isWs = (c :: t) ++ ' ' :: m := by simp [hws]
    show rtrim (((c :: t) ++ ' ' :: m).dropWhile isWs) = _
    rw [h1]
    refine rtrim_solid ⟨(c :: t) ++ ' ' :: m.dropLast, m.getLast hmne, ?_, hE.solid _ _ hm _ (List.getLast_mem hmne)⟩
    rw [List.append_assoc, show ' ' :: m.dropLast ++ [m.getLast hmne] = ' ' :: (m.dropLast ++ [m.getLast hmne]) from rfl, List.dropLast_append_getLast hmne]
  have hne : (c :: t) ++ ' ' :: m ≠ [] := by simp
  have hst := hE.plain _ _ hl (' ' :: m) (by
    intro d r hd
    simp at hd
    rw [← hd.1]
    decide)
  have hbare : ¬ (((c :: t) ++ ' ' :: m).all isIdChar = true ∧ ((c :: t) ++ ' ' :: m).head?.map isIdStart = some true) := by
    rintro ⟨ha, -⟩
    have h1 : isIdChar ' ' = true := List.all_eq_true.1 ha ' ' (by simp)
    revert h1; decide
  have htok := tokenize_spells hE spells fuel [] hf
  unfold evalExpression
  simp only [htrim, if_neg hne, hst, if_neg hbare, htok]
  rw [if_neg (by simp)]
  rfl

example : evalExpression ExprExample.env 9 "12 34".toList = some (.throws .runtimeError) :=
  C31_leftover ExprExample.strtod_ok (l := "12".toList) (m := "34".toList) (a := ExprExample.digits "12".toList) (b := ExprExample.digits "34".toList)
    ⟨by decide, by decide, rfl⟩ ⟨by decide, by decide, rfl⟩ (by decide)

end Siren.Gdml
