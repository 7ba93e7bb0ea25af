import Verif.Detector.MaterialTable
import Mathlib.Tactic.Ring
import Mathlib.Tactic.IntervalCases

set_option autoImplicit false

/-! # C33: nuclear codes -/

namespace Siren.Detector

open Siren

/-! ### Specification -/

/-- The code `10LZZZAAAI` of a nucleus. -/
def nuclearCode (L Z A I : Nat) : Int := 1000000000 + 10000000 * L + 10000 * Z + 10 * A + I

/-! ### Digits -/

theorem isDigit_digitChar {d : Nat} (h : d < 10) : (Nat.digitChar d).isDigit = true := by
  interval_cases d <;> rfl

theorem value_digitChar {d : Nat} (h : d < 10) : (Nat.digitChar d).toNat - 48 = d := by
  interval_cases d <;> rfl

theorem takeWhile_digits_all {l : List Char} (h : ∀ c ∈ l, c.isDigit = true) : l.takeWhile Char.isDigit = l := by
  induction l with
  | nil => rfl
  | cons c t ih => simp [h c (by simp), ih (fun d hd => h d (by simp [hd]))]

/-- Reading a field from a list of digits. -/
theorem scanInt_digits {w : Nat} (hw : 0 < w) {s : List Char} (hs : ∀ c ∈ s, c.isDigit = true) :
    scanInt w s = if s = [] then none else some ((digitsValue (s.take w) : Int), s.drop w) := by
  have hd : ∀ c ∈ s.take w, c.isDigit = true := fun c hc => hs c (List.mem_of_mem_take hc)
  unfold scanInt
  have hneg : s.head? ≠ some '-' := by
    intro h
    have := hs '-' (List.mem_of_mem_head? h)
    exact absurd this (by decide)
  rw [if_neg hneg, takeWhile_digits_all hd]
  by_cases h : s = []
  · subst h; simp
  · have h' : s.take w ≠ [] := by
      cases s with
      | nil => exact absurd rfl h
      | cons c t => cases w with
        | zero => omega
        | succ n => simp
    simp only [if_neg h', if_neg h, Option.some.injEq, Prod.mk.injEq, true_and]
    rw [List.length_take]
    by_cases hl : w ≤ s.length
    · rw [Nat.min_eq_left hl]
    · rw [Nat.min_eq_right (by omega), List.drop_length, List.drop_eq_nil_of_le (by omega)]

theorem scanInt_minus {s : List Char} (hs : ∀ c ∈ s, c.isDigit = true) :
    scanInt 2 ('-' :: s) = if s = [] then none else some (-(digitsValue (s.take 1) : Int), s.drop 1) := by
  unfold scanInt
  rw [if_pos (by rfl)]
  cases s with
  | nil => rfl
  | cons c t =>
    have hc := hs c (by simp)
    simp [hc]

/-- The four fields after the prefix. -/
def fields (s : List Char) : Res Content :=
  match scanInt 1 s with
  | none => .throws .runtimeError
  | some (l, s) =>
    match scanInt 3 s with
    | none => .throws .runtimeError
    | some (z, s) =>
      match scanInt 3 s with
      | none => .throws .runtimeError
      | some (a, s) =>
        match scanInt 1 s with
        | none => .throws .runtimeError
        | some _ => .ok { strange := l, neutron := a - z - l, proton := z, nucleon := a }

theorem fields_digits {s : List Char} (hs : ∀ c ∈ s, c.isDigit = true) :
    fields s = if s.length < 8 then .throws .runtimeError else
      .ok { strange := digitsValue (s.take 1), proton := digitsValue ((s.drop 1).take 3), nucleon := digitsValue ((s.drop 4).take 3)
            neutron := digitsValue ((s.drop 4).take 3) - digitsValue ((s.drop 1).take 3) - digitsValue (s.take 1) } := by
  have hd : ∀ k, ∀ c ∈ s.drop k, c.isDigit = true := fun k c hc => hs c (List.mem_of_mem_drop hc)
  have nil : ∀ k, s.drop k = [] ↔ s.length ≤ k := fun k => List.drop_eq_nil_iff
  unfold fields
  rw [scanInt_digits (by decide) hs]
  by_cases h0 : s = []
  · subst h0; rfl
  simp only [if_neg h0]
  rw [scanInt_digits (by decide) (hd 1)]
  by_cases h1 : s.length ≤ 1
  · rw [if_pos ((nil 1).2 h1), if_pos (by omega)]
  rw [if_neg (fun h => h1 ((nil 1).1 h))]
  simp only [List.drop_drop]
  rw [scanInt_digits (by decide) (hd (1 + 3))]
  by_cases h2 : s.length ≤ 4
  · rw [if_pos ((nil 4).2 h2), if_pos (by omega)]
  rw [if_neg (fun h => h2 ((nil 4).1 h))]
  simp only [List.drop_drop]
  rw [scanInt_digits (by decide) (hd (1 + 3 + 3))]
  by_cases h3 : s.length ≤ 7
  · rw [if_pos ((nil 7).2 h3), if_pos (by omega)]
  rw [if_neg (fun h => h3 ((nil 7).1 h)), if_neg (by omega)]

theorem content_eq_fields (code : Int) : getNucleonContent code =
    match scanInt 2 (printInt code) with
    | none => .throws .runtimeError
    | some (_, s) => fields s := by
  unfold getNucleonContent fields
  rfl

theorem digits_all (n : Nat) : ∀ c ∈ Nat.toDigits 10 n, c.isDigit = true := fun _ hc => Nat.isDigit_of_mem_toDigits (by decide) (by decide) hc

theorem content_nonneg {code : Int} (h : 0 ≤ code) : getNucleonContent code = fields ((Nat.toDigits 10 code.natAbs).drop 2) := by
  rw [content_eq_fields, printInt, if_neg (by omega), scanInt_digits (by decide) (digits_all _), if_neg Nat.toDigits_ne_nil]

theorem content_neg {code : Int} (h : code < 0) : getNucleonContent code = fields ((Nat.toDigits 10 code.natAbs).drop 1) := by
  rw [content_eq_fields, printInt, if_pos h, scanInt_minus (digits_all _), if_neg Nat.toDigits_ne_nil]

/-- Exactly the codes with at least ten characters are accepted. -/
theorem accepted_iff (code : Int) : (∃ c, getNucleonContent code = .ok c) ↔ 1000000000 ≤ code ∨ code ≤ -100000000 := by
  have hlen : ∀ (k : Nat) (n : Nat), 0 < k → ((Nat.toDigits 10 n).length ≤ k ↔ n < 10 ^ k) := fun k n hk =>
    Nat.length_toDigits_le_iff (by decide) hk
  have hd : ∀ k n, ∀ c ∈ (Nat.toDigits 10 n).drop k, c.isDigit = true := fun k n c hc => digits_all n c (List.mem_of_mem_drop hc)
  by_cases h : 0 ≤ code
  · rw [content_nonneg h, fields_digits (hd 2 _), List.length_drop]
    have := hlen 9 code.natAbs (by decide)
    split
    · simp only [reduceCtorEq, exists_false, false_iff]
      have : code.natAbs < 10 ^ 9 := this.1 (by omega)
      omega
    · simp only [Res.ok.injEq, exists_eq', true_iff]
      have : ¬ code.natAbs < 10 ^ 9 := fun hc => by have := this.2 hc; omega
      omega
  · rw [content_neg (by omega), fields_digits (hd 1 _), List.length_drop]
    have := hlen 8 code.natAbs (by decide)
    split
    · simp only [reduceCtorEq, exists_false, false_iff]
      have : code.natAbs < 10 ^ 8 := this.1 (by omega)
      omega
    · simp only [Res.ok.injEq, exists_eq', true_iff]
      have : ¬ code.natAbs < 10 ^ 8 := fun hc => by have := this.2 hc; omega
      omega

theorem content_throws (code : Int) : (∃ c, getNucleonContent code = .ok c) ∨ getNucleonContent code = .throws .runtimeError := by
  have hd : ∀ k n, ∀ c ∈ (Nat.toDigits 10 n).drop k, c.isDigit = true := fun k n c hc => digits_all n c (List.mem_of_mem_drop hc)
  by_cases h : 0 ≤ code
  · rw [content_nonneg h, fields_digits (hd 2 _)]
    split
    · exact Or.inr rfl
    · exact Or.inl ⟨_, rfl⟩
  · rw [content_neg (by omega), fields_digits (hd 1 _)]
    split
    · exact Or.inr rfl
    · exact Or.inl ⟨_, rfl⟩

/-- The ten digits of a number. -/
theorem ten_digits {n : Nat} (h1 : 1000000000 ≤ n) (h2 : n < 10000000000) : Nat.toDigits 10 n =
    [Nat.digitChar (n / 1000000000), Nat.digitChar (n / 100000000 % 10), Nat.digitChar (n / 10000000 % 10), Nat.digitChar (n / 1000000 % 10),
     Nat.digitChar (n / 100000 % 10), Nat.digitChar (n / 10000 % 10), Nat.digitChar (n / 1000 % 10), Nat.digitChar (n / 100 % 10),
     Nat.digitChar (n / 10 % 10), Nat.digitChar (n % 10)] := by
  rw [Nat.toDigits_of_base_le (by decide) (by omega), Nat.toDigits_of_base_le (by decide) (by omega),
    Nat.toDigits_of_base_le (by decide) (by omega), Nat.toDigits_of_base_le (by decide) (by omega),
    Nat.toDigits_of_base_le (by decide) (by omega), Nat.toDigits_of_base_le (by decide) (by omega),
    Nat.toDigits_of_base_le (by decide) (by omega), Nat.toDigits_of_base_le (by decide) (by omega),
    Nat.toDigits_of_base_le (by decide) (by omega), Nat.toDigits_of_lt_base (by omega)]
  simp [Nat.div_div_eq_div_mul]

/-- Decoding a number of ten digits: the digits after the second. -/
theorem content_ten {n : Nat} (h1 : 1000000000 ≤ n) (h2 : n < 10000000000) : getNucleonContent n =
    .ok { strange := (n / 10000000 % 10 : Nat), proton := (n / 10000 % 1000 : Nat), nucleon := (n / 10 % 1000 : Nat)
          neutron := (n / 10 % 1000 : Nat) - (n / 10000 % 1000 : Nat) - (n / 10000000 % 10 : Nat) } := by
  rw [content_nonneg (by omega), Int.natAbs_natCast,
    fields_digits (fun c hc => digits_all n c (List.mem_of_mem_drop hc)), ten_digits h1 h2]
  simp only [List.drop, List.length, List.take, digitsValue, List.foldl]
  rw [if_neg (by omega)]
  have v : ∀ d, d < 10 → (Nat.digitChar d).toNat - 48 = d := fun d hd => value_digitChar hd
  have e1 : 10 * 0 + ((n / 10000000 % 10).digitChar.toNat - 48) = n / 10000000 % 10 := by rw [v _ (by omega)]; omega
  have e2 : 10 * (10 * (10 * 0 + ((n / 1000000 % 10).digitChar.toNat - 48)) + ((n / 100000 % 10).digitChar.toNat - 48)) +
      ((n / 10000 % 10).digitChar.toNat - 48) = n / 10000 % 1000 := by
    rw [v _ (by omega), v _ (by omega), v _ (by omega)]; omega
  have e3 : 10 * (10 * (10 * 0 + ((n / 1000 % 10).digitChar.toNat - 48)) + ((n / 100 % 10).digitChar.toNat - 48)) +
      ((n / 10 % 10).digitChar.toNat - 48) = n / 10 % 1000 := by
    rw [v _ (by omega), v _ (by omega), v _ (by omega)]; omega
  rw [e1, e2, e3]

/-- C33: every code `10LZZZAAAI` is decoded to its numbers of strange quarks, protons, nucleons and neutrons. -/
theorem C33_decode {L Z A I : Nat} (hL : L ≤ 9) (hZ : Z ≤ 999) (hA : A ≤ 999) (hI : I ≤ 9) :
    getNucleonContent (nuclearCode L Z A I) = .ok { strange := L, proton := Z, nucleon := A, neutron := (A : Int) - Z - L } := by
  have e : nuclearCode L Z A I = ((1000000000 + 10000000 * L + 10000 * Z + 10 * A + I : Nat) : Int) := by
    unfold nuclearCode; push_cast; rfl
  rw [e, content_ten (by omega) (by omega)]
  have e1 : (1000000000 + 10000000 * L + 10000 * Z + 10 * A + I) / 10000000 % 10 = L := by omega
  have e2 : (1000000000 + 10000000 * L + 10000 * Z + 10 * A + I) / 10000 % 1000 = Z := by omega
  have e3 : (1000000000 + 10000000 * L + 10000 * Z + 10 * A + I) / 10 % 1000 = A := by omega
  rw [e1, e2, e3]

example : getNucleonContent (nuclearCode 0 26 56 0) = .ok { strange := 0, proton := 26, nucleon := 56, neutron := 30 } :=
  C33_decode (by decide) (by decide) (by decide) (by decide)

/-- C33: codes with fewer digits are rejected. -/
theorem C33_rejects {code : Int} (h1 : -100000000 < code) (h2 : code < 1000000000) :
    getNucleonContent code = .throws .runtimeError := by
  rcases content_throws code with h | h
  · have := (accepted_iff code).1 h
    omega
  · exact h

example : getNucleonContent 2212 = .throws .runtimeError := C33_rejects (by decide) (by decide)

/-- Not every code of another shape is rejected: the two leading digits are not looked at, and neither is a sign. All ten-digit codes and
all negative codes with nine or more digits are taken for nuclei; among the particle types this happens to `CherenkovPhoton` (990 neutrons)
and `SMPPlus` (95 neutrons). -/
theorem C33_shape_fails :
    (∀ code : Int, 1000000000 ≤ code ∨ code ≤ -100000000 → ∃ c, getNucleonContent code = .ok c) ∧
    getNucleonContent 2000009900 = .ok { strange := 0, proton := 0, nucleon := 990, neutron := 990 } ∧
    getNucleonContent (-2000009500) = .ok { strange := 0, proton := 0, nucleon := 95, neutron := 95 } :=
  ⟨fun code h => (accepted_iff code).2 h, by decide +kernel, by decide +kernel⟩

/-- C33 at the level of the public queries (`GetStrangeCount`, `GetNeutronCount`, `GetProtonCount`, `GetNucleonCount`,
MaterialModel.cxx:438-452): a nucleus has its contents and the mass of the table or the formula; a code with fewer digits that is not one of the
four special particles has no content at all. -/
theorem C33_component {K : Type} [Field K] [LinearOrder K] (M : Masses K) :
    (∀ {L Z A I : Nat}, L ≤ 9 → Z ≤ 999 → A ≤ 999 → I ≤ 9 →
      (mkComponent M (nuclearCode L Z A I)).content = { strange := L, proton := Z, nucleon := A, neutron := (A : Int) - Z - L } ∧
      (mkComponent M (nuclearCode L Z A I)).molar = M.nucleus { strange := L, proton := Z, nucleon := A, neutron := (A : Int) - Z - L } ∧
      (mkComponent M (nuclearCode L Z A I)).isAtom = true) ∧
    (∀ code : Int, -100000000 < code → code < 1000000000 → code ≠ 11 → code ≠ 2112 → code ≠ 2212 →
      (mkComponent M code).content = ⟨0, 0, 0, 0⟩) := by
  constructor
  · intro L Z A I hL hZ hA hI
    have hne : nuclearCode L Z A I ≠ pdgProton ∧ nuclearCode L Z A I ≠ pdgNeutron ∧ nuclearCode L Z A I ≠ pdgNucleon ∧
        nuclearCode L Z A I ≠ pdgElectron := by
      unfold nuclearCode pdgProton pdgNeutron pdgNucleon pdgElectron
      omega
    unfold mkComponent
    rw [if_neg hne.1, if_neg hne.2.1, if_neg hne.2.2.1, if_neg hne.2.2.2, C33_decode hL hZ hA hI]
    exact ⟨rfl, rfl, rfl⟩
  · intro code h1 h2 n1 n2 n3
    unfold mkComponent pdgProton pdgNeutron pdgNucleon pdgElectron
    rw [if_neg n3, if_neg n2, if_neg (by omega), if_neg n1, C33_rejects h1 h2]

end Siren.Detector
