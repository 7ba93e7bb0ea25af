import Verif.Base
import Mathlib.Data.List.Basic
import Mathlib.Tactic.IntervalCases

set_option autoImplicit false

/-!
# Pickled objects as text
-/

namespace Siren.Io.Bytes

open Siren

/-- A `char` as the `uint8_t` it is cast to (ByteString.h:45). -/
abbrev Byte := Fin 256

/-- The lower case digits `std::hex` prints. -/
def hexDigit (n : ℕ) : Char := ['0', '1', '2', '3', '4', '5', '6', '7', '8', '9', 'a', 'b', 'c', 'd', 'e', 'f'].getD n '0'

/-- A number as printed after `std::hex`. -/
def hexDigits (n : ℕ) : List Char := if n < 16 then [hexDigit n] else hexDigits (n / 16) ++ [hexDigit (n % 16)]

/-- `std::setw(w)` with `std::setfill('0')`. -/
def pad (w : ℕ) (l : List Char) : List Char := List.replicate (w - l.length) '0' ++ l

/-- `bytes_to_hex_string` (ByteString.h:41-54). -/
def bytesToHex (bytes : List Byte) : Res (List Char) :=
  let s := bytes.flatMap fun b => pad 2 (hexDigits b.val)
  if ¬ s.length % 2 = 0 then .throws .runtimeError
  else if ¬ s.length = 2 * bytes.length then .throws .runtimeError
  else .ok s

/-- The value of a digit for `strtol` in base sixteen. -/
def digitVal (c : Char) : Option ℕ :=
  if '0' ≤ c ∧ c ≤ '9' then some (c.toNat - '0'.toNat)
  else if 'a' ≤ c ∧ c ≤ 'f' then some (c.toNat - 'a'.toNat + 10)
  else if 'A' ≤ c ∧ c ≤ 'F' then some (c.toNat - 'A'.toNat + 10)
  else none

/-- `isspace` in the C locale. -/
def isSpace (c : Char) : Bool := c = ' ' || c = '\t' || c = '\n' || c = '\x0b' || c = '\x0c' || c = '\r'

/-- The digits at the start of the text and their value. -/
def readDigits (acc : Option ℕ) : List Char → Option ℕ
  | [] => acc
  | c :: l => match digitVal c with
    | none => acc
    | some v => readDigits (some (acc.getD 0 * 16 + v)) l

/-- The prefix `0x` is passed over if a digit follows it. -/
def skipPrefix (l : List Char) : List Char :=
  match l with
  | '0' :: x :: c :: l => if (x = 'x' ∨ x = 'X') ∧ (digitVal c).isSome then c :: l else '0' :: x :: c :: l
  | l => l

/-- `std::stoi(text, nullptr, 16)`: white space, a sign, a prefix and digits; what follows is ignored. Throws
    `std::invalid_argument` without digits and `std::out_of_range` for values an `int` does not hold; the former is
    modelled as `runtimeError`. -/
def stoi16 (l : List Char) : Res ℤ :=
  let l := l.dropWhile isSpace
  let (sign, l) : ℤ × List Char := match l with
    | '-' :: l => (-1, l)
    | '+' :: l => (1, l)
    | l => (1, l)
  match readDigits none (skipPrefix l) with
  | none => .throws .runtimeError
  | some v => if sign * v < -2147483648 ∨ 2147483647 < sign * v then .throws .outOfRange else .ok (sign * v)

/-- `static_cast<char>` of an `int`, on the machines SIREN runs on. -/
def toByte (k : ℤ) : Byte := ⟨(k % 256).toNat, by omega⟩

/-- The loop of `hex_string_to_bytes` (ByteString.h:75-79), which takes two characters at a time. -/
def readPairs : List Char → Res (List Byte)
  | [] => .ok []
  | [a] => (stoi16 [a]).bind fun k => .ok [toByte k]
  | a :: b :: l => (stoi16 [a, b]).bind fun k => (readPairs l).bind fun r => .ok (toByte k :: r)

/-- `hex_string_to_bytes` (ByteString.h:73-83). -/
def hexToBytes (s : List Char) : Res (List Byte) :=
  (readPairs s).bind fun bytes => if ¬ bytes.length = s.length / 2 then .throws .runtimeError else .ok bytes

/-- cereal's binary archives: what is written for an object, and what is read, with the number of bytes used, or an
    exception. Parameters of the model. -/
structure Archive (T : Type) where
  write : T → Res (List Byte)
  read : List Byte → Res (T × ℕ)

variable {T : Type} (ar : Archive T)

/-- `from_byte_string` (ByteString.h:56-71). -/
def fromBytes (bytes : List Byte) : Res T :=
  (ar.read bytes).bind fun r => if ¬ r.2 = bytes.length then .throws .runtimeError else .ok r.1

/-- `pickle_save` (ByteString.h:85-90). The lengths compared in `to_byte_string` (ByteString.h:24-39) are equal by
    construction. -/
def save (x : T) : Res (List (List Char)) :=
  (ar.write x).bind fun bytes => (bytesToHex bytes).bind fun s => .ok [s]

/-- `pickle_load` (ByteString.h:92-101). -/
def load (t : List (List Char)) : Res T :=
  match t with
  | [s] => (hexToBytes s).bind (fromBytes ar)
  | _ => .throws .runtimeError

/-! ### Specification -/

/-- The value of two digits. -/
def pairVal (a b : Char) : Option ℕ := (digitVal a).bind fun x => (digitVal b).map fun y => 16 * x + y

/-- The text spells the bytes, two digits each, in either case. -/
def Spells : List Char → List Byte → Prop
  | [], [] => True
  | a :: b :: l, x :: r => pairVal a b = some x.val ∧ Spells l r
  | _, _ => False

/-- The characters `std::hex` prints. -/
def lower (c : Char) : Prop := c ∈ ['0', '1', '2', '3', '4', '5', '6', '7', '8', '9', 'a', 'b', 'c', 'd', 'e', 'f']

/-! ### Bytes to text -/

theorem byte_text (b : Byte) : pad 2 (hexDigits b.val) = [hexDigit (b.val / 16), hexDigit (b.val % 16)] := by
  obtain ⟨b, hb⟩ := b
  simp only
  by_cases h : b < 16
  · rw [hexDigits, if_pos h, Nat.div_eq_of_lt h, Nat.mod_eq_of_lt h]
    rfl
  · have h' : b / 16 < 16 := by omega
    rw [hexDigits, if_neg h, hexDigits, if_pos h']
    rfl

theorem text_length (bytes : List Byte) : (bytes.flatMap fun b => pad 2 (hexDigits b.val)).length = 2 * bytes.length := by
  induction bytes with
  | nil => rfl
  | cons b l ih => rw [List.flatMap_cons, List.length_append, ih, byte_text]; simp; omega

theorem bytesToHex_eq (bytes : List Byte) : bytesToHex bytes = .ok (bytes.flatMap fun b => pad 2 (hexDigits b.val)) := by
  unfold bytesToHex
  simp only [text_length]
  rw [if_neg (by omega), if_neg (by simp)]

theorem digitVal_hexDigit (n : ℕ) (h : n < 16) : digitVal (hexDigit n) = some n := by
  interval_cases n <;> rfl

theorem hexDigit_lower (n : ℕ) (h : n < 16) : lower (hexDigit n) := by
  unfold lower
  interval_cases n <;> decide

theorem lower_digit (c : Char) (h : lower c) : ∃ n < 16, c = hexDigit n ∧ digitVal c = some n := by
  unfold lower at h
  simp only [List.mem_cons, List.not_mem_nil, or_false] at h
  rcases h with h | h | h | h | h | h | h | h | h | h | h | h | h | h | h | h <;> subst h
  exacts [⟨0, by decide, rfl, rfl⟩, ⟨1, by decide, rfl, rfl⟩, ⟨2, by decide, rfl, rfl⟩, ⟨3, by decide, rfl, rfl⟩,
    ⟨4, by decide, rfl, rfl⟩, ⟨5, by decide, rfl, rfl⟩, ⟨6, by decide, rfl, rfl⟩, ⟨7, by decide, rfl, rfl⟩,
    ⟨8, by decide, rfl, rfl⟩, ⟨9, by decide, rfl, rfl⟩, ⟨10, by decide, rfl, rfl⟩, ⟨11, by decide, rfl, rfl⟩,
    ⟨12, by decide, rfl, rfl⟩, ⟨13, by decide, rfl, rfl⟩, ⟨14, by decide, rfl, rfl⟩, ⟨15, by decide, rfl, rfl⟩]

theorem spells_text (bytes : List Byte) : Spells (bytes.flatMap fun b => pad 2 (hexDigits b.val)) bytes := by
  induction bytes with
  | nil => trivial
  | cons b l ih =>
    rw [List.flatMap_cons, byte_text]
    refine ⟨?_, ih⟩
    have := b.isLt
    unfold pairVal
    rw [digitVal_hexDigit _ (by omega), digitVal_hexDigit _ (by omega)]
    simp only [Option.bind_some, Option.map_some, Option.some.injEq]
    omega

/-! ### Text to bytes -/

theorem digit_facts (c : Char) (n : ℕ) (h : digitVal c = some n) : n < 16 ∧ isSpace c = false ∧ c ≠ '-' ∧ c ≠ '+' ∧ c ≠ 'x' ∧ c ≠ 'X' := by
  have hne : ∀ c', digitVal c' = none → c ≠ c' := by
    rintro c' hc rfl
    rw [h] at hc
    cases hc
  refine ⟨?_, ?_, hne _ rfl, hne _ rfl, hne _ rfl, hne _ rfl⟩
  · unfold digitVal at h
    have key : ∀ a b : Char, a ≤ b ↔ a.toNat ≤ b.toNat := fun a b => Iff.rfl
    simp only [key] at h
    have e1 : '0'.toNat = 48 := rfl
    have e2 : '9'.toNat = 57 := rfl
    have e3 : 'a'.toNat = 97 := rfl
    have e4 : 'f'.toNat = 102 := rfl
    have e5 : 'A'.toNat = 65 := rfl
    have e6 : 'F'.toNat = 70 := rfl
    rw [e1, e2, e3, e4, e5, e6] at h
    split at h
    · cases h; omega
    · split at h
      · cases h; omega
      · split at h
        · cases h; omega
        · cases h
  · unfold isSpace
    simp [hne ' ' rfl, hne '\t' rfl, hne '\n' rfl, hne '\x0b' rfl, hne '\x0c' rfl, hne '\r' rfl]

/-- Two digits. -/
theorem stoi_pair (a b : Char) (n : ℕ) (h : pairVal a b = some n) : stoi16 [a, b] = .ok n ∧ n < 256 := by
  unfold pairVal at h
  rw [Option.bind_eq_some_iff] at h
  obtain ⟨x, hx, h⟩ := h
  rw [Option.map_eq_some_iff] at h
  obtain ⟨y, hy, rfl⟩ := h
  obtain ⟨x1, x2, x3, x4, -⟩ := digit_facts a x hx
  obtain ⟨y1, -⟩ := digit_facts b y hy
  have hs : skipPrefix [a, b] = [a, b] := by
    unfold skipPrefix
    split
    · next heq => simp at heq
    · rfl
  refine ⟨?_, by omega⟩
  unfold stoi16
  rw [List.dropWhile_cons_of_neg (by simp [x2])]
  simp only
  have hm : (match [a, b] with
    | '-' :: l => ((-1 : ℤ), l)
    | '+' :: l => (1, l)
    | l => (1, l)) = (1, [a, b]) := by
    split
    · next heq => simp only [List.cons.injEq] at heq; exact absurd heq.1 x3
    · next heq => simp only [List.cons.injEq] at heq; exact absurd heq.1 x4
    · rfl
  rw [hm]
  simp only [hs]
  have hr : readDigits none [a, b] = some (16 * x + y) := by
    simp only [readDigits, hx, hy, Option.getD_none, Option.getD_some, Option.some.injEq]
    omega
  rw [hr]
  simp only
  rw [if_neg (by omega), one_mul]

theorem toByte_nat (b : Byte) : toByte (b.val : ℤ) = b := by
  have := b.isLt
  apply Fin.ext
  simp only [toByte]
  omega

theorem readPairs_spells (s : List Char) (bytes : List Byte) (h : Spells s bytes) : readPairs s = .ok bytes ∧ s.length = 2 * bytes.length := by
  fun_induction Spells s bytes with
  | case1 => exact ⟨rfl, rfl⟩
  | case2 a b l x r ih =>
    obtain ⟨h1, h2⟩ := h
    obtain ⟨i1, i2⟩ := ih h2
    refine ⟨?_, by simp [i2]; omega⟩
    rw [readPairs, (stoi_pair a b _ h1).1, i1]
    simp only [Res.bind, toByte_nat]
  | case3 => exact absurd h id

/-- As many bytes as pairs, one more if a character is left over. -/
theorem readPairs_length (s : List Char) (bytes : List Byte) (h : readPairs s = .ok bytes) : bytes.length = (s.length + 1) / 2 := by
  fun_induction readPairs s generalizing bytes with
  | case1 => cases h; rfl
  | case2 a =>
    cases hk : stoi16 [a] with
    | ok k => rw [hk] at h; cases h; simp
    | throws e => rw [hk] at h; cases h
    | ub => rw [hk] at h; cases h
  | case3 a b l ih =>
    cases hk : stoi16 [a, b] with
    | ok k =>
      rw [hk] at h
      cases hr : readPairs l with
      | ok r =>
        rw [hr] at h
        cases h
        rw [List.length_cons, ih r hr, List.length_cons, List.length_cons]
        omega
      | throws e => rw [hr] at h; cases h
      | ub => rw [hr] at h; cases h
    | throws e => rw [hk] at h; cases h
    | ub => rw [hk] at h; cases h

/-! ### Theorems -/

/-- C135: the text of any bytes consists of lower case digits, two per byte, which spell the bytes. -/
theorem C135_text (bytes : List Byte) :
    ∃ s, bytesToHex bytes = .ok s ∧ s.length = 2 * bytes.length ∧ (∀ c ∈ s, lower c) ∧ Spells s bytes := by
  refine ⟨_, bytesToHex_eq bytes, text_length bytes, ?_, spells_text bytes⟩
  intro c hc
  rw [List.mem_flatMap] at hc
  obtain ⟨b, -, hc⟩ := hc
  have := b.isLt
  rw [byte_text] at hc
  simp only [List.mem_cons, List.not_mem_nil, or_false] at hc
  rcases hc with rfl | rfl <;> exact hexDigit_lower _ (by omega)

/-- C135: text that spells bytes, in either case, is read as these bytes. -/
theorem C135_read (s : List Char) (bytes : List Byte) (h : Spells s bytes) : hexToBytes s = .ok bytes := by
  obtain ⟨h1, h2⟩ := readPairs_spells s bytes h
  unfold hexToBytes
  rw [h1]
  simp only [Res.bind]
  rw [if_neg (by omega)]

/-- C135: no bytes are lost or changed on the way through text. -/
theorem C135_roundtrip (bytes : List Byte) : (bytesToHex bytes).bind hexToBytes = .ok bytes := by
  obtain ⟨s, h1, -, -, h2⟩ := C135_text bytes
  rw [h1]
  exact C135_read s bytes h2

/-- C135: different bytes have different texts. -/
theorem C135_injective (x y : List Byte) (h : bytesToHex x = bytesToHex y) : x = y := by
  have hx := C135_roundtrip x
  rw [h, C135_roundtrip y] at hx
  cases hx
  rfl

/-- C135: lower case digits in pairs are the text of the bytes read from them. -/
theorem C135_canonical (s : List Char) (hs : ∀ c ∈ s, lower c) (he : s.length % 2 = 0) :
    ∃ bytes, hexToBytes s = .ok bytes ∧ bytesToHex bytes = .ok s := by
  have key : ∀ n, ∀ s : List Char, s.length = 2 * n → (∀ c ∈ s, lower c) → ∃ bytes : List Byte, s = bytes.flatMap fun b => pad 2 (hexDigits b.val) := by
    intro n
    induction n with
    | zero => intro s h _; exact ⟨[], by simpa using h⟩
    | succ n ih =>
      intro s h hl
      match s, h, hl with
      | a :: b :: l, h, hl =>
        obtain ⟨bytes, hb⟩ := ih l (by simp at h; omega) (fun c hc => hl c (by simp [hc]))
        obtain ⟨x, hx, rfl, -⟩ := lower_digit a (hl a (by simp))
        obtain ⟨y, hy, rfl, -⟩ := lower_digit b (hl b (by simp))
        refine ⟨⟨16 * x + y, by omega⟩ :: bytes, ?_⟩
        rw [List.flatMap_cons, byte_text, ← hb]
        simp only
        rw [show (16 * x + y) / 16 = x by omega, show (16 * x + y) % 16 = y by omega]
        rfl
  obtain ⟨bytes, rfl⟩ := key (s.length / 2) s (by omega) hs
  exact ⟨bytes, C135_read _ _ (spells_text bytes), bytesToHex_eq bytes⟩

/-- C135: an object saved and loaded is what the archive reads back of what it has written. -/
theorem C135_pickle (x y : T) (bytes : List Byte) (hw : ar.write x = .ok bytes) (hr : ar.read bytes = .ok (y, bytes.length)) :
    (save ar x).bind (load ar) = .ok y := by
  obtain ⟨s, h1, -, -, h2⟩ := C135_text bytes
  unfold save
  rw [hw]
  simp only [Res.bind, h1, load, C135_read s bytes h2, fromBytes, hr]
  rw [if_neg (by simp)]

/-- C135: a state that is not a single text, a text with an odd number of characters, and bytes left over after the object
    are refused: what is loaded comes from a single text in pairs, all of whose bytes were read. -/
theorem C135_load (t : List (List Char)) (y : T) (h : load ar t = .ok y) :
    ∃ s bytes, t = [s] ∧ s.length = 2 * bytes.length ∧ hexToBytes s = .ok bytes ∧ ar.read bytes = .ok (y, bytes.length) := by
  match t, h with
  | [s], h =>
    simp only [load] at h
    cases hb : hexToBytes s with
    | throws e => rw [hb] at h; cases h
    | ub => rw [hb] at h; cases h
    | ok bytes =>
      rw [hb] at h
      simp only [Res.bind, fromBytes] at h
      cases hr : ar.read bytes with
      | throws e => rw [hr] at h; cases h
      | ub => rw [hr] at h; cases h
      | ok r =>
        rw [hr] at h
        simp only at h
        split at h
        · cases h
        · next hn =>
          cases h
          refine ⟨s, bytes, rfl, ?_, hb, ?_⟩
          · unfold hexToBytes at hb
            cases hp : readPairs s with
            | throws e => rw [hp] at hb; cases hb
            | ub => rw [hp] at hb; cases hb
            | ok l =>
              rw [hp] at hb
              simp only [Res.bind] at hb
              split at hb
              · cases hb
              · next hl =>
                cases hb
                have := readPairs_length s _ hp
                push Not at hl
                omega
          · push Not at hn
            rw [hr, ← hn]
  | [], h => cases h
  | _ :: _ :: _, h => cases h

/-- C135 is false of the code for text that is not digits: what follows the first digit of a pair is ignored, so damaged
    text is read without an error. -/
theorem C135_damaged_fails : ¬ ∀ s bytes, hexToBytes s = .ok bytes → Spells s bytes := by
  intro h
  have := h ['1', 'g'] [1] rfl
  unfold Spells pairVal at this
  simp [digitVal] at this

/-! ### Examples -/

example : bytesToHex [0, 10, 255, 128] = .ok ['0', '0', '0', 'a', 'f', 'f', '8', '0'] := by
  rw [bytesToHex_eq]
  simp only [List.flatMap_cons, List.flatMap_nil, byte_text]
  rfl

example : Spells ['A', 'b', '0', '7'] [171, 7] := ⟨by decide, by decide, trivial⟩

/-- An archive of bytes with their number in front. -/
def counted : Archive (List Byte) where
  write l := if h : l.length < 256 then .ok (⟨l.length, h⟩ :: l) else .throws .runtimeError
  read l := match l with
    | [] => .throws .runtimeError
    | n :: l => if l.length < n.val then .throws .runtimeError else .ok (l.take n.val, n.val + 1)

example : (save counted [1, 2, 3]).bind (load counted) = .ok [1, 2, 3] :=
  C135_pickle counted [1, 2, 3] [1, 2, 3] [3, 1, 2, 3] rfl rfl

example : load counted [['0', '1', '0', '5']] = .ok [5] := rfl
example : load counted [['0', '1', '0', '5', '0', '5']] = .throws .runtimeError := rfl
example : load counted [['0', '1', '0']] = .throws .runtimeError := rfl

end Siren.Io.Bytes
