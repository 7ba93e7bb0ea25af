import Mathlib.Data.List.DropRight

set_option autoImplicit false

/-!
# Line prefixing (C53)

Models `utilities/private/StringManipulation.cxx`. Strings are lists of characters.
-/

namespace Siren.Util

/-! ## Model -/

/-- All lines that repeated `std::getline(stream, line, delim)` delivers: the delimiter is removed, and nothing is delivered once the end of the
input is reached without reading a character. -/
def getlines (delim : Char) : List Char → List (List Char)
  | [] => []
  | c :: cs =>
    if c = delim then [] :: getlines delim cs
    else match getlines delim cs with
      | [] => [[c]]
      | l :: ls => (c :: l) :: ls

/-- The number of the last line that is not empty, `-1` in the code if there is none (StringManipulation.cxx:14-24). -/
def lastNonEmpty (lines : List (List Char)) : Option Nat :=
  lines.zipIdx.foldl (fun last (l : List Char × Nat) => if l.1.isEmpty then last else some l.2) none

/-- `add_prefix` (StringManipulation.cxx:10-37). -/
def addPrefix (input pre : List Char) : List Char :=
  let lines := getlines '\n' input
  match lastNonEmpty lines with
  | none => []
  | some n => (lines.take n).flatMap (fun l => pre ++ l ++ ['\n']) ++ (pre ++ lines.getD n [])

/-- `tab` (StringManipulation.h:10). -/
def tab : List Char := [' ', ' ']

/-- `indent` (StringManipulation.cxx:39-44). -/
def indent (input : List Char) (n : Nat) : List Char := addPrefix input (List.replicate n tab).flatten

/-! ## Proofs -/

theorem getlines_newlines (k : Nat) : getlines '\n' (List.replicate k '\n') = List.replicate k [] := by
  induction k with
  | zero => rfl
  | succ k ih => simp [List.replicate_succ, getlines, ih]

theorem getlines_ne_nil (c : Char) (cs : List Char) : getlines '\n' (c :: cs) ≠ [] := by
  rw [getlines]; split
  · simp
  · split <;> simp

theorem getlines_append (body r : List Char) (hne : body ≠ []) (hl : body.getLast hne ≠ '\n') :
    getlines '\n' (body ++ '\n' :: r) = getlines '\n' body ++ getlines '\n' r := by
  induction body with
  | nil => exact absurd rfl hne
  | cons c cs ih =>
    cases cs with
    | nil =>
      have hc : c ≠ '\n' := by simpa using hl
      simp [getlines, hc]
    | cons d ds =>
      have hl' : (d :: ds).getLast (by simp) ≠ '\n' := by rwa [List.getLast_cons (by simp)] at hl
      have := ih (by simp) hl'
      obtain ⟨l, ls, e⟩ := List.exists_cons_of_ne_nil (getlines_ne_nil d ds)
      have h1 : ∀ t, getlines '\n' (c :: t) = if c = '\n' then [] :: getlines '\n' t else
          match getlines '\n' t with | [] => [[c]] | l :: ls => (c :: l) :: ls := fun t => rfl
      rw [List.cons_append, h1, this, h1 (d :: ds), e]
      split <;> rfl

/-- What each character of the text becomes. -/
def mark (pre : List Char) (c : Char) : List Char := if c = '\n' then c :: pre else [c]

theorem getlines_body (pre body : List Char) (hne : body ≠ []) (hl : body.getLast hne ≠ '\n') :
    ∃ ls l, getlines '\n' body = ls ++ [l] ∧ l ≠ [] ∧
      ls.flatMap (fun l => pre ++ l ++ ['\n']) ++ (pre ++ l) = pre ++ body.flatMap (mark pre) := by
  induction body with
  | nil => exact absurd rfl hne
  | cons c cs ih =>
    cases cs with
    | nil =>
      have hc : c ≠ '\n' := by simpa using hl
      exact ⟨[], [c], by simp [getlines, hc], by simp, by simp [mark, hc]⟩
    | cons d ds =>
      have hl' : (d :: ds).getLast (by simp) ≠ '\n' := by rwa [List.getLast_cons (by simp)] at hl
      obtain ⟨ls, l, e, hln, h⟩ := ih (by simp) hl'
      rw [getlines, e]
      by_cases hc : c = '\n'
      · refine ⟨[] :: ls, l, by simp [hc], hln, ?_⟩
        have hm : mark pre c = '\n' :: pre := by rw [mark, if_pos hc, hc]
        rw [List.flatMap_cons, List.append_assoc, h, List.flatMap_cons (x := c), hm]
        simp
      · rw [if_neg hc]
        cases ls with
        | nil =>
          refine ⟨[], c :: l, by simp, by simp, ?_⟩
          simp only [List.flatMap_nil, List.nil_append] at h
          rw [List.flatMap_cons, mark, if_neg hc, ← List.append_cancel_left h]
          simp
        | cons l0 ls =>
          refine ⟨(c :: l0) :: ls, l, by simp, hln, ?_⟩
          rw [List.flatMap_cons] at h ⊢
          rw [List.flatMap_cons, mark, if_neg hc]
          simp only [List.append_assoc] at h
          have := List.append_cancel_left h
          simp only [List.append_assoc, List.cons_append, List.nil_append] at this ⊢
          rw [this]

theorem lastNonEmpty_concat (lines : List (List Char)) (l : List Char) :
    lastNonEmpty (lines ++ [l]) = if l.isEmpty then lastNonEmpty lines else some lines.length := by
  simp [lastNonEmpty, List.zipIdx_append, List.foldl_append]

theorem lastNonEmpty_blank (lines : List (List Char)) (k : Nat) : lastNonEmpty (lines ++ List.replicate k []) = lastNonEmpty lines := by
  induction k with
  | zero => simp
  | succ k ih => rw [List.replicate_succ', ← List.append_assoc, lastNonEmpty_concat, ih]; rfl

theorem addPrefix_body (pre body : List Char) (k : Nat) (hne : body ≠ []) (hl : body.getLast hne ≠ '\n') :
    addPrefix (body ++ List.replicate k '\n') pre = pre ++ body.flatMap (mark pre) := by
  obtain ⟨ls, l, e, hln, h⟩ := getlines_body pre body hne hl
  have hlines : ∃ m, getlines '\n' (body ++ List.replicate k '\n') = ls ++ [l] ++ List.replicate m [] := by
    cases k with
    | zero => exact ⟨0, by simp [e]⟩
    | succ k => exact ⟨k, by rw [List.replicate_succ, getlines_append body _ hne hl, getlines_newlines, e]⟩
  obtain ⟨m, hm⟩ := hlines
  have hi : l.isEmpty = false := by cases l <;> simp_all
  rw [addPrefix, hm]
  simp only [lastNonEmpty_blank, lastNonEmpty_concat, hi]
  simp only [Bool.false_eq_true, if_false]
  have ht : (ls ++ [l] ++ List.replicate m []).take ls.length = ls := by simp
  have hg : (ls ++ [l] ++ List.replicate m []).getD ls.length [] = l := by simp [List.getD_eq_getElem?_getD]
  rw [ht, hg, h]

theorem addPrefix_newlines (pre : List Char) (k : Nat) : addPrefix (List.replicate k '\n') pre = [] := by
  have : lastNonEmpty (List.replicate k []) = none := lastNonEmpty_blank [] k
  rw [addPrefix, getlines_newlines]
  simp only [this]

/-! ## Theorems -/

/-- The line breaks at the end of the text are removed. If nothing is left the result is empty; otherwise the prefix is put in front of the
text and behind each of its remaining line breaks, and nothing else is changed. -/
theorem C53_prefix (input pre : List Char) :
    addPrefix input pre =
      if input.rdropWhile (· = '\n') = [] then []
      else pre ++ (input.rdropWhile (· = '\n')).flatMap fun c => if c = '\n' then '\n' :: pre else [c] := by
  have hdec : input = input.rdropWhile (· = '\n') ++ List.replicate (input.rtakeWhile (· = '\n')).length '\n' := by
    have h1 : input.rtakeWhile (· = '\n') = List.replicate (input.rtakeWhile (· = '\n')).length '\n' := by
      rw [List.eq_replicate_iff]
      exact ⟨rfl, fun b hb => by simpa using List.mem_rtakeWhile_imp hb⟩
    rw [← h1, List.rdropWhile_append_rtakeWhile]
  by_cases hb : input.rdropWhile (· = '\n') = []
  · rw [if_pos hb, hdec, hb, List.nil_append, addPrefix_newlines]
  · rw [if_neg hb]
    have hl : (input.rdropWhile (· = '\n')).getLast hb ≠ '\n' := by
      have := List.rdropWhile_last_not (fun c : Char => decide (c = '\n')) input hb
      simpa using this
    conv_lhs => rw [hdec]
    rw [addPrefix_body _ _ _ hb hl]
    congr 1
    apply congrArg (fun f => List.flatMap f (input.rdropWhile (· = '\n')))
    funext c
    rw [mark]
    split
    · rename_i h; rw [h]
    · rfl

/-- Prefixing twice is prefixing with both prefixes. -/
theorem C53_twice (input p q : List Char) (hp : '\n' ∉ p) : addPrefix (addPrefix input p) q = addPrefix input (q ++ p) := by
  rw [C53_prefix input p, C53_prefix input (q ++ p)]
  by_cases hb : input.rdropWhile (· = '\n') = []
  · rw [if_pos hb, if_pos hb]; rfl
  · rw [if_neg hb, if_neg hb]
    have hl : (input.rdropWhile (· = '\n')).getLast hb ≠ '\n' := by
      have := List.rdropWhile_last_not (fun c : Char => decide (c = '\n')) input hb
      simpa using this
    generalize input.rdropWhile (· = '\n') = body at hb hl
    have hmark : ∀ r : List Char, (fun c => if c = '\n' then '\n' :: r else [c]) = mark r := by
      intro r; funext c; rw [mark]; split
      · rename_i h; rw [h]
      · rfl
    rw [hmark, hmark]
    have hlast : ∀ b : List Char, ∀ hb : b ≠ [], b.getLast hb ≠ '\n' →
        ∃ c cs, p ++ b.flatMap (mark p) = cs ++ [c] ∧ c ≠ '\n' := by
      intro b hb hl
      obtain ⟨init, last, rfl⟩ := List.eq_nil_or_concat b |>.resolve_left hb
      have hc : last ≠ '\n' := by simpa using hl
      refine ⟨last, p ++ init.flatMap (mark p), ?_, hc⟩
      simp [mark, hc]
    obtain ⟨c, cs, he, hc⟩ := hlast body hb hl
    have hne : p ++ body.flatMap (mark p) ≠ [] := by rw [he]; simp
    have hlst : (p ++ body.flatMap (mark p)).getLast hne ≠ '\n' := by simp only [he]; simpa using hc
    have := addPrefix_body q (p ++ body.flatMap (mark p)) 0 hne hlst
    rw [List.replicate_zero, List.append_nil] at this
    rw [this, List.flatMap_append, List.flatMap_assoc]
    have hpp : ∀ l : List Char, '\n' ∉ l → l.flatMap (mark q) = l := by
      intro l
      induction l with
      | nil => simp
      | cons d ds ih =>
        intro h
        have h1 : d ≠ '\n' := fun e => h (by simp [e])
        rw [List.flatMap_cons, ih (fun e => h (List.mem_cons_of_mem _ e)), mark, if_neg h1]; rfl
    rw [hpp p hp, ← List.append_assoc]
    congr 1
    apply congrArg (fun f => List.flatMap f body)
    funext d
    rw [mark, mark]
    split
    · rename_i h
      rw [List.flatMap_cons, hpp p hp, mark, if_pos h]; rfl
    · rename_i h
      simp [mark, h]

/-- Indenting by one more step is prefixing the indented text with two blanks. -/
theorem C53_indent (input : List Char) (n : Nat) : indent input (n + 1) = addPrefix (indent input n) [' ', ' '] := by
  have h : ∀ n, '\n' ∉ (List.replicate n tab).flatten := by
    intro n; induction n with
    | zero => simp
    | succ n ih => rw [List.replicate_succ, List.flatten_cons]; simp only [List.mem_append, not_or]; exact ⟨by simp [tab], ih⟩
  rw [indent, indent, C53_twice _ _ _ (h n), List.replicate_succ, List.flatten_cons]
  rfl

/-! ## Examples -/

example : addPrefix "a\n\nb\n\n".toList "> ".toList = "> a\n> \n> b".toList := by decide

example : indent "x\ny\n".toList 2 = "    x\n    y".toList := by decide

end Siren.Util
