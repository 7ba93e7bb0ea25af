import Verif.Gdml.LoopModel
import Mathlib.Data.List.SplitBy

set_option autoImplicit false

/-! # C120: what a copy of the body of a loop looks like -/

namespace Siren.Gdml.Loop

open Siren Siren.Gdml
open Siren.Gdml.Define (put digits inRange)

/-! ## Specification -/

/-- The words of a text and what is between them: the longest parts that consist of letters, digits and underscores only, or of
other characters only. -/
def parts (s : List Char) : List (List Char) := s.splitBy fun a b => isIdChar a == isIdChar b

/-- Every word that is `var` becomes `val`. -/
def replaceWord (var val s : List Char) : List Char := (parts s).flatMap fun w => if w = var then val else w

/-! ## Proof -/

/-- The text is empty or starts with a character of a word (`b` true) or one between words (`b` false). -/
def starts (b : Bool) : List Char → Prop
  | [] => True
  | c :: _ => isIdChar c = b

theorem isPrefixOf_word {var : List Char} (hv : ∀ c ∈ var, isIdChar c = true) {r : List Char} (hr : starts false r) :
    ∀ {w : List Char}, (∀ c ∈ w, isIdChar c = true) → var.isPrefixOf (w ++ r) = true → ∃ x, w = var ++ x := by
  induction var with
  | nil => exact fun {w} _ _ => ⟨w, rfl⟩
  | cons a var ih =>
    intro w hw h
    cases w with
    | nil =>
      cases r with
      | nil => simp at h
      | cons c t =>
        simp only [List.nil_append, List.isPrefixOf, Bool.and_eq_true, beq_iff_eq] at h
        have h1 := hv a (by simp)
        rw [h.1] at h1
        simp only [starts] at hr
        rw [hr] at h1; cases h1
    | cons c t =>
      simp only [List.cons_append, List.isPrefixOf, Bool.and_eq_true, beq_iff_eq] at h
      obtain ⟨x, hx⟩ := ih (fun c hc => hv c (by simp [hc])) (w := t) (fun c hc => hw c (by simp [hc])) h.2
      exact ⟨x, by rw [h.1, hx]; rfl⟩

theorem words_between {var val : List Char} (hne : var ≠ []) (hv : ∀ c ∈ var, isIdChar c = true) (r : List Char) :
    ∀ (w : List Char) (n : Nat) (prev : Option Char), (∀ c ∈ w, isIdChar c = false) → (w ++ r).length ≤ n →
    ∃ m p, r.length ≤ m ∧ (w ≠ [] → boundary p = true) ∧ (w = [] → p = prev) ∧ words var val n prev (w ++ r) = w ++ words var val m p r
  | [], n, prev, _, hn => ⟨n, prev, by simpa using hn, by simp, by simp, rfl⟩
  | c :: t, n, prev, hw, hn => by
    obtain ⟨n, rfl⟩ : ∃ k, n = k + 1 := ⟨n - 1, by simp at hn; omega⟩
    have hc := hw c (by simp)
    have hp : var.isPrefixOf (c :: (t ++ r)) = false := by
      cases var with
      | nil => exact absurd rfl hne
      | cons a v =>
        simp only [List.isPrefixOf, Bool.and_eq_false_imp, beq_iff_eq]
        intro h
        have := hv a (by simp)
        rw [h, hc] at this; cases this
    obtain ⟨m, p, h1, h2, h3, h4⟩ := words_between hne hv r t n (some c) (fun c hc => hw c (by simp [hc])) (by simp at hn ⊢; omega)
    refine ⟨m, p, h1, fun _ => ?_, by simp, ?_⟩
    · by_cases ht : t = []
      · rw [h3 ht]; simp [boundary, hc]
      · exact h2 ht
    · rw [List.cons_append, words, if_neg (by simp [hp]), h4]; rfl

theorem words_word {var val : List Char} (hne : var ≠ []) (hv : ∀ c ∈ var, isIdChar c = true) {r : List Char} (hr : starts false r) :
    ∀ (k : Nat) (w : List Char) (n : Nat) (prev : Option Char), w.length ≤ k → (∀ c ∈ w, isIdChar c = true) → (w ++ r).length ≤ n →
    (boundary prev = false ∨ w ≠ var) →
    ∃ m p, r.length ≤ m ∧ words var val n prev (w ++ r) = w ++ words var val m p r := by
  intro k
  induction k with
  | zero =>
    intro w n prev hk hw hn _
    obtain rfl : w = [] := by simpa using hk
    exact ⟨n, prev, by simpa using hn, rfl⟩
  | succ k ih =>
    intro w n prev hk hw hn hb
    cases w with
    | nil => exact ⟨n, prev, by simpa using hn, rfl⟩
    | cons c t =>
      obtain ⟨n, rfl⟩ : ∃ k, n = k + 1 := ⟨n - 1, by simp at hn; omega⟩
      rw [List.cons_append, words]
      by_cases hp : var.isPrefixOf (c :: (t ++ r)) = true
      · rw [if_pos hp]
        obtain ⟨x, hx⟩ := isPrefixOf_word hv hr (w := c :: t) hw hp
        have hd : (c :: (t ++ r)).drop var.length = x ++ r := by
          rw [← List.cons_append, hx]; simp
        dsimp only
        rw [hd]
        have hlen : var.length + x.length = t.length + 1 := by
          have := congrArg List.length hx; simpa using this.symm
        have hpos : 0 < var.length := List.length_pos_iff.mpr hne
        have hx' : ∀ c ∈ x, isIdChar c = true := fun a ha => hw a (by rw [hx]; simp [ha])
        have hno : ¬ (boundary prev && boundary (x ++ r).head?) = true := by
          rcases hb with h | h
          · simp [h]
          · cases x with
            | nil => exact absurd (by simpa using hx) h
            | cons a x => simp [boundary, hx' a (by simp)]
        rw [if_neg hno]
        have hl : boundary var.getLast? = false := by
          rw [List.getLast?_eq_some_getLast hne]
          simp [boundary, hv _ (List.getLast_mem hne)]
        obtain ⟨m, p, h1, h2⟩ := ih x n var.getLast? (by simp at hk; omega) hx' (by simp at hn ⊢; omega) (.inl hl)
        exact ⟨m, p, h1, by rw [h2, ← List.append_assoc, hx]⟩
      · rw [if_neg hp]
        obtain ⟨m, p, h1, h2⟩ := ih t n (some c) (by simp at hk; omega) (fun c hc => hw c (by simp [hc])) (by simp at hn ⊢; omega)
          (.inl (by simp [boundary, hw c (by simp)]))
        exact ⟨m, p, h1, by rw [h2]; rfl⟩

/-- Parts of one kind alternate. -/
def Alternate : List (List Char) → Prop
  | [] => True
  | w :: L => w ≠ [] ∧ (∃ b, (∀ c ∈ w, isIdChar c = b) ∧ starts (!b) L.flatten) ∧ Alternate L

theorem words_parts {var val : List Char} (hne : var ≠ []) (hv : ∀ c ∈ var, isIdChar c = true) :
    ∀ (L : List (List Char)) (n : Nat) (prev : Option Char), Alternate L → L.flatten.length ≤ n →
    (starts true L.flatten → boundary prev = true) →
    words var val n prev L.flatten = L.flatMap fun w => if w = var then val else w
  | [], n, prev, _, _, _ => by
    cases n <;> simp [words]
  | w :: L, n, prev, hA, hn, hb => by
    obtain ⟨hw, ⟨b, hwb, hs⟩, hA'⟩ := hA
    rw [List.flatten_cons] at hn hb ⊢
    rw [List.flatMap_cons]
    cases b with
    | false =>
      obtain ⟨m, p, h1, h2, -, h4⟩ := words_between (val := val) hne hv L.flatten w n prev hwb hn
      have : w ≠ var := by
        rintro rfl
        cases w with
        | nil => exact hw rfl
        | cons a t => have h1 := hv a (by simp); rw [hwb a (by simp)] at h1; cases h1
      rw [if_neg this, h4, words_parts hne hv L m p hA' h1 fun _ => h2 hw]
    | true =>
      rw [Bool.not_true] at hs
      have hst : starts true (w ++ L.flatten) := by
        cases w with
        | nil => exact absurd rfl hw
        | cons a t => exact hwb a (by simp)
      have hnext : ∀ p, starts true L.flatten → boundary p = true ∨ L.flatten = [] := by
        intro p h
        cases hL : L.flatten with
        | nil => exact .inr rfl
        | cons a t => rw [hL] at h hs; simp only [starts] at h hs; rw [h] at hs; cases hs
      have tail : ∀ m p, L.flatten.length ≤ m →
          words var val m p L.flatten = L.flatMap fun w => if w = var then val else w := by
        intro m p hm
        cases hL : L with
        | nil => cases m <;> simp [words]
        | cons w' L' =>
          rw [← hL]
          refine words_parts hne hv L m p hA' hm fun h => ?_
          rcases hnext p h with h | h
          · exact h
          · rw [hL] at hA' h
            exact absurd (List.append_eq_nil_iff.mp h).1 hA'.1
      by_cases hwv : w = var
      · rw [if_pos hwv]
        subst hwv
        obtain ⟨c, t, rfl⟩ : ∃ c t, w = c :: t := by
          cases w with
          | nil => exact absurd rfl hw
          | cons c t => exact ⟨c, t, rfl⟩
        obtain ⟨n, rfl⟩ : ∃ k, n = k + 1 := ⟨n - 1, by simp at hn; omega⟩
        rw [List.cons_append, words, if_pos (by rw [List.isPrefixOf_iff_prefix]; exact List.prefix_append _ _)]
        have hd : (c :: (t ++ L.flatten)).drop (c :: t).length = L.flatten := by
          rw [← List.cons_append, List.drop_left]
        dsimp only
        rw [hd]
        have hh : boundary L.flatten.head? = true := by
          cases hL : L.flatten with
          | nil => rfl
          | cons a r => rw [hL] at hs; simp only [starts] at hs; simp [boundary, hs]
        rw [hb hst, hh, if_pos (by rfl), tail n _ (by simp at hn ⊢; omega)]
      · rw [if_neg hwv]
        obtain ⟨m, p, h1, h2⟩ := words_word (val := val) hne hv hs w.length w n prev le_rfl hwb hn (.inr hwv)
        rw [h2, tail m p h1]

theorem alternate_parts : ∀ (L : List (List Char)), [] ∉ L →
    (∀ m ∈ L, m.IsChain fun a b => (isIdChar a == isIdChar b) = true) →
    L.IsChain (fun a b => ∃ ha hb, (isIdChar (a.getLast ha) == isIdChar (b.head hb)) = false) → Alternate L
  | [], _, _, _ => trivial
  | w :: L, h0, h1, h2 => by
    have hw : w ≠ [] := fun h => h0 (by simp [h])
    refine ⟨hw, ⟨isIdChar (w.getLast hw), ?_, ?_⟩, alternate_parts L (fun h => h0 (by simp [h])) (fun m hm => h1 m (by simp [hm])) (List.IsChain.of_cons h2)⟩
    · have hc := h1 w (by simp)
      clear h0 h1 h2
      induction w with
      | nil => exact absurd rfl hw
      | cons a t ih =>
        cases t with
        | nil => intro c hc; simp at hc; simp [hc]
        | cons b t =>
          rw [List.isChain_cons_cons] at hc
          have := ih (by simp) hc.2
          intro c hcm
          rw [List.getLast_cons (by simp)]
          rcases List.mem_cons.mp hcm with rfl | h
          · rw [← this b (by simp)]; simpa using hc.1
          · exact this c h
    · cases L with
      | nil => trivial
      | cons w' L =>
        rw [List.isChain_cons_cons] at h2
        obtain ⟨⟨ha, hb, h⟩, -⟩ := h2
        rw [List.flatten_cons]
        cases w' with
        | nil => exact absurd rfl hb
        | cons a t =>
          simp only [List.head_cons, beq_eq_false_iff_ne, ne_eq] at h
          show isIdChar a = _
          cases h1 : isIdChar a <;> cases h2 : isIdChar (w.getLast hw) <;> simp_all

/-- C120: the second pass replaces exactly the words equal to the variable, for every text and every variable whose name is a word. -/
theorem C120_words (var val s : List Char) (hne : var ≠ []) (hv : ∀ c ∈ var, isIdChar c = true) :
    words var val s.length none s = replaceWord var val s := by
  have h := (List.splitBy_eq_iff (r := fun a b => isIdChar a == isIdChar b) (m := s) (l := parts s)).mp rfl
  have hA := alternate_parts (parts s) h.2.1 h.2.2.1 h.2.2.2
  have := words_parts (val := val) hne hv (parts s) s.length none hA (by rw [← h.1]) (fun _ => rfl)
  rw [← h.1] at this
  exact this

/-- The variable `i` in an expression; `pi` and `i_max` are other words. -/
example : words "i".toList "3".toList 14 none "i*10+pi+i_max".toList = "3*10+pi+i_max".toList := by decide +kernel

/-- C120: a bracketed expression that can be evaluated becomes its value without the fraction. -/
theorem C120_bracket (ev : String → Res ℚ) {e : List Char} (he : ']' ∉ e) {v : ℚ} (hv : ev (String.ofList e) = .ok v)
    (hr : |v| < 2 ^ 63) {pre : List Char} (hp : '[' ∉ pre) (rest : List Char) :
    brackets ev none (pre ++ '[' :: e ++ ']' :: rest) =
      (do let r ← brackets ev none rest
          pure (pre ++ (toString (if 0 ≤ v then ⌊v⌋ else ⌈v⌉)).toList ++ r.1, r.2)) := by
  have inner : ∀ (e acc : List Char), ']' ∉ e → brackets ev (some acc) (e ++ ']' :: rest) = brackets ev (some (acc ++ e)) (']' :: rest) := by
    intro e
    induction e with
    | nil => intro acc _; simp
    | cons c t ih =>
      intro acc h
      rw [List.mem_cons, not_or] at h
      rw [List.cons_append, brackets, if_neg (fun hc => h.1 hc.symm), ih _ h.2, List.append_assoc]; rfl
  have hd : digits v = .ok (toString (if 0 ≤ v then ⌊v⌋ else ⌈v⌉)).toList := by
    rw [abs_lt] at hr
    unfold digits
    dsimp only
    rw [if_pos]
    split
    · exact ⟨by rw [Int.le_floor]; push_cast; linarith [hr.1], by rw [Int.floor_lt]; push_cast; linarith [hr.2]⟩
    · exact ⟨by rw [Int.le_ceil_iff]; push_cast; linarith [hr.1], by
        have : ⌈v⌉ ≤ 0 := by rw [Int.ceil_le]; push_cast; linarith
        omega⟩
  induction pre with
  | nil =>
    rw [List.nil_append, List.cons_append, brackets, if_pos rfl, inner e [] he, List.nil_append, brackets, if_pos rfl, hv]
    dsimp only
    rw [hd, Res.ok_bind]
    rfl
  | cons c t ih =>
    rw [List.mem_cons, not_or] at hp
    rw [List.cons_append, List.cons_append, brackets, if_neg (fun hc => hp.1 hc.symm), ih hp.2]
    cases brackets ev none rest <;> rfl

/-- C120: text without brackets is not touched by the first pass. -/
theorem C120_no_bracket (ev : String → Res ℚ) : ∀ {s : List Char}, '[' ∉ s → brackets ev none s = .ok (s, 0)
  | [], _ => rfl
  | c :: t, h => by
    rw [List.mem_cons, not_or] at h
    rw [brackets, if_neg (fun hc => h.1 hc.symm), C120_no_bracket ev h.2]; rfl

/-- C120: a bracketed expression that cannot be evaluated stays and counts as an error. -/
theorem C120_bad_bracket (ev : String → Res ℚ) {e : List Char} (he : ']' ∉ e) {x : Exn} (hv : ev (String.ofList e) = .throws x)
    {pre : List Char} (hp : '[' ∉ pre) (rest : List Char) :
    brackets ev none (pre ++ '[' :: e ++ ']' :: rest) =
      (do let r ← brackets ev none rest
          pure (pre ++ '[' :: e ++ ']' :: r.1, r.2 + 1)) := by
  have inner : ∀ (e acc : List Char), ']' ∉ e → brackets ev (some acc) (e ++ ']' :: rest) = brackets ev (some (acc ++ e)) (']' :: rest) := by
    intro e
    induction e with
    | nil => intro acc _; simp
    | cons c t ih =>
      intro acc h
      rw [List.mem_cons, not_or] at h
      rw [List.cons_append, brackets, if_neg (fun hc => h.1 hc.symm), ih _ h.2, List.append_assoc]; rfl
  induction pre with
  | nil =>
    rw [List.nil_append, List.cons_append, brackets, if_pos rfl, inner e [] he, List.nil_append, brackets, if_pos rfl, hv]
  | cons c t ih =>
    rw [List.mem_cons, not_or] at hp
    rw [List.cons_append, List.cons_append, brackets, if_neg (fun hc => hp.1 hc.symm), ih hp.2]
    cases brackets ev none rest <;> rfl

/-- `layer_[i]_x` for `i = 7/2`. -/
example : brackets (fun _ => .ok (7 / 2)) none "layer_[i]_x".toList = .ok ("layer_3_x".toList, 0) := by
  refine (C120_bracket (fun _ => .ok (7 / 2)) (e := ['i']) (by decide) (v := 7 / 2) rfl (by norm_num [abs_of_pos])
    (pre := "layer_".toList) (by decide) "_x".toList).trans ?_
  rw [C120_no_bracket _ (s := "_x".toList) (by decide)]
  decide +kernel

end Siren.Gdml.Loop
