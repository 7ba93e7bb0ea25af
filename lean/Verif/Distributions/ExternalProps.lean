import Verif.Distributions.ExternalModel

set_option autoImplicit false

/-!
# External events from a file (C56)
-/

namespace Siren.Distributions

open Siren Siren.Util Siren.Records

/-! ## Specification -/

/-- A line that is read as a row: neither blank nor a comment. -/
def IsRow (line : List Char) : Prop := ∃ c rest, trim line = c :: rest ∧ c ≠ '#'

/-- Trimming takes away the blanks, tabs and line ends before and after a text, and nothing else. -/
theorem C56_trim (s : List Char) : (∃ a b, s = a ++ trim s ++ b ∧ ∀ c ∈ a ++ b, c ∈ [' ', '\t', '\r', '\n']) ∧
    (∀ c ∈ (trim s).head?, c ∉ [' ', '\t', '\r', '\n']) ∧ ∀ c ∈ (trim s).getLast?, c ∉ [' ', '\t', '\r', '\n'] := by
  have hb : ∀ c, blank c = true ↔ c ∈ [' ', '\t', '\r', '\n'] := by
    intro c; simp [blank, or_assoc]
  refine ⟨⟨s.takeWhile blank, (s.dropWhile blank).rtakeWhile blank, ?_, ?_⟩, ?_, ?_⟩
  · rw [trim, List.append_assoc, List.rdropWhile_append_rtakeWhile, List.takeWhile_append_dropWhile]
  · intro c hc
    rw [← hb]
    rcases List.mem_append.mp hc with hc | hc
    · exact List.mem_takeWhile_imp hc
    · exact List.mem_rtakeWhile_imp hc
  · intro c hc
    rw [← hb]
    intro hbl
    have hpre : trim s <+: s.dropWhile blank := List.rdropWhile_prefix _ _
    have : (s.dropWhile blank).head? = some c := by
      obtain ⟨r, hr⟩ := hpre
      cases ht : trim s with
      | nil => rw [ht] at hc; simp at hc
      | cons x xs =>
        rw [ht] at hc hr
        simp only [List.head?_cons, Option.mem_def, Option.some.injEq] at hc
        rw [← hr, ← hc]; rfl
    have hn := List.head?_dropWhile_not blank s
    rw [this] at hn
    simp [hbl] at hn
  · intro c hc
    rw [← hb]
    have hne : trim s ≠ [] := by rintro h; rw [h] at hc; simp at hc
    have := List.rdropWhile_last_not blank (s.dropWhile blank) hne
    rw [List.getLast?_eq_getLast_of_ne_nil hne] at hc
    simp only [Option.mem_def, Option.some.injEq] at hc
    rw [← hc]; exact this

/-- Carriage returns and inner blanks. -/
example : trim " a b\t\r".toList = "a b".toList := by decide

instance (line : List Char) : Decidable (IsRow line) := by
  unfold IsRow
  cases h : trim line with
  | nil => exact isFalse (by rintro ⟨c, r, h, -⟩; cases h)
  | cons c r => exact decidable_of_iff (c ≠ '#') ⟨fun hc => ⟨c, r, rfl, hc⟩, fun ⟨_, _, h, hc⟩ => by injection h with h1 _; exact h1 ▸ hc⟩

/-- `line` is the text of the numbers `row`. -/
def Reads (stod : List Char → Res ℝ) (line : List Char) (row : List ℝ) : Prop := List.Forall₂ (fun cell v => stod cell = .ok v) (getlines ',' line) row

/-- No energy of the row is below the threshold. -/
def Above (emin : ℝ) (keys : List (List Char)) (row : List ℝ) : Prop := ∀ p ∈ keys.zip row, p.1 = "E".toList → ¬ p.2 < emin

/-- All or none of three keys are there. -/
def Complete (keys : List (List Char)) (a b c : String) : Prop :=
  (a.toList ∈ keys ∨ b.toList ∈ keys ∨ c.toList ∈ keys) → a.toList ∈ keys ∧ b.toList ∈ keys ∧ c.toList ∈ keys

open Classical in
/-- What the distribution loaded from a text should be. -/
structure Loads (stod : List Char → Res ℝ) (emin : ℝ) (header : List Char) (lines : List (List Char)) (s : External) : Prop where
  keys : s.keys = (getlines ',' header).map trim
  initial : Complete s.keys "x0" "y0" "z0"
  vertex : Complete s.keys "x" "y" "z"
  momentum : Complete s.keys "px" "py" "pz"
  initPosSet : s.initPosSet = true ↔ "x0".toList ∈ s.keys
  vertexSet : s.vertexSet = true ↔ "x".toList ∈ s.keys
  momSet : s.momSet = true ↔ "px".toList ∈ s.keys
  rows : ∃ table : List (List ℝ), List.Forall₂ (Reads stod) (lines.filter fun l => IsRow l) table ∧ (∀ row ∈ table, row.length = s.keys.length) ∧
    s.data = table.filter fun row => Above emin s.keys row
  notEmpty : s.data ≠ []

/-- The value of the last column with the given key. -/
def column (keys : List (List Char)) (row : List ℝ) (key : List Char) : Option ℝ :=
  (((keys.zip row).filter fun p => p.1 = key).getLast?).map Prod.snd

/-- The keys that are not stored as interaction parameters. -/
def reserved : List (List Char) := ["x0", "y0", "z0", "x", "y", "z", "px", "py", "pz", "t0", "E", "m"].map String.toList

/-! ## Loading -/

/-- What `getlines` does: a line up to the first delimiter, then the rest. -/
theorem C56_line (d : Char) (line rest : List Char) (h : d ∉ line) :
    getlines d (line ++ d :: rest) = line :: getlines d rest ∧ (line ≠ [] → getlines d line = [line]) := by
  induction line with
  | nil => simp [getlines]
  | cons c cs ih =>
    have hc : c ≠ d := fun e => h (by simp [e])
    obtain ⟨h1, h2⟩ := ih fun e => h (List.mem_cons_of_mem _ e)
    constructor
    · rw [List.cons_append, getlines, if_neg hc, h1]
    · intro _
      rw [getlines, if_neg hc]
      cases cs with
      | nil => rfl
      | cons e es => rw [h2 (by simp)]

theorem isRow_iff (line : List Char) : IsRow line ↔ ¬ (trim line = [] ∨ (trim line).head? = some '#') := by
  rw [IsRow]
  cases trim line with
  | nil => simp
  | cons c r => simp

theorem readCells_ok (stod : List Char → Res ℝ) (emin : ℝ) (keys : List (List Char)) (cells : List (List Char)) (i : Nat) (passed : Bool) (tmp : List ℝ)
    (r : Nat × Bool × List ℝ) :
    readCells stod emin keys cells i passed tmp = .ok r ↔
      ∃ row, List.Forall₂ (fun cell v => stod cell = .ok v) cells row ∧ (cells = [] ∨ i + cells.length ≤ keys.length) ∧
        r.1 = i + cells.length ∧ r.2.2 = tmp ++ row ∧ (r.2.1 = true ↔ passed = true ∧ Above emin (keys.drop i) row) := by
  induction cells generalizing i passed tmp with
  | nil =>
    rw [readCells]
    constructor
    · intro h
      cases h
      exact ⟨[], .nil, Or.inl rfl, rfl, by simp, by simp [Above]⟩
    · rintro ⟨row, h, -, h1, h2, h3⟩
      cases h
      obtain ⟨a, b, c⟩ := r
      simp only [List.length_nil, Nat.add_zero, List.append_nil] at h1 h2 h3
      have hb : b = passed := by
        have : Above emin (keys.drop i) [] := by simp [Above]
        simp only [this, and_true] at h3
        cases b <;> cases passed <;> simp_all
      rw [h1, h2, hb]
  | cons cell cells ih =>
    rw [readCells]
    cases hk : keys[i]? with
    | none =>
      have hlen : keys.length ≤ i := List.getElem?_eq_none_iff.mp hk
      constructor
      · intro h; cases h
      · rintro ⟨row, -, h, -⟩
        rcases h with h | h
        · cases h
        · simp at h; omega
    | some key =>
      have hlen : i < keys.length := (List.getElem?_eq_some_iff.mp hk).1
      have hdrop : keys.drop i = key :: keys.drop (i + 1) := by
        rw [List.drop_eq_getElem_cons hlen]
        congr 1
        exact (List.getElem?_eq_some_iff.mp hk).2
      simp only
      cases hs : stod cell with
      | throws e =>
        constructor
        · intro h
          split at h <;> simp [Res.bind] at h
        · rintro ⟨row, h, -⟩
          cases h with | cons h _ => rw [hs] at h; cases h
      | ub =>
        constructor
        · intro h
          split at h <;> simp [Res.bind] at h
        · rintro ⟨row, h, -⟩
          cases h with | cons h _ => rw [hs] at h; cases h
      | ok v =>
        have hred : ((if key = "E".toList then (Res.ok v).bind fun v => .ok (if v < emin then false else passed) else .ok passed : Res Bool).bind fun passed =>
            (Res.ok v).bind fun v => readCells stod emin keys cells (i + 1) passed (tmp ++ [v])) =
            readCells stod emin keys cells (i + 1) (if key = "E".toList then (if v < emin then false else passed) else passed) (tmp ++ [v]) := by
          split <;> rfl
        rw [hred, ih]
        constructor
        · rintro ⟨row, h1, h2, h3, h4, h5⟩
          refine ⟨v :: row, .cons hs h1, Or.inr ?_, by rw [h3, List.length_cons]; omega, by rw [h4]; simp, ?_⟩
          · rw [List.length_cons]
            rcases h2 with h2 | h2
            · rw [h2]; simp; omega
            · omega
          · rw [h5, hdrop]
            simp only [Above, List.zip_cons_cons, List.mem_cons, forall_eq_or_imp]
            by_cases hE : key = "E".toList
            · rw [if_pos hE]
              by_cases hv : v < emin
              · simp [hv, hE]
              · simp [hv]
            · rw [if_neg hE]
              simp only [hE, false_imp_iff, true_and]
        · rintro ⟨row, h1, h2, h3, h4, h5⟩
          cases h1 with
          | @cons _ w _ row' hw h1 =>
            rw [hs] at hw
            cases hw
            refine ⟨row', h1, ?_, by rw [h3, List.length_cons]; omega, by rw [h4]; simp, ?_⟩
            · rcases h2 with h2 | h2
              · cases h2
              · right; rw [List.length_cons] at h2; omega
            · rw [h5, hdrop]
              simp only [Above, List.zip_cons_cons, List.mem_cons, forall_eq_or_imp]
              by_cases hE : key = "E".toList
              · rw [if_pos hE]
                by_cases hv : v < emin
                · simp [hv, hE]
                · simp [hv]
              · rw [if_neg hE]
                simp only [hE, false_imp_iff, true_and]

open Classical in
theorem readRows_ok (stod : List Char → Res ℝ) (emin : ℝ) (keys : List (List Char)) (lines : List (List Char)) (data out : List (List ℝ)) :
    readRows stod emin keys lines data = .ok out ↔
      ∃ table : List (List ℝ), List.Forall₂ (Reads stod) (lines.filter fun l => IsRow l) table ∧ (∀ row ∈ table, row.length = keys.length) ∧
        out = data ++ table.filter fun row => Above emin keys row := by
  induction lines generalizing data with
  | nil =>
    rw [readRows]
    constructor
    · intro h; cases h; exact ⟨[], .nil, by simp, by simp⟩
    · rintro ⟨table, h, -, h2⟩
      cases h
      simp at h2
      rw [h2]
  | cons line lines ih =>
    rw [readRows]
    by_cases hrow : IsRow line
    · have hn := (isRow_iff line).mp hrow
      simp only [if_neg hn]
      rw [List.filter_cons_of_pos (by simpa using hrow)]
      cases hc : readCells stod emin keys (getlines ',' line) 0 true [] with
      | ok r =>
        obtain ⟨row, h1, h2, h3, h4, h5⟩ := (readCells_ok _ _ _ _ _ _ _ _).mp hc
        obtain ⟨ikey, passed, tmp⟩ := r
        simp only [Nat.zero_add, List.nil_append, List.drop_zero, true_and] at h3 h4 h5
        subst h3 h4
        have hl := h1.length_eq
        change (if _ then _ else _ : Res _) = _ ↔ _
        by_cases hk : (getlines ',' line).length = keys.length
        · rw [if_neg (by simpa using hk), ih]
          constructor
          · rintro ⟨table, t1, t2, t3⟩
            refine ⟨tmp :: table, .cons h1 t1, ?_, ?_⟩
            · intro r hr
              rcases List.mem_cons.mp hr with rfl | hr
              · omega
              · exact t2 r hr
            · rw [t3]
              by_cases hp : passed = true
              · rw [List.filter_cons_of_pos (by simpa using h5.mp hp), if_pos hp]; simp
              · rw [List.filter_cons_of_neg (by simpa using fun h => hp (h5.mpr h)), if_neg hp]
          · rintro ⟨table, t1, t2, t3⟩
            cases t1 with
            | @cons _ row' _ table' hr t1 =>
              have hrr : row' = tmp := by
                have hr' : List.Forall₂ (fun cell v => stod cell = .ok v) (getlines ',' line) row' := hr
                clear hc hk hl h5 t3 t2 hr h2
                generalize getlines ',' line = cells at hr' h1
                induction hr' generalizing tmp with
                | nil => cases h1; rfl
                | cons a _ ih =>
                  cases h1 with
                  | cons b h1 => rw [a] at b; cases b; rw [ih _ h1]
              subst hrr
              refine ⟨table', t1, fun r hr => t2 r (List.mem_cons_of_mem _ hr), ?_⟩
              rw [t3]
              by_cases hp : passed = true
              · rw [List.filter_cons_of_pos (by simpa using h5.mp hp), if_pos hp]; simp
              · rw [List.filter_cons_of_neg (by simpa using fun h => hp (h5.mpr h)), if_neg hp]
        · rw [if_pos (by simpa using hk)]
          constructor
          · intro h; cases h
          · rintro ⟨table, t1, t2, t3⟩
            cases t1 with
            | @cons _ row' _ table' hr t1 =>
              have := hr.length_eq
              have := t2 row' List.mem_cons_self
              omega
      | throws e =>
        constructor
        · intro h; cases h
        · rintro ⟨table, t1, t2, t3⟩
          exfalso
          cases t1 with
          | @cons _ row' _ table' hr t1 =>
            have hl := hr.length_eq
            have hl2 := t2 row' List.mem_cons_self
            have : readCells stod emin keys (getlines ',' line) 0 true [] = .ok ((getlines ',' line).length, decide (Above emin keys row'), row') :=
              (readCells_ok _ _ _ _ _ _ _ _).mpr ⟨row', hr, Or.inr (by omega), by simp, by simp, by simp⟩
            rw [hc] at this
            cases this
      | ub =>
        constructor
        · intro h; cases h
        · rintro ⟨table, t1, t2, t3⟩
          exfalso
          cases t1 with
          | @cons _ row' _ table' hr t1 =>
            have hl := hr.length_eq
            have hl2 := t2 row' List.mem_cons_self
            have : readCells stod emin keys (getlines ',' line) 0 true [] = .ok ((getlines ',' line).length, decide (Above emin keys row'), row') :=
              (readCells_ok _ _ _ _ _ _ _ _).mpr ⟨row', hr, Or.inr (by omega), by simp, by simp, by simp⟩
            rw [hc] at this
            cases this
    · have hn : trim line = [] ∨ (trim line).head? = some '#' := by
        by_contra hc
        exact hrow ((isRow_iff line).mpr hc)
      simp only [if_pos hn]
      rw [List.filter_cons_of_neg (by simpa using hrow), ih]

theorem complete_iff (keys : List (List Char)) (a b c : String) : Complete keys a b c ↔ ¬ (anyOf keys a b c && !allOf keys a b c) = true := by
  simp only [Complete, anyOf, allOf, Bool.and_eq_true, Bool.or_eq_true, Bool.not_eq_true', List.contains_iff_mem, Bool.and_eq_false_iff, not_and,
    or_assoc]
  constructor
  · intro h h1 h2
    obtain ⟨ha, hb, hc⟩ := h h1
    simp [ha, hb, hc] at h2
  · intro h h1
    have := h h1
    by_contra hc
    apply this
    by_cases ha : a.toList ∈ keys
    · by_cases hb : b.toList ∈ keys
      · right; right
        have : c.toList ∉ keys := fun h' => hc ⟨ha, hb, h'⟩
        simp [this]
      · right; left; simp [hb]
    · left; simp [ha]

theorem allOf_iff (keys : List (List Char)) (a b c : String) (h : Complete keys a b c) : allOf keys a b c = true ↔ a.toList ∈ keys := by
  simp only [allOf, Bool.and_eq_true, List.contains_iff_mem]
  exact ⟨fun h => h.1.1, fun ha => ⟨⟨ha, (h (Or.inl ha)).2.1⟩, (h (Or.inl ha)).2.2⟩⟩

/-- Loading succeeds exactly if the header has complete coordinate triples, every row has as many numbers as the header has keys, and some row
passes the threshold; and then the distribution has the keys of the header and exactly the rows that pass, in order. -/
theorem C56_load (stod : List Char → Res ℝ) (emin : ℝ) (text : List Char) (s : External) :
    load stod emin (some text) = .ok s ↔ Loads stod emin ((getlines '\n' text).headD []) (getlines '\n' text).tail s := by
  rw [load]
  generalize (getlines '\n' text).headD [] = header
  generalize (getlines '\n' text).tail = lines
  generalize hk : (getlines ',' header).map trim = keys
  by_cases h1 : Complete keys "x0" "y0" "z0"
  · by_cases h2 : Complete keys "x" "y" "z"
    · by_cases h3 : Complete keys "px" "py" "pz"
      · rw [if_neg ((complete_iff _ _ _ _).mp h1), if_neg ((complete_iff _ _ _ _).mp h2), if_neg ((complete_iff _ _ _ _).mp h3)]
        constructor
        · intro h
          cases hr : readRows stod emin keys lines [] with
          | ok data =>
            rw [hr] at h
            change (if data = [] then _ else _ : Res _) = _ at h
            split at h
            · cases h
            · rename_i hne
              cases h
              obtain ⟨table, t1, t2, t3⟩ := (readRows_ok _ _ _ _ _ _).mp hr
              exact ⟨hk.symm, h1, h2, h3, allOf_iff _ _ _ _ h1, allOf_iff _ _ _ _ h2, allOf_iff _ _ _ _ h3,
                ⟨table, t1, t2, by simpa using t3⟩, hne⟩
          | throws e => rw [hr] at h; cases h
          | ub => rw [hr] at h; cases h
        · rintro ⟨e, -, -, -, f1, f2, f3, ⟨table, t1, t2, t3⟩, hne⟩
          rw [hk] at e
          obtain ⟨skeys, sdata, b1, b2, b3⟩ := s
          simp only at e f1 f2 f3 t1 t2 t3 hne
          subst e
          have := (readRows_ok stod emin skeys lines [] sdata).mpr ⟨table, t1, t2, by simpa using t3⟩
          rw [this]
          change (if sdata = [] then _ else _ : Res _) = _
          rw [if_neg hne]
          have g1 : allOf skeys "x0" "y0" "z0" = b1 := by rw [Bool.eq_iff_iff, allOf_iff _ _ _ _ h1, f1]
          have g2 : allOf skeys "x" "y" "z" = b2 := by rw [Bool.eq_iff_iff, allOf_iff _ _ _ _ h2, f2]
          have g3 : allOf skeys "px" "py" "pz" = b3 := by rw [Bool.eq_iff_iff, allOf_iff _ _ _ _ h3, f3]
          rw [g1, g2, g3]
      · rw [if_neg ((complete_iff _ _ _ _).mp h1), if_neg ((complete_iff _ _ _ _).mp h2), if_pos (not_not.mp fun h => h3 ((complete_iff _ _ _ _).mpr h))]
        exact ⟨fun h => (by cases h), fun h => absurd (by have e := h.keys; rw [hk] at e; exact e ▸ h.momentum) h3⟩
    · rw [if_neg ((complete_iff _ _ _ _).mp h1), if_pos (not_not.mp fun h => h2 ((complete_iff _ _ _ _).mpr h))]
      exact ⟨fun h => (by cases h), fun h => absurd (by have e := h.keys; rw [hk] at e; exact e ▸ h.vertex) h2⟩
  · rw [if_pos (not_not.mp fun h => h1 ((complete_iff _ _ _ _).mpr h))]
    exact ⟨fun h => (by cases h), fun h => absurd (by have e := h.keys; rw [hk] at e; exact e ▸ h.initial) h1⟩

theorem readCells_defined (stod : List Char → Res ℝ) (hstod : ∀ c, stod c ≠ .ub) (emin : ℝ) (keys cells : List (List Char)) (i : Nat) (passed : Bool)
    (tmp : List ℝ) : readCells stod emin keys cells i passed tmp ≠ .ub := by
  induction cells generalizing i passed tmp with
  | nil => rw [readCells]; simp
  | cons cell cells ih =>
    rw [readCells]
    cases keys[i]? with
    | none => simp
    | some key =>
      simp only
      cases hs : stod cell with
      | ok v => split <;> exact ih _ _ _
      | throws e => split <;> simp [Res.bind]
      | ub => exact absurd hs (hstod cell)

/-- Everything else is rejected with an exception. -/
theorem C56_rejected (stod : List Char → Res ℝ) (hstod : ∀ c, stod c ≠ .ub) (emin : ℝ) (file : Option (List Char)) : load stod emin file ≠ .ub := by
  have hrows : ∀ keys lines data, readRows stod emin keys lines data ≠ .ub := by
    intro keys lines
    induction lines with
    | nil => intro data; rw [readRows]; simp
    | cons line lines ih =>
      intro data
      rw [readRows]
      simp only
      split
      · exact ih _
      · cases hc : readCells stod emin keys (getlines ',' line) 0 true [] with
        | ok r =>
          change (if _ then _ else _ : Res _) ≠ _
          split
          · simp
          · exact ih _
        | throws e => simp [Res.bind]
        | ub => exact absurd hc (readCells_defined stod hstod _ _ _ _ _ _)
  cases file with
  | none => rw [load]; simp
  | some text =>
    rw [load]
    split
    · simp
    · split
      · simp
      · split
        · simp
        · cases hr : readRows stod emin ((getlines ',' ((getlines '\n' text).headD [])).map trim) (getlines '\n' text).tail [] with
          | ok data =>
            change (if data = [] then _ else _ : Res _) ≠ _
            split <;> simp
          | throws e => simp [Res.bind]
          | ub => exact absurd hr (hrows _ _ _)

/-- A file that cannot be opened is rejected. -/
theorem C56_no_file (stod : List Char → Res ℝ) (emin : ℝ) : load stod emin none = .throws .runtimeError := rfl

/-! ## Sampling -/

/-- A quantity that is replaced if there is a value for it. -/
def orKeep {A : Type} (o : Option A) (old : Slot A) : Slot A := match o with | some a => .given a | none => old

/-- The vector of three columns, if they are there. -/
def vec (keys : List (List Char)) (row : List ℝ) (a b c : String) : Option (Vec3 ℝ) :=
  match column keys row a.toList, column keys row b.toList, column keys row c.toList with
  | some x, some y, some z => some ⟨x, y, z⟩
  | _, _, _ => none

open Classical in
/-- The record filled from a row: energy, mass, time, momentum and vertex from their columns, the initial position from its columns or else the
vertex, all other columns as interaction parameters; the rest is kept. -/
noncomputable def filledFrom (keys : List (List Char)) (row : List ℝ) (r : Filled) : Filled :=
  ⟨{ r.record with
      initialTime := (column keys row "t0".toList).getD r.record.initialTime
      energy := orKeep (column keys row "E".toList) r.record.energy
      mass := orKeep (column keys row "m".toList) r.record.mass
      momentum := orKeep (vec keys row "px" "py" "pz") r.record.momentum
      vertex := orKeep (vec keys row "x" "y" "z") r.record.vertex
      initial := orKeep (vec keys row "x0" "y0" "z0" <|> vec keys row "x" "y" "z") r.record.initial },
    fun key => if key ∈ reserved then r.parameter key else column keys row key <|> r.parameter key⟩

/-- The loop over the keys as a fold. -/
theorem fillKeys_eq (row : List ℝ) (keys : List (List Char)) (i : Nat) (s : Filling) (h : keys.length + i ≤ row.length) :
    fillKeys row keys i s = .ok ((keys.zip (row.drop i)).foldl (fun s p => fillKey s p.1 p.2) s) := by
  induction keys generalizing i s with
  | nil => rfl
  | cons key keys ih =>
    rw [List.length_cons] at h
    have hi : i < row.length := by omega
    rw [fillKeys, List.getElem?_eq_getElem hi]
    simp only
    rw [ih _ _ (by omega), List.drop_eq_getElem_cons hi, List.zip_cons_cons, List.foldl_cons]

theorem fold_proj {A : Type} (π : Filling → A) (key : List Char) (g : ℝ → A) (h : ∀ s k v, π (fillKey s k v) = if k = key then g v else π s)
    (pairs : List (List Char × ℝ)) (s : Filling) : π (pairs.foldl (fun s p => fillKey s p.1 p.2) s) =
      match ((pairs.filter fun p => p.1 = key).getLast?).map Prod.snd with | some v => g v | none => π s := by
  induction pairs using List.reverseRecOn with
  | nil => simp
  | append_singleton pairs p ih =>
    rw [List.foldl_append, List.foldl_cons, List.foldl_nil, h]
    by_cases hk : p.1 = key
    · rw [if_pos hk, List.filter_append]
      simp [hk]
    · rw [if_neg hk, ih, List.filter_append]
      simp [hk]

theorem fold_keep {A : Type} (π : Filling → A) (h : ∀ s k v, π (fillKey s k v) = π s)
    (pairs : List (List Char × ℝ)) (s : Filling) : π (pairs.foldl (fun s p => fillKey s p.1 p.2) s) = π s := by
  induction pairs generalizing s with
  | nil => rfl
  | cons p pairs ih => rw [List.foldl_cons, ih, h]

theorem fill_x0 (s : Filling) (v : ℝ) : fillKey s "x0".toList v = { s with initial := { s.initial with x := some v } } := by
  rw [fillKey]; simp

theorem fill_y0 (s : Filling) (v : ℝ) : fillKey s "y0".toList v = { s with initial := { s.initial with y := some v } } := by
  rw [fillKey]; simp

theorem fill_z0 (s : Filling) (v : ℝ) : fillKey s "z0".toList v = { s with initial := { s.initial with z := some v } } := by
  rw [fillKey]; simp

theorem fill_x (s : Filling) (v : ℝ) : fillKey s "x".toList v = { s with vertex := { s.vertex with x := some v } } := by
  rw [fillKey]; simp

theorem fill_y (s : Filling) (v : ℝ) : fillKey s "y".toList v = { s with vertex := { s.vertex with y := some v } } := by
  rw [fillKey]; simp

theorem fill_z (s : Filling) (v : ℝ) : fillKey s "z".toList v = { s with vertex := { s.vertex with z := some v } } := by
  rw [fillKey]; simp

theorem fill_px (s : Filling) (v : ℝ) : fillKey s "px".toList v = { s with momentum := { s.momentum with x := some v } } := by
  rw [fillKey]; simp

theorem fill_py (s : Filling) (v : ℝ) : fillKey s "py".toList v = { s with momentum := { s.momentum with y := some v } } := by
  rw [fillKey]; simp

theorem fill_pz (s : Filling) (v : ℝ) : fillKey s "pz".toList v = { s with momentum := { s.momentum with z := some v } } := by
  rw [fillKey]; simp

theorem fill_t0 (s : Filling) (v : ℝ) : fillKey s "t0".toList v =
    { s with out := { s.out with record := { s.out.record with initialTime := v } } } := by
  rw [fillKey]; simp

theorem fill_E (s : Filling) (v : ℝ) : fillKey s "E".toList v =
    { s with out := { s.out with record := { s.out.record with energy := .given v } } } := by
  rw [fillKey]; simp

theorem fill_m (s : Filling) (v : ℝ) : fillKey s "m".toList v =
    { s with out := { s.out with record := { s.out.record with mass := .given v } } } := by
  rw [fillKey]; simp

theorem fill_other (s : Filling) (k : List Char) (v : ℝ) (h : k ∉ reserved) :
    fillKey s k v = { s with out := { s.out with parameter := fun q => if q = k then some v else s.out.parameter q } } := by
  have hne : ∀ n : List Char, n ∈ reserved → k ≠ n := fun n hn e => h (e ▸ hn)
  rw [fillKey]
  rw [if_neg (hne "x0".toList (by decide))]
  rw [if_neg (hne "y0".toList (by decide))]
  rw [if_neg (hne "z0".toList (by decide))]
  rw [if_neg (hne "x".toList (by decide))]
  rw [if_neg (hne "y".toList (by decide))]
  rw [if_neg (hne "z".toList (by decide))]
  rw [if_neg (hne "px".toList (by decide))]
  rw [if_neg (hne "py".toList (by decide))]
  rw [if_neg (hne "pz".toList (by decide))]
  rw [if_neg (hne "t0".toList (by decide))]
  rw [if_neg (hne "E".toList (by decide))]
  rw [if_neg (hne "m".toList (by decide))]

theorem key_cases (k : List Char) : k ∉ reserved ∨ k = "x0".toList ∨ k = "y0".toList ∨ k = "z0".toList ∨ k = "x".toList ∨ k = "y".toList ∨ k = "z".toList ∨ k = "px".toList ∨ k = "py".toList ∨ k = "pz".toList ∨ k = "t0".toList ∨ k = "E".toList ∨ k = "m".toList := by
  by_cases h : k ∈ reserved
  · right
    simp only [reserved, List.map_cons, List.map_nil, List.mem_cons, List.not_mem_nil, or_false] at h
    exact h
  · exact Or.inl h

theorem ne_reserved (k n : List Char) (h : k ∉ reserved) (hn : n ∈ reserved) : k ≠ n := fun e => h (e ▸ hn)

theorem proj_x0 (s : Filling) (k : List Char) (v : ℝ) : (fillKey s k v).initial.x = if k = "x0".toList then some v else s.initial.x := by
  rcases key_cases k with h | rfl | rfl | rfl | rfl | rfl | rfl | rfl | rfl | rfl | rfl | rfl | rfl
  · rw [fill_other s k v h, if_neg (ne_reserved k _ h (by decide))]
  all_goals simp only [fill_x0, fill_y0, fill_z0, fill_x, fill_y, fill_z, fill_px, fill_py, fill_pz, fill_t0, fill_E, fill_m]
  all_goals first | rw [if_pos trivial] | rw [if_neg (by decide)]

theorem proj_y0 (s : Filling) (k : List Char) (v : ℝ) : (fillKey s k v).initial.y = if k = "y0".toList then some v else s.initial.y := by
  rcases key_cases k with h | rfl | rfl | rfl | rfl | rfl | rfl | rfl | rfl | rfl | rfl | rfl | rfl
  · rw [fill_other s k v h, if_neg (ne_reserved k _ h (by decide))]
  all_goals simp only [fill_x0, fill_y0, fill_z0, fill_x, fill_y, fill_z, fill_px, fill_py, fill_pz, fill_t0, fill_E, fill_m]
  all_goals first | rw [if_pos trivial] | rw [if_neg (by decide)]

theorem proj_z0 (s : Filling) (k : List Char) (v : ℝ) : (fillKey s k v).initial.z = if k = "z0".toList then some v else s.initial.z := by
  rcases key_cases k with h | rfl | rfl | rfl | rfl | rfl | rfl | rfl | rfl | rfl | rfl | rfl | rfl
  · rw [fill_other s k v h, if_neg (ne_reserved k _ h (by decide))]
  all_goals simp only [fill_x0, fill_y0, fill_z0, fill_x, fill_y, fill_z, fill_px, fill_py, fill_pz, fill_t0, fill_E, fill_m]
  all_goals first | rw [if_pos trivial] | rw [if_neg (by decide)]

theorem proj_x (s : Filling) (k : List Char) (v : ℝ) : (fillKey s k v).vertex.x = if k = "x".toList then some v else s.vertex.x := by
  rcases key_cases k with h | rfl | rfl | rfl | rfl | rfl | rfl | rfl | rfl | rfl | rfl | rfl | rfl
  · rw [fill_other s k v h, if_neg (ne_reserved k _ h (by decide))]
  all_goals simp only [fill_x0, fill_y0, fill_z0, fill_x, fill_y, fill_z, fill_px, fill_py, fill_pz, fill_t0, fill_E, fill_m]
  all_goals first | rw [if_pos trivial] | rw [if_neg (by decide)]

theorem proj_y (s : Filling) (k : List Char) (v : ℝ) : (fillKey s k v).vertex.y = if k = "y".toList then some v else s.vertex.y := by
  rcases key_cases k with h | rfl | rfl | rfl | rfl | rfl | rfl | rfl | rfl | rfl | rfl | rfl | rfl
  · rw [fill_other s k v h, if_neg (ne_reserved k _ h (by decide))]
  all_goals simp only [fill_x0, fill_y0, fill_z0, fill_x, fill_y, fill_z, fill_px, fill_py, fill_pz, fill_t0, fill_E, fill_m]
  all_goals first | rw [if_pos trivial] | rw [if_neg (by decide)]

theorem proj_z (s : Filling) (k : List Char) (v : ℝ) : (fillKey s k v).vertex.z = if k = "z".toList then some v else s.vertex.z := by
  rcases key_cases k with h | rfl | rfl | rfl | rfl | rfl | rfl | rfl | rfl | rfl | rfl | rfl | rfl
  · rw [fill_other s k v h, if_neg (ne_reserved k _ h (by decide))]
  all_goals simp only [fill_x0, fill_y0, fill_z0, fill_x, fill_y, fill_z, fill_px, fill_py, fill_pz, fill_t0, fill_E, fill_m]
  all_goals first | rw [if_pos trivial] | rw [if_neg (by decide)]

theorem proj_px (s : Filling) (k : List Char) (v : ℝ) : (fillKey s k v).momentum.x = if k = "px".toList then some v else s.momentum.x := by
  rcases key_cases k with h | rfl | rfl | rfl | rfl | rfl | rfl | rfl | rfl | rfl | rfl | rfl | rfl
  · rw [fill_other s k v h, if_neg (ne_reserved k _ h (by decide))]
  all_goals simp only [fill_x0, fill_y0, fill_z0, fill_x, fill_y, fill_z, fill_px, fill_py, fill_pz, fill_t0, fill_E, fill_m]
  all_goals first | rw [if_pos trivial] | rw [if_neg (by decide)]

theorem proj_py (s : Filling) (k : List Char) (v : ℝ) : (fillKey s k v).momentum.y = if k = "py".toList then some v else s.momentum.y := by
  rcases key_cases k with h | rfl | rfl | rfl | rfl | rfl | rfl | rfl | rfl | rfl | rfl | rfl | rfl
  · rw [fill_other s k v h, if_neg (ne_reserved k _ h (by decide))]
  all_goals simp only [fill_x0, fill_y0, fill_z0, fill_x, fill_y, fill_z, fill_px, fill_py, fill_pz, fill_t0, fill_E, fill_m]
  all_goals first | rw [if_pos trivial] | rw [if_neg (by decide)]

theorem proj_pz (s : Filling) (k : List Char) (v : ℝ) : (fillKey s k v).momentum.z = if k = "pz".toList then some v else s.momentum.z := by
  rcases key_cases k with h | rfl | rfl | rfl | rfl | rfl | rfl | rfl | rfl | rfl | rfl | rfl | rfl
  · rw [fill_other s k v h, if_neg (ne_reserved k _ h (by decide))]
  all_goals simp only [fill_x0, fill_y0, fill_z0, fill_x, fill_y, fill_z, fill_px, fill_py, fill_pz, fill_t0, fill_E, fill_m]
  all_goals first | rw [if_pos trivial] | rw [if_neg (by decide)]

theorem proj_t0 (s : Filling) (k : List Char) (v : ℝ) : (fillKey s k v).out.record.initialTime = if k = "t0".toList then v else s.out.record.initialTime := by
  rcases key_cases k with h | rfl | rfl | rfl | rfl | rfl | rfl | rfl | rfl | rfl | rfl | rfl | rfl
  · rw [fill_other s k v h, if_neg (ne_reserved k _ h (by decide))]
  all_goals simp only [fill_x0, fill_y0, fill_z0, fill_x, fill_y, fill_z, fill_px, fill_py, fill_pz, fill_t0, fill_E, fill_m]
  all_goals first | rw [if_pos trivial] | rw [if_neg (by decide)]

theorem proj_E (s : Filling) (k : List Char) (v : ℝ) : (fillKey s k v).out.record.energy = if k = "E".toList then .given v else s.out.record.energy := by
  rcases key_cases k with h | rfl | rfl | rfl | rfl | rfl | rfl | rfl | rfl | rfl | rfl | rfl | rfl
  · rw [fill_other s k v h, if_neg (ne_reserved k _ h (by decide))]
  all_goals simp only [fill_x0, fill_y0, fill_z0, fill_x, fill_y, fill_z, fill_px, fill_py, fill_pz, fill_t0, fill_E, fill_m]
  all_goals first | rw [if_pos trivial] | rw [if_neg (by decide)]

theorem proj_m (s : Filling) (k : List Char) (v : ℝ) : (fillKey s k v).out.record.mass = if k = "m".toList then .given v else s.out.record.mass := by
  rcases key_cases k with h | rfl | rfl | rfl | rfl | rfl | rfl | rfl | rfl | rfl | rfl | rfl | rfl
  · rw [fill_other s k v h, if_neg (ne_reserved k _ h (by decide))]
  all_goals simp only [fill_x0, fill_y0, fill_z0, fill_x, fill_y, fill_z, fill_px, fill_py, fill_pz, fill_t0, fill_E, fill_m]
  all_goals first | rw [if_pos trivial] | rw [if_neg (by decide)]

theorem proj_rest (s : Filling) (k : List Char) (v : ℝ) :
    ({ (fillKey s k v).out.record with initialTime := 0, energy := .unset .uninit, mass := .unset .uninit } : Prim) =
      { s.out.record with initialTime := 0, energy := .unset .uninit, mass := .unset .uninit } := by
  rcases key_cases k with h | rfl | rfl | rfl | rfl | rfl | rfl | rfl | rfl | rfl | rfl | rfl | rfl
  · rw [fill_other s k v h]
  all_goals simp only [fill_x0, fill_y0, fill_z0, fill_x, fill_y, fill_z, fill_px, fill_py, fill_pz, fill_t0, fill_E, fill_m]

theorem proj_parameter (q : List Char) (hq : q ∉ reserved) (s : Filling) (k : List Char) (v : ℝ) :
    (fillKey s k v).out.parameter q = if k = q then some v else s.out.parameter q := by
  rcases key_cases k with h | rfl | rfl | rfl | rfl | rfl | rfl | rfl | rfl | rfl | rfl | rfl | rfl
  · rw [fill_other s k v h]
    simp only [eq_comm]
  all_goals simp only [fill_x0, fill_y0, fill_z0, fill_x, fill_y, fill_z, fill_px, fill_py, fill_pz, fill_t0, fill_E, fill_m]
  all_goals rw [if_neg (Ne.symm (ne_reserved q _ hq (by decide)))]

theorem proj_parameter_reserved (q : List Char) (hq : q ∈ reserved) (s : Filling) (k : List Char) (v : ℝ) :
    (fillKey s k v).out.parameter q = s.out.parameter q := by
  rcases key_cases k with h | rfl | rfl | rfl | rfl | rfl | rfl | rfl | rfl | rfl | rfl | rfl | rfl
  · rw [fill_other s k v h]
    simp only
    rw [if_neg (Ne.symm (ne_reserved k q h hq))]
  all_goals simp only [fill_x0, fill_y0, fill_z0, fill_x, fill_y, fill_z, fill_px, fill_py, fill_pz, fill_t0, fill_E, fill_m]

theorem column_some (keys : List (List Char)) (row : List ℝ) (key : List Char) (hlen : row.length = keys.length) (h : key ∈ keys) :
    ∃ v, column keys row key = some v := by
  obtain ⟨i, hi, rfl⟩ := List.mem_iff_getElem.mp h
  have hm : (keys[i], row[i]'(by omega)) ∈ (keys.zip row).filter fun p => p.1 = keys[i] := by
    rw [List.mem_filter]
    refine ⟨?_, by simp⟩
    rw [List.mem_iff_getElem]
    exact ⟨i, by rw [List.length_zip]; omega, by rw [List.getElem_zip]⟩
  rw [column]
  cases hl : ((keys.zip row).filter fun p => p.1 = keys[i]).getLast? with
  | none => rw [List.getLast?_eq_none_iff] at hl; rw [hl] at hm; cases hm
  | some p => exact ⟨p.2, rfl⟩

theorem column_none (keys : List (List Char)) (row : List ℝ) (key : List Char) (h : key ∉ keys) : column keys row key = none := by
  rw [column, Option.map_eq_none_iff, List.getLast?_eq_none_iff, List.filter_eq_nil_iff]
  intro p hp hk
  have hk' : p.1 = key := by simpa using hk
  exact h (hk' ▸ (List.of_mem_zip hp).1)

theorem vec_some (keys : List (List Char)) (row : List ℝ) (a b c : String) (hlen : row.length = keys.length) (h : Complete keys a b c)
    (ha : a.toList ∈ keys) : ∃ x y z, column keys row a.toList = some x ∧ column keys row b.toList = some y ∧ column keys row c.toList = some z ∧
      vec keys row a b c = some ⟨x, y, z⟩ := by
  obtain ⟨-, hb, hc⟩ := h (Or.inl ha)
  obtain ⟨x, hx⟩ := column_some keys row _ hlen ha
  obtain ⟨y, hy⟩ := column_some keys row _ hlen hb
  obtain ⟨z, hz⟩ := column_some keys row _ hlen hc
  exact ⟨x, y, z, hx, hy, hz, by simp only [vec, hx, hy, hz]⟩

theorem vec_none (keys : List (List Char)) (row : List ℝ) (a b c : String) (ha : a.toList ∉ keys) : vec keys row a b c = none := by
  simp only [vec, column_none keys row _ ha]

theorem filling_eq (keys : List (List Char)) (row : List ℝ) (r : Filled) (f : Filling)
    (hf : f = (keys.zip row).foldl (fun s p => fillKey s p.1 p.2) ⟨r, ⟨none, none, none⟩, ⟨none, none, none⟩, ⟨none, none, none⟩⟩) :
    f.initial = ⟨column keys row "x0".toList, column keys row "y0".toList, column keys row "z0".toList⟩ ∧
    f.vertex = ⟨column keys row "x".toList, column keys row "y".toList, column keys row "z".toList⟩ ∧
    f.momentum = ⟨column keys row "px".toList, column keys row "py".toList, column keys row "pz".toList⟩ ∧
    f.out.record = { r.record with
      initialTime := (column keys row "t0".toList).getD r.record.initialTime
      energy := orKeep (column keys row "E".toList) r.record.energy
      mass := orKeep (column keys row "m".toList) r.record.mass } ∧
    f.out.parameter = (filledFrom keys row r).parameter := by
  have hopt : ∀ o : Option ℝ, (match o with | some v => some v | none => none) = o := by intro o; cases o <;> rfl
  have hx0 := fold_proj (fun s => s.initial.x) _ _ proj_x0 (keys.zip row) ⟨r, ⟨none, none, none⟩, ⟨none, none, none⟩, ⟨none, none, none⟩⟩
  have hy0 := fold_proj (fun s => s.initial.y) _ _ proj_y0 (keys.zip row) ⟨r, ⟨none, none, none⟩, ⟨none, none, none⟩, ⟨none, none, none⟩⟩
  have hz0 := fold_proj (fun s => s.initial.z) _ _ proj_z0 (keys.zip row) ⟨r, ⟨none, none, none⟩, ⟨none, none, none⟩, ⟨none, none, none⟩⟩
  have hx := fold_proj (fun s => s.vertex.x) _ _ proj_x (keys.zip row) ⟨r, ⟨none, none, none⟩, ⟨none, none, none⟩, ⟨none, none, none⟩⟩
  have hy := fold_proj (fun s => s.vertex.y) _ _ proj_y (keys.zip row) ⟨r, ⟨none, none, none⟩, ⟨none, none, none⟩, ⟨none, none, none⟩⟩
  have hz := fold_proj (fun s => s.vertex.z) _ _ proj_z (keys.zip row) ⟨r, ⟨none, none, none⟩, ⟨none, none, none⟩, ⟨none, none, none⟩⟩
  have hpx := fold_proj (fun s => s.momentum.x) _ _ proj_px (keys.zip row) ⟨r, ⟨none, none, none⟩, ⟨none, none, none⟩, ⟨none, none, none⟩⟩
  have hpy := fold_proj (fun s => s.momentum.y) _ _ proj_py (keys.zip row) ⟨r, ⟨none, none, none⟩, ⟨none, none, none⟩, ⟨none, none, none⟩⟩
  have hpz := fold_proj (fun s => s.momentum.z) _ _ proj_pz (keys.zip row) ⟨r, ⟨none, none, none⟩, ⟨none, none, none⟩, ⟨none, none, none⟩⟩
  have ht := fold_proj (fun s => s.out.record.initialTime) _ _ proj_t0 (keys.zip row) ⟨r, ⟨none, none, none⟩, ⟨none, none, none⟩, ⟨none, none, none⟩⟩
  have hE := fold_proj (fun s => s.out.record.energy) _ _ proj_E (keys.zip row) ⟨r, ⟨none, none, none⟩, ⟨none, none, none⟩, ⟨none, none, none⟩⟩
  have hm := fold_proj (fun s => s.out.record.mass) _ _ proj_m (keys.zip row) ⟨r, ⟨none, none, none⟩, ⟨none, none, none⟩, ⟨none, none, none⟩⟩
  have hrest := fold_keep (fun s => ({ s.out.record with initialTime := 0, energy := .unset .uninit, mass := .unset .uninit } : Prim)) proj_rest (keys.zip row) ⟨r, ⟨none, none, none⟩, ⟨none, none, none⟩, ⟨none, none, none⟩⟩
  have hpar : ∀ q, f.out.parameter q = (filledFrom keys row r).parameter q := by
    intro q
    simp only [filledFrom]
    by_cases hq : q ∈ reserved
    · rw [if_pos hq, hf, fold_keep (fun s => s.out.parameter q) (proj_parameter_reserved q hq)]
    · rw [if_neg hq, hf, fold_proj (fun s => s.out.parameter q) q some (proj_parameter q hq)]
      change (match column keys row q with | some v => some v | none => r.parameter q) = _
      cases column keys row q <;> rfl
  rw [← hf] at hx0 hy0 hz0 hx hy hz hpx hpy hpz ht hE hm hrest
  refine ⟨?_, ?_, ?_, ?_, funext hpar⟩
  · obtain ⟨_, ⟨_, _, _⟩, _, _⟩ := f
    simp only at hx0 hy0 hz0
    rw [hx0, hy0, hz0, hopt, hopt, hopt]; rfl
  · obtain ⟨_, _, ⟨_, _, _⟩, _⟩ := f
    simp only at hx hy hz
    rw [hx, hy, hz, hopt, hopt, hopt]; rfl
  · obtain ⟨_, _, _, ⟨_, _, _⟩⟩ := f
    simp only at hpx hpy hpz
    rw [hpx, hpy, hpz, hopt, hopt, hopt]; rfl
  · obtain ⟨⟨rec, _⟩, _, _, _⟩ := f
    obtain ⟨rr, rp⟩ := r
    simp only at ht hE hm hrest ⊢
    cases rec
    simp only [Prim.mk.injEq] at ht hE hm hrest ⊢
    simp only [hrest, and_true, true_and]
    refine ⟨?_, ?_, ?_⟩
    · rw [hm, orKeep.eq_def, column]
      cases Option.map Prod.snd (List.filter (fun p => decide (p.1 = "m".toList)) (keys.zip row)).getLast? <;> rfl
    · rw [hE, orKeep.eq_def, column]
      cases Option.map Prod.snd (List.filter (fun p => decide (p.1 = "E".toList)) (keys.zip row)).getLast? <;> rfl
    · rw [ht]
      change (match column keys row "t0".toList with | some v => v | none => rr.initialTime) = _
      cases column keys row "t0".toList <;> rfl

/-- Sampling picks a loaded row, the one with the number given by the generator, and fills the record from it. -/
theorem C56_sample (stod : List Char → Res ℝ) (emin : ℝ) (file : Option (List Char)) (s : External) (hs : load stod emin file = .ok s)
    (g : ℝ) (h0 : 0 ≤ g) (h1 : g < 1) (r : Filled) :
    ∃ row, s.data[⌊g * s.data.length⌋₊]? = some row ∧ s.sample g r = .ok (filledFrom s.keys row r) := by
  obtain ⟨text, rfl⟩ : ∃ text, file = some text := by
    cases file with
    | none => cases hs
    | some t => exact ⟨t, rfl⟩
  have hl := (C56_load stod emin text s).mp hs
  have hpos : 0 < s.data.length := List.length_pos_iff.mpr hl.notEmpty
  have hlt : ⌊g * s.data.length⌋₊ < s.data.length := by
    rw [Nat.floor_lt (by positivity)]
    have : (0 : ℝ) < s.data.length := by exact_mod_cast hpos
    nlinarith
  have hrn : rowNumber s.data.length g = ⌊g * s.data.length⌋₊ := by
    rw [rowNumber, uniform_eq]
    norm_num
    omega
  refine ⟨s.data[⌊g * s.data.length⌋₊], List.getElem?_eq_getElem hlt, ?_⟩
  have hmem := List.getElem_mem hlt
  have hget : s.data[rowNumber s.data.length g]? = some (s.data[⌊g * s.data.length⌋₊]'hlt) := by rw [hrn, List.getElem?_eq_getElem hlt]
  rw [External.sample, hget]
  generalize s.data[⌊g * s.data.length⌋₊]'hlt = row at hmem ⊢
  have hlen : row.length = s.keys.length := by
    obtain ⟨table, -, t2, t3⟩ := hl.rows
    rw [t3] at hmem
    exact t2 row (List.mem_of_mem_filter hmem)
  simp only
  rw [fillKeys_eq row s.keys 0 _ (by omega), List.drop_zero]
  generalize hf : (s.keys.zip row).foldl (fun s p => fillKey s p.1 p.2) ⟨r, ⟨none, none, none⟩, ⟨none, none, none⟩, ⟨none, none, none⟩⟩ = f
  obtain ⟨e1, e2, e3, e4, e5⟩ := filling_eq s.keys row r f hf.symm
  obtain ⟨⟨frec, fpar⟩, fi, fv, fm⟩ := f
  simp only at e1 e2 e3 e4 e5
  subst e1 e2 e3 e4 e5
  have hm : s.momSet = true ∨ s.momSet = false ∧ "px".toList ∉ s.keys := by
    by_cases h : s.momSet = true
    · exact Or.inl h
    · exact Or.inr ⟨by simpa using h, fun h' => h (hl.momSet.mpr h')⟩
  have hv : s.vertexSet = true ∨ s.vertexSet = false ∧ "x".toList ∉ s.keys := by
    by_cases h : s.vertexSet = true
    · exact Or.inl h
    · exact Or.inr ⟨by simpa using h, fun h' => h (hl.vertexSet.mpr h')⟩
  have hi : s.initPosSet = true ∨ s.initPosSet = false ∧ "x0".toList ∉ s.keys := by
    by_cases h : s.initPosSet = true
    · exact Or.inl h
    · exact Or.inr ⟨by simpa using h, fun h' => h (hl.initPosSet.mpr h')⟩
  change Res.bind _ _ = _
  have hmv : ∀ (a b c : String) (flag : Bool), Complete s.keys a b c → (flag = true ↔ a.toList ∈ s.keys) →
      (flag = true ∧ ∃ p, (Triple.mk (column s.keys row a.toList) (column s.keys row b.toList) (column s.keys row c.toList)).read = .ok p ∧
        vec s.keys row a b c = some p) ∨ (flag = false ∧ vec s.keys row a b c = none) := by
    intro a b c flag hc hfl
    by_cases h : flag = true
    · obtain ⟨x, y, z, h1, h2, h3, h4⟩ := vec_some s.keys row a b c hlen hc (hfl.mp h)
      exact Or.inl ⟨h, ⟨x, y, z⟩, by rw [h1, h2, h3]; rfl, h4⟩
    · exact Or.inr ⟨by simpa using h, vec_none _ _ _ _ _ fun h' => h (hfl.mpr h')⟩
  rcases hmv "px" "py" "pz" s.momSet hl.momentum hl.momSet with ⟨m1, p, m2, m3⟩ | ⟨m1, m3⟩ <;>
  rcases hmv "x0" "y0" "z0" s.initPosSet hl.initial hl.initPosSet with ⟨i1, q, i2, i3⟩ | ⟨i1, i3⟩ <;>
  rcases hmv "x" "y" "z" s.vertexSet hl.vertex hl.vertexSet with ⟨v1, w, v2, v3⟩ | ⟨v1, v3⟩ <;>
  simp only [m1, m3, i1, i3, v1, v3, filledFrom, orKeep, Res.bind, if_true, Bool.false_eq_true, if_false, Bool.not_true, Bool.not_false] <;>
  (try rw [m2]) <;> (try rw [i2]) <;> (try rw [v2]) <;> rfl

/-- The generator picks each row for an equal share of its outputs. -/
theorem C56_uniform (n i : Nat) (g : ℝ) (hi : i < n) (h0 : 0 ≤ g) (h1 : g < 1) :
    rowNumber n g = i ↔ (i : ℝ) / n ≤ g ∧ g < ((i : ℝ) + 1) / n := by
  have hn : (0 : ℝ) < n := by exact_mod_cast (by omega : 0 < n)
  have hlt : ⌊g * n⌋₊ < n := by rw [Nat.floor_lt (by positivity)]; nlinarith
  have : rowNumber n g = ⌊g * n⌋₊ := by
    rw [rowNumber, uniform_eq]
    norm_num
    omega
  rw [this, Nat.floor_eq_iff (by positivity), div_le_iff₀ hn, lt_div_iff₀ hn]

/-- An event that can be sampled has generation probability one. -/
theorem C56_probability (stod : List Char → Res ℝ) (emin : ℝ) (text : List Char) (s : External) (hs : load stod emin (some text) = .ok s)
    (row : List ℝ) (hrow : row ∈ s.data) (e : ℝ) (he : column s.keys row "E".toList = some e) : External.generationProbability emin e = 1 := by
  obtain ⟨table, -, -, t3⟩ := ((C56_load stod emin text s).mp hs).rows
  rw [t3] at hrow
  have ha : Above emin s.keys row := by simpa using (List.mem_filter.mp hrow).2
  rw [column, Option.map_eq_some_iff] at he
  obtain ⟨p, hp, rfl⟩ := he
  have hm := List.mem_of_getLast? hp
  have := ha p (List.mem_of_mem_filter hm) (by simpa using (List.mem_filter.mp hm).2)
  rw [External.generationProbability, if_pos (not_lt.mp this)]

/-! ## The hypotheses are met -/

/-- A reader of single digits. -/
def digit : List Char → Res ℝ
  | ['1'] => .ok 1
  | ['2'] => .ok 2
  | ['3'] => .ok 3
  | _ => .throws .runtimeError

example : load digit 2 (some "E, w\n# comment\n1,3\n\n2,1\n".toList) = .ok ⟨["E".toList, "w".toList], [[2, 1]], false, false, false⟩ := by
  have h : getlines '\n' "E, w\n# comment\n1,3\n\n2,1\n".toList = ["E, w".toList, "# comment".toList, "1,3".toList, [], "2,1".toList] := by decide
  have hk : (getlines ',' "E, w".toList).map trim = ["E".toList, "w".toList] := by decide
  have h1 : getlines ',' "1,3".toList = [['1'], ['3']] := by decide
  have h2 : getlines ',' "2,1".toList = [['2'], ['1']] := by decide
  have t1 : trim "# comment".toList = "# comment".toList := by decide
  have t2 : trim "1,3".toList = "1,3".toList := by decide
  have t3 : trim "2,1".toList = "2,1".toList := by decide
  have t4 : trim [] = [] := by decide
  have a1 : allOf ["E".toList, "w".toList] "x0" "y0" "z0" = false := by decide
  have a2 : allOf ["E".toList, "w".toList] "x" "y" "z" = false := by decide
  have a3 : allOf ["E".toList, "w".toList] "px" "py" "pz" = false := by decide
  have b1 : anyOf ["E".toList, "w".toList] "x0" "y0" "z0" = false := by decide
  have b2 : anyOf ["E".toList, "w".toList] "x" "y" "z" = false := by decide
  have b3 : anyOf ["E".toList, "w".toList] "px" "py" "pz" = false := by decide
  have e1 : "E".toList = ['E'] := by decide
  have e2 : "w".toList = ['w'] := by decide
  have c1 : "# comment".toList.head? = some '#' := by decide
  have c2 : "1,3".toList = ['1', ',', '3'] := by decide
  have c3 : "2,1".toList = ['2', ',', '1'] := by decide
  rw [load]
  simp only [h, List.headD_cons, List.tail_cons, hk, a1, a2, a3, b1, b2, b3]
  simp only [readRows, t1, t2, t3, t4, h1, h2, readCells, digit, Res.bind, c1, e1, e2]
  norm_num [c2, c3, show ¬ ('2' = '#') by decide, show ¬ ('1' = '#') by decide, show ¬ ('w' = 'E') by decide]
  rw [if_neg (by simp)]
  simp

end Siren.Distributions
