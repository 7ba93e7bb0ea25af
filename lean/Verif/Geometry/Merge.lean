import Verif.Geometry.Convex

set_option autoImplicit false

/-!
# Reports made of several intervals that may touch

`ExtrPoly::ComputeIntersections` reports one entry and one exit per section of the solid, sorts them, and removes pairs of an
exit and an entry at the same distance. This file proves that what is left describes the union of the intervals.
-/

namespace Siren.Geometry

/-- The loop that removes pairs of hits at a shared boundary (geometry/private/ExtrPoly.cxx:217-229): two hits next to each
other, one entering and one leaving, closer than the precision. -/
noncomputable def dropPairs : List Isect → List Isect
  | a :: b :: rest =>
    if a.entering ≠ b.entering ∧ |a.distance - b.distance| < precision then dropPairs rest else a :: dropPairs (b :: rest)
  | l => l
termination_by l => l.length

namespace Merge

/-- The entry and exit of every interval, in order. -/
def ends : List (ℝ × ℝ) → List (ℝ × Bool)
  | [] => []
  | i :: r => (i.1, true) :: (i.2, false) :: ends r

/-- Intervals longer than the precision, in order from `x` on, each starting where the one before ends or at least the
precision later. -/
def Chain : ℝ → List (ℝ × ℝ) → Prop
  | _, [] => True
  | x, i :: r => (x = i.1 ∨ x + precision ≤ i.1) ∧ i.1 + precision < i.2 ∧ Chain i.2 r

/-- What is left of the ends, inside an interval that ends at `x`. -/
noncomputable def merged : ℝ → List (ℝ × ℝ) → List (ℝ × Bool)
  | x, [] => [(x, false)]
  | x, i :: r => if x = i.1 then merged i.2 r else (x, false) :: (i.1, true) :: merged i.2 r

theorem chain_le (x : ℝ) (I : List (ℝ × ℝ)) (h : Chain x I) : ∀ c ∈ ends I, x ≤ c.1 := by
  induction I generalizing x with
  | nil => simp [ends]
  | cons i r ih =>
    obtain ⟨h1, h2, h3⟩ := h
    have hp := precision_pos
    have hx : x ≤ i.1 := by rcases h1 with h1 | h1 <;> linarith
    intro c hc
    simp only [ends, List.mem_cons] at hc
    rcases hc with rfl | rfl | hc
    · exact hx
    · show x ≤ i.2; linarith
    · have := ih _ h3 c hc; linarith

theorem chain_lt (x : ℝ) (I : List (ℝ × ℝ)) (h : Chain x I) : ∀ i ∈ I, x ≤ i.1 ∧ i.1 + precision < i.2 := by
  induction I generalizing x with
  | nil => simp
  | cons i r ih =>
    obtain ⟨h1, h2, h3⟩ := h
    have hp := precision_pos
    have hx : x ≤ i.1 := by rcases h1 with h1 | h1 <;> linarith
    intro j hj
    rcases List.mem_cons.1 hj with rfl | hj
    · exact ⟨hx, h2⟩
    · have := ih _ h3 j hj; exact ⟨by linarith [this.1], this.2⟩

variable {f : ℝ × Bool → Isect}

/-- The head of a sorted list is a least element. -/
theorem head_least (hd : ∀ c, (f c).distance = c.1) (c : ℝ × Bool) (cs : List (ℝ × Bool)) (a : Isect) (l : List Isect)
    (hperm : (a :: l).Perm ((c :: cs).map f)) (hs : (a :: l).Pairwise (fun a b => a.distance ≤ b.distance))
    (hlt : ∀ b ∈ cs, c.1 < b.1) : a = f c ∧ l.Perm (cs.map f) := by
  have ha : a ∈ (c :: cs).map f := hperm.subset (by simp)
  have hc : f c ∈ a :: l := hperm.symm.subset (by simp)
  have : a = f c := by
    simp only [List.map_cons, List.mem_cons, List.mem_map] at ha
    rcases ha with ha | ⟨b, hb, rfl⟩
    · exact ha
    · rcases List.mem_cons.1 hc with hc | hc
      · exact hc.symm
      · have h1 := (List.pairwise_cons.1 hs).1 _ hc
        rw [hd, hd] at h1
        exact absurd (hlt b hb) (not_lt.2 h1)
  refine ⟨this, ?_⟩
  subst this
  exact (List.perm_cons _).1 hperm

theorem dropPairs_keep (a b : Isect) (rest : List Isect) (h : ¬ (a.entering ≠ b.entering ∧ |a.distance - b.distance| < precision)) :
    dropPairs (a :: b :: rest) = a :: dropPairs (b :: rest) := by
  rw [dropPairs, if_neg h]

theorem dropPairs_drop (a b : Isect) (rest : List Isect) (h : a.entering ≠ b.entering ∧ |a.distance - b.distance| < precision) :
    dropPairs (a :: b :: rest) = dropPairs rest := by
  rw [dropPairs, if_pos h]

/-- The first of the sorted hits after an entry at `e`: not an exit within the precision. -/
theorem enter_kept (hd : ∀ c, (f c).distance = c.1) (e x : ℝ) (r : List (ℝ × ℝ)) (hx : e + precision < x)
    (hc : Chain x r) (l : List Isect) (hperm : l.Perm (((x, false) :: ends r).map f)) :
    dropPairs (f (e, true) :: l) = f (e, true) :: dropPairs l := by
  rcases l with _ | ⟨b, l⟩
  · simp at hperm
  · apply dropPairs_keep
    rintro ⟨h1, h2⟩
    have hb : b ∈ ((x, false) :: ends r).map f := hperm.subset (by simp)
    obtain ⟨c, hcm, rfl⟩ := List.mem_map.1 hb
    have hge : x ≤ c.1 := by
      rcases List.mem_cons.1 hcm with rfl | h
      · exact le_refl _
      · exact chain_le x r hc c h
    rw [hd, hd, abs_lt] at h2
    simp only at h2
    linarith [h2.1]

theorem dropPairs_sorted (hd : ∀ c, (f c).distance = c.1) (he : ∀ c, (f c).entering = c.2) (I : List (ℝ × ℝ)) (x : ℝ) (hc : Chain x I)
    (l : List Isect) (hperm : l.Perm (((x, false) :: ends I).map f)) (hs : l.Pairwise (fun a b => a.distance ≤ b.distance)) :
    dropPairs l = (merged x I).map f := by
  have hp := precision_pos
  induction I generalizing x l with
  | nil =>
    have : l = [f (x, false)] := by simpa [ends] using hperm
    subst this
    simp [merged, dropPairs]
  | cons i r ih =>
    obtain ⟨h1, h2, h3⟩ := hc
    have hge : ∀ c ∈ ends r, i.2 ≤ c.1 := chain_le _ _ h3
    simp only [ends] at hperm
    by_cases hx : x = i.1
    · -- the exit at `x` and the entry at `x` come first, in some order
      rw [merged, if_pos hx]
      obtain ⟨a, b, l', rfl⟩ : ∃ a b l', l = a :: b :: l' := by
        have := hperm.length_eq
        rcases l with _ | ⟨a, _ | ⟨b, l'⟩⟩
        · simp at this
        · simp at this
        · exact ⟨a, b, l', rfl⟩
      have hlate : ∀ c ∈ ((i.2, false) :: ends r), x < c.1 := by
        intro c hc
        rcases List.mem_cons.1 hc with rfl | hc
        · show x < i.2; linarith
        · have := hge c hc; linarith
      have hcase : (a = f (x, false) ∧ b = f (i.1, true) ∨ a = f (i.1, true) ∧ b = f (x, false)) ∧
          l'.Perm (((i.2, false) :: ends r).map f) := by
        have hs1 := List.pairwise_cons.1 hs
        have hs2 := List.pairwise_cons.1 hs1.2
        have ha : a ∈ (((x, false) :: (i.1, true) :: (i.2, false) :: ends r).map f) := hperm.subset (by simp)
        have hx1 : f (x, false) ∈ a :: b :: l' := hperm.symm.subset (by simp)
        obtain ⟨c, hcm, rfl⟩ := List.mem_map.1 ha
        rcases List.mem_cons.1 hcm with rfl | hcm
        · have hperm2 := (List.perm_cons _).1 hperm
          obtain ⟨hb, hl⟩ := head_least hd (i.1, true) ((i.2, false) :: ends r) b l' hperm2 hs1.2 (by
            intro c hc; have := hlate c hc; simp only; linarith)
          exact ⟨Or.inl ⟨rfl, hb⟩, hl⟩
        · rcases List.mem_cons.1 hcm with rfl | hcm
          · have hperm2 : (b :: l').Perm (((x, false) :: (i.2, false) :: ends r).map f) := by
              have h5 : (f (i.1, true) :: b :: l').Perm (f (i.1, true) :: (((x, false) :: (i.2, false) :: ends r).map f)) :=
                hperm.trans (List.Perm.swap _ _ _)
              exact (List.perm_cons _).1 h5
            obtain ⟨hb, hl⟩ := head_least hd (x, false) ((i.2, false) :: ends r) b l' hperm2 hs1.2 (by
              intro c hc; exact hlate c hc)
            exact ⟨Or.inr ⟨rfl, hb⟩, hl⟩
          · exfalso
            have hlt := hlate c hcm
            rcases List.mem_cons.1 hx1 with hx1 | hx1
            · have := congrArg Isect.distance hx1
              rw [hd, hd] at this
              simp only at this
              linarith
            · have := hs1.1 _ hx1
              rw [hd, hd] at this
              simp only at this
              linarith
      have hdrop : dropPairs (a :: b :: l') = dropPairs l' := by
        apply dropPairs_drop
        rcases hcase.1 with ⟨rfl, rfl⟩ | ⟨rfl, rfl⟩
        · simp only [hd, he, hx, sub_self, abs_zero]
          exact ⟨by simp, hp⟩
        · simp only [hd, he, hx, sub_self, abs_zero]
          exact ⟨by simp, hp⟩
      rw [hdrop]
      exact ih _ h3 l' hcase.2 (List.pairwise_cons.1 (List.pairwise_cons.1 hs).2).2
    · have hgap : x + precision ≤ i.1 := h1.resolve_left hx
      rw [merged, if_neg hx]
      rcases l with _ | ⟨a, l⟩
      · simp at hperm
      obtain ⟨ha, hl⟩ := head_least hd (x, false) ((i.1, true) :: (i.2, false) :: ends r) a l hperm hs (by
        intro c hc
        simp only [List.mem_cons] at hc
        rcases hc with rfl | rfl | hc
        · show x < i.1; linarith
        · show x < i.2; linarith
        · have := hge c hc; show x < c.1; linarith)
      rcases l with _ | ⟨b, l⟩
      · simp at hl
      have hs1 := (List.pairwise_cons.1 hs).2
      obtain ⟨hb, hl2⟩ := head_least hd (i.1, true) ((i.2, false) :: ends r) b l hl hs1 (by
        intro c hc
        simp only [List.mem_cons] at hc
        rcases hc with rfl | hc
        · show i.1 < i.2; linarith
        · have := hge c hc; show i.1 < c.1; linarith)
      subst ha hb
      rw [dropPairs_keep, enter_kept hd i.1 i.2 r h2 h3 l hl2, ih _ h3 l hl2 (List.pairwise_cons.1 hs1).2]
      · simp
      · rintro ⟨_, h5⟩
        rw [hd, hd, abs_lt] at h5
        simp only at h5
        linarith [h5.1]

/-! ### What the merged ends say -/

theorem merged_ge (I : List (ℝ × ℝ)) (x : ℝ) (hc : Chain x I) : ∀ c ∈ merged x I, x ≤ c.1 := by
  have hp := precision_pos
  induction I generalizing x with
  | nil => simp [merged]
  | cons i r ih =>
    obtain ⟨h1, h2, h3⟩ := hc
    intro c hcm
    have hx : x ≤ i.1 := by rcases h1 with h1 | h1 <;> linarith
    rw [merged] at hcm
    split at hcm
    · have := ih _ h3 c hcm; linarith
    · simp only [List.mem_cons] at hcm
      rcases hcm with rfl | rfl | hcm
      · exact le_refl _
      · exact hx
      · have := ih _ h3 c hcm; linarith

theorem merged_strict (I : List (ℝ × ℝ)) (x : ℝ) (hc : Chain x I) : (merged x I).Pairwise (fun a b => a.1 < b.1) := by
  have hp := precision_pos
  induction I generalizing x with
  | nil => simp [merged]
  | cons i r ih =>
    obtain ⟨h1, h2, h3⟩ := hc
    rw [merged]
    split
    · exact ih _ h3
    · rename_i hne
      have hgap := h1.resolve_left hne
      have hg := merged_ge r i.2 h3
      refine List.pairwise_cons.2 ⟨?_, List.pairwise_cons.2 ⟨?_, ih _ h3⟩⟩
      · intro c hcm
        rcases List.mem_cons.1 hcm with rfl | hcm
        · show x < i.1; linarith
        · have := hg c hcm; show x < c.1; linarith
      · intro c hcm
        have := hg c hcm; show i.1 < c.1; linarith

theorem merged_alternates (I : List (ℝ × ℝ)) (x : ℝ) (g : ℝ × Bool → Isect) (hg : ∀ c, (g c).entering = c.2) :
    Alternates true ((merged x I).map g) := by
  induction I generalizing x with
  | nil => simp [merged, Alternates, hg]
  | cons i r ih =>
    rw [merged]
    split
    · exact ih _
    · simp only [List.map_cons, Alternates, hg]
      exact ⟨rfl, rfl, ih _⟩

theorem merged_state (I : List (ℝ × ℝ)) (x : ℝ) (hc : Chain x I) (g : ℝ × Bool → Isect) (hd : ∀ c, (g c).distance = c.1)
    (he : ∀ c, (g c).entering = c.2) (t : ℝ) (ht : ∀ c ∈ merged x I, c.1 ≠ t) :
    stateFrom true ((merged x I).map g) t = true ↔ t < x ∨ ∃ i ∈ I, i.1 ≤ t ∧ t < i.2 := by
  have hp := precision_pos
  induction I generalizing x with
  | nil =>
    simp only [merged, List.map_cons, List.map_nil, List.not_mem_nil, false_and, exists_false, or_false]
    have hne : x ≠ t := ht (x, false) (by simp [merged])
    by_cases h : x < t
    · rw [stateFrom_cons_lt _ _ _ _ (by rw [hd]; exact h)]
      simp [he, h.le]
    · rw [stateFrom_cons_ge _ _ _ _ (by rw [hd]; exact h)]
      simp [lt_of_le_of_ne (not_lt.1 h) (Ne.symm hne)]
  | cons i r ih =>
    obtain ⟨h1, h2, h3⟩ := hc
    have hlow := chain_lt _ _ h3
    rw [merged] at ht ⊢
    split
    · rename_i hx
      rw [if_pos hx] at ht
      refine (ih _ h3 ht).trans ?_
      constructor
      · rintro (h | ⟨j, hj, h⟩)
        · by_cases h6 : t < x
          · exact Or.inl h6
          · exact Or.inr ⟨i, by simp, by linarith [not_lt.1 h6], h⟩
        · exact Or.inr ⟨j, by simp [hj], h⟩
      · rintro (h | ⟨j, hj, h⟩)
        · exact Or.inl (by linarith)
        · rcases List.mem_cons.1 hj with rfl | hj
          · exact Or.inl h.2
          · exact Or.inr ⟨j, hj, h⟩
    · rename_i hx
      rw [if_neg hx] at ht
      have hgap := h1.resolve_left hx
      have n1 : x ≠ t := ht (x, false) (by simp)
      have n2 : i.1 ≠ t := ht (i.1, true) (by simp)
      have ih' := ih _ h3 (fun c hcm => ht c (by simp [hcm]))
      have hg := merged_ge r i.2 h3
      simp only [List.map_cons]
      by_cases hxt : x < t
      · rw [stateFrom_cons_lt _ _ _ _ (by rw [hd]; exact hxt)]
        by_cases hit : i.1 < t
        · rw [stateFrom_cons_lt _ _ _ _ (by rw [hd]; exact hit), he]
          show stateFrom true _ t = true ↔ _
          refine ih'.trans ?_
          constructor
          · rintro (h | ⟨j, hj, h⟩)
            · exact Or.inr ⟨i, by simp, hit.le, h⟩
            · exact Or.inr ⟨j, by simp [hj], h⟩
          · rintro (h | ⟨j, hj, h⟩)
            · exact absurd hxt (not_lt.2 h.le)
            · rcases List.mem_cons.1 hj with rfl | hj
              · exact Or.inl h.2
              · exact Or.inr ⟨j, hj, h⟩
        · have hit' : t < i.1 := lt_of_le_of_ne (not_lt.1 hit) (Ne.symm n2)
          rw [stateFrom_cons_ge _ _ _ _ (by rw [hd]; exact hit), stateFrom_all_ge, he]
          · simp only [Bool.false_eq_true, false_iff, not_or, not_exists, not_and, not_lt]
            refine ⟨hxt.le, fun j hj hjt => ?_⟩
            exfalso
            rcases List.mem_cons.1 hj with rfl | hj
            · linarith
            · have := (hlow j hj).1; linarith
          · intro y hy
            obtain ⟨c, hcm, rfl⟩ := List.mem_map.1 hy
            rw [hd]; have := hg c hcm; linarith
      · have hxt' : t < x := lt_of_le_of_ne (not_lt.1 hxt) (Ne.symm n1)
        rw [stateFrom_cons_ge _ _ _ _ (by rw [hd]; exact hxt), stateFrom_cons_ge _ _ _ _ (by rw [hd]; show ¬ i.1 < t; linarith),
          stateFrom_all_ge]
        · simp [hxt']
        · intro y hy
          obtain ⟨c, hcm, rfl⟩ := List.mem_map.1 hy
          rw [hd]; have := hg c hcm; linarith

/-- An end that is not left is a place where two intervals touch. -/
theorem merged_exit (I : List (ℝ × ℝ)) (x : ℝ) (y : ℝ) (hy : y = x ∨ ∃ i ∈ I, y = i.2) (hno : ∀ c ∈ merged x I, c.1 ≠ y) :
    ∃ j ∈ I, j.1 = y := by
  induction I generalizing x with
  | nil =>
    rcases hy with rfl | ⟨i, hi, _⟩
    · exact absurd rfl (hno (y, false) (by simp [merged]))
    · simp at hi
  | cons i r ih =>
    rw [merged] at hno
    split at hno
    · rename_i hx
      rcases hy with rfl | ⟨j, hj, hy⟩
      · exact ⟨i, by simp, hx.symm⟩
      · have : y = i.2 ∨ ∃ i ∈ r, y = i.2 := by
          rcases List.mem_cons.1 hj with rfl | hj
          · exact Or.inl hy
          · exact Or.inr ⟨j, hj, hy⟩
        obtain ⟨k, hk, h⟩ := ih i.2 this hno
        exact ⟨k, by simp [hk], h⟩
    · rcases hy with rfl | ⟨j, hj, hy⟩
      · exact absurd rfl (hno (y, false) (by simp))
      · have : y = i.2 ∨ ∃ i ∈ r, y = i.2 := by
          rcases List.mem_cons.1 hj with rfl | hj
          · exact Or.inl hy
          · exact Or.inr ⟨j, hj, hy⟩
        obtain ⟨k, hk, h⟩ := ih i.2 this (fun c hcm => hno c (by simp [hcm]))
        exact ⟨k, by simp [hk], h⟩

theorem merged_enter (I : List (ℝ × ℝ)) (x : ℝ) (j : ℝ × ℝ) (hj : j ∈ I) (hno : ∀ c ∈ merged x I, c.1 ≠ j.1) :
    x = j.1 ∨ ∃ i ∈ I, i.2 = j.1 := by
  induction I generalizing x with
  | nil => simp at hj
  | cons i r ih =>
    rw [merged] at hno
    split at hno
    · rename_i hx
      rcases List.mem_cons.1 hj with rfl | hj
      · exact Or.inl hx
      · rcases ih i.2 hj hno with h | ⟨k, hk, h⟩
        · exact Or.inr ⟨i, by simp, h⟩
        · exact Or.inr ⟨k, by simp [hk], h⟩
    · rcases List.mem_cons.1 hj with rfl | hj
      · exact absurd rfl (hno (j.1, true) (by simp))
      · rcases ih i.2 hj (fun c hcm => hno c (by simp [hcm])) with h | ⟨k, hk, h⟩
        · exact Or.inr ⟨i, by simp, h⟩
        · exact Or.inr ⟨k, by simp [hk], h⟩

/-- Intervals in order. -/
def Ordered : List (ℝ × ℝ) → Prop
  | [] => True
  | i :: r => i.1 + precision < i.2 ∧ Chain i.2 r

/-- The sorted ends of the intervals, without the pairs that cancel, describe the union of the intervals. -/
theorem describes (hd : ∀ c, (f c).distance = c.1) (he : ∀ c, (f c).entering = c.2) (I : List (ℝ × ℝ)) (hI : Ordered I)
    (l : List Isect) (hperm : l.Perm ((ends I).map f)) (hs : l.Pairwise (fun a b => a.distance ≤ b.distance)) (S : ℝ → Prop)
    (hin : ∀ i ∈ I, ∀ u, i.1 < u → u < i.2 → S u) (hout : ∀ u, S u → ∃ i ∈ I, i.1 ≤ u ∧ u ≤ i.2)
    (hjoint : ∀ i ∈ I, ∀ j ∈ I, i.2 = j.1 → S i.2) : Describes precision S (dropPairs l) := by
  have hp := precision_pos
  rcases I with _ | ⟨i, r⟩
  · have : l = [] := by simpa [ends] using hperm
    subst this
    rw [dropPairs]
    · exact describes_nil _ _ (fun t ht => by obtain ⟨i, hi, _⟩ := hout t ht; simp at hi)
    · simp
  · obtain ⟨h2, h3⟩ := hI
    have hge : ∀ c ∈ ends r, i.2 ≤ c.1 := chain_le _ _ h3
    rcases l with _ | ⟨a, l⟩
    · simp [ends] at hperm
    obtain ⟨ha, hl⟩ := head_least hd (i.1, true) ((i.2, false) :: ends r) a l hperm hs (by
      intro c hc
      rcases List.mem_cons.1 hc with rfl | hc
      · show i.1 < i.2; linarith
      · have := hge c hc; show i.1 < c.1; linarith)
    subst ha
    rw [enter_kept hd i.1 i.2 r h2 h3 l hl, dropPairs_sorted hd he r i.2 h3 l hl (List.pairwise_cons.1 hs).2]
    have hlow := chain_lt _ _ h3
    have hmg := merged_ge r i.2 h3
    refine ⟨?_, ?_, ?_⟩
    · refine List.pairwise_cons.2 ⟨?_, ?_⟩
      · intro b hb
        obtain ⟨c, hcm, rfl⟩ := List.mem_map.1 hb
        rw [hd, hd]; have := hmg c hcm; show i.1 < c.1; linarith
      · rw [List.pairwise_map]
        exact (merged_strict r i.2 h3).imp (fun {a b} h => by rw [hd, hd]; exact h)
    · simp only [Alternates, he]
      exact ⟨rfl, merged_alternates r i.2 f he⟩
    · intro t ht
      have hne : ∀ c ∈ merged i.2 r, c.1 ≠ t := by
        intro c hcm hct
        have := ht (f c) (List.mem_cons_of_mem _ (List.mem_map_of_mem hcm))
        rw [hd, hct, sub_self, abs_zero] at this
        linarith
      have hne1 : i.1 ≠ t := by
        intro hit
        have := ht (f (i.1, true)) (by simp)
        rw [hd, hit, sub_self, abs_zero] at this
        linarith
      have hstate : stateFrom false (f (i.1, true) :: (merged i.2 r).map f) t = true ↔ ∃ j ∈ i :: r, j.1 ≤ t ∧ t < j.2 := by
        by_cases hit : i.1 < t
        · rw [stateFrom_cons_lt _ _ _ _ (by rw [hd]; exact hit), he]
          show stateFrom true _ t = true ↔ _
          rw [merged_state r i.2 h3 f hd he t hne]
          constructor
          · rintro (h | ⟨j, hj, h⟩)
            · exact ⟨i, by simp, hit.le, h⟩
            · exact ⟨j, by simp [hj], h⟩
          · rintro ⟨j, hj, h⟩
            rcases List.mem_cons.1 hj with rfl | hj
            · exact Or.inl h.2
            · exact Or.inr ⟨j, hj, h⟩
        · have hit' : t < i.1 := lt_of_le_of_ne (not_lt.1 hit) (Ne.symm hne1)
          rw [stateFrom_cons_ge _ _ _ _ (by rw [hd]; exact hit), stateFrom_all_ge]
          · simp only [Bool.false_eq_true, false_iff, not_exists, not_and, not_lt]
            intro j hj hjt
            exfalso
            rcases List.mem_cons.1 hj with rfl | hj
            · linarith
            · have := (hlow j hj).1; linarith
          · intro y hy
            obtain ⟨c, hcm, rfl⟩ := List.mem_map.1 hy
            rw [hd]; have := hmg c hcm; linarith
      rw [hstate]
      constructor
      · intro hS
        obtain ⟨j, hj, h1, h2'⟩ := hout t hS
        rcases h2'.lt_or_eq with h | h
        · exact ⟨j, hj, h1, h⟩
        · have hy : t = i.2 ∨ ∃ i ∈ r, t = i.2 := by
            rcases List.mem_cons.1 hj with rfl | hj
            · exact Or.inl h
            · exact Or.inr ⟨j, hj, h⟩
          obtain ⟨k, hk, h⟩ := merged_exit r i.2 t hy hne
          exact ⟨k, by simp [hk], h.le, by have := (hlow k hk).2; linarith⟩
      · rintro ⟨j, hj, h1, h2'⟩
        rcases h1.lt_or_eq with h | h
        · exact hin j hj t h h2'
        · rcases List.mem_cons.1 hj with rfl | hj
          · exact absurd h hne1
          · rcases merged_enter r i.2 j hj (fun c hcm => by rw [h]; exact hne c hcm) with h5 | ⟨k, hk, h5⟩
            · have := hjoint i (by simp) j (by simp [hj]) h5
              rw [h5, h] at this; exact this
            · have := hjoint k (by simp [hk]) j (by simp [hj]) h5
              rw [h5, h] at this; exact this

end Merge

end Siren.Geometry
