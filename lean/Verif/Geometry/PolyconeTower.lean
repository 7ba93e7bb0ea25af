import Verif.Geometry.Polycone

set_option autoImplicit false

/-!
# The sections of a polycone

The planes of a valid polycone make a tower of sections, each standing on the one before; the groups of planes the code looks at are
the places where one section stands on another.
-/

namespace Siren.Geometry.Polycone

open Siren Siren.Geometry Filter Topology

/-- The sections with a height. -/
noncomputable def secs (l : List Plane) : List (Plane × Plane) := open Classical in (l.zip l.tail).filter fun q => decide (q.1.z < q.2.z)

theorem mem_secs (l : List Plane) (q : Plane × Plane) : q ∈ secs l ↔ q ∈ l.zip l.tail ∧ q.1.z < q.2.z := by
  simp [secs]

theorem secs_cons (x y : Plane) (ys : List Plane) : secs (x :: y :: ys) = if x.z < y.z then (x, y) :: secs (y :: ys) else secs (y :: ys) := by
  unfold secs
  simp only [List.tail_cons, List.zip_cons_cons, List.filter_cons, decide_eq_true_eq]

theorem secs_single (x : Plane) : secs [x] = [] := by simp [secs]

/-- The groups are where the sections meet. -/
theorem groupsFrom_eq (ys : List Plane) (w b c last : Plane) (hc : c.z = b.z) (ho : (c :: ys).Pairwise fun a b => a.z ≤ b.z)
    (hl : ∀ q ∈ c :: ys, q.z < last.z) :
    (((w, b) :: secs (c :: (ys ++ [last]))).zip (secs (c :: (ys ++ [last])))).map (fun q => (q.1.2, q.2.1)) = groupsFrom b c ys := by
  induction ys generalizing w b c with
  | nil =>
    rw [List.nil_append, secs_cons, if_pos (hl c (by simp)), secs_single]; rfl
  | cons y ys ih =>
    rw [List.cons_append, secs_cons]
    obtain ⟨o1, o2⟩ := List.pairwise_cons.1 ho
    have hcy := o1 y (by simp)
    unfold groupsFrom
    by_cases h : y.z = b.z
    · rw [if_pos h, if_neg (by rw [hc, h]; exact lt_irrefl _)]
      exact ih w b y h o2 fun q hq => hl q (List.mem_cons_of_mem _ hq)
    · rw [if_neg h, if_pos (lt_of_le_of_ne hcy fun e => h (by rw [← e, hc]))]
      rw [List.zip_cons_cons, List.map_cons]
      rw [ih c y y rfl o2 fun q hq => hl q (List.mem_cons_of_mem _ hq)]

/-- Each section stands on the one before. -/
def Tower (C : List (Plane × Plane)) : Prop :=
  (∀ s ∈ C, s.1.z < s.2.z) ∧ C.IsChain fun s s' => s.2.z = s'.1.z

theorem secs_tower (l : List Plane) (ho : l.Pairwise fun a b => a.z ≤ b.z) : Tower (secs l) ∧ ∀ x xs, l = x :: xs → ∀ s ∈ (secs l).head?, s.1.z = x.z := by
  induction l with
  | nil => exact ⟨⟨by simp [secs], by simp [secs]⟩, by simp⟩
  | cons x l ih =>
    obtain ⟨o1, o2⟩ := List.pairwise_cons.1 ho
    obtain ⟨⟨i1, i2⟩, i3⟩ := ih o2
    cases l with
    | nil => rw [secs_single]; exact ⟨⟨by simp, by simp⟩, by simp⟩
    | cons y ys =>
      rw [secs_cons]
      have i3 := i3 y ys rfl
      by_cases h : x.z < y.z
      · rw [if_pos h]
        refine ⟨⟨?_, ?_⟩, ?_⟩
        · intro s hs
          rcases List.mem_cons.1 hs with rfl | hs
          · exact h
          · exact i1 s hs
        · rw [List.isChain_cons]
          exact ⟨fun s hs => (i3 s hs).symm, i2⟩
        · rintro a as e s hs
          obtain ⟨rfl, _⟩ := List.cons.inj e
          simp only [List.head?_cons, Option.mem_def, Option.some.injEq] at hs
          rw [← hs]
      · rw [if_neg h]
        refine ⟨⟨i1, i2⟩, ?_⟩
        rintro a as e s hs
        obtain ⟨rfl, _⟩ := List.cons.inj e
        rw [i3 s hs]
        exact le_antisymm (not_lt.1 h) (o1 y (by simp))

theorem Tower.tail {s : Plane × Plane} {C : List (Plane × Plane)} (h : Tower (s :: C)) : Tower C :=
  ⟨fun q hq => h.1 q (List.mem_cons_of_mem _ hq), by have := h.2; rw [List.isChain_cons] at this; exact this.2⟩

theorem Tower.pairwise {C : List (Plane × Plane)} (h : Tower C) : C.Pairwise fun s s' => s.2.z ≤ s'.1.z := by
  induction C with
  | nil => simp
  | cons s C ih =>
    refine List.pairwise_cons.2 ⟨?_, ih h.tail⟩
    have hh := h.2
    rw [List.isChain_cons] at hh
    cases C with
    | nil => simp
    | cons s' C =>
      have e := hh.1 s' (by simp)
      have i := (List.pairwise_cons.1 (ih h.tail)).1
      intro q hq
      rcases List.mem_cons.1 hq with rfl | hq
      · exact e.le
      · have := i q hq
        have := h.1 s' (by simp)
        linarith

/-- A height belongs to one section only. -/
theorem Tower.unique {C : List (Plane × Plane)} (h : Tower C) {s s' : Plane × Plane} (hs : s ∈ C) (hs' : s' ∈ C) {z : ℝ}
    (h1 : s.1.z ≤ z) (h2 : z < s.2.z) (h3 : s'.1.z ≤ z) (h4 : z < s'.2.z) : s = s' := by
  by_contra hne
  have : Std.Symm fun s s' : Plane × Plane => s.2.z ≤ s'.1.z ∨ s'.2.z ≤ s.1.z := ⟨fun a b h => h.symm⟩
  have := (h.pairwise.imp (S := fun s s' => s.2.z ≤ s'.1.z ∨ s'.2.z ≤ s.1.z) fun h => Or.inl h).forall hs hs' hne
  rcases this with h | h <;> linarith

/-- Where a height is in the tower. -/
theorem Tower.locate {C : List (Plane × Plane)} (h : Tower C) (z : ℝ) {s0 sl : Plane × Plane} (h0 : C.head? = some s0) (hl : C.getLast? = some sl) :
    z < s0.1.z ∨ sl.2.z < z ∨ z = s0.1.z ∨ z = sl.2.z ∨ (∃ s ∈ C, s.1.z < z ∧ z < s.2.z) ∨
      ∃ q ∈ C.zip C.tail, q.1.2.z = z ∧ q.2.1.z = z := by
  induction C generalizing s0 with
  | nil => simp at h0
  | cons s C ih =>
    simp only [List.head?_cons, Option.some.injEq] at h0
    subst h0
    rcases lt_trichotomy z s.1.z with h1 | h1 | h1
    · exact Or.inl h1
    · exact Or.inr (Or.inr (Or.inl h1))
    rcases lt_trichotomy z s.2.z with h2 | h2 | h2
    · exact Or.inr (Or.inr (Or.inr (Or.inr (Or.inl ⟨s, by simp, h1, h2⟩))))
    · cases C with
      | nil =>
        simp only [List.getLast?_singleton, Option.some.injEq] at hl
        rw [← hl]; exact Or.inr (Or.inr (Or.inr (Or.inl h2)))
      | cons s' C =>
        have hh := h.2
        rw [List.isChain_cons] at hh
        refine Or.inr (Or.inr (Or.inr (Or.inr (Or.inr ⟨(s, s'), by simp, h2.symm, ?_⟩))))
        rw [← hh.1 s' (by simp), h2]
    · cases C with
      | nil =>
        simp only [List.getLast?_singleton, Option.some.injEq] at hl
        rw [← hl]; exact Or.inr (Or.inl h2)
      | cons s' C =>
        have hh := h.2
        rw [List.isChain_cons] at hh
        have e := hh.1 s' (by simp)
        have := ih h.tail (s0 := s') (by simp) (by rw [← hl]; simp)
        rcases this with h | h | h | h | ⟨q, hq, h⟩ | ⟨q, hq, h⟩
        · linarith
        · exact Or.inr (Or.inl h)
        · linarith
        · exact Or.inr (Or.inr (Or.inr (Or.inl h)))
        · exact Or.inr (Or.inr (Or.inr (Or.inr (Or.inl ⟨q, List.mem_cons_of_mem _ hq, h⟩))))
        · exact Or.inr (Or.inr (Or.inr (Or.inr (Or.inr ⟨q, by simp only [List.tail_cons, List.zip_cons_cons]; exact List.mem_cons_of_mem _ hq, h⟩))))

/-- Where one section stands on another. -/
def junctions (C : List (Plane × Plane)) : List (Plane × Plane) := (C.zip C.tail).map fun q => (q.1.2, q.2.1)

theorem zip_pairwise {A B : Type} {R : A → A → Prop} (C : List A) (D : List B) (h : C.Pairwise R) : (C.zip D).Pairwise fun a b => R a.1 b.1 := by
  induction C generalizing D with
  | nil => simp
  | cons x C ih =>
    cases D with
    | nil => simp
    | cons y D =>
      obtain ⟨h1, h2⟩ := List.pairwise_cons.1 h
      rw [List.zip_cons_cons]
      exact List.pairwise_cons.2 ⟨fun q hq => h1 _ (List.of_mem_zip hq).1, ih D h2⟩

/-- The heights at which sections meet increase. -/
theorem Tower.junctions {C : List (Plane × Plane)} (h : Tower C) : (junctions C).Pairwise fun a b => a.1.z < b.1.z := by
  unfold Polycone.junctions
  rw [List.pairwise_map]
  have : C.Pairwise fun s s' => s.2.z < s'.2.z :=
    h.pairwise.imp_of_mem fun {a b} _ hb hab => lt_of_le_of_lt hab (h.1 b hb)
  exact zip_pairwise C C.tail this

theorem chain_zip {A : Type} {R : A → A → Prop} (C : List A) (h : C.IsChain R) : ∀ q ∈ C.zip C.tail, R q.1 q.2 := by
  induction C with
  | nil => simp
  | cons x C ih =>
    rw [List.isChain_cons] at h
    cases C with
    | nil => simp
    | cons y C =>
      intro q hq
      simp only [List.tail_cons, List.zip_cons_cons] at hq
      rcases List.mem_cons.1 hq with rfl | hq
      · exact h.1 y (by simp)
      · exact ih h.2 q hq

/-- What the planes of a valid polycone look like. -/
theorem Valid.shape {l : List Plane} (hv : Valid l) : ∃ f last x y, l.head? = some f ∧ l.getLast? = some last ∧
    (secs l).head? = some (f, x) ∧ (secs l).getLast? = some (y, last) ∧ groups l = junctions (secs l) := by
  have hsz := hv.size
  have hlast : ∀ (ys : List Plane) (c last : Plane), (∀ q ∈ c :: ys, q.z < last.z) →
      ∃ y, (secs (c :: (ys ++ [last]))).getLast? = some (y, last) := by
    intro ys
    induction ys with
    | nil => intro c last h; exact ⟨c, by rw [List.nil_append, secs_cons, if_pos (h c (by simp)), secs_single]; rfl⟩
    | cons y ys ih =>
      intro c last h
      obtain ⟨w, hw⟩ := ih y last fun q hq => h q (List.mem_cons_of_mem _ hq)
      refine ⟨w, ?_⟩
      rw [List.cons_append, secs_cons]
      split
      · rw [List.getLast?_cons, hw]; rfl
      · exact hw
  cases l with
  | nil => simp at hsz
  | cons f rest =>
    have hne : rest ≠ [] := by rintro rfl; simp at hsz
    obtain ⟨mid, last, rfl⟩ : ∃ mid last, rest = mid ++ [last] := ⟨rest.dropLast, rest.getLast hne, (List.dropLast_append_getLast hne).symm⟩
    have hb := hv.bottom f _ rfl
    have ht := hv.top (f :: mid) last (by simp)
    cases mid with
    | nil =>
      refine ⟨f, last, last, f, rfl, by simp, ?_, ?_, ?_⟩
      · rw [List.nil_append, secs_cons, if_pos (hb last (by simp))]; rfl
      · rw [List.nil_append, secs_cons, if_pos (hb last (by simp)), secs_single]; rfl
      · rw [List.nil_append, secs_cons, if_pos (hb last (by simp)), secs_single]; rfl
    | cons x xs =>
      obtain ⟨y, hy⟩ := hlast (x :: xs) f last ht
      refine ⟨f, last, x, y, rfl, by simp [List.getLast?_cons, List.getLast?_append], ?_, hy, ?_⟩
      · rw [List.cons_append, secs_cons, if_pos (hb x (by simp))]; rfl
      · have hm : (f :: (x :: xs ++ [last])).tail.dropLast = x :: xs := by
          rw [List.tail_cons, List.dropLast_concat]
        have hg : groups (f :: (x :: xs ++ [last])) = groupsFrom x x xs := by unfold groups; rw [hm]
        rw [hg, List.cons_append, secs_cons, if_pos (hb x (by simp))]
        have ho := hv.order
        rw [List.pairwise_cons, List.cons_append] at ho
        have ho' : (x :: xs).Pairwise fun a b => a.z ≤ b.z := by
          have := ho.2
          rw [← List.cons_append] at this
          exact (List.pairwise_append.1 this).1
        rw [← groupsFrom_eq xs f x x last rfl ho' fun q hq => ht q (List.mem_cons_of_mem _ hq)]
        rfl

end Siren.Geometry.Polycone
