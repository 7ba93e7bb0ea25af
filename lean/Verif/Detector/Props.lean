import Verif.Detector.Lemmas

set_option autoImplicit false

/-! # C18, C26: the sector walk and the order of intersections -/

namespace Siren.Detector

variable {D : Type} [LinearOrder D]

/-! ## C26 -/

/-- C26 (strict weak order): the comparator is irreflexive and transitive, and incomparability is transitive, so
`std::sort` is used within its contract; moreover two incomparable crossings have the same distance, kind and level. -/
theorem C26_comparator_strict_weak_order :
    (∀ a : Hit D, comp a a = false) ∧
    (∀ a b c : Hit D, comp a b = true → comp b c = true → comp a c = true) ∧
    (∀ a b c : Hit D, comp a b = false → comp b a = false → comp b c = false → comp c b = false →
      comp a c = false ∧ comp c a = false) ∧
    (∀ a b : Hit D, comp a b = false → comp b a = false → a = b) := by
  refine ⟨comp_irrefl, fun a b c => comp_trans, ?_, ?_⟩
  · intro a b c h1 h2 h3 h4
    exact ⟨comp_negTrans h1 h3, comp_negTrans h4 h2⟩
  · intro a b h1 h2
    have hd := le_antisymm (comp_false_dist h2) (comp_false_dist h1)
    rw [Bool.eq_false_iff, ne_eq, comp_iff] at h1 h2
    push Not at h1 h2
    obtain ⟨a1, a2, a3⟩ := h1.2 hd
    obtain ⟨b1, b2, b3⟩ := h2.2 hd.symm
    have he : a.entering = b.entering := by
      cases ha : a.entering <;> cases hb : b.entering
      · rfl
      · exact absurd hb (a1 ha)
      · exact absurd ha (b1 hb)
      · rfl
    have hh : a.hierarchy = b.hierarchy := by
      cases ha : a.entering
      · exact le_antisymm (b2 (he ▸ ha) ha) (a2 ha (he ▸ ha))
      · exact le_antisymm (a3 ha (he ▸ ha)) (b3 (he ▸ ha) ha)
    cases a; cases b; simp_all

/-- C26: whatever sorted permutation `std::sort` returns, crossings come by distance; at one distance exits come before
entries, exits in increasing and entries in decreasing level order; and the result does not depend on the input order. -/
theorem C26_sorted_order (input out : List (Hit D)) (h : IsSortOf out input) :
    out.Perm input ∧
    out.Pairwise (fun a b => a.distance ≤ b.distance ∧
      (a.distance = b.distance → (a.entering = true → b.entering = true) ∧
        (a.entering = false → b.entering = false → a.hierarchy ≤ b.hierarchy) ∧
        (a.entering = true → b.entering = true → b.hierarchy ≤ a.hierarchy))) ∧
    ∀ input' out', input'.Perm input → IsSortOf out' input' → out' = out := by
  refine ⟨h.1, ?_, ?_⟩
  · refine h.2.imp ?_
    intro a b hab
    refine ⟨comp_false_dist hab, fun hd => ?_⟩
    rw [Bool.eq_false_iff, ne_eq, comp_iff] at hab
    push Not at hab
    obtain ⟨b1, b2, b3⟩ := hab.2 hd.symm
    refine ⟨fun ha => ?_, fun ha hb => b2 hb ha, fun ha hb => b3 hb ha⟩
    by_contra hb
    exact b1 (by simpa using hb) ha
  · intro input' out' hp h'
    refine List.Perm.eq_of_pairwise ?_ h'.2 h.2 ((h'.1.trans hp).trans h.1.symm)
    intro a b _ _ h1 h2
    exact C26_comparator_strict_weak_order.2.2.2 a b h2 h1

/-- C26: the executable sort is one such result, so the hypotheses above are always met. -/
theorem C26_sort_exists (input : List (Hit D)) : IsSortOf (sortIntersections input) input := by
  have : IsTrans (Hit D) (fun a b => comp b a = false) := ⟨fun a b c h1 h2 => comp_negTrans h2 h1⟩
  have : Std.Total (fun a b : Hit D => comp b a = false) := ⟨by
    intro a b
    by_cases h : comp b a = true
    · right
      by_contra hc
      have := comp_trans (by simpa using hc) h
      rw [comp_irrefl] at this; simp at this
    · left; simpa using h⟩
  exact ⟨List.perm_insertionSort _ _, List.pairwise_insertionSort _ _⟩

/-! ## C18 -/

theorem owner_of_chords {L : Layout D} (w : L.WF) (l : Int) (t : D)
    (h : (∃ c ∈ L.chordsOf l, c.1 < t ∧ t < c.2) ∧ ∀ k, l < k → ¬ ∃ c ∈ L.chordsOf k, c.1 < t ∧ t < c.2) :
    L.Owner t l := by
  obtain ⟨⟨c, hc, hc1, hc2⟩, h2⟩ := h
  refine ⟨?_, ?_⟩
  · rcases chordsOf_cases L (Layout.levels_nodup w) l with h | ⟨s, hs, h1, h⟩
    · rw [h] at hc; simp at hc
    · exact ⟨s, hs, h1, c, h ▸ hc, hc1, hc2⟩
  · intro s hs hin
    by_contra hcon
    apply h2 s.level (lt_of_not_ge hcon)
    obtain ⟨d, hd, hd1, hd2⟩ := hin
    have := chordsOf_of_mem L.sectors (Layout.levels_nodup w) s hs
    exact ⟨d, by rw [Layout.chordsOf, this]; exact hd, hd1, hd2⟩

/-- C18: for every layout of sectors with distinct levels, any overlaps and an all-enclosing sector, and every result of
sorting its crossings, the walk over them calls the callback on segments that join up from one end of the enclosing
sector to the other (in the direction of the walk), until the callback says it is done; the crossings ending the
segments are crossings of the list, each used at most once and in the order of the walk; and every point strictly inside
a segment is owned by the sector named by the segment's `current` crossing, i.e. that is the highest-level sector
containing the point. `max(current.distance, last_point)`, which the callbacks use, is the segment's start. -/
theorem C18_walk_attribution (L : Layout D) (w : L.WF) (hits : List (Hit D)) (hs : IsSortOf hits L.hits)
    (reverse : Bool) :
    ∃ segs : List (Segment D),
      (if reverse then Covers (· ≥ ·) L.hi L.lo segs else Covers (· ≤ ·) L.lo L.hi segs) ∧
      (segs.map Segment.next).Sublist (if reverse then hits.reverse else hits) ∧
      (∀ g ∈ segs, (g.current ∈ hits ∧ g.next ∈ hits) ∧
        (if reverse then g.lastPoint ≤ g.current.distance else g.current.distance ≤ g.lastPoint) ∧
        ∀ t, g.Has t → L.Owner t g.current.hierarchy) ∧
      ∀ (σ : Type) (cb : σ → Hit D → Hit D → D → Res (Bool × σ)) (s : σ),
        sectorLoop cb hits reverse s = runSegments cb segs s := by
  obtain ⟨mid, rfl, H⟩ := goodHits_of_sort w hs
  have conv := fun (g : Segment D) (t : D) => owner_of_chords w g.current.hierarchy t
  have mono_le : ∀ (segs : List (Segment D)) (a b : D), Covers (· ≤ ·) a b segs →
      ∀ g ∈ segs, g.lastPoint ≤ g.next.distance := by
    intro segs
    induction segs with
    | nil => intro a b _ g hg; simp at hg
    | cons x xs ih =>
      rintro a b ⟨h1, h2, h3⟩ g hg
      rcases List.mem_cons.1 hg with rfl | hg
      · rw [h1]; exact h2
      · exact ih _ _ h3 g hg
  have mono_ge : ∀ (segs : List (Segment D)) (a b : D), Covers (· ≥ ·) a b segs →
      ∀ g ∈ segs, g.next.distance ≤ g.lastPoint := by
    intro segs
    induction segs with
    | nil => intro a b _ g hg; simp at hg
    | cons x xs ih =>
      rintro a b ⟨h1, h2, h3⟩ g hg
      rcases List.mem_cons.1 hg with rfl | hg
      · rw [h1]; exact h2
      · exact ih _ _ h3 g hg
  cases reverse with
  | false =>
    obtain ⟨segs, h1, hsub, h2, -, h3⟩ := forward_walk _ _ _ _ _ H
    refine ⟨segs, by simpa using h1, by simpa using hsub.trans (List.sublist_cons_self _ _), ?_, h3⟩
    intro g hg
    refine ⟨(h2 g hg).1, by simpa using (h2 g hg).2.1, fun t ht => ?_⟩
    rcases ht with ht | ht
    · exact conv g t ((h2 g hg).2.2 t ht.1 ht.2)
    · exact absurd (lt_trans ht.1 ht.2) (not_lt.2 (mono_le _ _ _ h1 g hg))
  | true =>
    obtain ⟨segs, h1, hsub, h2, h3⟩ := reverse_walk _ _ _ _ _ H
    refine ⟨segs, by simpa using h1, by simpa using hsub.trans (List.sublist_cons_self _ _), ?_, h3⟩
    intro g hg
    refine ⟨(h2 g hg).1, by simpa using (h2 g hg).2.1, fun t ht => ?_⟩
    rcases ht with ht | ht
    · exact absurd (lt_trans ht.1 ht.2) (not_lt.2 (mono_ge _ _ _ h1 g hg))
    · exact conv g t ((h2 g hg).2.2 t ht.2 ht.1)

/-- C18: in the forward walk, `current` lies strictly before `next` in every segment, also when several crossings share a
distance. -/
theorem C18_forward_strict (L : Layout D) (w : L.WF) (hits : List (Hit D)) (hs : IsSortOf hits L.hits) :
    ∃ segs : List (Segment D), Covers (· ≤ ·) L.lo L.hi segs ∧
      (∀ g ∈ segs, g.current ∈ hits ∧ g.current.distance < g.next.distance ∧ g.current.distance ≤ g.lastPoint ∧
        ∀ t, g.lastPoint < t → t < g.next.distance → L.Owner t g.current.hierarchy) ∧
      ∀ (σ : Type) (cb : σ → Hit D → Hit D → D → Res (Bool × σ)) (s : σ),
        sectorLoop cb hits false s = runSegments cb segs s := by
  obtain ⟨mid, rfl, H⟩ := goodHits_of_sort w hs
  obtain ⟨segs, h1, -, h2, h4, h3⟩ := forward_walk _ _ _ _ _ H
  refine ⟨segs, h1, ?_, h3⟩
  intro g hg
  refine ⟨(h2 g hg).1.1, ?_, (h2 g hg).2.1, fun t t1 t2 => owner_of_chords w _ t ((h2 g hg).2.2 t t1 t2)⟩
  have hc : comp g.next g.current = false := by
    have := hs.2.sublist (h4 g hg).later
    simpa using this
  rcases lt_or_eq_of_le (comp_false_dist hc) with h | h
  · exact h
  · exfalso
    have : comp g.next g.current = true := by
      rw [comp_iff]
      refine Or.inr ⟨h.symm, ?_⟩
      cases hn : g.next.entering
      · exact Or.inl ⟨rfl, (h4 g hg).entered⟩
      · exact Or.inr (Or.inr ⟨rfl, (h4 g hg).entered, (h4 g hg).higher hn⟩)
    rw [hc] at this; simp at this

/-- The owner is unique, so "attributed to the owner" determines the level. -/
theorem C18_owner_unique (L : Layout D) (t : D) (l l' : Int) (h : L.Owner t l) (h' : L.Owner t l') : l = l' := by
  obtain ⟨⟨s, hs, rfl, hi⟩, hm⟩ := h
  obtain ⟨⟨s', hs', rfl, hi'⟩, hm'⟩ := h'
  exact le_antisymm (hm' s hs hi) (hm s' hs' hi')

/-- Segments that cover a stretch contain each of its points, either inside or at an end. -/
theorem C18_covers_every_point (segs : List (Segment D)) : ∀ (a b t : D), Covers (· ≤ ·) a b segs → a < t → t < b →
    (∃ g ∈ segs, g.Has t) ∨ ∃ g ∈ segs, t = g.next.distance := by
  induction segs with
  | nil => intro a b t h h1 h2; exact absurd (lt_trans h1 h2) (by rw [show a = b from h]; exact lt_irrefl _)
  | cons g gs ih =>
    rintro a b t ⟨h1, h2, h3⟩ ha hb
    rcases lt_trichotomy t g.next.distance with h | h | h
    · left; exact ⟨g, by simp, Or.inl ⟨h1 ▸ ha, h⟩⟩
    · right; exact ⟨g, by simp, h⟩
    · rcases ih _ b t h3 h hb with ⟨x, hx, h⟩ | ⟨x, hx, h⟩
      · left; exact ⟨x, by simp [hx], h⟩
      · right; exact ⟨x, by simp [hx], h⟩

/-- A layout with nested, overlapping and touching sectors, one of them crossed twice. -/
def exampleLayout : Layout Int :=
  { outerLevel := -5, lo := -100, hi := 100,
    inner := [⟨1, [(0, 10), (20, 30)]⟩, ⟨2, [(5, 25)]⟩, ⟨0, [(30, 40)]⟩, ⟨7, [(8, 9)]⟩] }

/-- The hypotheses of C18 are met by it. -/
example : exampleLayout.WF ∧ IsSortOf (sortIntersections exampleLayout.hits) exampleLayout.hits := by
  refine ⟨⟨by decide, by decide, by decide, ?_, by decide⟩, C26_sort_exists _⟩
  intro s hs
  simp only [exampleLayout, List.mem_cons, List.not_mem_nil, or_false] at hs
  rcases hs with rfl | rfl | rfl | rfl <;> (unfold LineSector.Ordered; decide)

/-- Record the segments the callback is given. -/
def record (s : List (Int × Int × Int)) (c i : Hit Int) (last : Int) : Res (Bool × List (Int × Int × Int)) :=
  .ok (false, s ++ [(c.hierarchy, last, i.distance)])

/-- What the walk does on the example. -/
example : sectorLoop record (sortIntersections exampleLayout.hits) false [] =
    .ok [(-5, -100, 0), (1, 0, 5), (2, 5, 8), (7, 8, 9), (2, 9, 25), (1, 25, 30), (-5, 30, 30), (0, 30, 40),
      (-5, 40, 100)] := by decide +kernel

/-- C18 needs the all-enclosing sector: without it the walk stops at the first gap and the second sector is never
visited, although its crossings are in the list. -/
theorem C18_gap_without_enclosing_sector_fails :
    sectorLoop record (sortIntersections ((⟨1, [(0, 1)]⟩ : LineSector Int).hits ++ (⟨2, [(1, 2)]⟩ : LineSector Int).hits))
      false [] = .ok [(1, 0, 1)] := by decide +kernel

/-- C18 needs chords of positive length: a shape touched in a single point (as a box grazed at an edge reports, see
`C39`) gives an entry and an exit at the same distance; the sort puts the exit first, and the walk throws. -/
theorem C18_grazing_chord_fails :
    sectorLoop record (sortIntersections ((⟨0, [(-10, 10)]⟩ : LineSector Int).hits ++ (⟨2, [(1, 1)]⟩ : LineSector Int).hits))
      false [] = .throws .runtimeError := by decide +kernel

end Siren.Detector
