import Verif.Geometry.Hits

set_option autoImplicit false

/-!
# Shared parts of the primitive shapes

Moving crossings just ahead to the start of the ray, sorting, and the walk that intersects several solids described by
tagged crossings (Sphere.cxx, Cylinder.cxx and the other shapes with a phi cut).
-/

namespace Siren.Geometry

open Siren

/-- `if(t > 0 && t < GEOMETRY_PRECISION) t = 0;` (geometry/private/Box.cxx:93-94, Sphere.cxx:115, Cylinder.cxx:92). -/
noncomputable def snap (t : ℝ) : ℝ := if 0 < t ∧ t < precision then 0 else t

theorem snap_le (t : ℝ) : snap t ≤ t := by
  unfold snap; split
  · next h => exact h.1.le
  · exact le_refl _

theorem snap_near (t : ℝ) : t - precision < snap t := by
  unfold snap
  have := precision_pos
  split
  · next h => linarith [h.2]
  · linarith

theorem snap_mono {a b : ℝ} (h : a ≤ b) : snap a ≤ snap b := by
  unfold snap
  split <;> split
  · exact le_refl _
  · next h1 h2 => exact le_trans h1.1.le h
  · next h1 h2 =>
    by_contra hc
    exact h1 ⟨not_le.1 hc, lt_of_le_of_lt h h2.2⟩
  · exact h

/-- Parameters farther from the moved crossing than the tolerance are on the same side of the original one. -/
theorem snap_side (a t : ℝ) (h : precision ≤ |snap a - t|) : snap a < t ↔ a < t := by
  have h1 := snap_le a
  have h2 := snap_near a
  have h0 := precision_pos
  constructor
  · intro hlt
    rw [abs_of_neg (by linarith)] at h
    linarith
  · intro hlt; linarith

theorem snap_side_le (a t : ℝ) (h : precision ≤ |snap a - t|) : t ≤ snap a ↔ t ≤ a := by
  have := snap_side a t h
  constructor <;> intro hh <;> by_contra hc
  · exact absurd (this.2 (not_le.1 hc)) (not_lt.2 hh)
  · exact absurd (this.1 (not_le.1 hc)) (not_lt.2 hh)

theorem snap_ne (a t : ℝ) (h : precision ≤ |snap a - t|) : a ≠ t := by
  rintro rfl
  have h1 := snap_le a
  have h2 := snap_near a
  rw [abs_of_nonpos (by linarith)] at h
  linarith

/-- A crossing reported for the ray `position + t * direction` at the exact distance `t`. -/
noncomputable def hitAt (position direction : Vec3 ℝ) (t : ℝ) (entering : Bool) : Isect :=
  ⟨snap t, 0, entering, ⟨position.x + snap t * direction.x, position.y + snap t * direction.y, position.z + snap t * direction.z⟩⟩

/-! ### Specification: exact crossings -/

/-- `(distance, entering)` pairs describing a set of parameters exactly, except at the crossings themselves. -/
structure Exactly (S : ℝ → Prop) (ex : List (ℝ × Bool)) : Prop where
  strict : ex.Pairwise (fun a b => a.1 < b.1)
  alternates : Alternates false (ex.map fun c => ⟨c.1, 0, c.2, 0⟩)
  exact : ∀ t, (∀ c ∈ ex, c.1 ≠ t) → (S t ↔ stateFrom false (ex.map fun c => ⟨c.1, 0, c.2, 0⟩) t = true)

theorem alternates_map {A : Type} (f g : A → Isect) (l : List A) (s : Bool) (h : ∀ a ∈ l, (f a).entering = (g a).entering) :
    Alternates s (l.map f) ↔ Alternates s (l.map g) := by
  induction l generalizing s with
  | nil => rfl
  | cons a as ih =>
    simp only [List.map_cons, Alternates]
    rw [h a (by simp), ih _ (fun b hb => h b (by simp [hb]))]

theorem stateFrom_map {A : Type} (f g : A → Isect) (l : List A) (s : Bool) (t : ℝ)
    (h : ∀ a ∈ l, (f a).entering = (g a).entering) (hd : ∀ a ∈ l, (f a).distance < t ↔ (g a).distance < t) :
    stateFrom s (l.map f) t = stateFrom s (l.map g) t := by
  induction l generalizing s with
  | nil => rfl
  | cons a as ih =>
    simp only [List.map_cons]
    have h2 := fun s => ih s (fun b hb => h b (by simp [hb])) (fun b hb => hd b (by simp [hb]))
    by_cases hlt : (f a).distance < t
    · rw [stateFrom_cons_lt _ _ _ _ hlt, stateFrom_cons_lt _ _ _ _ ((hd a (by simp)).1 hlt), h2, h a (by simp)]
    · rw [stateFrom_cons_ge _ _ _ _ hlt, stateFrom_cons_ge _ _ _ _ (fun hh => hlt ((hd a (by simp)).2 hh)), h2]

/-- Exact crossings reported with the tolerance at the start of the ray describe the solid, if they are reported at
different distances. -/
theorem Exactly.describes {S : ℝ → Prop} {ex : List (ℝ × Bool)} (h : Exactly S ex) (p d : Vec3 ℝ)
    (hs : ((ex.map fun c => snap c.1).Pairwise (· < ·))) :
    Describes precision S (ex.map fun c => hitAt p d c.1 c.2) := by
  refine ⟨?_, ?_, ?_⟩
  · rw [List.pairwise_map] at hs ⊢
    exact hs
  · exact (alternates_map (fun c : ℝ × Bool => (⟨c.1, 0, c.2, 0⟩ : Isect)) (fun c => hitAt p d c.1 c.2) ex _
      (fun _ _ => rfl)).1 h.alternates
  · intro t ht
    have ht' : ∀ c ∈ ex, precision ≤ |snap c.1 - t| := fun c hc => ht _ (List.mem_map_of_mem hc)
    rw [h.exact t (fun c hc => snap_ne _ _ (ht' c hc))]
    rw [stateFrom_map (fun c : ℝ × Bool => (⟨c.1, 0, c.2, 0⟩ : Isect)) (fun c => hitAt p d c.1 c.2) ex false t
      (fun _ _ => rfl) (fun c hc => (snap_side c.1 t (ht' c hc)).symm)]

theorem Exactly.snap_sorted {S : ℝ → Prop} {ex : List (ℝ × Bool)} (h : Exactly S ex) :
    (ex.map fun c => snap c.1).Pairwise (· ≤ ·) := by
  rw [List.pairwise_map]
  exact h.strict.imp fun h => snap_mono h.le

/-- Sorting a permutation of a list with strictly increasing distances gives that list. -/
theorem sorted_perm_eq {l m : List Isect} (hl : l.Pairwise (fun a b => a.distance < b.distance)) (hm : m.Perm l)
    (hms : m.Pairwise (fun a b => a.distance ≤ b.distance)) : m = l := by
  have hinj : ∀ a ∈ l, ∀ b ∈ l, a.distance = b.distance → a = b := by
    clear hm hms
    induction l with
    | nil => simp
    | cons x xs ih =>
      obtain ⟨h1, h2⟩ := List.pairwise_cons.1 hl
      intro a ha b hb e
      rcases List.mem_cons.1 ha with ha' | ha' <;> rcases List.mem_cons.1 hb with hb' | hb'
      · rw [ha', hb']
      · rw [ha'] at e; exact absurd e (ne_of_lt (h1 b hb'))
      · rw [hb'] at e; exact absurd e (ne_of_gt (h1 a ha'))
      · exact ih h2 a ha' b hb' e
  refine List.Perm.eq_of_pairwise ?_ hms (hl.imp fun h => h.le) hm
  intro a b ha hb h1 h2
  exact hinj a (hm.mem_iff.1 ha) b hb (le_antisymm h1 h2)

/-! ### The walk over tagged crossings -/

/-- `TaggedHit` (geometry/private/Sphere.cxx:104-109, Cylinder.cxx:78-83). -/
structure SHit where
  isect : Isect
  source : Nat

/-- What `std::sort` by distance guarantees (geometry/private/Sphere.cxx:238-240, 255-257). -/
def IsHitSort (srt : List SHit → List SHit) : Prop :=
  ∀ l, (srt l).Perm l ∧ (srt l).Pairwise (fun a b => a.isect.distance ≤ b.isect.distance)

/-- `in_shell && in_phi && in_theta`, for `n` sources. -/
def allIn (n : Nat) (st : Nat → Bool) : Bool := (List.range n).all st

/-- The walk (geometry/private/Sphere.cxx:280-298, Cylinder.cxx:198-218) from the states `st` of the sources. -/
def andWalk (n : Nat) (st : Nat → Bool) (was : Bool) : List SHit → List Isect
  | [] => []
  | h :: hits =>
    let st' := Function.update st h.source h.isect.entering
    let now := allIn n st'
    let rest := andWalk n st' now hits
    if now ≠ was then { h.isect with entering := now } :: rest else rest

theorem andWalk_cons (n : Nat) (st : Nat → Bool) (was : Bool) (h : SHit) (hits : List SHit) :
    andWalk n st was (h :: hits) =
      if allIn n (Function.update st h.source h.isect.entering) ≠ was then
        { h.isect with entering := allIn n (Function.update st h.source h.isect.entering) } ::
          andWalk n (Function.update st h.source h.isect.entering) (allIn n (Function.update st h.source h.isect.entering)) hits
      else
        andWalk n (Function.update st h.source h.isect.entering) (allIn n (Function.update st h.source h.isect.entering)) hits :=
  rfl

/-- The crossings of one source. -/
def ofSource (k : Nat) (hits : List SHit) : List Isect := (hits.filter fun h => h.source == k).map SHit.isect

theorem andWalk_mem (n : Nat) (hits : List SHit) : ∀ (st : Nat → Bool) (was : Bool),
    ∀ x ∈ andWalk n st was hits, ∃ h ∈ hits, x = { h.isect with entering := x.entering } := by
  induction hits with
  | nil => simp [andWalk]
  | cons h hits ih =>
    intro st was x hx
    unfold andWalk at hx
    simp only at hx
    split at hx
    · rcases List.mem_cons.1 hx with rfl | hx
      · exact ⟨h, by simp, rfl⟩
      · obtain ⟨y, hy, e⟩ := ih _ _ x hx; exact ⟨y, by simp [hy], e⟩
    · obtain ⟨y, hy, e⟩ := ih _ _ x hx; exact ⟨y, by simp [hy], e⟩

theorem andWalk_pairwise (n : Nat) (R : ℝ → ℝ → Prop) (hits : List SHit)
    (hs : hits.Pairwise (fun a b => R a.isect.distance b.isect.distance)) : ∀ (st : Nat → Bool) (was : Bool),
    (andWalk n st was hits).Pairwise (fun a b => R a.distance b.distance) := by
  induction hits with
  | nil => simp [andWalk]
  | cons h hits ih =>
    intro st was
    obtain ⟨h1, h2⟩ := List.pairwise_cons.1 hs
    unfold andWalk
    simp only
    split
    · rw [List.pairwise_cons]
      refine ⟨fun x hx => ?_, ih h2 _ _⟩
      obtain ⟨y, hy, e⟩ := andWalk_mem _ _ _ _ x hx
      rw [e]; exact h1 y hy
    · exact ih h2 _ _

theorem ofSource_cons (k : Nat) (h : SHit) (hits : List SHit) :
    ofSource k (h :: hits) = if h.source = k then h.isect :: ofSource k hits else ofSource k hits := by
  unfold ofSource
  rw [List.filter_cons]
  by_cases e : h.source = k <;> simp [e]

/-- The reported crossings say "inside" exactly when the crossings of every source do. -/
theorem andWalk_state (n : Nat) (t : ℝ) (hits : List SHit)
    (hs : hits.Pairwise (fun a b => a.isect.distance ≤ b.isect.distance)) : ∀ st : Nat → Bool,
    stateFrom (allIn n st) (andWalk n st (allIn n st) hits) t = allIn n (fun k => stateFrom (st k) (ofSource k hits) t) := by
  induction hits with
  | nil => intro st; simp [andWalk, ofSource]
  | cons h hits ih =>
    intro st
    obtain ⟨h1, h2⟩ := List.pairwise_cons.1 hs
    by_cases hlt : h.isect.distance < t
    · have e2 : (fun k => stateFrom (st k) (ofSource k (h :: hits)) t) =
          fun k => stateFrom (Function.update st h.source h.isect.entering k) (ofSource k hits) t := by
        funext k
        rw [ofSource_cons]
        by_cases e : h.source = k
        · rw [if_pos e, stateFrom_cons_lt _ _ _ _ hlt, ← e, Function.update_self]
        · rw [if_neg e, Function.update_of_ne (fun h' => e h'.symm)]
      rw [e2, ← ih h2]
      rw [andWalk_cons]
      split
      · rw [stateFrom_cons_lt _ _ _ _ (by exact hlt)]
      · next hne => rw [not_not.1 hne]
    · have hge : ∀ x ∈ h :: hits, t ≤ x.isect.distance := by
        intro x hx
        rcases List.mem_cons.1 hx with rfl | hx
        · exact not_lt.1 hlt
        · exact le_trans (not_lt.1 hlt) (h1 x hx)
      rw [stateFrom_all_ge]
      · congr 1
        funext k
        rw [stateFrom_all_ge]
        intro x hx
        unfold ofSource at hx
        obtain ⟨y, hy, rfl⟩ := List.mem_map.1 hx
        exact hge y (List.mem_filter.1 hy).1
      · intro x hx
        obtain ⟨y, hy, e⟩ := andWalk_mem _ _ _ _ x hx
        rw [e]; exact hge y hy

/-- The reported crossings alternate, and end outside if some source ends outside. -/
theorem andWalk_alternates (n : Nat) (hits : List SHit) : ∀ st : Nat → Bool,
    (∃ k < n, (((ofSource k hits).getLast?).map Isect.entering).getD (st k) = false) →
    Alternates (allIn n st) (andWalk n st (allIn n st) hits) := by
  induction hits with
  | nil =>
    rintro st ⟨k, hk, e⟩
    simp only [ofSource, List.filter_nil, List.map_nil, List.getLast?_nil, Option.map_none, Option.getD_none] at e
    simp only [andWalk, Alternates, allIn]
    rw [List.all_eq_false]
    exact ⟨k, List.mem_range.2 hk, by simp [e]⟩
  | cons h hits ih =>
    rintro st ⟨k, hk, e⟩
    have hnext : ∃ k < n, (((ofSource k hits).getLast?).map Isect.entering).getD
        (Function.update st h.source h.isect.entering k) = false := by
      refine ⟨k, hk, ?_⟩
      rw [ofSource_cons] at e
      by_cases e' : h.source = k
      · rw [if_pos e'] at e
        rw [← e', Function.update_self, e']
        cases hl : ofSource k hits with
        | nil => rw [hl] at e; simpa using e
        | cons a as =>
          rw [hl, List.getLast?_cons_cons] at e
          rw [List.getLast?_cons] at e ⊢
          simpa using e
      · rw [if_neg e'] at e
        rwa [Function.update_of_ne (fun h' => e' h'.symm)]
    have := ih _ hnext
    rw [andWalk_cons]
    split
    · next hne =>
      refine ⟨?_, this⟩
      simp only
      revert hne
      cases allIn n (Function.update st h.source h.isect.entering) <;> cases allIn n st <;> simp
    · next hne => rw [not_not.1 hne] at this ⊢; exact this

/-- Sorting keeps the order of each source's own crossings. -/
theorem ofSource_sort {srt : List SHit → List SHit} (hsrt : IsHitSort srt) (l : List SHit) (k : Nat)
    (hk : (ofSource k l).Pairwise (fun a b => a.distance < b.distance)) : ofSource k (srt l) = ofSource k l := by
  obtain ⟨hp, hs⟩ := hsrt l
  refine sorted_perm_eq hk ((hp.filter _).map _) ?_
  unfold ofSource
  rw [List.pairwise_map]
  exact hs.filter _

end Siren.Geometry
