import Verif.Geometry.ShapeProps
import Verif.Geometry.Walk

set_option autoImplicit false

/-!
# C39: boxes

Models `Box::ComputeIntersections` and `Box::GetBoundingBox` (geometry/private/Box.cxx:38-119).
-/

namespace Siren.Geometry.Box

open Siren Siren.Geometry

/-- One slab block (geometry/private/Box.cxx:52-61, 64-73, 76-85) with centre coordinate `p`, direction `d` and half width
`h`. `none` in the range is minus or plus infinity; the result `none` is `return {}`. -/
noncomputable def slab (p d h : ℝ) (t : AABB.TRange ℝ) : Option (AABB.TRange ℝ) :=
  if d ≠ 0 then
    let inv := 1 / d
    let t1 := (-h - p) * inv
    let t2 := (h - p) * inv
    let lo := if t1 > t2 then t2 else t1
    let hi := if t1 > t2 then t1 else t2
    let enter := match t.tmin with
      | none => some lo
      | some e => if lo > e then some lo else some e
    let exit := match t.tmax with
      | none => some hi
      | some e => if hi < e then some hi else some e
    some ⟨enter, exit⟩
  else if p < -h ∨ p > h then none else some t

/-- `Box::ComputeIntersections` (geometry/private/Box.cxx:38-108) for the full widths `w`. The result `none` stands for
infinite distances, which occur for the zero direction only. -/
noncomputable def compute (w position direction : Vec3 ℝ) : Option (List Isect) :=
  match slab position.x direction.x (1 / 2 * w.x) ⟨none, none⟩ with
  | none => some []
  | some t =>
    match slab position.y direction.y (1 / 2 * w.y) t with
    | none => some []
    | some t =>
      match slab position.z direction.z (1 / 2 * w.z) t with
      | none => some []
      | some t =>
        match t.tmin, t.tmax with
        | some enter, some exit =>
          if enter > exit then some []
          else
            let enter := snap enter
            let exit := snap exit
            some [⟨enter, 0, true, ⟨position.x + enter * direction.x, position.y + enter * direction.y, position.z + enter * direction.z⟩⟩,
              ⟨exit, 0, false, ⟨position.x + exit * direction.x, position.y + exit * direction.y, position.z + exit * direction.z⟩⟩]
        | _, _ => none

/-- `Box::GetBoundingBox` (geometry/private/Box.cxx:111-119). -/
noncomputable def boundingBox (w : Vec3 ℝ) : AABB ℝ :=
  ⟨⟨-(w.x * (1 / 2)), -(w.y * (1 / 2)), -(w.z * (1 / 2))⟩, ⟨w.x * (1 / 2), w.y * (1 / 2), w.z * (1 / 2)⟩⟩

/-! ### Specification -/

/-- The closed box with full widths `w` around the origin. -/
def Mem (w v : Vec3 ℝ) : Prop := |v.x| ≤ w.x / 2 ∧ |v.y| ≤ w.y / 2 ∧ |v.z| ≤ w.z / 2

/-! ### Proofs -/

theorem slab_eq (p d h : ℝ) (t : AABB.TRange ℝ) :
    slab p d h t = AABB.slab (-h - p) (h - p) (if d = 0 then none else some (1 / d)) t := by
  unfold slab AABB.slab
  by_cases hd : d = 0
  · simp only [hd, ne_eq, not_true_eq_false, if_false, if_true]
    congr 1
    rw [eq_iff_iff]
    constructor
    · rintro (h | h)
      · left; linarith
      · right; linarith
    · rintro (h | h)
      · left; linarith
      · right; linarith
  · simp only [hd, ne_eq, not_false_eq_true, if_true, if_false]
    congr 2
    · cases t.tmin with
      | none =>
        simp only [AABB.fmaxO]
        split
        · next h => rw [min_eq_right h.le]
        · next h => rw [min_eq_left (not_lt.1 h)]
      | some e =>
        simp only [AABB.fmaxO]
        have : (if (-h - p) * (1 / d) > (h - p) * (1 / d) then (h - p) * (1 / d) else (-h - p) * (1 / d)) =
            min ((-h - p) * (1 / d)) ((h - p) * (1 / d)) := by
          split
          · next h => rw [min_eq_right h.le]
          · next h => rw [min_eq_left (not_lt.1 h)]
        rw [this]
        split
        · next h => rw [max_eq_right h.le]
        · next h => rw [max_eq_left (not_lt.1 h)]
    · cases t.tmax with
      | none =>
        simp only [AABB.fminO]
        split
        · next h => rw [max_eq_left h.le]
        · next h => rw [max_eq_right (not_lt.1 h)]
      | some e =>
        simp only [AABB.fminO]
        have : (if (-h - p) * (1 / d) > (h - p) * (1 / d) then (-h - p) * (1 / d) else (h - p) * (1 / d)) =
            max ((-h - p) * (1 / d)) ((h - p) * (1 / d)) := by
          split
          · next h => rw [max_eq_left h.le]
          · next h => rw [max_eq_right (not_lt.1 h)]
        rw [this]
        split
        · next h => rw [min_eq_right h.le]
        · next h => rw [min_eq_left (not_lt.1 h)]

theorem slab_spec (p d h : ℝ) (hh : 0 ≤ h) (r : AABB.TRange ℝ) :
    match slab p d h r with
    | none => ∀ t, ¬ |p + t * d| ≤ h
    | some r' => ∀ t, r'.Has t ↔ r.Has t ∧ |p + t * d| ≤ h := by
  have key : ∀ t, (|p + t * d| ≤ h ↔ -h - p ≤ t * d ∧ t * d ≤ h - p) := by
    intro t; rw [abs_le]; constructor <;> rintro ⟨h1, h2⟩ <;> constructor <;> linarith
  rw [slab_eq]
  have := AABB.slab_spec (-h - p) (h - p) d (by linarith) r
  revert this
  cases AABB.slab (-h - p) (h - p) (if d = 0 then none else some (1 / d)) r with
  | none => simp only; intro h' t ht; exact h' t ((key t).1 ht)
  | some r' => simp only; intro h' t; rw [h', key]

theorem slab_bounded (p d h : ℝ) (r r' : AABB.TRange ℝ) (e : slab p d h r = some r') :
    (d ≠ 0 ∨ (r.tmin.isSome ∧ r.tmax.isSome)) → r'.tmin.isSome ∧ r'.tmax.isSome := by
  intro hd
  unfold slab at e
  by_cases hz : d = 0
  · simp only [hz, ne_eq, not_true_eq_false, if_false] at e
    split at e
    · simp at e
    · simp only [Option.some.injEq] at e
      subst e
      rcases hd with hd | hd
      · exact absurd hz hd
      · exact hd
  · simp only [hz, ne_eq, not_false_eq_true, if_true, Option.some.injEq] at e
    subst e
    constructor
    · cases r.tmin with
      | none => rfl
      | some e => simp only; split <;> split <;> rfl
    · cases r.tmax with
      | none => rfl
      | some e => simp only; split <;> split <;> rfl

/-- C39: for every box, position and non-zero direction, the box reports either nothing, and then the line misses the closed
box, or an entry and an exit whose exact distances `a ≤ b` delimit exactly the parameters inside the closed box. The
reported distances are `a` and `b` themselves, except that a distance in `(0, 1e-9)` is reported as 0; the reported
positions are the points of the line at the reported distances. -/
theorem C39_box_exact (w position direction : Vec3 ℝ) (hw : 0 ≤ w.x ∧ 0 ≤ w.y ∧ 0 ≤ w.z) (hd : direction ≠ 0) :
    (compute w position direction = some [] ∧ ∀ t, ¬ Mem w (position + Vec3.smul t direction)) ∨
    ∃ a b : ℝ, a ≤ b ∧ (∀ t, Mem w (position + Vec3.smul t direction) ↔ a ≤ t ∧ t ≤ b) ∧
      compute w position direction = some
        [⟨snap a, 0, true, position + Vec3.smul (snap a) direction⟩,
         ⟨snap b, 0, false, position + Vec3.smul (snap b) direction⟩] := by
  have hmem : ∀ t, Mem w (position + Vec3.smul t direction) ↔
      |position.x + t * direction.x| ≤ 1 / 2 * w.x ∧ |position.y + t * direction.y| ≤ 1 / 2 * w.y ∧
      |position.z + t * direction.z| ≤ 1 / 2 * w.z := by
    intro t
    simp only [Mem, Vec3.add_x, Vec3.add_y, Vec3.add_z, Vec3.smul_x, Vec3.smul_y, Vec3.smul_z]
    rw [show w.x / 2 = 1 / 2 * w.x by ring, show w.y / 2 = 1 / 2 * w.y by ring, show w.z / 2 = 1 / 2 * w.z by ring]
  simp only [hmem]
  have sx := slab_spec position.x direction.x (1 / 2 * w.x) (by linarith) ⟨none, none⟩
  unfold compute
  cases h1 : slab position.x direction.x (1 / 2 * w.x) ⟨none, none⟩ with
  | none =>
    rw [h1] at sx
    left; exact ⟨rfl, fun t ht => sx t ht.1⟩
  | some r1 =>
    rw [h1] at sx
    simp only at sx ⊢
    have sy := slab_spec position.y direction.y (1 / 2 * w.y) (by linarith) r1
    cases h2 : slab position.y direction.y (1 / 2 * w.y) r1 with
    | none =>
      rw [h2] at sy
      left; exact ⟨rfl, fun t ht => sy t ht.2.1⟩
    | some r2 =>
      rw [h2] at sy
      simp only at sy ⊢
      have sz := slab_spec position.z direction.z (1 / 2 * w.z) (by linarith) r2
      cases h3 : slab position.z direction.z (1 / 2 * w.z) r2 with
      | none =>
        rw [h3] at sz
        left; exact ⟨rfl, fun t ht => sz t ht.2.2⟩
      | some r3 =>
        rw [h3] at sz
        simp only at sz ⊢
        have hb : r3.tmin.isSome ∧ r3.tmax.isSome := by
          by_cases hx : direction.x = 0
          · by_cases hy : direction.y = 0
            · by_cases hz : direction.z = 0
              · exfalso; apply hd; ext <;> assumption
              · exact slab_bounded _ _ _ _ _ h3 (Or.inl hz)
            · exact slab_bounded _ _ _ _ _ h3 (Or.inr (slab_bounded _ _ _ _ _ h2 (Or.inl hy)))
          · exact slab_bounded _ _ _ _ _ h3 (Or.inr (slab_bounded _ _ _ _ _ h2
              (Or.inr (slab_bounded _ _ _ _ _ h1 (Or.inl hx)))))
        obtain ⟨lo, hi⟩ := r3
        obtain ⟨a, rfl⟩ := Option.isSome_iff_exists.1 hb.1
        obtain ⟨b, rfl⟩ := Option.isSome_iff_exists.1 hb.2
        have hall : ∀ t, (a ≤ t ∧ t ≤ b) ↔ (|position.x + t * direction.x| ≤ 1 / 2 * w.x ∧
            |position.y + t * direction.y| ≤ 1 / 2 * w.y ∧ |position.z + t * direction.z| ≤ 1 / 2 * w.z) := by
          intro t
          have := sz t
          rw [sy, sx] at this
          simp only [AABB.TRange.Has, Option.mem_def, Option.some.injEq, forall_eq', reduceCtorEq, false_implies,
            implies_true, true_and, and_assoc] at this
          exact this
        simp only
        by_cases hab : a > b
        · left
          rw [if_pos hab]
          refine ⟨rfl, fun t ht => ?_⟩
          have := (hall t).2 ht
          exact absurd (le_trans this.1 this.2) (not_le.2 hab)
        · right
          rw [if_neg hab]
          refine ⟨a, b, not_lt.1 hab, fun t => (hall t).symm, ?_⟩
          rfl

/-- C39: along every line on which the reported entry and exit differ, the box's crossings describe the box in the sense of
`Describes`, so that C36 and C42 apply to boxes and to boolean shapes made of boxes. -/
theorem C39_box_describes (w position direction : Vec3 ℝ) (hw : 0 ≤ w.x ∧ 0 ≤ w.y ∧ 0 ≤ w.z) (hd : direction ≠ 0)
    (hits : List Isect) (h : compute w position direction = some hits)
    (hdiff : ∀ a b, hits = [a, b] → a.distance ≠ b.distance) :
    Describes precision (fun t => Mem w (position + Vec3.smul t direction)) hits := by
  rcases C39_box_exact w position direction hw hd with ⟨h1, h2⟩ | ⟨a, b, hab, h2, h1⟩
  · rw [h1, Option.some.injEq] at h; subst h
    exact describes_nil _ _ h2
  · rw [h1, Option.some.injEq] at h; subst h
    refine describes_pair _ _ _ _ rfl rfl ?_ ?_
    · exact lt_of_le_of_ne (snap_mono hab) (hdiff _ _ rfl)
    · intro t ta tb
      simp only at ta tb ⊢
      rw [h2, snap_side a t ta, snap_side_le b t tb]
      constructor
      · rintro ⟨h3, h4⟩
        refine ⟨lt_of_le_of_ne h3 ?_, h4⟩
        rintro rfl
        have := (snap_side a a ta).not.2 (lt_irrefl _)
        have h5 := snap_le a
        have h6 : snap a = a := le_antisymm h5 (not_lt.1 this)
        rw [h6, sub_self, abs_zero] at ta
        exact absurd ta (not_le.2 precision_pos)
      · exact fun h => ⟨h.1.le, h.2⟩

/-- C39: the local bounding box is the box itself. -/
theorem C39_bounding_box (w v : Vec3 ℝ) : AABB.Mem v (boundingBox w) ↔ Mem w v := by
  simp only [AABB.Mem, boundingBox, Mem, abs_le]
  rw [show w.x / 2 = w.x * (1 / 2) by ring, show w.y / 2 = w.y * (1 / 2) by ring, show w.z / 2 = w.z * (1 / 2) by ring]

/-- A diagonal line through a corner region of a box. -/
example : ∃ hits, compute ⟨2, 4, 6⟩ ⟨-3, -3, 0⟩ ⟨1, 1, 0⟩ = some hits ∧ hits.length = 2 := by
  rcases C39_box_exact ⟨2, 4, 6⟩ ⟨-3, -3, 0⟩ ⟨1, 1, 0⟩ (by norm_num)
    (by intro h; have := congrArg Vec3.x h; simp at this) with ⟨_, h⟩ | ⟨a, b, _, _, h⟩
  · exfalso
    apply h 3
    norm_num [Mem]
  · exact ⟨_, h, rfl⟩

end Siren.Geometry.Box
