import Verif.Geometry.ShapeProps
import Mathlib.Data.EReal.Basic

set_option autoImplicit false

/-!
# C44: bounding boxes of boolean shapes

Models `BooleanGeometry::GetBoundingBox` (geometry/private/BooleanGeometry.cxx:252-300) and
`Geometry::RecomputeWorldAABB` (geometry/private/Geometry.cxx:170-208) for boxes with infinite components
(extended reals).
-/

namespace Siren.Geometry

open Siren

namespace BoolBox

/-- A point with real coordinates in a box with extended real ones. -/
def In (v : Vec3 ℝ) (b : AABB EReal) : Prop := AABB.Mem (⟨(v.x : EReal), (v.y : EReal), (v.z : EReal)⟩ : Vec3 EReal) b

/-- A box with real components. -/
noncomputable def lift (b : AABB ℝ) : AABB EReal :=
  ⟨⟨(b.min.x : EReal), (b.min.y : EReal), (b.min.z : EReal)⟩, ⟨(b.max.x : EReal), (b.max.y : EReal), (b.max.z : EReal)⟩⟩

/-- `std::isfinite`. -/
def isFin (x : EReal) : Prop := x ≠ ⊤ ∧ x ≠ ⊥

/-- All six components are finite (geometry/private/Geometry.cxx:180-185). -/
def AllFin (b : AABB EReal) : Prop :=
  isFin b.min.x ∧ isFin b.min.y ∧ isFin b.min.z ∧ isFin b.max.x ∧ isFin b.max.y ∧ isFin b.max.z

/-- The components of a box as real numbers. -/
noncomputable def unlift (b : AABB EReal) : AABB ℝ :=
  ⟨⟨b.min.x.toReal, b.min.y.toReal, b.min.z.toReal⟩, ⟨b.max.x.toReal, b.max.y.toReal, b.max.z.toReal⟩⟩

open Classical in
/-- `Geometry::RecomputeWorldAABB` (geometry/private/Geometry.cxx:170-208) of the placement `p` for the local box `b`;
`big` is `numeric_limits<double>::max()`. -/
noncomputable def world (big : ℝ) (p : Placement) (b : AABB EReal) : AABB EReal :=
  if ¬ b.isValid then lift (AABB.empty big)
  else if ¬ AllFin b then b
  else lift ((corners (unlift b)).foldl (fun r c => r.expand (p.localToGlobalPosition c)) (AABB.empty big))

/-- A shape, as far as its bounding box is concerned. -/
inductive Shape
  | null
  | prim (placement : Placement) (box : AABB EReal)
  | bool (placement : Placement) (op : BoolOp) (left right : Shape)

/-- `left_ != nullptr`. -/
def Shape.present : Shape → Bool
  | .null => false
  | _ => true

open Classical in
/-- `BooleanGeometry::GetBoundingBox` (geometry/private/BooleanGeometry.cxx:265-299) on the operands' world boxes; `hasL`
and `hasR` say whether the operand exists. -/
noncomputable def boolBox (big : ℝ) (op : BoolOp) (hasL hasR : Bool) (l r : AABB EReal) : AABB EReal :=
  match op with
  | .union =>
    let result := lift (AABB.empty big)
    let result := if hasL then result.expandBox l else result
    if hasR then result.expandBox r else result
  | .intersection =>
    if !hasL || !hasR then lift (AABB.empty big)
    else
      let mn : Vec3 EReal := ⟨max l.min.x r.min.x, max l.min.y r.min.y, max l.min.z r.min.z⟩
      let mx : Vec3 EReal := ⟨min l.max.x r.max.x, min l.max.y r.max.y, min l.max.z r.max.z⟩
      if mn.x > mx.x ∨ mn.y > mx.y ∨ mn.z > mx.z then lift (AABB.empty big) else ⟨mn, mx⟩
  | .subtraction => if !hasL then lift (AABB.empty big) else l

/-- `GetWorldBoundingBox` of a shape (for a missing operand the default box, BooleanGeometry.cxx:256-257). -/
noncomputable def Shape.worldBox (big : ℝ) : Shape → AABB EReal
  | .null => lift (AABB.empty big)
  | .prim p b => world big p b
  | .bool p op l r => world big p (boolBox big op l.present r.present (l.worldBox big) (r.worldBox big))

/-! ### Specification -/

/-- A box without components infinite on one side only: bounded, or all of space. -/
def Simple (b : AABB EReal) : Prop :=
  AllFin b ∨ (b.min = ⟨⊥, ⊥, ⊥⟩ ∧ b.max = ⟨⊤, ⊤, ⊤⟩)

/-- `Solid g S`: the shape `g` is the set `S` of points. A primitive is any set inside its local bounding box; boolean shapes
are set operations. -/
inductive Solid : Shape → (Vec3 ℝ → Prop) → Prop
  | null : Solid .null (fun _ => False)
  | prim (p : Placement) (hp : p.Valid) (b : AABB EReal) (hb : Simple b) (S : Vec3 ℝ → Prop)
      (h : ∀ v, S v → In v b) : Solid (.prim p b) (fun x => S (p.globalToLocalPosition x))
  | bool (p : Placement) (hp : p.Valid) (op : BoolOp) (l r : Shape) (SL SR : Vec3 ℝ → Prop) (hl : Solid l SL)
      (hr : Solid r SR) :
      Solid (.bool p op l r) (fun x => setOp op (SL (p.globalToLocalPosition x)) (SR (p.globalToLocalPosition x)))

/-! ### Proofs -/

theorem isFin_coe (x : ℝ) : isFin (x : EReal) := ⟨EReal.coe_ne_top x, EReal.coe_ne_bot x⟩

theorem allFin_lift (b : AABB ℝ) : AllFin (lift b) :=
  ⟨isFin_coe _, isFin_coe _, isFin_coe _, isFin_coe _, isFin_coe _, isFin_coe _⟩

theorem lift_unlift {b : AABB EReal} (h : AllFin b) : lift (unlift b) = b := by
  obtain ⟨⟨x0, y0, z0⟩, ⟨x1, y1, z1⟩⟩ := b
  obtain ⟨h1, h2, h3, h4, h5, h6⟩ := h
  simp only [lift, unlift]
  simp only at h1 h2 h3 h4 h5 h6
  rw [EReal.coe_toReal h1.1 h1.2, EReal.coe_toReal h2.1 h2.2, EReal.coe_toReal h3.1 h3.2, EReal.coe_toReal h4.1 h4.2,
    EReal.coe_toReal h5.1 h5.2, EReal.coe_toReal h6.1 h6.2]

theorem in_lift (v : Vec3 ℝ) (b : AABB ℝ) : In v (lift b) ↔ AABB.Mem v b := by
  simp only [In, lift, AABB.Mem, EReal.coe_le_coe_iff]

theorem valid_of_in {v : Vec3 ℝ} {b : AABB EReal} (h : In v b) : b.isValid = true := by
  simp only [AABB.isValid, decide_eq_true_eq]
  exact ⟨le_trans h.1.1 h.1.2, le_trans h.2.1.1 h.2.1.2, le_trans h.2.2.1 h.2.2.2⟩

theorem unlift_valid {b : AABB EReal} (hf : AllFin b) (h : b.isValid = true) : (unlift b).isValid = true := by
  rw [← lift_unlift hf] at h
  simpa [AABB.isValid, lift, EReal.coe_le_coe_iff] using h

theorem in_world (big : ℝ) (p : Placement) (hp : p.Valid) (b : AABB EReal) (hs : Simple b) (v : Vec3 ℝ) (hv : In v b) :
    In (p.localToGlobalPosition v) (world big p b) := by
  have hval := valid_of_in hv
  unfold world
  rw [if_neg (by simp [hval])]
  by_cases hf : AllFin b
  · rw [if_neg (by simp [hf])]
    rw [in_lift]
    have hu := unlift_valid hf hval
    have hv' : AABB.Mem v (unlift b) := by rw [← in_lift, lift_unlift hf]; exact hv
    apply C38_world_box_contains big p hp (unlift b) _ _ v hv'
    simp [worldBox, hu]
  · rw [if_pos hf]
    rcases hs with h | ⟨h1, h2⟩
    · exact absurd h hf
    · simp only [In, AABB.Mem, h1, h2]
      simp

theorem simple_lift (b : AABB ℝ) : Simple (lift b) := Or.inl (allFin_lift b)

theorem simple_world (big : ℝ) (p : Placement) (b : AABB EReal) (hs : Simple b) : Simple (world big p b) := by
  unfold world
  split
  · exact simple_lift _
  · split
    · exact hs
    · exact simple_lift _

theorem isFin_max {a b : EReal} (ha : isFin a) (hb : isFin b) : isFin (max a b) := by
  rcases max_choice a b with h | h <;> rw [h] <;> assumption

theorem isFin_min {a b : EReal} (ha : isFin a) (hb : isFin b) : isFin (min a b) := by
  rcases min_choice a b with h | h <;> rw [h] <;> assumption

theorem simple_expandBox {a b : AABB EReal} (ha : Simple a) (hb : Simple b) : Simple (a.expandBox b) := by
  obtain ⟨⟨a1, a2, a3⟩, ⟨a4, a5, a6⟩⟩ := a
  obtain ⟨⟨b1, b2, b3⟩, ⟨b4, b5, b6⟩⟩ := b
  rcases ha with ⟨h1, h2, h3, h4, h5, h6⟩ | ⟨e1, e2⟩
  · rcases hb with ⟨g1, g2, g3, g4, g5, g6⟩ | ⟨f1, f2⟩
    · left
      simp only at h1 h2 h3 h4 h5 h6 g1 g2 g3 g4 g5 g6
      simp only [AABB.expandBox, AABB.expand]
      exact ⟨isFin_min (isFin_min h1 g1) g4, isFin_min (isFin_min h2 g2) g5, isFin_min (isFin_min h3 g3) g6,
        isFin_max (isFin_max h4 g1) g4, isFin_max (isFin_max h5 g2) g5, isFin_max (isFin_max h6 g3) g6⟩
    · right
      simp only [Vec3.mk.injEq] at f1 f2
      obtain ⟨rfl, rfl, rfl⟩ := f1
      obtain ⟨rfl, rfl, rfl⟩ := f2
      simp [AABB.expandBox, AABB.expand]
  · right
    simp only [Vec3.mk.injEq] at e1 e2
    obtain ⟨rfl, rfl, rfl⟩ := e1
    obtain ⟨rfl, rfl, rfl⟩ := e2
    simp [AABB.expandBox, AABB.expand]

theorem simple_boolBox (big : ℝ) (op : BoolOp) (hl hr : Bool) {l r : AABB EReal} (sl : Simple l) (sr : Simple r) :
    Simple (boolBox big op hl hr l r) := by
  cases op with
  | union =>
    simp only [boolBox]
    cases hl <;> cases hr <;> simp only [if_true, if_false, Bool.false_eq_true]
    · exact simple_lift _
    · exact simple_expandBox (simple_lift _) sr
    · exact simple_expandBox (simple_lift _) sl
    · exact simple_expandBox (simple_expandBox (simple_lift _) sl) sr
  | intersection =>
    simp only [boolBox]
    split
    · exact simple_lift _
    · split
      · exact simple_lift _
      · rcases sl with ⟨h1, h2, h3, h4, h5, h6⟩ | ⟨e1, e2⟩
        · rcases sr with ⟨g1, g2, g3, g4, g5, g6⟩ | ⟨f1, f2⟩
          · exact Or.inl ⟨isFin_max h1 g1, isFin_max h2 g2, isFin_max h3 g3, isFin_min h4 g4, isFin_min h5 g5,
              isFin_min h6 g6⟩
          · left; simp [AllFin, f1, f2]; exact ⟨h1, h2, h3, h4, h5, h6⟩
        · rw [e1, e2]
          simpa [Simple, AllFin, Vec3.ext_iff] using sr
  | subtraction =>
    simp only [boolBox]
    split
    · exact simple_lift _
    · exact sl

theorem in_of_sub {v : Vec3 ℝ} {a b : AABB EReal} (h : AABB.Sub a b) (hv : In v a) : In v b := h.mem hv

theorem in_boolBox (big : ℝ) (op : BoolOp) (hl hr : Bool) (l r : AABB EReal) (v : Vec3 ℝ)
    (SL SR : Prop) (hL : SL → hl = true ∧ In v l) (hR : SR → hr = true ∧ In v r) (h : setOp op SL SR) :
    In v (boolBox big op hl hr l r) := by
  cases op with
  | union =>
    simp only [boolBox]
    rcases h with h | h
    · obtain ⟨e, h⟩ := hL h
      rw [e]
      simp only [if_true]
      have h1 : In v ((lift (AABB.empty big)).expandBox l) := in_of_sub (AABB.sub_expandBox_right _ _) h
      cases hr
      · exact h1
      · exact in_of_sub (AABB.sub_expandBox_left _ _) h1
    · obtain ⟨e, h⟩ := hR h
      rw [e]
      simp only [if_true]
      exact in_of_sub (AABB.sub_expandBox_right _ _) h
  | intersection =>
    obtain ⟨e1, h1⟩ := hL h.1
    obtain ⟨e2, h2⟩ := hR h.2
    have hin : In v ⟨⟨max l.min.x r.min.x, max l.min.y r.min.y, max l.min.z r.min.z⟩,
        ⟨min l.max.x r.max.x, min l.max.y r.max.y, min l.max.z r.max.z⟩⟩ :=
      ⟨⟨max_le h1.1.1 h2.1.1, le_min h1.1.2 h2.1.2⟩, ⟨max_le h1.2.1.1 h2.2.1.1, le_min h1.2.1.2 h2.2.1.2⟩,
        ⟨max_le h1.2.2.1 h2.2.2.1, le_min h1.2.2.2 h2.2.2.2⟩⟩
    simp only [boolBox, e1, e2, Bool.not_true, Bool.or_self, Bool.false_eq_true, if_false]
    rw [if_neg]
    · exact hin
    · have := valid_of_in hin
      simp only [AABB.isValid, decide_eq_true_eq] at this
      rintro (h | h | h)
      · exact absurd this.1 (not_le.2 h)
      · exact absurd this.2.1 (not_le.2 h)
      · exact absurd this.2.2 (not_le.2 h)
  | subtraction =>
    obtain ⟨e1, h1⟩ := hL h.1
    simp only [boolBox, e1, Bool.not_true, Bool.false_eq_true, if_false]
    exact h1

/-- C44: the world bounding box of every shape, boolean shapes of any nesting depth with placements at every level included,
contains all points of the shape. -/
theorem C44_boolean_box {big : ℝ} {g : Shape} {S : Vec3 ℝ → Prop} (h : Solid g S) (v : Vec3 ℝ) (hv : S v) :
    In v (g.worldBox big) := by
  have main : Simple (g.worldBox big) ∧ ∀ v, S v → g.present = true ∧ In v (g.worldBox big) := by
    clear hv v
    induction h with
    | null => exact ⟨simple_lift _, fun v hv => hv.elim⟩
    | prim p hp b hb S h =>
      refine ⟨simple_world big p b hb, fun v hv => ⟨rfl, ?_⟩⟩
      have := in_world big p hp b hb _ (h _ hv)
      rwa [(Placement.C41_inverse p hp v).1] at this
    | bool p hp op l r SL SR hl hr ihl ihr =>
      refine ⟨simple_world big p _ (simple_boolBox big op _ _ ihl.1 ihr.1), fun v hv => ⟨rfl, ?_⟩⟩
      have := in_world big p hp _ (simple_boolBox big op l.present r.present ihl.1 ihr.1) (p.globalToLocalPosition v)
        (in_boolBox big op _ _ _ _ _ _ _ (ihl.2 _) (ihr.2 _) hv)
      rwa [(Placement.C41_inverse p hp v).1] at this
  exact (main.2 v hv).2

/-- C44: the boxes are not larger than necessary either: the box of an intersection of overlapping shapes is inside both
operands' boxes, and the box of a difference is the box of the left operand. -/
theorem C44_tight (big : ℝ) (l r : AABB EReal) :
    (∀ v, In v l → In v r → ∀ w, In w (boolBox big .intersection true true l r) ↔ In w l ∧ In w r) ∧
    boolBox big .subtraction true true l r = l ∧
    (l.isValid = true → r.isValid = true → ∀ c : AABB EReal, AABB.Sub (lift (AABB.empty big)) c → AABB.Sub l c →
      AABB.Sub r c → AABB.Sub (boolBox big .union true true l r) c) := by
  refine ⟨?_, by simp [boolBox], ?_⟩
  · intro v hvl hvr w
    constructor
    · have hin : In v (boolBox big .intersection true true l r) :=
        in_boolBox big .intersection true true l r v (In v l) (In v r) (fun h => ⟨rfl, h⟩) (fun h => ⟨rfl, h⟩) ⟨hvl, hvr⟩
      intro hw
      simp only [boolBox, Bool.not_true, Bool.or_self, Bool.false_eq_true, if_false] at hw
      split at hw
      · next hb =>
        exfalso
        have h1 := hvl
        have h2 := hvr
        rcases hb with h | h | h
        · exact absurd (le_trans (max_le h1.1.1 h2.1.1) (le_min h1.1.2 h2.1.2)) (not_le.2 h)
        · exact absurd (le_trans (max_le h1.2.1.1 h2.2.1.1) (le_min h1.2.1.2 h2.2.1.2)) (not_le.2 h)
        · exact absurd (le_trans (max_le h1.2.2.1 h2.2.2.1) (le_min h1.2.2.2 h2.2.2.2)) (not_le.2 h)
      · obtain ⟨⟨a1, a2⟩, ⟨a3, a4⟩, ⟨a5, a6⟩⟩ := hw
        simp only [max_le_iff, le_min_iff] at a1 a2 a3 a4 a5 a6
        exact ⟨⟨⟨a1.1, a2.1⟩, ⟨a3.1, a4.1⟩, ⟨a5.1, a6.1⟩⟩, ⟨⟨a1.2, a2.2⟩, ⟨a3.2, a4.2⟩, ⟨a5.2, a6.2⟩⟩⟩
    · rintro ⟨h1, h2⟩
      exact in_boolBox big .intersection true true l r w (In w l) (In w r) (fun h => ⟨rfl, h⟩) (fun h => ⟨rfl, h⟩) ⟨h1, h2⟩
  · intro hl hr c h0 h1 h2
    simp only [boolBox, if_true]
    exact AABB.expandBox_least _ _ _ (AABB.expandBox_least _ _ _ h0 h1 hl) h2 hr

/-- A box that is infinite along one axis only is not rotated with its shape: the world box of a rotated slab does not
contain it. -/
theorem C44_half_infinite_fails (big : ℝ) : ∃ (p : Placement) (b : AABB EReal) (v : Vec3 ℝ), p.Valid ∧ In v b ∧
    ¬ In (p.localToGlobalPosition v) (world big p b) := by
  -- rotation by 180 degrees about the axis (1,1,0)/√2 swaps x and y
  let s := Real.sqrt (1 / 2)
  have hs : s * s = 1 / 2 := Real.mul_self_sqrt (by norm_num)
  let p : Placement := ⟨⟨0, 0, 0⟩, ⟨s, s, 0, 0⟩⟩
  have hp : p.Valid := by
    show Quat.IsUnit _
    simp only [Quat.IsUnit, Quat.normSq, p]; rw [hs]; norm_num
  let b : AABB EReal := ⟨⟨⊥, ((-1 : ℝ) : EReal), ((-1 : ℝ) : EReal)⟩, ⟨⊤, ((1 : ℝ) : EReal), ((1 : ℝ) : EReal)⟩⟩
  have hv : In ⟨5, 0, 0⟩ b := by
    simp only [In, AABB.Mem, b, EReal.coe_le_coe_iff, bot_le, le_top, true_and]
    norm_num
  refine ⟨p, b, ⟨5, 0, 0⟩, hp, hv, ?_⟩
  have hw : world big p b = b := by
    unfold world
    rw [if_neg (by simp [valid_of_in hv]), if_pos]
    intro h; exact h.1.2 rfl
  rw [hw]
  have hx : p.localToGlobalPosition ⟨5, 0, 0⟩ = ⟨0, 5, 0⟩ := by
    unfold Placement.localToGlobalPosition
    rw [Quat.rotate_unit (show p.quaternion.IsUnit from hp)]
    ext <;> simp [Quat.sandwich, p]
    nlinarith [hs]
  rw [hx]
  simp only [In, AABB.Mem, b, EReal.coe_le_coe_iff]
  norm_num

/-- A difference of an infinite box and a bounded one, intersected with a translated box: the resulting box contains a point
of the shape and is bounded. -/
example : ∃ (g : Shape) (S : Vec3 ℝ → Prop), Solid g S ∧ S ⟨3, 0, 0⟩ := by
  let all : AABB EReal := ⟨⟨⊥, ⊥, ⊥⟩, ⟨⊤, ⊤, ⊤⟩⟩
  let unit : AABB EReal := lift ⟨⟨-1, -1, -1⟩, ⟨1, 1, 1⟩⟩
  let o := Placement.translation ⟨0, 0, 0⟩
  let p := Placement.translation ⟨3, 0, 0⟩
  let cube : Vec3 ℝ → Prop := fun v => AABB.Mem v (⟨⟨-1, -1, -1⟩, ⟨1, 1, 1⟩⟩ : AABB ℝ)
  refine ⟨.bool o .intersection (.bool o .subtraction (.prim o all) (.prim o unit)) (.prim p unit), _,
    .bool o (Placement.translation_valid _) _ _ _ _ _
      (.bool o (Placement.translation_valid _) _ _ _ _ _
        (.prim o (Placement.translation_valid _) all (Or.inr ⟨rfl, rfl⟩) (fun _ => True)
          (fun v _ => by simp [In, AABB.Mem, all]))
        (.prim o (Placement.translation_valid _) unit (simple_lift _) cube (fun v hv => (in_lift _ _).2 hv)))
      (.prim p (Placement.translation_valid _) unit (simple_lift _) cube (fun v hv => (in_lift _ _).2 hv)), ?_⟩
  have ho : ∀ w : Vec3 ℝ, o.globalToLocalPosition w = w := by
    intro w; simp only [o]; rw [Placement.translation_back]; ext <;> simp
  simp only [setOp, ho, cube, p, Placement.translation_back, AABB.Mem]
  norm_num

end BoolBox
end Siren.Geometry
