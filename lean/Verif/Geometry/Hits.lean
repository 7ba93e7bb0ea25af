import Verif.Geometry.AABB

set_option autoImplicit false

/-!
# Boundary crossings of a shape along a line: model type and specification vocabulary
-/

namespace Siren.Geometry

open Siren

/-- `Geometry::Intersection` (geometry/public/SIREN/geometry/Geometry.h:80-97) without `matID`, which no shape sets. -/
structure Isect where
  distance : ℝ
  hierarchy : Int
  entering : Bool
  position : Vec3 ℝ

/-- `GEOMETRY_PRECISION` (geometry/public/SIREN/geometry/Geometry.h:79). -/
noncomputable def precision : ℝ := 1 / 1000000000

theorem precision_pos : 0 < precision := by unfold precision; norm_num

/-! ### Specification: what a list of crossings says about the line -/

/-- The line parameter `t` is inside according to the crossings, if it was `s` at minus infinity: the last crossing before
`t` enters the shape. -/
noncomputable def stateFrom (s : Bool) (hits : List Isect) (t : ℝ) : Bool :=
  (((hits.filter (fun h => decide (h.distance < t))).getLast?).map Isect.entering).getD s

/-- Crossings enter and leave in turn, starting in state `s` and ending outside. -/
def Alternates : Bool → List Isect → Prop
  | s, [] => s = false
  | s, h :: hits => h.entering = !s ∧ Alternates h.entering hits

/-- The crossings `hits` describe the set `S` of line parameters: they come in strictly increasing order, enter and leave in
turn, and away from the crossings by at least the tolerance, a parameter is in `S` exactly when the last crossing
before it enters. -/
structure Describes (eps : ℝ) (S : ℝ → Prop) (hits : List Isect) : Prop where
  strict : hits.Pairwise (fun a b => a.distance < b.distance)
  alternates : Alternates false hits
  exact : ∀ t, (∀ h ∈ hits, eps ≤ |h.distance - t|) → (S t ↔ stateFrom false hits t = true)

/-! ### Lemmas -/

@[simp] theorem stateFrom_nil (s : Bool) (t : ℝ) : stateFrom s [] t = s := by simp [stateFrom]

theorem stateFrom_cons_lt (s : Bool) (h : Isect) (hits : List Isect) (t : ℝ) (hlt : h.distance < t) :
    stateFrom s (h :: hits) t = stateFrom h.entering hits t := by
  simp only [stateFrom, List.filter_cons, hlt, decide_true, if_true]
  cases hf : hits.filter (fun h => decide (h.distance < t)) with
  | nil => simp
  | cons a as => simp [List.getLast?_cons]

theorem stateFrom_cons_ge (s : Bool) (h : Isect) (hits : List Isect) (t : ℝ) (hge : ¬ h.distance < t) :
    stateFrom s (h :: hits) t = stateFrom s hits t := by
  simp [stateFrom, hge]

theorem stateFrom_all_ge (s : Bool) (hits : List Isect) (t : ℝ) (h : ∀ x ∈ hits, t ≤ x.distance) :
    stateFrom s hits t = s := by
  induction hits with
  | nil => simp
  | cons a as ih =>
    rw [stateFrom_cons_ge _ _ _ _ (not_lt.2 (h a (by simp)))]
    exact ih (fun x hx => h x (by simp [hx]))

/-- Two crossings of one shape: `enter` then `exit`. -/
theorem describes_pair (eps : ℝ) (S : ℝ → Prop) (a b : Isect) (ha : a.entering = true) (hb : b.entering = false)
    (hlt : a.distance < b.distance)
    (h : ∀ t, eps ≤ |a.distance - t| → eps ≤ |b.distance - t| → (S t ↔ a.distance < t ∧ t ≤ b.distance)) :
    Describes eps S [a, b] := by
  refine ⟨by simpa using hlt, ⟨by simp [ha], by simp [ha, hb], hb⟩, ?_⟩
  intro t ht
  rw [h t (ht a (by simp)) (ht b (by simp))]
  by_cases h1 : a.distance < t
  · rw [stateFrom_cons_lt _ _ _ _ h1]
    by_cases h2 : b.distance < t
    · rw [stateFrom_cons_lt _ _ _ _ h2]; simp [hb, h1, h2]
    · rw [stateFrom_cons_ge _ _ _ _ h2]; simp [ha, h1, not_lt.1 h2]
  · rw [stateFrom_cons_ge _ _ _ _ h1, stateFrom_all_ge]
    · simp [h1]
    · intro x hx
      simp only [List.mem_singleton] at hx; subst hx
      exact le_trans (not_lt.1 h1) hlt.le

theorem describes_nil (eps : ℝ) (S : ℝ → Prop) (h : ∀ t, ¬ S t) : Describes eps S [] :=
  ⟨by simp, rfl, fun t _ => by simp [h t]⟩

end Siren.Geometry
