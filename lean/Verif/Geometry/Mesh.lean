import Verif.Geometry.Hits

set_option autoImplicit false
set_option linter.unusedSectionVars false
set_option linter.unusedSimpArgs false

/-!
# Lines and triangles

The intersection of a line with one triangle of a mesh (`geometry/private/GeometryMesh.cxx`).
-/

namespace Siren.Geometry
namespace Mesh

open Siren

/-! ### Model -/

/-- A coordinate by its index: the arrays `org`, `dir`, `A`, `B`, `C` (GeometryMesh.cxx:34-35, 86-88). -/
def comp (v : Vec3 ℝ) (i : Fin 3) : ℝ := match i with
  | 0 => v.x
  | 1 => v.y
  | 2 => v.z

/-- `WoopRay` (GeometryMesh.cxx:33-38). -/
structure WoopRay where
  org : Vec3 ℝ
  dir : Vec3 ℝ
  kx : Fin 3
  ky : Fin 3
  kz : Fin 3
  Sx : ℝ
  Sy : ℝ
  Sz : ℝ

open Classical in
/-- The axis `kz` (GeometryMesh.cxx:45-51). -/
noncomputable def axisOf (d : Vec3 ℝ) : Fin 3 :=
  let k : Fin 3 := if |d.y| > |d.x| then 1 else 0
  if |d.z| > (if k = 0 then |d.x| else |d.y|) then 2 else k

open Classical in
/-- `PrepareRay` (GeometryMesh.cxx:40-63). -/
noncomputable def prepareRay (o d : Vec3 ℝ) : WoopRay :=
  let kz := axisOf d
  let kx := if comp d kz < 0 then kz + 2 else kz + 1
  let ky := if comp d kz < 0 then kz + 1 else kz + 2
  ⟨o, d, kx, ky, kz, comp d kx / comp d kz, comp d ky / comp d kz, 1 / comp d kz⟩

/-- A triangle (GeometryMesh.h: `Triangle`). -/
structure Tri where
  a : Vec3 ℝ
  b : Vec3 ℝ
  c : Vec3 ℝ

/-- `TriHit`, if `hit` (GeometryMesh.cxx:65-69). -/
structure TriHit where
  t : ℝ
  front : Bool

/-- The coordinates across the line, `Ax` and `Ay` (GeometryMesh.cxx:86-95). -/
noncomputable def WoopRay.px (r : WoopRay) (v : Vec3 ℝ) : ℝ := comp (v - r.org) r.kx - r.Sx * comp (v - r.org) r.kz
noncomputable def WoopRay.py (r : WoopRay) (v : Vec3 ℝ) : ℝ := comp (v - r.org) r.ky - r.Sy * comp (v - r.org) r.kz

/-- `Az` (GeometryMesh.cxx:108-110). -/
noncomputable def WoopRay.pz (r : WoopRay) (v : Vec3 ℝ) : ℝ := r.Sz * comp (v - r.org) r.kz

open Classical in
/-- `WoopIntersect` (GeometryMesh.cxx:79-117). -/
noncomputable def woop (r : WoopRay) (T : Tri) : Option TriHit :=
  let U := r.px T.c * r.py T.b - r.py T.c * r.px T.b
  let V := r.px T.a * r.py T.c - r.py T.a * r.px T.c
  let W := r.px T.b * r.py T.a - r.py T.b * r.px T.a
  if (U < 0 ∨ V < 0 ∨ W < 0) ∧ (U > 0 ∨ V > 0 ∨ W > 0) then none
  else
    let det := U + V + W
    if det = 0 then none
    else some ⟨(U * r.pz T.a + V * r.pz T.b + W * r.pz T.c) / det, det > 0⟩

/-! ### Specification -/

/-- The normal of a triangle, by the right-hand rule. -/
def Tri.normal (T : Tri) : Vec3 ℝ := Vec3.cross (T.b - T.a) (T.c - T.a)

/-- A point of a triangle, its edges included. -/
def Tri.Has (T : Tri) (q : Vec3 ℝ) : Prop :=
  ∃ u v w : ℝ, 0 ≤ u ∧ 0 ≤ v ∧ 0 ≤ w ∧ u + v + w = 1 ∧ q = Vec3.smul u T.a + Vec3.smul v T.b + Vec3.smul w T.c

/-- The point of a line. -/
def at_ (o d : Vec3 ℝ) (t : ℝ) : Vec3 ℝ := o + Vec3.smul t d

/-! ### Lemmas -/

/-- The volume spanned by the line and two points. -/
def trip (d a b : Vec3 ℝ) : ℝ := Vec3.dot d (Vec3.cross a b)

theorem axis_ne {d : Vec3 ℝ} (hd : d ≠ 0) : comp d (axisOf d) ≠ 0 := by
  classical
  intro h
  apply hd
  unfold axisOf at h
  simp only at h
  by_cases h1 : |d.y| > |d.x|
  · rw [if_pos h1] at h
    simp only [one_ne_zero, if_false] at h
    by_cases h2 : |d.z| > |d.y|
    · rw [if_pos h2] at h
      have h : d.z = 0 := h
      rw [h, abs_zero] at h2
      exact absurd h2 (not_lt.mpr (abs_nonneg _))
    · rw [if_neg h2] at h
      have h : d.y = 0 := h
      rw [h, abs_zero] at h1
      exact absurd h1 (not_lt.mpr (abs_nonneg _))
  · rw [if_neg h1] at h
    simp only [if_true] at h
    by_cases h2 : |d.z| > |d.x|
    · rw [if_pos h2] at h
      have h : d.z = 0 := h
      rw [h, abs_zero] at h2
      exact absurd h2 (not_lt.mpr (abs_nonneg _))
    · rw [if_neg h2] at h
      have h : d.x = 0 := h
      rw [h, abs_zero] at h1 h2
      have hy : d.y = 0 := abs_nonpos_iff.mp (not_lt.mp h1)
      have hz : d.z = 0 := abs_nonpos_iff.mp (not_lt.mp h2)
      ext
      · exact h
      · exact hy
      · exact hz

/-- The area spanned across the line. -/
theorem area_eq {d : Vec3 ℝ} (hd : d ≠ 0) (o a b : Vec3 ℝ) :
    (prepareRay o d).px a * (prepareRay o d).py b - (prepareRay o d).py a * (prepareRay o d).px b =
      trip d (a - o) (b - o) / |comp d (axisOf d)| := by
  classical
  have hk := axis_ne hd
  unfold WoopRay.px WoopRay.py prepareRay trip
  simp only
  generalize axisOf d = k at *
  rcases lt_or_gt_of_ne hk with h | h
  · rw [if_pos h, if_pos h, abs_of_neg h]
    fin_cases k <;> simp only [comp, Vec3.dot, Vec3.cross, Fin.isValue, Fin.mk_one, Fin.reduceAdd, Fin.reduceFinMk, Fin.zero_eta, zero_add, Vec3.sub_x, Vec3.sub_y, Vec3.sub_z] at hk ⊢ <;> field_simp <;> ring
  · rw [if_neg h.not_gt, if_neg h.not_gt, abs_of_pos h]
    fin_cases k <;> simp only [comp, Vec3.dot, Vec3.cross, Fin.isValue, Fin.mk_one, Fin.reduceAdd, Fin.reduceFinMk, Fin.zero_eta, zero_add, Vec3.sub_x, Vec3.sub_y, Vec3.sub_z] at hk ⊢ <;> field_simp <;> ring

/-- A point is on the line exactly if both coordinates across it are zero. -/
theorem on_line {d : Vec3 ℝ} (hd : d ≠ 0) (o q : Vec3 ℝ) :
    (prepareRay o d).px q = 0 ∧ (prepareRay o d).py q = 0 ↔ q = at_ o d ((prepareRay o d).pz q) := by
  classical
  have hk := axis_ne hd
  unfold WoopRay.px WoopRay.py WoopRay.pz prepareRay at_
  simp only
  generalize axisOf d = k at *
  rw [Vec3.ext_iff]
  by_cases h : comp d k < 0
  · rw [if_pos h, if_pos h]
    fin_cases k <;> simp only [comp, Fin.isValue, Fin.mk_one, Fin.reduceAdd, Fin.reduceFinMk, Fin.zero_eta, zero_add, Vec3.sub_x, Vec3.sub_y, Vec3.sub_z, Vec3.add_x, Vec3.add_y, Vec3.add_z, Vec3.smul_x, Vec3.smul_y, Vec3.smul_z] at hk ⊢ <;>
      field_simp <;> constructor <;> intro h <;> refine ⟨?_, ?_⟩ <;> try (first | refine ⟨?_, ?_⟩ | skip) <;> linarith [h.1, h.2]
  · rw [if_neg h, if_neg h]
    fin_cases k <;> simp only [comp, Fin.isValue, Fin.mk_one, Fin.reduceAdd, Fin.reduceFinMk, Fin.zero_eta, zero_add, Vec3.sub_x, Vec3.sub_y, Vec3.sub_z, Vec3.add_x, Vec3.add_y, Vec3.add_z, Vec3.smul_x, Vec3.smul_y, Vec3.smul_z] at hk ⊢ <;>
      field_simp <;> constructor <;> intro h <;> refine ⟨?_, ?_⟩ <;> try (first | refine ⟨?_, ?_⟩ | skip) <;> linarith [h.1, h.2]

/-- Coordinates of a point of a triangle. -/
theorem comp_comb (o a b c : Vec3 ℝ) {u v w : ℝ} (h : u + v + w = 1) (k : Fin 3) :
    comp (Vec3.smul u a + Vec3.smul v b + Vec3.smul w c - o) k = u * comp (a - o) k + v * comp (b - o) k + w * comp (c - o) k := by
  have hw : w = 1 - u - v := by linarith
  subst hw
  fin_cases k <;> simp only [comp, Fin.isValue, Fin.mk_one, Fin.reduceFinMk, Fin.zero_eta, Vec3.sub_x, Vec3.sub_y, Vec3.sub_z, Vec3.add_x, Vec3.add_y, Vec3.add_z, Vec3.smul_x, Vec3.smul_y, Vec3.smul_z] <;> ring

theorem px_comb (r : WoopRay) (a b c : Vec3 ℝ) {u v w : ℝ} (h : u + v + w = 1) :
    r.px (Vec3.smul u a + Vec3.smul v b + Vec3.smul w c) = u * r.px a + v * r.px b + w * r.px c := by
  unfold WoopRay.px; rw [comp_comb _ _ _ _ h, comp_comb _ _ _ _ h]; ring

theorem py_comb (r : WoopRay) (a b c : Vec3 ℝ) {u v w : ℝ} (h : u + v + w = 1) :
    r.py (Vec3.smul u a + Vec3.smul v b + Vec3.smul w c) = u * r.py a + v * r.py b + w * r.py c := by
  unfold WoopRay.py; rw [comp_comb _ _ _ _ h, comp_comb _ _ _ _ h]; ring

theorem pz_comb (r : WoopRay) (a b c : Vec3 ℝ) {u v w : ℝ} (h : u + v + w = 1) :
    r.pz (Vec3.smul u a + Vec3.smul v b + Vec3.smul w c) = u * r.pz a + v * r.pz b + w * r.pz c := by
  unfold WoopRay.pz; rw [comp_comb _ _ _ _ h]; ring

/-- The coordinate along the line. -/
theorem pz_at {d : Vec3 ℝ} (hd : d ≠ 0) (o : Vec3 ℝ) (t : ℝ) : (prepareRay o d).pz (at_ o d t) = t := by
  classical
  have hk := axis_ne hd
  unfold WoopRay.pz prepareRay at_
  simp only
  generalize axisOf d = k at *
  fin_cases k <;> simp only [comp, Fin.isValue, Fin.mk_one, Fin.reduceFinMk, Fin.zero_eta, Vec3.sub_x, Vec3.sub_y, Vec3.sub_z, Vec3.add_x, Vec3.add_y, Vec3.add_z, Vec3.smul_x, Vec3.smul_y, Vec3.smul_z] at hk ⊢ <;> field_simp <;> ring

/-- `U`, `V`, `W`. -/
noncomputable def WoopRay.U (r : WoopRay) (T : Tri) : ℝ := r.px T.c * r.py T.b - r.py T.c * r.px T.b
noncomputable def WoopRay.V (r : WoopRay) (T : Tri) : ℝ := r.px T.a * r.py T.c - r.py T.a * r.px T.c
noncomputable def WoopRay.W (r : WoopRay) (T : Tri) : ℝ := r.px T.b * r.py T.a - r.py T.b * r.px T.a

theorem det_eq {d : Vec3 ℝ} (hd : d ≠ 0) (o : Vec3 ℝ) (T : Tri) :
    (prepareRay o d).U T + (prepareRay o d).V T + (prepareRay o d).W T = -(Vec3.dot T.normal d) / |comp d (axisOf d)| := by
  unfold WoopRay.U WoopRay.V WoopRay.W
  rw [area_eq hd, area_eq hd, area_eq hd, ← add_div, ← add_div]
  congr 1
  simp only [trip, Tri.normal, Vec3.dot, Vec3.cross, Vec3.sub_x, Vec3.sub_y, Vec3.sub_z]
  ring

theorem woop_eq (r : WoopRay) (T : Tri) {h : TriHit} (hw : woop r T = some h) :
    ((0 ≤ r.U T ∧ 0 ≤ r.V T ∧ 0 ≤ r.W T) ∨ (r.U T ≤ 0 ∧ r.V T ≤ 0 ∧ r.W T ≤ 0)) ∧ r.U T + r.V T + r.W T ≠ 0 ∧
      h.t = (r.U T * r.pz T.a + r.V T * r.pz T.b + r.W T * r.pz T.c) / (r.U T + r.V T + r.W T) ∧
      (h.front = true ↔ 0 < r.U T + r.V T + r.W T) := by
  classical
  have hw' : (if (r.U T < 0 ∨ r.V T < 0 ∨ r.W T < 0) ∧ (r.U T > 0 ∨ r.V T > 0 ∨ r.W T > 0) then none
    else if r.U T + r.V T + r.W T = 0 then none
    else some (⟨(r.U T * r.pz T.a + r.V T * r.pz T.b + r.W T * r.pz T.c) / (r.U T + r.V T + r.W T),
      decide (r.U T + r.V T + r.W T > 0)⟩ : TriHit)) = some h := by rw [← hw]; unfold woop; rfl
  split at hw'
  · cases hw'
  next h1 =>
    split at hw'
    · cases hw'
    next h2 =>
      obtain rfl := Option.some.inj hw'
      refine ⟨?_, h2, rfl, by simp⟩
      by_cases h3 : r.U T < 0 ∨ r.V T < 0 ∨ r.W T < 0
      · right
        have h4 : ¬ (r.U T > 0 ∨ r.V T > 0 ∨ r.W T > 0) := fun h4 => h1 ⟨h3, h4⟩
        push Not at h4
        exact h4
      · left
        push Not at h3
        exact h3

theorem woop_some (r : WoopRay) (T : Tri) (h1 : (0 ≤ r.U T ∧ 0 ≤ r.V T ∧ 0 ≤ r.W T) ∨ (r.U T ≤ 0 ∧ r.V T ≤ 0 ∧ r.W T ≤ 0))
    (h2 : r.U T + r.V T + r.W T ≠ 0) : ∃ h, woop r T = some h := by
  classical
  have h3 : ¬ ((r.U T < 0 ∨ r.V T < 0 ∨ r.W T < 0) ∧ (r.U T > 0 ∨ r.V T > 0 ∨ r.W T > 0)) := by
    rcases h1 with ⟨a, b, c⟩ | ⟨a, b, c⟩
    · rintro ⟨h | h | h, -⟩ <;> linarith
    · rintro ⟨-, h | h | h⟩ <;> linarith
  have hw' : woop r T = (if (r.U T < 0 ∨ r.V T < 0 ∨ r.W T < 0) ∧ (r.U T > 0 ∨ r.V T > 0 ∨ r.W T > 0) then none
    else if r.U T + r.V T + r.W T = 0 then none
    else some (⟨(r.U T * r.pz T.a + r.V T * r.pz T.b + r.W T * r.pz T.c) / (r.U T + r.V T + r.W T),
      decide (r.U T + r.V T + r.W T > 0)⟩ : TriHit)) := by unfold woop; rfl
  rw [hw', if_neg h3, if_neg h2]
  exact ⟨_, rfl⟩

/-! ### The claim for one triangle -/

/-- C131, one triangle: a line is reported to hit a triangle at `t` exactly if it is not parallel to its plane and its point at `t`
is a point of the triangle; the hit enters exactly if the line runs against the normal. -/
theorem C131_triangle (o : Vec3 ℝ) {d : Vec3 ℝ} (hd : d ≠ 0) (T : Tri) (t : ℝ) (f : Bool) :
    woop (prepareRay o d) T = some ⟨t, f⟩ ↔
      Vec3.dot T.normal d ≠ 0 ∧ T.Has (at_ o d t) ∧ (f = true ↔ Vec3.dot T.normal d < 0) := by
  have hk : 0 < |comp d (axisOf d)| := abs_pos.mpr (axis_ne hd)
  have hdet := det_eq hd o T
  set r := prepareRay o d with hr
  have dne : r.U T + r.V T + r.W T ≠ 0 ↔ Vec3.dot T.normal d ≠ 0 := by
    rw [hdet, ne_eq, div_eq_zero_iff, neg_eq_zero]
    constructor
    · intro h hc; exact h (Or.inl hc)
    · rintro h (hc | hc)
      · exact h hc
      · exact hk.ne' hc
  have dpos : 0 < r.U T + r.V T + r.W T ↔ Vec3.dot T.normal d < 0 := by
    rw [hdet, div_pos_iff_of_pos_right hk, neg_pos]
  constructor
  · intro h
    obtain ⟨h1, h2, h3, h4⟩ := woop_eq r T h
    refine ⟨dne.mp h2, ?_, h4.trans dpos⟩
    set D := r.U T + r.V T + r.W T with hD
    have hs : r.U T / D + r.V T / D + r.W T / D = 1 := by rw [← add_div, ← add_div, ← hD, div_self h2]
    have hpos : 0 ≤ r.U T / D ∧ 0 ≤ r.V T / D ∧ 0 ≤ r.W T / D := by
      rcases h1 with ⟨a, b, c⟩ | ⟨a, b, c⟩
      · have : 0 ≤ D := by linarith
        exact ⟨div_nonneg a this, div_nonneg b this, div_nonneg c this⟩
      · have : D ≤ 0 := by linarith
        exact ⟨div_nonneg_of_nonpos a this, div_nonneg_of_nonpos b this, div_nonneg_of_nonpos c this⟩
    refine ⟨_, _, _, hpos.1, hpos.2.1, hpos.2.2, hs, ?_⟩
    have hq := (on_line hd o (Vec3.smul (r.U T / D) T.a + Vec3.smul (r.V T / D) T.b + Vec3.smul (r.W T / D) T.c)).mp ⟨by
        rw [px_comb _ _ _ _ hs]
        have : r.U T * r.px T.a + r.V T * r.px T.b + r.W T * r.px T.c = 0 := by unfold WoopRay.U WoopRay.V WoopRay.W; ring
        rw [← hr]; field_simp; rw [mul_zero]; exact this, by
        rw [py_comb _ _ _ _ hs]
        have : r.U T * r.py T.a + r.V T * r.py T.b + r.W T * r.py T.c = 0 := by unfold WoopRay.U WoopRay.V WoopRay.W; ring
        rw [← hr]; field_simp; rw [mul_zero]; exact this⟩
    rw [hq]
    congr 1
    rw [pz_comb _ _ _ _ hs]
    have h3 : t = (r.U T * r.pz T.a + r.V T * r.pz T.b + r.W T * r.pz T.c) / D := h3
    rw [h3, ← hr]
    field_simp
  · rintro ⟨h1, ⟨u, v, w, hu, hv, hw, hs, hq⟩, hf⟩
    have hz := pz_at hd o t
    have hxy := (on_line hd o (at_ o d t)).mpr (by rw [hz])
    rw [← hr] at hz hxy
    rw [hq, px_comb _ _ _ _ hs, py_comb _ _ _ _ hs] at hxy
    rw [hq, pz_comb _ _ _ _ hs] at hz
    obtain ⟨hx, hy⟩ := hxy
    have h2 := dne.mpr h1
    have eU : r.U T = u * (r.U T + r.V T + r.W T) := by
      unfold WoopRay.U WoopRay.V WoopRay.W
      have : w = 1 - u - v := by linarith
      subst this
      generalize r.px T.a = ax at *; generalize r.px T.b = bx at *; generalize r.px T.c = cx at *
      generalize r.py T.a = ay at *; generalize r.py T.b = b_y at *; generalize r.py T.c = cy at *
      linear_combination (b_y - cy) * hx + (cx - bx) * hy
    have eV : r.V T = v * (r.U T + r.V T + r.W T) := by
      unfold WoopRay.U WoopRay.V WoopRay.W
      have : w = 1 - u - v := by linarith
      subst this
      generalize r.px T.a = ax at *; generalize r.px T.b = bx at *; generalize r.px T.c = cx at *
      generalize r.py T.a = ay at *; generalize r.py T.b = b_y at *; generalize r.py T.c = cy at *
      linear_combination (cy - ay) * hx + (ax - cx) * hy
    have eW : r.W T = w * (r.U T + r.V T + r.W T) := by
      have : w = 1 - u - v := by linarith
      subst this
      linear_combination -eU - eV
    set D := r.U T + r.V T + r.W T with hD
    have h3 : (0 ≤ r.U T ∧ 0 ≤ r.V T ∧ 0 ≤ r.W T) ∨ (r.U T ≤ 0 ∧ r.V T ≤ 0 ∧ r.W T ≤ 0) := by
      rcases le_total 0 D with hp | hp
      · left; rw [eU, eV, eW]; exact ⟨by positivity, by positivity, by positivity⟩
      · right; rw [eU, eV, eW]
        exact ⟨mul_nonpos_of_nonneg_of_nonpos hu hp, mul_nonpos_of_nonneg_of_nonpos hv hp, mul_nonpos_of_nonneg_of_nonpos hw hp⟩
    obtain ⟨⟨t', f'⟩, hh⟩ := woop_some r T h3 h2
    obtain ⟨-, -, h5, h6⟩ := woop_eq r T hh
    rw [hh]
    have ht : t' = t := by
      have h5 : t' = (r.U T * r.pz T.a + r.V T * r.pz T.b + r.W T * r.pz T.c) / D := h5
      rw [h5, div_eq_iff h2, ← hz]
      linear_combination r.pz T.a * eU + r.pz T.b * eV + r.pz T.c * eW
    have hff : f' = f := by
      have h6 : f' = true ↔ 0 < D := h6
      exact Bool.eq_iff_iff.mpr (h6.trans (dpos.trans hf.symm))
    rw [ht, hff]

end Mesh
end Siren.Geometry
