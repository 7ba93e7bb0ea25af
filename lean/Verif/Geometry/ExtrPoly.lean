import Verif.Geometry.Merge
import Verif.Geometry.Polygon

set_option autoImplicit false

/-!
# Extruded polygons

Model of `ExtrPoly` (geometry/private/ExtrPoly.cxx, geometry/public/SIREN/geometry/ExtrPoly.h) and proof of C111.
-/

namespace Siren.Geometry.ExtrPoly

open Siren Siren.Geometry.Polygon

/-! ### Model -/

/-- `ExtrPoly::ZSection` (ExtrPoly.h:30-66). -/
structure Section where
  zpos : ℝ
  scale : ℝ
  ox : ℝ
  oy : ℝ

/-- `ExtrPoly::plane` (ExtrPoly.h:68-81); `c` is always 0 and never read. -/
structure Plane where
  a : ℝ
  b : ℝ
  d : ℝ

/-- The data members of `ExtrPoly` (ExtrPoly.h:133-136). A vertex is a `std::vector<double>` in the code; a vertex with fewer
than two coordinates is read out of bounds by `ComputeLateralPlanes` and is not represented. -/
structure Extr where
  polygon : List Pt
  sections : List Section
  planes : List Plane

/-- One pass of the second loop of `ComputeLateralPlanes` (ExtrPoly.cxx:67-77). -/
noncomputable def planeOf (sign : ℝ) (e : Pt × Pt) : Plane :=
  let ex := e.2.1 - e.1.1
  let ey := e.2.2 - e.1.2
  let norm := Real.sqrt (ex * ex + ey * ey)
  let norm := if norm < 1 / 1000000000000000 then 1 / 1000000000000000 else norm
  let inv := sign / norm
  ⟨-ey * inv, ex * inv, (ey * e.2.1 - ex * e.2.2) * inv⟩

/-- `ComputeLateralPlanes` (ExtrPoly.cxx:47-78). -/
noncomputable def lateralPlanes (P : List Pt) : List Plane :=
  if P.length < 3 then []
  else
    let sign : ℝ := if signedArea P < 0 then 1 else -1
    (edges P).map (planeOf sign)

/-- The constructors with a polygon (ExtrPoly.cxx:22-27, 29-34); `none` is `std::invalid_argument`. -/
noncomputable def make (P : List Pt) (Z : List Section) : Option Extr :=
  if P.length < 3 then none else some ⟨P, Z, lateralPlanes P⟩

/-- The constructors without a polygon (ExtrPoly.cxx:21, 28). -/
def makeEmpty : Extr := ⟨[], [], []⟩

/-- `SetPolygon` (ExtrPoly.h:117-124). -/
noncomputable def setPolygon (e : Extr) (P : List Pt) : Extr := ⟨P, e.sections, lateralPlanes P⟩

/-- `SetZSections` (ExtrPoly.h:125). -/
def setZSections (e : Extr) (Z : List Section) : Extr := ⟨e.polygon, Z, e.planes⟩

/-- The copy constructor (ExtrPoly.cxx:35). -/
noncomputable def copy (e : Extr) : Extr := ⟨e.polygon, e.sections, lateralPlanes e.polygon⟩

/-- Sections `k` and `k + 1`, for every `k` (ExtrPoly.cxx:128-133). -/
def adjacent : List Section → List (Section × Section)
  | s :: s' :: r => (s, s') :: adjacent (s' :: r)
  | _ => []

/-- `dist` of one plane in one section (ExtrPoly.cxx:153-169, 182). -/
noncomputable def dist (s s' : Section) (pl : Plane) (p : Vec3 ℝ) : ℝ :=
  let inv := 1 / (s'.zpos - s.zpos)
  let frac := (p.z - s.zpos) * inv
  let s0 := s.scale + (s'.scale - s.scale) * frac
  let ox0 := s.ox + (s'.ox - s.ox) * frac
  let oy0 := s.oy + (s'.oy - s.oy) * frac
  pl.a * (p.x - ox0) + pl.b * (p.y - oy0) + pl.d * s0

/-- `cosa` of one plane in one section (ExtrPoly.cxx:153-169, 181). -/
noncomputable def cosa (s s' : Section) (pl : Plane) (d : Vec3 ℝ) : ℝ :=
  let inv := 1 / (s'.zpos - s.zpos)
  let s1 := (s'.scale - s.scale) * inv * d.z
  let ox1 := (s'.ox - s.ox) * inv * d.z
  let oy1 := (s'.oy - s.oy) * inv * d.z
  pl.a * (d.x - ox1) + pl.b * (d.y - oy1) + pl.d * s1

/-- The loop over the planes (ExtrPoly.cxx:171-200); `none` for `t_enter` and `t_exit` is minus and plus infinity, the result
`none` is `missed`. -/
noncomputable def clip (s s' : Section) (p d : Vec3 ℝ) : List Plane → Option ℝ → Option ℝ → Option (Option ℝ × Option ℝ)
  | [], te, tx => some (te, tx)
  | pl :: r, te, tx =>
    if precision < |cosa s s' pl d| then
      let t := -dist s s' pl p / cosa s s' pl d
      if cosa s s' pl d < 0 then clip s s' p d r (AABB.fmaxO te t) tx else clip s s' p d r te (AABB.fminO tx t)
    else if dist s s' pl p ≥ 0 then none
    else clip s s' p d r te tx

/-- `t_enter` and `t_exit` of one section (ExtrPoly.cxx:129-200); `none`: the section is skipped. -/
noncomputable def range (planes : List Plane) (p d : Vec3 ℝ) (s s' : Section) : Option (Option ℝ × Option ℝ) :=
  if s'.zpos - s.zpos ≤ 0 then none
  else if precision < |d.z| then
    let t0 := (s.zpos - p.z) / d.z
    let t1 := (s'.zpos - p.z) / d.z
    let (t0, t1) := if t0 > t1 then (t1, t0) else (t0, t1)
    clip s s' p d planes (AABB.fmaxO none t0) (AABB.fminO none t1)
  else if p.z < s.zpos ∨ p.z > s'.zpos then none
  else clip s s' p d planes none none

/-- The test whether to report (ExtrPoly.cxx:202). A section whose `t_enter` or `t_exit` stays infinite would be reported at
infinite distances; this does not happen for the polygons and directions of `C111_describes`, and such hits are left out
here. -/
noncomputable def interval (planes : List Plane) (p d : Vec3 ℝ) (s s' : Section) : Option (ℝ × ℝ) :=
  match range planes p d s s' with
  | some (some te, some tx) => if te ≥ tx - precision then none else some (te, tx)
  | _ => none

/-- A hit (ExtrPoly.cxx:107-126, 204-207). -/
def hit (p d : Vec3 ℝ) (c : ℝ × Bool) : Isect :=
  ⟨c.1, 0, c.2, ⟨p.x + d.x * c.1, p.y + d.y * c.1, p.z + d.z * c.1⟩⟩

/-- The hits of one section (ExtrPoly.cxx:202-207). -/
noncomputable def sectionHits (planes : List Plane) (p d : Vec3 ℝ) (s s' : Section) : List Isect :=
  match interval planes p d s s' with
  | none => []
  | some i => [hit p d (i.1, true), hit p d (i.2, false)]

/-- `ComputeIntersections` (ExtrPoly.cxx:81-241); `srt` is `std::sort`. The hits are first kept in an array of 64 and moved to a
vector when there are more (101-126); both are one list here. -/
noncomputable def computeIntersections (srt : List Isect → List Isect) (e : Extr) (p d : Vec3 ℝ) : List Isect :=
  if e.sections.length < 2 ∨ e.planes.length = 0 then []
  else dropPairs (srt ((adjacent e.sections).flatMap (fun k => sectionHits e.planes p d k.1 k.2)))

/-- `GetBoundingBox` (ExtrPoly.cxx:244-257); `big` is `numeric_limits<double>::max()`. -/
noncomputable def boundingBox (big : ℝ) (e : Extr) : AABB ℝ :=
  (e.sections.flatMap (fun s => e.polygon.map (fun v => (⟨v.1 * s.scale + s.ox, v.2 * s.scale + s.oy, s.zpos⟩ : Vec3 ℝ)))).foldl
    AABB.expand (AABB.empty big)

/-! ### Specification -/

/-- The value at height `z` of a quantity that is `a` at the lower and `b` at the upper section and linear in between. -/
noncomputable def blend (s s' : Section) (a b z : ℝ) : ℝ := a + (b - a) * ((z - s.zpos) / (s'.zpos - s.zpos))

/-- `v` is between the two sections, inside the polygon scaled and shifted as prescribed for its height. -/
def InSection (P : List Pt) (s s' : Section) (v : Vec3 ℝ) : Prop :=
  s.zpos < s'.zpos ∧ s.zpos ≤ v.z ∧ v.z ≤ s'.zpos ∧
  ∃ w ∈ interior (hull P), v.x = blend s s' s.scale s'.scale v.z * w.1 + blend s s' s.ox s'.ox v.z ∧
    v.y = blend s s' s.scale s'.scale v.z * w.2 + blend s s' s.oy s'.oy v.z

/-- The extruded polygon. -/
def Solid (P : List Pt) (Z : List Section) (v : Vec3 ℝ) : Prop := ∃ k ∈ adjacent Z, InSection P k.1 k.2 v

/-- A convex polygon, sections from bottom to top, positive scales. -/
structure Valid (P : List Pt) (Z : List Section) : Prop where
  convex : IsConvex P
  scale : ∀ s ∈ Z, 0 < s.scale
  sorted : Z.Pairwise (fun s s' => s.zpos ≤ s'.zpos)

/-- Signed distance (up to the tilt of the face) from a lateral face between two sections, negative inside. -/
noncomputable def face (s s' : Section) (pl : Plane) (v : Vec3 ℝ) : ℝ :=
  pl.a * (v.x - blend s s' s.ox s'.ox v.z) + pl.b * (v.y - blend s s' s.oy s'.oy v.z) + pl.d * blend s s' s.scale s'.scale v.z

/-- The point at parameter `u` of the line. -/
def at_ (p d : Vec3 ℝ) (u : ℝ) : Vec3 ℝ := ⟨p.x + d.x * u, p.y + d.y * u, p.z + d.z * u⟩

/-- The line is clear of the special cases that the tolerance decides. -/
structure Clear (P : List Pt) (Z : List Section) (p d : Vec3 ℝ) : Prop where
  /-- it has a direction -/
  dir : ¬ (d.x = 0 ∧ d.y = 0 ∧ d.z = 0)
  /-- it is horizontal or clearly not -/
  slope : d.z = 0 ∨ precision < |d.z|
  /-- if horizontal, it is not in the plane of a section -/
  level : d.z = 0 → ∀ s ∈ Z, s.zpos ≠ p.z
  /-- it is parallel to a lateral face or clearly not -/
  rate : ∀ k ∈ adjacent Z, k.1.zpos < k.2.zpos → ∀ pl ∈ lateralPlanes P,
    face k.1 k.2 pl (at_ p d 1) - face k.1 k.2 pl p = 0 ∨ precision < |face k.1 k.2 pl (at_ p d 1) - face k.1 k.2 pl p|
  /-- it does not cross the plane of a section where a lateral face does -/
  edge : ∀ k ∈ adjacent Z, k.1.zpos < k.2.zpos → ∀ pl ∈ lateralPlanes P, ∀ u,
    ((at_ p d u).z = k.1.zpos ∨ (at_ p d u).z = k.2.zpos) → face k.1 k.2 pl (at_ p d u) ≠ 0
  /-- what it crosses between two sections is longer than the tolerance -/
  thick : ∀ k ∈ adjacent Z, (∀ u, ¬ InSection P k.1 k.2 (at_ p d u)) ∨
    ∃ u w, InSection P k.1 k.2 (at_ p d u) ∧ InSection P k.1 k.2 (at_ p d w) ∧ u + precision < w
  /-- there are no gaps shorter than the tolerance -/
  gap : ∀ t r u, t < r → r < u → u < t + precision → Solid P Z (at_ p d t) → Solid P Z (at_ p d u) → Solid P Z (at_ p d r)

/-- Number of edges that the half line from `w` in positive x direction crosses. -/
noncomputable def crossings (P : List Pt) (w : Pt) : Nat :=
  open Classical in
  ((edges P).filter (fun e => decide ((e.1.2 ≤ w.2 ∧ w.2 < e.2.2 ∨ e.2.2 ≤ w.2 ∧ w.2 < e.1.2) ∧
    w.1 < e.1.1 + (w.2 - e.1.2) / (e.2.2 - e.1.2) * (e.2.1 - e.1.1)))).length

/-! ### The lateral planes -/

theorem plane_eq (sign : ℝ) (e : Pt × Pt)
    (hl : 1 / 1000000000000000 ≤ Real.sqrt ((e.2.1 - e.1.1) * (e.2.1 - e.1.1) + (e.2.2 - e.1.2) * (e.2.2 - e.1.2))) (w : Pt) :
    (planeOf sign e).a * w.1 + (planeOf sign e).b * w.2 + (planeOf sign e).d
      = sign * side e w / Real.sqrt ((e.2.1 - e.1.1) * (e.2.1 - e.1.1) + (e.2.2 - e.1.2) * (e.2.2 - e.1.2)) := by
  have hp : (0 : ℝ) < Real.sqrt ((e.2.1 - e.1.1) * (e.2.1 - e.1.1) + (e.2.2 - e.1.2) * (e.2.2 - e.1.2)) :=
    lt_of_lt_of_le (by norm_num) hl
  unfold planeOf side cross
  simp only [if_neg (not_lt.2 hl), Prod.fst_sub, Prod.snd_sub]
  have := hp.ne'
  field_simp
  ring

/-- The lateral planes are the edges of the polygon, inside negative. -/
theorem inside_iff (P : List Pt) (h : IsConvex P) (w : Pt) :
    w ∈ interior (hull P) ↔ ∀ pl ∈ lateralPlanes P, pl.a * w.1 + pl.b * w.2 + pl.d < 0 := by
  have hP : P ≠ [] := by intro h0; have := h.size; rw [h0] at this; simp at this
  have hpos : ∀ e ∈ edges P, (0 : ℝ) < Real.sqrt ((e.2.1 - e.1.1) * (e.2.1 - e.1.1) + (e.2.2 - e.1.2) * (e.2.2 - e.1.2)) :=
    fun e he => lt_of_lt_of_le (by norm_num) (h.long e he)
  have hlong : ∀ e ∈ edges P, 0 < (e.2.1 - e.1.1) * (e.2.1 - e.1.1) + (e.2.2 - e.1.2) * (e.2.2 - e.1.2) :=
    fun e he => Real.sqrt_pos.1 (hpos e he)
  obtain ⟨σ, hσ, hturn⟩ : ∃ σ : ℝ, (σ = 1 ∨ σ = -1) ∧ ∀ e ∈ edges P, ∀ v ∈ P, 0 ≤ σ * side e v := by
    rcases h.turn with ht | ht
    · exact ⟨1, Or.inl rfl, fun e he v hv => by rw [one_mul]; exact ht e he v hv⟩
    · exact ⟨-1, Or.inr rfl, fun e he v hv => by have := ht e he v hv; linarith⟩
  have hσ0 : σ ≠ 0 := by rcases hσ with rfl | rfl <;> norm_num
  have hiff := interior_iff P hP σ hσ0 hturn hlong
  obtain ⟨w0, hw0⟩ := h.fat
  have harea := area_sign P hP σ w0 ((hiff w0).1 hw0)
  have hsign : (if signedArea P < 0 then (1 : ℝ) else -1) = -σ := by
    rcases hσ with rfl | rfl
    · rw [if_neg (by linarith)]
    · rw [if_pos (by linarith)]; norm_num
  rw [hiff w]
  unfold lateralPlanes
  rw [if_neg (not_lt.2 h.size), hsign]
  simp only [List.mem_map, forall_exists_index, and_imp, forall_apply_eq_imp_iff₂]
  refine forall_congr' fun e => forall_congr' fun he => ?_
  rw [plane_eq _ e (h.long e he) w, div_neg_iff]
  have := hpos e he
  constructor
  · intro hs; exact Or.inr ⟨by linarith, this⟩
  · rintro (⟨_, h2⟩ | ⟨h1, _⟩)
    · linarith
    · linarith

/-! ### One section along the line -/

theorem face_line (s s' : Section) (pl : Plane) (p d : Vec3 ℝ) (u : ℝ) :
    face s s' pl (at_ p d u) = dist s s' pl p + cosa s s' pl d * u := by
  unfold face dist cosa blend at_
  simp only
  ring

theorem blend_pos (s s' : Section) (a b z : ℝ) (ha : 0 < a) (hb : 0 < b) (hz : s.zpos < s'.zpos) (h1 : s.zpos ≤ z)
    (h2 : z ≤ s'.zpos) : 0 < blend s s' a b z := by
  unfold blend
  obtain ⟨q, hq⟩ : ∃ q, q = (z - s.zpos) / (s'.zpos - s.zpos) := ⟨_, rfl⟩
  have q0 : 0 ≤ q := by rw [hq]; exact div_nonneg (by linarith) (by linarith)
  have q1 : q ≤ 1 := by rw [hq, div_le_one (by linarith)]; linarith
  rw [← hq]
  rcases q1.lt_or_eq with h | h
  · nlinarith [mul_pos ha (by linarith : 0 < 1 - q), mul_nonneg hb.le q0]
  · rw [h]; linarith

theorem inSection_iff (P : List Pt) (hP : IsConvex P) (s s' : Section) (hs : 0 < s.scale) (hs' : 0 < s'.scale) (v : Vec3 ℝ) :
    InSection P s s' v ↔ s.zpos < s'.zpos ∧ s.zpos ≤ v.z ∧ v.z ≤ s'.zpos ∧ ∀ pl ∈ lateralPlanes P, face s s' pl v < 0 := by
  unfold InSection
  refine and_congr_right fun hz => and_congr_right fun h1 => and_congr_right fun h2 => ?_
  have hb := blend_pos s s' s.scale s'.scale v.z hs hs' hz h1 h2
  have hface : ∀ pl : Plane, face s s' pl v = blend s s' s.scale s'.scale v.z
      * (pl.a * ((v.x - blend s s' s.ox s'.ox v.z) / blend s s' s.scale s'.scale v.z)
        + pl.b * ((v.y - blend s s' s.oy s'.oy v.z) / blend s s' s.scale s'.scale v.z) + pl.d) := by
    intro pl
    unfold face
    have := hb.ne'
    field_simp
  have hsgn : ∀ x : ℝ, blend s s' s.scale s'.scale v.z * x < 0 ↔ x < 0 := by
    intro x
    constructor
    · intro h; by_contra hc; have := mul_nonneg hb.le (not_lt.1 hc); linarith
    · intro h; exact mul_neg_of_pos_of_neg hb h
  constructor
  · rintro ⟨w, hw, hx, hy⟩ pl hpl
    rw [hface, hsgn]
    have e1 : (v.x - blend s s' s.ox s'.ox v.z) / blend s s' s.scale s'.scale v.z = w.1 := by
      rw [hx, div_eq_iff hb.ne']; ring
    have e2 : (v.y - blend s s' s.oy s'.oy v.z) / blend s s' s.scale s'.scale v.z = w.2 := by
      rw [hy, div_eq_iff hb.ne']; ring
    rw [e1, e2]
    exact (inside_iff P hP w).1 hw pl hpl
  · intro h
    refine ⟨((v.x - blend s s' s.ox s'.ox v.z) / blend s s' s.scale s'.scale v.z,
      (v.y - blend s s' s.oy s'.oy v.z) / blend s s' s.scale s'.scale v.z), ?_, ?_, ?_⟩
    · refine (inside_iff P hP _).2 fun pl hpl => ?_
      have := h pl hpl
      rw [hface, hsgn] at this
      exact this
    · simp only
      rw [mul_div_cancel₀ _ hb.ne']; ring
    · simp only
      rw [mul_div_cancel₀ _ hb.ne']; ring

/-- `t` is after a bound that may be minus infinity. -/
def After (t : Option ℝ) (u : ℝ) : Prop := ∀ a, t = some a → a < u

/-- `t` is before a bound that may be plus infinity. -/
def Before (u : ℝ) (t : Option ℝ) : Prop := ∀ a, t = some a → u < a

theorem after_fmax (t : Option ℝ) (x u : ℝ) : After (AABB.fmaxO t x) u ↔ After t u ∧ x < u := by
  cases t <;> simp [After, AABB.fmaxO]

theorem before_fmin (t : Option ℝ) (x u : ℝ) : Before u (AABB.fminO t x) ↔ Before u t ∧ u < x := by
  cases t <;> simp [Before, AABB.fminO]

theorem clip_spec (s s' : Section) (p d : Vec3 ℝ) (L : List Plane)
    (hr : ∀ pl ∈ L, cosa s s' pl d = 0 ∨ precision < |cosa s s' pl d|) (te tx : Option ℝ) :
    match clip s s' p d L te tx with
    | none => ∀ u, ¬ ∀ pl ∈ L, face s s' pl (at_ p d u) < 0
    | some (a, b) => ∀ u, After a u ∧ Before u b ↔ After te u ∧ Before u tx ∧ ∀ pl ∈ L, face s s' pl (at_ p d u) < 0 := by
  induction L generalizing te tx with
  | nil => simp [clip]
  | cons pl r ih =>
    have hp := precision_pos
    have ihr := fun te tx => ih (fun x hx => hr x (by simp [hx])) te tx
    rw [clip]
    by_cases h1 : precision < |cosa s s' pl d|
    · rw [if_pos h1]
      simp only
      by_cases h2 : cosa s s' pl d < 0
      · rw [if_pos h2]
        have hf : ∀ u, face s s' pl (at_ p d u) < 0 ↔ -dist s s' pl p / cosa s s' pl d < u := by
          intro u; rw [face_line, div_lt_iff_of_neg h2]; constructor <;> intro h <;> linarith
        have := ihr (AABB.fmaxO te (-dist s s' pl p / cosa s s' pl d)) tx
        split at this
        · rename_i heq
          exact fun u h => this u (fun x hx => h x (by simp [hx]))
        · rename_i a b heq
          intro u
          rw [this u, after_fmax]
          simp only [List.forall_mem_cons, hf u]
          tauto
      · rw [if_neg h2]
        have h3 : 0 < cosa s s' pl d := by
          rcases lt_trichotomy (cosa s s' pl d) 0 with h | h | h
          · exact absurd h h2
          · rw [h, abs_zero] at h1; linarith
          · exact h
        have hf : ∀ u, face s s' pl (at_ p d u) < 0 ↔ u < -dist s s' pl p / cosa s s' pl d := by
          intro u; rw [face_line, lt_div_iff₀ h3]; constructor <;> intro h <;> linarith
        have := ihr te (AABB.fminO tx (-dist s s' pl p / cosa s s' pl d))
        split at this
        · rename_i heq
          exact fun u h => this u (fun x hx => h x (by simp [hx]))
        · rename_i a b heq
          intro u
          rw [this u, before_fmin]
          simp only [List.forall_mem_cons, hf u]
          tauto
    · rw [if_neg h1]
      have h0 : cosa s s' pl d = 0 := (hr pl (by simp)).resolve_right h1
      have hf : ∀ u, face s s' pl (at_ p d u) = dist s s' pl p := by
        intro u; rw [face_line, h0, zero_mul, add_zero]
      by_cases h2 : dist s s' pl p ≥ 0
      · rw [if_pos h2]
        intro u h
        have := h pl (by simp)
        rw [hf u] at this
        linarith
      · rw [if_neg h2]
        have := ihr te tx
        split at this
        · rename_i heq
          exact fun u h => this u (fun x hx => h x (by simp [hx]))
        · rename_i a b heq
          intro u
          rw [this u]
          simp only [List.forall_mem_cons, hf u]
          have := not_le.1 h2
          tauto

/-- Strictly between the two sections and inside the lateral faces. -/
def Open_ (P : List Pt) (s s' : Section) (p d : Vec3 ℝ) (u : ℝ) : Prop :=
  s.zpos < (at_ p d u).z ∧ (at_ p d u).z < s'.zpos ∧ ∀ pl ∈ lateralPlanes P, face s s' pl (at_ p d u) < 0

theorem range_spec (P : List Pt) (s s' : Section) (p d : Vec3 ℝ) (hz : s.zpos < s'.zpos) (hs : d.z = 0 ∨ precision < |d.z|)
    (hl : d.z = 0 → s.zpos ≠ p.z ∧ s'.zpos ≠ p.z)
    (hr : ∀ pl ∈ lateralPlanes P, cosa s s' pl d = 0 ∨ precision < |cosa s s' pl d|) :
    match range (lateralPlanes P) p d s s' with
    | none => ∀ u, ¬ Open_ P s s' p d u
    | some (a, b) => (∀ u, Open_ P s s' p d u ↔ After a u ∧ Before u b) ∧ (d.z ≠ 0 → a ≠ none ∧ b ≠ none) := by
  have hp := precision_pos
  unfold range
  rw [if_neg (by linarith)]
  by_cases hd : precision < |d.z|
  · rw [if_pos hd]
    have hd0 : d.z ≠ 0 := by intro h; rw [h, abs_zero] at hd; linarith
    obtain ⟨a, b, hab, hslab⟩ : ∃ a b, (if (s.zpos - p.z) / d.z > (s'.zpos - p.z) / d.z then
        ((s'.zpos - p.z) / d.z, (s.zpos - p.z) / d.z) else ((s.zpos - p.z) / d.z, (s'.zpos - p.z) / d.z)) = (a, b) ∧
        ∀ u, (s.zpos < (at_ p d u).z ∧ (at_ p d u).z < s'.zpos) ↔ a < u ∧ u < b := by
      rcases lt_or_gt_of_ne hd0 with h | h
      · refine ⟨(s'.zpos - p.z) / d.z, (s.zpos - p.z) / d.z, if_pos ?_, ?_⟩
        · exact (div_lt_div_right_of_neg h).2 (by linarith)
        · intro u
          rw [div_lt_iff_of_neg h, lt_div_iff_of_neg h]
          simp only [at_]
          constructor
          · rintro ⟨h1, h2⟩; exact ⟨by linarith, by linarith⟩
          · rintro ⟨h1, h2⟩; exact ⟨by linarith, by linarith⟩
      · refine ⟨(s.zpos - p.z) / d.z, (s'.zpos - p.z) / d.z, if_neg ?_, ?_⟩
        · exact not_lt.2 ((div_lt_div_iff_of_pos_right h).2 (by linarith)).le
        · intro u
          rw [div_lt_iff₀ h, lt_div_iff₀ h]
          simp only [at_]
          constructor
          · rintro ⟨h1, h2⟩; exact ⟨by linarith, by linarith⟩
          · rintro ⟨h1, h2⟩; exact ⟨by linarith, by linarith⟩
    simp only [hab]
    have hc := clip_spec s s' p d (lateralPlanes P) hr (AABB.fmaxO none a) (AABB.fminO none b)
    have hfin := clip_some s s' p d (lateralPlanes P) a b
    split at hc
    · rename_i heq
      exact fun u h => hc u h.2.2
    · rename_i a' b' heq
      refine ⟨fun u => ?_, fun _ => hfin a' b' heq⟩
      rw [hc u]
      unfold Open_
      rw [← and_assoc, hslab u, after_fmax, before_fmin]
      simp only [After, Before, reduceCtorEq, false_implies, implies_true, true_and]
      tauto
  · rw [if_neg hd]
    have hd0 : d.z = 0 := hs.resolve_right hd
    have hzu : ∀ u, (at_ p d u).z = p.z := by intro u; simp [at_, hd0]
    obtain ⟨n1, n2⟩ := hl hd0
    by_cases hout : p.z < s.zpos ∨ p.z > s'.zpos
    · rw [if_pos hout]
      intro u h
      have h1 := h.1
      have h2 := h.2.1
      rw [hzu] at h1 h2
      rcases hout with h | h <;> linarith
    · rw [if_neg hout]
      push Not at hout
      have hc := clip_spec s s' p d (lateralPlanes P) hr none none
      split at hc
      · rename_i heq
        exact fun u h => hc u h.2.2
      · rename_i a' b' heq
        refine ⟨fun u => ?_, fun h => absurd hd0 h⟩
        rw [hc u]
        unfold Open_
        rw [hzu]
        have h1 : s.zpos < p.z := lt_of_le_of_ne hout.1 n1
        have h2 : p.z < s'.zpos := lt_of_le_of_ne hout.2 (Ne.symm n2)
        simp [After, Before, h1, h2]
where
  clip_some (s s' : Section) (p d : Vec3 ℝ) (L : List Plane) (x y : ℝ) (a b : Option ℝ)
      (h : clip s s' p d L (AABB.fmaxO none x) (AABB.fminO none y) = some (a, b)) : a ≠ none ∧ b ≠ none := by
    have gen : ∀ (L : List Plane) (te tx : Option ℝ), te ≠ none → tx ≠ none →
        ∀ a b, clip s s' p d L te tx = some (a, b) → a ≠ none ∧ b ≠ none := by
      intro L
      induction L with
      | nil =>
        intro te tx h1 h2 a b h
        simp only [clip, Option.some.injEq, Prod.mk.injEq] at h
        exact ⟨h.1 ▸ h1, h.2 ▸ h2⟩
      | cons pl r ih =>
        intro te tx h1 h2 a b h
        rw [clip] at h
        split at h
        · simp only at h
          split at h
          · exact ih _ _ (by cases te <;> simp [AABB.fmaxO]) h2 a b h
          · exact ih _ _ h1 (by cases tx <;> simp [AABB.fminO]) a b h
        · split at h
          · simp at h
          · exact ih _ _ h1 h2 a b h
    exact gen L _ _ (by simp [AABB.fmaxO]) (by simp [AABB.fminO]) a b h

/-! ### Which sections are reported -/

/-- A linear quantity that is bounded on a half line is constant. -/
theorem half_line (α β b M : ℝ) (h : ∀ u, u < b → |α + β * u| ≤ M) : β = 0 := by
  by_contra hβ
  have hM : 0 ≤ M := le_trans (abs_nonneg _) (h (b - 1) (by linarith))
  have hb : 0 < |β| := abs_pos.2 hβ
  obtain ⟨k, hk⟩ : ∃ k, k = (M + |α + β * (b - 1)| + 1) / |β| := ⟨_, rfl⟩
  have hk0 : 0 ≤ k := by rw [hk]; positivity
  have h1 := h (b - 1 - k) (by linarith)
  have h2 : |β * k| ≤ |α + β * (b - 1)| + |α + β * (b - 1 - k)| := by
    have : β * k = (α + β * (b - 1)) - (α + β * (b - 1 - k)) := by ring
    rw [this]; exact abs_sub _ _
  have h3 : |β| * k = M + |α + β * (b - 1)| + 1 := by rw [hk, mul_div_cancel₀ _ hb.ne']
  rw [abs_mul, abs_of_nonneg hk0, h3] at h2
  linarith

theorem half_line' (α β b M : ℝ) (h : ∀ u, b < u → |α + β * u| ≤ M) : β = 0 := by
  have := half_line α (-β) (-b) M (fun u hu => by have := h (-u) (by linarith); simpa using this)
  linarith

theorem hull_bounded (P : List Pt) : ∃ M, ∀ w ∈ hull P, |w.1| ≤ M ∧ |w.2| ≤ M := by
  obtain ⟨M, hM⟩ : ∃ M : ℝ, ∀ v ∈ P, |v.1| ≤ M ∧ |v.2| ≤ M := by
    induction P with
    | nil => exact ⟨0, by simp⟩
    | cons a r ih =>
      obtain ⟨M, hM⟩ := ih
      refine ⟨max M (max |a.1| |a.2|), fun v hv => ?_⟩
      rcases List.mem_cons.1 hv with rfl | hv
      · exact ⟨le_trans (le_max_left _ _) (le_max_right _ _), le_trans (le_max_right _ _) (le_max_right _ _)⟩
      · exact ⟨le_trans (hM v hv).1 (le_max_left _ _), le_trans (hM v hv).2 (le_max_left _ _)⟩
  refine ⟨M, fun w hw => ⟨abs_le.2 ⟨?_, ?_⟩, abs_le.2 ⟨?_, ?_⟩⟩⟩
  · have := hull_le P (-1) 0 M (fun v hv => by have := (abs_le.1 (hM v hv).1).1; linarith) w hw; linarith
  · have := hull_le P 1 0 M (fun v hv => by have := (abs_le.1 (hM v hv).1).2; linarith) w hw; linarith
  · have := hull_le P 0 (-1) M (fun v hv => by have := (abs_le.1 (hM v hv).2).1; linarith) w hw; linarith
  · have := hull_le P 0 1 M (fun v hv => by have := (abs_le.1 (hM v hv).2).2; linarith) w hw; linarith

theorem open_in (P : List Pt) (hP : IsConvex P) (s s' : Section) (hs : 0 < s.scale) (hs' : 0 < s'.scale) (hz : s.zpos < s'.zpos)
    (p d : Vec3 ℝ) (u : ℝ) (h : Open_ P s s' p d u) : InSection P s s' (at_ p d u) :=
  (inSection_iff P hP s s' hs hs' _).2 ⟨hz, h.1.le, h.2.1.le, h.2.2⟩

/-- A horizontal line is inside a section for a bounded stretch only. -/
theorem horizontal_bounded (P : List Pt) (hP : IsConvex P) (s s' : Section) (hs : 0 < s.scale) (hs' : 0 < s'.scale)
    (hz : s.zpos < s'.zpos) (p d : Vec3 ℝ) (hdz : d.z = 0) :
    ∃ M, (∀ u, Open_ P s s' p d u → |p.x - blend s s' s.ox s'.ox p.z + d.x * u| ≤ M ∧
      |p.y - blend s s' s.oy s'.oy p.z + d.y * u| ≤ M) := by
  obtain ⟨M, hM⟩ := hull_bounded P
  refine ⟨blend s s' s.scale s'.scale p.z * M, fun u hu => ?_⟩
  obtain ⟨_, h1, h2, w, hw, hx, hy⟩ := open_in P hP s s' hs hs' hz p d u hu
  have hzu : (at_ p d u).z = p.z := by simp [at_, hdz]
  rw [hzu] at h1 h2 hx hy
  have hb := blend_pos s s' s.scale s'.scale p.z hs hs' hz h1 h2
  obtain ⟨m1, m2⟩ := hM w (interior_subset hw)
  simp only [at_] at hx hy
  constructor
  · have : p.x - blend s s' s.ox s'.ox p.z + d.x * u = blend s s' s.scale s'.scale p.z * w.1 := by linarith
    rw [this, abs_mul, abs_of_pos hb]
    exact mul_le_mul_of_nonneg_left m1 hb.le
  · have : p.y - blend s s' s.oy s'.oy p.z + d.y * u = blend s s' s.scale s'.scale p.z * w.2 := by linarith
    rw [this, abs_mul, abs_of_pos hb]
    exact mul_le_mul_of_nonneg_left m2 hb.le

theorem at_z_mono (p d : Vec3 ℝ) (u r w : ℝ) (h1 : u < r) (h2 : r < w) (a b : ℝ) (hl : d.z = 0 → a ≠ p.z ∧ b ≠ p.z)
    (hu : a ≤ (at_ p d u).z ∧ (at_ p d u).z ≤ b) (hw : a ≤ (at_ p d w).z ∧ (at_ p d w).z ≤ b) :
    a < (at_ p d r).z ∧ (at_ p d r).z < b := by
  simp only [at_] at *
  rcases lt_trichotomy d.z 0 with h | h | h
  · constructor <;> nlinarith [mul_pos (neg_pos.2 h) (sub_pos.2 h1), mul_pos (neg_pos.2 h) (sub_pos.2 h2)]
  · obtain ⟨n1, n2⟩ := hl h
    simp only [h, zero_mul, add_zero] at hu ⊢
    exact ⟨lt_of_le_of_ne hu.1 n1, lt_of_le_of_ne hu.2 (Ne.symm n2)⟩
  · constructor <;> nlinarith [mul_pos h (sub_pos.2 h1), mul_pos h (sub_pos.2 h2)]

/-- Between two points of the line in a section, the line is properly inside it. -/
theorem between_open (P : List Pt) (hP : IsConvex P) (s s' : Section) (hs : 0 < s.scale) (hs' : 0 < s'.scale) (p d : Vec3 ℝ)
    (hl : d.z = 0 → s.zpos ≠ p.z ∧ s'.zpos ≠ p.z) (u w r : ℝ) (hu : InSection P s s' (at_ p d u))
    (hw : InSection P s s' (at_ p d w)) (h1 : u < r) (h2 : r < w) : Open_ P s s' p d r := by
  rw [inSection_iff P hP s s' hs hs'] at hu hw
  obtain ⟨g1, g2⟩ := at_z_mono p d u r w h1 h2 s.zpos s'.zpos hl ⟨hu.2.1, hu.2.2.1⟩ ⟨hw.2.1, hw.2.2.1⟩
  refine ⟨g1, g2, fun pl hpl => ?_⟩
  have f1 := hu.2.2.2 pl hpl
  have f2 := hw.2.2.2 pl hpl
  rw [face_line] at *
  by_cases hc : 0 ≤ cosa s s' pl d
  · nlinarith [mul_nonneg hc (sub_nonneg.2 h2.le)]
  · nlinarith [mul_nonneg (neg_nonneg.2 (not_le.1 hc).le) (sub_nonneg.2 h1.le)]

theorem adjacent_mem (Z : List Section) (k : Section × Section) (hk : k ∈ adjacent Z) : k.1 ∈ Z ∧ k.2 ∈ Z := by
  induction Z with
  | nil => simp [adjacent] at hk
  | cons s r ih =>
    rcases r with _ | ⟨s', r⟩
    · simp [adjacent] at hk
    · rw [adjacent] at hk
      rcases List.mem_cons.1 hk with rfl | hk
      · simp
      · obtain ⟨h1, h2⟩ := ih hk
        exact ⟨List.mem_cons_of_mem _ h1, List.mem_cons_of_mem _ h2⟩

theorem adjacent_pairwise (Z : List Section) (h : Z.Pairwise (fun s s' => s.zpos ≤ s'.zpos)) :
    (adjacent Z).Pairwise (fun k l => k.2.zpos ≤ l.1.zpos) := by
  induction Z with
  | nil => simp [adjacent]
  | cons s r ih =>
    rcases r with _ | ⟨s', r⟩
    · simp [adjacent]
    · rw [adjacent]
      have h' := (List.pairwise_cons.1 h).2
      refine List.pairwise_cons.2 ⟨fun l hl => ?_, ih h'⟩
      rcases List.mem_cons.1 (adjacent_mem _ _ hl).1 with h1 | h1
      · rw [h1]
      · exact (List.pairwise_cons.1 h').1 _ h1

theorem rate_eq (s s' : Section) (pl : Plane) (p d : Vec3 ℝ) : face s s' pl (at_ p d 1) - face s s' pl p = cosa s s' pl d := by
  have h0 : face s s' pl p = face s s' pl (at_ p d 0) := by simp [at_]
  rw [h0, face_line, face_line]; ring

/-- Everything about one section of a clear line. -/
theorem section_cases (P : List Pt) (Z : List Section) (hv : Valid P Z) (p d : Vec3 ℝ) (hc : Clear P Z p d)
    (k : Section × Section) (hk : k ∈ adjacent Z) :
    (interval (lateralPlanes P) p d k.1 k.2 = none ∧ ∀ u, ¬ InSection P k.1 k.2 (at_ p d u)) ∨
    ∃ a b, interval (lateralPlanes P) p d k.1 k.2 = some (a, b) ∧ a + precision < b ∧ k.1.zpos < k.2.zpos ∧
      ∀ u, Open_ P k.1 k.2 p d u ↔ a < u ∧ u < b := by
  obtain ⟨m1, m2⟩ := adjacent_mem Z k hk
  have hs := hv.scale _ m1
  have hs' := hv.scale _ m2
  by_cases hz : k.1.zpos < k.2.zpos
  · have hl : d.z = 0 → k.1.zpos ≠ p.z ∧ k.2.zpos ≠ p.z := fun h => ⟨hc.level h _ m1, hc.level h _ m2⟩
    have hr : ∀ pl ∈ lateralPlanes P, cosa k.1 k.2 pl d = 0 ∨ precision < |cosa k.1 k.2 pl d| := by
      intro pl hpl
      have := hc.rate k hk hz pl hpl
      rwa [rate_eq] at this
    have hspec := range_spec P k.1 k.2 p d hz hc.slope hl hr
    have hempty : (∀ u, ¬ Open_ P k.1 k.2 p d u) → ∀ u, ¬ InSection P k.1 k.2 (at_ p d u) := by
      intro hno
      rcases hc.thick k hk with h | ⟨u, w, hu, hw, hlt⟩
      · exact h
      · exfalso
        have hp := precision_pos
        exact hno ((u + w) / 2) (between_open P hv.convex _ _ hs hs' p d hl u w _ hu hw (by linarith) (by linarith))
    unfold interval
    split at hspec
    · rename_i heq
      rw [heq]
      exact Or.inl ⟨rfl, hempty hspec⟩
    · rename_i a b heq
      rw [heq]
      obtain ⟨hopen, hfin⟩ := hspec
      have hbound : d.z = 0 → ∃ M, (∀ u, Open_ P k.1 k.2 p d u → |p.x - blend k.1 k.2 k.1.ox k.2.ox p.z + d.x * u| ≤ M ∧
          |p.y - blend k.1 k.2 k.1.oy k.2.oy p.z + d.y * u| ≤ M) :=
        fun h => horizontal_bounded P hv.convex _ _ hs hs' hz p d h
      have ha : a ≠ none := by
        rintro rfl
        by_cases h0 : d.z = 0
        · obtain ⟨M, hM⟩ := hbound h0
          obtain ⟨c, hcb⟩ : ∃ c, ∀ u, u < c → Before u b := by
            cases b with
            | none => exact ⟨0, fun u _ x hx => by simp at hx⟩
            | some y => exact ⟨y, fun u hu x hx => by rw [← Option.some.inj hx]; exact hu⟩
          have hO : ∀ u, u < c → Open_ P k.1 k.2 p d u := fun u hu =>
            (hopen u).2 ⟨fun x hx => by simp at hx, hcb u hu⟩
          exact hc.dir ⟨half_line _ _ c M (fun u hu => (hM u (hO u hu)).1), half_line _ _ c M (fun u hu => (hM u (hO u hu)).2), h0⟩
        · exact (hfin h0).1 rfl
      have hb : b ≠ none := by
        rintro rfl
        by_cases h0 : d.z = 0
        · obtain ⟨M, hM⟩ := hbound h0
          obtain ⟨c, hcb⟩ : ∃ c, ∀ u, c < u → After a u := by
            cases a with
            | none => exact ⟨0, fun u _ x hx => by simp at hx⟩
            | some y => exact ⟨y, fun u hu x hx => by rw [← Option.some.inj hx]; exact hu⟩
          have hO : ∀ u, c < u → Open_ P k.1 k.2 p d u := fun u hu =>
            (hopen u).2 ⟨hcb u hu, fun x hx => by simp at hx⟩
          exact hc.dir ⟨half_line' _ _ c M (fun u hu => (hM u (hO u hu)).1), half_line' _ _ c M (fun u hu => (hM u (hO u hu)).2), h0⟩
        · exact (hfin h0).2 rfl
      obtain ⟨a, rfl⟩ := Option.ne_none_iff_exists'.1 ha
      obtain ⟨b, rfl⟩ := Option.ne_none_iff_exists'.1 hb
      have hopen' : ∀ u, Open_ P k.1 k.2 p d u ↔ a < u ∧ u < b := by
        intro u; rw [hopen u]; simp [After, Before]
      simp only
      by_cases hge : a ≥ b - precision
      · rw [if_pos hge]
        refine Or.inl ⟨rfl, ?_⟩
        rcases hc.thick k hk with h | ⟨u, w, hu, hw, hlt⟩
        · exact h
        · exfalso
          have hin : ∀ r, u < r → r < w → a < r ∧ r < b := fun r h1 h2 =>
            (hopen' r).1 (between_open P hv.convex _ _ hs hs' p d hl u w r hu hw h1 h2)
          have h1 : a ≤ u := le_of_forall_gt_imp_ge_of_dense' u a w (by linarith [precision_pos]) (fun r hr1 hr2 => (hin r hr1 hr2).1.le)
          have h2 : w ≤ b := by
            by_contra hlt'
            have := hin ((max u b + w) / 2) (by have := le_max_left u b; have := max_lt (by linarith [precision_pos] : u < w) (not_le.1 hlt'); linarith)
              (by have := max_lt (by linarith [precision_pos] : u < w) (not_le.1 hlt'); linarith)
            have h3 := max_lt (by linarith [precision_pos] : u < w) (not_le.1 hlt')
            have := le_max_right u b
            linarith
          linarith
      · rw [if_neg hge]
        exact Or.inr ⟨a, b, rfl, by linarith, hz, hopen'⟩
  · left
    refine ⟨?_, fun u h => hz h.1⟩
    unfold interval range
    rw [if_pos (by linarith)]
where
  le_of_forall_gt_imp_ge_of_dense' (u a w : ℝ) (huw : u < w) (h : ∀ r, u < r → r < w → a ≤ r) : a ≤ u := by
    by_contra hlt
    have h3 := lt_min (not_le.1 hlt) huw
    have := h ((u + min a w) / 2) (by linarith) (by have := min_le_right a w; linarith)
    have := min_le_left a w
    linarith

/-! ### Putting the sections together -/

theorem ends_flatMap (I : List (ℝ × ℝ)) : Merge.ends I = I.flatMap (fun i => [(i.1, true), (i.2, false)]) := by
  induction I with
  | nil => rfl
  | cons i r ih => simp [Merge.ends, ih]

theorem hits_eq (planes : List Plane) (p d : Vec3 ℝ) (K : List (Section × Section)) :
    K.flatMap (fun k => sectionHits planes p d k.1 k.2)
      = (Merge.ends (K.filterMap (fun k => interval planes p d k.1 k.2))).map (hit p d) := by
  induction K with
  | nil => rfl
  | cons k r ih =>
    rw [List.flatMap_cons, ih, sectionHits]
    cases h : interval planes p d k.1 k.2 with
    | none => simp [h]
    | some i => simp [h, Merge.ends]

theorem ordered_of_pairwise (I : List (ℝ × ℝ)) (hlong : ∀ i ∈ I, i.1 + precision < i.2)
    (h : I.Pairwise (fun i j => i.2 = j.1 ∨ i.2 + precision ≤ j.1)) : Merge.Ordered I := by
  have gen : ∀ (I : List (ℝ × ℝ)) (x : ℝ), (∀ i ∈ I, i.1 + precision < i.2) → (∀ i ∈ I, x = i.1 ∨ x + precision ≤ i.1) →
      I.Pairwise (fun i j => i.2 = j.1 ∨ i.2 + precision ≤ j.1) → Merge.Chain x I := by
    intro I
    induction I with
    | nil => intros; trivial
    | cons i r ih =>
      intro x h1 h2 h3
      exact ⟨h2 i (by simp), h1 i (by simp), ih i.2 (fun j hj => h1 j (by simp [hj])) (List.pairwise_cons.1 h3).1 (List.pairwise_cons.1 h3).2⟩
  rcases I with _ | ⟨i, r⟩
  · trivial
  · exact ⟨hlong i (by simp), gen r i.2 (fun j hj => hlong j (by simp [hj])) (List.pairwise_cons.1 h).1 (List.pairwise_cons.1 h).2⟩

/-- The line reaches height `z` not before the end of an interval in which it is below `z`, and so on. -/
theorem slab_bound (P : List Pt) (s s' : Section) (p d : Vec3 ℝ) (a b : ℝ) (hab : a < b)
    (h : ∀ u, Open_ P s s' p d u ↔ a < u ∧ u < b) :
    s.zpos ≤ (at_ p d a).z ∧ s.zpos ≤ (at_ p d b).z ∧ (at_ p d a).z ≤ s'.zpos ∧ (at_ p d b).z ≤ s'.zpos ∧
    ∀ pl ∈ lateralPlanes P, face s s' pl (at_ p d a) ≤ 0 ∧ face s s' pl (at_ p d b) ≤ 0 := by
  have lin : ∀ α β : ℝ, (∀ u, a < u → u < b → α + β * u < 0) → α + β * a ≤ 0 ∧ α + β * b ≤ 0 := by
    intro α β hl
    have h0 := hl ((a + b) / 2) (by linarith) (by linarith)
    constructor
    · by_contra hc
      push Not at hc
      have hβ : β < 0 := by
        by_contra hb
        have := mul_nonneg (not_lt.1 hb) (by linarith : 0 ≤ (a + b) / 2 - a)
        nlinarith
      have hu : a < -α / β := by rw [lt_div_iff_of_neg hβ]; linarith
      have h1 := hl (min (-α / β) ((a + b) / 2)) (lt_min hu (by linarith)) (lt_of_le_of_lt (min_le_right _ _) (by linarith))
      have h2 := mul_le_mul_of_nonpos_left (min_le_left (-α / β) ((a + b) / 2)) hβ.le
      rw [mul_div_cancel₀ _ hβ.ne] at h2
      linarith
    · by_contra hc
      push Not at hc
      have hβ : 0 < β := by
        by_contra hb
        have := mul_nonneg (neg_nonneg.2 (not_lt.1 hb)) (by linarith : 0 ≤ b - (a + b) / 2)
        nlinarith
      have hu : -α / β < b := by rw [div_lt_iff₀ hβ]; linarith
      have h1 := hl (max (-α / β) ((a + b) / 2)) (lt_of_lt_of_le (by linarith) (le_max_right _ _)) (max_lt hu (by linarith))
      have h2 := mul_le_mul_of_nonneg_left (le_max_left (-α / β) ((a + b) / 2)) hβ.le
      rw [mul_div_cancel₀ _ hβ.ne'] at h2
      linarith
  have z1 := lin (s.zpos - p.z) (-d.z) (fun u h1 h2 => by have := ((h u).2 ⟨h1, h2⟩).1; simp only [at_] at this; linarith)
  have z2 := lin (p.z - s'.zpos) d.z (fun u h1 h2 => by have := ((h u).2 ⟨h1, h2⟩).2.1; simp only [at_] at this; linarith)
  refine ⟨by simp only [at_]; linarith [z1.1], by simp only [at_]; linarith [z1.2], by simp only [at_]; linarith [z2.1],
    by simp only [at_]; linarith [z2.2], fun pl hpl => ?_⟩
  have := lin (dist s s' pl p) (cosa s s' pl d) (fun u h1 h2 => by
    have := ((h u).2 ⟨h1, h2⟩).2.2 pl hpl; rwa [face_line] at this)
  rw [face_line, face_line]
  exact this

/-- Two sections that do not overlap in height are crossed one after the other. -/
theorem apart (P : List Pt) (p d : Vec3 ℝ) (k l : Section × Section) (hkl : k.2.zpos ≤ l.1.zpos)
    (a b a' b' : ℝ) (hab : a < b) (hab' : a' < b') (h : ∀ u, Open_ P k.1 k.2 p d u ↔ a < u ∧ u < b)
    (h' : ∀ u, Open_ P l.1 l.2 p d u ↔ a' < u ∧ u < b') :
    (0 < d.z ∧ b ≤ a' ∧ (b = a' → (at_ p d b).z = k.2.zpos)) ∨ (d.z < 0 ∧ b' ≤ a ∧ (b' = a → (at_ p d b').z = l.1.zpos)) := by
  obtain ⟨_, _, _, h4, _⟩ := slab_bound P k.1 k.2 p d a b hab h
  obtain ⟨_, _, h3, _, _⟩ := slab_bound P k.1 k.2 p d a b hab h
  obtain ⟨h5, _, _, _, _⟩ := slab_bound P l.1 l.2 p d a' b' hab' h'
  obtain ⟨_, h6, _, _, _⟩ := slab_bound P l.1 l.2 p d a' b' hab' h'
  have m1 := (h ((a + b) / 2)).2 ⟨by linarith, by linarith⟩
  have m2 := (h' ((a' + b') / 2)).2 ⟨by linarith, by linarith⟩
  have n1 := m1.2.1
  have n2 := m2.1
  simp only [at_] at *
  rcases lt_trichotomy d.z 0 with hd | hd | hd
  · right
    refine ⟨hd, ?_, fun he => ?_⟩
    · by_contra hc
      have := mul_pos (neg_pos.2 hd) (sub_pos.2 (not_le.1 hc))
      nlinarith
    · rw [← he] at h3
      linarith
  · rw [hd] at n1 n2; simp only [zero_mul, add_zero] at n1 n2; linarith
  · left
    refine ⟨hd, ?_, fun he => ?_⟩
    · by_contra hc
      have := mul_pos hd (sub_pos.2 (not_le.1 hc))
      nlinarith
    · rw [← he] at h5
      linarith

/-- C111: for a convex polygon and sections from bottom to top, the report describes the extruded solid on every clear line. -/
theorem C111_describes (srt : List Isect → List Isect) (hsrt : IsIsectSort srt) (e : Extr) (he : make e.polygon e.sections = some e)
    (hv : Valid e.polygon e.sections) (p d : Vec3 ℝ) (hc : Clear e.polygon e.sections p d) :
    Describes precision (fun u => Solid e.polygon e.sections (at_ p d u)) (computeIntersections srt e p d) := by
  obtain ⟨P, Z, planes⟩ := e
  have hpl : planes = lateralPlanes P := by
    unfold make at he
    simp only at he
    rw [if_neg (not_lt.2 hv.convex.size)] at he
    simpa using (Option.some.inj he).symm
  subst hpl
  simp only at hv hc ⊢
  have hp := precision_pos
  unfold computeIntersections
  simp only
  by_cases hlen : Z.length < 2
  · rw [if_pos (Or.inl hlen)]
    refine describes_nil _ _ ?_
    rintro t ⟨k, hk, _⟩
    rcases Z with _ | ⟨s, _ | ⟨s', r⟩⟩
    · simp [adjacent] at hk
    · simp [adjacent] at hk
    · simp at hlen
  have hP : P ≠ [] := by intro h0; have := hv.convex.size; rw [h0] at this; simp at this
  have hplanes : (lateralPlanes P).length ≠ 0 := by
    unfold lateralPlanes
    rw [if_neg (not_lt.2 hv.convex.size)]
    have := edges_ne_nil P hP
    simpa using this
  rw [if_neg (by rintro (h | h); exacts [hlen h, hplanes h])]
  rw [hits_eq]
  obtain ⟨I, hI⟩ : ∃ I, I = (adjacent Z).filterMap (fun k => interval (lateralPlanes P) p d k.1 k.2) := ⟨_, rfl⟩
  rw [← hI]
  -- where each interval comes from
  have hmem : ∀ i ∈ I, ∃ k ∈ adjacent Z, interval (lateralPlanes P) p d k.1 k.2 = some i ∧ i.1 + precision < i.2 ∧
      k.1.zpos < k.2.zpos ∧ ∀ u, Open_ P k.1 k.2 p d u ↔ i.1 < u ∧ u < i.2 := by
    intro i hi
    rw [hI] at hi
    obtain ⟨k, hk, hki⟩ := List.mem_filterMap.1 hi
    rcases section_cases P Z hv p d hc k hk with ⟨h, _⟩ | ⟨a, b, h, h1, h2, h3⟩
    · rw [h] at hki; simp at hki
    · rw [h] at hki
      have : i = (a, b) := (Option.some.inj hki).symm
      subst this
      exact ⟨k, hk, h, h1, h2, h3⟩
  have hscale : ∀ k ∈ adjacent Z, 0 < k.1.scale ∧ 0 < k.2.scale := fun k hk =>
    ⟨hv.scale _ (adjacent_mem Z k hk).1, hv.scale _ (adjacent_mem Z k hk).2⟩
  -- what lies in a section lies in its interval
  have hsec : ∀ k ∈ adjacent Z, ∀ u, InSection P k.1 k.2 (at_ p d u) → ∃ i ∈ I, i.1 ≤ u ∧ u ≤ i.2 := by
    intro k hk u hu
    rcases section_cases P Z hv p d hc k hk with ⟨_, h⟩ | ⟨a, b, h, h1, h2, h3⟩
    · exact absurd hu (h u)
    · refine ⟨(a, b), by rw [hI]; exact List.mem_filterMap.2 ⟨k, hk, h⟩, ?_⟩
      have hl : d.z = 0 → k.1.zpos ≠ p.z ∧ k.2.zpos ≠ p.z := fun h =>
        ⟨hc.level h _ (adjacent_mem Z k hk).1, hc.level h _ (adjacent_mem Z k hk).2⟩
      obtain ⟨s1, s2⟩ := hscale k hk
      have hin : ∀ w, a < w → w < b → InSection P k.1 k.2 (at_ p d w) := fun w w1 w2 =>
        open_in P hv.convex _ _ s1 s2 h2 p d w ((h3 w).2 ⟨w1, w2⟩)
      constructor
      · by_contra hlt
        push Not at hlt
        have := (h3 ((u + a) / 2)).1 (between_open P hv.convex _ _ s1 s2 p d hl u ((a + b) / 2) _ hu
          (hin _ (by linarith) (by linarith)) (by simp only at hlt; linarith) (by simp only at hlt; linarith))
        simp only at hlt
        linarith [this.1]
      · by_contra hlt
        push Not at hlt
        have := (h3 ((u + b) / 2)).1 (between_open P hv.convex _ _ s1 s2 p d hl ((a + b) / 2) u _
          (hin _ (by linarith) (by linarith)) hu (by simp only at hlt; linarith) (by simp only at hlt; linarith))
        simp only at hlt
        linarith [this.2]
  have hin : ∀ i ∈ I, ∀ u, i.1 < u → u < i.2 → Solid P Z (at_ p d u) := by
    intro i hi u h1 h2
    obtain ⟨k, hk, _, _, hz, ho⟩ := hmem i hi
    obtain ⟨s1, s2⟩ := hscale k hk
    exact ⟨k, hk, open_in P hv.convex _ _ s1 s2 hz p d u ((ho u).2 ⟨h1, h2⟩)⟩
  have hout : ∀ u, Solid P Z (at_ p d u) → ∃ i ∈ I, i.1 ≤ u ∧ u ≤ i.2 := by
    rintro u ⟨k, hk, hu⟩
    exact hsec k hk u hu
  -- the sections do not overlap
  have hdisj : ∀ k ∈ adjacent Z, ∀ l ∈ adjacent Z, k = l ∨ k.2.zpos ≤ l.1.zpos ∨ l.2.zpos ≤ k.1.zpos := by
    have h : (adjacent Z).Pairwise (fun k l => k = l ∨ k.2.zpos ≤ l.1.zpos ∨ l.2.zpos ≤ k.1.zpos) :=
      (adjacent_pairwise Z hv.sorted).imp (fun {a b} h => Or.inr (Or.inl h))
    have : Std.Symm (fun k l : Section × Section => k = l ∨ k.2.zpos ≤ l.1.zpos ∨ l.2.zpos ≤ k.1.zpos) :=
      ⟨fun x y h => by rcases h with h | h | h; exacts [Or.inl h.symm, Or.inr (Or.inr h), Or.inr (Or.inl h)]⟩
    exact fun k hk l hl => List.Pairwise.forall_of_forall (l := adjacent Z)
      (R := fun k l => k = l ∨ k.2.zpos ≤ l.1.zpos ∨ l.2.zpos ≤ k.1.zpos) (fun x _ => Or.inl rfl) h hk hl
  have hjoint : ∀ i ∈ I, ∀ j ∈ I, i.2 = j.1 → Solid P Z (at_ p d i.2) := by
    intro i hi j hj hij
    obtain ⟨k, hk, hki, hlong, hz, ho⟩ := hmem i hi
    obtain ⟨l, hl, hlj, hlong', hz', ho'⟩ := hmem j hj
    obtain ⟨s1, s2⟩ := hscale k hk
    obtain ⟨_, b2, _, b4, bf⟩ := slab_bound P k.1 k.2 p d i.1 i.2 (by linarith) ho
    have hzt : (at_ p d i.2).z = k.1.zpos ∨ (at_ p d i.2).z = k.2.zpos := by
      rcases hdisj k hk l hl with h | h | h
      · subst h
        rw [hki] at hlj
        have := Option.some.inj hlj
        subst this
        linarith
      · rcases apart P p d k l h i.1 i.2 j.1 j.2 (by linarith) (by linarith) ho ho' with ⟨_, _, h3⟩ | ⟨_, h2, _⟩
        · exact Or.inr (h3 hij)
        · linarith
      · rcases apart P p d l k h j.1 j.2 i.1 i.2 (by linarith) (by linarith) ho' ho with ⟨_, h2, _⟩ | ⟨_, _, h3⟩
        · linarith
        · exact Or.inl (h3 hij)
    refine ⟨k, hk, (inSection_iff P hv.convex _ _ s1 s2 _).2 ⟨hz, b2, b4, fun pl hpl => ?_⟩⟩
    exact lt_of_le_of_ne (bf pl hpl).2 (hc.edge k hk hz pl hpl i.2 hzt)
  have hdisjI : ∀ i ∈ I, ∀ j ∈ I, i = j ∨ i.2 ≤ j.1 ∨ j.2 ≤ i.1 := by
    intro i hi j hj
    obtain ⟨k, hk, hki, hlong, hz, ho⟩ := hmem i hi
    obtain ⟨l, hl, hlj, hlong', hz', ho'⟩ := hmem j hj
    rcases hdisj k hk l hl with h | h | h
    · subst h
      rw [hki] at hlj
      exact Or.inl (Option.some.inj hlj)
    · rcases apart P p d k l h i.1 i.2 j.1 j.2 (by linarith) (by linarith) ho ho' with ⟨_, h2, _⟩ | ⟨_, h2, _⟩
      · exact Or.inr (Or.inl h2)
      · exact Or.inr (Or.inr h2)
    · rcases apart P p d l k h j.1 j.2 i.1 i.2 (by linarith) (by linarith) ho' ho with ⟨_, h2, _⟩ | ⟨_, h2, _⟩
      · exact Or.inr (Or.inr h2)
      · exact Or.inr (Or.inl h2)
  -- intervals touch or are clearly apart
  have hgap : ∀ i ∈ I, ∀ j ∈ I, i.2 ≤ j.1 → i.2 = j.1 ∨ i.2 + precision ≤ j.1 := by
    intro i hi j hj hij
    by_contra hno
    push Not at hno
    obtain ⟨n1, n2⟩ := hno
    have hlt : i.2 < j.1 := lt_of_le_of_ne hij n1
    obtain ⟨_, _, _, li, _, _⟩ := hmem i hi
    obtain ⟨_, _, _, lj, _, _⟩ := hmem j hj
    obtain ⟨q, hq⟩ : ∃ q, q = (precision - (j.1 - i.2)) / 4 := ⟨_, rfl⟩
    have hq0 : 0 < q := by rw [hq]; linarith
    have h1 := hin i hi (i.2 - q) (by linarith) (by linarith)
    have h2 := hin j hj (j.1 + q) (by linarith) (by linarith)
    have h3 := hc.gap (i.2 - q) ((i.2 + j.1) / 2) (j.1 + q) (by linarith) (by linarith) (by linarith) h1 h2
    obtain ⟨m, hm, m1, m2⟩ := hout _ h3
    obtain ⟨_, _, _, lm, _, _⟩ := hmem m hm
    have hmi : i.2 ≤ m.1 := by
      rcases hdisjI i hi m hm with h | h | h
      · subst h; linarith
      · exact h
      · linarith
    have hmj : m.2 ≤ j.1 := by
      rcases hdisjI m hm j hj with h | h | h
      · subst h; linarith
      · exact h
      · linarith
    linarith
  have hlong : ∀ i ∈ I, i.1 + precision < i.2 := fun i hi => by obtain ⟨_, _, _, h, _, _⟩ := hmem i hi; exact h
  -- in the order in which the line crosses them
  obtain ⟨J, hJperm, hJ⟩ : ∃ J, I.Perm J ∧ J.Pairwise (fun i j => i.2 ≤ j.1) := by
    have hpw : I.Pairwise (fun i j => (0 < d.z ∧ i.2 ≤ j.1) ∨ (d.z < 0 ∧ j.2 ≤ i.1)) := by
      rw [hI, List.pairwise_filterMap]
      refine (adjacent_pairwise Z hv.sorted).imp_of_mem ?_
      intro k l hk hl hkl i hki j hlj
      rcases section_cases P Z hv p d hc k hk with ⟨h, _⟩ | ⟨a, b, h, h1, h2, h3⟩
      · rw [h] at hki; simp at hki
      rcases section_cases P Z hv p d hc l hl with ⟨h', _⟩ | ⟨a', b', h', h1', h2', h3'⟩
      · rw [h'] at hlj; simp at hlj
      rw [h] at hki
      rw [h'] at hlj
      have e1 := (Option.some.inj hki)
      have e2 := (Option.some.inj hlj)
      subst e1 e2
      rcases apart P p d k l hkl a b a' b' (by linarith) (by linarith) h3 h3' with ⟨g1, g2, _⟩ | ⟨g1, g2, _⟩
      · exact Or.inl ⟨g1, g2⟩
      · exact Or.inr ⟨g1, g2⟩
    by_cases hd : d.z < 0
    · refine ⟨I.reverse, (List.reverse_perm I).symm, ?_⟩
      rw [List.pairwise_reverse]
      refine hpw.imp (fun {a b} h => ?_)
      rcases h with h | h
      · linarith [h.1]
      · exact h.2
    · refine ⟨I, List.Perm.refl _, hpw.imp (fun {a b} h => ?_)⟩
      rcases h with h | h
      · exact h.2
      · exact absurd h.1 hd
  have hJmem : ∀ i, i ∈ J ↔ i ∈ I := fun i => hJperm.symm.mem_iff
  obtain ⟨hperm, hsorted⟩ := hsrt ((Merge.ends I).map (hit p d))
  have hends : (Merge.ends I).Perm (Merge.ends J) := by
    rw [ends_flatMap, ends_flatMap]
    exact hJperm.flatMap_right _
  refine Merge.describes (f := hit p d) (fun c => rfl) (fun c => rfl) J ?_ _ (hperm.trans (hends.map _)) hsorted _ ?_ ?_ ?_
  · refine ordered_of_pairwise J (fun i hi => hlong i ((hJmem i).1 hi)) ?_
    exact hJ.imp_of_mem (fun {i j} hi hj h => hgap i ((hJmem i).1 hi) j ((hJmem j).1 hj) h)
  · exact fun i hi => hin i ((hJmem i).1 hi)
  · intro u hu
    obtain ⟨i, hi, h⟩ := hout u hu
    exact ⟨i, (hJmem i).2 hi, h⟩
  · exact fun i hi j hj => hjoint i ((hJmem i).1 hi) j ((hJmem j).1 hj)

/-- C111: the positions reported are the points of the line at the reported distances. -/
theorem C111_positions (srt : List Isect → List Isect) (hsrt : IsIsectSort srt) (e : Extr) (p d : Vec3 ℝ) :
    ∀ h ∈ computeIntersections srt e p d, h.position = p + Vec3.smul h.distance d := by
  have hdrop : ∀ l : List Isect, ∀ h ∈ dropPairs l, h ∈ l := by
    intro l
    induction l using dropPairs.induct with
    | case1 a b rest hc ih =>
      intro h hh
      rw [dropPairs, if_pos hc] at hh
      exact List.mem_cons_of_mem _ (List.mem_cons_of_mem _ (ih h hh))
    | case2 a b rest hc ih =>
      intro h hh
      rw [dropPairs, if_neg hc] at hh
      rcases List.mem_cons.1 hh with rfl | hh
      · simp
      · exact List.mem_cons_of_mem _ (ih h hh)
    | case3 l hl =>
      intro h hh
      rcases l with _ | ⟨a, _ | ⟨b, r⟩⟩
      · simp [dropPairs] at hh
      · simpa [dropPairs] using hh
      · exact absurd rfl (hl a b r)
  intro h hh
  unfold computeIntersections at hh
  split at hh
  · simp at hh
  · have h1 := (hsrt _).1.subset (hdrop _ h hh)
    rw [hits_eq] at h1
    obtain ⟨c, _, rfl⟩ := List.mem_map.1 h1
    simp only [hit]
    ext <;> simp [Vec3.smul] <;> ring

/-! ### Constructors and setters -/

/-- C111: a polygon with fewer than three vertices is refused; the lateral planes always belong to the current polygon, so an
object changed with the setters is the one that would be built from the new data. -/
theorem C111_constructors (P : List Pt) (Z : List Section) :
    (make P Z = none ↔ P.length < 3) ∧
    (∀ e P' Z', make P Z = some e → 3 ≤ P'.length →
      make P' Z' = some (setZSections (setPolygon e P') Z') ∧ make P Z = some (copy e)) ∧
    (∀ Z', 3 ≤ P.length → make P Z' = some (setZSections (setPolygon makeEmpty P) Z')) := by
  refine ⟨?_, ?_, ?_⟩
  · unfold make; split <;> simp_all
  · intro e P' Z' he h3
    unfold make at he ⊢
    split at he
    · simp at he
    · rename_i hl
      have := Option.some.inj he
      subst this
      rw [if_neg (not_lt.2 h3), if_neg hl]
      exact ⟨rfl, rfl⟩
  · intro Z' h3
    unfold make
    rw [if_neg (not_lt.2 h3)]
    rfl

/-! ### The bounding box -/

theorem fold_sub (b : AABB ℝ) (l : List (Vec3 ℝ)) (hl : ∀ v ∈ l, AABB.Mem v b) (r : AABB ℝ) (hr : AABB.Sub r b) :
    AABB.Sub (l.foldl AABB.expand r) b := by
  induction l generalizing r with
  | nil => exact hr
  | cons v vs ih =>
    rw [List.foldl_cons]
    refine ih (fun x hx => hl x (by simp [hx])) _ ?_
    obtain ⟨⟨a1, a2⟩, ⟨b1, b2⟩, c1, c2⟩ := hl v (by simp)
    obtain ⟨⟨a3, a4⟩, ⟨b3, b4⟩, c3, c4⟩ := hr
    exact ⟨⟨le_min a3 a1, max_le a4 a2⟩, ⟨le_min b3 b1, max_le b4 b2⟩, le_min c3 c1, max_le c4 c2⟩

theorem blend_low (s s' : Section) (a b : ℝ) : blend s s' a b s.zpos = a := by simp [blend]

theorem blend_high (s s' : Section) (a b : ℝ) (h : s.zpos < s'.zpos) : blend s s' a b s'.zpos = b := by
  unfold blend
  rw [div_self (by linarith)]; ring

theorem blend_le (s s' : Section) (a b u z : ℝ) (hz : s.zpos < s'.zpos) (h1 : s.zpos ≤ z) (h2 : z ≤ s'.zpos) (ha : a ≤ u) (hb : b ≤ u) :
    blend s s' a b z ≤ u := by
  unfold blend
  obtain ⟨q, hq⟩ : ∃ q, q = (z - s.zpos) / (s'.zpos - s.zpos) := ⟨_, rfl⟩
  have q0 : 0 ≤ q := by rw [hq]; exact div_nonneg (by linarith) (by linarith)
  have q1 : q ≤ 1 := by rw [hq, div_le_one (by linarith)]; linarith
  rw [← hq]
  nlinarith [mul_nonneg q0 (sub_nonneg.2 hb), mul_nonneg (sub_nonneg.2 q1) (sub_nonneg.2 ha)]

theorem adjacent_cover (Z : List Section) (h2 : 2 ≤ Z.length) (s : Section) (hs : s ∈ Z) :
    ∃ k ∈ adjacent Z, k.1 = s ∨ k.2 = s := by
  induction Z with
  | nil => simp at hs
  | cons a r ih =>
    rcases r with _ | ⟨a', r⟩
    · simp at h2
    · rcases List.mem_cons.1 hs with rfl | hs
      · exact ⟨(s, a'), by simp [adjacent], Or.inl rfl⟩
      · rcases r with _ | ⟨a'', r⟩
        · have : s = a' := by simpa using hs
          exact ⟨(a, a'), by simp [adjacent], Or.inr this.symm⟩
        · obtain ⟨k, hk, h⟩ := ih (by simp) hs
          exact ⟨k, by rw [adjacent]; exact List.mem_cons_of_mem _ hk, h⟩

theorem adjacent_strict (Z : List Section) (h : Z.Pairwise (fun s s' => s.zpos < s'.zpos)) (k : Section × Section) (hk : k ∈ adjacent Z) :
    k.1.zpos < k.2.zpos := by
  induction Z with
  | nil => simp [adjacent] at hk
  | cons s r ih =>
    rcases r with _ | ⟨s', r⟩
    · simp [adjacent] at hk
    · rw [adjacent] at hk
      rcases List.mem_cons.1 hk with rfl | hk
      · exact (List.pairwise_cons.1 h).1 _ (by simp)
      · exact ih (List.pairwise_cons.1 h).2 hk

theorem limit_le (c A B : ℝ) (h : ∀ ε, 0 < ε → ε < 1 → c ≤ A + ε * B) : c ≤ A := by
  by_contra hc
  push Not at hc
  have hB : 0 < B := by
    have := h (1 / 2) (by norm_num) (by norm_num)
    linarith
  have h1 := h (min (1 / 2) ((c - A) / (2 * B))) (lt_min (by norm_num) (div_pos (by linarith) (by linarith)))
    (lt_of_le_of_lt (min_le_left _ _) (by norm_num))
  have h2 := mul_le_mul_of_nonneg_right (min_le_right (1 / 2) ((c - A) / (2 * B))) hB.le
  have h3 : (c - A) / (2 * B) * B = (c - A) / 2 := by field_simp
  rw [h3] at h2
  linarith

/-- A box around the solid contains the outline of every section. -/
theorem outline_mem (P : List Pt) (Z : List Section) (hv : Valid P Z) (hz : Z.Pairwise (fun s s' => s.zpos < s'.zpos))
    (h2 : 2 ≤ Z.length) (b : AABB ℝ) (hb : ∀ v, Solid P Z v → AABB.Mem v b) (s : Section) (hs : s ∈ Z) (v : Pt) (hvP : v ∈ P) :
    AABB.Mem (⟨v.1 * s.scale + s.ox, v.2 * s.scale + s.oy, s.zpos⟩ : Vec3 ℝ) b := by
  obtain ⟨w, hw⟩ := hv.convex.fat
  have hpt : ∀ ε : ℝ, 0 < ε → ε < 1 → Solid P Z ⟨(v.1 + ε * (w.1 - v.1)) * s.scale + s.ox, (v.2 + ε * (w.2 - v.2)) * s.scale + s.oy, s.zpos⟩ := by
    intro ε h0 h1
    obtain ⟨k, hk, hks⟩ := adjacent_cover Z h2 s hs
    have hkz := adjacent_strict Z hz k hk
    have hint : ε • w + (1 - ε) • v ∈ interior (hull P) :=
      (convex_convexHull ℝ _).combo_interior_self_mem_interior hw (subset_convexHull ℝ _ hvP) h0 (by linarith) (by ring)
    refine ⟨k, hk, hkz, ?_, ?_, _, hint, ?_, ?_⟩
    · rcases hks with h | h <;> rw [← h]
      exact hkz.le
    · rcases hks with h | h <;> rw [← h]
      exact hkz.le
    · rcases hks with h | h
      · rw [← h]; simp only [blend_low, Prod.fst_add, Prod.smul_fst, smul_eq_mul]; ring
      · rw [← h]; simp only [blend_high _ _ _ _ hkz, Prod.fst_add, Prod.smul_fst, smul_eq_mul]; ring
    · rcases hks with h | h
      · rw [← h]; simp only [blend_low, Prod.snd_add, Prod.smul_snd, smul_eq_mul]; ring
      · rw [← h]; simp only [blend_high _ _ _ _ hkz, Prod.snd_add, Prod.smul_snd, smul_eq_mul]; ring
  have hm := fun ε h0 h1 => hb _ (hpt ε h0 h1)
  have hz' := (hm (1 / 2) (by norm_num) (by norm_num)).2.2
  refine ⟨⟨?_, ?_⟩, ⟨?_, ?_⟩, hz'⟩
  · refine limit_le _ _ ((w.1 - v.1) * s.scale) (fun ε h0 h1 => ?_)
    have := (hm ε h0 h1).1.1
    simp only at this; linarith
  · have := limit_le (-b.max.x) (-(v.1 * s.scale + s.ox)) (-((w.1 - v.1) * s.scale)) (fun ε h0 h1 => by
      have := (hm ε h0 h1).1.2
      simp only at this; linarith)
    simp only; linarith
  · refine limit_le _ _ ((w.2 - v.2) * s.scale) (fun ε h0 h1 => ?_)
    have := (hm ε h0 h1).2.1.1
    simp only at this; linarith
  · have := limit_le (-b.max.y) (-(v.2 * s.scale + s.oy)) (-((w.2 - v.2) * s.scale)) (fun ε h0 h1 => by
      have := (hm ε h0 h1).2.1.2
      simp only at this; linarith)
    simp only; linarith

/-- C111: the bounding box contains the solid; if the heights of the sections are all different, no smaller box does. -/
theorem C111_bounding_box (big : ℝ) (e : Extr) (hv : Valid e.polygon e.sections) :
    (∀ v, Solid e.polygon e.sections v → AABB.Mem v (boundingBox big e)) ∧
    (e.sections.Pairwise (fun s s' => s.zpos < s'.zpos) → 2 ≤ e.sections.length →
      (∀ s ∈ e.sections, ∀ v ∈ e.polygon, |v.1 * s.scale + s.ox| ≤ big ∧ |v.2 * s.scale + s.oy| ≤ big ∧ |s.zpos| ≤ big) →
      ∀ b, (∀ v, Solid e.polygon e.sections v → AABB.Mem v b) → AABB.Sub (boundingBox big e) b) := by
  obtain ⟨P, Z, planes⟩ := e
  simp only at hv ⊢
  obtain ⟨-, hin⟩ := foldl_include_sub id
    (Z.flatMap (fun s => P.map (fun v => (⟨v.1 * s.scale + s.ox, v.2 * s.scale + s.oy, s.zpos⟩ : Vec3 ℝ)))) (AABB.empty big)
  have hvert : ∀ s ∈ Z, ∀ v ∈ P, AABB.Mem (⟨v.1 * s.scale + s.ox, v.2 * s.scale + s.oy, s.zpos⟩ : Vec3 ℝ)
      (boundingBox big ⟨P, Z, planes⟩) := fun s hs v hvP =>
    hin _ (List.mem_flatMap.2 ⟨s, hs, List.mem_map.2 ⟨v, hvP, rfl⟩⟩)
  obtain ⟨B, hB⟩ : ∃ B, B = boundingBox big ⟨P, Z, planes⟩ := ⟨_, rfl⟩
  rw [← hB] at hvert ⊢
  have hP : P ≠ [] := by intro h0; have := hv.convex.size; rw [h0] at this; simp at this
  obtain ⟨v0, hv0⟩ := List.exists_mem_of_ne_nil P hP
  constructor
  · rintro v ⟨k, hk, hz, h1, h2, w, hw, hx, hy⟩
    obtain ⟨m1, m2⟩ := adjacent_mem Z k hk
    have hw' := interior_subset hw
    have lin : ∀ a b c : ℝ, blend k.1 k.2 (a * k.1.scale + b) (a * k.2.scale + c) v.z
        = a * blend k.1 k.2 k.1.scale k.2.scale v.z + blend k.1 k.2 b c v.z := by
      intro a b c; unfold blend; ring
    have neg : ∀ a b : ℝ, blend k.1 k.2 (-a) (-b) v.z = -blend k.1 k.2 a b v.z := by
      intro a b; unfold blend; ring
    refine ⟨⟨?_, ?_⟩, ⟨?_, ?_⟩, ?_, ?_⟩
    · have := hull_le P (-blend k.1 k.2 k.1.scale k.2.scale v.z) 0 (-B.min.x + blend k.1 k.2 k.1.ox k.2.ox v.z) (fun q hq => by
        have := blend_le k.1 k.2 (-(q.1 * k.1.scale + k.1.ox)) (-(q.1 * k.2.scale + k.2.ox)) (-B.min.x) v.z hz h1 h2
          (neg_le_neg (hvert k.1 m1 q hq).1.1) (neg_le_neg (hvert k.2 m2 q hq).1.1)
        rw [neg, lin] at this; linarith) w hw'
      rw [hx]; linarith
    · have := hull_le P (blend k.1 k.2 k.1.scale k.2.scale v.z) 0 (B.max.x - blend k.1 k.2 k.1.ox k.2.ox v.z) (fun q hq => by
        have := blend_le k.1 k.2 (q.1 * k.1.scale + k.1.ox) (q.1 * k.2.scale + k.2.ox) B.max.x v.z hz h1 h2
          (hvert k.1 m1 q hq).1.2 (hvert k.2 m2 q hq).1.2
        rw [lin] at this; linarith) w hw'
      rw [hx]; linarith
    · have := hull_le P 0 (-blend k.1 k.2 k.1.scale k.2.scale v.z) (-B.min.y + blend k.1 k.2 k.1.oy k.2.oy v.z) (fun q hq => by
        have := blend_le k.1 k.2 (-(q.2 * k.1.scale + k.1.oy)) (-(q.2 * k.2.scale + k.2.oy)) (-B.min.y) v.z hz h1 h2
          (neg_le_neg (hvert k.1 m1 q hq).2.1.1) (neg_le_neg (hvert k.2 m2 q hq).2.1.1)
        rw [neg, lin] at this; linarith) w hw'
      rw [hy]; linarith
    · have := hull_le P 0 (blend k.1 k.2 k.1.scale k.2.scale v.z) (B.max.y - blend k.1 k.2 k.1.oy k.2.oy v.z) (fun q hq => by
        have := blend_le k.1 k.2 (q.2 * k.1.scale + k.1.oy) (q.2 * k.2.scale + k.2.oy) B.max.y v.z hz h1 h2
          (hvert k.1 m1 q hq).2.1.2 (hvert k.2 m2 q hq).2.1.2
        rw [lin] at this; linarith) w hw'
      rw [hy]; linarith
    · exact le_trans (hvert k.1 m1 v0 hv0).2.2.1 h1
    · exact le_trans h2 (hvert k.2 m2 v0 hv0).2.2.2
  · intro hz h2 hbig b hb
    have hall := outline_mem P Z hv hz h2 b hb
    rw [hB]
    refine fold_sub b _ ?_ _ ?_
    · intro v hvm
      obtain ⟨s, hs, hvm⟩ := List.mem_flatMap.1 hvm
      obtain ⟨q, hq, rfl⟩ := List.mem_map.1 hvm
      exact hall s hs q hq
    · obtain ⟨s, hs⟩ : ∃ s, s ∈ Z := by
        rcases Z with _ | ⟨s, r⟩
        · simp at h2
        · exact ⟨s, by simp⟩
      obtain ⟨⟨a1, a2⟩, ⟨b1, b2⟩, c1, c2⟩ := hall s hs v0 hv0
      obtain ⟨g1, g2, g3⟩ := hbig s hs v0 hv0
      simp only at a1 a2 b1 b2 c1 c2
      rw [abs_le] at g1 g2 g3
      exact ⟨⟨le_trans a1 g1.2, le_trans g1.1 a2⟩, ⟨le_trans b1 g2.2, le_trans g2.1 b2⟩, le_trans c1 g3.2, le_trans g3.1 c2⟩

/-! ### Where the report is wrong -/

/-- C111: sections listed from top to bottom are accepted, and no line ever meets the solid. -/
theorem C111_downward_fails (P : List Pt) (Z : List Section) (hv : Valid P Z) :
    ∃ e, make P Z.reverse = some e ∧ ∀ srt, IsIsectSort srt → ∀ p d, computeIntersections srt e p d = [] := by
  refine ⟨⟨P, Z.reverse, lateralPlanes P⟩, by unfold make; rw [if_neg (not_lt.2 hv.convex.size)], ?_⟩
  intro srt hsrt p d
  unfold computeIntersections
  simp only
  split
  · rfl
  · have hdown : ∀ Y : List Section, Y.Pairwise (fun s s' => s'.zpos ≤ s.zpos) → ∀ k ∈ adjacent Y, k.2.zpos ≤ k.1.zpos := by
      intro Y
      induction Y with
      | nil => intro _ k hk; simp [adjacent] at hk
      | cons s r ih =>
        intro h k hk
        rcases r with _ | ⟨s', r⟩
        · simp [adjacent] at hk
        · rw [adjacent] at hk
          rcases List.mem_cons.1 hk with rfl | hk
          · exact (List.pairwise_cons.1 h).1 _ (by simp)
          · exact ih (List.pairwise_cons.1 h).2 k hk
    have hnil : (adjacent Z.reverse).flatMap (fun k => sectionHits (lateralPlanes P) p d k.1 k.2) = [] := by
      rw [List.flatMap_eq_nil_iff]
      intro k hk
      have := hdown Z.reverse (by rw [List.pairwise_reverse]; exact hv.sorted) k hk
      unfold sectionHits interval range
      rw [if_pos (by linarith)]
    rw [hnil]
    have : srt [] = [] := by simpa using (hsrt []).1
    rw [this]
    rw [dropPairs]
    simp

/-- The unit square. -/
def square : List Pt := [(0, 0), (1, 0), (1, 1), (0, 1)]

theorem square_edges : edges square = [((0, 1), (0, 0)), ((0, 0), (1, 0)), ((1, 0), (1, 1)), ((1, 1), (0, 1))] := rfl

theorem square_planes : lateralPlanes square = [⟨-1, 0, 0⟩, ⟨0, -1, 0⟩, ⟨1, 0, -1⟩, ⟨0, 1, -1⟩] := by
  have ha : signedArea square = 2 := by
    unfold signedArea
    rw [square_edges]
    norm_num
  unfold lateralPlanes
  rw [if_neg (by simp [square]), ha, square_edges]
  norm_num [planeOf]

theorem square_convex : IsConvex square := by
  have hside : ∀ e ∈ edges square, ∀ v ∈ square, 0 ≤ side e v := by
    rw [square_edges]
    simp only [square, List.forall_mem_cons, List.not_mem_nil, false_implies, implies_true, and_true, side, cross, Prod.fst_sub, Prod.snd_sub]
    norm_num
  have hlong : ∀ e ∈ edges square, 1 ≤ Real.sqrt ((e.2.1 - e.1.1) * (e.2.1 - e.1.1) + (e.2.2 - e.1.2) * (e.2.2 - e.1.2)) := by
    rw [square_edges]
    simp only [List.forall_mem_cons, List.not_mem_nil, false_implies, implies_true, and_true]
    norm_num
  refine ⟨by simp [square], fun e he => le_trans (by norm_num) (hlong e he), Or.inl hside, (1 / 2, 1 / 2), ?_⟩
  rw [interior_iff square (by simp [square]) 1 one_ne_zero (fun e he v hv => by rw [one_mul]; exact hside e he v hv)
    (fun e he => Real.sqrt_pos.1 (lt_of_lt_of_le one_pos (hlong e he)))]
  rw [square_edges]
  simp only [List.forall_mem_cons, List.not_mem_nil, false_implies, implies_true, and_true, side, cross, Prod.fst_sub, Prod.snd_sub]
  norm_num

/-- A cube in two halves. -/
def halves : List Section := [⟨0, 1, 0, 0⟩, ⟨1, 1, 0, 0⟩, ⟨2, 1, 0, 0⟩]

theorem halves_valid : Valid square halves := by
  refine ⟨square_convex, ?_, ?_⟩
  · simp [halves]
  · simp [halves]

/-- C111: a horizontal line in the plane of a section between two others enters twice before it leaves, whatever the sort. -/
theorem C111_level_fails : ∃ e p d, make square halves = some e ∧ Valid square halves ∧ p.z = 1 ∧ d = ⟨1, 0, 0⟩ ∧
    ∀ srt, IsIsectSort srt → (computeIntersections srt e p d).map (fun h => (h.distance, h.entering))
      = [(1, true), (1, true), (2, false), (2, false)] ∧ ¬ Alternates false (computeIntersections srt e p d) := by
  refine ⟨⟨square, halves, lateralPlanes square⟩, ⟨-1, 1 / 2, 1⟩, ⟨1, 0, 0⟩, rfl, halves_valid, rfl, rfl, ?_⟩
  intro srt hsrt
  have hp : precision = 1 / 1000000000 := rfl
  have hi1 : interval (lateralPlanes square) ⟨-1, 1 / 2, 1⟩ ⟨1, 0, 0⟩ ⟨0, 1, 0, 0⟩ ⟨1, 1, 0, 0⟩ = some (1, 2) := by
    rw [square_planes]
    norm_num [interval, range, clip, cosa, dist, hp, AABB.fmaxO, AABB.fminO]
  have hi2 : interval (lateralPlanes square) ⟨-1, 1 / 2, 1⟩ ⟨1, 0, 0⟩ ⟨1, 1, 0, 0⟩ ⟨2, 1, 0, 0⟩ = some (1, 2) := by
    rw [square_planes]
    norm_num [interval, range, clip, cosa, dist, hp, AABB.fmaxO, AABB.fminO]
  obtain ⟨E, hE⟩ : ∃ E, E = hit ⟨-1, 1 / 2, 1⟩ ⟨1, 0, 0⟩ (1, true) := ⟨_, rfl⟩
  obtain ⟨X, hX⟩ : ∃ X, X = hit ⟨-1, 1 / 2, 1⟩ ⟨1, 0, 0⟩ (2, false) := ⟨_, rfl⟩
  have dE : E.distance = 1 := by rw [hE]; rfl
  have dX : X.distance = 2 := by rw [hX]; rfl
  have eE : E.entering = true := by rw [hE]; rfl
  have eX : X.entering = false := by rw [hX]; rfl
  have hhits : (adjacent halves).flatMap (fun k => sectionHits (lateralPlanes square) ⟨-1, 1 / 2, 1⟩ ⟨1, 0, 0⟩ k.1 k.2) = [E, X, E, X] := by
    simp only [halves, adjacent, List.flatMap_cons, List.flatMap_nil, sectionHits, hi1, hi2, hE, hX]
    rfl
  have hsorted : srt [E, X, E, X] = [E, E, X, X] := by
    obtain ⟨h1, h2⟩ := hsrt [E, X, E, X]
    refine List.Perm.eq_of_pairwise ?_ h2 ?_ (h1.trans ?_)
    · intro a b ha hb hab hba
      have ha' := h1.subset ha
      simp only [List.mem_cons, List.not_mem_nil, or_false] at ha' hb
      have hba' := hba
      rcases ha' with rfl | rfl | rfl | rfl <;> rcases hb with rfl | rfl | rfl | rfl <;> first | rfl | linarith
    · simp [dE, dX]
    · exact List.Perm.cons _ (List.Perm.swap _ _ _)
  have hres : computeIntersections srt ⟨square, halves, lateralPlanes square⟩ ⟨-1, 1 / 2, 1⟩ ⟨1, 0, 0⟩ = [E, E, X, X] := by
    unfold computeIntersections
    rw [if_neg (by simp [halves, square_planes])]
    simp only
    rw [hhits, hsorted]
    rw [dropPairs, if_neg (by simp), dropPairs, if_neg (by rw [dE, dX, hp]; norm_num), dropPairs, if_neg (by simp), dropPairs]
    simp
  rw [hres]
  constructor
  · simp [dE, dX, eE, eX]
  · simp [Alternates, eE]

/-- An L shape. -/
def ell : List Pt := [(0, 0), (2, 0), (2, 1), (1, 1), (1, 2), (0, 2)]

theorem ell_edges : edges ell = [((0, 2), (0, 0)), ((0, 0), (2, 0)), ((2, 0), (2, 1)), ((2, 1), (1, 1)), ((1, 1), (1, 2)), ((1, 2), (0, 2))] :=
  rfl

/-- C111: polygons that are not convex are accepted too. A vertical line through an arm of an L (a half line from there crosses
the outline once) is reported to miss the solid. -/
theorem C111_concave_fails : ∃ e, make ell [⟨0, 1, 0, 0⟩, ⟨1, 1, 0, 0⟩] = some e ∧ crossings ell (1 / 2, 3 / 2) = 1 ∧
    ∀ srt, IsIsectSort srt → computeIntersections srt e ⟨1 / 2, 3 / 2, -1⟩ ⟨0, 0, 1⟩ = [] := by
  refine ⟨⟨ell, [⟨0, 1, 0, 0⟩, ⟨1, 1, 0, 0⟩], lateralPlanes ell⟩, rfl, ?_, ?_⟩
  · unfold crossings
    rw [ell_edges]
    norm_num [List.filter_cons]
  · intro srt hsrt
    have hp : precision = 1 / 1000000000 := rfl
    have ha : signedArea ell = 6 := by
      unfold signedArea
      rw [ell_edges]
      norm_num
    have hs4 : Real.sqrt 4 = 2 := by rw [show (4 : ℝ) = 2 * 2 by norm_num]; exact Real.sqrt_mul_self (by norm_num)
    have hpl : lateralPlanes ell = [⟨-1, 0, 0⟩, ⟨0, -1, 0⟩, ⟨1, 0, -2⟩, ⟨0, 1, -1⟩, ⟨1, 0, -1⟩, ⟨0, 1, -2⟩] := by
      unfold lateralPlanes
      rw [if_neg (by simp [ell]), ha, ell_edges]
      norm_num [planeOf, hs4]
    have hi : interval (lateralPlanes ell) ⟨1 / 2, 3 / 2, -1⟩ ⟨0, 0, 1⟩ ⟨0, 1, 0, 0⟩ ⟨1, 1, 0, 0⟩ = none := by
      rw [hpl]
      norm_num [interval, range, clip, cosa, dist, hp, AABB.fmaxO, AABB.fminO]
    unfold computeIntersections
    split
    · rfl
    · simp only [adjacent, List.flatMap_cons, List.flatMap_nil, sectionHits, hi, List.append_nil]
      have : srt [] = [] := by simpa using (hsrt []).1
      rw [this, dropPairs]
      simp

/-! ### The hypotheses are met -/

/-- A square that widens and narrows again. -/
def bulge : List Section := [⟨0, 1, 0, 0⟩, ⟨1, 2, 0, 0⟩, ⟨2, 1, 0, 0⟩]

theorem bulge_valid : Valid square bulge := by
  refine ⟨square_convex, ?_, ?_⟩
  · simp [bulge]
  · simp [bulge]

theorem bulge_in (u : ℝ) : (1 ≤ u ∧ u ≤ 2 → InSection square ⟨0, 1, 0, 0⟩ ⟨1, 2, 0, 0⟩ (at_ ⟨1 / 2, 1 / 2, -1⟩ ⟨0, 0, 1⟩ u)) ∧
    (2 ≤ u ∧ u ≤ 3 → InSection square ⟨1, 2, 0, 0⟩ ⟨2, 1, 0, 0⟩ (at_ ⟨1 / 2, 1 / 2, -1⟩ ⟨0, 0, 1⟩ u)) := by
  constructor
  · rintro ⟨h1, h2⟩
    rw [inSection_iff square square_convex _ _ (by norm_num) (by norm_num), square_planes]
    refine ⟨by norm_num, by simp only [at_]; linarith, by simp only [at_]; linarith, ?_⟩
    simp only [List.forall_mem_cons, List.not_mem_nil, false_implies, implies_true, and_true, face, blend, at_]
    refine ⟨?_, ?_, ?_, ?_⟩ <;> norm_num <;> linarith
  · rintro ⟨h1, h2⟩
    rw [inSection_iff square square_convex _ _ (by norm_num) (by norm_num), square_planes]
    refine ⟨by norm_num, by simp only [at_]; linarith, by simp only [at_]; linarith, ?_⟩
    simp only [List.forall_mem_cons, List.not_mem_nil, false_implies, implies_true, and_true, face, blend, at_]
    refine ⟨?_, ?_, ?_, ?_⟩ <;> norm_num <;> linarith

/-- A vertical line through both sections of a valid solid is clear of it. -/
theorem bulge_clear : Clear square bulge ⟨1 / 2, 1 / 2, -1⟩ ⟨0, 0, 1⟩ := by
  have hp : precision = 1 / 1000000000 := rfl
  have hadj : adjacent bulge = [(⟨0, 1, 0, 0⟩, ⟨1, 2, 0, 0⟩), (⟨1, 2, 0, 0⟩, ⟨2, 1, 0, 0⟩)] := rfl
  refine ⟨by norm_num, by norm_num [hp], by norm_num, ?_, ?_, ?_, ?_⟩
  · rw [hadj, square_planes]
    simp only [List.forall_mem_cons, List.not_mem_nil, false_implies, implies_true, and_true, face, blend, at_, hp]
    norm_num
  · rw [hadj, square_planes]
    simp only [List.forall_mem_cons, List.not_mem_nil, false_implies, implies_true, and_true, face, blend, at_]
    refine ⟨?_, ?_⟩
    · intro _
      refine ⟨?_, ?_, ?_, ?_⟩ <;> intro u hu <;> norm_num at hu ⊢ <;> rcases hu with hu | hu <;> intro h <;> linarith
    · intro _
      refine ⟨?_, ?_, ?_, ?_⟩ <;> intro u hu <;> norm_num at hu ⊢ <;> rcases hu with hu | hu <;> intro h <;> linarith
  · rw [hadj]
    simp only [List.forall_mem_cons, List.not_mem_nil, false_implies, implies_true, and_true]
    exact ⟨Or.inr ⟨1, 2, (bulge_in 1).1 (by norm_num), (bulge_in 2).1 (by norm_num), by norm_num [hp]⟩,
      Or.inr ⟨2, 3, (bulge_in 2).2 (by norm_num), (bulge_in 3).2 (by norm_num), by norm_num [hp]⟩⟩
  · intro t r u h1 h2 _ ht hu
    have hrange : ∀ x, Solid square bulge (at_ ⟨1 / 2, 1 / 2, -1⟩ ⟨0, 0, 1⟩ x) → 1 ≤ x ∧ x ≤ 3 := by
      rintro x ⟨k, hk, _, h3, h4, _⟩
      rw [hadj] at hk
      simp only [List.mem_cons, List.not_mem_nil, or_false] at hk
      rcases hk with rfl | rfl <;> simp only [at_] at h3 h4 <;> constructor <;> linarith
    have a1 := (hrange t ht).1
    have a2 := (hrange u hu).2
    by_cases hr : r ≤ 2
    · exact ⟨(⟨0, 1, 0, 0⟩, ⟨1, 2, 0, 0⟩), by rw [hadj]; simp, (bulge_in r).1 ⟨by linarith, hr⟩⟩
    · exact ⟨(⟨1, 2, 0, 0⟩, ⟨2, 1, 0, 0⟩), by rw [hadj]; simp, (bulge_in r).2 ⟨by linarith, by linarith⟩⟩

/-- The line through both sections is reported to enter once and leave once. -/
example (srt : List Isect → List Isect) (hsrt : IsIsectSort srt) : ∃ e, make square bulge = some e ∧
    Describes precision (fun u => Solid square bulge (at_ ⟨1 / 2, 1 / 2, -1⟩ ⟨0, 0, 1⟩ u))
      (computeIntersections srt e ⟨1 / 2, 1 / 2, -1⟩ ⟨0, 0, 1⟩) ∧
    Solid square bulge (at_ ⟨1 / 2, 1 / 2, -1⟩ ⟨0, 0, 1⟩ 2) :=
  ⟨⟨square, bulge, lateralPlanes square⟩, rfl, C111_describes srt hsrt ⟨square, bulge, lateralPlanes square⟩ rfl bulge_valid _ _ bulge_clear,
    (⟨0, 1, 0, 0⟩, ⟨1, 2, 0, 0⟩), by simp [bulge, adjacent], (bulge_in 2).1 (by norm_num)⟩

/-- The bounding box of the widening square is the smallest. -/
example : (∀ s ∈ bulge, ∀ v ∈ square, |v.1 * s.scale + s.ox| ≤ 1000 ∧ |v.2 * s.scale + s.oy| ≤ 1000 ∧ |s.zpos| ≤ 1000) ∧
    bulge.Pairwise (fun s s' => s.zpos < s'.zpos) := by
  constructor
  · simp only [bulge, square, List.forall_mem_cons, List.not_mem_nil, false_implies, implies_true, and_true]
    norm_num [abs_le]
  · simp [bulge]

end Siren.Geometry.ExtrPoly
