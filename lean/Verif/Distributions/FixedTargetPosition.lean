import Verif.Distributions.FixedTargetArea
import Verif.Distributions.DepthPositionProps
import Verif.Geometry.Local

set_option autoImplicit false

/-!
# Vertices behind a fixed target (C106)

Models `distributions/private/primary/vertex/FixedTargetPositionDistribution.cxx`: a point is drawn in the target, and a vertex on the line through it
along the direction of the particle, behind the target, according to the interaction depth. The crossings of the target and of the fiducial volume are
parameters of the model; for the target they are instantiated with the model of `Cylinder::ComputeIntersections` (C75).
-/

namespace Siren.Distributions.FixedTargetPosition

open Siren Siren.Util Siren.Geometry Siren.Detector Siren.Injection Siren.Distributions Siren.Distributions.Space Siren.Distributions.FixedTargetArea
open scoped Real

/-! ## Model -/

/-- The members of `FixedTargetPositionDistribution` (FixedTargetPositionDistribution.h:33-35). `hits` are the sorted crossings of the line through a
point along a direction with the cylinder; `fiducial` the distances and positions of the crossings with the fiducial volume, if there is one. -/
structure Dist where
  cylinder : CylinderShape
  hits : Vec3 ℝ → Vec3 ℝ → List Isect
  fiducial : Option (Vec3 ℝ → Vec3 ℝ → List (ℝ × Vec3 ℝ))
  maxLength : EReal

/-- The path behind the last crossing (FixedTargetPositionDistribution.cxx:61-87, 128-154, 227-253); `back()` of an empty vector is undefined. -/
noncomputable def Dist.path (f : Dist) (D : PathDetector) (hits : List Isect) (dir : Vec3 ℝ) : Res Path :=
  match hits.getLast? with
  | none => .ub
  | some last => boundedPath D last.position dir f.maxLength (f.fiducial.map fun g => g last.position dir)

/-- `FixedTargetPositionDistribution::SamplePosition` (FixedTargetPositionDistribution.cxx:48-121) for the outputs `g1 g2 g3 y` of the generator. -/
noncomputable def Dist.sample (f : Dist) (D : PathDetector) (dir : Vec3 ℝ) (k : Totals) (g1 g2 g3 y : ℝ) : Res (Vec3 ℝ × Vec3 ℝ) :=
  let init := f.cylinder.draw g1 g2 g3
  (f.path D (f.hits init dir) dir).bind fun p =>
    (vertexOn p k y).bind fun vertex => .ok (init, vertex)

/-- The volume in the density (FixedTargetPositionDistribution.cxx:202-205). -/
noncomputable def Dist.targetVolume (f : Dist) : ℝ :=
  π * (f.cylinder.radius * f.cylinder.radius - f.cylinder.innerRadius * f.cylinder.innerRadius) * f.cylinder.z

/-- The length in the density (FixedTargetPositionDistribution.cxx:192-200). -/
noncomputable def length (hits : List Isect) : Res ℝ :=
  match hits.head?, hits.getLast? with
  | some a, some b => if 2 ≤ hits.length then .ok (Vec3.norm (b.position - a.position)) else .throws .runtimeError
  | _, _ => .ok 0

/-- `FixedTargetPositionDistribution::GenerationProbability` (FixedTargetPositionDistribution.cxx:123-208). A vertex outside of the path returns before the
length is computed. -/
noncomputable def Dist.generationProbability (f : Dist) (D : PathDetector) (dir : Vec3 ℝ) (k : Totals) (vertex : Vec3 ℝ) : Res ℝ :=
  let hits := f.hits vertex dir
  (f.path D hits dir).bind fun p =>
    (p.withinDet vertex).bind fun within =>
      if !within then .ok 0
      else (densityOn false p k vertex).bind fun density =>
        (length hits).bind fun l => .ok (density * l / f.targetVolume)

/-- `FixedTargetPositionDistribution::InjectionBounds` (FixedTargetPositionDistribution.cxx:224-264). -/
noncomputable def Dist.injectionBounds (f : Dist) (D : PathDetector) (dir : Vec3 ℝ) (vertex : Vec3 ℝ) : Res (Vec3 ℝ × Vec3 ℝ) :=
  let hits := f.hits vertex dir
  if hits.length = 0 then .ok (0, 0)
  else if hits.length < 2 then .throws .runtimeError
  else (f.path D hits dir).bind fun p => boundsOn true p vertex

/-- `FixedTargetPositionDistribution::equal` (FixedTargetPositionDistribution.cxx:266-273), given `==` on cylinders. -/
def Dist.equal (same : CylinderShape → CylinderShape → Bool) (f g : Dist) : Bool := same f.cylinder g.cylinder

/-! ## Specification -/

/-- The part of the line through a point that is in the target. -/
def inside (c : CylinderShape) (point dir : Vec3 ℝ) : Set ℝ := {s | coords (point + Vec3.smul s dir) ∈ solid c}

/-- The crossings of the target, as computed for the cylinder (C75). -/
noncomputable def crossings (srt : List SHit → List SHit) (c : CylinderShape) : Vec3 ℝ → Vec3 ℝ → List Isect :=
  placed c.placement (Cylinder.compute srt ⟨c.radius, c.innerRadius, c.z, c.startPhi, c.deltaPhi, false⟩)

/-- A line that does not touch a rim of the target and whose crossings are at least `2e-9` apart. -/
structure Clear (c : CylinderShape) (point dir : Vec3 ℝ) : Prop where
  rims : Cylinder.ClearOfRims ⟨c.radius, c.innerRadius, c.z, c.startPhi, c.deltaPhi, false⟩ (c.placement.globalToLocalPosition point)
    (c.placement.globalToLocalDirection dir)
  apart : Cylinder.Apart ⟨c.radius, c.innerRadius, c.z, c.startPhi, c.deltaPhi, false⟩ (c.placement.globalToLocalPosition point)
    (c.placement.globalToLocalDirection dir)

/-! ## Lines -/

theorem shift (p d : Vec3 ℝ) (s t : ℝ) : p + Vec3.smul s d + Vec3.smul t d = p + Vec3.smul (s + t) d := by
  ext <;> simp <;> ring

/-- The condition is one on the line. -/
theorem Clear.move {c : CylinderShape} (hp : c.placement.Valid) {point dir : Vec3 ℝ} (h : Clear c point dir) (r : ℝ) :
    Clear c (point + Vec3.smul r dir) dir := by
  obtain ⟨⟨h1, h2, h3⟩, h4⟩ := h
  refine ⟨⟨?_, ?_, ?_⟩, ?_⟩
  · intro t; rw [Placement.C41_line _ hp, shift]; exact h1 _
  · intro hi t; rw [Placement.C41_line _ hp, shift]; exact h2 hi _
  · intro t; rw [Placement.C41_line _ hp, shift]; exact h3 _
  · intro t u
    rw [Placement.C41_line _ hp, shift, shift]
    intro a b hlt
    have := h4 _ _ a b (by linarith)
    linarith

/-- The state next to the first and the last of crossings in turn. -/
theorem state_ends (hits : List Isect) (hs : hits.Pairwise fun a b => a.distance < b.distance) (ha : Alternates false hits) (hne : hits ≠ []) :
    2 ≤ hits.length ∧ ∃ a b, hits.head? = some a ∧ hits.getLast? = some b ∧ a.distance < b.distance ∧
      (∀ t, t ≤ a.distance → stateFrom false hits t = false) ∧ (∀ t, b.distance < t → stateFrom false hits t = false) ∧
      (∃ m, a.distance < m ∧ ∀ t, a.distance < t → t < m → stateFrom false hits t = true ∧ ∀ h ∈ hits, h.distance ≠ t) ∧
      (∃ m, m < b.distance ∧ ∀ t, m < t → t < b.distance → stateFrom false hits t = true ∧ ∀ h ∈ hits, h.distance ≠ t) := by
  match hits, hs, ha, hne with
  | [], _, _, hne => exact absurd rfl hne
  | [a], _, ha, _ =>
    have h1 : a.entering = true := by simpa using ha.1
    have h2 : a.entering = false := ha.2
    rw [h1] at h2; cases h2
  | a :: b :: rest, hs, ha, _ =>
    have h1 : a.entering = true := by simpa using ha.1
    have h2 : b.entering = false := by have := ha.2.1; rw [h1] at this; simpa using this
    have h3 : Alternates false rest := by have := ha.2.2; rwa [h2] at this
    obtain ⟨p1, p2⟩ := List.pairwise_cons.mp hs
    obtain ⟨p3, p4⟩ := List.pairwise_cons.mp p2
    have hab := p1 b (by simp)
    have low : ∀ t, t ≤ a.distance → stateFrom false (a :: b :: rest) t = false := by
      intro t ht
      apply stateFrom_all_ge
      intro x hx
      rcases List.mem_cons.mp hx with rfl | hx
      · exact ht
      · exact ht.trans (p1 x hx).le
    have mid : ∀ t, a.distance < t → t < b.distance →
        stateFrom false (a :: b :: rest) t = true ∧ ∀ h ∈ a :: b :: rest, h.distance ≠ t := by
      intro t k1 k2
      constructor
      · rw [stateFrom_cons_lt _ _ _ _ k1, stateFrom_cons_ge _ _ _ _ (not_lt.mpr k2.le), h1,
          stateFrom_all_ge _ _ _ fun x hx => k2.le.trans (p3 x hx).le]
      · intro h hh
        rcases List.mem_cons.mp hh with rfl | hh
        · exact k1.ne
        · rcases List.mem_cons.mp hh with rfl | hh
          · exact k2.ne'
          · exact (k2.trans (p3 h hh)).ne'
    have high : ∀ t, b.distance < t → stateFrom false (a :: b :: rest) t = stateFrom false rest t := by
      intro t k
      rw [stateFrom_cons_lt _ _ _ _ (hab.trans k), stateFrom_cons_lt _ _ _ _ k, h2]
    by_cases hr : rest = []
    · subst hr
      refine ⟨by simp, a, b, rfl, rfl, hab, low, ?_, ⟨b.distance, hab, mid⟩, ⟨a.distance, hab, mid⟩⟩
      intro t ht
      rw [high t ht]; simp
    · obtain ⟨-, c, d, e1, e2, e3, -, e5, -, ⟨m, e7, e8⟩⟩ := state_ends rest p4 h3 hr
      have hc : c ∈ rest := by cases rest with
        | nil => simp at hr
        | cons x xs => simp only [List.head?_cons, Option.some.injEq] at e1; simp [e1]
      have hbc := p3 c hc
      refine ⟨by simp, a, d, rfl, ?_, by linarith, low, ?_, ⟨b.distance, hab, mid⟩, ⟨max m b.distance, max_lt e7 (by linarith), ?_⟩⟩
      · rw [List.getLast?_cons, List.getLast?_cons, e2]; rfl
      · intro t ht
        rw [high t (by linarith)]
        exact e5 t ht
      · intro t k1 k2
        have k3 : b.distance < t := (le_max_right _ _).trans_lt k1
        have k4 : m < t := (le_max_left _ _).trans_lt k1
        rw [high t k3]
        refine ⟨(e8 t k4 k2).1, ?_⟩
        intro h hh
        rcases List.mem_cons.mp hh with rfl | hh
        · exact (hab.trans k3).ne
        · rcases List.mem_cons.mp hh with rfl | hh
          · exact k3.ne
          · exact (e8 t k4 k2).2 h hh

/-- Crossings in turn, at least one: they are at least two, the first is the greatest lower and the last the least upper bound of the set. -/
theorem exactly_ends {S : ℝ → Prop} {E : List (ℝ × Bool)} (h : Exactly S E) (hne : E ≠ []) :
    2 ≤ E.length ∧ ∃ a b, E.head? = some a ∧ E.getLast? = some b ∧ a.1 < b.1 ∧ IsGLB {t | S t} a.1 ∧ IsLUB {t | S t} b.1 := by
  have hst : (E.map fun c => (⟨c.1, 0, c.2, 0⟩ : Isect)).Pairwise fun a b => a.distance < b.distance := by
    rw [List.pairwise_map]; exact h.strict
  obtain ⟨h2, a', b', e1, e2, e3, e4, e5, ⟨m, e6, e7⟩, ⟨m', e8, e9⟩⟩ := state_ends _ hst h.alternates (by simpa using hne)
  rw [List.head?_map, Option.map_eq_some_iff] at e1
  rw [List.getLast?_map, Option.map_eq_some_iff] at e2
  obtain ⟨a, ha, rfl⟩ := e1
  obtain ⟨b, hb, rfl⟩ := e2
  simp only at e3 e4 e5 e6 e7 e8 e9
  have hfirst : ∀ c ∈ E, a.1 ≤ c.1 := by
    intro c hc
    cases E with
    | nil => simp at hc
    | cons x xs =>
      simp only [List.head?_cons, Option.some.injEq] at ha
      subst ha
      rcases List.mem_cons.mp hc with rfl | hc
      · exact le_rfl
      · exact ((List.pairwise_cons.mp h.strict).1 c hc).le
  have hlast : ∀ c ∈ E, c.1 ≤ b.1 := by
    intro c hc
    by_contra hcon
    push Not at hcon
    obtain ⟨pre, rfl⟩ : ∃ pre, E = pre ++ [b] := by
      obtain ⟨ys, hys⟩ := List.getLast?_eq_some_iff.mp hb
      exact ⟨ys, hys⟩
    rcases List.mem_append.mp hc with hc | hc
    · have := (List.pairwise_append.mp h.strict).2.2 c hc b (by simp)
      linarith
    · simp only [List.mem_singleton] at hc
      subst hc
      exact lt_irrefl _ hcon
  have hplain : ∀ t, (∀ x ∈ E.map fun c => (⟨c.1, 0, c.2, 0⟩ : Isect), x.distance ≠ t) → ∀ c ∈ E, c.1 ≠ t := by
    intro t ht c hc
    exact ht _ (List.mem_map_of_mem hc)
  refine ⟨by simpa using h2, a, b, ha, hb, e3, ⟨?_, ?_⟩, ⟨?_, ?_⟩⟩
  · intro t ht
    by_contra hcon
    push Not at hcon
    have := (h.exact t fun c hc => (hcon.trans_le (hfirst c hc)).ne').mp ht
    rw [e4 t hcon.le] at this
    cases this
  · intro x hx
    by_contra hcon
    push Not at hcon
    have k1 : a.1 < (a.1 + min m x) / 2 := by have := lt_min e6 hcon; linarith
    have k2 : (a.1 + min m x) / 2 < min m x := by have := lt_min e6 hcon; linarith
    obtain ⟨q1, q2⟩ := e7 _ k1 (k2.trans_le (min_le_left _ _))
    have : x ≤ (a.1 + min m x) / 2 := hx ((h.exact _ (hplain _ q2)).mpr q1)
    have := k2.trans_le (min_le_right _ _)
    linarith
  · intro t ht
    by_contra hcon
    push Not at hcon
    have := (h.exact t fun c hc => ((hlast c hc).trans_lt hcon).ne).mp ht
    rw [e5 t hcon] at this
    cases this
  · intro x hx
    by_contra hcon
    push Not at hcon
    have k1 : (b.1 + max m' x) / 2 < b.1 := by have := max_lt e8 hcon; linarith
    have k2 : max m' x < (b.1 + max m' x) / 2 := by have := max_lt e8 hcon; linarith
    obtain ⟨q1, q2⟩ := e9 _ ((le_max_left _ _).trans_lt k2) k1
    have : (b.1 + max m' x) / 2 ≤ x := hx ((h.exact _ (hplain _ q2)).mpr q1)
    have := (le_max_right _ _).trans_lt k2
    linarith

/-- The crossings computed for the target: none if the line misses it, otherwise at least two, and the first and the last are at the ends of the part
inside. -/
theorem crossings_ends (srt : List SHit → List SHit) (hsrt : IsHitSort srt) (c : CylinderShape) (hc : Target c) (hsh : c.placement.Sharp)
    (point dir : Vec3 ℝ) (hd : Vec3.dot dir dir = 1) (hcl : Clear c point dir) :
    (crossings srt c point dir = [] ∧ inside c point dir = ∅) ∨
    2 ≤ (crossings srt c point dir).length ∧ ∃ a b s t, (crossings srt c point dir).head? = some a ∧ (crossings srt c point dir).getLast? = some b ∧
      a.position = point + Vec3.smul s dir ∧ b.position = point + Vec3.smul t dir ∧ s < t ∧
      IsGLB (inside c point dir) s ∧ IsLUB (inside c point dir) t := by
  have hne : c.placement.globalToLocalDirection dir ≠ 0 := by
    intro h
    have := (Placement.C41_isometry c.placement hc.placement dir dir).2.2.2
    rw [h, hd] at this
    simp [Vec3.dot] at this
  obtain ⟨E, hE, hcomp⟩ : ∃ E : List (ℝ × Bool), Exactly (fun u => Cylinder.Tube ⟨c.radius, c.innerRadius, c.z, c.startPhi, c.deltaPhi, false⟩
      (c.placement.globalToLocalPosition point + Vec3.smul u (c.placement.globalToLocalDirection dir))) E ∧
      Cylinder.compute srt ⟨c.radius, c.innerRadius, c.z, c.startPhi, c.deltaPhi, false⟩ (c.placement.globalToLocalPosition point)
        (c.placement.globalToLocalDirection dir) = E.map (Cylinder.surfaceHit (c.placement.globalToLocalPosition point)
        (c.placement.globalToLocalDirection dir)) :=
    Cylinder.compute_exact srt hsrt _ rfl hc.inner hc.outer hc.height _ _ hne hcl.rims hcl.apart
  have hS : inside c point dir = {u | Cylinder.Tube ⟨c.radius, c.innerRadius, c.z, c.startPhi, c.deltaPhi, false⟩
      (c.placement.globalToLocalPosition point + Vec3.smul u (c.placement.globalToLocalDirection dir))} := by
    ext u
    simp only [inside, Set.mem_ofPred_eq]
    rw [in_solid c false, Placement.C41_line _ hc.placement]
  have hpos : crossings srt c point dir = E.map fun x => { Cylinder.surfaceHit (c.placement.globalToLocalPosition point)
        (c.placement.globalToLocalDirection dir) x with position := point + Vec3.smul x.1 dir } := by
    unfold crossings placed
    split
    · next h =>
      have hl := hsh.2 h point
      have hl' := hsh.2 h dir
      rw [hl.1, hl'.2] at hcomp ⊢
      rw [hcomp]
      rfl
    · rw [hcomp, List.map_map]
      apply List.map_congr_left
      intro x _
      simp only [Function.comp]
      congr 1
      have e : (Cylinder.surfaceHit (c.placement.globalToLocalPosition point) (c.placement.globalToLocalDirection dir) x).position =
          c.placement.globalToLocalPosition point + Vec3.smul x.1 (c.placement.globalToLocalDirection dir) := rfl
      rw [e, Placement.C41_line_back _ hc.placement, (Placement.C41_inverse _ hc.placement point).1, (Placement.C41_inverse _ hc.placement dir).2.2.1]
  rw [hpos, hS]
  by_cases hnil : E = []
  · left
    subst hnil
    refine ⟨rfl, ?_⟩
    ext u
    simp only [Set.mem_ofPred_eq, Set.mem_empty_iff_false, iff_false]
    intro hu
    have := (hE.exact u (by simp)).mp hu
    simp at this
  · right
    obtain ⟨h2, a, b, e1, e2, e3, e4, e5⟩ := exactly_ends hE hnil
    refine ⟨by simpa using h2, _, _, a.1, b.1, by rw [List.head?_map, e1]; rfl, by rw [List.getLast?_map, e2]; rfl, rfl, rfl, e3, e4, e5⟩

theorem inside_move (c : CylinderShape) (point dir : Vec3 ℝ) (r s : ℝ) : s ∈ inside c (point + Vec3.smul r dir) dir ↔ r + s ∈ inside c point dir := by
  simp only [inside, Set.mem_ofPred_eq, shift]

theorem glb_move {c : CylinderShape} {point dir : Vec3 ℝ} {r x : ℝ} (h : IsGLB (inside c (point + Vec3.smul r dir) dir) x) :
    IsGLB (inside c point dir) (r + x) := by
  constructor
  · intro t ht
    have : x ≤ t - r := h.1 (by rw [inside_move]; simpa using ht)
    linarith
  · intro y hy
    have : y - r ≤ x := h.2 (by
      intro t ht
      rw [inside_move] at ht
      have := hy ht
      linarith)
    linarith

theorem lub_move {c : CylinderShape} {point dir : Vec3 ℝ} {r x : ℝ} (h : IsLUB (inside c (point + Vec3.smul r dir) dir) x) :
    IsLUB (inside c point dir) (r + x) := by
  constructor
  · intro t ht
    have : t - r ≤ x := h.1 (by rw [inside_move]; simpa using ht)
    linarith
  · intro y hy
    have : x ≤ y - r := h.2 (by
      intro t ht
      rw [inside_move] at ht
      have := hy ht
      linarith)
    linarith

/-- Without a hole the part inside is one interval. -/
theorem chord_full (c : CylinderShape) (hc : Target c) (hfull : c.innerRadius = 0) (point dir : Vec3 ℝ) {a b : ℝ} (hab : a < b)
    (ha : IsGLB (inside c point dir) a) (hb : IsLUB (inside c point dir) b) : chord c point dir = b - a := by
  have hup : inside c point dir ⊆ Set.Icc a b := fun t ht => ⟨ha.1 ht, hb.1 ht⟩
  have hlow : Set.Ioo a b ⊆ inside c point dir := by
    rintro t ⟨h1, h2⟩
    obtain ⟨x, hx, -, hxt⟩ := ha.exists_between h1
    obtain ⟨y, hy, hty, -⟩ := hb.exists_between h2
    have key : ∀ s, s ∈ inside c point dir ↔
        Cylinder.q (c.placement.globalToLocalPosition point) (c.placement.globalToLocalDirection dir) (c.radius * c.radius) s < 0 ∧
        |(c.placement.globalToLocalPosition point).z + s * (c.placement.globalToLocalDirection dir).z| < c.z / 2 := by
      intro s
      simp only [inside, Set.mem_ofPred_eq]
      rw [in_solid c false, Placement.C41_line _ hc.placement]
      unfold Cylinder.Tube
      simp only [hfull]
      rw [Cylinder.rad_lt_iff _ _ _ _ (by have := hc.outer; rw [hfull] at this; exact this)]
      simp only [Vec3.add_z, Vec3.smul_z]
      exact ⟨fun h => h.2, fun h => ⟨Cylinder.rad_nonneg _, h⟩⟩
    rw [key] at hx hy ⊢
    generalize c.placement.globalToLocalPosition point = p at *
    generalize c.placement.globalToLocalDirection dir = d at *
    obtain ⟨hx1, hx2⟩ := hx
    obtain ⟨hy1, hy2⟩ := hy
    constructor
    · have hk : (y - x) * Cylinder.q p d (c.radius * c.radius) t =
          (y - t) * Cylinder.q p d (c.radius * c.radius) x + (t - x) * Cylinder.q p d (c.radius * c.radius) y -
            (d.x * d.x + d.y * d.y) * ((y - x) * (t - x) * (y - t)) := by
        unfold Cylinder.q; ring
      have hA : 0 ≤ (d.x * d.x + d.y * d.y) * ((y - x) * (t - x) * (y - t)) :=
        mul_nonneg (add_nonneg (mul_self_nonneg _) (mul_self_nonneg _)) (mul_nonneg (mul_nonneg (by linarith) (by linarith)) (by linarith))
      have hB : (y - t) * Cylinder.q p d (c.radius * c.radius) x < 0 := mul_neg_of_pos_of_neg (by linarith) hx1
      have hC : (t - x) * Cylinder.q p d (c.radius * c.radius) y < 0 := mul_neg_of_pos_of_neg (by linarith) hy1
      by_contra hcon
      push Not at hcon
      have := mul_nonneg (by linarith : (0 : ℝ) ≤ y - x) hcon
      linarith
    · rw [abs_lt] at hx2 hy2 ⊢
      rcases le_total 0 d.z with hd | hd
      · have e1 := mul_le_mul_of_nonneg_right hxt.le hd
        have e2 := mul_le_mul_of_nonneg_right hty.le hd
        constructor <;> linarith
      · have e1 := mul_le_mul_of_nonpos_right hxt.le hd
        have e2 := mul_le_mul_of_nonpos_right hty.le hd
        constructor <;> linarith
  have h1 := MeasureTheory.measure_mono (μ := MeasureTheory.volume) hlow
  have h2 := MeasureTheory.measure_mono (μ := MeasureTheory.volume) hup
  rw [Real.volume_Ioo] at h1
  rw [Real.volume_Icc] at h2
  have h3 : chord c point dir = (MeasureTheory.volume (inside c point dir)).toReal := rfl
  rw [h3, le_antisymm h2 h1, ENNReal.toReal_ofReal (by linarith)]

/-- The sampled points are in the target. -/
theorem draw_inside (c : CylinderShape) (hc : Target c) (g1 g2 g3 : ℝ) (h2 : 0 ≤ g2 ∧ g2 < 1) (h3 : 0 < g3 ∧ g3 < 1) : coords (c.draw g1 g2 g3) ∈ solid c := by
  have h0 := hc.inner
  have h1 := hc.outer
  have hz := hc.height
  rw [in_solid c false]
  have hsq : c.innerRadius * c.innerRadius < c.radius * c.radius := by nlinarith
  simp only [CylinderShape.draw]
  rw [(Placement.C41_inverse _ hc.placement _).2.1]
  rw [uniform_le hsq.le, uniform_le (by linarith : -c.z / 2 ≤ c.z / 2)]
  obtain ⟨w, hw⟩ : ∃ w, w = (c.radius * c.radius - c.innerRadius * c.innerRadius) * g2 + c.innerRadius * c.innerRadius := ⟨_, rfl⟩
  have hw1 : c.innerRadius * c.innerRadius ≤ w := by rw [hw]; have := mul_nonneg (sub_nonneg.mpr hsq.le) h2.1; linarith
  have hw2 : w < c.radius * c.radius := by rw [hw]; nlinarith [mul_lt_mul_of_pos_left h2.2 (sub_pos.mpr hsq)]
  have hrad : ∀ t z : ℝ, Cylinder.rad ⟨Real.sqrt w * Real.cos t, Real.sqrt w * Real.sin t, z⟩ = Real.sqrt w := by
    intro t z
    unfold Cylinder.rad
    rw [show (Real.sqrt w * Real.cos t) ^ 2 + (Real.sqrt w * Real.sin t) ^ 2 = Real.sqrt w ^ 2 * (Real.sin t ^ 2 + Real.cos t ^ 2) by ring,
      Real.sin_sq_add_cos_sq, mul_one, Real.sqrt_sq (Real.sqrt_nonneg _)]
  unfold Cylinder.Tube
  rw [← hw, hrad]
  refine ⟨?_, ?_, ?_⟩
  · exact Real.le_sqrt_of_sq_le (by rw [pow_two]; exact hw1)
  · rw [Real.sqrt_lt' (by linarith), pow_two]; exact hw2
  · simp only
    rw [abs_lt]
    have e1 := mul_lt_mul_of_pos_left h3.1 hz
    have e2 := mul_lt_mul_of_pos_left h3.2 hz
    constructor <;> linarith

theorem length_eq {hits : List Isect} {a b : Isect} (h2 : 2 ≤ hits.length) (ha : hits.head? = some a) (hb : hits.getLast? = some b) :
    length hits = .ok (Vec3.norm (b.position - a.position)) := by
  unfold length
  rw [ha, hb]
  simp [h2]

/-! ## Theorems -/

/-- C106: the crossings from any two points of a line have the same first and last position, so that sampling and density use the same path. -/
theorem C106_same_path (srt : List SHit → List SHit) (hsrt : IsHitSort srt) (f : Dist) (hf : f.hits = crossings srt f.cylinder) (hc : Target f.cylinder)
    (hsh : f.cylinder.placement.Sharp) (D : PathDetector) (point dir : Vec3 ℝ) (hd : Vec3.dot dir dir = 1) (hcl : Clear f.cylinder point dir) (r : ℝ) :
    f.path D (f.hits (point + Vec3.smul r dir) dir) dir = f.path D (f.hits point dir) dir ∧
      length (f.hits (point + Vec3.smul r dir) dir) = length (f.hits point dir) := by
  rw [hf]
  have hcl' := hcl.move hc.placement r
  rcases crossings_ends srt hsrt f.cylinder hc hsh point dir hd hcl with ⟨h1, h2⟩ | ⟨h1, a, b, s, t, h2, h3, h4, h5, h6, h7, h8⟩
  · rcases crossings_ends srt hsrt f.cylinder hc hsh _ dir hd hcl' with ⟨g1, g2⟩ | ⟨g1, a', b', s', t', g2, g3, g4, g5, g6, g7, g8⟩
    · rw [h1, g1]; exact ⟨rfl, rfl⟩
    · exfalso
      obtain ⟨x, hx, -, -⟩ := g8.exists_between g6
      rw [inside_move, h2] at hx
      exact hx
  · rcases crossings_ends srt hsrt f.cylinder hc hsh _ dir hd hcl' with ⟨g1, g2⟩ | ⟨g1, a', b', s', t', g2, g3, g4, g5, g6, g7, g8⟩
    · exfalso
      obtain ⟨x, hx, -, -⟩ := h8.exists_between h6
      have : x - r ∈ inside f.cylinder (point + Vec3.smul r dir) dir := by rw [inside_move]; simpa using hx
      rw [g2] at this
      exact this
    · have ea : a'.position = a.position := by
        rw [g4, h4, shift, IsGLB.unique (glb_move g7) h7]
      have eb : b'.position = b.position := by
        rw [g5, h5, shift, IsLUB.unique (lub_move g8) h8]
      constructor
      · unfold Dist.path
        rw [h3, g3]
        simp only [eb]
      · rw [length_eq h1 h2 h3, length_eq g1 g2 g3, ea, eb]

/-- C106: for a sampled point of the target whose line is clear of the rims, when the path behind the target is a stretch of that line longer than
`1e-5` m (or of any length when only decays count): a vertex is drawn on the path, the share of generator outputs with a vertex in the first `x` metres
is the integral of `vertexDensity`, which is 1 over the path, and the density reported for any vertex on the path is `vertexDensity` times the distance
between the ends of the part of the line inside the target over the volume, with the precision of C72. In a target without a hole that distance is
the length of the line in the target, so that the density is the one of C105 times the one of C72. -/
theorem C106_vertex (srt : List SHit → List SHit) (hsrt : IsHitSort srt) (f : Dist) (hf : f.hits = crossings srt f.cylinder) (hc : Target f.cylinder)
    (hsh : f.cylinder.placement.Sharp) {D : PathDetector} (S : D.Sound) {k : Totals} (hk : k.Usable D) (hm : 0 ≤ f.maxLength)
    (dir : Vec3 ℝ) (hd : Vec3.dot dir dir = 1) (g1 g2 g3 : ℝ) (h2 : 0 ≤ g2 ∧ g2 < 1) (h3 : 0 < g3 ∧ g3 < 1)
    (hcl : Clear f.cylinder (f.cylinder.draw g1 g2 g3) dir) {p : Path} (hp : f.path D (f.hits (f.cylinder.draw g1 g2 g3) dir) dir = .ok p)
    {r L : ℝ} (hr : p.Runs D (f.cylinder.draw g1 g2 g3 + Vec3.smul r dir) dir L) (h0 : 0 < L) (hL : k.targets = [] ∨ 1e-5 < L) :
    let init := f.cylinder.draw g1 g2 g3
    let start := init + Vec3.smul r dir
    ∃ lam X a b, PathDensity p start dir k lam X ∧ IsGLB (inside f.cylinder init dir) a ∧ IsLUB (inside f.cylinder init dir) b ∧
      (∀ y, 0 ≤ y → y ≤ 1 → ∃ s, 0 ≤ s ∧ s ≤ L ∧ f.sample D dir k g1 g2 g3 y = .ok (init, start + Vec3.smul s dir) ∧
        ∀ x, 0 ≤ x → x ≤ L → (s ≤ x ↔ y ≤ ∫ t in (0 : ℝ)..x, vertexDensity lam L t)) ∧
      ∫ t in (0 : ℝ)..L, vertexDensity lam L t = 1 ∧
      (f.cylinder.innerRadius = 0 → b - a = chord f.cylinder init dir) ∧
      ∀ s, 0 ≤ s → s ≤ L → s ∉ X → ∃ q, f.generationProbability D dir k (start + Vec3.smul s dir) = .ok (q * ((b - a) / tubeVolume f.cylinder)) ∧
        (depthOver lam L < 1 / 1000000 → q = vertexDensity lam L s) ∧
        (k.targets = [] ∨ 1e-5 < s → |q - vertexDensity lam L s| ≤ vertexDensity lam L s / 10 ^ 9) := by
  intro init start
  have hin : (0 : ℝ) ∈ inside f.cylinder init dir := by
    have := draw_inside f.cylinder hc g1 g2 g3 h2 h3
    simp only [inside, Set.mem_ofPred_eq]
    rwa [show init + Vec3.smul 0 dir = init by ext <;> simp]
  have hmade : Made D p := by
    unfold Dist.path at hp
    split at hp
    · cases hp
    · next last hl =>
      refine Made.bounded last.position dir f.maxLength _ p ?_ hm hp
      rw [Vec3.norm, hd, Real.sqrt_one]; exact one_ne_zero
  obtain ⟨lam, X, c1, c2, c3, c4⟩ := C72_vertex S hk hmade hr h0 hL
  have hcr := crossings_ends srt hsrt f.cylinder hc hsh init dir hd hcl
  rw [← hf] at hcr
  rcases hcr with ⟨-, e⟩ | ⟨e1, a, b, s, t, e2, e3, e4, e5, e6, e7, e8⟩
  · rw [e] at hin; exact absurd hin (Set.notMem_empty _)
  refine ⟨lam, X, s, t, c1, e7, e8, ?_, c3, fun hfull => (chord_full f.cylinder hc hfull init dir e6 e7 e8).symm, ?_⟩
  · intro y y0 y1
    obtain ⟨s, s0, s1, s2, s3⟩ := c2 y y0 y1
    refine ⟨s, s0, s1, ?_, s3⟩
    unfold Dist.sample
    simp only
    rw [show f.path D (f.hits (f.cylinder.draw g1 g2 g3) dir) dir = .ok p from hp]
    change (vertexOn p k y).bind _ = _
    rw [s2]
    rfl
  · intro x x0 x1 hx
    obtain ⟨q, q1, q2, q3, -⟩ := c4 false x x0 x1 hx
    refine ⟨q, ?_, q2, q3⟩
    have hpt : start + Vec3.smul x dir = init + Vec3.smul (r + x) dir := shift _ _ _ _
    obtain ⟨w1, w2⟩ := C106_same_path srt hsrt f hf hc hsh D init dir hd hcl (r + x)
    unfold Dist.generationProbability
    simp only
    rw [hpt, w1, w2, show f.path D (f.hits init dir) dir = .ok p from hp, ← hpt]
    change (p.withinDet _).bind _ = _
    obtain ⟨hinv, -⟩ := made_good S hmade hr
    rw [within_eq S.proper hinv x0 x1]
    change (if !true then Res.ok 0 else _) = _
    rw [if_neg (by simp), q1, length_eq e1 e2 e3]
    change Res.ok _ = _
    have hn : Vec3.norm (b.position - a.position) = t - s := by
      rw [e4, e5, show init + Vec3.smul t dir - (init + Vec3.smul s dir) = Vec3.smul (t - s) dir by ext <;> simp <;> ring,
        Vec3.norm_smul_unit _ _ hd, abs_of_pos (by linarith)]
    rw [hn, Dist.targetVolume, tubeVolume, pow_two, pow_two, mul_div_assoc]

/-- C106: the bounds reported for a vertex on the path are the ends of the path. -/
theorem C106_bounds (srt : List SHit → List SHit) (hsrt : IsHitSort srt) (f : Dist) (hf : f.hits = crossings srt f.cylinder) (hc : Target f.cylinder)
    (hsh : f.cylinder.placement.Sharp) {D : PathDetector} (S : D.Sound) (hm : 0 ≤ f.maxLength)
    (dir : Vec3 ℝ) (hd : Vec3.dot dir dir = 1) (point : Vec3 ℝ)
    (hcl : Clear f.cylinder point dir) {p : Path} (hp : f.path D (f.hits point dir) dir = .ok p)
    {r L : ℝ} (hr : p.Runs D (point + Vec3.smul r dir) dir L) {s : ℝ} (h0 : 0 ≤ s) (h1 : s ≤ L) :
    f.injectionBounds D dir (point + Vec3.smul r dir + Vec3.smul s dir) =
      .ok (point + Vec3.smul r dir, point + Vec3.smul r dir + Vec3.smul L dir) := by
  have hmade : Made D p := by
    unfold Dist.path at hp
    split at hp
    · cases hp
    · next last hl =>
      refine Made.bounded last.position dir f.maxLength _ p ?_ hm hp
      rw [Vec3.norm, hd, Real.sqrt_one]; exact one_ne_zero
  have hpt : point + Vec3.smul r dir + Vec3.smul s dir = point + Vec3.smul (r + s) dir := shift _ _ _ _
  have hpath := (C106_same_path srt hsrt f hf hc hsh D point dir hd hcl (r + s)).1
  have hcr := crossings_ends srt hsrt f.cylinder hc hsh _ dir hd (hcl.move hc.placement (r + s))
  rw [← hf] at hcr
  unfold Dist.injectionBounds
  simp only
  rcases hcr with ⟨e, -⟩ | ⟨e1, -⟩
  · rw [e] at hpath
    rw [hp] at hpath
    unfold Dist.path at hpath
    cases hpath
  · rw [← hpt] at e1 hpath
    rw [if_neg (by omega), if_neg (by omega), hpath, hp]
    exact C72_bounds S hmade hr h0 h1 true

/-- C106: no density is reported for a point on the line more than 1 mm before the start or behind the end of the path. -/
theorem C106_outside (srt : List SHit → List SHit) (hsrt : IsHitSort srt) (f : Dist) (hf : f.hits = crossings srt f.cylinder) (hc : Target f.cylinder)
    (hsh : f.cylinder.placement.Sharp) {D : PathDetector} (S : D.Sound) {k : Totals} (hm : 0 ≤ f.maxLength)
    (dir : Vec3 ℝ) (hd : Vec3.dot dir dir = 1) (point : Vec3 ℝ)
    (hcl : Clear f.cylinder point dir) {p : Path} (hp : f.path D (f.hits point dir) dir = .ok p)
    {r L : ℝ} (hr : p.Runs D (point + Vec3.smul r dir) dir L) {s : ℝ} (hs : s < -1e-3 ∨ L + 1e-3 < s) :
    f.generationProbability D dir k (point + Vec3.smul r dir + Vec3.smul s dir) = .ok 0 := by
  have hmade : Made D p := by
    unfold Dist.path at hp
    split at hp
    · cases hp
    · next last hl =>
      refine Made.bounded last.position dir f.maxLength _ p ?_ hm hp
      rw [Vec3.norm, hd, Real.sqrt_one]; exact one_ne_zero
  have hpt : point + Vec3.smul r dir + Vec3.smul s dir = point + Vec3.smul (r + s) dir := shift _ _ _ _
  have hpath := (C106_same_path srt hsrt f hf hc hsh D point dir hd hcl (r + s)).1
  unfold Dist.generationProbability
  simp only
  rw [hpt, hpath, hp, ← hpt]
  change (p.withinDet _).bind _ = _
  rw [outside_within S hmade hr _ (by
    rw [show point + Vec3.smul r dir + Vec3.smul s dir - (point + Vec3.smul r dir) = Vec3.smul s dir by ext <;> simp, dot_smul_unit hd]
    exact hs)]
  rfl

/-! ## Where it fails -/

/-- A tube of radii 1 and 2 and height 4 at the origin. -/
noncomputable def tube : CylinderShape := ⟨.translation 0, 2, 1, 4, 0, 2 * π⟩

theorem tube_target : Target tube := ⟨Placement.translation_valid 0, by norm_num [tube], by norm_num [tube], by norm_num [tube]⟩

theorem tube_local (y : ℝ) : tube.placement.globalToLocalPosition ⟨-5, y, 0⟩ = ⟨-5, y, 0⟩ ∧
    tube.placement.globalToLocalDirection ⟨1, 0, 0⟩ = ⟨1, 0, 0⟩ := by
  constructor
  · simp only [tube, Placement.translation_back]
    ext <;> simp
  · simp only [tube, Placement.translation_back_dir]

theorem tube_line (y t : ℝ) : ((⟨-5, y, 0⟩ : Vec3 ℝ) + Vec3.smul t ⟨1, 0, 0⟩).z = 0 ∧
    Cylinder.rad ((⟨-5, y, 0⟩ : Vec3 ℝ) + Vec3.smul t ⟨1, 0, 0⟩) = Real.sqrt ((t - 5) ^ 2 + y ^ 2) := by
  constructor
  · simp
  · unfold Cylinder.rad
    simp only [Vec3.add_x, Vec3.smul_x, Vec3.add_y, Vec3.smul_y]
    congr 1
    ring

theorem tube_clear : Clear tube ⟨-5, 0, 0⟩ ⟨1, 0, 0⟩ := by
  have hr : ∀ t : ℝ, Cylinder.rad ((⟨-5, 0, 0⟩ : Vec3 ℝ) + Vec3.smul t ⟨1, 0, 0⟩) = |t - 5| := by
    intro t
    rw [(tube_line 0 t).2, show (t - 5) ^ 2 + (0 : ℝ) ^ 2 = (t - 5) ^ 2 by ring, Real.sqrt_sq_eq_abs]
  have hz := fun t => (tube_line 0 t).1
  have hon : ∀ t : ℝ, Cylinder.OnSurface ⟨2, 1, 4, 0, 2 * π, false⟩ ((⟨-5, 0, 0⟩ : Vec3 ℝ) + Vec3.smul t ⟨1, 0, 0⟩) → t = 3 ∨ t = 7 ∨ t = 4 ∨ t = 6 := by
    intro t ht
    unfold Cylinder.OnSurface at ht
    rw [hz, hr] at ht
    simp only [abs_zero] at ht
    rcases ht with ⟨h, _⟩ | ⟨_, h, _⟩ | ⟨h, _⟩
    · rcases abs_eq (by norm_num : (0 : ℝ) ≤ 2) |>.1 h with h | h
      · right; left; linarith
      · left; linarith
    · rcases abs_eq (by norm_num : (0 : ℝ) ≤ 1) |>.1 h with h | h
      · right; right; right; linarith
      · right; right; left; linarith
    · norm_num at h
  refine ⟨?_, ?_⟩
  · rw [(tube_local 0).1, (tube_local 0).2]
    refine ⟨?_, ?_, ?_⟩
    · intro t _ h; rw [hz] at h; norm_num [tube] at h
    · intro _ t _ h; rw [hz] at h; norm_num [tube] at h
    · intro t h; rw [hz] at h; norm_num [tube] at h
  · rw [(tube_local 0).1, (tube_local 0).2]
    intro t u ht hu hlt
    unfold precision
    rcases hon t ht with rfl | rfl | rfl | rfl <;> rcases hon u hu with rfl | rfl | rfl | rfl <;>
      first | (exfalso; norm_num at hlt; done) | norm_num

theorem tube_inside (t : ℝ) : t ∈ inside tube ⟨-5, 0, 0⟩ ⟨1, 0, 0⟩ ↔ 1 ≤ |t - 5| ∧ |t - 5| < 2 := by
  simp only [inside, Set.mem_ofPred_eq]
  rw [in_solid tube false, Placement.C41_line _ tube_target.placement, (tube_local 0).1, (tube_local 0).2]
  unfold Cylinder.Tube
  rw [(tube_line 0 t).1, (tube_line 0 t).2, show (t - 5) ^ 2 + (0 : ℝ) ^ 2 = (t - 5) ^ 2 by ring, Real.sqrt_sq_eq_abs]
  simp [tube]

/-- The hypotheses are met: a point of the tube and a path of 5 m behind it in a filled detector. -/
example (srt : List SHit → List SHit) (hsrt : IsHitSort srt) :
    let f : Dist := ⟨tube, crossings srt tube, none, ((5 : ℝ) : EReal)⟩
    Clear f.cylinder (f.cylinder.draw 0 0 (1 / 2)) ⟨1, 0, 0⟩ ∧
      ∃ p r, f.path filled (f.hits (f.cylinder.draw 0 0 (1 / 2)) ⟨1, 0, 0⟩) ⟨1, 0, 0⟩ = .ok p ∧
        p.Runs filled (f.cylinder.draw 0 0 (1 / 2) + Vec3.smul r ⟨1, 0, 0⟩) ⟨1, 0, 0⟩ 5 := by
  intro f
  have hdraw : f.cylinder.draw 0 0 (1 / 2) = (⟨-5, 0, 0⟩ : Vec3 ℝ) + Vec3.smul 6 ⟨1, 0, 0⟩ := by
    change tube.draw 0 0 (1 / 2) = _
    have hb := (Placement.C41_inverse tube.placement tube_target.placement ⟨1, 0, 0⟩).1
    have h1 : tube.placement.globalToLocalPosition ⟨1, 0, 0⟩ = ⟨1, 0, 0⟩ := by
      simp only [tube, Placement.translation_back]
      ext <;> simp
    rw [h1] at hb
    have he : tube.draw 0 0 (1 / 2) = tube.placement.localToGlobalPosition ⟨1, 0, 0⟩ := by
      simp only [CylinderShape.draw, tube]
      rw [uniform_le (a := 0) (b := 2 * π) (by positivity), uniform_le (a := 1 * 1) (b := 2 * 2) (by norm_num), uniform_le (a := -4 / 2) (b := 4 / 2) (by norm_num)]
      norm_num
    rw [he, hb]
    ext <;> simp
    norm_num
  have hcl : Clear f.cylinder (f.cylinder.draw 0 0 (1 / 2)) ⟨1, 0, 0⟩ := by
    rw [hdraw]; exact tube_clear.move tube_target.placement 6
  refine ⟨hcl, ?_⟩
  rcases crossings_ends srt hsrt tube tube_target (Placement.translation_sharp 0) _ ⟨1, 0, 0⟩ (by norm_num [Vec3.dot]) hcl with
    ⟨-, e⟩ | ⟨e1, a, b, s, t, e2, e3, e4, e5, e6, e7, e8⟩
  · have : (0 : ℝ) ∈ inside tube (f.cylinder.draw 0 0 (1 / 2)) ⟨1, 0, 0⟩ := by
      rw [hdraw, inside_move, tube_inside]; norm_num
    rw [e] at this
    exact absurd this (Set.notMem_empty _)
  · have hn : Vec3.norm (⟨1, 0, 0⟩ : Vec3 ℝ) = 1 := by simp [Vec3.norm, Vec3.dot]
    obtain ⟨i1, i2⟩ := ray_good (start := b.position) (dir := ⟨1, 0, 0⟩) (length := ((5 : ℝ) : EReal)) filled_sound (by rw [hn]; exact one_ne_zero)
      (by exact_mod_cast (by norm_num : (0 : ℝ) ≤ 5))
    obtain ⟨r, r1, r2, r3, r4, r5, -⟩ := i1.prepare filled_sound.proper (fun _ : True => i2)
    have hdir : Vec3.normalize (⟨1, 0, 0⟩ : Vec3 ℝ) = ⟨1, 0, 0⟩ := normalize_of_unit (by simp [Vec3.dot])
    rw [hdir] at r2
    refine ⟨r, t, ?_, ?_⟩
    · obtain ⟨x, v, -, hx, -⟩ := r3 trivial r5
      have e3' : (f.hits (f.cylinder.draw 0 0 (1 / 2)) ⟨1, 0, 0⟩).getLast? = some b := e3
      unfold Dist.path
      rw [e3']
      change boundedPath filled b.position ⟨1, 0, 0⟩ ((5 : ℝ) : EReal) none = .ok r
      unfold boundedPath rayPath Path.clip
      rw [r1]
      simp only [Res.bind]
      rw [filled_bounds hx]
    · have := r2.runs filled_sound.proper
      rw [e5] at this
      exact this

/-- C106 fails for a target with a hole: the hole is counted as part of the target. Through the middle of a tube of radii 1 and 2 the line has the
length 2 in the target, and the length in the reported density is 4: the density is twice the one of the samples. -/
theorem C106_hole_fails (srt : List SHit → List SHit) (hsrt : IsHitSort srt) :
    ∃ c point dir, Target c ∧ c.placement.Sharp ∧ Vec3.dot dir dir = 1 ∧ Clear c point dir ∧ length (crossings srt c point dir) = .ok 4 ∧
      chord c point dir = 2 := by
  refine ⟨tube, ⟨-5, 0, 0⟩, ⟨1, 0, 0⟩, tube_target, Placement.translation_sharp 0, by norm_num [Vec3.dot], tube_clear, ?_, ?_⟩
  · rcases crossings_ends srt hsrt tube tube_target (Placement.translation_sharp 0) ⟨-5, 0, 0⟩ ⟨1, 0, 0⟩ (by norm_num [Vec3.dot]) tube_clear with
      ⟨-, e⟩ | ⟨e1, a, b, s, t, e2, e3, e4, e5, e6, e7, e8⟩
    · have : (7 / 2 : ℝ) ∈ inside tube ⟨-5, 0, 0⟩ ⟨1, 0, 0⟩ := by rw [tube_inside]; norm_num [abs_of_neg]
      rw [e] at this
      exact absurd this (Set.notMem_empty _)
    · have hs : s = 3 := by
        refine e7.unique ⟨?_, ?_⟩
        · intro x hx
          rw [tube_inside] at hx
          have := (abs_lt.mp hx.2).1
          linarith
        · intro x hx
          by_contra hcon
          push Not at hcon
          have hmem : (3 + min x 4) / 2 ∈ inside tube ⟨-5, 0, 0⟩ ⟨1, 0, 0⟩ := by
            rw [tube_inside]
            have h1 : 3 < min x 4 := lt_min hcon (by norm_num)
            have h2 := min_le_right x 4
            rw [abs_of_neg (by linarith)]
            constructor <;> linarith
          have h3 : x ≤ (3 + min x 4) / 2 := hx hmem
          have h1 : 3 < min x 4 := lt_min hcon (by norm_num)
          have := min_le_left x 4
          linarith
      have ht : t = 7 := by
        refine e8.unique ⟨?_, ?_⟩
        · intro x hx
          rw [tube_inside] at hx
          have := (abs_lt.mp hx.2).2
          linarith
        · intro x hx
          by_contra hcon
          push Not at hcon
          have hmem : (7 + max x 6) / 2 ∈ inside tube ⟨-5, 0, 0⟩ ⟨1, 0, 0⟩ := by
            rw [tube_inside]
            have h1 : max x 6 < 7 := max_lt hcon (by norm_num)
            have h2 := le_max_right x 6
            rw [abs_of_pos (by linarith)]
            constructor <;> linarith
          have h3 : (7 + max x 6) / 2 ≤ x := hx hmem
          have h1 : max x 6 < 7 := max_lt hcon (by norm_num)
          have := le_max_left x 6
          linarith
      rw [length_eq e1 e2 e3, e4, e5, hs, ht]
      rw [show (⟨-5, 0, 0⟩ : Vec3 ℝ) + Vec3.smul 7 ⟨1, 0, 0⟩ - (⟨-5, 0, 0⟩ + Vec3.smul 3 ⟨1, 0, 0⟩) = Vec3.smul 4 ⟨1, 0, 0⟩ by ext <;> simp; norm_num,
        Vec3.norm_smul_unit _ _ (by norm_num [Vec3.dot])]
      norm_num
  · have hset : {s : ℝ | coords ((⟨-5, 0, 0⟩ : Vec3 ℝ) + Vec3.smul s ⟨1, 0, 0⟩) ∈ solid tube} = Set.Ioc 3 4 ∪ Set.Ico 6 7 := by
      ext t
      have := tube_inside t
      simp only [inside, Set.mem_ofPred_eq] at this
      simp only [Set.mem_ofPred_eq, Set.mem_union, Set.mem_Ioc, Set.mem_Ico]
      rw [this]
      rcases le_total 0 (t - 5) with h | h
      · rw [abs_of_nonneg h]
        constructor
        · rintro ⟨h1, h2⟩; right; constructor <;> linarith
        · rintro (⟨h1, h2⟩ | ⟨h1, h2⟩) <;> constructor <;> linarith
      · rw [abs_of_nonpos h]
        constructor
        · rintro ⟨h1, h2⟩; left; constructor <;> linarith
        · rintro (⟨h1, h2⟩ | ⟨h1, h2⟩) <;> constructor <;> linarith
    rw [chord, hset, MeasureTheory.Measure.real, MeasureTheory.measure_union ?_ measurableSet_Ico, Real.volume_Ioc, Real.volume_Ico,
      ← ENNReal.ofReal_add (by norm_num) (by norm_num), ENNReal.toReal_ofReal (by norm_num)]
    · norm_num
    · rw [Set.disjoint_left]
      rintro t ⟨-, h1⟩ ⟨h2, -⟩
      linarith

/-- C106 fails for vertices whose line misses the target: the density should be 0, but the last element of an empty vector is read. -/
theorem C106_miss_fails (srt : List SHit → List SHit) (hsrt : IsHitSort srt) (D : PathDetector) (k : Totals) :
    ∃ (f : Dist) (vertex dir : Vec3 ℝ), f.hits = crossings srt f.cylinder ∧ Target f.cylinder ∧ Vec3.dot dir dir = 1 ∧ Clear f.cylinder vertex dir ∧
      chord f.cylinder vertex dir = 0 ∧ f.generationProbability D dir k vertex = .ub ∧ f.injectionBounds D dir vertex = .ok (0, 0) := by
  have hr : ∀ t : ℝ, 10 ≤ Cylinder.rad ((⟨-5, 10, 0⟩ : Vec3 ℝ) + Vec3.smul t ⟨1, 0, 0⟩) := by
    intro t
    rw [(tube_line 10 t).2]
    exact Real.le_sqrt_of_sq_le (by nlinarith [sq_nonneg (t - 5)])
  have hz := fun t => (tube_line 10 t).1
  have hcl : Clear tube ⟨-5, 10, 0⟩ ⟨1, 0, 0⟩ := by
    refine ⟨?_, ?_⟩
    · rw [(tube_local 10).1, (tube_local 10).2]
      refine ⟨?_, ?_, ?_⟩
      · intro t _ h; rw [hz] at h; norm_num [tube] at h
      · intro _ t _ h; rw [hz] at h; norm_num [tube] at h
      · intro t h; rw [hz] at h; norm_num [tube] at h
    · rw [(tube_local 10).1, (tube_local 10).2]
      intro t u ht
      exfalso
      unfold Cylinder.OnSurface at ht
      have := hr t
      rw [hz] at ht
      simp only [tube, abs_zero] at ht
      rcases ht with ⟨h, _⟩ | ⟨_, h, _⟩ | ⟨h, _⟩
      · linarith
      · linarith
      · norm_num at h
  have hin : inside tube ⟨-5, 10, 0⟩ ⟨1, 0, 0⟩ = ∅ := by
    ext t
    simp only [inside, Set.mem_ofPred_eq, Set.mem_empty_iff_false, iff_false]
    rw [in_solid tube false, Placement.C41_line _ tube_target.placement, (tube_local 10).1, (tube_local 10).2]
    rintro ⟨-, h, -⟩
    have := hr t
    simp only [tube] at h
    linarith
  have hnil : crossings srt tube ⟨-5, 10, 0⟩ ⟨1, 0, 0⟩ = [] := by
    rcases crossings_ends srt hsrt tube tube_target (Placement.translation_sharp 0) ⟨-5, 10, 0⟩ ⟨1, 0, 0⟩ (by norm_num [Vec3.dot]) hcl with
      ⟨e, -⟩ | ⟨e1, a, b, s, t, e2, e3, e4, e5, e6, e7, e8⟩
    · exact e
    · obtain ⟨x, hx, -, -⟩ := e8.exists_between e6
      rw [hin] at hx
      exact absurd hx (Set.notMem_empty _)
  refine ⟨⟨tube, crossings srt tube, none, ⊤⟩, ⟨-5, 10, 0⟩, ⟨1, 0, 0⟩, rfl, tube_target, by norm_num [Vec3.dot], hcl, ?_, ?_, ?_⟩
  · have : chord tube ⟨-5, 10, 0⟩ ⟨1, 0, 0⟩ = (MeasureTheory.volume (inside tube ⟨-5, 10, 0⟩ ⟨1, 0, 0⟩)).toReal := rfl
    rw [this, hin]; simp
  · simp [Dist.generationProbability, hnil, Dist.path, Res.bind]
  · simp [Dist.injectionBounds, hnil]

/-- C106: distributions with different lengths or fiducial volumes compare equal. -/
theorem C106_equal_fails (same : CylinderShape → CylinderShape → Bool) (hsame : ∀ c, same c c = true) :
    ∃ f g : Dist, f.equal same g = true ∧ f.maxLength ≠ g.maxLength :=
  ⟨⟨tube, fun _ _ => [], none, 0⟩, ⟨tube, fun _ _ => [], none, 1⟩, hsame _, by simp⟩

end Siren.Distributions.FixedTargetPosition
