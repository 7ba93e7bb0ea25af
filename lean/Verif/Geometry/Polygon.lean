import Mathlib.Analysis.LocallyConvex.Separation
import Mathlib.Analysis.Convex.Topology
import Mathlib.Tactic.Linarith
import Mathlib.Tactic.LinearCombination
import Mathlib.Tactic.FieldSimp
import Mathlib.Tactic.Ring

set_option autoImplicit false

/-!
# Convex polygons in the plane

The extruded polygon (`ExtrPoly`) turns the list of its vertices into one half plane per edge. This file relates these half
planes to the convex hull of the vertices: for a convex polygon, given in either sense of rotation, the interior of the hull
is the set of points strictly on the inner side of every edge, and the sign of the shoelace sum tells the sense of rotation.
-/

namespace Siren.Geometry.Polygon

abbrev Pt := ℝ × ℝ

/-! ### Specification -/

def cross (a b : Pt) : ℝ := a.1 * b.2 - a.2 * b.1

/-- The edges of the closed polygon, as (previous vertex, vertex). Also the loop of `ExtrPoly::ComputeLateralPlanes`
(geometry/private/ExtrPoly.cxx:59-62 and 67-77: `for (int i = 0, k = Nv - 1; i < Nv; k = i++)`). -/
def edgesFrom (prev : Pt) : List Pt → List (Pt × Pt)
  | [] => []
  | q :: qs => (prev, q) :: edgesFrom q qs

@[inherit_doc edgesFrom]
def edges (P : List Pt) : List (Pt × Pt) :=
  match P.getLast? with
  | none => []
  | some l => edgesFrom l P

/-- Which side of the directed edge the point is on: positive on the left, negative on the right. -/
def side (e : Pt × Pt) (w : Pt) : ℝ := cross (e.2 - e.1) (w - e.1)

/-- The convex hull of the vertices. -/
def hull (P : List Pt) : Set Pt := convexHull ℝ {v | v ∈ P}

/-- A convex polygon: its vertices are all on the left of every edge, or all on the right of every edge; its edges are not too
short to have a direction (1e-15), and it is not flat. -/
structure IsConvex (P : List Pt) : Prop where
  size : 3 ≤ P.length
  long : ∀ e ∈ edges P, 1 / 1000000000000000 ≤ Real.sqrt ((e.2.1 - e.1.1) * (e.2.1 - e.1.1) + (e.2.2 - e.1.2) * (e.2.2 - e.1.2))
  turn : (∀ e ∈ edges P, ∀ v ∈ P, 0 ≤ side e v) ∨ (∀ e ∈ edges P, ∀ v ∈ P, side e v ≤ 0)
  fat : (interior (hull P)).Nonempty

/-! ### The shoelace sum (geometry/private/ExtrPoly.cxx:58-62) -/

/-- `signed_area` (geometry/private/ExtrPoly.cxx:58-62), twice the signed area. -/
def signedArea (P : List Pt) : ℝ := ((edges P).map (fun e => e.1.1 * e.2.2 - e.2.1 * e.1.2)).sum

/-! ### Proofs -/

theorem edges_eq (P : List Pt) (hP : P ≠ []) : edges P = edgesFrom (P.getLast hP) P := by
  unfold edges; rw [List.getLast?_eq_some_getLast hP]

/-- A quantity that grows along every edge from `a` is larger at the end. -/
theorem grows (m : Pt → ℝ) (l : List Pt) (hl : l ≠ []) (a : Pt) (h : ∀ e ∈ edgesFrom a l, m e.1 < m e.2) :
    m a < m (l.getLast hl) := by
  induction l generalizing a with
  | nil => exact absurd rfl hl
  | cons q qs ih =>
    have h1 : m a < m q := h (a, q) (by simp [edgesFrom])
    rcases qs with _ | ⟨r, rs⟩
    · simpa using h1
    · have := ih (by simp) q (fun e he => h e (by simp [edgesFrom] at he ⊢; tauto))
      rw [List.getLast_cons (by simp)]
      exact h1.trans this

theorem not_grows (m : Pt → ℝ) (P : List Pt) (hP : P ≠ []) (h : ∀ e ∈ edges P, m e.1 < m e.2) : False := by
  rw [edges_eq P hP] at h
  exact lt_irrefl _ (grows m P hP _ h)

theorem edgesFrom_sum (F : Pt → ℝ) (l : List Pt) (hl : l ≠ []) (a : Pt) :
    ((edgesFrom a l).map (fun e => F e.2 - F e.1)).sum = F (l.getLast hl) - F a := by
  induction l generalizing a with
  | nil => exact absurd rfl hl
  | cons q qs ih =>
    rcases qs with _ | ⟨r, rs⟩
    · simp [edgesFrom]
    · have hlast : (q :: r :: rs).getLast hl = (r :: rs).getLast (by simp) := List.getLast_cons (by simp)
      rw [edgesFrom, List.map_cons, List.sum_cons, ih (by simp) q, hlast]
      ring

theorem edges_sum (F : Pt → ℝ) (P : List Pt) : ((edges P).map (fun e => F e.2 - F e.1)).sum = 0 := by
  by_cases hP : P = []
  · subst hP; simp [edges]
  · rw [edges_eq P hP, edgesFrom_sum F P hP, sub_self]

theorem edgesFrom_mem (a : Pt) (l : List Pt) (e : Pt × Pt) (he : e ∈ edgesFrom a l) : (e.1 = a ∨ e.1 ∈ l) ∧ e.2 ∈ l := by
  induction l generalizing a with
  | nil => simp [edgesFrom] at he
  | cons q qs ih =>
    rcases List.mem_cons.1 he with rfl | he
    · exact ⟨Or.inl rfl, by simp⟩
    · obtain ⟨h1, h2⟩ := ih q he
      refine ⟨Or.inr ?_, by simp [h2]⟩
      rcases h1 with h1 | h1 <;> simp [h1]

theorem edges_mem (P : List Pt) (e : Pt × Pt) (he : e ∈ edges P) : e.1 ∈ P ∧ e.2 ∈ P := by
  by_cases hP : P = []
  · subst hP; simp [edges] at he
  · rw [edges_eq P hP] at he
    obtain ⟨h1, h2⟩ := edgesFrom_mem _ _ _ he
    refine ⟨?_, h2⟩
    rcases h1 with h1 | h1
    · rw [h1]; exact List.getLast_mem hP
    · exact h1

theorem edges_ne_nil (P : List Pt) (hP : P ≠ []) : edges P ≠ [] := by
  rw [edges_eq P hP]
  rcases P with _ | ⟨q, qs⟩
  · exact absurd rfl hP
  · simp [edgesFrom]

/-- The shoelace sum does not depend on the origin. -/
theorem signedArea_shift (P : List Pt) (w : Pt) : signedArea P = ((edges P).map (fun e => side e w)).sum := by
  have h := edges_sum (fun v => w.1 * v.2 - w.2 * v.1) P
  have : ((edges P).map (fun e => side e w)).sum = signedArea P
      - ((edges P).map (fun e => (w.1 * e.2.2 - w.2 * e.2.1) - (w.1 * e.1.2 - w.2 * e.1.1))).sum := by
    unfold signedArea
    generalize edges P = E
    induction E with
    | nil => simp
    | cons e es ih =>
      simp only [List.map_cons, List.sum_cons, ih]
      unfold side cross
      simp only [Prod.fst_sub, Prod.snd_sub]
      ring
  rw [this, h, sub_zero]

theorem sum_pos {A : Type} (f : A → ℝ) (l : List A) (hl : l ≠ []) (h : ∀ a ∈ l, 0 < f a) : 0 < (l.map f).sum := by
  induction l with
  | nil => exact absurd rfl hl
  | cons a as ih =>
    rw [List.map_cons, List.sum_cons]
    rcases as with _ | ⟨b, bs⟩
    · simpa using h a (by simp)
    · exact add_pos (h a (by simp)) (ih (by simp) (fun x hx => h x (by simp [hx])))

/-- A point strictly on the inner side of every edge is in the hull of the vertices (whatever the polygon). -/
theorem mem_hull (P : List Pt) (hP : P ≠ []) (σ : ℝ) (w : Pt) (h : ∀ e ∈ edges P, 0 < σ * side e w) : w ∈ hull P := by
  by_contra hw
  have hfin : {v | v ∈ P}.Finite := P.finite_toSet
  obtain ⟨f, u, h1, h2⟩ := geometric_hahn_banach_closed_point (convex_convexHull ℝ {v | v ∈ P}) (hfin.isClosed_convexHull ℝ) hw
  have hf : ∀ v : Pt, f v = v.1 * f (1, 0) + v.2 * f (0, 1) := by
    intro v
    have : v = v.1 • ((1, 0) : Pt) + v.2 • ((0, 1) : Pt) := by ext <;> simp
    rw [this, map_add, map_smul, map_smul]
    simp
  obtain ⟨α, hα⟩ : ∃ z, z = f (1, 0) := ⟨_, rfl⟩
  obtain ⟨β, hβ⟩ : ∃ z, z = f (0, 1) := ⟨_, rfl⟩
  have hg : ∀ v ∈ P, α * (v.1 - w.1) + β * (v.2 - w.2) < 0 := by
    intro v hv
    have := h1 v (subset_convexHull ℝ _ hv)
    rw [hf v, ← hα, ← hβ] at this
    rw [hf w, ← hα, ← hβ] at h2
    linarith
  have hn : 0 < α * α + β * β := by
    obtain ⟨v, hv⟩ := List.exists_mem_of_ne_nil P hP
    have := hg v hv
    by_contra hc
    have ha : α = 0 := by nlinarith [mul_self_nonneg α, mul_self_nonneg β]
    have hb : β = 0 := by nlinarith [mul_self_nonneg α, mul_self_nonneg β]
    rw [ha, hb] at this
    simp at this
  refine not_grows (fun v => σ * ((α * (v.2 - w.2) - β * (v.1 - w.1)) / (α * (v.1 - w.1) + β * (v.2 - w.2)))) P hP ?_
  intro e he
  obtain ⟨hp, hq⟩ := edges_mem P e he
  have g1 := hg _ hp
  have g2 := hg _ hq
  have hs := h e he
  have key : σ * side e w * (α * α + β * β)
      = (α * (e.1.1 - w.1) + β * (e.1.2 - w.2)) * (α * (e.2.1 - w.1) + β * (e.2.2 - w.2))
        * (σ * ((α * (e.2.2 - w.2) - β * (e.2.1 - w.1)) / (α * (e.2.1 - w.1) + β * (e.2.2 - w.2)))
          - σ * ((α * (e.1.2 - w.2) - β * (e.1.1 - w.1)) / (α * (e.1.1 - w.1) + β * (e.1.2 - w.2)))) := by
    have := g1.ne
    have := g2.ne
    unfold side cross
    simp only [Prod.fst_sub, Prod.snd_sub]
    field_simp
    ring
  have hpos := mul_pos hs hn
  rw [key] at hpos
  have := pos_of_mul_pos_of_pos_left' hpos (mul_pos_of_neg_of_neg g1 g2)
  linarith
where
  pos_of_mul_pos_of_pos_left' {a b : ℝ} (h : 0 < a * b) (ha : 0 < a) : 0 < b := by
    by_contra hb
    have := mul_nonpos_of_nonneg_of_nonpos ha.le (not_lt.1 hb)
    linarith

theorem side_affine (e : Pt × Pt) (a b : Pt) (s t : ℝ) (hst : s + t = 1) : side e (s • a + t • b) = s * side e a + t * side e b := by
  unfold side cross
  simp only [Prod.fst_sub, Prod.snd_sub, Prod.fst_add, Prod.snd_add, Prod.smul_fst, Prod.smul_snd, smul_eq_mul]
  linear_combination ((e.2.1 - e.1.1) * e.1.2 - (e.2.2 - e.1.2) * e.1.1) * hst

/-- Points of the hull are on the inner side of every edge of a convex polygon. -/
theorem hull_side (P : List Pt) (σ : ℝ) (hturn : ∀ e ∈ edges P, ∀ v ∈ P, 0 ≤ σ * side e v) (e : Pt × Pt) (he : e ∈ edges P)
    (w : Pt) (hw : w ∈ hull P) : 0 ≤ σ * side e w := by
  have hconv : Convex ℝ {v : Pt | 0 ≤ σ * side e v} := by
    intro a ha b hb s t hs ht hst
    simp only [Set.mem_ofPred_eq] at ha hb ⊢
    rw [side_affine e a b s t hst]
    have := mul_nonneg hs ha
    have := mul_nonneg ht hb
    nlinarith
  exact convexHull_min (fun v hv => hturn e he v hv) hconv hw

theorem continuous_side (e : Pt × Pt) : Continuous (fun w => side e w) := by
  unfold side cross
  fun_prop

/-- The interior of the hull of a convex polygon is what is strictly inside every edge. -/
theorem interior_iff (P : List Pt) (hP : P ≠ []) (σ : ℝ) (hσ : σ ≠ 0) (hturn : ∀ e ∈ edges P, ∀ v ∈ P, 0 ≤ σ * side e v)
    (hlong : ∀ e ∈ edges P, 0 < (e.2.1 - e.1.1) * (e.2.1 - e.1.1) + (e.2.2 - e.1.2) * (e.2.2 - e.1.2)) (w : Pt) :
    w ∈ interior (hull P) ↔ ∀ e ∈ edges P, 0 < σ * side e w := by
  constructor
  · intro hw e he
    have h0 := hull_side P σ hturn e he w (interior_subset hw)
    rcases h0.lt_or_eq with h | h
    · exact h
    · exfalso
      have hc : Continuous (fun ε : ℝ => w + ε • ((-(e.2.2 - e.1.2), e.2.1 - e.1.1) : Pt)) := by fun_prop
      have hev : ∀ᶠ ε in nhds (0 : ℝ), w + ε • ((-(e.2.2 - e.1.2), e.2.1 - e.1.1) : Pt) ∈ interior (hull P) := by
        apply hc.continuousAt.eventually_mem
        apply IsOpen.mem_nhds isOpen_interior
        simpa using hw
      obtain ⟨δ, hδ, hball⟩ := Metric.eventually_nhds_iff.1 hev
      have side_move : ∀ ε : ℝ, side e (w + ε • ((-(e.2.2 - e.1.2), e.2.1 - e.1.1) : Pt)) = side e w
          + ε * ((e.2.1 - e.1.1) * (e.2.1 - e.1.1) + (e.2.2 - e.1.2) * (e.2.2 - e.1.2)) := by
        intro ε
        unfold side cross
        simp only [Prod.fst_sub, Prod.snd_sub, Prod.fst_add, Prod.snd_add, Prod.smul_fst, Prod.smul_snd, smul_eq_mul]
        ring
      have hl := hlong e he
      have hpick : ∀ ε : ℝ, |ε| < δ → 0 ≤ σ * ε * ((e.2.1 - e.1.1) * (e.2.1 - e.1.1) + (e.2.2 - e.1.2) * (e.2.2 - e.1.2)) := by
        intro ε hε
        have hm := hull_side P σ hturn e he _ (interior_subset (hball (y := ε) (by simpa [Real.dist_eq] using hε)))
        rw [side_move, mul_add, ← h] at hm
        linarith
      have hd2 : |δ / 2| < δ := by rw [abs_of_pos (by linarith)]; linarith
      have h1 := hpick (δ / 2) hd2
      have h2 := hpick (-(δ / 2)) (by rw [abs_neg]; exact hd2)
      have h3 : σ * (δ / 2) * ((e.2.1 - e.1.1) * (e.2.1 - e.1.1) + (e.2.2 - e.1.2) * (e.2.2 - e.1.2)) = 0 := by
        apply le_antisymm _ h1
        linarith
      have : σ * (δ / 2) ≠ 0 := mul_ne_zero hσ (by linarith)
      exact (mul_ne_zero this hl.ne') h3
  · intro h
    have hopen : IsOpen {v : Pt | ∀ e ∈ edges P, 0 < σ * side e v} := by
      have hset : {v : Pt | ∀ e ∈ edges P, 0 < σ * side e v} = ⋂ e ∈ {e | e ∈ edges P}, {v : Pt | 0 < σ * side e v} := by
        ext v; simp
      rw [hset]
      refine (List.finite_toSet (edges P)).isOpen_biInter (fun e _ => ?_)
      exact isOpen_lt continuous_const (continuous_const.mul (continuous_side e))
    exact interior_maximal (fun v hv => mem_hull P hP σ v hv) hopen h

/-- The shoelace sum has the sense of rotation of a convex polygon. -/
theorem area_sign (P : List Pt) (hP : P ≠ []) (σ : ℝ) (w : Pt) (hw : ∀ e ∈ edges P, 0 < σ * side e w) : 0 < σ * signedArea P := by
  rw [signedArea_shift P w, ← List.sum_map_mul_left]
  exact sum_pos _ _ (edges_ne_nil P hP) hw

/-- The hull of finitely many points lies between any bounds of the points. -/
theorem hull_le (P : List Pt) (α β u : ℝ) (h : ∀ v ∈ P, α * v.1 + β * v.2 ≤ u) (w : Pt) (hw : w ∈ hull P) :
    α * w.1 + β * w.2 ≤ u := by
  have hconv : Convex ℝ {v : Pt | α * v.1 + β * v.2 ≤ u} := by
    intro a ha b hb s t hs ht hst
    simp only [Set.mem_ofPred_eq, Prod.fst_add, Prod.snd_add, Prod.smul_fst, Prod.smul_snd, smul_eq_mul] at ha hb ⊢
    have h1 := mul_le_mul_of_nonneg_left ha hs
    have h2 := mul_le_mul_of_nonneg_left hb ht
    have : s * u + t * u = u := by rw [← add_mul, hst, one_mul]
    nlinarith
  exact convexHull_min h hconv hw

end Siren.Geometry.Polygon
