import Verif.Geometry.PolyconeLocal

set_option autoImplicit false

/-!
# The planes of a polycone: where a line passes from one section into another
-/

namespace Siren.Geometry.Polycone

open Siren Siren.Geometry Filter Topology

/-- Within the ring of a plane. -/
def Ring (q : Plane) (v : Vec3 ℝ) : Prop := Cylinder.rad v < q.rmax ∧ (q.rmin = 0 ∨ q.rmin < Cylinder.rad v)

/-- A change at the height of a plane, from what is the case below to what is the case above. -/
theorem plane_change {S : ℝ → Prop} {p d : Vec3 ℝ} {t : ℝ} (hd : d.z ≠ 0) {L H : Prop}
    (hL : ∀ᶠ u in 𝓝 t, (p + Vec3.smul u d).z < (p + Vec3.smul t d).z → (S u ↔ L))
    (hH : ∀ᶠ u in 𝓝 t, (p + Vec3.smul t d).z ≤ (p + Vec3.smul u d).z → (S u ↔ H)) :
    (H → ¬ L → Flips S t (decide (d.z > 0))) ∧ (L → ¬ H → Flips S t (decide (d.z < 0))) ∧ ((L ↔ H) → Steady S t) := by
  simp only [Vec3.add_z, Vec3.smul_z] at hL hH
  have up : ∀ u, d.z > 0 → (u < t → p.z + u * d.z < p.z + t * d.z) ∧ (t < u → p.z + t * d.z < p.z + u * d.z) := by
    intro u h
    exact ⟨fun hu => by linarith [mul_lt_mul_of_pos_right hu h], fun hu => by linarith [mul_lt_mul_of_pos_right hu h]⟩
  have dn : ∀ u, d.z < 0 → (u < t → p.z + t * d.z < p.z + u * d.z) ∧ (t < u → p.z + u * d.z < p.z + t * d.z) := by
    intro u h
    exact ⟨fun hu => by linarith [mul_lt_mul_of_neg_right hu h], fun hu => by linarith [mul_lt_mul_of_neg_right hu h]⟩
  have main : ∀ f : Bool, (f = true ↔ (if d.z > 0 then H else L)) → (f = false ↔ (if d.z > 0 then L else H)) → Flips S t f := by
    intro f h1 h2
    rcases lt_or_gt_of_ne hd with h | h
    · rw [if_neg (by linarith)] at h1 h2
      refine ⟨?_, ?_⟩
      · filter_upwards [nhdsWithin_le_nhds hH, self_mem_nhdsWithin] with u a1 a2
        rw [h2]; exact a1 ((dn u h).1 a2).le
      · filter_upwards [nhdsWithin_le_nhds hL, self_mem_nhdsWithin] with u a1 a2
        rw [h1]; exact a1 ((dn u h).2 a2)
    · rw [if_pos h] at h1 h2
      refine ⟨?_, ?_⟩
      · filter_upwards [nhdsWithin_le_nhds hL, self_mem_nhdsWithin] with u a1 a2
        rw [h2]; exact a1 ((up u h).1 a2)
      · filter_upwards [nhdsWithin_le_nhds hH, self_mem_nhdsWithin] with u a1 a2
        rw [h1]; exact a1 ((up u h).2 a2).le
  refine ⟨fun h1 h2 => main _ ?_ ?_, fun h1 h2 => main _ ?_ ?_, fun h => ?_⟩
  · rcases lt_or_gt_of_ne hd with h | h
    · simp [not_lt.2 h.le, h2]
    · simp [h, h1]
  · rcases lt_or_gt_of_ne hd with h | h
    · simp [not_lt.2 h.le, h1]
    · simp [h, h2]
  · rcases lt_or_gt_of_ne hd with h | h
    · simp [not_lt.2 h.le, h1, h]
    · simp [h, h2, h.le]
  · rcases lt_or_gt_of_ne hd with h | h
    · simp [not_lt.2 h.le, h2, h]
    · simp [h, h1, h.le]
  · by_cases hl : L
    · left
      filter_upwards [hL, hH] with u a1 a2
      rcases lt_or_ge (p.z + u * d.z) (p.z + t * d.z) with h3 | h3
      · exact (a1 h3).2 hl
      · exact (a2 h3).2 (h.1 hl)
    · right
      filter_upwards [hL, hH] with u a1 a2
      rcases lt_or_ge (p.z + u * d.z) (p.z + t * d.z) with h3 | h3
      · exact fun h4 => hl ((a1 h3).1 h4)
      · exact fun h4 => hl (h.2 ((a2 h3).1 h4))

/-- Near a plane, being between the walls does not change. -/
theorem W_const {p d : Vec3 ℝ} {s : Plane × Plane} (hs : Sec s) (hc : SecClear p d s) (hd : d.z ≠ 0) {t : ℝ} {q : Plane}
    (hq : q = s.1 ∨ q = s.2) (hz : (p + Vec3.smul t d).z = q.z) : ∀ᶠ u in 𝓝 t, (W s (p + Vec3.smul u d) ↔ Ring q (p + Vec3.smul t d)) := by
  have hh : (p + Vec3.smul t d).z = s.1.z ∨ (p + Vec3.smul t d).z = s.2.z := by
    rcases hq with rfl | rfl
    · exact Or.inl hz
    · exact Or.inr hz
  have o1 : mo s (p + Vec3.smul t d) ≠ 0 := hc.1.off hs.z hd hh
  have o2 : guard s → mi s (p + Vec3.smul t d) ≠ 0 := fun hg => (hc.2 hg).off hs.z hd hh
  have e1 : mo s (p + Vec3.smul t d) = Cylinder.rad (p + Vec3.smul t d) ^ 2 - q.rmax ^ 2 := by
    unfold mo wallEq; rw [Cone.rad_sq, hz]
    rcases hq with rfl | rfl
    · rw [between_lo]
    · rw [between_hi hs.z]
  have e2 : mi s (p + Vec3.smul t d) = Cylinder.rad (p + Vec3.smul t d) ^ 2 - q.rmin ^ 2 := by
    unfold mi wallEq; rw [Cone.rad_sq, hz]
    rcases hq with rfl | rfl
    · rw [between_lo]
    · rw [between_hi hs.z]
  have hr := Cone.rad_nonneg (p + Vec3.smul t d)
  have m0 : 0 ≤ q.rmin ∧ q.rmin ≤ q.rmax := by
    rcases hq with rfl | rfl
    · exact ⟨hs.m1, hs.r1⟩
    · exact ⟨hs.m2, hs.r2⟩
  have hng : ¬ guard s → q.rmin = 0 := by
    intro hg
    unfold guard at hg
    push Not at hg
    rcases hq with rfl | rfl
    · exact le_antisymm hg.1 hs.m1
    · exact le_antisymm hg.2 hs.m2
  have hrw : Ring q (p + Vec3.smul t d) ↔ mo s (p + Vec3.smul t d) < 0 ∧ (guard s → 0 < mi s (p + Vec3.smul t d)) := by
    unfold Ring
    rw [e1, e2]
    rw [e2] at o2
    generalize Cylinder.rad (p + Vec3.smul t d) = r at *
    refine and_congr ⟨fun h => by nlinarith [m0.1, m0.2], fun h => by nlinarith [m0.1, m0.2]⟩ ⟨fun h hg => ?_, fun h => ?_⟩
    · rcases h with h | h
      · have := o2 hg
        rw [h] at this ⊢
        exact lt_of_le_of_ne (by nlinarith) (Ne.symm this)
      · nlinarith [m0.1]
    · by_cases hg : guard s
      · by_contra hc
        push Not at hc
        have := h hg
        nlinarith [m0.1, hc.2]
      · exact Or.inl (hng hg)
  rw [hrw]
  by_cases h1 : mo s (p + Vec3.smul t d) < 0
  · by_cases hg : guard s
    · rcases lt_or_gt_of_ne (o2 hg) with h2 | h2
      · filter_upwards [eventually_neg (mi_cont hs p d).continuousAt h2] with u hu
        constructor
        · intro h; exact absurd hu (h.2 hg)
        · intro h; linarith [h.2 hg]
      · filter_upwards [eventually_neg (mo_cont hs p d).continuousAt h1, eventually_pos (mi_cont hs p d).continuousAt h2] with u hu hu'
        exact ⟨fun _ => ⟨h1, fun _ => h2⟩, fun _ => ⟨hu, fun _ => not_lt.2 hu'.le⟩⟩
    · filter_upwards [eventually_neg (mo_cont hs p d).continuousAt h1] with u hu
      exact ⟨fun _ => ⟨h1, fun h => absurd h hg⟩, fun _ => ⟨hu, fun h => absurd h hg⟩⟩
  · have h1' := lt_of_le_of_ne (not_lt.1 h1) (Ne.symm o1)
    filter_upwards [eventually_pos (mo_cont hs p d).continuousAt h1'] with u hu
    constructor
    · intro h; linarith [h.1]
    · intro h; exact absurd h.1 h1

/-- The height near `t`. -/
theorem near_height (p d : Vec3 ℝ) (t : ℝ) {a : ℝ} (h : a < (p + Vec3.smul t d).z) : ∀ᶠ u in 𝓝 t, a < (p + Vec3.smul u d).z :=
  (z_cont p d).continuousAt.eventually (lt_mem_nhds h)

theorem near_height' (p d : Vec3 ℝ) (t : ℝ) {a : ℝ} (h : (p + Vec3.smul t d).z < a) : ∀ᶠ u in 𝓝 t, (p + Vec3.smul u d).z < a :=
  (z_cont p d).continuousAt.eventually (gt_mem_nhds h)

section

variable {l : List Plane} (hv : Valid l) {p d : Vec3 ℝ} (hc : Clear l p d) (hd : d.z ≠ 0) {t : ℝ}
include hv

include hc hd in
/-- Below a plane on which a section ends. -/
theorem below_section {s : Plane × Plane} (hs : s ∈ secs l) (hz : (p + Vec3.smul t d).z = s.2.z) :
    ∀ᶠ u in 𝓝 t, (p + Vec3.smul u d).z < (p + Vec3.smul t d).z → (Solid l (p + Vec3.smul u d) ↔ Ring s.2 (p + Vec3.smul t d)) := by
  have h := hv.sec hs
  filter_upwards [W_const h (hc.sec hs) hd (Or.inr rfl) hz, near_height p d t (a := s.1.z) (by rw [hz]; exact h.z)] with u h1 h2 h3
  rw [← h1]
  exact solid_in hv hs h2.le (by rw [← hz]; exact h3)

include hc hd in
/-- Above a plane on which a section starts. -/
theorem above_section {s : Plane × Plane} (hs : s ∈ secs l) (hz : (p + Vec3.smul t d).z = s.1.z) :
    ∀ᶠ u in 𝓝 t, (p + Vec3.smul t d).z ≤ (p + Vec3.smul u d).z → (Solid l (p + Vec3.smul u d) ↔ Ring s.1 (p + Vec3.smul t d)) := by
  have h := hv.sec hs
  filter_upwards [W_const h (hc.sec hs) hd (Or.inl rfl) hz, near_height' p d t (a := s.2.z) (by rw [hz]; exact h.z)] with u h1 h2 h3
  rw [← h1]
  exact solid_in hv hs (by rw [← hz]; exact h3) h2

/-- Below all sections. -/
theorem below_all (h : ∀ s ∈ secs l, (p + Vec3.smul t d).z ≤ s.1.z) :
    ∀ᶠ u in 𝓝 t, (p + Vec3.smul u d).z < (p + Vec3.smul t d).z → (Solid l (p + Vec3.smul u d) ↔ False) := by
  refine Eventually.of_forall fun u hu => iff_false_intro fun hs => ?_
  obtain ⟨s, hs, h1, _⟩ := (solid_iff hv _).1 hs
  linarith [h s hs]

/-- Above all sections. -/
theorem above_all (h : ∀ s ∈ secs l, s.2.z ≤ (p + Vec3.smul t d).z) :
    ∀ᶠ u in 𝓝 t, (p + Vec3.smul t d).z ≤ (p + Vec3.smul u d).z → (Solid l (p + Vec3.smul u d) ↔ False) := by
  refine Eventually.of_forall fun u hu => iff_false_intro fun hs => ?_
  obtain ⟨s, hs, _, h1, _⟩ := (solid_iff hv _).1 hs
  linarith [h s hs]

end

theorem Tower.lowest {C : List (Plane × Plane)} (h : Tower C) {s0 : Plane × Plane} (h0 : C.head? = some s0) : ∀ s ∈ C, s0.1.z ≤ s.1.z := by
  cases C with
  | nil => simp at h0
  | cons x C =>
    simp only [List.head?_cons, Option.some.injEq] at h0
    subst h0
    intro s hs
    rcases List.mem_cons.1 hs with rfl | hs
    · exact le_rfl
    · have := (List.pairwise_cons.1 h.pairwise).1 s hs
      linarith [h.1 x (by simp)]

theorem Tower.highest {C : List (Plane × Plane)} (h : Tower C) {sl : Plane × Plane} (hl : C.getLast? = some sl) : ∀ s ∈ C, s.2.z ≤ sl.2.z := by
  obtain ⟨ys, rfl⟩ := List.getLast?_eq_some_iff.1 hl
  intro s hs
  rcases List.mem_append.1 hs with hs | hs
  · have := (List.pairwise_append.1 h.pairwise).2.2 s hs sl (by simp)
    linarith [h.1 sl (by simp)]
  · rw [List.mem_singleton.1 hs]

/-! ### Crossings -/

/-- A crossing of a cap at the end. -/
def CapX (p d : Vec3 ℝ) (q : Plane) (e : Bool) (x : ℝ × Bool) : Prop :=
  d.z ≠ 0 ∧ (p + Vec3.smul x.1 d).z = q.z ∧ Ring q (p + Vec3.smul x.1 d) ∧ x.2 = e

/-- A crossing of a cap where one section stands on another. -/
def StepX (p d : Vec3 ℝ) (g : Plane × Plane) (x : ℝ × Bool) : Prop :=
  d.z ≠ 0 ∧ (p + Vec3.smul x.1 d).z = g.1.z ∧
    ((Ring g.2 (p + Vec3.smul x.1 d) ∧ ¬ Ring g.1 (p + Vec3.smul x.1 d) ∧ x.2 = decide (d.z > 0)) ∨
      (Ring g.1 (p + Vec3.smul x.1 d) ∧ ¬ Ring g.2 (p + Vec3.smul x.1 d) ∧ x.2 = decide (d.z < 0)))

/-- A crossing, said without the model of the code. -/
def IsCrossing (l : List Plane) (p d : Vec3 ℝ) (x : ℝ × Bool) : Prop :=
  (∃ s ∈ secs l, WallX p d s x) ∨ (∃ f, l.head? = some f ∧ CapX p d f (decide (d.z > 0)) x) ∨
    (∃ f, l.getLast? = some f ∧ CapX p d f (decide (d.z < 0)) x) ∨ ∃ g ∈ junctions (secs l), StepX p d g x

theorem mem_junctions {l : List Plane} (hv : Valid l) {g : Plane × Plane} (h : g ∈ junctions (secs l)) :
    ∃ s ∈ secs l, ∃ s' ∈ secs l, g = (s.2, s'.1) ∧ s.2.z = s'.1.z := by
  obtain ⟨q, hq, rfl⟩ := List.mem_map.1 h
  have := List.of_mem_zip hq
  exact ⟨q.1, this.1, q.2, List.mem_of_mem_tail this.2, rfl, chain_zip _ (secs_tower l hv.order).1.2 q hq⟩

theorem WallX.stays {p d : Vec3 ℝ} {s : Plane × Plane} (hc : SecClear p d s) {x : ℝ × Bool} (hx : WallX p d s x) : Stays p d s x.1 := by
  rcases hx with ⟨_, h2, h3, _⟩ | ⟨h0, _, h2, h3, _⟩
  · exact hc.1.stays h2 h3
  · exact (hc.2 h0).stays h2 h3

theorem stays_solid {l : List Plane} (hv : Valid l) {p d : Vec3 ℝ} {s : Plane × Plane} (hs : s ∈ secs l) {t : ℝ} (hst : Stays p d s t) :
    ∀ᶠ u in 𝓝 t, (W s (p + Vec3.smul u d) ↔ Solid l (p + Vec3.smul u d)) :=
  hst.mono fun _ hu => (solid_in hv hs hu.1 hu.2).symm

theorem crossing_flips {l : List Plane} (hv : Valid l) {p d : Vec3 ℝ} (hc : Clear l p d) (x : ℝ × Bool) (hx : IsCrossing l p d x) :
    Flips (fun u => Solid l (p + Vec3.smul u d)) x.1 x.2 := by
  obtain ⟨f, last, a, b, hf, hlast, hh, hl, _⟩ := hv.shape
  have hT := (secs_tower l hv.order).1
  have mh : (f, a) ∈ secs l := List.mem_of_mem_head? hh
  have ml : (b, last) ∈ secs l := List.mem_of_getLast? hl
  obtain ⟨t, e⟩ := x
  rcases hx with ⟨s, hs, hx⟩ | ⟨q, hq, hd, hz, hr, he⟩ | ⟨q, hq, hd, hz, hr, he⟩ | ⟨g, hg, hd, hz, hx⟩
  · refine (wallX_flips (hv.sec hs) (hx.stays (hc.sec hs)) ?_ hx).congr (stays_solid hv hs (hx.stays (hc.sec hs)))
    intro h0 h1
    refine (hc.level.resolve_left fun h => ?_).2 _ (mem_planes hs).1 h1
    rw [h0, abs_zero] at h
    linarith [precision_pos]
  · obtain rfl : q = f := Option.some.inj (hq.symm.trans hf)
    simp only at hz hr he
    rw [he]
    refine (plane_change hd (below_all hv (l := l) ?_) (above_section hv hc hd mh hz)).1 hr not_false
    intro s hs; rw [hz]; exact hT.lowest hh s hs
  · obtain rfl : q = last := Option.some.inj (hq.symm.trans hlast)
    simp only at hz hr he
    rw [he]
    refine (plane_change hd (below_section hv hc hd ml hz) (above_all hv (l := l) ?_)).2.1 hr not_false
    intro s hs; rw [hz]; exact hT.highest hl s hs
  · obtain ⟨s, hs, s', hs', rfl, e2⟩ := mem_junctions hv hg
    simp only at hz hx
    have key := plane_change hd (below_section hv hc hd hs hz) (above_section hv hc hd hs' (by rw [hz, e2]))
    rcases hx with ⟨h1, h2, h3⟩ | ⟨h1, h2, h3⟩
    · rw [h3]; exact key.1 h1 h2
    · rw [h3]; exact key.2.1 h1 h2

theorem crossing_steady {l : List Plane} (hv : Valid l) {p d : Vec3 ℝ} (hc : Clear l p d) (t : ℝ) (hx : ∀ x, IsCrossing l p d x → x.1 ≠ t) :
    Steady (fun u => Solid l (p + Vec3.smul u d)) t := by
  obtain ⟨f, last, a, b, hf, hlast, hh, hl, _⟩ := hv.shape
  have hT := (secs_tower l hv.order).1
  have mh : (f, a) ∈ secs l := List.mem_of_mem_head? hh
  have ml : (b, last) ∈ secs l := List.mem_of_getLast? hl
  have no := fun e h => hx (t, e) h rfl
  have stays : ∀ s ∈ secs l, Stays p d s t → Steady (fun u => Solid l (p + Vec3.smul u d)) t := by
    intro s hs hst
    have h1 := wallX_steady (hv.sec hs) hst fun e h => no e (Or.inl ⟨s, hs, h⟩)
    have h2 := stays_solid hv hs hst
    rcases h1 with h1 | h1
    · left; filter_upwards [h1, h2] with u a1 a2; exact a2.1 a1
    · right; filter_upwards [h1, h2] with u a1 a2; exact fun h => a1 (a2.2 h)
  by_cases hd : d.z = 0
  · by_cases hin : ∃ s ∈ secs l, s.1.z ≤ p.z ∧ p.z < s.2.z
    · obtain ⟨s, hs, h1⟩ := hin
      refine stays s hs (Eventually.of_forall fun u => ?_)
      rw [Vec3.add_z, Vec3.smul_z, hd, mul_zero, add_zero]; exact h1
    · right
      refine Eventually.of_forall fun u h => hin ?_
      obtain ⟨s, hs, h1, h2, _⟩ := (solid_iff hv _).1 h
      rw [Vec3.add_z, Vec3.smul_z, hd, mul_zero, add_zero] at h1 h2
      exact ⟨s, hs, h1, h2⟩
  · rcases hT.locate (p + Vec3.smul t d).z hh hl with h | h | h | h | ⟨s, hs, h1, h2⟩ | ⟨q, hq, h1, h2⟩
    · right
      filter_upwards [near_height' p d t h] with u hu hS
      obtain ⟨s, hs, h1, _⟩ := (solid_iff hv _).1 hS
      have := hT.lowest hh s hs
      simp only at hu this
      linarith
    · right
      filter_upwards [near_height p d t h] with u hu hS
      obtain ⟨s, hs, _, h1, _⟩ := (solid_iff hv _).1 hS
      have := hT.highest hl s hs
      simp only at hu this
      linarith
    · have hr : ¬ Ring f (p + Vec3.smul t d) := fun hr => no (decide (d.z > 0)) (Or.inr (Or.inl ⟨f, hf, hd, h, hr, rfl⟩))
      refine (plane_change hd (below_all hv (l := l) ?_) (above_section hv hc hd mh h)).2.2 ⟨False.elim, hr⟩
      intro s hs; rw [h]; exact hT.lowest hh s hs
    · have hr : ¬ Ring last (p + Vec3.smul t d) := fun hr => no (decide (d.z < 0)) (Or.inr (Or.inr (Or.inl ⟨last, hlast, hd, h, hr, rfl⟩)))
      refine (plane_change hd (below_section hv hc hd ml h) (above_all hv (l := l) ?_)).2.2 ⟨hr, False.elim⟩
      intro s hs; rw [h]; exact hT.highest hl s hs
    · refine stays s hs ?_
      filter_upwards [near_height p d t h1, near_height' p d t h2] with u a1 a2
      exact ⟨a1.le, a2⟩
    · have hm := List.of_mem_zip hq
      have hg : (q.1.2, q.2.1) ∈ junctions (secs l) := List.mem_map.2 ⟨q, hq, rfl⟩
      refine (plane_change hd (below_section hv hc hd hm.1 h1.symm) (above_section hv hc hd (List.mem_of_mem_tail hm.2) h2.symm)).2.2 ?_
      constructor
      · intro a1; by_contra a2
        exact no (decide (d.z < 0)) (Or.inr (Or.inr (Or.inr ⟨_, hg, hd, h1.symm, Or.inr ⟨a1, a2, rfl⟩⟩)))
      · intro a1; by_contra a2
        exact no (decide (d.z > 0)) (Or.inr (Or.inr (Or.inr ⟨_, hg, hd, h1.symm, Or.inl ⟨a1, a2, rfl⟩⟩)))

end Siren.Geometry.Polycone
