import Verif.Geometry.PolyconePlanes

set_option autoImplicit false

/-!
# C121: what is reported for a line through a polycone
-/

namespace Siren.Geometry.Polycone

open Siren Siren.Geometry Filter Topology

/-! ### What the code finds -/

/-- Outside a circle around the axis; a circle without a radius has no inside. -/
def Out (r r2 : ℝ) : Prop := r = 0 ∨ r ^ 2 < r2

theorem ring_hit {r1 r2 x : ℝ} (hr1 : 0 ≤ r1) (hr2 : 0 ≤ r2) (hx : 0 ≤ x) (h1 : r1 = 0 ∨ x < r1 ^ 2 ∨ r1 ^ 2 < x) (h2 : r2 = 0 ∨ x < r2 ^ 2 ∨ r2 ^ 2 < x) :
    (r1 ≠ r2 ∧ x ≥ min r1 r2 * min r1 r2 ∧ x ≤ max r1 r2 * max r1 r2) ↔ (Out r1 x ∧ ¬ Out r2 x) ∨ (¬ Out r1 x ∧ Out r2 x) := by
  have main : ∀ a b : ℝ, 0 ≤ a → a ≤ b → (a = 0 ∨ x < a ^ 2 ∨ a ^ 2 < x) → (b = 0 ∨ x < b ^ 2 ∨ b ^ 2 < x) →
      ((a ≠ b ∧ x ≥ a * a ∧ x ≤ b * b) ↔ (Out a x ∧ ¬ Out b x)) ∧ (Out b x → Out a x) := by
    intro a b ha hab h1 h2
    have hb := ha.trans hab
    have hsq : a ^ 2 ≤ b ^ 2 := pow_le_pow_left₀ ha hab 2
    refine ⟨⟨?_, ?_⟩, ?_⟩
    · rintro ⟨h3, h4, h5⟩
      refine ⟨?_, ?_⟩
      · rcases h1 with h | h | h
        · exact Or.inl h
        · nlinarith
        · exact Or.inr h
      · rintro (h | h)
        · exact h3 (le_antisymm hab (by rw [h]; exact ha))
        · nlinarith
    · rintro ⟨h3, h4⟩
      unfold Out at h4
      push Not at h4
      refine ⟨?_, ?_, by nlinarith [h4.2]⟩
      · rintro rfl
        rcases h3 with h | h
        · exact h4.1 h
        · linarith [h4.2]
      · rcases h3 with h | h
        · rw [h]; nlinarith
        · nlinarith
    · rintro (h | h)
      · left; linarith
      · by_cases h0 : a = 0
        · exact Or.inl h0
        · exact Or.inr (by linarith)
  rcases le_total r1 r2 with h | h
  · obtain ⟨k1, k2⟩ := main r1 r2 hr1 h h1 h2
    rw [min_eq_left h, max_eq_right h, k1]; tauto
  · obtain ⟨k1, k2⟩ := main r2 r1 hr2 h h2 h1
    rw [min_eq_right h, max_eq_left h, ne_comm, k1]; tauto

/-- What an edge clear of the line says about the reported place and the exact one. -/
theorem edge_at {q : Plane} {r : ℝ} {p d : Vec3 ℝ} (h : EdgeClear q r p d) {t : ℝ} (ht : (p + Vec3.smul t d).z = q.z) :
    (Cylinder.rad (p + Vec3.smul (snap t) d) ^ 2 < r ^ 2 - precision * max 1 (q.rmax ^ 2) ∧
      Cylinder.rad (p + Vec3.smul t d) ^ 2 < r ^ 2 - precision * max 1 (q.rmax ^ 2)) ∨
    (r ^ 2 + precision * max 1 (q.rmax ^ 2) < Cylinder.rad (p + Vec3.smul (snap t) d) ^ 2 ∧
      r ^ 2 + precision * max 1 (q.rmax ^ 2) < Cylinder.rad (p + Vec3.smul t d) ^ 2) := by
  have hs : |snap t - t| ≤ precision := by
    have := snap_near t; have := snap_le t; rw [abs_le]; constructor <;> linarith [precision_pos]
  have h0 : |t - t| ≤ precision := by rw [sub_self, abs_zero]; exact precision_pos.le
  exact (h t ht).imp (fun h => ⟨h _ hs, h _ h0⟩) fun h => ⟨h _ hs, h _ h0⟩

theorem tol_pos (q : Plane) : 0 < precision * max 1 (q.rmax ^ 2) := mul_pos precision_pos (lt_of_lt_of_le one_pos (le_max_left _ _))

theorem snapped_sq (p d : Vec3 ℝ) (t : ℝ) : (p.x + snap t * d.x) * (p.x + snap t * d.x) + (p.y + snap t * d.y) * (p.y + snap t * d.y) =
    Cylinder.rad (p + Vec3.smul (snap t) d) ^ 2 := by
  rw [Cone.rad_sq]; simp only [Vec3.add_x, Vec3.add_y, Vec3.smul_x, Vec3.smul_y]; ring

/-- The ring, seen from the reported place. -/
theorem ring_iff {l : List Plane} (hv : Valid l) {p d : Vec3 ℝ} (hc : Clear l p d) (hd : d.z ≠ 0) {q : Plane} (hq : q ∈ l) {t : ℝ}
    (ht : (p + Vec3.smul t d).z = q.z) :
    (Ring q (p + Vec3.smul t d) ↔ ¬ Out q.rmax (Cylinder.rad (p + Vec3.smul (snap t) d) ^ 2) ∧ Out q.rmin (Cylinder.rad (p + Vec3.smul (snap t) d) ^ 2)) ∧
    (Ring q (p + Vec3.smul t d) ↔ Cylinder.rad (p + Vec3.smul (snap t) d) ^ 2 ≤ q.rmax * q.rmax + precision * max 1 (q.rmax * q.rmax) ∧
      Cylinder.rad (p + Vec3.smul (snap t) d) ^ 2 ≥ q.rmin * q.rmin - precision * max 1 (q.rmax * q.rmax)) ∧
    (Cylinder.rad (p + Vec3.smul (snap t) d) ^ 2 < q.rmax ^ 2 ∨ q.rmax ^ 2 < Cylinder.rad (p + Vec3.smul (snap t) d) ^ 2) ∧
    (q.rmin = 0 ∨ Cylinder.rad (p + Vec3.smul (snap t) d) ^ 2 < q.rmin ^ 2 ∨ q.rmin ^ 2 < Cylinder.rad (p + Vec3.smul (snap t) d) ^ 2) := by
  obtain ⟨e1, e2⟩ := hc.edges hd q hq
  have f1 := edge_at e1 ht
  have f2 : q.rmin ≠ 0 → _ := fun h => edge_at (e2 h) ht
  have htol := tol_pos q
  have hr := Cone.rad_nonneg (p + Vec3.smul t d)
  have m0 := hv.rmin q hq
  have m1 := hv.radii q hq
  have hs0 := sq_nonneg (Cylinder.rad (p + Vec3.smul (snap t) d))
  unfold Ring Out
  rw [← sq q.rmax, ← sq q.rmin]
  generalize precision * max 1 (q.rmax ^ 2) = tol at *
  generalize Cylinder.rad (p + Vec3.smul (snap t) d) ^ 2 = rs at *
  generalize Cylinder.rad (p + Vec3.smul t d) = r at *
  have k1 : r < q.rmax ↔ r ^ 2 < q.rmax ^ 2 := ⟨fun h => pow_lt_pow_left₀ h hr two_ne_zero, fun h => lt_of_pow_lt_pow_left₀ 2 (m0.trans m1) h⟩
  have k2 : q.rmin < r ↔ q.rmin ^ 2 < r ^ 2 := ⟨fun h => pow_lt_pow_left₀ h m0 two_ne_zero, fun h => lt_of_pow_lt_pow_left₀ 2 hr h⟩
  have k3 : q.rmax = 0 → q.rmax ^ 2 < rs := by
    intro h
    rcases f1 with f1 | f1
    · rw [h] at f1; nlinarith [f1.1]
    · linarith [f1.1]
  rw [k1, k2]
  refine ⟨?_, ?_, ?_, ?_⟩
  · refine and_congr ?_ (or_congr_right' ?_)
    · rw [not_or]
      rcases f1 with f1 | f1
      · refine ⟨fun _ => ⟨fun h => ?_, by linarith [f1.1]⟩, fun _ => by linarith [f1.2]⟩
        have := k3 h; linarith [f1.1]
      · exact ⟨fun h => by linarith [f1.2], fun h => absurd (by linarith [f1.1]) h.2⟩
    · intro h
      rcases f2 h with f2 | f2
      · exact ⟨fun h => by linarith [f2.2], fun h => by linarith [f2.1]⟩
      · exact ⟨fun h => by linarith [f2.1], fun h => by linarith [f2.2]⟩
  · refine and_congr ?_ ?_
    · rcases f1 with f1 | f1
      · exact ⟨fun _ => by linarith [f1.1], fun _ => by linarith [f1.2]⟩
      · exact ⟨fun h => by linarith [f1.2], fun h => by linarith [f1.1]⟩
    · by_cases h : q.rmin = 0
      · rw [h]
        exact ⟨fun _ => by nlinarith, fun _ => Or.inl rfl⟩
      · rcases f2 h with f2 | f2
        · refine ⟨fun h' => ?_, fun h => by linarith [f2.1]⟩
          rcases h' with h' | h'
          · exact absurd h' h
          · linarith [f2.2]
        · exact ⟨fun _ => by linarith [f2.1], fun _ => Or.inr (by linarith [f2.2])⟩
  · rcases f1 with f1 | f1
    · left; linarith [f1.1]
    · right; linarith [f1.1]
  · by_cases h : q.rmin = 0
    · exact Or.inl h
    · right
      rcases f2 h with f2 | f2
      · left; linarith [f2.1]
      · right; linarith [f2.1]

theorem Clear.steep {l : List Plane} {p d : Vec3 ℝ} (hc : Clear l p d) : precision < |d.z| ∨ d.z = 0 := hc.level.imp_right fun h => h.1

theorem at_height (p d : Vec3 ℝ) (hd : d.z ≠ 0) (z t : ℝ) : (p + Vec3.smul t d).z = z ↔ t = (z - p.z) / d.z := by
  rw [eq_div_iff hd, Vec3.add_z, Vec3.smul_z]; constructor <;> intro h <;> linarith

theorem mem_cap {l : List Plane} (hv : Valid l) {p d : Vec3 ℝ} (hc : Clear l p d) {q : Plane} (hq : q ∈ l) (e : Bool) (x : ℝ × Bool) :
    x ∈ cap q p d e ↔ CapX p d q e x := by
  obtain ⟨t, f⟩ := x
  unfold cap CapX
  rcases hc.steep with h | h
  · have hd : d.z ≠ 0 := fun e => by rw [e, abs_zero] at h; linarith [precision_pos]
    rw [if_pos h]
    have ht := at_height p d hd q.z
    have key := (ring_iff hv hc hd hq ((ht _).2 rfl)).2.1
    simp only [snapped_sq]
    simp only [ht]
    split
    · next h2 =>
      simp only [List.mem_singleton, Prod.mk.injEq]
      constructor
      · rintro ⟨rfl, rfl⟩; exact ⟨hd, rfl, key.2 h2, rfl⟩
      · rintro ⟨_, rfl, _, rfl⟩; exact ⟨rfl, rfl⟩
    · next h2 =>
      simp only [List.not_mem_nil, false_iff]
      rintro ⟨_, rfl, h3, _⟩; exact h2 (key.1 h3)
  · rw [h, abs_zero, if_neg (not_lt.2 precision_pos.le)]
    simp

theorem mem_step {l : List Plane} (hv : Valid l) {p d : Vec3 ℝ} (hc : Clear l p d) {g : Plane × Plane} (h1 : g.1 ∈ l) (h2 : g.2 ∈ l)
    (he : g.1.z = g.2.z) (x : ℝ × Bool) : (x ∈ step p d g ↔ StepX p d g x) ∧ (step p d g).length ≤ 1 := by
  classical
  obtain ⟨t, f⟩ := x
  obtain ⟨b, a⟩ := g
  simp only at h1 h2 he
  unfold step StepX
  simp only
  rcases hc.steep with h | h
  · have hd : d.z ≠ 0 := fun e => by rw [e, abs_zero] at h; linarith [precision_pos]
    rw [if_pos h]
    have ht := at_height p d hd b.z
    obtain ⟨t0, ht0⟩ : ∃ t0, t0 = (b.z - p.z) / d.z := ⟨_, rfl⟩
    simp only [snapped_sq, ht, ← ht0]
    have hz := (ht t0).2 ht0
    obtain ⟨kb, _, ob, ib⟩ := ring_iff hv hc hd h1 hz
    obtain ⟨ka, _, oa, ia⟩ := ring_iff hv hc hd h2 (hz.trans he)
    have hs0 := sq_nonneg (Cylinder.rad (p + Vec3.smul (snap t0) d))
    have mb := hv.rmin b h1
    have ma := hv.rmin a h2
    have rb := hv.radii b h1
    have ra := hv.radii a h2
    have rg1 := hv.rings b h1 a h2 he
    have rg2 := hv.rings a h2 b h1 he.symm
    have kout := ring_hit (mb.trans rb) (ma.trans ra) hs0 (Or.inr ob) (Or.inr oa)
    have kinn := ring_hit mb ma hs0 ib ia
    generalize Cylinder.rad (p + Vec3.smul (snap t0) d) ^ 2 = rs at *
    have mono : ∀ r s, 0 ≤ r → r ≤ s → Out s rs → Out r rs := by
      intro r s h0 h1 h
      rcases h with h | h
      · left; linarith
      · right; nlinarith
    have lt : ∀ r s, 0 ≤ r → 0 ≤ s → Out r rs → ¬ Out s rs → r < s := by
      intro r s h0 h1 h2 h3
      by_contra hc
      exact h3 (mono s r h1 (not_lt.1 hc) h2)
    have o1 := mono b.rmin b.rmax mb rb
    have o2 := mono a.rmin a.rmax ma ra
    have o3 := mono b.rmin a.rmax mb rg1
    have o4 := mono a.rmin b.rmax ma rg2
    have l1 := lt b.rmax a.rmax (mb.trans rb) (ma.trans ra)
    have l2 := lt a.rmax b.rmax (ma.trans ra) (mb.trans rb)
    have l3 := lt b.rmin a.rmin mb ma
    have l4 := lt a.rmin b.rmin ma mb
    by_cases hsame : b.rmax = a.rmax ∧ b.rmin = a.rmin
    · rw [if_pos hsame]
      refine ⟨?_, by simp⟩
      simp only [List.not_mem_nil, false_iff]
      rintro ⟨_, rfl, hx⟩
      rw [ka, kb, hsame.1, hsame.2] at hx
      rcases hx with ⟨hx, hx', _⟩ | ⟨hx, hx', _⟩ <;> exact hx' hx
    · rw [if_neg hsame]
      rw [if_congr kout rfl rfl, if_congr kinn rfl rfl]
      have hst : ∀ c : Prop, (t = t0 ∧ ((Ring a (p + Vec3.smul t d) ∧ ¬ Ring b (p + Vec3.smul t d) ∧ f = decide (d.z > 0)) ∨
          (Ring b (p + Vec3.smul t d) ∧ ¬ Ring a (p + Vec3.smul t d) ∧ f = decide (d.z < 0)))) ↔
          (t = t0 ∧ ((Ring a (p + Vec3.smul t0 d) ∧ ¬ Ring b (p + Vec3.smul t0 d) ∧ f = decide (d.z > 0)) ∨
          (Ring b (p + Vec3.smul t0 d) ∧ ¬ Ring a (p + Vec3.smul t0 d) ∧ f = decide (d.z < 0)))) := by
        intro _
        constructor <;> (rintro ⟨rfl, h⟩; exact ⟨rfl, h⟩)
      rw [hst True, ka, kb]
      clear kout kinn ka kb hst
      by_cases Ob : Out b.rmax rs <;> by_cases Oa : Out a.rmax rs
      · have Ib := o1 Ob
        have Ia := o2 Oa
        simp [Ob, Oa, Ib, Ia]
      · have Ib := o1 Ob
        have Ia := o4 Ob
        have hlt := l1 Ob Oa
        simp [Ob, Oa, Ib, Ia, hlt, hd]
      · have Ib := o3 Oa
        have Ia := o2 Oa
        have hlt := l2 Oa Ob
        simp [Ob, Oa, Ib, Ia, not_lt.2 hlt.le, hd]
      · by_cases Ib : Out b.rmin rs <;> by_cases Ia : Out a.rmin rs
        · simp [Ob, Oa, Ib, Ia]
        · have hlt := l3 Ib Ia
          simp [Ob, Oa, Ib, Ia, hlt, hd]
        · have hlt := l4 Ia Ib
          simp [Ob, Oa, Ib, Ia, not_lt.2 hlt.le, hd]
        · simp [Ob, Oa, Ib, Ia]
  · rw [h, abs_zero, if_neg (not_lt.2 precision_pos.le)]
    simp

theorem flatMap_filter {A B : Type} (P : A → Bool) (f : A → List B) (l : List A) (h : ∀ a ∈ l, P a = false → f a = []) :
    l.flatMap f = (l.filter P).flatMap f := by
  induction l with
  | nil => rfl
  | cons a l ih =>
    have ih := ih fun b hb => h b (List.mem_cons_of_mem _ hb)
    rw [List.flatMap_cons, List.filter_cons, ih]
    cases hP : P a with
    | true => simp
    | false => simp [h a (by simp) hP]

theorem crossings_eq {l : List Plane} {f last : Plane} (hf : l.head? = some f) (hl : l.getLast? = some last)
    (hg : groups l = junctions (secs l)) (p d : Vec3 ℝ) :
    crossings l p d = (secs l).flatMap (section_ p d) ++ (cap f p d (decide (d.z > 0)) ++ (cap last p d (decide (d.z < 0)) ++
      (junctions (secs l)).flatMap (step p d))) := by
  unfold crossings
  rw [hf, hl, hg]
  simp only
  congr 1
  unfold secs
  refine flatMap_filter _ _ _ fun a _ ha => ?_
  rw [decide_eq_false_iff_not, not_lt] at ha
  unfold section_
  simp only
  rw [if_pos ha]

theorem mem_ends {l : List Plane} {f last : Plane} (hf : l.head? = some f) (hl : l.getLast? = some last) : f ∈ l ∧ last ∈ l :=
  ⟨List.mem_of_mem_head? hf, List.mem_of_getLast? hl⟩

theorem junction_mem {l : List Plane} (hv : Valid l) {g : Plane × Plane} (h : g ∈ junctions (secs l)) : g.1 ∈ l ∧ g.2 ∈ l ∧ g.1.z = g.2.z := by
  obtain ⟨s, hs, s', hs', rfl, e⟩ := mem_junctions hv h
  exact ⟨(mem_planes hs).2, (mem_planes hs').1, e⟩

theorem mem_crossings {l : List Plane} (hv : Valid l) {p d : Vec3 ℝ} (hc : Clear l p d) (x : ℝ × Bool) : x ∈ crossings l p d ↔ IsCrossing l p d x := by
  obtain ⟨f, last, a, b, hf, hl, _, _, hg⟩ := hv.shape
  obtain ⟨mf, ml⟩ := mem_ends hf hl
  rw [crossings_eq hf hl hg]
  unfold IsCrossing
  simp only [List.mem_append, List.mem_flatMap, hf, hl, Option.some.injEq, exists_eq_left']
  rw [mem_cap hv hc mf, mem_cap hv hc ml]
  refine or_congr (exists_congr fun s => and_congr_right fun hs => mem_section (hv.sec hs) hc.steep (hc.sec hs) x)
    (or_congr Iff.rfl (or_congr Iff.rfl (exists_congr fun g => and_congr_right fun h => ?_)))
  obtain ⟨g1, g2, g3⟩ := junction_mem hv h
  exact (mem_step hv hc g1 g2 g3 x).1

theorem section_nodup {p d : Vec3 ℝ} {s : Plane × Plane} (hs : Sec s) (hc : SecClear p d s) (hh : d.z = 0 → s.1.z = p.z → s.1.rmin < s.1.rmax) :
    ((section_ p d s).map Prod.fst).Nodup := by
  unfold section_
  simp only
  split
  · simp
  · split
    · simp
    · rw [List.map_append]
      refine List.nodup_append.2 ⟨Cone.wall_nodup _ _ _ _ _ _, ?_, ?_⟩
      · split
        · exact Cone.wall_nodup _ _ _ _ _ _
        · simp
      · intro t ht t' ht' e
        subst e
        obtain ⟨x, hx, rfl⟩ := List.mem_map.1 ht
        obtain ⟨y, hy, e⟩ := List.mem_map.1 ht'
        split at hy
        · next hg =>
          obtain ⟨_, k1, k2, _⟩ := (hc.1.mem hs.z (hs.m1.trans hs.r1) (hs.m2.trans hs.r2) false x).1 hx
          obtain ⟨_, k3, _, _⟩ := ((hc.2 hg).mem hs.z hs.m1 hs.m2 true y).1 hy
          have hst := hc.1.stays k1 k2
          have := walls_apart hs k2.1 k2.2 (by
            by_cases hd : d.z = 0
            · by_cases he : s.1.z = p.z
              · exact Or.inr (hh hd he)
              · left
                refine lt_of_le_of_ne k2.1 ?_
                rw [Vec3.add_z, Vec3.smul_z, hd, mul_zero, add_zero]; exact he
            · exact Or.inl (hst.above hd))
          unfold mo mi at this
          rw [e] at k3
          rw [k1, k3] at this
          exact lt_irrefl _ this
        · simp at hy

theorem nodup_flatMap_fst {A : Type} (C : List A) (f : A → List (ℝ × Bool)) (h1 : ∀ a ∈ C, ((f a).map Prod.fst).Nodup)
    (h2 : C.Pairwise fun a b => ∀ x ∈ f a, ∀ y ∈ f b, x.1 ≠ y.1) : ((C.flatMap f).map Prod.fst).Nodup := by
  rw [List.map_flatMap, List.nodup_flatMap]
  refine ⟨h1, h2.imp fun {a b} h => ?_⟩
  intro t ht ht'
  obtain ⟨x, hx, rfl⟩ := List.mem_map.1 ht
  obtain ⟨y, hy, e⟩ := List.mem_map.1 ht'
  exact h x hx y hy e.symm

theorem nodup_append_fst {A B : List (ℝ × Bool)} (h1 : (A.map Prod.fst).Nodup) (h2 : (B.map Prod.fst).Nodup)
    (h3 : ∀ x ∈ A, ∀ y ∈ B, x.1 ≠ y.1) : ((A ++ B).map Prod.fst).Nodup := by
  rw [List.map_append]
  refine List.nodup_append.2 ⟨h1, h2, fun t ht t' ht' e => ?_⟩
  obtain ⟨x, hx, rfl⟩ := List.mem_map.1 ht
  obtain ⟨y, hy, e'⟩ := List.mem_map.1 ht'
  exact h3 x hx y hy (by rw [e', e])

theorem cap_nodup (q : Plane) (p d : Vec3 ℝ) (e : Bool) : ((cap q p d e).map Prod.fst).Nodup := by
  unfold cap
  simp only
  split
  · split <;> simp
  · simp

theorem Clear.lower {l : List Plane} {p d : Vec3 ℝ} (hc : Clear l p d) {s : Plane × Plane} (hs : s ∈ secs l) (hd : d.z = 0) (he : s.1.z = p.z) :
    s.1.rmin < s.1.rmax := by
  rcases hc.level with h | h
  · rw [hd, abs_zero] at h; linarith [precision_pos]
  · exact h.2 s.1 (mem_planes hs).1 he

theorem crossings_nodup {l : List Plane} (hv : Valid l) {p d : Vec3 ℝ} (hc : Clear l p d) : ((crossings l p d).map Prod.fst).Nodup := by
  obtain ⟨f, last, a, b, hf, hl, hh, hla, hg⟩ := hv.shape
  obtain ⟨mf, ml⟩ := mem_ends hf hl
  have hT := (secs_tower l hv.order).1
  have sf : (f, a) ∈ secs l := List.mem_of_mem_head? hh
  have sl : (b, last) ∈ secs l := List.mem_of_getLast? hla
  rw [crossings_eq hf hl hg]
  have mS : ∀ s ∈ secs l, ∀ x ∈ section_ p d s, WallX p d s x ∧ Stays p d s x.1 := by
    intro s hs x hx
    have := (mem_section (hv.sec hs) hc.steep (hc.sec hs) x).1 hx
    exact ⟨this, this.stays (hc.sec hs)⟩
  have mG : ∀ g ∈ junctions (secs l), ∀ x ∈ step p d g, d.z ≠ 0 ∧ (p + Vec3.smul x.1 d).z = g.1.z := by
    intro g hg x hx
    obtain ⟨g1, g2, g3⟩ := junction_mem hv hg
    have := (mem_step hv hc g1 g2 g3 x).1.1 hx
    exact ⟨this.1, this.2.1⟩
  have mF : ∀ e, ∀ x ∈ cap f p d e, d.z ≠ 0 ∧ (p + Vec3.smul x.1 d).z = f.z := fun e x hx => by
    have := (mem_cap hv hc mf e x).1 hx; exact ⟨this.1, this.2.1⟩
  have mL : ∀ e, ∀ x ∈ cap last p d e, d.z ≠ 0 ∧ (p + Vec3.smul x.1 d).z = last.z := fun e x hx => by
    have := (mem_cap hv hc ml e x).1 hx; exact ⟨this.1, this.2.1⟩
  -- heights of planes are not strictly within sections
  have off : ∀ s ∈ secs l, ∀ s' ∈ secs l, ∀ q, (q = s'.1 ∨ q = s'.2) → ∀ x ∈ section_ p d s, d.z ≠ 0 → (p + Vec3.smul x.1 d).z ≠ q.z := by
    intro s hs s' hs' q hq x hx hd e
    have h2 := (mS s hs x hx).2
    have h3 := h2.above hd
    have h4 := h2.at.2
    have hz := hT.1 s hs
    have hz' := hT.1 s' hs'
    by_cases hss : s = s'
    · subst hss
      rcases hq with rfl | rfl <;> linarith
    · have : Std.Symm fun s s' : Plane × Plane => s.2.z ≤ s'.1.z ∨ s'.2.z ≤ s.1.z := ⟨fun a b h => h.symm⟩
      have := (hT.pairwise.imp (S := fun s s' => s.2.z ≤ s'.1.z ∨ s'.2.z ≤ s.1.z) fun h => Or.inl h).forall hs hs' hss
      rcases hq with rfl | rfl <;> rcases this with h | h <;> linarith
  have bounds : ∀ g ∈ junctions (secs l), f.z < g.1.z ∧ g.1.z < last.z := by
    intro g hg
    obtain ⟨s, hs, s', hs', rfl, e⟩ := mem_junctions hv hg
    have h1 := hT.lowest hh s hs
    have h2 := hT.highest hla s' hs'
    have h3 := hT.1 s hs
    have h4 := hT.1 s' hs'
    simp only at h1 h2 ⊢
    constructor <;> linarith
  have ends : f.z < last.z := by
    have h1 := hT.1 _ sf
    have h2 := hT.highest hla _ sf
    simp only at h1 h2
    linarith
  refine nodup_append_fst ?_ (nodup_append_fst (cap_nodup _ _ _ _) (nodup_append_fst (cap_nodup _ _ _ _) ?_ ?_) ?_) ?_
  · refine nodup_flatMap_fst _ _ (fun s hs => section_nodup (hv.sec hs) (hc.sec hs) fun h1 h2 => hc.lower hs h1 h2) ?_
    refine hT.pairwise.imp_of_mem fun {s s'} hs hs' h x hx y hy e => ?_
    have h1 := (mS s hs x hx).2.at
    have h2 := (mS s' hs' y hy).2.at
    rw [e] at h1
    linarith [h1.2, h2.1]
  · refine nodup_flatMap_fst _ _ (fun g hg => ?_) ?_
    · obtain ⟨g1, g2, g3⟩ := junction_mem hv hg
      have := (mem_step hv hc g1 g2 g3 (0, true)).2
      match h : step p d g with
      | [] => simp
      | [x] => simp
      | x :: y :: r => rw [h] at this; simp at this
    · refine hT.junctions.imp_of_mem fun {g g'} hg hg' h x hx y hy e => ?_
      have h1 := (mG g hg x hx).2
      have h2 := (mG g' hg' y hy).2
      rw [e] at h1; linarith
  · intro x hx y hy e
    obtain ⟨g, hg, hy⟩ := List.mem_flatMap.1 hy
    have h1 := (mL _ x hx).2
    have h2 := (mG g hg y hy).2
    rw [e] at h1; linarith [bounds g hg]
  · intro x hx y hy e
    have h1 := (mF _ x hx).2
    rw [e] at h1
    rcases List.mem_append.1 hy with hy | hy
    · have h2 := (mL _ y hy).2; linarith
    · obtain ⟨g, hg, hy⟩ := List.mem_flatMap.1 hy
      have h2 := (mG g hg y hy).2
      linarith [bounds g hg]
  · intro x hx y hy e
    obtain ⟨s, hs, hx⟩ := List.mem_flatMap.1 hx
    rcases List.mem_append.1 hy with hy | hy
    · have h1 := mF _ y hy
      exact off s hs _ sf f (Or.inl rfl) x hx h1.1 (by rw [e]; exact h1.2)
    rcases List.mem_append.1 hy with hy | hy
    · have h1 := mL _ y hy
      exact off s hs _ sl last (Or.inr rfl) x hx h1.1 (by rw [e]; exact h1.2)
    · obtain ⟨g, hg, hy⟩ := List.mem_flatMap.1 hy
      have h1 := mG g hg y hy
      obtain ⟨s1, hs1, s2, hs2, rfl, _⟩ := mem_junctions hv hg
      exact off s hs _ hs1 s1.2 (Or.inr rfl) x hx h1.1 (by rw [e]; exact h1.2)

theorem Flips.changes {S : ℝ → Prop} {t : ℝ} {f : Bool} (h : Flips S t f) : Changes S t := by
  intro e he
  have near1 : ∀ᶠ u in 𝓝[<] t, |u - t| < e := nhdsWithin_le_nhds
    (Metric.eventually_nhds_iff.2 ⟨e, he, fun u hu => by rwa [Real.dist_eq] at hu⟩)
  have near2 : ∀ᶠ u in 𝓝[>] t, |u - t| < e := nhdsWithin_le_nhds
    (Metric.eventually_nhds_iff.2 ⟨e, he, fun u hu => by rwa [Real.dist_eq] at hu⟩)
  obtain ⟨u, h1, h2⟩ := (h.before.and near1).exists
  obtain ⟨v, h3, h4⟩ := (h.after.and near2).exists
  cases f with
  | true => exact ⟨⟨v, h4, h3.2 rfl⟩, u, h2, by rw [h1]; simp⟩
  | false => exact ⟨⟨u, h2, h1.2 rfl⟩, v, h4, by rw [h3]; simp⟩

/-- No plane has a larger radius than this. -/
noncomputable def widest (l : List Plane) : ℝ := (l.map Plane.rmax).foldr max 0

theorem le_widest {l : List Plane} {q : Plane} (h : q ∈ l) : q.rmax ≤ widest l := by
  induction l with
  | nil => simp at h
  | cons a l ih =>
    unfold widest at ih ⊢
    simp only [List.map_cons, List.foldr_cons]
    rcases List.mem_cons.1 h with rfl | h
    · exact le_max_left _ _
    · exact (ih h).trans (le_max_right _ _)

theorem solid_bounds {l : List Plane} (hv : Valid l) {f last : Plane} (hf : l.head? = some f) (hl : l.getLast? = some last) {v : Vec3 ℝ} (h : Solid l v) :
    Cylinder.rad v < widest l ∧ f.z ≤ v.z ∧ v.z < last.z := by
  obtain ⟨f', last', a, b, hf', hl', hh, hla, _⟩ := hv.shape
  rw [hf] at hf'; rw [hl] at hl'
  cases hf'; cases hl'
  have hT := (secs_tower l hv.order).1
  obtain ⟨s, hs, h1, h2, h3, h4⟩ := h
  have hm : s ∈ secs l := (mem_secs l s).2 ⟨hs, lt_of_le_of_lt h1 h2⟩
  have e1 := hT.lowest hh s hm
  have e2 := hT.highest hla s hm
  have w1 := le_widest (mem_planes hm).1
  have w2 := le_widest (mem_planes hm).2
  have hz := hT.1 s hm
  refine ⟨?_, e1.trans h1, lt_of_lt_of_le h2 e2⟩
  refine lt_of_lt_of_le h4 ?_
  unfold between
  have k1 : 0 ≤ (v.z - s.1.z) / (s.2.z - s.1.z) := div_nonneg (by linarith) (by linarith)
  have k2 : (v.z - s.1.z) / (s.2.z - s.1.z) ≤ 1 := by rw [div_le_one (by linarith)]; linarith
  nlinarith

theorem bounded {l : List Plane} (hv : Valid l) (p d : Vec3 ℝ) (hd : d ≠ 0) : ∃ M, ∀ u, Solid l (p + Vec3.smul u d) → |u| ≤ M := by
  obtain ⟨f, last, _, _, hf, hl, _⟩ := hv.shape
  have hb : ∀ u, Solid l (p + Vec3.smul u d) → |p.x + u * d.x| ≤ widest l ∧ |p.y + u * d.y| ≤ widest l ∧ |p.z + u * d.z| ≤ max |f.z| |last.z| := by
    intro u hu
    obtain ⟨h1, h2, h3⟩ := solid_bounds hv hf hl hu
    have hs := Cone.rad_sq (p + Vec3.smul u d)
    have h0 := Cone.rad_nonneg (p + Vec3.smul u d)
    simp only [Vec3.add_x, Vec3.smul_x, Vec3.add_y, Vec3.smul_y, Vec3.add_z, Vec3.smul_z] at hs h2 h3
    refine ⟨?_, ?_, ?_⟩
    · refine abs_le_of_sq_le_sq ?_ (h0.trans h1.le); nlinarith [sq_nonneg (p.y + u * d.y)]
    · refine abs_le_of_sq_le_sq ?_ (h0.trans h1.le); nlinarith [sq_nonneg (p.x + u * d.x)]
    · rw [abs_le]
      constructor
      · have := neg_abs_le f.z; have := le_max_left |f.z| |last.z|; linarith
      · have := le_abs_self last.z; have := le_max_right |f.z| |last.z|; linarith
  by_cases h1 : d.x = 0
  · by_cases h2 : d.y = 0
    · have h3 : d.z ≠ 0 := by
        intro h3; apply hd; obtain ⟨x, y, z⟩ := d; simp only at h1 h2 h3; rw [h1, h2, h3]; rfl
      exact ⟨_, fun u hu => bounded_coordinate p.z d.z _ u h3 (hb u hu).2.2⟩
    · exact ⟨_, fun u hu => bounded_coordinate p.y d.y _ u h2 (hb u hu).2.1⟩
  · exact ⟨_, fun u hu => bounded_coordinate p.x d.x _ u h1 (hb u hu).1⟩

end Siren.Geometry.Polycone
