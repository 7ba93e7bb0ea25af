import Verif.Geometry.PolyconeProps
import Verif.Geometry.CutTube

set_option autoImplicit false

/-!
# C121: the theorems about polycones
-/

namespace Siren.Geometry.Polycone

open Siren Siren.Geometry Filter Topology

/-! ### Lines -/

theorem changes_of_mem {l : List Plane} (hv : Valid l) {p d : Vec3 ℝ} (hc : Clear l p d) {x : ℝ × Bool} (hx : x ∈ crossings l p d) :
    Changes (fun u => Solid l (p + Vec3.smul u d)) x.1 := Flips.changes (crossing_flips hv hc x ((mem_crossings hv hc x).1 hx))

/-- C121: a polycone without a cut. The crossings are reported in order, enter and leave in turn, each is where the line enters or
leaves the solid, and inside is exactly where the line is in the solid, but for 1e-9 on either side of a crossing. -/
theorem C121_describes (srt : List SHit → List SHit) (hsrt : IsHitSort srt) (c : Poly) (hcut : c.hasPhiCut = false) (hv : Valid c.planes)
    (p d : Vec3 ℝ) (hc : Clear c.planes p d) :
    Describes precision (fun t => Solid c.planes (p + Vec3.smul t d)) (compute srt c p d) ∧
      ∀ h ∈ compute srt c p d, h.position = p + Vec3.smul h.distance d ∧
        ∃ t : ℝ, Changes (fun u => Solid c.planes (p + Vec3.smul u d)) t ∧ h.distance = if 0 < t ∧ t < 1 / 1000000000 then 0 else t := by
  obtain ⟨M, hM⟩ := bounded hv p d hc.direction
  have hm := mem_crossings hv hc
  obtain ⟨hp, hs⟩ := hsrt ((crossings c.planes p d).map fun h => (⟨report p d h, 0⟩ : SHit))
  obtain ⟨l, hl⟩ : ∃ l, l = (srt ((crossings c.planes p d).map fun h => (⟨report p d h, 0⟩ : SHit))).map SHit.isect := ⟨_, rfl⟩
  have e : compute srt c p d = l := by
    unfold compute
    rw [if_neg (not_lt.2 hv.size), hcut]
    simp only [Bool.not_false, if_true]
    split
    · next h =>
      rw [List.isEmpty_iff] at h
      rw [h] at hp hl
      rw [hl, List.perm_nil.1 hp]; rfl
    · exact hl.symm
  have hperm : l.Perm ((crossings c.planes p d).map (report p d)) := by
    have := hp.map SHit.isect
    rw [List.map_map] at this
    rw [hl]; exact this
  have hsort : l.Pairwise (fun a b => a.distance ≤ b.distance) := by rw [hl, List.pairwise_map]; exact hs
  obtain ⟨E, e1, e2, e3, e4⟩ := exact_of_local (crossings c.planes p d) (report p d) (fun _ => rfl)
    (snap_pairwise _ _ (crossings_nodup hv hc) (fun x hx => changes_of_mem hv hc hx) hc.apart)
    (fun x hx => crossing_flips hv hc x ((hm x).1 hx))
    (fun t ht => crossing_steady hv hc t fun x hx => ht x ((hm x).2 hx)) M hM l hperm hsort
  rw [e]
  refine ⟨?_, fun h hh => ?_⟩
  · rw [e3]; exact e2.describes_with _ (fun _ => rfl) (fun _ => rfl) e4
  · obtain ⟨x, hx, rfl⟩ := List.mem_map.1 (hperm.mem_iff.1 hh)
    exact ⟨rfl, x.1, changes_of_mem hv hc hx, rfl⟩

open Classical in
/-- C121: with a cut the crossings are in order and alternate, and away from where the line enters or leaves the whole solid and from
the two cutting planes they tell exactly which points of the line are in the solid and in the wedge. -/
theorem C121_cut (srt : List SHit → List SHit) (hsrt : IsHitSort srt) (c : Poly) (hcut : c.hasPhiCut = true) (hv : Valid c.planes)
    (hd0 : 0 < c.deltaPhi) (hd1 : c.deltaPhi < 2 * Real.pi) (p d : Vec3 ℝ) (hc : Clear c.planes p d)
    (hw : Phi.Clean c.startPhi c.deltaPhi p d ∨ Phi.Vertical c.startPhi c.deltaPhi p d) (hsp : Phi.Spread c.startPhi c.deltaPhi p d) :
    (compute srt c p d).Pairwise (fun a b => a.distance ≤ b.distance) ∧ Alternates false (compute srt c p d) ∧
    ∀ t : ℝ, (∀ u : ℝ, Changes (fun u => Solid c.planes (p + Vec3.smul u d)) u ∨ Phi.planeDist c.startPhi (p + Vec3.smul u d) = 0 ∨
        Phi.planeDist (c.startPhi + c.deltaPhi) (p + Vec3.smul u d) = 0 → 2 * precision ≤ |u - t|) →
      (stateFrom false (compute srt c p d) t = true ↔
        Solid c.planes (p + Vec3.smul t d) ∧ Phi.InWedge c.startPhi c.deltaPhi (p + Vec3.smul t d)) := by
  obtain ⟨M, hM⟩ := bounded hv p d hc.direction
  have hm := mem_crossings hv hc
  have hap := snap_pairwise _ _ (crossings_nodup hv hc) (fun x hx => changes_of_mem hv hc hx) hc.apart
  have hfl : ∀ x ∈ crossings c.planes p d, Flips _ x.1 x.2 := fun x hx => crossing_flips hv hc x ((hm x).1 hx)
  have hst : ∀ t, (∀ x ∈ crossings c.planes p d, x.1 ≠ t) → Steady _ t := fun t ht => crossing_steady hv hc t fun x hx => ht x ((hm x).2 hx)
  obtain ⟨surf, hsurf⟩ : ∃ surf, surf = (crossings c.planes p d).map fun h => (⟨report p d h, 0⟩ : SHit) := ⟨_, rfl⟩
  obtain ⟨wed, hwed⟩ : ∃ wed, wed = (Phi.wedgeHits snap c.startPhi c.deltaPhi p d).map fun h => (⟨hitAt p d h.1 h.2, 1⟩ : SHit) := ⟨_, rfl⟩
  by_cases hemp : surf.isEmpty = true
  · have hnil : compute srt c p d = [] := by
      unfold compute
      rw [if_neg (not_lt.2 hv.size)]
      simp only
      rw [← hsurf, if_pos hemp]
    have hL : crossings c.planes p d = [] := by
      rw [List.isEmpty_iff, hsurf, List.map_eq_nil_iff] at hemp; exact hemp
    rw [hL] at hap hfl hst
    obtain ⟨E, e1, e2, _, _⟩ := exact_of_local [] (report p d) (fun _ => rfl) hap hfl hst M hM [] (by simp) (by simp)
    rw [List.perm_nil.1 e1] at e2
    rw [hnil]
    refine ⟨by simp, rfl, fun t _ => ?_⟩
    have := e2.exact t (by simp)
    simp only [List.map_nil, stateFrom_nil, Bool.false_eq_true, iff_false] at this ⊢
    simp [this]
  · -- sorting the surface hits beforehand is a way of sorting all of them
    obtain ⟨srt', hsrt'⟩ : ∃ s : List SHit → List SHit, s = fun l => if l = surf ++ wed then srt (srt surf ++ wed) else srt l := ⟨_, rfl⟩
    have his : IsHitSort srt' := by
      intro l
      rw [hsrt']
      simp only
      split
      · next h =>
        refine ⟨?_, (hsrt _).2⟩
        rw [h]
        exact (hsrt _).1.trans ((hsrt surf).1.append_right wed)
      · exact hsrt l
    have key := describes_cut srt' his (crossings c.planes p d) (report p d) (fun _ => rfl) (fun _ => rfl) hap hfl hst M hM
      c.startPhi c.deltaPhi hd0 hd1 p d hw hsp
      (fun k => if k = 0 then false else Phi.initialPhiState p.x p.y d.x d.y c.startPhi c.deltaPhi) rfl rfl (compute srt c p d) (by
        unfold compute
        rw [if_neg (not_lt.2 hv.size)]
        simp only [hcut, Bool.not_true, Bool.false_eq_true, if_false]
        rw [← hsurf, ← hwed, if_neg hemp, hsrt']
        simp only [if_true])
    refine ⟨key.1, key.2.1, fun t ht => key.2.2 t fun u hu => ht u ?_⟩
    rcases hu with ⟨x, hx, rfl⟩ | hu
    · exact Or.inl (changes_of_mem hv hc hx)
    · exact Or.inr hu

/-! ### Construction -/

theorem chain_all (R : ℝ → ℝ → Prop) [DecidableRel R] (z : List ℝ) : ((z.zip z.tail).all fun q => decide (R q.1 q.2)) = true ↔ z.IsChain R := by
  induction z with
  | nil => simp
  | cons x z ih =>
    cases z with
    | nil => simp
    | cons y z =>
      rw [List.isChain_cons_cons, ← ih]
      simp

theorem ascending_iff (z : List ℝ) : (open Classical in (z.zip z.tail).all fun q => !decide (q.2 < q.1)) = true ↔ z.Pairwise (· ≤ ·) := by
  classical
  rw [← List.isChain_iff_pairwise, ← chain_all]
  simp [not_lt]

theorem descending_iff (z : List ℝ) : (open Classical in (z.zip z.tail).all fun q => !decide (q.2 > q.1)) = true ↔ z.Pairwise (· ≥ ·) := by
  classical
  rw [← List.isChain_iff_pairwise, ← chain_all]
  simp [not_lt]

theorem planesOf_reverse (z rmin rmax : List ℝ) (h1 : z.length = rmin.length) (h2 : z.length = rmax.length) :
    planesOf z.reverse rmin.reverse rmax.reverse = (planesOf z rmin rmax).reverse := by
  unfold planesOf
  rw [← List.map_reverse]
  congr 1
  simp only [List.zip]
  rw [List.reverse_zipWith (by simp; omega), List.reverse_zipWith (by omega)]

theorem planesOf_z (z rmin rmax : List ℝ) (h1 : z.length = rmin.length) (h2 : z.length = rmax.length) : (planesOf z rmin rmax).map Plane.z = z := by
  unfold planesOf
  rw [List.map_map]
  show (z.zip (rmin.zip rmax)).map Prod.fst = z
  exact List.map_fst_zip (by simp; omega)

/-- What a user has to give: at least two planes, as many radii as planes, heights that only increase or only decrease, and radii
that are not negative, the inner ones not above the outer ones. -/
def Accepted (z rmin rmax : List ℝ) : Prop :=
  2 ≤ z.length ∧ rmin.length = z.length ∧ rmax.length = z.length ∧ (z.Pairwise (· ≤ ·) ∨ z.Pairwise (· ≥ ·)) ∧
    ∀ q ∈ planesOf z rmin rmax, 0 ≤ q.rmin ∧ q.rmin ≤ q.rmax

theorem validate_spec (z rmin rmax : List ℝ) :
    (∀ l, validate z rmin rmax = some l → Accepted z rmin rmax ∧ (l = planesOf z rmin rmax ∨ l = (planesOf z rmin rmax).reverse) ∧
      l.Pairwise fun a b => a.z ≤ b.z) ∧
    (Accepted z rmin rmax → ∃ l, validate z rmin rmax = some l) := by
  classical
  have ha := ascending_iff z
  have hd := descending_iff z
  obtain ⟨A, hA⟩ : ∃ A, A = (open Classical in (z.zip z.tail).all fun q => !decide (q.2 < q.1)) := ⟨_, rfl⟩
  obtain ⟨D, hD⟩ : ∃ D, D = (open Classical in (z.zip z.tail).all fun q => !decide (q.2 > q.1)) := ⟨_, rfl⟩
  have hval : validate z rmin rmax = if z.length < 2 then none
      else if z.length ≠ rmin.length ∨ z.length ≠ rmax.length then none
      else if !A && !D then none
      else
        let planes := if D && !A then planesOf z.reverse rmin.reverse rmax.reverse else planesOf z rmin rmax
        if planes.any fun q => decide (q.rmin < 0 ∨ q.rmax < 0) || decide (q.rmin > q.rmax) then none else some planes := by
    rw [hA, hD]; unfold validate; congr
  rw [← hA] at ha
  rw [← hD] at hd
  rw [hval]
  have hany : ∀ l : List Plane, (l.any fun q => decide (q.rmin < 0 ∨ q.rmax < 0) || decide (q.rmin > q.rmax)) = false ↔
      ∀ q ∈ l, 0 ≤ q.rmin ∧ q.rmin ≤ q.rmax := by
    intro l
    rw [List.any_eq_false]
    refine forall₂_congr fun q _ => ?_
    simp only [Bool.or_eq_true, decide_eq_true_eq, not_or, not_lt]
    constructor
    · rintro ⟨⟨h1, _⟩, h2⟩; exact ⟨h1, h2⟩
    · rintro ⟨h1, h2⟩; exact ⟨⟨h1, h1.trans h2⟩, h2⟩
  unfold Accepted
  by_cases h1 : z.length < 2
  · rw [if_pos h1]; exact ⟨by simp, fun h => by omega⟩
  rw [if_neg h1]
  by_cases h2 : z.length ≠ rmin.length ∨ z.length ≠ rmax.length
  · rw [if_pos h2]; exact ⟨by simp, fun h => by omega⟩
  rw [if_neg h2]
  push Not at h2
  have hz := planesOf_z z rmin rmax h2.1 h2.2
  have hpw : ∀ R : ℝ → ℝ → Prop, z.Pairwise R → (planesOf z rmin rmax).Pairwise fun a b => R a.z b.z := by
    intro R h; rw [← hz, List.pairwise_map] at h; exact h
  rw [planesOf_reverse z rmin rmax h2.1 h2.2]
  simp only
  cases A <;> cases D
  · simp only [Bool.not_false, Bool.and_self, if_true]
    refine ⟨by simp, fun h => ?_⟩
    rcases h.2.2.2.1 with h | h
    · exact absurd (ha.2 h) (by simp)
    · exact absurd (hd.2 h) (by simp)
  · simp only [Bool.not_false, Bool.not_true, Bool.and_false, Bool.and_true, Bool.false_eq_true, if_false, if_true]
    have hb := hpw _ (hd.1 rfl)
    cases hq : ((planesOf z rmin rmax).reverse.any fun q => decide (q.rmin < 0 ∨ q.rmax < 0) || decide (q.rmin > q.rmax)) with
    | true =>
      simp only [if_true]
      refine ⟨by simp, fun h => ?_⟩
      have := (hany (planesOf z rmin rmax).reverse).2 fun q hq => h.2.2.2.2 q (List.mem_reverse.1 hq)
      rw [this] at hq; simp at hq
    | false =>
      simp only [Bool.false_eq_true, if_false, Option.some.injEq]
      refine ⟨?_, fun _ => ⟨_, rfl⟩⟩
      rintro l rfl
      refine ⟨⟨by omega, h2.1.symm, h2.2.symm, Or.inr (hd.1 rfl), fun q h => (hany _).1 hq q (List.mem_reverse.2 h)⟩, Or.inr rfl, ?_⟩
      rw [List.pairwise_reverse]; exact hb
  all_goals
    simp only [Bool.not_false, Bool.not_true, Bool.and_false, Bool.and_true, Bool.false_eq_true, if_false]
    have hb := hpw _ (ha.1 rfl)
    cases hq : ((planesOf z rmin rmax).any fun q => decide (q.rmin < 0 ∨ q.rmax < 0) || decide (q.rmin > q.rmax)) with
    | true =>
      simp only [if_true]
      refine ⟨by simp, fun h => ?_⟩
      have := (hany (planesOf z rmin rmax)).2 h.2.2.2.2
      rw [this] at hq; simp at hq
    | false =>
      simp only [Bool.false_eq_true, if_false, Option.some.injEq]
      refine ⟨?_, fun _ => ⟨_, rfl⟩⟩
      rintro l rfl
      exact ⟨⟨by omega, h2.1.symm, h2.2.symm, Or.inl (ha.1 rfl), (hany _).1 hq⟩, Or.inl rfl, hb⟩

/-- C121: the constructor without angles accepts what it should and nothing else, and keeps the planes in increasing order. -/
theorem C121_make (z rmin rmax : List ℝ) :
    ((∃ c, make z rmin rmax = some c) ↔ Accepted z rmin rmax) ∧
    ∀ c, make z rmin rmax = some c → (c.planes = planesOf z rmin rmax ∨ c.planes = (planesOf z rmin rmax).reverse) ∧
      (c.planes.Pairwise fun a b => a.z ≤ b.z) ∧ c.hasPhiCut = false := by
  obtain ⟨h1, h2⟩ := validate_spec z rmin rmax
  unfold make
  refine ⟨⟨?_, fun h => ?_⟩, ?_⟩
  · rintro ⟨c, hc⟩
    obtain ⟨l, hl, _⟩ := Option.map_eq_some_iff.1 hc
    exact (h1 l hl).1
  · obtain ⟨l, hl⟩ := h2 h
    exact ⟨_, by rw [hl]; rfl⟩
  · intro c hc
    obtain ⟨l, hl, rfl⟩ := Option.map_eq_some_iff.1 hc
    exact ⟨(h1 l hl).2.1, (h1 l hl).2.2, rfl⟩

/-- C121: the same with angles. The opening has to be positive; one of more than a full turn is a full turn, and one of less than a full
turn, but for 1e-9, is a cut. -/
theorem C121_makePhi (z rmin rmax : List ℝ) (start delta : ℝ) :
    ((∃ c, makePhi z rmin rmax start delta = some c) ↔ Accepted z rmin rmax ∧ 0 < delta) ∧
    ∀ c, makePhi z rmin rmax start delta = some c → (c.planes = planesOf z rmin rmax ∨ c.planes = (planesOf z rmin rmax).reverse) ∧
      (c.planes.Pairwise fun a b => a.z ≤ b.z) ∧ c.startPhi = start ∧ c.deltaPhi = min delta (2 * Real.pi) ∧
      (c.hasPhiCut = true ↔ delta < 2 * Real.pi - 1 / 1000000000) := by
  obtain ⟨h1, h2⟩ := validate_spec z rmin rmax
  unfold makePhi
  refine ⟨⟨?_, fun h => ?_⟩, ?_⟩
  · rintro ⟨c, hc⟩
    obtain ⟨l, hl, hc⟩ := Option.bind_eq_some_iff.1 hc
    by_cases hd : delta ≤ 0
    · rw [if_pos hd] at hc; simp at hc
    · exact ⟨(h1 l hl).1, not_le.1 hd⟩
  · obtain ⟨l, hl⟩ := h2 h.1
    exact ⟨_, by rw [hl, Option.bind_some, if_neg (not_le.2 h.2)]⟩
  · intro c hc
    obtain ⟨l, hl, hc⟩ := Option.bind_eq_some_iff.1 hc
    by_cases hd : delta ≤ 0
    · rw [if_pos hd] at hc; simp at hc
    rw [if_neg hd] at hc
    simp only [Option.some.injEq] at hc
    subst hc
    refine ⟨(h1 l hl).2.1, (h1 l hl).2.2, rfl, ?_, ?_⟩
    · simp only
      split
      · next h => rw [min_eq_right h.le]
      · next h => rw [min_eq_left (not_lt.1 h)]
    · simp only [decide_eq_true_eq]
      split
      · next h => constructor <;> intro h' <;> linarith
      · exact Iff.rfl

/-! ### The bounding box -/

/-- `Polycone::GetBoundingBox` (geometry/private/Polycone.cxx:542-597). The sector is worked out as in `CutTube::GetBoundingBox`. -/
noncomputable def boundingBox (c : Poly) : AABB ℝ :=
  open Classical in
  match c.planes with
  | [] => ⟨⟨0, 0, 0⟩, ⟨0, 0, 0⟩⟩
  | f :: rest =>
    let maxR := rest.foldl (fun m q => if m < q.rmax then q.rmax else m) f.rmax
    let zlo := f.z
    let zhi := ((f :: rest).getLast (by simp)).z
    if !c.hasPhiCut then ⟨⟨-maxR, -maxR, zlo⟩, ⟨maxR, maxR, zhi⟩⟩
    else
      let e := CutTube.sector c.startPhi c.deltaPhi maxR
      ⟨⟨e.xmin, e.ymin, zlo⟩, ⟨e.xmax, e.ymax, zhi⟩⟩

theorem maxR_spec (l : List Plane) (m : ℝ) : (open Classical in m ≤ l.foldl (fun m q => if m < q.rmax then q.rmax else m) m ∧
    ∀ q ∈ l, q.rmax ≤ l.foldl (fun m q => if m < q.rmax then q.rmax else m) m) := by
  classical
  induction l generalizing m with
  | nil => simp
  | cons a l ih =>
    simp only [List.foldl_cons, List.forall_mem_cons]
    obtain ⟨h1, h2⟩ := ih (if m < a.rmax then a.rmax else m)
    have h3 : m ≤ (if m < a.rmax then a.rmax else m) ∧ a.rmax ≤ (if m < a.rmax then a.rmax else m) := by
      split
      · next h => exact ⟨h.le, le_rfl⟩
      · next h => exact ⟨le_rfl, not_lt.1 h⟩
    exact ⟨h3.1.trans h1, h3.2.trans h1, h2⟩

/-- C121: whatever is in the solid, and in the wedge if there is a cut, is in the box. This holds for all polycones the constructors
accept. -/
theorem C121_box (c : Poly) (ho : c.planes.Pairwise fun a b => a.z ≤ b.z) (v : Vec3 ℝ)
    (h : Solid c.planes v) (hw : c.hasPhiCut = true → Phi.InWedge c.startPhi c.deltaPhi v) : AABB.Mem v (boundingBox c) := by
  classical
  obtain ⟨s, hs, h1, h2, h3, h4⟩ := h
  have m1 := (List.of_mem_zip hs).1
  have m2 := List.mem_of_mem_tail (List.of_mem_zip hs).2
  unfold boundingBox
  match hl : c.planes with
  | [] => rw [hl] at m1; simp at m1
  | f :: rest =>
    simp only
    rw [hl] at m1 m2 ho
    obtain ⟨r1, r2⟩ := maxR_spec rest f.rmax
    generalize hR : rest.foldl (fun m q => if m < q.rmax then q.rmax else m) f.rmax = R at *
    have r3 : ∀ q ∈ f :: rest, q.rmax ≤ R := by
      intro q hq
      rcases List.mem_cons.1 hq with rfl | hq
      · exact r1
      · exact r2 q hq
    have z1 : ∀ q ∈ f :: rest, f.z ≤ q.z := by
      intro q hq
      rcases List.mem_cons.1 hq with rfl | hq
      · exact le_rfl
      · exact (List.pairwise_cons.1 ho).1 q hq
    have z2 : ∀ q ∈ f :: rest, q.z ≤ ((f :: rest).getLast (by simp)).z := by
      intro q hq
      have hd := List.dropLast_append_getLast (l := f :: rest) (by simp)
      rw [← hd] at hq ho
      rcases List.mem_append.1 hq with h | h
      · exact (List.pairwise_append.1 ho).2.2 q h _ (by simp)
      · rw [List.mem_singleton.1 h]
    have zz := lt_of_le_of_lt h1 h2
    have k1 : 0 ≤ (v.z - s.1.z) / (s.2.z - s.1.z) := div_nonneg (by linarith) (by linarith)
    have k2 : (v.z - s.1.z) / (s.2.z - s.1.z) ≤ 1 := by rw [div_le_one (by linarith)]; linarith
    have hr : Cylinder.rad v ≤ R := by
      refine h4.le.trans ?_
      unfold between
      have a1 := r3 _ m1
      have a2 := r3 _ m2
      nlinarith
    have h0 := Cone.rad_nonneg v
    have hsq := Cone.rad_sq v
    have zlo : f.z ≤ v.z := (z1 _ m1).trans h1
    have zhi : v.z ≤ ((f :: rest).getLast (by simp)).z := h2.le.trans (z2 _ m2)
    cases hcut : c.hasPhiCut
    · simp only [Bool.not_false, if_true]
      have hx := abs_le_of_sq_le_sq (a := v.x) (b := R) (by nlinarith [sq_nonneg v.y]) (by linarith)
      have hy := abs_le_of_sq_le_sq (a := v.y) (b := R) (by nlinarith [sq_nonneg v.x]) (by linarith)
      exact ⟨abs_le.1 hx, abs_le.1 hy, zlo, zhi⟩
    · simp only [Bool.not_true, Bool.false_eq_true, if_false]
      obtain ⟨a1, a2⟩ := CutTube.sector_covers c.startPhi c.deltaPhi R v hr (hw hcut)
      exact ⟨a1, a2, zlo, zhi⟩

/-! ### Cases -/

theorem changes_interval {S : ℝ → Prop} {a b s : ℝ} (h1 : ∀ u, a < u → u < b → S u) (h2 : ∀ u, u < a → ¬ S u) (h3 : ∀ u, b < u → ¬ S u)
    (h : Changes S s) : s = a ∨ s = b := by
  by_contra hn
  push Not at hn
  rcases lt_or_gt_of_ne hn.1 with ha | ha
  · obtain ⟨u, hu, hS⟩ := (h (a - s) (by linarith)).1
    exact h2 u (by linarith [(abs_lt.1 hu).2]) hS
  · rcases lt_or_gt_of_ne hn.2 with hb | hb
    · obtain ⟨u, hu, hS⟩ := (h (min (s - a) (b - s)) (lt_min (by linarith) (by linarith))).2
      have k1 := min_le_left (s - a) (b - s)
      have k2 := min_le_right (s - a) (b - s)
      have := abs_lt.1 hu
      exact hS (h1 u (by linarith [this.1]) (by linarith [this.2]))
    · obtain ⟨u, hu, hS⟩ := (h (s - b) (by linarith)).1
      exact h3 u (by linarith [(abs_lt.1 hu).1]) hS

theorem validate_up (z rmin rmax : List ℝ) (h : Accepted z rmin rmax) (hz : z.Pairwise (· ≤ ·)) : validate z rmin rmax = some (planesOf z rmin rmax) := by
  classical
  obtain ⟨h1, h2, h3, _, h5⟩ := h
  unfold validate
  rw [if_neg (by omega), if_neg (by omega)]
  simp only
  have ha := (ascending_iff z).2 hz
  rw [ha]
  simp only [Bool.not_true, Bool.false_and, Bool.and_false, Bool.false_eq_true, if_false]
  rw [if_neg]
  simp only [List.any_eq_true, Bool.or_eq_true, decide_eq_true_eq, not_exists, not_and]
  intro q hq
  have := h5 q hq
  push Not
  exact ⟨⟨this.1, this.1.trans this.2⟩, this.2⟩

/-- A vertical line through the lower of two cylinders that stand on each other: it enters through the bottom and leaves through the step. -/
example : ∃ c, make [0, 1, 1, 2] [0, 0, 0, 0] [2, 2, 1, 1] = some c ∧ c.hasPhiCut = false ∧ Valid c.planes ∧ Clear c.planes ⟨3 / 2, 0, -3⟩ ⟨0, 0, 1⟩ ∧
    Solid c.planes ((⟨3 / 2, 0, -3⟩ : Vec3 ℝ) + Vec3.smul (7 / 2) ⟨0, 0, 1⟩) := by
  have hp : precision = 1 / 1000000000 := rfl
  obtain ⟨l, hl⟩ : ∃ l : List Plane, l = [⟨0, 0, 2⟩, ⟨1, 0, 2⟩, ⟨1, 0, 1⟩, ⟨2, 0, 1⟩] := ⟨_, rfl⟩
  have hz : l.zip l.tail = [(⟨0, 0, 2⟩, ⟨1, 0, 2⟩), (⟨1, 0, 2⟩, ⟨1, 0, 1⟩), (⟨1, 0, 1⟩, ⟨2, 0, 1⟩)] := by rw [hl]; rfl
  have hR : ∀ u : ℝ, Cylinder.rad ((⟨3 / 2, 0, -3⟩ : Vec3 ℝ) + Vec3.smul u ⟨0, 0, 1⟩) = 3 / 2 := by
    intro u; unfold Cylinder.rad; simp; exact Real.sqrt_sq (by norm_num)
  have hZ : ∀ u : ℝ, ((⟨3 / 2, 0, -3⟩ : Vec3 ℝ) + Vec3.smul u ⟨0, 0, 1⟩).z = u - 3 := by intro u; simp; ring
  have hS : ∀ u : ℝ, Solid l ((⟨3 / 2, 0, -3⟩ : Vec3 ℝ) + Vec3.smul u ⟨0, 0, 1⟩) ↔ 3 ≤ u ∧ u < 4 := by
    intro u
    unfold Solid
    rw [hz, hR, hZ]
    simp only [List.mem_cons, List.not_mem_nil, or_false, exists_eq_or_imp, exists_eq_left, between]
    norm_num
    constructor
    · rintro (h | h) <;> constructor <;> linarith [h.1, h.2]
    · intro h; left; constructor <;> linarith [h.1, h.2]
  refine ⟨⟨l, 0, 2 * Real.pi, false⟩, ?_, rfl, ?_, ?_, ?_⟩
  · unfold make
    rw [validate_up [0, 1, 1, 2] [0, 0, 0, 0] [2, 2, 1, 1] ⟨by simp, rfl, rfl, Or.inl (by simp), by simp [planesOf]⟩ (by simp), hl]; rfl
  · refine ⟨by rw [hl]; simp, by rw [hl]; simp, by rw [hl]; simp, by rw [hl]; simp, ?_, by rw [hl]; simp, ?_, ?_⟩
    · rw [hz]; simp
    · rw [hl]; intro f rest h
      simp only [List.cons.injEq] at h
      rw [← h.1, ← h.2]; simp
    · rw [hl]; intro init f h
      have h' : [(⟨0, 0, 2⟩ : Plane), ⟨1, 0, 2⟩, ⟨1, 0, 1⟩] ++ [⟨2, 0, 1⟩] = init ++ [f] := h
      obtain ⟨rfl, e⟩ := List.append_inj' h' rfl
      simp only [List.cons.injEq, and_true] at e
      rw [← e]; simp
  · have wc : ∀ z0 z1 r, (r : ℝ) ^ 2 ≠ 9 / 4 → WallClear z0 z1 r r ⟨3 / 2, 0, -3⟩ ⟨0, 0, 1⟩ := by
      intro z0 z1 r hr
      have hW : ∀ u : ℝ, wallEq z0 z1 r r ((⟨3 / 2, 0, -3⟩ : Vec3 ℝ) + Vec3.smul u ⟨0, 0, 1⟩) ≠ 0 := by
        intro u h
        unfold wallEq between at h
        simp at h
        apply hr; linarith
      exact ⟨Or.inr ⟨by simp, Or.inl (by simp)⟩, fun t h => absurd h (hW t), fun s t _ h => absurd h (hW s)⟩
    refine ⟨by intro h; have := congrArg Vec3.z h; simp at this, Or.inl (by norm_num [hp]), ?_, ?_, ?_, ?_⟩
    · rw [hz]
      simp only [List.forall_mem_cons, List.not_mem_nil, false_imp_iff, implies_true, and_true]
      exact ⟨fun _ => wc _ _ _ (by norm_num), fun h => absurd h (by norm_num), fun _ => wc _ _ _ (by norm_num)⟩
    · rw [hz]; simp
    · intro _ q hq
      have hin : EdgeClear ⟨0, 0, 2⟩ 2 ⟨3 / 2, 0, -3⟩ ⟨0, 0, 1⟩ := fun t _ => Or.inl fun u _ => by rw [hR, hp]; norm_num
      have hin' : EdgeClear ⟨1, 0, 2⟩ 2 ⟨3 / 2, 0, -3⟩ ⟨0, 0, 1⟩ := fun t _ => Or.inl fun u _ => by rw [hR, hp]; norm_num
      have hout : EdgeClear ⟨1, 0, 1⟩ 1 ⟨3 / 2, 0, -3⟩ ⟨0, 0, 1⟩ := fun t _ => Or.inr fun u _ => by rw [hR, hp]; norm_num
      have hout' : EdgeClear ⟨2, 0, 1⟩ 1 ⟨3 / 2, 0, -3⟩ ⟨0, 0, 1⟩ := fun t _ => Or.inr fun u _ => by rw [hR, hp]; norm_num
      rw [hl] at hq
      simp only [List.mem_cons, List.not_mem_nil, or_false] at hq
      rcases hq with rfl | rfl | rfl | rfl
      · exact ⟨hin, fun h => absurd rfl h⟩
      · exact ⟨hin', fun h => absurd rfl h⟩
      · exact ⟨hout, fun h => absurd rfl h⟩
      · exact ⟨hout', fun h => absurd rfl h⟩
    · have hch : ∀ s, Changes (fun u => Solid l ((⟨3 / 2, 0, -3⟩ : Vec3 ℝ) + Vec3.smul u ⟨0, 0, 1⟩)) s → s = 3 ∨ s = 4 := fun s h =>
        changes_interval (fun u h1 h2 => (hS u).2 ⟨h1.le, h2⟩) (fun u h1 h2 => by linarith [((hS u).1 h2).1])
          (fun u h1 h2 => by linarith [((hS u).1 h2).2]) h
      intro s t hst h1 h2
      rw [hp]
      rcases hch s h1 with rfl | rfl <;> rcases hch t h2 with rfl | rfl <;> first | (exfalso; revert hst; norm_num; done) | norm_num
  · exact (hS _).2 (by norm_num)

/-- A line across half of a cone: the hypotheses of `C121_cut` hold. -/
example : ∃ c, makePhi [2, 0] [0, 0] [1, 3] (-(Real.pi / 2)) Real.pi = some c ∧ c.hasPhiCut = true ∧ Valid c.planes ∧ 0 < c.deltaPhi ∧
    c.deltaPhi < 2 * Real.pi ∧ Clear c.planes ⟨-5, 0, 1⟩ ⟨1, 0, 0⟩ ∧
    Phi.Clean c.startPhi c.deltaPhi ⟨-5, 0, 1⟩ ⟨1, 0, 0⟩ ∧ Phi.Spread c.startPhi c.deltaPhi ⟨-5, 0, 1⟩ ⟨1, 0, 0⟩ ∧
    Solid c.planes ((⟨-5, 0, 1⟩ : Vec3 ℝ) + Vec3.smul 6 ⟨1, 0, 0⟩) := by
  have hp : precision = 1 / 1000000000 := rfl
  have hpi : 2 ≤ Real.pi := Real.two_le_pi
  obtain ⟨l, hl⟩ : ∃ l : List Plane, l = [⟨0, 0, 3⟩, ⟨2, 0, 1⟩] := ⟨_, rfl⟩
  have hz : l.zip l.tail = [(⟨0, 0, 3⟩, ⟨2, 0, 1⟩)] := by rw [hl]; rfl
  have hR : ∀ u : ℝ, Cylinder.rad ((⟨-5, 0, 1⟩ : Vec3 ℝ) + Vec3.smul u ⟨1, 0, 0⟩) = |u - 5| := by
    intro u
    unfold Cylinder.rad
    simp only [Vec3.add_x, Vec3.smul_x, Vec3.add_y, Vec3.smul_y]
    rw [show (-5 + u * 1) ^ 2 + (0 + u * 0) ^ 2 = (u - 5) ^ 2 by ring, Real.sqrt_sq_eq_abs]
  have hZ : ∀ u : ℝ, ((⟨-5, 0, 1⟩ : Vec3 ℝ) + Vec3.smul u ⟨1, 0, 0⟩).z = 1 := by intro u; simp
  have hS : ∀ u : ℝ, Solid l ((⟨-5, 0, 1⟩ : Vec3 ℝ) + Vec3.smul u ⟨1, 0, 0⟩) ↔ 3 < u ∧ u < 7 := by
    intro u
    unfold Solid
    rw [hz, hR, hZ]
    simp only [List.mem_cons, List.not_mem_nil, or_false, exists_eq_left, between]
    norm_num
    rw [abs_lt]
    constructor
    · rintro ⟨h1, h2⟩; constructor <;> linarith
    · rintro ⟨h1, h2⟩; constructor <;> linarith
  have hW : ∀ u : ℝ, wallEq 0 2 3 1 ((⟨-5, 0, 1⟩ : Vec3 ℝ) + Vec3.smul u ⟨1, 0, 0⟩) = (u - 3) * (u - 7) := by
    intro u; unfold wallEq between; simp; ring
  have root : ∀ u : ℝ, (u - 3) * (u - 7) = 0 → u = 3 ∨ u = 7 := by
    intro u h
    rcases mul_eq_zero.1 h with h | h
    · left; linarith
    · right; linarith
  have hp2 : Real.cos (-(Real.pi / 2) + Real.pi) = 0 ∧ Real.sin (-(Real.pi / 2) + Real.pi) = 1 := by
    rw [show -(Real.pi / 2) + Real.pi = Real.pi / 2 by ring, Real.cos_pi_div_two, Real.sin_pi_div_two]; exact ⟨rfl, rfl⟩
  refine ⟨⟨l, -(Real.pi / 2), Real.pi, true⟩, ?_, rfl, ?_, by simp only; linarith, by simp only; linarith, ?_, ?_, ?_, ?_⟩
  · obtain ⟨⟨_, h1⟩, h2⟩ := C121_makePhi [2, 0] [0, 0] [1, 3] (-(Real.pi / 2)) Real.pi
    obtain ⟨c, hc⟩ := h1 ⟨⟨by simp, rfl, rfl, Or.inr (by simp), by simp [planesOf]⟩, by linarith⟩
    obtain ⟨g1, g2, g3, g4, g5⟩ := h2 c hc
    rw [hc]
    have e1 : c.planes = l := by
      rcases g1 with g1 | g1
      · rw [g1] at g2; simp [planesOf] at g2
        exact absurd g2 (by norm_num)
      · rw [g1, hl]; rfl
    have e2 : c.hasPhiCut = true := g5.2 (by linarith)
    rw [min_eq_left (by linarith)] at g4
    obtain ⟨a, b, cc, dd⟩ := c
    simp only at e1 e2 g3 g4
    rw [e1, e2, g3, g4]
  · refine ⟨by rw [hl]; simp, by rw [hl]; simp, by rw [hl]; simp, by rw [hl]; simp, ?_, by rw [hl]; simp, ?_, ?_⟩
    · rw [hz]; simp
    · rw [hl]; intro f rest h
      simp only [List.cons.injEq] at h
      rw [← h.1, ← h.2]; simp
    · rw [hl]; intro init f h
      have h' : [(⟨0, 0, 3⟩ : Plane)] ++ [⟨2, 0, 1⟩] = init ++ [f] := h
      obtain ⟨rfl, e⟩ := List.append_inj' h' rfl
      simp only [List.cons.injEq, and_true] at e
      rw [← e]; simp
  · refine ⟨by intro h; have := congrArg Vec3.x h; simp at this, Or.inr ⟨rfl, by rw [hl]; simp⟩, ?_, ?_, fun h => absurd rfl h, ?_⟩
    · rw [hz]
      simp only [List.forall_mem_cons, List.not_mem_nil, false_imp_iff, implies_true, and_true]
      intro _
      refine ⟨Or.inl (by norm_num [hp]), ?_, ?_⟩
      · intro t _
        left; intro u _; rw [hZ]; norm_num
      · intro s t hst h1 h2
        rw [hW] at h1 h2
        rw [hp]
        rcases root s h1 with rfl | rfl <;> rcases root t h2 with rfl | rfl <;> first | (exfalso; revert hst; norm_num; done) | norm_num
    · rw [hz]; simp
    · have hch : ∀ s, Changes (fun u => Solid l ((⟨-5, 0, 1⟩ : Vec3 ℝ) + Vec3.smul u ⟨1, 0, 0⟩)) s → s = 3 ∨ s = 7 := fun s h =>
        changes_interval (fun u h1 h2 => (hS u).2 ⟨h1, h2⟩) (fun u h1 h2 => by linarith [((hS u).1 h2).1])
          (fun u h1 h2 => by linarith [((hS u).1 h2).2]) h
      intro s t hst h1 h2
      rw [hp]
      rcases hch s h1 with rfl | rfl <;> rcases hch t h2 with rfl | rfl <;> first | (exfalso; revert hst; norm_num; done) | norm_num
  · refine ⟨by norm_num, ?_, Or.inl (by norm_num)⟩
    intro alpha ha
    simp only [List.mem_cons, List.not_mem_nil, or_false] at ha
    rcases ha with rfl | rfl
    · simp [Phi.planeDist, precision]; norm_num
    · simp [Phi.planeDist, hp2, precision]; norm_num
  · intro t u ht hu hne
    simp [Phi.planeDist, Vec3.add_x, Vec3.smul_x] at ht
    simp [Phi.planeDist, hp2, Vec3.add_x, Vec3.smul_x] at hu
    exact absurd (by linarith) hne
  · exact (hS _).2 (by norm_num)

/-- Two planes at the upper end, which the constructor accepts: the end cap is as wide as the last plane although nothing is below its rim.
A line past the solid is reported to leave it. -/
theorem C121_ends_fails : ∃ (c : Poly) (p d : Vec3 ℝ), make [0, 1, 1] [0, 0, 0] [1, 1, 2] = some c ∧ Vec3.dot d d = 1 ∧
    (∀ t, ¬ Solid c.planes (p + Vec3.smul t d)) ∧
    ∀ srt, IsHitSort srt → ∃ h, compute srt c p d = [h] ∧ h.entering = false ∧ h.distance = 2 := by
  have hsn : snap 2 = 2 := by unfold snap precision; norm_num
  have hsn1 : snap 1 = 1 := by unfold snap precision; norm_num
  have hcr : crossings [⟨0, 0, 1⟩, ⟨1, 0, 1⟩, ⟨1, 0, 2⟩] ⟨3 / 2, 0, -1⟩ ⟨0, 0, 1⟩ = [(2, false)] := by
    simp [crossings, section_, Cone.wall, slope, cap, groups, groupsFrom, step, precision]
    norm_num [hsn]
  refine ⟨⟨[⟨0, 0, 1⟩, ⟨1, 0, 1⟩, ⟨1, 0, 2⟩], 0, 2 * Real.pi, false⟩, ⟨3 / 2, 0, -1⟩, ⟨0, 0, 1⟩, ?_, ?_, ?_, ?_⟩
  · unfold make
    rw [validate_up [0, 1, 1] [0, 0, 0] [1, 1, 2] ⟨by simp, rfl, rfl, Or.inl (by simp), by simp [planesOf]⟩ (by simp)]; rfl
  · simp [Vec3.dot]
  · intro t h
    have hr : Cylinder.rad ((⟨3 / 2, 0, -1⟩ : Vec3 ℝ) + Vec3.smul t ⟨0, 0, 1⟩) = 3 / 2 := by
      unfold Cylinder.rad; simp; exact Real.sqrt_sq (by norm_num)
    unfold Solid at h
    rw [hr] at h
    simp [between] at h
    norm_num at h
  · intro srt hsrt
    have hs := (hsrt [(⟨report ⟨3 / 2, 0, -1⟩ ⟨0, 0, 1⟩ (2, false), 0⟩ : SHit)]).1
    refine ⟨report ⟨3 / 2, 0, -1⟩ ⟨0, 0, 1⟩ (2, false), ?_, rfl, hsn⟩
    unfold compute
    simp only
    rw [hcr]
    simp [List.perm_singleton.1 hs]

/-- Rings that do not overlap where one section stands on another, which the constructor accepts: a line between them, which does not meet
the solid, is reported to enter and to leave it at the same distance. -/
theorem C121_rings_fails : ∃ (c : Poly) (p d : Vec3 ℝ), make [0, 1, 1, 2] [0, 0, 2, 2] [1, 1, 3, 3] = some c ∧ Vec3.dot d d = 1 ∧
    (∀ t, ¬ Solid c.planes (p + Vec3.smul t d)) ∧
    ∀ srt, IsHitSort srt → (compute srt c p d).length = 2 ∧ ∀ h ∈ compute srt c p d, h.distance = 2 := by
  have hsn : snap 2 = 2 := by unfold snap precision; norm_num
  have hcr : crossings [⟨0, 0, 1⟩, ⟨1, 0, 1⟩, ⟨1, 2, 3⟩, ⟨2, 2, 3⟩] ⟨3 / 2, 0, -1⟩ ⟨0, 0, 1⟩ = [(2, true), (2, false)] := by
    simp [crossings, section_, Cone.wall, slope, cap, groups, groupsFrom, step, precision]
    norm_num [hsn, snap, precision]
  refine ⟨⟨[⟨0, 0, 1⟩, ⟨1, 0, 1⟩, ⟨1, 2, 3⟩, ⟨2, 2, 3⟩], 0, 2 * Real.pi, false⟩, ⟨3 / 2, 0, -1⟩, ⟨0, 0, 1⟩, ?_, ?_, ?_, ?_⟩
  · unfold make
    rw [validate_up [0, 1, 1, 2] [0, 0, 2, 2] [1, 1, 3, 3] ⟨by simp, rfl, rfl, Or.inl (by simp), by simp [planesOf]; norm_num⟩ (by simp)]; rfl
  · simp [Vec3.dot]
  · intro t h
    have hr : Cylinder.rad ((⟨3 / 2, 0, -1⟩ : Vec3 ℝ) + Vec3.smul t ⟨0, 0, 1⟩) = 3 / 2 := by
      unfold Cylinder.rad; simp; exact Real.sqrt_sq (by norm_num)
    unfold Solid at h
    rw [hr] at h
    simp [between] at h
    norm_num at h
  · intro srt hsrt
    have hs := (hsrt [(⟨report ⟨3 / 2, 0, -1⟩ ⟨0, 0, 1⟩ (2, true), 0⟩ : SHit), ⟨report ⟨3 / 2, 0, -1⟩ ⟨0, 0, 1⟩ (2, false), 0⟩]).1
    have e : compute srt ⟨[⟨0, 0, 1⟩, ⟨1, 0, 1⟩, ⟨1, 2, 3⟩, ⟨2, 2, 3⟩], 0, 2 * Real.pi, false⟩ ⟨3 / 2, 0, -1⟩ ⟨0, 0, 1⟩ =
        (srt [(⟨report ⟨3 / 2, 0, -1⟩ ⟨0, 0, 1⟩ (2, true), 0⟩ : SHit), ⟨report ⟨3 / 2, 0, -1⟩ ⟨0, 0, 1⟩ (2, false), 0⟩]).map SHit.isect := by
      unfold compute
      simp only
      rw [hcr]
      simp
    rw [e]
    refine ⟨by rw [List.length_map, hs.length_eq]; rfl, fun h hh => ?_⟩
    obtain ⟨x, hx, rfl⟩ := List.mem_map.1 hh
    have := hs.mem_iff.1 hx
    simp only [List.mem_cons, List.not_mem_nil, or_false] at this
    rcases this with rfl | rfl <;> exact hsn

end Siren.Geometry.Polycone
