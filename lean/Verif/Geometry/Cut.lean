import Verif.Geometry.Cylinder
import Verif.Geometry.Convex

set_option autoImplicit false

/-!
# From local changes to what is reported, with and without a cut in azimuth

The last part of `Cylinder`, `Cone`, `CutTube` and `Torus::ComputeIntersections`: without a cut the crossings of the surface
are sorted and near duplicates skipped; with a cut they are walked together with those of the wedge.
-/

namespace Siren.Geometry

open Siren Real Filter Topology

/-- Crossings that are apart, change the set as stated and miss nothing: sorting their reports gives them in order. -/
theorem exact_of_local {S : ℝ → Prop} (L : List (ℝ × Bool)) (f : ℝ × Bool → Isect) (hf : ∀ c, (f c).distance = snap c.1)
    (hap : L.Pairwise (fun a b => precision ≤ |snap a.1 - snap b.1|)) (hfl : ∀ c ∈ L, Flips S c.1 c.2)
    (hst : ∀ t, (∀ c ∈ L, c.1 ≠ t) → Steady S t) (M : ℝ) (hM : ∀ u, S u → |u| ≤ M) (l : List Isect) (hl : l.Perm (L.map f))
    (hs : l.Pairwise (fun a b => a.distance ≤ b.distance)) :
    ∃ E : List (ℝ × Bool), E.Perm L ∧ Exactly S E ∧ l = E.map f ∧ (E.map fun c => snap c.1).Pairwise (· < ·) := by
  have hn : (l.map Isect.distance).Nodup := by
    rw [(hl.map Isect.distance).nodup_iff, List.map_map, List.Nodup, List.pairwise_map]
    refine hap.imp fun {a b} h e => ?_
    have e' : snap a.1 = snap b.1 := by rw [← hf a, ← hf b]; exact e
    rw [e', sub_self, abs_zero] at h
    linarith [precision_pos]
  obtain ⟨E, e1, e2, e3, e4⟩ := sorted_exact L f hf l hl hs hn
  obtain ⟨b1, b2⟩ := empty_at_infinity M hM
  exact ⟨E, e1, exactly_of_flips e2 (fun x hx => hfl x (e1.mem_iff.1 hx)) (fun t ht => hst t fun h hh => ht h (e1.mem_iff.2 hh)) b1 b2,
    e3, e4⟩

/-- Exact crossings that lie on a set whose points are apart. -/
theorem snap_pairwise (L : List (ℝ × Bool)) (P : ℝ → Prop) (hn : (L.map Prod.fst).Nodup) (hP : ∀ c ∈ L, P c.1)
    (ha : ∀ s t, s < t → P s → P t → s + 2 * precision ≤ t) : L.Pairwise (fun a b => precision ≤ |snap a.1 - snap b.1|) := by
  rw [List.Nodup, List.pairwise_map] at hn
  refine hn.imp_of_mem fun {a b} h2 h3 h4 => ?_
  rcases lt_or_gt_of_ne h4 with h | h
  · have := snap_apart (ha _ _ h (hP a h2) (hP b h3))
    rw [abs_of_nonpos (by linarith [precision_pos])]; linarith
  · have := snap_apart (ha _ _ h (hP b h3) (hP a h2))
    rw [abs_of_nonneg (by linarith [precision_pos])]; linarith

/-- Without a cut: sort, then skip near duplicates. -/
theorem describes_plain {S : ℝ → Prop} (srt : List SHit → List SHit) (hsrt : IsHitSort srt) (L : List (ℝ × Bool)) (f : ℝ × Bool → Isect)
    (hf : ∀ c, (f c).distance = snap c.1) (he : ∀ c, (f c).entering = c.2)
    (hap : L.Pairwise (fun a b => precision ≤ |snap a.1 - snap b.1|)) (hfl : ∀ c ∈ L, Flips S c.1 c.2)
    (hst : ∀ t, (∀ c ∈ L, c.1 ≠ t) → Steady S t) (M : ℝ) (hM : ∀ u, S u → |u| ≤ M) :
    Describes precision S (Cylinder.dedup none ((srt (L.map fun h => (⟨f h, 0⟩ : SHit))).map SHit.isect)) ∧
      ∀ h ∈ Cylinder.dedup none ((srt (L.map fun h => (⟨f h, 0⟩ : SHit))).map SHit.isect), ∃ c ∈ L, h = f c := by
  obtain ⟨hp, hs⟩ := hsrt (L.map fun h => (⟨f h, 0⟩ : SHit))
  obtain ⟨l, hl⟩ : ∃ l, l = (srt (L.map fun h => (⟨f h, 0⟩ : SHit))).map SHit.isect := ⟨_, rfl⟩
  rw [← hl]
  have hperm : l.Perm (L.map f) := by
    have := hp.map SHit.isect
    rw [List.map_map] at this
    rw [hl]; exact this
  have hsort : l.Pairwise (fun a b => a.distance ≤ b.distance) := by rw [hl, List.pairwise_map]; exact hs
  have hgap : l.Pairwise (fun a b => precision ≤ |a.distance - b.distance|) := by
    have h2 : (L.map f).Pairwise (fun a b => precision ≤ |a.distance - b.distance|) := by
      rw [List.pairwise_map]; exact hap.imp fun {a b} h => by rw [hf, hf]; exact h
    exact (hperm.pairwise_iff (fun {a b} h => by rwa [abs_sub_comm])).2 h2
  rw [(Cylinder.dedup_id l hgap).2]
  obtain ⟨E, e1, e2, e3, e4⟩ := exact_of_local L f hf hap hfl hst M hM l hperm hsort
  refine ⟨?_, fun h hh => ?_⟩
  · rw [e3]; exact e2.describes_with f hf he e4
  · obtain ⟨x, hx, rfl⟩ := List.mem_map.1 (hperm.mem_iff.1 hh)
    exact ⟨x, hx, rfl⟩

/-- With a cut: the walk over the crossings of the surface and those of the wedge. -/
theorem describes_cut {S : ℝ → Prop} (srt : List SHit → List SHit) (hsrt : IsHitSort srt) (L : List (ℝ × Bool)) (f : ℝ × Bool → Isect)
    (hf : ∀ c, (f c).distance = snap c.1) (he : ∀ c, (f c).entering = c.2)
    (hap : L.Pairwise (fun a b => precision ≤ |snap a.1 - snap b.1|)) (hfl : ∀ c ∈ L, Flips S c.1 c.2)
    (hst : ∀ t, (∀ c ∈ L, c.1 ≠ t) → Steady S t) (M : ℝ) (hM : ∀ u, S u → |u| ≤ M)
    (start delta : ℝ) (hd0 : 0 < delta) (hd1 : delta < 2 * π) (p d : Vec3 ℝ)
    (hw : Phi.Clean start delta p d ∨ Phi.Vertical start delta p d) (hsp : Phi.Spread start delta p d)
    (st : Nat → Bool) (hst0 : st 0 = false) (hst1 : st 1 = Phi.initialPhiState p.x p.y d.x d.y start delta) (out : List Isect)
    (hout : out = andWalk 2 st (allIn 2 st) (srt ((L.map fun h => (⟨f h, 0⟩ : SHit)) ++
      (Phi.wedgeHits snap start delta p d).map fun h => (⟨hitAt p d h.1 h.2, 1⟩ : SHit)))) :
    out.Pairwise (fun a b => a.distance ≤ b.distance) ∧ Alternates false out ∧
    ∀ t : ℝ, (∀ u : ℝ, (∃ c ∈ L, c.1 = u) ∨ Phi.planeDist start (p + Vec3.smul u d) = 0 ∨
        Phi.planeDist (start + delta) (p + Vec3.smul u d) = 0 → 2 * precision ≤ |u - t|) →
      (stateFrom false out t = true ↔ S t ∧ Phi.InWedge start delta (p + Vec3.smul t d)) := by
  obtain ⟨surf, hsurf⟩ : ∃ surf, surf = L.map (fun h => (⟨f h, 0⟩ : SHit)) := ⟨_, rfl⟩
  obtain ⟨wed, hwed⟩ : ∃ wed, wed = (Phi.wedgeHits snap start delta p d).map (fun h => (⟨hitAt p d h.1 h.2, 1⟩ : SHit)) := ⟨_, rfl⟩
  rw [← hsurf, ← hwed] at hout
  have hin0 : allIn 2 st = false := by simp [allIn, hst0, List.range_succ]
  obtain ⟨hp, hs⟩ := hsrt (surf ++ wed)
  have f0 : ofSource 0 (surf ++ wed) = L.map f := by
    rw [ofSource, List.filter_append, hsurf, hwed, List.filter_map, List.filter_map]
    simp [Function.comp_def]
  have f1 : ofSource 1 (surf ++ wed) = (Phi.wedgeHits snap start delta p d).map (fun h => hitAt p d h.1 h.2) := by
    rw [ofSource, List.filter_append, hsurf, hwed, List.filter_map, List.filter_map]
    simp [Function.comp_def]
  have hsorted : ∀ k, (ofSource k (srt (surf ++ wed))).Pairwise (fun a b => a.distance ≤ b.distance) := by
    intro k; unfold ofSource; rw [List.pairwise_map]; exact hs.filter _
  have hperm0 : (ofSource 0 (srt (surf ++ wed))).Perm (L.map f) := by
    rw [← f0]; exact (hp.filter _).map _
  have hperm1 : (ofSource 1 (srt (surf ++ wed))).Perm ((Phi.wedgeHits snap start delta p d).map (fun h => hitAt p d h.1 h.2)) := by
    rw [← f1]; exact (hp.filter _).map _
  obtain ⟨E, e1, e2, e3, e4⟩ := exact_of_local L f hf hap hfl hst M hM _ hperm0 (hsorted 0)
  have hdes := e2.describes_with f hf he e4
  refine ⟨?_, ?_, ?_⟩
  · rw [hout]; exact andWalk_pairwise 2 (· ≤ ·) _ hs _ _
  · rw [hout]
    have := andWalk_alternates 2 (srt (surf ++ wed)) st ⟨0, by norm_num, ?_⟩
    · rwa [hin0] at this ⊢
    · rw [e3, hst0]
      have hlast : ∀ (l : List Isect) (s : Bool), Alternates s l → (l.getLast?.map Isect.entering).getD s = false := by
        intro l
        induction l with
        | nil => intro s h; simpa [Alternates] using h
        | cons a as ih =>
          intro s h
          have := ih _ h.2
          rw [List.getLast?_cons]
          cases hl : as.getLast? with
          | none => rw [hl] at this; simpa using this
          | some x => rw [hl] at this; simpa using this
      exact hlast _ _ hdes.alternates
  · intro t ht
    have hnear : ∀ u, 2 * precision ≤ |u - t| → precision ≤ |snap u - t| := by
      intro u hu
      have h3 := snap_le u
      have h4 := snap_near u
      have := precision_pos
      rcases le_total u t with h | h
      · rw [abs_of_nonpos (by linarith)] at hu ⊢; linarith
      · rw [abs_of_nonneg (by linarith)] at hu
        rw [abs_of_nonneg (by linarith)]; linarith
    have ht0 : ∀ x ∈ E.map f, precision ≤ |x.distance - t| := by
      intro x hx
      obtain ⟨y, hy, rfl⟩ := List.mem_map.1 hx
      rw [hf]
      exact hnear _ (ht _ (Or.inl ⟨y, e1.mem_iff.1 hy, rfl⟩))
    have ht1 : ∀ x ∈ ofSource 1 (srt (surf ++ wed)), precision ≤ |x.distance - t| := by
      intro x hx
      obtain ⟨y, hy, rfl⟩ := List.mem_map.1 (hperm1.mem_iff.1 hx)
      apply hnear
      apply ht
      right
      have : ∀ face, (face = 0 ∨ face = 1) → ∀ e, y ∈ (Phi.wedgeFace snap start delta p d face e).1 →
          Phi.faceFun start delta face (p + Vec3.smul y.1 d) = 0 := by
        intro face hf e hy
        unfold Phi.wedgeFace at hy
        simp only at hy
        split at hy
        · simp at hy
        · next hnd =>
          have hnd0 : (Phi.faceNormal start delta face).1 * d.x + (Phi.faceNormal start delta face).2 * d.y ≠ 0 := by
            intro h; rw [h, abs_zero] at hnd; exact hnd precision_pos
          have key : y.1 = -((Phi.faceNormal start delta face).1 * p.x + (Phi.faceNormal start delta face).2 * p.y) /
              ((Phi.faceNormal start delta face).1 * d.x + (Phi.faceNormal start delta face).2 * d.y) := by
            split at hy
            · simp at hy
            · split at hy
              · split at hy
                · simp at hy
                · simp only [List.mem_singleton] at hy; rw [hy]
              · simp only [List.mem_singleton] at hy; rw [hy]
          rw [Phi.faceFun_line, key]
          unfold Phi.faceFun
          field_simp
          ring
      unfold Phi.wedgeHits at hy
      simp only [List.mem_append] at hy
      rcases hy with hy | hy
      · left
        have := this 0 (Or.inl rfl) _ hy
        rw [Phi.faceFun_zero] at this
        linarith
      · right
        have := this 1 (Or.inr rfl) _ hy
        rwa [Phi.faceFun_one] at this
    have hw1 := Phi.C74_wedge snap (Or.inl rfl) start delta hd0 hd1 p d hw hsp _ hperm1 (hsorted 1) t ht1
    have hwalk := andWalk_state 2 t (srt (surf ++ wed)) hs st
    rw [hin0] at hwalk
    rw [hout, hin0, hwalk]
    have : allIn 2 (fun k => stateFrom (st k) (ofSource k (srt (surf ++ wed))) t) =
        (stateFrom (st 0) (ofSource 0 (srt (surf ++ wed))) t && stateFrom (st 1) (ofSource 1 (srt (surf ++ wed))) t) := by
      simp [allIn, List.range_succ]
    rw [this, Bool.and_eq_true, hst1, hw1, hdes.exact t ht0, ← e3, hst0]

/-- The wedge is crossed at most twice. -/
theorem Phi.wedgeHits_length (st : ℝ → ℝ) (start delta : ℝ) (p d : Vec3 ℝ) : (Phi.wedgeHits st start delta p d).length ≤ 2 := by
  have hf : ∀ f e, (Phi.wedgeFace st start delta p d f e).1.length ≤ 1 := by
    intro f e
    unfold Phi.wedgeFace
    simp only
    split
    · simp
    · split
      · simp
      · split
        · split <;> simp
        · simp
  unfold Phi.wedgeHits
  simp only [List.length_append]
  exact Nat.add_le_add (hf _ _) (hf _ _)

end Siren.Geometry
