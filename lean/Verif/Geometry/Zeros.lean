import Verif.Geometry.Hits
import Mathlib.Analysis.Calculus.Deriv.Slope
import Mathlib.Topology.Order.IntermediateValue
import Mathlib.Analysis.Calculus.Deriv.Basic

set_option autoImplicit false

/-!
# Crossings from the zeros of a function

A shape given by the sign of a function along a line is described by the zeros of the function, if none is a turning point.
-/

namespace Siren.Geometry
namespace Zeros

open Siren Filter Topology

variable {G G' : ℝ → ℝ} (hG : ∀ t, HasDerivAt G (G' t) t)

include hG

theorem sign_const {a b : ℝ} (hab : a ≤ b) (h : ∀ t, a ≤ t → t ≤ b → G t ≠ 0) : G a < 0 ↔ G b < 0 := by
  have hc : ContinuousOn G (Set.Icc a b) := fun t _ => (hG t).continuousAt.continuousWithinAt
  constructor
  · intro ha
    by_contra hb
    push Not at hb
    obtain ⟨t, ht, h0⟩ := intermediate_value_Icc hab hc ⟨ha.le, hb⟩
    exact h t ht.1 ht.2 h0
  · intro hb
    by_contra ha
    push Not at ha
    obtain ⟨t, ht, h0⟩ := intermediate_value_Icc' hab hc ⟨hb.le, ha⟩
    exact h t ht.1 ht.2 h0

theorem after_zero {r t : ℝ} (h0 : G r = 0) (hn : G' r ≠ 0) (hrt : r < t) (h : ∀ x, r < x → x ≤ t → G x ≠ 0) : G t < 0 ↔ G' r < 0 := by
  have hs := (hasDerivAt_iff_tendsto_slope.mp (hG r))
  have hs' : Tendsto (slope G r) (𝓝[>] r) (𝓝 (G' r)) := hs.mono_left (nhdsWithin_mono _ fun x hx => ne_of_gt hx)
  have hmem : ∀ᶠ x in 𝓝[>] r, x < t := nhdsWithin_le_nhds (Iio_mem_nhds hrt)
  have hpos : ∀ᶠ x in 𝓝[>] r, r < x := self_mem_nhdsWithin
  rcases lt_or_gt_of_ne hn with hn | hn
  · obtain ⟨x, h1, h2, h3⟩ := ((hs'.eventually (gt_mem_nhds hn)).and (hmem.and hpos)).exists
    rw [slope_def_field, h0, sub_zero, div_lt_iff₀ (by linarith), zero_mul] at h1
    simp only [hn, iff_true]
    exact (sign_const hG h2.le fun y hy hy' => h y (lt_of_lt_of_le h3 hy) hy').mp h1
  · obtain ⟨x, h1, h2, h3⟩ := ((hs'.eventually (lt_mem_nhds hn)).and (hmem.and hpos)).exists
    rw [slope_def_field, h0, sub_zero, lt_div_iff₀ (by linarith), zero_mul] at h1
    constructor
    · intro ht
      have := (sign_const hG h2.le fun y hy hy' => h y (lt_of_lt_of_le h3 hy) hy').mpr ht
      linarith
    · intro h; linarith

theorem before_zero {r t : ℝ} (h0 : G r = 0) (hn : G' r ≠ 0) (hrt : t < r) (h : ∀ x, t ≤ x → x < r → G x ≠ 0) : G t < 0 ↔ 0 < G' r := by
  have hs := (hasDerivAt_iff_tendsto_slope.mp (hG r))
  have hs' : Tendsto (slope G r) (𝓝[<] r) (𝓝 (G' r)) := hs.mono_left (nhdsWithin_mono _ fun x hx => ne_of_lt hx)
  have hmem : ∀ᶠ x in 𝓝[<] r, t < x := nhdsWithin_le_nhds (Ioi_mem_nhds hrt)
  have hneg : ∀ᶠ x in 𝓝[<] r, x < r := self_mem_nhdsWithin
  rcases lt_or_gt_of_ne hn with hn | hn
  · obtain ⟨x, h1, h2, h3⟩ := ((hs'.eventually (gt_mem_nhds hn)).and (hmem.and hneg)).exists
    rw [slope_def_field, h0, sub_zero, div_lt_iff_of_neg (by linarith), zero_mul] at h1
    constructor
    · intro ht
      have := (sign_const hG h2.le fun y hy hy' => h y hy (lt_of_le_of_lt hy' h3)).mp ht
      linarith
    · intro h; linarith
  · obtain ⟨x, h1, h2, h3⟩ := ((hs'.eventually (lt_mem_nhds hn)).and (hmem.and hneg)).exists
    rw [slope_def_field, h0, sub_zero, lt_div_iff_of_neg (by linarith), zero_mul] at h1
    simp only [hn, iff_true]
    exact (sign_const hG h2.le fun y hy hy' => h y hy (lt_of_le_of_lt hy' h3)).mpr h1

theorem left_pos {t : ℝ} (hl : ∃ M, ∀ t < M, 0 < G t) (h : ∀ x, x ≤ t → G x ≠ 0) : 0 < G t := by
  obtain ⟨M, hM⟩ := hl
  by_contra hn
  push Not at hn
  have hneg : G t < 0 := lt_of_le_of_ne hn (h t le_rfl)
  have h1 := hM (min M t - 1) (by linarith [min_le_left M t])
  have := (sign_const hG (a := min M t - 1) (b := t) (by linarith [min_le_right M t]) fun x _ hx => h x hx).mpr hneg
  linarith

theorem right_pos {t : ℝ} (hr : ∃ M, ∀ t > M, 0 < G t) (h : ∀ x, t ≤ x → G x ≠ 0) : 0 < G t := by
  obtain ⟨M, hM⟩ := hr
  by_contra hn
  push Not at hn
  have hneg : G t < 0 := lt_of_le_of_ne hn (h t le_rfl)
  have h1 := hM (max M t + 1) (by linarith [le_max_left M t])
  have := (sign_const hG (a := t) (b := max M t + 1) (by linarith [le_max_right M t]) fun x hx _ => h x hx).mp hneg
  linarith

omit hG in
theorem last_max {l : List Isect} (hs : l.Pairwise (fun a b => a.distance < b.distance)) {h : Isect} (hl : l.getLast? = some h) :
    ∀ x ∈ l, x.distance ≤ h.distance := by
  obtain ⟨l', rfl⟩ := List.getLast?_eq_some_iff.mp hl
  intro x hx
  rcases List.mem_append.mp hx with hx | hx
  · exact ((List.pairwise_append.mp hs).2.2 x hx h (by simp)).le
  · rw [List.mem_singleton.mp hx]

/-- The zeros describe where the function is negative. -/
theorem describes {hits : List Isect} (hs : hits.Pairwise (fun a b => a.distance < b.distance))
    (hz : ∀ t, G t = 0 ↔ ∃ h ∈ hits, h.distance = t) (hn : ∀ h ∈ hits, G' h.distance ≠ 0)
    (he : ∀ h ∈ hits, h.entering = true ↔ G' h.distance < 0) (hl : ∃ M, ∀ t < M, 0 < G t) (hr : ∃ M, ∀ t > M, 0 < G t)
    {eps : ℝ} (heps : 0 < eps) : Describes eps (fun t => G t < 0) hits := by
  refine ⟨hs, ?_, ?_⟩
  · have key : ∀ (l pre : List Isect), hits = pre ++ l → Alternates ((pre.getLast?.map Isect.entering).getD false) l := by
      intro l
      induction l with
      | nil =>
        intro pre hp
        rw [List.append_nil] at hp
        subst hp
        show (hits.getLast?.map Isect.entering).getD false = false
        cases hL : hits.getLast? with
        | none => rfl
        | some h =>
          have hm := last_max hs hL
          have hmem : h ∈ hits := List.mem_of_getLast? hL
          have hno : ∀ x, h.distance < x → G x ≠ 0 := by
            intro x hx h0
            obtain ⟨k, hk, rfl⟩ := (hz x).mp h0
            linarith [hm k hk]
          have h1 := after_zero hG ((hz _).mpr ⟨h, hmem, rfl⟩) (hn h hmem) (lt_add_one h.distance) fun x hx _ => hno x hx
          have h2 := right_pos hG hr (t := h.distance + 1) fun x hx => hno x (by linarith)
          simp only [Option.map_some, Option.getD_some]
          by_contra hc
          have := (he h hmem).mp (by simpa using hc)
          linarith [h1.mpr this]
      | cons x xs ih =>
        intro pre hp
        have hmem : x ∈ hits := by rw [hp]; simp
        have hpw := hs
        rw [hp, List.pairwise_append, List.pairwise_cons] at hpw
        obtain ⟨hpre, ⟨hxs, -⟩, hpx⟩ := hpw
        refine ⟨?_, ?_⟩
        · cases hL : pre.getLast? with
          | none =>
            have : pre = [] := List.getLast?_eq_none_iff.mp hL
            subst this
            have hno : ∀ y, y < x.distance → G y ≠ 0 := by
              intro y hy h0
              obtain ⟨k, hk, rfl⟩ := (hz y).mp h0
              rw [hp, List.nil_append] at hk
              rcases List.mem_cons.mp hk with rfl | hk
              · linarith
              · linarith [hxs k hk]
            have h1 := before_zero hG ((hz _).mpr ⟨x, hmem, rfl⟩) (hn x hmem) (sub_one_lt x.distance) fun y _ hy => hno y hy
            have h2 := left_pos hG hl (t := x.distance - 1) fun y hy => hno y (by linarith)
            simp only [Option.map_none, Option.getD_none, Bool.not_false]
            apply (he x hmem).mpr
            rcases lt_or_gt_of_ne (hn x hmem) with h | h
            · exact h
            · linarith [h1.mpr h]
          | some h =>
            have hhp : h ∈ pre := List.mem_of_getLast? hL
            have hhm : h ∈ hits := by rw [hp]; exact List.mem_append_left _ hhp
            have hm := last_max hpre hL
            have hlt := hpx h hhp x List.mem_cons_self
            have hno : ∀ y, h.distance < y → y < x.distance → G y ≠ 0 := by
              intro y hy1 hy2 h0
              obtain ⟨k, hk, rfl⟩ := (hz y).mp h0
              rw [hp] at hk
              rcases List.mem_append.mp hk with hk | hk
              · linarith [hm k hk]
              · rcases List.mem_cons.mp hk with rfl | hk
                · linarith
                · linarith [hxs k hk]
            have h1 := after_zero hG ((hz _).mpr ⟨h, hhm, rfl⟩) (hn h hhm) (t := (h.distance + x.distance) / 2) (by linarith)
              fun y h1 h2 => hno y h1 (by linarith)
            have h2 := before_zero hG ((hz _).mpr ⟨x, hmem, rfl⟩) (hn x hmem) (t := (h.distance + x.distance) / 2) (by linarith)
              fun y h1 h2 => hno y (by linarith) h2
            simp only [Option.map_some, Option.getD_some]
            have e1 := he h hhm
            have e2 := he x hmem
            cases hx : x.entering with
            | true =>
              have n1 := e2.mp hx
              cases hh : h.entering with
              | true =>
                have := h2.mp (h1.mpr (e1.mp hh))
                linarith
              | false => rfl
            | false =>
              have n1 : 0 < G' x.distance := by
                rcases lt_or_gt_of_ne (hn x hmem) with h | h
                · have := e2.mpr h; rw [hx] at this; cases this
                · exact h
              rw [e1.mpr (h1.mp (h2.mpr n1))]; rfl
        · have := ih (pre ++ [x]) (by rw [hp]; simp)
          simpa using this
    have := key hits [] rfl
    simpa using this
  · intro t ht
    have hnz : G t ≠ 0 := by
      intro h0
      obtain ⟨h, hh, e⟩ := (hz t).mp h0
      have := ht h hh
      rw [e, sub_self, abs_zero] at this
      linarith
    unfold stateFrom
    cases hL : (hits.filter (fun h => decide (h.distance < t))).getLast? with
    | none =>
      have hnil := List.getLast?_eq_none_iff.mp hL
      have hno : ∀ x, x ≤ t → G x ≠ 0 := by
        intro x hx h0
        obtain ⟨k, hk, rfl⟩ := (hz x).mp h0
        rcases hx.lt_or_eq with hx | hx
        · have : k ∈ hits.filter (fun h => decide (h.distance < t)) := List.mem_filter.mpr ⟨hk, by simpa using hx⟩
          rw [hnil] at this
          simp at this
        · rw [hx] at h0; exact hnz h0
      have := left_pos hG hl hno
      simp only [Option.map_none, Option.getD_none, Bool.false_eq_true, iff_false, not_lt]
      exact this.le
    | some h =>
      have hm := last_max (hs.sublist List.filter_sublist) hL
      have hmem := List.mem_of_getLast? hL
      obtain ⟨hh, hlt⟩ := List.mem_filter.mp hmem
      have hlt : h.distance < t := by simpa using hlt
      have hno : ∀ x, h.distance < x → x ≤ t → G x ≠ 0 := by
        intro x hx1 hx2 h0
        obtain ⟨k, hk, rfl⟩ := (hz x).mp h0
        rcases hx2.lt_or_eq with hx | hx
        · linarith [hm k (List.mem_filter.mpr ⟨hk, by simpa using hx⟩)]
        · rw [hx] at h0; exact hnz h0
      simp only [Option.map_some, Option.getD_some]
      rw [he h hh]
      exact after_zero hG ((hz _).mpr ⟨h, hh, rfl⟩) (hn h hh) hlt hno

end Zeros
end Siren.Geometry
