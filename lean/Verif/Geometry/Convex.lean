import Verif.Geometry.Local

set_option autoImplicit false

/-!
# Shapes bounded by planes and other pieces of surface

The part shared by the shapes whose crossings are collected face by face and sorted by distance.
-/

namespace Siren.Geometry

open Siren Filter Topology

/-- What `std::sort` by distance does to a list of crossings: it permutes it and puts the distances in order; crossings at the
same distance may come in any order. -/
def IsIsectSort (srt : List Isect → List Isect) : Prop :=
  ∀ l, (srt l).Perm l ∧ (srt l).Pairwise (fun a b => a.distance ≤ b.distance)

/-- Such a sort exists. -/
theorem exists_isectSort : ∃ srt, IsIsectSort srt := by
  refine ⟨fun l => l.insertionSort (fun a b => a.distance ≤ b.distance), fun l => ⟨List.perm_insertionSort _ _, ?_⟩⟩
  have : Std.Total (fun a b : Isect => a.distance ≤ b.distance) := ⟨fun a b => le_total _ _⟩
  have : IsTrans Isect (fun a b : Isect => a.distance ≤ b.distance) := ⟨fun a b c => le_trans⟩
  exact List.pairwise_insertionSort _ _

/-- A linear function changes sign at its zero. -/
theorem linear_flips (a b t : ℝ) (h : a + t * b = 0) (hb : b ≠ 0) : Flips (fun u => a + u * b < 0) t (decide (b < 0)) := by
  have := flips_of_factor (f := fun u => a + u * b) (g := fun _ => b) (t := t) (fun u => by linear_combination h)
    continuousAt_const hb
  exact this

/-- An intersection of half lines changes where exactly one of them does. -/
theorem flips_convex {ι : Type*} [Finite ι] (a b : ι → ℝ) (i : ι) (t : ℝ) (h : a i + t * b i = 0) (hb : b i ≠ 0)
    (ho : ∀ j, j ≠ i → a j + t * b j < 0) : Flips (fun u => ∀ j, a j + u * b j < 0) t (decide (b i < 0)) := by
  have hev : ∀ᶠ u in 𝓝 t, ∀ j, j ≠ i → a j + u * b j < 0 := by
    rw [eventually_all]
    intro j
    by_cases hj : j = i
    · exact Eventually.of_forall fun u h => absurd hj h
    · exact (eventually_neg (f := fun u => a j + u * b j) (by fun_prop) (ho j hj)).mono fun u hu _ => hu
  refine (linear_flips (a i) (b i) t h hb).congr (hev.mono fun u hu => ⟨fun h1 j => ?_, fun h1 => h1 i⟩)
  by_cases hj : j = i
  · rw [hj]; exact h1
  · exact hu j hj

/-- It does not change where none of them does, and where another one is left. -/
theorem steady_convex {ι : Type*} [Finite ι] (a b : ι → ℝ) (t : ℝ)
    (h : ∀ i, a i + t * b i = 0 → b i = 0 ∨ ∃ j, 0 < a j + t * b j) : Steady (fun u => ∀ j, a j + u * b j < 0) t := by
  by_cases h1 : ∃ j, 0 < a j + t * b j
  · obtain ⟨j, hj⟩ := h1
    right
    filter_upwards [eventually_pos (f := fun u => a j + u * b j) (by fun_prop) hj] with u hu hc
    exact absurd (hc j) (not_lt.2 (le_of_lt hu))
  · by_cases h2 : ∃ i, a i + t * b i = 0
    · obtain ⟨i, hi⟩ := h2
      have hb := (h i hi).resolve_right h1
      right
      refine Eventually.of_forall fun u hc => ?_
      have := hc i
      rw [hb] at this hi
      linarith
    · left
      rw [eventually_all]
      intro j
      refine eventually_neg (f := fun u => a j + u * b j) (by fun_prop) ?_
      rcases lt_trichotomy (a j + t * b j) 0 with h3 | h3 | h3
      · exact h3
      · exact absurd ⟨j, h3⟩ h2
      · exact absurd ⟨j, h3⟩ h1

/-- The report of a crossing at `t`: a distance just ahead of the start is moved to it. -/
noncomputable def report (p d : Vec3 ℝ) (c : ℝ × Bool) : Isect := ⟨snap c.1, 0, c.2, p + Vec3.smul (snap c.1) d⟩

/-- Sorted reports describe the set if it changes at each reported crossing as stated, changes nowhere else, and is bounded. -/
theorem describes_of_local {S : ℝ → Prop} (srt : List Isect → List Isect) (hsrt : IsIsectSort srt) (L : List (ℝ × Bool))
    (p d : Vec3 ℝ) (hn : ((srt (L.map (report p d))).map Isect.distance).Nodup) (hf : ∀ c ∈ L, Flips S c.1 c.2)
    (hst : ∀ t, (∀ c ∈ L, c.1 ≠ t) → Steady S t) (M : ℝ) (hM : ∀ u, S u → |u| ≤ M) :
    Describes precision S (srt (L.map (report p d))) := by
  obtain ⟨hp, hs⟩ := hsrt (L.map (report p d))
  obtain ⟨E, e1, e2, e3, e4⟩ := sorted_exact L (report p d) (fun c => rfl) _ hp hs hn
  obtain ⟨b1, b2⟩ := empty_at_infinity M hM
  have hex : Exactly S E := exactly_of_flips e2 (fun x hx => hf x (e1.mem_iff.1 hx))
    (fun t ht => hst t fun h hh => ht h (e1.mem_iff.2 hh)) b1 b2
  rw [e3]
  exact hex.describes_with (report p d) (fun _ => rfl) (fun _ => rfl) e4

/-- Near the parameter `t` a condition is clearly met or clearly not met: moving by the tolerance along the line makes no
difference. The condition is given twice, without and with its boundary. -/
def Clearly (strict closed : ℝ → Prop) (t : ℝ) : Prop :=
  (∀ u, |u - t| ≤ precision → strict u) ∨ (∀ u, |u - t| ≤ precision → ¬ closed u)

theorem Clearly.snap {strict closed : ℝ → Prop} {t : ℝ} (h : Clearly strict closed t) (hi : ∀ u, strict u → closed u) :
    (closed (snap t) → strict t) ∧ (¬ closed (snap t) → ¬ closed t) := by
  have h1 : |Geometry.snap t - t| ≤ precision := by
    have := snap_near t; have := snap_le t
    rw [abs_le]; constructor <;> linarith [precision_pos]
  have h2 : |t - t| ≤ precision := by rw [sub_self, abs_zero]; exact precision_pos.le
  rcases h with h | h
  · exact ⟨fun _ => h t h2, fun hc => absurd (hi _ (h _ h1)) hc⟩
  · exact ⟨fun hc => absurd hc (h _ h1), fun _ => h t h2⟩

/-- Sorted crossings at exact and different distances describe the set if it changes at each as stated, changes nowhere else,
and is bounded. -/
theorem describes_of_exact {S : ℝ → Prop} (srt : List Isect → List Isect) (hsrt : IsIsectSort srt) (L : List Isect)
    (hn : (L.map Isect.distance).Nodup) (hf : ∀ h ∈ L, Flips S h.distance h.entering)
    (hst : ∀ t, (∀ h ∈ L, h.distance ≠ t) → Steady S t) (M : ℝ) (hM : ∀ u, S u → |u| ≤ M) :
    Describes precision S (srt L) := by
  obtain ⟨hp, hs⟩ := hsrt L
  obtain ⟨l, hl⟩ : ∃ l, l = srt L := ⟨_, rfl⟩
  rw [← hl] at hp hs ⊢
  have hlt : l.Pairwise (fun a b => a.distance < b.distance) := by
    have h1 := (hp.map Isect.distance).nodup_iff.2 hn
    rw [List.Nodup, List.pairwise_map] at h1
    exact (hs.and h1).imp fun h => lt_of_le_of_ne h.1 h.2
  obtain ⟨b1, b2⟩ := empty_at_infinity M hM
  have hex : Exactly S (l.map fun h => (h.distance, h.entering)) := by
    refine exactly_of_flips (by rw [List.pairwise_map]; exact hlt) ?_ ?_ b1 b2
    · intro c hc
      obtain ⟨h, hh, rfl⟩ := List.mem_map.1 hc
      exact hf h (hp.mem_iff.1 hh)
    · intro t ht
      exact hst t fun h hh => ht (h.distance, h.entering) (List.mem_map_of_mem (f := fun h : Isect => (h.distance, h.entering)) (hp.mem_iff.2 hh))
  have e1 := hex.alternates
  rw [List.map_map] at e1
  refine ⟨hlt, ?_, ?_⟩
  · have := (alternates_map (fun h : Isect => (⟨h.distance, 0, h.entering, 0⟩ : Isect)) id l _ (fun h _ => rfl)).1 e1
    rwa [List.map_id] at this
  · intro t ht
    rw [hex.exact t (fun c hc => by
      obtain ⟨h, hh, rfl⟩ := List.mem_map.1 hc
      intro e
      have := ht h hh
      rw [show h.distance = t from e, sub_self, abs_zero] at this
      linarith [precision_pos])]
    rw [List.map_map]
    have := stateFrom_map (fun h : Isect => (⟨h.distance, 0, h.entering, 0⟩ : Isect)) id l false t (fun h _ => rfl) (fun h _ => Iff.rfl)
    rw [List.map_id] at this
    rw [← this]
    exact Iff.rfl

/-! ### Quadratics -/

/-- The zeros of a quadratic with two different ones. -/
theorem quadratic_roots (a b c t : ℝ) (ha : 0 < a) (hd : 0 < b * b - a * c) :
    a * t ^ 2 + 2 * b * t + c = 0 ↔ t = (-b - Real.sqrt (b * b - a * c)) / a ∨ t = (-b + Real.sqrt (b * b - a * c)) / a := by
  have hs := Real.mul_self_sqrt hd.le
  obtain ⟨s, hs'⟩ : ∃ s, s = Real.sqrt (b * b - a * c) := ⟨_, rfl⟩
  rw [← hs'] at hs ⊢
  have e : a * (a * t ^ 2 + 2 * b * t + c) = (a * t + b + s) * (a * t + b - s) := by linear_combination hs
  rw [eq_div_iff ha.ne', eq_div_iff ha.ne']
  constructor
  · intro h
    rw [h, mul_zero] at e
    rcases mul_eq_zero.1 e.symm with h | h
    · left; linarith
    · right; linarith
  · rintro (h | h)
    · have : (a * t + b + s) * (a * t + b - s) = 0 := by rw [show a * t + b + s = 0 by linarith, zero_mul]
      rw [this] at e
      exact (mul_eq_zero.1 e).resolve_left ha.ne'
    · have : (a * t + b + s) * (a * t + b - s) = 0 := by rw [show a * t + b - s = 0 by linarith, mul_zero]
      rw [this] at e
      exact (mul_eq_zero.1 e).resolve_left ha.ne'

/-- A quadratic that opens upwards changes sign at a zero if there are two. -/
theorem quadratic_flips_disc (a b c t : ℝ) (hd : 0 < b * b - a * c) (h : a * t ^ 2 + 2 * b * t + c = 0) :
    Flips (fun u => a * u ^ 2 + 2 * b * u + c < 0) t (decide (a * t + b < 0)) := by
  have hne : a * t + b ≠ 0 := by
    intro h0
    have : (a * t + b) ^ 2 = b * b - a * c := by linear_combination a * h
    rw [h0] at this
    linarith
  have := quadratic_flips a (2 * b) c t h (by intro h0; exact hne (by linarith))
  have e : (2 * a * t + 2 * b < 0) ↔ (a * t + b < 0) := by constructor <;> intro h <;> linarith
  simpa only [e] using this

/-- It does not change sign if there are not two different zeros. -/
theorem quadratic_nonneg (a b c : ℝ) (ha : 0 < a) (hd : b * b - a * c ≤ 0) (u : ℝ) : 0 ≤ a * u ^ 2 + 2 * b * u + c := by
  by_contra h
  push Not at h
  have : a * (a * u ^ 2 + 2 * b * u + c) < 0 := mul_neg_of_pos_of_neg ha h
  nlinarith [sq_nonneg (a * u + b)]

end Siren.Geometry
