import Verif.Geometry.Convex
import Verif.Geometry.AABB

set_option autoImplicit false

/-!
# C100: elliptical tubes

Models `geometry/private/EllipticalTube.cxx`. Real square root instead of `std::sqrt`.
-/

namespace Siren.Geometry.EllipticalTube

open Siren Siren.Geometry Filter

/-! ### Model -/

/-- The members of `EllipticalTube` (geometry/public/SIREN/geometry/EllipticalTube.h). -/
structure ETube where
  dx : ℝ
  dy : ℝ
  dz : ℝ

/-- The constructor (geometry/private/EllipticalTube.cxx:21-24, 26-29); `none` is `std::invalid_argument`. -/
noncomputable def make (dx dy dz : ℝ) : Option ETube :=
  if dx ≤ 0 ∨ dy ≤ 0 ∨ dz ≤ 0 then none else some ⟨dx, dy, dz⟩

/-- The coefficient `A` (geometry/private/EllipticalTube.cxx:56-57, 68). -/
noncomputable def coeffA (c : ETube) (d : Vec3 ℝ) : ℝ := d.x * d.x * (1 / (c.dx * c.dx)) + d.y * d.y * (1 / (c.dy * c.dy))

/-- The coefficient `B` for a shifted origin (geometry/private/EllipticalTube.cxx:69). -/
noncomputable def coeffB (c : ETube) (q d : Vec3 ℝ) : ℝ := q.x * d.x * (1 / (c.dx * c.dx)) + q.y * d.y * (1 / (c.dy * c.dy))

/-- The coefficient `C` for a shifted origin (geometry/private/EllipticalTube.cxx:70). -/
noncomputable def coeffC (c : ETube) (q : Vec3 ℝ) : ℝ := q.x * q.x * (1 / (c.dx * c.dx)) + q.y * q.y * (1 / (c.dy * c.dy)) - 1

/-- One root on the barrel (geometry/private/EllipticalTube.cxx:82-96, 99-112). -/
noncomputable def barrelHit (c : ETube) (p d : Vec3 ℝ) (t : ℝ) : List Isect :=
  let iz := p.z + t * d.z
  if |iz| ≤ c.dz + precision then
    let ix := p.x + t * d.x
    let iy := p.y + t * d.y
    let ndot := ix * d.x * (1 / (c.dx * c.dx)) + iy * d.y * (1 / (c.dy * c.dy))
    [⟨t, 0, decide (ndot < 0), ⟨ix, iy, iz⟩⟩]
  else []

/-- The barrel (geometry/private/EllipticalTube.cxx:56-113). -/
noncomputable def barrel (c : ETube) (p d : Vec3 ℝ) : List Isect :=
  let shift := -(p.x * d.x + p.y * d.y + p.z * d.z)
  let q : Vec3 ℝ := ⟨p.x + shift * d.x, p.y + shift * d.y, 0⟩
  let A := coeffA c d
  let B := coeffB c q d
  let C := coeffC c q
  let disc := B * B - A * C
  if disc > 0 ∧ A > precision * precision then
    let sq := Real.sqrt disc
    let inv := 1 / A
    barrelHit c p d ((-B - sq) * inv + shift) ++ barrelHit c p d ((-B + sq) * inv + shift)
  else []

/-- A cap at `zcap` (geometry/private/EllipticalTube.cxx:116-147). -/
noncomputable def cap (c : ETube) (p d : Vec3 ℝ) (zcap : ℝ) (entering : Bool) : List Isect :=
  if |d.z| > precision then
    let t := (zcap - p.z) / d.z
    let ix := p.x + t * d.x
    let iy := p.y + t * d.y
    let v := ix * ix * (1 / (c.dx * c.dx)) + iy * iy * (1 / (c.dy * c.dy))
    if v ≤ 1 + precision then [⟨t, 0, entering, ⟨ix, iy, zcap⟩⟩] else []
  else []

/-- The crossings in the order in which they are found (geometry/private/EllipticalTube.cxx:53-147). -/
noncomputable def raw (c : ETube) (p d : Vec3 ℝ) : List Isect :=
  barrel c p d ++ cap c p d c.dz (decide (d.z < 0)) ++ cap c p d (-c.dz) (decide (d.z > 0))

/-- `EllipticalTube::ComputeIntersections` (geometry/private/EllipticalTube.cxx:42-156); `srt` is `std::sort`. -/
noncomputable def compute (srt : List Isect → List Isect) (c : ETube) (p d : Vec3 ℝ) : List Isect := srt (raw c p d)

/-- `EllipticalTube::GetBoundingBox` (geometry/private/EllipticalTube.cxx:159-164). -/
noncomputable def boundingBox (c : ETube) : AABB ℝ := ⟨⟨-c.dx, -c.dy, -c.dz⟩, ⟨c.dx, c.dy, c.dz⟩⟩

/-! ### Specification -/

/-- The equation of the ellipse: 1 on the barrel, less inside. -/
noncomputable def ellipse (c : ETube) (v : Vec3 ℝ) : ℝ := (v.x / c.dx) ^ 2 + (v.y / c.dy) ^ 2

/-- The inside of the tube. -/
def Inside (c : ETube) (v : Vec3 ℝ) : Prop := ellipse c v < 1 ∧ |v.z| < c.dz

/-- The tube with its surface. -/
def Mem (c : ETube) (v : Vec3 ℝ) : Prop := ellipse c v ≤ 1 ∧ |v.z| ≤ c.dz

/-- The direction is parallel to the axis or clearly not, and parallel to the caps or clearly not. -/
def NotNearlyParallel (c : ETube) (d : Vec3 ℝ) : Prop :=
  ((d.x = 0 ∧ d.y = 0) ∨ precision ^ 2 < (d.x / c.dx) ^ 2 + (d.y / c.dy) ^ 2) ∧ (d.z = 0 ∨ precision < |d.z|)

/-- The line does not pass through the rims, nor by them on the outside within the tolerance. -/
def ClearOfRims (c : ETube) (p d : Vec3 ℝ) : Prop :=
  ∀ t : ℝ,
    (ellipse c (p + Vec3.smul t d) = 1 → |(p + Vec3.smul t d).z| < c.dz ∨ c.dz + precision < |(p + Vec3.smul t d).z|) ∧
    (|(p + Vec3.smul t d).z| = c.dz → ellipse c (p + Vec3.smul t d) < 1 ∨ 1 + precision < ellipse c (p + Vec3.smul t d))

/-! ### Proofs -/

theorem ellipse_eq (c : ETube) (v : Vec3 ℝ) : v.x * v.x * (1 / (c.dx * c.dx)) + v.y * v.y * (1 / (c.dy * c.dy)) = ellipse c v := by
  unfold ellipse; rw [div_pow, div_pow]; ring

/-- The equation along the line as a quadratic. -/
theorem ellipse_line (c : ETube) (p d : Vec3 ℝ) (u : ℝ) :
    ellipse c (p + Vec3.smul u d) - 1 = coeffA c d * u ^ 2 + 2 * coeffB c p d * u + coeffC c p := by
  rw [← ellipse_eq]
  unfold coeffA coeffB coeffC
  simp only [Vec3.add_x, Vec3.add_y, Vec3.smul_x, Vec3.smul_y]
  ring

theorem coeffA_nonneg (c : ETube) (d : Vec3 ℝ) : 0 ≤ coeffA c d := by
  unfold coeffA
  exact add_nonneg (mul_nonneg (mul_self_nonneg _) (one_div_nonneg.2 (mul_self_nonneg _)))
    (mul_nonneg (mul_self_nonneg _) (one_div_nonneg.2 (mul_self_nonneg _)))

theorem coeffA_eq (c : ETube) (d : Vec3 ℝ) : coeffA c d = (d.x / c.dx) ^ 2 + (d.y / c.dy) ^ 2 := by
  unfold coeffA; rw [div_pow, div_pow]; ring

/-- The shift of the origin does not change the discriminant. -/
theorem shift_disc (c : ETube) (p d : Vec3 ℝ) (s z : ℝ) :
    coeffB c ⟨p.x + s * d.x, p.y + s * d.y, z⟩ d * coeffB c ⟨p.x + s * d.x, p.y + s * d.y, z⟩ d -
      coeffA c d * coeffC c ⟨p.x + s * d.x, p.y + s * d.y, z⟩ = coeffB c p d * coeffB c p d - coeffA c d * coeffC c p := by
  unfold coeffA coeffB coeffC
  ring

theorem shift_B (c : ETube) (p d : Vec3 ℝ) (s z : ℝ) :
    coeffB c ⟨p.x + s * d.x, p.y + s * d.y, z⟩ d = coeffB c p d + s * coeffA c d := by
  unfold coeffA coeffB
  ring

theorem mem_barrelHit (c : ETube) (p d : Vec3 ℝ) (t : ℝ) (h : Isect) : h ∈ barrelHit c p d t ↔
    |(p + Vec3.smul t d).z| ≤ c.dz + precision ∧ h = ⟨t, 0, decide (coeffA c d * t + coeffB c p d < 0), p + Vec3.smul t d⟩ := by
  have e : (p.x + t * d.x) * d.x * (1 / (c.dx * c.dx)) + (p.y + t * d.y) * d.y * (1 / (c.dy * c.dy)) = coeffA c d * t + coeffB c p d := by
    unfold coeffA coeffB; ring
  unfold barrelHit
  simp only [e]
  have ep : (⟨p.x + t * d.x, p.y + t * d.y, p.z + t * d.z⟩ : Vec3 ℝ) = p + Vec3.smul t d := rfl
  rw [ep]
  have ez : p.z + t * d.z = (p + Vec3.smul t d).z := rfl
  rw [ez]
  split
  · next h1 =>
    simp only [List.mem_singleton]
    exact ⟨fun h2 => ⟨h1, h2⟩, fun h2 => h2.2⟩
  · next h1 =>
    simp only [List.not_mem_nil, false_iff]
    exact fun h2 => h1 h2.1

theorem mem_barrel (c : ETube) (p d : Vec3 ℝ) (h : Isect) : h ∈ barrel c p d ↔
    0 < coeffB c p d * coeffB c p d - coeffA c d * coeffC c p ∧ precision * precision < coeffA c d ∧
    ∃ t, ellipse c (p + Vec3.smul t d) = 1 ∧ |(p + Vec3.smul t d).z| ≤ c.dz + precision ∧
      h = ⟨t, 0, decide (coeffA c d * t + coeffB c p d < 0), p + Vec3.smul t d⟩ := by
  unfold barrel
  simp only [shift_disc]
  simp only [shift_B]
  obtain ⟨s, hs⟩ : ∃ s, s = -(p.x * d.x + p.y * d.y + p.z * d.z) := ⟨_, rfl⟩
  rw [← hs]
  split
  · next h1 =>
    have hA : 0 < coeffA c d := lt_trans (mul_pos precision_pos precision_pos) h1.2
    have e : ∀ t, ellipse c (p + Vec3.smul t d) = 1 ↔ t = (-coeffB c p d - Real.sqrt (coeffB c p d * coeffB c p d - coeffA c d * coeffC c p)) / coeffA c d ∨
        t = (-coeffB c p d + Real.sqrt (coeffB c p d * coeffB c p d - coeffA c d * coeffC c p)) / coeffA c d := by
      intro t
      rw [← quadratic_roots _ _ _ t hA h1.1, ← ellipse_line, sub_eq_zero]
    have r1 : ∀ x : ℝ, (-(coeffB c p d + s * coeffA c d) - x) * (1 / coeffA c d) + s = (-coeffB c p d - x) / coeffA c d := by
      intro x; field_simp; ring
    have r2 : ∀ x : ℝ, (-(coeffB c p d + s * coeffA c d) + x) * (1 / coeffA c d) + s = (-coeffB c p d + x) / coeffA c d := by
      intro x; field_simp; ring
    rw [r1, r2, List.mem_append, mem_barrelHit, mem_barrelHit]
    constructor
    · rintro (h2 | h2)
      · exact ⟨h1.1, h1.2, _, (e _).2 (Or.inl rfl), h2.1, h2.2⟩
      · exact ⟨h1.1, h1.2, _, (e _).2 (Or.inr rfl), h2.1, h2.2⟩
    · rintro ⟨_, _, t, h2, h3, h4⟩
      rcases (e t).1 h2 with h5 | h5
      · left; rw [← h5]; exact ⟨h3, h4⟩
      · right; rw [← h5]; exact ⟨h3, h4⟩
  · next h1 =>
    simp only [List.not_mem_nil, false_iff]
    exact fun h2 => h1 ⟨h2.1, h2.2.1⟩

theorem mem_cap (c : ETube) (p d : Vec3 ℝ) (zcap : ℝ) (f : Bool) (h : Isect) : h ∈ cap c p d zcap f ↔
    precision < |d.z| ∧ ∃ t, (p + Vec3.smul t d).z = zcap ∧ ellipse c (p + Vec3.smul t d) ≤ 1 + precision ∧
      h = ⟨t, 0, f, p + Vec3.smul t d⟩ := by
  unfold cap
  by_cases h1 : |d.z| > precision
  · have h0 : d.z ≠ 0 := fun e => by rw [e, abs_zero] at h1; linarith [precision_pos]
    rw [if_pos h1]
    have ht : ∀ t, (p + Vec3.smul t d).z = zcap ↔ t = (zcap - p.z) / d.z := by
      intro t
      rw [eq_div_iff h0, Vec3.add_z, Vec3.smul_z]; constructor <;> intro h <;> linarith
    obtain ⟨t0, ht0⟩ : ∃ t0, t0 = (zcap - p.z) / d.z := ⟨_, rfl⟩
    simp only [ht, ← ht0]
    have hz : zcap = (p + Vec3.smul t0 d).z := ((ht t0).2 ht0).symm
    have ee := ellipse_eq c (p + Vec3.smul t0 d)
    simp only [Vec3.add_x, Vec3.add_y, Vec3.smul_x, Vec3.smul_y] at ee
    rw [ee]
    have ep : (⟨p.x + t0 * d.x, p.y + t0 * d.y, zcap⟩ : Vec3 ℝ) = p + Vec3.smul t0 d := by rw [hz]; rfl
    rw [ep]
    split
    · next h2 =>
      simp only [List.mem_singleton]
      constructor
      · intro h3; exact ⟨h1, t0, rfl, h2, h3⟩
      · rintro ⟨_, t, rfl, _, h3⟩; exact h3
    · next h2 =>
      simp only [List.not_mem_nil, false_iff]
      rintro ⟨_, t, rfl, h3, _⟩
      exact h2 h3
  · rw [if_neg h1]
    simp only [List.not_mem_nil, false_iff]
    exact fun h2 => h1 h2.1

theorem make_spec {dx dy dz : ℝ} {c : ETube} (hc : make dx dy dz = some c) : 0 < c.dx ∧ 0 < c.dy ∧ 0 < c.dz := by
  unfold make at hc
  split at hc
  · simp at hc
  · next h =>
    simp only [Option.some.injEq] at hc
    subst hc
    push Not at h
    exact h

theorem inside_iff (c : ETube) (p d : Vec3 ℝ) (u : ℝ) : Inside c (p + Vec3.smul u d) ↔
    coeffA c d * u ^ 2 + 2 * coeffB c p d * u + coeffC c p < 0 ∧ (p.z - c.dz) + u * d.z < 0 ∧ (-p.z - c.dz) + u * -d.z < 0 := by
  rw [← ellipse_line, Inside, abs_lt, sub_neg, Vec3.add_z, Vec3.smul_z]
  constructor
  · rintro ⟨h1, h2, h3⟩; exact ⟨h1, by linarith, by linarith⟩
  · rintro ⟨h1, h2, h3⟩; exact ⟨h1, by linarith, by linarith⟩

/-- Every crossing found is a change between inside and outside. -/
theorem raw_flips (c : ETube) (hz : 0 < c.dz) (p d : Vec3 ℝ) (hr : ClearOfRims c p d) (h : Isect) (hh : h ∈ raw c p d) :
    Flips (fun u => Inside c (p + Vec3.smul u d)) h.distance h.entering := by
  have hne : ∀ b : ℝ, precision < |b| → b ≠ 0 := fun b hb e => by rw [e, abs_zero] at hb; linarith [precision_pos]
  simp only [inside_iff]
  rw [raw, List.mem_append, List.mem_append, mem_barrel, mem_cap, mem_cap] at hh
  rcases hh with (⟨h1, h2, t, h3, h4, rfl⟩ | ⟨h1, t, h2, h3, rfl⟩) | ⟨h1, t, h2, h3, rfl⟩
  · have h5 := ((hr t).1 h3).resolve_right (not_lt.2 h4)
    rw [abs_lt, Vec3.add_z, Vec3.smul_z] at h5
    refine (quadratic_flips_disc _ _ _ t h1 (by rw [← ellipse_line, h3, sub_self])).and ?_
    exact (eventually_neg (f := fun u => (p.z - c.dz) + u * d.z) (by fun_prop) (by linarith [h5.2])).and
      (eventually_neg (f := fun u => (-p.z - c.dz) + u * -d.z) (by fun_prop) (by linarith [h5.1]))
  · have h5 := ((hr t).2 (by rw [h2, abs_of_pos hz])).resolve_right (not_lt.2 h3)
    rw [Vec3.add_z, Vec3.smul_z] at h2
    refine Flips.and' ?_ (eventually_neg (f := fun u => coeffA c d * u ^ 2 + 2 * coeffB c p d * u + coeffC c p) (by fun_prop)
      (by rw [← ellipse_line]; linarith))
    exact (linear_flips (p.z - c.dz) d.z t (by linarith) (hne _ h1)).and
      (eventually_neg (f := fun u => (-p.z - c.dz) + u * -d.z) (by fun_prop) (by linarith))
  · have h5 := ((hr t).2 (by rw [h2, abs_neg, abs_of_pos hz])).resolve_right (not_lt.2 h3)
    rw [Vec3.add_z, Vec3.smul_z] at h2
    refine Flips.and' ?_ (eventually_neg (f := fun u => coeffA c d * u ^ 2 + 2 * coeffB c p d * u + coeffC c p) (by fun_prop)
      (by rw [← ellipse_line]; linarith))
    have := (linear_flips (-p.z - c.dz) (-d.z) t (by linarith) (neg_ne_zero.2 (hne _ h1))).and'
      (eventually_neg (f := fun u => (p.z - c.dz) + u * d.z) (by fun_prop) (by linarith))
    simpa only [neg_lt_zero] using this

/-- No change is missed. -/
theorem raw_steady (c : ETube) (p d : Vec3 ℝ) (hn : NotNearlyParallel c d) (t : ℝ)
    (ht : ∀ h ∈ raw c p d, h.distance ≠ t) : Steady (fun u => Inside c (p + Vec3.smul u d)) t := by
  simp only [inside_iff]
  have nb : ¬ (_ ∧ _ ∧ _ ∧ _) := fun hm => ht _ (List.mem_append_left _ (List.mem_append_left _ ((mem_barrel c p d _).2
    ⟨hm.1, hm.2.1, t, hm.2.2.1, hm.2.2.2, rfl⟩))) rfl
  have nt : ¬ (_ ∧ _ ∧ _) := fun hm => ht _ (List.mem_append_left _ (List.mem_append_right _ ((mem_cap c p d c.dz _ _).2
    ⟨hm.1, t, hm.2.1, hm.2.2, rfl⟩))) rfl
  have nl : ¬ (_ ∧ _ ∧ _) := fun hm => ht _ (List.mem_append_right _ ((mem_cap c p d (-c.dz) _ _).2
    ⟨hm.1, t, hm.2.1, hm.2.2, rfl⟩)) rfl
  -- outside by one of the conditions near `t`, or nothing is zero
  by_cases hE : 1 < ellipse c (p + Vec3.smul t d)
  · right
    have : 0 < coeffA c d * t ^ 2 + 2 * coeffB c p d * t + coeffC c p := by rw [← ellipse_line]; linarith
    filter_upwards [eventually_pos (f := fun u => coeffA c d * u ^ 2 + 2 * coeffB c p d * u + coeffC c p) (by fun_prop) this]
      with u hu hc
    exact absurd hc.1 (not_lt.2 hu.le)
  by_cases hT : 0 < (p.z - c.dz) + t * d.z
  · right
    filter_upwards [eventually_pos (f := fun u => (p.z - c.dz) + u * d.z) (by fun_prop) hT] with u hu hc
    exact absurd hc.2.1 (not_lt.2 hu.le)
  by_cases hL : 0 < (-p.z - c.dz) + t * -d.z
  · right
    filter_upwards [eventually_pos (f := fun u => (-p.z - c.dz) + u * -d.z) (by fun_prop) hL] with u hu hc
    exact absurd hc.2.2 (not_lt.2 hu.le)
  push Not at hE hT hL
  have hzle : |(p + Vec3.smul t d).z| ≤ c.dz := by
    rw [abs_le, Vec3.add_z, Vec3.smul_z]; constructor <;> linarith
  by_cases hE0 : ellipse c (p + Vec3.smul t d) = 1
  · right
    have hq : 0 ≤ coeffA c d := coeffA_nonneg c d
    by_cases hA : d.x = 0 ∧ d.y = 0
    · refine Eventually.of_forall fun u hc => ?_
      have e : ∀ w, ellipse c (p + Vec3.smul w d) = ellipse c p := by
        intro w; unfold ellipse; simp [hA.1, hA.2]
      have h1 := hc.1
      rw [← ellipse_line, e] at h1
      rw [e] at hE0
      linarith
    · have hA2 : precision * precision < coeffA c d := by
        have := hn.1.resolve_left hA
        rw [coeffA_eq, ← sq]; exact this
      have hA3 : 0 < coeffA c d := lt_trans (mul_pos precision_pos precision_pos) hA2
      have hD : ¬ 0 < coeffB c p d * coeffB c p d - coeffA c d * coeffC c p := fun hD =>
        nb ⟨hD, hA2, hE0, hzle.trans (by linarith [precision_pos])⟩
      refine Eventually.of_forall fun u hc => ?_
      exact absurd hc.1 (not_lt.2 (quadratic_nonneg _ _ _ hA3 (not_lt.1 hD) u))
  have hE1 : ellipse c (p + Vec3.smul t d) < 1 := lt_of_le_of_ne hE hE0
  rcases hT.lt_or_eq with hT | hT
  · rcases hL.lt_or_eq with hL | hL
    · left
      exact (eventually_neg (f := fun u => coeffA c d * u ^ 2 + 2 * coeffB c p d * u + coeffC c p) (by fun_prop)
        (by rw [← ellipse_line]; linarith)).and ((eventually_neg (f := fun u => (p.z - c.dz) + u * d.z) (by fun_prop) hT).and
        (eventually_neg (f := fun u => (-p.z - c.dz) + u * -d.z) (by fun_prop) hL))
    · by_cases hd : d.z = 0
      · right
        refine Eventually.of_forall fun u hc => ?_
        have := hc.2.2
        rw [hd] at this hL; linarith
      · exact absurd ⟨hn.2.resolve_left hd, by rw [Vec3.add_z, Vec3.smul_z]; linarith, by linarith [precision_pos]⟩ nl
  · by_cases hd : d.z = 0
    · right
      refine Eventually.of_forall fun u hc => ?_
      have := hc.2.1
      rw [hd] at this hT; linarith
    · exact absurd ⟨hn.2.resolve_left hd, by rw [Vec3.add_z, Vec3.smul_z]; linarith, by linarith [precision_pos]⟩ nt

theorem barrelHit_distance (c : ETube) (p d : Vec3 ℝ) (t : ℝ) (h : Isect) (hh : h ∈ barrelHit c p d t) : h.distance = t := by
  rw [((mem_barrelHit c p d t h).1 hh).2]

theorem barrelHit_nodup (c : ETube) (p d : Vec3 ℝ) (t : ℝ) : ((barrelHit c p d t).map Isect.distance).Nodup := by
  unfold barrelHit; simp only; split <;> simp

theorem cap_nodup (c : ETube) (p d : Vec3 ℝ) (z : ℝ) (f : Bool) : ((cap c p d z f).map Isect.distance).Nodup := by
  unfold cap; simp only; split_ifs <;> simp

/-- The crossings found are at different distances. -/
theorem raw_nodup (c : ETube) (hz : 0 < c.dz) (p d : Vec3 ℝ) (hr : ClearOfRims c p d) : ((raw c p d).map Isect.distance).Nodup := by
  have hb : ((barrel c p d).map Isect.distance).Nodup := by
    unfold barrel
    simp only
    split
    · next h1 =>
      have hA : 0 < coeffA c d := lt_trans (mul_pos precision_pos precision_pos) h1.2
      rw [List.map_append, List.nodup_append]
      refine ⟨barrelHit_nodup _ _ _ _, barrelHit_nodup _ _ _ _, ?_⟩
      intro a ha b hb
      obtain ⟨h, hh, rfl⟩ := List.mem_map.1 ha
      obtain ⟨g, hg, rfl⟩ := List.mem_map.1 hb
      rw [barrelHit_distance _ _ _ _ _ hh, barrelHit_distance _ _ _ _ _ hg]
      have hs := Real.sqrt_pos.2 h1.1
      refine ne_of_lt ?_
      have hinv : 0 < 1 / coeffA c d := one_div_pos.2 hA
      rw [add_lt_add_iff_right]
      exact mul_lt_mul_of_pos_right (by linarith) hinv
    · simp
  unfold raw
  rw [List.map_append, List.map_append, List.nodup_append, List.nodup_append]
  refine ⟨⟨hb, cap_nodup _ _ _ _ _, ?_⟩, cap_nodup _ _ _ _ _, ?_⟩
  · intro a ha b hb
    obtain ⟨h, hh, rfl⟩ := List.mem_map.1 ha
    obtain ⟨g, hg, rfl⟩ := List.mem_map.1 hb
    obtain ⟨h1, h2, t, h3, h4, rfl⟩ := (mem_barrel c p d h).1 hh
    obtain ⟨g1, u, g2, g3, rfl⟩ := (mem_cap c p d _ _ g).1 hg
    intro e
    have e : t = u := e
    subst e
    have := ((hr t).1 h3).resolve_right (not_lt.2 h4)
    rw [g2, abs_of_pos hz] at this
    exact lt_irrefl _ this
  · intro a ha b hb
    obtain ⟨g, hg, rfl⟩ := List.mem_map.1 hb
    obtain ⟨g1, u, g2, g3, rfl⟩ := (mem_cap c p d _ _ g).1 hg
    rw [List.mem_append] at ha
    rcases ha with ha | ha
    · obtain ⟨h, hh, rfl⟩ := List.mem_map.1 ha
      obtain ⟨h1, h2, t, h3, h4, rfl⟩ := (mem_barrel c p d h).1 hh
      intro e
      have e : t = u := e
      subst e
      have := ((hr t).1 h3).resolve_right (not_lt.2 h4)
      rw [g2, abs_neg, abs_of_pos hz] at this
      exact lt_irrefl _ this
    · obtain ⟨h, hh, rfl⟩ := List.mem_map.1 ha
      obtain ⟨h1, t, h2, h3, rfl⟩ := (mem_cap c p d _ _ h).1 hh
      intro e
      have e : t = u := e
      subst e
      rw [h2] at g2
      linarith

theorem abs_le_of_sq_div (x a : ℝ) (ha : 0 < a) (h : (x / a) ^ 2 ≤ 1) : |x| ≤ a := by
  rw [div_pow, div_le_one (by positivity)] at h
  exact abs_le_of_sq_le_sq' h ha.le |> abs_le.2

theorem mem_bounds (c : ETube) (h1 : 0 < c.dx) (h2 : 0 < c.dy) (v : Vec3 ℝ) (h : Mem c v) : |v.x| ≤ c.dx ∧ |v.y| ≤ c.dy ∧ |v.z| ≤ c.dz := by
  obtain ⟨he, hz⟩ := h
  unfold ellipse at he
  exact ⟨abs_le_of_sq_div _ _ h1 (by linarith [sq_nonneg (v.y / c.dy)]), abs_le_of_sq_div _ _ h2 (by linarith [sq_nonneg (v.x / c.dx)]), hz⟩

theorem bounded (c : ETube) (hx : 0 < c.dx) (hy : 0 < c.dy) (p d : Vec3 ℝ) (hd : d ≠ 0) :
    ∃ M, ∀ u, Inside c (p + Vec3.smul u d) → |u| ≤ M := by
  have hb : ∀ v, Inside c v → |v.x| ≤ c.dx ∧ |v.y| ≤ c.dy ∧ |v.z| ≤ c.dz := fun v hv => mem_bounds c hx hy v ⟨hv.1.le, hv.2.le⟩
  by_cases h1 : d.x = 0
  · by_cases h2 : d.y = 0
    · have h3 : d.z ≠ 0 := fun h3 => hd (Vec3.ext h1 h2 h3)
      exact ⟨(c.dz + |p.z|) / |d.z|, fun u hu => bounded_coordinate p.z d.z _ u h3 (hb _ hu).2.2⟩
    · exact ⟨(c.dy + |p.y|) / |d.y|, fun u hu => bounded_coordinate p.y d.y _ u h2 (hb _ hu).2.1⟩
  · exact ⟨(c.dx + |p.x|) / |d.x|, fun u hu => bounded_coordinate p.x d.x _ u h1 (hb _ hu).1⟩

/-! ### Theorems -/

/-- C100: for every elliptical tube that can be constructed and every line that is clear of the rims and not nearly parallel
to the axis or the caps without being parallel to them, the reported crossings are in increasing order, enter and leave in
turn, and say "inside" exactly where the line is inside; each lies on the line at its distance. -/
theorem C100_describes (srt : List Isect → List Isect) (hsrt : IsIsectSort srt) (dx dy dz : ℝ) (c : ETube)
    (hc : make dx dy dz = some c) (p d : Vec3 ℝ) (hd : d ≠ 0) (hn : NotNearlyParallel c d) (hr : ClearOfRims c p d) :
    Describes precision (fun t => Inside c (p + Vec3.smul t d)) (compute srt c p d) ∧
      ∀ h ∈ compute srt c p d, h.position = p + Vec3.smul h.distance d := by
  obtain ⟨hx, hy, hz⟩ := make_spec hc
  obtain ⟨M, hM⟩ := bounded c hx hy p d hd
  refine ⟨describes_of_exact srt hsrt (raw c p d) (raw_nodup c hz p d hr) (raw_flips c hz p d hr) (raw_steady c p d hn) M hM, ?_⟩
  intro h hh
  have hh := (hsrt _).1.mem_iff.1 hh
  rw [raw, List.mem_append, List.mem_append, mem_barrel, mem_cap, mem_cap] at hh
  rcases hh with (⟨h1, h2, t, h3, h4, rfl⟩ | ⟨h1, t, h2, h3, rfl⟩) | ⟨h1, t, h2, h3, rfl⟩ <;> rfl

/-- C100: at most four crossings are found, as many as the array holds. -/
theorem C100_capacity (c : ETube) (p d : Vec3 ℝ) : (raw c p d).length ≤ 4 := by
  have h1 : ∀ t, (barrelHit c p d t).length ≤ 1 := by intro t; unfold barrelHit; simp only; split <;> simp
  have h2 : ∀ z f, (cap c p d z f).length ≤ 1 := by intros; unfold cap; simp only; split_ifs <;> simp
  have h3 : (barrel c p d).length ≤ 2 := by
    unfold barrel; simp only
    split
    · rw [List.length_append]; exact Nat.add_le_add (h1 _) (h1 _)
    · simp
  unfold raw
  rw [List.length_append, List.length_append]
  have := h2 c.dz (decide (d.z < 0)); have := h2 (-c.dz) (decide (d.z > 0))
  omega

/-- C100: the bounding box is the smallest that contains the tube. -/
theorem C100_bounding_box (dx dy dz : ℝ) (c : ETube) (hc : make dx dy dz = some c) :
    (∀ v, Mem c v → AABB.Mem v (boundingBox c)) ∧
    (∀ b : AABB ℝ, (∀ v, Mem c v → AABB.Mem v b) → AABB.Sub (boundingBox c) b) := by
  obtain ⟨hx, hy, hz⟩ := make_spec hc
  refine ⟨fun v h => ?_, fun b hb => ?_⟩
  · obtain ⟨h1, h2, h3⟩ := mem_bounds c hx hy v h
    exact ⟨abs_le.1 h1, abs_le.1 h2, abs_le.1 h3⟩
  · have e1 : |c.dz| ≤ c.dz := (abs_of_pos hz).le
    have e2 : |-c.dz| ≤ c.dz := by rw [abs_neg]; exact e1
    have a1 := hb ⟨c.dx, 0, c.dz⟩ ⟨by simp [ellipse, hx.ne'], e1⟩
    have a2 := hb ⟨-c.dx, 0, -c.dz⟩ ⟨by simp [ellipse, hx.ne'], e2⟩
    have a3 := hb ⟨0, c.dy, c.dz⟩ ⟨by simp [ellipse, hy.ne'], e1⟩
    have a4 := hb ⟨0, -c.dy, -c.dz⟩ ⟨by simp [ellipse, hy.ne'], e2⟩
    exact ⟨⟨a2.1.1, a1.1.2⟩, ⟨a4.2.1.1, a3.2.1.2⟩, ⟨a2.2.2.1, a1.2.2.2⟩⟩

/-- An oblique line in through the barrel and out through the top meets the hypotheses of C100. -/
example : ∃ c, make 2 1 1 = some c ∧ NotNearlyParallel c ⟨1, 0, 1 / 2⟩ ∧ ClearOfRims c ⟨-3, 0, -1 / 2⟩ ⟨1, 0, 1 / 2⟩ ∧
    raw c ⟨-3, 0, -1 / 2⟩ ⟨1, 0, 1 / 2⟩ = [⟨1, 0, true, ⟨-2, 0, 0⟩⟩, ⟨3, 0, false, ⟨0, 0, 1⟩⟩] := by
  have hE : ∀ t : ℝ, ellipse ⟨2, 1, 1⟩ ((⟨-3, 0, -1 / 2⟩ : Vec3 ℝ) + Vec3.smul t ⟨1, 0, 1 / 2⟩) = (t - 3) ^ 2 / 4 := by
    intro t; simp [ellipse]; ring
  have hZ : ∀ t : ℝ, ((⟨-3, 0, -1 / 2⟩ : Vec3 ℝ) + Vec3.smul t ⟨1, 0, 1 / 2⟩).z = (t - 1) / 2 := by
    intro t; simp; ring
  refine ⟨⟨2, 1, 1⟩, ?_, ?_, ?_, ?_⟩
  · unfold make; rw [if_neg (by norm_num)]
  · constructor
    · right; norm_num [precision]
    · right; norm_num [precision]
  · intro t
    rw [hE, hZ]
    constructor
    · intro h
      have : (t - 1) * (t - 5) = 0 := by linarith [h]
      rcases mul_eq_zero.1 this with h | h
      · left; rw [h]; norm_num
      · right; rw [show t - 1 = 4 by linarith]; norm_num [precision]
    · intro h
      rcases (abs_eq (by norm_num)).1 h with h | h
      · left; rw [show t = 3 by linarith]; norm_num
      · right; rw [show t = -1 by linarith]; norm_num [precision]
  · have s : Real.sqrt (1 / 4) = 1 / 2 := by
      rw [show (1 / 4 : ℝ) = (1 / 2) ^ 2 by norm_num]; exact Real.sqrt_sq (by norm_num)
    unfold raw barrel cap barrelHit coeffA coeffB coeffC precision
    norm_num [s]

/-- Where a line passes through a rim, barrel and cap both report it: here twice in, twice out. -/
theorem C100_rim_fails : ∃ c, make 1 1 1 = some c ∧ NotNearlyParallel c ⟨1, 0, 1⟩ ∧
    (∀ t : ℝ, Inside c ((⟨-2, 0, -2⟩ : Vec3 ℝ) + Vec3.smul t ⟨1, 0, 1⟩) ↔ 1 < t ∧ t < 3) ∧
    ∀ srt, IsIsectSort srt → (compute srt c ⟨-2, 0, -2⟩ ⟨1, 0, 1⟩).length = 4 ∧
      ¬ Describes precision (fun t => Inside c ((⟨-2, 0, -2⟩ : Vec3 ℝ) + Vec3.smul t ⟨1, 0, 1⟩)) (compute srt c ⟨-2, 0, -2⟩ ⟨1, 0, 1⟩) := by
  have hraw : (raw ⟨1, 1, 1⟩ ⟨-2, 0, -2⟩ ⟨1, 0, 1⟩).map Isect.distance = [1, 3, 3, 1] := by
    unfold raw barrel cap barrelHit coeffA coeffB coeffC precision
    norm_num
  refine ⟨⟨1, 1, 1⟩, ?_, ?_, ?_, ?_⟩
  · unfold make; rw [if_neg (by norm_num)]
  · constructor
    · right; norm_num [precision]
    · right; norm_num [precision]
  · intro t
    simp only [Inside, ellipse, Vec3.add_x, Vec3.add_y, Vec3.add_z, Vec3.smul_x, Vec3.smul_y, Vec3.smul_z, abs_lt]
    constructor
    · rintro ⟨_, h1, h2⟩; constructor <;> linarith
    · rintro ⟨h1, h2⟩; refine ⟨by nlinarith, by linarith, by linarith⟩
  · intro srt hsrt
    have hp := (hsrt (raw ⟨1, 1, 1⟩ ⟨-2, 0, -2⟩ ⟨1, 0, 1⟩)).1.map Isect.distance
    rw [hraw] at hp
    refine ⟨?_, fun h => ?_⟩
    · have := hp.length_eq; rw [List.length_map] at this; exact this
    · have hn : ((compute srt ⟨1, 1, 1⟩ ⟨-2, 0, -2⟩ ⟨1, 0, 1⟩).map Isect.distance).Nodup := by
        rw [List.Nodup, List.pairwise_map]
        exact h.strict.imp fun h => ne_of_lt h
      unfold compute at hn
      rw [hp.nodup_iff] at hn
      norm_num at hn

end Siren.Geometry.EllipticalTube
