import Verif.Geometry.Convex
import Verif.Geometry.Cylinder

set_option autoImplicit false

/-!
# C101: ellipsoids, cut by two horizontal planes

Models `geometry/private/Ellipsoid.cxx`. Real square root instead of `std::sqrt`.
-/

namespace Siren.Geometry.Ellipsoid

open Siren Siren.Geometry Filter

/-! ### Model -/

/-- The members of `Ellipsoid` (geometry/public/SIREN/geometry/Ellipsoid.h). -/
structure Ell where
  ax : ℝ
  by' : ℝ
  cz : ℝ
  zcut1 : ℝ
  zcut2 : ℝ

/-- The constructor with three numbers (geometry/private/Ellipsoid.cxx:21-24, 36-39); `none` is `std::invalid_argument`. -/
noncomputable def make (ax by' cz : ℝ) : Option Ell :=
  if ax ≤ 0 ∨ by' ≤ 0 ∨ cz ≤ 0 then none else some ⟨ax, by', cz, -cz, cz⟩

/-- A cut is moved to the nearest pole if it is outside (geometry/private/Ellipsoid.cxx:28-31, 43-46). -/
noncomputable def clampCut (cz z : ℝ) : ℝ :=
  let z := if z < -cz then -cz else z
  if z > cz then cz else z

/-- The constructor with cuts (geometry/private/Ellipsoid.cxx:25-34, 40-49); `none` is `std::invalid_argument`. -/
noncomputable def makeCut (ax by' cz zcut1 zcut2 : ℝ) : Option Ell :=
  if ax ≤ 0 ∨ by' ≤ 0 ∨ cz ≤ 0 then none
  else if clampCut cz zcut1 ≥ clampCut cz zcut2 then none
  else some ⟨ax, by', cz, clampCut cz zcut1, clampCut cz zcut2⟩

/-- The coefficient `A` (geometry/private/Ellipsoid.cxx:80-82, 91). -/
noncomputable def coeffA (c : Ell) (d : Vec3 ℝ) : ℝ :=
  d.x * d.x * (1 / (c.ax * c.ax)) + d.y * d.y * (1 / (c.by' * c.by')) + d.z * d.z * (1 / (c.cz * c.cz))

/-- The coefficient `B` for a shifted origin (geometry/private/Ellipsoid.cxx:92). -/
noncomputable def coeffB (c : Ell) (q d : Vec3 ℝ) : ℝ :=
  q.x * d.x * (1 / (c.ax * c.ax)) + q.y * d.y * (1 / (c.by' * c.by')) + q.z * d.z * (1 / (c.cz * c.cz))

/-- The coefficient `C` for a shifted origin (geometry/private/Ellipsoid.cxx:93). -/
noncomputable def coeffC (c : Ell) (q : Vec3 ℝ) : ℝ :=
  q.x * q.x * (1 / (c.ax * c.ax)) + q.y * q.y * (1 / (c.by' * c.by')) + q.z * q.z * (1 / (c.cz * c.cz)) - 1

/-- One root on the ellipsoid (geometry/private/Ellipsoid.cxx:109-134): the exact parameter with its flag; cuts and flag are
checked at the parameter moved to the start as in `report`. -/
noncomputable def surfaceHit (c : Ell) (p d : Vec3 ℝ) (t : ℝ) : List (ℝ × Bool) :=
  let ix := p.x + snap t * d.x
  let iy := p.y + snap t * d.y
  let iz := p.z + snap t * d.z
  if iz ≥ c.zcut1 - precision ∧ iz ≤ c.zcut2 + precision then
    let nx := ix * (1 / (c.ax * c.ax))
    let ny := iy * (1 / (c.by' * c.by'))
    let nz := iz * (1 / (c.cz * c.cz))
    [(t, decide (nx * d.x + ny * d.y + nz * d.z < 0))]
  else []

/-- The ellipsoid itself (geometry/private/Ellipsoid.cxx:80-135). -/
noncomputable def surface (c : Ell) (p d : Vec3 ℝ) : List (ℝ × Bool) :=
  let shift := -(p.x * d.x + p.y * d.y + p.z * d.z)
  let q : Vec3 ℝ := ⟨p.x + shift * d.x, p.y + shift * d.y, p.z + shift * d.z⟩
  let A := coeffA c d
  let B := coeffB c q d
  let C := coeffC c q
  let disc := B * B - A * C
  if disc ≥ 0 then
    let sq := Real.sqrt disc
    let inv := 1 / A
    surfaceHit c p d ((-B - sq) * inv + shift) ++ surfaceHit c p d ((-B + sq) * inv + shift)
  else []

/-- A cut (geometry/private/Ellipsoid.cxx:139-160, 163-183). -/
noncomputable def cut (c : Ell) (p d : Vec3 ℝ) (zcut : ℝ) (entering : Bool) : List (ℝ × Bool) :=
  if |d.z| > precision then
    let t := (zcut - p.z) / d.z
    let ix := p.x + snap t * d.x
    let iy := p.y + snap t * d.y
    let iz := p.z + snap t * d.z
    let val := ix * ix * (1 / (c.ax * c.ax)) + iy * iy * (1 / (c.by' * c.by')) + iz * iz * (1 / (c.cz * c.cz))
    if val ≤ 1 + precision then [(t, entering)] else []
  else []

/-- The crossings in the order in which they are found (geometry/private/Ellipsoid.cxx:97-183). -/
noncomputable def raw (c : Ell) (p d : Vec3 ℝ) : List (ℝ × Bool) :=
  surface c p d ++ cut c p d c.zcut1 (decide (d.z > 0)) ++ cut c p d c.zcut2 (decide (d.z < 0))

/-- `Ellipsoid::ComputeIntersections` (geometry/private/Ellipsoid.cxx:62-198); `srt` is `std::sort`, and the loop at the end
(190-196) is the one of `Cylinder::ComputeIntersections`. -/
noncomputable def compute (srt : List Isect → List Isect) (c : Ell) (p d : Vec3 ℝ) : List Isect :=
  Cylinder.dedup none (srt ((raw c p d).map (report p d)))

/-- `Ellipsoid::GetBoundingBox` (geometry/private/Ellipsoid.cxx:201-215). -/
noncomputable def boundingBox (c : Ell) : AABB ℝ :=
  let z := if (0 : ℝ) < c.zcut1 then c.zcut1 else if c.zcut2 < 0 then c.zcut2 else 0
  let frac := z * z / (c.cz * c.cz)
  let scale := Real.sqrt (max 0 (1 - frac))
  ⟨⟨-(c.ax * scale), -(c.by' * scale), c.zcut1⟩, ⟨c.ax * scale, c.by' * scale, c.zcut2⟩⟩

/-! ### Specification -/

/-- The equation of the ellipsoid: 1 on it, less inside. -/
noncomputable def ellipsoid (c : Ell) (v : Vec3 ℝ) : ℝ := (v.x / c.ax) ^ 2 + (v.y / c.by') ^ 2 + (v.z / c.cz) ^ 2

/-- The inside of the solid. -/
def Inside (c : Ell) (v : Vec3 ℝ) : Prop := ellipsoid c v < 1 ∧ c.zcut1 < v.z ∧ v.z < c.zcut2

/-- The solid with its surface. -/
def Mem (c : Ell) (v : Vec3 ℝ) : Prop := ellipsoid c v ≤ 1 ∧ c.zcut1 ≤ v.z ∧ v.z ≤ c.zcut2

/-- The surface of the solid. -/
def OnSurface (c : Ell) (v : Vec3 ℝ) : Prop := Mem c v ∧ (ellipsoid c v = 1 ∨ v.z = c.zcut1 ∨ v.z = c.zcut2)

/-- Wherever the line meets the ellipsoid it is clearly between the cuts or clearly not, and wherever it meets a cut it is
clearly within the ellipsoid or clearly not, the latter by more than the tolerance. -/
def ClearOfRims (c : Ell) (p d : Vec3 ℝ) : Prop :=
  ∀ t : ℝ,
    (ellipsoid c (p + Vec3.smul t d) = 1 → Clearly (fun u => c.zcut1 < (p + Vec3.smul u d).z ∧ (p + Vec3.smul u d).z < c.zcut2)
      (fun u => c.zcut1 - precision ≤ (p + Vec3.smul u d).z ∧ (p + Vec3.smul u d).z ≤ c.zcut2 + precision) t) ∧
    ((p + Vec3.smul t d).z = c.zcut1 ∨ (p + Vec3.smul t d).z = c.zcut2 → Clearly (fun u => ellipsoid c (p + Vec3.smul u d) < 1)
      (fun u => ellipsoid c (p + Vec3.smul u d) ≤ 1 + precision) t)

/-- The line does not touch the ellipsoid without passing through it. -/
def NotTangent (c : Ell) (p d : Vec3 ℝ) : Prop :=
  ∀ t : ℝ, ellipsoid c (p + Vec3.smul t d) = 1 → ∃ u, ellipsoid c (p + Vec3.smul u d) < 1

/-- Different crossings of the ellipsoid, and of the surface of the solid, are at least twice the tolerance apart. -/
def Apart (c : Ell) (p d : Vec3 ℝ) : Prop :=
  ∀ s t : ℝ, s < t →
    (ellipsoid c (p + Vec3.smul s d) = 1 ∧ ellipsoid c (p + Vec3.smul t d) = 1 ∨
      OnSurface c (p + Vec3.smul s d) ∧ OnSurface c (p + Vec3.smul t d)) → s + 2 * precision ≤ t

/-! ### Proofs -/

theorem ellipsoid_eq (c : Ell) (v : Vec3 ℝ) :
    v.x * v.x * (1 / (c.ax * c.ax)) + v.y * v.y * (1 / (c.by' * c.by')) + v.z * v.z * (1 / (c.cz * c.cz)) = ellipsoid c v := by
  unfold ellipsoid; rw [div_pow, div_pow, div_pow]; ring

theorem ellipsoid_line (c : Ell) (p d : Vec3 ℝ) (u : ℝ) :
    ellipsoid c (p + Vec3.smul u d) - 1 = coeffA c d * u ^ 2 + 2 * coeffB c p d * u + coeffC c p := by
  rw [← ellipsoid_eq]
  unfold coeffA coeffB coeffC
  simp only [Vec3.add_x, Vec3.add_y, Vec3.add_z, Vec3.smul_x, Vec3.smul_y, Vec3.smul_z]
  ring

theorem shift_disc (c : Ell) (p d : Vec3 ℝ) (s : ℝ) :
    coeffB c ⟨p.x + s * d.x, p.y + s * d.y, p.z + s * d.z⟩ d * coeffB c ⟨p.x + s * d.x, p.y + s * d.y, p.z + s * d.z⟩ d -
      coeffA c d * coeffC c ⟨p.x + s * d.x, p.y + s * d.y, p.z + s * d.z⟩ = coeffB c p d * coeffB c p d - coeffA c d * coeffC c p := by
  unfold coeffA coeffB coeffC
  ring

theorem shift_B (c : Ell) (p d : Vec3 ℝ) (s : ℝ) :
    coeffB c ⟨p.x + s * d.x, p.y + s * d.y, p.z + s * d.z⟩ d = coeffB c p d + s * coeffA c d := by
  unfold coeffA coeffB
  ring

theorem coeffA_pos (c : Ell) (h1 : 0 < c.ax) (h2 : 0 < c.by') (h3 : 0 < c.cz) (d : Vec3 ℝ) (hd : d ≠ 0) : 0 < coeffA c d := by
  have e : coeffA c d = (d.x / c.ax) ^ 2 + (d.y / c.by') ^ 2 + (d.z / c.cz) ^ 2 := by
    unfold coeffA; rw [div_pow, div_pow, div_pow]; ring
  rw [e]
  by_contra h
  have a1 := sq_nonneg (d.x / c.ax); have a2 := sq_nonneg (d.y / c.by'); have a3 := sq_nonneg (d.z / c.cz)
  have b1 : (d.x / c.ax) ^ 2 = 0 := by linarith
  have b2 : (d.y / c.by') ^ 2 = 0 := by linarith
  have b3 : (d.z / c.cz) ^ 2 = 0 := by linarith
  refine hd (Vec3.ext ?_ ?_ ?_)
  · exact (div_eq_zero_iff.1 (pow_eq_zero_iff (two_ne_zero)|>.1 b1)).resolve_right h1.ne'
  · exact (div_eq_zero_iff.1 (pow_eq_zero_iff (two_ne_zero)|>.1 b2)).resolve_right h2.ne'
  · exact (div_eq_zero_iff.1 (pow_eq_zero_iff (two_ne_zero)|>.1 b3)).resolve_right h3.ne'

theorem mem_surfaceHit (c : Ell) (p d : Vec3 ℝ) (t : ℝ) (x : ℝ × Bool) : x ∈ surfaceHit c p d t ↔
    (c.zcut1 - precision ≤ (p + Vec3.smul (snap t) d).z ∧ (p + Vec3.smul (snap t) d).z ≤ c.zcut2 + precision) ∧
      x = (t, decide (coeffA c d * snap t + coeffB c p d < 0)) := by
  have e : (p.x + snap t * d.x) * (1 / (c.ax * c.ax)) * d.x + (p.y + snap t * d.y) * (1 / (c.by' * c.by')) * d.y +
      (p.z + snap t * d.z) * (1 / (c.cz * c.cz)) * d.z = coeffA c d * snap t + coeffB c p d := by
    unfold coeffA coeffB; ring
  unfold surfaceHit
  simp only [e]
  have ez : p.z + snap t * d.z = (p + Vec3.smul (snap t) d).z := rfl
  rw [ez]
  split
  · next h1 =>
    simp only [List.mem_singleton]
    exact ⟨fun h2 => ⟨h1, h2⟩, fun h2 => h2.2⟩
  · next h1 =>
    simp only [List.not_mem_nil, false_iff]
    exact fun h2 => h1 h2.1

/-- The two roots, in order. -/
theorem surface_eq (c : Ell) (p d : Vec3 ℝ) (hA : 0 < coeffA c d) :
    (0 ≤ coeffB c p d * coeffB c p d - coeffA c d * coeffC c p ∧ ∃ a b : ℝ, surface c p d = surfaceHit c p d a ++ surfaceHit c p d b ∧
      a = (-coeffB c p d - Real.sqrt (coeffB c p d * coeffB c p d - coeffA c d * coeffC c p)) / coeffA c d ∧
      b = (-coeffB c p d + Real.sqrt (coeffB c p d * coeffB c p d - coeffA c d * coeffC c p)) / coeffA c d) ∨
    (coeffB c p d * coeffB c p d - coeffA c d * coeffC c p < 0 ∧ surface c p d = []) := by
  unfold surface
  simp only [shift_disc]
  simp only [shift_B]
  obtain ⟨s, hs⟩ : ∃ s, s = -(p.x * d.x + p.y * d.y + p.z * d.z) := ⟨_, rfl⟩
  rw [← hs]
  split
  · next h1 =>
    left
    refine ⟨h1, _, _, rfl, ?_, ?_⟩
    · field_simp; ring
    · field_simp; ring
  · next h1 => exact Or.inr ⟨not_le.1 h1, rfl⟩

theorem mem_cut (c : Ell) (p d : Vec3 ℝ) (z : ℝ) (f : Bool) (x : ℝ × Bool) : x ∈ cut c p d z f ↔
    precision < |d.z| ∧ (p + Vec3.smul x.1 d).z = z ∧ ellipsoid c (p + Vec3.smul (snap x.1) d) ≤ 1 + precision ∧ x.2 = f := by
  obtain ⟨t, g⟩ := x
  unfold cut
  by_cases h1 : |d.z| > precision
  · have h0 : d.z ≠ 0 := fun e => by rw [e, abs_zero] at h1; linarith [precision_pos]
    rw [if_pos h1]
    have ht : ∀ t, (p + Vec3.smul t d).z = z ↔ t = (z - p.z) / d.z := by
      intro t
      rw [eq_div_iff h0, Vec3.add_z, Vec3.smul_z]; constructor <;> intro h <;> linarith
    obtain ⟨t0, ht0⟩ : ∃ t0, t0 = (z - p.z) / d.z := ⟨_, rfl⟩
    simp only [ht, ← ht0]
    have ee := ellipsoid_eq c (p + Vec3.smul (snap t0) d)
    simp only [Vec3.add_x, Vec3.add_y, Vec3.add_z, Vec3.smul_x, Vec3.smul_y, Vec3.smul_z] at ee
    rw [ee]
    split
    · next h2 =>
      simp only [List.mem_singleton, Prod.mk.injEq]
      constructor
      · rintro ⟨rfl, rfl⟩; exact ⟨h1, rfl, h2, rfl⟩
      · rintro ⟨_, h3, _, h4⟩; exact ⟨h3, h4⟩
    · next h2 =>
      simp only [List.not_mem_nil, false_iff]
      rintro ⟨_, rfl, h3, _⟩
      exact h2 h3
  · rw [if_neg h1]
    simp only [List.not_mem_nil, false_iff]
    exact fun h2 => h1 h2.1

theorem inside_iff (c : Ell) (p d : Vec3 ℝ) (u : ℝ) : Inside c (p + Vec3.smul u d) ↔
    coeffA c d * u ^ 2 + 2 * coeffB c p d * u + coeffC c p < 0 ∧ (p.z - c.zcut2) + u * d.z < 0 ∧ (c.zcut1 - p.z) + u * -d.z < 0 := by
  rw [← ellipsoid_line, Inside, sub_neg, Vec3.add_z, Vec3.smul_z]
  constructor
  · rintro ⟨h1, h2, h3⟩; exact ⟨h1, by linarith, by linarith⟩
  · rintro ⟨h1, h2, h3⟩; exact ⟨h1, by linarith, by linarith⟩

/-- What is known about what the constructors accept. -/
structure Valid (c : Ell) : Prop where
  ax : 0 < c.ax
  by' : 0 < c.by'
  cz : 0 < c.cz
  cuts : c.zcut1 < c.zcut2
  lower : -c.cz ≤ c.zcut1
  upper : c.zcut2 ≤ c.cz

theorem disc_pos (c : Ell) (p d : Vec3 ℝ) (hA : 0 < coeffA c d) (ht : NotTangent c p d) (t : ℝ) (h : ellipsoid c (p + Vec3.smul t d) = 1) :
    0 < coeffB c p d * coeffB c p d - coeffA c d * coeffC c p := by
  obtain ⟨u, hu⟩ := ht t h
  by_contra hc
  have := quadratic_nonneg _ _ _ hA (not_lt.1 hc) u
  rw [← ellipsoid_line] at this
  linarith

/-- The condition on the cuts as it is checked. -/
def Between (c : Ell) (v : Vec3 ℝ) : Prop := c.zcut1 - precision ≤ v.z ∧ v.z ≤ c.zcut2 + precision

theorem mem_surface (c : Ell) (p d : Vec3 ℝ) (hA : 0 < coeffA c d) (ht : NotTangent c p d) (ha : Apart c p d) (x : ℝ × Bool) :
    x ∈ surface c p d ↔ ellipsoid c (p + Vec3.smul x.1 d) = 1 ∧ Between c (p + Vec3.smul (snap x.1) d) ∧
      x.2 = decide (coeffA c d * x.1 + coeffB c p d < 0) := by
  have hline : ∀ t, ellipsoid c (p + Vec3.smul t d) = 1 ↔ coeffA c d * t ^ 2 + 2 * coeffB c p d * t + coeffC c p = 0 := by
    intro t; rw [← ellipsoid_line, sub_eq_zero]
  rcases surface_eq c p d hA with ⟨h0, a, b, hs, ea, eb⟩ | ⟨h0, hs⟩
  · obtain ⟨r, hr⟩ : ∃ r, r = Real.sqrt (coeffB c p d * coeffB c p d - coeffA c d * coeffC c p) := ⟨_, rfl⟩
    have hrr := Real.mul_self_sqrt h0
    rw [← hr] at ea eb hrr
    have ea' : coeffA c d * a = -coeffB c p d - r := by rw [ea]; field_simp
    have eb' : coeffA c d * b = -coeffB c p d + r := by rw [eb]; field_simp
    have one : ∀ t, coeffA c d * t = -coeffB c p d - r ∨ coeffA c d * t = -coeffB c p d + r → ellipsoid c (p + Vec3.smul t d) = 1 := by
      intro t h
      rw [hline]
      have : coeffA c d * (coeffA c d * t ^ 2 + 2 * coeffB c p d * t + coeffC c p) = 0 := by
        rcases h with h | h
        · linear_combination (coeffA c d * t + coeffB c p d - r) * h + hrr
        · linear_combination (coeffA c d * t + coeffB c p d + r) * h + hrr
      exact (mul_eq_zero.1 this).resolve_left hA.ne'
    have hpos := disc_pos c p d hA ht a (one a (Or.inl ea'))
    have hr0 : 0 < r := by rw [hr]; exact Real.sqrt_pos.2 hpos
    have hab : a < b := by
      by_contra hc
      have := mul_le_mul_of_nonneg_left (not_lt.1 hc) hA.le
      linarith
    have hgap := ha a b hab (Or.inl ⟨one a (Or.inl ea'), one b (Or.inr eb')⟩)
    have fa : decide (coeffA c d * snap a + coeffB c p d < 0) = decide (coeffA c d * a + coeffB c p d < 0) := by
      have := mul_le_mul_of_nonneg_left (snap_le a) hA.le
      rw [decide_eq_true (by linarith), decide_eq_true (by linarith)]
    have fb : decide (coeffA c d * snap b + coeffB c p d < 0) = decide (coeffA c d * b + coeffB c p d < 0) := by
      have h1 := mul_le_mul_of_nonneg_left (snap_near b).le hA.le
      have h2 := mul_le_mul_of_nonneg_left hgap hA.le
      rw [decide_eq_false (by nlinarith), decide_eq_false (by linarith)]
    rw [hs, List.mem_append, mem_surfaceHit, mem_surfaceHit, fa, fb]
    constructor
    · rintro (⟨h1, rfl⟩ | ⟨h1, rfl⟩)
      · exact ⟨one a (Or.inl ea'), h1, rfl⟩
      · exact ⟨one b (Or.inr eb'), h1, rfl⟩
    · rintro ⟨h1, h2, h3⟩
      have := (quadratic_roots _ _ _ x.1 hA hpos).1 ((hline _).1 h1)
      rw [← hr, ← ea, ← eb] at this
      rcases this with h4 | h4
      · left
        rw [← h4]
        exact ⟨h2, Prod.ext rfl h3⟩
      · right
        rw [← h4]
        exact ⟨h2, Prod.ext rfl h3⟩
  · rw [hs]
    simp only [List.not_mem_nil, false_iff]
    rintro ⟨h1, _⟩
    have := disc_pos c p d hA ht _ h1
    linarith

theorem surface_nodup (c : Ell) (p d : Vec3 ℝ) (hA : 0 < coeffA c d) (ht : NotTangent c p d) :
    ((surface c p d).map Prod.fst).Nodup := by
  have hone : ∀ t, ((surfaceHit c p d t).map Prod.fst).Nodup ∧ ∀ x ∈ (surfaceHit c p d t).map Prod.fst, x = t := by
    intro t; unfold surfaceHit; simp only; split <;> simp
  rcases surface_eq c p d hA with ⟨h0, a, b, hs, ea, eb⟩ | ⟨h0, hs⟩
  · rw [hs, List.map_append, List.nodup_append]
    refine ⟨(hone a).1, (hone b).1, ?_⟩
    intro x hx y hy e
    have h1 := (hone a).2 x hx
    have h2 := (hone b).2 y hy
    obtain ⟨r, hr⟩ : ∃ r, r = Real.sqrt (coeffB c p d * coeffB c p d - coeffA c d * coeffC c p) := ⟨_, rfl⟩
    have hrr := Real.mul_self_sqrt h0
    rw [← hr] at ea eb hrr
    have ea' : coeffA c d * a = -coeffB c p d - r := by rw [ea]; field_simp
    have eb' : coeffA c d * b = -coeffB c p d + r := by rw [eb]; field_simp
    have hab : a = b := by rw [← h1, ← h2, e]
    have hr0 : r = 0 := by rw [hab] at ea'; linarith
    have h3 : ellipsoid c (p + Vec3.smul a d) = 1 := by
      rw [← sub_eq_zero, ellipsoid_line]
      have : coeffA c d * (coeffA c d * a ^ 2 + 2 * coeffB c p d * a + coeffC c p) = 0 := by
        linear_combination (coeffA c d * a + coeffB c p d - r) * ea' + hrr
      exact (mul_eq_zero.1 this).resolve_left hA.ne'
    have := disc_pos c p d hA ht a h3
    rw [← hrr, hr0] at this
    linarith
  · rw [hs]; simp

theorem clear_surface (c : Ell) (p d : Vec3 ℝ) (hr : ClearOfRims c p d) (t : ℝ) (h1 : ellipsoid c (p + Vec3.smul t d) = 1)
    (h2 : Between c (p + Vec3.smul (snap t) d)) : c.zcut1 < (p + Vec3.smul t d).z ∧ (p + Vec3.smul t d).z < c.zcut2 :=
  (((hr t).1 h1).snap fun _ h => ⟨by linarith [h.1, precision_pos], by linarith [h.2, precision_pos]⟩).1 h2

theorem clear_cut (c : Ell) (p d : Vec3 ℝ) (hr : ClearOfRims c p d) (t : ℝ)
    (h1 : (p + Vec3.smul t d).z = c.zcut1 ∨ (p + Vec3.smul t d).z = c.zcut2)
    (h2 : ellipsoid c (p + Vec3.smul (snap t) d) ≤ 1 + precision) : ellipsoid c (p + Vec3.smul t d) < 1 :=
  (((hr t).2 h1).snap fun _ h => by linarith [h, precision_pos]).1 h2

/-- The crossings, all on the surface. -/
theorem mem_raw (c : Ell) (p d : Vec3 ℝ) (hA : 0 < coeffA c d) (hn : d.z = 0 ∨ precision < |d.z|) (ht : NotTangent c p d) (ha : Apart c p d)
    (hr : ClearOfRims c p d) (x : ℝ × Bool) :
    x ∈ raw c p d ↔
      (ellipsoid c (p + Vec3.smul x.1 d) = 1 ∧ (c.zcut1 < (p + Vec3.smul x.1 d).z ∧ (p + Vec3.smul x.1 d).z < c.zcut2) ∧
        x.2 = decide (coeffA c d * x.1 + coeffB c p d < 0)) ∨
      (d.z ≠ 0 ∧ (p + Vec3.smul x.1 d).z = c.zcut1 ∧ ellipsoid c (p + Vec3.smul x.1 d) < 1 ∧ x.2 = decide (d.z > 0)) ∨
      (d.z ≠ 0 ∧ (p + Vec3.smul x.1 d).z = c.zcut2 ∧ ellipsoid c (p + Vec3.smul x.1 d) < 1 ∧ x.2 = decide (d.z < 0)) := by
  have hne : precision < |d.z| → d.z ≠ 0 := fun hb e => by rw [e, abs_zero] at hb; linarith [precision_pos]
  rw [raw, List.mem_append, List.mem_append, mem_surface c p d hA ht ha, mem_cut, mem_cut, or_assoc]
  refine or_congr ⟨?_, ?_⟩ (or_congr ⟨?_, ?_⟩ ⟨?_, ?_⟩)
  · rintro ⟨h1, h2, h3⟩
    exact ⟨h1, clear_surface c p d hr _ h1 h2, h3⟩
  · rintro ⟨h1, h2, h3⟩
    refine ⟨h1, ?_, h3⟩
    by_contra hc
    have := (((hr x.1).1 h1).snap fun _ h => ⟨by linarith [h.1, precision_pos], by linarith [h.2, precision_pos]⟩).2 hc
    exact this ⟨by linarith [h2.1, precision_pos], by linarith [h2.2, precision_pos]⟩
  · rintro ⟨h1, h2, h3, h4⟩
    exact ⟨hne h1, h2, clear_cut c p d hr _ (Or.inl h2) h3, h4⟩
  · rintro ⟨h1, h2, h3, h4⟩
    refine ⟨hn.resolve_left h1, h2, ?_, h4⟩
    by_contra hc
    have := (((hr x.1).2 (Or.inl h2)).snap fun _ h => by linarith [h, precision_pos]).2 hc
    exact this (by linarith [precision_pos])
  · rintro ⟨h1, h2, h3, h4⟩
    exact ⟨hne h1, h2, clear_cut c p d hr _ (Or.inr h2) h3, h4⟩
  · rintro ⟨h1, h2, h3, h4⟩
    refine ⟨hn.resolve_left h1, h2, ?_, h4⟩
    by_contra hc
    have := (((hr x.1).2 (Or.inr h2)).snap fun _ h => by linarith [h, precision_pos]).2 hc
    exact this (by linarith [precision_pos])

theorem raw_onSurface (c : Ell) (hv : Valid c) (p d : Vec3 ℝ) (hA : 0 < coeffA c d) (hn : d.z = 0 ∨ precision < |d.z|) (ht : NotTangent c p d)
    (ha : Apart c p d) (hr : ClearOfRims c p d) (x : ℝ × Bool) (hx : x ∈ raw c p d) : OnSurface c (p + Vec3.smul x.1 d) := by
  have hcut := hv.cuts
  rcases (mem_raw c p d hA hn ht ha hr x).1 hx with ⟨h1, h2, _⟩ | ⟨_, h1, h2, _⟩ | ⟨_, h1, h2, _⟩
  · exact ⟨⟨h1.le, h2.1.le, h2.2.le⟩, Or.inl h1⟩
  · exact ⟨⟨h2.le, h1.ge, by rw [h1]; exact hcut.le⟩, Or.inr (Or.inl h1)⟩
  · exact ⟨⟨h2.le, by rw [h1]; exact hcut.le, h1.le⟩, Or.inr (Or.inr h1)⟩

theorem raw_nodup (c : Ell) (hv : Valid c) (p d : Vec3 ℝ) (hA : 0 < coeffA c d) (ht : NotTangent c p d)
    (ha : Apart c p d) (hr : ClearOfRims c p d) : ((raw c p d).map Prod.fst).Nodup := by
  have hcut : ∀ z f, ((cut c p d z f).map Prod.fst).Nodup := by intros; unfold cut; simp only; split_ifs <;> simp
  unfold raw
  rw [List.map_append, List.map_append, List.nodup_append, List.nodup_append]
  have sc : ∀ z f, (z = c.zcut1 ∨ z = c.zcut2) → ∀ x ∈ surface c p d, ∀ y ∈ cut c p d z f, x.1 ≠ y.1 := by
    intro z f hz x hx y hy e
    have h1 := (mem_surface c p d hA ht ha x).1 hx
    have h2 := (mem_cut c p d z f y).1 hy
    have := clear_cut c p d hr y.1 (by rw [h2.2.1]; exact hz) h2.2.2.1
    rw [← e, h1.1] at this
    exact lt_irrefl _ this
  refine ⟨⟨surface_nodup c p d hA ht, hcut _ _, ?_⟩, hcut _ _, ?_⟩
  · intro a ha' b hb
    obtain ⟨x, hx, rfl⟩ := List.mem_map.1 ha'
    obtain ⟨y, hy, rfl⟩ := List.mem_map.1 hb
    exact sc _ _ (Or.inl rfl) x hx y hy
  · intro a ha' b hb
    obtain ⟨y, hy, rfl⟩ := List.mem_map.1 hb
    rw [List.mem_append] at ha'
    rcases ha' with ha' | ha'
    · obtain ⟨x, hx, rfl⟩ := List.mem_map.1 ha'
      exact sc _ _ (Or.inr rfl) x hx y hy
    · obtain ⟨x, hx, rfl⟩ := List.mem_map.1 ha'
      intro e
      have h1 := ((mem_cut c p d _ _ x).1 hx).2.1
      have h2 := ((mem_cut c p d _ _ y).1 hy).2.1
      rw [e, h2] at h1
      exact hv.cuts.ne' h1

/-- Every crossing found is a change between inside and outside. -/
theorem raw_flips (c : Ell) (hv : Valid c) (p d : Vec3 ℝ) (hA : 0 < coeffA c d) (hn : d.z = 0 ∨ precision < |d.z|) (ht : NotTangent c p d)
    (ha : Apart c p d) (hr : ClearOfRims c p d) (x : ℝ × Bool) (hx : x ∈ raw c p d) :
    Flips (fun u => Inside c (p + Vec3.smul u d)) x.1 x.2 := by
  have hcut := hv.cuts
  simp only [inside_iff]
  obtain ⟨t, f⟩ := x
  rcases (mem_raw c p d hA hn ht ha hr _).1 hx with ⟨h1, h2, h3⟩ | ⟨h0, h1, h2, h3⟩ | ⟨h0, h1, h2, h3⟩
  · simp only at h1 h2 h3
    rw [Vec3.add_z, Vec3.smul_z] at h2
    rw [h3]
    refine (quadratic_flips_disc _ _ _ t (disc_pos c p d hA ht t h1) (by rw [← ellipsoid_line, h1, sub_self])).and ?_
    exact (eventually_neg (f := fun u => (p.z - c.zcut2) + u * d.z) (by fun_prop) (by linarith [h2.2])).and
      (eventually_neg (f := fun u => (c.zcut1 - p.z) + u * -d.z) (by fun_prop) (by linarith [h2.1]))
  · simp only at h1 h2 h3
    rw [Vec3.add_z, Vec3.smul_z] at h1
    rw [h3]
    refine Flips.and' ?_ (eventually_neg (f := fun u => coeffA c d * u ^ 2 + 2 * coeffB c p d * u + coeffC c p) (by fun_prop)
      (by rw [← ellipsoid_line]; linarith))
    have := (linear_flips (c.zcut1 - p.z) (-d.z) t (by linarith) (neg_ne_zero.2 h0)).and'
      (eventually_neg (f := fun u => (p.z - c.zcut2) + u * d.z) (by fun_prop) (by linarith))
    simpa only [neg_lt_zero] using this
  · simp only at h1 h2 h3
    rw [Vec3.add_z, Vec3.smul_z] at h1
    rw [h3]
    refine Flips.and' ?_ (eventually_neg (f := fun u => coeffA c d * u ^ 2 + 2 * coeffB c p d * u + coeffC c p) (by fun_prop)
      (by rw [← ellipsoid_line]; linarith))
    exact (linear_flips (p.z - c.zcut2) d.z t (by linarith) h0).and
      (eventually_neg (f := fun u => (c.zcut1 - p.z) + u * -d.z) (by fun_prop) (by linarith))

/-- No change is missed. -/
theorem raw_steady (c : Ell) (p d : Vec3 ℝ) (hA : 0 < coeffA c d) (hn : d.z = 0 ∨ precision < |d.z|) (ht : NotTangent c p d)
    (ha : Apart c p d) (hr : ClearOfRims c p d) (t : ℝ)
    (hx : ∀ x ∈ raw c p d, x.1 ≠ t) : Steady (fun u => Inside c (p + Vec3.smul u d)) t := by
  simp only [inside_iff]
  have nx := fun f => (mem_raw c p d hA hn ht ha hr (t, f)).not.1 fun h => hx _ h rfl
  have ns : ¬ (_ ∧ _) := fun h => nx (decide (coeffA c d * t + coeffB c p d < 0)) (Or.inl ⟨h.1, h.2, rfl⟩)
  have n1 : ¬ (_ ∧ _ ∧ _) := fun h => nx (decide (d.z > 0)) (Or.inr (Or.inl ⟨h.1, h.2.1, h.2.2, rfl⟩))
  have n2 : ¬ (_ ∧ _ ∧ _) := fun h => nx (decide (d.z < 0)) (Or.inr (Or.inr ⟨h.1, h.2.1, h.2.2, rfl⟩))
  simp only [Vec3.add_z, Vec3.smul_z] at ns n1 n2
  by_cases hE : 1 < ellipsoid c (p + Vec3.smul t d)
  · right
    have : 0 < coeffA c d * t ^ 2 + 2 * coeffB c p d * t + coeffC c p := by rw [← ellipsoid_line]; linarith
    filter_upwards [eventually_pos (f := fun u => coeffA c d * u ^ 2 + 2 * coeffB c p d * u + coeffC c p) (by fun_prop) this]
      with u hu hc
    exact absurd hc.1 (not_lt.2 hu.le)
  by_cases hT : 0 < (p.z - c.zcut2) + t * d.z
  · right
    filter_upwards [eventually_pos (f := fun u => (p.z - c.zcut2) + u * d.z) (by fun_prop) hT] with u hu hc
    exact absurd hc.2.1 (not_lt.2 hu.le)
  by_cases hL : 0 < (c.zcut1 - p.z) + t * -d.z
  · right
    filter_upwards [eventually_pos (f := fun u => (c.zcut1 - p.z) + u * -d.z) (by fun_prop) hL] with u hu hc
    exact absurd hc.2.2 (not_lt.2 hu.le)
  push Not at hE hT hL
  rcases hE.lt_or_eq with hE | hE
  · rcases hT.lt_or_eq with hT | hT
    · rcases hL.lt_or_eq with hL | hL
      · left
        exact (eventually_neg (f := fun u => coeffA c d * u ^ 2 + 2 * coeffB c p d * u + coeffC c p) (by fun_prop)
          (by rw [← ellipsoid_line]; linarith)).and ((eventually_neg (f := fun u => (p.z - c.zcut2) + u * d.z) (by fun_prop) hT).and
          (eventually_neg (f := fun u => (c.zcut1 - p.z) + u * -d.z) (by fun_prop) hL))
      · by_cases hd : d.z = 0
        · right
          refine Eventually.of_forall fun u hc => ?_
          have := hc.2.2
          rw [hd] at this hL; linarith
        · exact absurd ⟨hd, by linarith, hE⟩ n1
    · by_cases hd : d.z = 0
      · right
        refine Eventually.of_forall fun u hc => ?_
        have := hc.2.1
        rw [hd] at this hT; linarith
      · exact absurd ⟨hd, by linarith, hE⟩ n2
  · -- on the ellipsoid, so clearly between the cuts or clearly not
    exfalso
    rcases (hr t).1 hE with h | h
    · have := h t (by rw [sub_self, abs_zero]; exact precision_pos.le)
      simp only [Vec3.add_z, Vec3.smul_z] at this
      exact ns ⟨hE, this.1, this.2⟩
    · have := h t (by rw [sub_self, abs_zero]; exact precision_pos.le)
      simp only [Vec3.add_z, Vec3.smul_z] at this
      exact this ⟨by linarith [precision_pos], by linarith [precision_pos]⟩

theorem abs_le_of_sq_div (x a : ℝ) (ha : 0 < a) (h : (x / a) ^ 2 ≤ 1) : |x| ≤ a := by
  rw [div_pow, div_le_one (by positivity)] at h
  exact abs_le_of_sq_le_sq' h ha.le |> abs_le.2

theorem ell_bounds (c : Ell) (hv : Valid c) (v : Vec3 ℝ) (h : ellipsoid c v ≤ 1) : |v.x| ≤ c.ax ∧ |v.y| ≤ c.by' ∧ |v.z| ≤ c.cz := by
  unfold ellipsoid at h
  have a1 := sq_nonneg (v.x / c.ax); have a2 := sq_nonneg (v.y / c.by'); have a3 := sq_nonneg (v.z / c.cz)
  exact ⟨abs_le_of_sq_div _ _ hv.ax (by linarith), abs_le_of_sq_div _ _ hv.by' (by linarith), abs_le_of_sq_div _ _ hv.cz (by linarith)⟩

theorem bounded (c : Ell) (hv : Valid c) (p d : Vec3 ℝ) (hd : d ≠ 0) : ∃ M, ∀ u, Inside c (p + Vec3.smul u d) → |u| ≤ M := by
  have hb : ∀ v, Inside c v → |v.x| ≤ c.ax ∧ |v.y| ≤ c.by' ∧ |v.z| ≤ c.cz := fun v h => ell_bounds c hv v h.1.le
  by_cases h1 : d.x = 0
  · by_cases h2 : d.y = 0
    · have h3 : d.z ≠ 0 := fun h3 => hd (Vec3.ext h1 h2 h3)
      exact ⟨(c.cz + |p.z|) / |d.z|, fun u hu => bounded_coordinate p.z d.z _ u h3 (hb _ hu).2.2⟩
    · exact ⟨(c.by' + |p.y|) / |d.y|, fun u hu => bounded_coordinate p.y d.y _ u h2 (hb _ hu).2.1⟩
  · exact ⟨(c.ax + |p.x|) / |d.x|, fun u hu => bounded_coordinate p.x d.x _ u h1 (hb _ hu).1⟩

theorem clampCut_eq (cz z : ℝ) (h : 0 < cz) : clampCut cz z = min cz (max (-cz) z) := by
  unfold clampCut
  simp only
  split_ifs with h1 h2 h2
  · linarith
  · rw [max_eq_left h1.le, min_eq_right (by linarith)]
  · rw [max_eq_right (by linarith), min_eq_left (by linarith)]
  · rw [max_eq_right (by linarith), min_eq_right (by linarith)]

theorem make_valid {ax by' cz : ℝ} {c : Ell} (h : make ax by' cz = some c) : Valid c := by
  unfold make at h
  split at h
  · simp at h
  · next h1 =>
    simp only [Option.some.injEq] at h
    subst h
    push Not at h1
    exact ⟨h1.1, h1.2.1, h1.2.2, by simp only; linarith [h1.2.2], le_refl _, le_refl _⟩

theorem makeCut_valid {ax by' cz z1 z2 : ℝ} {c : Ell} (h : makeCut ax by' cz z1 z2 = some c) : Valid c := by
  unfold makeCut at h
  split at h
  · simp at h
  · next h1 =>
    push Not at h1
    split at h
    · simp at h
    · next h2 =>
      simp only [Option.some.injEq] at h
      subst h
      push Not at h2
      refine ⟨h1.1, h1.2.1, h1.2.2, h2, ?_, ?_⟩
      · simp only [clampCut_eq _ _ h1.2.2]
        exact le_min (by linarith [h1.2.2]) (le_max_left _ _)
      · simp only [clampCut_eq _ _ h1.2.2]
        exact min_le_left _ _

/-- What the constructors can make. -/
def Constructed (c : Ell) : Prop :=
  (∃ ax by' cz, make ax by' cz = some c) ∨ ∃ ax by' cz z1 z2, makeCut ax by' cz z1 z2 = some c

theorem Constructed.valid {c : Ell} (h : Constructed c) : Valid c := by
  rcases h with ⟨_, _, _, h⟩ | ⟨_, _, _, _, _, h⟩
  · exact make_valid h
  · exact makeCut_valid h

/-! ### Theorems -/

/-- C101: without cuts the solid is the ellipsoid with the given semi-axes; it is refused exactly if one is not positive. -/
theorem C101_constructor (ax by' cz : ℝ) : (make ax by' cz = none ↔ ax ≤ 0 ∨ by' ≤ 0 ∨ cz ≤ 0) ∧
    ∀ c, make ax by' cz = some c → ∀ v : Vec3 ℝ, Inside c v ↔ (v.x / ax) ^ 2 + (v.y / by') ^ 2 + (v.z / cz) ^ 2 < 1 := by
  refine ⟨by unfold make; split <;> simp_all, fun c h v => ?_⟩
  have hv := make_valid h
  have hb := ell_bounds c hv v
  unfold make at h
  split at h
  · simp at h
  · simp only [Option.some.injEq] at h
    subst h
    refine ⟨fun h => h.1, fun h => ⟨h, ?_⟩⟩
    have h3 : (v.z / cz) ^ 2 < 1 := by nlinarith [sq_nonneg (v.x / ax), sq_nonneg (v.y / by')]
    have hcz : 0 < cz := hv.cz
    rw [div_pow, div_lt_one (by positivity)] at h3
    exact abs_lt_of_sq_lt_sq' h3 hcz.le

/-- C101: with cuts the solid is what is between the cuts that were asked for, even where they were beyond the poles; it is
refused exactly if a semi-axis is not positive or nothing of the ellipsoid is between the cuts. -/
theorem C101_constructor_cuts (ax by' cz z1 z2 : ℝ) :
    (makeCut ax by' cz z1 z2 = none ↔ (ax ≤ 0 ∨ by' ≤ 0 ∨ cz ≤ 0) ∨
      ¬ ∃ v : Vec3 ℝ, (v.x / ax) ^ 2 + (v.y / by') ^ 2 + (v.z / cz) ^ 2 < 1 ∧ z1 < v.z ∧ v.z < z2) ∧
    ∀ c, makeCut ax by' cz z1 z2 = some c → ∀ v : Vec3 ℝ,
      Inside c v ↔ (v.x / ax) ^ 2 + (v.y / by') ^ 2 + (v.z / cz) ^ 2 < 1 ∧ z1 < v.z ∧ v.z < z2 := by
  have hz : 0 < cz → ∀ v : Vec3 ℝ, (v.x / ax) ^ 2 + (v.y / by') ^ 2 + (v.z / cz) ^ 2 < 1 → -cz < v.z ∧ v.z < cz := by
    intro hcz v h
    have h3 : (v.z / cz) ^ 2 < 1 := by nlinarith [sq_nonneg (v.x / ax), sq_nonneg (v.y / by')]
    rw [div_pow, div_lt_one (by positivity)] at h3
    exact abs_lt_of_sq_lt_sq' h3 hcz.le
  refine ⟨?_, fun c h v => ?_⟩
  · unfold makeCut
    split
    · next h1 => simp [h1]
    · next h1 =>
      have h1' := h1
      push Not at h1'
      obtain ⟨_, _, hcz⟩ := h1'
      rw [clampCut_eq _ _ hcz, clampCut_eq _ _ hcz]
      simp only [h1, false_or]
      split
      · next h2 =>
        simp only [true_iff]
        rintro ⟨v, h3, h4, h5⟩
        obtain ⟨h6, h7⟩ := hz hcz v h3
        refine absurd h2 (not_le.2 ?_)
        have a1 : min cz (max (-cz) z1) ≤ max (-cz) z1 := min_le_right _ _
        have a2 : max (-cz) z1 < v.z := max_lt h6 h4
        have a3 : v.z < min cz (max (-cz) z2) := lt_min h7 (lt_of_lt_of_le h5 (le_max_right _ _))
        linarith
      · next h2 =>
        simp only [reduceCtorEq, false_iff, not_not]
        push Not at h2
        obtain ⟨z, h3, h4⟩ := exists_between h2
        have b1 : z < cz := lt_of_lt_of_le h4 (min_le_left _ _)
        have b2 : z < max (-cz) z2 := lt_of_lt_of_le h4 (min_le_right _ _)
        have b3 : max (-cz) z1 < z := by
          by_contra hc
          rw [min_lt_iff] at h3
          rcases h3 with h3 | h3
          · linarith
          · exact hc h3
        have b4 : -cz < z := lt_of_le_of_lt (le_max_left _ _) b3
        have b5 : z1 < z := lt_of_le_of_lt (le_max_right _ _) b3
        have b6 : z < z2 := by
          rcases lt_max_iff.1 b2 with h | h
          · linarith
          · exact h
        refine ⟨⟨0, 0, z⟩, ?_, b5, b6⟩
        simp only [zero_div]
        have : (z / cz) ^ 2 < 1 := by
          rw [div_pow, div_lt_one (by positivity)]
          nlinarith
        linarith
  · have hv := makeCut_valid h
    unfold makeCut at h
    split at h
    · simp at h
    · split at h
      · simp at h
      · next h1 h2 =>
        simp only [Option.some.injEq] at h
        subst h
        have hcz : 0 < cz := hv.cz
        rw [Inside]
        simp only [clampCut_eq _ _ hcz, ellipsoid]
        constructor
        · rintro ⟨h3, h4, h5⟩
          obtain ⟨h6, h7⟩ := hz hcz v h3
          refine ⟨h3, ?_, ?_⟩
          · rcases min_lt_iff.1 h4 with h | h
            · linarith
            · exact lt_of_le_of_lt (le_max_right _ _) h
          · rcases lt_max_iff.1 (lt_of_lt_of_le h5 (min_le_right _ _)) with h | h
            · linarith
            · exact h
        · rintro ⟨h3, h4, h5⟩
          obtain ⟨h6, h7⟩ := hz hcz v h3
          exact ⟨h3, lt_of_le_of_lt (min_le_right _ _) (max_lt h6 h4), lt_min h7 (lt_of_lt_of_le h5 (le_max_right _ _))⟩

/-- C101: for every ellipsoid that can be constructed and every line that does not touch it, is clear of the rims, is parallel
to the cuts or clearly not, and whose crossings are apart, the reported crossings are in increasing order, enter and leave in
turn, and say "inside" exactly where the line is inside; each lies on the line at its distance. -/
theorem C101_describes (srt : List Isect → List Isect) (hsrt : IsIsectSort srt) (c : Ell) (hc : Constructed c) (p d : Vec3 ℝ) (hd : d ≠ 0)
    (hn : d.z = 0 ∨ precision < |d.z|) (ht : NotTangent c p d) (hr : ClearOfRims c p d) (ha : Apart c p d) :
    Describes precision (fun t => Inside c (p + Vec3.smul t d)) (compute srt c p d) ∧
      ∀ h ∈ compute srt c p d, h.position = p + Vec3.smul h.distance d := by
  have hv := hc.valid
  have hA := coeffA_pos c hv.ax hv.by' hv.cz d hd
  obtain ⟨M, hM⟩ := bounded c hv p d hd
  have hpw : (raw c p d).Pairwise (fun a b => precision ≤ |snap a.1 - snap b.1|) := by
    have h1 := raw_nodup c hv p d hA ht ha hr
    rw [List.Nodup, List.pairwise_map] at h1
    refine h1.imp_of_mem fun {a b} h2 h3 h4 => ?_
    have s2 := raw_onSurface c hv p d hA hn ht ha hr a h2
    have s3 := raw_onSurface c hv p d hA hn ht ha hr b h3
    rcases lt_or_gt_of_ne h4 with h | h
    · have := snap_apart (ha _ _ h (Or.inr ⟨s2, s3⟩))
      rw [abs_of_nonpos (by linarith [precision_pos])]; linarith
    · have := snap_apart (ha _ _ h (Or.inr ⟨s3, s2⟩))
      rw [abs_of_nonneg (by linarith [precision_pos])]; linarith
  obtain ⟨hp, hs⟩ := hsrt ((raw c p d).map (report p d))
  have hpw2 : (srt ((raw c p d).map (report p d))).Pairwise (fun a b => precision ≤ |a.distance - b.distance|) := by
    refine hp.symm.pairwise (List.pairwise_map.2 hpw) fun {a b} h => ?_
    rw [abs_sub_comm]; exact h
  have hcomp : compute srt c p d = srt ((raw c p d).map (report p d)) := (Cylinder.dedup_id _ hpw2).2
  rw [hcomp]
  refine ⟨describes_of_local srt hsrt (raw c p d) p d ?_ (raw_flips c hv p d hA hn ht ha hr) (raw_steady c p d hA hn ht ha hr) M hM, ?_⟩
  · rw [List.Nodup, List.pairwise_map]
    refine hpw2.imp fun {a b} h e => ?_
    rw [e, sub_self, abs_zero] at h
    linarith [precision_pos]
  · intro h hh
    obtain ⟨x, _, rfl⟩ := List.mem_map.1 (hp.mem_iff.1 hh)
    rfl

/-- C101: at most four crossings are found, as many as the array holds. -/
theorem C101_capacity (c : Ell) (p d : Vec3 ℝ) : (raw c p d).length ≤ 4 := by
  have h1 : ∀ t, (surfaceHit c p d t).length ≤ 1 := by intro t; unfold surfaceHit; simp only; split <;> simp
  have h2 : ∀ z f, (cut c p d z f).length ≤ 1 := by intros; unfold cut; simp only; split_ifs <;> simp
  have h3 : (surface c p d).length ≤ 2 := by
    unfold surface; simp only
    split
    · rw [List.length_append]; exact Nat.add_le_add (h1 _) (h1 _)
    · simp
  unfold raw
  rw [List.length_append, List.length_append]
  have := h2 c.zcut1 (decide (d.z > 0)); have := h2 c.zcut2 (decide (d.z < 0))
  omega

/-- C101: the bounding box is the smallest that contains the solid. -/
theorem C101_bounding_box (c : Ell) (hc : Constructed c) :
    (∀ v, Mem c v → AABB.Mem v (boundingBox c)) ∧
    (∀ b : AABB ℝ, (∀ v, Mem c v → AABB.Mem v b) → AABB.Sub (boundingBox c) b) := by
  have hv := hc.valid
  obtain ⟨hx, hy, hz, hcut, hlo, hup⟩ := hv
  obtain ⟨z, hzd⟩ : ∃ z, z = if (0 : ℝ) < c.zcut1 then c.zcut1 else if c.zcut2 < 0 then c.zcut2 else 0 := ⟨_, rfl⟩
  have hz1 : c.zcut1 ≤ z ∧ z ≤ c.zcut2 := by
    rw [hzd]; split_ifs <;> constructor <;> linarith
  have hz2 : ∀ w, c.zcut1 ≤ w → w ≤ c.zcut2 → z * z ≤ w * w := by
    intro w h1 h2
    rw [hzd]; split_ifs with h3 h4
    · nlinarith
    · nlinarith
    · nlinarith [mul_self_nonneg w]
  obtain ⟨s, hs⟩ : ∃ s, s = Real.sqrt (max 0 (1 - z * z / (c.cz * c.cz))) := ⟨_, rfl⟩
  have hle : z * z / (c.cz * c.cz) ≤ 1 := by
    rw [div_le_one (by positivity)]; nlinarith [hz1.1, hz1.2]
  have hs0 : 0 ≤ s := by rw [hs]; exact Real.sqrt_nonneg _
  have hs2 : s ^ 2 = 1 - (z / c.cz) ^ 2 := by
    rw [hs, max_eq_right (by linarith), Real.sq_sqrt (by linarith), div_pow]; ring
  have hbox : boundingBox c = ⟨⟨-(c.ax * s), -(c.by' * s), c.zcut1⟩, ⟨c.ax * s, c.by' * s, c.zcut2⟩⟩ := by
    rw [hs, hzd]; rfl
  rw [hbox]
  refine ⟨fun v h => ?_, fun b hb => ?_⟩
  · obtain ⟨h1, h2, h3⟩ := h
    have h4 := hz2 v.z h2 h3
    have h5 : (z / c.cz) ^ 2 ≤ (v.z / c.cz) ^ 2 := by
      rw [div_pow, div_pow]
      exact div_le_div_of_nonneg_right (by nlinarith) (by positivity)
    unfold ellipsoid at h1
    have key : ∀ w a : ℝ, 0 < a → (w / a) ^ 2 ≤ s ^ 2 → -(a * s) ≤ w ∧ w ≤ a * s := by
      intro w a ha' h
      have h6 := abs_le_of_sq_le_sq' h hs0
      constructor
      · have := (le_div_iff₀ ha').1 h6.1; linarith
      · have := (div_le_iff₀ ha').1 h6.2; linarith
    exact ⟨key _ _ hx (by linarith [sq_nonneg (v.y / c.by')]), key _ _ hy (by linarith [sq_nonneg (v.x / c.ax)]), h2, h3⟩
  · have m1 : ∀ q : ℝ, q ^ 2 = s ^ 2 → Mem c ⟨c.ax * q, 0, z⟩ := by
      intro q hq
      refine ⟨?_, hz1.1, hz1.2⟩
      unfold ellipsoid
      rw [mul_div_cancel_left₀ _ hx.ne', hq, hs2]; simp
    have m2 : ∀ q : ℝ, q ^ 2 = s ^ 2 → Mem c ⟨0, c.by' * q, z⟩ := by
      intro q hq
      refine ⟨?_, hz1.1, hz1.2⟩
      unfold ellipsoid
      rw [mul_div_cancel_left₀ _ hy.ne', hq, hs2]; simp
    have m3 : ∀ w, c.zcut1 ≤ w → w ≤ c.zcut2 → Mem c ⟨0, 0, w⟩ := by
      intro w h1 h2
      refine ⟨?_, h1, h2⟩
      unfold ellipsoid
      simp only [zero_div]
      have : (w / c.cz) ^ 2 ≤ 1 := by
        rw [div_pow, div_le_one (by positivity)]; nlinarith
      linarith
    have a1 := hb _ (m1 s rfl)
    have a2 := hb _ (m1 (-s) (by ring))
    have a3 := hb _ (m2 s rfl)
    have a4 := hb _ (m2 (-s) (by ring))
    have a5 := hb _ (m3 c.zcut1 le_rfl hcut.le)
    have a6 := hb _ (m3 c.zcut2 hcut.le le_rfl)
    have n1 : c.ax * -s = -(c.ax * s) := by ring
    have n2 : c.by' * -s = -(c.by' * s) := by ring
    refine ⟨⟨?_, a1.1.2⟩, ⟨?_, a3.2.1.2⟩, ⟨a5.2.2.1, a6.2.2.2⟩⟩
    · rw [← n1]; exact a2.1.1
    · rw [← n2]; exact a4.2.1.1

/-- A vertical line in through the lower half of a sphere and out through the upper cut meets the hypotheses of C101. -/
example : ∃ c, makeCut 5 5 5 (-7) 3 = some c ∧ (0 : ℝ) ≠ 1 ∧ precision < |(1 : ℝ)| ∧ NotTangent c ⟨3, 0, -6⟩ ⟨0, 0, 1⟩ ∧
    ClearOfRims c ⟨3, 0, -6⟩ ⟨0, 0, 1⟩ ∧ Apart c ⟨3, 0, -6⟩ ⟨0, 0, 1⟩ ∧ raw c ⟨3, 0, -6⟩ ⟨0, 0, 1⟩ = [(2, true), (9, false)] := by
  have hE : ∀ t : ℝ, ellipsoid ⟨5, 5, 5, -5, 3⟩ ((⟨3, 0, -6⟩ : Vec3 ℝ) + Vec3.smul t ⟨0, 0, 1⟩) = (9 + (t - 6) ^ 2) / 25 := by
    intro t; simp [ellipsoid]; ring
  have hZ : ∀ t : ℝ, ((⟨3, 0, -6⟩ : Vec3 ℝ) + Vec3.smul t ⟨0, 0, 1⟩).z = t - 6 := by
    intro t; simp; ring
  have h1 : ∀ t : ℝ, (9 + (t - 6) ^ 2) / 25 = 1 → t = 2 ∨ t = 10 := by
    intro t h
    have : (t - 2) * (t - 10) = 0 := by linarith
    rcases mul_eq_zero.1 this with h | h
    · left; linarith
    · right; linarith
  have hS : ∀ t : ℝ, OnSurface ⟨5, 5, 5, -5, 3⟩ ((⟨3, 0, -6⟩ : Vec3 ℝ) + Vec3.smul t ⟨0, 0, 1⟩) → t = 2 ∨ t = 9 := by
    intro t h
    unfold OnSurface Mem at h
    rw [hE, hZ] at h
    simp only at h
    rcases h.2 with h2 | h2 | h2
    · rcases h1 t h2 with h3 | h3
      · exact Or.inl h3
      · have := h.1.2.2; linarith
    · have := h.1.1
      rw [h2] at this; norm_num at this
    · right; linarith
  refine ⟨⟨5, 5, 5, -5, 3⟩, ?_, by norm_num, by norm_num [precision], ?_, ?_, ?_, ?_⟩
  · unfold makeCut clampCut; norm_num
  · intro t _; exact ⟨6, by rw [hE]; norm_num⟩
  · intro t
    simp only [hE, hZ]
    constructor
    · intro h
      rcases h1 t h with rfl | rfl
      · left; intro u hu; rw [abs_le] at hu; unfold precision at hu; constructor <;> linarith [hu.1, hu.2]
      · right; intro u hu hc; rw [abs_le] at hu; unfold precision at hu hc; linarith [hu.1, hu.2, hc.2]
    · intro h
      have : t = 1 ∨ t = 9 := by rcases h with h | h; · left; linarith
                                 · right; linarith
      rcases this with rfl | rfl
      · right; intro u hu hc; rw [abs_le] at hu; unfold precision at hu hc; nlinarith [hu.1, hu.2]
      · left; intro u hu; rw [abs_le] at hu; unfold precision at hu; nlinarith [hu.1, hu.2]
  · intro s t hst h
    rw [hE, hE] at h
    unfold precision
    rcases h with h | h
    · rcases h1 _ h.1 with rfl | rfl <;> rcases h1 _ h.2 with rfl | rfl <;>
        first | (exfalso; revert hst; norm_num; done) | norm_num
    · rcases hS _ h.1 with rfl | rfl <;> rcases hS _ h.2 with rfl | rfl <;>
        first | (exfalso; revert hst; norm_num; done) | norm_num
  · have s : Real.sqrt (16 / 625) = 4 / 25 := by
      rw [show (16 / 625 : ℝ) = (4 / 25) ^ 2 by norm_num]; exact Real.sqrt_sq (by norm_num)
    unfold raw surface cut surfaceHit coeffA coeffB coeffC snap precision
    norm_num [s]

/-- A whole ellipsoid also reports the planes through its poles: a line that passes near the poles of a sphere of radius 1000
enters twice and leaves twice. -/
theorem C101_pole_fails : ∃ c x, make 1000 1000 1000 = some c ∧
    raw c ⟨x, 0, -2000⟩ ⟨0, 0, 1⟩ = [(2000 - 1000 * ((10 ^ 10 - 1) / (10 ^ 10 + 1)), true), (2000 + 1000 * ((10 ^ 10 - 1) / (10 ^ 10 + 1)), false),
      (1000, true), (3000, false)] ∧
    ∀ srt, IsIsectSort srt → (compute srt c ⟨x, 0, -2000⟩ ⟨0, 0, 1⟩).map (fun h => (h.distance, h.entering)) =
      [(1000, true), (2000 - 1000 * ((10 ^ 10 - 1) / (10 ^ 10 + 1)), true), (2000 + 1000 * ((10 ^ 10 - 1) / (10 ^ 10 + 1)), false), (3000, false)] ∧
      ¬ Describes precision (fun t => Inside c ((⟨x, 0, -2000⟩ : Vec3 ℝ) + Vec3.smul t ⟨0, 0, 1⟩)) (compute srt c ⟨x, 0, -2000⟩ ⟨0, 0, 1⟩) := by
  have s : Real.sqrt (99999999980000000001 / 100000000020000000001000000) = (9999999999 / 10000000001) / 1000 := by
    rw [show (99999999980000000001 / 100000000020000000001000000 : ℝ) = ((9999999999 / 10000000001) / 1000) ^ 2 by norm_num]
    exact Real.sqrt_sq (by norm_num)
  have hraw : raw ⟨1000, 1000, 1000, -1000, 1000⟩ ⟨1000 * (2 * 10 ^ 5 / (10 ^ 10 + 1)), 0, -2000⟩ ⟨0, 0, 1⟩ =
      [(2000 - 1000 * ((10 ^ 10 - 1) / (10 ^ 10 + 1)), true), (2000 + 1000 * ((10 ^ 10 - 1) / (10 ^ 10 + 1)), false), (1000, true), (3000, false)] := by
    unfold raw surface cut surfaceHit coeffA coeffB coeffC snap precision
    norm_num [s]
  refine ⟨⟨1000, 1000, 1000, -1000, 1000⟩, 1000 * (2 * 10 ^ 5 / (10 ^ 10 + 1)), ?_, hraw, ?_⟩
  · unfold make; norm_num
  · intro srt hsrt
    obtain ⟨p, hp⟩ : ∃ p : Vec3 ℝ, p = ⟨1000 * (2 * 10 ^ 5 / (10 ^ 10 + 1)), 0, -2000⟩ := ⟨_, rfl⟩
    obtain ⟨a, ha⟩ : ∃ a : ℝ, a = 2000 - 1000 * ((10 ^ 10 - 1) / (10 ^ 10 + 1)) := ⟨_, rfl⟩
    obtain ⟨b, hb⟩ : ∃ b : ℝ, b = 2000 + 1000 * ((10 ^ 10 - 1) / (10 ^ 10 + 1)) := ⟨_, rfl⟩
    rw [← hp, ← ha, ← hb] at hraw
    rw [← hp, ← ha, ← hb]
    have ha1 : 1000 + precision < a ∧ a < 1001 := by rw [ha]; unfold precision; norm_num
    have hb1 : 2999 < b ∧ b + precision < 3000 := by rw [hb]; unfold precision; norm_num
    have hpr : precision < 1 := by unfold precision; norm_num
    have hp0 := precision_pos
    have sn : ∀ t : ℝ, 1 ≤ t → snap t = t := by
      intro t ht; unfold snap; rw [if_neg]; rintro ⟨_, h⟩; linarith
    have hsort : srt ((raw ⟨1000, 1000, 1000, -1000, 1000⟩ p ⟨0, 0, 1⟩).map (report p ⟨0, 0, 1⟩)) =
        [report p ⟨0, 0, 1⟩ (1000, true), report p ⟨0, 0, 1⟩ (a, true), report p ⟨0, 0, 1⟩ (b, false), report p ⟨0, 0, 1⟩ (3000, false)] := by
      refine sorted_perm_eq ?_ ((hsrt _).1.trans ?_) (hsrt _).2
      · simp only [List.pairwise_cons, List.mem_cons, List.not_mem_nil, or_false, forall_eq_or_imp, forall_eq, report]
        rw [sn 1000 (by norm_num), sn a (by linarith), sn b (by linarith), sn 3000 (by norm_num)]
        refine ⟨⟨by linarith, by linarith, by norm_num⟩, ⟨by linarith, by linarith⟩, by linarith, by simp, List.Pairwise.nil⟩
      · rw [hraw]
        simp only [List.map_cons, List.map_nil]
        classical
        refine List.perm_iff_count.2 fun x => ?_
        simp only [List.count_cons, List.count_nil]
        ring
    have hcomp : compute srt ⟨1000, 1000, 1000, -1000, 1000⟩ p ⟨0, 0, 1⟩ =
        [report p ⟨0, 0, 1⟩ (1000, true), report p ⟨0, 0, 1⟩ (a, true), report p ⟨0, 0, 1⟩ (b, false), report p ⟨0, 0, 1⟩ (3000, false)] := by
      unfold compute
      rw [hsort]
      refine (Cylinder.dedup_id _ ?_).2
      simp only [List.pairwise_cons, List.mem_cons, List.not_mem_nil, or_false, forall_eq_or_imp, forall_eq, report]
      rw [sn 1000 (by norm_num), sn a (by linarith), sn b (by linarith), sn 3000 (by norm_num)]
      have key : ∀ x y : ℝ, x + precision ≤ y → precision ≤ |x - y| := by
        intro x y h; rw [abs_of_nonpos (by linarith)]; linarith
      refine ⟨⟨key _ _ (by linarith), key _ _ (by linarith), key _ _ (by linarith)⟩, ⟨key _ _ (by linarith), key _ _ (by linarith)⟩,
        key _ _ (by linarith), by simp, List.Pairwise.nil⟩
    rw [hcomp]
    refine ⟨?_, fun h => ?_⟩
    · simp only [List.map_cons, List.map_nil, report]
      rw [sn 1000 (by norm_num), sn a (by linarith), sn b (by linarith), sn 3000 (by norm_num)]
    · have := h.alternates
      simp [Alternates, report] at this

end Siren.Geometry.Ellipsoid
