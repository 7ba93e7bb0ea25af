import Verif.Geometry.ShapeProps

set_option autoImplicit false

/-!
# C40: spheres and spherical shells

Models `Sphere::ComputeIntersections` and `Sphere::GetBoundingBox` (geometry/private/Sphere.cxx:90-306).

The crossings of the phi wedge and of the theta band are parameters of the model (`phiHits`, `thetaHits` with the states
`inPhi`, `inTheta` at minus infinity); they are empty, and the states true, for a sphere without cuts. Real square root
instead of `std::sqrt`.
-/

namespace Siren.Geometry.Sphere

open Siren Siren.Geometry

/-- The radii stored by the constructors (geometry/private/Sphere.cxx:17-20, 66): swapped if in the wrong order. Returns
the outer and the inner radius. -/
noncomputable def radii (radius inner : ℝ) : ℝ × ℝ := if inner > radius then (inner, radius) else (radius, inner)

/-- `perp2` (geometry/private/Sphere.cxx:124-127). -/
def perp2 (p d : Vec3 ℝ) : ℝ :=
  let cx := p.y * d.z - p.z * d.y
  let cy := p.z * d.x - p.x * d.z
  let cz := p.x * d.y - p.y * d.x
  cx * cx + cy * cy + cz * cz

/-- `solve_shell` (geometry/private/Sphere.cxx:128-139) with `add_hit` (114-118): exact distances with flags. -/
noncomputable def solveShell (p d : Vec3 ℝ) (r : ℝ) (isOuter : Bool) : List (ℝ × Bool) :=
  let pd := p.x * d.x + p.y * d.y + p.z * d.z
  let det := r * r - perp2 p d
  if det ≤ 0 then []
  else
    let sq := Real.sqrt det
    [(-pd - sq, isOuter), (-pd + sq, !isOuter)]

/-- The calls of `solve_shell` (geometry/private/Sphere.cxx:141-144). -/
noncomputable def shellHits (p d : Vec3 ℝ) (outer inner : ℝ) : List (ℝ × Bool) :=
  solveShell p d outer true ++ if inner > 0 then solveShell p d inner false else []

/-- `Sphere::ComputeIntersections` (geometry/private/Sphere.cxx:90-298). -/
noncomputable def compute (srt : List SHit → List SHit) (outer inner : ℝ) (hasPhi hasTheta : Bool)
    (phiHits thetaHits : List (ℝ × Bool)) (inPhi inTheta : Bool) (p d : Vec3 ℝ) : List Isect :=
  let all := (shellHits p d outer inner).map (fun c => (⟨hitAt p d c.1 c.2, 0⟩ : SHit)) ++
    (if hasPhi then phiHits.map (fun c => ⟨hitAt p d c.1 c.2, 1⟩) else []) ++
    (if hasTheta then thetaHits.map (fun c => ⟨hitAt p d c.1 c.2, 2⟩) else [])
  if all.isEmpty then []
  else if !hasPhi && !hasTheta then (srt all).map fun h => h.isect
  else
    let st : Nat → Bool := fun k => if k = 0 then false else if k = 1 then (if hasPhi then inPhi else true)
      else (if hasTheta then inTheta else true)
    andWalk 3 st (allIn 3 st) (srt all)

/-- `Sphere::GetBoundingBox` (geometry/private/Sphere.cxx:301-306). -/
def boundingBox (outer : ℝ) : AABB ℝ := ⟨⟨-outer, -outer, -outer⟩, ⟨outer, outer, outer⟩⟩

/-! ### Specification -/

/-- The spherical shell: at least the inner and less than the outer radius away from the origin. The outer surface is left
out and the inner one kept, so that tangent lines (which report nothing) are described correctly; everywhere else the
surfaces do not matter. -/
def Mem (outer inner : ℝ) (v : Vec3 ℝ) : Prop := inner ≤ Vec3.norm v ∧ Vec3.norm v < outer

/-! ### Proofs -/

/-- Lagrange's identity. -/
theorem perp2_eq (p d : Vec3 ℝ) : perp2 p d = Vec3.dot p p * Vec3.dot d d - Vec3.dot p d ^ 2 := by
  simp only [perp2, Vec3.dot]; ring

theorem normSq_line (p d : Vec3 ℝ) (hd : Vec3.dot d d = 1) (t : ℝ) :
    Vec3.dot (p + Vec3.smul t d) (p + Vec3.smul t d) = (t + Vec3.dot p d) ^ 2 + perp2 p d := by
  rw [perp2_eq, hd]
  have : Vec3.dot (p + Vec3.smul t d) (p + Vec3.smul t d) =
      t ^ 2 * Vec3.dot d d + 2 * t * Vec3.dot p d + Vec3.dot p p := by
    simp only [Vec3.dot, Vec3.add_x, Vec3.add_y, Vec3.add_z, Vec3.smul_x, Vec3.smul_y, Vec3.smul_z]; ring
  rw [this, hd]; ring

theorem norm_lt_iff (p d : Vec3 ℝ) (hd : Vec3.dot d d = 1) (r : ℝ) (hr : 0 < r) (t : ℝ) :
    Vec3.norm (p + Vec3.smul t d) < r ↔ (t + Vec3.dot p d) ^ 2 < r * r - perp2 p d := by
  unfold Vec3.norm
  rw [Real.sqrt_lt' hr, normSq_line p d hd]
  constructor <;> intro h <;> nlinarith

/-- Where a line is inside a ball. -/
theorem ball_line (p d : Vec3 ℝ) (hd : Vec3.dot d d = 1) (r : ℝ) (hr : 0 < r) (t : ℝ) :
    Vec3.norm (p + Vec3.smul t d) < r ↔ 0 < r * r - perp2 p d ∧
      -Vec3.dot p d - Real.sqrt (r * r - perp2 p d) < t ∧ t < -Vec3.dot p d + Real.sqrt (r * r - perp2 p d) := by
  rw [norm_lt_iff p d hd r hr]
  constructor
  · intro h
    have hpos : 0 < r * r - perp2 p d := lt_of_le_of_lt (sq_nonneg _) h
    refine ⟨hpos, ?_⟩
    have := abs_lt_of_sq_lt_sq (a := t + Vec3.dot p d) (b := Real.sqrt (r * r - perp2 p d))
      (by rw [Real.sq_sqrt hpos.le]; exact h) (Real.sqrt_nonneg _)
    rw [abs_lt] at this
    constructor <;> linarith [this.1, this.2]
  · rintro ⟨hpos, h1, h2⟩
    have : |t + Vec3.dot p d| < Real.sqrt (r * r - perp2 p d) := by
      rw [abs_lt]; constructor <;> linarith
    have := sq_lt_sq' (by linarith [(abs_lt.1 this).1]) (abs_lt.1 this).2
    rwa [Real.sq_sqrt hpos.le] at this

/-- The exact crossings in order of distance. -/
noncomputable def ordered (p d : Vec3 ℝ) (outer inner : ℝ) : List (ℝ × Bool) :=
  match solveShell p d outer true, (if inner > 0 then solveShell p d inner false else []) with
  | [a, b], [a', b'] => [a, a', b', b]
  | o, i => o ++ i

theorem solveShell_cases (p d : Vec3 ℝ) (r : ℝ) (o : Bool) :
    (r * r - perp2 p d ≤ 0 ∧ solveShell p d r o = []) ∨
    (0 < r * r - perp2 p d ∧ solveShell p d r o = [(-Vec3.dot p d - Real.sqrt (r * r - perp2 p d), o),
      (-Vec3.dot p d + Real.sqrt (r * r - perp2 p d), !o)]) := by
  unfold solveShell
  simp only [Vec3.dot]
  by_cases h : r * r - perp2 p d ≤ 0
  · left; exact ⟨h, if_pos h⟩
  · right; exact ⟨not_le.1 h, if_neg h⟩

theorem ordered_spec (p d : Vec3 ℝ) (hd : Vec3.dot d d = 1) (outer inner : ℝ) (h0 : 0 < outer) (hio : inner < outer) :
    Exactly (fun t => Mem outer inner (p + Vec3.smul t d)) (ordered p d outer inner) ∧
    (shellHits p d outer inner).Perm (ordered p d outer inner) := by
  have hball := ball_line p d hd outer h0
  rcases solveShell_cases p d outer true with ⟨ho, eo⟩ | ⟨ho, eo⟩
  · -- the line misses the outer sphere, and so the inner one
    have ei : (if inner > 0 then solveShell p d inner false else []) = [] := by
      split
      · next hi =>
        rcases solveShell_cases p d inner false with ⟨_, e⟩ | ⟨h, _⟩
        · exact e
        · exfalso; nlinarith
      · rfl
    have : ordered p d outer inner = [] := by unfold ordered; rw [eo, ei]; rfl
    rw [this]
    refine ⟨⟨by simp, rfl, fun t _ => ?_⟩, ?_⟩
    · simp only [Mem, List.map_nil, stateFrom_nil, Bool.false_eq_true, iff_false, not_and]
      intro _ h
      exact absurd ((hball t).1 h).1 (not_lt.2 ho)
    · unfold shellHits; rw [eo, ei]; exact List.Perm.refl _
  · set s := Real.sqrt (outer * outer - perp2 p d) with hs
    have hspos : 0 < s := Real.sqrt_pos.2 ho
    set k := -Vec3.dot p d with hk
    have outerOnly : (∀ t, inner ≤ Vec3.norm (p + Vec3.smul t d)) →
        (if inner > 0 then solveShell p d inner false else []) = [] →
        Exactly (fun t => Mem outer inner (p + Vec3.smul t d)) (ordered p d outer inner) ∧
        (shellHits p d outer inner).Perm (ordered p d outer inner) := by
      intro hin ei
      have e : ordered p d outer inner = [(k - s, true), (k + s, false)] := by
        unfold ordered; rw [eo, ei]; rfl
      rw [e]
      refine ⟨⟨by simp; linarith, by simp [Alternates], fun t ht => ?_⟩, ?_⟩
      · simp only [List.mem_cons, List.not_mem_nil, or_false, forall_eq_or_imp, forall_eq] at ht
        simp only [Mem, hin t, true_and, List.map_cons, List.map_nil]
        rw [hball]
        by_cases h1 : k - s < t
        · rw [stateFrom_cons_lt _ _ _ _ (by exact h1)]
          by_cases h2 : k + s < t
          · rw [stateFrom_cons_lt _ _ _ _ (by exact h2)]
            simp only [stateFrom_nil, Bool.false_eq_true, iff_false, not_and, not_lt]
            intros; exact h2.le
          · rw [stateFrom_cons_ge _ _ _ _ (by exact h2)]
            simp only [stateFrom_nil, iff_true]
            exact ⟨ho, h1, lt_of_le_of_ne (not_lt.1 h2) (fun h => ht.2 h.symm)⟩
        · rw [stateFrom_all_ge]
          · simp only [Bool.false_eq_true, iff_false, not_and]
            intro _ h; exact absurd h h1
          · intro x hx
            simp only [List.mem_cons, List.not_mem_nil, or_false] at hx
            rcases hx with rfl | rfl
            · exact not_lt.1 h1
            · simp only; linarith [not_lt.1 h1]
      · unfold shellHits; rw [eo, ei]; exact List.Perm.refl _
    by_cases hi : inner > 0
    · have hball' := ball_line p d hd inner hi
      rcases solveShell_cases p d inner false with ⟨hdi, ei⟩ | ⟨hdi, ei⟩
      · refine outerOnly (fun t => ?_) (by rw [if_pos hi, ei])
        by_contra hc
        exact absurd ((hball' t).1 (not_le.1 hc)).1 (not_lt.2 hdi)
      · set s' := Real.sqrt (inner * inner - perp2 p d) with hs'
        have hs'pos : 0 < s' := Real.sqrt_pos.2 hdi
        have hlt : s' < s := Real.sqrt_lt_sqrt hdi.le (by nlinarith)
        have e : ordered p d outer inner = [(k - s, true), (k - s', false), (k + s', true), (k + s, false)] := by
          unfold ordered; rw [eo, if_pos hi, ei]; rfl
        rw [e]
        refine ⟨⟨?_, by simp [Alternates], fun t ht => ?_⟩, ?_⟩
        · simp only [List.pairwise_cons, List.mem_cons, List.not_mem_nil, or_false, forall_eq_or_imp, forall_eq,
            false_implies, implies_true, List.Pairwise.nil, and_true]
          refine ⟨⟨?_, ?_, ?_⟩, ⟨?_, ?_⟩, ?_⟩ <;> linarith
        · simp only [List.mem_cons, List.not_mem_nil, or_false, forall_eq_or_imp, forall_eq] at ht
          obtain ⟨t1, t2, t3, t4⟩ := ht
          simp only [Mem, List.map_cons, List.map_nil]
          rw [hball, ← not_lt, hball']
          by_cases h1 : k - s < t
          · rw [stateFrom_cons_lt _ _ _ _ (by exact h1)]
            by_cases h2 : k - s' < t
            · rw [stateFrom_cons_lt _ _ _ _ (by exact h2)]
              by_cases h3 : k + s' < t
              · rw [stateFrom_cons_lt _ _ _ _ (by exact h3)]
                by_cases h4 : k + s < t
                · rw [stateFrom_cons_lt _ _ _ _ (by exact h4)]
                  simp only [stateFrom_nil, Bool.false_eq_true, iff_false, not_and, not_lt]
                  intros; exact h4.le
                · rw [stateFrom_cons_ge _ _ _ _ (by exact h4)]
                  simp only [stateFrom_nil, iff_true]
                  exact ⟨fun h => absurd h.2.2 (not_lt.2 h3.le), ho, h1, lt_of_le_of_ne (not_lt.1 h4) (fun h => t4 h.symm)⟩
              · rw [stateFrom_all_ge]
                · simp only [Bool.false_eq_true, iff_false, not_and]
                  intro h
                  exact (h hdi h2 (lt_of_le_of_ne (not_lt.1 h3) (fun h => t3 h.symm))).elim
                · intro x hx
                  simp only [List.mem_cons, List.not_mem_nil, or_false] at hx
                  rcases hx with rfl | rfl <;> simp only <;> linarith [not_lt.1 h3]
            · rw [stateFrom_all_ge]
              · simp only [iff_true]
                exact ⟨fun h => h2 h.2.1, ho, h1, by linarith [not_lt.1 h2]⟩
              · intro x hx
                simp only [List.mem_cons, List.not_mem_nil, or_false] at hx
                rcases hx with rfl | rfl | rfl <;> simp only <;> linarith [not_lt.1 h2]
          · rw [stateFrom_all_ge]
            · simp only [Bool.false_eq_true, iff_false, not_and]
              intro _ _ h; exact absurd h h1
            · intro x hx
              simp only [List.mem_cons, List.not_mem_nil, or_false] at hx
              rcases hx with rfl | rfl | rfl | rfl <;> simp only <;> linarith [not_lt.1 h1]
        · unfold shellHits
          rw [eo, if_pos hi, ei]
          simp only [List.cons_append, List.nil_append]
          refine List.Perm.cons _ ?_
          refine (List.Perm.swap _ _ _).trans (List.Perm.cons _ (List.Perm.swap _ _ _))
    · refine outerOnly (fun t => ?_) (if_neg hi)
      exact le_trans (not_lt.1 hi) (Vec3.norm_nonneg _)

/-- The constructor orders the radii, so that every sphere has `inner ≤ outer`. -/
theorem radii_ordered (radius inner : ℝ) : (radii radius inner).2 ≤ (radii radius inner).1 ∧
    ({(radii radius inner).1, (radii radius inner).2} : Set ℝ) = {radius, inner} := by
  unfold radii
  split
  · next h => exact ⟨h.le, Set.pair_comm _ _⟩
  · next h => exact ⟨not_lt.1 h, rfl⟩

theorem compute_no_cuts (srt : List SHit → List SHit) (hsrt : IsHitSort srt) (outer inner : ℝ) (p d : Vec3 ℝ)
    (ph th : List (ℝ × Bool)) (ip it : Bool) :
    (compute srt outer inner false false ph th ip it p d).Perm
      ((shellHits p d outer inner).map fun c => hitAt p d c.1 c.2) ∧
    (compute srt outer inner false false ph th ip it p d).Pairwise (fun a b => a.distance ≤ b.distance) := by
  unfold compute
  simp only [Bool.false_eq_true, if_false, List.append_nil, Bool.not_false, Bool.and_self, if_true]
  split
  · next h =>
    simp only [List.isEmpty_iff, List.map_eq_nil_iff] at h
    simp [h]
  · obtain ⟨h1, h2⟩ := hsrt ((shellHits p d outer inner).map (fun c => (⟨hitAt p d c.1 c.2, 0⟩ : SHit)))
    refine ⟨?_, by rw [List.pairwise_map]; exact h2⟩
    have := h1.map (fun h : SHit => h.isect)
    rwa [List.map_map] at this

/-- C40: for every sphere or spherical shell (inner radius below the outer one), position and unit direction there is a
strictly increasing, alternating list of exact distances that describes the solid along the line, and the reported
crossings are these in order of distance, each one with its position on the line; a distance in `(0, 1e-9)` is reported
as 0. -/
theorem C40_shell_exact (srt : List SHit → List SHit) (hsrt : IsHitSort srt) (outer inner : ℝ) (h0 : 0 < outer)
    (hio : inner < outer) (p d : Vec3 ℝ) (hd : Vec3.dot d d = 1) (ph th : List (ℝ × Bool)) (ip it : Bool) :
    ∃ exact : List (ℝ × Bool), Exactly (fun t => Mem outer inner (p + Vec3.smul t d)) exact ∧
      (compute srt outer inner false false ph th ip it p d).Perm
        (exact.map fun c => ⟨snap c.1, 0, c.2, p + Vec3.smul (snap c.1) d⟩) ∧
      (compute srt outer inner false false ph th ip it p d).Pairwise (fun a b => a.distance ≤ b.distance) := by
  obtain ⟨h1, h2⟩ := ordered_spec p d hd outer inner h0 hio
  obtain ⟨h3, h4⟩ := compute_no_cuts srt hsrt outer inner p d ph th ip it
  exact ⟨_, h1, h3.trans (h2.map _), h4⟩

/-- C40: whenever the reported distances are different (no two crossings within the tolerance ahead of the start), the
reported crossings describe the shell. -/
theorem C40_shell_describes (srt : List SHit → List SHit) (hsrt : IsHitSort srt) (outer inner : ℝ) (h0 : 0 < outer)
    (hio : inner < outer) (p d : Vec3 ℝ) (hd : Vec3.dot d d = 1) (ph th : List (ℝ × Bool)) (ip it : Bool)
    (hdiff : ((compute srt outer inner false false ph th ip it p d).map Isect.distance).Nodup) :
    Describes precision (fun t => Mem outer inner (p + Vec3.smul t d))
      (compute srt outer inner false false ph th ip it p d) := by
  obtain ⟨h1, h2⟩ := ordered_spec p d hd outer inner h0 hio
  obtain ⟨h3, h4⟩ := compute_no_cuts srt hsrt outer inner p d ph th ip it
  have hperm := h3.trans (h2.map (fun c => hitAt p d c.1 c.2))
  have hnd : ((ordered p d outer inner).map fun c => snap c.1).Nodup := by
    have := (hperm.map Isect.distance).nodup_iff.1 hdiff
    rwa [List.map_map] at this
  have hstrict : ((ordered p d outer inner).map fun c => snap c.1).Pairwise (· < ·) :=
    (h1.snap_sorted.and hnd).imp fun h => lt_of_le_of_ne h.1 h.2
  have := h1.describes p d hstrict
  rwa [← sorted_perm_eq this.strict hperm h4] at this

/-- C40: a shell whose radii are equal, which the constructor accepts, reports crossings of equal distance; sorted stably
they end with an entry, so that everything behind the sphere counts as inside. -/
theorem C40_empty_shell_fails :
    ∃ (p d : Vec3 ℝ) (out : List Isect), Vec3.dot d d = 1 ∧
      out.Perm ((shellHits p d 1 1).map fun c => hitAt p d c.1 c.2) ∧
      out.Pairwise (fun a b => a.distance ≤ b.distance) ∧ stateFrom false out 10 = true ∧
      ¬ Mem 1 1 (p + Vec3.smul 10 d) := by
  have hperp : perp2 ⟨0, 0, -5⟩ ⟨0, 0, 1⟩ = 0 := by simp [perp2]
  have hs : ∀ o, solveShell ⟨0, 0, -5⟩ ⟨0, 0, 1⟩ 1 o = [(4, o), (6, !o)] := by
    intro o
    rcases solveShell_cases ⟨0, 0, -5⟩ ⟨0, 0, 1⟩ 1 o with ⟨h, _⟩ | ⟨_, h⟩
    · rw [hperp] at h; norm_num at h
    · rw [h, hperp]
      norm_num [Vec3.dot]
  have hsh : shellHits ⟨0, 0, -5⟩ ⟨0, 0, 1⟩ 1 1 = [(4, true), (6, false), (4, false), (6, true)] := by
    unfold shellHits; rw [hs, hs]; norm_num
  have e4 : snap 4 = 4 := by unfold snap precision; norm_num
  have e6 : snap 6 = 6 := by unfold snap precision; norm_num
  refine ⟨⟨0, 0, -5⟩, ⟨0, 0, 1⟩, [(4, true), (4, false), (6, false), (6, true)].map
    fun c : ℝ × Bool => hitAt ⟨0, 0, -5⟩ ⟨0, 0, 1⟩ c.1 c.2, by simp [Vec3.dot], ?_, ?_, ?_, ?_⟩
  · rw [hsh]
    exact (List.Perm.cons _ (List.Perm.swap _ _ _)).map _
  · simp [hitAt, e4, e6]; norm_num
  · simp only [List.map_cons, List.map_nil]
    rw [stateFrom_cons_lt _ _ _ _ (by simp [hitAt, e4]; norm_num), stateFrom_cons_lt _ _ _ _ (by simp [hitAt, e4]; norm_num),
      stateFrom_cons_lt _ _ _ _ (by simp [hitAt, e6]; norm_num), stateFrom_cons_lt _ _ _ _ (by simp [hitAt, e6]; norm_num)]
    simp [hitAt]
  · have : Vec3.norm ((⟨0, 0, -5⟩ : Vec3 ℝ) + Vec3.smul 10 ⟨0, 0, 1⟩) = 5 := by
      rw [Vec3.norm, show Vec3.dot ((⟨0, 0, -5⟩ : Vec3 ℝ) + Vec3.smul 10 ⟨0, 0, 1⟩)
        ((⟨0, 0, -5⟩ : Vec3 ℝ) + Vec3.smul 10 ⟨0, 0, 1⟩) = 5 ^ 2 by simp [Vec3.dot]; norm_num, Real.sqrt_sq (by norm_num)]
    rw [Mem, this]; norm_num

/-- C40 with angular cuts: at every distance the reported crossings say "inside" exactly when those of the shell, of the phi
wedge and of the theta band all do. -/
theorem C40_cuts (srt : List SHit → List SHit) (hsrt : IsHitSort srt) (outer inner : ℝ) (h0 : 0 < outer)
    (hio : inner < outer) (p d : Vec3 ℝ) (hd : Vec3.dot d d = 1) (hasPhi hasTheta : Bool) (ph th : List (ℝ × Bool))
    (ip it : Bool) (hcut : hasPhi = true ∨ hasTheta = true)
    (hsh : ((shellHits p d outer inner).map fun c => snap c.1).Nodup)
    (hph : (ph.map fun c => snap c.1).Pairwise (· < ·)) (hth : (th.map fun c => snap c.1).Pairwise (· < ·)) (t : ℝ)
    (ht : ∀ c ∈ shellHits p d outer inner, precision ≤ |snap c.1 - t|) :
    stateFrom false (compute srt outer inner hasPhi hasTheta ph th ip it p d) t = true ↔
      Mem outer inner (p + Vec3.smul t d) ∧
      (hasPhi = true → stateFrom ip (ph.map fun c => hitAt p d c.1 c.2) t = true) ∧
      (hasTheta = true → stateFrom it (th.map fun c => hitAt p d c.1 c.2) t = true) := by
  obtain ⟨h1, h2⟩ := ordered_spec p d hd outer inner h0 hio
  have hnd : ((ordered p d outer inner).map fun c => snap c.1).Nodup :=
    (h2.map (fun c => snap c.1)).nodup_iff.1 hsh
  have hstrict : ((ordered p d outer inner).map fun c => snap c.1).Pairwise (· < ·) :=
    (h1.snap_sorted.and hnd).imp fun h => lt_of_le_of_ne h.1 h.2
  have hdes := h1.describes p d hstrict
  set all := (shellHits p d outer inner).map (fun c => (⟨hitAt p d c.1 c.2, 0⟩ : SHit)) ++
    (if hasPhi then ph.map (fun c => ⟨hitAt p d c.1 c.2, 1⟩) else []) ++
    (if hasTheta then th.map (fun c => ⟨hitAt p d c.1 c.2, 2⟩) else []) with hall
  set st : Nat → Bool := fun k => if k = 0 then false else if k = 1 then (if hasPhi then ip else true)
      else (if hasTheta then it else true) with hst
  have hin0 : allIn 3 st = false := by simp [allIn, hst, List.range_succ]
  have f0 : ofSource 0 all = (shellHits p d outer inner).map fun c => hitAt p d c.1 c.2 := by
    rw [hall, ofSource, List.filter_append, List.filter_append, List.filter_map]
    cases hasPhi <;> cases hasTheta <;> simp [List.filter_map, Function.comp_def]
  have f1 : ofSource 1 all = if hasPhi then ph.map (fun c => hitAt p d c.1 c.2) else [] := by
    rw [hall, ofSource, List.filter_append, List.filter_append, List.filter_map]
    cases hasPhi <;> cases hasTheta <;> simp [List.filter_map, Function.comp_def]
  have f2 : ofSource 2 all = if hasTheta then th.map (fun c => hitAt p d c.1 c.2) else [] := by
    rw [hall, ofSource, List.filter_append, List.filter_append, List.filter_map]
    cases hasPhi <;> cases hasTheta <;> simp [List.filter_map, Function.comp_def]
  obtain ⟨hp, hs⟩ := hsrt all
  have g0 : ofSource 0 (srt all) = (ordered p d outer inner).map fun c => hitAt p d c.1 c.2 := by
    refine sorted_perm_eq hdes.strict ?_ ?_
    · refine ((hp.filter _).map _).trans ?_
      have := h2.map (fun c => hitAt p d c.1 c.2)
      rw [← f0] at this
      exact this
    · unfold ofSource; rw [List.pairwise_map]; exact hs.filter _
  have hpw : ∀ l : List (ℝ × Bool), (l.map fun c => snap c.1).Pairwise (· < ·) →
      (l.map fun c => hitAt p d c.1 c.2).Pairwise (fun a b => a.distance < b.distance) := by
    intro l hl; rw [List.pairwise_map] at hl ⊢; exact hl
  have g1 : ofSource 1 (srt all) = if hasPhi then ph.map (fun c => hitAt p d c.1 c.2) else [] := by
    rw [← f1]
    apply ofSource_sort hsrt
    rw [f1]
    cases hasPhi
    · simp
    · exact hpw ph hph
  have g2 : ofSource 2 (srt all) = if hasTheta then th.map (fun c => hitAt p d c.1 c.2) else [] := by
    rw [← f2]
    apply ofSource_sort hsrt
    rw [f2]
    cases hasTheta
    · simp
    · exact hpw th hth
  have key : compute srt outer inner hasPhi hasTheta ph th ip it p d = andWalk 3 st (allIn 3 st) (srt all) := by
    unfold compute
    simp only [← hall, ← hst]
    split
    · next he =>
      rw [List.isEmpty_iff] at he
      have : srt all = [] := by rw [he] at hp ⊢; exact hp.eq_nil
      rw [this]; rfl
    · rw [if_neg]
      rcases hcut with h | h <;> simp [h]
  have hw := andWalk_state 3 t (srt all) hs st
  rw [key]
  rw [hin0] at hw ⊢
  rw [hw]
  have hd0 := hdes.exact t (fun x hx => by
    obtain ⟨c, hc, rfl⟩ := List.mem_map.1 hx
    exact ht c (h2.mem_iff.2 hc))
  have : allIn 3 (fun k => stateFrom (st k) (ofSource k (srt all)) t) =
      (stateFrom (st 0) (ofSource 0 (srt all)) t && (stateFrom (st 1) (ofSource 1 (srt all)) t &&
        stateFrom (st 2) (ofSource 2 (srt all)) t)) := by
    simp [allIn, List.range_succ]
  rw [this, g0, g1, g2, Bool.and_eq_true, Bool.and_eq_true, hd0]
  have s0 : st 0 = false := rfl
  have s1 : st 1 = if hasPhi then ip else true := rfl
  have s2 : st 2 = if hasTheta then it else true := rfl
  rw [s0, s1, s2]
  cases hasPhi <;> cases hasTheta <;> simp

/-- C40: the bounding box contains the shell, and no smaller box does. -/
theorem C40_bounding_box (outer inner : ℝ) (v : Vec3 ℝ) (h : Mem outer inner v) : AABB.Mem v (boundingBox outer) := by
  have h2 := h.2
  have hnn := Vec3.norm_nonneg v
  have hsq : Vec3.norm v ^ 2 = v.x * v.x + v.y * v.y + v.z * v.z := Real.sq_sqrt (Vec3.dot_self_nonneg v)
  have hle : Vec3.norm v ^ 2 ≤ outer ^ 2 := by nlinarith
  have hx : |v.x| ≤ outer := abs_le_of_sq_le_sq (by nlinarith [mul_self_nonneg v.y, mul_self_nonneg v.z]) (by linarith)
  have hy : |v.y| ≤ outer := abs_le_of_sq_le_sq (by nlinarith [mul_self_nonneg v.x, mul_self_nonneg v.z]) (by linarith)
  have hz : |v.z| ≤ outer := abs_le_of_sq_le_sq (by nlinarith [mul_self_nonneg v.x, mul_self_nonneg v.y]) (by linarith)
  exact ⟨abs_le.1 hx, abs_le.1 hy, abs_le.1 hz⟩

/-- A line through a hollow sphere off its centre has four crossings. -/
example (srt : List SHit → List SHit) (hsrt : IsHitSort srt) :
    (compute srt 5 2 false false [] [] true true ⟨1, 0, -10⟩ ⟨0, 0, 1⟩).length = 4 := by
  rw [(compute_no_cuts srt hsrt 5 2 ⟨1, 0, -10⟩ ⟨0, 0, 1⟩ [] [] true true).1.length_eq, List.length_map]
  have hperp : perp2 ⟨1, 0, -10⟩ ⟨0, 0, 1⟩ = 1 := by simp [perp2]
  unfold shellHits
  rcases solveShell_cases ⟨1, 0, -10⟩ ⟨0, 0, 1⟩ 5 true with ⟨h, _⟩ | ⟨_, h⟩
  · rw [hperp] at h; norm_num at h
  rcases solveShell_cases ⟨1, 0, -10⟩ ⟨0, 0, 1⟩ 2 false with ⟨h', _⟩ | ⟨_, h'⟩
  · rw [hperp] at h'; norm_num at h'
  rw [h, h', if_pos (by norm_num)]; rfl

end Siren.Geometry.Sphere
