import Verif.Geometry.Theta
import Verif.Geometry.Cylinder

set_option autoImplicit false

/-!
# C76: spheres and shells with cuts in azimuth and polar angle

Puts the crossings of the wedge and of the band into the model of `Sphere::ComputeIntersections`.
-/

namespace Siren.Geometry.Sphere

open Siren Siren.Geometry Real Filter Topology

/-! ### Model -/

/-- The members of `Sphere` (geometry/public/SIREN/geometry/Sphere.h). -/
structure Ball where
  radius : ℝ
  inner : ℝ
  startPhi : ℝ
  deltaPhi : ℝ
  startTheta : ℝ
  deltaTheta : ℝ
  hasPhiCut : Bool
  hasThetaCut : Bool

/-- The constructors with two numbers (geometry/private/Sphere.cxx:44-52). -/
noncomputable def make (radius inner : ℝ) : Ball :=
  let r := radii radius inner
  ⟨r.1, r.2, 0, 2 * π, 0, π, false, false⟩

/-- The constructors with angles (geometry/private/Sphere.cxx:53-74); `none` is `std::invalid_argument`. -/
noncomputable def makeCut (radius inner startPhi deltaPhi startTheta deltaTheta : ℝ) : Option Ball :=
  let r := radii radius inner
  if deltaPhi ≤ 0 then none
  else
    let delta := if deltaPhi > 2 * π then 2 * π else deltaPhi
    if startTheta < -1 / 1000000000 ∨ startTheta > π + 1 / 1000000000 then none
    else if deltaTheta ≤ 0 ∨ startTheta + deltaTheta > π + 1 / 1000000000 then none
    else some ⟨r.1, r.2, startPhi, delta, startTheta, deltaTheta, decide (delta < 2 * π - 1 / 1000000000),
      decide (startTheta > 1 / 1000000000 ∨ deltaTheta < π - 1 / 1000000000)⟩

/-- `Sphere::ComputeIntersections` with its angular cuts (geometry/private/Sphere.cxx:90-298). -/
noncomputable def computeCut (srt : List SHit → List SHit) (b : Ball) (p d : Vec3 ℝ) : List Isect :=
  compute srt b.radius b.inner b.hasPhiCut b.hasThetaCut (Phi.wedgeHits id b.startPhi b.deltaPhi p d)
    (Theta.thetaHits b.startTheta b.deltaTheta p d) (Phi.initialPhiState p.x p.y d.x d.y b.startPhi b.deltaPhi)
    (Theta.thetaInRange (-d) b.startTheta b.deltaTheta) p d

/-! ### Specification -/

/-- The line crosses the surfaces of the shell at least 2e-9 apart. -/
def ShellSpread (b : Ball) (p d : Vec3 ℝ) : Prop :=
  ∀ t u : ℝ, (Vec3.norm (p + Vec3.smul t d) = b.radius ∨ Vec3.norm (p + Vec3.smul t d) = b.inner) →
    (Vec3.norm (p + Vec3.smul u d) = b.radius ∨ Vec3.norm (p + Vec3.smul u d) = b.inner) → t < u → t + 2 * precision ≤ u

/-- The solid: the shell, in the wedge if there is one, in the band if there is one. -/
def Solid (b : Ball) (v : Vec3 ℝ) : Prop :=
  Mem b.radius b.inner v ∧ (b.hasPhiCut = true → Phi.InWedge b.startPhi b.deltaPhi v) ∧
    (b.hasThetaCut = true → Theta.InBand b.startTheta b.deltaTheta v)

/-- The points where something may change: on a surface of the shell, in a plane of the wedge, on an edge of the band. -/
def Boundary (b : Ball) (v : Vec3 ℝ) : Prop :=
  Vec3.norm v = b.radius ∨ Vec3.norm v = b.inner ∨ Phi.planeDist b.startPhi v = 0 ∨
    Phi.planeDist (b.startPhi + b.deltaPhi) v = 0 ∨ Theta.OnEdge b.startTheta b.deltaTheta v

/-! ### Proofs -/

/-- The reported shell crossings are on its surfaces. -/
theorem shell_on_surface (b : Ball) (h0 : 0 < b.radius) (p d : Vec3 ℝ) (hd : Vec3.dot d d = 1) :
    ∀ c ∈ shellHits p d b.radius b.inner,
      Vec3.norm (p + Vec3.smul c.1 d) = b.radius ∨ Vec3.norm (p + Vec3.smul c.1 d) = b.inner := by
  have key : ∀ r, 0 < r → ∀ o, ∀ c ∈ solveShell p d r o, Vec3.norm (p + Vec3.smul c.1 d) = r := by
    intro r hr o c hc
    have hn : ∀ t, (t + Vec3.dot p d) ^ 2 = r * r - perp2 p d → Vec3.norm (p + Vec3.smul t d) = r := by
      intro t ht
      show Real.sqrt _ = r
      have := normSq_line p d hd t
      rw [ht] at this
      have e : Vec3.dot (p + Vec3.smul t d) (p + Vec3.smul t d) = r ^ 2 := by rw [this]; ring
      show Real.sqrt (Vec3.dot (p + Vec3.smul t d) (p + Vec3.smul t d)) = r
      rw [e, Real.sqrt_sq hr.le]
    rcases solveShell_cases p d r o with ⟨_, h⟩ | ⟨h, h'⟩
    · rw [h] at hc; simp at hc
    · rw [h'] at hc
      have hsq := Real.sq_sqrt h.le
      simp only [List.mem_cons, List.not_mem_nil, or_false] at hc
      rcases hc with rfl | rfl
      · apply hn; simp only; linear_combination hsq
      · apply hn; simp only; linear_combination hsq
  intro c hc
  unfold shellHits at hc
  rcases List.mem_append.1 hc with h | h
  · exact Or.inl (key _ h0 _ c h)
  · split at h
    · next hi => exact Or.inr (key _ hi _ c h)
    · simp at h

theorem shell_nodup (b : Ball) (h0 : 0 < b.radius) (hio : b.inner < b.radius) (p d : Vec3 ℝ) (hd : Vec3.dot d d = 1)
    (hsp : ShellSpread b p d) : ((shellHits p d b.radius b.inner).map fun c => snap c.1).Nodup := by
  obtain ⟨h1, h2⟩ := ordered_spec p d hd b.radius b.inner h0 hio
  have hs : ∀ c ∈ ordered p d b.radius b.inner, _ := fun c hc => shell_on_surface b h0 p d hd c (h2.mem_iff.2 hc)
  rw [(h2.map fun c => snap c.1).nodup_iff]
  unfold List.Nodup
  rw [List.pairwise_map]
  refine h1.strict.imp_of_mem ?_
  intro x y hx hy hxy
  have h3 := snap_apart (hsp x.1 y.1 (hs x hx) (hs y hy) hxy)
  have h4 := precision_pos
  exact ne_of_lt (by linarith)

/-- The distances of wedge crossings are in a plane of the wedge. -/
theorem wedge_on_plane (st : ℝ → ℝ) (start delta : ℝ) (p d : Vec3 ℝ) : ∀ y ∈ Phi.wedgeHits st start delta p d,
    Phi.planeDist start (p + Vec3.smul y.1 d) = 0 ∨ Phi.planeDist (start + delta) (p + Vec3.smul y.1 d) = 0 := by
  intro y hy
  have : ∀ face, (face = 0 ∨ face = 1) → ∀ e, y ∈ (Phi.wedgeFace st start delta p d face e).1 →
      Phi.faceFun start delta face (p + Vec3.smul y.1 d) = 0 := by
    intro face hf e hy
    unfold Phi.wedgeFace at hy
    simp only at hy
    split at hy
    · simp at hy
    · next hnd =>
      have hnd0 : (Phi.faceNormal start delta face).1 * d.x + (Phi.faceNormal start delta face).2 * d.y ≠ 0 := by
        intro h; rw [h, abs_zero] at hnd; exact hnd precision_pos
      have key : y.1 = -((Phi.faceNormal start delta face).1 * p.x + (Phi.faceNormal start delta face).2 * p.y) /
          ((Phi.faceNormal start delta face).1 * d.x + (Phi.faceNormal start delta face).2 * d.y) := by
        split at hy
        · simp at hy
        · split at hy
          · split at hy
            · simp at hy
            · simp only [List.mem_singleton] at hy; rw [hy]
          · simp only [List.mem_singleton] at hy; rw [hy]
      rw [Phi.faceFun_line, key]
      unfold Phi.faceFun
      field_simp
      ring
  unfold Phi.wedgeHits at hy
  simp only [List.mem_append] at hy
  rcases hy with hy | hy
  · left
    have := this 0 (Or.inl rfl) _ hy
    rw [Phi.faceFun_zero] at this
    linarith
  · right
    have := this 1 (Or.inr rfl) _ hy
    rwa [Phi.faceFun_one] at this

/-- C76: for every shell with a cut in azimuth or polar angle or both, and every line that crosses the cuts cleanly, the
reported crossings are in increasing order, alternate between entering and leaving, and at every distance at least 2e-9 from
the boundaries say "inside" exactly when the point is in the shell, in the wedge and in the band. -/
theorem C76_sphere (srt : List SHit → List SHit) (hsrt : IsHitSort srt) (b : Ball)
    (hcut : b.hasPhiCut = true ∨ b.hasThetaCut = true) (h0 : 0 < b.radius) (hio : b.inner < b.radius) (p d : Vec3 ℝ)
    (hd : Vec3.dot d d = 1) (hsh : ShellSpread b p d)
    (hphi : b.hasPhiCut = true → 0 < b.deltaPhi ∧ b.deltaPhi < 2 * π ∧
      (Phi.Clean b.startPhi b.deltaPhi p d ∨ Phi.Vertical b.startPhi b.deltaPhi p d) ∧ Phi.Spread b.startPhi b.deltaPhi p d)
    (hth : b.hasThetaCut = true → Theta.Wellformed b.startTheta b.deltaTheta ∧ Theta.Clean b.startTheta b.deltaTheta p d ∧
      Theta.Spread b.startTheta b.deltaTheta p d) :
    (computeCut srt b p d).Pairwise (fun x y => x.distance ≤ y.distance) ∧ Alternates false (computeCut srt b p d) ∧
    ∀ t : ℝ, (∀ u : ℝ, Boundary b (p + Vec3.smul u d) → 2 * precision ≤ |u - t|) →
      (stateFrom false (computeCut srt b p d) t = true ↔ Solid b (p + Vec3.smul t d)) := by
  obtain ⟨h1, h2⟩ := ordered_spec p d hd b.radius b.inner h0 hio
  have hnd := shell_nodup b h0 hio p d hd hsh
  rw [(h2.map fun c => snap c.1).nodup_iff] at hnd
  have hstrict : ((ordered p d b.radius b.inner).map fun c => snap c.1).Pairwise (· < ·) :=
    (h1.snap_sorted.and hnd).imp fun h => lt_of_le_of_ne h.1 h.2
  have hdes := h1.describes p d hstrict
  set ph := Phi.wedgeHits id b.startPhi b.deltaPhi p d with hph
  set th := Theta.thetaHits b.startTheta b.deltaTheta p d with hthd
  set ip := Phi.initialPhiState p.x p.y d.x d.y b.startPhi b.deltaPhi with hip
  set it := Theta.thetaInRange (-d) b.startTheta b.deltaTheta with hit
  set all := (shellHits p d b.radius b.inner).map (fun c => (⟨hitAt p d c.1 c.2, 0⟩ : SHit)) ++
    (if b.hasPhiCut then ph.map (fun c => ⟨hitAt p d c.1 c.2, 1⟩) else []) ++
    (if b.hasThetaCut then th.map (fun c => ⟨hitAt p d c.1 c.2, 2⟩) else []) with hall
  set st : Nat → Bool := fun k => if k = 0 then false else if k = 1 then (if b.hasPhiCut then ip else true)
      else (if b.hasThetaCut then it else true) with hst
  have hin0 : allIn 3 st = false := by simp [allIn, hst, List.range_succ]
  obtain ⟨hp, hs⟩ := hsrt all
  have hcomp : computeCut srt b p d = andWalk 3 st (allIn 3 st) (srt all) := by
    unfold computeCut compute
    simp only [← hph, ← hthd, ← hip, ← hit, ← hall, ← hst]
    split
    · next he =>
      rw [List.isEmpty_iff] at he
      have : srt all = [] := by rw [he] at hp ⊢; exact hp.eq_nil
      rw [this]; rfl
    · rw [if_neg]
      rcases hcut with h | h <;> simp [h]
  have f0 : ofSource 0 all = (shellHits p d b.radius b.inner).map fun c => hitAt p d c.1 c.2 := by
    rw [hall, ofSource, List.filter_append, List.filter_append, List.filter_map]
    cases b.hasPhiCut <;> cases b.hasThetaCut <;> simp [List.filter_map, Function.comp_def]
  have f1 : ofSource 1 all = if b.hasPhiCut then ph.map (fun c => hitAt p d c.1 c.2) else [] := by
    rw [hall, ofSource, List.filter_append, List.filter_append, List.filter_map]
    cases b.hasPhiCut <;> cases b.hasThetaCut <;> simp [List.filter_map, Function.comp_def]
  have f2 : ofSource 2 all = if b.hasThetaCut then th.map (fun c => hitAt p d c.1 c.2) else [] := by
    rw [hall, ofSource, List.filter_append, List.filter_append, List.filter_map]
    cases b.hasPhiCut <;> cases b.hasThetaCut <;> simp [List.filter_map, Function.comp_def]
  have hsorted : ∀ k, (ofSource k (srt all)).Pairwise (fun a b => a.distance ≤ b.distance) := by
    intro k; unfold ofSource; rw [List.pairwise_map]; exact hs.filter _
  have hperm : ∀ k, (ofSource k (srt all)).Perm (ofSource k all) := fun k => (hp.filter _).map _
  have g0 : ofSource 0 (srt all) = (ordered p d b.radius b.inner).map fun c => hitAt p d c.1 c.2 := by
    refine sorted_perm_eq hdes.strict ((hperm 0).trans ?_) (hsorted 0)
    rw [f0]; exact h2.map _
  refine ⟨?_, ?_, ?_⟩
  · rw [hcomp]; exact andWalk_pairwise 3 (· ≤ ·) _ hs _ _
  · rw [hcomp]
    have := andWalk_alternates 3 (srt all) st ⟨0, by norm_num, ?_⟩
    · rwa [hin0] at this
    · rw [g0]
      have hlast : ∀ (l : List Isect) (s : Bool), Alternates s l → (l.getLast?.map Isect.entering).getD s = false := by
        intro l
        induction l with
        | nil => intro s h; simpa [Alternates] using h
        | cons a as ih =>
          intro s h
          have := ih _ h.2
          rw [List.getLast?_cons]
          cases hl : as.getLast? with
          | none => rw [hl] at this; simpa using this
          | some x => rw [hl] at this; simpa using this
      exact hlast _ _ hdes.alternates
  · intro t ht
    have hnear : ∀ u, 2 * precision ≤ |u - t| → precision ≤ |snap u - t| := by
      intro u hu
      have h3 := snap_le u
      have h4 := snap_near u
      have := precision_pos
      rcases le_total u t with h | h
      · rw [abs_of_nonpos (by linarith)] at hu ⊢; linarith
      · rw [abs_of_nonneg (by linarith)] at hu
        rw [abs_of_nonneg (by linarith)]; linarith
    have hd0 := hdes.exact t (fun x hx => by
      obtain ⟨c, hc, rfl⟩ := List.mem_map.1 hx
      refine hnear _ (ht _ ?_)
      rcases shell_on_surface b h0 p d hd c (h2.mem_iff.2 hc) with h | h
      · exact Or.inl h
      · exact Or.inr (Or.inl h))
    have hw := andWalk_state 3 t (srt all) hs st
    rw [hin0] at hw
    rw [hcomp, hin0, hw]
    have : allIn 3 (fun k => stateFrom (st k) (ofSource k (srt all)) t) =
        (stateFrom (st 0) (ofSource 0 (srt all)) t && (stateFrom (st 1) (ofSource 1 (srt all)) t &&
          stateFrom (st 2) (ofSource 2 (srt all)) t)) := by
      simp [allIn, List.range_succ]
    have s1 : stateFrom (st 1) (ofSource 1 (srt all)) t = true ↔
        (b.hasPhiCut = true → Phi.InWedge b.startPhi b.deltaPhi (p + Vec3.smul t d)) := by
      by_cases hb : b.hasPhiCut = true
      · obtain ⟨q1, q2, q3, q4⟩ := hphi hb
        have hpm := hperm 1
        rw [f1, if_pos hb] at hpm
        have := Phi.C74_wedge id (Or.inr rfl) b.startPhi b.deltaPhi q1 q2 p d q3 q4 _ hpm (hsorted 1) t (by
          intro x hx
          obtain ⟨c, hc, rfl⟩ := List.mem_map.1 (hpm.mem_iff.1 hx)
          refine hnear _ (ht _ ?_)
          rcases wedge_on_plane id b.startPhi b.deltaPhi p d c hc with h | h
          · exact Or.inr (Or.inr (Or.inl h))
          · exact Or.inr (Or.inr (Or.inr (Or.inl h))))
        have e : st 1 = ip := by simp [hst, hb]
        rw [e, ← this]
        simp [hb]
      · have hpm := hperm 1
        rw [f1, if_neg hb] at hpm
        have e : st 1 = true := by simp [hst, hb]
        rw [hpm.eq_nil, e]
        simp [hb, stateFrom]
    have s2 : stateFrom (st 2) (ofSource 2 (srt all)) t = true ↔
        (b.hasThetaCut = true → Theta.InBand b.startTheta b.deltaTheta (p + Vec3.smul t d)) := by
      by_cases hb : b.hasThetaCut = true
      · obtain ⟨q1, q2, q3⟩ := hth hb
        have hpm := hperm 2
        rw [f2, if_pos hb] at hpm
        have := Theta.C76_band b.startTheta b.deltaTheta q1 p d q2 q3 _ hpm (hsorted 2) t (by
          intro x hx
          obtain ⟨c, hc, rfl⟩ := List.mem_map.1 (hpm.mem_iff.1 hx)
          exact hnear _ (ht _ (Or.inr (Or.inr (Or.inr (Or.inr ((Theta.hits_on_edge _ _ q1 p d q2).2 c hc)))))))
        have e : st 2 = it := by simp [hst, hb]
        rw [e, ← this]
        simp [hb]
      · have hpm := hperm 2
        rw [f2, if_neg hb] at hpm
        have e : st 2 = true := by simp [hst, hb]
        rw [hpm.eq_nil, e]
        simp [hb, stateFrom]
    rw [this, Bool.and_eq_true, Bool.and_eq_true, s1, s2, g0, show st 0 = false from rfl, ← hd0]
    rfl

/-- C76: at most ten hits are stored, so that the array of sixteen does not overflow. -/
theorem C76_capacity (b : Ball) (p d : Vec3 ℝ) : (shellHits p d b.radius b.inner).length +
    (Phi.wedgeHits id b.startPhi b.deltaPhi p d).length + (Theta.thetaHits b.startTheta b.deltaTheta p d).length ≤ 10 := by
  have h1 : (shellHits p d b.radius b.inner).length ≤ 4 := by
    have hs : ∀ r o, (solveShell p d r o).length ≤ 2 := by
      intro r o
      rcases solveShell_cases p d r o with ⟨_, h⟩ | ⟨_, h⟩ <;> rw [h] <;> simp
    unfold shellHits
    rw [List.length_append]
    have := hs b.radius true
    split
    · have := hs b.inner false; omega
    · simp; omega
  have h2 : (Phi.wedgeHits id b.startPhi b.deltaPhi p d).length ≤ 2 := by
    have hf : ∀ f e, (Phi.wedgeFace id b.startPhi b.deltaPhi p d f e).1.length ≤ 1 := by
      intro f e
      unfold Phi.wedgeFace
      simp only
      split
      · simp
      · split
        · simp
        · split
          · split <;> simp
          · simp
    unfold Phi.wedgeHits
    simp only [List.length_append]
    exact Nat.add_le_add (hf 0 _) (hf 1 _)
  have h3 : (Theta.thetaHits b.startTheta b.deltaTheta p d).length ≤ 4 := by
    have hr : ∀ f th e t, (Theta.coneRoot b.startTheta b.deltaTheta p d f th e t).1.length ≤ 1 := by
      intro f th e t
      unfold Theta.coneRoot
      simp only
      split
      · simp
      · split
        · simp
        · split
          · split <;> simp
          · simp
    have hl : ∀ th, (Theta.coneRoots th p d).length ≤ 2 := by
      intro th
      unfold Theta.coneRoots
      simp only
      split
      · simp
      · split
        · simp
        · split <;> simp
    have hfold : ∀ (f : Nat) (th : ℝ) (l : List ℝ) (a : List (ℝ × Bool) × Bool), (l.foldl (fun acc t =>
        let r := Theta.coneRoot b.startTheta b.deltaTheta p d f th acc.2 t
        (acc.1 ++ r.1, r.2)) a).1.length ≤ a.1.length + l.length := by
      intro f th l
      induction l with
      | nil => intro a; simp
      | cons x xs ih =>
        intro a
        rw [List.foldl_cons]
        refine le_trans (ih _) ?_
        simp only [List.length_append, List.length_cons]
        have := hr f th a.2 x
        omega
    have hf : ∀ f e, (Theta.thetaFace b.startTheta b.deltaTheta p d f e).1.length ≤ 2 := by
      intro f e
      unfold Theta.thetaFace
      simp only
      split
      · simp
      · split
        · split <;> simp
        · have := hfold f (b.startTheta + f * b.deltaTheta) (Theta.coneRoots (b.startTheta + f * b.deltaTheta) p d) ([], e)
          refine le_trans this ?_
          simpa using hl _
    unfold Theta.thetaHits
    simp only [List.length_append]
    exact Nat.add_le_add (hf 0 _) (hf 1 _)
  omega

/-- C76: the constructors order the radii; the one with angles refuses extents that are not positive and polar angles that
are not between the poles up to 1e-9, limits the azimuth to a full turn, and notes a cut unless the range is full up to
1e-9. -/
theorem C76_constructors (radius inner sp dp s t : ℝ) :
    (make radius inner).inner = min inner radius ∧ (make radius inner).radius = max inner radius ∧
    (make radius inner).hasPhiCut = false ∧ (make radius inner).hasThetaCut = false ∧
    (makeCut radius inner sp dp s t = none ↔ dp ≤ 0 ∨ t ≤ 0 ∨ s < -1 / 1000000000 ∨ π + 1 / 1000000000 < s + t) ∧
    ∀ b, makeCut radius inner sp dp s t = some b → b.inner = min inner radius ∧ b.radius = max inner radius ∧
      b.startPhi = sp ∧ b.deltaPhi = min dp (2 * π) ∧ b.startTheta = s ∧ b.deltaTheta = t ∧
      (b.hasPhiCut = true ↔ dp < 2 * π - 1 / 1000000000) ∧
      (b.hasThetaCut = true ↔ 1 / 1000000000 < s ∨ t < π - 1 / 1000000000) := by
  have hr : radii radius inner = (max inner radius, min inner radius) := by
    unfold radii
    split
    · next h => rw [max_eq_left (le_of_lt h), min_eq_right (le_of_lt h)]
    · next h => rw [max_eq_right (not_lt.1 h), min_eq_left (not_lt.1 h)]
  have hd : (if dp > 2 * π then 2 * π else dp) = min dp (2 * π) := by
    split
    · next h => rw [min_eq_right (le_of_lt h)]
    · next h => rw [min_eq_left (not_lt.1 h)]
  refine ⟨by simp [make, hr], by simp [make, hr], rfl, rfl, ?_, ?_⟩
  · unfold makeCut
    simp only
    split
    · next h => simp [h]
    · next h =>
      split
      · next h' =>
        simp only [true_iff]
        rcases h' with h' | h'
        · exact Or.inr (Or.inr (Or.inl h'))
        · by_cases ht : t ≤ 0
          · exact Or.inr (Or.inl ht)
          · exact Or.inr (Or.inr (Or.inr (by push Not at ht; linarith)))
      · next h' =>
        push Not at h'
        split
        · next h2 =>
          simp only [true_iff]
          rcases h2 with h2 | h2
          · exact Or.inr (Or.inl h2)
          · exact Or.inr (Or.inr (Or.inr h2))
        · next h2 =>
          simp only [reduceCtorEq, false_iff]
          push Not at h2
          rintro (q | q | q | q)
          · exact h q
          · exact absurd q (not_le.2 h2.1)
          · exact absurd q (not_lt.2 h'.1)
          · exact absurd q (not_lt.2 h2.2)
  · intro b hb
    unfold makeCut at hb
    simp only [hr, hd] at hb
    split at hb
    · exact absurd hb (by simp)
    · split at hb
      · exact absurd hb (by simp)
      · split at hb
        · exact absurd hb (by simp)
        · simp only [Option.some.injEq] at hb
          subst hb
          refine ⟨rfl, rfl, rfl, rfl, rfl, rfl, ?_, ?_⟩
          · simp only [decide_eq_true_eq]
            constructor
            · intro h
              by_contra hc
              have := le_min (not_lt.1 hc) (show 2 * π - 1 / 1000000000 ≤ 2 * π by linarith)
              linarith
            · intro h; exact lt_of_le_of_lt (min_le_left _ _) h
          · simp only [decide_eq_true_eq, gt_iff_lt]

theorem state_all_false (l : List Isect) (t : ℝ) (hne : l ≠ []) (h : ∀ x ∈ l, x.distance < t ∧ x.entering = false) (s : Bool) :
    stateFrom s l t = false := by
  unfold stateFrom
  rw [List.filter_eq_self.2 (fun x hx => decide_eq_true (h x hx).1)]
  obtain ⟨l', x, e⟩ := List.eq_nil_or_concat l |>.resolve_left hne
  rw [e, List.concat_eq_append, List.getLast?_append]
  have := (h x (by rw [e]; simp)).2
  simp [this]

theorem tan_quarter : tan (π / 4) * tan (π / 4) = 1 := by rw [tan_pi_div_four]; norm_num

theorem tan_three_quarters : tan (π / 4 + π / 2) * tan (π / 4 + π / 2) = 1 := by
  rw [tan_eq_sin_div_cos, sin_add_pi_div_two, cos_add_pi_div_two, sin_pi_div_four, cos_pi_div_four]
  have : Real.sqrt 2 ≠ 0 := by positivity
  field_simp

/-- C76: a line that touches the cone bounding a band from inside the band is taken out of the band for good. -/
theorem C76_tangent_fails : ∃ (b : Ball) (p d : Vec3 ℝ), makeCut 3 0 0 (2 * π) (π / 4) (π / 2) = some b ∧ Vec3.dot d d = 1 ∧
    ∀ srt, IsHitSort srt → stateFrom false (computeCut srt b p d) (5 / 2) = false ∧ Solid b (p + Vec3.smul (5 / 2) d) := by
  have hpi3 : (3 : ℝ) < π := pi_gt_three
  have hpi4 : π ≤ 4 := pi_le_four
  set b : Ball := ⟨3, 0, 0, 2 * π, π / 4, π / 2, false, true⟩ with hb
  refine ⟨b, ⟨2, -2, 2⟩, ⟨0, 1, 0⟩, ?_, by simp [Vec3.dot], ?_⟩
  · unfold makeCut radii
    simp only
    rw [if_neg (by linarith), if_neg (by rintro (h | h) <;> linarith), if_neg (by rintro (h | h) <;> linarith)]
    rw [hb]
    congr 1
    congr 1
    · norm_num
    · norm_num
    · norm_num
    · norm_num
    · apply decide_eq_true; right; linarith
  intro srt hsrt
  have hth : Theta.thetaHits (π / 4) (π / 2) ⟨2, -2, 2⟩ ⟨0, 1, 0⟩ = [(2, false), (2, false)] := by
    have r1 : ∀ th, tan th * tan th = 1 → Theta.coneRoots th ⟨2, -2, 2⟩ ⟨0, 1, 0⟩ = [2, 2] := by
      intro th h
      unfold Theta.coneRoots Theta.form
      simp only [h]
      norm_num [precision]
    have f0 : Theta.thetaFace (π / 4) (π / 2) ⟨2, -2, 2⟩ ⟨0, 1, 0⟩ 0 false = ([(2, false), (2, false)], false) := by
      unfold Theta.thetaFace
      simp only [Nat.cast_zero, zero_mul, add_zero]
      rw [if_neg, if_neg, r1 _ tan_quarter]
      · have : ∀ e, Theta.coneRoot (π / 4) (π / 2) ⟨2, -2, 2⟩ ⟨0, 1, 0⟩ 0 (π / 4) e 2 = ([(2, false)], e) := by
          intro e
          unfold Theta.coneRoot
          simp only
          rw [if_neg, if_neg, if_neg]
          · rw [if_neg (show ¬ (π / 4 > π / 2) by linarith)]
            norm_num
          · unfold precision; norm_num
          · rintro ⟨h, _⟩; linarith
          · rintro ⟨_, h⟩; unfold precision at h; norm_num at h
        simp [this]
      · rw [not_lt, abs_of_nonpos (by linarith)]; norm_num; linarith
      · rintro (h | h)
        · norm_num at h; linarith
        · rw [abs_lt] at h; norm_num at h; linarith [h.1]
    have f1 : Theta.thetaFace (π / 4) (π / 2) ⟨2, -2, 2⟩ ⟨0, 1, 0⟩ 1 false = ([], false) := by
      unfold Theta.thetaFace
      simp only [Nat.cast_one, one_mul]
      rw [if_neg, if_neg, r1 _ tan_three_quarters]
      · have : ∀ e, Theta.coneRoot (π / 4) (π / 2) ⟨2, -2, 2⟩ ⟨0, 1, 0⟩ 1 (π / 4 + π / 2) e 2 = ([], e) := by
          intro e
          unfold Theta.coneRoot
          simp only
          rw [if_neg, if_pos]
          · refine ⟨by linarith, ?_⟩; unfold precision; norm_num
          · rintro ⟨h, _⟩; linarith
        simp [this]
      · rw [not_lt, abs_of_nonneg (by linarith)]; norm_num; linarith
      · rintro (h | h)
        · norm_num at h; linarith
        · rw [abs_lt] at h; norm_num at h; linarith [h.1]
    unfold Theta.thetaHits
    simp only [f0, f1, List.append_nil]
  have e2 : snap 2 = 2 := by unfold snap precision; norm_num
  constructor
  · unfold computeCut compute
    simp only [hb, hth, Bool.not_true, Bool.and_false, Bool.false_eq_true, if_false, if_true, List.append_nil]
    set all := (shellHits ⟨2, -2, 2⟩ ⟨0, 1, 0⟩ 3 0).map (fun c => (⟨hitAt ⟨2, -2, 2⟩ ⟨0, 1, 0⟩ c.1 c.2, 0⟩ : SHit)) ++
      [((2 : ℝ), false), (2, false)].map (fun c => (⟨hitAt ⟨2, -2, 2⟩ ⟨0, 1, 0⟩ c.1 c.2, 2⟩ : SHit)) with hall
    rw [if_neg (by rw [hall]; simp)]
    obtain ⟨hp, hs⟩ := hsrt all
    have f2 : ofSource 2 all = [hitAt ⟨2, -2, 2⟩ ⟨0, 1, 0⟩ 2 false, hitAt ⟨2, -2, 2⟩ ⟨0, 1, 0⟩ 2 false] := by
      rw [hall, ofSource, List.filter_append, List.filter_map]
      simp [Function.comp_def]
    have g2 : (ofSource 2 (srt all)).Perm (ofSource 2 all) := (hp.filter _).map _
    set st : Nat → Bool := fun k => if k = 0 then false else if k = 1 then true
      else Theta.thetaInRange (-⟨0, 1, 0⟩) (π / 4) (π / 2) with hst
    have hin0 : allIn 3 st = false := by simp [allIn, hst, List.range_succ]
    have hw := andWalk_state 3 (5 / 2) (srt all) hs st
    rw [hin0] at hw
    rw [hin0, hw]
    have : stateFrom (st 2) (ofSource 2 (srt all)) (5 / 2) = false := by
      refine state_all_false _ _ ?_ ?_ _
      · intro h; rw [h, f2] at g2; simpa using g2.length_eq
      · intro x hx
        have := g2.mem_iff.1 hx
        rw [f2] at this
        simp only [List.mem_cons, List.not_mem_nil, or_false, or_self] at this
        subst this
        simp only [hitAt, e2]
        norm_num
    simp only [allIn, List.range_succ, List.range_zero, List.nil_append, List.cons_append, List.all_cons, List.all_nil, this]
    simp
  · have hv : (⟨2, -2, 2⟩ : Vec3 ℝ) + Vec3.smul (5 / 2) ⟨0, 1, 0⟩ = ⟨2, 1 / 2, 2⟩ := by
      ext <;> simp; norm_num
    rw [hv]
    have hn : Vec3.norm (⟨2, 1 / 2, 2⟩ : Vec3 ℝ) ^ 2 = 33 / 4 := by rw [Theta.norm_sq]; norm_num
    have hn0 := Vec3.norm_nonneg (⟨2, 1 / 2, 2⟩ : Vec3 ℝ)
    have hne : (⟨2, 1 / 2, 2⟩ : Vec3 ℝ) ≠ 0 := by
      intro h; have := congrArg Vec3.x h; simp at this
    refine ⟨⟨hn0, by simp only [hb]; nlinarith⟩, by simp [hb], fun _ => ?_⟩
    constructor
    · rw [← not_lt, Theta.polar_lt_iff _ hne _ (by simp only [hb]; linarith) (by simp only [hb]; linarith)]
      simp only [hb, cos_pi_div_four, not_lt]
      have h2 : Real.sqrt 2 ^ 2 = 2 := Real.sq_sqrt (by norm_num)
      have h3 := Real.sqrt_nonneg 2
      have : (4 : ℝ) ≤ Vec3.norm (⟨2, 1 / 2, 2⟩ : Vec3 ℝ) * Real.sqrt 2 := by
        apply le_of_sq_le_sq _ (by positivity)
        rw [mul_pow, hn, h2]; norm_num
      linarith
    · rw [← not_lt, Theta.lt_polar_iff _ hne _ (by simp only [hb]; linarith) (by simp only [hb]; linarith)]
      simp only [hb, cos_add_pi_div_two, sin_pi_div_four, not_lt]
      have : 0 ≤ Vec3.norm (⟨2, 1 / 2, 2⟩ : Vec3 ℝ) * Real.sqrt 2 := by positivity
      linarith

/-- A line meeting the hypotheses of `C76_sphere` for a ball cut in both angles: it crosses the sphere at ±√6.875, the wedge
at ±0.75 and the cone of 45 degrees at ±1. -/
example : ∃ b : Ball, makeCut 3 0 (π / 4) (π / 2) (π / 4) (π / 2) = some b ∧ b.hasPhiCut = true ∧ b.hasThetaCut = true ∧
    ShellSpread b ⟨0, 3 / 4, 5 / 4⟩ ⟨1, 0, 0⟩ ∧ Phi.Clean b.startPhi b.deltaPhi ⟨0, 3 / 4, 5 / 4⟩ ⟨1, 0, 0⟩ ∧
    Phi.Spread b.startPhi b.deltaPhi ⟨0, 3 / 4, 5 / 4⟩ ⟨1, 0, 0⟩ ∧ Theta.Wellformed b.startTheta b.deltaTheta ∧
    Theta.Clean b.startTheta b.deltaTheta ⟨0, 3 / 4, 5 / 4⟩ ⟨1, 0, 0⟩ ∧
    Theta.Spread b.startTheta b.deltaTheta ⟨0, 3 / 4, 5 / 4⟩ ⟨1, 0, 0⟩ := by
  have hpi3 : (3 : ℝ) < π := pi_gt_three
  have hpi4 : π ≤ 4 := pi_le_four
  have hx : ∀ t : ℝ, (⟨0, 3 / 4, 5 / 4⟩ : Vec3 ℝ) + Vec3.smul t ⟨1, 0, 0⟩ = ⟨t, 3 / 4, 5 / 4⟩ := fun t => by ext <;> simp
  have hN : ∀ t : ℝ, Vec3.norm (⟨t, 3 / 4, 5 / 4⟩ : Vec3 ℝ) ^ 2 = t ^ 2 + 17 / 8 := fun t => by rw [Theta.norm_sq]; ring
  have hN0 : ∀ t : ℝ, 1 ≤ Vec3.norm (⟨t, 3 / 4, 5 / 4⟩ : Vec3 ℝ) := fun t => by
    apply le_of_sq_le_sq _ (Vec3.norm_nonneg _)
    rw [hN]; nlinarith [sq_nonneg t]
  have h2 : Real.sqrt 2 ^ 2 = 2 := Real.sq_sqrt (by norm_num)
  have h3 : (1 : ℝ) ≤ Real.sqrt 2 := by rw [Real.one_le_sqrt]; norm_num
  have hapart : ∀ (c t u : ℝ), 1 / 100 ≤ c → t ^ 2 = c → u ^ 2 = c → t < u → t + 2 * precision ≤ u := by
    intro c t u hc ht hu htu
    have : (u - t) * (u + t) = 0 := by linear_combination hu - ht
    rcases mul_eq_zero.1 this with h | h
    · linarith
    · unfold precision; nlinarith
  refine ⟨⟨3, 0, π / 4, π / 2, π / 4, π / 2, true, true⟩, ?_, rfl, rfl, ?_, ⟨by norm_num, ?_, Or.inr ?_⟩, ?_, ?_, ⟨by simp [Vec3.dot], ?_, ?_⟩, ?_⟩
  · unfold makeCut radii
    simp only
    rw [if_neg (by linarith), if_neg (by rintro (h | h) <;> linarith), if_neg (by rintro (h | h) <;> linarith)]
    congr 1
    congr 1
    · norm_num
    · norm_num
    · rw [if_neg (by linarith)]
    · rw [if_neg (by linarith)]; apply decide_eq_true; linarith
    · apply decide_eq_true; right; linarith
  · intro t u ht hu htu
    rw [hx] at ht hu
    have key : ∀ s : ℝ, (Vec3.norm (⟨s, 3 / 4, 5 / 4⟩ : Vec3 ℝ) = 3 ∨ Vec3.norm (⟨s, 3 / 4, 5 / 4⟩ : Vec3 ℝ) = 0) → s ^ 2 = 55 / 8 := by
      intro s h
      rcases h with h | h
      · have := hN s; rw [h] at this; linarith
      · have := hN0 s; rw [h] at this; linarith
    exact hapart _ t u (by norm_num) (key t ht) (key u hu) htu
  · intro alpha ha
    simp only [List.mem_cons, List.not_mem_nil, or_false] at ha
    have : precision ≤ |Real.sqrt 2 / 2| := by rw [abs_of_nonneg (by positivity)]; unfold precision; linarith
    rcases ha with rfl | rfl
    · simpa [Phi.planeDist] using this
    · simpa [Phi.planeDist, sin_add_pi_div_two] using this
  · intro alpha _ t _
    simp only
    nlinarith [sq_nonneg (0 + t * 1)]
  · intro t u ht hu _
    rw [hx] at ht hu
    simp only [Phi.planeDist, sin_add_pi_div_two, cos_add_pi_div_two, sin_pi_div_four, cos_pi_div_four] at ht hu
    have e1 : t = 3 / 4 := by
      have : Real.sqrt 2 * (3 / 4 - t) = 0 := by linear_combination 2 * ht
      rcases mul_eq_zero.1 this with h | h <;> linarith
    have e2 : u = -(3 / 4) := by
      have : Real.sqrt 2 * (3 / 4 + u) = 0 := by linear_combination (-2) * hu
      rcases mul_eq_zero.1 this with h | h <;> linarith
    rw [e1, e2]; unfold precision; norm_num
  · refine ⟨by simp only; linarith, by simp only; linarith, by simp only; linarith, Or.inr ?_, Or.inr ?_, ⟨?_, ?_⟩, ?_⟩ <;> simp only
    · norm_num; linarith
    · norm_num; linarith
    · norm_num; linarith
    · norm_num; linarith
    · intro th hth
      simp only [List.mem_cons, List.not_mem_nil, or_false] at hth
      right
      rcases hth with rfl | rfl
      · rw [abs_of_nonpos (by linarith)]; norm_num; linarith
      · rw [abs_of_nonneg (by linarith)]; norm_num; linarith
  · intro th hth _ _
    simp only [List.mem_cons, List.not_mem_nil, or_false] at hth
    have hpol : Theta.polar (-⟨1, 0, 0⟩) = π / 2 := by
      unfold Theta.polar; simp
    have htan : tan th * tan th = 1 := by
      rcases hth with rfl | rfl
      · exact tan_quarter
      · exact tan_three_quarters
    refine ⟨?_, ?_, ?_, ?_⟩
    · rw [hpol]
      rcases hth with rfl | rfl
      · rw [abs_of_nonneg (by linarith)]; linarith
      · rw [abs_of_nonpos (by linarith)]; linarith
    · intro h
      rcases hth with rfl | rfl <;> exfalso <;> linarith
    · intro _
      left
      unfold Theta.form precision; rw [htan]; norm_num
    · intro _ t ht
      rw [hx] at ht ⊢
      right
      unfold Theta.form at ht ⊢
      rw [htan] at ht ⊢
      simp only at ht ⊢
      refine ⟨?_, ?_, le_trans (by norm_num) (hN0 t)⟩
      · intro h
        have : t = 0 := by linarith
        rw [this] at ht; norm_num at ht
      · unfold precision; norm_num [abs_of_pos]
  · intro t ht
    rw [hx] at ht
    have := congrArg Vec3.y ht
    norm_num at this
  · have key : ∀ s : ℝ, Theta.OnEdge (π / 4) (π / 2) ⟨s, 3 / 4, 5 / 4⟩ → s ^ 2 = 1 := by
      intro s h
      have hne : (⟨s, 3 / 4, 5 / 4⟩ : Vec3 ℝ) ≠ 0 := by
        intro h; have := congrArg Vec3.y h; norm_num at this
      have hn := hN0 s
      have hcos : ∀ th, th = π / 4 ∨ th = π / 4 + π / 2 → Theta.polar ⟨s, 3 / 4, 5 / 4⟩ = th → s ^ 2 = 1 := by
        intro th hth h
        have a1 : ¬ Theta.polar ⟨s, 3 / 4, 5 / 4⟩ < th := by rw [h]; exact lt_irrefl _
        have a2 : ¬ th < Theta.polar ⟨s, 3 / 4, 5 / 4⟩ := by rw [h]; exact lt_irrefl _
        have b0 : 0 ≤ th := by rcases hth with rfl | rfl <;> linarith
        have b1 : th ≤ π := by rcases hth with rfl | rfl <;> linarith
        rw [Theta.polar_lt_iff _ hne _ b0 b1] at a1
        rw [Theta.lt_polar_iff _ hne _ b0 b1] at a2
        have e : (5 / 4 : ℝ) = Vec3.norm (⟨s, 3 / 4, 5 / 4⟩ : Vec3 ℝ) * cos th := by
          have := not_lt.1 a1
          have := not_lt.1 a2
          simp only at *
          linarith
        have hc2 : cos th ^ 2 = 1 / 2 := by
          rcases hth with rfl | rfl
          · rw [cos_pi_div_four, div_pow, h2]; norm_num
          · rw [cos_add_pi_div_two, sin_pi_div_four, neg_sq, div_pow, h2]; norm_num
        have e2 : (5 / 4 : ℝ) ^ 2 = Vec3.norm (⟨s, 3 / 4, 5 / 4⟩ : Vec3 ℝ) ^ 2 * cos th ^ 2 := by
          rw [← mul_pow, ← e]
        rw [hN, hc2] at e2
        linarith
      rcases h with h | h | h
      · exact absurd h hne
      · exact hcos _ (Or.inl rfl) h
      · exact hcos _ (Or.inr rfl) h
    intro t u ht hu htu
    rw [hx] at ht hu
    exact hapart 1 t u (by norm_num) (key t ht) (key u hu) htu

/-- Among equal distances the order is kept. -/
def StableSort (srt : List SHit → List SHit) : Prop :=
  IsHitSort srt ∧ ∀ l x, (srt l).filter (fun h => decide (h.isect.distance = x)) = l.filter (fun h => decide (h.isect.distance = x))

/-- C76: with the equator as the second edge of a band, a line through the centre is taken to be in the band on a side where
it is not, if equal distances keep their order. -/
theorem C76_equator_fails : ∃ (b : Ball) (p d : Vec3 ℝ), makeCut 3 0 0 (2 * π) (π / 4) (π / 4) = some b ∧ Vec3.dot d d = 1 ∧
    ∀ srt, StableSort srt → stateFrom false (computeCut srt b p d) 6 = true ∧ ¬ Solid b (p + Vec3.smul 6 d) := by
  have hpi3 : (3 : ℝ) < π := pi_gt_three
  have hpi4 : π ≤ 4 := pi_le_four
  set b : Ball := ⟨3, 0, 0, 2 * π, π / 4, π / 4, false, true⟩ with hb
  have hhalf : π / 4 + π / 4 = π / 2 := by ring
  refine ⟨b, ⟨0, 0, -5⟩, ⟨0, 0, 1⟩, ?_, by simp [Vec3.dot], ?_⟩
  · unfold makeCut radii
    simp only
    rw [if_neg (by linarith), if_neg (by rintro (h | h) <;> linarith), if_neg (by rintro (h | h) <;> linarith)]
    rw [hb]
    congr 1
    congr 1
    · norm_num
    · norm_num
    · norm_num
    · norm_num
    · apply decide_eq_true; right; linarith
  intro srt hsrt
  have hup : ∀ a : ℝ, 0 < a → Theta.polar ⟨0, 0, a⟩ = 0 := by
    intro a ha
    unfold Theta.polar
    have : Vec3.norm (⟨0, 0, a⟩ : Vec3 ℝ) = a := by
      show Real.sqrt (Vec3.dot _ _) = a
      rw [show Vec3.dot (⟨0, 0, a⟩ : Vec3 ℝ) ⟨0, 0, a⟩ = a ^ 2 by simp [Vec3.dot]; ring, Real.sqrt_sq ha.le]
    rw [this]
    simp [div_self ha.ne']
  have hth : Theta.thetaHits (π / 4) (π / 4) ⟨0, 0, -5⟩ ⟨0, 0, 1⟩ = [(5, false), (5, true)] := by
    have r1 : Theta.coneRoots (π / 4) ⟨0, 0, -5⟩ ⟨0, 0, 1⟩ = [5, 5] := by
      unfold Theta.coneRoots Theta.form
      simp only [tan_quarter]
      norm_num [precision]
    have f0 : Theta.thetaFace (π / 4) (π / 4) ⟨0, 0, -5⟩ ⟨0, 0, 1⟩ 0 false = ([(5, false)], true) := by
      unfold Theta.thetaFace
      simp only [Nat.cast_zero, zero_mul, add_zero]
      rw [if_neg, if_neg, r1]
      · have : ∀ e, Theta.coneRoot (π / 4) (π / 4) ⟨0, 0, -5⟩ ⟨0, 0, 1⟩ 0 (π / 4) e 5 = (if e then [] else [(5, false)], true) := by
          intro e
          have htr : Theta.thetaInRange ⟨0, 0, 1 / 1000000⟩ (π / 4) (π / 4) = false := by
            have hn : Vec3.norm (⟨0, 0, 1 / 1000000⟩ : Vec3 ℝ) = 1 / 1000000 := by
              show Real.sqrt (Vec3.dot _ _) = _
              rw [show Vec3.dot (⟨0, 0, 1 / 1000000⟩ : Vec3 ℝ) ⟨0, 0, 1 / 1000000⟩ = (1 / 1000000) ^ 2 by simp [Vec3.dot]; norm_num,
                Real.sqrt_sq (by norm_num)]
            rw [← Bool.not_eq_true, Theta.thetaInRange_eq _ _ _ (by rw [hn]; norm_num), hup _ (by norm_num)]
            rintro ⟨h, _⟩; linarith
          have hvec : (⟨0 + 5 * 0 + precision * 1000 * 0, 0 + 5 * 0 + precision * 1000 * 0, -5 + 5 * 1 + precision * 1000 * 1⟩ : Vec3 ℝ) =
              ⟨0, 0, 1 / 1000000⟩ := by
            unfold precision; ext <;> norm_num
          unfold Theta.coneRoot
          simp only [hvec, htr]
          rw [if_neg, if_neg, if_pos]
          · cases e <;> simp
          · unfold precision; norm_num
          · rintro ⟨h, _⟩; linarith
          · rintro ⟨_, h⟩; unfold precision at h; norm_num at h
        simp [this]
      · rw [not_lt, abs_of_nonpos (by linarith)]; norm_num; linarith
      · rintro (h | h)
        · norm_num at h; linarith
        · rw [abs_lt] at h; norm_num at h; linarith [h.1]
    have f1 : Theta.thetaFace (π / 4) (π / 4) ⟨0, 0, -5⟩ ⟨0, 0, 1⟩ 1 true = ([(5, true)], true) := by
      unfold Theta.thetaFace
      simp only [Nat.cast_one, one_mul, hhalf]
      rw [if_neg, if_pos, if_neg]
      · norm_num
      · unfold precision; norm_num
      · simp
      · rintro (h | h)
        · norm_num at h; linarith
        · rw [abs_lt] at h; norm_num at h; linarith [h.1]
    unfold Theta.thetaHits
    simp only [f0, f1, List.cons_append, List.nil_append]
  have hs3 : shellHits ⟨0, 0, -5⟩ ⟨0, 0, 1⟩ 3 0 = [(2, true), (8, false)] := by
    unfold shellHits
    have hperp : perp2 ⟨0, 0, -5⟩ ⟨0, 0, 1⟩ = 0 := by simp [perp2]
    have h9 : Real.sqrt (3 * 3 - 0) = 3 := by rw [show (3 * 3 - 0 : ℝ) = 3 ^ 2 by norm_num, Real.sqrt_sq (by norm_num)]
    rcases solveShell_cases ⟨0, 0, -5⟩ ⟨0, 0, 1⟩ 3 true with ⟨h, _⟩ | ⟨_, h⟩
    · rw [hperp] at h; norm_num at h
    · rw [h, hperp, h9]
      norm_num [Vec3.dot]
  have e2 : snap 2 = 2 := by unfold snap precision; norm_num
  have e5 : snap 5 = 5 := by unfold snap precision; norm_num
  have e8 : snap 8 = 8 := by unfold snap precision; norm_num
  constructor
  · unfold computeCut compute
    simp only [hb, hth, hs3, Bool.not_true, Bool.and_false, Bool.false_eq_true, if_false, if_true, List.append_nil]
    set all := [((2 : ℝ), true), (8, false)].map (fun c => (⟨hitAt ⟨0, 0, -5⟩ ⟨0, 0, 1⟩ c.1 c.2, 0⟩ : SHit)) ++
      [((5 : ℝ), false), (5, true)].map (fun c => (⟨hitAt ⟨0, 0, -5⟩ ⟨0, 0, 1⟩ c.1 c.2, 2⟩ : SHit)) with hall
    rw [if_neg (by rw [hall]; simp)]
    obtain ⟨hp, hs⟩ := hsrt.1 all
    have hst5 := hsrt.2 all 5
    have g2 : ofSource 2 (srt all) = [hitAt ⟨0, 0, -5⟩ ⟨0, 0, 1⟩ 5 false, hitAt ⟨0, 0, -5⟩ ⟨0, 0, 1⟩ 5 true] := by
      unfold ofSource
      have : (srt all).filter (fun h => h.source == 2) = (srt all).filter (fun h => decide (h.isect.distance = 5)) := by
        apply List.filter_congr
        intro x hx
        have := hp.mem_iff.1 hx
        rw [hall] at this
        simp only [List.map_cons, List.map_nil, List.cons_append, List.nil_append, List.mem_cons, List.not_mem_nil, or_false] at this
        rcases this with rfl | rfl | rfl | rfl <;> simp [hitAt, e2, e5, e8]
      rw [this, hst5, hall]
      simp [hitAt, e2, e5, e8]
    have g0 : ofSource 0 (srt all) = [hitAt ⟨0, 0, -5⟩ ⟨0, 0, 1⟩ 2 true, hitAt ⟨0, 0, -5⟩ ⟨0, 0, 1⟩ 8 false] := by
      have f0 : ofSource 0 all = [hitAt ⟨0, 0, -5⟩ ⟨0, 0, 1⟩ 2 true, hitAt ⟨0, 0, -5⟩ ⟨0, 0, 1⟩ 8 false] := by
        rw [hall]; simp [ofSource]
      rw [← f0]
      apply ofSource_sort hsrt.1
      rw [f0]
      norm_num [hitAt, e2, e8]
    have g1 : ofSource 1 (srt all) = [] := by
      have f1 : ofSource 1 all = [] := by rw [hall]; simp [ofSource]
      have : (ofSource 1 (srt all)).Perm (ofSource 1 all) := (hp.filter _).map _
      rw [f1] at this
      exact this.eq_nil
    set st : Nat → Bool := fun k => if k = 0 then false else if k = 1 then true
      else Theta.thetaInRange (-⟨0, 0, 1⟩) (π / 4) (π / 4) with hst
    have hin0 : allIn 3 st = false := by simp [allIn, hst, List.range_succ]
    have hw := andWalk_state 3 6 (srt all) hs st
    rw [hin0] at hw
    rw [hin0, hw]
    simp only [allIn, List.range_succ, List.range_zero, List.nil_append, List.cons_append, List.all_cons, List.all_nil, g0, g1, g2]
    norm_num [stateFrom, hitAt, e2, e5, e8, hst]
  · have hv : (⟨0, 0, -5⟩ : Vec3 ℝ) + Vec3.smul 6 ⟨0, 0, 1⟩ = ⟨0, 0, 1⟩ := by
      ext <;> simp; norm_num
    rw [hv]
    intro h
    have := (h.2.2 rfl).1
    rw [hup 1 (by norm_num)] at this
    simp only [hb] at this
    linarith

end Siren.Geometry.Sphere
