import Verif.Geometry.MeshClosed

set_option autoImplicit false
set_option linter.unusedSectionVars false
set_option linter.unusedSimpArgs false

/-!
# A tetrahedron as a mesh

Where the claims about closed meshes hold, and where they fail.
-/

namespace Siren.Geometry
namespace Mesh

open Siren

def vO : Vec3 ℝ := ⟨0, 0, 0⟩
def vX : Vec3 ℝ := ⟨1, 0, 0⟩
def vY : Vec3 ℝ := ⟨0, 1, 0⟩
def vZ : Vec3 ℝ := ⟨0, 0, 1⟩

/-- The tetrahedron with these vertices, its normals outwards. -/
def tetra : List Tri := [⟨vO, vY, vX⟩, ⟨vO, vX, vZ⟩, ⟨vO, vZ, vY⟩, ⟨vX, vY, vZ⟩]

/-- The same with one normal inwards. -/
def twisted : List Tri := [⟨vO, vY, vX⟩, ⟨vO, vX, vZ⟩, ⟨vO, vZ, vY⟩, ⟨vY, vX, vZ⟩]

theorem round_zero : roundAway ((0 : ℝ) * 1e10) = 0 := by
  unfold roundAway
  rw [if_pos (by norm_num), Int.floor_eq_iff]
  norm_num

theorem round_one : roundAway ((1 : ℝ) * 1e10) = 10000000000 := by
  unfold roundAway
  rw [if_pos (by norm_num), Int.floor_eq_iff]
  norm_num

theorem key_O : keyOf vO = (0, 0, 0) := by simp only [keyOf, vO, round_zero]
theorem key_X : keyOf vX = (10000000000, 0, 0) := by simp only [keyOf, vX, round_zero, round_one]
theorem key_Y : keyOf vY = (0, 10000000000, 0) := by simp only [keyOf, vY, round_zero, round_one]
theorem key_Z : keyOf vZ = (0, 0, 10000000000) := by simp only [keyOf, vZ, round_zero, round_one]

theorem count_list {α : Type} [DecidableEq α] (l : List α) (h : ∀ e ∈ l, l.count e = 2) (e : α) : l.count e = 0 ∨ l.count e = 2 := by
  by_cases he : e ∈ l
  · exact Or.inr (h e he)
  · exact Or.inl (List.count_eq_zero_of_not_mem he)

theorem tetra_closed : validate tetra = .closed := by
  rw [validate_iff]
  refine ⟨by simp [tetra], ?_⟩
  have : edges tetra = [s((0, 0, 0), (0, 10000000000, 0)), s((0, 10000000000, 0), (10000000000, 0, 0)), s((10000000000, 0, 0), (0, 0, 0)),
      s((0, 0, 0), (10000000000, 0, 0)), s((10000000000, 0, 0), (0, 0, 10000000000)), s((0, 0, 10000000000), (0, 0, 0)),
      s((0, 0, 0), (0, 0, 10000000000)), s((0, 0, 10000000000), (0, 10000000000, 0)), s((0, 10000000000, 0), (0, 0, 0)),
      s((10000000000, 0, 0), (0, 10000000000, 0)), s((0, 10000000000, 0), (0, 0, 10000000000)), s((0, 0, 10000000000), (10000000000, 0, 0))] := by
    simp [edges, tetra, edgesOf, key_O, key_X, key_Y, key_Z]
  rw [this]
  exact count_list _ (by decide +kernel)

theorem twisted_closed : validate twisted = .closed := by
  rw [validate_iff]
  refine ⟨by simp [twisted], ?_⟩
  have : edges twisted = [s((0, 0, 0), (0, 10000000000, 0)), s((0, 10000000000, 0), (10000000000, 0, 0)), s((10000000000, 0, 0), (0, 0, 0)),
      s((0, 0, 0), (10000000000, 0, 0)), s((10000000000, 0, 0), (0, 0, 10000000000)), s((0, 0, 10000000000), (0, 0, 0)),
      s((0, 0, 0), (0, 0, 10000000000)), s((0, 0, 10000000000), (0, 10000000000, 0)), s((0, 10000000000, 0), (0, 0, 0)),
      s((0, 10000000000, 0), (10000000000, 0, 0)), s((10000000000, 0, 0), (0, 0, 10000000000)), s((0, 0, 10000000000), (0, 10000000000, 0))] := by
    simp [edges, twisted, edgesOf, key_O, key_X, key_Y, key_Z]
  rw [this]
  exact count_list _ (by decide +kernel)

theorem corners {ts : List Tri} (h : ts = tetra ∨ ts = twisted) {v : Vec3 ℝ} (hv : v ∈ Vertices ts) : v = vO ∨ v = vX ∨ v = vY ∨ v = vZ := by
  obtain ⟨T, hT, hv⟩ := hv
  rcases h with rfl | rfl <;>
  · simp only [tetra, twisted, List.mem_cons, List.not_mem_nil, or_false] at hT
    rcases hT with rfl | rfl | rfl | rfl <;> simp only [Tri.Vertex] at hv <;> tauto

theorem keys_inj {ts : List Tri} (h : ts = tetra ∨ ts = twisted) : Set.InjOn keyOf (Vertices ts) := by
  intro u hu v hv huv
  rcases corners h hu with rfl | rfl | rfl | rfl <;> rcases corners h hv with rfl | rfl | rfl | rfl <;>
    first | rfl | (simp [key_O, key_X, key_Y, key_Z] at huv)

open Classical in
theorem following_cons (T : Tri) (ts : List Tri) (p q : Vec3 ℝ) : following (T :: ts) p q = ((if T.a = p ∧ T.b = q then 1 else 0) +
    (if T.b = p ∧ T.c = q then 1 else 0) + (if T.c = p ∧ T.a = q then 1 else 0)) + following ts p q := by
  unfold following
  rw [List.map_cons, List.sum_cons]
  congr

theorem tetra_oriented : Oriented tetra := by
  classical
  have swap : ∀ a b p q : Vec3 ℝ, (if a = p ∧ b = q then 1 else 0 : ℕ) = if b = q ∧ a = p then 1 else 0 := fun a b p q => by
    by_cases h : a = p ∧ b = q
    · rw [if_pos h, if_pos h.symm]
    · rw [if_neg h, if_neg (fun hc => h hc.symm)]
  intro p q
  unfold tetra
  rw [following_cons, following_cons, following_cons, following_cons, following_cons, following_cons, following_cons, following_cons]
  have z : ∀ p q, following [] p q = 0 := fun p q => rfl
  rw [z, z]
  simp only
  rw [swap vO vY q p, swap vY vX q p, swap vX vO q p, swap vO vX q p, swap vX vZ q p, swap vZ vO q p, swap vO vZ q p, swap vZ vY q p,
    swap vY vO q p, swap vX vY q p, swap vY vZ q p, swap vZ vX q p]
  ring

/-! ### A line through two faces -/

/-- A line along z. -/
noncomputable def oL : Vec3 ℝ := ⟨1 / 8, 1 / 4, -1⟩
def dL : Vec3 ℝ := ⟨0, 0, 1⟩

theorem dL_ne : dL ≠ 0 := by intro h; have := congrArg Vec3.z h; simp [dL] at this

theorem has_coords {T : Tri} {q : Vec3 ℝ} (h : T.Has q) : ∃ u v w : ℝ, 0 ≤ u ∧ 0 ≤ v ∧ 0 ≤ w ∧ u + v + w = 1 ∧
    q.x = u * T.a.x + v * T.b.x + w * T.c.x ∧ q.y = u * T.a.y + v * T.b.y + w * T.c.y ∧ q.z = u * T.a.z + v * T.b.z + w * T.c.z := by
  obtain ⟨u, v, w, hu, hv, hw, hs, rfl⟩ := h
  exact ⟨u, v, w, hu, hv, hw, hs, by simp, by simp, by simp⟩

theorem lineL {ts : List Tri} (h : ts = tetra ∨ ts = twisted) : Floats id ts ∧ ts.length ≤ 65535 ∧
    (∀ T ∈ ts, ∀ t, T.Has (at_ oL dL t) → |t| ≤ 1e308) ∧ Apart ts oL dL ∧ Generic ts oL dL := by
  have f1 : ∀ t, (⟨vO, vY, vX⟩ : Tri).Has (at_ oL dL t) → t = 1 := by
    intro t h
    obtain ⟨u, v, w, -, -, -, hs, hx, hy, hz⟩ := has_coords h
    simp [at_, oL, dL, vO, vX, vY, vZ] at hx hy hz
    linarith
  have f2 : ∀ t, ¬ (⟨vO, vX, vZ⟩ : Tri).Has (at_ oL dL t) := by
    intro t h
    obtain ⟨u, v, w, -, -, -, -, hx, hy, hz⟩ := has_coords h
    simp [at_, oL, dL, vO, vX, vY, vZ] at hx hy hz
  have f3 : ∀ t, ¬ (⟨vO, vZ, vY⟩ : Tri).Has (at_ oL dL t) := by
    intro t h
    obtain ⟨u, v, w, -, -, -, -, hx, hy, hz⟩ := has_coords h
    simp [at_, oL, dL, vO, vX, vY, vZ] at hx hy hz
  have f4 : ∀ t, (⟨vX, vY, vZ⟩ : Tri).Has (at_ oL dL t) → t = 13 / 8 := by
    intro t h
    obtain ⟨u, v, w, -, -, -, hs, hx, hy, hz⟩ := has_coords h
    simp [at_, oL, dL, vO, vX, vY, vZ] at hx hy hz
    linarith
  have f5 : ∀ t, (⟨vY, vX, vZ⟩ : Tri).Has (at_ oL dL t) → t = 13 / 8 := by
    intro t h
    obtain ⟨u, v, w, -, -, -, hs, hx, hy, hz⟩ := has_coords h
    simp [at_, oL, dL, vO, vX, vY, vZ] at hx hy hz
    linarith
  have far : ¬ Same (1 : ℝ) (13 / 8) := by unfold Same; norm_num [abs_of_neg, max_def]
  refine ⟨fun T _ k => ⟨rfl, rfl, rfl⟩, by rcases h with rfl | rfl <;> simp [tetra, twisted], ?_, ?_, ?_⟩
  · intro T hT t ht
    rcases h with rfl | rfl <;>
    · simp only [tetra, twisted, List.mem_cons, List.not_mem_nil, or_false] at hT
      rcases hT with rfl | rfl | rfl | rfl
      · rw [f1 t ht]; norm_num
      · exact absurd ht (f2 t)
      · exact absurd ht (f3 t)
      · first | rw [f4 t ht] | rw [f5 t ht]
        norm_num [abs_of_pos]
  · rcases h with rfl | rfl
    · unfold Apart tetra
      simp only [List.pairwise_cons, List.mem_cons, List.not_mem_nil, or_false, forall_eq_or_imp, forall_eq]
      refine ⟨⟨fun t t' _ h => absurd h (f2 t'), fun t t' _ h => absurd h (f3 t'), fun t t' h h' => ?_⟩,
        ⟨fun t t' h _ => absurd h (f2 t), fun t t' h _ => absurd h (f2 t)⟩, fun t t' h _ => absurd h (f3 t), by simp⟩
      rw [f1 t h, f4 t' h']; exact far
    · unfold Apart twisted
      simp only [List.pairwise_cons, List.mem_cons, List.not_mem_nil, or_false, forall_eq_or_imp, forall_eq]
      refine ⟨⟨fun t t' _ h => absurd h (f2 t'), fun t t' _ h => absurd h (f3 t'), fun t t' h h' => ?_⟩,
        ⟨fun t t' h _ => absurd h (f2 t), fun t t' h _ => absurd h (f2 t)⟩, fun t t' h _ => absurd h (f3 t), by simp⟩
      rw [f1 t h, f5 t' h']; exact far
  · intro T hT t ⟨u, v, w, hu, hv, hw, hs, h0, hq⟩
    have hx := congrArg Vec3.x hq
    have hy := congrArg Vec3.y hq
    have hz := congrArg Vec3.z hq
    rcases h with rfl | rfl <;>
    · simp only [tetra, twisted, List.mem_cons, List.not_mem_nil, or_false] at hT
      rcases hT with rfl | rfl | rfl | rfl <;> simp [at_, oL, dL, vO, vX, vY, vZ] at hx hy hz <;> rcases h0 with h0 | h0 | h0 <;> subst h0 <;> linarith

/-- The hypotheses of the theorems about closed and oriented meshes are met. -/
example : validate tetra = .closed ∧ Oriented tetra ∧ Set.InjOn keyOf (Vertices tetra) ∧ dL ≠ 0 ∧ Floats id tetra ∧ tetra.length ≤ 65535 ∧
    (∀ T ∈ tetra, ∀ t, T.Has (at_ oL dL t) → |t| ≤ 1e308) ∧ Apart tetra oL dL ∧ Generic tetra oL dL :=
  ⟨tetra_closed, tetra_oriented, keys_inj (Or.inl rfl), dL_ne, lineL (Or.inl rfl)⟩

variable {srt : List Isect → List Isect}

/-- C131 fails for meshes that are only validated: `ValidateClosed` does not look at the senses of the triangles, and accepts a
tetrahedron that a line enters twice and never leaves. -/
theorem C131_senses_fails (nth : Nth) (hsrt : IsIsectSort srt) : ∃ (ts : List Tri) (o d : Vec3 ℝ), validate ts = .closed ∧ d ≠ 0 ∧
    Generic ts o d ∧ (intersections id nth srt ts o d).length = 2 ∧ ∀ i ∈ intersections id nth srt ts o d, i.entering = true := by
  obtain ⟨h1, h2, h3, h4, h5⟩ := lineL (ts := twisted) (Or.inr rfl)
  refine ⟨twisted, oL, dL, twisted_closed, dL_ne, h5, ?_, ?_⟩
  · have hp := reported nth hsrt h1 h2 dL_ne h3 h4
    rw [hp.length_eq]
    have n2 : hitOf oL dL ⟨vO, vX, vZ⟩ = none := by
      cases h : hitOf oL dL ⟨vO, vX, vZ⟩ with
      | none => rfl
      | some i =>
        have := ((hitOf_some dL_ne).mp h).1
        simp [Tri.normal, Vec3.dot, Vec3.cross, dL, vO, vX, vZ] at this
    have n3 : hitOf oL dL ⟨vO, vZ, vY⟩ = none := by
      cases h : hitOf oL dL ⟨vO, vZ, vY⟩ with
      | none => rfl
      | some i =>
        have := ((hitOf_some dL_ne).mp h).1
        simp [Tri.normal, Vec3.dot, Vec3.cross, dL, vO, vY, vZ] at this
    have s1 : hitOf oL dL ⟨vO, vY, vX⟩ = some ⟨1, 0, true, at_ oL dL 1⟩ := by
      refine (hitOf_some dL_ne).mpr ⟨?_, ⟨5 / 8, 1 / 4, 1 / 8, by norm_num, by norm_num, by norm_num, by norm_num, ?_⟩, ?_, rfl, rfl⟩
      · simp [Tri.normal, Vec3.dot, Vec3.cross, dL, vO, vX, vY]
      · ext <;> simp [at_, oL, dL, vO, vX, vY]
      · simp [Tri.normal, Vec3.dot, Vec3.cross, dL, vO, vX, vY]
    have s4 : hitOf oL dL ⟨vY, vX, vZ⟩ = some ⟨13 / 8, 0, true, at_ oL dL (13 / 8)⟩ := by
      refine (hitOf_some dL_ne).mpr ⟨?_, ⟨1 / 4, 1 / 8, 5 / 8, by norm_num, by norm_num, by norm_num, by norm_num, ?_⟩, ?_, rfl, rfl⟩
      · simp [Tri.normal, Vec3.dot, Vec3.cross, dL, vX, vY, vZ]
      · ext <;> simp [at_, oL, dL, vX, vY, vZ] <;> norm_num
      · simp [Tri.normal, Vec3.dot, Vec3.cross, dL, vX, vY, vZ]
    simp [twisted, List.filterMap_cons, n2, n3, s1, s4]
  · intro i hi
    obtain ⟨-, T, hT, a, b, c⟩ := (C131_sound id nth hsrt twisted oL dL_ne).2 i hi
    rw [c]
    simp only [twisted, List.mem_cons, List.not_mem_nil, or_false] at hT
    rcases hT with rfl | rfl | rfl | rfl <;> simp [Tri.normal, Vec3.dot, Vec3.cross, dL, vO, vX, vY, vZ] at a ⊢

/-! ### A line that touches an edge -/

noncomputable def oE : Vec3 ℝ := ⟨1 / 2, 1 / 2, 0⟩
def dE : Vec3 ℝ := ⟨1, -1, 1⟩

theorem dE_ne : dE ≠ 0 := by intro h; have := congrArg Vec3.z h; simp [dE] at this

/-- C131 fails for lines that meet an edge: a line that touches an edge of a closed and oriented tetrahedron from outside, and has no
other point in common with it, is reported to cross its surface once. -/
theorem C131_graze_fails (nth : Nth) (hsrt : IsIsectSort srt) : ∃ (ts : List Tri) (o d : Vec3 ℝ), validate ts = .closed ∧ Oriented ts ∧
    d ≠ 0 ∧ (∀ T ∈ ts, ∀ t, T.Has (at_ o d t) → t = 0) ∧ (intersections id nth srt ts o d).length = 1 := by
  have only : ∀ T ∈ tetra, ∀ t, T.Has (at_ oE dE t) → t = 0 := by
    intro T hT t h
    obtain ⟨u, v, w, hu, hv, hw, hs, hx, hy, hz⟩ := has_coords h
    simp only [tetra, List.mem_cons, List.not_mem_nil, or_false] at hT
    rcases hT with rfl | rfl | rfl | rfl <;> simp [at_, oE, dE, vO, vX, vY, vZ] at hx hy hz <;> linarith
  refine ⟨tetra, oE, dE, tetra_closed, tetra_oriented, dE_ne, only, ?_⟩
  have n2 : hitOf oE dE ⟨vO, vX, vZ⟩ = none := by
    cases h : hitOf oE dE ⟨vO, vX, vZ⟩ with
    | none => rfl
    | some i =>
      obtain ⟨-, hh, -⟩ := (hitOf_some dE_ne).mp h
      have h0 := only _ (by simp [tetra]) _ hh
      obtain ⟨u, v, w, hu, hv, hw, hs, hx, hy, hz⟩ := has_coords hh
      rw [h0] at hx hy hz
      simp [at_, oE, dE, vO, vX, vY, vZ] at hx hy hz
  have n3 : hitOf oE dE ⟨vO, vZ, vY⟩ = none := by
    cases h : hitOf oE dE ⟨vO, vZ, vY⟩ with
    | none => rfl
    | some i =>
      obtain ⟨-, hh, -⟩ := (hitOf_some dE_ne).mp h
      have h0 := only _ (by simp [tetra]) _ hh
      obtain ⟨u, v, w, hu, hv, hw, hs, hx, hy, hz⟩ := has_coords hh
      rw [h0] at hx hy hz
      simp [at_, oE, dE, vO, vX, vY, vZ] at hx hy hz
  have s1 : hitOf oE dE ⟨vO, vY, vX⟩ = some ⟨0, 0, true, at_ oE dE 0⟩ := by
    refine (hitOf_some dE_ne).mpr ⟨?_, ⟨0, 1 / 2, 1 / 2, by norm_num, by norm_num, by norm_num, by norm_num, ?_⟩, ?_, rfl, rfl⟩
    · simp [Tri.normal, Vec3.dot, Vec3.cross, dE, vO, vX, vY]
    · ext <;> simp [at_, oE, dE, vO, vX, vY]
    · simp [Tri.normal, Vec3.dot, Vec3.cross, dE, vO, vX, vY]
  have s4 : hitOf oE dE ⟨vX, vY, vZ⟩ = some ⟨0, 0, false, at_ oE dE 0⟩ := by
    refine (hitOf_some dE_ne).mpr ⟨?_, ⟨1 / 2, 1 / 2, 0, by norm_num, by norm_num, by norm_num, by norm_num, ?_⟩, ?_, rfl, rfl⟩
    · simp [Tri.normal, Vec3.dot, Vec3.cross, dE, vX, vY, vZ]
    · ext <;> simp [at_, oE, dE, vX, vY, vZ]
    · simp [Tri.normal, Vec3.dot, Vec3.cross, dE, vX, vY, vZ]
  have hp : ((build id nth tetra).hits oE dE).Perm [⟨0, 0, true, at_ oE dE 0⟩, ⟨0, 0, false, at_ oE dE 0⟩] := by
    have := build_perm (rnd := id) (ts := tetra) (fun T _ k => ⟨rfl, rfl, rfl⟩) nth (o := oE) dE_ne
      (fun T hT t h => by rw [only T hT t h]; norm_num) _ tetra rfl (by simp [tetra]) (fun _ h => h)
    refine this.trans ?_
    simp [tetra, List.filterMap_cons, n2, n3, s1, s4]
  have hq := (hsrt ((build id nth tetra).hits oE dE)).1.trans hp
  unfold intersections
  rw [if_neg (by simp [tetra])]
  generalize srt ((build id nth tetra).hits oE dE) = l at hq
  have hlen := hq.length_eq
  have h0 : ∀ i ∈ l, i.distance = 0 := by
    intro i hi
    have := hq.subset hi
    simp only [List.mem_cons, List.not_mem_nil, or_false] at this
    rcases this with rfl | rfl <;> rfl
  match l, hlen, h0 with
  | [a, b], _, h0 =>
    have ha := h0 a (by simp)
    have hb := h0 b (by simp)
    show (a :: skip a.distance [b]).length = 1
    rw [skip, ha, hb, if_pos (by norm_num)]
    rfl

end Mesh
end Siren.Geometry
