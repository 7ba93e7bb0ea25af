import Verif.Geometry.MeshWind
import Verif.Geometry.AABB
import Mathlib.Data.Sym.Sym2
import Mathlib.Data.ZMod.Basic
import Mathlib.Algebra.BigOperators.Group.Finset.Basic
import Mathlib.Algebra.Order.Floor.Ring

set_option autoImplicit false
set_option linter.unusedSectionVars false
set_option linter.unusedSimpArgs false

/-!
# Closed meshes

`TriangularMesh::ValidateClosed` (`geometry/private/GeometryMesh.cxx`) and what it means for the intersections with a line.
-/

namespace Siren.Geometry
namespace Mesh

open Siren

/-! ### Model -/

open Classical in
/-- `std::round`: to the nearest, halves away from zero. -/
noncomputable def roundAway (x : ℝ) : ℤ := if 0 ≤ x then ⌊x + 1 / 2⌋ else -⌊-x + 1 / 2⌋

/-- `VertexKey` (GeometryMesh.cxx:502-518), without the limits of `int64_t`. -/
abbrev Key := ℤ × ℤ × ℤ

noncomputable def keyOf (v : Vec3 ℝ) : Key := (roundAway (v.x * 1e10), roundAway (v.y * 1e10), roundAway (v.z * 1e10))

/-- The edges a triangle adds to `edge_count` (GeometryMesh.cxx:537-552). The numbers of two vertices are equal exactly if their keys
are; an `EdgeKey` is a pair without order. -/
noncomputable def edgesOf (T : Tri) : List (Sym2 Key) :=
  if keyOf T.a = keyOf T.b ∨ keyOf T.b = keyOf T.c ∨ keyOf T.c = keyOf T.a then []
  else [s(keyOf T.a, keyOf T.b), s(keyOf T.b, keyOf T.c), s(keyOf T.c, keyOf T.a)]

/-- GeometryMesh.cxx:535-553. -/
noncomputable def edges (ts : List Tri) : List (Sym2 Key) := ts.flatMap edgesOf

/-- `boundary_edges` and `nonmanifold_edges` (GeometryMesh.cxx:555-560). -/
noncomputable def boundaryEdges (ts : List Tri) : ℕ := ((edges ts).dedup.filter fun e => (edges ts).count e = 1).length
noncomputable def nonmanifoldEdges (ts : List Tri) : ℕ :=
  ((edges ts).dedup.filter fun e => (edges ts).count e ≠ 1 ∧ (edges ts).count e > 2).length

/-- What the returned text says; `closed` is the empty text. -/
inductive Verdict where
  | noTriangles
  | problems (boundary nonmanifold : ℕ)
  | closed
  deriving DecidableEq

/-- `TriangularMesh::ValidateClosed` (GeometryMesh.cxx:496-574). -/
noncomputable def validate (ts : List Tri) : Verdict :=
  if ts.isEmpty then .noTriangles
  else if boundaryEdges ts > 0 ∨ nonmanifoldEdges ts > 0 then .problems (boundaryEdges ts) (nonmanifoldEdges ts)
  else .closed

/-- `TriangularMesh::GetBoundingBox` (GeometryMesh.cxx:478-486). -/
noncomputable def boundingBox (big : ℝ) (ts : List Tri) : AABB ℝ :=
  ts.foldl (fun b T => ((b.expand T.a).expand T.b).expand T.c) (AABB.empty big)

/-! ### Specification -/

/-- A vertex of a triangle. -/
def Tri.Vertex (T : Tri) (v : Vec3 ℝ) : Prop := v = T.a ∨ v = T.b ∨ v = T.c

/-- A vertex of a mesh. -/
def Vertices (ts : List Tri) : Set (Vec3 ℝ) := {v | ∃ T ∈ ts, T.Vertex v}

/-- The vertices of a triangle are three points. -/
def Tri.Proper (T : Tri) : Prop := T.a ≠ T.b ∧ T.b ≠ T.c ∧ T.c ≠ T.a

/-- The number of proper triangles with both points as vertices. -/
noncomputable def sharing (ts : List Tri) (p q : Vec3 ℝ) : ℕ :=
  letI := Classical.decPred fun T : Tri => T.Proper ∧ T.Vertex p ∧ T.Vertex q
  ts.countP fun T => T.Proper ∧ T.Vertex p ∧ T.Vertex q

/-- The line meets no edge of the mesh. -/
def Generic (ts : List Tri) (o d : Vec3 ℝ) : Prop := ∀ T ∈ ts, ∀ t, ¬ T.OnEdge (at_ o d t)

/-- The number of triangles in which a vertex follows another. -/
noncomputable def following (ts : List Tri) (p q : Vec3 ℝ) : ℕ :=
  letI := Classical.decEq (Vec3 ℝ)
  (ts.map fun T => (if T.a = p ∧ T.b = q then 1 else 0) + (if T.b = p ∧ T.c = q then 1 else 0) + (if T.c = p ∧ T.a = q then 1 else 0)).sum

/-- Neighbours run through their common edge in opposite senses. -/
def Oriented (ts : List Tri) : Prop := ∀ p q, following ts p q = following ts q p

/-- No two triangles are crossed at distances the code takes for the same. -/
def Apart (ts : List Tri) (o d : Vec3 ℝ) : Prop :=
  ts.Pairwise fun T T' => ∀ t t', T.Has (at_ o d t) → T'.Has (at_ o d t') → ¬ Same t t'

/-! ### Counting -/

variable {o d : Vec3 ℝ} {srt : List Isect → List Isect}

theorem same_comm {a b : ℝ} : Same a b ↔ Same b a := by
  unfold Same
  rw [abs_sub_comm, max_comm |b|]

theorem signed_sum (ts : List Tri) : (ts.map (signed o d)).sum =
    ((ts.filterMap (hitOf o d)).countP (fun i => !i.entering) : ℤ) - ((ts.filterMap (hitOf o d)).countP (fun i => i.entering) : ℤ) := by
  induction ts with
  | nil => simp
  | cons T ts ih =>
    rw [List.map_cons, List.sum_cons, ih, List.filterMap_cons]
    unfold signed
    cases h : hitOf o d T with
    | none => simp
    | some i =>
      simp only [List.countP_cons]
      cases i.entering <;> simp <;> ring

theorem signed_cast (T : Tri) : ((signed o d T : ℤ) : ZMod 2) = if (hitOf o d T).isSome then 1 else 0 := by
  unfold signed
  cases hitOf o d T with
  | none => simp
  | some i =>
    simp only [Option.isSome_some, if_true]
    split
    · decide
    · decide

theorem hits_cast (ts : List Tri) : ((ts.filterMap (hitOf o d)).length : ZMod 2) = ((ts.map (signed o d)).sum : ℤ) := by
  induction ts with
  | nil => simp
  | cons T ts ih =>
    rw [List.map_cons, List.sum_cons, Int.cast_add, ← ih, signed_cast, List.filterMap_cons]
    cases hitOf o d T with
    | none => simp
    | some i => simp [add_comm]

/-- The winding of an edge of the mesh. -/
noncomputable def W (o d p q : Vec3 ℝ) : ℤ := wind (across o d p) (across o d q)

theorem W_swap (p q : Vec3 ℝ) : W o d q p = - W o d p q := wind_swap _ _

theorem W_self (p : Vec3 ℝ) : W o d p p = 0 := by
  have := W_swap (o := o) (d := d) p p
  omega

theorem signed_W (hd : d ≠ 0) {ts : List Tri} (hg : Generic ts o d) {T : Tri} (hT : T ∈ ts) :
    signed o d T = W o d T.a T.b + W o d T.b T.c + W o d T.c T.a := signed_eq hd (hg T hT)

/-! ### Orientation -/

/-- The edges of the mesh, with their senses. -/
def arcs (ts : List Tri) : List (Vec3 ℝ × Vec3 ℝ) := ts.flatMap fun T => [(T.a, T.b), (T.b, T.c), (T.c, T.a)]

theorem signed_arcs (hd : d ≠ 0) {ts : List Tri} (hg : Generic ts o d) :
    (ts.map (signed o d)).sum = ((arcs ts).map fun e => W o d e.1 e.2).sum := by
  induction ts with
  | nil => simp [arcs]
  | cons T ts ih =>
    rw [List.map_cons, List.sum_cons, signed_W hd hg List.mem_cons_self, ih (fun T hT => hg T (List.mem_cons_of_mem _ hT))]
    simp only [arcs, List.flatMap_cons, List.map_append, List.sum_append, List.map_cons, List.map_nil, List.sum_cons, List.sum_nil]
    ring

open Classical in
theorem count_arcs (ts : List Tri) (p q : Vec3 ℝ) : (arcs ts).count (p, q) = following ts p q := by
  induction ts with
  | nil => simp [arcs, following]
  | cons T ts ih =>
    have e1 : arcs (T :: ts) = (T.a, T.b) :: (T.b, T.c) :: (T.c, T.a) :: arcs ts := rfl
    have e2 : following (T :: ts) p q = ((if T.a = p ∧ T.b = q then 1 else 0) + (if T.b = p ∧ T.c = q then 1 else 0) +
      (if T.c = p ∧ T.a = q then 1 else 0)) + following ts p q := by
      unfold following
      rw [List.map_cons, List.sum_cons]
      congr
    rw [e1, e2, List.count_cons, List.count_cons, List.count_cons, ih]
    simp only [beq_iff_eq, Prod.mk.injEq]
    omega

theorem arcs_perm {ts : List Tri} (h : Oriented ts) : ((arcs ts).map Prod.swap).Perm (arcs ts) := by
  classical
  rw [List.perm_iff_count]
  rintro ⟨p, q⟩
  have h1 : ((arcs ts).map Prod.swap).count (p, q) = (arcs ts).count (q, p) := by
    have := List.count_map_of_injective (arcs ts) Prod.swap Prod.swap_injective (q, p)
    exact this
  rw [h1]
  have e1 := count_arcs ts q p
  have e2 := count_arcs ts p q
  convert (e1.trans ((h q p).trans e2.symm))

theorem balance (hd : d ≠ 0) {ts : List Tri} (hg : Generic ts o d) (h : Oriented ts) : (ts.map (signed o d)).sum = 0 := by
  rw [signed_arcs hd hg]
  have h1 := ((arcs_perm h).map fun e => W o d e.1 e.2).sum_eq
  rw [List.map_map] at h1
  have h2 : ((fun e : Vec3 ℝ × Vec3 ℝ => W o d e.1 e.2) ∘ Prod.swap) = fun e => - W o d e.1 e.2 := by
    funext e; exact W_swap _ _
  have h3 : ∀ l : List (Vec3 ℝ × Vec3 ℝ), (l.map fun e => - W o d e.1 e.2).sum = - (l.map fun e => W o d e.1 e.2).sum := by
    intro l
    induction l with
    | nil => simp
    | cons e l ih => rw [List.map_cons, List.map_cons, List.sum_cons, List.sum_cons, ih]; ring
  rw [h2, h3] at h1
  omega

/-! ### Validated meshes -/

theorem dedup_count {α : Type} [DecidableEq α] (l : List α) (P : ℕ → Bool) (hP : P 0 = false) :
    ((l.dedup.filter fun e => P (l.count e)).length = 0) ↔ ∀ e, P (l.count e) = false := by
  rw [List.length_eq_zero_iff, List.filter_eq_nil_iff]
  constructor
  · intro h e
    by_cases he : e ∈ l
    · simpa using h e (List.mem_dedup.mpr he)
    · rw [List.count_eq_zero_of_not_mem he, hP]
  · intro h e _
    rw [h e]; simp

theorem validate_iff (ts : List Tri) : validate ts = .closed ↔ ts ≠ [] ∧ ∀ e, (edges ts).count e = 0 ∨ (edges ts).count e = 2 := by
  unfold validate
  have b := dedup_count (edges ts) (fun n => decide (n = 1)) (by simp)
  have n := dedup_count (edges ts) (fun n => decide (n ≠ 1 ∧ n > 2)) (by simp)
  have b' : boundaryEdges ts = 0 ↔ ∀ e, (edges ts).count e ≠ 1 := by unfold boundaryEdges; rw [b]; simp
  have n' : nonmanifoldEdges ts = 0 ↔ ∀ e, ¬ ((edges ts).count e ≠ 1 ∧ (edges ts).count e > 2) := by
    unfold nonmanifoldEdges; rw [n]; simp
  by_cases h0 : ts = []
  · simp [h0]
  · rw [if_neg (by simpa using h0)]
    by_cases hb : boundaryEdges ts > 0 ∨ nonmanifoldEdges ts > 0
    · rw [if_pos hb]
      constructor
      · intro h; cases h
      · rintro ⟨-, h⟩
        exfalso
        rcases hb with hb | hb
        · exact hb.ne' (b'.mpr fun e h1 => by rcases h e with h | h <;> omega)
        · exact hb.ne' (n'.mpr fun e h1 => by rcases h e with h | h <;> omega)
    · rw [if_neg hb]
      push Not at hb
      refine ⟨fun _ => ⟨h0, fun e => ?_⟩, fun _ => rfl⟩
      have h1 := b'.mp (by omega) e
      have h2 := n'.mp (by omega) e
      omega

theorem edges_cons (T : Tri) (ts : List Tri) : edges (T :: ts) = edgesOf T ++ edges ts := rfl

/-- A sum over a list in which everything occurs an even number of times. -/
theorem sum_even {α : Type} [DecidableEq α] (l : List α) (f : α → ZMod 2) (h : ∀ e, l.count e = 0 ∨ l.count e = 2) : (l.map f).sum = 0 := by
  rw [Finset.sum_list_map_count]
  refine Finset.sum_eq_zero fun e _ => ?_
  rcases h e with h | h
  · rw [h, zero_smul]
  · rw [h, two_nsmul]; exact CharTwo.add_self_eq_zero _

theorem W_cast_swap (p q : Vec3 ℝ) : ((W o d q p : ℤ) : ZMod 2) = (W o d p q : ℤ) := by
  rw [W_swap, Int.cast_neg]; exact CharTwo.neg_eq _

theorem even_hits (hd : d ≠ 0) {ts : List Tri} (hg : Generic ts o d) (hk : Set.InjOn keyOf (Vertices ts)) (hv : validate ts = .closed) :
    Even (ts.filterMap (hitOf o d)).length := by
  classical
  rw [← ZMod.natCast_eq_zero_iff_even, hits_cast]
  obtain ⟨-, hc⟩ := (validate_iff ts).mp hv
  let g : Key → Vec3 ℝ := Function.invFunOn keyOf (Vertices ts)
  have gk : ∀ v ∈ Vertices ts, g (keyOf v) = v := fun v h => hk.leftInvOn_invFunOn h
  let f : Sym2 Key → ZMod 2 := Sym2.lift ⟨fun p q => ((W o d (g p) (g q) : ℤ) : ZMod 2), fun p q => W_cast_swap _ _⟩
  have fk : ∀ u ∈ Vertices ts, ∀ v ∈ Vertices ts, f s(keyOf u, keyOf v) = ((W o d u v : ℤ) : ZMod 2) := by
    intro u hu v hv
    show ((W o d (g (keyOf u)) (g (keyOf v)) : ℤ) : ZMod 2) = _
    rw [gk u hu, gk v hv]
  have key : ∀ l : List Tri, (∀ T ∈ l, T ∈ ts) → (((l.map (signed o d)).sum : ℤ) : ZMod 2) = ((edges l).map f).sum := by
    intro l
    induction l with
    | nil => intro _; simp [edges]
    | cons T l ih =>
      intro hl
      have hT := hl T List.mem_cons_self
      have va : T.a ∈ Vertices ts := ⟨T, hT, Or.inl rfl⟩
      have vb : T.b ∈ Vertices ts := ⟨T, hT, Or.inr (Or.inl rfl)⟩
      have vc : T.c ∈ Vertices ts := ⟨T, hT, Or.inr (Or.inr rfl)⟩
      rw [List.map_cons, List.sum_cons, Int.cast_add, ih (fun S h => hl S (List.mem_cons_of_mem _ h)), edges_cons, List.map_append,
        List.sum_append, signed_W hd hg hT]
      congr 1
      unfold edgesOf
      split
      next h =>
        rw [List.map_nil, List.sum_nil]
        have : W o d T.a T.b + W o d T.b T.c + W o d T.c T.a = 0 := by
          rcases h with h | h | h
          · rw [hk va vb h, W_self, W_swap T.b T.c]; ring
          · rw [hk vb vc h, W_self, W_swap T.c T.a]; ring
          · rw [hk vc va h, W_self, W_swap T.a T.b]; ring
        rw [this]; simp
      next h =>
        simp only [List.map_cons, List.map_nil, List.sum_cons, List.sum_nil, fk _ va _ vb, fk _ vb _ vc, fk _ vc _ va]
        push_cast
        ring
  rw [key ts fun _ h => h]
  exact sum_even _ f hc

theorem count_three {α : Type} [DecidableEq α] {A B C P Q : α} (h1 : A ≠ B) (h2 : B ≠ C) (h3 : C ≠ A) (h : P ≠ Q) :
    [s(A, B), s(B, C), s(C, A)].count s(P, Q) = if (P = A ∨ P = B ∨ P = C) ∧ (Q = A ∨ Q = B ∨ Q = C) then 1 else 0 := by
  simp only [List.count_cons, List.count_nil, beq_iff_eq, Sym2.eq_iff]
  by_cases a1 : P = A
  · subst a1
    by_cases b2 : Q = B
    · subst b2; simp [h1, h2, h3, h1.symm, h2.symm, h3.symm]
    · by_cases b3 : Q = C
      · subst b3; simp [h1, h2, h3, h1.symm, h2.symm, h3.symm]
      · simp [h1, h2, h3, h1.symm, h2.symm, h3.symm, b2, b3, Ne.symm b2, Ne.symm b3, h, h.symm]
  · by_cases a2 : P = B
    · subst a2
      by_cases b1 : Q = A
      · subst b1; simp [h1, h2, h3, h1.symm, h2.symm, h3.symm]
      · by_cases b3 : Q = C
        · subst b3; simp [h1, h2, h3, h1.symm, h2.symm, h3.symm]
        · simp [h1, h2, h3, h1.symm, h2.symm, h3.symm, b1, b3, Ne.symm b1, Ne.symm b3, h, h.symm]
    · by_cases a3 : P = C
      · subst a3
        by_cases b1 : Q = A
        · subst b1; simp [h1, h2, h3, h1.symm, h2.symm, h3.symm]
        · by_cases b2 : Q = B
          · subst b2; simp [h1, h2, h3, h1.symm, h2.symm, h3.symm]
          · simp [h1, h2, h3, h1.symm, h2.symm, h3.symm, b1, b2, Ne.symm b1, Ne.symm b2, h, h.symm]
      · simp [a1, a2, a3, Ne.symm a1, Ne.symm a2, Ne.symm a3]

theorem count_sharing {ts : List Tri} (hk : Set.InjOn keyOf (Vertices ts)) {p q : Vec3 ℝ} (hp : p ∈ Vertices ts) (hq : q ∈ Vertices ts)
    (hpq : p ≠ q) : ∀ l : List Tri, (∀ T ∈ l, T ∈ ts) → (edges l).count s(keyOf p, keyOf q) = sharing l p q := by
  classical
  intro l
  induction l with
  | nil => intro _; simp [edges, sharing]
  | cons T l ih =>
    intro hl
    have hT := hl T List.mem_cons_self
    have va : T.a ∈ Vertices ts := ⟨T, hT, Or.inl rfl⟩
    have vb : T.b ∈ Vertices ts := ⟨T, hT, Or.inr (Or.inl rfl)⟩
    have vc : T.c ∈ Vertices ts := ⟨T, hT, Or.inr (Or.inr rfl)⟩
    have e2 : sharing (T :: l) p q = sharing l p q + if T.Proper ∧ T.Vertex p ∧ T.Vertex q then 1 else 0 := by
      unfold sharing
      rw [List.countP_cons]
      simp only [decide_eq_true_eq]
    rw [edges_cons, List.count_append, ih (fun S h => hl S (List.mem_cons_of_mem _ h)), e2, add_comm]
    congr 1
    unfold edgesOf
    simp only [hk.eq_iff va vb, hk.eq_iff vb vc, hk.eq_iff vc va]
    split
    next h =>
      rw [List.count_nil, if_neg]
      rintro ⟨⟨h1, h2, h3⟩, -⟩
      rcases h with h | h | h
      · exact h1 h
      · exact h2 h
      · exact h3 h
    next h =>
      push Not at h
      obtain ⟨h1, h2, h3⟩ := h
      rw [count_three (fun e => h1 (hk va vb e)) (fun e => h2 (hk vb vc e)) (fun e => h3 (hk vc va e)) (fun e => hpq (hk hp hq e))]
      simp only [hk.eq_iff hp va, hk.eq_iff hp vb, hk.eq_iff hp vc, hk.eq_iff hq va, hk.eq_iff hq vb, hk.eq_iff hq vc]
      have : T.Proper := ⟨h1, h2, h3⟩
      simp only [Tri.Vertex, this, true_and]

/-- An edge of the mesh is one of two different vertices. -/
theorem edge_form {ts : List Tri} {e : Sym2 Key} (he : e ∈ edges ts) : ∃ p ∈ Vertices ts, ∃ q ∈ Vertices ts, p ≠ q ∧ e = s(keyOf p, keyOf q) := by
  obtain ⟨T, hT, h⟩ := List.mem_flatMap.mp he
  have va : T.a ∈ Vertices ts := ⟨T, hT, Or.inl rfl⟩
  have vb : T.b ∈ Vertices ts := ⟨T, hT, Or.inr (Or.inl rfl)⟩
  have vc : T.c ∈ Vertices ts := ⟨T, hT, Or.inr (Or.inr rfl)⟩
  unfold edgesOf at h
  split at h
  · simp at h
  next hn =>
    push Not at hn
    simp only [List.mem_cons, List.not_mem_nil, or_false] at h
    rcases h with rfl | rfl | rfl
    · exact ⟨_, va, _, vb, fun e => hn.1 (congrArg keyOf e), rfl⟩
    · exact ⟨_, vb, _, vc, fun e => hn.2.1 (congrArg keyOf e), rfl⟩
    · exact ⟨_, vc, _, va, fun e => hn.2.2 (congrArg keyOf e), rfl⟩

/-! ### The claims -/

theorem merge_apart (hsrt : IsIsectSort srt) {ts : List Tri} (hd : d ≠ 0) (ha : Apart ts o d) {l : List Isect}
    (hl : l.Perm (ts.filterMap (hitOf o d))) : (merge (srt l)).Perm (ts.filterMap (hitOf o d)) := by
  have h1 : (ts.filterMap (hitOf o d)).Pairwise (fun a b => ¬ Same b.distance a.distance) := by
    refine List.Pairwise.filterMap _ ?_ ha
    intro T T' h b hb b' hb' hs
    exact h _ _ ((hitOf_some hd).mp hb).2.1 ((hitOf_some hd).mp hb').2.1 (same_comm.mp hs)
  have hp : (srt l).Perm (ts.filterMap (hitOf o d)) := (hsrt l).1.trans hl
  have h2 : (srt l).Pairwise (fun a b => ¬ Same b.distance a.distance) :=
    (hp.pairwise_iff (fun {a b} h hs => h (same_comm.mp hs))).mpr h1
  rw [merge_all _ h2]
  exact hp

/-- All crossings are reported once, for coordinates of type `float`. -/
theorem reported {rnd : ℝ → ℝ} (nth : Nth) (hsrt : IsIsectSort srt) {ts : List Tri} (hf : Floats rnd ts)
    (hn : ts.length ≤ 65535) (hd : d ≠ 0) (ht : ∀ T ∈ ts, ∀ t, T.Has (at_ o d t) → |t| ≤ 1e308) (ha : Apart ts o d) :
    (intersections rnd nth srt ts o d).Perm (ts.filterMap (hitOf o d)) := by
  unfold intersections
  split
  next h =>
    have : ts = [] := by simpa using h
    rw [this]; simp
  · exact merge_apart hsrt hd ha (build_perm hf nth hd ht _ ts rfl hn fun _ h => h)

theorem round_near (x : ℝ) : |x - (roundAway x : ℝ)| ≤ 1 / 2 := by
  unfold roundAway
  rw [abs_le]
  split
  · have h1 := Int.floor_le (x + 1 / 2)
    have h2 := Int.lt_floor_add_one (x + 1 / 2)
    constructor <;> linarith
  · have h1 := Int.floor_le (-x + 1 / 2)
    have h2 := Int.lt_floor_add_one (-x + 1 / 2)
    push_cast
    constructor <;> linarith

/-- C131, vertices `ValidateClosed` takes for the same are within 1e-10 of each other in all coordinates. -/
theorem C131_keys {p q : Vec3 ℝ} (h : keyOf p = keyOf q) : |p.x - q.x| ≤ 1e-10 ∧ |p.y - q.y| ≤ 1e-10 ∧ |p.z - q.z| ≤ 1e-10 := by
  have key : ∀ x y : ℝ, roundAway (x * 1e10) = roundAway (y * 1e10) → |x - y| ≤ 1e-10 := by
    intro x y h
    have h1 := abs_le.mp (round_near (x * 1e10))
    have h2 := abs_le.mp (round_near (y * 1e10))
    rw [h] at h1
    rw [abs_le]
    norm_num at h1 h2 ⊢
    constructor <;> linarith [h1.1, h1.2, h2.1, h2.2]
  simp only [keyOf, Prod.mk.injEq] at h
  exact ⟨key _ _ h.1, key _ _ h.2.1, key _ _ h.2.2⟩

example : keyOf ⟨1e-11, 0, 0⟩ = keyOf ⟨0, 0, 0⟩ := by
  unfold keyOf roundAway
  norm_num

/-- C131, what an empty text of `ValidateClosed` means: there are triangles, and of those with three different vertices two or none
share any two vertices. Vertices with the same rounded coordinates have to be the same. -/
theorem C131_validate (ts : List Tri) (hk : Set.InjOn keyOf (Vertices ts)) :
    validate ts = .closed ↔ ts ≠ [] ∧ ∀ p ∈ Vertices ts, ∀ q ∈ Vertices ts, p ≠ q → sharing ts p q = 0 ∨ sharing ts p q = 2 := by
  rw [validate_iff]
  constructor
  · rintro ⟨h0, h⟩
    refine ⟨h0, fun p hp q hq hpq => ?_⟩
    rw [← count_sharing hk hp hq hpq ts fun _ h => h]
    exact h _
  · rintro ⟨h0, h⟩
    refine ⟨h0, fun e => ?_⟩
    by_cases he : e ∈ edges ts
    · obtain ⟨p, hp, q, hq, hpq, rfl⟩ := edge_form he
      rw [count_sharing hk hp hq hpq ts fun _ h => h]
      exact h p hp q hq hpq
    · left; exact List.count_eq_zero_of_not_mem he

theorem foldl_box : ∀ (ts : List Tri) (b : AABB ℝ),
    AABB.Sub b (ts.foldl (fun b T => ((b.expand T.a).expand T.b).expand T.c) b) ∧
    ∀ T ∈ ts, AABB.Mem T.a (ts.foldl (fun b T => ((b.expand T.a).expand T.b).expand T.c) b) ∧
      AABB.Mem T.b (ts.foldl (fun b T => ((b.expand T.a).expand T.b).expand T.c) b) ∧
      AABB.Mem T.c (ts.foldl (fun b T => ((b.expand T.a).expand T.b).expand T.c) b)
  | [], b => ⟨AABB.Sub.refl b, by simp⟩
  | T :: ts, b => by
    obtain ⟨h1, h2⟩ := foldl_box ts (((b.expand T.a).expand T.b).expand T.c)
    rw [List.foldl_cons]
    refine ⟨(((AABB.sub_expand b T.a).trans (AABB.sub_expand _ T.b)).trans (AABB.sub_expand _ T.c)).trans h1, fun S hS => ?_⟩
    rcases List.mem_cons.mp hS with rfl | hS
    · exact ⟨h1.mem ((AABB.sub_expand _ S.c).mem ((AABB.sub_expand _ S.b).mem (AABB.mem_expand b S.a))),
        h1.mem ((AABB.sub_expand _ S.c).mem (AABB.mem_expand _ S.b)), h1.mem (AABB.mem_expand _ S.c)⟩
    · exact h2 S hS

/-- C131, the bounding box contains every point of every triangle. -/
theorem C131_box (big : ℝ) {ts : List Tri} {T : Tri} (hT : T ∈ ts) {q : Vec3 ℝ} (hq : T.Has q) : AABB.Mem q (boundingBox big ts) := by
  obtain ⟨h1, h2, h3⟩ := (foldl_box ts (AABB.empty big)).2 T hT
  obtain ⟨u, v, w, hu, hv, hw, hs, rfl⟩ := hq
  unfold boundingBox
  exact ⟨by simpa using comb_between hu hv hw hs h1.1.1 h2.1.1 h3.1.1 h1.1.2 h2.1.2 h3.1.2,
    by simpa using comb_between hu hv hw hs h1.2.1.1 h2.2.1.1 h3.2.1.1 h1.2.1.2 h2.2.1.2 h3.2.1.2,
    by simpa using comb_between hu hv hw hs h1.2.2.1 h2.2.2.1 h3.2.2.1 h1.2.2.2 h2.2.2.2 h3.2.2.2⟩

/-- C131, the bounding box is the smallest: it is in every box with all vertices, for coordinates up to the largest `double`. -/
theorem C131_box_tight {big : ℝ} {ts : List Tri} (hb : ∀ v ∈ Vertices ts, |v.x| ≤ big ∧ |v.y| ≤ big ∧ |v.z| ≤ big) {c : AABB ℝ}
    (hc : ∀ v ∈ Vertices ts, AABB.Mem v c) (h0 : ts ≠ []) : AABB.Sub (boundingBox big ts) c := by
  have step : ∀ (l : List Tri) (b : AABB ℝ), (∀ T ∈ l, T ∈ ts) → AABB.Sub b c →
      AABB.Sub (l.foldl (fun b T => ((b.expand T.a).expand T.b).expand T.c) b) c := by
    have ex : ∀ (b : AABB ℝ) (v : Vec3 ℝ), AABB.Sub b c → AABB.Mem v c → AABB.Sub (b.expand v) c := by
      intro b v h1 h2
      exact ⟨⟨le_min h1.1.1 h2.1.1, max_le h1.1.2 h2.1.2⟩, ⟨le_min h1.2.1.1 h2.2.1.1, max_le h1.2.1.2 h2.2.1.2⟩,
        ⟨le_min h1.2.2.1 h2.2.2.1, max_le h1.2.2.2 h2.2.2.2⟩⟩
    intro l
    induction l with
    | nil => intro b _ h; exact h
    | cons T l ih =>
      intro b hl h
      have hT := hl T List.mem_cons_self
      exact ih _ (fun S hS => hl S (List.mem_cons_of_mem _ hS))
        (ex _ _ (ex _ _ (ex _ _ h (hc _ ⟨T, hT, Or.inl rfl⟩)) (hc _ ⟨T, hT, Or.inr (Or.inl rfl)⟩)) (hc _ ⟨T, hT, Or.inr (Or.inr rfl)⟩))
  obtain ⟨T, l, rfl⟩ := List.exists_cons_of_ne_nil h0
  have ha : T.a ∈ Vertices (T :: l) := ⟨T, List.mem_cons_self, Or.inl rfl⟩
  have e : (T :: l).foldl (fun b T => ((b.expand T.a).expand T.b).expand T.c) (AABB.empty big) =
      (T :: l).foldl (fun b T => ((b.expand T.a).expand T.b).expand T.c) ⟨T.a, T.a⟩ := by
    rw [List.foldl_cons, List.foldl_cons]
    congr 3
    obtain ⟨⟨x1, x2⟩, ⟨y1, y2⟩, ⟨z1, z2⟩⟩ := (fun h => ⟨abs_le.mp h.1, abs_le.mp h.2.1, abs_le.mp h.2.2⟩ : _ → (_ ∧ _) ∧ (_ ∧ _) ∧ (_ ∧ _)) (hb _ ha)
    simp [AABB.expand, AABB.empty, x1, x2, y1, y2, z1, z2]
  unfold boundingBox
  rw [e]
  exact step _ _ (fun _ h => h) ⟨⟨(hc _ ha).1.1, (hc _ ha).1.2⟩, ⟨(hc _ ha).2.1.1, (hc _ ha).2.1.2⟩, ⟨(hc _ ha).2.2.1, (hc _ ha).2.2.2⟩⟩

/-- C131, how often: where no two triangles are crossed at distances the code takes for the same, as many crossings are reported as
triangles are crossed. -/
theorem C131_once_partial {rnd : ℝ → ℝ} (nth : Nth) (hsrt : IsIsectSort srt) {ts : List Tri} (hf : Floats rnd ts)
    (hn : ts.length ≤ 65535) (hd : d ≠ 0) (ht : ∀ T ∈ ts, ∀ t, T.Has (at_ o d t) → |t| ≤ 1e308) (ha : Apart ts o d) :
    letI := Classical.decPred fun T : Tri => Vec3.dot T.normal d ≠ 0 ∧ ∃ t, T.Has (at_ o d t)
    (intersections rnd nth srt ts o d).length = ts.countP fun T => Vec3.dot T.normal d ≠ 0 ∧ ∃ t, T.Has (at_ o d t) := by
  rw [(reported nth hsrt hf hn hd ht ha).length_eq]
  clear ha ht hn hf
  induction ts with
  | nil => simp
  | cons T ts ih =>
    rw [List.countP_cons, ← ih, List.filterMap_cons]
    cases h : hitOf o d T with
    | none =>
      rw [if_neg]
      · rfl
      · simp only [decide_eq_true_eq]
        rintro ⟨h1, t, h2⟩
        classical
        have := (hitOf_some hd (i := ⟨t, 0, decide (Vec3.dot T.normal d < 0), at_ o d t⟩)).mpr ⟨h1, h2, by simp, rfl, rfl⟩
        rw [this] at h; cases h
    | some i =>
      obtain ⟨h1, h2, -⟩ := (hitOf_some hd).mp h
      rw [if_pos]
      · rfl
      · simp only [decide_eq_true_eq]
        exact ⟨h1, _, h2⟩

/-- C131, closed meshes: a line that meets no edge of a mesh `ValidateClosed` accepts is reported to cross it an even number of
times. -/
theorem C131_even_partial {rnd : ℝ → ℝ} (nth : Nth) (hsrt : IsIsectSort srt) {ts : List Tri} (hf : Floats rnd ts)
    (hn : ts.length ≤ 65535) (hd : d ≠ 0) (ht : ∀ T ∈ ts, ∀ t, T.Has (at_ o d t) → |t| ≤ 1e308) (ha : Apart ts o d)
    (hg : Generic ts o d) (hk : Set.InjOn keyOf (Vertices ts)) (hv : validate ts = .closed) :
    Even (intersections rnd nth srt ts o d).length := by
  rw [(reported nth hsrt hf hn hd ht ha).length_eq]
  exact even_hits hd hg hk hv

/-- C131, oriented meshes: a line that meets no edge of a mesh whose triangles are oriented alike enters it as often as it leaves
it. -/
theorem C131_balance_partial {rnd : ℝ → ℝ} (nth : Nth) (hsrt : IsIsectSort srt) {ts : List Tri} (hf : Floats rnd ts)
    (hn : ts.length ≤ 65535) (hd : d ≠ 0) (ht : ∀ T ∈ ts, ∀ t, T.Has (at_ o d t) → |t| ≤ 1e308) (ha : Apart ts o d)
    (hg : Generic ts o d) (ho : Oriented ts) :
    (intersections rnd nth srt ts o d).countP (fun i => i.entering) = (intersections rnd nth srt ts o d).countP (fun i => !i.entering) := by
  have hp := reported nth hsrt hf hn hd ht ha
  rw [hp.countP_eq, hp.countP_eq]
  have h1 := balance hd hg ho
  rw [signed_sum] at h1
  omega

end Mesh
end Siren.Geometry
