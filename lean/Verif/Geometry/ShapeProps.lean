import Verif.Geometry.Shape
import Verif.Geometry.Walk

set_option autoImplicit false

/-!
# C36, C42: boolean shapes and containment
-/

namespace Siren.Geometry

open Siren

/-! ### Specification -/

/-- The set operation. -/
def setOp (op : BoolOp) (a b : Prop) : Prop :=
  match op with
  | .union => a ∨ b
  | .intersection => a ∧ b
  | .subtraction => a ∧ ¬ b

/-- `OnLine pos dir g S`: the shape `g` is the set `S` of points, as far as the line through `pos` along `dir` is concerned.
For a primitive this means that its crossings describe `S` along the line (in local coordinates); a boolean shape is the set
operation applied to its operands, which live in its local coordinates; a missing operand is the empty set. -/
inductive OnLine (eps : ℝ) : Vec3 ℝ → Vec3 ℝ → Geom → (Vec3 ℝ → Prop) → Prop
  | null (pos dir : Vec3 ℝ) : OnLine eps pos dir .null (fun _ => False)
  | prim (pos dir : Vec3 ℝ) (p : Placement) (hp : p.Sharp) (compute : Vec3 ℝ → Vec3 ℝ → List Isect)
      (S : Vec3 ℝ → Prop)
      (h : Describes eps (fun t => S (p.globalToLocalPosition pos + Vec3.smul t (p.globalToLocalDirection dir)))
        (compute (p.globalToLocalPosition pos) (p.globalToLocalDirection dir))) :
      OnLine eps pos dir (.prim p compute) (fun x => S (p.globalToLocalPosition x))
  | bool (pos dir : Vec3 ℝ) (p : Placement) (hp : p.Sharp) (op : BoolOp) (left right : Geom) (SL SR : Vec3 ℝ → Prop)
      (hl : OnLine eps (p.globalToLocalPosition pos) (p.globalToLocalDirection dir) left SL)
      (hr : OnLine eps (p.globalToLocalPosition pos) (p.globalToLocalDirection dir) right SR) :
      OnLine eps pos dir (.bool p op left right)
        (fun x => setOp op (SL (p.globalToLocalPosition x)) (SR (p.globalToLocalPosition x)))

/-- The parameters at which the line crosses the boundary of some primitive of the shape. -/
noncomputable def Geom.boundaries : Geom → Vec3 ℝ → Vec3 ℝ → List ℝ
  | .null => fun _ _ => []
  | .prim p compute => fun pos dir =>
    (compute (p.globalToLocalPosition pos) (p.globalToLocalDirection dir)).map Isect.distance
  | .bool p _ left right => fun pos dir =>
    left.boundaries (p.globalToLocalPosition pos) (p.globalToLocalDirection dir) ++
    right.boundaries (p.globalToLocalPosition pos) (p.globalToLocalDirection dir)

/-! ### Lemmas on the walk -/

theorem batchState_cons (b s : Bool) (x : Tagged) (l : List Tagged) :
    batchState b s (x :: l) = batchState b (if x.right = b then x.isect.entering else s) l := rfl

theorem batchState_append (b s : Bool) (l m : List Tagged) :
    batchState b s (l ++ m) = batchState b (batchState b s l) m := by simp [batchState, List.foldl_append]

theorem batchState_eq (b : Bool) (l : List Tagged) : ∀ s, batchState b s l =
    ((((l.filter (fun x => x.right == b)).map Tagged.isect).getLast?).map Isect.entering).getD s := by
  induction l with
  | nil => intro s; simp [batchState]
  | cons x l ih =>
    intro s
    rw [batchState_cons, ih]
    by_cases h : x.right = b
    · simp only [h, if_true, List.filter_cons, beq_self_eq_true, List.map_cons]
      cases hf : (l.filter (fun x => x.right == b)).map Tagged.isect with
      | nil => simp
      | cons a as => simp [List.getLast?_cons]
    · simp [h]

/-- Children's hits strictly before `t`. -/
theorem batchState_filter (b s : Bool) (l : List Tagged) (hits : List Isect) (t : ℝ)
    (h : (l.filter (fun x => x.right == b)).map Tagged.isect = hits) :
    batchState b s (l.filter (fun x => decide (x.isect.distance < t))) = stateFrom s hits t := by
  rw [batchState_eq, stateFrom, ← h]
  congr 3
  rw [List.filter_filter, List.filter_map, List.filter_filter]
  congr 1
  apply List.filter_congr
  intro x _
  simp [Bool.and_comm]

theorem batch_induction {motive : List Tagged → Prop} (nil : motive [])
    (cons : ∀ (x : Tagged) (rest : List Tagged),
      motive (rest.dropWhile (fun y => decide (y.isect.distance - x.isect.distance < precision))) → motive (x :: rest)) :
    ∀ l, motive l := by
  intro l
  induction hn : l.length using Nat.strong_induction_on generalizing l with
  | _ n ih =>
    cases l with
    | nil => exact nil
    | cons x rest =>
      refine cons x rest (ih _ ?_ _ rfl)
      rw [← hn, List.length_cons]
      exact Nat.lt_succ_of_le (List.dropWhile_sublist _).length_le

theorem csgWalk_mem (op : BoolOp) (l : List Tagged) : ∀ (inL inR was : Bool),
    ∀ h ∈ csgWalk op inL inR was l, ∃ x ∈ l, h.distance = x.isect.distance ∧ h.position = x.isect.position := by
  induction l using batch_induction with
  | nil => intro inL inR was; simp [csgWalk]
  | cons x rest ih =>
    intro inL inR was
    set close := fun y : Tagged => decide (y.isect.distance - x.isect.distance < precision) with hclose
    set batch := rest.takeWhile close with hbatch
    set inL' := batchState false inL (x :: batch) with hinL
    set inR' := batchState true inR (x :: batch) with hinR
    set now := isInsideResult op inL' inR' with hnow
    replace ih := ih inL' inR' now
    intro h hh
    rw [csgWalk] at hh
    simp only [← hclose, ← hbatch, ← hinL, ← hinR, ← hnow] at hh
    have htail : ∀ h ∈ csgWalk op inL' inR' now (rest.dropWhile close), ∃ y ∈ x :: rest, h.distance = y.isect.distance ∧
        h.position = y.isect.position := by
      intro h hh
      obtain ⟨y, hy, e⟩ := ih h hh
      exact ⟨y, List.mem_cons_of_mem _ ((List.dropWhile_sublist _).subset hy), e⟩
    split at hh
    · rcases List.mem_cons.1 hh with rfl | hh
      · refine ⟨batch.getLast?.getD x, ?_, rfl, rfl⟩
        cases hb : batch.getLast? with
        | none => simp
        | some y =>
          have := List.mem_of_getLast? hb
          exact List.mem_cons_of_mem _ ((List.takeWhile_sublist _).subset this)
      · exact htail h hh
    · exact htail h hh

theorem mem_takeWhile_true {α : Type} (p : α → Bool) (l : List α) (x : α) (h : x ∈ l.takeWhile p) : p x = true := by
  induction l with
  | nil => simp at h
  | cons a l ih =>
    rw [List.takeWhile_cons] at h
    split at h
    · rcases List.mem_cons.1 h with rfl | h
      · assumption
      · exact ih h
    · simp at h

theorem takeWhile_append_dropWhile' {α : Type} (p : α → Bool) (l : List α) : l.takeWhile p ++ l.dropWhile p = l :=
  List.takeWhile_append_dropWhile

/-- Facts about the first batch of a sorted list. -/
theorem batch_facts (x : Tagged) (rest : List Tagged)
    (hs : (x :: rest).Pairwise (fun a b => a.isect.distance ≤ b.isect.distance)) :
    let close := fun y : Tagged => decide (y.isect.distance - x.isect.distance < precision)
    (∀ y ∈ x :: rest.takeWhile close, x.isect.distance ≤ y.isect.distance ∧
      y.isect.distance - x.isect.distance < precision) ∧
    (∀ y ∈ rest.dropWhile close, precision ≤ y.isect.distance - x.isect.distance) ∧
    (rest.dropWhile close).Pairwise (fun a b => a.isect.distance ≤ b.isect.distance) := by
  intro close
  obtain ⟨h1, h2⟩ := List.pairwise_cons.1 hs
  refine ⟨?_, ?_, h2.sublist (List.dropWhile_sublist _)⟩
  · intro y hy
    rcases List.mem_cons.1 hy with rfl | hy
    · exact ⟨le_refl _, by simpa using precision_pos⟩
    · refine ⟨h1 y ((List.takeWhile_sublist _).subset hy), ?_⟩
      have := mem_takeWhile_true _ _ _ hy
      simpa [close] using this
  · have hp := h2.sublist (List.dropWhile_sublist close)
    cases hd : rest.dropWhile close with
    | nil => simp
    | cons z zs =>
      have hz : close z = false := by
        have h := List.head?_dropWhile_not close rest
        rw [hd] at h; simpa using h
      have hz' : precision ≤ z.isect.distance - x.isect.distance := by simpa [close] using hz
      intro y hy
      rcases List.mem_cons.1 hy with rfl | hy
      · exact hz'
      · rw [hd] at hp
        have := (List.pairwise_cons.1 hp).1 y hy
        linarith

theorem csgWalk_state (op : BoolOp) (t : ℝ) (l : List Tagged) : ∀ (inL inR was : Bool),
    l.Pairwise (fun a b => a.isect.distance ≤ b.isect.distance) →
    (∀ x ∈ l, precision ≤ |x.isect.distance - t|) → was = isInsideResult op inL inR →
    stateFrom was (csgWalk op inL inR was l) t =
      isInsideResult op (batchState false inL (l.filter (fun x => decide (x.isect.distance < t))))
        (batchState true inR (l.filter (fun x => decide (x.isect.distance < t)))) := by
  induction l using batch_induction with
  | nil => intro inL inR was _ _ h; simp [csgWalk, batchState, h]
  | cons x rest ih =>
    intro inL inR was
    set close := fun y : Tagged => decide (y.isect.distance - x.isect.distance < precision) with hclose
    set batch := rest.takeWhile close with hbatch
    set inL' := batchState false inL (x :: batch) with hinL
    set inR' := batchState true inR (x :: batch) with hinR
    set now := isInsideResult op inL' inR' with hnow
    replace ih := ih inL' inR' now
    intro hs hoff hwas
    obtain ⟨f1, f2, f3⟩ := batch_facts x rest hs
    have hx := hoff x (by simp)
    by_cases hlt : x.isect.distance < t
    · -- the whole batch is before t
      rw [abs_of_neg (by linarith)] at hx
      have hb : ∀ y ∈ x :: batch, y.isect.distance < t := by
        intro y hy
        have := (f1 y hy).2
        linarith
      have hfil : (x :: rest).filter (fun x => decide (x.isect.distance < t)) =
          (x :: batch) ++ (rest.dropWhile close).filter (fun x => decide (x.isect.distance < t)) := by
        conv_lhs => rw [← takeWhile_append_dropWhile' close rest]
        rw [← List.cons_append, List.filter_append]
        congr 1
        rw [List.filter_eq_self]
        intro y hy; simpa using hb y hy
      rw [hfil, batchState_append, batchState_append]
      have ih' := ih f3 (fun y hy => hoff y (List.mem_cons_of_mem _ ((List.dropWhile_sublist _).subset hy))) rfl
      rw [csgWalk]
      simp only [← hclose, ← hbatch, ← hinL, ← hinR, ← hnow]
      have hlast : (batch.getLast?.getD x).isect.distance < t := by
        apply hb
        cases hg : batch.getLast? with
        | none => simp
        | some y => exact List.mem_cons_of_mem _ (List.mem_of_getLast? hg)
      split
      · rw [stateFrom_cons_lt]
        · exact ih'
        · exact hlast
      · next h =>
        have : was = now := by simpa using h
        rw [this]
        exact ih'
    · have hge : t < x.isect.distance := by
        rcases lt_or_eq_of_le (not_lt.1 hlt) with h | h
        · exact h
        · rw [h, sub_self, abs_zero] at hx; exact absurd hx (not_le.2 precision_pos)
      have hall : ∀ y ∈ x :: rest, t < y.isect.distance := by
        intro y hy
        rcases List.mem_cons.1 hy with rfl | hy
        · exact hge
        · exact lt_of_lt_of_le hge ((List.pairwise_cons.1 hs).1 y hy)
      have hnil : (x :: rest).filter (fun x => decide (x.isect.distance < t)) = [] := by
        rw [List.filter_eq_nil_iff]
        intro y hy; simpa using (hall y hy).le
      rw [hnil, stateFrom_all_ge]
      · exact hwas
      · intro h hh
        obtain ⟨y, hy, e, _⟩ := csgWalk_mem op _ _ _ _ h hh
        rw [e]; exact (hall y hy).le

theorem csgWalk_strict (op : BoolOp) (l : List Tagged) : ∀ (inL inR was : Bool),
    l.Pairwise (fun a b => a.isect.distance ≤ b.isect.distance) →
    (csgWalk op inL inR was l).Pairwise (fun a b => a.distance < b.distance) := by
  induction l using batch_induction with
  | nil => intro inL inR was _; simp [csgWalk]
  | cons x rest ih =>
    intro inL inR was
    set close := fun y : Tagged => decide (y.isect.distance - x.isect.distance < precision) with hclose
    set batch := rest.takeWhile close with hbatch
    set inL' := batchState false inL (x :: batch) with hinL
    set inR' := batchState true inR (x :: batch) with hinR
    set now := isInsideResult op inL' inR' with hnow
    replace ih := ih inL' inR' now
    intro hs
    obtain ⟨f1, f2, f3⟩ := batch_facts x rest hs
    rw [csgWalk]
    simp only [← hclose, ← hbatch, ← hinL, ← hinR, ← hnow]
    have hlast : (batch.getLast?.getD x).isect.distance - x.isect.distance < precision := by
      apply (f1 _ _).2
      cases hg : batch.getLast? with
      | none => simp
      | some y => exact List.mem_cons_of_mem _ (List.mem_of_getLast? hg)
    split
    · rw [List.pairwise_cons]
      refine ⟨?_, ih f3⟩
      intro h hh
      obtain ⟨y, hy, e, _⟩ := csgWalk_mem op _ _ _ _ h hh
      have := f2 y hy
      simp only
      rw [e]; linarith
    · exact ih f3

theorem csgWalk_alternates (op : BoolOp) (l : List Tagged) : ∀ (inL inR was : Bool),
    was = isInsideResult op inL inR →
    isInsideResult op (batchState false inL l) (batchState true inR l) = false →
    Alternates was (csgWalk op inL inR was l) := by
  induction l using batch_induction with
  | nil => intro inL inR was h1 h2; simp only [csgWalk, Alternates]; rw [h1]; exact h2
  | cons x rest ih =>
    intro inL inR was
    set close := fun y : Tagged => decide (y.isect.distance - x.isect.distance < precision) with hclose
    set batch := rest.takeWhile close with hbatch
    set inL' := batchState false inL (x :: batch) with hinL
    set inR' := batchState true inR (x :: batch) with hinR
    set now := isInsideResult op inL' inR' with hnow
    replace ih := ih inL' inR' now
    intro h1 h2
    have hsplit : x :: rest = (x :: batch) ++ rest.dropWhile close := by
      rw [List.cons_append, takeWhile_append_dropWhile']
    rw [hsplit, batchState_append, batchState_append] at h2
    have ih' := ih rfl h2
    rw [csgWalk]
    simp only [← hclose, ← hbatch, ← hinL, ← hinR, ← hnow]
    split
    · next h =>
      refine ⟨?_, ih'⟩
      simp only
      have : was ≠ now := h
      revert this
      cases was <;> cases now <;> simp
    · next h =>
      have : was = now := by simpa using h
      rw [this]
      exact ih'

theorem alternates_last (hits : List Isect) : ∀ s, Alternates s hits →
    ((hits.getLast?).map Isect.entering).getD s = false := by
  induction hits with
  | nil => intro s h; simpa [Alternates] using h
  | cons a as ih =>
    intro s h
    have := ih _ h.2
    cases as with
    | nil => simpa using this
    | cons b bs => rw [List.getLast?_cons_cons]; simpa [List.getLast?_cons] using this

/-- Sorting keeps each operand's own order when its distances are strictly increasing. -/
theorem sort_child {srt : List Tagged → List Tagged} (hsrt : IsDistanceSort srt) (left right : List Isect) (b : Bool)
    (hl : left.Pairwise (fun a b => a.distance < b.distance)) (hr : right.Pairwise (fun a b => a.distance < b.distance)) :
    ((srt (left.map (fun h => ⟨h, false⟩) ++ right.map (fun h => ⟨h, true⟩))).filter (fun x => x.right == b)).map
      Tagged.isect = if b then right else left := by
  obtain ⟨hp, hs⟩ := hsrt (left.map (fun h => (⟨h, false⟩ : Tagged)) ++ right.map (fun h => ⟨h, true⟩))
  have hp' := (hp.filter (fun x => x.right == b)).map Tagged.isect
  have hs' : (((srt (left.map (fun h => (⟨h, false⟩ : Tagged)) ++ right.map (fun h => ⟨h, true⟩))).filter
      (fun x => x.right == b)).map Tagged.isect).Pairwise (fun a b => a.distance ≤ b.distance) := by
    rw [List.pairwise_map]
    exact hs.filter _
  cases b
  · refine sorted_perm_eq hl (hp'.trans ?_) hs'
    rw [List.filter_append, List.filter_map, List.filter_map]
    simp [Function.comp_def]
  · refine sorted_perm_eq hr (hp'.trans ?_) hs'
    rw [List.filter_append, List.filter_map, List.filter_map]
    simp [Function.comp_def]

/-! ### C36 -/

/-- C36 for one boolean operation: if the operands' crossings are strictly ordered and alternate, so do the reported ones;
every reported crossing is at an operand's crossing; and away from the operands' crossings by at least the tolerance, a
parameter is inside the result exactly when the operation applied to "inside left" and "inside right" says so. -/
theorem C36_boolean_hits {srt : List Tagged → List Tagged} (hsrt : IsDistanceSort srt) (op : BoolOp)
    (left right : List Isect) (hl : left.Pairwise (fun a b => a.distance < b.distance))
    (hr : right.Pairwise (fun a b => a.distance < b.distance)) (al : Alternates false left)
    (ar : Alternates false right) :
    (csg srt op left right).Pairwise (fun a b => a.distance < b.distance) ∧
    Alternates false (csg srt op left right) ∧
    (∀ h ∈ csg srt op left right, ∃ x ∈ left ++ right, h.distance = x.distance) ∧
    ∀ t, (∀ x ∈ left ++ right, precision ≤ |x.distance - t|) →
      (stateFrom false (csg srt op left right) t = true ↔
        setOp op (stateFrom false left t = true) (stateFrom false right t = true)) := by
  obtain ⟨hp, hs⟩ := hsrt (left.map (fun h => (⟨h, false⟩ : Tagged)) ++ right.map (fun h => ⟨h, true⟩))
  have c0 := sort_child hsrt left right false hl hr
  have c1 := sort_child hsrt left right true hl hr
  simp only [Bool.false_eq_true, if_false, if_true] at c0 c1
  have hw : isInsideResult op false false = false := by cases op <;> rfl
  have hmem : ∀ x ∈ srt (left.map (fun h => (⟨h, false⟩ : Tagged)) ++ right.map (fun h => ⟨h, true⟩)),
      x.isect ∈ left ++ right := by
    intro x hx
    have := hp.mem_iff.1 hx
    rcases List.mem_append.1 this with h | h <;> obtain ⟨y, hy, rfl⟩ := List.mem_map.1 h <;> simp [hy]
  unfold csg
  rw [hw]
  refine ⟨csgWalk_strict op _ _ _ _ hs, ?_, ?_, ?_⟩
  · apply csgWalk_alternates op _ _ _ _ hw.symm
    rw [batchState_eq, batchState_eq, c0, c1, alternates_last left false al, alternates_last right false ar]
    exact hw
  · intro h hh
    obtain ⟨x, hx, e, _⟩ := csgWalk_mem op _ _ _ _ h hh
    exact ⟨x.isect, hmem x hx, e⟩
  · intro t ht
    rw [csgWalk_state op t _ _ _ _ hs (fun x hx => ht _ (hmem x hx)) hw.symm, batchState_filter false false _ _ t c0,
      batchState_filter true false _ _ t c1]
    cases op <;> simp [isInsideResult, setOp]

/-! ### Nested boolean shapes with placements -/

/-- Changing hits without touching distance and direction of crossing. -/
def Keeps (f : Isect → Isect) : Prop := ∀ h, (f h).distance = h.distance ∧ (f h).entering = h.entering

theorem Keeps.pairwise {f : Isect → Isect} (hf : Keeps f) {l : List Isect}
    (h : l.Pairwise (fun a b => a.distance < b.distance)) : (l.map f).Pairwise (fun a b => a.distance < b.distance) := by
  rw [List.pairwise_map]
  refine h.imp ?_
  intro a b hab
  rw [(hf a).1, (hf b).1]; exact hab

theorem Keeps.alternates {f : Isect → Isect} (hf : Keeps f) (l : List Isect) : ∀ s, Alternates s l → Alternates s (l.map f) := by
  induction l with
  | nil => intro s h; exact h
  | cons a as ih =>
    intro s h
    refine ⟨by rw [(hf a).2]; exact h.1, ?_⟩
    rw [(hf a).2]
    exact ih _ h.2

theorem Keeps.state {f : Isect → Isect} (hf : Keeps f) (l : List Isect) (t : ℝ) : ∀ s,
    stateFrom s (l.map f) t = stateFrom s l t := by
  induction l with
  | nil => intro s; simp
  | cons a as ih =>
    intro s
    rw [List.map_cons]
    by_cases h : a.distance < t
    · rw [stateFrom_cons_lt _ a _ _ h, stateFrom_cons_lt _ (f a) _ _ (by rw [(hf a).1]; exact h), (hf a).2, ih]
    · rw [stateFrom_cons_ge _ a _ _ h, stateFrom_cons_ge _ (f a) _ _ (by rw [(hf a).1]; exact h), ih]

theorem placed_keeps (p : Placement) (hp : p.Sharp) (compute : Vec3 ℝ → Vec3 ℝ → List Isect) (pos dir : Vec3 ℝ) :
    ∃ f, Keeps f ∧ placed p compute pos dir =
      (compute (p.globalToLocalPosition pos) (p.globalToLocalDirection dir)).map f := by
  unfold placed
  split
  · next h =>
    refine ⟨id, fun h => ⟨rfl, rfl⟩, ?_⟩
    rw [(hp.2 h pos).1, (hp.2 h dir).2, List.map_id]
  · exact ⟨fun h => { h with position := p.localToGlobalPosition h.position }, fun h => ⟨rfl, rfl⟩, rfl⟩

/-- C36 for arbitrarily nested boolean shapes with placements at every level: the crossings of the whole shape are strictly
ordered, enter and leave in turn, occur only at boundaries of primitives, and away from those by at least the tolerance, a
point of the line is in the set expression exactly when the last crossing before it enters. -/
theorem C36_boolean_shape {srt : List Tagged → List Tagged} (hsrt : IsDistanceSort srt) {pos dir : Vec3 ℝ} {g : Geom}
    {S : Vec3 ℝ → Prop} (h : OnLine precision pos dir g S) :
    (g.intersections srt pos dir).Pairwise (fun a b => a.distance < b.distance) ∧
    Alternates false (g.intersections srt pos dir) ∧
    (∀ x ∈ g.intersections srt pos dir, x.distance ∈ g.boundaries pos dir) ∧
    ∀ t, (∀ b ∈ g.boundaries pos dir, precision ≤ |b - t|) →
      (S (pos + Vec3.smul t dir) ↔ stateFrom false (g.intersections srt pos dir) t = true) := by
  induction h with
  | null pos dir => simp [Geom.intersections, Alternates]
  | prim pos dir p hp compute S hd =>
    obtain ⟨f, hf, e⟩ := placed_keeps p hp compute pos dir
    simp only [Geom.intersections, Geom.boundaries, e]
    refine ⟨hf.pairwise hd.strict, hf.alternates _ _ hd.alternates, ?_, ?_⟩
    · intro x hx
      obtain ⟨y, hy, rfl⟩ := List.mem_map.1 hx
      rw [(hf y).1]
      exact List.mem_map_of_mem hy
    · intro t ht
      rw [hf.state, Placement.C41_line p hp.1]
      exact hd.exact t (fun h hh => ht _ (List.mem_map_of_mem hh))
  | bool pos dir p hp op left right SL SR hl hr ihl ihr =>
    obtain ⟨l1, l2, l3, l4⟩ := ihl
    obtain ⟨r1, r2, r3, r4⟩ := ihr
    obtain ⟨f, hf, e⟩ := placed_keeps p hp (fun position direction =>
      csg srt op (left.intersections srt position direction) (right.intersections srt position direction)) pos dir
    obtain ⟨c1, c2, c3, c4⟩ := C36_boolean_hits hsrt op _ _ l1 r1 l2 r2
    simp only [Geom.intersections, Geom.boundaries, e]
    have hsub : ∀ x ∈ left.intersections srt (p.globalToLocalPosition pos) (p.globalToLocalDirection dir) ++
        right.intersections srt (p.globalToLocalPosition pos) (p.globalToLocalDirection dir),
        x.distance ∈ left.boundaries (p.globalToLocalPosition pos) (p.globalToLocalDirection dir) ++
        right.boundaries (p.globalToLocalPosition pos) (p.globalToLocalDirection dir) := by
      intro x hx
      rcases List.mem_append.1 hx with h | h
      · exact List.mem_append_left _ (l3 x h)
      · exact List.mem_append_right _ (r3 x h)
    refine ⟨hf.pairwise c1, hf.alternates _ _ c2, ?_, ?_⟩
    · intro x hx
      obtain ⟨y, hy, rfl⟩ := List.mem_map.1 hx
      rw [(hf y).1]
      obtain ⟨z, hz, e⟩ := c3 y hy
      rw [e]
      exact hsub z hz
    · intro t ht
      rw [hf.state, c4 t (fun x hx => ht _ (hsub x hx)), Placement.C41_line p hp.1]
      have hL := l4 t (fun b hb => ht b (List.mem_append_left _ hb))
      have hR := r4 t (fun b hb => ht b (List.mem_append_right _ hb))
      cases op <;> simp only [setOp, hL, hR]

/-- The union of the unit intervals around 0 and 1/2 along a line, as an instance of the hypotheses: two primitives placed at
different positions. -/
example : ∃ (g : Geom) (S : Vec3 ℝ → Prop), OnLine precision ⟨-5, 0, 0⟩ ⟨1, 0, 0⟩ g S ∧
    (∃ p q op l r, g = .bool p op (.prim q l) r) := by
  refine ⟨.bool (Placement.translation ⟨1, 0, 0⟩) .subtraction
    (.prim (Placement.translation ⟨0, 0, 0⟩) (fun p _ => [⟨-p.x, 0, true, ⟨0, 0, 0⟩⟩, ⟨1 - p.x, 0, false, ⟨0, 0, 0⟩⟩])) .null,
    _, OnLine.bool _ _ _ ?_ _ _ _ (fun x => 0 < x.x ∧ x.x ≤ 1) (fun _ => False) ?_ (OnLine.null _ _), _, _, _, _, _, rfl⟩
  · exact Placement.translation_sharp _
  · have := OnLine.prim (eps := precision) ((Placement.translation ⟨1, 0, 0⟩).globalToLocalPosition ⟨-5, 0, 0⟩)
      ((Placement.translation ⟨1, 0, 0⟩).globalToLocalDirection ⟨1, 0, 0⟩) (Placement.translation ⟨0, 0, 0⟩)
      (Placement.translation_sharp _)
      (fun p _ => [⟨-p.x, 0, true, ⟨0, 0, 0⟩⟩, ⟨1 - p.x, 0, false, ⟨0, 0, 0⟩⟩]) (fun x => 0 < x.x ∧ x.x ≤ 1) ?_
    · simpa [Placement.translation_back] using this
    · simp only [Placement.translation_back, Placement.translation_back_dir]
      refine describes_pair _ _ _ _ rfl rfl ?_ ?_
      · norm_num
      · intro t _ _
        simp only [Vec3.add_x, Vec3.smul_x, Vec3.sub_x]
        constructor <;> rintro ⟨h1, h2⟩ <;> constructor <;> linarith

/-- Every primitive of the shape reports crossings at points of the line (in its local coordinates). -/
inductive HitsOnLine : Vec3 ℝ → Vec3 ℝ → Geom → Prop
  | null (pos dir : Vec3 ℝ) : HitsOnLine pos dir .null
  | prim (pos dir : Vec3 ℝ) (p : Placement) (hp : p.Sharp) (compute : Vec3 ℝ → Vec3 ℝ → List Isect)
      (h : ∀ x ∈ compute (p.globalToLocalPosition pos) (p.globalToLocalDirection dir),
        x.position = p.globalToLocalPosition pos + Vec3.smul x.distance (p.globalToLocalDirection dir)) :
      HitsOnLine pos dir (.prim p compute)
  | bool (pos dir : Vec3 ℝ) (p : Placement) (hp : p.Sharp) (op : BoolOp) (left right : Geom)
      (hl : HitsOnLine (p.globalToLocalPosition pos) (p.globalToLocalDirection dir) left)
      (hr : HitsOnLine (p.globalToLocalPosition pos) (p.globalToLocalDirection dir) right) :
      HitsOnLine pos dir (.bool p op left right)

theorem placed_positions (p : Placement) (hp : p.Sharp) (compute : Vec3 ℝ → Vec3 ℝ → List Isect) (pos dir : Vec3 ℝ)
    (h : ∀ x ∈ compute (p.globalToLocalPosition pos) (p.globalToLocalDirection dir),
        x.position = p.globalToLocalPosition pos + Vec3.smul x.distance (p.globalToLocalDirection dir)) :
    ∀ x ∈ placed p compute pos dir, x.position = pos + Vec3.smul x.distance dir := by
  intro x hx
  unfold placed at hx
  split at hx
  · next hid =>
    rw [(hp.2 hid pos).1, (hp.2 hid dir).2] at h
    exact h x hx
  · obtain ⟨y, hy, rfl⟩ := List.mem_map.1 hx
    simp only
    rw [h y hy, ← Placement.C41_line p hp.1, (Placement.C41_inverse p hp.1 _).1]

/-- C36: the positions of the reported crossings, in global coordinates, are the points of the line at the reported
distances, for every nesting of boolean shapes and placements. -/
theorem C36_positions {srt : List Tagged → List Tagged} (hsrt : IsDistanceSort srt) {pos dir : Vec3 ℝ} {g : Geom}
    (h : HitsOnLine pos dir g) : ∀ x ∈ g.intersections srt pos dir, x.position = pos + Vec3.smul x.distance dir := by
  induction h with
  | null pos dir => simp [Geom.intersections]
  | prim pos dir p hp compute hc => exact placed_positions p hp compute pos dir hc
  | bool pos dir p hp op left right hl hr ihl ihr =>
    apply placed_positions p hp
    intro x hx
    unfold csg at hx
    obtain ⟨y, hy, e1, e2⟩ := csgWalk_mem op _ _ _ _ x hx
    rw [e1, e2]
    have := (hsrt _).1.mem_iff.1 hy
    rcases List.mem_append.1 this with h | h <;> obtain ⟨z, hz, rfl⟩ := List.mem_map.1 h
    · exact ihl z hz
    · exact ihr z hz

/-- C36 needs strictly increasing distances: when an operand consists of two touching pieces (an exit and an entry at the
same distance), the sort may exchange them, and the reported shape then ends at the touching point. -/
theorem C36_touching_pieces_fails :
    ∃ (left : List Isect) (out : List Tagged), Alternates false left ∧
      left.Pairwise (fun a b => a.distance ≤ b.distance) ∧ out.Perm (left.map (fun h => ⟨h, false⟩)) ∧
      out.Pairwise (fun a b => a.isect.distance ≤ b.isect.distance) ∧ stateFrom false left 7 = true ∧
      stateFrom false (csgWalk .union false false false out) 7 = false := by
  let o : Vec3 ℝ := ⟨0, 0, 0⟩
  let a : Isect := ⟨0, 0, true, o⟩
  let b : Isect := ⟨5, 0, false, o⟩
  let c : Isect := ⟨5, 0, true, o⟩
  let d : Isect := ⟨10, 0, false, o⟩
  refine ⟨[a, b, c, d], [⟨a, false⟩, ⟨c, false⟩, ⟨b, false⟩, ⟨d, false⟩], ?_, ?_, ?_, ?_, ?_, ?_⟩
  · simp [Alternates, a, b, c, d]
  · simp [a, b, c, d]; norm_num
  · simp only [List.map_cons, List.map_nil]
    exact List.Perm.cons _ (List.Perm.swap _ _ _)
  · simp [a, b, c, d]; norm_num
  · rw [stateFrom_cons_lt _ _ _ _ (by simp [a]), stateFrom_cons_lt _ _ _ _ (by simp [b]; norm_num),
      stateFrom_cons_lt _ _ _ _ (by simp [c]; norm_num), stateFrom_cons_ge _ _ _ _ (by simp [d]; norm_num)]
    simp [c]
  · have h1 : ¬ ((5 : ℝ) - 0 < precision) := by unfold precision; norm_num
    have h2 : ((5 : ℝ) - 5 < precision) := by unfold precision; norm_num
    have h3 : ¬ ((10 : ℝ) - 5 < precision) := by unfold precision; norm_num
    have : csgWalk .union false false false [⟨a, false⟩, ⟨c, false⟩, ⟨b, false⟩, ⟨d, false⟩] =
        [⟨0, 0, true, o⟩, ⟨5, 0, false, o⟩] := by
      rw [csgWalk]
      simp only [List.takeWhile, List.dropWhile, a, c, h1, decide_false]
      rw [csgWalk]
      simp only [List.takeWhile, List.dropWhile, b, d, h2, h3, decide_false, decide_true]
      rw [csgWalk]
      simp only [List.takeWhile, List.dropWhile]
      rw [csgWalk]
      simp [batchState, isInsideResult]
    rw [this, stateFrom_cons_lt _ _ _ _ (by norm_num), stateFrom_cons_lt _ _ _ _ (by norm_num)]
    simp

/-! ### C42 -/

/-- C42: `IsInside` looks at the nearest crossing more than the tolerance ahead: it answers yes exactly when there is one
and it leaves the shape. -/
theorem C42_next_crossing (hits : List Isect) (hs : hits.Pairwise (fun a b => a.distance < b.distance)) :
    firstAhead hits = true ↔ ∃ h ∈ hits, h.distance > precision ∧ h.entering = false ∧
      ∀ h' ∈ hits, h'.distance > precision → h.distance ≤ h'.distance := by
  induction hits with
  | nil => simp [firstAhead]
  | cons a as ih =>
    obtain ⟨h1, h2⟩ := List.pairwise_cons.1 hs
    unfold firstAhead
    by_cases hp : a.distance > precision
    · rw [if_pos hp]
      constructor
      · intro h
        refine ⟨a, by simp, hp, by simpa using h, ?_⟩
        intro h' hh' _
        rcases List.mem_cons.1 hh' with rfl | hh'
        · exact le_refl _
        · exact (h1 h' hh').le
      · rintro ⟨h, hh, _, he, hm⟩
        rcases List.mem_cons.1 hh with rfl | hh
        · simp [he]
        · exact absurd (h1 h hh) (not_lt.2 (hm a (by simp) hp))
    · rw [if_neg hp, ih h2]
      constructor
      · rintro ⟨h, hh, hd, he, hm⟩
        refine ⟨h, by simp [hh], hd, he, ?_⟩
        intro h' hh' hd'
        rcases List.mem_cons.1 hh' with rfl | hh'
        · exact absurd hd' hp
        · exact hm h' hh' hd'
      · rintro ⟨h, hh, hd, he, hm⟩
        rcases List.mem_cons.1 hh with rfl | hh
        · exact absurd hd hp
        · exact ⟨h, hh, hd, he, fun h' hh' => hm h' (by simp [hh'])⟩

theorem firstAhead_state (hits : List Isect) : ∀ s, Alternates s hits →
    hits.Pairwise (fun a b => a.distance < b.distance) → (∀ h ∈ hits, precision < |h.distance|) →
    firstAhead hits = stateFrom s hits 0 := by
  induction hits with
  | nil => intro s h _ _; simp only [firstAhead, stateFrom_nil]; exact (show s = false from h).symm
  | cons a as ih =>
    intro s ⟨h1, h2⟩ hs hoff
    obtain ⟨p1, p2⟩ := List.pairwise_cons.1 hs
    have ha := hoff a (by simp)
    unfold firstAhead
    by_cases hp : a.distance > precision
    · rw [if_pos hp, stateFrom_all_ge, h1]
      · simp
      · intro x hx
        have h0 := precision_pos
        rcases List.mem_cons.1 hx with rfl | hx
        · linarith
        · have := p1 x hx; linarith
    · rw [if_neg hp]
      have hneg : a.distance < 0 := by
        by_contra hc
        rw [abs_of_nonneg (not_lt.1 hc)] at ha
        exact hp ha
      rw [stateFrom_cons_lt _ _ _ _ hneg]
      exact ih _ h2 p2 (fun h hh => hoff h (by simp [hh]))

theorem firstAhead_map {f : Isect → Isect} (hf : Keeps f) (l : List Isect) : firstAhead (l.map f) = firstAhead l := by
  induction l with
  | nil => rfl
  | cons a as ih => simp only [List.map_cons, firstAhead, (hf a).1, (hf a).2, ih]

theorem intersections_compute {srt : List Tagged → List Tagged} {pos dir : Vec3 ℝ} {g : Geom}
    {S : Vec3 ℝ → Prop} (h : OnLine precision pos dir g S) : ∃ f, Keeps f ∧ g.intersections srt pos dir =
      (g.compute srt (g.placement.globalToLocalPosition pos) (g.placement.globalToLocalDirection dir)).map f := by
  cases h with
  | null => exact ⟨id, fun h => ⟨rfl, rfl⟩, rfl⟩
  | prim _ _ p hp compute S hd => exact placed_keeps p hp compute pos dir
  | bool _ _ p hp op left right SL SR hl hr => exact placed_keeps p hp _ pos dir

/-- C42: for a shape (primitive or boolean) whose crossings describe a set `S` along the line through the point,
`IsInside(point, direction)` says whether the point is in `S`, provided no boundary is within the tolerance of the
point. -/
theorem C42_is_inside {srt : List Tagged → List Tagged} (hsrt : IsDistanceSort srt) {pos dir : Vec3 ℝ} {g : Geom}
    {S : Vec3 ℝ → Prop} (h : OnLine precision pos dir g S) (hoff : ∀ b ∈ g.boundaries pos dir, precision < |b|) :
    g.isInside srt pos dir = true ↔ S pos := by
  obtain ⟨c1, c2, c3, c4⟩ := C36_boolean_shape hsrt h
  obtain ⟨f, hf, e⟩ := intersections_compute (srt := srt) h
  have h0 : pos + Vec3.smul 0 dir = pos := by ext <;> simp
  have := c4 0 (fun b hb => by rw [sub_zero]; exact (hoff b hb).le)
  rw [h0] at this
  rw [this, Geom.isInside, ← firstAhead_map hf, ← e, firstAhead_state _ false c2 c1]
  intro x hx
  exact hoff _ (c3 x hx)

/-- C42: the answer does not depend on the direction. -/
theorem C42_direction_independent {srt : List Tagged → List Tagged} (hsrt : IsDistanceSort srt) {pos d1 d2 : Vec3 ℝ}
    {g : Geom} {S : Vec3 ℝ → Prop} (h1 : OnLine precision pos d1 g S) (h2 : OnLine precision pos d2 g S)
    (o1 : ∀ b ∈ g.boundaries pos d1, precision < |b|) (o2 : ∀ b ∈ g.boundaries pos d2, precision < |b|) :
    g.isInside srt pos d1 = g.isInside srt pos d2 := by
  rw [Bool.eq_iff_iff, C42_is_inside hsrt h1 o1, C42_is_inside hsrt h2 o2]

/-- C42: the overload without direction looks along the z axis. -/
theorem C42_default_direction {srt : List Tagged → List Tagged} (hsrt : IsDistanceSort srt) {pos dir : Vec3 ℝ}
    {g : Geom} {S : Vec3 ℝ → Prop} (h1 : OnLine precision pos dir g S) (h2 : OnLine precision pos ⟨0, 0, 1⟩ g S)
    (o1 : ∀ b ∈ g.boundaries pos dir, precision < |b|) (o2 : ∀ b ∈ g.boundaries pos ⟨0, 0, 1⟩, precision < |b|) :
    g.isInsideZ srt pos = g.isInside srt pos dir :=
  C42_direction_independent hsrt h2 h1 o2 o1

end Siren.Geometry
