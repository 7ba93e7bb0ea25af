import Verif.Detector.BVHModel
import Verif.Detector.Model
import Verif.Geometry.Box
import Verif.Geometry.Sphere

set_option autoImplicit false

/-!
# C23, C24, C25: the bounding-volume hierarchy changes no result
-/

namespace Siren.Detector.BVH

open Siren Siren.Geometry Siren.Geometry.BoolBox

/-! ### Specification: the node array as a tree -/

/-- A hierarchy of boxes. -/
inductive Tree
  | leaf (bounds : AABB ℝ) (sector : Nat)
  | node (bounds : AABB ℝ) (left right : Tree)

/-- The sectors at the leaves. -/
def Tree.leaves : Tree → List Nat
  | .leaf _ s => [s]
  | .node _ l r => l.leaves ++ r.leaves

/-- The number of nodes. -/
def Tree.size : Tree → Nat
  | .leaf _ _ => 1
  | .node _ l r => l.size + r.size + 1

/-- The box of the topmost node. -/
def Tree.bounds : Tree → AABB ℝ
  | .leaf b _ => b
  | .node b _ _ => b

/-- Every node's box encloses the boxes of all sectors below it. -/
def Tree.Encloses (box : Nat → AABB ℝ) : Tree → Prop
  | .leaf b s => AABB.Sub (box s) b
  | .node b l r => (∀ s ∈ l.leaves ++ r.leaves, AABB.Sub (box s) b) ∧ l.Encloses box ∧ r.Encloses box

/-- The node numbered `i` of the array is the root of the tree; children have larger numbers. -/
def Repr (nodes : List Node) : Nat → Tree → Prop
  | i, .leaf b s => nodes[i]? = some ⟨b, none, none, some s⟩
  | i, .node b tl tr => ∃ l r, nodes[i]? = some ⟨b, some l, some r, none⟩ ∧ i < l ∧ i < r ∧ Repr nodes l tl ∧ Repr nodes r tr

/-! ### The builder -/

theorem repr_mono {nodes nodes' : List Node} (t : Tree) : ∀ i,
    (∀ j x, i ≤ j → nodes[j]? = some x → nodes'[j]? = some x) → Repr nodes i t → Repr nodes' i t := by
  induction t with
  | leaf b s => intro i h hr; exact h i _ (le_refl _) hr
  | node b tl tr ihl ihr =>
    rintro i h ⟨l, r, h1, h2, h3, h4, h5⟩
    exact ⟨l, r, h i _ (le_refl _) h1, h2, h3, ihl l (fun j x hj => h j x (by omega)) h4,
      ihr r (fun j x hj => h j x (by omega)) h5⟩

theorem segBounds_sub (big : ℝ) (box : Nat → AABB ℝ) (seg : List Nat) : ∀ i ∈ seg, AABB.Sub (box i) (segBounds big box seg) := by
  have main : ∀ (seg : List Nat) (b : AABB ℝ), AABB.Sub b (seg.foldl (fun b i => b.expandBox (box i)) b) ∧
      ∀ i ∈ seg, AABB.Sub (box i) (seg.foldl (fun b i => b.expandBox (box i)) b) := by
    intro seg
    induction seg with
    | nil => intro b; exact ⟨AABB.Sub.refl b, by simp⟩
    | cons a seg ih =>
      intro b
      obtain ⟨h1, h2⟩ := ih (b.expandBox (box a))
      refine ⟨(AABB.sub_expandBox_left b _).trans h1, ?_⟩
      intro i hi
      rcases List.mem_cons.1 hi with rfl | hi
      · exact (AABB.sub_expandBox_right b _).trans h1
      · exact h2 i hi
  exact (main seg _).2

theorem centroid_mem (big : ℝ) (box : Nat → AABB ℝ) (seg : List Nat) :
    ∀ i ∈ seg, AABB.Mem (box i).centroid (centroidBounds big box seg) := by
  have main : ∀ (seg : List Nat) (b : AABB ℝ), AABB.Sub b (seg.foldl (fun b i => b.expand (box i).centroid) b) ∧
      ∀ i ∈ seg, AABB.Mem (box i).centroid (seg.foldl (fun b i => b.expand (box i).centroid) b) := by
    intro seg
    induction seg with
    | nil => intro b; exact ⟨AABB.Sub.refl b, by simp⟩
    | cons a seg ih =>
      intro b
      obtain ⟨h1, h2⟩ := ih (b.expand (box a).centroid)
      refine ⟨(AABB.sub_expand b _).trans h1, ?_⟩
      intro i hi
      rcases List.mem_cons.1 hi with rfl | hi
      · exact h1.mem (AABB.mem_expand b _)
      · exact h2 i hi
  exact (main seg _).2

theorem component_le (big : ℝ) (box : Nat → AABB ℝ) (seg : List Nat) (axis : Nat) (ha : axis < 3) (i : Nat) (hi : i ∈ seg) :
    component (centroidBounds big box seg).min axis ≤ (box i).centroidAxis axis := by
  have := centroid_mem big box seg i hi
  rcases axis with _ | _ | _ | n
  · exact this.1.1
  · exact this.2.1.1
  · exact this.2.2.1
  · omega

theorem fillBins_ok (box : Nat → AABB ℝ) (axis : Nat) (axisMin inv : ℝ) (hinv : 0 ≤ inv) (seg : List Nat)
    (h : ∀ i ∈ seg, axisMin ≤ (box i).centroidAxis axis) : ∀ bins, ∃ out, fillBins box axis axisMin inv seg bins = .ok out := by
  induction seg with
  | nil => intro bins; exact ⟨_, rfl⟩
  | cons i is ih =>
    intro bins
    simp only [fillBins]
    have hx : 0 ≤ ((box i).centroidAxis axis - axisMin) * inv := mul_nonneg (by linarith [h i (by simp)]) hinv
    have ht : 0 ≤ trunc (((box i).centroidAxis axis - axisMin) * inv) := by
      unfold trunc; rw [if_pos hx]; exact Int.floor_nonneg.2 hx
    rw [if_pos]
    · exact ih (fun j hj => h j (by simp [hj])) _
    · constructor
      · exact le_min ht (by simp [nBins])
      · exact lt_of_le_of_lt (min_le_right _ _) (by simp [nBins])

theorem tryAxis_ok (big : ℝ) (box : Nat → AABB ℝ) (seg : List Nat) (area : ℝ) (axis : Nat) (ha : axis < 3) (best : Best) :
    ∃ b, tryAxis big box seg (centroidBounds big box seg) area axis best = .ok b := by
  unfold tryAxis
  simp only
  split
  · exact ⟨_, rfl⟩
  · next h =>
    have hpos : (0 : ℝ) ≤ nBins / (component (centroidBounds big box seg).max axis -
        component (centroidBounds big box seg).min axis) := by
      apply div_nonneg (by simp)
      have : (0 : ℝ) < 1 / 10 ^ 12 := by norm_num
      linarith [not_lt.1 h]
    obtain ⟨out, ho⟩ := fillBins_ok box axis _ _ hpos seg (fun i hi => component_le big box seg axis ha i hi)
      (fun _ => ⟨AABB.empty big, 0⟩)
    rw [ho]
    exact ⟨_, rfl⟩

theorem modify_at {A : Type} (l r : List A) (x : A) (f : A → A) : (l ++ x :: r).modify l.length f = l ++ f x :: r := by
  induction l with
  | nil => simp
  | cons a l ih => simp [ih]

theorem build_spec (srt : (Nat → ℝ) → List Nat → List Nat) (hsrt : ∀ key l, (srt key l).Perm l) (big : ℝ)
    (box : Nat → AABB ℝ) (fuel : Nat) : ∀ (seg : List Nat) (nodes : List Node), seg ≠ [] → seg.length ≤ fuel →
    ∃ new t, build srt big box fuel seg nodes = .ok (nodes.length, nodes ++ new) ∧
      Repr (nodes ++ new) nodes.length t ∧ t.leaves.Perm seg ∧ t.Encloses box ∧ new.length = t.size := by
  induction fuel with
  | zero => intro seg nodes h1 h2; exact absurd (List.length_eq_zero_iff.1 (by omega)) h1
  | succ fuel ih =>
    intro seg nodes hne hlen
    match hseg : seg with
    | [] => exact absurd rfl hne
    | [i] =>
      refine ⟨[⟨segBounds big box [i], none, none, some i⟩], .leaf (segBounds big box [i]) i, rfl, ?_, .refl _, ?_, rfl⟩
      · simp [Repr]
      · exact segBounds_sub big box [i] i (by simp)
    | a :: b :: rest =>
      rw [← hseg] at hne hlen ⊢
      have hcount : 2 ≤ seg.length := by rw [hseg]; simp
      simp only [build]
      split
      · simp at hcount
      · obtain ⟨b0, e0⟩ := tryAxis_ok big box seg
          (if (segBounds big box seg).surfaceArea ≤ 0 then 1 else (segBounds big box seg).surfaceArea) 0 (by omega)
          ⟨0, seg.length / 2, big⟩
        obtain ⟨b1, e1⟩ := tryAxis_ok big box seg
          (if (segBounds big box seg).surfaceArea ≤ 0 then 1 else (segBounds big box seg).surfaceArea) 1 (by omega) b0
        obtain ⟨b2, e2⟩ := tryAxis_ok big box seg
          (if (segBounds big box seg).surfaceArea ≤ 0 then 1 else (segBounds big box seg).surfaceArea) 2 (by omega) b1
        rw [e0]; simp only [Res.bind]
        rw [e1]; simp only
        rw [e2]; simp only
        set degenerate := component (centroidBounds big box seg).max b2.axis -
          component (centroidBounds big box seg).min b2.axis < 1 / 10 ^ 12 with hdeg
        generalize hs : (if degenerate then seg else srt (fun i => (box i).centroidAxis b2.axis) seg) = sorted
        generalize hm : (if degenerate then seg.length / 2
          else if (if b2.split ≤ 0 then 1 else b2.split) ≥ seg.length then seg.length - 1
            else if b2.split ≤ 0 then 1 else b2.split) = mid
        have hperm : sorted.Perm seg := by
          rw [← hs]; split
          · exact .refl _
          · exact hsrt _ _
        have hl : sorted.length = seg.length := hperm.length_eq
        have hmid : 1 ≤ mid ∧ mid < seg.length := by
          rw [← hm]; split_ifs <;> omega
        have ht : (sorted.take mid).length = mid := by simp; omega
        have hd : (sorted.drop mid).length = seg.length - mid := by simp; omega
        obtain ⟨new1, t1, h11, h12, h13, h14, h15⟩ := ih (sorted.take mid) (nodes ++ [⟨segBounds big box seg, none, none, none⟩])
          (by intro e; rw [e] at ht; simp at ht; omega) (by omega)
        obtain ⟨new2, t2, h21, h22, h23, h24, h25⟩ := ih (sorted.drop mid)
          (nodes ++ [⟨segBounds big box seg, none, none, none⟩] ++ new1)
          (by intro e; rw [e] at hd; simp at hd; omega) (by omega)
        rw [h11]; simp only
        rw [h21]; simp only
        have hleaves : (t1.leaves ++ t2.leaves).Perm seg :=
          ((h13.append h23).trans (by rw [List.take_append_drop])).trans hperm
        refine ⟨⟨segBounds big box seg, some (nodes.length + 1), some (nodes.length + 1 + new1.length), none⟩ :: (new1 ++ new2),
          .node (segBounds big box seg) t1 t2, ?_, ?_, hleaves, ?_, ?_⟩
        · congr 2
          rw [List.append_assoc, List.append_assoc, List.singleton_append, modify_at]
          simp [Nat.add_assoc, Nat.add_comm 1]
        · refine ⟨nodes.length + 1, nodes.length + 1 + new1.length, by simp, by omega, by omega, ?_, ?_⟩
          · have hl1 : (nodes ++ [(⟨segBounds big box seg, none, none, none⟩ : Node)]).length = nodes.length + 1 := by simp
            rw [hl1] at h12
            refine repr_mono t1 _ ?_ h12
            intro j x hj hx
            rw [List.append_assoc, List.getElem?_append_right (by omega)] at hx
            rw [List.getElem?_append_right (by omega)]
            obtain ⟨k, hk⟩ : ∃ k, j - nodes.length = k + 1 := ⟨j - nodes.length - 1, by omega⟩
            rw [hk] at hx ⊢
            simp only [List.singleton_append, List.getElem?_cons_succ] at hx ⊢
            rw [List.getElem?_append_left (List.getElem?_eq_some_iff.1 hx).1]
            exact hx
          · have hl2 : (nodes ++ [(⟨segBounds big box seg, none, none, none⟩ : Node)] ++ new1).length =
                nodes.length + 1 + new1.length := by simp; omega
            rw [hl2] at h22
            refine repr_mono t2 _ ?_ h22
            intro j x hj hx
            rw [List.append_assoc, List.append_assoc, List.getElem?_append_right (by omega)] at hx
            rw [List.getElem?_append_right (by omega)]
            obtain ⟨k, hk⟩ : ∃ k, j - nodes.length = k + 1 := ⟨j - nodes.length - 1, by omega⟩
            rw [hk] at hx ⊢
            simpa using hx
        · exact ⟨fun s hs => segBounds_sub big box seg s (hleaves.subset hs), h14, h24⟩
        · simp [Tree.size, h15, h25]

/-- The world box of sector number `i`. -/
noncomputable def boxOf (big : ℝ) (secs : List Sector) (i : Nat) : AABB EReal :=
  ((secs[i]?).map (Sector.worldBox big)).getD (lift (AABB.empty big))

/-- What the hierarchy of a set of sectors has to look like: `t` is the tree, if there is one. -/
structure Indexes (big : ℝ) (secs : List Sector) (ix : Index) (t : Option Tree) : Prop where
  tree : match t with
    | none => ix.nodes = []
    | some t => Repr ix.nodes 0 t ∧ t.Encloses (fun i => unlift (boxOf big secs i)) ∧ t.size = ix.nodes.length
  once : (ix.infinite ++ ix.invalid ++ (t.map Tree.leaves).getD []).Perm (List.range secs.length)
  infinite : ∀ i s, secs[i]? = some s → (i ∈ ix.infinite ↔ ¬ AllFin (s.worldBox big))
  invalid : ∀ i s, secs[i]? = some s → (i ∈ ix.invalid ↔ AllFin (s.worldBox big) ∧ (s.worldBox big).isValid = false)
  leaves : ∀ i s, secs[i]? = some s →
    (i ∈ (t.map Tree.leaves).getD [] ↔ AllFin (s.worldBox big) ∧ (s.worldBox big).isValid = true)

theorem perm_three {A : Type} (p q : A → Bool) (l : List A) :
    (l.filter (fun i => !p i) ++ l.filter (fun i => p i && !q i) ++ l.filter (fun i => p i && q i)).Perm l := by
  induction l with
  | nil => simp
  | cons a l ih =>
    cases hp : p a <;> cases hq : q a <;> simp only [List.filter_cons, hp, hq] <;> simp
    · simpa using ih
    · simpa using ih
    · refine List.perm_middle.trans ?_
      simpa using ih
    · rw [← List.append_assoc]
      refine List.perm_middle.trans ?_
      simpa using ih

/-- C25: building the hierarchy ends without undefined behaviour for every set of sectors; every sector is in exactly one
place: in the always-tested list of unbounded sectors, in the list of sectors with an unusable box, or in one leaf; every
node's box encloses the boxes of all sectors below it. -/
theorem C25_rebuild (srt : (Nat → ℝ) → List Nat → List Nat) (hsrt : ∀ key l, (srt key l).Perm l) (big : ℝ)
    (secs : List Sector) : ∃ ix t, rebuild srt big secs = .ok ix ∧ Indexes big secs ix t := by
  classical
  have hbox : ∀ i s, secs[i]? = some s → boxOf big secs i = s.worldBox big := by
    intro i s h; simp [boxOf, h]
  have hmem : ∀ i s, secs[i]? = some s → i ∈ List.range secs.length := by
    intro i s h
    exact List.mem_range.2 (List.getElem?_eq_some_iff.1 h).1
  have honce := perm_three (fun i => decide (AllFin (boxOf big secs i))) (fun i => (boxOf big secs i).isValid)
    (List.range secs.length)
  have hdef : ∀ i : Nat, ((secs[i]?).map (Sector.worldBox big)).getD (lift (AABB.empty big)) = boxOf big secs i := fun _ => rfl
  unfold rebuild
  simp only [hdef]
  by_cases hemp : ((List.range secs.length).filter fun i => decide (AllFin (boxOf big secs i)) && (boxOf big secs i).isValid) = []
  · rw [hemp]
    simp only [List.isEmpty_nil, if_true]
    refine ⟨_, none, rfl, rfl, ?_, ?_, ?_, ?_⟩
    · rw [hemp] at honce
      simpa [decide_not] using honce
    · intro i s h
      simp only [List.mem_filter, hmem i s h, hbox i s h, true_and, decide_eq_true_eq]
    · intro i s h
      simp only [List.mem_filter, hmem i s h, hbox i s h, true_and, Bool.and_eq_true, decide_eq_true_eq, Bool.not_eq_true']
    · intro i s h
      have : i ∉ ((List.range secs.length).filter fun i => decide (AllFin (boxOf big secs i)) && (boxOf big secs i).isValid) := by
        rw [hemp]; simp
      simp only [List.mem_filter, hmem i s h, hbox i s h, true_and, Bool.and_eq_true, decide_eq_true_eq] at this
      simpa using this
  · obtain ⟨new, t, h1, h2, h3, h4, h5⟩ := build_spec srt hsrt big (fun i => unlift (boxOf big secs i)) _ _ [] hemp (le_refl _)
    rw [if_neg (by simpa using hemp), h1]
    simp only [Res.bind, List.nil_append, List.length_nil] at h2 ⊢
    refine ⟨_, some t, rfl, ⟨h2, h4, by simpa using h5.symm⟩, ?_, ?_, ?_, ?_⟩
    · refine List.Perm.trans ?_ honce
      simp only [Option.map_some, Option.getD_some, decide_not]
      exact List.Perm.append_left _ h3
    · intro i s h
      simp only [List.mem_filter, hmem i s h, hbox i s h, true_and, decide_eq_true_eq]
    · intro i s h
      simp only [List.mem_filter, hmem i s h, hbox i s h, true_and, Bool.and_eq_true, decide_eq_true_eq, Bool.not_eq_true']
    · intro i s h
      simp only [Option.map_some, Option.getD_some, h3.mem_iff]
      simp only [List.mem_filter, hmem i s h, hbox i s h, true_and, Bool.and_eq_true, decide_eq_true_eq]

/-! ### Rays -/

/-- What the ray queries need of a sector: its placement is a rotation with translation, and a line on which it reports
crossings meets its local bounding box (`C23_box_sound` and `C23_shell_sound` show this for boxes and shells). -/
structure Sector.RaySound (s : Sector) : Prop where
  sharp : s.placement.Sharp
  simple : Simple s.localBox
  boxed : ∀ p d, Vec3.dot d d = 1 → s.compute p d ≠ [] → ∃ t : ℝ, In (p + Vec3.smul t d) s.localBox

theorem local_fin {big : ℝ} (hbig : 0 < big) {s : Sector} (hf : AllFin (s.worldBox big))
    (hv : (s.worldBox big).isValid = true) : AllFin s.localBox ∧ s.localBox.isValid = true := by
  unfold Sector.worldBox world at hf hv
  by_cases h : s.localBox.isValid = true
  · refine ⟨?_, h⟩
    by_contra hn
    rw [if_neg (by simp [h]), if_pos hn] at hf
    exact hn hf
  · rw [if_pos h] at hv
    simp only [AABB.isValid, lift, AABB.empty, decide_eq_true_eq, EReal.coe_le_coe_iff] at hv
    linarith [hv.1]

/-- On a sharp placement the shortcut for the identity is not visible. -/
theorem placed_eq {p : Placement} (hp : p.Sharp) (compute : Vec3 ℝ → Vec3 ℝ → List Isect) (x d : Vec3 ℝ) :
    placed p compute x d = (compute (p.globalToLocalPosition x) (p.globalToLocalDirection d)).map fun h =>
      { h with position := p.localToGlobalPosition h.position } := by
  unfold placed
  split
  · next hid =>
    have h1 := fun v => (hp.2 hid v).1
    have h2 := fun v => (hp.2 hid v).2
    have h3 : ∀ v, p.localToGlobalPosition v = v := by
      intro v
      have := (Placement.C41_inverse p hp.1 v).2.1
      rw [h1] at this; exact this
    rw [h1, h2]
    simp [h3]
  · rfl

theorem append_nil {s : Sector} (hs : s.RaySound) {p d : Vec3 ℝ}
    (h : s.compute (s.placement.globalToLocalPosition p) (s.placement.globalToLocalDirection d) = []) :
    s.append p d = [] := by
  simp [Sector.append, placed_eq hs.sharp, h, Sector.tag]

theorem unit_local {s : Sector} (hs : s.RaySound) {d : Vec3 ℝ} (hd : Vec3.dot d d = 1) :
    Vec3.dot (s.placement.globalToLocalDirection d) (s.placement.globalToLocalDirection d) = 1 := by
  rw [(Placement.C41_isometry s.placement hs.sharp.1 d d).2.2.2, hd]

/-- A leaf contributes the same as the direct test. -/
theorem leafHits_eq {big : ℝ} (hbig : 0 < big) {s : Sector} (hs : s.RaySound) (hf : AllFin (s.worldBox big))
    (hv : (s.worldBox big).isValid = true) (p d : Vec3 ℝ) (hd : Vec3.dot d d = 1) : s.leafHits p d = s.append p d := by
  obtain ⟨h1, h2⟩ := local_fin hbig hf hv
  unfold Sector.leafHits
  simp only
  split
  · next hr =>
    symm
    apply append_nil hs
    by_contra hne
    obtain ⟨t, ht⟩ := hs.boxed _ _ (unit_local hs hd) hne
    rw [← lift_unlift h1, in_lift] at ht
    have := (AABB.C37_ray_box _ _ _ (unlift_valid h1 h2)).2 ⟨t, ht⟩
    rw [this] at hr; simp at hr
  · rw [Sector.append, placed_eq hs.sharp]

/-- A line on which the sector reports crossings meets its world box. -/
theorem world_hit {big : ℝ} {s : Sector} (hs : s.RaySound) (p d : Vec3 ℝ) (hd : Vec3.dot d d = 1) (h : s.append p d ≠ []) :
    ∃ t : ℝ, In (p + Vec3.smul t d) (s.worldBox big) := by
  have hne : s.compute (s.placement.globalToLocalPosition p) (s.placement.globalToLocalDirection d) ≠ [] :=
    fun e => h (append_nil hs e)
  obtain ⟨t, ht⟩ := hs.boxed _ _ (unit_local hs hd) hne
  refine ⟨t, ?_⟩
  have := in_world big s.placement hs.sharp.1 s.localBox hs.simple _ ht
  rwa [← Placement.C41_line s.placement hs.sharp.1, (Placement.C41_inverse s.placement hs.sharp.1 _).1] at this

/-- The crossings of sector number `i` on the line, tested directly. -/
noncomputable def hitsOf (secs : List Sector) (p d : Vec3 ℝ) (i : Nat) : List MHit :=
  ((secs[i]?).map fun s => s.append p d).getD []

/-- A leaf's sector exists, is sound for rays and has a usable box. -/
def GoodLeaf (big : ℝ) (secs : List Sector) (i : Nat) : Prop :=
  ∃ s, secs[i]? = some s ∧ s.RaySound ∧ AllFin (s.worldBox big) ∧ (s.worldBox big).isValid = true

theorem sub_of_encloses {box : Nat → AABB ℝ} {t : Tree} (h : t.Encloses box) : ∀ i ∈ t.leaves, AABB.Sub (box i) t.bounds := by
  cases t with
  | leaf b s => intro i hi; simp only [Tree.leaves, List.mem_singleton] at hi; subst hi; exact h
  | node b l r => exact h.1

theorem prune {big : ℝ} {secs : List Sector} {t : Tree} (he : t.Encloses fun i => unlift (boxOf big secs i))
    (hg : ∀ i ∈ t.leaves, GoodLeaf big secs i) (p d : Vec3 ℝ) (hd : Vec3.dot d d = 1)
    (h : AABB.rayIntersect p (AABB.invDir d) t.bounds = false) :
    t.leaves.flatMap (hitsOf secs p d) = [] := by
  rw [List.flatMap_eq_nil_iff]
  intro i hi
  obtain ⟨s, h1, h2, h3, h4⟩ := hg i hi
  simp only [hitsOf, h1, Option.map_some, Option.getD_some]
  by_contra hne
  obtain ⟨u, hu⟩ := world_hit (big := big) h2 p d hd hne
  have hsub := sub_of_encloses he i hi
  simp only [boxOf, h1, Option.map_some, Option.getD_some] at hsub
  rw [← lift_unlift h3, in_lift] at hu
  have hm := hsub.mem hu
  have hval : t.bounds.isValid = true := by
    rw [AABB.isValid_iff]
    exact ⟨le_trans hm.1.1 hm.1.2, le_trans hm.2.1.1 hm.2.1.2, le_trans hm.2.2.1 hm.2.2.2⟩
  have := (AABB.C37_ray_box p d t.bounds hval).2 ⟨u, hm⟩
  rw [this] at h; simp at h

/-- The work still to do: node numbers with the trees they stand for. -/
abbrev Work := List (Nat × Tree)

def Work.size (w : Work) : Nat := (w.map fun x => x.2.size).sum

noncomputable def Work.hits (secs : List Sector) (p d : Vec3 ℝ) (w : Work) : List MHit := w.flatMap fun x => x.2.leaves.flatMap (hitsOf secs p d)

structure Item (big : ℝ) (secs : List Sector) (nodes : List Node) (x : Nat × Tree) : Prop where
  repr : Repr nodes x.1 x.2
  encloses : x.2.Encloses fun i => unlift (boxOf big secs i)
  good : ∀ i ∈ x.2.leaves, GoodLeaf big secs i

theorem push_spec (c : Nat) (t : Tree) (ws wh : Work) :
    ∃ ws' wh' : Work, push (some c) (ws.map Prod.fst, wh.map Prod.fst) = .ok (ws'.map Prod.fst, wh'.map Prod.fst) ∧
      (wh' ++ ws').Perm ((c, t) :: (wh ++ ws)) := by
  by_cases h : ws.length < 64
  · refine ⟨(c, t) :: ws, wh, ?_, List.perm_middle⟩
    simp [push, stackCapacity, h]
  · refine ⟨ws, (c, t) :: wh, ?_, by simp⟩
    simp [push, stackCapacity, h]

theorem work_perm_size {a b : Work} (h : a.Perm b) : Work.size a = Work.size b := (h.map _).sum_eq

theorem work_perm_hits {secs : List Sector} {p d : Vec3 ℝ} {a b : Work} (h : a.Perm b) :
    (Work.hits secs p d a).Perm (Work.hits secs p d b) := h.flatMap_right _

theorem traverse_spec {big : ℝ} (hbig : 0 < big) (secs : List Sector) (nodes : List Node) (p d : Vec3 ℝ)
    (hd : Vec3.dot d d = 1) (fuel : Nat) :
    ∀ (ws wh : Work) (acc : List MHit), (∀ x ∈ wh ++ ws, Item big secs nodes x) → Work.size (wh ++ ws) < fuel →
    ∃ out, traverse secs nodes p d fuel (ws.map Prod.fst, wh.map Prod.fst) acc = .ok out ∧
      out.Perm (acc ++ Work.hits secs p d (wh ++ ws)) := by
  induction fuel with
  | zero => intro ws wh acc _ h; omega
  | succ fuel ih =>
    intro ws wh acc hitem hsize
    -- visiting the node `x`, with `ws`, `wh` left
    have visit : ∀ (x : Nat × Tree) (ws wh : Work), (∀ y ∈ x :: (wh ++ ws), Item big secs nodes y) →
        Work.size (x :: (wh ++ ws)) < fuel + 1 →
        ∃ out, (match nodes[x.1]? with
          | none => Res.ub
          | some node =>
            if !AABB.rayIntersect p (AABB.invDir d) node.bounds then
              traverse secs nodes p d fuel (ws.map Prod.fst, wh.map Prod.fst) acc
            else
              match node.sector with
              | some s =>
                match secs[s]? with
                | none => .ub
                | some sector =>
                  traverse secs nodes p d fuel (ws.map Prod.fst, wh.map Prod.fst) (acc ++ sector.leafHits p d)
              | none =>
                (push node.left (ws.map Prod.fst, wh.map Prod.fst)).bind fun st =>
                  (push node.right st).bind fun st => traverse secs nodes p d fuel st acc) = .ok out ∧
          out.Perm (acc ++ Work.hits secs p d (x :: (wh ++ ws))) := by
      rintro ⟨n, t⟩ ws wh hitem hsize
      have hx := hitem (n, t) (by simp)
      have hrest : ∀ y ∈ wh ++ ws, Item big secs nodes y := fun y hy => hitem y (List.mem_cons_of_mem _ hy)
      have hs0 : Work.size ((n, t) :: (wh ++ ws)) = t.size + Work.size (wh ++ ws) := by simp [Work.size]
      have hh0 : Work.hits secs p d ((n, t) :: (wh ++ ws)) =
          t.leaves.flatMap (hitsOf secs p d) ++ Work.hits secs p d (wh ++ ws) := by simp [Work.hits]
      have hb : ∃ node, nodes[n]? = some node ∧ node.bounds = t.bounds := by
        have := hx.repr
        cases t with
        | leaf b s => exact ⟨_, this, rfl⟩
        | node b l r => obtain ⟨l, r, h, -⟩ := this; exact ⟨_, h, rfl⟩
      obtain ⟨node, hn, hnb⟩ := hb
      have hpos : 1 ≤ t.size := by cases t <;> simp [Tree.size]
      simp only [hn]
      cases hray : AABB.rayIntersect p (AABB.invDir d) node.bounds with
      | false =>
        simp only [Bool.not_false, if_true]
        obtain ⟨out, h1, h2⟩ := ih ws wh acc hrest (by omega)
        refine ⟨out, h1, ?_⟩
        rw [hh0, prune hx.encloses hx.good p d hd (by rw [← hnb]; exact hray)]
        simpa using h2
      | true =>
        simp only [Bool.not_true, Bool.false_eq_true, if_false]
        cases t with
        | leaf b s =>
          have := hx.repr
          simp only [Repr, hn, Option.some.injEq] at this
          subst this
          simp only
          obtain ⟨sec, g1, g2, g3, g4⟩ := hx.good s (by simp [Tree.leaves])
          simp only [g1]
          obtain ⟨out, h1, h2⟩ := ih ws wh (acc ++ sec.leafHits p d) hrest (by omega)
          refine ⟨out, h1, ?_⟩
          rw [leafHits_eq hbig g2 g3 g4 p d hd] at h2
          rw [hh0]
          simpa [Tree.leaves, hitsOf, g1] using h2
        | node b tl tr =>
          obtain ⟨l, r, e1, -, -, e2, e3⟩ := hx.repr
          rw [hn, Option.some.injEq] at e1
          subst e1
          simp only
          obtain ⟨ws1, wh1, p1, q1⟩ := push_spec l tl ws wh
          obtain ⟨ws2, wh2, p2, q2⟩ := push_spec r tr ws1 wh1
          rw [p1]; simp only [Res.bind]
          rw [p2]; simp only
          have q : (wh2 ++ ws2).Perm ((r, tr) :: (l, tl) :: (wh ++ ws)) := q2.trans (q1.cons _)
          have hit2 : ∀ y ∈ wh2 ++ ws2, Item big secs nodes y := by
            intro y hy
            rcases List.mem_cons.1 (q.subset hy) with rfl | hy
            · exact ⟨e3, hx.encloses.2.2, fun i hi => hx.good i (by simp [Tree.leaves, hi])⟩
            · rcases List.mem_cons.1 hy with rfl | hy
              · exact ⟨e2, hx.encloses.2.1, fun i hi => hx.good i (by simp [Tree.leaves, hi])⟩
              · exact hrest y hy
          obtain ⟨out, h1, h2⟩ := ih ws2 wh2 acc hit2 (by
            rw [work_perm_size q]
            simp only [Work.size, List.map_cons, List.sum_cons, Tree.size] at hsize ⊢
            omega)
          refine ⟨out, h1, h2.trans (List.Perm.append_left _ ?_)⟩
          refine (work_perm_hits q).trans ?_
          rw [hh0]
          simp only [Work.hits, List.flatMap_cons, Tree.leaves, List.flatMap_append, List.append_assoc]
          rw [← List.append_assoc, ← List.append_assoc (List.flatMap _ tl.leaves)]
          exact List.Perm.append_right _ List.perm_append_comm
    simp only [traverse]
    cases wh with
    | cons x wh =>
      obtain ⟨out, h1, h2⟩ := visit x ws wh hitem hsize
      exact ⟨out, h1, h2⟩
    | nil =>
      cases ws with
      | nil => exact ⟨acc, rfl, by simp [Work.hits]⟩
      | cons x ws =>
        obtain ⟨out, h1, h2⟩ := visit x ws [] hitem hsize
        exact ⟨out, h1, h2⟩

theorem appendAll_spec (secs : List Sector) (p d : Vec3 ℝ) (is : List Nat) (h : ∀ i ∈ is, i < secs.length) :
    appendAll secs p d is = .ok (is.flatMap (hitsOf secs p d)) := by
  induction is with
  | nil => rfl
  | cons i is ih =>
    have hi := h i (by simp)
    simp only [appendAll, List.getElem?_eq_getElem hi, ih (fun j hj => h j (by simp [hj])), Res.bind]
    simp [hitsOf, hi]

/-- C23: for every set of sectors and every line (unit direction), `GetIntersections` through any index built for them ends normally and
collects exactly the crossings found by testing every sector in turn; the sorted result is therefore the same. -/
theorem C23_same_hits {big : ℝ} (hbig : 0 < big) (secs : List Sector) (hs : ∀ s ∈ secs, s.RaySound) (ix : Index)
    (t : Option Tree) (hix : Indexes big secs ix t) (p d : Vec3 ℝ) (hd : Vec3.dot d d = 1) (fuel : Nat) (hfuel : ix.nodes.length < fuel) :
    ∃ out, collect secs ix p d fuel = .ok out ∧ out.Perm (secs.flatMap fun s => s.append p d) := by
  have hall : secs.flatMap (fun s => s.append p d) = (List.range secs.length).flatMap (hitsOf secs p d) := by
    clear hix hs
    have : (List.range secs.length).map (hitsOf secs p d) = secs.map fun s => s.append p d := by
      apply List.ext_getElem (by simp)
      intro i h1 h2
      simp at h1
      simp [hitsOf, h1]
    rw [List.flatMap_def, List.flatMap_def, this]
  have hlt : ∀ i ∈ ix.infinite ++ ix.invalid ++ (t.map Tree.leaves).getD [], i < secs.length := fun i hi =>
    List.mem_range.1 (hix.once.subset hi)
  have hperm := hix.once.flatMap_right (hitsOf secs p d)
  unfold collect
  rw [appendAll_spec _ _ _ _ (fun i hi => hlt i (by simp [hi])), appendAll_spec _ _ _ _ (fun i hi => hlt i (by simp [hi]))]
  simp only [Res.bind]
  rw [hall]
  cases t with
  | none =>
    have : ix.nodes = [] := hix.tree
    rw [this]
    refine ⟨_, rfl, ?_⟩
    simpa using hperm
  | some t =>
    obtain ⟨h1, h2, h3⟩ := hix.tree
    have hne : ix.nodes.isEmpty = false := by
      cases hn : ix.nodes with
      | nil => rw [hn] at h3; cases t <;> simp [Tree.size] at h3
      | cons a l => rfl
    rw [if_neg (by simp [hne])]
    have hgood : ∀ i ∈ t.leaves, GoodLeaf big secs i := by
      intro i hi
      have hi' := hlt i (by simp [hi])
      have hsec := List.getElem?_eq_getElem hi'
      have := (hix.leaves i _ hsec).1 (by simpa using hi)
      exact ⟨_, hsec, hs _ (List.getElem_mem hi'), this⟩
    obtain ⟨out, g1, g2⟩ := traverse_spec hbig secs ix.nodes p d hd fuel [(0, t)] []
      (ix.infinite.flatMap (hitsOf secs p d) ++ ix.invalid.flatMap (hitsOf secs p d))
      (by intro x hx; simp at hx; subst hx; exact ⟨h1, h2, hgood⟩) (by simp [Work.size]; omega)
    refine ⟨out, g1, g2.trans ?_⟩
    simpa [Work.hits] using hperm

/-- What testing every sector gives: each sector's crossings, computed in its local coordinates, with the positions brought
back and marked with the sector's level and material. -/
noncomputable def everyHit (secs : List Sector) (p d : Vec3 ℝ) : List MHit :=
  secs.flatMap fun s =>
    (s.compute (s.placement.globalToLocalPosition p) (s.placement.globalToLocalDirection d)).map fun h =>
      ⟨⟨h.distance, s.level, h.entering, s.placement.localToGlobalPosition h.position⟩, s.material⟩

theorem everyHit_eq (secs : List Sector) (hs : ∀ s ∈ secs, s.RaySound) (p d : Vec3 ℝ) :
    (secs.flatMap fun s => s.append p d) = everyHit secs p d := by
  unfold everyHit
  rw [List.flatMap_def, List.flatMap_def]
  congr 1
  apply List.map_congr_left
  intro s h
  have hp := (hs s h).sharp
  unfold Sector.append Sector.tag placed
  split
  · next hid =>
    rw [(hp.2 hid p).1, (hp.2 hid d).2]
    apply List.map_congr_left
    intro x _
    have : s.placement.localToGlobalPosition x.position = x.position := by
      have h1 := (Placement.C41_inverse s.placement hp.1 x.position).1
      rwa [(hp.2 hid x.position).1] at h1
    rw [this]
  · rw [List.map_map]; rfl

/-- An intersection as `SortIntersections` sees it. -/
def MHit.hit (h : MHit) : Hit ℝ := ⟨h.isect.distance, h.isect.hierarchy, h.isect.entering⟩

/-- `out` is a possible result of `SortIntersections` (detector/private/DetectorModel.cxx:1751-1782) for `input`. -/
def SortOf (out input : List MHit) : Prop := out.Perm input ∧ out.Pairwise (fun a b => comp b.hit a.hit = false)

/-- C23: from the sectors to the sorted list. The index is built, the query ends normally, and the sorted lists it can
return are those obtained by testing every sector. -/
theorem C23_get_intersections (srt : (Nat → ℝ) → List Nat → List Nat) (hsrt : ∀ key l, (srt key l).Perm l) {big : ℝ}
    (hbig : 0 < big) (secs : List Sector) (hs : ∀ s ∈ secs, s.RaySound) (p d : Vec3 ℝ) (hd : Vec3.dot d d = 1) :
    ∃ ix, rebuild srt big secs = .ok ix ∧ ∀ fuel, ix.nodes.length < fuel → ∃ found, collect secs ix p d fuel = .ok found ∧
      ∀ out, SortOf out found ↔ SortOf out (everyHit secs p d) := by
  obtain ⟨ix, t, h1, h2⟩ := C25_rebuild srt hsrt big secs
  refine ⟨ix, h1, fun fuel hf => ?_⟩
  obtain ⟨found, h3, h4⟩ := C23_same_hits hbig secs hs ix t h2 p d hd fuel hf
  refine ⟨found, h3, fun out => ?_⟩
  rw [everyHit_eq secs hs] at h4
  exact ⟨fun h => ⟨h.1.trans h4, h.2⟩, fun h => ⟨h.1.trans h4.symm, h.2⟩⟩

/-- C23: boxes are sound for rays. -/
theorem C23_box_sound (level material : Int) (pl : Placement) (hp : pl.Sharp) (w : Vec3 ℝ)
    (hw : 0 ≤ w.x ∧ 0 ≤ w.y ∧ 0 ≤ w.z) :
    (⟨level, material, pl, lift (Box.boundingBox w), fun p d => (Box.compute w p d).getD []⟩ : Sector).RaySound := by
  refine ⟨hp, simple_lift _, ?_⟩
  intro p d hd hne
  have hd0 : d ≠ 0 := by rintro rfl; simp [Vec3.dot] at hd
  rcases Box.C39_box_exact w p d hw hd0 with ⟨h, -⟩ | ⟨a, b, hab, h, -⟩
  · simp [h] at hne
  · exact ⟨a, by rw [in_lift, Box.C39_bounding_box]; exact (h a).2 ⟨le_refl _, hab⟩⟩

/-- C23: spheres and spherical shells without cuts are sound for rays. -/
theorem C23_shell_sound (srt : List SHit → List SHit) (hsrt : IsHitSort srt) (level material : Int) (pl : Placement)
    (hp : pl.Sharp) (outer inner : ℝ) (h0 : 0 < outer) (hio : inner < outer) :
    (⟨level, material, pl, lift (Sphere.boundingBox outer), fun p d =>
      Sphere.compute srt outer inner false false [] [] true true p d⟩ : Sector).RaySound := by
  refine ⟨hp, simple_lift _, ?_⟩
  intro p d hd hne
  obtain ⟨ex, h1, h2, -⟩ := Sphere.C40_shell_exact srt hsrt outer inner h0 hio p d hd [] [] true true
  -- between the first two crossings the line is inside
  have hS : ∃ t, Sphere.Mem outer inner (p + Vec3.smul t d) := by
    match hex : ex with
    | [] => rw [List.map_nil] at h2; exact absurd h2.eq_nil hne
    | [a] =>
      have := h1.alternates
      simp [Alternates] at this
    | a :: b :: rest =>
      have hs := List.pairwise_cons.1 h1.strict
      have hab := hs.1 b (by simp)
      have hsb := List.pairwise_cons.1 hs.2
      refine ⟨(a.1 + b.1) / 2, (h1.exact _ ?_).2 ?_⟩
      · intro c hc
        rcases List.mem_cons.1 hc with rfl | hc
        · intro e; linarith
        · rcases List.mem_cons.1 hc with rfl | hc
          · intro e; linarith
          · intro e; linarith [hsb.1 c hc]
      · have hal := h1.alternates
        simp only [List.map_cons, Alternates] at hal
        rw [List.map_cons, stateFrom_cons_lt _ _ _ _ (by simp only; linarith), stateFrom_all_ge]
        · simp [hal.1]
        · intro x hx
          obtain ⟨c, hc, rfl⟩ := List.mem_map.1 hx
          simp only
          rcases List.mem_cons.1 hc with rfl | hc
          · linarith
          · linarith [hsb.1 c hc]
  obtain ⟨t, ht⟩ := hS
  exact ⟨t, by rw [in_lift]; exact Sphere.C40_bounding_box outer inner _ ht⟩

/-! ### Containment -/

/-- What the containment queries need of a sector at a point `p`: if the sector's own test says inside, its world box
contains the point; an unbounded sector contains every point; the level of every other sector is above `INT_MIN`. -/
structure Sector.PointSound (big : ℝ) (p : Vec3 ℝ) (s : Sector) : Prop where
  boxed : s.isInside p = true → AllFin (s.worldBox big) → (s.worldBox big).isValid = true → In p (s.worldBox big)
  unbounded : ¬ AllFin (s.worldBox big) → s.isInside p = true
  level : intMin ≤ s.level
  above : AllFin (s.worldBox big) → intMin < s.level

/-- Offer sector number `i`. -/
noncomputable def offerAt (secs : List Sector) (p : Vec3 ℝ) (f : Found) (i : Nat) : Found :=
  ((secs[i]?).map fun s => f.offer s p).getD f

theorem find_spec {big : ℝ} (secs : List Sector) (nodes : List Node) (p : Vec3 ℝ) (fuel : Nat) :
    ∀ (t : Tree) (n : Nat) (f : Found), Repr nodes n t → t.Encloses (fun i => unlift (boxOf big secs i)) →
    (∀ i ∈ t.leaves, ∃ s, secs[i]? = some s ∧ s.PointSound big p ∧ AllFin (s.worldBox big) ∧
      (s.worldBox big).isValid = true) → t.size ≤ fuel →
    find secs nodes p fuel n f = .ok (t.leaves.foldl (offerAt secs p) f) := by
  induction fuel with
  | zero => intro t n f _ _ _ h; cases t <;> simp [Tree.size] at h
  | succ fuel ih =>
    intro t n f hr he hg hsize
    have hb : ∃ node, nodes[n]? = some node ∧ node.bounds = t.bounds := by
      cases t with
      | leaf b s => exact ⟨_, hr, rfl⟩
      | node b l r => obtain ⟨l, r, h, -⟩ := hr; exact ⟨_, h, rfl⟩
    obtain ⟨node, hn, hnb⟩ := hb
    simp only [find, hn]
    cases hc : node.bounds.contains p with
    | false =>
      simp only [Bool.not_false, if_true]
      congr 1
      have hout : ∀ i ∈ t.leaves, ∀ f, offerAt secs p f i = f := by
        intro i hi f
        obtain ⟨s, h1, h2, h3, h4⟩ := hg i hi
        simp only [offerAt, h1, Option.map_some, Option.getD_some, Found.offer]
        rw [if_neg]
        rintro ⟨-, hin⟩
        have hw := h2.boxed hin h3 h4
        rw [← lift_unlift h3, in_lift] at hw
        have hsub := sub_of_encloses he i hi
        simp only [boxOf, h1, Option.map_some, Option.getD_some] at hsub
        have := (AABB.contains_iff _ _).2 (hsub.mem hw)
        rw [← hnb, hc] at this; simp at this
      clear hg he hr hsize
      generalize t.leaves = ls at hout
      induction ls generalizing f with
      | nil => rfl
      | cons i is ihl =>
        rw [List.foldl_cons, hout i (by simp) f]
        exact ihl f (fun j hj => hout j (by simp [hj]))
    | true =>
      simp only [Bool.not_true, Bool.false_eq_true, if_false]
      cases t with
      | leaf b s =>
        simp only [Repr, hn, Option.some.injEq] at hr
        subst hr
        obtain ⟨sec, h1, -⟩ := hg s (by simp [Tree.leaves])
        simp [h1, Tree.leaves, offerAt]
      | node b tl tr =>
        obtain ⟨l, r, e1, -, -, e2, e3⟩ := hr
        rw [hn, Option.some.injEq] at e1
        subst e1
        simp only [Tree.size] at hsize
        simp only
        rw [ih tl l f e2 he.2.1 (fun i hi => hg i (by simp [Tree.leaves, hi])) (by omega)]
        simp only [Res.bind]
        rw [ih tr r _ e3 he.2.2 (fun i hi => hg i (by simp [Tree.leaves, hi])) (by omega)]
        simp [Tree.leaves]

/-- The result so far after looking at the sectors numbered `done`. -/
structure Sofar (secs : List Sector) (p : Vec3 ℝ) (done : List Nat) (f : Found) : Prop where
  nothing : f.sector = none → f.level = intMin ∧ ∀ i ∈ done, ∀ s, secs[i]? = some s → s.isInside p = false
  best : ∀ s, f.sector = some s → s ∈ secs ∧ s.isInside p = true ∧ f.level = s.level ∧
    ∀ i ∈ done, ∀ s', secs[i]? = some s' → s'.isInside p = true → s'.level ≤ s.level

theorem sofar_infinite {big : ℝ} (secs : List Sector) (p : Vec3 ℝ) (hs : ∀ s ∈ secs, s.PointSound big p) (is : List Nat)
    (hi : ∀ i ∈ is, ∃ s, secs[i]? = some s ∧ ¬ AllFin (s.worldBox big)) : ∀ (done : List Nat) (f : Found),
    Sofar secs p done f → ∃ f', offerInfinite secs is f = .ok f' ∧ Sofar secs p (done ++ is) f' := by
  induction is with
  | nil => intro done f h; exact ⟨f, rfl, by simpa using h⟩
  | cons i is ih =>
    intro done f h
    obtain ⟨s, h1, h2⟩ := hi i (by simp)
    have hmem : s ∈ secs := List.mem_of_getElem? h1
    simp only [offerInfinite, h1]
    have hstep : Sofar secs p (done ++ [i]) (if s.level ≥ f.level then ⟨s.level, some s⟩ else f) := by
      have hin := (hs s hmem).unbounded h2
      split
      · next hge =>
        refine ⟨by simp, ?_⟩
        rintro s' e
        simp only [Option.some.injEq] at e
        subst e
        refine ⟨hmem, hin, rfl, ?_⟩
        intro j hj s' hs' hin'
        rcases List.mem_append.1 hj with hj | hj
        · cases hf : f.sector with
          | none =>
            have := (h.nothing hf).2 j hj s' hs'
            rw [hin'] at this; simp at this
          | some b =>
            have := h.best b hf
            have h4 := this.2.2.2 j hj s' hs' hin'
            rw [← this.2.2.1] at h4
            exact le_trans h4 hge
        · simp only [List.mem_singleton] at hj
          subst hj
          rw [h1, Option.some.injEq] at hs'
          rw [hs']
      · next hlt =>
        refine ⟨?_, ?_⟩
        · intro hf
          have := (h.nothing hf).1
          exact absurd (hs s hmem).level (by omega)
        · intro b hf
          obtain ⟨g1, g2, g3, g4⟩ := h.best b hf
          refine ⟨g1, g2, g3, ?_⟩
          intro j hj s' hs' hin'
          rcases List.mem_append.1 hj with hj | hj
          · exact g4 j hj s' hs' hin'
          · simp only [List.mem_singleton] at hj
            subst hj
            rw [h1, Option.some.injEq] at hs'
            subst hs'
            omega
    obtain ⟨f', h3, h4⟩ := ih (fun j hj => hi j (by simp [hj])) _ _ hstep
    exact ⟨f', h3, by simpa using h4⟩

theorem sofar_offer {big : ℝ} (secs : List Sector) (p : Vec3 ℝ) (hs : ∀ s ∈ secs, s.PointSound big p) (done : List Nat)
    (f : Found) (h : Sofar secs p done f) (i : Nat) (s : Sector) (h1 : secs[i]? = some s) (h2 : AllFin (s.worldBox big)) :
    Sofar secs p (done ++ [i]) (f.offer s p) := by
  have hmem : s ∈ secs := List.mem_of_getElem? h1
  unfold Found.offer
  split
  · next hge =>
    refine ⟨by simp, ?_⟩
    rintro s' e
    simp only [Option.some.injEq] at e
    subst e
    refine ⟨hmem, hge.2, rfl, ?_⟩
    intro j hj s' hs' hin'
    rcases List.mem_append.1 hj with hj | hj
    · cases hf : f.sector with
      | none =>
        have := (h.nothing hf).2 j hj s' hs'
        rw [hin'] at this; simp at this
      | some b =>
        have := h.best b hf
        have h4 := this.2.2.2 j hj s' hs' hin'
        rw [← this.2.2.1] at h4
        exact le_trans h4 hge.1.le
    · simp only [List.mem_singleton] at hj
      subst hj
      rw [h1, Option.some.injEq] at hs'
      rw [hs']
  · next hlt =>
    refine ⟨?_, ?_⟩
    · intro hf
      obtain ⟨g1, g2⟩ := h.nothing hf
      refine ⟨g1, ?_⟩
      intro j hj s' hs'
      rcases List.mem_append.1 hj with hj | hj
      · exact g2 j hj s' hs'
      · simp only [List.mem_singleton] at hj
        subst hj
        rw [h1, Option.some.injEq] at hs'
        subst hs'
        by_contra hc
        exact hlt ⟨by rw [g1]; exact (hs s hmem).above h2, by simpa using hc⟩
    · intro b hf
      obtain ⟨g1, g2, g3, g4⟩ := h.best b hf
      refine ⟨g1, g2, g3, ?_⟩
      intro j hj s' hs' hin'
      rcases List.mem_append.1 hj with hj | hj
      · exact g4 j hj s' hs' hin'
      · simp only [List.mem_singleton] at hj
        subst hj
        rw [h1, Option.some.injEq] at hs'
        subst hs'
        by_contra hc
        exact hlt ⟨by rw [g3]; omega, hin'⟩

theorem sofar_invalid {big : ℝ} (secs : List Sector) (p : Vec3 ℝ) (hs : ∀ s ∈ secs, s.PointSound big p) (is : List Nat)
    (hi : ∀ i ∈ is, ∃ s, secs[i]? = some s ∧ AllFin (s.worldBox big)) : ∀ (done : List Nat) (f : Found),
    Sofar secs p done f → ∃ f', offerInvalid secs p is f = .ok f' ∧ Sofar secs p (done ++ is) f' := by
  induction is with
  | nil => intro done f h; exact ⟨f, rfl, by simpa using h⟩
  | cons i is ih =>
    intro done f h
    obtain ⟨s, h1, h2⟩ := hi i (by simp)
    simp only [offerInvalid, h1]
    obtain ⟨f', h3, h4⟩ := ih (fun j hj => hi j (by simp [hj])) _ _ (sofar_offer secs p hs done f h i s h1 h2)
    exact ⟨f', h3, by simpa using h4⟩

theorem sofar_fold {big : ℝ} (secs : List Sector) (p : Vec3 ℝ) (hs : ∀ s ∈ secs, s.PointSound big p) (is : List Nat)
    (hi : ∀ i ∈ is, ∃ s, secs[i]? = some s ∧ AllFin (s.worldBox big)) : ∀ (done : List Nat) (f : Found),
    Sofar secs p done f → Sofar secs p (done ++ is) (is.foldl (offerAt secs p) f) := by
  induction is with
  | nil => intro done f h; simpa using h
  | cons i is ih =>
    intro done f h
    obtain ⟨s, h1, h2⟩ := hi i (by simp)
    have := ih (fun j hj => hi j (by simp [hj])) _ _ (sofar_offer secs p hs done f h i s h1 h2)
    simpa [offerAt, h1] using this

/-- C24: for every set of sectors with distinct levels and every point, the containing sector found through any index built
for them is the sector of the highest level among those whose own containment test accepts the point, and nothing is found
exactly when no sector accepts it. -/
theorem C24_containing_sector {big : ℝ} (secs : List Sector) (p : Vec3 ℝ) (hs : ∀ s ∈ secs, s.PointSound big p)
    (hlev : (secs.map Sector.level).Nodup) (ix : Index) (t : Option Tree) (hix : Indexes big secs ix t) (fuel : Nat)
    (hfuel : ix.nodes.length < fuel) :
    ∃ r, containingDirect secs ix p fuel = .ok r ∧
      ∀ s, r = some s ↔ s ∈ secs ∧ s.isInside p = true ∧ ∀ s' ∈ secs, s'.isInside p = true → s'.level ≤ s.level := by
  have hlt : ∀ i ∈ ix.infinite ++ ix.invalid ++ (t.map Tree.leaves).getD [], i < secs.length := fun i hi =>
    List.mem_range.1 (hix.once.subset hi)
  have hget : ∀ i ∈ ix.infinite ++ ix.invalid ++ (t.map Tree.leaves).getD [], ∃ s, secs[i]? = some s ∧ s ∈ secs := fun i hi =>
    ⟨_, List.getElem?_eq_getElem (hlt i hi), List.getElem_mem _⟩
  have h0 : Sofar secs p [] ⟨intMin, none⟩ := ⟨fun _ => ⟨rfl, by simp⟩, fun s h => by simp at h⟩
  obtain ⟨f1, e1, s1⟩ := sofar_infinite secs p hs ix.infinite (by
    intro i hi
    obtain ⟨s, g1, g2⟩ := hget i (by simp [hi])
    exact ⟨s, g1, (hix.infinite i s g1).1 hi⟩) _ _ h0
  obtain ⟨f2, e2, s2⟩ := sofar_invalid secs p hs ix.invalid (by
    intro i hi
    obtain ⟨s, g1, g2⟩ := hget i (by simp [hi])
    exact ⟨s, g1, ((hix.invalid i s g1).1 hi).1⟩) _ _ s1
  have hleaf : ∀ i ∈ (t.map Tree.leaves).getD [], ∃ s, secs[i]? = some s ∧ s.PointSound big p ∧ AllFin (s.worldBox big) ∧
      (s.worldBox big).isValid = true := by
    intro i hi
    obtain ⟨s, g1, g2⟩ := hget i (List.mem_append_right _ hi)
    exact ⟨s, g1, hs s g2, (hix.leaves i s g1).1 hi⟩
  have h3 : ∃ f3, (if ix.nodes.isEmpty then Res.ok f2 else find secs ix.nodes p fuel 0 f2) = .ok f3 ∧
      Sofar secs p (ix.infinite ++ ix.invalid ++ (t.map Tree.leaves).getD []) f3 := by
    cases t with
    | none =>
      have : ix.nodes = [] := hix.tree
      rw [this]
      exact ⟨f2, rfl, by simpa using s2⟩
    | some t =>
      obtain ⟨h1, h2, h3⟩ := hix.tree
      have hne : ix.nodes.isEmpty = false := by
        cases hn : ix.nodes with
        | nil => rw [hn] at h3; cases t <;> simp [Tree.size] at h3
        | cons a l => rfl
      rw [if_neg (by simp [hne])]
      simp only [Option.map_some, Option.getD_some] at hleaf ⊢
      refine ⟨_, find_spec secs ix.nodes p fuel t 0 f2 h1 h2 hleaf (by omega), ?_⟩
      have := sofar_fold secs p hs t.leaves (fun i hi => by
        obtain ⟨s, g1, g2, g3, g4⟩ := hleaf i hi; exact ⟨s, g1, g3⟩) _ _ s2
      simpa using this
  obtain ⟨f3, e3, s3⟩ := h3
  refine ⟨f3.sector, ?_, ?_⟩
  · unfold containingDirect
    rw [e1]; simp only [Res.bind]
    rw [e2]; simp only
    rw [e3]
  · have hall : ∀ s ∈ secs, ∃ i ∈ ix.infinite ++ ix.invalid ++ (t.map Tree.leaves).getD [], secs[i]? = some s := by
      intro s hmem
      obtain ⟨i, hi, rfl⟩ := List.mem_iff_getElem.1 hmem
      exact ⟨i, hix.once.symm.subset (List.mem_range.2 hi), List.getElem?_eq_getElem hi⟩
    intro s
    constructor
    · intro e
      obtain ⟨g1, g2, g3, g4⟩ := s3.best s e
      refine ⟨g1, g2, ?_⟩
      intro s' hs' hin
      obtain ⟨i, hi, he⟩ := hall s' hs'
      exact g4 i hi s' he hin
    · rintro ⟨g1, g2, g3⟩
      cases hf : f3.sector with
      | none =>
        obtain ⟨i, hi, he⟩ := hall s g1
        have := (s3.nothing hf).2 i hi s he
        rw [g2] at this; simp at this
      | some b =>
        obtain ⟨k1, k2, k3, k4⟩ := s3.best b hf
        obtain ⟨i, hi, he⟩ := hall s g1
        have l1 := k4 i hi s he g2
        have l2 := g3 b k1 k2
        rw [List.inj_on_of_nodup_map hlev k1 g1 (le_antisymm l2 l1)]

/-- C24: a bounded sector is sound at every point at which its own test says inside only for points of a set enclosed by
its local box. -/
theorem C24_bounded_sound (big : ℝ) (s : Sector) (hp : s.placement.Valid) (hfin : AllFin s.localBox) (hl : intMin < s.level)
    (S : Vec3 ℝ → Prop) (hS : ∀ v, S v → In v s.localBox) (p : Vec3 ℝ)
    (h : s.isInside p = true → S (s.placement.globalToLocalPosition p)) (hv : s.localBox.isValid = true) :
    s.PointSound big p := by
  refine ⟨?_, ?_, hl.le, fun _ => hl⟩
  · intro hi _ _
    have := in_world big s.placement hp s.localBox (Or.inl hfin) _ (hS _ (h hi))
    rwa [(Placement.C41_inverse s.placement hp p).1] at this
  · intro hn
    exfalso
    apply hn
    unfold Sector.worldBox world
    rw [if_neg (by simp [hv]), if_neg (by simp [hfin])]
    exact allFin_lift _

/-- C24: boxes are sound at every point further than 1e-9 from the surface along the axis tested. -/
theorem C24_box_sound (big : ℝ) (level material : Int) (pl : Placement) (hp : pl.Valid) (w : Vec3 ℝ)
    (hw : 0 ≤ w.x ∧ 0 ≤ w.y ∧ 0 ≤ w.z) (hl : intMin < level) (p : Vec3 ℝ)
    (hoff : ∀ x ∈ (Box.compute w (pl.globalToLocalPosition p) (pl.globalToLocalDirection ⟨0, 0, 1⟩)).getD [],
      precision < |x.distance|) :
    (⟨level, material, pl, lift (Box.boundingBox w), fun p d => (Box.compute w p d).getD []⟩ : Sector).PointSound big p := by
  refine C24_bounded_sound big _ hp (allFin_lift _) hl (Box.Mem w) ?_ p ?_ ?_
  · intro v hv; rw [in_lift, Box.C39_bounding_box]; exact hv
  · unfold Sector.isInside
    simp only
    have hd0 : pl.globalToLocalDirection ⟨0, 0, 1⟩ ≠ 0 := by
      intro h0
      have h1 := (Placement.C41_isometry pl hp ⟨0, 0, 1⟩ ⟨0, 0, 1⟩).2.2.2
      rw [h0] at h1; simp [Vec3.dot] at h1
    rcases Box.C39_box_exact w (pl.globalToLocalPosition p) _ hw hd0 with ⟨e, -⟩ | ⟨a, b, hab, hm, e⟩
    · rw [e]; simp [firstAhead]
    · rw [e] at hoff ⊢
      simp only [Option.getD_some, List.mem_cons, List.not_mem_nil, or_false, forall_eq_or_imp, forall_eq] at hoff
      simp only [Option.getD_some, firstAhead]
      have hpos : (0 : ℝ) < precision := by unfold precision; norm_num
      intro h
      have h0 := (hm 0).2
      have e0 : pl.globalToLocalPosition p + Vec3.smul 0 (pl.globalToLocalDirection ⟨0, 0, 1⟩) = pl.globalToLocalPosition p := by
        ext <;> simp
      rw [e0] at h0
      apply h0
      split at h
      · simp at h
      · next hna =>
        split at h
        · next hb =>
          refine ⟨?_, le_trans (by linarith) (snap_le b)⟩
          have hsa : snap a < 0 := by
            rcases lt_abs.1 hoff.1 with h | h
            · exact absurd h hna
            · linarith
          unfold snap at hsa
          split at hsa <;> linarith
        · simp at h
  · simp only [AABB.isValid, lift, Box.boundingBox, decide_eq_true_eq, EReal.coe_le_coe_iff]
    refine ⟨?_, ?_, ?_⟩ <;> linarith [hw.1, hw.2.1, hw.2.2]

/-- A box of widths 2 at the origin. -/
noncomputable def unitBox (level : Int) : Sector :=
  ⟨level, 0, Placement.translation 0, lift (Box.boundingBox ⟨2, 2, 2⟩), fun p d => (Box.compute ⟨2, 2, 2⟩ p d).getD []⟩

theorem translation_zero (v : Vec3 ℝ) : (Placement.translation 0).globalToLocalPosition v = v ∧
    (Placement.translation 0).globalToLocalDirection v = v ∧ (Placement.translation 0).localToGlobalPosition v = v := by
  have h1 : ∀ v, (Placement.translation 0).globalToLocalPosition v = v := by
    intro v; rw [Placement.translation_back]; ext <;> simp
  refine ⟨h1 v, Placement.translation_back_dir 0 v, ?_⟩
  have := (Placement.C41_inverse (Placement.translation 0) (Placement.translation_valid 0) v).2.1
  rwa [h1] at this

theorem unitBox_world (level : Int) : (unitBox level).worldBox 10 = lift ⟨⟨-1, -1, -1⟩, ⟨1, 1, 1⟩⟩ := by
  have hv : (lift (Box.boundingBox ⟨2, 2, 2⟩)).isValid = true := by
    simp only [AABB.isValid, lift, Box.boundingBox, decide_eq_true_eq, EReal.coe_le_coe_iff]; norm_num
  have hu : unlift (lift (Box.boundingBox ⟨2, 2, 2⟩)) = ⟨⟨-1, -1, -1⟩, ⟨1, 1, 1⟩⟩ := by
    simp [unlift, lift, Box.boundingBox]
  unfold Sector.worldBox unitBox world
  simp only
  rw [if_neg (by simp [hv]), if_neg (by simpa using allFin_lift _), hu]
  congr 1
  simp only [(translation_zero _).2.2]
  simp [corners, AABB.expand, AABB.empty]
  norm_num

/-- Through the index, the box is found at no point outside it. -/
theorem unitBox_find (level : Int) (srt : (Nat → ℝ) → List Nat → List Nat) : ∃ ix, rebuild srt 10 [unitBox level] = .ok ix ∧
    ix.infinite = [] ∧ ix.invalid = [] ∧ ix.nodes = [⟨⟨⟨-1, -1, -1⟩, ⟨1, 1, 1⟩⟩, none, none, some 0⟩] := by
  have hw := unitBox_world level
  have hv : (lift (⟨⟨-1, -1, -1⟩, ⟨1, 1, 1⟩⟩ : AABB ℝ)).isValid = true := by
    simp only [AABB.isValid, lift, decide_eq_true_eq, EReal.coe_le_coe_iff]; norm_num
  have hf := allFin_lift (⟨⟨-1, -1, -1⟩, ⟨1, 1, 1⟩⟩ : AABB ℝ)
  have hu : unlift (lift (⟨⟨-1, -1, -1⟩, ⟨1, 1, 1⟩⟩ : AABB ℝ)) = ⟨⟨-1, -1, -1⟩, ⟨1, 1, 1⟩⟩ := by
    simp [unlift, lift]
  have hbounds : segBounds 10 (fun i => unlift (((([unitBox level] : List Sector)[i]?).map (Sector.worldBox 10)).getD
      (lift (AABB.empty 10)))) [0] = ⟨⟨-1, -1, -1⟩, ⟨1, 1, 1⟩⟩ := by
    simp only [segBounds, List.foldl_cons, List.foldl_nil, List.getElem?_cons_zero, Option.map_some, Option.getD_some, hw, hu]
    simp only [AABB.expandBox, AABB.expand, AABB.empty]
    norm_num
  unfold rebuild
  simp only [List.length_singleton, List.range_one, List.filter_cons, List.filter_nil, List.getElem?_cons_zero,
    Option.map_some, Option.getD_some, hw, hv, hf, not_true_eq_false, decide_false, decide_true, Bool.and_self, Bool.not_true,
    Bool.and_false, Bool.false_eq_true, if_false, if_true, List.isEmpty_cons, build, Res.bind, hbounds]
  exact ⟨_, rfl, rfl, rfl, rfl⟩

/-- C24: a point less than 1e-9 before the box is accepted by the box's own test (its entry is snapped to distance zero) but
not found through the index, because it is outside the bounding box. The theorem's condition `boxed` excludes such
points. -/
theorem C24_tolerance_fails (srt : (Nat → ℝ) → List Nat → List Nat) : ∃ (p : Vec3 ℝ) (ix : Index),
    (unitBox 1).isInside p = true ∧ rebuild srt 10 [unitBox 1] = .ok ix ∧
    containingDirect [unitBox 1] ix p 2 = .ok none := by
  obtain ⟨ix, h1, h2, h3, h4⟩ := unitBox_find 1 srt
  refine ⟨⟨0, 0, -1 - 1 / 2000000000⟩, ix, ?_, h1, ?_⟩
  · unfold Sector.isInside unitBox
    simp only [(translation_zero _).1, (translation_zero _).2.1]
    have hd : (⟨0, 0, 1⟩ : Vec3 ℝ) ≠ 0 := by intro h; have := congrArg Vec3.z h; simp at this
    rcases Box.C39_box_exact ⟨2, 2, 2⟩ ⟨0, 0, -1 - 1 / 2000000000⟩ ⟨0, 0, 1⟩ (by norm_num) hd with ⟨-, h⟩ | ⟨a, b, hab, h, e⟩
    · exact absurd (by simp [Box.Mem]; norm_num [abs_le]) (h 1)
    · have ha := h a
      have key : ∀ t, Box.Mem ⟨2, 2, 2⟩ ((⟨0, 0, -1 - 1 / 2000000000⟩ : Vec3 ℝ) + Vec3.smul t ⟨0, 0, 1⟩) ↔
          1 / 2000000000 ≤ t ∧ t ≤ 2 + 1 / 2000000000 := by
        intro t
        simp only [Box.Mem, Vec3.add_x, Vec3.add_y, Vec3.add_z, Vec3.smul_x, Vec3.smul_y, Vec3.smul_z, abs_le]
        constructor
        · rintro ⟨-, -, h1, h2⟩; constructor <;> linarith
        · rintro ⟨h1, h2⟩; refine ⟨by norm_num, by norm_num, ?_, ?_⟩ <;> linarith
      have hab' : ∀ t, (1 / 2000000000 ≤ t ∧ t ≤ 2 + 1 / 2000000000) ↔ a ≤ t ∧ t ≤ b := fun t => (key t).symm.trans (h t)
      have a1 := (hab' a).2 ⟨le_refl _, hab⟩
      have b1 := (hab' b).2 ⟨hab, le_refl _⟩
      have a2 := (hab' (1 / 2000000000)).1 (by norm_num)
      have b2 := (hab' (2 + 1 / 2000000000)).1 (by norm_num)
      have ea : a = 1 / 2000000000 := le_antisymm a2.1 a1.1
      have eb : b = 2 + 1 / 2000000000 := le_antisymm b1.2 b2.2
      rw [e]
      have s1 : snap a = 0 := by
        rw [ea]; unfold snap precision; norm_num
      have s2 : snap b = b := by
        rw [eb]; unfold snap precision; norm_num
      simp only [Option.getD_some, firstAhead, s1, s2]
      rw [if_neg (by unfold precision; norm_num), if_pos (by rw [eb]; unfold precision; norm_num)]
      rfl
  · simp only [containingDirect, h2, h3, h4, offerInfinite, offerInvalid, Res.bind, List.isEmpty_cons, Bool.false_eq_true,
      if_false, find, List.getElem?_cons_zero]
    have : (⟨⟨-1, -1, -1⟩, ⟨1, 1, 1⟩⟩ : AABB ℝ).contains ⟨0, 0, -1 - 1 / 2000000000⟩ = false := by
      simp only [AABB.contains]; norm_num
    rw [this]; rfl

/-- The origin is inside the box. -/
theorem unitBox_origin (level : Int) : (unitBox level).isInside ⟨0, 0, 0⟩ = true := by
  unfold Sector.isInside unitBox
  simp only [(translation_zero _).1, (translation_zero _).2.1]
  have hd : (⟨0, 0, 1⟩ : Vec3 ℝ) ≠ 0 := by intro h; have := congrArg Vec3.z h; simp at this
  rcases Box.C39_box_exact ⟨2, 2, 2⟩ ⟨0, 0, 0⟩ ⟨0, 0, 1⟩ (by norm_num) hd with ⟨-, h⟩ | ⟨a, b, hab, h, e⟩
  · exact absurd (by simp [Box.Mem]) (h 0)
  · have key : ∀ t, Box.Mem ⟨2, 2, 2⟩ ((⟨0, 0, 0⟩ : Vec3 ℝ) + Vec3.smul t ⟨0, 0, 1⟩) ↔ -1 ≤ t ∧ t ≤ 1 := by
      intro t
      simp only [Box.Mem, Vec3.add_x, Vec3.add_y, Vec3.add_z, Vec3.smul_x, Vec3.smul_y, Vec3.smul_z, abs_le]
      constructor
      · rintro ⟨-, -, h1, h2⟩; constructor <;> linarith
      · rintro ⟨h1, h2⟩; refine ⟨by norm_num, by norm_num, ?_, ?_⟩ <;> linarith
    have hab' : ∀ t, (-1 ≤ t ∧ t ≤ 1) ↔ a ≤ t ∧ t ≤ b := fun t => (key t).symm.trans (h t)
    have a1 := (hab' a).2 ⟨le_refl _, hab⟩
    have b1 := (hab' b).2 ⟨hab, le_refl _⟩
    have a2 := (hab' (-1)).1 (by norm_num)
    have b2 := (hab' 1).1 (by norm_num)
    have ea : a = -1 := le_antisymm a2.1 a1.1
    have eb : b = 1 := le_antisymm b1.2 b2.2
    rw [e]
    have s1 : snap a = -1 := by
      rw [ea]; unfold snap precision; norm_num
    have s2 : snap b = 1 := by
      rw [eb]; unfold snap precision; norm_num
    simp only [Option.getD_some, firstAhead, s1, s2]
    rw [if_neg (by unfold precision; norm_num), if_pos (by unfold precision; norm_num)]
    rfl

/-- C24: a bounded sector at level `INT_MIN` is never found, although it contains the point. -/
theorem C24_int_min_fails (srt : (Nat → ℝ) → List Nat → List Nat) : ∃ (p : Vec3 ℝ) (ix : Index),
    (unitBox intMin).isInside p = true ∧ rebuild srt 10 [unitBox intMin] = .ok ix ∧
    containingDirect [unitBox intMin] ix p 2 = .ok none := by
  obtain ⟨ix, h1, h2, h3, h4⟩ := unitBox_find intMin srt
  refine ⟨⟨0, 0, 0⟩, ix, unitBox_origin _, h1, ?_⟩
  have hl : (unitBox intMin).level = intMin := rfl
  simp only [containingDirect, h2, h3, h4, offerInfinite, offerInvalid, Res.bind, List.isEmpty_cons, Bool.false_eq_true,
    if_false, find, List.getElem?_cons_zero, Found.offer, hl, lt_irrefl, false_and]
  rw [ite_self]

/-- C24: a sector with an unbounded box is found at every point, also where its own test says outside (here: an empty shape
with an unbounded box, such as the difference of two unbounded shapes). -/
theorem C24_unbounded_fails (srt : (Nat → ℝ) → List Nat → List Nat) (p : Vec3 ℝ) :
    let s : Sector := ⟨0, 0, Placement.translation 0, ⟨⟨⊥, ⊥, ⊥⟩, ⟨⊤, ⊤, ⊤⟩⟩, fun _ _ => []⟩
    s.isInside p = false ∧ ∃ ix, rebuild srt 10 [s] = .ok ix ∧ containingDirect [s] ix p 1 = .ok (some s) := by
  intro s
  have hw : s.worldBox 10 = ⟨⟨⊥, ⊥, ⊥⟩, ⟨⊤, ⊤, ⊤⟩⟩ := by
    unfold Sector.worldBox world
    rw [if_neg (by simp [s, AABB.isValid]), if_pos (by simp [s, AllFin, isFin])]
  have hf : ¬ AllFin (s.worldBox 10) := by rw [hw]; simp [AllFin, isFin]
  refine ⟨rfl, ⟨[], [0], []⟩, ?_, ?_⟩
  · unfold rebuild
    simp [hf]
  · simp [containingDirect, offerInfinite, offerInvalid, Res.bind, s, intMin]

/-- The box satisfies the conditions of `C23_get_intersections` and, at the origin, those of `C24_containing_sector`. -/
example : (unitBox 1).RaySound ∧ (unitBox 1).PointSound 10 ⟨0, 0, 0⟩ := by
  refine ⟨C23_box_sound 1 0 _ (Placement.translation_sharp 0) ⟨2, 2, 2⟩ (by norm_num), ?_, ?_, by decide, ?_⟩
  · intro _ _ _
    rw [unitBox_world, in_lift]; norm_num [AABB.Mem]
  · intro h; exact absurd (by rw [unitBox_world]; exact allFin_lift _) h
  · intro _; decide

end Siren.Detector.BVH
