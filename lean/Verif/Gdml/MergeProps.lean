import Verif.Gdml.MergeModel
import Verif.Gdml.NameProps
import Mathlib.Data.List.Nodup
import Mathlib.Data.List.Perm.Subperm

set_option autoImplicit false

/-! # C116: including a GDML file keeps the meaning of both files -/

namespace Siren.Gdml.Merge

open Siren Siren.Gdml.Names

variable {Q P G : Type} [DecidableEq Q] [DecidableEq P]

/-! ## Specification -/

/-- A map has each key once. -/
def Keys {V : Type} (m : List (Name × V)) : Prop := (m.map (·.1)).Nodup

/-- The maps that are compared have each key once. -/
structure WellFormed (d : Data Q P G) : Prop where
  isotopes : Keys d.isotopes
  elements : Keys d.elements
  materials : Keys d.materials
  solids : Keys d.solids
  volumes : Keys d.volumes

/-- Two maps define the name differently. -/
def Differ {V : Type} (same : V → V → Bool) (mine other : List (Name × V)) (n : Name) : Prop :=
  ∃ x v, find mine n = some x ∧ find other n = some v ∧ same x v = false

/-- Some kind of definition of the name is different in the two files. -/
def Conflict (eq : G → G → Bool) (parent sub : Data Q P G) (n : Name) : Prop :=
  Differ (fun a b => decide (a = b)) parent.isotopes sub.isotopes n ∨ Differ (fun a b => decide (a = b)) parent.elements sub.elements n ∨
  Differ (fun a b => decide (a = b)) parent.materials sub.materials n ∨ Differ eq parent.solids sub.solids n ∨
  Differ sameVolume parent.volumes sub.volumes n

/-- What both files define under one name, with the same text, they also mean alike: the names in the text are not in conflict. -/
structure Deep (eq : G → G → Bool) (parent sub : Data Q P G) : Prop where
  isotopes : ∀ n v, find sub.isotopes n = some v → find parent.isotopes n = some v → ∀ c ∈ v.composition, ¬Conflict eq parent sub c.1
  elements : ∀ n v, find sub.elements n = some v → find parent.elements n = some v → ∀ c ∈ v.composition, ¬Conflict eq parent sub c.1
  materials : ∀ n v, find sub.materials n = some v → find parent.materials n = some v → ∀ c ∈ v.composition, ¬Conflict eq parent sub c.1
  volumes : ∀ n v x, find sub.volumes n = some v → find parent.volumes n = some x → ¬Conflict eq parent sub n →
    ¬Conflict eq parent sub v.solid ∧ ¬Conflict eq parent sub v.material ∧ ∀ c ∈ v.children, ¬Conflict eq parent sub c.ref

/-- `m'` is the material `m` with other names of its components. -/
def SameMaterial (r : Name → Name) (m' m : Material Q) : Prop :=
  m'.density = m.density ∧ m'.z = m.z ∧ m'.a = m.a ∧ m'.composition = m.composition.map fun c => (r c.1, c.2)

/-- `v'` is the volume `v` with other names of its solid, material and children. -/
def SameVolume (r : Name → Name) (v' v : Volume P) : Prop :=
  v'.solid = r v.solid ∧ v'.material = r v.material ∧ v'.assembly = v.assembly ∧
    v'.children = v.children.map fun c => ⟨r c.ref, c.position, c.rotation⟩

/-! ## Maps -/

section
variable {V : Type}

theorem find_nil (k : Name) : find ([] : List (Name × V)) k = none := rfl

theorem find_cons (p : Name × V) (m : List (Name × V)) (k : Name) : find (p :: m) k = if p.1 = k then some p.2 else find m k := by
  unfold find
  rw [List.find?_cons]
  by_cases h : p.1 = k <;> simp [h]

theorem find_append (m m' : List (Name × V)) (k : Name) : find (m ++ m') k = (find m k).or (find m' k) := by
  induction m with
  | nil => rw [List.nil_append, find_nil, Option.none_or]
  | cons p m ih =>
    rw [List.cons_append, find_cons, find_cons, ih]
    split <;> simp

theorem find_some_mem {m : List (Name × V)} {k : Name} {v : V} (h : find m k = some v) : (k, v) ∈ m := by
  induction m with
  | nil => cases h
  | cons p m ih =>
    rw [find_cons] at h
    split at h
    · rename_i e
      rw [List.mem_cons]
      left
      rw [← e, ← Option.some.inj h]
    · exact List.mem_cons_of_mem _ (ih h)

theorem find_key {m : List (Name × V)} {k : Name} : (find m k).isSome = true ↔ k ∈ m.map (·.1) := by
  induction m with
  | nil => simp [find_nil]
  | cons p m ih =>
    rw [find_cons, List.map_cons, List.mem_cons]
    by_cases h : p.1 = k
    · simp [h]
    · rw [if_neg h, ih]
      simp [Ne.symm h]

theorem find_none {m : List (Name × V)} {k : Name} (h : k ∉ m.map (·.1)) : find m k = none := by
  cases hf : find m k with
  | none => rfl
  | some v => exact absurd (find_key.1 (by rw [hf]; rfl)) h

theorem find_of_mem {m : List (Name × V)} (hk : Keys m) {k : Name} {v : V} (h : (k, v) ∈ m) : find m k = some v := by
  induction m with
  | nil => cases h
  | cons p m ih =>
    unfold Keys at hk ih
    rw [List.map_cons, List.nodup_cons] at hk
    rw [find_cons]
    rw [List.mem_cons] at h
    rcases h with rfl | h
    · rw [if_pos rfl]
    · rw [if_neg]
      · exact ih hk.2 h
      · rintro rfl
        exact hk.1 (List.mem_map_of_mem (f := (·.1)) h)

theorem find_emplace (m : List (Name × V)) (k : Name) (v : V) (j : Name) :
    find (emplace m k v) j = (find m j).or (find [(k, v)] j) := by
  unfold emplace
  split
  · rename_i h
    rw [find_cons, find_nil]
    by_cases hk : k = j
    · subst hk
      obtain ⟨x, hx⟩ := Option.isSome_iff_exists.1 h
      simp [hx]
    · simp [hk]
  · rw [find_append]

theorem find_fold (f : Name → Name) (j : Name) : ∀ (l : List (Name × V)) (d : List (Name × V)),
    find (l.foldl (fun d p => emplace d (f p.1) p.2) d) j = (find d j).or (find (l.map fun p => (f p.1, p.2)) j)
  | [], d => by simp [find_nil]
  | p :: l, d => by
    rw [List.foldl_cons, find_fold f j l, find_emplace, List.map_cons, Option.or_assoc]
    congr 1
    rw [← find_append]
    rfl

theorem find_mergeMap (rs : List (Name × Name)) (sub dst : List (Name × V)) (k : Name) :
    find (mergeMap rs sub dst) k = (find dst k).or (find (sub.map fun p => (apply rs p.1, p.2)) k) := by
  unfold mergeMap
  simp only
  rw [find_fold (fun n => n) k]
  congr 1
  have : ∀ l : List (Name × V), (l.map fun p => (p.1, p.2)) = l := fun l => by simp
  rw [this, find_fold (apply rs) k, find_nil, Option.none_or]

theorem find_rename {f : Name → Name} {l : List (Name × V)} {n : Name} (h : ∀ p ∈ l, f p.1 = f n → p.1 = n) :
    find (l.map fun p => (f p.1, p.2)) (f n) = find l n := by
  induction l with
  | nil => rfl
  | cons p l ih =>
    rw [List.map_cons, find_cons, find_cons, ih fun q hq => h q (by simp [hq])]
    simp only
    by_cases hp : p.1 = n
    · rw [if_pos hp, if_pos (by rw [hp])]
    · rw [if_neg hp, if_neg fun e => hp (h p (by simp) e)]

theorem find_values {W : Type} (f : V → W) (l : List (Name × V)) (n : Name) : find (l.map fun p => (p.1, f p.2)) n = (find l n).map f := by
  induction l with
  | nil => rfl
  | cons p l ih =>
    rw [List.map_cons, find_cons, find_cons, ih]
    simp only
    split <;> rfl

theorem find_assign (m : List (Name × V)) (k : Name) (v : V) (j : Name) : find (assign m k v) j = if j = k then some v else find m j := by
  unfold assign
  rw [find_append, find_cons, find_nil]
  have hfil : find (m.filter fun p => decide (p.1 ≠ k)) j = if j = k then none else find m j := by
    induction m with
    | nil => simp [find_nil]
    | cons p m ih =>
      rw [List.filter_cons]
      by_cases hp : p.1 = k
      · rw [if_neg (by simp [hp]), ih, find_cons]
        by_cases hj : j = k
        · rw [if_pos hj, if_pos hj]
        · rw [if_neg hj, if_neg hj, if_neg (by rw [hp]; exact Ne.symm hj)]
      · rw [if_pos (by simp [hp]), find_cons, ih, find_cons]
        by_cases hj : j = k
        · rw [if_pos hj, if_pos hj, if_neg (by rw [hj]; exact hp)]
        · rw [if_neg hj, if_neg hj]
  rw [hfil]
  by_cases hj : j = k
  · simp [hj]
  · simp [hj, Ne.symm hj]

end

/-! ## New names -/

theorem candidate_inj {n m : Name} {k l : Nat} (h : candidate n k = candidate m l) : n = m ∧ k = l := by
  have key : ∀ {d e : Name} (n m : Name), '_' ∉ d → '_' ∉ e → n ++ '_' :: d = m ++ '_' :: e → n = m ∧ d = e := by
    intro d e n
    induction n with
    | nil =>
      intro m hd he h
      cases m with
      | nil => simpa using h
      | cons c m =>
        simp only [List.nil_append, List.cons_append, List.cons.injEq] at h
        exact absurd (by rw [h.2]; simp) hd
    | cons c n ih =>
      intro m hd he h
      cases m with
      | nil =>
        simp only [List.nil_append, List.cons_append, List.cons.injEq] at h
        exact absurd (by rw [← h.2]; simp) he
      | cons c' m =>
        simp only [List.cons_append, List.cons.injEq] at h
        obtain ⟨h1, h2⟩ := ih m hd he h.2
        exact ⟨by rw [h.1, h1], h2⟩
  obtain ⟨h1, h2⟩ := key n m (digits_no_underscore k) (digits_no_underscore l) h
  refine ⟨h1, ?_⟩
  have : Nat.ofDigitChars 10 (Nat.toDigits 10 k) 0 = Nat.ofDigitChars 10 (Nat.toDigits 10 l) 0 := by rw [h2]
  rwa [Nat.ofDigitChars_toDigits (by decide) (by decide), Nat.ofDigitChars_toDigits (by decide) (by decide)] at this

theorem search_candidate (used : List Name) (n : Name) : ∀ (fuel k : Nat), ∃ j, search used n fuel k = candidate n j
  | 0, k => ⟨k, rfl⟩
  | fuel + 1, k => by
    rw [search]
    split
    · exact search_candidate used n fuel (k + 1)
    · exact ⟨k, rfl⟩

theorem search_unused (used : List Name) (n : Name) : ∀ (fuel k : Nat), search used n fuel k ∈ used →
    ∀ j, k ≤ j → j ≤ k + fuel → candidate n j ∈ used
  | 0, k, h, j, h1, h2 => by
    obtain rfl : j = k := by omega
    exact h
  | fuel + 1, k, h, j, h1, h2 => by
    rw [search] at h
    split at h
    · rename_i hc
      rcases Nat.eq_or_lt_of_le h1 with e | h1
      · rw [← e]; exact hc
      · exact search_unused used n fuel (k + 1) h j h1 (by omega)
    · rename_i hc
      exact absurd h hc

omit [DecidableEq Q] [DecidableEq P] in
theorem unique_spec (parent sub : Data Q P G) (rs : List (Name × Name)) (n : Name) :
    (∃ k, unique parent sub rs n = candidate n k) ∧ unique parent sub rs n ∉ names parent ∧ unique parent sub rs n ∉ names sub := by
  have hun : unique parent sub rs n ∉ names parent ++ names sub ++ rs.map (·.2) := by
    intro h
    unfold unique at h
    simp only at h
    generalize names parent ++ names sub ++ rs.map (·.2) = used at h
    have hall := search_unused used n used.length 2 h
    have hnd : ((List.range (used.length + 1)).map fun i => candidate n (2 + i)).Nodup := by
      refine List.Nodup.map ?_ List.nodup_range
      intro a b hab
      have := (candidate_inj hab).2
      omega
    have hsub : ((List.range (used.length + 1)).map fun i => candidate n (2 + i)) ⊆ used := by
      intro c hc
      rw [List.mem_map] at hc
      obtain ⟨i, hi, rfl⟩ := hc
      rw [List.mem_range] at hi
      exact hall _ (by omega) (by omega)
    have := (List.subperm_of_subset hnd hsub).length_le
    rw [List.length_map, List.length_range] at this
    omega
  rw [List.mem_append, List.mem_append, not_or, not_or] at hun
  exact ⟨search_candidate _ _ _ _, hun.1.1, hun.1.2⟩

/-- New names are numbered versions of the old ones and used by neither file. -/
def Fresh (parent sub : Data Q P G) (rs : List (Name × Name)) : Prop :=
  ∀ n t, find rs n = some t → (∃ k, t = candidate n k) ∧ t ∉ names parent ∧ t ∉ names sub

omit [DecidableEq Q] [DecidableEq P] in
theorem collide_spec {V : Type} (same : V → V → Bool) (parent sub : Data Q P G) (mine : List (Name × V)) :
    ∀ (other : List (Name × V)) (rs : List (Name × Name)), Fresh parent sub rs →
    Fresh parent sub (collide same parent sub mine other rs) ∧
    ∀ n, (find (collide same parent sub mine other rs) n).isSome = true ↔
      (find rs n).isSome = true ∨ ∃ x v, find mine n = some x ∧ (n, v) ∈ other ∧ same x v = false
  | [], rs, h => ⟨h, fun n => by simp [collide]⟩
  | p :: other, rs, h => by
    have hstep : collide same parent sub mine (p :: other) rs = collide same parent sub mine other (match find mine p.1 with
      | some x => if same x p.2 = false then assign rs p.1 (unique parent sub rs p.1) else rs
      | none => rs) := rfl
    rw [hstep]
    cases hf : find mine p.1 with
    | none =>
      obtain ⟨h1, h2⟩ := collide_spec same parent sub mine other rs h
      refine ⟨h1, fun n => ?_⟩
      simp only
      rw [h2]
      constructor
      · rintro (h | ⟨x, v, hx, hv, hs⟩)
        · exact .inl h
        · exact .inr ⟨x, v, hx, by simp [hv], hs⟩
      · rintro (h | ⟨x, v, hx, hv, hs⟩)
        · exact .inl h
        · rw [List.mem_cons] at hv
          rcases hv with e | hv
          · rw [← e] at hf
            rw [hf] at hx
            cases hx
          · exact .inr ⟨x, v, hx, hv, hs⟩
    | some x0 =>
      simp only
      by_cases hs0 : same x0 p.2 = false
      · rw [if_pos hs0]
        have hfresh : Fresh parent sub (assign rs p.1 (unique parent sub rs p.1)) := by
          intro n t ht
          rw [find_assign] at ht
          split at ht
          · rename_i e
            rw [← Option.some.inj ht, e]
            exact unique_spec parent sub rs p.1
          · exact h n t ht
        obtain ⟨h1, h2⟩ := collide_spec same parent sub mine other _ hfresh
        refine ⟨h1, fun n => ?_⟩
        rw [h2, find_assign]
        constructor
        · rintro (h | ⟨x, v, hx, hv, hs⟩)
          · split at h
            · rename_i e
              exact .inr ⟨x0, p.2, by rw [e]; exact hf, by rw [e]; simp, hs0⟩
            · exact .inl h
          · exact .inr ⟨x, v, hx, by simp [hv], hs⟩
        · rintro (h | ⟨x, v, hx, hv, hs⟩)
          · left
            split
            · rfl
            · exact h
          · rw [List.mem_cons] at hv
            rcases hv with e | hv
            · left
              rw [← e, if_pos rfl]
              rfl
            · exact .inr ⟨x, v, hx, hv, hs⟩
      · rw [if_neg hs0]
        obtain ⟨h1, h2⟩ := collide_spec same parent sub mine other rs h
        refine ⟨h1, fun n => ?_⟩
        rw [h2]
        constructor
        · rintro (h | ⟨x, v, hx, hv, hs⟩)
          · exact .inl h
          · exact .inr ⟨x, v, hx, by simp [hv], hs⟩
        · rintro (h | ⟨x, v, hx, hv, hs⟩)
          · exact .inl h
          · rw [List.mem_cons] at hv
            rcases hv with e | hv
            · rw [← e] at hf hs0
              rw [hf] at hx
              rw [← Option.some.inj hx] at hs
              exact absurd hs hs0
            · exact .inr ⟨x, v, hx, hv, hs⟩

theorem differ_iff {V : Type} {same : V → V → Bool} {mine other : List (Name × V)} (hk : Keys other) (n : Name) :
    Differ same mine other n ↔ ∃ x v, find mine n = some x ∧ (n, v) ∈ other ∧ same x v = false := by
  constructor
  · rintro ⟨x, v, h1, h2, h3⟩
    exact ⟨x, v, h1, find_some_mem h2, h3⟩
  · rintro ⟨x, v, h1, h2, h3⟩
    exact ⟨x, v, h1, find_of_mem hk h2, h3⟩

theorem renames_spec (eq : G → G → Bool) (parent sub : Data Q P G) (hw : WellFormed sub) :
    Fresh parent sub (renames eq parent sub) ∧ ∀ n, (find (renames eq parent sub) n).isSome = true ↔ Conflict eq parent sub n := by
  have h0 : Fresh parent sub [] := fun n t h => by cases h
  have h1 := collide_spec (fun a b => decide (a = b)) parent sub parent.isotopes sub.isotopes [] h0
  have h2 := collide_spec (fun a b => decide (a = b)) parent sub parent.elements sub.elements _ h1.1
  have h3 := collide_spec (fun a b => decide (a = b)) parent sub parent.materials sub.materials _ h2.1
  have h4 := collide_spec eq parent sub parent.solids sub.solids _ h3.1
  have h5 := collide_spec sameVolume parent sub parent.volumes sub.volumes _ h4.1
  refine ⟨h5.1, fun n => ?_⟩
  unfold renames Conflict
  simp only
  rw [h5.2, h4.2, h3.2, h2.2, h1.2, differ_iff hw.isotopes, differ_iff hw.elements, differ_iff hw.materials, differ_iff hw.solids,
    differ_iff hw.volumes, find_nil]
  simp only [Option.isSome_none, Bool.false_eq_true, false_or, or_assoc]

/-- C116: a name changes only when the two files define it differently. The new name is used by neither file, and different names stay different. -/
theorem C116_names (eq : G → G → Bool) (parent sub : Data Q P G) (hw : WellFormed sub) :
    (∀ n, ¬Conflict eq parent sub n → apply (renames eq parent sub) n = n) ∧
    (∀ n, Conflict eq parent sub n → apply (renames eq parent sub) n ∉ names parent ∧ apply (renames eq parent sub) n ∉ names sub) ∧
    ∀ m ∈ names sub, ∀ n ∈ names sub, apply (renames eq parent sub) m = apply (renames eq parent sub) n → m = n := by
  obtain ⟨hf, hc⟩ := renames_spec eq parent sub hw
  have hno : ∀ n, ¬Conflict eq parent sub n → apply (renames eq parent sub) n = n := by
    intro n hn
    rw [← hc n] at hn
    unfold apply
    cases h : find (renames eq parent sub) n with
    | none => rfl
    | some t => rw [h] at hn; simp at hn
  have hyes : ∀ n, Conflict eq parent sub n → find (renames eq parent sub) n = some (apply (renames eq parent sub) n) := by
    intro n hn
    rw [← hc n] at hn
    obtain ⟨t, ht⟩ := Option.isSome_iff_exists.1 hn
    rw [apply, ht]
    rfl
  have hnew : ∀ n, Conflict eq parent sub n → apply (renames eq parent sub) n ∉ names parent ∧ apply (renames eq parent sub) n ∉ names sub :=
    fun n hn => (hf n _ (hyes n hn)).2
  refine ⟨hno, hnew, fun m hm n hn e => ?_⟩
  by_cases h1 : Conflict eq parent sub m <;> by_cases h2 : Conflict eq parent sub n
  · obtain ⟨⟨k, hk⟩, -⟩ := hf m _ (hyes m h1)
    obtain ⟨⟨l, hl⟩, -⟩ := hf n _ (hyes n h2)
    rw [hk, hl] at e
    exact (candidate_inj e).1
  · rw [hno n h2] at e
    exact absurd (e ▸ hn) (hnew m h1).2
  · rw [hno m h1] at e
    exact absurd (e ▸ hm) (hnew n h2).2
  · rwa [hno m h1, hno n h2] at e

/-! ## Definitions -/

/-- C116: what the including file has defined stays as it is. -/
theorem C116_parent (eq : G → G → Bool) (parent sub : Data Q P G) :
    let m := (merge eq parent sub).1
    (∀ n v, find parent.isotopes n = some v → find m.isotopes n = some v) ∧ (∀ n v, find parent.elements n = some v → find m.elements n = some v) ∧
    (∀ n v, find parent.materials n = some v → find m.materials n = some v) ∧ (∀ n v, find parent.solids n = some v → find m.solids n = some v) ∧
    (∀ n v, find parent.volumes n = some v → find m.volumes n = some v) ∧ (∀ n v, find parent.positions n = some v → find m.positions n = some v) ∧
    (∀ n v, find parent.rotations n = some v → find m.rotations n = some v) ∧
    (∀ n v, find parent.constants n = some v → find m.constants n = some v) ∧ m.world = parent.world := by
  refine ⟨fun n v h => ?_, fun n v h => ?_, fun n v h => ?_, fun n v h => ?_, fun n v h => ?_, fun n v h => ?_, fun n v h => ?_,
    fun n v h => ?_, rfl⟩ <;>
  · unfold merge
    simp only
    rw [find_mergeMap, h, Option.some_or]

/-- One map of the merged data. -/
theorem merged {V : Type} {eq : G → G → Bool} {parent sub : Data Q P G} (hw : WellFormed sub) {same : V → V → Bool} {mine other : List (Name × V)}
    (ren : V → V) (hmine : ∀ k ∈ mine.map (·.1), k ∈ names parent) (hother : ∀ k ∈ other.map (·.1), k ∈ names sub)
    (hc : ∀ n, Differ same mine other n → Conflict eq parent sub n) {n : Name} {v : V} (hv : find other n = some v) :
    find (mergeMap (renames eq parent sub) (other.map fun p => (p.1, ren p.2)) mine) (apply (renames eq parent sub) n) = some (ren v) ∨
    (¬Conflict eq parent sub n ∧ ∃ x, find mine n = some x ∧ same x v = true ∧
      find (mergeMap (renames eq parent sub) (other.map fun p => (p.1, ren p.2)) mine) (apply (renames eq parent sub) n) = some x) := by
  obtain ⟨h1, h2, h3⟩ := C116_names eq parent sub hw
  have hn : n ∈ other.map (·.1) := find_key.1 (by rw [hv]; rfl)
  have hsub : find ((other.map fun p => (p.1, ren p.2)).map fun p => (apply (renames eq parent sub) p.1, p.2)) (apply (renames eq parent sub) n) =
      some (ren v) := by
    rw [find_rename, find_values, hv, Option.map_some]
    intro p hp e
    rw [List.mem_map] at hp
    obtain ⟨q, hq, rfl⟩ := hp
    exact h3 _ (hother _ (List.mem_map_of_mem (f := (·.1)) hq)) _ (hother _ hn) e
  rw [find_mergeMap, hsub]
  by_cases hcn : Conflict eq parent sub n
  · left
    rw [find_none fun h => (h2 n hcn).1 (hmine _ h), Option.none_or]
  · rw [h1 n hcn]
    cases hm : find mine n with
    | none => left; rw [Option.none_or]
    | some x =>
      right
      refine ⟨hcn, x, rfl, ?_, by rw [Option.some_or]⟩
      by_contra hs
      exact hcn (hc n ⟨x, v, hm, hv, by simpa using hs⟩)

/-- C116: a solid of the included file is found under its new name, as it was (or equal to it, when both files define it). -/
theorem C116_solid (eq : G → G → Bool) (parent sub : Data Q P G) (hw : WellFormed sub) {n : Name} {g : G} (hg : find sub.solids n = some g) :
    ∃ g', find (merge eq parent sub).1.solids (apply (renames eq parent sub) n) = some g' ∧ (g' = g ∨ eq g' g = true) := by
  have := merged (eq := eq) (parent := parent) hw (same := eq) (mine := parent.solids) (other := sub.solids) (fun g => g)
    (fun k hk => by simp [names, hk]) (fun k hk => by simp [names, hk]) (fun n h => .inr (.inr (.inr (.inl h)))) hg
  have hid : (sub.solids.map fun p => (p.1, p.2)) = sub.solids := by simp
  rw [hid] at this
  rcases this with h | ⟨-, x, -, hs, h⟩
  · exact ⟨g, h, .inl rfl⟩
  · exact ⟨x, h, .inr hs⟩

theorem map_id_of {α : Type} {f : α → α} : ∀ {l : List α}, (∀ a ∈ l, f a = a) → l.map f = l
  | [], _ => rfl
  | a :: l, h => by rw [List.map_cons, h a (by simp), map_id_of fun b hb => h b (by simp [hb])]

theorem merged_material {eq : G → G → Bool} {parent sub : Data Q P G} (hw : WellFormed sub) {mine other : List (Name × Material Q)}
    (hmine : ∀ k ∈ mine.map (·.1), k ∈ names parent) (hother : ∀ k ∈ other.map (·.1), k ∈ names sub)
    (hc : ∀ n, Differ (fun a b => decide (a = b)) mine other n → Conflict eq parent sub n)
    (hdeep : ∀ n v, find other n = some v → find mine n = some v → ∀ c ∈ v.composition, ¬Conflict eq parent sub c.1)
    {n : Name} {v : Material Q} (hv : find other n = some v) :
    ∃ v', find (mergeMap (renames eq parent sub) (other.map fun p => (p.1, renameMaterial (renames eq parent sub) p.2)) mine)
      (apply (renames eq parent sub) n) = some v' ∧ SameMaterial (apply (renames eq parent sub)) v' v := by
  rcases merged hw (renameMaterial (renames eq parent sub)) hmine hother hc hv with h | ⟨hn, x, hx, hs, h⟩
  · exact ⟨_, h, rfl, rfl, rfl, rfl⟩
  · rw [decide_eq_true_eq] at hs
    subst hs
    refine ⟨x, h, rfl, rfl, rfl, ?_⟩
    symm
    apply map_id_of
    intro c hcm
    rw [(C116_names eq parent sub hw).1 c.1 (hdeep n x hv hx c hcm)]

/-- C116: a material, element or isotope of the included file is found under its new name, made of what it was made of. -/
theorem C116_material (eq : G → G → Bool) (parent sub : Data Q P G) (hw : WellFormed sub) (hd : Deep eq parent sub) {n : Name} {v : Material Q} :
    let r := apply (renames eq parent sub)
    let m := (merge eq parent sub).1
    (find sub.materials n = some v → ∃ v', find m.materials (r n) = some v' ∧ SameMaterial r v' v) ∧
    (find sub.elements n = some v → ∃ v', find m.elements (r n) = some v' ∧ SameMaterial r v' v) ∧
    (find sub.isotopes n = some v → ∃ v', find m.isotopes (r n) = some v' ∧ SameMaterial r v' v) := by
  refine ⟨fun hv => ?_, fun hv => ?_, fun hv => ?_⟩
  · exact merged_material hw (fun k hk => by simp [names, hk]) (fun k hk => by simp [names, hk]) (fun n h => .inr (.inr (.inl h))) hd.materials hv
  · exact merged_material hw (fun k hk => by simp [names, hk]) (fun k hk => by simp [names, hk]) (fun n h => .inr (.inl h)) hd.elements hv
  · exact merged_material hw (fun k hk => by simp [names, hk]) (fun k hk => by simp [names, hk]) (fun n h => .inl h) hd.isotopes hv

theorem same_children : ∀ {a b : List (PhysVol P)}, a.length = b.length →
    ((a.zip b).all fun p => decide (p.1.ref = p.2.ref ∧ p.1.position = p.2.position ∧ p.1.rotation = p.2.rotation)) = true → a = b
  | [], [], _, _ => rfl
  | [], _ :: _, h, _ => by simp at h
  | _ :: _, [], h, _ => by simp at h
  | x :: a, y :: b, h, hs => by
    rw [List.zip_cons_cons, List.all_cons, Bool.and_eq_true, decide_eq_true_eq] at hs
    rw [same_children (by simpa using h) hs.2]
    congr 1
    cases x
    cases y
    simp_all

/-- C116: a volume of the included file is found under its new name, with its own solid, material and children; so is its world volume. -/
theorem C116_volume (eq : G → G → Bool) (parent sub : Data Q P G) (hw : WellFormed sub) (hd : Deep eq parent sub) {n : Name} {v : Volume P}
    (hv : find sub.volumes n = some v) :
    (∃ v', find (merge eq parent sub).1.volumes (apply (renames eq parent sub) n) = some v' ∧ SameVolume (apply (renames eq parent sub)) v' v) ∧
    (n = sub.world → (merge eq parent sub).2 = apply (renames eq parent sub) n) := by
  refine ⟨?_, fun e => by rw [e]; rfl⟩
  rcases merged (eq := eq) (parent := parent) hw (same := sameVolume) (mine := parent.volumes) (other := sub.volumes)
    (renameVolume (renames eq parent sub)) (fun k hk => by simp [names, hk]) (fun k hk => by simp [names, hk])
    (fun n h => .inr (.inr (.inr (.inr h)))) hv with h | ⟨hn, x, hx, hs, h⟩
  · exact ⟨_, h, rfl, rfl, rfl, rfl⟩
  · refine ⟨x, h, ?_⟩
    obtain ⟨h1, h2, h3⟩ := hd.volumes n v x hv hx hn
    have hr := (C116_names eq parent sub hw).1
    unfold sameVolume at hs
    rw [Bool.and_eq_true, decide_eq_true_eq] at hs
    obtain ⟨⟨e1, e2, e3, e4⟩, e5⟩ := hs
    refine ⟨by rw [hr _ h1, e1], by rw [hr _ h2, e2], e4, ?_⟩
    rw [same_children e3 e5]
    symm
    apply map_id_of
    intro c hc
    rw [hr _ (h3 c hc)]

/-! ## Failures -/

/-- A file with one volume. -/
def fileOf (solids : List (Name × Nat)) (volumes : List (Name × Volume Nat)) (world : Name) : Data Nat Nat Nat :=
  ⟨[], [], [], solids, volumes, [], [], [], world⟩

/-- The volume `V` of the solid `S`. -/
def volumeV : Volume Nat := ⟨"V".toList, "S".toList, "Water".toList, false, []⟩

/-- C116 fails without the last condition: both files have a volume `V` of a solid `S`, with different solids. The solid of the included file gets
the new name `S_2`, but its `V` counts as known and becomes the `V` of the including file, with the wrong solid. -/
theorem C116_text_fails : ∃ (parent sub : Data Nat Nat Nat) (v : Volume Nat), WellFormed sub ∧ find sub.volumes "V".toList = some v ∧
    find sub.solids v.solid = some 2 ∧
    let r := apply (renames (· == ·) parent sub)
    let m := (merge (· == ·) parent sub).1
    ∃ v', find m.volumes (r "V".toList) = some v' ∧ find m.solids v'.solid = some 1 := by
  refine ⟨fileOf [("S".toList, 1)] [("V".toList, volumeV)] "V".toList, fileOf [("S".toList, 2)] [("V".toList, volumeV)] "V".toList, volumeV,
    ⟨?_, ?_, ?_, ?_, ?_⟩, by decide +kernel, by decide +kernel, volumeV, by decide +kernel, by decide +kernel⟩ <;>
  · unfold Keys; decide +kernel

/-- C116 fails for the volumes of the section that includes the file: they are put into the map after the included ones and replace those of the
same name, so that a reference inside the included file leads to a volume of the including file. Here `0` is the volume `Box` of the included
file and `1` that of the including file. -/
theorem C116_shadow_fails : ∃ (included : Name → Option Nat) (own : List (Name × Nat)), included "Box".toList = some 0 ∧
    let s := storeAll true (· == ·) (fresh fun _ => none) own
    (flatten s s.keys (sole s) included).1 "Box".toList = some 1 :=
  ⟨fun n => if n = "Box".toList then some 0 else none, [("Box".toList, 1)], by decide +kernel, by decide +kernel⟩

/-! ## Example -/

/-- A volume `V` and a world `W` with a `V` in it, for two files whose solids `S` are different. -/
def parent1 : Data Nat Nat Nat := fileOf [("S".toList, 1)] [("V".toList, { volumeV with material := "Air".toList })] "V".toList

def sub1 : Data Nat Nat Nat := fileOf [("S".toList, 2), ("S_2".toList, 5)]
  [("V".toList, volumeV), ("W".toList, ⟨"W".toList, "S_2".toList, "Water".toList, false, [⟨"V".toList, 3, 4⟩]⟩)] "W".toList

example : WellFormed sub1 ∧ Deep (· == ·) parent1 sub1 ∧
    find (merge (· == ·) parent1 sub1).1.volumes "W".toList = some ⟨"W".toList, "S_2".toList, "Water".toList, false, [⟨"V_2".toList, 3, 4⟩]⟩ ∧
    find (merge (· == ·) parent1 sub1).1.volumes "V_2".toList = some ⟨"V_2".toList, "S_3".toList, "Water".toList, false, []⟩ ∧
    find (merge (· == ·) parent1 sub1).1.solids "S_3".toList = some 2 := by
  refine ⟨⟨?_, ?_, ?_, ?_, ?_⟩, ⟨?_, ?_, ?_, ?_⟩, by decide +kernel, by decide +kernel, by decide +kernel⟩
  · unfold Keys; decide +kernel
  · unfold Keys; decide +kernel
  · unfold Keys; decide +kernel
  · unfold Keys; decide +kernel
  · unfold Keys; decide +kernel
  · intro n v h; cases h
  · intro n v h; cases h
  · intro n v h; cases h
  · intro n v x hv hx hn
    exfalso
    have hm := find_some_mem hx
    simp only [parent1, fileOf, List.mem_singleton, Prod.mk.injEq] at hm
    apply hn
    right; right; right; right
    rw [hm.1]
    exact ⟨{ volumeV with material := "Air".toList }, volumeV, by decide +kernel, by decide +kernel, by decide +kernel⟩

end Siren.Gdml.Merge
