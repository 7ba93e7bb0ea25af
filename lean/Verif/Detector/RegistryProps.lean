import Verif.Detector.RegistryModel
import Verif.Detector.BVHProps

set_option autoImplicit false

/-!
# Sector registry invariants
-/

namespace Siren.Detector.Registry

open Siren Siren.Geometry Siren.Geometry.BoolBox Siren.Detector.BVH

/-- The maps say where each sector is, and nothing else. -/
structure Consistent (sectors : List NSec) (byLevel : Int → Option Nat) (byName : String → Option Nat) : Prop where
  level : ∀ k i, byLevel k = some i ↔ ∃ s, sectors[i]? = some s ∧ s.sec.level = k
  name : ∀ k i, byName k = some i ↔ ∃ s, sectors[i]? = some s ∧ s.name = k

theorem consistent_nil : Consistent [] (fun _ => none) (fun _ => none) := ⟨by simp, by simp⟩

theorem Consistent.push {l : List NSec} {bl : Int → Option Nat} {bn : String → Option Nat} (h : Consistent l bl bn) (s : NSec)
    (hl : bl s.sec.level = none) (hn : bn s.name = none) :
    Consistent (l ++ [s]) (put bl s.sec.level l.length) (put bn s.name l.length) := by
  have key : ∀ {K : Type} [DecidableEq K] (m : K → Option Nat) (f : NSec → K)
      (_ : ∀ k i, m k = some i ↔ ∃ s, l[i]? = some s ∧ f s = k) (_ : m (f s) = none) (k : K) (i : Nat),
      put m (f s) l.length k = some i ↔ ∃ t, (l ++ [s])[i]? = some t ∧ f t = k := by
    intro K _ m f hm hnone k i
    unfold put
    by_cases hk : k = f s
    · subst hk
      rw [if_pos rfl, Option.some_inj]
      constructor
      · rintro rfl
        exact ⟨s, by simp, rfl⟩
      · rintro ⟨t, ht, hft⟩
        by_cases hi : i < l.length
        · rw [List.getElem?_append_left hi] at ht
          have := (hm (f s) i).2 ⟨t, ht, hft⟩
          rw [hnone] at this
          cases this
        · rcases Nat.eq_or_lt_of_le (not_lt.1 hi) with h | h
          · exact h
          · rw [List.getElem?_eq_none (by simpa using h)] at ht
            cases ht
    · rw [if_neg hk, hm]
      constructor
      · rintro ⟨t, ht, hft⟩
        refine ⟨t, ?_, hft⟩
        rw [List.getElem?_append_left (List.getElem?_eq_some_iff.1 ht).1]
        exact ht
      · rintro ⟨t, ht, hft⟩
        by_cases hi : i < l.length
        · rw [List.getElem?_append_left hi] at ht
          exact ⟨t, ht, hft⟩
        · rcases Nat.eq_or_lt_of_le (not_lt.1 hi) with h | h
          · subst h
            simp only [List.getElem?_concat_length, Option.some_inj] at ht
            exact absurd (by rw [← hft, ht]) hk
          · rw [List.getElem?_eq_none (by simpa using h)] at ht
            cases ht
  exact ⟨key bl (fun s => s.sec.level) h.level hl, key bn NSec.name h.name hn⟩

theorem setLoop_ok (rest : List NSec) : ∀ (pre : List NSec) (st st' : State),
    Consistent pre st.byLevel st.byName → State.setLoop rest pre.length st = (.ok (), st') →
    Consistent (pre ++ rest) st'.byLevel st'.byName ∧ st'.sectors = st.sectors := by
  induction rest with
  | nil =>
    intro pre st st' h hr
    simp only [State.setLoop, Prod.mk.injEq, true_and] at hr
    subst hr
    rw [List.append_nil]
    exact ⟨h, rfl⟩
  | cons s rest ih =>
    intro pre st st' h hr
    rw [State.setLoop] at hr
    split_ifs at hr with h1 h2
    · simp at hr
    · simp at hr
    · have hc := h.push s (by simpa using h1) (by simpa using h2)
      have := ih (pre ++ [s]) _ st' hc (by rw [List.length_append, List.length_singleton]; exact hr)
      simpa using this

section
variable {srt : (Nat → ℝ) → List Nat → List Nat} {big : ℝ}

/-- What holds in every reachable state: the maps match the sectors, and a clean index is that of the current sectors. -/
structure Inv (srt : (Nat → ℝ) → List Nat → List Nat) (big : ℝ) (st : State) : Prop where
  maps : Consistent st.sectors st.byLevel st.byName
  index : st.dirty = false → rebuild srt big st.secs = .ok st.index

theorem Inv.refresh {st st' : State} (h : Inv srt big st) (hr : st.refresh srt big = .ok st') :
    Inv srt big st' ∧ st'.sectors = st.sectors ∧ st'.dirty = false := by
  unfold State.refresh at hr
  split_ifs at hr with hd
  · cases hb : rebuild srt big st.secs with
    | throws e => rw [hb] at hr; cases hr
    | ub => rw [hb] at hr; cases hr
    | ok ix =>
      rw [hb] at hr
      cases hr
      exact ⟨⟨h.maps, fun _ => hb⟩, rfl, rfl⟩
  · cases hr
    exact ⟨h, rfl, by simpa using hd⟩

theorem Reach.inv {st : State} (h : Reach srt big st) : Inv srt big st := by
  induction h with
  | new => exact ⟨consistent_nil, by simp [State.empty]⟩
  | @add st s _ ih =>
    unfold State.add
    split_ifs with h1 h2
    · exact ih
    · exact ih
    · exact ⟨ih.maps.push s (by simpa using h1) (by simpa using h2), by simp⟩
  | @set st l _ hok ih =>
    unfold State.set at hok ⊢
    cases hloop : State.setLoop l 0 { st with sectors := l, byLevel := fun _ => none, byName := fun _ => none } with
    | mk r st' =>
      rw [hloop] at hok
      cases r with
      | throws e => simp at hok
      | ub => simp at hok
      | ok u =>
        obtain ⟨h1, h2⟩ := setLoop_ok l [] _ st' consistent_nil hloop
        refine ⟨?_, by simp⟩
        simp only [List.nil_append] at h1
        change Consistent st'.sectors st'.byLevel st'.byName
        rw [h2]
        exact h1
  | clear _ _ => exact ⟨consistent_nil, by simp [State.clear]⟩
  | load _ _ _ ih => exact ⟨ih.maps, by simp [State.load]⟩
  | @locate st st' p r _ hq ih =>
    unfold State.locate at hq
    cases hr : st.refresh srt big with
    | throws e => rw [hr] at hq; cases hq
    | ub => rw [hr] at hq; cases hq
    | ok st₁ =>
      rw [hr] at hq
      simp only [Res.bind] at hq
      split at hq <;> cases hq
      exact (ih.refresh hr).1
  | @crossings st st' p d r _ hq ih =>
    unfold State.crossings at hq
    cases hr : st.refresh srt big with
    | throws e => rw [hr] at hq; cases hq
    | ub => rw [hr] at hq; cases hq
    | ok st₁ =>
      rw [hr] at hq
      simp only [Res.bind] at hq
      split at hq <;> cases hq
      exact (ih.refresh hr).1

theorem Consistent.nodup {l : List NSec} {bl : Int → Option Nat} {bn : String → Option Nat} (h : Consistent l bl bn) :
    (l.map fun s => s.sec.level).Nodup ∧ (l.map NSec.name).Nodup := by
  have key : ∀ {K : Type} (m : K → Option Nat) (f : NSec → K)
      (_ : ∀ k i, m k = some i ↔ ∃ s, l[i]? = some s ∧ f s = k), (l.map f).Nodup := by
    intro K m f hm
    rw [List.nodup_iff_injective_getElem]
    intro i j hij
    have hi := i.2
    have hj := j.2
    simp only [List.length_map] at hi hj
    simp only [List.getElem_map] at hij
    have h1 := (hm (f l[i.1]) i.1).2 ⟨_, List.getElem?_eq_getElem hi, rfl⟩
    have h2 := (hm (f l[i.1]) j.1).2 ⟨_, List.getElem?_eq_getElem hj, hij.symm⟩
    rw [h1, Option.some_inj] at h2
    exact Fin.ext h2
  exact ⟨key bl _ h.level, key bn _ h.name⟩

/-- **C27, lookups.** After any history, no two sectors have the same level or the same name, looking a present sector up by
level or by name returns it, and looking up an absent level or name throws. -/
theorem C27_lookup (st : State) (h : Reach srt big st) :
    (st.sectors.map fun s => s.sec.level).Nodup ∧ (st.sectors.map NSec.name).Nodup ∧
    (∀ s ∈ st.sectors, st.getByLevel s.sec.level = .ok s ∧ st.getByName s.name = .ok s) ∧
    (∀ level, (∀ s ∈ st.sectors, s.sec.level ≠ level) → st.getByLevel level = .throws .outOfRange) ∧
    (∀ name, (∀ s ∈ st.sectors, s.name ≠ name) → st.getByName name = .throws .runtimeError) := by
  have hm := h.inv.maps
  refine ⟨hm.nodup.1, hm.nodup.2, fun s hs => ?_, fun level hlev => ?_, fun name hname => ?_⟩
  · obtain ⟨i, hi⟩ := List.mem_iff_getElem?.1 hs
    have h1 := (hm.level s.sec.level i).2 ⟨s, hi, rfl⟩
    have h2 := (hm.name s.name i).2 ⟨s, hi, rfl⟩
    simp only [State.getByLevel, State.getByName, h1, h2, hi, and_self]
  · have : st.byLevel level = none := by
      cases hb : st.byLevel level with
      | none => rfl
      | some i =>
        obtain ⟨s, hs, hl⟩ := (hm.level level i).1 hb
        exact absurd hl (hlev s (List.mem_of_getElem? hs))
    simp only [State.getByLevel, this]
  · have : st.byName name = none := by
      cases hb : st.byName name with
      | none => rfl
      | some i =>
        obtain ⟨s, hs, hl⟩ := (hm.name name i).1 hb
        exact absurd hl (hname s (List.mem_of_getElem? hs))
    simp only [State.getByName, this]

/-- **C27, changes.** Adding a sector is accepted exactly when its level and name are free; it then comes last, and otherwise the
model is unchanged. A successful replacement leaves exactly the new sectors (it is accepted exactly when their levels and names
are distinct), and clearing leaves none. -/
theorem C27_changes (st : State) (h : Reach srt big st) :
    (∀ s : NSec, ((st.add s).1 = .ok () ↔ ∀ t ∈ st.sectors, t.sec.level ≠ s.sec.level ∧ t.name ≠ s.name) ∧
      ((st.add s).1 = .ok () → (st.add s).2.sectors = st.sectors ++ [s]) ∧
      ((st.add s).1 ≠ .ok () → (st.add s) = (.throws .runtimeError, st))) ∧
    (∀ l : List NSec, ((st.set l).1 = .ok () ↔ (l.map fun s => s.sec.level).Nodup ∧ (l.map NSec.name).Nodup) ∧
      ((st.set l).1 = .ok () → (st.set l).2.sectors = l) ∧
      ((st.set l).1 ≠ .ok () → (st.set l).1 = .throws .runtimeError)) ∧
    st.clear.sectors = [] := by
  have hm := h.inv.maps
  refine ⟨fun s => ?_, fun l => ?_, rfl⟩
  · have hl : (st.byLevel s.sec.level).isSome = true ↔ ∃ t ∈ st.sectors, t.sec.level = s.sec.level := by
      rw [Option.isSome_iff_exists]
      constructor
      · rintro ⟨i, hi⟩
        obtain ⟨t, ht, hte⟩ := (hm.level _ _).1 hi
        exact ⟨t, List.mem_of_getElem? ht, hte⟩
      · rintro ⟨t, ht, hte⟩
        obtain ⟨i, hi⟩ := List.mem_iff_getElem?.1 ht
        exact ⟨i, (hm.level _ _).2 ⟨t, hi, hte⟩⟩
    have hn : (st.byName s.name).isSome = true ↔ ∃ t ∈ st.sectors, t.name = s.name := by
      rw [Option.isSome_iff_exists]
      constructor
      · rintro ⟨i, hi⟩
        obtain ⟨t, ht, hte⟩ := (hm.name _ _).1 hi
        exact ⟨t, List.mem_of_getElem? ht, hte⟩
      · rintro ⟨t, ht, hte⟩
        obtain ⟨i, hi⟩ := List.mem_iff_getElem?.1 ht
        exact ⟨i, (hm.name _ _).2 ⟨t, hi, hte⟩⟩
    unfold State.add
    split_ifs with h1 h2
    · obtain ⟨t, ht, hte⟩ := hl.1 h1
      exact ⟨⟨fun h => by simp at h, fun h => absurd hte (h t ht).1⟩, fun h => by simp at h, fun _ => rfl⟩
    · obtain ⟨t, ht, hte⟩ := hn.1 h2
      exact ⟨⟨fun h => by simp at h, fun h => absurd hte (h t ht).2⟩, fun h => by simp at h, fun _ => rfl⟩
    · exact ⟨⟨fun _ t ht => ⟨fun e => h1 (hl.2 ⟨t, ht, e⟩), fun e => h2 (hn.2 ⟨t, ht, e⟩)⟩, fun _ => rfl⟩, fun _ => rfl,
        fun h => absurd rfl h⟩
  · have hset : ∀ (rest pre : List NSec) (st : State), Consistent pre st.byLevel st.byName →
        ((State.setLoop rest pre.length st).1 = .ok () ↔
          ((pre ++ rest).map fun s => s.sec.level).Nodup ∧ ((pre ++ rest).map NSec.name).Nodup) ∧
        ((State.setLoop rest pre.length st).1 ≠ .ok () → (State.setLoop rest pre.length st).1 = .throws .runtimeError) := by
      intro rest
      induction rest with
      | nil =>
        intro pre st hc
        rw [List.append_nil]
        exact ⟨⟨fun _ => hc.nodup, fun _ => rfl⟩, fun h => absurd rfl h⟩
      | cons s rest ih =>
        intro pre st hc
        rw [State.setLoop]
        split_ifs with h1 h2
        · obtain ⟨i, hi⟩ := Option.isSome_iff_exists.1 h1
          obtain ⟨t, ht, hte⟩ := (hc.level _ _).1 hi
          refine ⟨⟨fun h => by simp at h, fun h => ?_⟩, fun _ => rfl⟩
          have := h.1
          rw [List.map_append, List.map_cons, List.nodup_append] at this
          exact absurd hte (this.2.2 _ (List.mem_map_of_mem (List.mem_of_getElem? ht)) _ (by simp))
        · obtain ⟨i, hi⟩ := Option.isSome_iff_exists.1 h2
          obtain ⟨t, ht, hte⟩ := (hc.name _ _).1 hi
          refine ⟨⟨fun h => by simp at h, fun h => ?_⟩, fun _ => rfl⟩
          have := h.2
          rw [List.map_append, List.map_cons, List.nodup_append] at this
          exact absurd hte (this.2.2 _ (List.mem_map_of_mem (List.mem_of_getElem? ht)) _ (by simp))
        · have hp := ih (pre ++ [s]) { st with byName := put st.byName s.name pre.length, byLevel := put st.byLevel s.sec.level pre.length }
            (hc.push s (by simpa using h1) (by simpa using h2))
          rw [List.length_append, List.length_singleton, List.append_assoc, List.singleton_append] at hp
          exact hp
    obtain ⟨h1, h2⟩ := hset l [] { st with sectors := l, byLevel := fun _ => none, byName := fun _ => none } consistent_nil
    simp only [List.nil_append, List.length_nil] at h1 h2
    unfold State.set
    cases hloop : State.setLoop l 0 { st with sectors := l, byLevel := fun _ => none, byName := fun _ => none } with
    | mk r st' =>
      rw [hloop] at h1 h2
      cases r with
      | throws e => exact ⟨h1, fun h => by simp at h, h2⟩
      | ub => exact ⟨h1, fun h => by simp at h, h2⟩
      | ok u => exact ⟨h1, fun _ => (setLoop_ok l [] _ st' consistent_nil hloop).2, h2⟩

/-- **C27, locating.** After any history the sector found at a point is the one of the highest level among the sectors the
model has at that moment, never one from before a change; the query changes no sector. -/
theorem C27_locate (hsrt : ∀ key l, (srt key l).Perm l) (st : State) (h : Reach srt big st) (p : Vec3 ℝ)
    (hs : ∀ s ∈ st.sectors, s.sec.PointSound big p) :
    ∃ r st', st.locate srt big p = .ok (r, st') ∧ st'.sectors = st.sectors ∧
      ∀ s, r = some s ↔ s ∈ st.secs ∧ s.isInside p = true ∧ ∀ s' ∈ st.secs, s'.isInside p = true → s'.level ≤ s.level := by
  obtain ⟨ix, t, hb, hix⟩ := C25_rebuild srt hsrt big st.secs
  have hr : ∃ st', st.refresh srt big = .ok st' ∧ st'.sectors = st.sectors ∧ st'.index = ix := by
    unfold State.refresh
    by_cases hd : st.dirty = true
    · rw [if_pos hd, hb]
      exact ⟨_, rfl, rfl, rfl⟩
    · rw [if_neg hd]
      have := h.inv.index (by simpa using hd)
      rw [hb] at this
      cases this
      exact ⟨_, rfl, rfl, rfl⟩
  obtain ⟨st', hr, hsec, hidx⟩ := hr
  have hsecs : st'.secs = st.secs := by simp only [State.secs, hsec]
  obtain ⟨r, hc, hspec⟩ := C24_containing_sector st.secs p (by
      intro s hs'
      obtain ⟨n, hn, rfl⟩ := List.mem_map.1 hs'
      exact hs n hn) (by
      have := h.inv.maps.nodup.1
      simpa [State.secs, List.map_map, Function.comp_def] using this) ix t hix (ix.nodes.length + 1) (Nat.lt_succ_self _)
  refine ⟨r, st', ?_, hsec, hspec⟩
  unfold State.locate
  rw [hr]
  simp only [Res.bind, hsecs, hidx, hc]

/-- **C27, crossings.** After any history the crossings found along a line are those of all the sectors the model has at that
moment. -/
theorem C27_crossings (hsrt : ∀ key l, (srt key l).Perm l) (hbig : 0 < big) (st : State) (h : Reach srt big st) (p d : Vec3 ℝ)
    (hd : Vec3.dot d d = 1) (hs : ∀ s ∈ st.sectors, s.sec.RaySound) :
    ∃ r st', st.crossings srt big p d = .ok (r, st') ∧ st'.sectors = st.sectors ∧
      r.Perm (st.secs.flatMap fun s => s.append p d) := by
  obtain ⟨ix, t, hb, hix⟩ := C25_rebuild srt hsrt big st.secs
  have hr : ∃ st', st.refresh srt big = .ok st' ∧ st'.sectors = st.sectors ∧ st'.index = ix := by
    unfold State.refresh
    by_cases hd : st.dirty = true
    · rw [if_pos hd, hb]
      exact ⟨_, rfl, rfl, rfl⟩
    · rw [if_neg hd]
      have := h.inv.index (by simpa using hd)
      rw [hb] at this
      cases this
      exact ⟨_, rfl, rfl, rfl⟩
  obtain ⟨st', hr, hsec, hidx⟩ := hr
  have hsecs : st'.secs = st.secs := by simp only [State.secs, hsec]
  obtain ⟨r, hc, hspec⟩ := C23_same_hits hbig st.secs (by
      intro s hs'
      obtain ⟨n, hn, rfl⟩ := List.mem_map.1 hs'
      exact hs n hn) ix t hix p d hd (ix.nodes.length + 1) (Nat.lt_succ_self _)
  refine ⟨r, st', ?_, hsec, hspec⟩
  unfold State.crossings
  rw [hr]
  simp only [Res.bind, hsecs, hidx, hc]

end

/-! ## Concrete histories -/

/-- A unit cube. -/
noncomputable def cube (name : String) (level : Int) : NSec := ⟨name, unitBox level⟩

/-- A history with a rejected addition: the second `"a"` is not added; looking up returns the first. -/
example (srt : (Nat → ℝ) → List Nat → List Nat) (big : ℝ) :
    let st := (((State.empty.add (cube "a" 1)).2.add (cube "b" 2)).2.add (cube "a" 3)).2
    Reach srt big st ∧ st.sectors.map NSec.name = ["a", "b"] ∧ st.getByName "a" = .ok (cube "a" 1) := by
  refine ⟨.add _ (.add _ (.add _ .new)), ?_, ?_⟩ <;>
    simp [State.add, State.empty, put, cube, unitBox, State.getByName]

/-- An unbounded sector. -/
noncomputable def everywhere (name : String) (level : Int) : NSec :=
  ⟨name, ⟨level, 0, Placement.translation 0, ⟨⟨⊥, ⊥, ⊥⟩, ⟨⊤, ⊤, ⊤⟩⟩, fun _ _ => []⟩⟩

/-- **C27, failed replacement (negative).** `SetSectors` with a repeated level throws, but not before it has replaced the
sectors: the old ones are gone, the maps are incomplete, and since the spatial index is not marked as outdated the next query
reads beyond the end of the sectors. -/
theorem C27_failed_set_fails (srt : (Nat → ℝ) → List Nat → List Nat) (p : Vec3 ℝ) : ∃ (st st' : State) (l : List NSec),
    Reach srt 10 st ∧ st.set l = (.throws .runtimeError, st') ∧ st.sectors.length = 3 ∧ st'.sectors = l ∧
    st'.getByName "d" = .throws .runtimeError ∧ (∃ s ∈ st'.sectors, s.name = "d") ∧ st'.locate srt 10 p = .ub := by
  have hw : ∀ n k, (everywhere n k).sec.worldBox 10 = ⟨⟨⊥, ⊥, ⊥⟩, ⟨⊤, ⊤, ⊤⟩⟩ := by
    intro n k
    unfold Sector.worldBox world
    rw [if_neg (by simp [everywhere, AABB.isValid]), if_pos (by simp [everywhere, AllFin, isFin])]
    rfl
  have hf : ¬ AllFin (⟨⟨⊥, ⊥, ⊥⟩, ⟨⊤, ⊤, ⊤⟩⟩ : AABB EReal) := by simp [AllFin, isFin]
  let st₀ := (((State.empty.add (everywhere "a" 1)).2.add (everywhere "b" 2)).2.add (everywhere "c" 3)).2
  have h0 : Reach srt 10 st₀ := .add _ (.add _ (.add _ .new))
  have hsec : st₀.sectors = [everywhere "a" 1, everywhere "b" 2, everywhere "c" 3] := by
    simp [st₀, State.add, State.empty, put, everywhere]
  have hdirty : st₀.dirty = true := by simp [st₀, State.add, State.empty, put, everywhere]
  have hb : rebuild srt 10 st₀.secs = .ok ⟨[], [0, 1, 2], []⟩ := by
    have : st₀.secs = [(everywhere "a" 1).sec, (everywhere "b" 2).sec, (everywhere "c" 3).sec] := by simp [State.secs, hsec]
    rw [this]
    unfold rebuild
    have hr : List.range [(everywhere "a" 1).sec, (everywhere "b" 2).sec, (everywhere "c" 3).sec].length = [0, 1, 2] := rfl
    rw [hr]
    simp [hw, hf]
  let st₁ : State := { st₀ with index := ⟨[], [0, 1, 2], []⟩, dirty := false }
  have hl : ∃ r, st₀.locate srt 10 p = .ok (r, st₁) := by
    refine ⟨some (everywhere "c" 3).sec, ?_⟩
    simp only [State.locate, State.refresh, hdirty, if_true, hb, Res.bind]
    have : ({ st₀ with index := ⟨[], [0, 1, 2], []⟩, dirty := false } : State).secs =
        [(everywhere "a" 1).sec, (everywhere "b" 2).sec, (everywhere "c" 3).sec] := by
      simp [State.secs, hsec]
    rw [this]
    simp [containingDirect, offerInfinite, offerInvalid, Res.bind, everywhere, intMin, st₁]
  obtain ⟨r, hl⟩ := hl
  refine ⟨st₁, (st₁.set [everywhere "a" 1, everywhere "d" 1]).2, [everywhere "a" 1, everywhere "d" 1], .locate p r h0 hl, ?_, ?_, ?_,
    ?_, ?_, ?_⟩
  · simp [State.set, State.setLoop, put, everywhere]
  · simp [st₁, hsec]
  · simp [State.set, State.setLoop, put, everywhere]
  · simp [State.set, State.setLoop, put, everywhere, State.getByName]
  · exact ⟨everywhere "d" 1, by simp [State.set, State.setLoop, put, everywhere], rfl⟩
  · simp [State.set, State.setLoop, put, everywhere, State.locate, State.refresh, st₁, Res.bind, containingDirect, offerInfinite,
      State.secs]

end Siren.Detector.Registry
