import Verif.Gdml.VolumeModel

set_option autoImplicit false

/-! # C29: importing a GDML volume hierarchy -/

namespace Siren.Gdml

open Siren Siren.Geometry

variable {S : Type}

/-! ### Specification -/

/-- The volume a reference stands for. -/
def Data.canonical (d : Data S) (raw : String) : String := (d.aliases raw).getD raw

/-- Follow a path of child numbers starting at a reference: the placed volumes on the way, the names of the volumes left behind and
the name of the volume arrived at. `none` if there is no such path. -/
def Data.route (d : Data S) : List Nat → String → Option (List PhysVol × List String × String)
  | [], raw => some ([], [], d.canonical raw)
  | i :: path, raw => do
    let vol ← d.find (d.canonical raw)
    let c ← vol.children[i]?
    let r ← d.route path c.ref
    some (c :: r.1, d.canonical raw :: r.2.1, r.2.2)

/-- Nothing is wrong with a volume reached behind the volumes `above`: it is not one of them, it exists, and unless it is an
assembly its solid and its material are known and the material was imported. -/
def Data.Fine (d : Data S) (materialId : String → Option Int) (above : List String) (name : String) : Prop :=
  name ∉ above ∧ ∃ vol, d.find name = some vol ∧
    (vol.isAssembly = false → (d.solids vol.solidRef).isSome ∧ (d.density vol.materialRef).isSome ∧ (materialId vol.materialRef).isSome)

/-- Nothing is wrong below a reference. -/
def Data.Good (d : Data S) (materialId : String → Option Int) (raw : String) : Prop :=
  ∀ path cs above name, d.route path raw = some (cs, above, name) → d.Fine materialId above name

/-- The path leads to a volume that is not an assembly. -/
def Data.Solid (d : Data S) (raw : String) (path : List Nat) : Prop :=
  ∃ cs above name vol, d.route path raw = some (cs, above, name) ∧ d.find name = some vol ∧ vol.isAssembly = false

/-- The coordinates of the global point `g` in a volume placed by `cs`, outermost first: a placed volume is moved by its position
and rotated passively. -/
noncomputable def localPoint (cs : List PhysVol) (g : Vec3 ℝ) : Vec3 ℝ :=
  cs.foldl (fun g c => c.rotation.rotate (g - c.position) false) g

/-- The sector is what the volume at the end of the path should become. -/
structure Data.Imports (d : Data S) (materialId : String → Option Int) (raw : String) (path : List Nat) (s : GSector S) : Prop where
  volume : ∃ cs above name vol, d.route path raw = some (cs, above, name) ∧ d.find name = some vol ∧ vol.isAssembly = false ∧
    d.solids vol.solidRef = some s.shape ∧ d.density vol.materialRef = some s.density ∧
    materialId vol.materialRef = some s.materialId ∧ (s.name = vol.name ∨ ∃ k : Nat, s.name = vol.name ++ "_" ++ toString k) ∧
    ∀ g, s.placement.globalToLocalPosition g = localPoint cs g

/-! ### Names -/

theorem toString_inj {a b : Nat} (h : toString a = toString b) : a = b := by
  have h1 : (Nat.toDigits 10 a) = Nat.toDigits 10 b := by
    have : (toString a).toList = (toString b).toList := by rw [h]
    simpa [toString, Nat.repr] using this
  rw [← Nat.ofDigitChars_ten_toDigits (n := a), h1, Nat.ofDigitChars_ten_toDigits]

theorem numbered_inj {base : String} {a b : Nat} (h : base ++ "_" ++ toString a = base ++ "_" ++ toString b) : a = b := by
  have h1 : (base ++ "_" ++ toString a).toList = (base ++ "_" ++ toString b).toList := by rw [h]
  simp only [String.toList_append] at h1
  have h2 := List.append_cancel_left h1
  exact toString_inj (String.ext_iff.2 h2)

theorem uniqueName_spec (taken : List String) (base : String) (fuel : Nat) (candidate : String) (suffix : Nat) (name : String)
    (h : uniqueName taken base fuel candidate suffix = some name) :
    name ∉ taken ∧ (name = candidate ∨ ∃ k : Nat, name = base ++ "_" ++ toString k) := by
  induction fuel generalizing candidate suffix with
  | zero => simp [uniqueName] at h
  | succ n ih =>
    simp only [uniqueName] at h
    split at h
    · obtain ⟨h1, h2⟩ := ih _ _ h
      exact ⟨h1, .inr (by rcases h2 with h2 | h2; exact ⟨_, h2⟩; exact h2)⟩
    · simp only [Option.some.injEq] at h
      subst h
      exact ⟨by assumption, .inl rfl⟩

theorem uniqueName_none (taken : List String) (base : String) (fuel : Nat) (candidate : String) (suffix : Nat)
    (h : uniqueName taken base fuel candidate suffix = none) :
    (0 < fuel → candidate ∈ taken) ∧ ∀ j, j + 1 < fuel → base ++ "_" ++ toString (suffix + j) ∈ taken := by
  induction fuel generalizing candidate suffix with
  | zero => exact ⟨by omega, by omega⟩
  | succ n ih =>
    simp only [uniqueName] at h
    split at h
    · rename_i hmem
      obtain ⟨h1, h2⟩ := ih _ _ h
      refine ⟨fun _ => hmem, fun j hj => ?_⟩
      cases j with
      | zero => exact h1 (by omega)
      | succ j =>
        have := h2 j (by omega)
        rwa [show suffix + 1 + j = suffix + (j + 1) by omega] at this
    · simp at h

/-- A free name is found before more names have been tried than are taken. -/
theorem uniqueName_found (taken : List String) (base : String) :
    ∃ name, uniqueName taken base (taken.length + 1) base 2 = some name := by
  cases h : uniqueName taken base (taken.length + 1) base 2 with
  | some n => exact ⟨n, rfl⟩
  | none =>
    exfalso
    obtain ⟨h1, h2⟩ := uniqueName_none _ _ _ _ _ h
    have hnd : (base :: (List.range taken.length).map (fun j => base ++ "_" ++ toString (2 + j))).Nodup := by
      rw [List.nodup_cons]
      refine ⟨?_, ?_⟩
      · intro hm
        simp only [List.mem_map] at hm
        obtain ⟨j, -, hj⟩ := hm
        have := congrArg (fun s => s.toList.length) hj
        simp only [String.toList_append, List.length_append] at this
        have h3 : ("_".toList).length = 1 := rfl
        omega
      · exact List.Nodup.map (fun a b hab => by have := numbered_inj hab; omega) List.nodup_range
    have hsub : (base :: (List.range taken.length).map (fun j => base ++ "_" ++ toString (2 + j))) ⊆ taken := by
      intro x hx
      rcases List.mem_cons.1 hx with rfl | hx
      · exact h1 (by omega)
      · simp only [List.mem_map, List.mem_range] at hx
        obtain ⟨j, hj, rfl⟩ := hx
        exact h2 j (by omega)
    have := (List.subperm_of_subset hnd hsub).length_le
    simp at this

/-! ### Importing -/

/-- What the sectors look like at any time: names differ, and levels are below the counter. -/
structure Inv (st : State S) : Prop where
  names : (st.sectors.map GSector.name).Nodup
  levels : ∀ s ∈ st.sectors, s.level < st.level

/-- `st'` is `st` with the sectors `new` added. -/
structure Grow (st st' : State S) (new : List (GSector S)) : Prop where
  sectors : st'.sectors = st.sectors ++ new
  level : st'.level = st.level + new.length
  levels : ∀ (i : Nat) (s : GSector S), new[i]? = some s → s.level = st.level + i
  inv : Inv st'

theorem Grow.refl {st : State S} (h : Inv st) : Grow st st [] := ⟨by simp, by simp, by simp, h⟩

theorem Grow.trans {a b c : State S} {l m : List (GSector S)} (h : Grow a b l) (k : Grow b c m) : Grow a c (l ++ m) := by
  refine ⟨by rw [k.sectors, h.sectors, List.append_assoc], by rw [k.level, h.level]; simp; ring, ?_, k.inv⟩
  intro i s hs
  rw [List.getElem?_append] at hs
  split at hs
  · exact h.levels i s hs
  · rename_i hi
    have := k.levels _ s hs
    rw [this, h.level]
    omega

/-- The sector of a volume is added if everything it refers to is known, and an exception is thrown otherwise. -/
theorem addOwn_spec (d : Data S) (mat : String → Option Int) (vol : Volume) (P : Placement) (st : State S) (hinv : Inv st) :
    (((d.solids vol.solidRef).isSome ∧ (d.density vol.materialRef).isSome ∧ (mat vol.materialRef).isSome) →
      ∃ st' s, addOwn d mat vol P st = some (.ok st') ∧ st'.visited = st.visited ∧ Grow st st' [s] ∧
        d.solids vol.solidRef = some s.shape ∧ d.density vol.materialRef = some s.density ∧
        mat vol.materialRef = some s.materialId ∧ (s.name = vol.name ∨ ∃ k : Nat, s.name = vol.name ++ "_" ++ toString k) ∧
        s.placement = P) ∧
    (¬ ((d.solids vol.solidRef).isSome ∧ (d.density vol.materialRef).isSome ∧ (mat vol.materialRef).isSome) →
      addOwn d mat vol P st = some (.throws .runtimeError)) := by
  unfold addOwn
  obtain ⟨name, hname⟩ := uniqueName_found (st.sectors.map GSector.name) vol.name
  rw [List.length_map] at hname
  obtain ⟨hfresh, hform⟩ := uniqueName_spec _ _ _ _ _ _ hname
  cases hs : d.solids vol.solidRef with
  | none => simp
  | some shape =>
    cases hd : d.density vol.materialRef with
    | none => simp
    | some rho =>
      simp only [hname]
      cases hm : mat vol.materialRef with
      | none => simp
      | some id =>
        refine ⟨fun _ => ?_, fun h => absurd ⟨rfl, rfl, rfl⟩ h⟩
        have hlev : st.level ∉ st.sectors.map GSector.level := by
          intro hmem
          obtain ⟨s, hs, he⟩ := List.mem_map.1 hmem
          have := hinv.levels s hs
          omega
        refine ⟨{ st with level := st.level + 1, sectors := st.sectors ++ [⟨name, st.level, shape, P, id, rho⟩] },
          ⟨name, st.level, shape, P, id, rho⟩, ?_, rfl, ⟨rfl, by simp, ?_, ?_⟩, rfl, rfl, rfl, hform, rfl⟩
        · simp only [addSector]
          rw [if_neg hlev, if_neg hfresh]
        · intro i s hi
          cases i with
          | zero => simp at hi; subst hi; simp
          | succ i => simp at hi
        · constructor
          · simp only [List.map_append, List.map_cons, List.map_nil]
            rw [List.nodup_append]
            refine ⟨hinv.names, by simp, ?_⟩
            intro a ha b hb hab
            simp only [List.mem_singleton] at hb
            subst hb
            exact hfresh (hab ▸ ha)
          · intro s hs
            rcases List.mem_append.1 hs with hs | hs
            · have := hinv.levels s hs
              simp only
              omega
            · simp only [List.mem_singleton] at hs
              subst hs
              simp

theorem route_cons {d : Data S} {raw : String} {vol : Volume} (hv : d.find (d.canonical raw) = some vol) (i : Nat)
    (path : List Nat) (cs : List PhysVol) (above : List String) (name : String) :
    d.route (i :: path) raw = some (cs, above, name) ↔ ∃ c cs' above', vol.children[i]? = some c ∧
      d.route path c.ref = some (cs', above', name) ∧ cs = c :: cs' ∧ above = d.canonical raw :: above' := by
  simp only [Data.route, hv, Option.bind_eq_bind, Option.bind_some]
  cases vol.children[i]? with
  | none => simp
  | some c =>
    simp only [Option.bind_some]
    cases hr : d.route path c.ref with
    | none => simp [hr]
    | some r =>
      obtain ⟨cs', above', n⟩ := r
      simp only [Option.bind_some, Option.some.injEq, Prod.mk.injEq]
      constructor
      · rintro ⟨rfl, rfl, rfl⟩
        exact ⟨c, cs', above', rfl, by simp [hr], rfl, rfl⟩
      · rintro ⟨c', cs'', above'', rfl, h, rfl, rfl⟩
        rw [hr] at h
        simp only [Option.some.injEq, Prod.mk.injEq] at h
        obtain ⟨rfl, rfl, rfl⟩ := h
        exact ⟨rfl, rfl, rfl⟩

theorem route_cons_none {d : Data S} {raw : String} (hv : d.find (d.canonical raw) = none) (i : Nat) (path : List Nat) :
    d.route (i :: path) raw = none := by
  simp [Data.route, hv]

/-- Nothing is wrong below a reference that is reached behind `visited`. -/
def GoodBelow (d : Data S) (mat : String → Option Int) (visited : List String) (raw : String) : Prop :=
  ∀ path cs above name, d.route path raw = some (cs, above, name) → name ∉ visited ∧ d.Fine mat above name

theorem goodBelow_iff {d : Data S} {mat : String → Option Int} {visited : List String} {raw : String} {vol : Volume}
    (hv : d.find (d.canonical raw) = some vol) (hn : d.canonical raw ∉ visited) :
    GoodBelow d mat visited raw ↔
      (vol.isAssembly = false → (d.solids vol.solidRef).isSome ∧ (d.density vol.materialRef).isSome ∧ (mat vol.materialRef).isSome) ∧
      ∀ (i : Nat) (c : PhysVol), vol.children[i]? = some c → GoodBelow d mat (d.canonical raw :: visited) c.ref := by
  constructor
  · intro h
    constructor
    · obtain ⟨-, -, v, hv', hc⟩ := h [] [] [] _ rfl
      rw [hv] at hv'
      cases hv'
      exact hc
    · intro i c hi path cs above name hr
      obtain ⟨h1, h2, h3⟩ := h (i :: path) (c :: cs) (d.canonical raw :: above) name
        ((route_cons hv i path _ _ _).2 ⟨c, cs, above, hi, hr, rfl, rfl⟩)
      rw [List.mem_cons, not_or] at h2
      refine ⟨?_, h2.2, h3⟩
      rw [List.mem_cons, not_or]
      exact ⟨h2.1, h1⟩
  · rintro ⟨h1, h2⟩ path cs above name hr
    cases path with
    | nil =>
      simp only [Data.route, Option.some.injEq, Prod.mk.injEq] at hr
      obtain ⟨rfl, rfl, rfl⟩ := hr
      exact ⟨hn, by simp, vol, hv, h1⟩
    | cons i path =>
      obtain ⟨c, cs', above', hi, hr', rfl, rfl⟩ := (route_cons hv i path cs above name).1 hr
      obtain ⟨h3, h4, h5⟩ := h2 i c hi path cs' above' name hr'
      rw [List.mem_cons, not_or] at h3
      refine ⟨h3.2, ?_, h5⟩
      rw [List.mem_cons, not_or]
      exact ⟨h3.1, h4⟩

/-- The sector belongs to the volume at the end of the path below `raw`, which is placed at `P`. -/
def Describes (d : Data S) (mat : String → Option Int) (raw : String) (P : Placement) (path : List Nat) (s : GSector S) : Prop :=
  ∃ cs above name vol, d.route path raw = some (cs, above, name) ∧ d.find name = some vol ∧ vol.isAssembly = false ∧
    d.solids vol.solidRef = some s.shape ∧ d.density vol.materialRef = some s.density ∧
    mat vol.materialRef = some s.materialId ∧ (s.name = vol.name ∨ ∃ k : Nat, s.name = vol.name ++ "_" ++ toString k) ∧
    s.placement = cs.foldl childPlacement P

theorem solid_cons {d : Data S} {raw : String} {vol : Volume} (hv : d.find (d.canonical raw) = some vol) (i : Nat)
    (path : List Nat) : d.Solid raw (i :: path) ↔ ∃ c, vol.children[i]? = some c ∧ d.Solid c.ref path := by
  constructor
  · rintro ⟨cs, above, name, v, hr, h⟩
    obtain ⟨c, cs', above', hi, hr', -, -⟩ := (route_cons hv i path cs above name).1 hr
    exact ⟨c, hi, cs', above', name, v, hr', h⟩
  · rintro ⟨c, hi, cs, above, name, v, hr, h⟩
    exact ⟨c :: cs, d.canonical raw :: above, name, v, (route_cons hv i path _ _ _).2 ⟨c, cs, above, hi, hr, rfl, rfl⟩, h⟩

theorem describes_cons {d : Data S} {mat : String → Option Int} {raw : String} {vol : Volume}
    (hv : d.find (d.canonical raw) = some vol) {i : Nat} {c : PhysVol} (hi : vol.children[i]? = some c) {P : Placement}
    {path : List Nat} {s : GSector S} (h : Describes d mat c.ref (childPlacement P c) path s) :
    Describes d mat raw P (i :: path) s := by
  obtain ⟨cs, above, name, v, hr, h⟩ := h
  exact ⟨c :: cs, d.canonical raw :: above, name, v, (route_cons hv i path _ _ _).2 ⟨c, cs, above, hi, hr, rfl, rfl⟩, h⟩

/-- What importing below a reference does. -/
def Builds (d : Data S) (mat : String → Option Int) (raw : String) (P : Placement) (st : State S)
    (r : Option (Res (State S))) : Prop :=
  (GoodBelow d mat st.visited raw → ∃ st' new paths, r = some (.ok st') ∧ st'.visited = st.visited ∧ Grow st st' new ∧
    List.Forall₂ (Describes d mat raw P) paths new ∧ paths.Pairwise (· < ·) ∧ ∀ p, p ∈ paths ↔ d.Solid raw p) ∧
  (¬ GoodBelow d mat st.visited raw → r = some (.throws .runtimeError))

theorem buildList_spec (d : Data S) (mat : String → Option Int) (P : Placement)
    (f : PhysVol → State S → Option (Res (State S)))
    (children : List PhysVol) (k : Nat) (st : State S) (hinv : Inv st)
    (hf : ∀ c ∈ children, ∀ st' : State S, st'.visited = st.visited → Inv st' →
      Builds d mat c.ref (childPlacement P c) st' (f c st')) :
    ((∀ c ∈ children, GoodBelow d mat st.visited c.ref) → ∃ st' new paths, buildList f children st = some (.ok st') ∧
      st'.visited = st.visited ∧ Grow st st' new ∧
      List.Forall₂ (fun p s => ∃ i c q, p = (k + i) :: q ∧ children[i]? = some c ∧
        Describes d mat c.ref (childPlacement P c) q s) paths new ∧
      paths.Pairwise (· < ·) ∧ ∀ p, p ∈ paths ↔ ∃ i c q, p = (k + i) :: q ∧ children[i]? = some c ∧ d.Solid c.ref q) ∧
    (¬ (∀ c ∈ children, GoodBelow d mat st.visited c.ref) → buildList f children st = some (.throws .runtimeError)) := by
  induction children generalizing k st with
  | nil =>
    refine ⟨fun _ => ⟨st, [], [], rfl, rfl, Grow.refl hinv, .nil, .nil, by simp⟩, fun h => ?_⟩
    exact absurd (by simp) h
  | cons c cs ih =>
    obtain ⟨hgood, hbad⟩ := hf c (by simp) st rfl hinv
    by_cases hg : GoodBelow d mat st.visited c.ref
    · obtain ⟨st1, new1, paths1, hr1, hv1, hgrow1, hd1, hp1, hm1⟩ := hgood hg
      obtain ⟨hgood2, hbad2⟩ := ih (k + 1) st1 hgrow1.inv (fun c' hc' st' hst' hi' =>
        hf c' (by simp [hc']) st' (by rw [hst', hv1]) hi')
      have hstep : buildList f (c :: cs) st = buildList f cs st1 := by simp only [buildList, hr1]
      constructor
      · intro hall
        obtain ⟨st2, new2, paths2, hr2, hv2, hgrow2, hd2, hp2, hm2⟩ := hgood2 (fun c' hc' => by
          rw [hv1]; exact hall c' (by simp [hc']))
        refine ⟨st2, new1 ++ new2, paths1.map (fun q => k :: q) ++ paths2, by rw [hstep, hr2], by rw [hv2, hv1],
          hgrow1.trans hgrow2, ?_, ?_, ?_⟩
        · apply List.rel_append
          · rw [List.forall₂_map_left_iff]
            exact hd1.imp (fun q s h => ⟨0, c, q, by simp, by simp, h⟩)
          · exact hd2.imp (fun p s ⟨i, c', q, hp, hi, h⟩ => ⟨i + 1, c', q, by rw [hp]; congr 1; omega, by simpa using hi, h⟩)
        · rw [List.pairwise_append]
          refine ⟨?_, hp2, ?_⟩
          · rw [List.pairwise_map]
            exact hp1.imp (fun h => by simpa [List.cons_lt_cons_iff] using h)
          · intro a ha b hb
            obtain ⟨q, -, rfl⟩ := List.mem_map.1 ha
            obtain ⟨i, c', q', rfl, -, -⟩ := (hm2 b).1 hb
            rw [List.cons_lt_cons_iff]
            left; omega
        · intro p
          rw [List.mem_append, hm2]
          constructor
          · rintro (hp | ⟨i, c', q, rfl, hi, hs⟩)
            · obtain ⟨q, hq, rfl⟩ := List.mem_map.1 hp
              exact ⟨0, c, q, by simp, by simp, (hm1 q).1 hq⟩
            · exact ⟨i + 1, c', q, by congr 1; omega, by simpa using hi, hs⟩
          · rintro ⟨i, c', q, rfl, hi, hs⟩
            cases i with
            | zero =>
              simp only [List.getElem?_cons_zero, Option.some.injEq] at hi
              subst hi
              exact .inl (List.mem_map.2 ⟨q, (hm1 q).2 hs, by simp⟩)
            | succ i => exact .inr ⟨i, c', q, by congr 1; omega, by simpa using hi, hs⟩
      · intro hall
        rw [hstep]
        apply hbad2
        intro h
        apply hall
        intro c' hc'
        rcases List.mem_cons.1 hc' with rfl | hc'
        · exact hg
        · rw [← hv1]; exact h c' hc'
    · constructor
      · intro hall
        exact absurd (hall c (by simp)) hg
      · intro _
        simp only [buildList, hbad hg]

theorem unvisited_lt (volumes : List (String × Volume)) (visited : List String) (name : String) (vol : Volume)
    (h : volumes.lookup name = some vol) (hn : name ∉ visited) :
    (volumes.filter (fun e => decide (e.1 ∉ name :: visited))).length <
      (volumes.filter (fun e => decide (e.1 ∉ visited))).length := by
  have hmem : ∃ e ∈ volumes, e.1 = name := by
    induction volumes with
    | nil => simp at h
    | cons e es ih =>
      rw [List.lookup] at h
      split at h
      · rename_i he
        exact ⟨e, by simp, by simpa using (beq_iff_eq.1 he).symm⟩
      · obtain ⟨e', he', h'⟩ := ih h
        exact ⟨e', by simp [he'], h'⟩
  have e1 : volumes.filter (fun e => decide (e.1 ∉ name :: visited)) =
      (volumes.filter (fun e => decide (e.1 ∉ visited))).filter (fun e => decide (e.1 ≠ name)) := by
    rw [List.filter_filter]
    apply List.filter_congr
    intro e _
    simp
  rw [e1, List.length_filter_lt_length_iff_exists]
  obtain ⟨e, he, hname⟩ := hmem
  exact ⟨e, by simp [he, hname, hn], by simp [hname]⟩

/-- `BuildVolume` with enough fuel. -/
theorem buildVolume_spec (d : Data S) (mat : String → Option Int) (fuel : Nat) : ∀ (raw : String) (P : Placement) (st : State S),
    Inv st → (d.volumes.filter (fun e => decide (e.1 ∉ st.visited))).length < fuel →
    Builds d mat raw P st (buildVolume d mat fuel raw P st) := by
  induction fuel with
  | zero => intro _ _ _ _ h; omega
  | succ fuel ih =>
    intro raw P st hinv hfuel
    have hnil : d.route [] raw = some ([], [], d.canonical raw) := rfl
    by_cases hvis : d.canonical raw ∈ st.visited
    · have hbad : ¬ GoodBelow d mat st.visited raw := fun h => (h [] _ _ _ hnil).1 hvis
      refine ⟨fun h => absurd h hbad, fun _ => ?_⟩
      simp only [buildVolume]
      rw [if_pos (show (d.aliases raw).getD raw ∈ st.visited from hvis)]
    · cases hfind : d.find (d.canonical raw) with
      | none =>
        have hbad : ¬ GoodBelow d mat st.visited raw := fun h => by
          obtain ⟨-, -, v, hv, -⟩ := h [] _ _ _ hnil
          rw [hfind] at hv
          cases hv
        refine ⟨fun h => absurd h hbad, fun _ => ?_⟩
        simp only [buildVolume]
        rw [if_neg (show (d.aliases raw).getD raw ∉ st.visited from hvis)]
        have : d.find ((d.aliases raw).getD raw) = none := hfind
        simp only [this]
      | some vol =>
        rw [Builds, goodBelow_iff hfind hvis]
        set st0 : State S := { st with visited := d.canonical raw :: st.visited } with hst0
        have hinv0 : Inv st0 := ⟨hinv.names, hinv.levels⟩
        have hf : (d.volumes.filter (fun e => decide (e.1 ∉ st0.visited))).length < fuel := by
          have := unvisited_lt d.volumes st.visited (d.canonical raw) vol hfind hvis
          simp only [hst0]
          omega
        have hunfold : buildVolume d mat (fuel + 1) raw P st =
            match (if vol.isAssembly then some (.ok st0) else addOwn d mat vol P st0) with
            | some (.ok st1) =>
              match buildList (fun c st => buildVolume d mat fuel c.ref (childPlacement P c) st) vol.children st1 with
              | some (.ok st2) => some (.ok { st2 with visited := st2.visited.filter (fun n => decide (n ≠ d.canonical raw)) })
              | r => r
            | r => r := by
          simp only [buildVolume]
          rw [if_neg (show (d.aliases raw).getD raw ∉ st.visited from hvis)]
          have : d.find ((d.aliases raw).getD raw) = some vol := hfind
          simp only [this]
          rfl
        -- the children, once the volume's own sector is there
        have rest : ∀ st1 : State S, st1.visited = st0.visited → Inv st1 → ∀ own, Grow st0 st1 own →
            ∀ ownPaths, List.Forall₂ (Describes d mat raw P) ownPaths own → (∀ p, p ∈ ownPaths ↔ p = [] ∧ vol.isAssembly = false) →
            ownPaths.Pairwise (· < ·) →
            ((∀ (i : Nat) (c : PhysVol), vol.children[i]? = some c → GoodBelow d mat (d.canonical raw :: st.visited) c.ref) →
              ∃ st' new paths, (match buildList (fun c st => buildVolume d mat fuel c.ref (childPlacement P c) st) vol.children st1 with
                | some (.ok st2) => some (Res.ok { st2 with visited := st2.visited.filter (fun n => decide (n ≠ d.canonical raw)) })
                | r => r) = some (.ok st') ∧ st'.visited = st.visited ∧ Grow st st' new ∧
                List.Forall₂ (Describes d mat raw P) paths new ∧ paths.Pairwise (· < ·) ∧ ∀ p, p ∈ paths ↔ d.Solid raw p) ∧
            (¬ (∀ (i : Nat) (c : PhysVol), vol.children[i]? = some c → GoodBelow d mat (d.canonical raw :: st.visited) c.ref) →
              (match buildList (fun c st => buildVolume d mat fuel c.ref (childPlacement P c) st) vol.children st1 with
                | some (.ok st2) => some (Res.ok { st2 with visited := st2.visited.filter (fun n => decide (n ≠ d.canonical raw)) })
                | r => r) = some (.throws .runtimeError)) := by
          intro st1 hv1 hinv1 own hgrow1 ownPaths hown hownmem hownpw
          obtain ⟨hgood, hbad⟩ := buildList_spec d mat P (fun c st => buildVolume d mat fuel c.ref (childPlacement P c) st)
            vol.children 0 st1 hinv1 (fun c _ st' hst' hi' => ih c.ref (childPlacement P c) st' hi' (by rw [hst', hv1]; exact hf))
          have hiff : (∀ c ∈ vol.children, GoodBelow d mat st1.visited c.ref) ↔
              ∀ (i : Nat) (c : PhysVol), vol.children[i]? = some c → GoodBelow d mat (d.canonical raw :: st.visited) c.ref := by
            rw [hv1]
            constructor
            · intro h i c hi; exact h c (List.mem_of_getElem? hi)
            · intro h c hc
              obtain ⟨i, hi⟩ := List.mem_iff_getElem?.1 hc
              exact h i c hi
          constructor
          · intro hall
            obtain ⟨st2, new, paths, hr, hv2, hgrow2, hd2, hp2, hm2⟩ := hgood (hiff.2 hall)
            refine ⟨{ st2 with visited := st2.visited.filter (fun n => decide (n ≠ d.canonical raw)) }, own ++ new,
              ownPaths ++ paths, by simp only [hr], ?_, ?_, ?_, ?_, ?_⟩
            · simp only [hv2, hv1, hst0]
              rw [List.filter_cons_of_neg (by simp)]
              rw [List.filter_eq_self]
              intro n hn
              have : n ≠ d.canonical raw := fun e => hvis (e ▸ hn)
              simpa using this
            · have g := hgrow1.trans hgrow2
              exact ⟨g.sectors, g.level, g.levels, ⟨g.inv.names, g.inv.levels⟩⟩
            · apply List.rel_append hown
              exact hd2.imp (fun p s ⟨i, c, q, hp, hi, h⟩ => by
                rw [hp, Nat.zero_add]; exact describes_cons hfind hi h)
            · rw [List.pairwise_append]
              refine ⟨hownpw, hp2, ?_⟩
              intro a ha b hb
              obtain ⟨rfl, -⟩ := (hownmem a).1 ha
              obtain ⟨i, c, q, rfl, -, -⟩ := (hm2 b).1 hb
              exact List.nil_lt_cons _ _
            · intro p
              rw [List.mem_append, hownmem, hm2]
              cases p with
              | nil =>
                simp only [true_and, reduceCtorEq, false_and, exists_false, or_false]
                constructor
                · intro ha; exact ⟨_, _, _, vol, hnil, hfind, ha⟩
                · rintro ⟨cs, above, name, v, hr, hv, ha⟩
                  rw [hnil] at hr
                  simp only [Option.some.injEq, Prod.mk.injEq] at hr
                  obtain ⟨-, -, rfl⟩ := hr
                  rw [hfind] at hv
                  cases hv
                  exact ha
              | cons j q =>
                rw [solid_cons hfind]
                constructor
                · rintro (⟨h, -⟩ | ⟨i, c, q', h, hi, hs⟩)
                  · cases h
                  · rw [Nat.zero_add] at h
                    simp only [List.cons.injEq] at h
                    obtain ⟨rfl, rfl⟩ := h
                    exact ⟨c, hi, hs⟩
                · rintro ⟨c, hi, hs⟩
                  exact .inr ⟨j, c, q, by simp, hi, hs⟩
          · intro hall
            have hb := hbad (fun h => hall (hiff.1 h))
            simp only [hb]
        rw [hunfold]
        cases hasm : vol.isAssembly with
        | true =>
          simp only [if_true]
          obtain ⟨r1, r2⟩ := rest st0 rfl hinv0 [] (Grow.refl hinv0) [] .nil (by simp [hasm]) .nil
          refine ⟨fun h => r1 h.2, fun h => r2 (fun h' => h ⟨by simp, h'⟩)⟩
        | false =>
          simp only [Bool.false_eq_true, if_false]
          obtain ⟨o1, o2⟩ := addOwn_spec d mat vol P st0 hinv0
          by_cases hknown : (d.solids vol.solidRef).isSome ∧ (d.density vol.materialRef).isSome ∧ (mat vol.materialRef).isSome
          · obtain ⟨st1, s, hr, hv, hgrow, h1, h2, h3, h4, h5⟩ := o1 hknown
            rw [hr]
            simp only
            obtain ⟨r1, r2⟩ := rest st1 hv hgrow.inv [s] hgrow [[]]
              (.cons ⟨_, _, _, vol, hnil, hfind, hasm, h1, h2, h3, h4, h5⟩ .nil) (by simp [hasm]) (by simp)
            refine ⟨fun h => r1 h.2, fun h => r2 (fun h' => h ⟨fun _ => hknown, h'⟩)⟩
          · rw [o2 hknown]
            refine ⟨fun h => absurd (h.1 (by trivial)) hknown, fun _ => rfl⟩

/-! ### Placements -/

/-- Every rotation in the file is a proper one (`ReadPlacement` builds them from angles). -/
def Data.ProperRotations (d : Data S) : Prop :=
  ∀ name vol, d.find name = some vol → ∀ c ∈ vol.children, c.rotation.IsUnit

theorem normalize_of_unit {q : Quat} (h : q.IsUnit) : q.normalize = q := by
  unfold Quat.normalize
  rw [if_pos (show q.normSq = 1 from h)]

theorem childPlacement_valid {P : Placement} (hP : P.Valid) {c : PhysVol} (hc : c.rotation.IsUnit) : (childPlacement P c).Valid := by
  have : (P.quaternion.mul c.rotation.conj).IsUnit := Quat.IsUnit.mul hP hc.conj
  unfold childPlacement Placement.make Placement.Valid
  rw [normalize_of_unit this]
  exact this

theorem childPlacement_local {P : Placement} (hP : P.Valid) {c : PhysVol} (hc : c.rotation.IsUnit) (g : Vec3 ℝ) :
    (childPlacement P c).globalToLocalPosition g = c.rotation.rotate (P.globalToLocalPosition g - c.position) false := by
  have hq : (P.quaternion.mul c.rotation.conj).IsUnit := Quat.IsUnit.mul hP hc.conj
  unfold childPlacement Placement.make Placement.globalToLocalPosition Placement.localToGlobalPosition
  simp only [normalize_of_unit hq]
  have hrot := Quat.C43_is_rotation hP true
  -- rotating back by a product
  have back : ∀ v, (P.quaternion.mul c.rotation.conj).rotate v true = c.rotation.rotate (P.quaternion.rotate v true) false := by
    intro v
    have e1 : v = (P.quaternion.mul c.rotation.conj).rotate (c.rotation.rotate (P.quaternion.rotate v true) false) false := by
      rw [Quat.C43_product hP hc.conj]
      have : ∀ u, c.rotation.conj.rotate u false = c.rotation.rotate u true := by
        intro u
        rw [Quat.rotate_unit hc.conj, Quat.rotate_unit hc]
        rfl
      rw [this, (Quat.C43_inverse hc _).1, (Quat.C43_inverse hP _).2]
    conv_lhs => rw [e1]
    rw [(Quat.C43_inverse hq _).1]
  rw [back]
  congr 1
  have e2 : g - (P.quaternion.rotate c.position false + P.position) =
      (g - P.position) + Vec3.smul (-1) (P.quaternion.rotate c.position false) := by ext <;> simp <;> ring
  have h1 := hrot.add (g - P.position) (Vec3.smul (-1) (P.quaternion.rotate c.position false))
  have h2 := hrot.smul (-1) (P.quaternion.rotate c.position false)
  have h3 := (Quat.C43_inverse hP c.position).1
  rw [e2]
  refine h1.trans ?_
  rw [h2, h3]
  ext <;> simp <;> ring

theorem route_proper {d : Data S} (hd : d.ProperRotations) (path : List Nat) : ∀ (raw : String) (cs : List PhysVol)
    (above : List String) (name : String), d.route path raw = some (cs, above, name) → ∀ c ∈ cs, c.rotation.IsUnit := by
  induction path with
  | nil =>
    intro raw cs above name h
    simp only [Data.route, Option.some.injEq, Prod.mk.injEq] at h
    obtain ⟨rfl, -, -⟩ := h
    simp
  | cons i path ih =>
    intro raw cs above name h
    cases hv : d.find (d.canonical raw) with
    | none => rw [route_cons_none hv] at h; cases h
    | some vol =>
      obtain ⟨c, cs', above', hi, hr, rfl, -⟩ := (route_cons hv i path cs above name).1 h
      intro c' hc'
      rcases List.mem_cons.1 hc' with rfl | hc'
      · exact hd _ vol hv _ (List.mem_of_getElem? hi)
      · exact ih _ _ _ _ hr c' hc'

theorem foldl_local (cs : List PhysVol) (h : ∀ c ∈ cs, c.rotation.IsUnit) : ∀ (P : Placement), P.Valid → ∀ g,
    (cs.foldl childPlacement P).globalToLocalPosition g = localPoint cs (P.globalToLocalPosition g) := by
  induction cs with
  | nil => intro P _ g; rfl
  | cons c cs ih =>
    intro P hP g
    simp only [List.foldl_cons, localPoint]
    rw [ih (fun c' hc' => h c' (by simp [hc'])) _ (childPlacement_valid hP (h c (by simp))), childPlacement_local hP (h c (by simp))]
    rfl

theorem translation_local (g : Vec3 ℝ) : (Placement.translation 0).globalToLocalPosition g = g := by
  unfold Placement.globalToLocalPosition Placement.translation
  have hu : Quat.one.IsUnit := by simp [Quat.IsUnit, Quat.one, Quat.normSq]
  rw [Quat.rotate_unit hu]
  ext <;> simp [Quat.one, Quat.sandwich, Quat.conj]

/-! ### The claims -/

/-- **C29, faults are reported.** If anything is wrong with a volume that can be reached from the world volume (a volume inside
itself, a missing volume, solid or material), the import ends with an exception. -/
theorem C29_faults (d : Data S) (mat : String → Option Int) (all : GSector S) (hall : all.level < 0) (fuel : Nat)
    (hfuel : d.volumes.length < fuel) (hw : d.world ≠ "") (hbad : ¬ d.Good mat d.world) :
    load d mat all fuel = some (.throws .runtimeError) := by
  have h := (buildVolume_spec d mat fuel d.world (Placement.translation 0) ⟨[all], 0, []⟩ ⟨by simp, by simpa using hall⟩
    (lt_of_le_of_lt (List.length_filter_le _ _) hfuel)).2 (by
      intro h
      apply hbad
      intro path cs above name hr
      exact (h path cs above name hr).2)
  unfold load
  rw [if_neg hw, h]

/-- **C29, import.** Otherwise the import succeeds, in a number of nested calls bounded by the number of volumes, and turns the
placed volumes that are not assemblies into sectors one to one: the sectors after the all-enclosing one belong, in the order of the
file (each volume before what it contains), to the paths leading to such volumes. Levels count up from 0 in this order, names are
unique, and each sector has the shape, material and density of its volume and the composed placement of its path. -/
theorem C29_import (d : Data S) (mat : String → Option Int) (all : GSector S) (hall : all.level < 0) (fuel : Nat)
    (hfuel : d.volumes.length < fuel) (hw : d.world ≠ "") (hgood : d.Good mat d.world) (hrot : d.ProperRotations) :
    ∃ (new : List (GSector S)) (paths : List (List Nat)), load d mat all fuel = some (.ok (all :: new)) ∧
      List.Forall₂ (d.Imports mat d.world) paths new ∧
      paths.Pairwise (· < ·) ∧ (∀ p, p ∈ paths ↔ d.Solid d.world p) ∧
      (∀ (i : Nat) (s : GSector S), new[i]? = some s → s.level = i) ∧ ((all :: new).map GSector.name).Nodup := by
  obtain ⟨st', new, paths, hr, -, hgrow, hd, hp, hm⟩ :=
    (buildVolume_spec d mat fuel d.world (Placement.translation 0) ⟨[all], 0, []⟩ ⟨by simp, by simpa using hall⟩
    (lt_of_le_of_lt (List.length_filter_le _ _) hfuel)).1 (fun path cs above name hr => ⟨by simp, hgood path cs above name hr⟩)
  refine ⟨new, paths, ?_, ?_, hp, hm, ?_, ?_⟩
  · unfold load
    rw [if_neg hw, hr]
    have := hgrow.sectors
    simp only at this ⊢
    rw [this]
    rfl
  · refine hd.imp ?_
    rintro p s ⟨cs, above, name, vol, h1, h2, h3, h4, h5, h6, h7, h8⟩
    refine ⟨cs, above, name, vol, h1, h2, h3, h4, h5, h6, h7, fun g => ?_⟩
    rw [h8, foldl_local cs (route_proper hrot _ _ _ _ _ h1) _ (Placement.translation_valid 0), translation_local]
  · intro i s hs
    have := hgrow.levels i s hs
    simpa using this
  · have h1 := hgrow.inv.names
    have h2 := hgrow.sectors
    rw [h2] at h1
    exact h1

/-- **C29, order.** A volume inside another has a higher level: its path continues that of the other, and longer paths come later. -/
theorem C29_inside_is_higher (paths : List (List Nat)) (h : paths.Pairwise (· < ·)) (i j : Nat) (p q : List Nat)
    (hi : paths[i]? = some p) (hj : paths[j]? = some (p ++ q)) (hq : q ≠ []) : i < j := by
  have hlt : ∀ (p : List Nat) q, q ≠ [] → p < p ++ q := by
    intro p
    induction p with
    | nil => intro q hq; cases q with
      | nil => exact absurd rfl hq
      | cons a l => exact List.nil_lt_cons _ _
    | cons a l ih => intro q hq; simpa [List.cons_lt_cons_iff] using ih q hq
  obtain ⟨hi1, hi2⟩ := List.getElem?_eq_some_iff.1 hi
  obtain ⟨hj1, hj2⟩ := List.getElem?_eq_some_iff.1 hj
  rcases lt_trichotomy i j with h' | h' | h'
  · exact h'
  · subst h'
    rw [hi2] at hj2
    have : p.length = (p ++ q).length := by rw [← hj2]
    rw [List.length_append] at this
    exact absurd (List.length_eq_zero_iff.1 (by omega)) hq
  · have h1 := List.pairwise_iff_getElem.1 h j i hj1 hi1 h'
    rw [hi2, hj2] at h1
    exact absurd h1 (lt_asymm (hlt p q hq))

/-! ### A file -/

/-- A hall with two copies of an assembly, turned against each other, of a tank and a second tank below an alias. -/
def hall : Data Nat where
  volumes := [("hall", ⟨"hall", "box", "air", false, [⟨"pair", ⟨1, 0, 0⟩, ⟨0, 0, 1, 0⟩⟩, ⟨"pair", ⟨-1, 0, 0⟩, Quat.one⟩]⟩),
    ("pair", ⟨"pair", "", "", true, [⟨"tank", ⟨0, 1, 0⟩, Quat.one⟩, ⟨"tank0x1", ⟨0, -1, 0⟩, Quat.one⟩]⟩),
    ("tank", ⟨"tank", "tube", "water", false, []⟩)]
  aliases := fun n => if n = "tank0x1" then some "tank" else none
  solids := fun n => if n = "box" then some 1 else if n = "tube" then some 2 else none
  density := fun n => if n = "air" then some 0.001 else if n = "water" then some 1 else none
  world := "hall"

def hallMaterials : String → Option Int := fun n => if n = "air" then some 0 else if n = "water" then some 1 else none

theorem hall_find_hall : hall.find (hall.canonical "hall") =
    some ⟨"hall", "box", "air", false, [⟨"pair", ⟨1, 0, 0⟩, ⟨0, 0, 1, 0⟩⟩, ⟨"pair", ⟨-1, 0, 0⟩, Quat.one⟩]⟩ := rfl
theorem hall_find_pair : hall.find (hall.canonical "pair") =
    some ⟨"pair", "", "", true, [⟨"tank", ⟨0, 1, 0⟩, Quat.one⟩, ⟨"tank0x1", ⟨0, -1, 0⟩, Quat.one⟩]⟩ := rfl
theorem hall_find_tank : hall.find (hall.canonical "tank") = some ⟨"tank", "tube", "water", false, []⟩ := rfl
theorem hall_find_alias : hall.find (hall.canonical "tank0x1") = some ⟨"tank", "tube", "water", false, []⟩ := rfl

theorem hall_good : hall.Good hallMaterials hall.world := by
  have hc1 : hall.canonical "hall" = "hall" := rfl
  have hc2 : hall.canonical "pair" = "pair" := rfl
  have hc3 : hall.canonical "tank" = "tank" := rfl
  have hc4 : hall.canonical "tank0x1" = "tank" := rfl
  have h1 : GoodBelow hall hallMaterials ["pair", "hall"] "tank" :=
    (goodBelow_iff hall_find_tank (by rw [hc3]; decide)).2 ⟨fun _ => ⟨rfl, rfl, rfl⟩, by simp⟩
  have h2 : GoodBelow hall hallMaterials ["pair", "hall"] "tank0x1" :=
    (goodBelow_iff hall_find_alias (by rw [hc4]; decide)).2 ⟨fun _ => ⟨rfl, rfl, rfl⟩, by simp⟩
  have h3 : GoodBelow hall hallMaterials ["hall"] "pair" := by
    refine (goodBelow_iff hall_find_pair (by rw [hc2]; decide)).2 ⟨by simp, ?_⟩
    rw [hc2]
    intro i c hi
    match i with
    | 0 => simp at hi; subst hi; exact h1
    | 1 => simp at hi; subst hi; exact h2
    | n + 2 => simp at hi
  have h4 : GoodBelow hall hallMaterials [] "hall" := by
    refine (goodBelow_iff hall_find_hall (by simp)).2 ⟨fun _ => ⟨rfl, rfl, rfl⟩, ?_⟩
    rw [hc1]
    intro i c hi
    match i with
    | 0 => simp at hi; subst hi; exact h3
    | 1 => simp at hi; subst hi; exact h3
    | n + 2 => simp at hi
  exact fun path cs above name hr => (h4 path cs above name hr).2

theorem hall_proper : hall.ProperRotations := by
  have hone : Quat.one.IsUnit := by simp [Quat.IsUnit, Quat.one, Quat.normSq]
  have hturn : (⟨0, 0, 1, 0⟩ : Quat).IsUnit := by simp [Quat.IsUnit, Quat.normSq]
  intro name vol hv c hc
  simp only [Data.find, hall, List.lookup] at hv
  split at hv
  · cases hv
    simp at hc
    rcases hc with rfl | rfl
    · exact hturn
    · exact hone
  · split at hv
    · cases hv
      simp at hc
      rcases hc with rfl | rfl <;> exact hone
    · split at hv
      · cases hv; simp at hc
      · cases hv

/-- The hall meets all hypotheses, and at least the hall and the four tanks come out of it. -/
example : ∃ all new, load hall hallMaterials all 4 = some (.ok (all :: new)) ∧ 5 ≤ new.length := by
  obtain ⟨new, paths, h1, h2, h3, h4, h5, -⟩ := C29_import hall hallMaterials
    ⟨"UNIVERSE", -2147483648, 0, Placement.translation 0, 0, 0⟩ (by norm_num) 4 (by simp [hall]) (by simp [hall]) hall_good hall_proper
  refine ⟨_, new, h1, ?_⟩
  have hs0 : hall.Solid hall.world [] := ⟨_, _, _, _, rfl, hall_find_hall, rfl⟩
  have hs1 : hall.Solid hall.world [0, 0] := ⟨_, _, _, _, rfl, hall_find_tank, rfl⟩
  have hs2 : hall.Solid hall.world [0, 1] := ⟨_, _, _, _, rfl, hall_find_alias, rfl⟩
  have hs3 : hall.Solid hall.world [1, 0] := ⟨_, _, _, _, rfl, hall_find_tank, rfl⟩
  have hs4 : hall.Solid hall.world [1, 1] := ⟨_, _, _, _, rfl, hall_find_alias, rfl⟩
  have hnd : ([[], [0, 0], [0, 1], [1, 0], [1, 1]] : List (List Nat)).Nodup := by decide
  have hsub : ([[], [0, 0], [0, 1], [1, 0], [1, 1]] : List (List Nat)) ⊆ paths := by
    intro p hp
    rw [h4]
    simp only [List.mem_cons, List.not_mem_nil, or_false] at hp
    rcases hp with rfl | rfl | rfl | rfl | rfl <;> assumption
  have := (List.subperm_of_subset hnd hsub).length_le
  rw [h2.length_eq] at this
  exact this

/-- A hall inside itself is refused. -/
example : load { hall with volumes := [("hall", ⟨"hall", "box", "air", false, [⟨"hall", 0, Quat.one⟩]⟩)] } hallMaterials
    ⟨"UNIVERSE", -2147483648, 0, Placement.translation 0, 0, 0⟩ 2 = some (.throws .runtimeError) := by
  apply C29_faults _ _ _ (by norm_num) _ (by simp) (by simp [hall])
  intro h
  exact (h [0] _ _ _ rfl).1 (by simp [Data.canonical, hall])

end Siren.Gdml
