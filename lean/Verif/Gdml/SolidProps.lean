import Verif.Gdml.SolidModel
import Verif.Gdml.NameProps
import Mathlib.Data.List.Nodup

set_option autoImplicit false

/-! # C115: every boolean solid whose operands are defined is built, in whatever order the file defines them -/

namespace Siren.Gdml.Solids

open Siren Siren.Gdml.Names

variable {G : Type} {on : Bool} {eq : G → G → Bool}

/-! ## Specification -/

/-- `g` is the solid that the file describes under the name `n`: a primitive solid, or a boolean of two solids that the file describes,
anywhere in the file. A boolean that needs itself describes nothing. -/
inductive Means (on : Bool) (items : List (Item G)) : Name → G → Prop
  | prim {o : Name} {g : G} : Item.prim o (some g) ∈ items → Means on items (strip on o) g
  | bool {o a b : Name} {f : G → G → G} {ga gb : G} : Item.bool o a b f ∈ items → Means on items (strip on a) ga →
      Means on items (strip on b) gb → Means on items (strip on o) (f ga gb)

/-- No name (without pointer suffix) is defined twice. -/
def Distinct (on : Bool) (items : List (Item G)) : Prop := (items.map fun x => strip on x.name).Nodup

/-- The aliases of earlier sections: a name leads to itself without suffix, or to a numbered version of this. -/
def Tame (on : Bool) (aliases : Name → Option Name) : Prop :=
  ∀ o t p, aliases o = some t → parseFlat t = some p → p.1 = strip on o

/-! ## Facts about the specification -/

theorem same_item {items : List (Item G)} (hd : Distinct on items) {x y : Item G} (hx : x ∈ items) (hy : y ∈ items)
    (h : strip on x.name = strip on y.name) : x = y := List.inj_on_of_nodup_map hd hx hy h

theorem Means.unique {items : List (Item G)} (hd : Distinct on items) {n : Name} {g : G} (h : Means on items n g) :
    ∀ {n' : Name} {g' : G}, Means on items n' g' → n = n' → g = g' := by
  induction h with
  | @prim o g hm =>
    intro n' g' h' hn
    cases h' with
    | prim hm' =>
      have := same_item hd hm hm' hn
      simp only [Item.prim.injEq, Option.some.injEq] at this
      exact this.2
    | bool hm' _ _ => exact absurd (same_item hd hm hm' hn) (by simp)
  | @bool o a b f ga gb hm _ _ iha ihb =>
    intro n' g' h' hn
    cases h' with
    | prim hm' => exact absurd (same_item hd hm hm' hn) (by simp)
    | bool hm' ha' hb' =>
      have := same_item hd hm hm' hn
      simp only [Item.bool.injEq] at this
      obtain ⟨-, rfl, rfl, rfl⟩ := this
      rw [iha ha' rfl, ihb hb' rfl]

theorem Means.item {items : List (Item G)} {n : Name} {g : G} (h : Means on items n g) : ∃ x ∈ items, strip on x.name = n := by
  cases h with
  | prim h => exact ⟨_, h, rfl⟩
  | bool h _ _ => exact ⟨_, h, rfl⟩

/-! ## The tracker -/

/-- What holds of the tracker throughout. -/
structure Fine (on : Bool) (items : List (Item G)) (s : State G) : Prop where
  one : ∀ n, (s.instances n).length ≤ 1
  sound : ∀ n g, g ∈ s.instances n → Means on items n g
  tame : Tame on s.aliases
  nodup : s.keys.Nodup
  keys : ∀ n, n ∈ s.keys ↔ s.instances n ≠ []

theorem Fine.cases {items : List (Item G)} {s : State G} (h : Fine on items s) (n : Name) : s.instances n = [] ∨ ∃ g, s.instances n = [g] := by
  have := h.one n
  cases hs : s.instances n with
  | nil => exact .inl rfl
  | cons a l =>
    rw [hs] at this
    cases l with
    | nil => exact .inr ⟨a, rfl⟩
    | cons _ _ => simp at this

theorem Fine.lookup {items : List (Item G)} {s : State G} (h : Fine on items s) (o : Name) :
    Names.lookup on s o = (s.instances (strip on o)).head? := by
  unfold Names.lookup
  simp only
  have hlast : (s.instances (strip on o)).getLast? = (s.instances (strip on o)).head? := by
    rcases h.cases (strip on o) with e | ⟨g, e⟩ <;> rw [e] <;> rfl
  rw [hlast]
  cases ha : s.aliases o with
  | none => rfl
  | some t =>
    simp only
    cases hp : parseFlat t with
    | none => rfl
    | some p =>
      obtain ⟨n, i⟩ := p
      obtain rfl : n = strip on o := h.tame o t _ ha hp
      simp only
      rcases h.cases (strip on o) with e | ⟨g, e⟩ <;> rw [e]
      · rfl
      · cases i <;> rfl

theorem Fine.store {items : List (Item G)} {s : State G} (h : Fine on items s) {o : Name} {g : G} (he : s.instances (strip on o) = [])
    (hm : Means on items (strip on o) g) :
    Fine on items (store on eq s o g) ∧ ∀ k, (store on eq s o g).instances k = if k = strip on o then [g] else s.instances k := by
  have hi : ∀ k, (Names.store on eq s o g).instances k = if k = strip on o then [g] else s.instances k := by
    intro k; unfold Names.store; simp only; rw [he]; simp
  refine ⟨⟨fun n => ?_, fun n g' hg => ?_, ?_, ?_, fun n => ?_⟩, hi⟩
  · rw [hi]; split
    · simp
    · exact h.one n
  · rw [hi] at hg
    split at hg
    · rename_i e; rw [List.mem_singleton] at hg; rw [hg, e]; exact hm
    · exact h.sound n g' hg
  · intro o' t p ht hp
    unfold Names.store at ht
    simp only at ht
    rw [he] at ht
    simp only [List.getLast?_nil, Option.map_none, reduceCtorEq, if_false, List.length_nil] at ht
    split at ht
    · rename_i hne
      unfold put at ht
      split at ht
      · rename_i e
        simp only [Option.some.injEq] at ht
        rw [← ht, parse_flat (strip_ne_nil hne)] at hp
        simp only [Option.some.injEq] at hp
        rw [← hp, e]
      · exact h.tame o' t p ht hp
    · exact h.tame o' t p ht hp
  · unfold Names.store
    simp only
    rw [he]
    simp only [List.getLast?_nil, Option.map_none, reduceCtorEq, if_false]
    rw [if_neg (by rw [h.keys]; simp [he]), List.nodup_append]
    refine ⟨h.nodup, by simp, ?_⟩
    intro a ha b hb
    rw [List.mem_singleton] at hb
    rintro rfl
    exact (h.keys a).1 ha (hb ▸ he)
  · rw [hi]
    unfold Names.store
    simp only
    rw [he]
    simp only [List.getLast?_nil, Option.map_none, reduceCtorEq, if_false]
    rw [if_neg (by rw [h.keys]; simp [he]), List.mem_append, List.mem_singleton, h.keys]
    by_cases hn : n = strip on o
    · simp [hn]
    · simp [hn]

/-! ## Reading the sections -/

structure Read (on : Bool) (items pre : List (Item G)) (r : Reading G) : Prop where
  fine : Fine on items r.tracker
  known : ∀ n, r.tracker.instances n ≠ [] → ∃ x ∈ pre, strip on x.name = n
  prim : ∀ o g, Item.prim o (some g) ∈ pre → r.tracker.instances (strip on o) ≠ []
  bool : ∀ o a b f, Item.bool o a b f ∈ pre → r.tracker.instances (strip on o) ≠ [] ∨ ⟨o, strip on a, strip on b, 0, 0, f⟩ ∈ r.deferred
  deferred : ∀ w ∈ r.deferred, r.tracker.instances (strip on w.name) = [] ∧
    ∃ a b, Item.bool w.name a b w.build ∈ pre ∧ w = ⟨w.name, strip on a, strip on b, 0, 0, w.build⟩
  nodup : (r.deferred.map fun w => strip on w.name).Nodup

theorem read_stored {items pre post : List (Item G)} {x : Item G} (hitems : items = pre ++ x :: post) (hd : Distinct on items)
    {r : Reading G} (h : Read on items pre r) {g : G} (hm : Means on items (strip on x.name) g) :
    Read on items (pre ++ [x]) { r with tracker := store on eq r.tracker x.name g } := by
  have hnew : ∀ y ∈ pre, strip on y.name ≠ strip on x.name := by
    intro y hy e
    unfold Distinct at hd
    rw [hitems, List.map_append, List.map_cons, List.nodup_append] at hd
    exact hd.2.2 _ (List.mem_map_of_mem hy) _ (by simp) e
  have he : r.tracker.instances (strip on x.name) = [] := by
    by_contra hc
    obtain ⟨y, hy, e⟩ := h.known _ hc
    exact hnew y hy e
  obtain ⟨hf, hi⟩ := h.fine.store (eq := eq) he hm
  have hgrow : ∀ n, r.tracker.instances n ≠ [] → (store on eq r.tracker x.name g).instances n ≠ [] := by
    intro n hn; rw [hi]; split
    · simp
    · exact hn
  have hself : (store on eq r.tracker x.name g).instances (strip on x.name) ≠ [] := by rw [hi, if_pos rfl]; simp
  refine ⟨hf, fun n hn => ?_, fun o g' hp => ?_, fun o a b f hb => ?_, fun w hw => ?_, h.nodup⟩
  · rw [hi] at hn
    split at hn
    · rename_i e; exact ⟨x, by simp, e.symm⟩
    · obtain ⟨y, hy, e⟩ := h.known n hn
      exact ⟨y, by simp [hy], e⟩
  · rw [List.mem_append, List.mem_singleton] at hp
    rcases hp with hp | rfl
    · exact hgrow _ (h.prim o g' hp)
    · exact hself
  · rw [List.mem_append, List.mem_singleton] at hb
    rcases hb with hb | rfl
    · rcases h.bool o a b f hb with h' | h'
      · exact .inl (hgrow _ h')
      · exact .inr h'
    · exact .inl hself
  · obtain ⟨h1, a, b, h2, h3⟩ := h.deferred w hw
    refine ⟨?_, a, b, by simp [h2], h3⟩
    have hne : strip on w.name ≠ strip on x.name := hnew _ h2
    simp only
    rw [hi, if_neg hne]
    exact h1

theorem read_skipped {items pre : List (Item G)} {o : Name} {r : Reading G} (h : Read on items pre r) :
    Read on items (pre ++ [.prim o none]) r := by
  refine ⟨h.fine, fun n hn => ?_, fun o' g' hp => ?_, fun o' a b f hb => ?_, fun w hw => ?_, h.nodup⟩
  · obtain ⟨y, hy, e⟩ := h.known n hn
    exact ⟨y, by simp [hy], e⟩
  · exact h.prim o' g' (by simpa using hp)
  · exact h.bool o' a b f (by simpa using hb)
  · obtain ⟨h1, a, b, h2, h3⟩ := h.deferred w hw
    exact ⟨h1, a, b, by simp [h2], h3⟩

theorem read_deferred {items pre post : List (Item G)} {o a b : Name} {f : G → G → G} (hitems : items = pre ++ .bool o a b f :: post)
    (hd : Distinct on items) {r : Reading G} (h : Read on items pre r) :
    Read on items (pre ++ [.bool o a b f]) { r with deferred := r.deferred ++ [⟨o, strip on a, strip on b, 0, 0, f⟩] } := by
  have hnew : ∀ y ∈ pre, strip on y.name ≠ strip on o := by
    intro y hy e
    unfold Distinct at hd
    rw [hitems, List.map_append, List.map_cons, List.nodup_append] at hd
    exact hd.2.2 _ (List.mem_map_of_mem hy) _ (by simp [Item.name]) e
  refine ⟨h.fine, fun n hn => ?_, fun o' g' hp => ?_, fun o' a' b' f' hb => ?_, fun w hw => ?_, ?_⟩
  · obtain ⟨y, hy, e⟩ := h.known n hn
    exact ⟨y, by simp [hy], e⟩
  · exact h.prim o' g' (by simpa using hp)
  · rw [List.mem_append, List.mem_singleton] at hb
    rcases hb with hb | hb
    · rcases h.bool o' a' b' f' hb with h' | h'
      · exact .inl h'
      · exact .inr (by simp [h'])
    · simp only [Item.bool.injEq] at hb
      obtain ⟨rfl, rfl, rfl, rfl⟩ := hb
      exact .inr (by simp)
  · rw [List.mem_append, List.mem_singleton] at hw
    rcases hw with hw | rfl
    · obtain ⟨h1, a', b', h2, h3⟩ := h.deferred w hw
      exact ⟨h1, a', b', by simp [h2], h3⟩
    · refine ⟨?_, a, b, by simp, rfl⟩
      by_contra hc
      obtain ⟨y, hy, e⟩ := h.known _ hc
      exact hnew y hy e
  · rw [List.map_append, List.nodup_append]
    refine ⟨h.nodup, by simp, ?_⟩
    intro p hp q hq
    rw [List.mem_map] at hp
    obtain ⟨w, hw, rfl⟩ := hp
    simp only [List.map_cons, List.map_nil, List.mem_singleton] at hq
    obtain ⟨-, a', b', h2, -⟩ := h.deferred w hw
    rw [hq]
    exact hnew _ h2

theorem read_all {aliases : Name → Option Name} (ht : Tame on aliases) {items : List (Item G)} (hd : Distinct on items) :
    ∀ (pre post : List (Item G)), items = pre ++ post → Read on items pre (readAll on eq aliases pre) := by
  intro pre
  induction pre using List.reverseRecOn with
  | nil =>
    intro post _
    exact ⟨⟨by simp [readAll, fresh], by simp [readAll, fresh], ht, List.nodup_nil, by simp [readAll, fresh]⟩,
      by simp [readAll, fresh], by simp, by simp, by simp [readAll], by simp [readAll]⟩
  | append_singleton pre x ih =>
    intro post hi
    have hi' : items = pre ++ x :: post := by simpa using hi
    have h := ih (x :: post) hi'
    have hstep : readAll on eq aliases (pre ++ [x]) = Solids.read on eq (readAll on eq aliases pre) x := by
      rw [readAll, List.foldl_append]; rfl
    have hx : x ∈ items := by rw [hi']; simp
    rw [hstep]
    generalize readAll on eq aliases pre = r at h
    cases x with
    | prim o g =>
      cases g with
      | none => exact read_skipped h
      | some g => exact read_stored (x := .prim o (some g)) hi' hd h (.prim hx)
    | bool o a b f =>
      unfold Solids.read
      simp only
      rw [h.fine.lookup, h.fine.lookup]
      have hfirst := h.fine.cases (strip on a)
      have hsecond := h.fine.cases (strip on b)
      rcases hfirst with e1 | ⟨g1, e1⟩ <;> rcases hsecond with e2 | ⟨g2, e2⟩ <;> rw [e1, e2]
      · exact read_deferred hi' hd h
      · exact read_deferred hi' hd h
      · exact read_deferred hi' hd h
      · exact read_stored (x := .bool o a b f) hi' hd h
          (.bool hx (h.fine.sound _ _ (by rw [e1]; simp)) (h.fine.sound _ _ (by rw [e2]; simp)))

/-! ## The loop -/

structure Inv (on : Bool) (items : List (Item G)) (s : State G) (ws : List (Waiting G)) (w : Work G) : Prop where
  fine : Fine on items w.tracker
  grow : ∀ n, s.instances n ≠ [] → w.tracker.instances n ≠ []
  built : ∀ i ∈ w.built, ∀ d, ws[i]? = some d → w.tracker.instances (strip on d.name) ≠ []
  left : ∀ i d, ws[i]? = some d → i ∉ w.built → w.tracker.instances (strip on d.name) = []
  ready : ∀ i d, ws[i]? = some d → i ∉ w.built → complete w.tracker d = true → i ∈ w.ready

theorem avail_zero (s : State G) (n : Name) : avail s n 0 = true ↔ s.instances n ≠ [] := by
  rw [avail, decide_eq_true_eq, List.length_pos_iff]

theorem mem_dependents {s : State G} {ws : List (Waiting G)} {n : Name} {i : Nat} {d : Waiting G} (hi : ws[i]? = some d)
    (h : (avail s d.first d.i1 = false ∧ d.first = n) ∨ (avail s d.second d.i2 = false ∧ d.second = n)) : i ∈ dependents s ws n := by
  unfold dependents
  rw [List.mem_flatMap]
  refine ⟨(d, i), List.mem_zipIdx_iff_getElem?.2 hi, ?_⟩
  have hc : complete s d = false := by
    unfold complete
    rcases h with h | h <;> rw [h.1] <;> simp
  simp only
  rw [if_neg (by rw [hc]; simp)]
  rcases h with h | h
  · rw [if_pos h]; simp
  · rw [if_pos h]; simp

theorem inv_start {items : List (Item G)} {r : Reading G} (h : Read on items items r) : Inv on items r.tracker r.deferred (start r) := by
  refine ⟨h.fine, fun n hn => hn, fun i hi => by simp [start] at hi, fun i d hi _ => (h.deferred d (List.mem_of_getElem? hi)).1,
    fun i d hi _ hc => ?_⟩
  unfold start
  simp only [List.mem_reverse, List.mem_map, List.mem_filter]
  exact ⟨(d, i), ⟨List.mem_zipIdx_iff_getElem?.2 hi, hc⟩, rfl⟩

theorem inv_pop {items : List (Item G)} {s : State G} {ws : List (Waiting G)} {w : Work G} {idx : Nat} {ready : List Nat}
    (h : Inv on items s ws w) (hr : w.ready = idx :: ready) (hno : ∀ d, ws[idx]? = some d → idx ∉ w.built → complete w.tracker d = false) :
    Inv on items s ws { w with ready := ready } := by
  refine ⟨h.fine, h.grow, h.built, h.left, fun i d hi hb hc => ?_⟩
  have := h.ready i d hi hb hc
  rw [hr, List.mem_cons] at this
  rcases this with rfl | this
  · rw [hno d hi hb] at hc; cases hc
  · exact this

theorem inv_step {items : List (Item G)} {r : Reading G} (hread : Read on items items r) {w : Work G}
    (h : Inv on items r.tracker r.deferred w) :
    Inv on items r.tracker r.deferred (step on eq r.deferred (dependents r.tracker r.deferred) w) := by
  unfold step
  split
  · exact h
  · rename_i idx ready hr
    split
    · rename_i hb
      exact inv_pop h hr fun d _ hn => absurd hb hn
    · rename_i hb
      cases hd : r.deferred[idx]? with
      | none => exact inv_pop h hr fun d hd' => by rw [hd] at hd'; cases hd'
      | some d =>
        obtain ⟨he, a, b, hitem, hw⟩ := hread.deferred d (List.mem_of_getElem? hd)
        have hi1 : d.i1 = 0 := by rw [hw]
        have hi2 : d.i2 = 0 := by rw [hw]
        have hf : d.first = strip on a := by rw [hw]
        have hs : d.second = strip on b := by rw [hw]
        simp only
        rw [hi1, hi2]
        rcases h.fine.cases d.first with e1 | ⟨g1, e1⟩
        · rw [e1]
          refine inv_pop h hr fun d' hd' _ => ?_
          rw [hd, Option.some.injEq] at hd'
          subst hd'
          rw [complete, avail, hi1, e1]
          rfl
        · rcases h.fine.cases d.second with e2 | ⟨g2, e2⟩
          · rw [e1, e2]
            refine inv_pop h hr fun d' hd' _ => ?_
            rw [hd, Option.some.injEq] at hd'
            subst hd'
            rw [complete, Bool.and_eq_false_iff]
            right
            rw [avail, hi2, e2]
            rfl
          · rw [e1, e2]
            simp only [List.getElem?_cons_zero]
            have hm : Means on items (strip on d.name) (d.build g1 g2) :=
              .bool hitem (hf ▸ h.fine.sound _ _ (by rw [e1]; simp)) (hs ▸ h.fine.sound _ _ (by rw [e2]; simp))
            obtain ⟨hfine, hinst⟩ := h.fine.store (eq := eq) (h.left idx d hd hb) hm
            have hgrow : ∀ n, w.tracker.instances n ≠ [] → (Names.store on eq w.tracker d.name (d.build g1 g2)).instances n ≠ [] := by
              intro n hn; rw [hinst]; split
              · simp
              · exact hn
            refine ⟨hfine, fun n hn => hgrow n (h.grow n hn), fun i hi d' hd' => ?_, fun i d' hd' hi => ?_, fun i d' hd' hi hc => ?_⟩
            · simp only [List.mem_cons] at hi
              rcases hi with rfl | hi
              · rw [hd, Option.some.injEq] at hd'
                subst hd'
                simp only
                rw [hinst, if_pos rfl]
                simp
              · exact hgrow _ (h.built i hi d' hd')
            · simp only [List.mem_cons, not_or] at hi
              simp only
              rw [hinst, if_neg]
              · exact h.left i d' hd' hi.2
              · intro e
                have hnd := hread.nodup
                have h1 : (r.deferred.map fun w => strip on w.name)[i]? = some (strip on d'.name) := by simp [hd']
                have h2 : (r.deferred.map fun w => strip on w.name)[idx]? = some (strip on d.name) := by simp [hd]
                have hlt : i < (r.deferred.map fun w => strip on w.name).length := by
                  by_contra hlt
                  rw [List.getElem?_eq_none (by omega)] at h1
                  cases h1
                exact hi.1 ((List.getElem?_inj hlt hnd).1 (by rw [h1, h2, e]))
            · simp only at hi hc ⊢
              rw [List.mem_append, List.mem_reverse, List.mem_filter]
              by_cases hold : complete w.tracker d' = true
              · right
                have := h.ready i d' hd' (fun hb' => hi (by simp [hb'])) hold
                rw [hr, List.mem_cons] at this
                exact this.resolve_left fun e => hi (by simp [e])
              · left
                refine ⟨?_, ?_⟩
                · obtain ⟨-, a', b', -, hw'⟩ := hread.deferred d' (List.mem_of_getElem? hd')
                  have hi1' : d'.i1 = 0 := by rw [hw']
                  have hi2' : d'.i2 = 0 := by rw [hw']
                  apply mem_dependents hd'
                  rw [complete, hi1', hi2', Bool.and_eq_true, avail_zero, avail_zero] at hold hc
                  have key : ∀ n, w.tracker.instances n = [] → (Names.store on eq w.tracker d.name (d.build g1 g2)).instances n ≠ [] →
                      avail r.tracker n 0 = false ∧ n = strip on d.name := by
                    intro n hn hn'
                    refine ⟨?_, ?_⟩
                    · rw [Bool.eq_false_iff, ne_eq, avail_zero]
                      exact fun hc' => h.grow n hc' hn
                    · by_contra hne
                      rw [hinst, if_neg hne] at hn'
                      exact hn' hn
                  rw [hi1', hi2']
                  by_cases h1 : w.tracker.instances d'.first = []
                  · exact .inl (key _ h1 hc.1)
                  · have h2 : w.tracker.instances d'.second = [] := by
                      by_contra h2
                      exact hold ⟨h1, h2⟩
                    exact .inr (key _ h2 hc.2)
                · rw [Bool.and_eq_true, decide_eq_true_eq, hd']
                  exact ⟨hi, hc⟩

theorem inv_rounds {items : List (Item G)} {r : Reading G} (hread : Read on items items r) : ∀ (k : Nat) (w : Work G),
    Inv on items r.tracker r.deferred w → Inv on items r.tracker r.deferred (rounds on eq r.deferred (dependents r.tracker r.deferred) k w)
  | 0, _, h => h
  | k + 1, _, h => inv_rounds hread k _ (inv_step hread h)

/-! ## The loop ends -/

/-- Booleans that are not built yet. -/
def unbuilt (n : Nat) (built : List Nat) : Nat := ((List.range n).filter fun i => decide (i ∉ built)).length

theorem unbuilt_cons {n : Nat} {built : List Nat} {i : Nat} (hi : i < n) (hb : i ∉ built) : unbuilt n (i :: built) < unbuilt n built := by
  unfold unbuilt
  have hsub : ((List.range n).filter fun j => decide (j ∉ i :: built)) =
      ((List.range n).filter fun j => decide (j ∉ built)).filter fun j => decide (j ≠ i) := by
    rw [List.filter_filter]
    congr 1
    funext j
    simp [List.mem_cons, not_or]
  rw [hsub]
  apply List.length_filter_lt_length_iff_exists.2
  exact ⟨i, by simp [hi, hb], by simp⟩

theorem step_smaller (ws : List (Waiting G)) (dep : Name → List Nat) (w : Work G) (hr : w.ready ≠ []) :
    unbuilt ws.length (step on eq ws dep w).built < unbuilt ws.length w.built ∨
    ((step on eq ws dep w).built = w.built ∧ (step on eq ws dep w).ready.length < w.ready.length) := by
  unfold step
  split
  · rename_i h; exact absurd h hr
  · rename_i idx ready h
    split
    · right; rw [h]; simp
    · rename_i hb
      cases hd : ws[idx]? with
      | none => right; rw [h]; simp
      | some d =>
        simp only
        split
        · left
          apply unbuilt_cons _ hb
          by_contra hc
          rw [List.getElem?_eq_none (by omega)] at hd
          cases hd
        · right; rw [h]; simp

theorem ends (ws : List (Waiting G)) (dep : Name → List Nat) : ∀ (n m : Nat) (w : Work G), unbuilt ws.length w.built ≤ n → w.ready.length ≤ m →
    ∃ k, (rounds on eq ws dep k w).ready = [] := by
  intro n
  induction n with
  | zero =>
    intro m
    induction m with
    | zero => exact fun w _ hm => ⟨0, by simpa [rounds] using hm⟩
    | succ m ih =>
      intro w hn hm
      by_cases hr : w.ready = []
      · exact ⟨0, hr⟩
      · rcases step_smaller (on := on) (eq := eq) ws dep w hr with h | ⟨h1, h2⟩
        · omega
        · obtain ⟨k, hk⟩ := ih (step on eq ws dep w) (by rw [h1]; exact hn) (by omega)
          exact ⟨k + 1, hk⟩
  | succ n ihn =>
    intro m
    induction m with
    | zero => exact fun w _ hm => ⟨0, by simpa [rounds] using hm⟩
    | succ m ih =>
      intro w hn hm
      by_cases hr : w.ready = []
      · exact ⟨0, hr⟩
      · rcases step_smaller (on := on) (eq := eq) ws dep w hr with h | ⟨h1, h2⟩
        · obtain ⟨k, hk⟩ := ihn _ (step on eq ws dep w) (by omega) (Nat.le_refl _)
          exact ⟨k + 1, hk⟩
        · obtain ⟨k, hk⟩ := ih (step on eq ws dep w) (by rw [h1]; exact hn) (by omega)
          exact ⟨k + 1, hk⟩

/-- C115: for every file the reading of the solids ends. -/
theorem C115_ends (aliases : Name → Option Name) (items : List (Item G)) : ∃ k, (after on eq aliases items k).ready = [] :=
  ends _ _ _ _ _ (Nat.le_refl _) (Nat.le_refl _)

/-! ## Result -/

theorem built_iff {aliases : Name → Option Name} (ht : Tame on aliases) {items : List (Item G)} (hd : Distinct on items) {k : Nat}
    (hk : (after on eq aliases items k).ready = []) (n : Name) (g : G) :
    (after on eq aliases items k).tracker.instances n = [g] ↔ Means on items n g := by
  have hread := read_all (eq := eq) ht hd items [] (by simp)
  have hinv := inv_rounds (eq := eq) hread k _ (inv_start hread)
  change Inv on items _ _ (after on eq aliases items k) at hinv
  constructor
  · intro h
    exact hinv.fine.sound n g (by rw [h]; simp)
  · intro h
    have hne : (after on eq aliases items k).tracker.instances n ≠ [] := by
      induction h with
      | prim hm => exact hinv.grow _ (hread.prim _ _ hm)
      | @bool o a b f ga gb hm _ _ iha ihb =>
        rcases hread.bool _ _ _ _ hm with h' | h'
        · exact hinv.grow _ h'
        · obtain ⟨i, hi⟩ := List.getElem?_of_mem h'
          by_cases hb : i ∈ (after on eq aliases items k).built
          · exact hinv.built i hb _ hi
          · exfalso
            have := hinv.ready i _ hi hb (by rw [complete, Bool.and_eq_true, avail_zero, avail_zero]; exact ⟨iha, ihb⟩)
            rw [hk] at this
            cases this
    rcases hinv.fine.cases n with e | ⟨g', e⟩
    · exact absurd e hne
    · rw [e, (hinv.fine.sound n g' (by rw [e]; simp)).unique hd h rfl]

/-- C115: when it has ended, the solids of the model are exactly those that the file describes, in whatever order it defines them and
whatever the order in which hash maps are walked. -/
theorem C115_built {aliases : Name → Option Name} (ht : Tame on aliases) {items : List (Item G)} (hd : Distinct on items)
    (hp : ∀ x ∈ items, ∀ y ∈ items, ∀ i, strip on x.name ≠ flat (strip on y.name) i) {k : Nat}
    (hk : (after on eq aliases items k).ready = []) (o1 o2 : List Name) (h1 : o1.Perm (after on eq aliases items k).tracker.keys)
    (h2 : o2.Perm (sole (after on eq aliases items k).tracker)) {x : Item G} (hx : x ∈ items) (g : G) :
    (flatten (after on eq aliases items k).tracker o1 o2 fun _ => none).1 (strip on x.name) = some g ↔ Means on items (strip on x.name) g := by
  have hread := read_all (eq := eq) ht hd items [] (by simp)
  have hinv := inv_rounds (eq := eq) hread k _ (inv_start hread)
  change Inv on items _ _ (after on eq aliases items k) at hinv
  rw [← built_iff ht hd hk]
  generalize after on eq aliases items k = w at hinv h1 h2
  have hkeys : ∀ n ∈ w.tracker.keys, ∃ y ∈ items, strip on y.name = n := by
    intro n hn
    rw [hinv.fine.keys] at hn
    rcases hinv.fine.cases n with e | ⟨g', e⟩
    · exact absurd e hn
    · exact (hinv.fine.sound n g' (by rw [e]; simp)).item
  have hplain : ∀ n ∈ w.tracker.keys, ∀ m ∈ w.tracker.keys, ∀ i, n ≠ flat m i := by
    intro n hn m hm i
    obtain ⟨y, hy, rfl⟩ := hkeys n hn
    obtain ⟨z, hz, rfl⟩ := hkeys m hm
    exact hp y hy z hz i
  have hsole : ∀ m, m ∈ o2 ↔ m ∈ w.tracker.keys ∧ (w.tracker.instances m).length = 1 := by
    intro m; rw [h2.mem_iff, sole, List.mem_filter, decide_eq_true_eq]
  have hget : ∀ g', w.tracker.instances (strip on x.name) = [g'] →
      (flatten w.tracker o1 o2 fun _ => none).1 (strip on x.name) = some g' := by
    intro g' e
    have := flatten_get h1 h2 hinv.fine.nodup hinv.fine.keys hplain (fun _ => none) (n := strip on x.name) (i := 0) (y := g') (by rw [e]; rfl)
    rwa [unnumberAlias_sole] at this
    rw [hsole, hinv.fine.keys, e]
    simp
  rcases hinv.fine.cases (strip on x.name) with e | ⟨g', e⟩
  · rw [e]
    constructor
    · intro h
      exfalso
      have hnum := number_all w.tracker o1 (fun _ => none) ((h1.nodup_iff).2 hinv.fine.nodup)
      have hun := unnumber_all o2 (number w.tracker o1 fun _ => none) ((h2.nodup_iff).2 (hinv.fine.nodup.filter _))
        (fun a ha b hb => hplain a ((hsole a).1 ha).1 b ((hsole b).1 hb).1)
        (fun m hm => by
          obtain ⟨hm1, hm2⟩ := (hsole m).1 hm
          obtain ⟨z, hz⟩ := List.length_eq_one_iff.1 hm2
          exact ⟨z, hnum.1 m (h1.mem_iff.2 hm1) 0 z (by rw [hz]; rfl)⟩)
      have hflat : ∀ m ∈ w.tracker.keys, ∀ i, strip on x.name ≠ flat m i := by
        intro m hm i
        obtain ⟨y, hy, rfl⟩ := hkeys m hm
        exact hp x hx y hy i
      have hnone : unnumber o2 (number w.tracker o1 fun _ => none) (strip on x.name) = none := by
        rw [hun.2 _ (fun hm => by
          have := ((hsole _).1 hm).1
          rw [hinv.fine.keys] at this
          exact this e) (fun m hm => hflat m ((hsole m).1 hm).1 0)]
        exact hnum.2 _ fun m hm i _ => hflat m (h1.mem_iff.1 hm) i
      have h' : unnumber o2 (number w.tracker o1 fun _ => none) (strip on x.name) = some g := h
      rw [hnone] at h'
      cases h'
    · intro h; cases h
  · rw [hget g' e, e]
    simp

/-- C115: and the warnings name exactly the booleans that describe nothing: an operand, or an operand of an operand, is not defined or is
the boolean itself. -/
theorem C115_warned {aliases : Name → Option Name} (ht : Tame on aliases) {items : List (Item G)} (hd : Distinct on items) {k : Nat}
    (hk : (after on eq aliases items k).ready = []) {o a b : Name} {f : G → G → G} (hm : Item.bool o a b f ∈ items) :
    o ∈ warned (readAll on eq aliases items).deferred (after on eq aliases items k).built ↔ ¬∃ g, Means on items (strip on o) g := by
  have hread := read_all (eq := eq) ht hd items [] (by simp)
  have hinv := inv_rounds (eq := eq) hread k _ (inv_start hread)
  change Inv on items _ _ (after on eq aliases items k) at hinv
  unfold warned
  simp only [List.mem_map, List.mem_filter, decide_eq_true_eq, List.mem_zipIdx_iff_getElem?]
  constructor
  · rintro ⟨⟨d, i⟩, ⟨hi, hb⟩, rfl⟩ ⟨g, hg⟩
    have := (built_iff ht hd hk _ _).2 hg
    rw [hinv.left i d hi hb] at this
    cases this
  · intro hno
    have he : (after on eq aliases items k).tracker.instances (strip on o) = [] := by
      rcases hinv.fine.cases (strip on o) with e | ⟨g, e⟩
      · exact e
      · exact absurd ⟨g, hinv.fine.sound _ g (by rw [e]; simp)⟩ hno
    rcases hread.bool o a b f hm with h' | h'
    · exact absurd he (hinv.grow _ h')
    · obtain ⟨i, hi⟩ := List.getElem?_of_mem h'
      exact ⟨(_, i), ⟨hi, fun hb => hinv.built i hb _ hi he⟩, rfl⟩

/-! ## The hypothesis on the aliases is met by what the materials leave behind -/

theorem tame_section {T : Type} {eqT : T → T → Bool} (defs : List (Name × T)) (hp : ∀ p ∈ defs, parseFlat (strip on p.1) = none)
    (o1 o2 : List Name) (dest : Name → Option T) : Tame on (flatten (storeAll on eqT (fresh fun _ => none) defs) o1 o2 dest).2 := by
  have key : ∀ defs : List (Name × T), ∀ o t, (storeAll on eqT (fresh fun _ => none) defs).aliases o = some t →
      (∃ p ∈ defs, p.1 = o) ∧ strip on o ≠ o ∧ ∃ j, t = flat (strip on o) j := by
    intro defs
    induction defs using List.reverseRecOn with
    | nil => intro o t h; cases h
    | append_singleton defs p ih =>
      intro o t h
      rw [storeAll_snoc] at h
      obtain ⟨-, -, -, h5⟩ := store_instances (on := on) (eq := eqT) (storeAll on eqT (fresh fun _ => none) defs) p.1 p.2
      rw [h5] at h
      split at h
      · rename_i hc
        obtain ⟨rfl, hc⟩ := hc
        exact ⟨⟨p, by simp, rfl⟩, hc, _, (Option.some.inj h).symm⟩
      · obtain ⟨⟨q, hq, e⟩, h'⟩ := ih o t h
        exact ⟨⟨q, by simp [hq], e⟩, h'⟩
  intro o t p ht hpt
  rw [flatten_alias, Option.map_eq_some_iff] at ht
  obtain ⟨t', ht', rfl⟩ := ht
  obtain ⟨⟨q, hq, rfl⟩, hne, j, rfl⟩ := key defs o t' ht'
  by_cases hs : strip on q.1 ∈ o2 ∧ j = 0
  · rw [hs.2, unnumberAlias_sole hs.1, hp q hq] at hpt
    cases hpt
  · have hno : ∀ n ∈ o2, flat (strip on q.1) j ≠ flat n 0 := by
      intro n hn' e
      have := flat_inj e
      exact hs ⟨this.1 ▸ hn', this.2⟩
    rw [unnumberAlias_other hno, parse_flat (strip_ne_nil hne)] at hpt
    rw [← Option.some.inj hpt]

/-! ## Failures -/

/-- C115 fails for names with several definitions: a boolean written before its operands takes the first definition of a name even when it
refers to the second by its pointer suffix. -/
theorem C115_forward_fails : ∃ (items : List (Item Nat)) (k : Nat), Item.bool "U".toList "A0x2222222".toList "B".toList (fun a b => 10 * a + b) ∈ items ∧
    Item.prim "A0x2222222".toList (some 2) ∈ items ∧ Item.prim "B".toList (some 3) ∈ items ∧
    (after true (· == ·) (fun _ => none) items k).ready = [] ∧
    (after true (· == ·) (fun _ => none) items k).tracker.instances "U".toList = [13] := by
  refine ⟨[.bool "U".toList "A0x2222222".toList "B".toList (fun a b => 10 * a + b), .prim "A0x1111111".toList (some 1),
    .prim "A0x2222222".toList (some 2), .prim "B".toList (some 3)], 1, by simp, by simp, by simp, by decide +kernel, by decide +kernel⟩

/-- The same for a boolean with one operand before it and one after it: the operand before it is taken in its latest definition. -/
theorem C115_mixed_fails : ∃ (items : List (Item Nat)) (k : Nat), Item.bool "U".toList "A0x1111111".toList "B".toList (fun a b => 10 * a + b) ∈ items ∧
    Item.prim "A0x1111111".toList (some 1) ∈ items ∧ Item.prim "B".toList (some 3) ∈ items ∧
    (after true (· == ·) (fun _ => none) items k).ready = [] ∧
    (after true (· == ·) (fun _ => none) items k).tracker.instances "U".toList = [23] := by
  refine ⟨[.prim "A0x1111111".toList (some 1), .prim "A0x2222222".toList (some 2),
    .bool "U".toList "A0x1111111".toList "B".toList (fun a b => 10 * a + b), .prim "B".toList (some 3)], 1,
    by simp, by simp, by simp, by decide +kernel, by decide +kernel⟩

/-! ## Example -/

/-- A chain of booleans written before its parts, a boolean of itself, and one with a missing operand. -/
def example1 : List (Item Nat) :=
  [.bool "W".toList "V".toList "V".toList (· * ·), .bool "V".toList "A0x1234567".toList "B".toList (· + ·), .prim "A0x1234567".toList (some 2),
    .bool "L".toList "L".toList "A".toList (· + ·), .bool "M".toList "A".toList "none".toList (· + ·), .prim "B".toList (some 3)]

example : Distinct true example1 ∧ Tame true (fun _ => none) ∧ Means true example1 "W".toList 25 ∧ ¬(∃ g, Means true example1 "L".toList g) ∧
    (after true (· == ·) (fun _ => none) example1 3).ready = [] := by
  have hd : Distinct true example1 := by unfold Distinct; decide +kernel
  have hk : (after true (· == ·) (fun _ => none) example1 3).ready = [] := by decide +kernel
  have ht : Tame true (fun _ => none) := fun _ _ _ h => by cases h
  refine ⟨hd, ht, (built_iff ht hd hk _ _).1 (by decide +kernel), ?_, hk⟩
  rintro ⟨g, hg⟩
  have := (built_iff (eq := (· == ·)) ht hd hk _ _).2 hg
  rw [show (after true (· == ·) (fun _ => none) example1 3).tracker.instances "L".toList = [] by decide +kernel] at this
  cases this

end Siren.Gdml.Solids
