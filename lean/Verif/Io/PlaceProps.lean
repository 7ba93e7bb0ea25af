import Verif.Io.Model
import Mathlib.Data.List.Nodup
import Mathlib.Data.List.Perm.Subperm

set_option autoImplicit false

/-!
# C60: reading an event places every vertex once, under its parent
-/

namespace Siren.Io

open Siren Siren.Records

/-! ## The placement loop -/

section place
variable (vids : List Int) (parent : Int → Int)

/-- A vertex without a parent in the event. -/
def IsRootVid (v : Int) : Prop := parent v = 0 ∨ parent v ∉ vids

/-- A vertex whose chain of parents ends. -/
inductive GroundedVid : Int → Prop
  | root (v : Int) : v ∈ vids → IsRootVid vids parent v → GroundedVid v
  | child (v : Int) : v ∈ vids → ¬ IsRootVid vids parent v → GroundedVid (parent v) → GroundedVid v

/-- The calls so far are right. -/
structure Placed (cs : Calls) : Prop where
  nodup : (cs.map Prod.fst).Nodup
  sub : ∀ v ∈ cs.map Prod.fst, v ∈ vids
  ok : ∀ (i : Nat) v p, cs[i]? = some (v, p) → (IsRootVid vids parent v ∧ p = none) ∨
    (¬ IsRootVid vids parent v ∧ p = some (parent v) ∧ ∃ j : Nat, j < i ∧ (cs[j]?).map Prod.fst = some (parent v))

theorem has_iff (cs : Calls) (v : Int) : cs.has v = true ↔ v ∈ cs.map Prod.fst := by
  simp [Calls.has]

variable {vids parent}

theorem Placed.snoc {cs : Calls} (h : Placed vids parent cs) {v : Int} {p : Option Int} (hv : v ∈ vids) (hnew : v ∉ cs.map Prod.fst)
    (hp : (IsRootVid vids parent v ∧ p = none) ∨
      (¬ IsRootVid vids parent v ∧ p = some (parent v) ∧ ∃ j : Nat, j < cs.length ∧ (cs[j]?).map Prod.fst = some (parent v))) :
    Placed vids parent (cs ++ [(v, p)]) where
  nodup := by
    rw [List.map_append, List.nodup_append]
    refine ⟨h.nodup, by simp, ?_⟩
    rintro a ha b hb rfl
    simp only [List.map_cons, List.map_nil, List.mem_singleton] at hb
    exact hnew (hb ▸ ha)
  sub := by
    intro w hw
    rw [List.map_append, List.mem_append] at hw
    rcases hw with hw | hw
    · exact h.sub w hw
    · simp only [List.map_cons, List.map_nil, List.mem_singleton] at hw; rw [hw]; exact hv
  ok := by
    intro i w q hi
    have ext : ∀ (j : Nat) x, (cs[j]?).map Prod.fst = some x → ((cs ++ [(v, p)])[j]?).map Prod.fst = some x := by
      intro j x hj
      have : j < cs.length := by
        by_contra hn
        rw [List.getElem?_eq_none (by omega)] at hj; simp at hj
      rwa [List.getElem?_append_left this]
    rcases Nat.lt_or_ge i cs.length with hlt | hge
    · rw [List.getElem?_append_left hlt] at hi
      rcases h.ok i w q hi with h1 | ⟨h1, h2, j, h3, h4⟩
      · exact .inl h1
      · exact .inr ⟨h1, h2, j, h3, ext j _ h4⟩
    · rw [List.getElem?_append_right hge] at hi
      have h0 : i - cs.length = 0 := by
        by_contra hn
        rw [List.getElem?_eq_none (by simp; omega)] at hi; simp at hi
      rw [h0] at hi
      simp only [List.getElem?_cons_zero, Option.some.injEq, Prod.mk.injEq] at hi
      obtain ⟨rfl, rfl⟩ := hi
      rcases hp with h1 | ⟨h1, h2, j, h3, h4⟩
      · exact .inl h1
      · exact .inr ⟨h1, h2, j, by omega, ext j _ h4⟩

theorem mem_position {cs : Calls} {v : Int} (h : v ∈ cs.map Prod.fst) : ∃ j : Nat, j < cs.length ∧ (cs[j]?).map Prod.fst = some v := by
  obtain ⟨j, hj, he⟩ := List.getElem_of_mem h
  rw [List.length_map] at hj
  refine ⟨j, hj, ?_⟩
  rw [List.getElem?_eq_getElem hj, Option.map_some, ← he, List.getElem_map]

theorem placeStep_spec {cs : Calls} (h : Placed vids parent cs) {v : Int} (hv : v ∈ vids) :
    Placed vids parent (placeStep vids parent cs v) ∧ cs <+: placeStep vids parent cs v ∧
      (placeStep vids parent cs v = cs → v ∈ cs.map Prod.fst ∨ (¬ IsRootVid vids parent v ∧ parent v ∉ cs.map Prod.fst)) := by
  unfold placeStep
  by_cases h1 : cs.has v = true
  · rw [if_pos h1]
    exact ⟨h, List.prefix_rfl, fun _ => .inl ((has_iff cs v).mp h1)⟩
  · rw [if_neg h1]
    have hnew : v ∉ cs.map Prod.fst := fun hm => h1 ((has_iff cs v).mpr hm)
    by_cases h2 : IsRootVid vids parent v
    · rw [if_pos (by rcases h2 with h2 | h2; exacts [.inl h2, .inr (by simpa using h2)])]
      exact ⟨h.snoc hv hnew (.inl ⟨h2, rfl⟩), List.prefix_append _ _, fun he => by simp at he⟩
    · rw [if_neg (by
        rintro (h3 | h3)
        · exact h2 (.inl h3)
        · exact h2 (.inr (by simpa using h3)))]
      by_cases h3 : cs.has (parent v) = true
      · rw [if_pos h3]
        exact ⟨h.snoc hv hnew (.inr ⟨h2, rfl, mem_position ((has_iff cs _).mp h3)⟩), List.prefix_append _ _, fun he => by simp at he⟩
      · rw [if_neg h3]
        exact ⟨h, List.prefix_rfl, fun _ => .inr ⟨h2, fun hm => h3 ((has_iff cs _).mpr hm)⟩⟩

theorem round_spec (l : List Int) : ∀ {cs : Calls}, Placed vids parent cs → (∀ v ∈ l, v ∈ vids) →
    Placed vids parent (l.foldl (placeStep vids parent) cs) ∧ cs <+: l.foldl (placeStep vids parent) cs ∧
      (l.foldl (placeStep vids parent) cs = cs →
        ∀ v ∈ l, v ∈ cs.map Prod.fst ∨ (¬ IsRootVid vids parent v ∧ parent v ∉ cs.map Prod.fst)) := by
  induction l with
  | nil => intro cs h _; exact ⟨h, List.prefix_rfl, fun _ v hv => by simp at hv⟩
  | cons a l ih =>
    intro cs h hl
    obtain ⟨s1, s2, s3⟩ := placeStep_spec h (hl a (by simp))
    obtain ⟨i1, i2, i3⟩ := ih s1 (fun v hv => hl v (by simp [hv]))
    rw [List.foldl_cons]
    refine ⟨i1, s2.trans i2, fun he v hv => ?_⟩
    have hstep : placeStep vids parent cs a = cs := by
      have h1 := s2.length_le
      have h2 := i2.length_le
      rw [he] at h2
      exact (s2.eq_of_length (by omega)).symm
    rcases List.mem_cons.mp hv with rfl | hv
    · exact s3 hstep
    · rw [hstep] at he i3
      exact i3 he v hv

theorem all_of_length {cs : Calls} (h : Placed vids parent cs) (hlen : vids.length ≤ cs.length) : ∀ v ∈ vids, v ∈ cs.map Prod.fst := by
  have hsp : (cs.map Prod.fst).Subperm vids := List.subperm_of_subset h.nodup h.sub
  have hperm := hsp.perm_of_length_le (by simpa using hlen)
  intro v hv
  exact hperm.mem_iff.mpr hv

theorem length_le {cs : Calls} (h : Placed vids parent cs) : cs.length ≤ vids.length := by
  have := (List.subperm_of_subset h.nodup h.sub).length_le
  simpa using this

theorem placeLoop_spec : ∀ (fuel : Nat) {cs : Calls}, Placed vids parent cs → vids.length < cs.length + fuel →
    Placed vids parent (placeLoop vids parent fuel cs) ∧
      ∀ v, GroundedVid vids parent v → v ∈ (placeLoop vids parent fuel cs).map Prod.fst := by
  intro fuel
  induction fuel with
  | zero => intro cs h hf; have := length_le h; omega
  | succ fuel ih =>
    intro cs h hf
    rw [placeLoop]
    by_cases h1 : cs.length < vids.length
    · rw [if_pos h1]
      obtain ⟨r1, r2, r3⟩ := round_spec vids h (fun v hv => hv)
      simp only
      by_cases h2 : cs.length < (vids.foldl (placeStep vids parent) cs).length
      · rw [if_pos h2]
        exact ih r1 (by omega)
      · rw [if_neg h2]
        have he : vids.foldl (placeStep vids parent) cs = cs := (r2.eq_of_length (by have := r2.length_le; omega)).symm
        rw [he]
        refine ⟨h, fun v hg => ?_⟩
        have hstuck := r3 he
        induction hg with
        | root v hv hr =>
          rcases hstuck v hv with h3 | h3
          · exact h3
          · exact absurd hr h3.1
        | child v hv hr _ ihg =>
          rcases hstuck v hv with h3 | h3
          · exact h3
          · exact absurd ihg h3.2
    · rw [if_neg h1]
      refine ⟨h, fun v hg => all_of_length h (by omega) v ?_⟩
      cases hg with
      | root _ hv _ => exact hv
      | child _ hv _ _ => exact hv

theorem placeRest_spec (l : List Int) : ∀ (cs : Calls), (cs.map Prod.fst).Nodup →
    ∃ more : Calls, l.foldl (fun cs v => if Calls.has cs v then cs else cs ++ [(v, none)]) cs = cs ++ more ∧
      ((cs ++ more).map Prod.fst).Nodup ∧ (∀ c ∈ more, c.1 ∈ l ∧ c.1 ∉ cs.map Prod.fst ∧ c.2 = none) ∧
      ∀ v ∈ l, v ∈ (cs ++ more).map Prod.fst := by
  induction l with
  | nil => intro cs h; exact ⟨[], by simp, by simpa using h, by simp, by simp⟩
  | cons a l ih =>
    intro cs h
    rw [List.foldl_cons]
    by_cases ha : cs.has a = true
    · rw [if_pos ha]
      obtain ⟨more, m1, m2, m3, m4⟩ := ih cs h
      refine ⟨more, m1, m2, fun c hc => ⟨by simp [(m3 c hc).1], (m3 c hc).2⟩, fun v hv => ?_⟩
      rcases List.mem_cons.mp hv with rfl | hv
      · rw [List.map_append, List.mem_append]; exact .inl ((has_iff cs _).mp ha)
      · exact m4 v hv
    · rw [if_neg ha]
      have hnew : a ∉ cs.map Prod.fst := fun hm => ha ((has_iff cs _).mpr hm)
      obtain ⟨more, m1, m2, m3, m4⟩ := ih (cs ++ [(a, none)]) (by
        rw [List.map_append, List.nodup_append]
        refine ⟨h, by simp, ?_⟩
        rintro x hx y hy rfl
        simp only [List.map_cons, List.map_nil, List.mem_singleton] at hy
        exact hnew (hy ▸ hx))
      refine ⟨(a, none) :: more, by rw [m1]; simp, by simpa using m2, fun c hc => ?_, fun v hv => ?_⟩
      · rcases List.mem_cons.mp hc with rfl | hc
        · exact ⟨by simp, hnew, rfl⟩
        · obtain ⟨c1, c2, c3⟩ := m3 c hc
          refine ⟨by simp [c1], fun hm => c2 ?_, c3⟩
          rw [List.map_append, List.mem_append]; exact .inl hm
      · rcases List.mem_cons.mp hv with rfl | hv
        · simp
        · have := m4 v hv; simpa using this

theorem grounded_of_placed {cs : Calls} (h : Placed vids parent cs) : ∀ (i : Nat) v p, cs[i]? = some (v, p) → GroundedVid vids parent v := by
  intro i
  induction i using Nat.strongRecOn with
  | ind i ih =>
    intro v p hi
    have hv : v ∈ vids := h.sub v (List.mem_map.mpr ⟨(v, p), List.mem_of_getElem? hi, rfl⟩)
    rcases h.ok i v p hi with h1 | ⟨h1, -, j, h3, h4⟩
    · exact .root v hv h1.1
    · cases hc : cs[j]? with
      | none => rw [hc] at h4; simp at h4
      | some c =>
        rw [hc] at h4
        simp only [Option.map_some, Option.some.injEq] at h4
        have := ih j h3 c.1 c.2 hc
        rw [h4] at this
        exact .child v hv h1 this

/-- The calls of `add_entry`: every vertex once; one whose chain of parents ends comes after its parent and under it; every other one is a root. -/
theorem placeAll_spec (hnd : vids.Nodup) : ((placeAll vids parent).map Prod.fst).Perm vids ∧
    ∀ (i : Nat) v p, (placeAll vids parent)[i]? = some (v, p) →
      (IsRootVid vids parent v → p = none) ∧ (¬ GroundedVid vids parent v → p = none) ∧
      (GroundedVid vids parent v → ¬ IsRootVid vids parent v →
        p = some (parent v) ∧ ∃ j : Nat, j < i ∧ ((placeAll vids parent)[j]?).map Prod.fst = some (parent v)) := by
  have h0 : Placed vids parent [] := ⟨by simp, by simp, by simp⟩
  obtain ⟨p1, p2⟩ := placeLoop_spec (vids.length + 1) h0 (by simp)
  obtain ⟨more, m1, m2, m3, m4⟩ := placeRest_spec vids _ p1.nodup
  have he : placeAll vids parent = placeLoop vids parent (vids.length + 1) [] ++ more := m1
  generalize placeLoop vids parent (vids.length + 1) [] = cs at *
  refine ⟨?_, fun i v p hi => ?_⟩
  · rw [he]
    refine (List.perm_ext_iff_of_nodup m2 hnd).mpr fun v => ⟨fun hv => ?_, m4 v⟩
    rw [List.map_append, List.mem_append] at hv
    rcases hv with hv | hv
    · exact p1.sub v hv
    · obtain ⟨c, hc, rfl⟩ := List.mem_map.mp hv
      exact (m3 c hc).1
  · rw [he] at hi ⊢
    rcases Nat.lt_or_ge i cs.length with hlt | hge
    · rw [List.getElem?_append_left hlt] at hi
      have hg := grounded_of_placed p1 i v p hi
      refine ⟨fun hr => ?_, fun hn => absurd hg hn, fun _ hr => ?_⟩
      · rcases p1.ok i v p hi with h | h
        · exact h.2
        · exact absurd hr h.1
      · rcases p1.ok i v p hi with h | ⟨-, h2, j, h3, h4⟩
        · exact absurd h.1 hr
        · exact ⟨h2, j, h3, by rwa [List.getElem?_append_left (by omega)]⟩
    · rw [List.getElem?_append_right hge] at hi
      obtain ⟨c1, c2, c3⟩ := m3 (v, p) (List.mem_of_getElem? hi)
      refine ⟨fun _ => c3, fun _ => c3, fun hg => absurd (p2 v hg) c2⟩

/-- If every vertex comes after its parent, the order is kept. -/
theorem placeAll_ordered (hnd : vids.Nodup)
    (hord : ∀ (i : Nat) v, vids[i]? = some v → IsRootVid vids parent v ∨ ∃ j, j < i ∧ vids[j]? = some (parent v)) :
    placeAll vids parent = vids.map fun v => (v, if parent v = 0 ∨ !vids.contains (parent v) then none else some (parent v)) := by
  set f : Int → Int × Option Int := fun v => (v, if parent v = 0 ∨ !vids.contains (parent v) then none else some (parent v)) with hf
  have hfst : ∀ l : List Int, (l.map f).map Prod.fst = l := by intro l; rw [List.map_map]; exact List.map_id l
  have hround : ∀ (done rest : List Int), done ++ rest = vids → rest.foldl (placeStep vids parent) (done.map f) = vids.map f := by
    intro done rest
    induction rest generalizing done with
    | nil => intro hv; rw [← hv]; simp
    | cons v rest ih =>
      intro hv
      rw [List.foldl_cons]
      have hstep : placeStep vids parent (done.map f) v = (done ++ [v]).map f := by
        have hvi : vids[done.length]? = some v := by rw [← hv]; simp
        have hnot : v ∉ done := by
          rw [← hv, List.nodup_append] at hnd
          intro hm; exact hnd.2.2 v hm v (by simp) rfl
        have h1 : ¬ Calls.has (done.map f) v = true := by rw [has_iff, hfst]; exact hnot
        unfold placeStep
        rw [if_neg h1, List.map_append]
        by_cases h2 : parent v = 0 ∨ !vids.contains (parent v)
        · rw [if_pos h2]; simp only [List.map_cons, List.map_nil, hf, if_pos h2]
        · rw [if_neg h2]
          rcases hord _ _ hvi with h3 | ⟨j, hj, hjv⟩
          · exact absurd (h3.imp_right fun h => by simpa using h) h2
          · have : parent v ∈ done := by
              rw [← hv, List.getElem?_append_left hj] at hjv
              exact List.mem_of_getElem? hjv
            rw [if_pos (by rw [has_iff, hfst]; exact this)]
            simp only [List.map_cons, List.map_nil, hf, if_neg h2]
      rw [hstep]
      exact ih (done ++ [v]) (by simpa using hv)
  have hfirst : vids.foldl (placeStep vids parent) [] = vids.map f := hround [] vids rfl
  have hloop : placeLoop vids parent (vids.length + 1) [] = vids.map f := by
    rw [placeLoop]
    by_cases h1 : ([] : Calls).length < vids.length
    · rw [if_pos h1]
      simp only
      rw [hfirst, if_pos (by simpa using h1)]
      cases hk : vids.length with
      | zero => rw [placeLoop]
      | succ k => rw [placeLoop, if_neg (by simp)]
    · rw [if_neg h1]
      have : vids = [] := by
        cases hv : vids with
        | nil => rfl
        | cons => rw [hv] at h1; simp at h1
      simp [this]
  obtain ⟨more, m1, m2, m3, m4⟩ := placeRest_spec vids (placeLoop vids parent (vids.length + 1) []) (by rw [hloop, hfst]; exact hnd)
  have hmore : more = [] := by
    cases more with
    | nil => rfl
    | cons c more =>
      obtain ⟨c1, c2, -⟩ := m3 c (by simp)
      exact absurd (by rw [hloop, hfst]; exact c1) c2
  have he : placeAll vids parent = placeLoop vids parent (vids.length + 1) [] ++ more := m1
  rw [he, hmore, List.append_nil, hloop]

end place

/-! ## Events -/

section event
variable {K : Type} [Field K]

/-- A vertex whose primary does not come from another vertex of the event. -/
def IsRootVertex (e : GenEvent K) (v : GenVertex K) : Prop := parentVid e v = 0 ∨ ∀ w ∈ e.vertices, w.id ≠ parentVid e v

/-- A vertex from which the chain of parents ends at a root. -/
inductive Grounded (e : GenEvent K) : GenVertex K → Prop
  | root (v : GenVertex K) : IsRootVertex e v → Grounded e v
  | child (v w : GenVertex K) : ¬ IsRootVertex e v → w ∈ e.vertices → w.id = parentVid e v → Grounded e w → Grounded e v

theorem readVertices_spec (env : Env K) (e : GenEvent K) (strict : Bool) (vs : List (GenVertex K)) : ∀ (ids : Ids) infos,
    readVertices env e strict vs ids = .ok infos → infos.map Prod.fst = vs.map GenVertex.id ∧
      ∀ (i : Nat) (v : GenVertex K) info, vs[i]? = some v → infos[i]? = some info → info.1 = v.id ∧ info.2.2 = parentVid e v ∧
        ∃ ids ids', vertexToRecord env e strict v ids = .ok (info.2.1, ids') := by
  induction vs with
  | nil => intro ids infos h; cases h; simp
  | cons v vs ih =>
    intro ids infos h
    rw [readVertices] at h
    cases hr : vertexToRecord env e strict v ids with
    | throws x => rw [hr] at h; simp [Res.bind] at h
    | ub => rw [hr] at h; simp [Res.bind] at h
    | ok r =>
      rw [hr] at h
      cases hv : readVertices env e strict vs r.2 with
      | throws x => simp only [Res.bind, hv] at h; cases h
      | ub => simp only [Res.bind, hv] at h; cases h
      | ok rest =>
        simp only [Res.bind, hv, Res.ok.injEq] at h
        subst h
        obtain ⟨i1, i2⟩ := ih _ _ hv
        refine ⟨by simp [i1], fun i w info hw hi => ?_⟩
        cases i with
        | zero =>
          simp only [List.getElem?_cons_zero, Option.some.injEq] at hw hi
          subst hw; subst hi
          exact ⟨rfl, rfl, ids, r.2, hr⟩
        | succ i =>
          simp only [List.getElem?_cons_succ] at hw hi
          exact i2 i w info hw hi

theorem infoOf_spec {infos : List (Int × Record K × Int)} (hnd : (infos.map Prod.fst).Nodup) {i : Int × Record K × Int} (h : i ∈ infos) :
    infoOf infos i.1 = i.2 := by
  have hf : infos.find? (fun j => j.1 = i.1) = some i := by
    induction infos with
    | nil => simp at h
    | cons j infos ih =>
      rw [List.map_cons, List.nodup_cons] at hnd
      rcases List.mem_cons.mp h with rfl | h
      · simp
      · rw [List.find?_cons_of_neg (by
          simp only [decide_eq_true_eq]
          intro he
          exact hnd.1 (he ▸ List.mem_map.mpr ⟨i, h, rfl⟩))]
        exact ih hnd.2 h
  rw [infoOf, hf]

/-- A read event has one node for every vertex, with the record read from that vertex. A vertex whose chain of parents ends comes after its
parent and is its child; a vertex without a parent in the event, or on or below a cycle, is a root. -/
theorem C60_read (env : Env K) (strict : Bool) (e : GenEvent K) (hids : (e.vertices.map GenVertex.id).Nodup) (t : ITree K)
    (h : readEvent env strict e = .ok t) :
    ∃ order : List (GenVertex K), order.Perm e.vertices ∧ t.nodes.length = order.length ∧
      ∀ (i : Nat) (v : GenVertex K) (n : Node K), order[i]? = some v → t.nodes[i]? = some n →
        (∃ ids ids', vertexToRecord env e strict v ids = .ok (n.record, ids')) ∧
        (IsRootVertex e v → n.parent = none) ∧ (¬ Grounded e v → n.parent = none) ∧
        (Grounded e v → ¬ IsRootVertex e v → ∃ j w, j < i ∧ n.parent = some j ∧ order[j]? = some w ∧ w.id = parentVid e v) := by
  rw [readEvent] at h
  cases hr : readVertices env e strict e.vertices ⟨[], 0⟩ with
  | throws x => rw [hr] at h; simp [Res.bind] at h
  | ub => rw [hr] at h; simp [Res.bind] at h
  | ok infos =>
    rw [hr] at h
    simp only [Res.bind, Res.ok.injEq] at h
    obtain ⟨r1, r2⟩ := readVertices_spec env e strict _ _ _ hr
    have hnd : (infos.map Prod.fst).Nodup := by rw [r1]; exact hids
    generalize hvids : infos.map Prod.fst = vids at h hnd r1
    generalize hpar : (fun v => (infoOf infos v).2) = parent at h
    obtain ⟨a1, a2⟩ := placeAll_spec (parent := parent) hnd
    generalize hcalls : placeAll vids parent = calls at h a1 a2
    have hlen : infos.length = e.vertices.length := by
      rw [← List.length_map (f := Prod.fst), hvids, r1, List.length_map]
    have hinfo : ∀ v ∈ e.vertices, (∃ ids ids', vertexToRecord env e strict v ids = .ok ((infoOf infos v.id).1, ids')) ∧
        parent v.id = parentVid e v := by
      intro v hv
      obtain ⟨i, hi, rfl⟩ := List.getElem_of_mem hv
      obtain ⟨k1, k2, k3⟩ := r2 i e.vertices[i] infos[i] (by simp) (by simp)
      have := infoOf_spec (by rw [hvids]; exact hnd) (List.getElem_mem (l := infos) (n := i) (by omega))
      rw [k1] at this
      refine ⟨by rw [this]; exact k3, ?_⟩
      rw [← hpar]; simp only; rw [this]; exact k2
    have hroot : ∀ v ∈ e.vertices, IsRootVid vids parent v.id ↔ IsRootVertex e v := by
      intro v hv
      rw [IsRootVid, IsRootVertex, (hinfo v hv).2, r1]
      simp
    have hinj : ∀ v ∈ e.vertices, ∀ w ∈ e.vertices, v.id = w.id → v = w := fun v hv w hw => List.inj_on_of_nodup_map hids hv hw
    have hg1 : ∀ v, Grounded e v → v ∈ e.vertices → GroundedVid vids parent v.id := by
      intro v hg
      induction hg with
      | root v hr => intro hv; exact .root _ (by rw [r1]; exact List.mem_map.mpr ⟨v, hv, rfl⟩) ((hroot v hv).mpr hr)
      | child v w hr hw he _ ih =>
        intro hv
        refine .child _ (by rw [r1]; exact List.mem_map.mpr ⟨v, hv, rfl⟩) (fun h => hr ((hroot v hv).mp h)) ?_
        rw [(hinfo v hv).2, ← he]; exact ih hw
    have hg2 : ∀ x, GroundedVid vids parent x → ∀ v ∈ e.vertices, v.id = x → Grounded e v := by
      intro x hg
      induction hg with
      | root x hx hr => intro v hv he; subst he; exact .root v ((hroot v hv).mp hr)
      | child x hx hr _ ih =>
        intro v hv he
        subst he
        have hnr : ¬ IsRootVertex e v := fun h => hr ((hroot v hv).mpr h)
        have hnr' := hnr
        rw [IsRootVertex, not_or] at hnr'
        push Not at hnr'
        obtain ⟨-, w, hw, hwe⟩ := hnr'
        exact .child v w hnr hw hwe (ih w hw (by rw [(hinfo v hv).2]; exact hwe))
    -- the vertices in the order of the calls
    have hget : ∀ x ∈ calls.map Prod.fst, ∃ v ∈ e.vertices, v.id = x := by
      intro x hx
      have := a1.mem_iff.mp hx
      rw [r1] at this
      obtain ⟨v, hv, hve⟩ := List.mem_map.mp this
      exact ⟨v, hv, hve⟩
    have : Nonempty (GenVertex K) := ⟨⟨0, ⟨0, 0, 0, 0⟩, 0, [], [], [], none⟩⟩
    choose! pick hpick using hget
    set order := (calls.map Prod.fst).map pick with horder
    have hoid : order.map GenVertex.id = calls.map Prod.fst := by
      rw [horder, List.map_map]
      conv_rhs => rw [← List.map_id (calls.map Prod.fst)]
      apply List.map_congr_left
      intro x hx
      exact (hpick x hx).2
    refine ⟨order, ?_, ?_, fun i v n hv hn => ?_⟩
    · have hond : order.Nodup := by
        apply List.Nodup.of_map GenVertex.id
        rw [hoid]; exact a1.nodup_iff.mpr hnd
      refine (List.perm_ext_iff_of_nodup hond (List.Nodup.of_map _ hids)).mpr fun v => ⟨fun hv => ?_, fun hv => ?_⟩
      · obtain ⟨x, hx, rfl⟩ := List.mem_map.mp hv
        exact (hpick x hx).1
      · have hx : v.id ∈ calls.map Prod.fst := a1.mem_iff.mpr (by rw [r1]; exact List.mem_map.mpr ⟨v, hv, rfl⟩)
        have := hinj _ (hpick _ hx).1 v hv (hpick _ hx).2
        rw [← this]
        exact List.mem_map.mpr ⟨v.id, hx, rfl⟩
    · rw [← h, horder]; simp
    · have hi : i < calls.length := by
        by_contra hc
        rw [horder, List.getElem?_eq_none (by simp; omega)] at hv; simp at hv
      obtain ⟨x, p⟩ : Int × Option Int := calls[i]
      have hci : calls[i]? = some calls[i] := by simp
      have hve : pick calls[i].1 = v := by
        rw [horder] at hv
        simpa [hi] using hv
      have hx : calls[i].1 ∈ calls.map Prod.fst := List.mem_map.mpr ⟨_, List.getElem_mem hi, rfl⟩
      obtain ⟨p1, p2⟩ := hpick _ hx
      rw [hve] at p1 p2
      rw [← h] at hn
      simp only [List.getElem?_map, hci, Option.map_some, Option.some.injEq] at hn
      obtain ⟨b1, b2, b3⟩ := a2 i calls[i].1 calls[i].2 hci
      rw [← p2] at b1 b2 b3
      subst hn
      refine ⟨by simp only; rw [← p2]; exact (hinfo v p1).1, fun hr => ?_, fun hg => ?_, fun hg hr => ?_⟩
      · simp only; rw [b1 ((hroot v p1).mpr hr)]; rfl
      · simp only; rw [b2 (fun hc => hg (hg2 _ hc v p1 rfl))]; rfl
      · obtain ⟨c1, j, c2, c3⟩ := b3 (hg1 v hg p1) (fun hc => hr ((hroot v p1).mp hc))
        have hj : j < calls.length := by omega
        have hcj : calls[j].1 = parent v.id := by simpa [hj] using c3
        have hjx : calls[j].1 ∈ calls.map Prod.fst := List.mem_map.mpr ⟨_, List.getElem_mem hj, rfl⟩
        refine ⟨j, pick calls[j].1, c2, ?_, ?_, ?_⟩
        · simp only
          rw [c1, Option.map_some, Option.some.injEq]
          have hcnd : (calls.map Prod.fst).Nodup := a1.nodup_iff.mpr hnd
          rw [List.findIdx_eq hj]
          refine ⟨by simpa using hcj, fun k hk => ?_⟩
          simp only [decide_eq_false_iff_not]
          intro hke
          have := List.nodup_iff_injective_get.mp hcnd
          have heq : (⟨k, by simp; omega⟩ : Fin (calls.map Prod.fst).length) = ⟨j, by simp; omega⟩ := by
            apply this
            simp only [List.get_eq_getElem, List.getElem_map]
            rw [hke, hcj]
          have := Fin.mk.inj heq
          omega
        · rw [horder]; simp [hj]
        · rw [(hpick _ hjx).2, hcj, (hinfo v p1).2]

/-- An event with a child listed before its parent (-1 under -2), a chain (-3 under -1), and a cycle (-4 and -5). -/
def tangled : GenEvent ℚ where
  number := 1
  bigNumber := none
  weights := [1]
  particles := [0, -2, -1, -5, -4].map fun v => { momentum := ⟨0, 0, 0, 1⟩, pid := 14, status := 2, mass := none, production := v, helicity := none, ident := none }
  vertices := [(-1, 1), (-2, 0), (-3, 2), (-4, 3), (-5, 4)].map fun v => ⟨v.1, ⟨0, 0, 0, 0⟩, 21, [v.2], [], [], none⟩

/-- It is read: the parent first, then its child and grandchild, then the cycle as two roots. -/
example : (match readEvent ⟨⟨100, 1, 3⟩, fun p => p.t, fun n => ⟨true, 0, n⟩⟩ false tangled with
    | .ok t => some (t.nodes.map Node.parent)
    | _ => none) = some [none, some 0, some 1, none, none] := by
  decide +kernel

example : (tangled.vertices.map GenVertex.id).Nodup := by decide

example : IsRootVertex tangled ⟨-2, ⟨0, 0, 0, 0⟩, 21, [0], [], [], none⟩ := .inl rfl

example : Grounded tangled ⟨-1, ⟨0, 0, 0, 0⟩, 21, [1], [], [], none⟩ :=
  .child _ ⟨-2, ⟨0, 0, 0, 0⟩, 21, [0], [], [], none⟩ (by
    rintro (h | h)
    · exact absurd h (by decide)
    · exact h ⟨-2, ⟨0, 0, 0, 0⟩, 21, [0], [], [], none⟩ (by simp [tangled]) rfl) (by simp [tangled]) rfl (.root _ (.inl rfl))

end event

end Siren.Io
