import Verif.Io.Model
import Mathlib.Data.List.Nodup

set_option autoImplicit false

/-!
# C61: vertices and particles of a written event
-/

namespace Siren.Io

open Siren Siren.Records

/-! ## Specification -/

section
variable {K : Type} [Field K]

/-- The record has a target particle: neither a decay nor an unknown target. -/
def HasTarget (r : Record K) : Prop := r.signature.target ≠ decayType ∧ r.signature.target ≠ unknownType

instance (r : Record K) : Decidable (HasTarget r) := by unfold HasTarget; infer_instance

/-- The event has one primary vertex, at position `i`, and the beam particle and target of `r` enter it. -/
structure OneBeam (r : Record K) (i : Nat) (particles : List (GenParticle K)) (vertices : List (GenVertex K)) : Prop where
  /-- the only vertex with status 1 is `i`, and the only particle with status 4 enters it; it is the primary of `r` and nothing produced it -/
  beam : ∃ v b q, vertices[i]? = some v ∧ v.status = 1 ∧ b ∈ v.ins ∧ particles[b]? = some q ∧ q.status = 4 ∧
    q.pid = r.signature.primary ∧ q.momentum = momentumOf r.primaryMomentum ∧ q.mass = some r.primaryMass ∧ q.production = 0 ∧
    ∀ (k : Nat) p, particles[k]? = some p → p.status = 4 → k = b
  vertex : ∀ (j : Nat) w, vertices[j]? = some w → w.status = 1 → j = i
  /-- a target with status 20 enters the same vertex -/
  target : HasTarget r → ∃ v b q, vertices[i]? = some v ∧ b ∈ v.ins ∧ particles[b]? = some q ∧ q.status = 20 ∧
    q.pid = r.signature.target ∧ q.mass = some r.targetMass ∧ ∀ (k : Nat) p, particles[k]? = some p → p.status = 20 → k = b
  /-- no particle has status 20 if the primary interaction has no target -/
  noTarget : ¬ HasTarget r → ∀ (k : Nat) p, particles[k]? = some p → p.status ≠ 20

end

section
variable {K : Type} [Field K]

/-! ## The effect of one round -/

/-- Shared particles are outgoing particles. -/
def ByIdOk (s : Writing K) : Prop := ∀ id k, s.byId id = some k → ∃ q, s.particles[k]? = some q ∧ (q.status = 1 ∨ q.status = 2)

theorem recordIds_mem (r : Record K) (first : Nat) (m : ParticleID → Option Nat) (id : ParticleID) (k : Nat) (h : recordIds r first m id = some k) :
    m id = some k ∨ ∃ j, j < r.signature.secondaries.length ∧ k = first + j := by
  unfold recordIds at h
  have : ∀ (l : List Nat) (m : ParticleID → Option Nat), (∀ j ∈ l, j < r.signature.secondaries.length) →
      l.foldl (fun m j => match r.secondaryIds[j]? with
        | some id => if id.set then put m id (first + j) else m
        | none => m) m id = some k → m id = some k ∨ ∃ j, j < r.signature.secondaries.length ∧ k = first + j := by
    intro l
    induction l with
    | nil => intro m _ h; exact .inl h
    | cons a l ih =>
      intro m hl h
      rw [List.foldl_cons] at h
      rcases ih _ (fun j hj => hl j (by simp [hj])) h with h | h
      · cases ha : r.secondaryIds[a]? with
        | none => rw [ha] at h; exact .inl h
        | some i =>
          rw [ha] at h
          simp only at h
          split at h
          · rw [put] at h
            split at h
            · exact .inr ⟨a, hl a (by simp), (Option.some.inj h).symm⟩
            · exact .inl h
          · exact .inl h
      · exact .inr h
  exact this _ m (fun j hj => List.mem_range.mp hj) h

/-- The particles after a round: those before, of which one outgoing one may have become incoming, then the new ones. -/
theorem writeNode_particles (u : Units K) (s : Writing K) (n : Node K) (hb : ByIdOk s) :
    ∃ ps p, placePrimary u s n (n.isRoot && !s.seen) = (ps, p) ∧ p < ps.length ∧ s.particles.length ≤ ps.length ∧
      (∀ (k : Nat) q, s.particles[k]? = some q → ∃ q', ps[k]? = some q' ∧ q'.pid = q.pid ∧ q'.mass = q.mass ∧ q'.production = q.production ∧
        (q' = q ∨ ((q.status = 1 ∨ q.status = 2) ∧ q'.status = 2))) ∧
      (∀ (k : Nat) q', ps[k]? = some q' → k < s.particles.length ∨
        (k = p ∧ k = s.particles.length ∧ q' = (newPrimary n.record (n.isRoot && !s.seen)).withStart u n.record)) ∧
      ((n.isRoot && !s.seen) = true → p = s.particles.length ∧ ps = s.particles ++ [(newPrimary n.record true).withStart u n.record]) ∧
      ((n.isRoot && !s.seen) = false → ∃ q, ps[p]? = some q ∧ q.status = 2) ∧
      (p = s.particles.length ∨ ∃ q, s.particles[p]? = some q ∧ (q.status = 1 ∨ q.status = 2)) := by
  unfold placePrimary
  cases hs : sharedPrimary s.byId n with
  | none =>
    refine ⟨_, _, rfl, by simp, by simp, fun k q hk => ⟨q, ?_, rfl, rfl, rfl, .inl rfl⟩, fun k q' hk => ?_, fun h => ?_, fun h => ?_, .inl rfl⟩
    · rw [List.getElem?_append_left (by by_contra hn; rw [List.getElem?_eq_none (by omega)] at hk; simp at hk)]; exact hk
    · rcases Nat.lt_or_ge k s.particles.length with hlt | hge
      · exact .inl hlt
      · rw [List.getElem?_append_right hge] at hk
        have h0 : k - s.particles.length = 0 := by
          by_contra hn
          rw [List.getElem?_eq_none (by simp; omega)] at hk; simp at hk
        rw [h0] at hk
        simp only [List.getElem?_cons_zero, Option.some.injEq] at hk
        exact .inr ⟨by omega, by omega, hk.symm⟩
    · rw [h]; exact ⟨rfl, rfl⟩
    · rw [h]
      refine ⟨_, by rw [List.getElem?_append_right (Nat.le_refl _)]; simp; rfl, rfl⟩
  | some p =>
    have hroot : n.isRoot = false := by
      rw [sharedPrimary] at hs
      split at hs
      · next h => simp only [Bool.and_eq_true, Bool.not_eq_true'] at h; exact h.1
      · simp at hs
    obtain ⟨q, hq, hst⟩ : ∃ q, s.particles[p]? = some q ∧ (q.status = 1 ∨ q.status = 2) := by
      rw [sharedPrimary] at hs
      split at hs
      · exact hb _ _ hs
      · simp at hs
    have hp : p < s.particles.length := by by_contra hn; rw [List.getElem?_eq_none (by omega)] at hq; simp at hq
    refine ⟨_, _, rfl, by simpa using hp, by simp, fun k r hk => ?_, fun k q' hk => ?_, fun h => ?_, fun _ => ?_, .inr ⟨q, hq, hst⟩⟩
    · rw [List.getElem?_modify, hk]
      by_cases hkp : p = k
      · subst hkp
        rw [hq] at hk
        obtain rfl := Option.some.inj hk
        exact ⟨({ q with status := 2 } : GenParticle K).withStart u n.record, by simp, rfl, rfl, rfl, .inr ⟨hst, rfl⟩⟩
      · exact ⟨r, by simp [hkp], rfl, rfl, rfl, .inl rfl⟩
    · left
      by_contra hn
      rw [List.getElem?_eq_none (by simp; omega)] at hk; simp at hk
    · rw [hroot] at h; simp at h
    · exact ⟨_, by rw [List.getElem?_modify, hq]; simp; rfl, rfl⟩

/-- Positions of incoming particles are those of particles. -/
def InsOk (s : Writing K) : Prop := ∀ v ∈ s.vertices, ∀ k ∈ v.ins, k < s.particles.length

theorem targets_spec (r : Record K) (b : Bool) : (HasTarget r → ∃ q, (targetParticle r b).toList = [q] ∧ q.status = (if b then 20 else 22) ∧
    q.pid = r.signature.target ∧ q.mass = some r.targetMass) ∧ (¬ HasTarget r → (targetParticle r b).toList = []) := by
  unfold targetParticle HasTarget
  constructor
  · intro h; rw [if_pos h]; exact ⟨_, rfl, rfl, rfl, rfl⟩
  · intro h; rw [if_neg h]; rfl

/-- A particle of the event after a round is one from before, possibly now incoming, the new primary, the target, or an outgoing particle. -/
theorem writeNode_cases (u : Units K) (s : Writing K) (n : Node K) (hb : ByIdOk s) (k : Nat) (q : GenParticle K)
    (h : (writeNode u s n).particles[k]? = some q) :
    (∃ q0, s.particles[k]? = some q0 ∧ (q = q0 ∨ q.status = 2)) ∨
      (k = s.particles.length ∧ q = (newPrimary n.record (n.isRoot && !s.seen)).withStart u n.record) ∨
      (∃ p, placePrimary u s n (n.isRoot && !s.seen) = p ∧ k = p.1.length ∧ targetParticle n.record (n.isRoot && !s.seen) = some q) ∨ q.status = 1 := by
  obtain ⟨ps, p, h0, h1, h2, h3, h4, h5, h6, h7⟩ := writeNode_particles u s n hb
  rw [writeNode] at h
  simp only [h0] at h
  rw [List.append_assoc] at h
  rcases Nat.lt_or_ge k ps.length with hlt | hge
  · rw [List.getElem?_append_left hlt] at h
    rcases h4 k q h with hk | ⟨-, hk, hq⟩
    · obtain ⟨q', hq', -, -, -, hc⟩ := h3 k s.particles[k] (by simp)
      rw [h] at hq'
      obtain rfl := Option.some.inj hq'
      refine .inl ⟨s.particles[k], by simp, ?_⟩
      rcases hc with hc | hc
      · exact .inl hc
      · exact .inr hc.2
    · exact .inr (.inl ⟨hk, hq⟩)
  · rw [List.getElem?_append_right hge] at h
    right; right
    cases ht : targetParticle n.record (n.isRoot && !s.seen) with
    | none =>
      rw [ht] at h
      simp only [Option.toList_none, List.nil_append, List.getElem?_map, Option.map_eq_some_iff] at h
      obtain ⟨j, -, rfl⟩ := h
      exact .inr rfl
    | some t =>
      rw [ht] at h
      simp only [Option.toList_some, List.singleton_append] at h
      rcases Nat.eq_zero_or_pos (k - ps.length) with hz | hpos
      · rw [hz, List.getElem?_cons_zero] at h
        exact .inl ⟨_, h0, by simp only; omega, h⟩
      · rw [List.getElem?_cons, if_neg (by omega)] at h
        simp only [List.getElem?_map, Option.map_eq_some_iff] at h
        obtain ⟨j, -, rfl⟩ := h
        exact .inr rfl

theorem writeNode_old (u : Units K) (s : Writing K) (n : Node K) (hb : ByIdOk s) (k : Nat) (q : GenParticle K) (h : s.particles[k]? = some q) :
    ∃ q', (writeNode u s n).particles[k]? = some q' ∧ q'.pid = q.pid ∧ q'.mass = q.mass ∧ q'.production = q.production ∧
      (q' = q ∨ ((q.status = 1 ∨ q.status = 2) ∧ q'.status = 2)) := by
  obtain ⟨ps, p, h0, h1, h2, h3, h4, h5, h6, h7⟩ := writeNode_particles u s n hb
  obtain ⟨q', hq', hr⟩ := h3 k q h
  refine ⟨q', ?_, hr⟩
  rw [writeNode]
  simp only [h0]
  have : k < ps.length := by by_contra hn; rw [List.getElem?_eq_none (by omega)] at hq'; simp at hq'
  rw [List.append_assoc, List.getElem?_append_left this]
  exact hq'

theorem writeNode_byId (u : Units K) (s : Writing K) (n : Node K) (hb : ByIdOk s) : ByIdOk (writeNode u s n) := by
  obtain ⟨ps, p, h0, h1, h2, h3, h4, h5, h6, h7⟩ := writeNode_particles u s n hb
  intro id k hk
  rw [writeNode] at hk
  simp only [h0] at hk
  rcases recordIds_mem _ _ _ _ _ hk with hk | ⟨j, hj, rfl⟩
  · obtain ⟨q, hq, hst⟩ := hb id k hk
    obtain ⟨q', hq', -, -, -, hc⟩ := writeNode_old u s n hb k q hq
    refine ⟨q', hq', ?_⟩
    rcases hc with rfl | hc
    · exact hst
    · exact .inr hc.2
  · rw [writeNode]
    simp only [h0]
    refine ⟨outgoing u n.record (-((s.vertices.length : Int) + 1)) j, ?_, .inl rfl⟩
    rw [List.getElem?_append_right (by simp)]
    simp [hj]

theorem writeNode_ins (u : Units K) (s : Writing K) (n : Node K) (hb : ByIdOk s) (hi : InsOk s) : InsOk (writeNode u s n) := by
  obtain ⟨ps, p, h0, h1, h2, h3, h4, h5, h6, h7⟩ := writeNode_particles u s n hb
  intro v hv k hk
  have hlen : (writeNode u s n).particles.length = ps.length + (targetParticle n.record (n.isRoot && !s.seen)).toList.length +
      n.record.signature.secondaries.length := by
    rw [writeNode]; simp only [h0]; simp; omega
  rw [hlen]
  rw [writeNode] at hv
  simp only [h0, List.mem_append, List.mem_map, List.mem_singleton] at hv
  rcases hv with ⟨w, hw, rfl⟩ | rfl
  · have := hi w hw k (List.mem_of_mem_erase hk)
    omega
  · simp only [List.mem_cons, List.mem_map] at hk
    rcases hk with rfl | ⟨t, ht, rfl⟩
    · omega
    · have := List.mem_zipIdx' ht
      omega

/-- Nothing of a primary interaction is there yet. -/
structure NoBeam (s : Writing K) : Prop where
  seen : s.seen = false
  vertex : ∀ (j : Nat) w, s.vertices[j]? = some w → w.status ≠ 1
  particle : ∀ (k : Nat) p, s.particles[k]? = some p → p.status ≠ 4 ∧ p.status ≠ 20

theorem vertexStatus_one (r : Record K) (b : Bool) : vertexStatus r b = 1 ↔ b = true := by
  cases b
  · unfold vertexStatus
    simp only [Bool.false_eq_true, if_false, iff_false]
    split <;> decide
  · simp [vertexStatus]

theorem writeNode_vertices (u : Units K) (s : Writing K) (n : Node K) :
    (writeNode u s n).vertices.length = s.vertices.length + 1 ∧
    (∀ (j : Nat) w, (writeNode u s n).vertices[j]? = some w → (∃ w0, s.vertices[j]? = some w0 ∧ w.status = w0.status) ∨
      (j = s.vertices.length ∧ w.status = vertexStatus n.record (n.isRoot && !s.seen))) := by
  rw [writeNode]
  refine ⟨by simp, fun j w h => ?_⟩
  simp only at h
  rcases Nat.lt_or_ge j s.vertices.length with hlt | hge
  · rw [List.getElem?_append_left (by simpa using hlt), List.getElem?_map, Option.map_eq_some_iff] at h
    obtain ⟨w0, h1, rfl⟩ := h
    exact .inl ⟨w0, h1, rfl⟩
  · rw [List.getElem?_append_right (by simpa using hge)] at h
    have h0 : j - s.vertices.length = 0 := by
      by_contra hn
      rw [List.getElem?_eq_none (by simp; omega)] at h; simp at h
    simp only [List.length_map, h0, List.getElem?_cons_zero, Option.some.injEq] at h
    subst h
    exact .inr ⟨by omega, rfl⟩

theorem writeNode_before (u : Units K) (s : Writing K) (n : Node K) (hn : n.isRoot = false) (hb : ByIdOk s) (h : NoBeam s) : NoBeam (writeNode u s n) where
  seen := by rw [writeNode]; simp [hn, h.seen]
  vertex := by
    intro j w hw
    rcases (writeNode_vertices u s n).2 j w hw with ⟨w0, h1, h2⟩ | ⟨-, h2⟩
    · rw [h2]; exact h.vertex j w0 h1
    · rw [h2, hn, Bool.false_and]
      intro hc
      rw [vertexStatus_one] at hc; simp at hc
  particle := by
    intro k q hq
    rcases writeNode_cases u s n hb k q hq with ⟨q0, h1, rfl | h2⟩ | ⟨-, rfl⟩ | ⟨_, -, -, ht⟩ | h2
    · exact h.particle k q h1
    · rw [h2]; decide
    · rw [hn]; exact ⟨by simp [newPrimary, GenParticle.withStart], by simp [newPrimary, GenParticle.withStart]⟩
    · rw [hn, targetParticle] at ht
      split at ht
      · obtain rfl := Option.some.inj ht; exact ⟨by simp, by simp⟩
      · simp at ht
    · rw [h2]; decide

theorem writeNode_root (u : Units K) (s : Writing K) (n : Node K) (hn : n.isRoot = true) (hb : ByIdOk s) (h : NoBeam s) :
    (writeNode u s n).seen = true ∧ OneBeam n.record s.vertices.length (writeNode u s n).particles (writeNode u s n).vertices := by
  have hpr : (n.isRoot && !s.seen) = true := by rw [hn, h.seen]; rfl
  obtain ⟨ps, p, h0, h1, h2, h3, h4, h5, h6, h7⟩ := writeNode_particles u s n hb
  obtain ⟨rfl, rfl⟩ := h5 hpr
  refine ⟨by rw [writeNode]; simp [hn], ?_, ?_, ?_, ?_⟩
  · refine ⟨(writeNode u s n).vertices[s.vertices.length]'(by rw [(writeNode_vertices u s n).1]; omega), s.particles.length,
      (newPrimary n.record true).withStart u n.record, by simp, ?_, ?_, ?_, rfl, rfl, rfl, rfl, rfl, fun k q hq hst => ?_⟩
    · rcases (writeNode_vertices u s n).2 s.vertices.length _ (List.getElem?_eq_getElem (by rw [(writeNode_vertices u s n).1]; omega)) with ⟨w0, h8, -⟩ | ⟨-, h8⟩
      · simp at h8
      · rw [h8, hpr]; rfl
    · simp only [writeNode, h0]
      rw [List.getElem_append_right (by simp)]
      simp
    · rw [writeNode]; simp only [h0]
      rw [List.append_assoc, List.getElem?_append_left (by simp), List.getElem?_append_right (Nat.le_refl _)]
      simp
    · rcases writeNode_cases u s n hb k q hq with ⟨q0, h8, rfl | h9⟩ | ⟨hk, -⟩ | ⟨_, -, -, ht⟩ | h9
      · exact absurd hst (h.particle k q h8).1
      · rw [h9] at hst; cases hst
      · exact hk
      · rw [targetParticle] at ht
        split at ht
        · obtain rfl := Option.some.inj ht; simp at hst
        · simp at ht
      · rw [h9] at hst; cases hst
  · intro j w hw hst
    rcases (writeNode_vertices u s n).2 j w hw with ⟨w0, h8, h9⟩ | ⟨h8, -⟩
    · rw [h9] at hst; exact absurd hst (h.vertex j w0 h8)
    · exact h8
  · intro ht
    obtain ⟨t, ht1, ht2, ht3, ht4⟩ := (targets_spec n.record true).1 ht
    refine ⟨(writeNode u s n).vertices[s.vertices.length]'(by rw [(writeNode_vertices u s n).1]; omega), s.particles.length + 1, t, by simp, ?_, ?_, ht2, ht3, ht4, fun k q hq hst => ?_⟩
    · simp only [writeNode, h0]
      rw [List.getElem_append_right (by simp)]
      simp only [hpr, ht1]
      simp
    · rw [writeNode]; simp only [h0]
      rw [hpr, ht1]
      simp
    · rcases writeNode_cases u s n hb k q hq with ⟨q0, h8, rfl | h9⟩ | ⟨-, rfl⟩ | ⟨_, rfl, hk, -⟩ | h9
      · exact absurd hst (h.particle k q h8).2
      · rw [h9] at hst; cases hst
      · rw [hpr] at hst; cases hst
      · rw [h0] at hk; simpa using hk
      · rw [h9] at hst; cases hst
  · intro ht k q hq hst
    rcases writeNode_cases u s n hb k q hq with ⟨q0, h8, rfl | h9⟩ | ⟨-, rfl⟩ | ⟨_, -, -, ht'⟩ | h9
    · exact absurd hst (h.particle k q h8).2
    · rw [h9] at hst; cases hst
    · rw [hpr] at hst; cases hst
    · have := (targets_spec n.record (n.isRoot && !s.seen)).2 ht
      rw [ht'] at this; simp at this
    · rw [h9] at hst; cases hst

theorem writeNode_after (u : Units K) (s : Writing K) (n : Node K) (r : Record K) (i : Nat) (hb : ByIdOk s) (hi : InsOk s) (hs : s.seen = true)
    (h : OneBeam r i s.particles s.vertices) : (writeNode u s n).seen = true ∧ OneBeam r i (writeNode u s n).particles (writeNode u s n).vertices := by
  have hpr : (n.isRoot && !s.seen) = false := by rw [hs]; simp
  obtain ⟨ps, p, h0, h1, h2, h3, h4, h5, h6, h7⟩ := writeNode_particles u s n hb
  -- an incoming particle with status 4 or 20 stays where it is
  have hkeep : ∀ (v : GenVertex K) (b : Nat) (q : GenParticle K), s.vertices[i]? = some v → b ∈ v.ins → s.particles[b]? = some q →
      (q.status = 4 ∨ q.status = 20) → ∃ v', (writeNode u s n).vertices[i]? = some v' ∧ v'.status = v.status ∧ b ∈ v'.ins ∧ (writeNode u s n).particles[b]? = some q := by
    intro v b q hv hbm hq hst
    have hbp : b ≠ p := by
      rintro rfl
      rcases h7 with h7 | ⟨q', h7, h8⟩
      · rw [h7] at hq; simp at hq
      · rw [hq] at h7
        obtain rfl := Option.some.inj h7
        omega
    have hlt : i < s.vertices.length := by by_contra hn; rw [List.getElem?_eq_none (by omega)] at hv; simp at hv
    refine ⟨{ v with ins := v.ins.erase p }, ?_, rfl, (List.mem_erase_of_ne hbp).mpr hbm, ?_⟩
    · rw [writeNode]; simp only [h0]
      rw [List.getElem?_append_left (by simpa using hlt), List.getElem?_map, hv]
      rfl
    · obtain ⟨q', hq', -, -, -, rfl | hc⟩ := writeNode_old u s n hb b q hq
      · exact hq'
      · omega
  have hnew : ∀ (k : Nat) q, (writeNode u s n).particles[k]? = some q → (q.status = 4 ∨ q.status = 20) → s.particles[k]? = some q := by
    intro k q hq hst
    rcases writeNode_cases u s n hb k q hq with ⟨q0, h8, rfl | h9⟩ | ⟨-, rfl⟩ | ⟨_, -, -, ht⟩ | h9
    · exact h8
    · omega
    · rw [hpr] at hst; rcases hst with hst | hst <;> cases hst
    · rw [hpr, targetParticle] at ht
      split at ht
      · obtain rfl := Option.some.inj ht; rcases hst with hst | hst <;> cases hst
      · simp at ht
    · omega
  refine ⟨by rw [writeNode]; simp [hs], ?_, ?_, ?_, ?_⟩
  · obtain ⟨v, b, q, b1, b2, b3, b4, b5, b6, b6', b7, b8, b9⟩ := h.beam
    obtain ⟨v', k1, k2, k3, k4⟩ := hkeep v b q b1 b3 b4 (.inl b5)
    exact ⟨v', b, q, k1, by rw [k2, b2], k3, k4, b5, b6, b6', b7, b8, fun k p hp hst => b9 k p (hnew k p hp (.inl hst)) hst⟩
  · intro j w hw hst
    rcases (writeNode_vertices u s n).2 j w hw with ⟨w0, h8, h9⟩ | ⟨-, h9⟩
    · exact h.vertex j w0 h8 (by rw [← h9]; exact hst)
    · rw [h9, hpr] at hst
      rw [vertexStatus_one] at hst; simp at hst
  · intro ht
    obtain ⟨v, b, q, b1, b3, b4, b5, b6, b7, b9⟩ := h.target ht
    obtain ⟨v', k1, k2, k3, k4⟩ := hkeep v b q b1 b3 b4 (.inr b5)
    exact ⟨v', b, q, k1, k3, k4, b5, b6, b7, fun k p hp hst => b9 k p (hnew k p hp (.inr hst)) hst⟩
  · intro ht k p hp hst
    exact h.noTarget ht k p (hnew k p hp (.inr hst)) hst

theorem fold_before (u : Units K) (l : List (Node K)) : ∀ s : Writing K, (∀ n ∈ l, n.isRoot = false) → ByIdOk s → InsOk s → NoBeam s →
    ByIdOk (l.foldl (writeNode u) s) ∧ InsOk (l.foldl (writeNode u) s) ∧ NoBeam (l.foldl (writeNode u) s) ∧
      (l.foldl (writeNode u) s).vertices.length = s.vertices.length + l.length := by
  induction l with
  | nil => intro s _ h1 h2 h3; exact ⟨h1, h2, h3, by simp⟩
  | cons n l ih =>
    intro s hl h1 h2 h3
    obtain ⟨i1, i2, i3, i4⟩ := ih (writeNode u s n) (fun m hm => hl m (by simp [hm])) (writeNode_byId u s n h1) (writeNode_ins u s n h1 h2)
      (writeNode_before u s n (hl n (by simp)) h1 h3)
    exact ⟨i1, i2, i3, by rw [List.foldl_cons, i4, (writeNode_vertices u s n).1, List.length_cons]; omega⟩

theorem fold_after (u : Units K) (r : Record K) (i : Nat) (l : List (Node K)) : ∀ s : Writing K, ByIdOk s → InsOk s → s.seen = true →
    OneBeam r i s.particles s.vertices → OneBeam r i (l.foldl (writeNode u) s).particles (l.foldl (writeNode u) s).vertices := by
  induction l with
  | nil => intro s _ _ _ h; exact h
  | cons n l ih =>
    intro s h1 h2 h3 h4
    obtain ⟨a1, a2⟩ := writeNode_after u s n r i h1 h2 h3 h4
    exact ih _ (writeNode_byId u s n h1) (writeNode_ins u s n h1 h2) a1 a2

/-- A tree with a root is written with exactly one primary vertex (status 1), that of its first root; the one beam particle (status 4) enters it,
and so does the one target with status 20, if that root has a target. -/
theorem C61_beam (u : Units K) (nweights : Nat) (t : ITree K) (number : Nat) (before after : List (Node K)) (root : Node K)
    (ht : t.nodes = before ++ root :: after) (hroot : root.parent = none) (hbefore : ∀ n ∈ before, n.parent ≠ none) :
    OneBeam root.record before.length (writeEvent u nweights t number).particles (writeEvent u nweights t number).vertices := by
  rw [writeEvent]
  simp only [ht, List.foldl_append, List.foldl_cons]
  obtain ⟨h1, h2, h3, h4⟩ := fold_before u before ⟨[], [], fun _ => none, false⟩ (fun n hn => by
    rw [Node.isRoot]
    cases h : n.parent with
    | none => exact absurd h (hbefore n hn)
    | some => rfl) (by intro id k h; simp at h) (by intro v hv; simp at hv) ⟨rfl, by simp, by simp⟩
  generalize before.foldl (writeNode u) ⟨[], [], fun _ => none, false⟩ = s at h1 h2 h3 h4
  obtain ⟨r1, r2⟩ := writeNode_root u s root (by rw [Node.isRoot, hroot]; rfl) h1 h3
  have h4' : s.vertices.length = before.length := by simpa using h4
  rw [h4'] at r2
  exact fold_after u _ _ after _ (writeNode_byId u s root h1) (writeNode_ins u s root h1 h2) r1 r2

/-- Every tree with a root has a first one. -/
theorem first_root (nodes : List (Node K)) (h : ∃ n ∈ nodes, n.parent = none) :
    ∃ before root after, nodes = before ++ root :: after ∧ root.parent = none ∧ ∀ n ∈ before, n.parent ≠ none := by
  induction nodes with
  | nil => simp at h
  | cons n nodes ih =>
    by_cases hn : n.parent = none
    · exact ⟨[], n, nodes, rfl, hn, by simp⟩
    · obtain ⟨b, r, a, h1, h2, h3⟩ := ih (by
        obtain ⟨m, hm, hr⟩ := h
        rcases List.mem_cons.mp hm with rfl | hm
        · exact absurd hr hn
        · exact ⟨m, hm, hr⟩)
      refine ⟨n :: b, r, a, by rw [h1]; rfl, h2, fun m hm => ?_⟩
      rcases List.mem_cons.mp hm with rfl | hm
      · exact hn
      · exact h3 m hm

end

end Siren.Io
