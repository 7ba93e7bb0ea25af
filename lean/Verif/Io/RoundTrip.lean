import Verif.Io.LinkProps
import Verif.Io.PlaceProps
import Mathlib.Tactic.FieldSimp

set_option autoImplicit false

/-!
# C69: a tree that is written and read back is the same tree
-/

namespace Siren.Io

open Siren Siren.Records

section
variable {K : Type} [Field K]

/-! ## Specification -/

/-- A record as the code makes them: arrays of their fixed sizes, all entries present for every secondary, all identifiers set. -/
structure Whole (r : Record K) : Prop where
  position : r.primaryInitialPosition.length = 3
  momentum : r.primaryMomentum.length = 4
  vertex : r.interactionVertex.length = 3
  primaryId : r.primaryId.set = true
  ids : r.secondaryIds.length = r.signature.secondaries.length
  masses : r.secondaryMasses.length = r.signature.secondaries.length
  momenta : r.secondaryMomenta.length = r.signature.secondaries.length
  helicities : r.secondaryHelicities.length = r.signature.secondaries.length
  times : r.secondaryTimes.length = r.signature.secondaries.length
  idsSet : ∀ id ∈ r.secondaryIds, id.set = true
  momentaSize : ∀ p ∈ r.secondaryMomenta, p.length = 4
  keys : ∀ kv ∈ r.interactionParameters, kv.1 ≠ ""

/-- The primary of `r` is secondary `j` of `m`. -/
structure SameParticle (m : Record K) (j : Nat) (r : Record K) : Prop where
  pid : m.signature.secondaries[j]? = some r.signature.primary
  momentum : m.secondaryMomenta[j]? = some r.primaryMomentum
  mass : m.secondaryMasses[j]? = some r.primaryMass
  helicity : m.secondaryHelicities[j]? = some r.primaryHelicity

/-- A tree whose further interactions continue the secondaries they name. -/
structure Faithful (nodes : List (Node K)) : Prop where
  linked : Linked nodes
  whole : ∀ n ∈ nodes, Whole n.record
  same : ∀ (i : Nat) n k m (j : Nat), nodes[i]? = some n → n.parent = some k → nodes[k]? = some m →
    m.record.secondaryIds[j]? = some n.record.primaryId → SameParticle m.record j n.record

/-- What a file keeps of a record: of a target only what a target particle carries, so nothing for a decay or an unknown target. -/
def kept (r : Record K) : Record K :=
  { r with
    targetId := if HasTarget r then (if r.targetId.set then r.targetId else unsetId) else unsetId
    targetMass := if HasTarget r then r.targetMass else 0
    targetHelicity := if HasTarget r then r.targetHelicity else 0 }

/-! ## Reading what was written -/

theorem core_fields {q r : GenParticle K} (h : q.core = r.core) : q.momentum = r.momentum ∧ q.pid = r.pid ∧ q.mass = r.mass ∧
    q.helicity = r.helicity ∧ q.time = r.time :=
  ⟨(congrArg GenParticle.momentum h :), (congrArg GenParticle.pid h :), (congrArg GenParticle.mass h :), (congrArg GenParticle.helicity h :),
    (congrArg GenParticle.time h :)⟩

theorem storedId_of {q : GenParticle K} {id : ParticleID} (h : q.ident = identAttr id) (hs : id.set = true) : storedId q = id := by
  rw [storedId, h, identAttr, if_pos hs]
  cases id
  simp_all

theorem three {l : List K} (h : l.length = 3) : [l.getD 0 0, l.getD 1 0, l.getD 2 0] = l := by
  match l, h with
  | [a, b, c], _ => rfl

theorem four {l : List K} (h : l.length = 4) : sirenMomentum (momentumOf l) = l := by
  match l, h with
  | [a, b, c, d], _ => rfl

/-- The identifiers the reader knows are those of the particles. -/
def IdsOk (e : GenEvent K) (ids : Ids) : Prop := ∀ x ∈ ids.known, ∃ q, e.particles[x.1]? = some q ∧ storedId q = x.2

theorem getOrAssign_ok {e : GenEvent K} {ids : Ids} (h : IdsOk e ids) (gen : Nat → ParticleID) {k : Nat} {q : GenParticle K}
    (hq : e.particles[k]? = some q) (hs : (storedId q).set = true) :
    ∃ ids', getOrAssignId gen ids k q = (storedId q, ids') ∧ IdsOk e ids' := by
  rw [getOrAssignId]
  cases hf : ids.known.find? (fun x => x.1 = k) with
  | some x =>
    obtain ⟨r, h1, h2⟩ := h x (List.mem_of_find?_eq_some hf)
    have hx : x.1 = k := by simpa using List.find?_some hf
    rw [hx, hq] at h1
    obtain rfl := Option.some.inj h1
    exact ⟨ids, by simp only [← h2], h⟩
  | none =>
    simp only [hs, if_true]
    refine ⟨_, rfl, fun x hx => ?_⟩
    simp only [List.mem_append, List.mem_singleton] at hx
    rcases hx with hx | rfl
    · exact h x hx
    · exact ⟨q, hq, rfl⟩

/-- The primary particle of a record. -/
structure ReadsPrimary (u : Units K) (r : Record K) (q : GenParticle K) : Prop where
  started : Started u r q
  momentum : q.momentum = momentumOf r.primaryMomentum
  pid : q.pid = r.signature.primary
  mass : q.mass = some r.primaryMass
  helicity : q.helicity = some r.primaryHelicity
  id : storedId q = r.primaryId
  status : q.status = 2 ∨ q.status = 4

theorem map_getD {A : Type} (l : List A) (d : A) (n : Nat) (h : l.length = n) : (List.range n).map (fun j => l.getD j d) = l := by
  subst h
  apply List.ext_getElem
  · simp
  · intro i h1 h2; simp at h1; simp [h1]

/-- The loop over outgoing particles at the positions `ks` with the particles `qs`. -/
theorem readOuts_ok {e : GenEvent K} (env : Env K) (strict : Bool) (ks : List Nat) (qs : List (GenParticle K)) (hel : GenParticle K → K)
    (h : List.Forall₂ (fun k q => e.particles[k]? = some q ∧ (storedId q).set = true ∧ q.helicity = some (hel q)) ks qs) :
    ∀ (ids : Ids) (r : Record K), IdsOk e ids → ∃ ids', readOuts env e strict ks ids r = .ok ({ r with
      signature := { r.signature with secondaries := r.signature.secondaries ++ qs.map GenParticle.pid }
      secondaryMomenta := r.secondaryMomenta ++ qs.map fun q => sirenMomentum q.momentum
      secondaryMasses := r.secondaryMasses ++ qs.map fun q => q.mass.getD (env.massOf q.momentum)
      secondaryHelicities := r.secondaryHelicities ++ qs.map hel
      secondaryTimes := r.secondaryTimes ++ qs.map fun q => q.time.getD 0 * env.units.second
      secondaryIds := r.secondaryIds ++ qs.map storedId }, ids') ∧ IdsOk e ids' := by
  induction h with
  | nil => intro ids r h; exact ⟨ids, by simp [readOuts], h⟩
  | @cons k q ks qs hd _ ih =>
    intro ids r hids
    obtain ⟨h1, h2, h3⟩ := hd
    obtain ⟨ids1, h4, h5⟩ := getOrAssign_ok hids env.gen h1 h2
    obtain ⟨ids2, h6, h7⟩ := ih ids1 { r with
      signature := { r.signature with secondaries := r.signature.secondaries ++ [q.pid] }
      secondaryMomenta := r.secondaryMomenta ++ [sirenMomentum q.momentum]
      secondaryMasses := r.secondaryMasses ++ [q.mass.getD (env.massOf q.momentum)]
      secondaryHelicities := r.secondaryHelicities ++ [hel q]
      secondaryTimes := r.secondaryTimes ++ [q.time.getD 0 * env.units.second]
      secondaryIds := r.secondaryIds ++ [storedId q] } h5
    refine ⟨ids2, ?_, h7⟩
    rw [readOuts]
    simp only [GenEvent.particle, h1, Res.bind, h3, required, h4]
    rw [h6]
    simp

theorem readParams_ok (ps : List (String × K)) (h : ∀ kv ∈ ps, kv.1 ≠ "") : readParams (ps.map fun kv => ("siren.param." ++ kv.1, kv.2)) = ps := by
  unfold readParams
  induction ps with
  | nil => rfl
  | cons kv ps ih =>
    rw [List.map_cons, List.filterMap_cons]
    have hne : kv.1.toList ≠ [] := by
      intro hc
      apply h kv (by simp)
      rwa [String.toList_eq_nil_iff] at hc
    simp only [String.toList_append]
    rw [if_pos]
    · simp only [List.drop_left, String.ofList_toList]
      rw [ih (fun x hx => h x (by simp [hx]))]
    · constructor
      · rw [List.length_append]
        have := List.length_pos_iff.mpr hne
        omega
      · exact List.isPrefixOf_iff_prefix.mpr (List.prefix_append _ _)

/-- The vertex of a datum is read as its record. -/
theorem vertexToRecord_ok {u : Units K} (env : Env K) (strict : Bool) (hu : env.units = u) (hcm : u.cm ≠ 0) (hsec : u.second ≠ 0) (hc : u.c ≠ 0)
    {nodes : List (Node K)} (hf : Faithful nodes) {e : GenEvent K} {i : Nat} {n : Node K} {v : GenVertex K} {p first : Nat} (hn : nodes[i]? = some n)
    (h : NodeAt u nodes e.particles e.vertices i n v p first) :
    (∀ ids, IdsOk e ids → ∃ ids', vertexToRecord env e strict v ids = .ok (kept n.record, ids') ∧ IdsOk e ids') ∧
      parentVid e v = (match n.parent with | none => 0 | some k => vidOf k) := by
  have hw := hf.whole n (List.mem_of_getElem? hn)
  -- the primary
  obtain ⟨q, q1, q2, q3, q4, q5⟩ := h.primary
  have hprod : q.production = (match n.parent with | none => 0 | some k => vidOf k) := by
    cases hp : n.parent with
    | none => exact (core_ident (q4 hp)).2
    | some k =>
      obtain ⟨m, j, w, a1, a2, a3, a4, a5, a6, a7⟩ := q5 k hp
      exact (core_ident a6).2
  have hprim : ReadsPrimary u n.record q := by
    cases hp : n.parent with
    | none =>
      have hcore := q4 hp
      obtain ⟨c1, c2, c3, c4, -⟩ := core_fields hcore
      exact ⟨q2, c1, c2, c3, c4, storedId_of (core_ident hcore).1 hw.primaryId, q3⟩
    | some k =>
      obtain ⟨m, j, w, a1, a2, a3, a4, a5, a6, a7⟩ := q5 k hp
      obtain ⟨s1, s2, s3, s4⟩ := hf.same i n k m j hn hp a1 a3
      obtain ⟨c1, c2, c3, c4, -⟩ := core_fields a6
      refine ⟨q2, ?_, ?_, ?_, ?_, storedId_of (by rw [(core_ident a6).1, outgoing]; simp [a3]) hw.primaryId, q3⟩
      · rw [c1, outgoing]; simp only [List.getD, s2, Option.getD_some]
      · rw [c2, outgoing]; simp only [List.getD, s1, Option.getD_some]
      · rw [c3, outgoing]; exact s3
      · rw [c4, outgoing]; simp only [List.getD, s4, Option.getD_some]
  have hfp : findPrimary e v = some p := by
    rw [findPrimary, h.ins, List.find?_cons_of_pos]
    rw [q1]
    rcases q3 with q3 | q3 <;> simp [q3]
  have hpnot : ∀ l, findTarget e { v with ins := p :: l } = findTarget e { v with ins := l } := by
    intro l
    rw [findTarget, List.find?_cons_of_neg]
    · rfl
    · rw [q1]
      rcases q3 with q3 | q3 <;> simp [q3]
  have hvins : ∀ l, v.ins = l → findTarget e v = findTarget e { v with ins := l } := by rintro l rfl; rfl
  refine ⟨fun ids hids => ?_, by rw [parentVid, hfp]; simp only [q1]; exact hprod⟩
  obtain ⟨ids1, g1, g2⟩ := getOrAssign_ok hids env.gen q1 (by rw [hprim.id]; exact hw.primaryId)
  -- the outgoing particles
  have houts : ∃ qs : List (GenParticle K), List.Forall₂ (fun k q => e.particles[k]? = some q ∧ (storedId q).set = true ∧ q.helicity = some (q.helicity.getD 0)) v.outs qs ∧
      qs.map GenParticle.core = (List.range n.record.signature.secondaries.length).map fun j => (outgoing u n.record (vidOf i) j).core := by
    rw [h.outs]
    have hpick : ∀ j ∈ List.range n.record.signature.secondaries.length, ∃ q, e.particles[first + j]? = some q ∧ q.core = (outgoing u n.record (vidOf i) j).core := by
      intro j hj
      obtain ⟨q, b1, b2, -⟩ := h.out j (List.mem_range.mp hj)
      exact ⟨q, b1, b2⟩
    have hset : ∀ j ∈ List.range n.record.signature.secondaries.length, ∀ q : GenParticle K, q.core = (outgoing u n.record (vidOf i) j).core →
        (storedId q).set = true ∧ q.helicity = some (q.helicity.getD 0) := by
      intro j hj q hq
      have hj' := List.mem_range.mp hj
      have hid : n.record.secondaryIds[j]? = some (n.record.secondaryIds[j]'(by rw [hw.ids]; exact hj')) := by simp
      have hsid := hw.idsSet _ (List.getElem_mem (l := n.record.secondaryIds) (n := j) (by rw [hw.ids]; exact hj'))
      constructor
      · rw [storedId_of (by rw [(core_ident hq).1, outgoing]; simp [hid]) hsid]; exact hsid
      · rw [(core_fields hq).2.2.2.1, outgoing]; simp
    generalize List.range n.record.signature.secondaries.length = l at hpick hset
    induction l with
    | nil => exact ⟨[], .nil, rfl⟩
    | cons a l ih =>
      obtain ⟨qs, i1, i2⟩ := ih (fun j hj => hpick j (by simp [hj])) (fun j hj => hset j (by simp [hj]))
      obtain ⟨q, b1, b2⟩ := hpick a (by simp)
      obtain ⟨b3, b4⟩ := hset a (by simp) q b2
      exact ⟨q :: qs, .cons ⟨b1, b3, b4⟩ i1, by simp [b2, i2]⟩
  obtain ⟨qs, o1, o2⟩ := houts
  have via : ∀ {B : Type} (f : GenParticle K → B), (∀ q, f q = f q.core) →
      qs.map f = (List.range n.record.signature.secondaries.length).map fun j => f (outgoing u n.record (vidOf i) j) := by
    intro B f hfc
    have := congrArg (List.map f) o2
    rw [List.map_map, List.map_map] at this
    have e1 : qs.map f = qs.map (f ∘ GenParticle.core) := List.map_congr_left fun q _ => hfc q
    rw [e1, this]
    exact List.map_congr_left fun j _ => (hfc _).symm
  have r1 : qs.map GenParticle.pid = n.record.signature.secondaries := by
    rw [via GenParticle.pid (fun _ => rfl)]; exact map_getD _ _ _ rfl
  have r2 : (qs.map fun q => sirenMomentum q.momentum) = n.record.secondaryMomenta := by
    rw [via (fun q => sirenMomentum q.momentum) (fun _ => rfl)]
    conv_rhs => rw [← map_getD n.record.secondaryMomenta [0, 0, 0, 0] _ hw.momenta]
    apply List.map_congr_left
    intro j hj
    have hj' : j < n.record.secondaryMomenta.length := by rw [hw.momenta]; exact List.mem_range.mp hj
    apply four
    simp only [List.getD, List.getElem?_eq_getElem hj', Option.getD_some]
    exact hw.momentaSize _ (List.getElem_mem hj')
  have r3 : (qs.map fun q => q.mass.getD (env.massOf q.momentum)) = n.record.secondaryMasses := by
    rw [via (fun q => q.mass.getD (env.massOf q.momentum)) (fun _ => rfl)]
    conv_rhs => rw [← map_getD n.record.secondaryMasses 0 _ hw.masses]
    apply List.map_congr_left
    intro j hj
    have hj' : j < n.record.secondaryMasses.length := by rw [hw.masses]; exact List.mem_range.mp hj
    simp [outgoing, hj']
  have r4 : (qs.map fun q => q.helicity.getD 0) = n.record.secondaryHelicities := by
    rw [via (fun q => q.helicity.getD 0) (fun _ => rfl)]
    exact map_getD _ _ _ hw.helicities
  have r5 : (qs.map fun q => q.time.getD 0 * env.units.second) = n.record.secondaryTimes := by
    rw [via (fun q => q.time.getD 0 * env.units.second) (fun _ => rfl)]
    conv_rhs => rw [← map_getD n.record.secondaryTimes 0 _ hw.times]
    apply List.map_congr_left
    intro j hj
    have hj' : j < n.record.secondaryTimes.length := by rw [hw.times]; exact List.mem_range.mp hj
    simp only [outgoing, List.getD, List.getElem?_eq_getElem hj', Option.map_some, Option.getD_some, hu]
    field_simp
  have r6 : qs.map storedId = n.record.secondaryIds := by
    rw [via storedId (fun _ => rfl)]
    conv_rhs => rw [← map_getD n.record.secondaryIds unsetId _ hw.ids]
    apply List.map_congr_left
    intro j hj
    have hj' : j < n.record.secondaryIds.length := by rw [hw.ids]; exact List.mem_range.mp hj
    simp only [List.getD, List.getElem?_eq_getElem hj', Option.getD_some]
    exact storedId_of (by rw [outgoing]; simp [hj']) (hw.idsSet _ (List.getElem_mem hj'))
  -- positions
  have hcancel : ∀ x : K, x * (1 / u.cm) * u.cm = x := by intro x; field_simp
  have hpos : [v.position.x * u.cm, v.position.y * u.cm, v.position.z * u.cm] = n.record.interactionVertex := by
    rw [h.position, vertexPosition]
    simp only [hcancel]
    exact three hw.vertex
  have htime : v.position.t * u.cm / u.c = n.record.interactionTime := by
    rw [h.position, vertexPosition]
    simp only [hcancel]
    field_simp
  have hstart : [n.record.primaryInitialPosition.getD 0 0 * (1 / u.cm) * u.cm, n.record.primaryInitialPosition.getD 1 0 * (1 / u.cm) * u.cm,
      n.record.primaryInitialPosition.getD 2 0 * (1 / u.cm) * u.cm] = n.record.primaryInitialPosition := by
    simp only [hcancel]; exact three hw.position
  have hst : n.record.primaryInitialTime / u.second * u.second = n.record.primaryInitialTime := by field_simp
  have hparams : readParams v.attrs = n.record.interactionParameters := by rw [h.attrs]; exact readParams_ok _ hw.keys
  -- put together
  rw [vertexToRecord]
  simp only [readPrimary, hfp, GenEvent.particle, q1, Res.bind, g1, hprim.helicity, hprim.started.x, hprim.started.y, hprim.started.z, hprim.started.t, required, hu]
  by_cases ht : HasTarget n.record
  · obtain ⟨b, tq, t1, t2⟩ := h.target ht
    have t3 : tq = { momentum := ⟨0, 0, 0, n.record.targetMass⟩
                     pid := n.record.signature.target
                     status := if b then 20 else 22
                     mass := some n.record.targetMass
                     production := 0
                     helicity := some n.record.targetHelicity
                     ident := identAttr n.record.targetId } := by
      rw [targetParticle, if_pos (show _ ∧ _ from ht)] at t2; exact (Option.some.inj t2).symm
    have hft : findTarget e v = some (first - 1) := by
      rw [hvins _ h.ins, if_pos ht, hpnot, findTarget, List.find?_cons_of_pos]
      rw [t1, t3]
      cases b <;> simp
    obtain ⟨ids2, w1, w2⟩ := readOuts_ok env strict v.outs qs (fun q => q.helicity.getD 0) o1 ids1 _ g2
    refine ⟨ids2, ?_, w2⟩
    simp only [readTarget, hft, GenEvent.particle, t1, Res.bind, t3, required]
    rw [w1]
    simp only [r1, r2, r3, r4, r5, r6, hpos, htime, hstart, hst, hparams, hprim.id, hprim.pid, hprim.mass, hprim.momentum, four hw.momentum,
      emptyRecord, List.nil_append, Option.getD_some]
    have hid : storedId (K := K) { momentum := ⟨0, 0, 0, n.record.targetMass⟩
                                   pid := n.record.signature.target
                                   status := if b then 20 else 22
                                   mass := some n.record.targetMass
                                   production := 0
                                   helicity := some n.record.targetHelicity
                                   ident := identAttr n.record.targetId } = if n.record.targetId.set then n.record.targetId else unsetId := by
      by_cases hs : n.record.targetId.set = true
      · rw [if_pos hs]; exact storedId_of rfl hs
      · rw [if_neg hs, storedId]; simp [identAttr, hs]
    simp only [hid, kept, if_pos ht]
  · have hft : findTarget e v = none := by
      rw [hvins _ h.ins, if_neg ht, hpnot, findTarget, List.find?_nil]
    have htt : (match v.unknownTarget with
        | some f => if f ≠ 0 then unknownType else decayType
        | none => decayType) = n.record.signature.target := by
      rw [h.unknownTarget]
      by_cases hunk : n.record.signature.target = unknownType
      · rw [if_pos hunk, hunk]; simp
      · rw [if_neg hunk]
        simp only
        by_contra hd
        exact ht ⟨Ne.symm hd, hunk⟩
    obtain ⟨ids2, w1, w2⟩ := readOuts_ok env strict v.outs qs (fun q => q.helicity.getD 0) o1 ids1 _ g2
    refine ⟨ids2, ?_, w2⟩
    simp only [readTarget, hft]
    rw [w1]
    simp only [r1, r2, r3, r4, r5, r6, hpos, htime, hstart, hst, hparams, hprim.id, hprim.pid, hprim.mass, hprim.momentum, four hw.momentum,
      emptyRecord, List.nil_append, Option.getD_some, kept, if_neg ht]
    simp only [Res.ok.injEq, Prod.mk.injEq, Record.mk.injEq, and_true]
    exact congrArg (fun tg => (⟨n.record.signature.primary, tg, n.record.signature.secondaries⟩ : Signature)) htt

theorem readVertices_ok (env : Env K) (e : GenEvent K) (strict : Bool) (vs : List (GenVertex K)) (rs : List (Record K))
    (h : List.Forall₂ (fun v r => ∀ ids, IdsOk e ids → ∃ ids', vertexToRecord env e strict v ids = .ok (r, ids') ∧ IdsOk e ids') vs rs) :
    ∀ ids, IdsOk e ids → readVertices env e strict vs ids = .ok (List.zipWith (fun v r => (v.id, r, parentVid e v)) vs rs) := by
  induction h with
  | nil => intro ids _; rfl
  | cons hd _ ih =>
    intro ids hids
    obtain ⟨ids', h1, h2⟩ := hd ids hids
    rw [readVertices, h1]
    simp only [Res.bind, ih ids' h2, List.zipWith_cons_cons]

theorem vidOf_inj {a b : Nat} (h : vidOf a = vidOf b) : a = b := by unfold vidOf at h; omega

/-- A tree of complete records, written to an event and read back with the same units, is the same tree: number, weights, order of the data,
parents, and every field of every record, except what is said about the target of an interaction without a target particle. -/
theorem C69_round_trip (env : Env K) (strict : Bool) (hcm : env.units.cm ≠ 0) (hsec : env.units.second ≠ 0) (hc : env.units.c ≠ 0)
    (t : ITree K) (hf : Faithful t.nodes) (number : Nat) (hnum : number < 2 ^ 64) :
    readEvent env strict (writeEvent env.units t.weights.length t number) =
      .ok { number := number
            weights := t.weights
            nodes := t.nodes.map fun n => ⟨kept n.record, n.parent⟩ } := by
  have hall := laid_all env.units t.nodes hf.linked
  have hnumber : (match (if number > 2 ^ 31 - 1 then some number else none) with
      | some n => n
      | none => (narrow number % 2 ^ 64).toNat) = number := by
    by_cases hb : number > 2 ^ 31 - 1
    · rw [if_pos hb]
    · rw [if_neg hb]
      simp only [narrow]
      omega
  set e := writeEvent env.units t.weights.length t number with he
  have hev : e.vertices = (t.nodes.foldl (writeNode env.units) ⟨[], [], fun _ => none, false⟩).vertices := rfl
  have hep : e.particles = (t.nodes.foldl (writeNode env.units) ⟨[], [], fun _ => none, false⟩).particles := rfl
  have hlen : e.vertices.length = t.nodes.length := hall.vertices
  have hnode : ∀ (i : Nat) (hi : i < t.nodes.length), ∃ v p first, NodeAt env.units t.nodes e.particles e.vertices i t.nodes[i] v p first := by
    intro i hi
    exact hall.node i t.nodes[i] hi (by simp)
  have hread : ∀ (i : Nat) (hi : i < t.nodes.length) (hi' : i < e.vertices.length),
      (∀ ids, IdsOk e ids → ∃ ids', vertexToRecord env e strict e.vertices[i] ids = .ok (kept t.nodes[i].record, ids') ∧ IdsOk e ids') ∧
      e.vertices[i].id = vidOf i ∧ parentVid e e.vertices[i] = (match t.nodes[i].parent with | none => 0 | some k => vidOf k) := by
    intro i hi hi'
    obtain ⟨v, p, first, hn⟩ := hnode i hi
    have hv : e.vertices[i] = v := by
      have := hn.vertex
      rw [List.getElem?_eq_getElem hi'] at this
      exact Option.some.inj this
    rw [hv]
    obtain ⟨h1, h2⟩ := vertexToRecord_ok env strict rfl hcm hsec hc hf (by simp) hn
    exact ⟨h1, hn.id, h2⟩
  have hinfos := readVertices_ok env e strict e.vertices (t.nodes.map fun n => kept n.record) (by
    rw [List.forall₂_iff_get]
    refine ⟨by simp [hlen], fun i h1 h2 => ?_⟩
    simp only [List.get_eq_getElem, List.getElem_map]
    exact (hread i (by omega) h1).1) ⟨[], 0⟩ (by intro x hx; simp at hx)
  set infos := List.zipWith (fun v r => (v.id, r, parentVid e v)) e.vertices (t.nodes.map fun n => kept n.record) with hi
  have hilen : infos.length = t.nodes.length := by rw [hi]; simp [hlen]
  have hget : ∀ (i : Nat) (h1 : i < infos.length) (h2 : i < t.nodes.length), infos[i] = (vidOf i, kept t.nodes[i].record, match t.nodes[i].parent with | none => 0 | some k => vidOf k) := by
    intro i h1 h2
    simp only [hi, List.getElem_zipWith, List.getElem_map]
    rw [(hread i h2 (by omega)).2.1, (hread i h2 (by omega)).2.2]
  have hvids : infos.map Prod.fst = (List.range t.nodes.length).map vidOf := by
    apply List.ext_getElem
    · simp [hilen]
    · intro i h1 h2
      simp only [List.length_map] at h1
      simp only [List.getElem_map, List.getElem_range]
      rw [hget i h1 (by omega)]
  have hnd : (infos.map Prod.fst).Nodup := by
    rw [hvids]
    exact (List.nodup_map_iff (fun a b => vidOf_inj)).mpr List.nodup_range
  have hinfo : ∀ (i : Nat) (h : i < t.nodes.length), infoOf infos (vidOf i) = (kept t.nodes[i].record, match t.nodes[i].parent with | none => 0 | some k => vidOf k) := by
    intro i h
    have := infoOf_spec hnd (List.getElem_mem (l := infos) (n := i) (by omega))
    rw [hget i (by omega) h] at this
    exact this
  have hpar : ∀ (i k : Nat) (h : i < t.nodes.length), t.nodes[i].parent = some k → k < i := by
    intro i k h hk
    exact (hf.linked.parent i t.nodes[i] k (by simp) hk).1
  have hcalls := placeAll_ordered (vids := infos.map Prod.fst) (parent := fun v => (infoOf infos v).2) hnd (by
    intro i v hv
    rw [hvids] at hv
    obtain ⟨hi1, rfl⟩ : ∃ h : i < t.nodes.length, v = vidOf i := by
      simp only [List.getElem?_map, Option.map_eq_some_iff] at hv
      obtain ⟨a, ha, rfl⟩ := hv
      have := getElem?_lt ha
      rw [List.length_range] at this
      rw [List.getElem?_range this] at ha
      obtain rfl := Option.some.inj ha
      exact ⟨this, rfl⟩
    rw [IsRootVid]
    simp only [hinfo i hi1]
    cases hp : t.nodes[i].parent with
    | none => exact .inl (.inl rfl)
    | some k =>
      have := hpar i k hi1 hp
      refine .inr ⟨k, this, ?_⟩
      rw [hvids]
      simp only [List.getElem?_map]
      rw [List.getElem?_range (by omega)]
      rfl)
  rw [readEvent, hinfos]
  simp only [Res.bind]
  rw [hcalls]
  have hcall : ((infos.map Prod.fst).map fun v => (v, if (infoOf infos v).2 = 0 ∨ !(infos.map Prod.fst).contains (infoOf infos v).2 then none else some (infoOf infos v).2)) =
      (List.range t.nodes.length).map fun i => (vidOf i, (t.nodes[i]?.bind Node.parent).map vidOf) := by
    rw [hvids, List.map_map]
    apply List.map_congr_left
    intro i hi1
    have hi1 := List.mem_range.mp hi1
    simp only [Function.comp_apply, hinfo i hi1, List.getElem?_eq_getElem hi1, Option.bind_some]
    cases hp : t.nodes[i].parent with
    | none => simp
    | some k =>
      have := hpar i k hi1 hp
      simp only [Option.map_some]
      rw [if_neg]
      rintro (h0 | h0)
      · unfold vidOf at h0; omega
      · simp only [Bool.not_eq_true', List.contains_eq_mem, decide_eq_false_iff_not] at h0
        exact h0 (List.mem_map.mpr ⟨k, List.mem_range.mpr (by omega), rfl⟩)
  have hweights : e.weights = t.weights := by
    show eventWeights t.weights.length t.weights = _
    rw [eventWeights, if_neg (by simp)]
  rw [hcall]
  congr 1
  refine ITree.mk.injEq .. ▸ ⟨hnumber, hweights, ?_⟩
  apply List.ext_getElem
  · simp
  · intro i h1 h2
    simp only [List.length_map, List.length_range] at h1
    simp only [List.getElem_map, List.getElem_range, hinfo i h1, List.getElem?_eq_getElem h1, Option.bind_some]
    congr 1
    cases hp : t.nodes[i].parent with
    | none => rfl
    | some k =>
      have := hpar i k h1 hp
      simp only [Option.map_some, Option.some.injEq]
      rw [List.findIdx_eq (by simp; omega)]
      simp only [List.getElem_map, List.getElem_range, decide_eq_true_eq, decide_eq_false_iff_not]
      refine ⟨trivial, fun j hj hc => ?_⟩
      have := vidOf_inj hc
      omega

end

/-! ## An instance -/

/-- A neutrino that scatters to a heavy lepton, which decays. -/
def scatterThenDecay : List (Node ℚ) := [
  ⟨{ signature := ⟨14, 2212, [5914, 2212]⟩
     primaryId := ⟨true, 7, 0⟩
     primaryInitialPosition := [0, 0, -1]
     primaryInitialTime := 0
     primaryMass := 0
     primaryMomentum := [3, 0, 0, 3]
     primaryHelicity := -1
     targetId := unsetId
     targetMass := 1
     targetHelicity := 0
     interactionVertex := [0, 0, 5]
     interactionTime := 2
     secondaryIds := [⟨true, 7, 1⟩, ⟨true, 7, 2⟩]
     secondaryMasses := [1, 1]
     secondaryMomenta := [[2, 0, 0, 2], [2, 0, 0, 1]]
     secondaryHelicities := [-1, 1]
     secondaryTimes := [2, 2]
     interactionParameters := [("bjorken_y", 1 / 3)] }, none⟩,
  ⟨{ signature := ⟨5914, decayType, [14, 22]⟩
     primaryId := ⟨true, 7, 1⟩
     primaryInitialPosition := [0, 0, 5]
     primaryInitialTime := 2
     primaryMass := 1
     primaryMomentum := [2, 0, 0, 2]
     primaryHelicity := -1
     targetId := unsetId
     targetMass := 0
     targetHelicity := 0
     interactionVertex := [0, 0, 6]
     interactionTime := 3
     secondaryIds := [⟨true, 7, 3⟩, ⟨true, 7, 4⟩]
     secondaryMasses := [0, 0]
     secondaryMomenta := [[1, 0, 0, 1], [1, 0, 0, 1]]
     secondaryHelicities := [-1, 1]
     secondaryTimes := [3, 3]
     interactionParameters := [] }, some 0⟩]

theorem scatterThenDecay_cases {i : Nat} {n : Node ℚ} (h : scatterThenDecay[i]? = some n) :
    (i = 0 ∧ n = scatterThenDecay[0]) ∨ (i = 1 ∧ n = scatterThenDecay[1]) := by
  match i with
  | 0 => exact .inl ⟨rfl, (Option.some.inj h).symm⟩
  | 1 => exact .inr ⟨rfl, (Option.some.inj h).symm⟩
  | i + 2 => rw [List.getElem?_eq_none (by simp [scatterThenDecay])] at h; cases h

theorem scatterThenDecay_linked : Linked scatterThenDecay where
  parent := by
    intro i n p hi hp
    rcases scatterThenDecay_cases hi with ⟨rfl, rfl⟩ | ⟨rfl, rfl⟩
    · cases hp
    · obtain rfl := Option.some.inj hp
      exact ⟨by decide, rfl, scatterThenDecay[0], 0, rfl, by decide, rfl⟩
  secondary := by
    intro i i' m m' j j' id hi hi' hj hj' h h' _
    rcases scatterThenDecay_cases hi with ⟨rfl, rfl⟩ | ⟨rfl, rfl⟩ <;> rcases scatterThenDecay_cases hi' with ⟨rfl, rfl⟩ | ⟨rfl, rfl⟩ <;>
      · rw [← h'] at h
        have hj : j < 2 := hj
        have hj' : j' < 2 := hj'
        interval_cases j <;> interval_cases j' <;> revert h <;> decide
  primary := by
    intro i i' n n' hi hi' hn hn' _
    rcases scatterThenDecay_cases hi with ⟨rfl, rfl⟩ | ⟨rfl, rfl⟩
    · exact absurd rfl hn
    · rcases scatterThenDecay_cases hi' with ⟨rfl, rfl⟩ | ⟨rfl, rfl⟩
      · exact absurd rfl hn'
      · rfl

/-- It meets the hypotheses of `C61_shared` and `C69_round_trip`. -/
theorem scatterThenDecay_faithful : Faithful scatterThenDecay where
  linked := scatterThenDecay_linked
  whole := by
    intro n hn
    simp only [scatterThenDecay, List.mem_cons, List.not_mem_nil, or_false] at hn
    rcases hn with rfl | rfl
    · exact ⟨rfl, rfl, rfl, rfl, rfl, rfl, rfl, rfl, rfl, by decide, by decide, by decide⟩
    · exact ⟨rfl, rfl, rfl, rfl, rfl, rfl, rfl, rfl, rfl, by decide, by decide, by decide⟩
  same := by
    intro i n k m j hi hk hm hj
    rcases scatterThenDecay_cases hi with ⟨rfl, rfl⟩ | ⟨rfl, rfl⟩
    · cases hk
    · obtain rfl := Option.some.inj hk
      rcases scatterThenDecay_cases hm with ⟨-, rfl⟩ | ⟨h, -⟩
      · match j with
        | 0 => exact ⟨rfl, rfl, rfl, rfl⟩
        | 1 => exact absurd hj (by decide)
        | j + 2 => rw [List.getElem?_eq_none (by simp [scatterThenDecay])] at hj; cases hj
      · cases h

/-- It meets the hypotheses of `C61_beam`, and its first root has a target. -/
example : scatterThenDecay = [] ++ scatterThenDecay[0] :: [scatterThenDecay[1]] ∧ (scatterThenDecay[0]).parent = none ∧
    HasTarget (scatterThenDecay[0]).record := ⟨rfl, rfl, by decide⟩

/-- Nothing is lost here: the decay has no target mass. -/
example : scatterThenDecay.map (fun n => (⟨kept n.record, n.parent⟩ : Node ℚ)) = scatterThenDecay := by
  simp [scatterThenDecay, kept, HasTarget, decayType, unknownType, unsetId]

end Siren.Io
