import Verif.Io.EventProps

set_option autoImplicit false

/-!
# C61: a secondary that interacts is one particle
-/

namespace Siren.Io

open Siren Siren.Records

section
variable {K : Type} [Field K]

/-- A tree whose identifiers tell which secondary each further interaction belongs to. -/
structure Linked (nodes : List (Node K)) : Prop where
  /-- a datum with a parent comes after it, and its primary is one of the parent's secondaries -/
  parent : ∀ (i : Nat) n p, nodes[i]? = some n → n.parent = some p → p < i ∧ n.record.primaryId.set = true ∧
    ∃ m j, nodes[p]? = some m ∧ j < m.record.signature.secondaries.length ∧ m.record.secondaryIds[j]? = some n.record.primaryId
  /-- no identifier is given to two secondaries -/
  secondary : ∀ (i i' : Nat) m m' (j j' : Nat) id, nodes[i]? = some m → nodes[i']? = some m' → j < m.record.signature.secondaries.length →
    j' < m'.record.signature.secondaries.length → m.record.secondaryIds[j]? = some id → m'.record.secondaryIds[j']? = some id →
    id.set = true → i = i' ∧ j = j'
  /-- no secondary interacts twice -/
  primary : ∀ (i i' : Nat) n n', nodes[i]? = some n → nodes[i']? = some n' → n.parent ≠ none → n'.parent ≠ none →
    n.record.primaryId = n'.record.primaryId → i = i'

/-- What is not changed when a secondary becomes a primary. -/
def GenParticle.core (q : GenParticle K) : GenParticle K :=
  { q with
    status := 0
    posX := none
    posY := none
    posZ := none
    initialTime := none }

/-- Vertex identifiers. -/
def vidOf (i : Nat) : Int := -((i : Int) + 1)

/-- The starting point of `q` is the one stored in `r`. -/
structure Started (u : Units K) (r : Record K) (q : GenParticle K) : Prop where
  x : q.posX = some (r.primaryInitialPosition.getD 0 0 * (1 / u.cm))
  y : q.posY = some (r.primaryInitialPosition.getD 1 0 * (1 / u.cm))
  z : q.posZ = some (r.primaryInitialPosition.getD 2 0 * (1 / u.cm))
  t : q.initialTime = some (r.primaryInitialTime / u.second)

/-- Where the vertex and the particles of datum `i` are: its primary at `p`, its target before `first`, its secondaries from `first` on. -/
structure NodeAt (u : Units K) (nodes : List (Node K)) (particles : List (GenParticle K)) (vertices : List (GenVertex K)) (i : Nat) (n : Node K)
    (v : GenVertex K) (p first : Nat) : Prop where
  vertex : vertices[i]? = some v
  id : v.id = vidOf i
  position : v.position = vertexPosition u n.record.interactionVertex n.record.interactionTime
  attrs : v.attrs = n.record.interactionParameters.map fun kv => ("siren.param." ++ kv.1, kv.2)
  unknownTarget : v.unknownTarget = if n.record.signature.target = unknownType then some 1 else none
  ins : v.ins = p :: (if HasTarget n.record then [first - 1] else [])
  outs : v.outs = (List.range n.record.signature.secondaries.length).map (first + ·)
  target : HasTarget n.record → ∃ b q, particles[first - 1]? = some q ∧ targetParticle n.record b = some q
  out : ∀ j < n.record.signature.secondaries.length, ∃ q, particles[first + j]? = some q ∧ q.core = (outgoing u n.record (vidOf i) j).core ∧
    (q.status = 1 ∨ q.status = 2)
  primary : ∃ q, particles[p]? = some q ∧ Started u n.record q ∧ (q.status = 2 ∨ q.status = 4) ∧
    (n.parent = none → q.core = (newPrimary n.record false).core) ∧
    ∀ k, n.parent = some k → ∃ m j w, nodes[k]? = some m ∧ j < m.record.signature.secondaries.length ∧
      m.record.secondaryIds[j]? = some n.record.primaryId ∧ vertices[k]? = some w ∧ w.outs[j]? = some p ∧
      q.core = (outgoing u m.record (vidOf k) j).core ∧ q.status = 2

theorem NodeAt.mono {u : Units K} {nodes : List (Node K)} {ps ps' : List (GenParticle K)} {vs vs' : List (GenVertex K)} {i : Nat} {n : Node K}
    {v : GenVertex K} {p first : Nat} (h : NodeAt u nodes ps vs i n v p first)
    (hv : ∀ (i : Nat) v, vs[i]? = some v → vs'[i]? = some v)
    (hq : ∀ (k : Nat) q, ps[k]? = some q → ∃ q', ps'[k]? = some q' ∧ q'.core = q.core ∧ (q'.status = q.status ∨ q'.status = 2))
    (hsame : ∀ k ∈ v.ins, ∀ q, ps[k]? = some q → ps'[k]? = some q) : NodeAt u nodes ps' vs' i n v p first where
  vertex := hv _ _ h.vertex
  id := h.id
  position := h.position
  attrs := h.attrs
  unknownTarget := h.unknownTarget
  ins := h.ins
  outs := h.outs
  target := by
    intro ht
    obtain ⟨b, q, h1, h2⟩ := h.target ht
    exact ⟨b, q, hsame _ (by rw [h.ins, if_pos ht]; simp) q h1, h2⟩
  out := by
    intro j hj
    obtain ⟨q, h1, h2, h3⟩ := h.out j hj
    obtain ⟨q', h4, h5, h6⟩ := hq _ q h1
    exact ⟨q', h4, by rw [h5, h2], by omega⟩
  primary := by
    obtain ⟨q, h1, h2, h3, h4, h5⟩ := h.primary
    refine ⟨q, hsame _ (by rw [h.ins]; simp) q h1, h2, h3, h4, fun k hk => ?_⟩
    obtain ⟨m, j, w, a1, a2, a3, a4, a5, a6, a7⟩ := h5 k hk
    exact ⟨m, j, w, a1, a2, a3, hv _ _ a4, a5, a6, a7⟩

/-- What the loop has done after `len` data. -/
structure Laid (u : Units K) (nodes : List (Node K)) (len : Nat) (s : Writing K) : Prop where
  vertices : s.vertices.length = len
  node : ∀ i n, i < len → nodes[i]? = some n → ∃ v p first, NodeAt u nodes s.particles s.vertices i n v p first
  byId : ∀ i m (j : Nat) id w, i < len → nodes[i]? = some m → j < m.record.signature.secondaries.length → m.record.secondaryIds[j]? = some id →
    id.set = true → s.vertices[i]? = some w → s.byId id = w.outs[j]?

theorem recordIds_get (r : Record K) (first : Nat) (m : ParticleID → Option Nat) (id : ParticleID) (j : Nat) (hj : j < r.signature.secondaries.length)
    (hid : r.secondaryIds[j]? = some id) (hs : id.set = true)
    (huniq : ∀ j', j' < r.signature.secondaries.length → r.secondaryIds[j']? = some id → j' = j) : recordIds r first m id = some (first + j) := by
  unfold recordIds
  have : ∀ (l : List Nat) (m : ParticleID → Option Nat), (∀ j ∈ l, j < r.signature.secondaries.length) → (j ∈ l ∨ m id = some (first + j)) →
      l.foldl (fun m j => match r.secondaryIds[j]? with
        | some id => if id.set then put m id (first + j) else m
        | none => m) m id = some (first + j) := by
    intro l
    induction l with
    | nil => intro m _ h; simpa using h
    | cons a l ih =>
      intro m hl h
      rw [List.foldl_cons]
      refine ih _ (fun k hk => hl k (by simp [hk])) ?_
      by_cases haj : a = j
      · subst haj
        right
        rw [hid]
        simp only [hs, if_true]
        rw [put, if_pos rfl]
      · rcases h with h | h
        · left
          rcases List.mem_cons.mp h with h | h
          · exact absurd h.symm haj
          · exact h
        · right
          cases ha : r.secondaryIds[a]? with
          | none => exact h
          | some i =>
            simp only
            split
            · rw [put, if_neg]
              · exact h
              · rintro rfl
                exact haj (huniq a (hl a (by simp)) ha)
            · exact h
  exact this _ m (fun k hk => List.mem_range.mp hk) (.inl (List.mem_range.mpr hj))

theorem recordIds_other (r : Record K) (first : Nat) (m : ParticleID → Option Nat) (id : ParticleID)
    (hno : ∀ j', j' < r.signature.secondaries.length → r.secondaryIds[j']? ≠ some id) : recordIds r first m id = m id := by
  unfold recordIds
  have : ∀ (l : List Nat) (m : ParticleID → Option Nat), (∀ j ∈ l, j < r.signature.secondaries.length) →
      l.foldl (fun m j => match r.secondaryIds[j]? with
        | some id => if id.set then put m id (first + j) else m
        | none => m) m id = m id := by
    intro l
    induction l with
    | nil => intro m _; rfl
    | cons a l ih =>
      intro m hl
      rw [List.foldl_cons, ih _ (fun k hk => hl k (by simp [hk]))]
      cases ha : r.secondaryIds[a]? with
      | none => rfl
      | some i =>
        simp only
        split
        · rw [put, if_neg]
          rintro rfl
          exact hno a (hl a (by simp)) ha
        · rfl
  exact this _ m (fun k hk => List.mem_range.mp hk)

theorem getElem?_lt {A : Type} {l : List A} {k : Nat} {a : A} (h : l[k]? = some a) : k < l.length := by
  by_contra hn
  rw [List.getElem?_eq_none (by omega)] at h
  cases h

theorem core_ident {q r : GenParticle K} (h : q.core = r.core) : q.ident = r.ident ∧ q.production = r.production := by
  have h1 := congrArg GenParticle.ident h
  have h2 := congrArg GenParticle.production h
  exact ⟨h1, h2⟩

theorem identAttr_inj {a b : ParticleID} (ha : a.set = true) (h : identAttr a = identAttr b) : a = b := by
  unfold identAttr at h
  rw [if_pos ha] at h
  split at h
  · next hb =>
    simp only [Option.some.injEq, Prod.mk.injEq] at h
    cases a; cases b; simp_all
  · cases h

theorem Laid.step {u : Units K} {nodes : List (Node K)} (hl : Linked nodes) {s : Writing K} {i : Nat} {n : Node K} (hn : nodes[i]? = some n)
    (h : Laid u nodes i s) : Laid u nodes (i + 1) (writeNode u s n) := by
  have hvl := h.vertices
  -- the primary: where it is, and what happens to the particles
  obtain ⟨ps, p, hpp, hnotin, hps, hsame, q, hq, hst, hqs, hq1, hq2⟩ : ∃ ps p, placePrimary u s n (n.isRoot && !s.seen) = (ps, p) ∧
      (∀ (k : Nat) (w : GenVertex K), s.vertices[k]? = some w → p ∉ w.ins) ∧
      (∀ (k : Nat) q, s.particles[k]? = some q → ∃ q', ps[k]? = some q' ∧ q'.core = q.core ∧ (q'.status = q.status ∨ q'.status = 2)) ∧
      (∀ (k : Nat) q, k ≠ p → s.particles[k]? = some q → ps[k]? = some q) ∧
      ∃ q, ps[p]? = some q ∧ Started u n.record q ∧ (q.status = 2 ∨ q.status = 4) ∧
        (n.parent = none → q.core = (newPrimary n.record false).core) ∧
        ∀ k, n.parent = some k → ∃ m j w, nodes[k]? = some m ∧ j < m.record.signature.secondaries.length ∧
          m.record.secondaryIds[j]? = some n.record.primaryId ∧ s.vertices[k]? = some w ∧ w.outs[j]? = some p ∧
          q.core = (outgoing u m.record (vidOf k) j).core ∧ q.status = 2 := by
    cases hp : n.parent with
    | none =>
      have hsh : sharedPrimary s.byId n = none := by simp [sharedPrimary, Node.isRoot, hp]
      refine ⟨_, _, by rw [placePrimary, hsh], ?_, ?_, ?_, (newPrimary n.record (n.isRoot && !s.seen)).withStart u n.record, ?_, ⟨rfl, rfl, rfl, rfl⟩, ?_, fun _ => rfl, fun k hk => by cases hk⟩
      · intro k w hw hm
        obtain ⟨m, hm'⟩ : ∃ m, nodes[k]? = some m := ⟨nodes[k]'(by have := getElem?_lt hw; have := getElem?_lt hn; omega), by simp⟩
        obtain ⟨v, p', first, hnode⟩ := h.node k m (by have := getElem?_lt hw; omega) hm'
        have hvw : v = w := by have := hnode.vertex; rw [hw] at this; exact (Option.some.inj this).symm
        subst hvw
        rw [hnode.ins] at hm
        rcases List.mem_cons.mp hm with rfl | hm
        · obtain ⟨q, hq, -⟩ := hnode.primary
          have := getElem?_lt hq; omega
        · split at hm
          · next ht =>
            obtain ⟨b, q, hq, -⟩ := hnode.target ht
            simp only [List.mem_singleton] at hm
            have := getElem?_lt hq; omega
          · simp at hm
      · intro k q hk
        exact ⟨q, by rw [List.getElem?_append_left (getElem?_lt hk)]; exact hk, rfl, .inl rfl⟩
      · intro k q _ hk
        rw [List.getElem?_append_left (getElem?_lt hk)]; exact hk
      · simp
      · simp only [GenParticle.withStart, newPrimary]
        split <;> simp
    | some k =>
      obtain ⟨hki, hset, m, j, hm, hj, hid⟩ := hl.parent i n k hn hp
      obtain ⟨w, p', first, hnode⟩ := h.node k m hki hm
      have hby := h.byId k m j _ w hki hm hj hid hset hnode.vertex
      have hout : w.outs[j]? = some (first + j) := by rw [hnode.outs]; simp [hj]
      have hsh : sharedPrimary s.byId n = some (first + j) := by
        simp only [sharedPrimary, Node.isRoot, hp, Option.isNone_some, Bool.not_false, hset, Bool.and_self, if_true]
        rw [hby, hout]
      obtain ⟨q, hq, hcore, hqst⟩ := hnode.out j hj
      have hident := core_ident hcore
      have hqid : q.ident = identAttr n.record.primaryId := by rw [hident.1, outgoing]; simp [hid]
      have hqpr : q.production = vidOf k := hident.2
      refine ⟨_, _, by rw [placePrimary, hsh], ?_, ?_, ?_, ({ q with status := 2 } : GenParticle K).withStart u n.record, ?_, ⟨rfl, rfl, rfl, rfl⟩, .inl rfl,
        (fun hc => by cases hc), fun k' hk' => ?_⟩
      · intro k1 w1 hw1 hmem
        obtain ⟨m1, hm1⟩ : ∃ m, nodes[k1]? = some m := ⟨nodes[k1]'(by have := getElem?_lt hw1; have := getElem?_lt hn; omega), by simp⟩
        have hk1 : k1 < i := by have := getElem?_lt hw1; omega
        obtain ⟨v, p1, first1, hnode1⟩ := h.node k1 m1 hk1 hm1
        have hvw : v = w1 := by have := hnode1.vertex; rw [hw1] at this; exact (Option.some.inj this).symm
        subst hvw
        rw [hnode1.ins] at hmem
        rcases List.mem_cons.mp hmem with he | hmem
        · obtain ⟨q1, hq1, -, -, hr1, hr2⟩ := hnode1.primary
          rw [← he, hq] at hq1
          obtain rfl := Option.some.inj hq1
          cases hpar : m1.parent with
          | none =>
            have := (core_ident (hr1 hpar)).2
            rw [hqpr] at this
            simp only [vidOf, newPrimary] at this
            omega
          | some k2 =>
            obtain ⟨m2, j2, w2, a1, a2, a3, -, -, a6, -⟩ := hr2 k2 hpar
            have hid2 : q.ident = identAttr m1.record.primaryId := by rw [(core_ident a6).1, outgoing]; simp [a3]
            rw [hqid] at hid2
            have := hl.primary i k1 n m1 hn hm1 (by rw [hp]; simp) (by rw [hpar]; simp) (identAttr_inj hset hid2)
            omega
        · split at hmem
          · next ht =>
            obtain ⟨b, q1, hq1, hq2⟩ := hnode1.target ht
            simp only [List.mem_singleton] at hmem
            rw [← hmem, hq] at hq1
            obtain rfl := Option.some.inj hq1
            rw [targetParticle] at hq2
            split at hq2
            · obtain rfl := Option.some.inj hq2
              simp only at hqst
              cases b <;> simp at hqst
            · cases hq2
          · simp at hmem
      · intro k1 q1 hk1
        rw [List.getElem?_modify, hk1]
        by_cases he : first + j = k1
        · subst he
          rw [hq] at hk1
          obtain rfl := Option.some.inj hk1
          exact ⟨({ q with status := 2 } : GenParticle K).withStart u n.record, by simp, rfl, .inr rfl⟩
        · exact ⟨q1, by simp [he], rfl, .inl rfl⟩
      · intro k1 q1 hne hk1
        rw [List.getElem?_modify, hk1]
        simp [Ne.symm hne]
      · rw [List.getElem?_modify, hq]; simp
      · obtain rfl := Option.some.inj hk'
        refine ⟨m, j, w, hm, hj, hid, hnode.vertex, hout, ?_, rfl⟩
        rw [← hcore]; rfl
  -- the state after the round
  have hverts : s.vertices.map (fun v => { v with ins := v.ins.erase p }) = s.vertices := by
    conv_rhs => rw [← List.map_id s.vertices]
    apply List.map_congr_left
    intro w hw
    obtain ⟨k, hk, he⟩ := List.getElem_of_mem hw
    rw [List.erase_of_not_mem (hnotin k w (by rw [← he]; simp))]
    rfl
  set ts := (targetParticle n.record (n.isRoot && !s.seen)).toList with hts
  set v : GenVertex K := { id := -((s.vertices.length : Int) + 1)
                           position := vertexPosition u n.record.interactionVertex n.record.interactionTime
                           status := vertexStatus n.record (n.isRoot && !s.seen)
                           ins := p :: ts.zipIdx.map fun t => ps.length + t.2
                           outs := (List.range n.record.signature.secondaries.length).map (ps.length + ts.length + ·)
                           attrs := n.record.interactionParameters.map fun kv => ("siren.param." ++ kv.1, kv.2)
                           unknownTarget := if n.record.signature.target = unknownType then some 1 else none } with hv
  have hw : writeNode u s n = ⟨ps ++ ts ++ (List.range n.record.signature.secondaries.length).map (outgoing u n.record (vidOf i)),
      s.vertices ++ [v], recordIds n.record (ps.length + ts.length) s.byId, s.seen || n.isRoot⟩ := by
    rw [writeNode]
    simp only [hpp]
    rw [hverts, hvl]
    rw [hvl] at hv
    rw [hv]
    rfl
  have hgrow : ∀ (k : Nat) q, ps[k]? = some q → (ps ++ ts ++ (List.range n.record.signature.secondaries.length).map (outgoing u n.record (vidOf i)))[k]? = some q := by
    intro k q hk
    rw [List.append_assoc, List.getElem?_append_left (getElem?_lt hk)]; exact hk
  have hvgrow : ∀ (k : Nat) w, s.vertices[k]? = some w → (s.vertices ++ [v])[k]? = some w := by
    intro k w hk
    rw [List.getElem?_append_left (getElem?_lt hk)]; exact hk
  have hvi : (s.vertices ++ [v])[i]? = some v := by rw [← hvl]; simp
  have hnew : NodeAt u nodes (ps ++ ts ++ (List.range n.record.signature.secondaries.length).map (outgoing u n.record (vidOf i))) (s.vertices ++ [v]) i n v p (ps.length + ts.length) := by
    have htl : ts = (if HasTarget n.record then (targetParticle n.record (n.isRoot && !s.seen)).toList else []) := by
      split
      · rfl
      · next ht => rw [hts]; exact (targets_spec n.record _).2 ht
    refine ⟨hvi, by rw [hv]; simp only [vidOf]; rw [hvl], rfl, rfl, rfl, ?_, rfl, fun ht => ?_, fun j hj => ?_, ?_⟩
    · show p :: _ = _
      congr 1
      by_cases ht : HasTarget n.record
      · obtain ⟨t, ht1, -⟩ := (targets_spec n.record (n.isRoot && !s.seen)).1 ht
        rw [if_pos ht, hts, ht1]; simp
      · rw [if_neg ht, hts, (targets_spec n.record _).2 ht]; rfl
    · obtain ⟨t, ht1, -⟩ := (targets_spec n.record (n.isRoot && !s.seen)).1 ht
      refine ⟨n.isRoot && !s.seen, t, ?_, ?_⟩
      · rw [hts, ht1]; simp
      · rwa [Option.toList_eq_singleton_iff] at ht1
    · refine ⟨outgoing u n.record (vidOf i) j, ?_, rfl, .inl rfl⟩
      rw [List.getElem?_append_right (by simp)]
      simp [hj]
    · refine ⟨q, hgrow p q hq, hst, hqs, hq1, fun k hk => ?_⟩
      obtain ⟨m, j, w, a1, a2, a3, a4, a5, a6, a7⟩ := hq2 k hk
      exact ⟨m, j, w, a1, a2, a3, hvgrow k w a4, a5, a6, a7⟩
  rw [hw]
  refine ⟨by simp [hvl], fun k m hk hm => ?_, fun k m j id w hk hm hj hid hset hwk => ?_⟩
  · rcases Nat.lt_or_ge k i with hlt | hge
    · obtain ⟨v', p', first', hnode⟩ := h.node k m hlt hm
      refine ⟨v', p', first', hnode.mono hvgrow (fun k q hk => ?_) (fun k1 hk1 q1 hq1 => ?_)⟩
      · obtain ⟨q', b1, b2, b3⟩ := hps k q hk
        exact ⟨q', hgrow k q' b1, b2, b3⟩
      · exact hgrow _ _ (hsame k1 q1 (fun he => hnotin k v' hnode.vertex (he ▸ hk1)) hq1)
    · obtain rfl : k = i := by omega
      rw [hn] at hm
      obtain rfl := Option.some.inj hm
      exact ⟨v, p, _, hnew⟩
  · simp only at hwk ⊢
    rcases Nat.lt_or_ge k i with hlt | hge
    · rw [recordIds_other]
      · rw [List.getElem?_append_left (by omega)] at hwk
        exact h.byId k m j id w hlt hm hj hid hset hwk
      · intro j' hj' hc
        have := (hl.secondary k i m n j j' id hm hn hj hj' hid hc hset).1
        omega
    · obtain rfl : k = i := by omega
      rw [hn] at hm
      obtain rfl := Option.some.inj hm
      rw [hvi] at hwk
      obtain rfl := Option.some.inj hwk
      rw [recordIds_get n.record _ s.byId id j hj hid hset (fun j' hj' hc => (hl.secondary k k n n j' j id hn hn hj' hj hc hid hset).2)]
      rw [hv]; simp [hj]

/-- The layout of a whole written event. -/
theorem laid_all (u : Units K) (nodes : List (Node K)) (hl : Linked nodes) :
    Laid u nodes nodes.length (nodes.foldl (writeNode u) ⟨[], [], fun _ => none, false⟩) := by
  have : ∀ (rest done : List (Node K)) s, done ++ rest = nodes → Laid u nodes done.length s → Laid u nodes nodes.length (rest.foldl (writeNode u) s) := by
    intro rest
    induction rest with
    | nil => intro done s he h; simp only [List.append_nil] at he; rw [← he] at h ⊢; exact h
    | cons n rest ih =>
      intro done s he h
      refine ih (done ++ [n]) _ (by simpa using he) ?_
      rw [List.length_append]
      exact h.step hl (by rw [← he]; simp)
  exact this nodes [] _ rfl ⟨rfl, fun i n hi => by simp at hi, fun i m j id w hi => by simp at hi⟩

/-- A secondary that interacts further is one particle: it leaves the vertex of its parent and enters the vertex of its own interaction, and no
other vertex. -/
theorem C61_shared (u : Units K) (nweights : Nat) (t : ITree K) (number : Nat) (hl : Linked t.nodes) (e : GenEvent K)
    (he : e = writeEvent u nweights t number) (i k : Nat) (n : Node K) (hn : t.nodes[i]? = some n) (hk : n.parent = some k) :
    ∃ v w p q, e.vertices[i]? = some v ∧ e.vertices[k]? = some w ∧ p ∈ v.ins ∧ p ∈ w.outs ∧ e.particles[p]? = some q ∧ q.status = 2 ∧
      q.production = w.id ∧ q.ident = identAttr n.record.primaryId ∧ ∀ (i' : Nat) v', e.vertices[i']? = some v' → p ∈ v'.ins → i' = i := by
  have hall := laid_all u t.nodes hl
  subst he
  rw [writeEvent]
  simp only
  generalize t.nodes.foldl (writeNode u) ⟨[], [], fun _ => none, false⟩ = s at hall
  obtain ⟨v, p, first, hv⟩ := hall.node i n (getElem?_lt hn) hn
  obtain ⟨q, q1, q2, q3, q4, q5⟩ := hv.primary
  obtain ⟨m, j, w, a1, a2, a3, a4, a5, a6, a7⟩ := q5 k hk
  obtain ⟨w', p', first', hw⟩ := hall.node k m (getElem?_lt a1) a1
  have hww : w' = w := by have := hw.vertex; rw [a4] at this; exact (Option.some.inj this).symm
  subst hww
  have hqid : q.ident = identAttr n.record.primaryId := by rw [(core_ident a6).1, outgoing]; simp [a3]
  have hqpr : q.production = vidOf k := (core_ident a6).2
  refine ⟨v, w', p, q, hv.vertex, a4, by rw [hv.ins]; simp, List.mem_of_getElem? a5, q1, a7, by rw [hqpr, hw.id], hqid, fun i' v' hv' hp => ?_⟩
  have hi' : i' < t.nodes.length := by have := getElem?_lt hv'; rw [hall.vertices] at this; exact this
  obtain ⟨v1, p1, first1, hn1⟩ := hall.node i' t.nodes[i'] hi' (by simp)
  have hvv : v1 = v' := by have := hn1.vertex; rw [hv'] at this; exact (Option.some.inj this).symm
  subst hvv
  rw [hn1.ins] at hp
  rcases List.mem_cons.mp hp with rfl | hp
  · obtain ⟨q', b1, -, -, b4, b5⟩ := hn1.primary
    rw [q1] at b1
    obtain rfl := Option.some.inj b1
    cases hpar : t.nodes[i'].parent with
    | none =>
      have := (core_ident (b4 hpar)).2
      rw [hqpr] at this
      simp only [vidOf, newPrimary] at this
      omega
    | some k2 =>
      obtain ⟨m2, j2, w2, c1, c2, c3, -, -, c6, -⟩ := b5 k2 hpar
      have hid2 : q.ident = identAttr t.nodes[i'].record.primaryId := by rw [(core_ident c6).1, outgoing]; simp [c3]
      rw [hqid] at hid2
      exact hl.primary i' i _ n (by simp) hn (by rw [hpar]; simp) (by rw [hk]; simp) (identAttr_inj (hl.parent i n k hn hk).2.1 hid2).symm
  · split at hp
    · next ht =>
      obtain ⟨b, q', b1, b2⟩ := hn1.target ht
      simp only [List.mem_singleton] at hp
      rw [← hp, q1] at b1
      obtain rfl := Option.some.inj b1
      rw [targetParticle] at b2
      split at b2
      · obtain rfl := Option.some.inj b2
        simp only at a7
        cases b <;> simp at a7
      · cases b2
    · simp at hp

end

end Siren.Io
