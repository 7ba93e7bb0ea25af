import Verif.Records.SecondaryModel

set_option autoImplicit false

/-!
# C08 and C09: finalizing the secondaries of an interaction, and starting from them
-/

namespace Siren.Records

open Siren

/-! ## Specification of C08 -/

/-- The calls made on secondary `i`. -/
def onSecondary (i : Nat) (calls : List XCall) : List SecCall :=
  calls.filterMap fun c => match c with
    | .secondary j c => if j = i then some c else none
    | _ => none

/-- The last value a kind of call supplied, if any. -/
def lastOf {A C : Type} (f : C → Option A) (calls : List C) : Option A := (calls.filterMap f).getLast?

def suppliedTime : SecCall → Option ℝ
  | .setTime t => some t
  | _ => none

def suppliedVertexTime : XCall → Option ℝ
  | .setInteractionTime t => some t
  | _ => none

def suppliedTargetMass : XCall → Option ℝ
  | .setTargetMass t => some t
  | _ => none

def suppliedTargetHelicity : XCall → Option ℝ
  | .setTargetHelicity t => some t
  | _ => none

/-- The parameter called `name` after the calls: the last value it was given since the last clearing. -/
def suppliedParameter (name : String) (calls : List XCall) : Option ℝ :=
  calls.foldl (fun acc c => match c with
    | .setParameter n v => if n = name then some v else acc
    | .clearParameters => none
    | _ => acc) none

/-- What a call on a secondary means for its kinematics, said with the calls of a primary record: `SetParticle` supplies mass,
four-momentum and helicity. -/
def meaning : SecCall → List Call
  | .setMass m => [.setMass m]
  | .setEnergy e => [.setEnergy e]
  | .setKinetic k => [.setKinetic k]
  | .setDirection d => [.setDirection d]
  | .setMomentum p => [.setMomentum p]
  | .setFourMomentum e p => [.setFourMomentum e p]
  | .setParticle m e p h => [.setMass m, .setFourMomentum e p, .setHelicity h]
  | .setHelicity h => [.setHelicity h]
  | .setTime _ => []
  | .getMass => [.getMass]
  | .getEnergy => [.getEnergy]
  | .getKinetic => [.getKinetic]
  | .getDirection => [.getDirection]
  | .getMomentum => [.getMomentum]
  | .getFour => [.getFour]

/-- The kinematics supplied to secondary `i`, as a record of its own. -/
noncomputable def kinematicsOf (i : Nat) (calls : List XCall) : Prim :=
  Prim.history 0 ((onSecondary i calls).flatMap meaning)

/-- A supplied number, or else `old`. -/
def orElse (o : Option ℝ) (old : Val ℝ) : Val ℝ :=
  match o with
  | some x => .num x
  | none => old

/-! ## Lemmas -/

theorem kinematic_eq : SecCall.kinematic = meaning := by
  funext c
  cases c <;> rfl

theorem lastOf_snoc {A C : Type} (f : C → Option A) (calls : List C) (c : C) :
    lastOf f (calls ++ [c]) = (f c).or (lastOf f calls) := by
  unfold lastOf
  rw [List.filterMap_append]
  cases h : f c <;> simp [h]

theorem onSecondary_snoc (i : Nat) (calls : List XCall) (c : XCall) :
    onSecondary i (calls ++ [c]) = onSecondary i calls ++ onSecondary i [c] := by
  simp [onSecondary, List.filterMap_append]

/-- What secondary `i` looks like after the calls. -/
noncomputable def expected (record : Record (Val ℝ)) (generated : Nat → ParticleID) (calls : List XCall) (i : Nat) (type : Int) : Sec where
  index := i
  id := (Sec.make record (generated i) i type).id
  type := type
  kin := kinematicsOf i calls
  time := (lastOf suppliedTime (onSecondary i calls)).map .num
  initialTime := orElse (lastOf suppliedVertexTime calls) record.interactionTime

theorem expected_nil (record : Record (Val ℝ)) (generated : Nat → ParticleID) (i : Nat) (type : Int) :
    expected record generated [] i type = Sec.make record (generated i) i type := by
  simp [expected, Sec.make, kinematicsOf, onSecondary, Prim.history, lastOf, orElse]

theorem secondaries_after (record : Record (Val ℝ)) (gt : ParticleID) (generated : Nat → ParticleID) (calls : List XCall) :
    (calls.foldl XRec.call (XRec.make record gt generated)).secondaries =
      record.signature.secondaries.mapIdx (expected record generated calls) := by
  induction calls using List.reverseRecOn with
  | nil =>
    simp only [List.foldl_nil, XRec.make]
    congr 1
  | append_singleton calls c ih =>
    rw [List.foldl_append, List.foldl_cons, List.foldl_nil]
    have key : ∀ (f : Nat → Int → Sec), (∀ i type, f i type = expected record generated (calls ++ [c]) i type) →
        record.signature.secondaries.mapIdx f =
          record.signature.secondaries.mapIdx (expected record generated (calls ++ [c])) := by
      intro f hf; congr 1; funext i type; exact hf i type
    cases c with
    | setInteractionTime t =>
      simp only [XRec.call, ih]
      apply List.ext_getElem?
      intro i
      rw [List.getElem?_map, List.getElem?_mapIdx, List.getElem?_mapIdx]
      cases record.signature.secondaries[i]? with
      | none => rfl
      | some type => simp [expected, kinematicsOf, onSecondary, lastOf, suppliedVertexTime, orElse]
    | secondary j c =>
      simp only [XRec.call, ih]
      apply List.ext_getElem?
      intro i
      rw [List.getElem?_modify, List.getElem?_mapIdx, List.getElem?_mapIdx]
      cases record.signature.secondaries[i]? with
      | none => simp
      | some type =>
        by_cases hji : j = i
        · subst hji
          simp only [Option.map_some, if_true]
          have h1 : onSecondary j (calls ++ [.secondary j c]) = onSecondary j calls ++ [c] := by
            simp [onSecondary]
          have h2 : lastOf suppliedVertexTime (calls ++ [.secondary j c]) = lastOf suppliedVertexTime calls := by
            rw [lastOf_snoc]; rfl
          simp only [expected, h1, h2, lastOf_snoc, kinematicsOf, ← kinematic_eq, Prim.history, List.flatMap_append, List.flatMap_cons,
            List.flatMap_nil, List.append_nil, List.foldl_append]
          cases c <;> rfl
        · have h1 : onSecondary i (calls ++ [.secondary j c]) = onSecondary i calls := by
            simp [onSecondary, hji]
          have h2 : lastOf suppliedVertexTime (calls ++ [.secondary j c]) = lastOf suppliedVertexTime calls := by
            rw [lastOf_snoc]; rfl
          simp [hji, expected, h1, h2, kinematicsOf]
    | setTargetMass m =>
      simp only [XRec.call, ih]
      apply key
      intro i type
      simp [expected, kinematicsOf, onSecondary, lastOf, suppliedVertexTime]
    | setTargetHelicity m =>
      simp only [XRec.call, ih]
      apply key
      intro i type
      simp [expected, kinematicsOf, onSecondary, lastOf, suppliedVertexTime]
    | clearParameters =>
      simp only [XRec.call, ih]
      apply key
      intro i type
      simp [expected, kinematicsOf, onSecondary, lastOf, suppliedVertexTime]
    | setParameter n m =>
      simp only [XRec.call, ih]
      apply key
      intro i type
      simp [expected, kinematicsOf, onSecondary, lastOf, suppliedVertexTime]

/-- The other members after the calls. -/
theorem target_after (record : Record (Val ℝ)) (gt : ParticleID) (generated : Nat → ParticleID) (calls : List XCall) :
    let x := calls.foldl XRec.call (XRec.make record gt generated)
    x.targetId = (if record.targetId.set then record.targetId else gt) ∧
    x.targetMass = orElse (lastOf suppliedTargetMass calls) record.targetMass ∧
    x.targetHelicity = orElse (lastOf suppliedTargetHelicity calls) record.targetHelicity ∧
    x.time = lastOf suppliedVertexTime calls := by
  induction calls using List.reverseRecOn with
  | nil => simp [XRec.make, lastOf, orElse]
  | append_singleton calls c ih =>
    simp only [List.foldl_append, List.foldl_cons, List.foldl_nil, lastOf_snoc]
    obtain ⟨h1, h2, h3, h4⟩ := ih
    cases c <;> simp [XRec.call, h1, h2, h3, h4, suppliedTargetMass, suppliedTargetHelicity, suppliedVertexTime, orElse]

theorem lookup_mapSet {A : Type} (k : String) (v : A) (l : List (String × A)) (name : String) :
    (mapSet k v l).lookup name = if name = k then some v else l.lookup name := by
  by_cases h : name = k
  · subst h
    rw [if_pos rfl]
    induction l with
    | nil => simp [mapSet]
    | cons p rest ih =>
      obtain ⟨k', v'⟩ := p
      unfold mapSet
      by_cases h1 : name < k'
      · simp [h1]
      · by_cases h2 : name = k'
        · simp [h2]
        · have hb : (name == k') = false := by simpa using h2
          simp [h1, h2, List.lookup_cons, hb, ih]
  · rw [if_neg h]
    have hb : (name == k) = false := by simpa using h
    induction l with
    | nil => simp [mapSet, List.lookup_cons, hb]
    | cons p rest ih =>
      obtain ⟨k', v'⟩ := p
      unfold mapSet
      by_cases h1 : k < k'
      · simp [h1, List.lookup_cons, hb]
      · by_cases h2 : k = k'
        · subst h2; simp [List.lookup_cons, hb]
        · simp [h1, h2, List.lookup_cons, ih]

/-- Keys in increasing order: what a `std::map` guarantees. -/
def Ordered {A : Type} (l : List (String × A)) : Prop := l.Pairwise fun a b => a.1 < b.1

theorem mapSet_keys {A : Type} (k : String) (v : A) (l : List (String × A)) (p : String × A) (h : p ∈ mapSet k v l) :
    p.1 = k ∨ p ∈ l := by
  induction l with
  | nil => simp [mapSet] at h; left; rw [h]
  | cons q rest ih =>
    obtain ⟨k', v'⟩ := q
    unfold mapSet at h
    split at h
    · rcases List.mem_cons.1 h with h | h
      · left; rw [h]
      · exact .inr h
    · split at h
      · rcases List.mem_cons.1 h with h | h
        · left; rw [h]
        · exact .inr (List.mem_cons_of_mem _ h)
      · rcases List.mem_cons.1 h with h | h
        · right; rw [h]; exact List.mem_cons_self
        · rcases ih h with h | h
          · exact .inl h
          · exact .inr (List.mem_cons_of_mem _ h)

theorem mapSet_ordered {A : Type} (k : String) (v : A) (l : List (String × A)) (h : Ordered l) : Ordered (mapSet k v l) := by
  induction l with
  | nil => simp [mapSet, Ordered]
  | cons q rest ih =>
    obtain ⟨k', v'⟩ := q
    have hq := List.pairwise_cons.1 h
    unfold mapSet
    split
    · rename_i hlt
      refine List.pairwise_cons.2 ⟨?_, h⟩
      intro p hp
      rcases List.mem_cons.1 hp with hp | hp
      · rw [hp]; exact hlt
      · exact lt_trans hlt (hq.1 p hp)
    · split
      · rename_i heq
        subst heq
        exact List.pairwise_cons.2 ⟨hq.1, hq.2⟩
      · rename_i h1 h2
        refine List.pairwise_cons.2 ⟨?_, ih hq.2⟩
        intro p hp
        rcases mapSet_keys k v rest p hp with hp | hp
        · rw [hp]; exact lt_of_le_of_ne (le_of_not_gt h1) (Ne.symm h2)
        · exact hq.1 p hp

theorem lookup_none {A : Type} (name : String) (l : List (String × A)) (h : ∀ p ∈ l, p.1 ≠ name) : l.lookup name = none := by
  induction l with
  | nil => rfl
  | cons q rest ih =>
    have hb : (name == q.1) = false := by simpa using Ne.symm (h q List.mem_cons_self)
    rw [List.lookup_cons, hb]
    exact ih fun p hp => h p (List.mem_cons_of_mem _ hp)

theorem lookup_merge (params : List (String × ℝ)) (h : Ordered params) (m : List (String × Val ℝ)) (name : String) :
    (params.foldl (fun m p => mapSet p.1 (.num p.2) m) m).lookup name =
      ((params.lookup name).map Val.num).or (m.lookup name) := by
  induction params generalizing m with
  | nil => simp
  | cons p rest ih =>
    have hp := List.pairwise_cons.1 h
    rw [List.foldl_cons, ih hp.2, lookup_mapSet, List.lookup_cons]
    by_cases hn : name = p.1
    · have : rest.lookup name = none := lookup_none name rest fun q hq => by
        rw [hn]; exact ne_of_gt (hp.1 q hq)
      simp [hn, hn ▸ this]
    · have hb : (name == p.1) = false := by simpa using hn
      simp [hn, hb]

theorem parameters_after (record : Record (Val ℝ)) (gt : ParticleID) (generated : Nat → ParticleID) (calls : List XCall) :
    let x := calls.foldl XRec.call (XRec.make record gt generated)
    Ordered x.parameters ∧ ∀ name, x.parameters.lookup name = suppliedParameter name calls := by
  induction calls using List.reverseRecOn with
  | nil => simp [XRec.make, suppliedParameter, Ordered]
  | append_singleton calls c ih =>
    simp only [List.foldl_append, List.foldl_cons, List.foldl_nil, suppliedParameter]
    obtain ⟨h1, h2⟩ := ih
    cases c with
    | setParameter n v =>
      refine ⟨mapSet_ordered _ _ _ h1, fun name => ?_⟩
      simp only [XRec.call]
      rw [lookup_mapSet]
      have := h2 name
      simp only [suppliedParameter] at this
      rw [this]
      by_cases h : name = n
      · simp [h]
      · rw [if_neg h, if_neg (Ne.symm h)]
    | clearParameters => simp [XRec.call, Ordered]
    | _ => exact ⟨h1, h2⟩

theorem sqrtV_read (x : ℝ) : ∃ v, (Slot.unset (sqrtV x)).read = .ok v := by
  unfold sqrtV; split <;> exact ⟨_, rfl⟩

theorem sqrtV_apply {B : Type} (x : ℝ) (f : ℝ → B) : ∃ v, (sqrtV x).apply f = .ok v ∧ ∃ w, (Slot.unset v).read = .ok w := by
  unfold sqrtV; split <;> exact ⟨_, rfl, _, rfl⟩

theorem getMass_total (r : Prim) : (∃ r' v, r.getMass = .ok (r', v)) ∨ r.getMass = .throws .runtimeError := by
  unfold Prim.getMass Prim.updateMass
  split
  · rename_i hm; simp only [Res.bind, hm]; exact .inl ⟨_, _, rfl⟩
  · split
    · rename_i e p _ _
      obtain ⟨v, hv⟩ := sqrtV_read (e * e - p.x * p.x - p.y * p.y - p.z * p.z)
      simp only [Res.bind, hv]; exact .inl ⟨_, _, rfl⟩
    · simp only [Res.bind]; exact .inl ⟨_, _, rfl⟩
    · exact .inr rfl

theorem updateMomentum_total (r : Prim) :
    (∃ r' v, r.updateMomentum = .ok r' ∧ r'.momentum.read = .ok v) ∨ r.updateMomentum = .throws .runtimeError := by
  unfold Prim.updateMomentum
  split
  · rename_i hm; exact .inl ⟨r, _, rfl, by rw [hm]; rfl⟩
  · split
    · rename_i m d e _ _ _
      obtain ⟨v, hv, w, hw⟩ := sqrtV_apply (e * e - m * m) (fun magnitude => Vec3.smul magnitude d)
      rw [hv]; exact .inl ⟨_, w, rfl, hw⟩
    · rename_i m d k _ _ _ _
      obtain ⟨v, hv, w, hw⟩ := sqrtV_apply ((k + m) * (k + m) - m * m) (fun magnitude => Vec3.smul magnitude d)
      rw [hv]; exact .inl ⟨_, w, rfl, hw⟩
    · exact .inr rfl

theorem updateEnergy_total (r : Prim) :
    (∃ r' v, r.updateEnergy = .ok r' ∧ r'.energy.read = .ok v ∧ r'.momentum = r.momentum) ∨
      r.updateEnergy = .throws .runtimeError := by
  unfold Prim.updateEnergy
  split
  · rename_i hm; exact .inl ⟨r, _, rfl, by rw [hm]; rfl, rfl⟩
  · split
    · rename_i m p _ _
      obtain ⟨v, hv⟩ := sqrtV_read (m * m + p.x * p.x + p.y * p.y + p.z * p.z)
      exact .inl ⟨_, v, rfl, hv, rfl⟩
    · exact .inl ⟨_, _, rfl, rfl, rfl⟩
    · exact .inr rfl

theorem getFour_total (r : Prim) : (∃ r' v, r.getFour = .ok (r', v)) ∨ r.getFour = .throws .runtimeError := by
  unfold Prim.getFour
  rcases updateMomentum_total r with ⟨r1, v1, h1, q1⟩ | h1
  · rcases updateEnergy_total r1 with ⟨r2, v2, h2, q2, q3⟩ | h2
    · rw [← q3] at q1
      simp only [Res.bind, h1, h2, q1, q2]
      exact .inl ⟨_, _, rfl⟩
    · simp only [Res.bind, h1, h2]; exact .inr trivial
  · simp only [Res.bind, h1]; exact .inr trivial

theorem outcome_ok {A : Type} {x : Res (Prim × A)} {r : Prim} {v : A} (h : x = .ok (r, v)) : outcome x = .ok v := by
  rw [h]; rfl

theorem getFour_keeps {r r' : Prim} {s : Supplied} {v : Val ℝ × Val (Vec3 ℝ)} (h : r.Holds s) (hr : r.getFour = .ok (r', v)) :
    r'.Holds s := by
  have := after_four_same r s h
  rwa [hr] at this

/-- The entries of secondary `s` are in the record. -/
structure Written (s : Sec) (r : Record (Val ℝ)) : Prop where
  id : r.secondaryIds[s.index]? = some s.id
  mass : ∃ m, outcome s.kin.getMass = .ok m ∧ r.secondaryMasses[s.index]? = some m
  momentum : ∃ e p, outcome s.kin.getFour = .ok (e, p) ∧ r.secondaryMomenta[s.index]? = some (fourOf e p)
  helicity : r.secondaryHelicities[s.index]? = some (.num s.kin.helicity)
  time : r.secondaryTimes[s.index]? = some s.getTime

/-- Nothing but the secondary entries at `i` differs. -/
structure OnlyAt (i : Nat) (r r' : Record (Val ℝ)) : Prop where
  ids : r'.secondaryIds.length = r.secondaryIds.length ∧ ∀ j, j ≠ i → r'.secondaryIds[j]? = r.secondaryIds[j]?
  masses : r'.secondaryMasses.length = r.secondaryMasses.length ∧ ∀ j, j ≠ i → r'.secondaryMasses[j]? = r.secondaryMasses[j]?
  momenta : r'.secondaryMomenta.length = r.secondaryMomenta.length ∧ ∀ j, j ≠ i → r'.secondaryMomenta[j]? = r.secondaryMomenta[j]?
  helicities : r'.secondaryHelicities.length = r.secondaryHelicities.length ∧
    ∀ j, j ≠ i → r'.secondaryHelicities[j]? = r.secondaryHelicities[j]?
  times : r'.secondaryTimes.length = r.secondaryTimes.length ∧ ∀ j, j ≠ i → r'.secondaryTimes[j]? = r.secondaryTimes[j]?
  rest : ∃ a b c d e, r' = { r with secondaryIds := a, secondaryMasses := b, secondaryMomenta := c, secondaryHelicities := d,
                                    secondaryTimes := e }

theorem setAt_ok {A : Type} {l l' : List A} {i : Nat} {a : A} (h : setAt l i a = .ok l') :
    l'[i]? = some a ∧ l'.length = l.length ∧ ∀ j, j ≠ i → l'[j]? = l[j]? := by
  unfold setAt at h
  split at h
  · rename_i hi
    cases h
    refine ⟨by simp [hi], by simp, fun j hj => ?_⟩
    rw [List.getElem?_set_ne (Ne.symm hj)]
  · cases h

/-- A secondary record that came out of calls holds what was supplied. -/
def Sec.Sound (s : Sec) : Prop := ∃ sup, s.kin.Holds sup

theorem sec_finalize_ok {s : Sec} {r r' : Record (Val ℝ)} (hs : s.Sound) (h : s.finalize r = .ok r') :
    Written s r' ∧ OnlyAt s.index r r' := by
  obtain ⟨sup, hsup⟩ := hs
  unfold Sec.finalize at h
  obtain ⟨ids, h1, h⟩ := res_bind_ok h
  obtain ⟨⟨k1, m⟩, h2, h⟩ := res_bind_ok h
  obtain ⟨masses, h3, h⟩ := res_bind_ok h
  obtain ⟨⟨k2, e, p⟩, h4, h⟩ := res_bind_ok h
  obtain ⟨momenta, h5, h⟩ := res_bind_ok h
  obtain ⟨helicities, h6, h⟩ := res_bind_ok h
  obtain ⟨times, h7, h⟩ := res_bind_ok h
  cases h
  have hk1 : k1.Holds sup := getMass_holds hsup h2
  have hk2 : k2.Holds sup := getFour_keeps hk1 h4
  have hh : k2.helicity = s.kin.helicity := by rw [hk2.helicity, hsup.helicity]
  have hf : outcome s.kin.getFour = .ok (e, p) := by
    rw [getFour_outcome hsup hk1]; exact outcome_ok h4
  obtain ⟨a1, a2⟩ := setAt_ok h1
  obtain ⟨b1, b2⟩ := setAt_ok h3
  obtain ⟨c1, c2⟩ := setAt_ok h5
  obtain ⟨d1, d2⟩ := setAt_ok h6
  obtain ⟨e1, e2⟩ := setAt_ok h7
  exact ⟨⟨a1, ⟨m, outcome_ok h2, b1⟩, ⟨e, p, hf, c1⟩, by rw [d1, hh], e1⟩, ⟨a2, b2, c2, d2, e2, ⟨_, _, _, _, _, rfl⟩⟩⟩

theorem Written.mono {s : Sec} {i : Nat} {r r' : Record (Val ℝ)} (h : Written s r) (ho : OnlyAt i r r') (hi : s.index ≠ i) :
    Written s r' := by
  obtain ⟨a, ⟨m, hm, b⟩, ⟨e, p, hf, c⟩, d, f⟩ := h
  exact ⟨by rw [ho.ids.2 _ hi, a], ⟨m, hm, by rw [ho.masses.2 _ hi, b]⟩, ⟨e, p, hf, by rw [ho.momenta.2 _ hi, c]⟩,
    by rw [ho.helicities.2 _ hi, d], by rw [ho.times.2 _ hi, f]⟩

/-- Same as `OnlyAt` for all indices: lengths and everything else are unchanged. -/
structure OnlyEntries (r r' : Record (Val ℝ)) : Prop where
  ids : r'.secondaryIds.length = r.secondaryIds.length
  masses : r'.secondaryMasses.length = r.secondaryMasses.length
  momenta : r'.secondaryMomenta.length = r.secondaryMomenta.length
  helicities : r'.secondaryHelicities.length = r.secondaryHelicities.length
  times : r'.secondaryTimes.length = r.secondaryTimes.length
  rest : ∃ a b c d e, r' = { r with secondaryIds := a, secondaryMasses := b, secondaryMomenta := c, secondaryHelicities := d,
                                    secondaryTimes := e }

theorem foldl_stop {A B : Type} (f : A → B → Res A) (secs : List B) (x : Res A) (h : ∀ a, x ≠ .ok a) :
    secs.foldl (fun r s => r.bind fun r => f r s) x = x := by
  induction secs with
  | nil => rfl
  | cons s rest ih =>
    rw [List.foldl_cons]
    have : (x.bind fun r => f r s) = x := by
      cases x with
      | ok a => exact absurd rfl (h a)
      | throws e => rfl
      | ub => rfl
    rw [this, ih]

theorem fold_finalize_ok (secs : List Sec) (hs : ∀ s ∈ secs, s.Sound) (hd : secs.Pairwise fun a b => a.index ≠ b.index)
    (r r' : Record (Val ℝ)) (h : secs.foldl (fun (r : Res (Record (Val ℝ))) s => r.bind fun r => s.finalize r) (.ok r) = .ok r') :
    (∀ s ∈ secs, Written s r') ∧ OnlyEntries r r' ∧
      (∀ w : Sec, (∀ s ∈ secs, w.index ≠ s.index) → Written w r → Written w r') := by
  induction secs generalizing r with
  | nil => cases h; exact ⟨by simp, ⟨rfl, rfl, rfl, rfl, rfl, ⟨_, _, _, _, _, rfl⟩⟩, fun _ _ h => h⟩
  | cons s rest ih =>
    rw [List.foldl_cons] at h
    cases hs1 : s.finalize r with
    | ok r1 =>
      simp only [Res.bind, hs1] at h
      obtain ⟨hw, ho⟩ := sec_finalize_ok (hs s List.mem_cons_self) hs1
      have hpd := List.pairwise_cons.1 hd
      obtain ⟨i1, i2, i3⟩ := ih (fun s hs' => hs s (List.mem_cons_of_mem _ hs')) hpd.2 r1 h
      refine ⟨?_, ?_, ?_⟩
      · intro w hw'
        rcases List.mem_cons.1 hw' with hw' | hw'
        · subst hw'
          exact i3 w (fun s' hs' => hpd.1 s' hs') hw
        · exact i1 w hw'
      · obtain ⟨a, b, c, d, e, hr1⟩ := ho.rest
        obtain ⟨a', b', c', d', e', hr2⟩ := i2.rest
        exact ⟨i2.ids.trans ho.ids.1, i2.masses.trans ho.masses.1, i2.momenta.trans ho.momenta.1,
          i2.helicities.trans ho.helicities.1, i2.times.trans ho.times.1, ⟨a', b', c', d', e', by rw [hr2, hr1]⟩⟩
      · intro w hwi hww
        refine i3 w (fun s' hs' => hwi s' (List.mem_cons_of_mem _ hs')) (hww.mono ho (hwi s List.mem_cons_self))
    | throws e =>
      rw [show (Res.ok r).bind (fun r => s.finalize r) = .throws e from hs1] at h
      rw [foldl_stop (fun r s => Sec.finalize s r) rest _ (by simp)] at h
      cases h
    | ub =>
      rw [show (Res.ok r).bind (fun r => s.finalize r) = .ub from hs1] at h
      rw [foldl_stop (fun r s => Sec.finalize s r) rest _ (by simp)] at h
      cases h

/-- All five arrays have at least `n` entries. -/
structure Room (n : Nat) (r : Record (Val ℝ)) : Prop where
  ids : n ≤ r.secondaryIds.length
  masses : n ≤ r.secondaryMasses.length
  momenta : n ≤ r.secondaryMomenta.length
  helicities : n ≤ r.secondaryHelicities.length
  times : n ≤ r.secondaryTimes.length

theorem setAt_room {A : Type} {l : List A} {i n : Nat} {a : A} (hi : i < n) (h : n ≤ l.length) : setAt l i a = .ok (l.set i a) := by
  rw [setAt, if_pos (lt_of_lt_of_le hi h)]

theorem sec_finalize_total {s : Sec} {r : Record (Val ℝ)} {n : Nat} (hs : s.Sound) (hn : s.index < n) (hr : Room n r) :
    (∃ r', s.finalize r = .ok r' ∧ Room n r') ∨
      (s.finalize r = .throws .runtimeError ∧ (s.kin.getMass = .throws .runtimeError ∨ s.kin.getFour = .throws .runtimeError)) := by
  unfold Sec.finalize
  rw [setAt_room hn hr.ids]
  rcases getMass_total s.kin with ⟨k, m, hm⟩ | hm
  · obtain ⟨sup, hsup⟩ := hs
    have hk : k.Holds sup := getMass_holds hsup hm
    rcases getFour_total k with ⟨k', ⟨e, p⟩, hf⟩ | hf
    · left
      simp only [Res.bind, hm, setAt_room hn hr.masses, hf, setAt_room hn hr.momenta, setAt_room hn hr.helicities,
        setAt_room hn hr.times]
      refine ⟨_, rfl, ?_, ?_, ?_, ?_, ?_⟩
      · simpa using hr.ids
      · simpa using hr.masses
      · simpa using hr.momenta
      · simpa using hr.helicities
      · simpa using hr.times
    · right
      simp only [Res.bind, hm, setAt_room hn hr.masses, hf]
      refine ⟨trivial, .inr ?_⟩
      have := getFour_outcome hsup hk
      rw [hf] at this
      rcases getFour_total s.kin with ⟨_, _, h⟩ | h
      · rw [h] at this; cases this
      · exact h
  · right
    simp only [Res.bind, hm]
    exact ⟨trivial, .inl trivial⟩

theorem fold_finalize_total (secs : List Sec) (n : Nat) (hs : ∀ s ∈ secs, s.Sound) (hi : ∀ s ∈ secs, s.index < n)
    (r : Record (Val ℝ)) (hr : Room n r) :
    (∃ r', secs.foldl (fun (r : Res (Record (Val ℝ))) s => r.bind fun r => s.finalize r) (.ok r) = .ok r') ∨
    (secs.foldl (fun (r : Res (Record (Val ℝ))) s => r.bind fun r => s.finalize r) (.ok r) = .throws .runtimeError ∧
      ∃ s ∈ secs, s.kin.getMass = .throws .runtimeError ∨ s.kin.getFour = .throws .runtimeError) := by
  induction secs generalizing r with
  | nil => exact .inl ⟨r, rfl⟩
  | cons s rest ih =>
    rw [List.foldl_cons]
    rcases sec_finalize_total (hs s List.mem_cons_self) (hi s List.mem_cons_self) hr with ⟨r1, h1, hr1⟩ | ⟨h1, h2⟩
    · simp only [Res.bind, h1]
      rcases ih (fun s hs' => hs s (List.mem_cons_of_mem _ hs')) (fun s hs' => hi s (List.mem_cons_of_mem _ hs')) r1 hr1 with
        h | ⟨h, s', hs', h'⟩
      · exact .inl h
      · exact .inr ⟨h, s', List.mem_cons_of_mem _ hs', h'⟩
    · right
      rw [show (Res.ok r).bind (fun r => s.finalize r) = .throws .runtimeError from h1,
        foldl_stop (fun r s => Sec.finalize s r) rest _ (by simp)]
      exact ⟨rfl, s, List.mem_cons_self, h2⟩

theorem resize_length {A : Type} (n : Nat) (a : A) (l : List A) : (resize n a l).length = n := by
  simp [resize]; omega

theorem expected_sound (record : Record (Val ℝ)) (generated : Nat → ParticleID) (calls : List XCall) (i : Nat) (type : Int) :
    (expected record generated calls i type).Sound := ⟨_, history_holds 0 _⟩

/-! ## C08 -/

/-- C08. Whatever was called on a cross-section record built from `record`, and whatever the arrays of the record it is
finalized into contained: afterwards each of the five arrays has one entry per secondary type of the signature, entry `i`
being the identifier of secondary `i` and what its getters return; target, vertex time and parameters are the supplied
ones, or else those the record was built from, and nothing else changes. -/
theorem C08_finalize (record final final' : Record (Val ℝ)) (generatedTarget : ParticleID) (generated : Nat → ParticleID)
    (calls : List XCall)
    (h : (calls.foldl XRec.call (XRec.make record generatedTarget generated)).finalize final = .ok final') :
    let n := record.signature.secondaries.length
    (final'.secondaryIds.length = n ∧ final'.secondaryMasses.length = n ∧ final'.secondaryMomenta.length = n ∧
      final'.secondaryHelicities.length = n ∧ final'.secondaryTimes.length = n) ∧
    (∀ i < n,
      final'.secondaryIds[i]? = some (match record.secondaryIds[i]? with
        | some id => if id.set then id else generated i
        | none => generated i) ∧
      (∃ m, outcome (kinematicsOf i calls).getMass = .ok m ∧ final'.secondaryMasses[i]? = some m) ∧
      (∃ e p, outcome (kinematicsOf i calls).getFour = .ok (e, p) ∧ final'.secondaryMomenta[i]? = some [e, p.map Vec3.x, p.map Vec3.y, p.map Vec3.z]) ∧
      final'.secondaryHelicities[i]? = some (.num (kinematicsOf i calls).helicity) ∧
      final'.secondaryTimes[i]? = some (orElse (lastOf suppliedTime (onSecondary i calls))
        (orElse (lastOf suppliedVertexTime calls) record.interactionTime))) ∧
    final'.targetId = (if record.targetId.set then record.targetId else generatedTarget) ∧
    final'.targetMass = orElse (lastOf suppliedTargetMass calls) record.targetMass ∧
    final'.targetHelicity = orElse (lastOf suppliedTargetHelicity calls) record.targetHelicity ∧
    final'.interactionTime = orElse (lastOf suppliedVertexTime calls) final.interactionTime ∧
    (∀ name, final'.interactionParameters.lookup name =
      ((suppliedParameter name calls).map Val.num).or (final.interactionParameters.lookup name)) ∧
    (final'.signature = final.signature ∧ final'.primaryId = final.primaryId ∧
      final'.primaryInitialPosition = final.primaryInitialPosition ∧ final'.primaryInitialTime = final.primaryInitialTime ∧
      final'.primaryMass = final.primaryMass ∧ final'.primaryMomentum = final.primaryMomentum ∧
      final'.primaryHelicity = final.primaryHelicity ∧ final'.interactionVertex = final.interactionVertex) := by
  intro n
  obtain ⟨t1, t2, t3, t4⟩ := target_after record generatedTarget generated calls
  obtain ⟨p1, p2⟩ := parameters_after record generatedTarget generated calls
  have hsec := secondaries_after record generatedTarget generated calls
  generalize calls.foldl XRec.call (XRec.make record generatedTarget generated) = x at h t1 t2 t3 t4 p1 p2 hsec
  unfold XRec.finalize at h
  have hlen : x.secondaries.length = n := by rw [hsec, List.length_mapIdx]
  have hsound : ∀ s ∈ x.secondaries, s.Sound := by
    intro s hs
    rw [hsec] at hs
    obtain ⟨i, hi, rfl⟩ := List.mem_mapIdx.1 hs
    exact expected_sound _ _ _ _ _
  have hpair : x.secondaries.Pairwise fun a b => a.index ≠ b.index := by
    rw [hsec, List.pairwise_iff_getElem]
    intro i j hi hj hij
    simp only [List.getElem_mapIdx, expected]
    omega
  obtain ⟨hw, ho, -⟩ := fold_finalize_ok _ hsound hpair _ _ h
  obtain ⟨a, b, c, d, e, hrest⟩ := ho.rest
  refine ⟨⟨?_, ?_, ?_, ?_, ?_⟩, ?_, ?_, ?_, ?_, ?_, ?_, ?_⟩
  · rw [ho.ids, ← hlen]; exact resize_length _ _ _
  · rw [ho.masses, ← hlen]; exact resize_length _ _ _
  · rw [ho.momenta, ← hlen]; exact resize_length _ _ _
  · rw [ho.helicities, ← hlen]; exact resize_length _ _ _
  · rw [ho.times, ← hlen]; exact resize_length _ _ _
  · intro i hi
    have hmem : expected record generated calls i record.signature.secondaries[i] ∈ x.secondaries := by
      rw [hsec, List.mem_mapIdx]; exact ⟨i, hi, rfl⟩
    obtain ⟨w1, w2, w3, w4, w5⟩ := hw _ hmem
    refine ⟨w1, w2, w3, w4, ?_⟩
    rw [show (expected record generated calls i record.signature.secondaries[i]).index = i from rfl] at w5
    rw [w5]
    simp only [Sec.getTime, expected]
    cases lastOf suppliedTime (onSecondary i calls) <;> rfl
  · rw [hrest]; exact t1
  · rw [hrest]; exact t2
  · rw [hrest]; exact t3
  · rw [hrest, ← t4]; cases x.time <;> rfl
  · intro name
    rw [hrest, ← p2 name]
    exact lookup_merge x.parameters p1 final.interactionParameters name
  · rw [hrest]; exact ⟨rfl, rfl, rfl, rfl, rfl, rfl, rfl, rfl⟩

/-- C08. Finalizing fails only because the mass or the four-momentum of one of the secondaries is not determined by what was
supplied: never by an index out of range. -/
theorem C08_failure (record final : Record (Val ℝ)) (generatedTarget : ParticleID) (generated : Nat → ParticleID)
    (calls : List XCall) :
    (∃ final', (calls.foldl XRec.call (XRec.make record generatedTarget generated)).finalize final = .ok final') ∨
    ((calls.foldl XRec.call (XRec.make record generatedTarget generated)).finalize final = .throws .runtimeError ∧
      ∃ i < record.signature.secondaries.length, (kinematicsOf i calls).getMass = .throws .runtimeError ∨
        (kinematicsOf i calls).getFour = .throws .runtimeError) := by
  have hsec := secondaries_after record generatedTarget generated calls
  generalize calls.foldl XRec.call (XRec.make record generatedTarget generated) = x at hsec
  unfold XRec.finalize
  have hlen : x.secondaries.length = record.signature.secondaries.length := by rw [hsec, List.length_mapIdx]
  have hsound : ∀ s ∈ x.secondaries, s.Sound := by
    intro s hs
    rw [hsec] at hs
    obtain ⟨i, hi, rfl⟩ := List.mem_mapIdx.1 hs
    exact expected_sound _ _ _ _ _
  have hidx : ∀ s ∈ x.secondaries, s.index < x.secondaries.length := by
    intro s hs
    rw [hlen]
    rw [hsec] at hs
    obtain ⟨i, hi, rfl⟩ := List.mem_mapIdx.1 hs
    exact hi
  have total := fold_finalize_total x.secondaries x.secondaries.length hsound hidx
  extract_lets n r
  rcases total r (by constructor <;> exact (resize_length _ _ _).ge) with h | ⟨h, s, hs, h'⟩
  · exact .inl h
  · refine .inr ⟨h, ?_⟩
    rw [hsec] at hs
    obtain ⟨i, hi, rfl⟩ := List.mem_mapIdx.1 hs
    exact ⟨i, hi, h'⟩

/-! ## C09 -/

/-- Secondary `i` of a record: identifier, type, mass, four-momentum and helicity. -/
def secondaryOf (parent : Record ℝ) (i : Nat) : Option (ParticleID × Int × ℝ × List ℝ × ℝ) := do
  let id ← parent.secondaryIds[i]?
  let type ← parent.signature.secondaries[i]?
  let mass ← parent.secondaryMasses[i]?
  let four ← parent.secondaryMomenta[i]?
  let helicity ← parent.secondaryHelicities[i]?
  return (id, type, mass, four, helicity)

/-- When secondary `i` leaves the vertex. -/
noncomputable def departure (parent : Record ℝ) (i : Nat) : ℝ :=
  if h : i < parent.secondaryTimes.length then parent.secondaryTimes[i] else parent.interactionTime

def suppliedLength : StartCall → Option ℝ
  | .setLength l => some l
  | _ => none

def suppliedArrival : StartCall → Option ℝ
  | .setTime t => some t
  | _ => none

theorem start_after (s : Start) (hl : s.length = .unset .uninit) (ht : s.time = .unset .uninit) (calls : List StartCall) :
    calls.foldl Start.call s =
      { s with
        length := match lastOf suppliedLength calls with | some l => .given l | none => .unset .uninit
        time := match lastOf suppliedArrival calls with | some t => .given t | none => .unset .uninit } := by
  induction calls using List.reverseRecOn with
  | nil =>
    obtain ⟨a, b, c, d, e, f, g, h, i, j, k, l⟩ := s
    simp only at hl ht
    subst hl ht
    rfl
  | append_singleton calls c ih =>
    rw [List.foldl_append, List.foldl_cons, List.foldl_nil, ih, lastOf_snoc, lastOf_snoc]
    cases c <;> simp [Start.call, Start.setLength, Start.setTime, suppliedLength, suppliedArrival]

theorem make_eq (parent : Record ℝ) (generated : ParticleID) (i : Nat) :
    Start.make parent generated i = match secondaryOf parent i with
      | some (id, type, mass, four, helicity) =>
        .ok ⟨i, if id.set then id else generated, type, mass, startDirection (four.getD 0 0) (vec3Of four.tail), four.getD 0 0,
          vec3Of four.tail, helicity, vec3Of parent.interactionVertex, departure parent i, .unset .uninit, .unset .uninit⟩
      | none => .throws .outOfRange := by
  unfold Start.make secondaryOf readAt
  cases parent.secondaryIds[i]? with
  | none => rfl
  | some id =>
    cases parent.signature.secondaries[i]? with
    | none => rfl
    | some type =>
      cases parent.secondaryMasses[i]? with
      | none => rfl
      | some mass =>
        cases parent.secondaryMomenta[i]? with
        | none => rfl
        | some four =>
          cases parent.secondaryHelicities[i]? with
          | none => rfl
          | some helicity =>
            simp only [Res.bind, departure]
            by_cases h : i < parent.secondaryTimes.length
            · rw [List.getElem?_eq_getElem h, dif_pos h]; rfl
            · rw [List.getElem?_eq_none (by omega), dif_neg h]; rfl

/-- C09. Asking for a secondary that the parent record does not have throws `std::out_of_range`, and only that does. -/
theorem C09_range (parent : Record ℝ) (generated : ParticleID) (i : Nat) :
    (Start.make parent generated i = .throws .outOfRange ↔
      (parent.secondaryIds.length ≤ i ∨ parent.signature.secondaries.length ≤ i ∨ parent.secondaryMasses.length ≤ i ∨
        parent.secondaryMomenta.length ≤ i ∨ parent.secondaryHelicities.length ≤ i)) ∧
    (Start.make parent generated i ≠ .throws .outOfRange → ∃ s, Start.make parent generated i = .ok s) := by
  have key : secondaryOf parent i = none ↔
      (parent.secondaryIds.length ≤ i ∨ parent.signature.secondaries.length ≤ i ∨ parent.secondaryMasses.length ≤ i ∨
        parent.secondaryMomenta.length ≤ i ∨ parent.secondaryHelicities.length ≤ i) := by
    simp only [← List.getElem?_eq_none_iff, secondaryOf]
    cases parent.secondaryIds[i]? <;> cases parent.signature.secondaries[i]? <;> cases parent.secondaryMasses[i]? <;>
      cases parent.secondaryMomenta[i]? <;> cases parent.secondaryHelicities[i]? <;> simp
  rw [make_eq, ← key]
  cases h : secondaryOf parent i with
  | none => simp
  | some p => obtain ⟨a, b, c, d, e⟩ := p; simp

/-- C09. Whatever lengths and times were set on the record of secondary `i` of a parent: finalizing it writes that
secondary's identifier (a generated one if it had none), type, mass, four-momentum and helicity, the parent's vertex and
the time at which the secondary left it; the vertex lies the length set last along the momentum, and the time is the one set
last, or else the time of flight later. -/
theorem C09_finalize (c : ℝ) (parent : Record ℝ) (generated : ParticleID) (i : Nat) (calls : List StartCall)
    (id : ParticleID) (type : Int) (mass energy px py pz helicity x y z length : ℝ)
    (hi : secondaryOf parent i = some (id, type, mass, [energy, px, py, pz], helicity))
    (hv : parent.interactionVertex = [x, y, z])
    (hl : lastOf suppliedLength calls = some length) (hl0 : 0 ≤ length) :
    let p : Vec3 ℝ := ⟨px, py, pz⟩
    (hp : 0 < Vec3.norm p) → (hpe : Vec3.norm p ≤ energy) →
    ∃ s, Start.make parent generated i = .ok s ∧ s.index = i ∧
      (calls.foldl Start.call s).finalize c = .ok
        { id := if id.set then id else generated
          type := type
          initial := ⟨x, y, z⟩
          initialTime := departure parent i
          mass := mass
          energy := energy
          momentum := p
          helicity := helicity
          vertex := .num (⟨x, y, z⟩ + Vec3.smul (length / Vec3.norm p) p)
          time := (lastOf suppliedArrival calls).getD (departure parent i + length / (c * (Vec3.norm p / energy))) } := by
  intro p hp hpe
  have he : 0 < energy := lt_of_lt_of_le hp hpe
  rw [make_eq, hi]
  refine ⟨_, rfl, rfl, ?_⟩
  rw [start_after _ rfl rfl]
  have hdir : startDirection energy p = .num ⟨px / Vec3.norm p, py / Vec3.norm p, pz / Vec3.norm p⟩ := by
    rw [startDirection, if_pos he.ne', unitV, if_neg hp.ne']
  have h3 : vec3Of [px, py, pz] = p := rfl
  have h4 : vec3Of [x, y, z] = ⟨x, y, z⟩ := rfl
  simp only [Start.finalize, hl, Slot.read, Res.bind, List.tail_cons, List.getD_cons_zero, h3, h4, hv, hdir, Val.apply]
  have hvert : (⟨x, y, z⟩ : Vec3 ℝ) + Vec3.smul length ⟨px / Vec3.norm p, py / Vec3.norm p, pz / Vec3.norm p⟩ =
      ⟨x, y, z⟩ + Vec3.smul (length / Vec3.norm p) p := by
    ext <;> simp [Vec3.smul, p] <;> ring
  have htime : flightTime c length energy (Vec3.norm p) = length / (c * (Vec3.norm p / energy)) := by
    unfold flightTime
    rcases hl0.lt_or_eq with h | h
    · rw [if_neg (by push Not; exact ⟨h, he, hp⟩), min_eq_left ((div_le_one he).2 hpe), mul_comm]
    · rw [if_pos (by left; simp [← h]), ← h, zero_div]
  cases ht : lastOf suppliedArrival calls with
  | some t => simp only [Start.getTime, hvert, Option.getD_some]
  | none => simp only [Start.getTime, Start.getLength, Res.bind, hvert, htime, Option.getD_none]

/-- C09. Without a length, the length cannot be read. -/
theorem C09_length_required (parent : Record ℝ) (generated : ParticleID) (i : Nat) (calls : List StartCall) (s : Start)
    (hs : Start.make parent generated i = .ok s) :
    (calls.foldl Start.call s).getLength = match lastOf suppliedLength calls with
      | some l => .ok l
      | none => .throws .runtimeError := by
  rw [make_eq] at hs
  cases h : secondaryOf parent i with
  | none => rw [h] at hs; cases hs
  | some p =>
    obtain ⟨a, b, c, d, e⟩ := p
    rw [h] at hs
    cases hs
    rw [start_after _ rfl rfl]
    cases lastOf suppliedLength calls <;> rfl

/-- C09 needs a length: finalizing without one reads an uninitialised member before the missing length is noticed. -/
theorem C09_finalize_without_length_fails (c : ℝ) (parent : Record ℝ) (generated : ParticleID) (i : Nat) (s : Start)
    (hs : Start.make parent generated i = .ok s) : s.finalize c = .ub := by
  rw [make_eq] at hs
  cases h : secondaryOf parent i with
  | none => rw [h] at hs; cases hs
  | some p =>
    obtain ⟨a, b, c, d, e⟩ := p
    rw [h] at hs
    cases hs
    rfl

/-- A parent with two secondaries, of which the second moves with momentum `(0, 0, 4)` and energy `5`. -/
noncomputable def parentExample : Record ℝ where
  signature := ⟨14, 2212, [13, 211]⟩
  primaryId := ⟨true, 1, 1⟩
  primaryInitialPosition := [0, 0, 0]
  primaryInitialTime := 0
  primaryMass := 0
  primaryMomentum := [10, 0, 0, 10]
  primaryHelicity := 0
  targetId := ⟨true, 1, 2⟩
  targetMass := 1
  targetHelicity := 0
  interactionVertex := [1, 2, 3]
  interactionTime := 7
  secondaryIds := [⟨true, 1, 3⟩, ⟨false, 0, 0⟩]
  secondaryMasses := [1, 3]
  secondaryMomenta := [[2, 0, 0, 1], [5, 0, 0, 4]]
  secondaryHelicities := [0, 1 / 2]
  secondaryTimes := [7]
  interactionParameters := []

/-- The hypotheses of `C09_finalize` are met. -/
example : ∃ s r, Start.make parentExample ⟨true, 1, 9⟩ 1 = .ok s ∧
    ([StartCall.setLength 1, .setLength 8].foldl Start.call s).finalize 1 = .ok r ∧
    r.vertex = .num ⟨1, 2, 11⟩ ∧ r.time = 17 ∧ r.id = ⟨true, 1, 9⟩ := by
  have hn : Vec3.norm (⟨0, 0, 4⟩ : Vec3 ℝ) = 4 := by
    have : Vec3.dot (⟨0, 0, 4⟩ : Vec3 ℝ) ⟨0, 0, 4⟩ = 4 ^ 2 := by norm_num [Vec3.dot]
    rw [Vec3.norm, this]; exact Real.sqrt_sq (by norm_num)
  obtain ⟨s, h1, -, h2⟩ := C09_finalize 1 parentExample ⟨true, 1, 9⟩ 1 [.setLength 1, .setLength 8] ⟨false, 0, 0⟩ 211 3 5 0 0 4
    (1 / 2) 1 2 3 8 rfl rfl rfl (by norm_num) (by rw [hn]; norm_num) (by rw [hn]; norm_num)
  refine ⟨s, _, h1, h2, ?_, ?_, rfl⟩
  · simp only [hn]
    congr 1
    ext <;> norm_num [Vec3.smul]
  · have hd : departure parentExample 1 = 7 := by simp [departure, parentExample]
    have hs : lastOf suppliedArrival [.setLength 1, .setLength 8] = none := rfl
    simp only [hn, hd, hs]
    norm_num

/-- Two secondaries of a cross section, given by mass and momentum, are written into a record with stale arrays: the
hypothesis of `C08_finalize` is met. -/
example : ∃ (record final final' : Record (Val ℝ)) (calls : List XCall),
    record.signature.secondaries.length = 2 ∧ final.secondaryMasses.length = 3 ∧ final.secondaryIds.length = 0 ∧
    ((calls.foldl XRec.call (XRec.make record ⟨true, 5, 0⟩ fun i => ⟨true, 5, i + 1⟩)).finalize final = .ok final') ∧
    final'.secondaryMasses[1]? = some (.num 3) := by
  let record : Record (Val ℝ) := ⟨⟨14, 2212, [13, 211]⟩, ⟨true, 1, 1⟩, [], .num 0, .num 0, [], .num 0, ⟨false, 0, 0⟩, .num 1,
    .num 0, [], .num 7, [], [], [], [], [], []⟩
  let final : Record (Val ℝ) := { record with secondaryMasses := [.num 9, .num 9, .num 9] }
  let calls : List XCall := [.secondary 0 (.setParticle 1 2 ⟨0, 0, 1⟩ 0), .secondary 1 (.setMass 3),
    .secondary 1 (.setFourMomentum 5 ⟨0, 0, 4⟩)]
  have hfail : ∀ i < 2, ∃ m e p,
      kinematicsOf i calls = { Prim.new with mass := .given m, energy := .given e, momentum := .given p } := by
    intro i hi
    match i, hi with
    | 0, _ => exact ⟨_, _, _, rfl⟩
    | 1, _ => exact ⟨_, _, _, rfl⟩
  rcases C08_failure record final ⟨true, 5, 0⟩ (fun i => ⟨true, 5, i + 1⟩) calls with ⟨final', h⟩ | ⟨-, i, hi, h⟩
  · refine ⟨record, final, final', calls, rfl, rfl, rfl, h, ?_⟩
    obtain ⟨-, h2, -⟩ := C08_finalize record final final' ⟨true, 5, 0⟩ (fun i => ⟨true, 5, i + 1⟩) calls h
    obtain ⟨-, ⟨m, hm, hm'⟩, -⟩ := h2 1 (by decide)
    rw [hm']
    have : outcome (kinematicsOf 1 calls).getMass = .ok (.num 3) := rfl
    rw [this] at hm
    cases hm
    rfl
  · exfalso
    obtain ⟨m, e, p, hk⟩ := hfail i hi
    rw [hk] at h
    rcases h with h | h <;> cases h

end Siren.Records
