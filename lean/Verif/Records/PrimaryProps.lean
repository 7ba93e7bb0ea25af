import Verif.Records.PrimaryLemmas

set_option autoImplicit false

/-!
# C06, C07 and C62: a primary record is consistent

The specification (`Truth`, `supplied`, `Supplied.From`, `Faithful`) is at the head of `PrimaryLemmas`.
-/

namespace Siren.Records

open Siren

/-- C06. After any calls in any order, with supplied values that are those of a particle on the mass shell, every getter of
a kinematic quantity returns that particle's value or throws `std::runtime_error`. In particular a returned value is the
same for every particle the supplied values fit, that is, never invented, and undefined behaviour does not occur. The one
exception is the direction of a particle at rest or of a path of length zero: it may be NaN. -/
theorem C06_kinematics (c : ℝ) (calls : List Call) (t : Truth) (k : t.Kinematics) (l : t.Line)
    (h : (supplied calls).From t) :
    let r := Prim.history c calls
    Faithful r.getMass t.mass ∧ Faithful r.getEnergy t.energy ∧ Faithful r.getKinetic t.kinetic ∧
    Faithful r.getMomentum t.momentum ∧
    (Returns r.getFour (.num t.energy, .num t.momentum) ∨ r.getFour = .throws .runtimeError) ∧
    (Faithful r.getDirection t.direction ∨
      (Returns r.getDirection .nan ∧ (Vec3.norm t.momentum = 0 ∨ t.length = 0))) := by
  have hr := (history_holds c calls).true h
  refine ⟨getMass_true hr k, getEnergy_true hr k, getKinetic_true hr k, getMomentum_true hr k, ?_, getDirection_true hr k l⟩
  rcases getFour_true (history_holds c calls) h k with ⟨r', hr', -⟩ | hr'
  · exact .inl ⟨r', hr'⟩
  · exact .inr hr'

theorem same_value {A : Type} {a b : Slot A} {o : Option A} (ha : a.value = o) (hb : b.value = o) :
    (∃ x, a = .given x ∧ b = .given x) ∨ (∃ x y, a = .unset x ∧ b = .unset y) := by
  subst ha
  cases a <;> cases b <;> simp_all [Slot.value]

/-- Forget everything about a record except what `Holds` says. -/
theorem outcome_congr {A : Type} (f : Prim → Res (Prim × A))
    (h : ∀ m e k d p l x0 xv pc vd id hel t0 t, ∀ m' e' k' d' p' l' x0' xv' pc' vd' id' hel' t0' t', 
      Slot.value m = Slot.value m' → Slot.value e = Slot.value e' → Slot.value k = Slot.value k' →
      Slot.value d = Slot.value d' → Slot.value p = Slot.value p' → Slot.value l = Slot.value l' →
      Slot.value x0 = Slot.value x0' → Slot.value xv = Slot.value xv' → Slot.value pc = Slot.value pc' →
      Slot.value vd = Slot.value vd' → Slot.value id = Slot.value id' →
      outcome (f ⟨m, e, k, d, p, l, x0, xv, pc, vd, id, hel, t0, t⟩) =
        outcome (f ⟨m', e', k', d', p', l', x0', xv', pc', vd', id', hel', t0', t'⟩))
    {r r' : Prim} {s : Supplied} (hr : r.Holds s) (hr' : r'.Holds s) : outcome (f r) = outcome (f r') := by
  obtain ⟨m, e, k, d, p, l, x0, xv, pc, vd, id, hel, t0, t⟩ := r
  obtain ⟨m', e', k', d', p', l', x0', xv', pc', vd', id', hel', t0', t'⟩ := r'
  exact h _ _ _ _ _ _ _ _ _ _ _ _ _ _ _ _ _ _ _ _ _ _ _ _ _ _ _ _ (hr.mass.trans hr'.mass.symm)
    (hr.energy.trans hr'.energy.symm) (hr.kinetic.trans hr'.kinetic.symm) (hr.direction.trans hr'.direction.symm)
    (hr.momentum.trans hr'.momentum.symm) (hr.length.trans hr'.length.symm) (hr.initial.trans hr'.initial.symm)
    (hr.vertex.trans hr'.vertex.symm) (hr.poca.trans hr'.poca.symm) (hr.vdist.trans hr'.vdist.symm)
    (hr.idist.trans hr'.idist.symm)

theorem getFour_outcome {r r' : Prim} {s : Supplied} (hr : r.Holds s) (hr' : r'.Holds s) :
    outcome r.getFour = outcome r'.getFour := by
  refine outcome_congr Prim.getFour ?_ hr hr'
  intro m e k d p l x0 xv pc vd id hel t0 t m' e' k' d' p' l' x0' xv' pc' vd' id' hel' t0' t' hm he hk hd hp hl hx0 hxv hpc hvd hid
  rcases same_value hp rfl with ⟨_, rfl, rfl⟩ | ⟨_, _, rfl, rfl⟩ <;>
  rcases same_value hm rfl with ⟨_, rfl, rfl⟩ | ⟨_, _, rfl, rfl⟩ <;>
  rcases same_value hd rfl with ⟨_, rfl, rfl⟩ | ⟨_, _, rfl, rfl⟩ <;>
  rcases same_value he rfl with ⟨_, rfl, rfl⟩ | ⟨_, _, rfl, rfl⟩ <;>
  rcases same_value hk rfl with ⟨_, rfl, rfl⟩ | ⟨_, _, rfl, rfl⟩ <;>
  first
    | rfl
    | (simp only [Prim.getFour, Prim.updateMomentum, Prim.updateEnergy, Res.bind]
       generalize sqrtV _ = v
       cases v <;> rfl)

/-- C06. What the getters return depends only on the last value supplied to each setter: neither the order of the calls, nor
which getters were called before, nor overwritten values matter. -/
theorem C06_order_independent (c : ℝ) (calls calls' : List Call) (h : supplied calls = supplied calls') :
    let r := Prim.history c calls
    let r' := Prim.history c calls'
    outcome r.getMass = outcome r'.getMass ∧ outcome r.getEnergy = outcome r'.getEnergy ∧
    outcome r.getKinetic = outcome r'.getKinetic ∧ outcome r.getMomentum = outcome r'.getMomentum ∧
    outcome r.getDirection = outcome r'.getDirection ∧ outcome r.getFour = outcome r'.getFour := by
  intro r r'
  have hr : r.Holds (supplied calls) := history_holds c calls
  have hr' : r'.Holds (supplied calls) := h ▸ history_holds c calls'
  clear_value r r'
  refine ⟨?_, ?_, ?_, ?_, ?_, getFour_outcome hr hr'⟩
  · refine outcome_congr Prim.getMass ?_ hr hr'
    intro m e k d p l x0 xv pc vd id hel t0 t m' e' k' d' p' l' x0' xv' pc' vd' id' hel' t0' t' hm he hk hd hp hl hx0 hxv hpc hvd hid
    rcases same_value hm rfl with ⟨_, rfl, rfl⟩ | ⟨_, _, rfl, rfl⟩ <;>
    rcases same_value he rfl with ⟨_, rfl, rfl⟩ | ⟨_, _, rfl, rfl⟩ <;>
    rcases same_value hp rfl with ⟨_, rfl, rfl⟩ | ⟨_, _, rfl, rfl⟩ <;>
    rcases same_value hk rfl with ⟨_, rfl, rfl⟩ | ⟨_, _, rfl, rfl⟩ <;>
    first
      | rfl
      | (simp only [Prim.getMass, Prim.updateMass]
         generalize sqrtV _ = v
         cases v <;> rfl)
  · refine outcome_congr Prim.getEnergy ?_ hr hr'
    intro m e k d p l x0 xv pc vd id hel t0 t m' e' k' d' p' l' x0' xv' pc' vd' id' hel' t0' t' hm he hk hd hp hl hx0 hxv hpc hvd hid
    rcases same_value he rfl with ⟨_, rfl, rfl⟩ | ⟨_, _, rfl, rfl⟩ <;>
    rcases same_value hm rfl with ⟨_, rfl, rfl⟩ | ⟨_, _, rfl, rfl⟩ <;>
    rcases same_value hp rfl with ⟨_, rfl, rfl⟩ | ⟨_, _, rfl, rfl⟩ <;>
    rcases same_value hk rfl with ⟨_, rfl, rfl⟩ | ⟨_, _, rfl, rfl⟩ <;>
    first
      | rfl
      | (simp only [Prim.getEnergy, Prim.updateEnergy]
         generalize sqrtV _ = v
         cases v <;> rfl)
  · refine outcome_congr Prim.getKinetic ?_ hr hr'
    intro m e k d p l x0 xv pc vd id hel t0 t m' e' k' d' p' l' x0' xv' pc' vd' id' hel' t0' t' hm he hk hd hp hl hx0 hxv hpc hvd hid
    rcases same_value hk rfl with ⟨_, rfl, rfl⟩ | ⟨_, _, rfl, rfl⟩ <;>
    rcases same_value hm rfl with ⟨_, rfl, rfl⟩ | ⟨_, _, rfl, rfl⟩ <;>
    rcases same_value he rfl with ⟨_, rfl, rfl⟩ | ⟨_, _, rfl, rfl⟩ <;>
    rcases same_value hp rfl with ⟨_, rfl, rfl⟩ | ⟨_, _, rfl, rfl⟩ <;>
    first
      | rfl
      | (simp only [Prim.getKinetic, Prim.updateKinetic]
         generalize sqrtV _ = v
         cases v <;> rfl)
  · refine outcome_congr Prim.getMomentum ?_ hr hr'
    intro m e k d p l x0 xv pc vd id hel t0 t m' e' k' d' p' l' x0' xv' pc' vd' id' hel' t0' t' hm he hk hd hp hl hx0 hxv hpc hvd hid
    rcases same_value hp rfl with ⟨_, rfl, rfl⟩ | ⟨_, _, rfl, rfl⟩ <;>
    rcases same_value hm rfl with ⟨_, rfl, rfl⟩ | ⟨_, _, rfl, rfl⟩ <;>
    rcases same_value hd rfl with ⟨_, rfl, rfl⟩ | ⟨_, _, rfl, rfl⟩ <;>
    rcases same_value he rfl with ⟨_, rfl, rfl⟩ | ⟨_, _, rfl, rfl⟩ <;>
    rcases same_value hk rfl with ⟨_, rfl, rfl⟩ | ⟨_, _, rfl, rfl⟩ <;>
    first
      | rfl
      | (simp only [Prim.getMomentum, Prim.updateMomentum]
         generalize sqrtV _ = v
         cases v <;> rfl)
  · refine outcome_congr Prim.getDirection ?_ hr hr'
    intro m e k d p l x0 xv pc vd id hel t0 t m' e' k' d' p' l' x0' xv' pc' vd' id' hel' t0' t' hm he hk hd hp hl hx0 hxv hpc hvd hid
    rcases same_value hd rfl with ⟨_, rfl, rfl⟩ | ⟨_, _, rfl, rfl⟩ <;>
    rcases same_value hp rfl with ⟨_, rfl, rfl⟩ | ⟨_, _, rfl, rfl⟩ <;>
    rcases same_value hx0 rfl with ⟨_, rfl, rfl⟩ | ⟨_, _, rfl, rfl⟩ <;>
    rcases same_value hxv rfl with ⟨_, rfl, rfl⟩ | ⟨_, _, rfl, rfl⟩ <;>
    first
      | rfl
      | (simp only [Prim.getDirection, Prim.updateDirection]
         generalize unitV _ = v
         cases v <;> rfl)

/-- C06. Exactly when a getter throws: the quantity was not supplied, and neither was one of the listed combinations. -/
theorem C06_exceptions (c : ℝ) (calls : List Call) :
    let r := Prim.history c calls
    let s := supplied calls
    (r.getMass = .throws .runtimeError ↔
      s.mass = none ∧ ¬ (s.energy.isSome ∧ s.momentum.isSome) ∧ ¬ (s.energy.isSome ∧ s.kinetic.isSome)) ∧
    (r.getEnergy = .throws .runtimeError ↔
      s.energy = none ∧ ¬ (s.mass.isSome ∧ s.momentum.isSome) ∧ ¬ (s.mass.isSome ∧ s.kinetic.isSome)) ∧
    (r.getKinetic = .throws .runtimeError ↔
      s.kinetic = none ∧ ¬ (s.mass.isSome ∧ s.energy.isSome) ∧ ¬ (s.mass.isSome ∧ s.momentum.isSome)) ∧
    (r.getMomentum = .throws .runtimeError ↔
      s.momentum = none ∧ ¬ (s.mass.isSome ∧ s.energy.isSome ∧ s.direction.isSome) ∧
        ¬ (s.mass.isSome ∧ s.kinetic.isSome ∧ s.direction.isSome)) ∧
    (r.getDirection = .throws .runtimeError ↔
      s.direction = none ∧ s.momentum = none ∧ ¬ (s.initial.isSome ∧ s.vertex.isSome)) := by
  intro r s
  have hr : r.Holds s := history_holds c calls
  clear_value r s
  obtain ⟨m, e, k, d, p, l, x0, xv, pc, vd, id, hel, t0, t⟩ := r
  refine ⟨?_, ?_, ?_, ?_, ?_⟩
  · rw [← hr.mass, ← hr.energy, ← hr.momentum, ← hr.kinetic]
    clear hr
    cases m <;> cases e <;> cases p <;> cases k <;>
      simp [Prim.getMass, Prim.updateMass, Res.bind, Slot.read, Slot.value]
    all_goals (generalize sqrtV _ = v; cases v <;> simp)
  · rw [← hr.mass, ← hr.energy, ← hr.momentum, ← hr.kinetic]
    clear hr
    cases m <;> cases e <;> cases p <;> cases k <;>
      simp [Prim.getEnergy, Prim.updateEnergy, Res.bind, Slot.read, Slot.value]
    all_goals (generalize sqrtV _ = v; cases v <;> simp)
  · rw [← hr.mass, ← hr.energy, ← hr.momentum, ← hr.kinetic]
    clear hr
    cases m <;> cases e <;> cases p <;> cases k <;>
      simp [Prim.getKinetic, Prim.updateKinetic, Res.bind, Slot.read, Slot.value]
    all_goals (generalize sqrtV _ = v; cases v <;> simp [Val.apply])
  · rw [← hr.mass, ← hr.energy, ← hr.momentum, ← hr.kinetic, ← hr.direction]
    clear hr
    cases m <;> cases e <;> cases p <;> cases k <;> cases d <;>
      simp [Prim.getMomentum, Prim.updateMomentum, Res.bind, Slot.read, Slot.value]
    all_goals (generalize sqrtV _ = v; cases v <;> simp [Val.apply])
  · rw [← hr.momentum, ← hr.direction, ← hr.initial, ← hr.vertex]
    clear hr
    cases p <;> cases d <;> cases x0 <;> cases xv <;>
      simp [Prim.getDirection, Prim.updateDirection, Res.bind, Slot.read, Slot.value]
    all_goals (generalize unitV _ = v; cases v <;> simp)

/-- A particle of mass 3 and energy 5 moving along z: used in the examples. -/
noncomputable def sample : Truth where
  mass := 3
  energy := 5
  kinetic := 2
  direction := ⟨0, 0, 1⟩
  momentum := ⟨0, 0, 4⟩
  length := 7
  initial := ⟨1, 2, -3⟩
  vertex := ⟨1, 2, 4⟩
  poca := ⟨1, 2, 0⟩
  vdist := 4
  idist := -3

theorem sample_norm : Vec3.norm sample.momentum = 4 := by
  have : Vec3.dot sample.momentum sample.momentum = 4 ^ 2 := by norm_num [sample, Vec3.dot]
  rw [Vec3.norm, this]; exact Real.sqrt_sq (by norm_num)

theorem sample_kinematics : sample.Kinematics where
  mass_nonneg := by norm_num [sample]
  energy_nonneg := by norm_num [sample]
  shell := by norm_num [sample, Vec3.dot]
  kinetic := by norm_num [sample]
  unit := by norm_num [sample, Vec3.dot]
  along := by rw [sample_norm]; simp [sample, Vec3.smul]

theorem sample_line : sample.Line where
  unit := by norm_num [sample, Vec3.dot]
  length_nonneg := by norm_num [sample]
  vertex := by ext <;> norm_num [sample, Vec3.smul]
  closest := by norm_num [sample, Vec3.dot]
  initial_on_line := by ext <;> norm_num [sample, Vec3.smul]
  vertex_on_line := by ext <;> norm_num [sample, Vec3.smul]

/-- The hypotheses of `C06_kinematics` are met by a history that supplies mass, energy and direction, reads in between and
ends with the momentum determined but the length not. -/
example : ∃ calls : List Call, (supplied calls).From sample ∧ calls.length = 5 ∧
    Returns (Prim.history 1 calls).getMomentum (.num ⟨0, 0, 4⟩) ∧
    (Prim.history 1 calls).getLength = .throws .runtimeError := by
  let calls : List Call := [.setMass 3, .getEnergy, .setEnergy 5, .getMomentum, .setDirection ⟨0, 0, 1⟩]
  have hf : (supplied calls).From sample := by
    constructor <;> intro x hx <;> simp [calls, supplied, Supplied.call] at hx <;> simp [← hx, sample]
  refine ⟨calls, hf, rfl, ?_, ?_⟩
  · rcases (C06_kinematics 1 calls sample sample_kinematics sample_line hf).2.2.2.1 with h | h
    · exact h
    · have := (C06_exceptions 1 calls).2.2.2.1.1 h
      simp [calls, supplied, Supplied.call] at this
  · have hr := history_holds 1 calls
    have h1 : (Prim.history 1 calls).length.value = none := hr.length
    have h2 : (Prim.history 1 calls).initial.value = none := hr.initial
    have h3 : (Prim.history 1 calls).idist.value = none := hr.idist
    generalize Prim.history 1 calls = r at h1 h2 h3
    obtain ⟨m, e, k, d, p, l, x0, xv, pc, vd, id, hel, t0, t⟩ := r
    cases l <;> cases x0 <;> cases id <;> simp [Slot.value] at h1 h2 h3
    rfl

/-- C06 does not hold as first stated for a particle at rest: asked for a direction, the record reports NaN instead of
throwing. -/
theorem C06_rest_direction_fails : Returns (Prim.history 1 [.setMass 1, .setMomentum 0]).getDirection .nan := by
  have h : unitV 0 = .nan := by simp [unitV, Vec3.norm, Vec3.dot]
  refine ⟨{ Prim.history 1 [.setMass 1, .setMomentum 0] with direction := .unset .nan }, ?_⟩
  simp [Prim.history, Prim.call, Prim.new, Prim.getDirection, Prim.updateDirection, h, Res.bind, Slot.read]

/-- C07. After any calls in any order, with supplied values that are those of a straight path, the getters of length, initial
position and interaction vertex return the path's values or throw `std::runtime_error`; so the vertex is the initial
position plus length times direction, and both lie on the line through the point of closest approach at the supplied
signed distances. -/
theorem C07_positions (c : ℝ) (calls : List Call) (t : Truth) (l : t.Line) (h : (supplied calls).From t) :
    let r := Prim.history c calls
    Faithful r.getLength t.length ∧ Faithful r.getInitial t.initial ∧ Faithful r.getVertex t.vertex := by
  have hr := (history_holds c calls).true h
  exact ⟨getLength_true hr l, getInitial_true hr l, getVertex_true hr l⟩

/-- C07. Exactly when these getters throw. -/
theorem C07_exceptions (c : ℝ) (calls : List Call) :
    let r := Prim.history c calls
    let s := supplied calls
    (r.getLength = .throws .runtimeError ↔
      s.length = none ∧ ¬ (s.initial.isSome ∧ s.vertex.isSome) ∧ ¬ (s.idist.isSome ∧ s.vdist.isSome)) ∧
    (r.getInitial = .throws .runtimeError ↔
      s.initial = none ∧ ¬ (s.vertex.isSome ∧ s.direction.isSome ∧ s.length.isSome) ∧
        ¬ (s.vertex.isSome ∧ s.direction.isSome ∧ s.idist.isSome ∧ s.vdist.isSome) ∧
        ¬ (s.idist.isSome ∧ s.direction.isSome ∧ s.poca.isSome)) ∧
    (r.getVertex = .throws .runtimeError ↔
      s.vertex = none ∧ ¬ (s.initial.isSome ∧ s.direction.isSome ∧ s.length.isSome) ∧
        ¬ (s.initial.isSome ∧ s.direction.isSome ∧ s.idist.isSome ∧ s.vdist.isSome) ∧
        ¬ (s.vdist.isSome ∧ s.direction.isSome ∧ s.poca.isSome)) := by
  intro r s
  have hr : r.Holds s := history_holds c calls
  clear_value r s
  obtain ⟨m, e, k, d, p, l, x0, xv, pc, vd, id, hel, t0, t⟩ := r
  refine ⟨?_, ?_, ?_⟩
  · rw [← hr.length, ← hr.initial, ← hr.vertex, ← hr.idist, ← hr.vdist]
    clear hr
    cases l <;> cases x0 <;> cases xv <;> cases id <;> cases vd <;>
      simp [Prim.getLength, Prim.updateLength, Res.bind, Slot.read, Slot.value]
  · rw [← hr.length, ← hr.initial, ← hr.vertex, ← hr.idist, ← hr.vdist, ← hr.direction, ← hr.poca]
    clear hr
    cases x0
    · simp [Prim.getInitial, Prim.updateInitial, Res.bind, Slot.read, Slot.value]
    cases d
    case unset => simp [Prim.getInitial, Prim.updateInitial, Res.bind, Slot.value]
    cases xv <;> cases l <;> cases id <;> cases vd <;> cases pc <;>
      simp [Prim.getInitial, Prim.updateInitial, Res.bind, Slot.read, Slot.value]
  · rw [← hr.length, ← hr.initial, ← hr.vertex, ← hr.idist, ← hr.vdist, ← hr.direction, ← hr.poca]
    clear hr
    cases xv
    · simp [Prim.getVertex, Prim.updateVertex, Res.bind, Slot.read, Slot.value]
    cases d
    case unset => simp [Prim.getVertex, Prim.updateVertex, Res.bind, Slot.value]
    cases x0 <;> cases l <;> cases id <;> cases vd <;> cases pc <;>
      simp [Prim.getVertex, Prim.updateVertex, Res.bind, Slot.read, Slot.value]

/-- C07. What these getters return does not depend on the order of calls. -/
theorem C07_order_independent (c : ℝ) (calls calls' : List Call) (h : supplied calls = supplied calls') :
    let r := Prim.history c calls
    let r' := Prim.history c calls'
    outcome r.getLength = outcome r'.getLength ∧ outcome r.getInitial = outcome r'.getInitial ∧
    outcome r.getVertex = outcome r'.getVertex ∧ outcome r.getPoca = outcome r'.getPoca := by
  intro r r'
  have hr : r.Holds (supplied calls) := history_holds c calls
  have hr' : r'.Holds (supplied calls) := h ▸ history_holds c calls'
  clear_value r r'
  refine ⟨?_, ?_, ?_, ?_⟩
  · refine outcome_congr Prim.getLength ?_ hr hr'
    intro m e k d p l x0 xv pc vd id hel t0 t m' e' k' d' p' l' x0' xv' pc' vd' id' hel' t0' t' hm he hk hd hp hl hx0 hxv hpc hvd hid
    rcases same_value hl rfl with ⟨_, rfl, rfl⟩ | ⟨_, _, rfl, rfl⟩ <;>
    rcases same_value hx0 rfl with ⟨_, rfl, rfl⟩ | ⟨_, _, rfl, rfl⟩ <;>
    rcases same_value hxv rfl with ⟨_, rfl, rfl⟩ | ⟨_, _, rfl, rfl⟩ <;>
    rcases same_value hid rfl with ⟨_, rfl, rfl⟩ | ⟨_, _, rfl, rfl⟩ <;>
    rcases same_value hvd rfl with ⟨_, rfl, rfl⟩ | ⟨_, _, rfl, rfl⟩ <;>
    rfl
  · refine outcome_congr Prim.getInitial ?_ hr hr'
    intro m e k d p l x0 xv pc vd id hel t0 t m' e' k' d' p' l' x0' xv' pc' vd' id' hel' t0' t' hm he hk hd hp hl hx0 hxv hpc hvd hid
    rcases same_value hx0 rfl with ⟨_, rfl, rfl⟩ | ⟨_, _, rfl, rfl⟩ <;>
    rcases same_value hd rfl with ⟨_, rfl, rfl⟩ | ⟨_, _, rfl, rfl⟩ <;>
    rcases same_value hxv rfl with ⟨_, rfl, rfl⟩ | ⟨_, _, rfl, rfl⟩ <;>
    rcases same_value hl rfl with ⟨_, rfl, rfl⟩ | ⟨_, _, rfl, rfl⟩ <;>
    rcases same_value hid rfl with ⟨_, rfl, rfl⟩ | ⟨_, _, rfl, rfl⟩ <;>
    rcases same_value hvd rfl with ⟨_, rfl, rfl⟩ | ⟨_, _, rfl, rfl⟩ <;>
    rcases same_value hpc rfl with ⟨_, rfl, rfl⟩ | ⟨_, _, rfl, rfl⟩ <;>
    rfl
  · refine outcome_congr Prim.getVertex ?_ hr hr'
    intro m e k d p l x0 xv pc vd id hel t0 t m' e' k' d' p' l' x0' xv' pc' vd' id' hel' t0' t' hm he hk hd hp hl hx0 hxv hpc hvd hid
    rcases same_value hxv rfl with ⟨_, rfl, rfl⟩ | ⟨_, _, rfl, rfl⟩ <;>
    rcases same_value hd rfl with ⟨_, rfl, rfl⟩ | ⟨_, _, rfl, rfl⟩ <;>
    rcases same_value hx0 rfl with ⟨_, rfl, rfl⟩ | ⟨_, _, rfl, rfl⟩ <;>
    rcases same_value hl rfl with ⟨_, rfl, rfl⟩ | ⟨_, _, rfl, rfl⟩ <;>
    rcases same_value hid rfl with ⟨_, rfl, rfl⟩ | ⟨_, _, rfl, rfl⟩ <;>
    rcases same_value hvd rfl with ⟨_, rfl, rfl⟩ | ⟨_, _, rfl, rfl⟩ <;>
    rcases same_value hpc rfl with ⟨_, rfl, rfl⟩ | ⟨_, _, rfl, rfl⟩ <;>
    rfl
  · refine outcome_congr Prim.getPoca ?_ hr hr'
    intro m e k d p l x0 xv pc vd id hel t0 t m' e' k' d' p' l' x0' xv' pc' vd' id' hel' t0' t' hm he hk hd hp hl hx0 hxv hpc hvd hid
    rcases same_value hpc rfl with ⟨_, rfl, rfl⟩ | ⟨_, _, rfl, rfl⟩ <;>
    rcases same_value hx0 rfl with ⟨_, rfl, rfl⟩ | ⟨_, _, rfl, rfl⟩ <;>
    rcases same_value hd rfl with ⟨_, rfl, rfl⟩ | ⟨_, _, rfl, rfl⟩ <;>
    rcases same_value hid rfl with ⟨_, rfl, rfl⟩ | ⟨_, _, rfl, rfl⟩ <;>
    rcases same_value hxv rfl with ⟨_, rfl, rfl⟩ | ⟨_, _, rfl, rfl⟩ <;>
    rcases same_value hvd rfl with ⟨_, rfl, rfl⟩ | ⟨_, _, rfl, rfl⟩ <;>
    first
      | rfl
      | (simp only [Prim.getPoca, Prim.updatePoca]
         generalize unitV _ = v
         cases v <;> rfl)

/-- C07 for the point of closest approach and the signed distances. Missing: the point of closest approach computed from
initial position, direction and a nonzero signed distance, which has the wrong sign (`C07_poca_sign_fails`), and a signed
distance computed from the other end, the length and the point of closest approach when no direction was supplied, which
reads a direction that was never or earlier computed (`C07_stale_direction_fails`). For a path of length zero whose
direction would come from its two ends the result may be NaN. -/
theorem C07_closest_approach_partial (c : ℝ) (calls : List Call) (t : Truth) (l : t.Line) (h : (supplied calls).From t) :
    let r := Prim.history c calls
    let s := supplied calls
    ((s.initial.isSome ∧ s.direction.isSome ∧ s.idist.isSome → t.idist = 0) →
      Faithful r.getPoca t.poca ∨ (Returns r.getPoca .nan ∧ t.length = 0)) ∧
    (¬ (s.direction = none ∧ s.idist = none ∧ s.vertex = none ∧ s.initial.isSome ∧ s.length.isSome ∧ s.poca.isSome) →
      Faithful r.getVdist t.vdist ∨ (Returns r.getVdist .nan ∧ t.length = 0)) ∧
    (¬ (s.direction = none ∧ s.vdist = none ∧ s.initial = none ∧ s.vertex.isSome ∧ s.length.isSome ∧ s.poca.isSome) →
      Faithful r.getIdist t.idist ∨ (Returns r.getIdist .nan ∧ t.length = 0)) := by
  intro r s
  have hh : r.Holds s := history_holds c calls
  have hr := hh.true h
  clear_value r
  refine ⟨fun hx => getPoca_true hr l ?_, fun hx => getVdist_true hr l ?_, fun hx => getIdist_true hr l ?_⟩
  · intro x d i h1 h2 h3
    apply hx
    rw [← hh.initial, ← hh.direction, ← hh.idist, h1, h2, h3]
    simp [Slot.value]
  · intro m x ll p h1 h2 h3 h4 h5 h6
    apply hx
    rw [← hh.direction, ← hh.idist, ← hh.vertex, ← hh.initial, ← hh.length, ← hh.poca, h1, h2, h3, h4, h5, h6]
    simp [Slot.value]
  · intro m x ll p h1 h2 h3 h4 h5 h6
    apply hx
    rw [← hh.direction, ← hh.vdist, ← hh.initial, ← hh.vertex, ← hh.length, ← hh.poca, h1, h2, h3, h4, h5, h6]
    simp [Slot.value]

/-- The hypotheses of the C07 theorems are met by a history that supplies the point of closest approach, both signed
distances and the direction, and reads in between; everything else is then answered. -/
example : ∃ calls : List Call, (supplied calls).From sample ∧ calls.length = 6 ∧
    Returns (Prim.history 1 calls).getInitial (.num ⟨1, 2, -3⟩) ∧
    Returns (Prim.history 1 calls).getVertex (.num ⟨1, 2, 4⟩) ∧ Returns (Prim.history 1 calls).getLength (.num 7) := by
  let calls : List Call := [.setPoca ⟨1, 2, 0⟩, .getVertex, .setVdist 4, .setIdist (-3), .getLength, .setDirection ⟨0, 0, 1⟩]
  have hf : (supplied calls).From sample := by
    constructor <;> intro x hx <;> simp [calls, supplied, Supplied.call] at hx <;> simp [← hx, sample]
  obtain ⟨h1, h2, h3⟩ := C07_positions 1 calls sample sample_line hf
  obtain ⟨e1, e2, e3⟩ := C07_exceptions 1 calls
  refine ⟨calls, hf, rfl, ?_, ?_, ?_⟩
  · rcases h2 with h | h
    · exact h
    · simpa [calls, supplied, Supplied.call] using e2.1 h
  · rcases h3 with h | h
    · exact h
    · simpa [calls, supplied, Supplied.call] using e3.1 h
  · rcases h1 with h | h
    · exact h
    · simpa [calls, supplied, Supplied.call] using e1.1 h

/-- C07 fails: from an initial position one metre after the point of closest approach, the record reports a point two metres
along as the point of closest approach to the origin. -/
theorem C07_poca_sign_fails :
    Returns (Prim.history 1 [.setInitial ⟨1, 0, 0⟩, .setDirection ⟨1, 0, 0⟩, .setIdist 1]).getPoca (.num ⟨2, 0, 0⟩) := by
  refine ⟨{ Prim.history 1 [.setInitial ⟨1, 0, 0⟩, .setDirection ⟨1, 0, 0⟩, .setIdist 1] with
    poca := .unset (.num ⟨2, 0, 0⟩) }, ?_⟩
  have : (⟨1, 0, 0⟩ + Vec3.smul 1 ⟨1, 0, 0⟩ : Vec3 ℝ) = ⟨2, 0, 0⟩ := by ext <;> norm_num [Vec3.smul]
  simp [Prim.history, Prim.call, Prim.new, Prim.getPoca, Prim.updatePoca, Res.bind, Slot.read, this]

/-- C07 fails: with initial position, length, point of closest approach and momentum supplied, the vertex distance is
computed from an uninitialised direction, or from the right one if somebody asked for the direction before. -/
theorem C07_stale_direction_fails :
    let calls : List Call := [.setInitial ⟨1, 0, 0⟩, .setLength 1, .setPoca 0, .setMomentum ⟨2, 0, 0⟩]
    supplied calls = supplied (calls ++ [.getDirection]) ∧
    (Prim.history 1 calls).getVdist = .ub ∧
    outcome (Prim.history 1 (calls ++ [.getDirection])).getVdist = .ok (.num 2) := by
  intro calls
  refine ⟨rfl, rfl, ?_⟩
  have hu : unitV ⟨2, 0, 0⟩ = .num ⟨1, 0, 0⟩ := by
    have hd : (⟨2, 0, 0⟩ : Vec3 ℝ) = Vec3.smul 2 ⟨1, 0, 0⟩ := by ext <;> norm_num [Vec3.smul]
    rcases unitV_smul (v := ⟨2, 0, 0⟩) (d := ⟨1, 0, 0⟩) (k := 2) (by norm_num) (by norm_num [Vec3.dot]) hd with h | h
    · exact h
    · norm_num at h
  have hs : signedDistance ⟨1, 0, 0⟩ ⟨1, 0, 0⟩ = 1 :=
    signedDistance_eq (pc := 0) (by norm_num [Vec3.dot]) (by norm_num [Vec3.dot]) (by ext <;> norm_num [Vec3.smul])
  simp [calls, Prim.history, Prim.call, Prim.new, Prim.getDirection, Prim.updateDirection, hu, Res.bind, Slot.read, after,
    Prim.getVdist, Prim.updateVdist, Val.apply, hs, outcome]
  norm_num

/-! ## C62: interaction time and finalization -/

theorem getInitial_holds {r r' : Prim} {s : Supplied} {v : Val (Vec3 ℝ)} (h : r.Holds s) (hr : r.getInitial = .ok (r', v)) :
    r'.Holds s := get_same keeps_initial Prim.initial hr s h
theorem getVertex_holds {r r' : Prim} {s : Supplied} {v : Val (Vec3 ℝ)} (h : r.Holds s) (hr : r.getVertex = .ok (r', v)) :
    r'.Holds s := get_same keeps_vertex Prim.vertex hr s h
theorem getEnergy_holds {r r' : Prim} {s : Supplied} {v : Val ℝ} (h : r.Holds s) (hr : r.getEnergy = .ok (r', v)) :
    r'.Holds s := get_same keeps_energy Prim.energy hr s h
theorem getMass_holds {r r' : Prim} {s : Supplied} {v : Val ℝ} (h : r.Holds s) (hr : r.getMass = .ok (r', v)) :
    r'.Holds s := get_same keeps_mass Prim.mass hr s h

/-- The time at which the particle reaches the vertex: its speed is `c |p| / E`. -/
noncomputable def Truth.arrival (t : Truth) (c start : ℝ) : ℝ := start + t.length / (c * (Vec3.norm t.momentum / t.energy))

theorem flightTime_true {t : Truth} (k : t.Kinematics) (l : t.Line) (c : ℝ) (hp : Vec3.norm t.momentum ≠ 0) :
    flightTime c (Vec3.norm (t.vertex - t.initial)) t.energy
      (if t.energy > t.mass then Real.sqrt (t.energy * t.energy - t.mass * t.mass) else 0) =
      t.length / (c * (Vec3.norm t.momentum / t.energy)) := by
  have hn : (Vec3.norm t.momentum) ^ 2 = Vec3.dot t.momentum t.momentum := Real.sq_sqrt (Vec3.dot_self_nonneg _)
  have hpos : 0 < Vec3.norm t.momentum := lt_of_le_of_ne (Vec3.norm_nonneg _) (Ne.symm hp)
  have hshell := k.shell
  rw [← hn] at hshell
  have hem : t.energy > t.mass := by
    by_contra hcon
    have : t.energy ^ 2 ≤ t.mass ^ 2 := pow_le_pow_left₀ k.energy_nonneg (le_of_not_gt hcon) 2
    nlinarith [sq_pos_of_pos hpos]
  have he : 0 < t.energy := lt_of_le_of_lt k.mass_nonneg hem
  have hsq : Real.sqrt (t.energy * t.energy - t.mass * t.mass) = Vec3.norm t.momentum := by
    rw [show t.energy * t.energy - t.mass * t.mass = Vec3.norm t.momentum ^ 2 by linear_combination hshell]
    exact Real.sqrt_sq hpos.le
  have hpe : Vec3.norm t.momentum ≤ t.energy := by
    apply le_of_sq_le_sq ?_ he.le
    rw [hshell]; nlinarith [sq_nonneg t.mass]
  rw [if_pos hem, hsq, smul_eq_unit l.length_nonneg l.unit l.difference, flightTime]
  by_cases hl : t.length > 0
  · rw [if_neg (by simp [hl, he, hpos]), min_eq_left ((div_le_one he).2 hpe), mul_comm c]
  · rw [if_pos (.inl hl), le_antisymm (le_of_not_gt hl) l.length_nonneg, zero_div]

theorem getTime_true (c : ℝ) {r : Prim} {s : Supplied} {t : Truth} (h : r.Holds s) (hs : s.From t) (k : t.Kinematics)
    (l : t.Line) (hp : Vec3.norm t.momentum ≠ 0) :
    (∃ r', r.getTime c = .ok (r', .num (s.time.getD (t.arrival c (s.initialTime.getD 0)))) ∧ r'.Holds s) ∨
      r.getTime c = .throws .runtimeError := by
  unfold Prim.getTime
  cases hu : r.updateTime c with
  | ok r' =>
    have hh := keeps_time c r r' hu s h
    left
    refine ⟨r', ?_, hh⟩
    unfold Prim.updateTime at hu
    split at hu
    · rename_i x hx
      cases hu
      have := h.time
      rw [hx] at this
      simp only [Res.bind, hx, Slot.read, ← this]
      rfl
    · rename_i m hm
      have ht : s.time = none := by rw [← h.time, hm]; rfl
      obtain ⟨⟨r1, x0⟩, h1, hu⟩ := res_bind_ok hu
      obtain ⟨⟨r2, xv⟩, h2, hu⟩ := res_bind_ok hu
      obtain ⟨⟨r3, e⟩, h3, hu⟩ := res_bind_ok hu
      obtain ⟨⟨r4, mm⟩, h4, hu⟩ := res_bind_ok hu
      have hh1 := getInitial_holds h h1
      have hh2 := getVertex_holds hh1 h2
      have hh3 := getEnergy_holds hh2 h3
      have hh4 := getMass_holds hh3 h4
      have e1 : x0 = .num t.initial := by
        rcases getInitial_true (h.true hs) l with ⟨_, q⟩ | q <;> rw [q] at h1 <;> cases h1; rfl
      have e2 : xv = .num t.vertex := by
        rcases getVertex_true (hh1.true hs) l with ⟨_, q⟩ | q <;> rw [q] at h2 <;> cases h2; rfl
      have e3 : e = .num t.energy := by
        rcases getEnergy_true (hh2.true hs) k with ⟨_, q⟩ | q <;> rw [q] at h3 <;> cases h3; rfl
      have e4 : mm = .num t.mass := by
        rcases getMass_true (hh3.true hs) k with ⟨_, q⟩ | q <;> rw [q] at h4 <;> cases h4; rfl
      subst e1 e2 e3 e4
      simp only [Res.ok.injEq] at hu
      rw [← hu]
      simp only [Res.bind, Slot.read, flightTime_true k l c hp, hh4.initialTime, ht]
      rfl
  | throws e =>
    right
    unfold Prim.updateTime at hu
    split at hu
    · cases hu
    · rcases getInitial_true (h.true hs) l with ⟨r1, q1⟩ | q1 <;> rw [q1] at hu <;> simp only [Res.bind] at hu
      · have hh1 := getInitial_holds h q1
        rcases getVertex_true (hh1.true hs) l with ⟨r2, q2⟩ | q2 <;> rw [q2] at hu <;> simp only at hu
        · have hh2 := getVertex_holds hh1 q2
          rcases getEnergy_true (hh2.true hs) k with ⟨r3, q3⟩ | q3 <;> rw [q3] at hu <;> simp only at hu
          · have hh3 := getEnergy_holds hh2 q3
            rcases getMass_true (hh3.true hs) k with ⟨r4, q4⟩ | q4 <;> rw [q4] at hu <;> simp only at hu
            · cases hu
            · (cases hu; rfl)
          · (cases hu; rfl)
        · (cases hu; rfl)
      · (cases hu; rfl)
  | ub =>
    exfalso
    unfold Prim.updateTime at hu
    split at hu
    · cases hu
    · rcases getInitial_true (h.true hs) l with ⟨r1, q1⟩ | q1 <;> rw [q1] at hu <;> simp only [Res.bind] at hu
      · have hh1 := getInitial_holds h q1
        rcases getVertex_true (hh1.true hs) l with ⟨r2, q2⟩ | q2 <;> rw [q2] at hu <;> simp only at hu
        · have hh2 := getVertex_holds hh1 q2
          rcases getEnergy_true (hh2.true hs) k with ⟨r3, q3⟩ | q3 <;> rw [q3] at hu <;> simp only at hu
          · have hh3 := getEnergy_holds hh2 q3
            rcases getMass_true (hh3.true hs) k with ⟨r4, q4⟩ | q4 <;> rw [q4] at hu <;> simp only at hu
            · cases hu
            · cases hu
          · cases hu
        · cases hu
      · cases hu

/-- C62. The interaction time of a moving primary is the supplied one, or else its start time plus the flight time along its
path at its speed, or an exception; a start time not supplied is zero. -/
theorem C62_interaction_time (c : ℝ) (calls : List Call) (t : Truth) (k : t.Kinematics) (l : t.Line)
    (h : (supplied calls).From t) (hp : Vec3.norm t.momentum ≠ 0) :
    let start := (supplied calls).initialTime.getD 0
    Faithful ((Prim.history c calls).getTime c) ((supplied calls).time.getD (t.arrival c start)) := by
  rcases getTime_true c (history_holds c calls) h k l hp with ⟨r', hr', -⟩ | hr'
  · exact .inl ⟨r', hr'⟩
  · exact .inr hr'

/-- C62. Finalizing writes the particle's own vertex, initial position, mass, four-momentum, helicity and times, or throws
`std::runtime_error`. -/
theorem C62_finalize (c : ℝ) (calls : List Call) (t : Truth) (k : t.Kinematics) (l : t.Line)
    (h : (supplied calls).From t) (hp : Vec3.norm t.momentum ≠ 0) :
    let s := supplied calls
    let start := s.initialTime.getD 0
    (Prim.history c calls).finalize c =
      .ok ⟨.num t.vertex, .num t.initial, .num t.mass, .num t.energy, .num t.momentum, s.helicity.getD 0, start,
        .num (s.time.getD (t.arrival c start))⟩ ∨
    (Prim.history c calls).finalize c = .throws .runtimeError := by
  have hh := history_holds c calls
  unfold Prim.finalize
  rcases getVertex_true (hh.true h) l with ⟨r1, q1⟩ | q1 <;> rw [q1]
  · have hh1 := getVertex_holds hh q1
    rcases getInitial_true (hh1.true h) l with ⟨r2, q2⟩ | q2 <;> simp only [Res.bind, q2]
    · have hh2 := getInitial_holds hh1 q2
      rcases getMass_true (hh2.true h) k with ⟨r3, q3⟩ | q3 <;> simp only [q3]
      · have hh3 := getMass_holds hh2 q3
        rcases getFour_true hh3 h k with ⟨r4, q4, hh4⟩ | q4 <;> simp only [q4]
        · rcases getTime_true c hh4 h k l hp with ⟨r5, q5, hh5⟩ | q5 <;> simp only [q5]
          · left; rw [hh5.helicity, hh5.initialTime]
          · right; trivial
        · right; trivial
      · right; trivial
    · right; trivial
  · right; trivial

/-- The hypotheses are met, and finalization succeeds, for a record that was given mass, energy, direction, vertex, length
and a start time: the arrival is `7 / (c · 4/5)` later. -/
example : ∃ calls : List Call, (supplied calls).From sample ∧ Vec3.norm sample.momentum ≠ 0 ∧
    outcome ((Prim.history 2 calls).getTime 2) = .ok (.num (10 + 7 / (2 * (4 / 5)))) := by
  let calls : List Call := [.setMass 3, .setEnergy 5, .setDirection ⟨0, 0, 1⟩, .setVertex ⟨1, 2, 4⟩, .setLength 7,
    .setInitialTime 10]
  have hf : (supplied calls).From sample := by
    constructor <;> intro x hx <;> simp [calls, supplied, Supplied.call] at hx <;> simp [← hx, sample]
  have hn : Vec3.norm sample.momentum ≠ 0 := by rw [sample_norm]; norm_num
  refine ⟨calls, hf, hn, ?_⟩
  rcases C62_interaction_time 2 calls sample sample_kinematics sample_line hf hn with ⟨r, h⟩ | h
  · rw [h]
    simp [outcome, calls, supplied, Supplied.call, Truth.arrival, sample_norm]
    norm_num [sample]
  · exfalso
    revert h
    simp [calls, Prim.history, Prim.call, Prim.new, Prim.getTime, Prim.updateTime, Prim.getInitial, Prim.updateInitial,
      Prim.getVertex, Prim.updateVertex, Prim.getEnergy, Prim.updateEnergy, Prim.getMass, Prim.updateMass, Res.bind, Slot.read]

end Siren.Records
