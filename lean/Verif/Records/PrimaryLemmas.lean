import Verif.Records.PrimaryModel
import Mathlib.Tactic.LinearCombination

set_option autoImplicit false

/-!
# C06, C07 and C62: a primary record is consistent

Specification: a `Particle` on the mass shell travelling along a straight line. If the values supplied to the record are
those of the particle, whatever the getters return is that particle's.
-/

namespace Siren.Records

open Siren

/-! ## Specification -/

/-- What a user may know about a primary particle. -/
structure Truth where
  mass : ℝ
  energy : ℝ
  kinetic : ℝ
  direction : Vec3 ℝ
  momentum : Vec3 ℝ
  length : ℝ
  initial : Vec3 ℝ
  vertex : Vec3 ℝ
  poca : Vec3 ℝ
  vdist : ℝ
  idist : ℝ

/-- The relations of the properties C06 (`E² = p² + m²`, `K = E - m`, `p = |p| d`). -/
structure Truth.Kinematics (t : Truth) : Prop where
  mass_nonneg : 0 ≤ t.mass
  energy_nonneg : 0 ≤ t.energy
  shell : t.energy ^ 2 = Vec3.dot t.momentum t.momentum + t.mass ^ 2
  kinetic : t.kinetic = t.energy - t.mass
  unit : Vec3.dot t.direction t.direction = 1
  along : t.momentum = Vec3.smul (Vec3.norm t.momentum) t.direction

/-- The relations of the property C07: the vertex is the initial position plus length times direction, and both lie on the
line through the point of closest approach to the origin, at the signed distances. -/
structure Truth.Line (t : Truth) : Prop where
  unit : Vec3.dot t.direction t.direction = 1
  length_nonneg : 0 ≤ t.length
  vertex : t.vertex = t.initial + Vec3.smul t.length t.direction
  closest : Vec3.dot t.poca t.direction = 0
  initial_on_line : t.initial = t.poca + Vec3.smul t.idist t.direction
  vertex_on_line : t.vertex = t.poca + Vec3.smul t.vdist t.direction

/-- What was supplied: the last value given to each setter. -/
structure Supplied where
  mass : Option ℝ := none
  energy : Option ℝ := none
  kinetic : Option ℝ := none
  direction : Option (Vec3 ℝ) := none
  momentum : Option (Vec3 ℝ) := none
  length : Option ℝ := none
  initial : Option (Vec3 ℝ) := none
  vertex : Option (Vec3 ℝ) := none
  poca : Option (Vec3 ℝ) := none
  vdist : Option ℝ := none
  idist : Option ℝ := none
  helicity : Option ℝ := none
  initialTime : Option ℝ := none
  time : Option ℝ := none

/-- The effect of one call on what was supplied: getters supply nothing. -/
def Supplied.call (s : Supplied) : Call → Supplied
  | .setMass x => { s with mass := some x }
  | .setEnergy x => { s with energy := some x }
  | .setKinetic x => { s with kinetic := some x }
  | .setDirection v => { s with direction := some v }
  | .setMomentum v => { s with momentum := some v }
  | .setFourMomentum e p => { s with energy := some e, momentum := some p }
  | .setParticle m e p x0 l h =>
    { s with mass := some m, energy := some e, momentum := some p, initial := some x0, length := some l, helicity := some h }
  | .setLength x => { s with length := some x }
  | .setInitial v => { s with initial := some v }
  | .setVertex v => { s with vertex := some v }
  | .setPoca v => { s with poca := some v }
  | .setVdist x => { s with vdist := some x }
  | .setIdist x => { s with idist := some x }
  | .setHelicity x => { s with helicity := some x }
  | .setInitialTime x => { s with initialTime := some x }
  | .setTime x => { s with time := some x }
  | _ => s

/-- What a history of calls supplied. -/
def supplied (calls : List Call) : Supplied := calls.foldl Supplied.call {}

/-- The supplied values are those of the particle. -/
structure Supplied.From (s : Supplied) (t : Truth) : Prop where
  mass : ∀ x, s.mass = some x → x = t.mass
  energy : ∀ x, s.energy = some x → x = t.energy
  kinetic : ∀ x, s.kinetic = some x → x = t.kinetic
  direction : ∀ x, s.direction = some x → x = t.direction
  momentum : ∀ x, s.momentum = some x → x = t.momentum
  length : ∀ x, s.length = some x → x = t.length
  initial : ∀ x, s.initial = some x → x = t.initial
  vertex : ∀ x, s.vertex = some x → x = t.vertex
  poca : ∀ x, s.poca = some x → x = t.poca
  vdist : ∀ x, s.vdist = some x → x = t.vdist
  idist : ∀ x, s.idist = some x → x = t.idist

/-- A getter returned this value. -/
def Returns {A : Type} (res : Res (Prim × A)) (v : A) : Prop := ∃ r, res = .ok (r, v)

/-- A getter returns the true value or throws. -/
def Faithful {A : Type} (res : Res (Prim × Val A)) (a : A) : Prop :=
  Returns res (.num a) ∨ res = .throws .runtimeError

/-- What a getter returned, without the record. -/
def outcome {A : Type} : Res (Prim × A) → Res A
  | .ok (_, v) => .ok v
  | .throws e => .throws e
  | .ub => .ub

/-! ## Supplied values are those in the slots -/

/-- The supplied value of a slot. -/
def Slot.value {A : Type} : Slot A → Option A
  | .given a => some a
  | .unset _ => none

/-- The supplied values of a record, except helicity and initial time. -/
structure Prim.Holds (r : Prim) (s : Supplied) : Prop where
  mass : r.mass.value = s.mass
  energy : r.energy.value = s.energy
  kinetic : r.kinetic.value = s.kinetic
  direction : r.direction.value = s.direction
  momentum : r.momentum.value = s.momentum
  length : r.length.value = s.length
  initial : r.initial.value = s.initial
  vertex : r.vertex.value = s.vertex
  poca : r.poca.value = s.poca
  vdist : r.vdist.value = s.vdist
  idist : r.idist.value = s.idist
  helicity : r.helicity = s.helicity.getD 0
  initialTime : r.initialTime = s.initialTime.getD 0
  time : r.time.value = s.time

/-- Same supplied values. -/
def Prim.Same (r r' : Prim) : Prop := ∀ s, r.Holds s → r'.Holds s

theorem Prim.Same.refl (r : Prim) : r.Same r := fun _ h => h
theorem Prim.Same.trans {a b c : Prim} (h : a.Same b) (h' : b.Same c) : a.Same c := fun s hs => h' s (h s hs)

/-- A step that, when it succeeds, keeps the supplied values. -/
def Keeps (f : Prim → Res Prim) : Prop := ∀ r r', f r = .ok r' → r.Same r'

theorem res_bind_ok {A B : Type} {x : Res A} {f : A → Res B} {b : B} (h : x.bind f = .ok b) : ∃ a, x = .ok a ∧ f a = .ok b := by
  cases x with
  | ok a => exact ⟨a, rfl, h⟩
  | throws e => exact absurd h (by simp [Res.bind])
  | ub => exact absurd h (by simp [Res.bind])

macro "keeps_tac" f:ident slot:ident : tactic => `(tactic| (
  intro r r' h s hs
  unfold $f at h
  split at h
  · cases h; exact hs
  · rename_i hm
    (repeat' split at h)
    all_goals first
      | (cases h; done)
      | (obtain ⟨v, -, h⟩ := res_bind_ok h
         cases h
         have hx := hs.$slot
         rw [hm] at hx
         exact { hs with $slot:ident := hx })
      | (cases h
         have hx := hs.$slot
         rw [hm] at hx
         exact { hs with $slot:ident := hx })))

theorem keeps_mass : Keeps Prim.updateMass := by keeps_tac Prim.updateMass mass
theorem keeps_energy : Keeps Prim.updateEnergy := by keeps_tac Prim.updateEnergy energy
theorem keeps_kinetic : Keeps Prim.updateKinetic := by keeps_tac Prim.updateKinetic kinetic
theorem keeps_direction : Keeps Prim.updateDirection := by keeps_tac Prim.updateDirection direction
theorem keeps_momentum : Keeps Prim.updateMomentum := by keeps_tac Prim.updateMomentum momentum
theorem keeps_length : Keeps Prim.updateLength := by keeps_tac Prim.updateLength length
theorem keeps_initial : Keeps Prim.updateInitial := by keeps_tac Prim.updateInitial initial
theorem keeps_vertex : Keeps Prim.updateVertex := by keeps_tac Prim.updateVertex vertex
theorem keeps_poca : Keeps Prim.updatePoca := by keeps_tac Prim.updatePoca poca
theorem keeps_vdist : Keeps Prim.updateVdist := by keeps_tac Prim.updateVdist vdist
theorem keeps_idist : Keeps Prim.updateIdist := by keeps_tac Prim.updateIdist idist


theorem after_same {A : Type} {f : Prim → Res Prim} (hf : Keeps f) (slot : Prim → Slot A) (r : Prim) :
    r.Same (after r ((f r).bind fun r => (slot r).read.bind fun v => Res.ok (r, v))) := by
  cases hr : f r with
  | ok r' =>
    simp only [Res.bind]
    cases hv : (slot r').read with
    | ok v => simpa [after] using hf r r' hr
    | throws e => exact Prim.Same.refl r
    | ub => exact Prim.Same.refl r
  | throws e => exact Prim.Same.refl r
  | ub => exact Prim.Same.refl r

theorem get_same {A : Type} {f : Prim → Res Prim} (hf : Keeps f) (slot : Prim → Slot A) {r r' : Prim} {v : Val A}
    (h : ((f r).bind fun r => (slot r).read.bind fun v => Res.ok (r, v)) = .ok (r', v)) : r.Same r' := by
  obtain ⟨a, ha, h⟩ := res_bind_ok h
  obtain ⟨b, hb, h⟩ := res_bind_ok h
  cases h
  exact hf r _ ha

theorem keeps_time (c : ℝ) : Keeps (Prim.updateTime c) := by
  intro r r' h s hs
  unfold Prim.updateTime at h
  split at h
  · cases h; exact hs
  · rename_i hm
    obtain ⟨⟨r1, x0⟩, h1, h⟩ := res_bind_ok h
    obtain ⟨⟨r2, xv⟩, h2, h⟩ := res_bind_ok h
    obtain ⟨⟨r3, e⟩, h3, h⟩ := res_bind_ok h
    obtain ⟨⟨r4, m⟩, h4, h⟩ := res_bind_ok h
    have hs4 : r4.Holds s := get_same keeps_mass Prim.mass h4 s <| get_same keeps_energy Prim.energy h3 s <|
      get_same keeps_vertex Prim.vertex h2 s <| get_same keeps_initial Prim.initial h1 s hs
    have ht : (Slot.unset (A := ℝ) .uninit).value = s.time := by rw [← hs.time, hm]; rfl
    simp only at h
    split at h
    all_goals first
      | (cases h; done)
      | (cases h; exact { hs4 with time := ht })

theorem after_four_same (r : Prim) : r.Same (after r r.getFour) := by
  cases hr : r.getFour with
  | ok x =>
    obtain ⟨a, ha, hr⟩ := res_bind_ok hr
    obtain ⟨b, hb, hr⟩ := res_bind_ok hr
    obtain ⟨e, -, hr⟩ := res_bind_ok hr
    obtain ⟨p, -, hr⟩ := res_bind_ok hr
    cases hr
    exact (keeps_momentum r a ha).trans (keeps_energy a b hb)
  | throws e => exact Prim.Same.refl r
  | ub => exact Prim.Same.refl r

theorem call_holds (c : ℝ) (r : Prim) (s : Supplied) (x : Call) (h : r.Holds s) : (r.call c x).Holds (s.call x) := by
  cases x with
  | getMass => exact after_same keeps_mass Prim.mass r s h
  | getEnergy => exact after_same keeps_energy Prim.energy r s h
  | getKinetic => exact after_same keeps_kinetic Prim.kinetic r s h
  | getDirection => exact after_same keeps_direction Prim.direction r s h
  | getMomentum => exact after_same keeps_momentum Prim.momentum r s h
  | getLength => exact after_same keeps_length Prim.length r s h
  | getInitial => exact after_same keeps_initial Prim.initial r s h
  | getVertex => exact after_same keeps_vertex Prim.vertex r s h
  | getPoca => exact after_same keeps_poca Prim.poca r s h
  | getVdist => exact after_same keeps_vdist Prim.vdist r s h
  | getIdist => exact after_same keeps_idist Prim.idist r s h
  | getFour => exact after_four_same r s h
  | getTime => exact after_same (keeps_time c) Prim.time r s h
  | setFourMomentum e p => exact { h with energy := rfl, momentum := rfl }
  | setParticle m e p x0 l k =>
    exact { h with mass := rfl, energy := rfl, momentum := rfl, initial := rfl, length := rfl, helicity := rfl }
  | setHelicity x => exact { h with helicity := rfl }
  | setInitialTime x => exact { h with initialTime := rfl }
  | setTime x => exact { h with time := rfl }
  | setMass x => exact { h with mass := rfl }
  | setEnergy x => exact { h with energy := rfl }
  | setKinetic x => exact { h with kinetic := rfl }
  | setDirection x => exact { h with direction := rfl }
  | setMomentum x => exact { h with momentum := rfl }
  | setLength x => exact { h with length := rfl }
  | setInitial x => exact { h with initial := rfl }
  | setVertex x => exact { h with vertex := rfl }
  | setPoca x => exact { h with poca := rfl }
  | setVdist x => exact { h with vdist := rfl }
  | setIdist x => exact { h with idist := rfl }

theorem history_holds (c : ℝ) (calls : List Call) : (Prim.history c calls).Holds (supplied calls) := by
  have : ∀ (calls : List Call) (r : Prim) (s : Supplied), r.Holds s →
      (calls.foldl (Prim.call c) r).Holds (calls.foldl Supplied.call s) := by
    intro calls
    induction calls with
    | nil => intro r s h; exact h
    | cons x xs ih => intro r s h; exact ih _ _ (call_holds c r s x h)
  exact this calls Prim.new {} ⟨rfl, rfl, rfl, rfl, rfl, rfl, rfl, rfl, rfl, rfl, rfl, rfl, rfl, rfl⟩

/-- The slots hold the particle's values. -/
structure Prim.True (r : Prim) (t : Truth) : Prop where
  mass : ∀ x, r.mass = .given x → x = t.mass
  energy : ∀ x, r.energy = .given x → x = t.energy
  kinetic : ∀ x, r.kinetic = .given x → x = t.kinetic
  direction : ∀ x, r.direction = .given x → x = t.direction
  momentum : ∀ x, r.momentum = .given x → x = t.momentum
  length : ∀ x, r.length = .given x → x = t.length
  initial : ∀ x, r.initial = .given x → x = t.initial
  vertex : ∀ x, r.vertex = .given x → x = t.vertex
  poca : ∀ x, r.poca = .given x → x = t.poca
  vdist : ∀ x, r.vdist = .given x → x = t.vdist
  idist : ∀ x, r.idist = .given x → x = t.idist

theorem slot_value {A : Type} {x : Slot A} {o : Option A} {a t : A} (h : x.value = o) (ho : ∀ a, o = some a → a = t)
    (hx : x = .given a) : a = t := ho a (by rw [← h, hx]; rfl)

theorem Prim.Holds.true {r : Prim} {s : Supplied} {t : Truth} (h : r.Holds s) (hs : s.From t) : r.True t where
  mass := fun _ hx => slot_value h.mass hs.mass hx
  energy := fun _ hx => slot_value h.energy hs.energy hx
  kinetic := fun _ hx => slot_value h.kinetic hs.kinetic hx
  direction := fun _ hx => slot_value h.direction hs.direction hx
  momentum := fun _ hx => slot_value h.momentum hs.momentum hx
  length := fun _ hx => slot_value h.length hs.length hx
  initial := fun _ hx => slot_value h.initial hs.initial hx
  vertex := fun _ hx => slot_value h.vertex hs.vertex hx
  poca := fun _ hx => slot_value h.poca hs.poca hx
  vdist := fun _ hx => slot_value h.vdist hs.vdist hx
  idist := fun _ hx => slot_value h.idist hs.idist hx

/-! ## Arithmetic of the particle -/

theorem sqrtV_sq {x y : ℝ} (hy : 0 ≤ y) (h : x = y ^ 2) : sqrtV x = .num y := by
  rw [sqrtV, if_pos (by rw [h]; positivity), h, Real.sqrt_sq hy]

theorem smul_eq_unit {v d : Vec3 ℝ} {k : ℝ} (hk : 0 ≤ k) (hd : Vec3.dot d d = 1) (h : v = Vec3.smul k d) :
    Vec3.norm v = k := by rw [h, Vec3.norm_smul_unit k d hd, abs_of_nonneg hk]

theorem unitV_smul {v d : Vec3 ℝ} {k : ℝ} (hk : 0 ≤ k) (hd : Vec3.dot d d = 1) (h : v = Vec3.smul k d) :
    unitV v = .num d ∨ (unitV v = .nan ∧ k = 0) := by
  unfold unitV
  rw [smul_eq_unit hk hd h]
  by_cases hz : k = 0
  · right; exact ⟨if_pos hz, hz⟩
  · left
    rw [if_neg hz, h]
    simp only [Vec3.smul_x, Vec3.smul_y, Vec3.smul_z, mul_div_cancel_left₀ _ hz]

theorem closest_eq {x pc d : Vec3 ℝ} {k : ℝ} (hd : Vec3.dot d d = 1) (hp : Vec3.dot pc d = 0)
    (hx : x = pc + Vec3.smul k d) : closest x d = pc ∧ Vec3.dot x d = k := by
  have hk : Vec3.dot x d = k := by
    have : Vec3.dot x d = Vec3.dot pc d + k * Vec3.dot d d := by rw [hx]; simp [Vec3.dot]; ring
    rw [this, hp, hd]; ring
  refine ⟨?_, hk⟩
  rw [closest, hk, hx]
  ext <;> simp

theorem signedDistance_eq {x pc d : Vec3 ℝ} {k : ℝ} (hd : Vec3.dot d d = 1) (hp : Vec3.dot pc d = 0)
    (hx : x = pc + Vec3.smul k d) : signedDistance x d = k := by
  have hdiff : x - closest x d = Vec3.smul k d := by
    rw [(closest_eq hd hp hx).1, hx]; ext <;> simp
  have hdot : Vec3.dot (Vec3.smul k d) d = k := by
    have : Vec3.dot (Vec3.smul k d) d = k * Vec3.dot d d := by simp [Vec3.dot]; ring
    rw [this, hd, mul_one]
  simp only [signedDistance, hdiff, hdot, Vec3.norm_smul_unit k d hd]
  by_cases h : k > 0
  · rw [if_pos h, abs_of_pos h, mul_one]
  · rw [if_neg h, abs_of_nonpos (le_of_not_gt h)]; ring

theorem Truth.Line.difference {t : Truth} (h : t.Line) : t.vertex - t.initial = Vec3.smul t.length t.direction := by
  rw [h.vertex]; ext <;> simp

theorem Truth.Line.distances {t : Truth} (h : t.Line) : t.vdist = t.idist + t.length := by
  have h1 := (closest_eq h.unit h.closest h.vertex_on_line).2
  have h2 : Vec3.dot t.vertex t.direction = Vec3.dot t.initial t.direction + t.length * Vec3.dot t.direction t.direction := by
    rw [h.vertex]; simp [Vec3.dot]; ring
  rw [(closest_eq h.unit h.closest h.initial_on_line).2, h.unit, h1] at h2
  linarith

/-! ## The getters -/

theorem faithful_of {A : Type} {r : Prim} {v : Val A} {a : A} (h : v = .num a) : Faithful (.ok (r, v)) a :=
  .inl ⟨r, by rw [h]⟩

theorem faithful_throws {A : Type} {a : A} : Faithful (.throws .runtimeError) a := .inr rfl

theorem getMass_true {r : Prim} {t : Truth} (h : r.True t) (k : t.Kinematics) : Faithful r.getMass t.mass := by
  unfold Prim.getMass Prim.updateMass
  split
  · rename_i m hm
    simp only [Res.bind, hm, Slot.read]
    exact faithful_of (by rw [h.mass m hm])
  · split
    · rename_i e p he hp
      have hq : sqrtV (e * e - p.x * p.x - p.y * p.y - p.z * p.z) = .num t.mass := by
        apply sqrtV_sq k.mass_nonneg
        rw [h.energy e he, h.momentum p hp]
        have := k.shell
        simp only [Vec3.dot] at this
        linear_combination this
      simp only [Res.bind, hq, Slot.read]
      exact faithful_of rfl
    · rename_i e q he hq _
      simp only [Res.bind, Slot.read]
      exact faithful_of (by rw [h.energy e he, h.kinetic q hq, k.kinetic]; congr 1; ring)
    · exact faithful_throws

theorem getEnergy_true {r : Prim} {t : Truth} (h : r.True t) (k : t.Kinematics) : Faithful r.getEnergy t.energy := by
  unfold Prim.getEnergy Prim.updateEnergy
  split
  · rename_i m hm
    simp only [Res.bind, hm, Slot.read]
    exact faithful_of (by rw [h.energy m hm])
  · split
    · rename_i e p he hp
      have hq : sqrtV (e * e + p.x * p.x + p.y * p.y + p.z * p.z) = .num t.energy := by
        apply sqrtV_sq k.energy_nonneg
        rw [h.mass e he, h.momentum p hp]
        have := k.shell
        simp only [Vec3.dot] at this
        linear_combination -this
      simp only [Res.bind, hq, Slot.read]
      exact faithful_of rfl
    · rename_i e q he hq _
      simp only [Res.bind, Slot.read]
      exact faithful_of (by rw [h.mass e he, h.kinetic q hq, k.kinetic]; congr 1; ring)
    · exact faithful_throws

theorem getKinetic_true {r : Prim} {t : Truth} (h : r.True t) (k : t.Kinematics) : Faithful r.getKinetic t.kinetic := by
  unfold Prim.getKinetic Prim.updateKinetic
  split
  · rename_i m hm
    simp only [Res.bind, hm, Slot.read]
    exact faithful_of (by rw [h.kinetic m hm])
  · split
    · rename_i m e hm he
      simp only [Res.bind, Slot.read]
      exact faithful_of (by rw [h.mass m hm, h.energy e he, k.kinetic])
    · rename_i m p hm hp _
      have hq : sqrtV (p.x * p.x + p.y * p.y + p.z * p.z + m * m) = .num t.energy := by
        apply sqrtV_sq k.energy_nonneg
        rw [h.mass m hm, h.momentum p hp]
        have := k.shell
        simp only [Vec3.dot] at this
        linear_combination -this
      simp only [Res.bind, hq, Val.apply, Slot.read]
      exact faithful_of (by rw [h.mass m hm, k.kinetic])
    · exact faithful_throws

theorem getMomentum_true {r : Prim} {t : Truth} (h : r.True t) (k : t.Kinematics) :
    Faithful r.getMomentum t.momentum := by
  have hn : (Vec3.norm t.momentum) ^ 2 = Vec3.dot t.momentum t.momentum := Real.sq_sqrt (Vec3.dot_self_nonneg _)
  unfold Prim.getMomentum Prim.updateMomentum
  split
  · rename_i m hm
    simp only [Res.bind, hm, Slot.read]
    exact faithful_of (by rw [h.momentum m hm])
  · split
    · rename_i m d e hm hd he
      have hq : sqrtV (e * e - m * m) = .num (Vec3.norm t.momentum) := by
        apply sqrtV_sq (Vec3.norm_nonneg _)
        rw [h.mass m hm, h.energy e he, hn]
        linear_combination k.shell
      simp only [Res.bind, hq, Val.apply, Slot.read]
      exact faithful_of (by rw [h.direction d hd, ← k.along])
    · rename_i m d q hm hd hq _
      have hq : sqrtV ((q + m) * (q + m) - m * m) = .num (Vec3.norm t.momentum) := by
        apply sqrtV_sq (Vec3.norm_nonneg _)
        rw [h.mass m hm, h.kinetic q hq, hn, k.kinetic]
        linear_combination k.shell
      simp only [Res.bind, hq, Val.apply, Slot.read]
      exact faithful_of (by rw [h.direction d hd, ← k.along])
    · exact faithful_throws

theorem getDirection_true {r : Prim} {t : Truth} (h : r.True t) (k : t.Kinematics) (l : t.Line) :
    Faithful r.getDirection t.direction ∨ (Returns r.getDirection .nan ∧ (Vec3.norm t.momentum = 0 ∨ t.length = 0)) := by
  unfold Prim.getDirection Prim.updateDirection
  split
  · rename_i m hm
    simp only [Res.bind, hm, Slot.read]
    exact .inl (faithful_of (by rw [h.direction m hm]))
  · split
    · rename_i p hp
      rw [h.momentum p hp]
      rcases unitV_smul (Vec3.norm_nonneg _) k.unit k.along with hq | ⟨hq, hz⟩
      · simp only [Res.bind, hq, Slot.read]; exact .inl (faithful_of rfl)
      · simp only [Res.bind, hq, Slot.read]; exact .inr ⟨⟨_, rfl⟩, .inl hz⟩
    · rename_i x0 xv hx0 hxv _
      rw [h.initial x0 hx0, h.vertex xv hxv]
      rcases unitV_smul l.length_nonneg l.unit l.difference with hq | ⟨hq, hz⟩
      · simp only [Res.bind, hq, Slot.read]; exact .inl (faithful_of rfl)
      · simp only [Res.bind, hq, Slot.read]; exact .inr ⟨⟨_, rfl⟩, .inr hz⟩
    · exact .inl faithful_throws

theorem getLength_true {r : Prim} {t : Truth} (h : r.True t) (l : t.Line) : Faithful r.getLength t.length := by
  unfold Prim.getLength Prim.updateLength
  split
  · rename_i m hm
    simp only [Res.bind, hm, Slot.read]
    exact faithful_of (by rw [h.length m hm])
  · split
    · rename_i x0 xv hx0 hxv
      simp only [Res.bind, Slot.read]
      exact faithful_of (by rw [h.initial x0 hx0, h.vertex xv hxv, smul_eq_unit l.length_nonneg l.unit l.difference])
    · rename_i i v hi hv _
      simp only [Res.bind, Slot.read]
      exact faithful_of (by rw [h.idist i hi, h.vdist v hv, l.distances]; congr 1; ring)
    · exact faithful_throws

theorem getInitial_true {r : Prim} {t : Truth} (h : r.True t) (l : t.Line) : Faithful r.getInitial t.initial := by
  unfold Prim.getInitial Prim.updateInitial
  split
  · rename_i m hm
    simp only [Res.bind, hm, Slot.read]
    exact faithful_of (by rw [h.initial m hm])
  · split
    · exact faithful_throws
    · rename_i d hd
      split
      · rename_i xv ll hxv hl
        simp only [Res.bind, Slot.read]
        exact faithful_of (by
          rw [h.vertex xv hxv, h.length ll hl, h.direction d hd, l.vertex]; congr 1; ext <;> simp)
      · rename_i xv i v hxv hi hv _
        simp only [Res.bind, Slot.read]
        exact faithful_of (by
          rw [h.vertex xv hxv, h.idist i hi, h.vdist v hv, h.direction d hd, l.vertex, l.distances]; congr 1; ext <;> simp)
      · rename_i i pc hi hpc _ _
        simp only [Res.bind, Slot.read]
        exact faithful_of (by rw [h.idist i hi, h.poca pc hpc, h.direction d hd, ← l.initial_on_line])
      · exact faithful_throws

theorem getVertex_true {r : Prim} {t : Truth} (h : r.True t) (l : t.Line) : Faithful r.getVertex t.vertex := by
  unfold Prim.getVertex Prim.updateVertex
  split
  · rename_i m hm
    simp only [Res.bind, hm, Slot.read]
    exact faithful_of (by rw [h.vertex m hm])
  · split
    · exact faithful_throws
    · rename_i d hd
      split
      · rename_i xv ll hxv hl
        simp only [Res.bind, Slot.read]
        exact faithful_of (by rw [h.initial xv hxv, h.length ll hl, h.direction d hd, ← l.vertex])
      · rename_i xv i v hxv hi hv _
        simp only [Res.bind, Slot.read]
        exact faithful_of (by
          rw [h.initial xv hxv, h.idist i hi, h.vdist v hv, h.direction d hd, l.vertex, l.distances]; congr 1; ext <;> simp)
      · rename_i i pc hi hpc _ _
        simp only [Res.bind, Slot.read]
        exact faithful_of (by rw [h.vdist i hi, h.poca pc hpc, h.direction d hd, ← l.vertex_on_line])
      · exact faithful_throws

theorem getPoca_true {r : Prim} {t : Truth} (h : r.True t) (l : t.Line)
    (hex : ∀ x d i, r.initial = .given x → r.direction = .given d → r.idist = .given i → t.idist = 0) :
    Faithful r.getPoca t.poca ∨ (Returns r.getPoca .nan ∧ t.length = 0) := by
  unfold Prim.getPoca Prim.updatePoca
  split
  · rename_i m hm
    simp only [Res.bind, hm, Slot.read]
    exact .inl (faithful_of (by rw [h.poca m hm]))
  · split
    · rename_i x0 d i hx0 hd hi
      simp only [Res.bind, Slot.read]
      refine .inl (faithful_of ?_)
      rw [h.initial x0 hx0, h.idist i hi, h.direction d hd, l.initial_on_line, hex _ _ _ hx0 hd hi]
      congr 1; ext <;> simp
    · rename_i d xv v hd hxv hv _
      simp only [Res.bind, Slot.read]
      refine .inl (faithful_of ?_)
      rw [h.vertex xv hxv, h.vdist v hv, h.direction d hd, l.vertex_on_line]
      congr 1; ext <;> simp
    · rename_i x0 xv hx0 hxv _ _
      rw [h.initial x0 hx0, h.vertex xv hxv]
      rcases unitV_smul l.length_nonneg l.unit l.difference with hq | ⟨hq, hz⟩
      · simp only [Res.bind, hq, Val.apply, Slot.read]
        exact .inl (faithful_of (by rw [(closest_eq l.unit l.closest l.initial_on_line).1]))
      · simp only [Res.bind, hq, Val.apply, Slot.read]; exact .inr ⟨⟨_, rfl⟩, hz⟩
    · exact .inl faithful_throws

theorem getVdist_true {r : Prim} {t : Truth} (h : r.True t) (l : t.Line)
    (hex : ∀ m x ll p, r.direction = .unset m → r.idist.value = none → r.vertex.value = none → r.initial = .given x →
      r.length = .given ll → r.poca = .given p → False) :
    Faithful r.getVdist t.vdist ∨ (Returns r.getVdist .nan ∧ t.length = 0) := by
  unfold Prim.getVdist Prim.updateVdist
  split
  · rename_i m hm
    simp only [Res.bind, hm, Slot.read]
    exact .inl (faithful_of (by rw [h.vdist m hm]))
  · split
    · rename_i i ll hi hl
      simp only [Res.bind, Slot.read]
      exact .inl (faithful_of (by rw [h.idist i hi, h.length ll hl, l.distances]))
    · rename_i xv d hxv hd _
      simp only [Res.bind, Slot.read]
      exact .inl (faithful_of (by
        rw [h.vertex xv hxv, h.direction d hd, signedDistance_eq l.unit l.closest l.vertex_on_line]))
    · rename_i xv x0 hxv hx0 _ _
      rw [h.initial x0 hx0, h.vertex xv hxv]
      rcases unitV_smul l.length_nonneg l.unit l.difference with hq | ⟨hq, hz⟩
      · simp only [Res.bind, hq, Val.apply, Slot.read]
        exact .inl (faithful_of (by rw [signedDistance_eq l.unit l.closest l.vertex_on_line]))
      · simp only [Res.bind, hq, Val.apply, Slot.read]; exact .inr ⟨⟨_, rfl⟩, hz⟩
    · rename_i ll d x0 pc hl hd hx0 hpc _ _
      simp only [Res.bind, Slot.read]
      exact .inl (faithful_of (by
        rw [h.initial x0 hx0, h.direction d hd, h.length ll hl, signedDistance_eq l.unit l.closest l.initial_on_line,
          l.distances]))
    · rename_i ll m x0 pc hl hd hx0 hpc hni hnv
      refine (hex m x0 ll pc hd ?_ ?_ hx0 hl hpc).elim
      · cases hq : r.idist with
        | given i => exact (hni i hq).elim
        | unset _ => rfl
      · cases hq : r.vertex with
        | given i => exact (hnv i hq).elim
        | unset _ => rfl
    · exact .inl faithful_throws

theorem getIdist_true {r : Prim} {t : Truth} (h : r.True t) (l : t.Line)
    (hex : ∀ m x ll p, r.direction = .unset m → r.vdist.value = none → r.initial.value = none → r.vertex = .given x →
      r.length = .given ll → r.poca = .given p → False) :
    Faithful r.getIdist t.idist ∨ (Returns r.getIdist .nan ∧ t.length = 0) := by
  unfold Prim.getIdist Prim.updateIdist
  split
  · rename_i m hm
    simp only [Res.bind, hm, Slot.read]
    exact .inl (faithful_of (by rw [h.idist m hm]))
  · split
    · rename_i i ll hi hl
      simp only [Res.bind, Slot.read]
      exact .inl (faithful_of (by rw [h.vdist i hi, h.length ll hl, l.distances]; congr 1; ring))
    · rename_i xv d hxv hd _
      simp only [Res.bind, Slot.read]
      exact .inl (faithful_of (by
        rw [h.initial xv hxv, h.direction d hd, signedDistance_eq l.unit l.closest l.initial_on_line]))
    · rename_i x0 xv hx0 hxv _ _
      rw [h.initial x0 hx0, h.vertex xv hxv]
      rcases unitV_smul l.length_nonneg l.unit l.difference with hq | ⟨hq, hz⟩
      · simp only [Res.bind, hq, Val.apply, Slot.read]
        exact .inl (faithful_of (by rw [signedDistance_eq l.unit l.closest l.initial_on_line]))
      · simp only [Res.bind, hq, Val.apply, Slot.read]; exact .inr ⟨⟨_, rfl⟩, hz⟩
    · rename_i ll d x0 pc hl hd hx0 hpc _ _
      simp only [Res.bind, Slot.read]
      exact .inl (faithful_of (by
        rw [h.vertex x0 hx0, h.direction d hd, h.length ll hl, signedDistance_eq l.unit l.closest l.vertex_on_line,
          l.distances]; congr 1; ring))
    · rename_i ll m x0 pc hl hd hx0 hpc hni hnv
      refine (hex m x0 ll pc hd ?_ ?_ hx0 hl hpc).elim
      · cases hq : r.vdist with
        | given i => exact (hni i hq).elim
        | unset _ => rfl
      · cases hq : r.initial with
        | given i => exact (hnv i hq).elim
        | unset _ => rfl
    · exact .inl faithful_throws

theorem getFour_true {r : Prim} {t : Truth} {s : Supplied} (h : r.Holds s) (hs : s.From t) (k : t.Kinematics) :
    (∃ r', r.getFour = .ok (r', .num t.energy, .num t.momentum) ∧ r'.Holds s) ∨ r.getFour = .throws .runtimeError := by
  have hm := getMomentum_true (h.true hs) k
  unfold Prim.getFour
  unfold Prim.getMomentum at hm
  cases hu : r.updateMomentum with
  | throws e => rw [hu] at hm; rcases hm with ⟨_, hm⟩ | hm <;> simp_all [Res.bind]
  | ub => rw [hu] at hm; rcases hm with ⟨_, hm⟩ | hm <;> simp_all [Res.bind]
  | ok r1 =>
    have h1 : r1.Holds s := keeps_momentum r r1 hu s h
    rw [hu] at hm
    have he := getEnergy_true (h1.true hs) k
    unfold Prim.getEnergy at he
    cases hv : r1.updateEnergy with
    | throws e => rw [hv] at he; rcases he with ⟨_, he⟩ | he <;> simp_all [Res.bind]
    | ub => rw [hv] at he; rcases he with ⟨_, he⟩ | he <;> simp_all [Res.bind]
    | ok r2 =>
      have h2 : r2.Holds s := keeps_energy r1 r2 hv s h1
      have hsame : r2.momentum = r1.momentum := by
        unfold Prim.updateEnergy at hv
        (repeat' split at hv) <;> first | (cases hv; done) | (cases hv; rfl)
      rw [hv] at he
      simp only [Res.bind, hv, hsame] at hm he ⊢
      cases hme : r2.energy.read with
      | throws e => rw [hme] at he; rcases he with ⟨_, he⟩ | he <;> simp_all [Slot.read]
      | ub => rw [hme] at he; rcases he with ⟨_, he⟩ | he <;> simp_all [Slot.read]
      | ok ve =>
        cases hmp : r1.momentum.read with
        | throws e => rw [hmp] at hm; rcases hm with ⟨_, hm⟩ | hm <;> simp_all [Slot.read]
        | ub => rw [hmp] at hm; rcases hm with ⟨_, hm⟩ | hm <;> simp_all [Slot.read]
        | ok vp =>
          rw [hme] at he; rw [hmp] at hm
          left
          refine ⟨r2, ?_, h2⟩
          rcases he with ⟨_, he⟩ | he
          · rcases hm with ⟨_, hm⟩ | hm
            · simp only [Res.ok.injEq, Prod.mk.injEq] at he hm
              simp only [he.2, hm.2]
            · cases hm
          · cases he

end Siren.Records
