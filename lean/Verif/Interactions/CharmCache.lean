import Verif.Interactions.CharmDecay
import Mathlib.Algebra.Order.Round

set_option autoImplicit false
set_option linter.unusedSectionVars false

/-!
# Decays of charmed mesons: the cache of the normalisations, and the class for D0 and D+
-/

namespace Siren
namespace Charm

open Rk MeasureTheory Set
open Siren.Util (uniform)
open scoped Real ENNReal

/-! ### Model -/

/-- `ikey` (CharmDecayKinematics.h:191-192). `llround` rounds halves away from zero, `round` rounds them up: the same for numbers
that are not negative. -/
noncomputable def Masses.key (D : Masses) : ℤ :=
  round ((((D.mD * 1e3 + D.mK) * 1e3 + D.ml) * 2 + (if D.va then 1 else 0)) * 1e3)

/-- `norm_cache` (CharmMesonDecay.h:40), newest entry first. -/
abbrev Cache := List (ℤ × ℝ)

/-- `SampledQ2Normalization` (CharmDecayKinematics.h:189-204); `I` is the integral. -/
noncomputable def normalisation (I : Norm) (c : Cache) (D : Masses) : ℝ × Cache :=
  match c.lookup D.key with
  | some v => (v, c)
  | none => (I D, (D.key, I D) :: c)

open Classical in
/-- The last part of `FinalStateProbability` (CharmMesonDecay.cxx:528-544), with the cache. -/
noncomputable def reportedC (I : Norm) (c : Cache) (s : Sig) (mD mK ml q2 : ℝ) : ℝ × Cache :=
  match nearest mK (components s.primary (s.secondaries.headD 0)) 1e30 none with
  | none => (0, c)
  | some x =>
    let D : Masses := ⟨mD, x.1, ml, !isDs s.primary⟩
    let g := D.density q2
    if g ≤ 0 then (0, c)
    else
      let n := normalisation I c D
      (if n.1 ≤ 0 then 0 else x.2 * g / n.1, n.2)

/-- `FinalStateProbability` (CharmMesonDecay.cxx:469-545), with the cache. -/
noncomputable def probabilityC (I : Norm) (c : Cache) (R : Record) : Res ℝ × Cache :=
  if R.sig.secondaries = [] then (.throws .runtimeError, c)
  else if R.sig.secondaries = [hadrons] then (.ok 1, c)
  else match R.masses, R.momenta with
    | mK :: ml :: _, k :: _ =>
      let d := (P4.ofMass R.p R.mass).sub (P4.ofMass k mK)
      let r := reportedC I c R.sig R.mass mK ml (d.dot d)
      (.ok r.1, r.2)
    | _, _ => (.throws .runtimeError, c)

/-- The cache after calls for the records, in this order. -/
noncomputable def after (I : Norm) : Cache → List Record → Cache
  | c, [] => c
  | c, R :: Rs => after I (probabilityC I c R).2 Rs

/-- `CharmMesonDecay3Body::SampleFinalState` (CharmMesonDecay3Body.cxx:189-310): `apply_va` is always set, and the hadronic branch
only looks at the first secondary. -/
noncomputable def sample3 (s : Sig) (p : Vec3 ℝ) (M r : ℝ) (rs : List Pass) : Res Outcome :=
  match s.secondaries with
  | [] => .ub
  | a :: l =>
    if a = hadrons then .ok (.single (P4.ofMass p M))
    else match l with
      | b :: _ :: _ =>
        match (⟨particleMass s.primary, hadronMass3 s.primary a (uniform 0 1 r), particleMass b, true⟩ : Masses).loop rs with
        | .again => .ok .more
        | .broken => .ok .broken
        | .accept t => match toLab p M t with
          | none => .ok .broken
          | some t' => .ok (.three t')
      | _ => .ub
where
  /-- `fracK` and `mK` (CharmMesonDecay3Body.cxx:213-226). -/
  hadronMass3 (p first : ℤ) (r : ℝ) : ℝ :=
    open Classical in
    if r < (if p = 411 then 8.74 / (8.74 + 5.33) else 3.41 / (3.41 + 2.17)) then particleMass first else kStar

/-- `masses` and `fractions` (CharmMesonDecay3Body.cxx:350-359). -/
noncomputable def components3 (p first : ℤ) : List (ℝ × ℝ) :=
  let f : ℝ := if p = 411 then 8.74 / (8.74 + 5.33) else 3.41 / (3.41 + 2.17)
  [(particleMass first, f), (kStar, 1 - f)]

open Classical in
/-- `CharmMesonDecay3Body::FinalStateProbability` (CharmMesonDecay3Body.cxx:323-377), given the normalisation. -/
noncomputable def probability3 (norm : Norm) (R : Record) : Res ℝ :=
  match R.sig.secondaries with
  | [] => .throws .runtimeError
  | a :: _ =>
    if a = hadrons then .ok 1
    else match R.masses, R.momenta with
      | mK :: ml :: _, k :: _ =>
        let d := (P4.ofMass R.p R.mass).sub (P4.ofMass k mK)
        .ok (match nearest mK (components3 R.sig.primary a) 1e30 none with
          | none => 0
          | some x =>
            let D : Masses := ⟨R.mass, x.1, ml, true⟩
            let g := D.density (d.dot d)
            if g ≤ 0 then 0
            else
              let n := norm D
              if n ≤ 0 then 0 else x.2 * g / n)
      | _, _ => .throws .runtimeError

/-! ### Specification -/

/-- The masses a call asks the normalisation for, if it does. -/
noncomputable def asked (R : Record) : Option Masses :=
  if R.sig.secondaries = [] ∨ R.sig.secondaries = [hadrons] then none
  else match R.masses, R.momenta with
    | mK :: ml :: _, _ :: _ =>
      (nearest mK (components R.sig.primary (R.sig.secondaries.headD 0)) 1e30 none).map
        fun x => ⟨R.mass, x.1, ml, !isDs R.sig.primary⟩
    | _, _ => none

/-- The final states the class for D0 and D+ lists (CharmMesonDecay3Body.cxx:130-170), without their neutrinos. -/
def Listed3 (p first second : ℤ) : Prop :=
  (second = -11 ∨ second = -13) ∧ (p = 411 ∧ first = -311 ∨ p = 421 ∧ first = -321)

/-! ### The cache -/

/-- Every entry is the integral for masses asked for before. -/
def Sound (I : Norm) (past : List Masses) (c : Cache) : Prop := ∀ e ∈ c, ∃ D ∈ past, e = (D.key, I D)

theorem probabilityC_cases (I : Norm) (c : Cache) (R : Record) :
    (probabilityC I c R).2 = c ∨ ∃ D, asked R = some D ∧ (probabilityC I c R).2 = (normalisation I c D).2 := by
  classical
  unfold probabilityC asked
  by_cases h0 : R.sig.secondaries = []
  · left; rw [if_pos h0]
  by_cases h1 : R.sig.secondaries = [hadrons]
  · left; rw [if_neg h0, if_pos h1]
  rw [if_neg h0, if_neg h1, if_neg (by tauto)]
  rcases R.masses with _ | ⟨mK, _ | ⟨ml, l⟩⟩ <;> rcases R.momenta with _ | ⟨k, ks⟩ <;> try (left; rfl)
  simp only
  unfold reportedC
  cases hn : nearest mK (components R.sig.primary (R.sig.secondaries.headD 0)) 1e30 none with
  | none => left; rfl
  | some x =>
    simp only
    split
    · left; rfl
    · right; exact ⟨_, rfl, rfl⟩

theorem sound_step {I : Norm} {past : List Masses} {c : Cache} (h : Sound I past c) (D : Masses) :
    Sound I (D :: past) (normalisation I c D).2 := by
  unfold normalisation
  split
  · intro e he
    obtain ⟨D', h1, h2⟩ := h e he
    exact ⟨D', List.mem_cons_of_mem _ h1, h2⟩
  · intro e he
    rcases List.mem_cons.mp he with rfl | he
    · exact ⟨D, List.mem_cons_self, rfl⟩
    · obtain ⟨D', h1, h2⟩ := h e he
      exact ⟨D', List.mem_cons_of_mem _ h1, h2⟩

theorem sound_after (I : Norm) : ∀ (Rs : List Record) (past : List Masses) (c : Cache), Sound I past c →
    ∀ e ∈ after I c Rs, ∃ D, (D ∈ past ∨ ∃ R ∈ Rs, asked R = some D) ∧ e = (D.key, I D)
  | [], past, c, h, e, he => by
    obtain ⟨D, h1, h2⟩ := h e he
    exact ⟨D, Or.inl h1, h2⟩
  | R :: Rs, past, c, h, e, he => by
    have he : e ∈ after I (probabilityC I c R).2 Rs := he
    rcases probabilityC_cases I c R with hc | ⟨D0, hD, hc⟩
    · rw [hc] at he
      obtain ⟨D, h1, h2⟩ := sound_after I Rs past c h e he
      refine ⟨D, ?_, h2⟩
      rcases h1 with h1 | ⟨R', h1, h3⟩
      · exact Or.inl h1
      · exact Or.inr ⟨R', List.mem_cons_of_mem _ h1, h3⟩
    · rw [hc] at he
      obtain ⟨D, h1, h2⟩ := sound_after I Rs (D0 :: past) _ (sound_step h D0) e he
      refine ⟨D, ?_, h2⟩
      rcases h1 with h1 | ⟨R', h1, h3⟩
      · rcases List.mem_cons.mp h1 with rfl | h1
        · exact Or.inr ⟨R, List.mem_cons_self, hD⟩
        · exact Or.inl h1
      · exact Or.inr ⟨R', List.mem_cons_of_mem _ h1, h3⟩

theorem lookup_mem' {k : ℤ} {v : ℝ} : ∀ {c : Cache}, c.lookup k = some v → (k, v) ∈ c
  | [], h => by simp at h
  | (k', v') :: c, h => by
    rw [List.lookup_cons] at h
    by_cases hk : k = k'
    · subst hk; simp at h; subst h; exact List.mem_cons_self
    · have hb : (k == k') = false := by simpa using hk
      rw [hb] at h
      exact List.mem_cons_of_mem _ (lookup_mem' h)

theorem probabilityC_of {I : Norm} {c : Cache} {R : Record} (h : ∀ D, asked R = some D → (normalisation I c D).1 = I D) :
    (probabilityC I c R).1 = probability I R := by
  classical
  unfold probabilityC probability
  by_cases h0 : R.sig.secondaries = []
  · rw [if_pos h0, if_pos h0]
  by_cases h1 : R.sig.secondaries = [hadrons]
  · rw [if_neg h0, if_pos h1, if_neg h0, if_pos h1]
  unfold asked at h
  rw [if_neg (by tauto)] at h
  rw [if_neg h0, if_neg h1, if_neg h0, if_neg h1]
  rcases hm : R.masses with _ | ⟨mK, _ | ⟨ml, l⟩⟩ <;> rcases hk : R.momenta with _ | ⟨k, ks⟩ <;> try rfl
  rw [hm, hk] at h
  simp only at h ⊢
  congr 1
  unfold reportedC reported
  cases hn : nearest mK (components R.sig.primary (R.sig.secondaries.headD 0)) 1e30 none with
  | none => rfl
  | some x =>
    rw [hn] at h
    have h' := h _ rfl
    simp only
    split
    · rfl
    · simp only
      rw [h']

/-! ### The claims -/

/-- C130: the reported probability does not depend on the calls before, as long as none of them asked for different masses that
have the same key. -/
theorem C130_history_partial (I : Norm) (Rs : List Record) (R : Record)
    (h : ∀ R' ∈ Rs, ∀ D D', asked R' = some D' → asked R = some D → D'.key = D.key → D' = D) :
    (probabilityC I (after I [] Rs) R).1 = probability I R := by
  apply probabilityC_of
  intro D hD
  unfold normalisation
  split
  next v hv =>
    obtain ⟨D', h1, h2⟩ := sound_after I Rs [] [] (by intro e he; simp at he) _ (lookup_mem' hv)
    rcases h1 with h1 | ⟨R', h1, h3⟩
    · simp at h1
    · obtain ⟨e1, e2⟩ := Prod.mk.inj h2
      rw [h R' h1 D D' h3 hD e1.symm] at e2
      exact e2
  next => rfl

/-- A record of a listed final state with the nominal masses: the primary, one of the hadrons, the lepton. -/
structure Nominal (R : Record) : Prop where
  sig : ∃ a b c l, R.sig.secondaries = a :: b :: c :: l ∧ Listed R.sig.primary a b ∧
    ∃ x ∈ components R.sig.primary a, ∃ m, R.masses = x.1 :: particleMass b :: m
  mass : R.mass = particleMass R.sig.primary

/-- The masses of all listed decays and their keys. -/
noncomputable def table : List (ℤ × Masses) :=
  [(3740316229, ⟨1.86966, 0.497614, 0.000511, true⟩), (3740316439, ⟨1.86966, 0.497614, 0.105658374, true⟩),
   (3741104341, ⟨1.86966, 0.89167, 0.000511, true⟩), (3741104551, ⟨1.86966, 0.89167, 0.105658374, true⟩),
   (3730668355, ⟨1.86484, 0.493677, 0.000511, true⟩), (3730668565, ⟨1.86484, 0.493677, 0.105658374, true⟩),
   (3731464341, ⟨1.86484, 0.89167, 0.000511, true⟩), (3731464551, ⟨1.86484, 0.89167, 0.105658374, true⟩),
   (3937795725, ⟨1.96835, 0.547862, 0.000511, false⟩), (3937795935, ⟨1.96835, 0.547862, 0.105658374, false⟩),
   (3938615561, ⟨1.96835, 0.95778, 0.000511, false⟩), (3938615771, ⟨1.96835, 0.95778, 0.105658374, false⟩),
   (3938738923, ⟨1.96835, 1.019461, 0.000511, false⟩), (3938739133, ⟨1.96835, 1.019461, 0.105658374, false⟩)]

theorem table_key : ∀ e ∈ table, e.2.key = e.1 := by
  intro e he
  simp only [table, List.mem_cons, List.not_mem_nil, or_false] at he
  rcases he with rfl | rfl | rfl | rfl | rfl | rfl | rfl | rfl | rfl | rfl | rfl | rfl | rfl | rfl <;>
    (simp only [Masses.key]; rw [round_eq, Int.floor_eq_iff]; norm_num)

theorem table_inj {e f : ℤ × Masses} (he : e ∈ table) (hf : f ∈ table) (h : e.1 = f.1) : e = f := by
  have hn : (table.map Prod.fst).Nodup := by simp [table]
  exact List.inj_on_of_nodup_map hn he hf h

theorem table_find {D : Masses} (h : D ∈ table.map Prod.snd) : ∃ e ∈ table, e.2 = D := by
  simpa using h

theorem listed_table {p a b : ℤ} (h : Listed p a b) {x : ℝ × ℝ} (hx : x ∈ components p a) :
    ∃ e ∈ table, e.2 = massesOf p b x.1 := by
  rcases h.parent with ⟨hp, ha⟩ | ⟨hp, ha⟩ | hp
  · obtain ⟨e1, e2⟩ := mass_plus hp
    have e3 := mass_k0 ha
    have hc : components p a = [(0.497614, 8.74 / (8.74 + 5.33)), (0.89167, 1 - 8.74 / (8.74 + 5.33))] := by
      unfold components; rw [isDs_plus hp, e2, e3]; rfl
    rw [hc] at hx
    unfold massesOf
    rw [e1, isDs_plus hp]
    simp only [List.mem_cons, List.not_mem_nil, or_false] at hx
    rcases lepton_mass h.lepton with e4 | e4 <;> rw [e4] <;> rcases hx with hx | hx <;> subst hx <;>
      exact table_find (by simp [table])
  · obtain ⟨e1, e2⟩ := mass_zero hp
    have e3 := mass_k ha
    have hc : components p a = [(0.493677, 3.41 / (3.41 + 2.17)), (0.89167, 1 - 3.41 / (3.41 + 2.17))] := by
      unfold components; rw [isDs_zero hp, e2, e3]; rfl
    rw [hc] at hx
    unfold massesOf
    rw [e1, isDs_zero hp]
    simp only [List.mem_cons, List.not_mem_nil, or_false] at hx
    rcases lepton_mass h.lepton with e4 | e4 <;> rw [e4] <;> rcases hx with hx | hx <;> subst hx <;>
      exact table_find (by simp [table])
  · have e1 := mass_ds hp
    have hc : components p a = [(0.547862, 2.3 / 5), (0.95778, 0.8 / 5), (1.019461, 1.9 / 5)] := by
      unfold components; rw [isDs_ds hp]; rfl
    rw [hc] at hx
    unfold massesOf
    rw [e1, isDs_ds hp]
    simp only [List.mem_cons, List.not_mem_nil, or_false] at hx
    rcases lepton_mass h.lepton with e4 | e4 <;> rw [e4] <;> rcases hx with hx | hx | hx <;> subst hx <;>
      exact table_find (by simp [table])

theorem nominal_asked {R : Record} (h : Nominal R) {D : Masses} (hD : asked R = some D) : ∃ e ∈ table, e.2 = D := by
  obtain ⟨a, b, c, l, hs, hL, x, hx, m, hm⟩ := h.sig
  obtain ⟨-, -, -, y, -, hn, rfl⟩ := listed_spec hL x hx
  obtain ⟨e, he, hq⟩ := listed_table hL hx
  refine ⟨e, he, hq.trans ?_⟩
  unfold asked at hD
  rw [hs, hm] at hD
  rw [if_neg (by simp)] at hD
  rcases hk : R.momenta with _ | ⟨k, ks⟩ <;> rw [hk] at hD
  · simp at hD
  · simp only [List.headD_cons] at hD
    rw [hn, h.mass] at hD
    exact Option.some.inj hD

/-- C130, listed decays: for records of listed final states with the nominal masses, the reported probability does not depend on the
calls before. -/
theorem C130_nominal (I : Norm) {Rs : List Record} {R : Record} (hRs : ∀ R' ∈ Rs, Nominal R') (hR : Nominal R) :
    (probabilityC I (after I [] Rs) R).1 = probability I R := by
  refine C130_history_partial I Rs R fun R' h' D D' h1 h2 hk => ?_
  obtain ⟨e, he, rfl⟩ := nominal_asked hR h2
  obtain ⟨f, hf, rfl⟩ := nominal_asked (hRs R' h') h1
  rw [table_key f hf, table_key e he] at hk
  rw [table_inj hf he hk]

/-- The sampled events have such records. -/
theorem C130_sampled {s : Sig} {a b c : ℤ} {rest : List ℤ} (hs : s.secondaries = a :: b :: c :: rest) (hL : Listed s.primary a b)
    (p : Vec3 ℝ) (r : ℝ) {rs : List Pass} (hrs : ∀ r ∈ rs, r.Ok) {t : Three}
    (h : sample s p (particleMass s.primary) r rs = .ok (.three t)) : Nominal (recordOf s p (particleMass s.primary) t) := by
  rcases C129_sampled hs hL p r hrs with h' | ⟨t', x, hx, h', hp, -⟩
  · rw [h] at h'; cases h'
  · rw [h] at h'
    cases h'
    refine ⟨⟨a, b, c, rest, hs, hL, x, hx, [t.nu.m.getD 0], ?_⟩, rfl⟩
    unfold recordOf
    simp only
    rw [onShell_m hp.hadron, onShell_m hp.lepton]
    rfl

/-- C130 fails for masses that differ by less than a quarter of an MeV: a call for a lepton of 105.6 MeV leaves behind a
normalisation that a call for a lepton of 105.7 MeV uses, so that its result is not the one of a new object. -/
theorem C130_fails (I : Norm) {s : Sig} {a b c : ℤ} {rest : List ℤ} (hs : s.secondaries = a :: b :: c :: rest)
    (hp : s.primary = 411) (ha : a = -311) (k : Vec3 ℝ)
    (hI : I ⟨1.86966, 0.497614, 0.1056, true⟩ ≠ I ⟨1.86966, 0.497614, 0.1057, true⟩)
    (h1 : 0 < I ⟨1.86966, 0.497614, 0.1056, true⟩) (h2 : 0 < I ⟨1.86966, 0.497614, 0.1057, true⟩)
    (g : ∀ ml : ℝ, ml = 0.1056 ∨ ml = 0.1057 → 0 < (⟨1.86966, 0.497614, ml, true⟩ : Masses).density
      (((P4.ofMass 0 1.86966).sub (P4.ofMass k 0.497614)).dot ((P4.ofMass 0 1.86966).sub (P4.ofMass k 0.497614)))) :
    ∃ R R' : Record, (probabilityC I (after I [] [R']) R).1 ≠ (probabilityC I [] R).1 := by
  classical
  refine ⟨⟨s, 1.86966, 0, [0.497614, 0.1057, 0], [k]⟩, ⟨s, 1.86966, 0, [0.497614, 0.1056, 0], [k]⟩, ?_⟩
  have hn : nearest 0.497614 (components s.primary (s.secondaries.headD 0)) 1e30 none = some (0.497614, 8.74 / (8.74 + 5.33)) := by
    rw [hs, hp, ha]
    have hc : components 411 (-311) = [(0.497614, 8.74 / (8.74 + 5.33)), (0.89167, 1 - 8.74 / (8.74 + 5.33))] := by
      obtain ⟨e1, e2⟩ := mass_plus (p := 411) (Or.inl rfl)
      have e3 := mass_k0 (p := -311) (Or.inr rfl)
      unfold components; rw [isDs_plus (p := 411) (Or.inl rfl), e2, e3]; rfl
    simp only [List.headD_cons]
    rw [hc]
    simp only [nearest]; norm_num [abs_of_neg, abs_of_pos]
  have hds : (!isDs s.primary) = true := by rw [hp]; decide
  have ne0 : s.secondaries ≠ [] := by rw [hs]; simp
  have ne1 : s.secondaries ≠ [hadrons] := by rw [hs]; simp
  have key : ∀ ml : ℝ, ml = 0.1056 ∨ ml = 0.1057 → (⟨1.86966, 0.497614, ml, true⟩ : Masses).key = 3740316439 := by
    rintro ml (rfl | rfl) <;> (simp only [Masses.key]; rw [round_eq, Int.floor_eq_iff]; norm_num)
  set G := ((P4.ofMass 0 1.86966).sub (P4.ofMass k 0.497614)).dot ((P4.ofMass 0 1.86966).sub (P4.ofMass k 0.497614)) with hG
  have call : ∀ (c : Cache) (ml : ℝ), ml = 0.1056 ∨ ml = 0.1057 →
      probabilityC I c ⟨s, 1.86966, 0, [0.497614, ml, 0], [k]⟩ =
        (.ok (if (normalisation I c ⟨1.86966, 0.497614, ml, true⟩).1 ≤ 0 then 0 else
          8.74 / (8.74 + 5.33) * (⟨1.86966, 0.497614, ml, true⟩ : Masses).density G /
            (normalisation I c ⟨1.86966, 0.497614, ml, true⟩).1), (normalisation I c ⟨1.86966, 0.497614, ml, true⟩).2) := by
    intro c ml hml
    unfold probabilityC
    simp only
    rw [if_neg ne0, if_neg ne1]
    unfold reportedC
    rw [hn]
    simp only [hds]
    rw [← hG, if_neg (not_le.mpr (g ml hml))]
  have n1 : normalisation I [] ⟨1.86966, 0.497614, 0.1056, true⟩ =
      (I ⟨1.86966, 0.497614, 0.1056, true⟩, [(3740316439, I ⟨1.86966, 0.497614, 0.1056, true⟩)]) := by
    unfold normalisation; rw [key _ (Or.inl rfl)]; rfl
  have n2 : normalisation I [] ⟨1.86966, 0.497614, 0.1057, true⟩ =
      (I ⟨1.86966, 0.497614, 0.1057, true⟩, [(3740316439, I ⟨1.86966, 0.497614, 0.1057, true⟩)]) := by
    unfold normalisation; rw [key _ (Or.inr rfl)]; rfl
  have n3 : normalisation I [(3740316439, I ⟨1.86966, 0.497614, 0.1056, true⟩)] ⟨1.86966, 0.497614, 0.1057, true⟩ =
      (I ⟨1.86966, 0.497614, 0.1056, true⟩, [(3740316439, I ⟨1.86966, 0.497614, 0.1056, true⟩)]) := by
    unfold normalisation; rw [key _ (Or.inr rfl)]; simp
  have hA : after I [] [⟨s, 1.86966, 0, [0.497614, 0.1056, 0], [k]⟩] = [(3740316439, I ⟨1.86966, 0.497614, 0.1056, true⟩)] := by
    show (probabilityC I [] _).2 = _
    rw [call _ _ (Or.inl rfl), n1]
  rw [hA, call _ _ (Or.inr rfl), call _ _ (Or.inr rfl), n2, n3]
  simp only
  rw [if_neg (not_le.mpr h1), if_neg (not_le.mpr h2)]
  intro hc
  have hc := Res.ok.inj hc
  have gp := g 0.1057 (Or.inr rfl)
  have hA0 : (0 : ℝ) < 8.74 / (8.74 + 5.33) * (⟨1.86966, 0.497614, 0.1057, true⟩ : Masses).density G := by positivity
  rw [div_eq_div_iff h1.ne' h2.ne'] at hc
  exact hI (mul_left_cancel₀ hA0.ne' hc).symm

theorem density_pos {D : Masses} (h : D.Possible) (hx : D.Exact) {q : ℝ} (hq : q ∈ D.region) : 0 < D.density q := by
  have hl := h.lepton
  have ht : 0 < D.top := by unfold Masses.top; have := h.threshold; linarith
  have hq0 : 0 ≤ q := le_trans (mul_self_nonneg _) hq.1.le
  have h1 : D.ml < Real.sqrt q := by rw [Real.lt_sqrt hl.le]; nlinarith [hq.1]
  have h2 : Real.sqrt q < D.top := by rw [Real.sqrt_lt' ht]; nlinarith [hq.2]
  have e := density_eq h hx h1 h2
  rw [Real.sq_sqrt hq0] at e
  have ha := acc_pos h h1 h2
  have hps := psMax_pos h
  have hme := meMax_pos h
  have : 0 < 2 * Real.sqrt q * D.density q := by rw [e]; positivity
  exact (pos_iff_pos_of_mul_pos this).mp (by linarith)

/-- The hypotheses on the event are met by a kaon with three quarters of its mass as momentum, those on the integral by any that
grows with the mass of the lepton. -/
example : ∃ (I : Norm) (k : Vec3 ℝ), I ⟨1.86966, 0.497614, 0.1056, true⟩ ≠ I ⟨1.86966, 0.497614, 0.1057, true⟩ ∧
    0 < I ⟨1.86966, 0.497614, 0.1056, true⟩ ∧ 0 < I ⟨1.86966, 0.497614, 0.1057, true⟩ ∧
    ∀ ml : ℝ, ml = 0.1056 ∨ ml = 0.1057 → 0 < (⟨1.86966, 0.497614, ml, true⟩ : Masses).density
      (((P4.ofMass 0 1.86966).sub (P4.ofMass k 0.497614)).dot ((P4.ofMass 0 1.86966).sub (P4.ofMass k 0.497614))) := by
  refine ⟨fun D => D.ml, ⟨0.3732105, 0, 0⟩, by norm_num, by norm_num, by norm_num, fun ml hml => ?_⟩
  have e1 : (P4.ofMass (0 : Vec3 ℝ) 1.86966).e = 1.86966 := by
    have h : (1.86966 : ℝ) * 1.86966 + Vec3.dot (0 : Vec3 ℝ) 0 = 1.86966 * 1.86966 := by
      have : Vec3.dot (0 : Vec3 ℝ) 0 = 0 := by simp [Vec3.dot]
      rw [this, add_zero]
    show Real.sqrt ((1.86966 : ℝ) * 1.86966 + Vec3.dot (0 : Vec3 ℝ) 0) = 1.86966
    rw [h, Real.sqrt_mul_self (by norm_num)]
  have e2 : (P4.ofMass (⟨0.3732105, 0, 0⟩ : Vec3 ℝ) 0.497614).e = 0.6220175 := by
    have h : (0.497614 : ℝ) * 0.497614 + Vec3.dot (⟨0.3732105, 0, 0⟩ : Vec3 ℝ) ⟨0.3732105, 0, 0⟩ = 0.6220175 * 0.6220175 := by
      simp only [Vec3.dot]; norm_num
    show Real.sqrt ((0.497614 : ℝ) * 0.497614 + Vec3.dot (⟨0.3732105, 0, 0⟩ : Vec3 ℝ) ⟨0.3732105, 0, 0⟩) = 0.6220175
    rw [h, Real.sqrt_mul_self (by norm_num)]
  have hG : ((P4.ofMass (0 : Vec3 ℝ) 1.86966).sub (P4.ofMass ⟨0.3732105, 0, 0⟩ 0.497614)).dot
      ((P4.ofMass 0 1.86966).sub (P4.ofMass ⟨0.3732105, 0, 0⟩ 0.497614)) =
      (1.86966 - 0.6220175) * (1.86966 - 0.6220175) - 0.3732105 * 0.3732105 := by
    show ((P4.ofMass (0 : Vec3 ℝ) 1.86966).e - (P4.ofMass ⟨0.3732105, 0, 0⟩ 0.497614).e) *
      ((P4.ofMass (0 : Vec3 ℝ) 1.86966).e - (P4.ofMass ⟨0.3732105, 0, 0⟩ 0.497614).e) -
      Vec3.dot ((0 : Vec3 ℝ) - ⟨0.3732105, 0, 0⟩) ((0 : Vec3 ℝ) - ⟨0.3732105, 0, 0⟩) = _
    rw [e1, e2]
    simp [Vec3.dot]
  rw [hG]
  have hP : (⟨1.86966, 0.497614, ml, true⟩ : Masses).Possible := by
    rcases hml with rfl | rfl <;> exact ⟨by norm_num, by norm_num, by norm_num⟩
  have hE : (⟨1.86966, 0.497614, ml, true⟩ : Masses).Exact := by
    refine exact_of hP fun _ _ _ => Or.inr ?_
    rcases hml with rfl | rfl <;> exact ceiling_of (by norm_num) (by norm_num) (by norm_num) (by norm_num)
  refine density_pos hP hE ⟨?_, ?_⟩
  · rcases hml with rfl | rfl <;> norm_num
  · simp only [Masses.top]; norm_num

/-! ### The class for D0 and D+ -/

/-- C129, the class for D0 and D+: for its listed final states it samples and reports as the general class does. -/
theorem C129_three_body {s : Sig} {a b c : ℤ} {rest : List ℤ} (hs : s.secondaries = a :: b :: c :: rest) (hL : Listed3 s.primary a b) :
    Listed s.primary a b ∧ (∀ p M r rs, sample3 s p M r rs = sample s p M r rs) ∧
      ∀ norm R, R.sig = s → probability3 norm R = probability norm R := by
  classical
  obtain ⟨hb, hp⟩ := hL
  have hne : a ≠ hadrons := by rcases hp with ⟨-, rfl⟩ | ⟨-, rfl⟩ <;> decide
  have hds : isDs s.primary = false := by rcases hp with ⟨h, -⟩ | ⟨h, -⟩ <;> rw [h] <;> decide
  have hf : fracK s.primary = if s.primary = 411 then 8.74 / (8.74 + 5.33) else 3.41 / (3.41 + 2.17) := by
    unfold fracK; rcases hp with ⟨h, -⟩ | ⟨h, -⟩ <;> rw [h] <;> norm_num
  have n1 : s.secondaries ≠ [hadrons] := by rw [hs]; simp
  have n0 : s.secondaries ≠ [] := by rw [hs]; simp
  refine ⟨⟨by tauto, by rcases hp with ⟨h, h'⟩ | ⟨h, h'⟩ <;> simp [h, h']⟩, fun p M r rs => ?_, ?_⟩
  · unfold sample3 sample
    rw [if_neg n1, hs]
    simp only
    rw [if_neg hne]
    unfold massesOf hadronMass sample3.hadronMass3
    rw [hds, hf]
    simp only [Bool.false_eq_true, if_false, Bool.not_false]
    rfl
  · rintro norm R rfl
    unfold probability3 probability
    rw [if_neg n0, if_neg n1]
    rw [hs]
    simp only
    rw [if_neg hne]
    unfold reported
    have hc : components R.sig.primary a = components3 R.sig.primary a := by
      unfold components components3; rw [hds, hf]; simp
    rw [hs]
    simp only [List.headD_cons, hc, hds, Bool.not_false]
    rfl

/-! ### The hypotheses are met -/

theorem exists_pass {F : Pass → ℝ≥0∞} (h : expectPass F ≠ 0) : ∃ r, r.Ok ∧ F r ≠ 0 := by
  by_contra hc
  push Not at hc
  apply h
  unfold expectPass
  refine (setLIntegral_congr_fun measurableSet_Ico (g := fun _ => 0) fun m hm => ?_).trans (by simp)
  refine (setLIntegral_congr_fun measurableSet_Ico (g := fun _ => 0) fun ps hps => ?_).trans (by simp)
  refine (setLIntegral_congr_fun measurableSet_Ico (g := fun _ => 0) fun c23 h23 => ?_).trans (by simp)
  refine (setLIntegral_congr_fun measurableSet_Ico (g := fun _ => 0) fun f23 hf23 => ?_).trans (by simp)
  refine (setLIntegral_congr_fun measurableSet_Ico (g := fun _ => 0) fun c1 hc1 => ?_).trans (by simp)
  refine (setLIntegral_congr_fun measurableSet_Ico (g := fun _ => 0) fun f1 hf1 => ?_).trans (by simp)
  refine (setLIntegral_congr_fun measurableSet_Ico (g := fun _ => 0) fun me hme => ?_).trans (by simp)
  exact hc _ ⟨hm, hps, h23, hf23, hc1, hf1, hme⟩

theorem exists_passes : ∀ (n : ℕ) {F : List Pass → ℝ≥0∞}, expect n F ≠ 0 → ∃ rs : List Pass, (∀ r ∈ rs, r.Ok) ∧ F rs ≠ 0
  | 0, F, h => ⟨[], by simp, h⟩
  | n + 1, F, h => by
    obtain ⟨r, hr, h1⟩ := exists_pass (F := fun r => expect n fun rs => F (r :: rs)) h
    obtain ⟨rs, hrs, h2⟩ := exists_passes n h1
    exact ⟨r :: rs, by simpa using ⟨hr, hrs⟩, h2⟩

/-- Some numbers lead to an event, for every listed final state. -/
theorem sample_three {s : Sig} {a b c : ℤ} {rest : List ℤ} (hs : s.secondaries = a :: b :: c :: rest) (hL : Listed s.primary a b)
    (p : Vec3 ℝ) (r : ℝ) : ∃ rs : List Pass, (∀ r ∈ rs, r.Ok) ∧ ∃ t, sample s p (particleMass s.primary) r rs = .ok (.three t) := by
  obtain ⟨x, hx, he⟩ := hadronMass_mem s.primary a (uniform 0 1 r)
  obtain ⟨hP, -, -, -⟩ := listed_spec hL x hx
  have h1 : (expect 1 fun rs => score 1 ((massesOf s.primary b x.1).loop rs)) ≠ 0 := by
    rw [within_succ hP measurable_one 0]
    intro h0
    exact gain_pos hP (by simpa using (add_eq_zero.mp h0).1)
  obtain ⟨rs, hrs, h2⟩ := exists_passes 1 h1
  refine ⟨rs, hrs, ?_⟩
  rcases C129_sampled hs hL p r hrs with h | ⟨t, -, -, h, -⟩
  · exfalso
    unfold sample at h
    rw [if_neg (by rw [hs]; simp), hs] at h
    simp only at h
    rw [← he] at h
    cases hl : (massesOf s.primary b x.1).loop rs with
    | again => rw [hl] at h2; exact h2 rfl
    | broken => rw [hl] at h2; exact h2 rfl
    | accept t => rw [hl] at h; simp only at h; split at h <;> simp at h
  · exact ⟨t, h⟩

/-- A positive D meson at rest decays to a neutral kaon, a muon and a neutrino. -/
example : ∃ s : Sig, ∃ rs : List Pass, (∀ r ∈ rs, r.Ok) ∧ s.secondaries = [-311, -13, 14] ∧ Listed3 s.primary (-311) (-13) ∧
    ∃ t, sample s 0 (particleMass s.primary) 0 rs = .ok (.three t) ∧ Nominal (recordOf s 0 (particleMass s.primary) t) := by
  have hL : Listed 411 (-311) (-13) := ⟨by simp, by simp⟩
  obtain ⟨rs, hrs, t, ht⟩ := sample_three (s := ⟨411, [-311, -13, 14]⟩) rfl hL 0 0
  exact ⟨⟨411, [-311, -13, 14]⟩, rs, hrs, rfl, ⟨by simp, by simp⟩, t, ht, C130_sampled rfl hL 0 0 hrs ht⟩

end Charm
end Siren
