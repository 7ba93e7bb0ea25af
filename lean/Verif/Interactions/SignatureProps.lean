import Verif.Interactions.Signatures

set_option autoImplicit false

/-!
# C81, C82: the lists of final states are coherent

Specification: `Coherent` says what a caller may assume about the lists of a cross section, `CoherentDecay` the same for
decays.
-/

namespace Siren.Signatures

open Records (Signature)

/-- **Specification.**  The signatures listed for a pair of parents are those of the full list with these parents, in the
same order; no signature, primary or target is listed twice; the parents of every signature are advertised; and every
advertised pair of parents has a final state. -/
structure Coherent (X : Interface) : Prop where
  byParents : ∀ p t, X.fromParents p t = X.all.filter fun s => s.primary = p ∧ s.target = t
  once : X.all.Nodup
  primariesOnce : X.primaries.Nodup
  targetsOnce : X.targets.Nodup
  advertised : ∀ s ∈ X.all, s.primary ∈ X.primaries ∧ s.target ∈ X.targets ∧ s.target ∈ X.targetsFrom s.primary
  complete : ∀ p ∈ X.primaries, ∀ t ∈ X.targetsFrom p, X.fromParents p t ≠ []

/-- **Specification.**  The lepton of the same family and lepton number as the neutrino `p`: 12 ↦ 11, -12 ↦ -11, … -/
def partner (p : Int) : Int := if 0 < p then p - 1 else p + 1

/-- **Specification.**  The six neutrinos. -/
def Neutrino (p : Int) : Prop := p ∈ [12, -12, 14, -14, 16, -16]

/-! ### The loops -/

/-- The outgoing particles when nothing is thrown. -/
def outgoing (finals : Int → Res (List (List Int))) (p : Int) : List (List Int) :=
  match finals p with
  | .ok l => l
  | _ => []

/-- The signatures in the order of the loops. -/
def listing (f : Int → List (List Int)) (ps ts : List Int) : List Signature :=
  ps.flatMap fun p => (f p).flatMap fun secondaries => ts.map fun t => ⟨p, t, secondaries⟩

theorem push_all (T : Tables) (p t : Int) (s : Signature) : (T.push p t s).all = T.all ++ [s] := rfl

/-- Both tables have received the signatures of `l`. -/
structure Appended (T T' : Tables) (l : List Signature) : Prop where
  all : T'.all = T.all ++ l
  byParents : ∀ p t, T'.byParents p t = T.byParents p t ++ l.filter fun s => s.primary = p ∧ s.target = t

theorem Appended.refl (T : Tables) : Appended T T [] := ⟨by simp, by simp⟩

theorem Appended.trans {T T' T'' : Tables} {l l' : List Signature} (h : Appended T T' l) (h' : Appended T' T'' l') :
    Appended T T'' (l ++ l') :=
  ⟨by rw [h'.all, h.all, List.append_assoc], fun p t => by
    rw [h'.byParents, h.byParents, List.filter_append, List.append_assoc]⟩

theorem push_appended (T : Tables) (p t : Int) (sec : List Int) : Appended T (T.push p t ⟨p, t, sec⟩) [⟨p, t, sec⟩] := by
  refine ⟨rfl, fun p' t' => ?_⟩
  unfold Tables.push
  by_cases h : p' = p ∧ t' = t
  · obtain ⟨rfl, rfl⟩ := h
    simp
  · have h2 : ¬(p = p' ∧ t = t') := fun x => h ⟨x.1.symm, x.2.symm⟩
    simp [h, h2]

theorem targets_appended (p : Int) (sec : List Int) (ts : List Int) (T : Tables) :
    Appended T (ts.foldl (fun T t => T.push p t ⟨p, t, sec⟩) T) (ts.map fun t => ⟨p, t, sec⟩) := by
  induction ts generalizing T with
  | nil => exact Appended.refl T
  | cons t ts ih =>
    have := (push_appended T p t sec).trans (ih (T.push p t ⟨p, t, sec⟩))
    simpa using this

theorem finals_appended (p : Int) (ts : List Int) (fs : List (List Int)) (T : Tables) :
    Appended T (fs.foldl (fun T sec => ts.foldl (fun T t => T.push p t ⟨p, t, sec⟩) T) T)
      (fs.flatMap fun sec => ts.map fun t => ⟨p, t, sec⟩) := by
  induction fs generalizing T with
  | nil => exact Appended.refl T
  | cons f fs ih =>
    have := (targets_appended p f ts T).trans (ih _)
    simpa using this

theorem loop_ok (finals : Int → Res (List (List Int))) (ts : List Int) (ps : List Int) (T T' : Tables)
    (h : ps.foldlM (fun T primary => do
      let out ← finals primary
      return out.foldl (fun T secondaries =>
        ts.foldl (fun T target => T.push primary target ⟨primary, target, secondaries⟩) T) T) T = Res.ok T') :
    (∀ p ∈ ps, finals p = .ok (outgoing finals p)) ∧ Appended T T' (listing (outgoing finals) ps ts) := by
  induction ps generalizing T with
  | nil =>
    simp only [List.foldlM_nil, Res.pure_eq, Res.ok.injEq] at h
    subst h
    exact ⟨by simp, Appended.refl T⟩
  | cons p ps ih =>
    rw [List.foldlM_cons] at h
    cases hf : finals p with
    | ok l =>
      rw [hf] at h
      simp only [Res.ok_bind, Res.pure_eq] at h
      obtain ⟨h1, h2⟩ := ih _ h
      have ho : outgoing finals p = l := by simp [outgoing, hf]
      refine ⟨?_, ?_⟩
      · intro q hq
        rcases List.mem_cons.mp hq with rfl | hq
        · rw [ho, hf]
        · exact h1 q hq
      · have := (finals_appended p ts l T).trans h2
        rw [← ho] at this
        simpa [listing, ho] using this
    | throws e => rw [hf] at h; simp at h
    | ub => rw [hf] at h; simp at h

theorem loop_total (finals : Int → Res (List (List Int))) (ts : List Int) (ps : List Int) (T : Tables)
    (hps : ∀ p ∈ ps, ∃ l, finals p = .ok l) :
    ∃ T', ps.foldlM (fun T primary => do
      let out ← finals primary
      return out.foldl (fun T secondaries =>
        ts.foldl (fun T target => T.push primary target ⟨primary, target, secondaries⟩) T) T) T = Res.ok T' := by
  induction ps generalizing T with
  | nil => exact ⟨T, rfl⟩
  | cons p ps ih =>
    obtain ⟨l, hl⟩ := hps p (by simp)
    rw [List.foldlM_cons, hl]
    simp only [Res.ok_bind, Res.pure_eq]
    exact ih _ fun q hq => hps q (by simp [hq])

theorem mem_listing {f : Int → List (List Int)} {ps ts : List Int} {s : Signature} :
    s ∈ listing f ps ts ↔ s.primary ∈ ps ∧ s.target ∈ ts ∧ s.secondaries ∈ f s.primary := by
  obtain ⟨p, t, sec⟩ := s
  simp only [listing, List.mem_flatMap, List.mem_map, Signature.mk.injEq]
  constructor
  · rintro ⟨p', hp, sec', hs, t', ht, rfl, rfl, rfl⟩
    exact ⟨hp, ht, hs⟩
  · rintro ⟨hp, ht, hs⟩
    exact ⟨p, hp, sec, hs, t, ht, rfl, rfl, rfl⟩

theorem nodup_listing {f : Int → List (List Int)} {ps ts : List Int} (hp : ps.Nodup) (ht : ts.Nodup)
    (hf : ∀ p ∈ ps, (f p).Nodup) : (listing f ps ts).Nodup := by
  unfold listing
  rw [List.nodup_flatMap]
  refine ⟨fun p hpm => ?_, ?_⟩
  · rw [List.nodup_flatMap]
    refine ⟨fun sec _ => ht.map fun a b h => by simpa using h, ?_⟩
    refine (hf p hpm).imp fun {a b} hab => ?_
    intro s hs hs'
    simp only [List.mem_map] at hs hs'
    obtain ⟨t, _, rfl⟩ := hs
    obtain ⟨t', _, h⟩ := hs'
    simp only [Signature.mk.injEq] at h
    exact hab h.2.2.symm
  · refine hp.imp fun {a b} hab => ?_
    intro s hs hs'
    simp only [List.mem_flatMap, List.mem_map] at hs hs'
    obtain ⟨_, _, t, _, rfl⟩ := hs
    obtain ⟨_, _, t', _, h⟩ := hs'
    simp only [Signature.mk.injEq] at h
    exact hab h.1.symm

/-- A table built by the loops on a new object is coherent, provided no outgoing state is pushed twice for a primary. -/
theorem initialize_coherent (finals : Int → Res (List (List Int))) (P Ts : Finset Int) (T : Tables)
    (h : Tables.initialize finals P Ts {} = .ok T) (hn : ∀ p ∈ P, (outgoing finals p).Nodup)
    (hne : ∀ p ∈ P, outgoing finals p ≠ []) :
    Coherent (T.interface P Ts) ∧
      ∀ s, s ∈ (T.interface P Ts).all ↔ s.primary ∈ P ∧ s.target ∈ Ts ∧ s.secondaries ∈ outgoing finals s.primary := by
  obtain ⟨_, ha⟩ := loop_ok finals _ _ _ _ h
  have hall : T.all = listing (outgoing finals) (P.sort (· ≤ ·)) (Ts.sort (· ≤ ·)) := by simpa using ha.all
  have hmem : ∀ s, s ∈ T.all ↔ s.primary ∈ P ∧ s.target ∈ Ts ∧ s.secondaries ∈ outgoing finals s.primary := by
    intro s
    rw [hall, mem_listing]
    simp
  refine ⟨⟨?_, ?_, ?_, ?_, ?_, ?_⟩, hmem⟩
  · intro p t
    change T.byParents p t = T.all.filter _
    rw [ha.byParents, hall]
    simp
  · change T.all.Nodup
    rw [hall]
    exact nodup_listing (Finset.sort_nodup _ _) (Finset.sort_nodup _ _) fun p hp => hn p (by simpa using hp)
  · exact Finset.sort_nodup _ _
  · exact Finset.sort_nodup _ _
  · intro s hs
    obtain ⟨h1, h2, _⟩ := (hmem s).mp hs
    exact ⟨by simpa [Tables.interface] using h1, by simpa [Tables.interface] using h2, by simpa [Tables.interface] using h2⟩
  · intro p hp t ht
    have hp' : p ∈ P := by simpa [Tables.interface] using hp
    have ht' : t ∈ Ts := by simpa [Tables.interface] using ht
    obtain ⟨sec, rest, hs⟩ := List.exists_cons_of_ne_nil (hne p hp')
    have hm : (⟨p, t, sec⟩ : Signature) ∈ T.all := (hmem _).mpr ⟨hp', ht', by rw [hs]; simp⟩
    have : (⟨p, t, sec⟩ : Signature) ∈ T.byParents p t := by
      rw [ha.byParents, ← hall]
      simpa using hm
    exact List.ne_nil_of_mem this

theorem neutrino_iff (p : Int) : isNeutrino p = true ↔ Neutrino p := by
  simp [isNeutrino, Neutrino]

theorem chargedLepton_eq (p : Int) (h : Neutrino p) : chargedLepton p = .ok (partner p) := by
  simp only [Neutrino, List.mem_cons, List.not_mem_nil, or_false] at h
  rcases h with rfl | rfl | rfl | rfl | rfl | rfl <;> decide

theorem disFinals_eq (kind p : Int) (h : Neutrino p) : disFinals kind p =
    if kind = 1 then .ok [[partner p, hadrons]] else if kind = 2 then .ok [[p, hadrons]]
    else if kind = 3 then .ok [[hadrons, hadrons]] else .throws .runtimeError := by
  have hn := (neutrino_iff p).mpr h
  simp only [disFinals, hn, Bool.not_true, Bool.false_eq_true, if_false, chargedLepton_eq p h, Res.ok_bind, Res.pure_eq]

theorem disFinals_throws (kind p : Int) (h : ¬Neutrino p) : disFinals kind p = .throws .runtimeError := by
  have hn : isNeutrino p = false := by
    rw [← Bool.not_eq_true, neutrino_iff]
    exact h
  simp [disFinals, hn]

/-- The final states of a DIS cross section, by kind of interaction. -/
def DisFinal (kind : Int) (s : Signature) : Prop :=
  (kind = 1 ∧ s.secondaries = [partner s.primary, hadrons]) ∨ (kind = 2 ∧ s.secondaries = [s.primary, hadrons]) ∨
    (kind = 3 ∧ s.secondaries = [hadrons, hadrons])

theorem disFinals_ok (kind p : Int) (l : List (List Int)) (h : disFinals kind p = .ok l) :
    Neutrino p ∧ ((kind = 1 ∧ l = [[partner p, hadrons]]) ∨ (kind = 2 ∧ l = [[p, hadrons]]) ∨
      (kind = 3 ∧ l = [[hadrons, hadrons]])) := by
  by_cases hp : Neutrino p
  · refine ⟨hp, ?_⟩
    rw [disFinals_eq kind p hp] at h
    split_ifs at h with h1 h2 h3
    · exact .inl ⟨h1, (Res.ok.inj h).symm⟩
    · exact .inr (.inl ⟨h2, (Res.ok.inj h).symm⟩)
    · exact .inr (.inr ⟨h3, (Res.ok.inj h).symm⟩)
  · rw [disFinals_throws kind p hp] at h
    cases h

/-- **C81**, deep inelastic scattering: an object that could be constructed lists its final states coherently, and lists
exactly one for every pair of advertised parents: the lepton of the neutrino's family (charged current), the neutrino
(neutral current) or hadrons (electron scattering), with hadrons. -/
theorem C81_dis (kind : Int) (primaries targets : Finset Int) (X : Interface)
    (h : disCrossSection kind primaries targets = .ok X) :
    Coherent X ∧ (∀ s, s ∈ X.all ↔ s.primary ∈ primaries ∧ s.target ∈ targets ∧ DisFinal kind s) ∧
      (∀ p, p ∈ X.primaries ↔ p ∈ primaries) ∧ (∀ t, t ∈ X.targets ↔ t ∈ targets) ∧ (∀ p ∈ primaries, Neutrino p) := by
  unfold disCrossSection at h
  cases hT : Tables.initialize (disFinals kind) primaries targets {} with
  | ok T =>
    rw [hT] at h
    simp only [Res.ok_bind, Res.pure_eq, Res.ok.injEq] at h
    subst h
    obtain ⟨hok, _⟩ := loop_ok _ _ _ _ _ hT
    have hl : ∀ p ∈ primaries, Neutrino p ∧ ((kind = 1 ∧ outgoing (disFinals kind) p = [[partner p, hadrons]]) ∨
        (kind = 2 ∧ outgoing (disFinals kind) p = [[p, hadrons]]) ∨
        (kind = 3 ∧ outgoing (disFinals kind) p = [[hadrons, hadrons]])) := fun p hp =>
      disFinals_ok kind p _ (hok p (by simpa using hp))
    obtain ⟨hc, hm⟩ := initialize_coherent _ primaries targets T hT
      (fun p hp => by rcases (hl p hp).2 with ⟨_, e⟩ | ⟨_, e⟩ | ⟨_, e⟩ <;> rw [e] <;> simp)
      (fun p hp => by rcases (hl p hp).2 with ⟨_, e⟩ | ⟨_, e⟩ | ⟨_, e⟩ <;> rw [e] <;> simp)
    refine ⟨hc, fun s => ?_, by simp [Tables.interface], by simp [Tables.interface], fun p hp => (hl p hp).1⟩
    rw [hm]
    refine and_congr_right fun hp => and_congr_right fun _ => ?_
    rcases (hl _ hp).2 with ⟨hk, e⟩ | ⟨hk, e⟩ | ⟨hk, e⟩ <;> rw [e] <;> simp [DisFinal, hk]
  | throws e => rw [hT] at h; simp at h
  | ub => rw [hT] at h; simp at h

/-- **C81**, deep inelastic scattering: construction succeeds exactly for neutrinos and the three kinds of interaction;
otherwise it throws. -/
theorem C81_dis_accepts (kind : Int) (primaries targets : Finset Int) :
    (∃ X, disCrossSection kind primaries targets = .ok X) ↔
      (∀ p ∈ primaries, Neutrino p ∧ (kind = 1 ∨ kind = 2 ∨ kind = 3)) := by
  constructor
  · rintro ⟨X, h⟩ p hp
    unfold disCrossSection at h
    cases hT : Tables.initialize (disFinals kind) primaries targets {} with
    | ok T =>
      obtain ⟨hok, _⟩ := loop_ok _ _ _ _ _ hT
      obtain ⟨h1, h2⟩ := disFinals_ok kind p _ (hok p (by simpa using hp))
      exact ⟨h1, by tauto⟩
    | throws e => rw [hT] at h; simp at h
    | ub => rw [hT] at h; simp at h
  · intro h
    obtain ⟨T, hT⟩ := loop_total (disFinals kind) (targets.sort (· ≤ ·)) (primaries.sort (· ≤ ·)) { ({} : Tables) with all := [] } (by
      intro p hp
      obtain ⟨h1, h2⟩ := h p (by simpa using hp)
      rw [disFinals_eq kind p h1]
      rcases h2 with rfl | rfl | rfl <;> simp)
    refine ⟨T.interface primaries targets, ?_⟩
    have hT' : Tables.initialize (disFinals kind) primaries targets {} = .ok T := hT
    simp [disCrossSection, hT']

example : ∃ X, disCrossSection 1 {nuMu, nuMuBar} {proton, nucleon} = .ok X :=
  (C81_dis_accepts 1 _ _).mpr (by
    intro p hp
    simp only [Finset.mem_insert, Finset.mem_singleton] at hp
    rcases hp with rfl | rfl <;> simp [Neutrino])

/-- **C81**, heavy neutral leptons: one final state for every pair of advertised parents, with the heavy lepton of the lepton
number of the neutrino. -/
theorem C81_hnl (primaries targets : Finset Int) (X : Interface) (h : hnlCrossSection primaries targets = .ok X) :
    Coherent X ∧ (∀ s, s ∈ X.all ↔ s.primary ∈ primaries ∧ s.target ∈ targets ∧
      s.secondaries = [if 0 < s.primary then 5914 else -5914, hadrons]) ∧
      (∀ p, p ∈ X.primaries ↔ p ∈ primaries) ∧ (∀ t, t ∈ X.targets ↔ t ∈ targets) ∧ (∀ p ∈ primaries, Neutrino p) := by
  unfold hnlCrossSection at h
  cases hT : Tables.initialize hnlFinals primaries targets {} with
  | ok T =>
    rw [hT] at h
    simp only [Res.ok_bind, Res.pure_eq, Res.ok.injEq] at h
    subst h
    obtain ⟨hok, _⟩ := loop_ok _ _ _ _ _ hT
    have hl : ∀ p ∈ primaries, Neutrino p ∧ outgoing hnlFinals p = [[if 0 < p then 5914 else -5914, hadrons]] := by
      intro p hp
      have := hok p (by simpa using hp)
      cases hn : isNeutrino p with
      | true =>
        refine ⟨(neutrino_iff p).mp hn, ?_⟩
        simp [outgoing, hnlFinals, hn]
      | false => simp [hnlFinals, hn] at this
    obtain ⟨hc, hm⟩ := initialize_coherent _ primaries targets T hT
      (fun p hp => by rw [(hl p hp).2]; simp) (fun p hp => by rw [(hl p hp).2]; simp)
    refine ⟨hc, fun s => ?_, by simp [Tables.interface], by simp [Tables.interface], fun p hp => (hl p hp).1⟩
    rw [hm]
    refine and_congr_right fun hp => and_congr_right fun _ => ?_
    rw [(hl _ hp).2]
    simp
  | throws e => rw [hT] at h; simp at h
  | ub => rw [hT] at h; simp at h

/-- The three charmed mesons of a neutrino, the three anti-charmed ones of an antineutrino. -/
def CharmedMeson (p m : Int) : Prop := (0 < p ∧ m ∈ [421, 411, 431]) ∨ (p < 0 ∧ m ∈ [-421, -411, -431])

theorem quarkFinals_ok (kind p : Int) (l : List (List Int)) (h : quarkFinals kind p = .ok l) :
    Neutrino p ∧ (kind = 1 ∨ kind = 2) ∧
      l = ((if 0 < p then [411, 421, 431] else [-431, -421, -411]).map fun m =>
        [if kind = 1 then partner p else p, hadrons, m]) := by
  cases hn : isNeutrino p with
  | false => simp [quarkFinals, hn] at h
  | true =>
    have hp := (neutrino_iff p).mp hn
    simp only [quarkFinals, hn, Bool.not_true, Bool.false_eq_true, if_false, chargedLepton_eq p hp, Res.ok_bind] at h
    have hk : kind = 1 ∨ kind = 2 := by
      by_contra hk
      push Not at hk
      simp [hk.1, hk.2] at h
    refine ⟨hp, hk, ?_⟩
    have hm : charmedMesons p = .ok (if 0 < p then [411, 421, 431] else [-431, -421, -411]) := by
      simp only [Neutrino, List.mem_cons, List.not_mem_nil, or_false] at hp
      rcases hp with rfl | rfl | rfl | rfl | rfl | rfl <;> decide
    rw [hm] at h
    rcases hk with rfl | rfl <;> simpa using h.symm

theorem charm_nodup (p a : Int) :
    ((if 0 < p then [411, 421, 431] else [-431, -421, -411]).map fun m : Int => [a, hadrons, m]).Nodup := by
  split_ifs <;> simp

theorem charm_mem (p : Int) (hp : Neutrino p) (a : Int) (sec : List Int) :
    (sec ∈ (if 0 < p then [411, 421, 431] else [-431, -421, -411]).map fun m : Int => [a, hadrons, m]) ↔
      ∃ m, CharmedMeson p m ∧ sec = [a, hadrons, m] := by
  have hneg : ¬0 < p → p < 0 := by
    simp only [Neutrino, List.mem_cons, List.not_mem_nil, or_false] at hp
    rcases hp with rfl | rfl | rfl | rfl | rfl | rfl <;> decide
  split_ifs with h
  · have h' : ¬p < 0 := by omega
    simp only [List.mem_map, CharmedMeson, h, h', true_and, false_and, or_false]
    constructor
    · rintro ⟨m, hm, rfl⟩
      exact ⟨m, by simp at hm ⊢; tauto, rfl⟩
    · rintro ⟨m, hm, rfl⟩
      exact ⟨m, by simp at hm ⊢; tauto, rfl⟩
  · have h' := hneg h
    simp only [List.mem_map, CharmedMeson, h, h', true_and, false_and, false_or]
    constructor
    · rintro ⟨m, hm, rfl⟩
      exact ⟨m, by simp at hm ⊢; tauto, rfl⟩
    · rintro ⟨m, hm, rfl⟩
      exact ⟨m, by simp at hm ⊢; tauto, rfl⟩

/-- **C81**, charm production from splines: three final states for every pair of advertised parents, one for each charmed
meson of the right charm. -/
theorem C81_quark (kind : Int) (primaries targets : Finset Int) (X : Interface)
    (h : quarkCrossSection kind primaries targets = .ok X) :
    Coherent X ∧ (∀ s, s ∈ X.all ↔ s.primary ∈ primaries ∧ s.target ∈ targets ∧
      ∃ m, CharmedMeson s.primary m ∧
        s.secondaries = [if kind = 1 then partner s.primary else s.primary, hadrons, m]) ∧
      (∀ p, p ∈ X.primaries ↔ p ∈ primaries) ∧ (∀ t, t ∈ X.targets ↔ t ∈ targets) ∧
      (∀ p ∈ primaries, Neutrino p ∧ (kind = 1 ∨ kind = 2)) := by
  unfold quarkCrossSection at h
  cases hT : Tables.initialize (quarkFinals kind) primaries targets {} with
  | ok T =>
    rw [hT] at h
    simp only [Res.ok_bind, Res.pure_eq, Res.ok.injEq] at h
    subst h
    obtain ⟨hok, _⟩ := loop_ok _ _ _ _ _ hT
    have hl := fun p (hp : p ∈ primaries) => quarkFinals_ok kind p _ (hok p (by simpa using hp))
    obtain ⟨hc, hm⟩ := initialize_coherent _ primaries targets T hT
      (fun p hp => by rw [(hl p hp).2.2]; exact charm_nodup _ _)
      (fun p hp => by rw [(hl p hp).2.2]; split_ifs <;> simp)
    refine ⟨hc, fun s => ?_, by simp [Tables.interface], by simp [Tables.interface], fun p hp => ⟨(hl p hp).1, (hl p hp).2.1⟩⟩
    rw [hm]
    refine and_congr_right fun hp => and_congr_right fun _ => ?_
    rw [(hl _ hp).2.2]
    exact charm_mem _ (hl _ hp).1 _ _
  | throws e => rw [hT] at h; simp at h
  | ub => rw [hT] at h; simp at h

theorem pythiaFinals_ok (p : Int) (l : List (List Int)) (h : pythiaFinals p = .ok l) :
    Neutrino p ∧ l = ((if 0 < p then [411, 421, 431] else [-431, -421, -411]).map fun m => [partner p, hadrons, m]) := by
  cases hn : isNeutrino p with
  | false => simp [pythiaFinals, hn] at h
  | true =>
    have hp := (neutrino_iff p).mp hn
    simp only [pythiaFinals, hn, Bool.not_true, Bool.false_eq_true, if_false, chargedLepton_eq p hp, Res.ok_bind,
      Res.pure_eq, Res.ok.injEq] at h
    refine ⟨hp, ?_⟩
    rw [← h]
    simp only [Neutrino, List.mem_cons, List.not_mem_nil, or_false] at hp
    rcases hp with rfl | rfl | rfl | rfl | rfl | rfl <;> decide

/-- **C81**, charm production from a table with generated events: as for splines, charged current only. -/
theorem C81_pythia (kind : Int) (primaries targets : Finset Int) (X : Interface)
    (h : pythiaCrossSection kind primaries targets = .ok X) :
    Coherent X ∧ (∀ s, s ∈ X.all ↔ s.primary ∈ primaries ∧ s.target ∈ targets ∧
      ∃ m, CharmedMeson s.primary m ∧ s.secondaries = [partner s.primary, hadrons, m]) ∧
      (∀ p, p ∈ X.primaries ↔ p ∈ primaries) ∧ (∀ t, t ∈ X.targets ↔ t ∈ targets) ∧
      kind = 1 ∧ (∀ p ∈ primaries, Neutrino p) := by
  unfold pythiaCrossSection pythiaInitialize at h
  by_cases hk : kind = 1
  · simp only [hk, ne_eq, not_true_eq_false, if_false] at h
    cases hT : Tables.initialize pythiaFinals primaries targets {} with
    | ok T =>
      rw [hT] at h
      simp only [Res.ok_bind, Res.pure_eq, Res.ok.injEq] at h
      subst h
      obtain ⟨hok, _⟩ := loop_ok _ _ _ _ _ hT
      have hl := fun p (hp : p ∈ primaries) => pythiaFinals_ok p _ (hok p (by simpa using hp))
      obtain ⟨hc, hm⟩ := initialize_coherent _ primaries targets T hT
        (fun p hp => by rw [(hl p hp).2]; exact charm_nodup _ _)
        (fun p hp => by rw [(hl p hp).2]; split_ifs <;> simp)
      refine ⟨hc, fun s => ?_, by simp [Tables.interface], by simp [Tables.interface], hk, fun p hp => (hl p hp).1⟩
      rw [hm]
      refine and_congr_right fun hp => and_congr_right fun _ => ?_
      rw [(hl _ hp).2]
      exact charm_mem _ (hl _ hp).1 _ _
    | throws e => rw [hT] at h; simp at h
    | ub => rw [hT] at h; simp at h
  · simp [hk] at h

example : ∃ X, pythiaCrossSection 1 {nuTau, nuEBar} {nucleon} = .ok X := by
  obtain ⟨T, hT⟩ := loop_total pythiaFinals (Finset.sort {nucleon} (· ≤ ·)) (Finset.sort {nuTau, nuEBar} (· ≤ ·))
    { ({} : Tables) with all := [] } (by
      intro p hp
      simp only [Finset.mem_sort, Finset.mem_insert, Finset.mem_singleton] at hp
      rcases hp with rfl | rfl
      · exact ⟨_, rfl⟩
      · exact ⟨_, rfl⟩)
  refine ⟨T.interface {nuTau, nuEBar} {nucleon}, ?_⟩
  have hT' : Tables.initialize pythiaFinals {nuTau, nuEBar} {nucleon} {} = .ok T := hT
  simp [pythiaCrossSection, pythiaInitialize, hT']

theorem filter_single {α : Type} {l : List α} {a : α} (hn : l.Nodup) (ha : a ∈ l) (p : α → Bool)
    (hp : ∀ s ∈ l, p s = true ↔ s = a) : l.filter p = [a] := by
  induction l with
  | nil => simp at ha
  | cons b l ih =>
    rw [List.nodup_cons] at hn
    by_cases hb : b = a
    · subst hb
      rw [List.filter_cons, if_pos ((hp b (by simp)).mpr rfl), List.filter_eq_nil_iff.mpr]
      intro s hs hps
      have := (hp s (by simp [hs])).mp hps
      exact hn.1 (this ▸ hs)
    · have hal : a ∈ l := by
        rcases List.mem_cons.mp ha with h | h
        · exact absurd h.symm hb
        · exact h
      rw [List.filter_cons, if_neg (fun h => hb ((hp b (by simp)).mp h))]
      exact ih hn.2 hal fun s hs => hp s (by simp [hs])

/-- **C81**, neutrino-electron scattering: coherent for every set of primaries. -/
theorem C81_elastic (primaries : Finset Int) :
    Coherent (elasticCrossSection primaries) ∧
      ∀ s, s ∈ (elasticCrossSection primaries).all ↔
        s.primary ∈ primaries ∧ s.target = 11 ∧ s.secondaries = [s.primary, 11] := by
  have hmem : ∀ s, s ∈ (elasticCrossSection primaries).all ↔
      s.primary ∈ primaries ∧ s.target = 11 ∧ s.secondaries = [s.primary, 11] := by
    rintro ⟨p, t, sec⟩
    simp only [elasticCrossSection, List.map_cons, List.map_nil, List.mem_flatMap, Finset.mem_sort, List.mem_singleton,
      Signature.mk.injEq]
    constructor
    · rintro ⟨q, hq, rfl, rfl, rfl⟩
      exact ⟨hq, rfl, rfl⟩
    · rintro ⟨h1, h2, h3⟩
      exact ⟨p, h1, rfl, h2, h3⟩
  have hnd : (elasticCrossSection primaries).all.Nodup := by
    simp only [elasticCrossSection]
    rw [List.nodup_flatMap]
    refine ⟨by simp, (Finset.sort_nodup primaries _).imp fun {a b} hab => ?_⟩
    intro s hs hs'
    simp only [List.map_cons, List.map_nil, List.mem_singleton] at hs hs'
    rw [hs, Signature.mk.injEq] at hs'
    exact hab hs'.1
  refine ⟨⟨fun p t => ?_, hnd, Finset.sort_nodup _ _, by simp [elasticCrossSection], ?_, ?_⟩, hmem⟩
  · by_cases h : p ∈ primaries ∧ t ∈ [eMinus]
    · obtain ⟨hp, ht⟩ := h
      simp only [List.mem_singleton] at ht
      subst ht
      have hm : (⟨p, eMinus, [p, eMinus]⟩ : Signature) ∈ (elasticCrossSection primaries).all := (hmem _).mpr ⟨hp, rfl, rfl⟩
      rw [filter_single hnd hm _ fun s hs => ?_]
      · simp [elasticCrossSection, hp]
      · obtain ⟨_, h2, h3⟩ := (hmem s).mp hs
        obtain ⟨p', t', sec⟩ := s
        simp only at h2 h3
        subst h2 h3
        simp only [Signature.mk.injEq, decide_eq_true_eq]
        constructor
        · rintro ⟨rfl, _⟩
          simp
        · rintro ⟨rfl, _⟩
          simp
    · have h1 : (elasticCrossSection primaries).fromParents p t = [] := by
        simp only [elasticCrossSection, h, if_false]
      rw [h1, eq_comm, List.filter_eq_nil_iff]
      intro s hs
      obtain ⟨h2, h3, _⟩ := (hmem s).mp hs
      simp only [decide_eq_true_eq, not_and]
      rintro rfl rfl
      exact h ⟨h2, by simp [h3]⟩
  · intro s hs
    obtain ⟨h1, h2, _⟩ := (hmem s).mp hs
    simp [elasticCrossSection, h1, h2]
  · intro p hp t ht
    have hp' : p ∈ primaries := by simpa [elasticCrossSection] using hp
    simp only [elasticCrossSection, hp', not_true_eq_false, if_false, List.mem_singleton] at ht
    simp [elasticCrossSection, hp', ht]

/-- **C81**, heavy neutral leptons and charm: when construction succeeds. -/
theorem C81_accepts (kind : Int) (primaries targets : Finset Int) :
    ((∃ X, hnlCrossSection primaries targets = .ok X) ↔ ∀ p ∈ primaries, Neutrino p) ∧
    ((∃ X, quarkCrossSection kind primaries targets = .ok X) ↔ ∀ p ∈ primaries, Neutrino p ∧ (kind = 1 ∨ kind = 2)) ∧
    ((∃ X, pythiaCrossSection kind primaries targets = .ok X) ↔ kind = 1 ∧ ∀ p ∈ primaries, Neutrino p) := by
  refine ⟨⟨fun ⟨X, h⟩ => (C81_hnl _ _ X h).2.2.2.2, fun h => ?_⟩,
    ⟨fun ⟨X, h⟩ => (C81_quark _ _ _ X h).2.2.2.2, fun h => ?_⟩,
    ⟨fun ⟨X, h⟩ => (C81_pythia _ _ _ X h).2.2.2.2, fun h => ?_⟩⟩
  · obtain ⟨T, hT⟩ := loop_total hnlFinals (targets.sort (· ≤ ·)) (primaries.sort (· ≤ ·))
      { ({} : Tables) with all := [] } (by
        intro p hp
        have hn := (neutrino_iff p).mpr (h p (by simpa using hp))
        exact ⟨[[if 0 < p then n4 else n4Bar, hadrons]], by simp [hnlFinals, hn]⟩)
    have hT' : Tables.initialize hnlFinals primaries targets {} = .ok T := hT
    exact ⟨T.interface primaries targets, by simp [hnlCrossSection, hT']⟩
  · obtain ⟨T, hT⟩ := loop_total (quarkFinals kind) (targets.sort (· ≤ ·)) (primaries.sort (· ≤ ·))
      { ({} : Tables) with all := [] } (by
        intro p hp
        obtain ⟨h1, h2⟩ := h p (by simpa using hp)
        simp only [Neutrino, List.mem_cons, List.not_mem_nil, or_false] at h1
        rcases h2 with rfl | rfl <;> rcases h1 with rfl | rfl | rfl | rfl | rfl | rfl <;> exact ⟨_, rfl⟩)
    have hT' : Tables.initialize (quarkFinals kind) primaries targets {} = .ok T := hT
    exact ⟨T.interface primaries targets, by simp [quarkCrossSection, hT']⟩
  · obtain ⟨rfl, h⟩ := h
    obtain ⟨T, hT⟩ := loop_total pythiaFinals (targets.sort (· ≤ ·)) (primaries.sort (· ≤ ·))
      { ({} : Tables) with all := [] } (by
        intro p hp
        have h1 := h p (by simpa using hp)
        simp only [Neutrino, List.mem_cons, List.not_mem_nil, or_false] at h1
        rcases h1 with rfl | rfl | rfl | rfl | rfl | rfl <;> exact ⟨_, rfl⟩)
    have hT' : Tables.initialize pythiaFinals primaries targets {} = .ok T := hT
    exact ⟨T.interface primaries targets, by simp [pythiaCrossSection, pythiaInitialize, hT']⟩

/-- What a caller sees of `HNLDipoleFromTable` once its list of signatures could be made. -/
def dipoleInterface (primaries differential total : Finset Int) (all : List Signature) (from' : Int → Int → List Signature) :
    Interface where
  primaries := primaries.sort (· ≤ ·)
  targets := dipoleTargets differential total
  targetsFrom := fun p => if p ∉ primaries then [] else dipoleTargets differential total
  all := all
  fromParents := from'

/-- **C81**, heavy neutral leptons from tables.  If all primaries are neutrinos no list throws and the lists are coherent:
the targets are those for which both the differential and the total table were added. -/
theorem C81_dipole (primaries differential total : Finset Int) (hp : ∀ p ∈ primaries, Neutrino p) :
    ∃ all from', dipoleAll primaries differential total = .ok all ∧
      (∀ p t, dipoleFromParents primaries differential total p t = .ok (from' p t)) ∧
      Coherent (dipoleInterface primaries differential total all from') ∧
      ∀ s, s ∈ all ↔ s.primary ∈ primaries ∧ s.target ∈ differential ∧ s.target ∈ total ∧
        s.secondaries = [if 0 < s.primary then 5914 else -5914, s.target] := by
  let product : Int → Int := fun p => if 0 < p then 5914 else -5914
  have hprod : ∀ p, Neutrino p → dipoleProduct p = .ok (product p) := by
    intro p h
    simp only [Neutrino, List.mem_cons, List.not_mem_nil, or_false] at h
    rcases h with rfl | rfl | rfl | rfl | rfl | rfl <;> decide
  have inner : ∀ (p : Int) (ts : List Int) (acc : List Signature),
      ts.foldl (fun acc target => acc ++ [(⟨p, target, [product p, target]⟩ : Signature)]) acc =
        acc ++ ts.map fun t => ⟨p, t, [product p, t]⟩ := by
    intro p ts
    induction ts with
    | nil => intro acc; simp
    | cons t ts ih => intro acc; simp [ih]
  have outer : ∀ (ps : List Int) (acc : List Signature), (∀ p ∈ ps, Neutrino p) →
      ps.foldlM (fun acc primary => do
        let product ← dipoleProduct primary
        return (dipoleTargets differential total).foldl
          (fun acc target => acc ++ [(⟨primary, target, [product, target]⟩ : Signature)]) acc) acc =
        Res.ok (acc ++ ps.flatMap fun p => (dipoleTargets differential total).map fun t => ⟨p, t, [product p, t]⟩) := by
    intro ps
    induction ps with
    | nil => intro acc _; simp
    | cons p ps ih =>
      intro acc h
      rw [List.foldlM_cons, hprod p (h p (by simp))]
      have := ih (acc ++ (dipoleTargets differential total).map fun t => ⟨p, t, [product p, t]⟩)
        fun q hq => h q (by simp [hq])
      rw [← inner] at this
      simp only [Res.ok_bind, Res.pure_eq] at this ⊢
      rw [this, inner]
      simp
  let all : List Signature := (primaries.sort (· ≤ ·)).flatMap fun p =>
    (dipoleTargets differential total).map fun t => ⟨p, t, [product p, t]⟩
  have hall : dipoleAll primaries differential total = .ok all := by
    unfold dipoleAll
    rw [outer _ _ fun p h => hp p (by simpa using h)]
    simp [all]
  have hmem : ∀ s : Signature, s ∈ all ↔ s.primary ∈ primaries ∧ s.target ∈ differential ∧ s.target ∈ total ∧
      s.secondaries = [product s.primary, s.target] := by
    rintro ⟨p, t, sec⟩
    simp only [all, List.mem_flatMap, List.mem_map, Finset.mem_sort, dipoleTargets, Finset.mem_inter, Signature.mk.injEq]
    constructor
    · rintro ⟨q, hq, u, hu, rfl, rfl, rfl⟩
      exact ⟨hq, hu.1, hu.2, rfl⟩
    · rintro ⟨h1, h2, h3, h4⟩
      exact ⟨p, h1, t, ⟨h2, h3⟩, rfl, rfl, h4.symm⟩
  have hnd : all.Nodup := by
    simp only [all]
    rw [List.nodup_flatMap]
    refine ⟨fun p _ => (Finset.sort_nodup _ _).map fun a b h => ?_, (Finset.sort_nodup primaries _).imp fun {a b} hab => ?_⟩
    · rw [Signature.mk.injEq] at h
      exact h.2.1
    · intro s hs hs'
      simp only [List.mem_map] at hs hs'
      obtain ⟨t, _, rfl⟩ := hs
      obtain ⟨t', _, h⟩ := hs'
      rw [Signature.mk.injEq] at h
      exact hab h.1.symm
  let from' : Int → Int → List Signature := fun p t =>
    if p ∈ primaries ∧ t ∈ dipoleTargets differential total then [⟨p, t, [product p, t]⟩] else []
  have hfrom : ∀ p t, dipoleFromParents primaries differential total p t = .ok (from' p t) := by
    intro p t
    unfold dipoleFromParents
    by_cases h : p ∈ primaries ∧ t ∈ dipoleTargets differential total
    · rw [if_pos h, hprod p (hp p h.1)]
      simp [from', h]
    · simp only [from', h, if_false]
  refine ⟨all, from', hall, hfrom, ⟨fun p t => ?_, hnd, Finset.sort_nodup _ _, Finset.sort_nodup _ _, ?_, ?_⟩, hmem⟩
  · by_cases h : p ∈ primaries ∧ t ∈ dipoleTargets differential total
    · have h2 : t ∈ differential ∧ t ∈ total := by simpa [dipoleTargets] using h.2
      have hm : (⟨p, t, [product p, t]⟩ : Signature) ∈ all := (hmem _).mpr ⟨h.1, h2.1, h2.2, rfl⟩
      change from' p t = all.filter _
      rw [filter_single hnd hm _ fun s hs => ?_]
      · simp [from', h]
      · obtain ⟨_, _, _, h4⟩ := (hmem s).mp hs
        obtain ⟨p', t', sec⟩ := s
        simp only at h4
        subst h4
        simp only [Signature.mk.injEq, decide_eq_true_eq]
        constructor
        · rintro ⟨rfl, rfl⟩
          simp
        · rintro ⟨rfl, rfl, _⟩
          simp
    · change from' p t = all.filter _
      have h1 : from' p t = [] := by simp only [from', h, if_false]
      rw [h1, eq_comm, List.filter_eq_nil_iff]
      intro s hs
      obtain ⟨h2, h3, h4, _⟩ := (hmem s).mp hs
      simp only [decide_eq_true_eq, not_and]
      rintro rfl rfl
      exact h ⟨h2, by simp [dipoleTargets, h3, h4]⟩
  · intro s hs
    obtain ⟨h1, h2, h3, _⟩ := (hmem s).mp hs
    simp [dipoleInterface, dipoleTargets, h1, h2, h3]
  · intro p hpp t ht
    have hp' : p ∈ primaries := by simpa [dipoleInterface] using hpp
    simp only [dipoleInterface, hp', not_true_eq_false, if_false] at ht
    change from' p t ≠ []
    simp [from', hp', ht]

example : ∃ all, dipoleAll {nuMu} {proton, nucleon} {proton} = .ok all ∧ ⟨nuMu, proton, [n4, proton]⟩ ∈ all := by
  obtain ⟨all, _, h, _, _, hm⟩ := C81_dipole {nuMu} {proton, nucleon} {proton} (by simp [Neutrino])
  exact ⟨all, h, (hm _).mpr (by simp)⟩

/-! ### C82: the classes whose lists are not coherent -/

/-- **C82** fails for the dummy cross section: `GetPossibleSignaturesFromParents` ignores the target. -/
theorem C82_dummy_fails : ¬Coherent dummyCrossSection := by
  intro h
  have := h.byParents nuE proton
  revert this
  decide

/-- **C82**, dummy cross section, what does hold: on its one advertised target the lists agree. -/
theorem C82_dummy_partial :
    (∀ p, dummyCrossSection.fromParents p nucleon =
      dummyCrossSection.all.filter fun s => s.primary = p ∧ s.target = nucleon) ∧
    dummyCrossSection.all.Nodup ∧ dummyCrossSection.primaries.Nodup ∧ dummyCrossSection.targets.Nodup ∧
    (∀ s ∈ dummyCrossSection.all, s.primary ∈ dummyCrossSection.primaries ∧ s.target ∈ dummyCrossSection.targets) ∧
    (∀ p ∈ dummyCrossSection.primaries, ∀ t ∈ dummyCrossSection.targetsFrom p, dummyCrossSection.fromParents p t ≠ []) := by
  refine ⟨fun p => ?_, by decide, by decide, by decide, by decide, ?_⟩
  · change dummyCrossSection.all.filter (fun s => s.primary = p) = _
    refine List.filter_congr fun s hs => ?_
    have : s.target = nucleon := by
      have : ∀ s ∈ dummyCrossSection.all, s.target = nucleon := by decide
      exact this s hs
    simp [this]
  · intro p hp t ht
    have ht' : t = nucleon := by simpa [dummyCrossSection] using ht
    subst ht'
    revert p
    decide

/-- **C82** fails for the energy loss of charmed mesons: signatures are offered for parents that are not in the full list
(here a primary that is not advertised) ... -/
theorem C82_dmeson_fails (primaries targets : Finset Int) : ¬Coherent (dmesonCrossSection primaries targets) := by
  intro h
  obtain ⟨q, hq⟩ := Infinite.exists_notMem_finset primaries
  have hb := h.byParents q proton
  have hm : (⟨q, proton, [q, hadrons]⟩ : Signature) ∈ (dmesonCrossSection primaries targets).fromParents q proton := by
    simp [dmesonCrossSection]
  rw [hb, List.mem_filter] at hm
  simp only [dmesonCrossSection, List.mem_flatMap, Finset.mem_sort, List.mem_singleton, Signature.mk.injEq] at hm
  obtain ⟨⟨a, ha, rfl, _⟩, _⟩ := hm
  exact hq ha

/-- ... and the full list names the proton even when the object was built without it, and never names another target. -/
theorem C82_dmeson_targets_fails :
    ∃ s ∈ (dmesonCrossSection {dPlus} {nucleon}).all, s.target ∉ (dmesonCrossSection {dPlus} {nucleon}).targets := by
  refine ⟨⟨dPlus, proton, [dPlus, hadrons]⟩, ?_, ?_⟩ <;> simp [dmesonCrossSection]

/-- **C82**, energy loss of charmed mesons, what does hold: with the proton as target and an advertised primary the lists
agree. -/
theorem C82_dmeson_partial (primaries targets : Finset Int) (p : Int) (hp : p ∈ primaries) :
    (dmesonCrossSection primaries targets).fromParents p proton =
      (dmesonCrossSection primaries targets).all.filter fun s => s.primary = p ∧ s.target = proton := by
  have hmem : ∀ s : Signature, s ∈ (dmesonCrossSection primaries targets).all ↔
      s.primary ∈ primaries ∧ s = ⟨s.primary, proton, [s.primary, hadrons]⟩ := by
    rintro ⟨a, t, sec⟩
    simp only [dmesonCrossSection, List.mem_flatMap, Finset.mem_sort, List.mem_singleton, Signature.mk.injEq]
    constructor
    · rintro ⟨b, hb, rfl, rfl, rfl⟩
      exact ⟨hb, trivial, rfl, rfl⟩
    · rintro ⟨h, _, rfl, rfl⟩
      exact ⟨a, h, rfl, rfl, rfl⟩
  have hnd : (dmesonCrossSection primaries targets).all.Nodup := by
    simp only [dmesonCrossSection]
    rw [List.nodup_flatMap]
    refine ⟨by simp, (Finset.sort_nodup primaries _).imp fun {a b} hab => ?_⟩
    intro s hs hs'
    simp only [List.mem_singleton] at hs hs'
    rw [hs, Signature.mk.injEq] at hs'
    exact hab hs'.1
  rw [filter_single hnd ((hmem ⟨p, proton, [p, hadrons]⟩).mpr ⟨hp, rfl⟩)]
  · rfl
  · intro s hs
    have h2 := ((hmem s).mp hs).2
    constructor
    · intro h
      simp only [decide_eq_true_eq] at h
      rw [h2, h.1]
    · rintro rfl
      simp

/-- **C82** fails for MARLEY with elastic scattering: the electron is the target of some signatures and is not advertised, so
an interaction collection never asks for them. -/
theorem C82_marley_fails : ∃ c X, marleyCrossSection c = .ok X ∧ ∃ s ∈ X.all, s.target ∉ X.targets := by
  refine ⟨⟨true, false, false, true⟩, _, rfl, ⟨nuE, eMinus, [nuE, eMinus]⟩, ?_, ?_⟩ <;> decide

/-- **C82** fails for MARLEY: with both charged-current reactions every advertised pair has a final state, but with elastic
scattering alone no advertised pair has one. -/
theorem C82_marley_empty_fails : ∃ X, marleyCrossSection ⟨false, false, false, true⟩ = .ok X ∧ X.all ≠ [] ∧
    ∀ p ∈ X.primaries, ∀ t ∈ X.targetsFrom p, X.fromParents p t = [] := by
  refine ⟨_, rfl, by decide, ?_⟩
  intro p hp t ht
  have hp' : p ∈ [nuE, nuEBar, nuMu, nuMuBar, nuTau, nuTauBar] := hp
  have ht' : t = argon40 := by
    simp only [List.mem_cons, List.not_mem_nil, or_false] at hp'
    rcases hp' with rfl | rfl | rfl | rfl | rfl | rfl <;> simpa [isNeutrino] using ht
  subst ht'
  simp only [List.mem_cons, List.not_mem_nil, or_false] at hp'
  rcases hp' with rfl | rfl | rfl | rfl | rfl | rfl <;> decide

/-- **C82**, MARLEY, what does hold: for every choice of reactions the lists of pairs agree with the full list, nothing is
listed twice and all primaries are advertised; without elastic scattering all targets are. -/
theorem C82_marley_partial (c : Marley) (X : Interface) (h : marleyCrossSection c = .ok X) :
    (∀ p t, X.fromParents p t = X.all.filter fun s => s.primary = p ∧ s.target = t) ∧ X.all.Nodup ∧ X.primaries.Nodup ∧
      X.targets.Nodup ∧ (∀ s ∈ X.all, s.primary ∈ X.primaries) ∧
      (c.elastic = false → ∀ s ∈ X.all, s.target ∈ X.targets ∧ s.target ∈ X.targetsFrom s.primary) := by
  obtain ⟨a, b, d, e⟩ := c
  cases a <;> cases b <;> cases d <;> cases e <;> first
    | (simp [marleyCrossSection, Marley.primaries] at h; done)
    | (cases h
       exact ⟨fun p t => rfl, by decide, by decide, by decide, by decide, by decide⟩)

/-- **C82** fails when an archive is loaded into an object that was already constructed: the map of pairs is not cleared, so
every final state is listed (and summed) twice. -/
theorem C82_reload_fails : ∃ X, disReload 1 {nuMu} {nucleon} = .ok X ∧ X.all = [⟨nuMu, nucleon, [muMinus, hadrons]⟩] ∧
    X.fromParents nuMu nucleon = [⟨nuMu, nucleon, [muMinus, hadrons]⟩, ⟨nuMu, nucleon, [muMinus, hadrons]⟩] := by
  refine ⟨((({ all := [], byParents := (Tables.push {} nuMu nucleon ⟨nuMu, nucleon, [muMinus, hadrons]⟩).byParents } : Tables).push
    nuMu nucleon ⟨nuMu, nucleon, [muMinus, hadrons]⟩)).interface {nuMu} {nucleon}, ?_, rfl, rfl⟩
  have hf : disFinals 1 nuMu = .ok [[muMinus, hadrons]] := by decide
  simp [disReload, Tables.initialize, hf]

/-! ### C83: decays -/

/-- **Specification.**  The full list of a decay is, without repetition, made of decays of its primaries, and for every primary
of the object `GetPossibleSignaturesFromParent` gives the part of the list with this primary. -/
def CoherentDecay (primaries : Finset Int) (X : DecayInterface) : Prop :=
  ∃ all, X.all = .ok all ∧ all.Nodup ∧ (∀ s ∈ all, s.primary ∈ primaries ∧ s.target = decayTarget) ∧
    ∀ p ∈ primaries, X.fromParent p = .ok (all.filter fun s => s.primary = p)

theorem decayOf_coherent (primaries : Finset Int) (finals : Int → Res (List (List Int)))
    (hok : ∀ p ∈ primaries, ∃ l, finals p = .ok l ∧ l.Nodup) :
    CoherentDecay primaries (decayOf primaries finals) ∧
      ∀ all, (decayOf primaries finals).all = .ok all →
        ∀ s, s ∈ all ↔ s.primary ∈ primaries ∧ s.target = decayTarget ∧ s.secondaries ∈ outgoing finals s.primary := by
  have hout : ∀ p ∈ primaries, finals p = .ok (outgoing finals p) ∧ (outgoing finals p).Nodup := by
    intro p hp
    obtain ⟨l, hl, hn⟩ := hok p hp
    simp [outgoing, hl, hn]
  let sig : Int → List Signature := fun p => (outgoing finals p).map fun sec => ⟨p, decayTarget, sec⟩
  have hloop : ∀ (ps : List Int) (acc : List Signature), (∀ p ∈ ps, p ∈ primaries) →
      ps.foldlM (fun acc p => do
        let new ← (decayOf primaries finals).fromParent p
        return acc ++ new) acc = Res.ok (acc ++ ps.flatMap sig) := by
    intro ps
    induction ps with
    | nil => intro acc _; simp
    | cons p ps ih =>
      intro acc h
      rw [List.foldlM_cons]
      simp only [decayOf, (hout p (h p (by simp))).1, Res.ok_bind, Res.pure_eq]
      have := ih (acc ++ sig p) fun q hq => h q (by simp [hq])
      simp only [decayOf] at this
      rw [show acc ++ List.map (fun secondaries => (⟨p, decayTarget, secondaries⟩ : Signature)) (outgoing finals p) =
        acc ++ sig p from rfl]
      simpa using this
  have hall : (decayOf primaries finals).all = .ok ((primaries.sort (· ≤ ·)).flatMap sig) := by
    have := hloop (primaries.sort (· ≤ ·)) [] (by simp)
    rw [List.nil_append] at this
    exact this
  have hmem : ∀ s : Signature, s ∈ (primaries.sort (· ≤ ·)).flatMap sig ↔
      s.primary ∈ primaries ∧ s.target = decayTarget ∧ s.secondaries ∈ outgoing finals s.primary := by
    rintro ⟨p, t, sec⟩
    simp only [sig, List.mem_flatMap, List.mem_map, Finset.mem_sort, Signature.mk.injEq]
    constructor
    · rintro ⟨q, hq, u, hu, rfl, rfl, rfl⟩
      exact ⟨hq, rfl, hu⟩
    · rintro ⟨h1, h2, h3⟩
      exact ⟨p, h1, sec, h3, rfl, h2.symm, rfl⟩
  refine ⟨⟨_, hall, ?_, ?_, ?_⟩, ?_⟩
  · rw [List.nodup_flatMap]
    refine ⟨fun p hp => (hout p (by simpa using hp)).2.map fun a b h => by simpa using h,
      (Finset.sort_nodup primaries _).imp fun {a b} hab => ?_⟩
    intro s hs hs'
    simp only [sig, List.mem_map] at hs hs'
    obtain ⟨t, _, rfl⟩ := hs
    obtain ⟨t', _, h⟩ := hs'
    rw [Signature.mk.injEq] at h
    exact hab h.1.symm
  · intro s hs
    exact ⟨((hmem s).mp hs).1, ((hmem s).mp hs).2.1⟩
  · intro p hp
    have h1 : (decayOf primaries finals).fromParent p = .ok (sig p) := by
      simp [decayOf, (hout p hp).1, sig]
    rw [h1]
    congr 1
    have key : ∀ ps : List Int, ps.Nodup → (ps.flatMap sig).filter (fun s => s.primary = p) = if p ∈ ps then sig p else [] := by
      intro ps
      induction ps with
      | nil => intro _; simp
      | cons q ps ih =>
        intro hn
        rw [List.nodup_cons] at hn
        rw [List.flatMap_cons, List.filter_append, ih hn.2]
        by_cases hq : p = q
        · subst hq
          have : (sig p).filter (fun s => s.primary = p) = sig p := by
            rw [List.filter_eq_self]
            intro s hs
            simp only [sig, List.mem_map] at hs
            obtain ⟨_, _, rfl⟩ := hs
            simp
          simp [this, hn.1]
        · have : (sig q).filter (fun s => s.primary = p) = [] := by
            rw [List.filter_eq_nil_iff]
            intro s hs
            simp only [sig, List.mem_map] at hs
            obtain ⟨_, _, rfl⟩ := hs
            simpa using fun h : q = p => hq h.symm
          simp [this, hq]
    rw [key _ (Finset.sort_nodup _ _)]
    simp [hp]
  · intro all h
    rw [hall, Res.ok.injEq] at h
    subst h
    exact hmem

/-- **C83**, for every set of primaries given to the constructors: the lists of dipole decays, decays of heavy neutral leptons
and decays of the weak bosons are coherent. -/
theorem C83_decays (primaries : Finset Int) :
    CoherentDecay primaries (dipoleDecay primaries) ∧ CoherentDecay primaries (hnlDecay primaries) ∧
      CoherentDecay primaries (electroweakDecay primaries) := by
  refine ⟨(decayOf_coherent _ _ fun p _ => ?_).1, (decayOf_coherent _ _ fun p _ => ?_).1, (decayOf_coherent _ _ fun p _ => ?_).1⟩
  · unfold dipoleDecayFinals
    split_ifs <;> exact ⟨_, rfl, by decide⟩
  · refine ⟨_, rfl, ?_⟩
    by_cases h1 : p = n4
    · subst h1; decide
    · by_cases h2 : p = n4Bar
      · subst h2; decide
      · simp only [hnlTwoBody, hnlThreeBody, h1, h2, if_false]
        decide
  · unfold electroweakFinals
    split_ifs <;> exact ⟨_, rfl, by decide⟩

/-- **C83**, charmed mesons: the lists of both classes are coherent. -/
theorem C83_charm : CoherentDecay {421, 411, 431, -421, -411, -431} charmDecay ∧ CoherentDecay {421, 411} charm3Decay := by
  refine ⟨(decayOf_coherent _ _ fun p _ => ?_).1, (decayOf_coherent _ _ fun p hp => ?_).1⟩
  · unfold charmFinals
    split_ifs <;> exact ⟨_, rfl, by decide⟩
  · simp only [Finset.mem_insert, Finset.mem_singleton] at hp
    rcases hp with rfl | rfl <;> exact ⟨_, rfl, by decide⟩

/-- **C83** fails for other primaries: a decay object restricted to one primary still offers final states for the others, which
its full list does not contain ... -/
theorem C83_unlisted_fails : ∃ l all, (electroweakDecay {z0}).fromParent wPlus = .ok l ∧ l ≠ [] ∧
    (electroweakDecay {z0}).all = .ok all ∧ ∀ s ∈ all, s.primary ≠ wPlus := by
  obtain ⟨all, h, _, hp, _⟩ := (C83_decays {z0}).2.2
  refine ⟨_, all, rfl, by decide, h, fun s hs => ?_⟩
  have := (hp s hs).1
  simp only [Finset.mem_singleton] at this
  rw [this]
  decide

/-- ... the constructor of the decay of charmed mesons that takes a primary ignores it ... -/
theorem C83_constructor_fails (p : Int) : ∃ all, (charmDecayFor p).all = .ok all ∧
    ∀ q ∈ ([421, 411, 431, -421, -411, -431] : List Int), ∃ s ∈ all, s.primary = q := by
  have h := (decayOf_coherent {421, 411, 431, -421, -411, -431} charmFinals (fun p _ => by
    unfold charmFinals
    split_ifs <;> exact ⟨_, rfl, by decide⟩))
  obtain ⟨⟨all, ha, _⟩, hm⟩ := h
  refine ⟨all, ha, fun q hq => ⟨⟨q, decayTarget, [hadrons]⟩, (hm all ha _).mpr ?_, rfl⟩⟩
  simp only [List.mem_cons, List.not_mem_nil, or_false] at hq
  rcases hq with rfl | rfl | rfl | rfl | rfl | rfl <;> refine ⟨by decide, rfl, by decide⟩

/-- ... and the decay of heavy neutral leptons offers ten final states for every particle whatsoever. -/
theorem C83_any_primary_fails (p : Int) (h1 : p ≠ 5914) (h2 : p ≠ -5914) (primaries : Finset Int) :
    ∃ l, (hnlDecay primaries).fromParent p = .ok l ∧ l.length = 10 := by
  refine ⟨_, rfl, ?_⟩
  simp [hnlTwoBody, hnlThreeBody, h1, h2]

end Siren.Signatures
