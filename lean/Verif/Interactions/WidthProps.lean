import Verif.Interactions.SignatureProps
import Verif.Interactions.Widths
import Verif.Injection.ChannelProps

set_option autoImplicit false

/-!
# C84, C85, C86: conserved quantum numbers, widths summed over final states, decay lengths
-/

namespace Siren.Signatures

open Records (Signature)

/-! ### C84: conserved quantum numbers -/

/-- **Specification.**  Electric charge in units of a third of the positron charge; `none` for unspecified hadrons. -/
def charge (p : Int) : Option Int :=
  let positive : Int → Option Int := fun q =>
    if q = 11 ∨ q = 13 ∨ q = 15 then some (-3)
    else if q = 12 ∨ q = 14 ∨ q = 16 ∨ q = 22 ∨ q = 23 ∨ q = 5910 ∨ q = 5914 then some 0
    else if q = 24 then some 3
    else if q = 1 ∨ q = 3 ∨ q = 5 then some (-1)
    else if q = 2 ∨ q = 4 ∨ q = 6 then some 2
    else if q = 111 ∨ q = 221 ∨ q = 113 ∨ q = 223 ∨ q = 331 ∨ q = 313 ∨ q = 333 ∨ q = 311 ∨ q = 421 then some 0
    else if q = 211 ∨ q = 213 ∨ q = 321 ∨ q = 323 ∨ q = 411 ∨ q = 431 ∨ q = 2212 then some 3
    else none
  if 0 ≤ p then positive p else (positive (-p)).map (-·)

/-- **Specification.**  Lepton number. -/
def leptonNumber (p : Int) : Int :=
  let positive : Int → Int := fun q => if (11 ≤ q ∧ q ≤ 16) ∨ q = 5910 ∨ q = 5914 then 1 else 0
  positive p - positive (-p)

/-- **Specification.**  Lepton number of one generation (`0`, `1`, `2`). -/
def familyNumber (generation : Int) (p : Int) : Int :=
  let positive : Int → Int := fun q => if q = 11 + 2 * generation ∨ q = 12 + 2 * generation then 1 else 0
  positive p - positive (-p)

/-- **Specification.**  Number of quarks minus number of antiquarks, for processes that show their quarks. -/
def quarkNumber (p : Int) : Int :=
  let positive : Int → Int := fun q => if 1 ≤ q ∧ q ≤ 6 then 1 else 0
  positive p - positive (-p)

/-- **Specification.**  If the charges of all outgoing particles are known, they add up to the charge of the primary. -/
def ChargeConserved (s : Signature) : Prop :=
  ∀ q, s.secondaries.mapM charge = some q → charge s.primary = some q.sum

instance (s : Signature) : Decidable (ChargeConserved s) :=
  match h : s.secondaries.mapM charge with
  | none => isTrue (fun q hq => by rw [h] at hq; cases hq)
  | some q =>
    if h' : charge s.primary = some q.sum then isTrue (fun q' hq => by rw [h] at hq; cases hq; exact h')
    else isFalse (fun hc => h' (hc q h))

/-- **Specification.**  The charge of every outgoing particle is known. -/
def ChargeKnown (s : Signature) : Prop := (s.secondaries.mapM charge).isSome

instance (s : Signature) : Decidable (ChargeKnown s) := by unfold ChargeKnown; infer_instance

/-- **Specification.**  Lepton number is conserved. -/
def LeptonConserved (s : Signature) : Prop := leptonNumber s.primary = (s.secondaries.map leptonNumber).sum

instance (s : Signature) : Decidable (LeptonConserved s) := by unfold LeptonConserved; infer_instance

/-- **Specification.**  The lepton numbers of the three generations are conserved. -/
def FamilyConserved (s : Signature) : Prop :=
  ∀ g ∈ ([0, 1, 2] : List Int), familyNumber g s.primary = (s.secondaries.map (familyNumber g)).sum

instance (s : Signature) : Decidable (FamilyConserved s) := by unfold FamilyConserved; infer_instance

theorem decay_mem (primaries : Finset Int) (finals : Int → Res (List (List Int)))
    (hok : ∀ p ∈ primaries, ∃ l, finals p = .ok l ∧ l.Nodup) (all : List Signature)
    (h : (decayOf primaries finals).all = .ok all) (s : Signature) (hs : s ∈ all) :
    s.primary ∈ primaries ∧ s = ⟨s.primary, decayTarget, s.secondaries⟩ ∧ s.secondaries ∈ outgoing finals s.primary := by
  obtain ⟨h1, h2, h3⟩ := ((decayOf_coherent primaries finals hok).2 all h s).mp hs
  refine ⟨h1, ?_, h3⟩
  rw [← h2]

/-- **C84**, weak bosons: for every set of primaries every listed final state conserves charge, lepton number of every
generation and quark number. -/
theorem C84_electroweak (primaries : Finset Int) (all : List Signature) (h : (electroweakDecay primaries).all = .ok all)
    (s : Signature) (hs : s ∈ all) :
    ChargeKnown s ∧ ChargeConserved s ∧ LeptonConserved s ∧ FamilyConserved s ∧
      quarkNumber s.primary = (s.secondaries.map quarkNumber).sum := by
  obtain ⟨_, he, hm⟩ := decay_mem primaries electroweakFinals (fun p _ => by
    unfold electroweakFinals
    split_ifs <;> exact ⟨_, rfl, by decide⟩) all h s hs
  rw [he]
  have key : ∀ p ∈ ([24, -24, 23] : List Int), ∀ sec ∈ outgoing electroweakFinals p,
      ChargeKnown ⟨p, decayTarget, sec⟩ ∧ ChargeConserved ⟨p, decayTarget, sec⟩ ∧ LeptonConserved ⟨p, decayTarget, sec⟩ ∧
        FamilyConserved ⟨p, decayTarget, sec⟩ ∧ quarkNumber p = (sec.map quarkNumber).sum := by decide
  by_cases hp : s.primary ∈ ([24, -24, 23] : List Int)
  · exact key _ hp _ hm
  · simp only [List.mem_cons, List.not_mem_nil, or_false, not_or] at hp
    simp [outgoing, electroweakFinals, hp.1, hp.2.1, hp.2.2] at hm

/-- **C84**, charmed mesons: every listed final state conserves the lepton numbers, and charge when all charges are known (all
semileptonic decays of the two lighter mesons). -/
theorem C84_charm (all : List Signature) (h : charmDecay.all = .ok all) (s : Signature) (hs : s ∈ all) :
    ChargeConserved s ∧ LeptonConserved s ∧ FamilyConserved s ∧ (hadrons ∉ s.secondaries → ChargeKnown s) := by
  obtain ⟨hp, he, hm⟩ := decay_mem _ charmFinals (fun p _ => by
    unfold charmFinals
    split_ifs <;> exact ⟨_, rfl, by decide⟩) all h s hs
  rw [he]
  have key : ∀ p ∈ ([421, 411, 431, -421, -411, -431] : List Int), ∀ sec ∈ outgoing charmFinals p,
      ChargeConserved ⟨p, decayTarget, sec⟩ ∧ LeptonConserved ⟨p, decayTarget, sec⟩ ∧ FamilyConserved ⟨p, decayTarget, sec⟩ ∧
        (hadrons ∉ sec → ChargeKnown ⟨p, decayTarget, sec⟩) := by decide
  exact key _ (by simpa [Finset.mem_insert] using hp) _ hm

/-- **C84**, heavy neutral leptons: dipole decays conserve charge and lepton number for every set of primaries; the other decays
conserve charge, and lepton number unless the primary is the antiparticle and the final state has three neutrinos. -/
theorem C84_hnl (primaries : Finset Int) (all : List Signature) (s : Signature) (hs : s ∈ all) :
    ((dipoleDecay primaries).all = .ok all → ChargeKnown s ∧ ChargeConserved s ∧ LeptonConserved s) ∧
    ((hnlDecay primaries).all = .ok all → primaries ⊆ {5914, -5914} →
      ChargeConserved s ∧ (hadrons ∉ s.secondaries → ChargeKnown s) ∧
        (s.primary = 5914 ∨ s.secondaries ≠ [5910, -5910, 5910] → LeptonConserved s)) := by
  constructor
  · intro h
    obtain ⟨_, he, hm⟩ := decay_mem primaries dipoleDecayFinals (fun p _ => by
      unfold dipoleDecayFinals
      split_ifs <;> exact ⟨_, rfl, by decide⟩) all h s hs
    rw [he]
    have key : ∀ p ∈ ([5914, -5914] : List Int), ∀ sec ∈ outgoing dipoleDecayFinals p,
      ChargeKnown ⟨p, decayTarget, sec⟩ ∧ ChargeConserved ⟨p, decayTarget, sec⟩ ∧ LeptonConserved ⟨p, decayTarget, sec⟩ := by
      decide
    by_cases hp : s.primary ∈ ([5914, -5914] : List Int)
    · exact key _ hp _ hm
    · simp only [List.mem_cons, List.not_mem_nil, or_false, not_or] at hp
      simp [outgoing, dipoleDecayFinals, hp.1, hp.2] at hm
  · intro h hsub
    obtain ⟨hp, he, hm⟩ := decay_mem primaries hnlDecayFinals (fun p hp => by
      have := hsub hp
      simp only [Finset.mem_insert, Finset.mem_singleton] at this
      rcases this with rfl | rfl <;> exact ⟨_, rfl, by decide⟩) all h s hs
    rw [he]
    have key : ∀ p ∈ ([5914, -5914] : List Int), ∀ sec ∈ outgoing hnlDecayFinals p,
      ChargeConserved ⟨p, decayTarget, sec⟩ ∧ (hadrons ∉ sec → ChargeKnown ⟨p, decayTarget, sec⟩) ∧
        (p = 5914 ∨ sec ≠ [5910, -5910, 5910] → LeptonConserved ⟨p, decayTarget, sec⟩) := by decide
    exact key _ (by simpa using hsub hp) _ hm

/-- **C84** fails for one listed decay: the heavy antilepton is said to decay to two neutrinos and an antineutrino. -/
theorem C84_hnl_fails : ∃ all s, (hnlDecay {-5914}).all = .ok all ∧ s ∈ all ∧ s.primary = -5914 ∧ ¬LeptonConserved s := by
  obtain ⟨⟨all, h, _⟩, hm⟩ := decayOf_coherent {-5914} hnlDecayFinals (fun p hp => by
    simp only [Finset.mem_singleton] at hp
    subst hp
    exact ⟨_, rfl, by decide⟩)
  refine ⟨all, ⟨-5914, decayTarget, [nuLight, nuLightBar, nuLight]⟩, h, (hm all h _).mpr ⟨by simp, rfl, by decide⟩, rfl, by decide⟩

/-- **C84**, cross sections: deep inelastic scattering, charm production and heavy-lepton production conserve lepton number, and
all except the last the lepton number of every generation; for scattering on electrons the outgoing lepton is not shown. -/
theorem C84_xsec (kind : Int) (primaries targets : Finset Int) (X : Interface) (s : Signature) (hs : s ∈ X.all)
    (ht : leptonNumber s.target = 0) (hf : ∀ g ∈ ([0, 1, 2] : List Int), familyNumber g s.target = 0) :
    (disCrossSection kind primaries targets = .ok X → kind ≠ 3 → LeptonConserved s ∧ FamilyConserved s) ∧
    (quarkCrossSection kind primaries targets = .ok X → LeptonConserved s ∧ FamilyConserved s) ∧
    (pythiaCrossSection kind primaries targets = .ok X → LeptonConserved s ∧ FamilyConserved s) ∧
    (hnlCrossSection primaries targets = .ok X → LeptonConserved s) := by
  obtain ⟨p, t, sec⟩ := s
  have hcc : ∀ p ∈ ([12, -12, 14, -14, 16, -16] : List Int),
      LeptonConserved ⟨p, t, [partner p, hadrons]⟩ ∧ FamilyConserved ⟨p, t, [partner p, hadrons]⟩ ∧
      LeptonConserved ⟨p, t, [p, hadrons]⟩ ∧ FamilyConserved ⟨p, t, [p, hadrons]⟩ ∧
      LeptonConserved ⟨p, t, [if 0 < p then 5914 else -5914, hadrons]⟩ := by
    simp only [LeptonConserved, FamilyConserved]
    decide
  have hcm : ∀ p ∈ ([12, -12, 14, -14, 16, -16] : List Int), ∀ m ∈ ([421, 411, 431, -421, -411, -431] : List Int),
      (LeptonConserved ⟨p, t, [partner p, hadrons, m]⟩ ∧ FamilyConserved ⟨p, t, [partner p, hadrons, m]⟩) ∧
      (LeptonConserved ⟨p, t, [p, hadrons, m]⟩ ∧ FamilyConserved ⟨p, t, [p, hadrons, m]⟩) := by
    simp only [LeptonConserved, FamilyConserved]
    decide
  have hmes : ∀ p m, CharmedMeson p m → m ∈ ([421, 411, 431, -421, -411, -431] : List Int) := by
    rintro p m (⟨_, h⟩ | ⟨_, h⟩) <;> simp at h ⊢ <;> tauto
  refine ⟨fun h hk => ?_, fun h => ?_, fun h => ?_, fun h => ?_⟩
  · obtain ⟨_, hm, _, _, hp⟩ := C81_dis kind primaries targets X h
    obtain ⟨h1, _, h3⟩ := (hm _).mp hs
    have hn := hcc p (hp p h1)
    rcases h3 with ⟨_, h3⟩ | ⟨_, h3⟩ | ⟨h3, _⟩
    · simp only at h3
      subst h3
      exact ⟨hn.1, hn.2.1⟩
    · simp only at h3
      subst h3
      exact ⟨hn.2.2.1, hn.2.2.2.1⟩
    · exact absurd h3 hk
  · obtain ⟨_, hm, _, _, hp⟩ := C81_quark kind primaries targets X h
    obtain ⟨h1, _, m, h3, h4⟩ := (hm _).mp hs
    have hn := hcm p (hp p h1).1 m (hmes _ _ h3)
    simp only at h4
    subst h4
    split_ifs
    · exact hn.1
    · exact hn.2
  · obtain ⟨_, hm, _, _, _, hp⟩ := C81_pythia kind primaries targets X h
    obtain ⟨h1, _, m, h3, h4⟩ := (hm _).mp hs
    have hn := hcm p (hp p h1) m (hmes _ _ h3)
    simp only at h4
    subst h4
    exact hn.1
  · obtain ⟨_, hm, _, _, hp⟩ := C81_hnl primaries targets X h
    obtain ⟨h1, _, h3⟩ := (hm _).mp hs
    have hn := hcc p (hp p h1)
    simp only at h3
    rw [h3]
    exact hn.2.2.2.2

/-! ### C85: sums over final states -/

theorem sumOver_ok (l : List Signature) (f : Signature → Res ℝ) (g : Signature → ℝ) (h : ∀ s ∈ l, f s = .ok (g s)) :
    sumOver l f = .ok ((l.map g).sum) := by
  have : ∀ (l : List Signature) (acc : ℝ), (∀ s ∈ l, f s = .ok (g s)) →
      l.foldlM (fun total s => do
        let x ← f s
        return total + x) acc = Res.ok (acc + (l.map g).sum) := by
    intro l
    induction l with
    | nil => intro acc _; simp
    | cons s l ih =>
      intro acc h
      rw [List.foldlM_cons, h s (by simp)]
      have := ih (acc + g s) fun q hq => h q (by simp [hq])
      simp only [Res.ok_bind, Res.pure_eq] at this ⊢
      rw [this]
      simp [add_assoc]
  have h1 := this l 0 h
  rw [zero_add] at h1
  exact h1

/-- **Specification.**  Mean lifetimes of the charmed mesons in seconds. -/
noncomputable def lifetime (p : Int) : ℝ :=
  if p = 411 ∨ p = -411 then 1040e-15 else if p = 421 ∨ p = -421 then 410.1e-15 else 504e-15

/-- **Specification.**  Branching ratio to each of the two semileptonic final states. -/
noncomputable def semileptonic (p : Int) : ℝ :=
  if p = 411 ∨ p = -411 then 0.1407 else if p = 421 ∨ p = -421 then 0.0558 else 0.0654

theorem charm_widths (p : Int) (hp : p ∈ ([421, 411, 431, -421, -411, -431] : List Int)) :
    ∃ a b c, charmDecay.fromParent p = .ok [⟨p, decayTarget, a⟩, ⟨p, decayTarget, b⟩, ⟨p, decayTarget, c⟩] ∧
      charmWidth ⟨p, decayTarget, a⟩ = .ok (semileptonic p * hbar / lifetime p) ∧
      charmWidth ⟨p, decayTarget, b⟩ = .ok (semileptonic p * hbar / lifetime p) ∧
      charmWidth ⟨p, decayTarget, c⟩ = .ok ((1 - 2 * semileptonic p) * hbar / lifetime p) := by
  simp only [List.mem_cons, List.not_mem_nil, or_false] at hp
  rcases hp with rfl | rfl | rfl | rfl | rfl | rfl
  · refine ⟨[kMinus, ePlus, nuE], [kMinus, muPlus, nuMu], [hadrons], rfl, ?_, ?_, ?_⟩ <;>
      (simp (decide := true) only [charmWidth, lifetime, semileptonic, if_true, if_false]; norm_num)
  · refine ⟨[k0Bar, ePlus, nuE], [k0Bar, muPlus, nuMu], [hadrons], rfl, ?_, ?_, ?_⟩ <;>
      (simp (decide := true) only [charmWidth, lifetime, semileptonic, if_true, if_false]; norm_num)
  · refine ⟨[hadrons, ePlus, nuE], [hadrons, muPlus, nuMu], [hadrons], rfl, ?_, ?_, ?_⟩ <;>
      (simp (decide := true) only [charmWidth, lifetime, semileptonic, if_true, if_false]; norm_num)
  · refine ⟨[kPlus, eMinus, nuEBar], [kPlus, muMinus, nuMuBar], [hadrons], rfl, ?_, ?_, ?_⟩ <;>
      (simp (decide := true) only [charmWidth, lifetime, semileptonic, if_true, if_false]; norm_num)
  · refine ⟨[k0, eMinus, nuEBar], [k0, muMinus, nuMuBar], [hadrons], rfl, ?_, ?_, ?_⟩ <;>
      (simp (decide := true) only [charmWidth, lifetime, semileptonic, if_true, if_false]; norm_num)
  · refine ⟨[hadrons, eMinus, nuEBar], [hadrons, muMinus, nuMuBar], [hadrons], rfl, ?_, ?_, ?_⟩ <;>
      (simp (decide := true) only [charmWidth, lifetime, semileptonic, if_true, if_false]; norm_num)

/-- **C85**, charmed mesons: the widths of the three listed final states are the branching ratios times `ħ/τ`, all positive, and
they add up to `ħ/τ`, which is what `TotalDecayWidthAllFinalStates` returns. -/
theorem C85_charm (p : Int) (hp : p ∈ ([421, 411, 431, -421, -411, -431] : List Int)) :
    charmTotal p = .ok (hbar / lifetime p) ∧
      ∃ l, charmDecay.fromParent p = .ok l ∧ l.length = 3 ∧
        (∀ s ∈ l, ∃ w, charmWidth s = .ok w ∧ 0 < w ∧
          (s.secondaries = [hadrons] → w = (1 - 2 * semileptonic p) * (hbar / lifetime p)) ∧
          (s.secondaries ≠ [hadrons] → w = semileptonic p * (hbar / lifetime p))) ∧
        ((l.map fun s => match charmWidth s with | .ok w => w | _ => 0).sum = hbar / lifetime p) := by
  have hpos : 0 < hbar / lifetime p := by
    unfold hbar lifetime
    split_ifs <;> norm_num
  have hs : 0 < semileptonic p ∧ 0 < 1 - 2 * semileptonic p := by
    unfold semileptonic
    split_ifs <;> norm_num
  have hne : ∀ (p : Int), p ∈ ([421, 411, 431, -421, -411, -431] : List Int) → ∀ l, charmDecay.fromParent p = .ok l →
      (l.map fun s => decide (s.secondaries = [hadrons])) = [false, false, true] := by
    intro p hp
    simp only [List.mem_cons, List.not_mem_nil, or_false] at hp
    rcases hp with rfl | rfl | rfl | rfl | rfl | rfl <;> (intro l hl; cases hl; decide)
  obtain ⟨a, b, c, hl, ha, hb, hc⟩ := charm_widths p hp
  have hn := hne p hp _ hl
  simp only [List.map_cons, List.map_nil, List.cons.injEq, decide_eq_false_iff_not, decide_eq_true_eq, and_true] at hn
  have sum : semileptonic p * hbar / lifetime p + (semileptonic p * hbar / lifetime p +
      ((1 - 2 * semileptonic p) * hbar / lifetime p + 0)) = hbar / lifetime p := by ring
  refine ⟨?_, _, hl, rfl, ?_, ?_⟩
  · unfold charmTotal
    rw [hl, Res.ok_bind, sumOver_ok _ charmWidth (fun s => match charmWidth s with | .ok w => w | _ => 0)]
    · simp only [List.map_cons, List.map_nil, ha, hb, hc, List.sum_cons, List.sum_nil, sum]
    · intro s hs
      simp only [List.mem_cons, List.not_mem_nil, or_false] at hs
      rcases hs with rfl | rfl | rfl <;> simp only [ha, hb, hc]
  · intro s hs'
    simp only [List.mem_cons, List.not_mem_nil, or_false] at hs'
    rcases hs' with rfl | rfl | rfl
    · refine ⟨_, ha, ?_, fun h => absurd h hn.1, fun _ => by ring⟩
      have := mul_pos hs.1 hpos
      rwa [← mul_div_assoc] at this
    · refine ⟨_, hb, ?_, fun h => absurd h hn.2.1, fun _ => by ring⟩
      have := mul_pos hs.1 hpos
      rwa [← mul_div_assoc] at this
    · refine ⟨_, hc, ?_, fun _ => by ring, fun h => absurd hn.2.2 h⟩
      have := mul_pos hs.2 hpos
      rwa [← mul_div_assoc] at this
  · simp only [List.map_cons, List.map_nil, ha, hb, hc, List.sum_cons, List.sum_nil, sum]

/-- **Specification.**  The listed final states of the weak bosons: outgoing particles and sum of their masses in GeV. -/
noncomputable def bosonModes (p : Int) : List (Int × Int × ℝ) :=
  if p = 24 then [(-11, 12, 0.000511), (-13, 14, 0.105658374), (-15, 16, 1.77686), (2, -1, 0.00703), (2, -3, 0.09522),
    (2, -5, 4.20032), (4, -1, 1.28471), (4, -3, 1.3729), (4, -5, 5.478)]
  else if p = -24 then [(11, -12, 0.000511), (13, -14, 0.105658374), (15, -16, 1.77686), (-2, 1, 0.00703), (-2, 3, 0.09522),
    (-2, 5, 4.20032), (-4, 1, 1.28471), (-4, 3, 1.3729), (-4, 5, 5.478)]
  else if p = 23 then [(12, -12, 0), (14, -14, 0), (16, -16, 0), (11, -11, 0.001022), (13, -13, 0.211316748),
    (15, -15, 3.55372), (2, -2, 0.00464), (4, -4, 2.56), (1, -1, 0.00942), (3, -3, 0.1858), (5, -5, 8.396)]
  else []

/-- **Specification.**  The width of each of these final states at and above its threshold: `g²M/(48π)` times the colour factor
and the squared mixing element for the charged boson, `g²M/(48π cos²θ)` times the colour factor and the squared couplings for
the neutral one. -/
noncomputable def bosonWidths (p : Int) : List ℝ :=
  let w : ℝ := 0.64 ^ 2 * 80.379 / (48 * Real.pi)
  let z : ℝ := 0.64 ^ 2 / (1 - 0.2312) * 91.1876 / (48 * Real.pi)
  if p = 24 ∨ p = -24 then [w, w, w, 3 * 0.9740 ^ 2 * w, 3 * 0.2265 ^ 2 * w, 3 * 0.0036 ^ 2 * w, 3 * 0.2263 ^ 2 * w,
    3 * 0.9732 ^ 2 * w, 3 * 0.0405 ^ 2 * w]
  else if p = 23 then
    let coupling (cL cR : ℝ) : ℝ := 2 * (cL ^ 2 + cR ^ 2) * z
    [coupling 0.5 0, coupling 0.5 0, coupling 0.5 0, coupling 0.27 0.23, coupling 0.27 0.23, coupling 0.27 0.23,
      3 * coupling 0.35 0.15, 3 * coupling 0.35 0.15, 3 * coupling 0.42 0.08, 3 * coupling 0.42 0.08, 3 * coupling 0.42 0.08]
  else []

theorem zWidth_eq (cL cR : ℝ) :
    zWidth cL cR = 2 * (cL ^ 2 + cR ^ 2) * (0.64 ^ 2 / (1 - 0.2312) * 91.1876 / (48 * Real.pi)) := by
  unfold zWidth gweak thetaWeinberg zMass
  have hs : (0.64 : ℝ) / Real.sqrt (1 - 0.2312) * (0.64 / Real.sqrt (1 - 0.2312)) = 0.64 ^ 2 / (1 - 0.2312) := by
    rw [div_mul_div_comm, Real.mul_self_sqrt (by norm_num)]
    ring
  simp only [hs]
  ring

theorem ew_mass_sum (p : Int) : ∀ x ∈ bosonModes p, ∃ m1 m2, ewMass x.1 = some m1 ∧ ewMass x.2.1 = some m2 ∧ m1 + m2 = x.2.2 := by
  unfold bosonModes
  split_ifs <;> intro x hx <;> simp only [List.mem_cons, List.not_mem_nil, or_false] at hx
  · rcases hx with rfl | rfl | rfl | rfl | rfl | rfl | rfl | rfl | rfl <;>
      simp (decide := true) only [ewMass, if_true, if_false, Option.some.injEq, exists_eq_left', exists_and_left] <;> norm_num
  · rcases hx with rfl | rfl | rfl | rfl | rfl | rfl | rfl | rfl | rfl <;>
      simp (decide := true) only [ewMass, if_true, if_false, Option.some.injEq, exists_eq_left', exists_and_left] <;> norm_num
  · rcases hx with rfl | rfl | rfl | rfl | rfl | rfl | rfl | rfl | rfl | rfl | rfl <;>
      simp (decide := true) only [ewMass, if_true, if_false, Option.some.injEq, exists_eq_left', exists_and_left] <;> norm_num

theorem ew_partial (p : Int) : (bosonModes p).map (fun x => ewPartial p x.1 x.2.1) = bosonWidths p := by
  unfold bosonModes bosonWidths
  by_cases h1 : p = 24
  · subst h1
    have l1 : (downAntiQuarks.zip downQuarks).lookup (-1) = some 1 := by decide
    have l3 : (downAntiQuarks.zip downQuarks).lookup (-3) = some 3 := by decide
    have l5 : (downAntiQuarks.zip downQuarks).lookup (-5) = some 5 := by decide
    simp (decide := true) only [if_true, if_false, List.map_cons, List.map_nil, ewPartial, ckm, gammaW, gweak, wMass, l1, l3, l5]
    norm_num
  · by_cases h2 : p = -24
    · subst h2
      have l2 : (upAntiQuarks.zip upQuarks).lookup (-2) = some 2 := by decide
      have l4 : (upAntiQuarks.zip upQuarks).lookup (-4) = some 4 := by decide
      simp (decide := true) only [if_true, if_false, List.map_cons, List.map_nil, ewPartial, ckm, gammaW, gweak, wMass, l2, l4]
      norm_num
    · by_cases h3 : p = 23
      · subst h3
        simp (decide := true) only [if_true, if_false, List.map_cons, List.map_nil, ewPartial, zWidth_eq]
        norm_num
      · simp [h1, h2, h3]

theorem ew_modes (p : Int) : outgoing electroweakFinals p = (bosonModes p).map fun x => [x.1, x.2.1] := by
  unfold bosonModes
  by_cases h1 : p = 24
  · subst h1
    simp only [if_true, List.map_cons, List.map_nil]
    decide
  · by_cases h2 : p = -24
    · subst h2
      rw [if_neg (by decide), if_pos rfl]
      simp only [List.map_cons, List.map_nil]
      decide
    · by_cases h3 : p = 23
      · subst h3
        rw [if_neg (by decide), if_neg (by decide), if_pos rfl]
        simp only [List.map_cons, List.map_nil]
        decide
      · simp [outgoing, electroweakFinals, h1, h2, h3]

theorem ew_from (primaries : Finset Int) (p : Int) :
    (electroweakDecay primaries).fromParent p =
      .ok ((bosonModes p).map fun x => (⟨p, decayTarget, [x.1, x.2.1]⟩ : Signature)) := by
  have h : electroweakFinals p = .ok ((bosonModes p).map fun x => [x.1, x.2.1]) := by
    rw [← ew_modes]
    unfold outgoing electroweakFinals
    split_ifs <;> rfl
  unfold electroweakDecay decayOf
  simp only [h, Res.ok_bind, Res.pure_eq, List.map_map, Res.ok.injEq]
  rfl

theorem ew_width (p : Int) (mass : ℝ) : ∀ x ∈ bosonModes p,
    ewWidth mass ⟨p, decayTarget, [x.1, x.2.1]⟩ = .ok (if x.2.2 ≥ mass then 0 else ewPartial p x.1 x.2.1) := by
  intro x hx
  obtain ⟨m1, m2, h1, h2, h3⟩ := ew_mass_sum p x hx
  simp only [ewWidth, h1, h2, h3]
  split_ifs <;> rfl

theorem bosonWidths_pos (p : Int) : ∀ w ∈ bosonWidths p, 0 < w := by
  have hpi := Real.pi_pos
  have hw : (0 : ℝ) < 0.64 ^ 2 * 80.379 / (48 * Real.pi) := by positivity
  have hz : (0 : ℝ) < 0.64 ^ 2 / (1 - 0.2312) * 91.1876 / (48 * Real.pi) := by
    have : (0 : ℝ) < 1 - 0.2312 := by norm_num
    positivity
  unfold bosonWidths
  intro w h
  simp only at h
  split_ifs at h
  · simp only [List.mem_cons, List.not_mem_nil, or_false] at h
    rcases h with rfl | rfl | rfl | rfl | rfl | rfl | rfl | rfl | rfl <;> positivity
  · simp only [List.mem_cons, List.not_mem_nil, or_false] at h
    rcases h with rfl | rfl | rfl | rfl | rfl | rfl | rfl | rfl | rfl | rfl | rfl <;>
      (generalize (0.64 : ℝ) ^ 2 / (1 - 0.2312) * 91.1876 / (48 * Real.pi) = z at *; positivity)
  · simp at h

/-- **C85**, weak bosons: a record of a `W` or `Z` with any mass has, for every listed final state, the width of the table
`bosonWidths` if its mass is above the sum of the masses of the products and zero otherwise; the total over all final states is
the sum of the table, whatever the mass of the record, so it is the sum over the final states for every record above the highest
threshold; all these widths are positive. -/
theorem C85_electroweak (primaries : Finset Int) (p : Int) (hp : p = 24 ∨ p = -24 ∨ p = 23) :
    ∃ l, (electroweakDecay primaries).fromParent p = .ok l ∧
      l.map Signature.secondaries = (bosonModes p).map (fun x => [x.1, x.2.1]) ∧
      (bosonModes p).length = (bosonWidths p).length ∧
      (∀ mass, l.map (ewWidth mass) =
        ((bosonModes p).zip (bosonWidths p)).map fun x => .ok (if x.1.2.2 ≥ mass then 0 else x.2)) ∧
      ewTotal primaries p = .ok (bosonWidths p).sum ∧
      (∀ mass, (∀ x ∈ bosonModes p, x.2.2 < mass) → sumOver l (ewWidth mass) = ewTotal primaries p) ∧
      (∀ w ∈ bosonWidths p, 0 < w) := by
  have hlen : (bosonModes p).length = (bosonWidths p).length := by
    rw [← ew_partial, List.length_map]
  have hsum : ∀ mass, (∀ x ∈ bosonModes p, x.2.2 < mass) →
      sumOver ((bosonModes p).map fun x => (⟨p, decayTarget, [x.1, x.2.1]⟩ : Signature)) (ewWidth mass) =
        .ok (bosonWidths p).sum := by
    intro mass hm
    rw [sumOver_ok _ _ (fun s => ewPartial p (s.secondaries.headD 0) (s.secondaries.tail.headD 0))]
    · rw [← ew_partial, List.map_map]
      rfl
    · intro s hs
      obtain ⟨x, hx, rfl⟩ := List.mem_map.mp hs
      rw [ew_width p mass x hx, if_neg (not_le.mpr (hm x hx))]
      rfl
  have htot : ewTotal primaries p = .ok (bosonWidths p).sum := by
    unfold ewTotal
    rw [ew_from, Res.ok_bind]
    apply hsum
    intro x hx
    unfold bosonModes at hx
    rcases hp with rfl | rfl | rfl <;> simp (decide := true) only [if_true, if_false, List.mem_cons, List.not_mem_nil, or_false] at hx ⊢
    · rcases hx with rfl | rfl | rfl | rfl | rfl | rfl | rfl | rfl | rfl <;> norm_num [wMass]
    · rcases hx with rfl | rfl | rfl | rfl | rfl | rfl | rfl | rfl | rfl <;> norm_num [wMass]
    · rcases hx with rfl | rfl | rfl | rfl | rfl | rfl | rfl | rfl | rfl | rfl | rfl <;> norm_num [zMass]
  refine ⟨_, ew_from primaries p, ?_, hlen, ?_, htot, fun mass hm => by rw [htot]; exact hsum mass hm, bosonWidths_pos p⟩
  · rw [List.map_map]
    rfl
  · intro mass
    rw [List.map_map]
    apply List.ext_getElem
    · simp [hlen]
    · intro n h1 h2
      simp only [List.getElem_map, Function.comp_apply, List.getElem_zip]
      have hn : n < (bosonModes p).length := by simpa using h1
      rw [ew_width p mass _ (List.getElem_mem hn)]
      have : (bosonWidths p)[n]'(by omega) = ewPartial p (bosonModes p)[n].1 (bosonModes p)[n].2.1 := by
        simp only [← ew_partial, List.getElem_map]
      rw [this]

/-- The `W⁺` has three leptonic and six hadronic modes, so its width is `3Γ(1 + Σ|V|²)`. -/
example : ewTotal {24} 24 = .ok (3 * gammaW * (1 + (0.9740 ^ 2 + 0.2265 ^ 2 + 0.0036 ^ 2 + 0.2263 ^ 2 + 0.9732 ^ 2 + 0.0405 ^ 2))) := by
  obtain ⟨_, _, _, _, _, h, _⟩ := C85_electroweak {24} 24 (by simp)
  rw [h]
  simp (decide := true) only [bosonWidths, if_true, List.sum_cons, List.sum_nil, gammaW, gweak, wMass, Res.ok.injEq]
  ring

/-- The number of a result. -/
def valueOf (r : Res ℝ) : ℝ :=
  match r with
  | .ok w => w
  | _ => 0

/-- Below a threshold the total over all final states is not the sum of the widths of the final states: it is computed for the
nominal mass of the boson. -/
theorem C85_offshell_fails :
    ∃ l w, (electroweakDecay {24}).fromParent 24 = .ok l ∧ sumOver l (ewWidth 5) = .ok w ∧ ewTotal {24} 24 ≠ .ok w := by
  obtain ⟨l, hl, _, _, hm, ht, _, hpos⟩ := C85_electroweak {24} 24 (by simp)
  refine ⟨l, (bosonWidths 24).sum - 3 * 0.0405 ^ 2 * (0.64 ^ 2 * 80.379 / (48 * Real.pi)), hl, ?_, ?_⟩
  · rw [sumOver_ok l _ (valueOf ∘ ewWidth 5)]
    · rw [← List.map_map]
      rw [hm 5]
      simp (decide := true) only [bosonModes, bosonWidths, if_true, List.zip, List.zipWith, List.map_cons, List.map_nil,
        List.sum_cons, List.sum_nil, Res.ok.injEq, valueOf]
      norm_num
      ring
    · intro s hs
      have : ewWidth 5 s ∈ l.map (ewWidth 5) := List.mem_map_of_mem hs
      rw [hm 5] at this
      obtain ⟨x, _, hx⟩ := List.mem_map.mp this
      simp only [Function.comp_apply, ← hx, valueOf]
  · rw [ht]
    have hpi := Real.pi_pos
    have : (0 : ℝ) < 3 * 0.0405 ^ 2 * (0.64 ^ 2 * 80.379 / (48 * Real.pi)) := by positivity
    intro h
    simp only [Res.ok.injEq] at h
    linarith

/-- **C85**, dipole decays: the width of each of the three final states is `d²m³/4π` with the coupling of the flavour, and their
sum is the total width. -/
theorem C85_dipole (primaries : Finset Int) (mass : ℝ) (d : Fin 3 → ℝ) (p : Int) (hp : p = 5914 ∨ p = -5914) :
    ∃ l, (dipoleDecay primaries).fromParent p = .ok l ∧
      l.map (dipoleWidth mass d) = [0, 1, 2].map (fun i => Res.ok (d i ^ 2 * mass ^ 3 / (4 * Real.pi))) ∧
      sumOver l (dipoleWidth mass d) = dipoleTotal mass d p := by
  rcases hp with rfl | rfl
  all_goals
    refine ⟨_, rfl, ?_, ?_⟩
    · simp (decide := true) only [List.map_cons, List.map_nil, dipoleWidth, if_true, if_false]
      simp only [pow_two]
    · rw [sumOver_ok _ _ (fun s => match dipoleWidth mass d s with | .ok w => w | _ => 0)]
      · simp (decide := true) only [List.map_cons, List.map_nil, dipoleWidth, if_true, if_false, List.sum_cons, List.sum_nil,
          dipoleTotal, List.foldl]
        congr 1
        ring
      · intro s hs
        simp only [List.map_cons, List.map_nil, List.mem_cons, List.not_mem_nil, or_false] at hs
        rcases hs with rfl | rfl | rfl <;> simp (decide := true) only [dipoleWidth]

/-- A particle without any listed dipole decay has a total width nevertheless. -/
theorem C85_dipole_unlisted_fails :
    ∃ p, (dipoleDecay {5914}).fromParent p = .ok [] ∧ ∃ w, dipoleTotal 1 (fun _ => 1) p = .ok w ∧ 0 < w := by
  refine ⟨13, rfl, _, rfl, ?_⟩
  have := Real.pi_pos
  simp only [List.foldl]
  positivity

/-- **Specification.**  The fraction of charm quarks that end up in each charmed meson. -/
noncomputable def mesonFraction (m : Int) : ℝ :=
  if m = 421 ∨ m = -421 then 60 / 98 else if m = 411 ∨ m = -411 then 23 / 98 else 15 / 98

theorem charm_sum (X : Interface) (hc : Coherent X) (inclusive : Int → Res ℝ) (p t lepton : Int) (σ : ℝ)
    (hσ : inclusive p = .ok σ) (hp : Neutrino p) (hl : isD lepton = false)
    (hm : ∀ s, s ∈ X.all ∧ s.primary = p ∧ s.target = t ↔
      s.primary = p ∧ s.target = t ∧ ∃ m, CharmedMeson p m ∧ s.secondaries = [lepton, hadrons, m]) :
    (∀ s ∈ X.fromParents p t, ∃ m, CharmedMeson p m ∧ s.secondaries = [lepton, hadrons, m] ∧
      charmXsec inclusive s = .ok (σ * mesonFraction m)) ∧
    allFinalStates X (charmXsec inclusive) p t = .ok σ := by
  have hx : ∀ m, CharmedMeson p m → charmXsec inclusive ⟨p, t, [lepton, hadrons, m]⟩ = .ok (σ * mesonFraction m) := by
    intro m hm
    have hD : isD m = true ∧ fragmentation m = mesonFraction m := by
      unfold CharmedMeson at hm
      simp only [List.mem_cons, List.not_mem_nil, or_false] at hm
      rcases hm with ⟨_, rfl | rfl | rfl⟩ | ⟨_, rfl | rfl | rfl⟩ <;> refine ⟨by decide, ?_⟩ <;>
        simp (decide := true) only [fragmentation, mesonFraction, if_true, if_false] <;> norm_num
    have hh : isD hadrons = false := by decide
    simp only [charmXsec, hσ, Res.ok_bind, List.find?, hl, hh, hD.1, hD.2, Res.pure_eq]
  have mem : ∀ s, s ∈ X.fromParents p t ↔ s.primary = p ∧ s.target = t ∧
      ∃ m, CharmedMeson p m ∧ s.secondaries = [lepton, hadrons, m] := by
    intro s
    rw [hc.byParents, List.mem_filter]
    simpa using hm s
  refine ⟨?_, ?_⟩
  · intro s hs
    obtain ⟨h1, h2, m, h3, h4⟩ := (mem s).mp hs
    refine ⟨m, h3, h4, ?_⟩
    obtain ⟨_, _, _⟩ := s
    simp only at h1 h2 h4
    subst h1 h2 h4
    exact hx m h3
  · have hnodup : (X.fromParents p t).Nodup := by
      rw [hc.byParents]
      exact hc.once.filter _
    set mesons : List Int := if 0 < p then [421, 411, 431] else [-421, -411, -431] with hmes
    have hmem : ∀ m, m ∈ mesons ↔ CharmedMeson p m := by
      intro m
      unfold CharmedMeson
      rw [hmes]
      by_cases h0 : 0 < p
      · simp [h0, not_lt.mpr h0.le]
      · have : p < 0 := by
          unfold Neutrino at hp
          simp only [List.mem_cons, List.not_mem_nil, or_false] at hp
          omega
        simp [h0, this]
    have hperm : (X.fromParents p t).Perm (mesons.map fun m => (⟨p, t, [lepton, hadrons, m]⟩ : Signature)) := by
      rw [List.perm_ext_iff_of_nodup hnodup]
      · intro s
        rw [mem, List.mem_map]
        constructor
        · rintro ⟨rfl, rfl, m, h, h'⟩
          exact ⟨m, (hmem m).mpr h, by rw [← h']⟩
        · rintro ⟨m, h, rfl⟩
          exact ⟨rfl, rfl, m, (hmem m).mp h, rfl⟩
      · apply List.Nodup.map
        · intro a b h
          simpa using h
        · rw [hmes]
          split_ifs <;> decide
    unfold allFinalStates
    rw [sumOver_ok _ _ (valueOf ∘ charmXsec inclusive)]
    · rw [(hperm.map _).sum_eq, List.map_map]
      have : mesons.map ((valueOf ∘ charmXsec inclusive) ∘ fun m => (⟨p, t, [lepton, hadrons, m]⟩ : Signature)) =
          mesons.map fun m => σ * mesonFraction m := by
        apply List.map_congr_left
        intro m h
        simp only [Function.comp_apply, hx m ((hmem m).mp h), valueOf]
      rw [this, hmes]
      congr 1
      split_ifs <;> simp (decide := true) only [List.map_cons, List.map_nil, List.sum_cons, List.sum_nil, mesonFraction, if_true,
        if_false] <;> ring
    · intro s hs
      obtain ⟨h1, h2, m, h3, h4⟩ := (mem s).mp hs
      obtain ⟨_, _, _⟩ := s
      simp only at h1 h2 h4
      subst h1 h2 h4
      simp only [Function.comp_apply, hx m h3, valueOf]

theorem partner_not_d (p : Int) (hp : Neutrino p) : isD (partner p) = false ∧ isD p = false := by
  unfold Neutrino at hp
  simp only [List.mem_cons, List.not_mem_nil, or_false] at hp
  rcases hp with rfl | rfl | rfl | rfl | rfl | rfl <;> decide

/-- **C85**, charm production: for every pair of advertised parents the cross section of each final state is the inclusive one
times the fraction of its charmed meson, and their sum is the inclusive cross section. -/
theorem C85_quark (kind : Int) (primaries targets : Finset Int) (X : Interface)
    (h : quarkCrossSection kind primaries targets = .ok X) (inclusive : Int → Res ℝ) (p t : Int) (hp : p ∈ primaries)
    (ht : t ∈ targets) (σ : ℝ) (hσ : inclusive p = .ok σ) :
    (∀ s ∈ X.fromParents p t, ∃ m, CharmedMeson p m ∧ s.secondaries.getLast? = some m ∧
      charmXsec inclusive s = .ok (σ * mesonFraction m)) ∧
    allFinalStates X (charmXsec inclusive) p t = .ok σ := by
  obtain ⟨hc, hm, _, _, hn⟩ := C81_quark kind primaries targets X h
  have hnp := (hn p hp).1
  obtain ⟨h1, h2⟩ := charm_sum X hc inclusive p t (if kind = 1 then partner p else p) σ hσ hnp
    (by have := partner_not_d p hnp; split_ifs; exacts [this.1, this.2])
    (by
      intro s
      constructor
      · rintro ⟨h, rfl, rfl⟩
        exact ⟨rfl, rfl, ((hm s).mp h).2.2⟩
      · rintro ⟨rfl, rfl, h⟩
        exact ⟨(hm s).mpr ⟨hp, ht, h⟩, rfl, rfl⟩)
  refine ⟨fun s hs => ?_, h2⟩
  obtain ⟨m, a, b, c⟩ := h1 s hs
  exact ⟨m, a, by rw [b]; rfl, c⟩

/-- **C85**, charm production with generated events. -/
theorem C85_pythia (kind : Int) (primaries targets : Finset Int) (X : Interface)
    (h : pythiaCrossSection kind primaries targets = .ok X) (inclusive : Int → Res ℝ) (p t : Int) (hp : p ∈ primaries)
    (ht : t ∈ targets) (σ : ℝ) (hσ : inclusive p = .ok σ) :
    (∀ s ∈ X.fromParents p t, ∃ m, CharmedMeson p m ∧ s.secondaries.getLast? = some m ∧
      charmXsec inclusive s = .ok (σ * mesonFraction m)) ∧
    allFinalStates X (charmXsec inclusive) p t = .ok σ := by
  obtain ⟨hc, hm, _, _, _, hn⟩ := C81_pythia kind primaries targets X h
  have hnp := hn p hp
  obtain ⟨h1, h2⟩ := charm_sum X hc inclusive p t (partner p) σ hσ hnp (partner_not_d p hnp).1
    (by
      intro s
      constructor
      · rintro ⟨h, rfl, rfl⟩
        exact ⟨rfl, rfl, ((hm s).mp h).2.2⟩
      · rintro ⟨rfl, rfl, h⟩
        exact ⟨(hm s).mpr ⟨hp, ht, h⟩, rfl, rfl⟩)
  refine ⟨fun s hs => ?_, h2⟩
  obtain ⟨m, a, b, c⟩ := h1 s hs
  exact ⟨m, a, by rw [b]; rfl, c⟩

/-- A charged current object for muon neutrinos and antineutrinos on protons meets the hypotheses. -/
example : ∃ X, quarkCrossSection 1 {14, -14} {2212} = .ok X ∧ (∃ s, s ∈ X.fromParents (-14) 2212) ∧
    allFinalStates X (charmXsec fun p => .ok (if p = 14 then 3 else 2)) (-14) 2212 = .ok 2 := by
  obtain ⟨X, h⟩ := ((C81_accepts 1 {14, -14} {2212}).2.1).mpr (by simp [Neutrino])
  refine ⟨X, h, ?_, (C85_quark 1 _ _ X h _ (-14) 2212 (by simp) (by simp) 2 (by simp)).2⟩
  obtain ⟨hc, hm, _⟩ := C81_quark 1 _ _ X h
  refine ⟨⟨-14, 2212, [-13, hadrons, -421]⟩, ?_⟩
  rw [hc.byParents, List.mem_filter]
  exact ⟨(hm _).mpr ⟨by simp, by simp, -421, by simp [CharmedMeson], by simp [partner]⟩, by simp⟩

/-- **C85**, deep inelastic scattering: the only listed final state has all of the cross section. -/
theorem C85_dis (kind : Int) (primaries targets : Finset Int) (X : Interface)
    (h : disCrossSection kind primaries targets = .ok X) (total : Signature → Res ℝ) (p t : Int) (hp : p ∈ primaries)
    (ht : t ∈ targets) :
    ∃ s, DisFinal kind s ∧ X.fromParents p t = [s] ∧ ∀ σ, total s = .ok σ → allFinalStates X total p t = .ok σ := by
  obtain ⟨hc, hm, h1, h2, _⟩ := C81_dis kind primaries targets X h
  have hk := ((C81_dis_accepts kind primaries targets).mp ⟨X, h⟩ p hp).2
  let s : Signature := ⟨p, t, if kind = 1 then [partner p, hadrons] else if kind = 2 then [p, hadrons] else [hadrons, hadrons]⟩
  have hs : DisFinal kind s := by
    rcases hk with rfl | rfl | rfl <;> simp [DisFinal, s]
  have huniq : ∀ s', s' ∈ X.fromParents p t ↔ s' = s := by
    intro s'
    rw [hc.byParents, List.mem_filter]
    constructor
    · rintro ⟨h1, h2⟩
      obtain ⟨_, _, h3⟩ := (hm s').mp h1
      obtain ⟨_, _, _⟩ := s'
      simp only [decide_eq_true_eq] at h2
      obtain ⟨rfl, rfl⟩ := h2
      simp only [DisFinal] at h3
      rcases h3 with ⟨rfl, rfl⟩ | ⟨rfl, rfl⟩ | ⟨rfl, rfl⟩ <;> simp [s]
    · rintro rfl
      exact ⟨(hm s).mpr ⟨hp, ht, hs⟩, by simp [s]⟩
  have hnodup : (X.fromParents p t).Nodup := by
    rw [hc.byParents]
    exact hc.once.filter _
  have hone : X.fromParents p t = [s] :=
    List.perm_singleton.mp ((List.perm_ext_iff_of_nodup hnodup (List.nodup_singleton s)).mpr (by simpa using huniq))
  refine ⟨s, hs, hone, fun σ hσ => ?_⟩
  unfold allFinalStates
  rw [hone, sumOver_ok _ _ (fun _ => σ) (by simpa using hσ)]
  simp

/-! ### Interaction collections -/

/-- **C86**, cross sections: the total cross section of a collection for one target is the sum over the cross sections that list
this target. -/
theorem C86_cross_sections {X D F : Type} (physics : Injection.Physics X D F) (crossSections : List X) (decays : List D)
    (once : ∀ x ∈ crossSections, (physics.possibleTargets x).Nodup) (total : X → Int → ℝ) (target : Int) :
    totalByTarget (Injection.Collection.make physics crossSections decays) total target =
      ((crossSections.filter fun x => target ∈ physics.possibleTargets x).map fun x => total x target).sum := by
  unfold totalByTarget
  rw [Injection.forTarget_make]
  have fold : ∀ (l : List X) (acc : ℝ), l.foldl (fun acc x => acc + total x target) acc = acc + (l.map fun x => total x target).sum := by
    intro l
    induction l with
    | nil => intro acc; simp
    | cons x l ih =>
      intro acc
      rw [List.foldl_cons, ih, List.map_cons, List.sum_cons, add_assoc]
  rw [fold, zero_add]
  congr 1
  induction crossSections with
  | nil => rfl
  | cons x l ih =>
    rw [List.flatMap_cons, List.map_append, ih (fun y hy => once y (List.mem_cons_of_mem _ hy))]
    have hx : (physics.possibleTargets x).filter (fun t => t = target) = if target ∈ physics.possibleTargets x then [target] else [] := by
      have hn := once x (List.mem_cons_self ..)
      generalize physics.possibleTargets x = ts at hn ⊢
      induction ts with
      | nil => rfl
      | cons t ts ih =>
        rw [List.nodup_cons] at hn
        rw [List.filter_cons, ih hn.2]
        by_cases ht : t = target
        · subst ht
          simp [hn.1]
        · have : target ≠ t := fun e => ht e.symm
          simp [ht, this]
    rw [hx, List.filter_cons]
    by_cases ht : target ∈ physics.possibleTargets x
    · simp [ht]
    · simp [ht]

/-- Two cross sections, one of them listing two targets. -/
example (physics : Injection.Physics Bool Unit Unit) (h0 : physics.possibleTargets false = [2212, 2112])
    (h1 : physics.possibleTargets true = [2112]) :
    totalByTarget (Injection.Collection.make physics [false, true] []) (fun x _ => if x then 3 else 4) 2112 = 7 ∧
    totalByTarget (Injection.Collection.make physics [false, true] []) (fun x _ => if x then 3 else 4) 2212 = 4 ∧
    totalByTarget (Injection.Collection.make physics [false, true] []) (fun x _ => if x then 3 else 4) 11 = 0 := by
  refine ⟨?_, ?_, ?_⟩ <;> rw [C86_cross_sections physics _ _ (by simp [h0, h1])] <;> (simp [h0, h1]; try norm_num)

theorem foldl_sum (l : List ℝ) (acc : ℝ) : l.foldl (fun acc w => acc + w) acc = acc + l.sum := by
  induction l generalizing acc with
  | nil => simp
  | cons x l ih => rw [List.foldl_cons, ih, List.sum_cons, add_assoc]

/-- **C86**, widths: the width of a collection is the sum over its decays. -/
theorem C86_width (widths : List ℝ) : collectionWidth widths = widths.sum := by
  unfold collectionWidth
  cases widths with
  | nil => rfl
  | cons w l => simp only [List.isEmpty_cons, Bool.false_eq_true, if_false, foldl_sum, zero_add]

/-- The decay length of a moving particle: momentum over mass times `ħc` over the width. -/
theorem decayLength_moving (p m width : ℝ) (hp : 0 < p) (hm : 0 < m) (hw : 0 ≤ width) :
    decayLength p m width = some (if width = 0 then ⊤ else ENNReal.ofReal (p / m * (hbarc / width))) := by
  have he : 0 < Real.sqrt (p ^ 2 + m ^ 2) := Real.sqrt_pos.mpr (by positivity)
  have hb : 0 < hbarc := by unfold hbarc; norm_num
  unfold decayLength
  simp only
  generalize Real.sqrt (p ^ 2 + m ^ 2) = e at he
  have h1 : ENNReal.ofReal (p / e) ≠ 0 := by simpa using div_pos hp he
  have h2 : ENNReal.ofReal (e / m) ≠ 0 := by simpa using div_pos he hm
  have h3 : ENNReal.ofReal hbarc ≠ 0 := by simpa using hb
  have h12 : ENNReal.ofReal (p / e) * ENNReal.ofReal (e / m) = ENNReal.ofReal (p / m) := by
    rw [← ENNReal.ofReal_mul (div_nonneg hp.le he.le)]
    congr 1
    field_simp
  have h4 : ENNReal.ofReal (p / m) ≠ 0 := by simpa using div_pos hp hm
  have e1 : Ext.mul (some (ENNReal.ofReal (p / e))) (some (ENNReal.ofReal (e / m))) = some (ENNReal.ofReal (p / m)) := by
    simp only [Ext.mul, h1, ENNReal.ofReal_ne_top, and_false, false_and, or_self, if_false, h12]
  rw [e1]
  by_cases hz : width = 0
  · subst hz
    simp [Ext.inv, Ext.mul, h4, h3]
  · have hw' : 0 < width := lt_of_le_of_ne hw (Ne.symm hz)
    have h5 : ENNReal.ofReal width ≠ 0 := by simpa using hw'
    have h6 : (ENNReal.ofReal width)⁻¹ ≠ ⊤ := by simpa using hw'
    have h7 : (ENNReal.ofReal width)⁻¹ = ENNReal.ofReal (width⁻¹) := (ENNReal.ofReal_inv_of_pos hw').symm
    simp only [Ext.inv, Option.map_some, Ext.mul, h4, h6, ENNReal.ofReal_ne_top, and_false, false_and, or_self, if_false, if_neg hz]
    rw [h7, ← ENNReal.ofReal_mul (by positivity)]
    have h8 : ENNReal.ofReal (p / m * width⁻¹) ≠ ⊤ := ENNReal.ofReal_ne_top
    simp only [h8, h3, and_false, or_self, if_false]
    rw [← ENNReal.ofReal_mul (by positivity)]
    congr 2
    field_simp

/-- **C86**, lengths of moving particles: the decay length of a collection is that of the sum of the widths of its decays, and
infinite if this sum is zero. -/
theorem C86_length (p m : ℝ) (hp : 0 < p) (hm : 0 < m) (widths : List ℝ) (hw : ∀ w ∈ widths, 0 ≤ w) :
    collectionLength (widths.map (decayLength p m)) =
      some (if widths.sum = 0 then ⊤ else ENNReal.ofReal (p / m * (hbarc / widths.sum))) := by
  have hb : 0 < hbarc := by unfold hbarc; norm_num
  have hk : 0 < m / (p * hbarc) := by positivity
  have hinv : ∀ w, 0 ≤ w → Ext.inv (decayLength p m w) = some (ENNReal.ofReal (w * (m / (p * hbarc)))) := by
    intro w h0
    rw [decayLength_moving p m w hp hm h0]
    by_cases hz : w = 0
    · simp [Ext.inv, hz]
    · have hpos : 0 < w := lt_of_le_of_ne h0 (Ne.symm hz)
      simp only [if_neg hz, Ext.inv, Option.map_some, Option.some.injEq]
      rw [← ENNReal.ofReal_inv_of_pos (by positivity)]
      congr 1
      field_simp
  have fold : ∀ (l : List ℝ) (acc : ℝ), 0 ≤ acc → (∀ w ∈ l, 0 ≤ w) →
      (l.map (decayLength p m)).foldl (fun acc l => Ext.add acc (Ext.inv l)) (some (ENNReal.ofReal acc)) =
        some (ENNReal.ofReal (acc + l.sum * (m / (p * hbarc)))) := by
    intro l
    induction l with
    | nil => intro acc _ _; simp
    | cons w l ih =>
      intro acc ha h
      have h0 := h w (List.mem_cons_self ..)
      rw [List.map_cons, List.foldl_cons, hinv w h0]
      have hadd : Ext.add (some (ENNReal.ofReal acc)) (some (ENNReal.ofReal (w * (m / (p * hbarc))))) =
          some (ENNReal.ofReal (acc + w * (m / (p * hbarc)))) := by
        simp only [Ext.add]
        rw [← ENNReal.ofReal_add ha (by positivity)]
      rw [hadd, ih _ (by positivity) (fun x hx => h x (List.mem_cons_of_mem _ hx)), List.sum_cons]
      congr 2
      ring
  unfold collectionLength
  by_cases he : widths = []
  · simp [he]
  · have hne : (widths.map (decayLength p m)).isEmpty = false := by simpa using he
    have h0 : (some 0 : Ext) = some (ENNReal.ofReal 0) := by simp
    simp only [hne, Bool.false_eq_true, if_false]
    rw [h0, fold widths 0 le_rfl hw, zero_add]
    have hs : 0 ≤ widths.sum := List.sum_nonneg hw
    by_cases hz : widths.sum = 0
    · simp [hz]
    · have hpos : 0 < widths.sum := lt_of_le_of_ne hs (Ne.symm hz)
      have hpos2 : 0 < widths.sum * (m / (p * hbarc)) := by positivity
      have hne0 : ¬ some (ENNReal.ofReal (widths.sum * (m / (p * hbarc)))) = (some (ENNReal.ofReal 0) : Ext) := by
        simpa using hpos2
      rw [if_neg hne0, if_neg hz]
      simp only [Ext.inv, Option.map_some, Option.some.injEq]
      rw [← ENNReal.ofReal_inv_of_pos hpos2]
      congr 1
      field_simp

/-- **C86**, particles at rest: the length is zero if every decay has a positive width. -/
theorem C86_rest (m : ℝ) (widths : List ℝ) (hne : widths ≠ []) (hw : ∀ w ∈ widths, 0 < w) :
    collectionLength (widths.map (decayLength 0 m)) = some 0 := by
  have hl : ∀ w, 0 < w → decayLength 0 m w = some 0 := by
    intro w h
    simp [decayLength, Ext.mul, Ext.inv, not_le.mpr h]
  have fold : ∀ (l : List ℝ) (acc : ENNReal), (∀ w ∈ l, 0 < w) → l ≠ [] ∨ acc = ⊤ →
      (l.map (decayLength 0 m)).foldl (fun acc l => Ext.add acc (Ext.inv l)) (some acc) = some ⊤ := by
    intro l
    induction l with
    | nil => intro acc _ h; simpa using h
    | cons w l ih =>
      intro acc h _
      rw [List.map_cons, List.foldl_cons, hl w (h w (List.mem_cons_self ..))]
      have hadd : Ext.add (some acc) (Ext.inv (some 0)) = some ⊤ := by simp [Ext.inv, Ext.add]
      rw [hadd]
      exact ih ⊤ (fun x hx => h x (List.mem_cons_of_mem _ hx)) (Or.inr rfl)
  unfold collectionLength
  have : (widths.map (decayLength 0 m)).isEmpty = false := by simpa using hne
  simp only [this, Bool.false_eq_true, if_false, fold widths 0 hw (Or.inl hne)]
  simp [Ext.inv]

/-- A particle at rest with one closed decay next to an open one: the length of the closed decay is zero times infinity, and the
length of the collection is not a number although the total width is positive. -/
theorem C86_rest_fails : ∃ widths : List ℝ, (∀ w ∈ widths, 0 ≤ w) ∧ 0 < collectionWidth widths ∧
    collectionLength (widths.map (decayLength 0 1)) = none := by
  refine ⟨[1, 0], by simp, by simp [collectionWidth], ?_⟩
  simp [collectionLength, decayLength, Ext.mul, Ext.inv, Ext.add]

/-- A kaon-like particle with two open decays and a closed one. -/
example : collectionLength ([2, 0, 3].map (decayLength 4 2)) = some (ENNReal.ofReal (2 * (hbarc / 5))) := by
  rw [C86_length 4 2 (by norm_num) (by norm_num) _ (by simp)]
  norm_num

end Siren.Signatures
