import Verif.Injection.ChannelModel
import Mathlib.MeasureTheory.Integral.Bochner.Basic
import Mathlib.MeasureTheory.Measure.Lebesgue.Basic

set_option autoImplicit false

/-!
# C10 and C15: channels are chosen in proportion to their rates, and the weighter knows it
-/

namespace Siren.Injection

open Siren Siren.Records

/-! ## Specification -/

/-- One way to interact: what interacts, the outcome's signature, and the rate per length. -/
structure Channel (X D : Type) where
  interaction : Selected X D
  signature : Signature
  rate : ℝ

section
variable {X D F : Type} (physics : Physics X D F)

/-- The scattering channels: one for each target present, each cross section for that target, and each signature it has for
this primary and target; its rate is the target's density times the cross section. -/
def scatterings (site : Site) (crossSections : List X) (primary : Int) : List (X × Signature × ℝ) :=
  site.available.flatMap fun target => crossSections.flatMap fun x =>
    ((physics.possibleTargets x).filter fun t => t = target).flatMap fun _ =>
      (physics.signaturesX x primary target).map fun s => (x, s, site.density target * physics.total x s (site.targetMass target))

/-- The decay channels; the rate is one over the decay length in centimetres. -/
noncomputable def decayings (cm : ℝ) (decays : List D) (primary : Int) : List (D × Signature × ℝ) :=
  decays.flatMap fun d => (physics.signaturesD d primary).map fun s =>
    (d, s, match physics.length d s with | some l => cm / l | none => 0)

/-- All channels open to a primary at a site. -/
noncomputable def channels (cm : ℝ) (site : Site) (crossSections : List X) (decays : List D) (primary : Int) : List (Channel X D) :=
  (scatterings physics site crossSections primary).map (fun c => ⟨.xsec c.1, c.2.1, c.2.2⟩) ++
  (decayings physics cm decays primary).map (fun c => ⟨.decay c.1, c.2.1, c.2.2⟩)

/-- The summed rate of some channels. -/
noncomputable def rateOf (cs : List (Channel X D)) : ℝ := (cs.map Channel.rate).sum

/-! ## The collection -/

theorem find_pushTarget (m : List (Int × List X)) (t target : Int) (x : X) :
    (match (pushTarget m t x).find? fun e => e.1 = target with
      | some e => e.2
      | none => []) =
    (match m.find? fun e => e.1 = target with
      | some e => e.2
      | none => []) ++ (if t = target then [x] else []) := by
  induction m with
  | nil =>
    by_cases h : t = target <;> simp [pushTarget, List.find?, h]
  | cons e rest ih =>
    obtain ⟨k, l⟩ := e
    unfold pushTarget
    by_cases hk : k = t
    · rw [if_pos hk]
      subst hk
      by_cases h : k = target
      · simp [List.find?, h]
      · simp [List.find?, h]
    · rw [if_neg hk]
      by_cases h : k = target
      · have : ¬ t = target := fun e => hk (h.trans e.symm)
        simp [List.find?, h, this]
      · simp only [List.find?, h, decide_false]
        exact ih

theorem forTarget_make (crossSections : List X) (decays : List D) (target : Int) :
    (Collection.make physics crossSections decays).forTarget target =
      crossSections.flatMap fun x => ((physics.possibleTargets x).filter fun t => t = target).map fun _ => x := by
  unfold Collection.forTarget Collection.make
  simp only
  have inner : ∀ (x : X) (ts : List Int) (m : List (Int × List X)),
      (match (ts.foldl (fun m t => pushTarget m t x) m).find? fun e => e.1 = target with
        | some e => e.2
        | none => []) =
      (match m.find? fun e => e.1 = target with
        | some e => e.2
        | none => []) ++ (ts.filter fun t => t = target).map fun _ => x := by
    intro x ts
    induction ts with
    | nil => intro m; simp
    | cons t ts ih =>
      intro m
      rw [List.foldl_cons, ih, find_pushTarget, List.append_assoc]
      by_cases h : t = target <;> simp [h]
  have outer : ∀ (xs : List X) (m : List (Int × List X)),
      (match (xs.foldl (fun m x => (physics.possibleTargets x).foldl (fun m t => pushTarget m t x) m) m).find? fun e => e.1 = target with
        | some e => e.2
        | none => []) =
      (match m.find? fun e => e.1 = target with
        | some e => e.2
        | none => []) ++ xs.flatMap fun x => ((physics.possibleTargets x).filter fun t => t = target).map fun _ => x := by
    intro xs
    induction xs with
    | nil => intro m; simp
    | cons x xs ih =>
      intro m
      rw [List.foldl_cons, ih, inner, List.flatMap_cons, List.append_assoc]
  exact outer crossSections []

theorem forTarget_none (crossSections : List X) (decays : List D) (target : Int)
    (h : target ∉ (Collection.make physics crossSections decays).targetTypes) :
    (Collection.make physics crossSections decays).forTarget target = [] := by
  rw [forTarget_make, List.flatMap_eq_nil_iff]
  intro x hx
  simp only [Collection.make, List.mem_flatMap, not_exists, not_and] at h
  simp only [List.map_eq_nil_iff, List.filter_eq_nil_iff, decide_eq_true_eq]
  intro t ht e
  subst e
  exact h x hx ht

/-! ## Gathering -/

/-- The effect of one scattering channel on the accumulators. -/
noncomputable def stepX (g : Gather X D) (c : Int × X × Signature × ℝ) : Gather X D :=
  { g with total := g.total + c.2.2.2, xsec := g.xsec + c.2.2.2, probs := g.probs ++ [g.total + c.2.2.2],
           targets := g.targets ++ [c.1], xsecs := g.xsecs ++ [c.2.1], signatures := g.signatures ++ [c.2.2.1] }

noncomputable def stepD (g : Gather X D) (c : D × Signature × ℝ) : Gather X D :=
  { g with total := g.total + c.2.2, probs := g.probs ++ [g.total + c.2.2], targets := g.targets ++ [decayTarget],
           decays := g.decays ++ [c.1], signatures := g.signatures ++ [c.2.1] }

/-- Scattering channels with the target they were found for. -/
def targeted (site : Site) (crossSections : List X) (primary : Int) : List (Int × X × Signature × ℝ) :=
  site.available.flatMap fun target => crossSections.flatMap fun x =>
    ((physics.possibleTargets x).filter fun t => t = target).flatMap fun _ =>
      (physics.signaturesX x primary target).map fun s =>
        (target, x, s, site.density target * physics.total x s (site.targetMass target))

theorem targeted_snd (site : Site) (crossSections : List X) (primary : Int) :
    (targeted physics site crossSections primary).map Prod.snd = scatterings physics site crossSections primary := by
  simp only [targeted, scatterings, List.map_flatMap, List.map_map]
  rfl

/-- Nested loops over the channels are one loop over the list of channels. -/
theorem loops {G : Type} (step : G → Int × X × Signature × ℝ → G) (site : Site) (crossSections : List X) (decays : List D)
    (primary : Int) (g : G) :
    site.available.foldl (fun g target =>
      if target ∈ (Collection.make physics crossSections decays).targetTypes then
        ((Collection.make physics crossSections decays).forTarget target).foldl (fun g x =>
          (physics.signaturesX x primary target).foldl (fun g s =>
            step g (target, x, s, site.density target * physics.total x s (site.targetMass target))) g) g
      else g) g = (targeted physics site crossSections primary).foldl step g := by
  unfold targeted
  rw [List.foldl_flatMap]
  congr 1
  funext g target
  have key : ((Collection.make physics crossSections decays).forTarget target).foldl (fun g x =>
      (physics.signaturesX x primary target).foldl (fun g s =>
        step g (target, x, s, site.density target * physics.total x s (site.targetMass target))) g) g =
      (crossSections.flatMap fun x => ((physics.possibleTargets x).filter fun t => t = target).flatMap fun _ =>
        (physics.signaturesX x primary target).map fun s =>
          (target, x, s, site.density target * physics.total x s (site.targetMass target))).foldl step g := by
    rw [forTarget_make, List.foldl_flatMap, List.foldl_flatMap]
    congr 1
    funext g x
    rw [List.foldl_map, List.foldl_flatMap]
    congr 1
    funext g _
    rw [List.foldl_map]
  split
  · exact key
  · rename_i h
    rw [← key, forTarget_none physics crossSections decays target h]
    rfl

theorem loops_decay {G : Type} (cm : ℝ) (step : G → D × Signature × ℝ → G) (decays : List D) (primary : Int) (g : G) :
    decays.foldl (fun g d => (physics.signaturesD d primary).foldl (fun g s => step g (d, s, decayRate physics cm d s)) g) g =
      (decayings physics cm decays primary).foldl step g := by
  unfold decayings
  rw [List.foldl_flatMap]
  congr 1
  funext g d
  rw [List.foldl_map]
  congr 1
  funext g s
  unfold decayRate
  congr 3
  cases physics.length d s with
  | none => rfl
  | some l => simp only [one_div_div]

theorem gather_eq (cm : ℝ) (site : Site) (crossSections : List X) (decays : List D) (primary : Int) :
    gather physics cm site (Collection.make physics crossSections decays) primary =
      (decayings physics cm decays primary).foldl stepD ((targeted physics site crossSections primary).foldl stepX {}) := by
  have hx : (if 0 < crossSections.length then
      (targeted physics site crossSections primary).foldl stepX ({} : Gather X D) else {}) =
      (targeted physics site crossSections primary).foldl stepX {} := by
    split
    · rfl
    · rename_i h
      have : crossSections = [] := by
        cases crossSections with
        | nil => rfl
        | cons => simp at h
      subst this
      have : targeted physics site ([] : List X) primary = [] := by
        unfold targeted; rw [List.flatMap_eq_nil_iff]; intro _ _; rfl
      rw [this, List.foldl_nil]
  have hd : ∀ g : Gather X D, (if 0 < decays.length then (decayings physics cm decays primary).foldl stepD g else g) =
      (decayings physics cm decays primary).foldl stepD g := by
    intro g
    split
    · rfl
    · rename_i h
      have : decays = [] := by
        cases decays with
        | nil => rfl
        | cons => simp at h
      subst this
      simp [decayings]
  rw [← hd, ← hx, ← loops physics stepX site crossSections decays primary, ← loops_decay physics cm stepD decays primary]
  rfl

/-- Partial sums. -/
noncomputable def partials (rates : List ℝ) : List ℝ := (List.range rates.length).map fun k => (rates.take (k + 1)).sum

theorem partials_snoc (rates : List ℝ) (w : ℝ) : partials (rates ++ [w]) = partials rates ++ [rates.sum + w] := by
  unfold partials
  rw [List.length_append, List.length_singleton, List.range_succ, List.map_append]
  congr 1
  · apply List.map_congr_left
    intro k hk
    rw [List.mem_range] at hk
    rw [List.take_append_of_le_length (by omega)]
  · simp

theorem foldX (l : List (Int × X × Signature × ℝ)) :
    l.foldl stepX ({} : Gather X D) =
      { total := (l.map fun c => c.2.2.2).sum, xsec := (l.map fun c => c.2.2.2).sum, probs := partials (l.map fun c => c.2.2.2),
        targets := l.map fun c => c.1, signatures := l.map fun c => c.2.2.1, xsecs := l.map fun c => c.2.1, decays := [] } := by
  induction l using List.reverseRecOn with
  | nil => simp [partials]
  | append_singleton l c ih =>
    rw [List.foldl_append, ih]
    simp [stepX, partials_snoc]

theorem foldD (x : List ℝ) (g : Gather X D) (ht : g.total = x.sum) (hp : g.probs = partials x) (l : List (D × Signature × ℝ)) :
    l.foldl stepD g =
      { g with
        total := (x ++ l.map fun c => c.2.2).sum
        probs := partials (x ++ l.map fun c => c.2.2)
        targets := g.targets ++ l.map fun _ => decayTarget
        signatures := g.signatures ++ l.map fun c => c.2.1
        decays := g.decays ++ l.map fun c => c.1 } := by
  induction l using List.reverseRecOn with
  | nil => obtain ⟨a, b, c, d, e, f, h⟩ := g; simp at ht hp; simp [ht, hp]
  | append_singleton l c ih =>
    rw [List.foldl_append, ih]
    simp only [stepD, List.foldl_cons, List.foldl_nil, List.map_append, List.map_cons, List.map_nil, ← List.append_assoc,
      partials_snoc]
    simp [add_assoc]

/-- What the loops of `SampleCrossSection` accumulate. -/
structure Gathered (g : Gather X D) (xs : List (X × Signature × ℝ)) (ds : List (D × Signature × ℝ)) : Prop where
  total : g.total = (xs.map (fun c => c.2.2) ++ ds.map fun c => c.2.2).sum
  xsec : g.xsec = (xs.map fun c => c.2.2).sum
  probs : g.probs = partials (xs.map (fun c => c.2.2) ++ ds.map fun c => c.2.2)
  signatures : g.signatures = xs.map (fun c => c.2.1) ++ ds.map fun c => c.2.1
  xsecs : g.xsecs = xs.map fun c => c.1
  decays : g.decays = ds.map fun c => c.1

theorem gathered (cm : ℝ) (site : Site) (crossSections : List X) (decays : List D) (primary : Int) :
    Gathered (gather physics cm site (Collection.make physics crossSections decays) primary)
      (scatterings physics site crossSections primary) (decayings physics cm decays primary) := by
  rw [gather_eq, foldX, foldD ((scatterings physics site crossSections primary).map fun c => c.2.2)]
  · have : ∀ {A : Type} (f : X × Signature × ℝ → A), (targeted physics site crossSections primary).map (fun c => f c.2) =
        (scatterings physics site crossSections primary).map f := by
      intro A f; rw [← targeted_snd, List.map_map]; rfl
    constructor
    · rfl
    · simp only [this (fun c => c.2.2)]
    · rfl
    · simp only [this (fun c => c.2.1)]
    · simp only [this (fun c => c.1)]
    · simp
  · rw [← targeted_snd, List.map_map]; rfl
  · rw [← targeted_snd, List.map_map]; rfl

/-! ## Choosing -/

theorem chooseIndex_spec (r : ℝ) : ∀ (probs : List ℝ), probs ≠ [] →
    chooseIndex r probs < probs.length ∧ (∀ j < chooseIndex r probs, probs.getD j 0 < r) ∧
    (chooseIndex r probs + 1 < probs.length → r ≤ probs.getD (chooseIndex r probs) 0)
  | [], h => absurd rfl h
  | [p], _ => by simp [chooseIndex]
  | p :: q :: rest, _ => by
    unfold chooseIndex
    split
    · rename_i hr
      obtain ⟨h1, h2, h3⟩ := chooseIndex_spec r (q :: rest) (by simp)
      refine ⟨by simpa using h1, ?_, ?_⟩
      · intro j hj
        cases j with
        | zero => simpa using hr
        | succ j => simpa using h2 j (by omega)
      · intro h
        simpa using h3 (by simpa using h)
    · rename_i hr
      refine ⟨by simp, by simp, ?_⟩
      intro _
      simpa using hr

theorem partials_length (rates : List ℝ) : (partials rates).length = rates.length := by simp [partials]

theorem partials_getD (rates : List ℝ) (k : Nat) (hk : k < rates.length) : (partials rates).getD k 0 = (rates.take (k + 1)).sum := by
  simp [partials, List.getD, List.getElem?_map, List.getElem?_range hk]

theorem increment_partials (rates : List ℝ) (k : Nat) (hk : k < rates.length) : increment (partials rates) k = rates[k] := by
  unfold increment
  cases k with
  | zero =>
    rw [if_neg (by simp), partials_getD _ _ hk]
    cases rates with
    | nil => simp at hk
    | cons => simp
  | succ k =>
    rw [if_pos (by simp), partials_getD _ _ hk, Nat.add_sub_cancel, partials_getD _ _ (by omega),
      List.sum_take_succ _ _ hk]
    ring

/-- The channel chosen for a positive draw: the draw lies in its interval of the cumulative rate. -/
theorem choose_interval (rates : List ℝ) (r : ℝ) (h0 : 0 < r) (hr : r ≤ rates.sum) :
    chooseIndex r (partials rates) < rates.length ∧
      (rates.take (chooseIndex r (partials rates))).sum < r ∧
      r ≤ (rates.take (chooseIndex r (partials rates) + 1)).sum := by
  have hne : partials rates ≠ [] := by
    intro h
    have := congrArg List.length h
    rw [partials_length, List.length_nil, List.length_eq_zero_iff] at this
    subst this
    simp at hr
    linarith
  obtain ⟨h1, h2, h3⟩ := chooseIndex_spec r _ hne
  rw [partials_length] at h1 h3
  refine ⟨h1, ?_, ?_⟩
  · rcases Nat.eq_zero_or_pos (chooseIndex r (partials rates)) with h | h
    · rw [h]; simpa using h0
    · have := h2 (chooseIndex r (partials rates) - 1) (by omega)
      rw [partials_getD _ _ (by omega)] at this
      rwa [Nat.sub_add_cancel h] at this
  · by_cases h : chooseIndex r (partials rates) + 1 < rates.length
    · have := h3 h
      rwa [partials_getD _ _ h1] at this
    · have : chooseIndex r (partials rates) + 1 = rates.length := by omega
      rw [this, List.take_length]
      exact hr

theorem sum_take_mono (rates : List ℝ) (h : ∀ w ∈ rates, 0 ≤ w) {i j : Nat} (hij : i ≤ j) :
    (rates.take i).sum ≤ (rates.take j).sum := by
  have hj := List.take_append_drop i (rates.take j)
  rw [List.take_take, min_eq_left hij] at hj
  rw [← hj, List.sum_append]
  have : 0 ≤ ((rates.take j).drop i).sum := by
    apply List.sum_nonneg
    intro w hw
    exact h w (List.mem_of_mem_take (List.mem_of_mem_drop hw))
  linarith

theorem take_succ_sum (rates : List ℝ) (k : Nat) (hk : k < rates.length) :
    (rates.take (k + 1)).sum = (rates.take k).sum + rates[k] := by
  exact List.sum_take_succ _ _ hk

/-- The outcome of `SampleCrossSection` in terms of the index chosen. -/
theorem sample_eq (cm : ℝ) (site : Site) (crossSections : List X) (decays : List D) (primary : Int) (u : ℝ)
    (hn : ∀ c ∈ channels physics cm site crossSections decays primary, 0 ≤ c.rate)
    (hu : u ≤ 1) (hu0 : 0 < u) (ht : 0 < rateOf (channels physics cm site crossSections decays primary)) :
    ∃ (k : Nat) (c : Channel X D), (channels physics cm site crossSections decays primary)[k]? = some c ∧
      rateOf ((channels physics cm site crossSections decays primary).take k) <
        u * rateOf (channels physics cm site crossSections decays primary) ∧
      u * rateOf (channels physics cm site crossSections decays primary) ≤
        rateOf ((channels physics cm site crossSections decays primary).take (k + 1)) ∧
      sampleCrossSection physics cm site (Collection.make physics crossSections decays) primary u =
        .ok (c.signature, site.targetMass c.signature.target, c.interaction) := by
  have hg := gathered physics cm site crossSections decays primary
  unfold sampleCrossSection
  simp only
  generalize gather physics cm site (Collection.make physics crossSections decays) primary = g at hg
  have hch : channels physics cm site crossSections decays primary =
    (scatterings physics site crossSections primary).map (fun c => ⟨.xsec c.1, c.2.1, c.2.2⟩) ++
    (decayings physics cm decays primary).map (fun c => ⟨.decay c.1, c.2.1, c.2.2⟩) := rfl
  generalize channels physics cm site crossSections decays primary = cs at *
  generalize scatterings physics site crossSections primary = xs at hg hch
  generalize decayings physics cm decays primary = ds at hg hch
  obtain ⟨h1, h2, h3, h4, h5, h6⟩ := hg
  have hrates : xs.map (fun c => c.2.2) ++ ds.map (fun c => c.2.2) = cs.map Channel.rate := by
    rw [hch]; simp [List.map_map, Function.comp_def]
  have hsigs : xs.map (fun c => c.2.1) ++ ds.map (fun c => c.2.1) = cs.map Channel.signature := by
    rw [hch]; simp [List.map_map, Function.comp_def]
  rw [hrates] at h1 h3
  rw [hsigs] at h4
  have hT : g.total = rateOf cs := h1
  rw [if_neg (by rw [hT]; exact ht.ne')]
  have hun : uniform 0 g.total u = u * rateOf cs := by
    rw [uniform, if_neg (by rw [hT]; exact not_lt.2 ht.le), hT]; ring
  rw [hun]
  have hr0 : 0 < u * rateOf cs := mul_pos hu0 ht
  have hr1 : u * rateOf cs ≤ rateOf cs := by nlinarith
  obtain ⟨hk, ha, hb⟩ := choose_interval (cs.map Channel.rate) (u * rateOf cs) hr0 hr1
  rw [← h3] at hk ha hb
  generalize chooseIndex (u * rateOf cs) g.probs = k at hk ha hb
  rw [List.length_map] at hk
  refine ⟨k, cs[k], List.getElem?_eq_getElem hk, ?_, ?_, ?_⟩
  · rw [show rateOf (cs.take k) = _ from congrArg List.sum List.map_take]; exact ha
  · rw [show rateOf (cs.take (k + 1)) = _ from congrArg List.sum List.map_take]; exact hb
  have hs : g.signatures[k]? = some cs[k].signature := by rw [h4, List.getElem?_map, List.getElem?_eq_getElem hk]; rfl
  rw [hs]
  simp only
  have hnn : ∀ w ∈ cs.map Channel.rate, 0 ≤ w := by
    intro w hw
    obtain ⟨c, hc, rfl⟩ := List.mem_map.1 hw
    exact hn c hc
  have hpos : 0 < (cs.map Channel.rate)[k]'(by simpa using hk) := by
    have := take_succ_sum (cs.map Channel.rate) k (by simpa using hk)
    linarith
  have hsel : ((List.range g.probs.length).map fun i =>
      if g.signatures[i]? = some cs[k].signature then increment g.probs i else 0).sum ≠ 0 := by
    apply ne_of_gt
    have hlen : g.probs.length = cs.length := by rw [h3, partials_length, List.length_map]
    have hterm : ∀ i ∈ List.range g.probs.length,
        0 ≤ (if g.signatures[i]? = some cs[k].signature then increment g.probs i else 0) := by
      intro i hi
      rw [List.mem_range, hlen] at hi
      split
      · rw [h3, increment_partials _ _ (by simpa using hi)]
        exact hnn _ (List.getElem_mem _)
      · exact le_refl 0
    have hmem : (cs.map Channel.rate)[k]'(by simpa using hk) ∈ (List.range g.probs.length).map fun i =>
      if g.signatures[i]? = some cs[k].signature then increment g.probs i else 0 := by
      rw [List.mem_map]
      refine ⟨k, by rw [List.mem_range, hlen]; exact hk, ?_⟩
      rw [if_pos hs, h3, increment_partials _ _ (by simpa using hk)]
    refine lt_of_lt_of_le hpos (List.single_le_sum ?_ _ hmem)
    intro w hw
    obtain ⟨i, hi, rfl⟩ := List.mem_map.1 hw
    exact hterm i hi
  rw [if_neg hsel]
  have hxlen : g.xsecs.length = xs.length := by rw [h5, List.length_map]
  have hxsum : g.xsec = ((cs.map Channel.rate).take xs.length).sum := by
    rw [h2, ← hrates, List.take_left' (by simp)]
  by_cases hx : k < xs.length
  · have hle : u * rateOf cs ≤ g.xsec := by
      rw [hxsum]
      exact hb.trans (sum_take_mono _ hnn (by omega))
    have hgx : g.xsecs[k]? = some xs[k].1 := by rw [h5, List.getElem?_map, List.getElem?_eq_getElem hx]; rfl
    have hc : cs[k] = ⟨.xsec xs[k].1, xs[k].2.1, xs[k].2.2⟩ := by
      have := hch
      subst this
      rw [List.getElem_append_left (by simpa using hx)]
      simp
    rw [if_pos hle, hgx, hc]
  · have hlt : ¬ u * rateOf cs ≤ g.xsec := by
      rw [hxsum, not_le]
      exact lt_of_le_of_lt (sum_take_mono _ hnn (by omega)) ha
    have hlen : cs.length = xs.length + ds.length := by rw [hch]; simp
    have hd : k - xs.length < ds.length := by omega
    have hgd : g.decays[k - g.xsecs.length]? = some ds[k - xs.length].1 := by
      rw [h6, hxlen, List.getElem?_map, List.getElem?_eq_getElem hd]; rfl
    have hc : cs[k] = ⟨.decay ds[k - xs.length].1, ds[k - xs.length].2.1, ds[k - xs.length].2.2⟩ := by
      have := hch
      subst this
      rw [List.getElem_append_right (by simpa using hx)]
      simp
    rw [if_neg hlt, if_neg (by rw [hxlen]; exact hx), hgd, hc]

/-! ## C10 -/

/-- C10. For every number of channels, all non-negative rates and every positive draw: exactly one channel's interval of the
cumulative rate contains the scaled draw, that channel has positive rate, and it is the one whose signature is stored and
whose cross section or decay samples the final state. -/
theorem C10_inverse_cdf (cm : ℝ) (site : Site) (crossSections : List X) (decays : List D) (primary : Int) (u : ℝ)
    (hn : ∀ c ∈ channels physics cm site crossSections decays primary, 0 ≤ c.rate)
    (hu0 : 0 < u) (hu : u < 1) (ht : 0 < rateOf (channels physics cm site crossSections decays primary)) :
    let cs := channels physics cm site crossSections decays primary
    ∃! k : Nat, ∃ c, cs[k]? = some c ∧ 0 < c.rate ∧
      rateOf (cs.take k) < u * rateOf cs ∧ u * rateOf cs ≤ rateOf (cs.take (k + 1)) ∧
      sampleCrossSection physics cm site (Collection.make physics crossSections decays) primary u =
        .ok (c.signature, site.targetMass c.signature.target, c.interaction) := by
  intro cs
  obtain ⟨k, c, hc, ha, hb, hs⟩ := sample_eq physics cm site crossSections decays primary u hn hu.le hu0 ht
  have hk : k < cs.length := (List.getElem?_eq_some_iff.1 hc).1
  have hsucc : rateOf (cs.take (k + 1)) = rateOf (cs.take k) + c.rate := by
    rw [rateOf, List.take_add_one, hc, rateOf]; simp
  refine ⟨k, ⟨c, hc, ?_, ha, hb, hs⟩, ?_⟩
  · have := lt_of_lt_of_le ha hb
    change rateOf (cs.take k) < rateOf (cs.take (k + 1)) at this
    linarith
  · rintro j ⟨d, -, -, ha', hb', -⟩
    have mono : ∀ i j, i ≤ j → rateOf (cs.take i) ≤ rateOf (cs.take j) := by
      intro i j hij
      rw [rateOf, rateOf, List.map_take, List.map_take]
      apply sum_take_mono _ _ hij
      intro w hw
      obtain ⟨c, hc, rfl⟩ := List.mem_map.1 hw
      exact hn c hc
    rcases lt_trichotomy j k with h | h | h
    · exact absurd (lt_of_lt_of_le ha (hb'.trans (mono (j + 1) k h))) (lt_irrefl _)
    · exact h
    · exact absurd (lt_of_lt_of_le ha' (hb.trans (mono (k + 1) j h))) (lt_irrefl _)

/-- C10. Without any rate, an injection failure is reported, whatever the draw. -/
theorem C10_no_rate (cm : ℝ) (site : Site) (crossSections : List X) (decays : List D) (primary : Int) (u : ℝ)
    (ht : rateOf (channels physics cm site crossSections decays primary) = 0) :
    sampleCrossSection physics cm site (Collection.make physics crossSections decays) primary u = .throws .injectionFailure := by
  have hg := (gathered physics cm site crossSections decays primary).total
  unfold sampleCrossSection
  simp only
  rw [if_pos]
  rw [hg, ← ht, rateOf, channels]
  simp [List.map_map, Function.comp_def]

/-- The channel whose interval contains `r`. -/
noncomputable def pick : List (Channel X D) → ℝ → Option (Channel X D)
  | [], _ => none
  | c :: cs, r => if r ≤ c.rate then some c else pick cs (r - c.rate)

theorem rateOf_cons (c : Channel X D) (cs : List (Channel X D)) : rateOf (c :: cs) = c.rate + rateOf cs := by simp [rateOf]

theorem rateOf_nonneg {cs : List (Channel X D)} (hn : ∀ c ∈ cs, 0 ≤ c.rate) : 0 ≤ rateOf cs := by
  apply List.sum_nonneg
  intro w hw
  obtain ⟨c, hc, rfl⟩ := List.mem_map.1 hw
  exact hn c hc

theorem pick_interval : ∀ (cs : List (Channel X D)), (∀ c ∈ cs, 0 ≤ c.rate) → ∀ (r : ℝ) (k : Nat) (c : Channel X D),
    cs[k]? = some c → rateOf (cs.take k) < r → r ≤ rateOf (cs.take (k + 1)) → pick cs r = some c
  | [], _, _, _, _, h, _, _ => by simp at h
  | d :: cs, hn, r, k, c, h, ha, hb => by
    unfold pick
    cases k with
    | zero =>
      simp only [List.getElem?_cons_zero, Option.some.injEq] at h
      subst h
      simp only [Nat.zero_add, List.take_succ_cons, List.take_zero, rateOf_cons] at hb
      simp only [rateOf, List.map_nil, List.sum_nil, add_zero] at hb
      rw [if_pos hb]
    | succ k =>
      simp only [List.getElem?_cons_succ] at h
      simp only [List.take_succ_cons, rateOf_cons] at ha hb
      have h0 : 0 ≤ rateOf (cs.take k) := rateOf_nonneg fun c hc => hn c (List.mem_cons_of_mem _ (List.mem_of_mem_take hc))
      rw [if_neg (by linarith)]
      exact pick_interval cs (fun c hc => hn c (List.mem_cons_of_mem _ hc)) _ k c h (by linarith) (by linarith)

open MeasureTheory in
open Classical in
theorem pick_volume : ∀ (cs : List (Channel X D)), (∀ c ∈ cs, 0 ≤ c.rate) → ∀ S : Channel X D → Prop,
    volume {r | 0 < r ∧ r ≤ rateOf cs ∧ ∃ c, pick cs r = some c ∧ S c} = ENNReal.ofReal (rateOf (cs.filter fun c => S c))
  | [], _, S => by simp [pick, rateOf]
  | d :: cs, hn, S => by
    have hd : 0 ≤ d.rate := hn d List.mem_cons_self
    have hcs : ∀ c ∈ cs, 0 ≤ c.rate := fun c hc => hn c (List.mem_cons_of_mem _ hc)
    have h0 : 0 ≤ rateOf cs := rateOf_nonneg hcs
    have hf0 : 0 ≤ rateOf (cs.filter fun c => S c) := rateOf_nonneg fun c hc => hcs c (List.mem_of_mem_filter hc)
    have hset : {r | 0 < r ∧ r ≤ rateOf (d :: cs) ∧ ∃ c, pick (d :: cs) r = some c ∧ S c} =
        {r | r ∈ Set.Ioc 0 d.rate ∧ S d} ∪
        (fun r => r - d.rate) ⁻¹' {r | 0 < r ∧ r ≤ rateOf cs ∧ ∃ c, pick cs r = some c ∧ S c} := by
      ext r
      simp only [Set.mem_ofPred_eq, Set.mem_union, Set.mem_preimage, Set.mem_Ioc, rateOf_cons, pick]
      by_cases hr : r ≤ d.rate
      · rw [if_pos hr]
        constructor
        · rintro ⟨h1, -, c, h2, h3⟩
          cases h2
          exact .inl ⟨⟨h1, hr⟩, h3⟩
        · rintro (⟨⟨h1, -⟩, h3⟩ | ⟨h1, -⟩)
          · exact ⟨h1, by linarith, d, rfl, h3⟩
          · linarith
      · rw [if_neg hr]
        constructor
        · rintro ⟨h1, h2, h3⟩
          exact .inr ⟨by linarith [not_le.1 hr], by linarith, h3⟩
        · rintro (⟨⟨-, h⟩, -⟩ | ⟨h1, h2, h3⟩)
          · exact absurd h hr
          · exact ⟨by linarith, by linarith, h3⟩
    have hm : MeasurableSet {r : ℝ | r ∈ Set.Ioc 0 d.rate ∧ S d} := by
      by_cases h : S d
      · simp only [h, and_true]; exact measurableSet_Ioc
      · simp [h]
    have hv : volume {r : ℝ | r ∈ Set.Ioc 0 d.rate ∧ S d} = ENNReal.ofReal (if S d then d.rate else 0) := by
      by_cases h : S d
      · simp only [h, and_true, if_true]
        rw [show {r : ℝ | r ∈ Set.Ioc 0 d.rate} = Set.Ioc 0 d.rate from rfl, Real.volume_Ioc, sub_zero]
      · simp [h]
    have hdisj : Disjoint {r : ℝ | r ∈ Set.Ioc 0 d.rate ∧ S d}
        ((fun r => r - d.rate) ⁻¹' {r | 0 < r ∧ r ≤ rateOf cs ∧ ∃ c, pick cs r = some c ∧ S c}) := by
      rw [Set.disjoint_left]
      rintro r ⟨⟨-, h1⟩, -⟩ ⟨h2, -⟩
      linarith
    have htrans : volume ((fun r => r - d.rate) ⁻¹' {r | 0 < r ∧ r ≤ rateOf cs ∧ ∃ c, pick cs r = some c ∧ S c}) =
        volume {r | 0 < r ∧ r ≤ rateOf cs ∧ ∃ c, pick cs r = some c ∧ S c} := by
      simp only [sub_eq_add_neg]
      exact measure_preimage_add_right _ _ _
    rw [hset, measure_union' hdisj hm, hv, htrans, pick_volume cs hcs S, List.filter_cons]
    by_cases h : S d
    · rw [if_pos h, if_pos (by simpa using h), rateOf_cons, ENNReal.ofReal_add hd hf0]
    · rw [if_neg h, if_neg (by simpa using h)]
      simp

/-- The outcome of choosing a channel. -/
def Channel.outcome (site : Site) (c : Channel X D) : Signature × ℝ × Selected X D :=
  (c.signature, site.targetMass c.signature.target, c.interaction)

open MeasureTheory in
open Classical in
/-- C10. With a uniform draw from `[0, 1)`, the probability of any set of outcomes is the share of the channels with these
outcomes in the total rate. -/
theorem C10_probability (cm : ℝ) (site : Site) (crossSections : List X) (decays : List D) (primary : Int)
    (hn : ∀ c ∈ channels physics cm site crossSections decays primary, 0 ≤ c.rate)
    (ht : 0 < rateOf (channels physics cm site crossSections decays primary))
    (S : Signature × ℝ × Selected X D → Prop) :
    let cs := channels physics cm site crossSections decays primary
    volume {u | u ∈ Set.Ico 0 1 ∧ ∃ o,
        sampleCrossSection physics cm site (Collection.make physics crossSections decays) primary u = .ok o ∧ S o} =
      ENNReal.ofReal (rateOf (cs.filter fun c => S (c.outcome site)) / rateOf cs) := by
  intro cs
  have h1 : volume {u | u ∈ Set.Ico (0 : ℝ) 1 ∧ ∃ o,
        sampleCrossSection physics cm site (Collection.make physics crossSections decays) primary u = .ok o ∧ S o} =
      volume {u | u ∈ Set.Ioc (0 : ℝ) 1 ∧ ∃ o,
        sampleCrossSection physics cm site (Collection.make physics crossSections decays) primary u = .ok o ∧ S o} := by
    apply measure_congr
    exact (Ico_ae_eq_Ioc (μ := volume) (a := (0 : ℝ)) (b := 1)).inter (ae_eq_refl {u | ∃ o,
        sampleCrossSection physics cm site (Collection.make physics crossSections decays) primary u = .ok o ∧ S o})
  have h2 : {u | u ∈ Set.Ioc (0 : ℝ) 1 ∧ ∃ o,
        sampleCrossSection physics cm site (Collection.make physics crossSections decays) primary u = .ok o ∧ S o} =
      (fun u => u * rateOf cs) ⁻¹' {r | 0 < r ∧ r ≤ rateOf cs ∧ ∃ c, pick cs r = some c ∧ S (c.outcome site)} := by
    ext u
    simp only [Set.mem_ofPred_eq, Set.mem_preimage, Set.mem_Ioc]
    have e1 : 0 < u * rateOf cs ↔ 0 < u := ⟨fun h => (mul_pos_iff_of_pos_right ht).1 h, fun h => mul_pos h ht⟩
    have e2 : u * rateOf cs ≤ rateOf cs ↔ u ≤ 1 :=
      ⟨fun h => le_of_mul_le_mul_right (by rwa [one_mul]) ht, fun h => by nlinarith⟩
    rw [e1, e2]
    constructor
    · rintro ⟨⟨hu0, hu⟩, o, ho, hS⟩
      obtain ⟨k, c, hc, ha, hb, hs⟩ := sample_eq physics cm site crossSections decays primary u hn hu hu0 ht
      rw [hs] at ho
      cases ho
      exact ⟨hu0, hu, c, pick_interval cs hn _ k c hc ha hb, hS⟩
    · rintro ⟨hu0, hu, c, hp, hS⟩
      obtain ⟨k, d, hd, ha, hb, hs⟩ := sample_eq physics cm site crossSections decays primary u hn hu hu0 ht
      have := pick_interval cs hn _ k d hd ha hb
      rw [this] at hp
      cases hp
      exact ⟨⟨hu0, hu⟩, _, hs, hS⟩
  rw [h1, h2, Real.volume_preimage_mul_right ht.ne', pick_volume cs hn, ← ENNReal.ofReal_mul (abs_nonneg _),
    abs_of_pos (inv_pos.2 ht), div_eq_inv_mul]

/-! ## C15 -/

/-- The density of final states of a channel. -/
def Channel.final (c : Channel X D) : F → ℝ :=
  match c.interaction with
  | .xsec x => physics.finalX x c.signature
  | .decay d => physics.finalD d c.signature

theorem signature_eq (a b : Signature) : Signature.eq a b = true ↔ a = b := by
  obtain ⟨a1, a2, a3⟩ := a
  obtain ⟨b1, b2, b3⟩ := b
  simp [Signature.eq, and_assoc]

/-- What the weighter computes: the rate-weighted density of the channels with this signature, over the total rate. -/
theorem crossSectionProbability_eq (cm : ℝ) (site : Site) (crossSections : List X) (decays : List D) (primary : Int)
    (signature : Signature) (final : F) :
    crossSectionProbability physics cm site (Collection.make physics crossSections decays) primary signature final =
      (((channels physics cm site crossSections decays primary).filter fun c => c.signature = signature).map fun c =>
        c.rate * c.final physics final).sum / rateOf (channels physics cm site crossSections decays primary) := by
  let stepd : ℝ × ℝ → D × Signature × ℝ → ℝ × ℝ := fun acc c =>
    (acc.1 + c.2.2, if Signature.eq c.2.1 signature then acc.2 + c.2.2 * physics.finalD c.1 signature final else acc.2)
  let stepx : ℝ × ℝ → Int × X × Signature × ℝ → ℝ × ℝ := fun acc c =>
    (acc.1 + c.2.2.2, if Signature.eq c.2.2.1 signature then acc.2 + c.2.2.2 * physics.finalX c.2.1 signature final else acc.2)
  have hd : ∀ (l : List (D × Signature × ℝ)) (acc : ℝ × ℝ), l.foldl stepd acc =
      (acc.1 + rateOf (l.map fun c => (⟨.decay c.1, c.2.1, c.2.2⟩ : Channel X D)),
       acc.2 + (((l.map fun c => (⟨.decay c.1, c.2.1, c.2.2⟩ : Channel X D)).filter fun c => c.signature = signature).map fun c =>
        c.rate * c.final physics final).sum) := by
    intro l
    induction l with
    | nil => intro acc; simp [rateOf]
    | cons c l ih =>
      intro acc
      rw [List.foldl_cons, ih, List.map_cons, rateOf_cons, List.filter_cons]
      by_cases h : c.2.1 = signature
      · have h' : Signature.eq c.2.1 signature = true := (signature_eq _ _).2 h
        rw [if_pos (by simpa using h), List.map_cons, List.sum_cons]
        simp only [stepd, h', if_true]
        ext
        · simp only; ring
        · simp only [Channel.final, h]; ring
      · have h' : Signature.eq c.2.1 signature = false := by
          rw [Bool.eq_false_iff]; exact fun e => h ((signature_eq _ _).1 e)
        simp only [stepd, h', h, decide_false, Bool.false_eq_true, if_false]
        ext
        · simp only; ring
        · rfl
  have hx : ∀ (l : List (Int × X × Signature × ℝ)) (acc : ℝ × ℝ), l.foldl stepx acc =
      (acc.1 + rateOf (l.map fun c => (⟨.xsec c.2.1, c.2.2.1, c.2.2.2⟩ : Channel X D)),
       acc.2 + (((l.map fun c => (⟨.xsec c.2.1, c.2.2.1, c.2.2.2⟩ : Channel X D)).filter fun c => c.signature = signature).map
        fun c => c.rate * c.final physics final).sum) := by
    intro l
    induction l with
    | nil => intro acc; simp [rateOf]
    | cons c l ih =>
      intro acc
      rw [List.foldl_cons, ih, List.map_cons, rateOf_cons, List.filter_cons]
      by_cases h : c.2.2.1 = signature
      · have h' : Signature.eq c.2.2.1 signature = true := (signature_eq _ _).2 h
        rw [if_pos (by simpa using h), List.map_cons, List.sum_cons]
        simp only [stepx, h', if_true]
        ext
        · simp only; ring
        · simp only [Channel.final, h]; ring
      · have h' : Signature.eq c.2.2.1 signature = false := by
          rw [Bool.eq_false_iff]; exact fun e => h ((signature_eq _ _).1 e)
        simp only [stepx, h', h, decide_false, Bool.false_eq_true, if_false]
        ext
        · simp only; ring
        · rfl
  have key : crossSectionProbability physics cm site (Collection.make physics crossSections decays) primary signature final =
      let acc := (targeted physics site crossSections primary).foldl stepx ((decayings physics cm decays primary).foldl stepd (0, 0))
      if acc.1 = 0 then 0 else acc.2 / acc.1 := by
    unfold crossSectionProbability
    rw [← loops_decay physics cm stepd decays primary, ← loops physics stepx site crossSections decays primary]
    rfl
  have ht : (targeted physics site crossSections primary).map (fun c => (⟨.xsec c.2.1, c.2.2.1, c.2.2.2⟩ : Channel X D)) =
      (scatterings physics site crossSections primary).map (fun c => ⟨.xsec c.1, c.2.1, c.2.2⟩) := by
    rw [← targeted_snd, List.map_map]; rfl
  rw [key]
  simp only [hd, hx, ht, zero_add]
  have hr : rateOf ((decayings physics cm decays primary).map fun c => (⟨.decay c.1, c.2.1, c.2.2⟩ : Channel X D)) +
      rateOf ((scatterings physics site crossSections primary).map fun c => (⟨.xsec c.1, c.2.1, c.2.2⟩ : Channel X D)) =
      rateOf (channels physics cm site crossSections decays primary) := by
    simp only [channels, rateOf, List.map_append, List.sum_append]; ring
  rw [hr]
  split
  · rename_i h; rw [h, div_zero]
  · congr 1
    rw [channels, List.filter_append, List.map_append, List.sum_append]
    ring

open MeasureTheory in
/-- C15. For final-state densities that are normalized, the weighter's probability of a signature, integrated over final
states, is the probability with which the injector chooses that signature. -/
theorem C15_agrees_with_injector [MeasurableSpace F] (μ : Signature → Measure F) (cm : ℝ) (site : Site) (crossSections : List X)
    (decays : List D) (primary : Int)
    (hn : ∀ c ∈ channels physics cm site crossSections decays primary, 0 ≤ c.rate)
    (ht : 0 < rateOf (channels physics cm site crossSections decays primary))
    (hi : ∀ c ∈ channels physics cm site crossSections decays primary, Integrable (c.final physics) (μ c.signature))
    (h1 : ∀ c ∈ channels physics cm site crossSections decays primary, ∫ f, c.final physics f ∂μ c.signature = 1)
    (signature : Signature) :
    let collection := Collection.make physics crossSections decays
    volume {u | u ∈ Set.Ico 0 1 ∧ ∃ o, sampleCrossSection physics cm site collection primary u = .ok o ∧ o.1 = signature} =
      ENNReal.ofReal (∫ f, crossSectionProbability physics cm site collection primary signature f ∂μ signature) := by
  intro collection
  rw [C10_probability physics cm site crossSections decays primary hn ht fun o => o.1 = signature]
  congr 1
  simp only [collection, crossSectionProbability_eq]
  rw [integral_div]
  congr 1
  have hsum : ∀ l : List (Channel X D), (∀ c ∈ l, c.signature = signature ∧ Integrable (c.final physics) (μ c.signature) ∧
      ∫ f, c.final physics f ∂μ c.signature = 1) →
      Integrable (fun f => (l.map fun c => c.rate * c.final physics f).sum) (μ signature) ∧
      ∫ f, (l.map fun c => c.rate * c.final physics f).sum ∂μ signature = rateOf l := by
    intro l
    induction l with
    | nil => intro _; simp [rateOf]
    | cons c l ih =>
      intro h
      obtain ⟨hs, hi, h1⟩ := h c List.mem_cons_self
      rw [hs] at hi h1
      obtain ⟨ih1, ih2⟩ := ih fun c hc => h c (List.mem_cons_of_mem _ hc)
      simp only [List.map_cons, List.sum_cons]
      refine ⟨(hi.const_mul _).add ih1, ?_⟩
      rw [integral_add (hi.const_mul _) ih1, ih2, integral_const_mul, h1, mul_one, rateOf_cons]
  rw [(hsum _ ?_).2]
  · congr 1
    apply List.filter_congr
    intro c _
    exact decide_eq_decide.2 Iff.rfl
  · intro c hc
    rw [List.mem_filter] at hc
    exact ⟨by simpa using hc.2, hi c hc.1, h1 c hc.1⟩

open MeasureTheory in
/-- C15. The weighter's probabilities of the possible signatures, integrated over final states, sum to one. -/
theorem C15_sum_to_one [MeasurableSpace F] (μ : Signature → Measure F) (cm : ℝ) (site : Site) (crossSections : List X)
    (decays : List D) (primary : Int)
    (ht : 0 < rateOf (channels physics cm site crossSections decays primary))
    (hi : ∀ c ∈ channels physics cm site crossSections decays primary, Integrable (c.final physics) (μ c.signature))
    (h1 : ∀ c ∈ channels physics cm site crossSections decays primary, ∫ f, c.final physics f ∂μ c.signature = 1)
    (signatures : Finset Signature)
    (hs : ∀ c ∈ channels physics cm site crossSections decays primary, c.signature ∈ signatures) :
    ∑ signature ∈ signatures,
      ∫ f, crossSectionProbability physics cm site (Collection.make physics crossSections decays) primary signature f ∂μ signature = 1 := by
  simp only [crossSectionProbability_eq, integral_div]
  rw [← Finset.sum_div, div_eq_one_iff_eq ht.ne']
  generalize channels physics cm site crossSections decays primary = cs at *
  clear ht
  have hint : ∀ (l : List (Channel X D)) (signature : Signature), (∀ c ∈ l, c.signature = signature ∧
      Integrable (c.final physics) (μ c.signature)) →
      Integrable (fun f => (l.map fun c => c.rate * c.final physics f).sum) (μ signature) := by
    intro l signature
    induction l with
    | nil => intro _; simp
    | cons c l ih =>
      intro h
      obtain ⟨hs, hi⟩ := h c List.mem_cons_self
      rw [hs] at hi
      simp only [List.map_cons, List.sum_cons]
      exact (hi.const_mul _).add (ih fun c hc => h c (List.mem_cons_of_mem _ hc))
  induction cs with
  | nil => simp [rateOf]
  | cons c cs ih =>
    have ih := ih (fun c hc => hi c (List.mem_cons_of_mem _ hc)) (fun c hc => h1 c (List.mem_cons_of_mem _ hc))
      (fun c hc => hs c (List.mem_cons_of_mem _ hc))
    rw [rateOf_cons, ← ih, ← Finset.sum_erase_add _ _ (hs c List.mem_cons_self),
      ← Finset.sum_erase_add signatures (fun signature => ∫ f, ((cs.filter fun c => c.signature = signature).map fun c =>
        c.rate * c.final physics f).sum ∂μ signature) (hs c List.mem_cons_self)]
    have hrest : ∑ x ∈ signatures.erase c.signature, ∫ f, (((c :: cs).filter fun d => d.signature = x).map fun d =>
        d.rate * d.final physics f).sum ∂μ x =
        ∑ x ∈ signatures.erase c.signature, ∫ f, ((cs.filter fun d => d.signature = x).map fun d =>
        d.rate * d.final physics f).sum ∂μ x := by
      apply Finset.sum_congr rfl
      intro x hx
      have : c.signature ≠ x := (Finset.ne_of_mem_erase hx).symm
      rw [List.filter_cons, if_neg (by simpa using this)]
    have hcs : Integrable (fun f => ((cs.filter fun d => d.signature = c.signature).map fun d =>
        d.rate * d.final physics f).sum) (μ c.signature) := by
      apply hint
      intro d hd
      rw [List.mem_filter] at hd
      exact ⟨by simpa using hd.2, hi d (List.mem_cons_of_mem _ hd.1)⟩
    have hself : ∫ f, (((c :: cs).filter fun d => d.signature = c.signature).map fun d =>
        d.rate * d.final physics f).sum ∂μ c.signature =
        c.rate + ∫ f, ((cs.filter fun d => d.signature = c.signature).map fun d => d.rate * d.final physics f).sum ∂μ c.signature := by
      rw [List.filter_cons, if_pos (by simp)]
      simp only [List.map_cons, List.sum_cons]
      rw [integral_add ((hi c List.mem_cons_self).const_mul _) hcs, integral_const_mul, h1 c List.mem_cons_self, mul_one]
    rw [hrest, hself]
    ring

/-- C15. With no rate at all the weighter's probability is zero. -/
theorem C15_no_rate (cm : ℝ) (site : Site) (crossSections : List X) (decays : List D) (primary : Int) (signature : Signature)
    (final : F) (ht : rateOf (channels physics cm site crossSections decays primary) = 0) :
    crossSectionProbability physics cm site (Collection.make physics crossSections decays) primary signature final = 0 := by
  rw [crossSectionProbability_eq, ht, div_zero]

end

/-! ## Examples -/

/-- A cross section on oxygen with one signature, and a decay with one signature. -/
def examplePhysics : Physics Unit Unit Unit where
  possibleTargets _ := [1000080160]
  signaturesX _ primary target := [⟨primary, target, [13]⟩]
  total _ _ _ := 2
  finalX _ _ _ := 1
  signaturesD _ primary := [⟨primary, decayTarget, [22, 12]⟩]
  length _ _ := some 1
  finalD _ _ _ := 1

def exampleSite : Site where
  available := [1000010010, 1000080160]
  density _ := 3
  targetMass _ := 15

theorem example_channels : channels examplePhysics 1 exampleSite [()] [()] 14 =
    [⟨.xsec (), ⟨14, 1000080160, [13]⟩, 6⟩, ⟨.decay (), ⟨14, decayTarget, [22, 12]⟩, 1⟩] := by
  norm_num [channels, scatterings, decayings, examplePhysics, exampleSite]

example : (∀ c ∈ channels examplePhysics 1 exampleSite [()] [()] 14, 0 ≤ c.rate) ∧
    0 < rateOf (channels examplePhysics 1 exampleSite [()] [()] 14) := by
  rw [example_channels]
  norm_num [rateOf]

open MeasureTheory in
/-- One draw in seven chooses the decay. -/
example : volume {u | u ∈ Set.Ico 0 1 ∧ ∃ o, sampleCrossSection examplePhysics 1 exampleSite
      (Collection.make examplePhysics [()] [()]) 14 u = .ok o ∧ o.1 = ⟨14, decayTarget, [22, 12]⟩} = ENNReal.ofReal (1 / 7) := by
  rw [C10_probability examplePhysics 1 exampleSite [()] [()] 14 (by rw [example_channels]; norm_num)
    (by rw [example_channels]; norm_num [rateOf]) fun o => o.1 = ⟨14, decayTarget, [22, 12]⟩, example_channels]
  norm_num [rateOf, Channel.outcome, List.filter_cons, decayTarget]

open MeasureTheory in
/-- The hypotheses of the theorems for C15 hold for a space of one final state. -/
example : ∀ c ∈ channels examplePhysics 1 exampleSite [()] [()] 14,
    Integrable (c.final examplePhysics) (Measure.dirac ()) ∧ ∫ f, c.final examplePhysics f ∂Measure.dirac () = 1 := by
  rw [example_channels]
  intro c hc
  have : c.final examplePhysics = fun _ => 1 := by
    simp only [List.mem_cons, List.not_mem_nil, or_false] at hc
    rcases hc with rfl | rfl <;> rfl
  rw [this]
  simp

/-- C10 excludes a draw of exactly zero: with decays only, it makes the code index the empty list of cross sections. -/
theorem C10_zero_draw_fails : ∃ (physics : Physics Unit Unit Unit) (cm : ℝ) (site : Site) (primary : Int),
    (∀ c ∈ channels physics cm site [] [()] primary, 0 < c.rate) ∧ 0 < rateOf (channels physics cm site [] [()] primary) ∧
    sampleCrossSection physics cm site (Collection.make physics [] [()]) primary 0 = .ub := by
  refine ⟨examplePhysics, 1, exampleSite, 14, ?_, ?_, ?_⟩
  · norm_num [channels, scatterings, decayings, examplePhysics, exampleSite]
  · norm_num [channels, scatterings, decayings, examplePhysics, exampleSite, rateOf]
  · have hg : gather examplePhysics 1 exampleSite (Collection.make examplePhysics [] [()]) 14 =
        ⟨1, 0, [1], [decayTarget], [⟨14, decayTarget, [22, 12]⟩], [], [()]⟩ := by
      norm_num [gather, Collection.make, Gather.pushD, decayRate, examplePhysics]
    norm_num [sampleCrossSection, hg, uniform, chooseIndex, increment]

end Siren.Injection
