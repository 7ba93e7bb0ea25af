import Verif.Geometry.Walk
import Mathlib.Data.List.Sort
import Mathlib.Topology.Order.IntermediateValue
import Mathlib.Topology.Algebra.Order.LiminfLimsup
import Mathlib.Topology.Instances.Real.Lemmas

set_option autoImplicit false

/-!
# From the behaviour at each crossing to the whole line

A list of crossings describes a set of line parameters if the set changes in the stated way at every listed crossing, does
not change anywhere else, and starts and ends in the right state. This is the argument used for the shapes whose surface is
made of several pieces (cylinders, wedges, cones, ...).
-/

namespace Siren.Geometry

open Siren Filter Topology

/-- The set `S` of line parameters changes at `t`: it is `flag` right after `t` and the opposite right before. -/
structure Flips (S : ℝ → Prop) (t : ℝ) (flag : Bool) : Prop where
  before : ∀ᶠ u in 𝓝[<] t, (S u ↔ flag = false)
  after : ∀ᶠ u in 𝓝[>] t, (S u ↔ flag = true)

/-- The set `S` does not change at `t`. -/
def Steady (S : ℝ → Prop) (t : ℝ) : Prop := (∀ᶠ u in 𝓝 t, S u) ∨ (∀ᶠ u in 𝓝 t, ¬ S u)

/-! ### Combining -/

theorem Flips.congr {S T : ℝ → Prop} {t : ℝ} {b : Bool} (h : Flips S t b) (e : ∀ᶠ u in 𝓝 t, (S u ↔ T u)) : Flips T t b := by
  refine ⟨?_, ?_⟩
  · filter_upwards [h.before, nhdsWithin_le_nhds e] with u h1 h2
    rw [← h2, h1]
  · filter_upwards [h.after, nhdsWithin_le_nhds e] with u h1 h2
    rw [← h2, h1]

theorem Flips.and {S T : ℝ → Prop} {t : ℝ} {b : Bool} (h : Flips S t b) (e : ∀ᶠ u in 𝓝 t, T u) :
    Flips (fun u => S u ∧ T u) t b :=
  h.congr (e.mono fun u hu => by simp [hu])

theorem Flips.and' {S T : ℝ → Prop} {t : ℝ} {b : Bool} (h : Flips S t b) (e : ∀ᶠ u in 𝓝 t, T u) :
    Flips (fun u => T u ∧ S u) t b :=
  h.congr (e.mono fun u hu => by simp [hu])

theorem Flips.or {S T : ℝ → Prop} {t : ℝ} {b : Bool} (h : Flips S t b) (e : ∀ᶠ u in 𝓝 t, ¬ T u) :
    Flips (fun u => S u ∨ T u) t b :=
  h.congr (e.mono fun u hu => by simp [hu])

theorem Flips.or' {S T : ℝ → Prop} {t : ℝ} {b : Bool} (h : Flips S t b) (e : ∀ᶠ u in 𝓝 t, ¬ T u) :
    Flips (fun u => T u ∨ S u) t b :=
  h.congr (e.mono fun u hu => by simp [hu])

theorem Flips.not {S : ℝ → Prop} {t : ℝ} {b : Bool} (h : Flips S t b) : Flips (fun u => ¬ S u) t (!b) := by
  refine ⟨?_, ?_⟩
  · filter_upwards [h.before] with u h1
    rw [h1]; cases b <;> simp
  · filter_upwards [h.after] with u h1
    rw [h1]; cases b <;> simp

theorem Steady.of_congr {S T : ℝ → Prop} {t : ℝ} (h : Steady S t) (e : ∀ᶠ u in 𝓝 t, (S u ↔ T u)) : Steady T t := by
  rcases h with h | h
  · left; filter_upwards [h, e] with u h1 h2; exact h2.1 h1
  · right; filter_upwards [h, e] with u h1 h2; exact fun h3 => h1 (h2.2 h3)

theorem Steady.and {S T : ℝ → Prop} {t : ℝ} (h : Steady S t) (h' : Steady T t) : Steady (fun u => S u ∧ T u) t := by
  rcases h with h | h
  · rcases h' with h' | h'
    · left; exact h.and h'
    · right; exact h'.mono fun u hu hc => hu hc.2
  · right; exact h.mono fun u hu hc => hu hc.1

theorem Steady.or {S T : ℝ → Prop} {t : ℝ} (h : Steady S t) (h' : Steady T t) : Steady (fun u => S u ∨ T u) t := by
  rcases h with h | h
  · left; exact h.mono fun u hu => Or.inl hu
  · rcases h' with h' | h'
    · left; exact h'.mono fun u hu => Or.inr hu
    · right; filter_upwards [h, h'] with u h1 h2; exact fun hc => hc.elim h1 h2

theorem Steady.not {S : ℝ → Prop} {t : ℝ} (h : Steady S t) : Steady (fun u => ¬ S u) t := by
  rcases h with h | h
  · right; exact h.mono fun u hu hc => hc hu
  · left; exact h

theorem steady_false {S : ℝ → Prop} {t : ℝ} (h : ∀ᶠ u in 𝓝 t, ¬ S u) : Steady S t := Or.inr h

/-! ### Signs of functions -/

theorem eventually_neg {f : ℝ → ℝ} {t : ℝ} (hf : ContinuousAt f t) (h : f t < 0) : ∀ᶠ u in 𝓝 t, f u < 0 :=
  hf.eventually_lt continuousAt_const h

theorem eventually_pos {f : ℝ → ℝ} {t : ℝ} (hf : ContinuousAt f t) (h : 0 < f t) : ∀ᶠ u in 𝓝 t, 0 < f u :=
  continuousAt_const.eventually_lt hf h

theorem steady_of_ne {f : ℝ → ℝ} {t : ℝ} (hf : ContinuousAt f t) (h : f t ≠ 0) : Steady (fun u => f u < 0) t := by
  rcases lt_or_gt_of_ne h with h | h
  · left; exact eventually_neg hf h
  · right; exact (eventually_pos hf h).mono fun u hu => not_lt.2 hu.le

/-- At a simple zero the sign changes. -/
theorem flips_of_factor {f g : ℝ → ℝ} {t : ℝ} (hfg : ∀ u, f u = (u - t) * g u) (hg : ContinuousAt g t) (h0 : g t ≠ 0) :
    Flips (fun u => f u < 0) t (decide (g t < 0)) := by
  rcases lt_or_gt_of_ne h0 with h | h
  · have hn := eventually_neg hg h
    refine ⟨?_, ?_⟩
    · filter_upwards [nhdsWithin_le_nhds hn, self_mem_nhdsWithin] with u h1 h2
      have h2 : u < t := h2
      simp only [h, decide_true, Bool.true_eq_false, iff_false, not_lt, hfg]
      nlinarith
    · filter_upwards [nhdsWithin_le_nhds hn, self_mem_nhdsWithin] with u h1 h2
      have h2 : t < u := h2
      simp only [h, decide_true, iff_true, hfg]
      nlinarith
  · have hn := eventually_pos hg h
    refine ⟨?_, ?_⟩
    · filter_upwards [nhdsWithin_le_nhds hn, self_mem_nhdsWithin] with u h1 h2
      have h2 : u < t := h2
      simp only [not_lt.2 h.le, decide_false, iff_true, hfg]
      nlinarith
    · filter_upwards [nhdsWithin_le_nhds hn, self_mem_nhdsWithin] with u h1 h2
      have h2 : t < u := h2
      simp only [not_lt.2 h.le, decide_false, Bool.false_eq_true, iff_false, not_lt, hfg]
      nlinarith

/-- A polynomial of degree at most two changes sign at a simple zero. -/
theorem quadratic_flips (a b c t : ℝ) (h0 : a * t ^ 2 + b * t + c = 0) (h1 : 2 * a * t + b ≠ 0) :
    Flips (fun u => a * u ^ 2 + b * u + c < 0) t (decide (2 * a * t + b < 0)) := by
  have e : 2 * a * t + b = (fun u => a * (u + t) + b) t := by ring
  have := flips_of_factor (f := fun u => a * u ^ 2 + b * u + c) (g := fun u => a * (u + t) + b) (t := t)
    (fun u => by linear_combination h0) (by fun_prop) (by intro h; exact h1 (by linarith))
  rw [e]; exact this

/-! ### From local to global -/

/-- On an interval without changes the set is everything or nothing. -/
theorem steady_interval {S : ℝ → Prop} {I : Set ℝ} (hI : IsPreconnected I) (h : ∀ t ∈ I, Steady S t) {a b : ℝ} (ha : a ∈ I)
    (hb : b ∈ I) (hS : S a) : S b := by
  set U := {t : ℝ | ∀ᶠ u in 𝓝 t, S u} with hU
  set V := {t : ℝ | ∀ᶠ u in 𝓝 t, ¬ S u} with hV
  have oU : IsOpen U := isOpen_setOfPred_eventually_nhds
  have oV : IsOpen V := isOpen_setOfPred_eventually_nhds
  by_contra hc
  have haU : a ∈ U := (h a ha).resolve_right fun hn => hn.self_of_nhds hS
  have hbV : b ∈ V := (h b hb).resolve_left fun hn => hc hn.self_of_nhds
  obtain ⟨x, _, hx1, hx2⟩ := hI U V oU oV (fun t ht => h t ht) ⟨a, ha, haU⟩ ⟨b, hb, hbV⟩
  exact hx2.self_of_nhds hx1.self_of_nhds

theorem steady_interval_iff {S : ℝ → Prop} {I : Set ℝ} (hI : IsPreconnected I) (h : ∀ t ∈ I, Steady S t) {a b : ℝ} (ha : a ∈ I)
    (hb : b ∈ I) : S a ↔ S b :=
  ⟨steady_interval hI h ha hb, steady_interval hI h hb ha⟩

/-- The plain crossing of a distance and a flag. -/
def plain (c : ℝ × Bool) : Isect := ⟨c.1, 0, c.2, 0⟩

/-- A set that has the stated value after each listed crossing, changes nowhere else, and is `s` at minus infinity, is the one
described by the crossings. -/
theorem state_of_flips {S : ℝ → Prop} {ex : List (ℝ × Bool)} {s : Bool} (hs : ex.Pairwise (fun a b => a.1 < b.1))
    (hf : ∀ c ∈ ex, ∀ᶠ u in 𝓝[>] c.1, (S u ↔ c.2 = true)) (hst : ∀ t, (∀ c ∈ ex, c.1 ≠ t) → Steady S t)
    (hbot : ∀ᶠ u in atBot, (S u ↔ s = true)) (t : ℝ) (ht : ∀ c ∈ ex, c.1 ≠ t) :
    S t ↔ stateFrom s (ex.map plain) t = true := by
  have key : ∀ (pre post : List (ℝ × Bool)), ex = pre ++ post → (∀ c ∈ pre, c.1 < t) → (∀ c ∈ post, t < c.1) →
      (S t ↔ ((pre.getLast?).map Prod.snd).getD s = true) := by
    intro pre post he h1 h2
    rcases List.eq_nil_or_concat pre with rfl | ⟨pre', c, rfl⟩
    · simp only [List.getLast?_nil, Option.map_none, Option.getD_none]
      obtain ⟨u, hu1, hu2⟩ := (hbot.and (eventually_le_atBot t)).exists
      rw [← hu1]
      refine steady_interval_iff (I := Set.Iic t) isPreconnected_Iic (fun x hx => hst x fun c hc => ?_) (Set.mem_Iic.2 le_rfl)
        hu2
      rw [he, List.nil_append] at hc
      exact ne_of_gt (lt_of_le_of_lt hx (h2 c hc))
    · simp only [List.concat_eq_append, List.getLast?_append, List.getLast?_singleton, Option.some_or, Option.map_some, Option.getD_some]
      have hc : c ∈ ex := by rw [he]; simp
      have hlt : c.1 < t := h1 c (by simp)
      obtain ⟨u, hu1, hu2, hu3⟩ := ((hf c hc).and (Ioc_mem_nhdsGT hlt)).exists
      rw [← hu1]
      refine steady_interval_iff (I := Set.Ioc c.1 t) isPreconnected_Ioc (fun x hx => hst x fun c' hc' => ?_)
        ⟨hlt, le_rfl⟩ ⟨hu2, hu3⟩
      rw [he, List.mem_append] at hc'
      rcases hc' with hc' | hc'
      · have : c'.1 ≤ c.1 := by
          rw [List.concat_eq_append, List.mem_append] at hc'
          rcases hc' with hc' | hc'
          · rw [he, List.concat_eq_append] at hs
            have := (List.pairwise_append.1 (List.pairwise_append.1 hs).1).2.2 c' hc' c (by simp)
            exact this.le
          · simp only [List.mem_singleton] at hc'; rw [hc']
        exact ne_of_lt (lt_of_le_of_lt this hx.1)
      · exact ne_of_gt (lt_of_le_of_lt hx.2 (h2 c' hc'))
  have hsplit : ∃ pre post : List (ℝ × Bool), ex = pre ++ post ∧ (∀ c ∈ pre, c.1 < t) ∧ (∀ c ∈ post, t < c.1) := by
    clear key hf hst hbot
    induction ex with
    | nil => exact ⟨[], [], rfl, by simp, by simp⟩
    | cons a as ih =>
      obtain ⟨p1, p2⟩ := List.pairwise_cons.1 hs
      by_cases ha : a.1 < t
      · obtain ⟨pre, post, e, q1, q2⟩ := ih p2 (fun c hc => ht c (by simp [hc]))
        refine ⟨a :: pre, post, by rw [e]; rfl, ?_, q2⟩
        intro c hc
        rcases List.mem_cons.1 hc with rfl | hc
        · exact ha
        · exact q1 c hc
      · have hat : t < a.1 := lt_of_le_of_ne (not_lt.1 ha) (fun e => ht a (by simp) e.symm)
        refine ⟨[], a :: as, rfl, by simp, ?_⟩
        intro c hc
        rcases List.mem_cons.1 hc with rfl | hc
        · exact hat
        · exact lt_trans hat (p1 c hc)
  obtain ⟨pre, post, e, q1, q2⟩ := hsplit
  rw [key pre post e q1 q2]
  have : stateFrom s (ex.map plain) t = ((pre.getLast?).map Prod.snd).getD s := by
    unfold stateFrom
    rw [e, List.map_append, List.filter_append]
    rw [List.filter_eq_self.2 (by
      intro x hx
      obtain ⟨c, hc, rfl⟩ := List.mem_map.1 hx
      exact decide_eq_true (q1 c hc))]
    rw [List.filter_eq_nil_iff.2 (by
      intro x hx
      obtain ⟨c, hc, rfl⟩ := List.mem_map.1 hx
      exact fun h => absurd (of_decide_eq_true h) (not_lt.2 (q2 c hc).le))]
    rw [List.append_nil, List.getLast?_map, Option.map_map]
    rfl
  rw [this]

theorem alternates_of_splits (l : List Isect) : ∀ s : Bool,
    (∀ pre h post, l = pre ++ h :: post → h.entering = !(((pre.getLast?).map Isect.entering).getD s)) →
    ((l.getLast?).map Isect.entering).getD s = false → Alternates s l := by
  induction l with
  | nil => intro s _ h; simpa [Alternates] using h
  | cons a as ih =>
    intro s h1 h2
    refine ⟨by simpa using h1 [] a as rfl, ih a.entering ?_ ?_⟩
    · intro pre h post e
      have := h1 (a :: pre) h post (by rw [e]; rfl)
      rw [this, List.getLast?_cons]
      cases pre.getLast? <;> simp
    · rw [List.getLast?_cons] at h2
      cases hl : as.getLast? with
      | none => rw [hl] at h2; simpa using h2
      | some x => rw [hl] at h2; simpa using h2

/-- A set that changes at the listed crossings as stated and nowhere else, and is empty near both infinities, is exactly
described by the crossings. -/
theorem exactly_of_flips {S : ℝ → Prop} {ex : List (ℝ × Bool)} (hs : ex.Pairwise (fun a b => a.1 < b.1))
    (hf : ∀ c ∈ ex, Flips S c.1 c.2) (hst : ∀ t, (∀ c ∈ ex, c.1 ≠ t) → Steady S t)
    (hbot : ∀ᶠ u in atBot, ¬ S u) (htop : ∀ᶠ u in atTop, ¬ S u) : Exactly S ex := by
  have hex : ∀ t, (∀ c ∈ ex, c.1 ≠ t) → (S t ↔ stateFrom false (ex.map plain) t = true) := fun t ht =>
    state_of_flips hs (fun c hc => (hf c hc).after) hst (hbot.mono fun u hu => by simp [hu]) t ht
  refine ⟨hs, alternates_of_splits _ _ ?_ ?_, hex⟩
  · intro pre h post e
    obtain ⟨pre0, rest, e0, e1, e2⟩ := List.map_eq_append_iff.1 e
    obtain ⟨c, post0, e3, e4, e5⟩ := List.map_eq_cons_iff.1 e2
    have hc : c ∈ ex := by rw [e0, e3]; simp
    rw [e0, e3] at hs
    have hs' := List.pairwise_append.1 hs
    -- a parameter right before `c` and after everything earlier
    have hev : ∀ᶠ u in 𝓝[<] c.1, ∀ c' ∈ pre0, c'.1 < u := by
      have : ∀ l : List (ℝ × Bool), (∀ c' ∈ l, c'.1 < c.1) → ∀ᶠ u in 𝓝[<] c.1, ∀ c' ∈ l, c'.1 < u := by
        intro l
        induction l with
        | nil => intro _; simp
        | cons a as ih =>
          intro hl
          filter_upwards [ih (fun c' hc' => hl c' (by simp [hc'])), Ioo_mem_nhdsLT (hl a (by simp))] with u h1 h2
          intro c' hc'
          rcases List.mem_cons.1 hc' with rfl | hc'
          · exact h2.1
          · exact h1 c' hc'
      exact this pre0 fun c' hc' => hs'.2.2 c' hc' c (by simp)
    obtain ⟨u, ⟨hu1, hu2⟩, hu3⟩ := (((hf c hc).before.and hev).and self_mem_nhdsWithin).exists
    have hu3 : u < c.1 := hu3
    have hlater : ∀ c' ∈ c :: post0, u < c'.1 := by
      intro c' hc'
      rcases List.mem_cons.1 hc' with rfl | hc'
      · exact hu3
      · exact lt_trans hu3 ((List.pairwise_cons.1 hs'.2.1).1 c' hc')
    have hne : ∀ c' ∈ ex, c'.1 ≠ u := by
      intro c' hc'
      rw [e0, e3, List.mem_append] at hc'
      rcases hc' with hc' | hc'
      · exact ne_of_lt (hu2 c' hc')
      · exact ne_of_gt (hlater c' hc')
    have := hex u hne
    rw [hu1] at this
    have hst2 : stateFrom false (ex.map plain) u = ((pre.getLast?).map Isect.entering).getD false := by
      unfold stateFrom
      rw [e0, e3, List.map_append, List.filter_append]
      rw [List.filter_eq_self.2 (by
        intro x hx
        obtain ⟨c', hc', rfl⟩ := List.mem_map.1 hx
        exact decide_eq_true (hu2 c' hc'))]
      rw [List.filter_eq_nil_iff.2 (by
        intro x hx
        obtain ⟨c', hc', rfl⟩ := List.mem_map.1 hx
        exact fun h => absurd (of_decide_eq_true h) (not_lt.2 (hlater c' hc').le))]
      rw [List.append_nil, ← e1]
      rfl
    rw [hst2] at this
    have hent : h.entering = c.2 := by rw [← e4]
    rw [hent]
    revert this
    cases c.2 <;> cases ((pre.getLast?).map Isect.entering).getD false <;> simp
  · have hev : ∀ᶠ u in atTop, ∀ c ∈ ex, c.1 < u := by
      have : ∀ l : List (ℝ × Bool), ∀ᶠ u in atTop, ∀ c' ∈ l, c'.1 < u := by
        intro l
        induction l with
        | nil => simp
        | cons a as ih =>
          filter_upwards [ih, eventually_gt_atTop a.1] with u h1 h2
          intro c' hc'
          rcases List.mem_cons.1 hc' with rfl | hc'
          · exact h2
          · exact h1 c' hc'
      exact this ex
    obtain ⟨u, hu1, hu2⟩ := (htop.and hev).exists
    have := hex u (fun c hc => ne_of_lt (hu2 c hc))
    have hst2 : stateFrom false (ex.map plain) u = (((ex.map plain).getLast?).map Isect.entering).getD false := by
      unfold stateFrom
      rw [List.filter_eq_self.2 (by
        intro x hx
        obtain ⟨c', hc', rfl⟩ := List.mem_map.1 hx
        exact decide_eq_true (hu2 c' hc'))]
    rw [hst2] at this
    rw [← Bool.not_eq_true, show (fun c : ℝ × Bool => (⟨c.1, 0, c.2, 0⟩ : Isect)) = plain from rfl, ← this]
    exact hu1

/-! ### Bounded sets -/

theorem bounded_coordinate (a b m u : ℝ) (hb : b ≠ 0) (h : |a + u * b| ≤ m) : |u| ≤ (m + |a|) / |b| := by
  rw [le_div_iff₀ (abs_pos.2 hb), ← abs_mul]
  have : u * b = (a + u * b) - a := by ring
  rw [this]
  exact le_trans (abs_sub _ _) (by linarith)

theorem empty_at_infinity {S : ℝ → Prop} (M : ℝ) (h : ∀ u, S u → |u| ≤ M) :
    (∀ᶠ u in atBot, ¬ S u) ∧ ∀ᶠ u in atTop, ¬ S u := by
  refine ⟨?_, ?_⟩
  · filter_upwards [eventually_lt_atBot (-M)] with u hu hc
    have := h u hc; rw [abs_le] at this; linarith [this.1]
  · filter_upwards [eventually_gt_atTop M] with u hu hc
    have := h u hc; rw [abs_le] at this; linarith [this.2]

/-! ### Reported crossings -/

/-- Exact crossings reported with the tolerance at the start of the ray describe the set, if they are reported at
different distances; any position may be attached. -/
theorem Exactly.describes_with {S : ℝ → Prop} {ex : List (ℝ × Bool)} (h : Exactly S ex) (f : ℝ × Bool → Isect)
    (hd : ∀ c, (f c).distance = snap c.1) (he : ∀ c, (f c).entering = c.2)
    (hs : ((ex.map fun c => snap c.1).Pairwise (· < ·))) : Describes precision S (ex.map f) := by
  refine ⟨?_, ?_, ?_⟩
  · rw [List.pairwise_map] at hs ⊢
    exact hs.imp fun h => by rw [hd, hd]; exact h
  · exact (alternates_map (fun c : ℝ × Bool => (⟨c.1, 0, c.2, 0⟩ : Isect)) f ex _ (fun c _ => (he c).symm)).1 h.alternates
  · intro t ht
    have ht' : ∀ c ∈ ex, precision ≤ |snap c.1 - t| := fun c hc => by
      rw [← hd]; exact ht _ (List.mem_map_of_mem hc)
    rw [h.exact t (fun c hc => snap_ne _ _ (ht' c hc))]
    rw [stateFrom_map (fun c : ℝ × Bool => (⟨c.1, 0, c.2, 0⟩ : Isect)) f ex false t
      (fun c _ => (he c).symm) (fun c hc => by rw [hd]; exact (snap_side c.1 t (ht' c hc)).symm)]

/-- Crossings at least twice the tolerance apart are still one tolerance apart after those just ahead are moved to the
start. -/
theorem snap_apart {a b : ℝ} (h : a + 2 * precision ≤ b) : snap a + precision ≤ snap b := by
  have h1 := snap_le a
  have h2 := snap_near b
  linarith

/-- Sorted reports of exact crossings, at different distances, come from the exact crossings in order. -/
theorem sorted_exact (L : List (ℝ × Bool)) (f : ℝ × Bool → Isect) (hd : ∀ c, (f c).distance = snap c.1) (l : List Isect)
    (hl : l.Perm (L.map f)) (hs : l.Pairwise (fun a b => a.distance ≤ b.distance)) (hn : (l.map Isect.distance).Nodup) :
    ∃ E : List (ℝ × Bool), E.Perm L ∧ E.Pairwise (fun a b => a.1 < b.1) ∧ l = E.map f ∧
      (E.map fun c => snap c.1).Pairwise (· < ·) := by
  set E := L.insertionSort (fun a b => a.1 ≤ b.1) with hE
  have hp : E.Perm L := List.perm_insertionSort _ _
  have ho : E.Pairwise (fun a b => a.1 ≤ b.1) := by
    have : Std.Total (fun a b : ℝ × Bool => a.1 ≤ b.1) := ⟨fun a b => le_total _ _⟩
    have : IsTrans (ℝ × Bool) (fun a b : ℝ × Bool => a.1 ≤ b.1) := ⟨fun a b c => le_trans⟩
    exact List.pairwise_insertionSort _ _
  have hnd : (E.map fun c => snap c.1).Nodup := by
    have h1 : (l.map Isect.distance).Perm ((E.map f).map Isect.distance) := (hl.trans (hp.symm.map f)).map _
    have h2 := h1.nodup_iff.1 hn
    rw [List.map_map] at h2
    have e : (Isect.distance ∘ f) = fun c => snap c.1 := funext fun c => hd c
    rwa [e] at h2
  have hsn : (E.map fun c => snap c.1).Pairwise (· < ·) := by
    have : (E.map fun c => snap c.1).Pairwise (· ≤ ·) := by
      rw [List.pairwise_map]; exact ho.imp fun h => snap_mono h
    exact (this.and hnd).imp fun h => lt_of_le_of_ne h.1 h.2
  refine ⟨E, hp, ?_, ?_, hsn⟩
  · rw [List.pairwise_map] at hsn
    refine (ho.and hsn).imp fun h => lt_of_le_of_ne h.1 fun e => ?_
    rw [e] at h; exact absurd h.2 (lt_irrefl _)
  · refine sorted_perm_eq ?_ (hl.trans (hp.symm.map f)) hs
    rw [List.pairwise_map] at hsn ⊢
    exact hsn.imp fun h => by rw [hd, hd]; exact h

end Siren.Geometry
