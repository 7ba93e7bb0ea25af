import Verif.Detector.Spec
import Mathlib.Order.OrderDual
import Mathlib.Data.List.Sort
import Mathlib.Data.List.Perm.Basic

set_option autoImplicit false

/-! # Helper lemmas for the sector walk -/

namespace Siren.Detector

variable {D : Type}

/-! ### Chord lists -/

def flat (l : Int) (cs : List (D × D)) : List (Hit D) := cs.flatMap (chordHits l)

theorem flat_cons (l : Int) (c : D × D) (cs : List (D × D)) :
    flat l (c :: cs) = ⟨c.1, l, true⟩ :: ⟨c.2, l, false⟩ :: flat l cs := by simp [flat, chordHits]

theorem flat_nil (l : Int) : flat l ([] : List (D × D)) = [] := rfl

/-- A split of a chord list is after an even or an odd number of crossings. -/
theorem flat_split (l : Int) (cs : List (D × D)) (p r : List (Hit D)) (h : flat l cs = p ++ r) :
    (∃ c1 c2, cs = c1 ++ c2 ∧ p = flat l c1 ∧ r = flat l c2) ∨
    (∃ c1 c c2, cs = c1 ++ c :: c2 ∧ p = flat l c1 ++ [⟨c.1, l, true⟩] ∧ r = ⟨c.2, l, false⟩ :: flat l c2) := by
  induction cs generalizing p with
  | nil =>
    rw [flat_nil] at h
    have h' := List.append_eq_nil_iff.1 h.symm
    left; exact ⟨[], [], rfl, h'.1, h'.2⟩
  | cons c cs ih =>
    rw [flat_cons] at h
    match p, h with
    | [], h => left; exact ⟨[], c :: cs, rfl, rfl, by rw [flat_cons]; simpa using h.symm⟩
    | [e], h =>
      right
      simp only [List.cons_append, List.nil_append, List.cons.injEq] at h
      exact ⟨[], c, cs, rfl, by simp [flat_nil, h.1], h.2.symm⟩
    | e :: e' :: p, h =>
      simp only [List.cons_append, List.cons.injEq] at h
      obtain ⟨h1, h2, h3⟩ := h
      rcases ih p h3 with ⟨c1, c2, e1, e2, e3⟩ | ⟨c1, d, c2, e1, e2, e3⟩
      · left; exact ⟨c :: c1, c2, by simp [e1], by rw [flat_cons, ← h1, ← h2, e2], e3⟩
      · right; exact ⟨c :: c1, d, c2, by simp [e1], by rw [flat_cons, ← h1, ← h2, e2]; rfl, e3⟩

theorem flat_append (l : Int) (a b : List (D × D)) : flat l (a ++ b) = flat l a ++ flat l b := by simp [flat]

theorem mem_flat {l : Int} {cs : List (D × D)} {h : Hit D} :
    h ∈ flat l cs ↔ ∃ c ∈ cs, h = ⟨c.1, l, true⟩ ∨ h = ⟨c.2, l, false⟩ := by
  simp [flat, chordHits, List.mem_flatMap]

theorem flat_getLast?_entering (l : Int) (cs : List (D × D)) (h : Hit D) (hh : (flat l cs).getLast? = some h) :
    h.entering = false := by
  rcases List.eq_nil_or_concat cs with rfl | ⟨cs', c, rfl⟩
  · simp [flat_nil] at hh
  · have : flat l (cs' ++ [c]) = (flat l cs' ++ [⟨c.1, l, true⟩]) ++ [⟨c.2, l, false⟩] := by
      rw [flat_append]; simp [flat, chordHits]
    rw [List.concat_eq_append, this] at hh
    simp only [List.getLast?_append, List.getLast?_singleton, Option.some_or, Option.some.injEq] at hh
    rw [← hh]

/-! ### The last crossing of a level in a list -/

def lastHit (pre : List (Hit D)) (k : Int) : Option (Hit D) := (pre.filter (fun x => x.hierarchy == k)).getLast?

theorem lastHit_append_same (pre : List (Hit D)) (i : Hit D) : lastHit (pre ++ [i]) i.hierarchy = some i := by
  simp [lastHit, List.filter_append]

theorem lastHit_append_ne (pre : List (Hit D)) (i : Hit D) (k : Int) (h : i.hierarchy ≠ k) :
    lastHit (pre ++ [i]) k = lastHit pre k := by
  simp [lastHit, List.filter_append, h]

theorem lastHit_level {pre : List (Hit D)} {k : Int} {h : Hit D} (hh : lastHit pre k = some h) :
    h.hierarchy = k ∧ h ∈ pre := by
  have := List.mem_of_getLast? hh
  rw [List.mem_filter] at this
  exact ⟨by simpa using this.2, this.1⟩

/-! ### The stack -/

theorem Stack.mem_insert (s : Stack D) (k : Int) (h : Hit D) (hk : ∀ e ∈ s, e.1 ≠ k) (e : Int × Hit D) :
    e ∈ s.insert k h ↔ e = (k, h) ∨ e ∈ s := by
  have : s.any (fun e => e.1 == k) = false := by
    rw [List.any_eq_false]; intro e he; simpa using hk e he
  simp [Stack.insert, this]

theorem Stack.mem_erase (s : Stack D) (k : Int) (e : Int × Hit D) : e ∈ s.erase k ↔ e ∈ s ∧ e.1 ≠ k := by
  simp [Stack.erase, List.mem_filter]

theorem Stack.pred_some (s : Stack D) (k : Int) (e : Int × Hit D) (h : s.pred k = some e) :
    e ∈ s ∧ e.1 < k ∧ ∀ e' ∈ s, e'.1 < k → e'.1 ≤ e.1 := by
  induction s generalizing e with
  | nil => simp [Stack.pred] at h
  | cons a s ih =>
    unfold Stack.pred at h
    cases hp : Stack.pred s k with
    | none =>
      rw [hp] at h
      simp only at h
      split at h
      · next hlt =>
        simp only [Option.some.injEq] at h; subst h
        refine ⟨by simp, hlt, ?_⟩
        intro e' he' hlt'
        rcases List.mem_cons.1 he' with rfl | he'
        · exact le_refl _
        · exfalso
          clear ih
          induction s with
          | nil => simp at he'
          | cons b s ihs =>
            unfold Stack.pred at hp
            cases hq : Stack.pred s k with
            | none =>
              rw [hq] at hp
              simp only at hp
              split at hp
              · simp at hp
              · rcases List.mem_cons.1 he' with rfl | he'
                · contradiction
                · exact ihs hq (by simp [he']) he'
            | some c =>
              rw [hq] at hp; simp only at hp; split at hp <;> simp at hp
      · simp at h
    | some b =>
      rw [hp] at h
      obtain ⟨h1, h2, h3⟩ := ih b hp
      simp only at h
      split at h
      · next hc =>
        simp only [Option.some.injEq] at h; subst h
        refine ⟨by simp, hc.1, ?_⟩
        intro e' he' hlt'
        rcases List.mem_cons.1 he' with rfl | he'
        · exact le_refl _
        · exact le_trans (h3 e' he' hlt') (le_of_lt hc.2)
      · next hc =>
        simp only [Option.some.injEq] at h; subst h
        refine ⟨by simp [h1], h2, ?_⟩
        intro e' he' hlt'
        rcases List.mem_cons.1 he' with rfl | he'
        · by_contra hcon
          exact hc ⟨hlt', lt_of_not_ge hcon⟩
        · exact h3 e' he' hlt'

theorem Stack.pred_exists (s : Stack D) (k : Int) (e : Int × Hit D) (he : e ∈ s) (hlt : e.1 < k) :
    ∃ e', s.pred k = some e' := by
  induction s with
  | nil => simp at he
  | cons a s ih =>
    unfold Stack.pred
    cases hp : Stack.pred s k with
    | none =>
      simp only
      split
      · exact ⟨_, rfl⟩
      · next hn =>
        rcases List.mem_cons.1 he with rfl | he
        · contradiction
        · obtain ⟨e', he'⟩ := ih he
          rw [hp] at he'; simp at he'
    | some b => simp only; split <;> exact ⟨_, rfl⟩

/-! ### Forward walk -/

section Forward
variable [LinearOrder D]

/-- What the walk needs to know about the list of crossings. -/
structure GoodHits (chords : Int → List (D × D)) (u : Int) (lo hi : D) (mid : List (Hit D)) : Prop where
  sorted : (⟨lo, u, true⟩ :: (mid ++ [⟨hi, u, false⟩]) : List (Hit D)).Pairwise (fun a b => a.distance ≤ b.distance)
  perLevel : ∀ k, (⟨lo, u, true⟩ :: (mid ++ [⟨hi, u, false⟩]) : List (Hit D)).filter (fun x => x.hierarchy == k) =
    flat k (chords k)
  above : ∀ x ∈ mid, u < x.hierarchy

structure Inv (pre rest : List (Hit D)) (stack : Stack D) (cur : Hit D) (last : D) : Prop where
  mem : ∀ k h, (k, h) ∈ stack ↔ (lastHit pre k = some h ∧ h.entering = true)
  curMem : (cur.hierarchy, cur) ∈ stack
  curMax : ∀ e ∈ stack, e.1 ≤ cur.hierarchy
  lastLe : ∀ x ∈ rest, last ≤ x.distance
  curLe : cur.distance ≤ last
  recent : ∀ x ∈ pre, cur.hierarchy ≤ x.hierarchy → x.distance ≤ last

/-- Who owns the stretch between the last transition and the next crossing. -/
theorem owner_of_inv (chords : Int → List (D × D)) (pre rest : List (Hit D)) (i : Hit D) (stack : Stack D)
    (cur : Hit D) (last t : D)
    (hper : ∀ k, (pre ++ i :: rest).filter (fun x => x.hierarchy == k) = flat k (chords k))
    (hsorted : (pre ++ i :: rest).Pairwise (fun a b => a.distance ≤ b.distance))
    (inv : Inv pre (i :: rest) stack cur last) (h1 : last < t) (h2 : t < i.distance) :
    (∃ c ∈ chords cur.hierarchy, c.1 = cur.distance ∧ c.1 < t ∧ t < c.2) ∧
    ∀ k, cur.hierarchy < k → ¬ ∃ c ∈ chords k, c.1 < t ∧ t < c.2 := by
  have hrest : ∀ x ∈ i :: rest, t < x.distance := by
    intro x hx
    rcases List.mem_cons.1 hx with rfl | hx
    · exact h2
    · have := (List.pairwise_append.1 hsorted).2.1
      exact lt_of_lt_of_le h2 ((List.pairwise_cons.1 this).1 x hx)
  have split : ∀ k, flat k (chords k) = pre.filter (fun x => x.hierarchy == k) ++
      (i :: rest).filter (fun x => x.hierarchy == k) := by
    intro k; rw [← hper k, List.filter_append]
  constructor
  · have hm := (inv.mem _ _).1 inv.curMem
    rcases flat_split _ _ _ _ (split cur.hierarchy) with ⟨c1, c2, e1, e2, e3⟩ | ⟨c1, c, c2, e1, e2, e3⟩
    · have := hm.1
      rw [lastHit, e2] at this
      have := flat_getLast?_entering _ _ _ this
      rw [hm.2] at this; simp at this
    · have hl := hm.1
      rw [lastHit, e2] at hl
      simp only [List.getLast?_append, List.getLast?_singleton, Option.some_or, Option.some.injEq] at hl
      refine ⟨c, by rw [e1]; simp, by rw [← hl], ?_, ?_⟩
      · have : c.1 = cur.distance := by rw [← hl]
        rw [this]; exact lt_of_le_of_lt inv.curLe h1
      · have hx : (⟨c.2, cur.hierarchy, false⟩ : Hit D) ∈ (i :: rest) := by
          have : (⟨c.2, cur.hierarchy, false⟩ : Hit D) ∈ (i :: rest).filter (fun x => x.hierarchy == cur.hierarchy) := by
            rw [e3]; simp
          exact List.mem_of_mem_filter this
        exact hrest _ hx
  · rintro k hk ⟨c, hc, hc1, hc2⟩
    rcases flat_split _ _ _ _ (split k) with ⟨c1, c2, e1, e2, e3⟩ | ⟨c1, d, c2, e1, e2, e3⟩
    · rw [e1] at hc
      rcases List.mem_append.1 hc with hc | hc
      · have hx : (⟨c.2, k, false⟩ : Hit D) ∈ pre.filter (fun x => x.hierarchy == k) := by
          rw [e2, mem_flat]; exact ⟨c, hc, Or.inr rfl⟩
        have := inv.recent _ (List.mem_of_mem_filter hx) (le_of_lt hk)
        exact absurd (lt_of_le_of_lt this h1) (not_lt.2 (le_of_lt hc2))
      · have hx : (⟨c.1, k, true⟩ : Hit D) ∈ (i :: rest).filter (fun x => x.hierarchy == k) := by
          rw [e3, mem_flat]; exact ⟨c, hc, Or.inl rfl⟩
        exact absurd (hrest _ (List.mem_of_mem_filter hx)) (not_lt.2 (le_of_lt hc1))
    · have hl : lastHit pre k = some ⟨d.1, k, true⟩ := by
        rw [lastHit, e2]; simp
      have := inv.curMax _ ((inv.mem k _).2 ⟨hl, rfl⟩)
      exact absurd hk (not_lt.2 this)

omit [LinearOrder D] in
/-- Alternation: a crossing leaves a sector iff the sector is on the stack. -/
theorem leaving_iff (chords : Int → List (D × D)) (pre rest : List (Hit D)) (i : Hit D)
    (hper : ∀ k, (pre ++ i :: rest).filter (fun x => x.hierarchy == k) = flat k (chords k)) :
    i.entering = false ↔ ∃ h, lastHit pre i.hierarchy = some h ∧ h.entering = true := by
  have split : flat i.hierarchy (chords i.hierarchy) = pre.filter (fun x => x.hierarchy == i.hierarchy) ++
      (i :: rest.filter (fun x => x.hierarchy == i.hierarchy)) := by
    rw [← hper, List.filter_append]; simp
  rcases flat_split _ _ _ _ split with ⟨c1, c2, e1, e2, e3⟩ | ⟨c1, c, c2, e1, e2, e3⟩
  · constructor
    · intro hi
      cases c2 with
      | nil => simp [flat_nil] at e3
      | cons c c2 =>
        rw [flat_cons] at e3
        simp only [List.cons.injEq] at e3
        rw [e3.1] at hi; simp at hi
    · rintro ⟨h, h1, h2⟩
      rw [lastHit, e2] at h1
      have := flat_getLast?_entering _ _ _ h1
      rw [h2] at this; simp at this
  · simp only [List.cons.injEq] at e3
    constructor
    · intro _
      refine ⟨⟨c.1, i.hierarchy, true⟩, ?_, rfl⟩
      rw [lastHit, e2]; simp
    · intro _; rw [e3.1]

/-- What makes the walk change segment: `next` comes after `current` in the list and either enters a higher sector or
leaves the current one. -/
structure Segment.Switch (hits : List (Hit D)) (g : Segment D) : Prop where
  later : [g.current, g.next].Sublist hits
  entered : g.current.entering = true
  higher : g.next.entering = true → g.current.hierarchy < g.next.hierarchy
  same : g.next.entering = false → g.next.hierarchy = g.current.hierarchy

theorem forward_core (chords : Int → List (D × D)) (u : Int) (lo hi : D) (mid : List (Hit D))
    (H : GoodHits chords u lo hi mid) (rmid : List (Hit D)) :
    ∀ (pmid : List (Hit D)), mid = pmid ++ rmid → ∀ (stack : Stack D) (cur : Hit D) (last : D),
    Inv (⟨lo, u, true⟩ :: pmid) (rmid ++ [⟨hi, u, false⟩]) stack cur last →
    ∃ segs : List (Segment D), Covers (· ≤ ·) last hi segs ∧
      (segs.map Segment.next).Sublist (rmid ++ [⟨hi, u, false⟩]) ∧
      (∀ g ∈ segs, (g.current ∈ (⟨lo, u, true⟩ :: (mid ++ [⟨hi, u, false⟩]) : List (Hit D)) ∧ g.next ∈ (⟨lo, u, true⟩ :: (mid ++ [⟨hi, u, false⟩]) : List (Hit D))) ∧
        g.current.distance ≤ g.lastPoint ∧ ∀ t, g.lastPoint < t → t < g.next.distance →
        (∃ c ∈ chords g.current.hierarchy, c.1 < t ∧ t < c.2) ∧
        ∀ k, g.current.hierarchy < k → ¬ ∃ c ∈ chords k, c.1 < t ∧ t < c.2) ∧
      (∀ g ∈ segs, Segment.Switch (⟨lo, u, true⟩ :: (mid ++ [⟨hi, u, false⟩])) g) ∧
      ∀ (σ : Type) (cb : σ → Hit D → Hit D → D → Res (Bool × σ)) (s : σ),
        loop cb false (rmid ++ [⟨hi, u, false⟩]) stack cur last s = runSegments cb segs s := by
  induction rmid with
  | nil =>
    intro pmid hmid stack cur last inv
    simp only [List.append_nil] at hmid
    subst hmid
    have hall := H.perLevel
    -- the current sector is the outer one
    have hcu : ∀ e ∈ stack, e.1 = u := by
      rintro ⟨k, h⟩ he
      by_contra hne
      have hm := (inv.mem k h).1 he
      have : (⟨lo, u, true⟩ :: mid : List (Hit D)).filter (fun x => x.hierarchy == k) = flat k (chords k) := by
        rw [← hall k, ← List.cons_append, List.filter_append]
        simp [Ne.symm hne]
      have hl := hm.1
      rw [lastHit, this] at hl
      have := flat_getLast?_entering _ _ _ hl
      rw [hm.2] at this; simp at this
    have hcur : cur.hierarchy = u := hcu _ inv.curMem
    refine ⟨[⟨cur, ⟨hi, u, false⟩, last⟩], ?_, List.Sublist.refl _, ?_, ?_, ?_⟩
    · exact ⟨rfl, inv.lastLe ⟨hi, u, false⟩ (by simp), rfl⟩
    · intro g hg
      simp only [List.mem_singleton] at hg; subst hg
      have hcm : cur ∈ (⟨lo, u, true⟩ :: mid : List (Hit D)) := (lastHit_level ((inv.mem _ _).1 inv.curMem).1).2
      refine ⟨⟨by rw [← List.cons_append]; exact List.mem_append_left _ hcm, by simp⟩, inv.curLe, fun t h1 h2 => ?_⟩
      have := owner_of_inv chords (⟨lo, u, true⟩ :: mid) [] ⟨hi, u, false⟩ stack cur last t
        (by intro k; rw [List.cons_append]; exact hall k) (by rw [List.cons_append]; exact H.sorted) inv h1 h2
      obtain ⟨⟨c, hc, _, h3, h4⟩, h5⟩ := this
      exact ⟨⟨c, hc, h3, h4⟩, h5⟩
    · intro g hg
      simp only [List.mem_singleton] at hg; subst hg
      have hm := (inv.mem _ _).1 inv.curMem
      have hcm : cur ∈ (⟨lo, u, true⟩ :: mid : List (Hit D)) := (lastHit_level hm.1).2
      refine ⟨?_, hm.2, by simp, fun _ => hcur.symm⟩
      have := (List.singleton_sublist.2 hcm).append (List.Sublist.refl [(⟨hi, u, false⟩ : Hit D)])
      simpa using this
    · intro σ cb s
      have he : stack.erase u = [] := by
        rw [Stack.erase, List.filter_eq_nil_iff]
        intro e he; simp [hcu e he]
      simp only [List.nil_append, loop, Bool.xor_false, hcur, le_refl, if_true, he, runSegments]
      simp [Res.bind]
  | cons i rmid ih =>
    intro pmid hmid stack cur last inv
    have hi_mid : i ∈ mid := by rw [hmid]; simp
    have hiu : u < i.hierarchy := H.above i hi_mid
    have hall : ∀ k, ((⟨lo, u, true⟩ :: pmid) ++ i :: (rmid ++ [⟨hi, u, false⟩])).filter
        (fun x => x.hierarchy == k) = flat k (chords k) := by
      intro k; rw [← H.perLevel k, hmid]; simp
    have hsorted : ((⟨lo, u, true⟩ :: pmid) ++ i :: (rmid ++ [⟨hi, u, false⟩])).Pairwise
        (fun a b => a.distance ≤ b.distance) := by
      have := H.sorted; rw [hmid] at this; simpa using this
    have hmid' : mid = (pmid ++ [i]) ++ rmid := by rw [hmid]; simp
    have hleav := leaving_iff chords _ _ i hall
    have hown := fun t => owner_of_inv chords _ _ i stack cur last t hall hsorted inv
    have hpre_le : ∀ x ∈ (⟨lo, u, true⟩ :: pmid : List (Hit D)), x.distance ≤ i.distance := by
      intro x hx
      exact (List.pairwise_append.1 hsorted).2.2 x hx i (by simp)
    have hi_rest : ∀ x ∈ rmid ++ [(⟨hi, u, false⟩ : Hit D)], i.distance ≤ x.distance := by
      have := (List.pairwise_append.1 hsorted).2.1
      exact (List.pairwise_cons.1 this).1
    have hmems : cur ∈ (⟨lo, u, true⟩ :: (mid ++ [⟨hi, u, false⟩]) : List (Hit D)) ∧
        i ∈ (⟨lo, u, true⟩ :: (mid ++ [⟨hi, u, false⟩]) : List (Hit D)) := by
      have hcm := (lastHit_level ((inv.mem _ _).1 inv.curMem).1).2
      refine ⟨?_, by simp [hi_mid]⟩
      rw [hmid, ← List.cons_append, ← List.cons_append]
      exact List.mem_append_left _ (List.mem_append_left _ hcm)
    have hsub2 : [cur, i].Sublist (⟨lo, u, true⟩ :: (mid ++ [⟨hi, u, false⟩]) : List (Hit D)) := by
      have hcm := (lastHit_level ((inv.mem _ _).1 inv.curMem).1).2
      have := (List.singleton_sublist.2 hcm).append
        (List.singleton_sublist.2 (show i ∈ i :: (rmid ++ [(⟨hi, u, false⟩ : Hit D)]) by simp))
      rw [hmid]
      simpa using this
    have hcent : cur.entering = true := ((inv.mem _ _).1 inv.curMem).2
    have hpre_eq : (⟨lo, u, true⟩ :: (pmid ++ [i]) : List (Hit D)) = (⟨lo, u, true⟩ :: pmid) ++ [i] := rfl
    cases hent : i.entering with
    | true =>
      -- not on the stack yet
      have hnot : ∀ e ∈ stack, e.1 ≠ i.hierarchy := by
        rintro ⟨k, h⟩ he rfl
        have := hleav.2 ⟨h, (inv.mem _ h).1 he⟩
        rw [hent] at this; simp at this
      have hmem' : ∀ k h, (k, h) ∈ stack.insert i.hierarchy i ↔
          (lastHit ((⟨lo, u, true⟩ :: pmid) ++ [i]) k = some h ∧ h.entering = true) := by
        intro k h
        rw [Stack.mem_insert _ _ _ hnot]
        by_cases hk : i.hierarchy = k
        · subst hk
          rw [lastHit_append_same]
          constructor
          · rintro (he | he)
            · simp only [Prod.mk.injEq, true_and] at he; subst he; exact ⟨rfl, hent⟩
            · exact absurd rfl (hnot _ he)
          · rintro ⟨he, _⟩
            simp only [Option.some.injEq] at he; subst he; left; rfl
        · rw [lastHit_append_ne _ _ _ hk, ← inv.mem]
          constructor
          · rintro (he | he)
            · simp only [Prod.mk.injEq] at he; exact absurd he.1.symm hk
            · exact he
          · intro he; right; exact he
      by_cases hgt : i.hierarchy > cur.hierarchy
      · -- a transition
        have inv' : Inv (⟨lo, u, true⟩ :: (pmid ++ [i])) (rmid ++ [⟨hi, u, false⟩])
            (stack.insert i.hierarchy i) i i.distance := by
          rw [hpre_eq]
          refine ⟨hmem', ?_, ?_, hi_rest, le_refl _, ?_⟩
          · rw [Stack.mem_insert _ _ _ hnot]; left; rfl
          · intro e he
            rw [Stack.mem_insert _ _ _ hnot] at he
            rcases he with rfl | he
            · exact le_refl _
            · exact le_trans (inv.curMax e he) (le_of_lt hgt)
          · intro x hx _
            rcases List.mem_append.1 hx with hx | hx
            · exact hpre_le x hx
            · simp only [List.mem_singleton] at hx; subst hx; exact le_refl _
        obtain ⟨segs, h1, hsub, h2, hsw, h3⟩ := ih (pmid ++ [i]) hmid' _ _ _ inv'
        refine ⟨⟨cur, i, last⟩ :: segs, ⟨rfl, inv.lastLe i (by simp), h1⟩, hsub.cons_cons i, ?_, ?_, ?_⟩
        · intro g hg
          rcases List.mem_cons.1 hg with rfl | hg
          · refine ⟨hmems, inv.curLe, fun t ht1 ht2 => ?_⟩
            obtain ⟨⟨c, hc, _, h3, h4⟩, h5⟩ := hown t ht1 ht2
            exact ⟨⟨c, hc, h3, h4⟩, h5⟩
          · exact h2 g hg
        · intro g hg
          rcases List.mem_cons.1 hg with rfl | hg
          · exact ⟨hsub2, hcent, fun _ => hgt, fun h => absurd h (by simp [hent])⟩
          · exact hsw g hg
        · intro σ cb s
          simp only [List.cons_append, loop, hent, Bool.xor_false, if_true, hgt, runSegments]
          cases cb s cur i last with
          | ok r => simp only [Res.bind, h3]
          | throws e => rfl
          | ub => rfl
      · have inv' : Inv (⟨lo, u, true⟩ :: (pmid ++ [i])) (rmid ++ [⟨hi, u, false⟩])
            (stack.insert i.hierarchy i) cur last := by
          rw [hpre_eq]
          have hne : i.hierarchy ≠ cur.hierarchy := fun h => hnot _ inv.curMem h.symm
          refine ⟨hmem', ?_, ?_, ?_, inv.curLe, ?_⟩
          · rw [Stack.mem_insert _ _ _ hnot]; right; exact inv.curMem
          · intro e he
            rw [Stack.mem_insert _ _ _ hnot] at he
            rcases he with rfl | he
            · exact le_of_not_gt hgt
            · exact inv.curMax e he
          · intro x hx; exact inv.lastLe x (by simp only [List.cons_append]; exact List.mem_cons_of_mem _ hx)
          · intro x hx hle
            rcases List.mem_append.1 hx with hx | hx
            · exact inv.recent x hx hle
            · simp only [List.mem_singleton] at hx; subst hx
              exact absurd (lt_of_le_of_ne hle (Ne.symm hne)) hgt
        obtain ⟨segs, h1, hsub, h2, hsw, h3⟩ := ih (pmid ++ [i]) hmid' _ _ _ inv'
        refine ⟨segs, h1, hsub.trans (List.sublist_cons_self _ _), h2, hsw, ?_⟩
        intro σ cb s
        simp only [List.cons_append, loop, hent, Bool.xor_false, if_true, hgt, if_false, h3]
    | false =>
      obtain ⟨h0, hl0, he0⟩ := hleav.1 hent
      have hon : (i.hierarchy, h0) ∈ stack := (inv.mem _ _).2 ⟨hl0, he0⟩
      have hle : i.hierarchy ≤ cur.hierarchy := inv.curMax _ hon
      have hmem' : ∀ k h, (k, h) ∈ stack.erase i.hierarchy ↔
          (lastHit ((⟨lo, u, true⟩ :: pmid) ++ [i]) k = some h ∧ h.entering = true) := by
        intro k h
        rw [Stack.mem_erase]
        by_cases hk : i.hierarchy = k
        · subst hk
          rw [lastHit_append_same]
          constructor
          · rintro ⟨_, hne⟩; exact absurd rfl hne
          · rintro ⟨he, h2⟩
            simp only [Option.some.injEq] at he; subst he
            rw [hent] at h2; simp at h2
        · rw [lastHit_append_ne _ _ _ hk, ← inv.mem]
          constructor
          · exact fun h => h.1
          · exact fun h => ⟨h, Ne.symm hk⟩
      by_cases heq : i.hierarchy = cur.hierarchy
      · -- leave the current sector: the outer one is still on the stack
        have huon : ∃ h, (u, h) ∈ stack.erase i.hierarchy := by
          refine ⟨⟨lo, u, true⟩, ?_⟩
          rw [hmem', lastHit_append_ne _ _ _ (ne_of_gt hiu)]
          refine ⟨?_, rfl⟩
          have : pmid.filter (fun x => x.hierarchy == u) = [] := by
            rw [List.filter_eq_nil_iff]
            intro x hx
            have : u < x.hierarchy := H.above x (by rw [hmid]; simp [hx])
            simp [ne_of_gt this]
          simp [lastHit, this]
        obtain ⟨hu, hu'⟩ := huon
        obtain ⟨lb, hlb⟩ := Stack.pred_exists _ i.hierarchy _ hu' hiu
        obtain ⟨hb1, hb2, hb3⟩ := Stack.pred_some _ _ _ hlb
        have hlbm := (hmem' lb.1 lb.2).1 hb1
        have hlbl := (lastHit_level hlbm.1)
        have inv' : Inv (⟨lo, u, true⟩ :: (pmid ++ [i])) (rmid ++ [⟨hi, u, false⟩])
            (stack.erase i.hierarchy) lb.2 i.distance := by
          rw [hpre_eq]
          have hpre' : ∀ x ∈ (⟨lo, u, true⟩ :: pmid : List (Hit D)) ++ [i], x.distance ≤ i.distance := by
            intro x hx
            rcases List.mem_append.1 hx with hx | hx
            · exact hpre_le x hx
            · simp only [List.mem_singleton] at hx; subst hx; exact le_refl _
          refine ⟨hmem', ?_, ?_, hi_rest, hpre' _ hlbl.2, fun x hx _ => hpre' x hx⟩
          · rw [hlbl.1]; exact hb1
          · intro e he
            rw [hlbl.1]
            refine hb3 e he ?_
            have h1 := (Stack.mem_erase _ _ _).1 he
            have h2 := inv.curMax e h1.1
            rw [← heq] at h2
            exact lt_of_le_of_ne h2 h1.2
        obtain ⟨segs, h1, hsub, h2, hsw, h3⟩ := ih (pmid ++ [i]) hmid' _ _ _ inv'
        refine ⟨⟨cur, i, last⟩ :: segs, ⟨rfl, inv.lastLe i (by simp), h1⟩, hsub.cons_cons i, ?_, ?_, ?_⟩
        · intro g hg
          rcases List.mem_cons.1 hg with rfl | hg
          · refine ⟨hmems, inv.curLe, fun t ht1 ht2 => ?_⟩
            obtain ⟨⟨c, hc, _, h3, h4⟩, h5⟩ := hown t ht1 ht2
            exact ⟨⟨c, hc, h3, h4⟩, h5⟩
          · exact h2 g hg
        · intro g hg
          rcases List.mem_cons.1 hg with rfl | hg
          · exact ⟨hsub2, hcent, fun h => absurd h (by simp [hent]), fun _ => heq⟩
          · exact hsw g hg
        · intro σ cb s
          have hlen : (stack.erase i.hierarchy).length > 0 := List.length_pos_of_mem hu'
          simp only [List.cons_append, loop, hent, Bool.xor_false, hle, hlen, hlb, if_true, if_pos heq,
            runSegments, Bool.false_eq_true, if_false]
          cases cb s cur i last with
          | ok r => simp only [Res.bind, h3]
          | throws e => rfl
          | ub => rfl
      · have inv' : Inv (⟨lo, u, true⟩ :: (pmid ++ [i])) (rmid ++ [⟨hi, u, false⟩])
            (stack.erase i.hierarchy) cur last := by
          rw [hpre_eq]
          refine ⟨hmem', ?_, ?_, ?_, inv.curLe, ?_⟩
          · rw [Stack.mem_erase]; exact ⟨inv.curMem, Ne.symm heq⟩
          · intro e he; exact inv.curMax e ((Stack.mem_erase _ _ _).1 he).1
          · intro x hx; exact inv.lastLe x (by simp only [List.cons_append]; exact List.mem_cons_of_mem _ hx)
          · intro x hx hle'
            rcases List.mem_append.1 hx with hx | hx
            · exact inv.recent x hx hle'
            · simp only [List.mem_singleton] at hx; subst hx
              exact absurd (le_antisymm hle hle') heq
        obtain ⟨segs, h1, hsub, h2, hsw, h3⟩ := ih (pmid ++ [i]) hmid' _ _ _ inv'
        refine ⟨segs, h1, hsub.trans (List.sublist_cons_self _ _), h2, hsw, ?_⟩
        intro σ cb s
        simp only [List.cons_append, loop, hent, Bool.xor_false, hle, if_true, heq, if_false, h3,
          Bool.false_eq_true]


theorem forward_walk (chords : Int → List (D × D)) (u : Int) (lo hi : D) (mid : List (Hit D))
    (H : GoodHits chords u lo hi mid) :
    ∃ segs : List (Segment D), Covers (· ≤ ·) lo hi segs ∧
      (segs.map Segment.next).Sublist (mid ++ [⟨hi, u, false⟩]) ∧
      (∀ g ∈ segs, (g.current ∈ (⟨lo, u, true⟩ :: (mid ++ [⟨hi, u, false⟩]) : List (Hit D)) ∧ g.next ∈ (⟨lo, u, true⟩ :: (mid ++ [⟨hi, u, false⟩]) : List (Hit D))) ∧
        g.current.distance ≤ g.lastPoint ∧ ∀ t, g.lastPoint < t → t < g.next.distance →
        (∃ c ∈ chords g.current.hierarchy, c.1 < t ∧ t < c.2) ∧
        ∀ k, g.current.hierarchy < k → ¬ ∃ c ∈ chords k, c.1 < t ∧ t < c.2) ∧
      (∀ g ∈ segs, Segment.Switch (⟨lo, u, true⟩ :: (mid ++ [⟨hi, u, false⟩])) g) ∧
      ∀ (σ : Type) (cb : σ → Hit D → Hit D → D → Res (Bool × σ)) (s : σ),
        sectorLoop cb (⟨lo, u, true⟩ :: (mid ++ [⟨hi, u, false⟩])) false s = runSegments cb segs s := by
  refine forward_core chords u lo hi mid H mid [] rfl (Stack.insert [] u ⟨lo, u, true⟩) ⟨lo, u, true⟩ lo ?_
  refine ⟨?_, by simp [Stack.insert], by simp [Stack.insert], ?_, le_refl _, ?_⟩
  · intro k h
    by_cases hk : u = k
    · subst hk
      simp only [Stack.insert, List.any_nil, Bool.false_eq_true, if_false, List.mem_singleton, Prod.mk.injEq,
        true_and, lastHit, List.filter_cons, beq_self_eq_true, if_true, List.filter_nil, List.getLast?_singleton,
        Option.some.injEq]
      constructor
      · rintro rfl; exact ⟨rfl, rfl⟩
      · rintro ⟨rfl, _⟩; rfl
    · simp only [Stack.insert, List.any_nil, Bool.false_eq_true, if_false, List.mem_singleton, Prod.mk.injEq, lastHit]
      simp [hk, Ne.symm hk]
  · exact (List.pairwise_cons.1 H.sorted).1
  · intro x hx _; simp only [List.mem_singleton] at hx; subst hx; exact le_refl _

/-! ### The comparator -/

theorem comp_iff (a b : Hit D) : comp a b = true ↔
    a.distance < b.distance ∨ (a.distance = b.distance ∧
      ((a.entering = false ∧ b.entering = true) ∨
       (a.entering = false ∧ b.entering = false ∧ a.hierarchy < b.hierarchy) ∨
       (a.entering = true ∧ b.entering = true ∧ b.hierarchy < a.hierarchy))) := by
  unfold comp
  by_cases h1 : a.distance < b.distance
  · simp [h1]
  · by_cases h2 : a.distance = b.distance
    · cases ha : a.entering <;> cases hb : b.entering <;> simp [h2]
    · simp [h1, h2]

theorem comp_false_dist {a b : Hit D} (h : comp b a = false) : a.distance ≤ b.distance := by
  by_contra hc
  have : comp b a = true := (comp_iff b a).2 (Or.inl (lt_of_not_ge hc))
  rw [h] at this; simp at this

theorem comp_irrefl (a : Hit D) : comp a a = false := by
  rw [Bool.eq_false_iff, ne_eq, comp_iff]
  rintro (h | ⟨_, (⟨h1, h2⟩ | ⟨_, _, h⟩ | ⟨_, _, h⟩)⟩)
  · exact lt_irrefl _ h
  · rw [h1] at h2; simp at h2
  · exact lt_irrefl _ h
  · exact lt_irrefl _ h

/-- On one level, mutual incomparability is equality. -/
theorem comp_antisymm {a b : Hit D} (hl : a.hierarchy = b.hierarchy) (h1 : comp a b = false) (h2 : comp b a = false) :
    a = b := by
  have hd := le_antisymm (comp_false_dist h2) (comp_false_dist h1)
  have he : a.entering = b.entering := by
    cases ha : a.entering <;> cases hb : b.entering
    · rfl
    · have : comp a b = true := (comp_iff a b).2 (Or.inr ⟨hd, Or.inl ⟨ha, hb⟩⟩)
      rw [h1] at this; simp at this
    · have : comp b a = true := (comp_iff b a).2 (Or.inr ⟨hd.symm, Or.inl ⟨hb, ha⟩⟩)
      rw [h2] at this; simp at this
    · rfl
  cases a; cases b; simp_all

theorem comp_trans {a b c : Hit D} (h1 : comp a b = true) (h2 : comp b c = true) : comp a c = true := by
  rw [comp_iff] at *
  rcases h1 with h1 | ⟨e1, h1⟩ <;> rcases h2 with h2 | ⟨e2, h2⟩
  · left; exact lt_trans h1 h2
  · left; rw [← e2]; exact h1
  · left; rw [e1]; exact h2
  · right
    refine ⟨e1.trans e2, ?_⟩
    rcases h1 with ⟨x1, x2⟩ | ⟨x1, x2, x3⟩ | ⟨x1, x2, x3⟩ <;>
      rcases h2 with ⟨y1, y2⟩ | ⟨y1, y2, y3⟩ | ⟨y1, y2, y3⟩ <;>
      first
        | (rw [x2] at y1; simp at y1; done)
        | skip
    · exact Or.inl ⟨x1, y2⟩
    · exact Or.inl ⟨x1, y2⟩
    · exact Or.inr (Or.inl ⟨x1, y2, lt_trans x3 y3⟩)
    · exact Or.inr (Or.inr ⟨x1, y2, lt_trans y3 x3⟩)

theorem comp_negTrans {a b c : Hit D} (h1 : comp a b = false) (h2 : comp b c = false) : comp a c = false := by
  rw [Bool.eq_false_iff, ne_eq] at *
  intro h3
  rw [comp_iff] at h1 h2 h3
  push Not at h1 h2
  obtain ⟨d1, f1⟩ := h1
  obtain ⟨d2, f2⟩ := h2
  rcases h3 with h3 | ⟨e3, h3⟩
  · exact absurd (lt_of_lt_of_le h3 d2) (not_lt.2 d1)
  · have eab : a.distance = b.distance := le_antisymm (e3 ▸ d2) d1
    have ebc : b.distance = c.distance := eab ▸ e3
    obtain ⟨f11, f12, f13⟩ := f1 eab
    obtain ⟨f21, f22, f23⟩ := f2 ebc
    rcases h3 with ⟨x1, x2⟩ | ⟨x1, x2, x3⟩ | ⟨x1, x2, x3⟩
    · cases hb : b.entering
      · exact f21 hb x2
      · exact f11 x1 hb
    · cases hb : b.entering
      · exact absurd (lt_of_lt_of_le x3 (f22 hb x2)) (not_lt.2 (f12 x1 hb))
      · exact f11 x1 hb
    · cases hb : b.entering
      · exact f21 hb x2
      · exact absurd (lt_of_le_of_lt (f23 hb x2) x3) (not_lt.2 (f13 x1 hb))

/-! ### From a layout to `GoodHits` -/

theorem flat_sorted (l : Int) (cs : List (D × D)) (h1 : ∀ c ∈ cs, c.1 < c.2)
    (h2 : cs.Pairwise (fun c c' => c.2 ≤ c'.1)) : (flat l cs).Pairwise (fun a b => comp b a = false) := by
  induction cs with
  | nil => simp [flat_nil]
  | cons c cs ih =>
    have hlt := h1 c (by simp)
    have h2' := List.pairwise_cons.1 h2
    have key : ∀ x ∈ flat l cs, comp x ⟨c.2, l, false⟩ = false := by
      intro x hx
      obtain ⟨d, hd, hx⟩ := mem_flat.1 hx
      have hle := h2'.1 d hd
      have hd' := h1 d (by simp [hd])
      rw [Bool.eq_false_iff, ne_eq, comp_iff]
      rcases hx with rfl | rfl
      · rintro (h | ⟨_, h⟩)
        · exact absurd h (not_lt.2 hle)
        · simp at h
      · rintro (h | ⟨_, h⟩)
        · exact absurd (lt_of_le_of_lt hle hd') (not_lt.2 (le_of_lt h))
        · simp at h
    have ce : comp (⟨c.2, l, false⟩ : Hit D) ⟨c.1, l, true⟩ = false := by
      rw [Bool.eq_false_iff, ne_eq, comp_iff]
      rintro (h | ⟨h, _⟩)
      · exact absurd hlt (not_lt.2 (le_of_lt h))
      · exact absurd hlt (by simp only at h; rw [h]; exact lt_irrefl _)
    rw [flat_cons, List.pairwise_cons, List.pairwise_cons]
    refine ⟨?_, key, ih (fun c hc => h1 c (by simp [hc])) h2'.2⟩
    intro x hx
    rcases List.mem_cons.1 hx with rfl | hx
    · exact ce
    · exact comp_negTrans (key x hx) ce

/-- The chords of a level in a layout. -/
def Layout.chordsOf (L : Layout D) (k : Int) : List (D × D) :=
  (L.sectors.filter (fun s => s.level == k)).flatMap LineSector.chords

omit [LinearOrder D] in
theorem filter_hits_of_level (s : LineSector D) (k : Int) :
    s.hits.filter (fun x => x.hierarchy == k) = if s.level == k then flat k s.chords else [] := by
  unfold LineSector.hits flat
  induction s.chords with
  | nil => simp
  | cons c cs ih =>
    simp only [List.flatMap_cons, List.filter_append, ih]
    by_cases h : s.level = k
    · subst h; simp [chordHits]
    · simp [chordHits, h]

omit [LinearOrder D] in
theorem filter_layout_hits (L : Layout D) (k : Int) :
    L.hits.filter (fun x => x.hierarchy == k) = flat k (L.chordsOf k) := by
  unfold Layout.hits Layout.chordsOf
  induction L.sectors with
  | nil => simp [flat]
  | cons s ss ih =>
    simp only [List.flatMap_cons, List.filter_append, ih, filter_hits_of_level, List.filter_cons]
    by_cases h : s.level = k
    · simp [h, flat]
    · simp [h]

theorem Layout.levels_nodup {L : Layout D} (w : L.WF) : (L.sectors.map LineSector.level).Nodup := by
  simp only [Layout.sectors, List.map_cons, List.nodup_cons]
  refine ⟨?_, w.distinct⟩
  simp only [List.mem_map, not_exists, not_and]
  intro s hs h
  have := w.above s hs
  rw [h] at this
  exact lt_irrefl _ this

omit [LinearOrder D] in
/-- With distinct levels, the chords of a sector's level are its chords. -/
theorem chordsOf_of_mem (ss : List (LineSector D)) (hn : (ss.map LineSector.level).Nodup) (s : LineSector D)
    (hs : s ∈ ss) : (ss.filter (fun x => x.level == s.level)).flatMap LineSector.chords = s.chords := by
  induction ss with
  | nil => simp at hs
  | cons a ss ih =>
    simp only [List.map_cons, List.nodup_cons] at hn
    rcases List.mem_cons.1 hs with rfl | hs
    · have : ss.filter (fun x => x.level == s.level) = [] := by
        rw [List.filter_eq_nil_iff]
        intro x hx hxx
        apply hn.1
        rw [List.mem_map]; exact ⟨x, hx, by simpa using hxx⟩
      simp [this]
    · have : a.level ≠ s.level := fun h => hn.1 (by rw [h]; exact List.mem_map_of_mem hs)
      simp [this, ih hn.2 hs]

omit [LinearOrder D] in
theorem chordsOf_cases (L : Layout D) (hn : (L.sectors.map LineSector.level).Nodup) (k : Int) :
    L.chordsOf k = [] ∨ ∃ s ∈ L.sectors, s.level = k ∧ L.chordsOf k = s.chords := by
  by_cases h : ∃ s ∈ L.sectors, s.level = k
  · obtain ⟨s, hs, rfl⟩ := h
    right; exact ⟨s, hs, rfl, chordsOf_of_mem _ hn s hs⟩
  · left
    have : L.sectors.filter (fun s => s.level == k) = [] := by
      rw [List.filter_eq_nil_iff]
      intro s hs hk
      exact h ⟨s, hs, by simpa using hk⟩
    simp [Layout.chordsOf, this]

theorem Layout.ordered_all {L : Layout D} (w : L.WF) : ∀ s ∈ L.sectors, s.Ordered := by
  intro s hs
  rcases List.mem_cons.1 hs with rfl | hs
  · exact ⟨by intro c hc; simp only [Layout.outer, List.mem_singleton] at hc; subst hc; exact w.lo_lt_hi,
      by simp [Layout.outer]⟩
  · exact w.ordered s hs

/-- In sorted crossings the crossings of a level are those of its chords in order. -/
theorem perLevel_of_sort {L : Layout D} (w : L.WF) {hits : List (Hit D)} (hs : IsSortOf hits L.hits) (k : Int) :
    hits.filter (fun x => x.hierarchy == k) = flat k (L.chordsOf k) := by
  have hperm : (hits.filter (fun x => x.hierarchy == k)).Perm (flat k (L.chordsOf k)) := by
    rw [← filter_layout_hits]; exact hs.1.filter _
  have hso : (flat k (L.chordsOf k)).Pairwise (fun a b => comp b a = false) := by
    rcases chordsOf_cases L (Layout.levels_nodup w) k with h | ⟨s, hs, _, h⟩
    · rw [h]; simp [flat]
    · rw [h]
      have := Layout.ordered_all w s hs
      exact flat_sorted k _ this.1 this.2
  refine List.Perm.eq_of_pairwise ?_ (hs.2.filter _) hso hperm
  intro a b ha hb h1 h2
  have ea : a.hierarchy = k := by simpa using (List.mem_filter.1 ha).2
  have eb : b.hierarchy = k := by
    obtain ⟨c, _, h⟩ := mem_flat.1 hb
    rcases h with rfl | rfl <;> rfl
  exact comp_antisymm (ea.trans eb.symm) h2 h1

omit [LinearOrder D] in
theorem mem_layout_hits {L : Layout D} {h : Hit D} (hh : h ∈ L.hits) :
    h = ⟨L.lo, L.outerLevel, true⟩ ∨ h = ⟨L.hi, L.outerLevel, false⟩ ∨
    ∃ s ∈ L.inner, h.hierarchy = s.level ∧ ∃ c ∈ s.chords, h.distance = c.1 ∨ h.distance = c.2 := by
  simp only [Layout.hits, Layout.sectors, List.flatMap_cons, List.mem_append] at hh
  rcases hh with hh | hh
  · simp [Layout.outer, LineSector.hits, chordHits] at hh
    rcases hh with h | h
    · exact Or.inl h
    · exact Or.inr (Or.inl h)
  · obtain ⟨s, hs, hh⟩ := List.mem_flatMap.1 hh
    obtain ⟨c, hc, hh⟩ := mem_flat.1 hh
    refine Or.inr (Or.inr ⟨s, hs, ?_, c, hc, ?_⟩)
    · rcases hh with rfl | rfl <;> rfl
    · rcases hh with rfl | rfl
      · left; rfl
      · right; rfl

theorem goodHits_of_sort {L : Layout D} (w : L.WF) {hits : List (Hit D)} (hs : IsSortOf hits L.hits) :
    ∃ mid, hits = ⟨L.lo, L.outerLevel, true⟩ :: (mid ++ [⟨L.hi, L.outerLevel, false⟩]) ∧
      GoodHits L.chordsOf L.outerLevel L.lo L.hi mid := by
  have hdist : hits.Pairwise (fun a b => a.distance ≤ b.distance) := hs.2.imp (fun h => comp_false_dist h)
  -- bounds on all crossings
  have hb : ∀ h ∈ hits, h = ⟨L.lo, L.outerLevel, true⟩ ∨ h = ⟨L.hi, L.outerLevel, false⟩ ∨
      (L.outerLevel < h.hierarchy ∧ L.lo < h.distance ∧ h.distance < L.hi) := by
    intro h hh
    rcases mem_layout_hits (hs.1.mem_iff.1 hh) with e | e | ⟨s, hsm, e1, c, hc, e2⟩
    · exact Or.inl e
    · exact Or.inr (Or.inl e)
    · refine Or.inr (Or.inr ⟨by rw [e1]; exact w.above s hsm, ?_⟩)
      have hw := w.within s hsm c hc
      have ho := (w.ordered s hsm).1 c hc
      rcases e2 with e2 | e2 <;> rw [e2]
      · exact ⟨hw.1, lt_trans ho hw.2⟩
      · exact ⟨lt_trans hw.1 ho, hw.2⟩
  have hout := perLevel_of_sort w hs L.outerLevel
  have hco : L.chordsOf L.outerLevel = [(L.lo, L.hi)] := by
    have := chordsOf_of_mem L.sectors (Layout.levels_nodup w) L.outer (by simp [Layout.sectors])
    exact this
  rw [hco, flat_cons, flat_nil] at hout
  simp only at hout
  have hmem_lo : (⟨L.lo, L.outerLevel, true⟩ : Hit D) ∈ hits := by
    apply List.mem_of_mem_filter (p := fun x => x.hierarchy == L.outerLevel); rw [hout]; simp
  have hmem_hi : (⟨L.hi, L.outerLevel, false⟩ : Hit D) ∈ hits := by
    apply List.mem_of_mem_filter (p := fun x => x.hierarchy == L.outerLevel); rw [hout]; simp
  obtain ⟨first, tail, rfl⟩ : ∃ f t, hits = f :: t := by
    cases hits with
    | nil => simp at hmem_lo
    | cons f t => exact ⟨f, t, rfl⟩
  have hp := List.pairwise_cons.1 hdist
  have hfirst : first = ⟨L.lo, L.outerLevel, true⟩ := by
    have hle : first.distance ≤ L.lo := by
      rcases List.mem_cons.1 hmem_lo with h | h
      · rw [← h]
      · exact hp.1 _ h
    rcases hb first (by simp) with e | e | ⟨_, e, _⟩
    · exact e
    · rw [e] at hle; exact absurd w.lo_lt_hi (not_lt.2 hle)
    · exact absurd e (not_lt.2 hle)
  subst hfirst
  rcases List.eq_nil_or_concat tail with rfl | ⟨mid, fin, rfl⟩
  · simp only [List.mem_singleton, Hit.mk.injEq] at hmem_hi
    simp at hmem_hi
  · rw [List.concat_eq_append] at *
    have hfin : fin = ⟨L.hi, L.outerLevel, false⟩ := by
      have hle : L.hi ≤ fin.distance := by
        rcases List.mem_cons.1 hmem_hi with h | h
        · simp at h
        · rcases List.mem_append.1 h with h | h
          · exact (List.pairwise_append.1 hp.2).2.2 _ h fin (by simp)
          · simp only [List.mem_singleton] at h; rw [← h]
      rcases hb fin (by simp) with e | e | ⟨_, _, e⟩
      · rw [e] at hle; exact absurd w.lo_lt_hi (not_lt.2 hle)
      · exact e
      · exact absurd e (not_lt.2 hle)
    subst hfin
    refine ⟨mid, rfl, hdist, perLevel_of_sort w hs, ?_⟩
    intro x hx
    by_contra hcon
    have hxl : x.hierarchy = L.outerLevel := by
      rcases hb x (by simp [hx]) with e | e | ⟨e, _⟩
      · rw [e]
      · rw [e]
      · exact absurd e hcon
    have : mid.filter (fun x => x.hierarchy == L.outerLevel) = [] := by
      rw [List.filter_cons_of_pos (by simp), List.filter_append] at hout
      simp at hout
      rw [List.filter_eq_nil_iff]
      simpa using hout
    rw [List.filter_eq_nil_iff] at this
    exact this x hx (by simp [hxl])

end Forward

/-! ### Reverse walk: the same walk in the dual order -/

section Reverse

def flipHit (h : Hit D) : Hit Dᵒᵈ := ⟨OrderDual.toDual h.distance, h.hierarchy, !h.entering⟩
def unflipHit (h : Hit Dᵒᵈ) : Hit D := ⟨OrderDual.ofDual h.distance, h.hierarchy, !h.entering⟩

@[simp] theorem unflip_flip (h : Hit D) : unflipHit (flipHit h) = h := by cases h; simp [flipHit, unflipHit]

def flipStack (s : Stack D) : Stack Dᵒᵈ := s.map (fun e => (e.1, flipHit e.2))

theorem flipStack_insert (s : Stack D) (k : Int) (h : Hit D) :
    flipStack (s.insert k h) = (flipStack s).insert k (flipHit h) := by
  unfold Stack.insert flipStack
  have : (List.map (fun e : Int × Hit D => (e.1, flipHit e.2)) s).any (fun e => e.1 == k) =
      s.any (fun e => e.1 == k) := by
    rw [List.any_map]; rfl
  rw [this]
  split <;> simp

theorem flipStack_erase (s : Stack D) (k : Int) : flipStack (s.erase k) = (flipStack s).erase k := by
  unfold Stack.erase flipStack
  rw [List.filter_map]; rfl

theorem flipStack_pred (s : Stack D) (k : Int) :
    (flipStack s).pred k = (s.pred k).map (fun e => (e.1, flipHit e.2)) := by
  induction s with
  | nil => rfl
  | cons a s ih =>
    have : flipStack (a :: s) = (a.1, flipHit a.2) :: flipStack s := rfl
    rw [this]
    simp only [Stack.pred, ih]
    cases Stack.pred s k with
    | none => simp only [Option.map_none]; split <;> simp
    | some b => simp only [Option.map_some]; split <;> simp

def flipCb {σ : Type} (cb : σ → Hit D → Hit D → D → Res (Bool × σ)) : σ → Hit Dᵒᵈ → Hit Dᵒᵈ → Dᵒᵈ → Res (Bool × σ) :=
  fun s a b x => cb s (unflipHit a) (unflipHit b) (OrderDual.ofDual x)

theorem loop_reverse {σ : Type} (cb : σ → Hit D → Hit D → D → Res (Bool × σ)) (rest : List (Hit D)) :
    ∀ (stack : Stack D) (cur : Hit D) (last : D) (s : σ),
    loop cb true rest stack cur last s =
      loop (flipCb cb) false (rest.map flipHit) (flipStack stack) (flipHit cur) (OrderDual.toDual last) s := by
  induction rest with
  | nil => intros; rfl
  | cons i rest ih =>
    intro stack cur last s
    have e1 : (flipHit i).entering = !i.entering := rfl
    have e2 : (flipHit i).hierarchy = i.hierarchy := rfl
    have e3 : (flipHit cur).hierarchy = cur.hierarchy := rfl
    have e4 : (flipHit i).distance = OrderDual.toDual i.distance := rfl
    have ecb : flipCb cb s (flipHit cur) (flipHit i) (OrderDual.toDual last) = cb s cur i last := by
      simp [flipCb]
    have elen : ((flipStack stack).erase i.hierarchy).length = (stack.erase i.hierarchy).length := by
      rw [← flipStack_erase]; simp [flipStack]
    simp only [List.map_cons, loop, e1, e2, e3, e4, ecb, Bool.xor_false, Bool.xor_true]
    split
    · split
      · congr 1; funext p; obtain ⟨done, s'⟩ := p
        simp only
        split
        · rfl
        · rw [ih, flipStack_insert]
      · rw [ih, flipStack_insert]
    · split
      · split
        · congr 1; funext p; obtain ⟨done, s'⟩ := p
          simp only
          split
          · rfl
          · rw [elen]
            split
            · rw [← flipStack_erase, flipStack_pred]
              cases h : Stack.pred (stack.erase i.hierarchy) i.hierarchy with
              | none => rfl
              | some lb => simp only [Option.map_some]; rw [ih]
            · rfl
        · rw [ih, flipStack_erase]
      · rfl

def unflipSeg (g : Segment Dᵒᵈ) : Segment D := ⟨unflipHit g.current, unflipHit g.next, OrderDual.ofDual g.lastPoint⟩

theorem runSegments_flip {σ : Type} (cb : σ → Hit D → Hit D → D → Res (Bool × σ)) (segs : List (Segment Dᵒᵈ)) (s : σ) :
    runSegments (flipCb cb) segs s = runSegments cb (segs.map unflipSeg) s := by
  induction segs generalizing s with
  | nil => rfl
  | cons g gs ih =>
    simp only [List.map_cons, runSegments]
    show (cb s _ _ _).bind _ = (cb s _ _ _).bind _
    congr 1; funext p; obtain ⟨done, s'⟩ := p
    simp only [ih]

def flipChord (c : D × D) : Dᵒᵈ × Dᵒᵈ := (OrderDual.toDual c.2, OrderDual.toDual c.1)

theorem flat_flip (k : Int) (cs : List (D × D)) :
    ((flat k cs).reverse.map flipHit) = flat k (cs.reverse.map flipChord) := by
  induction cs with
  | nil => rfl
  | cons c cs ih =>
    rw [flat_cons]
    simp only [List.reverse_cons, List.map_append, ih, List.append_assoc, flat_append]
    simp [flat, chordHits, flipHit, flipChord]

variable [LinearOrder D]

theorem goodHits_flip {chords : Int → List (D × D)} {u : Int} {lo hi : D} {mid : List (Hit D)}
    (H : GoodHits chords u lo hi mid) :
    GoodHits (fun k => (chords k).reverse.map flipChord) u (OrderDual.toDual hi) (OrderDual.toDual lo)
      (mid.reverse.map flipHit) := by
  have e : (⟨OrderDual.toDual hi, u, true⟩ :: (mid.reverse.map flipHit ++ [⟨OrderDual.toDual lo, u, false⟩]) :
      List (Hit Dᵒᵈ)) = ((⟨lo, u, true⟩ :: (mid ++ [⟨hi, u, false⟩]) : List (Hit D)).reverse.map flipHit) := by
    simp [flipHit]
  refine ⟨?_, ?_, ?_⟩
  · rw [e, List.pairwise_map, List.pairwise_reverse]
    exact H.sorted
  · intro k
    rw [e, List.filter_map]
    have : ((fun x : Hit Dᵒᵈ => x.hierarchy == k) ∘ flipHit) = (fun x : Hit D => x.hierarchy == k) := rfl
    rw [this, List.filter_reverse, H.perLevel k, flat_flip]
  · intro x hx
    obtain ⟨y, hy, rfl⟩ := List.mem_map.1 hx
    exact H.above y (List.mem_reverse.1 hy)

theorem covers_unflip (a b : Dᵒᵈ) (segs : List (Segment Dᵒᵈ)) (h : Covers (· ≤ ·) a b segs) :
    Covers (· ≥ ·) (OrderDual.ofDual a) (OrderDual.ofDual b) (segs.map unflipSeg) := by
  induction segs generalizing a with
  | nil => exact congrArg _ h
  | cons g gs ih =>
    obtain ⟨h1, h2, h3⟩ := h
    exact ⟨congrArg OrderDual.ofDual h1, h2, ih _ h3⟩

theorem reverse_walk (chords : Int → List (D × D)) (u : Int) (lo hi : D) (mid : List (Hit D))
    (H : GoodHits chords u lo hi mid) :
    ∃ segs : List (Segment D), Covers (· ≥ ·) hi lo segs ∧
      (segs.map Segment.next).Sublist (mid.reverse ++ [⟨lo, u, true⟩]) ∧
      (∀ g ∈ segs, (g.current ∈ (⟨lo, u, true⟩ :: (mid ++ [⟨hi, u, false⟩]) : List (Hit D)) ∧ g.next ∈ (⟨lo, u, true⟩ :: (mid ++ [⟨hi, u, false⟩]) : List (Hit D))) ∧
        g.lastPoint ≤ g.current.distance ∧ ∀ t, t < g.lastPoint → g.next.distance < t →
        (∃ c ∈ chords g.current.hierarchy, c.1 < t ∧ t < c.2) ∧
        ∀ k, g.current.hierarchy < k → ¬ ∃ c ∈ chords k, c.1 < t ∧ t < c.2) ∧
      ∀ (σ : Type) (cb : σ → Hit D → Hit D → D → Res (Bool × σ)) (s : σ),
        sectorLoop cb (⟨lo, u, true⟩ :: (mid ++ [⟨hi, u, false⟩])) true s = runSegments cb segs s := by
  obtain ⟨segs, h1, hsub, h2, -, h3⟩ := forward_walk _ _ _ _ _ (goodHits_flip H)
  have conv : ∀ k (t : D), (∃ c ∈ (chords k).reverse.map flipChord, c.1 < OrderDual.toDual t ∧ OrderDual.toDual t < c.2) ↔
      ∃ c ∈ chords k, c.1 < t ∧ t < c.2 := by
    intro k t
    constructor
    · rintro ⟨c, hc, hc1, hc2⟩
      obtain ⟨d, hd, rfl⟩ := List.mem_map.1 hc
      exact ⟨d, List.mem_reverse.1 hd, hc2, hc1⟩
    · rintro ⟨c, hc, hc1, hc2⟩
      exact ⟨flipChord c, List.mem_map_of_mem (List.mem_reverse.2 hc), hc2, hc1⟩
  have hmem : ∀ x : Hit Dᵒᵈ, x ∈ (⟨OrderDual.toDual hi, u, true⟩ :: (mid.reverse.map flipHit ++
      [⟨OrderDual.toDual lo, u, false⟩]) : List (Hit Dᵒᵈ)) →
      unflipHit x ∈ (⟨lo, u, true⟩ :: (mid ++ [⟨hi, u, false⟩]) : List (Hit D)) := by
    intro x hx
    simp only [List.mem_cons, List.mem_append, List.mem_map, List.mem_reverse, List.not_mem_nil, or_false] at hx
    rcases hx with rfl | ⟨y, hy, rfl⟩ | rfl
    · simp [unflipHit]
    · simp [hy]
    · simp [unflipHit]
  refine ⟨segs.map unflipSeg, covers_unflip _ _ _ h1, ?_, ?_, ?_⟩
  · have := hsub.map unflipHit
    simp only [List.map_append, List.map_map, List.map_cons, List.map_nil] at this
    rw [List.map_map]
    have e : mid.reverse.map (unflipHit ∘ flipHit) = mid.reverse := by
      rw [List.map_congr_left (g := id)]
      · simp
      · intro x _; simp
    rw [e] at this
    exact this
  · intro g hg
    obtain ⟨g', hg', rfl⟩ := List.mem_map.1 hg
    obtain ⟨⟨m1, m2⟩, a1, a2⟩ := h2 g' hg'
    refine ⟨⟨hmem _ m1, hmem _ m2⟩, a1, fun t ht1 ht2 => ?_⟩
    obtain ⟨b1, b2⟩ := a2 (OrderDual.toDual t) ht1 ht2
    refine ⟨(conv _ _).1 b1, fun k hk hc => b2 k hk ((conv k t).2 hc)⟩
  · intro σ cb s
    rw [← runSegments_flip, ← h3]
    have e : (⟨lo, u, true⟩ :: (mid ++ [⟨hi, u, false⟩]) : List (Hit D)).reverse =
        ⟨hi, u, false⟩ :: (mid.reverse ++ [⟨lo, u, true⟩]) := by simp
    unfold sectorLoop
    simp only [if_true, e, Bool.false_eq_true, if_false]
    rw [loop_reverse]
    simp only [List.map_append, flipStack_insert]
    rfl

end Reverse

end Siren.Detector
