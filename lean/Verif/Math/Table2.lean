import Verif.Math.TableProps

set_option autoImplicit false

/-!
# Two-dimensional table interpolation (C104)

Models `Interpolator2D` of `utilities/public/SIREN/utilities/Interpolator.h` for `T = double`, as real numbers, on top of the model of `Indexer1D`.
-/

namespace Siren.Math.Table

open Siren Integrate

/-! ## Model -/

/-- `TableData2D` (Interpolator.h:56-82). -/
structure Data2 where
  x : List ℝ
  y : List ℝ
  f : List ℝ

/-- `Interpolator2D` (Interpolator.h:472-481): the two maps are functions that are `none` where the map has no entry. -/
structure Interp2 where
  ix : Indexer
  iy : Indexer
  isLog : Bool
  function : Nat → Nat → Option ℝ
  mask : Nat → Nat → Option Bool

/-- `xmap[v]` (Interpolator.h:519-529): the position among the sorted coordinates. -/
noncomputable def position (xs : List ℝ) (v : ℝ) : Nat := xs.findIdx fun w => decide (w = v)

/-- The loops that fill the maps (Interpolator.h:563-579). The entries written before are kept: `SetTable` does not clear the maps. -/
noncomputable def fill2 {A : Type} (xs ys : List ℝ) (pts : List (ℝ × ℝ × A)) (m : Nat → Nat → Option A) : Nat → Nat → Option A :=
  pts.foldl (fun m p i j => if i = position xs p.1 ∧ j = position ys p.2.1 then some p.2.2 else m i j) m

/-- The points of the table. -/
def Data2.points (t : Data2) : List (ℝ × ℝ × ℝ) := t.x.zip (t.y.zip t.f)

/-- What `SetTable` (Interpolator.h:515-580) leaves behind if the values written to `z_mask` are kept; `old` is the interpolator before. -/
noncomputable def build2 (old : Interp2) (t : Data2) : Interp2 :=
  let ix := Indexer.of ⟨t.x, t.f⟩
  let iy := Indexer.of ⟨t.y, t.f⟩
  let isLog := ix.isLog || iy.isLog
  let values := if isLog then t.f.map fun v => if 0 < v then Real.log v else v else t.f
  let zeros := t.f.map fun v => decide (v ≤ 0)
  ⟨ix, iy, isLog, fill2 (setOf t.x) (setOf t.y) (t.x.zip (t.y.zip values)) old.function,
    if isLog then fill2 (setOf t.x) (setOf t.y) (t.x.zip (t.y.zip zeros)) old.mask else old.mask⟩

/-- `SetTable` (Interpolator.h:515-580). If one of the axes is logarithmic the values of `z_mask` are written through `begin()` of a vector of size
zero (lines 557-558), which is undefined. So are violated assertions (lines 534-536, 543-546 and 244) and the loop in lines 563-570 if there are
fewer ordinates or values than abscissas. -/
noncomputable def setTable (old : Interp2) (t : Data2) : Res Interp2 :=
  if (setOf t.x).length < 2 ∨ (setOf t.y).length < 2 ∨ t.f.length < 2 ∨ t.y.length < t.x.length ∨ t.f.length < t.x.length then .ub
  else if (build2 old t).isLog then .ub else .ok (build2 old t)

/-- The default constructor (Interpolator.h:483): both maps are empty. The indexers are replaced by `SetTable`. -/
noncomputable def fresh : Interp2 := ⟨Indexer.of ⟨[], []⟩, Indexer.of ⟨[], []⟩, false, fun _ _ => none, fun _ _ => none⟩

/-- `std::map::at`. -/
def atKey {A : Type} (m : Nat → Nat → Option A) (i j : Nat) : Res A := match m i j with | some v => .ok v | none => .throws .outOfRange

/-- The sum over the corners (Interpolator.h:650-655, 657-662, 665-670). -/
noncomputable def corners (dax dbx dx day dby dy faa fab fba fbb : ℝ) : ℝ :=
  (dbx * dby * faa + dbx * day * fab + dax * dby * fba + dax * day * fbb) / (dx * dy)

/-- `operator()` (Interpolator.h:582-679). -/
noncomputable def Interp2.eval (s : Interp2) (x y : ℝ) : Res ℝ :=
  (s.ix.find x).bind fun rx => (s.iy.find y).bind fun ry =>
  let i := if s.ix.points.length - 1 ≤ rx.index then s.ix.points.length - 2 else rx.index
  let j := if s.iy.points.length - 1 ≤ ry.index then s.iy.points.length - 2 else ry.index
  let dax := rx.val - rx.xa
  let dbx := rx.delta - dax
  let day := ry.val - ry.xa
  let dby := ry.delta - day
  (atKey s.function i j).bind fun faa => (atKey s.function i (j + 1)).bind fun fab =>
  (atKey s.function (i + 1) j).bind fun fba => (atKey s.function (i + 1) (j + 1)).bind fun fbb =>
  (if s.isLog then
    (atKey s.mask i j).bind fun zaa => (atKey s.mask i (j + 1)).bind fun zab =>
    (atKey s.mask (i + 1) j).bind fun zba => (atKey s.mask (i + 1) (j + 1)).bind fun zbb =>
      .ok (if zaa || zab || zba || zbb then
          let ex := fun v => if s.ix.isLog then Real.exp v else v
          let ey := fun v => if s.iy.isLog then Real.exp v else v
          corners (ex dax) (ex dbx) (ex rx.delta) (ey day) (ey dby) (ey ry.delta)
            (if zaa then faa else Real.exp faa) (if zab then fab else Real.exp fab)
            (if zba then fba else Real.exp fba) (if zbb then fbb else Real.exp fbb)
        else Real.exp (corners dax dbx rx.delta day dby ry.delta faa fab fba fbb))
  else .ok (corners dax dbx rx.delta day dby ry.delta faa fab fba fbb)).bind fun result =>
  .ok (if result < 0 then 0 else result)

/-! ## Specification -/

/-- `a` and `b` are consecutive coordinates of an axis. -/
structure Next (x : List ℝ) (a b : ℝ) : Prop where
  first : a ∈ x
  second : b ∈ x
  lt : a < b
  between : ∀ v ∈ x, v ≤ a ∨ b ≤ v

/-- The table gives the value `f` to the point `(x, y)`: its last row for the point has it. -/
def Entry (t : Data2) (x y f : ℝ) : Prop :=
  ∃ before after, t.points = before ++ (x, y, f) :: after ∧ ∀ q ∈ after, ¬ (q.1 = x ∧ q.2.1 = y)

/-- Every combination of an abscissa and an ordinate has a value. -/
def Complete (t : Data2) : Prop := ∀ x ∈ t.x, ∀ y ∈ t.y, ∃ f, Entry t x y f

/-- A cell of the grid with the values at its corners. -/
structure Cell (t : Data2) (x0 x1 y0 y1 f00 f01 f10 f11 : ℝ) : Prop where
  x : Next t.x x0 x1
  y : Next t.y y0 y1
  e00 : Entry t x0 y0 f00
  e01 : Entry t x0 y1 f01
  e10 : Entry t x1 y0 f10
  e11 : Entry t x1 y1 f11

/-- The position on an axis, which may be logarithmic. -/
noncomputable def scale (log : Bool) (v : ℝ) : ℝ := if log then Real.log v else v

/-- The coordinates of an axis are equally spaced on its scale. -/
def Even (log : Bool) (x : List ℝ) : Prop := ∃ d, ∀ a b, Next x a b → scale log b - scale log a = d

/-- The axis is evenly spaced, or the code does not take it for evenly spaced and the argument is above its smallest coordinate. -/
def Handled (i : Indexer) (x : List ℝ) (v : ℝ) : Prop := Even i.isLog x ∨ (i.isRegular = false ∧ ∃ w ∈ x, w < v)

/-- Bilinear interpolation: linear in `y` on both edges, then linear in `x`. -/
noncomputable def bilinear (x0 x1 y0 y1 f00 f01 f10 f11 x y : ℝ) : ℝ := line x0 (line y0 f00 y1 f01 y) x1 (line y0 f10 y1 f11 y) x

/-! ## One axis -/

theorem next_index (x : List ℝ) (a b : ℝ) (h : Next x a b) :
    ∃ k, k + 1 < (setOf x).length ∧ (setOf x).getD k 0 = a ∧ (setOf x).getD (k + 1) 0 = b := by
  have hmem : ∀ v, v ∈ x → (v, v) ∈ x.zip x := by
    intro v hv
    obtain ⟨i, hi, e⟩ := List.mem_iff_getElem.mp hv
    rw [List.mem_iff_getElem]
    exact ⟨i, by rw [List.length_zip]; omega, by rw [List.getElem_zip, e]⟩
  exact neighbours_index ⟨x, x⟩ a a b b ⟨hmem a h.first, hmem b h.second, h.lt, h.between⟩

theorem index_next (x : List ℝ) (k : Nat) (hk : k + 1 < (setOf x).length) : Next x ((setOf x).getD k 0) ((setOf x).getD (k + 1) 0) := by
  obtain ⟨f0, f1, h⟩ := spaced_index ⟨x, x⟩ rfl k hk
  exact ⟨(List.of_mem_zip h.first).1, (List.of_mem_zip h.second).1, h.lt, h.between⟩

theorem getD_scale (b : Bool) (L : List ℝ) (k : Nat) : (L.map (scale b)).getD k 0 = scale b (L.getD k 0) := by
  rw [List.getD_eq_getElem?_getD, List.getD_eq_getElem?_getD, List.getElem?_map]
  cases L[k]? <;> cases b <;> simp [scale]

theorem indexer_points_scale (x f : List ℝ) : (Indexer.of ⟨x, f⟩).points = (setOf x).map (scale (Indexer.of ⟨x, f⟩).isLog) := by
  rw [indexer_points]
  cases (Indexer.of ⟨x, f⟩).isLog with
  | true => rfl
  | false =>
    have : scale false = id := by funext v; simp [scale]
    rw [this]; simp

theorem indexer_irregular_scale (x f : List ℝ) : (Indexer.of ⟨x, f⟩).irregular = ⟨(setOf x).map (scale (Indexer.of ⟨x, f⟩).isLog)⟩ := by
  rw [← indexer_points_scale]; rfl

theorem scale_sorted (x f : List ℝ) : ((setOf x).map (scale (Indexer.of ⟨x, f⟩).isLog)).Pairwise (· < ·) := by
  cases h : (Indexer.of ⟨x, f⟩).isLog with
  | true => exact log_sorted _ (setOf_sorted x) (isLog_pos ⟨x, f⟩ h)
  | false =>
    have : scale false = id := by funext v; simp [scale]
    rw [this, List.map_id]; exact setOf_sorted x

theorem scale_mono (x f : List ℝ) (a v : ℝ) (ha : a ∈ x) (h : a ≤ v) :
    scale (Indexer.of ⟨x, f⟩).isLog a ≤ scale (Indexer.of ⟨x, f⟩).isLog v := by
  cases hl : (Indexer.of ⟨x, f⟩).isLog with
  | true => exact Real.log_le_log (isLog_pos ⟨x, f⟩ hl a ((mem_setOf x a).mpr ha)) h
  | false => exact h

theorem scale_strict (x f : List ℝ) (a v : ℝ) (ha : a ∈ x) (h : a < v) :
    scale (Indexer.of ⟨x, f⟩).isLog a < scale (Indexer.of ⟨x, f⟩).isLog v := by
  cases hl : (Indexer.of ⟨x, f⟩).isLog with
  | true => exact Real.log_lt_log (isLog_pos ⟨x, f⟩ hl a ((mem_setOf x a).mpr ha)) h
  | false => exact h

theorem scale_le (x f : List ℝ) (b v a : ℝ) (ha : a ∈ x) (hav : a ≤ v) (h : v ≤ b) :
    scale (Indexer.of ⟨x, f⟩).isLog v ≤ scale (Indexer.of ⟨x, f⟩).isLog b := by
  cases hl : (Indexer.of ⟨x, f⟩).isLog with
  | true => exact Real.log_le_log ((isLog_pos ⟨x, f⟩ hl a ((mem_setOf x a).mpr ha)).trans_le hav) h
  | false => exact h

/-- The finder of an axis selects an interval of consecutive points that contains the argument. -/
theorem axis_fits (x f : List ℝ) (v a b : ℝ) (hn : Next x a b) (h0 : a ≤ v) (h1 : v ≤ b) (hc : Handled (Indexer.of ⟨x, f⟩) x v) :
    ∃ r, (Indexer.of ⟨x, f⟩).find v = .ok r ∧
      Fits ((setOf x).map (scale (Indexer.of ⟨x, f⟩).isLog)) (scale (Indexer.of ⟨x, f⟩).isLog v) r := by
  obtain ⟨k, hk, e0, e1⟩ := next_index x a b hn
  have hsc := scale_sorted x f
  have hb := bounds_of_neighbours _ hsc k (by rw [List.length_map]; exact hk) (scale (Indexer.of ⟨x, f⟩).isLog v)
    (by rw [getD_scale, e0]; exact scale_mono x f a v hn.first h0) (by rw [getD_scale, e1]; exact scale_le x f b v a hn.first h0 h1)
  have hlen : 2 ≤ ((setOf x).map (scale (Indexer.of ⟨x, f⟩).isLog)).length := by rw [List.length_map]; omega
  have hval : (if (Indexer.of ⟨x, f⟩).isLog then Real.log v else v) = scale (Indexer.of ⟨x, f⟩).isLog v := rfl
  rcases hc with ⟨d, hd⟩ | ⟨hc, w, hw, hwv⟩
  · have hd' : ∀ j, j + 1 < ((setOf x).map (scale (Indexer.of ⟨x, f⟩).isLog)).length →
        ((setOf x).map (scale (Indexer.of ⟨x, f⟩).isLog)).getD (j + 1) 0 - ((setOf x).map (scale (Indexer.of ⟨x, f⟩).isLog)).getD j 0 = d := by
      intro j hj
      rw [List.length_map] at hj
      rw [getD_scale, getD_scale]
      exact hd _ _ (index_next x j hj)
    have hrel := relDist_zero _ hsc hlen d hd'
    have hreg : (Indexer.of ⟨x, f⟩).isRegular = true ∧
        (Indexer.of ⟨x, f⟩).regular = Regular.of ((setOf x).map (scale (Indexer.of ⟨x, f⟩).isLog)) := by
      cases hl : (Indexer.of ⟨x, f⟩).isLog with
      | true =>
        rw [hl] at hrel
        have hbelow : logBelow (setOf x) (1 / 10000) = true := by
          rw [logBelow, logRelDist, if_pos (isLog_pos ⟨x, f⟩ hl)]
          have : relDist ((setOf x).map Real.log) = 0 := hrel
          simp only [this]
          norm_num
        constructor
        · simp only [Indexer.of, hbelow]; rfl
        · simp only [Indexer.of, hbelow]; rfl
      | false =>
        have hid : scale false = id := by funext v; simp [scale]
        rw [hl, hid, List.map_id] at hrel
        rw [hid, List.map_id]
        refine ⟨?_, indexer_log_regular ⟨x, f⟩ hl⟩
        simp only [Indexer.of, hrel]
        norm_num
    refine ⟨(Regular.of ((setOf x).map (scale (Indexer.of ⟨x, f⟩).isLog))).find (scale (Indexer.of ⟨x, f⟩).isLog v), ?_,
      regular_fits _ hsc _ hlen d hd' hb.1 hb.2⟩
    rw [Indexer.find, hval, hreg.1, hreg.2]
    simp
  · have hf : ((setOf x).map (scale (Indexer.of ⟨x, f⟩).isLog)).getD 0 0 < scale (Indexer.of ⟨x, f⟩).isLog v := by
      rw [getD_scale]
      have hm := (mem_setOf x _).mp (getD_mem (setOf x) 0 (by omega))
      refine scale_strict x f _ v hm ?_
      obtain ⟨i, hi, rfl⟩ := mem_getD _ w ((mem_setOf x w).mpr hw)
      rcases Nat.eq_zero_or_pos i with rfl | h
      · exact hwv
      · exact (getD_lt _ (setOf_sorted x) 0 i h hi).trans hwv
    obtain ⟨r, hr, hfit, -⟩ := irregular_fits _ _ hlen hf hb.2
    refine ⟨r, ?_, hfit⟩
    rw [Indexer.find, hval, hc, indexer_irregular_scale]
    simpa using hr

/-! ## The stored values -/

theorem position_eq (L : List ℝ) (hL : L.Pairwise (· < ·)) (k : Nat) (hk : k < L.length) : position L (L.getD k 0) = k := findIdx_eq L hL k hk

theorem position_inj (x : List ℝ) (v : ℝ) (hv : v ∈ x) (k : Nat) (h : k = position (setOf x) v) :
    v = (setOf x).getD k 0 := by
  obtain ⟨i, hi, rfl⟩ := mem_getD _ v ((mem_setOf x v).mpr hv)
  rw [position_eq _ (setOf_sorted x) i hi] at h
  rw [h]

theorem fill2_append {A : Type} (xs ys : List ℝ) (p q : List (ℝ × ℝ × A)) (m : Nat → Nat → Option A) :
    fill2 xs ys (p ++ q) m = fill2 xs ys q (fill2 xs ys p m) := List.foldl_append

theorem fill2_other {A : Type} (xs ys : List ℝ) (p : List (ℝ × ℝ × A)) (m : Nat → Nat → Option A) (i j : Nat)
    (h : ∀ q ∈ p, ¬ (i = position xs q.1 ∧ j = position ys q.2.1)) : fill2 xs ys p m i j = m i j := by
  induction p generalizing m with
  | nil => rfl
  | cons a p ih =>
    have := ih (fun i j => if i = position xs a.1 ∧ j = position ys a.2.1 then some a.2.2 else m i j) fun q hq => h q (List.mem_cons_of_mem _ hq)
    rw [if_neg (h a List.mem_cons_self)] at this
    exact this

/-- The rows with values changed by a function. -/
theorem zip_values {A : Type} (x y f : List ℝ) (g : ℝ → A) :
    x.zip (y.zip (f.map g)) = (x.zip (y.zip f)).map fun p => (p.1, p.2.1, g p.2.2) := by
  have h1 : ∀ (y f : List ℝ), y.zip (f.map g) = (y.zip f).map fun p => (p.1, g p.2) := by
    intro y f
    rw [List.zip_map_right]; rfl
  rw [h1, List.zip_map_right]; rfl

theorem points_mem (t : Data2) (q : ℝ × ℝ × ℝ) (h : q ∈ t.points) : q.1 ∈ t.x ∧ q.2.1 ∈ t.y := by
  obtain ⟨a, b, c⟩ := q
  have := List.of_mem_zip h
  exact ⟨this.1, (List.of_mem_zip this.2).1⟩

/-- The last row for a point decides what is stored, whatever was stored before. -/
theorem fill2_entry {A : Type} (t : Data2) (g : ℝ → A) (m : Nat → Nat → Option A) (i j : Nat) (hi : i < (setOf t.x).length)
    (hj : j < (setOf t.y).length) (f : ℝ) (he : Entry t ((setOf t.x).getD i 0) ((setOf t.y).getD j 0) f) :
    fill2 (setOf t.x) (setOf t.y) (t.x.zip (t.y.zip (t.f.map g))) m i j = some (g f) := by
  obtain ⟨p, q, hpq, hq⟩ := he
  have hz := zip_values t.x t.y t.f g
  rw [show t.x.zip (t.y.zip t.f) = t.points from rfl, hpq, List.map_append, List.map_cons] at hz
  rw [hz, fill2_append, show ∀ (a : ℝ × ℝ × A) l, a :: l = [a] ++ l from fun _ _ => rfl, fill2_append, fill2_other]
  · rw [fill2, List.foldl_cons, List.foldl_nil, if_pos ⟨(position_eq _ (setOf_sorted _) i hi).symm, (position_eq _ (setOf_sorted _) j hj).symm⟩]
  · intro r hr ⟨h1, h2⟩
    obtain ⟨r', hr', rfl⟩ := List.mem_map.mp hr
    have hm := points_mem t r' (by rw [hpq]; exact List.mem_append_right _ (List.mem_cons_of_mem _ hr'))
    exact hq r' hr' ⟨position_inj t.x _ hm.1 i h1, position_inj t.y _ hm.2 j h2⟩

/-- Where the table has no row the old value is kept. -/
theorem fill2_none {A : Type} (t : Data2) (g : ℝ → A) (m : Nat → Nat → Option A) (i j : Nat)
    (he : ∀ q ∈ t.points, ¬ (q.1 = (setOf t.x).getD i 0 ∧ q.2.1 = (setOf t.y).getD j 0)) :
    fill2 (setOf t.x) (setOf t.y) (t.x.zip (t.y.zip (t.f.map g))) m i j = m i j := by
  refine fill2_other _ _ _ _ _ _ fun r hr ⟨h1, h2⟩ => ?_
  rw [zip_values] at hr
  obtain ⟨r', hr', rfl⟩ := List.mem_map.mp hr
  have hm := points_mem t r' hr'
  exact he r' hr' ⟨position_inj t.x _ hm.1 i h1, position_inj t.y _ hm.2 j h2⟩

theorem entry_unique (t : Data2) (x y f g : ℝ) (h1 : Entry t x y f) (h2 : Entry t x y g) : f = g := by
  obtain ⟨a, b, e1, hb⟩ := h1
  obtain ⟨c, d, e2, hd⟩ := h2
  rw [e1] at e2
  rcases List.append_eq_append_iff.mp e2 with ⟨l, h3, h4⟩ | ⟨l, h3, h4⟩
  · cases l with
    | nil => simp at h4; exact h4.1
    | cons p l =>
      rw [List.cons_append, List.cons.injEq] at h4
      exact absurd ⟨rfl, rfl⟩ (hb (x, y, g) (by rw [h4.2]; simp))
  · cases l with
    | nil => simp at h4; exact h4.1.symm
    | cons p l =>
      rw [List.cons_append, List.cons.injEq] at h4
      exact absurd ⟨rfl, rfl⟩ (hd (x, y, f) (by rw [h4.2]; simp))

theorem setTable_ok (old : Interp2) (t : Data2) (s : Interp2) (h : setTable old t = .ok s) :
    s = build2 old t ∧ (Indexer.of ⟨t.x, t.f⟩).isLog = false ∧ (Indexer.of ⟨t.y, t.f⟩).isLog = false := by
  rw [setTable] at h
  split at h
  · cases h
  · split at h
    · cases h
    · rename_i hl
      have hl' : ((Indexer.of ⟨t.x, t.f⟩).isLog || (Indexer.of ⟨t.y, t.f⟩).isLog) = false := by simpa [build2] using hl
      rw [Bool.or_eq_false_iff] at hl'
      exact ⟨(Res.ok.inj h).symm, hl'.1, hl'.2⟩

/-! ## Interpolation -/

theorem corners_line (x0 x1 y0 y1 f00 f01 f10 f11 x y : ℝ) (hx : x0 < x1) (hy : y0 < y1) :
    corners (x - x0) (x1 - x0 - (x - x0)) (x1 - x0) (y - y0) (y1 - y0 - (y - y0)) (y1 - y0) f00 f01 f10 f11 =
      bilinear x0 x1 y0 y1 f00 f01 f10 f11 x y := by
  have h1 : x1 - x0 ≠ 0 := (sub_pos.mpr hx).ne'
  have h2 : y1 - y0 ≠ 0 := (sub_pos.mpr hy).ne'
  rw [corners, bilinear, line, line, line]
  field_simp
  ring

/-- Whichever cell containing the point is used, bilinear interpolation has the same value. -/
theorem bilinear_unique (L M : List ℝ) (hL : L.Pairwise (· < ·)) (hM : M.Pairwise (· < ·)) (F : Nat → Nat → ℝ) (x y : ℝ) (i k j l : Nat)
    (hi : i + 1 < L.length) (hk : k + 1 < L.length) (hj : j + 1 < M.length) (hl : l + 1 < M.length)
    (hi0 : L.getD i 0 ≤ x) (hi1 : x ≤ L.getD (i + 1) 0) (hk0 : L.getD k 0 ≤ x) (hk1 : x ≤ L.getD (k + 1) 0)
    (hj0 : M.getD j 0 ≤ y) (hj1 : y ≤ M.getD (j + 1) 0) (hl0 : M.getD l 0 ≤ y) (hl1 : y ≤ M.getD (l + 1) 0) :
    bilinear (L.getD i 0) (L.getD (i + 1) 0) (M.getD j 0) (M.getD (j + 1) 0) (F i j) (F i (j + 1)) (F (i + 1) j) (F (i + 1) (j + 1)) x y =
      bilinear (L.getD k 0) (L.getD (k + 1) 0) (M.getD l 0) (M.getD (l + 1) 0) (F k l) (F k (l + 1)) (F (k + 1) l) (F (k + 1) (l + 1)) x y := by
  have hy : ∀ n, line (M.getD j 0) (F n j) (M.getD (j + 1) 0) (F n (j + 1)) y = line (M.getD l 0) (F n l) (M.getD (l + 1) 0) (F n (l + 1)) y :=
    fun n => line_unique M hM (F n) y j l hj hl hj0 hj1 hl0 hl1
  rw [bilinear, bilinear, hy, hy]
  exact line_unique L hL (fun n => line (M.getD l 0) (F n l) (M.getD (l + 1) 0) (F n (l + 1)) y) x i k hi hk hi0 hi1 hk0 hk1

/-- The value before the clipping, for any transformation of the stored values. -/
theorem found_cell (old : Interp2) (t : Data2) (hcomp : Complete t) (g : ℝ → ℝ) (x0 x1 y0 y1 f00 f01 f10 f11 : ℝ)
    (hcell : Cell t x0 x1 y0 y1 f00 f01 f10 f11) (x y : ℝ) (hx0 : x0 ≤ x) (hx1 : x ≤ x1) (hy0 : y0 ≤ y) (hy1 : y ≤ y1)
    (hcx : Handled (Indexer.of ⟨t.x, t.f⟩) t.x x) (hcy : Handled (Indexer.of ⟨t.y, t.f⟩) t.y y)
    (s : Interp2) (hs1 : s.ix = Indexer.of ⟨t.x, t.f⟩) (hs2 : s.iy = Indexer.of ⟨t.y, t.f⟩)
    (hfun : s.function = fill2 (setOf t.x) (setOf t.y) (t.x.zip (t.y.zip (t.f.map g))) old.function) :
    ∃ (rx ry : Found) (i j : Nat) (g00 g01 g10 g11 : ℝ), s.ix.find x = .ok rx ∧ s.iy.find y = .ok ry ∧
      (if s.ix.points.length - 1 ≤ rx.index then s.ix.points.length - 2 else rx.index) = i ∧
      (if s.iy.points.length - 1 ≤ ry.index then s.iy.points.length - 2 else ry.index) = j ∧
      i + 1 < (setOf t.x).length ∧ j + 1 < (setOf t.y).length ∧
      Entry t ((setOf t.x).getD i 0) ((setOf t.y).getD j 0) g00 ∧ Entry t ((setOf t.x).getD i 0) ((setOf t.y).getD (j + 1) 0) g01 ∧
      Entry t ((setOf t.x).getD (i + 1) 0) ((setOf t.y).getD j 0) g10 ∧ Entry t ((setOf t.x).getD (i + 1) 0) ((setOf t.y).getD (j + 1) 0) g11 ∧
      atKey s.function i j = .ok (g g00) ∧ atKey s.function i (j + 1) = .ok (g g01) ∧
      atKey s.function (i + 1) j = .ok (g g10) ∧ atKey s.function (i + 1) (j + 1) = .ok (g g11) ∧
      corners (rx.val - rx.xa) (rx.delta - (rx.val - rx.xa)) rx.delta (ry.val - ry.xa) (ry.delta - (ry.val - ry.xa)) ry.delta
          (g g00) (g g01) (g g10) (g g11) =
        bilinear (scale s.ix.isLog x0) (scale s.ix.isLog x1) (scale s.iy.isLog y0) (scale s.iy.isLog y1) (g f00) (g f01) (g f10) (g f11)
          (scale s.ix.isLog x) (scale s.iy.isLog y) := by
  rw [hs1, hs2]
  obtain ⟨rx, hrx, hfx⟩ := axis_fits t.x t.f x x0 x1 hcell.x hx0 hx1 hcx
  obtain ⟨ry, hry, hfy⟩ := axis_fits t.y t.f y y0 y1 hcell.y hy0 hy1 hcy
  obtain ⟨i, vx, xa, dx⟩ := rx
  obtain ⟨j, vy, ya, dy⟩ := ry
  simp only [Fits] at hfx hfy
  obtain ⟨hi, rfl, rfl, rfl, hi0, hi1⟩ := hfx
  obtain ⟨hj, rfl, rfl, rfl, hj0, hj1⟩ := hfy
  obtain ⟨k, hk, ek0, ek1⟩ := next_index t.x x0 x1 hcell.x
  obtain ⟨l, hl, el0, el1⟩ := next_index t.y y0 y1 hcell.y
  rw [List.length_map] at hi hj
  have hval : ∀ i j, i < (setOf t.x).length → j < (setOf t.y).length →
      ∃ f, Entry t ((setOf t.x).getD i 0) ((setOf t.y).getD j 0) f := fun i j hi hj =>
    hcomp _ ((mem_setOf _ _).mp (getD_mem _ i hi)) _ ((mem_setOf _ _).mp (getD_mem _ j hj))
  obtain ⟨g00, h00⟩ := hval i j (by omega) (by omega)
  obtain ⟨g01, h01⟩ := hval i (j + 1) (by omega) hj
  obtain ⟨g10, h10⟩ := hval (i + 1) j hi (by omega)
  obtain ⟨g11, h11⟩ := hval (i + 1) (j + 1) hi hj
  have hat : ∀ i j f, i < (setOf t.x).length → j < (setOf t.y).length → Entry t ((setOf t.x).getD i 0) ((setOf t.y).getD j 0) f →
      atKey s.function i j = .ok (g f) := by
    intro i j f hi hj he
    rw [atKey, hfun, fill2_entry t g _ i j hi hj f he]
  refine ⟨_, _, i, j, g00, g01, g10, g11, hrx, hry, ?_, ?_, hi, hj, h00, h01, h10, h11, hat _ _ _ (by omega) (by omega) h00,
    hat _ _ _ (by omega) hj h01, hat _ _ _ hi (by omega) h10, hat _ _ _ hi hj h11, ?_⟩
  · rw [indexer_points_scale, List.length_map, if_neg (by simp only; omega)]
  · rw [indexer_points_scale, List.length_map, if_neg (by simp only; omega)]
  · have hsx := scale_sorted t.x t.f
    have hsy := scale_sorted t.y t.f
    simp only
    rw [corners_line]
    · classical
      let F : Nat → Nat → ℝ := fun i j => if h : i < (setOf t.x).length ∧ j < (setOf t.y).length then g (hval i j h.1 h.2).choose else 0
      have hFe : ∀ i j f, i < (setOf t.x).length → j < (setOf t.y).length → Entry t ((setOf t.x).getD i 0) ((setOf t.y).getD j 0) f →
          F i j = g f := by
        intro i j f hi hj he
        simp only [F, dif_pos (And.intro hi hj)]
        rw [entry_unique t _ _ _ _ (hval i j hi hj).choose_spec he]
      have := bilinear_unique _ _ hsx hsy F (scale (Indexer.of ⟨t.x, t.f⟩).isLog x) (scale (Indexer.of ⟨t.y, t.f⟩).isLog y) i k j l
        (by rw [List.length_map]; exact hi) (by rw [List.length_map]; exact hk) (by rw [List.length_map]; exact hj)
        (by rw [List.length_map]; exact hl) hi0 hi1
        (by rw [getD_scale, ek0]; exact scale_mono t.x t.f _ _ hcell.x.first hx0)
        (by rw [getD_scale, ek1]; exact scale_le t.x t.f _ _ _ hcell.x.first hx0 hx1) hj0 hj1
        (by rw [getD_scale, el0]; exact scale_mono t.y t.f _ _ hcell.y.first hy0)
        (by rw [getD_scale, el1]; exact scale_le t.y t.f _ _ _ hcell.y.first hy0 hy1)
      rw [hFe i j g00 (by omega) (by omega) h00, hFe i (j + 1) g01 (by omega) hj h01, hFe (i + 1) j g10 hi (by omega) h10,
        hFe (i + 1) (j + 1) g11 hi hj h11, hFe k l f00 (by omega) (by omega) (by rw [ek0, el0]; exact hcell.e00),
        hFe k (l + 1) f01 (by omega) hl (by rw [ek0, el1]; exact hcell.e01), hFe (k + 1) l f10 hk (by omega) (by rw [ek1, el0]; exact hcell.e10),
        hFe (k + 1) (l + 1) f11 hk hl (by rw [ek1, el1]; exact hcell.e11)] at this
      simp only [getD_scale, ek0, ek1, el0, el1] at this
      simp only [getD_scale]
      exact this
    · exact getD_lt _ hsx _ _ (by omega) (by rw [List.length_map]; exact hi)
    · exact getD_lt _ hsy _ _ (by omega) (by rw [List.length_map]; exact hj)

theorem max_if (r : ℝ) : (if r < 0 then 0 else r) = max 0 r := by
  rcases lt_or_ge r 0 with h | h
  · rw [if_pos h, max_eq_left h.le]
  · rw [if_neg (not_lt.mpr h), max_eq_right h]

/-- An accepted table that fills its grid is interpolated bilinearly in every cell, including its boundary; negative results are returned as zero.
The order of the rows, rows that are repeated, and whatever the interpolator held before do not matter. -/
theorem C104_bilinear (old : Interp2) (t : Data2) (s : Interp2) (hs : setTable old t = .ok s) (hcomp : Complete t)
    (x0 x1 y0 y1 f00 f01 f10 f11 : ℝ) (hcell : Cell t x0 x1 y0 y1 f00 f01 f10 f11) (x y : ℝ) (hx0 : x0 ≤ x) (hx1 : x ≤ x1)
    (hy0 : y0 ≤ y) (hy1 : y ≤ y1) (hcx : Handled s.ix t.x x) (hcy : Handled s.iy t.y y) :
    s.eval x y = .ok (max 0 (bilinear x0 x1 y0 y1 f00 f01 f10 f11 x y)) := by
  obtain ⟨rfl, hlx, hly⟩ := setTable_ok old t s hs
  have hfun : (build2 old t).function = fill2 (setOf t.x) (setOf t.y) (t.x.zip (t.y.zip (t.f.map id))) old.function := by
    simp [build2, hlx, hly]
  have hlog : (build2 old t).isLog = false := by simp [build2, hlx, hly]
  obtain ⟨rx, ry, i, j, g00, g01, g10, g11, hrx, hry, ei, ej, hi, hj, -, -, -, -, h00, h01, h10, h11, hcor⟩ :=
    found_cell old t hcomp id x0 x1 y0 y1 f00 f01 f10 f11 hcell x y hx0 hx1 hy0 hy1 hcx hcy (build2 old t) rfl rfl hfun
  rw [Interp2.eval, hrx, okBind, hry, okBind]
  simp only
  rw [ei, ej, h00, okBind, h01, okBind, h10, okBind, h11, okBind, hlog, if_neg (by simp), okBind, hcor]
  have e1 : (build2 old t).ix.isLog = false := hlx
  have e2 : (build2 old t).iy.isLog = false := hly
  rw [e1, e2, max_if]
  rfl

theorem bilinear_between (x0 x1 y0 y1 f00 f01 f10 f11 x y a b : ℝ) (hx : x0 < x1) (hy : y0 < y1) (hx0 : x0 ≤ x) (hx1 : x ≤ x1)
    (hy0 : y0 ≤ y) (hy1 : y ≤ y1) (ha : a ≤ f00 ∧ a ≤ f01 ∧ a ≤ f10 ∧ a ≤ f11) (hb : f00 ≤ b ∧ f01 ≤ b ∧ f10 ≤ b ∧ f11 ≤ b) :
    a ≤ bilinear x0 x1 y0 y1 f00 f01 f10 f11 x y ∧ bilinear x0 x1 y0 y1 f00 f01 f10 f11 x y ≤ b := by
  have key : ∀ u0 u1 u g0 g1 : ℝ, u0 < u1 → u0 ≤ u → u ≤ u1 → a ≤ g0 → a ≤ g1 → g0 ≤ b → g1 ≤ b →
      a ≤ line u0 g0 u1 g1 u ∧ line u0 g0 u1 g1 u ≤ b := by
    intro u0 u1 u g0 g1 h h0 h1 c0 c1 d0 d1
    have hq0 : 0 ≤ (u - u0) / (u1 - u0) := div_nonneg (by linarith) (by linarith)
    have hq1 : (u - u0) / (u1 - u0) ≤ 1 := by rw [div_le_one (by linarith)]; linarith
    have hl : line u0 g0 u1 g1 u = (1 - (u - u0) / (u1 - u0)) * g0 + (u - u0) / (u1 - u0) * g1 := by rw [line]; ring
    rw [hl]
    generalize (u - u0) / (u1 - u0) = q at hq0 hq1
    constructor <;> nlinarith
  have k1 := key y0 y1 y f00 f01 hy hy0 hy1 ha.1 ha.2.1 hb.1 hb.2.1
  have k2 := key y0 y1 y f10 f11 hy hy0 hy1 ha.2.2.1 ha.2.2.2 hb.2.2.1 hb.2.2.2
  exact key x0 x1 x _ _ hx hx0 hx1 k1.1 k2.1 k1.2 k2.2

/-- The interpolated value lies between the smallest and the largest value at the corners of the cell, if these are not all negative. -/
theorem C104_between (old : Interp2) (t : Data2) (s : Interp2) (hs : setTable old t = .ok s) (hcomp : Complete t)
    (x0 x1 y0 y1 f00 f01 f10 f11 : ℝ) (hcell : Cell t x0 x1 y0 y1 f00 f01 f10 f11) (x y : ℝ) (hx0 : x0 ≤ x) (hx1 : x ≤ x1)
    (hy0 : y0 ≤ y) (hy1 : y ≤ y1) (hcx : Handled s.ix t.x x) (hcy : Handled s.iy t.y y) (a b : ℝ)
    (ha : a ≤ f00 ∧ a ≤ f01 ∧ a ≤ f10 ∧ a ≤ f11) (hb : f00 ≤ b ∧ f01 ≤ b ∧ f10 ≤ b ∧ f11 ≤ b) (hb0 : 0 ≤ b) :
    ∃ v, s.eval x y = .ok v ∧ a ≤ v ∧ v ≤ b := by
  have h := bilinear_between x0 x1 y0 y1 f00 f01 f10 f11 x y a b hcell.x.lt hcell.y.lt hx0 hx1 hy0 hy1 ha hb
  exact ⟨_, C104_bilinear old t s hs hcomp x0 x1 y0 y1 f00 f01 f10 f11 hcell x y hx0 hx1 hy0 hy1 hcx hcy, le_max_of_le_right h.1,
    max_le hb0 h.2⟩

theorem line_left (u0 u1 g0 g1 : ℝ) : line u0 g0 u1 g1 u0 = g0 := by simp [line]

theorem line_right (u0 u1 g0 g1 : ℝ) (h : u0 < u1) : line u0 g0 u1 g1 u1 = g1 := by
  rw [line, mul_div_assoc, div_self (sub_pos.mpr h).ne']; ring

/-- A coordinate of an axis with more than one belongs to an interval. -/
theorem in_interval (x : List ℝ) (h2 : 2 ≤ (setOf x).length) (v : ℝ) (hv : v ∈ x) : ∃ a b, Next x a b ∧ (v = a ∨ v = b) := by
  obtain ⟨k, hk, e⟩ := mem_getD _ v ((mem_setOf x v).mpr hv)
  by_cases h : k + 1 < (setOf x).length
  · exact ⟨_, _, index_next x k h, Or.inl e.symm⟩
  · refine ⟨_, _, index_next x (k - 1) (by omega), Or.inr ?_⟩
    rw [show k - 1 + 1 = k by omega]; exact e.symm

/-- Every value of the table that is not negative is given back at its point. -/
theorem C104_values (old : Interp2) (t : Data2) (s : Interp2) (hs : setTable old t = .ok s) (hcomp : Complete t) (x y f : ℝ)
    (he : Entry t x y f) (hf : 0 ≤ f) (hcx : Handled s.ix t.x x) (hcy : Handled s.iy t.y y) : s.eval x y = .ok f := by
  have h2 : 2 ≤ (setOf t.x).length ∧ 2 ≤ (setOf t.y).length := by
    rw [setTable] at hs
    split at hs
    · cases hs
    · rename_i hc
      constructor <;> omega
  have hmem : x ∈ t.x ∧ y ∈ t.y := by
    obtain ⟨a, b, e, -⟩ := he
    exact points_mem t (x, y, f) (by rw [e]; simp)
  obtain ⟨x0, x1, hnx, hx⟩ := in_interval t.x h2.1 x hmem.1
  obtain ⟨y0, y1, hny, hy⟩ := in_interval t.y h2.2 y hmem.2
  obtain ⟨f00, h00⟩ := hcomp x0 hnx.first y0 hny.first
  obtain ⟨f01, h01⟩ := hcomp x0 hnx.first y1 hny.second
  obtain ⟨f10, h10⟩ := hcomp x1 hnx.second y0 hny.first
  obtain ⟨f11, h11⟩ := hcomp x1 hnx.second y1 hny.second
  have hc : Cell t x0 x1 y0 y1 f00 f01 f10 f11 := ⟨hnx, hny, h00, h01, h10, h11⟩
  have hlx := hnx.lt
  have hly := hny.lt
  have hxi : x0 ≤ x ∧ x ≤ x1 := by rcases hx with h | h <;> constructor <;> linarith
  have hyi : y0 ≤ y ∧ y ≤ y1 := by rcases hy with h | h <;> constructor <;> linarith
  rw [C104_bilinear old t s hs hcomp x0 x1 y0 y1 f00 f01 f10 f11 hc x y hxi.1 hxi.2 hyi.1 hyi.2 hcx hcy, bilinear]
  rcases hx with rfl | rfl <;> rcases hy with rfl | rfl
  · rw [line_left, line_left, entry_unique t _ _ _ _ h00 he, max_eq_right hf]
  · rw [line_left, line_right _ _ _ _ hly, entry_unique t _ _ _ _ h01 he, max_eq_right hf]
  · rw [line_right _ _ _ _ hlx, line_left, entry_unique t _ _ _ _ h10 he, max_eq_right hf]
  · rw [line_right _ _ _ _ hlx, line_right _ _ _ _ hly, entry_unique t _ _ _ _ h11 he, max_eq_right hf]

/-- What `SetTable` intends if one of the axes is logarithmic, if the flags for zero values were stored: for a table of positive values the
logarithm of the result is the bilinear interpolation of the logarithms of the values, each axis on its own scale. -/
theorem C104_log_intended (old : Interp2) (t : Data2) (hlog : (build2 old t).isLog = true) (hcomp : Complete t)
    (hpos : ∀ f ∈ t.f, 0 < f) (x0 x1 y0 y1 f00 f01 f10 f11 : ℝ) (hcell : Cell t x0 x1 y0 y1 f00 f01 f10 f11) (x y : ℝ)
    (hx0 : x0 ≤ x) (hx1 : x ≤ x1) (hy0 : y0 ≤ y) (hy1 : y ≤ y1) (hcx : Handled (build2 old t).ix t.x x)
    (hcy : Handled (build2 old t).iy t.y y) :
    (build2 old t).eval x y = .ok (Real.exp (bilinear (scale (build2 old t).ix.isLog x0) (scale (build2 old t).ix.isLog x1)
      (scale (build2 old t).iy.isLog y0) (scale (build2 old t).iy.isLog y1) (Real.log f00) (Real.log f01) (Real.log f10) (Real.log f11)
      (scale (build2 old t).ix.isLog x) (scale (build2 old t).iy.isLog y))) := by
  let g : ℝ → ℝ := fun v => if 0 < v then Real.log v else v
  have hlog' : ((Indexer.of ⟨t.x, t.f⟩).isLog || (Indexer.of ⟨t.y, t.f⟩).isLog) = true := hlog
  have hfun : (build2 old t).function = fill2 (setOf t.x) (setOf t.y) (t.x.zip (t.y.zip (t.f.map g))) old.function := by
    simp only [build2, hlog', if_true, g]
  have hmask : (build2 old t).mask = fill2 (setOf t.x) (setOf t.y) (t.x.zip (t.y.zip (t.f.map fun v => decide (v ≤ 0)))) old.mask := by
    simp only [build2, hlog', if_true]
  obtain ⟨rx, ry, i, j, g00, g01, g10, g11, hrx, hry, ei, ej, hi, hj, n00, n01, n10, n11, h00, h01, h10, h11, hcor⟩ :=
    found_cell old t hcomp g x0 x1 y0 y1 f00 f01 f10 f11 hcell x y hx0 hx1 hy0 hy1 hcx hcy (build2 old t) rfl rfl hfun
  have hentry : ∀ x y f, Entry t x y f → 0 < f := by
    rintro x y f ⟨a, b, e, -⟩
    have : (x, y, f) ∈ t.points := by rw [e]; simp
    exact hpos _ (List.of_mem_zip (List.of_mem_zip this).2).2
  have hg : ∀ x y f, Entry t x y f → g f = Real.log f := fun x y f h => if_pos (hentry x y f h)
  have hz : ∀ i j f, i < (setOf t.x).length → j < (setOf t.y).length → Entry t ((setOf t.x).getD i 0) ((setOf t.y).getD j 0) f →
      atKey (build2 old t).mask i j = .ok false := by
    intro i j f hi hj he
    rw [atKey, hmask, fill2_entry t (fun v => decide (v ≤ 0)) _ i j hi hj f he]
    simp [hentry _ _ _ he]
  rw [hg _ _ _ hcell.e00, hg _ _ _ hcell.e01, hg _ _ _ hcell.e10, hg _ _ _ hcell.e11] at hcor
  rw [Interp2.eval, hrx, okBind, hry, okBind]
  simp only
  rw [ei, ej, h00, okBind, h01, okBind, h10, okBind, h11, okBind, hlog, if_pos rfl, hz i j _ (by omega) (by omega) n00, okBind,
    hz i (j + 1) _ (by omega) hj n01, okBind, hz (i + 1) j _ hi (by omega) n10, okBind, hz (i + 1) (j + 1) _ hi hj n11, okBind, okBind]
  simp only [Bool.or_self, Bool.false_eq_true, if_false]
  rw [hcor, if_neg (not_lt.mpr (Real.exp_pos _).le)]

/-! ## Disagreements -/

/-- Every table one of whose axes has positive coordinates in a constant ratio is undefined. -/
theorem C104_log_fails (old : Interp2) (t : Data2) (h : (∃ v w, v ∈ t.x ∧ w ∈ t.x ∧ v ≠ w) ∧ (∀ v ∈ t.x, 0 < v) ∧ Even true t.x ∨
    (∃ v w, v ∈ t.y ∧ w ∈ t.y ∧ v ≠ w) ∧ (∀ v ∈ t.y, 0 < v) ∧ Even true t.y) : setTable old t = .ub := by
  have key : ∀ x f : List ℝ, (∃ v w, v ∈ x ∧ w ∈ x ∧ v ≠ w) ∧ (∀ v ∈ x, 0 < v) ∧ Even true x → (Indexer.of ⟨x, f⟩).isLog = true := by
    rintro x f ⟨⟨v, w, hv, hw, hne⟩, hp, d, hd⟩
    have hlen : 2 ≤ (setOf x).length := by
      obtain ⟨i, hi, ei⟩ := mem_getD _ v ((mem_setOf x v).mpr hv)
      obtain ⟨j, hj, ej⟩ := mem_getD _ w ((mem_setOf x w).mpr hw)
      have : i ≠ j := by rintro rfl; exact hne (ei.symm.trans ej)
      omega
    have hp' : ∀ v ∈ setOf x, 0 < v := fun v hv => hp v ((mem_setOf x v).mp hv)
    have hrel : relDist ((setOf x).map Real.log) = 0 := by
      refine relDist_zero _ (log_sorted _ (setOf_sorted x) hp') (by rw [List.length_map]; exact hlen) d fun k hk => ?_
      rw [List.length_map] at hk
      rw [getD_log, getD_log]
      exact hd _ _ (index_next x k hk)
    have hbelow : logBelow (setOf x) (1 / 10000) = true := by
      rw [logBelow, logRelDist, if_pos hp']
      simp only [hrel]
      norm_num
    simp only [Indexer.of, hbelow]
    rfl
  rw [setTable]
  have : (build2 old t).isLog = true := by
    rcases h with h | h
    · have := key t.x t.f h
      simp [build2, this]
    · have := key t.y t.f h
      simp [build2, this]
  rw [this]
  simp

/-- A table that does not fill its grid is accepted; evaluating it in a cell with a missing corner throws. -/
theorem C104_missing_fails (t : Data2) (s : Interp2) (hs : setTable fresh t = .ok s) (x0 x1 y0 y1 x y : ℝ) (hx : Next t.x x0 x1)
    (hy : Next t.y y0 y1) (hx0 : x0 < x) (hx1 : x < x1) (hy0 : y0 < y) (hy1 : y < y1) (hcx : Handled s.ix t.x x) (hcy : Handled s.iy t.y y)
    (a b : ℝ) (ha : a = x0 ∨ a = x1) (hb : b = y0 ∨ b = y1) (hm : ∀ q ∈ t.points, ¬ (q.1 = a ∧ q.2.1 = b)) :
    s.eval x y = .throws .outOfRange := by
  obtain ⟨rfl, hlx, hly⟩ := setTable_ok fresh t s hs
  obtain ⟨rx, hrx, hfx⟩ := axis_fits t.x t.f x x0 x1 hx hx0.le hx1.le hcx
  obtain ⟨ry, hry, hfy⟩ := axis_fits t.y t.f y y0 y1 hy hy0.le hy1.le hcy
  have hid : scale false = id := by funext v; simp [scale]
  rw [hlx, hid, List.map_id] at hfx
  rw [hly, hid, List.map_id] at hfy
  have hcell : ∀ (L : List ℝ) (hL : L.Pairwise (· < ·)) (v a b : ℝ) (k : Nat) (r : Found), k + 1 < L.length → L.getD k 0 = a →
      L.getD (k + 1) 0 = b → a < v → v < b → Fits L v r → r.index = k := by
    intro L hL v a b k r hk ea eb hav hvb hr
    obtain ⟨h1, -, -, -, h2, h3⟩ := hr
    have k1 : r.index < k + 1 := lt_of_getD_lt L hL _ _ (by omega) (by rw [eb]; linarith)
    have k2 : k < r.index + 1 := lt_of_getD_lt L hL _ _ (by omega) (by rw [ea]; linarith)
    omega
  obtain ⟨k, hk, ek0, ek1⟩ := next_index t.x x0 x1 hx
  obtain ⟨l, hl, el0, el1⟩ := next_index t.y y0 y1 hy
  have ei := hcell _ (setOf_sorted _) _ _ _ k rx hk ek0 ek1 hx0 hx1 hfx
  have ej := hcell _ (setOf_sorted _) _ _ _ l ry hl el0 el1 hy0 hy1 hfy
  have hfun : (build2 fresh t).function = fill2 (setOf t.x) (setOf t.y) (t.x.zip (t.y.zip (t.f.map id))) fun _ _ => none := by
    simp [build2, hlx, hly, fresh]
  have hpx : (build2 fresh t).ix.points.length = (setOf t.x).length := by
    change (Indexer.of ⟨t.x, t.f⟩).points.length = _
    rw [indexer_points_scale, List.length_map]
  have hpy : (build2 fresh t).iy.points.length = (setOf t.y).length := by
    change (Indexer.of ⟨t.y, t.f⟩).points.length = _
    rw [indexer_points_scale, List.length_map]
  have hany : ∀ i j, atKey (build2 fresh t).function i j = .throws .outOfRange ∨ ∃ v, atKey (build2 fresh t).function i j = .ok v := by
    intro i j
    rw [atKey]
    cases (build2 fresh t).function i j <;> simp
  have hnone : ∀ i j, i < (setOf t.x).length → j < (setOf t.y).length → (setOf t.x).getD i 0 = a → (setOf t.y).getD j 0 = b →
      atKey (build2 fresh t).function i j = .throws .outOfRange := by
    intro i j _ _ e1 e2
    rw [atKey, hfun, fill2_none t id _ i j (by rw [e1, e2]; exact hm)]
  have hsome : atKey (build2 fresh t).function k l = .throws .outOfRange ∨ atKey (build2 fresh t).function k (l + 1) = .throws .outOfRange ∨
      atKey (build2 fresh t).function (k + 1) l = .throws .outOfRange ∨
      atKey (build2 fresh t).function (k + 1) (l + 1) = .throws .outOfRange := by
    rcases ha with rfl | rfl <;> rcases hb with rfl | rfl
    · exact Or.inl (hnone k l (by omega) (by omega) ek0 el0)
    · exact Or.inr (Or.inl (hnone k (l + 1) (by omega) hl ek0 el1))
    · exact Or.inr (Or.inr (Or.inl (hnone (k + 1) l hk (by omega) ek1 el0)))
    · exact Or.inr (Or.inr (Or.inr (hnone (k + 1) (l + 1) hk hl ek1 el1)))
  have hrx' : (build2 fresh t).ix.find x = .ok rx := hrx
  have hry' : (build2 fresh t).iy.find y = .ok ry := hry
  rw [Interp2.eval, hrx', okBind, hry', okBind]
  simp only
  rw [ei, ej, hpx, hpy, if_neg (by omega), if_neg (by omega)]
  rcases hany k l with h | ⟨v, h⟩ <;> rw [h]
  · rfl
  rcases hany k (l + 1) with h' | ⟨v', h'⟩ <;> rw [okBind, h']
  · rfl
  rcases hany (k + 1) l with h'' | ⟨v'', h''⟩ <;> rw [okBind, h'']
  · rfl
  rcases hany (k + 1) (l + 1) with h3 | ⟨v3, h3⟩ <;> rw [okBind, h3]
  · rfl
  · rw [h, h', h'', h3] at hsome
    simp at hsome

/-! ### Concrete tables -/

theorem setOf_eq (x L : List ℝ) (hL : L.Pairwise (· < ·)) (h : ∀ v, v ∈ x ↔ v ∈ L) : setOf x = L := by
  have : x.toFinset = L.toFinset := by ext v; simp [h]
  rw [setOf, this]
  exact setOf_of_sorted L hL

/-- The indexer of an axis with the coordinates zero and one. -/
theorem unit_axis (x f : List ℝ) (h : setOf x = [0, 1]) : Indexer.of ⟨x, f⟩ = ⟨false, true, [0, 1], Regular.of [0, 1], ⟨[0, 1]⟩⟩ := by
  have hb : ∀ b, logBelow [0, 1] b = false := by
    intro b
    by_contra hc
    exact lt_irrefl _ (logBelow_pos _ _ (by simpa using hc) 0 (by simp))
  have hr : relDist [0, 1] = 0 := by
    refine relDist_zero _ (by simp) (by simp) 1 fun k hk => ?_
    obtain rfl : k = 0 := by simp at hk; exact hk
    simp
  simp only [Indexer.of, h, hb, hr]
  norm_num

theorem unit_even (x : List ℝ) (h : setOf x = [0, 1]) : Even false x := by
  refine ⟨1, fun a b hn => ?_⟩
  obtain ⟨k, hk, e0, e1⟩ := next_index x a b hn
  rw [h] at hk e0 e1
  obtain rfl : k = 0 := by simp at hk; exact hk
  simp at e0 e1
  rw [← e0, ← e1]
  simp [scale]

theorem unit_next (x : List ℝ) (h : setOf x = [0, 1]) : Next x 0 1 := by
  have := index_next x 0 (by rw [h]; simp)
  rw [h] at this
  simpa using this

theorem unit_table (old : Interp2) (t : Data2) (hx : setOf t.x = [0, 1]) (hy : setOf t.y = [0, 1]) (h1 : 2 ≤ t.f.length)
    (h2 : t.x.length ≤ t.y.length) (h3 : t.x.length ≤ t.f.length) : setTable old t = .ok (build2 old t) := by
  rw [setTable, if_neg (by rw [hx, hy]; simp; omega)]
  simp [build2, unit_axis _ _ hx, unit_axis _ _ hy]

theorem unit_four : setOf [0, 1, 0, 1] = [0, 1] ∧ setOf [0, 0, 1, 1] = [0, 1] ∧ setOf [0, 1, 0] = [0, 1] ∧ setOf [0, 0, 1] = [0, 1] := by
  refine ⟨setOf_eq _ _ (by simp) ?_, setOf_eq _ _ (by simp) ?_, setOf_eq _ _ (by simp) ?_, setOf_eq _ _ (by simp) ?_⟩ <;>
    (intro v; simp; try tauto)

/-- An interpolator that gets a second table answers with values of the first one where the second has none. -/
theorem C104_stale_fails : ∃ s1 s2 : Interp2, setTable fresh ⟨[0, 1, 0, 1], [0, 0, 1, 1], [7, 7, 7, 7]⟩ = .ok s1 ∧
    setTable s1 ⟨[0, 1, 0], [0, 0, 1], [2, 2, 2]⟩ = .ok s2 ∧ s2.eval 1 1 = .ok 7 := by
  obtain ⟨u1, u2, u3, u4⟩ := unit_four
  refine ⟨_, _, unit_table _ _ u1 u2 (by simp) (by simp) (by simp), unit_table _ _ u3 u4 (by simp) (by simp) (by simp), ?_⟩
  obtain ⟨s1, hs1⟩ : ∃ s, s = build2 fresh ⟨[0, 1, 0, 1], [0, 0, 1, 1], [7, 7, 7, 7]⟩ := ⟨_, rfl⟩
  rw [← hs1]
  obtain ⟨t2, ht2⟩ : ∃ t, t = Data2.mk [0, 1, 0] [0, 0, 1] [2, 2, 2] := ⟨_, rfl⟩
  rw [← ht2]
  have hx : setOf t2.x = [0, 1] := by rw [ht2]; exact u3
  have hy : setOf t2.y = [0, 1] := by rw [ht2]; exact u4
  have hf1 : s1.function 1 1 = some 7 := by
    have : s1.function = fill2 [0, 1] [0, 1] [((0 : ℝ), (0 : ℝ), (7 : ℝ)), (1, 0, 7), (0, 1, 7), (1, 1, 7)] fun _ _ => none := by
      rw [hs1]; simp [build2, unit_axis _ _ u1, unit_axis _ _ u2, u1, u2, fresh]
    rw [this]
    simp [fill2, position, List.findIdx_cons]
  have hf : (build2 s1 t2).function = fill2 [0, 1] [0, 1] [((0 : ℝ), (0 : ℝ), (2 : ℝ)), (1, 0, 2), (0, 1, 2)] s1.function := by
    rw [ht2]; simp [build2, unit_axis _ _ u3, unit_axis _ _ u4, u3, u4]
  have g : (build2 s1 t2).function 0 0 = some 2 ∧ (build2 s1 t2).function 0 1 = some 2 ∧ (build2 s1 t2).function 1 0 = some 2 ∧
      (build2 s1 t2).function 1 1 = some 7 := by
    rw [hf]
    simp [fill2, position, List.findIdx_cons, hf1]
  obtain ⟨g00, g01, g10, g11⟩ := g
  have hix : (build2 s1 t2).ix = _ := unit_axis t2.x t2.f hx
  have hiy : (build2 s1 t2).iy = _ := unit_axis t2.y t2.f hy
  have hlog : (build2 s1 t2).isLog = false := by simp [build2, unit_axis _ _ hx, unit_axis _ _ hy]
  have hfind : (Regular.of [0, 1]).find 1 = ⟨0, 1, 0, 1⟩ := by
    simp [Regular.find, Regular.delta, Regular.range, Regular.of]
    norm_num
  rw [Interp2.eval, hix, hiy, hlog]
  simp [Indexer.find, hfind, okBind, atKey, g00, g01, g10, g11, corners]

/-- The zero branch of the logarithmic mode does not give back the values of the table, even if the flags were stored. -/
theorem C104_zero_fails : (build2 fresh ⟨[1, 2, 1, 2], [0, 0, 1, 1], [0, 1, 0, 1]⟩).eval 1 0 = .ok (1 / 2) := by
  have hx : setOf [1, 2, 1, 2] = [1, 2] := setOf_eq _ _ (by simp) (by intro v; simp; try tauto)
  obtain ⟨-, hy, -, -⟩ := unit_four
  have hlogs : Real.log 1 < Real.log 2 := Real.log_lt_log (by norm_num) (by norm_num)
  have hbelow : logBelow [1, 2] (1 / 10000) = true := by
    rw [logBelow, logRelDist, if_pos (by simp)]
    simp only
    rw [relDist_zero _ (by simpa using hlogs) (by simp) (Real.log 2 - Real.log 1)]
    · norm_num
    · intro k hk
      obtain rfl : k = 0 := by simp at hk; exact hk
      simp
  have hix : Indexer.of ⟨[1, 2, 1, 2], [0, 1, 0, 1]⟩ =
      ⟨true, true, [0, Real.log 2], Regular.of [0, Real.log 2], ⟨[0, Real.log 2]⟩⟩ := by
    simp only [Indexer.of, hx, hbelow]
    simp
  have hiy := unit_axis [0, 0, 1, 1] [0, 1, 0, 1] hy
  obtain ⟨t, ht⟩ : ∃ t, t = Data2.mk [1, 2, 1, 2] [0, 0, 1, 1] [0, 1, 0, 1] := ⟨_, rfl⟩
  have e1 : (build2 fresh t).ix = ⟨true, true, [0, Real.log 2], Regular.of [0, Real.log 2], ⟨[0, Real.log 2]⟩⟩ := by rw [ht]; exact hix
  have e2 : (build2 fresh t).iy = ⟨false, true, [0, 1], Regular.of [0, 1], ⟨[0, 1]⟩⟩ := by rw [ht]; exact hiy
  have hlog : (build2 fresh t).isLog = true := by rw [ht]; simp [build2, hix]
  have hfun : (build2 fresh t).function = fill2 [1, 2] [0, 1] [((1 : ℝ), (0 : ℝ), (0 : ℝ)), (2, 0, 0), (1, 1, 0), (2, 1, 0)] fun _ _ => none := by
    rw [ht]; simp [build2, hix, hx, hy, fresh]
  have hmask : (build2 fresh t).mask = fill2 [1, 2] [0, 1] [((1 : ℝ), (0 : ℝ), true), (2, 0, false), (1, 1, true), (2, 1, false)] fun _ _ => none := by
    have hd : decide ((1 : ℝ) ≤ 0) = false := by norm_num
    rw [ht]; simp [build2, hix, hx, hy, fresh, hd]
  have g : (build2 fresh t).function 0 0 = some 0 ∧ (build2 fresh t).function 0 1 = some 0 ∧ (build2 fresh t).function 1 0 = some 0 ∧
      (build2 fresh t).function 1 1 = some 0 := by
    rw [hfun]; simp [fill2, position, List.findIdx_cons]
  have m : (build2 fresh t).mask 0 0 = some true ∧ (build2 fresh t).mask 0 1 = some true ∧ (build2 fresh t).mask 1 0 = some false ∧
      (build2 fresh t).mask 1 1 = some false := by
    rw [hmask]; simp [fill2, position, List.findIdx_cons]
  obtain ⟨g00, g01, g10, g11⟩ := g
  obtain ⟨m00, m01, m10, m11⟩ := m
  have f1 : (Regular.of [0, Real.log 2]).find 0 = ⟨0, 0, 0, Real.log 2⟩ := by
    simp [Regular.find, Regular.delta, Regular.range, Regular.of]
    norm_num
  have f2 : (Regular.of [0, 1]).find 0 = ⟨0, 0, 0, 1⟩ := by
    simp [Regular.find, Regular.delta, Regular.range, Regular.of]
    norm_num
  rw [← ht, Interp2.eval, e1, e2, hlog]
  simp [Indexer.find, f1, f2, okBind, atKey, g00, g01, g10, g11, m00, m01, m10, m11, corners, Real.exp_log]

/-! ## The hypotheses are met -/

example : ∃ s, setTable fresh ⟨[0, 1, 0, 1], [0, 0, 1, 1], [0, 1, 2, 5]⟩ = .ok s ∧ s.eval (1 / 2) (1 / 4) = .ok (5 / 4) ∧ s.eval 1 1 = .ok 5 := by
  obtain ⟨u1, u2, -, -⟩ := unit_four
  obtain ⟨t, ht⟩ : ∃ t, t = Data2.mk [0, 1, 0, 1] [0, 0, 1, 1] [0, 1, 2, 5] := ⟨_, rfl⟩
  have hx : setOf t.x = [0, 1] := by rw [ht]; exact u1
  have hy : setOf t.y = [0, 1] := by rw [ht]; exact u2
  have hs : setTable fresh t = .ok (build2 fresh t) := unit_table _ _ hx hy (by simp [ht]) (by simp [ht]) (by simp [ht])
  have hp : t.points = [(0, 0, 0), (1, 0, 1), (0, 1, 2), (1, 1, 5)] := by rw [ht]; rfl
  have e00 : Entry t 0 0 0 := ⟨[], [(1, 0, 1), (0, 1, 2), (1, 1, 5)], hp, by simp⟩
  have e10 : Entry t 1 0 1 := ⟨[(0, 0, 0)], [(0, 1, 2), (1, 1, 5)], hp, by simp⟩
  have e01 : Entry t 0 1 2 := ⟨[(0, 0, 0), (1, 0, 1)], [(1, 1, 5)], hp, by simp⟩
  have e11 : Entry t 1 1 5 := ⟨[(0, 0, 0), (1, 0, 1), (0, 1, 2)], [], hp, by simp⟩
  have hcomp : Complete t := by
    intro x hx' y hy'
    rw [ht] at hx' hy'
    have h1 : x = 0 ∨ x = 1 := by simp at hx'; tauto
    have h2 : y = 0 ∨ y = 1 := by simp at hy'; tauto
    rcases h1 with rfl | rfl <;> rcases h2 with rfl | rfl
    · exact ⟨_, e00⟩
    · exact ⟨_, e01⟩
    · exact ⟨_, e10⟩
    · exact ⟨_, e11⟩
  have hcx : ∀ v, Handled (build2 fresh t).ix t.x v := fun v => Or.inl (by
    change Even (Indexer.of ⟨t.x, t.f⟩).isLog t.x
    rw [unit_axis _ _ hx]; exact unit_even _ hx)
  have hcy : ∀ v, Handled (build2 fresh t).iy t.y v := fun v => Or.inl (by
    change Even (Indexer.of ⟨t.y, t.f⟩).isLog t.y
    rw [unit_axis _ _ hy]; exact unit_even _ hy)
  rw [← ht]
  refine ⟨_, hs, ?_, C104_values fresh t _ hs hcomp 1 1 5 e11 (by norm_num) (hcx _) (hcy _)⟩
  rw [C104_bilinear fresh t _ hs hcomp 0 1 0 1 0 2 1 5 ⟨unit_next _ hx, unit_next _ hy, e00, e01, e10, e11⟩ (1 / 2) (1 / 4) (by norm_num)
    (by norm_num) (by norm_num) (by norm_num) (hcx _) (hcy _)]
  norm_num [bilinear, line]

end Siren.Math.Table
