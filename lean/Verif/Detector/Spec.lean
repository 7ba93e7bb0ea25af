import Verif.Detector.Model

set_option autoImplicit false

/-!
# Specification vocabulary for walking a line through sectors

Independent of the code: what a set of sectors looks like along one line, who owns a point of the line, and what it means
for a list of segments to cover a stretch of the line.
-/

namespace Siren.Detector

variable {D : Type}

/-- A sector as seen along one line: its level and the stretches (chords) of the line inside it. -/
structure LineSector (D : Type) where
  level : Int
  chords : List (D × D)
  deriving DecidableEq, Repr

/-- `t` is strictly inside the sector. -/
def LineSector.Inside [LT D] (s : LineSector D) (t : D) : Prop := ∃ c ∈ s.chords, c.1 < t ∧ t < c.2

/-- Chords have positive length and follow each other. -/
def LineSector.Ordered [LT D] [LE D] (s : LineSector D) : Prop :=
  (∀ c ∈ s.chords, c.1 < c.2) ∧ s.chords.Pairwise (fun c c' => c.2 ≤ c'.1)

/-- The two boundary crossings of a chord. -/
def chordHits (level : Int) (c : D × D) : List (Hit D) := [⟨c.1, level, true⟩, ⟨c.2, level, false⟩]

/-- The boundary crossings a sector contributes (what `AppendSectorIntersections` appends). -/
def LineSector.hits (s : LineSector D) : List (Hit D) := s.chords.flatMap (chordHits s.level)

/-- A set of sectors along one line: an all-enclosing one (`UNIVERSE`) with the single chord `(lo, hi)`, and others. -/
structure Layout (D : Type) where
  outerLevel : Int
  lo : D
  hi : D
  inner : List (LineSector D)

/-- The enclosing sector. -/
def Layout.outer (L : Layout D) : LineSector D := ⟨L.outerLevel, [(L.lo, L.hi)]⟩

/-- All sectors. -/
def Layout.sectors (L : Layout D) : List (LineSector D) := L.outer :: L.inner

/-- Levels are distinct, the enclosing sector is the lowest and really encloses the others, chords are in order. -/
structure Layout.WF [LT D] [LE D] (L : Layout D) : Prop where
  lo_lt_hi : L.lo < L.hi
  distinct : (L.inner.map LineSector.level).Nodup
  above : ∀ s ∈ L.inner, L.outerLevel < s.level
  ordered : ∀ s ∈ L.inner, s.Ordered
  within : ∀ s ∈ L.inner, ∀ c ∈ s.chords, L.lo < c.1 ∧ c.2 < L.hi

/-- All boundary crossings, in no particular order. -/
def Layout.hits (L : Layout D) : List (Hit D) := L.sectors.flatMap LineSector.hits

/-- `level` is the highest level of the sectors containing `t`. -/
def Layout.Owner [LT D] (L : Layout D) (t : D) (level : Int) : Prop :=
  (∃ s ∈ L.sectors, s.level = level ∧ s.Inside t) ∧ ∀ s ∈ L.sectors, s.Inside t → s.level ≤ level

/-- One call of the callback of `SectorLoop`. -/
structure Segment (D : Type) where
  current : Hit D
  next : Hit D
  lastPoint : D
  deriving DecidableEq, Repr

/-- Call the callback on each segment in turn until it says it is done. -/
def runSegments {σ : Type} (cb : σ → Hit D → Hit D → D → Res (Bool × σ)) : List (Segment D) → σ → Res σ
  | [], s => .ok s
  | g :: gs, s => (cb s g.current g.next g.lastPoint).bind fun (done, s) => if done then .ok s else runSegments cb gs s

/-- The segments join up and lead from `a` to `b` without going back; `le` is `≤` or `≥` depending on the direction. -/
def Covers (le : D → D → Prop) : D → D → List (Segment D) → Prop
  | a, b, [] => a = b
  | a, b, g :: gs => g.lastPoint = a ∧ le a g.next.distance ∧ Covers le g.next.distance b gs

/-- `t` lies strictly between the ends of the segment. -/
def Segment.Has [LT D] (g : Segment D) (t : D) : Prop :=
  (g.lastPoint < t ∧ t < g.next.distance) ∨ (g.next.distance < t ∧ t < g.lastPoint)

end Siren.Detector
