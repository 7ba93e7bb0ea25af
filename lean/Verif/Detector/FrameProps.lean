import Verif.Detector.FrameModel
import Verif.Detector.InverseProps
import Verif.Detector.InteractionProps
import Verif.Math.QuatProps

set_option autoImplicit false

/-!
# C28: detector coordinates

Specification: what the same detector looks like when everything is described in detector coordinates. The queries taking
detector coordinates must answer as the queries of that description.
-/

namespace Siren.Detector

open Siren

namespace Frame

/-! ### Specification -/

/-- The rotation is a proper one: not zero, and either of length one or visibly not of length one (between, `rotate` does not
normalize and the conversions are inverse up to a factor within 1e-11 of one, `C28_nearly_unit`). -/
def Proper (F : Frame) : Prop := F.rotation.IsUnit ∨ (F.rotation.normSq ≠ 0 ∧ 1e-12 ≤ |F.rotation.normSq - 1|)

/-- A density profile described in detector coordinates. -/
noncomputable def density (F : Frame) (ρ : Density) : Density where
  evaluate p := ρ.evaluate (F.toGeo p)
  integral p d x := ρ.integral (F.toGeo p) (F.toGeoDir d) x
  inverse p d i x := ρ.inverse (F.toGeo p) (F.toGeoDir d) i x
  inverseC p d k i x := ρ.inverseC (F.toGeo p) (F.toGeoDir d) k i x

/-- A sector described in detector coordinates. -/
noncomputable def sector (F : Frame) (s : Sector) : Sector := { s with density := F.density s.density }

/-- The detector described in detector coordinates. -/
noncomputable def model (F : Frame) (m : DetModel) : DetModel := { m with sectors := m.sectors.map F.sector }

/-- A line described in detector coordinates: the crossings keep their distances. -/
noncomputable def line (F : Frame) (I : Line) : Line := { I with position := F.toDet I.position, direction := F.toDetDir I.direction }

/-! ### Conversions -/

variable {F : Frame}

theorem Proper.normalized (h : F.Proper) : ∃ q : Quat, q.IsUnit ∧ ∀ p inv, F.rotation.rotate p inv = q.rotate p inv := by
  rcases h with h | ⟨h0, h1⟩
  · exact ⟨_, h, fun _ _ => rfl⟩
  · refine ⟨F.rotation.normalize, Quat.normalize_unit _ h0, fun p inv => ?_⟩
    obtain ⟨s, -, hs, he⟩ := Quat.C43_any_length F.rotation h0 p inv
    rw [he, hs h1]
    ext <;> simp

theorem Proper.rot (h : F.Proper) (inv : Bool) : Quat.IsRotation (fun p => F.rotation.rotate p inv) := by
  obtain ⟨q, hq, e⟩ := h.normalized
  have : (fun p => F.rotation.rotate p inv) = fun p => q.rotate p inv := funext fun p => e p inv
  rw [this]
  exact Quat.C43_is_rotation hq inv

theorem Proper.inv (h : F.Proper) (p : Vec3 ℝ) :
    F.rotation.rotate (F.rotation.rotate p false) true = p ∧ F.rotation.rotate (F.rotation.rotate p true) false = p := by
  obtain ⟨q, hq, e⟩ := h.normalized
  simp only [e]
  exact Quat.C43_inverse hq p

/-- **C28, conversions.** The two conversions are mutually inverse, for positions and for directions. -/
theorem C28_inverse (h : F.Proper) (p d : Vec3 ℝ) :
    F.toDet (F.toGeo p) = p ∧ F.toGeo (F.toDet p) = p ∧ F.toDetDir (F.toGeoDir d) = d ∧ F.toGeoDir (F.toDetDir d) = d := by
  refine ⟨?_, ?_, (h.inv d).1, (h.inv d).2⟩
  · unfold toDet toGeo
    have : F.rotation.rotate p false + F.origin - F.origin = F.rotation.rotate p false := by ext <;> simp
    rw [this, (h.inv p).1]
  · unfold toDet toGeo
    rw [(h.inv _).2]
    ext <;> simp

/-- **C28, isometry.** Distances between positions, lengths of and angles between directions and the orientation are preserved. -/
theorem C28_isometry (h : F.Proper) (p q d e : Vec3 ℝ) :
    Vec3.norm (F.toGeo p - F.toGeo q) = Vec3.norm (p - q) ∧ Vec3.norm (F.toDet p - F.toDet q) = Vec3.norm (p - q) ∧
    Vec3.dot (F.toGeoDir d) (F.toGeoDir e) = Vec3.dot d e ∧ Vec3.dot (F.toDetDir d) (F.toDetDir e) = Vec3.dot d e ∧
    Vec3.cross (F.toGeoDir d) (F.toGeoDir e) = F.toGeoDir (Vec3.cross d e) := by
  have sub : ∀ i u v, F.rotation.rotate u i - F.rotation.rotate v i = F.rotation.rotate (u - v) i := by
    intro i u v
    have e : u - v = u + Vec3.smul (-1) v := by ext <;> simp <;> ring
    have h1 := (h.rot i).add u (Vec3.smul (-1) v)
    have h2 := (h.rot i).smul (-1) v
    rw [e, h1, h2]
    ext <;> simp <;> ring
  refine ⟨?_, ?_, (h.rot false).dot d e, (h.rot true).dot d e, (h.rot false).cross d e⟩
  · unfold Vec3.norm toGeo
    have e : F.rotation.rotate p false + F.origin - (F.rotation.rotate q false + F.origin) = F.rotation.rotate (p - q) false := by
      rw [← sub]; ext <;> simp
    rw [e, (h.rot false).dot]
  · unfold Vec3.norm toDet
    have e : p - F.origin - (q - F.origin) = p - q := by ext <;> simp
    rw [sub, e, (h.rot true).dot]

/-- **C28, lines.** Walking from a position along a direction is the same in both descriptions: directions are not translated. -/
theorem C28_line (h : F.Proper) (p d : Vec3 ℝ) (t : ℝ) :
    F.toGeo (p + Vec3.smul t d) = F.toGeo p + Vec3.smul t (F.toGeoDir d) ∧
    F.toDet (p + Vec3.smul t d) = F.toDet p + Vec3.smul t (F.toDetDir d) := by
  have h1 := (h.rot false).add p (Vec3.smul t d)
  have h2 := (h.rot false).smul t d
  have h3 := (h.rot true).add (p - F.origin) (Vec3.smul t d)
  have h4 := (h.rot true).smul t d
  constructor
  · unfold toGeo toGeoDir
    rw [h1, h2]
    ext <;> simp <;> ring
  · unfold toDet toDetDir
    have e : p + Vec3.smul t d - F.origin = p - F.origin + Vec3.smul t d := by ext <;> simp <;> ring
    rw [e, h3, h4]

/-- **C28, quaternions of length almost one.** For every rotation quaternion but zero, converting there and back changes a
position by at most a factor within 1e-11 of one (relative to the origin). -/
theorem C28_nearly_unit (F : Frame) (h : F.rotation.normSq ≠ 0) (p : Vec3 ℝ) :
    ∃ s : ℝ, |s - 1| < 1e-11 ∧ F.toDet (F.toGeo p) = Vec3.smul s p := by
  have hq := Quat.normalize_unit F.rotation h
  obtain ⟨s, hs, -, he⟩ := Quat.C43_any_length F.rotation h p false
  obtain ⟨s', hs', -, he'⟩ := Quat.C43_any_length F.rotation h (F.rotation.rotate p false) true
  refine ⟨s' * s, ?_, ?_⟩
  · rw [abs_lt] at *
    constructor <;> nlinarith
  · unfold toDet toGeo
    have : F.rotation.rotate p false + F.origin - F.origin = F.rotation.rotate p false := by ext <;> simp
    rw [this, he', he]
    have hsm := (Quat.C43_is_rotation hq true).smul s (F.rotation.normalize.rotate p false)
    rw [hsm, (Quat.C43_inverse hq p).1]
    ext <;> simp <;> ring

/-! ### Queries -/

theorem getSector_model (F : Frame) (m : DetModel) (level : Int) :
    (F.model m).getSector level = (m.getSector level).bind fun s => .ok (F.sector s) := by
  unfold DetModel.getSector model
  have : (m.sectors.map F.sector).find? (fun s => s.level == level) =
      (m.sectors.find? (fun s => s.level == level)).map F.sector := by
    rw [List.find?_map]; rfl
  rw [this]
  cases m.sectors.find? (fun s => s.level == level) <;> rfl

theorem bind_bind {α β γ : Type} (x : Res α) (f : α → Res β) (g : β → Res γ) :
    (x.bind f).bind g = x.bind fun a => (f a).bind g := by cases x <;> rfl

theorem getSector_bind (F : Frame) (m : DetModel) (level : Int) {α : Type} (f : Sector → Res α) :
    ((F.model m).getSector level).bind f = (m.getSector level).bind fun s => f (F.sector s) := by
  rw [getSector_model, bind_bind]; rfl

theorem toGeo_sub (h : F.Proper) (p q : Vec3 ℝ) : F.toGeo p - F.toGeo q = F.toGeoDir (p - q) := by
  have e : p = q + Vec3.smul 1 (p - q) := by ext <;> simp
  conv_lhs => rw [e, (C28_line h q (p - q) 1).1]
  ext <;> simp

theorem toGeoDir_norm (h : F.Proper) (d : Vec3 ℝ) : Vec3.norm (F.toGeoDir d) = Vec3.norm d := by
  unfold Vec3.norm; rw [(C28_isometry h 0 0 d d).2.2.1]

theorem toGeoDir_normalize (h : F.Proper) (d : Vec3 ℝ) : Vec3.normalize (F.toGeoDir d) = F.toGeoDir (Vec3.normalize d) := by
  have e : ∀ v : Vec3 ℝ, Vec3.normalize v = Vec3.smul (1 / Vec3.norm v) v := by
    intro v; ext <;> simp [Vec3.normalize] <;> ring
  have := (h.rot false).smul (1 / Vec3.norm d) d
  rw [e, e, toGeoDir_norm h]
  exact this.symm

theorem toGeoDir_neg (h : F.Proper) (d : Vec3 ℝ) : -F.toGeoDir d = F.toGeoDir (-d) := by
  have := (h.rot false).smul (-1) d
  have e : ∀ v : Vec3 ℝ, -v = Vec3.smul (-1) v := by intro v; ext <;> simp
  rw [e d]
  unfold toGeoDir
  rw [this, e]

theorem dot_dir (h : F.Proper) (I : Line) (d : Vec3 ℝ) : Vec3.dot I.direction (F.toGeoDir d) = Vec3.dot (F.line I).direction d := by
  conv_lhs => rw [← (C28_inverse h 0 I.direction).2.2.2]
  exact (C28_isometry h 0 0 _ _).2.2.1

theorem offset_dir (h : F.Proper) (I : Line) (p d : Vec3 ℝ) :
    Vec3.dot (I.position - F.toGeo p) (F.toGeoDir d) = Vec3.dot ((F.line I).position - p) d := by
  conv_lhs => rw [← (C28_inverse h I.position 0).2.1]
  rw [toGeo_sub h, (C28_isometry h 0 0 _ _).2.2.1]
  rfl

theorem dot_comm' (a b : Vec3 ℝ) : Vec3.dot a b = Vec3.dot b a := by simp [Vec3.dot]; ring

theorem withLine_frame (h : F.Proper) {α : Type} (I : Line) (p0 p1 : Vec3 ℝ) (zero : α) (f g : Vec3 ℝ → ℝ → ℝ → Bool → Res α)
    (hfg : ∀ d x o n, f (F.toGeoDir d) x o n = g d x o n) :
    withLine I (F.toGeo p0) (F.toGeo p1) zero f = withLine (F.line I) p0 p1 zero g := by
  unfold withLine
  simp only [toGeo_sub h, toGeoDir_norm h, toGeoDir_normalize h, dot_dir h, offset_dir h, hfg]

theorem withPoint_frame (h : F.Proper) {α : Type} (I : Line) (p0 : Vec3 ℝ) (f : ℝ → Bool → Res α) :
    withPoint I (F.toGeo p0) f = withPoint (F.line I) p0 f := by
  unfold withPoint
  have e1 : F.toGeo p0 - I.position = F.toGeoDir (p0 - (F.line I).position) := by
    conv_lhs => rw [← (C28_inverse h I.position 0).2.1]
    rw [toGeo_sub h]; rfl
  have e2 : I.direction = F.toGeoDir (F.line I).direction := (C28_inverse h 0 I.direction).2.2.2.symm
  have e3 : (if Vec3.norm (p0 - (F.line I).position) = 0 then I.direction
      else F.toGeoDir (Vec3.normalize (p0 - (F.line I).position))) =
      F.toGeoDir (if Vec3.norm (p0 - (F.line I).position) = 0 then (F.line I).direction
      else Vec3.normalize (p0 - (F.line I).position)) := by
    split
    · exact e2
    · rfl
  simp only [e1, toGeoDir_norm h, toGeoDir_normalize h, e3]
  rw [dot_comm' (F.toGeoDir _) I.direction, dot_dir h, dot_comm' (F.line I).direction]
  simp only [offset_dir h]

/-- **C28, depth queries.** Column depth, particle column depths and interaction depth between two points given in detector
coordinates are those of the detector described in detector coordinates. -/
theorem C28_depths (h : F.Proper) (m : DetModel) (I : Line) (p0 p1 : Vec3 ℝ) (types : List Int) (targets : List (Int × ℝ))
    (decay : Option ℝ) :
    F.columnDepth m I p0 p1 = (F.model m).columnDepth (F.line I) p0 p1 ∧
    F.particleColumnDepth m I p0 p1 types = (F.model m).particleColumnDepth (F.line I) p0 p1 types ∧
    F.interactionDepth m I p0 p1 targets decay = (F.model m).interactionDepth (F.line I) p0 p1 targets decay := by
  refine ⟨?_, ?_, ?_⟩
  · unfold columnDepth DetModel.columnDepth
    apply withLine_frame h
    intro d x o n
    simp only [getSector_bind, ← (C28_line h _ _ _).1]
    rfl
  · unfold particleColumnDepth DetModel.particleColumnDepth
    apply withLine_frame h
    intro d x o n
    simp only [getSector_bind, ← (C28_line h _ _ _).1]
    rfl
  · unfold interactionDepth DetModel.interactionDepth
    rw [toGeo_sub h, toGeoDir_norm h]
    have hw := withLine_frame h I p0 p1 (0 : ℝ) (fun direction distance offset neg =>
      (sectorLoop (depthCallback offset neg distance (fun (acc : List ℝ) level start len =>
          (m.getSector level).bind fun sector =>
            let integral := sector.density.integral (F.toGeo p0 + Vec3.smul start direction) direction (len : EReal)
            .ok (List.zipWith (fun c t => c + (integral * 100) * m.particleFraction sector.materialId t.1) acc targets)))
        I.hits neg (targets.map fun _ => 0)).bind fun depths =>
          .ok ((List.zipWith (fun d t => d * t.2) depths targets).sum + overDecay distance decay))
      (fun direction distance offset neg =>
      (sectorLoop (depthCallback offset neg distance (fun (acc : List ℝ) level start len =>
          ((F.model m).getSector level).bind fun sector =>
            let integral := sector.density.integral (p0 + Vec3.smul start direction) direction (len : EReal)
            .ok (List.zipWith (fun c t => c + (integral * 100) * (F.model m).particleFraction sector.materialId t.1) acc
              targets)))
        (F.line I).hits neg (targets.map fun _ => 0)).bind fun depths =>
          .ok ((List.zipWith (fun d t => d * t.2) depths targets).sum + overDecay distance decay)) ?_
    · simp only [hw]
    intro d x o n
    simp only [getSector_bind, ← (C28_line h _ _ _).1]
    rfl

/-- **C28, point queries.** Densities and the containing sector at a point given in detector coordinates are those of the
detector described in detector coordinates. -/
theorem C28_points (h : F.Proper) (m : DetModel) (I : Line) (p0 : Vec3 ℝ) (target : Int) (targets : List (Int × ℝ))
    (decay : Option ℝ) :
    F.massDensity m I p0 = (F.model m).massDensity (F.line I) p0 ∧
    F.particleDensity m I p0 target = (F.model m).particleDensity (F.line I) p0 target ∧
    F.interactionDensity m I p0 targets decay = (F.model m).interactionDensity (F.line I) p0 targets decay ∧
    ((F.containingSector m I p0).bind fun s => .ok (s.map F.sector)) = (F.model m).containingSector (F.line I) p0 := by
  refine ⟨?_, ?_, ?_, ?_⟩
  · unfold massDensity DetModel.massDensity
    rw [withPoint_frame h]
    simp only [getSector_bind]
    rfl
  · unfold particleDensity DetModel.particleDensity
    rw [withPoint_frame h]
    simp only [getSector_bind]
    rfl
  · unfold interactionDensity DetModel.interactionDensity
    have e1 : F.toGeo p0 - I.position = F.toGeoDir (p0 - (F.line I).position) := by
      conv_lhs => rw [← (C28_inverse h I.position 0).2.1]
      rw [toGeo_sub h]; rfl
    have e2 : I.direction = F.toGeoDir (F.line I).direction := (C28_inverse h 0 I.direction).2.2.2.symm
    have e3 : (if Vec3.norm (p0 - (F.line I).position) ≤ 1e-5 then I.direction
        else F.toGeoDir (Vec3.normalize (p0 - (F.line I).position))) =
        F.toGeoDir (if Vec3.norm (p0 - (F.line I).position) ≤ 1e-5 then (F.line I).direction
        else Vec3.normalize (p0 - (F.line I).position)) := by
      split
      · exact e2
      · rfl
    simp only [e1, toGeoDir_norm h, toGeoDir_normalize h, e3]
    rw [dot_comm' (F.toGeoDir _) I.direction, dot_dir h, dot_comm' (F.line I).direction]
    simp only [offset_dir h, getSector_bind]
    rfl
  · unfold containingSector DetModel.containingSector
    have e2 : I.direction = F.toGeoDir (F.line I).direction := (C28_inverse h 0 I.direction).2.2.2.symm
    have e4 : Vec3.dot (I.position - F.toGeo p0) I.direction = Vec3.dot ((F.line I).position - p0) (F.line I).direction := by
      conv_lhs => rw [e2]
      exact offset_dir h I p0 _
    simp only [e4, getSector_bind]
    -- the state of the two loops corresponds
    have key : ∀ (o : ℝ) (rest : List (Hit EReal)) (stack : Stack EReal) (cur : Hit EReal) (last : EReal) (s : Option Sector),
        (loop (fun (s : Option Sector) cur i _ =>
          if (along o false cur.distance < 0 ∧ 0 < along o false i.distance) ∨ along o false cur.distance = 0 then
            (m.getSector cur.hierarchy).bind fun sector => .ok (true, some sector)
          else .ok (false, s)) false rest stack cur last s).bind (fun s => .ok (s.map F.sector)) =
        loop (fun (s : Option Sector) cur i _ =>
          if (along o false cur.distance < 0 ∧ 0 < along o false i.distance) ∨ along o false cur.distance = 0 then
            (m.getSector cur.hierarchy).bind fun sector => .ok (true, some (F.sector sector))
          else .ok (false, s)) false rest stack cur last (s.map F.sector) := by
      intro o rest
      induction rest with
      | nil => intro stack cur last s; rfl
      | cons i rest ih =>
        intro stack cur last s
        simp only [loop]
        by_cases h1 : xor i.entering false = true
        · simp only [h1, if_true]
          by_cases h2 : i.hierarchy > cur.hierarchy
          · simp only [h2, if_true]
            by_cases h3 : (along o false cur.distance < 0 ∧ 0 < along o false i.distance) ∨ along o false cur.distance = 0
            · simp only [h3, if_true]
              cases m.getSector cur.hierarchy <;> rfl
            · simp only [h3, if_false, Res.bind, Bool.false_eq_true]
              exact ih _ _ _ _
          · simp only [h2, if_false]
            exact ih _ _ _ _
        · simp only [h1, Bool.false_eq_true, if_false]
          by_cases h2 : i.hierarchy ≤ cur.hierarchy
          · simp only [h2, if_true]
            by_cases h4 : i.hierarchy = cur.hierarchy
            · simp only [h4, if_true]
              by_cases h3 : (along o false cur.distance < 0 ∧ 0 < along o false i.distance) ∨ along o false cur.distance = 0
              · simp only [h3, if_true]
                cases m.getSector cur.hierarchy <;> rfl
              · simp only [h3, if_false, Res.bind, Bool.false_eq_true]
                by_cases h5 : (stack.erase cur.hierarchy).length > 0
                · simp only [h5, if_true]
                  cases (stack.erase cur.hierarchy).pred cur.hierarchy with
                  | none => rfl
                  | some lb => exact ih _ _ _ _
                · simp only [h5, if_false]
            · simp only [h4, if_false]
              exact ih _ _ _ _
          · simp only [h2, if_false]
            rfl
    unfold sectorLoop
    have e5 : (F.line I).hits = I.hits := rfl
    rw [e5]
    simp only [Bool.false_eq_true, if_false]
    cases I.hits with
    | nil => rfl
    | cons first rest => exact key _ rest _ first first.distance none

/-- **C28, distances.** The distance from a point and direction given in detector coordinates at which a column depth or an
interaction depth is reached is that of the detector described in detector coordinates. -/
theorem C28_distances (h : F.Proper) (m : DetModel) (I : Line) (p0 dir : Vec3 ℝ) (depth : ℝ) (targets : List (Int × ℝ))
    (decay : Option ℝ) :
    F.distanceForColumnDepth m I p0 dir depth = (F.model m).distanceForColumnDepth (F.line I) p0 dir depth ∧
    F.distanceForInteractionDepth m I p0 dir depth targets decay =
      (F.model m).distanceForInteractionDepth (F.line I) p0 dir depth targets decay := by
  have hd : ∀ b : Bool, (if b = true then -F.toGeoDir dir else F.toGeoDir dir) = F.toGeoDir (if b = true then -dir else dir) := by
    intro b; cases b
    · rfl
    · exact toGeoDir_neg h dir
  constructor
  · unfold distanceForColumnDepth DetModel.distanceForColumnDepth
    simp only [hd, dot_dir h, offset_dir h]
    have hc : ∀ o n c, m.distanceCallback (F.toGeo p0) (F.toGeoDir (if decide (depth / 100 < 0) = true then -dir else dir)) o n c =
        (F.model m).distanceCallback p0 (if decide (depth / 100 < 0) = true then -dir else dir) o n c := by
      intro o n c
      funext s cur i last
      unfold DetModel.distanceCallback
      simp only [getSector_bind, ← (C28_line h _ _ _).1]
      rfl
    simp only [hc]
    rfl
  · unfold distanceForInteractionDepth DetModel.distanceForInteractionDepth
    simp only [hd, dot_dir h, offset_dir h]
    have hc : ∀ o n c, m.interactionCallback (F.toGeo p0) (F.toGeoDir (if decide (depth < 0) = true then -dir else dir)) o n c
        targets decay = (F.model m).interactionCallback p0 (if decide (depth < 0) = true then -dir else dir) o n c targets decay := by
      intro o n c
      funext s cur i last
      unfold DetModel.interactionCallback
      simp only [getSector_bind, ← (C28_line h _ _ _).1]
      rfl
    simp only [hc]
    rfl

/-- **C28, end to end.** In detector coordinates, walking from `p0` along `dir` over the returned distance collects the requested
column depth, whenever that depth is available within some distance `x` of the detector. -/
theorem C28_answers (h : F.Proper) {m : DetModel} {L : Layout EReal} {I : Line} (S : Setup m L I)
    (hpos : ∀ sec ∈ m.sectors, ∀ p, 0 < sec.density.evaluate p) (hinv : ∀ sec ∈ m.sectors, sec.density.LawfulInverse)
    (p0 dir : Vec3 ℝ) (a : ℝ) (ha : L.Spans a) (hp : F.toGeo p0 = I.at a) (hdir : F.toGeoDir dir = I.direction)
    (D x c : ℝ) (hD0 : 0 ≤ D) (hx0 : 0 ≤ x) (hx : L.Reaches (a + x))
    (hc : F.columnDepth m I p0 (p0 + Vec3.smul x dir) = .ok c) (hD : D ≤ c) :
    ∃ d : ℝ, 0 ≤ d ∧ d ≤ x ∧ F.distanceForColumnDepth m I p0 dir D = .ok (d : EReal) ∧
      F.columnDepth m I p0 (p0 + Vec3.smul d dir) = .ok D := by
  have hw : ∀ y, F.toGeo (p0 + Vec3.smul y dir) = I.at (walked a false y) := by
    intro y
    rw [(C28_line h p0 dir y).1, hp, hdir]
    ext <;> simp [Line.at, walked] <;> ring
  unfold columnDepth distanceForColumnDepth at *
  rw [hw, hp] at hc
  obtain ⟨d, h1, h2, h3, h4⟩ := C21_answers S hpos hinv a ha false D x c hD0 hx0 (by simpa [walked] using hx) hc hD
  refine ⟨d, h1, h2, ?_, ?_⟩
  · rw [hp, hdir]; exact h3
  · rw [hw, hp]; exact h4

/-! ### The overloads "to point" -/

/-- One sector of density 1 from 1 before to 2 behind the origin. -/
noncomputable def lopsided : DetModel := { sectors := [⟨0, 0, constDensity 1⟩], particleFraction := fun _ _ => 1 }

noncomputable def lopsidedLine : Line :=
  { position := ⟨0, 0, 0⟩, direction := ⟨0, 0, 1⟩, hits := [⟨((-1 : ℝ) : EReal), 0, true⟩, ⟨((2 : ℝ) : EReal), 0, false⟩] }

theorem along_neg_coe (o d : ℝ) : along o true (d : EReal) = ((o - d : ℝ) : EReal) := by
  simp [along, sub_eq_add_neg]

/-- **C28 fails for the two `...ToPoint` overloads.** In detector coordinates the direction is not reversed: although the detector
frame is the geometry frame, a column depth of 150 g/cm² before the origin is looked for behind it, and reported at 1.5 m where
the overload in geometry coordinates runs to the end of the sector after 1 m. The same for interaction depths. -/
theorem C28_to_point_fails : ∃ F : Frame, F.Proper ∧ (∀ p, F.toGeo p = p ∧ F.toGeoDir p = p) ∧
    lopsided.distanceForColumnDepthToPoint lopsidedLine 0 ⟨0, 0, 1⟩ 150 = .ok ((1 : ℝ) : EReal) ∧
    F.distanceForColumnDepthToPoint lopsided lopsidedLine 0 ⟨0, 0, 1⟩ 150 = .ok ((1.5 : ℝ) : EReal) ∧
    lopsided.distanceForInteractionDepthToPoint lopsidedLine 0 ⟨0, 0, 1⟩ 150 [(0, 1)] none = .ok ((1 : ℝ) : EReal) ∧
    F.distanceForInteractionDepthToPoint lopsided lopsidedLine 0 ⟨0, 0, 1⟩ 150 [(0, 1)] none = .ok ((1.5 : ℝ) : EReal) := by
  have hid : ∀ p : Vec3 ℝ, (⟨0, Quat.one⟩ : Frame).toGeo p = p ∧ (⟨0, Quat.one⟩ : Frame).toGeoDir p = p := by
    intro p
    have : ∀ v : Vec3 ℝ, Quat.one.rotate v false = v := by
      intro v
      have hu : Quat.one.IsUnit := by simp [Quat.IsUnit, Quat.one, Quat.normSq]
      rw [Quat.rotate_unit hu]
      ext <;> simp [Quat.one, Quat.sandwich]
    unfold toGeo toGeoDir
    simp only [this]
    exact ⟨by ext <;> simp, trivial⟩
  have hn : -(⟨0, 0, 1⟩ : Vec3 ℝ) = ⟨0, 0, -1⟩ := by ext <;> simp
  have hoff : ∀ d : Vec3 ℝ, Vec3.dot (lopsidedLine.position - 0) d = 0 := by
    intro d; simp [lopsidedLine, Vec3.dot]
  have hdot1 : Vec3.dot lopsidedLine.direction ⟨0, 0, 1⟩ = 1 := by simp [lopsidedLine, Vec3.dot]
  have hdot2 : Vec3.dot lopsidedLine.direction ⟨0, 0, -1⟩ = -1 := by simp [lopsidedLine, Vec3.dot]
  have n1 : ¬ ((150 : ℝ) < 0) := by norm_num
  have n2 : ¬ ((150 / 100 : ℝ) < 0) := by norm_num
  have t1 : ¬ ¬ (|1 - (|(1 : ℝ)|)| < 1e-6) := by norm_num
  have t2 : ¬ ¬ (|1 - (|(-1 : ℝ)|)| < 1e-6) := by norm_num
  have d1 : decide ((1 : ℝ) < 0) = false := by norm_num
  have d2 : decide ((-1 : ℝ) < 0) = true := by norm_num
  have hpf : lopsided.particleFraction = fun _ _ => 1 := rfl
  have hg : lopsided.getSector 0 = .ok ⟨0, 0, constDensity 1⟩ := rfl
  -- forward: from 0 to 2, backward: from 0 to 1
  have f1 : (0 : EReal) < ((0 + 2 : ℝ) : EReal) := by rw [← EReal.coe_zero, EReal.coe_lt_coe_iff]; norm_num
  have f2 : max (max ((0 + -1 : ℝ) : EReal) 0) ((0 + -1 : ℝ) : EReal) = ((0 : ℝ) : EReal) := by
    rw [← EReal.coe_zero, coe_max', coe_max']; norm_num
  have f3 : ((0 + 2 : ℝ) : EReal) - ((0 : ℝ) : EReal) = ((2 : ℝ) : EReal) := by rw [← EReal.coe_sub]; norm_num
  have b1 : (0 : EReal) < ((0 - -1 : ℝ) : EReal) := by rw [← EReal.coe_zero, EReal.coe_lt_coe_iff]; norm_num
  have b2 : max (max ((0 - 2 : ℝ) : EReal) 0) ((0 - 2 : ℝ) : EReal) = ((0 : ℝ) : EReal) := by
    rw [← EReal.coe_zero, coe_max', coe_max']; norm_num
  have b3 : ((0 - -1 : ℝ) : EReal) - ((0 : ℝ) : EReal) = ((1 : ℝ) : EReal) := by rw [← EReal.coe_sub]; norm_num
  have l1 : ¬ ((2 : ℝ) : EReal) < ((3 / 2 : ℝ) : EReal) := by rw [EReal.coe_lt_coe_iff]; norm_num
  have l2 : ((1 : ℝ) : EReal) < ((3 / 2 : ℝ) : EReal) := by rw [EReal.coe_lt_coe_iff]; norm_num
  have q1 : (150 / 100 - 0 : ℝ) / 1 = 3 / 2 := by norm_num
  have q2 : (150 - 0 : ℝ) / 100 / (1 * 1 + 0) / 1 = 3 / 2 := by norm_num
  have q3 : (0 : ℝ) ≤ 3 / 2 := by norm_num
  have q4 : ¬ (0 : ℝ) ≤ -1 := by norm_num
  have q5 : (1 * 1 + 0 : ℝ) ≠ 0 := by norm_num
  have q6 : (1.5 : ℝ) = 3 / 2 := by norm_num
  refine ⟨⟨0, Quat.one⟩, .inl (by simp [Quat.IsUnit, Quat.one, Quat.normSq]), hid, ?_, ?_, ?_, ?_⟩
  · unfold DetModel.distanceForColumnDepthToPoint DetModel.distanceForColumnDepth
    simp only [n2, decide_false, Bool.false_eq_true, if_false, hn, hdot2, hoff, t2, d2]
    simp only [sectorLoop, lopsidedLine, if_true, List.reverse_cons, List.reverse_nil, List.nil_append, List.cons_append, loop,
      Bool.xor_true, Bool.not_true, Bool.false_eq_true, if_false, le_refl, DetModel.distanceCallback, along_neg_coe, b1, b2, b3,
      hg, Res.bind, constDensity, EReal.toReal_coe, q1, l2, true_or, q4, decide_false]
    simp [Stack.erase, Stack.insert]
  · unfold distanceForColumnDepthToPoint DetModel.distanceForColumnDepth
    simp only [(hid _).1, (hid _).2, n2, decide_false, Bool.false_eq_true, if_false, hdot1, hoff, t1, d1]
    simp only [sectorLoop, lopsidedLine, Bool.false_eq_true, if_false, loop, Bool.xor_false, le_refl, if_true,
      DetModel.distanceCallback, along_coe, f1, f2, f3, hg, Res.bind, constDensity, EReal.toReal_coe, q1, l1,
      EReal.coe_ne_top, or_self, q3, decide_true, q6]
    simp
  · unfold DetModel.distanceForInteractionDepthToPoint DetModel.distanceForInteractionDepth
    simp only [n1, decide_false, Bool.false_eq_true, if_false, hn, hdot2, hoff, t2, d2, List.cons_ne_nil]
    simp only [sectorLoop, lopsidedLine, if_true, List.reverse_cons, List.reverse_nil, List.nil_append, List.cons_append, loop,
      Bool.xor_true, Bool.not_true, Bool.false_eq_true, if_false, le_refl, DetModel.interactionCallback, along_neg_coe, b1, b2, b3,
      hg, Res.bind, constDensity, EReal.toReal_coe, List.map_cons, List.map_nil, List.sum_cons, List.sum_nil, hpf, q5, q2,
      l2, true_or, q4, decide_false]
    simp [Stack.erase, Stack.insert]
  · unfold distanceForInteractionDepthToPoint DetModel.distanceForInteractionDepth
    simp only [(hid _).1, (hid _).2, n1, decide_false, Bool.false_eq_true, if_false, hdot1, hoff, t1, d1, List.cons_ne_nil]
    simp only [sectorLoop, lopsidedLine, Bool.false_eq_true, if_false, loop, Bool.xor_false, le_refl, if_true,
      DetModel.interactionCallback, along_coe, f1, f2, f3, hg, Res.bind, constDensity, EReal.toReal_coe, List.map_cons,
      List.map_nil, List.sum_cons, List.sum_nil, hpf, q5, q2, l1, EReal.coe_ne_top, or_self, q3, decide_true, q6]
    simp

/-- A frame that is neither a pure translation nor a pure rotation, given by a quaternion of length 5. -/
example : (⟨⟨1, 2, 3⟩, ⟨3, 0, 0, 4⟩⟩ : Frame).Proper := by
  right
  constructor <;> norm_num [Quat.normSq]

end Frame

end Siren.Detector
