import Verif.Geometry.Compare
import Verif.Distributions.DirectionModel
import Verif.Distributions.PowerLaw

set_option autoImplicit false

/-!
# C92: comparing distributions

Models `WeightableDistribution::operator==`, `operator<` (distributions/private/Distributions.cxx:42-54) and the `equal` and `less` of
every distribution of the library that is not defined in Python. Numbers that are only compared are elements of a linear order `K` (doubles without NaN, infinities
included); directions are real vectors. Strings are elements of a linear order `N`. Shapes are compared as in C45. The order of `std::type_index` is an injective
rank of the classes.
-/

namespace Siren.Distributions.Compare

open Siren Siren.Geometry.Compare

variable {K N : Type} [LinearOrder K] [LinearOrder N]

/-- `LeptonDepthFunction` (distributions/public/SIREN/distributions/primary/vertex/LeptonDepthFunction.h:29-37), the only depth function. -/
structure Depth (K : Type) where
  muAlpha : K
  muBeta : K
  tauAlpha : K
  tauBeta : K
  scale : K
  maxDepth : K
  tauPrimaries : List K
  deriving DecidableEq

/-- `DecayRangeFunction` (distributions/public/SIREN/distributions/primary/vertex/DecayRangeFunction.h:29-34), the only range function. -/
structure Range (K : Type) where
  mass : K
  width : K
  multiplier : K
  maxDistance : K
  deriving DecidableEq

/-- The class of a distribution and the members that fix the density it reports. Members that only cache a value computed from these are
left out, and so are file names. `Shp.null` is a null pointer to a shape. -/
inductive Kind (K N : Type)
  | normalizationConstant
  | external (emin : K) (keys : List N) (data : List (List K))
  | fixedTargetArea (cylinder : Shp K N)
  | cone (dir : Vec3 ℝ) (openingAngle : K)
  | fixedDirection (dir : Vec3 ℝ)
  | isotropic
  | moyal (energyMin energyMax mu sigma A l B : K)
  | monoenergetic (genEnergy : K)
  | pidar
  | powerLaw (index energyMin energyMax : K)
  | tabulated (energyMin energyMax : K) (x f : List K)
  | tabulated2D (energyMin energyMax cosZenithMin cosZenithMax : K) (x y f : List K)
  | helicity
  | mass (primaryMass : K)
  | columnDepth (radius endcap : K) (depth : Option (Depth K))
  | cylinderVolume (cylinder : Shp K N)
  | decayRange (radius endcap : K) (range : Option (Range K))
  | fixedTargetPosition (cylinder fiducial : Shp K N) (maxLength : K)
  | pointSource (origin : List K) (maxDistance : K)
  | primaryBounded (fiducial : Shp K N) (maxLength : K)
  | primaryPhysical
  | range (radius endcap : K) (range : Option (Range K)) (targets : List K)
  | sphereVolume (sphere : Shp K N)
  | secondaryBounded (fiducial : Shp K N) (maxLength : K)
  | secondaryPhysical

/-- A distribution with its physical normalization (distributions/public/SIREN/distributions/Distributions.h:45-62), which is 1 until it is set. Only the
classes of `isNormalized` have it. -/
structure Dist (K N : Type) where
  norm : K
  kind : Kind K N

/-- The classes derived from `PhysicallyNormalizedDistribution` (Distributions.h:106, PrimaryEnergyDistribution.h:27, PrimaryEnergyDirectionDistribution.h:28). -/
def isNormalized : Kind K N → Bool
  | .normalizationConstant | .moyal .. | .monoenergetic .. | .pidar | .powerLaw .. | .tabulated .. | .tabulated2D .. => true
  | _ => false

/-- A number for every class (`typeid`). -/
def cls : Kind K N → Nat
  | .normalizationConstant => 0
  | .external .. => 1
  | .fixedTargetArea .. => 2
  | .cone .. => 3
  | .fixedDirection .. => 4
  | .isotropic => 5
  | .moyal .. => 6
  | .monoenergetic .. => 7
  | .pidar => 8
  | .powerLaw .. => 9
  | .tabulated .. => 10
  | .tabulated2D .. => 11
  | .helicity => 12
  | .mass .. => 13
  | .columnDepth .. => 14
  | .cylinderVolume .. => 15
  | .decayRange .. => 16
  | .fixedTargetPosition .. => 17
  | .pointSource .. => 18
  | .primaryBounded .. => 19
  | .primaryPhysical => 20
  | .range .. => 21
  | .sphereVolume .. => 22
  | .secondaryBounded .. => 23
  | .secondaryPhysical => 24

open Classical in
/-- `abs(1.0 - scalar_product(dir, x->dir)) < 1e-9` (Cone.cxx:74, 80; FixedDirection.cxx:53, 58). -/
noncomputable def aligned (d d' : Vec3 ℝ) : Bool := decide (|1 - Vec3.dot d d'| < 1e-9)

/-- Two pointers to functions: both null, or both set and the functions equal (ColumnDepthPositionDistribution.cxx:214-217;
DecayRangePositionDistribution.cxx:134-137; RangePositionDistribution.cxx:208-211). -/
def sameFunction {A : Type} [DecidableEq A] : Option A → Option A → Bool
  | some a, some b => decide (a = b)
  | none, none => true
  | _, _ => false

/-- The virtual `equal`: Distributions.cxx:78-82, PrimaryExternalDistribution.cxx:200-207, FixedTargetAreaDistribution.cxx:83-90, Cone.cxx:68-76, FixedDirection.cxx:47-54,
IsotropicDirection.cxx:43-50, ModifiedMoyalPlusExponentialEnergyDistribution.cxx:107-117, Monoenergetic.cxx:48-58, PiDARNuEDistribution.cxx:102-109, PowerLaw.cxx:63-73,
TabulatedFluxDistribution.cxx:287-297 and Tabulated2DFluxDistribution.cxx:343-353 with Interpolator.h:37-39, 64-66, 353-355, 489-491, PrimaryNeutrinoHelicityDistribution.cxx:65-72, PrimaryMass.cxx:56-63,
ColumnDepthPositionDistribution.cxx:206-219 with LeptonDepthFunction.cxx:75-85, CylinderVolumePositionDistribution.cxx:90-97, DecayRangePositionDistribution.cxx:126-139 with
DecayRangeFunction.cxx:57-67, FixedTargetPositionDistribution.cxx:268-275, PointSourcePositionDistribution.cxx:173-181, PrimaryBoundedVertexDistribution.cxx:231-238,
PrimaryPhysicalVertexDistribution.cxx:171-178, RangePositionDistribution.cxx:200-213, SphereVolumePositionDistribution.cxx:105-112, SecondaryBoundedVertexDistribution.cxx:230-237,
SecondaryPhysicalVertexDistribution.cxx:168-175. -/
noncomputable def equal (a b : Dist K N) : Bool :=
  match a.kind, b.kind with
  | .normalizationConstant, k => isNormalized k && decide (a.norm = b.norm)
  | .external e k d, .external e' k' d' => decide (e = e') && decide (k = k') && decide (d = d')
  | .fixedTargetArea c, .fixedTargetArea c' => eq c c'
  | .cone d o, .cone d' o' => aligned d d' && decide (o = o')
  | .fixedDirection d, .fixedDirection d' => aligned d d'
  | .isotropic, .isotropic => true
  | .moyal e1 e2 m s A l B, .moyal e1' e2' m' s' A' l' B' => decide ([e1, e2, m, s, A, l, B] = [e1', e2', m', s', A', l', B'])
  | .monoenergetic e, .monoenergetic e' => decide (e = e')
  | .pidar, .pidar => true
  | .powerLaw i e1 e2, .powerLaw i' e1' e2' => decide ([e1, e2, i] = [e1', e2', i'])
  | .tabulated e1 e2 x f, .tabulated e1' e2' x' f' => decide ([[e1], [e2], x, f] = [[e1'], [e2'], x', f'])
  | .tabulated2D e1 e2 c1 c2 x y f, .tabulated2D e1' e2' c1' c2' x' y' f' =>
    decide ([[e1], [e2], [c1], [c2], x, y, f] = [[e1'], [e2'], [c1'], [c2'], x', y', f'])
  | .helicity, .helicity => true
  | .mass m, .mass m' => decide (m = m')
  | .columnDepth r e d, .columnDepth r' e' d' => decide (r = r') && decide (e = e') && sameFunction d d'
  | .cylinderVolume c, .cylinderVolume c' => eq c c'
  | .decayRange r e f, .decayRange r' e' f' => decide (r = r') && decide (e = e') && sameFunction f f'
  | .fixedTargetPosition c _ _, .fixedTargetPosition c' _ _ => eq c c'
  | .pointSource o m, .pointSource o' m' => decide (o = o') && decide (m = m')
  | .primaryBounded f m, .primaryBounded f' m' => decide (m = m') && eq f f'
  | .primaryPhysical, .primaryPhysical => true
  | .range r e f t, .range r' e' f' t' => decide (r = r') && decide (e = e') && sameFunction f f' && decide (t = t')
  | .sphereVolume s, .sphereVolume s' => eq s s'
  | .secondaryBounded _ m, .secondaryBounded _ m' => decide (m = m')
  | .secondaryPhysical, .secondaryPhysical => true
  | _, _ => false

/-- `WeightableDistribution::operator==` (Distributions.cxx:42-47); `same` tells whether both sides are one object. -/
noncomputable def operatorEq (same : Bool) (a b : Dist K N) : Bool := if same then true else equal a b

/-- `<` of `std::pair` and of tuples. -/
def pairLt {A B : Type} (ltA : A → A → Bool) (ltB : B → B → Bool) (p q : A × B) : Bool :=
  if ltA p.1 q.1 then true else if ltA q.1 p.1 then false else ltB p.2 q.2

/-- `<` of numbers and strings. -/
def ltOf {A : Type} [LinearOrder A] (a b : A) : Bool := decide (a < b)

/-- The members in the order of the comparison (LeptonDepthFunction.cxx:93-96). -/
def Depth.fields (d : Depth K) : List (List K) := [[d.muAlpha], [d.muBeta], [d.tauAlpha], [d.tauBeta], [d.scale], [d.maxDepth], d.tauPrimaries]

/-- The members in the order of the comparison (DecayRangeFunction.cxx:72-75). -/
def Range.fields (r : Range K) : List (List K) := [[r.mass], [r.width], [r.multiplier], [r.maxDistance]]

/-- `range_less` and `depth_less` (ColumnDepthPositionDistribution.cxx:223-226, DecayRangePositionDistribution.cxx:143-146, RangePositionDistribution.cxx:217-220):
a null pointer comes first. `operator<` of the functions (DepthFunction.cxx, RangeFunction.cxx) compares the types of the pointers, which are always the same, and then calls `less`. -/
def functionLess {A : Type} (fields : A → List (List K)) : Option A → Option A → Bool
  | none, some _ => true
  | some a, some b => fieldsLt (fields a) (fields b)
  | _, _ => false

/-- `std::tie(p, q, f) < std::tie(p', q', less)` with `f` false. -/
def tieFlag (p q p' q' : K) (less : Bool) : Bool :=
  if p < p' then true else if p' < p then false
  else if q < q' then true else if q' < q then false else less

/-- The virtual `less` for two distributions of one class: Distributions.cxx:84-88, PrimaryExternalDistribution.cxx:209-215, FixedTargetAreaDistribution.cxx:92-95, Cone.cxx:78-85,
FixedDirection.cxx:56-72 (compares the vector with itself), IsotropicDirection.cxx:52-54, ModifiedMoyalPlusExponentialEnergyDistribution.cxx:119-125, Monoenergetic.cxx:60-66,
PiDARNuEDistribution.cxx:111-114, PowerLaw.cxx:75-81, TabulatedFluxDistribution.cxx:299-305, Tabulated2DFluxDistribution.cxx:355-363, PrimaryNeutrinoHelicityDistribution.cxx:74-77, PrimaryMass.cxx:65-68
(an equality), ColumnDepthPositionDistribution.cxx:221-232, DecayRangePositionDistribution.cxx:141-152 and RangePositionDistribution.cxx:215-226 (compare the radius with itself),
CylinderVolumePositionDistribution.cxx:99-102, FixedTargetPositionDistribution.cxx:277-280, PointSourcePositionDistribution.cxx:183-189 (compares the origin with itself),
PrimaryBoundedVertexDistribution.cxx:240-253, SphereVolumePositionDistribution.cxx:114-117, SecondaryBoundedVertexDistribution.cxx:239-245, and the physical vertex distributions (182, 180). -/
noncomputable def less (rank : Nat → Nat) (boolRank : Nat) (a b : Dist K N) : Bool :=
  match a.kind, b.kind with
  | .normalizationConstant, .normalizationConstant => decide (a.norm < b.norm)
  | .external e k d, .external e' k' d' => pairLt ltOf (pairLt (lexLt ltOf) fieldsLt) (e, k, d) (e', k', d')
  | .fixedTargetArea c, .fixedTargetArea c' => lt rank boolRank c c'
  | .cone d o, .cone d' o' => if aligned d d' then false else decide (o < o')
  | .fixedDirection d, .fixedDirection d' => if aligned d d' then false else lexLt ltOf [d.x, d.y, d.z] [d.x, d.y, d.z]
  | .moyal e1 e2 m s A l B, .moyal e1' e2' m' s' A' l' B' => lexLt ltOf [e1, e2, m, s, A, l, B] [e1', e2', m', s', A', l', B']
  | .monoenergetic e, .monoenergetic e' => decide (e < e')
  | .powerLaw i e1 e2, .powerLaw i' e1' e2' => lexLt ltOf [e1, e2, i] [e1', e2', i']
  | .tabulated e1 e2 x f, .tabulated e1' e2' x' f' => fieldsLt [[e1], [e2], x, f] [[e1'], [e2'], x', f']
  | .tabulated2D e1 e2 c1 c2 x y f, .tabulated2D e1' e2' c1' c2' x' y' f' =>
    fieldsLt [[e1], [e2], [c1], [c2], x, y, f] [[e1'], [e2'], [c1'], [c2'], x', y', f']
  | .mass m, .mass m' => decide (m = m')
  | .columnDepth r e d, .columnDepth _ e' d' => tieFlag r e r e' (functionLess Depth.fields d d')
  | .cylinderVolume c, .cylinderVolume c' => lt rank boolRank c c'
  | .decayRange r e f, .decayRange _ e' f' => tieFlag r e r e' (functionLess Range.fields f f')
  | .fixedTargetPosition c _ _, .fixedTargetPosition c' _ _ => lt rank boolRank c c'
  | .pointSource o m, .pointSource _ m' => fieldsLt [o, [m]] [o, [m']]
  | .primaryBounded f m, .primaryBounded f' m' => if m ≠ m' then decide (m < m') else lt rank boolRank f f'
  | .range r e f t, .range _ e' f' t' =>
    if tieFlag r e r e' false then true else if tieFlag r e' r e false then false
    else if functionLess Range.fields f f' then true else lexLt ltOf t t'
  | .sphereVolume s, .sphereVolume s' => lt rank boolRank s s'
  | .secondaryBounded _ m, .secondaryBounded _ m' => decide (m < m')
  | _, _ => false

/-- `WeightableDistribution::operator<` (Distributions.cxx:49-54); `types` is the order of `std::type_index` on the classes of distributions, `rank` and `boolRank` that on the shapes. -/
noncomputable def operatorLt (types : Nat → Nat) (rank : Nat → Nat) (boolRank : Nat) (a b : Dist K N) : Bool :=
  if cls a.kind = cls b.kind then less rank boolRank a b else decide (types (cls a.kind) < types (cls b.kind))

/-! ### Specification -/

/-- The classes whose `equal` compares all members. -/
def Exact : Kind K N → Prop
  | .normalizationConstant | .cone .. | .fixedDirection .. | .fixedTargetPosition .. | .secondaryBounded .. => False
  | _ => True

/-- The classes whose `less` compares all members, too. -/
def Ordered : Kind K N → Prop
  | .mass .. | .columnDepth .. | .decayRange .. | .range .. | .pointSource .. => False
  | k => Exact k

/-! ### Proofs -/

theorem sameFunction_iff {A : Type} [DecidableEq A] (a b : Option A) : sameFunction a b = true ↔ a = b := by
  cases a <;> cases b <;> simp [sameFunction]

/-- C92: for the classes listed in `Exact`, a distribution compares equal to another one, of any class, exactly when both have the same class and
the same members, so that they report the same density for every event. -/
theorem C92_equality_partial (a b : Dist K N) (h : Exact a.kind) : equal a b = true ↔ a.kind = b.kind := by
  obtain ⟨na, ka⟩ := a
  obtain ⟨nb, kb⟩ := b
  simp only at h ⊢
  cases ka <;> simp only [Exact] at h <;> cases kb <;>
    simp [equal, C45_equality, sameFunction_iff, and_assoc, and_comm, and_left_comm]

/-- C92: a distribution compares equal to itself if its direction, if any, is a unit vector. -/
theorem C92_refl (a : Dist K N) (hc : ∀ d o, a.kind = .cone d o → Vec3.dot d d = 1) (hd : ∀ d, a.kind = .fixedDirection d → Vec3.dot d d = 1) :
    equal a a = true := by
  obtain ⟨na, ka⟩ := a
  cases ka
  case cone d o => simp [equal, aligned, hc d o rfl]; norm_num
  case fixedDirection d => simp [equal, aligned, hd d rfl]; norm_num
  all_goals simp [equal, isNormalized, C45_equality, sameFunction_iff]

theorem strictTotal_pair {A B : Type} {ltA : A → A → Bool} {ltB : B → B → Bool} (hA : StrictTotal ltA) (hB : StrictTotal ltB) :
    StrictTotal (pairLt ltA ltB) := by
  refine ⟨?_, ?_, ?_⟩
  · rintro ⟨a, b⟩
    simp [pairLt, hA.irrefl, hB.irrefl]
  · rintro ⟨a, b⟩ ⟨a', b'⟩ ⟨a'', b''⟩
    simp only [pairLt]
    intro h1 h2
    rcases h : ltA a a' with _ | _
    · rcases h' : ltA a' a with _ | _
      · obtain rfl := hA.total _ _ h h'
        simp only [h, Bool.false_eq_true, if_false] at h1
        rcases h3 : ltA a a'' with _ | _
        · simp only [h3, Bool.false_eq_true, if_false] at h2 ⊢
          split_ifs at h2 ⊢ with h4
          exact hB.trans _ _ _ h1 h2
        · simp
      · simp [h, h'] at h1
    · rcases h3 : ltA a' a'' with _ | _
      · simp only [h3, Bool.false_eq_true, if_false] at h2
        split_ifs at h2 with h4
        obtain rfl := hA.total _ _ h3 (by simpa using h4)
        simp [h]
      · simp [hA.trans _ _ _ h h3]
  · rintro ⟨a, b⟩ ⟨a', b'⟩
    simp only [pairLt]
    intro h1 h2
    rcases h : ltA a a' with _ | _
    · rcases h' : ltA a' a with _ | _
      · simp only [h, h', Bool.false_eq_true, if_false] at h1 h2
        rw [hA.total _ _ h h', hB.total _ _ h1 h2]
      · simp [h'] at h2
    · simp [h] at h1

theorem strictTotal_shape (rank : Nat → Nat) (hinj : Function.Injective rank) (br : Nat) (hbr : ∀ t, rank t ≠ br) : StrictTotal (lt (K := K) (N := N) rank br) := by
  obtain ⟨h1, h2, h3⟩ := C45_order (K := K) (N := N) rank hinj br hbr
  exact ⟨h1, h2, fun a b hab hba => (C45_equality a b).mp ((h3 a b).mp ⟨hab, hba⟩)⟩

/-- Everything the comparisons of the ordered classes look at. -/
def key : Kind K N → (Nat × List (List K) × List N × List (List K) × Shp K N)
  | .external e k d => (1, [[e]], k, d, .null)
  | .fixedTargetArea c => (2, [], [], [], c)
  | .moyal e1 e2 m s A l B => (6, [[e1, e2, m, s, A, l, B]], [], [], .null)
  | .monoenergetic e => (7, [[e]], [], [], .null)
  | .powerLaw i e1 e2 => (9, [[e1, e2, i]], [], [], .null)
  | .tabulated e1 e2 x f => (10, [[e1], [e2], x, f], [], [], .null)
  | .tabulated2D e1 e2 c1 c2 x y f => (11, [[e1], [e2], [c1], [c2], x, y, f], [], [], .null)
  | .cylinderVolume c => (15, [], [], [], c)
  | .primaryBounded f m => (19, [[m]], [], [], f)
  | .sphereVolume s => (22, [], [], [], s)
  | k => (cls k, [], [], [], .null)

/-- The comparison of these. -/
def keyLt (types : Nat → Nat) (rank : Nat → Nat) (br : Nat) : (Nat × List (List K) × List N × List (List K) × Shp K N) → (Nat × List (List K) × List N × List (List K) × Shp K N) → Bool :=
  pairLt (fun x y => decide (types x < types y)) (pairLt fieldsLt (pairLt (lexLt ltOf) (pairLt fieldsLt (lt rank br))))

theorem strictTotal_key (types : Nat → Nat) (ht : Function.Injective types) (rank : Nat → Nat) (hinj : Function.Injective rank) (br : Nat) (hbr : ∀ t, rank t ≠ br) :
    StrictTotal (keyLt (K := K) (N := N) types rank br) := by
  refine strictTotal_pair ⟨by simp, ?_, ?_⟩ (strictTotal_pair strictTotal_fields (strictTotal_pair (strictTotal_lex (strictTotal_lt N)) (strictTotal_pair strictTotal_fields
    (strictTotal_shape rank hinj br hbr))))
  · intro a b c h1 h2
    simp only [decide_eq_true_eq] at *
    omega
  · intro a b h1 h2
    simp only [decide_eq_false_iff_not] at *
    exact ht (by omega)

omit [LinearOrder K] [LinearOrder N] in
theorem key_cls (k : Kind K N) : (key k).1 = cls k := by cases k <;> rfl

theorem fields_irrefl (a : List (List K)) : fieldsLt a a = false := strictTotal_fields.irrefl a

theorem lex_one (a b : K) : lexLt ltOf [a] [b] = decide (a < b) := by
  rcases lt_trichotomy a b with h | h | h
  · simp [ltOf, lexLt, h]
  · simp [ltOf, lexLt, h]
  · simp [ltOf, lexLt, h, h.not_gt]

theorem flag (p q : Bool) : (if p = true then true else if q = true then false else false) = p := by cases p <;> simp

theorem lex_list (a b : List K) : fieldsLt [a] [b] = lexLt ltOf a b := by
  have e : (lexLt (ltOf (A := K))) = lexLt (fun x y : K => decide (x < y)) := rfl
  simp only [fieldsLt, e, lexLt]
  rcases h : lexLt (fun x y : K => decide (x < y)) a b with _ | _
  · simp
  · simp

theorem less_eq_key (types : Nat → Nat) (rank : Nat → Nat) (br : Nat) (a b : Dist K N) (ha : Ordered a.kind) (hc : cls a.kind = cls b.kind) :
    less rank br a b = keyLt types rank br (key a.kind) (key b.kind) := by
  have hnull : lt rank br (Shp.null : Shp K N) .null = false := by simp [lt]
  have hfi := fields_irrefl (K := K)
  have hnil : lexLt (ltOf (A := N)) [] [] = false := by simp [lexLt]
  obtain ⟨na, ka⟩ := a
  obtain ⟨nb, kb⟩ := b
  simp only at ha hc ⊢
  cases ka <;> simp only [Ordered, Exact] at ha <;> cases kb <;> (try (exfalso; simp [cls] at hc; done)) <;>
    simp only [less, keyLt, key, pairLt, hnull, hfi, hnil, lex_list, lex_one, ltOf, lt_irrefl, decide_false, Bool.false_eq_true, if_false, flag]
  rename_i f m f' m'
  rcases lt_trichotomy m m' with h | h | h
  · simp [h, h.ne]
  · simp [h]
  · simp [h, h.ne', h.not_gt]

omit [LinearOrder K] [LinearOrder N] in
theorem key_inj {a b : Kind K N} (ha : Ordered a) (hb : Ordered b) (h : key a = key b) : a = b := by
  have hc : cls a = cls b := by rw [← key_cls, ← key_cls, h]
  cases a <;> simp only [Ordered, Exact] at ha <;> cases b <;> (try (exfalso; simp [cls] at hc; done)) <;> simp_all [key]

theorem operatorLt_eq_key (types : Nat → Nat) (ht : Function.Injective types) (rank : Nat → Nat) (br : Nat) (a b : Dist K N) (ha : Ordered a.kind) :
    operatorLt types rank br a b = keyLt types rank br (key a.kind) (key b.kind) := by
  unfold operatorLt
  split_ifs with hc
  · exact less_eq_key types rank br a b ha hc
  · have hne : types (cls a.kind) ≠ types (cls b.kind) := fun e => hc (ht e)
    simp only [keyLt, pairLt, key_cls]
    rcases lt_or_gt_of_ne hne with h | h
    · simp [h]
    · simp [h, h.not_gt]

/-- C92: on the classes listed in `Ordered`, in any mixture, `<` is a strict order, and two distributions of which neither is less than the other compare equal. -/
theorem C92_order_partial (types : Nat → Nat) (ht : Function.Injective types) (rank : Nat → Nat) (hinj : Function.Injective rank) (br : Nat) (hbr : ∀ t, rank t ≠ br)
    (a b c : Dist K N) (ha : Ordered a.kind) (hb : Ordered b.kind) :
    operatorLt types rank br a a = false ∧
    (operatorLt types rank br a b = true → operatorLt types rank br b c = true → operatorLt types rank br a c = true) ∧
    ((operatorLt types rank br a b = false ∧ operatorLt types rank br b a = false) ↔ equal a b = true) := by
  have hk := strictTotal_key (K := K) (N := N) types ht rank hinj br hbr
  have hx : Exact a.kind := by
    revert ha
    cases a.kind <;> simp [Ordered, Exact]
  rw [operatorLt_eq_key types ht rank br a a ha, operatorLt_eq_key types ht rank br a b ha, operatorLt_eq_key types ht rank br b c hb, operatorLt_eq_key types ht rank br a c ha,
    operatorLt_eq_key types ht rank br b a hb, C92_equality_partial a b hx]
  refine ⟨hk.irrefl _, hk.trans _ _ _, fun h => key_inj ha hb (hk.total _ _ h.1 h.2), fun h => ?_⟩
  rw [h]
  exact ⟨hk.irrefl _, hk.irrefl _⟩

/-! ### What does not hold -/

/-- C92 does not hold for directions: they compare with a tolerance, which is not transitive, and distributions that compare equal report different densities. -/
theorem C92_direction_fails (n : K) : ∃ d0 d1 d2 : Vec3 ℝ, Vec3.dot d0 d0 = 1 ∧ Vec3.dot d1 d1 = 1 ∧ Vec3.dot d2 d2 = 1 ∧
    equal (⟨n, .fixedDirection d0⟩ : Dist K N) ⟨n, .fixedDirection d1⟩ = true ∧
    equal (⟨n, .fixedDirection d1⟩ : Dist K N) ⟨n, .fixedDirection d2⟩ = true ∧
    equal (⟨n, .fixedDirection d0⟩ : Dist K N) ⟨n, .fixedDirection d2⟩ = false ∧
    (∀ o : K, equal (⟨n, .cone d0 o⟩ : Dist K N) ⟨n, .cone d1 o⟩ = true ∧ equal (⟨n, .cone d1 o⟩ : Dist K N) ⟨n, .cone d2 o⟩ = true ∧
      equal (⟨n, .cone d0 o⟩ : Dist K N) ⟨n, .cone d2 o⟩ = false) ∧
    (FixedDirection.mk d0).generationProbability d2 = 0 ∧ (FixedDirection.mk d1).generationProbability d2 = 1 := by
  let t : ℝ := 15 / 1000000
  let c : ℝ := (1 - t ^ 2) / (1 + t ^ 2)
  let s : ℝ := 2 * t / (1 + t ^ 2)
  have hcs : c * c + s * s = 1 := by simp only [c, s, t]; norm_num
  have h01 : |1 - Vec3.dot (⟨1, 0, 0⟩ : Vec3 ℝ) ⟨c, s, 0⟩| < 1e-9 := by
    simp only [Vec3.dot, c, s, t]
    rw [abs_lt]
    norm_num
  have h12 : |1 - Vec3.dot (⟨c, s, 0⟩ : Vec3 ℝ) ⟨c * c - s * s, 2 * c * s, 0⟩| < 1e-9 := by
    simp only [Vec3.dot, c, s, t]
    rw [abs_lt]
    norm_num
  have h02 : ¬|1 - Vec3.dot (⟨1, 0, 0⟩ : Vec3 ℝ) ⟨c * c - s * s, 2 * c * s, 0⟩| < 1e-9 := by
    simp only [Vec3.dot, c, s, t]
    rw [abs_lt]
    norm_num
  have hd2 : Vec3.dot (⟨c * c - s * s, 2 * c * s, 0⟩ : Vec3 ℝ) ⟨c * c - s * s, 2 * c * s, 0⟩ = 1 := by
    simp only [Vec3.dot]
    linear_combination (c * c + s * s + 1) * hcs
  have hn : Vec3.normalize (⟨c * c - s * s, 2 * c * s, 0⟩ : Vec3 ℝ) = ⟨c * c - s * s, 2 * c * s, 0⟩ := by
    simp only [Vec3.normalize, Vec3.norm, hd2, Real.sqrt_one]
    simp
  refine ⟨⟨1, 0, 0⟩, ⟨c, s, 0⟩, ⟨c * c - s * s, 2 * c * s, 0⟩, by simp [Vec3.dot], by simp [Vec3.dot, hcs], hd2, ?_, ?_, ?_, fun o => ⟨?_, ?_, ?_⟩, ?_, ?_⟩
  · simpa [equal, aligned] using h01
  · simpa [equal, aligned] using h12
  · simpa [equal, aligned] using h02
  · simpa [equal, aligned] using h01
  · simpa [equal, aligned] using h12
  · simp [equal, aligned, h02]
  · simp only [FixedDirection.generationProbability, hn]
    rw [if_neg h02]
  · simp only [FixedDirection.generationProbability, hn]
    rw [if_pos h12]

/-- C92 does not hold for `NormalizationConstant`: it compares equal to an energy spectrum with the same normalization (such as the default one), the spectrum does not compare equal to it, and they
report different densities (the constant always reports 1, Distributions.cxx:69-71). -/
theorem C92_normalization_fails : ∃ p : PowerLaw, p.Valid ∧
    equal (⟨1, .normalizationConstant⟩ : Dist ℝ N) ⟨1, .powerLaw p.index p.energyMin p.energyMax⟩ = true ∧
    equal (⟨1, .powerLaw p.index p.energyMin p.energyMax⟩ : Dist ℝ N) ⟨1, .normalizationConstant⟩ = false ∧
    p.pdf 1 ≠ 1 := by
  refine ⟨⟨2, 1, 2⟩, by norm_num [PowerLaw.Valid], by simp [equal, isNormalized], by simp [equal], ?_⟩
  simp only [PowerLaw.pdf]
  norm_num [Real.rpow_neg_one]

/-- C92 does not hold for distributions with a fiducial volume: `SecondaryBoundedVertexDistribution` and `FixedTargetPositionDistribution` compare equal whatever their fiducial volumes are, the latter whatever
its maximal length is, too. -/
theorem C92_fiducial_fails (n n' : K) (f f' c : Shp K N) (m m' : K) :
    equal ⟨n, .secondaryBounded f m⟩ ⟨n', .secondaryBounded f' m⟩ = true ∧
    equal ⟨n, .fixedTargetPosition c f m⟩ ⟨n', .fixedTargetPosition c f' m'⟩ = true := by
  simp [equal, C45_equality]

/-- C92: `<` is no strict order on the other classes. A mass is less than itself; two range distributions are less than each other; and distributions of four other classes are unequal although neither is less. -/
theorem C92_order_fails (types rank : Nat → Nat) (br : Nat) (n x y : K) (hxy : x < y) :
    operatorLt types rank br (⟨n, .mass x⟩ : Dist K N) ⟨n, .mass x⟩ = true ∧
    (let a : Dist K N := ⟨n, .range x x (some ⟨x, x, x, x⟩) [y]⟩
     let b : Dist K N := ⟨n, .range x x (some ⟨y, x, x, x⟩) [x]⟩
     operatorLt types rank br a b = true ∧ operatorLt types rank br b a = true) ∧
    (∀ p ∈ ([(⟨n, .columnDepth x x none⟩, ⟨n, .columnDepth y x none⟩), (⟨n, .decayRange x x none⟩, ⟨n, .decayRange y x none⟩),
        (⟨n, .pointSource [x] x⟩, ⟨n, .pointSource [y] x⟩), (⟨n, .fixedDirection ⟨1, 0, 0⟩⟩, ⟨n, .fixedDirection ⟨0, 1, 0⟩⟩),
        (⟨n, .cone ⟨1, 0, 0⟩ x⟩, ⟨n, .cone ⟨1, 0, 0⟩ y⟩)] : List (Dist K N × Dist K N)),
      operatorLt types rank br p.1 p.2 = false ∧ operatorLt types rank br p.2 p.1 = false ∧ equal p.1 p.2 = false) := by
  have h10 : ¬|1 - Vec3.dot (⟨1, 0, 0⟩ : Vec3 ℝ) ⟨0, 1, 0⟩| < 1e-9 := by simp [Vec3.dot]; norm_num
  have h01 : ¬|1 - Vec3.dot (⟨0, 1, 0⟩ : Vec3 ℝ) ⟨1, 0, 0⟩| < 1e-9 := by simp [Vec3.dot]; norm_num
  have h11 : |1 - Vec3.dot (⟨1, 0, 0⟩ : Vec3 ℝ) ⟨1, 0, 0⟩| < 1e-9 := by simp [Vec3.dot]; norm_num
  refine ⟨by simp [operatorLt, less], by simp [operatorLt, cls, less, tieFlag, functionLess, Range.fields, fieldsLt, lexLt, ltOf, hxy, hxy.not_gt], ?_⟩
  intro p hp
  simp only [List.mem_cons, List.not_mem_nil, or_false] at hp
  rcases hp with rfl | rfl | rfl | rfl | rfl
  · simp [operatorLt, cls, less, equal, tieFlag, functionLess, hxy.ne]
  · simp [operatorLt, cls, less, equal, tieFlag, functionLess, hxy.ne]
  · simp [operatorLt, cls, less, equal, fields_irrefl, hxy.ne]
  · simp [operatorLt, cls, less, equal, aligned, h10, h01, lexLt, ltOf]
  · simp [operatorLt, cls, less, equal, aligned, h11, hxy.ne]

/-! ### Examples -/

/-- Two spectra and an isotropic direction are ordered classes; the spectra differ in their upper limit only. -/
example : Ordered (.powerLaw 2 1 10 : Kind ℕ ℕ) ∧ Ordered (.powerLaw 2 1 100 : Kind ℕ ℕ) ∧ Ordered (.isotropic : Kind ℕ ℕ) ∧
    equal (⟨1, .powerLaw 2 1 10⟩ : Dist ℕ ℕ) ⟨1, .powerLaw 2 1 100⟩ = false ∧ operatorLt id (· + 1) 0 (⟨1, .powerLaw 2 1 10⟩ : Dist ℕ ℕ) ⟨1, .powerLaw 2 1 100⟩ = true := by
  simp [Ordered, Exact, equal, operatorLt, cls, less, lexLt, ltOf]

end Siren.Distributions.Compare
