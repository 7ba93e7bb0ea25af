# Formal model of SIREN (Harvard-Neutrino) in Lean 4: design

The properties are listed in `properties.jsonl` (C01, C02, ...). This file says what is modelled, how each property is
proved, what is trusted, and where the code was found to disagree with the property.

## Layout

`lean/Verif/<Area>/` holds one area of the code:

* `Model.lean`: executable definitions; each carries a comment citing file and lines in `/repo` (paths relative to
  `/repo/projects` unless they start with `/repo`), and says what was simplified.
* `Lemmas.lean`: helper lemmas (not part of the claims).
* Larger areas (`Geometry`, `Util`, `Distributions`, `Io`, `Interactions`) have one model and one or more property files per
  class instead, in the same style.
* `Props.lean`: the small independent specification and the property theorems, named `Cnn_...`, with `example`s showing
  that their hypotheses are met by concrete, non-trivial cases. A name ending in `_partial` proves part of a property and
  says what is missing. A name containing `_fails` is a proved counterexample: the code violates the property there.

## Trusted base

* Lean's kernel and the axioms `propext`, `Classical.choice`, `Quot.sound` (each theorem uses a subset). No axiom is
  added, no `sorry`, no `native_decide`, no `bv_decide`.
* The reading of the C++ source into the model: nothing is executed or extracted. Each definition cites its source.
* Numbers: a C++ `double` is modelled by an element of an ordered field (`K`, or `ℝ` where `sqrt`, `exp`, `log`, `pow`
  occur). Rounding, overflow and signed zero are not modelled. Where the logic of the code depends on infinities or NaN,
  they are modelled explicitly (`Option`-like constructors) and the definition says so. Integer types are unbounded
  unless the property is about wrap-around.
* Standard library: `std::sort`, `std::map`, `std::set`, `std::vector`, `lower_bound`, `upper_bound`, `min_element` are
  taken at their documented contracts. Where `std::sort` may order ties arbitrarily, theorems quantify over every sorted
  permutation.
* Undefined behaviour (out-of-range access, null dereference, use of uninitialised data) is a distinct outcome in the
  model, not assumed away.
* `rk` (four vectors, rotations, boosts) is modelled from its source in `/repo`. The splines of photospline are parameters:
  a table is an arbitrary function with its extents. Integrals done by `rombergIntegrate` in an interaction are the exact
  integral. A loop that draws from a uniform law until a test passes is taken to draw from the uniform law of the accepted
  region (used in C78 only).
* Not modelled: cereal's byte format, XML parsing (rapidxml), HepMC3's file format, Python bindings, the operating
  system, external physics tables.

## What is modelled and what is not

Generated by `scripts/coverage.py` from the citations in the model. A file is listed as modelled if some definition cites it;
the definitions say which lines. Everything else in that file, and every file listed as not modelled, is outside the model.
Python bindings (`pybindings`, `py*.cxx`), tests and serialization registration headers are not modelled anywhere.

### dataclasses

* `InteractionRecord.cxx`: Records/Compare, Records/PrimaryModel, Records/SecondaryModel
* `InteractionRecord.h`: Io/Model, Records/Compare, Records/PrimaryModel, Records/SecondaryModel
* `InteractionSignature.cxx`: Records/Compare
* `InteractionSignature.h`: Records/Compare
* `InteractionTree.cxx`: Tree/Model
* `InteractionTree.h`: Io/Model, Tree/Model
* `Particle.cxx`: Interactions/Dis, Interactions/Signatures, Interactions/Widths
* `ParticleID.cxx`: Records/Compare, Records/ParticleID
* `ParticleID.h`: Records/ParticleID
* `ParticleTypes.def`: Detector/MaterialTable, Interactions/CharmDecay, Interactions/Dis, Interactions/HnlDipoleSample, Interactions/Signatures, Io/Model
* not modelled: `DecaySignature.cxx`, `DecaySignature.h`, `Particle.h`, `ParticleMasses.h`, `ParticleType.cxx`, `ParticleType.h`

### detector

* `AtomicMasses.cxx`: Detector/MaterialTable
* `CartesianAxis1D.cxx`: Detector/DensityModel
* `CartesianAxisDensityDistribution.h`: Detector/DensityModel
* `ConstantDensityDistribution.h`: Detector/DensityModel
* `ConstantDistribution1D.cxx`: Detector/DensityModel
* `DensityDistribution.h`: Detector/DepthModel
* `DensityDistribution1D.h`: Detector/DensityModel
* `DetectorModel.cxx`: Detector/BVHModel, Detector/DepthModel, Detector/FrameModel, Detector/LazyIndex, Detector/Model, Detector/PathModel, Detector/RegistryModel, Distributions/DepthPositionModel, Gdml/MaterialModel, Gdml/VolumeModel
* `DetectorModel.h`: Detector/BVHModel, Detector/DepthModel, Detector/FrameModel, Detector/RegistryModel, Gdml/VolumeModel
* `Distribution1D.cxx`: Detector/DensityModel
* `ExponentialDistribution1D.cxx`: Detector/DensityModel
* `GDMLDefineParser.cxx`: Gdml/DefineModel
* `GDMLExpression.cxx`: Gdml/DefineModel, Gdml/ExprModel, Gdml/LoopModel
* `GDMLMaterialParser.cxx`: Gdml/MaterialModel
* `GDMLParser.cxx`: Gdml/LoopModel, Gdml/MergeModel
* `GDMLParser.h`: Gdml/DefineModel, Gdml/MaterialModel, Gdml/MergeModel, Gdml/UnitModel, Gdml/VolumeModel
* `GDMLParserPrivate.h`: Gdml/ExprModel, Gdml/NameModel, Gdml/PlacementModel
* `GDMLPreprocess.cxx`: Gdml/DefineModel, Gdml/LoopModel
* `GDMLReadUtils.cxx`: Gdml/PlacementModel
* `GDMLSolidParser.cxx`: Gdml/PlacementModel, Gdml/SolidModel
* `GDMLStructureParser.cxx`: Gdml/NameModel, Gdml/PlacementModel
* `GDMLUnits.cxx`: Gdml/DefineModel, Gdml/UnitModel
* `MaterialModel.cxx`: Detector/DepthModel, Detector/MaterialTable
* `MaterialModel.h`: Detector/MaterialTable
* `Path.cxx`: Detector/PathModel, Distributions/DepthPositionModel
* `Path.h`: Detector/PathModel
* `PolynomialDistribution1D.cxx`: Detector/DensityModel
* `RadialAxis1D.cxx`: Detector/DensityModel
* not modelled: `Axis1D.cxx`, `Axis1D.h`, `CartesianAxis1D.h`, `CartesianAxisDensityDistribution.cxx`, `CartesianAxisExponentialDensityDistribution.cxx`, `CartesianAxisExponentialDensityDistribution.h`, `CartesianAxisPolynomialDensityDistribution.cxx`, `CartesianAxisPolynomialDensityDistribution.h`, `ConstantDensityDistribution.cxx`, `ConstantDistribution1D.h`, `Coordinates.h`, `DensityDistribution.cxx`, `DensityDistribution1D.cxx`, `DetectorModel.tcc`, `Distribution1D.h`, `ExponentialDistribution1D.h`, `MaterialModel.tcc`, `PolynomialDistribution1D.h`, `RadialAxis1D.h`, `RadialAxisExponentialDensityDistribution.cxx`, `RadialAxisExponentialDensityDistribution.h`, `RadialAxisPolynomialDensityDistribution.cxx`, `RadialAxisPolynomialDensityDistribution.h`

### distributions

* `ColumnDepthPositionDistribution.cxx`: Distributions/Compare, Distributions/DepthPositionModel
* `Cone.cxx`: Distributions/Compare, Distributions/DirectionModel
* `Cone.h`: Distributions/DirectionModel
* `CylinderVolumePositionDistribution.cxx`: Distributions/Compare, Distributions/VolumeModel
* `DecayRangeFunction.cxx`: Distributions/Compare, Distributions/DecayRangeModel
* `DecayRangeFunction.h`: Distributions/Compare, Distributions/DecayRangeModel
* `DecayRangePositionDistribution.cxx`: Distributions/Compare, Distributions/DecayRangeModel, Distributions/DepthPositionModel
* `DecayRangePositionDistribution.h`: Distributions/DecayRangeModel
* `DepthFunction.cxx`: Distributions/Compare
* `Distributions.cxx`: Distributions/Compare
* `Distributions.h`: Distributions/Compare
* `FixedDirection.cxx`: Distributions/Compare, Distributions/DirectionModel
* `FixedDirection.h`: Distributions/DirectionModel
* `FixedTargetAreaDistribution.cxx`: Distributions/Compare, Distributions/FixedTargetArea
* `FixedTargetPositionDistribution.cxx`: Distributions/Compare, Distributions/FixedTargetPosition
* `FixedTargetPositionDistribution.h`: Distributions/FixedTargetPosition
* `IsotropicDirection.cxx`: Distributions/Compare, Distributions/DirectionModel
* `LeptonDepthFunction.cxx`: Distributions/Compare
* `LeptonDepthFunction.h`: Distributions/Compare
* `ModifiedMoyalPlusExponentialEnergyDistribution.cxx`: Distributions/Compare, Distributions/Moyal
* `ModifiedMoyalPlusExponentialEnergyDistribution.h`: Distributions/Moyal
* `Monoenergetic.cxx`: Distributions/Compare, Distributions/Point
* `PiDARNuEDistribution.cxx`: Distributions/Compare, Distributions/PiDAR
* `PointSourcePositionDistribution.cxx`: Distributions/Compare, Distributions/DepthPositionModel
* `PowerLaw.cxx`: Distributions/Compare, Distributions/PowerLaw
* `PrimaryBoundedVertexDistribution.cxx`: Distributions/Compare, Distributions/DepthPositionModel
* `PrimaryEnergyDirectionDistribution.h`: Distributions/Compare
* `PrimaryEnergyDistribution.cxx`: Distributions/Point
* `PrimaryEnergyDistribution.h`: Distributions/Compare
* `PrimaryExternalDistribution.cxx`: Distributions/Compare, Distributions/ExternalModel
* `PrimaryMass.cxx`: Distributions/Compare, Distributions/Point
* `PrimaryNeutrinoHelicityDistribution.cxx`: Distributions/Compare, Distributions/Point
* `PrimaryPhysicalVertexDistribution.cxx`: Distributions/Compare, Distributions/DepthPositionModel
* `RangeFunction.cxx`: Distributions/Compare
* `RangePositionDistribution.cxx`: Distributions/Compare, Distributions/DepthPositionModel
* `SecondaryBoundedVertexDistribution.cxx`: Distributions/Compare, Distributions/DepthPositionModel
* `SecondaryPhysicalVertexDistribution.cxx`: Distributions/Compare, Distributions/DepthPositionModel
* `SphereVolumePositionDistribution.cxx`: Distributions/Compare, Distributions/VolumeModel
* `Tabulated2DFluxDistribution.cxx`: Distributions/Compare, Distributions/Table2D
* `Tabulated2DFluxDistribution.h`: Distributions/Table2D
* `TabulatedFluxDistribution.cxx`: Distributions/Compare, Distributions/Tabulated
* `TabulatedFluxDistribution.h`: Distributions/Tabulated
* not modelled: `ColumnDepthPositionDistribution.h`, `CylinderVolumePositionDistribution.h`, `DepthFunction.h`, `FixedTargetAreaDistribution.h`, `IsotropicDirection.h`, `Monoenergetic.h`, `OrientedCylinderPositionDistribution.cxx`, `OrientedCylinderPositionDistribution.h`, `PiDARNuEDistribution.h`, `PointSourcePositionDistribution.h`, `PowerLaw.h`, `PrimaryAreaDistribution.cxx`, `PrimaryAreaDistribution.h`, `PrimaryBoundedVertexDistribution.h`, `PrimaryDirectionDistribution.cxx`, `PrimaryDirectionDistribution.h`, `PrimaryEnergyDirectionDistribution.cxx`, `PrimaryExternalDistribution.h`, `PrimaryMass.h`, `PrimaryNeutrinoHelicityDistribution.h`, `PrimaryPhysicalVertexDistribution.h`, `RangeFunction.h`, `RangePositionDistribution.h`, `SecondaryBoundedVertexDistribution.h`, `SecondaryPhysicalVertexDistribution.h`, `SecondaryVertexPositionDistribution.cxx`, `SecondaryVertexPositionDistribution.h`, `SphereVolumePositionDistribution.h`, `VertexPositionDistribution.cxx`, `VertexPositionDistribution.h`

### geometry

* `AABB.h`: Geometry/AABB
* `BooleanGeometry.cxx`: Geometry/BoolBox, Geometry/Compare, Geometry/Shape
* `BooleanGeometry.h`: Geometry/Compare, Geometry/Shape
* `Box.cxx`: Geometry/Box, Geometry/Walk
* `Cone.cxx`: Geometry/Cone, Geometry/Wedge
* `Cone.h`: Geometry/Cone
* `CutTube.cxx`: Geometry/CutTube, Geometry/Wedge
* `CutTube.h`: Geometry/CutTube
* `Cylinder.cxx`: Geometry/Cylinder, Geometry/Walk, Geometry/Wedge
* `Cylinder.h`: Distributions/VolumeModel, Geometry/Cylinder
* `Ellipsoid.cxx`: Geometry/Ellipsoid
* `Ellipsoid.h`: Geometry/Ellipsoid
* `EllipticalTube.cxx`: Geometry/EllipticalTube
* `EllipticalTube.h`: Geometry/EllipticalTube
* `ExtrPoly.cxx`: Geometry/ExtrPoly, Geometry/Merge, Geometry/Polygon
* `ExtrPoly.h`: Geometry/ExtrPoly
* `GenericPolycone.cxx`: Geometry/GPoly, Geometry/Wedge
* `GenericPolycone.h`: Geometry/GPoly
* `Geometry.cxx`: Detector/BVHModel, Geometry/AABB, Geometry/BoolBox, Geometry/Compare, Geometry/Placement, Geometry/Shape
* `Geometry.h`: Detector/DepthModel, Detector/Model, Geometry/Hits
* `GeometryMacros.h`: Geometry/Compare
* `GeometryMesh.cxx`: Geometry/Mesh, Geometry/MeshClosed, Geometry/MeshTree
* `GeometryMesh.h`: Geometry/Mesh, Geometry/MeshTree
* `Para.cxx`: Geometry/Para
* `Para.h`: Geometry/Para
* `PhiUtils.h`: Geometry/Phi
* `Placement.cxx`: Geometry/Compare, Geometry/Placement
* `Placement.h`: Geometry/Placement
* `Polycone.cxx`: Geometry/Polycone, Geometry/PolyconeMain, Geometry/Wedge
* `Polycone.h`: Geometry/Polycone
* `Polyhedra.cxx`: Geometry/Polyhedra, Geometry/PolyhedraHits, Geometry/PolyhedraSide
* `Polyhedra.h`: Geometry/Polyhedra
* `Sphere.cxx`: Geometry/Sphere, Geometry/SphereCut, Geometry/Theta, Geometry/Walk, Geometry/Wedge
* `Sphere.h`: Distributions/VolumeModel, Geometry/SphereCut
* `Torus.cxx`: Geometry/Quartic, Geometry/Torus, Geometry/TorusCut, Geometry/TorusExamples, Geometry/Wedge
* `Trap.cxx`: Geometry/Trap
* `Trap.h`: Geometry/Trap
* `Trd.cxx`: Geometry/Trd
* `Trd.h`: Geometry/Trd
* not modelled: `Box.h`, `MeshBuilder.cxx`, `MeshBuilder.h`, `Torus.h`

### injection

* `Injector.cxx`: Injection/ChannelModel, Injection/EventModel, Injection/ProcessModel, Injection/Reports
* `Injector.h`: Injection/EventModel, Injection/ProcessModel
* `Process.cxx`: Injection/ProcessModel
* `Process.h`: Injection/ProcessModel
* `Weighter.cxx`: Injection/Reports, Injection/WeightModel
* `Weighter.h`: Injection/Reports, Injection/WeightModel
* `Weighter.tcc`: Injection/DepthModel, Injection/Reports, Injection/WeightModel
* `WeightingUtils.cxx`: Injection/ChannelModel
* not modelled: `ColumnDepthLeptonInjector.cxx`, `ColumnDepthLeptonInjector.h`, `CylinderVolumeLeptonInjector.cxx`, `CylinderVolumeLeptonInjector.h`, `DecayRangeLeptonInjector.cxx`, `DecayRangeLeptonInjector.h`, `RangedLeptonInjector.cxx`, `RangedLeptonInjector.h`, `WeightingUtils.h`

### interactions

* `CharmCrossSectionHelpers.h`: Interactions/Signatures, Interactions/Widths
* `CharmDecayKinematics.h`: Interactions/Charm, Interactions/CharmCache, Interactions/CharmDecay, Interactions/CharmIntegral, Interactions/CharmVa
* `CharmMesonDecay.cxx`: Interactions/Charm, Interactions/CharmCache, Interactions/CharmDecay, Interactions/Signatures, Interactions/Widths
* `CharmMesonDecay.h`: Interactions/CharmCache, Interactions/Signatures
* `CharmMesonDecay3Body.cxx`: Interactions/CharmCache, Interactions/Signatures
* `CharmMesonDecay3Body.h`: Interactions/Signatures
* `CrossSection.cxx`: Interactions/Widths
* `DISFromSpline.cxx`: Interactions/Dis, Interactions/DisChain, Interactions/Signatures
* `DISFromSpline.h`: Interactions/Signatures
* `DMesonELoss.cxx`: Interactions/BoxMuller, Interactions/DMeson, Interactions/Signatures
* `DMesonELoss.h`: Interactions/DMeson
* `DarkNewsCrossSection.cxx`: Interactions/DarkNews
* `Decay.cxx`: Interactions/Widths
* `DummyCrossSection.cxx`: Interactions/Signatures
* `ElasticScattering.cxx`: Interactions/Elastic, Interactions/Signatures
* `ElasticScattering.h`: Interactions/Elastic
* `ElectroweakDecay.cxx`: Interactions/Signatures, Interactions/TwoBody, Interactions/Widths
* `ElectroweakDecay.h`: Interactions/Signatures, Interactions/Widths
* `HNLDISFromSpline.cxx`: Interactions/Signatures
* `HNLDecay.cxx`: Interactions/Signatures, Interactions/ThreeBody, Interactions/TwoBody, Interactions/Widths
* `HNLDecay.h`: Interactions/Signatures
* `HNLDipoleDISFromSpline.cxx`: Interactions/Signatures
* `HNLDipoleDecay.cxx`: Interactions/Signatures, Interactions/TwoBody, Interactions/Widths
* `HNLDipoleFromTable.cxx`: Interactions/HnlDipole, Interactions/HnlDipoleSample, Interactions/Signatures
* `HNLDipoleFromTable.h`: Interactions/HnlDipoleSample
* `InteractionCollection.cxx`: Injection/ChannelModel, Interactions/Widths
* `InteractionCollection.h`: Injection/ChannelModel
* `MarleyCrossSection.cxx`: Interactions/Signatures
* `PythiaDISCrossSection.cxx`: Interactions/Signatures, Interactions/Widths
* `QuarkDISFromSpline.cxx`: Interactions/Signatures, Interactions/Widths
* not modelled: `CrossSection.h`, `DarkNewsCrossSection.h`, `DarkNewsDecay.cxx`, `DarkNewsDecay.h`, `Decay.h`, `DummyCrossSection.h`, `HNLDISFromSpline.h`, `HNLDipoleDISFromSpline.h`, `HNLDipoleDecay.h`, `Interaction.h`, `MarleyCrossSection.h`, `PythiaDISCrossSection.h`, `QuarkDISFromSpline.h`

### io

* `HepMC3Reader.cxx`: Io/Model
* `HepMC3Writer.cxx`: Io/Model
* `HepMC3Writer.h`: Io/Model
* not modelled: `HepMC3Reader.h`

### math

* `Conversions.h`: Math/EulerModel, Math/Quaternion
* `EulerAngles.h`: Math/EulerModel
* `EulerQuaternionConversions.h`: Distributions/DirectionModel, Math/EulerModel
* `Interpolation.h`: Math/Delaunay, Math/IndexModel, Math/Operators, Math/QuadModel, Math/Transforms
* `Matrix3D.cxx`: Math/EulerModel, Math/Quaternion
* `Matrix3D.h`: Math/Quaternion
* `Polynomial.cxx`: Math/Newton, Math/Poly
* `Quaternion.cxx`: Distributions/DirectionModel, Math/EulerModel, Math/Quaternion
* `Quaternion.h`: Math/Quaternion
* `Vector3D.cxx`: Distributions/DirectionModel, Interactions/TwoBody, Math/SphericalModel, Math/Vec3
* `Vector3D.h`: Distributions/DirectionModel, Math/SphericalModel, Math/Vec3
* not modelled: `EulerAngles.cxx`, `Interpolation.cxx`, `Polynomial.h`

### serialization

* `ByteString.h`: Io/ByteString
* not modelled: `array.h`, `serialization.cxx`

### utilities

* `Constants.h`: Distributions/PiDAR, Gdml/UnitModel, Interactions/CharmDecay, Interactions/Dis, Interactions/Elastic, Interactions/HnlDipoleSample, Interactions/ThreeBody, Interactions/TwoBody, Interactions/Widths, Io/Model
* `Errors.h`: Base
* `Integration.h`: Distributions/Table2D, Math/Integrate
* `Interpolator.h`: Distributions/Compare, Distributions/Table2D, Interactions/HnlDipoleSample, Math/Table2, Math/TableModel
* `Random.cxx`: Injection/ChannelModel, Interactions/Dis, Util/Random
* `Sampling.h`: Util/Random, Util/Sampling
* `StringManipulation.cxx`: Util/Strings
* `StringManipulation.h`: Util/Strings
* not modelled: `Interpolator.cxx`, `Pybind11Trampoline.h`, `Random.h`

## Plan per property

| id | what is modelled | how it is proved |
|----|------------------|------------------|
| C01 | `add_entry` on a list of data | invariant by induction over the call list |
| C02 | `depth` loop with its counter, `validate_indices` | fuel bound; path in the parent relation; pigeonhole for cycles |
| C03 | `rebuild_indices_from_legacy`, versioned `load`/`save` at field level | round trip over all trees |
| C04 | atomic steps of `GenerateID` as a transition system of threads | invariant over every interleaving |
| C05 | lexicographic `tie` comparison | order axioms proved from those of the fields |
| C06 | the update cascade of `PrimaryDistributionRecord` (mass, energy, kinetic energy, direction, momentum) | case analysis over set flags, algebra over ℝ |
| C07 | the position part of the cascade | same; counterexample where the code's sign is wrong |
| C08 | `Finalize` | list induction |
| C09 | `SecondaryDistributionRecord` construction and `Finalize` | direct |
| C10 | cumulative list and index loop of `SampleCrossSection` | induction over channels; interval characterisation |
| C11 | counters of `GenerateEvent` as a state machine (cascades may not terminate: fuel) | invariant over histories |
| C12 | the deque loop of `GenerateEvent` with oracle outcomes | invariant over loop iterations |
| C13 | `EventWeight`, `ProcessWeighter::Initialize` | algebra over lists |
| C14 | `one_minus_exp_of_negative` and users | real analysis |
| C15 | `CrossSectionProbability` | list algebra |
| C16, C17 | registries as state machines | invariant over histories, refinement to a partial map |
| C18 | `SectorLoop` with its `std::map` stack and callback; `SortIntersections` | loop invariant: stack = set of open sectors |
| C19 | `GetContainingSector`, `GetMassDensity` | from C18's invariant |
| C20–C22 | depth accumulation callbacks over `SectorLoop` | folding over the segments of C18 |
| C23–C25 | BVH construction and both traversals | structural induction; conservative boxes |
| C26 | comparator of `SortIntersections` | order axioms |
| C27 | sector registry | invariant over histories |
| C28 | `ToDet`, `ToGeo`, overload forwarding | quaternion algebra; counterexamples for two overloads |
| C29 | `BuildVolume` recursion | induction over the traversal, fuel/visited set |
| C30 | `resolve_component` | induction, fraction sums |
| C31 | token stream, shunting-yard, RPN evaluation | induction over grammar derivations |
| C32, C33 | `MaterialModel` tables, PDG code parsing | map algebra, digit arithmetic |
| C34, C35 | `Path` operations | invariant over operation histories |
| C36, C44 | CSG walk with batching, boolean boxes | induction over the merged hit list |
| C37, C38 | slab test with infinite inverse directions, corner transform | case analysis, convexity |
| C39, C40 | box and sphere intersections | interval algebra, quadratic formula |
| C41, C43 | `Placement`, `Quaternion` | polynomial identities |
| C42 | `IsInside` over alternating hits | list induction |
| C45 | comparison operators of shapes | order axioms by induction on nesting |
| C46 | phi helpers | `Int.floor`/`fmod` arithmetic |
| C47, C48 | `Polynom`, `NewtonRaphson` | induction over coefficients / iterations |
| C49–C51 | interpolation and integration helpers | list induction |
| C52 | density distributions | algebra / calculus |
| C53 | `add_prefix` | list induction |
| C54, C55 | random helpers, power law | real analysis |
| C56, C57 | CSV loading, Metropolis–Hastings | list induction |
| C58–C61 | HepMC3 numbering, registry, reader topology, writer statuses | list/graph induction |
| C62 | `UpdateInteractionTime`, `FlightTime`, `Finalize` of the primary record | invariant over call histories, algebra over ℝ |
| C63 | double-checked lazy rebuild as a transition system of threads | invariant over every interleaving |
| C64 | MaterialTable.lean: radiationLength, radiationFraction | C64_length: induction over the composition and the history; C64_fraction_fails: induction over the list of targets |
| C65 | the cache of `Path` | invariant over histories: the cached line contains the path and comes from its detector; counterexamples for `SetDetectorModel` and for rays nearly on the cached line |
| C66 | depth operations of `Path` | the column depth along the line as a continuous, strictly increasing function that all queries agree with (from C20, C21); cutting and extending in terms of it |
| C67 | `simpsonIntegrate2D` | fold to sums, weights by induction, telescoping for cubics |
| C68 | Weight and count totals of the prescan | sums over lists |
| C69 | Writing followed by reading on the event graph | layout invariant over the tree; placement keeps the order |
| C70 | Cone, isotropic and fixed directions; `Vector3D` with cached spherical part where `==` is used | the cone's rotation takes z to the axis; change of variables u = cos(theta) shows that the sampled law has the reported density |
| C71 | Drawing in cylinder and shell, density, first and last crossing | changes of variables u = r^2, u = r^3, u = cos(theta) in iterated integrals; crossings described as in C36 |
| C72 | Paths from the Path model, depth queries, the seven vertex distributions, the disk | inverse distribution function along the path from the interaction-depth theorems (C19, C22, C34); change of variables on the disk |
| C73 | DecayRangeFunction, DecayRangePositionDistribution | change of variables for the truncated exponential, composed with the disk |
| C74 | wedge crossings, shared by seven shapes | local criterion: a set changes only at hits |
| C75 | cylinder intersections, caps and barrels | local criterion, wedge from C74 |
| C76 | sphere with wedge and polar band | local criterion for one cone, states of three sources combined |
| C77 | the four vectors and rotation of rk; kinematic test, proposal loop, Metropolis loop, final state, record kinematics | algebra of the final state in the frame of the beam, rotation invariance, invariant of the loops |
| C78 | the same loop, with the proposal and the decision as measures | general theorem on independence Metropolis chains (detailed balance), decision average, change of variables to the logarithms |
| C79 | differential cross section, Metropolis loop, recoil electron, record | algebra of the recoil, rotation invariance, invariant of the loop |
| C80 | the same, with the proposal and the decision as measures | disproved in each part (`C80_conservation_fails`, `C80_probability_fails`, `C80_density_fails`); the density that is stationary is proved instead |
| C81 | constructors and getters of the cross sections: loops over sets filling a list and a map | invariant of the nested loops (`Appended`), sets without repetition |
| C82 | the same for the remaining classes and for loading into an existing object | disproved per class; what holds is `_partial` |
| C83 | getters of the decays | invariant of the loop over primaries |
| C84 | quantum numbers of particle codes as separate specification | C81/C83 for which states are listed, case analysis over particle codes |
| C85 | width and cross section functions on records, sums over final states | evaluation of each branch, sums over permuted lists |
| C86 | collection sums, extended non-negative reals with not-a-number | induction over the lists |
| C87 | samplers of the two-body decays with the rotations and boosts of rk | Lorentz invariants of the boosted product; the second product by its invariant mass |
| C88 | the same and `FinalStateProbability` | the recomputed cosine is the sampled one; change of variables in the integral over the random number |
| C89 | proposal, conversion to momenta, boost, products of `HNLDecay` | the polynomial that bounds the allowed region; Lorentz invariants of the boosted momenta |
| C90 | `MetropolisHasting_Sample` over any sample space | detailed balance; minorisation of one pass by the target |
| C91 | the same as C89, `ThreeBodyDifferentialDecayWidth` | the width of the record is the likelihood; counterexamples for the proposals and the likelihood |
| C92 | `operator==`, `operator<`, `equal`, `less` of all classes | cases; a key for every class, compared lexicographically |
| C93 | `PrimaryMass`, `PrimaryNeutrinoHelicityDistribution`, `Monoenergetic` | cases |
| C94 | `PiDARNuEDistribution` | antiderivative; invariant of the bisection, induction on the number of passes |
| C95 | `ModifiedMoyalPlusExponentialEnergyDistribution` | antiderivative with the error function; reduction to C90 |
| C96 | `TabulatedFluxDistribution` on top of `Interpolator1D` and `trapezoidIntegrate` | chain of neighbouring energies on which the flux is linear, induction over it; reduction to C49 and C50 |
| C97 | `Para::ComputeIntersections`, `GetBoundingBox`: clipping against three pairs of planes | the solid is defined by coordinates along its edges; each pair of planes clips to the right interval of the line |
| C98 | `Trap::ComputeVertices`, `ComputePlanes`, `ComputeIntersections`, `GetBoundingBox` | the solid is defined by its edges; half spaces through three corners of each face equal it if the sides are flat; clipping, induction over the planes |
| C99 | `Trd::ComputeIntersections`, `GetBoundingBox` | six linear functions along the line; each reported crossing is a change of sign of one while the others are negative, nothing else changes; from local to global as in C75 |
| C100 | `EllipticalTube::ComputeIntersections`, `GetBoundingBox` | quadratic and two linear functions along the line; zeros of the shifted quadratic; from local to global as in C75 |
| C101 | `Ellipsoid` constructors, `ComputeIntersections`, `GetBoundingBox` | quadratic and two linear functions along the line; flag of the moved crossing by the distance of the roots; from local to global as in C75 |
| C102 | `Cone` constructors, `ComputeIntersections` with its treatment of the tip, `GetBoundingBox` | two quadratics whose zeros are simple or whose sign does not change, and two linear functions along the line; from local to global and the cut as in C75 |
| C103 | `Tabulated2DFluxDistribution`: constructors, integral, bounds, sampler with its state, density; the interpolation table is a parameter | support by induction over the loops; integral by C67; the law of the point that is drawn as a geometric series over the rejected passes; the law that is left unchanged by detailed balance |
| C104 | `Interpolator2D`: SetTable and evaluation, on the model of `Indexer1D` used for C49 | the finder selects a cell that contains the point; bilinear interpolation is the same in all cells that contain a point; the stored values by induction over the rows |
| C105 | `FixedTargetAreaDistribution`: the sampler on three outputs of the generator and the density from the crossings | the placed polar map carries the law of the outputs to the uniform law on the solid (change of variables, isometries preserve volume); Tonelli in a frame along the direction; the sum over crossings by induction as the measure of the inside set |
| C106 | `FixedTargetPositionDistribution` on the models of the cylinder (C75) and of the paths (C72); the fiducial crossings are a parameter | the first and last crossing are the ends of the part of the line inside, hence functions of the line; then C72 on the path; convexity for targets without a hole |
| C107 | `Injector::GenerationProbability` and `SecondaryGenerationProbability`; densities are parameters | induction over the event; the weight by C13 |
| C108 | `GetInteractionProbabilities`, `GetSurvivalProbabilities` on the weighter of C13 and the probabilities of C14; the depth of a path is a parameter | both loops by induction over the event |
| C109 | `SaveWeighter`, `LoadWeighter`, the constructors and the clearing in `Initialize`; the archive is the sequence of the saved members | equality of the whole state |
| C110 | `CutTube` constructors, `ComputeIntersections`, `GetBoundingBox`; real square root, sine and cosine | each crossing changes the solid as stated, nothing else does; the wedge by C74; the box from Cauchy-Schwarz and the extremes of cosine over a range |
| C111 | `ExtrPoly` with its lateral planes, the clipping of a line section by section, sorting and the removal of pairs; the solid is defined through the interior of the convex hull of the vertices | half planes of a convex polygon are its hull (separation theorem; the slope of the vertices seen from an outer point would grow round the polygon); induction over planes for the clipping; induction over the sorted list for the removal of pairs |
| C112 | `ResolveDefineInOrder` as a machine with its stack of frames, one transition per round of the `while` loop, all kinds of elements, `resolveBrackets` on characters; `EvalExpression` and `strtod` are parameters | refinement: simulation of the recursive reading of a document by the stack, by mutual induction over elements and sequences, with an inner induction over the iterations of a loop; invariant over all runs for the built-in names |
| C113 | the unit tables of `GDMLUnits.cxx`, `ParseLength`, `ParseAngle`, `QuantityUnitScale`, `ResolveQuantityType` | case analysis over the tables, for all values and texts |
| C114 | `StripPointerSuffix`, `InstanceTracker` (`Store`, `Resolve`, `Lookup`, `Flatten`, `FlatName`, `ParseFlatName`), `resolveVolRef`; names as lists of characters, hash maps as functions with an arbitrary walking order | induction over the history of definitions; numbered names are injective because decimal digits contain no underscore |
| C115 | `ParseAllSolids`: reading of the sections, table of dependents, stack of ready booleans, warnings; on top of the tracker of C114 | inductive definition of what a file describes; invariants over the reading and over the rounds of the loop; lexicographic measure for its end |
| C116 | `GDMLData::MergeFrom`: the comparison loops, `findUnique`, the renaming of references, `merge`; maps as lists in an arbitrary order | invariants over the loops; pigeonhole principle for the search for a free name; numbered names are injective |
| C117 | `EulerOrder` with its bit fields, `QuaternionFromEulerAngles`, `EulerAnglesFromMatrix3D`, `Matrix3DFromEulerAngles`, `QFromZXZr`, `ZXZrFromQ`, `QFromXYZs`, `XYZsFromQ`, `GetAxisAngle`; real numbers | quaternion products of the three turns, half-angle formulas; the conversion back is reduced to the orders XYZs and XYXs by renaming axes, then by the orthogonality relations of the matrix; error bounds in the singular branch |
| C118 | the end of `ParseFiducialVolume` on the models of placements (C41), quaternions (C43) and frames (C28) | the local coordinates of a point with respect to the converted volume are computed; the property holds exactly for shapes that are symmetric under the rotation of the detector |
| C119 | `Vector3D` with its stored spherical coordinates: constructor, `==`, `+=`, `normalized`, both conversions, `deflect`; real numbers | trigonometry; the direction and the two axes used by `deflect` are an orthonormal basis |
| C120 | `ExpandLoops` as a machine with its stack of frames and the tree it rewrites, `CloneNodeWithSubst`, `SubstLoopVar` on characters; `EvalExpression`, `strtod` and the formatting of fractions are parameters | simulation of the recursive unrolling by the stack, by well-founded induction over height and length; copying keeps heights and depths; the search for words by induction over the maximal words of the text |
| C121 | the walls of the sections (as the walls of `Cone`), end caps, steps between groups of planes at the same height, cut, constructors and bounding box | the sections form a tower: every height is within one section or at one junction; local changes of the solid at walls, caps and steps as for C102, then the crossings are all the changes and none is found twice |
| C122 | `Box`, `Quadtree` with `add`, `split`, `remove`, `tryMerge`, `query` and `findAllIntersections`, over any ordered field; assertions on or off | invariant: values lie in the node the search goes to, by induction over the tree and over the sequence of calls; the collection of all values changes as a plain multiset does; pairs against the two-element selections of the multiset |
| C123 | `DelaunayIndexer2D` on top of the tree of C122, `PointInTriangle`, simplex operators, `LinearDelaunayInterpolator2D`; the triangulation comes from a library that is not in the repository and is a parameter | C122 for the tree; the quotients in `PointInTriangle` and in the operator are the weights of the corners |
| C124 | `RegularIndexer1D`, `IrregularIndexer1D`, `TransformIndexer1D`, `SelectIndexer1D` with the error of one rounding as a parameter, `GridIndexer2D` with its map as a function | position by position on sorted lists; the choice between indexers is decided by bounds on the two measures that hold for any transform |
| C125 | the four subclasses of `Transform` over the real numbers, with constructors, `equal`, `operator<` and archives | case distinction on the three parts of the line; continuity from monotonicity and surjectivity |
| C126 | the four operators over an ordered field; `SelectInterpolationSpace1D` over the real numbers, with results that are not finite as `none` | a total is zero exactly when every inner point is reproduced |
| C127 | the methods of the Python subclass as parameters; the initial loop, the chain and the rotations over the real numbers, square roots of negative numbers and 0/0 as not numbers | conservation by algebra on the invariants; the chain by detailed balance in the logarithm of Q2 |
| C128 | the tables and proton counts as parameters; limits, cross section, initial loop, chain and rotations over the real numbers, square roots of negative numbers and 0/0 as not numbers | limits by factoring the transverse momentum; conservation by algebra; the chain by detailed balance in the logarithm of y (shared with C127) |
| C129 | masses, choice of the hadron, acceptance loops, boosts and the closed-form angular average over the real numbers; the Romberg integral of the normalisation as a parameter | conservation by the boost lemmas of the four-vectors; the angular average by integrating the positive part of a quadratic; the law by induction over the passes and a change of variables from the mass to its square |
| C130 | the cache as an association list with the rounded key, calls as steps on it | invariant: every entry is the integral for masses asked for before; the keys of all listed decays computed |
| C131 | PrepareRay, WoopIntersect, RayAABBIntersect, BuildBVH, the traversal (stacks as recursion on a tree), the merging loop, GetBoundingBox and ValidateClosed; the conversion to float, nth_element and sort as parameters | one triangle by solving for the point of the line in barycentric coordinates; the tree by strong induction on the number of triangles with boxes containing their triangles; parity and balance by winding numbers of the projected edges around the line, summed over directed and undirected edges |
| C132 | SolveDepressedCubic, SolveQuartic, the polishing, checking and merging of roots, both surfaces without an azimuthal cut, and GetBoundingBox; the walk over surfaces and wedge with an azimuthal cut; std::sort as a parameter | cubic and quartic by factoring over the reals; crossings by the sign of the product of the two implicit functions along the line, whose zeros are the roots and whose slopes have the sign of the normal times the direction |
| C133 | the trial loop over a list of random numbers, the final state as four-vectors, the truncated bell curve; Romberg integration is the exact integral | Box-Muller law by a change to polar coordinates; induction over the trials |
| C134 | ComputeWinding, the loop over edges with cones, disks and claims of endpoints, GetBoundingBox without an azimuthal cut; std::sort as a parameter; polygons as functions of the index | roots of a quadratic on an interval against the signs at its ends; the sum over the edges telescopes around the polygon, so as many crossings enter as leave; cut off at a point of the line it leaves the winding number around that point; for simple polygons that number is 0 or 1, so the crossings alternate |
| C135 | the four functions of ByteString.h and pickle_save/pickle_load; std::hex with setw and setfill, std::stoi in base sixteen with white space, sign, prefix and ignored rest; cereal's archives as parameters | induction over the bytes and over pairs of characters |
| C136 | constructors with validate, precompute_trig, the early return of ComputeIntersections, PointInConvexPolygon and PointInAnnularPolygon, GetBoundingBox without an azimuthal cut, each side face with PointInConvexFace3D, the end caps and the caps at steps; not the final sort and not the caps of a solid with a cut | corners on circles by trigonometry; the square of the distance from the axis is convex along the line; the normals of the sides add up to zero, so no point is outside all sides |
| C137 | ReadPlacement, ReadPositionXYZ, ReadRotationXYZ, ValidateZPlaneMonotonicity over the model of define sections; a rotation is kept as its three angles; the evaluator of expressions is a parameter | first child with a tag is invariant under permutation when tags do not repeat; case analysis of the reads; induction over the elements |

## Disagreements between code and property

Each is backed by a `_fails` theorem in the model (a concrete counterexample) unless marked otherwise.

* C03: a legacy archive containing a null entry makes loading undefined (`C03_legacy_null_entry_fails`).
* C04: in a forked child whose threads make their first calls at the same time, ids are issued twice
  (`C04_fork_then_threads_fails`), also between parent and child when the process-set id was drawn before the fork
  (`C04_parent_and_child_fails`). The theorems cover fresh and settled processes and a child whose first call completes
  before others start. Trusted: sequentially consistent interleaving of the atomic steps, an arbitrary hash.
* C13: an event no injector can produce has weight infinity, not 0 (`C13_not_generated_fails`, `C13_infinite_weight_fails`);
  if an injector lacks one of the weighter's secondary processes, the constructor returns early and `EventWeight` reads beyond
  the end of a vector (`C13_incomplete_fails`). `ProcessWeighter::Initialize` uses reverse iterators after erasing behind them,
  which the standard does not allow; the model takes the behaviour of contiguous vectors.
* C14: the interaction probability drops by about 5e-13 at depth 1e-6 (`C14_growth_fails`).
* C18: without a sector enclosing the whole line, the walk stops at the first gap and the rest of the line is not
  attributed (`C18_gap_without_enclosing_sector_fails`). A sector touched in a single point (entry and exit at the same
  distance) makes the walk throw, because exits sort before entries (`C18_grazing_chord_fails`).
* C21: a request beyond the available depth is not signalled; the distance to the end of the last sector is returned. The
  property was reworded to say so (`C21_beyond`).
* C22: with decays and more than one sector the inverse is wrong, because the decay contribution of the traversed sectors
  is not accumulated (`C22_decay_and_two_sectors_fails`). With decays only, negative requests give positive distances
  (`C22_negative_request_only_decays_fails`). Up to 1e-5 m `GetInteractionDepth` drops the material contribution
  (`C22_short_distance_fails`).
* C24: within 1e-9 before a surface the sector's own test accepts points outside its bounding box, which the hierarchy
  then misses (`C24_tolerance_fails`); a bounded sector at level `INT_MIN` is never found (`C24_int_min_fails`); a sector
  with an unbounded box is found everywhere, whatever its own test says (`C24_unbounded_fails`). The property was reworded
  to exclude these.
* C36: crossings of one operand at equal distance (touching pieces of a nested union) may be swapped by the unstable sort
  of the enclosing boolean shape, which then reports the second piece as absent (`C36_touching_pieces_fails`). The
  theorems therefore ask for strictly increasing distances of each operand, which boolean shapes themselves produce.
* C37: the test accepts lines through an inverted (empty) box (`C37_invalid_box_fails`); callers only use valid ones.
* C40: for a shell with equal radii, which the constructor accepts, entry and exit share a distance and everything behind
  the sphere counts as inside (`C40_empty_shell_fails`). The exactness theorems ask for different radii.
* C43: `rotation_between` of a vector along x and its opposite is the zero quaternion, because `min_element` compares
  against a copy and always picks the x axis (`C43_rotation_between_opposite_x_fails`). `operator+(double)`
  multiplies, unlike `operator+=(double)` (`C43_add_number_fails`).
* C44: a local box that is infinite along one axis only is not rotated with its shape (RecomputeWorldAABB shortcut), so
  its world box misses points (`C44_half_infinite_fails`). The theorem asks for a `Simple` placement of such operands.
* C46: for the wedge [π, 2π] the azimuth 0, its closing edge, is reported outside (`C46_edge_fails`).
- C06: the direction derived for a particle at rest, or from two coinciding positions, is NaN, not an exception (`C06_rest_direction_fails`); the theorems are about values that agree with one particle.
- C07: `UpdatePointOfClosestApproach` has a sign error when the point is derived from a position (InteractionRecord.cxx:422-426, `C07_poca_sign_fails`); two branches (lines 516 and 606) read `direction` although only its cached value may be there (`C07_stale_direction_fails`). The remaining branches are proved (`C07_positions`, `C07_closest_approach_partial`).
- C08: the original wording said that `Finalize` writes the primary fields; it does not. The property was reworded.
- C09: `SecondaryDistributionRecord::Finalize` uses `length` before it is checked, so finalizing without a length reads an uninitialised member (`C09_finalize_without_length_fails`).
- C10: with decays only, a draw of exactly zero indexes the empty list of cross sections (`C10_zero_draw_fails`); the property excludes this draw.
- C11: `operator bool` compares accepted events, `GenerateEvent` counts attempts: the injector can claim more events when the next call must throw (`C11_more_events_fails`).
- C16: `load` appends to the registry of an injector that is not new (`C16_load_fails`); changing a process's type after registration does not move it (`C16_retype_fails`).
- C17: the setters compare pointers, so equal distributions pass (`C17_set_duplicates_fails`), and `SetPhysicalDistributions` on an injection process drops its injection distributions (`C17_set_physical_fails`).
- C27: a `SetSectors` that throws half way has already replaced the list of sectors but neither all lookup tables nor the dirty flag: a later spatial query uses the old index on the new list and may read beyond its end (`C27_failed_set_fails`). The property is about successful calls.
- C63: sequential consistency of the modelled steps is trusted; changing the sectors while others query is not synchronised in the code and is outside the property.
- C28: `DistanceForColumnDepthToPoint` and `DistanceForInteractionDepthToPoint` in detector coordinates forward to `...FromPoint` without reversing the direction (`C28_to_point_fails`). The property excludes them.
- C30: mass is lost without a message in three cases. A component without atomic number or mass is dropped (`C30_no_nucleus_fails`: a half-and-half mixture is recorded with a total of one half). Atom counts of elements that are themselves isotope mixtures use a mass of zero, so the counts are taken as fractions (`C30_atom_counts_fails`: water gets a total of three). A component named twice keeps only its last fraction (`C30_repeated_fails`). The property is stated for the remaining files.
- C31: a dot that belongs to no number (`two.x`, or a lone `.`) makes the evaluation loop forever, because `strtod` consumes nothing and the tokenizer does not advance (GDMLExpression.cxx:114-120): `C31_dot_fails` shows that no number of steps suffices. A constant whose name `strtod` accepts (`inf`, `nan`, `infinity`) is ignored when it stands alone (`C31_number_word_fails`); `C31_value` excludes exactly these strings. Some strings outside the grammar are accepted, e.g. `2 3+` is 5 (`C31_malformed_fails`).
- C32: the listed property said that mass fractions are normalized and that re-adding a material replaces it. The code does not normalize. Re-adding overwrites the fractions of the new targets but erases none, so a target of the old composition keeps its old fraction while it disappears from the target list (C32_stale_fails). If free neutrons, protons or electrons are supplied beside nuclei, the first addition keeps the supplied fraction and the second replaces it by the derived one (C32_conflict_fails). A single component that is neither a nucleus nor a known particle turns the per-mass sums into NaN, and all derived targets of the material vanish (C32_unknown_component_fails). C32 is proved for compositions of distinct nuclei.
- C33: the decoder tests neither the leading digits 10 nor the sign: all ten-digit codes and all codes from -10^8 down are decoded. 2000009900 (Cherenkov photon) counts as 990 neutrons (C33_shape_fails).
- C64: the test in GetTargetRadiationFraction (MaterialModel.cxx:387) is inverted: present targets get zero and the result is divided by a zero sum, and an absent target makes map::at throw (C64_fraction_fails).
- C34: `ClipToOuterBounds` on a path that lies outside the outer bounds leaves first point, last point, direction and distance inconsistent: the last point lies against the direction (`C34_clip_fails`). Rays may be given a negative distance, which `GetDistance` returns (`C34_negative_ray_fails`). A path between equal points has no direction; extending it changes the distance but not the end (`C34_degenerate_fails`).
- C35: the two versions of `IsWithinBounds` disagree within a millimetre beyond either end (`C35_within_fails`). `GetDistanceFromStartInBounds` for a point is not limited by the path length (`C35_point_fails`).
- C65: `SetDetectorModel` keeps the intersections cached for the old detector (`C65_detector_fails`), and whether it keeps the points in detector or in geometry coordinates depends on whether a getter was called before (`C65_hidden_state_fails`). `SetPointsWithRay` keeps cached intersections of a line within a tolerance (`C65_ray_fails`).
- C47: `shift` ignores shifts of at most 1e-9, however large the coefficients are (`C47_shift_fails`). It also releases rows allocated by `new[]` with `delete`, and never the array of rows (Polynomial.cxx:77-78); memory management is not modelled.
- C48: at a root with zero derivative `NewtonRaphson` divides zero by zero and returns NaN (`C48_flat_root_fails`); with `MAX_STEPS <= 1` it returns the starting point wherever it is (`C48_no_rounds_fails`); on long brackets 101 rounds do not suffice (`C48_limit_fails`).
- C52: along a direction perpendicular to the axis, and between equal points, `Integral` for Cartesian axes is NaN (`C52_perpendicular_fails`), as it is for exponentials with `sigma = 0` (`C52_sigma_zero_fails`); `InverseIntegral` of the constant density 0 for 0 is NaN (`C52_constant_zero_fails`). The version of `InverseIntegral` with an added constant adds `constant * x` instead of `constant * (x - a)` and so is wrong unless the start has coordinate zero (`C52_added_constant_fails`). `CartesianAxisDensityDistribution.h`, `CartesianAxisPolynomialDensityDistribution.h` and `CartesianAxisExponentialDensityDistribution.h` share one include guard, so which of them takes effect depends on the order of inclusion; the model is of the specialization in the first.
- C50: for descending limits the result depends on the positions of the table's points: minus the integral if both limits lie in one interval, zero otherwise (`C50_reversed_fails`). The property is about a <= b.
- C51: the documentation of `rombergIntegrate` calls the tolerance absolute and a bound on the error; it is relative and compares two extrapolations only. A function that vanishes at the first 17 points gives 0 for every tolerance (`C51_tolerance_fails`). The constructor of `TrapezoidalIntegrator` swaps its shadowing parameters instead of the members; descending limits therefore keep the correct sign.
- C67: a tolerance of 0 is accepted but can never be met (`C67_zero_tolerance_fails`); as for C51, the tolerance does not bound the error (`C67_tolerance_fails`).
- C49: (1) `IndexFinderIrregular` subtracts one from an unsigned zero when the argument is not above the smallest abscissa; the index then becomes the last interval, so the smallest abscissa of an irregular table does not give its value (`C49_first_point_fails`). (2) On the logarithmic scale `AddTable` writes the zero flags through `begin()` of a vector that was only reserved, which is undefined; every table of two positive abscissas selects that scale (`C49_log_fails`). `C49_log_intended` is about the table the code means to build. (3) Tables within 1e-4 of equal spacing are treated as equally spaced and do not reproduce their values exactly (`C49_almost_regular_fails`). (4) Negative results are replaced by zero (`C49_negative_fails`).
- C54: `PowerLaw` draws its uniform number from `[min, max)` instead of `[0, 1)`, so results leave the range unless it lies in `[0, 1]` (`C54_power_fails`: between 1 and 2 with exponent 0 every result is at least 2).
- C55: `pdf` does not test the range: energies that are never sampled have a positive generation probability (`C55_outside_fails`).
- C59: process ids are counted up from 700 without looking at ids the caller supplies, so a supplied id of 700 or more can be given to a second process (`C59_supplied_fails`).
- C70: `Cone` builds its rotation from the direction as passed, not from the normalized one, so an axis of another length tilts the cone away from its axis: the sampler returns directions with reported density zero (`C70_cone_length_fails`).
- C70: `Cone` tests its axis against (0,0,-1) after `normalize()` has set the cached radius, which `operator==` compares, so the test is never true; a cone straight down gets a quaternion of length zero and samples NaNs (`C70_cone_down_fails`).
- C70: `FixedDirection` neither normalizes its direction nor accounts for its length, so the direction it samples has probability zero unless it has length one (`C70_fixed_length_fails`).
- C71: both volume distributions ignore the phi wedge of a cylinder and the phi and theta cuts of a sphere: positions outside the solid are drawn and have the density of the uncut shape (`C71_wedge_fails`).
- C72: on paths of at most 1e-5 m through material no vertex is ever drawn (`C72_short_fails`), because `GetInteractionDepthInCGS` counts such distances as 0; for vertices within 1e-5 m of the start the reported density leaves the attenuation out (bounded in `C72_vertex`). With targets and a decay length in several sectors the distances are wrong (C22), so C72 takes one or the other.
- C73: `DecayRangeFunction::Range` answers at most `MaxDistance`, but `DecayRangePositionDistribution` extends the path by the decay length times the multiplier, so vertices lie arbitrarily far beyond the maximal distance (`C73_max_distance_fails`).
* C75: a line that clips a rim of a cylinder, leaving less than 1e-9 after it entered, is reported as entering only and
  everything behind counts as inside (`C75_rim_fails`). The exactness theorems ask for crossings 2e-9 apart.
* C76: a line that touches the cone bounding a polar band without leaving the band is reported as outside from there on
  (`C76_tangent_fails`), since a double root is recorded with flag `false`. With the equator as the second edge of a band a line
  through the centre can be reported inside on the wrong side (`C76_equator_fails`), since the apex of the cone and the equator
  are recorded at one distance. `C76_sphere` excludes both.
* C77: the rotation treats directions within 1e-9 of the x axis as the axis itself, so a beam that close to it is given a final
  state whose momenta do not add up (`C77_near_axis_fails`); and interaction type 3 (hadrons only), for which the class
  registers signatures, always throws when sampled (`C77_hadrons_only_fails`).
* C80: the outgoing neutrino keeps the momentum of the primary, so every event has too much energy, by what the electron gained
  (`C80_conservation_fails`); for the same reason the record of every event is read back as y = 0, and all events get the same
  differential cross section (`C80_probability_fails`); and the loop proposes in log y but compares without the factor y, so it
  samples the reported density divided by y (`C80_stationary_partial`, `C80_density_fails`).
* C82: the dummy cross section offers final states for any target (`C82_dummy_fails`); the energy loss of charmed mesons offers
  them for any parents and lists the proton even if built without it (`C82_dmeson_fails`, `C82_dmeson_targets_fails`); MARLEY
  does not advertise the electron (`C82_marley_fails`, `C82_marley_empty_fails`); loading an archive into a constructed object
  doubles every list of a pair (`C82_reload_fails`).
* C83: a decay offers final states for primaries it was not built for (`C83_unlisted_fails`); `CharmMesonDecay(primary)` ignores
  its argument (`C83_constructor_fails`); the decay of heavy neutral leptons offers final states for every particle
  (`C83_any_primary_fails`).
* C84: the anti-lepton N4Bar has the listed decay NuLight NuLightBar NuLight, which violates lepton number (`C84_hnl_fails`).
* C85: the total width of a weak boson is computed at the nominal mass, so below a threshold it is not the sum of the partial
  widths of the record (`C85_offshell_fails`); dipole decays have a total width for particles without any listed decay
  (`C85_dipole_unlisted_fails`).
* C86: for a particle at rest with an open and a closed decay the length is not a number (`C86_rest_fails`).
* C88: for a Dirac lepton at rest the sampler prefers one side of the x axis, while every event is reported with density one half
  (`C88_rest_fails`).
* C89: in the mode with three neutrinos the products carry the momentum of the primary but less than its energy
  (`C89_invisible_fails`).
* C91: the sampler declares the same density for all proposals, but draws `s2` uniformly from a range that depends on `s1`
  (`C91_proposals_fails`); for leptons of different masses the two invariant masses are interchanged in the width: it is negative
  (`C91_negative_fails`) or not a number (`C91_nan_fails`) for part of the events.
* C92: directions compare with a tolerance, so equality is not transitive and equal distributions report different densities
  (`C92_direction_fails`); a normalization constant equals every spectrum with the same normalization, but not the other way round
  (`C92_normalization_fails`); fiducial volumes are ignored by two classes (`C92_fiducial_fails`); `<` is no strict order for seven
  classes: a mass is less than itself, two range distributions are less than each other, and radii, origins and directions are
  compared with themselves (`C92_order_fails`).
* C96: between the energies of the table sampled energies do not follow the reported density, since the inverse of the cumulative
  distribution is interpolated linearly (`C96_between_fails`); over the whole range of a table that is not equally spaced not even the
  probabilities of its bins are right (`C96_first_fails`, a consequence of `C49_first_point_fails`); for a range wider than the table the
  density is not normalized (`C96_bounds_fails`); `SetEnergyBounds` keeps the old physical normalization (`C96_norm_fails`); and
  `GetCDFEnergyNodes` is always empty (`C96_cdf_nodes_fails`).
* C98: the constructor accepts half widths that are zero, where a face has two corners that coincide and its plane is lost, so that a
  ray enters at minus infinity (`C98_thin_fails`), and accepts sides that are not flat, where points outside the solid with the given
  edges are reported inside (`C98_twisted_fails`).
* C99, C100: lines through an edge or a rim, outside the quantifiers, are reported to enter and leave twice (`C99_edge_fails`,
  `C100_rim_fails`).
* C101: a whole ellipsoid also reports the planes through its poles; a line near the poles of a sphere of radius 1000, outside
  the quantifier, is reported to enter twice and leave twice (`C101_pole_fails`).
* C102: a line that only touches the tip of a cone at a small angle to the plane of the tip, outside the quantifier, is reported to
  enter there and never to leave (`C102_tip_fails`).
* C103: the sampler does not follow the reported density. A pass that rejects tries again instead of returning the last point, so
  the law it leaves unchanged has an additional factor, the probability of acceptance (`C103_stationary_partial`, `C103_density_fails`); for a
  logarithmic table points are proposed uniformly in the logarithm and accepted by the density in the energy (`C103_log_fails`); a point
  of density zero can be returned (`C103_zero_fails`). The density lacks the factor 1/(2π) of the azimuth (`C103_solid_angle_fails`). A
  call of SetEnergyBounds that throws has changed the bounds (`C103_bounds_fails`), and the physical normalization does not follow the
  bounds (`C103_normalization_fails`).
* C104: a table with a logarithmic axis writes beyond the end of a vector, so it has no defined behaviour (`C104_log_fails`); a table that
  does not fill its grid is accepted and throws when evaluated (`C104_missing_fails`); a second table leaves the values of the first one
  where it has none (`C104_stale_fails`); next to a zero value the logarithmic formula does not give back the values of the table
  (`C104_zero_fails`). As in C49, arguments at the smallest coordinate of an uneven axis are excluded.
* C105: a target that is cut to a wedge is sampled as if it were not cut: lines that miss the target are drawn although their reported
  density is zero (`C105_wedge_fails`).
* C106: in a target with a hole the hole is counted as target, so that the reported density is not the one of the samples
  (`C106_hole_fails`); for a vertex whose line misses the target the density reads the last element of an empty vector instead of being
  zero (`C106_miss_fails`); longest length and fiducial volume are not compared (`C106_equal_fails`).
* C107: an event with several roots is reported with the number of events once for each root (`C107_roots_fails`; GenerateEvent makes
  events with one root, but trees can be assembled by hand). An injector of no events reports the probability of an injector of one
  event, while the weight is infinite (`C107_no_events_fails`). The property is about one root and at least one event.
* C108: as in C13 the lists read beyond the end of a vector when the initialization ended early (`C108_incomplete_fails`).
* C110: the constructor accepts end planes that meet inside the tube, and a cap is not checked against the other plane. A line
  through the part where they have crossed is reported to leave before it enters (`C110_planes_fails`). `C110_tilt` says which tilts
  exclude this.
* C111: three inputs that the constructor accepts are reported wrongly (outside the wording of C111). A polygon that is not convex is cut down to the common part of its half planes: a line through an arm of an L is reported to miss it (`C111_concave_fails`). Sections listed from top to bottom make the solid vanish for every line, while its bounding box does not (`C111_downward_fails`). A horizontal line in the plane of an inner section is reported to enter twice and leave twice, because the pair removal only removes an exit next to an entry (`C111_level_fails`).
* C112: a loop that assigns its own variable in its body can make the import run forever: there is no limit on the iterations of loops in `<define>` (`C112_own_variable_fails`; outside the wording of C112). The limit of 64 on the nesting counts the sections still to come: in a file of 64 or more `<define>` sections the loops of the first ones are skipped without a warning (`C112_sections_fails`).
* C114: all kinds of definitions share one map of aliases, so a single solid `Steel` redirects the reference `Steel0x1111111` of a volume to one of two materials `Steel` to a name that is no material (`C114_shared_fails`). The components of materials take the most recent element or material of the name whatever the suffix of the reference (`C114_component_fails`). Of two names `a` and `a__1`, one can be lost, depending on the order of a hash map (`C114_numbered_fails`). All three are outside the wording of C114.
* C115: when a name has several definitions with different pointer suffixes, a boolean written before its operands takes the first definition whatever suffix it refers to, and one written between its operands takes the latest (`C115_forward_fails`, `C115_mixed_fails`; outside the wording of C115).
* C116: volumes and materials are compared by the names they refer to, not by what the names stand for. When both files have a volume `V` of a solid `S` and only the solids differ, the `V` of the included file is dropped and replaced by that of the including file (`C116_text_fails`; C116 excludes this case). The volumes of the section that includes the file are put into the map after the included ones and overwrite those of the same name, so references inside the included file lead to volumes of the including file (`C116_shadow_fails`, a fault of `ParseStructure`, not of the merge).
* C117: `Matrix3DFromEulerAngles` exchanges the first and the second angle for orders about rotating axes (it should be the first and the third), so it is wrong for each of these twelve orders (`C117_matrix_fails`). C117 states the property of the matrix for the other twelve.
* C118: the orientation of the volume is conjugated with the rotation of the detector (`rotate(quaternion, true)`) instead of being multiplied by its inverse. For every detector that is really rotated some volume comes out wrong (`C118_volume_fails`), for instance a box along the axes of the geometry (`C118_box_fails`). It holds for shapes that are symmetric under the rotation (`C118_volume_partial`).
* C119: `deflect` scales only the component along the old direction with the length of the vector, so the length of a vector that is not a direction changes (`C119_deflect_length_fails`); C119 is stated for directions. `operator==` compares the stored spherical coordinates, too: a direction differs from its own `normalized()` (`C119_equal_fails`). The stored coordinates are not updated by `+=` and the other assignments (`C119_stale_fails`).
* C120: in nested loops the brackets of the inner body are evaluated while the outer loop is unrolled, when the inner variable has no value (the import fails) or the one it was declared with (all copies get the same name): `C120_nested_fails`. Values are inserted without parentheses, so `i^2` is -1 for `i = -1` (`C120_negative_fails`); values that are not integers are inserted with the six digits of `operator<<`. Loops nested in more than 64 elements stay without a message (`C120_depth_fails`). A loop without `for` makes the import hang (`C120_no_variable_fails`). `ExpandLoops` also walks over `<define>` sections, so loops there are subject to the limit of 10000 although they have been resolved before without one. C120 is worded such that it holds: it says what copies look like, not what the copied expressions mean.
* C121: the constructor accepts two planes at the lowest or highest level; the end cap then has the radii of the outermost plane although the section has those of the other, and a line past the solid is reported to leave it: `C121_ends_fails`. It accepts rings that do not overlap at a step; a line between them is reported to enter and to leave at the same distance: `C121_rings_fails`. It also accepts sections without volume. `C121_describes` and `C121_cut` exclude these (`Valid`).
* C122: without assertions a value outside the box of the tree is stored, and queries may miss it: `C122_outside_fails`. Removing a value that is not held is undefined: `C122_absent_fails`. Both are excluded by `Legal`.
* C123: a point of the table is on the edges of its triangles and strictly inside none, so that the interpolator throws at every point of the table and on every edge: `C123_nodes_fails`. The triangles are built from transformed coordinates but searched with plain ones, so that any transform of the coordinates other than the identity gives wrong values: `C123_transform_fails`. `DropSimplexLinearInterpolationOperator` passes the first value in place of the second: `C123_drop_fails`. With assertions compiled in, a point outside the box of the tree ends the process.
* C124: descending points are to be recognised by comparing the points with their reverse, but it is the sorted points that are compared, and the positions returned are those in ascending order: `C124_descending_fails`. `RegularIndexer1D` converts the number of steps to an `int` before limiting it to the table: `C124_far_fails`. In `SelectIndexer1D` a point at zero has weight zero, so that a table with its zero off the grid gets a regular indexer, which returns a cell that does not hold the argument: `C124_select_fails`.
* C125: `equal` of `SymLogTransform` and of `RangeTransform` does not compare members: `C125_equal_fails`. `operator<` compares the types of pointers to the base class, which are always the same, and calls `less` for objects of different classes, where a failed cast is dereferenced: `C125_order_fails`.
* C126: for an empty table `SelectInterpolationSpace1D` takes one from a size of zero and reads outside the vectors: `C126_empty_fails`. `first_y` starts as false, so that the threshold of the second transform is never above one.
* C127: `TotalCrossSection(record)` reads the target type from `primary_type` (`C127_target_fails`); `DifferentialCrossSection(record)` takes the target as outgoing particle, so that its Q2 is the same for every final state (`C127_Q2_fails`, `C127_Q2_witness_fails`); the initial point is only drawn again if the cosine compares above one, which a value that is not a number does not (`C127_nan_fails`); the proposals are uniform in the logarithm of Q2 without the factor, so the events follow the reported density divided by Q2 (`C127_stationary_partial`, `C127_density_fails`).
* C128: the closing parenthesis in `DipoleyMax` leaves the root outside of the factor 1/(2s), so that for 2s below one (in GeV^2) the upper limit is too small (`C128_limits_fails`); `DifferentialCrossSection(record)` reads the mass of the target from `primary_mass`, so that for a massless primary y is 0/0 (`C128_record_fails`); 1e-16 is added to the sampled y, which takes it out of the limits near the upper one (`C128_nan_fails`); the proposals are uniform in the logarithm of y without the factor, so the events follow the reported density divided by y (`C128_stationary_partial`, `C128_density_fails`).
* C129: the boosts and limits use the nominal mass of the meson while the laboratory frame is taken from the mass in the record: for a record with another mass the products do not have the energy of the meson (`C129_mass_fails`).
* C130: the key of the cache resolves half an MeV of the lepton mass (and combines hadron and lepton mass in one number), so two records whose masses differ by less share one normalisation (`C130_fails`). Records of sampled events are not affected (`C130_nominal`, `C130_sampled`).
* C131: the bounds of the tree are rounded to the nearest float, not outwards: a line that crosses a triangle within the rounding of its bounds is reported to miss it (`C131_float_fails`).
* C131: hits on a shared edge are merged to one, also where the line only touches the edge from outside: such a line is reported to cross a closed surface once (`C131_graze_fails`).
* C131: ValidateClosed does not look at the senses of the triangles: it accepts meshes that a line enters twice and never leaves (`C131_senses_fails`).
* C132: roots closer than a millionth are merged to one, also where they are the two ends of a chord: the line is reported to enter the torus and never to leave it (`C132_chord_fails`).
* C132: the bounding box of a torus cut at a negative azimuth leaves out points of the torus: the directions of the axes are only turned up to the sector, never down (`C132_box_fails`).
* C134: an edge claims its end if the next edge is horizontal, and the horizontal edge claims its start too: a line into a cylinder through its rim has two entering crossings and one that leaves (`C134_corner_fails`).
* C134: for an edge that ends on the axis a negative discriminant above a tolerance counts as a single root: a line that misses a cone by a hundredth of a millimetre beside its tip has one crossing, which leaves (`C134_tip_fails`).
* C135: `std::stoi` ignores what follows the first digits of a pair and accepts signs and white space: damaged text such as "1g" is read as a byte without an error (`C135_damaged_fails`).
* C136: a line with a slope below 1e-9 counts as horizontal: if it starts just below the solid and rises into it, it is skipped (`C136_shallow_fails`).
* C136: if the first two planes are at the same height and the second radius is larger, the part of the bottom beyond the first radius is not a face: the loop over steps leaves out the first plane (Polyhedra.cxx:596). A line that comes up through it is reported to leave the solid without having entered it (`C136_step_fails`).
