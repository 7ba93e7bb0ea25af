import Verif.Base
import Verif.Tree.Model
import Verif.Tree.Props
import Verif.Math.Vec3
import Verif.Detector.Model
import Verif.Detector.Spec
import Verif.Detector.Lemmas
import Verif.Detector.Props
import Verif.Detector.DepthModel
import Verif.Detector.DepthLemmas
import Verif.Detector.DepthProps
import Verif.Detector.PointProps
import Verif.Detector.InverseLemmas
import Verif.Detector.InverseProps
import Verif.Detector.InteractionProps
import Verif.Math.Quaternion
import Verif.Math.QuatProps
import Verif.Geometry.Placement
import Verif.Geometry.AABB
import Verif.Geometry.Hits
import Verif.Geometry.Shape
import Verif.Geometry.ShapeProps
import Verif.Geometry.Box
import Verif.Geometry.Walk
import Verif.Geometry.Sphere
import Verif.Geometry.Phi
import Verif.Geometry.BoolBox
import Verif.Geometry.Compare
import Verif.Detector.BVHModel
import Verif.Detector.BVHProps
import Verif.Detector.DirectProps
import Verif.Records.ParticleID
import Verif.Records.Compare
import Verif.Records.PrimaryModel
import Verif.Records.PrimaryLemmas
import Verif.Records.PrimaryProps
import Verif.Records.SecondaryModel
import Verif.Records.SecondaryProps
import Verif.Injection.ChannelModel
import Verif.Injection.ChannelProps
import Verif.Injection.ProcessModel
import Verif.Injection.ProcessProps
import Verif.Injection.EventModel
import Verif.Injection.EventProps
import Verif.Injection.WeightModel
import Verif.Injection.WeightProps
import Verif.Injection.DepthModel
import Verif.Injection.DepthProps
import Verif.Detector.RegistryModel
import Verif.Detector.RegistryProps
import Verif.Detector.LazyIndex
import Verif.Detector.FrameModel
import Verif.Detector.FrameProps
import Verif.Gdml.VolumeModel
import Verif.Gdml.VolumeProps
import Verif.Gdml.MaterialModel
import Verif.Gdml.MaterialProps
import Verif.Gdml.ExprModel
import Verif.Gdml.ExprProps
import Verif.Detector.MaterialTable
import Verif.Detector.MaterialCodeProps
import Verif.Detector.MaterialTableProps
import Verif.Detector.PathModel
import Verif.Detector.PathProps
import Verif.Detector.PathDepthProps
import Verif.Math.Poly
import Verif.Math.PolyProps
import Verif.Math.Newton
import Verif.Detector.DensityModel
import Verif.Detector.DensityProps
import Verif.Math.Integrate
import Verif.Math.TrapProps
import Verif.Math.TableIntProps
import Verif.Math.SimpsonProps
import Verif.Math.TableModel
import Verif.Math.TableProps
import Verif.Util.Strings
import Verif.Util.Random
import Verif.Distributions.PowerLaw
import Verif.Distributions.ExternalModel
import Verif.Distributions.ExternalProps
import Verif.Io.Model
import Verif.Io.SaveProps
import Verif.Io.PlaceProps
import Verif.Io.EventProps
import Verif.Io.LinkProps
import Verif.Io.RoundTrip
import Verif.Distributions.DirectionModel
import Verif.Distributions.DirectionProps
import Verif.Distributions.VolumeModel
import Verif.Distributions.VolumeProps
import Verif.Distributions.DepthPositionModel
import Verif.Distributions.DepthPositionProps
import Verif.Distributions.DecayRangeModel
import Verif.Distributions.DiskProps
import Verif.Geometry.Local
import Verif.Geometry.Wedge
import Verif.Geometry.Cylinder
import Verif.Geometry.Theta
import Verif.Geometry.SphereCut
import Verif.Interactions.FourVector
import Verif.Interactions.Dis
import Verif.Interactions.DisProps
import Verif.Interactions.DisCases
import Verif.Interactions.Metropolis
import Verif.Interactions.DisChain
import Verif.Interactions.Elastic
import Verif.Interactions.ElasticChain
import Verif.Interactions.Signatures
import Verif.Interactions.SignatureProps
import Verif.Interactions.Widths
import Verif.Interactions.WidthProps
import Verif.Interactions.TwoBody
import Verif.Interactions.TwoBodyProps
import Verif.Interactions.ThreeBody
import Verif.Interactions.ThreeBodyProps
import Verif.Interactions.ThreeBodyDensity
import Verif.Util.Sampling
import Verif.Distributions.Compare
import Verif.Distributions.Point
import Verif.Distributions.PiDAR
import Verif.Distributions.Moyal
import Verif.Distributions.Tabulated
import Verif.Geometry.Para
import Verif.Geometry.Trap
import Verif.Geometry.Convex
import Verif.Geometry.Trd
import Verif.Geometry.EllipticalTube
import Verif.Geometry.Ellipsoid
import Verif.Geometry.Cut
import Verif.Geometry.Cone
import Verif.Distributions.Table2D
import Verif.Math.Table2
import Verif.Distributions.Space
import Verif.Distributions.FixedTargetArea
import Verif.Distributions.FixedTargetPosition
import Verif.Injection.Reports
import Verif.Geometry.CutTube
import Verif.Geometry.Polygon
import Verif.Geometry.Merge
import Verif.Geometry.ExtrPoly
import Verif.Gdml.UnitModel
import Verif.Gdml.DefineModel
import Verif.Gdml.DefineProps
import Verif.Gdml.DefineCases
import Verif.Gdml.UnitProps
import Verif.Gdml.NameModel
import Verif.Gdml.NameProps
import Verif.Gdml.SolidModel
import Verif.Gdml.SolidProps
import Verif.Gdml.MergeModel
import Verif.Gdml.MergeProps
import Verif.Math.EulerModel
import Verif.Math.EulerProps
import Verif.Detector.FiducialProps
import Verif.Math.SphericalModel
import Verif.Math.SphericalProps
import Verif.Gdml.LoopModel
import Verif.Gdml.LoopWords
import Verif.Gdml.LoopProps
import Verif.Gdml.LoopCases
import Verif.Geometry.PolyconeWall
import Verif.Geometry.Polycone
import Verif.Geometry.PolyconeTower
import Verif.Geometry.PolyconeLocal
import Verif.Geometry.PolyconePlanes
import Verif.Geometry.PolyconeProps
import Verif.Geometry.PolyconeMain
import Verif.Math.QuadModel
import Verif.Math.QuadProps
import Verif.Math.QuadMain
import Verif.Math.Delaunay
import Verif.Math.IndexModel
import Verif.Math.IndexProps
import Verif.Math.IndexMain
import Verif.Math.IndexGrid
import Verif.Math.Transforms
import Verif.Math.Operators
import Verif.Interactions.DarkNews
import Verif.Interactions.DarkNewsChain
import Verif.Interactions.HnlDipole
import Verif.Interactions.HnlDipoleSample
import Verif.Interactions.Isotropic
import Verif.Interactions.CharmIntegral
import Verif.Interactions.Charm
import Verif.Interactions.CharmVa
import Verif.Interactions.CharmLaw
import Verif.Interactions.CharmDecay
import Verif.Interactions.CharmCache
import Verif.Geometry.Mesh
import Verif.Geometry.MeshTree
import Verif.Geometry.MeshWind
import Verif.Geometry.MeshClosed
import Verif.Geometry.MeshExamples
import Verif.Geometry.Quartic
import Verif.Geometry.Zeros
import Verif.Geometry.Torus
import Verif.Geometry.TorusExamples
import Verif.Geometry.TorusCut
import Verif.Interactions.BoxMuller
import Verif.Interactions.DMeson
import Verif.Geometry.GPoly
import Verif.Geometry.GPolyMain
import Verif.Geometry.GPolyExamples
import Verif.Geometry.GPolyWind
import Verif.Geometry.GPolyTurns
import Verif.Geometry.GPolyTurnsExamples
import Verif.Io.ByteString
import Verif.Geometry.Polyhedra
import Verif.Gdml.PlacementModel
import Verif.Gdml.ExprLeftover
import Verif.Geometry.PolyhedraSide
import Verif.Geometry.PolyhedraTip
import Verif.Geometry.PolyhedraHits
import Verif.Geometry.PolyhedraSteps
