{"id": "C01", "title": "Interaction tree stays a consistent forest under add_entry", "statement": "Starting from an empty tree, after any sequence of add_entry calls each with a fresh record and with either no parent or a parent that was returned by an earlier add_entry on the same tree: every entry's node id is its position, an entry's parent precedes it, and entry j lists entry k as daughter exactly when k's parent is j, each daughter exactly once and in insertion order.", "quantifier": "every finite sequence of add_entry calls and every choice of parents", "why_tests_cant": "The sequences and parent choices are unbounded; a test samples a few tree shapes.", "anchors": ["projects/dataclasses/private/InteractionTree.cxx: InteractionTree::add_entry", "projects/dataclasses/public/SIREN/dataclasses/InteractionTree.h: InteractionTreeDatum"]}
{"id": "C02", "title": "depth() terminates and equals the number of ancestors", "statement": "For every tree accepted by index validation, depth(datum) returns in at most size+1 parent steps; if the parent links reach a root it returns exactly the number of proper ancestors, and if they do not (a cycle) it throws instead of looping.", "quantifier": "every validated tree, including ones loaded from hostile files, and every entry", "why_tests_cant": "Cycles of every length and every tree size are covered; a test would only try some.", "anchors": ["projects/dataclasses/private/InteractionTree.cxx: InteractionTreeDatum::depth, InteractionTree::validate_indices"]}
{"id": "C03", "title": "Interaction trees survive save/load, and legacy files are rebuilt faithfully", "statement": "Saving a validated tree and loading it returns an equal tree with the same parents and daughters; loading a legacy (pointer based) archive yields indices under which each entry's parent and daughters are the positions of exactly the objects its legacy pointers referred to; files of any other version or with out-of-range links are rejected.", "quantifier": "every tree, every archive version number", "why_tests_cant": "Round trip must hold for every shape of tree and every link pattern.", "anchors": ["projects/dataclasses/private/InteractionTree.cxx: rebuild_indices_from_legacy, validate_indices", "projects/dataclasses/public/SIREN/dataclasses/InteractionTree.h: save, load"]}
{"id": "C04", "title": "Generated particle IDs are unique under every thread schedule", "statement": "Within one process image, no two calls of ParticleID::GenerateID, from any threads and under any interleaving of their atomic steps, return equal identifiers (as long as fewer than 2^32 identifiers are drawn), and every returned identifier is marked as set.", "quantifier": "every number of threads, every interleaving of atomic operations, every number of calls below 2^32", "why_tests_cant": "Interleavings are exponentially many and the scheduler decides which ones a test sees.", "anchors": ["projects/dataclasses/private/ParticleID.cxx: ParticleID::GenerateID"]}
{"id": "C05", "title": "Comparison operators of identifiers, signatures and records are strict weak orders compatible with equality", "statement": "For ParticleID, InteractionSignature and InteractionRecord, < is irreflexive and transitive, exactly one of a<b, a==b, b<a holds, so that ordered containers keyed by them neither lose nor merge distinct keys (NaN-free values).", "quantifier": "all pairs and triples of values", "why_tests_cant": "Order axioms range over all triples of values.", "anchors": ["projects/dataclasses/private/ParticleID.cxx: operator<, operator==", "projects/dataclasses/private/InteractionSignature.cxx", "projects/dataclasses/private/InteractionRecord.cxx: InteractionRecord::operator<, operator=="]}
{"id": "C06", "title": "A primary record reports mutually consistent kinematics whatever subset is supplied in whatever order", "statement": "Whatever subset of mass, energy, kinetic energy, direction and three-momentum is set on a primary record, every derived quantity returned by its getters satisfies E^2=p^2+m^2, K=E-m and p=|p| direction, and reading quantities in any order returns the same values; quantities that are not determined are reported by an exception and never invented.", "quantifier": "all subsets of supplied quantities, all orders of getter calls, all values", "why_tests_cant": "Subsets and orders of calls multiply; a test fixes a handful.", "anchors": ["projects/dataclasses/private/InteractionRecord.cxx: PrimaryDistributionRecord::UpdateMass .. UpdateMomentum"]}
{"id": "C07", "title": "A primary record reports mutually consistent positions", "statement": "Whatever of initial position, vertex, length, direction, point of closest approach and signed distances is supplied, derived positions satisfy vertex = initial position + length*direction and lie on the line through the point of closest approach at the reported signed distances.", "quantifier": "all subsets of supplied quantities, all values", "why_tests_cant": "The derivation rules form many paths; each must agree for all values.", "anchors": ["projects/dataclasses/private/InteractionRecord.cxx: UpdateLength, UpdateInitialPosition, UpdateInteractionVertex, UpdatePointOfClosestApproach, UpdateVertexDistance, UpdateInitialDistance"]}
{"id": "C08", "title": "Finalizing a cross-section record produces complete, aligned secondary arrays", "statement": "After CrossSectionDistributionRecord.Finalize(record), the record's arrays of secondary ids, masses, momenta, helicities and times all have one entry per secondary type of the signature the distribution record was built from, entry i coming from what was supplied for secondary i, whatever the arrays contained before; target id, mass and helicity, an overridden interaction time and the interaction parameters are those of the distribution record and nothing else changes. Finalize fails only when a secondary's mass or four-momentum is not determined.", "quantifier": "all signatures, any number of secondaries, all previous contents of the record", "why_tests_cant": "Array lengths are unbounded and stale contents arbitrary.", "anchors": ["projects/dataclasses/private/InteractionRecord.cxx: CrossSectionDistributionRecord::Finalize"]}
{"id": "C09", "title": "A secondary starts where and when its parent interacted and keeps its identity", "statement": "A secondary distribution record created for secondary i of a parent record carries that secondary's id, type, mass, momentum and helicity, starts at the parent's interaction vertex and at the parent's secondary time (or, without one, the parent's interaction time), and after a length was set and it was finalized its interaction vertex is its initial position plus length times direction and its time is the supplied one or the time of flight later. An index the parent does not have is reported by an exception.", "quantifier": "all parent records and secondary indices", "why_tests_cant": "All records, indices and lengths.", "anchors": ["projects/dataclasses/private/InteractionRecord.cxx: SecondaryDistributionRecord, CreateSecondaryRecord"]}
{"id": "C10", "title": "Interaction channel sampling is exact inverse-CDF selection", "statement": "SampleCrossSection selects channel k exactly when the scaled uniform draw lies in k's interval of the cumulative rate: the selected channel is in range, is of the kind (cross section or decay) the interval belongs to, and has strictly positive rate; the probability of any set of outcomes is the share of the channels with these outcomes in the total rate; with zero total rate it reports an injection failure. (A draw of exactly zero is excluded.)", "quantifier": "all targets, cross sections, decays, signatures, densities and non-negative rates, all draws in (0,1)", "why_tests_cant": "Channel counts and draws are unbounded, boundary draws have probability zero in a test.", "anchors": ["projects/injection/private/Injector.cxx: Injector::SampleCrossSection"]}
{"id": "C11", "title": "Event counters of the injector", "statement": "Over any history of GenerateEvent calls: the number of attempts never exceeds the requested number of events, accepted events never exceed attempts, the accepted trees carry consecutive event numbers 0,1,2,..., and a failed attempt returns an empty tree and changes only the attempt counter.", "quantifier": "all histories of successes and failures", "why_tests_cant": "Histories are unbounded.", "anchors": ["projects/injection/private/Injector.cxx: Injector::GenerateEvent, operator bool, ResetInjectedEvents"]}
{"id": "C12", "title": "The event loop produces a well-formed tree and processes each eligible secondary exactly once", "statement": "In the tree returned by a successful GenerateEvent, the root is the primary interaction, every other entry is the interaction of one secondary of its parent, no secondary has two entries, and a secondary has an entry exactly when a secondary process is registered for its type and the stopping condition did not fire for it; the production time recorded for a secondary that interacted is the initial time of its own record.", "quantifier": "all interaction outcomes, all stopping conditions, all secondary process registries, all tree sizes", "why_tests_cant": "Cascades branch without bound.", "anchors": ["projects/injection/private/Injector.cxx: Injector::GenerateEvent, SampleSecondaryProcess"]}
{"id": "C13", "title": "Event weight formula and cancellation of shared distributions", "statement": "If every injector has exactly the secondary processes of the weighter, EventWeight equals 1 / sum_i (N_i * prod generation_i / prod physical_i) over the injectors, with the complete products over all nodes and all distributions of the two processes: distributions that occur on both sides (with equal, non-zero density) may be left out without changing the weight. An event with a secondary interaction no process is registered for has weight 0, and so has an event an injector produces but physics excludes.", "quantifier": "all numbers of injectors and tree nodes, all densities", "why_tests_cant": "Unbounded numbers of injectors and nodes, all values.", "anchors": ["projects/injection/private/Weighter.cxx: Weighter::EventWeight", "projects/injection/public/SIREN/injection/Weighter.tcc: ProcessWeighter::Initialize, PhysicalProbability, GenerationProbability"]}
{"id": "C14", "title": "Interaction, survival and position probabilities are probabilities", "statement": "The interaction and survival probability of any depth in [0,inf] lie in [0,1] and sum to one, the interaction probability is 1-exp(-depth) up to 2e-12, grows with depth on either side of 1e-6 and decreases nowhere by more than 2e-12, and the vertex position density integrates to one over the injection bounds (up to 1e-9, for every positive total depth and every interaction density with countably many discontinuities).", "quantifier": "all non-negative depths", "why_tests_cant": "Real-valued arguments, limits at 0 and infinity.", "anchors": ["projects/injection/public/SIREN/injection/Weighter.tcc: one_minus_exp_of_negative, log_one_minus_exp_of_negative, InteractionProbability, SurvivalProbability, NormalizedPositionProbability"]}
{"id": "C15", "title": "Channel probabilities sum to one", "statement": "For a fixed primary at a fixed point, the probabilities the weighter assigns to the possible signatures, integrated over final states, sum to one when the total rate is positive, and the weighter's probability of a signature is the probability with which the injector chooses it.", "quantifier": "all sets of targets, channels, densities and rates", "why_tests_cant": "Unbounded sets of channels.", "anchors": ["projects/injection/private/WeightingUtils.cxx: CrossSectionProbability", "projects/injection/private/Injector.cxx: SampleCrossSection"]}
{"id": "C16", "title": "Secondary process registry", "statement": "After any history of AddSecondaryProcess and SetSecondaryProcesses calls, the registered processes are those since (and including) the last Set, in order; the process used for a particle type is the first of them that had that type when it was registered, and its vertex distribution is the one used; no other types have one.", "quantifier": "all lists of processes and all histories of Add/Set calls", "why_tests_cant": "Histories are unbounded.", "anchors": ["projects/injection/private/Injector.cxx: AddSecondaryProcess, SetSecondaryProcesses", "projects/injection/public/SIREN/injection/Injector.h: load"]}
{"id": "C17", "title": "A process never holds the same distribution twice through Add", "statement": "Through any history of AddPhysicalDistribution / AddPrimaryInjectionDistribution / AddSecondaryInjectionDistribution calls, a process never contains two equal distributions; adding an equal one throws and leaves the process unchanged; the physical distributions of an injection process are exactly its injection distributions. The setters reject a list that names the same object twice.", "quantifier": "all histories of Add calls", "why_tests_cant": "Histories are unbounded.", "anchors": ["projects/injection/private/Process.cxx"]}
{"id": "C18", "title": "Every point of a path is attributed to the highest-level sector containing it", "statement": "For any set of nested or overlapping sectors with distinct levels whose intersections with a line alternate entry/exit, and an all-enclosing sector, the walk over the sorted intersections visits consecutive segments that cover the path exactly once, and each segment is attributed to the highest-level sector containing its interior, in forward and in reverse direction.", "quantifier": "all numbers of sectors, all overlaps, all levels, all sorted intersection lists of such sectors", "why_tests_cant": "Overlap patterns are unbounded; coincident boundaries are measure-zero in random tests.", "anchors": ["projects/detector/private/DetectorModel.cxx: SectorLoop, SortIntersections"]}
{"id": "C19", "title": "Point density and containing sector agree with the geometry", "statement": "GetContainingSector and GetMassDensity at a point return the highest-level sector (and its density) whose boundary crossings enclose the point; the answer from the intersection list and the answer from direct containment tests agree.", "quantifier": "all sector sets and points", "why_tests_cant": "All sector sets, all points.", "anchors": ["projects/detector/private/DetectorModel.cxx: GetMassDensity, GetContainingSector, GetContainingSectorDirect"]}
{"id": "C20", "title": "Column depth is additive, symmetric and non-negative", "statement": "Along one line, column depth from a to c equals the depth from a to b plus from b to c for any b between; swapping the endpoints does not change it; it is non-negative for non-negative densities; and it equals the integral of the density of the containing sector.", "quantifier": "all sector layouts, all points on a line", "why_tests_cant": "Real-valued endpoints and unbounded layouts.", "anchors": ["projects/detector/private/DetectorModel.cxx: GetColumnDepthInCGS"]}
{"id": "C21", "title": "DistanceForColumnDepthFromPoint inverts GetColumnDepth", "statement": "For a positive requested depth not exceeding the available one and positive densities, the returned distance d satisfies: the column depth over distance d equals the request; the result is the unique such distance; a request beyond the available depth yields the distance to the end of the outermost sector (there is no error signal). Negative requests walk backwards and return negative distances.", "quantifier": "all sector layouts with positive densities, all depths", "why_tests_cant": "Real-valued requests and unbounded layouts.", "anchors": ["projects/detector/private/DetectorModel.cxx: DistanceForColumnDepthFromPoint, DistanceForColumnDepthToPoint"]}
{"id": "C22", "title": "Interaction depth and its inverse agree", "statement": "For targets with positive cross sections and an optional decay length, DistanceForInteractionDepthFromPoint returns a distance over which GetInteractionDepth accumulates the requested depth.", "quantifier": "all sector layouts, cross sections and decay lengths", "why_tests_cant": "Real-valued requests and unbounded layouts.", "anchors": ["projects/detector/private/DetectorModel.cxx: DistanceForInteractionDepthFromPoint, GetInteractionDepthInCGS"]}
{"id": "C23", "title": "The acceleration structure never changes ray results", "statement": "For every set of sectors, the intersections found through the bounding-volume hierarchy are exactly (as a sorted list) those found by testing every sector, including when the traversal stack spills to the heap.", "quantifier": "all numbers of sectors, all hierarchies the builder can produce, all rays including axis-parallel ones", "why_tests_cant": "Unbounded numbers of sectors and rays.", "anchors": ["projects/detector/private/DetectorModel.cxx: GetIntersections, RebuildBVH, BuildBVHRecursive"]}
{"id": "C24", "title": "The acceleration structure never changes containment results", "statement": "For every set of sectors with distinct levels (bounded ones above INT_MIN, unbounded ones containing every point), and every point at which no sector's own test accepts the point from outside its bounding box (that is, except within 1e-9 of a surface), the containing sector found through the bounding-volume hierarchy is the one found by testing every sector and taking the highest level.", "quantifier": "all numbers of sectors, hierarchies and points", "why_tests_cant": "Unbounded numbers of sectors.", "anchors": ["projects/detector/private/DetectorModel.cxx: FindContainingSectorBVH, GetContainingSectorDirect"]}
{"id": "C25", "title": "The hierarchy builder indexes every finite sector exactly once", "statement": "Building the hierarchy terminates for every set of sectors, places every sector with a finite valid box in exactly one leaf and every other one in the always-tested list, and every node's box encloses the boxes of all sectors below it.", "quantifier": "all sector sets", "why_tests_cant": "Unbounded numbers of sectors, degenerate centroids.", "anchors": ["projects/detector/private/DetectorModel.cxx: RebuildBVH, BuildBVHRecursive"]}
{"id": "C26", "title": "Sorting intersections", "statement": "SortIntersections returns a permutation of its input ordered by distance; among intersections at the same distance exits come before entries, exits in increasing and entries in decreasing order of level; the comparison is a strict weak order so the sort is well defined.", "quantifier": "all intersection lists", "why_tests_cant": "Comparator axioms range over all triples.", "anchors": ["projects/detector/private/DetectorModel.cxx: SortIntersections"]}
{"id": "C27", "title": "Sector registry invariants", "statement": "Through any history of AddSector, ClearSectors, successful SetSectors and spatial queries, no two sectors have the same level or the same name, looking a sector up by level or name returns the sector last added with it, and the spatial queries (GetContainingSector, GetIntersections) answer for the sectors present now, not for the ones present when the index was last built; a rejected AddSector leaves the model unchanged.", "quantifier": "all histories of registry calls and queries", "why_tests_cant": "Histories are unbounded.", "anchors": ["projects/detector/private/DetectorModel.cxx: AddSector, SetSectors, ClearSectors, GetSector"]}
{"id": "C28", "title": "Detector and geometry coordinates are mutually inverse and interchangeable", "statement": "ToGeo and ToDet are mutually inverse isometries (rotation quaternions of any length but zero; up to 1e-11 for lengths almost one), directions transform without translation, and every density, depth, distance-from-point and containment query taking detector coordinates answers as the same query would on the same detector described entirely in detector coordinates. (The two distance-to-point overloads taking detector coordinates do not: they search in the wrong direction.)", "quantifier": "all detector origins and rotations, all points and directions", "why_tests_cant": "Real-valued arguments; one overload per query.", "anchors": ["projects/detector/private/DetectorModel.cxx: ToDet, ToGeo, detector-coordinate overloads"]}
{"id": "C29", "title": "GDML volume hierarchies are imported once, placed correctly, and never loop", "statement": "Importing a volume tree terminates for every file; a reference cycle or a missing volume, solid or material anywhere below the world is reported as an exception; otherwise each way of reaching a volume that is not an assembly gives exactly one sector, in file order, with a unique name, a level higher than its parent's, its volume's shape, density and material, and the composition of the placements on its path to the world as its placement.", "quantifier": "all volume graphs, all placements", "why_tests_cant": "Graphs are unbounded.", "anchors": ["projects/detector/private/DetectorModel.cxx: LoadGDML"]}
{"id": "C30", "title": "GDML material composition conserves mass fractions", "statement": "Resolving a material expands nested materials to nuclei such that the fraction recorded for each nucleus equals the product-sum of the declared fractions over all the ways in which the material contains it, and the total is one when all declared fractions sum to one and every elementary component is a nucleus (atomic number and rounded mass positive). Missing components and circular references are reported instead of recursing forever. Atom counts of different components with known masses become the mass fractions n_i A_i / sum n_j A_j, which sum to one.", "quantifier": "all material graphs and fractions", "why_tests_cant": "Graphs are unbounded.", "anchors": ["projects/detector/private/DetectorModel.cxx: LoadGDML (resolve_component)"]}
{"id": "C31", "title": "GDML expressions evaluate according to standard precedence", "statement": "Every expression derivable from the arithmetic grammar (left-associative + - and * /, right-associative ^ binding tighter than unary minus, parentheses, one and two argument functions, numbers and named constants, any white space) evaluates to its mathematical value; division by zero and unknown functions inside it are reported as errors.", "quantifier": "all expressions of any length and nesting", "why_tests_cant": "Expressions are unbounded.", "anchors": ["projects/detector/private/gdml/GDMLExpression.cxx: EvalExpression"]}
{"id": "C32", "title": "Material composition queries", "statement": "After any history of AddMaterial calls, materials are numbered by first addition and name and number determine each other; a material whose latest composition consists of distinct nuclei has as targets those nuclei and the neutrons, nucleons, protons and electrons they contain, with the mass fractions as supplied (they are not normalized) and the derived fractions computed from the nuclei, and fraction zero for every other target; adding another material changes nothing. A material added before with targets it no longer has keeps the fractions of those targets.", "quantifier": "all histories of AddMaterial, all compositions of nuclei, all targets", "why_tests_cant": "Histories and compositions are unbounded.", "anchors": ["projects/detector/private/MaterialModel.cxx: AddMaterial, GetTargetMassFraction, GetTargetParticleFraction"]}
{"id": "C33", "title": "Nuclear PDG codes decode to their nucleon content", "statement": "For every L, Z, A, I in range, decoding the code 10LZZZAAAI yields Z protons, A-Z-L neutrons (A nucleons, L strange quarks); every code from -10^8+1 up to 10^9-1 is rejected. Ten-digit codes of any leading digits and codes from -10^8 down are accepted although they are not nuclear codes.", "quantifier": "all L<=9, Z<=999, A<=999, I<=9 and all integers", "why_tests_cant": "Ten million codes and all malformed ones.", "anchors": ["projects/detector/private/MaterialModel.cxx: GetNucleonContent"]}
{"id": "C34", "title": "Path operations keep the path a consistent segment", "statement": "A path set on a ray of nonnegative finite distance with nonzero direction, or between two different points, stays a straight segment through any history of getter calls, depth queries, flips, and extend and shrink operations by or to a distance: last point = first point + distance * direction, the direction has length one, distance >= 0, in both coordinate systems. Extending or shrinking one end never moves the other; extending and then shrinking by the same amount restores the path. The versions given by a depth, if they succeed, also move one end along the line. Clipping to the outer bounds gives the part of the path between them if there is one.", "quantifier": "all histories of operations, all distances including negative ones, all detectors and coordinate systems, paths set in geometry or detector coordinates, infinite rays for clipping", "why_tests_cant": "Histories are unbounded.", "anchors": ["projects/detector/private/Path.cxx: ExtendFromEndByDistance, ShrinkFromEndByDistance, Flip, UpdatePoints, ClipToOuterBounds"]}
{"id": "C35", "title": "Path distances in bounds are clamped and the two bound tests agree", "statement": "The distances along a path returned by the ...InBounds queries for a column depth lie between 0 and the path length, and the column depth up to there is the request limited to what the path holds; for interaction depths they do not exceed the path length. IsWithinBounds in geometry coordinates tells exactly whether a point projects onto the path; in detector coordinates it allows one more millimetre at each end. The distance of a point from the start is its projection, and 0 before the start, in both coordinate systems.", "quantifier": "all path histories, detectors with positive densities, requests of either sign, points", "why_tests_cant": "Real-valued arguments.", "anchors": ["projects/detector/private/Path.cxx: GetDistanceFromStartInBounds, IsWithinBounds"]}
{"id": "C36", "title": "Boolean shapes are set operations on their operands", "statement": "Along every ray, the intersections reported for a union, intersection or difference describe exactly the union, intersection or difference of the operands' intervals: they alternate entering/leaving in order of distance, and a parameter not within tolerance of an operand's boundary is inside the result iff the set operation says so.", "quantifier": "all operands with any number of crossings, all rays, arbitrary nesting", "why_tests_cant": "Unbounded numbers of crossings and coincident surfaces.", "anchors": ["projects/geometry/private/BooleanGeometry.cxx: ComputeIntersections, IsInsideResult"]}
{"id": "C37", "title": "Ray/box test has no false negatives or positives", "statement": "For every non-empty box, RayAABBIntersect(box, origin, 1/direction) is true exactly when the infinite line through origin along direction meets the box, including directions with zero components and origins on the box faces.", "quantifier": "all boxes, origins and directions", "why_tests_cant": "Zero components and face-touching cases are measure zero.", "anchors": ["projects/geometry/public/SIREN/geometry/AABB.h: RayAABBIntersect"]}
{"id": "C38", "title": "World bounding boxes contain the placed shape", "statement": "For every placement, the world bounding box of a shape contains the global image of every point of its local bounding box; an infinite or invalid local box stays infinite or invalid.", "quantifier": "all rotations and translations, all boxes", "why_tests_cant": "Real-valued rotations.", "anchors": ["projects/geometry/private/Geometry.cxx: RecomputeWorldAABB"]}
{"id": "C39", "title": "Box intersections are exact", "statement": "The intersections of a ray with a box are none if the line misses the closed box, and otherwise an entry and an exit whose distances delimit exactly the parameters at which the ray is inside.", "quantifier": "all boxes, rays and directions including axis-parallel ones", "why_tests_cant": "Real-valued arguments and degenerate directions.", "anchors": ["projects/geometry/private/Box.cxx: ComputeIntersections"]}
{"id": "C40", "title": "Sphere and spherical shell intersections are exact", "statement": "The intersections of a unit-direction ray with a sphere or spherical shell delimit, sorted and alternating, exactly the parameters at which the ray is inside.", "quantifier": "all radii, rays", "why_tests_cant": "Real-valued arguments, tangent rays.", "anchors": ["projects/geometry/private/Sphere.cxx: ComputeIntersections"]}
{"id": "C41", "title": "Placement transforms are mutually inverse rigid motions", "statement": "GlobalToLocal and LocalToGlobal of positions and directions are mutually inverse, preserve distances, and the identity shortcut does not change results.", "quantifier": "all placements (any non-zero quaternion), all points", "why_tests_cant": "Real-valued arguments.", "anchors": ["projects/geometry/private/Placement.cxx", "projects/math/private/Quaternion.cxx: rotate"]}
{"id": "C42", "title": "Containment follows from intersections", "statement": "IsInside(point, direction) is true exactly when the next boundary crossing strictly ahead of the point leaves the shape; for a shape whose crossings describe its inside set, the answer does not depend on the direction chosen (away from the tolerance zone).", "quantifier": "all shapes with alternating crossings, all points and directions", "why_tests_cant": "All directions and shapes.", "anchors": ["projects/geometry/private/Geometry.cxx: IsInside, Intersections"]}
{"id": "C43", "title": "Quaternion algebra", "statement": "Rotating by a product equals rotating twice, the inverse rotation undoes a rotation, the matrix of a quaternion rotates like the quaternion, and rotation_between(a,b) is a rotation taking a's direction to b's for all non-zero a, b.", "quantifier": "all quaternions and vectors", "why_tests_cant": "Real-valued arguments; antiparallel vectors.", "anchors": ["projects/math/private/Quaternion.cxx: operator*, rotate, GetMatrix, SetMatrix, rotation_between"]}
{"id": "C44", "title": "Bounding boxes of boolean shapes are conservative", "statement": "The bounding box of a union, intersection or difference contains every point of the result whenever the operands' boxes contain the operands.", "quantifier": "all operand boxes and operations, nested arbitrarily", "why_tests_cant": "All nestings.", "anchors": ["projects/geometry/private/BooleanGeometry.cxx: GetBoundingBox", "projects/geometry/public/SIREN/geometry/AABB.h"]}
{"id": "C45", "title": "Shape comparison is an equivalence and a compatible strict weak order", "statement": "Equality of shapes is reflexive, symmetric and transitive, and < is a strict weak order for which incomparable shapes are equal, for nested boolean shapes too.", "quantifier": "all shapes of any nesting", "why_tests_cant": "Order axioms range over all triples.", "anchors": ["projects/geometry/private/Geometry.cxx: operator==, operator<", "projects/geometry/private/BooleanGeometry.cxx: equal, less"]}
{"id": "C46", "title": "Azimuthal wedge test", "statement": "An angle is reported inside a phi wedge exactly when it differs from the start angle by an amount within [0, delta] modulo a full turn, up to the tolerance of 1e-9 at the two edges.", "quantifier": "all angles, starts and widths", "why_tests_cant": "Real-valued angles, wrap-around.", "anchors": ["projects/geometry/private/PhiUtils.h: NormalizePhi, PhiInRange"]}
{"id": "C47", "title": "Polynomial operations", "statement": "Evaluation is the power sum; shift(x) yields the polynomial y -> p(x+y) for |x| above 1e-9, reading only memory it has written, and does nothing for smaller x; scale(x) yields y -> p(xy); derivative and antiderivative are the algebraic (and, over the reals, the analytic) ones; the derivative of the antiderivative is the polynomial.", "quantifier": "all polynomials of any degree, all arguments", "why_tests_cant": "Degrees are unbounded.", "anchors": ["projects/math/private/Polynomial.cxx"]}
{"id": "C48", "title": "Root finding stays inside its bracket", "statement": "NewtonRaphson reports an error exactly if the function has the same strict sign at both ends of the bracket. Otherwise it returns a point of the bracket, or NaN if it meets a point where function and derivative vanish. If the step limit exceeds a bound quadratic in the number of halvings from the bracket to the accuracy, the search ends by itself, and for an increasing function with slope at least m and derivative at most M the result is within (1+M/m) times the accuracy of the root.", "quantifier": "all functions, brackets, starting points and iteration limits", "why_tests_cant": "All functions.", "anchors": ["projects/math/private/Polynomial.cxx: NewtonRaphson"]}
{"id": "C49", "title": "Table interpolation reproduces the table", "statement": "A one-dimensional interpolator that interpolates linearly returns, between neighbouring table abscissas, the straight line through the two table points (zero where that is negative); hence the tabulated value at every abscissa and a value between the neighbouring ones in between. This holds on the whole range of an equally spaced table and on the range above the smallest abscissa of a table that is not nearly equally spaced. On the logarithmic scale the intended result is the power law through the two points.", "quantifier": "all tables of at least two distinct abscissas in any order, all arguments in range", "why_tests_cant": "Unbounded tables, boundary arguments.", "anchors": ["projects/utilities/public/SIREN/utilities/Interpolator.h: IndexFinderIrregular, IndexFinderRegular, Interpolator1D"]}
{"id": "C50", "title": "Trapezoid integration of tabulated data over sub-ranges", "statement": "trapezoidIntegrate(x,y,a,b) with a <= b is the integral from a to b of the function the table stands for (straight lines between neighbouring points, zero outside the table); so it is additive in the range and agrees with the full-range version when the range covers the table. Vectors of different lengths are rejected.", "quantifier": "all sorted tables of any length (also with repeated abscissas), all ranges a <= b", "why_tests_cant": "Unbounded tables.", "anchors": ["projects/utilities/public/SIREN/utilities/Integration.h: trapezoidIntegrate"]}
{"id": "C51", "title": "Incremental refinement of the trapezoid rule", "statement": "After any sequence of requests, the integrator's value is the composite trapezoid rule on 2^n equal intervals, n being the highest level requested: affine functions are exact at every level, reversing the limits flips the sign, and the error for twice differentiable functions is at most |b-a|^3 max|f''| / (12*4^n). rombergIntegrate returns the extrapolation to step zero of the last five levels at the first level, at most 2^19 intervals, where the last two extrapolations agree relative to tol, and throws if there is none; polynomials up to degree 7 are integrated exactly, and every result for one up to degree 9 is exact.", "quantifier": "all functions, limits, tolerances and sequences of requests", "why_tests_cant": "All functions and levels.", "anchors": ["projects/utilities/public/SIREN/utilities/Integration.h: TrapezoidalIntegrator, rombergIntegrate"]}
{"id": "C52", "title": "Density profiles: integral and inverse integral agree", "statement": "For constant densities InverseIntegral returns the distance within the maximum over which Integral yields the request, and -1 if there is none; for densities along a Cartesian axis it returns a distance between 0 and the maximum if the integral is reached and -1 if not, and on short stretches the distance is right within (1+M/m) micrometres for densities between m and M. Integral is the integral of the density along the line, so consecutive stretches add up, except perpendicular to the axis. Derivative is the derivative along the direction.", "quantifier": "all profiles, points, directions and distances", "why_tests_cant": "Real-valued arguments.", "anchors": ["projects/detector/public/SIREN/detector/ConstantDensityDistribution.h", "projects/detector/public/SIREN/detector/CartesianAxisDensityDistribution.h", "projects/detector/private/PolynomialDistribution1D.cxx", "projects/detector/private/ExponentialDistribution1D.cxx", "projects/detector/private/CartesianAxis1D.cxx", "projects/detector/private/RadialAxis1D.cxx"]}
{"id": "C53", "title": "Line prefixing", "statement": "add_prefix removes the line breaks at the end of the text; if anything is left it puts the prefix in front of the text and behind every remaining line break and changes nothing else. Prefixing twice is prefixing with both prefixes, and indenting by n+1 steps is prefixing the text indented by n steps.", "quantifier": "all strings and prefixes", "why_tests_cant": "All strings.", "anchors": ["projects/utilities/private/StringManipulation.cxx: add_prefix, indent"]}
{"id": "C54", "title": "Random number helpers respect their range", "statement": "Uniform(a,b) returns a value between a and b whichever order a and b are given in, below the larger one, uniformly: every value is reached and the share of generator outputs giving at most y grows linearly in y. PowerLaw(a,b,n) stays between a and b for ranges within [0,1] and n above -1.", "quantifier": "all ranges, exponents and generator outputs in [0,1)", "why_tests_cant": "Real-valued ranges and all generator outputs.", "anchors": ["projects/utilities/private/Random.cxx: Uniform, PowerLaw"]}
{"id": "C55", "title": "Power-law energy sampling matches its density", "statement": "For 0<Emin<Emax sampled energies lie in [Emin,Emax), the density is positive and integrates to one over that range, the integral of the density up to the sampled energy is the number drawn, and the energy is at most E for exactly the draws up to the integral of the density up to E. With Emin=Emax that energy is returned.", "quantifier": "all indices including 1, ranges 0<Emin<Emax, draws", "why_tests_cant": "Real-valued parameters; the index 1 special case.", "anchors": ["projects/distributions/private/primary/energy/PowerLaw.cxx: SampleEnergy, pdf"]}
{"id": "C56", "title": "External event files are loaded completely or rejected", "statement": "Loading a CSV of external events succeeds exactly if the header has each of the coordinate triples completely or not at all, every line that is neither blank nor a comment has as many numbers as the header has keys, and some row passes the energy threshold; it then keeps exactly the rows at or above the threshold in order. Everything else is rejected with an exception. Sampling picks one of the loaded rows, each for an equal share of generator outputs, and stores each value under its header key; such an event has generation probability one.", "quantifier": "all texts, number readers, thresholds and generator outputs", "why_tests_cant": "All files.", "anchors": ["projects/distributions/private/primary/PrimaryExternalDistribution.cxx: LoadInputFile, Sample"]}
{"id": "C57", "title": "The Metropolis-Hastings sampler returns only proposed points and never prefers impossible ones", "statement": "The returned point is one of the proposed points; if any of them has positive proposal density and positive likelihood, so has the returned one. Steps between two points satisfy detailed balance with respect to the likelihood.", "quantifier": "all proposal sequences, likelihoods, uniform numbers and burn-in lengths", "why_tests_cant": "Random sequences are unbounded.", "anchors": ["projects/utilities/public/SIREN/utilities/Sampling.h: MetropolisHasting_Sample"]}
{"id": "C58", "title": "HepMC3 event numbering", "statement": "When saving a list of trees, every non-empty tree is written once in order; a tree with an explicit event number keeps it, and the numbers given to the others are pairwise distinct and different from every explicit one.", "quantifier": "all lists of trees and header numbers", "why_tests_cant": "Lists are unbounded.", "anchors": ["projects/io/private/HepMC3Writer.cxx: SaveInteractionTreesAsHepMC3"]}
{"id": "C59", "title": "HepMC3 process identifiers", "statement": "When the caller supplies no process ids, distinct root signatures get distinct process ids (from 700 on), equal signatures equal ids, every written event's id is declared in the registry under the signature's name, every declared id is used, and the ids do not depend on the order or multiplicity of the trees.", "quantifier": "all lists of trees and signatures, weighted files that declare an accepted-event count", "why_tests_cant": "Lists and orders are unbounded.", "anchors": ["projects/io/private/HepMC3Writer.cxx: ProcessKey, SaveInteractionTreesAsHepMC3"]}
{"id": "C60", "title": "HepMC3 trees are rebuilt with all vertices and their topology", "statement": "Reading an event makes exactly one node for every vertex, with the record of that vertex. A vertex whose chain of parents ends at a root comes after its parent and is its child, in whatever order the vertices are listed. A vertex without a parent in the event, and one on or below a cycle of a malformed event, becomes a root.", "quantifier": "all vertex graphs and orders of vertices", "why_tests_cant": "Graphs are unbounded.", "anchors": ["projects/io/private/HepMC3Reader.cxx: GenEventToTree"]}
{"id": "C61", "title": "A written HepMC3 event has exactly one primary vertex and beam particle", "statement": "Every tree containing a root is written with exactly one status-1 vertex, that of its first root, exactly one status-4 particle, which is that root's primary and enters that vertex, and a status-20 particle, which is its target and enters the same vertex, exactly if that root has a target. A secondary that interacts further is written as one particle that leaves its parent's vertex, enters the vertex of its own interaction and no other.", "quantifier": "all trees; for the second part trees in which set identifiers name at most one secondary and every further interaction names its secondary", "why_tests_cant": "Trees are unbounded.", "anchors": ["projects/io/private/HepMC3Writer.cxx: TreeToGenEvent"]}
{"id": "C62", "title": "The interaction time of a primary is its start time plus its flight time, and finalizing writes the particle's own state", "statement": "Whatever was supplied to a primary record, in whatever order and with whatever reads in between, as long as it agrees with one moving particle on one straight path: the interaction time it reports is the supplied one, or else the start time plus path length divided by the particle's speed, and Finalize writes that particle's vertex, initial position, mass, four-momentum, helicity and times; otherwise an exception is thrown.", "quantifier": "all histories of setter and getter calls, all particles and paths", "why_tests_cant": "Histories are unbounded and values continuous.", "anchors": ["projects/dataclasses/private/InteractionRecord.cxx: PrimaryDistributionRecord::UpdateInteractionTime, Finalize, FlightTime"]}
{"id": "C63", "title": "Concurrent queries of one detector", "statement": "When any number of threads query one unchanging detector model at the same time, every query returns the answer it would return alone, no thread reads the spatial index while another builds it, and no schedule leaves a query waiting forever for a lock nobody releases.", "quantifier": "all numbers of threads and all interleavings of their steps", "why_tests_cant": "Races depend on schedules a test cannot enumerate.", "anchors": ["projects/detector/private/DetectorModel.cxx: GetContainingSectorDirect, GetIntersections, RebuildBVH"]}
{"id": "C64", "title": "Radiation lengths of materials", "statement": "The radiation length of a material is the reciprocal of the sum over its latest composition of mass fraction over radiation length of the nucleus, whatever was added before or after; the per-target radiation fraction query, however, never returns a number: it throws if a target is absent and returns NaN for every target otherwise.", "quantifier": "all histories of AddMaterial, all compositions of nuclei with protons, all lists of targets", "why_tests_cant": "Histories and compositions are unbounded.", "anchors": ["projects/detector/private/MaterialModel.cxx: AddMaterial, ComputeMaterialRadiationLength, GetMaterialRadiationLength, GetTargetRadiationFraction"]}
{"id": "C65", "title": "Cached intersections of a path belong to its line and detector", "statement": "Through any history of operations on a path that was new, without cached intersections, or set between two points, the intersections it has cached are those its detector reports for the line on which the path lies.", "quantifier": "all histories of getter calls, queries, flips, extend and shrink operations; all detectors", "why_tests_cant": "Staleness of a cache depends on the history.", "anchors": ["projects/detector/private/Path.cxx: EnsureIntersections, ComputeIntersections, SetPointsWithRay, SetDetectorModel, Flip"]}
{"id": "C66", "title": "Cutting or extending a path to a column depth gives that column depth", "statement": "Shrinking or extending a path by or to a column depth changes its column depth by or to exactly that, keeping the other end and the direction, whenever the depth is available; and asking for the distance of a depth that was asked for a distance gives that distance back, limited to the path.", "quantifier": "all path histories, detectors with positive densities, depths, both ends", "why_tests_cant": "Quantifies over real depths, density layouts and histories.", "anchors": ["projects/detector/private/Path.cxx: ShrinkFromEndToColumnDepth, ShrinkFromStartToColumnDepth, ExtendFromEndByColumnDepth, ExtendFromStartToColumnDepth, GetDistanceFromStartInBounds, GetColumnDepthFromStartInBounds"]}
{"id": "C67", "title": "Two-dimensional Simpson integration", "statement": "simpsonIntegrate2D returns the composite Simpson rule, in both variables, on 2^i times the requested intervals, for the first i >= 1 that meets the stopping criterion, and throws if none of the allowed rounds does or the tolerance is negative. Polynomials of degree at most three in each variable are integrated exactly, also when an odd number of intervals is requested.", "quantifier": "all functions, limits, tolerances, positive numbers of intervals and rounds", "why_tests_cant": "Functions and interval counts are unbounded.", "anchors": ["projects/utilities/public/SIREN/utilities/Integration.h: simpsonIntegrate2D"]}
{"id": "C68", "title": "HepMC3 weight totals", "statement": "The weight total stored with a file is the sum of the first weights of the written events, the totals stored per primary type are the sums over the events with that primary and add up to the total, and the counts per primary type are the numbers of such events; an accepted count left unset becomes the number of written events.", "quantifier": "all lists of trees and numbers of weights", "why_tests_cant": "Lists are unbounded.", "anchors": ["projects/io/private/HepMC3Writer.cxx: SaveInteractionTreesAsHepMC3, TreeToGenEvent"]}
{"id": "C69", "title": "HepMC3 events round-trip", "statement": "A tree written to a HepMC3 event and read back with the same units has the same event number, weights, data in the same order with the same parents, and the same value of every record field, strictly or not; of the target of a decay or an unknown target only its type is kept.", "quantifier": "all trees of complete records whose further interactions continue the secondary they name; numbers below 2^64; exact arithmetic", "why_tests_cant": "Trees and values are unbounded.", "anchors": ["projects/io/private/HepMC3Writer.cxx: TreeToGenEvent", "projects/io/private/HepMC3Reader.cxx: GenEventToTree, VertexToRecord"]}
{"id": "C70", "title": "Sampled directions follow the reported direction density", "statement": "Cone: every sampled direction is a unit vector inside the cone, averages of any continuous function over the generator outputs equal its integral over the sphere against the reported density, that density is one over the solid angle of the cone for momenta strictly inside and zero for all others, whatever the size of the momentum, and integrates to one. Isotropic: unit vectors, uniform over the sphere, with density 1/(4 pi). Fixed direction: the direction itself, with probability one for momenta along it and zero for momenta whose cosine is not within 1e-9 of one.", "quantifier": "all axes of length one except straight down, all opening angles in (0, pi], all generator outputs in [0, 1), all non-zero momenta, all continuous test functions; exact arithmetic", "why_tests_cant": "Axes, angles and generator outputs are continuous, and a wrong density biases every weight without failing.", "anchors": ["projects/distributions/private/primary/direction/Cone.cxx: Cone, SampleDirection, GenerationProbability", "projects/distributions/private/primary/direction/IsotropicDirection.cxx", "projects/distributions/private/primary/direction/FixedDirection.cxx", "projects/math/public/SIREN/math/EulerQuaternionConversions.h: QFromZXZr"]}
{"id": "C71", "title": "Volume positions are uniform and have the reported density", "statement": "Positions drawn in a cylinder or spherical shell lie in it, averages of any continuous function of them over the generator outputs equal its integral over the volume against the reported generation probability, and that is one over the volume strictly inside and zero on the surface and outside. The initial position is the first crossing of the line with the volume, behind the vertex, and the injection bounds enclose the vertex and all of the line inside the volume.", "quantifier": "all radii with inner less than outer, all heights, all placements, all generator outputs in [0, 1), all continuous test functions; full cylinders (no wedge); exact arithmetic", "why_tests_cant": "Shapes, placements and generator outputs are continuous; a wrong law biases every weight without failing.", "anchors": ["projects/distributions/private/primary/vertex/CylinderVolumePositionDistribution.cxx: SamplePosition, GenerationProbability, InjectionBounds", "projects/distributions/private/primary/vertex/SphereVolumePositionDistribution.cxx: SamplePosition, GenerationProbability, InjectionBounds"]}
{"id": "C72", "title": "Depth-weighted vertices follow the reported density", "statement": "For the vertex distributions that draw according to interaction depth (physical, bounded, point source, range, column depth; primary and secondary), on every path longer than 1e-5 m (any length if only decays count): a vertex is drawn on the path for every generator output; the share of outputs with a vertex in the first x metres is the integral over those x metres of the attenuated interaction density normalized on the path (unattenuated when the total depth is below 1e-6); and GenerationProbability reports that density for every vertex on the path, to one part in 10^9. Outside the path it reports 0, and InjectionBounds reports the ends of the path. When the line itself is drawn from a disk, its points of closest approach are spread evenly over the disk and the reported density is divided by the area of the disk.", "quantifier": "all detectors, targets and cross sections (or decay lengths), directions, path ends, fiducial volumes, radii, ranges, generator outputs, vertices", "why_tests_cant": "the reported density must equal the law of the samples at every point of every path, for every density profile; a test compares histograms for a few setups.", "anchors": ["projects/distributions/private/primary/vertex/PrimaryPhysicalVertexDistribution.cxx", "projects/distributions/private/primary/vertex/PrimaryBoundedVertexDistribution.cxx", "projects/distributions/private/primary/vertex/PointSourcePositionDistribution.cxx", "projects/distributions/private/primary/vertex/RangePositionDistribution.cxx", "projects/distributions/private/primary/vertex/ColumnDepthPositionDistribution.cxx", "projects/distributions/private/secondary/vertex/SecondaryPhysicalVertexDistribution.cxx", "projects/distributions/private/secondary/vertex/SecondaryBoundedVertexDistribution.cxx"]}
{"id": "C73", "title": "Decay-range vertices follow the reported density", "statement": "DecayRangePositionDistribution draws lines evenly over the disk and vertices along the clipped path of each line with the density exp(-s/l)/(l(1-exp(-L/l))), l the decay length of the particle; the average of any function of the vertex over generator outputs is the integral of the function times the density GenerationProbability reports. InjectionBounds are the ends of the path. The decay length is p/(m width) in metres.", "quantifier": "all detectors, masses, widths, multipliers, energies, directions, radii, end caps, generator outputs and functions of the vertex", "why_tests_cant": "equality of a sampling law and a density is a statement about all vertices and all generator outputs.", "anchors": ["projects/distributions/private/primary/vertex/DecayRangePositionDistribution.cxx", "projects/distributions/private/primary/vertex/DecayRangeFunction.cxx"]}
{"id": "C74", "title": "An azimuthal cut is crossed where and as reported", "statement": "For the shapes with an azimuthal cut (cylinder, cone, cut tube, torus, the two polycones, sphere), a straight line is inside the wedge [start_phi, start_phi+delta_phi] at a distance exactly when the initial state the code computes, followed through the wedge crossings it records in order of distance, says so; in particular the crossing of the axis itself and reflex wedges are handled.", "quantifier": "all starts, all extents strictly between 0 and a full turn, all positions and directions of lines that do not run parallel to or nearly through the edge of the wedge (closer than 1e-6 to the axis without going through it), and lines parallel to the axis; exact arithmetic", "why_tests_cant": "the wedge is decided by the order of at most two half-plane crossings; reflex wedges, lines through the axis and lines behind the start each take another branch.", "anchors": ["projects/geometry/private/Cylinder.cxx: ComputeIntersections", "projects/geometry/private/Sphere.cxx: ComputeIntersections", "projects/geometry/private/PhiUtils.h"]}
{"id": "C75", "title": "Crossings of cylinders and tubes are exact", "statement": "Intersecting a line with a cylinder or tube reports the crossings of its surface in increasing order, each with the right distance, position and entering flag, alternating between entering and leaving, so that the part of the line inside is the part the crossings describe; with an azimuthal cut, the part inside both the tube and the wedge. The fixed array of hits never overflows and the bounding box contains the tube.", "quantifier": "all radii with inner less than outer, all heights, all cuts, all lines that keep clear of the rims by 1e-9 and whose crossings are at least 2e-9 apart; exact arithmetic", "why_tests_cant": "all shapes and lines: a line may meet any two of four surfaces, from inside, outside or within the bore.", "anchors": ["projects/geometry/private/Cylinder.cxx: Cylinder, ComputeIntersections, GetBoundingBox"]}
{"id": "C76", "title": "Crossings of spheres cut in both angles are exact", "statement": "Intersecting a line with a sphere or shell cut in azimuth, in polar angle or both reports crossings in increasing order, alternating between entering and leaving, so that at a distance the line is inside exactly when the point is in the shell, in the wedge and in the polar band. The fixed array of hits never overflows.", "quantifier": "all radii with inner less than outer, all wedges, all polar bands [start, start+delta] within the poles, all lines that cross the bounding cones rather than touch them and whose crossings of one surface are at least 2e-9 apart; distances at least 2e-9 from a boundary; exact arithmetic", "why_tests_cant": "a line meets a double cone of which one half counts, may pass the apex where the sign of the gradient says nothing, and degenerates at the equator and the poles; each takes a separate branch.", "anchors": ["projects/geometry/private/Sphere.cxx: Sphere, ComputeIntersections, ThetaInRange"]}
{"id": "C77", "title": "Deep inelastic final states are physical and reported at the sampled point", "statement": "Whenever the deep inelastic cross section finishes sampling a final state, the two outgoing momenta add up to the incoming momentum, the two energies to the incoming energy plus the target mass, and each outgoing particle has energy^2 = momentum^2 + mass^2 with the lepton on its own mass. A point (x, y) passes the kinematic test exactly when a massive lepton can be scattered there. The differential cross section of the completed record is the one of the sampled x and y, and the final state probability is that divided by the total cross section.", "quantifier": "all spline tables, primary momenta, target and lepton masses, random streams, numbers of loop passes; massless primary, target at rest, direction not within 1e-9 of the x axis or its opposite; exact arithmetic", "why_tests_cant": "four momenta pass through a rotation with special cases and a rejection loop; the kinematic limit is a quadratic condition with cases; tests sample a few tables and directions.", "anchors": ["projects/interactions/private/DISFromSpline.cxx: kinematicallyAllowed, SampleFinalState, DifferentialCrossSection, FinalStateProbability"]}
{"id": "C78", "title": "The deep inelastic sampler has the differential cross section as its stationary distribution", "statement": "One pass of the sampling loop of the deep inelastic cross section leaves the distribution with density DifferentialCrossSection(x, y) unchanged: every average over x and y is the same before and after the pass. So the density sampled is the density that FinalStateProbability reports.", "quantifier": "all spline tables (measurable, found only within their extents), energies within the table, lepton and target masses, test functions; proposals uniform in the allowed region of the logarithms; exact arithmetic", "why_tests_cant": "stationarity is an identity between integrals over all starting points and all proposals; a wrong weight (for instance a missing Jacobian of the logarithm) only shows as a skewed distribution.", "anchors": ["projects/interactions/private/DISFromSpline.cxx: SampleFinalState, DifferentialCrossSection"]}
{"id": "C79", "title": "The recoil electron of elastic scattering is physical", "statement": "Whenever elastic neutrino-electron scattering finishes sampling, the recorded y lies in the allowed range, and the electron has exactly the energy and momentum that two-body kinematics gives at that y: it is on its mass shell, has the energy E y above its mass, and what is left of the primary's momentum has exactly the energy that is left.", "quantifier": "all supported primaries, energies, directions not within 1e-9 of the x axis, random streams; massless primary, electron at rest; exact arithmetic", "why_tests_cant": "the momentum is assembled from square roots that are only real within the limit, after a rejection loop and two rotations.", "anchors": ["projects/interactions/private/ElasticScattering.cxx: SampleFinalState"]}
{"id": "C80", "title": "Elastic scattering events conserve four-momentum and are sampled with the density they are weighted with", "statement": "The two outgoing momenta of an elastic scattering event add up to the incoming ones; the differential cross section of the record is the one at the sampled y; and the sampler's stationary distribution is the reported density.", "quantifier": "all supported primaries, energies, directions, random streams, test functions; exact arithmetic", "why_tests_cant": "conservation and density are statements about every event and about integrals over all events.", "anchors": ["projects/interactions/private/ElasticScattering.cxx: SampleFinalState, DifferentialCrossSection, FinalStateProbability"]}
{"id": "C81", "title": "The final states a cross section lists are coherent", "statement": "For deep inelastic scattering, heavy-lepton production, charm production (splines or generated events), elastic scattering and the dipole tables: the signatures listed for a pair of parents are exactly those of the full list with these parents, nothing is listed twice, the parents of every signature are advertised, every advertised pair has a final state, and the final state is the lepton of the right family with the right companions. Construction succeeds exactly for the supported neutrinos and kinds.", "quantifier": "all sets of primaries and targets, all interaction kinds", "why_tests_cant": "lists, a map of pairs and sets of types are filled by separate statements; agreement must hold for every set of particles.", "anchors": ["projects/interactions/private/DISFromSpline.cxx: InitializeSignatures, GetPossibleSignaturesFromParents", "projects/interactions/private/HNLDISFromSpline.cxx", "projects/interactions/private/HNLDipoleDISFromSpline.cxx", "projects/interactions/private/QuarkDISFromSpline.cxx", "projects/interactions/private/PythiaDISCrossSection.cxx", "projects/interactions/private/ElasticScattering.cxx", "projects/interactions/private/HNLDipoleFromTable.cxx"]}
{"id": "C82", "title": "The final states of every other cross section are coherent", "statement": "The dummy cross section, the energy loss of charmed mesons, MARLEY and an object into which an archive is loaded list their final states coherently, in the sense of C81.", "quantifier": "all sets of primaries and targets, all choices of reactions", "why_tests_cant": "as C81", "anchors": ["projects/interactions/private/DummyCrossSection.cxx", "projects/interactions/private/DMesonELoss.cxx", "projects/interactions/private/MarleyCrossSection.cxx", "projects/interactions/public/SIREN/interactions/DISFromSpline.h: load"]}
{"id": "C83", "title": "The final states a decay lists are coherent", "statement": "For every primary of a decay object the signatures listed for that parent are exactly those of the full list with this parent, and nothing is listed twice.", "quantifier": "all decay classes and sets of primaries", "why_tests_cant": "as C81", "anchors": ["projects/interactions/private/HNLDipoleDecay.cxx", "projects/interactions/private/HNLDecay.cxx", "projects/interactions/private/ElectroweakDecay.cxx", "projects/interactions/private/CharmMesonDecay.cxx", "projects/interactions/private/CharmMesonDecay3Body.cxx: GetPossibleSignatures, GetPossibleSignaturesFromParent"]}
{"id": "C84", "title": "Listed final states conserve charge and lepton number", "statement": "Every listed decay of weak bosons, charmed mesons and heavy neutral leptons conserves electric charge and lepton number (and, for bosons and charmed mesons, the lepton number of each generation); every listed scattering conserves lepton number.", "quantifier": "all listed final states of all objects; states with an unspecified hadronic system only for the part that is specified", "why_tests_cant": "a table of some hundred final states built by nested loops; the property ranges over all objects.", "anchors": ["projects/interactions/private/ElectroweakDecay.cxx", "projects/interactions/private/CharmMesonDecay.cxx", "projects/interactions/private/HNLDecay.cxx", "projects/interactions/private/HNLDipoleDecay.cxx: GetPossibleSignaturesFromParent", "projects/interactions/private/DISFromSpline.cxx", "projects/interactions/private/QuarkDISFromSpline.cxx: InitializeSignatures"]}
{"id": "C85", "title": "Partial rates add up to the total rate", "statement": "The total width or cross section over all final states equals the sum over the listed final states of the rate each record of that final state gets: hbar over lifetime for charmed mesons, the inclusive cross section for charm production, the sum of the couplings for dipole decays, and for weak bosons the sum over all modes whenever the mass of the record is above the highest threshold.", "quantifier": "all listed primaries, masses, couplings, inclusive cross sections", "why_tests_cant": "the total and the partial rates come from different functions with separate tables.", "anchors": ["projects/interactions/private/CharmMesonDecay.cxx: TotalDecayWidth", "projects/interactions/private/ElectroweakDecay.cxx: TotalDecayWidth", "projects/interactions/private/HNLDipoleDecay.cxx: TotalDecayWidth", "projects/interactions/private/QuarkDISFromSpline.cxx", "projects/interactions/private/PythiaDISCrossSection.cxx: TotalCrossSection", "projects/interactions/private/CrossSection.cxx: TotalCrossSectionAllFinalStates"]}
{"id": "C86", "title": "A collection adds the rates of its interactions", "statement": "The total cross section of a collection for a target is the sum over its cross sections listing that target; its width is the sum of the widths; the decay length of a moving particle is momentum over mass times hbar c over the summed width, infinite without open decay; at rest, with only open decays, it is zero.", "quantifier": "all collections, targets, widths, momenta and masses; exact arithmetic with infinities and not-a-number", "why_tests_cant": "sums over lists of any length, with infinite lengths of closed decays.", "anchors": ["projects/interactions/private/InteractionCollection.cxx: TotalCrossSectionByTargetAllFinalStates, TotalDecayWidthAllFinalStates, TotalDecayLengthAllFinalStates", "projects/interactions/private/Decay.cxx: TotalDecayLength"]}
{"id": "C87", "title": "Two-body decays conserve four-momentum", "statement": "Every event sampled for a two-body decay of a weak boson, a dipole decay or a two-body decay of a heavy neutral lepton conserves energy and momentum, and both products are on the mass shells of the masses written for them, with energies that are not negative.", "quantifier": "all primaries (momentum, mass, helicity) whose mass is at least the sum of the masses of the products and, for heavy leptons, equals the mass of the decay object; all random numbers", "why_tests_cant": "rotations and a boost of a sampled direction; must hold for every event.", "anchors": ["projects/interactions/private/ElectroweakDecay.cxx: SampleFinalState", "projects/interactions/private/HNLDipoleDecay.cxx: SampleFinalState", "projects/interactions/private/HNLDecay.cxx: SampleFinalState"]}
{"id": "C88", "title": "Two-body decays are drawn with the reported density", "statement": "The density of the cosine, in the rest frame of the primary and relative to its direction of flight, with which two-body decays are sampled is the value FinalStateProbability returns for the sampled event.", "quantifier": "all primaries in motion (for heavy leptons), all helicities, Dirac and Majorana leptons, all modes, all azimuths; directions rk does not treat as parallel to the x axis unless they are", "why_tests_cant": "an equality of distributions; a statistical test cannot establish it and cannot cover all records.", "anchors": ["projects/interactions/private/ElectroweakDecay.cxx: SampleFinalState, FinalStateProbability", "projects/interactions/private/HNLDipoleDecay.cxx: SampleFinalState, FinalStateProbability", "projects/interactions/private/HNLDecay.cxx: SampleFinalState, FinalStateProbability, GetAlpha"]}
{"id": "C89", "title": "Three-body decays conserve four-momentum", "statement": "Every event sampled for the decay of a heavy neutral lepton to three particles conserves energy and momentum, all products are on their mass shells with energies that are not negative, and the invariant masses of the pairs are the sampled ones.", "quantifier": "all primaries (momentum, mass, helicity) whose mass exceeds the sum of the masses of the charged leptons and equals the mass of the decay object; all random numbers strictly between zero and one", "why_tests_cant": "the second lepton is built from an angle that is clamped to [-1, 1] and rotated about the first; must hold for every event.", "anchors": ["projects/interactions/private/HNLDecay.cxx: SampleFinalState, ThreeBodyPhaseSpaceProposalDistribution, ThreeBodyPhaseSpaceConversion"]}
{"id": "C90", "title": "The Metropolis-Hastings sampler approaches its target", "statement": "If the proposals have the density declared for them, up to a factor, a chain started from the target distribution keeps it, and the law of the returned sample differs from the target by at most (1 - e)^n in the probability of every event, where n is the number of passes and e is positive.", "quantifier": "all sample spaces, proposal laws, declared densities and bounded measurable likelihoods, all numbers of passes, all events", "why_tests_cant": "convergence in law for all targets; a statistical test can only look at a few.", "anchors": ["projects/utilities/public/SIREN/utilities/Sampling.h: MetropolisHasting_Sample"]}
{"id": "C91", "title": "Three-body decays are drawn with the reported density", "statement": "The events sampled for the decay of a heavy neutral lepton to a neutrino and two charged leptons have the density DifferentialDecayWidth reports for them, up to normalization.", "quantifier": "all primaries, masses of the charged leptons, mixings, momenta, all events", "why_tests_cant": "an equality of distributions over a five-dimensional phase space.", "anchors": ["projects/interactions/private/HNLDecay.cxx: SampleFinalState, ThreeBodyPhaseSpaceProposalDistribution, ThreeBodyDifferentialDecayWidth, DifferentialDecayWidth"]}
{"id": "C92", "title": "Comparing distributions", "statement": "Two distributions compare equal exactly when they are of the same class and have the same parameters, so that they report the same density for every event; equality is symmetric and transitive; and `<` is a strict order under which two distributions of which neither is less are equal.", "quantifier": "all pairs and triples of distributions of all classes of the library, with all parameters", "why_tests_cant": "ranges over all pairs of classes and all parameter values; the processes reject duplicates by this comparison, and sets of distributions rely on the order.", "anchors": ["projects/distributions/private/Distributions.cxx: operator==, operator<", "all `equal` and `less` in projects/distributions/private"]}
{"id": "C93", "title": "Masses, helicities and single energies", "statement": "A sampled mass, helicity or single energy is the one prescribed (left-handed particles, right-handed antiparticles) and has probability 1; other values have probability 0, up to the stated tolerances.", "quantifier": "all masses that are not negative, positive energies, particle types and records", "why_tests_cant": "must hold for every record.", "anchors": ["projects/distributions/private/primary/mass/PrimaryMass.cxx", "projects/distributions/private/primary/helicity/PrimaryNeutrinoHelicityDistribution.cxx", "projects/distributions/private/primary/energy/Monoenergetic.cxx"]}
{"id": "C94", "title": "Energies of neutrinos from muon decay at rest", "statement": "The density reported for the energy is normalized and vanishes outside of its range; for every random number the sampling ends with an energy that has positive density and differs by at most 1e-6 GeV from the quantile of the reported density, so that the probability of every interval is the integral of the density up to that shift.", "quantifier": "all random numbers in [0, 1], all masses of the muon above 2e-6 GeV, all energies", "why_tests_cant": "an equality of distributions and the termination of a search, for every random number.", "anchors": ["projects/distributions/private/primary/energy/PiDARNuEDistribution.cxx"]}
{"id": "C95", "title": "The spectrum with a Moyal distribution and an exponential", "statement": "The closed form for the normalization is the integral of the spectrum, so that the reported density is normalized as precisely as the integrator is; the law of the sampled energy differs from the reported density by at most (1 - e)^41 in the probability of every set, with e the ratio of the mean of the spectrum to its maximum.", "quantifier": "all valid parameters, all measurable sets of energies", "why_tests_cant": "an equality of distributions; a statistical test looks at finitely many.", "anchors": ["projects/distributions/private/primary/energy/ModifiedMoyalPlusExponentialEnergyDistribution.cxx"]}
{"id": "C96", "title": "Energies drawn from a flux table", "statement": "For a distribution made from a flux table the reported density is the interpolated flux, normalized to 1 over the range of energies and zero outside; sampled energies lie in the range and follow that density; the physical normalization, if asked for, is the integral of the flux over the range.", "quantifier": "all tables with ascending energies and fluxes that are not negative, all ranges, all calls of SetEnergyBounds, all random numbers", "why_tests_cant": "an equality of distributions for every table and range; a statistical test looks at finitely many.", "anchors": ["projects/distributions/private/primary/energy/TabulatedFluxDistribution.cxx: ComputeIntegral, ComputeCDF, SetEnergyBounds, SampleEnergy, GenerationProbability", "projects/utilities/public/SIREN/utilities/Interpolator.h"]}
{"id": "C97", "title": "Lines through a parallelepiped", "statement": "For every parallelepiped that can be constructed and every line the reported crossings are one entry and one exit, at the ends of the part of the line inside the solid, or nothing if the line misses it; its bounding box is the smallest that contains it.", "quantifier": "all half lengths and angles the constructor accepts, all positions and directions not nearly parallel to a face", "why_tests_cant": "a statement about every solid, position and direction.", "anchors": ["projects/geometry/private/Para.cxx: ComputeIntersections, GetBoundingBox"]}
{"id": "C98", "title": "Lines through a general trapezoid", "statement": "For every general trapezoid that can be constructed and every line the reported crossings are one entry and one exit, at the ends of the part of the line inside the solid with the given edges, or nothing if the line misses it; its bounding box is the smallest that contains it.", "quantifier": "all half lengths and angles the constructor accepts, all positions and directions not nearly parallel to a face", "why_tests_cant": "a statement about every solid, position and direction.", "anchors": ["projects/geometry/private/Trap.cxx: ComputeVertices, ComputeIntersections, GetBoundingBox"]}
{"id": "C99", "title": "Lines through a frustum of a rectangular pyramid", "statement": "For every such solid that can be constructed and every line clear of its edges the reported crossings enter and leave in turn and say inside exactly where the line is inside the solid; no more crossings are stored than the array holds; the bounding box is the smallest that contains the solid.", "quantifier": "all half widths and heights the constructor accepts with a non-empty inside, all positions and directions clear of the edges and not nearly parallel to a face, every order std::sort may leave equal distances in", "why_tests_cant": "a statement about every solid, position and direction.", "anchors": ["projects/geometry/private/Trd.cxx: ComputeIntersections, GetBoundingBox"]}
{"id": "C100", "title": "Lines through an elliptical tube", "statement": "For every elliptical tube that can be constructed and every line clear of its rims the reported crossings enter and leave in turn and say inside exactly where the line is inside; no more crossings are stored than the array holds; the bounding box is the smallest that contains the tube.", "quantifier": "all semi-axes and heights the constructor accepts, all positions and directions clear of the rims and not nearly parallel to axis or caps, every order std::sort may leave equal distances in", "why_tests_cant": "a statement about every tube, position and direction.", "anchors": ["projects/geometry/private/EllipticalTube.cxx: ComputeIntersections, GetBoundingBox"]}
{"id": "C101", "title": "Lines through an ellipsoid with cuts", "statement": "The constructors refuse exactly the ellipsoids with a semi-axis that is not positive and the cuts that leave nothing; otherwise the solid is what lies between the cuts that were asked for. For every ellipsoid and every line clear of its rims the reported crossings enter and leave in turn and say inside exactly where the line is inside; no more crossings are stored than the array holds; the bounding box is the smallest that contains the solid.", "quantifier": "all semi-axes and cuts, all positions and directions clear of the rims, not touching the ellipsoid and with crossings 2e-9 apart, every order std::sort may leave equal distances in", "why_tests_cant": "a statement about every ellipsoid, position and direction.", "anchors": ["projects/geometry/private/Ellipsoid.cxx: Ellipsoid, ComputeIntersections, GetBoundingBox"]}
{"id": "C102", "title": "Lines through a cone", "statement": "The constructors refuse exactly the cones whose height is not positive, that have no positive radius, or whose extent in azimuth is not positive; otherwise the radii of each end are ordered. For every cone or frustum, hollow or not, cut in azimuth or not, and every line clear of its rims and of its tip, the reported crossings enter and leave in turn and say inside exactly where the line is inside; a line straight through the tip of a full cone that goes on within it is reported to pass the tip and the base; no more crossings are stored than the array holds; the bounding box is the smallest that contains the uncut solid.", "quantifier": "all radii that are not negative and differ at one end, all heights, cuts, positions and directions clear of rims, tip and cut and with crossings 2e-9 apart, every order std::sort may leave equal distances in", "why_tests_cant": "a statement about every cone, position and direction.", "anchors": ["projects/geometry/private/Cone.cxx: Cone, ComputeIntersections, GetBoundingBox"]}
{"id": "C103", "title": "Energies and directions from a two-dimensional flux table", "statement": "Every sampled energy lies in the range of energies and every sampled direction is a unit vector whose cosine of the zenith angle lies in its range. The reported density is the flux of the table divided by its integral over the ranges, zero outside of them, and has the integral one. Sampled points follow the reported density. A change of the bounds takes effect as a whole or throws without effect, and the physical normalization follows the bounds.", "quantifier": "all tables, all bounds in order, all sequences of random numbers, all histories of calls", "why_tests_cant": "a statement about the law of infinitely many samples, about integrals of every table, and about every history of calls.", "anchors": ["projects/distributions/private/primary/energy_direction/Tabulated2DFluxDistribution.cxx: ComputeIntegral, LoadFluxTable, SetEnergyBounds, SetCosZenithBounds, SampleTablePoint, SampleEnergyAndDirection, GenerationProbability"]}
{"id": "C104", "title": "Interpolation in a two-dimensional table", "statement": "A table that fills its grid is interpolated bilinearly in every cell, with negative results returned as zero: the values of the table are given back at their points, other results lie between the values at the corners of the cell. The order of rows does not matter, of repeated rows the last counts, and what the interpolator held before has no influence. A table that does not fill its grid is refused. On logarithmic axes the same holds for logarithms.", "quantifier": "all tables, all previous contents, all points inside the range of the table", "why_tests_cant": "a statement about every table and every point between its nodes, and about every history of assignments.", "anchors": ["projects/utilities/public/SIREN/utilities/Interpolator.h: TableData2D, Interpolator2D::SetTable, Interpolator2D::operator()"]}
{"id": "C105", "title": "Points of closest approach for a fixed target", "statement": "For a cylindrical or tubular target with any placement, the sampled point of closest approach lies in the plane through the origin across the direction of the particle, and its line crosses the target. The points follow the density 'length of the line inside the target over the volume of the target' with respect to area in that plane, which has the integral one, and the density reported for a vertex is this one up to the tolerance of the crossings.", "quantifier": "all placements, radii and heights, all directions, all outputs of the random number generator, all lines clear of the rims", "why_tests_cant": "a statement about the law of infinitely many samples and about integrals over a plane.", "anchors": ["projects/distributions/private/primary/area/FixedTargetAreaDistribution.cxx: FixedTargetAreaDistribution::SamplePointOfClosestApproach, FixedTargetAreaDistribution::GenerationProbability"]}
{"id": "C106", "title": "Vertices behind a fixed target", "statement": "A point is drawn in the target and a vertex on the line through it along the direction of the particle, behind the target, within the longest length and the fiducial volume. Sampling and reported density use the same path, whatever point of the line they start from. The vertex follows the interaction depth along the path. The reported density is the one of the line, its length in the target over the volume of the target, times the one of the vertex along the path; it is zero for every other vertex. The reported bounds are the ends of the path. Distributions compare equal only if all their members agree.", "quantifier": "all targets, placements, directions, detectors, interaction lengths and outputs of the random number generator, all vertices", "why_tests_cant": "a statement about the law of infinitely many samples and about every line through the target.", "anchors": ["projects/distributions/private/primary/vertex/FixedTargetPositionDistribution.cxx: SamplePosition, GenerationProbability, InjectionBounds, equal"]}
{"id": "C107", "title": "Generation probabilities of an injector", "statement": "For an event with one primary interaction, the generation probability an injector reports is its number of events times the product, over all interactions of the event, of the channel probability and the densities of the responsible process. For a single record the same holds with the primary process; with a process given the number of events is left out. A secondary interaction without a process throws. The event weight of a weighter is the inverse of the sum over its injectors of this reported probability over the physical density of the event.", "quantifier": "all injectors with at least one event, all events with one root, all densities", "why_tests_cant": "it must hold for events of every length and every set of processes and injectors.", "anchors": ["projects/injection/private/Injector.cxx: Injector::GenerationProbability, Injector::SecondaryGenerationProbability", "projects/injection/private/Weighter.cxx: Weighter::EventWeight"]}
{"id": "C108", "title": "Interaction and survival probabilities of an event", "statement": "For each injector of a weighter, the reported interaction and survival probabilities are lists with one number for each interaction of the event, in its order: the probability of interacting on the injection path of that injector, and the probability of reaching this path from the point of production, both with the responsible physical process. They lie between 0 and 1. An index out of range throws, and both lists are empty if an interaction has no process.", "quantifier": "all events, weighters, injectors, indices and non-negative interaction depths", "why_tests_cant": "it must hold for events of every length and every set of processes.", "anchors": ["projects/injection/private/Weighter.cxx: Weighter::GetInteractionProbabilities, Weighter::GetSurvivalProbabilities"]}
{"id": "C109", "title": "Weighters from files", "statement": "A weighter saved to a file and read back, into a new weighter or into any existing one, gives the same weights and lists as the one that was saved. A weighter made from a file and other injectors is the one made from these injectors and the saved processes, with nothing left of the saved injectors.", "quantifier": "all weighters, all states of the weighter that is read into, all other injectors", "why_tests_cant": "it must hold for every weighter and every earlier state.", "anchors": ["projects/injection/private/Weighter.cxx: Weighter::SaveWeighter, Weighter::LoadWeighter, Weighter::Weighter, Weighter::Initialize"]}
{"id": "C110", "title": "Tubes with tilted ends", "statement": "The crossings reported for a line and a tube with tilted end planes are those of the solid between the radii and inside both planes, intersected with the azimuthal wedge if there is one: in order, alternating between entering and leaving, right at every distance that is not within the tolerance of a reported one. The normals stored have length one and point outward. The bounding box contains the solid and, without a cut, is the smallest such box.", "quantifier": "all tubes whose end planes do not meet inside the outer barrel, all lines that do not touch a rim within the tolerance of 1e-9", "why_tests_cant": "it must hold for every line, every pair of normals and every azimuthal range.", "anchors": ["projects/geometry/private/CutTube.cxx: CutTube::ComputeIntersections, CutTube::GetBoundingBox, CutTube::CutTube, prepare_normal"]}
{"id": "C111", "title": "Extruded polygons report exactly where lines cross them", "statement": "For an extruded polygon (ExtrPoly) whose polygon is convex, in either sense of rotation, and whose sections are listed from bottom to top with positive scales, the crossings reported for a line describe the solid: at every point of the line farther than the tolerance from a crossing, the point is inside the polygon scaled and shifted as prescribed for its height exactly when the last crossing before it enters; crossings come in increasing order and enter and leave in turn, with nothing reported where the line passes from one section to the next. Each crossing is at the point of the line at its distance. The bounding box contains the solid and is the smallest box that does. A polygon with fewer than three vertices is refused; after SetPolygon or SetZSections the object behaves like a newly built one.", "quantifier": "all convex polygons with any number of vertices, all numbers of sections, heights, scales and offsets, all lines clear of the tolerance", "why_tests_cant": "tests use a few polygons and lines; the number of vertices and sections is unbounded, and crossings at section boundaries must cancel for every slope and every order in which the sort leaves ties", "anchors": ["projects/geometry/private/ExtrPoly.cxx:ExtrPoly::ComputeIntersections", "projects/geometry/private/ExtrPoly.cxx:ExtrPoly::ComputeLateralPlanes", "projects/geometry/private/ExtrPoly.cxx:ExtrPoly::GetBoundingBox", "projects/geometry/public/SIREN/geometry/ExtrPoly.h:ExtrPoly::SetPolygon"]}
{"id": "C112", "title": "Definitions of a GDML file are read in document order, with loops unrolled", "statement": "Reading the <define> sections of a GDML file ends, and the constants, variables, quantities, positions, rotations and matrices it defines (or the exception it throws) are those obtained by reading the sections one after the other from top to bottom, each element seeing the values defined so far, and every loop as its body once for each of its values, nested loops included. A loop takes exactly the values from + k * step, k = 0, 1, 2, ..., that have not passed its end by more than 1e-9, in this order, upwards or downwards; a step of zero counts as one. This holds for every file in which no loop assigns its own variable in its body, and in which the number of sections plus the nesting of the loops is at most 64. Built-in constants and units keep their values whatever a file contains.", "quantifier": "all files: any number of elements, sections, loop bounds and steps, and nestings; all meanings of the expressions", "why_tests_cant": "the documents are unbounded trees and the loop bounds depend on the values computed so far; the code runs loops by restarting frames of an explicit stack from the present value of the variable", "anchors": ["projects/detector/private/gdml/GDMLDefineParser.cxx:ResolveDefineInOrder", "projects/detector/private/gdml/GDMLUnits.cxx:IsBuiltInConstant", "projects/detector/private/gdml/GDMLUnits.cxx:SeedBuiltInConstants"]}
{"id": "C113", "title": "Lengths, angles and quantities of a GDML file are converted by their unit", "statement": "A length in a GDML file is the value of its expression times its unit in metres, for each of the length units of GDML, in millimetres when no unit is given; an angle is the value times its unit in radians, in radians when none is given. Another unit is refused with an exception. A quantity with a length or angle unit that is later used without a unit stands for the length or angle of its definition. Densities are stored in g/cm3 and energies in MeV, with the type of their unit whatever the type attribute says.", "quantifier": "all expressions, values, names and units", "why_tests_cant": "the conversion goes through three tables (type of unit, built-in constants in mm, SIREN's metre) that must agree for every unit and both ways of writing a length", "anchors": ["projects/detector/private/gdml/GDMLUnits.cxx:LengthScale", "projects/detector/private/gdml/GDMLUnits.cxx:ParseLength", "projects/detector/private/gdml/GDMLUnits.cxx:AngleScale", "projects/detector/private/gdml/GDMLUnits.cxx:ParseAngle", "projects/detector/private/gdml/GDMLUnits.cxx:ResolveQuantityType", "projects/detector/private/gdml/GDMLUnits.cxx:QuantityUnitScale"]}
{"id": "C114", "title": "References in a GDML file find the definition they name", "statement": "Names of solids, materials and volumes may be defined several times, and may end in a pointer suffix: 0x and at least seven hexadecimal digits after a name that is not empty. While a section is read, a reference written with a pointer suffix finds what was last defined under exactly this text, and one written without finds the last definition of its name. After the section, a reference written with a pointer suffix still leads to that definition, a bare name whose definitions are all equal leads to it, and the bare reference of a volume to a name with different definitions is refused with an exception, whatever the order in which hash maps are walked. Later sections keep this when they define no solid, material or volume of the same name. No name may look like another with a number (a__1 beside a).", "quantifier": "all sequences of definitions and references, all names and suffixes, all iteration orders of the maps", "why_tests_cant": "the outcome depends on the whole history of definitions of a name, on which of them are equal, and on the iteration order of hash maps", "anchors": ["projects/detector/private/gdml/GDMLParserPrivate.h:StripPointerSuffix", "projects/detector/private/gdml/GDMLParserPrivate.h:InstanceTracker", "projects/detector/private/gdml/GDMLParserPrivate.h:ResolveAlias"]}
{"id": "C115", "title": "Boolean solids of a GDML file are built whatever the order of the definitions", "statement": "Reading the solids of a GDML file ends for every file. The solids of the model are then exactly those the file describes: the primitive solids that can be read, and every union, subtraction or intersection whose operands are described anywhere in the file, before or after it and through any number of further booleans, made of the operands it names. A boolean whose operand, or an operand of an operand, is missing or is the boolean itself is left out, and the warnings name exactly these. This holds for files in which no name is defined twice and none looks like another with a number.", "quantifier": "all sequences of primitive and boolean solids over all sections, all reference structures including cycles, all iteration orders of the maps", "why_tests_cant": "the booleans form an arbitrary graph of any depth, resolved by a stack with reverse dependencies", "anchors": ["projects/detector/private/gdml/GDMLSolidParser.cxx:ParseAllSolids"]}
{"id": "C116", "title": "Including a GDML file keeps the definitions of both files", "statement": "Merging the data of an included GDML file into the including one leaves every definition of the including file unchanged. A name of the included file changes only when the two files define it differently; the new name is used by neither file and different names stay different. Each solid, isotope, element, material and volume of the included file is found under its (new) name in the merged data with the same content, its references changed consistently, and the world volume follows. This holds when definitions that have the same name and the same text in both files refer only to names that are not defined differently.", "quantifier": "all pairs of files, all sets of names and definitions of every kind, all iteration orders of the maps", "why_tests_cant": "which names collide, and whether the generated names are free, depends on all definitions of both files", "anchors": ["projects/detector/private/GDMLParser.cxx:GDMLData::MergeFrom", "projects/detector/private/gdml/GDMLStructureParser.cxx:ParseStructure"]}
{"id": "C117", "title": "Euler angles stand for the rotations of their names", "statement": "For each of the 24 orders and all angles, the quaternion made from Euler angles has length one and rotates every vector by the three angles about the axes named by the order, about fixed axes (s) or about axes carried along (r). The functions for detector files (ZXZr) and GDML files (XYZs) agree with it, and for the orders about fixed axes so does the matrix made from the angles. Conversely the angles obtained from a quaternion (of length one, or of any length for the two special functions) stand for the same rotation, exactly unless the second angle is within 16 machine epsilons of a singular value without being equal to it, and within 32 machine epsilons per component always. Axis and angle of a quaternion give the same rotation back.", "quantifier": "all 24 orders, all angles, all quaternions of length one (of any length for the special functions), all vectors", "why_tests_cant": "the formulas permute axes and signs differently for every order and have a special branch at singular angles; samples cover a few orders and generic angles", "anchors": ["projects/math/public/SIREN/math/Conversions.h:QuaternionFromEulerAngles", "projects/math/public/SIREN/math/Conversions.h:EulerAnglesFromMatrix3D", "projects/math/public/SIREN/math/Conversions.h:Matrix3DFromEulerAngles", "projects/math/public/SIREN/math/EulerQuaternionConversions.h:QFromZXZr", "projects/math/public/SIREN/math/EulerAngles.h:EulerOrder", "projects/math/private/Quaternion.cxx:Quaternion::GetAxisAngle"]}
{"id": "C118", "title": "Fiducial volumes in geometry coordinates", "statement": "A fiducial volume given in geometry coordinates is converted to detector coordinates so that a point is in the converted volume, in detector coordinates, exactly if it is in the given volume, in geometry coordinates.", "quantifier": "all detector origins and rotations, all placements and shapes of the volume, all points", "why_tests_cant": "the volumes in the shipped files belong to detectors that are not rotated", "anchors": ["projects/detector/private/DetectorModel.cxx:DetectorModel::ParseFiducialVolume"]}
{"id": "C119", "title": "Spherical coordinates, deflection and comparison of vectors", "statement": "Computing the spherical coordinates of a vector and the components from them gives the vector back, with the radius its length; spherical coordinates in the usual ranges are obtained back from the components made from them. Deflecting a direction by an angle with cosine c gives a direction that makes exactly this angle with the old one, the azimuth is an angle about the old direction, and every direction is obtained for some azimuth. Vectors made from components are equal exactly if the components are.", "quantifier": "all vectors, all directions, all cosines in [-1, 1] and azimuths", "why_tests_cant": "the formulas have special cases at the poles, at zero length and for backward deflections", "anchors": ["projects/math/private/Vector3D.cxx:Vector3D::CalculateSphericalCoordinates", "projects/math/private/Vector3D.cxx:Vector3D::CalculateCartesianFromSpherical", "projects/math/private/Vector3D.cxx:Vector3D::deflect", "projects/math/private/Vector3D.cxx:Vector3D::operator=="]}
{"id": "C120", "title": "Loops in the sections of a GDML file are unrolled", "statement": "Before solids, materials and volumes of a GDML file are read, every loop is replaced by copies of its body, one for each value from `from` to `to` in steps of `step`, in order, and loops in these copies are unrolled in turn; no loop is left, other elements stay as they are, and a loop of more than 10000 values is refused. This ends for every file whose elements are nested at most 64 deep. In a copy exactly the words equal to the variable are replaced by its value, and bracketed expressions by their integer value; a bracket that cannot be evaluated makes the import fail.", "quantifier": "all trees of elements nested at most 64 deep, all attribute texts, all bounds and values, all evaluators of expressions", "why_tests_cant": "the walk over the tree changes the tree it walks, loops contain loops, and the replacement works on characters; tests use one or two loops", "anchors": ["projects/detector/private/gdml/GDMLPreprocess.cxx:ExpandLoops", "projects/detector/private/gdml/GDMLPreprocess.cxx:CloneNodeWithSubst", "projects/detector/private/gdml/GDMLPreprocess.cxx:SubstLoopVar", "projects/detector/private/GDMLParser.cxx:ParseGDML"]}
{"id": "C121", "title": "Polycones report where a line is in them", "statement": "For a polycone of any number of planes, with sections standing on each other and steps in between, the intersections reported for a line come in increasing order, enter and leave in turn, and tell exactly which points of the line are in the solid whose radii vary evenly between neighbouring planes, and in the wedge if there is a cut in azimuth, but for 1e-9 around a crossing. The constructors accept exactly at least two planes in monotone order with 0 <= rmin <= rmax and put them in increasing order; the bounding box contains the solid.", "quantifier": "all numbers of planes, heights and radii, all cuts, all lines clear of the edges, all ways of sorting hits at equal distances", "why_tests_cant": "any number of sections meet in any number of steps, and a missing or doubled hit at a step is seen only by lines through it; tests use a few polycones and lines", "anchors": ["projects/geometry/private/Polycone.cxx:ComputeIntersections", "projects/geometry/private/Polycone.cxx:validate", "projects/geometry/private/Polycone.cxx:GetBoundingBox", "projects/geometry/private/Polycone.cxx:Polycone"]}
{"id": "C122", "title": "A quadtree returns what was put into it", "statement": "After any sequence of additions of values inside the box of the tree and removals of values it holds, no call has failed, with assertions compiled in or not; a query returns exactly the values held whose boxes overlap the queried box, each as often as it is held; findAllIntersections reports every pair of values held whose boxes overlap exactly once; and the tree is at most eight levels deep with at most sixteen values in a leaf above the last level.", "quantifier": "all sequences of additions and removals, all boxes including degenerate ones, all queries, builds with and without assertions", "why_tests_cant": "splits and merges depend on the whole history, and a value in the wrong node is lost only to some queries; tests run a few insertions", "anchors": ["projects/math/public/SIREN/math/Interpolation.h:Quadtree::add", "projects/math/public/SIREN/math/Interpolation.h:Quadtree::remove", "projects/math/public/SIREN/math/Interpolation.h:Quadtree::query", "projects/math/public/SIREN/math/Interpolation.h:Quadtree::findAllIntersections", "projects/math/public/SIREN/math/Interpolation.h:Box"]}
{"id": "C123", "title": "Interpolation on a triangulation", "statement": "The indexer of a triangulated table returns a triangle that contains the point whenever one of the triangles has it strictly inside, and nothing otherwise. The interpolator returns, at each point of the triangulated area including the points of the table, the inverse transform of the mean of the transformed values at the corners of a triangle around the point, with the weights that give the point from the corners in the transformed coordinates; functions that are affine after the transforms are reproduced. Elsewhere it throws.", "quantifier": "all tables, all triangulations with corners in the table, all points, all transforms, both operators, builds with and without assertions", "why_tests_cant": "which triangles a search meets depends on the whole table through the tree they are stored in; tests compare random points of a few tables to one function with a tolerance of one percent", "anchors": ["projects/math/public/SIREN/math/Interpolation.h:DelaunayIndexer2D", "projects/math/public/SIREN/math/Interpolation.h:GetBox", "projects/math/public/SIREN/math/Interpolation.h:SimplexLinearInterpolationOperator", "projects/math/public/SIREN/math/Interpolation.h:DropSimplexLinearInterpolationOperator", "projects/math/public/SIREN/math/Interpolation.h:LinearDelaunayInterpolator2D"]}
{"id": "C124", "title": "Indexers", "statement": "For points in ascending or descending order the indexers return two neighbouring positions between whose points the argument lies, or the first or last two when it is beyond the ends: the irregular one for all points, the regular one for evenly spaced ones, and each through an increasing transform. The constructors throw exactly when there are fewer than two points or all are equal. The indexer chosen automatically finds the right cell whatever the points and the transform. The grid indexer returns the rows of the four corners of the cell around the point and throws when one of these is not in the table.", "quantifier": "all vectors of points, all arguments, all increasing transforms, all choices of transform, all tables in any order of rows and with repeated rows", "why_tests_cant": "the cell depends on the order and the spacing of all points; tests use a few tables and arguments", "anchors": ["projects/math/public/SIREN/math/Interpolation.h:RegularIndexer1D", "projects/math/public/SIREN/math/Interpolation.h:IrregularIndexer1D", "projects/math/public/SIREN/math/Interpolation.h:TransformIndexer1D", "projects/math/public/SIREN/math/Interpolation.h:SelectIndexer1D", "projects/math/public/SIREN/math/Interpolation.h:GridIndexer2D"]}
{"id": "C125", "title": "Transforms", "statement": "Each transform of an interpolation table is strictly monotone and continuous on its domain, takes the domain onto the line, and is undone by its inverse on both sides; the symmetric logarithm leaves numbers below its threshold alone and keeps signs. The constructors throw exactly for a threshold or a range of zero and for data of zeros only, and the threshold taken from data is the smallest magnitude other than zero. A transform read from an archive is the one saved. Transforms compare equal only if they are the same function, and the order is a strict total order of transforms.", "quantifier": "all transforms the constructors return, all numbers in the domain, all data, all pairs and triples of transforms", "why_tests_cant": "the two branches of the symmetric logarithm have to agree for every threshold and every number near it; tests draw random numbers", "anchors": ["projects/math/public/SIREN/math/Interpolation.h:Transform", "projects/math/public/SIREN/math/Interpolation.h:IdentityTransform", "projects/math/public/SIREN/math/Interpolation.h:LogTransform", "projects/math/public/SIREN/math/Interpolation.h:SymLogTransform", "projects/math/public/SIREN/math/Interpolation.h:RangeTransform"]}
{"id": "C126", "title": "Interpolation operators and choice of space", "statement": "The linear and bilinear operators pass through the values at the ends or corners of a cell, stay between them inside the cell, and reproduce every affine or bilinear function. The dropping ones are zero in a cell where one end, or both corners of a side, are zero, and the same elsewhere. For a table that is not empty the automatic choice of space returns, for each coordinate, no transform or a symmetric logarithm that has every number of the table other than zero in its logarithmic part; if one of the four choices reproduces every inner point from its neighbours then the choice returned does, and for points on a straight line it is the one without transforms.", "quantifier": "all cells with different abscissae, all values, all points, all tables that are not empty, both operators", "why_tests_cant": "the choice depends on every point of the table; the choice has no test, and the operators are compared with a formula on random numbers", "anchors": ["projects/math/public/SIREN/math/Interpolation.h:LinearInterpolationOperator", "projects/math/public/SIREN/math/Interpolation.h:DropLinearInterpolationOperator", "projects/math/public/SIREN/math/Interpolation.h:BiLinearInterpolationOperator", "projects/math/public/SIREN/math/Interpolation.h:DropBiLinearInterpolationOperator", "projects/math/public/SIREN/math/Interpolation.h:SelectInterpolationSpace1D"]}
{"id": "C127", "title": "Upscattering events implemented in Python conserve four-momentum and are sampled with the density they are weighted with", "statement": "The two secondaries of a generated upscattering event conserve energy and momentum with the target at rest, are on the mass shells provided, have positive energies and transfer a Q2 between the limits provided; sampling never returns momenta that are not numbers; the cross sections of a record are those of its own target and of the Q2 its secondaries transfer; and the distribution the sampler converges to is the reported density.", "quantifier": "all cross sections, limits, masses and helicities provided by the subclass, all primaries with momentum not zero, all random streams in [0, 1], all test functions; exact arithmetic", "why_tests_cant": "conservation and density are statements about every event and about integrals over all events", "anchors": ["projects/interactions/private/DarkNewsCrossSection.cxx:SampleFinalState", "projects/interactions/private/DarkNewsCrossSection.cxx:TotalCrossSection", "projects/interactions/private/DarkNewsCrossSection.cxx:DifferentialCrossSection", "projects/interactions/private/DarkNewsCrossSection.cxx:FinalStateProbability"]}
{"id": "C128", "title": "Dipole upscattering from tables: limits of y, final states and their density", "statement": "Above the threshold the energy fractions y the cross section allows are exactly those kinematics allows; the lepton and the recoil of a generated event conserve energy and momentum with the target at rest, are on their mass shells, which are recorded, and the recorded y is possible and is the fraction of energy the lepton does not get; the helicity is that of the channel; outside of thresholds, tables and limits the cross section is zero and below the threshold sampling reports a failure; sampling never returns momenta that are not numbers; the cross section of a record is that of the y of its own secondaries; and the distribution the sampler converges to is the reported density.", "quantifier": "all energies above threshold, lepton and target masses, all tables, configurations, massless primaries with momentum not zero, all random streams, all test functions; exact arithmetic", "why_tests_cant": "the limits of y are roots of a polynomial for every energy and mass; conservation and density are statements about every event and about integrals over all events", "anchors": ["projects/interactions/private/HNLDipoleFromTable.cxx:DipoleyMin", "projects/interactions/private/HNLDipoleFromTable.cxx:DipoleyMax", "projects/interactions/private/HNLDipoleFromTable.cxx:DifferentialCrossSection", "projects/interactions/private/HNLDipoleFromTable.cxx:SampleFinalState"]}
{"id": "C129", "title": "Semileptonic decays of charmed mesons: final states and their density", "statement": "For every listed semileptonic final state of a charmed meson with its nominal mass, a sampled event consists of hadron, charged lepton and massless neutrino on their mass shells whose four-momenta add up to that of the meson, the mass of the hadron is one of the listed components, and the probability the class reports for (hadron mass, squared mass of lepton and neutrino) is the density of the sampled events; a final state of one hadronic system carries the four-momentum of the meson and has probability one; records without secondaries are refused. The class for D0 and D+ does the same as the general one for the final states it lists.", "quantifier": "all listed final states, all momenta of the meson, all random streams and all numbers of passes of the acceptance loops, all test functions; exact arithmetic, exact integral of the normalisation", "why_tests_cant": "the density of an acceptance loop of unbounded length with a three-body phase space and a matrix element averaged over angles is a statement about integrals over all events", "anchors": ["projects/interactions/private/CharmMesonDecay.cxx:SampleFinalState", "projects/interactions/private/CharmMesonDecay.cxx:FinalStateProbability", "projects/interactions/private/CharmMesonDecay3Body.cxx:SampleFinalState", "projects/interactions/private/CharmMesonDecay3Body.cxx:FinalStateProbability", "projects/interactions/public/SIREN/interactions/CharmDecayKinematics.h:SampledQ2Density"]}
{"id": "C130", "title": "Cached normalisation of charm decays does not change results", "statement": "The probability a charm decay reports for a record does not depend on which records it was asked about before.", "quantifier": "all histories of calls, all records", "why_tests_cant": "the cache keys are rounded masses, and whether two keys collide depends on every pair of calls in a history", "anchors": ["projects/interactions/public/SIREN/interactions/CharmDecayKinematics.h:SampledQ2Normalization", "projects/interactions/private/CharmMesonDecay.cxx:FinalStateProbability"]}
{"id": "C131", "title": "Intersections of lines with triangle meshes", "statement": "The intersections of a line with a triangle mesh are reported in order and are exactly the points where the line crosses a triangle it is not parallel to, up to the distance at which hits are merged; a hit enters exactly if the line runs against the normal of the triangle. The bounding box is the smallest around the mesh. A mesh ValidateClosed accepts is one whose triangles share every edge in pairs, a line crosses it an even number of times, and if its triangles are oriented alike it enters it as often as it leaves it.", "quantifier": "all meshes up to 65535 triangles, all lines, all orders of nth_element and sort; exact arithmetic except for the conversion of bounds to float", "why_tests_cant": "whether the bounding tree cuts off a hit depends on every mesh and line, and the parity of crossings is a property of all closed meshes of any size", "anchors": ["projects/geometry/private/GeometryMesh.cxx:ComputeIntersections", "projects/geometry/private/GeometryMesh.cxx:BuildBVH", "projects/geometry/private/GeometryMesh.cxx:ValidateClosed", "projects/geometry/private/GeometryMesh.cxx:GetBoundingBox", "projects/geometry/private/GeometryMesh.cxx:WoopIntersect"]}
{"id": "C132", "title": "Intersections of lines with tori", "statement": "The intersections of a line with a torus are reported in order, alternately entering and leaving, and describe exactly the part of the line in the torus; their positions are the points of the line at their distances, and there are never more than the buffer holds. The bounding box contains the torus.", "quantifier": "all tori with a tube thinner than the ring, hollow or not, all lines with a unit direction, all orders std::sort may leave ties in; exact arithmetic", "why_tests_cant": "the crossings are the real roots of a quartic found by Ferrari's method with several tolerances; whether one is lost depends on all coefficients", "anchors": ["projects/geometry/private/Torus.cxx:ComputeIntersections", "projects/geometry/private/Torus.cxx:SolveQuartic", "projects/geometry/private/Torus.cxx:SolveDepressedCubic", "projects/geometry/private/Torus.cxx:GetBoundingBox"]}
{"id": "C133", "title": "Energy loss of D mesons closes", "statement": "For a D meson above its mass, the generated inelasticity is at least one in a thousand and leaves the D meson at least its mass; it is the first of at most a thousand trials that meets this, and the attempt fails recoverably if none does or if the energy is not above the mass. The D meson and the hadrons fly along the primary, the D meson is on its mass shell with the share 1 - z of the energy, the hadrons are massless with the rest, and the D meson always loses energy. The probability the code assigns to a final state is positive exactly for the inelasticities the generator can produce, integrates to one over them, and is the density of the law of an accepted trial. The total cross section is positive and rises with energy above one GeV.", "quantifier": "every momentum and mass of the primary, every inelasticity, every sequence of uniform random numbers", "why_tests_cant": "Closure is a statement about the law of the samples for every energy; a test compares finite histograms at a few energies, and the support differs only by a boundary.", "anchors": ["projects/interactions/private/DMesonELoss.cxx: DMesonELoss::SampleFinalState, DifferentialCrossSection, FinalStateProbability, TotalCrossSection", "projects/interactions/public/SIREN/interactions/DMesonELoss.h: z_min_, z_max_"]}
{"id": "C134", "title": "Intersections of lines with revolved polygons", "statement": "The intersections of a line with a solid made by revolving a closed polygon about the axis are reported in order of distance; each is a point where the line passes through the surface swept by an edge, at the reported position, and every such point is reported; an intersection enters if the line moves against the outward normal of the polygon; entering and leaving alternate, and at every point of the line the crossings so far tell how often the polygon winds around it. The bounding box contains the surface.", "quantifier": "all polygons with any number of vertices, convex or not, in either orientation, all lines, all orders std::sort may leave ties in; exact arithmetic, no azimuthal cut", "why_tests_cant": "which edge reports a shared vertex, which way a crossing goes and whether the crossings pair up depends on the whole polygon and the line; a test tries a few of each", "anchors": ["projects/geometry/private/GenericPolycone.cxx:ComputeIntersections", "projects/geometry/private/GenericPolycone.cxx:ComputeWinding", "projects/geometry/private/GenericPolycone.cxx:GetBoundingBox"]}
{"id": "C135", "title": "Pickled objects survive as text", "statement": "The state of a pickled object is one text of lower case hexadecimal digits, two per byte, that spells the bytes of the object; different bytes have different texts; reading such a text, in either case of letters, gives exactly these bytes, so an object that is saved and loaded is what the archive reads of what it wrote. A state that is not a single text, a text with an odd number of characters or with characters other than digits, and bytes left over after the object are refused with an exception.", "quantifier": "all sequences of bytes of any length, all texts, all archives", "why_tests_cant": "a byte that is formatted or cast wrongly, such as one below 16 or above 127, corrupts only objects that contain it; a test tries a few objects", "anchors": ["projects/serialization/public/SIREN/serialization/ByteString.h:pickle_save", "projects/serialization/public/SIREN/serialization/ByteString.h:pickle_load", "projects/serialization/public/SIREN/serialization/ByteString.h:bytes_to_hex_string", "projects/serialization/public/SIREN/serialization/ByteString.h:hex_string_to_bytes"]}
{"id": "C136", "title": "Polyhedra keep their planes, caps and bounds", "statement": "A polyhedron is made exactly of 3 to 64 sides, a positive angle and planes in ascending or descending order whose inner radii are not negative and not above the outer ones; it keeps the planes in ascending order, and the same planes listed the other way make the same solid. Every line through a point of the solid is examined rather than skipped as too far away. A point is on the cap at a plane exactly if it is inside all sides of the outer polygon, at the distance of the outer radius from the axis, and not inside all sides of the inner one. A crossing reported for a side is on the plane of that side between its corners and is marked as entering exactly if the line goes inward there. The bounding box contains the solid.", "quantifier": "all numbers of sides and planes, all radii, angles, lines and points; exact arithmetic", "why_tests_cant": "whether a line is skipped wrongly or a point near a side is taken to be on a cap depends on the number of sides, the start angle and the line; a test tries a few of each", "anchors": ["projects/geometry/private/Polyhedra.cxx:validate", "projects/geometry/private/Polyhedra.cxx:precompute_trig", "projects/geometry/private/Polyhedra.cxx:ComputeIntersections", "projects/geometry/private/Polyhedra.cxx:PointInConvexPolygon", "projects/geometry/private/Polyhedra.cxx:PointInAnnularPolygon", "projects/geometry/private/Polyhedra.cxx:GetBoundingBox"]}
{"id": "C137", "title": "Named and inline placements mean the same", "statement": "In a GDML file a volume or an operand of a boolean solid may be placed by a position and a rotation given in place or by references to named ones. A reference to a position or rotation from a define section places it exactly as the same numbers in the same unit would in place. The order of the elements and elements with other tags do not matter; with none of them the placement is at the origin and not turned; a reference to a name nothing defines is an error. The planes of a polycone or polyhedron are accepted exactly if there are at least two and their heights only increase or only decrease.", "quantifier": "all define sections, all texts of numbers and units, all lists of elements and planes; exact arithmetic", "why_tests_cant": "a detector file may name its positions or not, and a test compares a few files only; a dropped unit or a reference that silently means the origin would move a volume without any error", "anchors": ["projects/detector/private/gdml/GDMLReadUtils.cxx:ReadPlacement", "projects/detector/private/gdml/GDMLReadUtils.cxx:ReadPositionXYZ", "projects/detector/private/gdml/GDMLReadUtils.cxx:ReadRotationXYZ", "projects/detector/private/gdml/GDMLReadUtils.cxx:ValidateZPlaneMonotonicity"]}
