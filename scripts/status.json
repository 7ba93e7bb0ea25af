{
 "C01": {
  "status": "proved",
  "note": "Heap model of add_entry; unbounded histories below 2^32 calls. Aliasing counterexample shows the freshness requirement is needed."
 },
 "C02": {
  "status": "proved",
  "note": "depth determined for every entry of every validated tree."
 },
 "C03": {
  "status": "proved",
  "note": "Field-level round trip; cereal's byte format and shared_ptr tracking are trusted. Legacy archives with a null entry are undefined behaviour (C03_legacy_null_entry_fails)."
 },
 "C04": {
  "status": "proved",
  "note": "All interleavings of any number of threads calling GenerateID in a fresh process, in a process whose set id is settled, and in a forked child whose first call completes before others start. Forked children whose threads make their first calls concurrently can issue duplicates: C04_fork_then_threads_fails. Sequentially consistent interleaving is assumed."
 },
 "C05": {
  "status": "proved",
  "note": "operator< is a strict total order agreeing with operator== for ids, signatures and records (values without NaN)."
 },
 "C06": {
  "status": "proved",
  "note": "For all histories of calls that supply values of one particle; direction of a particle at rest is NaN (C06_rest_direction_fails)."
 },
 "C07": {
  "status": "partial",
  "note": "Initial position, vertex and length are proved for all histories; the derived point of closest approach has a sign error in one branch and two branches read a stale direction (the _fails theorems), the others are proved."
 },
 "C08": {
  "status": "proved",
  "note": "For all histories of calls, all signatures and all stale contents."
 },
 "C09": {
  "status": "proved",
  "note": "For all parents, indices and histories of SetLength/SetInteractionTime; without a length Finalize reads uninitialised memory (C09_finalize_without_length_fails)."
 },
 "C10": {
  "status": "proved",
  "note": "A draw of exactly zero is excluded (C10_zero_draw_fails)."
 },
 "C100": {
  "status": "proved",
  "note": ""
 },
 "C101": {
  "status": "proved",
  "note": ""
 },
 "C102": {
  "status": "proved",
  "note": ""
 },
 "C103": {
  "status": "partial",
  "note": "Proved: support, integral, normalization in energy and cosine, the law of the drawn point and the law the sampler leaves unchanged, cosine bounds. The sampled law is not the reported density, the azimuth factor is missing, failed bound changes are kept and the physical normalization is stale: proved as the _fails theorems."
 },
 "C104": {
  "status": "partial",
  "note": "Proved: bilinear interpolation, values, bounds, order of rows and previous contents for complete grids on linear axes, and the intended formula on logarithmic axes. Not true of the code: logarithmic axes are undefined, incomplete grids are accepted, old values stay for incomplete grids, zeros on logarithmic axes; proved as the _fails theorems."
 },
 "C105": {
  "status": "proved",
  "note": "Targets without an azimuth cut; for targets with one the property fails (C105_wedge_fails). The reported density carries the tolerance of the crossings, 16e-9 over the volume."
 },
 "C106": {
  "status": "partial",
  "note": "Proved: same path for sampling and density, law of the vertex, density for targets without a hole, zero on the line outside of the path, bounds. Not true of the code: targets with a hole, vertices whose line misses the target, comparison; proved as the _fails theorems."
 },
 "C107": {
  "status": "proved",
  "note": "Events with several roots and injectors of no events: proved as the _fails theorems."
 },
 "C108": {
  "status": "proved",
  "note": "For weighters whose initialization completed; otherwise C108_incomplete_fails."
 },
 "C109": {
  "status": "proved",
  "note": "cereal is trusted to restore the members."
 },
 "C11": {
  "status": "proved",
  "note": "operator bool disagrees with GenerateEvent (C11_more_events_fails)."
 },
 "C110": {
  "status": "proved",
  "note": "For planes that do not meet inside the outer barrel; otherwise C110_planes_fails."
 },
 "C111": {
  "status": "proved",
  "note": "Convex polygons, sections from bottom to top, clear lines; concave polygons, sections from top to bottom and horizontal lines in a section plane are shown to be reported wrongly."
 },
 "C112": {
  "status": "proved",
  "note": "All files in which no loop assigns its own variable, with sections plus nesting at most 64; the two exceptions are shown to be real."
 },
 "C113": {
  "status": "proved",
  "note": "All units of GDML; expressions are parameters (C31)."
 },
 "C114": {
  "status": "proved",
  "note": "All histories of definitions; three cases outside the wording are shown to fail."
 },
 "C115": {
  "status": "proved",
  "note": "All files without repeated names; the case of repeated names is shown to fail."
 },
 "C116": {
  "status": "proved",
  "note": "The merge itself; the two ways in which the meaning of the included file is lost are shown."
 },
 "C117": {
  "status": "proved",
  "note": "Matrices of orders about rotating axes are excluded: the code is wrong there."
 },
 "C118": {
  "status": "partial",
  "note": "Only for shapes symmetric under the rotation of the detector; otherwise the code violates it."
 },
 "C119": {
  "status": "proved",
  "note": "Deflections of vectors that are not of length one and comparisons of vectors with stored spherical coordinates are excluded: the code is wrong there."
 },
 "C12": {
  "status": "proved",
  "note": ""
 },
 "C120": {
  "status": "proved",
  "note": "Bracketed names in nested loops and powers of negative values come out wrong: see the theorems ending in _fails."
 },
 "C121": {
  "status": "proved",
  "note": "One plane at either end and overlapping rings at steps are assumed; without this it is false: see the theorems ending in _fails."
 },
 "C122": {
  "status": "proved",
  "note": "Values must lie in the box of the tree when added and be held when removed: see the theorems ending in _fails."
 },
 "C123": {
  "status": "partial",
  "note": "Proved for points strictly inside triangles and coordinates that are not transformed; at the points of the table, with transformed coordinates and for the second operator it is false: see the theorems ending in _fails."
 },
 "C124": {
  "status": "partial",
  "note": "Proved for ascending points, for arguments of the regular indexer within 2^31 steps, and for the automatic choice on evenly spaced points; otherwise it is false: see the theorems ending in _fails."
 },
 "C125": {
  "status": "partial",
  "note": "All but equality and order are proved in full; those are proved within one kind of transform and false across kinds or members: see the theorems ending in _fails."
 },
 "C126": {
  "status": "proved",
  "note": ""
 },
 "C127": {
  "status": "partial",
  "note": "proved: conservation, mass shells, limits, no result that is not a number if the largest Q2 provided leaves the first secondary more than its mass; false of the code: target and Q2 of a record, density, initial point"
 },
 "C128": {
  "status": "partial",
  "note": "proved: limits for 2s at least one, conservation, mass shells, helicity, zero outside, weight equal to the cross section; false of the code: limits for light targets, y of a record, events at the upper limit, density"
 },
 "C129": {
  "status": "proved",
  "note": "for mesons with the nominal mass and an exact normalisation; C129_mass_fails shows what happens for other masses"
 },
 "C13": {
  "status": "proved",
  "note": "Densities, channel and interaction probabilities are parameters (see C10, C14, C15); last divisions with explicit infinity and NaN. Disagreements recorded: ungenerated events, incomplete initialization."
 },
 "C130": {
  "status": "partial",
  "note": "proved for histories without colliding keys and for all records of sampled events; false of the code for masses closer than the resolution of the key"
 },
 "C131": {
  "status": "partial",
  "note": "soundness and order for all meshes and lines; completeness, parity and balance for coordinates of type float and (parity, balance) lines that meet no edge; false of the code for other coordinates, touching lines and validated meshes with mixed senses"
 },
 "C132": {
  "status": "partial",
  "note": "lines that are not tangent and where no tolerance of the solver, of merging or of the wedge matters, with and without an azimuthal cut; box for cuts that start at a non-negative azimuth; false of the code for chords shorter than a millionth and for the box of a torus cut at a negative azimuth"
 },
 "C133": {
  "status": "proved",
  "note": "Romberg integration is the exact integral; doubles are reals; InjectionFailure is an outcome"
 },
 "C134": {
  "status": "partial",
  "note": "lines that are not horizontal, keep off the axis and the circles of the vertices and where no tolerance matters; entering and leaving alternate for simple polygons, and for all polygons the crossings before a point give the winding number around it; false of the code for lines through the rim of a horizontal edge and for lines just beside a tip"
 },
 "C135": {
  "status": "partial",
  "note": "everything holds except that texts with characters other than digits are refused: damaged text can be read without an error"
 },
 "C136": {
  "status": "partial",
  "note": "early return for lines that are horizontal or steeper than 1e-9, false of the code for lines in between; false of the code for solids that begin with a step; caps and box for solids without an azimuthal cut, caps for points farther than the tolerance from the lines through the sides; same solid in either order of the planes unless all are at one height; every side face by itself, points in it for radii that are zero or above the tolerance and points farther than the tolerance from its edges; all crossings together only for vertical lines through upright solids and solids with one step"
 },
 "C137": {
  "status": "proved",
  "note": "definitions outside loops"
 },
 "C14": {
  "status": "proved",
  "note": "From the depths on; depths themselves are C21/C22. The drop at 1e-6 is C14_growth_fails."
 },
 "C15": {
  "status": "proved",
  "note": ""
 },
 "C16": {
  "status": "proved",
  "note": "load and retyping do not obey the registry's rule (C16_load_fails, C16_retype_fails)."
 },
 "C17": {
  "status": "proved",
  "note": "The setters are weaker (C17_set_duplicates_fails, C17_set_physical_fails)."
 },
 "C18": {
  "status": "proved",
  "note": "For every layout with an enclosing sector and every sorted permutation of its hits, forward and reverse. Without an enclosing sector, or with a grazing (zero-length) chord, the code gives up or throws (two _fails theorems)."
 },
 "C19": {
  "status": "proved",
  "note": "Walk-based queries (boundary points included) and the direct queries through the bounding-volume hierarchy; both find the same sector and density (C19_direct_agrees, C19_direct_density)."
 },
 "C20": {
  "status": "proved",
  "note": "Column depth is the integral of the owning sector's density; symmetric, additive, nonnegative. Densities' own Integral is an assumption (Density.Lawful) discharged per distribution in C52."
 },
 "C21": {
  "status": "proved",
  "note": "Inversion, existence, behaviour beyond the available depth, and the ToPoint variant."
 },
 "C22": {
  "status": "partial",
  "note": "The depth formula is proved. The inverse is proved without decays; with decays and several sectors, for short distances, and for negative requests with decays only, the code violates it (_fails theorems)."
 },
 "C23": {
  "status": "proved",
  "note": "Every sector set, hierarchy and ray; boxes and spherical shells are shown to meet the soundness condition."
 },
 "C24": {
  "status": "proved",
  "note": "Every sector set, hierarchy and point meeting the stated conditions; boxes are shown to meet them. The three _fails theorems show why the conditions are needed."
 },
 "C25": {
  "status": "proved",
  "note": "Every sector is in exactly one of the index lists or exactly one leaf, and every node's box encloses its leaves."
 },
 "C26": {
  "status": "proved",
  "note": "Strict weak order and the order of every sorted permutation."
 },
 "C27": {
  "status": "proved",
  "note": "Lookup and uniqueness over all histories, spatial queries reflect the current sectors, rejected AddSector changes nothing; failing SetSectors is excluded (counterexample proved)."
 },
 "C28": {
  "status": "proved",
  "note": "Conversions, and covariance of all modelled queries; the two ToPoint overloads are excluded (counterexample proved)."
 },
 "C29": {
  "status": "proved",
  "note": "The recursion is modelled with fuel; every fuel above the number of volumes gives the result, so the import terminates. Rotations of placed volumes are assumed to be unit quaternions, which is what the parser builds. Reading the XML into volumes is not modelled."
 },
 "C30": {
  "status": "proved",
  "note": "Atomic numbers and masses up to 10000 in absolute value; larger ones can overflow the integer code, which is undefined. The reading of the XML and the resolution of repeated names are not part of this property."
 },
 "C31": {
  "status": "proved",
  "note": "C31_value: for every string spelling words that follow the grammar. strtod is a parameter with stated properties. Matrices are not modelled. Violations shown: C31_dot_fails (endless loop), C31_number_word_fails, C31_malformed_fails."
 },
 "C32": {
  "status": "proved",
  "note": "Reworded: no normalization; stale targets recorded as a disagreement. Doubles are a linearly ordered field, none for NaN and infinity."
 },
 "C33": {
  "status": "proved",
  "note": "Decoding of all nuclear codes and rejection of all codes in the middle range; the missing shape test is proved as C33_shape_fails."
 },
 "C34": {
  "status": "proved",
  "note": "Histories of any length; finite coordinates. Failures for clipping outside the bounds, negative rays and equal points are proved."
 },
 "C35": {
  "status": "proved",
  "note": "Column depths: both bounds and exactness; interaction depths: upper bound. Disagreements of the two tests within 1 mm are proved."
 },
 "C36": {
  "status": "proved",
  "note": "Every nesting depth and every distance sort, when the pieces' surfaces cross the line at different distances. When they touch, an unstable sort may put a zero-length piece in or out (C36_touching_pieces_fails)."
 },
 "C37": {
  "status": "proved",
  "note": "For every valid box, origin and direction (zero components included). C37_invalid_box_fails shows validity is needed."
 },
 "C38": {
  "status": "proved",
  "note": "Containment, kind (infinite/invalid/valid) and tightness with respect to the eight corners."
 },
 "C39": {
  "status": "proved",
  "note": "Every box, position and non-zero direction; distances in (0,1e-9) are reported as 0, which the theorem states."
 },
 "C40": {
  "status": "proved",
  "note": "Shell without cuts exact for every ray (radii different); with phi/theta cuts the hits are the conjunction of the three parts' hits (C40_cuts). Equal radii fail (C40_empty_shell_fails)."
 },
 "C41": {
  "status": "proved",
  "note": "Positions and directions, both ways, isometry, lines go to lines, identity shortcut."
 },
 "C42": {
  "status": "proved",
  "note": "IsInside agrees with the solid for points farther than the tolerance from every surface, in every direction."
 },
 "C43": {
  "status": "partial",
  "note": "All proved except rotation_between for a vector and its opposite along the x axis, where the code returns a non-rotation (C43_rotation_between_opposite_x_fails)."
 },
 "C44": {
  "status": "proved",
  "note": "World boxes of arbitrarily nested placed boolean shapes contain the shape; tight for the three operations. Operands with a partly infinite box and a rotated placement are excluded (C44_half_infinite_fails)."
 },
 "C45": {
  "status": "proved",
  "note": "Equality is equality of all compared data; < is a strict order whose incomparability is equality. Numbers are not NaN."
 },
 "C46": {
  "status": "proved",
  "note": "Sound and complete up to the 1e-9 tolerance, exact away from the edges; at an edge on a full turn it fails (C46_edge_fails)."
 },
 "C47": {
  "status": "proved",
  "note": "All degrees; exact arithmetic."
 },
 "C48": {
  "status": "proved",
  "note": "All functions on an ordered field; the accuracy claim needs the stated step limit."
 },
 "C49": {
  "status": "proved",
  "note": "Reworded to what holds; first abscissa of irregular tables, log scale, nearly equal spacing and negative values are recorded as disagreements."
 },
 "C50": {
  "status": "proved",
  "note": "Doubles as reals; sorted tables. Descending limits fail (C50_reversed_fails)."
 },
 "C51": {
  "status": "proved",
  "note": "Doubles as reals. The tolerance does not bound the error (C51_tolerance_fails)."
 },
 "C52": {
  "status": "proved",
  "note": "Constant and Cartesian-axis densities over the reals; the accuracy of the inverse on stretches of more than 2048 micrometres along the axis is not bounded because the search may stop at 101 rounds. Radial axes: only Evaluate and Derivative."
 },
 "C53": {
  "status": "proved",
  "note": ""
 },
 "C54": {
  "status": "proved",
  "note": "PowerLaw only for ranges within [0,1]; the general claim is refuted."
 },
 "C55": {
  "status": "proved",
  "note": "The density outside the range is recorded as a disagreement."
 },
 "C56": {
  "status": "proved",
  "note": "stod is a parameter."
 },
 "C57": {
  "status": "proved",
  "note": ""
 },
 "C58": {
  "status": "proved",
  "note": "Numbers are unbounded naturals (64-bit wrap-around ignored)."
 },
 "C59": {
  "status": "proved",
  "note": "Without supplied process ids; with them ids can collide (C59_supplied_fails)."
 },
 "C60": {
  "status": "proved",
  "note": "HepMC3 containers are modelled as lists."
 },
 "C61": {
  "status": "proved",
  "note": ""
 },
 "C62": {
  "status": "proved",
  "note": "For all histories that agree with one moving particle on one straight path."
 },
 "C63": {
  "status": "proved",
  "note": "All schedules of any number of threads under sequential consistency: no reads during a rebuild, sequential answers, progress."
 },
 "C64": {
  "status": "proved",
  "note": "The radiation length of single nuclei is a parameter; GetTargetRadiationFraction is proved never to return a number."
 },
 "C65": {
  "status": "proved",
  "note": "Histories of any length. SetDetectorModel and nearly collinear rays violate it (proved)."
 },
 "C66": {
  "status": "proved",
  "note": "Detectors with a sector covering the whole line, positive densities and lawful integrals (C52)."
 },
 "C67": {
  "status": "proved",
  "note": "Doubles as reals. Tolerance zero never succeeds (C67_zero_tolerance_fails)."
 },
 "C68": {
  "status": "proved",
  "note": ""
 },
 "C69": {
  "status": "proved",
  "note": "The HepMC3 library itself (file format, printed precision) is trusted."
 },
 "C70": {
  "status": "proved",
  "note": "For axes of length one that are not straight down; the code violates the property for the others (C70_cone_length_fails, C70_cone_down_fails, C70_fixed_length_fails)."
 },
 "C71": {
  "status": "proved",
  "note": "For shapes without phi or theta cuts; the code ignores the cuts (C71_wedge_fails)."
 },
 "C72": {
  "status": "proved",
  "note": "paths longer than 1e-5 m; shorter ones fail (C72_short_fails); targets or decays, not both (C22)"
 },
 "C73": {
  "status": "proved",
  "note": "the maximal distance of the range function is not applied (C73_max_distance_fails)"
 },
 "C74": {
  "status": "proved",
  "note": "every wedge and line within the stated gaps"
 },
 "C75": {
  "status": "proved",
  "note": "every tube and line within the stated gaps; clipping a rim fails (C75_rim_fails)"
 },
 "C76": {
  "status": "proved",
  "note": "every cut sphere and line within the stated gaps; touching lines fail (C76_tangent_fails, C76_equator_fails)"
 },
 "C77": {
  "status": "proved",
  "note": "every table, beam, stream; the near-axis and hadrons-only cases fail (C77_near_axis_fails, C77_hadrons_only_fails)"
 },
 "C78": {
  "status": "proved",
  "note": "uniform law of the proposal in the allowed region is taken as the law of the rejection loop"
 },
 "C79": {
  "status": "proved",
  "note": "every primary, beam and stream"
 },
 "C80": {
  "status": "partial",
  "note": "each part fails in the code and is disproved; C80_stationary_partial proves what density is sampled instead"
 },
 "C81": {
  "status": "proved",
  "note": "every set of primaries and targets; acceptance characterised"
 },
 "C82": {
  "status": "partial",
  "note": "fails in the code for each class and is disproved; the _partial theorems say what holds"
 },
 "C83": {
  "status": "proved",
  "note": "for the primaries of the object; other primaries are disagreements"
 },
 "C84": {
  "status": "partial",
  "note": "C84_hnl_fails: one decay of the anti-lepton violates lepton number; everything else is proved"
 },
 "C85": {
  "status": "proved",
  "note": "records above threshold; the _fails theorems cover records below and unlisted primaries"
 },
 "C86": {
  "status": "proved",
  "note": "moving particles and particles at rest with open decays; C86_rest_fails for a closed decay at rest"
 },
 "C87": {
  "status": "proved",
  "note": "weak bosons, dipole decays, two-body decays of heavy leptons"
 },
 "C88": {
  "status": "proved",
  "note": "primaries in motion; C88_rest_fails for a Dirac lepton at rest"
 },
 "C89": {
  "status": "partial",
  "note": "charged-lepton modes proved; violated by the mode with three neutrinos"
 },
 "C90": {
  "status": "proved",
  "note": "independent proposals, bounded ratio of likelihood and declared density"
 },
 "C91": {
  "status": "partial",
  "note": "violated by the code: declared proposal density, sign and definedness of the width; the reported width is the likelihood used"
 },
 "C92": {
  "status": "partial",
  "note": "proved for the other classes; violated by the code for directions, normalization constants, fiducial volumes, and for the order of seven classes"
 },
 "C93": {
  "status": "proved",
  "note": ""
 },
 "C94": {
  "status": "proved",
  "note": ""
 },
 "C95": {
  "status": "proved",
  "note": "the numerical integrator is a parameter"
 },
 "C96": {
  "status": "partial",
  "note": "density and range proved; sampled probabilities proved at the energies of the table only, since the code violates the rest"
 },
 "C97": {
  "status": "proved",
  "note": ""
 },
 "C98": {
  "status": "partial",
  "note": "proved for positive half widths and flat sides; the code accepts others and violates the property there"
 },
 "C99": {
  "status": "proved",
  "note": ""
 }
}
