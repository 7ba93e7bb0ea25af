{
 "claims": [
  {
   "property": "C01",
   "status": "proved",
   "theorems": [
    "Siren.Tree.C01_add_entry_forest",
    "Siren.Tree.C01_same_object_twice_fails"
   ],
   "note": "Heap model of add_entry; unbounded histories below 2^32 calls. Aliasing counterexample shows the freshness requirement is needed."
  },
  {
   "property": "C02",
   "status": "proved",
   "theorems": [
    "Siren.Tree.C02_depth_is_number_of_ancestors",
    "Siren.Tree.C02_depth_detects_cycles",
    "Siren.Tree.C02_depth_out_of_range",
    "Siren.Tree.C02_built_entries_have_depth"
   ],
   "note": "depth determined for every entry of every validated tree."
  },
  {
   "property": "C03",
   "status": "proved",
   "theorems": [
    "Siren.Tree.C03_validation_exact",
    "Siren.Tree.C03_save_load_roundtrip",
    "Siren.Tree.C03_built_trees_wellIndexed",
    "Siren.Tree.C03_legacy_load",
    "Siren.Tree.C03_legacy_roundtrip",
    "Siren.Tree.C03_unknown_version",
    "Siren.Tree.C03_corrupt_v1_rejected",
    "Siren.Tree.C03_legacy_null_entry_fails"
   ],
   "note": "Field-level round trip; cereal's byte format and shared_ptr tracking are trusted. Legacy archives with a null entry are undefined behaviour (C03_legacy_null_entry_fails)."
  },
  {
   "property": "C04",
   "status": "proved",
   "theorems": [
    "Siren.Records.C04_unique",
    "Siren.Records.C04_unique_settled",
    "Siren.Records.C04_unique_after_fork",
    "Siren.Records.C04_fork_then_threads_fails",
    "Siren.Records.C04_parent_and_child_fails"
   ],
   "note": "All interleavings of any number of threads calling GenerateID in a fresh process, in a process whose set id is settled, and in a forked child whose first call completes before others start. Forked children whose threads make their first calls concurrently can issue duplicates: C04_fork_then_threads_fails. Sequentially consistent interleaving is assumed."
  },
  {
   "property": "C05",
   "status": "proved",
   "theorems": [
    "Siren.Records.C05_particle_id",
    "Siren.Records.C05_signature",
    "Siren.Records.C05_record"
   ],
   "note": "operator< is a strict total order agreeing with operator== for ids, signatures and records (values without NaN)."
  },
  {
   "property": "C06",
   "status": "proved",
   "theorems": [
    "Siren.Records.C06_kinematics",
    "Siren.Records.C06_order_independent",
    "Siren.Records.C06_exceptions",
    "Siren.Records.C06_rest_direction_fails"
   ],
   "note": "For all histories of calls that supply values of one particle; direction of a particle at rest is NaN (C06_rest_direction_fails)."
  },
  {
   "property": "C07",
   "status": "partial",
   "theorems": [
    "Siren.Records.C07_positions",
    "Siren.Records.C07_exceptions",
    "Siren.Records.C07_order_independent",
    "Siren.Records.C07_closest_approach_partial",
    "Siren.Records.C07_poca_sign_fails",
    "Siren.Records.C07_stale_direction_fails"
   ],
   "note": "Initial position, vertex and length are proved for all histories; the derived point of closest approach has a sign error in one branch and two branches read a stale direction (the _fails theorems), the others are proved."
  },
  {
   "property": "C08",
   "status": "proved",
   "theorems": [
    "Siren.Records.C08_finalize",
    "Siren.Records.C08_failure"
   ],
   "note": "For all histories of calls, all signatures and all stale contents."
  },
  {
   "property": "C09",
   "status": "proved",
   "theorems": [
    "Siren.Records.C09_range",
    "Siren.Records.C09_finalize",
    "Siren.Records.C09_length_required",
    "Siren.Records.C09_finalize_without_length_fails"
   ],
   "note": "For all parents, indices and histories of SetLength/SetInteractionTime; without a length Finalize reads uninitialised memory (C09_finalize_without_length_fails)."
  },
  {
   "property": "C10",
   "status": "proved",
   "theorems": [
    "Siren.Injection.C10_inverse_cdf",
    "Siren.Injection.C10_no_rate",
    "Siren.Injection.C10_probability",
    "Siren.Injection.C10_zero_draw_fails"
   ],
   "note": "A draw of exactly zero is excluded (C10_zero_draw_fails)."
  },
  {
   "property": "C11",
   "status": "proved",
   "theorems": [
    "Siren.Injection.C11_history",
    "Siren.Injection.C11_new_injector",
    "Siren.Injection.C11_bounds",
    "Siren.Injection.C11_failed_attempt",
    "Siren.Injection.C11_more_events_fails"
   ],
   "note": "operator bool disagrees with GenerateEvent (C11_more_events_fails)."
  },
  {
   "property": "C12",
   "status": "proved",
   "theorems": [
    "Siren.Injection.C12_event"
   ],
   "note": ""
  },
  {
   "property": "C13",
   "status": "proved",
   "theorems": [
    "Siren.Injection.C13_event_weight",
    "Siren.Injection.C13_impossible",
    "Siren.Injection.C13_no_process",
    "Siren.Injection.C13_not_generated_fails",
    "Siren.Injection.C13_incomplete_fails",
    "Siren.Injection.C13_infinite_weight_fails"
   ],
   "note": "Densities, channel and interaction probabilities are parameters (see C10, C14, C15); last divisions with explicit infinity and NaN. Disagreements recorded: ungenerated events, incomplete initialization."
  },
  {
   "property": "C14",
   "status": "proved",
   "theorems": [
    "Siren.Injection.C14_probabilities",
    "Siren.Injection.C14_growth",
    "Siren.Injection.C14_growth_fails",
    "Siren.Injection.C14_position"
   ],
   "note": "From the depths on; depths themselves are C21/C22. The drop at 1e-6 is C14_growth_fails."
  },
  {
   "property": "C15",
   "status": "proved",
   "theorems": [
    "Siren.Injection.C15_agrees_with_injector",
    "Siren.Injection.C15_sum_to_one",
    "Siren.Injection.C15_no_rate"
   ],
   "note": ""
  },
  {
   "property": "C16",
   "status": "proved",
   "theorems": [
    "Siren.Injection.C16_registry",
    "Siren.Injection.C16_set_replaces",
    "Siren.Injection.C16_no_vertex",
    "Siren.Injection.C16_load_fails",
    "Siren.Injection.C16_retype_fails"
   ],
   "note": "load and retyping do not obey the registry's rule (C16_load_fails, C16_retype_fails)."
  },
  {
   "property": "C17",
   "status": "proved",
   "theorems": [
    "Siren.Injection.C17_add_history",
    "Siren.Injection.C17_add_physical",
    "Siren.Injection.C17_add_injection",
    "Siren.Injection.C17_set_history",
    "Siren.Injection.C17_set",
    "Siren.Injection.C17_set_duplicates_fails",
    "Siren.Injection.C17_set_physical_fails"
   ],
   "note": "The setters are weaker (C17_set_duplicates_fails, C17_set_physical_fails)."
  },
  {
   "property": "C18",
   "status": "proved",
   "theorems": [
    "Siren.Detector.C18_walk_attribution",
    "Siren.Detector.C18_forward_strict",
    "Siren.Detector.C18_owner_unique",
    "Siren.Detector.C18_covers_every_point",
    "Siren.Detector.C18_gap_without_enclosing_sector_fails",
    "Siren.Detector.C18_grazing_chord_fails"
   ],
   "note": "For every layout with an enclosing sector and every sorted permutation of its hits, forward and reverse. Without an enclosing sector, or with a grazing (zero-length) chord, the code gives up or throws (two _fails theorems)."
  },
  {
   "property": "C19",
   "status": "proved",
   "theorems": [
    "Siren.Detector.C19_direct_agrees",
    "Siren.Detector.C19_direct_density",
    "Siren.Detector.C19_containing_sector",
    "Siren.Detector.C19_containing_sector_everywhere",
    "Siren.Detector.C19_mass_density",
    "Siren.Detector.C19_particle_density",
    "Siren.Detector.C19_interaction_density"
   ],
   "note": "Walk-based queries (boundary points included) and the direct queries through the bounding-volume hierarchy; both find the same sector and density (C19_direct_agrees, C19_direct_density)."
  },
  {
   "property": "C20",
   "status": "proved",
   "theorems": [
    "Siren.Detector.C20_column_depth_is_integral",
    "Siren.Detector.C20_symmetric",
    "Siren.Detector.C20_additive",
    "Siren.Detector.C20_nonneg",
    "Siren.Detector.C20_density_exists"
   ],
   "note": "Column depth is the integral of the owning sector's density; symmetric, additive, nonnegative. Densities' own Integral is an assumption (Density.Lawful) discharged per distribution in C52."
  },
  {
   "property": "C21",
   "status": "proved",
   "theorems": [
    "Siren.Detector.C21_inverts",
    "Siren.Detector.C21_answers",
    "Siren.Detector.C21_beyond",
    "Siren.Detector.C21_to_point"
   ],
   "note": "Inversion, existence, behaviour beyond the available depth, and the ToPoint variant."
  },
  {
   "property": "C22",
   "status": "partial",
   "theorems": [
    "Siren.Detector.C22_interaction_depth",
    "Siren.Detector.C22_inverts_partial",
    "Siren.Detector.C22_decay_and_two_sectors_fails",
    "Siren.Detector.C22_negative_request_only_decays_fails",
    "Siren.Detector.C22_short_distance_fails"
   ],
   "note": "The depth formula is proved. The inverse is proved without decays; with decays and several sectors, for short distances, and for negative requests with decays only, the code violates it (_fails theorems)."
  },
  {
   "property": "C23",
   "status": "proved",
   "theorems": [
    "Siren.Detector.BVH.C23_same_hits",
    "Siren.Detector.BVH.C23_get_intersections",
    "Siren.Detector.BVH.C23_box_sound",
    "Siren.Detector.BVH.C23_shell_sound"
   ],
   "note": "Every sector set, hierarchy and ray; boxes and spherical shells are shown to meet the soundness condition."
  },
  {
   "property": "C24",
   "status": "proved",
   "theorems": [
    "Siren.Detector.BVH.C24_containing_sector",
    "Siren.Detector.BVH.C24_bounded_sound",
    "Siren.Detector.BVH.C24_box_sound",
    "Siren.Detector.BVH.C24_tolerance_fails",
    "Siren.Detector.BVH.C24_int_min_fails",
    "Siren.Detector.BVH.C24_unbounded_fails"
   ],
   "note": "Every sector set, hierarchy and point meeting the stated conditions; boxes are shown to meet them. The three _fails theorems show why the conditions are needed."
  },
  {
   "property": "C25",
   "status": "proved",
   "theorems": [
    "Siren.Detector.BVH.C25_rebuild"
   ],
   "note": "Every sector is in exactly one of the index lists or exactly one leaf, and every node's box encloses its leaves."
  },
  {
   "property": "C26",
   "status": "proved",
   "theorems": [
    "Siren.Detector.C26_comparator_strict_weak_order",
    "Siren.Detector.C26_sorted_order",
    "Siren.Detector.C26_sort_exists"
   ],
   "note": "Strict weak order and the order of every sorted permutation."
  },
  {
   "property": "C27",
   "status": "proved",
   "theorems": [
    "Siren.Detector.Registry.C27_lookup",
    "Siren.Detector.Registry.C27_changes",
    "Siren.Detector.Registry.C27_locate",
    "Siren.Detector.Registry.C27_crossings",
    "Siren.Detector.Registry.C27_failed_set_fails"
   ],
   "note": "Lookup and uniqueness over all histories, spatial queries reflect the current sectors, rejected AddSector changes nothing; failing SetSectors is excluded (counterexample proved)."
  },
  {
   "property": "C28",
   "status": "proved",
   "theorems": [
    "Siren.Detector.Frame.C28_inverse",
    "Siren.Detector.Frame.C28_isometry",
    "Siren.Detector.Frame.C28_line",
    "Siren.Detector.Frame.C28_nearly_unit",
    "Siren.Detector.Frame.C28_depths",
    "Siren.Detector.Frame.C28_points",
    "Siren.Detector.Frame.C28_distances",
    "Siren.Detector.Frame.C28_answers",
    "Siren.Detector.Frame.C28_to_point_fails"
   ],
   "note": "Conversions, and covariance of all modelled queries; the two ToPoint overloads are excluded (counterexample proved)."
  },
  {
   "property": "C29",
   "status": "proved",
   "theorems": [
    "Siren.Gdml.C29_faults",
    "Siren.Gdml.C29_import",
    "Siren.Gdml.C29_inside_is_higher"
   ],
   "note": "The recursion is modelled with fuel; every fuel above the number of volumes gives the result, so the import terminates. Rotations of placed volumes are assumed to be unit quaternions, which is what the parser builds. Reading the XML into volumes is not modelled."
  },
  {
   "property": "C30",
   "status": "proved",
   "theorems": [
    "Siren.Gdml.C30_composition",
    "Siren.Gdml.C30_faults",
    "Siren.Gdml.C30_conservation",
    "Siren.Gdml.C30_no_nucleus_fails",
    "Siren.Gdml.C30_atom_counts",
    "Siren.Gdml.C30_mass_fractions",
    "Siren.Gdml.C30_atom_counts_fails",
    "Siren.Gdml.C30_repeated_fails"
   ],
   "note": "Atomic numbers and masses up to 10000 in absolute value; larger ones can overflow the integer code, which is undefined. The reading of the XML and the resolution of repeated names are not part of this property."
  },
  {
   "property": "C31",
   "status": "proved",
   "theorems": [
    "Siren.Gdml.C31_leftover",
    "Siren.Gdml.C31_value",
    "Siren.Gdml.C31_dot_fails",
    "Siren.Gdml.C31_number_word_fails",
    "Siren.Gdml.C31_malformed_fails"
   ],
   "note": "C31_value: for every string spelling words that follow the grammar. strtod is a parameter with stated properties. Matrices are not modelled. Violations shown: C31_dot_fails (endless loop), C31_number_word_fails, C31_malformed_fails."
  },
  {
   "property": "C32",
   "status": "proved",
   "theorems": [
    "Siren.Detector.C32_ids",
    "Siren.Detector.C32_other",
    "Siren.Detector.C32_targets",
    "Siren.Detector.C32_fractions",
    "Siren.Detector.C32_stale_fails",
    "Siren.Detector.C32_unknown_component_fails",
    "Siren.Detector.MaterialExample.C32_conflict_fails"
   ],
   "note": "Reworded: no normalization; stale targets recorded as a disagreement. Doubles are a linearly ordered field, none for NaN and infinity."
  },
  {
   "property": "C33",
   "status": "proved",
   "theorems": [
    "Siren.Detector.C33_decode",
    "Siren.Detector.C33_rejects",
    "Siren.Detector.C33_shape_fails",
    "Siren.Detector.C33_component"
   ],
   "note": "Decoding of all nuclear codes and rejection of all codes in the middle range; the missing shape test is proved as C33_shape_fails."
  },
  {
   "property": "C34",
   "status": "proved",
   "theorems": [
    "Siren.Detector.Path.C34_history",
    "Siren.Detector.Path.C34_far_end",
    "Siren.Detector.Path.C34_restore",
    "Siren.Detector.Path.C34_depth_operations",
    "Siren.Detector.Path.C34_clip",
    "Siren.Detector.Path.C34_clip_ray",
    "Siren.Detector.Path.C34_clip_fails",
    "Siren.Detector.Path.C34_negative_ray_fails",
    "Siren.Detector.Path.C34_degenerate_fails",
    "Siren.Detector.C34_outer_bounds"
   ],
   "note": "Histories of any length; finite coordinates. Failures for clipping outside the bounds, negative rays and equal points are proved."
  },
  {
   "property": "C35",
   "status": "proved",
   "theorems": [
    "Siren.Detector.Path.C35_distance",
    "Siren.Detector.Path.C35_distance_upper",
    "Siren.Detector.Path.C35_within",
    "Siren.Detector.Path.C35_within_fails",
    "Siren.Detector.Path.C35_point",
    "Siren.Detector.Path.C35_point_fails"
   ],
   "note": "Column depths: both bounds and exactness; interaction depths: upper bound. Disagreements of the two tests within 1 mm are proved."
  },
  {
   "property": "C36",
   "status": "proved",
   "theorems": [
    "Siren.Geometry.C36_boolean_hits",
    "Siren.Geometry.C36_boolean_shape",
    "Siren.Geometry.C36_positions",
    "Siren.Geometry.C36_touching_pieces_fails"
   ],
   "note": "Every nesting depth and every distance sort, when the pieces' surfaces cross the line at different distances. When they touch, an unstable sort may put a zero-length piece in or out (C36_touching_pieces_fails)."
  },
  {
   "property": "C37",
   "status": "proved",
   "theorems": [
    "Siren.Geometry.AABB.C37_ray_box",
    "Siren.Geometry.AABB.C37_invalid_box_fails"
   ],
   "note": "For every valid box, origin and direction (zero components included). C37_invalid_box_fails shows validity is needed."
  },
  {
   "property": "C38",
   "status": "proved",
   "theorems": [
    "Siren.Geometry.C38_world_box_contains",
    "Siren.Geometry.C38_world_box_kind",
    "Siren.Geometry.C38_world_box_tight"
   ],
   "note": "Containment, kind (infinite/invalid/valid) and tightness with respect to the eight corners."
  },
  {
   "property": "C39",
   "status": "proved",
   "theorems": [
    "Siren.Geometry.Box.C39_box_exact",
    "Siren.Geometry.Box.C39_box_describes",
    "Siren.Geometry.Box.C39_bounding_box"
   ],
   "note": "Every box, position and non-zero direction; distances in (0,1e-9) are reported as 0, which the theorem states."
  },
  {
   "property": "C40",
   "status": "proved",
   "theorems": [
    "Siren.Geometry.Sphere.C40_shell_exact",
    "Siren.Geometry.Sphere.C40_shell_describes",
    "Siren.Geometry.Sphere.C40_empty_shell_fails",
    "Siren.Geometry.Sphere.C40_cuts",
    "Siren.Geometry.Sphere.C40_bounding_box"
   ],
   "note": "Shell without cuts exact for every ray (radii different); with phi/theta cuts the hits are the conjunction of the three parts' hits (C40_cuts). Equal radii fail (C40_empty_shell_fails)."
  },
  {
   "property": "C41",
   "status": "proved",
   "theorems": [
    "Siren.Geometry.Placement.C41_inverse",
    "Siren.Geometry.Placement.C41_line",
    "Siren.Geometry.Placement.C41_line_back",
    "Siren.Geometry.Placement.C41_isometry",
    "Siren.Geometry.Placement.C41_identity_shortcut"
   ],
   "note": "Positions and directions, both ways, isometry, lines go to lines, identity shortcut."
  },
  {
   "property": "C42",
   "status": "proved",
   "theorems": [
    "Siren.Geometry.C42_next_crossing",
    "Siren.Geometry.C42_is_inside",
    "Siren.Geometry.C42_direction_independent",
    "Siren.Geometry.C42_default_direction"
   ],
   "note": "IsInside agrees with the solid for points farther than the tolerance from every surface, in every direction."
  },
  {
   "property": "C43",
   "status": "partial",
   "theorems": [
    "Siren.Quat.C43_is_rotation",
    "Siren.Quat.C43_product",
    "Siren.Quat.C43_compound_product",
    "Siren.Quat.C43_inverse",
    "Siren.Quat.C43_inverted",
    "Siren.Quat.C43_invert",
    "Siren.Quat.C43_any_length",
    "Siren.Quat.C43_overloads",
    "Siren.Quat.C43_matrix",
    "Siren.Quat.C43_matrix_any_length",
    "Siren.Quat.C43_matrix_round_trip",
    "Siren.Quat.C43_rotation_between_partial",
    "Siren.Quat.C43_rotation_between_opposite_x_fails",
    "Siren.Quat.C43_add_number_fails",
    "Siren.Quat.C43_axis_angle_unit",
    "Siren.Quat.C43_axis_angle"
   ],
   "note": "All proved except rotation_between for a vector and its opposite along the x axis, where the code returns a non-rotation (C43_rotation_between_opposite_x_fails)."
  },
  {
   "property": "C44",
   "status": "proved",
   "theorems": [
    "Siren.Geometry.BoolBox.C44_boolean_box",
    "Siren.Geometry.BoolBox.C44_tight",
    "Siren.Geometry.BoolBox.C44_half_infinite_fails"
   ],
   "note": "World boxes of arbitrarily nested placed boolean shapes contain the shape; tight for the three operations. Operands with a partly infinite box and a rotated placement are excluded (C44_half_infinite_fails)."
  },
  {
   "property": "C45",
   "status": "proved",
   "theorems": [
    "Siren.Geometry.Compare.C45_equality",
    "Siren.Geometry.Compare.C45_order"
   ],
   "note": "Equality is equality of all compared data; < is a strict order whose incomparability is equality. Numbers are not NaN."
  },
  {
   "property": "C46",
   "status": "proved",
   "theorems": [
    "Siren.Geometry.Phi.C46_normalize",
    "Siren.Geometry.Phi.C46_sound",
    "Siren.Geometry.Phi.C46_complete",
    "Siren.Geometry.Phi.C46_exact",
    "Siren.Geometry.Phi.C46_edge_fails"
   ],
   "note": "Sound and complete up to the 1e-9 tolerance, exact away from the edges; at an edge on a full turn it fails (C46_edge_fails)."
  },
  {
   "property": "C47",
   "status": "proved",
   "theorems": [
    "Siren.Math.Polynom.C47_evaluate",
    "Siren.Math.Polynom.C47_scale",
    "Siren.Math.Polynom.C47_derivative",
    "Siren.Math.Polynom.C47_derivative_real",
    "Siren.Math.Polynom.C47_antiderivative",
    "Siren.Math.Polynom.C47_antiderivative_real",
    "Siren.Math.Polynom.C47_shift",
    "Siren.Math.Polynom.C47_shift_small",
    "Siren.Math.Polynom.C47_shift_fails"
   ],
   "note": "All degrees; exact arithmetic."
  },
  {
   "property": "C48",
   "status": "proved",
   "theorems": [
    "Siren.Math.Newton.C48_error",
    "Siren.Math.Newton.C48_bracket",
    "Siren.Math.Newton.C48_flat_root_fails",
    "Siren.Math.Newton.C48_no_rounds_fails",
    "Siren.Math.Newton.C48_limit_fails",
    "Siren.Math.Newton.C48_ends",
    "Siren.Math.Newton.C48_accuracy"
   ],
   "note": "All functions on an ordered field; the accuracy claim needs the stated step limit."
  },
  {
   "property": "C49",
   "status": "proved",
   "theorems": [
    "Siren.Math.Table.C49_linear",
    "Siren.Math.Table.C49_values",
    "Siren.Math.Table.C49_between",
    "Siren.Math.Table.C49_log_intended",
    "Siren.Math.Table.C49_first_point_fails",
    "Siren.Math.Table.C49_log_fails",
    "Siren.Math.Table.C49_almost_regular_fails",
    "Siren.Math.Table.C49_negative_fails"
   ],
   "note": "Reworded to what holds; first abscissa of irregular tables, log scale, nearly equal spacing and negative values are recorded as disagreements."
  },
  {
   "property": "C50",
   "status": "proved",
   "theorems": [
    "Siren.Math.Integrate.C50_range",
    "Siren.Math.Integrate.C50_additive",
    "Siren.Math.Integrate.C50_full",
    "Siren.Math.Integrate.C50_mismatch",
    "Siren.Math.Integrate.C50_reversed_fails"
   ],
   "note": "Doubles as reals; sorted tables. Descending limits fail (C50_reversed_fails)."
  },
  {
   "property": "C51",
   "status": "proved",
   "theorems": [
    "Siren.Math.Integrate.C51_refinement",
    "Siren.Math.Integrate.C51_reversed",
    "Siren.Math.Integrate.C51_affine",
    "Siren.Math.Integrate.C51_error",
    "Siren.Math.Integrate.C51_romberg",
    "Siren.Math.Integrate.C51_romberg_polynomial",
    "Siren.Math.Integrate.C51_tolerance_fails"
   ],
   "note": "Doubles as reals. The tolerance does not bound the error (C51_tolerance_fails)."
  },
  {
   "property": "C52",
   "status": "proved",
   "theorems": [
    "Siren.Detector.C52_constant_integral",
    "Siren.Detector.C52_constant_inverse",
    "Siren.Detector.C52_constant_zero_fails",
    "Siren.Detector.C52_constant_lawful",
    "Siren.Detector.C52_cartesian_integral",
    "Siren.Detector.C52_cartesian_additive",
    "Siren.Detector.C52_cartesian_between",
    "Siren.Detector.C52_perpendicular_fails",
    "Siren.Detector.C52_sigma_zero_fails",
    "Siren.Detector.C52_derivative",
    "Siren.Detector.C52_cartesian_found",
    "Siren.Detector.C52_cartesian_accuracy",
    "Siren.Detector.C52_cartesian_not_found",
    "Siren.Detector.C52_added_constant_fails"
   ],
   "note": "Constant and Cartesian-axis densities over the reals; the accuracy of the inverse on stretches of more than 2048 micrometres along the axis is not bounded because the search may stop at 101 rounds. Radial axes: only Evaluate and Derivative."
  },
  {
   "property": "C53",
   "status": "proved",
   "theorems": [
    "Siren.Util.C53_prefix",
    "Siren.Util.C53_twice",
    "Siren.Util.C53_indent"
   ],
   "note": ""
  },
  {
   "property": "C54",
   "status": "proved",
   "theorems": [
    "Siren.Util.C54_uniform",
    "Siren.Util.C54_uniform_onto",
    "Siren.Util.C54_power",
    "Siren.Util.C54_power_fails"
   ],
   "note": "PowerLaw only for ranges within [0,1]; the general claim is refuted."
  },
  {
   "property": "C55",
   "status": "proved",
   "theorems": [
    "Siren.Distributions.C55_normalized",
    "Siren.Distributions.C55_positive",
    "Siren.Distributions.C55_cumulative",
    "Siren.Distributions.C55_distribution",
    "Siren.Distributions.C55_range",
    "Siren.Distributions.C55_single",
    "Siren.Distributions.C55_outside_fails"
   ],
   "note": "The density outside the range is recorded as a disagreement."
  },
  {
   "property": "C56",
   "status": "proved",
   "theorems": [
    "Siren.Distributions.C56_trim",
    "Siren.Distributions.C56_line",
    "Siren.Distributions.C56_load",
    "Siren.Distributions.C56_rejected",
    "Siren.Distributions.C56_no_file",
    "Siren.Distributions.C56_sample",
    "Siren.Distributions.C56_uniform",
    "Siren.Distributions.C56_probability"
   ],
   "note": "stod is a parameter."
  },
  {
   "property": "C57",
   "status": "proved",
   "theorems": [
    "Siren.Util.C57_sample",
    "Siren.Util.C57_detailed_balance"
   ],
   "note": ""
  },
  {
   "property": "C58",
   "status": "proved",
   "theorems": [
    "Siren.Io.C58_numbers"
   ],
   "note": "Numbers are unbounded naturals (64-bit wrap-around ignored)."
  },
  {
   "property": "C59",
   "status": "proved",
   "theorems": [
    "Siren.Io.C59_ids",
    "Siren.Io.C59_order",
    "Siren.Io.C59_supplied_fails"
   ],
   "note": "Without supplied process ids; with them ids can collide (C59_supplied_fails)."
  },
  {
   "property": "C60",
   "status": "proved",
   "theorems": [
    "Siren.Io.C60_read"
   ],
   "note": "HepMC3 containers are modelled as lists."
  },
  {
   "property": "C61",
   "status": "proved",
   "theorems": [
    "Siren.Io.C61_beam",
    "Siren.Io.C61_shared"
   ],
   "note": ""
  },
  {
   "property": "C62",
   "status": "proved",
   "theorems": [
    "Siren.Records.C62_interaction_time",
    "Siren.Records.C62_finalize"
   ],
   "note": "For all histories that agree with one moving particle on one straight path."
  },
  {
   "property": "C63",
   "status": "proved",
   "theorems": [
    "Siren.Detector.Lazy.C63_no_race",
    "Siren.Detector.Lazy.C63_answers",
    "Siren.Detector.Lazy.C63_progress"
   ],
   "note": "All schedules of any number of threads under sequential consistency: no reads during a rebuild, sequential answers, progress."
  },
  {
   "property": "C64",
   "status": "proved",
   "theorems": [
    "Siren.Detector.C64_length",
    "Siren.Detector.C64_fraction_fails"
   ],
   "note": "The radiation length of single nuclei is a parameter; GetTargetRadiationFraction is proved never to return a number."
  },
  {
   "property": "C65",
   "status": "proved",
   "theorems": [
    "Siren.Detector.Path.C65_history",
    "Siren.Detector.Path.C65_detector_fails",
    "Siren.Detector.Path.C65_hidden_state_fails",
    "Siren.Detector.Path.C65_ray_fails"
   ],
   "note": "Histories of any length. SetDetectorModel and nearly collinear rays violate it (proved)."
  },
  {
   "property": "C66",
   "status": "proved",
   "theorems": [
    "Siren.Detector.Path.C66_round_trip",
    "Siren.Detector.Path.C66_shrink_by",
    "Siren.Detector.Path.C66_extend_by",
    "Siren.Detector.Path.C66_shrink_to",
    "Siren.Detector.Path.C66_extend_to"
   ],
   "note": "Detectors with a sector covering the whole line, positive densities and lawful integrals (C52)."
  },
  {
   "property": "C67",
   "status": "proved",
   "theorems": [
    "Siren.Math.Integrate.C67_result",
    "Siren.Math.Integrate.C67_cubic",
    "Siren.Math.Integrate.C67_zero_tolerance_fails",
    "Siren.Math.Integrate.C67_tolerance_fails"
   ],
   "note": "Doubles as reals. Tolerance zero never succeeds (C67_zero_tolerance_fails)."
  },
  {
   "property": "C68",
   "status": "proved",
   "theorems": [
    "Siren.Io.C68_totals"
   ],
   "note": ""
  },
  {
   "property": "C69",
   "status": "proved",
   "theorems": [
    "Siren.Io.C69_round_trip"
   ],
   "note": "The HepMC3 library itself (file format, printed precision) is trusted."
  },
  {
   "property": "C70",
   "status": "proved",
   "theorems": [
    "Siren.Distributions.C70_cone_density",
    "Siren.Distributions.C70_cone_law",
    "Siren.Distributions.C70_cone_inside",
    "Siren.Distributions.C70_cone_normalized",
    "Siren.Distributions.C70_cone_down_fails",
    "Siren.Distributions.C70_cone_length_fails",
    "Siren.Distributions.C70_isotropic_law",
    "Siren.Distributions.C70_fixed",
    "Siren.Distributions.C70_fixed_length_fails"
   ],
   "note": "For axes of length one that are not straight down; the code violates the property for the others (C70_cone_length_fails, C70_cone_down_fails, C70_fixed_length_fails)."
  },
  {
   "property": "C71",
   "status": "proved",
   "theorems": [
    "Siren.Distributions.C71_cylinder_density",
    "Siren.Distributions.C71_cylinder_law",
    "Siren.Distributions.C71_cylinder_inside",
    "Siren.Distributions.C71_wedge_fails",
    "Siren.Distributions.C71_sphere_density",
    "Siren.Distributions.C71_sphere_law",
    "Siren.Distributions.C71_sphere_inside",
    "Siren.Distributions.C71_entry"
   ],
   "note": "For shapes without phi or theta cuts; the code ignores the cuts (C71_wedge_fails)."
  },
  {
   "property": "C72",
   "status": "proved",
   "theorems": [
    "Siren.Distributions.C72_vertex",
    "Siren.Distributions.C72_outside",
    "Siren.Distributions.C72_bounds",
    "Siren.Distributions.C72_short_fails",
    "Siren.Distributions.C72_disk_law",
    "Siren.Distributions.C72_disk_density",
    "Siren.Distributions.C72_disk_sample",
    "Siren.Distributions.C72_ray_path",
    "Siren.Distributions.C72_bounded_path",
    "Siren.Distributions.C72_range_path",
    "Siren.Distributions.C72_column_path",
    "Siren.Distributions.C72_disk_outside"
   ],
   "note": "paths longer than 1e-5 m; shorter ones fail (C72_short_fails); targets or decays, not both (C22)"
  },
  {
   "property": "C73",
   "status": "proved",
   "theorems": [
    "Siren.Distributions.C73_outside",
    "Siren.Distributions.C73_density",
    "Siren.Distributions.C73_law",
    "Siren.Distributions.C73_decay_length",
    "Siren.Distributions.C73_max_distance_fails"
   ],
   "note": "the maximal distance of the range function is not applied (C73_max_distance_fails)"
  },
  {
   "property": "C74",
   "status": "proved",
   "theorems": [
    "Siren.Geometry.Phi.C74_wedge"
   ],
   "note": "every wedge and line within the stated gaps"
  },
  {
   "property": "C75",
   "status": "proved",
   "theorems": [
    "Siren.Geometry.Cylinder.C75_tube",
    "Siren.Geometry.Cylinder.C75_cut",
    "Siren.Geometry.Cylinder.C75_capacity",
    "Siren.Geometry.Cylinder.C75_bounding_box",
    "Siren.Geometry.Cylinder.C75_constructors",
    "Siren.Geometry.Cylinder.C75_rim_fails"
   ],
   "note": "every tube and line within the stated gaps; clipping a rim fails (C75_rim_fails)"
  },
  {
   "property": "C76",
   "status": "proved",
   "theorems": [
    "Siren.Geometry.Sphere.C76_sphere",
    "Siren.Geometry.Sphere.C76_capacity",
    "Siren.Geometry.Sphere.C76_constructors",
    "Siren.Geometry.Sphere.C76_tangent_fails",
    "Siren.Geometry.Sphere.C76_equator_fails",
    "Siren.Geometry.Theta.C76_band"
   ],
   "note": "every cut sphere and line within the stated gaps; touching lines fail (C76_tangent_fails, C76_equator_fails)"
  },
  {
   "property": "C77",
   "status": "proved",
   "theorems": [
    "Siren.Dis.C77_allowed_iff",
    "Siren.Dis.C77_near_axis_fails",
    "Siren.Dis.C77_final_state",
    "Siren.Dis.C77_cross_section",
    "Siren.Dis.C77_probability",
    "Siren.Dis.C77_lepton_mass",
    "Siren.Dis.C77_hadrons_only_fails"
   ],
   "note": "every table, beam, stream; the near-axis and hadrons-only cases fail (C77_near_axis_fails, C77_hadrons_only_fails)"
  },
  {
   "property": "C78",
   "status": "proved",
   "theorems": [
    "Siren.Dis.C78_stationary",
    "Siren.Dis.C78_proposals"
   ],
   "note": "uniform law of the proposal in the allowed region is taken as the law of the rejection loop"
  },
  {
   "property": "C79",
   "status": "proved",
   "theorems": [
    "Siren.Elastic.C79_electron"
   ],
   "note": "every primary, beam and stream"
  },
  {
   "property": "C80",
   "status": "partial",
   "theorems": [
    "Siren.Elastic.C80_conservation_fails",
    "Siren.Elastic.C80_probability_fails",
    "Siren.Elastic.C80_ratio_partial",
    "Siren.Elastic.C80_stationary_partial",
    "Siren.Elastic.C80_density_fails"
   ],
   "note": "each part fails in the code and is disproved; C80_stationary_partial proves what density is sampled instead"
  },
  {
   "property": "C81",
   "status": "proved",
   "theorems": [
    "Siren.Signatures.C81_dis",
    "Siren.Signatures.C81_dis_accepts",
    "Siren.Signatures.C81_hnl",
    "Siren.Signatures.C81_quark",
    "Siren.Signatures.C81_pythia",
    "Siren.Signatures.C81_elastic",
    "Siren.Signatures.C81_accepts",
    "Siren.Signatures.C81_dipole"
   ],
   "note": "every set of primaries and targets; acceptance characterised"
  },
  {
   "property": "C82",
   "status": "partial",
   "theorems": [
    "Siren.Signatures.C82_dummy_fails",
    "Siren.Signatures.C82_dummy_partial",
    "Siren.Signatures.C82_dmeson_fails",
    "Siren.Signatures.C82_dmeson_targets_fails",
    "Siren.Signatures.C82_dmeson_partial",
    "Siren.Signatures.C82_marley_fails",
    "Siren.Signatures.C82_marley_empty_fails",
    "Siren.Signatures.C82_marley_partial",
    "Siren.Signatures.C82_reload_fails"
   ],
   "note": "fails in the code for each class and is disproved; the _partial theorems say what holds"
  },
  {
   "property": "C83",
   "status": "proved",
   "theorems": [
    "Siren.Signatures.C83_decays",
    "Siren.Signatures.C83_charm",
    "Siren.Signatures.C83_unlisted_fails",
    "Siren.Signatures.C83_constructor_fails",
    "Siren.Signatures.C83_any_primary_fails"
   ],
   "note": "for the primaries of the object; other primaries are disagreements"
  },
  {
   "property": "C84",
   "status": "partial",
   "theorems": [
    "Siren.Signatures.C84_electroweak",
    "Siren.Signatures.C84_charm",
    "Siren.Signatures.C84_hnl",
    "Siren.Signatures.C84_hnl_fails",
    "Siren.Signatures.C84_xsec"
   ],
   "note": "C84_hnl_fails: one decay of the anti-lepton violates lepton number; everything else is proved"
  },
  {
   "property": "C85",
   "status": "proved",
   "theorems": [
    "Siren.Signatures.C85_charm",
    "Siren.Signatures.C85_electroweak",
    "Siren.Signatures.C85_offshell_fails",
    "Siren.Signatures.C85_dipole",
    "Siren.Signatures.C85_dipole_unlisted_fails",
    "Siren.Signatures.C85_quark",
    "Siren.Signatures.C85_pythia",
    "Siren.Signatures.C85_dis"
   ],
   "note": "records above threshold; the _fails theorems cover records below and unlisted primaries"
  },
  {
   "property": "C86",
   "status": "proved",
   "theorems": [
    "Siren.Signatures.C86_cross_sections",
    "Siren.Signatures.C86_width",
    "Siren.Signatures.C86_length",
    "Siren.Signatures.C86_rest",
    "Siren.Signatures.C86_rest_fails"
   ],
   "note": "moving particles and particles at rest with open decays; C86_rest_fails for a closed decay at rest"
  },
  {
   "property": "C87",
   "status": "proved",
   "theorems": [
    "Siren.TwoBody.C87_boson",
    "Siren.TwoBody.C87_dipole",
    "Siren.TwoBody.C87_hnl"
   ],
   "note": "weak bosons, dipole decays, two-body decays of heavy leptons"
  },
  {
   "property": "C88",
   "status": "proved",
   "theorems": [
    "Siren.TwoBody.C88_boson",
    "Siren.TwoBody.C88_dipole",
    "Siren.TwoBody.C88_hnl",
    "Siren.TwoBody.C88_rest_fails"
   ],
   "note": "primaries in motion; C88_rest_fails for a Dirac lepton at rest"
  },
  {
   "property": "C89",
   "status": "partial",
   "theorems": [
    "Siren.ThreeBody.C89_leptons",
    "Siren.ThreeBody.C89_invisible_fails"
   ],
   "note": "charged-lepton modes proved; violated by the mode with three neutrinos"
  },
  {
   "property": "C90",
   "status": "proved",
   "theorems": [
    "Siren.Sampling.C90_stationary",
    "Siren.Sampling.C90_converges"
   ],
   "note": "independent proposals, bounded ratio of likelihood and declared density"
  },
  {
   "property": "C91",
   "status": "partial",
   "theorems": [
    "Siren.ThreeBody.C91_negative_fails",
    "Siren.ThreeBody.C91_nan_fails",
    "Siren.ThreeBody.C91_proposals_fails",
    "Siren.ThreeBody.C91_likelihood_partial"
   ],
   "note": "violated by the code: declared proposal density, sign and definedness of the width; the reported width is the likelihood used"
  },
  {
   "property": "C92",
   "status": "partial",
   "theorems": [
    "Siren.Distributions.Compare.C92_equality_partial",
    "Siren.Distributions.Compare.C92_refl",
    "Siren.Distributions.Compare.C92_order_partial",
    "Siren.Distributions.Compare.C92_direction_fails",
    "Siren.Distributions.Compare.C92_normalization_fails",
    "Siren.Distributions.Compare.C92_fiducial_fails",
    "Siren.Distributions.Compare.C92_order_fails"
   ],
   "note": "proved for the other classes; violated by the code for directions, normalization constants, fiducial volumes, and for the order of seven classes"
  },
  {
   "property": "C93",
   "status": "proved",
   "theorems": [
    "Siren.Distributions.C93_mass",
    "Siren.Distributions.C93_helicity",
    "Siren.Distributions.C93_mono"
   ],
   "note": ""
  },
  {
   "property": "C94",
   "status": "proved",
   "theorems": [
    "Siren.Distributions.PiDAR.C94_density",
    "Siren.Distributions.PiDAR.C94_sample",
    "Siren.Distributions.PiDAR.C94_law"
   ],
   "note": ""
  },
  {
   "property": "C95",
   "status": "proved",
   "theorems": [
    "Siren.Distributions.Moyal.C95_closed",
    "Siren.Distributions.Moyal.C95_density",
    "Siren.Distributions.Moyal.C95_sample"
   ],
   "note": "the numerical integrator is a parameter"
  },
  {
   "property": "C96",
   "status": "partial",
   "theorems": [
    "Siren.Distributions.Tabulated.C96_density",
    "Siren.Distributions.Tabulated.C96_range",
    "Siren.Distributions.Tabulated.C96_nodes_partial",
    "Siren.Distributions.Tabulated.C96_norm",
    "Siren.Distributions.Tabulated.C96_between_fails",
    "Siren.Distributions.Tabulated.C96_norm_fails",
    "Siren.Distributions.Tabulated.C96_bounds_fails",
    "Siren.Distributions.Tabulated.C96_first_fails",
    "Siren.Distributions.Tabulated.C96_cdf_nodes_fails"
   ],
   "note": "density and range proved; sampled probabilities proved at the energies of the table only, since the code violates the rest"
  },
  {
   "property": "C97",
   "status": "proved",
   "theorems": [
    "Siren.Geometry.Para.C97_exact",
    "Siren.Geometry.Para.C97_describes",
    "Siren.Geometry.Para.C97_bounding_box"
   ],
   "note": ""
  },
  {
   "property": "C98",
   "status": "partial",
   "theorems": [
    "Siren.Geometry.Trap.C98_exact_partial",
    "Siren.Geometry.Trap.C98_describes_partial",
    "Siren.Geometry.Trap.C98_bounding_box",
    "Siren.Geometry.Trap.C98_thin_fails",
    "Siren.Geometry.Trap.C98_twisted_fails"
   ],
   "note": "proved for positive half widths and flat sides; the code accepts others and violates the property there"
  },
  {
   "property": "C99",
   "status": "proved",
   "theorems": [
    "Siren.Geometry.Trd.C99_describes",
    "Siren.Geometry.Trd.C99_capacity",
    "Siren.Geometry.Trd.C99_bounding_box",
    "Siren.Geometry.Trd.C99_edge_fails"
   ],
   "note": ""
  },
  {
   "property": "C100",
   "status": "proved",
   "theorems": [
    "Siren.Geometry.EllipticalTube.C100_describes",
    "Siren.Geometry.EllipticalTube.C100_capacity",
    "Siren.Geometry.EllipticalTube.C100_bounding_box",
    "Siren.Geometry.EllipticalTube.C100_rim_fails"
   ],
   "note": ""
  },
  {
   "property": "C101",
   "status": "proved",
   "theorems": [
    "Siren.Geometry.Ellipsoid.C101_constructor",
    "Siren.Geometry.Ellipsoid.C101_constructor_cuts",
    "Siren.Geometry.Ellipsoid.C101_describes",
    "Siren.Geometry.Ellipsoid.C101_capacity",
    "Siren.Geometry.Ellipsoid.C101_bounding_box",
    "Siren.Geometry.Ellipsoid.C101_pole_fails"
   ],
   "note": ""
  },
  {
   "property": "C102",
   "status": "proved",
   "theorems": [
    "Siren.Geometry.Cone.C102_describes",
    "Siren.Geometry.Cone.C102_cut",
    "Siren.Geometry.Cone.C102_tip",
    "Siren.Geometry.Cone.C102_constructors",
    "Siren.Geometry.Cone.C102_capacity",
    "Siren.Geometry.Cone.C102_bounding_box",
    "Siren.Geometry.Cone.C102_tip_fails"
   ],
   "note": ""
  },
  {
   "property": "C103",
   "status": "partial",
   "theorems": [
    "Siren.Distributions.Table2D.C103_sample",
    "Siren.Distributions.Table2D.C103_integral",
    "Siren.Distributions.Table2D.C103_integrand",
    "Siren.Distributions.Table2D.C103_normalized",
    "Siren.Distributions.Table2D.C103_solid_angle_fails",
    "Siren.Distributions.Table2D.C103_drawn_partial",
    "Siren.Distributions.Table2D.C103_stationary_partial",
    "Siren.Distributions.Table2D.C103_density_fails",
    "Siren.Distributions.Table2D.C103_log_fails",
    "Siren.Distributions.Table2D.C103_zero_fails",
    "Siren.Distributions.Table2D.C103_bounds_fails",
    "Siren.Distributions.Table2D.C103_bounds_partial",
    "Siren.Distributions.Table2D.C103_normalization_fails"
   ],
   "note": "Proved: support, integral, normalization in energy and cosine, the law of the drawn point and the law the sampler leaves unchanged, cosine bounds. The sampled law is not the reported density, the azimuth factor is missing, failed bound changes are kept and the physical normalization is stale: proved as the _fails theorems."
  },
  {
   "property": "C104",
   "status": "partial",
   "theorems": [
    "Siren.Math.Table.C104_bilinear",
    "Siren.Math.Table.C104_between",
    "Siren.Math.Table.C104_values",
    "Siren.Math.Table.C104_log_intended",
    "Siren.Math.Table.C104_log_fails",
    "Siren.Math.Table.C104_missing_fails",
    "Siren.Math.Table.C104_stale_fails",
    "Siren.Math.Table.C104_zero_fails"
   ],
   "note": "Proved: bilinear interpolation, values, bounds, order of rows and previous contents for complete grids on linear axes, and the intended formula on logarithmic axes. Not true of the code: logarithmic axes are undefined, incomplete grids are accepted, old values stay for incomplete grids, zeros on logarithmic axes; proved as the _fails theorems."
  },
  {
   "property": "C105",
   "status": "proved",
   "theorems": [
    "Siren.Distributions.FixedTargetArea.C105_plane",
    "Siren.Distributions.FixedTargetArea.C105_law",
    "Siren.Distributions.FixedTargetArea.C105_normalized",
    "Siren.Distributions.FixedTargetArea.C105_density",
    "Siren.Distributions.FixedTargetArea.C105_reported",
    "Siren.Distributions.FixedTargetArea.C105_wedge_fails"
   ],
   "note": "Targets without an azimuth cut; for targets with one the property fails (C105_wedge_fails). The reported density carries the tolerance of the crossings, 16e-9 over the volume."
  },
  {
   "property": "C106",
   "status": "partial",
   "theorems": [
    "Siren.Distributions.FixedTargetPosition.C106_same_path",
    "Siren.Distributions.FixedTargetPosition.C106_vertex",
    "Siren.Distributions.FixedTargetPosition.C106_bounds",
    "Siren.Distributions.FixedTargetPosition.C106_outside",
    "Siren.Distributions.FixedTargetPosition.C106_hole_fails",
    "Siren.Distributions.FixedTargetPosition.C106_miss_fails",
    "Siren.Distributions.FixedTargetPosition.C106_equal_fails"
   ],
   "note": "Proved: same path for sampling and density, law of the vertex, density for targets without a hole, zero on the line outside of the path, bounds. Not true of the code: targets with a hole, vertices whose line misses the target, comparison; proved as the _fails theorems."
  },
  {
   "property": "C107",
   "status": "proved",
   "theorems": [
    "Siren.Injection.C107_record",
    "Siren.Injection.C107_event",
    "Siren.Injection.C107_missing",
    "Siren.Injection.C107_weight",
    "Siren.Injection.C107_roots_fails",
    "Siren.Injection.C107_no_events_fails"
   ],
   "note": "Events with several roots and injectors of no events: proved as the _fails theorems."
  },
  {
   "property": "C108",
   "status": "proved",
   "theorems": [
    "Siren.Injection.C108_lists",
    "Siren.Injection.C108_range",
    "Siren.Injection.C108_index",
    "Siren.Injection.C108_missing",
    "Siren.Injection.C108_incomplete_fails"
   ],
   "note": "For weighters whose initialization completed; otherwise C108_incomplete_fails."
  },
  {
   "property": "C109",
   "status": "proved",
   "theorems": [
    "Siren.Injection.C109_round_trip",
    "Siren.Injection.C109_injectors",
    "Siren.Injection.C109_weights"
   ],
   "note": "cereal is trusted to restore the members."
  },
  {
   "property": "C110",
   "status": "proved",
   "theorems": [
    "Siren.Geometry.CutTube.C110_describes",
    "Siren.Geometry.CutTube.C110_cut",
    "Siren.Geometry.CutTube.C110_capacity",
    "Siren.Geometry.CutTube.C110_constructors",
    "Siren.Geometry.CutTube.C110_bounding_box",
    "Siren.Geometry.CutTube.C110_tilt",
    "Siren.Geometry.CutTube.C110_planes_fails"
   ],
   "note": "For planes that do not meet inside the outer barrel; otherwise C110_planes_fails."
  },
  {
   "property": "C111",
   "status": "proved",
   "theorems": [
    "Siren.Geometry.ExtrPoly.C111_describes",
    "Siren.Geometry.ExtrPoly.C111_positions",
    "Siren.Geometry.ExtrPoly.C111_constructors",
    "Siren.Geometry.ExtrPoly.C111_bounding_box",
    "Siren.Geometry.ExtrPoly.C111_downward_fails",
    "Siren.Geometry.ExtrPoly.C111_level_fails",
    "Siren.Geometry.ExtrPoly.C111_concave_fails"
   ],
   "note": "Convex polygons, sections from bottom to top, clear lines; concave polygons, sections from top to bottom and horizontal lines in a section plane are shown to be reported wrongly."
  },
  {
   "property": "C112",
   "status": "proved",
   "theorems": [
    "Siren.Gdml.Define.C112_own_variable_fails",
    "Siren.Gdml.Define.C112_sections_fails",
    "Siren.Gdml.Define.C112_document_order",
    "Siren.Gdml.Define.C112_loop_values",
    "Siren.Gdml.Define.C112_builtins"
   ],
   "note": "All files in which no loop assigns its own variable, with sections plus nesting at most 64; the two exceptions are shown to be real."
  },
  {
   "property": "C113",
   "status": "proved",
   "theorems": [
    "Siren.Gdml.Define.C113_length",
    "Siren.Gdml.Define.C113_angle",
    "Siren.Gdml.Define.C113_quantity_length",
    "Siren.Gdml.Define.C113_quantity_angle",
    "Siren.Gdml.Define.C113_quantity_other"
   ],
   "note": "All units of GDML; expressions are parameters (C31)."
  },
  {
   "property": "C114",
   "status": "proved",
   "theorems": [
    "Siren.Gdml.Names.C114_suffix",
    "Siren.Gdml.Names.C114_lookup",
    "Siren.Gdml.Names.C114_reference",
    "Siren.Gdml.Names.C114_kept",
    "Siren.Gdml.Names.C114_bare",
    "Siren.Gdml.Names.C114_ambiguous",
    "Siren.Gdml.Names.C114_shared_fails",
    "Siren.Gdml.Names.C114_component_fails",
    "Siren.Gdml.Names.C114_numbered_fails"
   ],
   "note": "All histories of definitions; three cases outside the wording are shown to fail."
  },
  {
   "property": "C115",
   "status": "proved",
   "theorems": [
    "Siren.Gdml.Solids.C115_ends",
    "Siren.Gdml.Solids.C115_built",
    "Siren.Gdml.Solids.C115_warned",
    "Siren.Gdml.Solids.C115_forward_fails",
    "Siren.Gdml.Solids.C115_mixed_fails"
   ],
   "note": "All files without repeated names; the case of repeated names is shown to fail."
  },
  {
   "property": "C116",
   "status": "proved",
   "theorems": [
    "Siren.Gdml.Merge.C116_names",
    "Siren.Gdml.Merge.C116_parent",
    "Siren.Gdml.Merge.C116_solid",
    "Siren.Gdml.Merge.C116_material",
    "Siren.Gdml.Merge.C116_volume",
    "Siren.Gdml.Merge.C116_text_fails",
    "Siren.Gdml.Merge.C116_shadow_fails"
   ],
   "note": "The merge itself; the two ways in which the meaning of the included file is lost are shown."
  },
  {
   "property": "C117",
   "status": "proved",
   "theorems": [
    "Siren.Euler.C117_quaternion",
    "Siren.Euler.C117_zxz",
    "Siren.Euler.C117_xyz",
    "Siren.Euler.C117_matrix",
    "Siren.Euler.C117_back",
    "Siren.Euler.C117_back_all",
    "Siren.Euler.C117_xyz_back",
    "Siren.Euler.C117_zxz_back",
    "Siren.Euler.C117_axis_angle",
    "Siren.Euler.C117_matrix_fails"
   ],
   "note": "Matrices of orders about rotating axes are excluded: the code is wrong there."
  },
  {
   "property": "C118",
   "status": "partial",
   "theorems": [
    "Siren.Detector.Frame.C118_volume_partial",
    "Siren.Detector.Frame.C118_volume_fails",
    "Siren.Detector.Frame.C118_box_fails"
   ],
   "note": "Only for shapes symmetric under the rotation of the detector; otherwise the code violates it."
  },
  {
   "property": "C119",
   "status": "proved",
   "theorems": [
    "Siren.Spherical.C119_round_trip",
    "Siren.Spherical.C119_spherical_back",
    "Siren.Spherical.C119_deflect",
    "Siren.Spherical.C119_deflect_azimuth",
    "Siren.Spherical.C119_deflect_all",
    "Siren.Spherical.C119_deflect_length_fails",
    "Siren.Spherical.C119_equal",
    "Siren.Spherical.C119_equal_fails",
    "Siren.Spherical.C119_stale_fails"
   ],
   "note": "Deflections of vectors that are not of length one and comparisons of vectors with stored spherical coordinates are excluded: the code is wrong there."
  },
  {
   "property": "C120",
   "status": "proved",
   "theorems": [
    "Siren.Gdml.Loop.C120_nested_fails",
    "Siren.Gdml.Loop.C120_depth_fails",
    "Siren.Gdml.Loop.C120_negative_fails",
    "Siren.Gdml.Loop.C120_no_variable_fails",
    "Siren.Gdml.Loop.C120_copies",
    "Siren.Gdml.Loop.C120_value_text",
    "Siren.Gdml.Loop.C120_bounds",
    "Siren.Gdml.Loop.C120_unrolled",
    "Siren.Gdml.Loop.C120_no_loops",
    "Siren.Gdml.Loop.C120_unchanged",
    "Siren.Gdml.Loop.C120_loop",
    "Siren.Gdml.Loop.C120_limit",
    "Siren.Gdml.Loop.C120_words",
    "Siren.Gdml.Loop.C120_bracket",
    "Siren.Gdml.Loop.C120_no_bracket",
    "Siren.Gdml.Loop.C120_bad_bracket"
   ],
   "note": "Bracketed names in nested loops and powers of negative values come out wrong: see the theorems ending in _fails."
  },
  {
   "property": "C121",
   "status": "proved",
   "theorems": [
    "Siren.Geometry.Polycone.C121_describes",
    "Siren.Geometry.Polycone.C121_cut",
    "Siren.Geometry.Polycone.C121_make",
    "Siren.Geometry.Polycone.C121_makePhi",
    "Siren.Geometry.Polycone.C121_box",
    "Siren.Geometry.Polycone.C121_ends_fails",
    "Siren.Geometry.Polycone.C121_rings_fails"
   ],
   "note": "One plane at either end and overlapping rings at steps are assumed; without this it is false: see the theorems ending in _fails."
  },
  {
   "property": "C122",
   "status": "proved",
   "theorems": [
    "Siren.Math.Quad.C122_query",
    "Siren.Math.Quad.C122_pairs",
    "Siren.Math.Quad.C122_depth",
    "Siren.Math.Quad.C122_overlap",
    "Siren.Math.Quad.C122_point",
    "Siren.Math.Quad.C122_outside_fails",
    "Siren.Math.Quad.C122_absent_fails"
   ],
   "note": "Values must lie in the box of the tree when added and be held when removed: see the theorems ending in _fails."
  },
  {
   "property": "C123",
   "status": "partial",
   "theorems": [
    "Siren.Math.Delaunay.C123_locate",
    "Siren.Math.Delaunay.C123_mean_partial",
    "Siren.Math.Delaunay.C123_affine_partial",
    "Siren.Math.Delaunay.C123_outside",
    "Siren.Math.Delaunay.C123_nodes_fails",
    "Siren.Math.Delaunay.C123_transform_fails",
    "Siren.Math.Delaunay.C123_drop_fails"
   ],
   "note": "Proved for points strictly inside triangles and coordinates that are not transformed; at the points of the table, with transformed coordinates and for the second operator it is false: see the theorems ending in _fails."
  },
  {
   "property": "C124",
   "status": "partial",
   "theorems": [
    "Siren.Math.Index.C124_grid",
    "Siren.Math.Index.C124_grid_regular_partial",
    "Siren.Math.Index.C124_irregular_partial",
    "Siren.Math.Index.C124_strict",
    "Siren.Math.Index.C124_accepts",
    "Siren.Math.Index.C124_regular_partial",
    "Siren.Math.Index.C124_transform_partial",
    "Siren.Math.Index.C124_select_partial",
    "Siren.Math.Index.C124_descending_fails",
    "Siren.Math.Index.C124_far_fails",
    "Siren.Math.Index.C124_select_fails"
   ],
   "note": "Proved for ascending points, for arguments of the regular indexer within 2^31 steps, and for the automatic choice on evenly spaced points; otherwise it is false: see the theorems ending in _fails."
  },
  {
   "property": "C125",
   "status": "partial",
   "theorems": [
    "Siren.Math.Transforms.C125_inverse",
    "Siren.Math.Transforms.C125_onto",
    "Siren.Math.Transforms.C125_monotone",
    "Siren.Math.Transforms.C125_symlog",
    "Siren.Math.Transforms.C125_continuous",
    "Siren.Math.Transforms.C125_construct",
    "Siren.Math.Transforms.C125_archive",
    "Siren.Math.Transforms.C125_equal_partial",
    "Siren.Math.Transforms.C125_order_partial",
    "Siren.Math.Transforms.C125_equal_fails",
    "Siren.Math.Transforms.C125_order_fails"
   ],
   "note": "All but equality and order are proved in full; those are proved within one kind of transform and false across kinds or members: see the theorems ending in _fails."
  },
  {
   "property": "C126",
   "status": "proved",
   "theorems": [
    "Siren.Math.Operators.C126_linear",
    "Siren.Math.Operators.C126_drop_linear",
    "Siren.Math.Operators.C126_bilinear",
    "Siren.Math.Operators.C126_drop_bilinear",
    "Siren.Math.Operators.C126_same_operators",
    "Siren.Math.Operators.C126_select",
    "Siren.Math.Operators.C126_straight",
    "Siren.Math.Operators.C126_empty_fails"
   ],
   "note": ""
  },
  {
   "property": "C127",
   "status": "partial",
   "theorems": [
    "Siren.DarkNews.C127_final_state",
    "Siren.DarkNews.C127_azimuth",
    "Siren.DarkNews.C127_complete",
    "Siren.DarkNews.C127_Q2_fails",
    "Siren.DarkNews.C127_Q2_witness_fails",
    "Siren.DarkNews.C127_target_fails",
    "Siren.DarkNews.C127_probability",
    "Siren.DarkNews.C127_nan_fails",
    "Siren.DarkNews.Setup.C127_stationary_partial",
    "Siren.DarkNews.Setup.C127_density_fails"
   ],
   "note": "proved: conservation, mass shells, limits, no result that is not a number if the largest Q2 provided leaves the first secondary more than its mass; false of the code: target and Q2 of a record, density, initial point"
  },
  {
   "property": "C128",
   "status": "partial",
   "theorems": [
    "Siren.HnlDipole.C128_limits",
    "Siren.HnlDipole.C128_limits_fails",
    "Siren.HnlDipole.C128_final_state",
    "Siren.HnlDipole.C128_in_table",
    "Siren.HnlDipole.C128_helicity",
    "Siren.HnlDipole.C128_record_fails",
    "Siren.HnlDipole.C128_weight",
    "Siren.HnlDipole.C128_value",
    "Siren.HnlDipole.C128_outside",
    "Siren.HnlDipole.C128_nan_fails",
    "Siren.HnlDipole.C128_stationary_partial",
    "Siren.HnlDipole.C128_density_fails"
   ],
   "note": "proved: limits for 2s at least one, conservation, mass shells, helicity, zero outside, weight equal to the cross section; false of the code: limits for light targets, y of a record, events at the upper limit, density"
  },
  {
   "property": "C129",
   "status": "proved",
   "theorems": [
    "Siren.Charm.C129_products",
    "Siren.Charm.C129_mass_fails",
    "Siren.Charm.C129_three_body",
    "Siren.Charm.C129_sampled",
    "Siren.Charm.C129_single",
    "Siren.Charm.C129_refused",
    "Siren.Charm.C129_law",
    "Siren.Charm.C129_component",
    "Siren.Charm.C129_average"
   ],
   "note": "for mesons with the nominal mass and an exact normalisation; C129_mass_fails shows what happens for other masses"
  },
  {
   "property": "C130",
   "status": "partial",
   "theorems": [
    "Siren.Charm.C130_history_partial",
    "Siren.Charm.C130_nominal",
    "Siren.Charm.C130_sampled",
    "Siren.Charm.C130_fails"
   ],
   "note": "proved for histories without colliding keys and for all records of sampled events; false of the code for masses closer than the resolution of the key"
  },
  {
   "property": "C131",
   "status": "partial",
   "theorems": [
    "Siren.Geometry.Mesh.C131_triangle",
    "Siren.Geometry.Mesh.C131_keys",
    "Siren.Geometry.Mesh.C131_validate",
    "Siren.Geometry.Mesh.C131_box",
    "Siren.Geometry.Mesh.C131_box_tight",
    "Siren.Geometry.Mesh.C131_once_partial",
    "Siren.Geometry.Mesh.C131_even_partial",
    "Siren.Geometry.Mesh.C131_balance_partial",
    "Siren.Geometry.Mesh.C131_senses_fails",
    "Siren.Geometry.Mesh.C131_graze_fails",
    "Siren.Geometry.Mesh.C131_sound",
    "Siren.Geometry.Mesh.C131_complete_partial",
    "Siren.Geometry.Mesh.C131_float_fails",
    "Siren.Geometry.Mesh.C131_reserved"
   ],
   "note": "soundness and order for all meshes and lines; completeness, parity and balance for coordinates of type float and (parity, balance) lines that meet no edge; false of the code for other coordinates, touching lines and validated meshes with mixed senses"
  },
  {
   "property": "C132",
   "status": "partial",
   "theorems": [
    "Siren.Geometry.Quartic.C132_quartic",
    "Siren.Geometry.Torus.C132_describes_partial",
    "Siren.Geometry.Torus.C132_array",
    "Siren.Geometry.Torus.C132_box",
    "Siren.Geometry.Torus.C132_cut_partial",
    "Siren.Geometry.Torus.C132_snap",
    "Siren.Geometry.Torus.C132_box_cut",
    "Siren.Geometry.Torus.C132_chord_fails",
    "Siren.Geometry.Torus.C132_box_fails"
   ],
   "note": "lines that are not tangent and where no tolerance of the solver, of merging or of the wedge matters, with and without an azimuthal cut; box for cuts that start at a non-negative azimuth; false of the code for chords shorter than a millionth and for the box of a torus cut at a negative azimuth"
  },
  {
   "property": "C133",
   "status": "proved",
   "theorems": [
    "Siren.Interactions.DMeson.C133_accepted",
    "Siren.Interactions.DMeson.C133_trials",
    "Siren.Interactions.DMeson.C133_zero",
    "Siren.Interactions.DMeson.C133_final",
    "Siren.Interactions.DMeson.C133_total",
    "Siren.Interactions.DMeson.C133_support",
    "Siren.Interactions.DMeson.C133_closure",
    "Siren.Interactions.DMeson.C133_normalized"
   ],
   "note": "Romberg integration is the exact integral; doubles are reals; InjectionFailure is an outcome"
  },
  {
   "property": "C134",
   "status": "partial",
   "theorems": [
    "Siren.Geometry.GPoly.C134_corner_fails",
    "Siren.Geometry.GPoly.C134_tip_fails",
    "Siren.Geometry.GPoly.C134_crossings_partial",
    "Siren.Geometry.GPoly.C134_balanced_partial",
    "Siren.Geometry.GPoly.C134_box",
    "Siren.Geometry.GPoly.C134_turns_partial",
    "Siren.Geometry.GPoly.C134_tip",
    "Siren.Geometry.GPoly.C134_around_partial"
   ],
   "note": "lines that are not horizontal, keep off the axis and the circles of the vertices and where no tolerance matters; entering and leaving alternate for simple polygons, and for all polygons the crossings before a point give the winding number around it; false of the code for lines through the rim of a horizontal edge and for lines just beside a tip"
  },
  {
   "property": "C135",
   "status": "partial",
   "theorems": [
    "Siren.Io.Bytes.C135_text",
    "Siren.Io.Bytes.C135_read",
    "Siren.Io.Bytes.C135_roundtrip",
    "Siren.Io.Bytes.C135_injective",
    "Siren.Io.Bytes.C135_canonical",
    "Siren.Io.Bytes.C135_pickle",
    "Siren.Io.Bytes.C135_load",
    "Siren.Io.Bytes.C135_damaged_fails"
   ],
   "note": "everything holds except that texts with characters other than digits are refused: damaged text can be read without an error"
  },
  {
   "property": "C136",
   "status": "partial",
   "theorems": [
    "Siren.Geometry.Polyhedra.C136_make",
    "Siren.Geometry.Polyhedra.C136_full",
    "Siren.Geometry.Polyhedra.C136_order",
    "Siren.Geometry.Polyhedra.C136_box",
    "Siren.Geometry.Polyhedra.C136_kept_partial",
    "Siren.Geometry.Polyhedra.C136_cap",
    "Siren.Geometry.Polyhedra.C136_corners",
    "Siren.Geometry.Polyhedra.C136_shallow_fails",
    "Siren.Geometry.Polyhedra.C136_upright",
    "Siren.Geometry.Polyhedra.C136_step_fails",
    "Siren.Geometry.Polyhedra.C136_side",
    "Siren.Geometry.Polyhedra.C136_face",
    "Siren.Geometry.Polyhedra.C136_step_outer",
    "Siren.Geometry.Polyhedra.C136_step_inner",
    "Siren.Geometry.Polyhedra.C136_widening",
    "Siren.Geometry.Polyhedra.C136_face_tip"
   ],
   "note": "early return for lines that are horizontal or steeper than 1e-9, false of the code for lines in between; false of the code for solids that begin with a step; caps and box for solids without an azimuthal cut, caps for points farther than the tolerance from the lines through the sides; same solid in either order of the planes unless all are at one height; every side face by itself, points in it for radii that are zero or above the tolerance and points farther than the tolerance from its edges; all crossings together only for vertical lines through upright solids and solids with one step"
  },
  {
   "property": "C137",
   "status": "proved",
   "theorems": [
    "Siren.Gdml.Placement.C137_order",
    "Siren.Gdml.Placement.C137_others",
    "Siren.Gdml.Placement.C137_position",
    "Siren.Gdml.Placement.C137_rotation",
    "Siren.Gdml.Placement.C137_dangling",
    "Siren.Gdml.Placement.C137_absent",
    "Siren.Gdml.Placement.C137_planes"
   ],
   "note": "definitions outside loops"
  }
 ]
}
