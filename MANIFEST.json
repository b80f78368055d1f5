{
 "claims": [
  {
   "property": "C01",
   "status": "proved",
   "theorems": [
    "vm.C01_lt_is_lexicographic",
    "vm.C01_eq_is_componentwise",
    "vm.C01_lt_strict_weak_order",
    "vm.C01_compare_total_order",
    "vm.C01_operators_consistent"
   ],
   "note": ""
  },
  {
   "property": "C02",
   "status": "proved",
   "theorems": [
    "vm.C02_isEqual_iff",
    "vm.C02_compare_antisymmetric",
    "vm.C02_compare_lt_iff",
    "vm.C02_eps_equality_not_transitive"
   ],
   "note": ""
  },
  {
   "property": "C03",
   "status": "proved",
   "theorems": [
    "vm.C03_safeMin",
    "vm.C03_safeMax",
    "vm.C03_min_max",
    "vm.C03_min_position_dependent"
   ],
   "note": ""
  },
  {
   "property": "C04",
   "status": "proved",
   "theorems": [
    "vm.C04_clamp_in_interval",
    "vm.C04_clamp_inside",
    "vm.C04_clamp_nan",
    "vm.C04_clamp_closest",
    "vm.C04_clamp_idempotent_monotone",
    "vm.C04_vclamp_agrees"
   ],
   "note": ""
  },
  {
   "property": "C05",
   "status": "proved",
   "theorems": [
    "vm.C05_trunc",
    "vm.C05_floor",
    "vm.C05_ceil",
    "vm.C05_round",
    "vm.C05_round_odd",
    "vm.C05_fract",
    "vm.C05_round_up_down"
   ],
   "note": ""
  },
  {
   "property": "C06",
   "status": "proved",
   "theorems": [
    "vm.C06_snap",
    "vm.C06_snap_nearest",
    "vm.C06_snap_idempotent",
    "vm.C06_snap_up_down",
    "vm.C06_vector_componentwise",
    "vm.C06_is_integral"
   ],
   "note": ""
  },
  {
   "property": "C07",
   "status": "proved",
   "theorems": [
    "vm.C07_mod"
   ],
   "note": ""
  },
  {
   "property": "C08",
   "status": "proved",
   "theorems": [
    "vm.C08_normalize",
    "vm.C08_unique",
    "vm.C08_absorption_diverges",
    "vm.C08_neg_infinity_diverges"
   ],
   "note": "Termination and result proved in exact arithmetic; under rounding the loop may diverge, also proved (C08_absorption_diverges)."
  },
  {
   "property": "C09",
   "status": "proved",
   "theorems": [
    "vm.C09_succ",
    "vm.C09_pred",
    "vm.C09_inverse",
    "vm.C09_cycle",
    "vm.C09_signed",
    "vm.C09_succ_negative_stride"
   ],
   "note": ""
  },
  {
   "property": "C10",
   "status": "partial",
   "theorems": [
    "vm.C10_correct_partial",
    "vm.C10_correct_decimals_inert",
    "vm.C10_counterexample"
   ],
   "note": "Holds for decimals = 0. For decimals >= 1 the code is inert (C10_correct_decimals_inert) and the claim is false (C10_counterexample)."
  },
  {
   "property": "C11",
   "status": "partial",
   "theorems": [
    "vm.C11_signed_partial",
    "vm.C11_counterexample",
    "vm.C11_unsigned"
   ],
   "note": "False for arguments of opposite sign (C11_counterexample); the exact condition is proved, and the unsigned branch is correct."
  },
  {
   "property": "C12",
   "status": "proved",
   "theorems": [
    "vm.C12_quadratic",
    "vm.C12_quadratic_epsilon"
   ],
   "note": ""
  },
  {
   "property": "C13",
   "status": "proved",
   "theorems": [
    "vm.C13_cubic"
   ],
   "note": ""
  },
  {
   "property": "C14",
   "status": "proved",
   "theorems": [
    "vm.C14_quartic"
   ],
   "note": ""
  },
  {
   "property": "C15",
   "status": "proved",
   "theorems": [
    "vm.C15_mix",
    "vm.C15_mix_monotone",
    "vm.C15_vmix",
    "vm.C15_smoothstep",
    "vm.C15_step_sign"
   ],
   "note": ""
  },
  {
   "property": "C16",
   "status": "proved",
   "theorems": [
    "vm.C16_sort_permutes",
    "vm.C16_sort_sorts"
   ],
   "note": ""
  },
  {
   "property": "C17",
   "status": "proved",
   "theorems": [
    "vm.C17_find_max",
    "vm.C17_find_abs_max",
    "vm.C17_find_abs_max_first",
    "vm.C17_axis",
    "vm.C17_get_max",
    "vm.C17_find_max_index_valid",
    "vm.C17_find_max_float"
   ],
   "note": ""
  },
  {
   "property": "C18",
   "status": "proved",
   "theorems": [
    "vm.C18_inverse",
    "vm.C18_moves_axis",
    "vm.C18_preserves"
   ],
   "note": ""
  },
  {
   "property": "C19",
   "status": "proved",
   "theorems": [
    "vm.C19_dot",
    "vm.C19_cross",
    "vm.C19_cross_zero_iff",
    "vm.C19_cauchy_schwarz",
    "vm.C19_floating_point"
   ],
   "note": "The floating point model does not distinguish +0 and -0, so equality is the == of C++ for non-NaN values."
  },
  {
   "property": "C20",
   "status": "proved",
   "theorems": [
    "vm.C20_length_metric",
    "vm.C20_normalize",
    "vm.C20_isUnit",
    "vm.C20_isParallel"
   ],
   "note": ""
  },
  {
   "property": "C21",
   "status": "proved",
   "theorems": [
    "vm.C21_isColinear"
   ],
   "note": ""
  },
  {
   "property": "C22",
   "status": "proved",
   "theorems": [
    "vm.C22_isBetween"
   ],
   "note": ""
  },
  {
   "property": "C23",
   "status": "proved",
   "theorems": [
    "vm.C23_homogeneous",
    "vm.C23_homogeneous_converse"
   ],
   "note": ""
  },
  {
   "property": "C24",
   "status": "proved",
   "theorems": [
    "vm.C24_average",
    "vm.C24_average_perm",
    "vm.C24_average_translate",
    "vm.C24_average_in_box"
   ],
   "note": ""
  },
  {
   "property": "C25",
   "status": "proved",
   "theorems": [
    "vm.C25_measureAngle"
   ],
   "note": ""
  },
  {
   "property": "C26",
   "status": "proved",
   "theorems": [
    "vm.C26_none_iff",
    "vm.C26_some",
    "vm.C26_round_trip",
    "vm.C26_view_fails"
   ],
   "note": "Relative to the number reader and printer, which are parameters. A string_view must be followed in memory by a terminating character; C26_view_fails shows what happens otherwise."
  },
  {
   "property": "C27",
   "status": "partial",
   "theorems": [
    "vm.C27_terminates",
    "vm.C27_list_partial",
    "vm.C27_comma_fails",
    "vm.C27_parentheses_fails",
    "vm.C27_space_comma_fails"
   ],
   "note": "Termination proved for every string. The list of tuples is correct for well formed separators (C27_list_partial); for other mixes of the documented separators tuples are lost or invented (C27_comma_fails, C27_parentheses_fails, C27_space_comma_fails)."
  },
  {
   "property": "C28",
   "status": "proved",
   "theorems": [
    "vm.C28_builder",
    "vm.C28_builder_order",
    "vm.C28_mergeAll",
    "vm.C28_floating_point"
   ],
   "note": ""
  },
  {
   "property": "C29",
   "status": "proved",
   "theorems": [
    "vm.C29_predicates",
    "vm.C29_encloses",
    "vm.C29_floating_point"
   ],
   "note": ""
  },
  {
   "property": "C30",
   "status": "proved",
   "theorems": [
    "vm.C30_merge_lub",
    "vm.C30_merge_laws",
    "vm.C30_intersect",
    "vm.C30_intersect_glb"
   ],
   "note": ""
  },
  {
   "property": "C31",
   "status": "proved",
   "theorems": [
    "vm.C31_constrain"
   ],
   "note": ""
  },
  {
   "property": "C32",
   "status": "proved",
   "theorems": [
    "vm.C32_translate",
    "vm.C32_expand",
    "vm.C32_size_center",
    "vm.C32_floating_point"
   ],
   "note": ""
  },
  {
   "property": "C33",
   "status": "proved",
   "theorems": [
    "vm.C33_transform"
   ],
   "note": ""
  },
  {
   "property": "C34",
   "status": "proved",
   "theorems": [
    "vm.C34_vertices",
    "vm.C34_edges",
    "vm.C34_faces",
    "vm.C34_faces_outward"
   ],
   "note": ""
  },
  {
   "property": "C35",
   "status": "proved",
   "theorems": [
    "vm.C35_relativePosition"
   ],
   "note": ""
  },
  {
   "property": "C36",
   "status": "partial",
   "theorems": [
    "vm.C36_counterexample",
    "vm.C36_initialized_partial"
   ],
   "note": "False for the code: bounds() of an unused builder is an invalid box (min 1, max 0). C36_counterexample proves that; C36_initialized_partial proves what initialized() reports."
  },
  {
   "property": "C37",
   "status": "proved",
   "theorems": [
    "vm.C37_mul",
    "vm.C37_scale",
    "vm.C37_transpose",
    "vm.C37_vector"
   ],
   "note": ""
  },
  {
   "property": "C38",
   "status": "proved",
   "theorems": [
    "vm.C38_determinant",
    "vm.C38_multiplicative",
    "vm.C38_zero_iff_singular"
   ],
   "note": ""
  },
  {
   "property": "C39",
   "status": "proved",
   "theorems": [
    "vm.C39_adjugate"
   ],
   "note": ""
  },
  {
   "property": "C40",
   "status": "proved",
   "theorems": [
    "vm.C40_success",
    "vm.C40_singular",
    "vm.C40_failure_column",
    "vm.C40_failure"
   ],
   "note": ""
  },
  {
   "property": "C41",
   "status": "proved",
   "theorems": [
    "vm.C41_success",
    "vm.C41_same_success",
    "vm.C41_singular",
    "vm.C41_failure",
    "vm.C41_rejects_nonsingular"
   ],
   "note": ""
  },
  {
   "property": "C42",
   "status": "proved",
   "theorems": [
    "vm.C42_translation",
    "vm.C42_scaling",
    "vm.C42_mirror",
    "vm.C42_strip_translation",
    "vm.C42_composition"
   ],
   "note": ""
  },
  {
   "property": "C43",
   "status": "proved",
   "theorems": [
    "vm.C43_quat",
    "vm.C43_axis_angle",
    "vm.C43_roll_pitch_yaw"
   ],
   "note": ""
  },
  {
   "property": "C44",
   "status": "proved",
   "theorems": [
    "vm.C44_euler_round_trip"
   ],
   "note": ""
  },
  {
   "property": "C45",
   "status": "proved",
   "theorems": [
    "vm.C45_composition",
    "vm.C45_unit",
    "vm.C45_length"
   ],
   "note": ""
  },
  {
   "property": "C46",
   "status": "partial",
   "theorems": [
    "vm.C46_from_to_partial",
    "vm.C46_not_exact"
   ],
   "note": "Exact outside the dead zones; within 0.001 of parallel or antiparallel the code returns the identity or a half turn, which is proved to be inexact."
  },
  {
   "property": "C47",
   "status": "partial",
   "theorems": [
    "vm.C47_accessors_partial",
    "vm.C47_axis_not_normalized"
   ],
   "note": "axis() is not normalised for small angles; proved as a failure beside the positive theorems."
  },
  {
   "property": "C48",
   "status": "partial",
   "theorems": [
    "vm.C48_equality_partial",
    "vm.C48_equality_fails"
   ],
   "note": "False as stated (C48_equality_fails): == compares (r,v) with (-r,v) as equal, which are inverse rotations, and unary minus negates only the real part. What == does guarantee is C48_equality_partial."
  },
  {
   "property": "C49",
   "status": "proved",
   "theorems": [
    "vm.C49_ortho",
    "vm.C49_perspective"
   ],
   "note": ""
  },
  {
   "property": "C50",
   "status": "proved",
   "theorems": [
    "vm.C50_view",
    "vm.C50_coordinate_system",
    "vm.C50_dependent",
    "vm.C50_success"
   ],
   "note": ""
  },
  {
   "property": "C51",
   "status": "proved",
   "theorems": [
    "vm.C51_plane_projection",
    "vm.C51_exists"
   ],
   "note": ""
  },
  {
   "property": "C52",
   "status": "proved",
   "theorems": [
    "vm.C52_scale",
    "vm.C52_scale_anchor",
    "vm.C52_shear"
   ],
   "note": ""
  },
  {
   "property": "C53",
   "status": "proved",
   "theorems": [
    "vm.C53_four_points",
    "vm.C53_coplanar",
    "vm.C53_success",
    "vm.C53_three_points"
   ],
   "note": ""
  },
  {
   "property": "C54",
   "status": "proved",
   "theorems": [
    "vm.C54_success",
    "vm.C54_success_iff",
    "vm.C54_colinear",
    "vm.C54_range",
    "vm.C54_orthogonal"
   ],
   "note": ""
  },
  {
   "property": "C55",
   "status": "proved",
   "theorems": [
    "vm.C55_aligned_orthogonal",
    "vm.C55_distance",
    "vm.C55_flip",
    "vm.C55_anchor",
    "vm.C55_project_along",
    "vm.C55_project_vector",
    "vm.C55_at",
    "vm.C55_status"
   ],
   "note": ""
  },
  {
   "property": "C56",
   "status": "partial",
   "theorems": [
    "vm.C56_similarity_partial",
    "vm.C56_characterisation",
    "vm.C56_fails"
   ],
   "note": "Holds for similarities (C56_similarity_partial). False for other affine maps because the normal is transformed by M instead of its inverse transpose (C56_fails, C56_characterisation)."
  },
  {
   "property": "C57",
   "status": "proved",
   "theorems": [
    "vm.C57_canonical",
    "vm.C57_equality"
   ],
   "note": ""
  },
  {
   "property": "C58",
   "status": "proved",
   "theorems": [
    "vm.C58_projection",
    "vm.C58_point_at_distance",
    "vm.C58_ray_status"
   ],
   "note": ""
  },
  {
   "property": "C59",
   "status": "proved",
   "theorems": [
    "vm.C59_canonical",
    "vm.C59_invariant",
    "vm.C59_equality",
    "vm.C59_compare",
    "vm.C59_get_vertices"
   ],
   "note": ""
  },
  {
   "property": "C60",
   "status": "partial",
   "theorems": [
    "vm.C60_complete_partial",
    "vm.C60_sound",
    "vm.C60_degenerate",
    "vm.C60_end_tolerance"
   ],
   "note": "Soundness and completeness with the exact tolerances of the code; degenerate segments contain nothing and the end tolerance is asymmetric (C60_degenerate, C60_end_tolerance)."
  },
  {
   "property": "C61",
   "status": "proved",
   "theorems": [
    "vm.C61_rotation",
    "vm.C61_equality",
    "vm.C61_invariant"
   ],
   "note": ""
  },
  {
   "property": "C62",
   "status": "proved",
   "theorems": [
    "vm.C62_invert",
    "vm.C62_map",
    "vm.C62_has_vertex",
    "vm.C62_get_vertices",
    "vm.C62_translate",
    "vm.C62_center"
   ],
   "note": ""
  },
  {
   "property": "C63",
   "status": "partial",
   "theorems": [
    "vm.C63_compare",
    "vm.C63_lexicographic",
    "vm.C63_unoriented_partial",
    "vm.C63_unoriented_fails",
    "vm.C63_unoriented_not_transitive",
    "vm.C63_fewer_vertices"
   ],
   "note": "compare: fully proved. compareUnoriented: 0 also for polygons differing only in the second vertex, not transitive (C63_unoriented_fails, C63_unoriented_not_transitive); the exact deviation is proved in C63_unoriented_partial."
  },
  {
   "property": "C64",
   "status": "proved",
   "theorems": [
    "vm.C64_ray_plane",
    "vm.C64_ray_plane_complete",
    "vm.C64_line_plane"
   ],
   "note": ""
  },
  {
   "property": "C65",
   "status": "proved",
   "theorems": [
    "vm.C65_ray_triangle",
    "vm.C65_small_triangle"
   ],
   "note": ""
  },
  {
   "property": "C66",
   "status": "partial",
   "theorems": [
    "vm.C66_outside",
    "vm.C66_inside_partial",
    "vm.C66_inside_axis_parallel",
    "vm.C66_fails"
   ],
   "note": "False for an origin inside the box with a zero direction component (result NaN): C66_fails, C66_inside_axis_parallel. C66_inside_partial needs all components non-zero; C66_outside is complete."
  },
  {
   "property": "C67",
   "status": "proved",
   "theorems": [
    "vm.C67_ray_sphere",
    "vm.C67_outside"
   ],
   "note": ""
  },
  {
   "property": "C68",
   "status": "partial",
   "theorems": [
    "vm.C68_quartic",
    "vm.C68_ray_torus_partial",
    "vm.C68_fails"
   ],
   "note": "False with the shipped absolute tolerance 0.001 (C68_fails). C68_ray_torus_partial holds whenever the tolerance does not influence the quartic solver, in particular for tolerance 0."
  },
  {
   "property": "C69",
   "status": "partial",
   "theorems": [
    "vm.C69_convex_partial",
    "vm.C69_even_odd",
    "vm.C69_vertex",
    "vm.C69_edge",
    "vm.C69_fails",
    "vm.C69_ray_polygon_partial"
   ],
   "note": "False when a vertex is at the height of the point (C69_fails). C69_convex_partial covers convex polygons in general position, C69_even_odd every polygon, C69_vertex and C69_edge the boundary."
  },
  {
   "property": "C70",
   "status": "proved",
   "theorems": [
    "vm.C70_plane_plane"
   ],
   "note": ""
  },
  {
   "property": "C71",
   "status": "proved",
   "theorems": [
    "vm.C71_ray_point",
    "vm.C71_ray_point_sqrt",
    "vm.C71_segment_point",
    "vm.C71_segment_point_sqrt",
    "vm.C71_segment_degenerate"
   ],
   "note": "Distances from a point to a ray and to a segment are minimal. For a segment whose end points coincide the code divides 0 by 0 and the result is NaN (C71_segment_degenerate)."
  },
  {
   "property": "C72",
   "status": "partial",
   "theorems": [
    "vm.C72_ray_ray_attained",
    "vm.C72_ray_ray_partial",
    "vm.C72_ray_ray_parallel",
    "vm.C72_ray_ray_fails",
    "vm.C72_ray_ray_opposite_fails",
    "vm.C72_ray_line_attained",
    "vm.C72_ray_line_partial",
    "vm.C72_ray_line_parallel",
    "vm.C72_ray_line_fails",
    "vm.C72_ray_segment_attained",
    "vm.C72_ray_segment_partial",
    "vm.C72_ray_segment_parallel",
    "vm.C72_ray_segment_fails",
    "vm.C72_distance",
    "vm.C72_is_colinear"
   ],
   "note": "The reported positions always attain the reported distance, and the distance is minimal if the closest points of the carrier lines satisfy the constraints or the carriers are parallel in the way stated. It is not minimal when a position is clamped to the origin of the ray without recomputing the other one, and for antiparallel rays that point apart (C72_*_fails)."
  },
  {
   "property": "C73",
   "status": "partial",
   "theorems": [
    "vm.C73_comparator",
    "vm.C73_comparator_cyclic",
    "vm.C73_empty",
    "vm.C73_empty_partial",
    "vm.C73_collinear_empty",
    "vm.C73_empty_fails",
    "vm.C73_hull",
    "vm.C73_not_minimal"
   ],
   "note": "The hull theorem (C73_hull), the strict weak order of the comparator (C73_comparator) and the exact condition for an empty result (C73_empty) are proved for every std::sort. The condition as stated in C73 fails if the first two points coincide (C73_empty_fails), and vertices need not be corners (C73_not_minimal)."
  },
  {
   "property": "C74",
   "status": "proved",
   "theorems": [
    "vm.C74_bernstein",
    "vm.C74_corners",
    "vm.C74_convex",
    "vm.C74_convexHull",
    "vm.C74_bounds",
    "vm.C74_affine_invariant",
    "vm.C74_transpose",
    "vm.C74_reverse",
    "vm.C74_boundary"
   ],
   "note": ""
  },
  {
   "property": "C75",
   "status": "proved",
   "theorems": [
    "vm.C75_eq_iff",
    "vm.C75_lt_gt_iff",
    "vm.C75_trichotomy",
    "vm.C75_mirrored",
    "vm.C75_list",
    "vm.C75_vec_eq_iff",
    "vm.C75_mat_eq_iff",
    "vm.C75_line_eq_iff",
    "vm.C75_vec_exclusive",
    "vm.C75_vec_fails",
    "vm.C75_not_equal",
    "vm.C75_vec_mirrored",
    "vm.C75_vec_one",
    "vm.C75_float_trichotomy",
    "vm.C75_nan"
   ],
   "note": "Proved for scalars, in exact and in floating point arithmetic, and for equality of lists, vectors, matrices and lines. For vectors <, ==, > exclude each other but are not exhaustive (C75_vec_fails)."
  },
  {
   "property": "C76",
   "status": "proved",
   "theorems": [
    "vm.C76_lists",
    "vm.C76_add_scale",
    "vm.C76_compose"
   ],
   "note": ""
  },
  {
   "property": "C77",
   "status": "proved",
   "theorems": [
    "vm.C77_round_trip",
    "vm.C77_some",
    "vm.C77_row_major",
    "vm.C77_none_iff"
   ],
   "note": "Relative to the number reader and printer, which are parameters."
  },
  {
   "property": "C78",
   "status": "proved",
   "theorems": [
    "vm.C78_rigid",
    "vm.C78_ray_points",
    "vm.C78_line_points",
    "vm.C78_segment_points",
    "vm.C78_center"
   ],
   "note": ""
  },
  {
   "property": "C79",
   "status": "proved",
   "theorems": [
    "vm.C79_orthogonal",
    "vm.C79_group",
    "vm.C79_rotation",
    "vm.C79_zeroOut"
   ],
   "note": ""
  },
  {
   "property": "C80",
   "status": "partial",
   "theorems": [
    "vm.C80_bbox",
    "vm.C80_exact_partial",
    "vm.C80_segment_fails",
    "vm.C80_polygon_fails"
   ],
   "note": "Bounding boxes: proved for every monotone conversion. Segments and polygons: proved for exact conversions, false for monotone ones (C80_segment_fails, C80_polygon_fails)."
  },
  {
   "property": "C81",
   "status": "proved",
   "theorems": [
    "vm.C81_sqrt_c",
    "vm.C81_newton_converges",
    "vm.C81_exact_arithmetic_diverges"
   ],
   "note": "In exact arithmetic the loop itself does not end unless the root is hit (C81_exact_arithmetic_diverges); its behaviour in IEEE arithmetic is C83."
  },
  {
   "property": "C82",
   "status": "proved",
   "theorems": [
    "vm.C82_repair",
    "vm.C82_equality"
   ],
   "note": ""
  },
  {
   "property": "C83",
   "status": "proved",
   "theorems": [
    "vm.C83_sqrt_c",
    "vm.C83_special",
    "vm.C83_exact_square"
   ],
   "note": "All IEEE binary formats with at least 3 bits and an exponent range of at least twice the precision below 1, so float and double; +0 and -0 are not distinguished."
  },
  {
   "property": "C84",
   "status": "proved",
   "theorems": [
    "vm.C84_exact",
    "vm.C84_undefined"
   ],
   "note": "Every IEEE binary format; +0 and -0 are not distinguished."
  },
  {
   "property": "C85",
   "status": "partial",
   "theorems": [
    "vm.C85_round_partial",
    "vm.C85_below_half_fails",
    "vm.C85_odd_integer_fails"
   ],
   "note": "False: round(0.49999999999999994) is 1 (C85_below_half_fails) and round(8388609.0f) is 8388610 (C85_odd_integer_fails). C85_round_partial proves the claim for all other numbers and the results for the exceptions."
  },
  {
   "property": "C86",
   "status": "proved",
   "theorems": [
    "vm.C86_mod_exact"
   ],
   "note": "The quotient must be less than 2^63 and 2^p, otherwise it is not an integer of the format."
  },
  {
   "property": "C87",
   "status": "proved",
   "theorems": [
    "vm.C87_normalize_degrees"
   ],
   "note": ""
  },
  {
   "property": "C88",
   "status": "partial",
   "theorems": [
    "vm.C88_radians_fails",
    "vm.C88_mod_error_partial"
   ],
   "note": "False: a double just below 17 turns is normalised to a negative number (C88_radians_fails). C88_mod_error_partial bounds how far the result can leave the interval."
  },
  {
   "property": "C89",
   "status": "proved",
   "theorems": [
    "vm.C89_matrix_close",
    "vm.C89_matrix_zero",
    "vm.C89_matrix_eq",
    "vm.C89_bbox_close",
    "vm.C89_ray_close",
    "vm.C89_ray_eq",
    "vm.C89_plane_close",
    "vm.C89_plane_eq",
    "vm.C89_plane_points",
    "vm.C89_plane_flip",
    "vm.C89_segment_close",
    "vm.C89_polygon_close",
    "vm.C89_quat_close",
    "vm.C89_reflexive_symmetric",
    "vm.C89_float_eq"
   ],
   "note": ""
  },
  {
   "property": "C90",
   "status": "proved",
   "theorems": [
    "vm.C90_abs_max",
    "vm.C90_abs_min",
    "vm.C90_vector",
    "vm.C90_angle_units",
    "vm.C90_contains",
    "vm.C90_get_component",
    "vm.C90_float"
   ],
   "note": ""
  },
  {
   "property": "C91",
   "status": "proved",
   "theorems": [
    "vm.C91_abs_sign",
    "vm.C91_step",
    "vm.C91_smoothstep",
    "vm.C91_division",
    "vm.C91_fract",
    "vm.C91_mod",
    "vm.C91_correct",
    "vm.C91_correct_defined",
    "vm.C91_correct_decimals",
    "vm.C91_is_nan"
   ],
   "note": ""
  },
  {
   "property": "C92",
   "status": "proved",
   "theorems": [
    "vm.C92_slice_extend",
    "vm.C92_slice_slice",
    "vm.C92_convert",
    "vm.C92_of_list",
    "vm.C92_set",
    "vm.C92_matrix_slice",
    "vm.C92_matrix_convert"
   ],
   "note": ""
  },
  {
   "property": "C93",
   "status": "proved",
   "theorems": [
    "vm.C93_bbox",
    "vm.C93_line",
    "vm.C93_ray",
    "vm.C93_plane",
    "vm.C93_unambiguous"
   ],
   "note": ""
  },
  {
   "property": "C94",
   "status": "proved",
   "theorems": [
    "vm.C94_cube",
    "vm.C94_interval",
    "vm.C94_default",
    "vm.C94_convert"
   ],
   "note": ""
  },
  {
   "property": "C95",
   "status": "partial",
   "theorems": [
    "vm.C95_contains_partial",
    "vm.C95_contains_undefined",
    "vm.C95_ray_partial",
    "vm.C95_ray_no_plane",
    "vm.C95_ray_fails"
   ],
   "note": "Correct for convex polygons away from the degenerate configurations of C69; a ray through the interior of a polygon that begins with three colinear vertices is reported to miss it (C95_ray_fails)."
  },
  {
   "property": "C96",
   "status": "partial",
   "theorems": [
    "vm.C96_scale_sides_partial",
    "vm.C96_scale_is_product_iff",
    "vm.C96_scale_fails",
    "vm.C96_default",
    "vm.C96_convert"
   ],
   "note": "operator* with a scalar multiplies the real part only: it is the product with the scalar only for the scalar one or a real quaternion (C96_scale_is_product_iff), and it changes the rotation (C96_scale_fails)."
  },
  {
   "property": "C97",
   "status": "proved",
   "theorems": [
    "vm.C97_dot_error",
    "vm.C97_dot_finite",
    "vm.C97_point_distance",
    "vm.C97_point_status",
    "vm.C97_double",
    "vm.C97_float_fails"
   ],
   "note": "The statement includes the failures, which are theorems of their own. C97_dot_error, C97_dot_finite, C97_point_distance, C97_point_status and C97_double are the positive claims; C97_float_fails is the witness that the default tolerance is too small for float."
  },
  {
   "property": "C98",
   "status": "proved",
   "theorems": [
    "vm.C98_scalar_complete",
    "vm.C98_scalar_sound",
    "vm.C98_scalar_zero",
    "vm.C98_scalar_symmetric",
    "vm.C98_scalar_special",
    "vm.C98_vec_complete",
    "vm.C98_vec_sound",
    "vm.C98_compare_sound",
    "vm.C98_vec_symmetric_fails",
    "vm.C98_compare_antisymmetric_fails"
   ],
   "note": "The statement includes the failures, which are theorems of their own. The asymmetry is proved by C98_vec_symmetric_fails and C98_compare_antisymmetric_fails for every format; the other theorems are the positive claims."
  },
  {
   "property": "C99",
   "status": "proved",
   "theorems": [
    "vm.C99_mix_ends",
    "vm.C99_mix_infinite",
    "vm.C99_mix_monotone",
    "vm.C99_mix_error",
    "vm.C99_mix_range_fails",
    "vm.C99_smoothstep_range",
    "vm.C99_smoothstep_edges",
    "vm.C99_smoothstep_monotone_fails"
   ],
   "note": "The statement includes the failures, which are theorems of their own. C99_mix_range_fails and C99_smoothstep_monotone_fails refute the two claims that hold only in exact arithmetic (C15); the other theorems are the positive claims."
  },
  {
   "property": "C100",
   "status": "proved",
   "theorems": [
    "vm.C100_center",
    "vm.C100_center_fails",
    "vm.C100_size",
    "vm.C100_translate",
    "vm.C100_expand",
    "vm.C100_vertices_exact",
    "vm.C100_vertices_near",
    "vm.C100_vertices_fails"
   ],
   "note": "The statement includes the failures, which are theorems of their own. C100_vertices_fails and C100_center_fails are the witnesses, for every format; C100_vertices_exact, C100_vertices_near and the others are the positive claims."
  },
  {
   "property": "C101",
   "status": "proved",
   "theorems": [
    "vm.C101_length_error",
    "vm.C101_length_c_error",
    "vm.C101_normalize_error",
    "vm.C101_normalize_c_error",
    "vm.C101_normalize_is_unit",
    "vm.C101_is_parallel",
    "vm.C101_component_range",
    "vm.C101_axis",
    "vm.C101_distance_error",
    "vm.C101_normalize_overflow_fails",
    "vm.C101_normalize_underflow_fails"
   ],
   "note": "The statement includes the failures, which are theorems of their own. C101_normalize_overflow_fails and C101_normalize_underflow_fails refute the claim for vectors whose squared length leaves the range of the format; the other theorems are the positive claims. std::sqrt enters as a specification (nearest number to the exact root), which exists_correctSqrt shows to be satisfiable."
  },
  {
   "property": "C102",
   "status": "proved",
   "theorems": [
    "vm.C102_dot_neg",
    "vm.C102_cross_neg",
    "vm.C102_distance_comm",
    "vm.C102_parallel_comm",
    "vm.C102_cross_error",
    "vm.C102_cross_self",
    "vm.C102_cross_perpendicular",
    "vm.C102_distance_self",
    "vm.C102_distance_zero_fails"
   ],
   "note": "The statement includes the failures, which are theorems of their own. C102_distance_zero_fails refutes that distance zero implies equality; the other theorems are the positive claims."
  },
  {
   "property": "C103",
   "status": "proved",
   "theorems": [
    "vm.C103_identity",
    "vm.C103_identity_fails",
    "vm.C103_translation",
    "vm.C103_scaling",
    "vm.C103_compose",
    "vm.C103_constants",
    "vm.C103_product_error"
   ],
   "note": "The statement includes the failures, which are theorems of their own. C103_identity_fails refutes neutrality of the identity for vectors with an infinite component; the other theorems are the positive claims. The model has one zero, so equalities are up to the sign of zero."
  },
  {
   "property": "C104",
   "status": "proved",
   "theorems": [
    "vm.C104_snap",
    "vm.C104_snap_idempotent",
    "vm.C104_grid",
    "vm.C104_grid_fails",
    "vm.C104_snap_monotone",
    "vm.C104_snap_down_up",
    "vm.C104_snap_down_up_twice_fails",
    "vm.C104_snap_down_exceeds_fails"
   ],
   "note": "The statement includes the failures, which are theorems of their own (C104_grid_fails, C104_snap_down_up_twice_fails, C104_snap_down_exceeds_fails)."
  },
  {
   "property": "C105",
   "status": "proved",
   "theorems": [
    "vm.C105_correct",
    "vm.C105_idempotent"
   ],
   "note": ""
  },
  {
   "property": "C106",
   "status": "proved",
   "theorems": [
    "vm.C106_outside",
    "vm.C106_endpoints",
    "vm.C106_inside",
    "vm.C106_underflow_fails"
   ],
   "note": "The statement includes the failure, which is a theorem of its own (C106_underflow_fails)."
  },
  {
   "property": "C107",
   "status": "proved",
   "theorems": [
    "vm.C107_agree",
    "vm.C107_normalize_is_unit",
    "vm.C107_is_parallel",
    "vm.C107_distance",
    "vm.C107_is_between",
    "vm.C107_transform_unit"
   ],
   "note": ""
  },
  {
   "property": "C108",
   "status": "proved",
   "theorems": [
    "vm.C108_distance_nonneg",
    "vm.C108_away",
    "vm.C108_parallel_outside",
    "vm.C108_hit_near_box",
    "vm.C108_complete",
    "vm.C108_axis",
    "vm.C108_inside_parallel_fails",
    "vm.C108_underflow_fails",
    "vm.C108_overflow_fails"
   ],
   "note": "The statement includes the failures, which are theorems of their own (C108_inside_parallel_fails, C108_underflow_fails, C108_overflow_fails)."
  },
  {
   "property": "C109",
   "status": "proved",
   "theorems": [
    "vm.C109_residual",
    "vm.C109_decision",
    "vm.C109_axis_plane",
    "vm.C109_double",
    "vm.C109_overflow_fails"
   ],
   "note": "The statement includes the failure, which is a theorem of its own (C109_overflow_fails)."
  },
  {
   "property": "C110",
   "status": "proved",
   "theorems": [
    "vm.C110_point_at_distance",
    "vm.C110_distance_to_projected",
    "vm.C110_project_line",
    "vm.C110_project_axis_plane",
    "vm.C110_project_plane",
    "vm.C110_segment_center",
    "vm.C110_project_line_fails"
   ],
   "note": "The statement includes the failure, which is a theorem of its own (C110_project_line_fails)."
  },
  {
   "property": "C111",
   "status": "proved",
   "theorems": [
    "vm.C111_error",
    "vm.C111_two",
    "vm.C111_count_fails",
    "vm.C111_equal_fails"
   ],
   "note": "The statement includes the failures, which are theorems of their own (C111_equal_fails, C111_count_fails)."
  },
  {
   "property": "C112",
   "status": "proved",
   "theorems": [
    "vm.C112_solve_residual",
    "vm.C112_invert_residual",
    "vm.C112_double4",
    "vm.C112_failure",
    "vm.C112_success",
    "vm.C112_nan",
    "vm.C112_overflow_fails"
   ],
   "note": "Backward error analysis of the LUP decomposition with partial pivoting and of both substitutions. The failure is a theorem of its own (C112_overflow_fails)."
  },
  {
   "property": "C113",
   "status": "proved",
   "theorems": [
    "vm.C113_monomial_solve",
    "vm.C113_monomial_invert",
    "vm.C113_monomial_success",
    "vm.C113_signed_permutation",
    "vm.C113_constants",
    "vm.C113_scaling",
    "vm.C113_translation",
    "vm.C113_overflow_fails"
   ],
   "note": "The model has one zero, so the sign of a zero is not part of the claim. The failure is a theorem of its own (C113_overflow_fails)."
  },
  {
   "property": "C114",
   "status": "proved",
   "theorems": [
    "vm.C114_dot",
    "vm.C114_dot_small",
    "vm.C114_cross",
    "vm.C114_squared_distance",
    "vm.C114_length_fails",
    "vm.C114_determinant",
    "vm.C114_product",
    "vm.C114_abs",
    "vm.C114_center",
    "vm.C114_average",
    "vm.C114_center_fails",
    "vm.C114_divide"
   ],
   "note": "The overflows are theorems of their own (C114_length_fails, C114_center_fails)."
  },
  {
   "property": "C115",
   "status": "proved",
   "theorems": [
    "vm.C115_dot",
    "vm.C115_add_sub",
    "vm.C115_cross",
    "vm.C115_product",
    "vm.C115_determinant",
    "vm.C115_adjugate",
    "vm.C115_squared_distance",
    "vm.C115_colinear",
    "vm.C115_colinear_reported",
    "vm.C115_colinear_fails"
   ],
   "note": ""
  },
  {
   "property": "C116",
   "status": "proved",
   "theorems": [
    "vm.C116_hull",
    "vm.C116_empty",
    "vm.C116_empty_fails"
   ],
   "note": ""
  },
  {
   "property": "C117",
   "status": "proved",
   "theorems": [
    "vm.C117_scalar",
    "vm.C117_rounding",
    "vm.C117_vector",
    "vm.C117_length",
    "vm.C117_matrix",
    "vm.C117_lup",
    "vm.C117_box",
    "vm.C117_geometry",
    "vm.C117_polygon",
    "vm.C117_division",
    "vm.C117_dot_sign",
    "vm.C117_sum_sign",
    "vm.C117_abs_fails",
    "vm.C117_minmax_sign",
    "vm.C117_division_fails",
    "vm.C117_select",
    "vm.C117_hull",
    "vm.C117_rotation",
    "vm.C117_angle",
    "vm.C117_euler_fails",
    "vm.C117_mod",
    "vm.C117_plane",
    "vm.C117_sphere",
    "vm.C117_scale",
    "vm.C117_ortho",
    "vm.C117_ortho_fails",
    "vm.C117_transform",
    "vm.C117_segment",
    "vm.C117_planes",
    "vm.C117_ray_segment",
    "vm.C117_shear",
    "vm.C117_view",
    "vm.C117_perspective",
    "vm.C117_product_sign",
    "vm.C117_identities",
    "vm.C117_add_zero_fails",
    "vm.C117_solve",
    "vm.C117_torus",
    "vm.C117_solve_fails"
   ],
   "note": ""
  },
  {
   "property": "C118",
   "status": "proved",
   "theorems": [
    "vm.C118_max",
    "vm.C118_min",
    "vm.C118_int",
    "vm.C118_nan",
    "vm.C118_fold_min",
    "vm.C118_fold_max_fails",
    "vm.C118_axis",
    "vm.C118_axis_ieee",
    "vm.C118_neg_sign",
    "vm.C118_row_vector",
    "vm.C118_row_vector_square",
    "vm.C118_reverse_iteration_fails",
    "vm.C118_get_vertices",
    "vm.C118_from_points_get_fails"
   ],
   "note": ""
  },
  {
   "property": "C119",
   "status": "proved",
   "theorems": [
    "vm.C119_transform_vertices",
    "vm.C119_transform_affine",
    "vm.C119_transform_identity",
    "vm.C119_transform_constants",
    "vm.C119_transform_fails"
   ],
   "note": ""
  },
  {
   "property": "C120",
   "status": "proved",
   "theorems": [
    "vm.C120_nearest",
    "vm.C120_epsilons",
    "vm.C120_multiples",
    "vm.C120_quarter_turns",
    "vm.C120_monotone",
    "vm.C120_odd",
    "vm.C120_range",
    "vm.C120_error",
    "vm.C120_round_trip",
    "vm.C120_round_trip_fails"
   ],
   "note": ""
  },
  {
   "property": "C121",
   "status": "proved",
   "theorems": [
    "vm.C121_vertex",
    "vm.C121_even_odd",
    "vm.C121_convex",
    "vm.C121_large_fails"
   ],
   "note": ""
  },
  {
   "property": "C122",
   "status": "proved",
   "theorems": [
    "vm.C122_dot",
    "vm.C122_distance",
    "vm.C122_product",
    "vm.C122_point",
    "vm.C122_determinant",
    "vm.C122_solve",
    "vm.C122_point_status",
    "vm.C122_contains",
    "vm.C122_contains_nan",
    "vm.C122_merge_all",
    "vm.C122_builder",
    "vm.C122_merge_all_fails"
   ],
   "note": ""
  },
  {
   "property": "C123",
   "status": "proved",
   "theorems": [
    "vm.C123_ray_triangle",
    "vm.C123_shared_edge",
    "vm.C123_overflow_fails",
    "vm.C123_gap_fails"
   ],
   "note": "the statement includes the two failures beyond the bounds"
  },
  {
   "property": "C124",
   "status": "proved",
   "theorems": [
    "vm.C124_model",
    "vm.C124_decision",
    "vm.C124_residual",
    "vm.C124_count",
    "vm.C124_degenerate",
    "vm.C124_grid_roots",
    "vm.C124_cancellation_fails",
    "vm.C124_count_fails"
   ],
   "note": ""
  },
  {
   "property": "C125",
   "status": "proved",
   "theorems": [
    "vm.C125_product",
    "vm.C125_rotate",
    "vm.C125_length",
    "vm.C125_inverse",
    "vm.C125_matrix",
    "vm.C125_grid_product",
    "vm.C125_grid_rotate",
    "vm.C125_overflow_fails"
   ],
   "note": ""
  },
  {
   "property": "C126",
   "status": "proved",
   "theorems": [
    "vm.C126_model",
    "vm.C126_is_inf",
    "vm.C126_colinear",
    "vm.C126_valid",
    "vm.C126_grid_valid",
    "vm.C126_normal",
    "vm.C126_distance",
    "vm.C126_side",
    "vm.C126_points",
    "vm.C126_double",
    "vm.C126_far_fails",
    "vm.C126_overflow_fails"
   ],
   "note": ""
  },
  {
   "property": "C127",
   "status": "proved",
   "theorems": [
    "vm.C127_ray",
    "vm.C127_segment",
    "vm.C127_ray_grid",
    "vm.C127_segment_grid",
    "vm.C127_distance",
    "vm.C127_model",
    "vm.C127_degenerate",
    "vm.C127_overflow_fails"
   ],
   "note": ""
  },
  {
   "property": "C128",
   "status": "proved",
   "theorems": [
    "vm.C128_corners",
    "vm.C128_seam_u",
    "vm.C128_seam_v",
    "vm.C128_error",
    "vm.C128_bounds",
    "vm.C128_monotone",
    "vm.C128_sign",
    "vm.C128_grid",
    "vm.C128_constant_fails",
    "vm.C128_reverse_fails"
   ],
   "note": ""
  },
  {
   "property": "C129",
   "status": "proved",
   "theorems": [
    "vm.C129_model",
    "vm.C129_hit",
    "vm.C129_miss",
    "vm.C129_inside",
    "vm.C129_away",
    "vm.C129_entry",
    "vm.C129_nonneg",
    "vm.C129_grid",
    "vm.C129_grid_exact",
    "vm.C129_overflow_fails"
   ],
   "note": ""
  },
  {
   "property": "C130",
   "status": "proved",
   "theorems": [
    "vm.C130_model",
    "vm.C130_axis_error",
    "vm.C130_axis_point",
    "vm.C130_axis_length",
    "vm.C130_axis_back",
    "vm.C130_normalized",
    "vm.C130_zero",
    "vm.C130_along",
    "vm.C130_euler",
    "vm.C130_quarter_fails"
   ],
   "note": ""
  },
  {
   "property": "C131",
   "status": "proved",
   "theorems": [
    "vm.C131_model",
    "vm.C131_measure",
    "vm.C131_side",
    "vm.C131_measure_angle",
    "vm.C131_quat",
    "vm.C131_quat_rotate",
    "vm.C131_angle",
    "vm.C131_angle_back",
    "vm.C131_equal_fails",
    "vm.C131_angle_nan_fails"
   ],
   "note": ""
  },
  {
   "property": "C132",
   "status": "proved",
   "theorems": [
    "vm.C132_widen",
    "vm.C132_round_trip",
    "vm.C132_narrow",
    "vm.C132_order",
    "vm.C132_box",
    "vm.C132_operations",
    "vm.C132_vectors",
    "vm.C132_segment_fails",
    "vm.C132_disjoint_fails",
    "vm.C132_dot_fails"
   ],
   "note": ""
  },
  {
   "property": "C133",
   "status": "proved",
   "theorems": [
    "vm.C133_formula",
    "vm.C133_error",
    "vm.C133_corner",
    "vm.C133_order",
    "vm.C133_same",
    "vm.C133_grid",
    "vm.C133_flat_fails",
    "vm.C133_max_fails"
   ],
   "note": ""
  },
  {
   "property": "C134",
   "status": "proved",
   "theorems": [
    "vm.C134_formula",
    "vm.C134_error",
    "vm.C134_fixed",
    "vm.C134_grid",
    "vm.C134_flat_fails"
   ],
   "note": ""
  },
  {
   "property": "C135",
   "status": "proved",
   "theorems": [
    "vm.C135_error",
    "vm.C135_order",
    "vm.C135_symmetric",
    "vm.C135_grid",
    "vm.C135_empty_fails",
    "vm.C135_border_fails"
   ],
   "note": ""
  },
  {
   "property": "C136",
   "status": "proved",
   "theorems": [
    "vm.C136_screen",
    "vm.C136_fov",
    "vm.C136_depth",
    "vm.C136_symmetry_order",
    "vm.C136_eye_plane_fails",
    "vm.C136_depth_order_fails"
   ],
   "note": ""
  },
  {
   "property": "C137",
   "status": "proved",
   "theorems": [
    "vm.C137_error",
    "vm.C137_axes",
    "vm.C137_parallel_fails"
   ],
   "note": ""
  },
  {
   "property": "C138",
   "status": "proved",
   "theorems": [
    "vm.C138_double",
    "vm.C138_float",
    "vm.C138_error_double",
    "vm.C138_error_float",
    "vm.C138_decimal_double",
    "vm.C138_decimal_float",
    "vm.C138_digits_fails"
   ],
   "note": ""
  },
  {
   "property": "C139",
   "status": "proved",
   "theorems": [
    "vm.C139_determinant",
    "vm.C139_sign",
    "vm.C139_adjugate",
    "vm.C139_zero",
    "vm.C139_singular_fails"
   ],
   "note": ""
  },
  {
   "property": "C140",
   "status": "proved",
   "theorems": [
    "vm.C140_at",
    "vm.C140_at_axis",
    "vm.C140_project_vector",
    "vm.C140_project_vector_fails",
    "vm.C140_aligned",
    "vm.C140_project_along",
    "vm.C140_at_double",
    "vm.C140_at_fails"
   ],
   "note": ""
  },
  {
   "property": "C141",
   "status": "proved",
   "theorems": [
    "vm.C141_model",
    "vm.C141_quat_matrix",
    "vm.C141_from_to",
    "vm.C141_cones",
    "vm.C141_any",
    "vm.C141_identity",
    "vm.C141_near_fails"
   ],
   "note": ""
  },
  {
   "property": "C142",
   "status": "proved",
   "theorems": [
    "vm.C142_equal",
    "vm.C142_less",
    "vm.C142_large",
    "vm.C142_mirrored_fails",
    "vm.C142_infinite",
    "vm.C142_vector"
   ],
   "note": ""
  },
  {
   "property": "C143",
   "status": "proved",
   "theorems": [
    "vm.C143_model",
    "vm.C143_maps",
    "vm.C143_applied",
    "vm.C143_three",
    "vm.C143_corner"
   ],
   "note": ""
  },
  {
   "property": "C144",
   "status": "proved",
   "theorems": [
    "vm.C144_success",
    "vm.C144_solve",
    "vm.C144_inverse",
    "vm.C144_back_and_forth",
    "vm.C144_model",
    "vm.C144_coordinates",
    "vm.C144_axes"
   ],
   "note": ""
  },
  {
   "property": "C145",
   "status": "proved",
   "theorems": [
    "vm.C145_model",
    "vm.C145_frame",
    "vm.C145_plane",
    "vm.C145_success",
    "vm.C145_axis"
   ],
   "note": ""
  },
  {
   "property": "C146",
   "status": "proved",
   "theorems": [
    "vm.C146_solve_finite",
    "vm.C146_invert_finite",
    "vm.C146_solve_double",
    "vm.C146_invert_double",
    "vm.C146_well_conditioned",
    "vm.C146_well_conditioned_inverse",
    "vm.C146_float_overflow_fails"
   ],
   "note": ""
  },
  {
   "property": "C147",
   "status": "proved",
   "theorems": [
    "vm.C147_equivalence",
    "vm.C147_reverse",
    "vm.C147_direction",
    "vm.C147_axis",
    "vm.C147_point",
    "vm.C147_moved_fails"
   ],
   "note": ""
  },
  {
   "property": "C148",
   "status": "proved",
   "theorems": [
    "vm.C148_direction",
    "vm.C148_parallel",
    "vm.C148_point",
    "vm.C148_far_fails",
    "vm.C148_model"
   ],
   "note": ""
  },
  {
   "property": "C149",
   "status": "proved",
   "theorems": [
    "vm.C149_accuracy",
    "vm.C149_symmetric",
    "vm.C149_coincident",
    "vm.C149_overflow_fails",
    "vm.C149_order32_fails",
    "vm.C149_order64_fails"
   ],
   "note": ""
  },
  {
   "property": "C150",
   "status": "proved",
   "theorems": [
    "vm.C150_point",
    "vm.C150_direction",
    "vm.C150_distance",
    "vm.C150_translation",
    "vm.C150_axis",
    "vm.C150_identity_fails"
   ],
   "note": ""
  },
  {
   "property": "C151",
   "status": "proved",
   "theorems": [
    "vm.C151_segment",
    "vm.C151_rays",
    "vm.C151_line",
    "vm.C151_segment_lower",
    "vm.C151_rays_lower",
    "vm.C151_line_lower",
    "vm.C151_model",
    "vm.C151_crossing_fails"
   ],
   "note": ""
  },
  {
   "property": "C152",
   "status": "proved",
   "theorems": [
    "vm.C152_true",
    "vm.C152_false",
    "vm.C152_start",
    "vm.C152_degenerate",
    "vm.C152_model",
    "vm.C152_end_fails"
   ],
   "note": ""
  },
  {
   "property": "C153",
   "status": "proved",
   "theorems": [
    "vm.C153_angles",
    "vm.C153_poles",
    "vm.C153_nan",
    "vm.C153_float_fails",
    "vm.C153_double_fails",
    "vm.C153_exact",
    "vm.C153_model"
   ],
   "note": ""
  },
  {
   "property": "C154",
   "status": "proved",
   "theorems": [
    "vm.C154_monotone",
    "vm.C154_empty",
    "vm.C154_error",
    "vm.C154_exact",
    "vm.C154_nan_fails",
    "vm.C154_order_fails",
    "vm.C154_zero_fails"
   ],
   "note": ""
  },
  {
   "property": "C155",
   "status": "proved",
   "theorems": [
    "vm.C155_axis",
    "vm.C155_large_fails",
    "vm.C155_vertex",
    "vm.C155_hit"
   ],
   "note": ""
  },
  {
   "property": "C156",
   "status": "proved",
   "theorems": [
    "vm.C156_model",
    "vm.C156_decision",
    "vm.C156_single",
    "vm.C156_three",
    "vm.C156_three_numbers",
    "vm.C156_float_fails",
    "vm.C156_double_fails"
   ],
   "note": ""
  },
  {
   "property": "C157",
   "status": "proved",
   "theorems": [
    "vm.C157_model",
    "vm.C157_shape",
    "vm.C157_numbers",
    "vm.C157_float_fails",
    "vm.C157_numbers_zero"
   ],
   "note": ""
  },
  {
   "property": "C158",
   "status": "proved",
   "theorems": [
    "vm.C158_select",
    "vm.C158_exact",
    "vm.C158_hole_fails",
    "vm.C158_model"
   ],
   "note": ""
  },
  {
   "property": "C159",
   "status": "proved",
   "theorems": [
    "vm.C159_flip",
    "vm.C159_flip_same",
    "vm.C159_from_points",
    "vm.C159_reflect",
    "vm.C159_rotate_fails"
   ],
   "note": ""
  },
  {
   "property": "C160",
   "status": "proved",
   "theorems": [
    "vm.C160_dot",
    "vm.C160_length",
    "vm.C160_normalize",
    "vm.C160_distance",
    "vm.C160_cross",
    "vm.C160_plane_normal",
    "vm.C160_point_distance",
    "vm.C160_ray_plane",
    "vm.C160_tiny_fails"
   ],
   "note": ""
  },
  {
   "property": "C161",
   "status": "proved",
   "theorems": [
    "vm.C161_cross",
    "vm.C161_parallel",
    "vm.C161_dot",
    "vm.C161_determinant",
    "vm.C161_length",
    "vm.C161_normalize",
    "vm.C161_distance",
    "vm.C161_back",
    "vm.C161_dot_three",
    "vm.C161_center",
    "vm.C161_float_fails",
    "vm.C161_dot_three_fails"
   ],
   "note": ""
  }
 ]
}
