{
 "C08": {
  "status": "proved",
  "note": "Termination and result proved in exact arithmetic; under rounding the loop may diverge, also proved (C08_absorption_diverges)."
 },
 "C10": {
  "status": "partial",
  "note": "Holds for decimals = 0. For decimals >= 1 the code is inert (C10_correct_decimals_inert) and the claim is false (C10_counterexample)."
 },
 "C11": {
  "status": "partial",
  "note": "False for arguments of opposite sign (C11_counterexample); the exact condition is proved, and the unsigned branch is correct."
 },
 "C81": {
  "status": "proved",
  "note": "In exact arithmetic the loop itself does not end unless the root is hit (C81_exact_arithmetic_diverges); its behaviour in IEEE arithmetic is C83."
 },
 "C19": {
  "status": "proved",
  "note": "The floating point model does not distinguish +0 and -0, so equality is the == of C++ for non-NaN values."
 },
 "C36": {
  "status": "partial",
  "note": "False for the code: bounds() of an unused builder is an invalid box (min 1, max 0). C36_counterexample proves that; C36_initialized_partial proves what initialized() reports."
 },
 "C46": {
  "note": "Exact outside the dead zones; within 0.001 of parallel or antiparallel the code returns the identity or a half turn, which is proved to be inexact."
 },
 "C56": {
  "note": "Holds for similarities (C56_similarity_partial). False for other affine maps because the normal is transformed by M instead of its inverse transpose (C56_fails, C56_characterisation)."
 },
 "C60": {
  "note": "Soundness and completeness with the exact tolerances of the code; degenerate segments contain nothing and the end tolerance is asymmetric (C60_degenerate, C60_end_tolerance)."
 },
 "C63": {
  "note": "compare: fully proved. compareUnoriented: 0 also for polygons differing only in the second vertex, not transitive (C63_unoriented_fails, C63_unoriented_not_transitive); the exact deviation is proved in C63_unoriented_partial."
 },
 "C80": {
  "note": "Bounding boxes: proved for every monotone conversion. Segments and polygons: proved for exact conversions, false for monotone ones (C80_segment_fails, C80_polygon_fails)."
 },
 "C47": {
  "note": "axis() is not normalised for small angles; proved as a failure beside the positive theorems."
 },
 "C66": {
  "note": "False for an origin inside the box with a zero direction component (result NaN): C66_fails, C66_inside_axis_parallel. C66_inside_partial needs all components non-zero; C66_outside is complete."
 },
 "C68": {
  "note": "False with the shipped absolute tolerance 0.001 (C68_fails). C68_ray_torus_partial holds whenever the tolerance does not influence the quartic solver, in particular for tolerance 0."
 },
 "C69": {
  "note": "False when a vertex is at the height of the point (C69_fails). C69_convex_partial covers convex polygons in general position, C69_even_odd every polygon, C69_vertex and C69_edge the boundary."
 },
 "C71": {
  "note": "Distances from a point to a ray and to a segment are minimal. For a segment whose end points coincide the code divides 0 by 0 and the result is NaN (C71_segment_degenerate)."
 },
 "C72": {
  "status": "partial",
  "note": "The reported positions always attain the reported distance, and the distance is minimal if the closest points of the carrier lines satisfy the constraints or the carriers are parallel in the way stated. It is not minimal when a position is clamped to the origin of the ray without recomputing the other one, and for antiparallel rays that point apart (C72_*_fails)."
 },
 "C48": {
  "status": "partial",
  "note": "False as stated (C48_equality_fails): == compares (r,v) with (-r,v) as equal, which are inverse rotations, and unary minus negates only the real part. What == does guarantee is C48_equality_partial."
 },
 "C75": {
  "note": "Proved for scalars, in exact and in floating point arithmetic, and for equality of lists, vectors, matrices and lines. For vectors <, ==, > exclude each other but are not exhaustive (C75_vec_fails)."
 },
 "C73": {
  "status": "partial",
  "note": "The hull theorem (C73_hull), the strict weak order of the comparator (C73_comparator) and the exact condition for an empty result (C73_empty) are proved for every std::sort. The condition as stated in C73 fails if the first two points coincide (C73_empty_fails), and vertices need not be corners (C73_not_minimal)."
 },
 "C26": {
  "status": "proved",
  "note": "Relative to the number reader and printer, which are parameters. A string_view must be followed in memory by a terminating character; C26_view_fails shows what happens otherwise."
 },
 "C27": {
  "status": "partial",
  "note": "Termination proved for every string. The list of tuples is correct for well formed separators (C27_list_partial); for other mixes of the documented separators tuples are lost or invented (C27_comma_fails, C27_parentheses_fails, C27_space_comma_fails)."
 },
 "C77": {
  "status": "proved",
  "note": "Relative to the number reader and printer, which are parameters."
 },
 "C83": {
  "status": "proved",
  "note": "All IEEE binary formats with at least 3 bits and an exponent range of at least twice the precision below 1, so float and double; +0 and -0 are not distinguished."
 },
 "C84": {
  "note": "Every IEEE binary format; +0 and -0 are not distinguished."
 },
 "C85": {
  "status": "partial",
  "note": "False: round(0.49999999999999994) is 1 (C85_below_half_fails) and round(8388609.0f) is 8388610 (C85_odd_integer_fails). C85_round_partial proves the claim for all other numbers and the results for the exceptions."
 },
 "C86": {
  "note": "The quotient must be less than 2^63 and 2^p, otherwise it is not an integer of the format."
 },
 "C88": {
  "status": "partial",
  "note": "False: a double just below 17 turns is normalised to a negative number (C88_radians_fails). C88_mod_error_partial bounds how far the result can leave the interval."
 },
 "C95": {
  "status": "partial",
  "note": "Correct for convex polygons away from the degenerate configurations of C69; a ray through the interior of a polygon that begins with three colinear vertices is reported to miss it (C95_ray_fails)."
 },
 "C96": {
  "status": "partial",
  "note": "operator* with a scalar multiplies the real part only: it is the product with the scalar only for the scalar one or a real quaternion (C96_scale_is_product_iff), and it changes the rotation (C96_scale_fails)."
 },
 "C97": {
  "status": "proved",
  "note": "The statement includes the failures, which are theorems of their own. C97_dot_error, C97_dot_finite, C97_point_distance, C97_point_status and C97_double are the positive claims; C97_float_fails is the witness that the default tolerance is too small for float."
 },
 "C98": {
  "status": "proved",
  "note": "The statement includes the failures, which are theorems of their own. The asymmetry is proved by C98_vec_symmetric_fails and C98_compare_antisymmetric_fails for every format; the other theorems are the positive claims."
 },
 "C99": {
  "status": "proved",
  "note": "The statement includes the failures, which are theorems of their own. C99_mix_range_fails and C99_smoothstep_monotone_fails refute the two claims that hold only in exact arithmetic (C15); the other theorems are the positive claims."
 },
 "C100": {
  "status": "proved",
  "note": "The statement includes the failures, which are theorems of their own. C100_vertices_fails and C100_center_fails are the witnesses, for every format; C100_vertices_exact, C100_vertices_near and the others are the positive claims."
 },
 "C101": {
  "status": "proved",
  "note": "The statement includes the failures, which are theorems of their own. C101_normalize_overflow_fails and C101_normalize_underflow_fails refute the claim for vectors whose squared length leaves the range of the format; the other theorems are the positive claims. std::sqrt enters as a specification (nearest number to the exact root), which exists_correctSqrt shows to be satisfiable."
 },
 "C102": {
  "status": "proved",
  "note": "The statement includes the failures, which are theorems of their own. C102_distance_zero_fails refutes that distance zero implies equality; the other theorems are the positive claims."
 },
 "C103": {
  "status": "proved",
  "note": "The statement includes the failures, which are theorems of their own. C103_identity_fails refutes neutrality of the identity for vectors with an infinite component; the other theorems are the positive claims. The model has one zero, so equalities are up to the sign of zero."
 },
 "C104": {
  "status": "proved",
  "note": "The statement includes the failures, which are theorems of their own (C104_grid_fails, C104_snap_down_up_twice_fails, C104_snap_down_exceeds_fails)."
 },
 "C106": {
  "status": "proved",
  "note": "The statement includes the failure, which is a theorem of its own (C106_underflow_fails)."
 },
 "C108": {
  "status": "proved",
  "note": "The statement includes the failures, which are theorems of their own (C108_inside_parallel_fails, C108_underflow_fails, C108_overflow_fails)."
 },
 "C109": {
  "status": "proved",
  "note": "The statement includes the failure, which is a theorem of its own (C109_overflow_fails)."
 },
 "C110": {
  "status": "proved",
  "note": "The statement includes the failure, which is a theorem of its own (C110_project_line_fails)."
 },
 "C111": {
  "status": "proved",
  "note": "The statement includes the failures, which are theorems of their own (C111_equal_fails, C111_count_fails)."
 },
 "C112": {
  "status": "proved",
  "note": "Backward error analysis of the LUP decomposition with partial pivoting and of both substitutions. The failure is a theorem of its own (C112_overflow_fails)."
 },
 "C113": {
  "status": "proved",
  "note": "The model has one zero, so the sign of a zero is not part of the claim. The failure is a theorem of its own (C113_overflow_fails)."
 },
 "C114": {
  "status": "proved",
  "note": "The overflows are theorems of their own (C114_length_fails, C114_center_fails)."
 },
 "C123": {
  "status": "proved",
  "note": "the statement includes the two failures beyond the bounds"
 }
}