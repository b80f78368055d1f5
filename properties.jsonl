{"id": "C01", "title": "Vector ordering is a strict weak order", "statement": "With the default epsilon, compare(a,b) on vectors returns a three-way result that is antisymmetric and transitive and for which 'compare == 0' is an equivalence, even when components are NaN or infinite; hence operator< can be used safely in std::sort, std::set and std::min_element.", "quantifier": "all dimensions S, all pairs and triples of vectors whose components are arbitrary IEEE values including NaN and infinities", "why_tests_cant": "Transitivity ranges over all triples of values including NaN placements; a test samples finitely many triples and a single missing case makes std::sort undefined.", "anchors": ["include/vecmath/vec.h:compare(vec)", "include/vecmath/vec.h:operator<", "include/vecmath/vec.h:operator=="]}
{"id": "C02", "title": "Epsilon equality of vectors is componentwise closeness", "statement": "In exact arithmetic and for epsilon >= 0, is_equal(a,b,eps) holds exactly when every component differs by at most eps; compare with epsilon is antisymmetric; and (unlike the epsilon-0 case) epsilon equality is not transitive.", "quantifier": "all dimensions, all finite vectors, all epsilon >= 0", "why_tests_cant": "The claim is an equivalence over all real inputs and all epsilons.", "anchors": ["include/vecmath/vec.h:compare(vec)", "include/vecmath/vec.h:is_equal"]}
{"id": "C03", "title": "safe_min/safe_max ignore NaN", "statement": "safe_min(a,b,...) never returns NaN unless all arguments are NaN, and otherwise returns the least non-NaN argument; safe_max dually. Plain min/max return one of their arguments and, without NaN, the least/greatest.", "quantifier": "all argument lists of any length with components in any IEEE-ordered type", "why_tests_cant": "Ranges over all argument counts and all NaN positions.", "anchors": ["include/vecmath/scalar.h:min", "include/vecmath/scalar.h:max", "include/vecmath/scalar.h:safe_min", "include/vecmath/scalar.h:safe_max"]}
{"id": "C04", "title": "Clamping lands in the interval and only moves outside values", "statement": "If minVal <= maxVal then clamp(v,minVal,maxVal) lies in [minVal,maxVal], equals v when v is already inside, is the closest point of the interval, is idempotent and monotone; scalar and vector clamp agree componentwise. If minVal > maxVal they differ: scalar clamp yields minVal, vector clamp maxVal.", "quantifier": "all values and all interval bounds", "why_tests_cant": "Quantifies over all reals and both orders of the bounds.", "anchors": ["include/vecmath/scalar.h:clamp", "include/vecmath/vec.h:clamp"]}
{"id": "C05", "title": "trunc/floor/ceil/round/fract compute the mathematical functions", "statement": "For |v| < 2^63, trunc, floor, ceil, round and fract return the integral part toward zero, the greatest integer <= v, the least integer >= v, the nearest integer with ties away from zero and v - trunc(v). Outside that range the int64 conversion makes the call undefined.", "quantifier": "all finite v; the definedness condition is part of the claim", "why_tests_cant": "Ranges over all reals; the boundary of definedness (2^63) is never exercised by tests.", "anchors": ["include/vecmath/scalar.h:trunc", "include/vecmath/scalar.h:floor", "include/vecmath/scalar.h:ceil", "include/vecmath/scalar.h:round", "include/vecmath/scalar.h:fract"]}
{"id": "C06", "title": "Snapping returns nearby grid points", "statement": "For a positive grid f, snap(v,f) is an integer multiple of f within f/2 of v; snapUp returns the multiple of f with the least magnitude not below |v| and snapDown the one with the greatest magnitude not above |v|; grid points are fixed points; vector versions act componentwise.", "quantifier": "all values, all positive grid sizes", "why_tests_cant": "Universal over reals and grids.", "anchors": ["include/vecmath/scalar.h:snap", "include/vecmath/scalar.h:snapUp", "include/vecmath/scalar.h:snapDown", "include/vecmath/vec.h:snap"]}
{"id": "C07", "title": "mod is the truncated remainder", "statement": "mod(x,y) for y != 0 differs from x by an integer multiple of y, has magnitude below |y|, and has the sign of x or is zero.", "quantifier": "all x and all nonzero y with |x/y| < 2^63", "why_tests_cant": "Universal over pairs of reals.", "anchors": ["include/vecmath/scalar.h:mod", "include/vecmath/vec.h:mod"]}
{"id": "C08", "title": "Angle normalisation terminates in [0,360) with a congruent angle", "statement": "normalize_degrees(a) terminates and returns the unique value in [0,360) that differs from a by an integer multiple of 360 (normalize_radians: [0,2pi)).", "quantifier": "all finite angles; also all floating-point formats for the termination question", "why_tests_cant": "Termination for all inputs cannot be tested; with rounding the loop does not terminate for large negative angles, which no finite test distinguishes from slowness.", "anchors": ["include/vecmath/scalar.h:normalize_radians", "include/vecmath/scalar.h:normalize_degrees"]}
{"id": "C09", "title": "succ and pred walk a cycle in opposite directions", "statement": "For 0 < count and index, stride in range without wrap-around, succ and pred return values below count, are mutually inverse for equal stride, agree with addition and subtraction modulo count, and iterating succ count times with stride 1 returns to the start visiting every index.", "quantifier": "all indices, counts and strides of an unsigned machine integer type, with the no-overflow side condition made explicit", "why_tests_cant": "Universal over machine integers; the overflow boundary is far outside test inputs.", "anchors": ["include/vecmath/scalar.h:succ", "include/vecmath/scalar.h:pred"]}
{"id": "C10", "title": "correct() rounds values that are close to a multiple and leaves others alone", "statement": "correct(v,d,eps) returns the nearest multiple of the chosen precision when v is within eps of it, and v otherwise.", "quantifier": "all values, precisions and epsilons", "why_tests_cant": "The documented behaviour fails for every precision other than 0, which single-precision tests do not expose.", "anchors": ["include/vecmath/scalar.h:correct", "include/vecmath/vec.h:correct"]}
{"id": "C11", "title": "abs_difference is the absolute difference", "statement": "abs_difference(a,b) = |a - b|.", "quantifier": "all pairs of values", "why_tests_cant": "Universal over pairs; fails exactly when the arguments have opposite signs.", "anchors": ["include/vecmath/scalar.h:abs_difference"]}
{"id": "C12", "title": "solve_quadratic returns exactly the real roots", "statement": "For a != 0 and epsilon 0, solve_quadratic(a,b,c) returns the number of distinct real roots and the roots themselves: every reported solution is a root and every real root is reported.", "quantifier": "all real coefficients with a != 0", "why_tests_cant": "Completeness quantifies over all reals that could be roots.", "anchors": ["include/vecmath/scalar.h:solve_quadratic"]}
{"id": "C13", "title": "solve_cubic returns exactly the real roots", "statement": "For a != 0 and epsilon 0, solve_cubic returns exactly the set of real roots, with the reported count equal to the number of distinct roots.", "quantifier": "all real coefficients with a != 0", "why_tests_cant": "Completeness over all reals in all three discriminant cases.", "anchors": ["include/vecmath/scalar.h:solve_cubic"]}
{"id": "C14", "title": "solve_quartic returns exactly the real roots", "statement": "For a != 0 and epsilon 0, every solution that solve_quartic reports is a root and every real root is reported within the reported count.", "quantifier": "all real coefficients with a != 0", "why_tests_cant": "Completeness over all reals; loss of the second quadratic's roots only shows for particular coefficient regions.", "anchors": ["include/vecmath/scalar.h:solve_quartic"]}
{"id": "C15", "title": "Interpolation stays in range", "statement": "mix(a,b,0)=a, mix(a,b,1)=b, mix is affine in its parameter and stays between a and b for parameters in [0,1]; smoothstep is 0 below the lower edge, 1 above the upper edge, in [0,1] and monotone for edge0 < edge1; step and sign are the unit step and the sign function.", "quantifier": "all values and parameters", "why_tests_cant": "Monotonicity and range over all reals.", "anchors": ["include/vecmath/scalar.h:mix", "include/vecmath/scalar.h:smoothstep", "include/vecmath/scalar.h:step", "include/vecmath/scalar.h:sign", "include/vecmath/vec.h:mix"]}
{"id": "C16", "title": "The constexpr quicksort sorts", "statement": "detail::sort permutes the range in place for every comparator (even an inconsistent one), touches nothing outside the range, terminates, and for a strict weak order leaves the range sorted.", "quantifier": "all ranges of any length, all comparators", "why_tests_cant": "All inputs of all lengths; NaN comparators and adversarial orders are never enumerated.", "anchors": ["include/vecmath/constexpr_util.h:detail::sort", "include/vecmath/vec.h:sort_vector"]}
{"id": "C17", "title": "find_max_component returns the k-th largest component", "statement": "find_max_component(v,k) is a valid index and the value there has exactly the k-th rank: at least k other components are >= it and at least S-k-1 others are <= it; find_abs_max_component the same on magnitudes; get_max_component and the axis variants are consistent with it.", "quantifier": "all dimensions, all vectors, all k < S; index validity also with NaN components", "why_tests_cant": "Universal over vectors and k.", "anchors": ["include/vecmath/vec.h:find_max_component", "include/vecmath/vec.h:find_abs_max_component", "include/vecmath/vec.h:get_max_component", "include/vecmath/vec.h:get_abs_max_component", "include/vecmath/vec.h:get_abs_max_component_axis"]}
{"id": "C18", "title": "swizzle and unswizzle are inverse", "statement": "For every axis, unswizzle(swizzle(v,a),a) = v and swizzle(unswizzle(v,a),a) = v; swizzle moves the selected axis to the z position and preserves dot and cross products.", "quantifier": "all 3-vectors over any scalar type (bit-exact, no arithmetic), all axes", "why_tests_cant": "All vectors.", "anchors": ["include/vecmath/vec.h:swizzle", "include/vecmath/vec.h:unswizzle"]}
{"id": "C19", "title": "Dot and cross product laws", "statement": "dot is symmetric and bilinear; cross(a,b) is orthogonal to both arguments, antisymmetric, zero exactly for linearly dependent vectors and satisfies Lagrange's identity; in floating point cross(a,b) = -cross(b,a) and dot(a,b) = dot(b,a) still hold exactly.", "quantifier": "all vectors; the last clause for every rounding", "why_tests_cant": "Universal over vectors and rounding functions.", "anchors": ["include/vecmath/vec.h:dot", "include/vecmath/vec.h:cross", "include/vecmath/vec.h:squared_length"]}
{"id": "C20", "title": "Length, distance and normalisation", "statement": "length is the Euclidean norm, distance is a metric, normalize(v) for v != 0 is the unique unit vector pointing in the direction of v, normalize(0) is NaN in all components; is_unit accepts exactly the vectors whose length is within epsilon of 1.", "quantifier": "all dimensions and all vectors", "why_tests_cant": "Universal over vectors.", "anchors": ["include/vecmath/vec.h:length", "include/vecmath/vec.h:normalize", "include/vecmath/vec.h:distance", "include/vecmath/vec.h:is_unit"]}
{"id": "C21", "title": "is_colinear decides colinearity", "statement": "With epsilon 0, is_colinear(a,b,c) is true exactly when the three points lie on a common line, in every dimension.", "quantifier": "all dimensions and all point triples", "why_tests_cant": "An equivalence over all triples.", "anchors": ["include/vecmath/vec.h:is_colinear", "include/vecmath/vec.h:is_parallel"]}
{"id": "C22", "title": "is_between decides betweenness", "statement": "For a point on the line through start and end, is_between returns true exactly when the point lies on the closed segment.", "quantifier": "all dimensions and all points", "why_tests_cant": "An equivalence over all triples.", "anchors": ["include/vecmath/vec.h:is_between"]}
{"id": "C23", "title": "Homogeneous coordinates round trip", "statement": "to_cartesian_coords(to_homogeneous_coords(v)) = v, and to_cartesian_coords is invariant under nonzero scaling.", "quantifier": "all vectors and scale factors", "why_tests_cant": "Universal.", "anchors": ["include/vecmath/vec.h:to_homogeneous_coords", "include/vecmath/vec.h:to_cartesian_coords"]}
{"id": "C24", "title": "average is the centroid", "statement": "average of a non-empty list is the arithmetic mean: its deviation vectors sum to zero, it is invariant under permutation and commutes with translation, and it lies in every bounding box containing the points.", "quantifier": "all non-empty lists of any length", "why_tests_cant": "Lists of all lengths.", "anchors": ["include/vecmath/vec.h:average", "include/vecmath/polygon.h:center"]}
{"id": "C25", "title": "measure_angle is the counter-clockwise angle", "statement": "For unit vectors v and axis orthogonal to the unit vector up, measure_angle(v,axis,up) is in [0,2pi) and rotating axis by that angle about up yields v.", "quantifier": "all unit vectors orthogonal to up", "why_tests_cant": "Universal over pairs of unit vectors.", "anchors": ["include/vecmath/vec.h:measure_angle"]}
{"id": "C26", "title": "Vector text round trip", "statement": "Printing a vector and parsing the text yields the vector again; parse returns nullopt exactly when fewer than S tokens are present and ignores surrounding blanks and parentheses.", "quantifier": "all vectors and all strings, relative to a number printer and reader that are inverse to each other on single tokens", "why_tests_cant": "All strings.", "anchors": ["include/vecmath/vec_io.h:doParse", "include/vecmath/vec_io.h:parse", "include/vecmath/vec_io.h:operator<<"]}
{"id": "C27", "title": "parse_all terminates and reads every vector", "statement": "parse_all terminates on every string and, for texts that consist of S-tuples separated by blanks, parentheses, commas or semicolons, returns all of them in order.", "quantifier": "all strings", "why_tests_cant": "Termination and completeness over all strings.", "anchors": ["include/vecmath/vec_io.h:parse_all"]}
{"id": "C28", "title": "A bounding box builder yields the smallest enclosing box of everything added", "statement": "After any sequence of add(point) and add(box) calls with at least one addition, bounds() is valid, contains everything added and is contained in every box that does; the order and repetition of additions do not matter.", "quantifier": "all sequences of operations of any length", "why_tests_cant": "Histories of arbitrary length and order.", "anchors": ["include/vecmath/bbox.h:bbox::builder", "include/vecmath/bbox.h:merge_all", "include/vecmath/bbox.h:merge"]}
{"id": "C29", "title": "Bounding box predicates are the set predicates", "statement": "For valid boxes, contains(point), contains(box), encloses and intersects agree with membership, inclusion, interior inclusion and non-empty intersection of the point sets.", "quantifier": "all dimensions, boxes and points", "why_tests_cant": "Equivalences with quantified set notions.", "anchors": ["include/vecmath/bbox.h:contains", "include/vecmath/bbox.h:encloses", "include/vecmath/bbox.h:intersects"]}
{"id": "C30", "title": "Box intersection and merge are lattice operations", "statement": "merge is commutative, associative, idempotent and the least upper bound; intersect(a,b) for intersecting boxes is the exact set intersection and the greatest lower bound; for disjoint boxes it is the degenerate box at the origin.", "quantifier": "all boxes", "why_tests_cant": "Algebraic laws over all boxes.", "anchors": ["include/vecmath/bbox.h:merge", "include/vecmath/bbox.h:intersect"]}
{"id": "C31", "title": "constrain projects onto the box", "statement": "constrain(p) lies in the box, equals p for p in the box, and is the closest point of the box to p.", "quantifier": "all valid boxes and all points", "why_tests_cant": "Optimality quantifies over all points of the box.", "anchors": ["include/vecmath/bbox.h:constrain"]}
{"id": "C32", "title": "Moving and growing boxes", "statement": "translate and expand (f >= 0) keep a box valid and transport containment: p in b iff p+d in translate(b,d); expand(f) contains exactly the points within f of b in every coordinate; size, center and volume are consistent with min and max.", "quantifier": "all boxes, offsets and amounts; validity clauses for every monotone rounding", "why_tests_cant": "Universal over boxes and offsets.", "anchors": ["include/vecmath/bbox.h:translate", "include/vecmath/bbox.h:expand", "include/vecmath/bbox.h:center", "include/vecmath/bbox.h:size", "include/vecmath/bbox.h:volume"]}
{"id": "C33", "title": "Transforming a box encloses the image", "statement": "transform(b,M) for affine M is the smallest axis-aligned box containing the image of every point of b.", "quantifier": "all boxes and all affine transformations", "why_tests_cant": "Containment for all points of the box and minimality over all boxes.", "anchors": ["include/vecmath/bbox.h:transform"]}
{"id": "C34", "title": "Face, edge and vertex enumeration of a box", "statement": "for_each_vertex visits each corner exactly once, for_each_edge visits exactly the twelve pairs of corners that differ in one coordinate, for_each_face visits six planar faces whose vertices are corners, whose announced normal points outward, and whose winding is clockwise seen from outside.", "quantifier": "all boxes", "why_tests_cant": "Universal over boxes including orientation.", "anchors": ["include/vecmath/bbox.h:for_each_vertex", "include/vecmath/bbox.h:for_each_edge", "include/vecmath/bbox.h:for_each_face", "include/vecmath/bbox.h:vertices", "include/vecmath/bbox.h:corner"]}
{"id": "C35", "title": "relative_position classifies points per axis", "statement": "relative_position reports less/within/greater per axis exactly when the coordinate is below, inside or above the box range; all 'within' iff contains.", "quantifier": "all boxes and points", "why_tests_cant": "Equivalence over all points.", "anchors": ["include/vecmath/bbox.h:relative_position"]}
{"id": "C36", "title": "An unused builder yields an empty box", "statement": "bounds() on a builder to which nothing was added returns the documented empty box at the origin.", "quantifier": "the empty history", "why_tests_cant": "Documented behaviour of a state that no test observes.", "anchors": ["include/vecmath/bbox.h:bbox::builder::bounds"]}
{"id": "C37", "title": "Matrix algebra", "statement": "Matrix multiplication is associative and distributive with the default constructed matrix as unit, transpose is an involution reversing products, and matrix-vector multiplication is compatible with products: (A*B)*v = A*(B*v) and v*(A*B) = (v*A)*B.", "quantifier": "all sizes and all matrices", "why_tests_cant": "Universal over sizes and entries.", "anchors": ["include/vecmath/mat.h:operator*", "include/vecmath/mat.h:transpose", "include/vecmath/mat.h:operator+", "include/vecmath/mat.h:mat()"]}
{"id": "C38", "title": "compute_determinant is the determinant", "statement": "compute_determinant equals the mathematical determinant for every size, hence it is multiplicative, invariant under transposition and zero exactly for singular matrices.", "quantifier": "all sizes S >= 1 and all matrices", "why_tests_cant": "Universal over sizes; tests use 2, 3 and 4 only.", "anchors": ["include/vecmath/mat.h:compute_determinant", "include/vecmath/mat.h:matrix_determinant", "include/vecmath/mat.h:extract_minor"]}
{"id": "C39", "title": "compute_adjugate is the adjugate", "statement": "m * compute_adjugate(m) = det(m) * I for every size.", "quantifier": "all sizes S >= 2 and all matrices", "why_tests_cant": "Universal over sizes and entries.", "anchors": ["include/vecmath/mat.h:compute_adjugate"]}
{"id": "C40", "title": "lup_solve solves linear systems", "statement": "If lup_solve(A,b) reports success with x then A*x = b and A is non-singular; if A is singular it reports failure.", "quantifier": "all sizes, matrices and right-hand sides", "why_tests_cant": "Universal over sizes, entries and pivoting decisions.", "anchors": ["include/vecmath/mat.h:lup_solve", "include/vecmath/mat.h:lup_find_decomposition", "include/vecmath/mat.h:lup_solve_internal"]}
{"id": "C41", "title": "invert computes the inverse", "statement": "If invert(A) reports success with B then A*B = B*A = I; for singular A it reports failure; on failure the returned matrix is the identity.", "quantifier": "all sizes and matrices", "why_tests_cant": "Universal over sizes, entries and pivoting decisions.", "anchors": ["include/vecmath/mat.h:invert"]}
{"id": "C42", "title": "Affine matrices act as advertised", "statement": "translation_matrix(d)*p = p+d, scaling_matrix(f)*p scales componentwise, mirror_matrix negates one coordinate, strip_translation removes exactly the translation, applying a product of affine matrices equals applying them one after the other, and translations/scalings compose and invert additively/multiplicatively.", "quantifier": "all dimensions, points and parameters", "why_tests_cant": "Universal.", "anchors": ["include/vecmath/mat_ext.h:translation_matrix", "include/vecmath/mat_ext.h:scaling_matrix", "include/vecmath/mat_ext.h:mirror_matrix", "include/vecmath/mat_ext.h:strip_translation", "include/vecmath/mat.h:operator*(mat,vec)"]}
{"id": "C43", "title": "Rotation matrices are rotations", "statement": "rotation_matrix(axis,angle), rotation_matrix(roll,pitch,yaw) and rotation_matrix(quat) are orthogonal with determinant 1; the axis is fixed; opposite angles are inverse; angles add for a common axis.", "quantifier": "all unit axes, all angles, all unit quaternions", "why_tests_cant": "Universal over reals.", "anchors": ["include/vecmath/mat_ext.h:rotation_matrix"]}
{"id": "C44", "title": "Euler angles round trip", "statement": "rotation_matrix(rotation_matrix_to_euler_angles(M)) = M for every rotation matrix M, including the two gimbal lock cases.", "quantifier": "all rotation matrices", "why_tests_cant": "Universal over rotations, including measure-zero cases.", "anchors": ["include/vecmath/mat_ext.h:rotation_matrix_to_euler_angles"]}
{"id": "C45", "title": "Quaternion multiplication composes rotations", "statement": "Quaternion multiplication is associative; for unit quaternions (p*q)*v = p*(q*v), q*v preserves length and dot products, and q*v equals rotation_matrix(q)*v; the conjugate inverts the rotation.", "quantifier": "all quaternions and vectors", "why_tests_cant": "Universal over reals.", "anchors": ["include/vecmath/quat.h:operator*", "include/vecmath/quat.h:conjugate", "include/vecmath/mat_ext.h:rotation_matrix(quat)"]}
{"id": "C46", "title": "The shortest-arc quaternion maps from to to", "statement": "quat(from,to)*from = to for unit vectors from and to, and the quaternion is a unit quaternion.", "quantifier": "all pairs of unit vectors", "why_tests_cant": "Universal; fails only near (anti)parallel vectors, where thresholds intervene.", "anchors": ["include/vecmath/quat.h:quat(from,to)", "include/vecmath/mat_ext.h:rotation_matrix(from,to)"]}
{"id": "C47", "title": "Axis/angle accessors invert the axis/angle constructor", "statement": "For a unit axis and angle strictly between 0 and 2pi, quat(axis,angle).angle() = angle and axis() = axis, and quat(axis,angle) rotates by angle about axis (Rodrigues).", "quantifier": "all unit axes and angles", "why_tests_cant": "Universal over reals.", "anchors": ["include/vecmath/quat.h:quat(axis,angle)", "include/vecmath/quat.h:angle", "include/vecmath/quat.h:axis"]}
{"id": "C48", "title": "Quaternion equality means equal rotation", "statement": "q1 == q2 holds exactly when both represent the same rotation, and -q represents the same rotation as q.", "quantifier": "all pairs of unit quaternions", "why_tests_cant": "An equivalence over all pairs.", "anchors": ["include/vecmath/quat.h:operator==", "include/vecmath/quat.h:is_equal", "include/vecmath/quat.h:operator-"]}
{"id": "C49", "title": "Projection matrices map the view volume to the unit cube", "statement": "ortho_matrix maps the box corners to the corners of [-1,1]^3 and perspective_matrix maps the near and far planes to depth -1 and +1 and the frustum sides to +-1.", "quantifier": "all non-degenerate view volumes", "why_tests_cant": "Universal over parameters.", "anchors": ["include/vecmath/mat_ext.h:ortho_matrix", "include/vecmath/mat_ext.h:perspective_matrix"]}
{"id": "C50", "title": "View and coordinate system matrices change basis", "statement": "view_matrix(direction,up) maps direction to the negative z axis and up to the y axis; coordinate_system_matrix maps the given origin and axes to the world origin and axes when it is non-NaN.", "quantifier": "all orthonormal frames / all linearly independent axes", "why_tests_cant": "Universal.", "anchors": ["include/vecmath/mat_ext.h:view_matrix", "include/vecmath/mat_ext.h:coordinate_system_matrix"]}
{"id": "C51", "title": "plane_projection_matrix flattens along the direction", "statement": "The plane projection matrix maps every point onto the plane's z=0 coordinate frame along the given direction and keeps points of the plane distinguishable (invertible frame).", "quantifier": "all planes and directions not parallel to the plane", "why_tests_cant": "Universal.", "anchors": ["include/vecmath/mat_ext.h:plane_projection_matrix"]}
{"id": "C52", "title": "Box scale and shear matrices hit their target box", "statement": "scale_bbox_matrix(old,new) maps old.min to new.min and old.max to new.max; scale_bbox_matrix_with_anchor additionally fixes the anchor; shear_bbox_matrix fixes the opposite side pointwise and moves the sheared side by the tangential part of delta.", "quantifier": "all boxes with non-zero extent and all deltas", "why_tests_cant": "Universal.", "anchors": ["include/vecmath/mat_ext.h:scale_bbox_matrix", "include/vecmath/mat_ext.h:scale_bbox_matrix_with_anchor", "include/vecmath/mat_ext.h:shear_bbox_matrix"]}
{"id": "C53", "title": "points_transformation_matrix maps the given points", "statement": "If points_transformation_matrix does not fail, the returned matrix maps every input point to the corresponding output point; failure is reported as NaN.", "quantifier": "all triples / quadruples of point pairs", "why_tests_cant": "Universal; correctness depends on a 9x9 pivoted elimination.", "anchors": ["include/vecmath/mat_ext.h:points_transformation_matrix"]}
{"id": "C54", "title": "Planes through points", "statement": "from_points succeeds only with a plane whose unit normal is orthogonal to both edge vectors, oriented clockwise, and which contains all three points; it fails for colinear points.", "quantifier": "all point triples", "why_tests_cant": "Universal.", "anchors": ["include/vecmath/plane.h:from_points", "include/vecmath/plane.h:plane_normal"]}
{"id": "C55", "title": "Plane queries are consistent", "statement": "point_distance is the signed distance, flip negates it, project_point lands on the plane and is closest, projecting along a direction moves only along it, at() returns a coordinate that puts the point on the plane whenever the normal component is non-zero, and point_status partitions space.", "quantifier": "all planes with unit normal and all points", "why_tests_cant": "Universal.", "anchors": ["include/vecmath/plane.h:point_distance", "include/vecmath/plane.h:flip", "include/vecmath/plane.h:project_point", "include/vecmath/plane.h:at", "include/vecmath/plane.h:point_status"]}
{"id": "C56", "title": "Transforming a plane transforms its points", "statement": "A point lies on p iff its image lies on p.transform(M).", "quantifier": "all planes, points and invertible affine transformations", "why_tests_cant": "Universal over transformations; true only for rigid ones.", "anchors": ["include/vecmath/plane.h:transform"]}
{"id": "C57", "title": "Line equality is equality of point sets", "statement": "For lines with unit direction, l1 == l2 exactly when they consist of the same points; make_canonical keeps the point set and is idempotent.", "quantifier": "all pairs of lines in all dimensions", "why_tests_cant": "Equivalence with a quantified set equality.", "anchors": ["include/vecmath/line.h:make_canonical", "include/vecmath/line.h:operator=="]}
{"id": "C58", "title": "Projection onto a line-like object is the nearest point", "statement": "project_point(l,p) for unit direction is the point of the carrier line closest to p, distance_to_projected_point its parameter, and the residual is orthogonal to the line.", "quantifier": "all lines and points", "why_tests_cant": "Optimality over all points of the line.", "anchors": ["include/vecmath/abstract_line.h:project_point", "include/vecmath/abstract_line.h:distance_to_projected_point", "include/vecmath/abstract_line.h:point_at_distance"]}
{"id": "C59", "title": "Segments are canonical", "statement": "segment(p,q) == segment(q,p), start() <= end() after every constructor and operation, the end points are exactly the given points, and == holds exactly for equal point pairs; segment comparison is a strict weak order.", "quantifier": "all pairs of points, including NaN components; all operation sequences", "why_tests_cant": "Universal over points and histories.", "anchors": ["include/vecmath/segment.h:segment", "include/vecmath/segment.h:compare", "include/vecmath/segment.h:transform", "include/vecmath/segment.h:translate"]}
{"id": "C60", "title": "segment::contains means close to the segment", "statement": "contains(p,d) holds for every point within distance 0 of the segment and only for points within a bounded distance of it.", "quantifier": "all segments, points and d >= 0", "why_tests_cant": "Universal.", "anchors": ["include/vecmath/segment.h:contains"]}
{"id": "C61", "title": "Polygons are canonical up to rotation", "statement": "Constructing a polygon from a vertex list or from any rotation of it gives equal polygons (for distinct vertices), the vertex sequence is kept up to rotation, and the first vertex is least; polygon equality of distinct-vertex polygons is equality up to rotation.", "quantifier": "vertex lists of any length", "why_tests_cant": "All lists and all rotations.", "anchors": ["include/vecmath/polygon.h:polygon", "include/vecmath/polygon.h:rotate_min_to_front", "include/vecmath/polygon.h:operator=="]}
{"id": "C62", "title": "Polygon operations keep the vertices", "statement": "invert reverses orientation, is an involution and keeps the vertex set; translate and transform map vertices and commute with translation inverse; hasVertex is membership; center is the average; get_vertices lists all vertices.", "quantifier": "all polygons of any size", "why_tests_cant": "All lists.", "anchors": ["include/vecmath/polygon.h:invert", "include/vecmath/polygon.h:translate", "include/vecmath/polygon.h:transform", "include/vecmath/polygon.h:hasVertex", "include/vecmath/polygon.h:get_vertices"]}
{"id": "C63", "title": "Polygon comparison", "statement": "compare on polygons is a strict weak order consistent with ==, and compareUnoriented returns 0 exactly for polygons equal up to orientation.", "quantifier": "all pairs and triples of polygons", "why_tests_cant": "Universal over polygons.", "anchors": ["include/vecmath/polygon.h:compare", "include/vecmath/polygon.h:compareUnoriented", "include/vecmath/vec.h:compare(ranges)"]}
{"id": "C64", "title": "Ray/plane and line/plane intersection", "statement": "A non-NaN result s of intersect_ray_plane means the point at distance s lies on the plane and s is not significantly negative; when the ray properly meets the plane the result is that parameter; likewise intersect_line_plane.", "quantifier": "all rays, lines and planes with unit normal", "why_tests_cant": "Soundness and completeness over all inputs.", "anchors": ["include/vecmath/intersection.h:intersect_ray_plane", "include/vecmath/intersection.h:intersect_line_plane"]}
{"id": "C65", "title": "Ray/triangle intersection", "statement": "intersect_ray_triangle returns t exactly when the point at distance t lies in the triangle (a convex combination of the corners), up to its documented tolerance.", "quantifier": "all rays and triangles", "why_tests_cant": "Equivalence over all rays and triangles.", "anchors": ["include/vecmath/intersection.h:intersect_ray_triangle"]}
{"id": "C66", "title": "Ray/box intersection", "statement": "intersect_ray_bbox returns the distance to the first point where the ray meets the box surface, and NaN exactly when the ray misses the box.", "quantifier": "all rays and all valid boxes", "why_tests_cant": "Soundness and completeness over all rays; fails for axis-parallel rays starting inside.", "anchors": ["include/vecmath/intersection.h:intersect_ray_bbox"]}
{"id": "C67", "title": "Ray/sphere intersection", "statement": "intersect_ray_sphere returns the distance to the first sphere point in front of the origin and NaN exactly when there is none.", "quantifier": "all rays with unit direction and all spheres", "why_tests_cant": "Soundness, minimality and completeness over all rays.", "anchors": ["include/vecmath/intersection.h:intersect_ray_sphere"]}
{"id": "C68", "title": "Ray/torus intersection", "statement": "intersect_ray_torus returns the distance to the first torus point in front of the origin, and NaN exactly when there is none.", "quantifier": "all rays and tori", "why_tests_cant": "Soundness and completeness over all rays.", "anchors": ["include/vecmath/intersection.h:intersect_ray_torus"]}
{"id": "C69", "title": "Point in polygon", "statement": "polygon_contains_point returns true for every point inside a polygon and false for every point outside.", "quantifier": "all polygons of any size and all points of their plane", "why_tests_cant": "Universal; parity errors occur only for points level with a vertex.", "anchors": ["include/vecmath/intersection.h:polygon_contains_point", "include/vecmath/intersection.h:handle_polygon_edge_intersection"]}
{"id": "C70", "title": "Plane/plane intersection", "statement": "A non-default line returned by intersect_plane_plane lies in both planes; parallel planes give the default line.", "quantifier": "all pairs of planes with unit normals", "why_tests_cant": "Universal.", "anchors": ["include/vecmath/intersection.h:intersect_plane_plane"]}
{"id": "C71", "title": "Distance from a point to a ray or segment", "statement": "squared_distance(ray,p) and squared_distance(segment,p) return the minimum of the squared distances to all points of the ray or segment, attained at the reported position.", "quantifier": "all rays, segments and points", "why_tests_cant": "Minimality over all points of the object.", "anchors": ["include/vecmath/distance.h:squared_distance(ray,point)", "include/vecmath/distance.h:squared_distance(segment,point)"]}
{"id": "C72", "title": "Distance between rays, segments and lines", "statement": "squared_distance(ray,ray), (ray,segment) and (ray,line) return the minimum squared distance, attained at the reported positions.", "quantifier": "all pairs of objects", "why_tests_cant": "Minimality over all pairs of points; fails in clamped and anti-parallel cases.", "anchors": ["include/vecmath/distance.h:squared_distance(ray,segment)", "include/vecmath/distance.h:squared_distance(ray,ray)", "include/vecmath/distance.h:squared_distance(ray,line)"]}
{"id": "C73", "title": "Convex hull", "statement": "convex_hull of coplanar points returns a sub-list of the input that is a convex polygon containing every input point; it returns the empty list exactly when the points are colinear or fewer than three. The comparator given to std::sort is a strict weak order.", "quantifier": "point lists of any length, any outcome std::sort may produce", "why_tests_cant": "All lists and all sort implementations.", "anchors": ["include/vecmath/convex_hull.h:convex_hull"]}
{"id": "C74", "title": "Bezier surfaces interpolate corners and stay in the hull", "statement": "evaluate_quadratic_bezier_surface interpolates the four corner control points, is a convex combination of all nine for parameters in [0,1]^2 and is affine invariant.", "quantifier": "all control nets and parameters", "why_tests_cant": "Universal.", "anchors": ["include/vecmath/bezier_surface.h:evaluate_quadratic_bezier_surface"]}
{"id": "C75", "title": "approx comparisons are consistent", "statement": "For scalars exactly one of x < approx(v), x == approx(v), x > approx(v) holds, <= and >= are their unions, and x == approx(v) iff |x-v| <= eps.", "quantifier": "all values and epsilons >= 0", "why_tests_cant": "Trichotomy over all values.", "anchors": ["include/vecmath/approx.h:approx"]}
{"id": "C76", "title": "Element-wise list operators", "statement": "Adding a vector to, or multiplying by a scalar or matrix, a list or array of vectors applies the operation to each element, keeping length and order; composing list transformations equals transforming by the product.", "quantifier": "lists of any length", "why_tests_cant": "All lengths.", "anchors": ["include/vecmath/vec_ext.h:operator+", "include/vecmath/vec_ext.h:operator*", "include/vecmath/mat_ext.h:operator*(list)"]}
{"id": "C77", "title": "Matrix text round trip", "statement": "Printing a matrix and parsing the text yields the matrix again (row-major).", "quantifier": "all sizes and matrices, relative to an inverse number printer/reader", "why_tests_cant": "All matrices and sizes.", "anchors": ["include/vecmath/mat_io.h:parse", "include/vecmath/mat_io.h:operator<<"]}
{"id": "C78", "title": "Transforming rays, lines and segments transforms their points", "statement": "For an affine transformation whose linear part preserves lengths, transforming a ray or line maps the point at distance t to the point at distance t of the result; for general invertible affine maps the point set is mapped onto the result's point set.", "quantifier": "all affine transformations and all objects", "why_tests_cant": "Universal.", "anchors": ["include/vecmath/ray.h:transform", "include/vecmath/line.h:transform", "include/vecmath/segment.h:transform"]}
{"id": "C79", "title": "Constant rotation and mirror matrices", "statement": "The rot_90/rot_180/mirror constants are orthogonal, rotations have determinant 1 and mirrors -1, cw and ccw are inverse, two quarter turns give the half turn, four give the identity, and they agree with rotation_matrix for the corresponding angle.", "quantifier": "the constants over every scalar field, applied to all vectors", "why_tests_cant": "Applied to all vectors.", "anchors": ["include/vecmath/mat.h:rot_90_x_cw", "include/vecmath/mat.h:mirror_x"]}
{"id": "C80", "title": "Type conversion preserves class invariants", "statement": "Converting a bbox, segment or polygon to a narrower component type preserves the invariant of the class (min <= max, start <= end, least vertex first).", "quantifier": "all values and all monotone conversions", "why_tests_cant": "Fails only for values that become equal under rounding.", "anchors": ["include/vecmath/bbox.h:bbox(bbox<U,S>)", "include/vecmath/segment.h:segment(segment<U,S>)", "include/vecmath/polygon.h:polygon(polygon<U,S>)"]}
{"id": "C81", "title": "sqrt_c computes the square root", "statement": "Whatever sqrt_c returns for a non-negative argument is its square root; its iterates converge to the square root from above with the error at least halving per step; termination itself relies on rounding.", "quantifier": "all non-negative real arguments and all iteration counts", "why_tests_cant": "Convergence for all arguments and the dependence of termination on rounding cannot be observed by sampling arguments.", "anchors": ["include/vecmath/scalar.h: sqrt_c_nr", "include/vecmath/scalar.h: sqrt_c"]}
{"id": "C82", "title": "Repairing a box and comparing boxes", "statement": "bbox::repair always yields a valid box, namely the smallest one that contains both stored corners, and does not change a box that is already valid. operator== on valid boxes answers true exactly if the boxes contain the same points, and operator!= is its negation.", "quantifier": "all boxes in every dimension, valid or not", "why_tests_cant": "Tests repair a few boxes; the claim ranges over all corner pairs and over all boxes that could be smaller.", "anchors": ["include/vecmath/bbox.h: repair, operator==, operator!="]}
{"id": "C83", "title": "sqrt_c in IEEE arithmetic", "statement": "In float and double arithmetic sqrt_c terminates for every finite non-negative argument. No number of the format lies strictly between its result and the exact root, so the relative error is at most 2^(1-p) for p bits of precision, and the root of a representable square is exact. NaN, infinity and negative arguments give NaN, infinity and NaN.", "quantifier": "all finite non-negative arguments, subnormal ones and the largest number included, in every IEEE binary format", "why_tests_cant": "A double has 2^63 non-negative values; a cycle of the Newton iteration in rounded arithmetic, which would hang the compiler, could occur for a single one of them.", "anchors": ["include/vecmath/scalar.h: sqrt_c_nr", "include/vecmath/scalar.h: sqrt_c"]}
{"id": "C84", "title": "trunc, floor, ceil, fract, round_up and round_down are exact in IEEE arithmetic", "statement": "For every float or double v whose truncation fits an int64_t, trunc, floor, ceil, round_up and round_down return exactly the integer they are named after, and fract returns exactly v minus its truncation; no step rounds. For all other values, including NaN and the infinities, the conversion to int64_t is undefined behaviour.", "quantifier": "all values of every IEEE binary format", "why_tests_cant": "There are 2^64 doubles; rounding could affect only a few of them, near powers of two.", "anchors": ["include/vecmath/scalar.h: trunc, floor, ceil, fract, round_up, round_down"]}
{"id": "C85", "title": "round in IEEE arithmetic", "statement": "For every float or double v with |v| < 2^63, round(v) is the integer nearest to v, halves away from zero.", "quantifier": "all values of every IEEE binary format with at most 62 bits", "why_tests_cant": "It fails only for the number just below one half and for odd integers with the full number of bits.", "anchors": ["include/vecmath/scalar.h: round"]}
{"id": "C86", "title": "mod in IEEE arithmetic", "statement": "If the multiples of y next below and next above x are numbers of the format, then mod(x, y) is computed without any rounding error: it has the sign of x, is less than y in magnitude, and differs from x by an integral multiple of y.", "quantifier": "all x and all non-zero y of every IEEE binary format, with any signs", "why_tests_cant": "The rounded quotient x / y could reach the next integer for a few arguments just below a multiple.", "anchors": ["include/vecmath/scalar.h: mod"]}
{"id": "C87", "title": "normalize_degrees in IEEE arithmetic", "statement": "For every float or double angle of at most 8 * 2^p - 360 degrees in magnitude normalize_degrees terminates with a result in [0, 360). A non-negative angle is reduced exactly; for a negative angle the result is the exact residue rounded once, with a full turn replaced by 0.", "quantifier": "all such angles in every IEEE binary format with 7 to 62 bits", "why_tests_cant": "The claim covers the accumulated rounding error of up to 2^50 additions.", "anchors": ["include/vecmath/scalar.h: normalize_degrees"]}
{"id": "C88", "title": "normalize_radians in IEEE arithmetic", "statement": "The result of normalize_radians lies in [0, 2 pi) and differs from the angle by a multiple of the constant 2 pi, up to rounding.", "quantifier": "all non-negative angles of every IEEE binary format", "why_tests_cant": "The result is negative for a few doubles only, such as 106.81415022205296.", "anchors": ["include/vecmath/scalar.h: normalize_radians, mod", "include/vecmath/constants.h: two_pi"]}
{"id": "C89", "title": "Equality of composite objects", "statement": "is_equal with a tolerance holds for matrices, boxes, rays, planes, segments, polygons and quaternions exactly if all corresponding numbers differ by at most the tolerance (for quaternions up to the sign of the real part); it is reflexive, symmetric and monotone in the tolerance. operator== holds exactly for identical objects and operator!= is its negation. With floats, NaN elements of a matrix or ray compare equal to NaN, while a plane whose distance is NaN differs from itself.", "quantifier": "all objects, all dimensions, all non-negative tolerances", "why_tests_cant": "The equivalence with component-wise closeness quantifies over all pairs of objects and tolerances.", "anchors": ["include/vecmath/mat.h: is_equal, is_zero, operator==, operator!=", "include/vecmath/bbox.h: is_equal", "include/vecmath/ray.h: is_equal, operator==", "include/vecmath/plane.h: is_equal, operator==", "include/vecmath/segment.h: is_equal", "include/vecmath/polygon.h: is_equal", "include/vecmath/quat.h: is_equal"]}
{"id": "C90", "title": "abs_max, abs_min, angle units, contains, get_max_component", "statement": "abs_max and abs_min of any number of arguments return the last argument of largest or smallest absolute value. to_degrees and to_radians are inverse and linear. contains(v, s, e) holds exactly if v is between s and e in either order, and never for NaN. get_max_component and get_abs_max_component return the component at the index found by find_max_component and find_abs_max_component.", "quantifier": "all argument lists, all numbers (including NaN and infinities for contains and get_component), all vectors and all k", "why_tests_cant": "Which of several equal candidates is returned depends on the order for every argument list; the agreement of two sorting loops has to hold for all inputs including NaN.", "anchors": ["include/vecmath/scalar.h: abs_max, abs_min, to_degrees, to_radians, contains", "include/vecmath/vec.h: abs_max, abs_min, get_max_component, get_abs_max_component"]}
{"id": "C91", "title": "Component-wise vector functions", "statement": "abs, sign, step, smoothstep, fract, mod, correct with zero decimals, is_nan and division by and of scalars act on every component as the scalar functions do: v = abs(v) * sign(v), step and smoothstep are between their edges, fract and mod are the truncated remainders and are defined exactly if every component is in range.", "quantifier": "all vectors of every dimension", "why_tests_cant": "Definedness and values must hold in every component of vectors of every dimension.", "anchors": ["include/vecmath/vec.h: abs, sign, step, smoothstep, fract, mod, correct, is_nan, operator/"]}
{"id": "C92", "title": "Slices, conversions and element access", "statement": "Slicing and extending vectors are inverse to each other, slices of slices are slices, conversion to a longer vector and back is the identity and fills with zeros, vectors made from lists have the elements in order, setting a matrix element changes that element only, and slices and conversions of matrices have the expected elements.", "quantifier": "all vectors, matrices, sizes and offsets within the bounds", "why_tests_cant": "The statement is about all combinations of sizes and offsets.", "anchors": ["include/vecmath/vec.h: vec constructors, slice", "include/vecmath/mat.h: mat constructors, slice, set, fill"]}
{"id": "C93", "title": "The text of boxes, lines, rays and planes", "statement": "The text written for a box, line, ray or plane consists of the braces, the labels and the numbers in order, separated by blanks or parentheses; if different numbers have different texts then different objects have different texts.", "quantifier": "all objects of every dimension at least one, all ways to print numbers as non-empty words", "why_tests_cant": "Unambiguity is a statement about all pairs of objects.", "anchors": ["include/vecmath/bbox_io.h: operator<<", "include/vecmath/line_io.h: operator<<", "include/vecmath/ray_io.h: operator<<", "include/vecmath/plane_io.h: operator<<"]}
{"id": "C94", "title": "Boxes made from numbers", "statement": "bbox(s) is the cube of the points whose coordinates are at most s in absolute value, bbox(lo, hi) the cube of the points with all coordinates between lo and hi; the default box contains the origin only. Conversion by a monotone function keeps boxes valid and keeps contained points contained.", "quantifier": "all numbers, points and dimensions, all monotone conversions", "why_tests_cant": "Membership is claimed for all points.", "anchors": ["include/vecmath/bbox.h: bbox constructors, contains, is_valid, center, size"]}
{"id": "C95", "title": "Point in polygon and ray against polygon without a given plane", "statement": "polygon_contains_point(p, begin, end) and intersect_ray_polygon(r, begin, end) compute the plane from the first three vertices and then decide correctly for every convex polygon in that plane, in either orientation. If the first three vertices do not span a plane the former fails an assertion and the latter reports a miss.", "quantifier": "all convex polygons with any number of vertices, all points in the plane and all rays, except near the degenerate configurations of C69", "why_tests_cant": "The claim covers polygons with any number of vertices in any orientation in space.", "anchors": ["include/vecmath/intersection.h: polygon_contains_point, intersect_ray_polygon", "include/vecmath/plane.h: from_points, plane_normal"]}
{"id": "C96", "title": "Products of quaternions and scalars", "statement": "The product of a quaternion and a scalar is the same on both sides, is the quaternion product with the scalar, and does not change the direction of the quaternion. The default quaternion is zero. Conversions commute with product, conjugate and rotation.", "quantifier": "all quaternions and scalars", "why_tests_cant": "The claim quantifies over all quaternions and scalars.", "anchors": ["include/vecmath/quat.h: operator*, operator-, operator+, quat constructors"]}
{"id": "C97", "title": "Plane classification in IEEE arithmetic", "statement": "Computed with IEEE arithmetic of any binary format, the dot product of two vectors differs from the exact one by at most ((1+u)^n - 1) times the sum of the absolute products plus an underflow term, and plane::point_distance and point_status inherit the bound: point_status answers correctly for every point whose exact distance is farther from the tolerance than the bound. For double, coordinates up to 2^17, a normal with components of at most 1 and the default tolerance 0.0001, the answer is right beyond 10^-9 of the tolerance. For float this fails: a point whose plane equation has the value 0.00195 is reported inside.", "quantifier": "all binary formats, all dimensions, all finite vectors, planes and tolerances", "why_tests_cant": "A rounding error bound quantifies over all vectors of all formats; tests see only sampled rounding errors.", "anchors": ["include/vecmath/vec.h: dot", "include/vecmath/plane.h: point_distance, point_status"]}
{"id": "C98", "title": "Comparison with a tolerance in IEEE arithmetic", "statement": "In IEEE arithmetic scalar is_equal reports equality for all finite numbers within the tolerance, never for numbers that differ by more than the tolerance and one rounding error, is symmetric, and with tolerance 0 is equality; NaN equals nothing and an infinity does not equal itself. Vector compare and is_equal report a difference only if some component really differs by more than the tolerance in the reported direction, and report equality only up to the tolerance and a rounding error of the second vector. However vector is_equal with a tolerance is not symmetric, disagrees with scalar is_equal, and compare can rank each of two vectors before the other.", "quantifier": "all binary formats, all floats, all dimensions", "why_tests_cant": "Quantifies over all pairs of floats and tolerances of all formats; the asymmetry appears only at rounding ties.", "anchors": ["include/vecmath/scalar.h: is_equal", "include/vecmath/vec.h: compare, is_equal"]}
{"id": "C99", "title": "Interpolation in IEEE arithmetic", "statement": "In IEEE arithmetic mix returns finite end values exactly at the parameters 0 and 1, is monotone in the end values, and its error is at most ((1+u)^3-1) times the mixed absolute values plus an underflow term; with an infinite end value the result at the other end is NaN, and the result may leave the interval of the end values. smoothstep returns a number in [0,1] for all arguments, NaN and infinities and equal edges included; it is exactly 0 up to the lower and exactly 1 from the upper edge on. It is not monotone in float.", "quantifier": "all binary formats, all floats (finite where stated)", "why_tests_cant": "Quantifies over all floats of all formats including special values; the non-monotonicity occurs at one pair of neighbouring floats near the edge.", "anchors": ["include/vecmath/scalar.h: mix, smoothstep, clamp"]}
{"id": "C100", "title": "Boxes in IEEE arithmetic", "statement": "In IEEE arithmetic the center of a valid finite box is in the box unless the sum of the corners overflows, in which case it may be infinite; the size is never negative and zero only for equal coordinates; translate moves points of the box into the translated box and expand by a non-negative amount keeps all points. for_each_vertex visits exactly the eight corners if the size is exact, and otherwise each coordinate is within two roundings of a corner coordinate; it may visit points outside of the box.", "quantifier": "all binary formats, all finite boxes, all points", "why_tests_cant": "Quantifies over all boxes of floats; the vertices leave the box only for particular rounding ties.", "anchors": ["include/vecmath/bbox.h: center, size, contains, translate, expand, for_each_vertex, vertices"]}
{"id": "C101", "title": "Length, normalisation, unit and parallel tests in IEEE arithmetic", "statement": "In IEEE arithmetic with a correctly rounded sqrt, length and distance of vectors of any dimension have a relative error of a few units of rounding, normalize returns a vector whose components have a relative error of a few units of rounding, normalize(v) passes is_unit, and exactly parallel vectors pass is_parallel with tolerances of a few units of rounding (far below the defaults) whenever the squared length neither overflows nor underflows. length_c and normalize_c terminate and satisfy the same bounds. No component of a normalised vector exceeds 1 in absolute value, and vectors along an axis have exact lengths and normalise to exactly 1 or -1. However a finite nonzero vector is not always normalised: if the squared length overflows the result is the zero vector, and if it underflows the result has an infinite component and NaNs.", "quantifier": "all binary formats, all dimensions (up to 1/50 of the precision), all finite vectors whose squared length neither overflows nor underflows, all functions that meet the specification of std::sqrt", "why_tests_cant": "Error bounds over all floats of all formats and all dimensions cannot be sampled; that rounding never pushes a component above 1 needs a proof.", "anchors": ["include/vecmath/vec.h: squared_length, length, length_c, normalize, normalize_c, is_unit, is_parallel, distance", "include/vecmath/scalar.h: sqrt_c", "include/vecmath/constants.h: almost_zero, colinear_epsilon"]}
{"id": "C102", "title": "Dot product, cross product and distance in IEEE arithmetic", "statement": "In IEEE arithmetic, changing the sign of an argument of dot or cross changes exactly the sign of the result, distance and is_parallel do not depend on the order of their arguments, and cross(a,a) and distance(a,a) are exactly zero (unless a product overflows). Each component of cross has an error of about two units of rounding relative to the two products it is made of, and cross(a,b) is perpendicular to a and b up to an explicit rounding error. However distance(a,b) = 0 does not imply a = b: different finite points may have distance zero because the squares underflow.", "quantifier": "all formats and all dimensions, all float arguments including infinities and NaN for the sign and symmetry claims; all binary formats and all vectors with finite products for the error bounds", "why_tests_cant": "Exact equalities over all pairs of floats and error bounds over all formats cannot be sampled; cancellation makes the worst cases rare.", "anchors": ["include/vecmath/vec.h: dot, cross, distance, squared_distance, is_parallel, length"]}
{"id": "C103", "title": "Matrix products and transformation matrices in IEEE arithmetic", "statement": "In IEEE arithmetic the identity matrix is exactly neutral for finite vectors, points and matrices, a translation matrix times a finite point is exactly the floating point sum of point and offset, a scaling matrix times a finite point is exactly the componentwise floating point product, products of translation or scaling matrices are exactly the translation by the sum or the scaling by the product, and the constant quarter turn, half turn and mirror matrices move finite points without any rounding. General matrix products have an error of S units of rounding relative to the sum of the absolute products. However the identity matrix is not neutral for vectors with an infinite component: every other component becomes NaN.", "quantifier": "all formats, all dimensions, all finite points and vectors (offsets and factors may be infinite or NaN); all binary formats for the error bound", "why_tests_cant": "Exactness over all floats (including subnormals and sums that overflow) in all dimensions cannot be sampled.", "anchors": ["include/vecmath/mat.h: operator*, identity, rot_90_x_cw, rot_180_x, mirror_x", "include/vecmath/mat_ext.h: translation_matrix, scaling_matrix", "include/vecmath/vec.h: to_homogeneous_coords, to_cartesian_coords"]}
{"id": "C104", "title": "Snapping to a grid in IEEE arithmetic", "statement": "In IEEE arithmetic snap(v, grid) returns the product (rounded once) of the grid size and an integer whose multiple of the grid is nearest to v up to one rounding error of v and grid; it is idempotent and, for a positive grid, monotone. snapUp and snapDown return the multiple next to v away from zero or towards zero up to a rounding error. All three leave points of the grid unchanged if they are at most 2^p (for snap fewer than 2^(p-1)) steps from zero. However snap moves the grid point 2^(p-1)+1 of the grid 1, snapUp and snapDown are not idempotent (snapUp(snapUp(0.25, 0.1), 0.1) is 0.4), and snapDown may return a number greater than its argument.", "quantifier": "all binary formats with a precision of at most 62 bits, all finite values and grid sizes with at most 2^(p-3) steps", "why_tests_cant": "Idempotence and monotonicity range over all pairs of floats; the failing inputs of snapUp and snapDown are isolated.", "anchors": ["include/vecmath/scalar.h: snap, snapUp, snapDown, round, round_up, round_down"]}
{"id": "C105", "title": "correct in IEEE arithmetic", "statement": "In IEEE arithmetic correct(v, 0, epsilon) with an epsilon of at most 1/4 returns exactly the integer that is closer to v than epsilon if there is one, and v otherwise; the defects of round do not matter. The result is closer to v than epsilon and is not changed by correcting it again.", "quantifier": "all binary formats with a precision of at most 62 bits, all finite v below 2^63, all representable epsilons up to 1/4", "why_tests_cant": "An exact characterisation over all floats, including those for which round is wrong, cannot be sampled.", "anchors": ["include/vecmath/scalar.h: correct, round, abs", "include/vecmath/constants.h: correct_epsilon"]}
{"id": "C106", "title": "is_between in IEEE arithmetic", "statement": "In IEEE arithmetic is_between(p, start, end) is always true for the end points; it is always false for a point of the line through two different points that does not lie between them, whatever overflows or underflows; and it is true for every point strictly between the end points if the squared distance to the start does not overflow and the squared differences to the end points do not underflow. If they underflow then the middle of a segment is rejected.", "quantifier": "all binary formats, all dimensions with a small error bound, all finite points that lie exactly on a line, every faithful square root", "why_tests_cant": "That rounding never changes the answer is a statement about all triples of colinear points.", "anchors": ["include/vecmath/vec.h: is_between, normalize, dot"]}
{"id": "C107", "title": "Compile time variants agree with the run time functions", "statement": "length_c, normalize_c, is_unit_c, distance_c, is_parallel_c, is_between_c, the transform_c of lines, rays and planes and segment::length_c terminate for all arguments, including infinities and NaN, and give the result of the run time function with a square root that is accurate to the last place. Therefore is_unit_c accepts the result of normalize_c, is_parallel_c accepts parallel vectors, distance_c has the error bound of distance and is exactly zero for equal points, is_between_c decides as is_between does; the direction of a transformed line or ray and the normal of a transformed plane have unit length.", "quantifier": "all binary formats, all arguments (accuracy: if no square overflows or underflows altogether)", "why_tests_cant": "Termination of the Newton iteration and agreement hold for all floats, tests can only sample them.", "anchors": ["include/vecmath/vec.h: is_unit_c, distance_c, is_parallel_c, is_between_c", "include/vecmath/line.h: transform_c", "include/vecmath/ray.h: transform_c", "include/vecmath/plane.h: transform_c", "include/vecmath/segment.h: length_c"]}
{"id": "C108", "title": "intersect_ray_bbox in IEEE arithmetic", "statement": "In IEEE arithmetic intersect_ray_bbox never reports a negative or NaN distance as a hit; a ray that moves away from the box along an axis on which its direction component is at most one in magnitude misses; a ray parallel to a slab it starts outside of is never reported to hit at a finite distance; a hit at a finite distance t is a point origin + t * direction that lies on a face of the box and between all others up to a stated rounding error; every exact hit from outside that stays away from the edges of the entered face by a stated margin is reported, with relative error about two units; and a ray parallel to an axis gets the correctly rounded distance. A ray that starts inside the box with a zero direction component always misses, a ray moving away with a direction component larger than one can be reported to hit at distance zero, and a ray beside the box can be reported to hit at infinite distance.", "quantifier": "all binary formats, all dimensions, all finite rays and all finite boxes with min <= max", "why_tests_cant": "The error bounds and the absence of false hits and misses are statements about all rays and boxes; the failures need quotients that underflow or overflow.", "anchors": ["include/vecmath/intersection.h: intersect_ray_bbox"]}
{"id": "C109", "title": "Ray/plane and line/plane intersection in IEEE arithmetic", "statement": "In IEEE arithmetic a finite parameter t reported by intersect_ray_plane or intersect_line_plane satisfies the exact equation of the plane at origin + t * direction up to a stated rounding error, and for a ray is not less than minus the tolerance. A ray is reported parallel if the exact scalar product of direction and normal is below the tolerance by more than its rounding error; it is reported to hit if the scalar product is clearly above and the exact parameter is not negative; it is reported to miss if the exact parameter is clearly negative. For a plane orthogonal to an axis the result is the correctly rounded quotient of the correctly rounded difference. For double with usual coordinates all intermediate results are finite and the residual is at most 2e-15 |t| + 2e-9. If the scalar product overflows then the ray is reported to hit at its origin wherever the plane is.", "quantifier": "all binary formats, all dimensions, all rays, lines and planes with finite dot products (the last two parts: all doubles in the stated range, and a concrete failure)", "why_tests_cant": "Error bounds and the correctness of the decisions are statements about all inputs.", "anchors": ["include/vecmath/intersection.h: intersect_ray_plane, intersect_line_plane"]}
{"id": "C110", "title": "Points on lines and projections in IEEE arithmetic", "statement": "In IEEE arithmetic every finite component of point_at_distance, of the projection of a point onto a line, ray or segment and of the projection onto a plane differs from the exact value by at most a stated rounding error, and so does distance_to_projected_point. The point at distance zero is exactly the origin. The projection onto a plane orthogonal to an axis is exact: it replaces one component by the distance of the plane, projecting twice changes nothing, and the distance of the result from the plane is zero. The center of a segment lies between the end points in every component unless their sum overflows. A point of a line need not be its own projection, even on an axis.", "quantifier": "all binary formats, all dimensions, all lines, planes and points for which the result is finite", "why_tests_cant": "Error bounds and exactness are statements about all inputs.", "anchors": ["include/vecmath/abstract_line.h: point_at_distance, distance_to_projected_point, project_point", "include/vecmath/plane.h: project_point, point_distance", "include/vecmath/segment.h: center"]}
{"id": "C111", "title": "average in IEEE arithmetic", "statement": "In IEEE arithmetic with precision p the average of n points, n at most 2^p, has finite components that differ from the exact average by at most ((1+u)^n - 1) times the average of the absolute values, apart from underflow; the average of two points lies between them unless the sum overflows. The average of six equal points need not be that point. More than 2^p points are divided by 2^p, because the divisor is counted in the component type.", "quantifier": "all binary formats, all dimensions, all non-empty lists of points", "why_tests_cant": "The error bound is a statement about all lists; the wrong divisor needs more than 2^24 or 2^53 points.", "anchors": ["include/vecmath/vec.h: average"]}
{"id": "C112", "title": "lup_solve and invert in IEEE arithmetic: residual and success flag", "statement": "In IEEE arithmetic, for a square matrix A of any size S with finite elements of magnitude at most M and 2^(S-1) M within range: if lup_solve(A, b) reports success and a finite x, then A x differs from b in every row by at most about 3 S^2 2^(S-1) u M times the sum of |x|, however ill-conditioned A is (for 4 by 4 doubles at most 2^-44 M times that sum); the same holds for every column of invert(A). If failure is reported, some vector other than zero is mapped by A to a vector that is smaller by the factor 1e-15 plus rounding errors; so a matrix without such a vector is always solved and inverted. A matrix that contains a NaN is always rejected. Without the room for the growth of the elements a wrong finite solution can be reported as success.", "quantifier": "all binary formats, all sizes, all matrices within the stated range and all right hand sides", "why_tests_cant": "Error bounds are statements about all matrices; tests check a few well-conditioned ones with a tolerance.", "anchors": ["include/vecmath/mat.h: lup_find_decomposition, lup_solve_internal, lup_solve, invert"]}
{"id": "C113", "title": "Exact results of lup_solve and invert in IEEE arithmetic", "statement": "In IEEE arithmetic, for a matrix of any size with exactly one element in each row and column, each of magnitude at least 1e-15: every component of the solution of lup_solve is a single division, hence correctly rounded, and invert has the correctly rounded reciprocals at the transposed places, provided that no quotient overflows; if an element is smaller, failure is reported. Consequently the inverse of a signed permutation matrix is exactly its transpose, the predefined rotation and mirror matrices are inverted exactly, the inverse of a scaling is the scaling by the rounded reciprocals; and the inverse of every finite translation is exactly the opposite translation. If one quotient overflows then other components with exact solutions become NaN, and success is reported.", "quantifier": "all binary formats, all sizes, all finite elements, all finite right hand sides", "why_tests_cant": "Bitwise equality for every size and every element cannot be sampled; a test of an inverse compares with a tolerance.", "anchors": ["include/vecmath/mat.h: lup_find_decomposition, lup_solve_internal, lup_solve, invert", "include/vecmath/mat_ext.h: translation_matrix, scaling_matrix"]}
{"id": "C114", "title": "Vectors, matrices and boxes of signed integers: exact results and overflow", "statement": "For components of a signed integer type of any width w: dot is defined if and only if all products and all partial sums are in range, and then it is exact; dot, cross, squared_distance, the product of matrices and compute_determinant of any size are exact if the magnitudes of the components are within explicit bounds (for instance n! M^n < 2^(w-1) for the determinant). abs is defined for all numbers but the least. The center of a valid box is defined if and only if the sum of the corners is in range, and then it is in the box and differs from the exact center by at most one half. The average of n points with components up to M and n M in range is between the least and the greatest component and differs from the exact mean by less than one. Otherwise the behaviour is undefined: the squared length of vec3i(46341, 0, 0), and the center of the valid box from 2^30 to 2^31 - 1 although the center is representable. Division of a vector by a scalar is defined exactly if the divisor is not zero and the component is not the least number divided by -1; the quotient is truncated.", "quantifier": "all widths, all dimensions, all components", "why_tests_cant": "Overflow of signed integers is undefined behaviour that a test observes only by chance; the bounds are statements about all vectors.", "anchors": ["include/vecmath/forward.h: vec1i, vec2i, vec3i, vec4i", "include/vecmath/vec.h: dot, cross, squared_length, squared_distance, average", "include/vecmath/mat.h: operator*, compute_determinant", "include/vecmath/bbox.h: center", "include/vecmath/scalar.h: abs"]}
{"id": "C115", "title": "Exact vector and matrix arithmetic on grids in IEEE arithmetic", "statement": "For vectors and matrices whose components are multiples of a common power of two 2^g with multipliers of magnitude at most M (e.g. integer coordinates), dot, cross, +, -, squared_distance, matrix * matrix, compute_determinant and compute_adjugate return exactly the mathematical value in float, double and every other binary format as long as an explicit product of M, the dimension and the number of terms is below 2^p. is_colinear gives exactly the exact answer for every tolerance if 32 S^2 M^4 < 2^p, and always reports collinear points if 4 S M^2 < 2^p. In between it may report points with integer coordinates as colinear for every tolerance though they are not.", "quantifier": "for all binary formats, all grids, all vectors and matrices on them of the given dimensions, all tolerances", "why_tests_cant": "The claim covers all coordinates of a whole range in every floating point format, and the failing triples are rare.", "anchors": ["include/vecmath/vec.h: dot, cross, squared_distance, is_colinear", "include/vecmath/mat.h: operator*", "include/vecmath/mat_ext.h: compute_determinant, compute_adjugate"]}
{"id": "C116", "title": "Convex hull of grid points in IEEE arithmetic", "statement": "Let the points given to convex_hull lie in a common plane and have coordinates that are multiples of 2^g with multipliers up to M, 12 M^2 < 2^p (for doubles: integer coordinates up to about 27 million). If the result is not empty, its vertices are input points, at least three and without repetition, they run around a convex polygon in one direction with no input point outside any edge, and they span the same convex set as the input, all of this for the exact coordinates. If 288 M^4 < 2^p (for doubles: integers up to 2364), the result is empty exactly if there are fewer than three points or no further point spans with the first two a parallelogram whose squared area exceeds the tolerance; for larger grids the result may be empty for three points that are not on a line, whatever the tolerance.", "quantifier": "for all binary formats, all grids and lists of points on them, all finite nonnegative tolerances, all implementations of std::sort", "why_tests_cant": "Robustness of a geometric algorithm against rounding is a statement about all point configurations.", "anchors": ["include/vecmath/convex_hull.h: convex_hull"]}
{"id": "C117", "title": "The signs of zeros", "statement": "Machine floats have two zeros. For arguments that differ only in the signs of zeros, the scalar functions, rounding functions, vector and matrix arithmetic, length and normalize, compute_determinant, compute_adjugate, lup_solve, invert, the bounding box functions, plane/ray/line projections and distances, the intersection functions, polygon_contains_point, average, quaternion rotation, mod, correct, normalize_degrees, is_unit, is_parallel, plane_normal, from_points, find_max_component, convex_hull, measure_angle, the functions that make rotations, intersect_ray_sphere, intersect_ray_torus, intersect_plane_plane, the transformations of points, lines, rays and planes, the distances of segments, coordinate_system_matrix, plane_projection_matrix, translation_matrix, scaling_matrix, view_matrix, shear_matrix, (unless an upper bound is -0) scale_bbox_matrix, shear_bbox_matrix and ortho_matrix, (for a near plane, a tangent of half the field of view and a viewport without negative sign and a far plane that is not -0) perspective_matrix, and (unless the leading coefficient is -0) the solvers of polynomial equations return results that differ at most in the signs of zeros, report success or a hit in the same cases, and make the same comparisons; division does so unless the divisor is -0. dot, squared_length, squared_distance and length never return -0. In contrast, abs(-0.0) is -0.0, min and max of two zeros return the second one, and dividing a vector by 0.0 and by -0.0, which compare equal, gives opposite infinities; rotation_matrix_to_euler_angles returns pi and -pi for matrices that compare equal; ortho_matrix of a volume without width scales by minus infinity if its right bound is -0 and by plus infinity if it is +0.", "quantifier": "for all binary formats, all arguments including NaN and infinities, all dimensions", "why_tests_cant": "The claim compares two runs for every combination of signs of zeros that occur as arguments or as intermediate results; tests compare with == and cannot see the sign of a zero at all.", "anchors": ["include/vecmath/scalar.h: abs, min, max, abs_min, abs_max, safe_min, safe_max, clamp, sign, is_zero, is_equal, trunc, floor, ceil, round, snap", "include/vecmath/vec.h: dot, cross, length, normalize, compare, is_colinear, average, operator/", "include/vecmath/mat.h: operator*, lup_solve, invert", "include/vecmath/bbox.h: contains, intersects, merge, intersect, constrain", "include/vecmath/intersection.h: intersect_ray_plane, intersect_ray_bbox, intersect_ray_triangle, polygon_contains_point", "include/vecmath/distance.h: squared_distance"]}
{"id": "C118", "title": "Constant vectors, axes, iteration and row vectors times matrices", "statement": "vec::max() has finite components that no finite number exceeds in magnitude, so folding min from vec::max() gives the least corner of any non-empty list of finite points. vec::min() is, contrary to its documentation, for floating point components not the least value but the least positive number with full precision: it is greater than every number that is not positive, so folding max from vec::min() returns vec::min() for every list of points without positive components. For signed integers vec::min() and vec::max() are the least and greatest values and vec::nan() is the zero vector; for floats vec::nan() is recognised by is_nan and sorted above all vectors without NaN. axis(i) is defined exactly for i < S, the axes are orthonormal, the dot product with an axis is exactly the component also in IEEE arithmetic, and neg_x and so on have negative zeros. A row vector times an R x C matrix is defined exactly for C <= R: the first C components are the dot products with the columns, the others zero. rbegin to rend of a polygon visits the vertices in forward order. vec::get_vertices copies the vectors in order. from_points(begin, end, get) does not apply get.", "quantifier": "for all dimensions, all binary formats, all widths of integers, all lists of points, vectors, matrices and polygons", "why_tests_cant": "The extremal properties quantify over all numbers of the type, and the undefined case of the product depends on the template arguments, which a test fixes when it is compiled.", "anchors": ["include/vecmath/vec.h: vec::min, vec::max, vec::nan, vec::zero, vec::one, vec::axis, vec::pos_x, vec::neg_x, vec::get_vertices", "include/vecmath/mat.h: operator*(vec, mat)", "include/vecmath/polygon.h: polygon::begin, polygon::end, polygon::rbegin, polygon::rend", "include/vecmath/plane.h: from_points"]}
{"id": "C119", "title": "Transforming boxes in IEEE arithmetic", "statement": "bbox::transform returns the smallest box that contains the moved vertices, for every matrix whose moved vertices are finite. If the size of the box is exact, which holds for example for boxes of integers, then every affine matrix moves every point of the box to a finite point in the transformed box, without any tolerance for the rounding of the products and sums. The constants for quarter turns, half turns and mirroring move such boxes exactly, and the identity does not change them. The identity never makes a box smaller. If the size is rounded then a point of the box may be moved out of the transformed box.", "quantifier": "for all binary formats with rounding to nearest even, all boxes, matrices and points", "why_tests_cant": "That rounding never moves the image of an inner point beyond the images of the corners is a statement about all points of the box and all roundings; a test samples a few of 2^192 points.", "anchors": ["include/vecmath/bbox.h: transform, vertices, for_each_vertex, builder, contains", "include/vecmath/mat.h: operator*(mat, vec)"]}
{"id": "C120", "title": "Constants and angle units in IEEE arithmetic", "statement": "For float and for double: constants::pi() and constants::e() are the numbers of the type nearest to the real numbers pi and e; two_pi(), half_pi() and quarter_pi() are exactly 2, 1/2 and 1/4 times pi(), three_half_pi() and the five epsilon values differ from their exact values by at most one rounding error. to_radians of 45, 90, 180, 270 and 360 is exactly quarter_pi(), half_pi(), pi(), three_half_pi() and two_pi(), and to_degrees of these constants is exactly the angle. Both conversions keep the order of all angles and map opposite angles to opposite angles, so that angles within a turn are mapped to angles within a turn. The result differs from the exact angle by at most three rounding errors. Converting degrees to radians and back differs from the angle by at most five rounding errors, but it is not exact: 11 degrees do not come back as 11.", "quantifier": "for float and double, for all numbers of the type (infinities included for the order, NaN included for oddness)", "why_tests_cant": "Nearest to a real number, monotone and bounded error are statements about all numbers of the type; the library's tests use single angles with a tolerance.", "anchors": ["include/vecmath/constants.h: constants", "include/vecmath/scalar.h: to_radians, to_degrees"]}
{"id": "C121", "title": "Points in polygons in IEEE arithmetic", "statement": "polygon_contains_point in floating point. A point within the tolerance of a vertex in every coordinate is always contained. For float and double, suppose that the polygon is of moderate size (all coordinates within about 490 of the point for float, 2.6e11 for double) and that no vertex is at the height of the point. If no edge passes the point within 0.002 to its left or right, then the answer is the even-odd rule of exact arithmetic. If the polygon is convex, then a point strictly inside is contained however close to an edge it is, and a point that is not strictly inside and has no edge within 0.002 beside it is not contained. Without the bound on the size this is false: for a triangle with integral float coordinates of about a million, a point strictly inside whose edges are all more than 0.012 away along the ray is reported to be outside.", "quantifier": "for all polygons, points and projection axes; float and double (the statement about vertices: every IEEE format and finite tolerance)", "why_tests_cant": "The statement is about the accumulated rounding errors of every crossing of every polygon; tests evaluate a few polygons with small coordinates.", "anchors": ["include/vecmath/intersection.h: polygon_contains_point, detail::handle_polygon_edge_intersection"]}
{"id": "C122", "title": "NaN in products, determinants, linear systems, planes and boxes", "statement": "A NaN component is never lost in arithmetic: the dot product, the squared length, the squared distance, matrix products, the image of a point under a matrix and the determinant of a matrix of any size are NaN if an operand has a NaN, even if it is multiplied by zero; if lup_solve reports success and a solution without NaN then neither the matrix nor the right hand side has a NaN. Predicates take a NaN for inside: a point with a NaN coordinate is inside every plane, a NaN coordinate of a point counts as within a box. Boxes of points forget: merge_all and the builder return for a coordinate the bounds of the points after the last NaN only, so that the box of points 0, NaN, 1 is the valid box from 1 to 1, which does not contain 0.", "quantifier": "for every IEEE format, every size, and all values of the other components, infinities included", "why_tests_cant": "The statements are about every position of a NaN in operands of every size, and about lists of any length.", "anchors": ["include/vecmath/vec.h: dot, squared_length, squared_distance", "include/vecmath/mat.h: operator*, compute_determinant, lup_solve", "include/vecmath/plane.h: point_status", "include/vecmath/bbox.h: contains, relative_position, merge_all, builder"]}
{"id": "C123", "title": "Rays and triangles on grids in IEEE arithmetic", "statement": "If the corners of a triangle and the origin of a ray are multiples of a power of two and its direction is a multiple of a power of two, with few enough bits (for instance integers up to 64 in float and up to 2^15 in double), then intersect_ray_triangle decides exactly: it returns a number if and only if the volume of direction and edges exceeds the tolerance and the ray meets the triangle, boundary included, and the number is the exact parameter of the point of intersection, rounded once. So there are no gaps: a ray that meets the edge shared by two triangles hits both, at the same distance. Beyond these bounds both claims fail: with integers below 300 in float there is a ray that meets the middle of the edge shared by two triangles and hits neither, and a ray pointing away from a large triangle is reported to hit it at distance NaN.", "quantifier": "for every IEEE format, all grids and bounds that fit, all finite tolerances, all rays and triangles on the grids", "why_tests_cant": "The statement is about every triangle and ray on the grid, in particular all rays that meet an edge exactly, where a single rounding error in one of the quotients, or in their sum, changes the decision.", "anchors": ["include/vecmath/intersection.h: intersect_ray_triangle"]}
{"id": "C124", "title": "Quadratic equations in IEEE arithmetic", "statement": "In float and double, solve_quadratic reports finite solutions that satisfy the normalized equation up to 32 rounding units of its size (up to the tolerance plus 6 rounding units if one solution is reported), and the reported number of solutions is right unless the discriminant is within 5 rounding units of the tolerance. If the solutions are multiples of a power of two of moderate size, such as integers, they are computed without any error. If b/(2a) and c/a are exact, then no solution is reported only if there is none, and two are reported only if there are two. Otherwise the number can be wrong, a small solution next to a large one can be lost entirely, and for a = 0 two solutions that are not numbers are reported.", "quantifier": "for every IEEE binary format, every square root function that never skips a number, all coefficients without overflow or underflow of the two quotients, all tolerances", "why_tests_cant": "tests compare a few solutions with a tolerance and do not cover rounding of the discriminant", "anchors": ["include/vecmath/scalar.h: solve_quadratic, is_zero, nan"]}
{"id": "C125", "title": "Quaternions in IEEE arithmetic", "statement": "In float and double, the product of two quaternions is accurate to 5 rounding units of the product of their lengths, a vector is rotated with an error of at most 28 rounding units of its length (for a unit quaternion), its length changes only by rounding and by the error in the length of the quaternion, rotating back with the conjugate quaternion returns the vector up to such an error, and the entries of rotation_matrix(quat) are accurate to 12 rounding units. If all components are multiples of powers of two of moderate size, then products and rotations are exact; this includes the rotations that map a cube onto itself by half turns and by 120 degrees. A vector with large components can overflow in a rotation whose result is representable.", "quantifier": "for every IEEE binary format, all finite quaternions of length at most 12 and all finite vectors whose length is below the overflow threshold divided by about 128", "why_tests_cant": "tests rotate a few vectors and compare with a tolerance", "anchors": ["include/vecmath/quat.h: operator*(quat, quat), operator*(quat, vec), conjugate", "include/vecmath/mat_ext.h: rotation_matrix(quat)"]}
{"id": "C126", "title": "Planes through three points in IEEE arithmetic", "statement": "In float and double, for points on a grid: from_points and plane_normal reject colinear points and accept points whose edges enclose an angle with a sine above the tolerance, reject those below it, up to 20 rounding units; if the tolerance is small compared to the size of the grid, exactly the colinear triples are rejected. The normal of an accepted plane is the normalised cross product of p3-p1 and p2-p1 with an error of about 7 rounding units in each component, the first point has distance zero, and every point of the grid is classified by its exact distance from the exact plane up to 42 rounding units of the size of the grid, so that all three points are inside. In double with the default tolerances this holds for all integer coordinates up to 2048. Integer points that are farther apart can be rejected although they are not colinear, and so can points whose cross product overflows.", "quantifier": "for every IEEE binary format with at least 8 bits, every faithfully rounded square root, all points of a grid that fits the format, all tolerances", "why_tests_cant": "tests construct planes from a few points and compare with a tolerance", "anchors": ["include/vecmath/plane.h: plane_normal, from_points, point_distance, point_status", "include/vecmath/scalar.h: is_inf, is_nan"]}
{"id": "C127", "title": "Distance of a point from a ray or segment in IEEE arithmetic", "statement": "In float and double, for coordinates up to X >= 1 whose squares do not overflow: squared_distance(ray, point) returns a position that is the projection of the point, clamped at zero, up to 15 rounding units of X, and the squared distance of that position, which is the least squared distance of all points of the ray up to 240 rounding units of X^2 plus the square of (17 rounding units + four times the deviation of the squared direction from one) times X. squared_distance(segment, point) returns the distance of the closest point of the segment from its start up to 48 rounding units of X, and the least squared distance of all points of the segment up to 1340 rounding units of X^2, for every segment that is not so short that its squared length underflows. For points on a grid and a ray or segment parallel to an axis both results are exact, without any rounding. The distance functions return the exact distance where it is a number of the format. A segment whose end points coincide yields NaN, and a distance whose square overflows yields infinity.", "quantifier": "for every IEEE binary format with at least 8 bits, every faithfully rounded square root, all rays with nearly normalised direction, all segments, all points", "why_tests_cant": "tests compare a few distances with a tolerance", "anchors": ["include/vecmath/distance.h: squared_distance(ray, point), distance(ray, point), squared_distance(segment, point), distance(segment, point)", "include/vecmath/segment.h: direction"]}
{"id": "C128", "title": "Bezier surfaces in IEEE arithmetic", "statement": "In float, double and every IEEE format with at least 11 bits: evaluate_quadratic_bezier_surface at the corners of the parameter square returns exactly the corner control points, for all finite control points. Two surfaces that share a row or a column of control points return bitwise the same points on the shared border for the same parameter, so there are no cracks between them. For all parameters in [0,1] every coordinate of the result is finite and within 21 rounding units of the largest control point coordinate of the surface that the Bernstein polynomials define; hence the result leaves a box around the control points by at most that much. The result depends monotonically on every control point coordinate, and no coordinate has a sign that no control point has. With parameters i / 2^m and control points on a grid with 4 m bits to spare, as for uniform subdivisions, the result is exact. Nine equal control points may yield another point (outside of their box), and surfaces that share a border but run through it in opposite directions may have different points on it.", "quantifier": "for every IEEE binary format with at least 11 bits, all finite control points that are not near overflow, all parameters in [0,1]", "why_tests_cant": "tests evaluate a few parameters with a tolerance and never compare the borders of neighbouring patches bitwise", "anchors": ["include/vecmath/bezier_surface.h: evaluate_quadratic_bezier_surface"]}
{"id": "C129", "title": "Rays and spheres in IEEE arithmetic", "statement": "In float, double and every IEEE format with at least 8 bits: whatever the inputs are, a finite result of intersect_ray_sphere is not negative. If coordinates and radius are at most X (far from overflow) and the direction is nearly normalised, then the result is NaN or the distance of a point whose squared distance from the center differs from the squared radius by at most 800 rounding units of X^2 plus the effect of the error in the length of the direction. Outside of a tolerance of a few hundred rounding units of X^2 the decision is right: NaN if the line misses the sphere; the exit point if the origin is inside; NaN if the origin is outside and the ray does not point towards the center; the entry point if the origin is outside, the ray points towards the center and the line meets the sphere. With coordinates and radius on a grid with half of the precision to spare and a ray parallel to an axis, the result is NaN exactly if the ray does not meet the sphere, and it is exactly the distance of the hit if that distance is on the grid. All this holds for every square root that is faithful. A sphere at distance 2^62 is reported at infinite distance in float.", "quantifier": "for every IEEE binary format with at least 8 bits, every faithful square root, all finite rays and spheres that are not near overflow; non-negativity for all inputs whatsoever", "why_tests_cant": "tests check a few rays with round numbers; rounding of the discriminant near tangential rays and near the surface cannot be enumerated", "anchors": ["include/vecmath/intersection.h: intersect_ray_sphere"]}
{"id": "C130", "title": "Rotations by an angle in floating point arithmetic", "statement": "In IEEE arithmetic, with sine and cosine functions that are accurate to two rounding errors u, rotation_matrix(axis, angle) has finite entries that differ from those of the exact rotation about a unit vector a by at most 15u + 6e, where e bounds the difference of the components of axis and a, and its translation part and last row are exact; a rotated point with coordinates up to X differs from Rodrigues' formula by at most d = (54u + 18e)X, its squared length changes by at most 7dX, and rotating back by the opposite angle returns within 4d. With the axis that normalize() gives, the bounds are 60u for the entries and 189uX for points. The angle zero gives exactly the identity. Rotating about a coordinate axis scales the coordinate along it by a factor in [1 - u, 1], and by exactly 1 if the computed cosine is not negative. rotation_matrix(roll, pitch, yaw) is within 16u of the exact rotation and rotated points within 57uX. But the rotation by to_radians(90) about the z axis never maps (1, 0, 0) to a point with integer coordinates in float or double, unlike the constants rot_90_*.", "quantifier": "all IEEE binary formats with at least 10 bits, all finite axes, angles and points in the stated ranges, all accurate sine and cosine functions", "why_tests_cant": "Unit tests rotate a few points by a few angles and compare with a tolerance; the error bounds and the exact cases concern every axis, angle and point, and the failure at a quarter turn concerns every implementation of the cosine.", "anchors": ["include/vecmath/mat_ext.h: rotation_matrix", "include/vecmath/mat.h: operator*", "include/vecmath/scalar.h: to_radians"]}
{"id": "C131", "title": "Measured angles and quaternions from angles in floating point arithmetic", "statement": "In IEEE arithmetic (float and double), with an arc cosine that is accurate to two rounding errors u, measure_angle(v, axis, up) of vectors with components up to 1.02 is finite, lies between 0 and the constant two_pi(), and its cosine is the exact dot product limited to [-1, 1] up to 26u; an exact triple product above 30u puts it at most 7u above pi, one below -30u at most 17u below pi. If the vectors are within e of exact unit vectors orthogonal to up, the result is within (44u + 19e)/|sin(angle)| of the exact angle, once the sine exceeds 30u + 18.3e. quat(axis, angle), with accurate sine and cosine, is within 2.01u (real part) and 3.1u + e (other parts) of the exact unit quaternion, and a vector of length up to V rotated with it is within (108u + 25e)V of Rodrigues' formula, up to 47 halves of the least positive number. angle() of a quaternion with real part in [-1, 1] is finite, in [0, 2 pi + 13u], its half has the real part as cosine up to 7u, and angle() of quat(axis, t) is t up to 26u/sin(t/2). But in double measure_angle(v, v, up) is greater than 1e-8 for v = normalize((2, 3, 6)), and angle() of q * q.conjugate() is NaN for the unit quaternion q = (0.8, (0.2, 0.4, 0.4)).", "quantifier": "all finite vectors, axes, angles and quaternions in the stated ranges, all accurate trigonometric functions", "why_tests_cant": "Unit tests measure a few right angles; the error bounds concern every pair of vectors, the loss of accuracy near 0 and the NaN need particular roundings and hold for every accurate arc cosine.", "anchors": ["include/vecmath/vec.h: measure_angle", "include/vecmath/quat.h: quat(axis, angle), set_rotation, angle, operator*, conjugate"]}
{"id": "C132", "title": "Conversions between float and double lose only what they must", "statement": "The converting constructors of vectors, matrices, boxes, lines, rays, planes, segments, polygons and quaternions convert every component. From float to double every value and every comparison is kept, and converting back gives the original object. To a narrower type a number in range becomes the nearest number of that type (relative error 2^-p, or half the smallest positive number), a number at or beyond the largest number plus half a unit becomes the infinity of its sign, NaN and infinities stay. Every conversion is monotone: minima, maxima, clamping and absolute values commute with it; boxes stay valid, keep containing and meeting what they contained and met, and repair, merge, merge_all, constrain and (for boxes that meet) intersect can be done before or after it. One addition, subtraction, multiplication or division in double on float operands, converted back, is exactly the float operation, without double rounding. It fails where it must: narrowing can leave a segment with its start after its end and a polygon with a vertex below the first, can make disjoint boxes meet, and a dot product in double differs from the one in float.", "quantifier": "all values of all pairs of IEEE binary formats, including NaN, infinities, subnormal numbers and results that overflow or underflow; all dimensions; all lists of points", "why_tests_cant": "Tests convert a few literals; absence of double rounding and monotonicity concern all pairs of operands (2^64 for float) and all components.", "anchors": ["include/vecmath/vec.h: vec(const vec<U,V>&)", "include/vecmath/mat.h: mat(const mat<U,R,C>&)", "include/vecmath/bbox.h: bbox(const bbox<U,S>&), contains, intersects, repair, merge, merge_all, intersect, constrain", "include/vecmath/line.h: line(const line<U,S>&)", "include/vecmath/ray.h: ray(const ray<U,S>&)", "include/vecmath/plane.h: plane(const plane<U,S>&)", "include/vecmath/segment.h: segment(const segment<U,S>&)", "include/vecmath/polygon.h: polygon(const polygon<U,S>&)", "include/vecmath/quat.h: quat(const quat<U>&)"]}
{"id": "C133", "title": "Scaling boxes with double and float coordinates", "statement": "With IEEE arithmetic the matrices of scale_bbox_matrix and scale_bbox_matrix_with_anchor move every finite point coordinate by coordinate, by one product and two sums with the computed ratio of the sizes as factor (the other axes have no influence). The image is within ten rounding units of the scaled distances, four of the new corner and an underflow term of the exact scaling; the minimum of the old box is moved to the minimum of the new box (the anchor to itself) up to three rounding units regardless of the error of the factor, and exactly if it is zero; the order of points along each axis is kept; scaling a box to itself is exactly the identity matrix; on a grid and with a dyadic factor nothing is rounded. The maximum of the old box need not be moved to the maximum of the new box (0..49 to 0..1 ends below 1), and scaling a box that is flat along one axis turns every coordinate of every point into NaN, also along the other axes.", "quantifier": "for every IEEE binary format, every pair of boxes, sizes, anchors and points that are finite with finite factors; existential for the failure of the maximum; for every flat box in the last statement", "why_tests_cant": "Tests use small integer boxes for which nothing is rounded; the bounds, the order and the effect of a flat axis concern all float boxes and points", "anchors": ["include/vecmath/mat_ext.h: scale_bbox_matrix", "include/vecmath/mat_ext.h: scale_bbox_matrix_with_anchor", "include/vecmath/mat.h: operator*"]}
{"id": "C134", "title": "Shearing boxes with double and float coordinates", "statement": "With IEEE arithmetic shear_bbox_matrix returns a matrix for each of the six sides; it leaves the coordinate of every finite point along the axis of the side exactly unchanged and moves every other coordinate within a stated bound (twelve rounding units of the slope times the distances, a few of the coordinates) of the exact shear by delta over the size of the box. Points of the opposite side stay fixed up to a few rounding units regardless of the error of the slope, and exactly if that side lies in a coordinate plane. On a grid and with a dyadic slope nothing is rounded. A box that is flat along the axis turns every coordinate of every point into NaN, even if delta is zero.", "quantifier": "for every IEEE binary format, every box, side, delta and point that are finite with finite slopes; for every flat box in the last statement", "why_tests_cant": "Tests shear a few integer boxes along axes where nothing is rounded; the bounds concern all float boxes, deltas and points", "anchors": ["include/vecmath/mat_ext.h: shear_bbox_matrix", "include/vecmath/mat_ext.h: shear_matrix", "include/vecmath/bbox.h: for_each_face"]}
{"id": "C135", "title": "Orthographic projection with double and float coordinates", "statement": "With IEEE arithmetic ortho_matrix moves every finite point coordinate by coordinate, by one product and one sum: each coordinate of the image is within eight rounding units of the exact normalised coordinate (relative to the size of its two terms) plus an underflow term, and the order of points along each axis (and their depth order away from the camera) is kept. For a viewport that is symmetric about the centre the centre is moved exactly to zero, mirrored points to mirrored points, and no point of the viewport leaves the range from -1 to 1 by rounding. On a grid and with a width that is a power of two nothing is rounded. The border of a symmetric viewport need not be moved to 1 (for a border at 49 the image is the double below 1), and a viewport of width zero gives no finite coordinate for any point.", "quantifier": "for every IEEE binary format, every viewport, near and far plane and finite point whose images are finite; existential for the border; for every empty viewport in the last statement", "why_tests_cant": "A test compares one matrix with expected entries; the bounds, the order and the range of the images concern all viewports and points", "anchors": ["include/vecmath/mat_ext.h: ortho_matrix", "include/vecmath/mat.h: operator*"]}
{"id": "C136", "title": "Perspective projection with double and float coordinates", "statement": "With IEEE arithmetic perspective_matrix moves a point at distance s in front of the eye to screen coordinates within ten (horizontally) and six (vertically) rounding units, relatively, of the exact coordinates for the computed tangent of half the field of view, without overflow or underflow for parameters between 2^-m and 2^m. In float and double, for a field of view between 1 and 150 degrees and a tangent function that is accurate to two rounding units, the total relative error including the conversion to radians is at most 47 rounding units. The depth is within eight rounding units of its two exact terms, hence close to -1 on the near plane and close to 1 on the far plane. Points straight ahead stay exactly in the centre, mirrored points have exactly mirrored images, and at equal distance points keep their order on the screen. Points in the plane of the eye have no finite image. Depth does not keep the order of distances: of two points near distance 3 the farther can get the smaller depth.", "quantifier": "for every IEEE binary format (float and double for the field of view), every accurate tangent function, every camera with parameters in the stated range and every point in front of the eye; existential for the depth order", "why_tests_cant": "A test compares the entries of one matrix; the accuracy, symmetry and order concern all cameras and points, and the inversion of depth only shows for neighbouring floats", "anchors": ["include/vecmath/mat_ext.h: perspective_matrix", "include/vecmath/scalar.h: to_radians", "include/vecmath/mat.h: operator*"]}
{"id": "C137", "title": "View matrices with double and float coordinates", "statement": "With IEEE arithmetic, if direction and up vector are within c rounding units of two orthogonal unit vectors, then view_matrix moves every finite point to finite coordinates that are within a stated multiple of the rounding unit (13c+24, 34c+50 and 3c+10 times the largest coordinate) of its exact coordinates to the right, upwards and backwards. If direction and up vector lie along coordinate axes, then the images are exactly coordinates of the point or their negations. If the up vector equals the direction, then all points silently collapse to the depth axis.", "quantifier": "for every IEEE binary format, every direction and up vector near orthogonal unit vectors and every finite point; for all pairs of signed axes; for every direction in the last statement", "why_tests_cant": "Tests use axis-aligned cameras, where nothing is rounded; the bound concerns all cameras", "anchors": ["include/vecmath/mat_ext.h: view_matrix", "include/vecmath/vec.h: cross", "include/vecmath/mat.h: operator*"]}
{"id": "C138", "title": "Numbers in the text of vectors and matrices", "statement": "If the precision of the stream is at least 17 digits (double) or 9 digits (float), then every vector and every matrix that is printed with operator<< and read with parse is the same again, with all subnormal numbers, infinities and NaNs, although floats are rounded twice. With any precision n, also the default of 6, finite components below a quarter of the range come back with a relative error of at most 10^(1-n) (twice that for float), subnormal ones included. Components that were read from decimal numbers with at most n digits come back exactly for n up to 15 (double) and 6 (float). Fewer digits are not enough whatever the reader does: different vectors have the same text with the default precision (1234567 and 1234568), with 8 digits (float) and with 16 digits (double).", "quantifier": "for every vector and matrix of float or double of any size, every precision, every text of blanks and parentheses before and after; existential for the collisions", "why_tests_cant": "A test prints and reads a few short numbers, which survive six digits; there are 2^64 doubles, and the number of digits that suffices is a statement about all of them", "anchors": ["include/vecmath/vec_io.h: parse, doParse, operator<<", "include/vecmath/mat_io.h: parse, operator<<"]}
{"id": "C139", "title": "Determinants and adjugates in IEEE arithmetic", "statement": "In floating point arithmetic the determinant of an N by N matrix whose elements are at most B is finite and differs from the exact determinant by at most N^2 rounding units of N! B^N, if that number is well inside the range; so its sign is right unless the determinant is smaller than that. The same holds for the elements of the adjugate with N - 1. A row or column of zeros gives exactly zero. In general singular matrices are not recognised: in every format the matrix with rows (1, 1, 1), (1, 1, 1), (1, 1, 2^p) has the computed determinant -2, and the regular matrix with rows (1 + 2u, 1), (1, 1 - 2u) has the computed determinant 0.", "quantifier": "for every binary format with at least three bits, every matrix of every size with finite elements; existential for the failures, in every format", "why_tests_cant": "The error depends on the cancellation in the recursive expansion, of which a test sees a few matrices with small integers, where every step is exact", "anchors": ["include/vecmath/mat.h: detail::compute_determinant, compute_determinant, compute_adjugate, extract_minor"]}
{"id": "C140", "title": "Missing coordinates, projections and aligned planes in IEEE arithmetic", "statement": "In floating point arithmetic at, xAt, yAt and zAt return a coordinate with which the point satisfies the equation of the plane up to S + 2 rounding units of the terms of the equation; on a plane orthogonal to the axis it is exactly the distance, and 0 if the normal has no component along the axis. In double, with coordinates up to 2^17 and a component of the normal of at least one half, the resulting point is always inside the plane for point_status; in float it need not be. project_point along a direction satisfies the equation of the plane up to a stated error. project_vector is exact up to 66 rounding units of the larger of the vector and the distance of the plane from the origin, so that far from the origin the result is lost: in every format there is a plane parallel to (1, -1, 0) for which the projection of that vector has equal x and y coordinates. aligned_orthogonal_plane is exact: the normal is a signed axis, and its position has the computed distance 0.", "quantifier": "for every binary format, every plane, point, vector and direction with finite coordinates (size limits as stated); for every dimension where no dimension is named; existential for the failures", "why_tests_cant": "Whether the computed point is inside the plane again depends on the rounding of four operations for every point and plane; the loss of the projected vector needs planes far from the origin", "anchors": ["include/vecmath/plane.h: at, xAt, yAt, zAt, project_point, project_vector, aligned_orthogonal_plane"]}
{"id": "C141", "title": "Rotation from one vector to another in IEEE arithmetic", "statement": "In float and double, quat(from, to) and rotation_matrix(from, to) take from to to: if from and to are within e of unit vectors that include the angle t with |cos t| <= 0.9989, every component of the rotated vector is finite and within 345 u + 13.2 e + (34 u + 15 e) / sin t of the component of to. If cos t > 0.9991 the quaternion is exactly 1 and the matrix exactly the identity (with exact sine and cosine of zero), if cos t < -0.9991 from is taken to -from up to 314 u. For all unit vectors the rotated vector is finite and every component is within 0.048 of that of to, and this much is lost: from (1, 0, 0) to the unit vector (2499/2501, 100/2501, 0) it misses to by more than 0.039, independently of the precision. The arc cosine is never called outside of [-1, 1]. The entries of rotation_matrix(quat(axis, angle)) are within 39 u and 8.1 times the error of the axis of the exact ones.", "quantifier": "for binary32 and binary64, every pair of vectors with finite components within e <= 1/100000 of unit vectors, every square root, sine, cosine and arc cosine function with the stated accuracy; existential for the failure", "why_tests_cant": "The axis is a normalised cross product that loses digits as the vectors approach each other, the angle an arc cosine that does too; that the errors stay below the bound for all pairs, on both sides of the two thresholds, and that no case is NaN, cannot be sampled", "anchors": ["include/vecmath/quat.h: quat(from, to), set_rotation", "include/vecmath/mat_ext.h: rotation_matrix(from, to), rotation_matrix(quat)"]}
{"id": "C142", "title": "Approximate comparison in IEEE arithmetic", "statement": "In IEEE arithmetic x == approx(v, e) holds for all finite x within e of v and only for x within e plus one rounding unit of |v| + e; x < approx(v) and approx(v) > x hold only if x is less than v by more than e, and both hold if it is less by more than e plus one rounding unit of the numbers, likewise for greater. A tolerance below half a rounding unit of v has no effect: only v itself is equal. Only the infinity itself equals approx of an infinity with finite tolerance. A vector equals an approximate vector exactly if each component does, or both components are NaN, though NaN never equals approx(NaN) as a scalar. The mirrored operators can disagree in every format: there are x, v, e with x < approx(v) true, approx(v) > x false and approx(v) <= x true.", "quantifier": "all binary floating point formats with at least three digits, all finite values and tolerances, vectors of any dimension; existential for the failure", "why_tests_cant": "The limits v - e and v + e are rounded, as are x + e and x - e of the mirrored operators, so which numbers near the limits compare equal depends on the rounding of each pair; tests sample a few values.", "anchors": ["include/vecmath/approx.h:approx", "include/vecmath/approx.h:operator==", "include/vecmath/approx.h:operator<", "include/vecmath/approx.h:operator>", "include/vecmath/vec.h:compare"]}
{"id": "C143", "title": "Transformation from points to points in IEEE arithmetic", "statement": "If points_transformation_matrix with float or double points of magnitude at most R returns a matrix m with finite entries, then the last row of m is exactly 0, 0, 0, 1 and m maps each of the four points to its image up to 131072 u R (1 + N) in every coordinate, where N is the sum of the magnitudes of the nine entries of the linear part, whatever the condition of the points is; the same holds for the points as moved in floating point arithmetic, and for the version with three points and the two auxiliary points off the planes. For the corner of a box (points 1, 2, 3 differ from point 0 in one coordinate each) there is a result exactly if all three differences are at least 1e-15, and then each entry of the linear part is a single floating point division.", "quantifier": "all formats with at least 24 digits, all finite points with coordinates up to R >= 1 (R a number of the format, 512 R below the overflow threshold), all results with finite entries", "why_tests_cant": "The nine unknowns come from an LU decomposition with pivoting of a 9 x 9 matrix; that the residual stays small for all points, also nearly coplanar ones, cannot be sampled.", "anchors": ["include/vecmath/mat_ext.h:points_transformation_matrix", "include/vecmath/mat.h:lup_solve"]}
{"id": "C144", "title": "Inverses of affine matrices and coordinate systems in IEEE arithmetic", "statement": "For a matrix of floats or doubles whose last row is exactly 0 ... 0 1, invert succeeds exactly if it succeeds for the linear part (the block without last row and column); if the inverse is finite, its last row is exactly 0 ... 0 1 and its linear part is exactly what invert returns for the linear part; a linear system with such a matrix has the last component of the right hand side as last component of the solution, and if that is zero the rest is exactly the solution of the system with the linear part. A point transformed by the inverse of a 4x4 affine matrix and then by the matrix comes back up to 2300 u M R N in every coordinate, where M bounds the entries of the matrix, R the coordinates of the point and N is the sum of the magnitudes of the entries of the inverse. The matrix that coordinate_system_matrix returns has the last row 0 0 0 1 and gives every point coordinates such that the origin plus the multiples of the axes is the point, up to the same bound; for axes along the coordinate axes in any order, with any lengths of at least 1e-15 and any signs, all its entries are correctly rounded (1/length and -offset/length).", "quantifier": "all binary formats (at least 24 digits for the error bounds), all dimensions for the statements about invert and lup_solve, all matrices with finite entries bounded by M such that 2^(S-1) M does not overflow, all points", "why_tests_cant": "The inverse comes from an LU decomposition with pivoting and two substitutions; that rounding errors never reach the last row and never leak from the translation into the linear part, for any matrix, cannot be sampled.", "anchors": ["include/vecmath/mat.h:invert", "include/vecmath/mat.h:lup_solve", "include/vecmath/mat_ext.h:coordinate_system_matrix"]}
{"id": "C145", "title": "Plane projection matrices in IEEE arithmetic", "statement": "For a normal and a direction that are unit vectors up to 1e-5 per component, in float and double: the axes that plane_projection_matrix constructs in the plane are finite and within 7.5 and 48 rounding units u of two perpendicular unit vectors that are exactly perpendicular to the normal, and the assertions about their length hold; the matrix exists for every direction with |normal.direction| >= 1000 u, wherever the plane is (as long as its coordinates do not overflow); if its entries are finite, its last row is exactly 0 0 0 1, and the third coordinate q it computes for a point p satisfies q (n.d) = n.p - distance (n.n) up to 4100 u M R N, where M bounds the point of the plane on the normal, R the coordinates of p and N is the sum of the magnitudes of the entries of the matrix. For planes perpendicular to a coordinate axis, projected along the normal, the matrix exists, is finite, two of the new coordinates are coordinates of the point up to signs, exactly, and the third one is the correctly rounded distance from the plane.", "quantifier": "float and double, all normals and directions within 1e-5 of unit vectors, all distances without overflow, all points, every faithfully rounded square root, every content of the indeterminate memory that the component sort reads", "why_tests_cant": "The frame depends on which component of the normal is largest and on two normalisations, and the matrix on a decomposition with pivoting; that the assertions never fire and the third coordinate is the distance for all planes cannot be sampled.", "anchors": ["include/vecmath/mat_ext.h:plane_projection_matrix", "include/vecmath/mat_ext.h:coordinate_system_matrix", "include/vecmath/vec.h:find_abs_max_component"]}
{"id": "C146", "title": "Finiteness and forward error of solutions and inverses in IEEE arithmetic", "statement": "For matrices of doubles with up to four rows and entries up to 2^100, whenever invert (or lup_solve, with right hand sides up to 2^300) reports success, the result contains no infinity and no NaN and satisfies the equations up to rounding errors, without further hypotheses. In any binary format: if k |v|_1 <= |A v|_inf for all vectors v, with k above 1e-15 plus the rounding errors of the decomposition, and the exponent range leaves room for the pivots that are then possible, then lup_solve and invert succeed, the result is finite, and its distance from the exact solution or inverse is at most the residual bound divided by k. In single precision success alone does not imply a finite result: there is a 3 by 3 matrix of floats with entries up to 1 for which invert reports success and returns an infinite entry.", "quantifier": "all binary formats, all sizes of matrices, all entries and right hand sides within the stated magnitudes, all condition numbers", "why_tests_cant": "The growth of the intermediate results depends on all pivots together; that no combination of entries that passes the singularity test overflows, and the distance from the unknown exact inverse, hold or fail on sets that random tests never meet.", "anchors": ["include/vecmath/mat.h:lup_solve", "include/vecmath/mat.h:invert", "include/vecmath/mat.h:lup_solve_internal", "include/vecmath/mat.h:lup_find_decomposition"]}
{"id": "C147", "title": "Canonical lines and line equality in IEEE arithmetic", "statement": "In every binary format: operator== of lines is reflexive, symmetric and transitive and operator!= is its negation, for all components including infinities and NaN; a line with a finite direction is exactly equal to the line with the opposite direction; make_canonical returns the direction or its opposite such that the first component that is not zero is positive; lines parallel to a coordinate axis are equal if and only if the other coordinates of their points are equal. For three dimensions and directions with components up to 1, the canonical point is finite and within 25 u M of the exact projection of the origin, and its inner product with the direction is at most 75 u M + 3 M |1 - |d|^2|. For other directions equality does not survive rounding: there is a line of floats that is not equal to its own canonical form, nor to the line through its point at distance 5.", "quantifier": "all binary formats, all dimensions (accuracy: three), all points and directions within the stated magnitudes", "why_tests_cant": "Equality of lines is meant to hold for all points of the same line; which points survive the rounding of the projection depends on the last bits of all components.", "anchors": ["include/vecmath/line.h:make_canonical", "include/vecmath/line.h:operator==", "include/vecmath/line.h:operator!=", "include/vecmath/abstract_line.h:point_at_distance"]}
{"id": "C148", "title": "The line of intersection of two planes in IEEE arithmetic", "statement": "In every binary format, intersect_plane_plane returns exactly the default line for planes with equal or opposite normals. With normal components up to 1 and a sine sigma of the angle that is at least 4 sqrt(u), the direction of every line it returns is finite and within (7.5 + 14/sigma) u of the exact common direction, wherever the planes are. For float and double, if the squared lengths of the normals are within eps of 1, the distances are at most X >= 1, sigma >= 1/200 and 2000 (u + eps) X <= sigma^2, then a line is returned whose point is finite and satisfies the equation of the second plane up to 75 (u + eps) X / sigma and that of the first plane up to 400 (u + eps) X^2 / sigma^2. Far from the origin the line is lost: in every format, exactly perpendicular planes of which the first is at the distance 2^(p+3) yield the default line, as if they were parallel.", "quantifier": "all binary formats (accuracy of the point: float and double), all planes within the stated magnitudes, all square root functions with faithful rounding", "why_tests_cant": "The point is computed from a projected normal that passes through the anchor of the first plane, so the loss depends on the distance of that plane; tests use planes near the origin.", "anchors": ["include/vecmath/intersection.h:intersect_plane_plane", "include/vecmath/intersection.h:intersect_line_plane", "include/vecmath/plane.h:project_vector"]}
{"id": "C149", "title": "Colinearity of three points in IEEE arithmetic", "statement": "In every binary format with at least 10 bits, for finite points whose components differ from those of the first point by at most L >= 1 with 128 L^4 below the overflow bound, is_colinear is true if the square of twice the area of the triangle is at most epsilon - 212 u L^4 and false if it is above epsilon + 212 u L^4; points two of which coincide are colinear with every epsilon. Exchanging the second and the third point never changes the answer, whatever the coordinates. Exchanging the first and the second does: for the points 0, 4097, 4099 (float) and 0, (2^27+1)/2^17, (2^27+3)/2^17 (double, about 1024) on the x axis the answer with the default epsilon is false starting from 0 and true starting from the second point. In every format a power of two x with x^4 at the overflow bound makes the points 0, (x,0,0), (x,0,0) not colinear for every epsilon.", "quantifier": "all binary formats, all points (symmetry), all finite points within the stated magnitudes (accuracy, coincident points)", "why_tests_cant": "The epsilon is absolute and compared with a quantity of the fourth order in the distances, so whether rounding decides the answer depends on the size of the triangle; tests use small integer points, for which the arithmetic is exact.", "anchors": ["include/vecmath/vec.h:is_colinear", "include/vecmath/convex_hull.h:convex_hull"]}
{"id": "C150", "title": "Transforming lines, rays and planes in IEEE arithmetic", "statement": "In every binary format with at least 10 bits, for an affine matrix whose linear entries are at most X >= 1: points with coordinates up to Y (offsets up to X Y) are mapped within 13.4 u X Y of their exact images, directions and normals of lines, rays and planes with components up to 1 within (7.5 + 32 X/sigma) u of the exact unit direction, where sigma is the length of the exact image and is at least 32 u X and sqrt(6 u), and the distance of a plane within (187 + 423 X/sigma) u X Y of that of the plane through the exact image of its exact anchor (sigma at least 1000 u X); nothing overflows or becomes NaN if 1000 X^2 and 64 X Y are below the overflow bound. A translation adds the offset with one rounding per component and normalises the direction once more; an axis-parallel plane keeps its normal and its distance changes by one floating point addition. The identity matrix is not the identity on rays and planes: for floats the normalised direction (1,1,1) alternates for ever between two vectors, and a plane with this normal moves from the distance 3 to 3 + 2^-21.", "quantifier": "all binary formats, all affine matrices, points, directions and planes within the stated magnitudes, all square root functions with faithful rounding (correct rounding for the failure)", "why_tests_cant": "The errors depend on how much the matrix shortens the direction and on the distance of the plane; tests compare with an epsilon for a few rotations and translations, and transforming twice is not tested.", "anchors": ["include/vecmath/plane.h:transform", "include/vecmath/ray.h:transform", "include/vecmath/line.h:transform", "include/vecmath/mat_ext.h:strip_translation"]}
{"id": "C151", "title": "Distances between rays, segments and lines in IEEE arithmetic are never too small", "statement": "In every binary format with at least 10 bits, for a ray and a segment, two rays, or a ray and a line that are not reported as parallel, with directions whose components are at most 1 and offsets, segment components and reported positions up to L (ray and line: coordinates up to L): the reported squared distance is a number and differs by at most 268 u L^2 (400 u L^2) from the exact squared distance of the points at the reported positions; these points belong to the ray (position at least 0), to the segment (the fraction is between 0 and 1), to the other ray (position at least 0, if the tolerance is at least 212 u). So the result is never less than the true minimum by more than this rounding error. It can be much larger: two float rays that cross about 8600 units from an origin, at an angle of 2 degrees, are reported to have a squared distance of more than 2.", "quantifier": "all binary formats, all rays, segments and lines within the stated magnitudes, all tolerances, all square root functions", "why_tests_cant": "The tests use a few axis-parallel rays and segments with small integers, where nothing is rounded and no position needs clamping after rounding.", "anchors": ["include/vecmath/distance.h:squared_distance(ray, segment)", "include/vecmath/distance.h:squared_distance(ray, ray)", "include/vecmath/distance.h:squared_distance(ray, line)"]}
{"id": "C152", "title": "segment::contains in IEEE arithmetic decides correctly outside a thin band, but a segment need not contain its own end", "statement": "In every binary format with at least 10 bits and for every faithful square root, for a segment and a point with coordinates up to X and a tolerance d between 0 and X: let F be the exact position of the foot of the perpendicular from the point, measured from the start along the segment, E the exact distance of the point from the line, and R = sqrt(length^2 + d^2). If -d + 90uX <= F <= R - 90uX and E <= d - 180uX then contains returns true. If F < -d - 90uX or F > R + 90uX or E > d + 180uX then it returns false. The start is contained for every tolerance. A segment whose two ends coincide contains nothing, whatever the tolerance. With the tolerance 0 a segment need not contain its own end: the float segment from (0,0,0) to (1,1,0) contains its start but not its end.", "quantifier": "all binary formats, all faithful square root functions, all finite segments, points and tolerances within the stated magnitudes", "why_tests_cant": "The tests use a few axis-parallel segments with small integers, for which the direction and the projection are exact; how far the answer can be trusted for other segments depends on error bounds for all inputs.", "anchors": ["include/vecmath/segment.h:contains", "include/vecmath/segment.h:direction", "include/vecmath/abstract_line.h:distance_to_projected_point"]}
{"id": "C153", "title": "Euler angles in floating point: accurate near the poles, NaN for products of rotations", "statement": "Computed with float or double, and a library whose asin, cos and atan2 are accurate to two units in the last place, rotation_matrix_to_euler_angles returns for a matrix with an entry of size below one in the pitch position a pitch within 4 rounding errors of the negated arc sine of that entry, and a roll and yaw within 8 rounding errors of the direction of the vectors given by two entries each, no matter how close the pitch is to a pole (up to underflow of both entries). If the entry is exactly 1 or -1 then the yaw is zero, the pitch is plus or minus the constant for pi/2 and the roll is accurate to 7 rounding errors. If rounding made the entry exceed 1 then all three angles are NaN; this happens for the product of two rotations about the y axis whose entries are the correctly rounded entries of exact rotations, in float and in double.", "quantifier": "for all matrices with finite entries and all binary floating point formats with at least 10 bits; one pair of rotations per format for the failure", "why_tests_cant": "A test compares the angles for a few matrices with a tolerance; it cannot exclude that dividing by the cosine of an angle near the pole loses accuracy, and products that exceed one by one unit in the last place are rare.", "anchors": ["include/vecmath/mat_ext.h: rotation_matrix_to_euler_angles", "include/vecmath/mat.h: operator*"]}
{"id": "C154", "title": "The volume of a box in floating point", "statement": "Computed with floating point numbers of any binary format: the volume of a valid box that lies in another valid box is never larger than the volume of that box, so it is finite if that one is; an empty box has the volume zero unless a partial product overflows; the volume of a three-dimensional box has a relative error of at most (1+u)^5-1 unless it underflows, and it is exact for boxes with integer extents whose product is at most 2^p. The volume of an empty box can be NaN (a flat box spanning all numbers), the volume of a box that is not empty can be zero, and turning a float box on its side can change its volume from infinity to one.", "quantifier": "for all boxes with finite coordinates, all dimensions (three for the relative error) and all binary floating point formats with rounding to nearest", "why_tests_cant": "Tests compute the volume of a few small boxes with integer coordinates; monotonicity and the error bound concern all pairs of boxes, overflow and underflow included.", "anchors": ["include/vecmath/bbox.h: bbox::volume", "include/vecmath/bbox.h: bbox::size", "include/vecmath/bbox.h: bbox::is_empty", "include/vecmath/bbox.h: bbox::contains"]}
{"id": "C155", "title": "Rays against polygons in floating point", "statement": "Computed with float or double: a ray parallel to an axis and a polygon in a plane orthogonal to that axis, of moderate size (coordinates within 1/(34000u) of the ray), with no vertex at the height of the ray and no edge within 0.002 to its left or right, intersect exactly if the polygon is not behind the ray and the number of edges to the right of the ray is odd in exact arithmetic, and then intersect_ray_polygon returns the correctly rounded distance; if the polygon is at least 0.002 behind the origin then it returns NaN. In every format and for every ray, a ray that passes a vertex within the tolerance hits, and a reported distance is not below minus the tolerance and satisfies the equation of the plane up to the rounding errors. For large polygons this is not so: a float ray is reported to miss a triangle that it meets strictly inside.", "quantifier": "for all rays, polygons and planes as stated; for one triangle (the failure)", "why_tests_cant": "Tests shoot a few rays at a square; the decision must be right for every polygon and every position of the ray, and depends on rounding in the parameter, the point and the crossings.", "anchors": ["include/vecmath/intersection.h: intersect_ray_polygon", "include/vecmath/intersection.h: intersect_ray_plane", "include/vecmath/intersection.h: polygon_contains_point"]}
{"id": "C156", "title": "Cubic equations in floating point", "statement": "Computed with float or double, for x³ + c x + d = 0 with terms of the discriminant that neither overflow nor underflow: solve_cubic reports the right number of solutions unless the discriminant (d/2)² + (c/3)³ is within 18 rounding errors (relative to its terms) of the tolerance. If c is not negative, the only solution is computed with an error of at most 11 times the cube root of the rounding error, relative to the larger of sqrt(c/3) and cbrt(|d|/2). If there are three solutions, all three are computed, each with an error of at most 8 times the square root of the rounding error, relative to sqrt(-c/3). Whatever the coefficients a, b, c, d, none of three reported solutions is NaN if the discriminant does not overflow. The cube root is not an artefact of the proof: for x³ + 3/256 x + 2 = 0 in float and x³ + 3/2^18 x + 2 = 0 in double, well conditioned equations with one solution, the error exceeds 1/512 and 1/2^19.", "quantifier": "for all coefficients as stated and all functions sqrt, cbrt, acos, cos of the stated accuracy; for two equations (the failures)", "why_tests_cant": "Tests solve a few equations with small integral solutions; the loss of two thirds of the digits happens for equations in which the linear term is small but not negligible, and a NaN from acos would need an argument next to one.", "anchors": ["include/vecmath/scalar.h: solve_cubic"]}
{"id": "C157", "title": "Quartic equations in floating point", "statement": "For every number type and whatever the library functions compute, solve_quartic reports at most four solutions, never writes outside of its array of solutions, and returns NaN in the slots it does not report. Computed with float or double, no reported solution is NaN unless an intermediate value overflows; in particular the comparison with the number of solutions of the first quadratic equation where that of the second is meant has no effect, because the second never has more solutions than the first, also after rounding. The accuracy of the solutions is not that of the type: for the well conditioned equation x⁴ + 4 x - 3/256 = 0 in float one of the two reported solutions is more than 1/1000 away from every real solution.", "quantifier": "for all coefficients and tolerances, all functions sqrt, cbrt, acos, cos of the stated accuracy (of any behaviour for the number of solutions); for one equation (the failure)", "why_tests_cant": "Whether a slot that is reported has been written depends on the numbers of solutions of two rounded quadratic equations; tests try a few equations with small integral solutions.", "anchors": ["include/vecmath/scalar.h: solve_quartic", "include/vecmath/scalar.h: solve_cubic", "include/vecmath/scalar.h: solve_quadratic"]}
{"id": "C158", "title": "Rays and tori in floating point", "statement": "Whatever the ray and the torus (including infinities and NaN) and whatever the library functions compute, intersect_ray_torus returns NaN or a positive distance, the smallest positive solution that the quartic solver reports. If the coordinates relative to the centre, the direction and the radii are integers of absolute value at most N with 70 N⁴ at most 2^24 (float) or 2^53 (double), the equation that is solved is exactly the one of the points of the torus on the ray. If the ray starts far away the radii are lost: in float a ray along the axis of the torus with the radii 2 and 1, starting 16384 above it, is reported to hit the torus at the distance 16384, the centre of the hole, although it misses the torus.", "quantifier": "for all rays, positions, radii and library functions (selection); for all integers as stated (exactness); for one ray and all library functions (the failure)", "why_tests_cant": "Tests shoot a few rays at a torus from nearby; the equation is wrong only if the squared radii are below the rounding error of the squared distance.", "anchors": ["include/vecmath/intersection.h: intersect_ray_torus", "include/vecmath/scalar.h: solve_quartic", "include/vecmath/scalar.h: safe_min"]}
{"id": "C159", "title": "Symmetries that survive rounding", "statement": "In floating point, for all arguments including infinities and NaN: flipping a plane twice gives the same plane; a flipped plane reports exactly the opposite distance of every point and exchanges above and below; the anchor, projections onto the plane and the intersection with rays and lines are exactly the same for the flipped plane; constructing a plane from the points in the opposite orientation succeeds in the same cases and gives exactly the flipped plane; reflecting everything through the origin leaves the distances at which rays hit planes, spheres and triangles exactly the same. The components of a vector are however not treated alike: in float and in double there is a vector whose squared length is exactly 1 and changes when the vector is rotated by exactly 90 degrees.", "quantifier": "for all formats, dimensions, planes, points, rays, lines, spheres, triangles, square root functions and epsilons (symmetries); one vector in each of the two formats (failure)", "why_tests_cant": "Tests compare a few results up to an epsilon; whether two formulas that agree in exact arithmetic agree in every bit for all arguments cannot be sampled.", "anchors": ["include/vecmath/plane.h: flip, point_distance, point_status, project_point, project_vector, from_points", "include/vecmath/intersection.h: intersect_ray_plane, intersect_line_plane, intersect_ray_sphere, intersect_ray_triangle", "include/vecmath/vec.h: dot, cross, squared_length", "include/vecmath/mat.h: rot_90_x_cw"]}
{"id": "C160", "title": "Changing the unit of length by a power of two", "statement": "In every binary floating point format with a correctly rounded square root, multiplying all coordinates by the same power of two changes no rounding: dot products, cross products, lengths and distances are multiplied by exactly the corresponding power of two, normalize gives exactly the same vector plane_normal succeeds in the same cases with exactly the same normal, and the distances of points from planes and along rays to planes scale exactly, provided that no product of components is subnormal and nothing overflows. Without the first condition this is false: in every format the smallest positive number times the x axis is normalised to a vector with an infinite component.", "quantifier": "for all formats, dimensions, exponents, vectors and points, correctly rounded square root functions, epsilons and values for infinity", "why_tests_cant": "A test compares two results for some vectors; that no rounding decision of a whole chain of operations, including the square root, depends on the unit is a statement about all of them.", "anchors": ["include/vecmath/vec.h: dot, cross, length, squared_length, normalize, distance", "include/vecmath/plane.h: plane_normal, point_distance", "include/vecmath/intersection.h: intersect_ray_plane"]}
{"id": "C161", "title": "Computing with float vectors in double", "statement": "When vectors of finite float numbers are converted to double first, every component of the cross product, the dot product of vectors with two components, the determinant of a 2x2 matrix, the center and size of a bounding box and the center of a segment are the exact values correctly rounded: finite, with no closer double number, relative error at most 2^-53, and with the exact sign. In particular the cross product is zero exactly if the vectors are parallel. Converted back to float such a result of at most 2^127 differs from the exact value by little more than half a unit in the last place, or half the smallest float, and never has the wrong sign. The length of every nonzero vector and the distance of every two different points are positive and finite with relative error of a few units of rounding, with a faithful square root and at most 2^40 components; normalising a nonzero vector with at most three components gives every component within 2^-50 and a vector that is_unit accepts with an epsilon of 2^-48. In float the cross product can lose its sign: two vectors that are not parallel have the cross product zero. With three components the dot product loses the sign even in double, but it and the distance of a point from a plane have an error of at most 2^-51 times the sum of the absolute values of the terms, so their signs are right for values above that.", "quantifier": "for all vectors and matrices of finite float numbers, without restriction on magnitudes", "why_tests_cant": "The input space has 2^192 pairs of vectors; cancellation happens only for nearly parallel ones and underflow or overflow only at extreme exponents.", "anchors": ["include/vecmath/vec.h: vec(const vec<U,S>&), cross, dot, length, normalize, is_unit, distance", "include/vecmath/mat.h: compute_determinant", "include/vecmath/plane.h: plane(const plane<U,S>&), point_distance", "include/vecmath/bbox.h: bbox(const bbox<U,S>&), center, size", "include/vecmath/segment.h: center"]}
