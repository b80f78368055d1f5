# Formal model of vecmath in Lean 4

Source under study: `/repo/include/vecmath/*.h` (header-only C++17 templates).
Everything machine checked lives in `lean/Verif`.

## 1. Layout

* `Verif/Model/*.lean`: the model. One Lean definition per C++ function, each with a comment that cites
  file and lines and says where it simplifies.
* `Verif/Lemmas/*.lean`: helper lemmas about the model.
* `Verif/Props/*.lean`: the property theorems `Cnn_...`, each accompanied by an `example` that shows that
  its hypotheses are met by a concrete non-trivial case. Small specifications needed only to read a
  statement are at the top of these files.
* `properties.jsonl`: the list of properties. `MANIFEST.json`: which theorem proves what
  (generated by `tools/manifest.py` from the theorem names and `tools/notes.json`).
* `seeded/LOG.jsonl`: mutation experiments.
* `tools/coverage.py`: lists the code lines of the headers that no definition of the model cites.

A claim whose statement is false for the code has a theorem with the suffix `_fails` or `_counterexample`
that proves the negation on a concrete input, and a theorem with the suffix `_partial` for the part
that does hold. Its status in the manifest is `partial`.

## 2. How C++ is modelled

* **Templates** become definitions that are polymorphic in the scalar type and only ask for the raw
  operations the template uses (`Add`, `Mul`, `Cmp`, ...). The same definition is then instantiated at
  - an arbitrary linearly ordered field `K` (exact arithmetic), or `ℝ` where square roots and
    trigonometric functions occur;
  - an IEEE-like scalar type `Flt F` with NaN, infinities, overflow and an arbitrary monotone rounding
    (`Verif/Model/Flt.lean`), for the properties that survive rounding;
  - the IEEE binary formats with rounding to nearest, ties to even, gradual underflow and overflow
    (`Verif/Model/Binary.lean`; `binary32` = `float`, `binary64` = `double`) as instances of `Flt`.
* **Comparisons** `<`, `<=`, `==` are the class `Cmp` with `Bool` results, so that NaN can make all of
  them false. `exactCmp` is the instance of a linear order.
* **Vectors** `vec<T,S>` are functions `Fin S → T`; **matrices** are column vectors of column vectors,
  `Fin C → Fin R → T`, exactly as `v[C]` in the code (`m[c][r]`).
* **Loops** are folds (`Fin.foldl`, `List.foldl`) or structural recursion; early returns use
  `findSome?`/`Option`. Possibly non-terminating loops are modelled with fuel, and termination is a
  theorem (`∃ fuel`).
* **`nan<T>()` results** are `Option` results with `none` = NaN in the exact instance. Expressions of
  the form 0/0 that the code detects with `is_nan` are `Option` valued too. Where Lean's total division
  occurs, the model tests the divisor first and yields `none`, or the theorem carries the guard under
  which the C++ division is defined.
* **Undefined behaviour** (int64 conversion out of range, out-of-bounds access, shift overflow,
  signed overflow) is a separate outcome (`none`) or an explicit hypothesis.
* **std::sort** is modelled by its contract: any function that returns a sorted permutation when the
  comparator is a strict weak order on the elements. **std::min_element / rotate / reverse / find** are
  modelled by the list functions with the documented tie-breaking.
* **std::sqrt, sin, cos, acos, atan2, cbrt** are the exact real functions (`Real.sqrt`, ...), and
  `constants::pi()` is `Real.pi` where trigonometric functions are involved. In theorems about IEEE
  arithmetic they are parameters with a hypothesis: `std::sqrt` is correctly rounded or at least faithful (`CorrectSqrt`, `FaithfulSqrt`),
  `std::sin` and `std::cos` have a relative error of at most two rounding errors (`AccurateTrig`), that `std::acos` has such an error on [-1, 1], is not negative there, and NaN elsewhere (`AccurateAcos`), and that `std::tan` has such an error up to 21/16 (`AccurateTan`). Functions that meet the hypotheses exist.
  For text, `stream << x` and `std::atof` are definitions (Model/Text.lean) that follow the C standard in the "C" locale with correct rounding; hexadecimal numbers and the signs of zero and NaN are not modelled.
* **Number printing / reading** (`ostream << T`, `std::atof`) are parameters with the assumption that
  reading a printed token gives back the number.
* **Default tolerances** (`almost_zero()`, `point_status_epsilon()`, ...) are parameters of the model;
  theorems either hold for every non-negative tolerance, or say which value they are about.

### Not modelled (trusted gap)
* Rounding errors of the geometric algorithms: their theorems are about exact arithmetic unless the
  theorem mentions `Flt`. Where an epsilon occurs in the code it occurs in the model.
* NaN payloads. `Flt` has one zero, and division in `Flt` counts a zero divisor as +0; C117 justifies this with a model that has both zeros
  (`SFlt`) for every function listed there. Not among them: `rotation_matrix_to_euler_angles`
  (C117_euler_fails).
* Object lifetime, iterator invalidation, exceptions, performance, ABI.
* Implicit `float`/`double` conversions of literals (`1.0e-15`, `0.001`): exact rationals in the exact instances, the nearest number of the
  format in IEEE arithmetic. Overflow of integer types is modelled for C114 only (`SInt`), without promotion of types narrower than `int`.
* Type aliases (`forward.h`, `glsh.h`), defaulted constructors and assignments, `operator<<` of lines,
  planes, rays and approx objects (they only concatenate the modelled vector output).

## 3. Trusted base
* Lean 4.33.0 kernel; Mathlib as compiled.
* Axioms: only `propext`, `Classical.choice`, `Quot.sound` (Lean's standard ones), for every theorem in
  the manifest; checked with `#print axioms` on the list that `tools/manifest.py` writes. No `sorry`, no
  own axioms, no `native_decide`/`bv_decide`.
* The reading of C++ documented above: model text vs. code is checked by eye only.

## 4. Properties: what is modelled and how it is proved

K is any linearly ordered field; Flt is the floating point model with arbitrary monotone rounding.

| Id | Modelled | Result and method |
|---|---|---|
| C01 | `compare`, `==`, `<`, `<=`, `>`, `>=` of vectors over any IEEE-like scalar | strict weak order and total preorder for NaN-free vectors, operators agree with each other; induction on components |
| C02 | `is_equal`, `compare` with epsilon | closeness is componentwise; antisymmetry; characterisation of `<`; non-transitivity is proved as well |
| C03 | `min`, `max`, `safe_min`, `safe_max` (variadic) | induction over the argument list, with NaN; the result of `min` depends on the position of NaN (proved) |
| C04 | `clamp` for scalars and vectors | interval, idempotence, monotonicity, NaN; vector clamp agrees component by component where the code does |
| C05 | `trunc`, `floor`, `ceil`, `round`, `fract`, `round_up/down` | refinement to Mathlib `Int.floor`/`Int.ceil`, int64 overflow is an outcome |
| C06 | `snap*`, `is_integral` | nearest grid point, idempotence, direction |
| C07 | `mod` | truncated remainder |
| C08 | `normalize_degrees/radians` loop | termination measure and congruence in exact arithmetic; divergence under rounding and for infinities is proved |
| C09 | `succ`, `pred` on naturals and on `BitVec w` | modular arithmetic |
| C10 | `correct` | partial: holds for decimals = 0; for decimals ≥ 1 the function is the identity (proved), counterexample |
| C11 | `abs_difference` | partial: exact condition for signed arguments, counterexample for opposite signs, unsigned branch correct |
| C12 | `solve_quadratic` | exactly the real roots, with tolerance |
| C13 | `solve_cubic` | exactly the real roots; Cardano and the trigonometric case |
| C14 | `solve_quartic` | exactly the real roots; the sharing of the result array in the code is harmless |
| C15 | `mix`, `smoothstep`, `step`, `sign` | range and monotonicity |
| C16 | `quick_sort` on an array segment | permutes and sorts; loop invariant of the partition |
| C17 | `find_max_component`, `find_abs_max_component`, `get_*`, `first/second/third_axis` | k-th largest, also for Flt |
| C18 | `swizzle`, `unswizzle` | inverse, which component goes where |
| C19 | `dot`, `cross` | bilinear, orthogonal, Lagrange, Cauchy-Schwarz; commutation laws under rounding |
| C20 | `length`, `distance`, `normalize`, `is_unit`, `is_parallel` | metric, unit length |
| C21 | `is_colinear` | decides rank |
| C22 | `is_between` | characterisation |
| C23 | `to_homogeneous_coords`, `to_cartesian_coords` | round trip both ways |
| C24 | `average` | centroid, order independence, translation |
| C25 | `measure_angle` | angle in [0, 2π) with the right sine and cosine |
| C26 | `parse`, `operator<<` of vectors | proved relative to number reader and printer (C138 discharges this for decimal text of `float` and `double`); reading past the end of a `string_view` is proved possible |
| C27 | `parse_all` | terminates always; partial: correct for well formed separators, three failures proved |
| C28 | `bbox::builder`, `merge_all` | least box containing everything, any history of calls; also Flt |
| C29 | `contains`, `encloses`, `intersects` | the set predicates; also Flt |
| C30 | `merge`, `intersect` | lattice laws |
| C31 | `constrain` | nearest point |
| C32 | `translate`, `expand`, `size`, `center` | containment; also Flt |
| C33 | `bbox::transform` | encloses the image, is the least such box |
| C34 | `vertices`, `for_each_face/edge/vertex` | each vertex, edge and face exactly once, faces outward |
| C35 | `relative_position` | classification |
| C36 | `builder.bounds()` of an unused builder | false (proved), `initialized` is right |
| C37 | `*`, `+`, `-`, `transpose` of matrices | refinement to Mathlib `Matrix` |
| C38 | `compute_determinant` (all sizes, Laplace) | equals `Matrix.det` |
| C39 | `compute_adjugate` | equals `Matrix.adjugate` |
| C40 | `lup_find_pivot`, `lup_decompose`, `lup_solve` | solution correct, failure exactly if a pivot is below the threshold |
| C41 | `invert` | two-sided inverse; fails for some non-singular matrices because of the absolute threshold (proved) |
| C42 | `translation_matrix`, `scaling_matrix`, `mirror_matrix`, `strip_translation`, ... | action on points, composition |
| C43 | `rotation_matrix` (three overloads) | orthogonal, determinant 1, fixes the axis, turns by the angle |
| C44 | Euler angles from a matrix | round trip up to gimbal lock |
| C45 | quaternion product and rotation | composition, length |
| C46 | `quat(from, to)` | partial: exact outside the dead zones, inexactness inside is proved |
| C47 | `axis()`, `angle()` | partial: inverse of the constructor; `axis()` not normalised for small angles (proved) |
| C48 | quaternion `==` | partial: identifies (r,v) with (-r,v), inverse rotations (proved) |
| C49 | `perspective_matrix`, `ortho_matrix` | corners of the view volume |
| C50 | `view_matrix`, `coordinate_system_matrix` | change of basis, failure condition |
| C51 | `plane_projection_matrix` | projection along the direction, existence |
| C52 | `scale_bbox_matrix`, `scale_bbox_matrix_with_anchor`, `shear_bbox_matrix` | box goes to box |
| C53 | `points_transformation_matrix` | maps the points, success condition |
| C54 | `from_points`, `plane_normal` | contains the points, orientation, failure condition |
| C55 | plane queries | consistency |
| C56 | `plane::transform` | partial: similarities; false for other affine maps (proved), characterisation |
| C57 | `line` canonical form, equality | equal iff equal point sets |
| C58 | `abstract_line` projections | nearest point |
| C59 | `segment` | canonical order of the ends |
| C60 | `segment::contains` | partial: sound and complete with the exact tolerances; asymmetric tolerance and degenerate segments proved |
| C61 | `polygon` constructor | least vertex first, equality up to rotation |
| C62 | `polygon` operations | vertices kept |
| C63 | `compare`, `compareUnoriented` | compare complete; compareUnoriented partial, not transitive (proved) |
| C64 | ray/plane, line/plane | point on both, completeness |
| C65 | ray/triangle | point in the triangle; tolerance effect proved |
| C66 | ray/box | partial: NaN for inside origins with a zero direction component (proved) |
| C67 | ray/sphere | first point in front; on-sphere behaviour stated |
| C68 | ray/torus | partial: quartic is right for all inputs, selection right if the tolerance plays no role; failure with the shipped tolerance proved |
| C69 | `polygon_contains_point`, ray/polygon | partial: even-odd rule in general position, convex case, boundary; failure at vertex height proved |
| C70 | plane/plane | line in both planes, failure exactly for nearly parallel planes |
| C71 | point to ray/segment | minimal distance; NaN for degenerate segments proved |
| C72 | ray/ray, ray/segment, ray/line | partial: reported positions attain the distance; minimal without clamping; failures proved |
| C73 | `convex_hull` | comparator is a strict weak order for every input, hull is convex, contains all points, consists of input points; failure for equal first points proved |
| C74 | Bezier surface | convex combination, corners, affine invariance, boundary curves |
| C75 | `approx` | trichotomy and mirror laws, exact and Flt; vectors only exclusive (proved) |
| C76 | list operators | element-wise |
| C77 | matrix text | round trip, row-major |
| C78 | `transform` of lines, rays, segments | image point sets |
| C79 | constant matrices | group relations |
| C80 | converting constructors | partial: monotone conversions break canonical forms of segments and polygons (proved) |
| C81 | `sqrt_c` in exact arithmetic | any result is the root, iterates converge from above and the error halves; the loop diverges in exact arithmetic (proved) |
| C82 | `repair`, equality of boxes | valid box with the same corners |
| C83 | `sqrt_c` over `Flt P.fmt`, IEEE binary formats | terminates for every finite argument >= 0; the result is one of the two neighbours of the root; the iterates decrease until they reach it |
| C84 | `trunc`, `floor`, `ceil`, `fract`, `round_up`, `round_down` over `Flt P.fmt` | exact on the whole int64 range, undefined elsewhere; integral parts and fractions of numbers of a format are numbers of the format |
| C85 | `round` over `Flt P.fmt` | partial: exact set of exceptions and the results there (the number below 1/2 gives 1, odd integers in [2^(p-1), 2^p) give v+1); counterexamples for every format and for `float` |
| C86 | `mod` over `Flt P.fmt` | exact; the rounded quotient cannot reach the next integer, and remainders of numbers of a format are numbers of the format |
| C87 | `normalize_degrees` over `Flt P.fmt` | terminates, result in [0, 360), exact up to one rounding; the additions of the loop are exact |
| C88 | `mod` and `normalize_radians` over `Flt P.fmt` | partial: negative result for a `double` (proved); in general the error and the excess over the interval are at most 4 (x + y) 2^-p |
| C89 | the comparison functions of all composite types, exact ordered field; `Flt F` for NaN | proved |
| C90 | the functions over any `Cmp` type or the exact field, `Flt F` for abs_max and abs_min | proved |
| C91 | the vector functions, exact field with floor; `Flt F` for is_nan | proved |
| C92 | constructors and slice functions over any type | proved |
| C93 | the output operators with the printing of numbers as a parameter | proved |
| C94 | the constructors of `BBox`, exact ordered field | proved |
| C95 | `polygonContainsPointAuto`, `intersectRayPolygonAuto` over ℝ | partial: reduces to C69; proved that three colinear vertices at the start make every ray miss |
| C96 | `Quat.scale`, `Quat.scaleLeft`, `Quat.convert`, `Quat.zero`, exact field | partial: the scalar products scale the real part only (proved); the other claims are proved |
| C97 | `dot`, `Plane.pointDistance`, `Plane.pointStatus` over `Flt P.fmt`; every operation rounded separately (no fused multiply-add contraction) | proved as stated, failures included: error bounds and correctness away from the tolerance; for `float` the default tolerance is below the rounding error (proved) |
| C98 | `isEqual`, `vcompare`, `visEqual` over `Flt P.fmt` | proved as stated, failures included: sound and complete up to one rounding; symmetry of the vector functions fails (proved) |
| C99 | `mix`, `smoothstep` over `Flt P.fmt` | proved as stated, failures included: range, ends, error bound; `mix` may leave the interval and `smoothstep` is not monotone in `float` (proved) |
| C100 | `BBox.center`, `size`, `translate`, `expand`, `vertices` over `Flt P.fmt` | proved as stated, failures included: vertices may be outside of the box and the center may overflow (proved) |
| C101 | `lengthG`, `lengthC`, `normalizeG`, `normalizeC`, `isUnitG`, `isParallelG`, `distanceG` (Model/Length.lean) over `Flt P.fmt`; std::sqrt is any function with `CorrectSqrt` | proved as stated, failures included: error bounds, range of components, exactness along axes; normalize fails on overflow and underflow (proved) |
| C102 | `dot`, `cross`, `distanceG`, `isParallelG` over `Flt F` and `Flt P.fmt` | proved as stated, failures included: exact algebra and error bounds; distance zero between different points (proved) |
| C103 | `mmulVec`, `vmulMat`, `mmul`, `mmulPoint`, `pointMulMat`, `matId`, `translationMatrix`, `scalingMatrix` and the constant matrices over `Flt F` | proved as stated, failures included: exactness and error bound; identity times an infinite component gives NaN (proved) |
| C104 | `snapG`, `snapUpG`, `snapDownG` over `Flt P.fmt` | proved as stated, failures included: error bounds of quotient and product, `round` from C85 |
| C105 | `correctG` over `Flt P.fmt` | proved; the difference to the integer is exact |
| C106 | `isBetweenG` over `Flt P.fmt` | proved as stated, failure included: the signs of all products agree, the greatest component of the direction is not small |
| C107 | `isUnitC`, `distanceC`, `isParallelC`, `isBetweenC`, `transformC`, `lengthC` with fuel | proved: one faithful root function describes `sqrt_c` (C83) for all arguments |
| C108 | `intersectRayBBox` over `Flt P.fmt` | proved as stated, failures included: soundness, completeness with margin, exactness for axis parallel rays |
| C109 | `intersectRayPlane`, `intersectLinePlane` over `Flt P.fmt` | proved as stated, failure included: residual, decisions, axis aligned planes, concrete bound for double |
| C110 | `pointAtDistance`, `distanceToProjectedPoint`, `projectPoint`, `Plane.projectPoint`, `Segment.center` over `Flt P.fmt` | proved as stated, failure included |
| C111 | `average` over `Flt P.fmt` | proved as stated, failures included |
| C112 | `lupSolve`, `invert` over `Flt P.fmt`, test `p < 1.0e-15` against the double nearest to 1e-15 | proved as stated, failure included |
| C113 | `lupSolve`, `invert` over `Flt P.fmt`; `translationMatrix`, `scalingMatrix`, the constants | proved as stated, failure included |
| C114 | `SInt w`, signed integers of w bits with a value `ub` for undefined behaviour; the generic definitions of vectors, matrices and boxes over it | proved as stated, failures included |
| C115 | Model/Vec, Mat, MatExt and is_colinear at the IEEE numbers | C115_dot, C115_add_sub, C115_cross, C115_product, C115_determinant, C115_adjugate, C115_squared_distance, C115_colinear, C115_colinear_reported; counterexample C115_colinear_fails (discrepancy 42) |
| C116 | Model/ConvexHull at the IEEE numbers | C116_hull, C116_empty; counterexample C116_empty_fails (discrepancy 42) |
| C117 | Model/SFlt: the IEEE numbers with both zeros and the sign rules of IEEE 754; the generic definitions are run on both types | C117_scalar, C117_rounding, C117_vector, C117_length, C117_matrix, C117_lup, C117_box, C117_geometry, C117_polygon, C117_mod (`mod`, `correct`, `normalize_degrees`), C117_plane, C117_sphere (`intersect_ray_sphere`, `is_unit`, `is_parallel`; assumes that the root of 0 is 0), C117_select, C117_hull (for every `std::sort` that looks at the points through the comparator only), C117_rotation, C117_angle (library functions are parameters whose results are equal up to the sign of a zero for arguments that are), C117_solve (leading coefficient not `-0`), C117_torus, C117_transform, C117_segment, C117_ray_segment, C117_planes (`intersect_plane_plane`, `coordinate_system_matrix`, `plane_projection_matrix`), C117_scale (`translation_matrix`, `scaling_matrix`, and, if no upper bound of the old box is `-0`, the `scale_bbox_matrix` functions), C117_ortho (right, upper and far bound not `-0`), C117_shear (no upper bound of the box `-0`), C117_view, C117_perspective (near plane, tangent and viewport without negative sign, far plane not `-0`), C117_division, C117_dot_sign, C117_sum_sign, C117_minmax_sign, C117_product_sign, C117_identities; counterexamples C117_abs_fails, C117_division_fails (discrepancy 43), C117_add_zero_fails, C117_ortho_fails, C117_solve_fails (`solve_quadratic` with the leading coefficient `+0` and `-0`), C117_euler_fails (`rotation_matrix_to_euler_angles` returns π and -π for matrices that compare equal) |
| C118 | Model/Named: numeric limits of binary formats and signed integers, the named vectors, `vec * mat` for any shape with out of bounds writes as `none`, polygon iterators, `from_points` with `get` | C118_max, C118_min, C118_int, C118_nan, C118_fold_min, C118_axis, C118_axis_ieee, C118_neg_sign, C118_row_vector, C118_row_vector_square, C118_get_vertices; counterexamples C118_fold_max_fails, C118_reverse_iteration_fails, C118_from_points_get_fails (items 20 to 22) |
| C119 | Model/BBox `transform`, Model/Mat `mmulPoint` at the IEEE formats | C119_transform_vertices, C119_transform_affine (sums of products are monotone in each coordinate), C119_transform_identity, C119_transform_constants; counterexample for rounded sizes C119_transform_fails (item 44) |
| C120 | constants.h (literals are rounded to double, then to the type) and the conversions of scalar.h in binary32 and binary64 | proved with the enclosures of pi and e of Mathlib; values at quarter turns by evaluating the roundings; counterexample for the round trip |
| C121 | polygonContainsPoint at the scalar type Flt with constants::almost_zero rounded to the format | error bound 11u(\|x0\|+\|x1\|+az) for the computed crossing; even-odd rule and the convex case from the exact results C27/C61; counterexample by evaluating the roundings |
| C122 | the functions at the scalar type Flt | proved by induction on the sums, the recursion of the determinant and the list of points; counterexample for boxes |
| C123 | the function at the scalar type Flt and at ℚ | proved: the numerators and the denominator are exact, signs of quotients survive rounding, the rounded sum of the rounded quotients exceeds one exactly if the sum does; two counterexamples beyond the bounds |
| C124 | `solve_quadratic` over an arbitrary number type with `std::sqrt` as a parameter \| proved (accuracy, exactness on grids, counting); loss of a solution, a wrong number and a = 0 proved as counterexamples |
| C125 | the product, rotation and matrix of quaternions instantiated with IEEE numbers \| proved (error bounds, exactness on grids, overflow as a counterexample) |
| C126 | plane_normal, from_points and is_inf for IEEE numbers with sqrt as a parameter \| proved (validity, accuracy of normal and distances, rejected far and overflowing points as counterexamples) |
| C127 | the four functions for IEEE numbers with sqrt as a parameter \| proved (accuracy, minimality, exactness on grids; NaN for degenerate segments and overflow by example) |
| C128 | evaluateBezier (Model/Approx) at the IEEE formats \| proved (C128_corners, C128_seam_u, C128_seam_v, C128_error, C128_bounds, C128_monotone, C128_sign, C128_grid); counterexamples C128_constant_fails, C128_reverse_fails (item 53) |
| C129 | intersectRaySphereG (Model/SphereG) at the IEEE formats \| proved (C129_model, C129_nonneg, C129_hit, C129_miss, C129_inside, C129_away, C129_entry, C129_grid, C129_grid_exact); counterexample C129_overflow_fails (item 54) |
| C130 | `rotationMatrixAxisG`, `rotationMatrixRPYG` (Model/RotG.lean) with `sin` and `cos` as parameters, on `Flt P.fmt`; hypothesis `AccurateTrig` (relative error two rounding errors), shown satisfiable \| proved with a running error calculus against real numbers (Lemmas/FltAp.lean, Lemmas/FltRot.lean); the failure at a quarter turn is part of the statement (section 5, item 55) |
| C131 | `measureAngleG`, `Quat.ofAxisAngleG`, `Quat.angleG` (Model/AngleG.lean) with `acos`, `sin` and `cos` as parameters, on `Flt P.fmt`; hypotheses `AccurateAcos`, `AccurateTrig`, shown satisfiable \| proved with the running error calculus of C130 (Lemmas/FltAng.lean) and the rotation bound of C125; the failures for equal vectors and for the identity are part of the statement (section 5, items 56 and 57) |
| C132 | Model/Cast.lean: `Flt.cast` between formats (overflow to infinity as in IEEE 754), `Line/Ray/Plane.convert`, and the existing converting constructors \| proved; double rounding via numbers and midpoints of the narrow format (Lemmas/FltCast); failures proved for segments, polygons, disjoint boxes and dot products |
| C133 | `scaleBBoxMatrix`, `scaleBBoxMatrixWithAnchor` (products of 4x4 matrices, column loops) and `mmulPoint` over `Flt P.fmt` \| closed form of translation * linear * translation (products with exact zeros vanish for finite operands), running error analysis, monotonicity of rounding, grids; NaN of 0 * inf spreads through the last row; witness 1/49 in double |
| C134 | `shearBBoxMatrix` with the search of the opposite face, `shearMatrix` and `mmulPoint` over `Flt P.fmt` \| the six side tests decided with exact equality of axes, closed form as for C133, running error analysis, cancellation on the opposite side, grids, NaN of 0 * inf |
| C135 | `orthoMatrix` and `mmulPoint` over `Flt P.fmt` \| affine closed form, error of a quotient of rounded numbers and of a linear function, monotonicity of rounding, fl(fl(1/w)*w) <= 1, grids; witness 1/49 in double |
| C136 | `perspectiveMatrixF` (generic definition, proved equal to the exact model over the reals) and `mmulPoint` over `Flt P.fmt` with the tangent as a parameter (`AccurateTan`, existence proved) \| relative errors of products and quotients with power-of-two ranges, error of a sum with cancellation for the depth, sin(a-b)/(cos a cos b) and Jordan's inequality for the tangent; witness near 1, far 5 in double |
| C137 | `viewMatrix`, `cross` and `mmulPoint` over `Flt P.fmt` \| running error bounds through two cross products and three products, (a x b) x a = b for orthonormal vectors; case analysis over axes; f_i f_j - f_j f_i = 0 exactly |
| C138 | Model/Text: decimal printing (`%g` with precision n, character by character) and `atof` (sign, digits, point, exponent, `inf`, `nan`; correctly rounded to binary64, then cast) as definitions, so that the hypotheses of C26 and C77 about reader and printer are theorems \| a printed number is read as the nearest decimal number with n digits; distinct numbers of a format are at least one unit in the last place apart; decimal numbers with few digits are recovered from a nearby binary number; collisions evaluated |
| C139 | the recursive expansion of Model/Mat over IEEE formats \| induction on the size with an error bound relative to the product of the bounds; the expansions for 2 and 3 are separate cases; failures evaluated for every precision |
| C140 | `Plane.at_`, `projectPointAlong`, `projectVector`, `alignedOrthogonal` of Model/Geom over IEEE formats \| the loop of `at` is a dot product with the other components (for any scalar type), so the error bound of C97 applies; error propagation for the projected vector; failures evaluated, for `project_vector` in every format |
| C141 | Model/FromToG: `Quat.ofFromToG`, `rotationMatrixFromToG`, generic in the scalar type with the square root and the trigonometric functions as parameters; equal to the exact model over the reals (C141_model) \| case distinction on the computed cosine; in each case the axis and the angle are near to exact ones, and Rodrigues' formula with an inexact axis, sine and cosine is compared with the exact rotation (Lemmas/FltFromTo); then C131 for the quaternion, and the bound for matrices near rotations for the matrix |
| C142 | all scalar operators of `approx` and `==` of `approx<vec>` over `Flt P.fmt` | proved as stated, failure of the mirrored operators included |
| C143 | `pointsTransformationMatrix4G`, `pointsTransformationMatrix3G` over `Flt P.fmt` (Model/PointsG.lean; equal to the exact model of C53 by C143_model) | proved as stated, from the residual bound C112 and the exact shape of the products of matrices |
| C144 | `invert`, `lupSolve`, `coordinateSystemMatrixG` over `Flt P.fmt` (the last equal to the exact model of C50 by C144_model) | proved as stated: the decomposition of the matrix is related step by step to the decomposition of its linear part; the bounds follow from the residual bound C112 |
| C145 | `planeProjectionMatrixG`, `planeProjectionMatrixOrthoG` over `Flt P.fmt` (equal to the exact model of C51 by C145_model) | proved as stated; success by the near-singularity criterion C112_success for the linear part (C144_success); finiteness of the entries is a hypothesis of C145_plane except for normals along the axes |
| C146 | `lupSolve`, `invert` over `Flt P.fmt` (the model of C112) | proved as stated: powers of two bound every partial sum (FltCond.solve_bound), a small pivot yields a vector that the matrix almost maps to zero (FltCond.pivot_vector), C112 gives the residual; C146_float_overflow_fails is the single precision witness |
| C147 | `Line.makeCanonical`, `Line.beq`, `Line.bne` over `Flt P.fmt` | proved as stated; C147_moved_fails evaluates the float line through (1, 0) in the direction (0.6f, 0.8f) |
| C148 | `intersectPlanePlaneG` over `Flt P.fmt` with `FaithfulSqrt` | proved as stated; C148_model relates the definition to the exact one of C70; C148_far_fails is for every normal (c, c, 0), (c, -c, 0) with 1/2 <= c < 1 |
| C149 | `isColinear` over `Flt P.fmt` | proved as stated; `C149_order32_fails`, `C149_order64_fails` and `C149_overflow_fails` are the failures of the statement, `C149_symmetric` holds in every dimension and every format |
| C150 | `Line.transformG`, `Ray.transformG`, `Plane.transformG` over `Flt P.fmt` with `FaithfulSqrt` | proved as stated; `C150_identity_fails` is the failure of the statement |
| C151 | `squaredDistanceRayRay`, `squaredDistanceRayLine` and `squaredDistanceRaySegmentG` (Model/RaySegmentG, the same function with `sqrt` as a parameter; `C151_model` relates it to the exact one) over `Flt P.fmt` | proved as stated; `C151_crossing_fails` is the failure of the statement; the case reported as parallel is not covered (C72 has its exact counterpart) |
| C152 | `Segment.containsG` (Model/SegmentG, the same function with `sqrt` as a parameter; `C152_model` relates it to the exact one) over `Flt P.fmt` | proved as stated (`C152_true`, `C152_false`, `C152_start`, `C152_degenerate`, `C152_end_fails`); the segment must be long enough that its squared length does not underflow |
| C153 | toEulerAnglesG (EulerG.lean) with asin, cos, atan2 and the constant for pi/2 as parameters; AccurateAsin, AccurateAtan2 and AccurateTrig state what is assumed of the library | C153_angles, C153_poles, C153_nan, C153_float_fails, C153_double_fails (with C153_exact: the exact rotations have a pitch of a quarter turn), C153_model |
| C154 | the generic definition BBox.volume (BBox.lean), used with Flt P.fmt | C154_monotone, C154_empty, C154_error, C154_exact, C154_nan_fails, C154_zero_fails, C154_order_fails |
| C155 | the generic definition intersectRayPolygon (Intersect.lean), used with Flt P.fmt | C155_axis, C155_vertex, C155_hit, C155_large_fails |
| C156 | solveCubicG and solveCubicF (CubicG.lean) with the C++ functions as parameters; solveCubicF uses the double constants converted to the type | C156_decision, C156_single, C156_three, C156_three_numbers, C156_float_fails, C156_double_fails, C156_model |
| C157 | solveQuarticG and solveQuarticF (QuarticG.lean) on top of solveCubicG and solveQuadraticG, with the C++ functions and the constants as parameters | C157_shape, C157_numbers, C157_numbers_zero, C157_float_fails, C157_model |
| C158 | torusQuarticG, torusSelectG, intersectRayTorusG and intersectRayTorusF (TorusG.lean) on top of solveQuarticG | C158_select, C158_exact, C158_hole_fails, C158_model |
| C159 | Plane functions of Geom.lean, fromPointsG (PlaneG.lean), intersectRayPlane, intersectLinePlane, intersectRayTriangle (Intersect.lean) and intersectRaySphereG (SphereG.lean) over Flt | C159_flip, C159_flip_same, C159_from_points, C159_reflect, C159_rotate_fails |
| C160 | dot, cross (Vec.lean), lengthG, normalizeG, distanceG (Length.lean) and planeNormalG (PlaneG.lean) over Flt P.fmt | C160_dot, C160_cross, C160_length, C160_normalize, C160_distance, C160_plane_normal, C160_point_distance, C160_ray_plane, C160_tiny_fails |
| C161 | vconvert, mconvert with Flt.cast (Vec.lean, Mat.lean, Cast.lean), cross, dot (Vec.lean), computeDeterminant (Mat.lean), lengthG, normalizeG, distanceG, isUnitG (Length.lean), pointDistance, Segment.center (Geom.lean), BBox.center, BBox.size (BBox.lean) over binary32 and binary64 | C161_cross, C161_parallel, C161_dot, C161_determinant, C161_length, C161_normalize, C161_distance, C161_back, C161_dot_three, C161_center, C161_float_fails, C161_dot_three_fails |

## 5. Discrepancies between code and documentation or expectation found on the way

1. `correct(x, decimals)` does nothing for decimals ≥ 1 (C10). 2. `abs_difference` is wrong for arguments
of different sign (C11). 3. `builder.bounds()` of an unused builder is an invalid box (C36). 4. Unary
minus of a quaternion negates only the real part, `==` accepts inverse rotations (C48). 5. Polygon
`compare` is lexicographic, not by number of vertices first as documented, and `compareUnoriented` ignores the
second vertex (C63). 6. `intersect_ray_bbox` returns NaN for an origin inside the box and an axis-parallel
direction (C66). 7. Ray distances are not minimal after clamping (C72). 8. `plane::transform` uses M instead
of its inverse transpose (C56). 9. `polygon_contains_point` miscounts vertices at the height of the point
(C69). 10. `convex_hull` is empty if the first two points coincide (C73). 11. Converting constructors
of `segment` and `polygon` do not restore the canonical order (C80). 12. `quat(from, to)` and `axis()` have
dead zones (C46, C47). 13. `approx<vec>` is not trichotomous (C75). 14. Angle normalisation may not
terminate under rounding (C08). 15. `segment::contains` has an asymmetric end tolerance and is always
false for degenerate segments (C60). 16. Absolute tolerances make `intersect_ray_torus`,
`intersect_ray_triangle`, `lup_solve`/`invert` and the distance functions depend on the scale (C68, C65, C41, C72).
17. `parse_all` loses or invents tuples for some documented separators (C27), `atof` may read past the end
of a `string_view` (C26). 18. `squared_distance` to a degenerate segment is NaN (C71). 19. Scalar
and vector `clamp` disagree (C04). 20. `vec::min()` is the least positive normal number, not the least
number (C118). 21. `polygon::rbegin/rend` are forward iterators, and `from_points(range, get)` ignores `get` (C118).
22. `vec * mat` writes out of bounds if C > R (C118). 23. `shear_bbox_matrix` passes `double` literals to
`shear_matrix`, so that it compiles for `double` only; glsh.h declares `vec3` as `vec2f`; it also has `#ALIAS_TEMPLATE_FUNCTION` lines and
`vec<2, unsigned>`, so that it does not compile at all.
24. `round` is wrong for the number just below 1/2 and for odd integers with the full
number of bits (C85). 25. `normalize_radians` returns a small negative number for some doubles (C88). 26. Multiplying a
quaternion by a scalar scales its real part only, so that the rotation changes (C96). 27. `intersect_ray_polygon` without a plane misses
polygons that begin with three colinear vertices (C95). 28. The default tolerance of `point_status` is below the rounding error of `float`
for coordinates around 10^5 (C97). 29. With a tolerance, vector `is_equal` is not symmetric and `compare` can rank each of two vectors
before the other, because `rhs - epsilon` and `rhs + epsilon` are rounded (C98). 30. `mix` may leave the interval of its end values and
`smoothstep` is not monotone in `float` (C99). 31. `for_each_vertex` computes vertices as `min + size` and may visit points outside of the
box; `center` overflows (C100). 32. `normalize` does not scale its argument: the `double` vector (2^600, 0, 0) normalises to the zero vector
and (2^-600, 0, 0) to (inf, NaN, NaN) (C101).
33. `distance` may be zero for different points because the squares underflow (C102).
34. The identity matrix times a vector with an infinite component gives NaN in all other components (C103).
35. `snapUp` and `snapDown` are not idempotent (0.25 snapped up to the grid 0.1 twice gives 0.4) and `snapDown` may increase its
argument, because the quotient is rounded (C104).
36. `is_between` rejects the middle of a segment if the squared distance to an end point underflows (C106).
37. `intersect_ray_bbox` reports a hit at distance 0 for a ray that moves away from the box if the quotient underflows (a direction
component above one), and a hit at infinite distance for a ray beside the box if the quotient overflows (C108).
38. `intersect_ray_plane` reports a hit at the origin of the ray if the scalar product of direction and normal overflows, wherever the
plane is (C109).
39. `average` counts the points in the component type, so that more than 2^24 points (`float`) are divided by 2^24; and the average of
equal points need not be that point (C111).
40. `lup_solve` reports success and a wrong finite solution if the elimination overflows (C112), and NaN for components with an exact
solution if another component overflows (C113). The limit `1e-15` for pivots is absolute, so small but well-conditioned matrices are
rejected (C113_monomial_success).
41. For integer components `bbox::center` and `average` overflow although the result is representable, for instance for the valid box from
    2^30 to 2^31 - 1 of `int` (C114).
42. `is_colinear` reports the points (0,0,0), (10946,6765,0), (17711,10946,0) of `double` as colinear for every tolerance, since the product
    of the squared lengths is rounded; `convex_hull` of the triangle is empty (C115, C116).
43. `abs(-0.0)` is `-0.0`, so that `1 / abs(-0.0)` is negative; `std::abs` and `std::fabs` return `+0.0` (C117). `min` and `max` of two zeros
    return the second one.
44. `bbox::transform` uses `vertices`, whose coordinates are rounded (item 31), so a point of the box may be moved out of the
    transformed box even by a matrix of zeros and ones (C119); this does not happen if the size of the box is exact.
45. `to_degrees(to_radians(d))` is not `d`, not even for whole degrees: 11 degrees come back as 10.999999999999998 in `double` and as
    11.000001 in `float` (C120).
46. `polygon_contains_point` in `float` is unreliable for large polygons: a point strictly inside a triangle with integral coordinates up to a
    million, 0.0127 left of its only right crossing, is reported outside, although the tolerance is 0.001 (C121).
47. `merge_all` and `bbox::builder` forget all points before a point with a NaN coordinate: `min` and `max` return the second argument if one
    of them is NaN, so the NaN is replaced by the next point. The resulting box is valid and does not contain the earlier points. A point of NaNs
    is `contained` in every box and `inside` every plane (C122).
48. `intersect_ray_triangle` in `float` leaves gaps between triangles: the ray from the origin in direction (-10, 259, 289) meets the middle of
    the edge from (255, 235, 294) to (-275, 283, 284) and hits neither of the triangles with third corners (220, 0, 0) and (-191, 0, 0). If the
    square of the length of the sides overflows, a ray pointing away from a triangle is reported to hit it at distance NaN, since comparisons
    with NaN are false (C123).
49. `solve_quadratic` in floating point numbers (C124): `x² - 2^28 x + 1 = 0` in double yields the solution 0 (`C124_cancellation_fails`);
    `3x² + 102810947x + 880840901919734 = 0` has two rational solutions but none is reported (`C124_count_fails`); with `a = 0` the function
    always reports two solutions, neither of which is a finite number (`C124_degenerate`).
50. Rotating a vector with three equal components of 3/4 of the overflow threshold about the diagonal yields infinite components although the
    result is the vector itself (`C125_overflow_fails`).
51. `from_points` rejects the integer points (0, 0, 0), (20001, 1, 0), (20000, 1, 0) in double precision although they are not colinear, because
    the sine of the angle is below the tolerance of 1e-8 (`C126_far_fails`), and in single precision two perpendicular edges of length 2^33,
    because the squared length of the cross product overflows (`C126_overflow_fails`).
52. `distance(ray, point)` in single precision reports a point at distance 2^64 from a ray to be infinitely far away, because the squared distance
    overflows (`C127_overflow_fails`).

53. `evaluate_quadratic_bezier_surface` computes the weights as `1 - 2x + x*x`, `2(x - x*x)` and `x*x`. They are never negative, but their
    rounded sum is not one, so nine equal control points can yield a point outside of their bounding box (C128_constant_fails), and the
    formula is not symmetric under `x -> 1 - x`, so two patches that share a border in opposite directions can have a gap
    (C128_reverse_fails). `(1-x)*(1-x)` and `2*x*(1-x)` would at least be symmetric.
54. `intersect_ray_sphere` squares `2 * dot(diff, direction)` in the discriminant: in single precision a sphere with radius 2^62 whose center is
    2^63 away from the origin of the ray is reported at infinite distance although the ray meets it at 2^62 (C129_overflow_fails). With `p = dot`
    and `d = p*p - q` the range would be larger and two multiplications fewer.
55. `rotation_matrix(axis, angle)` by `to_radians(90)` about the z axis does not map (1, 0, 0) to (0, 1, 0): the constant for a quarter of a turn
    is not exactly half of pi, so that its cosine is not zero, and an accurate cosine function says so. The x coordinate of the result is not an
    integer, in `float` and in `double`, for every accurate cosine (`C130_quarter_fails`). The constants `rot_90_z_ccw` etc. are exact.
56. `measure_angle(v, v, up)` is not 0 for every unit vector: for the normalized vector (2, 3, 6) in `double` the dot product of `v` with itself is
    1 - 2^-53, and its arc cosine is about 1.5e-8, a hundred million times a rounding error (`C131_equal_fails`).
57. `quat::angle()` does not limit the real part to [-1, 1], as `measure_angle` does: for the unit quaternion `q = (0.8, (0.2, 0.4, 0.4))` in
    `double`, `(q * q.conjugate()).angle()` is NaN rather than 0 (`C131_angle_nan_fails`).
58. The converting constructors of `segment` and `polygon` do not restore their invariants when narrowing from `double` to `float`: the segment from
    (1, 1) to (1 + 2^-30, 0) is converted to one that starts at (1, 1) and ends at the smaller point (1, 0) (`C132_segment_fails`; item of C80 in
    IEEE arithmetic).

59. `scale_bbox_matrix` and `shear_bbox_matrix` on a box that is flat along one axis (mat_ext.h:613-674): the factor is infinite or NaN, its product
    with the zeros of the last row of the translation matrix is NaN, and so is the homogeneous coordinate of every point: all three coordinates of every
    point become NaN, also along the axes along which the box has a size, and also for a shear by zero (C133_flat_fails, C134_flat_fails).  Scaling a box
    need not move its maximum to the maximum of the new box (C133_max_fails).
60. `ortho_matrix`, `perspective_matrix`, `view_matrix` (C135-C137): the border of a symmetric orthographic viewport need not be moved to 1; the depth of a perspective camera
    does not keep the order of distances of neighbouring floats; an up vector equal to the direction collapses the picture silently, and an empty viewport gives no finite coordinate.
61. `operator<<` prints with the precision of the stream, which is 6 unless the user changes it (C138): a vector that is printed and parsed is changed as soon as a component
needs more digits, e.g. 1234567 becomes 1234570, and different vectors have the same text. 17 digits for `double` and 9 for `float` preserve every vector.
62. `compute_determinant` of a matrix with two equal rows need not be zero: the rows (1, 1, 1), (1, 1, 1), (1, 1, 2ᵖ) give -2 in every format, since the
    products are summed in an order in which the small ones are lost. Conversely the determinant of a regular 2 by 2 matrix can be exactly 0 (`C139_singular_fails`).

63. `project_vector` adds the anchor of the plane to the vector and subtracts it at the end, although the projection of a vector does not depend on the
    position of the plane: at a distance of 2ᵖ⁺³ the vector (1, -1, 0), which is parallel to the plane with normal (c, c, 0), becomes a vector with equal
    x and y coordinates (`C140_project_vector_fails`). The point obtained with `zAt` can be below the plane for `point_status` in `float` (`C140_at_fails`).
64. `quat(from, to)` and `rotation_matrix(from, to)` return the identity whenever the cosine of the angle is within 0.001 of 1, that is for angles
    up to 2.5 degrees, in every precision: the rotated vector misses `to` by up to 0.045 although the general case would be accurate to a few
    thousand rounding errors there (C141_near_fails; exact counterpart in C46).

65. `approx` (C142): the mirrored operators round different sums, so in every format there are numbers with `x < approx(v)` true,
    `approx(v) > x` false and `approx(v) <= x` true (C142_mirrored_fails); NaN equals an approximate NaN as a component of a vector, not as a
    scalar (C142_vector).
66. `invert`, `lup_solve` with `float` (C146): the limit `1e-15` for the pivots suits `double`; in single precision a 3 × 3 matrix with entries up to 1
    passes the test and its reported inverse contains an infinity (C146_float_overflow_fails). For `double` this cannot happen for up to four rows and
    entries up to 2^100 (C146_invert_double).
67. `make_canonical`, `operator==` of lines (C147): with rounding, `make_canonical` is not idempotent and a line need not be equal to its own canonical
    form or to the line through another of its points (C147_moved_fails); only axis-parallel lines and reversed directions are exact (C147_axis, C147_reverse).
68. `intersect_plane_plane` (C148): the normal of the second plane is projected onto the first plane by `project_vector`, which adds and
    subtracts the anchor of the first plane. The absolute error of the projected normal is therefore proportional to the distance of the
    first plane, and that of the point to the square of it. At a distance of 2^(p+3) (2^27 for floats, 2^56 for doubles) nothing is left:
    exactly perpendicular planes yield the default line, which callers take for "parallel". The two planes are not treated alike either:
    the proved bound for the equation of the second plane grows linearly with the distance, that for the first plane quadratically.
69. `is_colinear` (C149): the tested value is of the fourth order in the distances of the points and its epsilon is absolute, so with the
    default 0.00001 rounding alone decides from distances of the order of 10 (floats) and 1000 (doubles) on. The answer then depends on which of
    the three points comes first: (0,0,0), (4097,0,0), (4099,0,0) are not colinear as floats, and colinear if the second one comes first;
    for doubles the same happens at 1024. `convex_hull.h:116` calls it with the first two points fixed, and the assertions of
    `vec.h:1664` and `vec.h:1692` can fail for points on a coordinate axis. From 2^32 (floats) on even coinciding points are not colinear.
70. `plane::transform`, `ray::transform`, `line::transform` (C150): every transformation, even by the identity or a translation, normalises the
    direction once more, and `normalize` is not idempotent. For floats the direction `normalize(1,1,1)` alternates between two vectors under
    repeated transformation with the identity matrix, and the distance of a plane with this normal moves from 3 to 3 + 2^-21 in one step. A
    plane that is moved back and forth does not come back exactly; axis-parallel planes do as long as the additions are exact (C150_axis).
71. `squared_distance(ray, ray)` of rays that are almost parallel but not treated as parallel loses most digits in
`b * e - c * d` and `a * c - b * b`: two float rays that cross are reported to be 1.4 units apart (C151).
72. `segment::contains` with its tolerance 0: the `float` segment from (0, 0, 0) to (1, 1, 0) contains its start but not its end (`C152_end_fails`). The direction is rounded, and the projection of the end is a point just before the end. A segment whose ends coincide contains nothing for any tolerance, since its direction is NaN (`C152_degenerate`).
73. `rotation_matrix_to_euler_angles` calls `asin` with an entry of the matrix without clamping it to [-1, 1]: the product of two rotations about the y axis, each given by correctly rounded entries, can have an entry of size one plus one unit in the last place, and then roll, pitch and yaw are all NaN, although the exact pitch is a quarter turn (`C153_float_fails`, `C153_double_fails`, `C153_exact`).
74. `bbox::volume` multiplies the extents from the first to the last axis: the volume of an empty `float` or `double` box is NaN if an extent overflows and another is zero (`C154_nan_fails`), it is zero for tiny boxes that are not empty (`C154_zero_fails`), and it depends on the order of the axes (`C154_order_fails`).
75. `intersect_ray_polygon` reports a miss for a `float` ray that meets a large triangle with integral coordinates strictly inside, more than 0.012 away from its edges in the direction of the test (`C155_large_fails`, from `C121_large_fails`: the crossing is computed with a cancellation).
76. `solve_cubic` loses two thirds of the digits of the only solution of a well conditioned equation: Cardano's formula computes `D2 - q` with a cancellation when `c` is small.  The solution -1.25682 of `x³ + 3/256 x + 2 = 0` is computed in `float` as -1.25992 (`C156_float_fails`); in `double` the solution of `x³ + 3/2¹⁸ x + 2 = 0` has an error of more than 1/2¹⁹ (`C156_double_fails`).  An error of the order of the cube root of the rounding error is also the worst (`C156_single`).
77. `solve_quartic` inherits the digits that `solve_cubic` loses (item 76) through the resolvent: the solution -1.58838 of `x⁴ + 4 x - 3/256 = 0` is computed in `float` as about -1.59032 (`C157_float_fails`).  The use of `num2_1` for `num2_2` (scalar.h:940 and 943) is harmless in floating point, too, because the second quadratic equation never has more solutions than the first (`C157_numbers`).
78. `intersect_ray_torus` in `float` loses the radii of the torus when the ray starts far away, because the coefficients of the quartic equation contain the fourth power of the distance: a ray along the axis of the torus with the radii 2 and 1, starting 16384 above it, is reported to hit it at the distance 16384, in the centre of the hole (`C158_hole_fails`).
79. The squared length of a vector depends on the order of its components, because the products are added from the first to the last: rotating a vector by exactly 90 degrees with `rot_90_x_cw` can change its squared length from 1 to the next larger number, in `float` and in `double` (`C159_rotate_fails`).
80. `normalize` depends on the unit of length when squares underflow: the smallest positive number times the x axis has the computed length zero and is normalised to a vector with an infinite component, in every format (`C160_tiny_fails`).
81. The cross product of `float` vectors is zero for vectors that are not parallel, so tests for parallel vectors in `float` are unreliable; conversion to `double` first makes them exact (`C161_float_fails`, `C161_parallel`), but not the dot product with three components (`C161_dot_three_fails`).

Item 23 is an observation without a theorem.
