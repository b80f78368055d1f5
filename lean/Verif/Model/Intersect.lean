import Verif.Model.Geom
import Verif.Model.BBox
import Verif.Model.Solve
import Verif.Model.Sort

/-!
# Model of intersection.h

A NaN result is `none`.  `almostZero` stands for `constants<T>::almost_zero()` (constants.h:31, 0.001); the
theorems hold for every non-negative value of it.  A range of vertices with its accessor `get` is the list of
the accessed vertices.
-/

universe u

namespace vm
variable {T : Type u} {S : ℕ}

/-- constants.h:31-34 `almost_zero`. -/
noncomputable def almostZeroR : ℝ := 0.001

/-- Comparisons of values that may be NaN (`none`). -/
instance (priority := high) optIEEE {K : Type u} [LinearOrder K] : IEEE (Option K) where
  lt a b := match a, b with
    | some x, some y => decide (x < y)
    | _, _ => false
  le a b := match a, b with
    | some x, some y => decide (x ≤ y)
    | _, _ => false
  eq a b := match a, b with
    | some x, some y => decide (x = y)
    | _, _ => false
  Key := K
  keyOrd := inferInstance
  key a := a
  lt_iff a b := by cases a <;> cases b <;> simp
  le_iff a b := by cases a <;> cases b <;> simp
  eq_iff a b := by cases a <;> cases b <;> simp [eq_comm]

/-! ### Point in polygon -/

/-- intersection.h:44-97 `detail::handle_polygon_edge_intersection`. -/
def handlePolygonEdgeIntersection [Cmp T] [Zero T] [Neg T] [Add T] [Sub T] [Mul T] [Div T] (almostZero : T)
    (v0 v1 : Vec T 3) : ℤ :=
  if visZero v0 almostZero then -1
  else if (isZero (v0 1) almostZero && isZero (v1 1) almostZero) ||
      (Cmp.lt 0 (v0 1) && Cmp.lt 0 (v1 1)) || (Cmp.lt (v0 1) 0 && Cmp.lt (v1 1) 0) then 0
  else if Cmp.lt 0 (v0 0) && Cmp.lt 0 (v1 0) then 1
  else if Cmp.lt (v0 0) 0 && Cmp.lt (v1 0) 0 then 0
  else
    let x := -(v0 1) * (v1 0 - v0 0) / (v1 1 - v0 1) + v0 0
    if isZero x almostZero then -1
    else if Cmp.lt 0 x then 1
    else 0

/-- intersection.h:125-143 the loop over the remaining vertices and the closing edge; `fv`, `pv` are the
first and the previous vertex relative to the point, `d` is the number of crossings so far. -/
def containsLoop [Cmp T] [Zero T] [Neg T] [Add T] [Sub T] [Mul T] [Div T] (almostZero : T) (o : Vec T 3)
    (axis : ℕ) (fv : Vec T 3) : Vec T 3 → ℤ → List (Vec T 3) → Bool
  | pv, d, [] =>
    let s := handlePolygonEdgeIntersection almostZero pv fv
    if s = -1 then true else (d + s) % 2 != 0
  | pv, d, v :: rest =>
    let cv := swizzle v axis - o
    let s := handlePolygonEdgeIntersection almostZero pv cv
    if s = -1 then true else containsLoop almostZero o axis fv cv (d + s) rest

/-- intersection.h:118-144 `polygon_contains_point(p, axis, cur, end, get)`; `none` (undefined behaviour) for
an empty range, whose first element is read. -/
def polygonContainsPoint [Cmp T] [Zero T] [Neg T] [Add T] [Sub T] [Mul T] [Div T] (almostZero : T)
    (p : Vec T 3) (axis : ℕ) : List (Vec T 3) → Option Bool
  | [] => none
  | v :: rest =>
    let o := swizzle p axis
    let fv := swizzle v axis - o
    some (containsLoop almostZero o axis fv fv 0 rest)

/-- intersection.h:164-167 `polygon_contains_point(p, normal, cur, end, get)`. -/
def polygonContainsPointNormal [Cmp T] [Zero T] [Neg T] [Add T] [Sub T] [Mul T] [Div T] (almostZero : T)
    (junk : ℕ → T × ℕ) (p n : Vec T 3) (vertices : List (Vec T 3)) : Option Bool :=
  polygonContainsPoint almostZero p (findAbsMaxComponent n 0 junk) vertices

/-- intersection.h:186-202 `polygon_contains_point(p, cur, end, get)`; `none` if an assertion fails. -/
noncomputable def polygonContainsPointAuto (almostZero : ℝ) (junk : ℕ → ℝ × ℕ) (p : Vec ℝ 3) :
    List (Vec ℝ 3) → Option Bool
  | p1 :: p2 :: p3 :: rest =>
    match Plane.planeNormal p1 p2 p3 Plane.angleEpsilon with
    | (true, some n) => polygonContainsPoint almostZero p (findAbsMaxComponent n 0 junk) (p1 :: p2 :: p3 :: rest)
    | _ => none
  | _ => none

/-! ### Rays and flat objects -/

/-- intersection.h:215-227 `intersect_ray_plane`. -/
def intersectRayPlane [Cmp T] [Zero T] [Neg T] [Add T] [Sub T] [Mul T] [Div T] (almostZero : T) (r : Ray T S)
    (p : Plane T S) : Option T :=
  let d := dot r.direction p.normal
  if isZero d almostZero then none
  else
    let s := dot (p.anchor - r.origin) p.normal / d
    if Cmp.lt s (-almostZero) then none else some s

/-- intersection.h:242-280 `intersect_ray_triangle`. -/
def intersectRayTriangle [Cmp T] [Zero T] [One T] [Neg T] [Add T] [Sub T] [Mul T] [Div T] (almostZero : T)
    (r : Ray T 3) (p1 p2 p3 : Vec T 3) : Option T :=
  let o := r.origin
  let d := r.direction
  let e1 := p2 - p1
  let e2 := p3 - p1
  let p := cross d e2
  let a := dot p e1
  if isZero a almostZero then none
  else
    let t := o - p1
    let q := cross t e1
    let u := dot q e2 / a
    if Cmp.lt u 0 then none
    else
      let v := dot p t / a
      if Cmp.lt v 0 then none
      else
        let w := dot q d / a
        if Cmp.lt w 0 then none
        else if Cmp.lt 1 (v + w) then none
        else some u

/-- intersection.h:297-309 `intersect_ray_polygon(r, plane, cur, end, get)`; the outer `none` is undefined
behaviour (empty range), the inner one NaN. -/
def intersectRayPolygon [Cmp T] [Zero T] [Neg T] [Add T] [Sub T] [Mul T] [Div T] (almostZero : T)
    (junk : ℕ → T × ℕ) (r : Ray T 3) (p : Plane T 3) (vertices : List (Vec T 3)) : Option (Option T) :=
  match intersectRayPlane almostZero r p with
  | none => some none
  | some distance =>
    let point := pointAtDistance r.origin r.direction distance
    (polygonContainsPointNormal almostZero junk point p.normal vertices).map fun c =>
      if c then some distance else none

/-- intersection.h:325-332 `intersect_ray_polygon(r, cur, end, get)`. -/
noncomputable def intersectRayPolygonAuto (almostZero : ℝ) (junk : ℕ → ℝ × ℕ) (r : Ray ℝ 3)
    (vertices : List (Vec ℝ 3)) : Option (Option ℝ) :=
  match Plane.fromPointsRange vertices with
  | (true, some plane) => intersectRayPolygon almostZero junk r plane vertices
  | _ => some none

/-- intersection.h:528-535 `intersect_line_plane`. -/
def intersectLinePlane [Cmp T] [Zero T] [Neg T] [Add T] [Sub T] [Mul T] [Div T] (almostZero : T) (l : Line T S)
    (p : Plane T S) : Option T :=
  let f := dot l.direction p.normal
  if isZero f almostZero then none
  else some (dot (vscale p.normal p.distance - l.point) p.normal / f)

/-- intersection.h:548-572 `intersect_plane_plane`; the default line is all zero. -/
noncomputable def intersectPlanePlane (almostZero : ℝ) (p1 p2 : Plane ℝ 3) : Line ℝ 3 :=
  match normalize (cross p1.normal p2.normal) with
  | none => ⟨0, 0⟩
  | some lineDirection =>
    match normalize (p1.projectVector p2.normal) with
    | none => ⟨0, 0⟩
    | some dir =>
      let lineToP2 : Line ℝ 3 := ⟨p1.anchor, dir⟩
      match intersectLinePlane almostZero lineToP2 p2 with
      | none => ⟨0, 0⟩
      | some dist => ⟨pointAtDistance lineToP2.point lineToP2.direction dist, lineDirection⟩

/-! ### Rays and boxes -/

/-- intersection.h:352-365 the candidate plane of dimension `i`. -/
def bboxOrigin [Cmp T] [Zero T] (r : Ray T S) (b : BBox T S) (i : Fin S) : T :=
  if Cmp.lt (r.origin i) (b.min i) then b.min i
  else if Cmp.lt (b.max i) (r.origin i) then b.max i
  else if Cmp.lt (r.direction i) 0 then b.min i
  else b.max i

/-- intersection.h:352-365 `inside[i]`. -/
def bboxInside [Cmp T] (r : Ray T S) (b : BBox T S) (i : Fin S) : Bool :=
  !(Cmp.lt (r.origin i) (b.min i)) && !(Cmp.lt (b.max i) (r.origin i))

/-- intersection.h:369-376 the distance to the candidate plane of dimension `i`. -/
def bboxDistance [Cmp T] [Zero T] [One T] [Neg T] [Sub T] [Div T] (r : Ray T S) (b : BBox T S) (i : Fin S) : T :=
  if !(Cmp.eq (r.direction i) 0) then (bboxOrigin r b i - r.origin i) / r.direction i else -1

/-- intersection.h:378-399 `bestPlane`.  Loops over an index range are folds over the list of indices. -/
def bboxBestPlane [Cmp T] [Zero T] [One T] [Neg T] [Sub T] [Div T] (r : Ray T (S + 1)) (b : BBox T (S + 1)) :
    Fin (S + 1) :=
  if (List.finRange (S + 1)).all (bboxInside r b) then
    (List.finRange (S + 1)).tail.foldl (fun best i =>
      if Cmp.lt (bboxDistance r b i) (bboxDistance r b best) then i else best) 0
  else
    let first := ((List.finRange (S + 1)).find? fun i => !(bboxInside r b i)).getD 0
    ((List.finRange (S + 1)).filter fun i => decide (first < i)).foldl (fun best i =>
      if !(bboxInside r b i) && Cmp.lt (bboxDistance r b best) (bboxDistance r b i) then i else best) first

/-- intersection.h:346-416 `intersect_ray_bbox` (at least one dimension). -/
def intersectRayBBox [Cmp T] [Zero T] [One T] [Neg T] [Add T] [Sub T] [Mul T] [Div T] (r : Ray T (S + 1))
    (b : BBox T (S + 1)) : Option T :=
  let best := bboxBestPlane r b
  if Cmp.lt (bboxDistance r b best) 0 then none
  else if (List.finRange (S + 1)).any fun i => decide (best ≠ i) &&
      (let coord := r.origin i + bboxDistance r b best * r.direction i
       Cmp.lt coord (b.min i) || Cmp.lt (b.max i) coord) then none
  else some (bboxDistance r b best)

/-! ### Rays and curved objects -/

/-- intersection.h:431-453 `intersect_ray_sphere`; `min` and `max` are the variadic functions of scalar.h. -/
noncomputable def intersectRaySphere (r : Ray ℝ S) (position : Vec ℝ S) (radius : ℝ) : Option ℝ :=
  let diff := r.origin - position
  let p := 2 * dot diff r.direction
  let q := squaredLength diff - radius * radius
  let d := p * p - 4 * q
  if d < 0 then none
  else
    let s := Real.sqrt d
    let t0 := (-p + s) / 2
    let t1 := (-p - s) / 2
    if t0 < 0 ∧ t1 < 0 then none
    else if 0 < t0 ∧ 0 < t1 then some (vmin t0 [t1])
    else some (vmax t0 [t1])

/-- intersection.h:480-494 the coefficients of the quartic equation of `intersect_ray_torus`. -/
def torusQuartic {K : Type u} [Field K] (r : Ray K 3) (position : Vec K 3) (majorRadius minorRadius : K) :
    K × K × K × K × K :=
  let origin := r.origin - position
  let dd := dot r.direction r.direction
  let od := dot origin r.direction
  let oo := dot origin origin
  let MM := majorRadius * majorRadius
  let mm := minorRadius * minorRadius
  let dz := r.direction 2
  let oz := origin 2
  let omM := oo - mm - MM
  let a := dd * dd
  let b := 4 * dd * od
  let c := 2 * dd * omM + 4 * (od * od + MM * dz * dz)
  let d := 4 * od * omM + 8 * MM * oz * dz
  let e := omM * omM - 4 * MM * (mm - oz * oz)
  (a, b, c, d, e)

/-- intersection.h:496-514 the selection of the solution: a reported solution that is not positive is replaced
by NaN, unreported slots keep their NaN; then `safe_min`. -/
noncomputable def torusSelect (s : Sols 4) : Option ℝ :=
  if s.num = 0 then none
  else
    let pick (i : Fin 4) : Option ℝ :=
      if i.val < s.num then (match s.sol i with
        | some x => if 0 < x then some x else none
        | none => none)
      else s.sol i
    safeMin (pick 0) [pick 1, pick 2, pick 3]

/-- intersection.h:473-515 `intersect_ray_torus`; `epsilon` is `almost_zero()`. -/
noncomputable def intersectRayTorus (epsilon : ℝ) (r : Ray ℝ 3) (position : Vec ℝ 3)
    (majorRadius minorRadius : ℝ) : Option ℝ :=
  match torusQuartic r position majorRadius minorRadius with
  | (a, b, c, d, e) => torusSelect (solveQuartic a b c d e epsilon)

end vm
