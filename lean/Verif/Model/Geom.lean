import Verif.Model.MatExt

/-!
# Model of vec_ext.h, abstract_line.h, line.h, ray.h, plane.h and segment.h

The `..._c` variants (`transform_c`, `length_c`) differ from the modelled functions only by using the
compile time square root `sqrt_c`; they are in `Model/Length.lean`.  Default constructors of `line`,
`ray` and `plane` are the all zero objects; converting constructors apply `static_cast` to every component.
-/

universe u

namespace vm
variable {T : Type u} {S : ℕ}

/-! ### vec_ext.h -/

/-- vec_ext.h:39-47 (`std::vector`) and vec_ext.h:60-68 (`std::array`) `list + vec`; also the swapped
versions vec_ext.h:80-83, 96-100, which call these. -/
def addList [Add T] (lhs : List (Vec T S)) (rhs : Vec T S) : List (Vec T S) :=
  lhs.foldl (fun result v => result ++ [v + rhs]) []

/-- vec_ext.h:112-120 (`std::vector`) and vec_ext.h:132-139 (`std::array`) `list * scalar`; also the
swapped versions vec_ext.h:151-154, 166-169, which call these. -/
def scaleList [Mul T] (lhs : List (Vec T S)) (rhs : T) : List (Vec T S) :=
  lhs.foldl (fun result v => result ++ [vscale v rhs]) []

/-! ### abstract_line.h -/

/-- abstract_line.h:55-59 `distance_to_projected_point`; the arguments `origin` and `direction` are the
results of `get_origin()` and `get_direction()` of the line, ray or segment. -/
def distanceToProjectedPoint [Zero T] [Add T] [Sub T] [Mul T] (origin direction point : Vec T S) : T :=
  dot (point - origin) direction

/-- abstract_line.h:68-72 `point_at_distance`. -/
def pointAtDistance [Add T] [Mul T] (origin direction : Vec T S) (distance : T) : Vec T S :=
  origin + vscale direction distance

/-- abstract_line.h:81-85 `project_point`. -/
def projectPoint [Zero T] [Add T] [Sub T] [Mul T] (origin direction point : Vec T S) : Vec T S :=
  pointAtDistance origin direction (distanceToProjectedPoint origin direction point)

/-- util.h:47-51 `plane_status`: the three positions of a point. -/
inductive PlaneStatus
  | above | below | inside
  deriving DecidableEq, Repr

/-- constants.h:42-45 `point_status_epsilon`. -/
def pointStatusEpsilon (K : Type u) [Field K] : K := 1 / 10000

/-! ### line.h -/

/-- line.h:34-41 `line`: fields `point` and `direction` (also the constructor line.h:72-74). -/
@[ext] structure Line (T : Type u) (S : ℕ) where
  /-- support point -/
  point : Vec T S
  /-- direction -/
  direction : Vec T S

/-- line.h:124-131 the loop that negates the direction if its first non-zero component is negative. -/
def canonicalDirection [Cmp T] [Zero T] [Neg T] (direction : Vec T S) : Vec T S :=
  match (List.finRange S).find? (fun i => !(Cmp.eq (direction i) 0)) with
  | some i => if Cmp.lt (direction i) 0 then -direction else direction
  | none => direction

/-- line.h:116-134 `make_canonical`. -/
def Line.makeCanonical [Cmp T] [Zero T] [Neg T] [Add T] [Sub T] [Mul T] (l : Line T S) : Line T S :=
  let distance := dot l.point l.direction
  let newPoint := l.point - vscale l.direction distance
  ⟨newPoint, canonicalDirection l.direction⟩

/-- line.h:147-150 `is_equal`. -/
def Line.isEqual [Cmp T] [Add T] [Sub T] (lhs rhs : Line T S) (epsilon : T) : Bool :=
  visEqual lhs.point rhs.point epsilon && visEqual lhs.direction rhs.direction epsilon

/-- line.h:161-166 `operator==`. -/
def Line.beq [Cmp T] [Zero T] [Neg T] [Add T] [Sub T] [Mul T] (lhs rhs : Line T S) : Bool :=
  veq lhs.makeCanonical.point rhs.makeCanonical.point &&
    veq lhs.makeCanonical.direction rhs.makeCanonical.direction

/-- line.h:177-182 `operator!=`. -/
def Line.bne [Cmp T] [Zero T] [Neg T] [Add T] [Sub T] [Mul T] (lhs rhs : Line T S) : Bool :=
  vne lhs.makeCanonical.point rhs.makeCanonical.point ||
    vne lhs.makeCanonical.direction rhs.makeCanonical.direction

/-- line.h:93-95 `transform`; `none` if the new direction is NaN (`normalize` of the zero vector). -/
noncomputable def Line.transform (l : Line ℝ S) (m : Mat ℝ (S + 1) (S + 1)) : Option (Line ℝ S) :=
  (normalize (mmulPoint (stripTranslation m) l.direction)).map fun d => ⟨mmulPoint m l.point, d⟩

/-! ### ray.h -/

/-- ray.h:37-44 `ray`: fields `origin` and `direction` (also the constructor ray.h:79-81). -/
@[ext] structure Ray (T : Type u) (S : ℕ) where
  /-- origin -/
  origin : Vec T S
  /-- direction -/
  direction : Vec T S

/-- ray.h:101-105 `transform`; `none` if the new direction is NaN. -/
noncomputable def Ray.transform (r : Ray ℝ S) (m : Mat ℝ (S + 1) (S + 1)) : Option (Ray ℝ S) :=
  (normalize (mmulPoint (stripTranslation m) r.direction)).map fun d => ⟨mmulPoint m r.origin, d⟩

/-- ray.h:135-144 `point_status`; `epsilon` is `constants<T>::point_status_epsilon()`. -/
def Ray.pointStatus [Cmp T] [Zero T] [Neg T] [Add T] [Sub T] [Mul T] (epsilon : T) (r : Ray T S)
    (point : Vec T S) : PlaneStatus :=
  let scale := dot r.direction (point - r.origin)
  if Cmp.lt epsilon scale then .above else if Cmp.lt scale (-epsilon) then .below else .inside

/-- ray.h:157-161 `is_equal`. -/
def Ray.isEqual [Cmp T] [Add T] [Sub T] (lhs rhs : Ray T S) (epsilon : T) : Bool :=
  visEqual lhs.origin rhs.origin epsilon && visEqual lhs.direction rhs.direction epsilon

/-- ray.h:172-175 `operator==`. -/
def Ray.beq [Cmp T] [Zero T] [Add T] [Sub T] (lhs rhs : Ray T S) : Bool :=
  veq lhs.origin rhs.origin && veq lhs.direction rhs.direction

/-- ray.h:186-189 `operator!=`. -/
def Ray.bne [Cmp T] [Zero T] [Add T] [Sub T] (lhs rhs : Ray T S) : Bool :=
  vne lhs.origin rhs.origin || vne lhs.direction rhs.direction

/-! ### plane.h -/

/-- plane.h:39-42 `plane`: fields `distance` and `normal` (also the constructor plane.h:76-78). -/
@[ext] structure Plane (T : Type u) (S : ℕ) where
  /-- distance from the origin along the normal -/
  distance : T
  /-- normal -/
  normal : Vec T S

namespace Plane

/-- plane.h:47-49 the default constructor. -/
def zero [Zero T] : Plane T S := ⟨0, fun _ => 0⟩

/-- plane.h:86-88 `plane(anchor, normal)`. -/
def ofAnchor [Zero T] [Add T] [Mul T] (anchor normal : Vec T S) : Plane T S := ⟨dot anchor normal, normal⟩

/-- plane.h:96 `anchor`. -/
def anchor [Mul T] (p : Plane T S) : Vec T S := vscale p.normal p.distance

/-- plane.h:112-125 `at` (and `xAt`, `yAt`, `zAt`, plane.h:127-131).  The loop carries `t` and `index`; the
read `point[index]` is in bounds whenever it is executed (proved, see `C55_at`), an out of bounds read would
be the arbitrary value `junk index`. -/
def at_ [Cmp T] [Zero T] [Add T] [Sub T] [Mul T] [Div T] (junk : ℕ → T) (p : Plane T (S + 1)) (point : Vec T S)
    (axis : Fin (S + 1)) : T :=
  if Cmp.eq (p.normal axis) 0 then 0
  else
    let st : T × ℕ := Fin.foldl (S + 1) (fun (st : T × ℕ) i =>
      if i.val ≠ axis.val then
        (st.1 + p.normal i * (if h : st.2 < S then point ⟨st.2, h⟩ else junk st.2), st.2 + 1)
      else st) (0, 0)
    (p.distance - st.1) / p.normal axis

/-- plane.h:140 `point_distance`. -/
def pointDistance [Zero T] [Add T] [Sub T] [Mul T] (p : Plane T S) (point : Vec T S) : T :=
  dot point p.normal - p.distance

/-- plane.h:151-161 `point_status`. -/
def pointStatus [Cmp T] [Zero T] [Neg T] [Add T] [Sub T] [Mul T] (p : Plane T S) (point : Vec T S)
    (epsilon : T) : PlaneStatus :=
  let dist := p.pointDistance point
  if Cmp.lt epsilon dist then .above else if Cmp.lt dist (-epsilon) then .below else .inside

/-- plane.h:168-172 `flip`. -/
def flip [Neg T] (p : Plane T S) : Plane T S := ⟨-p.distance, -p.normal⟩

/-- plane.h:202-204 `project_point(point)`. -/
def projectPoint [Zero T] [Add T] [Sub T] [Mul T] (p : Plane T S) (point : Vec T S) : Vec T S :=
  point - vscale p.normal (dot point p.normal) + vscale p.normal p.distance

/-- plane.h:213-220 `project_point(point, direction)`; `none` is the all NaN vector.  `almostZero` is
`constants<T>::almost_zero()`. -/
def projectPointAlong [Cmp T] [Zero T] [Neg T] [Add T] [Sub T] [Mul T] [Div T] (almostZero : T) (p : Plane T S)
    (point direction : Vec T S) : Option (Vec T S) :=
  let cos := dot direction p.normal
  if isZero cos almostZero then none
  else
    let d := dot (vscale p.normal p.distance - point) p.normal / cos
    some (point + vscale direction d)

/-- plane.h:229-231 `project_vector(vector)`. -/
def projectVector [Zero T] [Add T] [Sub T] [Mul T] (p : Plane T S) (vector : Vec T S) : Vec T S :=
  p.projectPoint (p.anchor + vector) - p.anchor

/-- plane.h:241-243 `project_vector(vector, direction)`; `none` is the all NaN vector. -/
def projectVectorAlong [Cmp T] [Zero T] [Neg T] [Add T] [Sub T] [Mul T] [Div T] (almostZero : T) (p : Plane T S)
    (vector direction : Vec T S) : Option (Vec T S) :=
  (p.projectPointAlong almostZero (p.anchor + vector) direction).map fun v => v - p.anchor

/-- plane.h:256-259 `is_equal`. -/
def isEqual [Cmp T] [Zero T] [Neg T] [Add T] [Sub T] (lhs rhs : Plane T S) (epsilon : T) : Bool :=
  vm.isEqual lhs.distance rhs.distance epsilon && visEqual lhs.normal rhs.normal epsilon

/-- plane.h:270-273 `operator==`. -/
def beq [Cmp T] [Zero T] [Add T] [Sub T] (lhs rhs : Plane T S) : Bool :=
  Cmp.eq lhs.distance rhs.distance && veq lhs.normal rhs.normal

/-- plane.h:284-287 `operator!=`. -/
def bne [Cmp T] [Zero T] [Add T] [Sub T] (lhs rhs : Plane T S) : Bool :=
  !(Cmp.eq lhs.distance rhs.distance) || vne lhs.normal rhs.normal

/-- plane.h:421-423 `horizontal_plane`. -/
def horizontal [Zero T] [One T] [Add T] [Mul T] (position : Vec T 3) : Plane T 3 :=
  ofAnchor position (vaxis 3 2)

/-- plane.h:447-451 `aligned_orthogonal_plane`; `none` if the axis lookup is undefined. -/
def alignedOrthogonal [Cmp T] [Zero T] [One T] [Neg T] [Add T] [Mul T] (junk : ℕ → T × ℕ)
    (position direction : Vec T 3) : Option (Plane T 3) :=
  (getAbsMaxComponentAxis direction 0 junk).map fun a => ofAnchor position a

/-- plane.h:181-183 `transform`; `none` if the new normal is NaN. -/
noncomputable def transform (p : Plane ℝ S) (m : Mat ℝ (S + 1) (S + 1)) : Option (Plane ℝ S) :=
  (normalize (mmulPoint (stripTranslation m) p.normal)).map fun n => ofAnchor (mmulPoint m p.anchor) n

/-- constants.h:73-78 `angle_epsilon`. -/
noncomputable def angleEpsilon : ℝ := 1 / 10 ^ 8

/-- plane.h:314-332 `plane_normal`; a NaN vector is `none`.  If an edge has length zero then so has the
cross product, and `sin_theta` is 0/0 = NaN; it is never infinite. -/
noncomputable def planeNormal (p1 p2 p3 : Vec ℝ 3) (epsilon : ℝ) : Bool × Option (Vec ℝ 3) :=
  let v1 := p3 - p1
  let v2 := p2 - p1
  let normal := cross v1 v2
  if length v1 * length v2 = 0 then (false, some fun _ => 0)
  else
    let sinTheta := |length normal / (length v1 * length v2)|
    if sinTheta < epsilon then (false, some fun _ => 0) else (true, normalize normal)

/-- plane.h:355-364 `from_points`; a plane with NaN normal is `none`. -/
noncomputable def fromPoints (p1 p2 p3 : Vec ℝ 3) : Bool × Option (Plane ℝ 3) :=
  let r := planeNormal p1 p2 p3 angleEpsilon
  if !r.1 then (false, some zero) else (true, r.2.map fun n => ofAnchor p1 n)

/-- plane.h:391-412 `from_points(cur, end, get)`.  The code never applies `get` to the elements, it only
uses its result type; the list holds the elements themselves. -/
noncomputable def fromPointsRange : List (Vec ℝ 3) → Bool × Option (Plane ℝ 3)
  | p1 :: p2 :: p3 :: _ => fromPoints p1 p2 p3
  | _ => (false, some zero)

/-- plane.h:433-436 `orthogonal_plane`; `none` if the normal is NaN. -/
noncomputable def orthogonal (position direction : Vec ℝ 3) : Option (Plane ℝ 3) :=
  (normalize direction).map fun n => ofAnchor position n

end Plane

/-! ### segment.h -/

/-- segment.h:37-45 `segment`: fields `m_start` and `m_end`. -/
@[ext] structure Segment (T : Type u) (S : ℕ) where
  /-- `start()`, segment.h:156 -/
  start : Vec T S
  /-- `end()`, segment.h:163 -/
  end_ : Vec T S

namespace Segment

/-- segment.h:51 the default constructor (the default constructor of `vec`, vec.h:50-51, zeroes). -/
def zero [Zero T] : Segment T S := ⟨fun _ => 0, fun _ => 0⟩

/-- segment.h:67-69 the constructor taking two points. -/
def mk' [Cmp T] [Add T] [Sub T] [Zero T] (p1 p2 : Vec T S) : Segment T S :=
  ⟨if vlt p1 p2 then p1 else p2, if vlt p1 p2 then p2 else p1⟩

/-- segment.h:78-81 the converting constructor. -/
def convert {U : Type u} (cast : U → T) (other : Segment U S) : Segment T S :=
  ⟨fun i => cast (other.start i), fun i => cast (other.end_ i)⟩

/-- segment.h:112 `squared_length`. -/
def squaredLength [Zero T] [Add T] [Sub T] [Mul T] (s : Segment T S) : T := vm.squaredLength (s.end_ - s.start)

/-- segment.h:137-139 `transform`. -/
def transform [Cmp T] [Zero T] [One T] [Add T] [Sub T] [Mul T] [Div T] (s : Segment T S)
    (m : Mat T (S + 1) (S + 1)) : Segment T S := mk' (mmulPoint m s.start) (mmulPoint m s.end_)

/-- segment.h:147-149 `translate` and segment.h:339-342 the free function. -/
def translate [Cmp T] [Zero T] [Add T] [Sub T] (s : Segment T S) (delta : Vec T S) : Segment T S :=
  mk' (s.start + delta) (s.end_ + delta)

/-- segment.h:170 `center`. -/
def center [Add T] [Div T] [OfNat T 2] (s : Segment T S) : Vec T S := vdivs (s.start + s.end_) 2

/-- segment.h:190-199 `get_vertices`: the sequence written to the output iterator. -/
def getVertices (l : List (Segment T S)) : List (Vec T S) :=
  l.foldl (fun out s => out ++ [s.start] ++ [s.end_]) []

/-- segment.h:218-229 `compare`. -/
def compare [Cmp T] [Add T] [Sub T] (lhs rhs : Segment T S) (epsilon : T) : Int :=
  let startCmp := vcompare lhs.start rhs.start epsilon
  if startCmp < 0 then -1 else if 0 < startCmp then 1 else vcompare lhs.end_ rhs.end_ epsilon

/-- segment.h:241-244 `is_equal`. -/
def isEqual [Cmp T] [Add T] [Sub T] (lhs rhs : Segment T S) (epsilon : T) : Bool := compare lhs rhs epsilon == 0

/-- segment.h:255-258 `operator==`. -/
def beq [Cmp T] [Add T] [Sub T] [Zero T] (lhs rhs : Segment T S) : Bool := compare lhs rhs 0 == 0
/-- segment.h:269-272 `operator!=`. -/
def bne [Cmp T] [Add T] [Sub T] [Zero T] (lhs rhs : Segment T S) : Bool := compare lhs rhs 0 != 0
/-- segment.h:283-286 `operator<`. -/
def blt [Cmp T] [Add T] [Sub T] [Zero T] (lhs rhs : Segment T S) : Bool := compare lhs rhs 0 < 0
/-- segment.h:297-300 `operator<=`. -/
def ble [Cmp T] [Add T] [Sub T] [Zero T] (lhs rhs : Segment T S) : Bool := compare lhs rhs 0 ≤ 0
/-- segment.h:311-314 `operator>`. -/
def bgt [Cmp T] [Add T] [Sub T] [Zero T] (lhs rhs : Segment T S) : Bool := 0 < compare lhs rhs 0
/-- segment.h:325-328 `operator>=`. -/
def bge [Cmp T] [Add T] [Sub T] [Zero T] (lhs rhs : Segment T S) : Bool := 0 ≤ compare lhs rhs 0

/-- segment.h:98 `length`. -/
noncomputable def length (s : Segment ℝ S) : ℝ := vm.length (s.end_ - s.start)

/-- segment.h:178 `direction`; `none` (NaN) if start and end coincide. -/
noncomputable def direction (s : Segment ℝ S) : Option (Vec ℝ S) := normalize (s.end_ - s.start)

/-- segment.h:121-129 `contains`.  If the direction is NaN then so are `f` and `proj`; the first test is
then false, and so is the last comparison. -/
noncomputable def contains (s : Segment ℝ S) (point : Vec ℝ S) (maxDistance : ℝ) : Bool :=
  match s.direction with
  | none => false
  | some direction =>
    let f := distanceToProjectedPoint s.start direction point
    if f < -maxDistance ∨ s.squaredLength + maxDistance * maxDistance < f * f then false
    else
      let proj := pointAtDistance s.start direction f
      decide (squaredDistance proj point ≤ maxDistance * maxDistance)

end Segment
end vm
