import Verif.Model.Vec
import Verif.Model.Solve
import Verif.Model.Geom

/-! Functions of vec.h that need a square root, for an arbitrary number type.  `Model/Vec.lean` has them over the real
numbers; here `sqrt` is a parameter, so that they can be used with floating point numbers. -/

namespace vm

variable {T : Type*} {S : ℕ}

/-- vec.h:1135-1137 `length`; `sqrt` stands for `std::sqrt`. -/
def lengthG [Zero T] [Add T] [Mul T] (sqrt : T → T) (v : Vec T S) : T := sqrt (squaredLength v)

/-- vec.h:1147-1149 `length_c`; the remaining parameters are those of `sqrtC`. -/
def lengthC [Cmp T] [Zero T] [Add T] [Mul T] [Div T] (half inf qnan : T) (fuel : ℕ) (v : Vec T S) : Option T :=
  sqrtC half inf qnan fuel (squaredLength v)

/-- vec.h:1159-1161 `normalize`: `vec / length(vec)`. -/
def normalizeG [Zero T] [Add T] [Mul T] [Div T] (sqrt : T → T) (v : Vec T S) : Vec T S := vdivs v (lengthG sqrt v)

/-- vec.h:1171-1173 `normalize_c`: `vec / length_c(vec)`. -/
def normalizeC [Cmp T] [Zero T] [Add T] [Mul T] [Div T] (half inf qnan : T) (fuel : ℕ) (v : Vec T S) : Option (Vec T S) :=
  (lengthC half inf qnan fuel v).map (vdivs v)

/-- vec.h:1231-1233 `is_unit`. -/
def isUnitG [Cmp T] [Zero T] [One T] [Neg T] [Add T] [Sub T] [Mul T] (sqrt : T → T) (v : Vec T S) (epsilon : T) : Bool :=
  isEqual (lengthG sqrt v) 1 epsilon

/-- vec.h:1244-1246 `is_unit_c`. -/
def isUnitC [Cmp T] [Zero T] [One T] [Neg T] [Add T] [Sub T] [Mul T] [Div T] (half inf qnan : T) (fuel : ℕ) (v : Vec T S)
    (epsilon : T) : Option Bool := (lengthC half inf qnan fuel v).map fun l => isEqual l 1 epsilon

/-- vec.h:1369-1371 `distance`. -/
def distanceG [Zero T] [Add T] [Sub T] [Mul T] (sqrt : T → T) (lhs rhs : Vec T S) : T := lengthG sqrt (lhs - rhs)

/-- vec.h:1383-1385 `distance_c`. -/
def distanceC [Cmp T] [Zero T] [Add T] [Sub T] [Mul T] [Div T] (half inf qnan : T) (fuel : ℕ) (lhs rhs : Vec T S) : Option T :=
  lengthC half inf qnan fuel (lhs - rhs)

/-- vec.h:1475-1480 `is_parallel`. -/
def isParallelG [Cmp T] [Zero T] [One T] [Neg T] [Add T] [Sub T] [Mul T] [Div T] (sqrt : T → T) (lhs rhs : Vec T S)
    (epsilon : T) : Bool := isEqual (abs (dot (normalizeG sqrt lhs) (normalizeG sqrt rhs))) 1 epsilon

/-- vec.h:1494-1498 `is_parallel_c`. -/
def isParallelC [Cmp T] [Zero T] [One T] [Neg T] [Add T] [Sub T] [Mul T] [Div T] (half inf qnan : T) (fuel : ℕ)
    (lhs rhs : Vec T S) (epsilon : T) : Option Bool :=
  (normalizeC half inf qnan fuel lhs).bind fun l => (normalizeC half inf qnan fuel rhs).map fun r =>
    isEqual (abs (dot l r)) 1 epsilon

/-- vec.h:1662-1675 `is_between` (the `assert(is_colinear(..))` is a hypothesis of theorems). -/
def isBetweenG [Cmp T] [Zero T] [Add T] [Sub T] [Mul T] [Div T] (sqrt : T → T) (p start end_ : Vec T S) : Bool :=
  if veq p start || veq p end_ then true
  else
    let toStart := start - p
    let toEnd := end_ - p
    Cmp.lt (dot toEnd (normalizeG sqrt toStart)) 0

/-- vec.h:1690-1703 `is_between_c` (the `assert(is_colinear(..))` is a hypothesis of theorems). -/
def isBetweenC [Cmp T] [Zero T] [Add T] [Sub T] [Mul T] [Div T] (half inf qnan : T) (fuel : ℕ) (p start end_ : Vec T S) :
    Option Bool :=
  if veq p start || veq p end_ then some true
  else
    let toStart := start - p
    let toEnd := end_ - p
    (normalizeC half inf qnan fuel toStart).map fun n => Cmp.lt (dot toEnd n) 0

/-! ### Lines, rays, planes and segments -/

/-- line.h:93-95 `transform`. -/
def Line.transformG [Zero T] [One T] [Add T] [Mul T] [Div T] (sqrt : T → T) (l : Line T S) (m : Mat T (S + 1) (S + 1)) :
    Line T S := ⟨mmulPoint m l.point, normalizeG sqrt (mmulPoint (stripTranslation m) l.direction)⟩

/-- line.h:105-107 `transform_c`. -/
def Line.transformC [Cmp T] [Zero T] [One T] [Add T] [Mul T] [Div T] (half inf qnan : T) (fuel : ℕ) (l : Line T S)
    (m : Mat T (S + 1) (S + 1)) : Option (Line T S) :=
  (normalizeC half inf qnan fuel (mmulPoint (stripTranslation m) l.direction)).map fun d => ⟨mmulPoint m l.point, d⟩

/-- ray.h:101-105 `transform`. -/
def Ray.transformG [Zero T] [One T] [Add T] [Mul T] [Div T] (sqrt : T → T) (r : Ray T S) (m : Mat T (S + 1) (S + 1)) :
    Ray T S := ⟨mmulPoint m r.origin, normalizeG sqrt (mmulPoint (stripTranslation m) r.direction)⟩

/-- ray.h:115-119 `transform_c`. -/
def Ray.transformC [Cmp T] [Zero T] [One T] [Add T] [Mul T] [Div T] (half inf qnan : T) (fuel : ℕ) (r : Ray T S)
    (m : Mat T (S + 1) (S + 1)) : Option (Ray T S) :=
  (normalizeC half inf qnan fuel (mmulPoint (stripTranslation m) r.direction)).map fun d => ⟨mmulPoint m r.origin, d⟩

/-- plane.h:181-183 `transform`. -/
def Plane.transformG [Zero T] [One T] [Add T] [Mul T] [Div T] (sqrt : T → T) (p : Plane T S) (m : Mat T (S + 1) (S + 1)) :
    Plane T S := Plane.ofAnchor (mmulPoint m p.anchor) (normalizeG sqrt (mmulPoint (stripTranslation m) p.normal))

/-- plane.h:192-194 `transform_c`. -/
def Plane.transformC [Cmp T] [Zero T] [One T] [Add T] [Mul T] [Div T] (half inf qnan : T) (fuel : ℕ) (p : Plane T S)
    (m : Mat T (S + 1) (S + 1)) : Option (Plane T S) :=
  (normalizeC half inf qnan fuel (mmulPoint (stripTranslation m) p.normal)).map fun n =>
    Plane.ofAnchor (mmulPoint m p.anchor) n

/-- segment.h:98 `length`. -/
def Segment.lengthG [Zero T] [Add T] [Sub T] [Mul T] (sqrt : T → T) (s : Segment T S) : T := vm.lengthG sqrt (s.end_ - s.start)

/-- segment.h:105 `length_c`. -/
def Segment.lengthC [Cmp T] [Zero T] [Add T] [Sub T] [Mul T] [Div T] (half inf qnan : T) (fuel : ℕ) (s : Segment T S) : Option T :=
  vm.lengthC half inf qnan fuel (s.end_ - s.start)

end vm
