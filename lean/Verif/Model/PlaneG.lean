import Verif.Model.Length
import Verif.Model.Mat

/-! Planes through three points for an arbitrary number type.  `Model/Geom.lean` has these functions over the real numbers; here `sqrt` and
the infinity of the type are parameters, so that they can be used with floating point numbers. -/

namespace vm

variable {T : Type*}

/-- scalar.h:63-66 `is_inf`; `inf` stands for `std::numeric_limits<T>::infinity()`. -/
def isInf [Cmp T] [Neg T] (inf f : T) : Bool := Cmp.eq f inf || Cmp.eq f (-inf)

namespace Plane

/-- plane.h:315-332 `plane_normal`; `sqrt` stands for `std::sqrt`, `inf` for infinity. -/
def planeNormalG [Cmp T] [Zero T] [Neg T] [Add T] [Sub T] [Mul T] [Div T] (sqrt : T → T) (inf : T) (p1 p2 p3 : Vec T 3) (epsilon : T) :
    Bool × Vec T 3 :=
  let v1 := p3 - p1
  let v2 := p2 - p1
  let normal := cross v1 v2
  let sinTheta := abs (lengthG sqrt normal / (lengthG sqrt v1 * lengthG sqrt v2))
  if isNan sinTheta || isInf inf sinTheta || Cmp.lt sinTheta epsilon then (false, fun _ => 0) else (true, normalizeG sqrt normal)

/-- plane.h:355-364 `from_points`; `epsilon` stands for the default argument `angle_epsilon()` of `plane_normal`. -/
def fromPointsG [Cmp T] [Zero T] [Neg T] [Add T] [Sub T] [Mul T] [Div T] (sqrt : T → T) (inf : T) (p1 p2 p3 : Vec T 3) (epsilon : T) :
    Bool × Plane T 3 :=
  let r := planeNormalG sqrt inf p1 p2 p3 epsilon
  if !r.1 then (false, zero) else (true, ofAnchor p1 r.2)

end Plane
end vm
