import Verif.Model.DistanceG

/-! `segment::contains` for an arbitrary number type.  `Model/Geom.lean` has this function over the real numbers; here `sqrt` is a parameter. -/

namespace vm

variable {T : Type*} {S : ℕ}

/-- segment.h:121-129 `contains`; `sqrt` stands for `std::sqrt`, used by `direction` (segment.h:178).  A NaN is a value of the number type. -/
def Segment.containsG [Cmp T] [Zero T] [Neg T] [Add T] [Sub T] [Mul T] [Div T] (sqrt : T → T) (s : Segment T S) (point : Vec T S)
    (maxDistance : T) : Bool :=
  let f := distanceToProjectedPoint s.start (s.directionG sqrt) point
  if Cmp.lt f (-maxDistance) || Cmp.lt (s.squaredLength + maxDistance * maxDistance) (f * f) then false
  else
    let proj := pointAtDistance s.start (s.directionG sqrt) f
    Cmp.le (squaredDistance proj point) (maxDistance * maxDistance)

end vm
