import Verif.Model.Distance
import Verif.Model.Length

/-! Distances of points from rays and segments for an arbitrary number type.  `Model/Distance.lean` has these functions over the real
numbers; here `sqrt` is a parameter, so that they can be used with floating point numbers.  A NaN is a value of the number type. -/

namespace vm

variable {T : Type*} {S : ℕ}

/-- distance.h:106-110 `distance(ray, point)`; `sqrt` stands for `std::sqrt`. -/
def distanceRayPointG [Cmp T] [Zero T] [Add T] [Sub T] [Mul T] (sqrt : T → T) (r : Ray T S) (p : Vec T S) : PointDistance T :=
  let distance2 := squaredDistanceRayPoint r p
  { distance2 with distance := distance2.distance.map sqrt }

/-- segment.h:178 `segment::direction`. -/
def Segment.directionG [Zero T] [Add T] [Sub T] [Mul T] [Div T] (sqrt : T → T) (s : Segment T S) : Vec T S := normalizeG sqrt (s.end_ - s.start)

/-- distance.h:128-138 `squared_distance(segment, point)`. -/
def squaredDistanceSegmentPointG [Cmp T] [Zero T] [Add T] [Sub T] [Mul T] [Div T] (sqrt : T → T) (s : Segment T S) (p : Vec T S) :
    PointDistance T :=
  let vector := s.end_ - s.start
  let len := lengthG sqrt vector
  let dir := vdivs vector len
  let scale := dot (p - s.start) dir
  let position := vmin (vmax 0 [scale]) [len]
  ⟨position, some (squaredLength (p - pointAtDistance s.start (s.directionG sqrt) position))⟩

/-- distance.h:155-160 `distance(segment, point)`. -/
def distanceSegmentPointG [Cmp T] [Zero T] [Add T] [Sub T] [Mul T] [Div T] (sqrt : T → T) (s : Segment T S) (p : Vec T S) : PointDistance T :=
  let distance2 := squaredDistanceSegmentPointG sqrt s p
  { distance2 with distance := distance2.distance.map sqrt }

end vm
