import Verif.Model.DistanceG

/-! The distance of a ray and a segment for an arbitrary number type.  `Model/Distance.lean` has this function over the real numbers; here
`sqrt` is a parameter, so that it can be used with floating point numbers.  A NaN is a value of the number type. -/

namespace vm

variable {T : Type*} {S : ℕ}

/-- distance.h:252-325 `squared_distance(ray, segment)`; `sqrt` stands for `std::sqrt` and `almostZero` is `constants<T>::almost_zero()`. -/
def squaredDistanceRaySegmentG [Cmp T] [Zero T] [Neg T] [Add T] [Sub T] [Mul T] [Div T] (sqrt : T → T) (almostZero : T) (r : Ray T S)
    (s : Segment T S) : LineDistance T :=
  let p1 := s.start
  let p2 := s.end_
  let u := p2 - p1
  let v := r.direction
  let w := p1 - r.origin
  let a := dot u u
  let b := dot u v
  let c := dot v v
  let d := dot u w
  let e := dot v w
  let D := a * c - b * b
  if isZero D almostZero then
    let p1OnR := distanceToProjectedPoint r.origin r.direction p1
    let p2OnR := distanceToProjectedPoint r.origin r.direction p2
    if Cmp.lt p1OnR 0 && Cmp.lt p2OnR 0 then
      if Cmp.lt p2OnR p1OnR then ⟨true, 0, squaredDistance r.origin p1, some 0⟩
      else ⟨true, 0, squaredDistance r.origin p2, some (p2OnR - p1OnR)⟩
    else if Cmp.lt 0 p1OnR && Cmp.lt 0 p2OnR then
      let perpendicular := squaredDistance (pointAtDistance r.origin r.direction p1OnR) p1
      if Cmp.lt p2OnR p1OnR then ⟨true, p2OnR, perpendicular, some (p1OnR - p2OnR)⟩
      else ⟨true, p1OnR, perpendicular, some 0⟩
    else
      let perpendicular := squaredDistance (pointAtDistance r.origin r.direction p1OnR) p1
      ⟨true, 0, perpendicular, some (distanceToProjectedPoint s.start (s.directionG sqrt) r.origin)⟩
  else
    let sN := b * e - c * d
    let tN := a * e - b * d
    -- sN, tN, tD after the clamping of distance.h:305-313
    let st := if Cmp.lt sN 0 then (0, e, c) else if Cmp.lt D sN then (D, e + b, c) else (sN, tN, D)
    let sc := if isZero st.1 almostZero then 0 else st.1 / D
    let tc := vmax (if isZero st.2.1 almostZero then 0 else st.2.1 / st.2.2) [0]
    let dP := w + vscale u sc - vscale v tc
    ⟨false, tc, squaredLength dP, some (sc * sqrt a)⟩

/-- distance.h:336-341 `distance(ray, segment)`. -/
def distanceRaySegmentG [Cmp T] [Zero T] [Neg T] [Add T] [Sub T] [Mul T] [Div T] (sqrt : T → T) (almostZero : T) (r : Ray T S)
    (s : Segment T S) : LineDistance T :=
  let distance2 := squaredDistanceRaySegmentG sqrt almostZero r s
  { distance2 with distance := sqrt distance2.distance }

end vm
