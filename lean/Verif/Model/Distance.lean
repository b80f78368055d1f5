import Verif.Model.Geom
import Verif.Model.Intersect

/-!
# Model of distance.h

Components of a result that are NaN are `none`.  `almostZero` stands for `constants<T>::almost_zero()`.
-/

universe u

namespace vm
variable {T : Type u} {S : ℕ}

/-- distance.h:38-61 `point_distance`. -/
structure PointDistance (T : Type u) where
  /-- distance.h:44 -/
  position : T
  /-- distance.h:50; `none` is NaN -/
  distance : Option T

/-- distance.h:79-88 `squared_distance(ray, point)`. -/
def squaredDistanceRayPoint [Cmp T] [Zero T] [Add T] [Sub T] [Mul T] (r : Ray T S) (p : Vec T S) : PointDistance T :=
  let originToPoint := p - r.origin
  let position := vmax (dot originToPoint r.direction) [0]
  if Cmp.eq position 0 then ⟨position, some (squaredLength originToPoint)⟩
  else ⟨position, some (squaredLength (pointAtDistance r.origin r.direction position - p))⟩

/-- distance.h:106-110 `distance(ray, point)`. -/
noncomputable def distanceRayPoint (r : Ray ℝ S) (p : Vec ℝ S) : PointDistance ℝ :=
  let distance2 := squaredDistanceRayPoint r p
  { distance2 with distance := distance2.distance.map Real.sqrt }

/-- distance.h:128-138 `squared_distance(segment, point)`.  If start and end coincide then `dir` and `scale` are
NaN; `max(0, NaN)` is NaN, `min(NaN, len)` is `len`, which is zero, and the distance is NaN. -/
noncomputable def squaredDistanceSegmentPoint (s : Segment ℝ S) (p : Vec ℝ S) : PointDistance ℝ :=
  let vector := s.end_ - s.start
  let len := length vector
  if len = 0 then ⟨len, none⟩
  else
    let dir := vdivs vector len
    let scale := dot (p - s.start) dir
    let position := vmin (vmax 0 [scale]) [len]
    ⟨position, s.direction.map fun direction => squaredLength (p - pointAtDistance s.start direction position)⟩

/-- distance.h:155-160 `distance(segment, point)`. -/
noncomputable def distanceSegmentPoint (s : Segment ℝ S) (p : Vec ℝ S) : PointDistance ℝ :=
  let distance2 := squaredDistanceSegmentPoint s p
  { distance2 with distance := distance2.distance.map Real.sqrt }

/-- distance.h:177-237 `line_distance` (with `Parallel` distance.h:209 and `NonParallel` distance.h:222). -/
structure LineDistance (T : Type u) where
  /-- distance.h:181 -/
  parallel : Bool
  /-- distance.h:187 -/
  position1 : T
  /-- distance.h:193 -/
  distance : T
  /-- distance.h:199; `none` is NaN -/
  position2 : Option T

/-- distance.h:234-236 `is_colinear`. -/
def LineDistance.isColinear [Cmp T] (d : LineDistance T) (maxDistance : T) : Bool :=
  d.parallel && Cmp.le d.distance maxDistance

/-- distance.h:252-325 `squared_distance(ray, segment)`.  `position2` is NaN if the segment is degenerate and
starts at the height of the ray's origin. -/
noncomputable def squaredDistanceRaySegment (almostZero : ℝ) (r : Ray ℝ S) (s : Segment ℝ S) : LineDistance ℝ :=
  let p1 := s.start
  let p2 := s.end_
  let u := p2 - p1
  let v := r.direction
  let w := p1 - r.origin
  let a := dot u u
  let b := dot u v
  let c := dot v v
  let d := dot u w
  let e := dot v w
  let D := a * c - b * b
  if isZero D almostZero then
    let p1OnR := distanceToProjectedPoint r.origin r.direction p1
    let p2OnR := distanceToProjectedPoint r.origin r.direction p2
    if p1OnR < 0 ∧ p2OnR < 0 then
      if p2OnR < p1OnR then ⟨true, 0, squaredDistance r.origin p1, some 0⟩
      else ⟨true, 0, squaredDistance r.origin p2, some (p2OnR - p1OnR)⟩
    else if 0 < p1OnR ∧ 0 < p2OnR then
      let perpendicular := squaredDistance (pointAtDistance r.origin r.direction p1OnR) p1
      if p2OnR < p1OnR then ⟨true, p2OnR, perpendicular, some (p1OnR - p2OnR)⟩
      else ⟨true, p1OnR, perpendicular, some 0⟩
    else
      let perpendicular := squaredDistance (pointAtDistance r.origin r.direction p1OnR) p1
      ⟨true, 0, perpendicular, s.direction.map fun direction => distanceToProjectedPoint s.start direction r.origin⟩
  else
    let sN := b * e - c * d
    let tN := a * e - b * d
    -- sN, tN, tD after the clamping of distance.h:305-313
    let st := if sN < 0 then (0, e, c) else if D < sN then (D, e + b, c) else (sN, tN, D)
    let sc := if isZero st.1 almostZero then 0 else st.1 / D
    let tc := vmax (if isZero st.2.1 almostZero then 0 else st.2.1 / st.2.2) [0]
    let dP := w + vscale u sc - vscale v tc
    ⟨false, tc, squaredLength dP, some (sc * Real.sqrt a)⟩

/-- distance.h:336-341 `distance(ray, segment)`. -/
noncomputable def distanceRaySegment (almostZero : ℝ) (r : Ray ℝ S) (s : Segment ℝ S) : LineDistance ℝ :=
  let distance2 := squaredDistanceRaySegment almostZero r s
  { distance2 with distance := Real.sqrt distance2.distance }

/-- distance.h:352-397 `squared_distance(ray, ray)`. -/
def squaredDistanceRayRay [Cmp T] [Zero T] [Neg T] [Add T] [Sub T] [Mul T] [Div T] (almostZero : T)
    (lhs rhs : Ray T S) : LineDistance T :=
  let u := rhs.direction
  let v := lhs.direction
  let w := rhs.origin - lhs.origin
  let a := dot u u
  let b := dot u v
  let c := dot v v
  let d := dot u w
  let e := dot v w
  let D := a * c - b * b
  if isZero D almostZero then
    let rhsOriginOnLhs := distanceToProjectedPoint lhs.origin lhs.direction rhs.origin
    let lhsOriginOnRhs := distanceToProjectedPoint rhs.origin rhs.direction lhs.origin
    let perpendicular := squaredDistance (projectPoint lhs.origin lhs.direction rhs.origin) rhs.origin
    ⟨true, vmax 0 [rhsOriginOnLhs], perpendicular, some (vmax 0 [lhsOriginOnRhs])⟩
  else
    let sN := b * e - c * d
    let tN := a * e - b * d
    -- sN, tN, tD after the clamping of distance.h:381-385
    let st := if Cmp.lt sN 0 then (0, e, c) else (sN, tN, D)
    let sc := if isZero st.1 almostZero then 0 else st.1 / D
    let tc := vmax (if isZero st.2.1 almostZero then 0 else st.2.1 / st.2.2) [0]
    let dP := w + vscale u sc - vscale v tc
    ⟨false, tc, squaredLength dP, some sc⟩

/-- distance.h:408-413 `distance(ray, ray)`. -/
noncomputable def distanceRayRay (almostZero : ℝ) (lhs rhs : Ray ℝ S) : LineDistance ℝ :=
  let distance2 := squaredDistanceRayRay almostZero lhs rhs
  { distance2 with distance := Real.sqrt distance2.distance }

/-- distance.h:424-447 `squared_distance(ray, line)`. -/
def squaredDistanceRayLine [Cmp T] [Zero T] [Neg T] [Add T] [Sub T] [Mul T] [Div T] (almostZero : T)
    (r : Ray T S) (l : Line T S) : LineDistance T :=
  let w0 := r.origin - l.point
  let a := dot r.direction r.direction
  let b := dot r.direction l.direction
  let c := dot l.direction l.direction
  let d := dot r.direction w0
  let e := dot l.direction w0
  let D := a * c - b * b
  if isZero D almostZero then
    let perpendicular := squaredDistance (projectPoint r.origin r.direction l.point) l.point
    let rOriginOnL := distanceToProjectedPoint l.point l.direction r.origin
    ⟨true, 0, perpendicular, some rOriginOnL⟩
  else
    let sc := vmax ((b * e - c * d) / D) [0]
    let tc := (a * e - b * d) / D
    let rp := r.origin + vscale r.direction sc
    let lp := l.point + vscale l.direction tc
    ⟨false, sc, squaredLength (rp - lp), some tc⟩

/-- distance.h:458-462 `distance(ray, line)`. -/
noncomputable def distanceRayLine (almostZero : ℝ) (r : Ray ℝ S) (l : Line ℝ S) : LineDistance ℝ :=
  let distance2 := squaredDistanceRayLine almostZero r l
  { distance2 with distance := Real.sqrt distance2.distance }

end vm
