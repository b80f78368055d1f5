import Verif.Model.PointsG
import Verif.Model.Sort

/-!
# Model of `plane_projection_matrix` for any scalar type

The same statements as in `Model/MatExt.lean`, without the restriction to exact arithmetic.
-/

universe u

namespace vm
variable {T : Type u} [LupSmall T] [Cmp T] [Zero T] [One T] [Neg T] [Add T] [Sub T] [Mul T] [Div T]

/-- mat_ext.h:550-559: the X axis of `plane_projection_matrix`, before it is normalised.  `junk` is the indeterminate memory of
`find_abs_max_component`. -/
def planeAxis (junk : ℕ → T × ℕ) (normal : Vec T 3) : Vec T 3 :=
  if findAbsMaxComponent normal 0 junk = 0 then cross normal (vaxis 3 2) else cross normal (vaxis 3 0)

/-- mat_ext.h:545-569 `plane_projection_matrix`; `none` if an assertion fails. -/
def planeProjectionMatrixG (sqrt : T → T) (almostZero : T) (junk : ℕ → T × ℕ) (distance : T) (normal direction : Vec T 3) :
    Option (Mat T 4 4) :=
  let xAxis := normalizeG sqrt (planeAxis junk normal)
  let yAxis := normalizeG sqrt (cross normal xAxis)
  let zAxis := direction
  if isUnitG sqrt xAxis almostZero && isUnitG sqrt yAxis almostZero && isUnitG sqrt zAxis almostZero then
    coordinateSystemMatrixG xAxis yAxis zAxis (vscale normal distance)
  else none

/-- mat_ext.h:581-584 `plane_projection_matrix` along the normal. -/
def planeProjectionMatrixOrthoG (sqrt : T → T) (almostZero : T) (junk : ℕ → T × ℕ) (distance : T) (normal : Vec T 3) :
    Option (Mat T 4 4) :=
  planeProjectionMatrixG sqrt almostZero junk distance normal normal

end vm
