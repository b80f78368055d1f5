import Verif.Model.MatExt
import Verif.Model.Length

/-!
# Model of `coordinate_system_matrix` and `points_transformation_matrix` for any scalar type

The same statements as in `Model/MatExt.lean`, without the restriction to exact arithmetic.
-/

universe u

namespace vm
variable {T : Type u} [LupSmall T] [Cmp T] [Zero T] [One T] [Neg T] [Add T] [Sub T] [Mul T] [Div T]

/-- mat_ext.h:525-532 `coordinate_system_matrix`; `none` if the assertion fails. -/
def coordinateSystemMatrixG (x y z o : Vec T 3) : Option (Mat T 4 4) :=
  let result := invert (matOfRowMajor 4 4 ![x 0, y 0, z 0, o 0, x 1, y 1, z 1, o 1, x 2, y 2, z 2, o 2,
    0, 0, 0, 1])
  if result.1 then some result.2 else none

/-- mat_ext.h:721-732: the matrix of the linear system of `points_transformation_matrix`. -/
def pointsSystem (a b c : Vec T 3) : Mat T 9 9 :=
  matOfRowMajor 9 9
    ![a 0, a 1, a 2, 0, 0, 0, 0, 0, 0,
      0, 0, 0, a 0, a 1, a 2, 0, 0, 0,
      0, 0, 0, 0, 0, 0, a 0, a 1, a 2,
      b 0, b 1, b 2, 0, 0, 0, 0, 0, 0,
      0, 0, 0, b 0, b 1, b 2, 0, 0, 0,
      0, 0, 0, 0, 0, 0, b 0, b 1, b 2,
      c 0, c 1, c 2, 0, 0, 0, 0, 0, 0,
      0, 0, 0, c 0, c 1, c 2, 0, 0, 0,
      0, 0, 0, 0, 0, 0, c 0, c 1, c 2]

/-- mat_ext.h:740-743: the result of `points_transformation_matrix` made of the solution of the linear system. -/
def pointsResult (X : Vec T 9) (onPlane0In onPlane0Out : Vec T 3) : Mat T 4 4 :=
  mmul (mmul (translationMatrix onPlane0Out) (matOfRowMajor 4 4
    ![X 0, X 1, X 2, 0, X 3, X 4, X 5, 0, X 6, X 7, X 8, 0, 0, 0, 0, 1])) (translationMatrix (-onPlane0In))

/-- mat_ext.h:694-744 `points_transformation_matrix` for four points; `none` is the matrix of NaNs. -/
def pointsTransformationMatrix4G (onPlane0In onPlane1In onPlane2In offPlaneIn
    onPlane0Out onPlane1Out onPlane2Out offPlaneOut : Vec T 3) : Option (Mat T 4 4) :=
  let vec0In := onPlane1In - onPlane0In
  let vec1In := onPlane2In - onPlane0In
  let vec2In := offPlaneIn - onPlane0In
  let vec0Out := onPlane1Out - onPlane0Out
  let vec1Out := onPlane2Out - onPlane0Out
  let vec2Out := offPlaneOut - onPlane0Out
  let B : Vec T 9 := ![vec0Out 0, vec0Out 1, vec0Out 2, vec1Out 0, vec1Out 1, vec1Out 2,
    vec2Out 0, vec2Out 1, vec2Out 2]
  let s := lupSolve (pointsSystem vec0In vec1In vec2In) B
  if s.1 then some (pointsResult s.2 onPlane0In onPlane0Out) else none

/-- mat_ext.h:762-775 `points_transformation_matrix` for three points; `normalize` with the given square root. -/
def pointsTransformationMatrix3G (sqrt : T → T) (onPlane0In onPlane1In onPlane2In
    onPlane0Out onPlane1Out onPlane2Out : Vec T 3) : Option (Mat T 4 4) :=
  pointsTransformationMatrix4G onPlane0In onPlane1In onPlane2In
    (onPlane0In + normalizeG sqrt (cross (onPlane1In - onPlane0In) (onPlane2In - onPlane0In)))
    onPlane0Out onPlane1Out onPlane2Out
    (onPlane0Out + normalizeG sqrt (cross (onPlane1Out - onPlane0Out) (onPlane2Out - onPlane0Out)))

end vm
