import Verif.Model.AngleG
import Verif.Model.Length
import Verif.Model.MatExt

/-! The quaternion and the matrix that rotate one vector onto another, for an arbitrary number type.  `Model/Quat.lean` and `Model/MatExt.lean` have
them over the real numbers; here the square root and the trigonometric functions are parameters, so that they can be used with floating point
numbers. -/

namespace vm

variable {T : Type*}

/-- quat.h:93-114 constructor from two vectors (the assertions that they are unit vectors are hypotheses of theorems); `sqrt`, `sin`, `cos` and
`acos` stand for the functions of the standard library, `pi` and `almostZero` for `constants<T>::pi()` and `constants<T>::almost_zero()`. -/
def Quat.ofFromToG [Cmp T] [Zero T] [One T] [Neg T] [Add T] [Sub T] [Mul T] [Div T] [OfNat T 2] [OfNat T 180] (sqrt sin cos acos : T → T)
    (pi almostZero : T) (from_ to_ : Vec T 3) : Quat T :=
  let c := dot from_ to_
  if vm.isEqual c 1 almostZero then Quat.ofAxisAngleG sin cos (vaxis 3 2) 0
  else if vm.isEqual (-c) 1 almostZero then
    let axis := cross from_ (vaxis 3 2)
    let axis := if vm.isZero (squaredLength axis) almostZero then cross from_ (vaxis 3 0) else axis
    Quat.ofAxisAngleG sin cos (normalizeG sqrt axis) (toRadians pi 180)
  else
    let axis := normalizeG sqrt (cross from_ to_)
    let angle := acos c
    Quat.ofAxisAngleG sin cos axis angle

/-- mat_ext.h:418-421 `rotation_matrix(from, to)`. -/
def rotationMatrixFromToG [Cmp T] [Zero T] [One T] [Neg T] [Add T] [Sub T] [Mul T] [Div T] [OfNat T 2] [OfNat T 180] (sqrt sin cos acos : T → T)
    (pi almostZero : T) (from_ to_ : Vec T 3) : Mat T 4 4 :=
  rotationMatrixQuat (Quat.ofFromToG sqrt sin cos acos pi almostZero from_ to_)

end vm
