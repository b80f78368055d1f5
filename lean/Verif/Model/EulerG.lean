import Verif.Model.MatExt

/-! `rotation_matrix_to_euler_angles` for an arbitrary number type.  `Model/MatExt.lean` has this function over the real numbers; here the functions of the C
library are parameters. -/

namespace vm

variable {T : Type*}

/-- mat_ext.h:320-345 `rotation_matrix_to_euler_angles`; the result is `(roll, pitch, yaw)`.  `asin`, `cos` and `atan2` stand for the functions of the same
name in `std`, and `halfPi` for `constants<T>::half_pi()`. -/
def toEulerAnglesG [Cmp T] [Zero T] [One T] [Neg T] [Div T] (asin cos : T → T) (atan2 : T → T → T) (halfPi : T) (rotMat : Mat T 4 4) : Vec T 3 :=
  if !Cmp.eq (vm.abs (rotMat 0 2)) 1 then
    let theta := -asin (rotMat 0 2)
    let cosTheta := cos theta
    let psi := atan2 (rotMat 1 2 / cosTheta) (rotMat 2 2 / cosTheta)
    let phi := atan2 (rotMat 0 1 / cosTheta) (rotMat 0 0 / cosTheta)
    ![psi, theta, phi]
  else if Cmp.eq (rotMat 0 2) (-1) then ![atan2 (rotMat 1 0) (rotMat 2 0), halfPi, 0]
  else ![atan2 (-rotMat 1 0) (-rotMat 2 0), -halfPi, 0]

end vm
