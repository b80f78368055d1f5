import Verif.Model.Constants
import Verif.Model.MatExt

/-! `perspective_matrix` for a general scalar type. -/

namespace vm

variable {T : Type*}

/-- mat_ext.h:212-227 `perspective_matrix` with the functions of the standard library as parameters: `tan` for `std::tan`, `ofInt` for
`static_cast<T>(int)`; `pi` is the constant of constants.h:85-88 used by `to_radians` (scalar.h:599-602), and `threeQuarters` is
`static_cast<T>(0.75)`. -/
def perspectiveMatrixG [Zero T] [One T] [OfNat T 2] [OfNat T 180] [Neg T] [Add T] [Sub T] [Mul T] [Div T] (tan : T → T) (pi threeQuarters : T)
    (ofInt : ℤ → T) (fov nearPlane farPlane : T) (width height : ℤ) : Mat T 4 4 :=
  let vFrustum := tan (toRadians pi fov / 2) * threeQuarters * nearPlane
  let hFrustum := vFrustum * ofInt width / ofInt height
  let depth := farPlane - nearPlane
  matOfRowMajor 4 4 ![nearPlane / hFrustum, 0, 0, 0, 0, nearPlane / vFrustum, 0, 0, 0, 0,
    -(farPlane + nearPlane) / depth, -2 * farPlane * nearPlane / depth, 0, 0, -1, 0]

/-- mat_ext.h:212-227 `perspective_matrix` for `float` and `double`: 0.75 and the viewport are converted to the format. -/
def perspectiveMatrixF (P : BinPar) (tan : Flt P.fmt → Flt P.fmt) (fov nearPlane farPlane : Flt P.fmt) (width height : ℤ) : Mat (Flt P.fmt) 4 4 :=
  perspectiveMatrixG tan P.pi (Flt.round (3 / 4)) (fun n => Flt.round n) fov nearPlane farPlane width height

end vm
