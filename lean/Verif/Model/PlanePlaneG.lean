import Verif.Model.Intersect
import Verif.Model.Length

/-! `intersect_plane_plane` for any component type. -/

namespace vm
variable {T : Type*}

/-- intersection.h:548-572 `intersect_plane_plane`; `sqrt` stands for `std::sqrt`, `almostZero` for `constants<T>::almost_zero()` and `qnan` for
`nan<T>()`, which `intersect_line_plane` returns if the line is parallel to the plane. The default line is all zero. -/
def intersectPlanePlaneG [Cmp T] [Zero T] [Neg T] [Add T] [Sub T] [Mul T] [Div T] (sqrt : T → T) (almostZero qnan : T) (p1 p2 : Plane T 3) :
    Line T 3 :=
  let lineDirection := normalizeG sqrt (cross p1.normal p2.normal)
  if visNan lineDirection then ⟨0, 0⟩
  else
    let lineToP2 : Line T 3 := ⟨p1.anchor, normalizeG sqrt (p1.projectVector p2.normal)⟩
    let dist := (intersectLinePlane almostZero lineToP2 p2).getD qnan
    let point := pointAtDistance lineToP2.point lineToP2.direction dist
    if visNan point then ⟨0, 0⟩ else ⟨point, lineDirection⟩

end vm
