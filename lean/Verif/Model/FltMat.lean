import Verif.Model.Mat
import Verif.Model.Flt

/-! The matrix functions of mat.h in IEEE arithmetic: the one operation that is not an operation of the component type. -/

namespace vm
variable {F : Fmt}

/-- mat.h:861 the value of the literal `1.0e-15`, the number of type `double` nearest to `10^-15`. -/
def lupLimit : ℚ := 5070602400912918 / 2 ^ 102

/-- mat.h:861 `p < 1.0e-15`: the literal has type `double` and `p` is converted to `double` (or is a wider type), which is exact, so the
values are compared. -/
instance fltLupSmall : LupSmall (Flt F) where
  small
    | .nan => false
    | .ninf => true
    | .pinf => false
    | .fin q _ => decide (q < lupLimit)

end vm
