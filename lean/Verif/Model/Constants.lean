import Verif.Model.Binary
import Verif.Model.Scalar

/-!
# Model of constants.h for IEEE formats

A literal such as `0.001` has type `double`: its value is the decimal number rounded to `double`.  `static_cast<T>` rounds it again, to the
format `P` of `T` (no change if `T` is `double`).
-/

namespace vm

/-- constants.h:31-141: `static_cast<T>` of a literal with the decimal value `q`. -/
def BinPar.literal (P : BinPar) (q : ℚ) : Flt P.fmt := Flt.round (binary64.fl q)

namespace BinPar
variable (P : BinPar)

/-- constants.h:31-34 `almost_zero`. -/
def almostZero : Flt P.fmt := P.literal (1 / 1000)
/-- constants.h:41-44 `point_status_epsilon`. -/
def pointStatusEpsilon : Flt P.fmt := P.literal (1 / 10000)
/-- constants.h:51-54 `correct_epsilon`. -/
def correctEpsilon : Flt P.fmt := P.literal (1 / 1000)
/-- constants.h:61-65 `colinear_epsilon`. -/
def colinearEpsilon : Flt P.fmt := P.literal (1 / 100000)
/-- constants.h:72-77 `angle_epsilon`. -/
def angleEpsilon : Flt P.fmt := P.literal (1 / 100000000)
/-- constants.h:84-87 `pi`. -/
def pi : Flt P.fmt := P.literal (3141592653589793 / 10 ^ 15)
/-- constants.h:94-97 `two_pi`. -/
def twoPi : Flt P.fmt := P.literal 2 * P.pi
/-- constants.h:104-107 `half_pi`. -/
def halfPi : Flt P.fmt := P.pi / P.literal 2
/-- constants.h:114-117 `quarter_pi`. -/
def quarterPi : Flt P.fmt := P.pi / P.literal 4
/-- constants.h:124-127 `three_half_pi`. -/
def threeHalfPi : Flt P.fmt := P.literal 3 * P.pi / P.literal 2
/-- constants.h:134-137 `e`. -/
def e : Flt P.fmt := P.literal (2718281828459045 / 10 ^ 15)

end BinPar
end vm
