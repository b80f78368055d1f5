import Verif.Model.Scalar
import Verif.Model.Binary

/-!
# The rounding functions of scalar.h over an arbitrary scalar type

`Model/Scalar.lean` has these functions in exact arithmetic.  Here every operator is the operator of the scalar type, so that
the functions can be instantiated with floats; the instances at an ordered field are the definitions of `Model/Scalar.lean`
(`floorG_exact` and so on in `Props/RoundingFlt.lean`).
-/

universe u

namespace vm

/-- The two conversions of scalar.h:366-368, `static_cast<int64_t>` and `static_cast<T>`. -/
class Int64Cast (T : Type u) where
  /-- truncation; `none` is undefined behaviour (NaN, infinite, or out of range) -/
  toInt64 : T → Option ℤ
  /-- conversion of an `int64_t`, which rounds if the number is not representable -/
  ofInt64 : ℤ → T

/-- Exact arithmetic (scalar.h:366-368). -/
instance (priority := low) exactInt64 {K : Type u} [Field K] [LinearOrder K] [IsStrictOrderedRing K] [FloorRing K] :
    Int64Cast K where
  toInt64 v := if -(2 ^ 63) - 1 < v ∧ v < 2 ^ 63 then some (if v < 0 then ⌈v⌉ else ⌊v⌋) else none
  ofInt64 n := n

/-- Floating point types (scalar.h:366-368). -/
instance {F : Fmt} : Int64Cast (Flt F) where
  toInt64
    | .fin v _ => if -(2 ^ 63) - 1 < v ∧ v < 2 ^ 63 then some (if v < 0 then ⌈v⌉ else ⌊v⌋) else none
    | _ => none
  ofInt64 n := Flt.round n

section
variable {T : Type u} [Cmp T] [Zero T] [One T] [Neg T] [Add T] [Sub T] [Mul T] [Div T] [Int64Cast T]

/-- scalar.h:366-368 `trunc`. -/
def truncG (v : T) : Option T := (Int64Cast.toInt64 v).map Int64Cast.ofInt64

/-- scalar.h:378-381 `mod`. -/
def modG (x y : T) : Option T := (truncG (x / y)).map fun t => x - y * t

/-- scalar.h:390-394 `floor`. -/
def floorG (v : T) : Option T :=
  (truncG v).map fun r => if Cmp.le 0 v then r else if Cmp.eq r v then v else r - 1

/-- scalar.h:403-407 `ceil`. -/
def ceilG (v : T) : Option T :=
  (truncG v).map fun r => if Cmp.lt v 0 then r else if Cmp.eq r v then r else r + 1

/-- scalar.h:428-434 `fract`. -/
def fractG (v : T) : Option T :=
  if Cmp.lt 0 v then (floorG v).map fun f => v - f else (ceilG v).map fun c => v - c

/-- scalar.h:443-446 `round`; `half` is the literal `0.5`. -/
def roundG (half v : T) : Option T := if Cmp.lt 0 v then floorG (v + half) else ceilG (v - half)

/-- scalar.h:457-460 `round_up`. -/
def roundUpG (v : T) : Option T := if Cmp.lt v 0 then floorG v else ceilG v

/-- scalar.h:471-476 `round_down`. -/
def roundDownG (v : T) : Option T := if Cmp.lt 0 v then floorG v else ceilG v

/-- scalar.h:486-490 `snap`; `none` also when the assertion fails. -/
def snapG (half v grid : T) : Option T :=
  if Cmp.eq grid 0 then none else (roundG half (v / grid)).map fun r => grid * r

/-- scalar.h:500-504 `snapUp`; `none` also when the assertion fails. -/
def snapUpG (v grid : T) : Option T :=
  if Cmp.lt 0 grid then (roundUpG (v / grid)).map fun r => grid * r else none

/-- scalar.h:514-518 `snapDown`; `none` also when the assertion fails. -/
def snapDownG (v grid : T) : Option T :=
  if Cmp.lt 0 grid then (roundDownG (v / grid)).map fun r => grid * r else none

/-- scalar.h:532-543 `correct`; `1u << decimals` is undefined for `decimals ≥ 32` (`none`).  Simplification: the conversion of
that unsigned number to `T` is the conversion of the same `int64_t`. -/
def correctG (half v : T) (decimals : ℕ) (epsilon : T) : Option T :=
  if 32 ≤ decimals then none
  else
    let m : T := Int64Cast.ofInt64 (2 ^ decimals)
    (roundG half (v * m)).map fun r => if Cmp.lt (abs (v - r)) epsilon then r / m else v

/-- scalar.h:623-631 `normalize_radians` and scalar.h:640-648 `normalize_degrees` with the full turn `o`; the loop runs for at
most `fuel` iterations. -/
def normalizeAngleG (o : T) (fuel : ℕ) (angle : T) : Option T :=
  (addUntilNonneg o fuel angle).bind fun a => modG a o

end

/-- constants.h:85-98 `constants<double>::two_pi()`, that is `2.0 * 3.141592653589793`. -/
def twoPi64 : Flt binary64.fmt := Flt.round 2 * Flt.round (3141592653589793 / 10 ^ 15)

end vm
