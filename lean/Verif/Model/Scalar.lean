import Verif.Model.Cmp
import Mathlib.Algebra.Order.Field.Basic
import Mathlib.Algebra.Order.Floor.Ring

/-!
# Model of scalar.h (everything except the polynomial solvers, see `Model/Solve.lean`)
-/

universe u

namespace vm

section generic
variable {T : Type u}

/-- scalar.h:86-88 `abs`. -/
def abs [Cmp T] [Zero T] [Neg T] (v : T) : T := if Cmp.lt v 0 then -v else v

/-- scalar.h:97-118 variadic `min(v, rest...)`; the argument pack is a head and a list. -/
def vmin [Cmp T] : T → List T → T
  | v, [] => v
  | lhs, rhs :: rest => if Cmp.lt lhs rhs then vmin lhs rest else vmin rhs rest

/-- scalar.h:127-148 variadic `max`. -/
def vmax [Cmp T] : T → List T → T
  | v, [] => v
  | lhs, rhs :: rest => if Cmp.lt rhs lhs then vmax lhs rest else vmax rhs rest

/-- scalar.h:157-179 variadic `abs_min`. -/
def absMin [Cmp T] [Zero T] [Neg T] : T → List T → T
  | v, [] => v
  | lhs, rhs :: rest => if Cmp.lt (abs lhs) (abs rhs) then absMin lhs rest else absMin rhs rest

/-- scalar.h:188-210 variadic `abs_max`. -/
def absMax [Cmp T] [Zero T] [Neg T] : T → List T → T
  | v, [] => v
  | lhs, rhs :: rest => if Cmp.lt (abs rhs) (abs lhs) then absMax lhs rest else absMax rhs rest

/-- scalar.h:219-245 variadic `safe_min`. -/
def safeMin [Cmp T] : T → List T → T
  | v, [] => v
  | lhs, rhs :: rest =>
    if isNan lhs then safeMin rhs rest
    else if isNan rhs then safeMin lhs rest
    else if Cmp.lt lhs rhs then safeMin lhs rest
    else safeMin rhs rest

/-- scalar.h:254-280 variadic `safe_max`. -/
def safeMax [Cmp T] : T → List T → T
  | v, [] => v
  | lhs, rhs :: rest =>
    if isNan lhs then safeMax rhs rest
    else if isNan rhs then safeMax lhs rest
    else if Cmp.lt rhs lhs then safeMax lhs rest
    else safeMax rhs rest

/-- scalar.h:112-118 two-argument `min`. -/
def min2 [Cmp T] (lhs rhs : T) : T := vmin lhs [rhs]

/-- scalar.h:142-148 two-argument `max`. -/
def max2 [Cmp T] (lhs rhs : T) : T := vmax lhs [rhs]

/-- scalar.h:290-296 `abs_difference`, the branch for signed types. -/
def absDifference [Cmp T] [Zero T] [Neg T] [Sub T] (lhs rhs : T) : T :=
  abs (abs lhs - abs rhs)

/-- scalar.h:290-296 `abs_difference`, the branch for unsigned types. -/
def absDifferenceUnsigned [Cmp T] [Sub T] (lhs rhs : T) : T :=
  if Cmp.lt rhs lhs then lhs - rhs else rhs - lhs

/-- scalar.h:308-312 `clamp`. -/
def clamp [Cmp T] (v minV maxV : T) : T := max2 (min2 v maxV) minV

/-- scalar.h:321-329 `sign`. -/
def sign [Cmp T] [Zero T] [One T] [Neg T] (v : T) : T :=
  if Cmp.lt v 0 then -1 else if Cmp.lt 0 v then 1 else 0

/-- scalar.h:339-341 `step`. -/
def step [Cmp T] [Zero T] [One T] (e v : T) : T := if Cmp.lt v e then 0 else 1

/-- scalar.h:352-356 `smoothstep`.  The division `(v-e0)/(e1-e0)` is the scalar division of `T`; in the
exact instance theorems assume `e0 ≠ e1`. -/
def smoothstep [Cmp T] [Zero T] [One T] [Sub T] [Mul T] [Div T] [OfNat T 2] [OfNat T 3]
    (e0 e1 v : T) : T :=
  let t := clamp ((v - e0) / (e1 - e0)) 0 1
  t * t * (3 - 2 * t)

/-- scalar.h:417-419 `mix`. -/
def mix [One T] [Sub T] [Add T] [Mul T] (x y a : T) : T := (1 - a) * x + a * y

/-- scalar.h:554-556 `is_equal`. -/
def isEqual [Cmp T] [Zero T] [Neg T] [Sub T] (lhs rhs epsilon : T) : Bool :=
  Cmp.le (abs (lhs - rhs)) epsilon

/-- scalar.h:566-572 `is_zero`. -/
def isZero [Cmp T] [Zero T] [Neg T] (v epsilon : T) : Bool :=
  Cmp.eq v 0 || Cmp.le (abs v) epsilon

/-- scalar.h:584-590 `contains` (interval membership, bounds in any order). -/
def containsScalar [Cmp T] (v s e : T) : Bool :=
  if Cmp.lt s e then Cmp.le s v && Cmp.le v e else Cmp.le e v && Cmp.le v s

/-- scalar.h:599-602 `to_radians`; `pi` is `constants<T>::pi()`. -/
def toRadians [Mul T] [Div T] [OfNat T 180] (pi d : T) : T := d * pi / 180

/-- scalar.h:611-614 `to_degrees`. -/
def toDegrees [Mul T] [Div T] [OfNat T 180] (pi r : T) : T := r * 180 / pi

/-- The loop `while (angle < z) angle += o;` of scalar.h:627-629 and scalar.h:644-646, run for at most
`fuel` iterations.  `none` means that the loop has not finished after `fuel` iterations. -/
def addUntilNonneg [Cmp T] [Zero T] [Add T] (o : T) : ℕ → T → Option T
  | 0, angle => if Cmp.lt angle 0 then none else some angle
  | fuel + 1, angle =>
    if Cmp.lt angle 0 then addUntilNonneg o fuel (angle + o) else some angle

end generic

section exact
variable {K : Type u} [Field K] [LinearOrder K] [IsStrictOrderedRing K] [FloorRing K]

/-- scalar.h:366-368 `trunc`: `static_cast<T>(static_cast<int64_t>(v))`.  The conversion to `int64_t`
is undefined unless the truncated value is representable, i.e. unless `-2^63 - 1 < v < 2^63`; `none`
stands for undefined behaviour.  Simplification: the conversion back to `T` is exact. -/
def trunc (v : K) : Option K :=
  if -(2 ^ 63) - 1 < v ∧ v < 2 ^ 63 then
    some (if v < 0 then ((⌈v⌉ : ℤ) : K) else ((⌊v⌋ : ℤ) : K))
  else none

/-- scalar.h:378-381 `mod`: `x - y * trunc(x / y)`.  `none` for `y = 0` (the quotient is an infinity or
NaN, whose conversion to `int64_t` is undefined) and for quotients out of range. -/
def mod (x y : K) : Option K :=
  if y = 0 then none else (trunc (x / y)).map fun t => x - y * t

/-- scalar.h:390-394 `floor`. -/
def floor (v : K) : Option K :=
  (trunc v).map fun r => if 0 ≤ v then r else if r = v then v else r - 1

/-- scalar.h:403-407 `ceil`. -/
def ceil (v : K) : Option K :=
  (trunc v).map fun r => if v < 0 then r else if r = v then r else r + 1

/-- scalar.h:428-434 `fract`. -/
def fract (v : K) : Option K :=
  if 0 < v then (floor v).map fun f => v - f else (ceil v).map fun c => v - c

/-- scalar.h:443-446 `round`. -/
def round (v : K) : Option K := if 0 < v then floor (v + 1 / 2) else ceil (v - 1 / 2)

/-- scalar.h:457-460 `round_up`. -/
def roundUp (v : K) : Option K := if v < 0 then floor v else ceil v

/-- scalar.h:471-476 `round_down`. -/
def roundDown (v : K) : Option K := if 0 < v then floor v else ceil v

/-- scalar.h:486-490 `snap`; `none` also when the `assert(grid != 0)` fails. -/
def snap (v grid : K) : Option K :=
  if grid = 0 then none else (round (v / grid)).map fun r => grid * r

/-- scalar.h:500-504 `snapUp`; `none` also when the `assert(grid > 0)` fails. -/
def snapUp (v grid : K) : Option K :=
  if 0 < grid then (roundUp (v / grid)).map fun r => grid * r else none

/-- scalar.h:514-518 `snapDown`; `none` also when the `assert(grid > 0)` fails. -/
def snapDown (v grid : K) : Option K :=
  if 0 < grid then (roundDown (v / grid)).map fun r => grid * r else none

/-- scalar.h:532-543 `correct`.  `1u << decimals` is undefined for `decimals ≥ 32` (`none`). -/
def correct (v : K) (decimals : ℕ) (epsilon : K) : Option K :=
  if 32 ≤ decimals then none
  else
    let m : K := 2 ^ decimals
    (round (v * m)).map fun r => if abs (v - r) < epsilon then r / m else v

/-- scalar.h:623-631 `normalize_radians` and scalar.h:640-648 `normalize_degrees`, with the full turn
`o` (`two_pi` or `360`) as a parameter and the loop run for at most `fuel` iterations. -/
def normalizeAngle (o : K) (fuel : ℕ) (angle : K) : Option K :=
  (addUntilNonneg o fuel angle).bind fun a => mod a o

end exact

/-! ### Integer functions -/

/-- Comparison operators of an unsigned type of `w` bits (e.g. used by scalar.h:290-296). -/
instance bvCmp {w : ℕ} : Cmp (BitVec w) where
  lt a b := a.ult b
  le a b := a.ule b
  eq a b := a == b

/-- scalar.h:661-666 `succ` for an unsigned type of `w` bits whose arithmetic wraps.
`none` is the division by zero for `count = 0`. -/
def succBV {w : ℕ} (index count stride : BitVec w) : Option (BitVec w) :=
  if count = 0 then none else some ((index + stride) % count)

/-- scalar.h:678-684 `pred` for an unsigned type of `w` bits. -/
def predBV {w : ℕ} (index count stride : BitVec w) : Option (BitVec w) :=
  if count = 0 then none else some (((index + count) - stride % count) % count)

/-- scalar.h:661-666 `succ` for a signed type, without overflow; C++ `%` truncates (`Int.tmod`). -/
def succInt (index count stride : ℤ) : Option ℤ :=
  if count = 0 then none else some ((index + stride).tmod count)

/-- scalar.h:678-684 `pred` for a signed type, without overflow. -/
def predInt (index count stride : ℤ) : Option ℤ :=
  if count = 0 then none else some (((index + count) - stride.tmod count).tmod count)

end vm
