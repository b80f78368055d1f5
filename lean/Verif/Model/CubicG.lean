import Verif.Model.Solve
import Verif.Model.Constants

/-! `solve_cubic` of scalar.h for an arbitrary number type.  `Model/Solve.lean` has it over the real numbers; here the functions of the C++
library, the constants and `nan` are parameters, so that it can be used with floating point numbers. -/

namespace vm

variable {T : Type*} [Cmp T] [Zero T] [OfNat T 2] [OfNat T 3] [Neg T] [Add T] [Sub T] [Mul T] [Div T]

/-- scalar.h:806-841, the part of `solve_cubic` between the two substitutions: the reported number of solutions and the three slots.  `sqrt`,
`cbrt`, `acos` and `cos` stand for the functions of the C++ library, `pi` for `constants<T>::pi()`, `nan` for `nan<T>()` and `third` for
`T(1.0 / 3.0)`. -/
def solveDepressedG (sqrt cbrt acos cos : T → T) (pi nan third : T) (p q epsilon : T) : ℕ × T × T × T :=
  let p3 := p * p * p
  let D := q * q + p3
  if isZero D epsilon then
    if isZero q epsilon then (1, 0, nan, nan)
    else
      let u := cbrt (-q)
      (2, u * 2, -u, nan)
  else if Cmp.lt D 0 then
    let phi := third * acos (-q / sqrt (-p3))
    let t := 2 * sqrt (-p)
    (3, t * cos phi, -t * cos (phi + pi / 3), -t * cos (phi - pi / 3))
  else
    let D2 := sqrt D
    let u := cbrt (D2 - q)
    let v := -cbrt (D2 + q)
    (1, u + v, nan, nan)

/-- scalar.h:843-849: the resubstitution loop, `solutions[i] -= sub` for `i < num`. -/
def resubstituteG (s : ℕ × T × T × T) (sub : T) : ℕ × T × T × T :=
  (s.1, if 0 < s.1 then s.2.1 - sub else s.2.1, if 1 < s.1 then s.2.2.1 - sub else s.2.2.1, if 2 < s.1 then s.2.2.2 - sub else s.2.2.2)

/-- scalar.h:789-850 `solve_cubic`: the reported number of solutions and the three slots.  `third`, `half` and `twt` stand for
`T(1.0 / 3.0)`, `T(1.0 / 2.0)` and `T(2.0 / 27.0)`. -/
def solveCubicG (sqrt cbrt acos cos : T → T) (pi nan third half twt : T) (a b c d epsilon : T) : ℕ × T × T × T :=
  let A := b / a
  let B := c / a
  let C := d / a
  let p := third * (-third * A * A + B)
  let q := half * (twt * A * A * A - third * A * B + C)
  resubstituteG (solveDepressedG sqrt cbrt acos cos pi nan third p q epsilon) (third * A)

/-- scalar.h:789-850 `solve_cubic` for a floating point type: the constants `1.0 / 3.0`, `1.0 / 2.0` and `2.0 / 27.0` are quotients of type
`double`, converted to the type; `constants<T>::pi()` is the one of constants.h. -/
def solveCubicF (P : BinPar) (sqrt cbrt acos cos : Flt P.fmt → Flt P.fmt) (a b c d epsilon : Flt P.fmt) :
    ℕ × Flt P.fmt × Flt P.fmt × Flt P.fmt :=
  solveCubicG sqrt cbrt acos cos P.pi Flt.nan (P.literal (1 / 3)) (P.literal (1 / 2)) (P.literal (2 / 27)) a b c d epsilon

end vm
