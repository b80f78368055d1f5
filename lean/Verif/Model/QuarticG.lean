import Verif.Model.SolveG
import Verif.Model.CubicG

/-! `solve_quartic` of scalar.h for an arbitrary number type.  `Model/Solve.lean` has it over the real numbers; here the functions of the C++
library, the constants and `nan` are parameters, so that it can be used with floating point numbers. -/

namespace vm

variable {T : Type*} [Cmp T] [Zero T] [One T] [OfNat T 2] [OfNat T 3] [Neg T] [Add T] [Sub T] [Mul T] [Div T]

/-- scalar.h:905-923: the value of `u` (or `v`) from its square; `none` is `return {0u, nan<T>(), ...}`. -/
def sqrtOrFailG (sqrt : T → T) (u epsilon : T) : Option T :=
  if isZero u epsilon then some 0 else if Cmp.lt 0 u then some (sqrt u) else none

/-- scalar.h:928-945: the storage of the solutions of the two quadratic equations in the four slots, including the use of `num2_1` (not
`num2_2`) in the conditions of scalar.h:940 and scalar.h:943. -/
def storeQuadraticsG (nan : T) (s1 s2 : ℕ × T × T) : ℕ × (Fin 4 → T) :=
  let sol0 : Fin 4 → T := fun _ => nan
  let sol1 := if 0 < s1.1 then Function.update sol0 0 s1.2.1 else sol0
  let sol2 := if 1 < s1.1 then Function.update sol1 1 s1.2.2 else sol1
  let sol3 := if 0 < s1.1 then (fun i : Fin 4 => if i.val = 0 + s1.1 then s2.2.1 else sol2 i) else sol2
  let sol4 := if 1 < s1.1 then (fun i : Fin 4 => if i.val = 1 + s1.1 then s2.2.2 else sol3 i) else sol3
  (s1.1 + s2.1, sol4)

/-- scalar.h:886-946: the part of `solve_quartic` between the two substitutions.  `lit q` stands for `T(q)` where `q` is a quotient of two
literals such as `1.0 / 8.0`; the other parameters are those of `solveCubicG`.  The early return is without resubstitution, which is the same
because no solution is reported. -/
def solveDepressedQuarticG (sqrt cbrt acos cos : T → T) (pi nan : T) (lit : ℚ → T) (p q r epsilon : T) : ℕ × (Fin 4 → T) :=
  if isZero r epsilon then
    let s3 := solveCubicG sqrt cbrt acos cos pi nan (lit (1 / 3)) (lit (1 / 2)) (lit (2 / 27)) 1 0 p q epsilon
    let num := s3.1 + 1
    (num, fun i => if i.val = num - 1 then 0 else ![s3.2.1, s3.2.2.1, s3.2.2.2, nan] i)
  else
    let s3 := solveCubicG sqrt cbrt acos cos pi nan (lit (1 / 3)) (lit (1 / 2)) (lit (2 / 27)) 1 (-lit (1 / 2) * p) (-r)
      (lit (1 / 2) * r * p - lit (1 / 8) * q * q) epsilon
    let z := s3.2.1
    match sqrtOrFailG sqrt (z * z - r) epsilon with
    | none => (0, fun _ => nan)
    | some u =>
      match sqrtOrFailG sqrt (2 * z - p) epsilon with
      | none => (0, fun _ => nan)
      | some v =>
        storeQuadraticsG nan (solveQuadraticG sqrt nan 1 (if Cmp.lt q 0 then -v else v) (z - u) epsilon)
          (solveQuadraticG sqrt nan 1 (if Cmp.lt q 0 then v else -v) (z + u) epsilon)

/-- scalar.h:866-955 `solve_quartic`: the reported number of solutions and the four slots. -/
def solveQuarticG (sqrt cbrt acos cos : T → T) (pi nan : T) (lit : ℚ → T) (a b c d e epsilon : T) : ℕ × (Fin 4 → T) :=
  let A := b / a
  let B := c / a
  let C := d / a
  let D := e / a
  let p := -lit (3 / 8) * A * A + B
  let q := lit (1 / 8) * A * A * A - lit (1 / 2) * A * B + C
  let r := -lit (3 / 256) * A * A * A * A + lit (1 / 16) * A * A * B - lit (1 / 4) * A * C + D
  let s := solveDepressedQuarticG sqrt cbrt acos cos pi nan lit p q r epsilon
  (s.1, fun i => if i.val < s.1 then s.2 i - lit (1 / 4) * A else s.2 i)

/-- scalar.h:866-955 `solve_quartic` for a floating point type. -/
def solveQuarticF (P : BinPar) (sqrt cbrt acos cos : Flt P.fmt → Flt P.fmt) (a b c d e epsilon : Flt P.fmt) : ℕ × (Fin 4 → Flt P.fmt) :=
  solveQuarticG sqrt cbrt acos cos P.pi Flt.nan P.literal a b c d e epsilon

end vm
