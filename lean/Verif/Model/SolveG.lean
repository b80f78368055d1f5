import Verif.Model.Solve

/-! `solve_quadratic` of scalar.h for an arbitrary number type.  `Model/Solve.lean` has it over the real numbers; here `sqrt` and `nan` are
parameters, so that it can be used with floating point numbers. -/

namespace vm

/-- scalar.h:752-771 `solve_quadratic`: the reported number of solutions and the two slots; `sqrt` stands for `std::sqrt` and `nan` for
`nan<T>()`. -/
def solveQuadraticG {T : Type*} [Cmp T] [Zero T] [OfNat T 2] [Neg T] [Sub T] [Mul T] [Div T] (sqrt : T → T) (nan : T) (a b c epsilon : T) :
    ℕ × T × T :=
  let p := b / (2 * a)
  let q := c / a
  let D := p * p - q
  if isZero D epsilon then (1, -p, nan)
  else if Cmp.lt D 0 then (0, nan, nan)
  else
    let D2 := sqrt D
    (2, D2 - p, -D2 - p)

end vm
