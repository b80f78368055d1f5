import Verif.Model.Scalar
import Mathlib.Analysis.SpecialFunctions.Trigonometric.Inverse
import Mathlib.Analysis.SpecialFunctions.Pow.Real

/-!
# Model of the polynomial solvers in scalar.h

Exact real arithmetic; `std::sqrt`, `std::cbrt`, `std::acos`, `std::cos` are the real functions,
constants such as `T(1.0/3.0)` and `constants<T>::pi()` are exact.  A slot that holds NaN is `none`.
A division by a leading coefficient `a = 0` is not modelled: theorems assume `a ≠ 0`.
-/

namespace vm

/-- The real cube root, `std::cbrt` (used in scalar.h:811-825). -/
noncomputable def cbrt (x : ℝ) : ℝ :=
  if 0 ≤ x then x ^ (1 / 3 : ℝ) else -((-x) ^ (1 / 3 : ℝ))

/-- The result tuple of scalar.h:753, 790 and 867: the reported number of solutions and the slots. -/
structure Sols (n : ℕ) where
  /-- reported number of solutions -/
  num : ℕ
  /-- solution slots, `none` is NaN -/
  sol : Fin n → Option ℝ

/-- scalar.h:752-772 `solve_quadratic`. -/
noncomputable def solveQuadratic (a b c epsilon : ℝ) : Sols 2 :=
  let p := b / (2 * a)
  let q := c / a
  let D := p * p - q
  if isZero D epsilon then ⟨1, ![some (-p), none]⟩
  else if D < 0 then ⟨0, ![none, none]⟩
  else
    let D2 := Real.sqrt D
    ⟨2, ![some (D2 - p), some (-D2 - p)]⟩

/-- scalar.h:803-841, the solutions of the depressed cubic `y^3 + 3 p y + 2 q = 0`. -/
noncomputable def solveDepressed (p q epsilon : ℝ) : Sols 3 :=
  let p3 := p * p * p
  let D := q * q + p3
  if isZero D epsilon then
    if isZero q epsilon then ⟨1, ![some 0, none, none]⟩
    else
      let u := cbrt (-q)
      ⟨2, ![some (u * 2), some (-u), none]⟩
  else if D < 0 then
    let phi := (1 / 3) * Real.arccos (-q / Real.sqrt (-p3))
    let t := 2 * Real.sqrt (-p)
    ⟨3, ![some (t * Real.cos phi), some (-t * Real.cos (phi + Real.pi / 3)),
      some (-t * Real.cos (phi - Real.pi / 3))]⟩
  else
    let D2 := Real.sqrt D
    let u := cbrt (D2 - q)
    let v := -cbrt (D2 + q)
    ⟨1, ![some (u + v), none, none]⟩

/-- The resubstitution loops scalar.h:844-847 and scalar.h:949-952: `solutions[i] -= sub` for `i < num`
(NaN stays NaN). -/
noncomputable def resubstitute {n : ℕ} (s : Sols n) (sub : ℝ) : Sols n :=
  ⟨s.num, fun i => if i.val < s.num then (s.sol i).map fun x => x - sub else s.sol i⟩

/-- scalar.h:789-850 `solve_cubic`. -/
noncomputable def solveCubic (a b c d epsilon : ℝ) : Sols 3 :=
  let A := b / a
  let B := c / a
  let C := d / a
  let p := (1 / 3) * (-(1 / 3) * A * A + B)
  let q := (1 / 2) * ((2 / 27) * A * A * A - (1 / 3) * A * B + C)
  resubstitute (solveDepressed p q epsilon) ((1 / 3) * A)

/-- scalar.h:905-923: the value of `u` (or `v`) from its square; `none` is `return {0, ...}`. -/
noncomputable def sqrtOrFail (u epsilon : ℝ) : Option ℝ :=
  if isZero u epsilon then some 0 else if 0 < u then some (Real.sqrt u) else none

/-- scalar.h:928-945: the storage of the solutions of the two quadratic equations in the four slots,
including the use of `num2_1` (not `num2_2`) in the conditions of scalar.h:940 and scalar.h:943. -/
def storeQuadratics (s1 s2 : Sols 2) : Sols 4 :=
  let sol0 : Fin 4 → Option ℝ := fun _ => none
  let sol1 := if 0 < s1.num then Function.update sol0 0 (s1.sol 0) else sol0
  let sol2 := if 1 < s1.num then Function.update sol1 1 (s1.sol 1) else sol1
  let sol3 := if 0 < s1.num then
    (fun i : Fin 4 => if i.val = 0 + s1.num then s2.sol 0 else sol2 i) else sol2
  let sol4 := if 1 < s1.num then
    (fun i : Fin 4 => if i.val = 1 + s1.num then s2.sol 1 else sol3 i) else sol3
  ⟨s1.num + s2.num, sol4⟩

/-- scalar.h:886-946: the solutions of the depressed quartic `y^4 + p y^2 + q y + r = 0`.
The second component is `false` for the early `return {0, ...}` without resubstitution (which is the same
because no solution is reported).  `assert(std::get<0>(solutions3) > 0u)` holds for every input, see
`solveCubic_slot0` in Lemmas/Solve.lean; a NaN `z` (impossible) would give no solutions. -/
noncomputable def solveDepressedQuartic (p q r epsilon : ℝ) : Sols 4 :=
  if isZero r epsilon then
    let s3 := solveCubic 1 0 p q epsilon
    let num := s3.num + 1
    ⟨num, fun i => if i.val = num - 1 then some 0 else if h : i.val < 3 then s3.sol ⟨i, h⟩ else none⟩
  else
    let s3 := solveCubic 1 (-(1 / 2) * p) (-r) ((1 / 2) * r * p - (1 / 8) * q * q) epsilon
    match s3.sol 0 with
    | none => ⟨0, fun _ => none⟩
    | some z =>
      match sqrtOrFail (z * z - r) epsilon with
      | none => ⟨0, fun _ => none⟩
      | some u =>
        match sqrtOrFail (2 * z - p) epsilon with
        | none => ⟨0, fun _ => none⟩
        | some v =>
          storeQuadratics (solveQuadratic 1 (if q < 0 then -v else v) (z - u) epsilon)
            (solveQuadratic 1 (if q < 0 then v else -v) (z + u) epsilon)

/-- scalar.h:866-955 `solve_quartic`. -/
noncomputable def solveQuartic (a b c d e epsilon : ℝ) : Sols 4 :=
  let A := b / a
  let B := c / a
  let C := d / a
  let D := e / a
  let p := -(3 / 8) * A * A + B
  let q := (1 / 8) * A * A * A - (1 / 2) * A * B + C
  let r := -(3 / 256) * A * A * A * A + (1 / 16) * A * A * B - (1 / 4) * A * C + D
  resubstitute (solveDepressedQuartic p q r epsilon) ((1 / 4) * A)

/-- scalar.h:703-705 `sqrt_c_nr`, Newton's iteration with at most `fuel` steps (`none`: not finished).  `half` is the literal
`static_cast<T>(0.5)`. -/
def sqrtNR {T : Type*} [Cmp T] [Add T] [Mul T] [Div T] (half x : T) : ℕ → T → T → Option T
  | 0, curr, prev => if Cmp.eq curr prev then some curr else none
  | fuel + 1, curr, prev =>
    if Cmp.eq curr prev then some curr else sqrtNR half x fuel (half * (curr + x / curr)) curr

/-- scalar.h:714-723 `sqrt_c`.  `half`, `inf` and `qnan` are the constants 0.5, infinity and NaN of the type. -/
def sqrtC {T : Type*} [Cmp T] [Zero T] [Add T] [Mul T] [Div T] (half inf qnan : T) (fuel : ℕ) (value : T) : Option T :=
  if isNan value || Cmp.eq value inf then some value
  else if Cmp.le 0 value then sqrtNR half value fuel value 0
  else some qnan

end vm
