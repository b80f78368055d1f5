import Verif.Model.Geom

/-!
# Model of approx.h and bezier_surface.h

`x >= y` of the code is `Cmp.le y x` and `x > y` is `Cmp.lt y x`, which is the same in IEEE arithmetic.  The operators
`>=` for vectors (approx.h:176-182) subtract a scalar from a vector, for which there is no operator, so
they cannot be instantiated and are not modelled.
-/

universe u

namespace vm
variable {T : Type u} {S R C : ℕ}

/-- approx.h:30-42 `approx<T>`, 122-134 `approx<vec>`, 190-202 `approx<mat>`, 226-238 `approx<line>`: a value and a
tolerance.  The assertion that the tolerance is not negative is a hypothesis of the theorems. -/
structure Approx (V : Type u) (T : Type u) where
  /-- `m_value` -/
  value : V
  /-- `m_epsilon` -/
  epsilon : T

/-! ### Scalars -/

/-- approx.h:44-46 `x == approx` (and 48 with swapped arguments). -/
def approxEq [Cmp T] [Add T] [Sub T] (x : T) (a : Approx T T) : Bool :=
  Cmp.le (a.value - a.epsilon) x && Cmp.le x (a.value + a.epsilon)
/-- approx.h:50, 52 `x != approx`. -/
def approxNe [Cmp T] [Add T] [Sub T] (x : T) (a : Approx T T) : Bool := !(approxEq x a)
/-- approx.h:54-56 `x < approx`. -/
def approxLt [Cmp T] [Sub T] (x : T) (a : Approx T T) : Bool := Cmp.lt x (a.value - a.epsilon)
/-- approx.h:58-60 `approx < x`. -/
def ltApprox [Cmp T] [Sub T] (a : Approx T T) (x : T) : Bool := Cmp.lt a.value (x - a.epsilon)
/-- approx.h:62-64 `x <= approx`. -/
def approxLe [Cmp T] [Add T] (x : T) (a : Approx T T) : Bool := Cmp.le x (a.value + a.epsilon)
/-- approx.h:66-68 `approx <= x`. -/
def leApprox [Cmp T] [Add T] (a : Approx T T) (x : T) : Bool := Cmp.le a.value (x + a.epsilon)
/-- approx.h:70-72 `x > approx`. -/
def approxGt [Cmp T] [Add T] (x : T) (a : Approx T T) : Bool := Cmp.lt (a.value + a.epsilon) x
/-- approx.h:74-76 `approx > x`. -/
def gtApprox [Cmp T] [Add T] (a : Approx T T) (x : T) : Bool := Cmp.lt (x + a.epsilon) a.value
/-- approx.h:78-80 `x >= approx`. -/
def approxGe [Cmp T] [Sub T] (x : T) (a : Approx T T) : Bool := Cmp.le (a.value - a.epsilon) x
/-- approx.h:82-84 `approx >= x`. -/
def geApprox [Cmp T] [Sub T] (a : Approx T T) (x : T) : Bool := Cmp.le (x - a.epsilon) a.value

/-- approx.h:92-105 `list == list of approx` (and 107-110 with swapped arguments). -/
def approxListEq [Cmp T] [Add T] [Sub T] (lhs : List T) (rhs : List (Approx T T)) : Bool :=
  if lhs.length ≠ rhs.length then false else !((lhs.zip rhs).any fun p => approxNe p.1 p.2)

/-- approx.h:112-120 `list != list of approx`. -/
def approxListNe [Cmp T] [Add T] [Sub T] (lhs : List T) (rhs : List (Approx T T)) : Bool := !(approxListEq lhs rhs)

/-! ### Vectors, matrices, lines -/

/-- approx.h:136-142 `vec == approx`. -/
def approxVecEq [Cmp T] [Add T] [Sub T] (x : Vec T S) (a : Approx (Vec T S) T) : Bool := visEqual x a.value a.epsilon
/-- approx.h:144-150 `vec != approx`. -/
def approxVecNe [Cmp T] [Add T] [Sub T] (x : Vec T S) (a : Approx (Vec T S) T) : Bool := !(approxVecEq x a)
/-- approx.h:152-154 `vec < approx`. -/
def approxVecLt [Cmp T] [Zero T] [Add T] [Sub T] (x : Vec T S) (a : Approx (Vec T S) T) : Bool :=
  vlt x (a.value - fun _ => a.epsilon)
/-- approx.h:156-158 `approx < vec`. -/
def ltApproxVec [Cmp T] [Zero T] [Add T] [Sub T] (a : Approx (Vec T S) T) (x : Vec T S) : Bool :=
  vlt a.value (x - fun _ => a.epsilon)
/-- approx.h:160-162 `vec <= approx`. -/
def approxVecLe [Cmp T] [Zero T] [Add T] [Sub T] (x : Vec T S) (a : Approx (Vec T S) T) : Bool :=
  vle x (a.value + fun _ => a.epsilon)
/-- approx.h:164-166 `approx <= vec`. -/
def leApproxVec [Cmp T] [Zero T] [Add T] [Sub T] (a : Approx (Vec T S) T) (x : Vec T S) : Bool :=
  vle a.value (x + fun _ => a.epsilon)
/-- approx.h:168-170 `vec > approx`. -/
def approxVecGt [Cmp T] [Zero T] [Add T] [Sub T] (x : Vec T S) (a : Approx (Vec T S) T) : Bool :=
  vgt x (a.value + fun _ => a.epsilon)
/-- approx.h:172-174 `approx > vec`. -/
def gtApproxVec [Cmp T] [Zero T] [Add T] [Sub T] (a : Approx (Vec T S) T) (x : Vec T S) : Bool :=
  vgt a.value (x + fun _ => a.epsilon)

/-- approx.h:204-210 `mat == approx`. -/
def approxMatEq [Cmp T] [Add T] [Sub T] (x : Mat T R C) (a : Approx (Mat T R C) T) : Bool :=
  misEqual x a.value a.epsilon

/-- approx.h:240-246 `line == approx`. -/
def approxLineEq [Cmp T] [Add T] [Sub T] (x : Line T S) (a : Approx (Line T S) T) : Bool :=
  Line.isEqual x a.value a.epsilon

/-! ### bezier_surface.h -/

/-- bezier_surface.h:30-32 `bernsteinPolynomial_0`. -/
def bernstein0 [One T] [OfNat T 2] [Add T] [Sub T] [Mul T] (x : T) : T := 1 - 2 * x + x * x
/-- bezier_surface.h:34-36 `bernsteinPolynomial_1`. -/
def bernstein1 [OfNat T 2] [Sub T] [Mul T] (x : T) : T := 2 * (x - x * x)
/-- bezier_surface.h:38-40 `bernsteinPolynomial_2`. -/
def bernstein2 [Mul T] (x : T) : T := x * x

/-- bezier_surface.h:42-48 `interpolate`. -/
def bezierInterpolate [Zero T] [One T] [OfNat T 2] [Add T] [Sub T] [Mul T] (x : T) (p : Fin 3 → Vec T S) : Vec T S :=
  let result : Vec T S := fun _ => 0
  let result := result + vscale (p 0) (bernstein0 x)
  let result := result + vscale (p 1) (bernstein1 x)
  result + vscale (p 2) (bernstein2 x)

/-- bezier_surface.h:27-56 `evaluate_quadratic_bezier_surface`. -/
def evaluateBezier [Zero T] [One T] [OfNat T 2] [Add T] [Sub T] [Mul T] (controlPoints : Fin 3 → Fin 3 → Vec T S)
    (u v : T) : Vec T S :=
  bezierInterpolate v ![bezierInterpolate u (controlPoints 0), bezierInterpolate u (controlPoints 1),
    bezierInterpolate u (controlPoints 2)]

end vm
