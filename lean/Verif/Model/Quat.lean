import Verif.Model.Vec
import Mathlib.Analysis.SpecialFunctions.Trigonometric.Inverse

/-!
# Model of quat.h
-/

universe u

namespace vm

/-- quat.h:29-39 `quat<T>`: real part `r` and imaginary part `v`. -/
structure Quat (T : Type u) where
  r : T
  v : Vec T 3

namespace Quat
variable {T : Type u}

/-- Used only to evaluate examples. -/
instance [DecidableEq T] : DecidableEq (Quat T) := fun a b =>
  decidable_of_iff (a.r = b.r ∧ a.v = b.v) (by cases a; cases b; simp)

/-- quat.h:44-46 default constructor. -/
def zero [Zero T] : Quat T := ⟨0, fun _ => 0⟩

/-- quat.h:62-65 converting constructor; `cast` is the conversion of the scalars. -/
def convert {U : Type u} (cast : U → T) (other : Quat U) : Quat T := ⟨cast other.r, fun i => cast (other.v i)⟩

/-- quat.h:149 `conjugate`. -/
def conjugate [Neg T] (q : Quat T) : Quat T := ⟨q.r, -q.v⟩

/-- quat.h:167-171 `is_equal`. -/
def isEqual [Cmp T] [Zero T] [Neg T] [Add T] [Sub T] (lhs rhs : Quat T) (epsilon : T) : Bool :=
  (vm.isEqual lhs.r rhs.r epsilon || vm.isEqual lhs.r (-rhs.r) epsilon) && visEqual lhs.v rhs.v epsilon

/-- quat.h:187-189 `operator==`. -/
def beq [Cmp T] [Zero T] [Neg T] [Add T] [Sub T] (lhs rhs : Quat T) : Bool :=
  (Cmp.eq lhs.r rhs.r || Cmp.eq lhs.r (-rhs.r)) && veq lhs.v rhs.v

/-- quat.h:201-203 `operator!=`. -/
def bne [Cmp T] [Zero T] [Neg T] [Add T] [Sub T] (lhs rhs : Quat T) : Bool :=
  (!(Cmp.eq lhs.r rhs.r) && !(Cmp.eq lhs.r (-rhs.r))) || vne lhs.v rhs.v

/-- quat.h:212-214 unary `+`. -/
def pos (q : Quat T) : Quat T := q

/-- quat.h:223-225 unary `-`: negates the real part only. -/
def neg [Neg T] (q : Quat T) : Quat T := ⟨-q.r, q.v⟩

/-- quat.h:235-237 quaternion times scalar: scales the real part only. -/
def scale [Mul T] (lhs : Quat T) (rhs : T) : Quat T := ⟨lhs.r * rhs, lhs.v⟩

/-- quat.h:247-249 scalar times quaternion. -/
def scaleLeft [Mul T] (lhs : T) (rhs : Quat T) : Quat T := ⟨lhs * rhs.r, rhs.v⟩

/-- quat.h:259-269 quaternion product. -/
def mul [Zero T] [Add T] [Sub T] [Mul T] (lhs rhs : Quat T) : Quat T :=
  let nr := lhs.r * rhs.r - dot lhs.v rhs.v
  let nx := lhs.r * rhs.v 0 + lhs.v 0 * rhs.r + lhs.v 1 * rhs.v 2 - lhs.v 2 * rhs.v 1
  let ny := lhs.r * rhs.v 1 + lhs.v 1 * rhs.r + lhs.v 2 * rhs.v 0 - lhs.v 0 * rhs.v 2
  let nz := lhs.r * rhs.v 2 + lhs.v 2 * rhs.r + lhs.v 0 * rhs.v 1 - lhs.v 1 * rhs.v 0
  ⟨nr, ![nx, ny, nz]⟩

/-- quat.h:279-281 quaternion times vector. -/
def rotate [Zero T] [Neg T] [Add T] [Sub T] [Mul T] (lhs : Quat T) (rhs : Vec T 3) : Vec T 3 :=
  ((lhs.mul ⟨0, rhs⟩).mul lhs.conjugate).v

section real

/-- constants.h:31-34 `almost_zero`.  Simplification: the exact decimal value. -/
noncomputable def almostZero : ℝ := 1 / 1000

/-- quat.h:84 constructor from axis and angle, quat.h:117-121 `set_rotation` (the assertion that the axis
is a unit vector is a hypothesis of theorems). -/
noncomputable def ofAxisAngle (axis : Vec ℝ 3) (angle : ℝ) : Quat ℝ :=
  ⟨Real.cos (angle / 2), vscale axis (Real.sin (angle / 2))⟩

/-- quat.h:93-114 constructor of the rotation that maps `from` to `to`.  `none` if `normalize` divides by
zero.  The assertions are hypotheses of theorems; `to_radians(180)` is `π`. -/
noncomputable def ofFromTo (from_ to_ : Vec ℝ 3) : Option (Quat ℝ) :=
  let cos := dot from_ to_
  if vm.isEqual cos 1 almostZero then some (ofAxisAngle (vaxis 3 2) 0)
  else if vm.isEqual (-cos) 1 almostZero then
    let axis := cross from_ (vaxis 3 2)
    let axis := if vm.isZero (squaredLength axis) almostZero then cross from_ (vaxis 3 0) else axis
    (normalize axis).map fun axis => ofAxisAngle axis (toRadians Real.pi 180)
  else (normalize (cross from_ to_)).map fun axis => ofAxisAngle axis (Real.arccos cos)

/-- quat.h:129 `angle`.  `std::acos` is NaN outside `[-1,1]`; theorems are about unit quaternions. -/
noncomputable def angle (q : Quat ℝ) : ℝ := 2 * Real.arccos q.r

/-- quat.h:136-142 `axis`.  The denominator is zero only for `r = ±1`, where unit quaternions take the
first branch. -/
noncomputable def axis (q : Quat ℝ) : Vec ℝ 3 :=
  if visZero q.v almostZero then q.v else vdivs q.v (Real.sin (Real.arccos q.r))

end real
end Quat
end vm
