import Verif.Model.BBox
import Verif.Model.Mat

/-!
# Signed integers as component type

forward.h:35-56 declares vectors with `int` components.  An expression of a signed integer type has no value if the mathematical result is out
of range: the behaviour is undefined.  `SInt w` has a value `ub` for this, and every operation with an undefined operand is undefined.
Types narrower than `int` are not modelled: they are promoted to `int` and converted back.
-/

namespace vm

/-- The values of a signed integer type of `w` bits (forward.h:35-56: `int`); `2 ≤ w` in all theorems. -/
def InRange (w : ℕ) (z : ℤ) : Prop := -2 ^ (w - 1) ≤ z ∧ z < 2 ^ (w - 1)

instance (w : ℕ) (z : ℤ) : Decidable (InRange w z) := inferInstanceAs (Decidable (_ ∧ _))

/-- An expression of a signed integer type of `w` bits (forward.h:35-56: `int`): undefined, or a value. -/
inductive SInt (w : ℕ) where
  | ub : SInt w
  | val (z : ℤ) (h : InRange w z) : SInt w

namespace SInt
variable {w : ℕ}

/-- The expression with the mathematical value `z` (any arithmetic expression in vec.h or mat.h). -/
def of (z : ℤ) : SInt w := if h : InRange w z then val z h else ub

/-- The value of an expression, if it is defined (used in the statements only; forward.h:35-56). -/
def toInt : SInt w → Option ℤ
  | ub => none
  | val z _ => some z

/-- vec.h:1094 and others: the literal `T(0)`. -/
instance : Zero (SInt w) := ⟨of 0⟩
/-- vec.h:1723 and others: the literal `T(1)`. -/
instance : One (SInt w) := ⟨of 1⟩
/-- bbox.h:266 the literal `T(2)`. -/
instance : OfNat (SInt w) 2 := ⟨of 2⟩

/-- Addition of the component type (vec.h:766-772). -/
def add : SInt w → SInt w → SInt w
  | val a _, val b _ => of (a + b)
  | _, _ => ub

/-- Subtraction of the component type (vec.h:785-791). -/
def sub : SInt w → SInt w → SInt w
  | val a _, val b _ => of (a - b)
  | _, _ => ub

/-- Multiplication of the component type (vec.h:805-811). -/
def mul : SInt w → SInt w → SInt w
  | val a _, val b _ => of (a * b)
  | _, _ => ub

/-- Division of the component type (vec.h:857-864): truncates, undefined for the divisor zero and if the quotient is out of range. -/
def div : SInt w → SInt w → SInt w
  | val a _, val b _ => if b = 0 then ub else of (a.tdiv b)
  | _, _ => ub

/-- Negation of the component type (vec.h:748-754). -/
def neg : SInt w → SInt w
  | val a _ => of (-a)
  | ub => ub

instance : Add (SInt w) := ⟨add⟩
instance : Sub (SInt w) := ⟨sub⟩
instance : Mul (SInt w) := ⟨mul⟩
instance : Div (SInt w) := ⟨div⟩
instance : Neg (SInt w) := ⟨neg⟩

/-- The comparison operators of the component type (scalar.h:87, scalar.h:113).  Simplification: false if an operand is undefined; the theorems
about functions that compare apply to defined operands only. -/
instance : Cmp (SInt w) where
  lt | val a _, val b _ => decide (a < b) | _, _ => false
  le | val a _, val b _ => decide (a ≤ b) | _, _ => false
  eq | val a _, val b _ => decide (a = b) | _, _ => false

end SInt

end vm
