import Mathlib.Order.Defs.LinearOrder
import Mathlib.Order.Basic

/-!
# Scalar comparison

The templates in vecmath are instantiated with `float`, `double` and integer types.  All the code
asks of the component type is the comparison operators (and arithmetic).  `Cmp` collects the
comparison operators as Boolean functions (`a > b` is `lt b a`, `a >= b` is `le b a`, which is exact
for IEEE types).  `IEEE` adds the only law the C++ standard/IEEE 754 gives us: apart from NaN, which
compares false with everything, values are compared by a linear order on their numerical values.
-/

universe u

namespace vm

/-- The C++ comparison operators `<`, `<=`, `==` of a built-in arithmetic type
(used throughout, e.g. scalar.h:53 `f != f`, scalar.h:113 `lhs < rhs`, scalar.h:585). -/
class Cmp (T : Type u) where
  /-- `a < b` -/
  lt : T → T → Bool
  /-- `a <= b` -/
  le : T → T → Bool
  /-- `a == b` -/
  eq : T → T → Bool

/-- Semantics of the comparison operators: every value that is not NaN has a numerical value `key` in
a linear order, and NaN is unordered and unequal to everything including itself.
Simplification: `+0` and `-0` have the same key (they compare equal in C++ as well). -/
class IEEE (T : Type u) extends Cmp T where
  /-- numerical values -/
  Key : Type u
  /-- numerical values are linearly ordered -/
  keyOrd : LinearOrder Key
  /-- numerical value, `none` for NaN -/
  key : T → Option Key
  lt_iff : ∀ a b : T, lt a b = true ↔ ∃ x y, key a = some x ∧ key b = some y ∧ x < y
  le_iff : ∀ a b : T, le a b = true ↔ ∃ x y, key a = some x ∧ key b = some y ∧ x ≤ y
  eq_iff : ∀ a b : T, eq a b = true ↔ ∃ x, key a = some x ∧ key b = some x

attribute [reducible, instance] IEEE.keyOrd

/-- In exact arithmetic (no NaN) the operators are those of the linear order. -/
instance (priority := low) exactCmp {K : Type u} [LinearOrder K] : Cmp K where
  lt a b := decide (a < b)
  le a b := decide (a ≤ b)
  eq a b := decide (a = b)

instance (priority := low) exactIEEE {K : Type u} [LinearOrder K] : IEEE K where
  Key := K
  keyOrd := inferInstance
  key a := some a
  lt_iff a b := by simp [Cmp.lt]
  le_iff a b := by simp [Cmp.le]
  eq_iff a b := by simp [Cmp.eq, eq_comm]

@[simp] theorem exact_lt {K : Type u} [LinearOrder K] (a b : K) :
    Cmp.lt a b = decide (a < b) := rfl
@[simp] theorem exact_le {K : Type u} [LinearOrder K] (a b : K) :
    Cmp.le a b = decide (a ≤ b) := rfl
@[simp] theorem exact_eq {K : Type u} [LinearOrder K] (a b : K) :
    Cmp.eq a b = decide (a = b) := rfl

/-- scalar.h:51-54 `is_nan`: `f != f`. -/
def isNan {T : Type u} [Cmp T] (f : T) : Bool := !(Cmp.eq f f)

@[simp] theorem exact_isNan {K : Type u} [LinearOrder K] (a : K) : isNan a = false := by
  simp [isNan]

end vm
