import Verif.Model.ScalarFlt
import Verif.Model.FltMat

/-!
# Floating point numbers with signed zeros

`Flt` has one zero.  Here the two zeros of IEEE 754 are distinguished: `SFlt F` are the numbers of `Flt F`, whose zero is `+0`, and `-0`.
The only other simplification of `Flt` that remains is that NaNs are not distinguished.
-/

namespace vm

/-- The values of a floating point type with signed zeros (forward.h:33-55: `float` and `double`). -/
inductive SFlt (F : Fmt) : Type
  | negZero : SFlt F
  | of (x : Flt F) : SFlt F

namespace Flt
variable {F : Fmt}

/-- `x == 0` (one zero; used by the operations of `SFlt`, forward.h:33-55). -/
def isZeroB : Flt F → Bool
  | fin q _ => decide (q = 0)
  | _ => false

/-- The sign bit of a number that is not zero (NaN counts as positive, forward.h:33-55). -/
def isNegB : Flt F → Bool
  | ninf => true
  | fin q _ => decide (q < 0)
  | _ => false

end Flt

namespace SFlt
variable {F : Fmt}

/-- The number without the sign of zero (used in the statements and for the comparisons, forward.h:33-55). -/
def toFlt : SFlt F → Flt F
  | negZero => 0
  | of x => x

/-- The sign bit (NaN counts as positive, forward.h:33-55). -/
def signBit : SFlt F → Bool
  | negZero => true
  | of x => x.isNegB

/-- The result `x` of an operation, with the sign `s` if it is zero (forward.h:33-55). -/
def signed (s : Bool) (x : Flt F) : SFlt F := if x.isZeroB && s then negZero else of x

/-- `T(0)` (vec.h:1094 and others). -/
instance : Zero (SFlt F) := ⟨of 0⟩
/-- `T(1)` (vec.h:1723 and others). -/
instance : One (SFlt F) := ⟨of 1⟩
/-- The other literals, such as `T(2)` in bbox.h:265. -/
instance (n : ℕ) [n.AtLeastTwo] : OfNat (SFlt F) n := ⟨of (OfNat.ofNat n)⟩

/-- IEEE negation: the sign bit changes (vec.h:748-754). -/
instance : Neg (SFlt F) where
  neg x := signed (!x.signBit) (-x.toFlt)

/-- IEEE addition (vec.h:766-772): a zero sum of two zeros is negative if both are; another zero sum has the sign of the exact sum if that is
not zero, and is positive if it is. -/
instance : Add (SFlt F) where
  add x y := signed (if x.toFlt.isZeroB && y.toFlt.isZeroB then x.signBit && y.signBit else decide (x.toFlt.val + y.toFlt.val < 0)) (x.toFlt + y.toFlt)

/-- IEEE subtraction (vec.h:785-791). -/
instance : Sub (SFlt F) where
  sub x y := x + -y

/-- IEEE multiplication (vec.h:805-811): the signs are combined. -/
instance : Mul (SFlt F) where
  mul x y := signed (x.signBit != y.signBit) (x.toFlt * y.toFlt)

/-- IEEE division (vec.h:857-864): the signs are combined; a nonzero number divided by a zero is infinite. -/
instance : Div (SFlt F) where
  div x y :=
    if y.toFlt.isZeroB then
      match x.toFlt with
      | .nan => of .nan
      | .fin q _ => if q = 0 then of .nan else if x.signBit != y.signBit then of .ninf else of .pinf
      | _ => if x.signBit != y.signBit then of .ninf else of .pinf
    else signed (x.signBit != y.signBit) (x.toFlt / y.toFlt)

/-- The comparison operators compare numerical values (scalar.h:53, scalar.h:113): the two zeros are equal. -/
instance : IEEE (SFlt F) where
  lt x y := Cmp.lt x.toFlt y.toFlt
  le x y := Cmp.le x.toFlt y.toFlt
  eq x y := Cmp.eq x.toFlt y.toFlt
  Key := Ext
  keyOrd := inferInstance
  key x := x.toFlt.key
  lt_iff x y := IEEE.lt_iff x.toFlt y.toFlt
  le_iff x y := IEEE.le_iff x.toFlt y.toFlt
  eq_iff x y := IEEE.eq_iff x.toFlt y.toFlt

/-- Conversion to and from `int64_t` (scalar.h:366-368): the integer zero becomes `+0`. -/
instance : Int64Cast (SFlt F) where
  toInt64 x := Int64Cast.toInt64 x.toFlt
  ofInt64 n := of (Int64Cast.ofInt64 n)

/-- mat.h:861 `p < 1.0e-15`. -/
instance : LupSmall (SFlt F) where
  small x := LupSmall.small x.toFlt

end SFlt

end vm
