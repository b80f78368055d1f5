import Verif.Model.Cmp
import Mathlib.Order.WithBot
import Mathlib.Algebra.Order.Ring.Rat
import Mathlib.Tactic.Linarith

/-!
# IEEE-like floating point scalars

`float` and `double` as the template argument `T`.  A format is a set of representable rationals with a
rounding function; the values are NaN, the two infinities and the representable numbers.  Every
arithmetic operator computes the exact result and rounds it.  The laws in `Fmt` are the ones every
IEEE 754 binary format satisfies under round-to-nearest (either tie rule) and round-toward-zero.
`Model/Binary.lean` constructs binary32/binary64 as instances, so the laws are consistent.

Simplifications: `+0` and `-0` are one value, so the sign of `x/0` is not modelled faithfully (theorems about division
exclude zero divisors); NaN payloads are not distinguished.
-/

namespace vm

/-- Numerical values of a float that is not NaN: `⊥` is `-inf`, `⊤` is `+inf`. -/
abbrev Ext := WithBot (WithTop ℚ)

/-- Embedding of the finite numbers. -/
def Ext.ofRat (q : ℚ) : Ext := ((q : WithTop ℚ) : WithBot (WithTop ℚ))

/-- Negation of an extended number. -/
def Ext.neg : Ext → Ext
  | none => ((⊤ : WithTop ℚ) : WithBot (WithTop ℚ))
  | some none => ⊥
  | some (some q) => Ext.ofRat (-q)

/-- A floating point format with its rounding function (result may overflow to an infinity). -/
structure Fmt where
  /-- representable finite numbers -/
  rep : ℚ → Prop
  /-- rounding of an exact result -/
  rnd : ℚ → Ext
  rep_zero : rep 0
  rep_one : rep 1
  rep_neg : ∀ {q}, rep q → rep (-q)
  rep_rnd : ∀ {x q}, rnd x = Ext.ofRat q → rep q
  rnd_rep : ∀ {q}, rep q → rnd q = Ext.ofRat q
  rnd_mono : ∀ {x y}, x ≤ y → rnd x ≤ rnd y
  rnd_neg : ∀ x, rnd (-x) = Ext.neg (rnd x)

/-- The values of a floating point type. -/
inductive Flt (F : Fmt) : Type
  | nan : Flt F
  | ninf : Flt F
  | pinf : Flt F
  | fin (q : ℚ) (h : F.rep q) : Flt F

namespace Flt
variable {F : Fmt}

/-- Numerical value, `none` for NaN. -/
def key : Flt F → Option Ext
  | nan => none
  | ninf => some ⊥
  | pinf => some ((⊤ : WithTop ℚ) : WithBot (WithTop ℚ))
  | fin q _ => some (Ext.ofRat q)

/-- The float with a given numerical value. -/
def ofExt : (x : Ext) → (∀ q, x = Ext.ofRat q → F.rep q) → Flt F
  | none, _ => ninf
  | some none, _ => pinf
  | some (some q), h => fin q (h q rfl)

/-- Rounding of an exact result to a float. -/
def round (x : ℚ) : Flt F := ofExt (F.rnd x) fun _ h => F.rep_rnd h

instance : Zero (Flt F) := ⟨fin 0 F.rep_zero⟩
instance : One (Flt F) := ⟨fin 1 F.rep_one⟩

/-- IEEE negation. -/
instance : Neg (Flt F) where
  neg
    | nan => nan
    | ninf => pinf
    | pinf => ninf
    | fin q h => fin (-q) (F.rep_neg h)

/-- IEEE addition. -/
instance : Add (Flt F) where
  add
    | nan, _ => nan
    | _, nan => nan
    | pinf, ninf => nan
    | ninf, pinf => nan
    | pinf, _ => pinf
    | ninf, _ => ninf
    | fin _ _, pinf => pinf
    | fin _ _, ninf => ninf
    | fin a _, fin b _ => round (a + b)

/-- IEEE subtraction. -/
instance : Sub (Flt F) where
  sub a b := a + -b

/-- Sign of a rational as a float multiplication helper: an infinity with the sign of `q`, NaN for 0. -/
def infTimes (q : ℚ) : Flt F := if q = 0 then nan else if 0 < q then pinf else ninf

/-- IEEE multiplication. -/
instance : Mul (Flt F) where
  mul
    | nan, _ => nan
    | _, nan => nan
    | pinf, pinf => pinf
    | ninf, ninf => pinf
    | pinf, ninf => ninf
    | ninf, pinf => ninf
    | pinf, fin q _ => infTimes q
    | fin q _, pinf => infTimes q
    | ninf, fin q _ => infTimes (-q)
    | fin q _, ninf => infTimes (-q)
    | fin a _, fin b _ => round (a * b)

/-- IEEE division.  Simplification: a zero divisor counts as `+0`. -/
instance : Div (Flt F) where
  div
    | nan, _ => nan
    | _, nan => nan
    | pinf, pinf => nan
    | ninf, ninf => nan
    | pinf, ninf => nan
    | ninf, pinf => nan
    | pinf, fin q _ => if 0 ≤ q then pinf else ninf
    | ninf, fin q _ => if 0 ≤ q then ninf else pinf
    | fin _ _, pinf => 0
    | fin _ _, ninf => 0
    | fin a _, fin b _ => if b = 0 then infTimes a else round (a / b)

/-- The comparison operators compare numerical values; NaN compares false. -/
instance : IEEE (Flt F) where
  lt a b := match key a, key b with
    | some x, some y => decide (x < y)
    | _, _ => false
  le a b := match key a, key b with
    | some x, some y => decide (x ≤ y)
    | _, _ => false
  eq a b := match key a, key b with
    | some x, some y => decide (x = y)
    | _, _ => false
  Key := Ext
  keyOrd := inferInstance
  key := key
  lt_iff a b := by
    rcases ha : key a with _ | x <;> rcases hb : key b with _ | y <;> simp
  le_iff a b := by
    rcases ha : key a with _ | x <;> rcases hb : key b with _ | y <;> simp
  eq_iff a b := by
    rcases ha : key a with _ | x <;> rcases hb : key b with _ | y <;> simp [eq_comm]

/-- The literals of the code, such as `static_cast<T>(2.0)` in bbox.h:265, converted to the type. -/
instance (n : ℕ) [n.AtLeastTwo] : OfNat (Flt F) n := ⟨round n⟩

/-- The exact value of a finite float (zero for the others). -/
def val : Flt F → ℚ
  | fin q _ => q
  | _ => 0

/-- A float that is neither NaN nor infinite. -/
def isFinite : Flt F → Prop
  | fin _ _ => True
  | _ => False

end Flt

/-- Exact rational arithmetic as a (degenerate) format: nothing is ever rounded. -/
def exactFmt : Fmt where
  rep _ := True
  rnd := Ext.ofRat
  rep_zero := trivial
  rep_one := trivial
  rep_neg _ := trivial
  rep_rnd _ := trivial
  rnd_rep _ := rfl
  rnd_mono h := WithBot.coe_le_coe.2 (WithTop.coe_le_coe.2 h)
  rnd_neg _ := rfl

end vm
