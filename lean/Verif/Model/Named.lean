import Verif.Model.Polygon
import Verif.Model.Binary
import Verif.Model.IntC

/-!
# Named vectors, iteration over polygons, row vector times matrix

The static members of `vec` that return constant vectors (vec.h:278-381), the iterators of `polygon`, the output functions `get_vertices`, and
`vec * mat` for matrices that are not square.
-/

universe u

namespace vm

/-- `std::numeric_limits<T>` as far as vec.h:347-365 uses it. -/
class Limits (T : Type u) where
  /-- `std::numeric_limits<T>::min()`, used in vec.h:355 -/
  min : T
  /-- `std::numeric_limits<T>::max()`, used in vec.h:363 -/
  max : T
  /-- `std::numeric_limits<T>::quiet_NaN()`, used in vec.h:347 -/
  quietNaN : T

/-- The greatest number of a binary format: `std::numeric_limits<T>::max()` for `float` and `double`, used in vec.h:363. -/
def BinPar.maxVal (P : BinPar) : ℚ := (2 ^ P.p - 1) * 2 ^ P.qmax

/-- The least positive number of a binary format with full precision: `std::numeric_limits<T>::min()` for `float` and `double`, used in
vec.h:355. -/
def BinPar.minVal (P : BinPar) : ℚ := 2 ^ (P.qmin + P.p - 1)

/-- The limits of a binary format, used in vec.h:347-365: `FLT_MIN`, `FLT_MAX`, `DBL_MIN`, `DBL_MAX`.  Both are representable
(`C118_limits`), so the rounding here has no effect. -/
instance (P : BinPar) : Limits (Flt P.fmt) := ⟨Flt.round P.minVal, Flt.round P.maxVal, Flt.nan⟩

/-- The limits of a signed integer type of `w` bits, used in vec.h:347-365; `std::numeric_limits<T>::quiet_NaN()` is zero for integers. -/
instance (w : ℕ) : Limits (SInt w) := ⟨SInt.of (-2 ^ (w - 1)), SInt.of (2 ^ (w - 1) - 1), 0⟩

variable {T : Type u}

/-- vec.h:330-333 `vec::zero`. -/
def vzero [Zero T] (S : ℕ) : Vec T S := vfill S 0

/-- vec.h:338-341 `vec::one`. -/
def vone [One T] (S : ℕ) : Vec T S := vfill S 1

/-- vec.h:346-349 `vec::nan`. -/
def vnan [Limits T] (S : ℕ) : Vec T S := vfill S Limits.quietNaN

/-- vec.h:354-357 `vec::min`. -/
def vminConst [Limits T] (S : ℕ) : Vec T S := vfill S Limits.min

/-- vec.h:362-365 `vec::max`. -/
def vmaxConst [Limits T] (S : ℕ) : Vec T S := vfill S Limits.max

/-- vec.h:157-161 `vec::axis` for any index: `none` is the write outside of the array (`operator[]`, vec.h:180, does not check
the index). -/
def vaxisAt [Zero T] [One T] (S index : ℕ) : Option (Vec T S) :=
  if h : index < S then some (Function.update (vfill S 0) ⟨index, h⟩ 1) else none

/-- vec.h:282-301 `pos_x`, `pos_y`, `pos_z` (`index` 0, 1, 2). -/
def vpos [Zero T] [One T] (S index : ℕ) : Option (Vec T S) := vaxisAt S index

/-- vec.h:306-325 `neg_x`, `neg_y`, `neg_z` (`index` 0, 1, 2). -/
def vneg [Zero T] [One T] [Neg T] (S index : ℕ) : Option (Vec T S) := (vaxisAt S index).map fun v => -v

/-- vec.h:377-381 `vec::get_vertices`: the sequence assigned through `out++`.  Simplification: the output iterator is one that appends on
assignment without being dereferenced, such as `std::back_inserter`; for others the function does not compile. -/
def vgetVertices {S : ℕ} (l : List (Vec T S)) : List (Vec T S) := l.foldl (fun out v => out ++ [v]) []

/-- polygon.h:142-149 `begin()` to `end()`: the sequence that is visited. -/
def Polygon.range {S : ℕ} (p : Polygon T S) : List (Vec T S) := p.vertices

/-- polygon.h:156-163 `rbegin()` to `rend()`: the sequence that is visited; the code returns `std::begin` and `std::end`. -/
def Polygon.rrange {S : ℕ} (p : Polygon T S) : List (Vec T S) := p.vertices

/-- mat.h:577-583 row vector times matrix, for any number of rows and columns.  The result has `R` components and starts as zero, the loop
assigns the components `0 … C - 1`.  `none` is the write outside of the array (`operator[]`, vec.h:180, does not check
the index). -/
def vmulMatG [Zero T] [Add T] [Mul T] {R C : ℕ} (lhs : Vec T R) (rhs : Mat T R C) : Option (Vec T R) :=
  (List.finRange C).foldl (fun result (c : Fin C) => result.bind fun v =>
    if h : c.val < R then some (Function.update v ⟨c.val, h⟩ (dot lhs (rhs c))) else none) (some (vfill R 0))

/-- plane.h:391-412 `from_points(cur, end, get)` with the argument `get`, which the code uses for its result type only. -/
noncomputable def Plane.fromPointsGet (_get : Vec ℝ 3 → Vec ℝ 3) : List (Vec ℝ 3) → Bool × Option (Plane ℝ 3)
  | p1 :: p2 :: p3 :: _ => Plane.fromPoints p1 p2 p3
  | _ => (false, some Plane.zero)

end vm
