import Verif.Model.Scalar
import Mathlib.Data.Fin.VecNotation
import Mathlib.Analysis.SpecialFunctions.Trigonometric.Inverse

/-!
# Model of vec.h

`vec<T,S>` is `Fin S → T`.  The component-wise operators `+`, `-` (unary and binary), `*` and `/` on two
vectors (vec.h:739-811, vec.h:857-864) are the pointwise operations of function types; each loop there
assigns `result[i]` from `lhs[i]` and `rhs[i]` only, so evaluation order is irrelevant.
The sorting based functions (`find_max_component` etc.) are in `Model/Sort.lean`.
-/

universe u

namespace vm

/-- vec.h:37-42 `vec<T,S>`: an array of `S` components. -/
abbrev Vec (T : Type u) (S : ℕ) := Fin S → T

variable {T : Type u} {S : ℕ}

/-- vec.h:143-149 `fill`. -/
def vfill (S : ℕ) (value : T) : Vec T S := fun _ => value

/-- vec.h:157-161 `axis`.  Simplification: the index is in range (out of range is undefined). -/
def vaxis [Zero T] [One T] (S : ℕ) (index : Fin S) : Vec T S := fun i => if i = index then 1 else 0

/-- vec.h:68-74 initializer list constructor: the first `min(values.size(), S)` components are taken
from the list, the others are zero. -/
def vofList [Zero T] (S : ℕ) (values : List T) : Vec T S := fun i => values.getD i 0

/-- vec.h:100-106 converting constructor `vec(const vec<U,V>&)`: truncates or pads with zero; `cast` is
`static_cast<T>`. -/
def vconvert {U : Type u} [Zero T] {V : ℕ} (cast : U → T) (S : ℕ) (other : Vec U V) : Vec T S :=
  fun i => if h : i.val < V then cast (other ⟨i, h⟩) else 0

/-- vec.h:121-133 extending constructor: `other` followed by the extra arguments. -/
def vextend {SS k : ℕ} (other : Vec T SS) (args : Vec T k) : Vec T (SS + k) := Fin.append other args

/-- vec.h:823-830 `vec * scalar` (and vec.h:842-845 `scalar * vec`, which calls it). -/
def vscale [Mul T] (lhs : Vec T S) (rhs : T) : Vec T S := fun i => lhs i * rhs

/-- vec.h:876-883 `vec / scalar`. -/
def vdivs [Div T] (lhs : Vec T S) (rhs : T) : Vec T S := fun i => lhs i / rhs

/-- vec.h:895-902 `scalar / vec`. -/
def vsdiv [Div T] (lhs : T) (rhs : Vec T S) : Vec T S := fun i => lhs / rhs i

/-! ### Comparison -/

/-- One iteration of the loop in vec.h:397-418; `some r` is `return r`, `none` continues. -/
def compareStep [Cmp T] [Add T] [Sub T] (lhs rhs epsilon : T) : Option Int :=
  let lhsIsNaN := !(Cmp.eq lhs lhs)
  let rhsIsNaN := !(Cmp.eq rhs rhs)
  if !lhsIsNaN && rhsIsNaN then some (-1)
  else if lhsIsNaN && !rhsIsNaN then some 1
  else if !lhsIsNaN && !rhsIsNaN then
    if Cmp.lt lhs (rhs - epsilon) then some (-1)
    else if Cmp.lt (rhs + epsilon) lhs then some 1
    else none
  else none

/-- vec.h:397-418 `compare(vec, vec, epsilon)`. -/
def vcompare [Cmp T] [Add T] [Sub T] (lhs rhs : Vec T S) (epsilon : T) : Int :=
  ((List.finRange S).findSome? fun i => compareStep (lhs i) (rhs i) epsilon).getD 0

/-- vec.h:437-459 `compare` on two ranges of vectors. -/
def rangeCompare [Cmp T] [Add T] [Sub T] (epsilon : T) : List (Vec T S) → List (Vec T S) → Int
  | l :: ls, r :: rs =>
    let cmp := vcompare l r epsilon
    if cmp < 0 then -1 else if 0 < cmp then 1 else rangeCompare epsilon ls rs
  | [], _ :: _ => -1
  | _ :: _, [] => 1
  | [], [] => 0

/-- vec.h:473-475 `is_equal(vec, vec, epsilon)`. -/
def visEqual [Cmp T] [Add T] [Sub T] (lhs rhs : Vec T S) (epsilon : T) : Bool :=
  vcompare lhs rhs epsilon == 0

/-- vec.h:487-489 `operator==`. -/
def veq [Cmp T] [Add T] [Sub T] [Zero T] (lhs rhs : Vec T S) : Bool := vcompare lhs rhs 0 == 0

/-- vec.h:502-504 `operator!=`. -/
def vne [Cmp T] [Add T] [Sub T] [Zero T] (lhs rhs : Vec T S) : Bool := vcompare lhs rhs 0 != 0

/-- vec.h:517-519 `operator<`. -/
def vlt [Cmp T] [Add T] [Sub T] [Zero T] (lhs rhs : Vec T S) : Bool := vcompare lhs rhs 0 < 0

/-- vec.h:532-534 `operator<=`. -/
def vle [Cmp T] [Add T] [Sub T] [Zero T] (lhs rhs : Vec T S) : Bool := vcompare lhs rhs 0 ≤ 0

/-- vec.h:547-549 `operator>`. -/
def vgt [Cmp T] [Add T] [Sub T] [Zero T] (lhs rhs : Vec T S) : Bool := 0 < vcompare lhs rhs 0

/-- vec.h:563-565 `operator>=`. -/
def vge [Cmp T] [Add T] [Sub T] [Zero T] (lhs rhs : Vec T S) : Bool := 0 ≤ vcompare lhs rhs 0

/-- vec.h:579-589 `slice`; the `assert(offset <= S - RS)` is the argument `h`. -/
def vslice (RS : ℕ) (vector : Vec T S) (offset : ℕ) (h : offset + RS ≤ S) : Vec T RS :=
  fun i => vector ⟨i.val + offset, by omega⟩

/-! ### Component-wise functions -/

/-- vec.h:918-925 variadic vector `min`. -/
def vvmin [Cmp T] (lhs rhs : Vec T S) (rest : List (Vec T S)) : Vec T S :=
  fun i => vmin (lhs i) (rhs i :: rest.map (fun r => r i))

/-- vec.h:939-946 variadic vector `max`. -/
def vvmax [Cmp T] (lhs rhs : Vec T S) (rest : List (Vec T S)) : Vec T S :=
  fun i => vmax (lhs i) (rhs i :: rest.map (fun r => r i))

/-- vec.h:960-967 variadic vector `abs_min`. -/
def vabsMin [Cmp T] [Zero T] [Neg T] (lhs rhs : Vec T S) (rest : List (Vec T S)) : Vec T S :=
  fun i => absMin (lhs i) (rhs i :: rest.map (fun r => r i))

/-- vec.h:981-988 variadic vector `abs_max`. -/
def vabsMax [Cmp T] [Zero T] [Neg T] (lhs rhs : Vec T S) (rest : List (Vec T S)) : Vec T S :=
  fun i => absMax (lhs i) (rhs i :: rest.map (fun r => r i))

/-- vec.h:918-925 with two arguments. -/
def vmin2 [Cmp T] (lhs rhs : Vec T S) : Vec T S := vvmin lhs rhs []

/-- vec.h:939-946 with two arguments. -/
def vmax2 [Cmp T] (lhs rhs : Vec T S) : Vec T S := vvmax lhs rhs []

/-- vec.h:1001-1004 `clamp`. -/
def vclamp [Cmp T] (v minVal maxVal : Vec T S) : Vec T S := vmin2 (vmax2 v minVal) maxVal

/-- vec.h:1015-1021 `abs`. -/
def vabs [Cmp T] [Zero T] [Neg T] (v : Vec T S) : Vec T S := fun i => abs (v i)

/-- vec.h:1037-1043 `sign`. -/
def vsign [Cmp T] [Zero T] [One T] [Neg T] (v : Vec T S) : Vec T S := fun i => sign (v i)

/-- vec.h:1055-1062 `step`. -/
def vstep [Cmp T] [Zero T] [One T] (e v : Vec T S) : Vec T S := fun i => step (e i) (v i)

/-- vec.h:1075-1082 `smoothstep`. -/
def vsmoothstep [Cmp T] [Zero T] [One T] [Sub T] [Mul T] [Div T] [OfNat T 2] [OfNat T 3]
    (e0 e1 v : Vec T S) : Vec T S := fun i => smoothstep (e0 i) (e1 i) (v i)

/-- vec.h:1093-1099 `dot`: left-to-right accumulation starting from `0`. -/
def dot [Zero T] [Add T] [Mul T] (lhs rhs : Vec T S) : T :=
  Fin.foldl S (fun result i => result + lhs i * rhs i) 0

/-- vec.h:1109-1113 `cross`. -/
def cross [Sub T] [Mul T] (lhs rhs : Vec T 3) : Vec T 3 :=
  ![lhs 1 * rhs 2 - lhs 2 * rhs 1, lhs 2 * rhs 0 - lhs 0 * rhs 2, lhs 0 * rhs 1 - lhs 1 * rhs 0]

/-- vec.h:1123-1125 `squared_length`. -/
def squaredLength [Zero T] [Add T] [Mul T] (v : Vec T S) : T := dot v v

/-- vec.h:1396-1399 `squared_distance`. -/
def squaredDistance [Zero T] [Add T] [Sub T] [Mul T] (lhs rhs : Vec T S) : T :=
  squaredLength (lhs - rhs)

/-- vec.h:1188-1198 `swizzle`. -/
def swizzle (point : Vec T 3) (axis : ℕ) : Vec T 3 :=
  match axis with
  | 0 => ![point 1, point 2, point 0]
  | 1 => ![point 2, point 0, point 1]
  | _ => point

/-- vec.h:1209-1220 `unswizzle`. -/
def unswizzle (point : Vec T 3) (axis : ℕ) : Vec T 3 :=
  match axis with
  | 0 => ![point 2, point 0, point 1]
  | 1 => ![point 1, point 2, point 0]
  | _ => point

/-- vec.h:1257-1264 `is_zero`.  The loop returns at the first failing component, so it is the
conjunction over all components. -/
def visZero [Cmp T] [Zero T] [Neg T] (v : Vec T S) (epsilon : T) : Bool :=
  (List.finRange S).all fun i => isZero (v i) epsilon

/-- vec.h:1274-1281 `is_nan`. -/
def visNan [Cmp T] (v : Vec T S) : Bool := (List.finRange S).any fun i => isNan (v i)

/-- vec.h:1316-1319 `mix`. -/
def vmix [One T] [Sub T] [Add T] [Mul T] (lhs rhs f : Vec T S) : Vec T S :=
  (vfill S 1 - f) * lhs + f * rhs

/-- vec.h:1410-1413 `to_homogeneous_coords`. -/
def toHomogeneous [One T] (point : Vec T S) : Vec T (S + 1) := Fin.snoc point 1

/-- vec.h:1424-1431 `to_cartesian_coords`.  In the exact instance theorems assume that the last component
is not zero. -/
def toCartesian [Div T] (point : Vec T (S + 1)) : Vec T S :=
  fun i => point i.castSucc / point (Fin.last S)

/-- vec.h:1716-1730 `average` of a non-empty range (`assert(cur != end)`) given by its first element and
the rest; `get` is already applied. -/
def average [One T] [Add T] [Div T] (first : Vec T S) (rest : List (Vec T S)) : Vec T S :=
  let s := rest.foldl (fun (acc : Vec T S × T) p => (acc.1 + p, acc.2 + 1)) (first, 1)
  vdivs s.1 s.2

/-- vec.h:1444-1462 `is_colinear`: one loop accumulating `j`, `k` and `l`. -/
def isColinear [Cmp T] [Zero T] [Neg T] [Add T] [Sub T] [Mul T] (a b c : Vec T S) (epsilon : T) :
    Bool :=
  let jkl : T × T × T := Fin.foldl S (fun (acc : T × T × T) i =>
    let ac := a i - c i
    let ba := b i - a i
    (acc.1 + ac * ba, acc.2.1 + ac * ac, acc.2.2 + ba * ba)) (0, 0, 0)
  isZero (jkl.1 * jkl.1 - jkl.2.1 * jkl.2.2) epsilon

/-! ### Rounding, component-wise with undefined behaviour as `none` -/

section exact
variable {K : Type u} [Field K] [LinearOrder K] [IsStrictOrderedRing K] [FloorRing K]

/-- The loops `result[i] = f(v[i])` of vec.h:1333-1358 and vec.h:1511-1647 for a component function
that may be undefined: the call is defined iff all components are. -/
def vmapUB (f : Fin S → Option K) : Option (Vec K S) :=
  if h : ∀ i, (f i).isSome then some fun i => (f i).get (h i) else none

/-- vec.h:1333-1339 `fract`. -/
def vfract (v : Vec K S) : Option (Vec K S) := vmapUB fun i => fract (v i)
/-- vec.h:1351-1358 `mod`. -/
def vmod (v f : Vec K S) : Option (Vec K S) := vmapUB fun i => mod (v i) (f i)
/-- vec.h:1511-1518 `floor`. -/
def vfloor (v : Vec K S) : Option (Vec K S) := vmapUB fun i => floor (v i)
/-- vec.h:1529-1536 `ceil`. -/
def vceil (v : Vec K S) : Option (Vec K S) := vmapUB fun i => ceil (v i)
/-- vec.h:1547-1553 `trunc`. -/
def vtrunc (v : Vec K S) : Option (Vec K S) := vmapUB fun i => trunc (v i)
/-- vec.h:1564-1570 `round`. -/
def vround (v : Vec K S) : Option (Vec K S) := vmapUB fun i => round (v i)
/-- vec.h:1582-1589 `snapDown`. -/
def vsnapDown (v m : Vec K S) : Option (Vec K S) := vmapUB fun i => snapDown (v i) (m i)
/-- vec.h:1601-1608 `snapUp`. -/
def vsnapUp (v m : Vec K S) : Option (Vec K S) := vmapUB fun i => snapUp (v i) (m i)
/-- vec.h:1619-1626 `snap`. -/
def vsnap (v m : Vec K S) : Option (Vec K S) := vmapUB fun i => snap (v i) (m i)
/-- vec.h:1638-1647 `correct`. -/
def vcorrect (v : Vec K S) (decimals : ℕ) (epsilon : K) : Option (Vec K S) :=
  vmapUB fun i => correct (v i) decimals epsilon

/-- vec.h:1293-1301 `is_integral`; `none` if a call of `round` before the first failing component is
undefined. -/
def visIntegral (v : Vec K S) (epsilon : K) : Option Bool :=
  (List.finRange S).foldr (fun i rest =>
    (round (v i)).bind fun r => if epsilon < abs (v i - r) then some false else rest) (some true)

end exact

/-! ### Functions that need square roots or trigonometry: exact real arithmetic -/

section real

/-- vec.h:1135-1137 `length`. -/
noncomputable def length (v : Vec ℝ S) : ℝ := Real.sqrt (squaredLength v)

/-- vec.h:1159-1161 `normalize`: `vec / length(vec)`.  For the zero vector every component is `0/0`,
i.e. the result is NaN in every component, modelled as `none`. -/
noncomputable def normalize (v : Vec ℝ S) : Option (Vec ℝ S) :=
  if length v = 0 then none else some (vdivs v (length v))

/-- vec.h:1369-1371 `distance`. -/
noncomputable def distance (lhs rhs : Vec ℝ S) : ℝ := length (lhs - rhs)

/-- vec.h:1231-1233 `is_unit`. -/
noncomputable def isUnit (v : Vec ℝ S) (epsilon : ℝ) : Bool := isEqual (length v) 1 epsilon

/-- vec.h:1475-1480 `is_parallel`.  If an argument is the zero vector then `cos` is NaN and the
comparison in `is_equal` is false. -/
noncomputable def isParallel (lhs rhs : Vec ℝ S) (epsilon : ℝ) : Bool :=
  match normalize lhs, normalize rhs with
  | some l, some r => isEqual (abs (dot l r)) 1 epsilon
  | _, _ => false

/-- vec.h:1662-1675 `is_between` (the `assert(is_colinear(..))` is a hypothesis of theorems).
`normalize(toStart)` cannot be NaN since `p == start` returns before; the model keeps the NaN case,
whose comparison `d < 0` is false. -/
noncomputable def isBetween (p start end_ : Vec ℝ S) : Bool :=
  if veq p start || veq p end_ then true
  else
    let toStart := start - p
    let toEnd := end_ - p
    match normalize toStart with
    | some n => decide (dot toEnd n < 0)
    | none => false

/-- vec.h:1743-1754 `measure_angle`.  Simplification: `constants<T>::two_pi()` is exactly `2π`. -/
noncomputable def measureAngle (v axis up : Vec ℝ 3) : ℝ :=
  let cosAngle := clamp (dot v axis) (-1) 1
  let angle := Real.arccos cosAngle
  let perp := cross axis v
  if 0 ≤ dot perp up then angle else 2 * Real.pi - angle

end real

end vm
