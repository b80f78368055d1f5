import Verif.Model.Vec
import Mathlib.Data.Fin.Tuple.Basic
import Mathlib.LinearAlgebra.Matrix.Notation

/-!
# Model of mat.h

`mat<T,R,C>` stores `C` columns of type `vec<T,R>`; `m[c][r]` is row `r` of column `c`.  The model is
`Fin C → Fin R → T` with the same index order.  Unary and binary `+`, `-` (mat.h:428-486) are the
pointwise operations of function types.
-/

universe u

namespace vm

/-- mat.h:34-40 `mat<T,R,C>`: an array of `C` columns. -/
abbrev Mat (T : Type u) (R C : ℕ) := Fin C → Fin R → T

variable {T : Type u} {R C : ℕ}

/-- mat.h:48-55 default constructor and mat.h:165-168 `identity`. -/
def matId [Zero T] [One T] (R C : ℕ) : Mat T R C := fun c r => if c.val = r.val then 1 else 0

/-- mat.h:70-78 and mat.h:89-98: the constructors that take the elements in row-major order;
`t[c + C * r]`. -/
def matOfRowMajor (R C : ℕ) (t : Fin (R * C) → T) : Mat T R C :=
  fun c r => t ⟨c.val + C * r.val, by
    have h1 := c.isLt; have h2 := r.isLt
    calc c.val + C * r.val < C + C * r.val := by omega
      _ = C * (r.val + 1) := by rw [Nat.mul_add, Nat.mul_one, Nat.add_comm]
      _ ≤ C * R := Nat.mul_le_mul_left C h2
      _ = R * C := Nat.mul_comm C R⟩

/-- mat.h:109-116 converting constructor; `cast` is `static_cast<T>`. -/
def mconvert {U : Type u} (cast : U → T) (other : Mat U R C) : Mat T R C := fun c r => cast (other c r)

/-- mat.h:151-159 `fill`. -/
def mfill (R C : ℕ) (value : T) : Mat T R C := fun _ _ => value

/-- mat.h:650-654 `set`; the `assert` is the index type. -/
def mset (m : Mat T R C) (r : Fin R) (c : Fin C) (v : T) : Mat T R C :=
  Function.update m c (Function.update (m c) r v)

/-! ### Constant matrices -/
section constants
variable [Zero T] [One T] [Neg T]

/-- mat.h:182-187 `rot_90_x_cw`. -/
def rot90XCw : Mat T 4 4 := matOfRowMajor 4 4 ![1,0,0,0, 0,0,1,0, 0,-1,0,0, 0,0,0,1]
/-- mat.h:193-198 `rot_90_y_cw`. -/
def rot90YCw : Mat T 4 4 := matOfRowMajor 4 4 ![0,0,-1,0, 0,1,0,0, 1,0,0,0, 0,0,0,1]
/-- mat.h:204-209 `rot_90_z_cw`. -/
def rot90ZCw : Mat T 4 4 := matOfRowMajor 4 4 ![0,1,0,0, -1,0,0,0, 0,0,1,0, 0,0,0,1]
/-- mat.h:216-221 `rot_90_x_ccw`. -/
def rot90XCcw : Mat T 4 4 := matOfRowMajor 4 4 ![1,0,0,0, 0,0,-1,0, 0,1,0,0, 0,0,0,1]
/-- mat.h:228-233 `rot_90_y_ccw`. -/
def rot90YCcw : Mat T 4 4 := matOfRowMajor 4 4 ![0,0,1,0, 0,1,0,0, -1,0,0,0, 0,0,0,1]
/-- mat.h:240-245 `rot_90_z_ccw`. -/
def rot90ZCcw : Mat T 4 4 := matOfRowMajor 4 4 ![0,-1,0,0, 1,0,0,0, 0,0,1,0, 0,0,0,1]
/-- mat.h:251-256 `rot_180_x`. -/
def rot180X : Mat T 4 4 := matOfRowMajor 4 4 ![1,0,0,0, 0,-1,0,0, 0,0,-1,0, 0,0,0,1]
/-- mat.h:262-267 `rot_180_y`. -/
def rot180Y : Mat T 4 4 := matOfRowMajor 4 4 ![-1,0,0,0, 0,1,0,0, 0,0,-1,0, 0,0,0,1]
/-- mat.h:273-278 `rot_180_z`. -/
def rot180Z : Mat T 4 4 := matOfRowMajor 4 4 ![-1,0,0,0, 0,-1,0,0, 0,0,1,0, 0,0,0,1]
/-- mat.h:284-289 `mirror_x`. -/
def mirrorX : Mat T 4 4 := matOfRowMajor 4 4 ![-1,0,0,0, 0,1,0,0, 0,0,1,0, 0,0,0,1]
/-- mat.h:295-300 `mirror_y`. -/
def mirrorY : Mat T 4 4 := matOfRowMajor 4 4 ![1,0,0,0, 0,-1,0,0, 0,0,1,0, 0,0,0,1]
/-- mat.h:306-311 `mirror_z`. -/
def mirrorZ : Mat T 4 4 := matOfRowMajor 4 4 ![1,0,0,0, 0,1,0,0, 0,0,-1,0, 0,0,0,1]
/-- mat.h:320-324 `zero_out<E>`. -/
def zeroOut (S : ℕ) (E : Fin S) : Mat T S S := mset (matId S S) E E 0
end constants

/-! ### Comparison -/

/-- mat.h:343-352 `compare`: column by column. -/
def mcompare [Cmp T] [Add T] [Sub T] (lhs rhs : Mat T R C) (epsilon : T) : Int :=
  ((List.finRange C).findSome? fun c =>
    let cmp := vcompare (lhs c) (rhs c) epsilon
    if cmp ≠ 0 then some cmp else none).getD 0

/-- mat.h:366-368 `is_equal`. -/
def misEqual [Cmp T] [Add T] [Sub T] (lhs rhs : Mat T R C) (epsilon : T) : Bool :=
  mcompare lhs rhs epsilon == 0

/-- mat.h:381-388 `is_zero`. -/
def misZero [Cmp T] [Zero T] [Neg T] (m : Mat T R C) (epsilon : T) : Bool :=
  (List.finRange C).all fun c => visZero (m c) epsilon

/-- mat.h:401-403 `operator==`. -/
def meq [Cmp T] [Add T] [Sub T] [Zero T] (lhs rhs : Mat T R C) : Bool := mcompare lhs rhs 0 == 0

/-- mat.h:416-418 `operator!=`. -/
def mne [Cmp T] [Add T] [Sub T] [Zero T] (lhs rhs : Mat T R C) : Bool := mcompare lhs rhs 0 != 0

/-! ### Arithmetic -/

/-- mat.h:501-511 matrix times matrix; `result[c][r]` is accumulated from zero over `i`. -/
def mmul [Zero T] [Add T] [Mul T] {R1 C1R2 C2 : ℕ} (lhs : Mat T R1 C1R2) (rhs : Mat T C1R2 C2) :
    Mat T R1 C2 :=
  fun c r => Fin.foldl C1R2 (fun acc i => acc + lhs i r * rhs c i) 0

/-- mat.h:524-530 matrix times scalar (and mat.h:543-545, which calls it). -/
def mscale [Mul T] (lhs : Mat T R C) (rhs : T) : Mat T R C := fun c => vscale (lhs c) rhs

/-- mat.h:558-564 matrix divided by scalar. -/
def mdivs [Div T] (lhs : Mat T R C) (rhs : T) : Mat T R C := fun c => vdivs (lhs c) rhs

/-- mat.h:577-583 row vector times matrix, for a square matrix: `result[c] = dot(lhs, rhs[c])`.
Simplification: the result type in C++ is `vec<T,R>`; for `C > R` the loop writes out of bounds and for
`C < R` the last components stay zero; those cases are `vmulMatG` in Model/Named.lean. -/
def vmulMat [Zero T] [Add T] [Mul T] {S : ℕ} (lhs : Vec T S) (rhs : Mat T S S) : Vec T S :=
  fun c => dot lhs (rhs c)

/-- mat.h:596-604 matrix times column vector.  Square matrices only: for others the function does not
compile (it returns a `vec<T,C>` as a `vec<T,R>`). -/
def mmulVec [Zero T] [Add T] [Mul T] {S : ℕ} (lhs : Mat T S S) (rhs : Vec T S) : Vec T S :=
  fun r => Fin.foldl S (fun acc c => acc + lhs c r * rhs c) 0

/-- mat.h:617-619 matrix times point in homogeneous coordinates.  In the exact instance theorems assume
that the last homogeneous coordinate of the product is not zero. -/
def mmulPoint [Zero T] [One T] [Add T] [Mul T] [Div T] {S : ℕ} (lhs : Mat T (S + 1) (S + 1))
    (rhs : Vec T S) : Vec T S :=
  toCartesian (mmulVec lhs (toHomogeneous rhs))

/-- mat.h:632-634 point times matrix in homogeneous coordinates. -/
def pointMulMat [Zero T] [One T] [Add T] [Mul T] [Div T] {S : ℕ} (lhs : Vec T S)
    (rhs : Mat T (S + 1) (S + 1)) : Vec T S :=
  toCartesian (vmulMat (toHomogeneous lhs) rhs)

/-! ### Structure -/

/-- mat.h:666-674 `transpose`, for square matrices (the copy `mat<T,C,R> result(m)` only compiles for
`R = C`): swaps `result[c][r]` and `result[r][c]` for all `c < r`, column by column. -/
def transpose {S : ℕ} (m : Mat T S S) : Mat T S S :=
  (List.finRange S).foldl (fun m c =>
    ((List.finRange S).filter (c < ·)).foldl (fun m r => mset (mset m r c (m r c)) c r (m c r)) m) m

/-- mat.h:690-700 `slice`; the assertions are the arguments `hr`, `hc`. -/
def mslice (RR RC : ℕ) (m : Mat T R C) (r c : ℕ) (hr : r + RR ≤ R) (hc : c + RC ≤ C) : Mat T RR RC :=
  fun col row => m ⟨col.val + c, by omega⟩ ⟨row.val + r, by omega⟩

/-- mat.h:715-733 `extract_minor`.  The two counters `minC`, `minR` run through the indices that are not
skipped in increasing order, which is `Fin.succAbove`. -/
def extractMinor (m : Mat T (R + 1) (C + 1)) (row : Fin (R + 1)) (col : Fin (C + 1)) : Mat T R C :=
  fun c r => m (col.succAbove c) (row.succAbove r)

/-- mat.h:744-790 `matrix_determinant<T,S>` with its specialisations for 1, 2 and 3, and mat.h:801-803
`compute_determinant`.  The size is `n + 1` because size zero does not compile. -/
def computeDeterminant [Zero T] [One T] [Neg T] [Add T] [Sub T] [Mul T] :
    (n : ℕ) → Mat T (n + 1) (n + 1) → T
  | 0, m => m 0 0
  | 1, m => m 0 0 * m 1 1 - m 1 0 * m 0 1
  | 2, m =>
    m 0 0 * m 1 1 * m 2 2 + m 1 0 * m 2 1 * m 0 2 + m 2 0 * m 0 1 * m 1 2
      - m 2 0 * m 1 1 * m 0 2 - m 1 0 * m 0 1 * m 2 2 - m 0 0 * m 2 1 * m 1 2
  | n + 3, m =>
    Fin.foldl (n + 4) (fun result r =>
      let f : T := if r.val % 2 = 0 then 1 else -1
      result + f * m 0 r * computeDeterminant (n + 2) (extractMinor m r 0)) 0

/-- mat.h:814-824 `compute_adjugate`: assigns `result[r][c]` from the minor without row `r` and column
`c`.  The size is `n + 2` because the minors of a 1 by 1 matrix do not compile. -/
def computeAdjugate [Zero T] [One T] [Neg T] [Add T] [Sub T] [Mul T] {n : ℕ}
    (m : Mat T (n + 2) (n + 2)) : Mat T (n + 2) (n + 2) :=
  fun r c =>
    let f : T := if (c.val + r.val) % 2 = 0 then 1 else -1
    f * computeDeterminant n (extractMinor m r c)

/-! ### LUP decomposition -/
section lup
variable {K : Type u} {S : ℕ}

/-- mat.h:861 the literal `1.0e-15`.  Simplification: the exact decimal value. -/
def lupThreshold (K : Type u) [Field K] : K := 1 / 10 ^ 15

/-- mat.h:861 the test `p < 1.0e-15`.  The literal is a `double` whatever the component type is, so the test is not an operation of the
component type. -/
class LupSmall (K : Type u) where
  /-- `p < 1.0e-15` -/
  small : K → Bool

/-- mat.h:861 `p < 1.0e-15` in exact arithmetic. -/
instance (priority := low) exactLupSmall [Field K] [LinearOrder K] : LupSmall K where
  small p := decide (p < lupThreshold K)

/-- mat.h:853-860 pivot search: the largest magnitude in column `k` from row `k` on and the first row
where it occurs; `kPrime` starts as 0 and `p` as 0. -/
def lupPivot [Cmp K] [Zero K] [Neg K] (a : Mat K S S) (k : Fin S) : K × Fin S :=
  ((List.finRange S).filter (k ≤ ·)).foldl
    (fun acc i => if Cmp.lt acc.1 (abs (a k i)) then (abs (a k i), i) else acc) (0, ⟨0, k.pos⟩)

/-- constexpr_util.h:35-39 `swap` of two elements of an array. -/
def swapElems {α : Type u} {n : ℕ} (v : Fin n → α) (i j : Fin n) : Fin n → α :=
  Function.update (Function.update v i (v j)) j (v i)

/-- mat.h:865-867 swap rows `k` and `kPrime` in every column. -/
def lupSwapRows (a : Mat K S S) (k k' : Fin S) : Mat K S S :=
  (List.finRange S).foldl (fun a i => Function.update a i (swapElems (a i) k k')) a

/-- mat.h:868-873 elimination step. -/
def lupEliminate [Sub K] [Mul K] [Div K] (a : Mat K S S) (k : Fin S) : Mat K S S :=
  ((List.finRange S).filter (k < ·)).foldl (fun a i =>
    let a := mset a i k (a k i / a k k)
    ((List.finRange S).filter (k < ·)).foldl (fun a j => mset a i j (a j i - a k i * a j k)) a) a

/-- mat.h:852-874 one iteration of the main loop; `none` is the failing `return`. -/
def lupStep [LupSmall K] [Cmp K] [Zero K] [Neg K] [Sub K] [Mul K] [Div K] (st : Mat K S S × (Fin S → Fin S)) (k : Fin S) :
    Option (Mat K S S × (Fin S → Fin S)) :=
  let pk := lupPivot st.1 k
  if LupSmall.small pk.1 then none
  else some (lupEliminate (lupSwapRows st.1 k pk.2) k,
    Function.update (Function.update st.2 k (st.2 pk.2)) pk.2 (st.2 k))

/-- mat.h:847-876 `lup_find_decomposition`; `none` is failure. -/
def lupFindDecomposition [LupSmall K] [Cmp K] [Zero K] [Neg K] [Sub K] [Mul K] [Div K] (a : Mat K S S) :
    Option (Mat K S S × (Fin S → Fin S)) :=
  (List.finRange S).foldlM lupStep (a, fun i => i)

/-- mat.h:895-901 forward substitution. -/
def lupForward [Zero K] [Add K] [Sub K] [Mul K] (lu : Mat K S S) (pi : Fin S → Fin S) (b : Vec K S) : Vec K S :=
  (List.finRange S).foldl (fun y i =>
    Function.update y i (b (pi i) -
      ((List.finRange S).filter (· < i)).foldl (fun sum j => sum + lu j i * y j) 0)) 0

/-- mat.h:902-908 backward substitution (the index runs from `S-1` down to `0`). -/
def lupBackward [Zero K] [Add K] [Sub K] [Mul K] [Div K] (lu : Mat K S S) (y : Vec K S) : Vec K S :=
  (List.finRange S).reverse.foldl (fun x i =>
    Function.update x i ((y i -
      ((List.finRange S).filter (i < ·)).foldl (fun sum j => sum + lu j i * x j) 0) / lu i i)) 0

/-- mat.h:891-910 `lup_solve_internal`. -/
def lupSolveInternal [Zero K] [Add K] [Sub K] [Mul K] [Div K] (lu : Mat K S S) (pi : Fin S → Fin S) (b : Vec K S) : Vec K S :=
  lupBackward lu (lupForward lu pi b)

/-- mat.h:923-933 `lup_solve`: success flag and solution. -/
def lupSolve [LupSmall K] [Cmp K] [Zero K] [Neg K] [Add K] [Sub K] [Mul K] [Div K] (a : Mat K S S) (b : Vec K S) : Bool × Vec K S :=
  match lupFindDecomposition a with
  | none => (false, 0)
  | some d => (true, lupSolveInternal d.1 d.2 b)

/-- mat.h:948-966 `invert`: success flag and inverse. -/
def invert [LupSmall K] [Cmp K] [Zero K] [One K] [Neg K] [Add K] [Sub K] [Mul K] [Div K] (m : Mat K S S) : Bool × Mat K S S :=
  match lupFindDecomposition m with
  | none => (false, matId S S)
  | some d => (true, fun i => lupSolveInternal d.1 d.2 (vaxis S i))

end lup

end vm
