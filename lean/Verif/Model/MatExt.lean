import Verif.Model.Mat
import Verif.Model.Quat
import Verif.Model.BBox
import Verif.Model.Sort
import Mathlib.Analysis.SpecialFunctions.Complex.Arg

/-!
# Model of mat_ext.h
-/

universe u

namespace vm
variable {T : Type u}

/-! ### Lists of vectors -/

/-- mat_ext.h:44-52 and mat_ext.h:65-73 matrix times a list (or array) of vectors. -/
def mmulVecs [Zero T] [Add T] [Mul T] {S : ℕ} (lhs : Mat T S S) (rhs : List (Vec T S)) : List (Vec T S) :=
  rhs.foldl (fun result v => result ++ [mmulVec lhs v]) []

/-- mat_ext.h:85-94 and mat_ext.h:107-115 matrix times a list (or array) of points. -/
def mmulPoints [Zero T] [One T] [Add T] [Mul T] [Div T] {S : ℕ} (lhs : Mat T (S + 1) (S + 1))
    (rhs : List (Vec T S)) : List (Vec T S) :=
  rhs.foldl (fun result v => result ++ [mmulPoint lhs v]) []

/-- mat_ext.h:127-135 and mat_ext.h:148-156 a list (or array) of vectors times a matrix. -/
def vecsMulMat [Zero T] [Add T] [Mul T] {S : ℕ} (lhs : List (Vec T S)) (rhs : Mat T S S) : List (Vec T S) :=
  lhs.foldl (fun result v => result ++ [vmulMat v rhs]) []

/-- mat_ext.h:168-177 and mat_ext.h:190-198 a list (or array) of points times a matrix. -/
def pointsMulMat [Zero T] [One T] [Add T] [Mul T] [Div T] {S : ℕ} (lhs : List (Vec T S))
    (rhs : Mat T (S + 1) (S + 1)) : List (Vec T S) :=
  lhs.foldl (fun result v => result ++ [pointMulMat v rhs]) []

/-! ### Affine matrices -/

/-- mat_ext.h:431-438 `translation_matrix(vec)`. -/
def translationMatrix [Zero T] [One T] {S : ℕ} (delta : Vec T S) : Mat T (S + 1) (S + 1) :=
  Fin.foldl S (fun m i => mset m i.castSucc (Fin.last S) (delta i)) (matId (S + 1) (S + 1))

/-- mat_ext.h:448-455 `translation_matrix(mat)`: keeps only the translation. -/
def translationPart [Zero T] [One T] {S : ℕ} (m : Mat T (S + 1) (S + 1)) : Mat T (S + 1) (S + 1) :=
  Fin.foldl S (fun result i => mset result i.castSucc (Fin.last S) (m (Fin.last S) i.castSucc))
    (matId (S + 1) (S + 1))

/-- mat_ext.h:465-472 `strip_translation`. -/
def stripTranslation [Zero T] {S : ℕ} (m : Mat T (S + 1) (S + 1)) : Mat T (S + 1) (S + 1) :=
  Fin.foldl S (fun result i => mset result i.castSucc (Fin.last S) 0) m

/-- mat_ext.h:482-489 `scaling_matrix`. -/
def scalingMatrix [Zero T] [One T] {S : ℕ} (factors : Vec T S) : Mat T (S + 1) (S + 1) :=
  Fin.foldl S (fun m i => mset m i.castSucc i.castSucc (factors i)) (matId (S + 1) (S + 1))

/-- mat_ext.h:498-509 `mirror_matrix`; `axis::type` is an unsigned integer. -/
def mirrorMatrix [Zero T] [One T] [Neg T] (axis : ℕ) : Mat T 4 4 :=
  match axis with
  | 0 => mirrorX
  | 1 => mirrorY
  | 2 => mirrorZ
  | _ => matId 4 4

/-- mat_ext.h:606-610 `shear_matrix`. -/
def shearMatrix [Zero T] [One T] (Sxy Sxz Syx Syz Szx Szy : T) : Mat T 4 4 :=
  matOfRowMajor 4 4 ![1, Syx, Szx, 0, Sxy, 1, Szy, 0, Sxz, Syz, 1, 0, 0, 0, 0, 1]

/-- mat_ext.h:269-281 `view_matrix`. -/
def viewMatrix [Zero T] [One T] [Neg T] [Sub T] [Mul T] (direction up : Vec T 3) : Mat T 4 4 :=
  let f := direction
  let s := cross f up
  let u := cross s f
  matOfRowMajor 4 4 ![s 0, s 1, s 2, 0, u 0, u 1, u 2, 0, -f 0, -f 1, -f 2, 0, 0, 0, 0, 1]

/-- mat_ext.h:243-258 `ortho_matrix`. -/
def orthoMatrix [Zero T] [One T] [OfNat T 2] [Neg T] [Add T] [Sub T] [Div T]
    (nearPlane farPlane left top right bottom : T) : Mat T 4 4 :=
  let width := right - left
  let height := top - bottom
  let depth := farPlane - nearPlane
  matOfRowMajor 4 4 ![2 / width, 0, 0, -(left + right) / width, 0, 2 / height, 0, -(top + bottom) / height,
    0, 0, -2 / depth, -(farPlane + nearPlane) / depth, 0, 0, 0, 1]

/-- mat_ext.h:390-407 `rotation_matrix(quat)`. -/
def rotationMatrixQuat [Zero T] [One T] [OfNat T 2] [Add T] [Sub T] [Mul T] (quat : Quat T) : Mat T 4 4 :=
  let x := quat.v 0
  let y := quat.v 1
  let z := quat.v 2
  let w := quat.r
  let x2 := x * x
  let y2 := y * y
  let z2 := z * z
  matOfRowMajor 4 4 ![1 - 2 * (y2 + z2), 2 * (x * y - z * w), 2 * (x * z + y * w), 0,
    2 * (x * y + z * w), 1 - 2 * (x2 + z2), 2 * (y * z - x * w), 0,
    2 * (x * z - y * w), 2 * (y * z + x * w), 1 - 2 * (x2 + y2), 0, 0, 0, 0, 1]

/-- mat_ext.h:613-618 `scale_bbox_matrix`.  `vec / vec` (vec.h:849-857) is the pointwise division. -/
def scaleBBoxMatrix [Zero T] [One T] [Neg T] [Add T] [Sub T] [Mul T] [Div T] (oldBBox newBBox : BBox T 3) :
    Mat T 4 4 :=
  let scaleFactors : Vec T 3 := fun i => newBBox.size i / oldBBox.size i
  mmul (mmul (translationMatrix newBBox.min) (scalingMatrix scaleFactors)) (translationMatrix (-oldBBox.min))

/-- mat_ext.h:621-627 `scale_bbox_matrix_with_anchor`. -/
def scaleBBoxMatrixWithAnchor [Zero T] [One T] [Neg T] [Add T] [Sub T] [Mul T] [Div T] (oldBBox : BBox T 3)
    (newSize anchorPoint : Vec T 3) : Mat T 4 4 :=
  let scaleFactors : Vec T 3 := fun i => newSize i / oldBBox.size i
  mmul (mmul (translationMatrix anchorPoint) (scalingMatrix scaleFactors)) (translationMatrix (-anchorPoint))

/-- mat_ext.h:630-674 `shear_bbox_matrix`; `none` if the assertion `didGrab` fails. -/
def shearBBoxMatrix [Cmp T] [Zero T] [One T] [Neg T] [Add T] [Sub T] [Mul T] [Div T] (box : BBox T 3)
    (sideToShear delta : Vec T 3) : Option (Mat T 4 4) :=
  let oldSize := box.size
  let shearMat : Mat T 4 4 :=
    if veq sideToShear (vaxis 3 0) then
      let relativeDelta := vdivs delta (oldSize 0)
      shearMatrix (relativeDelta 1) (relativeDelta 2) 0 0 0 0
    else if veq sideToShear (-vaxis 3 0) then
      let relativeDelta := vdivs delta (oldSize 0)
      shearMatrix (-relativeDelta 1) (-relativeDelta 2) 0 0 0 0
    else if veq sideToShear (vaxis 3 1) then
      let relativeDelta := vdivs delta (oldSize 1)
      shearMatrix 0 0 (relativeDelta 0) (relativeDelta 2) 0 0
    else if veq sideToShear (-vaxis 3 1) then
      let relativeDelta := vdivs delta (oldSize 1)
      shearMatrix 0 0 (-relativeDelta 0) (-relativeDelta 2) 0 0
    else if veq sideToShear (vaxis 3 2) then
      let relativeDelta := vdivs delta (oldSize 2)
      shearMatrix 0 0 0 0 (relativeDelta 0) (relativeDelta 1)
    else if veq sideToShear (-vaxis 3 2) then
      let relativeDelta := vdivs delta (oldSize 2)
      shearMatrix 0 0 0 0 (-relativeDelta 0) (-relativeDelta 1)
    else matId 4 4
  let vertOnOppositeSide := box.faces.foldl
    (fun acc f => if veq f.2 (-sideToShear) then some (f.1 0) else acc) none
  vertOnOppositeSide.map fun v =>
    mmul (mmul (translationMatrix v) shearMat) (translationMatrix (-v))

section field
variable {K : Type u} [Field K] [LinearOrder K]

/-- mat_ext.h:525-532 `coordinate_system_matrix`; `none` if the assertion fails. -/
def coordinateSystemMatrix (x y z o : Vec K 3) : Option (Mat K 4 4) :=
  let result := invert (matOfRowMajor 4 4 ![x 0, y 0, z 0, o 0, x 1, y 1, z 1, o 1, x 2, y 2, z 2, o 2,
    0, 0, 0, 1])
  if result.1 then some result.2 else none

/-- mat_ext.h:694-744 `points_transformation_matrix` for four points; `none` is the matrix of NaNs. -/
def pointsTransformationMatrix4 (onPlane0In onPlane1In onPlane2In offPlaneIn
    onPlane0Out onPlane1Out onPlane2Out offPlaneOut : Vec K 3) : Option (Mat K 4 4) :=
  let a := onPlane1In - onPlane0In
  let b := onPlane2In - onPlane0In
  let c := offPlaneIn - onPlane0In
  let vec0Out := onPlane1Out - onPlane0Out
  let vec1Out := onPlane2Out - onPlane0Out
  let vec2Out := offPlaneOut - onPlane0Out
  let B : Vec K 9 := ![vec0Out 0, vec0Out 1, vec0Out 2, vec1Out 0, vec1Out 1, vec1Out 2,
    vec2Out 0, vec2Out 1, vec2Out 2]
  let A : Mat K 9 9 := matOfRowMajor 9 9
    ![a 0, a 1, a 2, 0, 0, 0, 0, 0, 0,
      0, 0, 0, a 0, a 1, a 2, 0, 0, 0,
      0, 0, 0, 0, 0, 0, a 0, a 1, a 2,
      b 0, b 1, b 2, 0, 0, 0, 0, 0, 0,
      0, 0, 0, b 0, b 1, b 2, 0, 0, 0,
      0, 0, 0, 0, 0, 0, b 0, b 1, b 2,
      c 0, c 1, c 2, 0, 0, 0, 0, 0, 0,
      0, 0, 0, c 0, c 1, c 2, 0, 0, 0,
      0, 0, 0, 0, 0, 0, c 0, c 1, c 2]
  let s := lupSolve A B
  if s.1 then
    let X := s.2
    some (mmul (mmul (translationMatrix onPlane0Out) (matOfRowMajor 4 4
      ![X 0, X 1, X 2, 0, X 3, X 4, X 5, 0, X 6, X 7, X 8, 0, 0, 0, 0, 1])) (translationMatrix (-onPlane0In)))
  else none

end field

/-! ### Matrices that need square roots or trigonometry: exact real arithmetic -/
section real

/-- mat_ext.h:212-227 `perspective_matrix`. -/
noncomputable def perspectiveMatrix (fov nearPlane farPlane : ℝ) (width height : ℤ) : Mat ℝ 4 4 :=
  let vFrustum := Real.tan (toRadians Real.pi fov / 2) * (3 / 4) * nearPlane
  let hFrustum := vFrustum * width / height
  let depth := farPlane - nearPlane
  matOfRowMajor 4 4 ![nearPlane / hFrustum, 0, 0, 0, 0, nearPlane / vFrustum, 0, 0, 0, 0,
    -(farPlane + nearPlane) / depth, -2 * farPlane * nearPlane / depth, 0, 0, -1, 0]

/-- mat_ext.h:293-310 `rotation_matrix(roll, pitch, yaw)`. -/
noncomputable def rotationMatrixRPY (roll pitch yaw : ℝ) : Mat ℝ 4 4 :=
  let Cr := Real.cos roll
  let Sr := Real.sin roll
  let R : Mat ℝ 4 4 := matOfRowMajor 4 4 ![1, 0, 0, 0, 0, Cr, -Sr, 0, 0, Sr, Cr, 0, 0, 0, 0, 1]
  let Cp := Real.cos pitch
  let Sp := Real.sin pitch
  let P : Mat ℝ 4 4 := matOfRowMajor 4 4 ![Cp, 0, Sp, 0, 0, 1, 0, 0, -Sp, 0, Cp, 0, 0, 0, 0, 1]
  let Cy := Real.cos yaw
  let Sy := Real.sin yaw
  let Y : Mat ℝ 4 4 := matOfRowMajor 4 4 ![Cy, -Sy, 0, 0, Sy, Cy, 0, 0, 0, 0, 1, 0, 0, 0, 0, 1]
  mmul (mmul Y P) R

/-- `std::atan2` (used in mat_ext.h:331-340): the argument of the complex number `x + iy`.
Simplification: no signed zeros, so `atan2(0,0) = 0`. -/
noncomputable def atan2 (y x : ℝ) : ℝ := Complex.arg ⟨x, y⟩

/-- mat_ext.h:320-345 `rotation_matrix_to_euler_angles`; the result is `(roll, pitch, yaw)`. -/
noncomputable def toEulerAngles (rotMat : Mat ℝ 4 4) : Vec ℝ 3 :=
  if vm.abs (rotMat 0 2) ≠ 1 then
    let theta := -Real.arcsin (rotMat 0 2)
    let cosTheta := Real.cos theta
    let psi := atan2 (rotMat 1 2 / cosTheta) (rotMat 2 2 / cosTheta)
    let phi := atan2 (rotMat 0 1 / cosTheta) (rotMat 0 0 / cosTheta)
    ![psi, theta, phi]
  else if rotMat 0 2 = -1 then ![atan2 (rotMat 1 0) (rotMat 2 0), Real.pi / 2, 0]
  else ![atan2 (-rotMat 1 0) (-rotMat 2 0), -(Real.pi / 2), 0]

/-- mat_ext.h:356-379 `rotation_matrix(axis, angle)`. -/
noncomputable def rotationMatrixAxis (axis : Vec ℝ 3) (angle : ℝ) : Mat ℝ 4 4 :=
  let s := Real.sin (-angle)
  let c := Real.cos (-angle)
  let i := 1 - c
  let ix := i * axis 0
  let ix2 := ix * axis 0
  let ixy := ix * axis 1
  let ixz := ix * axis 2
  let iy := i * axis 1
  let iy2 := iy * axis 1
  let iyz := iy * axis 2
  let iz2 := i * axis 2 * axis 2
  let sx := s * axis 0
  let sy := s * axis 1
  let sz := s * axis 2
  matOfRowMajor 4 4 ![ix2 + c, ixy + sz, ixz - sy, 0, ixy - sz, iy2 + c, iyz + sx, 0,
    ixz + sy, iyz - sx, iz2 + c, 0, 0, 0, 0, 1]

/-- mat_ext.h:418-421 `rotation_matrix(from, to)`. -/
noncomputable def rotationMatrixFromTo (from_ to_ : Vec ℝ 3) : Option (Mat ℝ 4 4) :=
  (Quat.ofFromTo from_ to_).map rotationMatrixQuat

/-- mat_ext.h:545-569 `plane_projection_matrix`; `none` if an assertion fails or `normalize` divides by
zero.  `junk` is the indeterminate memory of `find_abs_max_component`. -/
noncomputable def planeProjectionMatrix (junk : ℕ → ℝ × ℕ) (distance : ℝ) (normal direction : Vec ℝ 3) :
    Option (Mat ℝ 4 4) :=
  let xAxis := normalize (if findAbsMaxComponent normal 0 junk = 0 then cross normal (vaxis 3 2)
    else cross normal (vaxis 3 0))
  xAxis.bind fun xAxis => (normalize (cross normal xAxis)).bind fun yAxis =>
    let zAxis := direction
    if isUnit xAxis Quat.almostZero && isUnit yAxis Quat.almostZero && isUnit zAxis Quat.almostZero then
      coordinateSystemMatrix xAxis yAxis zAxis (vscale normal distance)
    else none

/-- mat_ext.h:581-584 `plane_projection_matrix` along the normal. -/
noncomputable def planeProjectionMatrixOrtho (junk : ℕ → ℝ × ℕ) (distance : ℝ) (normal : Vec ℝ 3) :
    Option (Mat ℝ 4 4) :=
  planeProjectionMatrix junk distance normal normal

/-- mat_ext.h:762-775 `points_transformation_matrix` for three points.  `none` is the matrix of NaNs; if
`normalize` divides by zero, then NaNs enter the linear system: on the input side the pivots are NaN, on
the output side the solution is NaN, so entries of the result are NaN. -/
noncomputable def pointsTransformationMatrix3 (onPlane0In onPlane1In onPlane2In
    onPlane0Out onPlane1Out onPlane2Out : Vec ℝ 3) : Option (Mat ℝ 4 4) :=
  (normalize (cross (onPlane1In - onPlane0In) (onPlane2In - onPlane0In))).bind fun nIn =>
  (normalize (cross (onPlane1Out - onPlane0Out) (onPlane2Out - onPlane0Out))).bind fun nOut =>
    pointsTransformationMatrix4 onPlane0In onPlane1In onPlane2In (onPlane0In + nIn)
      onPlane0Out onPlane1Out onPlane2Out (onPlane0Out + nOut)

end real
end vm
