import Verif.Model.MatExt

/-! The rotation matrices of mat_ext.h that need trigonometry, for an arbitrary number type.  `Model/MatExt.lean` has them over the real numbers;
here `sin` and `cos` are parameters, so that they can be used with floating point numbers. -/

namespace vm

variable {T : Type*}

/-- mat_ext.h:293-310 `rotation_matrix(roll, pitch, yaw)`; `sin` and `cos` stand for `std::sin` and `std::cos`. -/
def rotationMatrixRPYG [Zero T] [One T] [Neg T] [Add T] [Mul T] (sin cos : T → T) (roll pitch yaw : T) : Mat T 4 4 :=
  let Cr := cos roll
  let Sr := sin roll
  let R : Mat T 4 4 := matOfRowMajor 4 4 ![1, 0, 0, 0, 0, Cr, -Sr, 0, 0, Sr, Cr, 0, 0, 0, 0, 1]
  let Cp := cos pitch
  let Sp := sin pitch
  let P : Mat T 4 4 := matOfRowMajor 4 4 ![Cp, 0, Sp, 0, 0, 1, 0, 0, -Sp, 0, Cp, 0, 0, 0, 0, 1]
  let Cy := cos yaw
  let Sy := sin yaw
  let Y : Mat T 4 4 := matOfRowMajor 4 4 ![Cy, -Sy, 0, 0, Sy, Cy, 0, 0, 0, 0, 1, 0, 0, 0, 0, 1]
  mmul (mmul Y P) R

/-- mat_ext.h:356-379 `rotation_matrix(axis, angle)`; `sin` and `cos` stand for `std::sin` and `std::cos`. -/
def rotationMatrixAxisG [Zero T] [One T] [Neg T] [Add T] [Sub T] [Mul T] (sin cos : T → T) (axis : Vec T 3) (angle : T) : Mat T 4 4 :=
  let s := sin (-angle)
  let c := cos (-angle)
  let i := 1 - c
  let ix := i * axis 0
  let ix2 := ix * axis 0
  let ixy := ix * axis 1
  let ixz := ix * axis 2
  let iy := i * axis 1
  let iy2 := iy * axis 1
  let iyz := iy * axis 2
  let iz2 := i * axis 2 * axis 2
  let sx := s * axis 0
  let sy := s * axis 1
  let sz := s * axis 2
  matOfRowMajor 4 4 ![ix2 + c, ixy + sz, ixz - sy, 0, ixy - sz, iy2 + c, iyz + sx, 0,
    ixz + sy, iyz - sx, iz2 + c, 0, 0, 0, 0, 1]

end vm
