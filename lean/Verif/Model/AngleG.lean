import Verif.Model.Quat

/-! Angles between vectors and quaternions from and to angles, for an arbitrary number type.  `Model/Vec.lean` and `Model/Quat.lean` have them over
the real numbers; here the trigonometric functions are parameters, so that they can be used with floating point numbers. -/

namespace vm

variable {T : Type*}

/-- vec.h:1743-1754 `measure_angle`; `acos` stands for `std::acos`, `twoPi` for `constants<T>::two_pi()`. -/
def measureAngleG [Cmp T] [Zero T] [One T] [Neg T] [Add T] [Sub T] [Mul T] (acos : T → T) (twoPi : T) (v axis up : Vec T 3) : T :=
  let cosAngle := clamp (dot v axis) (-1) 1
  let angle := acos cosAngle
  let perp := cross axis v
  if Cmp.le 0 (dot perp up) then angle else twoPi - angle

/-- quat.h:84 constructor from axis and angle, quat.h:117-121 `set_rotation` (the assertion that the axis is a unit vector is a hypothesis of
theorems); `sin` and `cos` stand for `std::sin` and `std::cos`. -/
def Quat.ofAxisAngleG [Mul T] [Div T] [OfNat T 2] (sin cos : T → T) (axis : Vec T 3) (angle : T) : Quat T :=
  ⟨cos (angle / 2), vscale axis (sin (angle / 2))⟩

/-- quat.h:129 `angle`; `acos` stands for `std::acos`. -/
def Quat.angleG [Mul T] [OfNat T 2] (acos : T → T) (q : Quat T) : T := 2 * acos q.r

end vm
