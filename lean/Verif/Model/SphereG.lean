import Verif.Model.Intersect

/-! `intersect_ray_sphere` of intersection.h for an arbitrary number type.  `Model/Intersect.lean` has it over the real numbers; here `sqrt` and
`nan` are parameters, so that it can be used with floating point numbers. -/

namespace vm

variable {T : Type*} {S : ℕ}

/-- intersection.h:430-453 `intersect_ray_sphere`; `sqrt` stands for `std::sqrt` and `nan` for `nan<T>()`. -/
def intersectRaySphereG [Cmp T] [Zero T] [OfNat T 2] [OfNat T 4] [Neg T] [Add T] [Sub T] [Mul T] [Div T] (sqrt : T → T) (nan : T) (r : Ray T S)
    (position : Vec T S) (radius : T) : T :=
  let diff := r.origin - position
  let p := 2 * dot diff r.direction
  let q := squaredLength diff - radius * radius
  let d := p * p - 4 * q
  if Cmp.lt d 0 then nan
  else
    let s := sqrt d
    let t0 := (-p + s) / 2
    let t1 := (-p - s) / 2
    if Cmp.lt t0 0 && Cmp.lt t1 0 then nan
    else if Cmp.lt 0 t0 && Cmp.lt 0 t1 then vmin t0 [t1]
    else vmax t0 [t1]

end vm
