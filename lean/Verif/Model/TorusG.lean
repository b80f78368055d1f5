import Verif.Model.QuarticG
import Verif.Model.Intersect

/-! `intersect_ray_torus` of intersection.h for an arbitrary number type.  `Model/Intersect.lean` has it over the real numbers. -/

namespace vm

variable {T : Type*} [Cmp T] [Zero T] [One T] [OfNat T 2] [OfNat T 3] [OfNat T 4] [OfNat T 8] [Neg T] [Add T] [Sub T] [Mul T] [Div T]

/-- intersection.h:480-494: the coefficients of the quartic equation. -/
def torusQuarticG (r : Ray T 3) (position : Vec T 3) (majorRadius minorRadius : T) : T × T × T × T × T :=
  let origin : Vec T 3 := fun i => r.origin i - position i
  let dd := dot r.direction r.direction
  let od := dot origin r.direction
  let oo := dot origin origin
  let MM := majorRadius * majorRadius
  let mm := minorRadius * minorRadius
  let dz := r.direction 2
  let oz := origin 2
  let omM := oo - mm - MM
  (dd * dd, 4 * dd * od, 2 * dd * omM + 4 * (od * od + MM * dz * dz), 4 * od * omM + 8 * MM * oz * dz,
    omM * omM - 4 * MM * (mm - oz * oz))

/-- intersection.h:496-514: the selection among the reported solutions. -/
def torusSelectG (nan : T) (s : ℕ × (Fin 4 → T)) : T :=
  if s.1 = 0 then nan
  else
    let pick (i : Fin 4) : T := if i.val < s.1 then (if Cmp.lt 0 (s.2 i) then s.2 i else nan) else s.2 i
    safeMin (pick 0) [pick 1, pick 2, pick 3]

/-- intersection.h:473-515 `intersect_ray_torus`; `almostZero` is `constants<T>::almost_zero()`, the other parameters are those of
`solveQuarticG`. -/
def intersectRayTorusG (sqrt cbrt acos cos : T → T) (pi nan : T) (lit : ℚ → T) (almostZero : T) (r : Ray T 3) (position : Vec T 3)
    (majorRadius minorRadius : T) : T :=
  match torusQuarticG r position majorRadius minorRadius with
  | (a, b, c, d, e) => torusSelectG nan (solveQuarticG sqrt cbrt acos cos pi nan lit a b c d e almostZero)

/-- intersection.h:473-515 `intersect_ray_torus` for a floating point type. -/
def intersectRayTorusF (P : BinPar) (sqrt cbrt acos cos : Flt P.fmt → Flt P.fmt) (r : Ray (Flt P.fmt) 3) (position : Vec (Flt P.fmt) 3)
    (majorRadius minorRadius : Flt P.fmt) : Flt P.fmt :=
  intersectRayTorusG sqrt cbrt acos cos P.pi Flt.nan P.literal P.almostZero r position majorRadius minorRadius

end vm
