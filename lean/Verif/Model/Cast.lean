import Verif.Model.Quat
import Verif.Model.Polygon
import Verif.Model.Flt

/-! Conversions between floating point types. -/

universe u

namespace vm

/-- `static_cast` from one floating point type to another, which the converting constructors apply to every component (vec.h:100-106, mat.h:109-116,
plane.h:66-68): the value is rounded to the target type, infinities and NaN are kept.  Simplification: a value beyond the range of the target type
becomes an infinity, as IEEE 754 requires; the C++ standard leaves this undefined if the implementation does not follow IEEE 754. -/
def Flt.cast {F G : Fmt} : Flt F → Flt G
  | .nan => .nan
  | .ninf => .ninf
  | .pinf => .pinf
  | .fin q _ => Flt.round q

variable {T : Type u} {S : ℕ}

/-- line.h:61-64 the converting constructor. -/
def Line.convert {U : Type u} (cast : U → T) (other : Line U S) : Line T S :=
  ⟨fun i => cast (other.point i), fun i => cast (other.direction i)⟩

/-- ray.h:68-71 the converting constructor. -/
def Ray.convert {U : Type u} (cast : U → T) (other : Ray U S) : Ray T S :=
  ⟨fun i => cast (other.origin i), fun i => cast (other.direction i)⟩

/-- plane.h:65-68 the converting constructor. -/
def Plane.convert {U : Type u} (cast : U → T) (other : Plane U S) : Plane T S :=
  ⟨cast other.distance, fun i => cast (other.normal i)⟩

end vm
