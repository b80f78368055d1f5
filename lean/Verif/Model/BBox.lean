import Verif.Model.Mat

/-!
# Model of bbox.h

The assertions `is_valid()` (bbox.h:139, 153, 168, 182, 250, 265, 275, 285, 301, 317, 334, 365, 381, 421,
444, 455) are hypotheses of the theorems, and theorems show that operations return valid boxes.
-/

universe u

namespace vm

/-- bbox.h:106-108 the two data members of `bbox<T,S>`. -/
structure BBox (T : Type u) (S : ℕ) where
  min : Vec T S
  max : Vec T S

/-- Used only to evaluate examples. -/
instance {T : Type u} {S : ℕ} [DecidableEq T] : DecidableEq (BBox T S) := fun a b =>
  decidable_of_iff (a.min = b.min ∧ a.max = b.max) (by cases a; cases b; simp)

variable {T : Type u} {S : ℕ}

namespace BBox

/-- bbox.h:114-116 default constructor. -/
def zero [Zero T] : BBox T S := ⟨vfill S 0, vfill S 0⟩

/-- bbox.h:164-168 constructor from two scalars. -/
def ofScalars (iMin iMax : T) : BBox T S := ⟨vfill S iMin, vfill S iMax⟩

/-- bbox.h:179-183 constructor from one scalar. -/
def ofScalar [Neg T] (iMinMax : T) : BBox T S := ⟨vfill S (-iMinMax), vfill S iMinMax⟩

/-- bbox.h:134-140 converting constructor; `cast` is `static_cast<T>`. -/
def convert {U : Type u} (cast : U → T) (other : BBox U S) : BBox T S :=
  ⟨fun i => cast (other.min i), fun i => cast (other.max i)⟩

/-- bbox.h:226-233 static `is_valid`. -/
def isValidPair [Cmp T] (min max : Vec T S) : Bool :=
  (List.finRange S).all fun i => !(Cmp.lt (max i) (min i))

/-- bbox.h:242 `is_valid`. -/
def isValid [Cmp T] (b : BBox T S) : Bool := isValidPair b.min b.max

/-- bbox.h:249-257 `is_empty`. -/
def isEmpty [Cmp T] (b : BBox T S) : Bool := (List.finRange S).any fun i => Cmp.le (b.max i) (b.min i)

/-- bbox.h:264-267 `center`. -/
def center [Add T] [Div T] [OfNat T 2] (b : BBox T S) : Vec T S := vdivs (b.min + b.max) 2

/-- bbox.h:274-277 `size`. -/
def size [Sub T] (b : BBox T S) : Vec T S := b.max - b.min

/-- bbox.h:284-292 `volume`; starts with the first component, so `S` is not zero. -/
def volume [Sub T] [Mul T] (b : BBox T (S + 1)) : T :=
  Fin.foldl S (fun result i => result * b.size i.succ) (b.size 0)

/-- bbox.h:300-308 `contains(point)`. -/
def contains [Cmp T] (b : BBox T S) (point : Vec T S) : Bool :=
  (List.finRange S).all fun i => !(Cmp.lt (point i) (b.min i) || Cmp.lt (b.max i) (point i))

/-- bbox.h:316-324 `contains(bbox)`. -/
def containsBox [Cmp T] (a b : BBox T S) : Bool :=
  (List.finRange S).all fun i => !(Cmp.lt (b.min i) (a.min i) || Cmp.lt (a.max i) (b.max i))

/-- bbox.h:333-341 `encloses`. -/
def encloses [Cmp T] (a b : BBox T S) : Bool :=
  (List.finRange S).all fun i => !(Cmp.le (b.min i) (a.min i) || Cmp.le (a.max i) (b.max i))

/-- bbox.h:349-356 `intersects`. -/
def intersects [Cmp T] (a b : BBox T S) : Bool :=
  (List.finRange S).all fun i => !(Cmp.lt (b.max i) (a.min i) || Cmp.lt (a.max i) (b.min i))

/-- bbox.h:364-367 `constrain`. -/
def constrain [Cmp T] (b : BBox T S) (point : Vec T S) : Vec T S := vmax2 b.min (vmin2 b.max point)

/-- bbox.h:369-372 `Corner`. -/
inductive Corner
  | min
  | max
deriving DecidableEq

/-- bbox.h:380-387 `corner(c[])` (and bbox.h:397-400 for three arguments). -/
def corner (b : BBox T S) (c : Fin S → Corner) : Vec T S :=
  fun i => if c i = Corner.min then b.min i else b.max i

/-- bbox.h:402-406 `Range`. -/
inductive Range
  | less
  | within
  | greater
deriving DecidableEq

/-- bbox.h:420-435 `relative_position`. -/
def relativePosition [Cmp T] (b : BBox T S) (point : Vec T S) : Fin S → Range :=
  fun i => if Cmp.lt (point i) (b.min i) then Range.less
    else if Cmp.lt (b.max i) (point i) then Range.greater else Range.within

/-- bbox.h:443-446 `expand`. -/
def expand [Add T] [Sub T] (b : BBox T S) (f : T) : BBox T S := ⟨b.min - vfill S f, b.max + vfill S f⟩

/-- bbox.h:454-457 `translate`. -/
def translate [Add T] (b : BBox T S) (delta : Vec T S) : BBox T S := ⟨b.min + delta, b.max + delta⟩

/-- bbox.h:578-580 `operator==`. -/
def beq [Cmp T] [Add T] [Sub T] [Zero T] (a b : BBox T S) : Bool := veq a.min b.min && veq a.max b.max

/-- bbox.h:592-594 `operator!=`. -/
def bne [Cmp T] [Add T] [Sub T] [Zero T] (a b : BBox T S) : Bool := vne a.min b.min || vne a.max b.max

/-- bbox.h:609-611 `is_equal`. -/
def isEqual [Cmp T] [Add T] [Sub T] (a b : BBox T S) (epsilon : T) : Bool :=
  visEqual a.min b.min epsilon && visEqual a.max b.max epsilon

/-- bbox.h:623-625 `repair`. -/
def repair [Cmp T] (b : BBox T S) : BBox T S := ⟨vmin2 b.min b.max, vmax2 b.min b.max⟩

/-- bbox.h:637-639 `merge(bbox, bbox)`. -/
def merge [Cmp T] (a b : BBox T S) : BBox T S := ⟨vmin2 a.min b.min, vmax2 a.max b.max⟩

/-- bbox.h:651-653 `merge(bbox, point)`. -/
def mergePoint [Cmp T] (a : BBox T S) (p : Vec T S) : BBox T S := ⟨vmin2 a.min p, vmax2 a.max p⟩

/-- bbox.h:666-674 `intersect`. -/
def intersect [Cmp T] [Zero T] (a b : BBox T S) : BBox T S :=
  let min := vmax2 a.min b.min
  let max := vmin2 a.max b.max
  if isValidPair min max then ⟨min, max⟩ else ⟨vfill S 0, vfill S 0⟩

/-- bbox.h:208-216 `merge_all` of a non-empty range; `get` is already applied. -/
def mergeAll [Cmp T] (first : Vec T S) (rest : List (Vec T S)) : BBox T S :=
  rest.foldl mergePoint ⟨first, first⟩

/-! ### Builder -/

/-- One call of `builder::add` (bbox.h:81-102). -/
inductive Add' (T : Type u) (S : ℕ)
  | point (p : Vec T S)
  | box (b : BBox T S)

/-- bbox.h:53-56 and bbox.h:189-193: the state of a new builder is the invalid box with minimum 1 and
maximum 0. -/
def builderInit [Zero T] [One T] : BBox T S := ⟨vfill S 1, vfill S 0⟩

/-- bbox.h:66 `initialized`. -/
def builderInitialized [Cmp T] (bounds : BBox T S) : Bool := bounds.isValid

/-- bbox.h:87-93 `add(point)` and bbox.h:98-104 `add(bbox)`. -/
def builderAdd [Cmp T] (bounds : BBox T S) : Add' T S → BBox T S
  | .point p => if !builderInitialized bounds then ⟨p, p⟩ else mergePoint bounds p
  | .box b => if !builderInitialized bounds then b else merge bounds b

/-- The bounds of a builder after a history of calls (bbox.h:61 `bounds`, and bbox.h:77-82 for ranges). -/
def builderRun [Cmp T] [Zero T] [One T] (history : List (Add' T S)) : BBox T S :=
  history.foldl builderAdd builderInit

/-! ### Enumerations, three dimensions only -/
section three
variable [Zero T] [One T] [Neg T] [Add T] [Sub T]

/-- bbox.h:483-486 the vectors `x`, `y`, `z` of the enumeration functions. -/
def ex (b : BBox T 3) : Vec T 3 := ![b.size 0, 0, 0]
/-- bbox.h:485. -/
def ey (b : BBox T 3) : Vec T 3 := ![0, b.size 1, 0]
/-- bbox.h:486. -/
def ez (b : BBox T 3) : Vec T 3 := ![0, 0, b.size 2]

/-- bbox.h:482-494 `for_each_face`: the list of argument tuples of the calls of `op`: four vertices and
the normal. -/
def faces (b : BBox T 3) : List ((Fin 4 → Vec T 3) × Vec T 3) :=
  let x := b.ex
  let y := b.ey
  let z := b.ez
  [(![b.max, b.max - y, b.max - y - x, b.max - x], ![0, 0, 1]),
   (![b.min, b.min + x, b.min + x + y, b.min + y], ![0, 0, -1]),
   (![b.min, b.min + z, b.min + z + x, b.min + x], ![0, -1, 0]),
   (![b.max, b.max - x, b.max - x - z, b.max - z], ![0, 1, 0]),
   (![b.min, b.min + y, b.min + y + z, b.min + z], ![-1, 0, 0]),
   (![b.max, b.max - z, b.max - z - y, b.max - y], ![1, 0, 0])]

/-- bbox.h:503-526 `for_each_edge`. -/
def edges (b : BBox T 3) : List (Vec T 3 × Vec T 3) :=
  let x := b.ex
  let y := b.ey
  let z := b.ez
  [(b.max, b.max - y), (b.max - y, b.max - y - x), (b.max - y - x, b.max - x), (b.max - x, b.max),
   (b.min, b.min + x), (b.min + x, b.min + x + y), (b.min + x + y, b.min + y), (b.min + y, b.min),
   (b.min, b.min + z), (b.min + y, b.min + y + z), (b.min + x + y, b.min + x + y + z),
   (b.min + x, b.min + x + z)]

/-- bbox.h:534-551 `for_each_vertex` and bbox.h:558-565 `vertices`. -/
def vertices (b : BBox T 3) : List (Vec T 3) :=
  let x := b.ex
  let y := b.ey
  let z := b.ez
  [b.max, b.max - y, b.min + z, b.max - x, b.min, b.min + x, b.max - z, b.min + y]

/-- bbox.h:466-473 `transform`. -/
def transform [Cmp T] [Mul T] [Div T] (b : BBox T 3) (m : Mat T 4 4) : BBox T 3 :=
  builderRun (b.vertices.map fun v => Add'.point (mmulPoint m v))

end three
end BBox
end vm
