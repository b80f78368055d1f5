import Verif.Model.Sort

/-!
# Model of convex_hull.h

Points are lists of vectors; `x()` and `y()` of a (swizzled) point are its components 0 and 1.  `std::sort` is a
parameter: a function that takes the comparator and the list.  The theorems hold for every such function that meets the
specification `StdSort`, that is, for every outcome the standard library may produce.
-/

universe u

namespace vm
variable {T : Type u}

/-- convex_hull.h:39-49 `is_left`. -/
def isLeft [Cmp T] [Zero T] [Sub T] [Mul T] (p1 p2 p3 : Vec T 3) : Int :=
  let result := (p2 0 - p1 0) * (p3 1 - p1 1) - (p3 0 - p1 0) * (p2 1 - p1 1)
  if Cmp.lt result 0 then -1 else if Cmp.lt 0 result then 1 else 0

/-- convex_hull.h:61-78 `less_than_by_angle::operator()`. -/
def lessThanByAngle [Cmp T] [Zero T] [Neg T] [Sub T] [Mul T] (anchor lhs rhs : Vec T 3) : Bool :=
  let side := isLeft anchor lhs rhs
  if side > 0 then true
  else if side < 0 then false
  else
    let dxl := abs (lhs 0 - anchor 0)
    let dxr := abs (rhs 0 - anchor 0)
    if Cmp.eq dxl dxr then
      let dyl := abs (lhs 1 - anchor 1)
      let dyr := abs (rhs 1 - anchor 1)
      Cmp.lt dyr dyl
    else Cmp.lt dxr dxl

/-- convex_hull.h:114-120 `find_linearly_independent_point`, returning the point; `none` if the index reaches the end.
`epsilon` is the default argument of `is_colinear`. -/
def findLinearlyIndependentPoint [Cmp T] [Zero T] [Neg T] [Add T] [Sub T] [Mul T] (epsilon : T) (p0 p1 : Vec T 3)
    (rest : List (Vec T 3)) : Option (Vec T 3) :=
  rest.find? fun p => !(isColinear p0 p1 p epsilon)

/-- convex_hull.h:122-125 `compute_axis`. -/
def computeAxis [Cmp T] [Zero T] [Neg T] [Sub T] [Mul T] (p0 p1 third : Vec T 3) (junk : ℕ → T × ℕ) : ℕ :=
  findAbsMaxComponent (cross (third - p0) (p1 - p0)) 0 junk

/-- convex_hull.h:140-147, the index of the anchor.  All indices are within the list. -/
def findAnchorIndex [Cmp T] [Zero T] (points : List (Vec T 3)) : ℕ :=
  (List.range' 1 (points.length - 1)).foldl (fun anchor i =>
    let p := points.getD i fun _ => 0
    let q := points.getD anchor fun _ => 0
    if Cmp.lt (p 1) (q 1) || (Cmp.eq (p 1) (q 1) && Cmp.lt (q 0) (p 0)) then i else anchor) 0

/-- convex_hull.h:139-153 `find_anchor`: exchange the first point with the anchor (a no-op if it is the first). -/
def findAnchor [Cmp T] [Zero T] (points : List (Vec T 3)) : List (Vec T 3) :=
  let anchor := findAnchorIndex points
  if anchor > 0 then
    (points.set 0 (points.getD anchor fun _ => 0)).set anchor (points.getD 0 fun _ => 0)
  else points

/-- convex_hull.h:159-171, the removal of duplicates, with the current point `p1` and the remaining points. -/
def dedupe [Cmp T] [Zero T] [Sub T] [Mul T] (anchor p1 : Vec T 3) : List (Vec T 3) → List (Vec T 3)
  | [] => [p1]
  | p2 :: rest =>
    if isLeft anchor p1 p2 = 0 then dedupe anchor p1 rest else p1 :: dedupe anchor p2 rest

/-- convex_hull.h:155-172 `sort_points`. -/
def sortPoints [Cmp T] [Zero T] [Neg T] [Sub T] [Mul T]
    (stdSort : (Vec T 3 → Vec T 3 → Bool) → List (Vec T 3) → List (Vec T 3)) : List (Vec T 3) → List (Vec T 3)
  | [] => []
  | anchor :: rest =>
    match stdSort (lessThanByAngle anchor) rest with
    | [] => [anchor]
    | p1 :: tail => anchor :: dedupe anchor p1 tail

/-- convex_hull.h:191-201 `pop_stale_points`.  The top of the stack is the head of the list. -/
def popStalePoints [Cmp T] [Zero T] [Sub T] [Mul T] (p : Vec T 3) : List (Vec T 3) → List (Vec T 3)
  | t2 :: t1 :: stack =>
    if isLeft t1 t2 p < 0 then popStalePoints p (t1 :: stack) else t2 :: t1 :: stack
  | stack => stack

/-- convex_hull.h:174-189 `build_hull` (called with at least three points; the assertion at the end is part of the
theorems).  The stack has its top at the head, so it is reversed at the end. -/
def buildHull [Cmp T] [Zero T] [Sub T] [Mul T] : List (Vec T 3) → List (Vec T 3)
  | p0 :: p1 :: rest => (rest.foldl (fun stack p => p :: popStalePoints p stack) [p1, p0]).reverse
  | points => points

/-- convex_hull.h:84-111 the constructor and `result()`, and 214-218 `convex_hull`. -/
def convexHullPoints [Cmp T] [Zero T] [Neg T] [Add T] [Sub T] [Mul T]
    (stdSort : (Vec T 3 → Vec T 3 → Bool) → List (Vec T 3) → List (Vec T 3)) (epsilon : T) (junk : ℕ → T × ℕ)
    (points : List (Vec T 3)) : List (Vec T 3) :=
  match points with
  | p0 :: p1 :: p2 :: rest =>
    match findLinearlyIndependentPoint epsilon p0 p1 (p2 :: rest) with
    | none => []
    | some third =>
      let axis := computeAxis p0 p1 third junk
      let swizzled := (p0 :: p1 :: p2 :: rest).map fun p => swizzle p axis
      let sorted := sortPoints stdSort (findAnchor swizzled)
      if sorted.length ≤ 2 then []
      else (buildHull sorted).map fun p => unswizzle p axis
  | _ => []

end vm
