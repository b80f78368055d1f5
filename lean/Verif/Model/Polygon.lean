import Verif.Model.Geom

/-!
# Model of polygon.h

`std::vector` is a list.  `rbegin`/`rend` (polygon.h:156-163) return the *forward* iterators, i.e. the
same sequence as `begin`/`end`.
-/

universe u

namespace vm
variable {T : Type u} {S : ℕ}

/-- `std::min_element` with `operator<` (used in polygon.h:86): position of the first least element,
`smallest`/`si` being the current candidate and its position and `i` the position of the next element. -/
def minElement {α : Type u} (lt : α → α → Bool) (smallest : α) (si i : ℕ) : List α → ℕ
  | [] => si
  | v :: vs => if lt v smallest then minElement lt v i (i + 1) vs else minElement lt smallest si (i + 1) vs

/-- polygon.h:33-40 `polygon`: the vertex list `m_vertices`. -/
@[ext] structure Polygon (T : Type u) (S : ℕ) where
  /-- `vertices()`, polygon.h:170; also the range `begin()`..`end()`, polygon.h:142-149 -/
  vertices : List (Vec T S)

namespace Polygon

/-- polygon.h:82-90 `rotate_min_to_front`; `std::rotate(begin, min, end)` moves `[min, end)` to the front. -/
def rotateMinToFront [Cmp T] [Add T] [Sub T] [Zero T] : List (Vec T S) → List (Vec T S)
  | [] => []
  | v :: vs =>
    let min := minElement vlt v 0 1 vs
    (v :: vs).drop min ++ (v :: vs).take min

/-- polygon.h:54-57, 65-68, 76-79 the constructors taking vertices. -/
def mk' [Cmp T] [Add T] [Sub T] [Zero T] (vertices : List (Vec T S)) : Polygon T S :=
  ⟨rotateMinToFront vertices⟩

/-- polygon.h:46 the default constructor. -/
def empty : Polygon T S := ⟨[]⟩

/-- polygon.h:108-113 the converting constructor. -/
def convert {U : Type u} (cast : U → T) (other : Polygon U S) : Polygon T S :=
  ⟨other.vertices.foldl (fun out v => out ++ [fun i => cast (v i)]) []⟩

/-- polygon.h:121-128 `hasVertex`. -/
def hasVertex [Cmp T] [Add T] [Sub T] [Zero T] (p : Polygon T S) (vertex : Vec T S) : Bool :=
  p.vertices.any fun v => veq v vertex

/-- polygon.h:135 `vertexCount`. -/
def vertexCount (p : Polygon T S) : ℕ := p.vertices.length

/-- polygon.h:177-183 `center`; without vertices the result is 0/0 = NaN in every component: `none`. -/
def center [Zero T] [Add T] [Div T] [NatCast T] (p : Polygon T S) : Option (Vec T S) :=
  if p.vertexCount = 0 then none
  else some (vdivs (p.vertices.foldl (fun result v => result + v) (vfill S 0)) (p.vertexCount : T))

/-- polygon.h:190-196 `invert`. -/
def invert [Cmp T] [Add T] [Sub T] [Zero T] (p : Polygon T S) : Polygon T S :=
  match p.vertices with
  | [] => mk' []
  | v :: vs => if 1 < (v :: vs).length then mk' (v :: vs.reverse) else mk' (v :: vs)

/-- polygon.h:204-206 `translate`. -/
def translate [Cmp T] [Add T] [Sub T] [Zero T] (p : Polygon T S) (offset : Vec T S) : Polygon T S :=
  mk' (addList p.vertices offset)

/-- polygon.h:214-216 `transform`. -/
def transform [Cmp T] [Zero T] [One T] [Add T] [Sub T] [Mul T] [Div T] (p : Polygon T S)
    (m : Mat T (S + 1) (S + 1)) : Polygon T S := mk' (mmulPoints m p.vertices)

/-- polygon.h:228-236 `get_vertices`: the sequence written to the output iterator. -/
def getVertices (l : List (Polygon T S)) : List (Vec T S) :=
  l.foldl (fun out p => p.vertices.foldl (fun out v => out ++ [v]) out) []

/-- polygon.h:255-263 `compare`. -/
def compare [Cmp T] [Add T] [Sub T] (lhs rhs : Polygon T S) (epsilon : T) : Int :=
  rangeCompare epsilon lhs.vertices rhs.vertices

/-- polygon.h:276-279 `isEqual`. -/
def isEqual [Cmp T] [Add T] [Sub T] (lhs rhs : Polygon T S) (epsilon : T) : Bool := compare lhs rhs epsilon == 0
/-- polygon.h:290-293 `operator==`. -/
def beq [Cmp T] [Add T] [Sub T] [Zero T] (lhs rhs : Polygon T S) : Bool := compare lhs rhs 0 == 0
/-- polygon.h:304-307 `operator!=`. -/
def bne [Cmp T] [Add T] [Sub T] [Zero T] (lhs rhs : Polygon T S) : Bool := compare lhs rhs 0 != 0
/-- polygon.h:318-320 `operator<`. -/
def blt [Cmp T] [Add T] [Sub T] [Zero T] (lhs rhs : Polygon T S) : Bool := compare lhs rhs 0 < 0
/-- polygon.h:331-334 `operator<=`. -/
def ble [Cmp T] [Add T] [Sub T] [Zero T] (lhs rhs : Polygon T S) : Bool := compare lhs rhs 0 ≤ 0
/-- polygon.h:345-347 `operator>`. -/
def bgt [Cmp T] [Add T] [Sub T] [Zero T] (lhs rhs : Polygon T S) : Bool := 0 < compare lhs rhs 0
/-- polygon.h:359-362 `operator>=`. -/
def bge [Cmp T] [Add T] [Sub T] [Zero T] (lhs rhs : Polygon T S) : Bool := 0 ≤ compare lhs rhs 0

/-- polygon.h:418-431 the backward comparison `lhs[i]` against `rhs[count - i]` for `i = 1, ..., count - 1`:
true if the loop runs through.  `ls` are the vertices of `lhs` after the first, `rs` those of `rhs` after the
first in reverse order. -/
def backwardEqual [Cmp T] [Add T] [Sub T] (epsilon : T) : List (Vec T S) → List (Vec T S) → Bool
  | l :: ls, r :: rs => if vcompare l r epsilon ≠ 0 then false else backwardEqual epsilon ls rs
  | _, _ => true

/-- polygon.h:383-433 `compareUnoriented`. -/
def compareUnoriented [Cmp T] [Add T] [Sub T] (lhs rhs : Polygon T S) (epsilon : T) : Int :=
  if lhs.vertices.length < rhs.vertices.length then -1
  else if rhs.vertices.length < lhs.vertices.length then 1
  else
    match lhs.vertices, rhs.vertices with
    | l0 :: ls, r0 :: rs =>
      let cmp0 := vcompare l0 r0 epsilon
      if cmp0 < 0 then -1
      else if 0 < cmp0 then 1
      else
        match ls, rs with
        | l1 :: ls', r1 :: rs' =>
          let cmp1 := vcompare l1 r1 epsilon
          if cmp1 = 0 then rangeCompare epsilon ls' rs'
          else if backwardEqual epsilon (l1 :: ls') (r1 :: rs').reverse then 0
          else rangeCompare epsilon ls' rs'
        | _, _ => 0
    | _, _ => 0

end Polygon
end vm
