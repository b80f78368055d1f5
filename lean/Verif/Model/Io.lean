import Verif.Model.Mat
import Verif.Model.BBox
import Verif.Model.Geom

/-!
# Model of vec_io.h, mat_io.h, bbox_io.h, line_io.h, ray_io.h and plane_io.h

Strings are lists of characters.  A position `pos` in the string is represented by the part of the string that begins at
it, and `std::string::npos` by `none`.  The number reader `std::atof` is a parameter: a function of the characters from the given
address on.  Since `atof` does not know where a `string_view` ends, these are the remaining characters of the string followed by
`after`, the memory behind the string.  The printer of numbers `stream << T` is a parameter, too.
-/

universe u

namespace vm
variable {T : Type u}

/-- vec_io.h:34 and mat_io.h:47 `blank`. -/
def blank : List Char := [' ', '\t', '\n', '\r', '(', ')']

/-- vec_io.h:88 `blank` in `parse_all`. -/
def blankAll : List Char := [' ', '\t', '\n', '\r', ',', ';']

/-- `std::string_view::find_first_not_of(chars, pos)`. -/
def findFirstNotOf (chars : List Char) : Option (List Char) → Option (List Char)
  | none => none
  | some s => match s.dropWhile (fun c => chars.contains c) with
    | [] => none
    | c :: cs => some (c :: cs)

/-- `std::string_view::find_first_of(chars, pos)`. -/
def findFirstOf (chars : List Char) : Option (List Char) → Option (List Char)
  | none => none
  | some s => match s.dropWhile (fun c => !(chars.contains c)) with
    | [] => none
    | c :: cs => some (c :: cs)

/-- vec_io.h:37-48 and mat_io.h:51-64: the loop of `doParse` with `n` components left to read.  The components are collected in a
list; the second result is the position after the call. -/
def doParse (atof : List Char → T) (after : List Char) : ℕ → Option (List Char) → Option (List T) × Option (List Char)
  | 0, pos => (some [], pos)
  | n + 1, pos =>
    match findFirstNotOf blank pos with
    | none => (none, none)
    | some s =>
      let value := atof (s ++ after)
      let pos' := findFirstOf blank (some s)
      if pos'.isNone && decide (0 < n) then (none, none)
      else
        let r := doParse atof after n pos'
        (r.1.map (value :: ·), r.2)

/-- vec_io.h:36: the vector that is zero initialised and then filled with the values that were read. -/
def vecOfList [Zero T] (S : ℕ) (l : List T) : Vec T S := fun i => l.getD i 0

/-- vec_io.h:66-69 `parse`. -/
def parseVec [Zero T] (atof : List Char → T) (after : List Char) (S : ℕ) (str : List Char) : Option (Vec T S) :=
  (doParse atof after S (some str)).1.map (vecOfList S)

/-- vec_io.h:91-98: the loop of `parse_all`, with the number of iterations limited by the first argument; `none` if the
limit is reached. -/
def parseAllLoop [Zero T] (atof : List Char → T) (after : List Char) (S : ℕ) :
    ℕ → Option (List Char) → Option (List (Vec T S))
  | _, none => some []
  | 0, some _ => none
  | fuel + 1, some s =>
    let r := doParse atof after S (some s)
    let pos := findFirstOf blankAll r.2
    let pos := findFirstNotOf blankAll pos
    (parseAllLoop atof after S fuel pos).map ((r.1.map (vecOfList S)).toList ++ ·)

/-- vec_io.h:87-99 `parse_all`: the vectors written to the output iterator.  A string of length n needs at most n + 1
iterations, see `C27_terminates`. -/
def parseAll [Zero T] (atof : List Char → T) (after : List Char) (S : ℕ) (str : List Char) : Option (List (Vec T S)) :=
  parseAllLoop atof after S (str.length + 1) (some str)

/-- vec_io.h:110-119 `operator<<`. -/
def printVec {S : ℕ} (print : T → List Char) (v : Vec T S) : List Char :=
  match S, v with
  | 0, _ => []
  | S + 1, v => (List.finRange S).foldl (fun s i => s ++ ([' '] ++ print (v i.succ))) (print (v 0))

/-- mat_io.h:46-65 `parse`.  The two nested loops over rows and columns read `R * C` components in row-major order with the
same code as `doParse`. -/
def parseMat [Zero T] (atof : List Char → T) (after : List Char) (R C : ℕ) (str : List Char) : Option (Mat T R C) :=
  (doParse atof after (R * C) (some str)).1.map fun l => fun c r => l.getD ((r : ℕ) * C + c) 0

/-- mat_io.h:77-91 `operator<<`. -/
def printMat {R C : ℕ} (print : T → List Char) (m : Mat T R C) : List Char :=
  (List.finRange R).foldl (fun s r =>
    let s := (List.finRange C).foldl (fun s c =>
      let s := s ++ print (m c r)
      if (c : ℕ) < C - 1 then s ++ [' '] else s) s
    if (r : ℕ) < R - 1 then s ++ [' '] else s) []

/-- bbox_io.h:38-42 `operator<<`. -/
def printBBox {S : ℕ} (print : T → List Char) (b : BBox T S) : List Char :=
  "{ min: (".toList ++ printVec print b.min ++ "), max: (".toList ++ printVec print b.max ++ ") }".toList

/-- line_io.h:38-42 `operator<<`. -/
def printLine {S : ℕ} (print : T → List Char) (l : Line T S) : List Char :=
  "{ point: (".toList ++ printVec print l.point ++ "), direction: (".toList ++ printVec print l.direction ++ ") }".toList

/-- ray_io.h:38-42 `operator<<`. -/
def printRay {S : ℕ} (print : T → List Char) (r : Ray T S) : List Char :=
  "{ origin: (".toList ++ printVec print r.origin ++ "), direction: (".toList ++ printVec print r.direction ++ ") }".toList

/-- plane_io.h:38-42 `operator<<`. -/
def printPlane {S : ℕ} (print : T → List Char) (p : Plane T S) : List Char :=
  "{ normal: (".toList ++ printVec print p.normal ++ "), distance: ".toList ++ print p.distance ++ " }".toList

end vm
