import Verif.Model.Io
import Verif.Model.Cast
import Verif.Model.Binary
import Mathlib.Data.List.DropRight

/-!
# The text of floating point numbers

The number printer `stream << T` (vec_io.h:113, 115) and the number reader `std::atof` (vec_io.h:41, mat_io.h:56) that are parameters in Model/Io.lean.  Both
are library functions; the definitions follow the C standard (7.23.6.1 conversion `%g`, 7.24.1.5 `strtod`) in the "C" locale with correct rounding, as in glibc,
musl and the Microsoft library.
-/

namespace vm

/-- The last `w` decimal digits of `k`; digits of a number printed by vec_io.h:113. -/
def decDigits : ℕ → ℕ → List Char
  | 0, _ => []
  | w + 1, k => decDigits w (k / 10) ++ [Nat.digitChar (k % 10)]

/-- The fractional part without the zeros at its end, and without the point if nothing is left; part of a number printed by vec_io.h:113 (conversion `%g`
without the flag `#`). -/
def fracText (ds : List Char) : List Char :=
  match ds.rdropWhile (· == '0') with
  | [] => []
  | c :: cs => '.' :: c :: cs

/-- The exponent: a sign and at least two digits; part of a number printed by vec_io.h:113. -/
def expText (X : ℤ) : List Char :=
  'e' :: (if X < 0 then '-' else '+') :: decDigits (max 2 (Nat.log 10 X.natAbs + 1)) X.natAbs

/-- A positive number is rounded to `n` decimal digits, ties to even: the digits as a natural number and the exponent of the first digit; vec_io.h:113. -/
def roundDec (n : ℕ) (q : ℚ) : ℕ × ℤ :=
  let X := Int.log 10 q
  let m := (rne (q / 10 ^ (X - n + 1))).toNat
  if m = 10 ^ n then (10 ^ (n - 1), X + 1) else (m, X)

/-- A positive number as printed by vec_io.h:113 with the precision `n` of the stream (6 unless the user sets another one), at least 1: conversion `%g`. -/
def printPos (n : ℕ) (q : ℚ) : List Char :=
  let m := (roundDec n q).1
  let X := (roundDec n q).2
  let ds := decDigits n m
  if -4 ≤ X ∧ X < n then
    if 0 ≤ X then ds.take (X.toNat + 1) ++ fracText (ds.drop (X.toNat + 1))
    else '0' :: fracText (List.replicate (-X - 1).toNat '0' ++ ds)
  else ds.take 1 ++ fracText (ds.drop 1) ++ expText X

/-- vec_io.h:113, 115 `stream << vec[i]` with the precision `n` of the stream; a `float` is converted to `double` first, which keeps its value.
Simplification: the signs of zeros and of NaN are not printed. -/
def printFlt {F : Fmt} (n : ℕ) : Flt F → List Char
  | .nan => "nan".toList
  | .ninf => "-inf".toList
  | .pinf => "inf".toList
  | .fin q _ => if q = 0 then ['0'] else if q < 0 then '-' :: printPos n (-q) else printPos n q

/-- The number with the given digits; part of vec_io.h:41. -/
def natOfDigits (l : List Char) : ℕ := l.foldl (fun k c => 10 * k + (c.toNat - 48)) 0

/-- The exponent at the beginning of the text, zero if there is none; part of vec_io.h:41. -/
def readExp : List Char → ℤ
  | [] => 0
  | c :: r =>
    if c = 'e' ∨ c = 'E' then
      match r with
      | [] => 0
      | s :: r' =>
        if s = '-' then -natOfDigits (r'.takeWhile Char.isDigit)
        else if s = '+' then natOfDigits (r'.takeWhile Char.isDigit)
        else natOfDigits ((s :: r').takeWhile Char.isDigit)
    else 0

/-- The digits after the point at the beginning of the text, and the rest of the text; part of vec_io.h:41. -/
def readFrac : List Char → List Char × List Char
  | [] => ([], [])
  | c :: r => if c = '.' then (r.takeWhile Char.isDigit, r.dropWhile Char.isDigit) else ([], c :: r)

/-- An unsigned decimal number at the beginning of the text, zero if there is none; part of vec_io.h:41. -/
def readDec (s : List Char) : ℚ :=
  let a := s.takeWhile Char.isDigit
  let b := (readFrac (s.dropWhile Char.isDigit)).1
  let r := (readFrac (s.dropWhile Char.isDigit)).2
  natOfDigits (a ++ b) * 10 ^ (readExp r - b.length)

/-- An unsigned number, infinity or NaN at the beginning of the text; part of vec_io.h:41.  Simplification: hexadecimal numbers are not read. -/
def readAbs (s : List Char) : Flt binary64.fmt :=
  if (s.take 3).map Char.toLower = ['i', 'n', 'f'] then .pinf
  else if (s.take 3).map Char.toLower = ['n', 'a', 'n'] then .nan
  else Flt.round (readDec s)

/-- vec_io.h:41, mat_io.h:56 `std::atof`: white space, a sign and a number at the beginning of the text, rounded to `double`. -/
def atofD (s : List Char) : Flt binary64.fmt :=
  match s.dropWhile (fun c => [' ', '\t', '\n', '\r', '\x0b', '\x0c'].contains c) with
  | [] => 0
  | c :: r => if c = '-' then -readAbs r else if c = '+' then readAbs r else readAbs (c :: r)

/-- vec_io.h:41, mat_io.h:56 `static_cast<T>(std::atof(...))`. -/
def atofT {F : Fmt} (s : List Char) : Flt F := Flt.cast (atofD s)

end vm
