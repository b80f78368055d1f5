import Verif.Lemmas.SFlt

set_option linter.unusedSectionVars false
set_option linter.unusedSimpArgs false

/-!
# C117: the signs of zeros

`Flt` has one zero, machine floats have two.  Here the same generic definitions are run on `SFlt`, which has both zeros, and their results are
compared with those on `Flt`: `toFlt` forgets the sign of a zero, `vmap toFlt`, `mmap toFlt`, `bmap toFlt` and so on do this for every
component.  The results are the same up to the signs of zeros, and every comparison has the same outcome, so that the theorems about `Flt` hold
for machine floats.  Where this is not so there is a counterexample.
-/

namespace vm

open SFlt

variable {P : BinPar} {S R C : ℕ}

/-- The order of the arguments decides the sign of a zero, but nothing else: the functions of scalar.h return the same number up to the sign of a
zero, and the same truth values, whatever the signs of the zeros in the arguments are. -/
theorem C117_scalar (x y z : SFlt P.fmt) (l : List (SFlt P.fmt)) :
    (abs x).toFlt = abs x.toFlt ∧ (sign x).toFlt = sign x.toFlt ∧
    (vmin x l).toFlt = vmin x.toFlt (l.map toFlt) ∧ (vmax x l).toFlt = vmax x.toFlt (l.map toFlt) ∧
    (absMin x l).toFlt = absMin x.toFlt (l.map toFlt) ∧ (absMax x l).toFlt = absMax x.toFlt (l.map toFlt) ∧
    (safeMin x l).toFlt = safeMin x.toFlt (l.map toFlt) ∧ (safeMax x l).toFlt = safeMax x.toFlt (l.map toFlt) ∧
    (clamp x y z).toFlt = clamp x.toFlt y.toFlt z.toFlt ∧
    isZero x y = isZero x.toFlt y.toFlt ∧ isEqual x y z = isEqual x.toFlt y.toFlt z.toFlt ∧ isNan x = isNan x.toFlt :=
  ⟨hom.abs x, hom.sign x, hom.vmin l x, hom.vmax l x, hom.absMin l x, hom.absMax l x, hom.safeMin l x, hom.safeMax l x, hom.clamp x y z,
    (hom.isZero x y).symm, (hom.isEqual x y z).symm, (hom.isNan x).symm⟩

theorem toInt64_toFlt (x : SFlt P.fmt) : Int64Cast.toInt64 x.toFlt = Int64Cast.toInt64 x := rfl
theorem ofInt64_toFlt (n : ℤ) : (Int64Cast.ofInt64 n : SFlt P.fmt).toFlt = Int64Cast.ofInt64 n := rfl

theorem ne_zero_of_lt {x : SFlt P.fmt} (h : Cmp.lt 0 x = true) : Cmp.eq x 0 = false := by
  by_contra hc
  rw [Bool.not_eq_false, eq_zero_iff, isZeroB_iff] at hc
  have : Cmp.lt (0 : Flt P.fmt) x.toFlt = true := h
  rw [hc, Flt.lt_val (a := (0 : Flt P.fmt)) (b := (0 : Flt P.fmt)) trivial trivial] at this
  simp at this

/-- The same for the rounding functions; they are undefined in the same cases. -/
theorem C117_rounding (half x grid : SFlt P.fmt) :
    (truncG x).map toFlt = truncG x.toFlt ∧ (floorG x).map toFlt = floorG x.toFlt ∧ (ceilG x).map toFlt = ceilG x.toFlt ∧
    (fractG x).map toFlt = fractG x.toFlt ∧ (roundG half x).map toFlt = roundG half.toFlt x.toFlt ∧
    (roundUpG x).map toFlt = roundUpG x.toFlt ∧ (roundDownG x).map toFlt = roundDownG x.toFlt ∧
    (snapG half x grid).map toFlt = snapG half.toFlt x.toFlt grid.toFlt ∧ (snapUpG x grid).map toFlt = snapUpG x.toFlt grid.toFlt ∧
    (snapDownG x grid).map toFlt = snapDownG x.toFlt grid.toFlt :=
  ⟨Hom.truncG toInt64_toFlt ofInt64_toFlt x, hom.floorG toInt64_toFlt ofInt64_toFlt x, hom.ceilG toInt64_toFlt ofInt64_toFlt x,
    hom.fractG toInt64_toFlt ofInt64_toFlt x, hom.roundG toInt64_toFlt ofInt64_toFlt half x, hom.roundUpG toInt64_toFlt ofInt64_toFlt x,
    hom.roundDownG toInt64_toFlt ofInt64_toFlt x, hom.snapG toInt64_toFlt ofInt64_toFlt half x grid,
    hom.snapUpG toInt64_toFlt ofInt64_toFlt (fun _ => ne_zero_of_lt) x grid,
    hom.snapDownG toInt64_toFlt ofInt64_toFlt (fun _ => ne_zero_of_lt) x grid⟩

/-- The same for vectors. -/
theorem C117_vector (a b c : Vec (SFlt P.fmt) S) (p q : Vec (SFlt P.fmt) 3) (s e : SFlt P.fmt) (l : List (Vec (SFlt P.fmt) S)) :
    vmap toFlt (a + b) = vmap toFlt a + vmap toFlt b ∧ vmap toFlt (a - b) = vmap toFlt a - vmap toFlt b ∧
    vmap toFlt (a * b) = vmap toFlt a * vmap toFlt b ∧ vmap toFlt (-a) = -vmap toFlt a ∧
    vmap toFlt (vscale a s) = vscale (vmap toFlt a) s.toFlt ∧
    (dot a b).toFlt = dot (vmap toFlt a) (vmap toFlt b) ∧ vmap toFlt (cross p q) = cross (vmap toFlt p) (vmap toFlt q) ∧
    (squaredLength a).toFlt = squaredLength (vmap toFlt a) ∧ (squaredDistance a b).toFlt = squaredDistance (vmap toFlt a) (vmap toFlt b) ∧
    vcompare a b e = vcompare (vmap toFlt a) (vmap toFlt b) e.toFlt ∧ visZero a e = visZero (vmap toFlt a) e.toFlt ∧
    isColinear a b c e = isColinear (vmap toFlt a) (vmap toFlt b) (vmap toFlt c) e.toFlt ∧
    vmap toFlt (average a l) = average (vmap toFlt a) (l.map (vmap toFlt)) :=
  ⟨hom.vadd a b, hom.vsub a b, hom.vmul a b, hom.vneg a, hom.vscale a s, hom.dot a b, hom.cross p q, hom.squaredLength a,
    hom.squaredDistance a b, (hom.vcompare a b e).symm, (hom.visZero a e).symm, (hom.isColinear a b c e).symm, average_toFlt a l⟩

/-- The same for the functions that take a square root, for every implementation `sqrt` of `std::sqrt` that keeps the sign of zero: even
`normalize` of the zero vector, which divides by zero, because the length is never `-0`. -/
theorem C117_length (sqrt : Flt P.fmt → Flt P.fmt) (a b : Vec (SFlt P.fmt) S) :
    (lengthG (sqrtS sqrt) a).toFlt = lengthG sqrt (vmap toFlt a) ∧ lengthG (sqrtS sqrt) a ≠ negZero ∧
    (distanceG (sqrtS sqrt) a b).toFlt = distanceG sqrt (vmap toFlt a) (vmap toFlt b) ∧
    vmap toFlt (normalizeG (sqrtS sqrt) a) = normalizeG sqrt (vmap toFlt a) :=
  ⟨(lengthG_toFlt sqrt a).2, (lengthG_toFlt sqrt a).1, distanceG_toFlt sqrt a b, normalizeG_toFlt sqrt a⟩

/-- The same for matrices. -/
theorem C117_matrix {n : ℕ} (a : Mat (SFlt P.fmt) R S) (b : Mat (SFlt P.fmt) S C) (m : Mat (SFlt P.fmt) S S) (v : Vec (SFlt P.fmt) S)
    (d : Mat (SFlt P.fmt) (n + 2) (n + 2)) :
    mmap toFlt (mmul a b) = mmul (mmap toFlt a) (mmap toFlt b) ∧ vmap toFlt (mmulVec m v) = mmulVec (mmap toFlt m) (vmap toFlt v) ∧
    vmap toFlt (vmulMat v m) = vmulMat (vmap toFlt v) (mmap toFlt m) ∧
    (computeDeterminant (n + 1) d).toFlt = computeDeterminant (n + 1) (mmap toFlt d) ∧
    mmap toFlt (computeAdjugate d) = computeAdjugate (mmap toFlt d) :=
  ⟨hom.mmul a b, hom.mmulVec m v, hom.vmulMat m v, hom.computeDeterminant (n + 1) d, hom.computeAdjugate d⟩

theorem small_zero_toFlt : LupSmall.small (0 : SFlt P.fmt) = true := by
  show decide _ = true
  exact decide_eq_true (by unfold lupLimit; norm_num)

theorem small_ne_zero (x : SFlt P.fmt) (h : LupSmall.small (abs x) = false) : Cmp.eq x 0 = false := by
  by_contra hc
  rw [Bool.not_eq_false, eq_zero_iff, isZeroB_iff] at hc
  have e : LupSmall.small (abs x).toFlt = LupSmall.small (abs x) := rfl
  rw [hom.abs, hc] at e
  rw [← e] at h
  have : LupSmall.small (abs (0 : Flt P.fmt)) = true := by
    have : abs (0 : Flt P.fmt) = 0 := by
      unfold abs
      split <;> rfl
    rw [this]
    exact small_zero_toFlt (P := P)
  rw [this] at h
  exact (nomatch h)

/-- The same for the LUP functions: they report failure in the same cases, and return the same numbers up to the signs of zeros. -/
theorem C117_lup (a : Mat (SFlt P.fmt) S S) (b : Vec (SFlt P.fmt) S) :
    (lupSolve a b).1 = (lupSolve (mmap toFlt a) (vmap toFlt b)).1 ∧
    vmap toFlt (lupSolve a b).2 = (lupSolve (mmap toFlt a) (vmap toFlt b)).2 ∧
    (invert a).1 = (invert (mmap toFlt a)).1 ∧ mmap toFlt (invert a).2 = (invert (mmap toFlt a)).2 := by
  have h1 := hom.lupSolve small_zero_toFlt (fun _ => rfl) small_ne_zero a b
  have h2 := hom.invert small_zero_toFlt (fun _ => rfl) small_ne_zero a
  rw [h1, h2]
  exact ⟨rfl, rfl, rfl, rfl⟩

/-- The same for bounding boxes. -/
theorem C117_box (a b : BBox (SFlt P.fmt) S) (x d : Vec (SFlt P.fmt) S) (f : SFlt P.fmt) (l : List (Vec (SFlt P.fmt) S)) :
    a.isValid = (bmap toFlt a).isValid ∧ a.isEmpty = (bmap toFlt a).isEmpty ∧
    a.contains x = (bmap toFlt a).contains (vmap toFlt x) ∧ a.containsBox b = (bmap toFlt a).containsBox (bmap toFlt b) ∧
    a.encloses b = (bmap toFlt a).encloses (bmap toFlt b) ∧ a.intersects b = (bmap toFlt a).intersects (bmap toFlt b) ∧
    a.relativePosition x = (bmap toFlt a).relativePosition (vmap toFlt x) ∧
    vmap toFlt a.center = (bmap toFlt a).center ∧ vmap toFlt a.size = (bmap toFlt a).size ∧
    vmap toFlt (a.constrain x) = (bmap toFlt a).constrain (vmap toFlt x) ∧
    bmap toFlt (a.expand f) = (bmap toFlt a).expand f.toFlt ∧ bmap toFlt (a.translate d) = (bmap toFlt a).translate (vmap toFlt d) ∧
    bmap toFlt a.repair = (bmap toFlt a).repair ∧ bmap toFlt (a.merge b) = (bmap toFlt a).merge (bmap toFlt b) ∧
    bmap toFlt (a.mergePoint x) = (bmap toFlt a).mergePoint (vmap toFlt x) ∧
    bmap toFlt (a.intersect b) = (bmap toFlt a).intersect (bmap toFlt b) ∧
    bmap toFlt (BBox.mergeAll x l) = BBox.mergeAll (vmap toFlt x) (l.map (vmap toFlt)) :=
  ⟨(hom.isValid a).symm, (hom.isEmpty a).symm, (hom.contains a x).symm, (hom.containsBox a b).symm, (hom.encloses a b).symm,
    (hom.intersects a b).symm, (hom.relativePosition a x).symm, center_toFlt a, hom.size a, hom.constrain a x, hom.expand a f,
    hom.translate a d, hom.repair a, hom.merge a b, hom.mergePoint a x, hom.intersect a b, hom.mergeAll x l⟩

/-- The same for planes, lines and rays: the distances and the results of the intersection functions, which also report a hit in the same
cases.  A ray can be parallel to a side of the box, with a direction component of either zero. -/
theorem C117_geometry (z : SFlt P.fmt) (p : Plane (SFlt P.fmt) S) (r s : Ray (SFlt P.fmt) S) (l : Line (SFlt P.fmt) S)
    (x d : Vec (SFlt P.fmt) S) (r' : Ray (SFlt P.fmt) (S + 1)) (b' : BBox (SFlt P.fmt) (S + 1)) (r3 : Ray (SFlt P.fmt) 3)
    (p1 p2 p3 : Vec (SFlt P.fmt) 3) :
    (p.pointDistance x).toFlt = (pmap toFlt p).pointDistance (vmap toFlt x) ∧
    vmap toFlt (p.projectPoint x) = (pmap toFlt p).projectPoint (vmap toFlt x) ∧
    (p.projectPointAlong z x d).map (vmap toFlt) = (pmap toFlt p).projectPointAlong z.toFlt (vmap toFlt x) (vmap toFlt d) ∧
    (intersectRayPlane z r p).map toFlt = intersectRayPlane z.toFlt (rmap toFlt r) (pmap toFlt p) ∧
    (intersectLinePlane z l p).map toFlt = intersectLinePlane z.toFlt (lmap toFlt l) (pmap toFlt p) ∧
    (intersectRayBBox r' b').map toFlt = intersectRayBBox (rmap toFlt r') (bmap toFlt b') ∧
    (intersectRayTriangle z r3 p1 p2 p3).map toFlt =
      intersectRayTriangle z.toFlt (rmap toFlt r3) (vmap toFlt p1) (vmap toFlt p2) (vmap toFlt p3) ∧
    ldmap toFlt (squaredDistanceRayRay z r s) = squaredDistanceRayRay z.toFlt (rmap toFlt r) (rmap toFlt s) ∧
    ldmap toFlt (squaredDistanceRayLine z r l) = squaredDistanceRayLine z.toFlt (rmap toFlt r) (lmap toFlt l) :=
  ⟨hom.pointDistance p x, hom.planeProject p x, hom.projectPointAlong z p x d, hom.intersectRayPlane z r p, hom.intersectLinePlane z l p,
    hom.intersectRayBBox r' b', hom.intersectRayTriangle z r3 p1 p2 p3, squaredDistanceRayRay_toFlt z r s, squaredDistanceRayLine_toFlt z r l⟩

/-- The same for `polygon_contains_point` and for quaternions. -/
theorem C117_polygon (z : SFlt P.fmt) (x : Vec (SFlt P.fmt) 3) (axis : ℕ) (l : List (Vec (SFlt P.fmt) 3)) (p q : Quat (SFlt P.fmt)) :
    polygonContainsPoint z x axis l = polygonContainsPoint z.toFlt (vmap toFlt x) axis (l.map (vmap toFlt)) ∧
    qmap toFlt (p.mul q) = (qmap toFlt p).mul (qmap toFlt q) ∧ qmap toFlt p.conjugate = (qmap toFlt p).conjugate ∧
    vmap toFlt (p.rotate x) = (qmap toFlt p).rotate (vmap toFlt x) :=
  ⟨(polygonContainsPoint_toFlt z x axis l).symm, hom.qmul p q, hom.conjugate p, hom.rotate p x⟩

/-- The sign of a zero matters in a division by zero only: otherwise division gives the same number up to the sign of a zero.  A divisor `+0`
behaves as the zero of `Flt`. -/
theorem C117_division (x y : SFlt P.fmt) (h : y ≠ negZero) : (x / y).toFlt = x.toFlt / y.toFlt := div_of_ne_negZero x y h

/-- `dot`, and with it `squared_length`, `squared_distance` and `length`, never return `-0`. -/
theorem C117_dot_sign (a b : Vec (SFlt P.fmt) S) : dot a b ≠ negZero ∧ squaredLength a ≠ negZero ∧ squaredDistance a b ≠ negZero :=
  ⟨dot_ne_negZero a b, dot_ne_negZero a a, dot_ne_negZero (a - b) (a - b)⟩

/-- Sums and differences of numbers that are not `-0` are not `-0` either. -/
theorem C117_sum_sign (x y : SFlt P.fmt) (hx : x ≠ negZero) : x + y ≠ negZero ∧ y + x ≠ negZero :=
  ⟨fun h => hx (add_negZero h).1, fun h => hx (add_negZero h).2⟩

/-- `abs(-0.0)` is `-0.0`, unlike `std::abs`: its reciprocal is negative. -/
theorem C117_abs_fails : abs (negZero : SFlt P.fmt) = negZero ∧ 1 / abs (negZero : SFlt P.fmt) = of .ninf := by
  have h : abs (negZero : SFlt P.fmt) = negZero := by
    unfold abs
    rw [if_neg]
    show ¬ (Cmp.lt (0 : Flt P.fmt) 0 = true)
    rw [Flt.lt_val (a := (0 : Flt P.fmt)) (b := (0 : Flt P.fmt)) trivial trivial]
    simp
  refine ⟨h, ?_⟩
  rw [h]
  show (if (0 : Flt P.fmt).isZeroB then (if (1 : ℚ) = 0 then of .nan else if ((1 : SFlt P.fmt).signBit != true) then of .ninf else of .pinf)
    else _ : SFlt P.fmt) = _
  have e1 : (0 : Flt P.fmt).isZeroB = true := rfl
  have e2 : (1 : SFlt P.fmt).signBit = false := by
    show decide ((1 : ℚ) < 0) = false
    simp
  rw [e1, e2]
  simp

/-- `min` and `max` of two zeros return their second argument, so that the sign depends on the order of the arguments. -/
theorem C117_minmax_sign : vmin (0 : SFlt P.fmt) [negZero] = negZero ∧ vmin (negZero : SFlt P.fmt) [0] = 0 ∧
    vmax (0 : SFlt P.fmt) [negZero] = negZero ∧ vmax (negZero : SFlt P.fmt) [0] = 0 := by
  have h : Cmp.lt (0 : Flt P.fmt) 0 = false := by
    rw [Flt.lt_val (a := (0 : Flt P.fmt)) (b := (0 : Flt P.fmt)) trivial trivial]; simp
  have h1 : Cmp.lt (0 : SFlt P.fmt) negZero = false := h
  have h2 : Cmp.lt (negZero : SFlt P.fmt) 0 = false := h
  simp [vmin, vmax, h1, h2]

/-- Two vectors that compare equal can have quotients that do not: `v / 0.0` and `v / -0.0`. -/
theorem C117_division_fails : ∃ (v : Vec (SFlt P.fmt) 3) (s t : SFlt P.fmt), Cmp.eq s t = true ∧
    vdivs v s = (fun _ => of .pinf) ∧ vdivs v t = fun _ => of .ninf := by
  have e2 : (1 : SFlt P.fmt).signBit = false := by
    show decide ((1 : ℚ) < 0) = false
    simp
  refine ⟨fun _ => 1, 0, negZero, ?_, ?_, ?_⟩
  · rw [← hom.eq]
    show Cmp.eq (0 : Flt P.fmt) 0 = true
    exact eq_zero_iff (0 : SFlt P.fmt)
  · funext i
    show (if (0 : Flt P.fmt).isZeroB then (if (1 : ℚ) = 0 then of .nan else if ((1 : SFlt P.fmt).signBit != false) then of .ninf else of .pinf)
      else signed ((1 : SFlt P.fmt).signBit != false) (1 / 0) : SFlt P.fmt) = _
    have e1 : (0 : Flt P.fmt).isZeroB = true := rfl
    rw [e1, e2]
    simp
  · funext i
    show (if (0 : Flt P.fmt).isZeroB then (if (1 : ℚ) = 0 then of .nan else if ((1 : SFlt P.fmt).signBit != true) then of .ninf else of .pinf)
      else signed ((1 : SFlt P.fmt).signBit != true) (1 / 0) : SFlt P.fmt) = _
    have e1 : (0 : Flt P.fmt).isZeroB = true := rfl
    rw [e1, e2]
    simp

/-- The hypothesis of `C117_division` holds for `+0` and for one; those of `C117_sum_sign` for `+0`. -/
example : (0 : SFlt binary64.fmt) ≠ negZero ∧ (1 : SFlt binary64.fmt) ≠ negZero := ⟨fun h => (nomatch h), fun h => (nomatch h)⟩

/-- The two zeros are different numbers that compare equal. -/
example : (0 : SFlt binary64.fmt) ≠ negZero ∧ Cmp.eq (0 : SFlt binary64.fmt) negZero = true :=
  ⟨fun h => (nomatch h), eq_zero_iff (0 : SFlt binary64.fmt)⟩

end vm
