import Verif.Props.SFltMore
import Verif.Lemmas.SFltHull
import Verif.Props.ConvexHull
import Verif.Model.RotG
import Verif.Model.FromToG
import Verif.Model.EulerG

set_option linter.unusedSectionVars false
set_option linter.unusedSimpArgs false

/-! C117, continued: selection of components, the convex hull and the functions that use trigonometry. -/

namespace vm

open SFlt

variable {P : BinPar} {S : ℕ}

/-- The index that `find_max_component` and `find_abs_max_component` return does not depend on the signs of zeros. -/
theorem C117_select (v : Vec (SFlt P.fmt) S) (k : ℕ) (junk : ℕ → SFlt P.fmt × ℕ) :
    findMaxComponent (vmap toFlt v) k (fun i => ((junk i).1.toFlt, (junk i).2)) = findMaxComponent v k junk ∧
    findAbsMaxComponent (vmap toFlt v) k (fun i => ((junk i).1.toFlt, (junk i).2)) = findAbsMaxComponent v k junk :=
  ⟨SFltHull.findMaxComponent hom v k junk, SFltHull.findAbsMaxComponent hom v k junk⟩

/-- `convex_hull`: the same points in the same order up to the signs of zeros, for every `std::sort` that looks at the points through the comparator
only. -/
theorem C117_hull (sS : (Vec (SFlt P.fmt) 3 → Vec (SFlt P.fmt) 3 → Bool) → List (Vec (SFlt P.fmt) 3) → List (Vec (SFlt P.fmt) 3))
    (sF : (Vec (Flt P.fmt) 3 → Vec (Flt P.fmt) 3 → Bool) → List (Vec (Flt P.fmt) 3) → List (Vec (Flt P.fmt) 3))
    (hs : ∀ c l, sF c (l.map (vmap toFlt)) = (sS (fun x y => c (vmap toFlt x) (vmap toFlt y)) l).map (vmap toFlt)) (e : SFlt P.fmt)
    (junk : ℕ → SFlt P.fmt × ℕ) (l : List (Vec (SFlt P.fmt) 3)) :
    convexHullPoints sF e.toFlt (fun i => ((junk i).1.toFlt, (junk i).2)) (l.map (vmap toFlt)) = (convexHullPoints sS e junk l).map (vmap toFlt) :=
  SFltHull.convexHullPoints hom sS sF hs e junk l

/-- Insertion sort looks at the points through the comparator only. -/
example (c : Vec (Flt P.fmt) 3 → Vec (Flt P.fmt) 3 → Bool) (l : List (Vec (SFlt P.fmt) 3)) :
    refSort c (l.map (vmap toFlt)) = (refSort (fun x y => c (vmap toFlt x) (vmap toFlt y)) l).map (vmap toFlt) := by
  unfold refSort
  exact (List.map_insertionSort (r := fun x y => c (vmap toFlt y) (vmap toFlt x) = false) (s := fun a b => c b a = false) (vmap toFlt) l
    (fun _ _ _ _ => Iff.rfl)).symm

namespace SFlt

theorem rowMajor4 {A B : Type} (φ : A → B) (a0 a1 a2 a3 b0 b1 b2 b3 c0 c1 c2 c3 d0 d1 d2 d3 : A) :
    mmap φ (matOfRowMajor 4 4 ![a0, a1, a2, a3, b0, b1, b2, b3, c0, c1, c2, c3, d0, d1, d2, d3]) =
      matOfRowMajor 4 4 ![φ a0, φ a1, φ a2, φ a3, φ b0, φ b1, φ b2, φ b3, φ c0, φ c1, φ c2, φ c3, φ d0, φ d1, φ d2, φ d3] := by
  funext c r
  fin_cases c <;> fin_cases r <;> rfl

theorem vaxis_toFlt (k : Fin S) : vmap toFlt (vaxis S k : Vec (SFlt P.fmt) S) = vaxis S k := by
  funext i
  unfold vmap vaxis
  split <;> rfl

theorem ofAxisAngle_toFlt (sinS cosS : SFlt P.fmt → SFlt P.fmt) (sin cos : Flt P.fmt → Flt P.fmt) (hsin : ∀ x, (sinS x).toFlt = sin x.toFlt)
    (hcos : ∀ x, (cosS x).toFlt = cos x.toFlt) (axis : Vec (SFlt P.fmt) 3) (angle : SFlt P.fmt) :
    qmap toFlt (Quat.ofAxisAngleG sinS cosS axis angle) = Quat.ofAxisAngleG sin cos (vmap toFlt axis) angle.toFlt := by
  have d2 : (angle / 2).toFlt = angle.toFlt / 2 := div_of_ne_negZero angle 2 (fun h => nomatch h)
  unfold Quat.ofAxisAngleG qmap
  dsimp only
  rw [hom.vscale, hsin, hcos, d2]

theorem rotationMatrixQuat_toFlt (q : Quat (SFlt P.fmt)) : mmap toFlt (rotationMatrixQuat q) = rotationMatrixQuat (qmap toFlt q) := by
  have t2 : (2 : SFlt P.fmt).toFlt = 2 := rfl
  unfold rotationMatrixQuat qmap vmap
  dsimp only
  rw [rowMajor4]
  simp only [hom.sub, hom.add, hom.mul, hom.one, hom.zero, t2]

end SFlt

/-- The functions that make rotations, for sines and cosines that are equal up to the sign of a zero for arguments that are equal up to the sign of a
zero: the same rotation up to the signs of zeros. -/
theorem C117_rotation (sinS cosS : SFlt P.fmt → SFlt P.fmt) (sin cos : Flt P.fmt → Flt P.fmt) (hsin : ∀ x, (sinS x).toFlt = sin x.toFlt)
    (hcos : ∀ x, (cosS x).toFlt = cos x.toFlt) (axis : Vec (SFlt P.fmt) 3) (a b c : SFlt P.fmt) (q : Quat (SFlt P.fmt)) :
    mmap toFlt (rotationMatrixRPYG sinS cosS a b c) = rotationMatrixRPYG sin cos a.toFlt b.toFlt c.toFlt ∧
    mmap toFlt (rotationMatrixAxisG sinS cosS axis a) = rotationMatrixAxisG sin cos (vmap toFlt axis) a.toFlt ∧
    qmap toFlt (Quat.ofAxisAngleG sinS cosS axis a) = Quat.ofAxisAngleG sin cos (vmap toFlt axis) a.toFlt ∧
    mmap toFlt (rotationMatrixQuat q) = rotationMatrixQuat (qmap toFlt q) := by
  refine ⟨?_, ?_, ofAxisAngle_toFlt sinS cosS sin cos hsin hcos axis a, rotationMatrixQuat_toFlt q⟩
  · unfold rotationMatrixRPYG
    dsimp only
    rw [hom.mmul, hom.mmul, rowMajor4, rowMajor4, rowMajor4]
    simp only [hom.neg, hom.one, hom.zero, hsin, hcos]
  · unfold rotationMatrixAxisG
    dsimp only
    rw [rowMajor4]
    unfold vmap
    simp only [hom.sub, hom.add, hom.mul, hom.neg, hom.one, hom.zero, hsin, hcos]

/-- `measure_angle`, the angle of a quaternion and the rotation between two vectors, for the same kind of library functions. -/
theorem C117_angle (sinS cosS acosS : SFlt P.fmt → SFlt P.fmt) (s sin cos acos : Flt P.fmt → Flt P.fmt) (hsin : ∀ x, (sinS x).toFlt = sin x.toFlt)
    (hcos : ∀ x, (cosS x).toFlt = cos x.toFlt) (hacos : ∀ x, (acosS x).toFlt = acos x.toFlt) (pi az : SFlt P.fmt) (v axis up : Vec (SFlt P.fmt) 3)
    (q : Quat (SFlt P.fmt)) :
    (measureAngleG acosS pi v axis up).toFlt = measureAngleG acos pi.toFlt (vmap toFlt v) (vmap toFlt axis) (vmap toFlt up) ∧
    (Quat.angleG acosS q).toFlt = Quat.angleG acos (qmap toFlt q) ∧
    qmap toFlt (Quat.ofFromToG (sqrtS s) sinS cosS acosS pi az v up) = Quat.ofFromToG s sin cos acos pi.toFlt az.toFlt (vmap toFlt v) (vmap toFlt up) ∧
    mmap toFlt (rotationMatrixFromToG (sqrtS s) sinS cosS acosS pi az v up) =
      rotationMatrixFromToG s sin cos acos pi.toFlt az.toFlt (vmap toFlt v) (vmap toFlt up) := by
  have hq : qmap toFlt (Quat.ofFromToG (sqrtS s) sinS cosS acosS pi az v up) =
      Quat.ofFromToG s sin cos acos pi.toFlt az.toFlt (vmap toFlt v) (vmap toFlt up) := by
    have h180 : (toRadians pi 180).toFlt = toRadians pi.toFlt 180 := by
      unfold toRadians
      rw [div_of_ne_negZero (180 * pi) 180 (fun h => nomatch h), hom.mul]
      rfl
    unfold Quat.ofFromToG
    dsimp only
    rw [← hom.dot, ← hom.one, ← hom.neg, hom.isEqual, hom.isEqual, ← vaxis_toFlt, ← vaxis_toFlt, ← hom.cross, ← hom.cross, ← hom.cross, ← hom.squaredLength,
      hom.isZero, ← normalizeG_toFlt, ← h180, ← hacos]
    split
    · rw [ofAxisAngle_toFlt sinS cosS sin cos hsin hcos, hom.zero]
    · split
      · rw [ofAxisAngle_toFlt sinS cosS sin cos hsin hcos, normalizeG_toFlt]
        split <;> rfl
      · exact ofAxisAngle_toFlt sinS cosS sin cos hsin hcos _ _
  refine ⟨?_, ?_, hq, ?_⟩
  · unfold measureAngleG
    dsimp only
    rw [← hom.cross, ← hom.dot, ← hom.dot, ← hom.one, ← hom.neg, ← hom.clamp, ← hacos, ← hom.zero, hom.le]
    split
    · rfl
    · exact hom.sub _ _
  · unfold Quat.angleG
    rw [hom.mul, hacos]
    rfl
  · unfold rotationMatrixFromToG
    rw [rotationMatrixQuat_toFlt, hq]

/-- The hypotheses about sine, cosine and arc cosine hold for every function of the numbers with one zero, extended by a zero of its own. -/
example (f : Flt P.fmt → Flt P.fmt) : ∃ g : SFlt P.fmt → SFlt P.fmt, ∀ x, (g x).toFlt = f x.toFlt := ⟨fun x => of (f x.toFlt), fun _ => rfl⟩

/-- `rotation_matrix_to_euler_angles` is different: for two matrices that compare equal (a half turn about the z axis with a positive and a negative zero
next to the -1) it returns the angles π and -π.  The assumptions are those of IEEE 754 about `std::atan2`, `std::asin` and `std::cos`. -/
theorem C117_euler_fails (asin cos : SFlt P.fmt → SFlt P.fmt) (atan2 : SFlt P.fmt → SFlt P.fmt → SFlt P.fmt) (pi halfPi : SFlt P.fmt)
    (ha : asin 0 = 0) (hc : cos (-0) = 1) (h1 : atan2 0 (-1) = pi) (h2 : atan2 negZero (-1) = -pi) :
    ∃ m m' : Mat (SFlt P.fmt) 4 4, (∀ c r, Cmp.eq (m c r) (m' c r) = true) ∧ toEulerAnglesG asin cos atan2 halfPi m 2 = pi ∧
      toEulerAnglesG asin cos atan2 halfPi m' 2 = -pi := by
  have z1 : (1 : SFlt P.fmt).toFlt.isZeroB = false := by
    show decide ((1 : ℚ) = 0) = false
    norm_num
  have d0 : (0 : Flt P.fmt) / 1 = 0 := by
    show (if (1 : ℚ) = 0 then _ else Flt.round (0 / 1)) = _
    rw [if_neg one_ne_zero, div_one]
    exact BinPar.round_rep P.fmt.rep_zero
  have d1 : ∀ (q : ℚ) (hq : P.fmt.rep q), (Flt.fin q hq : Flt P.fmt) / 1 = Flt.fin q hq := by
    intro q hq
    show (if (1 : ℚ) = 0 then _ else Flt.round (q / 1)) = _
    rw [if_neg one_ne_zero, div_one]
    exact BinPar.round_rep hq
  have dv : ∀ x : SFlt P.fmt, x / 1 = signed (x.signBit != (1 : SFlt P.fmt).signBit) (x.toFlt / 1) := by
    intro x
    show (if (1 : SFlt P.fmt).toFlt.isZeroB then _ else _) = _
    rw [z1]
    rfl
  have sb : (1 : SFlt P.fmt).signBit = false := by
    show decide ((1 : ℚ) < 0) = false
    norm_num
  have zz : (0 : Flt P.fmt).isZeroB = true := (isZeroB_iff _).2 rfl
  have e1 : (0 : SFlt P.fmt) / 1 = 0 := by
    rw [dv, sb]
    show signed ((0 : Flt P.fmt).isNegB != false) ((0 : Flt P.fmt) / 1) = _
    rw [d0]
    have : (0 : Flt P.fmt).isNegB = false := by
      show decide ((0 : ℚ) < 0) = false
      norm_num
    rw [this]
    unfold signed
    rw [zz]
    rfl
  have e2 : (negZero : SFlt P.fmt) / 1 = negZero := by
    rw [dv, sb]
    show signed true ((0 : Flt P.fmt) / 1) = _
    rw [d0]
    unfold signed
    rw [zz]
    rfl
  have e3 : (-1 : SFlt P.fmt) / 1 = -1 := by
    have n1 : (-1 : SFlt P.fmt) = of (-1) := by
      show signed _ (-(1 : Flt P.fmt)) = _
      have : (-(1 : Flt P.fmt)).isZeroB = false := by
        show decide (-(1 : ℚ) = 0) = false
        norm_num
      unfold signed
      rw [this]
      rfl
    rw [dv, n1]
    have : (-1 : Flt P.fmt) / 1 = -1 := d1 _ _
    show signed _ ((-1 : Flt P.fmt) / 1) = _
    rw [this]
    have : (-(1 : Flt P.fmt)).isZeroB = false := by
      show decide (-(1 : ℚ) = 0) = false
      norm_num
    unfold signed
    rw [this]
    rfl
  have test : (!Cmp.eq (vm.abs (0 : SFlt P.fmt)) 1) = true := by
    have : (vm.abs (0 : SFlt P.fmt)).toFlt = 0 := by
      rw [hom.abs]
      show vm.abs (0 : Flt P.fmt) = 0
      unfold vm.abs
      split
      · rfl
      · rfl
    show (!Cmp.eq (vm.abs (0 : SFlt P.fmt)).toFlt 1) = true
    rw [this]
    show (!decide ((0 : ℚ) = 1)) = true
    norm_num
  have refl : ∀ q hq, Cmp.eq (Flt.fin q hq : Flt P.fmt) (Flt.fin q hq) = true := by
    intro q hq
    show decide (_ = _) = true
    exact decide_eq_true rfl
  have r0 : Cmp.eq (0 : SFlt P.fmt) 0 = true := refl 0 P.fmt.rep_zero
  refine ⟨matOfRowMajor 4 4 ![-1, 0, 0, 0, 0, -1, 0, 0, 0, 0, 1, 0, 0, 0, 0, 1], matOfRowMajor 4 4 ![-1, 0, 0, 0, negZero, -1, 0, 0, 0, 0, 1, 0, 0, 0, 0, 1],
    ?_, ?_, ?_⟩
  · intro c r
    fin_cases c <;> fin_cases r <;> exact r0
  · unfold toEulerAnglesG
    show (if (!Cmp.eq (vm.abs (0 : SFlt P.fmt)) 1) = true then _ else _ : Vec (SFlt P.fmt) 3) 2 = pi
    rw [if_pos test]
    show atan2 (0 / cos (-asin 0)) (-1 / cos (-asin 0)) = pi
    rw [ha, hc, e1, e3, h1]
  · unfold toEulerAnglesG
    show (if (!Cmp.eq (vm.abs (0 : SFlt P.fmt)) 1) = true then _ else _ : Vec (SFlt P.fmt) 3) 2 = -pi
    rw [if_pos test]
    show atan2 (negZero / cos (-asin 0)) (-1 / cos (-asin 0)) = -pi
    rw [ha, hc, e2, e3, h2]

/-- Functions that meet the assumptions of C117_euler_fails. -/
example (pi : SFlt P.fmt) : ∃ (asin cos : SFlt P.fmt → SFlt P.fmt) (atan2 : SFlt P.fmt → SFlt P.fmt → SFlt P.fmt),
    asin 0 = 0 ∧ cos (-0) = 1 ∧ atan2 0 (-1) = pi ∧ atan2 negZero (-1) = -pi :=
  ⟨id, fun _ => 1, fun y _ => match y with
    | negZero => -pi
    | of _ => pi, rfl, rfl, rfl, rfl⟩

end vm
