import Verif.Lemmas.MatExt
import Mathlib.Analysis.SpecialFunctions.Trigonometric.Bounds

/-! # C43 to C48: rotations and quaternions

"Rotation matrix" means: the matrix is in Mathlib's special orthogonal group and maps `(0,0,0,1)` to
itself. -/

universe u

set_option linter.unusedSectionVars false
set_option linter.unusedSimpArgs false

namespace vm

/-- A linear rotation in homogeneous coordinates. -/
def IsRotation (m : Mat ℝ 4 4) : Prop :=
  toMatrix m ∈ Matrix.specialOrthogonalGroup (Fin 4) ℝ ∧ mmulVec m ![0, 0, 0, 1] = ![0, 0, 0, 1]

theorem toMatrix_transpose (m : Mat ℝ 4 4) : toMatrix (transpose m) = (toMatrix m).transpose := by
  ext i j; exact transpose_apply m j i

theorem isRotation_of (m : Mat ℝ 4 4) (h1 : mmul m (transpose m) = matId 4 4) (h2 : computeDeterminant 3 m = 1)
    (h3 : m 3 = ![0, 0, 0, 1]) : IsRotation m := by
  refine ⟨?_, ?_⟩
  · rw [Matrix.mem_specialOrthogonalGroup_iff, Matrix.mem_orthogonalGroup_iff]
    refine ⟨?_, by rw [← computeDeterminant_eq]; exact h2⟩
    rw [← toMatrix_transpose, ← toMatrix_mmul, h1, toMatrix_id]
  · funext r
    rw [mmulVec_apply, Fin.sum_univ_four]
    simp [h3]

theorem isRotation_lin4 {m : Mat ℝ 4 4} (hm : IsRotation m) :
    ∃ a b c d e f g h i : ℝ, m = lin4 a b c d e f g h i ∧
      (a*a+b*b+c*c = 1 ∧ d*d+e*e+f*f = 1 ∧ g*g+h*h+i*i = 1) ∧
      (a*a+d*d+g*g = 1 ∧ b*b+e*e+h*h = 1 ∧ c*c+f*f+i*i = 1) ∧
      (a*d+b*e+c*f = 0 ∧ a*g+b*h+c*i = 0 ∧ d*g+e*h+f*i = 0) ∧
      (e*i-f*h = a ∧ f*g-d*i = b ∧ d*h-e*g = c ∧ c*h-b*i = d ∧ a*i-c*g = e ∧ b*g-a*h = f ∧
        b*f-c*e = g ∧ c*d-a*f = h ∧ a*e-b*d = i) := by
  obtain ⟨hso, hfix⟩ := hm
  rw [Matrix.mem_specialOrthogonalGroup_iff, Matrix.mem_orthogonalGroup_iff] at hso
  obtain ⟨ho, hdet⟩ := hso
  have h3 : m 3 = ![0, 0, 0, 1] := by
    funext r
    have := congrFun hfix r
    rw [mmulVec_apply, Fin.sum_univ_four] at this
    simpa using this
  rw [← toMatrix_transpose, ← toMatrix_mmul, ← toMatrix_id] at ho
  have ho := toMatrix_inj ho
  have ent : ∀ x y, ∑ i, m i y * m i x = if x = y then 1 else 0 := by
    intro x y
    have := congrFun (congrFun ho x) y
    rw [mmul_apply, matId_apply] at this
    simpa only [transpose_apply] using this
  have h33 := ent 3 3
  rw [Fin.sum_univ_four] at h33
  simp only [h3, Matrix.cons_val, if_true, mul_one] at h33
  have z : m 0 3 = 0 ∧ m 1 3 = 0 ∧ m 2 3 = 0 := by
    refine ⟨?_, ?_, ?_⟩ <;> nlinarith [mul_self_nonneg (m 0 3), mul_self_nonneg (m 1 3), mul_self_nonneg (m 2 3)]
  have hm : m = lin4 (m 0 0) (m 1 0) (m 2 0) (m 0 1) (m 1 1) (m 2 1) (m 0 2) (m 1 2) (m 2 2) := by
    apply ext4
    intro c r
    fin_cases c <;> fin_cases r <;> simp [lin4, z, h3]
  generalize ha : m 0 0 = a at hm
  generalize hb : m 1 0 = b at hm
  generalize hc : m 2 0 = c at hm
  generalize hd : m 0 1 = d at hm
  generalize he : m 1 1 = e at hm
  generalize hf : m 2 1 = f at hm
  generalize hg : m 0 2 = g at hm
  generalize hh : m 1 2 = h at hm
  generalize hi : m 2 2 = i at hm
  have hdet' := hdet
  rw [← computeDeterminant_eq, hm, det_lin4] at hdet'
  rw [hm, transpose_lin4, mmul_lin4, matId_lin4] at ho
  have q : ∀ c r, lin4 _ _ _ _ _ _ _ _ _ c r = lin4 _ _ _ _ _ _ _ _ _ c r := fun c r => congrFun (congrFun ho c) r
  have e00 := q 0 0
  have e10 := q 1 0
  have e20 := q 2 0
  have e11 := q 1 1
  have e21 := q 2 1
  have e22 := q 2 2
  simp only [lin4, Matrix.cons_val_zero, Matrix.cons_val_one, Matrix.cons_val] at e00 e10 e20 e11 e21 e22
  -- the 3 by 3 part
  let A : Matrix (Fin 3) (Fin 3) ℝ := !![a, b, c; d, e, f; g, h, i]
  have hA : A * A.transpose = 1 := by
    ext x y
    fin_cases x <;> fin_cases y <;> simp [A, Matrix.mul_apply, Fin.sum_univ_three] <;> linarith
  have hA' : A.transpose * A = 1 := mul_eq_one_comm.1 hA
  have hdetA : A.det = 1 := by
    rw [← hdet', Matrix.det_fin_three]; simp [A]; ring
  have hadj : A.adjugate = A.transpose := by
    calc A.adjugate = A.adjugate * (A * A.transpose) := by rw [hA, mul_one]
      _ = A.transpose := by rw [← mul_assoc, Matrix.adjugate_mul, hdetA, one_smul, one_mul]
  have tr : ∀ x y, (A.transpose * A) x y = (1 : Matrix (Fin 3) (Fin 3) ℝ) x y := fun x y => by rw [hA']
  have t00 := tr 0 0
  have t11 := tr 1 1
  have t22 := tr 2 2
  simp [A, Matrix.mul_apply, Fin.sum_univ_three] at t00 t11 t22
  rw [Matrix.adjugate_fin_three] at hadj
  have ad : ∀ x y, _ = A.transpose x y := fun x y => congrFun (congrFun hadj x) y
  have a00 := ad 0 0
  have a01 := ad 0 1
  have a02 := ad 0 2
  have a10 := ad 1 0
  have a11 := ad 1 1
  have a12 := ad 1 2
  have a20 := ad 2 0
  have a21 := ad 2 1
  have a22 := ad 2 2
  simp [A] at a00 a01 a02 a10 a11 a12 a20 a21 a22
  refine ⟨a, b, c, d, e, f, g, h, i, hm, ⟨?_, ?_, ?_⟩, ⟨?_, ?_, ?_⟩, ⟨?_, ?_, ?_⟩,
    ⟨?_, ?_, ?_, ?_, ?_, ?_, ?_, ?_, ?_⟩⟩ <;> linarith

/-! ### C43 -/

theorem rotQuat_isRotation (q : Quat ℝ) (h : q.normSq = 1) : IsRotation (rotationMatrixQuat q) :=
  isRotation_of _ (rotQuat_orthogonal q h) (rotQuat_det q h) (by rw [rotQuat_lin4]; rfl)

/-- The matrix of a unit quaternion is a rotation. -/
theorem C43_quat (q : Quat ℝ) (h : q.r ^ 2 + squaredLength q.v = 1) : IsRotation (rotationMatrixQuat q) :=
  rotQuat_isRotation q (by rw [← h, squaredLength, dot3, Quat.normSq]; ring)

/-- `rotation_matrix(axis, angle)` for a unit axis is a rotation, rotates every vector by Rodrigues' formula
(so the sense of rotation is counter-clockwise), fixes the axis, and for a common axis the angles add, so that
opposite angles are inverse. -/
theorem C43_axis_angle (a v : Vec ℝ 3) (s t : ℝ) (ha : length a = 1) :
    IsRotation (rotationMatrixAxis a t) ∧
    mmulPoint (rotationMatrixAxis a t) v
      = vscale v (Real.cos t) + vscale (cross a v) (Real.sin t) + vscale a (dot a v * (1 - Real.cos t)) ∧
    mmulPoint (rotationMatrixAxis a t) a = a ∧
    mmul (rotationMatrixAxis a s) (rotationMatrixAxis a t) = rotationMatrixAxis a (s + t) ∧
    mmul (rotationMatrixAxis a t) (rotationMatrixAxis a (-t)) = matId 4 4 := by
  have ha1 : dot a a = 1 := by rw [← length_sq, ha, one_pow]
  have comp : ∀ s t, mmul (rotationMatrixAxis a s) (rotationMatrixAxis a t) = rotationMatrixAxis a (s + t) := by
    intro s t
    rw [rotAxis_eq_quat a ha1, rotAxis_eq_quat a ha1, rotAxis_eq_quat a ha1,
      ← rotQuat_mul _ _ (ofAxisAngle_normSq a ha1 _) (ofAxisAngle_normSq a ha1 _), ofAxisAngle_mul a ha1]
  have rod : ∀ v, mmulPoint (rotationMatrixAxis a t) v
      = vscale v (Real.cos t) + vscale (cross a v) (Real.sin t) + vscale a (dot a v * (1 - Real.cos t)) := by
    intro v
    rw [rotAxis_lin4, point_lin4]
    apply ext3 <;> simp [vscale, cross, dot3, Real.sin_neg] <;> ring
  refine ⟨?_, rod v, ?_, comp s t, ?_⟩
  · rw [rotAxis_eq_quat a ha1]
    exact rotQuat_isRotation _ (ofAxisAngle_normSq a ha1 t)
  · rw [rod a, ha1]
    apply ext3 <;> simp [vscale, cross] <;> ring
  · rw [comp, add_neg_cancel, rotAxis_lin4, matId_lin4]
    simp

/-- `rotation_matrix(roll, pitch, yaw)` is the rotation about x by roll, followed by the rotation about y by
pitch, followed by the rotation about z by yaw, and hence a rotation. -/
theorem C43_roll_pitch_yaw (r p y : ℝ) :
    IsRotation (rotationMatrixRPY r p y) ∧
    rotationMatrixRPY r p y = mmul (mmul (rotationMatrixAxis (vaxis 3 2) y) (rotationMatrixAxis (vaxis 3 1) p))
      (rotationMatrixAxis (vaxis 3 0) r) := by
  have heq : rotationMatrixRPY r p y = mmul (mmul (rotationMatrixAxis (vaxis 3 2) y)
      (rotationMatrixAxis (vaxis 3 1) p)) (rotationMatrixAxis (vaxis 3 0) r) := by
    rw [rotAxis_lin4, rotAxis_lin4, rotAxis_lin4]
    simp only [rotationMatrixRPY, mat4]
    congr 1
    · congr 1
      · simp [lin4, vaxis]
      · simp [lin4, vaxis]
    · simp [lin4, vaxis]
  refine ⟨?_, heq⟩
  have hx : ∀ k : Fin 3, dot (vaxis 3 k : Vec ℝ 3) (vaxis 3 k) = 1 := by
    intro k; rw [dot3]; fin_cases k <;> simp [vaxis]
  rw [heq, rotAxis_eq_quat _ (hx 2), rotAxis_eq_quat _ (hx 1), rotAxis_eq_quat _ (hx 0),
    ← rotQuat_mul _ _ (ofAxisAngle_normSq _ (hx 2) _) (ofAxisAngle_normSq _ (hx 1) _), ← rotQuat_mul]
  · apply rotQuat_isRotation
    rw [Quat.normSq_mul, Quat.normSq_mul, ofAxisAngle_normSq _ (hx 2), ofAxisAngle_normSq _ (hx 1),
      ofAxisAngle_normSq _ (hx 0)]
    ring
  · rw [Quat.normSq_mul, ofAxisAngle_normSq _ (hx 2), ofAxisAngle_normSq _ (hx 1)]; ring
  · exact ofAxisAngle_normSq _ (hx 0) _

/-- A non-trivial unit axis and a non-trivial unit quaternion. -/
example : length (![3/5, 0, 4/5] : Vec ℝ 3) = 1 := by
  rw [length, squaredLength, dot3]; simp only [Matrix.cons_val_zero, Matrix.cons_val_one, Matrix.cons_val]; norm_num
example : (1/2 : ℝ) ^ 2 + squaredLength (![1/2, 1/2, -1/2] : Vec ℝ 3) = 1 := by
  rw [squaredLength, dot3]; simp only [Matrix.cons_val_zero, Matrix.cons_val_one, Matrix.cons_val]; norm_num

/-! ### C44 -/

theorem atan2_cos_sin {x y : ℝ} (h : x * x + y * y = 1) : Real.cos (atan2 y x) = x ∧ Real.sin (atan2 y x) = y := by
  have hne : (⟨x, y⟩ : ℂ) ≠ 0 := by
    intro e
    have h1 := congrArg Complex.re e
    have h2 := congrArg Complex.im e
    simp at h1 h2
    rw [h1, h2] at h; norm_num at h
  have hn : ‖(⟨x, y⟩ : ℂ)‖ = 1 := by
    rw [Complex.norm_def, Complex.normSq_mk, h, Real.sqrt_one]
  unfold atan2
  refine ⟨?_, ?_⟩
  · rw [Complex.cos_arg hne, hn, div_one]
  · rw [Complex.sin_arg, hn, div_one]

theorem rpy_lin4 (r p y : ℝ) : rotationMatrixRPY r p y = lin4
    (Real.cos y * Real.cos p) (Real.cos y * Real.sin p * Real.sin r - Real.sin y * Real.cos r)
    (Real.cos y * Real.sin p * Real.cos r + Real.sin y * Real.sin r)
    (Real.sin y * Real.cos p) (Real.sin y * Real.sin p * Real.sin r + Real.cos y * Real.cos r)
    (Real.sin y * Real.sin p * Real.cos r - Real.cos y * Real.sin r)
    (-Real.sin p) (Real.cos p * Real.sin r) (Real.cos p * Real.cos r) := by
  have e : ∀ a b c d e f g h i : ℝ, (![![a,d,g,0],![b,e,h,0],![c,f,i,0],![0,0,0,1]] : Mat ℝ 4 4)
    = lin4 a b c d e f g h i := fun _ _ _ _ _ _ _ _ _ => rfl
  simp only [rotationMatrixRPY, mat4, e, mmul_lin4]
  congr 1 <;> ring

/-- `rotation_matrix` applied to the angles that `rotation_matrix_to_euler_angles` extracts gives back the
matrix, for every rotation matrix, including the gimbal lock cases. -/
theorem C44_euler_round_trip (m : Mat ℝ 4 4) (hm : IsRotation m) :
    rotationMatrixRPY (toEulerAngles m 0) (toEulerAngles m 1) (toEulerAngles m 2) = m := by
  obtain ⟨a, b, c, d, e, f, g, h, i, rfl, ⟨r0, r1, r2⟩, ⟨c0, c1, c2⟩, ⟨o1, o2, o3⟩,
    ⟨k1, k2, k3, k4, k5, k6, k7, k8, k9⟩⟩ := isRotation_lin4 hm
  rw [rpy_lin4]
  have hg1 : g * g ≤ 1 := by linarith [mul_self_nonneg a, mul_self_nonneg d]
  have habs : |g| ≤ 1 := by rw [← sq_le_one_iff_abs_le_one, pow_two]; exact hg1
  have hgl : -1 ≤ g := (abs_le.1 habs).1
  have hgu : g ≤ 1 := (abs_le.1 habs).2
  have m02 : (lin4 a b c d e f g h i : Mat ℝ 4 4) 0 2 = g := rfl
  have m12 : (lin4 a b c d e f g h i : Mat ℝ 4 4) 1 2 = h := rfl
  have m22 : (lin4 a b c d e f g h i : Mat ℝ 4 4) 2 2 = i := rfl
  have m01 : (lin4 a b c d e f g h i : Mat ℝ 4 4) 0 1 = d := rfl
  have m00 : (lin4 a b c d e f g h i : Mat ℝ 4 4) 0 0 = a := rfl
  have m10 : (lin4 a b c d e f g h i : Mat ℝ 4 4) 1 0 = b := rfl
  have m20 : (lin4 a b c d e f g h i : Mat ℝ 4 4) 2 0 = c := rfl
  by_cases hgi : |g| = 1
  · have hg2 : g * g = 1 := by rw [← abs_mul_abs_self, hgi, one_mul]
    have za : a = 0 := mul_self_eq_zero.1 (le_antisymm (by linarith [mul_self_nonneg d]) (mul_self_nonneg a))
    have zd : d = 0 := mul_self_eq_zero.1 (le_antisymm (by linarith [mul_self_nonneg a]) (mul_self_nonneg d))
    have zh : h = 0 := mul_self_eq_zero.1 (le_antisymm (by linarith [mul_self_nonneg i]) (mul_self_nonneg h))
    have zi : i = 0 := mul_self_eq_zero.1 (le_antisymm (by linarith [mul_self_nonneg h]) (mul_self_nonneg i))
    subst za zd zh zi
    rcases abs_eq (by norm_num : (0:ℝ) ≤ 1) |>.1 hgi with hg | hg
    · subst hg
      have hE : toEulerAngles (lin4 0 b c 0 e f 1 0 0) = ![atan2 (-b) (-c), -(Real.pi / 2), 0] := by
        unfold toEulerAngles
        rw [m02, m10, m20]
        rw [if_neg (by simp), if_neg (by norm_num)]
      rw [hE]
      obtain ⟨hc', hs'⟩ := atan2_cos_sin (x := -c) (y := -b) (by linear_combination r0)
      simp only [Matrix.cons_val_zero, Matrix.cons_val_one, Matrix.cons_val]
      rw [hc', hs', Real.sin_neg, Real.cos_neg, Real.sin_pi_div_two, Real.cos_pi_div_two, Real.sin_zero,
        Real.cos_zero]
      congr 1 <;> linarith
    · subst hg
      have hE : toEulerAngles (lin4 0 b c 0 e f (-1) 0 0) = ![atan2 b c, Real.pi / 2, 0] := by
        unfold toEulerAngles
        rw [m02, m10, m20]
        rw [if_neg (by simp), if_pos rfl]
      rw [hE]
      obtain ⟨hc', hs'⟩ := atan2_cos_sin (x := c) (y := b) (by linear_combination r0)
      simp only [Matrix.cons_val_zero, Matrix.cons_val_one, Matrix.cons_val]
      rw [hc', hs', Real.sin_pi_div_two, Real.cos_pi_div_two, Real.sin_zero, Real.cos_zero]
      congr 1 <;> linarith
  · have hlt : g * g < 1 := by
      refine lt_of_le_of_ne hg1 fun e => hgi ?_
      rw [← abs_one (α := ℝ), ← sq_eq_sq_iff_abs_eq_abs, pow_two, one_pow]; exact e
    set C := Real.sqrt (1 - g ^ 2) with hC
    have hCpos : 0 < C := Real.sqrt_pos.2 (by rw [pow_two]; linarith)
    have hCsq : C * C = 1 - g * g := by
      rw [hC, Real.mul_self_sqrt (by rw [pow_two]; linarith)]; ring
    have hcos : Real.cos (-Real.arcsin g) = C := by rw [Real.cos_neg, Real.cos_arcsin]
    have hsin : Real.sin (-Real.arcsin g) = -g := by rw [Real.sin_neg, Real.sin_arcsin hgl hgu]
    have hE : toEulerAngles (lin4 a b c d e f g h i)
        = ![atan2 (h / C) (i / C), -Real.arcsin g, atan2 (d / C) (a / C)] := by
      unfold toEulerAngles
      rw [m02, m12, m22, m01, m00, m10, m20]
      rw [if_pos (by simpa using hgi)]
      simp only [hcos]
    have hC2' : C * C ≠ 0 := (mul_pos hCpos hCpos).ne'
    obtain ⟨hc1, hs1⟩ := atan2_cos_sin (x := i / C) (y := h / C) (by rw [div_mul_div_comm, div_mul_div_comm, ← add_div, div_eq_one_iff_eq hC2', hCsq]; linarith)
    obtain ⟨hc2, hs2⟩ := atan2_cos_sin (x := a / C) (y := d / C) (by rw [div_mul_div_comm, div_mul_div_comm, ← add_div, div_eq_one_iff_eq hC2', hCsq]; linarith)
    rw [hE]
    simp only [Matrix.cons_val_zero, Matrix.cons_val_one, Matrix.cons_val]
    rw [hc1, hs1, hc2, hs2, hcos, hsin]
    have hC2 : C * C ≠ 0 := (mul_pos hCpos hCpos).ne'
    have hCne : C ≠ 0 := hCpos.ne'
    have dv : ∀ x z : ℝ, x = z * (1 - g * g) → x / (C * C) = z := by
      intro x z hxz
      rw [div_eq_iff hC2, hCsq, hxz]
    congr 1
    · field_simp
    · rw [← dv (-(a * g * h) - d * i) b (by linear_combination (-h) * o2 + i * k4 + b * r2)]
      field_simp
    · rw [← dv (-(a * g * i) + d * h) c (by linear_combination (-i) * o2 + (-h) * k4 + c * r2)]
      field_simp
    · field_simp
    · rw [← dv (-(d * g * h) + a * i) e (by linear_combination (-h) * o3 + (-i) * k1 + e * r2)]
      field_simp
    · rw [← dv (-(d * g * i) - a * h) f (by linear_combination (-i) * o3 + h * k1 + f * r2)]
      field_simp
    · ring
    · field_simp
    · field_simp

/-- The hypothesis holds for a rotation about a tilted axis, and for a matrix in gimbal lock. -/
example : IsRotation (rotationMatrixAxis ![3/5, 0, 4/5] 1) :=
  (C43_axis_angle _ 0 0 1 (by
    rw [length, squaredLength, dot3]; simp only [Matrix.cons_val_zero, Matrix.cons_val_one, Matrix.cons_val]
    norm_num)).1
example : IsRotation (rotationMatrixRPY 1 (Real.pi / 2) 2) ∧ rotationMatrixRPY 1 (Real.pi / 2) 2 0 2 = -1 := by
  refine ⟨(C43_roll_pitch_yaw 1 _ 2).1, ?_⟩
  rw [rpy_lin4]; simp [lin4]

end vm
