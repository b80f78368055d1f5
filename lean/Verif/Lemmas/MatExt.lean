import Verif.Model.MatExt
import Verif.Lemmas.Mat
import Verif.Lemmas.BBox
import Verif.Lemmas.Vec
import Mathlib.LinearAlgebra.UnitaryGroup
import Mathlib.Tactic.LinearCombination
import Mathlib.Tactic.FinCases
import Mathlib.Tactic.FieldSimp

/-! Helper lemmas about quaternions and transformation matrices. -/

universe u

set_option linter.unusedSectionVars false
set_option linter.unusedSimpArgs false

namespace vm

theorem mat4 {T : Type u} (a b c d e f g h i j k l m n o p : T) :
    matOfRowMajor 4 4 ![a,b,c,d,e,f,g,h,i,j,k,l,m,n,o,p]
      = ![![a,e,i,m],![b,f,j,n],![c,g,k,o],![d,h,l,p]] := by
  funext x y; fin_cases x <;> fin_cases y <;> rfl

/-- Linear 4 by 4 matrix from the rows of a 3 by 3 matrix. -/
def lin4 {T : Type u} [Zero T] [One T] (a b c d e f g h i : T) : Mat T 4 4 :=
  ![![a,d,g,0],![b,e,h,0],![c,f,i,0],![0,0,0,1]]

theorem ext4 {T : Type u} {m n : Mat T 4 4} (h : ∀ c r, m c r = n c r) : m = n :=
  funext fun c => funext fun r => h c r

section foldl_mset
variable {T : Type u} {R C : ℕ}

theorem foldl_mset_miss : ∀ (n : ℕ) (ri : Fin n → Fin R) (ci : Fin n → Fin C) (g : Fin n → T) (m : Mat T R C)
    (c : Fin C) (r : Fin R), (∀ i, ¬ (ci i = c ∧ ri i = r)) →
    Fin.foldl n (fun m i => mset m (ri i) (ci i) (g i)) m c r = m c r := by
  intro n
  induction n with
  | zero => intros; simp
  | succ n ih =>
    intro ri ci g m c r h
    rw [Fin.foldl_succ]
    rw [ih (fun i => ri i.succ) (fun i => ci i.succ) (fun i => g i.succ) _ c r (fun i => h i.succ), mset_apply,
      if_neg]
    rintro ⟨h1, h2⟩
    exact h 0 ⟨h1.symm, h2.symm⟩

theorem foldl_mset_hit : ∀ (n : ℕ) (ri : Fin n → Fin R) (ci : Fin n → Fin C) (g : Fin n → T) (m : Mat T R C)
    (_ : ∀ i j, ci i = ci j → ri i = ri j → i = j) (i : Fin n),
    Fin.foldl n (fun m i => mset m (ri i) (ci i) (g i)) m (ci i) (ri i) = g i := by
  intro n
  induction n with
  | zero => intro _ _ _ _ _ i; exact i.elim0
  | succ n ih =>
    intro ri ci g m hinj i
    rw [Fin.foldl_succ]
    refine Fin.cases ?_ (fun i => ?_) i
    · rw [foldl_mset_miss n (fun i => ri i.succ) (fun i => ci i.succ) (fun i => g i.succ), mset_apply, if_pos ⟨rfl, rfl⟩]
      rintro j ⟨h1, h2⟩
      exact Fin.succ_ne_zero j (hinj _ _ h1 h2)
    · exact ih (fun i => ri i.succ) (fun i => ci i.succ) (fun i => g i.succ) _
        (fun a b h1 h2 => Fin.succ_injective _ (hinj _ _ h1 h2)) i

end foldl_mset

section affine
variable {T : Type u} {S : ℕ}

theorem matId_apply [Zero T] [One T] (c r : Fin S) : (matId S S : Mat T S S) c r = if c = r then 1 else 0 := by
  simp [matId, Fin.ext_iff]

theorem translation_last [Zero T] [One T] (d : Vec T S) (i : Fin S) :
    translationMatrix d (Fin.last S) i.castSucc = d i := by
  unfold translationMatrix
  exact foldl_mset_hit S (fun i => i.castSucc) (fun _ => Fin.last S) d _
    (fun a b _ h => Fin.castSucc_injective _ h) i

theorem translation_cast [Zero T] [One T] (d : Vec T S) (c : Fin S) (r : Fin (S + 1)) :
    translationMatrix d c.castSucc r = if c.castSucc = r then 1 else 0 := by
  unfold translationMatrix
  rw [foldl_mset_miss S (fun i => i.castSucc) (fun _ => Fin.last S) d, matId_apply]
  rintro i ⟨h, -⟩
  exact absurd h.symm (Fin.castSucc_lt_last c).ne

theorem translation_corner [Zero T] [One T] (d : Vec T S) :
    translationMatrix d (Fin.last S) (Fin.last S) = 1 := by
  unfold translationMatrix
  rw [foldl_mset_miss S (fun i => i.castSucc) (fun _ => Fin.last S) d, matId_apply, if_pos rfl]
  rintro i ⟨-, h⟩
  exact absurd h (Fin.castSucc_lt_last i).ne

theorem scaling_cast [Zero T] [One T] (f : Vec T S) (i j : Fin S) :
    scalingMatrix f i.castSucc j.castSucc = if i = j then f i else 0 := by
  unfold scalingMatrix
  by_cases h : i = j
  · subst h
    rw [if_pos rfl]
    exact foldl_mset_hit S (fun i => i.castSucc) (fun i => i.castSucc) f _
      (fun a b _ h => Fin.castSucc_injective _ h) i
  · rw [foldl_mset_miss S (fun i => i.castSucc) (fun i => i.castSucc) f, matId_apply, if_neg, if_neg h]
    · exact fun e => h (Fin.castSucc_injective _ e)
    · rintro k ⟨h1, h2⟩
      exact h (Fin.castSucc_injective _ (h1.symm.trans h2))

theorem scaling_cast_last [Zero T] [One T] (f : Vec T S) (i : Fin S) :
    scalingMatrix f i.castSucc (Fin.last S) = 0 := by
  unfold scalingMatrix
  rw [foldl_mset_miss S (fun i => i.castSucc) (fun i => i.castSucc) f, matId_apply, if_neg]
  · exact (Fin.castSucc_lt_last i).ne
  · rintro k ⟨-, h2⟩
    exact absurd h2 (Fin.castSucc_lt_last k).ne

theorem scaling_last [Zero T] [One T] (f : Vec T S) (r : Fin (S + 1)) :
    scalingMatrix f (Fin.last S) r = if Fin.last S = r then 1 else 0 := by
  unfold scalingMatrix
  rw [foldl_mset_miss S (fun i => i.castSucc) (fun i => i.castSucc) f, matId_apply]
  rintro k ⟨h, -⟩
  exact absurd h (Fin.castSucc_lt_last k).ne

end affine

section field
variable {K : Type u} [Field K] {S : ℕ}

theorem translation_point (d p : Vec K S) : mmulPoint (translationMatrix d) p = p + d := by
  funext i
  rw [mmulPoint_apply]
  simp only [translation_last, translation_cast, translation_corner, Fin.castSucc_inj]
  have h : ∀ c : Fin S, (c.castSucc = Fin.last S) = False := fun c => by
    simp [(Fin.castSucc_lt_last c).ne]
  simp [h]

theorem scaling_point (f p : Vec K S) : mmulPoint (scalingMatrix f) p = fun i => f i * p i := by
  funext i
  rw [mmulPoint_apply]
  simp only [scaling_cast, scaling_cast_last, scaling_last]
  have h : ∀ c : Fin S, (Fin.last S = c.castSucc) = False := fun c => by
    simp [(Fin.castSucc_lt_last c).ne']
  simp [h]

/-- The homogeneous coordinate that `matrix * point` divides by. -/
def homCoord (m : Mat K (S + 1) (S + 1)) (p : Vec K S) : K :=
  ∑ c : Fin S, m c.castSucc (Fin.last S) * p c + m (Fin.last S) (Fin.last S)

theorem mmulPoint_eq (m : Mat K (S + 1) (S + 1)) (p : Vec K S) (i : Fin S) :
    mmulPoint m p i = (∑ c : Fin S, m c.castSucc i.castSucc * p c + m (Fin.last S) i.castSucc) / homCoord m p :=
  mmulPoint_apply m p i

/-- Row `r` of `m` applied to `(p, 1)`. -/
def affRow (m : Mat K (S + 1) (S + 1)) (p : Vec K S) (r : Fin (S + 1)) : K :=
  ∑ c : Fin S, m c.castSucc r * p c + m (Fin.last S) r

theorem affRow_mmul (a b : Mat K (S + 1) (S + 1)) (p : Vec K S) (r : Fin (S + 1)) :
    affRow (mmul a b) p r
      = ∑ i : Fin S, a i.castSucc r * affRow b p i.castSucc + a (Fin.last S) r * affRow b p (Fin.last S) := by
  simp only [affRow, mmul_apply, Fin.sum_univ_castSucc]
  simp only [add_mul, mul_add, Finset.sum_mul, Finset.mul_sum, Finset.sum_add_distrib]
  rw [Finset.sum_comm]
  simp only [mul_assoc]
  abel

theorem homCoord_mmul (a b : Mat K (S + 1) (S + 1)) (p : Vec K S) (hb : homCoord b p ≠ 0) :
    homCoord (mmul a b) p = homCoord a (mmulPoint b p) * homCoord b p := by
  have e : homCoord (mmul a b) p = affRow (mmul a b) p (Fin.last S) := rfl
  have eb : affRow b p (Fin.last S) = homCoord b p := rfl
  rw [e, affRow_mmul, eb]
  unfold homCoord
  rw [add_mul, Finset.sum_mul]
  congr 1
  refine Finset.sum_congr rfl fun i _ => ?_
  rw [mmulPoint_eq, mul_assoc]
  congr 1
  exact (div_mul_cancel₀ _ hb).symm

/-- Composition of projective maps. -/
theorem mmulPoint_mmul (a b : Mat K (S + 1) (S + 1)) (p : Vec K S) (hb : homCoord b p ≠ 0) :
    mmulPoint (mmul a b) p = mmulPoint a (mmulPoint b p) := by
  funext r
  rw [mmulPoint_eq, mmulPoint_eq, homCoord_mmul a b p hb]
  have e : ∑ c : Fin S, mmul a b c.castSucc r.castSucc * p c + mmul a b (Fin.last S) r.castSucc
    = affRow (mmul a b) p r.castSucc := rfl
  have eb : affRow b p (Fin.last S) = homCoord b p := rfl
  rw [e, affRow_mmul, eb]
  have e2 : ∑ i : Fin S, a i.castSucc r.castSucc * affRow b p i.castSucc + a (Fin.last S) r.castSucc * homCoord b p
      = (∑ i : Fin S, a i.castSucc r.castSucc * mmulPoint b p i + a (Fin.last S) r.castSucc) * homCoord b p := by
    rw [add_mul, Finset.sum_mul]
    congr 1
    refine Finset.sum_congr rfl fun i _ => ?_
    rw [mmulPoint_eq, mul_assoc]
    congr 1
    exact (div_mul_cancel₀ _ hb).symm
  rw [e2, mul_div_mul_right _ _ hb]

theorem homCoord_translation (d p : Vec K S) : homCoord (translationMatrix d) p = 1 := by
  have h : ∀ c : Fin S, (c.castSucc = Fin.last S) = False := fun c => by
    simp [(Fin.castSucc_lt_last c).ne]
  simp [homCoord, translation_cast, translation_corner, h]

theorem homCoord_scaling (d p : Vec K S) : homCoord (scalingMatrix d) p = 1 := by
  simp [homCoord, scaling_cast_last, scaling_last]

end field

section mat3
variable {K : Type u} [Field K]

theorem mmulPoint3' (m : Mat K 4 4) (p : Vec K 3) (i : Fin 3) :
    mmulPoint m p i = (m 0 i.castSucc * p 0 + m 1 i.castSucc * p 1 + m 2 i.castSucc * p 2 + m 3 i.castSucc)
      / (m 0 3 * p 0 + m 1 3 * p 1 + m 2 3 * p 2 + m 3 3) := by
  rw [mmulPoint_apply, Fin.sum_univ_three, Fin.sum_univ_three]; rfl

/-- Points transformed by a matrix with last row `0 0 0 1`. -/
theorem mmulPoint_affine (a b c d e f g h i x y z : K) (p : Vec K 3) :
    mmulPoint ![![a,d,g,0],![b,e,h,0],![c,f,i,0],![x,y,z,1]] p
      = ![a * p 0 + b * p 1 + c * p 2 + x, d * p 0 + e * p 1 + f * p 2 + y, g * p 0 + h * p 1 + i * p 2 + z] := by
  funext j
  rw [mmulPoint3']
  fin_cases j <;> simp

theorem homCoord_affine (a b c d e f g h i x y z : K) (p : Vec K 3) :
    homCoord (S := 3) ![![a,d,g,0],![b,e,h,0],![c,f,i,0],![x,y,z,1]] p = 1 := by
  rw [homCoord, Fin.sum_univ_three]
  have e0 : (Fin.castSucc (0 : Fin 3) : Fin 4) = 0 := rfl
  have e1 : (Fin.castSucc (1 : Fin 3) : Fin 4) = 1 := rfl
  have e2 : (Fin.castSucc (2 : Fin 3) : Fin 4) = 2 := rfl
  have e3 : (Fin.last 3 : Fin 4) = 3 := rfl
  simp [e0, e1, e2, e3]

theorem det_affine (a b c d e f g h i x y z : K) :
    computeDeterminant 3 ![![a,d,g,0],![b,e,h,0],![c,f,i,0],![x,y,z,1]]
      = a * (e * i - f * h) - b * (d * i - f * g) + c * (d * h - e * g) := by
  simp [computeDeterminant, Fin.foldl_succ, extractMinor, Fin.succAbove]
  ring

theorem mmul_lin4 (a b c d e f g h i a' b' c' d' e' f' g' h' i' : K) :
    mmul (lin4 a b c d e f g h i) (lin4 a' b' c' d' e' f' g' h' i')
      = lin4 (a*a'+b*d'+c*g') (a*b'+b*e'+c*h') (a*c'+b*f'+c*i')
          (d*a'+e*d'+f*g') (d*b'+e*e'+f*h') (d*c'+e*f'+f*i')
          (g*a'+h*d'+i*g') (g*b'+h*e'+i*h') (g*c'+h*f'+i*i') := by
  apply ext4; intro x y
  rw [mmul_apply, Fin.sum_univ_four]
  fin_cases x <;> fin_cases y <;> simp [lin4]

theorem transpose_lin4 (a b c d e f g h i : K) :
    transpose (lin4 a b c d e f g h i) = lin4 a d g b e h c f i := by
  apply ext4; intro x y
  rw [transpose_apply]
  fin_cases x <;> fin_cases y <;> simp [lin4]

theorem matId_lin4 : (matId 4 4 : Mat K 4 4) = lin4 1 0 0 0 1 0 0 0 1 := by
  apply ext4; intro x y
  fin_cases x <;> fin_cases y <;> simp [lin4, matId]

theorem point_lin4 (a b c d e f g h i : K) (p : Vec K 3) :
    mmulPoint (lin4 a b c d e f g h i) p
      = ![a * p 0 + b * p 1 + c * p 2, d * p 0 + e * p 1 + f * p 2, g * p 0 + h * p 1 + i * p 2] := by
  rw [lin4, mmulPoint_affine]; simp

theorem homCoord_lin4 (a b c d e f g h i : K) (p : Vec K 3) : homCoord (S := 3) (lin4 a b c d e f g h i) p = 1 :=
  homCoord_affine a b c d e f g h i 0 0 0 p

theorem det_lin4 (a b c d e f g h i : K) : computeDeterminant 3 (lin4 a b c d e f g h i)
    = a * (e * i - f * h) - b * (d * i - f * g) + c * (d * h - e * g) := by
  rw [lin4, det_affine]

theorem rotQuat_lin4 (q : Quat K) : rotationMatrixQuat q =
    lin4 (1 - 2 * (q.v 1 * q.v 1 + q.v 2 * q.v 2)) (2 * (q.v 0 * q.v 1 - q.v 2 * q.r))
      (2 * (q.v 0 * q.v 2 + q.v 1 * q.r)) (2 * (q.v 0 * q.v 1 + q.v 2 * q.r))
      (1 - 2 * (q.v 0 * q.v 0 + q.v 2 * q.v 2)) (2 * (q.v 1 * q.v 2 - q.v 0 * q.r))
      (2 * (q.v 0 * q.v 2 - q.v 1 * q.r)) (2 * (q.v 1 * q.v 2 + q.v 0 * q.r))
      (1 - 2 * (q.v 0 * q.v 0 + q.v 1 * q.v 1)) := by
  simp only [rotationMatrixQuat, mat4]; rfl

/-- Squared norm of a quaternion. -/
def Quat.normSq (q : Quat K) : K := q.r * q.r + q.v 0 * q.v 0 + q.v 1 * q.v 1 + q.v 2 * q.v 2

theorem Quat.ext' {T : Type u} {p q : Quat T} (hr : p.r = q.r) (hv : p.v = q.v) : p = q := by
  cases p; cases q; simp_all

theorem Quat.normSq_mul (p q : Quat K) : (p.mul q).normSq = p.normSq * q.normSq := by
  simp only [Quat.normSq, Quat.mul, dot3, Matrix.cons_val_zero, Matrix.cons_val_one, Matrix.cons_val]
  ring

theorem Quat.rotate_apply (q : Quat K) (p : Vec K 3) : q.rotate p =
    ![(q.r*q.r + q.v 0*q.v 0 - q.v 1*q.v 1 - q.v 2*q.v 2) * p 0 + 2*(q.v 0*q.v 1 - q.v 2*q.r) * p 1
        + 2*(q.v 0*q.v 2 + q.v 1*q.r) * p 2,
      2*(q.v 0*q.v 1 + q.v 2*q.r) * p 0 + (q.r*q.r - q.v 0*q.v 0 + q.v 1*q.v 1 - q.v 2*q.v 2) * p 1
        + 2*(q.v 1*q.v 2 - q.v 0*q.r) * p 2,
      2*(q.v 0*q.v 2 - q.v 1*q.r) * p 0 + 2*(q.v 1*q.v 2 + q.v 0*q.r) * p 1
        + (q.r*q.r - q.v 0*q.v 0 - q.v 1*q.v 1 + q.v 2*q.v 2) * p 2] := by
  apply ext3 <;>
    simp only [Quat.rotate, Quat.mul, Quat.conjugate, dot3, Matrix.cons_val_zero, Matrix.cons_val_one,
      Matrix.cons_val, Pi.neg_apply] <;> ring

theorem rotQuat_lin4_unit (q : Quat K) (h : q.normSq = 1) : rotationMatrixQuat q =
    lin4 (q.r*q.r + q.v 0*q.v 0 - q.v 1*q.v 1 - q.v 2*q.v 2) (2 * (q.v 0 * q.v 1 - q.v 2 * q.r))
      (2 * (q.v 0 * q.v 2 + q.v 1 * q.r)) (2 * (q.v 0 * q.v 1 + q.v 2 * q.r))
      (q.r*q.r - q.v 0*q.v 0 + q.v 1*q.v 1 - q.v 2*q.v 2) (2 * (q.v 1 * q.v 2 - q.v 0 * q.r))
      (2 * (q.v 0 * q.v 2 - q.v 1 * q.r)) (2 * (q.v 1 * q.v 2 + q.v 0 * q.r))
      (q.r*q.r - q.v 0*q.v 0 - q.v 1*q.v 1 + q.v 2*q.v 2) := by
  unfold Quat.normSq at h
  rw [rotQuat_lin4]
  congr 1 <;> linear_combination -h

theorem rotQuat_mul (p q : Quat K) (hp : p.normSq = 1) (hq : q.normSq = 1) :
    rotationMatrixQuat (p.mul q) = mmul (rotationMatrixQuat p) (rotationMatrixQuat q) := by
  rw [rotQuat_lin4_unit p hp, rotQuat_lin4_unit q hq,
    rotQuat_lin4_unit _ (by rw [Quat.normSq_mul, hp, hq, one_mul]), mmul_lin4]
  congr 1 <;>
    simp only [Quat.mul, dot3, Matrix.cons_val_zero, Matrix.cons_val_one, Matrix.cons_val] <;> ring

theorem rotQuat_conj (q : Quat K) : rotationMatrixQuat q.conjugate = transpose (rotationMatrixQuat q) := by
  rw [rotQuat_lin4, rotQuat_lin4, transpose_lin4]
  congr 1 <;> simp only [Quat.conjugate, Pi.neg_apply] <;> ring

theorem rotQuat_orthogonal (q : Quat K) (h : q.normSq = 1) :
    mmul (rotationMatrixQuat q) (transpose (rotationMatrixQuat q)) = matId 4 4 := by
  have hc : q.conjugate.normSq = 1 := by
    rw [← h]; simp only [Quat.normSq, Quat.conjugate, Pi.neg_apply]; ring
  rw [← rotQuat_conj, ← rotQuat_mul q _ h hc, matId_lin4, rotQuat_lin4]
  have e : q.mul q.conjugate = ⟨1, 0⟩ := by
    apply Quat.ext'
    · rw [← h]
      simp only [Quat.mul, Quat.conjugate, dot3, Quat.normSq, Pi.neg_apply]; ring
    · apply ext3 <;>
        simp only [Quat.mul, Quat.conjugate, Pi.neg_apply, Matrix.cons_val_zero, Matrix.cons_val_one,
          Matrix.cons_val, Pi.zero_apply] <;> ring
  rw [e]
  simp

theorem rotQuat_det (q : Quat K) (h : q.normSq = 1) : computeDeterminant 3 (rotationMatrixQuat q) = 1 := by
  rw [rotQuat_lin4_unit q h, det_lin4]
  have : (1 : K) = q.normSq ^ 3 := by rw [h, one_pow]
  rw [this, Quat.normSq]; ring

end mat3

section real

theorem ofAxisAngle_normSq (a : Vec ℝ 3) (ha : dot a a = 1) (t : ℝ) : (Quat.ofAxisAngle a t).normSq = 1 := by
  simp only [Quat.normSq, Quat.ofAxisAngle, vscale]
  rw [dot3] at ha
  linear_combination Real.sin (t / 2) ^ 2 * ha + Real.sin_sq_add_cos_sq (t / 2)

theorem ofAxisAngle_mul (a : Vec ℝ 3) (ha : dot a a = 1) (s t : ℝ) :
    (Quat.ofAxisAngle a s).mul (Quat.ofAxisAngle a t) = Quat.ofAxisAngle a (s + t) := by
  have e1 : Real.cos ((s + t) / 2) = Real.cos (s/2) * Real.cos (t/2) - Real.sin (s/2) * Real.sin (t/2) := by
    rw [add_div, Real.cos_add]
  have e2 : Real.sin ((s + t) / 2) = Real.sin (s/2) * Real.cos (t/2) + Real.cos (s/2) * Real.sin (t/2) := by
    rw [add_div, Real.sin_add]
  rw [dot3] at ha
  apply Quat.ext'
  · simp only [Quat.mul, Quat.ofAxisAngle, vscale, dot3, e1]
    linear_combination -(Real.sin (s/2) * Real.sin (t/2)) * ha
  · apply ext3 <;> simp only [Quat.mul, Quat.ofAxisAngle, vscale, dot3, e2, Matrix.cons_val_zero,
      Matrix.cons_val_one, Matrix.cons_val] <;> ring

/-- The matrix for axis and angle is the matrix of the corresponding quaternion. -/
theorem rotAxis_eq_quat (a : Vec ℝ 3) (ha : dot a a = 1) (t : ℝ) :
    rotationMatrixAxis a t = rotationMatrixQuat (Quat.ofAxisAngle a t) := by
  have hc : Real.cos t = 1 - 2 * Real.sin (t/2) ^ 2 := by
    have := Real.cos_sq_add_sin_sq (t/2)
    have h2 : Real.cos t = 2 * Real.cos (t/2) ^ 2 - 1 := by
      rw [← Real.cos_two_mul]; congr 1; ring
    rw [h2]; linear_combination 2 * this
  have hs : Real.sin t = 2 * Real.sin (t/2) * Real.cos (t/2) := by
    rw [← Real.sin_two_mul]; congr 1; ring
  rw [rotQuat_lin4]
  simp only [rotationMatrixAxis, mat4, Real.sin_neg, Real.cos_neg, hc, hs, Quat.ofAxisAngle, vscale]
  rw [dot3] at ha
  have ea : ∀ a b c d e f g h i : ℝ, (![![a,d,g,0],![b,e,h,0],![c,f,i,0],![0,0,0,1]] : Mat ℝ 4 4)
    = lin4 a b c d e f g h i := fun _ _ _ _ _ _ _ _ _ => rfl
  rw [ea]
  congr 1
  · linear_combination 2 * Real.sin (t/2) ^ 2 * ha
  · ring
  · ring
  · ring
  · linear_combination 2 * Real.sin (t/2) ^ 2 * ha
  · ring
  · ring
  · ring
  · linear_combination 2 * Real.sin (t/2) ^ 2 * ha

theorem rotAxis_lin4 (a : Vec ℝ 3) (t : ℝ) : rotationMatrixAxis a t =
    lin4 ((1 - Real.cos t) * a 0 * a 0 + Real.cos t) ((1 - Real.cos t) * a 0 * a 1 + Real.sin (-t) * a 2)
      ((1 - Real.cos t) * a 0 * a 2 - Real.sin (-t) * a 1) ((1 - Real.cos t) * a 0 * a 1 - Real.sin (-t) * a 2)
      ((1 - Real.cos t) * a 1 * a 1 + Real.cos t) ((1 - Real.cos t) * a 1 * a 2 + Real.sin (-t) * a 0)
      ((1 - Real.cos t) * a 0 * a 2 + Real.sin (-t) * a 1) ((1 - Real.cos t) * a 1 * a 2 - Real.sin (-t) * a 0)
      ((1 - Real.cos t) * a 2 * a 2 + Real.cos t) := by
  simp only [rotationMatrixAxis, mat4, Real.cos_neg]; rfl

end real
end vm
