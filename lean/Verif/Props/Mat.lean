import Verif.Lemmas.Mat

/-! # C37 to C41: matrix algebra, determinant, adjugate, linear systems and inverse

The specification side uses the mathematical matrix `toMatrix m`, whose entry in row `r` and column `c` is
`m[c][r]`. -/

universe u

set_option linter.unusedSectionVars false
set_option linter.unusedSimpArgs false

namespace vm

/-! ### C37 -/
section C37
variable {A : Type u} [CommRing A] {R C S : ℕ}

/-- Matrix multiplication is associative and distributive, with the default constructed matrix as unit. -/
theorem C37_mul {P Q : ℕ} (a : Mat A R C) (b b' : Mat A C P) (c : Mat A P Q) :
    mmul (mmul a b) c = mmul a (mmul b c) ∧ mmul a (b + b') = mmul a b + mmul a b' ∧
    mmul (b + b') c = mmul b c + mmul b' c ∧
    mmul (matId R R) a = a ∧ mmul a (matId C C) = a := by
  refine ⟨?_, ?_, ?_, ?_, ?_⟩ <;> apply toMatrix_inj
  · simp only [toMatrix_mmul, Matrix.mul_assoc]
  · simp only [toMatrix_mmul, toMatrix_add, Matrix.mul_add]
  · simp only [toMatrix_mmul, toMatrix_add, Matrix.add_mul]
  · rw [toMatrix_mmul, toMatrix_id, Matrix.one_mul]
  · rw [toMatrix_mmul, toMatrix_id, Matrix.mul_one]

/-- Scalar multiplication commutes with matrix multiplication. -/
theorem C37_scale {P : ℕ} (a : Mat A R C) (b : Mat A C P) (k : A) :
    mmul (mscale a k) b = mscale (mmul a b) k ∧ mmul a (mscale b k) = mscale (mmul a b) k := by
  constructor <;> apply toMatrix_inj <;> simp only [toMatrix_mmul, toMatrix_scale]
  · exact Matrix.smul_mul _ _ _
  · exact Matrix.mul_smul _ _ _

/-- `transpose` exchanges rows and columns (for every element type, in place, by swaps), is an involution
and reverses products. -/
theorem C37_transpose (a b : Mat A S S) :
    (∀ c r, transpose a c r = a r c) ∧ transpose (transpose a) = a ∧
    transpose (mmul a b) = mmul (transpose b) (transpose a) := by
  refine ⟨transpose_apply a, ?_, ?_⟩
  · funext c r; rw [transpose_apply, transpose_apply]
  · funext c r
    simp only [transpose_apply, mmul_apply]
    exact Finset.sum_congr rfl fun i _ => mul_comm _ _

/-- Matrix-vector multiplication is compatible with products, with the unit matrix and with `transpose`. -/
theorem C37_vector (a b : Mat A S S) (v : Vec A S) :
    mmulVec (mmul a b) v = mmulVec a (mmulVec b v) ∧ vmulMat v (mmul a b) = vmulMat (vmulMat v a) b ∧
    mmulVec (matId S S) v = v ∧ vmulMat v (matId S S) = v ∧ vmulMat v a = mmulVec (transpose a) v := by
  refine ⟨?_, ?_, ?_, ?_, ?_⟩
  · simp only [mmulVec_eq, toMatrix_mmul, Matrix.mulVec_mulVec]
  · simp only [vmulMat_eq, toMatrix_mmul, Matrix.vecMul_vecMul]
  · rw [mmulVec_eq, toMatrix_id, Matrix.one_mulVec]
  · rw [vmulMat_eq, toMatrix_id, Matrix.vecMul_one]
  · funext c
    rw [vmulMat, dot_eq_sum, mmulVec_apply]
    exact Finset.sum_congr rfl fun i _ => by rw [transpose_apply, mul_comm]

example : mmul (![![1, 2], ![3, 4]] : Mat ℤ 2 2) ![![0, 1], ![1, 0]] = ![![3, 4], ![1, 2]] := by
  decide +kernel

example : transpose (![![1, 2], ![3, 4]] : Mat ℤ 2 2) = ![![1, 3], ![2, 4]] := by decide +kernel

end C37

/-! ### C38, C39 -/
section C38
variable {A : Type u} [CommRing A] {n : ℕ}

/-- `compute_determinant` is the determinant, for every size. -/
theorem C38_determinant (m : Mat A (n + 1) (n + 1)) : computeDeterminant n m = (toMatrix m).det :=
  computeDeterminant_eq n m

/-- It is multiplicative, invariant under `transpose` and 1 for the unit matrix. -/
theorem C38_multiplicative (a b : Mat A (n + 1) (n + 1)) :
    computeDeterminant n (mmul a b) = computeDeterminant n a * computeDeterminant n b ∧
    computeDeterminant n (transpose a) = computeDeterminant n a ∧
    computeDeterminant n (matId (n + 1) (n + 1) : Mat A _ _) = 1 := by
  simp only [computeDeterminant_eq]
  refine ⟨by rw [toMatrix_mmul, Matrix.det_mul], ?_, by rw [toMatrix_id, Matrix.det_one]⟩
  rw [← Matrix.det_transpose]
  congr 1
  ext r c
  simp [transpose_apply]

/-- Over a field it is zero exactly when some non-zero vector is mapped to zero. -/
theorem C38_zero_iff_singular {K : Type u} [Field K] (m : Mat K (n + 1) (n + 1)) :
    computeDeterminant n m = 0 ↔ ∃ v : Vec K (n + 1), v ≠ 0 ∧ mmulVec m v = 0 := by
  rw [computeDeterminant_eq, ← Matrix.exists_mulVec_eq_zero_iff]
  simp only [mmulVec_eq]

/-- `m * compute_adjugate(m) = compute_adjugate(m) * m = compute_determinant(m) * I`. -/
theorem C39_adjugate (m : Mat A (n + 2) (n + 2)) :
    mmul m (computeAdjugate m) = mscale (matId (n + 2) (n + 2)) (computeDeterminant (n + 1) m) ∧
    mmul (computeAdjugate m) m = mscale (matId (n + 2) (n + 2)) (computeDeterminant (n + 1) m) := by
  constructor <;> apply toMatrix_inj
  · rw [toMatrix_mmul, computeAdjugate_eq, Matrix.mul_adjugate, toMatrix_scale, toMatrix_id,
      computeDeterminant_eq]
  · rw [toMatrix_mmul, computeAdjugate_eq, Matrix.adjugate_mul, toMatrix_scale, toMatrix_id,
      computeDeterminant_eq]

example : computeDeterminant 1 (![![1, 2], ![3, 4]] : Mat ℤ 2 2) = -2 := by decide +kernel

example : computeAdjugate (![![1, 2], ![3, 4]] : Mat ℤ 2 2) = ![![4, -2], ![-3, 1]] := by decide +kernel

end C38

/-! ### C40, C41 -/
section C40
variable {K : Type u} [Field K] [LinearOrder K] [IsStrictOrderedRing K] {S : ℕ}

/-- If `lup_solve(A,b)` reports success with `x` then `A * x = b`, and `x` is the only solution. -/
theorem C40_success (a : Mat K S S) (b : Vec K S) (h : (lupSolve a b).1 = true) :
    mmulVec a (lupSolve a b).2 = b ∧ ∀ x', mmulVec a x' = b → x' = (lupSolve a b).2 := by
  rcases lup_cases a with ⟨st, hst, hinv⟩ | ⟨hn, _⟩
  · have hx : (lupSolve a b).2 = lupSolveInternal st.1 st.2 b := by rw [lupSolve, hst]
    rw [hx]
    refine ⟨lupSolveInternal_spec hinv b, fun x' hx' => ?_⟩
    -- surjective endomorphisms of finite dimensional spaces are injective
    have hsurj : Function.Surjective (Matrix.mulVec (toMatrix a)) := fun b =>
      ⟨_, by rw [← mmulVec_eq]; exact lupSolveInternal_spec hinv b⟩
    have hinj : Function.Injective (Matrix.mulVecLin (toMatrix a)) :=
      LinearMap.injective_iff_surjective.2 hsurj
    apply hinj
    simp only [Matrix.mulVecLin_apply, ← mmulVec_eq]
    rw [hx', lupSolveInternal_spec hinv b]
  · rw [lupSolve, hn] at h; cases h

/-- For singular matrices `lup_solve` reports failure. -/
theorem C40_singular (a : Mat K S S) (b v : Vec K S) (hv : v ≠ 0) (h0 : mmulVec a v = 0) :
    (lupSolve a b).1 = false := by
  rcases h : (lupSolve a b).1 with _ | _
  · rfl
  · exfalso
    obtain ⟨h1, h2⟩ := C40_success a b h
    have := h2 ((lupSolve a b).2 + v) (by
      rw [mmulVec_eq, Matrix.mulVec_add, ← mmulVec_eq, ← mmulVec_eq, h1, h0, add_zero])
    exact hv (by simpa using this)

/-- Failure means that some column is, up to less than `1e-15` in every entry, a combination of the columns
before it. -/
theorem C40_failure_column (a : Mat K S S) (b : Vec K S) (h : (lupSolve a b).1 = false) :
    ∃ (k : Fin S) (d v : Vec K S), (∀ r, |d r| < lupThreshold K) ∧ v ≠ 0 ∧ (∀ j, k < j → v j = 0) ∧
      mmulVec a v = v k • d := by
  rcases lup_cases a with ⟨st, hst, hinv⟩ | ⟨_, k, st, hinv, hs⟩
  · rw [lupSolve, hst] at h; cases h
  have hp : (lupPivot st.1 k).1 < lupThreshold K := by
    unfold lupStep at hs
    simp only at hs
    split_ifs at hs with hlt
    exact of_decide_eq_true hlt
  obtain ⟨hpiv, _⟩ := lupPivot_spec st.1 k
  set e := Equiv.ofBijective st.2 hinv.perm with he
  -- zero the column of the failing pivot
  have key : (∀ r, |(fun r => if k ≤ e.symm r then st.1 k (e.symm r) else 0) r| < lupThreshold K) ∧
      ∃ v : Vec K S, v ≠ 0 ∧ (∀ j, k < j → v j = 0) ∧
        mmulVec (fun c r => a c r - if c = k ∧ k ≤ e.symm r then st.1 k (e.symm r) else 0) v = 0 := by
   refine ⟨?_, ?_⟩
   · intro r
     simp only
     split_ifs with hc
     · exact (hpiv _ hc).trans_lt hp
     · rw [abs_zero]; exact lupThreshold_pos
   · -- a vector supported on the first k+1 columns in the kernel of the first k rows of U
     let f : ({j : Fin S // j ≤ k} → K) →ₗ[K] ({t : Fin S // t < k} → K) :=
       { toFun := fun x t => ∑ j, upEntry st.1 t.1 j.1 * x j
         map_add' := by
           intro x y; funext t
           simp only [Pi.add_apply, mul_add, Finset.sum_add_distrib]
         map_smul' := by
           intro c x; funext t
           simp only [Pi.smul_apply, smul_eq_mul, RingHom.id_apply, Finset.mul_sum]
           exact Finset.sum_congr rfl fun j _ => by ring }
     have hker : LinearMap.ker f ≠ ⊥ := by
       apply LinearMap.ker_ne_bot_of_finrank_lt
       rw [Module.finrank_fintype_fun_eq_card, Module.finrank_fintype_fun_eq_card]
       apply Fintype.card_lt_of_injective_of_notMem (fun t : {t : Fin S // t < k} => ⟨t.1, t.2.le⟩)
         (b := (⟨k, le_rfl⟩ : {j : Fin S // j ≤ k}))
       · intro s t hst; exact Subtype.ext (by simpa using hst)
       · rintro ⟨t, ht⟩
         have : t.1 = k := by simpa using ht
         exact absurd t.2 (by rw [this]; exact lt_irrefl _)
     obtain ⟨x, hx, hx0⟩ := (Submodule.ne_bot_iff _).1 hker
     have hfx : ∀ t : {t : Fin S // t < k}, ∑ j, upEntry st.1 t.1 j.1 * x j = 0 := fun t =>
       congrFun (LinearMap.mem_ker.1 hx) t
     refine ⟨fun j => if h : j ≤ k then x ⟨j, h⟩ else 0, ?_, fun j hj => dif_neg (not_le.2 hj), ?_⟩
     · intro h0
       apply hx0
       funext ⟨j, hj⟩
       have := congrFun h0 j
       simpa [hj] using this
     · funext r
       obtain ⟨i, rfl⟩ := e.surjective r
       rw [mmulVec_apply]
       have hterm : ∀ c, (a c (e i) - if c = k ∧ k ≤ e.symm (e i) then st.1 k (e.symm (e i)) else 0) *
           (if h : c ≤ k then x ⟨c, h⟩ else 0)
           = ∑ t : Fin S, (if t.val < k.val then lowEntry st.1 i t *
               (upEntry st.1 t c * (if h : c ≤ k then x ⟨c, h⟩ else 0)) else 0) := by
         intro c
         rw [Equiv.symm_apply_apply]
         by_cases hc : c ≤ k
         · simp only [hc, dif_pos]
           have hprod := hinv.prod i c
           have he' : e i = st.2 i := rfl
           rw [he', hprod]
           have hcancel : (if k.val ≤ i.val ∧ k.val ≤ c.val then st.1 c i else 0) =
               if c = k ∧ k ≤ i then st.1 k i else 0 := by
             by_cases h1 : c = k ∧ k ≤ i
             · rw [if_pos h1, h1.1, if_pos ⟨h1.2, le_rfl⟩]
             · rw [if_neg h1, if_neg]
               rintro ⟨h2, h3⟩
               exact h1 ⟨le_antisymm hc h3, h2⟩
           rw [hcancel, add_sub_cancel_right, Finset.sum_mul]
           refine Finset.sum_congr rfl fun t _ => ?_
           split_ifs
           · ring
           · ring
         · simp [hc]
       rw [Finset.sum_congr rfl fun c _ => hterm c, Finset.sum_comm]
       apply Finset.sum_eq_zero
       intro t _
       by_cases ht : t.val < k.val
       · simp only [ht, if_true]
         rw [← Finset.mul_sum]
         have h2 := hfx ⟨t, ht⟩
         have h3 : ∑ c, upEntry st.1 t c * (if h : c ≤ k then x ⟨c, h⟩ else 0)
             = ∑ j : {j : Fin S // j ≤ k}, upEntry st.1 t j.1 * x j := by
           rw [← Fintype.sum_subtype_add_sum_subtype (fun j => j ≤ k)]
           rw [Finset.sum_eq_zero (s := (Finset.univ : Finset {j // ¬ j ≤ k})), add_zero]
           · exact Finset.sum_congr rfl fun j _ => by rw [dif_pos j.2]
           · intro j _; rw [dif_neg j.2, mul_zero]
         rw [h3, h2, mul_zero]
       · simp [ht]
  obtain ⟨h1, v, hv, hsupp, h0⟩ := key
  refine ⟨k, _, v, h1, hv, hsupp, ?_⟩
  funext r
  have := congrFun h0 r
  rw [mmulVec_apply] at this ⊢
  simp only [sub_mul, Finset.sum_sub_distrib, Pi.zero_apply, sub_eq_zero] at this
  rw [this, Finset.sum_eq_single k]
  · simp [mul_comm]
  · intro c _ hc; simp [hc]
  · intro hk; exact absurd (Finset.mem_univ k) hk

/-- Failure means that the matrix is numerically singular: it differs from a singular matrix by less than
`1e-15` in every entry. -/
theorem C40_failure (a : Mat K S S) (b : Vec K S) (h : (lupSolve a b).1 = false) :
    ∃ a' : Mat K S S, (∀ c r, |a c r - a' c r| < lupThreshold K) ∧ ∃ v : Vec K S, v ≠ 0 ∧ mmulVec a' v = 0 := by
  obtain ⟨k, d, v, hd, hv, -, h0⟩ := C40_failure_column a b h
  refine ⟨fun c r => a c r - if c = k then d r else 0, ?_, v, hv, ?_⟩
  · intro c r
    simp only [sub_sub_cancel]
    split_ifs
    · exact hd r
    · rw [abs_zero]; exact lupThreshold_pos
  · funext r
    have := congrFun h0 r
    rw [mmulVec_apply] at this ⊢
    simp only [sub_mul, Finset.sum_sub_distrib, Pi.zero_apply, sub_eq_zero]
    rw [this, Finset.sum_eq_single k]
    · simp [mul_comm]
    · intro c _ hc; simp [hc]
    · intro hk; exact absurd (Finset.mem_univ k) hk

/-- If `invert(A)` reports success with `B` then `A * B = B * A = I`; otherwise the returned matrix is
the unit matrix. -/
theorem C41_success (a : Mat K S S) :
    ((invert a).1 = true → mmul a (invert a).2 = matId S S ∧ mmul (invert a).2 a = matId S S) ∧
    ((invert a).1 = false → (invert a).2 = matId S S) := by
  rcases lup_cases a with ⟨st, hst, hinv⟩ | ⟨hn, _⟩
  · have hi : invert a = (true, fun i => lupSolveInternal st.1 st.2 (vaxis S i)) := by rw [invert, hst]
    rw [hi]
    refine ⟨fun _ => ?_, fun h => by cases h⟩
    have h1 : mmul a (fun i => lupSolveInternal st.1 st.2 (vaxis S i)) = matId S S := by
      funext c r
      have := congrFun (lupSolveInternal_spec hinv (vaxis S c)) r
      rw [mmulVec_apply] at this
      rw [mmul_apply, this]
      simp only [vaxis, matId, Fin.ext_iff, eq_comm]
    refine ⟨h1, ?_⟩
    apply toMatrix_inj
    have h2 := congrArg toMatrix h1
    rw [toMatrix_mmul, toMatrix_id] at h2
    rw [toMatrix_mmul, toMatrix_id]
    exact mul_eq_one_comm.1 h2
  · have hi : invert a = (false, matId S S) := by rw [invert, hn]
    rw [hi]
    exact ⟨fun h => (by cases h), fun _ => rfl⟩

/-- `invert` and `lup_solve` report success for the same matrices. -/
theorem C41_same_success (a : Mat K S S) (b : Vec K S) : (invert a).1 = (lupSolve a b).1 := by
  unfold invert lupSolve
  rcases lupFindDecomposition a with _ | d <;> rfl

/-- For singular matrices `invert` reports failure. -/
theorem C41_singular (a : Mat K S S) (v : Vec K S) (hv : v ≠ 0) (h0 : mmulVec a v = 0) :
    (invert a).1 = false := by
  rw [C41_same_success a 0]; exact C40_singular a 0 v hv h0

/-- If `invert` fails the matrix differs from a singular matrix by less than `1e-15` in every entry. -/
theorem C41_failure (a : Mat K S S) (h : (invert a).1 = false) :
    ∃ a' : Mat K S S, (∀ c r, |a c r - a' c r| < lupThreshold K) ∧ ∃ v : Vec K S, v ≠ 0 ∧ mmulVec a' v = 0 := by
  rw [C41_same_success a 0] at h
  exact C40_failure a 0 h

/-- The converse fails: `invert` rejects a non-singular matrix with a tiny entry. -/
theorem C41_rejects_nonsingular : ∃ a : Mat ℚ 1 1, (invert a).1 = false ∧ ∃ b, mmul a b = matId 1 1 :=
  ⟨fun _ _ => 1 / 10 ^ 16, by decide +kernel, fun _ _ => 10 ^ 16, by decide +kernel⟩

example : lupSolve (![![0, 2], ![1, 1]] : Mat ℚ 2 2) ![3, 4] = (true, ![1 / 2, 3]) := by decide +kernel

example : invert (![![0, 2], ![1, 1]] : Mat ℚ 2 2) = (true, ![![-1 / 2, 1], ![1 / 2, 0]]) := by decide +kernel

example : (![1, -1] : Vec ℚ 2) ≠ 0 ∧ mmulVec (![![1, 2], ![1, 2]] : Mat ℚ 2 2) ![1, -1] = 0 := by
  decide +kernel

end C40
end vm
