import Verif.Lemmas.MatExt

/-! # C42, C76 and C79: affine matrices, lists of vectors, constant matrices -/

universe u

set_option linter.unusedSectionVars false
set_option linter.unusedSimpArgs false

namespace vm

/-! ### C42 -/
section C42
variable {K : Type u} [Field K] {S : ℕ}

/-- The last row is `0 ... 0 1`. -/
def IsAffine (m : Mat K (S + 1) (S + 1)) : Prop := ∀ c, m c (Fin.last S) = if c = Fin.last S then 1 else 0

theorem IsAffine.homCoord {m : Mat K (S + 1) (S + 1)} (h : IsAffine m) (p : Vec K S) : homCoord m p = 1 := by
  have hne : ∀ c : Fin S, (c.castSucc = Fin.last S) = False := fun c => by
    simp [(Fin.castSucc_lt_last c).ne]
  simp [vm.homCoord, h _, hne]

/-- `translation_matrix(d) * p = p + d`, in every dimension; translations add up and are inverse for
opposite vectors. -/
theorem C42_translation (d e p : Vec K S) :
    mmulPoint (translationMatrix d) p = p + d ∧
    mmul (translationMatrix d) (translationMatrix e) = translationMatrix (d + e) ∧
    mmul (translationMatrix d) (translationMatrix (-d)) = matId (S + 1) (S + 1) := by
  have hne : ∀ c : Fin S, (c.castSucc = Fin.last S) = False := fun c => by
    simp [(Fin.castSucc_lt_last c).ne]
  have hne' : ∀ c : Fin S, (Fin.last S = c.castSucc) = False := fun c => by
    simp [(Fin.castSucc_lt_last c).ne']
  have add : ∀ d e : Vec K S, mmul (translationMatrix d) (translationMatrix e) = translationMatrix (d + e) := by
    intro d e
    funext c r
    rw [mmul_apply, Fin.sum_univ_castSucc]
    refine Fin.lastCases ?_ (fun c => ?_) c <;> refine Fin.lastCases ?_ (fun r => ?_) r
    · simp [translation_last, translation_cast, translation_corner, hne, hne']
    · simp [translation_last, translation_cast, translation_corner, hne, hne', add_comm]
    · simp [translation_last, translation_cast, translation_corner, hne, hne']
    · simp [translation_last, translation_cast, translation_corner, hne, hne', Fin.castSucc_inj, eq_comm]
  refine ⟨translation_point d p, add d e, ?_⟩
  rw [add]
  funext c r
  refine Fin.lastCases ?_ (fun c => ?_) c <;> refine Fin.lastCases ?_ (fun r => ?_) r <;>
    simp [translation_last, translation_cast, translation_corner, matId_apply, hne, hne']

/-- `scaling_matrix(f) * p` multiplies the components; scalings multiply, and are inverse for reciprocal
factors. -/
theorem C42_scaling (f g p : Vec K S) :
    (mmulPoint (scalingMatrix f) p = fun i => f i * p i) ∧
    (mmul (scalingMatrix f) (scalingMatrix g) = scalingMatrix fun i => f i * g i) ∧
    ((∀ i, f i ≠ 0) → mmul (scalingMatrix f) (scalingMatrix fun i => 1 / f i) = matId (S + 1) (S + 1)) := by
  have hne : ∀ c : Fin S, (c.castSucc = Fin.last S) = False := fun c => by
    simp [(Fin.castSucc_lt_last c).ne]
  have hne' : ∀ c : Fin S, (Fin.last S = c.castSucc) = False := fun c => by
    simp [(Fin.castSucc_lt_last c).ne']
  have comp : ∀ f g : Vec K S, mmul (scalingMatrix f) (scalingMatrix g) = scalingMatrix fun i => f i * g i := by
    intro f g
    funext c r
    rw [mmul_apply, Fin.sum_univ_castSucc]
    refine Fin.lastCases ?_ (fun c => ?_) c <;> refine Fin.lastCases ?_ (fun r => ?_) r
    · simp [scaling_cast, scaling_cast_last, scaling_last, hne, hne']
    · simp [scaling_cast, scaling_cast_last, scaling_last, hne, hne']
    · simp [scaling_cast, scaling_cast_last, scaling_last, hne, hne']
    · by_cases h : c = r
      · subst h; simp [scaling_cast, scaling_cast_last, scaling_last, hne, hne']
      · simp [scaling_cast, scaling_cast_last, scaling_last, hne, hne', h]
  refine ⟨scaling_point f p, comp f g, fun hf => ?_⟩
  rw [comp]
  funext c r
  refine Fin.lastCases ?_ (fun c => ?_) c <;> refine Fin.lastCases ?_ (fun r => ?_) r <;>
    simp [scaling_cast, scaling_cast_last, scaling_last, matId_apply, hne, hne', hf]

/-- `mirror_matrix(axis)` negates exactly the coordinate of that axis (and none for an invalid axis). -/
theorem C42_mirror (p : Vec K 3) :
    (∀ k : Fin 3, mmulPoint (mirrorMatrix k.val) p = Function.update p k (-p k)) ∧
    ∀ k : ℕ, 3 ≤ k → mmulPoint (mirrorMatrix k) p = p := by
  constructor
  · intro k
    fin_cases k
    · show mmulPoint mirrorX p = _
      rw [mirrorX, mat4, mmulPoint_affine]; apply ext3 <;> simp
    · show mmulPoint mirrorY p = _
      rw [mirrorY, mat4, mmulPoint_affine]; apply ext3 <;> simp
    · show mmulPoint mirrorZ p = _
      rw [mirrorZ, mat4, mmulPoint_affine]; apply ext3 <;> simp
  · intro k hk
    obtain ⟨n, rfl⟩ : ∃ n, k = n + 3 := ⟨k - 3, by omega⟩
    show mmulPoint (matId 4 4) p = p
    rw [matId_lin4, point_lin4]; apply ext3 <;> simp

/-- `strip_translation` removes exactly the translation and `translation_matrix(m)` keeps exactly the
translation of an affine matrix, and the matrix is the product of the two. -/
theorem C42_strip_translation (m : Mat K (S + 1) (S + 1)) (h : IsAffine m) (p : Vec K S) :
    mmulPoint (stripTranslation m) p = mmulPoint m p - mmulPoint m 0 ∧
    mmulPoint (translationPart m) p = p + mmulPoint m 0 ∧
    mmul (translationPart m) (stripTranslation m) = m := by
  have hne : ∀ c : Fin S, (c.castSucc = Fin.last S) = False := fun c => by
    simp [(Fin.castSucc_lt_last c).ne]
  have hne' : ∀ c : Fin S, (Fin.last S = c.castSucc) = False := fun c => by
    simp [(Fin.castSucc_lt_last c).ne']
  have strip_hit : ∀ i : Fin S, stripTranslation m (Fin.last S) i.castSucc = 0 := fun i => by
    unfold stripTranslation
    exact foldl_mset_hit S (fun i => i.castSucc) (fun _ => Fin.last S) (fun _ => 0) _
      (fun a b _ h => Fin.castSucc_injective _ h) i
  have strip_cast : ∀ (c : Fin S) (r : Fin (S + 1)), stripTranslation m c.castSucc r = m c.castSucc r := fun c r => by
    unfold stripTranslation
    rw [foldl_mset_miss S (fun i => i.castSucc) (fun _ => Fin.last S) (fun _ => 0)]
    rintro i ⟨h, -⟩
    exact absurd h.symm (Fin.castSucc_lt_last c).ne
  have strip_corner : stripTranslation m (Fin.last S) (Fin.last S) = 1 := by
    unfold stripTranslation
    rw [foldl_mset_miss S (fun i => i.castSucc) (fun _ => Fin.last S) (fun _ => 0), h, if_pos rfl]
    rintro i ⟨-, h⟩
    exact absurd h (Fin.castSucc_lt_last i).ne
  have haff : IsAffine (stripTranslation m) := by
    intro c
    refine Fin.lastCases ?_ (fun c => ?_) c
    · rw [strip_corner, if_pos rfl]
    · rw [strip_cast, h]
  have m0 : ∀ i : Fin S, mmulPoint m 0 i = m (Fin.last S) i.castSucc := fun i => by
    rw [mmulPoint_eq, h.homCoord]; simp
  have htp : translationPart m = translationMatrix (fun i => m (Fin.last S) i.castSucc) := rfl
  refine ⟨?_, ?_, ?_⟩
  · funext i
    rw [Pi.sub_apply, m0, mmulPoint_eq, mmulPoint_eq, haff.homCoord, h.homCoord]
    simp only [strip_hit, strip_cast]
    simp
  · rw [htp, translation_point]
    funext i
    rw [Pi.add_apply, Pi.add_apply, m0]
  · funext c r
    rw [mmul_apply, Fin.sum_univ_castSucc, htp]
    refine Fin.lastCases ?_ (fun c => ?_) c <;> refine Fin.lastCases ?_ (fun r => ?_) r
    · simp [translation_last, translation_cast, translation_corner, strip_hit, strip_cast, strip_corner, hne,
        hne', h (Fin.last S)]
    · simp [translation_last, translation_cast, translation_corner, strip_hit, strip_cast, strip_corner, hne, hne']
    · simp [translation_last, translation_cast, translation_corner, strip_hit, strip_cast, strip_corner, hne,
        hne', h c.castSucc]
    · simp [translation_last, translation_cast, translation_corner, strip_hit, strip_cast, strip_corner, hne,
        hne', h c.castSucc]

/-- Applying a product of matrices to a point is applying the matrices one after the other, wherever the
projections are defined; products of affine matrices are affine. -/
theorem C42_composition (a b : Mat K (S + 1) (S + 1)) (p : Vec K S) :
    (homCoord b p ≠ 0 → homCoord a (mmulPoint b p) ≠ 0 →
      homCoord (mmul a b) p ≠ 0 ∧ mmulPoint (mmul a b) p = mmulPoint a (mmulPoint b p)) ∧
    (IsAffine a → IsAffine b → IsAffine (mmul a b) ∧ mmulPoint (mmul a b) p = mmulPoint a (mmulPoint b p)) := by
  refine ⟨fun hb ha => ⟨?_, mmulPoint_mmul a b p hb⟩, fun ha hb => ⟨?_, mmulPoint_mmul a b p ?_⟩⟩
  · rw [homCoord_mmul a b p hb]; exact mul_ne_zero ha hb
  · intro c
    rw [mmul_apply]
    simp only [ha _, ite_mul, one_mul, zero_mul, Finset.sum_ite_eq', Finset.mem_univ, if_true]
    exact hb c
  · rw [hb.homCoord]; exact one_ne_zero

example (d : Vec K S) : IsAffine (translationMatrix d) := by
  intro c
  refine Fin.lastCases ?_ (fun c => ?_) c
  · rw [translation_corner, if_pos rfl]
  · rw [translation_cast]

example : mmulPoint (mmul (translationMatrix ![1, 2]) (scalingMatrix ![3, 4])) (![1, 1] : Vec ℚ 2) = ![4, 6] := by
  decide +kernel

end C42

/-! ### C76 -/
section C76
variable {T : Type u}

theorem foldl_append_map {α β : Type*} (f : α → β) (l : List α) :
    l.foldl (fun r v => r ++ [f v]) [] = l.map f := by
  have gen : ∀ (l : List α) (acc : List β), l.foldl (fun r v => r ++ [f v]) acc = acc ++ l.map f := by
    intro l
    induction l with
    | nil => intro acc; simp
    | cons x l ih => intro acc; rw [List.foldl_cons, ih]; simp
  simpa using gen l []

/-- The operators on lists and arrays of vectors apply the operator for one vector to every element, keep
the order and the number of elements. -/
theorem C76_lists [Zero T] [One T] [Add T] [Mul T] [Div T] {S : ℕ} (m : Mat T (S + 1) (S + 1))
    (vs : List (Vec T (S + 1))) (ps : List (Vec T S)) :
    (mmulVecs m vs).length = vs.length ∧ (mmulPoints m ps).length = ps.length ∧
    (vecsMulMat vs m).length = vs.length ∧ (pointsMulMat ps m).length = ps.length ∧
    (∀ i : ℕ, (mmulVecs m vs)[i]? = vs[i]?.map (mmulVec m)) ∧ (∀ i : ℕ, (mmulPoints m ps)[i]? = ps[i]?.map (mmulPoint m)) ∧
    (∀ i : ℕ, (vecsMulMat vs m)[i]? = vs[i]?.map (vmulMat · m)) ∧
    (∀ i : ℕ, (pointsMulMat ps m)[i]? = ps[i]?.map (pointMulMat · m)) := by
  unfold mmulVecs mmulPoints vecsMulMat pointsMulMat
  rw [foldl_append_map, foldl_append_map, foldl_append_map (vmulMat · m), foldl_append_map (pointMulMat · m)]
  simp

example : mmulVecs (matId 2 2) [(![1, 2] : Vec ℚ 2), ![3, 4]] = [![1, 2], ![3, 4]] := by decide +kernel

end C76

/-! ### C79 -/
section C79
variable {K : Type u} [Field K]

theorem const_lin4 :
    (rot90XCw : Mat K 4 4) = lin4 1 0 0 0 0 1 0 (-1) 0 ∧ (rot90YCw : Mat K 4 4) = lin4 0 0 (-1) 0 1 0 1 0 0 ∧
    (rot90ZCw : Mat K 4 4) = lin4 0 1 0 (-1) 0 0 0 0 1 ∧ (rot90XCcw : Mat K 4 4) = lin4 1 0 0 0 0 (-1) 0 1 0 ∧
    (rot90YCcw : Mat K 4 4) = lin4 0 0 1 0 1 0 (-1) 0 0 ∧ (rot90ZCcw : Mat K 4 4) = lin4 0 (-1) 0 1 0 0 0 0 1 ∧
    (rot180X : Mat K 4 4) = lin4 1 0 0 0 (-1) 0 0 0 (-1) ∧ (rot180Y : Mat K 4 4) = lin4 (-1) 0 0 0 1 0 0 0 (-1) ∧
    (rot180Z : Mat K 4 4) = lin4 (-1) 0 0 0 (-1) 0 0 0 1 ∧ (mirrorX : Mat K 4 4) = lin4 (-1) 0 0 0 1 0 0 0 1 ∧
    (mirrorY : Mat K 4 4) = lin4 1 0 0 0 (-1) 0 0 0 1 ∧ (mirrorZ : Mat K 4 4) = lin4 1 0 0 0 1 0 0 0 (-1) := by
  simp only [rot90XCw, rot90YCw, rot90ZCw, rot90XCcw, rot90YCcw, rot90ZCcw, rot180X, rot180Y, rot180Z, mirrorX,
    mirrorY, mirrorZ, mat4]
  exact ⟨rfl, rfl, rfl, rfl, rfl, rfl, rfl, rfl, rfl, rfl, rfl, rfl⟩

/-- All rotation constants are orthogonal matrices with determinant 1; the mirrors are orthogonal with
determinant -1. -/
theorem C79_orthogonal :
    (∀ m ∈ [rot90XCw, rot90YCw, rot90ZCw, rot90XCcw, rot90YCcw, rot90ZCcw, rot180X, rot180Y, rot180Z],
      mmul m (transpose m) = (matId 4 4 : Mat K 4 4) ∧ computeDeterminant 3 m = 1) ∧
    ∀ m ∈ [mirrorX, mirrorY, mirrorZ],
      mmul m (transpose m) = (matId 4 4 : Mat K 4 4) ∧ computeDeterminant 3 m = -1 := by
  obtain ⟨h1, h2, h3, h4, h5, h6, h7, h8, h9, h10, h11, h12⟩ := const_lin4 (K := K)
  simp only [h1, h2, h3, h4, h5, h6, h7, h8, h9, h10, h11, h12, List.mem_cons, List.mem_nil_iff, or_false,
    forall_eq_or_imp, forall_eq, transpose_lin4, mmul_lin4, det_lin4, matId_lin4]
  norm_num

/-- Clockwise and counter-clockwise quarter turns are inverse, two quarter turns are the half turn, four are
the identity, and mirroring twice is the identity. -/
theorem C79_group :
    (mmul rot90XCw rot90XCcw = (matId 4 4 : Mat K 4 4) ∧ mmul rot90YCw rot90YCcw = (matId 4 4 : Mat K 4 4) ∧
      mmul rot90ZCw rot90ZCcw = (matId 4 4 : Mat K 4 4)) ∧
    (mmul rot90XCcw rot90XCcw = (rot180X : Mat K 4 4) ∧ mmul rot90YCcw rot90YCcw = (rot180Y : Mat K 4 4) ∧
      mmul rot90ZCcw rot90ZCcw = (rot180Z : Mat K 4 4)) ∧
    (mmul rot180X rot180X = (matId 4 4 : Mat K 4 4) ∧ mmul rot180Y rot180Y = (matId 4 4 : Mat K 4 4) ∧
      mmul rot180Z rot180Z = (matId 4 4 : Mat K 4 4)) ∧
    (mmul mirrorX mirrorX = (matId 4 4 : Mat K 4 4) ∧ mmul mirrorY mirrorY = (matId 4 4 : Mat K 4 4) ∧
      mmul mirrorZ mirrorZ = (matId 4 4 : Mat K 4 4)) ∧
    mmul mirrorX mirrorY = (rot180Z : Mat K 4 4) := by
  obtain ⟨h1, h2, h3, h4, h5, h6, h7, h8, h9, h10, h11, h12⟩ := const_lin4 (K := K)
  simp only [h1, h2, h3, h4, h5, h6, h7, h8, h9, h10, h11, h12, mmul_lin4, matId_lin4]
  norm_num

/-- The constants are the rotation matrices for the coordinate axes and quarter or half turns. -/
theorem C79_rotation :
    rot90XCcw = rotationMatrixAxis (vaxis 3 0) (Real.pi / 2) ∧ rot90YCcw = rotationMatrixAxis (vaxis 3 1) (Real.pi / 2) ∧
    rot90ZCcw = rotationMatrixAxis (vaxis 3 2) (Real.pi / 2) ∧
    rot90XCw = rotationMatrixAxis (vaxis 3 0) (-(Real.pi / 2)) ∧
    rot90YCw = rotationMatrixAxis (vaxis 3 1) (-(Real.pi / 2)) ∧
    rot90ZCw = rotationMatrixAxis (vaxis 3 2) (-(Real.pi / 2)) ∧
    rot180X = rotationMatrixAxis (vaxis 3 0) Real.pi ∧ rot180Y = rotationMatrixAxis (vaxis 3 1) Real.pi ∧
    rot180Z = rotationMatrixAxis (vaxis 3 2) Real.pi := by
  obtain ⟨h1, h2, h3, h4, h5, h6, h7, h8, h9, h10, h11, h12⟩ := const_lin4 (K := ℝ)
  simp only [h1, h2, h3, h4, h5, h6, h7, h8, h9, h10, h11, h12, rotAxis_lin4]
  simp [vaxis]

/-- `zero_out<E>` sets coordinate `E` to zero and keeps the others. -/
theorem C79_zeroOut {S : ℕ} (E : Fin S) (v : Vec K S) : mmulVec (zeroOut S E) v = Function.update v E 0 := by
  funext r
  rw [mmulVec_apply]
  simp only [zeroOut, mset_apply, matId_apply]
  by_cases h : r = E
  · subst h
    rw [Function.update_self]
    refine Finset.sum_eq_zero fun c _ => ?_
    by_cases hc : c = r
    · subst hc; simp
    · simp [hc]
  · rw [Function.update_of_ne h, Finset.sum_eq_single r]
    · simp [h]
    · intro c _ hc
      simp [hc, h]
    · simp

end C79
end vm
