import Verif.Props.Mat
import Verif.Lemmas.MatExt
import Verif.Lemmas.BBox

/-! # C52 and C53: matrices that map a box to a box or points to points -/

universe u

set_option linter.unusedSectionVars false
set_option linter.unusedSimpArgs false

namespace vm

variable {K : Type u} [Field K] [LinearOrder K] [IsStrictOrderedRing K]

/-! ### C52 -/

/-- `scale_bbox_matrix` maps minimum to minimum and maximum to maximum, interpolates linearly in between, and
maps exactly the points of the old box into the new box (if the new box is not degenerate either). -/
theorem C52_scale (old new : BBox K 3) (ho : ∀ i, old.min i < old.max i) (hn : ∀ i, new.min i < new.max i) :
    mmulPoint (scaleBBoxMatrix old new) old.min = new.min ∧
    mmulPoint (scaleBBoxMatrix old new) old.max = new.max ∧
    ∀ p, new.contains (mmulPoint (scaleBBoxMatrix old new) p) = old.contains p := by
  have f : ∀ p, mmulPoint (scaleBBoxMatrix old new) p = fun i =>
      (new.max i - new.min i) / (old.max i - old.min i) * (p i - old.min i) + new.min i := by
    intro p
    rw [scaleBBoxMatrix, mmulPoint_mmul _ _ _ (by rw [homCoord_translation]; exact one_ne_zero),
      mmulPoint_mmul _ _ _ (by rw [homCoord_scaling]; exact one_ne_zero), translation_point, scaling_point,
      translation_point]
    funext i
    simp [BBox.size, sub_eq_add_neg]
  have hd : ∀ i, old.max i - old.min i ≠ 0 := fun i => (sub_pos.2 (ho i)).ne'
  refine ⟨?_, ?_, fun p => ?_⟩
  · rw [f]; funext i; simp
  · rw [f]; funext i
    have := hd i
    field_simp; ring
  · rw [f, Bool.eq_iff_iff]
    rw [BBox.contains_iff, BBox.contains_iff, Set.mem_Icc, Set.mem_Icc, Pi.le_def, Pi.le_def, Pi.le_def, Pi.le_def,
      ← forall_and, ← forall_and]
    apply forall_congr'
    intro i
    have h1 : 0 < old.max i - old.min i := sub_pos.2 (ho i)
    have h2 : 0 < new.max i - new.min i := sub_pos.2 (hn i)
    have h3 : 0 < (new.max i - new.min i) / (old.max i - old.min i) := div_pos h2 h1
    have h4 : (new.max i - new.min i) / (old.max i - old.min i) * (old.max i - old.min i)
      = new.max i - new.min i := div_mul_cancel₀ _ h1.ne'
    generalize (new.max i - new.min i) / (old.max i - old.min i) = k at h3 h4
    constructor
    · rintro ⟨a, b⟩
      constructor <;> by_contra hc <;> push Not at hc <;> nlinarith
    · rintro ⟨a, b⟩
      constructor <;> nlinarith

/-- `scale_bbox_matrix_with_anchor` fixes the anchor and gives the image of the box the new size. -/
theorem C52_scale_anchor (old : BBox K 3) (size anchor : Vec K 3) (ho : ∀ i, old.min i ≠ old.max i) :
    mmulPoint (scaleBBoxMatrixWithAnchor old size anchor) anchor = anchor ∧
    mmulPoint (scaleBBoxMatrixWithAnchor old size anchor) old.max
      - mmulPoint (scaleBBoxMatrixWithAnchor old size anchor) old.min = size ∧
    ∀ p q i, (mmulPoint (scaleBBoxMatrixWithAnchor old size anchor) p i
      - mmulPoint (scaleBBoxMatrixWithAnchor old size anchor) q i) * (old.max i - old.min i)
      = size i * (p i - q i) := by
  have f : ∀ p, mmulPoint (scaleBBoxMatrixWithAnchor old size anchor) p = fun i =>
      size i / (old.max i - old.min i) * (p i - anchor i) + anchor i := by
    intro p
    rw [scaleBBoxMatrixWithAnchor, mmulPoint_mmul _ _ _ (by rw [homCoord_translation]; exact one_ne_zero),
      mmulPoint_mmul _ _ _ (by rw [homCoord_scaling]; exact one_ne_zero), translation_point, scaling_point,
      translation_point]
    funext i
    simp [BBox.size, sub_eq_add_neg]
  have hd : ∀ i, old.max i - old.min i ≠ 0 := fun i => sub_ne_zero.2 (ho i).symm
  refine ⟨?_, ?_, fun p q i => ?_⟩
  · rw [f]; funext i; simp
  · rw [f, f]; funext i
    have := hd i
    simp only [Pi.sub_apply]
    field_simp; ring
  · rw [f, f]
    have := hd i
    field_simp; ring

/-- `shear_bbox_matrix` for each of the six sides: coordinates along the side's axis do not change; points of
the opposite side stay fixed; points of the sheared side move by delta without its component along the axis. -/
theorem C52_shear (box : BBox K 3) (k : Fin 3) (delta : Vec K 3) (hk : box.min k ≠ box.max k) :
    (∃ m, shearBBoxMatrix box (vaxis 3 k) delta = some m ∧ ∀ p,
      mmulPoint m p k = p k ∧ (p k = box.min k → mmulPoint m p = p) ∧
      (p k = box.max k → mmulPoint m p = p + Function.update delta k 0)) ∧
    (∃ m, shearBBoxMatrix box (-vaxis 3 k) delta = some m ∧ ∀ p,
      mmulPoint m p k = p k ∧ (p k = box.max k → mmulPoint m p = p) ∧
      (p k = box.min k → mmulPoint m p = p + Function.update delta k 0)) := by
  have hd : box.max k - box.min k ≠ 0 := sub_ne_zero.2 hk.symm
  have pt : ∀ (v : Vec K 3) (a b c d e f : K) (p : Vec K 3),
      mmulPoint (mmul (mmul (translationMatrix v) (shearMatrix a b c d e f)) (translationMatrix (-v))) p =
        ![p 0 + c * (p 1 - v 1) + e * (p 2 - v 2), p 1 + a * (p 0 - v 0) + f * (p 2 - v 2),
          p 2 + b * (p 0 - v 0) + d * (p 1 - v 1)] := by
    intro v a b c d e f p
    rw [mmulPoint_mmul _ _ _ (by rw [homCoord_translation]; exact one_ne_zero),
      mmulPoint_mmul _ _ _ (by rw [shearMatrix, mat4, homCoord_affine]; exact one_ne_zero), translation_point,
      shearMatrix, mat4, mmulPoint_affine, translation_point]
    apply ext3 <;> simp <;> ring
  -- which side is found
  have ne : ∀ i j : Fin 3, (vaxis 3 i : Vec K 3) ≠ -vaxis 3 j := by
    intro i j h
    have := congrFun h i
    simp only [vaxis, if_true, Pi.neg_apply] at this
    split_ifs at this
    · linarith [one_pos (α := K)]
    · norm_num at this
  have inj : ∀ i j : Fin 3, (vaxis 3 i : Vec K 3) = vaxis 3 j ↔ i = j := by
    intro i j
    constructor
    · intro h
      have := congrFun h i
      simp only [vaxis, if_true] at this
      by_contra hc
      rw [if_neg hc] at this
      norm_num at this
    · rintro rfl; rfl
  have n0 : (![1, 0, 0] : Vec K 3) = vaxis 3 0 := by apply ext3 <;> simp [vaxis]
  have n1 : (![0, 1, 0] : Vec K 3) = vaxis 3 1 := by apply ext3 <;> simp [vaxis]
  have n2 : (![0, 0, 1] : Vec K 3) = vaxis 3 2 := by apply ext3 <;> simp [vaxis]
  have m0 : (![-1, 0, 0] : Vec K 3) = -vaxis 3 0 := by apply ext3 <;> simp [vaxis]
  have m1 : (![0, -1, 0] : Vec K 3) = -vaxis 3 1 := by apply ext3 <;> simp [vaxis]
  have m2 : (![0, 0, -1] : Vec K 3) = -vaxis 3 2 := by apply ext3 <;> simp [vaxis]
  have hpos : ∀ j : Fin 3, (box.faces.foldl (fun acc f => if veq f.2 (-vaxis 3 j) then some (f.1 0) else acc) none
      : Option (Vec K 3)) = some box.min := by
    intro j
    simp only [BBox.faces, List.foldl, n0, n1, n2, m0, m1, m2, veq_exact, neg_inj, inj, ne, decide_false, if_false,
      Bool.false_eq_true, decide_eq_true_eq]
    fin_cases j <;> simp
  have hneg : ∀ j : Fin 3, (box.faces.foldl (fun acc f => if veq f.2 (- -vaxis 3 j) then some (f.1 0) else acc) none
      : Option (Vec K 3)) = some box.max := by
    intro j
    simp only [BBox.faces, List.foldl, n0, n1, n2, m0, m1, m2, veq_exact, neg_neg, inj, (ne _ _).symm, decide_false,
      if_false, Bool.false_eq_true, decide_eq_true_eq]
    fin_cases j <;> simp
  refine ⟨?_, ?_⟩
  · unfold shearBBoxMatrix
    simp only
    rw [hpos k]
    simp only [Option.map_some, veq_exact, neg_inj, inj, ne, decide_false, if_false, Bool.false_eq_true,
      decide_eq_true_eq]
    refine ⟨_, rfl, fun p => ?_⟩
    fin_cases k <;> simp only [Fin.zero_eta, Fin.mk_one, Fin.reduceFinMk, Fin.reduceEq, if_true, if_false, pt]
    all_goals
      refine ⟨by simp, fun h => ?_, fun h => ?_⟩
      · apply ext3 <;> simp at h ⊢ <;> simp [h]
      · simp at h hd
        apply ext3 <;> simp [h, vdivs, BBox.size, hd]
  · unfold shearBBoxMatrix
    simp only
    rw [hneg k]
    simp only [Option.map_some, veq_exact, neg_inj, inj, (ne _ _).symm, decide_false, if_false,
      Bool.false_eq_true, decide_eq_true_eq]
    refine ⟨_, rfl, fun p => ?_⟩
    fin_cases k <;> simp only [Fin.zero_eta, Fin.mk_one, Fin.reduceFinMk, Fin.reduceEq, if_true, if_false, pt]
    all_goals
      refine ⟨by simp, fun h => ?_, fun h => ?_⟩
      · apply ext3 <;> simp at h ⊢ <;> simp [h]
      · simp at h hd
        apply ext3 <;> simp [h, vdivs, BBox.size] <;> field_simp <;> ring

example : let old : BBox ℚ 3 := ⟨![0, 0, 0], ![1, 2, 4]⟩
    let new : BBox ℚ 3 := ⟨![1, 1, 1], ![2, 5, 2]⟩
    (∀ i, old.min i < old.max i) ∧ (∀ i, new.min i < new.max i) ∧
    mmulPoint (scaleBBoxMatrix old new) ![1/2, 1, 1] = ![3/2, 3, 5/4] ∧
    (shearBBoxMatrix old ![0, 0, 1] ![1, 2, 3]).map (fun m => mmulPoint m ![0, 0, 2]) = some ![1/2, 1, 2] := by
  decide +kernel

/-! ### C53 -/

theorem nine (f : Fin 9 → K) : ∑ c, f c = f 0 + f 1 + f 2 + f 3 + f 4 + f 5 + f 6 + f 7 + f 8 := by
  rw [Fin.sum_univ_castSucc, Fin.sum_univ_eight]; rfl

set_option maxRecDepth 4000 in
/-- If the four point version does not fail, the matrix maps all four points as requested. -/
theorem C53_four_points (i0 i1 i2 i3 o0 o1 o2 o3 : Vec K 3) (m : Mat K 4 4)
    (h : pointsTransformationMatrix4 i0 i1 i2 i3 o0 o1 o2 o3 = some m) :
    mmulPoint m i0 = o0 ∧ mmulPoint m i1 = o1 ∧ mmulPoint m i2 = o2 ∧ mmulPoint m i3 = o3 := by
  unfold pointsTransformationMatrix4 at h
  simp only at h
  split_ifs at h with hs
  obtain ⟨hx, -⟩ := C40_success _ _ hs
  injection h with h
  generalize (lupSolve (K := K) (S := 9) _ _).2 = X at h hx
  have rows : ∀ r : Fin 9, _ = _ := fun r => congrFun hx r
  have pt : ∀ p, mmulPoint m p =
      ![X 0 * (p - i0) 0 + X 1 * (p - i0) 1 + X 2 * (p - i0) 2 + o0 0,
        X 3 * (p - i0) 0 + X 4 * (p - i0) 1 + X 5 * (p - i0) 2 + o0 1,
        X 6 * (p - i0) 0 + X 7 * (p - i0) 1 + X 8 * (p - i0) 2 + o0 2] := by
    intro p
    rw [← h, mmulPoint_mmul _ _ _ (by rw [homCoord_translation]; exact one_ne_zero),
      mmulPoint_mmul _ _ _ (by rw [mat4, homCoord_affine]; exact one_ne_zero), translation_point,
      mat4, mmulPoint_affine, translation_point, ← sub_eq_add_neg]
    apply ext3 <;> simp
  have r0 := rows 0
  have r1 := rows 1
  have r2 := rows 2
  have r3 := rows 3
  have r4 := rows 4
  have r5 := rows 5
  have r6 := rows 6
  have r7 := rows 7
  have r8 := rows 8
  rw [mmulVec_apply, nine] at r0 r1 r2 r3 r4 r5 r6 r7 r8
  replace r0 : (i1 - i0) 0 * X 0 + (i1 - i0) 1 * X 1 + (i1 - i0) 2 * X 2 + 0 * X 3 + 0 * X 4 + 0 * X 5 + 0 * X 6
    + 0 * X 7 + 0 * X 8 = (o1 - o0) 0 := r0
  replace r1 : 0 * X 0 + 0 * X 1 + 0 * X 2 + (i1 - i0) 0 * X 3 + (i1 - i0) 1 * X 4 + (i1 - i0) 2 * X 5 + 0 * X 6
    + 0 * X 7 + 0 * X 8 = (o1 - o0) 1 := r1
  replace r2 : 0 * X 0 + 0 * X 1 + 0 * X 2 + 0 * X 3 + 0 * X 4 + 0 * X 5 + (i1 - i0) 0 * X 6 + (i1 - i0) 1 * X 7
    + (i1 - i0) 2 * X 8 = (o1 - o0) 2 := r2
  replace r3 : (i2 - i0) 0 * X 0 + (i2 - i0) 1 * X 1 + (i2 - i0) 2 * X 2 + 0 * X 3 + 0 * X 4 + 0 * X 5 + 0 * X 6
    + 0 * X 7 + 0 * X 8 = (o2 - o0) 0 := r3
  replace r4 : 0 * X 0 + 0 * X 1 + 0 * X 2 + (i2 - i0) 0 * X 3 + (i2 - i0) 1 * X 4 + (i2 - i0) 2 * X 5 + 0 * X 6
    + 0 * X 7 + 0 * X 8 = (o2 - o0) 1 := r4
  replace r5 : 0 * X 0 + 0 * X 1 + 0 * X 2 + 0 * X 3 + 0 * X 4 + 0 * X 5 + (i2 - i0) 0 * X 6 + (i2 - i0) 1 * X 7
    + (i2 - i0) 2 * X 8 = (o2 - o0) 2 := r5
  replace r6 : (i3 - i0) 0 * X 0 + (i3 - i0) 1 * X 1 + (i3 - i0) 2 * X 2 + 0 * X 3 + 0 * X 4 + 0 * X 5 + 0 * X 6
    + 0 * X 7 + 0 * X 8 = (o3 - o0) 0 := r6
  replace r7 : 0 * X 0 + 0 * X 1 + 0 * X 2 + (i3 - i0) 0 * X 3 + (i3 - i0) 1 * X 4 + (i3 - i0) 2 * X 5 + 0 * X 6
    + 0 * X 7 + 0 * X 8 = (o3 - o0) 1 := r7
  replace r8 : 0 * X 0 + 0 * X 1 + 0 * X 2 + 0 * X 3 + 0 * X 4 + 0 * X 5 + (i3 - i0) 0 * X 6 + (i3 - i0) 1 * X 7
    + (i3 - i0) 2 * X 8 = (o3 - o0) 2 := r8
  simp only [Pi.sub_apply] at r0 r1 r2 r3 r4 r5 r6 r7 r8
  refine ⟨?_, ?_, ?_, ?_⟩ <;> rw [pt] <;> apply ext3 <;>
    simp only [Pi.sub_apply, Matrix.cons_val_zero, Matrix.cons_val_one, Matrix.cons_val]
  · ring
  · ring
  · ring
  · linear_combination r0
  · linear_combination r1
  · linear_combination r2
  · linear_combination r3
  · linear_combination r4
  · linear_combination r5
  · linear_combination r6
  · linear_combination r7
  · linear_combination r8

set_option maxRecDepth 4000 in
/-- If the four input points lie in a plane (through a non-zero normal), failure is reported. -/
theorem C53_coplanar (i0 i1 i2 i3 o0 o1 o2 o3 n : Vec K 3) (hn : n ≠ 0) (h1 : dot n i1 = dot n i0)
    (h2 : dot n i2 = dot n i0) (h3 : dot n i3 = dot n i0) :
    pointsTransformationMatrix4 i0 i1 i2 i3 o0 o1 o2 o3 = none := by
  unfold pointsTransformationMatrix4
  simp only
  rw [if_neg]
  rw [C40_singular _ _ ![n 0, n 1, n 2, 0, 0, 0, 0, 0, 0]]
  · simp
  · intro h
    apply hn
    apply ext3
    · exact congrFun h 0
    · exact congrFun h 1
    · exact congrFun h 2
  · rw [dot3, dot3] at h1 h2 h3
    funext r
    rw [mmulVec_apply, nine]
    fin_cases r
    · show (i1 - i0) 0 * n 0 + (i1 - i0) 1 * n 1 + (i1 - i0) 2 * n 2 + 0 * 0 + 0 * 0 + 0 * 0 + 0 * 0
        + 0 * 0 + 0 * 0 = 0
      simp only [Pi.sub_apply]; linear_combination h1
    · show 0 * n 0 + 0 * n 1 + 0 * n 2 + (i1 - i0) 0 * 0 + (i1 - i0) 1 * 0 + (i1 - i0) 2 * 0 + 0 * 0
        + 0 * 0 + 0 * 0 = 0
      ring
    · show 0 * n 0 + 0 * n 1 + 0 * n 2 + 0 * 0 + 0 * 0 + 0 * 0 + (i1 - i0) 0 * 0 + (i1 - i0) 1 * 0
        + (i1 - i0) 2 * 0 = 0
      ring
    · show (i2 - i0) 0 * n 0 + (i2 - i0) 1 * n 1 + (i2 - i0) 2 * n 2 + 0 * 0 + 0 * 0 + 0 * 0 + 0 * 0
        + 0 * 0 + 0 * 0 = 0
      simp only [Pi.sub_apply]; linear_combination h2
    · show 0 * n 0 + 0 * n 1 + 0 * n 2 + (i2 - i0) 0 * 0 + (i2 - i0) 1 * 0 + (i2 - i0) 2 * 0 + 0 * 0
        + 0 * 0 + 0 * 0 = 0
      ring
    · show 0 * n 0 + 0 * n 1 + 0 * n 2 + 0 * 0 + 0 * 0 + 0 * 0 + (i2 - i0) 0 * 0 + (i2 - i0) 1 * 0
        + (i2 - i0) 2 * 0 = 0
      ring
    · show (i3 - i0) 0 * n 0 + (i3 - i0) 1 * n 1 + (i3 - i0) 2 * n 2 + 0 * 0 + 0 * 0 + 0 * 0 + 0 * 0
        + 0 * 0 + 0 * 0 = 0
      simp only [Pi.sub_apply]; linear_combination h3
    · show 0 * n 0 + 0 * n 1 + 0 * n 2 + (i3 - i0) 0 * 0 + (i3 - i0) 1 * 0 + (i3 - i0) 2 * 0 + 0 * 0
        + 0 * 0 + 0 * 0 = 0
      ring
    · show 0 * n 0 + 0 * n 1 + 0 * n 2 + 0 * 0 + 0 * 0 + 0 * 0 + (i3 - i0) 0 * 0 + (i3 - i0) 1 * 0
        + (i3 - i0) 2 * 0 = 0
      ring

set_option maxRecDepth 4000 in
/-- Sufficiently independent input points are accepted: it is enough that the frame reciprocal to the edge vectors
has components of absolute value at most `10^14`. -/
theorem C53_success (i0 i1 i2 i3 o0 o1 o2 o3 x y z : Vec K 3)
    (hx : dot x (i1 - i0) = 1 ∧ dot x (i2 - i0) = 0 ∧ dot x (i3 - i0) = 0)
    (hy : dot y (i1 - i0) = 0 ∧ dot y (i2 - i0) = 1 ∧ dot y (i3 - i0) = 0)
    (hz : dot z (i1 - i0) = 0 ∧ dot z (i2 - i0) = 0 ∧ dot z (i3 - i0) = 1)
    (hb : ∀ i, |x i| ≤ 10 ^ 14 ∧ |y i| ≤ 10 ^ 14 ∧ |z i| ≤ 10 ^ 14) :
    ∃ m, pointsTransformationMatrix4 i0 i1 i2 i3 o0 o1 o2 o3 = some m := by
  unfold pointsTransformationMatrix4
  simp only
  split_ifs with hs
  · exact ⟨_, rfl⟩
  exfalso
  rw [Bool.not_eq_true] at hs
  obtain ⟨k, d, v, hd, hv, -, hAv⟩ := C40_failure_column _ _ hs
  have rows : ∀ r : Fin 9, _ = _ := fun r => congrFun hAv r
  have r0 := rows 0
  have r1 := rows 1
  have r2 := rows 2
  have r3 := rows 3
  have r4 := rows 4
  have r5 := rows 5
  have r6 := rows 6
  have r7 := rows 7
  have r8 := rows 8
  rw [mmulVec_apply, nine] at r0 r1 r2 r3 r4 r5 r6 r7 r8
  replace r0 : (i1 - i0) 0 * v 0 + (i1 - i0) 1 * v 1 + (i1 - i0) 2 * v 2 + 0 * v 3 + 0 * v 4 + 0 * v 5 + 0 * v 6
    + 0 * v 7 + 0 * v 8 = v k * d 0 := r0
  replace r1 : 0 * v 0 + 0 * v 1 + 0 * v 2 + (i1 - i0) 0 * v 3 + (i1 - i0) 1 * v 4 + (i1 - i0) 2 * v 5 + 0 * v 6
    + 0 * v 7 + 0 * v 8 = v k * d 1 := r1
  replace r2 : 0 * v 0 + 0 * v 1 + 0 * v 2 + 0 * v 3 + 0 * v 4 + 0 * v 5 + (i1 - i0) 0 * v 6 + (i1 - i0) 1 * v 7
    + (i1 - i0) 2 * v 8 = v k * d 2 := r2
  replace r3 : (i2 - i0) 0 * v 0 + (i2 - i0) 1 * v 1 + (i2 - i0) 2 * v 2 + 0 * v 3 + 0 * v 4 + 0 * v 5 + 0 * v 6
    + 0 * v 7 + 0 * v 8 = v k * d 3 := r3
  replace r4 : 0 * v 0 + 0 * v 1 + 0 * v 2 + (i2 - i0) 0 * v 3 + (i2 - i0) 1 * v 4 + (i2 - i0) 2 * v 5 + 0 * v 6
    + 0 * v 7 + 0 * v 8 = v k * d 4 := r4
  replace r5 : 0 * v 0 + 0 * v 1 + 0 * v 2 + 0 * v 3 + 0 * v 4 + 0 * v 5 + (i2 - i0) 0 * v 6 + (i2 - i0) 1 * v 7
    + (i2 - i0) 2 * v 8 = v k * d 5 := r5
  replace r6 : (i3 - i0) 0 * v 0 + (i3 - i0) 1 * v 1 + (i3 - i0) 2 * v 2 + 0 * v 3 + 0 * v 4 + 0 * v 5 + 0 * v 6
    + 0 * v 7 + 0 * v 8 = v k * d 6 := r6
  replace r7 : 0 * v 0 + 0 * v 1 + 0 * v 2 + (i3 - i0) 0 * v 3 + (i3 - i0) 1 * v 4 + (i3 - i0) 2 * v 5 + 0 * v 6
    + 0 * v 7 + 0 * v 8 = v k * d 7 := r7
  replace r8 : 0 * v 0 + 0 * v 1 + 0 * v 2 + 0 * v 3 + 0 * v 4 + 0 * v 5 + (i3 - i0) 0 * v 6 + (i3 - i0) 1 * v 7
    + (i3 - i0) 2 * v 8 = v k * d 8 := r8
  clear rows hAv hs
  generalize i1 - i0 = a at *
  generalize i2 - i0 = b at *
  generalize i3 - i0 = c at *
  -- any vector is the combination of the reciprocal frame
  have dual : ∀ w : Vec K 3, w = (dot a w) • x + (dot b w) • y + (dot c w) • z := by
    -- the matrix with rows x y z is a left inverse, hence a right inverse
    let A : Matrix (Fin 3) (Fin 3) K := !![x 0, x 1, x 2; y 0, y 1, y 2; z 0, z 1, z 2]
    let B : Matrix (Fin 3) (Fin 3) K := !![a 0, b 0, c 0; a 1, b 1, c 1; a 2, b 2, c 2]
    have hAB : A * B = 1 := by
      obtain ⟨h1, h2, h3⟩ := hx
      obtain ⟨h4, h5, h6⟩ := hy
      obtain ⟨h7, h8, h9⟩ := hz
      rw [dot3] at h1 h2 h3 h4 h5 h6 h7 h8 h9
      ext p q
      fin_cases p <;> fin_cases q <;> simp [A, B, Matrix.mul_apply, Fin.sum_univ_three] <;> assumption
    have hBA : B * A = 1 := mul_eq_one_comm.1 hAB
    have e : ∀ p q, (B * A) p q = (1 : Matrix (Fin 3) (Fin 3) K) p q := fun p q => by rw [hBA]
    have e00 := e 0 0
    have e01 := e 0 1
    have e02 := e 0 2
    have e10 := e 1 0
    have e11 := e 1 1
    have e12 := e 1 2
    have e20 := e 2 0
    have e21 := e 2 1
    have e22 := e 2 2
    simp [A, B, Matrix.mul_apply, Fin.sum_univ_three] at e00 e01 e02 e10 e11 e12 e20 e21 e22
    intro w
    apply ext3 <;> simp only [dot3, Pi.add_apply, Pi.smul_apply, smul_eq_mul]
    · linear_combination -(w 0) * e00 - (w 1) * e10 - (w 2) * e20
    · linear_combination -(w 0) * e01 - (w 1) * e11 - (w 2) * e21
    · linear_combination -(w 0) * e02 - (w 1) * e12 - (w 2) * e22
  have comp : ∀ (w : Vec K 3) (p q r : Fin 9), dot a w = v k * d p → dot b w = v k * d q → dot c w = v k * d r →
      ∀ i, ∃ t, |t| < 1 ∧ w i = v k * t := by
    intro w p q r hp hq hr i
    have hw := congrFun (dual w) i
    simp only [Pi.add_apply, Pi.smul_apply, smul_eq_mul, hp, hq, hr] at hw
    refine ⟨d p * x i + d q * y i + d r * z i, ?_, by rw [hw]; ring⟩
    have t : ∀ (j : Fin 9) (u : K), |u| ≤ 10 ^ 14 → |d j * u| ≤ 1 / 10 := by
      intro j u hu
      rw [abs_mul]
      have h1 : |d j| ≤ 1 / 10 ^ 15 := (hd j).le
      calc |d j| * |u| ≤ (1 / 10 ^ 15) * 10 ^ 14 := mul_le_mul h1 hu (abs_nonneg _) (by positivity)
        _ = 1 / 10 := by norm_num
    calc |d p * x i + d q * y i + d r * z i|
        ≤ |d p * x i| + |d q * y i| + |d r * z i| := abs_add_three _ _ _
      _ ≤ 1/10 + 1/10 + 1/10 := add_le_add (add_le_add (t p _ (hb i).1) (t q _ (hb i).2.1)) (t r _ (hb i).2.2)
      _ < 1 := by norm_num
  have all : ∀ j : Fin 9, ∃ t, |t| < 1 ∧ v j = v k * t := by
    have c0 := comp ![v 0, v 1, v 2] 0 3 6 (by rw [dot3, ← r0]; simp) (by rw [dot3, ← r3]; simp)
      (by rw [dot3, ← r6]; simp)
    have c1 := comp ![v 3, v 4, v 5] 1 4 7 (by rw [dot3, ← r1]; simp) (by rw [dot3, ← r4]; simp)
      (by rw [dot3, ← r7]; simp)
    have c2 := comp ![v 6, v 7, v 8] 2 5 8 (by rw [dot3, ← r2]; simp) (by rw [dot3, ← r5]; simp)
      (by rw [dot3, ← r8]; simp)
    intro j
    fin_cases j
    · exact c0 0
    · exact c0 1
    · exact c0 2
    · exact c1 0
    · exact c1 1
    · exact c1 2
    · exact c2 0
    · exact c2 1
    · exact c2 2
  have vk : v k = 0 := by
    obtain ⟨t, ht, he⟩ := all k
    by_contra hne
    have : t = 1 := mul_left_cancel₀ hne (by rw [← he, mul_one])
    rw [this, abs_one] at ht
    exact lt_irrefl _ ht
  apply hv
  funext j
  obtain ⟨t, -, he⟩ := all j
  rw [he, vk, zero_mul]; rfl

/-- The three point version maps the three points as requested, and the unit normal of the plane through the
input points to the unit normal of the plane through the output points. -/
theorem C53_three_points (i0 i1 i2 o0 o1 o2 : Vec ℝ 3) (m : Mat ℝ 4 4)
    (h : pointsTransformationMatrix3 i0 i1 i2 o0 o1 o2 = some m) :
    mmulPoint m i0 = o0 ∧ mmulPoint m i1 = o1 ∧ mmulPoint m i2 = o2 ∧
    ∃ a b, normalize (cross (i1 - i0) (i2 - i0)) = some a ∧ normalize (cross (o1 - o0) (o2 - o0)) = some b ∧
      mmulPoint m (i0 + a) = o0 + b := by
  unfold pointsTransformationMatrix3 at h
  simp only [Option.bind_eq_some_iff] at h
  obtain ⟨a, ha, b, hb, h⟩ := h
  obtain ⟨h0, h1, h2, h3⟩ := C53_four_points _ _ _ _ _ _ _ _ m h
  exact ⟨h0, h1, h2, a, b, ha, hb, h3⟩

/-- The three point version succeeds for a right triangle mapped to a larger one. -/
example : ∃ m, pointsTransformationMatrix3 (![0, 0, 0] : Vec ℝ 3) ![1, 0, 0] ![0, 1, 0] ![1, 1, 1] ![4, 1, 1]
    ![1, 5, 1] = some m := by
  have n1 : normalize (cross ((![1, 0, 0] : Vec ℝ 3) - ![0, 0, 0]) (![0, 1, 0] - ![0, 0, 0])) = some ![0, 0, 1] := by
    have e : cross ((![1, 0, 0] : Vec ℝ 3) - ![0, 0, 0]) (![0, 1, 0] - ![0, 0, 0]) = ![0, 0, 1] := by
      apply ext3 <;> simp [Matrix.vecHead, Matrix.vecTail]
    have l : length (![0, 0, 1] : Vec ℝ 3) = 1 := by rw [length, squaredLength, dot3]; simp
    rw [e, normalize, l, if_neg one_ne_zero]
    congr 1; funext i; simp [vdivs]
  have n2 : ∃ b, normalize (cross ((![4, 1, 1] : Vec ℝ 3) - ![1, 1, 1]) (![1, 5, 1] - ![1, 1, 1])) = some b := by
    refine ⟨_, normalize_of_ne ?_⟩
    intro h
    have := congrFun h 2
    simp [Matrix.vecHead, Matrix.vecTail] at this
    norm_num at this
  obtain ⟨b, n2⟩ := n2
  unfold pointsTransformationMatrix3
  rw [n1, n2, Option.bind_some, Option.bind_some]
  apply C53_success _ _ _ _ _ _ _ _ ![1, 0, 0] ![0, 1, 0] ![0, 0, 1]
  · simp [dot3, Matrix.vecHead, Matrix.vecTail]
  · simp [dot3, Matrix.vecHead, Matrix.vecTail]
  · simp [dot3, Matrix.vecHead, Matrix.vecTail]
  · intro i; fin_cases i <;> simp <;> norm_num

/-! A case that succeeds. -/
set_option maxRecDepth 10000 in
example : (pointsTransformationMatrix4 (![0, 0, 0] : Vec ℚ 3) ![1, 0, 0] ![0, 2, 0] ![0, 0, 3]
    ![1, 1, 1] ![1, 2, 1] ![3, 1, 1] ![1, 1, 5]).map (fun m => mmulPoint m ![1, 2, 3]) = some ![3, 2, 5] := by
  decide +kernel

/-- Four points in a plane. -/
example : (![1, 1, 1] : Vec ℚ 3) ≠ 0 ∧ dot (![1, 1, 1] : Vec ℚ 3) ![0, 1, 2] = dot (![1, 1, 1] : Vec ℚ 3) ![1, 1, 1] :=
  by decide +kernel

end vm
