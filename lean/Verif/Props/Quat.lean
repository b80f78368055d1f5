import Verif.Props.Rotation
import Mathlib.Analysis.Real.Pi.Bounds

/-! # C45 to C48: quaternions -/

universe u

set_option linter.unusedSectionVars false
set_option linter.unusedSimpArgs false

namespace vm

variable {K : Type u} [Field K] [LinearOrder K] [IsStrictOrderedRing K]

/-! ### C45 -/

theorem Quat.mul_assoc' (p q r : Quat K) : (p.mul q).mul r = p.mul (q.mul r) := by
  apply Quat.ext'
  · simp only [Quat.mul, dot3, Matrix.cons_val_zero, Matrix.cons_val_one, Matrix.cons_val]; ring
  · apply ext3 <;> simp only [Quat.mul, dot3, Matrix.cons_val_zero, Matrix.cons_val_one, Matrix.cons_val] <;> ring

theorem Quat.rotate_eq_matrix (q : Quat K) (h : q.normSq = 1) (v : Vec K 3) :
    q.rotate v = mmulPoint (rotationMatrixQuat q) v := by
  rw [rotQuat_lin4_unit q h, point_lin4, Quat.rotate_apply]

theorem Quat.dot_rotate (q : Quat K) (v w : Vec K 3) :
    dot (q.rotate v) (q.rotate w) = q.normSq ^ 2 * dot v w := by
  rw [dot3, dot3, Quat.rotate_apply, Quat.rotate_apply]
  simp only [Quat.normSq, Matrix.cons_val_zero, Matrix.cons_val_one, Matrix.cons_val]
  ring

theorem Quat.rotate_mul (p q : Quat K) (v : Vec K 3) : (p.mul q).rotate v = p.rotate (q.rotate v) := by
  simp only [Quat.rotate_apply]
  apply ext3 <;> simp only [Quat.mul, dot3, Matrix.cons_val_zero, Matrix.cons_val_one, Matrix.cons_val] <;> ring

theorem Quat.conj_rotate (q : Quat K) (v : Vec K 3) :
    q.conjugate.rotate (q.rotate v) = vscale v (q.normSq ^ 2) := by
  rw [← Quat.rotate_mul, Quat.rotate_apply]
  apply ext3 <;> simp only [Quat.mul, Quat.conjugate, Quat.normSq, vscale, Pi.neg_apply, dot3,
    Matrix.cons_val_zero, Matrix.cons_val_one, Matrix.cons_val] <;> ring

/-- The product is associative and composes rotations (for all quaternions). -/
theorem C45_composition (p q r : Quat K) (v : Vec K 3) :
    (p.mul q).mul r = p.mul (q.mul r) ∧ (p.mul q).rotate v = p.rotate (q.rotate v) :=
  ⟨Quat.mul_assoc' p q r, Quat.rotate_mul p q v⟩

/-- Unit quaternions are closed under the product and the conjugate, rotate by an isometry that also preserves
orientation, agree with their matrix, and the conjugate is the inverse on both sides. -/
theorem C45_unit (p q : Quat K) (hp : p.r ^ 2 + squaredLength p.v = 1) (hq : q.r ^ 2 + squaredLength q.v = 1)
    (v w : Vec K 3) :
    (p.mul q).r ^ 2 + squaredLength (p.mul q).v = 1 ∧
    q.conjugate.r ^ 2 + squaredLength q.conjugate.v = 1 ∧
    dot (q.rotate v) (q.rotate w) = dot v w ∧
    cross (q.rotate v) (q.rotate w) = q.rotate (cross v w) ∧
    q.rotate v = mmulPoint (rotationMatrixQuat q) v ∧
    q.conjugate.rotate (q.rotate v) = v ∧ q.rotate (q.conjugate.rotate v) = v ∧
    q.conjugate.mul q = ⟨1, 0⟩ ∧ q.mul q.conjugate = ⟨1, 0⟩ := by
  have conv : ∀ q : Quat K, q.r ^ 2 + squaredLength q.v = q.normSq := by
    intro q; rw [squaredLength, dot3, Quat.normSq]; ring
  rw [conv] at hp hq
  have hc : q.conjugate.normSq = 1 := by
    rw [← hq]; simp only [Quat.normSq, Quat.conjugate, Pi.neg_apply]; ring
  refine ⟨?_, ?_, ?_, ?_, Quat.rotate_eq_matrix q hq v, ?_, ?_, ?_, ?_⟩
  · rw [conv, Quat.normSq_mul, hp, hq, one_mul]
  · rw [conv, hc]
  · rw [Quat.dot_rotate, hq]; ring
  · have e : ∀ x : K, x = q.normSq * x := fun x => by rw [hq, one_mul]
    simp only [Quat.rotate_apply]
    apply ext3 <;> simp only [cross_0, cross_1, cross_2, Matrix.cons_val_zero, Matrix.cons_val_one,
      Matrix.cons_val] <;> (conv_rhs => rw [e ( _ + _ + _), Quat.normSq]) <;> ring
  · rw [Quat.conj_rotate, hq]; funext i; simp [vscale]
  · have h := Quat.conj_rotate q.conjugate v
    rw [hc] at h
    have hcc : q.conjugate.conjugate = q := by
      apply Quat.ext'; rfl; simp [Quat.conjugate]
    rw [hcc] at h
    rw [h]; funext i; simp [vscale]
  · apply Quat.ext'
    · rw [← hq]; simp only [Quat.mul, Quat.conjugate, dot3, Quat.normSq, Pi.neg_apply]; ring
    · apply ext3 <;> simp [Quat.mul, Quat.conjugate] <;> ring
  · apply Quat.ext'
    · rw [← hq]; simp only [Quat.mul, Quat.conjugate, dot3, Quat.normSq, Pi.neg_apply]; ring
    · apply ext3 <;> simp [Quat.mul, Quat.conjugate] <;> ring

theorem C45_length (q : Quat ℝ) (hq : q.r ^ 2 + squaredLength q.v = 1) (v : Vec ℝ 3) :
    length (q.rotate v) = length v := by
  rw [length, squaredLength, (C45_unit q q hq hq v v).2.2.1]; rfl

/-- A non-trivial unit quaternion, and what it does. -/
example : (1/2 : ℚ) ^ 2 + squaredLength (![1/2, 1/2, -1/2] : Vec ℚ 3) = 1 ∧
    (⟨1/2, ![1/2, 1/2, -1/2]⟩ : Quat ℚ).rotate ![1, 2, 3] = ![2, -3, -1] := by
  refine ⟨?_, by decide +kernel⟩
  rw [squaredLength, dot3]; simp only [Matrix.cons_val_zero, Matrix.cons_val_one, Matrix.cons_val]; norm_num

/-! ### C46 -/

theorem ofAxisAngle_rodrigues (a : Vec ℝ 3) (ha : dot a a = 1) (t : ℝ) (v : Vec ℝ 3) :
    (Quat.ofAxisAngle a t).rotate v
      = vscale v (Real.cos t) + vscale (cross a v) (Real.sin t) + vscale a (dot a v * (1 - Real.cos t)) := by
  rw [Quat.rotate_eq_matrix _ (ofAxisAngle_normSq a ha t), ← rotAxis_eq_quat a ha,
    (C43_axis_angle a v 0 t (by
      have h0 := length_nonneg a
      have h1 := length_sq a
      rw [ha] at h1
      nlinarith)).2.1]

theorem dot_normalized {v : Vec ℝ 3} (h : v ≠ 0) : dot ((length v)⁻¹ • v) ((length v)⁻¹ • v) = 1 := by
  have hp := length_pos h
  rw [dot_smul_left, dot_smul_right, ← length_sq]
  field_simp

/-- `quat(from, to)` and `rotation_matrix(from, to)` for unit vectors: a unit quaternion is always constructed;
it maps `from` exactly to `to` if the cosine of the angle between them is more than 0.001 away from both 1 and
-1, or if they are equal or opposite; otherwise the image is at most `sqrt(0.002)` away from `to`.
Missing from C46: exactness in the two narrow cones, which does not hold (see `C46_not_exact`). -/
theorem C46_from_to_partial (f t : Vec ℝ 3) (hf : length f = 1) (ht : length t = 1) :
    ∃ q, Quat.ofFromTo f t = some q ∧ rotationMatrixFromTo f t = some (rotationMatrixQuat q) ∧
      q.r ^ 2 + squaredLength q.v = 1 ∧
      (1/1000 < |dot f t - 1| → 1/1000 < |dot f t + 1| → q.rotate f = t) ∧
      (f = t → q.rotate f = t) ∧ (f = -t → q.rotate f = t) ∧
      squaredDistance (q.rotate f) t ≤ 2/1000 ∧ mmulPoint (rotationMatrixQuat q) f = q.rotate f := by
  have ff : dot f f = 1 := by rw [← length_sq, hf, one_pow]
  have tt : dot t t = 1 := by rw [← length_sq, ht, one_pow]
  have unit : ∀ a θ, dot a a = 1 → (Quat.ofAxisAngle a θ).r ^ 2 + squaredLength (Quat.ofAxisAngle a θ).v = 1 := by
    intro a θ ha
    rw [← ofAxisAngle_normSq a ha θ, squaredLength, dot3, Quat.normSq]; ring
  have mat : ∀ a θ, dot a a = 1 → mmulPoint (rotationMatrixQuat (Quat.ofAxisAngle a θ)) f
      = (Quat.ofAxisAngle a θ).rotate f := by
    intro a θ ha
    rw [Quat.rotate_eq_matrix _ (ofAxisAngle_normSq a ha θ)]
  have hsd : ∀ u : Vec ℝ 3, dot u u = 1 → squaredDistance u t = 2 - 2 * dot u t := by
    intro u hu
    rw [squaredDistance, squaredLength, dot_sub_left, dot_sub_right, dot_sub_right, hu, tt, dot_comm t u]; ring
  have cs := dot_sq_le f t
  rw [ff, tt, mul_one] at cs
  have c1 : dot f t ≤ 1 := by nlinarith
  have c2 : -1 ≤ dot f t := by nlinarith
  have step : ∀ a θ, dot a a = 1 → Quat.ofFromTo f t = some (Quat.ofAxisAngle a θ) →
      ((1/1000 < |dot f t - 1| → 1/1000 < |dot f t + 1| → (Quat.ofAxisAngle a θ).rotate f = t) ∧
      (f = t → (Quat.ofAxisAngle a θ).rotate f = t) ∧ (f = -t → (Quat.ofAxisAngle a θ).rotate f = t) ∧
      squaredDistance ((Quat.ofAxisAngle a θ).rotate f) t ≤ 2/1000) →
      ∃ q, Quat.ofFromTo f t = some q ∧ rotationMatrixFromTo f t = some (rotationMatrixQuat q) ∧
      q.r ^ 2 + squaredLength q.v = 1 ∧
      (1/1000 < |dot f t - 1| → 1/1000 < |dot f t + 1| → q.rotate f = t) ∧
      (f = t → q.rotate f = t) ∧ (f = -t → q.rotate f = t) ∧
      squaredDistance (q.rotate f) t ≤ 2/1000 ∧ mmulPoint (rotationMatrixQuat q) f = q.rotate f := by
    intro a θ ha hq ⟨h1, h2, h3, h4⟩
    exact ⟨_, hq, by rw [rotationMatrixFromTo, hq]; rfl, unit a θ ha, h1, h2, h3, h4, mat a θ ha⟩
  by_cases hc1 : |dot f t - 1| ≤ 1/1000
  · have hz : dot (vaxis 3 2 : Vec ℝ 3) (vaxis 3 2) = 1 := by rw [dot3]; simp [vaxis]
    have hrot : (Quat.ofAxisAngle (vaxis 3 2) 0).rotate f = f := by
      rw [ofAxisAngle_rodrigues _ hz]; funext i; simp [vscale]
    refine step (vaxis 3 2) 0 hz ?_ ⟨?_, ?_, ?_, ?_⟩
    · unfold Quat.ofFromTo
      simp only [isEqual_exact, Quat.almostZero]
      rw [if_pos (by simpa using hc1)]
    · intro h; exact absurd hc1 (not_le.2 h)
    · intro h; rw [hrot, h]
    · intro h
      rw [h, dot_neg_left, tt] at hc1
      norm_num at hc1
    · rw [hrot, hsd f ff]
      have := (abs_le.1 hc1).1
      linarith
  · by_cases hc2 : |-dot f t - 1| ≤ 1/1000
    · -- opposite
      obtain ⟨a, haf, ha0, hq⟩ : ∃ a : Vec ℝ 3, dot a f = 0 ∧ a ≠ 0 ∧
          Quat.ofFromTo f t = (normalize a).map fun a => Quat.ofAxisAngle a Real.pi := by
        have hpi : toRadians Real.pi 180 = Real.pi := by unfold toRadians; ring
        by_cases hax : |squaredLength (cross f (vaxis 3 2))| ≤ 1/1000
        · refine ⟨cross f (vaxis 3 0), by rw [dot3]; simp [vaxis]; ring, ?_, ?_⟩
          · intro h0
            have e1 := congrFun h0 1
            have e2 := congrFun h0 2
            simp [vaxis] at e1 e2
            rw [squaredLength, dot3] at hax
            simp [vaxis, e1, e2] at hax
            rw [dot3, e1, e2] at ff
            norm_num at hax ff
            linarith
          · unfold Quat.ofFromTo
            simp only [isEqual_exact, Quat.almostZero, isZero_exact_nonneg _ (by norm_num : (0:ℝ) ≤ 1/1000)]
            rw [if_neg (by simpa using hc1), if_pos (by simpa using hc2), if_pos (by simpa using hax), hpi]
        · refine ⟨cross f (vaxis 3 2), by rw [dot3]; simp [vaxis]; try ring, ?_, ?_⟩
          · intro h0
            apply hax
            rw [h0, squaredLength, dot_zero_left]; norm_num
          · unfold Quat.ofFromTo
            simp only [isEqual_exact, Quat.almostZero, isZero_exact_nonneg _ (by norm_num : (0:ℝ) ≤ 1/1000)]
            rw [if_neg (by simpa using hc1), if_pos (by simpa using hc2), if_neg (by simpa using hax), hpi]
      rw [normalize_of_ne ha0] at hq
      have hu := dot_normalized ha0
      have hrot : (Quat.ofAxisAngle ((length a)⁻¹ • a) Real.pi).rotate f = -f := by
        rw [ofAxisAngle_rodrigues _ hu, dot_smul_left, haf]
        funext i; simp [vscale]
      refine step _ _ hu hq ⟨?_, ?_, ?_, ?_⟩
      · intro _ h
        rw [show -dot f t - 1 = -(dot f t + 1) by ring, abs_neg] at hc2
        exact absurd hc2 (not_le.2 h)
      · intro h
        rw [h, tt] at hc2
        norm_num at hc2
      · intro h; rw [hrot, h, neg_neg]
      · rw [hrot, hsd (-f) (by rw [dot_neg_left, dot_neg_right, ff, neg_neg]), dot_neg_left]
        have := (abs_le.1 hc2).1
        linarith
    · -- general
      have hcr : dot (cross f t) (cross f t) = 1 - dot f t ^ 2 := by
        have : dot (cross f t) (cross f t) = dot f f * dot t t - dot f t ^ 2 := by
          simp only [dot3, cross_0, cross_1, cross_2]; ring
        rw [this, ff, tt, one_mul]
      have hlt : dot f t ^ 2 < 1 := by
        rw [sq_lt_one_iff_abs_lt_one, abs_lt]
        constructor
        · refine lt_of_le_of_ne c2 fun e => hc2 ?_
          rw [← e]; norm_num
        · refine lt_of_le_of_ne c1 fun e => hc1 ?_
          rw [e]; norm_num
      have hne : cross f t ≠ 0 := by
        intro h
        rw [h, dot_zero_left] at hcr
        linarith
      have hu := dot_normalized hne
      have hq : Quat.ofFromTo f t
          = some (Quat.ofAxisAngle ((length (cross f t))⁻¹ • cross f t) (Real.arccos (dot f t))) := by
        unfold Quat.ofFromTo
        simp only [isEqual_exact, Quat.almostZero]
        rw [if_neg (by simpa using hc1), if_neg (by simpa using hc2), normalize_of_ne hne]
        rfl
      have hsin : Real.sin (Real.arccos (dot f t)) = length (cross f t) := by
        rw [Real.sin_arccos, ← hcr]; rfl
      have hL : length (cross f t) ≠ 0 := (length_pos hne).ne'
      have hrot : (Quat.ofAxisAngle ((length (cross f t))⁻¹ • cross f t) (Real.arccos (dot f t))).rotate f = t := by
        rw [ofAxisAngle_rodrigues _ hu, Real.cos_arccos c2 c1, hsin]
        have e0 : dot ((length (cross f t))⁻¹ • cross f t) f = 0 := by
          rw [dot_smul_left]
          have : dot (cross f t) f = 0 := by simp only [dot3, cross_0, cross_1, cross_2]; ring
          rw [this, mul_zero]
        rw [e0]
        have e1 : vscale (cross ((length (cross f t))⁻¹ • cross f t) f) (length (cross f t))
            = cross (cross f t) f := by
          generalize cross f t = w at hL ⊢
          apply ext3 <;> simp [vscale] <;> field_simp
        rw [e1]
        rw [dot3] at ff
        apply ext3 <;> simp only [vscale, Pi.add_apply, cross_0, cross_1, cross_2, dot3]
        · linear_combination (t 0) * ff
        · linear_combination (t 1) * ff
        · linear_combination (t 2) * ff
      refine step _ _ hu hq ⟨fun _ _ => hrot, fun _ => hrot, fun _ => hrot, ?_⟩
      rw [hrot, squaredDistance, sub_self, squaredLength, dot_zero_left]; norm_num

/-- Hypotheses and both premises of exactness are met by perpendicular vectors. -/
example : length (![3/5, 0, 4/5] : Vec ℝ 3) = 1 ∧ length (![0, 1, 0] : Vec ℝ 3) = 1 ∧
    1/1000 < |dot (![3/5, 0, 4/5] : Vec ℝ 3) ![0, 1, 0] - 1| ∧
    1/1000 < |dot (![3/5, 0, 4/5] : Vec ℝ 3) ![0, 1, 0] + 1| := by
  simp only [length, squaredLength, dot3, Matrix.cons_val_zero, Matrix.cons_val_one, Matrix.cons_val]; norm_num

/-- C46 as stated fails: unit vectors 1.1 degrees apart for which the result is the identity. -/
theorem C46_not_exact : ∃ f t : Vec ℝ 3, length f = 1 ∧ length t = 1 ∧
    ∃ q, Quat.ofFromTo f t = some q ∧ q.rotate f ≠ t := by
  refine ⟨![1, 0, 0], ![9999/10001, 200/10001, 0], ?_, ?_, Quat.ofAxisAngle (vaxis 3 2) 0, ?_, ?_⟩
  · simp only [length, squaredLength, dot3, Matrix.cons_val_zero, Matrix.cons_val_one, Matrix.cons_val]; norm_num
  · simp only [length, squaredLength, dot3, Matrix.cons_val_zero, Matrix.cons_val_one, Matrix.cons_val]; norm_num
  · unfold Quat.ofFromTo
    simp only [isEqual_exact, Quat.almostZero]
    rw [if_pos]
    simp only [dot3, Matrix.cons_val_zero, Matrix.cons_val_one, Matrix.cons_val, decide_eq_true_eq, abs_le]
    norm_num
  · have hz : dot (vaxis 3 2 : Vec ℝ 3) (vaxis 3 2) = 1 := by rw [dot3]; simp [vaxis]
    rw [ofAxisAngle_rodrigues _ hz]
    intro h
    have := congrFun h 1
    simp [vscale] at this
    norm_num at this

/-! ### C47 -/

/-- `quat(axis, angle)` rotates by Rodrigues' formula; `angle()` returns the angle; `axis()` returns the axis if
the sine of half the angle is at least 0.002; for smaller angles it may return the positive multiple
`axis * sin(angle/2)`.  Missing from C47: the exact axis for small angles, which does not hold
(`C47_axis_not_normalized`). -/
theorem C47_accessors_partial (a : Vec ℝ 3) (t : ℝ) (v : Vec ℝ 3) (ha : length a = 1) (h0 : 0 < t)
    (h1 : t < 2 * Real.pi) :
    (Quat.ofAxisAngle a t).r ^ 2 + squaredLength (Quat.ofAxisAngle a t).v = 1 ∧
    (Quat.ofAxisAngle a t).rotate v
      = vscale v (Real.cos t) + vscale (cross a v) (Real.sin t) + vscale a (dot a v * (1 - Real.cos t)) ∧
    (Quat.ofAxisAngle a t).angle = t ∧
    (2/1000 ≤ Real.sin (t / 2) → (Quat.ofAxisAngle a t).axis = a) ∧
    ((Quat.ofAxisAngle a t).axis = a ∨ (Quat.ofAxisAngle a t).axis = vscale a (Real.sin (t / 2))) ∧
    0 < Real.sin (t / 2) := by
  have ha1 : dot a a = 1 := by rw [← length_sq, ha, one_pow]
  have hs : 0 < Real.sin (t / 2) := Real.sin_pos_of_pos_of_lt_pi (by linarith) (by linarith)
  have harc : Real.arccos (Real.cos (t / 2)) = t / 2 := Real.arccos_cos (by linarith) (by linarith)
  have hdiv : vdivs (vscale a (Real.sin (t / 2))) (Real.sin (t / 2)) = a := by
    funext i; simp only [vdivs, vscale]; field_simp
  refine ⟨?_, ofAxisAngle_rodrigues a ha1 t v, ?_, ?_, ?_, hs⟩
  · rw [← ofAxisAngle_normSq a ha1 t, squaredLength, dot3, Quat.normSq]; ring
  · simp only [Quat.angle, Quat.ofAxisAngle, harc]; ring
  · intro h2
    unfold Quat.axis
    rw [if_neg]
    · simp only [Quat.ofAxisAngle, harc, hdiv]
    · simp only [visZero, List.all_eq_true, List.mem_finRange, forall_const, Quat.almostZero,
        isZero_exact_nonneg _ (by norm_num : (0:ℝ) ≤ 1/1000), decide_eq_true_eq, Quat.ofAxisAngle, vscale, abs_mul,
        abs_of_pos hs]
      intro hall
      have hb : ∀ i, |a i| ≤ 1/2 := by
        intro i
        have := hall i
        by_contra hgt
        push Not at hgt
        nlinarith
      have hsq : ∀ i, a i * a i ≤ 1/4 := by
        intro i
        rw [← abs_mul_abs_self]
        nlinarith [hb i, abs_nonneg (a i)]
      rw [dot3] at ha1
      linarith [hsq 0, hsq 1, hsq 2]
  · unfold Quat.axis
    split_ifs with h
    · right; rfl
    · left; simp only [Quat.ofAxisAngle, harc, hdiv]

/-- The hypotheses are met by a quarter turn about a tilted axis. -/
example : length (![3/5, 0, 4/5] : Vec ℝ 3) = 1 ∧ (0:ℝ) < Real.pi / 3 ∧ Real.pi / 3 < 2 * Real.pi ∧
    2/1000 ≤ Real.sin (Real.pi / 3 / 2) := by
  refine ⟨?_, by positivity, by linarith [Real.pi_pos], ?_⟩
  · simp only [length, squaredLength, dot3, Matrix.cons_val_zero, Matrix.cons_val_one, Matrix.cons_val]; norm_num
  · rw [show Real.pi / 3 / 2 = Real.pi / 6 by ring, Real.sin_pi_div_six]; norm_num

/-- For an angle of 0.001, the axis that is returned is not the axis, nor even a unit vector. -/
theorem C47_axis_not_normalized : ∃ (a : Vec ℝ 3) (t : ℝ), length a = 1 ∧ 0 < t ∧ t < 2 * Real.pi ∧
    (Quat.ofAxisAngle a t).axis ≠ a ∧ length (Quat.ofAxisAngle a t).axis < 1/1000 := by
  have hlt : Real.sin ((1/1000) / 2) < (1/1000)/2 := Real.sin_lt (by norm_num)
  have hpos : 0 < Real.sin ((1/1000 : ℝ) / 2) :=
    Real.sin_pos_of_pos_of_lt_pi (by norm_num) (by linarith [Real.pi_gt_three])
  have hax : (Quat.ofAxisAngle ![1, 0, 0] (1/1000)).axis = ![Real.sin ((1/1000) / 2), 0, 0] := by
    unfold Quat.axis
    rw [if_pos]
    · simp only [Quat.ofAxisAngle]
      apply ext3 <;> simp [vscale]
    · simp only [visZero, List.all_eq_true, List.mem_finRange, forall_const, Quat.almostZero,
        isZero_exact_nonneg _ (by norm_num : (0:ℝ) ≤ 1/1000), decide_eq_true_eq, Quat.ofAxisAngle, vscale]
      intro i
      fin_cases i
      · simp only [Fin.zero_eta, Matrix.cons_val_zero, one_mul, abs_of_pos hpos]; linarith
      · simp
      · simp
  have hlen : length (![Real.sin ((1/1000) / 2), 0, 0] : Vec ℝ 3) = Real.sin ((1/1000) / 2) := by
    rw [length, squaredLength, dot3]
    simp only [Matrix.cons_val_zero, Matrix.cons_val_one, Matrix.cons_val, mul_zero, add_zero]
    exact Real.sqrt_mul_self hpos.le
  refine ⟨![1, 0, 0], 1/1000, ?_, by norm_num, by linarith [Real.pi_gt_three], ?_, ?_⟩
  · simp only [length, squaredLength, dot3, Matrix.cons_val_zero, Matrix.cons_val_one, Matrix.cons_val]; norm_num
  · rw [hax]
    intro h
    have := congrFun h 0
    simp only [Matrix.cons_val_zero] at this
    linarith
  · rw [hax, hlen]; linarith

/-! ### C48 -/

theorem Quat.beq_exact (p q : Quat K) : p.beq q = decide ((p.r = q.r ∨ p.r = -q.r) ∧ p.v = q.v) := by
  simp only [Quat.beq, veq_exact, Bool.decide_and, Bool.decide_or]
  rfl

/-- Unit quaternions describe the same rotation exactly if they are equal or differ by the sign of all four
components. -/
theorem Quat.same_rotation_iff (p q : Quat K) (hp : p.normSq = 1) (hq : q.normSq = 1) :
    (∀ v, p.rotate v = q.rotate v) ↔ p = q ∨ p = ⟨-q.r, -q.v⟩ := by
  constructor
  · intro h
    have hid : ∀ v, (q.conjugate.mul p).rotate v = v := by
      intro v
      rw [Quat.rotate_mul, h, Quat.conj_rotate, hq]; funext i; simp [vscale]
    have hc : q.conjugate.normSq = 1 := by
      rw [← hq]; simp only [Quat.normSq, Quat.conjugate, Pi.neg_apply]; ring
    have hn : (q.conjugate.mul p).normSq = 1 := by rw [Quat.normSq_mul, hp, hc, one_mul]
    have hpq : p = q.mul (q.conjugate.mul p) := by
      rw [← Quat.mul_assoc']
      have : q.mul q.conjugate = ⟨1, 0⟩ := by
        apply Quat.ext'
        · rw [← hq]; simp only [Quat.mul, Quat.conjugate, dot3, Quat.normSq, Pi.neg_apply]; ring
        · apply ext3 <;> simp [Quat.mul, Quat.conjugate] <;> ring
      rw [this]
      apply Quat.ext'
      · simp [Quat.mul, dot3]
      · apply ext3 <;> simp [Quat.mul]
    generalize hs : q.conjugate.mul p = s at hid hn hpq
    have e0 := congrFun (hid ![1, 0, 0]) 0
    have e1 := congrFun (hid ![0, 1, 0]) 1
    rw [Quat.rotate_apply] at e0 e1
    simp only [Matrix.cons_val_zero, Matrix.cons_val_one, Matrix.cons_val] at e0 e1
    rw [Quat.normSq] at hn
    have y : s.v 1 = 0 := by
      apply mul_self_eq_zero.1; nlinarith [mul_self_nonneg (s.v 1), mul_self_nonneg (s.v 2)]
    have z : s.v 2 = 0 := by
      apply mul_self_eq_zero.1; nlinarith [mul_self_nonneg (s.v 1), mul_self_nonneg (s.v 2)]
    have x : s.v 0 = 0 := by
      apply mul_self_eq_zero.1; nlinarith [mul_self_nonneg (s.v 0), mul_self_nonneg (s.v 2)]
    have r : s.r = 1 ∨ s.r = -1 := by
      rw [x, y, z] at hn
      apply mul_self_eq_one_iff.1; linarith
    rw [hpq]
    rcases r with r | r
    · left
      apply Quat.ext'
      · simp [Quat.mul, dot3, x, y, z, r]
      · apply ext3 <;> simp [Quat.mul, x, y, z, r]
    · right
      apply Quat.ext'
      · simp [Quat.mul, dot3, x, y, z, r]
      · apply ext3 <;> simp [Quat.mul, x, y, z, r]
  · rintro (rfl | rfl) v
    · rfl
    · rw [Quat.rotate_apply, Quat.rotate_apply]
      apply ext3 <;> simp

/-- What quaternion equality does mean for unit quaternions: equal quaternions describe the same rotation or
rotations inverse to each other; and quaternions that describe the same rotation compare equal unless they
differ in the sign of a non-zero imaginary part.  `!=` is the negation of `==`.
Missing from C48: `==` implying equal rotations, `-q` describing the same rotation as `q`, and `==` for all
quaternions describing the same rotation; all three fail (`C48_equality_fails`). -/
theorem C48_equality_partial (p q : Quat K) (hp : p.r ^ 2 + squaredLength p.v = 1)
    (hq : q.r ^ 2 + squaredLength q.v = 1) :
    (p.beq q = true → (∀ v, p.rotate v = q.rotate v) ∨ (∀ v, p.rotate (q.rotate v) = v)) ∧
    ((∀ v, p.rotate v = q.rotate v) → (p.beq q = true ∨ p.v = -q.v)) ∧
    (∀ v, q.rotate (q.neg.rotate v) = v) ∧
    p.bne q = !(p.beq q) := by
  have conv : ∀ q : Quat K, q.r ^ 2 + squaredLength q.v = q.normSq := by
    intro q; rw [squaredLength, dot3, Quat.normSq]; ring
  have hp' := hp
  have hq' := hq
  rw [conv] at hp' hq'
  have hneg : ∀ (q : Quat K) v, q.neg.rotate v = q.conjugate.rotate v := by
    intro q v
    rw [Quat.rotate_apply, Quat.rotate_apply]
    apply ext3 <;> simp [Quat.neg, Quat.conjugate]
  refine ⟨?_, ?_, ?_, ?_⟩
  · rw [Quat.beq_exact, decide_eq_true_eq]
    rintro ⟨hr | hr, hv⟩
    · left; intro v; rw [Quat.ext' hr hv]
    · right; intro v
      have : p = q.neg := Quat.ext' hr hv
      rw [this, hneg]
      exact (C45_unit q q hq hq v v).2.2.2.2.2.1
  · intro h
    rcases (Quat.same_rotation_iff p q hp' hq').1 h with rfl | rfl
    · left; rw [Quat.beq_exact]; simp
    · right; rfl
  · intro v
    rw [hneg]
    exact (C45_unit q q hq hq v v).2.2.2.2.2.2.1
  · simp only [Quat.bne, Quat.beq, vne, veq]
    simp [bne]

/-- C48 fails in all three parts: two quaternions that compare equal but rotate differently; the negative of a
quaternion rotates differently; and two quaternions that describe the same rotation and do not compare equal. -/
theorem C48_equality_fails :
    (∃ p q : Quat ℚ, p.r ^ 2 + squaredLength p.v = 1 ∧ q.r ^ 2 + squaredLength q.v = 1 ∧ p.beq q = true ∧
      ∃ v, p.rotate v ≠ q.rotate v) ∧
    (∃ q : Quat ℚ, q.r ^ 2 + squaredLength q.v = 1 ∧ ∃ v, q.neg.rotate v ≠ q.rotate v) ∧
    (∃ p q : Quat ℚ, p.r ^ 2 + squaredLength p.v = 1 ∧ q.r ^ 2 + squaredLength q.v = 1 ∧
      (∀ v, p.rotate v = q.rotate v) ∧ p.beq q = false) := by
  refine ⟨⟨⟨3/5, ![4/5, 0, 0]⟩, ⟨-3/5, ![4/5, 0, 0]⟩, by decide +kernel, by decide +kernel, by decide +kernel, ![0, 1, 0],
      by decide +kernel⟩,
    ⟨⟨3/5, ![4/5, 0, 0]⟩, by decide +kernel, ![0, 1, 0], by decide +kernel⟩,
    ⟨⟨3/5, ![4/5, 0, 0]⟩, ⟨-3/5, ![-4/5, 0, 0]⟩, by decide +kernel, by decide +kernel, ?_, ?_⟩⟩
  · rw [Quat.same_rotation_iff _ _ (by decide +kernel) (by decide +kernel)]
    right; decide +kernel
  · rw [Quat.beq_exact]; decide +kernel

end vm
