import Verif.Model.AngleG
import Verif.Props.FltRot
import Verif.Props.Quat
import Verif.Lemmas.FltQuat
import Verif.Props.Vec

/-! Angles between vectors, and quaternions from an axis and an angle, in IEEE arithmetic: running errors. -/

set_option linter.unusedSectionVars false
set_option linter.unusedSimpArgs false

namespace vm
variable {P : BinPar}

/-- The function `ac` computes the arc cosine of a number in [-1, 1] with a relative error of at most two rounding errors (and half of the least
positive number), is not negative there, and NaN elsewhere. -/
structure AccurateAcos (P : BinPar) (ac : Flt P.fmt → Flt P.fmt) : Prop where
  fin : ∀ x, x.isFinite → |x.val| ≤ 1 → (ac x).isFinite
  nonneg : ∀ x, x.isFinite → |x.val| ≤ 1 → 0 ≤ (ac x).val
  err : ∀ x, x.isFinite → |x.val| ≤ 1 → |((ac x).val : ℝ) - Real.arccos x.val| ≤ 2 * P.u * Real.arccos x.val + P.eta
  nan : ∀ x, x.isFinite → 1 < |x.val| → ac x = Flt.nan

namespace FltAng
open FltRot

theorem exists_acos (hp : 10 ≤ P.p) : ∃ ac : Flt P.fmt → Flt P.fmt, AccurateAcos P ac := by
  classical
  have h : ∀ x : Flt P.fmt, ∃ s : Flt P.fmt, s.isFinite ∧ |(s.val : ℝ) - Real.arccos x.val| ≤ 2 * P.u * Real.arccos x.val + P.eta ∧ 0 ≤ s.val := by
    intro x
    have h0 := Real.arccos_nonneg (x.val : ℝ)
    have h1 := Real.arccos_le_pi (x.val : ℝ)
    obtain ⟨s, a, b, -, d⟩ := near_exists hp (y := Real.arccos x.val) (by rw [abs_of_nonneg h0]; linarith [Real.pi_le_four])
    rw [abs_of_nonneg h0] at b
    exact ⟨s, a, b, d h0⟩
  choose f hf using h
  refine ⟨fun x => if 1 < |x.val| then Flt.nan else f x, fun x _ h => ?_, fun x _ h => ?_, fun x _ h => ?_, fun x _ h => ?_⟩
  · simp only [not_lt.2 h, if_false]; exact (hf x).1
  · simp only [not_lt.2 h, if_false]; exact (hf x).2.2
  · simp only [not_lt.2 h, if_false]; exact (hf x).2.1
  · simp only [h, if_true]

/-- The bound for a product when the exact factor is bounded. -/
theorem mul_ap {X k B k' B' Y : ℝ} {x x' : Flt P.fmt} {y y' : ℝ} (hX : ApOk P X) (h : Ap 1 k B x y) (h' : Ap X k' B' x' y') (hk : 0 ≤ k)
    (hB0 : 0 ≤ B) (hy : |y| ≤ Y) (hB : B * B' ≤ 16) :
    Ap X (k * B' + Y * k' + B * B' + 1 / 2000) (B * B' + 1 / 1000 * (B * B') + 1 / 2000) (x * x') (y * y') := by
  have h1 := hX.one
  have h2 := Ap.u_pos P
  have e := h.err
  have l := h.le
  rw [mul_one] at e l
  have Y0 : 0 ≤ Y := (abs_nonneg _).trans hy
  refine Ap.round (q := x.val * x'.val) hX ?_ hB ?_ (Flt.mul_eq h.fin h'.fin)
  · push_cast
    rw [abs_mul]
    calc |(x.val : ℝ)| * |(x'.val : ℝ)| ≤ B * (B' * X) := mul_le_mul l h'.le (abs_nonneg _) hB0
      _ = B * B' * X := by ring
  · push_cast
    have : (x.val : ℝ) * x'.val - y * y' = ((x.val : ℝ) - y) * x'.val + y * ((x'.val : ℝ) - y') := by ring
    rw [this]
    refine (abs_add_le _ _).trans ?_
    rw [abs_mul, abs_mul]
    have m1 : |(x.val : ℝ) - y| * |(x'.val : ℝ)| ≤ k * P.u * (B' * X) := mul_le_mul e h'.le (abs_nonneg _) (by positivity)
    have m2 : |y| * |(x'.val : ℝ) - y'| ≤ Y * (k' * P.u * X) := mul_le_mul hy h'.err (abs_nonneg _) Y0
    linarith

/-! ### The angle between two vectors -/

theorem clamp_fin {x : Flt P.fmt} (hx : x.isFinite) : (clamp x (-1) 1).isFinite ∧ (clamp x (-1) 1).val = max (min x.val 1) (-1) := by
  have h1 : (-1 : Flt P.fmt).isFinite ∧ (-1 : Flt P.fmt).val = -1 := ⟨Flt.neg_finite.2 Flt.one_finite, by rw [Flt.neg_val, Flt.one_val]⟩
  have e1 : Cmp.lt x (1 : Flt P.fmt) = decide (x.val < 1) := by rw [Flt.lt_val hx Flt.one_finite, Flt.one_val]
  have m : (min2 x 1).isFinite ∧ (min2 x 1).val = min x.val 1 := by
    show (if Cmp.lt x 1 = true then x else 1).isFinite ∧ (if Cmp.lt x 1 = true then x else 1).val = min x.val 1
    rw [e1]
    by_cases h : x.val < 1
    · simp only [h, decide_true, if_true]
      exact ⟨hx, (min_eq_left h.le).symm⟩
    · simp only [h, decide_false, Bool.false_eq_true, if_false]
      exact ⟨Flt.one_finite, by rw [Flt.one_val, min_eq_right (not_lt.1 h)]⟩
  obtain ⟨m1, m2⟩ := m
  have e2 : Cmp.lt (-1 : Flt P.fmt) (min2 x 1) = decide (-1 < (min2 x 1).val) := by rw [Flt.lt_val h1.1 m1, h1.2]
  rw [← m2]
  show (if Cmp.lt (-1) (min2 x 1) = true then min2 x 1 else -1).isFinite ∧ (if Cmp.lt (-1) (min2 x 1) = true then min2 x 1 else -1).val = _
  rw [e2]
  by_cases h : -1 < (min2 x 1).val
  · simp only [h, decide_true, if_true]
    exact ⟨m1, (max_eq_left h.le).symm⟩
  · simp only [h, decide_false, Bool.false_eq_true, if_false]
    exact ⟨h1.1, by rw [h1.2, max_eq_right (not_lt.1 h)]⟩

/-- The clamped value. -/
def unitRange (x : ℝ) : ℝ := max (min x 1) (-1)

theorem unitRange_le (x : ℝ) : |unitRange x| ≤ 1 := abs_le.2 ⟨le_max_right _ _, max_le (min_le_right _ _) (by norm_num)⟩

theorem unitRange_eq {x : ℝ} (h : |x| ≤ 1) : unitRange x = x := by
  unfold unitRange
  rw [min_eq_left (abs_le.1 h).2, max_eq_left (abs_le.1 h).1]

theorem unitRange_sub (x y : ℝ) : |unitRange x - unitRange y| ≤ |x - y| := by
  unfold unitRange
  refine (abs_max_sub_max_le_max _ _ _ _).trans ?_
  rw [sub_self, abs_zero, max_eq_left (abs_nonneg _)]
  refine (abs_min_sub_min_le_max _ _ _ _).trans ?_
  rw [sub_self, abs_zero, max_eq_left (abs_nonneg _)]

section dot
variable {v a w : Vec (Flt P.fmt) 3}

/-- A finite vector with components of size at most 1.02. -/
def NearUnit (v : Vec (Flt P.fmt) 3) : Prop := (∀ i, (v i).isFinite) ∧ ∀ i, |((v i).val : ℝ)| ≤ 1.02

/-- The components as real numbers. -/
noncomputable def rvec (v : Vec (Flt P.fmt) 3) : Vec ℝ 3 := fun i => ((v i).val : ℝ)

theorem ap_of (hv : NearUnit v) (i : Fin 3) : Ap 1 0 1.02 (v i) (rvec v i) := Ap.exact (hv.1 i) (by rw [mul_one]; exact hv.2 i)

theorem dot_ap (hp : 10 ≤ P.p) (hv : NearUnit v) (ha : NearUnit a) : Ap 1 8.4 3.2 (dot v a) (dot (rvec v) (rvec a)) := by
  have ok := ok_one hp
  rw [FltQt.dot3, vm.dot3]
  have m : ∀ i, Ap 1 1.041 1.042 (v i * a i) (rvec v i * rvec a i) := fun i =>
    (Ap.mul ok (ap_of hv i) (ap_of ha i) (by norm_num) (by norm_num) (by norm_num) (by norm_num) (by norm_num)).mono zero_le_one (by norm_num)
      (by norm_num)
  exact (Ap.add ok ((Ap.add ok (m 0) (m 1) (by norm_num)).mono zero_le_one (k1 := 4.168) (B1 := 2.088) (by norm_num) (by norm_num)) (m 2)
    (by norm_num)).mono zero_le_one (by norm_num) (by norm_num)

theorem triple_ap (hp : 10 ≤ P.p) (hv : NearUnit v) (ha : NearUnit a) (hw : NearUnit w) :
    Ap 1 30 6.5 (dot (cross a v) w) (dot (cross (rvec a) (rvec v)) (rvec w)) := by
  have ok := ok_one hp
  have m : ∀ i j, Ap 1 1.041 1.042 (a i * v j) (rvec a i * rvec v j) := fun i j =>
    (Ap.mul ok (ap_of ha i) (ap_of hv j) (by norm_num) (by norm_num) (by norm_num) (by norm_num) (by norm_num)).mono zero_le_one (by norm_num)
      (by norm_num)
  have c : ∀ i j k l, Ap 1 4.168 2.088 (a i * v j - a k * v l) (rvec a i * rvec v j - rvec a k * rvec v l) := fun i j k l =>
    (Ap.sub ok (m i j) (m k l) (by norm_num)).mono zero_le_one (by norm_num) (by norm_num)
  have n : ∀ i j k l o, Ap 1 6.384 2.133 ((a i * v j - a k * v l) * w o) ((rvec a i * rvec v j - rvec a k * rvec v l) * rvec w o) :=
    fun i j k l o => (Ap.mul ok (c i j k l) (ap_of hw o) (by norm_num) (by norm_num) (by norm_num) (by norm_num) (by norm_num)).mono zero_le_one
      (by norm_num) (by norm_num)
  rw [FltQt.dot3, vm.dot3]
  exact (Ap.add ok ((Ap.add ok (n 1 2 2 1 0) (n 2 0 0 2 1) (by norm_num)).mono zero_le_one (k1 := 17.04) (B1 := 4.271) (by norm_num) (by norm_num))
    (n 0 1 1 0 2) (by norm_num)).mono zero_le_one (by norm_num) (by norm_num)

end dot

theorem twoPi_err (hP : P = binary32 ∨ P = binary64) : P.twoPi.isFinite ∧ |(P.twoPi.val : ℝ) - 2 * Real.pi| ≤ 4 * P.u ∧ |(P.pi.val : ℝ) - Real.pi| ≤ 2 * P.u := by
  have lo := Real.pi_gt_d20
  have hi := Real.pi_lt_d20
  have h := (angle_consts hP).1
  have key : |(P.pi.val : ℝ) - Real.pi| ≤ 2 * P.u := by
    rcases hP with rfl | rfl
    · have hu : (binary32.u : ℝ) = 1 / 2 ^ 24 := by norm_num [BinPar.u, binary32]
      rw [pi32.2, hu]
      push_cast
      norm_num at lo hi ⊢
      exact abs_le.2 ⟨by linarith, by linarith⟩
    · have hu : (binary64.u : ℝ) = 1 / 2 ^ 53 := by norm_num [BinPar.u, binary64]
      rw [pi64.2, hu]
      push_cast
      norm_num at lo hi ⊢
      exact abs_le.2 ⟨by linarith, by linarith⟩
  refine ⟨h.1, ?_, key⟩
  rw [h.2]
  push_cast
  rw [← mul_sub, abs_mul, abs_two]
  linarith

theorem fmt_p (hP : P = binary32 ∨ P = binary64) : 10 ≤ P.p := by rcases hP with rfl | rfl <;> decide

/-- The value of the arc cosine. -/
theorem acos_err (hp : 10 ≤ P.p) {ac : Flt P.fmt → Flt P.fmt} (hA : AccurateAcos P ac) {x : Flt P.fmt} (hx : x.isFinite) (h1 : |x.val| ≤ 1) :
    |((ac x).val : ℝ) - Real.arccos x.val| ≤ 6.3 * P.u ∧ ((ac x).val : ℝ) ≤ 3.15 := by
  have ok := ok_one hp
  have e := hA.err x hx h1
  have u0 := Ap.u_pos P
  have he := Ap.eta_small ok
  have hl := Real.arccos_le_pi (x.val : ℝ)
  have pi := Real.pi_lt_d4
  have : 2 * P.u * Real.arccos x.val ≤ 2 * P.u * 3.1416 := mul_le_mul_of_nonneg_left (by linarith) (by linarith)
  have k := abs_le.1 e
  have hu := ok.u
  exact ⟨abs_le.2 ⟨by linarith, by linarith⟩, by linarith⟩

/-- What `measure_angle` computes. -/
theorem measure_cases (hP : P = binary32 ∨ P = binary64) {ac : Flt P.fmt → Flt P.fmt} (hA : AccurateAcos P ac) {v a w : Vec (Flt P.fmt) 3}
    (hv : NearUnit v) (ha : NearUnit a) (hw : NearUnit w) : ∃ α : ℝ, 0 ≤ α ∧ α ≤ Real.pi ∧
    |Real.cos α - unitRange (dot (rvec v) (rvec a))| ≤ 8.4 * P.u ∧
    (measureAngleG ac P.twoPi v a w).isFinite ∧ 0 ≤ (measureAngleG ac P.twoPi v a w).val ∧
    (measureAngleG ac P.twoPi v a w).val ≤ P.twoPi.val ∧
    ((0 ≤ (dot (cross a v) w).val ∧ |((measureAngleG ac P.twoPi v a w).val : ℝ) - α| ≤ 6.3 * P.u) ∨
      ((dot (cross a v) w).val < 0 ∧ |((measureAngleG ac P.twoPi v a w).val : ℝ) - (2 * Real.pi - α)| ≤ 17 * P.u)) := by
  have hp := fmt_p hP
  have ok := ok_one hp
  have u0 := Ap.u_pos P
  have hu := ok.u
  have d := dot_ap hp hv ha
  have t := triple_ap hp hv ha hw
  obtain ⟨c1, c2⟩ := clamp_fin d.fin
  have c3 : ((clamp (dot v a) (-1) 1).val : ℝ) = unitRange (dot v a).val := by
    rw [c2]; unfold unitRange; push_cast; rfl
  have c4 : |(clamp (dot v a) (-1) 1).val| ≤ 1 := by
    have := unitRange_le (dot v a).val
    rw [← c3] at this
    exact_mod_cast this
  have e := acos_err hp hA c1 c4
  have f := hA.fin _ c1 c4
  have n := hA.nonneg _ c1 c4
  have c4' : |((clamp (dot v a) (-1) 1).val : ℝ)| ≤ 1 := by exact_mod_cast c4
  obtain ⟨p1, p2, p3⟩ := twoPi_err hP
  have pi1 := Real.pi_gt_d4
  have pi2 := Real.pi_lt_d4
  have k2 := abs_le.1 p2
  have er := abs_le.1 e.1
  have tp : (6.27 : ℝ) ≤ P.twoPi.val ∧ (P.twoPi.val : ℝ) ≤ 6.29 := ⟨by linarith, by linarith⟩
  have le : Cmp.le 0 (dot (cross a v) w) = decide (0 ≤ (dot (cross a v) w).val) := by
    rw [Flt.lt_asymm_le Flt.zero_finite t.fin, Flt.zero_val]
  have hM : measureAngleG ac P.twoPi v a w = if Cmp.le 0 (dot (cross a v) w) = true then ac (clamp (dot v a) (-1) 1)
      else P.twoPi - ac (clamp (dot v a) (-1) 1) := rfl
  refine ⟨Real.arccos (clamp (dot v a) (-1) 1).val, Real.arccos_nonneg _, Real.arccos_le_pi _, ?_, ?_⟩
  · rw [Real.cos_arccos (abs_le.1 c4').1 (abs_le.1 c4').2, c3]
    refine (unitRange_sub _ _).trans ?_
    have := d.err
    rwa [mul_one] at this
  · rw [hM, le]
    by_cases h : 0 ≤ (dot (cross a v) w).val
    · simp only [h, decide_true, if_true, true_and]
      refine ⟨f, n, ?_, Or.inl e.1⟩
      have : ((ac (clamp (dot v a) (-1) 1)).val : ℝ) ≤ P.twoPi.val := by linarith [e.2]
      exact_mod_cast this
    · simp only [h, decide_false, Bool.false_eq_true, if_false, false_and, false_or]
      have nR : (0 : ℝ) ≤ (ac (clamp (dot v a) (-1) 1)).val := by exact_mod_cast n
      have lt1 : 0 ≤ P.twoPi.val - (ac (clamp (dot v a) (-1) 1)).val := by
        have : (0 : ℝ) ≤ (P.twoPi.val : ℝ) - (ac (clamp (dot v a) (-1) 1)).val := by linarith [e.2]
        exact_mod_cast this
      have ap := Ap.round (P := P) (X := 1) (B := 6.29) (k := 0) (x := P.twoPi - ac (clamp (dot v a) (-1) 1))
        (y := (P.twoPi.val : ℝ) - (ac (clamp (dot v a) (-1) 1)).val)
        (q := P.twoPi.val - (ac (clamp (dot v a) (-1) 1)).val) ok (by
          push_cast
          exact abs_le.2 ⟨by linarith [e.2], by linarith⟩) (by norm_num) (by push_cast; simp) (Flt.sub_eq p1 f)
      have sv := Flt.sub_eq p1 f
      have val : (P.twoPi - ac (clamp (dot v a) (-1) 1)).val = P.fl (P.twoPi.val - (ac (clamp (dot v a) (-1) 1)).val) := by
        have g := ap.fin
        rw [sv] at g ⊢
        exact Flt.round_val g
      refine ⟨ap.fin, ?_, ?_, not_le.1 h, ?_⟩
      · rw [val]; exact P.fl_nonneg lt1
      · rw [val]; exact P.fl_le_of_rep (Flt.rep_val _).1 (by linarith)
      · have k := abs_le.1 ap.err
        exact abs_le.2 ⟨by linarith, by linarith⟩

/-- The arc cosine away from the ends. -/
theorem arccos_near {a b : ℝ} (ha0 : 0 ≤ a) (ha : a ≤ Real.pi) (hb0 : 0 ≤ b) (hb : b ≤ Real.pi) :
    Real.sin b * |a - b| ≤ Real.pi * |Real.cos a - Real.cos b| := by
  have pp := Real.pi_pos
  have e : |Real.cos a - Real.cos b| = 2 * Real.sin ((a + b) / 2) * Real.sin (|a - b| / 2) := by
    rw [Real.cos_sub_cos]
    have s0 : 0 ≤ Real.sin ((a + b) / 2) := Real.sin_nonneg_of_nonneg_of_le_pi (by linarith) (by linarith)
    rcases le_total b a with h | h
    · have s1 : 0 ≤ Real.sin ((a - b) / 2) := Real.sin_nonneg_of_nonneg_of_le_pi (by linarith) (by linarith)
      rw [abs_of_nonneg (by linarith : 0 ≤ a - b), mul_assoc, abs_mul, abs_neg, abs_two, abs_of_nonneg (mul_nonneg s0 s1)]
      ring
    · have s1 : 0 ≤ Real.sin ((b - a) / 2) := Real.sin_nonneg_of_nonneg_of_le_pi (by linarith) (by linarith)
      have : Real.sin ((a - b) / 2) = -Real.sin ((b - a) / 2) := by rw [← Real.sin_neg]; congr 1; ring
      rw [abs_of_nonpos (by linarith : a - b ≤ 0), this, show -(a - b) / 2 = (b - a) / 2 by ring, mul_assoc, mul_neg, abs_mul, abs_neg, abs_two,
        abs_neg, abs_of_nonneg (mul_nonneg s0 s1)]
      ring
  have sb : Real.sin b ≤ 2 * Real.sin ((a + b) / 2) := by
    have s0 : 0 ≤ Real.sin ((a + b) / 2) := Real.sin_nonneg_of_nonneg_of_le_pi (by linarith) (by linarith)
    have sa : 0 ≤ Real.sin a := Real.sin_nonneg_of_nonneg_of_le_pi ha0 ha
    have h1 : Real.sin a + Real.sin b = 2 * Real.sin ((a + b) / 2) * Real.cos ((a - b) / 2) := by
      have h2 := Real.sin_add ((a + b) / 2) ((a - b) / 2)
      have h3 := Real.sin_sub ((a + b) / 2) ((a - b) / 2)
      rw [show (a + b) / 2 + (a - b) / 2 = a by ring] at h2
      rw [show (a + b) / 2 - (a - b) / 2 = b by ring] at h3
      linarith
    have := mul_le_mul_of_nonneg_left (Real.cos_le_one ((a - b) / 2)) (by linarith : 0 ≤ 2 * Real.sin ((a + b) / 2))
    linarith
  have lt : |a - b| / 2 ≤ Real.pi / 2 := by
    have : |a - b| ≤ Real.pi := abs_le.2 ⟨by linarith, by linarith⟩
    linarith
  have j := Real.mul_le_sin (x := |a - b| / 2) (by positivity) lt
  have sb0 : 0 ≤ Real.sin b := Real.sin_nonneg_of_nonneg_of_le_pi hb0 hb
  rw [e]
  have h1 : |a - b| ≤ Real.pi * Real.sin (|a - b| / 2) := by
    have : 2 / Real.pi * (|a - b| / 2) = |a - b| / Real.pi := by ring
    rw [this, div_le_iff₀ pp] at j
    linarith
  calc Real.sin b * |a - b| ≤ (2 * Real.sin ((a + b) / 2)) * (Real.pi * Real.sin (|a - b| / 2)) :=
        mul_le_mul sb h1 (abs_nonneg _) (by linarith)
    _ = _ := by ring

/-! ### Quaternions from an axis and an angle -/

/-- Halving changes a number of the format by at most half of the least positive number. -/
theorem half_err {t : ℚ} (ht : P.Rep t) : |P.fl (t / 2) - t / 2| ≤ P.eta := by
  obtain ⟨m, e, rfl, hm, he⟩ := ht
  have h2 := BinPar.two_zpow_pos e
  rcases he.eq_or_lt with rfl | he
  · have key : ∀ m : ℤ, 0 ≤ m → |m| < 2 ^ P.p → |P.fl ((m : ℚ) * 2 ^ P.qmin / 2) - (m : ℚ) * 2 ^ P.qmin / 2| ≤ P.eta := by
      intro m h0 hm
      rw [abs_of_nonneg h0] at hm
      have h0' : (0 : ℚ) ≤ m := by exact_mod_cast h0
      have hm' : (m : ℚ) ≤ 2 ^ P.p := by exact_mod_cast hm.le
      have := near_multiple (P := P) (y := (m : ℚ) * 2 ^ P.qmin / 2) (e := P.qmin) le_rfl (by positivity) (by
        rw [zpow_add₀ (by norm_num), zpow_natCast]
        have := mul_le_mul_of_nonneg_right hm' h2.le
        nlinarith)
      refine this.trans (le_of_eq ?_)
      unfold BinPar.eta
      rw [zpow_sub₀ (by norm_num), zpow_one]
    rcases le_total 0 m with h | h
    · exact key m h hm
    · have := key (-m) (by omega) (by rwa [abs_neg])
      rw [show (((-m : ℤ) : ℚ) * 2 ^ P.qmin / 2) = -((m : ℚ) * 2 ^ P.qmin / 2) by push_cast; ring, P.fl_neg,
        show -P.fl ((m : ℚ) * 2 ^ P.qmin / 2) - -((m : ℚ) * 2 ^ P.qmin / 2) = -(P.fl ((m : ℚ) * 2 ^ P.qmin / 2) - (m : ℚ) * 2 ^ P.qmin / 2) by ring,
        abs_neg] at this
      exact this
  · have r : P.Rep ((m : ℚ) * 2 ^ e / 2) := ⟨m, e - 1, by rw [zpow_sub₀ (by norm_num), zpow_one]; ring, hm, by omega⟩
    rw [P.fl_rep r, sub_self, abs_zero]
    exact (Er.eta_pos P).le

theorem half_angle {t : Flt P.fmt} (ht : t.isFinite) : (t / 2).isFinite ∧ |((t / 2).val : ℝ) - (t.val : ℝ) / 2| ≤ P.eta := by
  have hr : P.Rep t.val := (Flt.rep_val t).1
  have hb : |P.fl (t.val / 2)| < P.bound := by
    have h1 : |t.val| < P.bound := (Flt.rep_val t).2
    have h2 : |P.fl (t.val / 2)| ≤ |t.val| := by
      rw [abs_le]
      constructor
      · refine P.le_fl_of_rep (show P.Rep (-|t.val|) from ?_) ?_
        · rcases abs_cases t.val with ⟨h, -⟩ | ⟨h, -⟩ <;> rw [h]
          · exact hr.neg
          · rw [neg_neg]; exact hr
        · have := neg_abs_le t.val; have := abs_nonneg t.val; linarith
      · refine P.fl_le_of_rep (show P.Rep (|t.val|) from ?_) ?_
        · rcases abs_cases t.val with ⟨h, -⟩ | ⟨h, -⟩ <;> rw [h]
          · exact hr
          · exact hr.neg
        · have := le_abs_self t.val; have := abs_nonneg t.val; linarith
    exact lt_of_le_of_lt h2 h1
  have i := is_div (P := P) ⟨ht, rfl⟩ (Flt.two_eq P) two_ne_zero rfl hb
  refine ⟨i.1, ?_⟩
  rw [i.2]
  have := (Rat.cast_le (K := ℝ)).2 (half_err hr)
  push_cast at this
  exact this

end FltAng
end vm
