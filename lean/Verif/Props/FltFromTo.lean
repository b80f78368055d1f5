import Verif.Lemmas.FltFromTo
import Verif.Props.FltPolygon

/-! C141: the rotation from one vector to another, in IEEE arithmetic. -/

set_option linter.unusedSectionVars false
set_option linter.unusedSimpArgs false

namespace vm
variable {P : BinPar}

/-- C141: over the real numbers the generic definition is the one of the exact model, for all vectors that are not divided by a zero length. -/
theorem C141_model (f t : Vec ℝ 3) (q : Quat ℝ) (h : Quat.ofFromTo f t = some q) :
    Quat.ofFromToG Real.sqrt Real.sin Real.cos Real.arccos Real.pi Quat.almostZero f t = q ∧
    rotationMatrixFromTo f t = some (rotationMatrixFromToG Real.sqrt Real.sin Real.cos Real.arccos Real.pi Quat.almostZero f t) := by
  have n : ∀ {v w : Vec ℝ 3}, normalize v = some w → normalizeG Real.sqrt v = w := by
    intro v w hw
    obtain ⟨-, rfl⟩ := normalize_eq_some hw
    unfold normalizeG lengthG
    rw [vdivs_eq_smul]; rfl
  have key : Quat.ofFromToG Real.sqrt Real.sin Real.cos Real.arccos Real.pi Quat.almostZero f t = q := by
    unfold Quat.ofFromTo at h
    unfold Quat.ofFromToG
    by_cases h1 : isEqual (dot f t) 1 Quat.almostZero
    · simp only [h1, if_true, Option.some.injEq] at h ⊢
      exact h
    · by_cases h2 : isEqual (-dot f t) 1 Quat.almostZero
      · simp only [h1, h2, if_true, Option.map_eq_some_iff, if_false, Bool.false_eq_true] at h ⊢
        obtain ⟨w, hw, rfl⟩ := h
        rw [n hw]; rfl
      · simp only [h1, h2, Option.map_eq_some_iff, if_false, Bool.false_eq_true] at h ⊢
        obtain ⟨w, hw, rfl⟩ := h
        rw [n hw]; rfl
  refine ⟨key, ?_⟩
  unfold rotationMatrixFromTo rotationMatrixFromToG
  rw [h, key]; rfl

namespace FltTo
open FltAng FltRot

theorem az (hP : P = binary32 ∨ P = binary64) :
    P.almostZero.isFinite ∧ 999999 / 1000000000 ≤ P.almostZero.val ∧ P.almostZero.val ≤ 1000001 / 1000000000 := by
  rcases hP with rfl | rfl
  · rw [almostZero32.2]; exact ⟨almostZero32.1, by norm_num, by norm_num⟩
  · rw [almostZero64.2]; exact ⟨almostZero64.1, by norm_num, by norm_num⟩

theorem fmt_u (hP : P = binary32 ∨ P = binary64) : (P.u : ℝ) ≤ 1 / 16000000 := by
  have : P.u ≤ 1 / 16000000 := by
    rcases hP with rfl | rfl <;> norm_num [BinPar.u, binary32, binary64]
  have h : ((P.u : ℚ) : ℝ) ≤ ((1 / 16000000 : ℚ) : ℝ) := by exact_mod_cast this
  push_cast at h; exact h

theorem fmt_bound (hP : P = binary32 ∨ P = binary64) : 300 * (1001 / 1000) + 300 < P.bound := by
  rcases hP with rfl | rfl
  · exact (by norm_num : (300 * (1001 / 1000) + 300 : ℚ) < 2 ^ (10 : ℤ)).trans_le (zpow_le_zpow_right₀ (by norm_num) (by decide))
  · exact (by norm_num : (300 * (1001 / 1000) + 300 : ℚ) < 2 ^ (10 : ℤ)).trans_le (zpow_le_zpow_right₀ (by norm_num) (by decide))

/-- What the comparison with 1 decides. -/
theorem near_one (hP : P = binary32 ∨ P = binary64) {x : Flt P.fmt} (hx : x.isFinite) :
    (isEqual x 1 P.almostZero = true → |(x.val : ℝ) - 1| ≤ 0.0010001) ∧ (isEqual x 1 P.almostZero = false → 0.000999 < |(x.val : ℝ) - 1|) := by
  obtain ⟨a1, a2, a3⟩ := az hP
  constructor
  · intro h
    unfold isEqual at h
    rw [Flt.sub_eq hx Flt.one_finite, Flt.abs_round, Flt.round_le a1, decide_eq_true_eq, Flt.one_val] at h
    have e := P.fl_err_u |x.val - 1|
    rw [abs_abs] at e
    have h3 := Ap.eta_small (ok_one (P := P) (fmt_p hP))
    have hu := fmt_u hP
    have e := abs_le.1 e
    have k : ((|x.val - 1| : ℚ) : ℝ) ≤ ((1000001 / 1000000000 + P.u * |x.val - 1| + P.eta : ℚ) : ℝ) := by exact_mod_cast (by linarith)
    push_cast at k
    have := mul_le_mul_of_nonneg_right hu (abs_nonneg ((x.val : ℝ) - 1))
    linarith
  · intro h
    by_contra hc
    push Not at hc
    have k : |x.val - 1| ≤ P.almostZero.val := by
      have : ((|x.val - 1| : ℚ) : ℝ) ≤ ((999999 / 1000000000 : ℚ) : ℝ) := by push_cast; linarith
      have : |x.val - 1| ≤ 999999 / 1000000000 := by exact_mod_cast this
      exact this.trans a2
    rw [isEqual_one hx a1 k] at h
    exact Bool.noConfusion h

variable {s sn cs ac : Flt P.fmt → Flt P.fmt} {v w : Vec (Flt P.fmt) 3} {a b : Vec ℝ 3} {ε : ℝ}

theorem dot_le_one (ha : dot a a = 1) (hb : dot b b = 1) : |dot a b| ≤ 1 := by
  have := abs_dot_le a b
  rwa [unit_len ha, unit_len hb, mul_one] at this

/-- The vector about which opposite vectors are rotated. -/
def halfAxis (P : BinPar) (v : Vec (Flt P.fmt) 3) : Vec (Flt P.fmt) 3 :=
  if isZero (squaredLength (cross v (vaxis 3 2))) P.almostZero then cross v (vaxis 3 0) else cross v (vaxis 3 2)

/-- The three cases. -/
theorem cases (hP : P = binary32 ∨ P = binary64) (hv : NearTo v a ε) (hw : NearTo w b ε) :
    (0.99895 ≤ dot a b ∧ Quat.ofFromToG s sn cs ac P.pi P.almostZero v w = Quat.ofAxisAngleG sn cs (vaxis 3 2) 0) ∨
    (dot a b ≤ -0.99895 ∧ Quat.ofFromToG s sn cs ac P.pi P.almostZero v w = Quat.ofAxisAngleG sn cs (normalizeG s (halfAxis P v)) P.pi) ∨
    (|dot a b| ≤ 0.9991 ∧ |(dot v w).val| ≤ 1 ∧
      Quat.ofFromToG s sn cs ac P.pi P.almostZero v w = Quat.ofAxisAngleG sn cs (normalizeG s (cross v w)) (ac (dot v w))) := by
  obtain ⟨cf, ce⟩ := cos_near (fmt_p hP) hv hw
  have hu := fmt_u hP
  have he := hv.2.2.2
  have ce := abs_le.1 ce
  have c1 := abs_le.1 (dot_le_one hv.2.1 hw.2.1)
  obtain ⟨t1, f1⟩ := near_one hP cf
  obtain ⟨t2, f2⟩ := near_one hP (x := -dot v w) (Flt.neg_finite.2 cf)
  rw [Flt.neg_val] at t2 f2
  push_cast at t2 f2
  unfold Quat.ofFromToG
  cases h1 : isEqual (dot v w) 1 P.almostZero
  · cases h2 : isEqual (-dot v w) 1 P.almostZero
    · right; right
      have f1 := lt_abs.1 (f1 h1)
      have f2 := lt_abs.1 (f2 h2)
      have l1 : ((dot v w).val : ℝ) < 0.999001 := by
        rcases f1 with h | h
        · linarith
        · linarith
      have l2 : -0.999001 < ((dot v w).val : ℝ) := by
        rcases f2 with h | h
        · linarith
        · linarith
      refine ⟨abs_le.2 ⟨by linarith, by linarith⟩, ?_, ?_⟩
      · have : ((|(dot v w).val| : ℚ) : ℝ) ≤ ((1 : ℚ) : ℝ) := by
          push_cast; exact abs_le.2 ⟨by linarith, by linarith⟩
        exact_mod_cast this
      · simp only [h1, h2, if_false, Bool.false_eq_true]
    · right; left
      have t := abs_le.1 (t2 h2)
      refine ⟨by linarith, ?_⟩
      simp only [h1, h2, if_true, if_false, Bool.false_eq_true]
      rw [(C120_quarter_turns hP).1.2.2.1]; rfl
  · left
    have t := abs_le.1 (t1 h1)
    refine ⟨by linarith, ?_⟩
    simp only [h1, if_true]

/-- The general case. -/
theorem generic (hP : P = binary32 ∨ P = binary64) (hA : AccurateAcos P ac) (hv : NearTo v a ε)
    (hw : NearTo w b ε) (hc : |dot a b| ≤ 0.9991) (h1 : |(dot v w).val| ≤ 1) (i : Fin 3) :
    (squaredLength (cross v w)).isFinite ∧ NoUnderflow (cross v w) ∧ (ac (dot v w)).isFinite ∧ 0.04 ≤ length (cross a b) ∧ ∀ r E : ℝ,
      |r - rodr (dir (cross v w)) (Real.cos (ac (dot v w)).val) (Real.sin (ac (dot v w)).val) (rvec v) i| ≤ E →
      |r - (w i).val| ≤ E + 35.5 * P.u + 13.2 * ε + (34 * P.u + 15 * ε) / length (cross a b) := by
  have hp := fmt_p hP
  have u0 := Ap.u_pos P
  have hu := fmt_u hP
  have he := hv.2.2.2
  have e0 := hv.pos
  obtain ⟨cf, ce⟩ := cos_near hp hv hw
  obtain ⟨xf, xe⟩ := cross_near hp hv hw
  have ha := hv.2.1
  have hb := hw.2.1
  set l := length (cross a b) with hl
  have l2 : l ^ 2 = 1 - dot a b ^ 2 := by rw [hl, length_cross_sq, ha, hb]; ring
  have l0 : 0 ≤ l := length_nonneg _
  have l1 : 0.04 ≤ l := by
    have : dot a b ^ 2 ≤ 0.9991 ^ 2 := by rw [← sq_abs]; exact pow_le_pow_left₀ (abs_nonneg _) hc 2
    nlinarith
  have lx : 0.03 ≤ length (rvec (cross v w)) := by
    have := abs_le.1 ((abs_length_sub (rvec (cross v w)) (cross a b)).trans xe)
    linarith
  obtain ⟨n1, n2⟩ := can_normalise hp xf (by nlinarith) (by norm_num) lx
  have tf := hA.fin _ cf h1
  obtain ⟨ae, -⟩ := acos_err hp hA cf h1
  have h1' : |((dot v w).val : ℝ)| ≤ 1 := by exact_mod_cast h1
  have h1'' := abs_le.1 h1'
  have ca := Real.cos_arccos h1''.1 h1''.2
  have sn1 := sin_near ha hb (Real.arccos_nonneg ((dot v w).val : ℝ)) (Real.arccos_le_pi _)
    (δ := 8.4 * P.u + 3.47 * ε) (by rw [ca]; exact ce) (by linarith)
  rw [← hl] at sn1
  have dC : |Real.cos (ac (dot v w)).val - dot a b| ≤ 14.7 * P.u + 3.47 * ε := by
    have k1 := abs_le.1 ((Real.abs_cos_sub_cos_le _ _).trans ae)
    rw [ca] at k1
    have k2 := abs_le.1 ce
    exact abs_le.2 ⟨by linarith, by linarith⟩
  have dS : |Real.sin (ac (dot v w)).val - l| ≤ 6.3 * P.u + 2 * (8.4 * P.u + 3.47 * ε) / l := by
    have k1 := abs_le.1 ((Real.abs_sin_sub_sin_le _ _).trans ae)
    have k2 := abs_le.1 sn1
    exact abs_le.2 ⟨by linarith, by linarith⟩
  refine ⟨n1, n2, tf, l1, fun r E re => ?_⟩
  have L0 := realLen_pos (by norm_num) n2
  have G := rodr_to (C := Real.cos (ac (dot v w)).val) (S := Real.sin (ac (dot v w)).val) ha hl (realLen_rvec (cross v w)) (dir_unit L0)
    (dir_scale L0) xe dC (Real.abs_cos_le_one _) dS (by linarith) (by linarith) i
  have N := (rodr_near (dir_unit L0) (Real.cos_sq_add_sin_sq (ac (dot v w)).val) (x := rvec v) (y := a) i).trans hv.dist
  have W := abs_le.1 (hw.2.2.1 i)
  have re := abs_le.1 re
  have G := abs_le.1 G
  have N := abs_le.1 N
  have split : (34 * (P.u : ℝ) + 15 * ε) / l = 2 * (8.4 * P.u + 3.47 * ε) / l + 2.3 * (7.22 * P.u + 3.47 * ε) / l +
      (0.594 * P.u + 0.079 * ε) / l := by field_simp; ring
  have pos : 0 ≤ (0.594 * (P.u : ℝ) + 0.079 * ε) / l := by positivity
  rw [split]
  exact abs_le.2 ⟨by linarith, by linarith⟩

theorem mul_one_sub {x y : Flt P.fmt} (hy : y.isFinite) : x * 1 - y * 0 = x := by
  rw [Flt.mul_one', Flt.mul_zero_fin hy]
  show x + -0 = x
  rw [Flt.neg_zero', Flt.add_zero']

theorem sub_mul_one {x y : Flt P.fmt} (hy : y.isFinite) : y * 0 - x * 1 = -x := by
  rw [Flt.mul_one', Flt.mul_zero_fin hy]
  show 0 + -x = -x
  rw [Flt.zero_add']

theorem sub_zeros {x y : Flt P.fmt} (hx : x.isFinite) (hy : y.isFinite) : x * 0 - y * 0 = 0 := by
  rw [Flt.mul_zero_fin hx, Flt.mul_zero_fin hy]
  show (0 : Flt P.fmt) + -0 = 0
  rw [Flt.neg_zero', Flt.add_zero']

theorem cross_z (hv : ∀ i, (v i).isFinite) : cross v (vaxis 3 2) = ![v 1, -v 0, 0] := by
  apply ext3
  · exact mul_one_sub (hv 2)
  · exact sub_mul_one (hv 2)
  · exact sub_zeros (hv 0) (hv 1)

theorem cross_x (hv : ∀ i, (v i).isFinite) : cross v (vaxis 3 0) = ![0, v 2, -v 1] := by
  apply ext3
  · exact sub_zeros (hv 1) (hv 2)
  · exact mul_one_sub (hv 0)
  · exact sub_mul_one (hv 0)

/-- The axis for opposite vectors is orthogonal to the vector, and long enough to be normalised. -/
theorem half_axis (hP : P = binary32 ∨ P = binary64) (hv : NearTo v a ε) : (squaredLength (halfAxis P v)).isFinite ∧ NoUnderflow (halfAxis P v) ∧
    dot (rvec (halfAxis P v)) (rvec v) = 0 := by
  have hp := fmt_p hP
  have hu := fmt_u hP
  have u0 := Ap.u_pos P
  have lv := abs_le.1 ((abs_length_sub (rvec v) a).trans hv.dist)
  rw [unit_len hv.2.1] at lv
  have he := hv.2.2.2
  have l2 := length_sq (rvec v)
  rw [dot3] at l2
  have lo : 0.9999 ≤ length (rvec v) ^ 2 := by nlinarith
  have c : ∀ i, |((v i).val : ℝ)| ≤ 2.1 := fun i => (hv.unit.2 i).trans (by norm_num)
  have nf : ∀ i, (-v i).isFinite := fun i => Flt.neg_finite.2 (hv.1 i)
  have nc : ∀ i, |((-v i).val : ℝ)| ≤ 2.1 := fun i => by rw [Flt.neg_val]; push_cast; rw [abs_neg]; exact c i
  have zc : (0 : Flt P.fmt).isFinite ∧ |(((0 : Flt P.fmt).val : ℚ) : ℝ)| ≤ 2.1 := ⟨Flt.zero_finite, by rw [Flt.zero_val]; norm_num⟩
  -- the squared length of the first candidate
  have A : ∀ i, Ap 1 0 1.02 (v i) (rvec v i) := ap_of hv.unit
  have An : ∀ i, Ap 1 0 1.02 (-v i) (-rvec v i) := fun i => (A i).neg
  have ok := ok_one (P := P) hp
  have sl : Ap 1 20 5 (squaredLength (![v 1, -v 0, 0] : Vec (Flt P.fmt) 3)) (rvec v 1 * rvec v 1 + (-rvec v 0) * (-rvec v 0) + 0 * 0) := by
    have m := Ap.mul ok (A 1) (A 1) (by norm_num) (by norm_num) (by norm_num) (by norm_num) (by norm_num)
    have n := Ap.mul ok (An 0) (An 0) (by norm_num) (by norm_num) (by norm_num) (by norm_num) (by norm_num)
    have z : Ap 1 0 0 ((0 : Flt P.fmt) * 0) (0 * 0) := by
      rw [Flt.mul_zero_fin Flt.zero_finite, mul_zero]; exact Ap.zero zero_le_one
    show Ap 1 20 5 (dot _ _) _
    rw [FltQt.dot3]
    exact ((Ap.add ok ((Ap.add ok m n (by norm_num)).mono zero_le_one (k1 := 5) (B1 := 2.1) (by norm_num) (by norm_num)) z (by norm_num)).mono
      zero_le_one (by norm_num) (by norm_num))
  have se := abs_le.1 sl.err
  have sl0 : 0 ≤ (squaredLength (![v 1, -v 0, 0] : Vec (Flt P.fmt) 3)).val := flt_dot_self_nonneg _ sl.fin
  obtain ⟨a1, a2, a3⟩ := az hP
  unfold halfAxis
  rw [cross_z hv.1, cross_x hv.1]
  cases h : isZero (squaredLength (![v 1, -v 0, 0] : Vec (Flt P.fmt) 3)) P.almostZero
  · simp only [if_false, Bool.false_eq_true]
    have big : 0.0009 < ((squaredLength (![v 1, -v 0, 0] : Vec (Flt P.fmt) 3)).val : ℝ) := by
      rw [isZero_flt sl.fin a1 (by linarith), decide_eq_false_iff_not, not_le, abs_of_nonneg sl0] at h
      have h := lt_of_le_of_lt a2 h
      have : ((999999 / 1000000000 : ℚ) : ℝ) < ((squaredLength (![v 1, -v 0, 0] : Vec (Flt P.fmt) 3)).val : ℝ) := by exact_mod_cast h
      push_cast at this
      linarith
    have l3 := length_sq (rvec (![v 1, -v 0, 0] : Vec (Flt P.fmt) 3))
    rw [dot3] at l3
    have e : length (rvec (![v 1, -v 0, 0] : Vec (Flt P.fmt) 3)) ^ 2 = rvec v 1 ^ 2 + rvec v 0 ^ 2 := by
      rw [l3]
      show rvec v 1 * rvec v 1 + ((-v 0).val : ℝ) * ((-v 0).val : ℝ) + (((0 : Flt P.fmt).val : ℚ) : ℝ) * (((0 : Flt P.fmt).val : ℚ) : ℝ) = _
      rw [Flt.neg_val, Flt.zero_val]
      simp only [rvec]; push_cast; ring
    have l4 : 0.02 ≤ length (rvec (![v 1, -v 0, 0] : Vec (Flt P.fmt) 3)) := by
      have := length_nonneg (rvec (![v 1, -v 0, 0] : Vec (Flt P.fmt) 3))
      nlinarith
    obtain ⟨n1, n2⟩ := can_normalise hp (x := ![v 1, -v 0, 0]) (fun i => by
      fin_cases i
      · exact ⟨hv.1 1, c 1⟩
      · exact ⟨nf 0, nc 0⟩
      · exact zc) (by nlinarith) (by norm_num) l4
    refine ⟨n1, n2, ?_⟩
    rw [dot3]
    show rvec v 1 * rvec v 0 + ((-v 0).val : ℝ) * rvec v 1 + (((0 : Flt P.fmt).val : ℚ) : ℝ) * _ = _
    rw [Flt.neg_val, Flt.zero_val]
    simp only [rvec]; push_cast; ring
  · simp only [if_true]
    have small : ((squaredLength (![v 1, -v 0, 0] : Vec (Flt P.fmt) 3)).val : ℝ) < 0.002 := by
      rw [isZero_flt sl.fin a1 (by linarith), decide_eq_true_eq, abs_of_nonneg sl0] at h
      have h := h.trans a3
      have : ((squaredLength (![v 1, -v 0, 0] : Vec (Flt P.fmt) 3)).val : ℝ) ≤ ((1000001 / 1000000000 : ℚ) : ℝ) := by exact_mod_cast h
      push_cast at this
      linarith
    have l3 := length_sq (rvec (![0, v 2, -v 1] : Vec (Flt P.fmt) 3))
    rw [dot3] at l3
    have e : length (rvec (![0, v 2, -v 1] : Vec (Flt P.fmt) 3)) ^ 2 = rvec v 2 ^ 2 + rvec v 1 ^ 2 := by
      rw [l3]
      show (((0 : Flt P.fmt).val : ℚ) : ℝ) * (((0 : Flt P.fmt).val : ℚ) : ℝ) + rvec v 2 * rvec v 2 + ((-v 1).val : ℝ) * ((-v 1).val : ℝ) = _
      rw [Flt.neg_val, Flt.zero_val]
      simp only [rvec]; push_cast; ring
    have l4 : 0.02 ≤ length (rvec (![0, v 2, -v 1] : Vec (Flt P.fmt) 3)) := by
      have := length_nonneg (rvec (![0, v 2, -v 1] : Vec (Flt P.fmt) 3))
      nlinarith
    obtain ⟨n1, n2⟩ := can_normalise hp (x := ![0, v 2, -v 1]) (fun i => by
      fin_cases i
      · exact zc
      · exact ⟨hv.1 2, c 2⟩
      · exact ⟨nf 1, nc 1⟩) (by nlinarith) (by norm_num) l4
    refine ⟨n1, n2, ?_⟩
    rw [dot3]
    show (((0 : Flt P.fmt).val : ℚ) : ℝ) * _ + rvec v 2 * rvec v 1 + ((-v 1).val : ℝ) * rvec v 2 = _
    rw [Flt.neg_val, Flt.zero_val]
    simp only [rvec]; push_cast; ring

theorem quat_norm {q : Quat (Flt P.fmt)} {t : ℝ} (ha : dot a a = 1) (q2 : |((q.r.val : ℚ) : ℝ) - (Quat.ofAxisAngle a t).r| ≤ 0.0131)
    (q3 : ∀ i, |(((q.v i).val : ℚ) : ℝ) - (Quat.ofAxisAngle a t).v i| ≤ 0.0131) : qnorm2 (qval q) ≤ (1.06 : ℚ) ^ 2 := by
  set Q := Quat.ofAxisAngle a t with hQ
  obtain ⟨b0, b1⟩ := axisAngle_le ha t
  have hn : Q.r ^ 2 + (Q.v 0 ^ 2 + Q.v 1 ^ 2 + Q.v 2 ^ 2) = 1 := by
    have := ofAxisAngle_normSq a ha t
    unfold Quat.normSq at this
    rw [hQ]; linarith
  have : ((qnorm2 (qval q) : ℚ) : ℝ) ≤ 1.06 ^ 2 := by
    unfold qnorm2 qval
    push_cast
    have sq : ∀ x y : ℝ, |x - y| ≤ 0.0131 → |y| ≤ 1 → x ^ 2 ≤ y ^ 2 + 0.0264 := by
      intro x y h h1
      have e : x ^ 2 = y ^ 2 + (x - y) * (2 * y + (x - y)) := by ring
      have : |(x - y) * (2 * y + (x - y))| ≤ 0.0131 * 2.0131 := by
        rw [abs_mul]
        refine mul_le_mul h ?_ (abs_nonneg _) (by norm_num)
        have k1 := abs_le.1 h; have k2 := abs_le.1 h1
        exact abs_le.2 ⟨by linarith, by linarith⟩
      have := (abs_le.1 this).2
      rw [e]; norm_num at this ⊢; linarith
    have s0 := sq _ _ q2 b0
    have s1 := sq _ _ (q3 0) (b1 0)
    have s2 := sq _ _ (q3 1) (b1 1)
    have s3 := sq _ _ (q3 2) (b1 2)
    norm_num at s0 s1 s2 s3 ⊢
    linarith
  have h2 : ((1.06 ^ 2 : ℚ) : ℝ) = 1.06 ^ 2 := by norm_num
  rw [← h2] at this
  exact_mod_cast this

theorem matrix_near {q Q : Quat ℝ} {δ : ℝ} (hδ : δ ≤ 1 / 50) (hQ0 : |Q.r| ≤ 1) (hQ : ∀ i, |Q.v i| ≤ 1) (h0 : |q.r - Q.r| ≤ δ)
    (h : ∀ i, |q.v i - Q.v i| ≤ δ) (c r : Fin 4) : |rotationMatrixQuat q c r - rotationMatrixQuat Q c r| ≤ 8.1 * δ := by
  have d0 : 0 ≤ δ := (abs_nonneg _).trans h0
  have b0 : |q.r| ≤ 1.02 := by
    have k1 := abs_le.1 hQ0; have k2 := abs_le.1 h0
    exact abs_le.2 ⟨by linarith, by linarith⟩
  have b : ∀ i, |q.v i| ≤ 1.02 := fun i => by
    have k1 := abs_le.1 (hQ i); have k2 := abs_le.1 (h i)
    exact abs_le.2 ⟨by linarith, by linarith⟩
  have vr := fun i => abs_le.1 (mul_near (h i) h0 b0 (hQ i))
  have vv := fun i j => abs_le.1 (mul_near (h i) (h j) (b j) (hQ i))
  have r0 := vr 0; have r1 := vr 1; have r2 := vr 2
  have v00 := vv 0 0; have v11 := vv 1 1; have v22 := vv 2 2; have v01 := vv 0 1; have v02 := vv 0 2; have v12 := vv 1 2
  have z : |(0 : ℝ) - 0| ≤ 8.1 * δ := by rw [sub_zero, abs_zero]; positivity
  have o : |(1 : ℝ) - 1| ≤ 8.1 * δ := by rw [sub_self, abs_zero]; positivity
  fin_cases c <;> fin_cases r
  · show |(1 - 2 * (q.v 1 * q.v 1 + q.v 2 * q.v 2)) - (1 - 2 * (Q.v 1 * Q.v 1 + Q.v 2 * Q.v 2))| ≤ _
    exact abs_le.2 ⟨by linarith, by linarith⟩
  · show |(2 * (q.v 0 * q.v 1 + q.v 2 * q.r)) - (2 * (Q.v 0 * Q.v 1 + Q.v 2 * Q.r))| ≤ _
    exact abs_le.2 ⟨by linarith, by linarith⟩
  · show |(2 * (q.v 0 * q.v 2 - q.v 1 * q.r)) - (2 * (Q.v 0 * Q.v 2 - Q.v 1 * Q.r))| ≤ _
    exact abs_le.2 ⟨by linarith, by linarith⟩
  · exact z
  · show |(2 * (q.v 0 * q.v 1 - q.v 2 * q.r)) - (2 * (Q.v 0 * Q.v 1 - Q.v 2 * Q.r))| ≤ _
    exact abs_le.2 ⟨by linarith, by linarith⟩
  · show |(1 - 2 * (q.v 0 * q.v 0 + q.v 2 * q.v 2)) - (1 - 2 * (Q.v 0 * Q.v 0 + Q.v 2 * Q.v 2))| ≤ _
    exact abs_le.2 ⟨by linarith, by linarith⟩
  · show |(2 * (q.v 1 * q.v 2 + q.v 0 * q.r)) - (2 * (Q.v 1 * Q.v 2 + Q.v 0 * Q.r))| ≤ _
    exact abs_le.2 ⟨by linarith, by linarith⟩
  · exact z
  · show |(2 * (q.v 0 * q.v 2 + q.v 1 * q.r)) - (2 * (Q.v 0 * Q.v 2 + Q.v 1 * Q.r))| ≤ _
    exact abs_le.2 ⟨by linarith, by linarith⟩
  · show |(2 * (q.v 1 * q.v 2 - q.v 0 * q.r)) - (2 * (Q.v 1 * Q.v 2 - Q.v 0 * Q.r))| ≤ _
    exact abs_le.2 ⟨by linarith, by linarith⟩
  · show |(1 - 2 * (q.v 0 * q.v 0 + q.v 1 * q.v 1)) - (1 - 2 * (Q.v 0 * Q.v 0 + Q.v 1 * Q.v 1))| ≤ _
    exact abs_le.2 ⟨by linarith, by linarith⟩
  · exact z
  · exact z
  · exact z
  · exact z
  · exact o

theorem matrix_cast (q : Quat ℚ) (c r : Fin 4) :
    ((rotationMatrixQuat q c r : ℚ) : ℝ) = rotationMatrixQuat (⟨(q.r : ℝ), fun i => (q.v i : ℝ)⟩ : Quat ℝ) c r := by
  fin_cases c <;> fin_cases r <;> simp [rotationMatrixQuat, matOfRowMajor]

end FltTo

section
open FltAng FltRot FltTo
variable {s sn cs ac : Flt P.fmt → Flt P.fmt} {v w : Vec (Flt P.fmt) 3} {a b : Vec ℝ 3} {ε : ℝ}

/-- C141: the entries of `rotation_matrix(quat(axis, angle))` are finite and differ from those of the rotation about the unit vector `a` by at most
39 rounding errors and 8.1 times the error of the axis. -/
theorem C141_quat_matrix (hp : 10 ≤ P.p) (hb : 70 < P.bound) (hT : AccurateTrig P sn cs) {t : Flt P.fmt} (hv : ∀ i, (v i).isFinite)
    (ha : dot a a = 1) (hε : ε ≤ 1 / 100) (hd : ∀ i, |((v i).val : ℝ) - a i| ≤ ε) (ht : t.isFinite) (c r : Fin 4) :
    (rotationMatrixQuat (Quat.ofAxisAngleG sn cs v t) c r).isFinite ∧
    |((rotationMatrixQuat (Quat.ofAxisAngleG sn cs v t) c r).val : ℝ) - rotationMatrixAxis a t.val c r| ≤ 39 * P.u + 8.1 * ε := by
  have u0 := Ap.u_pos P
  have ok := ok_one (P := P) hp
  have hu := ok.u
  have eta := Ap.eta_small ok
  obtain ⟨q1, q2, q3⟩ := C131_quat hp hT hv ha hε hd ht
  have e0 : 0 ≤ ε := (abs_nonneg _).trans (hd 0)
  obtain ⟨b0, b1⟩ := axisAngle_le ha (t.val : ℝ)
  have nq := quat_norm ha (q2.trans (by norm_num at hu ⊢; linarith)) (fun i => (q3 i).trans (by norm_num at hu ⊢; linarith))
  obtain ⟨f, e⟩ := C125_matrix P _ 1.06 q1 nq (by norm_num; linarith) c r
  refine ⟨f, ?_⟩
  have e := (Rat.cast_le (K := ℝ)).2 e
  push_cast at e
  rw [matrix_cast] at e
  have n := matrix_near (q := ⟨((qval (Quat.ofAxisAngleG sn cs v t)).r : ℝ), fun i => ((qval (Quat.ofAxisAngleG sn cs v t)).v i : ℝ)⟩)
    (Q := Quat.ofAxisAngle a t.val) (δ := 3.1 * P.u + ε) (by norm_num at hu ⊢; linarith) b0 b1 (q2.trans (by linarith)) q3 c r
  rw [rotAxis_eq_quat a ha]
  have e := abs_le.1 e
  have n := abs_le.1 n
  norm_num at e n eta ⊢
  exact abs_le.2 ⟨by linarith [e.1, n.1], by linarith [e.2, n.2]⟩

namespace FltTo

/-- Rotating `v` with the quaternion and with its matrix. -/
theorem both (hP : P = binary32 ∨ P = binary64) (hT : AccurateTrig P sn cs) (hv : NearTo v a ε) {n : Vec (Flt P.fmt) 3} {m : Vec ℝ 3} {t : Flt P.fmt}
    (hn : ∀ i, (n i).isFinite ∧ |((n i).val : ℝ) - m i| ≤ 7.5 * P.u) (hm : dot m m = 1) (ht : t.isFinite) (i : Fin 3) :
    (((Quat.ofAxisAngleG sn cs n t).rotate v i).isFinite ∧
      |(((Quat.ofAxisAngleG sn cs n t).rotate v i).val : ℝ) - rodr m (Real.cos t.val) (Real.sin t.val) (rvec v) i| ≤ 309 * P.u) ∧
    ((mmulPoint (rotationMatrixQuat (Quat.ofAxisAngleG sn cs n t)) v i).isFinite ∧
      |((mmulPoint (rotationMatrixQuat (Quat.ofAxisAngleG sn cs n t)) v i).val : ℝ) - rodr m (Real.cos t.val) (Real.sin t.val) (rvec v) i|
        ≤ 309 * P.u) := by
  have hp := fmt_p hP
  have u0 := Ap.u_pos P
  have hu := fmt_u hP
  have bd := fmt_bound hP
  have eta := Ap.eta_small (ok_one (P := P) hp)
  constructor
  · obtain ⟨f, e⟩ := C131_quat_rotate hp hT (fun i => (hn i).1) hm (by linarith) (fun i => (hn i).2) ht hv.1 (by norm_num) hv.norm2 bd i
    refine ⟨f, e.trans ?_⟩
    push_cast
    linarith
  · have E := fun c r => C141_quat_matrix hp (by linarith) hT (fun i => (hn i).1) hm (by linarith) (fun i => (hn i).2) ht c r
    have bR : (64 * (1001 / 1000) : ℝ) < P.bound := by
      have : ((64 * (1001 / 1000) : ℚ) : ℝ) < ((P.bound : ℚ) : ℝ) := by exact_mod_cast (by linarith : (64 * (1001 / 1000) : ℚ) < P.bound)
      push_cast at this; exact this
    obtain ⟨f, e⟩ := point_near (X := 1001 / 1000) (κ := 99.75) (ok_of hp (by norm_num) bR) (by norm_num) (by linarith)
      (C43_axis_angle m m 0 t.val (unit_len hm)).1 (fun c r => (E c r).1) (fun c r => (E c r).2.trans (by linarith))
      (by funext r; fin_cases r <;> rfl)
      (fun c => by fin_cases c <;> rfl) hv.1 (fun i => (comp_le_length (rvec v) i).trans (hv.len.trans (by norm_num))) i
    refine ⟨f, ?_⟩
    rw [(C43_axis_angle m (fun j => ((v j).val : ℝ)) 0 t.val (unit_len hm)).2.1] at e
    exact e.trans (by linarith)

/-- The rotation of a vector by zero. -/
theorem rodr_zero (m x : Vec ℝ 3) : rodr m 1 0 x = x := by
  unfold rodr
  apply ext3 <;> simp only [dot3, vscale, Pi.add_apply, cross_0, cross_1, cross_2] <;> ring

end FltTo

/-- C141: if the cosine of the angle between the unit vectors `a` and `b` is at most 0.9989 in absolute value, `quat(from, to)` and
`rotation_matrix(from, to)`, where the components of `from` and `to` differ from those of `a` and `b` by at most `ε`, take `from` to a finite vector
that differs from `to` by at most `345 u + 13.2 ε + (34 u + 15 ε) / sin θ`, where `θ` is the angle between `a` and `b`. -/
theorem C141_from_to (hP : P = binary32 ∨ P = binary64) (hT : AccurateTrig P sn cs) (hs : FaithfulSqrt P s) (hA : AccurateAcos P ac)
    (hv : NearTo v a ε) (hw : NearTo w b ε) (hc : |dot a b| ≤ 0.9989) (i : Fin 3) :
    (((Quat.ofFromToG s sn cs ac P.pi P.almostZero v w).rotate v i).isFinite ∧
      |(((Quat.ofFromToG s sn cs ac P.pi P.almostZero v w).rotate v i).val : ℝ) - (w i).val|
        ≤ 345 * P.u + 13.2 * ε + (34 * P.u + 15 * ε) / length (cross a b)) ∧
    ((mmulPoint (rotationMatrixFromToG s sn cs ac P.pi P.almostZero v w) v i).isFinite ∧
      |((mmulPoint (rotationMatrixFromToG s sn cs ac P.pi P.almostZero v w) v i).val : ℝ) - (w i).val|
        ≤ 345 * P.u + 13.2 * ε + (34 * P.u + 15 * ε) / length (cross a b)) := by
  have u0 := Ap.u_pos P
  have hc' := abs_le.1 hc
  unfold rotationMatrixFromToG
  rcases cases (s := s) (sn := sn) (cs := cs) (ac := ac) hP hv hw with ⟨h, -⟩ | ⟨h, -⟩ | ⟨h, h1, e⟩
  · linarith
  · linarith
  · rw [e]
    obtain ⟨n1, n2, tf, -, G⟩ := generic hP hA hv hw h h1 i
    obtain ⟨⟨f1, e1⟩, f2, e2⟩ := both hP hT hv (fun i => norm_axis (fmt_p hP) hs n1 n2 i) (dir_unit (realLen_pos (by norm_num) n2)) tf i
    exact ⟨⟨f1, (G _ _ e1).trans (by linarith)⟩, f2, (G _ _ e2).trans (by linarith)⟩

namespace FltTo

/-- The case of opposite vectors. -/
theorem opposite (hP : P = binary32 ∨ P = binary64) (hT : AccurateTrig P sn cs) (hs : FaithfulSqrt P s) (hv : NearTo v a ε) (i : Fin 3) :
    (((Quat.ofAxisAngleG sn cs (normalizeG s (halfAxis P v)) P.pi).rotate v i).isFinite ∧
      |(((Quat.ofAxisAngleG sn cs (normalizeG s (halfAxis P v)) P.pi).rotate v i).val : ℝ) + (v i).val| ≤ 314 * P.u) ∧
    ((mmulPoint (rotationMatrixQuat (Quat.ofAxisAngleG sn cs (normalizeG s (halfAxis P v)) P.pi)) v i).isFinite ∧
      |((mmulPoint (rotationMatrixQuat (Quat.ofAxisAngleG sn cs (normalizeG s (halfAxis P v)) P.pi)) v i).val : ℝ) + (v i).val| ≤ 314 * P.u) := by
  have u0 := Ap.u_pos P
  obtain ⟨n1, n2, o⟩ := half_axis hP hv
  have L0 := realLen_pos (by norm_num) n2
  have pf : P.pi.isFinite := by
    rcases hP with rfl | rfl
    · exact pi32.1
    · exact pi64.1
  obtain ⟨⟨f1, e1⟩, f2, e2⟩ := both hP hT hv (fun i => norm_axis (fmt_p hP) hs n1 n2 i) (dir_unit L0) pf i
  have pe := (twoPi_err hP).2.2
  have c := (Real.abs_cos_sub_cos_le (P.pi.val : ℝ) Real.pi).trans pe
  have d := (Real.abs_sin_sub_sin_le (P.pi.val : ℝ) Real.pi).trans pe
  rw [Real.cos_pi] at c
  rw [Real.sin_pi] at d
  have o2 : dot (dir (halfAxis P v)) (rvec v) = 0 := by
    have h := dir_scale L0
    rw [h, vscale_eq_smul, dot_smul_left] at o
    rcases mul_eq_zero.1 o with h | h
    · exact absurd h (ne_of_gt L0)
    · exact h
  have k : |rodr (dir (halfAxis P v)) (Real.cos P.pi.val) (Real.sin P.pi.val) (rvec v) i + (v i).val| ≤ 5 * P.u := by
    have e : rodr (dir (halfAxis P v)) (Real.cos P.pi.val) (Real.sin P.pi.val) (rvec v) i + (v i).val =
        (Real.cos P.pi.val - -1) * rvec v i + (Real.sin P.pi.val - 0) * cross (dir (halfAxis P v)) (rvec v) i := by
      simp only [rodr, o2, vscale, Pi.add_apply, rvec]; ring
    rw [e]
    refine (abs_add_le _ _).trans ?_
    rw [abs_mul, abs_mul]
    have a1 := (comp_le_length (rvec v) i).trans hv.len
    have a2 := (comp_le_length _ i).trans (length_cross_le (dir (halfAxis P v)) (rvec v))
    rw [unit_len (dir_unit L0), one_mul] at a2
    have a2 := a2.trans hv.len
    have := mul_le_mul c a1 (abs_nonneg _) (by positivity)
    have := mul_le_mul d a2 (abs_nonneg _) (by positivity)
    linarith
  have k := abs_le.1 k
  have e1 := abs_le.1 e1
  have e2 := abs_le.1 e2
  exact ⟨⟨f1, abs_le.2 ⟨by linarith, by linarith⟩⟩, f2, abs_le.2 ⟨by linarith, by linarith⟩⟩

/-- The case of equal vectors. -/
theorem same (hP : P = binary32 ∨ P = binary64) (hT : AccurateTrig P sn cs) (hv : NearTo v a ε) (i : Fin 3) :
    (((Quat.ofAxisAngleG sn cs (vaxis 3 2) 0).rotate v i).isFinite ∧
      |(((Quat.ofAxisAngleG sn cs (vaxis 3 2) 0).rotate v i).val : ℝ) - (v i).val| ≤ 309 * P.u) ∧
    ((mmulPoint (rotationMatrixQuat (Quat.ofAxisAngleG sn cs (vaxis 3 2) 0)) v i).isFinite ∧
      |((mmulPoint (rotationMatrixQuat (Quat.ofAxisAngleG sn cs (vaxis 3 2) 0)) v i).val : ℝ) - (v i).val| ≤ 309 * P.u) := by
  have u0 := Ap.u_pos P
  have z : (0 : Flt P.fmt).isFinite := Flt.zero_finite
  have hn : ∀ i : Fin 3, ((vaxis 3 2 : Vec (Flt P.fmt) 3) i).isFinite ∧
      |(((vaxis 3 2 : Vec (Flt P.fmt) 3) i).val : ℝ) - (vaxis 3 2 : Vec ℝ 3) i| ≤ 7.5 * P.u := by
    intro i
    have p0 : (0 : ℝ) ≤ 7.5 * P.u := by positivity
    fin_cases i
    · refine ⟨z, ?_⟩
      show |(((0 : Flt P.fmt).val : ℚ) : ℝ) - 0| ≤ _
      rw [Flt.zero_val]; simpa using p0
    · refine ⟨z, ?_⟩
      show |(((0 : Flt P.fmt).val : ℚ) : ℝ) - 0| ≤ _
      rw [Flt.zero_val]; simpa using p0
    · refine ⟨Flt.one_finite, ?_⟩
      show |(((1 : Flt P.fmt).val : ℚ) : ℝ) - 1| ≤ _
      rw [Flt.one_val]; simpa using p0
  have hz : dot (vaxis 3 2 : Vec ℝ 3) (vaxis 3 2) = 1 := by rw [dot3]; simp [vaxis]
  have B := both hP hT hv hn hz z i
  rw [Flt.zero_val, Rat.cast_zero, Real.cos_zero, Real.sin_zero, rodr_zero] at B
  exact B

end FltTo

/-- C141: if the cosine of the angle is at least 0.9991, the quaternion and the matrix leave `from` where it is, up to 309 rounding errors; if it is
at most -0.9991, they take it to `-from`, up to 314 rounding errors. -/
theorem C141_cones (hP : P = binary32 ∨ P = binary64) (hT : AccurateTrig P sn cs) (hs : FaithfulSqrt P s)
    (hv : NearTo v a ε) (hw : NearTo w b ε) (i : Fin 3) :
    (0.9991 < dot a b → |(((Quat.ofFromToG s sn cs ac P.pi P.almostZero v w).rotate v i).val : ℝ) - (v i).val| ≤ 309 * P.u ∧
      |((mmulPoint (rotationMatrixFromToG s sn cs ac P.pi P.almostZero v w) v i).val : ℝ) - (v i).val| ≤ 309 * P.u) ∧
    (dot a b < -0.9991 → |(((Quat.ofFromToG s sn cs ac P.pi P.almostZero v w).rotate v i).val : ℝ) + (v i).val| ≤ 314 * P.u ∧
      |((mmulPoint (rotationMatrixFromToG s sn cs ac P.pi P.almostZero v w) v i).val : ℝ) + (v i).val| ≤ 314 * P.u) := by
  unfold rotationMatrixFromToG
  rcases cases (s := s) (sn := sn) (cs := cs) (ac := ac) hP hv hw with ⟨h, e⟩ | ⟨h, e⟩ | ⟨h, h1, e⟩
  · rw [e]
    exact ⟨fun _ => ⟨(same hP hT hv i).1.2, (same hP hT hv i).2.2⟩, fun h' => by linarith⟩
  · rw [e]
    exact ⟨fun h' => by linarith, fun _ => ⟨(opposite hP hT hs hv i).1.2, (opposite hP hT hs hv i).2.2⟩⟩
  · have h := abs_le.1 h
    exact ⟨fun h' => by linarith, fun h' => by linarith⟩

/-- C141: for all unit vectors, the rotated vector is finite and every component differs from that of `to` by less than 0.048. -/
theorem C141_any (hP : P = binary32 ∨ P = binary64) (hT : AccurateTrig P sn cs) (hs : FaithfulSqrt P s) (hA : AccurateAcos P ac)
    (hv : NearTo v a ε) (hw : NearTo w b ε) (i : Fin 3) :
    (((Quat.ofFromToG s sn cs ac P.pi P.almostZero v w).rotate v i).isFinite ∧
      |(((Quat.ofFromToG s sn cs ac P.pi P.almostZero v w).rotate v i).val : ℝ) - (w i).val| < 0.048) ∧
    ((mmulPoint (rotationMatrixFromToG s sn cs ac P.pi P.almostZero v w) v i).isFinite ∧
      |((mmulPoint (rotationMatrixFromToG s sn cs ac P.pi P.almostZero v w) v i).val : ℝ) - (w i).val| < 0.048) := by
  have u0 := Ap.u_pos P
  have hu := fmt_u hP
  have he := hv.2.2.2
  have e0 := hv.pos
  have ha := hv.2.1
  have hb := hw.2.1
  have V := abs_le.1 (hv.2.2.1 i)
  have W := abs_le.1 (hw.2.2.1 i)
  unfold rotationMatrixFromToG
  rcases cases (s := s) (sn := sn) (cs := cs) (ac := ac) hP hv hw with ⟨h, e⟩ | ⟨h, e⟩ | ⟨h, h1, e⟩
  · rw [e]
    obtain ⟨⟨f1, e1⟩, f2, e2⟩ := same hP hT hv i
    have d : |a i - b i| ≤ 0.047 := by
      refine (comp_le_length (a - b) i).trans ?_
      apply le_of_sq_le_sq _ (by norm_num)
      rw [length_sq, dot_sub_left, dot_sub_right, dot_sub_right, ha, hb, dot_comm b a]
      norm_num at h ⊢; linarith
    have d := abs_le.1 d
    have e1 := abs_le.1 e1
    have e2 := abs_le.1 e2
    exact ⟨⟨f1, abs_lt.2 ⟨by linarith, by linarith⟩⟩, f2, abs_lt.2 ⟨by linarith, by linarith⟩⟩
  · rw [e]
    obtain ⟨⟨f1, e1⟩, f2, e2⟩ := opposite hP hT hs hv i
    have d : |a i + b i| ≤ 0.047 := by
      refine (comp_le_length (a + b) i).trans ?_
      apply le_of_sq_le_sq _ (by norm_num)
      rw [length_sq, dot_add_left, dot_add_right, dot_add_right, ha, hb, dot_comm b a]
      norm_num at h ⊢; linarith
    have d := abs_le.1 d
    have e1 := abs_le.1 e1
    have e2 := abs_le.1 e2
    exact ⟨⟨f1, abs_lt.2 ⟨by linarith, by linarith⟩⟩, f2, abs_lt.2 ⟨by linarith, by linarith⟩⟩
  · rw [e]
    obtain ⟨n1, n2, tf, l1, G⟩ := generic hP hA hv hw h h1 i
    obtain ⟨⟨f1, e1⟩, f2, e2⟩ := both hP hT hv (fun i => norm_axis (fmt_p hP) hs n1 n2 i) (dir_unit (realLen_pos (by norm_num) n2)) tf i
    have q : (34 * P.u + 15 * ε) / length (cross a b) ≤ 0.01 := by
      rw [div_le_iff₀ (by linarith)]
      linarith
    have g1 := G _ _ e1
    have g2 := G _ _ e2
    exact ⟨⟨f1, by linarith⟩, f2, by linarith⟩

namespace FltTo

/-- A unit vector with rational components, rounded. -/
theorem round_near (hP : P = binary32 ∨ P = binary64) {x y z : ℚ} (h : x ^ 2 + y ^ 2 + z ^ 2 = 1) :
    NearTo (![Flt.round x, Flt.round y, Flt.round z] : Vec (Flt P.fmt) 3) ![(x : ℝ), (y : ℝ), (z : ℝ)] (1.001 * P.u) := by
  have u0 := Ap.u_pos P
  have hu := fmt_u hP
  have eta := Ap.eta_small (ok_one (P := P) (fmt_p hP))
  have one : ∀ q : ℚ, q ^ 2 ≤ 1 → (Flt.round q : Flt P.fmt).isFinite ∧ |(((Flt.round q : Flt P.fmt).val : ℚ) : ℝ) - q| ≤ 1.001 * P.u := by
    intro q hq
    have q1 : |q| ≤ 1 := by rw [abs_le_one_iff_mul_self_le_one]; nlinarith
    have f : (Flt.round q : Flt P.fmt).isFinite := round_small_finite (q1.trans (by norm_num))
    refine ⟨f, ?_⟩
    rw [Flt.round_val f]
    have e := Ap.fl_err_real P q
    have q1' : |(q : ℝ)| ≤ 1 := by exact_mod_cast q1
    refine e.trans ?_
    nlinarith
  have hx := one x (by nlinarith [sq_nonneg y, sq_nonneg z])
  have hy := one y (by nlinarith [sq_nonneg x, sq_nonneg z])
  have hz := one z (by nlinarith [sq_nonneg y, sq_nonneg x])
  refine ⟨fun i => ?_, ?_, fun i => ?_, by linarith⟩
  · fin_cases i
    · exact hx.1
    · exact hy.1
    · exact hz.1
  · rw [dot3]
    show (x : ℝ) * x + y * y + z * z = 1
    have : ((x ^ 2 + y ^ 2 + z ^ 2 : ℚ) : ℝ) = ((1 : ℚ) : ℝ) := by rw [h]
    push_cast at this; linarith
  · fin_cases i
    · exact hx.2
    · exact hy.2
    · exact hz.2

end FltTo

/-- C141: if the sine and the cosine of zero are exact, the quaternion for vectors whose angle has a cosine of at least 0.9991 is exactly 1, and the
matrix is exactly the identity. -/
theorem C141_identity (hP : P = binary32 ∨ P = binary64) (h0 : sn 0 = 0) (h1 : cs 0 = 1) (hv : NearTo v a ε) (hw : NearTo w b ε)
    (hc : 0.9991 < dot a b) : Quat.ofFromToG s sn cs ac P.pi P.almostZero v w = ⟨1, 0⟩ ∧
    rotationMatrixFromToG s sn cs ac P.pi P.almostZero v w = matId 4 4 := by
  have z : (0 : Flt P.fmt).isFinite := trivial
  obtain ⟨t2, t2v⟩ := Flt.two_eq P
  have e : Quat.ofFromToG s sn cs ac P.pi P.almostZero v w = ⟨1, 0⟩ := by
    rcases cases (s := s) (sn := sn) (cs := cs) (ac := ac) hP hv hw with ⟨h, e⟩ | ⟨h, e⟩ | ⟨h, -, e⟩
    · rw [e]
      have d : (0 : Flt P.fmt) / 2 = 0 := by
        rw [fin_div_fin z t2 (by rw [t2v]; norm_num), Flt.zero_val, zero_div]
        exact Flt.round_of_rep P.fmt.rep_zero
      unfold Quat.ofAxisAngleG
      rw [d, h0, h1]
      refine congrArg (Quat.mk 1) ?_
      funext i
      fin_cases i
      · exact Flt.mul_zero_fin z
      · exact Flt.mul_zero_fin z
      · exact Flt.mul_zero_fin Flt.one_finite
    · linarith
    · have h := abs_le.1 h; linarith
  refine ⟨e, ?_⟩
  unfold rotationMatrixFromToG
  rw [e]
  have zz : (0 : Flt P.fmt) * 0 = 0 := Flt.mul_zero_fin z
  have zo : (0 : Flt P.fmt) * 1 = 0 := Flt.mul_one' _
  have az : (0 : Flt P.fmt) + 0 = 0 := Flt.add_zero' _
  have sz : (0 : Flt P.fmt) - 0 = 0 := by
    show (0 : Flt P.fmt) + -0 = 0
    rw [Flt.neg_zero', az]
  have tz : (2 : Flt P.fmt) * 0 = 0 := Flt.mul_zero_fin t2
  have oz : (1 : Flt P.fmt) - 0 = 1 := by
    show (1 : Flt P.fmt) + -0 = 1
    rw [Flt.neg_zero', Flt.add_zero']
  have d1 : (1 : Flt P.fmt) - 2 * (0 * 0 + 0 * 0) = 1 := by rw [zz, az, tz, oz]
  have d2 : (2 : Flt P.fmt) * (0 * 0 - 0 * 1) = 0 := by rw [zz, zo, sz, tz]
  have d3 : (2 : Flt P.fmt) * (0 * 0 + 0 * 1) = 0 := by rw [zz, zo, az, tz]
  funext c r
  fin_cases c <;> fin_cases r
  · exact d1
  · exact d3
  · exact d2
  · rfl
  · exact d2
  · exact d1
  · exact d3
  · rfl
  · exact d3
  · exact d2
  · exact d1
  · rfl
  · rfl
  · rfl
  · rfl
  · rfl

/-- C141: vectors that include an angle of more than two degrees are not rotated onto each other: for `from` = (1, 0, 0) and `to` the unit vector
(2499/2501, 100/2501, 0), rounded to the format, the second component of the rotated vector differs from that of `to` by more than 0.039, whatever
the accuracy of the numbers. -/
theorem C141_near_fails (hP : P = binary32 ∨ P = binary64) (hT : AccurateTrig P sn cs) (hs : FaithfulSqrt P s) :
    let v : Vec (Flt P.fmt) 3 := ![Flt.round 1, Flt.round 0, Flt.round 0]
    let w : Vec (Flt P.fmt) 3 := ![Flt.round (2499 / 2501), Flt.round (100 / 2501), Flt.round 0]
    0.039 < |(((Quat.ofFromToG s sn cs ac P.pi P.almostZero v w).rotate v 1).val : ℝ) - (w 1).val| := by
  intro v w
  have hu := fmt_u hP
  have u0 := Ap.u_pos P
  have hv := round_near hP (x := 1) (y := 0) (z := 0) (by norm_num)
  have hw := round_near hP (x := 2499 / 2501) (y := 100 / 2501) (z := 0) (by norm_num)
  have k := abs_le.1 ((C141_cones (ac := ac) hP hT hs hv hw 1).1 (by
    rw [dot3]
    show (0.9991 : ℝ) < ((1 : ℚ) : ℝ) * ((2499 / 2501 : ℚ) : ℝ) + ((0 : ℚ) : ℝ) * ((100 / 2501 : ℚ) : ℝ) + ((0 : ℚ) : ℝ) * ((0 : ℚ) : ℝ)
    norm_num)).1
  have V := abs_le.1 (hv.2.2.1 1)
  have W := abs_le.1 (hw.2.2.1 1)
  simp only [Matrix.cons_val_one, Matrix.cons_val_zero] at V W
  push_cast at V W
  rw [lt_abs]
  right
  show (0.039 : ℝ) < -(_ - ((Flt.round (100 / 2501) : Flt P.fmt).val : ℝ))
  have k2 := k.2
  change _ - (((Flt.round 0 : Flt P.fmt).val : ℚ) : ℝ) ≤ _ at k2
  have e : (0.039 : ℝ) + 1 / 10000 < 100 / 2501 := by norm_num
  linarith

/-- The directions (3/5, 4/5, 0) and (0, 3/5, 4/5), rounded to `float`. -/
example : ∃ (s sn cs ac : Flt binary32.fmt → Flt binary32.fmt) (v w : Vec (Flt binary32.fmt) 3) (a b : Vec ℝ 3),
    FaithfulSqrt binary32 s ∧ AccurateTrig binary32 sn cs ∧ AccurateAcos binary32 ac ∧ sn 0 = 0 ∧ cs 0 = 1 ∧
    NearTo v a (1.001 * binary32.u) ∧ NearTo w b (1.001 * binary32.u) ∧ |dot a b| ≤ 0.9989 ∧ 70 < binary32.bound := by
  obtain ⟨s, hs⟩ := exists_correctSqrt binary32
  obtain ⟨sn, cs, hT, h0, h1, -⟩ := exists_accurate (P := binary32) (by decide)
  obtain ⟨ac, hA⟩ := exists_acos (P := binary32) (by decide)
  refine ⟨s, sn, cs, ac, _, _, _, _, hs.faithful, hT, hA, h0, h1, round_near (Or.inl rfl) (x := 3 / 5) (y := 4 / 5) (z := 0) (by norm_num),
    round_near (Or.inl rfl) (x := 0) (y := 3 / 5) (z := 4 / 5) (by norm_num), ?_, by norm_num [BinPar.bound, binary32]⟩
  rw [dot3]
  show |((3 / 5 : ℚ) : ℝ) * ((0 : ℚ) : ℝ) + ((4 / 5 : ℚ) : ℝ) * ((3 / 5 : ℚ) : ℝ) + ((0 : ℚ) : ℝ) * ((4 / 5 : ℚ) : ℝ)| ≤ _
  norm_num

/-- The directions (1, 0, 0) and (2499/2501, 100/2501, 0), rounded to `double`. -/
example : ∃ (v w : Vec (Flt binary64.fmt) 3) (a b : Vec ℝ 3), NearTo v a (1.001 * binary64.u) ∧ NearTo w b (1.001 * binary64.u) ∧
    0.9991 < dot a b := by
  refine ⟨_, _, _, _, round_near (Or.inr rfl) (x := 1) (y := 0) (z := 0) (by norm_num),
    round_near (Or.inr rfl) (x := 2499 / 2501) (y := 100 / 2501) (z := 0) (by norm_num), ?_⟩
  rw [dot3]
  show (0.9991 : ℝ) < ((1 : ℚ) : ℝ) * ((2499 / 2501 : ℚ) : ℝ) + ((0 : ℚ) : ℝ) * ((100 / 2501 : ℚ) : ℝ) + ((0 : ℚ) : ℝ) * ((0 : ℚ) : ℝ)
  norm_num

end
end vm
