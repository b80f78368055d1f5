import Verif.Lemmas.FltBoxMat
import Verif.Lemmas.FltConst
import Verif.Lemmas.FltPolygon
import Verif.Props.FltGrid

/-! Quotients and linear functions of one coordinate in IEEE arithmetic, for projection matrices. -/

set_option linter.unusedSectionVars false
set_option linter.unusedSimpArgs false

namespace vm
open BinPar

namespace FltProj
variable {P : BinPar}

theorem u_eighth (P : BinPar) : P.u ≤ 1 / 8 := by
  have h := P.hp
  unfold BinPar.u
  calc (2 : ℚ) ^ (-(P.p : ℤ)) ≤ 2 ^ (-3 : ℤ) := zpow_le_zpow_right₀ (by norm_num) (by omega)
    _ = 1 / 8 := by norm_num

/-- The quotient of two rounded numbers. -/
theorem quot_err {n e : Flt P.fmt} {N D : ℚ} (hn : n.isFinite) (he : e.isFinite) (h : (n / e).isFinite) (h0' : D ≠ 0) (r1 : |n.val - N| ≤ P.u * |N|)
    (r2 : |e.val - D| ≤ P.u * |D|) : |(n / e).val - N / D| ≤ 4 * P.u * |N / D| + P.eta := by
  have u8 := u_eighth P
  have u0 := P.u_pos
  have D0 : 0 < |D| := abs_pos.2 h0'
  have e0 : 7 / 8 * |D| ≤ |e.val| := by
    have h3 := abs_sub_abs_le_abs_sub D e.val
    rw [abs_sub_comm D e.val] at h3
    have := mul_le_mul_of_nonneg_right u8 (abs_nonneg D)
    linarith
  have ene : e.val ≠ 0 := fun hc => by rw [hc, abs_zero] at e0; linarith
  have r3 := P.fl_err_u (n.val / e.val)
  have hv : (n / e).val = P.fl (n.val / e.val) := by
    rw [fin_div_fin hn he ene] at h ⊢
    exact Flt.round_val h
  rw [hv]
  generalize n.val = n at *
  generalize e.val = e at *
  have key : |n / e - N / D| * |e| ≤ 2 * P.u * |N| := by
    rw [← abs_mul, sub_mul, div_mul_cancel₀ _ ene]
    have e1 : n - N / D * e = (n - N) - N / D * (e - D) := by
      field_simp; ring
    rw [e1]
    have h3 := abs_sub (n - N) (N / D * (e - D))
    rw [abs_mul, abs_div] at h3
    have h4 : |N| / |D| * |e - D| ≤ |N| / |D| * (P.u * |D|) := mul_le_mul_of_nonneg_left r2 (by positivity)
    rw [show |N| / |D| * (P.u * |D|) = P.u * |N| by field_simp] at h4
    linarith
  have k2 : |n / e - N / D| ≤ 16 / 7 * P.u * |N / D| := by
    have h5 : |n / e - N / D| * (7 / 8 * |D|) ≤ 2 * P.u * |N| := (mul_le_mul_of_nonneg_left e0 (abs_nonneg _)).trans key
    rw [abs_div N D, mul_div_assoc', le_div_iff₀ D0]
    linarith
  have k3 : |n / e| ≤ |N / D| + |n / e - N / D| := by
    have := abs_sub_abs_le_abs_sub (n / e) (N / D)
    linarith
  have k4 : |P.fl (n / e) - N / D| ≤ |P.fl (n / e) - n / e| + |n / e - N / D| := abs_sub_le _ _ _
  have w0 : 0 ≤ P.u * |N / D| := by positivity
  have k5 : |n / e| ≤ 9 / 7 * |N / D| := by
    have := mul_le_mul_of_nonneg_right u8 (abs_nonneg (N / D))
    linarith
  have k6 := mul_le_mul_of_nonneg_left k5 u0.le
  linarith

theorem exact_err (x : ℚ) : |x - x| ≤ P.u * |x| := by
  rw [sub_self, abs_zero]
  exact mul_nonneg P.u_pos.le (abs_nonneg _)

/-- The value of a linear function with rounded coefficients. -/
theorem lin_err {f p t : Flt P.fmt} {F T : ℚ} (h : (f * p + t).isFinite) (hf : |f.val - F| ≤ 4 * P.u * |F| + P.eta) (ht : |t.val - T| ≤ 4 * P.u * |T| + P.eta) :
    |(f * p + t).val - (F * p.val + T)| ≤ 8 * P.u * (|F * p.val| + |T|) + (2 * |p.val| + 3) * P.eta := by
  obtain ⟨h1, h2⟩ := Flt.add_finite h
  have u8 := u_eighth P
  have u0 := P.u_pos
  have n0 : 0 < P.eta := P.eta_pos
  have r1 := P.fl_err_u (f.val * p.val)
  rw [← Flt.mul_val h1] at r1
  have r2 := P.fl_add_err_u (Flt.rep_val (f * p)).1 (Flt.rep_val t).1
  rw [← Flt.add_val h] at r2
  generalize (f * p + t).val = R at *
  generalize (f * p).val = A at *
  generalize f.val = f at *
  generalize p.val = p at *
  generalize t.val = t at *
  rw [abs_mul] at r1
  rw [abs_mul]
  have bf : |f| ≤ 3 / 2 * |F| + P.eta := by
    have h1 := abs_sub_abs_le_abs_sub f F
    have h2 := mul_le_mul_of_nonneg_right u8 (abs_nonneg F)
    linarith
  have bt : |t| ≤ 3 / 2 * |T| + P.eta := by
    have h1 := abs_sub_abs_le_abs_sub t T
    have h2 := mul_le_mul_of_nonneg_right u8 (abs_nonneg T)
    linarith
  have bfp : |f| * |p| ≤ 3 / 2 * (|F| * |p|) + P.eta * |p| := by
    have := mul_le_mul_of_nonneg_right bf (abs_nonneg p)
    linarith
  have bA : |A| ≤ |f| * |p| + |A - f * p| := by
    have := abs_sub_abs_le_abs_sub A (f * p)
    rw [abs_mul] at this
    linarith
  have efp := mul_le_mul_of_nonneg_right u8 (by positivity : 0 ≤ |f| * |p|)
  have bA' : |A| ≤ 9 / 8 * (|f| * |p|) + P.eta := by linarith
  have eA := mul_le_mul_of_nonneg_left ((abs_add_le A t).trans (add_le_add bA' bt)) u0.le
  have efp2 := mul_le_mul_of_nonneg_left bfp u0.le
  have tri : |R - (F * p + T)| ≤ |R - (A + t)| + |A - f * p| + |f - F| * |p| + |t - T| := by
    have e : R - (F * p + T) = (R - (A + t)) + (A - f * p) + (f - F) * p + (t - T) := by ring
    rw [e]
    refine (abs_add_le _ _).trans (add_le_add_left ((abs_add_le _ _).trans ?_) _)
    rw [abs_mul]
    exact add_le_add_left (abs_add_le _ _) _
  have ef := mul_le_mul_of_nonneg_right hf (abs_nonneg p)
  have z1 : 0 ≤ P.u * (|F| * |p|) := by positivity
  have z2 : 0 ≤ P.u * |T| := by positivity
  have z3 : 0 ≤ P.eta * |p| := by positivity
  have z4 := mul_le_mul_of_nonneg_right u8 z3
  have z5 := mul_le_mul_of_nonneg_right u8 n0.le
  linarith

theorem div_nonneg_flt {a b : Flt P.fmt} (ha : a.isFinite) (hb : b.isFinite) (h : (a / b).isFinite) (ha0 : 0 ≤ a.val) (hb0 : 0 ≤ b.val) : 0 ≤ (a / b).val := by
  by_cases hz : b.val = 0
  · exfalso
    obtain ⟨k1, e1⟩ := Flt.eq_fin ha
    obtain ⟨k2, e2⟩ := Flt.eq_fin hb
    rw [e1, e2] at h
    change Flt.isFinite (if b.val = 0 then Flt.infTimes a.val else Flt.round _ : Flt P.fmt) at h
    rw [if_pos hz] at h
    unfold Flt.infTimes at h
    split_ifs at h <;> exact h
  · rw [fin_div_fin ha hb hz] at h ⊢
    rw [Flt.round_val h]
    exact P.fl_nonneg (div_nonneg ha0 hb0)

theorem lin_mono {f p q t : Flt P.fmt} (h1 : (f * p + t).isFinite) (h2 : (f * q + t).isFinite) (hf : 0 ≤ f.val) (h : p.val ≤ q.val) :
    (f * p + t).val ≤ (f * q + t).val := by
  obtain ⟨a1, a2⟩ := Flt.add_finite h1
  obtain ⟨b1, b2⟩ := Flt.add_finite h2
  rw [Flt.add_val h1, Flt.add_val h2, Flt.mul_val a1, Flt.mul_val b1]
  exact P.fl_mono (add_le_add_left (P.fl_mono (mul_le_mul_of_nonneg_left h hf)) _)

/-- Products with the reciprocal do not exceed one. -/
theorem fl_recip_le_one {w : ℚ} (h0 : 0 < w) (h1 : 2 ^ (P.qmin + P.p - 1) ≤ 1 / w) : P.fl (P.fl (1 / w) * w) ≤ 1 := by
  have e := P.fl_err_rel (q := 1 / w) (by rw [abs_of_pos (by positivity)]; exact h1)
  rw [abs_of_pos (by positivity : 0 < 1 / w)] at e
  have e1 := (abs_le.1 e).2
  have e2 : P.fl (1 / w) * w ≤ 1 + 2 ^ (-(P.p : ℤ)) := by
    have h3 := mul_le_mul_of_nonneg_right (by linarith : P.fl (1 / w) ≤ 1 / w + 2 ^ (-(P.p : ℤ)) * (1 / w)) h0.le
    have h4 : (1 / w + 2 ^ (-(P.p : ℤ)) * (1 / w)) * w = 1 + 2 ^ (-(P.p : ℤ)) := by field_simp
    linarith
  have hp := P.hp
  have hq := P.hmin
  have e3 : P.fl (1 + 2 ^ (-(P.p : ℤ))) = 1 := by
    have u1 : (0 : ℚ) < 2 ^ (-(P.p : ℤ)) := two_zpow_pos _
    have u2 : (2 : ℚ) ^ (-(P.p : ℤ)) ≤ 1 / 8 := u_eighth P
    have hk : (2 : ℚ) ^ (1 - P.p : ℤ) = 2 * 2 ^ (-(P.p : ℤ)) := by rw [show (1 - P.p : ℤ) = 1 + -(P.p : ℤ) by ring, zpow_add2, zpow_one]
    have hm : (2 : ℚ) ^ (P.p - 1 : ℕ) * 2 ^ (1 - P.p : ℤ) = 1 := by
      rw [← zpow_natCast, ← zpow_add2]
      have : ((P.p - 1 : ℕ) : ℤ) + (1 - P.p : ℤ) = 0 := by omega
      rw [this, zpow_zero]
    rw [P.fl_eval_even (1 - P.p : ℤ) (2 ^ (P.p - 1 : ℕ)) (by omega) ?_ ?_ ?_ ?_]
    · push_cast; exact hm
    · rw [abs_of_pos (by positivity), show (1 - P.p + P.p - 1 : ℤ) = 0 by ring, zpow_zero]; linarith
    · rw [abs_of_pos (by positivity), show (1 - P.p + P.p : ℤ) = 1 by ring, zpow_one]; linarith
    · have : (1 + 2 ^ (-(P.p : ℤ))) / 2 ^ (1 - P.p : ℤ) - ((2 ^ (P.p - 1 : ℕ) : ℤ) : ℚ) = 1 / 2 := by
        rw [div_sub' (two_zpow_pos _).ne', div_eq_iff (two_zpow_pos _).ne']
        push_cast
        rw [mul_comm ((2 : ℚ) ^ (1 - P.p : ℤ)), hm, hk]; ring
      rw [this, abs_of_pos (by norm_num)]
    · rw [show P.p - 1 = (P.p - 2) + 1 by omega, pow_succ]; omega
  exact (P.fl_mono e2).trans e3.le

end FltProj

end vm
