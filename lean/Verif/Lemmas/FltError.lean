import Verif.Lemmas.RoundingFlt

/-! Helper lemmas: the standard error model of floating point arithmetic. -/

set_option linter.unusedSectionVars false
set_option linter.unusedSimpArgs false

namespace vm
namespace BinPar
variable {P : BinPar}

/-- Relative error of a rounding without underflow. -/
theorem fl_err_rel {q : ℚ} (h : 2 ^ (P.qmin + P.p - 1) ≤ |q|) : |P.fl q - q| ≤ 2 ^ (-(P.p : ℤ)) * |q| := by
  have h0 : q ≠ 0 := by
    rintro rfl
    rw [abs_zero] at h
    exact absurd (two_zpow_pos _) (not_lt.2 h)
  have h1 := le_log_of_le h
  have h2 : P.ex q = Int.log 2 |q| + 1 - P.p := by unfold ex; omega
  refine (P.fl_err q).trans ?_
  rw [h2]
  have h3 := log_le_self h0
  have h4 : (2 : ℚ) ^ (Int.log 2 |q| + 1 - P.p) = 2 * (2 ^ (-(P.p : ℤ)) * 2 ^ Int.log 2 |q|) := by
    rw [← zpow_add2, ← zpow_one_add₀ (by norm_num)]; congr 1; ring
  rw [h4]
  have := mul_le_mul_of_nonneg_left h3 (two_zpow_pos (-(P.p : ℤ))).le
  linarith

/-- Error of a rounding, with the contribution of underflow. -/
theorem fl_err_abs (q : ℚ) : |P.fl q - q| ≤ 2 ^ (-(P.p : ℤ)) * |q| + 2 ^ (P.qmin - 1) := by
  have h1 := two_zpow_pos (-(P.p : ℤ))
  have h2 := two_zpow_pos (P.qmin - 1)
  have h3 := abs_nonneg q
  rcases le_or_gt (2 ^ (P.qmin + P.p - 1)) |q| with h | h
  · have := fl_err_rel h; linarith
  · have h4 := P.fl_err q
    by_cases h0 : q = 0
    · subst h0; rw [P.fl_zero]; simp only [sub_zero, abs_zero, mul_zero, zero_add]; exact h2.le
    have h5 : P.ex q ≤ P.qmin := P.ex_le_of_lt h0 (h.trans (zpow_lt_zpow_right₀ (by norm_num) (by omega))) le_rfl
    have h6 : (2 : ℚ) ^ P.ex q ≤ 2 ^ P.qmin := zpow_le_zpow_right₀ (by norm_num) h5
    have h7 : (2 : ℚ) ^ P.qmin = 2 * 2 ^ (P.qmin - 1) := by
      rw [← zpow_one_add₀ (by norm_num)]; congr 1; ring
    have : 0 ≤ (2 : ℚ) ^ (-(P.p : ℤ)) * |q| := by positivity
    linarith

/-- Sums have no underflow. -/
theorem fl_add_err {a b : ℚ} (ha : P.Rep a) (hb : P.Rep b) : |P.fl (a + b) - (a + b)| ≤ 2 ^ (-(P.p : ℤ)) * |a + b| := by
  rcases le_or_gt (2 ^ (P.qmin + P.p - 1)) |a + b| with h | h
  · exact fl_err_rel h
  · obtain ⟨m, hm⟩ := ha.multiple_qmin
    obtain ⟨n, hn⟩ := hb.multiple_qmin
    have hr : P.Rep (a + b) := by
      refine P.rep_multiple le_rfl (h.le.trans ?_) (m := m + n) (by rw [hm, hn]; push_cast; ring)
      exact zpow_le_zpow_right₀ (by norm_num) (by omega)
    rw [P.fl_rep hr, sub_self, abs_zero]
    have := two_zpow_pos (-(P.p : ℤ))
    positivity

theorem fl_sub_err {a b : ℚ} (ha : P.Rep a) (hb : P.Rep b) : |P.fl (a - b) - (a - b)| ≤ 2 ^ (-(P.p : ℤ)) * |a - b| := by
  have := fl_add_err ha hb.neg
  rwa [← sub_eq_add_neg] at this

/-- Evaluation of the rounding function. -/
theorem fl_eval {q : ℚ} (k m : ℤ) (hk : P.qmin ≤ k) (h1 : 2 ^ (k + P.p - 1) ≤ |q|) (h2 : |q| < 2 ^ (k + P.p))
    (h3 : |q / 2 ^ k - m| < 1 / 2) : P.fl q = m * 2 ^ k := by
  have h0 : q ≠ 0 := by
    rintro rfl
    rw [abs_zero] at h1
    exact absurd (two_zpow_pos _) (not_lt.2 h1)
  have he : P.ex q = k := le_antisymm (P.ex_le_of_lt h0 h2 hk) (P.le_ex_of_le h1)
  unfold fl
  rw [he, rne_unique h3]

/-- Evaluation of the rounding function at a tie. -/
theorem fl_eval_even {q : ℚ} (k m : ℤ) (hk : P.qmin ≤ k) (h1 : 2 ^ (k + P.p - 1) ≤ |q|) (h2 : |q| < 2 ^ (k + P.p))
    (h3 : |q / 2 ^ k - m| ≤ 1 / 2) (h4 : m % 2 = 0) : P.fl q = m * 2 ^ k := by
  have h0 : q ≠ 0 := by
    rintro rfl
    rw [abs_zero] at h1
    exact absurd (two_zpow_pos _) (not_lt.2 h1)
  have he : P.ex q = k := le_antisymm (P.ex_le_of_lt h0 h2 hk) (P.le_ex_of_le h1)
  unfold fl
  rw [he, rne_unique_even h3 h4]

/-- A quotient of numbers of the format stays below a number `n` of the format if the numerator is less than
`n` times the denominator and that product is a number of the format. -/
theorem fl_div_lt {x y n : ℚ} (hx : P.Rep x) (hy : 0 < y) (hn : P.Rep n) (hn1 : 1 ≤ n) (hz : P.Rep (y * n)) (hlt : x < y * n) :
    P.fl (x / y) < n := by
  have hp := P.hp
  have hmin := P.hmin
  obtain ⟨b, hb1, hb2⟩ := exists_mem_Ioc_zpow (show (0 : ℚ) < n by linarith) (show (1 : ℚ) < 2 by norm_num)
  have hz0 : 0 < y * n := by positivity
  obtain ⟨a, ha1, ha2⟩ := exists_mem_Ioc_zpow hz0 (show (1 : ℚ) < 2 by norm_num)
  have hb0 : -1 ≤ b := by
    have : (2 : ℚ) ^ (0 : ℤ) ≤ 2 ^ (b + 1) := by rw [zpow_zero]; linarith
    have := (zpow_le_zpow_iff_right₀ (by norm_num : (1 : ℚ) < 2)).1 this
    omega
  -- the numerator is a unit in the last place below the product
  have hgap : x ≤ y * n - 2 ^ (a + 1 - P.p) := by
    obtain ⟨m, hm⟩ := hz.multiple (j := a + 1 - P.p) (by
      rw [show a + 1 - P.p + P.p - 1 = a by ring, abs_of_pos hz0]; exact ha1.le)
    have hd := two_zpow_pos (a + 1 - P.p)
    have key : ∀ k : ℤ, (k : ℚ) * 2 ^ (a + 1 - P.p) < y * n → (k : ℚ) * 2 ^ (a + 1 - P.p) ≤ y * n - 2 ^ (a + 1 - P.p) := by
      intro k hk
      rw [hm] at hk ⊢
      have h1 : (k : ℚ) < m := lt_of_mul_lt_mul_right hk hd.le
      have h2 : k + 1 ≤ m := by
        have : k < m := by exact_mod_cast h1
        omega
      have h3 : (k : ℚ) + 1 ≤ m := by exact_mod_cast h2
      nlinarith
    rcases le_or_gt (2 ^ a) x with h | h
    · obtain ⟨k, hk⟩ := hx.multiple (j := a + 1 - P.p) (by
        rw [show a + 1 - P.p + P.p - 1 = a by ring, abs_of_nonneg ((two_zpow_pos a).le.trans h)]; exact h)
      rw [hk] at hlt ⊢
      exact key k hlt
    · have e : (2 : ℚ) ^ a = ((2 ^ (P.p - 1) : ℤ) : ℚ) * 2 ^ (a + 1 - P.p) := by
        push_cast
        rw [← zpow_natCast, ← zpow_add2]; congr 1; push_cast [show 1 ≤ P.p by omega]; ring
      rw [e] at h ha1
      have := key _ ha1
      linarith
  by_contra hc
  rw [not_lt] at hc
  have hq : x / y < n := by rw [div_lt_iff₀ hy]; linarith
  have hfe : P.fl (x / y) = n := le_antisymm (P.fl_le_of_rep hn hq.le) hc
  obtain ⟨m, hm⟩ := hn.multiple (j := b + 1 - P.p) (by
    rw [show b + 1 - P.p + P.p - 1 = b by ring, abs_of_pos (by linarith)]; exact hb1.le)
  have hd := two_zpow_pos (b + 1 - P.p)
  have hdle : (2 : ℚ) ^ (b + 1 - P.p) ≤ 2 ^ b := zpow_le_zpow_right₀ (by norm_num) (by omega)
  have hr : P.Rep (n - 2 ^ (b + 1 - P.p)) := by
    refine P.rep_multiple (e := b + 1 - P.p) (by omega) ?_ (m := m - 1) (by rw [hm]; push_cast; ring)
    rw [show b + 1 - P.p + P.p = b + 1 by ring, abs_of_nonneg (by linarith)]
    linarith
  rcases P.mean_le_of_fl (y := x / y) hr (by linarith) with h | h
  · rw [hfe, le_div_iff₀ hy] at h
    have e1 : (2 : ℚ) ^ (b + 1 - P.p) = 2 * (2 ^ b * 2 ^ (-(P.p : ℤ))) := by
      rw [← zpow_add2, ← zpow_one_add₀ (by norm_num)]; congr 1; ring
    have e2 : (2 : ℚ) ^ (a + 1 - P.p) = 2 ^ (a + 1) * 2 ^ (-(P.p : ℤ)) := by
      rw [← zpow_add2]; congr 1
    have hu := two_zpow_pos (-(P.p : ℤ))
    rw [e1] at h
    rw [e2] at hgap
    have h5 : 2 ^ (a + 1) * (2 : ℚ) ^ (-(P.p : ℤ)) ≤ y * 2 ^ b * 2 ^ (-(P.p : ℤ)) := by linarith
    have h6 : (2 : ℚ) ^ (a + 1) ≤ y * 2 ^ b := le_of_mul_le_mul_right h5 hu
    have h7 : y * 2 ^ b < y * n := mul_lt_mul_of_pos_left hb1 hy
    linarith
  · linarith

end BinPar
end vm
