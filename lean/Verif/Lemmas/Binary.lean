import Verif.Model.Binary
import Verif.Lemmas.Flt

/-! Helper lemmas: rounding in a binary format picks the nearest representable number. -/

set_option linter.unusedSectionVars false
set_option linter.unusedSimpArgs false

namespace vm

theorem rne_nearest (r : ℚ) (n : ℤ) : |r - rne r| ≤ |r - n| := by
  have h1 := rne_err r
  by_contra hc
  rw [not_le] at hc
  have h2 := rne_unique (lt_of_lt_of_le hc h1)
  rw [h2] at hc
  exact absurd hc (lt_irrefl _)

namespace BinPar
variable (P : BinPar)

/-- A representable number with a large absolute value has a representation with a large exponent. -/
theorem Rep.large {P : BinPar} {q : ℚ} (h : P.Rep q) {j : ℤ} (hj : 2 ^ (j + P.p - 1) ≤ |q|) :
    ∃ m e : ℤ, q = m * 2 ^ e ∧ |m| < 2 ^ P.p ∧ P.qmin ≤ e ∧ j ≤ e := by
  obtain ⟨m, e, h1, h2, h3⟩ := h
  have h4 : |q| < 2 ^ (e + P.p) := by
    rw [h1, abs_mul, abs_of_pos (two_zpow_pos e), zpow_add2, mul_comm, zpow_natCast]
    have : |(m : ℚ)| < 2 ^ P.p := by exact_mod_cast h2
    exact mul_lt_mul_of_pos_left this (two_zpow_pos e)
  have h5 := (zpow_lt_zpow_iff_right₀ (by norm_num : (1 : ℚ) < 2)).1 (lt_of_le_of_lt hj h4)
  exact ⟨m, e, h1, h2, h3, by omega⟩

theorem Rep.multiple_qmin {P : BinPar} {q : ℚ} (h : P.Rep q) : ∃ m : ℤ, q = m * 2 ^ P.qmin := by
  obtain ⟨m, e, h1, h2, h3⟩ := h
  exact ⟨m * 2 ^ (e - P.qmin).toNat, by rw [h1, zpow_eq_int_mul h3]; push_cast; ring⟩

theorem fl_nearest_multiple (y : ℚ) (n : ℤ) : |P.fl y - y| ≤ |n * 2 ^ P.ex y - y| := by
  have h := two_zpow_pos (P.ex y)
  have h1 := rne_nearest (y / 2 ^ P.ex y) n
  have e1 : P.fl y - y = -(y / 2 ^ P.ex y - rne (y / 2 ^ P.ex y)) * 2 ^ P.ex y := by
    unfold fl; field_simp; ring
  have e2 : n * 2 ^ P.ex y - y = -(y / 2 ^ P.ex y - n) * 2 ^ P.ex y := by field_simp; ring
  rw [e1, e2, abs_mul, abs_mul, abs_neg, abs_neg]
  exact mul_le_mul_of_nonneg_right h1 (abs_nonneg _)

theorem fl_nearest_pos {y r : ℚ} (hr : P.Rep r) (hy : 0 < y) : |P.fl y - y| ≤ |r - y| := by
  have hp := P.hp
  by_cases hq : Int.log 2 |y| + 1 - P.p ≤ P.qmin
  · have he : P.ex y = P.qmin := max_eq_right hq
    obtain ⟨m, hm⟩ := hr.multiple_qmin
    have := P.fl_nearest_multiple y m
    rw [he, ← hm] at this; exact this
  have he : P.ex y = Int.log 2 |y| + 1 - P.p := max_eq_left (le_of_not_ge hq)
  have hl : 2 ^ Int.log 2 |y| ≤ y := by
    have := log_le_self hy.ne'
    rwa [abs_of_pos hy] at this ⊢
  by_cases h1 : 2 ^ Int.log 2 |y| ≤ r
  · have hr0 : 0 < r := lt_of_lt_of_le (two_zpow_pos _) h1
    obtain ⟨m, hm⟩ := hr.multiple (j := P.ex y) (by
      rw [abs_of_pos hr0, he, show Int.log 2 |y| + 1 - (P.p : ℤ) + P.p - 1 = Int.log 2 |y| by ring]; exact h1)
    have := P.fl_nearest_multiple y m
    rw [← hm] at this; exact this
  · have h2 := P.fl_nearest_multiple y (2 ^ (Int.log 2 |y| - P.ex y).toNat)
    rw [← zpow_eq_int_mul (show P.ex y ≤ Int.log 2 |y| by omega)] at h2
    refine h2.trans ?_
    clear h2
    generalize (2 : ℚ) ^ Int.log 2 |y| = L at hl h1
    rw [not_le] at h1
    rw [abs_of_nonpos (show L - y ≤ 0 by linarith), abs_of_nonpos (show r - y ≤ 0 by linarith)]
    linarith

/-- Rounding picks a nearest representable number. -/
theorem fl_nearest {r : ℚ} (hr : P.Rep r) (y : ℚ) : |P.fl y - y| ≤ |r - y| := by
  rcases lt_trichotomy y 0 with h | h | h
  · have := P.fl_nearest_pos (y := -y) hr.neg (by linarith)
    rw [fl_neg] at this
    rw [← abs_neg, ← abs_neg (r - y)]
    rw [show -(P.fl y - y) = -P.fl y - -y by ring, show -(r - y) = -r - -y by ring]
    exact this
  · rw [h, fl_zero]; simp
  · exact P.fl_nearest_pos hr h

theorem Rep.double {P : BinPar} {q : ℚ} (h : P.Rep q) : P.Rep (2 * q) := by
  obtain ⟨m, e, h1, h2, h3⟩ := h
  exact ⟨m, e + 1, by rw [h1, zpow_add2]; ring, h2, by omega⟩

/-- If the nearest number is the greater one of two numbers then the argument is not below their mean. -/
theorem mean_le_of_fl {y r : ℚ} (hr : P.Rep r) (h : r ≤ P.fl y) : (r + P.fl y) / 2 ≤ y ∨ r = P.fl y := by
  rcases h.eq_or_lt with h' | h'
  · exact Or.inr h'
  left
  have h1 := P.fl_nearest hr y
  by_contra hc
  rw [not_le] at hc
  rcases le_or_gt r y with h2 | h2
  · rw [abs_of_nonneg (by linarith), abs_of_nonpos (by linarith)] at h1; linarith
  · have := P.fl_le_of_rep hr h2.le; linarith

theorem le_mean_of_fl {y r : ℚ} (hr : P.Rep r) (h : P.fl y ≤ r) : y ≤ (r + P.fl y) / 2 ∨ r = P.fl y := by
  rcases h.eq_or_lt with h' | h'
  · exact Or.inr h'.symm
  left
  have h1 := P.fl_nearest hr y
  by_contra hc
  rw [not_le] at hc
  rcases le_or_gt y r with h2 | h2
  · rw [abs_of_nonpos (by linarith), abs_of_nonneg (by linarith)] at h1; linarith
  · have := P.le_fl_of_rep hr h2.le; linarith

theorem fl_pos {y r : ℚ} (hr : P.Rep r) (h0 : 0 < r) (h : r ≤ y) : 0 < P.fl y :=
  h0.trans_le (P.le_fl_of_rep hr h)

/-! ### Arithmetic of finite floats -/

theorem round_eq {q : ℚ} (h : |P.fl q| < P.bound) :
    (Flt.round q : Flt P.fmt) = Flt.fin (F := P.fmt) (P.fl q) ⟨P.rep_fl q, h⟩ := by
  apply Flt.key_inj
  have h1 : P.fmt.rnd q = Ext.ofRat (P.fl q) := by
    show P.rnd q = _
    rw [rnd, if_pos h]
  have : ∀ (x : Ext) (hx), x = Ext.ofRat (P.fl q) →
      Flt.key (Flt.ofExt (F := P.fmt) x hx) = some (Ext.ofRat (P.fl q)) := by
    intro x hx hxe
    subst hxe
    rfl
  exact this _ _ h1

end BinPar
end vm
