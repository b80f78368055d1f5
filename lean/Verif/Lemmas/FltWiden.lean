import Verif.Props.FltCast
import Verif.Lemmas.FltGeom
import Verif.Lemmas.FltPolygon

/-! Products of `float` numbers are exact in `double`: lemmas for C161. -/

set_option linter.unusedSectionVars false
set_option linter.unusedSimpArgs false

namespace vm
namespace FltWd
open FltCast
open BinPar (two_zpow_pos)

/-- The number converted to `double`. -/
abbrev D (x : Flt binary32.fmt) : Flt binary64.fmt := Flt.cast x

theorem D_fin {x : Flt binary32.fmt} (hx : x.isFinite) : (D x).isFinite ∧ (D x).val = x.val := by
  have h := C132_widen contains_32_64 x x
  exact ⟨h.1.2 hx, h.2.1⟩

theorem rep {x : Flt binary32.fmt} (hx : x.isFinite) : binary32.fmt.rep x.val := by
  rcases x with _ | _ | _ | ⟨a, ha⟩
  · exact absurd hx (by simp [Flt.isFinite])
  · exact absurd hx (by simp [Flt.isFinite])
  · exact absurd hx (by simp [Flt.isFinite])
  · exact ha

theorem le_bound {x : Flt binary32.fmt} (hx : x.isFinite) : |x.val| ≤ 2 ^ 128 := by
  have h := (rep hx).2
  have h1 : binary32.bound = (2 : ℚ) ^ (128 : ℤ) := by norm_num [BinPar.bound, binary32]
  rw [h1] at h
  exact_mod_cast h.le

theorem prod_le {x y : Flt binary32.fmt} (hx : x.isFinite) (hy : y.isFinite) : |x.val * y.val| ≤ 2 ^ 256 := by
  rw [abs_mul]
  calc |x.val| * |y.val| ≤ 2 ^ 128 * 2 ^ 128 := mul_le_mul (le_bound hx) (le_bound hy) (abs_nonneg _) (by positivity)
    _ = 2 ^ 256 := by rw [← pow_add]

theorem big {q : ℚ} (h : |q| ≤ 2 ^ 258) : 2 * |q| + 1 < binary64.bound := by
  have h1 : binary64.bound = (2 : ℚ) ^ (1024 : ℤ) := by norm_num [BinPar.bound, binary64]
  have h2 : (2 : ℚ) ^ 260 < (2 : ℚ) ^ (1024 : ℤ) := by
    rw [← zpow_natCast]; exact zpow_lt_zpow_right₀ (by norm_num) (by norm_num)
  have h3 : (2 : ℚ) ^ 260 = 4 * 2 ^ 258 := by rw [show 260 = 2 + 258 by rfl, pow_add]; norm_num
  have h4 : (1 : ℚ) ≤ 2 ^ 258 := one_le_pow₀ (by norm_num)
  rw [h1]
  refine lt_of_le_of_lt ?_ h2
  rw [h3]
  clear h1 h2 h3
  generalize (2 : ℚ) ^ 258 = t at *
  linarith

/-- The product of two `float` numbers is exact in `double`. -/
theorem mul {x y : Flt binary32.fmt} (hx : x.isFinite) (hy : y.isFinite) : (D x * D y).isFinite ∧ (D x * D y).val = x.val * y.val := by
  have hr := BinPar.double_mul BinPar.wide_32_64 (rep hx).1 (rep hy).1
  refine is_mul (P := binary64) (D_fin hx) (D_fin hy) (binary64.fl_rep hr) ?_
  have := big ((prod_le hx hy).trans (pow_le_pow_right₀ (by norm_num) (by norm_num)))
  have := abs_nonneg (x.val * y.val)
  linarith

theorem multiple {x y : Flt binary32.fmt} (hx : x.isFinite) (hy : y.isFinite) : ∃ m : ℤ, x.val * y.val = m * 2 ^ (-298 : ℤ) := by
  obtain ⟨m, hm⟩ := (rep hx).1.multiple_qmin
  obtain ⟨n, hn⟩ := (rep hy).1.multiple_qmin
  refine ⟨m * n, ?_⟩
  rw [hm, hn, show binary32.qmin = -149 from rfl, show (-298 : ℤ) = -149 + -149 by norm_num, BinPar.zpow_add2]
  push_cast
  ring

/-- Rounding a difference of such products keeps its sign. -/
theorem sign_pos {q : ℚ} {m : ℤ} (h : q = m * 2 ^ (-298 : ℤ)) (h0 : 0 < q) : 0 < binary64.fl q := by
  have g := two_zpow_pos (-298)
  have m0 : 0 < m := by
    rw [h] at h0
    have := (mul_pos_iff_of_pos_right g).1 h0
    exact_mod_cast this
  refine binary64.fl_pos (r := 2 ^ (-298 : ℤ)) ⟨1, -298, by simp, by rw [abs_one]; exact one_lt_pow₀ (by norm_num) (by decide), by decide⟩ g ?_
  rw [h]
  have : (1 : ℚ) ≤ m := by exact_mod_cast m0
  nlinarith

end FltWd
end vm
