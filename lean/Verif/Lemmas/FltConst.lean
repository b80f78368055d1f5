import Verif.Model.Constants
import Verif.Lemmas.FltError
import Verif.Props.FltRayBBox
import Mathlib.Data.Real.Basic

/-! Evaluation of the constants of constants.h and of products and quotients of known numbers in IEEE formats. -/

set_option linter.unusedSectionVars false
set_option linter.unusedSimpArgs false

namespace vm
open BinPar

variable {P : BinPar}

theorem is_round {q c : ℚ} (h : P.fl q = c) (hc : |c| < P.bound) : (Flt.round q : Flt P.fmt).isFinite ∧ (Flt.round q : Flt P.fmt).val = c := by
  have hf : (Flt.round q : Flt P.fmt).isFinite := Flt.round_finite.2 (by rw [h]; exact hc)
  exact ⟨hf, by rw [Flt.round_val hf, h]⟩

theorem is_mul {x y : Flt P.fmt} {a b c : ℚ} (hx : x.isFinite ∧ x.val = a) (hy : y.isFinite ∧ y.val = b) (h : P.fl (a * b) = c)
    (hc : |c| < P.bound) : (x * y).isFinite ∧ (x * y).val = c := by
  rw [Flt.mul_eq hx.1 hy.1, hx.2, hy.2]
  exact is_round h hc

theorem is_div {x y : Flt P.fmt} {a b c : ℚ} (hx : x.isFinite ∧ x.val = a) (hy : y.isFinite ∧ y.val = b) (h0 : b ≠ 0) (h : P.fl (a / b) = c)
    (hc : |c| < P.bound) : (x / y).isFinite ∧ (x / y).val = c := by
  rw [fin_div_fin hx.1 hy.1 (by rw [hy.2]; exact h0), hx.2, hy.2]
  exact is_round h hc

/-- Numbers of the format in the binade of a real number in [2.5, 4): the multiple of the unit next to it is the nearest one. -/
theorem nearest_of_multiple {t : ℝ} (ht : (5 : ℝ) / 2 ≤ t) {m : ℤ} (h : |(m : ℝ) * (2 : ℝ) ^ (2 - P.p : ℤ) - t| ≤ (2 : ℝ) ^ (2 - P.p : ℤ) / 2)
    {x : ℚ} (hx : P.Rep x) : |(m : ℝ) * (2 : ℝ) ^ (2 - P.p : ℤ) - t| ≤ |(x : ℝ) - t| := by
  have hp := P.hp
  have hu : (2 : ℝ) ^ (2 - P.p : ℤ) ≤ 1 / 2 := by
    have : (2 : ℝ) ^ (2 - P.p : ℤ) ≤ (2 : ℝ) ^ (-1 : ℤ) := zpow_le_zpow_right₀ (by norm_num) (by omega)
    simpa using this
  have hu0 : (0 : ℝ) < (2 : ℝ) ^ (2 - P.p : ℤ) := zpow_pos (by norm_num) _
  rcases lt_or_ge x 2 with h2 | h2
  · have h2' : (x : ℝ) < 2 := by exact_mod_cast h2
    refine h.trans ?_
    rw [abs_of_neg (by linarith)]
    linarith
  · obtain ⟨n, hn⟩ := hx.multiple (j := 2 - P.p) (by
      rw [abs_of_nonneg (by linarith)]
      have : (2 - P.p + P.p - 1 : ℤ) = 1 := by ring
      rw [this]; simpa using h2)
    have hn' : (x : ℝ) = n * (2 : ℝ) ^ (2 - P.p : ℤ) := by rw [hn]; push_cast; rfl
    by_cases hmn : n = m
    · rw [hn', hmn]
    · have h1 : (1 : ℝ) ≤ |(n : ℝ) - m| := by
        have : (1 : ℤ) ≤ |n - m| := Int.one_le_abs (sub_ne_zero.2 hmn)
        exact_mod_cast this
      have h3 : (2 : ℝ) ^ (2 - P.p : ℤ) ≤ |(x : ℝ) - m * (2 : ℝ) ^ (2 - P.p : ℤ)| := by
        rw [hn', ← sub_mul, abs_mul, abs_of_pos hu0]
        nlinarith
      have h4 : |(x : ℝ) - m * (2 : ℝ) ^ (2 - P.p : ℤ)| ≤ |(x : ℝ) - t| + |(m : ℝ) * (2 : ℝ) ^ (2 - P.p : ℤ) - t| := by
        rw [abs_sub_comm ((m : ℝ) * _) t]
        exact abs_sub_le _ _ _
      linarith

/-- Evaluate a rounding in binary64 or binary32. -/
macro "fl_num" k:term:max m:term:max : tactic =>
  `(tactic| (rw [fl_eval $k $m (by norm_num [binary64, binary32]) (by norm_num [binary64, binary32, abs_of_pos])
      (by norm_num [binary64, binary32, abs_of_pos]) (by norm_num [abs_lt])]; try norm_num))

/-- The same for a tie. -/
macro "fl_tie" k:term:max m:term:max : tactic =>
  `(tactic| (rw [fl_eval_even $k $m (by norm_num [binary64, binary32]) (by norm_num [binary64, binary32, abs_of_pos])
      (by norm_num [binary64, binary32, abs_of_pos]) (by norm_num [abs_le]) (by norm_num)]; try norm_num))

theorem lt_bound64 {q : ℚ} (h : |q| ≤ 2 ^ 100) : |q| < binary64.bound := by
  refine lt_of_le_of_lt h ?_
  have h1 : binary64.bound = (2 : ℚ) ^ (1024 : ℤ) := by norm_num [BinPar.bound, binary64]
  rw [h1, ← zpow_natCast]
  exact zpow_lt_zpow_right₀ (by norm_num) (by norm_num)

theorem lt_bound32 {q : ℚ} (h : |q| ≤ 2 ^ 100) : |q| < binary32.bound := by
  refine lt_of_le_of_lt h ?_
  have h1 : binary32.bound = (2 : ℚ) ^ (128 : ℤ) := by norm_num [BinPar.bound, binary32]
  rw [h1, ← zpow_natCast]
  exact zpow_lt_zpow_right₀ (by norm_num) (by norm_num)

theorem pi64 : binary64.pi.isFinite ∧ binary64.pi.val = 884279719003555 / 2 ^ 48 := by
  have h : binary64.fl (3141592653589793 / 10 ^ 15) = 884279719003555 / 2 ^ 48 := by fl_num (-51) 7074237752028440
  refine is_round ?_ (lt_bound64 (by norm_num [abs_of_pos]))
  rw [h]
  fl_num (-51) 7074237752028440

theorem pi32 : binary32.pi.isFinite ∧ binary32.pi.val = 13176795 / 2 ^ 22 := by
  have h : binary64.fl (3141592653589793 / 10 ^ 15) = 884279719003555 / 2 ^ 48 := by fl_num (-51) 7074237752028440
  refine is_round ?_ (lt_bound32 (by norm_num [abs_of_pos]))
  rw [h]
  fl_num (-22) 13176795

theorem almostZero64 : binary64.almostZero.isFinite ∧ binary64.almostZero.val = 4611686018427388 / 2 ^ 62 := by
  have h : binary64.fl (1 / 1000) = 4611686018427388 / 2 ^ 62 := by fl_num (-62) 4611686018427388
  refine is_round ?_ (lt_bound64 (by norm_num [abs_of_pos]))
  rw [h]
  fl_num (-62) 4611686018427388

theorem almostZero32 : binary32.almostZero.isFinite ∧ binary32.almostZero.val = 8589935 / 2 ^ 33 := by
  have h : binary64.fl (1 / 1000) = 4611686018427388 / 2 ^ 62 := by fl_num (-62) 4611686018427388
  refine is_round ?_ (lt_bound32 (by norm_num [abs_of_pos]))
  rw [h]
  fl_num (-33) 8589935

theorem pointStatusEpsilon64 : binary64.pointStatusEpsilon.isFinite ∧ binary64.pointStatusEpsilon.val = 7378697629483821 / 2 ^ 66 := by
  have h : binary64.fl (1 / 10000) = 7378697629483821 / 2 ^ 66 := by fl_num (-66) 7378697629483821
  refine is_round ?_ (lt_bound64 (by norm_num [abs_of_pos]))
  rw [h]
  fl_num (-66) 7378697629483821

theorem pointStatusEpsilon32 : binary32.pointStatusEpsilon.isFinite ∧ binary32.pointStatusEpsilon.val = 13743895 / 2 ^ 37 := by
  have h : binary64.fl (1 / 10000) = 7378697629483821 / 2 ^ 66 := by fl_num (-66) 7378697629483821
  refine is_round ?_ (lt_bound32 (by norm_num [abs_of_pos]))
  rw [h]
  fl_num (-37) 13743895

theorem correctEpsilon64 : binary64.correctEpsilon.isFinite ∧ binary64.correctEpsilon.val = 4611686018427388 / 2 ^ 62 := by
  have h : binary64.fl (1 / 1000) = 4611686018427388 / 2 ^ 62 := by fl_num (-62) 4611686018427388
  refine is_round ?_ (lt_bound64 (by norm_num [abs_of_pos]))
  rw [h]
  fl_num (-62) 4611686018427388

theorem correctEpsilon32 : binary32.correctEpsilon.isFinite ∧ binary32.correctEpsilon.val = 8589935 / 2 ^ 33 := by
  have h : binary64.fl (1 / 1000) = 4611686018427388 / 2 ^ 62 := by fl_num (-62) 4611686018427388
  refine is_round ?_ (lt_bound32 (by norm_num [abs_of_pos]))
  rw [h]
  fl_num (-33) 8589935

theorem colinearEpsilon64 : binary64.colinearEpsilon.isFinite ∧ binary64.colinearEpsilon.val = 5902958103587057 / 2 ^ 69 := by
  have h : binary64.fl (1 / 100000) = 5902958103587057 / 2 ^ 69 := by fl_num (-69) 5902958103587057
  refine is_round ?_ (lt_bound64 (by norm_num [abs_of_pos]))
  rw [h]
  fl_num (-69) 5902958103587057

theorem colinearEpsilon32 : binary32.colinearEpsilon.isFinite ∧ binary32.colinearEpsilon.val = 10995116 / 2 ^ 40 := by
  have h : binary64.fl (1 / 100000) = 5902958103587057 / 2 ^ 69 := by fl_num (-69) 5902958103587057
  refine is_round ?_ (lt_bound32 (by norm_num [abs_of_pos]))
  rw [h]
  fl_num (-40) 10995116

theorem angleEpsilon64 : binary64.angleEpsilon.isFinite ∧ binary64.angleEpsilon.val = 6044629098073146 / 2 ^ 79 := by
  have h : binary64.fl (1 / 100000000) = 6044629098073146 / 2 ^ 79 := by fl_num (-79) 6044629098073146
  refine is_round ?_ (lt_bound64 (by norm_num [abs_of_pos]))
  rw [h]
  fl_num (-79) 6044629098073146

theorem angleEpsilon32 : binary32.angleEpsilon.isFinite ∧ binary32.angleEpsilon.val = 11258999 / 2 ^ 50 := by
  have h : binary64.fl (1 / 100000000) = 6044629098073146 / 2 ^ 79 := by fl_num (-79) 6044629098073146
  refine is_round ?_ (lt_bound32 (by norm_num [abs_of_pos]))
  rw [h]
  fl_num (-50) 11258999

theorem e64 : binary64.e.isFinite ∧ binary64.e.val = 6121026514868073 / 2 ^ 51 := by
  have h : binary64.fl (2718281828459045 / 10 ^ 15) = 6121026514868073 / 2 ^ 51 := by fl_num (-51) 6121026514868073
  refine is_round ?_ (lt_bound64 (by norm_num [abs_of_pos]))
  rw [h]
  fl_num (-51) 6121026514868073

theorem e32 : binary32.e.isFinite ∧ binary32.e.val = 11401300 / 2 ^ 22 := by
  have h : binary64.fl (2718281828459045 / 10 ^ 15) = 6121026514868073 / 2 ^ 51 := by fl_num (-51) 6121026514868073
  refine is_round ?_ (lt_bound32 (by norm_num [abs_of_pos]))
  rw [h]
  fl_num (-22) 11401300

/-- Small whole numbers as literals. -/
theorem literal_nat {n : ℕ} (h : n ≤ 4) : (P.literal n).isFinite ∧ (P.literal n).val = n := by
  have h0 : |(n : ℤ)| ≤ 4 := by rw [abs_of_nonneg (by positivity)]; exact_mod_cast h
  have h8 : (2 : ℤ) ^ 3 ≤ 2 ^ P.p := pow_le_pow_right₀ (by norm_num) P.hp
  have h1 : binary64.fl n = n := by
    have := binary64.rep_int (n := n) (h0.trans (by norm_num [binary64]))
    exact binary64.fl_rep (by exact_mod_cast this)
  have := Flt.int_finite (P := P) (n := n) (by linarith)
  unfold BinPar.literal
  rw [h1]
  exact_mod_cast this

theorem nat180_64 : (180 : Flt binary64.fmt).isFinite ∧ (180 : Flt binary64.fmt).val = 180 := by
  have := Flt.int_finite (P := binary64) (n := 180) (by norm_num [binary64])
  exact_mod_cast this

theorem nat180_32 : (180 : Flt binary32.fmt).isFinite ∧ (180 : Flt binary32.fmt).val = 180 := by
  have := Flt.int_finite (P := binary32) (n := 180) (by norm_num [binary32])
  exact_mod_cast this

end vm
