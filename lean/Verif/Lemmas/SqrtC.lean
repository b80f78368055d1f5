import Verif.Lemmas.Binary
import Verif.Model.Solve
import Mathlib.Tactic.LinearCombination

/-! Helper lemmas: Newton's iteration for the square root in a binary format. -/

set_option linter.unusedSectionVars false
set_option linter.unusedSimpArgs false

namespace vm
namespace BinPar
variable (P : BinPar)

/-- `A * 2^k` and `(A+1) * 2^k` are adjacent numbers of the format that enclose the square root of `x`. -/
structure Near (x : ℚ) (k A : ℤ) : Prop where
  rep : P.Rep x
  hk : P.qmin ≤ k
  lo : 2 ^ (P.p - 1) ≤ A
  hi : A + 1 ≤ 2 ^ P.p
  le : ((A : ℚ) * 2 ^ k) ^ 2 ≤ x
  lt : x < ((A : ℚ) * 2 ^ k + 2 ^ k) ^ 2

theorem pow_p_eq : (2 : ℤ) ^ P.p = 2 * 2 ^ (P.p - 1) := by
  have := P.hp
  conv_lhs => rw [show P.p = (P.p - 1) + 1 by omega, pow_succ]
  ring

theorem four_le_pow : (4 : ℤ) ≤ 2 ^ (P.p - 1) := by
  have := P.hp
  calc (4 : ℤ) = 2 ^ 2 := by norm_num
    _ ≤ 2 ^ (P.p - 1) := pow_le_pow_right₀ (by norm_num) (by omega)

theorem exists_near {x : ℚ} (hx : P.Rep x) (h0 : 0 < x) : ∃ k A : ℤ, P.Near x k A := by
  have hp := P.hp
  have hmin := P.hmin
  set l := Int.log 2 |x| with hl
  have h1 : (2 : ℚ) ^ l ≤ x := by have := log_le_self h0.ne'; rw [← hl] at this; rwa [abs_of_pos h0] at this
  have h2 : x < 2 ^ (l + 1) := by have := lt_succ_log x; rwa [← hl, abs_of_pos h0] at this
  have hlm : P.qmin ≤ l := by
    obtain ⟨m, hm⟩ := hx.multiple_qmin
    have hz := two_zpow_pos P.qmin
    have hm0 : 0 < m := by
      by_contra hc
      have : (m : ℚ) ≤ 0 := by exact_mod_cast not_lt.1 hc
      have : (m : ℚ) * 2 ^ P.qmin ≤ 0 := mul_nonpos_of_nonpos_of_nonneg this hz.le
      linarith
    apply le_log_of_le
    rw [abs_of_pos h0, hm]
    have : (1 : ℚ) ≤ m := by exact_mod_cast hm0
    nlinarith
  clear_value l
  set k := l / 2 + 1 - P.p with hk
  have hL : 2 * (l / 2) ≤ l := by omega
  have hL2 : l + 1 ≤ 2 * (l / 2) + 2 := by omega
  have hu := two_zpow_pos k
  have h3 : ((2 : ℚ) ^ (P.p - 1)) ^ 2 * (2 ^ k) ^ 2 ≤ x := by
    refine le_trans (le_of_eq ?_) (le_trans (zpow_le_zpow_right₀ (by norm_num : (1 : ℚ) ≤ 2) hL) h1)
    rw [← zpow_natCast, ← zpow_natCast, ← zpow_natCast, ← zpow_mul, ← zpow_mul, ← zpow_add2]
    congr 1
    push_cast [show 1 ≤ P.p by omega]
    rw [hk]; ring
  have h4 : x < ((2 : ℚ) ^ P.p) ^ 2 * (2 ^ k) ^ 2 := by
    refine lt_of_lt_of_le h2 (le_trans (zpow_le_zpow_right₀ (by norm_num : (1 : ℚ) ≤ 2) hL2) (le_of_eq ?_))
    rw [← zpow_natCast, ← zpow_natCast, ← zpow_natCast, ← zpow_mul, ← zpow_mul, ← zpow_add2]
    congr 1
    push_cast
    rw [hk]; ring
  set n := ⌊x / (2 ^ k) ^ 2⌋₊ with hn
  have hn1 : (n : ℚ) ≤ x / (2 ^ k) ^ 2 := Nat.floor_le (by positivity)
  have hn2 : x / (2 ^ k) ^ 2 < n + 1 := Nat.lt_floor_add_one _
  rw [le_div_iff₀ (by positivity)] at hn1
  rw [div_lt_iff₀ (by positivity)] at hn2
  have ha : 2 ^ (P.p - 1) ≤ Nat.sqrt n := by
    rw [Nat.le_sqrt, hn]
    apply Nat.le_floor
    rw [le_div_iff₀ (by positivity)]
    push_cast
    refine le_trans (le_of_eq ?_) h3
    ring
  have hb : Nat.sqrt n < 2 ^ P.p := by
    rw [Nat.sqrt_lt, hn, Nat.floor_lt (by positivity), div_lt_iff₀ (by positivity)]
    push_cast
    refine lt_of_lt_of_le h4 (le_of_eq ?_)
    ring
  have hs1 : (Nat.sqrt n : ℚ) * Nat.sqrt n ≤ n := by exact_mod_cast Nat.sqrt_le n
  have hs2 : (n : ℚ) + 1 ≤ (Nat.sqrt n + 1) * (Nat.sqrt n + 1) := by
    have := Nat.lt_succ_sqrt n
    have h : n + 1 ≤ (Nat.sqrt n + 1) * (Nat.sqrt n + 1) := this
    exact_mod_cast h
  refine ⟨k, Nat.sqrt n, hx, by omega, by exact_mod_cast ha, by exact_mod_cast hb, ?_, ?_⟩
  · push_cast
    calc ((Nat.sqrt n : ℚ) * 2 ^ k) ^ 2 = ((Nat.sqrt n : ℚ) * (Nat.sqrt n : ℚ)) * ((2 : ℚ) ^ k) ^ 2 := by ring
      _ ≤ (n : ℚ) * ((2 : ℚ) ^ k) ^ 2 := mul_le_mul_of_nonneg_right hs1 (by positivity)
      _ ≤ x := hn1
  · push_cast
    calc x < (n + 1) * (2 ^ k) ^ 2 := hn2
      _ ≤ ((Nat.sqrt n + 1) * (Nat.sqrt n + 1)) * (2 ^ k) ^ 2 := mul_le_mul_of_nonneg_right hs2 (by positivity)
      _ = ((Nat.sqrt n : ℚ) * 2 ^ k + 2 ^ k) ^ 2 := by ring

/-- One step of Newton's iteration with rounding. -/
def newt (x c : ℚ) : ℚ := P.fl (1 / 2 * P.fl (c + P.fl (x / c)))

namespace Near
variable {P} {x : ℚ} {k A : ℤ} (N : P.Near x k A)
include N

theorem u_pos : (0 : ℚ) < 2 ^ k := two_zpow_pos k
theorem A_pos : (4 : ℚ) ≤ A := by
  have := P.four_le_pow.trans N.lo; exact_mod_cast this
theorem lo_q : (2 : ℚ) ^ (k + P.p - 1) ≤ A * 2 ^ k := by
  have hp := P.hp
  rw [show k + (P.p : ℤ) - 1 = ((P.p - 1 : ℕ) : ℤ) + k by omega, zpow_add2, zpow_natCast]
  refine mul_le_mul_of_nonneg_right ?_ (two_zpow_pos k).le
  exact_mod_cast N.lo
theorem hi_q : (A : ℚ) * 2 ^ k + 2 ^ k ≤ 2 ^ (k + P.p) := by
  rw [zpow_add2, mul_comm ((2 : ℚ) ^ k) _, zpow_natCast]
  have : (A : ℚ) + 1 ≤ 2 ^ P.p := by exact_mod_cast N.hi
  nlinarith [two_zpow_pos k]
theorem x_pos : 0 < x := by
  have := N.le
  have h1 := N.u_pos
  have h2 := N.A_pos
  have : 0 < ((A : ℚ) * 2 ^ k) ^ 2 := by positivity
  linarith

theorem rep_mul {n : ℤ} (h0 : 0 ≤ n) (h : n ≤ 2 ^ P.p) : P.Rep (n * 2 ^ k) := by
  refine P.rep_multiple N.hk ?_ rfl
  rw [abs_mul, abs_of_pos N.u_pos, zpow_add2, mul_comm, zpow_natCast]
  refine mul_le_mul_of_nonneg_left ?_ N.u_pos.le
  rw [abs_of_nonneg (by exact_mod_cast h0)]; exact_mod_cast h

theorem rep_a : P.Rep (A * 2 ^ k) := by
  have := N.lo; have := P.four_le_pow; have := N.hi
  exact N.rep_mul (by omega) (by omega)
theorem rep_b : P.Rep (A * 2 ^ k + 2 ^ k) := by
  have := N.lo; have := P.four_le_pow; have := N.hi
  have := N.rep_mul (n := A + 1) (by omega) (by omega)
  rwa [show ((A + 1 : ℤ) : ℚ) * 2 ^ k = A * 2 ^ k + 2 ^ k by push_cast; ring] at this

/-- Representable numbers from the lower neighbour's binade on are multiples of the unit. -/
theorem multiple {c : ℚ} (hc : P.Rep c) (h : (2 : ℚ) ^ (k + P.p - 1) ≤ c) : ∃ m : ℤ, c = m * 2 ^ k :=
  hc.multiple (by rw [abs_of_pos (lt_of_lt_of_le (two_zpow_pos _) h)]; exact h)

theorem fl_two_a : P.fl (2 * (A * 2 ^ k) - 2 ^ k / 2) = 2 * (A * 2 ^ k) := by
  have hu := N.u_pos
  have hA := N.A_pos
  have hlo := N.lo_q
  have hhi := N.hi_q
  set y : ℚ := 2 * (A * 2 ^ k) - 2 ^ k / 2 with hy
  have hy0 : 0 < y := by nlinarith
  have e1 : P.ex y ≤ k + 1 := by
    refine P.ex_le_of_lt hy0.ne' ?_ (by have := N.hk; omega)
    rw [abs_of_pos hy0, show k + 1 + (P.p : ℤ) = k + P.p + 1 by ring, zpow_add2 _ 1, zpow_one]
    linarith
  have e2 : k ≤ P.ex y := by
    refine P.le_ex_of_le ?_
    rw [abs_of_pos hy0]; nlinarith
  have e3 : P.ex y = k ∨ P.ex y = k + 1 := by omega
  rcases e3 with e | e
  · have h1 : rne (y / 2 ^ k) = 2 * A := by
      refine rne_unique_even ?_ (by omega)
      rw [show y / 2 ^ k - ((2 * A : ℤ) : ℚ) = -(1 / 2) by push_cast; rw [hy]; field_simp; ring, abs_neg, abs_of_pos (by norm_num)]
    unfold fl
    rw [e, h1]; push_cast; ring
  · have h1 : rne (y / 2 ^ (k + 1)) = A := by
      refine rne_unique ?_
      rw [show y / 2 ^ (k + 1) - (A : ℚ) = -(1 / 4) by rw [zpow_add2, zpow_one, hy]; field_simp; ring, abs_neg,
        abs_of_pos (by norm_num)]
      norm_num
    unfold fl
    rw [e, h1, zpow_add2, zpow_one]; ring

/-- Below the upper end of the binade the rounding error is at most half a unit. -/
theorem err {y : ℚ} (h0 : 0 < y) (h : y < 2 ^ (k + P.p)) : |P.fl y - y| ≤ 2 ^ k / 2 := by
  refine (P.fl_err y).trans ?_
  have := P.ex_le_of_lt h0.ne' (by rw [abs_of_pos h0]; exact h) N.hk
  have := zpow_le_zpow_right₀ (by norm_num : (1 : ℚ) ≤ 2) this
  linarith

/-- The rounded sum is at least twice the lower neighbour of the root. -/
theorem sum_ge {c : ℚ} (hc : 0 < c) (h : (A : ℚ) * 2 ^ k ≤ c ∨ P.Rep (x / c)) :
    2 * (A * 2 ^ k) ≤ P.fl (c + P.fl (x / c)) := by
  have hu := N.u_pos
  have hA := N.A_pos
  have hx := N.x_pos
  have ha : (0 : ℚ) < A * 2 ^ k := by positivity
  have hm : x / c * c = x := div_mul_cancel₀ x hc.ne'
  have hsum : 2 * (A * 2 ^ k) ≤ c + x / c := by
    have h1 := N.le
    have h3 : 0 < x / c := by positivity
    by_contra hcon
    rw [not_le] at hcon
    have h2 : (c + x / c) ^ 2 < (2 * (A * 2 ^ k)) ^ 2 := by
      apply pow_lt_pow_left₀ hcon (by positivity) (by norm_num)
    nlinarith [sq_nonneg (c - x / c)]
  rcases h with h | h
  · by_cases h' : (A : ℚ) * 2 ^ k ≤ x / c
    · have h1 := P.le_fl_of_rep N.rep_a h'
      exact P.le_fl_of_rep N.rep_a.double (by linarith)
    · rw [not_le] at h'
      have h3 : x / c < 2 ^ (k + P.p) := by linarith [N.hi_q]
      have h4 := N.err (by positivity) h3
      rw [abs_le] at h4
      have h5 := P.fl_mono (show 2 * (A * 2 ^ k) - 2 ^ k / 2 ≤ c + P.fl (x / c) by linarith)
      rwa [N.fl_two_a] at h5
  · rw [P.fl_rep h]
    exact P.le_fl_of_rep N.rep_a.double hsum

/-- Halving the sum is exact. -/
theorem newt_eq {c : ℚ} (hc : 0 < c) (h : (A : ℚ) * 2 ^ k ≤ c ∨ P.Rep (x / c)) :
    P.newt x c = P.fl (c + P.fl (x / c)) / 2 ∧ P.Rep (P.newt x c) ∧ A * 2 ^ k ≤ P.newt x c := by
  have h1 := N.sum_ge hc h
  have hlo := N.lo_q
  have hu := N.u_pos
  have hA := N.A_pos
  have ha : (0 : ℚ) < A * 2 ^ k := by positivity
  have hr := P.rep_fl (c + P.fl (x / c))
  unfold newt
  set t := P.fl (c + P.fl (x / c)) with ht
  have hrep : P.Rep (t / 2) := by
    obtain ⟨m, e, e1, e2, e3, e4⟩ := hr.large (j := k + 1) (by
      rw [abs_of_pos (by linarith), show k + 1 + (P.p : ℤ) - 1 = (k + P.p - 1) + 1 by ring, zpow_add2, zpow_one]
      linarith)
    refine ⟨m, e - 1, ?_, e2, by have := N.hk; omega⟩
    rw [e1, show e = (e - 1) + 1 by ring, zpow_add2, zpow_one]
    rw [show e - 1 + 1 - 1 = e - 1 by ring]; ring
  have h2 : P.fl (1 / 2 * t) = t / 2 := by
    rw [show 1 / 2 * t = t / 2 by ring]; exact P.fl_rep hrep
  rw [h2]
  exact ⟨rfl, hrep, by linarith⟩

theorem newt_le {c : ℚ} (hr : P.Rep c) (h : (A : ℚ) * 2 ^ k + 2 ^ k ≤ c) : P.newt x c ≤ c := by
  have hu := N.u_pos
  have hA := N.A_pos
  have ha : (0 : ℚ) < A * 2 ^ k := by positivity
  have hc : 0 < c := by linarith
  rw [(N.newt_eq hc (Or.inl (by linarith))).1]
  have h1 : x / c ≤ c := by
    rw [div_le_iff₀ hc]
    have := N.lt
    nlinarith
  have h2 := P.fl_le_of_rep hr h1
  have h3 := P.fl_le_of_rep (x := c + P.fl (x / c)) hr.double (by linarith)
  linarith

/-- `x` is a multiple of `2^(p-1)` in units of the square of the unit of the root. -/
theorem x_multiple : ∃ n : ℤ, x = n * 2 ^ (P.p - 1) * (2 ^ k) ^ 2 := by
  have hp := P.hp
  have hlo := N.lo_q
  obtain ⟨m, hm⟩ := N.rep.multiple (j := 2 * k + P.p - 1) (by
    rw [abs_of_pos N.x_pos]
    refine le_trans ?_ N.le
    rw [show 2 * k + (P.p : ℤ) - 1 + P.p - 1 = (k + P.p - 1) + (k + P.p - 1) by ring, zpow_add2, sq]
    have := two_zpow_pos (k + P.p - 1)
    exact mul_le_mul hlo hlo this.le (this.le.trans hlo))
  refine ⟨m, ?_⟩
  rw [hm, show 2 * k + (P.p : ℤ) - 1 = ((P.p - 1 : ℕ) : ℤ) + (k + k) by omega, zpow_add2, zpow_add2, zpow_natCast]
  ring

/-- If the upper neighbour is a power of two then the quotient at the lower neighbour does not exceed it. -/
theorem quot_top (h : A + 1 = 2 ^ P.p) : x / (A * 2 ^ k) ≤ A * 2 ^ k + 2 ^ k := by
  have hp := P.hp
  have hu := N.u_pos
  have hA := N.A_pos
  have ha : (0 : ℚ) < A * 2 ^ k := by positivity
  have hq : (A : ℚ) + 1 = 2 ^ P.p := by exact_mod_cast h
  obtain ⟨m, hm⟩ := N.rep.multiple (j := 2 * k + P.p) (by
    rw [abs_of_pos N.x_pos]
    refine le_trans ?_ N.le
    rw [show 2 * k + (P.p : ℤ) + P.p - 1 = (k + P.p - 1) + (k + P.p) by ring, zpow_add2, zpow_add2 k P.p, zpow_natCast, ← hq,
      show k + (P.p : ℤ) - 1 = k + ((P.p : ℤ) + (-1)) by ring, zpow_add2, zpow_add2, zpow_natCast, ← hq]
    norm_num
    have : 0 ≤ (2 : ℚ) ^ k * 2 ^ k * ((A - 1) ^ 2 - 2) := by
      apply mul_nonneg (by positivity); nlinarith
    nlinarith)
  have h1 : x = m * (A + 1) * (2 ^ k) ^ 2 := by
    rw [hm, zpow_add2, zpow_natCast, hq, show 2 * k = k + k by ring, zpow_add2]; ring
  have h2 := N.lt
  have h3 : (m : ℚ) < A + 1 := by
    by_contra hc
    rw [not_lt] at hc
    have : ((A : ℚ) + 1) * ((A + 1) * (2 ^ k) ^ 2) ≤ m * ((A + 1) * (2 ^ k) ^ 2) := by
      apply mul_le_mul_of_nonneg_right hc; positivity
    nlinarith
  have h4 : m ≤ A := by
    have : m < A + 1 := by exact_mod_cast h3
    omega
  have h5 : (m : ℚ) ≤ A := by exact_mod_cast h4
  rw [div_le_iff₀ ha, h1]
  have : (m : ℚ) * ((A + 1) * (2 ^ k) ^ 2) ≤ A * ((A + 1) * (2 ^ k) ^ 2) := by
    apply mul_le_mul_of_nonneg_right h5; positivity
  nlinarith

/-- The rounded quotient at the lower neighbour. -/
theorem quot_le : P.fl (x / (A * 2 ^ k)) ≤ A * 2 ^ k + 2 * 2 ^ k := by
  have hu := N.u_pos
  have hA := N.A_pos
  have ha : (0 : ℚ) < A * 2 ^ k := by positivity
  by_cases h : A + 1 = 2 ^ P.p
  · have := P.fl_le_of_rep N.rep_b (N.quot_top h)
    linarith
  have hr : P.Rep (A * 2 ^ k + 2 * 2 ^ k) := by
    have := N.lo; have := P.four_le_pow; have := N.hi
    have := N.rep_mul (n := A + 2) (by omega) (by omega)
    rwa [show ((A + 2 : ℤ) : ℚ) * 2 ^ k = A * 2 ^ k + 2 * 2 ^ k by push_cast; ring] at this
  have h1 : x / (A * 2 ^ k) < A * 2 ^ k + 2 * 2 ^ k + 2 ^ k / 4 := by
    rw [div_lt_iff₀ ha]
    have := N.lt
    have : 0 ≤ ((2 : ℚ) ^ k) ^ 2 * (A - 4) := mul_nonneg (by positivity) (by linarith)
    nlinarith
  by_cases h2 : x / (A * 2 ^ k) ≤ A * 2 ^ k + 2 * 2 ^ k
  · exact P.fl_le_of_rep hr h2
  rw [not_le] at h2
  have h3 := P.fl_nearest hr (x / (A * 2 ^ k))
  have h4 := P.le_fl_of_rep hr h2.le
  rw [abs_of_nonpos (by linarith : A * 2 ^ k + 2 * 2 ^ k - x / (A * 2 ^ k) ≤ 0), abs_le] at h3
  obtain ⟨m, hm⟩ := N.multiple (P.rep_fl (x / (A * 2 ^ k))) (by linarith [N.lo_q])
  rw [hm] at h3 h4 ⊢
  have h5 : (m : ℚ) * 2 ^ k < (A + 3) * 2 ^ k := by linarith
  have h6 : (m : ℚ) < A + 3 := lt_of_mul_lt_mul_right h5 hu.le
  have h7 : m < A + 3 := by exact_mod_cast h6
  have h8 : (m : ℚ) ≤ A + 2 := by exact_mod_cast (by omega : m ≤ A + 2)
  nlinarith

theorem newt_multiple {c : ℚ} (hc : 0 < c) (h : (A : ℚ) * 2 ^ k ≤ c ∨ P.Rep (x / c)) : ∃ m : ℤ, A ≤ m ∧ P.newt x c = m * 2 ^ k := by
  obtain ⟨h1, h2, h3⟩ := N.newt_eq hc h
  obtain ⟨m, hm⟩ := N.multiple h2 (N.lo_q.trans h3)
  refine ⟨m, ?_, hm⟩
  rw [hm] at h3
  have : (A : ℚ) ≤ m := le_of_mul_le_mul_right h3 N.u_pos
  exact_mod_cast this

theorem newt_a : P.newt x (A * 2 ^ k) = A * 2 ^ k ∨ P.newt x (A * 2 ^ k) = A * 2 ^ k + 2 ^ k := by
  have hu := N.u_pos
  have hA := N.A_pos
  have ha : (0 : ℚ) < A * 2 ^ k := by positivity
  have h1 := (N.newt_eq ha (Or.inl le_rfl)).1
  obtain ⟨m, hm, hm2⟩ := N.newt_multiple ha (Or.inl le_rfl)
  have h2 := N.quot_le
  have h3 := P.fl_le_of_rep (x := A * 2 ^ k + P.fl (x / (A * 2 ^ k))) N.rep_b.double (by linarith)
  rw [hm2] at h1 ⊢
  have h4 : (m : ℚ) * 2 ^ k ≤ (A + 1) * 2 ^ k := by linarith
  have h5 : (m : ℚ) ≤ A + 1 := le_of_mul_le_mul_right h4 hu
  have h6 : m ≤ A + 1 := by exact_mod_cast h5
  rcases (by omega : m = A ∨ m = A + 1) with rfl | rfl
  · exact Or.inl rfl
  · right; push_cast; ring

/-- The rounded quotient above the upper neighbour. -/
theorem quot_lt {c : ℚ} (h : (A : ℚ) * 2 ^ k + 2 * 2 ^ k ≤ c) : P.fl (x / c) < A * 2 ^ k + 2 ^ k := by
  have hu := N.u_pos
  have hA := N.A_pos
  have hx := N.x_pos
  have hc : 0 < c := by nlinarith
  have h1 : x / c < A * 2 ^ k + 2 ^ k / 2 := by
    rw [div_lt_iff₀ hc]
    have := N.lt
    have h3 : (A * 2 ^ k + 2 ^ k / 2) * (A * 2 ^ k + 2 * 2 ^ k) ≤ (A * 2 ^ k + 2 ^ k / 2) * c :=
      mul_le_mul_of_nonneg_left h (by positivity)
    have h4 : (0 : ℚ) < A * (2 ^ k * 2 ^ k) := by positivity
    linarith
  have h2 := N.err (y := x / c) (by positivity) (by linarith [N.hi_q])
  rw [abs_le] at h2
  linarith

/-- Above the upper neighbour the iteration decreases. -/
theorem newt_lt {c : ℚ} (hr : P.Rep c) (h : (A : ℚ) * 2 ^ k + 2 ^ k < c) : P.newt x c < c := by
  have hu := N.u_pos
  have hA := N.A_pos
  have ha : (0 : ℚ) < A * 2 ^ k := by positivity
  obtain ⟨m, hm⟩ := N.multiple hr (by linarith [N.lo_q])
  have h0 : (A : ℚ) * 2 ^ k + 2 * 2 ^ k ≤ c := by
    rw [hm] at h ⊢
    have : (A : ℚ) + 1 < m := by
      have : ((A : ℚ) + 1) * 2 ^ k < m * 2 ^ k := by linarith
      exact lt_of_mul_lt_mul_right this hu.le
    have : A + 1 < m := by exact_mod_cast this
    have : (A : ℚ) + 2 ≤ m := by exact_mod_cast (by omega : A + 2 ≤ m)
    nlinarith
  have hc : 0 < c := by linarith
  have h1 := N.quot_lt h0
  have h2 := (N.newt_eq hc (Or.inl (by linarith))).1
  have h3 := N.newt_le hr h.le
  refine lt_of_le_of_ne h3 fun he => ?_
  rw [he] at h2
  have h4 : P.fl (c + P.fl (x / c)) = 2 * c := by linarith
  rcases P.mean_le_of_fl (y := c + P.fl (x / c)) N.rep_b.double (by rw [h4]; linarith) with h5 | h5
  · rw [h4] at h5; linarith
  · rw [h4] at h5; linarith

/-- The iteration does not alternate between the two neighbours. -/
theorem no_cycle (h1 : P.newt x (A * 2 ^ k) = A * 2 ^ k + 2 ^ k) (h2 : P.newt x (A * 2 ^ k + 2 ^ k) = A * 2 ^ k) : False := by
  have hu := N.u_pos
  have hA := N.A_pos
  have hx := N.x_pos
  have ha : (0 : ℚ) < A * 2 ^ k := by positivity
  have hb : (0 : ℚ) < A * 2 ^ k + 2 ^ k := by positivity
  have e1 := (N.newt_eq ha (Or.inl le_rfl)).1
  have e2 := (N.newt_eq hb (Or.inl (by linarith))).1
  rw [h1] at e1
  rw [h2] at e2
  obtain ⟨n, hn⟩ := N.x_multiple
  -- quotients
  set qa := P.fl (x / (A * 2 ^ k)) with hqa
  set qb := P.fl (x / (A * 2 ^ k + 2 ^ k)) with hqb
  have t1 : P.fl (A * 2 ^ k + qa) = 2 * (A * 2 ^ k + 2 ^ k) := by linarith
  have t2 : P.fl (A * 2 ^ k + 2 ^ k + qb) = 2 * (A * 2 ^ k) := by linarith
  have g1 : A * 2 ^ k + 2 ^ k ≤ qa := by
    rcases P.mean_le_of_fl (y := A * 2 ^ k + qa) N.rep_a.double (by rw [t1]; linarith) with h | h
    · rw [t1] at h; linarith
    · rw [t1] at h; linarith
  have g2 : qb ≤ A * 2 ^ k := by
    rcases P.le_mean_of_fl (y := A * 2 ^ k + 2 ^ k + qb) N.rep_b.double (by rw [t2]; linarith) with h | h
    · rw [t2] at h; linarith
    · rw [t2] at h; linarith
  have X : (n * 2 ^ (P.p - 1) : ℚ) * (2 ^ k) ^ 2 = x := by rw [hn]
  set W : ℤ := 2 ^ (P.p - 1) with hW
  have hWq : ((2 : ℚ) ^ (P.p - 1)) = (W : ℚ) := by rw [hW]; push_cast; rfl
  rw [hWq] at X
  have hlo := N.lo
  rw [← hW] at hlo
  have hhi := N.hi
  rw [P.pow_p_eq, ← hW] at hhi
  have hW4 : 4 ≤ W := P.four_le_pow
  have hp2 : (2 : ℤ) ^ P.p = 2 * W := P.pow_p_eq
  -- bounds of x from the quotients
  have b1 : (A * 2 ^ k) * (A * 2 ^ k) + (A * 2 ^ k) * (2 ^ k / 2) ≤ x := by
    have : A * 2 ^ k + 2 ^ k / 2 ≤ x / (A * 2 ^ k) := by
      rcases P.mean_le_of_fl (y := x / (A * 2 ^ k)) N.rep_a (by rw [← hqa]; linarith) with h | h
      · rw [← hqa] at h; linarith
      · rw [← hqa] at h; linarith
    rw [le_div_iff₀ ha] at this
    nlinarith
  rcases g1.lt_or_eq with g1' | g1'
  · -- qa > b
    have hne : A + 1 ≠ 2 ^ P.p := by
      intro h
      have := P.fl_le_of_rep N.rep_b (N.quot_top h)
      rw [← hqa] at this
      linarith
    obtain ⟨m, hm⟩ := N.multiple (P.rep_fl (x / (A * 2 ^ k))) (by rw [← hqa]; linarith [N.lo_q])
    rw [← hqa] at hm
    have hmA : A + 2 ≤ m := by
      rw [hm] at g1'
      have : ((A : ℚ) + 1) * 2 ^ k < m * 2 ^ k := by linarith
      have : (A : ℚ) + 1 < m := lt_of_mul_lt_mul_right this hu.le
      have : A + 1 < m := by exact_mod_cast this
      omega
    have hmA' : (A : ℚ) + 2 ≤ m := by exact_mod_cast hmA
    have g3 : A * 2 ^ k + 2 * 2 ^ k ≤ qa := by rw [hm]; nlinarith
    have b2 : A * 2 ^ k + 3 / 2 * 2 ^ k ≤ x / (A * 2 ^ k) := by
      rcases P.mean_le_of_fl (y := x / (A * 2 ^ k)) N.rep_b (by rw [← hqa]; linarith) with h | h
      · rw [← hqa] at h; linarith
      · rw [← hqa] at h; linarith
    rw [le_div_iff₀ ha] at b2
    have b3 : x / (A * 2 ^ k + 2 ^ k) ≤ A * 2 ^ k + 1 / 2 * 2 ^ k := by
      rcases P.le_mean_of_fl (y := x / (A * 2 ^ k + 2 ^ k)) N.rep_b (by rw [← hqb]; linarith) with h | h
      · rw [← hqb] at h; linarith
      · rw [← hqb] at h; linarith
    rw [div_le_iff₀ hb] at b3
    have hU : (0 : ℚ) < (2 ^ k) ^ 2 := by positivity
    have c1 : (2 * A * A + 3 * A : ℚ) ≤ 2 * (n * W) := by
      have : (2 * A * A + 3 * A : ℚ) * (2 ^ k) ^ 2 ≤ 2 * (n * W) * (2 ^ k) ^ 2 := by
        have : 2 * (n * W) * (2 ^ k) ^ 2 = 2 * x := by rw [← X]; ring
        rw [this]; linarith
      exact le_of_mul_le_mul_right this hU
    have c2 : (2 * (n * W) : ℚ) ≤ 2 * A * A + 3 * A + 1 := by
      have : 2 * (n * W) * (2 ^ k) ^ 2 ≤ (2 * A * A + 3 * A + 1 : ℚ) * (2 ^ k) ^ 2 := by
        have : 2 * (n * W) * (2 ^ k) ^ 2 = 2 * x := by rw [← X]; ring
        rw [this]; linarith
      exact le_of_mul_le_mul_right this hU
    have d1 : 2 * A * A + 3 * A ≤ 2 * (n * W) := by exact_mod_cast c1
    have d2 : 2 * (n * W) ≤ 2 * A * A + 3 * A + 1 := by exact_mod_cast c2
    rcases Int.even_or_odd A with ⟨B, hB⟩ | ⟨B, hB⟩
    · -- A even
      have d3 : 2 * (n * W) = A * (2 * A + 3) := by
        have : (2 * A * A + 3 * A) = 2 * (A * A + 3 * B) := by rw [hB]; ring
        have h3 : 2 * A * A + 3 * A = 2 * (n * W) := by omega
        rw [← h3]; ring
      have hdvd : (2 : ℤ) ^ P.p ∣ A * (2 * A + 3) := by rw [← d3, hp2]; exact ⟨n, by ring⟩
      have hco : IsCoprime ((2 : ℤ) ^ P.p) (2 * A + 3) := by
        apply IsCoprime.pow_left
        exact ⟨-(A + 1), 1, by ring⟩
      have := hco.dvd_of_dvd_mul_right hdvd
      have := Int.le_of_dvd (by omega) this
      omega
    · -- A odd
      have d3 : 2 * (n * W) = (2 * A + 1) * (A + 1) := by
        have : (2 * A * A + 3 * A) = 2 * (A * A + 3 * B + 1) + 1 := by rw [hB]; ring
        have h3 : 2 * A * A + 3 * A + 1 = 2 * (n * W) := by omega
        rw [← h3]; ring
      have hdvd : (2 : ℤ) ^ P.p ∣ (2 * A + 1) * (A + 1) := by rw [← d3, hp2]; exact ⟨n, by ring⟩
      have hco : IsCoprime ((2 : ℤ) ^ P.p) (2 * A + 1) := by
        apply IsCoprime.pow_left
        exact ⟨-A, 1, by ring⟩
      have := hco.dvd_of_dvd_mul_left hdvd
      have := Int.le_of_dvd (by omega) this
      have := N.hi
      omega
  · -- qa = b, so qb < a
    have g2' : qb < A * 2 ^ k := by
      refine lt_of_le_of_ne g2 fun h => ?_
      rw [h] at t2
      rw [← g1'] at t1
      rw [show (A : ℚ) * 2 ^ k + (A * 2 ^ k + 2 ^ k) = A * 2 ^ k + 2 ^ k + A * 2 ^ k by ring, t2] at t1
      linarith
    have hU : (0 : ℚ) < (2 ^ k) ^ 2 := by positivity
    have b3 : x / (A * 2 ^ k + 2 ^ k) ≤ (A * 2 ^ k + qb) / 2 := by
      rcases P.le_mean_of_fl (y := x / (A * 2 ^ k + 2 ^ k)) N.rep_a (by rw [← hqb]; linarith) with h | h
      · rw [← hqb] at h; exact h
      · rw [← hqb] at h; linarith
    rw [div_le_iff₀ hb] at b3
    rcases hlo.eq_or_lt with hAW | hAW
    · -- A is a power of two
      have g4 : qb ≤ A * 2 ^ k - 1 / 2 * 2 ^ k := by
        by_cases h : (2 : ℚ) ^ (k - 1 + P.p - 1) ≤ qb
        · obtain ⟨m, hm⟩ := (P.rep_fl (x / (A * 2 ^ k + 2 ^ k))).multiple (j := k - 1) (by
            rw [← hqb, abs_of_pos (lt_of_lt_of_le (two_zpow_pos _) h)]; exact h)
          rw [← hqb] at hm
          have h2k : (2 : ℚ) ^ k = 2 * 2 ^ (k - 1) := by
            rw [show k = (k - 1) + 1 by ring, zpow_add2, zpow_one, show k - 1 + 1 - 1 = k - 1 by ring]; ring
          have hv := two_zpow_pos (k - 1)
          rw [h2k] at g2' ⊢
          rw [hm] at g2' ⊢
          have : (m : ℚ) * 2 ^ (k - 1) < (2 * A) * 2 ^ (k - 1) := by linarith
          have : (m : ℚ) < 2 * A := lt_of_mul_lt_mul_right this hv.le
          have : m < 2 * A := by exact_mod_cast this
          have : (m : ℚ) ≤ 2 * A - 1 := by exact_mod_cast (by omega : m ≤ 2 * A - 1)
          nlinarith
        · rw [not_le] at h
          have : (2 : ℚ) ^ (k - 1 + P.p - 1) = 2 ^ (k + P.p - 1) / 2 := by
            rw [show k + (P.p : ℤ) - 1 = (k - 1 + P.p - 1) + 1 by ring, zpow_add2, zpow_one]; ring
          have := N.lo_q
          nlinarith
      have b4 : x ≤ (A * A + 3 / 4 * A - 1 / 4) * (2 ^ k) ^ 2 := by
        refine b3.trans ?_
        have : (A * 2 ^ k + qb) / 2 * (A * 2 ^ k + 2 ^ k) ≤
            (A * 2 ^ k + (A * 2 ^ k - 1 / 2 * 2 ^ k)) / 2 * (A * 2 ^ k + 2 ^ k) := by
          apply mul_le_mul_of_nonneg_right _ hb.le
          linarith
        refine this.trans (le_of_eq ?_)
        ring
      have c1 : (A * A + 1 / 2 * A : ℚ) ≤ n * W := by
        have : (A * A + 1 / 2 * A : ℚ) * (2 ^ k) ^ 2 ≤ (n * W) * (2 ^ k) ^ 2 := by rw [X]; linarith
        exact le_of_mul_le_mul_right this hU
      have c2 : (n * W : ℚ) ≤ A * A + 3 / 4 * A - 1 / 4 := by
        have : (n * W : ℚ) * (2 ^ k) ^ 2 ≤ (A * A + 3 / 4 * A - 1 / 4) * (2 ^ k) ^ 2 := by rw [X]; exact b4
        exact le_of_mul_le_mul_right this hU
      rw [hAW] at c1 c2
      have hAp : (0 : ℚ) < A := by linarith
      have c3 : (A : ℚ) < n := by
        have : (A : ℚ) * A < n * A := by linarith
        exact lt_of_mul_lt_mul_right this hAp.le
      have c4 : (n : ℚ) < A + 1 := by
        have : (n : ℚ) * A < (A + 1) * A := by linarith
        exact lt_of_mul_lt_mul_right this hAp.le
      have c5 : A < n := by exact_mod_cast c3
      have c6 : n < A + 1 := by exact_mod_cast c4
      omega
    · have g4 : qb ≤ A * 2 ^ k - 2 ^ k := by
        by_cases h : (2 : ℚ) ^ (k + P.p - 1) ≤ qb
        · obtain ⟨m, hm⟩ := N.multiple (P.rep_fl (x / (A * 2 ^ k + 2 ^ k))) (by rw [← hqb]; exact h)
          rw [← hqb] at hm
          rw [hm] at g2' ⊢
          have : (m : ℚ) < A := lt_of_mul_lt_mul_right g2' hu.le
          have : m < A := by exact_mod_cast this
          have : (m : ℚ) ≤ A - 1 := by exact_mod_cast (by omega : m ≤ A - 1)
          nlinarith
        · rw [not_le] at h
          have hp := P.hp
          have : (2 : ℚ) ^ (k + P.p - 1) = W * 2 ^ k := by
            rw [show k + (P.p : ℤ) - 1 = ((P.p - 1 : ℕ) : ℤ) + k by omega, zpow_add2, zpow_natCast, hWq]
          have : (W : ℚ) ≤ A - 1 := by exact_mod_cast (by omega : W ≤ A - 1)
          nlinarith
      have b4 : x ≤ (A * A + 1 / 2 * A - 1 / 2) * (2 ^ k) ^ 2 := by
        refine b3.trans ?_
        have : (A * 2 ^ k + qb) / 2 * (A * 2 ^ k + 2 ^ k) ≤
            (A * 2 ^ k + (A * 2 ^ k - 2 ^ k)) / 2 * (A * 2 ^ k + 2 ^ k) := by
          apply mul_le_mul_of_nonneg_right _ hb.le
          linarith
        refine this.trans (le_of_eq ?_)
        ring
      have : (A : ℚ) * 2 ^ k * (A * 2 ^ k) + (A * 2 ^ k) * (2 ^ k / 2) = (A * A + 1 / 2 * A) * (2 ^ k) ^ 2 := by ring
      rw [this] at b1
      linarith

/-- If the lower neighbour is the root then the iteration moves from the upper to the lower neighbour. -/
theorem newt_b_of_square (h : x = (A * 2 ^ k) ^ 2) : P.newt x (A * 2 ^ k + 2 ^ k) = A * 2 ^ k := by
  have hu := N.u_pos
  have hA := N.A_pos
  have hx := N.x_pos
  have ha : (0 : ℚ) < A * 2 ^ k := by positivity
  have hb : (0 : ℚ) < A * 2 ^ k + 2 ^ k := by positivity
  have e := (N.newt_eq hb (Or.inl (by linarith))).1
  have hle := N.newt_le N.rep_b le_rfl
  obtain ⟨m, hm, hm2⟩ := N.newt_multiple hb (Or.inl (by linarith))
  have h1 : x / (A * 2 ^ k + 2 ^ k) < A * 2 ^ k - 2 ^ k / 2 := by
    rw [div_lt_iff₀ hb, h]
    have : 0 < ((2 : ℚ) ^ k) ^ 2 * (A - 1) := mul_pos (by positivity) (by linarith)
    nlinarith
  have h2 := N.err (y := x / (A * 2 ^ k + 2 ^ k)) (by positivity) (by linarith [N.hi_q])
  rw [abs_le] at h2
  rw [hm2] at hle e ⊢
  have h5 : (m : ℚ) ≤ A + 1 := le_of_mul_le_mul_right (by linarith : (m : ℚ) * 2 ^ k ≤ (A + 1) * 2 ^ k) hu
  have h6 : m ≤ A + 1 := by exact_mod_cast h5
  rcases (by omega : m = A ∨ m = A + 1) with rfl | rfl
  · rfl
  · exfalso
    push_cast at e
    have t : P.fl (A * 2 ^ k + 2 ^ k + P.fl (x / (A * 2 ^ k + 2 ^ k))) = 2 * (A * 2 ^ k + 2 ^ k) := by linarith
    rcases P.mean_le_of_fl (y := A * 2 ^ k + 2 ^ k + P.fl (x / (A * 2 ^ k + 2 ^ k))) N.rep_a.double (by rw [t]; linarith) with h | h
    · rw [t] at h; linarith
    · rw [t] at h; linarith

end Near
end BinPar
end vm
