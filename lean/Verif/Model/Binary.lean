import Verif.Model.Flt
import Mathlib.Data.Int.Log
import Mathlib.Algebra.Order.Round
import Mathlib.Algebra.Order.Floor.Ring
import Mathlib.Data.Rat.Floor
import Mathlib.Tactic.Ring
import Mathlib.Tactic.FieldSimp
import Mathlib.Tactic.Positivity
import Mathlib.Tactic.NormNum

/-!
# IEEE 754 binary formats with rounding to nearest, ties to even

`float` and `double` are binary32 and binary64 in the default rounding mode on every platform the project supports; the
headers do not change the rounding mode.  This file models the arithmetic of these formats: representable numbers,
gradual underflow, overflow to infinity, rounding to nearest with ties to even.
-/

namespace vm

/-- Round a rational to the nearest integer, ties to even (IEEE 754 roundTiesToEven); number format of the instantiations in /repo/include/vecmath/forward.h:33-55. -/
def rne (r : ℚ) : ℤ :=
  if r - ⌊r⌋ < 1 / 2 then ⌊r⌋
  else if 1 / 2 < r - ⌊r⌋ then ⌊r⌋ + 1
  else if ⌊r⌋ % 2 = 0 then ⌊r⌋ else ⌊r⌋ + 1

/-- Parameters of a binary format: `p` bits of precision, `qmin` and `qmax` the exponents of a unit in the last place of the
least and of the greatest numbers.  The three conditions hold for all IEEE 754 formats from binary32 on; number format of the instantiations in /repo/include/vecmath/forward.h:33-55. -/
structure BinPar where
  p : ℕ
  qmin : ℤ
  qmax : ℤ
  hp : 3 ≤ p
  hmin : qmin ≤ -(2 * p : ℤ)
  hmax : 2 ≤ qmax

namespace BinPar

/-- Numbers with `p` bits and an exponent that is not too small; the exponent is not bounded above; number format of the instantiations in /repo/include/vecmath/forward.h:33-55. -/
def Rep (P : BinPar) (q : ℚ) : Prop := ∃ m e : ℤ, q = m * 2 ^ e ∧ |m| < 2 ^ P.p ∧ P.qmin ≤ e

/-- Exponent of the unit in the last place at `q`; number format of the instantiations in /repo/include/vecmath/forward.h:33-55. -/
def ex (P : BinPar) (q : ℚ) : ℤ := max (Int.log 2 |q| + 1 - P.p) P.qmin

/-- Rounding without overflow; number format of the instantiations in /repo/include/vecmath/forward.h:33-55. -/
def fl (P : BinPar) (q : ℚ) : ℚ := rne (q / 2 ^ P.ex q) * 2 ^ P.ex q

/-- All finite numbers of the format are less than this power of two; number format of the instantiations in /repo/include/vecmath/forward.h:33-55. -/
def bound (P : BinPar) : ℚ := 2 ^ (P.p + P.qmax)

end BinPar

theorem rne_err (r : ℚ) : |r - rne r| ≤ 1 / 2 := by
  have h1 := Int.floor_le r
  have h2 := Int.lt_floor_add_one r
  unfold rne
  rw [abs_le]
  split_ifs <;> push_cast <;> constructor <;> linarith

theorem rne_even {r : ℚ} (h : |r - rne r| = 1 / 2) : rne r % 2 = 0 := by
  have h1 := Int.floor_le r
  have h2 := Int.lt_floor_add_one r
  unfold rne at h ⊢
  split_ifs at h ⊢ with h3 h4 h5
  · rw [abs_of_nonneg (by linarith)] at h; linarith
  · push_cast at h
    rw [abs_of_neg (by linarith)] at h; linarith
  · exact h5
  · omega

theorem rne_unique {r : ℚ} {n : ℤ} (h : |r - n| < 1 / 2) : rne r = n := by
  have h1 := rne_err r
  rw [abs_le] at h1
  rw [abs_lt] at h
  have h3 : (rne r : ℚ) < n + 1 := by linarith
  have h4 : (n : ℚ) < rne r + 1 := by linarith
  have h5 : rne r < n + 1 := by exact_mod_cast h3
  have h6 : n < rne r + 1 := by exact_mod_cast h4
  omega

theorem rne_unique_even {r : ℚ} {n : ℤ} (h : |r - n| ≤ 1 / 2) (he : n % 2 = 0) : rne r = n := by
  rcases h.lt_or_eq with h' | h'
  · exact rne_unique h'
  have h1 := rne_err r
  rcases h1.lt_or_eq with h2 | h2
  · rw [abs_lt] at h2
    rw [abs_le] at h
    have h3 : (rne r : ℚ) < n + 1 := by linarith
    have h4 : (n : ℚ) < rne r + 1 := by linarith
    have h5 : rne r < n + 1 := by exact_mod_cast h3
    have h6 : n < rne r + 1 := by exact_mod_cast h4
    omega
  · have h3 := rne_even h2
    rw [abs_le] at h h1
    have h5 : (rne r : ℚ) ≤ n + 1 := by linarith
    have h6 : (n : ℚ) ≤ rne r + 1 := by linarith
    have h7 : rne r ≤ n + 1 := by exact_mod_cast h5
    have h8 : n ≤ rne r + 1 := by exact_mod_cast h6
    omega

theorem rne_int (n : ℤ) : rne n = n := rne_unique (by simp)

theorem rne_mono {x y : ℚ} (h : x ≤ y) : rne x ≤ rne y := by
  by_contra hc
  have h1 := rne_err x
  have h2 := rne_err y
  rw [abs_le] at h1 h2
  have h3 : rne y + 1 ≤ rne x := by omega
  have h4 : (rne y : ℚ) + 1 ≤ rne x := by exact_mod_cast h3
  have : x = y := by linarith
  rw [this] at hc; exact hc le_rfl

theorem rne_neg (x : ℚ) : rne (-x) = -rne x := by
  have h1 := rne_err x
  have h2 : |-x - ((-rne x : ℤ) : ℚ)| = |x - rne x| := by
    push_cast
    rw [← abs_neg]; congr 1; ring
  rcases h1.lt_or_eq with h | h
  · exact rne_unique (by rw [h2]; exact h)
  · have h3 := rne_even h
    exact rne_unique_even (by rw [h2]; exact h1) (by omega)

theorem rne_le_int {x : ℚ} {n : ℤ} (h : x ≤ n) : rne x ≤ n := by
  have := rne_mono h; rwa [rne_int] at this

theorem int_le_rne {x : ℚ} {n : ℤ} (h : (n : ℚ) ≤ x) : n ≤ rne x := by
  have := rne_mono h; rwa [rne_int] at this

namespace BinPar
variable (P : BinPar)

theorem two_zpow_pos (e : ℤ) : (0 : ℚ) < 2 ^ e := zpow_pos (by norm_num) e

theorem zpow_add2 (a b : ℤ) : (2 : ℚ) ^ (a + b) = 2 ^ a * 2 ^ b := zpow_add₀ (by norm_num) a b

/-- A power of two is an integral multiple of every smaller one. -/
theorem zpow_eq_int_mul {a b : ℤ} (h : a ≤ b) : (2 : ℚ) ^ b = ((2 ^ (b - a).toNat : ℤ) : ℚ) * 2 ^ a := by
  have h1 : b = ((b - a).toNat : ℤ) + a := by omega
  conv_lhs => rw [h1, zpow_add2]
  push_cast
  rw [zpow_natCast]

theorem log_le_self {q : ℚ} (h : q ≠ 0) : (2 : ℚ) ^ Int.log 2 |q| ≤ |q| := by
  have := Int.zpow_log_le_self (b := 2) (r := |q|) (by norm_num) (abs_pos.2 h)
  exact_mod_cast this

theorem lt_succ_log (q : ℚ) : |q| < (2 : ℚ) ^ (Int.log 2 |q| + 1) := by
  have := Int.lt_zpow_succ_log_self (b := 2) (by norm_num) (|q|)
  exact_mod_cast this

theorem log_lt_of_lt {q : ℚ} {k : ℤ} (h0 : q ≠ 0) (h : |q| < 2 ^ k) : Int.log 2 |q| < k := by
  have h1 := lt_of_le_of_lt (log_le_self h0) h
  exact (zpow_lt_zpow_iff_right₀ (by norm_num : (1 : ℚ) < 2)).1 h1

theorem le_log_of_le {q : ℚ} {k : ℤ} (h : 2 ^ k ≤ |q|) : k ≤ Int.log 2 |q| := by
  have h1 := lt_of_le_of_lt h (lt_succ_log q)
  have := (zpow_lt_zpow_iff_right₀ (by norm_num : (1 : ℚ) < 2)).1 h1
  omega

theorem ex_le_of_lt {q : ℚ} {k : ℤ} (h0 : q ≠ 0) (h : |q| < 2 ^ (k + P.p)) (hk : P.qmin ≤ k) : P.ex q ≤ k := by
  have := log_lt_of_lt h0 h
  unfold ex; omega

theorem le_ex_of_le {q : ℚ} {k : ℤ} (h : 2 ^ (k + P.p - 1) ≤ |q|) : k ≤ P.ex q := by
  have := le_log_of_le h
  unfold ex; omega

theorem qmin_le_ex (q : ℚ) : P.qmin ≤ P.ex q := le_max_right _ _

theorem abs_lt_ex (q : ℚ) : |q| < 2 ^ (P.ex q + P.p) := by
  refine lt_of_lt_of_le (lt_succ_log q) (zpow_le_zpow_right₀ (by norm_num) ?_)
  unfold ex; omega

theorem ex_neg (q : ℚ) : P.ex (-q) = P.ex q := by unfold ex; rw [abs_neg]

theorem fl_neg (q : ℚ) : P.fl (-q) = -P.fl q := by
  unfold fl
  rw [ex_neg, neg_div, rne_neg]; push_cast; ring

theorem fl_zero : P.fl 0 = 0 := by
  unfold fl
  rw [zero_div]
  have : rne 0 = 0 := by exact_mod_cast rne_int 0
  rw [this]; simp

theorem fl_err (q : ℚ) : |P.fl q - q| ≤ 2 ^ P.ex q / 2 := by
  have h := two_zpow_pos (P.ex q)
  have h1 := rne_err (q / 2 ^ P.ex q)
  have h2 : P.fl q - q = -(q / 2 ^ P.ex q - rne (q / 2 ^ P.ex q)) * 2 ^ P.ex q := by
    unfold fl; field_simp; ring
  rw [h2, abs_mul, abs_neg, abs_of_pos h]
  nlinarith

theorem rep_multiple {q : ℚ} {e : ℤ} (he : P.qmin ≤ e) (h : |q| ≤ 2 ^ (e + P.p)) {m : ℤ} (hm : q = m * 2 ^ e) : P.Rep q := by
  have h2 := two_zpow_pos e
  have h1 : |(m : ℚ)| ≤ 2 ^ P.p := by
    rw [hm, abs_mul, abs_of_pos h2, zpow_add2, zpow_natCast] at h
    exact le_of_mul_le_mul_right (by linarith) h2
  have h3 : |m| ≤ 2 ^ P.p := by exact_mod_cast h1
  rcases h3.lt_or_eq with h4 | h4
  · exact ⟨m, e, hm, h4, he⟩
  · have hp : (2 : ℤ) ^ P.p = 2 * 2 ^ (P.p - 1) := by
      have := P.hp
      conv_lhs => rw [show P.p = (P.p - 1) + 1 by omega, pow_succ]
      ring
    have hpos : (0 : ℤ) < 2 ^ (P.p - 1) := by positivity
    rcases abs_eq (by positivity) |>.1 h4 with h5 | h5
    · refine ⟨2 ^ (P.p - 1), e + 1, ?_, ?_, by omega⟩
      · rw [hm, h5, hp, zpow_add2]; push_cast; ring
      · rw [abs_of_pos hpos]; omega
    · refine ⟨-2 ^ (P.p - 1), e + 1, ?_, ?_, by omega⟩
      · rw [hm, h5, hp, zpow_add2]; push_cast; ring
      · rw [abs_neg, abs_of_pos hpos]; omega

theorem rep_fl (q : ℚ) : P.Rep (P.fl q) := by
  refine P.rep_multiple (P.qmin_le_ex q) ?_ rfl
  have h := P.abs_lt_ex q
  have h2 := two_zpow_pos (P.ex q)
  rw [zpow_add2, zpow_natCast] at h ⊢
  rw [abs_lt] at h
  unfold fl
  rw [abs_mul, abs_of_pos h2, mul_comm]
  refine mul_le_mul_of_nonneg_left ?_ h2.le
  rw [abs_le]
  constructor
  · have : -(2 ^ P.p : ℤ) ≤ rne (q / 2 ^ P.ex q) := int_le_rne (by
      push_cast; rw [le_div_iff₀ h2]; linarith)
    exact_mod_cast this
  · have : rne (q / 2 ^ P.ex q) ≤ (2 ^ P.p : ℤ) := rne_le_int (by
      push_cast; rw [div_le_iff₀ h2]; linarith)
    exact_mod_cast this

theorem Rep.neg {P : BinPar} {q : ℚ} (h : P.Rep q) : P.Rep (-q) := by
  obtain ⟨m, e, h1, h2, h3⟩ := h
  exact ⟨-m, e, by rw [h1]; push_cast; ring, by rwa [abs_neg], h3⟩

/-- A representable number is an integral multiple of the unit in the last place of any not greater number. -/
theorem Rep.multiple {P : BinPar} {q : ℚ} (h : P.Rep q) {j : ℤ} (hj : 2 ^ (j + P.p - 1) ≤ |q|) : ∃ m : ℤ, q = m * 2 ^ j := by
  obtain ⟨m, e, h1, h2, h3⟩ := h
  have h4 : |q| < 2 ^ (e + P.p) := by
    rw [h1, abs_mul, abs_of_pos (two_zpow_pos e), zpow_add2, mul_comm, zpow_natCast]
    have : |(m : ℚ)| < 2 ^ P.p := by exact_mod_cast h2
    exact mul_lt_mul_of_pos_left this (two_zpow_pos e)
  have h5 := (zpow_lt_zpow_iff_right₀ (by norm_num : (1 : ℚ) < 2)).1 (lt_of_le_of_lt hj h4)
  have h6 : j ≤ e := by omega
  refine ⟨m * 2 ^ (e - j).toNat, ?_⟩
  rw [h1, zpow_eq_int_mul h6]; push_cast; ring

theorem fl_of_multiple {q : ℚ} {m : ℤ} (h : q = m * 2 ^ P.ex q) : P.fl q = q := by
  have h2 := two_zpow_pos (P.ex q)
  unfold fl
  have : q / 2 ^ P.ex q = m := by
    rw [div_eq_iff h2.ne']; exact h
  rw [this, rne_int, ← h]

theorem fl_rep {q : ℚ} (h : P.Rep q) : P.fl q = q := by
  by_cases h0 : q = 0
  · rw [h0, fl_zero]
  obtain ⟨m, e, h1, h2, h3⟩ := h
  have h4 : |q| < 2 ^ (e + P.p) := by
    rw [h1, abs_mul, abs_of_pos (two_zpow_pos e), zpow_add2, mul_comm, zpow_natCast]
    have : |(m : ℚ)| < 2 ^ P.p := by exact_mod_cast h2
    exact mul_lt_mul_of_pos_left this (two_zpow_pos e)
  have h5 := P.ex_le_of_lt h0 h4 h3
  refine P.fl_of_multiple (m := m * 2 ^ (e - P.ex q).toNat) ?_
  conv_lhs => rw [h1, zpow_eq_int_mul h5]
  push_cast; ring

theorem fl_nonneg {q : ℚ} (h : 0 ≤ q) : 0 ≤ P.fl q := by
  have h2 := two_zpow_pos (P.ex q)
  have : (0 : ℤ) ≤ rne (q / 2 ^ P.ex q) := int_le_rne (by push_cast; positivity)
  have h3 : (0 : ℚ) ≤ rne (q / 2 ^ P.ex q) := by exact_mod_cast this
  exact mul_nonneg h3 h2.le

theorem fl_mono_pos {x y : ℚ} (hx : 0 < x) (h : x ≤ y) : P.fl x ≤ P.fl y := by
  have hy : 0 < y := hx.trans_le h
  have hex := two_zpow_pos (P.ex x)
  have hey := two_zpow_pos (P.ex y)
  have hlog : Int.log 2 |x| ≤ Int.log 2 |y| := by
    apply le_log_of_le
    refine (log_le_self hx.ne').trans ?_
    rw [abs_of_pos hx, abs_of_pos hy]; exact h
  have he : P.ex x ≤ P.ex y := by unfold ex; omega
  rcases he.eq_or_lt with he | he
  · unfold fl
    rw [he]
    refine mul_le_mul_of_nonneg_right ?_ hey.le
    have := rne_mono (div_le_div_of_nonneg_right h hey.le)
    exact_mod_cast this
  · have hp := P.hp
    have h1 : P.ex y = Int.log 2 |y| + 1 - P.p := by unfold ex at he ⊢; omega
    have h2 : Int.log 2 |x| + 1 ≤ Int.log 2 |y| := by unfold ex at he; omega
    have hx2 : x ≤ 2 ^ Int.log 2 |y| := by
      have := lt_succ_log x
      rw [abs_of_pos hx] at this
      exact this.le.trans (zpow_le_zpow_right₀ (by norm_num) (by rw [abs_of_pos hx] at h2; exact h2))
    have hy2 : 2 ^ Int.log 2 |y| ≤ y := by
      have := log_le_self hy.ne'
      rwa [abs_of_pos hy] at this ⊢
    have ha : P.fl x ≤ 2 ^ Int.log 2 |y| := by
      rw [zpow_eq_int_mul (show P.ex x ≤ Int.log 2 |y| by omega)] at hx2 ⊢
      unfold fl
      refine mul_le_mul_of_nonneg_right ?_ hex.le
      have := rne_le_int (x := x / 2 ^ P.ex x) (by rw [div_le_iff₀ hex]; exact hx2)
      exact_mod_cast this
    have hb : 2 ^ Int.log 2 |y| ≤ P.fl y := by
      rw [zpow_eq_int_mul (show P.ex y ≤ Int.log 2 |y| by omega)] at hy2 ⊢
      unfold fl
      refine mul_le_mul_of_nonneg_right ?_ hey.le
      have := int_le_rne (x := y / 2 ^ P.ex y) (by rw [le_div_iff₀ hey]; exact hy2)
      exact_mod_cast this
    exact ha.trans hb

theorem fl_mono {x y : ℚ} (h : x ≤ y) : P.fl x ≤ P.fl y := by
  rcases lt_or_ge 0 x with hx | hx
  · exact P.fl_mono_pos hx h
  rcases lt_or_ge y 0 with hy | hy
  · have := P.fl_mono_pos (x := -y) (y := -x) (by linarith) (by linarith)
    rw [fl_neg, fl_neg] at this; linarith
  · have h1 := P.fl_nonneg hy
    have h2 := P.fl_nonneg (q := -x) (by linarith)
    rw [fl_neg] at h2; linarith

theorem fl_le_of_rep {x r : ℚ} (hr : P.Rep r) (h : x ≤ r) : P.fl x ≤ r := by
  have := P.fl_mono h; rwa [P.fl_rep hr] at this

theorem le_fl_of_rep {x r : ℚ} (hr : P.Rep r) (h : r ≤ x) : r ≤ P.fl x := by
  have := P.fl_mono h; rwa [P.fl_rep hr] at this

theorem rep_zero : P.Rep 0 := ⟨0, P.qmin, by simp, by simp, le_rfl⟩

theorem rep_int {n : ℤ} (h : |n| ≤ 2 ^ P.p) : P.Rep n := by
  have := P.hmin
  refine P.rep_multiple (e := 0) (by omega) ?_ (m := n) (by simp)
  rw [zero_add, zpow_natCast]; exact_mod_cast h

theorem rep_one : P.Rep 1 := by
  have := P.rep_int (n := 1) (by simp; exact one_le_pow₀ (by norm_num))
  simpa using this

theorem bound_pos : 0 < P.bound := two_zpow_pos _

theorem one_lt_bound : 1 < P.bound := by
  have := P.hmax
  have := P.hp
  exact one_lt_zpow₀ (by norm_num) (by omega)

/-- The rounding function of the format with overflow; number format of the instantiations in /repo/include/vecmath/forward.h:33-55. -/
def rnd (q : ℚ) : Ext :=
  if |P.fl q| < P.bound then Ext.ofRat (P.fl q)
  else if 0 < q then ((⊤ : WithTop ℚ) : WithBot (WithTop ℚ)) else ⊥

/-- A binary format with rounding to nearest, ties to even, as a floating point format; number format of the instantiations in /repo/include/vecmath/forward.h:33-55. -/
def fmt : Fmt where
  rep q := P.Rep q ∧ |q| < P.bound
  rnd := P.rnd
  rep_zero := ⟨P.rep_zero, by simpa using P.bound_pos⟩
  rep_one := ⟨P.rep_one, by simpa using P.one_lt_bound⟩
  rep_neg h := ⟨h.1.neg, by rw [abs_neg]; exact h.2⟩
  rep_rnd := by
    intro x q h
    unfold rnd at h
    split_ifs at h with h1
    · have : P.fl x = q := by
        have := WithBot.coe_injective h
        exact WithTop.coe_injective this
      rw [← this]
      exact ⟨P.rep_fl x, h1⟩
    · exact absurd (WithBot.coe_injective h) (WithTop.top_ne_coe)
    · exact absurd h (WithBot.bot_ne_coe)
  rnd_rep := by
    intro q h
    unfold rnd
    rw [P.fl_rep h.1, if_pos h.2]
  rnd_mono := by
    intro x y h
    have hm := P.fl_mono h
    have hb := P.bound_pos
    unfold rnd
    by_cases h1 : |P.fl x| < P.bound <;> by_cases h2 : |P.fl y| < P.bound
    · rw [if_pos h1, if_pos h2]
      exact WithBot.coe_le_coe.2 (WithTop.coe_le_coe.2 hm)
    · rw [if_pos h1, if_neg h2]
      by_cases hy : 0 < y
      · rw [if_pos hy]; exact WithBot.coe_le_coe.2 le_top
      · exfalso
        apply h2
        have h3 := P.fl_mono (not_lt.1 hy)
        rw [fl_zero] at h3
        rw [abs_lt] at h1 ⊢
        constructor <;> linarith
    · rw [if_neg h1, if_pos h2]
      by_cases hx : 0 < x
      · exfalso
        apply h1
        have h3 := P.fl_nonneg hx.le
        rw [abs_lt] at h2 ⊢
        constructor <;> linarith
      · rw [if_neg hx]; exact bot_le
    · rw [if_neg h1, if_neg h2]
      by_cases hx : 0 < x
      · rw [if_pos hx, if_pos (hx.trans_le h)]
      · rw [if_neg hx]; exact bot_le
  rnd_neg := by
    intro x
    unfold rnd
    rw [fl_neg, abs_neg]
    by_cases h1 : |P.fl x| < P.bound
    · rw [if_pos h1, if_pos h1]; rfl
    · rw [if_neg h1, if_neg h1]
      have hx : x ≠ 0 := by
        intro h; rw [h, fl_zero] at h1; exact h1 (by simpa using P.bound_pos)
      by_cases h2 : 0 < x
      · rw [if_pos h2, if_neg (by linarith)]; rfl
      · rw [if_neg h2, if_pos (by have := lt_of_le_of_ne (not_lt.1 h2) hx; linarith)]; rfl

end BinPar

/-- `float`, /repo/include/vecmath/forward.h:33-55 (`vec1f` and so on). -/
def binary32 : BinPar := ⟨24, -149, 104, by norm_num, by norm_num, by norm_num⟩

/-- `double`, /repo/include/vecmath/forward.h:33-55 (`vec1d` and so on). -/
def binary64 : BinPar := ⟨53, -1074, 971, by norm_num, by norm_num, by norm_num⟩

end vm
