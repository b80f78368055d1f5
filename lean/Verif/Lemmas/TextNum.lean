import Verif.Lemmas.Text
import Verif.Lemmas.FltError
import Verif.Lemmas.FltCast
import Verif.Props.FltMat
import Verif.Props.Io

/-!
# Lemmas about reading back printed numbers
-/

set_option linter.unusedSectionVars false
set_option linter.unusedSimpArgs false

namespace vm
namespace TextL

open BinPar

variable {P : BinPar}

/-- Two different numbers of the format differ by at least the unit in the last place. -/
theorem sep_aux {m n k : ℤ} {M : ℤ} (hn : |n| < M) (hm : m = n + k) (hk : k ≠ 0) : |m| ≤ M * |k| := by
  have h1 : 1 ≤ |k| := Int.one_le_abs hk
  have h2 : |m| ≤ |n| + |k| := by rw [hm]; exact abs_add_le _ _
  have h3 : 0 ≤ |n| := abs_nonneg n
  nlinarith

theorem sep {x y : ℚ} (hx : P.Rep x) (hy : P.Rep y) (hne : x ≠ y) : |x| ≤ 2 ^ P.p * |y - x| := by
  obtain ⟨m, e, rfl, hm, -⟩ := hx
  obtain ⟨n, f, rfl, hn, -⟩ := hy
  rcases le_total e f with h | h
  · have e1 : (2 : ℚ) ^ f = ((2 ^ (f - e).toNat : ℤ) : ℚ) * 2 ^ e := zpow_eq_int_mul h
    have hg := two_zpow_pos e
    set N : ℤ := n * 2 ^ (f - e).toNat with hN
    have e2 : (n : ℚ) * 2 ^ f = N * 2 ^ e := by rw [e1, hN]; push_cast; ring
    rw [e2] at hne ⊢
    have hk : N - m ≠ 0 := by
      intro h0
      apply hne
      rw [show N = m by omega]
    have h1 : 1 ≤ |N - m| := Int.one_le_abs hk
    rw [← sub_mul, abs_mul, abs_mul, abs_of_pos hg, ← mul_assoc]
    apply mul_le_mul_of_nonneg_right _ hg.le
    have h2 : |m| ≤ 2 ^ P.p * |N - m| := by nlinarith [abs_nonneg m]
    exact_mod_cast h2
  · have e1 : (2 : ℚ) ^ e = ((2 ^ (e - f).toNat : ℤ) : ℚ) * 2 ^ f := zpow_eq_int_mul h
    have hg := two_zpow_pos f
    set M : ℤ := m * 2 ^ (e - f).toNat with hM
    have e2 : (m : ℚ) * 2 ^ e = M * 2 ^ f := by rw [e1, hM]; push_cast; ring
    rw [e2] at hne ⊢
    have hk : M - n ≠ 0 := by
      intro h0
      apply hne
      rw [show M = n by omega]
    rw [← sub_mul, abs_mul, abs_mul, abs_of_pos hg, ← mul_assoc]
    apply mul_le_mul_of_nonneg_right _ hg.le
    have h2 : |M| ≤ 2 ^ P.p * |M - n| := sep_aux hn (by ring) hk
    rw [abs_sub_comm] at h2
    exact_mod_cast h2

theorem fl_twice {x : ℚ} (hx : P.Rep x) (D : ℚ) : |P.fl D - x| ≤ 2 * |D - x| := by
  have h := P.fl_nearest hx D
  have e : P.fl D - x = (P.fl D - D) + (D - x) := by ring
  rw [e]
  have h1 := abs_add_le (P.fl D - D) (D - x)
  rw [abs_sub_comm x D] at h
  linarith

/-- A number near a number of the format is rounded to it. -/
theorem fl_close {x D : ℚ} (hx : P.Rep x) (h : 2 ^ (P.p + 1) * |D - x| < |x|) : P.fl D = x := by
  by_contra hne
  have h1 := sep hx (P.rep_fl D) (Ne.symm hne)
  have h2 := fl_twice hx D
  have h3 : (2 : ℚ) ^ P.p * |P.fl D - x| ≤ 2 ^ P.p * (2 * |D - x|) := mul_le_mul_of_nonneg_left h2 (by positivity)
  rw [pow_succ] at h
  linarith

theorem round_close {q D : ℚ} (hq : P.fmt.rep q) (h : 2 ^ (P.p + 1) * |D - q| < |q|) : (Flt.round D : Flt P.fmt) = Flt.fin q hq := by
  have h1 := fl_close hq.1 h
  have h2 : |P.fl D| < P.bound := by rw [h1]; exact hq.2
  rw [P.round_eq h2]
  congr 1

theorem cast_self {F : Fmt} (x : Flt F) : (Flt.cast x : Flt F) = x := by
  rcases x with _ | _ | _ | ⟨q, hq⟩
  · rfl
  · rfl
  · rfl
  · exact Flt.round_of_rep hq

theorem neg_fin_eq {F : Fmt} {q : ℚ} (hq : F.rep q) : -(Flt.fin q hq : Flt F) = Flt.fin (-q) (F.rep_neg hq) := rfl

/-- The decimal number nearest to a number. -/
def nearDecZ (n : ℕ) (q : ℚ) : ℚ := if q = 0 then 0 else if q < 0 then -nearDec n (-q) else nearDec n q

theorem nearZ_err (n : ℕ) (q : ℚ) : |nearDecZ n q - q| ≤ |q| * (10 ^ (1 - n : ℤ) / 2) := by
  unfold nearDecZ
  split_ifs with h0 h1
  · subst h0; simp
  · have h := near_err (n := n) (q := -q) (by linarith)
    rw [abs_of_neg h1]
    rw [show -nearDec n (-q) - q = -(nearDec n (-q) - -q) by ring, abs_neg]
    exact h
  · have hq : 0 < q := lt_of_le_of_ne (not_lt.1 h1) (Ne.symm h0)
    rw [abs_of_pos hq]
    exact near_err hq

theorem reads_fin {F : Fmt} {n : ℕ} (hn : 1 ≤ n) {q : ℚ} (hq : F.rep q) :
    Reads atofD (printFlt n (Flt.fin q hq)) (Flt.round (nearDecZ n q)) := by
  intro rest hr
  unfold printFlt nearDecZ
  simp only
  split_ifs with h0 h1
  · have e : readDec ('0' :: rest) = 0 := by
      have := readDec_text (a := ['0']) (b := []) (r := rest) (by simp) (by simp) (stops_noDigit hr) (stops_point hr)
      rw [show fracText [] = [] from rfl] at this
      rw [show ['0'] ++ ([] ++ rest) = '0' :: rest from rfl] at this
      rw [this]
      simp [dval, natOfDigits]
    show atofD ('0' :: rest) = _
    rw [atof_digit (by decide), e]
  · rw [(atof_print hn (by linarith) hr).2, Flt.round_neg]
  · have hq : 0 < q := lt_of_le_of_ne (not_lt.1 h1) (Ne.symm h0)
    exact (atof_print hn hq hr).1

theorem reads_pinf {F : Fmt} (n : ℕ) : Reads atofD (printFlt n (.pinf : Flt F)) .pinf := fun _ _ => rfl
theorem reads_ninf {F : Fmt} (n : ℕ) : Reads atofD (printFlt n (.ninf : Flt F)) .ninf := fun _ _ => rfl
theorem reads_nan {F : Fmt} (n : ℕ) : Reads atofD (printFlt n (.nan : Flt F)) .nan := fun _ _ => rfl

theorem numberText {F : Fmt} {n : ℕ} (hn : 1 ≤ n) (x : Flt F) : NumberText (printFlt n x) := by
  rcases x with _ | _ | _ | ⟨q, hq⟩
  · exact ⟨(by decide : "nan".toList ≠ []), (by decide : ∀ c ∈ "nan".toList, c ∉ stops)⟩
  · exact ⟨(by decide : "-inf".toList ≠ []), (by decide : ∀ c ∈ "-inf".toList, c ∉ stops)⟩
  · exact ⟨(by decide : "inf".toList ≠ []), (by decide : ∀ c ∈ "inf".toList, c ∉ stops)⟩
  · unfold printFlt
    simp only
    split_ifs with h0 h1
    · exact ⟨by decide, by decide⟩
    · refine ⟨by simp, fun c hc => ?_⟩
      rcases List.mem_cons.1 hc with rfl | hc
      · decide
      · exact chars_stops (print_chars n _ c hc)
    · obtain ⟨c, cs, hc, -⟩ := print_head hn q
      exact ⟨by rw [hc]; simp, fun c hc => chars_stops (print_chars n _ c hc)⟩

theorem near_zero {n : ℕ} : nearDecZ n 0 = 0 := by unfold nearDecZ; rw [if_pos rfl]

/-- Numbers of type `double` printed with at least 17 digits are read exactly. -/
theorem reads_double {n : ℕ} (hn : 17 ≤ n) (x : Flt binary64.fmt) : Reads (atofT (F := binary64.fmt)) (printFlt n x) x := by
  intro rest hr
  unfold atofT
  rw [cast_self]
  rcases x with _ | _ | _ | ⟨q, hq⟩
  · exact reads_nan n rest hr
  · exact reads_ninf n rest hr
  · exact reads_pinf n rest hr
  · rw [reads_fin (by omega) hq rest hr]
    by_cases h0 : q = 0
    · subst h0
      rw [near_zero]
      exact Flt.round_of_rep hq
    · apply round_close hq
      have h1 := nearZ_err n q
      have hpos : 0 < |q| := abs_pos.2 h0
      have h2 : (10 : ℚ) ^ (1 - n : ℤ) ≤ 10 ^ (-16 : ℤ) := zpow_le_zpow_right₀ (by norm_num) (by omega)
      have e : binary64.p = 53 := rfl
      rw [e]
      norm_num at h2 ⊢
      nlinarith

/-- Numbers of type `float` printed with at least 9 digits are read exactly. -/
theorem reads_float {n : ℕ} (hn : 9 ≤ n) (x : Flt binary32.fmt) : Reads (atofT (F := binary32.fmt)) (printFlt n x) x := by
  intro rest hr
  unfold atofT
  rcases x with _ | _ | _ | ⟨q, hq⟩
  · rw [reads_nan n rest hr]; rfl
  · rw [reads_ninf n rest hr]; rfl
  · rw [reads_pinf n rest hr]; rfl
  · rw [reads_fin (by omega) hq rest hr]
    by_cases h0 : q = 0
    · subst h0
      rw [near_zero, Flt.round_of_rep (F := binary64.fmt) (Wide.fmt wide_32_64 0 hq)]
      exact Flt.round_of_rep hq
    · have h1 := nearZ_err n q
      have hpos : 0 < |q| := abs_pos.2 h0
      have h2 : (10 : ℚ) ^ (1 - n : ℤ) ≤ 10 ^ (-8 : ℤ) := zpow_le_zpow_right₀ (by norm_num) (by omega)
      have hw := Wide.fmt wide_32_64 q hq
      have h3 := fl_twice hw.1 (nearDecZ n q)
      have h4 : |binary64.fl (nearDecZ n q) - q| ≤ |q| * 10 ^ (-8 : ℤ) := by nlinarith
      have h5 : |binary64.fl (nearDecZ n q)| < binary64.bound := by
        have : |binary64.fl (nearDecZ n q)| ≤ |q| + |q| := by
          have e : binary64.fl (nearDecZ n q) = (binary64.fl (nearDecZ n q) - q) + q := by ring
          rw [e]
          refine (abs_add_le _ _).trans ?_
          norm_num at h4
          linarith
        have hb : |q| < 2 ^ (128 : ℤ) := hq.2
        have hB : (2 : ℚ) ^ (129 : ℤ) ≤ binary64.bound := zpow_le_zpow_right₀ (by norm_num) (by decide)
        have : (2 : ℚ) ^ (129 : ℤ) = 2 * 2 ^ (128 : ℤ) := by norm_num
        linarith
      rw [binary64.round_eq h5]
      show (Flt.round (binary64.fl (nearDecZ n q)) : Flt binary32.fmt) = _
      apply round_close hq
      have e : binary32.p = 24 := rfl
      rw [e]
      norm_num at h4 ⊢
      linarith

/-- The error of reading back a printed number. -/
theorem reads_error_double {n : ℕ} (hn : 1 ≤ n) {q : ℚ} (hq : binary64.fmt.rep q) (hb : |q| ≤ binary64.bound / 4) :
    ∃ y : Flt binary64.fmt, Reads (atofT (F := binary64.fmt)) (printFlt n (Flt.fin q hq)) y ∧ y.isFinite ∧ |y.val - q| ≤ 10 ^ (1 - n : ℤ) * |q| := by
  refine ⟨Flt.round (nearDecZ n q), fun rest hr => ?_, ?_⟩
  · unfold atofT
    rw [cast_self]
    exact reads_fin hn hq rest hr
  · have h1 := nearZ_err n q
    have h2 : (10 : ℚ) ^ (1 - n : ℤ) ≤ 10 ^ (0 : ℤ) := zpow_le_zpow_right₀ (by norm_num) (by omega)
    have h3 := fl_twice hq.1 (nearDecZ n q)
    have h4 : |binary64.fl (nearDecZ n q) - q| ≤ 10 ^ (1 - n : ℤ) * |q| := by linarith
    have h5 : |binary64.fl (nearDecZ n q)| < binary64.bound := by
      have : |binary64.fl (nearDecZ n q)| ≤ |q| + |q| := by
        have e : binary64.fl (nearDecZ n q) = (binary64.fl (nearDecZ n q) - q) + q := by ring
        rw [e]
        refine (abs_add_le _ _).trans ?_
        rw [zpow_zero] at h2
        nlinarith [abs_nonneg q]
      have := binary64.bound_pos
      linarith
    rw [binary64.round_eq h5]
    exact ⟨trivial, h4⟩

theorem reads_error_float {n : ℕ} (hn : 1 ≤ n) {q : ℚ} (hq : binary32.fmt.rep q) (hb : |q| ≤ binary32.bound / 4) :
    ∃ y : Flt binary32.fmt, Reads (atofT (F := binary32.fmt)) (printFlt n (Flt.fin q hq)) y ∧ y.isFinite ∧ |y.val - q| ≤ 2 * 10 ^ (1 - n : ℤ) * |q| := by
  have h1 := nearZ_err n q
  have h2 : (10 : ℚ) ^ (1 - n : ℤ) ≤ 10 ^ (0 : ℤ) := zpow_le_zpow_right₀ (by norm_num) (by omega)
  have hw := Wide.fmt wide_32_64 q hq
  have h3 := fl_twice hw.1 (nearDecZ n q)
  have h4 : |binary64.fl (nearDecZ n q) - q| ≤ 10 ^ (1 - n : ℤ) * |q| := by linarith
  have hab : ∀ y : ℚ, |y| ≤ |y - q| + |q| := fun y => by
    have := abs_add_le (y - q) q
    rwa [sub_add_cancel] at this
  have h0 := abs_nonneg q
  rw [zpow_zero] at h2
  have hB : (4 : ℚ) * binary32.bound ≤ binary64.bound := by
    have : (4 : ℚ) * binary32.bound = 2 ^ (130 : ℤ) := by
      show (4 : ℚ) * 2 ^ (128 : ℤ) = 2 ^ (130 : ℤ)
      norm_num
    rw [this]
    exact zpow_le_zpow_right₀ (by norm_num) (by decide)
  have h5 : |binary64.fl (nearDecZ n q)| < binary64.bound := by
    have h := hab (binary64.fl (nearDecZ n q))
    have := binary32.bound_pos
    nlinarith
  have h6 := fl_twice hq.1 (binary64.fl (nearDecZ n q))
  have h7 : |binary32.fl (binary64.fl (nearDecZ n q)) - q| ≤ 2 * 10 ^ (1 - n : ℤ) * |q| := by linarith
  have h8 : |binary32.fl (binary64.fl (nearDecZ n q))| < binary32.bound := by
    have h := hab (binary32.fl (binary64.fl (nearDecZ n q)))
    have := binary32.bound_pos
    nlinarith
  refine ⟨Flt.cast (Flt.round (nearDecZ n q) : Flt binary64.fmt), fun rest hr => ?_, ?_⟩
  · unfold atofT
    rw [reads_fin hn hq rest hr]
  · rw [binary64.round_eq h5]
    show (Flt.round (binary64.fl (nearDecZ n q)) : Flt binary32.fmt).isFinite ∧ _
    have e : (Flt.cast (Flt.fin (F := binary64.fmt) (binary64.fl (nearDecZ n q)) ⟨binary64.rep_fl _, h5⟩) : Flt binary32.fmt) =
      Flt.round (binary64.fl (nearDecZ n q)) := rfl
    rw [e, binary32.round_eq h8]
    exact ⟨trivial, h7⟩

/-- A number near a decimal number with at most `n` digits is printed as this decimal number. -/
theorem near_decimal {n : ℕ} {q ε : ℚ} (hq : 0 < q) {k : ℕ} (hk : k < 10 ^ n) (j : ℤ) (hε : ε * 10 ^ n ≤ 1 / 4) (hε0 : 0 ≤ ε)
    (h : |q - k * 10 ^ j| ≤ ε * (k * 10 ^ j)) : nearDec n q = k * 10 ^ j := by
  obtain ⟨h1, h2⟩ := log_bounds hq
  unfold nearDec
  set L := Int.log 10 q
  have hg := ten_pos (L - n + 1)
  have hj := ten_pos j
  have hn1 : (1 : ℚ) ≤ 10 ^ n := one_le_pow₀ (by norm_num)
  have hε1 : ε ≤ 1 / 4 := by nlinarith
  obtain ⟨ha, hb⟩ := abs_le.1 h
  by_cases hc : L - n + 1 ≤ j
  · have e1 : (10 : ℚ) ^ j = (10 ^ (j - (L - n + 1)).toNat : ℤ) * 10 ^ (L - n + 1) := by
      push_cast
      rw [← zpow_natCast, ← zpow_add₀ (by norm_num)]
      congr 1
      omega
    have e2 : (k : ℚ) * 10 ^ j = ((k * 10 ^ (j - (L - n + 1)).toNat : ℤ) : ℚ) * 10 ^ (L - n + 1) := by
      rw [e1]; push_cast; ring
    have hK : (k : ℚ) * 10 ^ j * 3 ≤ 4 * q := by nlinarith [mul_nonneg (Nat.cast_nonneg (α := ℚ) k) hj.le]
    have hKg : (k : ℚ) * 10 ^ j * 3 < 4 * (10 ^ n * 10 ^ (L - n + 1)) := by
      rw [← zpow_natCast, ← zpow_add₀ (by norm_num), show (n : ℤ) + (L - n + 1) = L + 1 by ring]
      linarith
    have hr : rne (q / 10 ^ (L - n + 1)) = (k * 10 ^ (j - (L - n + 1)).toNat : ℤ) := by
      apply rne_unique
      have e3 : q / 10 ^ (L - n + 1) - ((k * 10 ^ (j - (L - n + 1)).toNat : ℤ) : ℚ) = (q - k * 10 ^ j) / 10 ^ (L - n + 1) := by
        rw [e2]; field_simp
      rw [e3, abs_div, abs_of_pos hg, div_lt_iff₀ hg]
      refine h.trans_lt ?_
      have : ε * ((k : ℚ) * 10 ^ j) * 3 ≤ ε * (4 * (10 ^ n * 10 ^ (L - n + 1))) := by
        rw [mul_assoc]; exact mul_le_mul_of_nonneg_left hKg.le hε0
      have h5 : ε * (4 * (10 ^ n * 10 ^ (L - n + 1))) = 4 * (ε * 10 ^ n) * 10 ^ (L - n + 1) := by ring
      nlinarith
    rw [hr, e2]
  · exfalso
    have h3 : (10 : ℚ) ^ n * 10 ^ j ≤ 10 ^ L := by
      rw [← zpow_natCast, ← zpow_add₀ (by norm_num)]
      exact zpow_le_zpow_right₀ (by norm_num) (by omega)
    have h4 : (k : ℚ) + 1 ≤ 10 ^ n := by exact_mod_cast hk
    have h5 : ((k : ℚ) + 1) * 10 ^ j ≤ 10 ^ n * 10 ^ j := mul_le_mul_of_nonneg_right h4 hj.le
    have h6 : ε * (k * 10 ^ j) ≤ ε * (10 ^ n * 10 ^ j) := mul_le_mul_of_nonneg_left (by nlinarith) hε0
    have h7 : ε * (10 ^ n * 10 ^ j) = ε * 10 ^ n * 10 ^ j := by ring
    nlinarith

theorem nearZ_decimal {n : ℕ} {q ε : ℚ} {k : ℤ} (hk : |k| < (10 : ℤ) ^ n) (j : ℤ) (hε : ε * 10 ^ n ≤ 1 / 4) (hε0 : 0 ≤ ε)
    (h : |q - k * 10 ^ j| ≤ ε * |(k : ℚ) * 10 ^ j|) : nearDecZ n q = k * 10 ^ j := by
  have hj := ten_pos j
  have hn1 : (1 : ℚ) ≤ 10 ^ n := one_le_pow₀ (by norm_num)
  have hε1 : ε ≤ 1 / 4 := by nlinarith
  have hkn : |k| = (k.natAbs : ℤ) := Int.abs_eq_natAbs k
  have hk' : k.natAbs < 10 ^ n := by
    rw [hkn] at hk
    exact_mod_cast hk
  rcases lt_trichotomy k 0 with hk0 | hk0 | hk0
  · have hq0 : (k : ℚ) < 0 := by exact_mod_cast hk0
    have hkq : ((k.natAbs : ℕ) : ℚ) = -k := by
      rw [Nat.cast_natAbs, abs_of_neg hk0]; push_cast; ring
    have hprod : (k : ℚ) * 10 ^ j < 0 := mul_neg_of_neg_of_pos hq0 hj
    rw [abs_of_neg hprod] at h
    obtain ⟨ha, hb⟩ := abs_le.1 h
    have hqn : q < 0 := by nlinarith
    unfold nearDecZ
    rw [if_neg hqn.ne, if_pos hqn, near_decimal (q := -q) (by linarith) (k := k.natAbs) hk' j hε hε0 (by
      rw [hkq, show -q - -(k : ℚ) * 10 ^ j = -(q - k * 10 ^ j) by ring, abs_neg]
      refine h.trans (le_of_eq (by ring))), hkq]
    ring
  · subst hk0
    simp only [Int.cast_zero, zero_mul, sub_zero, abs_zero, mul_zero] at h ⊢
    have : q = 0 := abs_eq_zero.1 (le_antisymm h (abs_nonneg _))
    rw [this, near_zero]
  · have hq0 : (0 : ℚ) < k := by exact_mod_cast hk0
    have hkq : ((k.natAbs : ℕ) : ℚ) = k := by
      rw [Nat.cast_natAbs, abs_of_pos hk0]
    have hprod : 0 < (k : ℚ) * 10 ^ j := mul_pos hq0 hj
    rw [abs_of_pos hprod] at h
    obtain ⟨ha, hb⟩ := abs_le.1 h
    have hqn : 0 < q := by nlinarith
    unfold nearDecZ
    rw [if_neg hqn.ne', if_neg hqn.le.not_gt, near_decimal hqn (k := k.natAbs) hk' j hε hε0 (by rw [hkq]; exact h), hkq]

end TextL
end vm
