import Verif.Lemmas.FltCmp

/-! # C99: interpolation in IEEE arithmetic

`P` is an arbitrary binary format with rounding to nearest, ties to even; `binary32` and `binary64` are instances. -/

set_option linter.unusedSectionVars false
set_option linter.unusedSimpArgs false

namespace vm
open BinPar
variable {P : BinPar}

/-! ### `mix` -/

theorem fl_mem01 {q : ℚ} (h0 : 0 ≤ q) (h1 : q ≤ 1) : 0 ≤ P.fl q ∧ P.fl q ≤ 1 := ⟨P.fl_nonneg h0, P.fl_le_of_rep P.rep_one h1⟩

/-- A product with a factor between 0 and 1 does not overflow. -/
theorem mul01 {f x : Flt P.fmt} (hf : f.isFinite) (hx : x.isFinite) (h0 : 0 ≤ f.val) (h1 : f.val ≤ 1) :
    (f * x).isFinite ∧ (f * x).val = P.fl (f.val * x.val) := by
  have hr := Flt.rep_val x
  rw [Flt.mul_eq hf hx]
  rcases le_total 0 x.val with h | h
  · have := Flt.round_between (q := f.val * x.val) P.fmt.rep_zero hr (by positivity) (by nlinarith)
    exact ⟨this.1, this.2.1⟩
  · have := Flt.round_between (q := f.val * x.val) hr P.fmt.rep_zero (by nlinarith) (by nlinarith)
    exact ⟨this.1, this.2.1⟩

theorem mix_flt {x y a : Flt P.fmt} (hx : x.isFinite) (hy : y.isFinite) (ha : a.isFinite) (h0 : 0 ≤ a.val) (h1 : a.val ≤ 1) :
    mix x y a = Flt.round (P.fl (P.fl (1 - a.val) * x.val) + P.fl (a.val * y.val)) := by
  unfold mix
  have e : (1 - a : Flt P.fmt).isFinite ∧ (1 - a : Flt P.fmt).val = P.fl (1 - a.val) := by
    rw [Flt.sub_eq Flt.one_finite ha, Flt.one_val]
    have := Flt.round_between (q := 1 - a.val) P.fmt.rep_zero P.fmt.rep_one (by linarith) (by linarith)
    exact ⟨this.1, this.2.1⟩
  obtain ⟨e0, e1⟩ := fl_mem01 (P := P) (q := 1 - a.val) (by linarith) (by linarith)
  obtain ⟨m1, m2⟩ := mul01 e.1 hx (by rw [e.2]; exact e0) (by rw [e.2]; exact e1)
  obtain ⟨m3, m4⟩ := mul01 ha hy h0 h1
  rw [Flt.add_eq m1 m3, m2, m4, e.2]

/-- `mix` returns the end values exactly at the parameters 0 and 1. -/
theorem C99_mix_ends (x y : Flt P.fmt) (hx : x.isFinite) (hy : y.isFinite) : mix x y 0 = x ∧ mix x y 1 = y := by
  constructor
  · rw [mix_flt hx hy Flt.zero_finite le_rfl zero_le_one, Flt.zero_val, sub_zero, P.fl_rep P.rep_one, one_mul, zero_mul, P.fl_zero,
      P.fl_rep (Flt.rep_val x).1, add_zero, round_rep (Flt.rep_val x)]
    exact (Flt.eq_fin hx).2.symm
  · rw [mix_flt hx hy Flt.one_finite zero_le_one le_rfl, Flt.one_val, sub_self, P.fl_zero, one_mul, zero_mul, P.fl_zero,
      P.fl_rep (Flt.rep_val y).1, zero_add, round_rep (Flt.rep_val y)]
    exact (Flt.eq_fin hy).2.symm

/-- With an infinite end value the other end value is lost: the result is NaN. -/
theorem C99_mix_infinite (x : Flt P.fmt) : mix x Flt.pinf 0 = Flt.nan ∧ mix x Flt.ninf 0 = Flt.nan ∧
    mix Flt.pinf x 1 = Flt.nan ∧ mix Flt.ninf x 1 = Flt.nan := by
  have h1 : (0 * Flt.pinf : Flt P.fmt) = Flt.nan := by
    show Flt.infTimes 0 = _
    unfold Flt.infTimes; rw [if_pos rfl]
  have h2 : (0 * Flt.ninf : Flt P.fmt) = Flt.nan := by
    show Flt.infTimes (-0) = _
    unfold Flt.infTimes; rw [if_pos neg_zero]
  have h3 : (1 - 1 : Flt P.fmt) = 0 := by
    rw [Flt.sub_eq Flt.one_finite Flt.one_finite, Flt.one_val, sub_self]
    exact round_rep P.fmt.rep_zero
  have h4 : ∀ t : Flt P.fmt, t + Flt.nan = Flt.nan := fun t => by rcases t with _ | _ | _ | ⟨q, hq⟩ <;> rfl
  have h5 : ∀ t : Flt P.fmt, Flt.nan + t = Flt.nan := fun t => rfl
  unfold mix
  exact ⟨by rw [h1, h4], by rw [h2, h4], by rw [h3, h1, h5], by rw [h3, h2, h5]⟩

/-- `mix` is monotone in the end values. -/
theorem C99_mix_monotone (x y x' y' a : Flt P.fmt) (hx : x.isFinite) (hy : y.isFinite) (hx' : x'.isFinite) (hy' : y'.isFinite)
    (ha : a.isFinite) (h0 : 0 ≤ a.val) (h1 : a.val ≤ 1) (hxx : x.val ≤ x'.val) (hyy : y.val ≤ y'.val) :
    Cmp.le (mix x y a) (mix x' y' a) = true := by
  rw [mix_flt hx hy ha h0 h1, mix_flt hx' hy' ha h0 h1]
  obtain ⟨e0, e1⟩ := fl_mem01 (P := P) (q := 1 - a.val) (by linarith) (by linarith)
  exact Flt.round_mono (add_le_add (P.fl_mono (mul_le_mul_of_nonneg_left hxx e0)) (P.fl_mono (mul_le_mul_of_nonneg_left hyy h0)))

/-- The error of `mix`. -/
theorem C99_mix_error (x y a : Flt P.fmt) (hx : x.isFinite) (hy : y.isFinite) (ha : a.isFinite) (h0 : 0 ≤ a.val) (h1 : a.val ≤ 1)
    (hf : (mix x y a).isFinite) :
    |(mix x y a).val - ((1 - a.val) * x.val + a.val * y.val)| ≤
      ((1 + P.u) ^ 3 - 1) * ((1 - a.val) * |x.val| + a.val * |y.val|) + 2 * (1 + P.u) * P.eta := by
  rw [mix_flt hx hy ha h0 h1] at hf ⊢
  rw [Flt.round_val hf]
  have hu := P.u_pos
  have he := P.eta_pos
  have h1a : 0 ≤ 1 - a.val := by linarith
  have E1 : |P.fl (1 - a.val) - (1 - a.val)| ≤ P.u * (1 - a.val) := by
    have := fl_sub_err_u P.rep_one (Flt.rep_val a).1
    rwa [abs_of_nonneg h1a] at this
  have f0 := P.fl_nonneg h1a
  have fle : P.fl (1 - a.val) ≤ (1 + P.u) * (1 - a.val) := by linarith [(abs_le.1 E1).2]
  have E2 := fl_err_u (P := P) (P.fl (1 - a.val) * x.val)
  have E3 := fl_err_u (P := P) (a.val * y.val)
  have E4 := fl_add_err_u (P.rep_fl (P.fl (1 - a.val) * x.val)) (P.rep_fl (a.val * y.val))
  rw [abs_mul, abs_of_nonneg f0] at E2
  rw [abs_mul, abs_of_nonneg h0] at E3
  generalize P.fl (P.fl (1 - a.val) * x.val) = m1 at *
  generalize P.fl (a.val * y.val) = m2 at *
  generalize P.fl (m1 + m2) = r at *
  generalize P.fl (1 - a.val) = f at *
  generalize 1 - a.val = b at *
  generalize a.val = c at *
  generalize x.val = X at *
  generalize y.val = Y at *
  generalize P.u = u at *
  generalize P.eta = η at *
  have aX := abs_nonneg X
  have aY := abs_nonneg Y
  -- first product
  have D1 : |m1 - b * X| ≤ ((1 + u) ^ 2 - 1) * (b * |X|) + η := by
    have t1 : |f * X - b * X| ≤ u * b * |X| := by
      rw [← sub_mul, abs_mul]; exact mul_le_mul_of_nonneg_right E1 aX
    have t2 : u * (f * |X|) ≤ u * ((1 + u) * b * |X|) :=
      mul_le_mul_of_nonneg_left (mul_le_mul_of_nonneg_right fle aX) hu.le
    have t3 : |m1 - b * X| ≤ |m1 - f * X| + |f * X - b * X| := abs_sub_le _ _ _
    calc |m1 - b * X| ≤ u * (f * |X|) + η + u * b * |X| := by linarith
      _ ≤ u * ((1 + u) * b * |X|) + η + u * b * |X| := by linarith
      _ = ((1 + u) ^ 2 - 1) * (b * |X|) + η := by ring
  have D2 : |m2 - c * Y| ≤ ((1 + u) ^ 2 - 1) * (c * |Y|) + η := by
    have : 0 ≤ u * (1 + u) * (c * |Y|) := by positivity
    calc |m2 - c * Y| ≤ u * (c * |Y|) + η := E3
      _ ≤ u * (c * |Y|) + η + u * (1 + u) * (c * |Y|) := by linarith
      _ = ((1 + u) ^ 2 - 1) * (c * |Y|) + η := by ring
  have D3 : |(m1 + m2) - (b * X + c * Y)| ≤ ((1 + u) ^ 2 - 1) * (b * |X| + c * |Y|) + 2 * η := by
    have : (m1 + m2) - (b * X + c * Y) = (m1 - b * X) + (m2 - c * Y) := by ring
    rw [this]
    calc _ ≤ |m1 - b * X| + |m2 - c * Y| := abs_add_le _ _
      _ ≤ _ := by linarith
  have D4 : |b * X + c * Y| ≤ b * |X| + c * |Y| := by
    calc _ ≤ |b * X| + |c * Y| := abs_add_le _ _
      _ = _ := by rw [abs_mul, abs_mul, abs_of_nonneg h1a, abs_of_nonneg h0]
  have D5 : |m1 + m2| ≤ (1 + u) ^ 2 * (b * |X| + c * |Y|) + 2 * η := by
    have : m1 + m2 = ((m1 + m2) - (b * X + c * Y)) + (b * X + c * Y) := by ring
    rw [this]
    calc _ ≤ |(m1 + m2) - (b * X + c * Y)| + |b * X + c * Y| := abs_add_le _ _
      _ ≤ _ := by linarith
  have D6 : |r - (b * X + c * Y)| ≤ |r - (m1 + m2)| + |(m1 + m2) - (b * X + c * Y)| := abs_sub_le _ _ _
  have D7 := mul_le_mul_of_nonneg_left D5 hu.le
  calc |r - (b * X + c * Y)| ≤ u * ((1 + u) ^ 2 * (b * |X| + c * |Y|) + 2 * η) +
        (((1 + u) ^ 2 - 1) * (b * |X| + c * |Y|) + 2 * η) := by linarith
    _ = ((1 + u) ^ 3 - 1) * (b * |X| + c * |Y|) + 2 * (1 + u) * η := by ring

theorem rep32 {q : ℚ} (m e : ℤ) (h1 : q = m * 2 ^ e) (h2 : |m| < 2 ^ 24) (h3 : -149 ≤ e) (h4 : |q| ≤ 2 ^ 20) : binary32.fmt.rep q := by
  refine ⟨⟨m, e, h1, h2, h3⟩, lt_of_le_of_lt h4 ?_⟩
  unfold BinPar.bound binary32
  rw [← zpow_natCast]
  exact zpow_lt_zpow_right₀ (by norm_num) (by norm_num)

/-- `mix` may leave the interval of the end values: mixing 13 with 13 in `float` with the parameter 0.2 gives more than 13. -/
theorem C99_mix_range_fails : ∃ a x r : Flt binary32.fmt, a = Flt.round (1 / 5) ∧ x.isFinite ∧ x.val = 13 ∧ mix x x a = r ∧ r.isFinite ∧
    13 < r.val := by
  have ra : binary32.fmt.rep (13421773 / 2 ^ 26) := rep32 13421773 (-26) (by norm_num) (by norm_num) (by norm_num) (by rw [abs_of_pos] <;> norm_num)
  have rx : binary32.fmt.rep 13 := rep32 13 0 (by norm_num) (by norm_num) (by norm_num) (by norm_num)
  have rr : binary32.fmt.rep (13631489 / 2 ^ 20) := rep32 13631489 (-20) (by norm_num) (by norm_num) (by norm_num) (by rw [abs_of_pos] <;> norm_num)
  have fa : binary32.fl (1 / 5) = 13421773 / 2 ^ 26 := by
    rw [fl_eval (P := binary32) (-26) 13421773 (by norm_num [binary32]) (by norm_num [binary32, abs_of_pos]) (by norm_num [binary32, abs_of_pos])
      (by norm_num [abs_of_pos])]
    norm_num
  have f1 : binary32.fl (1 - 13421773 / 2 ^ 26) = 13421773 / 2 ^ 24 := by
    rw [fl_eval (P := binary32) (-24) 13421773 (by norm_num [binary32]) (by norm_num [binary32, abs_of_pos]) (by norm_num [binary32, abs_of_pos])
      (by norm_num [abs_of_pos])]
    norm_num
  have f2 : binary32.fl (13421773 / 2 ^ 24 * 13) = 10905191 / 2 ^ 20 := by
    rw [fl_eval (P := binary32) (-20) 10905191 (by norm_num [binary32]) (by norm_num [binary32, abs_of_pos]) (by norm_num [binary32, abs_of_pos])
      (by norm_num [abs_of_pos])]
    norm_num
  have f3 : binary32.fl (13421773 / 2 ^ 26 * 13) = 10905191 / 2 ^ 22 := by
    rw [fl_eval (P := binary32) (-22) 10905191 (by norm_num [binary32]) (by norm_num [binary32, abs_of_pos]) (by norm_num [binary32, abs_of_pos])
      (by norm_num [abs_of_pos])]
    norm_num
  have f4 : binary32.fl (10905191 / 2 ^ 20 + 10905191 / 2 ^ 22) = 13631489 / 2 ^ 20 := by
    rw [fl_eval (P := binary32) (-20) 13631489 (by norm_num [binary32]) (by norm_num [binary32, abs_of_pos]) (by norm_num [binary32, abs_of_pos])
      (by norm_num [abs_of_pos])]
    norm_num
  refine ⟨Flt.fin (F := binary32.fmt) _ ra, Flt.fin (F := binary32.fmt) 13 rx, Flt.fin (F := binary32.fmt) _ rr,
    (Flt.round_to ra fa).symm, trivial, rfl, ?_, trivial, ?_⟩
  · refine (mix_flt (by trivial) (by trivial) (by trivial) ?_ ?_).trans (Flt.round_to rr ?_)
    · show (0 : ℚ) ≤ 13421773 / 2 ^ 26; norm_num
    · show (13421773 / 2 ^ 26 : ℚ) ≤ 1; norm_num
    · show binary32.fl (binary32.fl (binary32.fl (1 - 13421773 / 2 ^ 26) * 13) + binary32.fl (13421773 / 2 ^ 26 * 13)) = _
      rw [f1, f2, f3, f4]
  · show (13 : ℚ) < 13631489 / 2 ^ 20; norm_num

/-! ### `smoothstep` -/

/-- `clamp` to `[0, 1]` gives a number in this interval for every argument, NaN included. -/
theorem clamp01 (t : Flt P.fmt) : (clamp t 0 1).isFinite ∧ 0 ≤ (clamp t 0 1).val ∧ (clamp t 0 1).val ≤ 1 ∧
    (t.isFinite → 0 ≤ t.val → t.val ≤ 1 → clamp t 0 1 = t) := by
  have h01 : Cmp.lt (0 : Flt P.fmt) 1 = true := by
    rw [Flt.lt_val Flt.zero_finite Flt.one_finite]; exact decide_eq_true one_pos
  show (if Cmp.lt (0 : Flt P.fmt) (if Cmp.lt t 1 then t else 1) then (if Cmp.lt t 1 then t else 1) else 0).isFinite ∧
    0 ≤ (if Cmp.lt (0 : Flt P.fmt) (if Cmp.lt t 1 then t else 1) then (if Cmp.lt t 1 then t else 1) else 0).val ∧
    (if Cmp.lt (0 : Flt P.fmt) (if Cmp.lt t 1 then t else 1) then (if Cmp.lt t 1 then t else 1) else 0).val ≤ 1 ∧
    (t.isFinite → 0 ≤ t.val → t.val ≤ 1 →
      (if Cmp.lt (0 : Flt P.fmt) (if Cmp.lt t 1 then t else 1) then (if Cmp.lt t 1 then t else 1) else 0) = t)
  rcases t with _ | _ | _ | ⟨q, hq⟩
  · have : Cmp.lt (Flt.nan : Flt P.fmt) 1 = false := rfl
    rw [this]
    simp only [Bool.false_eq_true, if_false, h01, if_true]
    exact ⟨trivial, zero_le_one, le_rfl, fun h => h.elim⟩
  · have h1 : Cmp.lt (Flt.ninf : Flt P.fmt) 1 = true := decide_eq_true (WithBot.bot_lt_coe _)
    have h2 : Cmp.lt (0 : Flt P.fmt) Flt.ninf = false := decide_eq_false (fun h => Ext.not_le_bot _ (le_of_lt h))
    rw [h1]
    simp only [if_true, h2, Bool.false_eq_true, if_false]
    exact ⟨trivial, le_rfl, zero_le_one, fun h => h.elim⟩
  · have h1 : Cmp.lt (Flt.pinf : Flt P.fmt) 1 = false := decide_eq_false (fun h => Ext.top_not_le _ (le_of_lt h))
    rw [h1]
    simp only [Bool.false_eq_true, if_false, h01, if_true]
    exact ⟨trivial, zero_le_one, le_rfl, fun h => h.elim⟩
  · have e1 : Cmp.lt (Flt.fin q hq : Flt P.fmt) 1 = decide (q < 1) := Flt.lt_val (by trivial) Flt.one_finite
    have e2 : Cmp.lt (0 : Flt P.fmt) (Flt.fin q hq : Flt P.fmt) = decide (0 < q) := Flt.lt_val Flt.zero_finite (by trivial)
    rw [e1]
    by_cases c1 : q < 1
    · simp only [c1, decide_true, if_true, e2]
      by_cases c2 : 0 < q
      · simp only [c2, decide_true, if_true]
        exact ⟨trivial, c2.le, c1.le, fun _ _ _ => trivial⟩
      · simp only [c2, decide_false, Bool.false_eq_true, if_false]
        refine ⟨trivial, le_rfl, zero_le_one, fun _ h0 _ => ?_⟩
        exact Flt.ext trivial trivial (le_antisymm h0 (not_lt.1 c2))
    · simp only [c1, decide_false, Bool.false_eq_true, if_false, h01, if_true]
      refine ⟨trivial, zero_le_one, le_rfl, fun _ _ h1 => ?_⟩
      exact Flt.ext trivial trivial (le_antisymm (not_lt.1 c1) h1)

/-- The number before 1 plus half a unit: `1 + 2^-p` is rounded to 1. -/
theorem fl_one_add : P.fl (1 + P.u) = 1 := by
  have hu := P.u_pos
  have hu8 := P.u_le
  have hp := P.hp
  have e : (2 : ℚ) ^ (P.p - 1) * 2 ^ (1 - (P.p : ℤ)) = 1 := by
    rw [← zpow_natCast, ← zpow_add2]
    have : (((P.p - 1 : ℕ) : ℤ) + (1 - P.p)) = 0 := by omega
    rw [this, zpow_zero]
  have eu : P.u = 2 ^ (1 - (P.p : ℤ)) / 2 := by
    unfold u
    rw [sub_eq_add_neg, zpow_add2]; norm_num
  have h := fl_eval_even (P := P) (q := 1 + P.u) (1 - (P.p : ℤ)) (2 ^ (P.p - 1)) (by have := P.hmin; omega) ?_ ?_ ?_ ?_
  · rw [h]; push_cast; exact e
  · rw [abs_of_pos (by linarith)]
    have : 1 - (P.p : ℤ) + P.p - 1 = 0 := by ring
    rw [this, zpow_zero]; linarith
  · rw [abs_of_pos (by linarith)]
    have : 1 - (P.p : ℤ) + P.p = 1 := by ring
    rw [this, zpow_one]; linarith
  · have h1 : (1 + P.u) / 2 ^ (1 - (P.p : ℤ)) = 2 ^ (P.p - 1) + 1 / 2 := by
      have h2 := two_zpow_pos (1 - (P.p : ℤ))
      rw [div_eq_iff h2.ne', add_mul, e, eu]; ring
    rw [h1]; push_cast
    norm_num
  · obtain ⟨k, hk⟩ : ∃ k, P.p - 1 = k + 1 := ⟨P.p - 2, by omega⟩
    rw [hk, pow_succ]; omega

/-- The cubic of `smoothstep` with every operation rounded. -/
def cubic (P : BinPar) (t : ℚ) : ℚ := P.fl (P.fl (t * t) * P.fl (3 - 2 * t))

theorem cubic_range {t : ℚ} (ht : P.Rep t) (h0 : 0 ≤ t) (h1 : t ≤ 1) : 0 ≤ cubic P t ∧ cubic P t ≤ 1 := by
  have hu := P.u_pos
  have hu8 := P.u_le
  have hp := P.hp
  have hmin := P.hmin
  have n1 := P.fl_nonneg (mul_self_nonneg t)
  have n2 := P.fl_nonneg (by linarith : 0 ≤ 3 - 2 * t)
  refine ⟨P.fl_nonneg (mul_nonneg n1 n2), ?_⟩
  unfold cubic
  rcases le_or_gt t (1 / 2) with h | h
  · have r3 : P.Rep 3 := by
      have h8 : (2 : ℤ) ^ 3 ≤ 2 ^ P.p := pow_le_pow_right₀ (by norm_num) hp
      have := P.rep_int (n := 3) (by norm_num; linarith)
      exact_mod_cast this
    have r4 : P.Rep (1 / 4) := ⟨1, -2, by norm_num, by rw [abs_one]; exact one_lt_pow₀ (by norm_num) (by omega), by omega⟩
    have a1 : P.fl (t * t) ≤ 1 / 4 := P.fl_le_of_rep r4 (by nlinarith)
    have a2 : P.fl (3 - 2 * t) ≤ 3 := P.fl_le_of_rep r3 (by linarith)
    exact P.fl_le_of_rep P.rep_one (by nlinarith)
  · -- `3 - 2t` is exact
    have r : P.Rep (3 - 2 * t) := by
      obtain ⟨m, hm⟩ := ht.multiple (j := -(P.p : ℤ)) (by
        rw [abs_of_pos (by linarith)]
        have : -(P.p : ℤ) + P.p - 1 = -1 := by ring
        rw [this, zpow_neg_one]; linarith)
      have e1 : (2 : ℚ) ^ (1 - (P.p : ℤ)) = 2 * 2 ^ (-(P.p : ℤ)) := by rw [sub_eq_add_neg, zpow_add2, zpow_one]
      have e2 : (2 : ℚ) ^ (P.p - 1) * 2 ^ (1 - (P.p : ℤ)) = 1 := by
        rw [← zpow_natCast, ← zpow_add2]
        have : (((P.p - 1 : ℕ) : ℤ) + (1 - P.p)) = 0 := by omega
        rw [this, zpow_zero]
      refine P.rep_multiple (e := 1 - (P.p : ℤ)) (by omega) ?_ (m := 3 * 2 ^ (P.p - 1) - m) ?_
      · rw [abs_of_pos (by linarith)]
        have : 1 - (P.p : ℤ) + P.p = 1 := by ring
        rw [this, zpow_one]; linarith
      · push_cast
        rw [sub_mul, mul_assoc, e2, e1, hm]; ring
    rw [P.fl_rep r]
    have e2 : |P.fl (t * t) - t * t| ≤ P.u * |t * t| := by
      refine fl_err_rel ?_
      rw [abs_of_pos (by positivity)]
      calc (2 : ℚ) ^ (P.qmin + P.p - 1) ≤ 2 ^ (-2 : ℤ) := zpow_le_zpow_right₀ (by norm_num) (by omega)
        _ ≤ t * t := by norm_num; nlinarith
    rw [abs_of_pos (by positivity : 0 < t * t)] at e2
    have e3 : P.fl (t * t) ≤ (1 + P.u) * (t * t) := by linarith [(abs_le.1 e2).2]
    have e4 : t * t * (3 - 2 * t) ≤ 1 := by nlinarith [mul_nonneg (sq_nonneg (1 - t)) (by linarith : 0 ≤ 1 + 2 * t)]
    have e5 : P.fl (t * t) * (3 - 2 * t) ≤ 1 + P.u := by
      calc P.fl (t * t) * (3 - 2 * t) ≤ (1 + P.u) * (t * t) * (3 - 2 * t) := mul_le_mul_of_nonneg_right e3 (by linarith)
        _ = (1 + P.u) * (t * t * (3 - 2 * t)) := by ring
        _ ≤ (1 + P.u) * 1 := mul_le_mul_of_nonneg_left e4 (by linarith)
        _ = 1 + P.u := mul_one _
    have := P.fl_mono e5
    rwa [fl_one_add] at this

theorem smoothstep_flt {t : Flt P.fmt} (ht : t.isFinite) (h0 : 0 ≤ t.val) (h1 : t.val ≤ 1) :
    (t * t * (3 - 2 * t)).isFinite ∧ (t * t * (3 - 2 * t)).val = cubic P t.val := by
  have hr := Flt.rep_val t
  obtain ⟨m1, m2⟩ := mul01 ht ht h0 h1
  have m3 : (2 * t : Flt P.fmt).isFinite ∧ (2 * t : Flt P.fmt).val = 2 * t.val := by
    rw [Flt.mul_eq (Flt.two_eq P).1 ht, (Flt.two_eq P).2]
    have hb : |2 * t.val| < P.bound := by
      rw [abs_of_nonneg (by linarith)]
      have := (Flt.rep_val (2 : Flt P.fmt)).2
      rw [(Flt.two_eq P).2] at this
      norm_num at this
      linarith
    rw [round_rep (q := 2 * t.val) ⟨Rep.double hr.1, hb⟩]
    exact ⟨trivial, rfl⟩
  have m4 : (3 - 2 * t : Flt P.fmt).isFinite ∧ (3 - 2 * t : Flt P.fmt).val = P.fl (3 - 2 * t.val) := by
    rw [Flt.sub_eq (Flt.three_eq P).1 m3.1, (Flt.three_eq P).2, m3.2]
    have r3 := Flt.rep_val (3 : Flt P.fmt)
    rw [(Flt.three_eq P).2] at r3
    have := Flt.round_between (q := 3 - 2 * t.val) P.fmt.rep_zero r3 (by linarith) (by linarith)
    exact ⟨this.1, this.2.1⟩
  rw [Flt.mul_eq m1 m4.1, m2, m4.2]
  have hc := cubic_range hr.1 h0 h1
  have hf : (Flt.round (P.fl (t.val * t.val) * P.fl (3 - 2 * t.val)) : Flt P.fmt).isFinite := by
    refine Flt.round_finite.2 ?_
    show |cubic P t.val| < P.bound
    rw [abs_of_nonneg hc.1]
    exact lt_of_le_of_lt hc.2 P.one_lt_bound
  exact ⟨hf, Flt.round_val hf⟩

/-- `smoothstep` returns a number between 0 and 1 for all arguments whatsoever: NaN, infinities and equal edges included. -/
theorem C99_smoothstep_range (e0 e1 v : Flt P.fmt) :
    (smoothstep e0 e1 v).isFinite ∧ 0 ≤ (smoothstep e0 e1 v).val ∧ (smoothstep e0 e1 v).val ≤ 1 := by
  obtain ⟨c1, c2, c3, _⟩ := clamp01 ((v - e0) / (e1 - e0))
  have h := smoothstep_flt c1 c2 c3
  have hc := cubic_range (Flt.rep_val (clamp ((v - e0) / (e1 - e0)) 0 1)).1 c2 c3
  show (clamp ((v - e0) / (e1 - e0)) 0 1 * clamp ((v - e0) / (e1 - e0)) 0 1 * (3 - 2 * clamp ((v - e0) / (e1 - e0)) 0 1)).isFinite ∧
    0 ≤ (clamp ((v - e0) / (e1 - e0)) 0 1 * clamp ((v - e0) / (e1 - e0)) 0 1 * (3 - 2 * clamp ((v - e0) / (e1 - e0)) 0 1)).val ∧
    (clamp ((v - e0) / (e1 - e0)) 0 1 * clamp ((v - e0) / (e1 - e0)) 0 1 * (3 - 2 * clamp ((v - e0) / (e1 - e0)) 0 1)).val ≤ 1
  rw [h.2]
  exact ⟨h.1, hc.1, hc.2⟩

theorem cubic_zero : cubic P 0 = 0 := by
  unfold cubic; rw [mul_zero, P.fl_zero, zero_mul, P.fl_zero]

theorem cubic_one : cubic P 1 = 1 := by
  unfold cubic
  have : (3 : ℚ) - 2 * 1 = 1 := by norm_num
  rw [this, one_mul, P.fl_rep P.rep_one, one_mul, P.fl_rep P.rep_one]

/-- `smoothstep` is exactly 0 up to the lower edge and exactly 1 from the upper edge on, provided that the distance of the edges does not
overflow. -/
theorem C99_smoothstep_edges (e0 e1 v : Flt P.fmt) (h0 : e0.isFinite) (hv : v.isFinite) (hlt : e0.val < e1.val)
    (hd : (e1 - e0).isFinite) :
    (v.val ≤ e0.val → smoothstep e0 e1 v = 0) ∧ (e1.val ≤ v.val → smoothstep e0 e1 v = 1) := by
  have dval := Flt.sub_val hd
  have dpos : 0 < (e1 - e0).val := by
    rw [dval]
    refine lt_of_le_of_ne (P.fl_nonneg (by linarith)) fun h => ?_
    have := fl_sub_eq_zero (Flt.rep_val e1).1 (Flt.rep_val e0).1 h.symm
    linarith
  have hnum : v - e0 = Flt.round (v.val - e0.val) := Flt.sub_eq hv h0
  have fin_div : ∀ {a b : Flt P.fmt}, a.isFinite → b.isFinite → b.val ≠ 0 → a / b = Flt.round (a.val / b.val) := by
    intro a b ha hb hb0
    rcases a with _ | _ | _ | ⟨q, hq⟩
    · exact ha.elim
    · exact ha.elim
    · exact ha.elim
    rcases b with _ | _ | _ | ⟨r, hr⟩
    · exact hb.elim
    · exact hb.elim
    · exact hb.elim
    show (if r = 0 then Flt.infTimes q else Flt.round (q / r)) = _
    exact if_neg hb0
  have inf_div : ∀ {b : Flt P.fmt}, b.isFinite → 0 < b.val → (Flt.pinf : Flt P.fmt) / b = Flt.pinf ∧ (Flt.ninf : Flt P.fmt) / b = Flt.ninf := by
    intro b hb hb0
    rcases b with _ | _ | _ | ⟨r, hr⟩
    · exact hb.elim
    · exact hb.elim
    · exact hb.elim
    exact ⟨if_pos (le_of_lt hb0), if_pos (le_of_lt hb0)⟩
  have h01 : Cmp.lt (0 : Flt P.fmt) 1 = true := by
    rw [Flt.lt_val Flt.zero_finite Flt.one_finite]; exact decide_eq_true one_pos
  constructor
  · intro hle
    have hq : clamp ((v - e0) / (e1 - e0)) 0 1 = (0 : Flt P.fmt) := by
      have : ∀ t : Flt P.fmt, Cmp.lt t 1 = true → Cmp.lt 0 t = false → clamp t 0 1 = 0 := by
        intro t c1 c2
        show (if Cmp.lt (0 : Flt P.fmt) (if Cmp.lt t 1 then t else 1) then (if Cmp.lt t 1 then t else 1) else 0) = _
        rw [c1]; simp only [if_true, c2, Bool.false_eq_true, if_false]
      by_cases hf : (v - e0).isFinite
      · rw [fin_div hf hd dpos.ne']
        have hneg : (v - e0).val / (e1 - e0).val ≤ 0 := by
          refine div_nonpos_of_nonpos_of_nonneg ?_ dpos.le
          rw [Flt.sub_val hf]
          have := P.fl_mono (show v.val - e0.val ≤ 0 by linarith)
          rwa [P.fl_zero] at this
        have hfl := P.fl_mono hneg
        rw [P.fl_zero] at hfl
        refine this _ ?_ ?_
        · rw [Flt.round_lt Flt.one_finite]; exact decide_eq_true (lt_of_le_of_lt hfl one_pos)
        · rw [Flt.lt_round Flt.zero_finite]; exact decide_eq_false (not_lt.2 hfl)
      · have : v - e0 = Flt.ninf := by
          rw [hnum] at hf ⊢
          rw [Flt.round_finite, not_lt] at hf
          have hfl := P.fl_mono (show v.val - e0.val ≤ 0 by linarith)
          rw [P.fl_zero] at hfl
          rw [abs_of_nonpos hfl] at hf
          exact Flt.round_ninf (by linarith)
        rw [this, (inf_div hd dpos).2]
        exact ‹∀ t : Flt P.fmt, Cmp.lt t 1 = true → Cmp.lt 0 t = false → clamp t 0 1 = 0› _
          (decide_eq_true (WithBot.bot_lt_coe _)) (decide_eq_false (fun h => Ext.not_le_bot _ (le_of_lt h)))
    have h := smoothstep_flt (t := (0 : Flt P.fmt)) Flt.zero_finite le_rfl zero_le_one
    show clamp ((v - e0) / (e1 - e0)) 0 1 * clamp ((v - e0) / (e1 - e0)) 0 1 * (3 - 2 * clamp ((v - e0) / (e1 - e0)) 0 1) = 0
    rw [hq]
    exact Flt.ext h.1 Flt.zero_finite (h.2.trans cubic_zero)
  · intro hle
    have hq : clamp ((v - e0) / (e1 - e0)) 0 1 = (1 : Flt P.fmt) := by
      have : ∀ t : Flt P.fmt, Cmp.lt t 1 = false → clamp t 0 1 = 1 := by
        intro t c1
        show (if Cmp.lt (0 : Flt P.fmt) (if Cmp.lt t 1 then t else 1) then (if Cmp.lt t 1 then t else 1) else 0) = _
        rw [c1]; simp only [h01, if_true, Bool.false_eq_true, if_false]
      by_cases hf : (v - e0).isFinite
      · rw [fin_div hf hd dpos.ne']
        have hge : 1 ≤ (v - e0).val / (e1 - e0).val := by
          rw [le_div_iff₀ dpos, one_mul, dval, Flt.sub_val hf]
          exact P.fl_mono (by linarith)
        refine this _ ?_
        rw [Flt.round_lt Flt.one_finite]; exact decide_eq_false (not_lt.2 (P.le_fl_of_rep P.rep_one hge))
      · have hp : v - e0 = Flt.pinf := by
          rw [hnum] at hf ⊢
          rw [Flt.round_finite, not_lt, abs_of_nonneg (P.fl_nonneg (by linarith))] at hf
          exact Flt.round_pinf hf
        rw [hp, (inf_div hd dpos).1]
        exact this _ (decide_eq_false (fun h => Ext.top_not_le _ (le_of_lt h)))
    have h := smoothstep_flt (t := (1 : Flt P.fmt)) Flt.one_finite zero_le_one le_rfl
    show clamp ((v - e0) / (e1 - e0)) 0 1 * clamp ((v - e0) / (e1 - e0)) 0 1 * (3 - 2 * clamp ((v - e0) / (e1 - e0)) 0 1) = 1
    rw [hq]
    exact Flt.ext h.1 Flt.one_finite (h.2.trans cubic_one)

/-- `smoothstep` is not monotone in `float`: close to the upper edge a greater argument gives a smaller result. -/
theorem C99_smoothstep_monotone_fails : ∃ v w : Flt binary32.fmt, v.isFinite ∧ w.isFinite ∧ v.val < w.val ∧
    (smoothstep 0 1 w).val < (smoothstep 0 1 v).val := by
  have r1 : binary32.fmt.rep (16774319 / 2 ^ 24) := rep32 16774319 (-24) (by norm_num) (by norm_num) (by norm_num) (by rw [abs_of_pos] <;> norm_num)
  have r2 : binary32.fmt.rep (16774320 / 2 ^ 24) := rep32 16774320 (-24) (by norm_num) (by norm_num) (by norm_num) (by rw [abs_of_pos] <;> norm_num)
  have key : ∀ (q : ℚ) (hq : binary32.fmt.rep q), 0 ≤ q → q ≤ 1 → (smoothstep 0 1 (Flt.fin q hq : Flt binary32.fmt)).val = cubic binary32 q := by
    intro q hq h0 h1
    have e1 : (Flt.fin q hq - 0 : Flt binary32.fmt) = Flt.fin q hq := by
      rw [Flt.sub_eq (by trivial) Flt.zero_finite, Flt.zero_val, sub_zero]
      exact round_rep hq
    have e2 : (1 - 0 : Flt binary32.fmt) = 1 := by
      rw [Flt.sub_eq Flt.one_finite Flt.zero_finite, Flt.zero_val, sub_zero]
      exact round_rep binary32.fmt.rep_one
    have e3 : (Flt.fin q hq / 1 : Flt binary32.fmt) = Flt.fin q hq := by
      show (if (1 : ℚ) = 0 then Flt.infTimes q else Flt.round (q / 1)) = _
      rw [if_neg one_ne_zero, div_one]
      exact round_rep hq
    have e4 := (clamp01 (Flt.fin q hq : Flt binary32.fmt)).2.2.2 trivial h0 h1
    have h := smoothstep_flt (t := (Flt.fin q hq : Flt binary32.fmt)) trivial h0 h1
    unfold smoothstep
    rw [e1, e2, e3, e4]
    exact h.2
  refine ⟨Flt.fin (F := binary32.fmt) _ r1, Flt.fin (F := binary32.fmt) _ r2, trivial, trivial, ?_, ?_⟩
  · show (16774319 / 2 ^ 24 : ℚ) < 16774320 / 2 ^ 24; norm_num
  · rw [key _ r1 (by norm_num) (by norm_num), key _ r2 (by norm_num) (by norm_num)]
    have a1 : binary32.fl (16774319 / 2 ^ 24 * (16774319 / 2 ^ 24)) = 16771423 / 2 ^ 24 := by
      rw [fl_eval (P := binary32) (-24) 16771423 (by norm_num [binary32]) (by norm_num [binary32, abs_of_pos]) (by norm_num [binary32, abs_of_pos])
        (by norm_num [abs_of_pos])]
      norm_num
    have a2 : binary32.fl (3 - 2 * (16774319 / 2 ^ 24)) = 8391505 / 2 ^ 23 := by
      rw [fl_eval (P := binary32) (-23) 8391505 (by norm_num [binary32]) (by norm_num [binary32, abs_of_pos]) (by norm_num [binary32, abs_of_pos])
        (by norm_num [abs_of_pos])]
      norm_num
    have a3 : binary32.fl (16771423 / 2 ^ 24 * (8391505 / 2 ^ 23)) = 16777215 / 2 ^ 24 := by
      rw [fl_eval (P := binary32) (-24) 16777215 (by norm_num [binary32]) (by norm_num [binary32, abs_of_pos]) (by norm_num [binary32, abs_of_pos])
        (by norm_num [abs_of_pos, abs_lt])]
      norm_num
    have b1 : binary32.fl (16774320 / 2 ^ 24 * (16774320 / 2 ^ 24)) = 16771424 / 2 ^ 24 := by
      rw [fl_eval (P := binary32) (-24) 16771424 (by norm_num [binary32]) (by norm_num [binary32, abs_of_pos]) (by norm_num [binary32, abs_of_pos])
        (by norm_num [abs_of_pos])]
      norm_num
    have b2 : binary32.fl (3 - 2 * (16774320 / 2 ^ 24)) = 8391504 / 2 ^ 23 := by
      rw [fl_eval (P := binary32) (-23) 8391504 (by norm_num [binary32]) (by norm_num [binary32, abs_of_pos]) (by norm_num [binary32, abs_of_pos])
        (by norm_num [abs_of_pos])]
      norm_num
    have b3 : binary32.fl (16771424 / 2 ^ 24 * (8391504 / 2 ^ 23)) = 16777214 / 2 ^ 24 := by
      rw [fl_eval (P := binary32) (-24) 16777214 (by norm_num [binary32]) (by norm_num [binary32, abs_of_pos]) (by norm_num [binary32, abs_of_pos])
        (by norm_num [abs_of_pos, abs_lt])]
      norm_num
    unfold cubic
    rw [a1, a2, a3, b1, b2, b3]
    norm_num

/-- Edges 1 and 3 in `float`: the hypotheses of `C99_smoothstep_edges` are met. -/
example : (3 : Flt binary32.fmt).isFinite ∧ (1 : Flt binary32.fmt).val < (3 : Flt binary32.fmt).val ∧ (3 - 1 : Flt binary32.fmt).isFinite := by
  refine ⟨(Flt.three_eq _).1, by rw [Flt.one_val, (Flt.three_eq _).2]; norm_num, ?_⟩
  rw [Flt.sub_eq (Flt.three_eq _).1 Flt.one_finite, (Flt.three_eq _).2, Flt.one_val]
  exact (Flt.round_between (P := binary32) (a := 0) (b := 3) binary32.fmt.rep_zero
    (by have := Flt.rep_val (3 : Flt binary32.fmt); rwa [(Flt.three_eq _).2] at this) (by norm_num) (by norm_num)).1

/-- The parameter 1/2 satisfies the hypotheses of the theorems about `mix`. -/
example : ∃ a : Flt binary64.fmt, a.isFinite ∧ 0 ≤ a.val ∧ a.val ≤ 1 ∧ a.val ≠ 0 ∧ a.val ≠ 1 := by
  have : binary64.fmt.rep (1 / 2) := ⟨⟨1, -1, by norm_num, by norm_num [binary64], by norm_num [binary64]⟩,
    lt_trans (by norm_num [abs_of_pos]) binary64.one_lt_bound⟩
  exact ⟨Flt.fin (F := binary64.fmt) (1 / 2) this, trivial, show (0 : ℚ) ≤ 1 / 2 by norm_num, show (1 / 2 : ℚ) ≤ 1 by norm_num,
    show (1 / 2 : ℚ) ≠ 0 by norm_num, show (1 / 2 : ℚ) ≠ 1 by norm_num⟩

end vm
