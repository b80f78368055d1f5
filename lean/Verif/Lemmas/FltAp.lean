import Verif.Lemmas.FltEr

/-!
Running error bounds against real numbers: `Ap X k B x y` says that the floating point number `x` is finite and differs from the real number `y`
by at most `k` rounding units of `X`, and that it is at most `B X`.
-/

set_option linter.unusedSectionVars false
set_option linter.unusedSimpArgs false

namespace vm
variable {P : BinPar}

structure Ap (X k B : ℝ) (x : Flt P.fmt) (y : ℝ) : Prop where
  fin : x.isFinite
  err : |(x.val : ℝ) - y| ≤ k * P.u * X
  le : |(x.val : ℝ)| ≤ B * X

/-- The format has at least 10 bits, and numbers of the size `X ≥ 1` are far from overflow. -/
structure ApOk (P : BinPar) (X : ℝ) : Prop where
  u : 1000 * (P.u : ℝ) ≤ 1
  one : 1 ≤ X
  bound : 64 * X < (P.bound : ℝ)

namespace Ap

theorem u_pos (P : BinPar) : (0 : ℝ) < P.u := by exact_mod_cast P.u_pos

theorem eta_le (P : BinPar) : (P.eta : ℝ) ≤ P.u * P.u / 2 := by
  have h : P.eta ≤ P.u * P.u / 2 := by
    unfold BinPar.eta BinPar.u
    rw [← zpow_add₀ (by norm_num), show (2 : ℚ) ^ (-(P.p : ℤ) + -(P.p : ℤ)) / 2 = 2 ^ (-(P.p : ℤ) + -(P.p : ℤ) - 1) from by
      rw [zpow_sub₀ (by norm_num), zpow_one]]
    exact zpow_le_zpow_right₀ (by norm_num) (by have := P.hmin; omega)
  exact_mod_cast h

theorem eta_small {X : ℝ} (h : ApOk P X) : (P.eta : ℝ) ≤ 1 / 2000 * (P.u * X) := by
  have h1 := eta_le P
  have h2 := u_pos P
  have h3 : (P.u : ℝ) * P.u ≤ P.u * (1 / 1000) := mul_le_mul_of_nonneg_left (by linarith [h.u]) h2.le
  have h4 : (P.u : ℝ) ≤ P.u * X := le_mul_of_one_le_right h2.le h.one
  linarith

theorem fl_err_real (P : BinPar) (q : ℚ) : |(P.fl q : ℝ) - q| ≤ P.u * |(q : ℝ)| + P.eta := by
  have := P.fl_err_u q
  have h2 : ((|P.fl q - q| : ℚ) : ℝ) ≤ ((P.u * |q| + P.eta : ℚ) : ℝ) := by exact_mod_cast this
  push_cast at h2
  exact h2

variable {X k B k' B' : ℝ} {x x' : Flt P.fmt} {y y' : ℝ}

theorem mono (h : Ap X k B x y) {k1 B1 : ℝ} (hX : 0 ≤ X) (hk : k ≤ k1) (hB : B ≤ B1) : Ap X k1 B1 x y := by
  have := u_pos P
  exact ⟨h.fin, h.err.trans (by gcongr), h.le.trans (by gcongr)⟩

theorem exact (hf : x.isFinite) (h : |(x.val : ℝ)| ≤ B * X) : Ap X 0 B x x.val := ⟨hf, by simp, h⟩

theorem zero (_ : 0 ≤ X) : Ap X 0 0 (0 : Flt P.fmt) 0 := ⟨Flt.zero_finite, by rw [Flt.zero_val]; simp, by rw [Flt.zero_val]; simp⟩

theorem one : Ap 1 0 1 (1 : Flt P.fmt) 1 := ⟨Flt.one_finite, by rw [Flt.one_val]; simp, by rw [Flt.one_val]; simp⟩

theorem neg (h : Ap X k B x y) : Ap X k B (-x) (-y) := by
  refine ⟨Flt.neg_finite.2 h.fin, ?_, ?_⟩
  · rw [Flt.neg_val]
    push_cast
    rw [show -(x.val : ℝ) - -y = -((x.val : ℝ) - y) by ring, abs_neg]
    exact h.err
  · rw [Flt.neg_val]
    push_cast
    rw [abs_neg]; exact h.le

/-- A rounded result. -/
theorem round {q : ℚ} (hX : ApOk P X) (hq : |(q : ℝ)| ≤ B * X) (hB : B ≤ 16) (hy : |(q : ℝ) - y| ≤ k * P.u * X) (hf : x = Flt.round q) :
    Ap X (k + B + 1 / 2000) (B + 1 / 1000 * B + 1 / 2000) x y := by
  have h1 := hX.one
  have h2 := u_pos P
  have h3 := eta_small hX
  have h5 := hX.bound
  have h6 := hX.u
  have hu : |(q : ℝ)| ≤ 16 * X := hq.trans (mul_le_mul_of_nonneg_right hB (by linarith))
  have hfin : |P.fl q| < P.bound := by
    refine fl_lt_bound ?_
    have : (2 * |(q : ℝ)| + 1) < P.bound := by linarith
    exact_mod_cast this
  have f : (Flt.round q : Flt P.fmt).isFinite := Flt.round_finite.2 hfin
  have v : (Flt.round q : Flt P.fmt).val = P.fl q := Flt.round_val f
  have e := fl_err_real P q
  have e2 : P.u * |(q : ℝ)| ≤ B * (P.u * X) := by
    have := mul_le_mul_of_nonneg_left hq h2.le; linarith
  have e3 : |(P.fl q : ℝ) - q| ≤ B * (P.u * X) + 1 / 2000 * (P.u * X) := by linarith
  have k1 := abs_le.1 e3
  have k2 := abs_le.1 hy
  have k3 := abs_le.1 hq
  subst hf
  refine ⟨f, ?_, ?_⟩
  · rw [v]
    exact abs_le.2 ⟨by linarith, by linarith⟩
  · rw [v]
    have uX : P.u * X ≤ 1 / 1000 * X := mul_le_mul_of_nonneg_right (by linarith) (by linarith)
    have hB0 : 0 ≤ B := by
      by_contra hc
      push Not at hc
      have := abs_nonneg (q : ℝ)
      nlinarith
    have uB : B * (P.u * X) ≤ B * (1 / 1000 * X) := mul_le_mul_of_nonneg_left uX hB0
    have : P.u * X ≤ X := by linarith
    exact abs_le.2 ⟨by linarith, by linarith⟩

theorem add (hX : ApOk P X) (h : Ap X k B x y) (h' : Ap X k' B' x' y') (hB : B + B' ≤ 16) :
    Ap X (k + k' + (B + B') + 1 / 2000) ((B + B') + 1 / 1000 * (B + B') + 1 / 2000) (x + x') (y + y') := by
  have k1 := abs_le.1 h.err
  have k2 := abs_le.1 h'.err
  have k3 := abs_le.1 h.le
  have k4 := abs_le.1 h'.le
  refine round (q := x.val + x'.val) hX ?_ hB ?_ (Flt.add_eq h.fin h'.fin)
  · push_cast
    exact abs_le.2 ⟨by linarith, by linarith⟩
  · push_cast
    exact abs_le.2 ⟨by linarith, by linarith⟩

theorem sub (hX : ApOk P X) (h : Ap X k B x y) (h' : Ap X k' B' x' y') (hB : B + B' ≤ 16) :
    Ap X (k + k' + (B + B') + 1 / 2000) ((B + B') + 1 / 1000 * (B + B') + 1 / 2000) (x - x') (y - y') := by
  rw [sub_eq_add_neg y y']
  exact add hX h h'.neg hB

/-- A product with a number of size 1. -/
theorem mul (hX : ApOk P X) (h : Ap 1 k B x y) (h' : Ap X k' B' x' y') (hk : 0 ≤ k) (hB0 : 0 ≤ B) (_ : 0 ≤ k') (_ : 0 ≤ B') (hB : B * B' ≤ 16) :
    Ap X (k * B' + (B + 1 / 1000 * k) * k' + B * B' + 1 / 2000) (B * B' + 1 / 1000 * (B * B') + 1 / 2000) (x * x') (y * y') := by
  have h1 := hX.one
  have h2 := u_pos P
  have h6 := hX.u
  have e := h.err
  have l := h.le
  rw [mul_one] at e l
  have ku : k * P.u ≤ 1 / 1000 * k := by
    have := mul_le_mul_of_nonneg_left (show (P.u : ℝ) ≤ 1 / 1000 by linarith) hk; linarith
  have hy : |y| ≤ B + 1 / 1000 * k := by
    have k1 := abs_le.1 e
    have k2 := abs_le.1 l
    exact abs_le.2 ⟨by linarith, by linarith⟩
  refine round (q := x.val * x'.val) hX ?_ hB ?_ (Flt.mul_eq h.fin h'.fin)
  · push_cast
    rw [abs_mul]
    calc |(x.val : ℝ)| * |(x'.val : ℝ)| ≤ B * (B' * X) := mul_le_mul l h'.le (abs_nonneg _) hB0
      _ = B * B' * X := by ring
  · push_cast
    have : (x.val : ℝ) * x'.val - y * y' = ((x.val : ℝ) - y) * x'.val + y * ((x'.val : ℝ) - y') := by ring
    rw [this]
    refine (abs_add_le _ _).trans ?_
    rw [abs_mul, abs_mul]
    have m1 : |(x.val : ℝ) - y| * |(x'.val : ℝ)| ≤ k * P.u * (B' * X) := mul_le_mul e h'.le (abs_nonneg _) (by positivity)
    have m2 : |y| * |(x'.val : ℝ) - y'| ≤ (B + 1 / 1000 * k) * (k' * P.u * X) := mul_le_mul hy h'.err (abs_nonneg _) (by positivity)
    linarith

end Ap
end vm
