import Verif.Props.FltPolygon
import Verif.Props.FltGrid
import Verif.Props.FltLength

/-!
Running error bounds: `Er k n x X W` says that the floating point number `x` is finite and differs from `X` by at most `k` rounding units
of the weight `W ≥ |X|` and `n` half units of the smallest positive number.
-/

set_option linter.unusedSectionVars false
set_option linter.unusedSimpArgs false

namespace vm
variable {P : BinPar}

structure Er (k n : ℚ) (x : Flt P.fmt) (X W : ℚ) : Prop where
  fin : x.isFinite
  err : |x.val - X| ≤ k * P.u * W + n * P.eta
  le : |X| ≤ W

namespace Er

variable {k n k' n' X W Y V B : ℚ} {x y : Flt P.fmt}

theorem eta_pos (P : BinPar) : 0 < P.eta := BinPar.two_zpow_pos _

theorem eta_le (P : BinPar) : P.eta ≤ 1 / 128 := by
  unfold BinPar.eta
  calc (2 : ℚ) ^ (P.qmin - 1) ≤ 2 ^ (-7 : ℤ) := zpow_le_zpow_right₀ (by norm_num) (by have := P.hmin; have := P.hp; omega)
    _ = 1 / 128 := by norm_num

theorem nonneg (h : Er k n x X W) : 0 ≤ W := (abs_nonneg _).trans h.le

/-- The computed number in terms of the weight. -/
theorem abs_le (h : Er k n x X W) : |x.val| ≤ W + (k * P.u * W + n * P.eta) := by
  have h1 := abs_sub_abs_le_abs_sub x.val X
  linarith [h.err, h.le]

theorem mono (h : Er k n x X W) {k1 n1 W1 : ℚ} (hk : k ≤ k1) (hn : n ≤ n1) (hk0 : 0 ≤ k1) (hW : W ≤ W1) : Er k1 n1 x X W1 := by
  refine ⟨h.fin, ?_, h.le.trans hW⟩
  have h1 := P.u_pos
  have h2 := eta_pos P
  have h0 := h.nonneg
  calc |x.val - X| ≤ k * P.u * W + n * P.eta := h.err
    _ ≤ k1 * P.u * W1 + n1 * P.eta := by gcongr

theorem inp (h : x.isFinite) : Er 0 0 x x.val |x.val| := ⟨h, by simp, le_refl _⟩

theorem inp_le (h : x.isFinite) (hB : |x.val| ≤ B) : Er 0 0 x x.val B := ⟨h, by simp, hB⟩

theorem neg (h : Er k n x X W) : Er k n (-x) (-X) W := by
  refine ⟨Flt.neg_finite.2 h.fin, ?_, by rw [abs_neg]; exact h.le⟩
  rw [Flt.neg_val, show -x.val - -X = -(x.val - X) by ring, abs_neg]
  exact h.err

theorem add (hx : Er k n x X W) (hy : Er k n' y Y V) (hk : 0 ≤ k) (hn : 0 ≤ n) (hn' : 0 ≤ n')
    (hb : 2 * ((W + V) + (k * P.u * (W + V) + (n + n') * P.eta)) + 1 < P.bound) :
    Er (1 + 9 / 8 * k) (9 / 8 * (n + n')) (x + y) (X + Y) (W + V) := by
  have hu0 := P.u_pos
  have hu := P.u_le
  have he := eta_pos P
  have hW := hx.nonneg
  have hV := hy.nonneg
  have hs : |x.val + y.val| ≤ (W + V) + (k * P.u * (W + V) + (n + n') * P.eta) := by
    have := abs_add_le x.val y.val
    linarith [hx.abs_le, hy.abs_le]
  have i := is_add (P := P) ⟨hx.fin, rfl⟩ ⟨hy.fin, rfl⟩ rfl (fl_lt_bound (by linarith))
  refine ⟨i.1, ?_, (abs_add_le _ _).trans (add_le_add hx.le hy.le)⟩
  rw [i.2]
  have e1 := BinPar.fl_add_err_u (Flt.rep_val x).1 (Flt.rep_val y).1
  have e2 : P.fl (x.val + y.val) - (X + Y) = (P.fl (x.val + y.val) - (x.val + y.val)) + ((x.val - X) + (y.val - Y)) := by ring
  have e3 := abs_add_le (P.fl (x.val + y.val) - (x.val + y.val)) ((x.val - X) + (y.val - Y))
  have e4 := abs_add_le (x.val - X) (y.val - Y)
  have e5 := mul_le_mul_of_nonneg_left hs hu0.le
  have e6 : P.u * (k * P.u * (W + V) + (n + n') * P.eta) ≤ 1 / 8 * (k * P.u * (W + V) + (n + n') * P.eta) :=
    mul_le_mul_of_nonneg_right hu (by positivity)
  rw [e2]
  linarith [hx.err, hy.err]

theorem sub (hx : Er k n x X W) (hy : Er k n' y Y V) (hk : 0 ≤ k) (hn : 0 ≤ n) (hn' : 0 ≤ n')
    (hb : 2 * ((W + V) + (k * P.u * (W + V) + (n + n') * P.eta)) + 1 < P.bound) :
    Er (1 + 9 / 8 * k) (9 / 8 * (n + n')) (x - y) (X - Y) (W + V) := by
  have h := hx.add hy.neg hk hn hn' hb
  rw [sub_eq_add_neg]
  exact h

/-- Multiplication with an exact number. -/
theorem mul (hx : Er k n x X W) (hy : y.isFinite) (hB : |y.val| ≤ B) (hk : 0 ≤ k) (hn : 0 ≤ n)
    (hb : 2 * (B * (W + (k * P.u * W + n * P.eta))) + 1 < P.bound) :
    Er (1 + 9 / 8 * k) (1 + 9 / 8 * (n * B)) (x * y) (X * y.val) (W * |y.val|) := by
  have hu0 := P.u_pos
  have hu := P.u_le
  have he := eta_pos P
  have hW := hx.nonneg
  have hy0 := abs_nonneg y.val
  have hs : |x.val * y.val| ≤ |y.val| * (W + (k * P.u * W + n * P.eta)) := by
    rw [abs_mul, mul_comm]
    exact mul_le_mul_of_nonneg_left hx.abs_le hy0
  have hE : 0 ≤ k * P.u * W + n * P.eta := by positivity
  have hs' : |y.val| * (W + (k * P.u * W + n * P.eta)) ≤ B * (W + (k * P.u * W + n * P.eta)) := mul_le_mul_of_nonneg_right hB (by linarith)
  have i := is_mul (P := P) ⟨hx.fin, rfl⟩ ⟨hy, rfl⟩ rfl (fl_lt_bound (by linarith))
  refine ⟨i.1, ?_, by rw [abs_mul]; exact mul_le_mul_of_nonneg_right hx.le hy0⟩
  rw [i.2]
  have e1 := P.fl_err_u (x.val * y.val)
  have e2 : P.fl (x.val * y.val) - X * y.val = (P.fl (x.val * y.val) - x.val * y.val) + (x.val - X) * y.val := by ring
  have e3 := abs_add_le (P.fl (x.val * y.val) - x.val * y.val) ((x.val - X) * y.val)
  have e4 : |(x.val - X) * y.val| ≤ (k * P.u * W + n * P.eta) * |y.val| := by
    rw [abs_mul]; exact mul_le_mul_of_nonneg_right hx.err hy0
  have e5 := mul_le_mul_of_nonneg_left hs hu0.le
  have e6 : P.u * (|y.val| * (k * P.u * W + n * P.eta)) ≤ 1 / 8 * (|y.val| * (k * P.u * W + n * P.eta)) :=
    mul_le_mul_of_nonneg_right hu (by positivity)
  have e7 : n * P.eta * |y.val| ≤ n * P.eta * B := mul_le_mul_of_nonneg_left hB (by positivity)
  rw [e2]
  nlinarith

/-- Multiplication with two. -/
theorem double (hx : Er k n x X W) (hb : 2 * (2 * (W + (k * P.u * W + n * P.eta))) + 1 < P.bound) :
    Er k (2 * n) (2 * x) (2 * X) (2 * W) := by
  have hs : |2 * x.val| ≤ 2 * (W + (k * P.u * W + n * P.eta)) := by
    rw [abs_mul, abs_two]; linarith [hx.abs_le]
  have h1 := fl_lt_bound (P := P) (q := 2 * x.val) (by linarith)
  have i := is_mul (P := P) (Flt.two_eq P) ⟨hx.fin, rfl⟩ rfl h1
  rw [P.fl_rep (Flt.rep_val x).1.double] at i
  refine ⟨i.1, ?_, by rw [abs_mul, abs_two]; linarith [hx.le]⟩
  rw [i.2, ← mul_sub, abs_mul, abs_two]
  linarith [hx.err]

end Er
end vm
