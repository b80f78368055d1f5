import Verif.Model.CubicG
import Verif.Lemmas.Solve
import Verif.Lemmas.FltAng
import Verif.Props.FltQuadratic
import Verif.Props.FltRot

/-! Helper lemmas about `solve_cubic` in IEEE arithmetic. -/

set_option linter.unusedSectionVars false
set_option linter.unusedSimpArgs false

namespace vm
variable {P : BinPar}

/-- The function `cb` computes the cube root with a relative error of at most two rounding errors (and half of the least positive number). -/
structure AccurateCbrt (P : BinPar) (cb : Flt P.fmt → Flt P.fmt) : Prop where
  fin : ∀ x, x.isFinite → (cb x).isFinite
  err : ∀ x, x.isFinite → |((cb x).val : ℝ) - cbrt x.val| ≤ 2 * P.u * |cbrt x.val| + P.eta

namespace FltCub
open FltRot FltAng
open BinPar (zpow_add2 two_zpow_pos)

/-- The cube root is continuous with exponent one third. -/
theorem cube_holder (a b : ℝ) : |a - b| ^ 3 ≤ 4 * |a ^ 3 - b ^ 3| := by
  have key : ∀ a b : ℝ, b ≤ a → (a - b) ^ 3 ≤ 4 * (a ^ 3 - b ^ 3) := fun a b h => by
    nlinarith [mul_nonneg (sub_nonneg.2 h) (sq_nonneg (a + b))]
  have mono : ∀ a b : ℝ, b ≤ a → b ^ 3 ≤ a ^ 3 := fun a b h => by
    nlinarith [mul_nonneg (sub_nonneg.2 h) (sq_nonneg (a + b)), mul_nonneg (sub_nonneg.2 h) (sq_nonneg (a - b))]
  rcases le_total b a with h | h
  · rw [abs_of_nonneg (by linarith : 0 ≤ a - b), abs_of_nonneg (by linarith [mono a b h])]
    exact key a b h
  · rw [abs_sub_comm a, abs_sub_comm (a ^ 3), abs_of_nonneg (by linarith : 0 ≤ b - a), abs_of_nonneg (by linarith [mono b a h])]
    exact key b a h

theorem cbrt_holder (x y : ℝ) : |cbrt x - cbrt y| ^ 3 ≤ 4 * |x - y| := by
  have := cube_holder (cbrt x) (cbrt y)
  rwa [cbrt_pow, cbrt_pow] at this

theorem le_of_cube {x y : ℝ} (hy : 0 ≤ y) (h : x ^ 3 ≤ y ^ 3) : x ≤ y := by
  by_contra hc
  rw [not_le] at hc
  have : y ^ 3 < x ^ 3 := pow_lt_pow_left₀ hc hy (by norm_num)
  linarith

theorem cbrt_nonneg {x : ℝ} (h : 0 ≤ x) : 0 ≤ cbrt x := by
  unfold cbrt
  rw [if_pos h]
  positivity

theorem abs_cbrt_le {x y : ℝ} (hy : 0 ≤ y) (h : |x| ≤ y ^ 3) : |cbrt x| ≤ y := by
  refine le_of_cube hy ?_
  rw [← abs_pow, cbrt_pow]
  exact h

/-- A number of the format next to a real number. -/
theorem near_exists' (hp : 10 ≤ P.p) {y : ℝ} (h1 : 4 * |y| < P.bound) :
    ∃ x : Flt P.fmt, x.isFinite ∧ |(x.val : ℝ) - y| ≤ 2 * P.u * |y| + P.eta := by
  have ok := ok_one hp
  have u0 := Ap.u_pos P
  have hu := ok.u
  rcases eq_or_ne y 0 with rfl | hy
  · exact ⟨0, Flt.zero_finite, by simp [Flt.zero_val]; exact_mod_cast (Er.eta_pos P).le⟩
  have y0 : 0 < |y| := abs_pos.2 hy
  have : (0 : ℝ) < P.u / 4 * |y| := by positivity
  obtain ⟨q, hq1, hq2⟩ := exists_rat_btwn (show y - P.u / 4 * |y| < y + P.u / 4 * |y| by linarith)
  have q2 : |(q : ℝ) - y| ≤ P.u / 4 * |y| := abs_le.2 ⟨by linarith, by linarith⟩
  have q1 : |(q : ℝ)| ≤ (1 + P.u / 4) * |y| := by
    have := abs_add_le ((q : ℝ) - y) y
    rw [sub_add_cancel] at this
    linarith
  have uy : P.u * |y| ≤ 0.001 * |y| := mul_le_mul_of_nonneg_right (by linarith) y0.le
  have hf : |P.fl q| < P.bound := by
    refine fl_lt_bound ?_
    have : (64 : ℝ) * 1 < P.bound := ok.bound
    have : 2 * |(q : ℝ)| + 1 < P.bound := by linarith
    exact_mod_cast this
  have f : (Flt.round q : Flt P.fmt).isFinite := Flt.round_finite.2 hf
  have v : (Flt.round q : Flt P.fmt).val = P.fl q := Flt.round_val f
  refine ⟨_, f, ?_⟩
  rw [v]
  have e := Ap.fl_err_real P q
  have k1 := abs_le.1 q2
  have k2 := abs_le.1 e
  have m1 : P.u * |(q : ℝ)| ≤ P.u * ((1 + P.u / 4) * |y|) := mul_le_mul_of_nonneg_left q1 u0.le
  have m2 : P.u * (P.u * |y|) ≤ P.u * |y| := by
    have : P.u * |y| ≤ |y| := by linarith
    exact mul_le_mul_of_nonneg_left this u0.le
  exact abs_le.2 ⟨by nlinarith, by nlinarith⟩

/-- There are accurate cube roots. -/
theorem exists_cbrt (hp : 10 ≤ P.p) : ∃ cb : Flt P.fmt → Flt P.fmt, AccurateCbrt P cb := by
  have ok := ok_one hp
  have hb : (64 : ℝ) * 1 < P.bound := ok.bound
  have h : ∀ x : Flt P.fmt, ∃ y : Flt P.fmt, x.isFinite → y.isFinite ∧ |(y.val : ℝ) - cbrt x.val| ≤ 2 * P.u * |cbrt x.val| + P.eta := by
    intro x
    by_cases hx : x.isFinite
    · have hq : |x.val| < P.bound := (Flt.rep_val x).2
      have hq' : |(x.val : ℝ)| < P.bound := by exact_mod_cast hq
      have hle : |cbrt x.val| ≤ P.bound / 8 := by
        refine abs_cbrt_le (by linarith) ?_
        have : (512 : ℝ) * P.bound ≤ P.bound ^ 3 := by nlinarith [mul_pos (by linarith : (0 : ℝ) < P.bound) (by linarith : (0 : ℝ) < P.bound)]
        have e : ((P.bound : ℝ) / 8) ^ 3 = (P.bound : ℝ) ^ 3 / 512 := by ring
        rw [e]
        linarith
      obtain ⟨y, h1, h2⟩ := near_exists' (P := P) hp (y := cbrt x.val) (by linarith)
      exact ⟨y, fun _ => ⟨h1, h2⟩⟩
    · exact ⟨x, fun h => absurd h hx⟩
  choose cb hcb using h
  exact ⟨cb, fun x hx => (hcb x hx).1, fun x hx => (hcb x hx).2⟩

/-! ### Single operations -/

theorem mul_err {x y : Flt P.fmt} (hx : x.isFinite) (hy : y.isFinite) (hb : 2 * |(x.val : ℝ) * y.val| + 1 < P.bound) :
    (x * y).isFinite ∧ |((x * y).val : ℝ) - x.val * y.val| ≤ P.u * |(x.val : ℝ) * y.val| + P.eta := by
  obtain ⟨h1, h2⟩ := is_mul (P := P) ⟨hx, rfl⟩ ⟨hy, rfl⟩ rfl (fl_lt_bound (by exact_mod_cast hb))
  refine ⟨h1, ?_⟩
  rw [h2]
  have := Ap.fl_err_real P (x.val * y.val)
  push_cast at this
  exact this

theorem div_err {x y : Flt P.fmt} (hx : x.isFinite) (hy : y.isFinite) (h0 : y.val ≠ 0) (hb : 2 * |(x.val : ℝ) / y.val| + 1 < P.bound) :
    (x / y).isFinite ∧ |((x / y).val : ℝ) - x.val / y.val| ≤ P.u * |(x.val : ℝ) / y.val| + P.eta := by
  obtain ⟨h1, h2⟩ := is_div (P := P) ⟨hx, rfl⟩ ⟨hy, rfl⟩ h0 rfl (fl_lt_bound (by exact_mod_cast hb))
  refine ⟨h1, ?_⟩
  rw [h2]
  have := Ap.fl_err_real P (x.val / y.val)
  push_cast at this
  exact this

theorem add_err {x y : Flt P.fmt} (hx : x.isFinite) (hy : y.isFinite) (hb : 2 * |(x.val : ℝ) + y.val| + 1 < P.bound) :
    (x + y).isFinite ∧ |((x + y).val : ℝ) - (x.val + y.val)| ≤ P.u * |(x.val : ℝ) + y.val| := by
  obtain ⟨h1, h2⟩ := is_add (P := P) ⟨hx, rfl⟩ ⟨hy, rfl⟩ rfl (fl_lt_bound (by exact_mod_cast hb))
  refine ⟨h1, ?_⟩
  rw [h2]
  exact_mod_cast P.fl_add_err_u (Flt.rep_val x).1 (Flt.rep_val y).1

theorem sub_err {x y : Flt P.fmt} (hx : x.isFinite) (hy : y.isFinite) (hb : 2 * |(x.val : ℝ) - y.val| + 1 < P.bound) :
    (x - y).isFinite ∧ |((x - y).val : ℝ) - (x.val - y.val)| ≤ P.u * |(x.val : ℝ) - y.val| := by
  obtain ⟨h1, h2⟩ := is_sub (P := P) ⟨hx, rfl⟩ ⟨hy, rfl⟩ rfl (fl_lt_bound (by exact_mod_cast hb))
  refine ⟨h1, ?_⟩
  rw [h2]
  exact_mod_cast P.fl_sub_err_u (Flt.rep_val x).1 (Flt.rep_val y).1

/-- `x` is a finite number near `y`, with a relative error of `k` rounding errors. -/
def Rl (k : ℝ) (x : Flt P.fmt) (y : ℝ) : Prop := x.isFinite ∧ |(x.val : ℝ) - y| ≤ k * P.u * |y|

theorem Rl.exact {x : Flt P.fmt} (h : x.isFinite) : Rl 0 x x.val := ⟨h, by simp⟩

theorem Rl.neg {k : ℝ} {x : Flt P.fmt} {y : ℝ} (h : Rl k x y) : Rl k (-x) (-y) := by
  refine ⟨Flt.neg_finite.2 h.1, ?_⟩
  rw [Flt.neg_val, abs_neg]
  push_cast
  rw [show -(x.val : ℝ) - -y = -((x.val : ℝ) - y) by ring, abs_neg]
  exact h.2

theorem Rl.mul {k l : ℝ} {x x' : Flt P.fmt} {y y' : ℝ} (hp : 10 ≤ P.p) (h : Rl k x y) (h' : Rl l x' y') (hk : 0 ≤ k) (hl : 0 ≤ l) (hkl : k * l ≤ 100)
    (hs : k + l ≤ 32) (hb : |y * y'| ≤ P.bound / 8) (lo : y * y' = 0 ∨ 2 * P.eta ≤ P.u * |y * y'|) : Rl (k + l + 2) (x * x') (y * y') := by
  have ok := ok_one hp
  have u0 := Ap.u_pos P
  have hu := ok.u
  have hB : (64 : ℝ) * 1 < P.bound := ok.bound
  have z0 := abs_nonneg (y * y')
  have e1 : |(x.val : ℝ) * x'.val - y * y'| ≤ (k + l + 1 / 8) * P.u * |y * y'| := by
    have : (x.val : ℝ) * x'.val - y * y' = (x.val - y) * (x'.val - y') + (x.val - y) * y' + y * (x'.val - y') := by ring
    rw [this]
    have a1 : |((x.val : ℝ) - y) * (x'.val - y')| ≤ (k * P.u * |y|) * (l * P.u * |y'|) := by
      rw [abs_mul]; exact mul_le_mul h.2 h'.2 (abs_nonneg _) (by positivity)
    have a2 : |((x.val : ℝ) - y) * y'| ≤ (k * P.u * |y|) * |y'| := by rw [abs_mul]; exact mul_le_mul_of_nonneg_right h.2 (abs_nonneg _)
    have a3 : |y * ((x'.val : ℝ) - y')| ≤ |y| * (l * P.u * |y'|) := by rw [abs_mul]; exact mul_le_mul_of_nonneg_left h'.2 (abs_nonneg _)
    have t1 := abs_add_le (((x.val : ℝ) - y) * (x'.val - y') + (x.val - y) * y') (y * (x'.val - y'))
    have t2 := abs_add_le (((x.val : ℝ) - y) * (x'.val - y')) ((x.val - y) * y')
    have e : |y| * |y'| = |y * y'| := (abs_mul _ _).symm
    have b1 : (k * P.u * |y|) * (l * P.u * |y'|) ≤ 1 / 8 * P.u * |y * y'| := by
      have : (k * P.u * |y|) * (l * P.u * |y'|) = (k * l * P.u) * (P.u * |y * y'|) := by rw [← e]; ring
      rw [this, mul_assoc (1 / 8 : ℝ)]
      refine mul_le_mul_of_nonneg_right ?_ (by positivity)
      nlinarith
    have b2 : (k * P.u * |y|) * |y'| = k * P.u * |y * y'| := by rw [← e]; ring
    have b3 : |y| * (l * P.u * |y'|) = l * P.u * |y * y'| := by rw [← e]; ring
    linarith
  have e2 : |(x.val : ℝ) * x'.val| ≤ 1.05 * |y * y'| := by
    have := abs_add_le ((x.val : ℝ) * x'.val - y * y') (y * y')
    rw [sub_add_cancel] at this
    have : (k + l + 1 / 8) * P.u * |y * y'| ≤ 0.05 * |y * y'| := mul_le_mul_of_nonneg_right (by nlinarith) z0
    linarith
  obtain ⟨f, e3⟩ := mul_err h.1 h'.1 (by linarith)
  refine ⟨f, ?_⟩
  rcases lo with lo | lo
  · rw [lo, abs_zero, mul_zero] at e2 e1
    have z : (x.val : ℝ) * x'.val = 0 := abs_nonpos_iff.1 e2
    have z' : x.val * x'.val = 0 := by exact_mod_cast z
    rw [lo, Flt.mul_val f, z', P.fl_zero]
    simp
  · have := abs_add_le (((x * x').val : ℝ) - x.val * x'.val) ((x.val : ℝ) * x'.val - y * y')
    rw [sub_add_sub_cancel] at this
    have m : P.u * |(x.val : ℝ) * x'.val| ≤ P.u * (1.05 * |y * y'|) := mul_le_mul_of_nonneg_left e2 u0.le
    have uz : 0 ≤ P.u * |y * y'| := by positivity
    linarith

/-! ### The substitution -/

/-- The coefficients `c` and `d` are finite and the terms of the discriminant of `x³ + c x + d` are neither too large nor too small. -/
structure CubicOk (c d : Flt P.fmt) : Prop where
  cf : c.isFinite
  df : d.isFinite
  chi : |(c.val : ℝ)| ^ 3 ≤ P.bound
  dhi : (d.val : ℝ) ^ 2 ≤ P.bound / 4
  clo : c.val = 0 ∨ 54 * (P.eta : ℝ) ≤ P.u * |(c.val : ℝ)| ^ 3
  dlo : d.val = 0 ∨ 8 * (P.eta : ℝ) ≤ P.u * (d.val : ℝ) ^ 2

theorem third_rl (hP : P = binary32 ∨ P = binary64) : Rl 2 (P.literal (1 / 3)) (1 / 3) := by
  rcases hP with rfl | rfl
  · have h1 : binary64.fl (1 / 3) = 6004799503160661 / 2 ^ 54 := by fl_num (-54) (6004799503160661)
    have h2 : binary32.fl (6004799503160661 / 2 ^ 54) = 11184811 / 2 ^ 25 := by fl_num (-25) (11184811)
    have := is_round (P := binary32) h2 (lt_bound32 (by norm_num))
    unfold BinPar.literal
    rw [h1]
    refine ⟨this.1, ?_⟩
    rw [this.2]
    have : ((binary32.u : ℚ) : ℝ) = 1 / 2 ^ 24 := by norm_num [BinPar.u, binary32]
    rw [this]
    norm_num [abs_le]
  · have h1 : binary64.fl (1 / 3) = 6004799503160661 / 2 ^ 54 := by fl_num (-54) (6004799503160661)
    have h2 : binary64.fl (6004799503160661 / 2 ^ 54) = 6004799503160661 / 2 ^ 54 := by fl_num (-54) (6004799503160661)
    have := is_round (P := binary64) h2 (lt_bound64 (by norm_num))
    unfold BinPar.literal
    rw [h1]
    refine ⟨this.1, ?_⟩
    rw [this.2]
    have : ((binary64.u : ℚ) : ℝ) = 1 / 2 ^ 53 := by norm_num [BinPar.u, binary64]
    rw [this]
    norm_num [abs_le]

theorem half_rl (hP : P = binary32 ∨ P = binary64) : Rl 0 (P.literal (1 / 2)) (1 / 2) := by
  have h1 : binary64.fl (1 / 2) = 1 / 2 := by fl_num (-53) (4503599627370496)
  rcases hP with rfl | rfl
  · have h2 : binary32.fl (1 / 2) = 1 / 2 := by fl_num (-24) (8388608)
    have := is_round (P := binary32) h2 (lt_bound32 (by norm_num))
    unfold BinPar.literal
    rw [h1]
    exact ⟨this.1, by rw [this.2]; norm_num⟩
  · have := is_round (P := binary64) h1 (lt_bound64 (by norm_num))
    unfold BinPar.literal
    rw [h1]
    exact ⟨this.1, by rw [this.2]; norm_num⟩

theorem twt_fin (hP : P = binary32 ∨ P = binary64) : (P.literal (2 / 27)).isFinite := by
  have h1 : binary64.fl (2 / 27) = 5337599558365032 / 2 ^ 56 := by fl_num (-56) (5337599558365032)
  rcases hP with rfl | rfl
  · have h2 : binary32.fl (5337599558365032 / 2 ^ 56) = 9942054 / 2 ^ 27 := by fl_num (-27) (9942054)
    have := is_round (P := binary32) h2 (lt_bound32 (by norm_num))
    unfold BinPar.literal
    rw [h1]
    exact this.1
  · have h2 : binary64.fl (5337599558365032 / 2 ^ 56) = 5337599558365032 / 2 ^ 56 := by fl_num (-56) (5337599558365032)
    have := is_round (P := binary64) h2 (lt_bound64 (by norm_num))
    unfold BinPar.literal
    rw [h1]
    exact this.1

/-- Without a quadratic term the substitution is two products. -/
theorem no_square {s cb ac cs : Flt P.fmt → Flt P.fmt} {pi third half twt c d e : Flt P.fmt} (h3 : third.isFinite) (ht : twt.isFinite)
    (hc : c.isFinite) :
    solveCubicG s cb ac cs pi Flt.nan third half twt 1 0 c d e =
      resubstituteG (solveDepressedG s cb ac cs pi Flt.nan third (third * c) (half * d) e) 0 := by
  unfold solveCubicG
  have z : (0 : Flt P.fmt).isFinite := Flt.zero_finite
  have e1 : -third * (0 : Flt P.fmt) = 0 := Flt.mul_zero_fin (Flt.neg_finite.2 h3)
  have e2 : third * (0 : Flt P.fmt) = 0 := Flt.mul_zero_fin h3
  have e3 : twt * (0 : Flt P.fmt) = 0 := Flt.mul_zero_fin ht
  have e4 : (0 : Flt P.fmt) * 0 = 0 := Flt.mul_zero_fin z
  have e5 : (0 : Flt P.fmt) * c = 0 := Flt.zero_mul_fin hc
  have e6 : (0 : Flt P.fmt) - 0 = 0 := by
    rw [Flt.sub_eq z z, sub_self]
    exact Flt.ext (Flt.round_finite.2 (by rw [P.fl_zero, abs_zero]; exact P.bound_pos)) z
      (by rw [Flt.round_val (Flt.round_finite.2 (by rw [P.fl_zero, abs_zero]; exact P.bound_pos)), P.fl_zero, Flt.zero_val])
  simp only [Flt.div_one', e1, e2, e3, e4, e5, e6, Flt.zero_add']


/-- A number whose power is not too small is not too small. -/
theorem lo_of_pow {x : ℝ} (h0 : 0 ≤ x) {m n : ℕ} (hmn : m ≤ n) (h : 2 * (P.eta : ℝ) ≤ P.u * x ^ n) : 2 * (P.eta : ℝ) ≤ P.u * x ^ m := by
  have u0 := Ap.u_pos P
  rcases le_total x 1 with h1 | h1
  · exact h.trans (mul_le_mul_of_nonneg_left (pow_le_pow_of_le_one h0 h1 hmn) u0.le)
  · have h2 : (1 : ℝ) ≤ x ^ m := one_le_pow₀ h1
    have h3 := Ap.eta_le P
    have h4 : (P.u : ℝ) ≤ 1 / 8 := by
      have := P.u_le
      have h5 : ((P.u : ℚ) : ℝ) ≤ ((1 / 8 : ℚ) : ℝ) := by exact_mod_cast this
      push_cast at h5
      exact h5
    have h5 : (P.u : ℝ) * 1 ≤ P.u * x ^ m := mul_le_mul_of_nonneg_left h2 u0.le
    nlinarith

/-- A number whose power is not too large is not too large. -/
theorem hi_of_pow {x B : ℝ} (h0 : 0 ≤ x) (hB : 1 ≤ B) {m n : ℕ} (hmn : m ≤ n) (h : x ^ n ≤ B) : x ^ m ≤ B := by
  rcases le_total x 1 with h1 | h1
  · exact (pow_le_one₀ h0 h1).trans hB
  · exact (pow_le_pow_right₀ h1 hmn).trans h

/-- The terms of the computed discriminant. -/
theorem parts (hP : P = binary32 ∨ P = binary64) {c d : Flt P.fmt} (h : CubicOk c d) :
    let p := P.literal (1 / 3) * c
    let q := P.literal (1 / 2) * d
    Rl 4 p (c.val / 3) ∧ Rl 2 q (d.val / 2) ∧ Rl 16 (p * p * p) ((c.val / 3 : ℝ) ^ 3) ∧ Rl 6 (q * q) ((d.val / 2 : ℝ) ^ 2) ∧
    (q * q + p * p * p).isFinite ∧ |((q * q + p * p * p).val : ℝ) - ((d.val / 2 : ℝ) ^ 2 + (c.val / 3 : ℝ) ^ 3)| ≤
      18 * P.u * ((d.val / 2 : ℝ) ^ 2 + |(c.val / 3 : ℝ)| ^ 3) := by
  have hp := fmt_p hP
  have ok := ok_one hp
  have u0 := Ap.u_pos P
  have hu := ok.u
  have hB : (64 : ℝ) * 1 < P.bound := ok.bound
  intro p q
  obtain ⟨hc, hd, chi, dhi, clo, dlo⟩ := h
  have ht : (c.val / 3 : ℝ) = 1 / 3 * c.val := by ring
  have hs : (d.val / 2 : ℝ) = 1 / 2 * d.val := by ring
  have tl : (c.val / 3 : ℝ) = 0 ∨ 2 * (P.eta : ℝ) ≤ P.u * |(c.val / 3 : ℝ)| ^ 3 := by
    rcases clo with h | h
    · left; rw [h]; simp
    · right
      have : |(c.val / 3 : ℝ)| = |(c.val : ℝ)| / 3 := by rw [abs_div]; norm_num
      rw [this, div_pow]
      linarith
  have sl : (d.val / 2 : ℝ) = 0 ∨ 2 * (P.eta : ℝ) ≤ P.u * |(d.val / 2 : ℝ)| ^ 2 := by
    rcases dlo with h | h
    · left; rw [h]; simp
    · right
      rw [sq_abs, div_pow]
      linarith
  have th : |(c.val / 3 : ℝ)| ^ 3 ≤ P.bound / 27 := by
    have : |(c.val / 3 : ℝ)| = |(c.val : ℝ)| / 3 := by rw [abs_div]; norm_num
    rw [this, div_pow]
    linarith
  have sh : |(d.val / 2 : ℝ)| ^ 2 ≤ P.bound / 16 := by
    rw [sq_abs, div_pow]
    linarith
  generalize hT : (c.val / 3 : ℝ) = t at *
  generalize hS : (d.val / 2 : ℝ) = s at *
  have t0 := abs_nonneg t
  have s0 := abs_nonneg s
  have th1 := hi_of_pow (m := 1) t0 (by linarith) (by norm_num) th
  have th2 := hi_of_pow (m := 2) t0 (by linarith) (by norm_num) th
  have sh1 := hi_of_pow (m := 1) s0 (by linarith) (by norm_num) sh
  rw [pow_one] at th1 sh1
  have r1 : Rl 4 p t := by
    have := Rl.mul (l := 0) hp (third_rl hP) (Rl.exact hc) (by norm_num) le_rfl (by norm_num) (by norm_num) (by rw [← ht]; linarith)
      (by rw [← ht]; exact tl.imp_right fun h => by have := lo_of_pow (m := 1) t0 (by norm_num) h; rwa [pow_one] at this)
    rw [← ht] at this
    norm_num at this
    exact this
  have r2 : Rl 2 q s := by
    have := Rl.mul (l := 0) hp (half_rl hP) (Rl.exact hd) (by norm_num) le_rfl (by norm_num) (by norm_num) (by rw [← hs]; linarith)
      (by rw [← hs]; exact sl.imp_right fun h => by have := lo_of_pow (m := 1) s0 (by norm_num) h; rwa [pow_one] at this)
    rw [← hs] at this
    norm_num at this
    exact this
  have a2 : |t * t| = |t| ^ 2 := by rw [abs_mul, sq]
  have a3 : |t * t * t| = |t| ^ 3 := by rw [abs_mul, abs_mul]; ring
  have a4 : |s * s| = |s| ^ 2 := by rw [abs_mul, sq]
  have r3 : Rl 10 (p * p) (t * t) := by
    have := Rl.mul hp r1 r1 (by norm_num) (by norm_num) (by norm_num) (by norm_num) (by rw [a2]; linarith)
      (by rw [a2]; exact tl.imp (fun h => by rw [h, mul_zero]) fun h => lo_of_pow t0 (by norm_num) h)
    norm_num at this
    exact this
  have r4 : Rl 16 (p * p * p) (t ^ 3) := by
    have := Rl.mul hp r3 r1 (by norm_num) (by norm_num) (by norm_num) (by norm_num) (by rw [a3]; linarith)
      (by rw [a3]; exact tl.imp (fun h => by rw [h, mul_zero]) fun h => h)
    rw [show t ^ 3 = t * t * t by ring]
    norm_num at this
    exact this
  have r5 : Rl 6 (q * q) (s ^ 2) := by
    have := Rl.mul hp r2 r2 (by norm_num) (by norm_num) (by norm_num) (by norm_num) (by rw [a4]; linarith)
      (by rw [a4]; exact sl.imp (fun h => by rw [h, mul_zero]) fun h => h)
    rw [show s ^ 2 = s * s by ring]
    norm_num at this
    exact this
  refine ⟨r1, r2, r4, r5, ?_⟩
  have e4 := r4.2
  have e5 := r5.2
  rw [abs_pow] at e4
  rw [abs_of_nonneg (sq_nonneg s)] at e5
  have n1 : 0 ≤ |t| ^ 3 := by positivity
  have n2 : 0 ≤ s ^ 2 := sq_nonneg s
  rw [sq_abs] at sh
  have d1 : |((q * q).val : ℝ) + (p * p * p).val - (s ^ 2 + t ^ 3)| ≤ 6 * P.u * s ^ 2 + 16 * P.u * |t| ^ 3 := by
    have := abs_add_le (((q * q).val : ℝ) - s ^ 2) ((p * p * p).val - t ^ 3)
    rw [show ((q * q).val : ℝ) + (p * p * p).val - (s ^ 2 + t ^ 3) = ((q * q).val : ℝ) - s ^ 2 + ((p * p * p).val - t ^ 3) by ring]
    linarith
  have d2 : |((q * q).val : ℝ) + (p * p * p).val| ≤ 1.1 * (s ^ 2 + |t| ^ 3) := by
    have k1 := abs_add_le (((q * q).val : ℝ) + (p * p * p).val - (s ^ 2 + t ^ 3)) (s ^ 2 + t ^ 3)
    rw [sub_add_cancel] at k1
    have k2 := abs_add_le (s ^ 2) (t ^ 3)
    rw [abs_of_nonneg n2, abs_pow] at k2
    have k3 : P.u * s ^ 2 ≤ 0.001 * s ^ 2 := mul_le_mul_of_nonneg_right (by linarith) n2
    have k4 : P.u * |t| ^ 3 ≤ 0.001 * |t| ^ 3 := mul_le_mul_of_nonneg_right (by linarith) n1
    linarith
  obtain ⟨f, e6⟩ := add_err (x := q * q) (y := p * p * p) r5.1 r4.1 (by linarith)
  refine ⟨f, ?_⟩
  have k1 := abs_add_le (((q * q + p * p * p).val : ℝ) - (((q * q).val : ℝ) + (p * p * p).val)) (((q * q).val : ℝ) + (p * p * p).val - (s ^ 2 + t ^ 3))
  rw [sub_add_sub_cancel] at k1
  have k2 : P.u * |((q * q).val : ℝ) + (p * p * p).val| ≤ P.u * (1.1 * (s ^ 2 + |t| ^ 3)) := mul_le_mul_of_nonneg_left d2 u0.le
  have k3 : 0 ≤ P.u * s ^ 2 := by positivity
  have k4 : 0 ≤ P.u * |t| ^ 3 := by positivity
  linarith


/-! ### One solution -/

theorem sqrt_rl (hp : 10 ≤ P.p) {f : Flt P.fmt → Flt P.fmt} (hf : FaithfulSqrt P f) {x : Flt P.fmt} {k y : ℝ} (hk : 0 ≤ k) (hk1 : k ≤ 20) (h : Rl k x y) (hy : 0 < y) :
    0 ≤ x.val ∧ 0 ≤ (f x).val ∧ Rl (k + 3) (f x) (Real.sqrt y) := by
  have u0 := Ap.u_pos P
  have hu := (ok_one hp).u
  obtain ⟨h1, h2⟩ := h
  rw [abs_of_pos hy] at h2
  have ku : k * P.u ≤ 0.02 := by nlinarith
  have kuy : k * P.u * y ≤ 0.02 * y := mul_le_mul_of_nonneg_right ku hy.le
  obtain ⟨l1, l2⟩ := abs_le.1 h2
  have x0 : 0 ≤ (x.val : ℝ) := by linarith
  have x0' : 0 ≤ x.val := by exact_mod_cast x0
  obtain ⟨k1, k2⟩ := Flt.eq_fin h1
  obtain ⟨r, hr, h3, h4⟩ := hf.fin x.val k1 x0'
  obtain ⟨g1, g2⟩ := h4.sq k1 x0'
  have r0 : (0 : ℝ) ≤ r := by exact_mod_cast h4.1
  have g1' : (r : ℝ) ^ 2 ≤ x.val * (1 + 2 * P.u) ^ 2 := by exact_mod_cast g1
  have g2' : (x.val : ℝ) ≤ r ^ 2 * (1 + 2 * P.u) ^ 2 := by exact_mod_cast g2
  have e : f x = Flt.fin r hr := by rw [k2]; exact h3
  have sx := Real.sq_sqrt x0
  have sy := Real.sq_sqrt hy.le
  have sx0 := Real.sqrt_nonneg (x.val : ℝ)
  have sy0 := Real.sqrt_pos.2 hy
  set X := Real.sqrt (x.val : ℝ)
  set Y := Real.sqrt y
  have a1 : (r : ℝ) ≤ X * (1 + 2 * P.u) := by
    refine le_of_sq_le_sq ?_ (by positivity)
    rw [mul_pow, sx]; exact g1'
  have a2 : X ≤ r * (1 + 2 * P.u) := by
    refine le_of_sq_le_sq ?_ (by positivity)
    rw [mul_pow, sx]; exact g2'
  have a3 : |X - Y| ≤ k * P.u * Y := by
    have : |X - Y| * Y ≤ (k * P.u * Y) * Y := by
      have e1 : |X - Y| * (X + Y) = |(x.val : ℝ) - y| := by
        rw [← sx, ← sy, show X ^ 2 - Y ^ 2 = (X - Y) * (X + Y) by ring, abs_mul, abs_of_pos (by linarith : 0 < X + Y)]
      have e2 : |X - Y| * Y ≤ |X - Y| * (X + Y) := mul_le_mul_of_nonneg_left (by linarith) (abs_nonneg _)
      rw [e1] at e2
      calc _ ≤ _ := e2
        _ ≤ _ := h2
        _ = _ := by rw [← sy]; ring
    exact le_of_mul_le_mul_right this sy0
  refine ⟨x0', ?_, ?_, ?_⟩
  · rw [e]; exact h4.1
  · rw [e]; trivial
  · rw [e]
    show |((r : ℚ) : ℝ) - Y| ≤ (k + 3) * P.u * |Y|
    rw [abs_of_pos sy0]
    obtain ⟨b1, b2⟩ := abs_le.1 a3
    have kuY : k * P.u * Y ≤ 0.02 * Y := mul_le_mul_of_nonneg_right ku sy0.le
    have uX : P.u * X ≤ P.u * (1.02 * Y) := mul_le_mul_of_nonneg_left (by linarith) u0.le
    have ur : P.u * r ≤ P.u * (1.03 * Y) := by
      refine mul_le_mul_of_nonneg_left ?_ u0.le
      have : P.u * Y ≤ 0.001 * Y := mul_le_mul_of_nonneg_right (by linarith) sy0.le
      linarith
    have uY : 0 ≤ P.u * Y := by positivity
    exact abs_le.2 ⟨by linarith, by linarith⟩
where
  le_of_sq_le_sq {a b : ℝ} (h : a ^ 2 ≤ b ^ 2) (hb : 0 ≤ b) : a ≤ b := abs_le_of_sq_le_sq' h hb |>.2

/-- A computed cube root. -/
theorem cbrt_term {cb : Flt P.fmt → Flt P.fmt} (hcb : AccurateCbrt P cb) {X' : Flt P.fmt} (hX' : X'.isFinite) {X S M w : ℝ} (hu : P.u ≤ (0.001 : ℝ))
    (hw0 : 0 ≤ w) (hw : w ^ 3 = P.u) (hM : 0 < M) (hS : S ≤ 1.415 * M ^ 3) (hX : |X| ≤ 2 * S) (h : |(X'.val : ℝ) - X| ≤ 27 * P.u * S)
    (lo : 2 * (P.eta : ℝ) ≤ P.u * M) : (cb X').isFinite ∧ |((cb X').val : ℝ) - cbrt X| ≤ 5.39 * w * M ∧ |((cb X').val : ℝ)| ≤ 1.5 * M := by
  have u0 := Ap.u_pos P
  have f := hcb.fin X' hX'
  have e := hcb.err X' hX'
  have S0 : 0 ≤ S := by linarith [abs_nonneg X]
  have M3 : 0 < M ^ 3 := by positivity
  have w1 : w ≤ 0.1 := le_of_cube (by norm_num) (by rw [hw]; norm_num; linarith)
  have uw : (P.u : ℝ) ≤ 0.01 * w := by
    rw [← hw]
    nlinarith [mul_nonneg hw0 (by linarith : 0 ≤ 0.1 - w), mul_nonneg (mul_nonneg hw0 hw0) (by linarith : 0 ≤ 0.1 - w)]
  have uS : P.u * S ≤ P.u * (1.415 * M ^ 3) := mul_le_mul_of_nonneg_left hS u0.le
  have a1 : |cbrt X'.val - cbrt X| ≤ 5.35 * w * M := by
    refine le_of_cube (by positivity) ?_
    have := cbrt_holder X'.val X
    have e2 : (5.35 * w * M) ^ 3 = 5.35 ^ 3 * (P.u * M ^ 3) := by rw [← hw]; ring
    rw [e2]
    have : 0 ≤ P.u * M ^ 3 := by positivity
    norm_num
    linarith
  have a2 : |cbrt X'.val| ≤ 1.43 * M := by
    refine abs_cbrt_le (by positivity) ?_
    have := abs_add_le ((X'.val : ℝ) - X) X
    rw [sub_add_cancel] at this
    have us : P.u * S ≤ 0.001 * S := mul_le_mul_of_nonneg_right hu S0
    rw [mul_pow]
    norm_num
    linarith
  have uM : P.u * M ≤ 0.01 * w * M := mul_le_mul_of_nonneg_right uw hM.le
  have m : P.u * |cbrt X'.val| ≤ P.u * (1.43 * M) := mul_le_mul_of_nonneg_left a2 u0.le
  have wM : 0 ≤ w * M := by positivity
  have wM' : w * M ≤ 0.1 * M := mul_le_mul_of_nonneg_right w1 hM.le
  refine ⟨f, ?_, ?_⟩
  · have := abs_add_le (((cb X').val : ℝ) - cbrt X'.val) (cbrt X'.val - cbrt X)
    rw [sub_add_sub_cancel] at this
    linarith
  · have := abs_add_le (((cb X').val : ℝ) - cbrt X'.val) (cbrt X'.val)
    rw [sub_add_cancel] at this
    linarith

/-- The solution in the case of a positive discriminant and a nonnegative linear coefficient. -/
theorem single_branch (hp : 10 ≤ P.p) {f cb : Flt P.fmt → Flt P.fmt} (hf : FaithfulSqrt P f) (hcb : AccurateCbrt P cb) {q D : Flt P.fmt} {s S M w : ℝ}
    (hS0 : 0 < S) (hq : Rl 2 q s) (hD : Rl 18 D (S ^ 2)) (hs : |s| ≤ S) (hw0 : 0 ≤ w) (hw : w ^ 3 = P.u) (hM : 0 < M) (hS : S ≤ 1.415 * M ^ 3)
    (hSb : 16 * S + 1 < P.bound) (hMb : 16 * M + 1 < P.bound) (lo : 2 * (P.eta : ℝ) ≤ P.u * M) :
    (cb (f D - q) + -cb (f D + q)).isFinite ∧
    |((cb (f D - q) + -cb (f D + q)).val : ℝ) - (cbrt (S - s) - cbrt (S + s))| ≤ 11 * w * M := by
  have u0 := Ap.u_pos P
  have hu := (ok_one hp).u
  have hu' : (P.u : ℝ) ≤ 0.001 := by linarith
  obtain ⟨-, r0, r1, r2⟩ := sqrt_rl hp hf (k := 18) (by norm_num) (by norm_num) hD (by positivity)
  rw [Real.sqrt_sq hS0.le, abs_of_pos hS0] at r2
  obtain ⟨q1, q2⟩ := hq
  have us : P.u * |s| ≤ P.u * S := mul_le_mul_of_nonneg_left hs u0.le
  have uS : P.u * S ≤ 0.001 * S := mul_le_mul_of_nonneg_right hu' hS0.le
  have uS0 : 0 ≤ P.u * S := by positivity
  obtain ⟨r3, r4⟩ := abs_le.1 r2
  obtain ⟨q3, q4⟩ := abs_le.1 q2
  obtain ⟨s1, s2⟩ := abs_le.1 hs
  have w1 : w ≤ 0.1 := le_of_cube (by norm_num) (by rw [hw]; norm_num; linarith)
  have uw : (P.u : ℝ) ≤ 0.01 * w := by
    rw [← hw]
    nlinarith [mul_nonneg hw0 (by linarith : 0 ≤ 0.1 - w), mul_nonneg (mul_nonneg hw0 hw0) (by linarith : 0 ≤ 0.1 - w)]
  have b1 : |((f D).val : ℝ) - q.val| ≤ 2.05 * S := abs_le.2 ⟨by linarith, by linarith⟩
  have b2 : |((f D).val : ℝ) + q.val| ≤ 2.05 * S := abs_le.2 ⟨by linarith, by linarith⟩
  obtain ⟨m1, m2⟩ := sub_err r1 q1 (by linarith)
  obtain ⟨m3, m4⟩ := add_err r1 q1 (by linarith)
  have ub1 : P.u * |((f D).val : ℝ) - q.val| ≤ P.u * (2.05 * S) := mul_le_mul_of_nonneg_left b1 u0.le
  have ub2 : P.u * |((f D).val : ℝ) + q.val| ≤ P.u * (2.05 * S) := mul_le_mul_of_nonneg_left b2 u0.le
  obtain ⟨c1, c2⟩ := abs_le.1 m2
  obtain ⟨c3, c4⟩ := abs_le.1 m4
  obtain ⟨f1, e1, n1⟩ := cbrt_term hcb m1 (X := S - s) (S := S) hu' hw0 hw hM hS (abs_le.2 ⟨by linarith, by linarith⟩)
    (abs_le.2 ⟨by linarith, by linarith⟩) lo
  obtain ⟨f2, e2, n2⟩ := cbrt_term hcb m3 (X := S + s) (S := S) hu' hw0 hw hM hS (abs_le.2 ⟨by linarith, by linarith⟩)
    (abs_le.2 ⟨by linarith, by linarith⟩) lo
  obtain ⟨n3, n4⟩ := abs_le.1 n1
  obtain ⟨n5, n6⟩ := abs_le.1 n2
  have v : ((-cb (f D + q)).val : ℝ) = -((cb (f D + q)).val : ℝ) := by rw [Flt.neg_val]; push_cast; rfl
  have b3 : |((cb (f D - q)).val : ℝ) + (-cb (f D + q)).val| ≤ 3 * M := by
    rw [v]
    exact abs_le.2 ⟨by linarith, by linarith⟩
  obtain ⟨f3, e3⟩ := add_err f1 (Flt.neg_finite.2 f2) (by linarith)
  refine ⟨f3, ?_⟩
  have ub3 : P.u * |((cb (f D - q)).val : ℝ) + (-cb (f D + q)).val| ≤ P.u * (3 * M) := mul_le_mul_of_nonneg_left b3 u0.le
  have uM : P.u * M ≤ 0.01 * w * M := mul_le_mul_of_nonneg_right uw hM.le
  have wM : 0 ≤ w * M := by positivity
  rw [v] at e3 ub3
  obtain ⟨x1, x2⟩ := abs_le.1 e3
  obtain ⟨x3, x4⟩ := abs_le.1 e1
  obtain ⟨x5, x6⟩ := abs_le.1 e2
  exact abs_le.2 ⟨by linarith, by linarith⟩

/-- Cardano's formula for a nonnegative linear coefficient, and the uniqueness of the solution. -/
theorem cardano {t s S : ℝ} (ht : 0 ≤ t) (hS : S ^ 2 = s ^ 2 + t ^ 3) :
    (cbrt (S - s) - cbrt (S + s)) ^ 3 + 3 * t * (cbrt (S - s) - cbrt (S + s)) + 2 * s = 0 ∧
    ∀ x, x ^ 3 + 3 * t * x + 2 * s = 0 → x = cbrt (S - s) - cbrt (S + s) := by
  have a := cbrt_pow (S - s)
  have b := cbrt_pow (S + s)
  set α := cbrt (S - s)
  set β := cbrt (S + s)
  have h : α * β = t := cube_inj (by rw [mul_pow, a, b]; linear_combination hS)
  have r : (α - β) ^ 3 + 3 * t * (α - β) + 2 * s = 0 := by
    rw [← h]; linear_combination a - b
  refine ⟨r, fun x hx => ?_⟩
  set y := α - β
  have h1 : (x - y) * (x ^ 2 + x * y + y ^ 2 + 3 * t) = 0 := by linear_combination hx - r
  rcases mul_eq_zero.1 h1 with h2 | h2
  · linarith
  · have hx : x = 0 := by nlinarith [sq_nonneg (x + y), sq_nonneg x, sq_nonneg y]
    have hy : y = 0 := by nlinarith [sq_nonneg (x + y), sq_nonneg x, sq_nonneg y]
    rw [hx, hy]


/-! ### Three solutions -/

/-- If the computed discriminant is negative then the argument of the arc cosine is a number of size at most one: the rounding of the discriminant, of the
square root and of the quotient cannot take it out of the domain. -/
theorem arg_le {f : Flt P.fmt → Flt P.fmt} (hf : FaithfulSqrt P f) {q p3 : Flt P.fmt} (hD : (q * q + p3).isFinite) (h0 : (q * q + p3).val < 0) :
    q.isFinite ∧ p3.isFinite ∧ p3.val < 0 ∧ (f (-p3)).isFinite ∧ 0 < (f (-p3)).val ∧ (-q / f (-p3)).isFinite ∧ |(-q / f (-p3)).val| ≤ 1 := by
  obtain ⟨h1, h2⟩ := Flt.add_finite hD
  obtain ⟨h3, -⟩ := Flt.mul_finite h1
  rw [Flt.add_val hD, Flt.mul_val h1] at h0
  have n0 : 0 ≤ P.fl (q.val * q.val) := P.fl_nonneg (mul_self_nonneg _)
  have n1 : P.fl (q.val * q.val) + p3.val < 0 := by
    by_contra hc
    exact absurd (P.fl_nonneg (not_lt.1 hc)) (not_le.2 h0)
  have n2 : q.val * q.val < -p3.val := by
    by_contra hc
    have := P.le_fl_of_rep (Flt.rep_val p3).1.neg (not_lt.1 hc)
    linarith
  have hm : (-p3).isFinite := Flt.neg_finite.2 h2
  have x0 : 0 < (-p3).val := by rw [Flt.neg_val]; nlinarith [mul_self_nonneg q.val]
  obtain ⟨k1, k2⟩ := Flt.eq_fin hm
  obtain ⟨r, hr, e, r0, h4⟩ := hf.fin (-p3).val k1 x0.le
  have e' : f (-p3) = Flt.fin r hr := by rw [← e, ← k2]
  have rp : 0 < r := by
    rcases r0.eq_or_lt with h | h
    · obtain ⟨g1, g2⟩ := BinPar.Faithful.sq (P := P) k1 x0.le ⟨r0, h4⟩
      rw [← h] at g2
      norm_num at g2
      linarith
    · exact h
  have qr : |q.val| ≤ r := by
    by_contra hc
    rw [not_le] at hc
    have ra : P.fmt.rep |q.val| := by
      rcases abs_choice q.val with h | h
      · rw [h]; exact Flt.rep_val q
      · rw [h]; exact P.fmt.rep_neg (Flt.rep_val q)
    have := (h4 |q.val| ra (abs_nonneg _)).2 hc
    rw [abs_mul_abs_self, Flt.neg_val] at this
    linarith
  have gf : (Flt.fin r hr : Flt P.fmt).isFinite := trivial
  have le : |(-q).val / r| ≤ 1 := by
    rw [Flt.neg_val, abs_div, abs_neg, abs_of_pos rp, div_le_one rp]
    exact qr
  have fle : |P.fl ((-q).val / r)| ≤ 1 :=
    abs_le.2 ⟨P.le_fl_of_rep P.rep_one.neg (abs_le.1 le).1, P.fl_le_of_rep P.rep_one (abs_le.1 le).2⟩
  have b1 : (1 : ℚ) < P.bound := by
    have := Flt.rep_val (1 : Flt P.fmt)
    rw [Flt.one_val] at this
    have := this.2
    rwa [abs_one] at this
  obtain ⟨d1, d2⟩ := is_div (P := P) (x := -q) (y := Flt.fin r hr) (b := r) ⟨Flt.neg_finite.2 h3, rfl⟩ ⟨gf, rfl⟩ rp.ne' rfl (lt_of_le_of_lt fle b1)
  rw [e']
  refine ⟨h3, h2, by rw [Flt.neg_val] at x0; linarith, gf, rp, d1, ?_⟩
  rw [d2]
  exact fle

/-- The arc cosine is continuous with exponent one half. -/
theorem arccos_holder {x y : ℝ} (hx : |x| ≤ 1) (hy : |y| ≤ 1) : 2 * (Real.arccos x - Real.arccos y) ^ 2 ≤ Real.pi ^ 2 * |x - y| := by
  have pp := Real.pi_pos
  have hx' := abs_le.1 hx
  have hy' := abs_le.1 hy
  have key : ∀ a b : ℝ, 0 ≤ b → b ≤ a → a ≤ Real.pi → 2 * (a - b) ^ 2 ≤ Real.pi ^ 2 * (Real.cos b - Real.cos a) := by
    intro a b hb hab ha
    have j := Real.mul_le_sin (x := (a - b) / 2) (by linarith) (by linarith)
    have j2 : Real.sin ((a - b) / 2) ≤ Real.sin ((a + b) / 2) := by
      have h1 := Real.sin_sub_sin ((a + b) / 2) ((a - b) / 2)
      have e1 : ((a + b) / 2 - (a - b) / 2) / 2 = b / 2 := by ring
      have e2 : ((a + b) / 2 + (a - b) / 2) / 2 = a / 2 := by ring
      rw [e1, e2] at h1
      have s1 : 0 ≤ Real.sin (b / 2) := Real.sin_nonneg_of_nonneg_of_le_pi (by linarith) (by linarith)
      have c1 : 0 ≤ Real.cos (a / 2) := Real.cos_nonneg_of_neg_pi_div_two_le_of_le (by linarith) (by linarith)
      have : 0 ≤ 2 * Real.sin (b / 2) * Real.cos (a / 2) := by positivity
      linarith
    have e : Real.cos b - Real.cos a = 2 * Real.sin ((a + b) / 2) * Real.sin ((a - b) / 2) := by
      have := Real.cos_sub_cos a b
      linarith
    have j3 : (a - b) / Real.pi ≤ Real.sin ((a - b) / 2) := by
      have : 2 / Real.pi * ((a - b) / 2) = (a - b) / Real.pi := by ring
      rw [this] at j
      exact j
    have j0 : 0 ≤ (a - b) / Real.pi := div_nonneg (by linarith) pp.le
    have j4 : (a - b) / Real.pi * ((a - b) / Real.pi) ≤ Real.sin ((a + b) / 2) * Real.sin ((a - b) / 2) :=
      mul_le_mul (j3.trans j2) j3 j0 (j0.trans (j3.trans j2))
    have j5 : (a - b) / Real.pi * ((a - b) / Real.pi) = (a - b) ^ 2 / Real.pi ^ 2 := by rw [div_mul_div_comm]; ring
    rw [j5, div_le_iff₀ (by positivity)] at j4
    rw [e]
    linarith
  have ex := Real.cos_arccos hx'.1 hx'.2
  have ey := Real.cos_arccos hy'.1 hy'.2
  rcases le_total (Real.arccos y) (Real.arccos x) with h | h
  · have := key _ _ (Real.arccos_nonneg y) h (Real.arccos_le_pi x)
    rw [ex, ey] at this
    have l : y - x ≤ |x - y| := by rw [abs_sub_comm]; exact le_abs_self _
    have := mul_le_mul_of_nonneg_left l (by positivity : 0 ≤ Real.pi ^ 2)
    linarith
  · have := key _ _ (Real.arccos_nonneg x) h (Real.arccos_le_pi y)
    rw [ex, ey] at this
    have := mul_le_mul_of_nonneg_left (le_abs_self (x - y)) (by positivity : 0 ≤ Real.pi ^ 2)
    have e : (Real.arccos x - Real.arccos y) ^ 2 = (Real.arccos y - Real.arccos x) ^ 2 := by ring
    rw [e]
    linarith

/-- The computed angle. -/
theorem angle_err (hP : P = binary32 ∨ P = binary64) {f ac : Flt P.fmt → Flt P.fmt} (hf : FaithfulSqrt P f) (hac : AccurateAcos P ac) {q p3 : Flt P.fmt} {s R z : ℝ}
    (hR : 0 < R) (hs : |s| ≤ R) (hq : Rl 2 q s) (h3 : Rl 16 p3 (-R ^ 2)) (hD : (q * q + p3).isFinite) (h0 : (q * q + p3).val < 0)
    (hz0 : 0 ≤ z) (hz : z ^ 2 = P.u) (hz1 : z ≤ 0.001) :
    (P.literal (1 / 3) * ac (-q / f (-p3))).isFinite ∧
    |((P.literal (1 / 3) * ac (-q / f (-p3))).val : ℝ) - 1 / 3 * Real.arccos (-s / R)| ≤ 3.57 * z := by
  have hp := fmt_p hP
  have u0 := Ap.u_pos P
  have ok := ok_one hp
  have hu := ok.u
  have hB : (64 : ℝ) * 1 < P.bound := ok.bound
  have heta := Ap.eta_le P
  have et : (P.eta : ℝ) ≤ 0.001 * P.u := by nlinarith
  have uz : (P.u : ℝ) ≤ 0.001 * z := by rw [← hz]; nlinarith
  obtain ⟨a1, a2, a3, a4, a5, a6, a7⟩ := arg_le hf hD h0
  have h3n := h3.neg
  rw [neg_neg] at h3n
  obtain ⟨-, -, r1, r2⟩ := sqrt_rl hp hf (k := 16) (by norm_num) (by norm_num) h3n (by positivity)
  rw [Real.sqrt_sq hR.le, abs_of_pos hR] at r2
  have rp : (0 : ℝ) < (f (-p3)).val := by exact_mod_cast a5
  have uR : P.u * R ≤ 0.001 * R := mul_le_mul_of_nonneg_right (by linarith) hR.le
  obtain ⟨r3, r4⟩ := abs_le.1 r2
  have xs : |-s / R| ≤ 1 := by rw [abs_div, abs_neg, abs_of_pos hR, div_le_one hR]; exact hs
  have a7' : |((-q / f (-p3)).val : ℝ)| ≤ 1 := by exact_mod_cast a7
  -- the quotient
  have e1 : |((-q).val : ℝ) / (f (-p3)).val - -s / R| ≤ 21.6 * P.u := by
    have e : ((-q).val : ℝ) / (f (-p3)).val - -s / R = ((s - q.val) * R + s * ((f (-p3)).val - R)) / ((f (-p3)).val * R) := by
      rw [Flt.neg_val]
      push_cast
      field_simp
      ring
    rw [e, abs_div, abs_of_pos (mul_pos rp hR), div_le_iff₀ (mul_pos rp hR)]
    have t1 : |(s - q.val) * R| ≤ 2 * P.u * R * R := by
      rw [abs_mul, abs_of_pos hR, abs_sub_comm]
      refine mul_le_mul_of_nonneg_right ?_ hR.le
      exact hq.2.trans (mul_le_mul_of_nonneg_left hs (by positivity))
    have t2 : |s * ((f (-p3)).val - R)| ≤ R * ((16 + 3) * P.u * R) := by
      rw [abs_mul]
      exact mul_le_mul hs r2 (abs_nonneg _) hR.le
    have t3 := abs_add_le ((s - q.val) * R) (s * ((f (-p3)).val - R))
    have t4 : (0.975 * R) * R ≤ (f (-p3)).val * R := mul_le_mul_of_nonneg_right (by linarith) hR.le
    have t5 : P.u * ((0.975 * R) * R) ≤ P.u * ((f (-p3)).val * R) := mul_le_mul_of_nonneg_left t4 u0.le
    have t6 : 0 ≤ P.u * R * R := by positivity
    linarith
  have b1 : |((-q).val : ℝ) / (f (-p3)).val| ≤ 1.03 := by
    have := abs_add_le (((-q).val : ℝ) / (f (-p3)).val - -s / R) (-s / R)
    rw [sub_add_cancel] at this
    linarith
  obtain ⟨-, e2⟩ := div_err (Flt.neg_finite.2 a1) a4 a5.ne' (by linarith)
  have e3 : |((-q / f (-p3)).val : ℝ) - -s / R| ≤ 23 * P.u := by
    have := abs_add_le (((-q / f (-p3)).val : ℝ) - (-q).val / (f (-p3)).val) ((-q).val / (f (-p3)).val - -s / R)
    rw [sub_add_sub_cancel] at this
    have := mul_le_mul_of_nonneg_left b1 u0.le
    linarith
  -- the arc cosine
  have hol := arccos_holder a7' xs
  have pi1 := Real.pi_lt_d4
  have pi0 := Real.pi_gt_three
  have pp : Real.pi ^ 2 ≤ 9.87 := by nlinarith
  have e4 : |Real.arccos (-q / f (-p3)).val - Real.arccos (-s / R)| ≤ 10.66 * z := by
    refine abs_le_of_sq_le_sq ?_ (by positivity)
    have m1 : Real.pi ^ 2 * |((-q / f (-p3)).val : ℝ) - -s / R| ≤ 9.87 * (23 * P.u) := mul_le_mul pp e3 (abs_nonneg _) (by norm_num)
    have m2 : (10.66 * z) ^ 2 = 113.6356 * P.u := by rw [← hz]; ring
    rw [m2]
    linarith
  have f1 := hac.fin _ a6 a7
  have e5 := hac.err _ a6 a7
  have ap0 := Real.arccos_nonneg ((-q / f (-p3)).val : ℝ)
  have ap1 := Real.arccos_le_pi ((-q / f (-p3)).val : ℝ)
  have ua : P.u * Real.arccos (-q / f (-p3)).val ≤ P.u * 3.15 := mul_le_mul_of_nonneg_left (by linarith) u0.le
  generalize -q / f (-p3) = A at *
  obtain ⟨g1, g2⟩ := abs_le.1 e4
  obtain ⟨g3, g4⟩ := abs_le.1 e5
  have e6 : |((ac A).val : ℝ) - Real.arccos (-s / R)| ≤ 10.67 * z := abs_le.2 ⟨by linarith, by linarith⟩
  have b2 : |((ac A).val : ℝ)| ≤ 3.2 := abs_le.2 ⟨by linarith, by linarith⟩
  have th := third_rl hP
  have th2 := th.2
  rw [abs_of_pos (by norm_num : (0 : ℝ) < 1 / 3)] at th2
  have b3 : |((P.literal (1 / 3)).val : ℝ) * (ac A).val - 1 / 3 * (ac A).val| ≤ 2 * P.u * (1 / 3) * 3.2 := by
    rw [← sub_mul, abs_mul]
    exact mul_le_mul th2 b2 (abs_nonneg _) (by positivity)
  obtain ⟨c1, c2⟩ := abs_le.1 b3
  obtain ⟨c3, c4⟩ := abs_le.1 b2
  have b4 : |((P.literal (1 / 3)).val : ℝ) * (ac A).val| ≤ 1.1 := abs_le.2 ⟨by linarith, by linarith⟩
  obtain ⟨f2, e7⟩ := mul_err th.1 f1 (by linarith)
  refine ⟨f2, ?_⟩
  have m3 := mul_le_mul_of_nonneg_left b4 u0.le
  obtain ⟨c5, c6⟩ := abs_le.1 e7
  obtain ⟨c7, c8⟩ := abs_le.1 e6
  exact abs_le.2 ⟨by linarith, by linarith⟩

/-- One of the three products. -/
theorem cos_term (hp : 10 ≤ P.p) {sn cs : Flt P.fmt → Flt P.fmt} (hT : AccurateTrig P sn cs) {τ x : Flt P.fmt} {t y z : ℝ} (hτ : Rl 9 τ t) (hx : x.isFinite)
    (he : |(x.val : ℝ) - y| ≤ 3.58 * z) (hz0 : 0 ≤ z) (hz : z ^ 2 = P.u) (hz1 : z ≤ 0.001) (hb : 8 * |t| + 8 < P.bound) (lo : 2 * (P.eta : ℝ) ≤ P.u * |t|) :
    (τ * cs x).isFinite ∧ |((τ * cs x).val : ℝ) - t * Real.cos y| ≤ 3.7 * z * |t| := by
  have u0 := Ap.u_pos P
  have hu := (ok_one hp).u
  have heta := Ap.eta_le P
  have et : (P.eta : ℝ) ≤ 0.001 * P.u := by nlinarith
  have uz : (P.u : ℝ) ≤ 0.001 * z := by rw [← hz]; nlinarith
  have c1 := hT.cos_fin x hx
  have c2 := hT.cos_err x hx
  have c3 := Real.abs_cos_le_one x.val
  have c4 : |Real.cos x.val - Real.cos y| ≤ |(x.val : ℝ) - y| := Real.abs_cos_sub_cos_le _ _
  have m := mul_le_mul_of_nonneg_left c3 u0.le
  have e1 : |((cs x).val : ℝ) - Real.cos y| ≤ 3.59 * z := by
    have := abs_add_le (((cs x).val : ℝ) - Real.cos x.val) (Real.cos x.val - Real.cos y)
    rw [sub_add_sub_cancel] at this
    linarith
  have b1 : |((cs x).val : ℝ)| ≤ 1.01 := by
    have := abs_add_le (((cs x).val : ℝ) - Real.cos x.val) (Real.cos x.val)
    rw [sub_add_cancel] at this
    linarith
  have t0 := abs_nonneg t
  have ut : P.u * |t| ≤ 0.001 * z * |t| := mul_le_mul_of_nonneg_right uz t0
  have zt : z * |t| ≤ 0.001 * |t| := mul_le_mul_of_nonneg_right hz1 t0
  have zt0 : 0 ≤ z * |t| := by positivity
  have e2 : |(τ.val : ℝ) * (cs x).val - t * Real.cos y| ≤ 3.6 * z * |t| + 0.01 * z * |t| := by
    have e : (τ.val : ℝ) * (cs x).val - t * Real.cos y = (τ.val - t) * (cs x).val + t * ((cs x).val - Real.cos y) := by ring
    rw [e]
    have t1 : |((τ.val : ℝ) - t) * (cs x).val| ≤ 9 * P.u * |t| * 1.01 := by
      rw [abs_mul]; exact mul_le_mul hτ.2 b1 (abs_nonneg _) (by positivity)
    have t2 : |t * ((cs x).val - Real.cos y)| ≤ |t| * (3.59 * z) := by
      rw [abs_mul]; exact mul_le_mul_of_nonneg_left e1 t0
    have t3 := abs_add_le (((τ.val : ℝ) - t) * (cs x).val) (t * ((cs x).val - Real.cos y))
    linarith
  have b2 : |(τ.val : ℝ) * (cs x).val| ≤ 1.1 * |t| := by
    have := abs_add_le ((τ.val : ℝ) * (cs x).val - t * Real.cos y) (t * Real.cos y)
    rw [sub_add_cancel] at this
    have t4 : |t * Real.cos y| ≤ |t| := by
      rw [abs_mul]
      exact mul_le_of_le_one_right t0 (Real.abs_cos_le_one y)
    linarith
  obtain ⟨f, e3⟩ := mul_err hτ.1 c1 (by linarith)
  refine ⟨f, ?_⟩
  have m2 := mul_le_mul_of_nonneg_left b2 u0.le
  have := abs_add_le (((τ * cs x).val : ℝ) - τ.val * (cs x).val) (τ.val * (cs x).val - t * Real.cos y)
  rw [sub_add_sub_cancel] at this
  linarith

/-- A third of the constant `pi`. -/
theorem pi_third (hP : P = binary32 ∨ P = binary64) : (P.pi / 3).isFinite ∧ |((P.pi / 3).val : ℝ) - Real.pi / 3| ≤ 2 * P.u := by
  have hp := fmt_p hP
  have u0 := Ap.u_pos P
  have ok := ok_one hp
  have hu := ok.u
  have hB : (64 : ℝ) * 1 < P.bound := ok.bound
  have heta := Ap.eta_le P
  have et : (P.eta : ℝ) ≤ 0.001 * P.u := by nlinarith
  obtain ⟨-, -, e1⟩ := twoPi_err hP
  have pf : P.pi.isFinite := by
    obtain ⟨h, -, -⟩ := twoPi_err hP
    exact (Flt.mul_finite h).2
  have h3 : (3 : Flt P.fmt).isFinite ∧ (3 : Flt P.fmt).val = 3 := by
    have r : P.Rep 3 := by
      refine ⟨3, 0, by norm_num, ?_, by have := P.hmin; omega⟩
      have : (2 : ℤ) ^ 10 ≤ 2 ^ P.p := pow_le_pow_right₀ (by norm_num) hp
      norm_num
      linarith
    refine is_round (P := P) (q := 3) (P.fl_rep r) ?_
    have : ((3 : ℚ) : ℝ) < P.bound := by push_cast; linarith
    rw [abs_of_pos (by norm_num)]
    exact_mod_cast this
  have pi1 := Real.pi_lt_d2
  have pi0 := Real.pi_gt_three
  obtain ⟨g1, g2⟩ := abs_le.1 e1
  have v3 : (((3 : Flt P.fmt).val : ℚ) : ℝ) = 3 := by rw [h3.2]; norm_num
  have b : |(P.pi.val : ℝ) / (3 : Flt P.fmt).val| ≤ 1.06 := by rw [v3]; exact abs_le.2 ⟨by linarith, by linarith⟩
  obtain ⟨f, e⟩ := div_err pf h3.1 (by rw [h3.2]; norm_num) (by linarith)
  have m := mul_le_mul_of_nonneg_left b u0.le
  rw [v3] at e m
  obtain ⟨g3, g4⟩ := abs_le.1 e
  exact ⟨f, abs_le.2 ⟨by linarith, by linarith⟩⟩

/-- The solutions in the case of a negative discriminant. -/
theorem three_branch (hP : P = binary32 ∨ P = binary64) {f ac sn cs : Flt P.fmt → Flt P.fmt} (hf : FaithfulSqrt P f) (hac : AccurateAcos P ac)
    (hT : AccurateTrig P sn cs) {p q p3 : Flt P.fmt} {t s z : ℝ} (ht : 0 < t) (hs : s ^ 2 ≤ t ^ 3) (hp4 : Rl 4 p (-t)) (hq : Rl 2 q s) (h3 : Rl 16 p3 (-t ^ 3))
    (hD : (q * q + p3).isFinite) (h0 : (q * q + p3).val < 0) (hz0 : 0 ≤ z) (hz : z ^ 2 = P.u) (hz1 : z ≤ 0.001) (hb : 16 * Real.sqrt t + 8 < P.bound)
    (lo : 2 * (P.eta : ℝ) ≤ P.u * Real.sqrt t) :
    let phi := P.literal (1 / 3) * ac (-q / f (-p3))
    let τ := 2 * f (-p)
    let φ := 1 / 3 * Real.arccos (-s / Real.sqrt (t ^ 3))
    ((τ * cs phi).isFinite ∧ |((τ * cs phi).val : ℝ) - 2 * Real.sqrt t * Real.cos φ| ≤ 8 * z * Real.sqrt t) ∧
    ((-τ * cs (phi + P.pi / 3)).isFinite ∧
      |((-τ * cs (phi + P.pi / 3)).val : ℝ) - -(2 * Real.sqrt t) * Real.cos (φ + Real.pi / 3)| ≤ 8 * z * Real.sqrt t) ∧
    ((-τ * cs (phi - P.pi / 3)).isFinite ∧
      |((-τ * cs (phi - P.pi / 3)).val : ℝ) - -(2 * Real.sqrt t) * Real.cos (φ - Real.pi / 3)| ≤ 8 * z * Real.sqrt t) := by
  intro phi τ φ
  have hp := fmt_p hP
  have u0 := Ap.u_pos P
  have ok := ok_one hp
  have hu := ok.u
  have hB : (64 : ℝ) * 1 < P.bound := ok.bound
  have uz : (P.u : ℝ) ≤ 0.001 * z := by rw [← hz]; nlinarith
  have R0 : 0 < Real.sqrt (t ^ 3) := Real.sqrt_pos.2 (by positivity)
  have R2 : Real.sqrt (t ^ 3) ^ 2 = t ^ 3 := Real.sq_sqrt (by positivity)
  have sR : |s| ≤ Real.sqrt (t ^ 3) := abs_le_of_sq_le_sq (by rw [R2]; exact hs) R0.le
  obtain ⟨f1, e1⟩ := angle_err hP hf hac R0 sR hq (by rw [R2]; exact h3) hD h0 hz0 hz hz1
  change |(phi.val : ℝ) - φ| ≤ 3.57 * z at e1
  have q0 : 0 < Real.sqrt t := Real.sqrt_pos.2 ht
  have hpn := hp4.neg
  rw [neg_neg] at hpn
  obtain ⟨-, -, rl⟩ := sqrt_rl hp hf (k := 4) (by norm_num) (by norm_num) hpn ht
  have two : Rl 0 (2 : Flt P.fmt) 2 := by
    have := Flt.two_eq P
    refine ⟨this.1, ?_⟩
    rw [this.2]; norm_num
  have a2 : |2 * Real.sqrt t| = 2 * Real.sqrt t := abs_of_pos (by positivity)
  have hτ : Rl 9 τ (2 * Real.sqrt t) := by
    have := Rl.mul hp two rl le_rfl (by norm_num) (by norm_num) (by norm_num) (by rw [a2]; linarith) (Or.inr (by rw [a2]; nlinarith))
    norm_num at this
    exact this
  have hb' : 8 * |2 * Real.sqrt t| + 8 < P.bound := by rw [a2]; linarith
  have lo' : 2 * (P.eta : ℝ) ≤ P.u * |2 * Real.sqrt t| := by rw [a2]; nlinarith
  have fin8 : 3.7 * z * |2 * Real.sqrt t| ≤ 8 * z * Real.sqrt t := by
    rw [a2]
    have : 0 ≤ z * Real.sqrt t := by positivity
    linarith
  obtain ⟨f2, e2⟩ := pi_third hP
  have φ0 : 0 ≤ φ := by have := Real.arccos_nonneg (-s / Real.sqrt (t ^ 3)); positivity
  have φ1 : φ ≤ 1.05 := by
    have := Real.arccos_le_pi (-s / Real.sqrt (t ^ 3))
    have := Real.pi_lt_d2
    show 1 / 3 * Real.arccos (-s / Real.sqrt (t ^ 3)) ≤ 1.05
    linarith
  have pi1 := Real.pi_lt_d2
  have pi0 := Real.pi_gt_three
  obtain ⟨g1, g2⟩ := abs_le.1 e1
  obtain ⟨g3, g4⟩ := abs_le.1 e2
  have b1 : |(phi.val : ℝ) + (P.pi / 3).val| ≤ 2.2 := abs_le.2 ⟨by linarith, by linarith⟩
  have b2 : |(phi.val : ℝ) - (P.pi / 3).val| ≤ 2.2 := abs_le.2 ⟨by linarith, by linarith⟩
  obtain ⟨f3, e3⟩ := add_err (x := phi) f1 f2 (by linarith)
  obtain ⟨f4, e4⟩ := sub_err (x := phi) f1 f2 (by linarith)
  have m1 := mul_le_mul_of_nonneg_left b1 u0.le
  have m2 := mul_le_mul_of_nonneg_left b2 u0.le
  obtain ⟨g5, g6⟩ := abs_le.1 e3
  obtain ⟨g7, g8⟩ := abs_le.1 e4
  obtain ⟨k1, k2⟩ := cos_term hp hT hτ f1 (y := φ) (z := z) (e1.trans (by linarith)) hz0 hz hz1 hb' lo'
  have hn := hτ.neg
  have hb2 : 8 * |-(2 * Real.sqrt t)| + 8 < P.bound := by rw [abs_neg]; exact hb'
  have lo2 : 2 * (P.eta : ℝ) ≤ P.u * |-(2 * Real.sqrt t)| := by rw [abs_neg]; exact lo'
  obtain ⟨k3, k4⟩ := cos_term hp hT hn f3 (y := φ + Real.pi / 3) (z := z) (abs_le.2 ⟨by linarith, by linarith⟩) hz0 hz hz1 hb2 lo2
  obtain ⟨k5, k6⟩ := cos_term hp hT hn f4 (y := φ - Real.pi / 3) (z := z) (abs_le.2 ⟨by linarith, by linarith⟩) hz0 hz hz1 hb2 lo2
  rw [abs_neg] at k4 k6
  exact ⟨⟨k1, k2.trans fin8⟩, ⟨k3, k4.trans fin8⟩, ⟨k5, k6.trans fin8⟩⟩


end FltCub
end vm
