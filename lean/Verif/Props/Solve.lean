import Verif.Lemmas.Solve
import Mathlib.Analysis.Real.Sqrt

/-! # C12, C13, C14, C81: polynomial roots and the Newton square root

Real arithmetic, epsilon 0 unless stated otherwise.  `(s.sol i)` is the i-th slot, `none` is NaN, and
`s.num` is the reported count. -/

set_option linter.unusedSectionVars false
set_option linter.unusedSimpArgs false

namespace vm

/-- `solve_quadratic` with epsilon 0: the reported count is the number of real roots, the reported slots
are numbers, and a number is in a reported slot exactly if it is a root. -/
theorem C12_quadratic (a b c : ℝ) (ha : a ≠ 0) :
    (solveQuadratic a b c 0).num = Set.ncard {x : ℝ | a * x ^ 2 + b * x + c = 0} ∧
    (∀ i : Fin 2, i.val < (solveQuadratic a b c 0).num → ((solveQuadratic a b c 0).sol i).isSome = true) ∧
    ∀ x : ℝ, (∃ i : Fin 2, i.val < (solveQuadratic a b c 0).num ∧ (solveQuadratic a b c 0).sol i = some x) ↔
      a * x ^ 2 + b * x + c = 0 :=
  let h := solveQuadratic_exact (b := b) (c := c) ha
  ⟨h.card, h.some_, h.iff⟩

/-- With an arbitrary epsilon: a report of no root is right, two reported roots are the exact roots, and
a single reported root has residual at most `|a| * epsilon` and is within `sqrt(epsilon)` of every real
root. -/
theorem C12_quadratic_epsilon (a b c epsilon : ℝ) (ha : a ≠ 0) (he : 0 ≤ epsilon) :
    ((solveQuadratic a b c epsilon).num = 0 → ∀ x : ℝ, a * x ^ 2 + b * x + c ≠ 0) ∧
    ((solveQuadratic a b c epsilon).num = 2 → ∀ x : ℝ, a * x ^ 2 + b * x + c = 0 ↔
      ∃ i, (solveQuadratic a b c epsilon).sol i = some x) ∧
    ((solveQuadratic a b c epsilon).num = 1 → ∃ y, (solveQuadratic a b c epsilon).sol 0 = some y ∧
      |a * y ^ 2 + b * y + c| ≤ |a| * epsilon ∧
      ∀ x : ℝ, a * x ^ 2 + b * x + c = 0 → |x - y| ≤ Real.sqrt epsilon) ∧
    (solveQuadratic a b c epsilon).num ≤ 2 := by
  have key : ∀ x : ℝ, a * x ^ 2 + b * x + c =
      a * ((x + b / (2 * a)) ^ 2 - (b / (2 * a) * (b / (2 * a)) - c / a)) := by
    intro x; field_simp; ring
  unfold solveQuadratic
  simp only [isZero_exact_nonneg _ he, decide_eq_true_eq]
  generalize b / (2 * a) = p at *
  generalize c / a = q at *
  have key0 : ∀ x : ℝ, a * x ^ 2 + b * x + c = 0 ↔ (x + p) ^ 2 = p * p - q := by
    intro x; rw [key, mul_eq_zero, or_iff_right ha, sub_eq_zero]
  split_ifs with h1 h2
  · refine ⟨by simp, by simp, fun _ => ⟨-p, by simp, ?_, fun x hx => ?_⟩, by simp⟩
    · rw [key, neg_add_cancel, abs_mul]
      apply mul_le_mul_of_nonneg_left _ (abs_nonneg a)
      rw [show (0 : ℝ) ^ 2 - (p * p - q) = -(p * p - q) by ring, abs_neg]; exact h1
    · rw [key0] at hx
      rw [sub_neg_eq_add]
      apply Real.abs_le_sqrt
      rw [hx]; exact (le_abs_self _).trans h1
  · refine ⟨fun _ x hx => ?_, by simp, by simp, by simp⟩
    rw [key0] at hx; nlinarith [sq_nonneg (x + p)]
  · refine ⟨by simp, fun _ x => ?_, by simp, by simp⟩
    have hs := Real.sq_sqrt (not_lt.1 h2)
    rw [key0, ← hs, sq_eq_sq_iff_eq_or_eq_neg]
    constructor
    · rintro (h | h)
      · exact ⟨0, by simp; linarith⟩
      · exact ⟨1, by simp; linarith⟩
    · rintro ⟨i, h⟩
      fin_cases i <;> simp at h
      · left; linarith
      · right; linarith

example : (solveQuadratic 1 (-3) 2 0).num = 2 ∧ (1 : ℝ) ≠ 0 := by
  refine ⟨?_, one_ne_zero⟩
  rw [solveQuadratic_num]; norm_num

/-- `solve_cubic` with epsilon 0: the reported count is the number of distinct real roots, the reported
slots are numbers, and a number is in a reported slot exactly if it is a root. -/
theorem C13_cubic (a b c d : ℝ) (ha : a ≠ 0) :
    (solveCubic a b c d 0).num = Set.ncard {x : ℝ | a * x ^ 3 + b * x ^ 2 + c * x + d = 0} ∧
    (∀ i : Fin 3, i.val < (solveCubic a b c d 0).num → ((solveCubic a b c d 0).sol i).isSome = true) ∧
    ∀ x : ℝ, (∃ i : Fin 3, i.val < (solveCubic a b c d 0).num ∧ (solveCubic a b c d 0).sol i = some x) ↔
      a * x ^ 3 + b * x ^ 2 + c * x + d = 0 :=
  let h := solveCubic_exact (b := b) (c := c) (d := d) ha
  ⟨h.card, h.some_, h.iff⟩

/-- Non-vacuity: `x^3 - 7x + 6 = (x-1)(x-2)(x+3)` has leading coefficient `1 ≠ 0` and is reported to have
three roots. -/
example : (solveCubic 1 0 (-7) 6 0).num = 3 := by
  unfold solveCubic solveDepressed resubstitute
  simp only [isZero_zero_exact, decide_eq_true_eq]
  norm_num

/-- `solve_quartic` with epsilon 0: at most four solutions are reported, the reported slots are numbers,
and a number is in a reported slot exactly if it is a root.  (A root may be reported more than once.) -/
theorem C14_quartic (a b c d e : ℝ) (ha : a ≠ 0) :
    (solveQuartic a b c d e 0).num ≤ 4 ∧
    (∀ i : Fin 4, i.val < (solveQuartic a b c d e 0).num → ((solveQuartic a b c d e 0).sol i).isSome = true) ∧
    ∀ x : ℝ, (∃ i : Fin 4, i.val < (solveQuartic a b c d e 0).num ∧ (solveQuartic a b c d e 0).sol i = some x) ↔
      a * x ^ 4 + b * x ^ 3 + c * x ^ 2 + d * x + e = 0 := by
  obtain ⟨h1, h2, h3⟩ := solveDepressedQuartic_spec (-(3 / 8) * (b / a) * (b / a) + c / a)
    (1 / 8 * (b / a) * (b / a) * (b / a) - 1 / 2 * (b / a) * (c / a) + d / a)
    (-(3 / 256) * (b / a) * (b / a) * (b / a) * (b / a) + 1 / 16 * (b / a) * (b / a) * (c / a)
      - 1 / 4 * (b / a) * (d / a) + e / a)
  refine ⟨h1, ?_, ?_⟩
  · intro i hi
    have hi' : i.val < (solveDepressedQuartic _ _ _ 0).num := hi
    have := h2 i hi'
    simp only [solveQuartic, resubstitute]
    rw [if_pos hi', Option.isSome_map]
    exact this
  · intro x
    refine (reported_resubstitute _ _ x).trans ?_
    rw [h3]
    have : (x + 1 / 4 * (b / a)) ^ 4 + (-(3 / 8) * (b / a) * (b / a) + c / a) * (x + 1 / 4 * (b / a)) ^ 2
        + (1 / 8 * (b / a) * (b / a) * (b / a) - 1 / 2 * (b / a) * (c / a) + d / a) * (x + 1 / 4 * (b / a))
        + (-(3 / 256) * (b / a) * (b / a) * (b / a) * (b / a) + 1 / 16 * (b / a) * (b / a) * (c / a)
          - 1 / 4 * (b / a) * (d / a) + e / a)
        = (a * x ^ 4 + b * x ^ 3 + c * x ^ 2 + d * x + e) / a := by
      field_simp; ring
    rw [this, div_eq_zero_iff]
    simp [ha]

/-- Non-vacuity: `x^4 - 5x^2 + 4 = (x^2-1)(x^2-4)`, leading coefficient `1 ≠ 0`; the root `2` is
reported. -/
example : ∃ i : Fin 4, i.val < (solveQuartic 1 0 (-5) 0 4 0).num ∧
    (solveQuartic 1 0 (-5) 0 4 0).sol i = some 2 :=
  ((C14_quartic 1 0 (-5) 0 4 one_ne_zero).2.2 2).2 (by norm_num)

/-! ### C81: the compile time square root -/

/-- If the iteration of `sqrt_c` stops then the result is the square root (exact arithmetic). -/
theorem C81_sqrt_c (x : ℝ) (hx : 0 ≤ x) (fuel : ℕ) (r : ℝ)
    (h : sqrtNR (1 / 2) x fuel x 0 = some r) : r = Real.sqrt x := by
  rcases hx.eq_or_lt with rfl | hx
  · cases fuel <;> simp [sqrtNR] at h <;> simp [← h]
  have gen : ∀ fuel curr prev, 0 < curr → (0 < prev ∧ curr = (1 / 2) * (prev + x / prev) ∨ prev = 0) →
      sqrtNR (1 / 2) x fuel curr prev = some r → r = Real.sqrt x := by
    intro fuel
    induction fuel with
    | zero =>
      intro curr prev hc hp h
      simp only [sqrtNR, exact_eq, decide_eq_true_eq] at h
      split_ifs at h with he
      cases h
      rcases hp with ⟨hp, hp2⟩ | hp
      · rw [← he] at hp2
        have : r ^ 2 = x := by field_simp at hp2; linarith
        rw [← this, Real.sqrt_sq hc.le]
      · linarith
    | succ n ih =>
      intro curr prev hc hp h
      simp only [sqrtNR, exact_eq, decide_eq_true_eq] at h
      split_ifs at h with he
      · cases h
        rcases hp with ⟨hp, hp2⟩ | hp
        · rw [← he] at hp2
          have : r ^ 2 = x := by field_simp at hp2; linarith
          rw [← this, Real.sqrt_sq hc.le]
        · linarith
      · exact ih _ _ (by positivity) (Or.inl ⟨hc, rfl⟩) h
  exact gen fuel x 0 hx (Or.inr rfl) h

/-- The iterates of `sqrt_c`. -/
noncomputable def newton (x : ℝ) : ℕ → ℝ
  | 0 => x
  | n + 1 => (1 / 2) * (newton x n + x / newton x n)

theorem newton_pos {x : ℝ} (hx : 0 < x) (n : ℕ) : 0 < newton x n := by
  induction n with
  | zero => exact hx
  | succ n ih => rw [newton]; positivity

theorem newton_err {x : ℝ} (hx : 0 < x) (n : ℕ) :
    newton x (n + 1) - Real.sqrt x = (newton x n - Real.sqrt x) ^ 2 / (2 * newton x n) := by
  have h := newton_pos hx n
  have hs := Real.sq_sqrt hx.le
  rw [newton]
  field_simp
  linear_combination -hs

/-- From the first iteration on the iterates are upper bounds of the square root whose error at least
halves in every step, so in exact arithmetic they converge to the square root. -/
theorem C81_newton_converges (x : ℝ) (hx : 0 < x) (n : ℕ) :
    Real.sqrt x ≤ newton x (n + 1) ∧
    newton x (n + 2) - Real.sqrt x ≤ (newton x (n + 1) - Real.sqrt x) / 2 := by
  have h1 : ∀ n, Real.sqrt x ≤ newton x (n + 1) := by
    intro n
    have := newton_err hx n
    have h2 : 0 ≤ (newton x n - Real.sqrt x) ^ 2 / (2 * newton x n) := by
      have := newton_pos hx n; positivity
    linarith
  refine ⟨h1 n, ?_⟩
  rw [newton_err hx (n + 1)]
  have hp := newton_pos hx (n + 1)
  have h3 := h1 n
  have hs := Real.sqrt_nonneg x
  rw [div_le_div_iff₀ (by positivity) (by norm_num)]
  nlinarith

/-- Termination of the loop relies on rounding: in exact arithmetic it does not stop for any positive
argument other than 1. -/
theorem C81_exact_arithmetic_diverges (x : ℝ) (hx : 0 < x) (h1 : x ≠ 1) (fuel : ℕ) :
    sqrtNR (1 / 2) x fuel x 0 = none := by
  have hs := Real.sq_sqrt hx.le
  have hsp := Real.sqrt_pos.2 hx
  have hne : ∀ n, newton x n ≠ Real.sqrt x := by
    intro n
    induction n with
    | zero =>
      rw [newton]
      intro h
      rw [← h] at hs
      apply h1
      have : x * (x - 1) = 0 := by linear_combination hs
      rcases mul_eq_zero.1 this with h | h <;> linarith
    | succ n ih =>
      intro h
      have h2 := newton_err hx n
      rw [h, sub_self] at h2
      have hp := newton_pos hx n
      have : (newton x n - Real.sqrt x) ^ 2 = 0 := by
        rcases div_eq_zero_iff.1 h2.symm with h | h
        · exact h
        · linarith
      exact ih (by linarith [pow_eq_zero_iff (n := 2) (by norm_num) |>.1 this])
  have gen : ∀ fuel n, sqrtNR (1 / 2) x fuel (newton x (n + 1)) (newton x n) = none := by
    intro fuel
    have hstep : ∀ n, newton x (n + 1) ≠ newton x n := by
      intro n h
      have hp := newton_pos hx n
      rw [newton] at h
      have : newton x n ^ 2 = x := by field_simp at h; linarith
      apply hne n
      have h3 := Real.sqrt_sq hp.le
      rw [this] at h3; exact h3.symm
    induction fuel with
    | zero => intro n; simp [sqrtNR, hstep n]
    | succ k ih => intro n; simp only [sqrtNR, exact_eq, decide_eq_true_eq, if_neg (hstep n)]; exact ih (n + 1)
  cases fuel with
  | zero => simp [sqrtNR, hx.ne']
  | succ k =>
    simp only [sqrtNR, exact_eq, decide_eq_true_eq, if_neg hx.ne']; exact gen k 0

example : sqrtNR (1 / 2 : ℝ) 1 1 1 0 = some 1 := by norm_num [sqrtNR]

end vm
