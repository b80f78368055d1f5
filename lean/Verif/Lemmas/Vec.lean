import Verif.Model.Vec
import Verif.Lemmas.Scalar
import Mathlib.Algebra.BigOperators.Fin
import Mathlib.Algebra.Order.BigOperators.Ring.Finset
import Mathlib.Analysis.InnerProductSpace.PiL2
import Mathlib.Tactic.LinearCombination
import Mathlib.Tactic.FinCases
import Mathlib.Tactic.NormNum

/-! Helper lemmas about vectors. -/

universe u

set_option linter.unusedSectionVars false
set_option linter.unusedSimpArgs false

namespace vm

theorem foldl_add_eq_sum {R : Type u} [AddCommMonoid R] {n : ℕ} (f : Fin n → R) (x : R) :
    Fin.foldl n (fun acc i => acc + f i) x = x + ∑ i, f i := by
  induction n generalizing x with
  | zero => simp
  | succ n ih => rw [Fin.foldl_succ, ih, Fin.sum_univ_succ, add_assoc]

section ring
variable {R : Type u} [CommRing R] {S : ℕ}

theorem dot_eq_sum (a b : Vec R S) : dot a b = ∑ i, a i * b i := by
  rw [dot, foldl_add_eq_sum (fun i => a i * b i) 0, zero_add]

theorem dot3 (a b : Vec R 3) : dot a b = a 0 * b 0 + a 1 * b 1 + a 2 * b 2 := by
  rw [dot_eq_sum, Fin.sum_univ_three]

theorem dot_comm (a b : Vec R S) : dot a b = dot b a := by
  simp only [dot_eq_sum, mul_comm]

theorem dot_add_right (a b c : Vec R S) : dot a (b + c) = dot a b + dot a c := by
  simp only [dot_eq_sum, Pi.add_apply, mul_add, Finset.sum_add_distrib]

theorem dot_add_left (a b c : Vec R S) : dot (a + b) c = dot a c + dot b c := by
  simp only [dot_eq_sum, Pi.add_apply, add_mul, Finset.sum_add_distrib]

theorem dot_sub_right (a b c : Vec R S) : dot a (b - c) = dot a b - dot a c := by
  simp only [dot_eq_sum, Pi.sub_apply, mul_sub, Finset.sum_sub_distrib]

theorem dot_sub_left (a b c : Vec R S) : dot (a - b) c = dot a c - dot b c := by
  simp only [dot_eq_sum, Pi.sub_apply, sub_mul, Finset.sum_sub_distrib]

theorem dot_smul_right (a b : Vec R S) (k : R) : dot a (k • b) = k * dot a b := by
  simp only [dot_eq_sum, Pi.smul_apply, smul_eq_mul, Finset.mul_sum]
  exact Finset.sum_congr rfl fun i _ => by ring

theorem dot_smul_left (a b : Vec R S) (k : R) : dot (k • a) b = k * dot a b := by
  rw [dot_comm, dot_smul_right, dot_comm]

theorem dot_neg_right (a b : Vec R S) : dot a (-b) = -dot a b := by
  simp [dot_eq_sum, Finset.sum_neg_distrib]

theorem dot_neg_left (a b : Vec R S) : dot (-a) b = -dot a b := by
  simp [dot_eq_sum, Finset.sum_neg_distrib]

theorem dot_zero_right (a : Vec R S) : dot a 0 = 0 := by simp [dot_eq_sum]
theorem dot_zero_left (a : Vec R S) : dot 0 a = 0 := by simp [dot_eq_sum]

theorem vscale_eq_smul (a : Vec R S) (k : R) : vscale a k = k • a := by
  funext i; simp [vscale, mul_comm]

@[simp] theorem cross_0 (a b : Vec R 3) : cross a b 0 = a 1 * b 2 - a 2 * b 1 := rfl
@[simp] theorem cross_1 (a b : Vec R 3) : cross a b 1 = a 2 * b 0 - a 0 * b 2 := rfl
@[simp] theorem cross_2 (a b : Vec R 3) : cross a b 2 = a 0 * b 1 - a 1 * b 0 := rfl

theorem ext3 {α : Type*} {a b : Vec α 3} (h0 : a 0 = b 0) (h1 : a 1 = b 1) (h2 : a 2 = b 2) : a = b := by
  funext i; fin_cases i <;> assumption

theorem vec3_eq {α : Type*} (a : Vec α 3) : a = ![a 0, a 1, a 2] := by
  apply ext3 <;> rfl

end ring

section field
variable {K : Type u} [Field K] [LinearOrder K] [IsStrictOrderedRing K] {S : ℕ}

theorem dot_self_nonneg (a : Vec K S) : 0 ≤ dot a a := by
  rw [dot_eq_sum]; exact Finset.sum_nonneg fun i _ => mul_self_nonneg _

theorem dot_self_eq_zero {a : Vec K S} : dot a a = 0 ↔ a = 0 := by
  constructor
  · intro h
    rw [dot_eq_sum, Finset.sum_eq_zero_iff_of_nonneg (fun i _ => mul_self_nonneg _)] at h
    funext i; exact mul_self_eq_zero.1 (h i (Finset.mem_univ i))
  · rintro rfl; exact dot_zero_left _

theorem dot_self_pos {a : Vec K S} (h : a ≠ 0) : 0 < dot a a :=
  lt_of_le_of_ne (dot_self_nonneg a) fun h' => h (dot_self_eq_zero.1 h'.symm)

theorem vdivs_eq_smul (a : Vec K S) (k : K) : vdivs a k = k⁻¹ • a := by
  funext i; simp [vdivs, div_eq_inv_mul]

/-- Cauchy-Schwarz. -/
theorem dot_sq_le (a b : Vec K S) : dot a b ^ 2 ≤ dot a a * dot b b := by
  by_cases hb : b = 0
  · simp [hb, dot_zero_right]
  have hb0 := dot_self_pos hb
  have h := dot_self_nonneg (dot b b • a - dot a b • b)
  rw [dot_sub_left, dot_sub_right, dot_sub_right, dot_smul_left, dot_smul_left, dot_smul_left,
    dot_smul_left, dot_smul_right, dot_smul_right, dot_smul_right, dot_smul_right, dot_comm b a] at h
  have : 0 ≤ dot b b * (dot a a * dot b b - dot a b ^ 2) := by linear_combination h
  nlinarith [nonneg_of_mul_nonneg_right this hb0]

/-- Equality case of Cauchy-Schwarz. -/
theorem dot_sq_eq_iff (a b : Vec K S) :
    dot a b ^ 2 = dot a a * dot b b ↔ ∃ x y : K, (x ≠ 0 ∨ y ≠ 0) ∧ x • a = y • b := by
  constructor
  · intro h
    by_cases hb : b = 0
    · exact ⟨0, 1, Or.inr one_ne_zero, by simp [hb]⟩
    · refine ⟨dot b b, dot a b, Or.inl (dot_self_pos hb).ne', ?_⟩
      rw [← sub_eq_zero, ← dot_self_eq_zero]
      rw [dot_sub_left, dot_sub_right, dot_sub_right, dot_smul_left, dot_smul_left, dot_smul_left,
        dot_smul_left, dot_smul_right, dot_smul_right, dot_smul_right, dot_smul_right, dot_comm b a]
      linear_combination (-dot b b) * h
  · rintro ⟨x, y, hxy, h⟩
    have h1 : x * dot a a = y * dot a b := by
      rw [← dot_smul_right, h, dot_smul_right]
    have h2 : x * dot a b = y * dot b b := by
      rw [← dot_smul_left, h, dot_smul_left]
    rcases hxy with hx | hy
    · apply mul_left_cancel₀ hx
      linear_combination dot a b * h2 - dot b b * h1
    · apply mul_left_cancel₀ hy
      linear_combination dot a a * h2 - dot a b * h1

end field

section real
variable {S : ℕ}

theorem length_eq_norm (v : Vec ℝ S) : length v = ‖(WithLp.toLp 2 v : EuclideanSpace ℝ (Fin S))‖ := by
  rw [EuclideanSpace.norm_eq, length, squaredLength, dot_eq_sum]
  congr 1
  refine Finset.sum_congr rfl fun i _ => ?_
  simp [sq]

theorem length_nonneg (v : Vec ℝ S) : 0 ≤ length v := Real.sqrt_nonneg _

theorem length_sq (v : Vec ℝ S) : length v ^ 2 = dot v v := Real.sq_sqrt (dot_self_nonneg v)

theorem length_eq_zero {v : Vec ℝ S} : length v = 0 ↔ v = 0 := by
  rw [length, squaredLength, Real.sqrt_eq_zero (dot_self_nonneg v)]; exact dot_self_eq_zero

theorem length_pos {v : Vec ℝ S} (h : v ≠ 0) : 0 < length v :=
  lt_of_le_of_ne (length_nonneg v) fun h' => h (length_eq_zero.1 h'.symm)

theorem length_smul (k : ℝ) (v : Vec ℝ S) : length (k • v) = |k| * length v := by
  rw [length_eq_norm, length_eq_norm, WithLp.toLp_smul, norm_smul, Real.norm_eq_abs]

theorem normalize_of_ne {v : Vec ℝ S} (h : v ≠ 0) : normalize v = some ((length v)⁻¹ • v) := by
  rw [normalize, if_neg (length_pos h).ne', vdivs_eq_smul]

theorem normalize_zero : normalize (0 : Vec ℝ S) = none := by
  rw [normalize, if_pos (length_eq_zero.2 rfl)]

end real
end vm
