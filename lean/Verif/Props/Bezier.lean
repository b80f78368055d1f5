import Verif.Model.Approx
import Verif.Lemmas.Vec
import Verif.Lemmas.MatExt
import Mathlib.Analysis.Convex.Combination
import Mathlib.Algebra.BigOperators.Fin
import Mathlib.Tactic.Ring
import Mathlib.Tactic.LinearCombination
import Mathlib.Tactic.Linarith
import Mathlib.Tactic.NormNum

/-!
# C74: quadratic Bezier surfaces (bezier_surface.h)
-/

universe u

set_option linter.unusedSectionVars false
set_option linter.unusedSimpArgs false

namespace vm
variable {K : Type u} [Field K] [LinearOrder K] [IsStrictOrderedRing K] {S : ℕ}

/-- The Bernstein polynomials of degree two, by their usual definition. -/
def bern (i : Fin 3) (x : K) : K := (Nat.choose 2 i : K) * x ^ (i : ℕ) * (1 - x) ^ (2 - (i : ℕ))

theorem bern_sum (x : K) : ∑ i, bern i x = 1 := by
  simp only [bern, Fin.sum_univ_three]
  norm_num [Nat.choose]
  ring

theorem bern_nonneg {x : K} (h0 : 0 ≤ x) (h1 : x ≤ 1) (i : Fin 3) : 0 ≤ bern i x := by
  unfold bern
  have := sub_nonneg.2 h1
  positivity

/-- The surface is the tensor product of Bernstein polynomials: `v` selects the row of control points, `u` the position in the
row. -/
theorem C74_bernstein (P : Fin 3 → Fin 3 → Vec K S) (u v : K) :
    evaluateBezier P u v = ∑ i, ∑ j, (bern i v * bern j u) • P i j := by
  funext k
  simp only [evaluateBezier, bezierInterpolate, bernstein0, bernstein1, bernstein2, vscale, Pi.add_apply, bern,
    Fin.sum_univ_three, Pi.smul_apply, smul_eq_mul, Matrix.cons_val_zero, Matrix.cons_val_one, Matrix.cons_val]
  norm_num [Nat.choose]
  ring

/-- The corners of the surface are the corner control points. -/
theorem C74_corners (P : Fin 3 → Fin 3 → Vec K S) :
    evaluateBezier P 0 0 = P 0 0 ∧ evaluateBezier P 1 0 = P 0 2 ∧ evaluateBezier P 0 1 = P 2 0 ∧
      evaluateBezier P 1 1 = P 2 2 := by
  refine ⟨?_, ?_, ?_, ?_⟩ <;> rw [C74_bernstein] <;> funext k <;>
    simp [bern, Fin.sum_univ_three]

/-- For parameters in the unit interval, the result is a convex combination of the nine control points. -/
theorem C74_convex (P : Fin 3 → Fin 3 → Vec K S) (u v : K) (hu : 0 ≤ u ∧ u ≤ 1) (hv : 0 ≤ v ∧ v ≤ 1) :
    ∃ w : Fin 3 → Fin 3 → K, (∀ i j, 0 ≤ w i j) ∧ ∑ i, ∑ j, w i j = 1 ∧
      evaluateBezier P u v = ∑ i, ∑ j, w i j • P i j := by
  refine ⟨fun i j => bern i v * bern j u, fun i j => mul_nonneg (bern_nonneg hv.1 hv.2 i) (bern_nonneg hu.1 hu.2 j), ?_,
    C74_bernstein P u v⟩
  simp only [← Finset.mul_sum, bern_sum, mul_one]

/-- For parameters in the unit interval, the result lies in the convex hull of the control points. -/
theorem C74_convexHull (P : Fin 3 → Fin 3 → Vec ℝ S) (u v : ℝ) (hu : 0 ≤ u ∧ u ≤ 1) (hv : 0 ≤ v ∧ v ≤ 1) :
    evaluateBezier P u v ∈ convexHull ℝ {p : Fin S → ℝ | ∃ i j, p = P i j} := by
  obtain ⟨w, h0, h1, h⟩ := C74_convex P u v hu hv
  rw [h, ← Finset.sum_product']
  refine (convex_convexHull ℝ _).sum_mem (fun i _ => h0 _ _) ?_ ?_
  · rw [Finset.sum_product']; exact h1
  · rintro ⟨i, j⟩ -
    exact subset_convexHull ℝ _ ⟨i, j, rfl⟩

/-- The result does not leave a box that contains the control points. -/
theorem C74_bounds (P : Fin 3 → Fin 3 → Vec K S) (lo hi : Vec K S) (u v : K) (hu : 0 ≤ u ∧ u ≤ 1)
    (hv : 0 ≤ v ∧ v ≤ 1) (hP : ∀ i j k, lo k ≤ P i j k ∧ P i j k ≤ hi k) (k : Fin S) :
    lo k ≤ evaluateBezier P u v k ∧ evaluateBezier P u v k ≤ hi k := by
  obtain ⟨w, h0, h1, h⟩ := C74_convex P u v hu hv
  have e : evaluateBezier P u v k = ∑ i, ∑ j, w i j * P i j k := by
    rw [h]; simp only [Finset.sum_apply, Pi.smul_apply, smul_eq_mul]
  have e1 : ∀ c : K, c = ∑ i, ∑ j, w i j * c := by
    intro c; simp only [← Finset.sum_mul, h1, one_mul]
  rw [e]
  constructor
  · rw [e1 (lo k)]
    exact Finset.sum_le_sum fun i _ => Finset.sum_le_sum fun j _ => mul_le_mul_of_nonneg_left (hP i j k).1 (h0 i j)
  · conv_rhs => rw [e1 (hi k)]
    exact Finset.sum_le_sum fun i _ => Finset.sum_le_sum fun j _ => mul_le_mul_of_nonneg_left (hP i j k).2 (h0 i j)

/-- Affine invariance: transforming the control points by `p ↦ A p + t` transforms the surface likewise, for all
parameters (also outside of the unit interval) and between spaces of different dimensions. -/
theorem C74_affine_invariant {S' : ℕ} (A : Fin S' → Fin S → K) (t : Vec K S') (P : Fin 3 → Fin 3 → Vec K S) (u v : K) :
    evaluateBezier (fun i j => (fun r => ∑ c, A r c * P i j c + t r : Vec K S')) u v =
      fun r => ∑ c, A r c * evaluateBezier P u v c + t r := by
  funext r
  simp only [C74_bernstein, Finset.sum_apply, Pi.smul_apply, smul_eq_mul]
  have e1 : t r = ∑ i, ∑ j, bern i v * bern j u * t r := by
    simp only [← Finset.mul_sum, ← Finset.sum_mul, bern_sum, mul_one, one_mul]
  conv_rhs => rw [e1]
  simp only [mul_add, Finset.sum_add_distrib, Finset.mul_sum]
  congr 1
  rw [Finset.sum_comm' (t' := Finset.univ) (s' := fun _ => Finset.univ) (by simp)]
  conv_rhs => rw [Finset.sum_comm]
  rw [Finset.sum_comm]
  refine Finset.sum_congr rfl fun i _ => ?_
  rw [Finset.sum_comm]
  refine Finset.sum_congr rfl fun c _ => ?_
  refine Finset.sum_congr rfl fun j _ => ?_
  ring

/-- Exchanging the parameters is exchanging rows and columns of control points. -/
theorem C74_transpose (P : Fin 3 → Fin 3 → Vec K S) (u v : K) :
    evaluateBezier P u v = evaluateBezier (fun i j => P j i) v u := by
  rw [C74_bernstein, C74_bernstein, Finset.sum_comm]
  refine Finset.sum_congr rfl fun i _ => Finset.sum_congr rfl fun j _ => ?_
  rw [mul_comm]

/-- Reversing a parameter is reversing the order of control points. -/
theorem C74_reverse (P : Fin 3 → Fin 3 → Vec K S) (u v : K) :
    evaluateBezier P (1 - u) v = evaluateBezier (fun i j => P i (Fin.rev j)) u v := by
  rw [C74_bernstein, C74_bernstein]
  refine Finset.sum_congr rfl fun i _ => ?_
  rw [← Equiv.sum_comp Fin.revPerm]
  refine Finset.sum_congr rfl fun j _ => ?_
  have : bern (Fin.rev j) (1 - u) = bern j u := by
    fin_cases j <;> simp [bern, Fin.rev]
    ring
  rw [Fin.revPerm_apply, this]

/-- A boundary of the surface depends only on the control points of that boundary. -/
theorem C74_boundary (P Q : Fin 3 → Fin 3 → Vec K S) (h : P 0 = Q 0) (u : K) :
    evaluateBezier P u 0 = evaluateBezier Q u 0 := by
  rw [C74_bernstein, C74_bernstein]
  funext k
  simp [bern, Fin.sum_univ_three, h]

example : (0:ℚ) ≤ 1/2 ∧ (1/2 : ℚ) ≤ 1 ∧ evaluateBezier (fun i j => ![(i : ℚ), (j : ℚ) * 2]) (1/2) (1/4) = ![1/2, 2] := by
  decide +kernel

end vm
