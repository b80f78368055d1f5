import Verif.Lemmas.Order
import Verif.Model.Flt
import Mathlib.Tactic.Ring
import Mathlib.Tactic.FieldSimp
import Mathlib.Tactic.Positivity
import Mathlib.Algebra.Order.Archimedean.Basic

/-! Helper lemmas about scalar functions. -/

universe u

set_option linter.unusedSectionVars false

namespace vm

section exact
variable {K : Type u} [Field K] [LinearOrder K] [IsStrictOrderedRing K]

@[simp] theorem abs_exact (v : K) : vm.abs v = |v| := by
  unfold vm.abs
  split_ifs with h
  · simp at h; rw [abs_of_neg h]
  · simp at h; rw [abs_of_nonneg h]

@[simp] theorem isEqual_exact (a b e : K) : isEqual a b e = decide (|a - b| ≤ e) := by
  simp [isEqual]

theorem isZero_exact (v e : K) : isZero v e = decide (v = 0 ∨ |v| ≤ e) := by
  simp [isZero]

theorem isZero_zero_exact (v : K) : isZero v 0 = decide (v = 0) := by
  rw [isZero_exact]; simp

theorem isZero_exact_nonneg (v : K) {e : K} (he : 0 ≤ e) : isZero v e = decide (|v| ≤ e) := by
  rw [isZero_exact]
  congr 1
  simp only [eq_iff_iff, or_iff_right_iff_imp]
  rintro rfl; simpa using he

end exact

section lin
variable {K : Type u} [LinearOrder K]

@[simp] theorem min2_exact (a b : K) : min2 a b = min a b := by
  simp only [min2, vmin, exact_lt, decide_eq_true_eq]
  split_ifs with h
  · exact (min_eq_left h.le).symm
  · exact (min_eq_right (not_lt.1 h)).symm

@[simp] theorem max2_exact (a b : K) : max2 a b = max a b := by
  simp only [max2, vmax, exact_lt, decide_eq_true_eq]
  split_ifs with h
  · exact (max_eq_left h.le).symm
  · exact (max_eq_right (not_lt.1 h)).symm

@[simp] theorem clamp_exact (v a b : K) : clamp v a b = max (min v b) a := by simp [clamp]

@[simp] theorem vmin2_exact {S : ℕ} (a b : Vec K S) : vmin2 a b = fun i => min (a i) (b i) := by
  funext i; exact min2_exact _ _

@[simp] theorem vmax2_exact {S : ℕ} (a b : Vec K S) : vmax2 a b = fun i => max (a i) (b i) := by
  funext i; exact max2_exact _ _

end lin

namespace Flt
variable {F : Fmt}

theorem key_ofExt (x : Ext) (h) : key (ofExt (F := F) x h) = some x := by
  rcases x with _ | _ | q <;> rfl

theorem key_round (x : ℚ) : key (round (F := F) x) = some (F.rnd x) := key_ofExt _ _

theorem fin_add (a b : ℚ) (ha hb) : (fin a ha + fin b hb : Flt F) = round (a + b) := rfl
theorem fin_sub (a b : ℚ) (ha hb) : (fin a ha - fin b hb : Flt F) = round (a + -b) := rfl
theorem fin_mul (a b : ℚ) (ha hb) : (fin a ha * fin b hb : Flt F) = round (a * b) := rfl

theorem ieee_key (a : Flt F) : IEEE.key a = key a := rfl

theorem round_rep {q : ℚ} (h : F.rep q) : round (F := F) q = fin q h := by
  have := F.rnd_rep h
  unfold round
  have h2 : ∀ (x : Ext) (hx : ∀ q, x = Ext.ofRat q → F.rep q), x = Ext.ofRat q →
      ofExt (F := F) x hx = fin q h := by
    rintro x hx rfl; rfl
  exact h2 _ _ this

theorem add_zero' (a : Flt F) : a + 0 = a := by
  rcases a with _ | _ | _ | ⟨q, h⟩
  · rfl
  · rfl
  · rfl
  · show round (q + 0) = _
    rw [add_zero]; exact round_rep h

theorem neg_zero' : (-0 : Flt F) = 0 := by
  show fin (-0) _ = fin 0 _
  congr 1

theorem sub_zero' (a : Flt F) : a - 0 = a := by
  show a + -0 = a
  rw [neg_zero', add_zero']

instance : ZeroLaw (Flt F) where
  add_zero a := by rw [add_zero']
  sub_zero a := by rw [sub_zero']

end Flt
end vm
