import Verif.Lemmas.Scalar
import Mathlib.Tactic.NormNum
import Mathlib.Tactic.Linarith

/-! Helper lemmas: the rounding functions in terms of Mathlib's floor and ceiling. -/

universe u

set_option linter.unusedSectionVars false
set_option linter.unusedSimpArgs false

namespace vm
variable {K : Type u} [Field K] [LinearOrder K] [IsStrictOrderedRing K] [FloorRing K]

/-- The values whose integral part fits into `int64_t`. -/
def InInt64 (v : K) : Prop := -(2 ^ 63) - 1 < v ∧ v < 2 ^ 63

theorem ceil_eq_floor_add_one {v : K} (h : ((⌈v⌉ : ℤ) : K) ≠ v) : ⌈v⌉ = ⌊v⌋ + 1 := by
  have h1 : ((⌊v⌋ : ℤ) : K) < v := by
    refine lt_of_le_of_ne (Int.floor_le v) fun h2 => h ?_
    rw [← h2, Int.ceil_intCast]
  rw [Int.ceil_eq_iff]
  push_cast
  exact ⟨by linarith, by linarith [Int.lt_floor_add_one v]⟩

theorem trunc_eq {v : K} (h : InInt64 v) :
    trunc v = some (if v < 0 then ((⌈v⌉ : ℤ) : K) else ((⌊v⌋ : ℤ) : K)) := if_pos h

theorem trunc_none {v : K} (h : ¬ InInt64 v) : trunc v = none := if_neg h

theorem floor_eq {v : K} (h : InInt64 v) : floor v = some ((⌊v⌋ : ℤ) : K) := by
  rw [floor, trunc_eq h]
  simp only [Option.map_some, Option.some.injEq]
  rcases le_or_gt 0 v with h0 | h0
  · rw [if_pos h0, if_neg (not_lt.2 h0)]
  · rw [if_neg (not_le.2 h0), if_pos h0]
    split_ifs with h1
    · rw [← h1]; simp
    · rw [ceil_eq_floor_add_one h1]; push_cast; ring

theorem ceil_eq {v : K} (h : InInt64 v) : ceil v = some ((⌈v⌉ : ℤ) : K) := by
  rw [ceil, trunc_eq h]
  simp only [Option.map_some, Option.some.injEq]
  rcases lt_or_ge v 0 with h0 | h0
  · rw [if_pos h0, if_pos h0]
  · rw [if_neg (not_lt.2 h0), if_neg (not_lt.2 h0)]
    split_ifs with h1
    · rw [← h1]; simp
    · have h2 : ((⌈v⌉ : ℤ) : K) ≠ v := by
        intro h2
        apply h1
        rw [← h2]; simp
      rw [ceil_eq_floor_add_one h2]; push_cast; ring

theorem floor_none {v : K} (h : ¬ InInt64 v) : floor v = none := by rw [floor, trunc_none h]; rfl
theorem ceil_none {v : K} (h : ¬ InInt64 v) : ceil v = none := by rw [ceil, trunc_none h]; rfl

end vm
