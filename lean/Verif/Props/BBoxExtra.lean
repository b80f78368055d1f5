import Verif.Props.BBox

/-!
# C94: boxes made from numbers
-/

universe u

set_option linter.unusedSectionVars false
set_option linter.unusedSimpArgs false

namespace vm
variable {K : Type u} [Field K] [LinearOrder K] [IsStrictOrderedRing K] {S : ℕ}

/-- The box made from one number is the cube around the origin with that number as half of the size. -/
theorem C94_cube (s : K) (p : Vec K S) :
    ((BBox.ofScalar s : BBox K S).contains p = true ↔ ∀ i, |p i| ≤ s) ∧
    (BBox.ofScalar s : BBox K S).center = 0 ∧ (∀ i, (BBox.ofScalar s : BBox K S).size i = 2 * s) ∧
    (0 ≤ s → (BBox.ofScalar s : BBox K S).isValid = true) ∧ (0 < S → s < 0 → (BBox.ofScalar s : BBox K S).isValid = false) := by
  refine ⟨?_, ?_, fun i => ?_, fun h => ?_, fun hS h => ?_⟩
  · rw [BBox.contains_iff, Set.mem_Icc, Pi.le_def, Pi.le_def, ← forall_and]
    exact forall_congr' fun i => abs_le.symm
  · funext i
    show (-s + s) / 2 = 0
    rw [neg_add_cancel, zero_div]
  · show s - -s = 2 * s
    ring
  · rw [BBox.isValid_iff]
    exact fun i => neg_le_self h
  · rw [← Bool.not_eq_true, BBox.isValid_iff]
    intro h'
    have := h' ⟨0, hS⟩
    change -s ≤ s at this
    linarith

/-- The box made from two numbers is the cube of the points with all coordinates between them. -/
theorem C94_interval (lo hi : K) (p : Vec K S) :
    ((BBox.ofScalars lo hi : BBox K S).contains p = true ↔ ∀ i, lo ≤ p i ∧ p i ≤ hi) ∧
    (∀ i, (BBox.ofScalars lo hi : BBox K S).center i = (lo + hi) / 2) ∧
    (∀ i, (BBox.ofScalars lo hi : BBox K S).size i = hi - lo) ∧
    (0 < S → ((BBox.ofScalars lo hi : BBox K S).isValid = true ↔ lo ≤ hi)) ∧
    (0 < S → ((BBox.ofScalars lo hi : BBox K S).isEmpty = true ↔ hi ≤ lo)) := by
  refine ⟨?_, fun i => rfl, fun i => rfl, fun hS => ?_, fun hS => ?_⟩
  · rw [BBox.contains_iff, Set.mem_Icc, Pi.le_def, Pi.le_def, ← forall_and]
    rfl
  · rw [BBox.isValid_iff]
    exact ⟨fun h => h ⟨0, hS⟩, fun h i => h⟩
  · simp only [BBox.isEmpty, List.any_eq_true, List.mem_finRange, true_and, exact_le, decide_eq_true_eq]
    exact ⟨fun ⟨i, h⟩ => h, fun h => ⟨⟨0, hS⟩, h⟩⟩

/-- The default box is valid and contains the origin and no other point. -/
theorem C94_default (p : Vec K S) :
    (BBox.zero : BBox K S).isValid = true ∧ ((BBox.zero : BBox K S).contains p = true ↔ p = 0) ∧
    (0 < S → (BBox.zero : BBox K S).isEmpty = true) ∧ (BBox.zero : BBox K S).center = 0 ∧ (BBox.zero : BBox K S).size = 0 := by
  refine ⟨?_, ?_, fun hS => ?_, ?_, ?_⟩
  · rw [BBox.isValid_iff]; exact fun i => le_rfl
  · rw [BBox.contains_iff, Set.mem_Icc]
    exact ⟨fun ⟨h1, h2⟩ => le_antisymm h2 h1, fun h => h ▸ ⟨le_rfl, le_rfl⟩⟩
  · exact (C94_interval (0 : K) 0 p).2.2.2.2 hS |>.2 le_rfl
  · funext i
    show ((0 : K) + 0) / 2 = 0
    simp
  · funext i
    show (0 : K) - 0 = 0
    simp

/-- Conversion by a monotone function, such as the rounding to another precision, keeps a box valid, and the converted box contains the
converted points. -/
theorem C94_convert {L : Type u} [Field L] [LinearOrder L] [IsStrictOrderedRing L] (cast : K → L) (hmono : Monotone cast)
    (b : BBox K S) (p : Vec K S) :
    (b.isValid = true → (BBox.convert cast b).isValid = true) ∧
    (b.contains p = true → (BBox.convert cast b).contains (fun i => cast (p i)) = true) ∧
    (StrictMono cast → (BBox.convert cast b).contains (fun i => cast (p i)) = true → b.contains p = true) := by
  refine ⟨?_, ?_, ?_⟩
  · rw [BBox.isValid_iff, BBox.isValid_iff]
    exact fun h i => hmono (h i)
  · rw [BBox.contains_iff, BBox.contains_iff]
    exact fun h => ⟨fun i => hmono (h.1 i), fun i => hmono (h.2 i)⟩
  · rw [BBox.contains_iff, BBox.contains_iff]
    exact fun hs h => ⟨fun i => hs.le_iff_le.1 (h.1 i), fun i => hs.le_iff_le.1 (h.2 i)⟩

example : (BBox.ofScalar (3 : ℚ) : BBox ℚ 3).contains ![1, -3, 2] = true ∧ (BBox.ofScalar (3 : ℚ) : BBox ℚ 3).contains ![1, -4, 2] = false ∧
    (BBox.ofScalars (-1 : ℚ) 2 : BBox ℚ 2).contains ![-1, 2] = true ∧ (BBox.ofScalars (2 : ℚ) 1 : BBox ℚ 2).isValid = false := by
  decide +kernel

/-- A monotone function that is not strictly monotone: rounding down to whole numbers. -/
example : Monotone (fun x : ℚ => ((⌊x⌋ : ℤ) : ℚ)) :=
  fun _ _ h => Int.cast_le.2 (Int.floor_le_floor h)

end vm
