import Verif.Lemmas.Scalar

/-!
# C01, C02: comparison of vectors

`T` is any scalar type with IEEE comparison semantics in which adding or subtracting zero does not change
a value: exact ordered fields, and every floating point format `Flt F` (with NaN and infinities).
-/

universe u

set_option linter.unusedSectionVars false
set_option linter.unusedSimpArgs false

namespace vm
section C01
variable {T : Type u} [IEEE T] [Add T] [Sub T] [Zero T] [ZeroLaw T] {S : ℕ}

/-- Specification: two scalars are the same for the purpose of vector comparison. -/
def sameScalar (a b : T) : Prop := (isNan a = true ∧ isNan b = true) ∨ Cmp.eq a b = true

/-- Specification: `a` sorts before `b`; NaN sorts after every number. -/
def beforeScalar (a b : T) : Prop := (isNan a = false ∧ isNan b = true) ∨ Cmp.lt a b = true

theorem sameScalar_iff (a b : T) : sameScalar a b ↔ nanTop a = nanTop b := by
  unfold sameScalar nanTop
  simp only [isNan_iff_key]
  rcases ha : IEEE.key a with _ | x <;> rcases hb : IEEE.key b with _ | y
  · simp
  · simp only [reduceCtorEq, and_false, false_or, WithTop.top_ne_coe, iff_false, IEEE.eq_iff, ha]
    simp
  · simp only [reduceCtorEq, false_and, false_or, WithTop.coe_ne_top, iff_false, IEEE.eq_iff, hb]
    simp
  · simp [eq_of_keys ha hb]

theorem beforeScalar_iff (a b : T) : beforeScalar a b ↔ nanTop a < nanTop b := by
  unfold beforeScalar nanTop
  rw [← Bool.not_eq_true, isNan_iff_key, isNan_iff_key]
  rcases ha : IEEE.key a with _ | x <;> rcases hb : IEEE.key b with _ | y
  · simp [lt_false_of_none_left ha]
  · simp [lt_false_of_none_left ha]
  · simp
  · simp [lt_of_keys ha hb]

/-- `operator<` is the lexicographic order in which NaN sorts above all numbers. -/
theorem C01_lt_is_lexicographic (a b : Vec T S) :
    vlt a b = true ↔ ∃ i, (∀ j < i, sameScalar (a j) (b j)) ∧ beforeScalar (a i) (b i) := by
  rw [vlt_iff, keyVec_lt_iff]
  simp only [sameScalar_iff, beforeScalar_iff]

/-- `operator==` is component-wise equality in which NaN equals NaN. -/
theorem C01_eq_is_componentwise (a b : Vec T S) :
    veq a b = true ↔ ∀ i, sameScalar (a i) (b i) := by
  rw [veq_iff]
  simp only [sameScalar_iff]
  exact ⟨fun h i => congrFun h i, fun h => funext h⟩

/-- `operator<` is a strict weak order on all vectors, including those with NaN components. -/
theorem C01_lt_strict_weak_order :
    (∀ a : Vec T S, vlt a a = false) ∧
    (∀ a b : Vec T S, vlt a b = true → vlt b a = false) ∧
    (∀ a b c : Vec T S, vlt a b = true → vlt b c = true → vlt a c = true) ∧
    (∀ a b c : Vec T S, vlt a b = false → vlt b a = false → vlt b c = false → vlt c b = false →
      vlt a c = false ∧ vlt c a = false) := by
  refine ⟨fun a => ?_, fun a b h => ?_, fun a b c h1 h2 => ?_, fun a b c h1 h2 h3 h4 => ?_⟩
  · rw [← Bool.not_eq_true, vlt_iff]; exact lt_irrefl _
  · rw [← Bool.not_eq_true, vlt_iff]; rw [vlt_iff] at h; exact not_lt_of_gt h
  · rw [vlt_iff] at *; exact h1.trans h2
  · simp only [← Bool.not_eq_true, vlt_iff, not_lt] at *
    exact ⟨h3.trans h1, h2.trans h4⟩

/-- `compare` returns only -1, 0 and 1, swapping the arguments negates it, it is transitive, and
`compare == 0` is an equivalence relation. -/
theorem C01_compare_total_order :
    (∀ a b : Vec T S, vcompare a b 0 = -1 ∨ vcompare a b 0 = 0 ∨ vcompare a b 0 = 1) ∧
    (∀ a b : Vec T S, vcompare b a 0 = -vcompare a b 0) ∧
    (∀ a b c : Vec T S, vcompare a b 0 ≤ 0 → vcompare b c 0 ≤ 0 → vcompare a c 0 ≤ 0) ∧
    (∀ a b c : Vec T S, vcompare a b 0 = 0 → vcompare a c 0 = vcompare b c 0) := by
  have key : ∀ a b : Vec T S,
      (keyVec a < keyVec b ∧ vcompare a b 0 = -1) ∨ (keyVec a = keyVec b ∧ vcompare a b 0 = 0) ∨
      (keyVec b < keyVec a ∧ vcompare a b 0 = 1) := by
    intro a b
    rw [vcompare_zero]
    rcases lt_trichotomy (keyVec a) (keyVec b) with h | h | h
    · exact Or.inl ⟨h, by simp [h]⟩
    · exact Or.inr (Or.inl ⟨h, by simp [h]⟩)
    · exact Or.inr (Or.inr ⟨h, by simp [h, not_lt_of_gt h]⟩)
  refine ⟨fun a b => ?_, fun a b => ?_, fun a b c => ?_, fun a b c => ?_⟩
  · rcases key a b with ⟨_, h⟩ | ⟨_, h⟩ | ⟨_, h⟩ <;> simp [h]
  · rcases key a b with ⟨h1, h⟩ | ⟨h1, h⟩ | ⟨h1, h⟩ <;>
    rcases key b a with ⟨h2, h'⟩ | ⟨h2, h'⟩ | ⟨h2, h'⟩ <;> rw [h, h'] <;>
    first
      | rfl
      | exact absurd h1 (not_lt_of_gt h2)
      | exact absurd (h1 ▸ h2) (lt_irrefl _)
      | exact absurd (h2 ▸ h1) (lt_irrefl _)
  · intro h1 h2
    have hab : keyVec a ≤ keyVec b := by
      rcases key a b with ⟨h, _⟩ | ⟨h, _⟩ | ⟨_, h⟩
      · exact h.le
      · exact h.le
      · omega
    have hbc : keyVec b ≤ keyVec c := by
      rcases key b c with ⟨h, _⟩ | ⟨h, _⟩ | ⟨_, h⟩
      · exact h.le
      · exact h.le
      · omega
    rcases key a c with ⟨_, h⟩ | ⟨_, h⟩ | ⟨h, _⟩
    · omega
    · omega
    · exact absurd h (not_lt_of_ge (hab.trans hbc))
  · intro h
    have hab : keyVec a = keyVec b := by
      rcases key a b with ⟨_, h'⟩ | ⟨h', _⟩ | ⟨_, h'⟩
      · omega
      · exact h'
      · omega
    rw [vcompare_zero, vcompare_zero, hab]

/-- The six relational operators are consistent with each other. -/
theorem C01_operators_consistent (a b : Vec T S) :
    vne a b = !(veq a b) ∧ vgt a b = vlt b a ∧ vge a b = !(vlt a b) ∧ vle a b = !(vlt b a) ∧
    vle a b = (vlt a b || veq a b) := by
  have h1 := C01_compare_total_order.1 a b
  have h2 := C01_compare_total_order.2.1 a b
  simp only [vne, veq, vgt, vlt, vge, vle]
  rw [h2]
  rcases h1 with h | h | h <;> rw [h] <;> decide

end C01

/-- The hypotheses of C01 hold for every floating point format; a vector with a NaN component is
ordered after one with a finite component at the first difference. -/
example (F : Fmt) : vlt ![(1 : Flt F), 0] ![1, Flt.nan] = true ∧
    vlt ![(1 : Flt F), Flt.pinf] ![1, Flt.nan] = true ∧
    veq ![Flt.nan, (1 : Flt F)] ![Flt.nan, 1] = true := by
  have hn : isNan (Flt.nan : Flt F) = true := rfl
  refine ⟨?_, ?_, ?_⟩
  · rw [C01_lt_is_lexicographic]
    refine ⟨1, fun j hj => ?_, Or.inl ⟨?_, hn⟩⟩
    · have : j = 0 := by fin_cases j <;> simp_all
      subst this
      exact Or.inr ((IEEE.eq_iff _ _).2 ⟨Ext.ofRat 1, rfl, rfl⟩)
    · rw [← Bool.not_eq_true, isNan_iff_key]; exact Option.some_ne_none _
  · rw [C01_lt_is_lexicographic]
    refine ⟨1, fun j hj => ?_, Or.inl ⟨?_, hn⟩⟩
    · have : j = 0 := by fin_cases j <;> simp_all
      subst this
      exact Or.inr ((IEEE.eq_iff _ _).2 ⟨Ext.ofRat 1, rfl, rfl⟩)
    · rw [← Bool.not_eq_true, isNan_iff_key]; exact Option.some_ne_none _
  · rw [C01_eq_is_componentwise]
    intro i
    fin_cases i
    · exact Or.inl ⟨hn, hn⟩
    · exact Or.inr ((IEEE.eq_iff _ _).2 ⟨Ext.ofRat 1, rfl, rfl⟩)

section C02
variable {K : Type u} [Field K] [LinearOrder K] [IsStrictOrderedRing K] {S : ℕ}

theorem compareStep_exact (a b e : K) :
    compareStep a b e = if a < b - e then some (-1) else if b + e < a then some 1 else none := by
  simp [compareStep]

/-- For `eps ≥ 0`, `is_equal(a, b, eps)` holds iff all components differ by at most `eps`. -/
theorem C02_isEqual_iff (a b : Vec K S) (eps : K) :
    visEqual a b eps = true ↔ ∀ i, |a i - b i| ≤ eps := by
  simp only [visEqual, vcompare, beq_iff_eq]
  have key : ∀ x y : K, compareStep x y eps = none ↔ |x - y| ≤ eps := by
    intro x y
    rw [compareStep_exact, abs_le]
    split_ifs with h1 h2
    · simp only [reduceCtorEq, false_iff, not_and]; intro h; linarith
    · simp only [reduceCtorEq, false_iff, not_and]; intro h; linarith
    · simp only [true_iff]; constructor <;> linarith
  constructor
  · intro h i
    rw [← key]
    rcases hf : (List.finRange S).findSome? fun i => compareStep (a i) (b i) eps with _ | r
    · exact (findSome_finRange_eq_none _).1 hf i
    · rw [hf] at h
      obtain ⟨k, hk, _⟩ := (findSome_finRange_eq_some _ _).1 hf
      rw [compareStep_exact] at hk
      simp only [Option.getD_some] at h
      subst h
      split_ifs at hk <;> simp at hk
  · intro h
    rw [(findSome_finRange_eq_none _).2 fun i => (key _ _).2 (h i)]
    rfl

/-- With `eps ≥ 0` swapping the arguments of `compare` negates the result. -/
theorem C02_compare_antisymmetric (a b : Vec K S) (eps : K) (heps : 0 ≤ eps) :
    vcompare b a eps = -vcompare a b eps := by
  have hstep : ∀ i, compareStep (b i) (a i) eps = (compareStep (a i) (b i) eps).map Neg.neg := by
    intro i
    rw [compareStep_exact, compareStep_exact]
    split_ifs <;> simp <;> linarith
  unfold vcompare
  simp only [hstep]
  rcases hf : (List.finRange S).findSome? fun i => compareStep (a i) (b i) eps with _ | r
  · rw [(findSome_finRange_eq_none _).2]
    · rfl
    · intro i; rw [(findSome_finRange_eq_none _).1 hf i]; rfl
  · obtain ⟨k, hk, hj⟩ := (findSome_finRange_eq_some _ _).1 hf
    rw [(findSome_finRange_eq_some _ (-r)).2 ⟨k, by rw [hk]; rfl, fun j hjk => by rw [hj j hjk]; rfl⟩]
    rfl

/-- `compare(a, b, eps)` decides on the first component that differs by more than `eps`. -/
theorem C02_compare_lt_iff (a b : Vec K S) (eps : K) (heps : 0 ≤ eps) :
    vcompare a b eps < 0 ↔ ∃ i, (∀ j < i, |a j - b j| ≤ eps) ∧ a i + eps < b i := by
  have key : ∀ x y : K, compareStep x y eps = none ↔ |x - y| ≤ eps := by
    intro x y
    rw [compareStep_exact, abs_le]
    split_ifs with h1 h2
    · simp only [reduceCtorEq, false_iff, not_and]; intro h; linarith
    · simp only [reduceCtorEq, false_iff, not_and]; intro h; linarith
    · simp only [true_iff]; constructor <;> linarith
  have key2 : ∀ x y : K, compareStep x y eps = some (-1) ↔ x + eps < y := by
    intro x y
    rw [compareStep_exact]
    split_ifs with h1 h2
    · simp only [true_iff]; linarith
    · simp only [Option.some.injEq]; constructor
      · intro h; simp at h
      · intro h; linarith
    · simp only [reduceCtorEq, false_iff]; intro h; apply h1; linarith
  unfold vcompare
  constructor
  · intro h
    rcases hf : (List.finRange S).findSome? fun i => compareStep (a i) (b i) eps with _ | r
    · rw [hf] at h; simp at h
    · rw [hf] at h
      obtain ⟨k, hk, hj⟩ := (findSome_finRange_eq_some _ _).1 hf
      refine ⟨k, fun j hjk => (key _ _).1 (hj j hjk), (key2 _ _).1 ?_⟩
      rw [hk]
      rw [compareStep_exact] at hk
      simp only [Option.getD_some] at h
      split_ifs at hk <;> simp at hk <;> subst hk <;> simp_all
  · rintro ⟨i, hj, hi⟩
    rw [(findSome_finRange_eq_some _ (-1)).2
      ⟨i, (key2 _ _).2 hi, fun j hjk => (key _ _).2 (hj j hjk)⟩]
    decide

/-- Unlike `==`, equality up to `eps > 0` is not transitive. -/
theorem C02_eps_equality_not_transitive (eps : K) (heps : 0 < eps) (hS : 0 < S) :
    ∃ a b c : Vec K S, visEqual a b eps = true ∧ visEqual b c eps = true ∧
      visEqual a c eps = false := by
  refine ⟨fun _ => 0, fun _ => eps, fun _ => 2 * eps, ?_, ?_, ?_⟩
  · rw [C02_isEqual_iff]; intro i; simp [abs_of_pos heps]
  · rw [C02_isEqual_iff]; intro i
    have : eps - 2 * eps = -eps := by ring
    rw [this, abs_neg, abs_of_pos heps]
  · rw [← Bool.not_eq_true, C02_isEqual_iff]
    intro h
    have := h ⟨0, hS⟩
    rw [zero_sub, abs_neg, abs_of_pos (by linarith)] at this
    linarith

example : visEqual ![(1 : ℚ), 2] ![1 + 1 / 1000, 2 - 1 / 1000] (1 / 100) = true := by
  rw [C02_isEqual_iff]; intro i; fin_cases i <;> norm_num [abs_le]

example : vcompare ![(1 : ℚ), 2, 3] ![1, 5 / 2, 0] (1 / 100) < 0 :=
  (C02_compare_lt_iff _ _ _ (by norm_num)).2
    ⟨1, fun j hj => by have : j = 0 := by fin_cases j <;> simp_all
                       subst this; norm_num,
      by norm_num⟩

end C02
end vm
