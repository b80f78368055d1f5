import Verif.Model.Approx
import Verif.Lemmas.Flt
import Verif.Props.Order
import Mathlib.Tactic.Linarith
import Mathlib.Tactic.NormNum

/-!
# C75: comparison with a tolerance (approx.h)
-/

universe u

set_option linter.unusedSectionVars false
set_option linter.unusedSimpArgs false

namespace vm

section exact
variable {K : Type u} [Field K] [LinearOrder K] [IsStrictOrderedRing K] {S R C : ℕ}

/-- `x == approx(v)` exactly if `x` is within the tolerance of `v`. -/
theorem C75_eq_iff (x : K) (a : Approx K K) : approxEq x a = true ↔ |x - a.value| ≤ a.epsilon := by
  rw [approxEq, Bool.and_eq_true, exact_le, exact_le, decide_eq_true_eq, decide_eq_true_eq, abs_le]
  constructor <;> rintro ⟨h1, h2⟩ <;> constructor <;> linarith

/-- `x < approx(v)` exactly if `x` is less than `v` by more than the tolerance, and correspondingly for `>`. -/
theorem C75_lt_gt_iff (x : K) (a : Approx K K) :
    (approxLt x a = true ↔ a.epsilon < a.value - x) ∧ (approxGt x a = true ↔ a.epsilon < x - a.value) := by
  rw [approxLt, approxGt, exact_lt, exact_lt, decide_eq_true_eq, decide_eq_true_eq]
  constructor <;> constructor <;> intro h <;> linarith

/-- Exactly one of `<`, `==`, `>` holds; `!=` is the negation of `==`, and `<=` and `>=` are the unions of `<` and `==` and
of `>` and `==`. -/
theorem C75_trichotomy (x : K) (a : Approx K K) (heps : 0 ≤ a.epsilon) :
    ((approxLt x a = true ∧ approxEq x a = false ∧ approxGt x a = false) ∨
      (approxLt x a = false ∧ approxEq x a = true ∧ approxGt x a = false) ∨
      (approxLt x a = false ∧ approxEq x a = false ∧ approxGt x a = true)) ∧
    approxNe x a = (approxLt x a || approxGt x a) ∧
    approxLe x a = (approxLt x a || approxEq x a) ∧ approxGe x a = (approxGt x a || approxEq x a) := by
  simp only [approxLt, approxEq, approxGt, approxNe, approxLe, approxGe, exact_le, exact_lt]
  rcases lt_or_ge x (a.value - a.epsilon) with h1 | h1 <;> rcases lt_or_ge (a.value + a.epsilon) x with h2 | h2
  · exfalso; linarith
  · simp [h1, h1.not_ge, h2, h2.not_gt]
  · simp [h1, h1.not_gt, h2, h2.not_ge]
  · simp [h1, h1.not_gt, h2, h2.not_gt]

/-- The operators with the approximate value on the left mean the same as the reversed operators with it on the right. -/
theorem C75_mirrored (x : K) (a : Approx K K) :
    ltApprox a x = approxGt x a ∧ gtApprox a x = approxLt x a ∧
    leApprox a x = approxGe x a ∧ geApprox a x = approxLe x a := by
  simp only [ltApprox, approxGt, gtApprox, approxLt, leApprox, approxGe, geApprox, approxLe, exact_le, exact_lt,
    decide_eq_decide]
  refine ⟨?_, ?_, ?_, ?_⟩ <;> constructor <;> intro h <;> linarith

example : (0:ℚ) ≤ (⟨1, 1/100⟩ : Approx ℚ ℚ).epsilon ∧ approxEq (1 + 1/200 : ℚ) ⟨1, 1/100⟩ = true ∧
    approxLt (9/10 : ℚ) ⟨1, 1/100⟩ = true ∧ approxGt (2 : ℚ) ⟨1, 1/100⟩ = true := by
  decide +kernel

/-- Lists are equal exactly if they have the same length and are equal element by element. -/
theorem C75_list (l : List K) (r : List (Approx K K)) :
    approxListEq l r = true ↔ List.Forall₂ (fun x a => |x - a.value| ≤ a.epsilon) l r := by
  unfold approxListEq
  rw [List.forall₂_iff_zip]
  by_cases h : l.length = r.length
  · rw [if_neg (by simpa using h)]
    simp only [Bool.not_eq_true', List.any_eq_false, approxNe, Bool.not_eq_false, h, true_and, C75_eq_iff]
    constructor
    · intro h1 a b hab; exact h1 _ hab
    · intro h1 p hp; exact h1 hp
  · rw [if_pos h]; simp [h]

example : approxListEq [1, 2] [⟨1, 0⟩, ⟨(3:ℚ), 1⟩] = true ∧ approxListEq [1, 2] [⟨(1:ℚ), 0⟩] = false := by
  decide +kernel

/-- A vector equals an approximate vector exactly if all components are within the tolerance. -/
theorem C75_vec_eq_iff (x : Vec K S) (a : Approx (Vec K S) K) :
    approxVecEq x a = true ↔ ∀ i, |x i - a.value i| ≤ a.epsilon := C02_isEqual_iff _ _ _

/-- A matrix equals an approximate matrix exactly if all elements are within the tolerance. -/
theorem C75_mat_eq_iff (x : Mat K R C) (a : Approx (Mat K R C) K) :
    approxMatEq x a = true ↔ ∀ c r, |x c r - a.value c r| ≤ a.epsilon := by
  simp only [approxMatEq, misEqual, mcompare, beq_iff_eq]
  have key : ∀ c, vcompare (x c) (a.value c) a.epsilon = 0 ↔ ∀ r, |x c r - a.value c r| ≤ a.epsilon := by
    intro c
    rw [← C02_isEqual_iff, visEqual, beq_iff_eq]
  rcases h : (List.finRange C).findSome? fun c =>
      if vcompare (x c) (a.value c) a.epsilon ≠ 0 then some (vcompare (x c) (a.value c) a.epsilon) else none with _ | r
  · simp only [Option.getD_none, true_iff]
    rw [List.findSome?_eq_none_iff] at h
    intro c
    have := h c (List.mem_finRange c)
    rw [← key]
    by_contra hc
    rw [if_pos hc] at this; cases this
  · obtain ⟨c, -, hc⟩ := List.exists_of_findSome?_eq_some h
    by_cases h0 : vcompare (x c) (a.value c) a.epsilon = 0
    · rw [if_neg (by simpa using h0)] at hc; cases hc
    · rw [if_pos h0] at hc
      cases hc
      simp only [Option.getD_some]
      constructor
      · intro h1; exact absurd h1 h0
      · intro h1; exact absurd ((key c).2 (h1 c)) h0

/-- A line equals an approximate line exactly if points and directions are within the tolerance component by
component. -/
theorem C75_line_eq_iff (x : Line K S) (a : Approx (Line K S) K) :
    approxLineEq x a = true ↔ (∀ i, |x.point i - a.value.point i| ≤ a.epsilon) ∧
      ∀ i, |x.direction i - a.value.direction i| ≤ a.epsilon := by
  rw [approxLineEq, Line.isEqual, Bool.and_eq_true, C02_isEqual_iff, C02_isEqual_iff]

/-- For vectors at most one of `<`, `==`, `>` holds, ... -/
theorem C75_vec_exclusive (x : Vec K S) (a : Approx (Vec K S) K) (heps : 0 ≤ a.epsilon) :
    ¬ (approxVecLt x a = true ∧ approxVecEq x a = true) ∧ ¬ (approxVecGt x a = true ∧ approxVecEq x a = true) ∧
      ¬ (approxVecLt x a = true ∧ approxVecGt x a = true) := by
  have gt_iff : ∀ p q : Vec K S, vgt p q = true ↔ vlt q p = true := by
    intro p q
    rw [vlt, vgt, decide_eq_true_eq, decide_eq_true_eq, C02_compare_antisymmetric p q 0 le_rfl, neg_lt_zero]
  have h1 : approxVecLt x a = true ↔ ∃ i, (∀ j < i, x j = a.value j - a.epsilon) ∧ x i < a.value i - a.epsilon := by
    rw [approxVecLt, vlt_exact]; rfl
  have h2 : approxVecGt x a = true ↔ ∃ i, (∀ j < i, a.value j + a.epsilon = x j) ∧ a.value i + a.epsilon < x i := by
    rw [approxVecGt, gt_iff, vlt_exact]; rfl
  rw [h1, h2, C75_vec_eq_iff]
  refine ⟨?_, ?_, ?_⟩
  · rintro ⟨⟨i, -, hi⟩, h⟩
    have := (abs_le.1 (h i)).1; linarith
  · rintro ⟨⟨i, -, hi⟩, h⟩
    have := (abs_le.1 (h i)).2; linarith
  · rintro ⟨⟨i, hi, hi'⟩, ⟨j, hj, hj'⟩⟩
    rcases lt_trichotomy i j with h | h | h
    · have := hj i h; linarith
    · subst h; linarith
    · have := hi j h; linarith

/-- ... but it may be that none of them holds, and then `<=` holds though neither `<` nor `==` does. -/
theorem C75_vec_fails : ∃ (x : Vec ℚ 2) (a : Approx (Vec ℚ 2) ℚ), 0 ≤ a.epsilon ∧ approxVecLt x a = false ∧
    approxVecEq x a = false ∧ approxVecGt x a = false ∧ approxVecLe x a = true :=
  ⟨![0, 5], ⟨![0, 0], 1⟩, by decide +kernel⟩

example : approxVecLt (![0, 5] : Vec ℚ 2) ⟨![2, 5], 1⟩ = true ∧ approxVecGt (![4, 5] : Vec ℚ 2) ⟨![2, 5], 1⟩ = true ∧
    approxVecEq (![1, 6] : Vec ℚ 2) ⟨![2, 5], 1⟩ = true := by decide +kernel

/-- `!=` is the negation of `==` for lists and for vectors: some element is out of tolerance, or the lengths differ. -/
theorem C75_not_equal (l : List K) (r : List (Approx K K)) (x : Vec K S) (a : Approx (Vec K S) K) :
    (approxListNe l r = true ↔ ¬ List.Forall₂ (fun x a => |x - a.value| ≤ a.epsilon) l r) ∧
    (approxVecNe x a = true ↔ ∃ i, a.epsilon < |x i - a.value i|) := by
  constructor
  · rw [← C75_list, approxListNe]; simp
  · rw [approxVecNe, Bool.not_eq_true', ← Bool.not_eq_true, C75_vec_eq_iff]; simp

/-- The operators on vectors with the approximate value on the left: `<` and `>` mean the same as the reversed operators with it on
the right, and `<=` is the negation of `x < approx`. -/
theorem C75_vec_mirrored (x : Vec K S) (a : Approx (Vec K S) K) :
    ltApproxVec a x = approxVecGt x a ∧ gtApproxVec a x = approxVecLt x a ∧
    leApproxVec a x = !(approxVecLt x a) ∧ approxVecLe x a = !(approxVecGt x a) := by
  have gt_lt : ∀ p q : Vec K S, vgt p q = vlt q p := by
    intro p q
    rw [vlt, vgt, decide_eq_decide, C02_compare_antisymmetric p q 0 le_rfl, neg_lt_zero]
  have le_gt : ∀ p q : Vec K S, vle p q = !(vlt q p) := by
    intro p q
    rw [← gt_lt, vle, vgt, Bool.eq_iff_iff]
    simp
  have shift : ∀ p q : Vec K S, vlt (p + fun _ => a.epsilon) q = vlt p (q - fun _ => a.epsilon) := by
    intro p q
    rw [Bool.eq_iff_iff, vlt_exact, vlt_exact]
    show (∃ i, (∀ j < i, p j + a.epsilon = q j) ∧ p i + a.epsilon < q i) ↔
      ∃ i, (∀ j < i, p j = q j - a.epsilon) ∧ p i < q i - a.epsilon
    simp only [eq_sub_iff_add_eq, lt_sub_iff_add_lt]
  refine ⟨?_, ?_, ?_, ?_⟩
  · rw [ltApproxVec, approxVecGt, gt_lt, shift]
  · rw [gtApproxVec, approxVecLt, gt_lt, shift]
  · rw [leApproxVec, approxVecLt, le_gt, shift]
  · rw [approxVecLe, approxVecGt, le_gt, gt_lt]

example : approxListNe [1, 2] [⟨1, 0⟩, ⟨(4:ℚ), 1⟩] = true ∧ approxVecNe (![1, 7] : Vec ℚ 2) ⟨![2, 5], 1⟩ = true ∧
    ltApproxVec ⟨![2, 5], 1⟩ (![4, 5] : Vec ℚ 2) = true ∧ leApproxVec ⟨![2, 5], 1⟩ (![0, 5] : Vec ℚ 2) = false := by
  decide +kernel

/-- With a single component, the operators on vectors are those on scalars. -/
theorem C75_vec_one (x : Vec K 1) (a : Approx (Vec K 1) K) :
    approxVecLt x a = approxLt (x 0) ⟨a.value 0, a.epsilon⟩ ∧ approxVecEq x a = approxEq (x 0) ⟨a.value 0, a.epsilon⟩ ∧
      approxVecGt x a = approxGt (x 0) ⟨a.value 0, a.epsilon⟩ := by
  have gt_iff : ∀ p q : Vec K 1, vgt p q = true ↔ vlt q p = true := by
    intro p q
    rw [vlt, vgt, decide_eq_true_eq, decide_eq_true_eq, C02_compare_antisymmetric p q 0 le_rfl, neg_lt_zero]
  have lt1 : ∀ p q : Vec K 1, vlt p q = true ↔ p 0 < q 0 := by
    intro p q
    rw [vlt_exact]
    constructor
    · rintro ⟨i, -, hi⟩
      rw [Subsingleton.elim (0 : Fin 1) i]; exact hi
    · intro h
      exact ⟨0, fun j hj => absurd hj (by rw [Subsingleton.elim j 0]; exact lt_irrefl _), h⟩
  refine ⟨?_, ?_, ?_⟩ <;> rw [Bool.eq_iff_iff]
  · rw [approxVecLt, lt1, approxLt, exact_lt, decide_eq_true_eq]; rfl
  · rw [C75_vec_eq_iff, C75_eq_iff]
    constructor
    · intro h; exact h 0
    · intro h i; rw [Subsingleton.elim i 0]; exact h
  · rw [approxVecGt, gt_iff, lt1, approxGt, exact_lt, decide_eq_true_eq]; rfl

end exact

/-! ### Floating point -/

section flt
variable {F : Fmt}

/-- A finite float plus or minus a number that is not NaN is not NaN. -/
theorem Flt.key_add_of_finite {a b : Flt F} (ha : a.isFinite) (hb : ∃ y, IEEE.key b = some y) :
    ∃ y, IEEE.key (a + b) = some y := by
  obtain ⟨y, hy⟩ := hb
  rcases a with _ | _ | _ | ⟨a, ha'⟩
  · exact absurd ha (by simp [Flt.isFinite])
  · exact absurd ha (by simp [Flt.isFinite])
  · exact absurd ha (by simp [Flt.isFinite])
  rcases b with _ | _ | _ | ⟨b, hb'⟩
  · cases hy
  · exact ⟨_, rfl⟩
  · exact ⟨_, rfl⟩
  · exact ⟨_, Flt.key_round (F := F) (a + b)⟩

theorem Flt.key_neg_some {b : Flt F} (hb : ∃ y, IEEE.key b = some y) : ∃ y, IEEE.key (-b) = some y := by
  obtain ⟨y, hy⟩ := hb
  rcases b with _ | _ | _ | ⟨b, hb'⟩
  · cases hy
  · exact ⟨_, rfl⟩
  · exact ⟨_, rfl⟩
  · exact ⟨_, rfl⟩

/-- Trichotomy in floating point: for a finite value, a tolerance that is not negative and any number (not NaN), exactly one
of the three operators holds, and `<=` and `>=` are the unions, though `v - eps` and `v + eps` are rounded. -/
theorem C75_float_trichotomy (x : Flt F) (a : Approx (Flt F) (Flt F)) (hx : isNan x = false) (hv : a.value.isFinite)
    (heps : Cmp.le 0 a.epsilon = true) :
    ((approxLt x a = true ∧ approxEq x a = false ∧ approxGt x a = false) ∨
      (approxLt x a = false ∧ approxEq x a = true ∧ approxGt x a = false) ∨
      (approxLt x a = false ∧ approxEq x a = false ∧ approxGt x a = true)) ∧
    approxNe x a = (approxLt x a || approxGt x a) ∧
    approxLe x a = (approxLt x a || approxEq x a) ∧ approxGe x a = (approxGt x a || approxEq x a) := by
  obtain ⟨z, e, -, he, -⟩ := (IEEE.le_iff _ _).1 heps
  obtain ⟨hi, hhi⟩ := Flt.key_add_of_finite hv ⟨e, he⟩
  obtain ⟨lo, hlo⟩ := Flt.key_add_of_finite hv (Flt.key_neg_some ⟨e, he⟩)
  have hlo : IEEE.key (a.value - a.epsilon) = some lo := hlo
  have hlh : lo ≤ hi := by
    have h := Flt.expand_mono (a := a.value) (b := a.value) (f := a.epsilon)
      (Flt.lt_false_iff.2 fun p q hp hq => by
        rw [hp] at hq; cases hq; exact le_rfl) heps
    rw [Flt.lt_false_iff] at h
    exact h _ _ hhi hlo
  obtain ⟨k, hk⟩ : ∃ k, IEEE.key x = some k := by
    rcases h : IEEE.key x with _ | k
    · rw [← isNan_iff_key] at h; rw [h] at hx; cases hx
    · exact ⟨k, rfl⟩
  have hlt : ∀ (p q : Flt F) (s t : IEEE.Key (Flt F)), IEEE.key p = some s → IEEE.key q = some t →
      Cmp.lt p q = decide (s < t) := by
    intro p q s t hp hq
    rw [Bool.eq_iff_iff, IEEE.lt_iff, decide_eq_true_eq]
    constructor
    · rintro ⟨s', t', hs, ht, h⟩; rw [hp] at hs; rw [hq] at ht; cases hs; cases ht; exact h
    · intro h; exact ⟨_, _, hp, hq, h⟩
  have hle : ∀ (p q : Flt F) (s t : IEEE.Key (Flt F)), IEEE.key p = some s → IEEE.key q = some t →
      Cmp.le p q = decide (s ≤ t) := by
    intro p q s t hp hq
    rw [Bool.eq_iff_iff, IEEE.le_iff, decide_eq_true_eq]
    constructor
    · rintro ⟨s', t', hs, ht, h⟩; rw [hp] at hs; rw [hq] at ht; cases hs; cases ht; exact h
    · intro h; exact ⟨_, _, hp, hq, h⟩
  simp only [approxLt, approxEq, approxGt, approxNe, approxLe, approxGe, hlt _ _ _ _ hk hlo, hlt _ _ _ _ hhi hk,
    hle _ _ _ _ hlo hk, hle _ _ _ _ hk hhi]
  rcases lt_or_ge k lo with h1 | h1 <;> rcases lt_or_ge hi k with h2 | h2
  · exact absurd (h2.trans h1) hlh.not_gt
  · simp [h1, h1.not_ge, h2, h2.not_gt]
  · simp [h1, h1.not_gt, h2, h2.not_ge]
  · simp [h1, h1.not_gt, h2, h2.not_gt]

/-- NaN is neither less than, nor equal to, nor greater than any approximate value, and `!=` holds. -/
theorem C75_nan (x : Flt F) (a : Approx (Flt F) (Flt F)) (hx : isNan x = true) :
    approxLt x a = false ∧ approxEq x a = false ∧ approxGt x a = false ∧ approxLe x a = false ∧
      approxGe x a = false ∧ approxNe x a = true := by
  rw [isNan_iff_key] at hx
  have hlt : ∀ q : Flt F, Cmp.lt x q = false ∧ Cmp.lt q x = false ∧ Cmp.le x q = false ∧ Cmp.le q x = false := by
    intro q
    refine ⟨?_, ?_, ?_, ?_⟩ <;> rw [Bool.eq_false_iff, ne_eq]
    · rw [IEEE.lt_iff]; rintro ⟨s, t, hs, ht, -⟩; rw [hx] at hs; cases hs
    · rw [IEEE.lt_iff]; rintro ⟨s, t, hs, ht, -⟩; rw [hx] at ht; cases ht
    · rw [IEEE.le_iff]; rintro ⟨s, t, hs, ht, -⟩; rw [hx] at hs; cases hs
    · rw [IEEE.le_iff]; rintro ⟨s, t, hs, ht, -⟩; rw [hx] at ht; cases ht
  simp [approxLt, approxEq, approxGt, approxLe, approxGe, approxNe, hlt]

example : isNan (1 : Flt exactFmt) = false ∧ (1 : Flt exactFmt).isFinite ∧ Cmp.le (0 : Flt exactFmt) 1 = true ∧
    isNan (Flt.nan : Flt exactFmt) = true := by
  refine ⟨rfl, trivial, rfl, rfl⟩

end flt
end vm
