import Verif.Props.Rounding
import Mathlib.Data.Nat.ModEq
import Mathlib.Data.Int.ModEq
import Mathlib.Algebra.Order.Archimedean.Basic

/-! # C08 to C11, C15: angles, cyclic indices, correction, difference, interpolation -/

universe u

set_option linter.unusedSectionVars false
set_option linter.unusedSimpArgs false

namespace vm

/-! ### C08 -/
section C08
variable {K : Type u} [Field K] [LinearOrder K] [IsStrictOrderedRing K]

theorem addUntilNonneg_some {o : K} {fuel : ℕ} {a r : K}
    (h : addUntilNonneg o fuel a = some r) : 0 ≤ r ∧ ∃ k : ℕ, r = a + k * o ∧ (a < 0 → r < o) := by
  induction fuel generalizing a with
  | zero =>
    simp only [addUntilNonneg, exact_lt, decide_eq_true_eq] at h
    split_ifs at h with h0
    cases h
    exact ⟨not_lt.1 h0, 0, by simp, fun h => absurd h h0⟩
  | succ n ih =>
    simp only [addUntilNonneg, exact_lt, decide_eq_true_eq] at h
    split_ifs at h with h0
    · obtain ⟨h1, k, rfl, h3⟩ := ih h
      refine ⟨h1, k + 1, by push_cast; ring, fun _ => ?_⟩
      by_cases h4 : a + o < 0
      · exact h3 h4
      · have h5 : addUntilNonneg o n (a + o) = some (a + o) := by
          cases n <;> simp only [addUntilNonneg, exact_lt, decide_eq_true_eq, if_neg h4]
        rw [h5, Option.some.injEq] at h
        rw [← h]; linarith
    · cases h
      exact ⟨not_lt.1 h0, 0, by simp, fun h => absurd h h0⟩

theorem addUntilNonneg_of_le {o : K} {n fuel : ℕ} (hn : n ≤ fuel) {a : K}
    (h : 0 ≤ a + n * o) : ∃ r, addUntilNonneg o fuel a = some r := by
  induction fuel generalizing a n with
  | zero =>
    obtain rfl : n = 0 := by omega
    simp at h
    exact ⟨a, by simp [addUntilNonneg, h]⟩
  | succ m ih =>
    simp only [addUntilNonneg, exact_lt, decide_eq_true_eq]
    split_ifs with h0
    · cases n with
      | zero => simp at h; exact absurd h0 (not_lt.2 h)
      | succ n => exact ih (n := n) (by omega) (by push_cast at h; linarith)
    · exact ⟨_, rfl⟩

theorem addUntilNonneg_fuel {o : K} {n fuel : ℕ} (hn : n ≤ fuel) {a r : K}
    (h : addUntilNonneg o n a = some r) : addUntilNonneg o fuel a = some r := by
  induction fuel generalizing a n with
  | zero => obtain rfl : n = 0 := by omega
            exact h
  | succ m ih =>
    simp only [addUntilNonneg, exact_lt, decide_eq_true_eq]
    cases n with
    | zero =>
      simp only [addUntilNonneg, exact_lt, decide_eq_true_eq] at h
      split_ifs at h with h0
      simp [h0, h]
    | succ n =>
      simp only [addUntilNonneg, exact_lt, decide_eq_true_eq] at h
      split_ifs at h with h0
      · simp [h0, ih (n := n) (by omega) h]
      · simp [h0, h]

variable [FloorRing K]

/-- In exact arithmetic the normalisation of an angle terminates: from some number of loop iterations on
the result is the same value of `[0, o)`, which is congruent to the angle modulo the full turn `o`.
The side condition is the range of the `int64_t` conversion in `mod`. -/
theorem C08_normalize (o angle : K) (ho : 0 < o) (ha : angle < 2 ^ 63 * o) :
    ∃ (fuel₀ : ℕ) (r : K), (∀ fuel ≥ fuel₀, normalizeAngle o fuel angle = some r) ∧
      0 ≤ r ∧ r < o ∧ ∃ k : ℤ, r = angle + k * o := by
  obtain ⟨n, hn⟩ := exists_nat_ge (-angle / o)
  have h1 : 0 ≤ angle + n * o := by
    rw [div_le_iff₀ ho] at hn; linarith
  obtain ⟨s, hs⟩ := addUntilNonneg_of_le le_rfl h1
  obtain ⟨hs0, k, hk, hlt⟩ := addUntilNonneg_some hs
  have hs1 : s < 2 ^ 63 * o := by
    by_cases h0 : angle < 0
    · have := hlt h0; nlinarith
    · have : s = angle := by
        cases n <;> simp [addUntilNonneg, h0] at hs <;> exact hs.symm
      rw [this]; exact ha
  have hr : InInt64 (s / o) := by
    refine ⟨?_, by rw [div_lt_iff₀ ho]; exact hs1⟩
    have : 0 ≤ s / o := by positivity
    have h2 : (0 : K) < 2 ^ 63 := by positivity
    linarith
  obtain ⟨r, hmod⟩ : ∃ r, mod s o = some r := by
    rw [mod, if_neg ho.ne', trunc_eq hr]; exact ⟨_, rfl⟩
  obtain ⟨-, -, m1, m2, m3, m, hm⟩ := (C07_mod _ _ _).1 hmod
  have hr0 : 0 ≤ r := by
    rcases hs0.eq_or_lt with h0 | h0
    · rw [← h0] at m3; simp at m3; rw [m3]
    · exact nonneg_of_mul_nonneg_left m1 h0
  refine ⟨n, r, fun fuel hf => ?_, hr0, ?_, (k : ℤ) - m, ?_⟩
  · rw [normalizeAngle, addUntilNonneg_fuel hf hs]; exact hmod
  · rw [abs_of_nonneg hr0, abs_of_pos ho] at m2; exact m2
  · push_cast
    have : r = s - o * m := by rw [hm]; ring
    rw [this, hk]; ring

/-- The representative in `[0, o)` is unique, so the previous theorem determines the result. -/
theorem C08_unique (o angle r r' : K) (hr : 0 ≤ r ∧ r < o) (hr' : 0 ≤ r' ∧ r' < o)
    (h : ∃ k : ℤ, r = angle + k * o) (h' : ∃ k : ℤ, r' = angle + k * o) : r = r' := by
  obtain ⟨k, rfl⟩ := h
  obtain ⟨l, rfl⟩ := h'
  have ho : 0 < o := lt_of_le_of_lt hr.1 hr.2
  have h1 : ((k - l : ℤ) : K) * o < 1 * o := by push_cast; linarith
  have h2 : ((l - k : ℤ) : K) * o < 1 * o := by push_cast; linarith
  have h3 : ((k - l : ℤ) : K) < 1 := lt_of_mul_lt_mul_right h1 ho.le
  have h4 : ((l - k : ℤ) : K) < 1 := lt_of_mul_lt_mul_right h2 ho.le
  have h5 : k - l < 1 := by exact_mod_cast h3
  have h6 : l - k < 1 := by exact_mod_cast h4
  have : k = l := by omega
  rw [this]

example : ((0 : ℚ) < 360) ∧ ((-725 : ℚ) < 2 ^ 63 * 360) ∧
    normalizeAngle (360 : ℚ) 3 (-725) = some 355 := by
  refine ⟨by norm_num, by norm_num, ?_⟩
  have h : mod (355 : ℚ) 360 = some 355 := by
    rw [C07_mod]
    exact ⟨by norm_num, by unfold InInt64; norm_num, by norm_num, by norm_num, by norm_num, 0, by norm_num⟩
  norm_num [normalizeAngle, addUntilNonneg, h]

end C08

section C08float
variable {T : Type u} [Cmp T] [Zero T] [Add T]

/-- With rounding the loop need not terminate: if adding a full turn to a negative angle is absorbed by
rounding then no number of iterations suffices. -/
theorem C08_absorption_diverges (o angle : T) (hneg : Cmp.lt angle 0 = true) (habs : angle + o = angle)
    (fuel : ℕ) : addUntilNonneg o fuel angle = none := by
  induction fuel with
  | zero => simp [addUntilNonneg, hneg]
  | succ n ih => simp [addUntilNonneg, hneg, habs, ih]

/-- Minus infinity is such an angle in every floating point format. -/
theorem C08_neg_infinity_diverges {F : Fmt} (q : ℚ) (h : F.rep q) (fuel : ℕ) :
    addUntilNonneg (Flt.fin q h : Flt F) fuel Flt.ninf = none := by
  apply C08_absorption_diverges
  · show decide _ = true
    rw [decide_eq_true_eq]
    exact WithBot.bot_lt_coe _
  · rfl

end C08float

/-! ### C09 -/
section C09

/-- `succ` is addition modulo `count` provided the addition does not wrap around. -/
theorem C09_succ {w : ℕ} (index count stride : BitVec w) (hc : count ≠ 0)
    (h : index.toNat + stride.toNat < 2 ^ w) :
    ∃ r, succBV index count stride = some r ∧
      r.toNat = (index.toNat + stride.toNat) % count.toNat ∧ r.toNat < count.toNat := by
  have hc' : 0 < count.toNat := by
    rcases Nat.eq_zero_or_pos count.toNat with h0 | h0
    · exact absurd (BitVec.eq_of_toNat_eq (by simpa using h0)) hc
    · exact h0
  refine ⟨_, if_neg hc, ?_, ?_⟩
  · rw [BitVec.toNat_umod, BitVec.toNat_add, Nat.mod_eq_of_lt h]
  · rw [BitVec.toNat_umod]; exact Nat.mod_lt _ hc'

/-- `pred` is subtraction modulo `count` provided `index + count` does not wrap around. -/
theorem C09_pred {w : ℕ} (index count stride : BitVec w) (hc : count ≠ 0)
    (h : index.toNat + count.toNat < 2 ^ w) :
    ∃ r, predBV index count stride = some r ∧
      (r.toNat : ℤ) = ((index.toNat : ℤ) - stride.toNat) % count.toNat ∧ r.toNat < count.toNat := by
  have hc' : 0 < count.toNat := by
    rcases Nat.eq_zero_or_pos count.toNat with h0 | h0
    · exact absurd (BitVec.eq_of_toNat_eq (by simpa using h0)) hc
    · exact h0
  have hs := Nat.mod_lt stride.toNat hc'
  refine ⟨_, if_neg hc, ?_, ?_⟩
  · rw [BitVec.toNat_umod, BitVec.toNat_sub_of_le, BitVec.toNat_add, Nat.mod_eq_of_lt h,
      BitVec.toNat_umod]
    · push_cast
      rw [Nat.cast_sub (by omega)]
      push_cast
      have : ((index.toNat : ℤ) + count.toNat - (stride.toNat : ℤ) % count.toNat) =
          ((index.toNat : ℤ) - stride.toNat) + count.toNat * (1 + (stride.toNat : ℤ) / count.toNat) := by
        have := Int.mul_ediv_add_emod (stride.toNat : ℤ) count.toNat
        linarith
      rw [this, Int.add_mul_emod_self_left]
    · rw [BitVec.le_def, BitVec.toNat_add, Nat.mod_eq_of_lt h, BitVec.toNat_umod]; omega
  · rw [BitVec.toNat_umod]; exact Nat.mod_lt _ hc'

/-- `succ` and `pred` with the same stride undo each other. -/
theorem C09_inverse {w : ℕ} (index count stride : BitVec w) (hi : index.toNat < count.toNat)
    (h1 : index.toNat + stride.toNat < 2 ^ w) (h2 : 2 * count.toNat ≤ 2 ^ w)
    (h3 : count.toNat + stride.toNat ≤ 2 ^ w) :
    (∃ r, succBV index count stride = some r ∧ predBV r count stride = some index) ∧
    (∃ r, predBV index count stride = some r ∧ succBV r count stride = some index) := by
  have hc : count ≠ 0 := by rintro rfl; simp at hi
  have aux : ∀ (m n i : ℤ), 0 ≤ i → i < n → (i + m) % n % n = (i + m) % n := by
    intros; exact Int.emod_emod_of_dvd _ dvd_rfl
  constructor
  · obtain ⟨r, hr, hr1, hr2⟩ := C09_succ index count stride hc h1
    obtain ⟨s, hs, hs1, hs2⟩ := C09_pred r count stride hc (by omega)
    refine ⟨r, hr, ?_⟩
    rw [hs]; congr 1
    apply BitVec.eq_of_toNat_eq
    have h4 : (s.toNat : ℤ) = index.toNat := by
      rw [hs1, hr1]; push_cast
      rw [Int.emod_sub_emod, add_sub_cancel_right]
      exact Int.emod_eq_of_lt (by omega) (by omega)
    exact_mod_cast h4
  · obtain ⟨r, hr, hr1, hr2⟩ := C09_pred index count stride hc (by omega)
    obtain ⟨s, hs, hs1, hs2⟩ := C09_succ r count stride hc (by omega)
    refine ⟨r, hr, ?_⟩
    rw [hs]; congr 1
    apply BitVec.eq_of_toNat_eq
    have h4 : (s.toNat : ℤ) = index.toNat := by
      rw [hs1]; push_cast; rw [hr1]
      rw [Int.emod_add_emod, sub_add_cancel]
      exact Int.emod_eq_of_lt (by omega) (by omega)
    exact_mod_cast h4

/-- `k` steps of `succ` with stride one. -/
def succIter {w : ℕ} (count : BitVec w) : ℕ → BitVec w → Option (BitVec w)
  | 0, i => some i
  | k + 1, i => (succBV i count 1).bind (succIter count k)

theorem succIter_eq {w : ℕ} (count : BitVec w) (k : ℕ) (i : BitVec w) (hi : i.toNat < count.toNat) :
    ∃ r, succIter count k i = some r ∧ r.toNat = (i.toNat + k) % count.toNat := by
  have hc : count ≠ 0 := by rintro rfl; simp at hi
  have hw : count.toNat < 2 ^ w := count.isLt
  induction k generalizing i with
  | zero => exact ⟨i, rfl, by simp [Nat.mod_eq_of_lt hi]⟩
  | succ k ih =>
    have h1' : (1 : BitVec w).toNat = 1 := by
      cases w with
      | zero => simp at hw; omega
      | succ w => simp
    obtain ⟨r, hr, hr1, hr2⟩ := C09_succ i count 1 hc (by omega)
    obtain ⟨s, hs, hs1⟩ := ih r hr2
    refine ⟨s, by rw [succIter, hr]; exact hs, ?_⟩
    rw [hs1, hr1, h1', Nat.mod_add_mod]
    congr 1; omega

/-- Iterating `succ` with stride one `count` times returns to the start, and every index below `count` is
visited exactly once on the way. -/
theorem C09_cycle {w : ℕ} (count i : BitVec w) (hi : i.toNat < count.toNat) :
    succIter count count.toNat i = some i ∧
    ∀ j : BitVec w, j.toNat < count.toNat →
      ∃! k : ℕ, k < count.toNat ∧ succIter count k i = some j := by
  constructor
  · obtain ⟨r, hr, hr1⟩ := succIter_eq count count.toNat i hi
    rw [hr]; congr 1
    apply BitVec.eq_of_toNat_eq
    rw [hr1, Nat.add_mod_right, Nat.mod_eq_of_lt hi]
  · intro j hj
    have hk : ∀ k, k < count.toNat → (succIter count k i = some j ↔
        (i.toNat + k) % count.toNat = j.toNat) := by
      intro k _
      obtain ⟨r, hr, hr1⟩ := succIter_eq count k i hi
      rw [hr, ← hr1, Option.some.injEq]
      exact ⟨fun h => by rw [h], fun h => BitVec.eq_of_toNat_eq h⟩
    by_cases hij : i.toNat ≤ j.toNat
    · refine ⟨j.toNat - i.toNat, ⟨by omega, ?_⟩, ?_⟩
      · rw [hk _ (by omega), Nat.mod_eq_of_lt (by omega)]; omega
      · rintro k ⟨h1, h2⟩
        rw [hk _ h1] at h2
        by_cases h3 : i.toNat + k < count.toNat
        · rw [Nat.mod_eq_of_lt h3] at h2; omega
        · rw [Nat.mod_eq_sub_mod (by omega), Nat.mod_eq_of_lt (by omega)] at h2; omega
    · refine ⟨j.toNat + count.toNat - i.toNat, ⟨by omega, ?_⟩, ?_⟩
      · rw [hk _ (by omega), Nat.mod_eq_sub_mod (by omega), Nat.mod_eq_of_lt (by omega)]; omega
      · rintro k ⟨h1, h2⟩
        rw [hk _ h1] at h2
        by_cases h3 : i.toNat + k < count.toNat
        · rw [Nat.mod_eq_of_lt h3] at h2; omega
        · rw [Nat.mod_eq_sub_mod (by omega), Nat.mod_eq_of_lt (by omega)] at h2; omega

/-- For a signed index type `pred` is subtraction modulo `count` for every stride, negative ones
included, and `succ` is addition modulo `count` for non-negative sums. -/
theorem C09_signed (index count stride : ℤ) (hi : 0 ≤ index) (hc : 0 < count) :
    predInt index count stride = some ((index - stride) % count) ∧
    (0 ≤ index + stride → succInt index count stride = some ((index + stride) % count)) := by
  constructor
  · rw [predInt, if_neg hc.ne']
    have h1 : stride.tmod count < count := Int.tmod_lt_of_pos _ hc
    rw [Int.tmod_eq_emod_of_nonneg (by omega)]
    have h2 := Int.mul_tdiv_add_tmod stride count
    have h3 : index + count - stride.tmod count = (index - stride) + count * (1 + stride.tdiv count) := by
      linarith
    rw [h3, Int.add_mul_emod_self_left]
  · intro h
    rw [succInt, if_neg hc.ne', Int.tmod_eq_emod_of_nonneg h]

/-- A negative stride can make `succ` leave the range `0 .. count-1`. -/
theorem C09_succ_negative_stride : succInt 0 4 (-1) = some (-1) := by decide

example : succBV (3 : BitVec 64) 4 1 = some 0 ∧ predBV (0 : BitVec 64) 4 1 = some 3 ∧
    (4 : BitVec 64) ≠ 0 ∧ (3 : BitVec 64).toNat + (1 : BitVec 64).toNat < 2 ^ 64 ∧
    (3 : BitVec 64).toNat + (4 : BitVec 64).toNat < 2 ^ 64 ∧
    (3 : BitVec 64).toNat < (4 : BitVec 64).toNat ∧ 2 * (4 : BitVec 64).toNat ≤ 2 ^ 64 ∧
    (4 : BitVec 64).toNat + (1 : BitVec 64).toNat ≤ 2 ^ 64 := by decide

example : predInt 0 4 (-3) = some 3 ∧ succInt 3 4 2 = some 1 := by decide

end C09

/-! ### C10 -/
section C10
variable {K : Type u} [Field K] [LinearOrder K] [IsStrictOrderedRing K] [FloorRing K]

/-- With zero decimals (the default) `correct` returns the nearest integer if the value is closer to
it than epsilon and the value itself otherwise. -/
theorem C10_correct_partial (v epsilon : K) (h : RoundRange v) :
    (∃ n : ℤ, |v - n| < epsilon ∧ |v - n| ≤ 1 / 2 ∧ correct v 0 epsilon = some (n : K)) ∨
    ((∀ n : ℤ, epsilon ≤ |v - n|) ∧ correct v 0 epsilon = some v) := by
  obtain ⟨r, hr⟩ : ∃ r, round v = some r := by
    rcases lt_or_ge 0 v with h0 | h0
    · exact ⟨_, round_pos h h0⟩
    · exact ⟨_, round_nonpos h h0⟩
  obtain ⟨-, n, rfl, h1, h2⟩ := (C05_round _ _).1 hr
  simp only [correct, pow_zero, mul_one, div_one, hr, Option.map_some, abs_exact]
  rw [if_neg (by norm_num)]
  by_cases h3 : |v - n| < epsilon
  · left; exact ⟨n, h3, h1, by simp [h3]⟩
  · right
    refine ⟨fun m => ?_, by simp [h3]⟩
    rw [not_lt] at h3
    refine h3.trans ?_
    by_cases hm : m = n
    · rw [hm]
    · have h5 : (1 : K) ≤ |(n : K) - m| := by
        have : 1 ≤ |n - m| := Int.one_le_abs (sub_ne_zero.2 (Ne.symm hm))
        exact_mod_cast this
      have h4 : |(n : K) - m| ≤ |v - m| + |v - n| := by
        have := abs_sub_le (n : K) v m
        rw [abs_sub_comm (n : K) v] at this
        linarith
      linarith

/-- With one or more decimals and an epsilon of at most 1/4 (the default is 0.001) the function does not
round at all: it returns the value itself or, for values below epsilon, zero. -/
theorem C10_correct_decimals_inert (v epsilon r : K) (d : ℕ) (hd : 1 ≤ d) (he : epsilon ≤ 1 / 4)
    (h : correct v d epsilon = some r) : r = v ∨ (r = 0 ∧ |v| < epsilon) := by
  unfold correct at h
  split_ifs at h with h32
  simp only [Option.map_eq_some_iff, abs_exact] at h
  obtain ⟨q, hq, rfl⟩ := h
  obtain ⟨-, n, rfl, h1, -⟩ := (C05_round _ _).1 hq
  split_ifs with h2
  · right
    have hm : (2 : K) ≤ 2 ^ d := by
      calc (2 : K) = 2 ^ 1 := by norm_num
        _ ≤ 2 ^ d := pow_le_pow_right₀ (by norm_num) hd
    -- |v·m - n| ≤ 1/2 and |v - n| < 1/4 force n = 0
    have hn : n = 0 := by
      by_contra hn
      have h3 : (1 : K) ≤ |(n : K)| := by exact_mod_cast Int.one_le_abs hn
      have h5 : |v| * (2 ^ d - 1) ≤ |v * 2 ^ d - n| + |v - n| := by
        have h6 : |v * (2 ^ d - 1)| = |(v * 2 ^ d - n) - (v - n)| := by congr 1; ring
        rw [abs_mul, abs_of_nonneg (by linarith : (0 : K) ≤ 2 ^ d - 1)] at h6
        rw [h6]; exact abs_sub _ _
      have h7 : |(n : K)| ≤ |v| + |v - n| := by
        have : (n : K) = v - (v - n) := by ring
        calc |(n : K)| = |v - (v - n)| := by rw [← this]
          _ ≤ |v| + |v - n| := abs_sub _ _
      nlinarith [abs_nonneg v]
    subst hn
    simp at h2 ⊢; exact h2
  · left; rfl

/-- Hence values within epsilon of a multiple of 1/2 are not corrected with one decimal digit of
precision: the claim of C10 fails for `v = 0.5001`. -/
theorem C10_counterexample : correct (5001 / 10000 : ℚ) 1 (1 / 1000) = some (5001 / 10000) := by
  have h : RoundRange (5001 / 10000 * 2 ^ 1 : ℚ) := by unfold RoundRange; norm_num
  have h2 : round (5001 / 10000 * 2 ^ 1 : ℚ) = some 1 := by
    rw [C05_round]; exact ⟨h, 1, by norm_num, by norm_num [abs_of_pos], by norm_num [abs_of_pos]⟩
  simp only [correct, h2, Option.map_some, abs_exact]
  norm_num [abs_of_neg]

example : correct (20001 / 10000 : ℚ) 0 (1 / 1000) = some 2 ∧ RoundRange (20001 / 10000 : ℚ) := by
  have h : RoundRange (20001 / 10000 : ℚ) := by unfold RoundRange; norm_num
  refine ⟨?_, h⟩
  have h2 : round (20001 / 10000 : ℚ) = some 2 := by
    rw [C05_round]; exact ⟨h, 2, by norm_num, by norm_num [abs_of_pos], by norm_num [abs_of_pos]⟩
  simp only [correct, pow_zero, mul_one, h2, Option.map_some, abs_exact]
  norm_num [abs_of_pos]

end C10

/-! ### C11 -/
section C11
variable {K : Type u} [Field K] [LinearOrder K] [IsStrictOrderedRing K]

/-- For signed types `abs_difference` is `||a| - |b||`, which is the absolute difference exactly for
arguments that do not have opposite signs. -/
theorem C11_signed_partial (a b : K) : absDifference a b = |a - b| ↔ 0 ≤ a * b := by
  simp only [absDifference, abs_exact]
  rcases le_total 0 a with ha | ha <;> rcases le_total 0 b with hb | hb
  · simp [abs_of_nonneg ha, abs_of_nonneg hb, mul_nonneg ha hb]
  · rw [abs_of_nonneg ha, abs_of_nonpos hb]
    rw [abs_of_nonneg (by linarith : 0 ≤ a - b), sub_neg_eq_add]
    constructor
    · intro h
      rcases abs_eq (by linarith : 0 ≤ a - b) |>.1 h with h | h
      · have : b = 0 := by linarith
        simp [this]
      · have : a = 0 := by linarith
        simp [this]
    · intro h
      rcases mul_eq_zero.1 (le_antisymm (mul_nonpos_of_nonneg_of_nonpos ha hb) h) with h | h
      · simp [h, abs_of_nonpos hb]
      · simp [h, abs_of_nonneg ha]
  · rw [abs_of_nonpos ha, abs_of_nonneg hb]
    rw [abs_of_nonpos (by linarith : a - b ≤ 0)]
    constructor
    · intro h
      rcases abs_eq (by linarith : 0 ≤ -(a - b)) |>.1 h with h | h
      · have : b = 0 := by linarith
        simp [this]
      · have : a = 0 := by linarith
        simp [this]
    · intro h
      rcases mul_eq_zero.1 (le_antisymm (mul_nonpos_of_nonpos_of_nonneg ha hb) h) with h | h
      · simp [h, abs_of_nonneg hb]
      · simp [h, abs_of_nonpos ha]
  · simp only [abs_of_nonpos ha, abs_of_nonpos hb, mul_nonneg_of_nonpos_of_nonpos ha hb, iff_true]
    rw [← abs_neg]; congr 1; ring

/-- The claim of C11 fails for arguments of opposite sign. -/
theorem C11_counterexample : absDifference (1 : ℚ) (-1) = 0 ∧ |(1 : ℚ) - (-1)| = 2 := by
  simp only [absDifference, abs_exact]; norm_num

/-- For unsigned types the result is the absolute difference of the represented numbers. -/
theorem C11_unsigned {w : ℕ} (a b : BitVec w) :
    ((absDifferenceUnsigned a b).toNat : ℤ) = |(a.toNat : ℤ) - b.toNat| := by
  unfold absDifferenceUnsigned
  by_cases h : b.toNat < a.toNat
  · have h1 : (Cmp.lt b a : Bool) = true := by
      show BitVec.ult b a = true
      rw [BitVec.ult]; simpa using h
    rw [if_pos h1, BitVec.toNat_sub_of_le (BitVec.le_def.2 h.le), abs_of_pos (by omega)]
    omega
  · have h1 : ¬ (Cmp.lt b a : Bool) = true := by
      show ¬ BitVec.ult b a = true
      rw [BitVec.ult]; simpa using h
    rw [if_neg h1, BitVec.toNat_sub_of_le (BitVec.le_def.2 (by omega)), abs_of_nonpos (by omega)]
    omega

example : absDifference (-3 : ℚ) (-5) = 2 ∧ (0 : ℚ) ≤ -3 * -5 ∧
    absDifferenceUnsigned (3 : BitVec 8) 5 = 2 := by
  simp only [absDifference, abs_exact]
  refine ⟨by norm_num [abs_of_neg], by norm_num, by decide⟩

end C11

/-! ### C15 -/
section C15
variable {K : Type u} [Field K] [LinearOrder K] [IsStrictOrderedRing K]

/-- `mix` interpolates: it takes the end values at parameters 0 and 1, is affine in the parameter and
stays between the end values for parameters in `[0,1]`. -/
theorem C15_mix (x y a b s : K) :
    mix x y 0 = x ∧ mix x y 1 = y ∧
    mix x y ((1 - s) * a + s * b) = (1 - s) * mix x y a + s * mix x y b ∧
    (0 ≤ a → a ≤ 1 → min x y ≤ mix x y a ∧ mix x y a ≤ max x y) := by
  refine ⟨by simp [mix], by simp [mix], by simp [mix]; ring, fun h0 h1 => ?_⟩
  unfold mix
  rcases le_total x y with h | h
  · rw [min_eq_left h, max_eq_right h]; constructor <;> nlinarith
  · rw [min_eq_right h, max_eq_left h]; constructor <;> nlinarith

/-- `mix` is monotone in its parameter if `x ≤ y`. -/
theorem C15_mix_monotone (x y a b : K) (hxy : x ≤ y) (hab : a ≤ b) : mix x y a ≤ mix x y b := by
  unfold mix; nlinarith

/-- Vector `mix` acts on every component. -/
theorem C15_vmix {S : ℕ} (x y f : Vec K S) (i : Fin S) : vmix x y f i = mix (x i) (y i) (f i) := rfl

/-- `smoothstep` is 0 below the lower edge, 1 above the upper edge, stays in `[0,1]` and is monotone. -/
theorem C15_smoothstep (e0 e1 v w : K) (he : e0 < e1) :
    (v ≤ e0 → smoothstep e0 e1 v = 0) ∧ (e1 ≤ v → smoothstep e0 e1 v = 1) ∧
    (0 ≤ smoothstep e0 e1 v ∧ smoothstep e0 e1 v ≤ 1) ∧
    (v ≤ w → smoothstep e0 e1 v ≤ smoothstep e0 e1 w) ∧
    smoothstep e0 e1 ((e0 + e1) / 2) = 1 / 2 := by
  have hd : 0 < e1 - e0 := by linarith
  have mono : ∀ s t : K, 0 ≤ s → s ≤ t → t ≤ 1 → s * s * (3 - 2 * s) ≤ t * t * (3 - 2 * t) := by
    intro s t hs hst ht
    have : t * t * (3 - 2 * t) - s * s * (3 - 2 * s)
        = (t - s) * (3 * s * (1 - s) + 3 * t * (1 - t) + (t - s) ^ 2) := by ring
    have : 0 ≤ (t - s) * (3 * s * (1 - s) + 3 * t * (1 - t) + (t - s) ^ 2) := by
      apply mul_nonneg (by linarith)
      have h1 : 0 ≤ s * (1 - s) := mul_nonneg hs (by linarith)
      have h2 : 0 ≤ t * (1 - t) := mul_nonneg (by linarith) (by linarith)
      nlinarith [sq_nonneg (t - s)]
    linarith
  have hclamp : ∀ x : K, 0 ≤ clamp x 0 1 ∧ clamp x 0 1 ≤ 1 := by
    intro x; rw [clamp_exact]; exact ⟨le_max_right _ _, max_le (min_le_right _ _) zero_le_one⟩
  refine ⟨fun h => ?_, fun h => ?_, ?_, fun h => ?_, ?_⟩
  · have h1 : (v - e0) / (e1 - e0) ≤ 0 := div_nonpos_of_nonpos_of_nonneg (by linarith) hd.le
    simp only [smoothstep, clamp_exact]
    rw [min_eq_left (h1.trans zero_le_one), max_eq_right h1]; ring
  · have h1 : 1 ≤ (v - e0) / (e1 - e0) := by rw [le_div_iff₀ hd]; linarith
    simp only [smoothstep, clamp_exact]
    rw [min_eq_right h1, max_eq_left zero_le_one]; ring
  · obtain ⟨h1, h2⟩ := hclamp ((v - e0) / (e1 - e0))
    have h3 := mono 0 _ le_rfl h1 h2
    have h4 := mono _ 1 h1 h2 le_rfl
    simp only [smoothstep]
    constructor
    · linarith
    · linarith
  · simp only [smoothstep]
    apply mono _ _ (hclamp _).1 _ (hclamp _).2
    simp only [clamp_exact]
    exact max_le_max (min_le_min (div_le_div_of_nonneg_right (by linarith) hd.le) le_rfl) le_rfl
  · have h1 : ((e0 + e1) / 2 - e0) / (e1 - e0) = 1 / 2 := by field_simp; ring
    simp only [smoothstep, clamp_exact, h1]
    rw [min_eq_left (by norm_num), max_eq_left (by norm_num)]; norm_num

/-- `step` is the unit step and `sign` the sign function. -/
theorem C15_step_sign (e v : K) :
    (v < e → step e v = 0) ∧ (e ≤ v → step e v = 1) ∧
    (0 < v → sign v = 1) ∧ (v < 0 → sign v = -1) ∧ sign (0 : K) = 0 ∧ sign v * |v| = v := by
  refine ⟨fun h => by simp [step, h], fun h => by simp [step, not_lt.2 h],
    fun h => by simp [sign, h, h.not_gt], fun h => by simp [sign, h], by simp [sign], ?_⟩
  rcases lt_trichotomy v 0 with h | h | h
  · simp [sign, h, abs_of_neg h]
  · simp [h]
  · simp [sign, h, h.not_gt, abs_of_pos h]

example : mix (2 : ℚ) 6 (1 / 4) = 3 ∧ (0 : ℚ) ≤ 1 / 4 ∧ smoothstep (0 : ℚ) 2 (1 / 2) = 5 / 32 := by
  refine ⟨by norm_num [mix], by norm_num, ?_⟩
  simp only [smoothstep, clamp_exact]; norm_num

end C15
end vm
