import Verif.Lemmas.Rounding
import Verif.Model.Vec
import Mathlib.Data.Rat.Floor

/-! # C05, C06, C07: truncation, rounding, snapping and modulus

`InInt64 v` says `-2^63 - 1 < v < 2^63`: outside of it the code has undefined behaviour, modelled as
`none`.  All results below say exactly when the functions are defined and what they return. -/

universe u

set_option linter.unusedSectionVars false
set_option linter.unusedSimpArgs false

namespace vm
variable {K : Type u} [Field K] [LinearOrder K] [IsStrictOrderedRing K] [FloorRing K]

/-- `trunc` rounds towards zero: its result is the integer of the same sign, not larger in absolute
value, at distance less than one. -/
theorem C05_trunc (v r : K) :
    trunc v = some r ↔ InInt64 v ∧ ∃ n : ℤ, r = n ∧ 0 ≤ (n : K) * v ∧ |(n : K)| ≤ |v| ∧ |v - n| < 1 := by
  by_cases h : InInt64 v
  swap
  · simp [trunc_none h, h]
  rw [trunc_eq h, Option.some.injEq]
  simp only [h, true_and]
  constructor
  · rintro rfl
    split_ifs with h0
    · refine ⟨⌈v⌉, rfl, ?_, ?_, ?_⟩
      · have : ((⌈v⌉ : ℤ) : K) ≤ 0 := by exact_mod_cast Int.ceil_le.2 (by simpa using h0.le)
        exact mul_nonneg_of_nonpos_of_nonpos this h0.le
      · have : ((⌈v⌉ : ℤ) : K) ≤ 0 := by exact_mod_cast Int.ceil_le.2 (by simpa using h0.le)
        rw [abs_of_nonpos this, abs_of_neg h0]
        linarith [Int.le_ceil v]
      · rw [abs_lt]; constructor <;> linarith [Int.le_ceil v, Int.ceil_lt_add_one v]
    · rw [not_lt] at h0
      have : (0 : K) ≤ ((⌊v⌋ : ℤ) : K) := by exact_mod_cast Int.floor_nonneg.2 h0
      refine ⟨⌊v⌋, rfl, mul_nonneg this h0, ?_, ?_⟩
      · rw [abs_of_nonneg this, abs_of_nonneg h0]; exact Int.floor_le v
      · rw [abs_lt]; constructor <;> linarith [Int.floor_le v, Int.lt_floor_add_one v]
  · rintro ⟨n, rfl, h1, h2, h3⟩
    rw [abs_lt] at h3
    split_ifs with h0
    · have hn : (n : K) ≤ 0 := by
        by_contra hn; push Not at hn; nlinarith
      rw [abs_of_nonpos hn, abs_of_neg h0] at h2
      exact_mod_cast Int.ceil_eq_iff.2 ⟨by linarith, by linarith⟩
    · rw [not_lt] at h0
      rw [abs_of_nonneg h0] at h2
      have : (n : K) ≤ v := (le_abs_self _).trans h2
      exact_mod_cast Int.floor_eq_iff.2 ⟨this, by linarith⟩

/-- `floor` returns the greatest integer that is at most `v`. -/
theorem C05_floor (v r : K) :
    floor v = some r ↔ InInt64 v ∧ ∃ n : ℤ, r = n ∧ (n : K) ≤ v ∧ ∀ m : ℤ, (m : K) ≤ v → m ≤ n := by
  by_cases h : InInt64 v
  swap
  · simp [floor_none h, h]
  simp only [floor_eq h, h, true_and, Option.some.injEq]
  constructor
  · rintro rfl
    exact ⟨⌊v⌋, rfl, Int.floor_le v, fun m hm => Int.le_floor.2 hm⟩
  · rintro ⟨n, rfl, h1, h2⟩
    exact_mod_cast le_antisymm (h2 _ (Int.floor_le v)) (Int.le_floor.2 h1)

/-- `ceil` returns the least integer that is at least `v`. -/
theorem C05_ceil (v r : K) :
    ceil v = some r ↔ InInt64 v ∧ ∃ n : ℤ, r = n ∧ v ≤ (n : K) ∧ ∀ m : ℤ, v ≤ (m : K) → n ≤ m := by
  by_cases h : InInt64 v
  swap
  · simp [ceil_none h, h]
  simp only [ceil_eq h, h, true_and, Option.some.injEq]
  constructor
  · rintro rfl
    exact ⟨⌈v⌉, rfl, Int.le_ceil v, fun m hm => Int.ceil_le.2 hm⟩
  · rintro ⟨n, rfl, h1, h2⟩
    exact_mod_cast le_antisymm (Int.ceil_le.2 h1) (h2 _ (Int.le_ceil v))

/-- The argument range of `round`: the shifted value must fit. -/
def RoundRange (v : K) : Prop := -(2 ^ 63) - 1 / 2 < v ∧ v < 2 ^ 63 - 1 / 2

theorem round_pos {v : K} (h : RoundRange v) (h0 : 0 < v) : round v = some ((⌊v + 1 / 2⌋ : ℤ) : K) := by
  rw [round, if_pos h0, floor_eq]
  exact ⟨by linarith [h.1], by linarith [h.2]⟩

theorem round_nonpos {v : K} (h : RoundRange v) (h0 : v ≤ 0) : round v = some ((⌈v - 1 / 2⌉ : ℤ) : K) := by
  rw [round, if_neg (not_lt.2 h0), ceil_eq]
  exact ⟨by linarith [h.1], by linarith [h.2]⟩

theorem round_none {v : K} (h : ¬ RoundRange v) : round v = none := by
  rw [round]
  split_ifs with h0
  · apply floor_none
    rintro ⟨h1, h2⟩
    exact h ⟨by linarith, by linarith⟩
  · apply ceil_none
    rintro ⟨h1, h2⟩
    exact h ⟨by linarith, by linarith⟩

/-- `round` returns the nearest integer and, in case of a tie, the one farther away from zero. -/
theorem C05_round (v r : K) :
    round v = some r ↔ RoundRange v ∧ ∃ n : ℤ, r = n ∧ |v - n| ≤ 1 / 2 ∧
      (|v - n| = 1 / 2 → |v| < |(n : K)|) := by
  by_cases h : RoundRange v
  swap
  · simp [round_none h, h]
  rcases lt_or_ge 0 v with h0 | h0
  · rw [round_pos h h0, Option.some.injEq]
    simp only [h, true_and]
    constructor
    · rintro rfl
      have h1 := Int.floor_le (v + 1 / 2)
      have h2 := Int.lt_floor_add_one (v + 1 / 2)
      refine ⟨_, rfl, abs_le.2 ⟨by linarith, by linarith⟩, fun h3 => ?_⟩
      have h4 : v - ((⌊v + 1 / 2⌋ : ℤ) : K) = -(1 / 2) := by
        rcases (abs_eq (by norm_num)).1 h3 with h4 | h4
        · linarith
        · exact h4
      rw [abs_of_pos h0, abs_of_pos (by linarith)]; linarith
    · rintro ⟨n, rfl, h1, h2⟩
      have := abs_le.1 h1
      refine congrArg _ (Int.floor_eq_iff.2 ⟨by linarith, ?_⟩)
      by_contra h5
      have h6 : v - n = 1 / 2 := le_antisymm this.2 (by linarith)
      have h7 := h2 (by rw [h6]; exact abs_of_pos (by norm_num))
      rw [abs_of_pos h0, lt_abs] at h7
      rcases h7 with h7 | h7
      · linarith
      · have h8 : (n : K) < 0 := by linarith
        have h9 : n ≤ -1 := by have : n < 0 := by exact_mod_cast h8
                               omega
        have : (n : K) ≤ -1 := by exact_mod_cast h9
        linarith
  · rw [round_nonpos h h0, Option.some.injEq]
    simp only [h, true_and]
    constructor
    · rintro rfl
      have h1 := Int.le_ceil (v - 1 / 2)
      have h2 := Int.ceil_lt_add_one (v - 1 / 2)
      refine ⟨_, rfl, abs_le.2 ⟨by linarith, by linarith⟩, fun h3 => ?_⟩
      have h4 : v - ((⌈v - 1 / 2⌉ : ℤ) : K) = 1 / 2 := by
        rcases (abs_eq (by norm_num)).1 h3 with h4 | h4
        · exact h4
        · linarith
      rw [abs_of_nonpos h0, abs_of_nonpos (by linarith)]; linarith
    · rintro ⟨n, rfl, h1, h2⟩
      have := abs_le.1 h1
      refine congrArg _ (Int.ceil_eq_iff.2 ⟨?_, by linarith⟩)
      by_contra h5
      have h6 : v - n = -(1 / 2) := le_antisymm (by linarith) this.1
      have h7 := h2 (by rw [h6, abs_neg]; exact abs_of_pos (by norm_num))
      rw [abs_of_nonpos h0, lt_abs] at h7
      rcases h7 with h7 | h7
      · have h8 : (0 : K) < n := by linarith
        have h9 : 1 ≤ n := by have : 0 < n := by exact_mod_cast h8
                              omega
        have : (1 : K) ≤ n := by exact_mod_cast h9
        linarith
      · linarith

/-- `round(-v) == -round(v)`. -/
theorem C05_round_odd (v r : K) (h : RoundRange (-v)) (hr : round v = some r) : round (-v) = some (-r) := by
  rw [C05_round] at hr ⊢
  obtain ⟨-, n, rfl, h1, h2⟩ := hr
  refine ⟨h, -n, by push_cast; ring, ?_, ?_⟩
  · rw [← abs_neg]; push_cast; ring_nf at h1 ⊢; exact h1
  · intro h3
    rw [abs_neg]; push_cast; rw [abs_neg]
    apply h2
    rw [← h3, ← abs_neg]; push_cast; ring_nf

/-- `fract` returns what `trunc` drops: it has the sign of `v`, is smaller than one in absolute value, and
`v` is its sum with an integer. -/
theorem C05_fract (v r : K) :
    fract v = some r ↔ InInt64 v ∧ 0 ≤ r * v ∧ |r| < 1 ∧ |r| ≤ |v| ∧ ∃ n : ℤ, v = n + r := by
  have key : fract v = (trunc v).map (fun t => v - t) := by
    by_cases h : InInt64 v
    · rw [fract, floor_eq h, ceil_eq h, trunc_eq h]
      rcases lt_trichotomy v 0 with h0 | h0 | h0
      · simp [h0, h0.not_gt]
      · simp [h0]
      · simp [h0, h0.not_gt]
    · rw [fract, floor_none h, ceil_none h, trunc_none h]; simp
  rw [key, Option.map_eq_some_iff]
  constructor
  · rintro ⟨t, ht, rfl⟩
    obtain ⟨h, n, rfl, h1, h2, h3⟩ := (C05_trunc _ _).1 ht
    refine ⟨h, ?_, h3, ?_, n, by ring⟩
    · rcases le_total 0 v with h0 | h0
      · rw [abs_of_nonneg h0] at h2
        exact mul_nonneg (by linarith [le_abs_self (n : K)]) h0
      · rw [abs_of_nonpos h0] at h2
        exact mul_nonneg_of_nonpos_of_nonpos (by linarith [neg_abs_le (n : K)]) h0
    · rcases le_total 0 v with h0 | h0
      · rw [abs_of_nonneg h0] at h2 ⊢
        have : 0 ≤ (n : K) := by
          by_contra hn; push Not at hn
          have hn' : n ≤ -1 := by have : n < 0 := by exact_mod_cast hn
                                  omega
          have : (n : K) ≤ -1 := by exact_mod_cast hn'
          have := (abs_lt.1 h3).2
          linarith
        rw [abs_of_nonneg (by linarith [le_abs_self (n : K)])]; linarith
      · rw [abs_of_nonpos h0] at h2 ⊢
        have : (n : K) ≤ 0 := by
          by_contra hn; push Not at hn
          have hn' : 1 ≤ n := by have : 0 < n := by exact_mod_cast hn
                                 omega
          have : (1 : K) ≤ n := by exact_mod_cast hn'
          have := (abs_lt.1 h3).1
          linarith
        rw [abs_of_nonpos (by linarith [neg_abs_le (n : K)])]; linarith
  · rintro ⟨h, h1, h2, h3, n, hn⟩
    refine ⟨n, (C05_trunc _ _).2 ⟨h, n, rfl, ?_, ?_, ?_⟩, by rw [hn]; ring⟩
    · have hn' : (n : K) = v - r := by rw [hn]; ring
      rw [hn', sub_mul]
      have : r * v ≤ v * v := by
        rcases le_total 0 v with h0 | h0
        · rw [abs_of_nonneg h0] at h3
          nlinarith [le_abs_self r]
        · rw [abs_of_nonpos h0] at h3
          nlinarith [neg_abs_le r]
      linarith
    · have hn' : (n : K) = v - r := by rw [hn]; ring
      rw [hn']
      rcases le_total 0 v with h0 | h0
      · rw [abs_of_nonneg h0] at h3 ⊢
        have hr : 0 ≤ r := by
          rcases h0.eq_or_lt with h0 | h0
          · rw [← h0] at h3; rw [abs_nonpos_iff.1 h3]
          · exact nonneg_of_mul_nonneg_left h1 h0
        rw [abs_of_nonneg (by linarith [le_abs_self r])]; linarith
      · rw [abs_of_nonpos h0] at h3 ⊢
        have hr : r ≤ 0 := by
          rcases h0.eq_or_lt with h0 | h0
          · rw [h0] at h3; simp at h3; rw [h3]
          · by_contra hr; push Not at hr; nlinarith
        rw [abs_of_nonpos (by linarith [neg_abs_le r])]; linarith
    · rw [hn]; ring_nf; exact h2

/-- `round_down` rounds towards zero and `round_up` away from zero. -/
theorem C05_round_up_down (v : K) (h : InInt64 v) :
    roundDown v = trunc v ∧
    ∃ n : ℤ, roundUp v = some (n : K) ∧ 0 ≤ (n : K) * v ∧ |v| ≤ |(n : K)| ∧ |v - n| < 1 := by
  constructor
  · rw [roundDown, floor_eq h, ceil_eq h, trunc_eq h]
    rcases lt_trichotomy v 0 with h0 | h0 | h0
    · simp [h0, h0.not_gt]
    · simp [h0]
    · simp [h0, h0.not_gt]
  · rw [roundUp, floor_eq h, ceil_eq h]
    split_ifs with h0
    · have h1 := Int.floor_le v
      have h2 := Int.lt_floor_add_one v
      have h3 : ((⌊v⌋ : ℤ) : K) < 0 := by linarith
      refine ⟨⌊v⌋, rfl, (mul_pos_of_neg_of_neg h3 h0).le, ?_, ?_⟩
      · rw [abs_of_neg h0, abs_of_neg h3]; linarith
      · rw [abs_lt]; constructor <;> linarith
    · rw [not_lt] at h0
      have h1 := Int.le_ceil v
      have h2 := Int.ceil_lt_add_one v
      have h3 : 0 ≤ ((⌈v⌉ : ℤ) : K) := by linarith
      refine ⟨⌈v⌉, rfl, mul_nonneg h3 h0, ?_, ?_⟩
      · rw [abs_of_nonneg h0, abs_of_nonneg h3]; linarith
      · rw [abs_lt]; constructor <;> linarith

example : InInt64 (-7 / 2 : ℚ) ∧ RoundRange (-7 / 2 : ℚ) ∧ trunc (-7 / 2 : ℚ) = some (-3) ∧
    floor (-7 / 2 : ℚ) = some (-4) ∧ ceil (-7 / 2 : ℚ) = some (-3) ∧ round (-7 / 2 : ℚ) = some (-4) ∧
    fract (-7 / 2 : ℚ) = some (-1 / 2) := by
  have h : InInt64 (-7 / 2 : ℚ) := by unfold InInt64; norm_num
  have h' : RoundRange (-7 / 2 : ℚ) := by unfold RoundRange; norm_num
  refine ⟨h, h', ?_, ?_, ?_, ?_, ?_⟩
  · rw [C05_trunc]; exact ⟨h, -3, by norm_num, by norm_num, by norm_num [abs_of_pos, abs_of_neg], by norm_num [abs_of_pos, abs_of_neg, abs_lt]⟩
  · rw [floor_eq h]; norm_num
  · rw [ceil_eq h]; norm_num
  · rw [round_nonpos h' (by norm_num)]; norm_num
  · rw [C05_fract]; exact ⟨h, by norm_num, by norm_num [abs_lt], by norm_num [abs_of_pos, abs_of_neg], -3, by norm_num⟩

/-! ### C06 -/

/-- `snap` returns a multiple of the grid at distance at most half a grid from the value, hence no
multiple is closer; ties go to the multiple with larger absolute quotient. -/
theorem C06_snap (v grid r : K) (hg : grid ≠ 0) (hr : RoundRange (v / grid)) :
    snap v grid = some r ↔ ∃ n : ℤ, r = grid * n ∧ |v - grid * n| ≤ |grid| / 2 ∧
      (|v - grid * n| = |grid| / 2 → |v| < |grid * n|) := by
  have hgp : 0 < |grid| := abs_pos.2 hg
  have e : ∀ n : ℤ, |v - grid * n| = |grid| * |v / grid - n| := by
    intro n; rw [← abs_mul]; congr 1; field_simp
  have e2 : |v| = |grid| * |v / grid| := by rw [← abs_mul]; congr 1; field_simp
  rw [snap, if_neg hg, Option.map_eq_some_iff]
  constructor
  · rintro ⟨q, hq, rfl⟩
    obtain ⟨-, n, rfl, h1, h2⟩ := (C05_round _ _).1 hq
    refine ⟨n, rfl, ?_, ?_⟩
    · rw [e]; nlinarith
    · rw [e, e2, abs_mul]
      intro h3
      have h4 : |v / grid - n| = 1 / 2 := by
        apply mul_left_cancel₀ hgp.ne'; rw [h3]; ring
      exact mul_lt_mul_of_pos_left (h2 h4) hgp
  · rintro ⟨n, rfl, h1, h2⟩
    refine ⟨n, (C05_round _ _).2 ⟨hr, n, rfl, ?_, ?_⟩, rfl⟩
    · rw [e] at h1
      by_contra h3; push Not at h3; nlinarith
    · intro h3
      rw [e, e2, abs_mul] at h2
      exact lt_of_mul_lt_mul_left (h2 (by rw [h3]; ring)) hgp.le

/-- No multiple of the grid is closer to the value than the result of `snap`. -/
theorem C06_snap_nearest (v grid r : K) (h : snap v grid = some r) (m : ℤ) :
    |v - r| ≤ |v - grid * m| := by
  have hg : grid ≠ 0 := by
    rintro rfl; simp [snap] at h
  have hgp : 0 < |grid| := abs_pos.2 hg
  rw [snap, if_neg hg, Option.map_eq_some_iff] at h
  obtain ⟨q, hq, rfl⟩ := h
  obtain ⟨-, n, rfl, h1, h2⟩ := (C05_round _ _).1 hq
  have e : ∀ n : ℤ, |v - grid * n| = |grid| * |v / grid - n| := by
    intro n; rw [← abs_mul]; congr 1; field_simp
  rw [e, e]
  refine mul_le_mul_of_nonneg_left ?_ hgp.le
  by_cases hm : m = n
  · rw [hm]
  · have h3 : (1 : K) ≤ |(n : K) - m| := by
      have : 1 ≤ |n - m| := Int.one_le_abs (sub_ne_zero.2 (Ne.symm hm))
      exact_mod_cast this
    have h4 : |(n : K) - m| ≤ |v / grid - m| + |v / grid - n| := by
      have := abs_sub_le (n : K) (v / grid) m
      rw [abs_sub_comm (n : K) (v / grid)] at this
      linarith
    linarith

/-- `snap` is idempotent, and the identity on multiples of the grid. -/
theorem C06_snap_idempotent (v grid r : K) (h : snap v grid = some r) (hr : RoundRange (r / grid)) :
    snap r grid = some r := by
  have hg : grid ≠ 0 := by
    rintro rfl; simp [snap] at h
  have hgp : 0 < |grid| := abs_pos.2 hg
  rw [snap, if_neg hg, Option.map_eq_some_iff] at h
  obtain ⟨q, hq, rfl⟩ := h
  obtain ⟨-, n, rfl, h1, h2⟩ := (C05_round _ _).1 hq
  rw [C06_snap _ _ _ hg hr]
  refine ⟨n, rfl, by rw [sub_self, abs_zero]; positivity, fun h => ?_⟩
  simp at h
  exact absurd h.symm (by positivity)

/-- `snapDown` and `snapUp` return the multiples of the grid next to the value towards zero and away from
zero. -/
theorem C06_snap_up_down (v grid : K) (hg : 0 < grid) (h : InInt64 (v / grid)) :
    (∃ n : ℤ, snapDown v grid = some (grid * n) ∧ 0 ≤ grid * n * v ∧ |grid * n| ≤ |v| ∧
      |v - grid * n| < grid) ∧
    (∃ n : ℤ, snapUp v grid = some (grid * n) ∧ 0 ≤ grid * n * v ∧ |v| ≤ |grid * n| ∧
      |v - grid * n| < grid) := by
  obtain ⟨h1, n, h2, h3, h4, h5⟩ := C05_round_up_down _ h
  have e : ∀ n : ℤ, |v - grid * n| = grid * |v / grid - n| := by
    intro n; rw [← abs_of_pos hg, ← abs_mul, abs_of_pos hg]; congr 1; field_simp
  have e2 : |v| = grid * |v / grid| := by
    rw [← abs_of_pos hg, ← abs_mul, abs_of_pos hg]; congr 1; field_simp
  have e3 : ∀ n : ℤ, |grid * n| = grid * |(n : K)| := by intro n; rw [abs_mul, abs_of_pos hg]
  have e4 : ∀ n : ℤ, grid * n * v = grid ^ 2 * (n * (v / grid)) := by intro n; field_simp
  constructor
  · obtain ⟨r, hr⟩ : ∃ r, trunc (v / grid) = some r := ⟨_, trunc_eq h⟩
    obtain ⟨-, m, rfl, m1, m2, m3⟩ := (C05_trunc _ _).1 hr
    refine ⟨m, ?_, ?_, ?_, ?_⟩
    · rw [snapDown, if_pos hg, h1, hr]; rfl
    · rw [e4]; positivity
    · rw [e3, e2]; exact mul_le_mul_of_nonneg_left m2 hg.le
    · rw [e]; nlinarith
  · refine ⟨n, ?_, ?_, ?_, ?_⟩
    · rw [snapUp, if_pos hg, h2]; rfl
    · rw [e4]; positivity
    · rw [e3, e2]; exact mul_le_mul_of_nonneg_left h4 hg.le
    · rw [e]; nlinarith

example : snap (7 : ℚ) 4 = some 8 ∧ (4 : ℚ) ≠ 0 ∧ RoundRange (7 / 4 : ℚ) ∧ RoundRange (8 / 4 : ℚ) ∧
    InInt64 (7 / 4 : ℚ) := by
  have h : RoundRange (7 / 4 : ℚ) := by unfold RoundRange; norm_num
  refine ⟨?_, by norm_num, h, by unfold RoundRange; norm_num, by unfold InInt64; norm_num⟩
  rw [C06_snap _ _ _ (by norm_num) h]
  exact ⟨2, by norm_num, by norm_num, by norm_num⟩

theorem vmapUB_eq_some {S : ℕ} (f : Fin S → Option K) (w : Vec K S) :
    vmapUB f = some w ↔ ∀ i, f i = some (w i) := by
  unfold vmapUB
  split_ifs with h
  · rw [Option.some.injEq]
    constructor
    · rintro rfl i; simp
    · intro h2; funext i; simp [h2]
  · simp only [reduceCtorEq, false_iff]
    intro h2; exact h fun i => by simp [h2]

/-- The vector versions of the rounding and snapping functions act on every component. -/
theorem C06_vector_componentwise {S : ℕ} (v m w : Vec K S) :
    (vsnap v m = some w ↔ ∀ i, snap (v i) (m i) = some (w i)) ∧
    (vsnapUp v m = some w ↔ ∀ i, snapUp (v i) (m i) = some (w i)) ∧
    (vsnapDown v m = some w ↔ ∀ i, snapDown (v i) (m i) = some (w i)) ∧
    (vround v = some w ↔ ∀ i, round (v i) = some (w i)) ∧
    (vfloor v = some w ↔ ∀ i, floor (v i) = some (w i)) ∧
    (vceil v = some w ↔ ∀ i, ceil (v i) = some (w i)) ∧
    (vtrunc v = some w ↔ ∀ i, trunc (v i) = some (w i)) :=
  ⟨vmapUB_eq_some _ _, vmapUB_eq_some _ _, vmapUB_eq_some _ _, vmapUB_eq_some _ _,
    vmapUB_eq_some _ _, vmapUB_eq_some _ _, vmapUB_eq_some _ _⟩

/-- `is_integral` with every component in range decides whether all components are within epsilon of an
integer (for an epsilon below one half, every component). -/
theorem C06_is_integral {S : ℕ} (v : Vec K S) (epsilon : K) (h : ∀ i, RoundRange (v i)) :
    ∃ b, visIntegral v epsilon = some b ∧ (b = true ↔ ∀ i, ∃ n : ℤ, |v i - n| ≤ epsilon) := by
  have hr : ∀ i, ∃ n : ℤ, round (v i) = some (n : K) ∧ ∀ m : ℤ, |v i - n| ≤ |v i - m| := by
    intro i
    obtain ⟨r, hr⟩ : ∃ r, round (v i) = some r := by
      rcases lt_or_ge 0 (v i) with h0 | h0
      · exact ⟨_, round_pos (h i) h0⟩
      · exact ⟨_, round_nonpos (h i) h0⟩
    obtain ⟨-, n, rfl, h1, h2⟩ := (C05_round _ _).1 hr
    refine ⟨n, hr, fun m => ?_⟩
    have := C06_snap_nearest (v i) 1 n (by simp [snap, hr]) m
    simpa using this
  unfold visIntegral
  have key : ∀ l : List (Fin S), ∃ b, l.foldr (fun i rest =>
      (round (v i)).bind fun r => if epsilon < abs (v i - r) then some false else rest) (some true)
      = some b ∧ (b = true ↔ ∀ i ∈ l, ∃ n : ℤ, |v i - n| ≤ epsilon) := by
    intro l
    induction l with
    | nil => exact ⟨true, rfl, by simp⟩
    | cons i l ih =>
      obtain ⟨b, hb, hb2⟩ := ih
      obtain ⟨n, hn, hmin⟩ := hr i
      rw [List.foldr_cons, hb]
      simp only [hn, Option.bind_some, abs_exact]
      split_ifs with h1
      · refine ⟨false, rfl, ?_⟩
        simp only [Bool.false_eq_true, List.mem_cons, forall_eq_or_imp, false_iff, not_and]
        rintro ⟨m, hm⟩
        exact absurd (h1.trans_le (hmin m)) (not_lt.2 hm)
      · refine ⟨b, rfl, ?_⟩
        rw [hb2]
        simp only [List.mem_cons, forall_eq_or_imp, iff_and_self]
        intro _
        exact ⟨n, not_lt.1 h1⟩
  obtain ⟨b, hb, hb2⟩ := key (List.finRange S)
  exact ⟨b, hb, by simpa using hb2⟩

/-! ### C07 -/

/-- `mod(x, y)` is the remainder of truncated division, as `std::fmod`: it differs from `x` by an integral
multiple of `y`, has the sign of `x` and is smaller than `y` in absolute value. -/
theorem C07_mod (x y r : K) :
    mod x y = some r ↔ y ≠ 0 ∧ InInt64 (x / y) ∧ 0 ≤ r * x ∧ |r| < |y| ∧ |r| ≤ |x| ∧
      ∃ n : ℤ, x = y * n + r := by
  by_cases hy : y = 0
  · simp [mod, hy]
  have hyp : 0 < |y| := abs_pos.2 hy
  have hy2 : 0 < y ^ 2 := by positivity
  have key : mod x y = (fract (x / y)).map (fun f => y * f) := by
    have k2 : fract (x / y) = (trunc (x / y)).map (fun t => x / y - t) := by
      by_cases h : InInt64 (x / y)
      · rw [fract, floor_eq h, ceil_eq h, trunc_eq h]
        rcases lt_trichotomy (x / y) 0 with h0 | h0 | h0
        · simp [h0, h0.not_gt]
        · simp [h0]
        · simp [h0, h0.not_gt]
      · rw [fract, floor_none h, ceil_none h, trunc_none h]; simp
    rw [mod, if_neg hy, k2, Option.map_map]
    congr 1
    funext t
    simp only [Function.comp]
    field_simp
  rw [key, Option.map_eq_some_iff]
  constructor
  · rintro ⟨f, hf, rfl⟩
    obtain ⟨h, h1, h2, h3, n, hn⟩ := (C05_fract _ _).1 hf
    refine ⟨hy, h, ?_, ?_, ?_, n, ?_⟩
    · have : y * f * x = y ^ 2 * (f * (x / y)) := by field_simp
      rw [this]; positivity
    · rw [abs_mul]; nlinarith
    · rw [abs_mul]
      rw [abs_div] at h3
      calc |y| * |f| ≤ |y| * (|x| / |y|) := mul_le_mul_of_nonneg_left h3 hyp.le
        _ = |x| := by field_simp
    · rw [← mul_add, ← hn]; field_simp
  · rintro ⟨-, h, h1, h2, h3, n, hn⟩
    refine ⟨r / y, (C05_fract _ _).2 ⟨h, ?_, ?_, ?_, n, ?_⟩, by field_simp⟩
    · have : r / y * (x / y) = r * x / y ^ 2 := by field_simp
      rw [this]; positivity
    · rw [abs_div, div_lt_one hyp]; exact h2
    · rw [abs_div, abs_div]; exact div_le_div_of_nonneg_right h3 hyp.le
    · rw [hn]; field_simp

example : mod (-7 : ℚ) 4 = some (-3) := by
  rw [C07_mod]
  exact ⟨by norm_num, by unfold InInt64; norm_num, by norm_num, by norm_num, by norm_num, -1, by norm_num⟩

end vm
