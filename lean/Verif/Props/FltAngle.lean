import Verif.Lemmas.FltAngle

/-!
# C120: constants and conversion of angles in IEEE arithmetic
-/

set_option linter.unusedSectionVars false
set_option linter.unusedSimpArgs false

namespace vm
open BinPar

variable {P : BinPar}

/-- C120: in `float` and in `double`, `pi()` is the number of the type that is nearest to π, and `e()` the one nearest to Euler's number. -/
theorem C120_nearest (hP : P = binary32 ∨ P = binary64) : P.pi.isFinite ∧ P.e.isFinite ∧ ∀ x : Flt P.fmt, x.isFinite →
    |(P.pi.val : ℝ) - Real.pi| ≤ |(x.val : ℝ) - Real.pi| ∧ |(P.e.val : ℝ) - Real.exp 1| ≤ |(x.val : ℝ) - Real.exp 1| := by
  obtain ⟨h1, h2⟩ := pi_d20
  have h3 := abs_le.1 Real.exp_one_near_20
  have h4 : (2.71828182845904523 : ℝ) < Real.exp 1 := by norm_num at h3 ⊢; linarith [h3.1]
  have h5 : Real.exp 1 < (2.71828182845904524 : ℝ) := by norm_num at h3 ⊢; linarith [h3.2]
  rcases hP with rfl | rfl
  · refine ⟨pi32.1, e32.1, fun x hx => ?_⟩
    have hr : binary32.Rep x.val := (Flt.eq_fin hx).1.1
    constructor
    · have := nearest_of_multiple (P := binary32) (t := Real.pi) (by linarith) (m := 13176795) (by
        rw [abs_le]; norm_num [binary32]; constructor <;> linarith) hr
      rw [pi32.2]
      norm_num [binary32] at this ⊢
      exact this
    · have := nearest_of_multiple (P := binary32) (t := Real.exp 1) (by linarith) (m := 11401300) (by
        rw [abs_le]; norm_num [binary32]; constructor <;> linarith) hr
      rw [e32.2]
      norm_num [binary32] at this ⊢
      exact this
  · refine ⟨pi64.1, e64.1, fun x hx => ?_⟩
    have hr : binary64.Rep x.val := (Flt.eq_fin hx).1.1
    constructor
    · have := nearest_of_multiple (P := binary64) (t := Real.pi) (by linarith) (m := 7074237752028440) (by
        rw [abs_le]; norm_num [binary64]; constructor <;> linarith) hr
      rw [pi64.2]
      norm_num [binary64] at this ⊢
      exact this
    · have := nearest_of_multiple (P := binary64) (t := Real.exp 1) (by linarith) (m := 6121026514868073) (by
        rw [abs_le]; norm_num [binary64]; constructor <;> linarith) hr
      rw [e64.2]
      norm_num [binary64] at this ⊢
      exact this

example : (binary64 = binary32 ∨ binary64 = binary64) ∧ (1 : Flt binary64.fmt).isFinite := ⟨Or.inr rfl, trivial⟩

/-- C120: the five epsilon values are the documented decimal numbers up to one rounding error, in `float` and in `double`. -/
theorem C120_epsilons (hP : P = binary32 ∨ P = binary64) :
    (P.almostZero.isFinite ∧ |P.almostZero.val - 1 / 1000| ≤ P.u * (1 / 1000)) ∧
    (P.pointStatusEpsilon.isFinite ∧ |P.pointStatusEpsilon.val - 1 / 10000| ≤ P.u * (1 / 10000)) ∧
    (P.correctEpsilon.isFinite ∧ |P.correctEpsilon.val - 1 / 1000| ≤ P.u * (1 / 1000)) ∧
    (P.colinearEpsilon.isFinite ∧ |P.colinearEpsilon.val - 1 / 100000| ≤ P.u * (1 / 100000)) ∧
    (P.angleEpsilon.isFinite ∧ |P.angleEpsilon.val - 1 / 100000000| ≤ P.u * (1 / 100000000)) := by
  rcases hP with rfl | rfl
  · refine ⟨⟨almostZero32.1, ?_⟩, ⟨pointStatusEpsilon32.1, ?_⟩, ⟨correctEpsilon32.1, ?_⟩, ⟨colinearEpsilon32.1, ?_⟩, ⟨angleEpsilon32.1, ?_⟩⟩
    · rw [almostZero32.2, abs_le]; norm_num [BinPar.u, binary32]
    · rw [pointStatusEpsilon32.2, abs_le]; norm_num [BinPar.u, binary32]
    · rw [correctEpsilon32.2, abs_le]; norm_num [BinPar.u, binary32]
    · rw [colinearEpsilon32.2, abs_le]; norm_num [BinPar.u, binary32]
    · rw [angleEpsilon32.2, abs_le]; norm_num [BinPar.u, binary32]
  · refine ⟨⟨almostZero64.1, ?_⟩, ⟨pointStatusEpsilon64.1, ?_⟩, ⟨correctEpsilon64.1, ?_⟩, ⟨colinearEpsilon64.1, ?_⟩, ⟨angleEpsilon64.1, ?_⟩⟩
    · rw [almostZero64.2, abs_le]; norm_num [BinPar.u, binary64]
    · rw [pointStatusEpsilon64.2, abs_le]; norm_num [BinPar.u, binary64]
    · rw [correctEpsilon64.2, abs_le]; norm_num [BinPar.u, binary64]
    · rw [colinearEpsilon64.2, abs_le]; norm_num [BinPar.u, binary64]
    · rw [angleEpsilon64.2, abs_le]; norm_num [BinPar.u, binary64]

example : binary32 = binary32 ∨ binary32 = binary64 := Or.inl rfl

/-- Values of the multiples of `pi`. -/
theorem angle_consts (hP : P = binary32 ∨ P = binary64) : (P.twoPi.isFinite ∧ P.twoPi.val = 2 * P.pi.val) ∧
    (P.halfPi.isFinite ∧ P.halfPi.val = P.pi.val / 2) ∧ (P.quarterPi.isFinite ∧ P.quarterPi.val = P.pi.val / 4) := by
  rcases hP with rfl | rfl
  · have h2 := literal_nat (P := binary32) (n := 2) (by norm_num)
    have h4 := literal_nat (P := binary32) (n := 4) (by norm_num)
    rw [pi32.2]
    refine ⟨is_mul h2 pi32 ?_ (lt_bound32 ?_), is_div pi32 h2 ?_ ?_ (lt_bound32 ?_), is_div pi32 h4 ?_ ?_ (lt_bound32 ?_)⟩
    all_goals first | (norm_num [abs_of_pos]; done) | skip
    · fl_num (-21) 13176795
    · fl_num (-23) 13176795
    · fl_num (-24) 13176795
  · have h2 := literal_nat (P := binary64) (n := 2) (by norm_num)
    have h4 := literal_nat (P := binary64) (n := 4) (by norm_num)
    rw [pi64.2]
    refine ⟨is_mul h2 pi64 ?_ (lt_bound64 ?_), is_div pi64 h2 ?_ ?_ (lt_bound64 ?_), is_div pi64 h4 ?_ ?_ (lt_bound64 ?_)⟩
    all_goals first | (norm_num [abs_of_pos]; done) | skip
    · fl_num (-50) 7074237752028440
    · fl_num (-52) 7074237752028440
    · fl_num (-53) 7074237752028440

theorem threeHalfPi32 : binary32.threeHalfPi.isFinite ∧ binary32.threeHalfPi.val = 9882596 / 2 ^ 21 := by
  have h2 := literal_nat (P := binary32) (n := 2) (by norm_num)
  have h3 := literal_nat (P := binary32) (n := 3) (by norm_num)
  have h4 := is_mul (c := 9882596 / 2 ^ 20) h3 pi32 (by fl_num (-20) 9882596) (lt_bound32 (by norm_num [abs_of_pos]))
  exact is_div h4 h2 (by norm_num) (by fl_num (-21) 9882596) (lt_bound32 (by norm_num [abs_of_pos]))

theorem threeHalfPi64 : binary64.threeHalfPi.isFinite ∧ binary64.threeHalfPi.val = 5305678314021330 / 2 ^ 50 := by
  have h2 := literal_nat (P := binary64) (n := 2) (by norm_num)
  have h3 := literal_nat (P := binary64) (n := 3) (by norm_num)
  have h4 := is_mul (c := 5305678314021330 / 2 ^ 49) h3 pi64 (by fl_num (-49) 5305678314021330) (lt_bound64 (by norm_num [abs_of_pos]))
  exact is_div h4 h2 (by norm_num) (by fl_num (-50) 5305678314021330) (lt_bound64 (by norm_num [abs_of_pos]))

/-- C120: `two_pi()`, `half_pi()` and `quarter_pi()` are exactly 2, 1/2 and 1/4 times `pi()`; `three_half_pi()` differs from 3π/2 by at
most one rounding error. -/
theorem C120_multiples (hP : P = binary32 ∨ P = binary64) : (P.twoPi.isFinite ∧ P.twoPi.val = 2 * P.pi.val) ∧
    (P.halfPi.isFinite ∧ P.halfPi.val = P.pi.val / 2) ∧ (P.quarterPi.isFinite ∧ P.quarterPi.val = P.pi.val / 4) ∧
    (P.threeHalfPi.isFinite ∧ |(P.threeHalfPi.val : ℝ) - 3 * Real.pi / 2| ≤ P.u * (3 * Real.pi / 2)) := by
  obtain ⟨h1, h2, h3⟩ := angle_consts hP
  obtain ⟨h4, h5⟩ := pi_d20
  refine ⟨h1, h2, h3, ?_⟩
  rcases hP with rfl | rfl
  · refine ⟨threeHalfPi32.1, ?_⟩
    rw [threeHalfPi32.2, abs_le]
    norm_num [BinPar.u, binary32]
    constructor <;> linarith
  · refine ⟨threeHalfPi64.1, ?_⟩
    rw [threeHalfPi64.2, abs_le]
    norm_num [BinPar.u, binary64]
    constructor <;> linarith

example : binary32 = binary32 ∨ binary32 = binary64 := Or.inl rfl

/-- The angles of a quarter of a turn and its multiples. -/
theorem nat_is (hP : P = binary32 ∨ P = binary64) (n : ℕ) [n.AtLeastTwo] (h : n ≤ 360) :
    (OfNat.ofNat n : Flt P.fmt).isFinite ∧ (OfNat.ofNat n : Flt P.fmt).val = n := by
  have h1 : |(n : ℤ)| ≤ 2 ^ P.p := by
    rw [abs_of_nonneg (by positivity)]
    have h2 : (n : ℤ) ≤ 2 ^ 9 := by norm_num; omega
    refine h2.trans (pow_le_pow_right₀ (by norm_num) ?_)
    rcases hP with rfl | rfl <;> norm_num [binary32, binary64]
  have := Flt.int_finite (P := P) (n := n) h1
  exact_mod_cast this

/-- C120: the conversions give the constants at the angles of a quarter of a turn: `to_radians` of 45, 90, 180, 270 and 360 degrees is
`quarter_pi()`, `half_pi()`, `pi()`, `three_half_pi()` and `two_pi()`, and `to_degrees` of these constants is again the angle. -/
theorem C120_quarter_turns (hP : P = binary32 ∨ P = binary64) :
    (toRadians P.pi 45 = P.quarterPi ∧ toRadians P.pi 90 = P.halfPi ∧ toRadians P.pi 180 = P.pi ∧ toRadians P.pi 270 = P.threeHalfPi ∧
      toRadians P.pi 360 = P.twoPi) ∧
    (toDegrees P.pi P.quarterPi = 45 ∧ toDegrees P.pi P.halfPi = 90 ∧ toDegrees P.pi P.pi = 180 ∧ toDegrees P.pi P.threeHalfPi = 270 ∧
      toDegrees P.pi P.twoPi = 360) := by
  have n45 := nat_is hP 45 (by norm_num)
  have n90 := nat_is hP 90 (by norm_num)
  have n180 := nat_is hP 180 (by norm_num)
  have n270 := nat_is hP 270 (by norm_num)
  have n360 := nat_is hP 360 (by norm_num)
  obtain ⟨k2, k1, k4⟩ := angle_consts hP
  have e : ∀ {x y : Flt P.fmt} {c : ℚ}, (x.isFinite ∧ x.val = c) → (y.isFinite ∧ y.val = c) → x = y :=
    fun hx hy => Flt.ext hx.1 hy.1 (hx.2.trans hy.2.symm)
  unfold toRadians toDegrees
  rcases hP with rfl | rfl
  · rw [pi32.2] at k1 k2 k4
    refine ⟨⟨e (is_div (is_mul (c := 9264934 / 2 ^ 16) n45 pi32 (by fl_num (-16) 9264934) (lt_bound32 ?_)) n180 ?_ ?_ (lt_bound32 ?_)) k4,
      e (is_div (is_mul (c := 9264934 / 2 ^ 15) n90 pi32 (by fl_num (-15) 9264934) (lt_bound32 ?_)) n180 ?_ ?_ (lt_bound32 ?_)) k1,
      e (is_div (is_mul (c := 9264934 / 2 ^ 14) n180 pi32 (by fl_num (-14) 9264934) (lt_bound32 ?_)) n180 ?_ ?_ (lt_bound32 ?_)) pi32,
      e (is_div (is_mul (c := 13897401 / 2 ^ 14) n270 pi32 (by fl_num (-14) 13897401) (lt_bound32 ?_)) n180 ?_ ?_ (lt_bound32 ?_)) threeHalfPi32,
      e (is_div (is_mul (c := 9264934 / 2 ^ 13) n360 pi32 (by fl_num (-13) 9264934) (lt_bound32 ?_)) n180 ?_ ?_ (lt_bound32 ?_)) k2⟩,
      ⟨e (is_div (is_mul (c := 9264934 / 2 ^ 16) k4 n180 (by fl_num (-16) 9264934) (lt_bound32 ?_)) pi32 ?_ ?_ (lt_bound32 ?_)) n45,
      e (is_div (is_mul (c := 9264934 / 2 ^ 15) k1 n180 (by fl_num (-15) 9264934) (lt_bound32 ?_)) pi32 ?_ ?_ (lt_bound32 ?_)) n90,
      e (is_div (is_mul (c := 9264934 / 2 ^ 14) pi32 n180 (by fl_num (-14) 9264934) (lt_bound32 ?_)) pi32 ?_ ?_ (lt_bound32 ?_)) n180,
      e (is_div (is_mul (c := 13897401 / 2 ^ 14) threeHalfPi32 n180 (by fl_num (-14) 13897401) (lt_bound32 ?_)) pi32 ?_ ?_ (lt_bound32 ?_)) n270,
      e (is_div (is_mul (c := 9264934 / 2 ^ 13) k2 n180 (by fl_num (-13) 9264934) (lt_bound32 ?_)) pi32 ?_ ?_ (lt_bound32 ?_)) n360⟩⟩
    all_goals first | (norm_num [abs_of_pos]; done) | skip
    · fl_num (-24) 13176795
    · fl_num (-23) 13176795
    · fl_num (-22) 13176795
    · fl_num (-21) 9882596
    · fl_num (-21) 13176795
    · fl_num (-18) 11796480
    · fl_num (-17) 11796480
    · fl_num (-16) 11796480
    · fl_num (-15) 8847360
    · fl_num (-15) 11796480
  · rw [pi64.2] at k1 k2 k4
    refine ⟨⟨e (is_div (is_mul (c := 4974073419394997 / 2 ^ 45) n45 pi64 (by fl_num (-45) 4974073419394997) (lt_bound64 ?_)) n180 ?_ ?_ (lt_bound64 ?_)) k4,
      e (is_div (is_mul (c := 4974073419394997 / 2 ^ 44) n90 pi64 (by fl_num (-44) 4974073419394997) (lt_bound64 ?_)) n180 ?_ ?_ (lt_bound64 ?_)) k1,
      e (is_div (is_mul (c := 4974073419394997 / 2 ^ 43) n180 pi64 (by fl_num (-43) 4974073419394997) (lt_bound64 ?_)) n180 ?_ ?_ (lt_bound64 ?_)) pi64,
      e (is_div (is_mul (c := 7461110129092495 / 2 ^ 43) n270 pi64 (by fl_num (-43) 7461110129092495) (lt_bound64 ?_)) n180 ?_ ?_ (lt_bound64 ?_)) threeHalfPi64,
      e (is_div (is_mul (c := 4974073419394997 / 2 ^ 42) n360 pi64 (by fl_num (-42) 4974073419394997) (lt_bound64 ?_)) n180 ?_ ?_ (lt_bound64 ?_)) k2⟩,
      ⟨e (is_div (is_mul (c := 4974073419394997 / 2 ^ 45) k4 n180 (by fl_num (-45) 4974073419394997) (lt_bound64 ?_)) pi64 ?_ ?_ (lt_bound64 ?_)) n45,
      e (is_div (is_mul (c := 4974073419394997 / 2 ^ 44) k1 n180 (by fl_num (-44) 4974073419394997) (lt_bound64 ?_)) pi64 ?_ ?_ (lt_bound64 ?_)) n90,
      e (is_div (is_mul (c := 4974073419394997 / 2 ^ 43) pi64 n180 (by fl_num (-43) 4974073419394997) (lt_bound64 ?_)) pi64 ?_ ?_ (lt_bound64 ?_)) n180,
      e (is_div (is_mul (c := 7461110129092495 / 2 ^ 43) threeHalfPi64 n180 (by fl_num (-43) 7461110129092495) (lt_bound64 ?_)) pi64 ?_ ?_ (lt_bound64 ?_)) n270,
      e (is_div (is_mul (c := 4974073419394997 / 2 ^ 42) k2 n180 (by fl_num (-42) 4974073419394997) (lt_bound64 ?_)) pi64 ?_ ?_ (lt_bound64 ?_)) n360⟩⟩
    all_goals first | (norm_num [abs_of_pos]; done) | skip
    · fl_num (-53) 7074237752028440
    · fl_num (-52) 7074237752028440
    · fl_num (-51) 7074237752028440
    · fl_num (-50) 5305678314021330
    · fl_num (-50) 7074237752028440
    · fl_num (-47) 6333186975989760
    · fl_num (-46) 6333186975989760
    · fl_num (-45) 6333186975989760
    · fl_num (-44) 4749890231992320
    · fl_num (-44) 6333186975989760

example : binary64 = binary32 ∨ binary64 = binary64 := Or.inr rfl

/-- C120: the conversions keep the order, also of infinities: a greater angle in degrees is never converted to a smaller angle in radians,
and the other way round. -/
theorem C120_monotone (hP : P = binary32 ∨ P = binary64) {x y : Flt P.fmt} (h : Cmp.le x y = true) :
    Cmp.le (toRadians P.pi x) (toRadians P.pi y) = true ∧ Cmp.le (toDegrees P.pi x) (toDegrees P.pi y) = true := by
  have A := angleFmt hP
  have hpi : 0 < P.pi.val := by have := A.lo; linarith
  have h180 : 0 < (180 : Flt P.fmt).val := by rw [A.fin180.2]; norm_num
  exact ⟨div_mono_right A.fin180.1 h180 (mul_mono_right A.fin hpi h), div_mono_right A.fin hpi (mul_mono_right A.fin180.1 h180 h)⟩

example : Cmp.le (1 : Flt binary64.fmt) Flt.pinf = true := rfl

/-- C120: the conversions of an angle and of its opposite are opposite, for all values including infinities and NaN. -/
theorem C120_odd (hP : P = binary32 ∨ P = binary64) (x : Flt P.fmt) :
    toRadians P.pi (-x) = -toRadians P.pi x ∧ toDegrees P.pi (-x) = -toDegrees P.pi x := by
  have A := angleFmt hP
  have hpi : P.pi.val ≠ 0 := by have := A.lo; intro h; linarith
  have h180 : (180 : Flt P.fmt).val ≠ 0 := by rw [A.fin180.2]; norm_num
  unfold toRadians toDegrees
  rw [Flt.neg_mul', Flt.neg_mul', neg_div_fin A.fin180.1 h180, neg_div_fin A.fin hpi]
  exact ⟨rfl, rfl⟩

example : (1 : Flt binary32.fmt).isFinite := trivial

/-- C120: angles within a turn are converted to radians within a turn, without any rounding error at the end: from -360 to 360 degrees the
result is between `-two_pi()` and `two_pi()`; from 0 to 180 degrees it is between 0 and `pi()`. -/
theorem C120_range (hP : P = binary32 ∨ P = binary64) {d : Flt P.fmt} :
    (Cmp.le (-360) d = true → Cmp.le d 360 = true → Cmp.le (-P.twoPi) (toRadians P.pi d) = true ∧ Cmp.le (toRadians P.pi d) P.twoPi = true) ∧
    (Cmp.le 0 d = true → Cmp.le d 180 = true → Cmp.le 0 (toRadians P.pi d) = true ∧ Cmp.le (toRadians P.pi d) P.pi = true) := by
  have A := angleFmt hP
  obtain ⟨⟨-, -, q180, -, q360⟩, -⟩ := C120_quarter_turns hP
  have hm : ∀ {x y : Flt P.fmt}, Cmp.le x y = true → Cmp.le (toRadians P.pi x) (toRadians P.pi y) = true := fun h => (C120_monotone hP h).1
  refine ⟨fun h1 h2 => ⟨?_, by have := hm h2; rwa [q360] at this⟩, fun h1 h2 => ⟨?_, by have := hm h2; rwa [q180] at this⟩⟩
  · have := hm h1
    rwa [(C120_odd hP _).1, q360] at this
  · have := hm h1
    have hz : (0 : Flt P.fmt).isFinite ∧ (0 : Flt P.fmt).val = 0 := ⟨trivial, rfl⟩
    have hb : |(0 : ℚ)| < P.bound := by rw [abs_zero]; exact P.bound_pos
    have e := is_div (c := 0) (is_mul (c := 0) hz ⟨A.fin, rfl⟩ (by rw [zero_mul, P.fl_zero]) hb) A.fin180 (by norm_num)
      (by rw [zero_div, P.fl_zero]) hb
    have e' : toRadians P.pi 0 = 0 := Flt.ext e.1 hz.1 (e.2.trans hz.2.symm)
    rwa [e'] at this

example : Cmp.le (-360 : Flt binary32.fmt) (0 : Flt binary32.fmt) = true ∧ Cmp.le (0 : Flt binary32.fmt) 360 = true ∧ Cmp.le (0 : Flt binary32.fmt) 180 = true := by
  have n360 := nat_is (P := binary32) (Or.inl rfl) 360 (by norm_num)
  have n180 := nat_is (P := binary32) (Or.inl rfl) 180 (by norm_num)
  have hz : (0 : Flt binary32.fmt).isFinite := trivial
  refine ⟨?_, ?_, ?_⟩
  · rw [Flt.lt_asymm_le (Flt.neg_finite.2 n360.1) hz, Flt.neg_val, n360.2]; exact decide_eq_true (by norm_num [Flt.zero_val])
  · rw [Flt.lt_asymm_le hz n360.1, n360.2]; exact decide_eq_true (by norm_num [Flt.zero_val])
  · rw [Flt.lt_asymm_le hz n180.1, n180.2]; exact decide_eq_true (by norm_num [Flt.zero_val])

/-- C120: a finite result of `to_radians(d)` differs from the exact angle d·π/180 by at most three rounding errors (and twice half of the
least positive number), with the real number π; likewise `to_degrees`. -/
theorem C120_error (hP : P = binary32 ∨ P = binary64) (x : Flt P.fmt) :
    ((toRadians P.pi x).isFinite →
      |((toRadians P.pi x).val : ℝ) - x.val * Real.pi / 180| ≤ 3 * P.u * |x.val * Real.pi / 180| + 2 * P.eta) ∧
    ((toDegrees P.pi x).isFinite →
      |((toDegrees P.pi x).val : ℝ) - x.val * 180 / Real.pi| ≤ 3 * P.u * |x.val * 180 / Real.pi| + 2 * P.eta) :=
  ⟨toRadians_err (angleFmt hP), toDegrees_err (angleFmt hP)⟩

example : (toRadians binary64.pi 90).isFinite ∧ (toDegrees binary64.pi binary64.pi).isFinite := by
  obtain ⟨⟨-, h, -⟩, -, -, h', -⟩ := C120_quarter_turns (P := binary64) (Or.inr rfl)
  rw [h, h']
  exact ⟨(angle_consts (P := binary64) (Or.inr rfl)).2.1.1, nat180_64.1⟩

/-- C120: a finite result of converting an angle in degrees to radians and back differs from the angle by at most five rounding errors (and
62 halves of the least positive number). -/
theorem C120_round_trip (hP : P = binary32 ∨ P = binary64) {d : Flt P.fmt} (h : (toDegrees P.pi (toRadians P.pi d)).isFinite) :
    |(toDegrees P.pi (toRadians P.pi d)).val - d.val| ≤ 5 * P.u * |d.val| + 62 * P.eta := roundTrip_err (angleFmt hP) h

example : (toDegrees binary32.pi (toRadians binary32.pi 45)).isFinite := by
  obtain ⟨⟨h, -⟩, h', -⟩ := C120_quarter_turns (P := binary32) (Or.inl rfl)
  rw [h, h']
  exact (nat_is (P := binary32) (Or.inl rfl) 45 (by norm_num)).1

/-- C120: the round trip is not exact, not even for whole degrees: 11 degrees come back as a smaller number in `double` and as a greater one
in `float`. -/
theorem C120_round_trip_fails :
    ((toDegrees binary64.pi (toRadians binary64.pi 11)).isFinite ∧ (toDegrees binary64.pi (toRadians binary64.pi 11)).val < 11) ∧
    ((toDegrees binary32.pi (toRadians binary32.pi 11)).isFinite ∧ 11 < (toDegrees binary32.pi (toRadians binary32.pi 11)).val) := by
  have n64 := nat_is (P := binary64) (Or.inr rfl) 11 (by norm_num)
  have n32 := nat_is (P := binary32) (Or.inl rfl) 11 (by norm_num)
  have a64 : (toRadians binary64.pi 11).isFinite ∧ (toRadians binary64.pi 11).val = 6917032468650030 / 2 ^ 55 :=
    is_div (is_mul (c := 4863538454519552 / 2 ^ 47) n64 pi64 (by fl_tie (-47) 4863538454519552) (lt_bound64 (by norm_num [abs_of_pos]))) nat180_64
      (by norm_num) (by fl_num (-55) 6917032468650030) (lt_bound64 (by norm_num [abs_of_pos]))
  have a32 : (toRadians binary32.pi 11).isFinite ∧ (toRadians binary32.pi 11).val = 12883978 / 2 ^ 26 :=
    is_div (is_mul (c := 9059047 / 2 ^ 18) n32 pi32 (by fl_num (-18) 9059047) (lt_bound32 (by norm_num [abs_of_pos]))) nat180_32
      (by norm_num) (by fl_num (-26) 12883978) (lt_bound32 (by norm_num [abs_of_pos]))
  have b64 : (toDegrees binary64.pi (toRadians binary64.pi 11)).isFinite ∧ (toDegrees binary64.pi (toRadians binary64.pi 11)).val = 6192449487634431 / 2 ^ 49 :=
    is_div (is_mul (c := 4863538454519552 / 2 ^ 47) a64 nat180_64 (by fl_num (-47) 4863538454519552) (lt_bound64 (by norm_num [abs_of_pos]))) pi64
      (by norm_num) (by fl_num (-49) 6192449487634431) (lt_bound64 (by norm_num [abs_of_pos]))
  have b32 : (toDegrees binary32.pi (toRadians binary32.pi 11)).isFinite ∧ (toDegrees binary32.pi (toRadians binary32.pi 11)).val = 11534337 / 2 ^ 20 :=
    is_div (is_mul (c := 9059047 / 2 ^ 18) a32 nat180_32 (by fl_num (-18) 9059047) (lt_bound32 (by norm_num [abs_of_pos]))) pi32
      (by norm_num) (by fl_num (-20) 11534337) (lt_bound32 (by norm_num [abs_of_pos]))
  refine ⟨⟨b64.1, ?_⟩, ⟨b32.1, ?_⟩⟩
  · rw [b64.2]; norm_num
  · rw [b32.2]; norm_num

end vm
